import Verif.Sdp.Lrsdp
import Verif.AugLag.Model
import Verif.Lbfgs.Props

/-
`LRSDP::Optimize` (`sdp/lrsdp_impl.hpp:29-43`): the augmented Lagrangian loop of `Verif/AugLag/Model.lean` on the function of
`Verif/Sdp/Lrsdp.lean`. The world holds the cached matrix. Property C185.
-/

namespace Ens.Lrsdp

open Matrix AugLag

variable {n r K W : Type} [Fintype n] [Fintype r] [Field K]

/-- Inner optimizer and callbacks. The callbacks see the coordinates but do not change them. -/
structure Outside (n r K W : Type) where
  /-- `lbfgs.Optimize(augfunc, coordinates)`: cache and coordinates afterwards -/
  solve : Matrix n n K × W → Matrix n r K → List K → K → (Matrix n n K × W) × Matrix n r K
  cbBegin : W → Matrix n r K → W
  cbCons : W → Matrix n r K → Nat → K → W × Bool
  cbEval : W → Matrix n r K → K → W × Bool
  cbStep : W → Matrix n r K → W × Bool
  cbEnd : W → Matrix n r K → W

/-- What the augmented Lagrangian loop sees of an `LRSDPFunction`, given how it evaluates objective and constraints. -/
def user (p : Sdp n K) (out : Outside n r K W) (ev : Matrix n n K → Matrix n r K → K)
    (cons : Matrix n n K → Nat → Matrix n r K → K) : User (Matrix n n K × W) (Matrix n r K) K where
  numConstraints := p.all.length
  eval := fun w R => (w, ev w.1 R)
  cons := fun w i R => (w, cons w.1 i R)
  solve := out.solve
  cbBegin := fun w R => ((w.1, out.cbBegin w.2 R), R)
  cbCons := fun w R i v => ((w.1, (out.cbCons w.2 R i v).1), (out.cbCons w.2 R i v).2)
  cbEval := fun w R v => ((w.1, (out.cbEval w.2 R v).1), (out.cbEval w.2 R v).2)
  cbStep := fun w R => ((w.1, (out.cbStep w.2 R).1), R, (out.cbStep w.2 R).2)
  cbEnd := fun w R => ((w.1, out.cbEnd w.2 R), R)

/-- The code's function object. -/
def cached (p : Sdp n K) (out : Outside n r K W) : User (Matrix n n K × W) (Matrix n r K) K :=
  user p out (fun X R => evaluate p X R) fun X i R => (evalConstraint p X i R).getD 0

/-- The program itself: objective and constraints computed from the coordinates. -/
def honest (p : Sdp n K) (out : Outside n r K W) : User (Matrix n n K × W) (Matrix n r K) K :=
  user p out (fun _ R => p.obj (R * Rᵀ)) fun _ i R => if h : i < p.all.length then p.con ⟨i, h⟩ (R * Rᵀ) else 0

/-- `LRSDP::Optimize` (lines 31-43) with function object `u`: members of `augLag`, exit, final state and returned value. -/
def optimize (o : Ops K) (p : Sdp n K) (u : User (Matrix n n K × W) (Matrix n r K) K) (maxIterations fuel : Nat) (ob : Obj K)
    (w : W) (R : Matrix n r K) : Option (Obj K × Exit × St (Matrix n n K × W) (Matrix n r K) K × K) :=
  (AugLag.optimize o u maxIterations fuel { ob with sigma := o.ten } (R * Rᵀ, w) R).map fun x =>
    (x.1, x.2.1, x.2.2, evaluate p x.2.2.w.1 x.2.2.x)

/-! ### The cache during the loop -/

theorem foldl_agree {S : Type} {f g : S → Nat → S} (P : S → Prop) (hf : ∀ s i, P s → P (f s i))
    (hfg : ∀ s i, P s → f s i = g s i) : ∀ (l : List Nat) (s : S), P s → l.foldl f s = l.foldl g s ∧ P (l.foldl f s)
  | [], s, h => ⟨rfl, h⟩
  | i :: l, s, h => by
    rw [List.foldl_cons, List.foldl_cons, ← hfg s i h]
    exact foldl_agree P hf hfg l _ (hf s i h)

/-- The cached matrix is the product of the coordinates. -/
def Fresh (t : St (Matrix n n K × W) (Matrix n r K) K) : Prop := t.w.1 = t.x * t.xᵀ

theorem eval_agree (p : Sdp n K) (out : Outside n r K W) {w : Matrix n n K × W} {R : Matrix n r K} (h : w.1 = R * Rᵀ) :
    (cached p out).eval w R = (honest p out).eval w R := by
  simp only [cached, honest, user, evaluate, h, accu_eq (symm_gram R), Sdp.obj]

theorem cons_agree (p : Sdp n K) (out : Outside n r K W) {w : Matrix n n K × W} {R : Matrix n r K} (h : w.1 = R * Rᵀ)
    (i : Nat) : (cached p out).cons w i R = (honest p out).cons w i R := by
  have h1 := constraint_eq p (X := w.1) (i := i) (R := R) fun _ => h
  simp only [call, Sdp.answer] at h1
  simp only [cached, honest, user]
  congr 1
  by_cases hi : i < p.all.length
  · rw [dif_pos hi] at h1 ⊢
    cases he : evalConstraint p w.1 i R with
    | none => rw [he] at h1; cases h1
    | some v => rw [he] at h1; cases h1; rfl
  · rw [dif_neg hi] at h1 ⊢
    cases he : evalConstraint p w.1 i R with
    | none => rfl
    | some v => rw [he] at h1; cases h1

theorem penalty_agree (o : Ops K) (p : Sdp n K) (out : Outside n r K W) {w : Matrix n n K × W} {R : Matrix n r K}
    (h : w.1 = R * Rᵀ) (term : Bool) :
    penaltyOf o (cached p out) R w term = penaltyOf o (honest p out) R w term ∧
      (penaltyOf o (cached p out) R w term).1.1 = R * Rᵀ := by
  refine foldl_agree (P := fun s : (Matrix n n K × W) × K × Bool × List (Ev (Matrix n r K) K) => s.1.1 = R * Rᵀ) ?_ ?_ _ _ h
  · intro s i hs; exact hs
  · intro s i hs
    unfold penaltyLoop
    rw [cons_agree p out hs]
    rfl

theorem lambda_agree (o : Ops K) (p : Sdp n K) (out : Outside n r K W) {w : Matrix n n K × W} {R : Matrix n r K}
    (h : w.1 = R * Rᵀ) (sigma : K) (lam : List K) (term : Bool) :
    lambdaOf o (cached p out) R sigma w lam term = lambdaOf o (honest p out) R sigma w lam term ∧
      (lambdaOf o (cached p out) R sigma w lam term).1.1 = R * Rᵀ := by
  refine foldl_agree (P := fun s : (Matrix n n K × W) × List K × Bool × List (Ev (Matrix n r K) K) => s.1.1 = R * Rᵀ) ?_ ?_ _ _ h
  · intro s i hs; exact hs
  · intro s i hs
    unfold lambdaLoop
    rw [cons_agree p out hs]
    rfl

/-- The state handed on or handed back is fresh. -/
def FreshOut : St (Matrix n n K × W) (Matrix n r K) K ⊕ (Exit × St (Matrix n n K × W) (Matrix n r K) K) → Prop
  | .inl t => Fresh t
  | .inr e => Fresh e.2

theorem update_agree (o : Ops K) (p : Sdp n K) (out : Outside n r K W) {t : St (Matrix n n K × W) (Matrix n r K) K}
    (h : Fresh t) (pen : K) :
    updateStep o (cached p out) t pen = updateStep o (honest p out) t pen ∧ FreshOut (updateStep o (cached p out) t pen) := by
  obtain ⟨e, hl⟩ := lambda_agree o p out h t.sigma t.lam t.term
  unfold updateStep
  by_cases hb : o.below pen t.threshold = true
  · rw [if_pos hb, if_pos hb, ← e]
    exact ⟨rfl, hl⟩
  · rw [if_neg hb, if_neg hb]
    by_cases hh : o.huge (o.grow t.sigma) = true
    · rw [if_pos hh, if_pos hh]
      exact ⟨rfl, h⟩
    · rw [if_neg hh, if_neg hh]
      exact ⟨rfl, h⟩

theorem body_agree (o : Ops K) (p : Sdp n K) (out : Outside n r K W)
    (hs : ∀ w R lam sigma, w.1 = R * Rᵀ → (out.solve w R lam sigma).1.1 =
      (out.solve w R lam sigma).2 * (out.solve w R lam sigma).2ᵀ)
    (maxIterations : Nat) {t : St (Matrix n n K × W) (Matrix n r K) K} (h : Fresh t) :
    body o (cached p out) maxIterations t = body o (honest p out) maxIterations t ∧
      FreshOut (body o (cached p out) maxIterations t) := by
  unfold body
  have hin : AugLag.inner (cached p out) t = AugLag.inner (honest p out) t := by
    unfold AugLag.inner
    have := eval_agree p out (hs t.w t.x t.lam t.sigma h)
    show _ = _
    simp only [show (honest p out).solve = out.solve from rfl, show (cached p out).solve = out.solve from rfl,
      show (honest p out).cbEval = (cached p out).cbEval from rfl, this]
  have hfr : Fresh (AugLag.inner (cached p out) t).1 := hs t.w t.x t.lam t.sigma h
  by_cases hg : (maxIterations = 0 ∨ t.it ≠ maxIterations - 1) ∧ t.term = false
  · rw [if_pos hg, if_pos hg]
    by_cases hu : t.lam.length < p.all.length
    · rw [if_pos (show t.lam.length < (cached p out).numConstraints from hu),
        if_pos (show t.lam.length < (honest p out).numConstraints from hu)]
      exact ⟨rfl, h⟩
    · rw [if_neg (show ¬ t.lam.length < (cached p out).numConstraints from hu),
        if_neg (show ¬ t.lam.length < (honest p out).numConstraints from hu), ← hin]
      generalize AugLag.inner (cached p out) t = q at hfr
      unfold afterInner
      by_cases hc : (o.close q.1.last q.2 && o.big q.1.sigma) = true
      · rw [if_pos hc, if_pos hc]
        exact ⟨rfl, hfr⟩
      · rw [if_neg hc, if_neg hc]
        obtain ⟨e, hp⟩ := penalty_agree o p out hfr q.1.term
        rw [← e]
        dsimp only
        by_cases ht : (penaltyOf o (cached p out) q.1.x q.1.w q.1.term).2.2.1 = true
        · rw [if_pos ht, if_pos ht]
          exact ⟨rfl, hp⟩
        · rw [if_neg ht, if_neg ht]
          refine update_agree o p out ?_ _
          exact hp
  · rw [if_neg hg, if_neg hg]
    exact ⟨rfl, h⟩

theorem iterate_agree {S O : Type} {f g : S → S ⊕ O} (P : S → Prop) (Q : O → Prop)
    (hfg : ∀ s, P s → f s = g s) (hP : ∀ s s', P s → f s = .inl s' → P s') (hQ : ∀ s q, P s → f s = .inr q → Q q) :
    ∀ (fuel : Nat) (s : S), P s → iterate f fuel s = iterate g fuel s ∧ ∀ q, iterate f fuel s = some q → Q q
  | 0, s, h => ⟨rfl, by simp [iterate]⟩
  | fuel + 1, s, h => by
    have e := hfg s h
    simp only [iterate, ← e]
    cases hf : f s with
    | inl s' => exact iterate_agree P Q hfg hP hQ fuel s' (hP s s' h hf)
    | inr q => exact ⟨rfl, fun q' hq => by cases hq; exact hQ s q h hf⟩

theorem start_agree (o : Ops K) (p : Sdp n K) (out : Outside n r K W) (term : Bool) (lam : List K) (sigma : K) (w : W)
    (R : Matrix n r K) :
    start o (cached p out) term lam sigma (R * Rᵀ, w) R = start o (honest p out) term lam sigma (R * Rᵀ, w) R ∧
      Fresh (start o (cached p out) term lam sigma (R * Rᵀ, w) R) := by
  have h0 : ((R * Rᵀ, w) : Matrix n n K × W).1 = R * Rᵀ := rfl
  have he := eval_agree p out h0
  have hw : ((cached p out).eval (R * Rᵀ, w) R).1.1 = R * Rᵀ := rfl
  obtain ⟨ep, hp⟩ := penalty_agree o p out hw term
  unfold start
  dsimp only
  rw [← he, ← ep]
  exact ⟨rfl, hp⟩

/-- **C185** (partial) If the inner optimizer leaves in the cache the product of the coordinates it hands back (its last
evaluation was there), and callbacks leave the coordinates alone, `LRSDP::Optimize` runs exactly as the augmented Lagrangian
method on the program itself, and returns the program's objective at the coordinates it hands back. Missing: inner runs
ending with an evaluation elsewhere, see `C185_returned_refuted`. -/
theorem C185_lrsdp_partial (o : Ops K) (p : Sdp n K) (out : Outside n r K W)
    (hs : ∀ w R lam sigma, w.1 = R * Rᵀ → (out.solve w R lam sigma).1.1 =
      (out.solve w R lam sigma).2 * (out.solve w R lam sigma).2ᵀ)
    (maxIterations fuel : Nat) (ob : Obj K) (w : W) (R : Matrix n r K) :
    optimize o p (cached p out) maxIterations fuel ob w R = optimize o p (honest p out) maxIterations fuel ob w R ∧
      ∀ ob' e t v, optimize o p (cached p out) maxIterations fuel ob w R = some (ob', e, t, v) → v = p.obj (t.x * t.xᵀ) := by
  have key : ∀ (ob : Obj K) (lam : List K) (sigma : K),
      run o (cached p out) maxIterations fuel ob lam sigma (R * Rᵀ, w) R =
        run o (honest p out) maxIterations fuel ob lam sigma (R * Rᵀ, w) R ∧
      ∀ q, run o (cached p out) maxIterations fuel ob lam sigma (R * Rᵀ, w) R = some q → Fresh q.2.2 := by
    intro ob lam sigma
    obtain ⟨e0, h0⟩ := start_agree o p out ob.terminate lam sigma w R
    obtain ⟨e1, h1⟩ := iterate_agree (f := body o (cached p out) maxIterations) (g := body o (honest p out) maxIterations)
      Fresh (fun q => Fresh q.2) (fun s h => (body_agree o p out hs maxIterations h).1)
      (fun s s' h hf => by have := (body_agree o p out hs maxIterations h).2; rw [hf] at this; exact this)
      (fun s q h hf => by have := (body_agree o p out hs maxIterations h).2; rw [hf] at this; exact this)
      fuel _ h0
    unfold run
    rw [← e0, ← e1]
    refine ⟨rfl, fun q hq => ?_⟩
    rw [Option.map_eq_some_iff] at hq
    obtain ⟨a, ha, rfl⟩ := hq
    exact h1 a ha
  have key2 : AugLag.optimize o (cached p out) maxIterations fuel { ob with sigma := o.ten } (R * Rᵀ, w) R =
        AugLag.optimize o (honest p out) maxIterations fuel { ob with sigma := o.ten } (R * Rᵀ, w) R ∧
      ∀ q, AugLag.optimize o (cached p out) maxIterations fuel { ob with sigma := o.ten } (R * Rᵀ, w) R = some q →
        Fresh q.2.2 := by
    unfold AugLag.optimize
    by_cases hl : ob.lam.isEmpty = true
    · simp only [hl, if_true]
      exact key _ _ _
    · simp only [hl]
      exact key _ _ _
  refine ⟨by unfold optimize; rw [key2.1], fun ob' e t v h => ?_⟩
  unfold optimize at h
  rw [Option.map_eq_some_iff] at h
  obtain ⟨a, ha, hq⟩ := h
  have hf : a.2.2.w.1 = a.2.2.x * a.2.2.xᵀ := key2.2 a ha
  cases hq
  rw [evaluate, hf, accu_eq (symm_gram _)]
  rfl

/-! ### A run with the real inner optimizer -/

/-- L-BFGS (default constants) on the augmented function of a 1×1 program: `EvaluateWithGradient` is `Evaluate` followed by
`Gradient` (`function/evaluate_with_gradient.hpp`), the world holds the cache. -/
def scalarSolver (p : Sdp (Fin 1) ℚ) (lam : List ℚ) (sigma : ℚ) (trials iterations : Nat) :
    Lbfgs.Env (Matrix (Fin 1) (Fin 1) ℚ × Unit) ℚ ℚ ℚ ((Nat → ℚ) × (Nat → ℚ)) :=
  let base := Lbfgs.scalarEnv (fun x => x) (fun x => x) trials iterations false
  { evalGrad := fun w x =>
      let e := evalAL p (fun i => lam.getD i 0) sigma (mk1 x)
      ((e.1, w.2), e.2, gradAL p e.1 (fun i => lam.getD i 0) sigma (mk1 x) 0 0)
    cbEvalGrad := fun w _ _ g => (w, g, false)
    cbBegin := fun w x => (w, x)
    cbStep := fun w x => (w, x, false)
    cbEnd := fun w x => (w, x)
    move := base.move
    dot := base.dot
    isNaN := base.isNaN
    isFinite := base.isFinite
    isZero := base.isZero
    gradSmall := base.gradSmall
    scaling := base.scaling
    direction := base.direction
    update := base.update
    stable := base.stable
    armijoConstant := base.armijoConstant
    wolfe := base.wolfe
    minStep := base.minStep
    maxStep := base.maxStep
    zero := base.zero
    one := base.one
    inc := base.inc
    dec := base.dec
    maxVal := base.maxVal
    maxLineSearchTrials := base.maxLineSearchTrials
    maxIterations := base.maxIterations }

/-- No callbacks; the inner optimizer is L-BFGS. -/
def scalarOutside (p : Sdp (Fin 1) ℚ) (trials iterations : Nat) : Outside (Fin 1) (Fin 1) ℚ Unit where
  solve := fun w R lam sigma =>
    match Lbfgs.optimize (scalarSolver p lam sigma trials iterations) Lbfgs.mem0 false 100 w (R 0 0) with
    | some r => (r.2.w, mk1 r.2.x)
    | none => (w, R)
  cbBegin := fun w _ => w
  cbCons := fun w _ _ _ => (w, false)
  cbEval := fun w _ _ => (w, false)
  cbStep := fun w _ => (w, false)
  cbEnd := fun w _ => w

/-- The default constants of `AugLagrangian` over the rationals (`penaltyThresholdFactor` 0.25, `sigmaUpdateFactor` 10). -/
def ops : Ops ℚ where
  zero := 0
  add := (· + ·)
  sq := fun c => c ^ 2
  lamUpd := fun l s c => l - s * c
  scale := fun c => c / 4
  grow := fun s => 10 * s
  close := fun a b => decide (|a - b| < 1 / 10 ^ 12)
  big := fun s => decide (500000 < s)
  huge := fun s => decide (10 ^ 307 ≤ s)
  below := fun a b => decide (a < b)
  maxE := 10 ^ 308
  ten := 10

/-- **C185** (refuted) "`LRSDP::Optimize` returns the objective at the coordinates it hands back": minimise `x` subject to
`x = 1` from `R = 1/20`, L-BFGS limited to two line-search trials and one iteration. The line search moves back to its first
trial `R = 21/20` after evaluating the second; the value returned is the objective at the second, `(11/20)²`, and the
constraint value used for the multiplier is that of the second too. -/
theorem C185_returned_refuted :
    ¬ ∀ (trials iterations maxIterations fuel : Nat) (R : ℚ) (ob' : Obj ℚ) (e : Exit)
      (t : St (Matrix (Fin 1) (Fin 1) ℚ × Unit) (Matrix (Fin 1) (Fin 1) ℚ) ℚ) (v : ℚ),
      optimize ops tiny (cached tiny (scalarOutside tiny trials iterations)) maxIterations fuel ⟨[], 0, false⟩ () (mk1 R) =
        some (ob', e, t, v) → v = tiny.obj (t.x * t.xᵀ) := by
  intro h
  have hv : ((optimize ops tiny (cached tiny (scalarOutside tiny 2 1)) 2 5 ⟨[], 0, false⟩ () (mk1 (1 / 20))).map fun q =>
      (q.2.2.1.x 0 0, q.2.2.2, decide (q.2.2.2 = tiny.obj (q.2.2.1.x * q.2.2.1.xᵀ)))) = some (21 / 20, 121 / 400, false) := by
    decide +kernel
  rw [Option.map_eq_some_iff] at hv
  obtain ⟨⟨ob', e, t, v⟩, hs, hv⟩ := hv
  have := h 2 1 2 5 (1 / 20) ob' e t v hs
  simp only [Prod.mk.injEq, decide_eq_false_iff_not] at hv
  exact hv.2.2 this

/-- A solver that meets the hypothesis of `C185_lrsdp_partial`: one gradient step of length 1/100 and an evaluation there. -/
def gradientSolver (p : Sdp (Fin 1) ℚ) : Outside (Fin 1) (Fin 1) ℚ Unit :=
  { scalarOutside p 2 1 with
    solve := fun w R lam sigma =>
      let R' := R - (1 / 100 : ℚ) • gradAL p w.1 (fun i => lam.getD i 0) sigma R
      (((evalAL p (fun i => lam.getD i 0) sigma R').1, ()), R') }

example : (∀ w R lam sigma, w.1 = R * Rᵀ → ((gradientSolver tiny).solve w R lam sigma).1.1 =
      ((gradientSolver tiny).solve w R lam sigma).2 * ((gradientSolver tiny).solve w R lam sigma).2ᵀ) ∧
    (optimize ops tiny (cached tiny (gradientSolver tiny)) 2 5 ⟨[], 0, false⟩ () (mk1 2)).map
      (fun q => (q.2.2.1.x 0 0, q.2.2.2)) = some (19 / 25, 361 / 625) :=
  ⟨fun _ _ _ _ _ => rfl, by decide +kernel⟩

end Ens.Lrsdp
