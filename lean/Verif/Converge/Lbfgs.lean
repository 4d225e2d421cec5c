import Verif.Lbfgs.Props
import Verif.Converge.LbfgsDir
import Mathlib.Logic.Relation

/-
C256: L-BFGS on strongly convex functions. The environment of `Verif/Lbfgs/Model.lean` is filled with the arithmetic of
the library over the real numbers; the callbacks may ask to stop but do not change anything.
-/

namespace Ens.Converge

open Ens.Lbfgs
open scoped InnerProductSpace

variable {V W : Type} [NormedAddCommGroup V] [InnerProductSpace ℝ V]

/-- Parameters of the constructor of `L_BFGS` (lbfgs/lbfgs_impl.hpp:41-49), `tol` of `ChooseScalingFactor` (line 82) and
the largest number (line 261). -/
structure LbfgsCfg where
  numBasis : Nat
  maxIterations : Nat
  armijoConstant : ℝ
  wolfe : ℝ
  minGradientNorm : ℝ
  factr : ℝ
  maxLineSearchTrials : Nat
  minStep : ℝ
  maxStep : ℝ
  tol : ℝ
  maxVal : ℝ

/-- Callbacks: each may act on the outside world; two may ask to stop. -/
structure LbfgsCb (W V : Type) where
  evalGrad : W → V → ℝ → V → W × Bool
  begin : W → V → W
  step : W → V → W × Bool
  end_ : W → V → W

open scoped Classical in
/-- `ChooseScalingFactor` (lbfgs/lbfgs_impl.hpp:75-106). -/
noncomputable def scalingFactor (c : LbfgsCfg) (it : Nat) (d : V) (s y : Nat → V) : ℝ :=
  if 0 < it then
    ⟪s ((it - 1) % c.numBasis), y ((it - 1) % c.numBasis)⟫_ℝ /
      (if c.tol ≤ ⟪y ((it - 1) % c.numBasis), y ((it - 1) % c.numBasis)⟫_ℝ then
        ⟪y ((it - 1) % c.numBasis), y ((it - 1) % c.numBasis)⟫_ℝ else 1)
  else if c.tol ≤ ‖d‖ then 1 / ‖d‖ else 1

open scoped Classical in
/-- L-BFGS with exact arithmetic on the function `f` with gradient `g` (coordinates and gradients are vectors, so that
`arma::norm(gradient, 2)` of line 420 is their length). -/
noncomputable def lbfgsEnv (c : LbfgsCfg) (f : V → ℝ) (g : V → V) (u : LbfgsCb W V) :
    Env W V V ℝ ((Nat → V) × (Nat → V)) where
  evalGrad := fun w x => (w, f x, g x)
  cbEvalGrad := fun w x v d => ((u.evalGrad w x v d).1, d, (u.evalGrad w x v d).2)
  cbBegin := fun w x => (u.begin w x, x)
  cbStep := fun w x => ((u.step w x).1, x, (u.step w x).2)
  cbEnd := fun w x => (u.end_ w x, x)
  move := fun x a d => x + a • d
  dot := fun a b => ⟪a, b⟫_ℝ
  isNaN := fun _ => false
  isFinite := fun _ => true
  isZero := fun v => decide (v = 0)
  gradSmall := fun d => decide (‖d‖ < c.minGradientNorm)
  scaling := fun it d m => scalingFactor c it d m.1 m.2
  direction := fun it d sc m => searchDirection (fun a b : V => ⟪a, b⟫_ℝ) c.numBasis d it sc m.1 m.2
  update := fun it x x' d d' m =>
    (updateBasis c.numBasis it m.1 (x - x'), updateBasis c.numBasis it m.2 (d - d'))
  stable := fun a b => decide ((a - b) / max (max |a| |b|) 1 ≤ c.factr)
  armijoConstant := c.armijoConstant
  wolfe := c.wolfe
  minStep := c.minStep
  maxStep := c.maxStep
  zero := 0
  one := 1
  inc := 2.1
  dec := 0.5
  maxVal := c.maxVal
  maxLineSearchTrials := c.maxLineSearchTrials
  maxIterations := c.maxIterations

variable {c : LbfgsCfg} {f : V → ℝ} {g : V → V} {u : LbfgsCb W V}

/-- The state of `Optimize`. -/
abbrev LSt (W V : Type) := St W V V ℝ ((Nat → V) × (Nat → V))

/-- The direction computed in state `s`. -/
noncomputable def dirOf (c : LbfgsCfg) (s : LSt W V) : V :=
  searchDirection (fun a b : V => ⟪a, b⟫_ℝ) c.numBasis s.grad s.it (scalingFactor c s.it s.grad s.mem.1 s.mem.2)
    s.mem.1 s.mem.2

/-- The line search made in state `s`. -/
noncomputable def searchOf (c : LbfgsCfg) (f : V → ℝ) (g : V → V) (u : LbfgsCb W V) (s : LSt W V) :
    Option (LsExit × LS W V ℝ) :=
  iterate (lsStep (lbfgsEnv c f g u) s.x (dirOf c s) s.fv ⟪s.grad, dirOf c s⟫_ℝ
    (c.armijoConstant * ⟪s.grad, dirOf c s⟫_ℝ)) (lsFuel (lbfgsEnv c f g u))
    (lsStart (lbfgsEnv c f g u) s.w s.fv s.grad s.terminate)

/-- What the line search leaves behind. -/
structure LsDone (c : LbfgsCfg) (f : V → ℝ) (g : V → V) (x dir : V) (initF initDot lin : ℝ)
    (r : LsExit × LS W V ℝ) : Prop where
  fine : r.1 ≠ .nan
  pos : 0 < r.2.step
  bpos : 0 < r.2.bestStep
  fv : r.2.fv = f (x + r.2.step • dir)
  grad : r.2.grad = g (x + r.2.step • dir)
  best : r.2.fv < c.maxVal → f (x + r.2.bestStep • dir) ≤ r.2.fv
  ends : r.1 = .wolfe → r.2.fv ≤ initF + r.2.step * lin ∧ c.wolfe * initDot ≤ ⟪r.2.grad, dir⟫_ℝ

/-- The best step and value after a trial (lbfgs/lbfgs_impl.hpp:281-285). -/
noncomputable def bestOf (f : V → ℝ) (x dir : V) (s : LS W V ℝ) : ℝ × ℝ :=
  if f (x + s.step • dir) < s.bestObj then (s.step, f (x + s.step • dir)) else (s.bestStep, s.bestObj)

/-- The state after a trial (lbfgs/lbfgs_impl.hpp:267-286). -/
noncomputable def trialOf (f : V → ℝ) (g : V → V) (u : LbfgsCb W V) (x dir : V) (s : LS W V ℝ) : LS W V ℝ :=
  { w := (u.evalGrad s.w (x + s.step • dir) (f (x + s.step • dir)) (g (x + s.step • dir))).1, step := s.step,
    fv := f (x + s.step • dir), grad := g (x + s.step • dir), num := s.num + 1, bestStep := (bestOf f x dir s).1,
    bestObj := (bestOf f x dir s).2,
    terminate := s.terminate || (u.evalGrad s.w (x + s.step • dir) (f (x + s.step • dir)) (g (x + s.step • dir))).2,
    trials := s.trials ++ [(s.step, f (x + s.step • dir))] }

theorem lsStep_lib (x dir : V) (initF initDot lin : ℝ) (s : LS W V ℝ) :
    lsStep (lbfgsEnv c f g u) x dir initF initDot lin s =
      match width (lbfgsEnv c f g u) initF initDot lin dir s.step (f (x + s.step • dir)) (g (x + s.step • dir)) with
      | none => .inr (.wolfe, trialOf f g u x dir s)
      | some wd =>
        if s.step < c.minStep ∨ c.maxStep < s.step ∨ c.maxLineSearchTrials ≤ s.num + 1 then
          .inr (.limit, trialOf f g u x dir s)
        else .inl { trialOf f g u x dir s with step := s.step * wd } := by
  unfold lsStep
  rw [if_neg (show ¬ ((lbfgsEnv c f g u).isNaN _ = true) from Bool.false_ne_true)]
  simp only
  cases hwd : width (lbfgsEnv c f g u) initF initDot lin dir s.step (f (x + s.step • dir)) (g (x + s.step • dir)) with
  | none =>
    have : width (lbfgsEnv c f g u) initF initDot lin dir s.step
      ((lbfgsEnv c f g u).evalGrad s.w ((lbfgsEnv c f g u).move x s.step dir)).2.1
      ((lbfgsEnv c f g u).cbEvalGrad ((lbfgsEnv c f g u).evalGrad s.w ((lbfgsEnv c f g u).move x s.step dir)).1
        ((lbfgsEnv c f g u).move x s.step dir)
        ((lbfgsEnv c f g u).evalGrad s.w ((lbfgsEnv c f g u).move x s.step dir)).2.1
        ((lbfgsEnv c f g u).evalGrad s.w ((lbfgsEnv c f g u).move x s.step dir)).2.2).2.1 = none := hwd
    rw [this]
    rfl
  | some wd =>
    have : width (lbfgsEnv c f g u) initF initDot lin dir s.step
      ((lbfgsEnv c f g u).evalGrad s.w ((lbfgsEnv c f g u).move x s.step dir)).2.1
      ((lbfgsEnv c f g u).cbEvalGrad ((lbfgsEnv c f g u).evalGrad s.w ((lbfgsEnv c f g u).move x s.step dir)).1
        ((lbfgsEnv c f g u).move x s.step dir)
        ((lbfgsEnv c f g u).evalGrad s.w ((lbfgsEnv c f g u).move x s.step dir)).2.1
        ((lbfgsEnv c f g u).evalGrad s.w ((lbfgsEnv c f g u).move x s.step dir)).2.2).2.1 = some wd := hwd
    rw [this]
    rfl

theorem width_lib (dir x : V) (initF initDot lin a : ℝ) :
    width (lbfgsEnv c f g u) initF initDot lin dir a (f (x + a • dir)) (g (x + a • dir)) =
      if initF + a * lin < f (x + a • dir) then some 0.5
      else if ⟪g (x + a • dir), dir⟫_ℝ < c.wolfe * initDot then some 2.1
      else if -c.wolfe * initDot < ⟪g (x + a • dir), dir⟫_ℝ then some 0.5
      else none := rfl

theorem ls_done {x dir : V} {initF initDot lin : ℝ} {fuel : Nat} {w : W} {fv : ℝ} {d : V} {tm : Bool}
    {r : LsExit × LS W V ℝ}
    (h : iterate (lsStep (lbfgsEnv c f g u) x dir initF initDot lin) fuel (lsStart (lbfgsEnv c f g u) w fv d tm) =
      some r) : LsDone c f g x dir initF initDot lin r := by
  let Inv : LS W V ℝ → Prop := fun s => 0 < s.step ∧ 0 < s.bestStep ∧ s.bestObj ≤ c.maxVal ∧
    (s.bestObj < c.maxVal → s.bestObj = f (x + s.bestStep • dir))
  have key : ∀ s : LS W V ℝ, Inv s →
      (∀ s', lsStep (lbfgsEnv c f g u) x dir initF initDot lin s = .inl s' → Inv s') ∧
      (∀ r, lsStep (lbfgsEnv c f g u) x dir initF initDot lin s = .inr r →
        LsDone c f g x dir initF initDot lin r) := by
    intro s ⟨h1, h2, h3, h4⟩
    set b := bestOf f x dir s with hb
    have hbpos : 0 < b.1 := by rw [hb, bestOf]; split_ifs <;> assumption
    have hb1 : b.2 ≤ c.maxVal ∧ (b.2 < c.maxVal → b.2 = f (x + b.1 • dir)) ∧ b.2 ≤ f (x + s.step • dir) := by
      rw [hb, bestOf]
      split_ifs with hlt
      · exact ⟨hlt.le.trans h3, fun _ => rfl, le_refl _⟩
      · exact ⟨h3, h4, not_lt.1 hlt⟩
    set t := trialOf f g u x dir s with ht
    have hd : ∀ e, (e = .wolfe → t.fv ≤ initF + t.step * lin ∧ c.wolfe * initDot ≤ ⟪t.grad, dir⟫_ℝ) → e ≠ .nan →
        LsDone c f g x dir initF initDot lin (e, t) := by
      intro e he hn
      refine ⟨hn, h1, hbpos, rfl, rfl, fun hlt => ?_, he⟩
      show f (x + b.1 • dir) ≤ f (x + s.step • dir)
      rw [← hb1.2.1 (lt_of_le_of_lt hb1.2.2 hlt)]
      exact hb1.2.2
    constructor
    · intro s' hs'
      rw [lsStep_lib, width_lib] at hs'
      have : ∃ wd : ℝ, 0 < wd ∧ s' = { t with step := s.step * wd } := by
        split_ifs at hs' <;> simp only [reduceCtorEq, Sum.inl.injEq] at hs' <;>
          exact ⟨_, by norm_num, hs'.symm⟩
      obtain ⟨wd, hwd, rfl⟩ := this
      exact ⟨mul_pos h1 hwd, hbpos, hb1.1, hb1.2.1⟩
    · intro r hr
      rw [lsStep_lib, width_lib] at hr
      split_ifs at hr with h5 h6 h6 h7 h7 h7 h8 <;> simp only [reduceCtorEq, Sum.inr.injEq] at hr <;> subst hr
      · exact hd _ (by simp) (by simp)
      · exact hd _ (by simp) (by simp)
      · exact hd _ (by simp) (by simp)
      all_goals exact hd _ (fun _ => ⟨not_lt.1 h5, not_lt.1 (by assumption)⟩) (by simp)
  exact iterate_inv Inv _ (fun s s' hs => (key s hs).1 s') (fun s r hs => (key s hs).2 r) fuel _ r
    ⟨one_pos, one_pos, le_refl _, fun h => absurd h (lt_irrefl _)⟩ h

/-- A completed iteration. -/
structure Moved (c : LbfgsCfg) (f : V → ℝ) (g : V → V) (u : LbfgsCb W V) (s s' : LSt W V) : Prop where
  run : ∃ e t, searchOf c f g u s = some (e, t) ∧
    LsDone c f g s.x (dirOf c s) s.fv ⟪s.grad, dirOf c s⟫_ℝ (c.armijoConstant * ⟪s.grad, dirOf c s⟫_ℝ) (e, t) ∧
    s'.x = s.x + t.bestStep • dirOf c s ∧ s'.fv = t.fv ∧ s'.grad = t.grad ∧ s'.it = s.it + 1 ∧
    s'.mem = (updateBasis c.numBasis s.it s.mem.1 (s'.x - s.x), updateBasis c.numBasis s.it s.mem.2 (s'.grad - s.grad)) ∧
    c.factr < (s.fv - t.fv) / max (max |s.fv| |t.fv|) 1

/-- Where an iteration that ends the run leaves the coordinates. -/
def Ended (c : LbfgsCfg) (f : V → ℝ) (g : V → V) (u : LbfgsCb W V) (s : LSt W V) (r : Exit × LSt W V) : Prop :=
  (r.2.x = s.x ∧ r.2.it = s.it ∧ r.2.grad = s.grad ∧ r.2.fv = s.fv ∧ r.1 ≠ .stable ∧
    (r.1 = .gradient → ‖s.grad‖ < c.minGradientNorm)) ∨
  (r.1 = .stable ∧ r.2.it = s.it ∧ ∃ e t, searchOf c f g u s = some (e, t) ∧
    LsDone c f g s.x (dirOf c s) s.fv ⟪s.grad, dirOf c s⟫_ℝ (c.armijoConstant * ⟪s.grad, dirOf c s⟫_ℝ) (e, t) ∧
    r.2.x = s.x + t.bestStep • dirOf c s)

theorem step_cases (s : LSt W V) : (∀ s', step (lbfgsEnv c f g u) s = .inl s' → Moved c f g u s s') ∧
    ∀ r, step (lbfgsEnv c f g u) s = .inr r → Ended c f g u s r := by
  have hexp : step (lbfgsEnv c f g u) s =
      if ¬ (c.maxIterations = 0 ∨ s.it ≠ c.maxIterations) ∨ s.terminate = true then .inr (.loop, s)
      else if (lbfgsEnv c f g u).gradSmall s.grad = true then .inr (.gradient, { s with log := s.log ++ [s.fv] })
      else if (lbfgsEnv c f g u).isZero (scalingFactor c s.it s.grad s.mem.1 s.mem.2) = true then
        .inr (.zeroScaling, { s with log := s.log ++ [s.fv] })
      else if 0 < ⟪s.grad, dirOf c s⟫_ℝ then .inr (.notDescent, { s with log := s.log ++ [s.fv] })
      else match searchOf c f g u s with
        | none => .inr (.lsNaN, { s with log := s.log ++ [s.fv] })
        | some r => afterSearch (lbfgsEnv c f g u) { s with log := s.log ++ [s.fv] } (dirOf c s) r.1 r.2 := by
    unfold step
    have e1 : ∀ v, (lbfgsEnv c f g u).isNaN v = false := fun _ => rfl
    have e2 : ∀ v, (lbfgsEnv c f g u).isFinite v = true := fun _ => rfl
    simp only [e1, e2, Bool.false_eq_true, not_true_eq_false, if_false, or_false]
    have e3 : iterate (lsStep (lbfgsEnv c f g u) s.x
        ((lbfgsEnv c f g u).direction s.it s.grad ((lbfgsEnv c f g u).scaling s.it s.grad s.mem) s.mem) s.fv
        ((lbfgsEnv c f g u).dot s.grad
          ((lbfgsEnv c f g u).direction s.it s.grad ((lbfgsEnv c f g u).scaling s.it s.grad s.mem) s.mem))
        ((lbfgsEnv c f g u).armijoConstant * (lbfgsEnv c f g u).dot s.grad
          ((lbfgsEnv c f g u).direction s.it s.grad ((lbfgsEnv c f g u).scaling s.it s.grad s.mem) s.mem)))
        (lsFuel (lbfgsEnv c f g u)) (lsStart (lbfgsEnv c f g u) s.w s.fv s.grad s.terminate) = searchOf c f g u s := rfl
    rw [e3]
    cases searchOf c f g u s <;> rfl
  have hafter : ∀ e (t : LS W V ℝ), searchOf c f g u s = some (e, t) →
      ∃ s1 : LSt W V, ∃ s2 : LSt W V,
        s1.x = s.x + t.bestStep • dirOf c s ∧ s1.it = s.it ∧
        (s2.x = s.x + t.bestStep • dirOf c s ∧ s2.fv = t.fv ∧ s2.grad = t.grad ∧ s2.it = s.it + 1 ∧
        s2.mem = (updateBasis c.numBasis s.it s.mem.1 (s2.x - s.x), updateBasis c.numBasis s.it s.mem.2 (s2.grad - s.grad))) ∧
        afterSearch (lbfgsEnv c f g u) { s with log := s.log ++ [s.fv] } (dirOf c s) e t =
          if (s.fv - t.fv) / max (max |s.fv| |t.fv|) 1 ≤ c.factr then .inr (.stable, s1) else .inl s2 := by
    intro e t hs
    have hd := ls_done hs
    refine ⟨{ s with w := t.w, x := s.x + t.bestStep • dirOf c s, fv := t.fv, grad := t.grad, terminate := t.terminate,
                     log := s.log ++ [s.fv], evals := s.evals + t.trials.length },
      { w := (u.step t.w (s.x + t.bestStep • dirOf c s)).1, x := s.x + t.bestStep • dirOf c s, fv := t.fv, grad := t.grad,
        mem := (updateBasis c.numBasis s.it s.mem.1 (s.x + t.bestStep • dirOf c s - s.x),
          updateBasis c.numBasis s.it s.mem.2 (t.grad - s.grad)), it := s.it + 1,
        terminate := t.terminate || (u.step t.w (s.x + t.bestStep • dirOf c s)).2, log := s.log ++ [s.fv],
        evals := s.evals + t.trials.length }, rfl, rfl, ⟨rfl, rfl, rfl, rfl, rfl⟩, ?_⟩
    unfold afterSearch
    rw [if_neg hd.fine]
    have hz : ¬ ((lbfgsEnv c f g u).isZero t.bestStep = true) := by
      simp only [lbfgsEnv, decide_eq_true_eq]
      exact hd.bpos.ne'
    simp only
    rw [if_neg hz]
    simp only [lbfgsEnv, decide_eq_true_eq]
  constructor
  · intro s' h
    rw [hexp] at h
    split_ifs at h with h1 h2 h3 h4
    cases hs : searchOf c f g u s with
    | none => rw [hs] at h; simp at h
    | some r =>
      obtain ⟨e, t⟩ := r
      rw [hs] at h
      obtain ⟨s1, s2, -, -, h5, h6⟩ := hafter e t hs
      simp only at h
      rw [h6] at h
      split_ifs at h with h7
      simp only [Sum.inl.injEq] at h
      subst h
      exact ⟨e, t, hs, ls_done hs, h5.1, h5.2.1, h5.2.2.1, h5.2.2.2.1, h5.2.2.2.2, not_le.1 h7⟩
  · intro r h
    rw [hexp] at h
    split_ifs at h with h1 h2 h3 h4
    · simp only [Sum.inr.injEq] at h; subst h; exact .inl ⟨rfl, rfl, rfl, rfl, by simp, by simp⟩
    · simp only [Sum.inr.injEq] at h; subst h
      exact .inl ⟨rfl, rfl, rfl, rfl, by simp, fun _ => by simpa [lbfgsEnv] using h2⟩
    · simp only [Sum.inr.injEq] at h; subst h; exact .inl ⟨rfl, rfl, rfl, rfl, by simp, by simp⟩
    · simp only [Sum.inr.injEq] at h; subst h; exact .inl ⟨rfl, rfl, rfl, rfl, by simp, by simp⟩
    · cases hs : searchOf c f g u s with
      | none => rw [hs] at h; simp only [Sum.inr.injEq] at h; subst h; exact .inl ⟨rfl, rfl, rfl, rfl, by simp, by simp⟩
      | some q =>
        obtain ⟨e, t⟩ := q
        rw [hs] at h
        obtain ⟨s1, s2, h8, h9, -, h6⟩ := hafter e t hs
        simp only at h
        rw [h6] at h
        split_ifs at h with h7
        simp only [Sum.inr.injEq] at h
        subst h
        exact .inr ⟨rfl, h9, e, t, hs, ls_done hs, h8⟩

/-- Not stable means a decrease. -/
theorem decrease {a b factr : ℝ} (h0 : 0 ≤ factr) (h : factr < (a - b) / max (max |a| |b|) 1) : b < a := by
  have hd : 0 < max (max |a| |b|) (1 : ℝ) := lt_of_lt_of_le one_pos (le_max_right _ _)
  have := h0.trans_lt h
  rw [lt_div_iff₀ hd] at this
  linarith

/-- **C256** If L-BFGS stops because the gradient norm is below `minGradientNorm`, the objective at the coordinates it
returns is within `minGradientNorm² / (2 μ)` of every other value of a `μ`-strongly convex objective, and the coordinates
are within `minGradientNorm / μ` of the minimiser: also if the last line search did not take its last trial, so that the
small gradient belongs to another point. -/
theorem C256_gradient_exit {μ : ℝ} (hμ : 0 < μ) (hsc : StronglyConvex f g μ) (hfactr : 0 ≤ c.factr)
    {mem : (Nat → V) × (Nat → V)} {t0 : Bool} {fuel : Nat} {w : W} {x₀ : V} (hx : f x₀ < c.maxVal) {r : LSt W V}
    (h : optimize (lbfgsEnv c f g u) mem t0 fuel w x₀ = some (.gradient, r)) :
    (∀ y, f r.x ≤ f y + c.minGradientNorm ^ 2 / (2 * μ)) ∧
    ∀ y, g y = 0 → ‖r.x - y‖ ≤ c.minGradientNorm / μ := by
  unfold optimize at h
  rw [Option.map_eq_some_iff] at h
  obtain ⟨⟨e, s⟩, hit, heq⟩ := h
  simp only [Prod.mk.injEq] at heq
  obtain ⟨rfl, rfl⟩ := heq
  let Inv : LSt W V → Prop := fun s => ∃ z, s.grad = g z ∧ s.fv = f z ∧ f s.x ≤ f z ∧ s.fv < c.maxVal
  have hpost : (fun r : Exit × LSt W V => r.1 = .gradient → ∃ z, ‖g z‖ < c.minGradientNorm ∧ f r.2.x ≤ f z)
      (.gradient, s) := by
    refine iterate_inv Inv (fun r => r.1 = .gradient → ∃ z, ‖g z‖ < c.minGradientNorm ∧ f r.2.x ≤ f z) ?_ ?_ fuel _ _ ⟨x₀, rfl, rfl, le_refl _, hx⟩ hit
    · rintro s s' ⟨z, hz1, hz2, hz3, hz4⟩ hs
      obtain ⟨e, t, -, hd, h1, h2, h3, -, -, h6⟩ := ((step_cases s).1 s' hs).run
      have hlt : t.fv < s.fv := decrease hfactr h6
      refine ⟨s.x + t.step • dirOf c s, h3.trans hd.grad, h2.trans hd.fv, ?_, h2 ▸ hlt.trans hz4⟩
      rw [h1, ← hd.fv]
      exact hd.best (hlt.trans hz4)
    · rintro s r ⟨z, hz1, hz2, hz3, hz4⟩ hs hr
      rcases (step_cases s).2 r hs with ⟨h1, -, -, -, -, h2⟩ | ⟨h1, -⟩
      · exact ⟨z, hz1 ▸ h2 hr, h1 ▸ hz3⟩
      · rw [h1] at hr; cases hr
  obtain ⟨z, hz, hle⟩ := hpost rfl
  show (∀ y, f s.x ≤ f y + _) ∧ ∀ y, g y = 0 → ‖s.x - y‖ ≤ _
  have hgap : ∀ y, f s.x ≤ f y + c.minGradientNorm ^ 2 / (2 * μ) := by
    intro y
    have h1 := hsc.gap hμ z y
    have h2 : ‖g z‖ ^ 2 / (2 * μ) ≤ c.minGradientNorm ^ 2 / (2 * μ) := by
      have := pow_le_pow_left₀ (norm_nonneg _) hz.le 2
      gcongr
    simp only at hle
    linarith
  refine ⟨hgap, fun y hy => ?_⟩
  have h1 := hsc.dist hy s.x
  have h2 := hgap y
  have hG : 0 ≤ c.minGradientNorm := (norm_nonneg _).trans hz.le
  have h3 : ‖s.x - y‖ ^ 2 ≤ (c.minGradientNorm / μ) ^ 2 := by
    have : μ / 2 * ‖s.x - y‖ ^ 2 ≤ c.minGradientNorm ^ 2 / (2 * μ) := by linarith
    rw [le_div_iff₀ (by positivity)] at this
    rw [div_pow, le_div_iff₀ (by positivity)]
    linarith
  exact (pow_le_pow_iff_left₀ (norm_nonneg _) (by positivity) two_ne_zero).1 h3

/-! ### Rate -/

/-- One state of the run follows another. -/
def LNext (c : LbfgsCfg) (f : V → ℝ) (g : V → V) (u : LbfgsCb W V) (s s' : LSt W V) : Prop :=
  step (lbfgsEnv c f g u) s = .inl s'

/-- The line search of `s` ends with a step that meets the strong Wolfe conditions, no earlier trial had a smaller value,
and the gradient moves enough for `ChooseScalingFactor` to use it (lbfgs/lbfgs_impl.hpp:94). -/
def CleanSearch (c : LbfgsCfg) (f : V → ℝ) (g : V → V) (u : LbfgsCb W V) (s : LSt W V) : Prop :=
  ∃ t, searchOf c f g u s = some (.wolfe, t) ∧ t.bestStep = t.step ∧ c.tol ≤ ‖t.grad - s.grad‖ ^ 2

/-- Every iteration of the run from `s₀` that makes a step makes a clean line search. -/
def CleanRun (c : LbfgsCfg) (f : V → ℝ) (g : V → V) (u : LbfgsCb W V) (s₀ : LSt W V) : Prop :=
  ∀ s, Relation.ReflTransGen (LNext c f g u) s₀ s →
    ((∃ s', LNext c f g u s s') ∨ ∃ r, step (lbfgsEnv c f g u) s = .inr (.stable, r)) → CleanSearch c f g u s

theorem ringAfter_congr {X : Type} (nb : Nat) (init a b : Nat → X) : ∀ it, (∀ k, k < it → a k = b k) →
    ringAfter nb init a it = ringAfter nb init b it
  | 0, _ => rfl
  | it + 1, h => by
    rw [ringAfter, ringAfter, ringAfter_congr nb init a b it (fun k hk => h k (by omega)), h it (by omega)]

theorem cosBound_le_half {μ L : ℝ} (hμ : 0 < μ) (hL : μ ≤ L) {m : Nat} (hm : 0 < m) : cosBound μ L m ≤ 1 / 2 := by
  have hL0 : 0 < L := hμ.trans_le hL
  unfold cosBound
  have h1 : (μ / L) ^ 2 ≤ 1 := pow_le_one₀ (by positivity) ((div_le_one hL0).2 hL)
  have h0 : (2 : ℝ) ≤ 2 * (1 + (1 + L / μ) ^ 2) := by nlinarith [sq_nonneg (1 + L / μ)]
  have h2 : (2 : ℝ) ≤ (2 * (1 + (1 + L / μ) ^ 2)) ^ m := by
    calc (2 : ℝ) ≤ 2 * (1 + (1 + L / μ) ^ 2) := h0
      _ ≤ _ := le_self_pow₀ (by linarith) hm.ne'
  rw [div_le_div_iff₀ (by positivity) (by norm_num)]
  linarith

/-- The scaling factor of a good pair lies between `μ / L²` and `1 / μ`. -/
theorem scale_between {μ L : ℝ} (hμ : 0 < μ) (hL : μ ≤ L) {s y : V} (h : GoodPair μ L (s, y)) :
    μ / L ^ 2 ≤ ⟪s, y⟫_ℝ / ⟪y, y⟫_ℝ ∧ ⟪s, y⟫_ℝ / ⟪y, y⟫_ℝ ≤ 1 / μ := by
  have hL0 : 0 < L := hμ.trans_le hL
  obtain ⟨h1, h2, h3⟩ := h
  simp only at h1 h2 h3
  have hcs : ⟪y, s⟫_ℝ ≤ ‖y‖ * ‖s‖ := real_inner_le_norm _ _
  have hy : 0 < ‖y‖ := by
    by_contra hc
    have : y = 0 := norm_le_zero_iff.1 (not_lt.1 hc)
    rw [this, inner_zero_left] at h1
    exact lt_irrefl _ h1
  have hs : 0 < ‖s‖ := by
    by_contra hc
    have : s = 0 := norm_le_zero_iff.1 (not_lt.1 hc)
    rw [this, inner_zero_right] at h1
    exact lt_irrefl _ h1
  have hms : μ * ‖s‖ ≤ ‖y‖ := by
    have : μ * ‖s‖ * ‖s‖ ≤ ‖y‖ * ‖s‖ := by nlinarith
    exact le_of_mul_le_mul_right this hs
  rw [real_inner_comm, real_inner_self_eq_norm_sq]
  constructor
  · rw [div_le_div_iff₀ (by positivity) (by positivity)]
    have : ‖y‖ ^ 2 ≤ L ^ 2 * ‖s‖ ^ 2 := by
      rw [← mul_pow]; exact pow_le_pow_left₀ hy.le h3 2
    nlinarith
  · rw [div_le_div_iff₀ (by positivity) hμ]
    nlinarith

/-- What the states of a clean run satisfy. -/
structure CleanInv (c : LbfgsCfg) (f : V → ℝ) (g : V → V) (μ L : ℝ) (s₀ y₀ : Nat → V) (s : LSt W V) : Prop where
  grad : s.grad = g s.x
  fv : s.fv = f s.x
  hist : ∃ S Y : Nat → V, s.mem = (ringAfter c.numBasis s₀ S s.it, ringAfter c.numBasis y₀ Y s.it) ∧
    ∀ k, k < s.it → GoodPair μ L (S k, Y k) ∧ c.tol ≤ ‖Y k‖ ^ 2

/-- The angle between the direction and the negative gradient. -/
theorem dirOf_angle {μ L : ℝ} (hμ : 0 < μ) (hL : μ ≤ L) (hnb : 0 < c.numBasis) {s₀ y₀ : Nat → V} {s : LSt W V}
    (h : CleanInv c f g μ L s₀ y₀ s) :
    cosBound μ L c.numBasis * (‖s.grad‖ * ‖dirOf c s‖) ≤ -⟪s.grad, dirOf c s⟫_ℝ := by
  obtain ⟨S, Y, hmem, hp⟩ := h.hist
  have hall : ∀ p ∈ lastPairs S Y c.numBasis s.it, GoodPair μ L p := by
    intro p hp'
    obtain ⟨k, hk, rfl⟩ := List.mem_map.1 hp'
    rw [List.mem_range'_1] at hk
    exact (hp k (by omega)).1
  have hdir : dirOf c s = -bfgsInverse (scalingFactor c s.it s.grad s.mem.1 s.mem.2) (lastPairs S Y c.numBasis s.it)
      s.grad := by
    unfold dirOf
    rw [hmem]
    exact C39_bfgs_direction c.numBasis hnb s.grad s.it _ s₀ y₀ S Y (fun p hp' => (hall p hp').pos.ne')
  rw [hdir, norm_neg, inner_neg_right, neg_neg]
  rcases Nat.eq_zero_or_pos s.it with h0 | h0
  · have hl : lastPairs S Y c.numBasis s.it = [] := by rw [h0]; simp [lastPairs]
    have hsc : 0 < scalingFactor c s.it s.grad s.mem.1 s.mem.2 ∨ s.grad = 0 := by
      by_cases hz : s.grad = 0
      · exact .inr hz
      · left
        unfold scalingFactor
        rw [if_neg (by omega)]
        split_ifs
        · exact one_div_pos.2 (norm_pos_iff.2 hz)
        · exact one_pos
    rw [hl]
    simp only [bfgsInverse, List.foldl_nil, LinearMap.smul_apply, LinearMap.id_apply, norm_smul, inner_smul_right,
      real_inner_self_eq_norm_sq]
    rcases hsc with hsc | hz
    · rw [Real.norm_of_nonneg hsc.le]
      have := cosBound_le_one hμ hL c.numBasis
      have h3 : 0 ≤ ‖s.grad‖ * (scalingFactor c s.it s.grad s.mem.1 s.mem.2 * ‖s.grad‖) := by positivity
      calc _ ≤ 1 * (‖s.grad‖ * (scalingFactor c s.it s.grad s.mem.1 s.mem.2 * ‖s.grad‖)) :=
            mul_le_mul_of_nonneg_right this h3
        _ = _ := by ring
    · rw [hz]; simp
  · have hsc : scalingFactor c s.it s.grad s.mem.1 s.mem.2 = ⟪S (s.it - 1), Y (s.it - 1)⟫_ℝ /
        ⟪Y (s.it - 1), Y (s.it - 1)⟫_ℝ := by
      unfold scalingFactor
      rw [if_pos h0, hmem]
      simp only
      rw [ringAfter_get _ hnb _ _ s.it (s.it - 1) (by omega) (by omega),
        ringAfter_get _ hnb _ _ s.it (s.it - 1) (by omega) (by omega), if_pos]
      rw [real_inner_self_eq_norm_sq]
      exact (hp (s.it - 1) (by omega)).2
    have hb := scale_between hμ hL (hp (s.it - 1) (by omega)).1
    rw [← hsc] at hb
    exact direction_angle hμ hL hb.1 hb.2 _ (by simp [lastPairs]) hall s.grad

/-- Armijo, Wolfe and the angle give a decrease by a multiple of the squared gradient. -/
theorem wolfe_decrease {L κ c1 c2 a : ℝ} {x d : V} (hL : 0 < L) (hs : LSmooth f g L) (hc1 : 0 ≤ c1) (hc2 : c2 ≤ 1)
    (hκ : 0 ≤ κ) (ha : 0 < a) (hd : d ≠ 0) (hang : κ * (‖g x‖ * ‖d‖) ≤ -⟪g x, d⟫_ℝ)
    (harm : f (x + a • d) ≤ f x + a * (c1 * ⟪g x, d⟫_ℝ)) (hw : c2 * ⟪g x, d⟫_ℝ ≤ ⟪g (x + a • d), d⟫_ℝ) :
    f (x + a • d) ≤ f x - c1 * (1 - c2) / L * κ ^ 2 * ‖g x‖ ^ 2 := by
  have hd0 : 0 < ‖d‖ := norm_pos_iff.2 hd
  set D := -⟪g x, d⟫_ℝ with hD
  have hlip : ⟪g (x + a • d) - g x, d⟫_ℝ ≤ L * a * ‖d‖ ^ 2 := by
    calc ⟪g (x + a • d) - g x, d⟫_ℝ ≤ ‖g (x + a • d) - g x‖ * ‖d‖ := real_inner_le_norm _ _
      _ ≤ (L * ‖x + a • d - x‖) * ‖d‖ := by gcongr; exact hs.lip _ _
      _ = L * a * ‖d‖ ^ 2 := by rw [add_sub_cancel_left, norm_smul, Real.norm_of_nonneg ha.le]; ring
  rw [inner_sub_left] at hlip
  have hstep : (1 - c2) * D ≤ L * a * ‖d‖ ^ 2 := by rw [hD]; linarith
  have hN : 0 ≤ κ * (‖g x‖ * ‖d‖) := by positivity
  have hD0 : 0 ≤ D := hN.trans hang
  have hsq : (κ * (‖g x‖ * ‖d‖)) ^ 2 ≤ D ^ 2 := pow_le_pow_left₀ hN hang 2
  have h1 : (1 - c2) * (κ * (‖g x‖ * ‖d‖)) ^ 2 ≤ L * a * ‖d‖ ^ 2 * D := by
    calc (1 - c2) * (κ * (‖g x‖ * ‖d‖)) ^ 2 ≤ (1 - c2) * D ^ 2 := mul_le_mul_of_nonneg_left hsq (by linarith)
      _ = (1 - c2) * D * D := by ring
      _ ≤ _ := mul_le_mul_of_nonneg_right hstep hD0
  have h2 : (1 - c2) * (κ ^ 2 * ‖g x‖ ^ 2) ≤ L * a * D := by
    have : (1 - c2) * (κ ^ 2 * ‖g x‖ ^ 2) * ‖d‖ ^ 2 ≤ L * a * D * ‖d‖ ^ 2 := by nlinarith
    exact le_of_mul_le_mul_right this (by positivity)
  have h3 : (1 - c2) * (κ ^ 2 * ‖g x‖ ^ 2) / L ≤ a * D := by
    rw [div_le_iff₀ hL]; linarith
  have h4 := mul_le_mul_of_nonneg_left h3 hc1
  have h5 : c1 * ((1 - c2) * (κ ^ 2 * ‖g x‖ ^ 2) / L) = c1 * (1 - c2) / L * κ ^ 2 * ‖g x‖ ^ 2 := by ring
  rw [h5] at h4
  have h6 : a * (c1 * ⟪g x, d⟫_ℝ) = -(c1 * (a * D)) := by rw [hD]; ring
  linarith

/-- The rate: `2 μ c₁ (1 - c₂) / L` times the square of the angle bound. -/
noncomputable def lbfgsRate (c : LbfgsCfg) (μ L : ℝ) : ℝ :=
  2 * μ * (c.armijoConstant * (1 - c.wolfe) / L) * cosBound μ L c.numBasis ^ 2

theorem lbfgsRate_pos {μ L : ℝ} (hμ : 0 < μ) (hL : μ ≤ L) (h1 : 0 < c.armijoConstant) (h2 : c.wolfe < 1) :
    0 < lbfgsRate c μ L := by
  have := cosBound_pos hμ hL c.numBasis
  have hL0 : 0 < L := hμ.trans_le hL
  have : 0 < 1 - c.wolfe := by linarith
  unfold lbfgsRate; positivity

theorem lbfgsRate_le_one {μ L : ℝ} (hμ : 0 < μ) (hL : μ ≤ L) (hnb : 0 < c.numBasis) (h1 : 0 ≤ c.armijoConstant)
    (h1' : c.armijoConstant ≤ 1) (h0 : 0 ≤ c.wolfe) (h2 : c.wolfe ≤ 1) : lbfgsRate c μ L ≤ 1 := by
  have hL0 : 0 < L := hμ.trans_le hL
  have hc := cosBound_le_half hμ hL hnb
  have hc0 := (cosBound_pos hμ hL c.numBasis).le
  have hq : μ / L ≤ 1 := (div_le_one hL0).2 hL
  have e : lbfgsRate c μ L = 2 * (μ / L) * (c.armijoConstant * (1 - c.wolfe)) * cosBound μ L c.numBasis ^ 2 := by
    unfold lbfgsRate; ring
  have hp : c.armijoConstant * (1 - c.wolfe) ≤ 1 := mul_le_one₀ h1' (by linarith) (by linarith)
  have hsq : cosBound μ L c.numBasis ^ 2 ≤ (1 / 2) ^ 2 := pow_le_pow_left₀ hc0 hc 2
  rw [e]
  have hp0 : 0 ≤ c.armijoConstant * (1 - c.wolfe) := mul_nonneg h1 (by linarith)
  have a1 : 2 * (μ / L) * (c.armijoConstant * (1 - c.wolfe)) ≤ 2 * 1 * 1 := by gcongr
  have a2 : 2 * (μ / L) * (c.armijoConstant * (1 - c.wolfe)) * cosBound μ L c.numBasis ^ 2 ≤ 2 * 1 * 1 * (1 / 2) ^ 2 := by
    gcongr
  linarith

theorem clean_move {μ L : ℝ} (hμ : 0 < μ) (hL : μ ≤ L) (hsc : StronglyConvex f g μ) (hs : LSmooth f g L)
    (hnb : 0 < c.numBasis) (h1 : 0 ≤ c.armijoConstant) (h2 : c.wolfe ≤ 1) {s₀ y₀ : Nat → V} {s : LSt W V}
    (hinv : CleanInv c f g μ L s₀ y₀ s) (hclean : CleanSearch c f g u s) {e : LsExit} {t : LS W V ℝ}
    (ht : searchOf c f g u s = some (e, t)) :
    f (s.x + t.bestStep • dirOf c s) ≤ f s.x ∧ t.fv = f (s.x + t.bestStep • dirOf c s) ∧
    t.grad = g (s.x + t.bestStep • dirOf c s) ∧ c.tol ≤ ‖t.grad - s.grad‖ ^ 2 ∧
    (f (s.x + t.bestStep • dirOf c s) < f s.x →
      GoodPair μ L (t.bestStep • dirOf c s, t.grad - s.grad) ∧
      ∀ y, f (s.x + t.bestStep • dirOf c s) - f y ≤ (1 - lbfgsRate c μ L) * (f s.x - f y)) := by
  have hL0 : 0 < L := hμ.trans_le hL
  obtain ⟨t', ht', hbest, htol⟩ := hclean
  rw [ht] at ht'
  simp only [Option.some.injEq, Prod.mk.injEq] at ht'
  obtain ⟨rfl, rfl⟩ := ht'
  have hd := ls_done ht
  have hfv := hd.fv
  have hgr := hd.grad
  obtain ⟨harm, hw⟩ := hd.ends rfl
  have hpos := hd.pos
  simp only at hfv hgr harm hw hpos
  rw [← hbest] at hfv hgr harm hpos
  have hang := dirOf_angle hμ hL hnb hinv
  rw [hfv, hinv.fv] at harm
  rw [hgr] at hw
  rw [hinv.grad] at hang hw harm
  have hcos := (cosBound_pos hμ hL c.numBasis).le
  have hneg : ⟪g s.x, dirOf c s⟫_ℝ ≤ 0 := by
    have : 0 ≤ cosBound μ L c.numBasis * (‖g s.x‖ * ‖dirOf c s‖) := by positivity
    linarith
  have hle : f (s.x + t.bestStep • dirOf c s) ≤ f s.x := by
    have : t.bestStep * (c.armijoConstant * ⟪g s.x, dirOf c s⟫_ℝ) ≤ 0 :=
      mul_nonpos_of_nonneg_of_nonpos hpos.le (mul_nonpos_of_nonneg_of_nonpos h1 hneg)
    linarith
  refine ⟨hle, hfv, hgr, htol, fun hlt => ?_⟩
  have hne : t.bestStep • dirOf c s ≠ 0 := by
    intro hz
    rw [hz, add_zero] at hlt
    exact lt_irrefl _ hlt
  have hdir : dirOf c s ≠ 0 := fun hz => hne (by rw [hz, smul_zero])
  constructor
  · have hm := hsc.mono s.x (s.x + t.bestStep • dirOf c s)
    rw [add_sub_cancel_left] at hm
    have hn : 0 < ‖t.bestStep • dirOf c s‖ := norm_pos_iff.2 hne
    rw [hgr, hinv.grad]
    refine ⟨lt_of_lt_of_le (by positivity) hm, hm, ?_⟩
    have := hs.lip (s.x + t.bestStep • dirOf c s) s.x
    rwa [add_sub_cancel_left] at this
  · intro y
    have hdec := wolfe_decrease hL0 hs h1 h2 hcos hpos hdir hang harm hw
    have hgap := hsc.gap hμ s.x y
    rw [le_div_iff₀ (by positivity)] at hgap
    have hK : 0 ≤ c.armijoConstant * (1 - c.wolfe) / L * cosBound μ L c.numBasis ^ 2 := by
      have : 0 ≤ 1 - c.wolfe := by linarith
      positivity
    have := mul_le_mul_of_nonneg_left hgap hK
    have e : lbfgsRate c μ L * (f s.x - f y) =
        c.armijoConstant * (1 - c.wolfe) / L * cosBound μ L c.numBasis ^ 2 * ((f s.x - f y) * (2 * μ)) := by
      unfold lbfgsRate; ring
    rw [one_sub_mul, e]
    linarith

theorem clean_reach {μ L : ℝ} (hμ : 0 < μ) (hL : μ ≤ L) (hsc : StronglyConvex f g μ) (hs : LSmooth f g L)
    (hnb : 0 < c.numBasis) (h1 : 0 ≤ c.armijoConstant) (h1' : c.armijoConstant ≤ 1) (h0 : 0 ≤ c.wolfe)
    (h2 : c.wolfe ≤ 1) (hfactr : 0 ≤ c.factr) {mem : (Nat → V) × (Nat → V)} {t0 : Bool} {w : W} {x₀ : V}
    (hclean : CleanRun c f g u (start (lbfgsEnv c f g u) mem t0 w x₀)) {s : LSt W V}
    (h : Relation.ReflTransGen (LNext c f g u) (start (lbfgsEnv c f g u) mem t0 w x₀) s) :
    CleanInv c f g μ L mem.1 mem.2 s ∧ ∀ y, f s.x - f y ≤ (1 - lbfgsRate c μ L) ^ s.it * (f x₀ - f y) := by
  induction h with
  | refl =>
    refine ⟨⟨rfl, rfl, fun _ => 0, fun _ => 0, rfl, fun k hk => absurd hk (Nat.not_lt_zero k)⟩, fun y => ?_⟩
    show f x₀ - f y ≤ _ ^ 0 * _
    rw [pow_zero, one_mul]
  | @tail s s' hreach hnext ih =>
    obtain ⟨hinv, hrate⟩ := ih
    obtain ⟨e, t, ht, -, hx, hfv, hgr, hit, hmem, hstab⟩ := ((step_cases s).1 s' hnext).run
    have hcl := hclean s hreach (.inl ⟨s', hnext⟩)
    obtain ⟨hle, a1, a2, a3, a4⟩ := clean_move hμ hL hsc hs hnb h1 h2 hinv hcl ht
    have hlt : f (s.x + t.bestStep • dirOf c s) < f s.x := by
      rw [← a1, ← hinv.fv]; exact decrease hfactr hstab
    obtain ⟨a5, a6⟩ := a4 hlt
    rw [← hx] at a1 a2 a6
    refine ⟨⟨hgr.trans a2, hfv.trans a1, ?_⟩, fun y => ?_⟩
    · obtain ⟨S, Y, hm, hp⟩ := hinv.hist
      refine ⟨Function.update S s.it (s'.x - s.x), Function.update Y s.it (s'.grad - s.grad), ?_, ?_⟩
      · rw [hmem, hm, hit, ringAfter, ringAfter, Function.update_self, Function.update_self,
          ringAfter_congr c.numBasis mem.1 (Function.update S s.it (s'.x - s.x)) S s.it
            (fun k hk => Function.update_of_ne (by omega) _ _),
          ringAfter_congr c.numBasis mem.2 (Function.update Y s.it (s'.grad - s.grad)) Y s.it
            (fun k hk => Function.update_of_ne (by omega) _ _)]
      · intro k hk
        rw [hit] at hk
        rcases Nat.lt_succ_iff_lt_or_eq.1 hk with hk | rfl
        · rw [Function.update_of_ne (by omega), Function.update_of_ne (by omega)]
          exact hp k hk
        · rw [Function.update_self, Function.update_self, hgr, hx, add_sub_cancel_left]
          exact ⟨a5, a3⟩
    · have hr := lbfgsRate_le_one (c := c) hμ hL hnb h1 h1' h0 h2
      calc f s'.x - f y ≤ (1 - lbfgsRate c μ L) * (f s.x - f y) := a6 y
        _ ≤ (1 - lbfgsRate c μ L) * ((1 - lbfgsRate c μ L) ^ s.it * (f x₀ - f y)) :=
            mul_le_mul_of_nonneg_left (hrate y) (by linarith)
        _ = (1 - lbfgsRate c μ L) ^ s'.it * (f x₀ - f y) := by rw [hit, pow_succ]; ring

/-- **C256** L-BFGS converges linearly on a strongly convex function with Lipschitz gradient, provided the line searches
end with a step that meets the strong Wolfe conditions and is the best one tried: after `r.it` iterations the distance of
the objective to any other value has shrunk by the factor `(1 - κ)^(r.it)`, where `κ` depends only on the parameters, on
the convexity and on the Lipschitz constant, not on the dimension or on the callbacks. -/
theorem C256_linear {μ L : ℝ} (hμ : 0 < μ) (hL : μ ≤ L) (hsc : StronglyConvex f g μ) (hs : LSmooth f g L)
    (hnb : 0 < c.numBasis) (h1 : 0 ≤ c.armijoConstant) (h1' : c.armijoConstant ≤ 1) (h0 : 0 ≤ c.wolfe)
    (h2 : c.wolfe ≤ 1) (hfactr : 0 ≤ c.factr) {mem : (Nat → V) × (Nat → V)} {t0 : Bool} {w : W} {x₀ : V}
    (hclean : CleanRun c f g u (start (lbfgsEnv c f g u) mem t0 w x₀)) {fuel : Nat} {e : Exit} {r : LSt W V}
    (h : optimize (lbfgsEnv c f g u) mem t0 fuel w x₀ = some (e, r)) :
    ∀ y, f r.x - f y ≤ (1 - 2 * μ * (c.armijoConstant * (1 - c.wolfe) / L) *
      ((μ / L) ^ 2 / (2 * (1 + (1 + L / μ) ^ 2)) ^ c.numBasis) ^ 2) ^ r.it * (f x₀ - f y) := by
  unfold optimize at h
  rw [Option.map_eq_some_iff] at h
  obtain ⟨⟨e, s⟩, hit, heq⟩ := h
  simp only [Prod.mk.injEq] at heq
  obtain ⟨rfl, rfl⟩ := heq
  set s₀ := start (lbfgsEnv c f g u) mem t0 w x₀ with hs₀
  have hpost := iterate_inv (fun s => Relation.ReflTransGen (LNext c f g u) s₀ s)
    (fun r : Exit × LSt W V => ∃ s, Relation.ReflTransGen (LNext c f g u) s₀ s ∧ step (lbfgsEnv c f g u) s = .inr r)
    (fun s s' hs h => hs.tail h) (fun s r hs h => ⟨s, hs, h⟩) fuel s₀ (e, s) .refl hit
  obtain ⟨q, hq, hstep⟩ := hpost
  obtain ⟨hinv, hrate⟩ := clean_reach hμ hL hsc hs hnb h1 h1' h0 h2 hfactr hclean hq
  intro y
  show f s.x - f y ≤ (1 - lbfgsRate c μ L) ^ s.it * (f x₀ - f y)
  rcases (step_cases q).2 _ hstep with ⟨a, b, -⟩ | ⟨a, b, e', t, ht, -, hx⟩
  · rw [a, b]; exact hrate y
  · have hcl := hclean q hq (.inr ⟨s, by rw [hstep]; simp only at a; rw [a]⟩)
    have := (clean_move hμ hL hsc hs hnb h1 h2 hinv hcl ht).1
    rw [hx, b]
    exact (sub_le_sub_right this _).trans (hrate y)

end Ens.Converge
