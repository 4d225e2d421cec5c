import Verif.Cmaes.Active

/-
C268: runs of CMA-ES and Active CMA-ES depend on the objective only through the order of its values, and do not
depend on the origin or the unit of length of the coordinate system.
-/

namespace Ens.Cmaes.Numeric
open Matrix

variable {d : Nat}

/-- Change of coordinates: shift by `t` and unit of length `a`. -/
def move (a : ℝ) (t : Vec d) (x : Vec d) : Vec d := a • x + t

/-- The numerical state in the other coordinates: the mean is moved, the step size scaled, the rest unchanged. -/
def moveCore (a : ℝ) (t : Vec d) (c : Core d) : Core d :=
  { c with m := move a t c.m, sigma := a * c.sigma }

/-- The events of a run in other coordinates with other values of the objective. -/
def moveEv (a : ℝ) (t : Vec d) (g : ℝ → ℝ) : Ev (Vec d) ℝ → Ev (Vec d) ℝ
  | .eval x v b => .eval (move a t x) (g v) b
  | .gen m b => .gen (g m) (g b)
  | .step x b => .step (move a t x) b
  | .endOpt x => .endOpt (move a t x)

theorem pPosition_move (lib : Lib d) (eps a : ℝ) (t : Vec d) (c : Core d) (z : Vec d) :
    pPosition lib eps (moveCore a t c) z = move a t (pPosition lib eps c z) := by
  show a • c.m + t + (a * c.sigma) • ((factor lib eps c).2 *ᵥ z) = a • (c.m + c.sigma • ((factor lib eps c).2 *ᵥ z)) + t
  rw [smul_add, smul_smul]; abel

theorem meanOf_move (P : Par d) (a : ℝ) (t : Vec d) (c : Core d) (y : Nat → Vec d) :
    meanOf P (moveCore a t c) y = move a t (meanOf P c y) := by
  show a • c.m + t + (a * c.sigma) • stepOf P y = a • (c.m + c.sigma • stepOf P y) + t
  rw [smul_add, smul_smul]; abel

theorem next_move (lib : Lib d) (P : Par d) (eps a : ℝ) (t : Vec d) (c : Core d) (z : Nat → Vec d)
    {objs objs' : List ℝ} (h : lib.sort objs' = lib.sort objs) :
    next lib P eps (moveCore a t c) z objs' = moveCore a t (next lib P eps c z objs) := by
  have hy : ranked lib eps (moveCore a t c) z objs' = ranked lib eps c z objs := by
    funext r
    show (factor lib eps c).2 *ᵥ z (lib.sort objs' r) = (factor lib eps c).2 *ᵥ z (lib.sort objs r)
    rw [h]
  unfold next
  dsimp only
  rw [hy, meanOf_move]
  have hf : factor lib eps (moveCore a t c) = factor lib eps c := rfl
  rw [hf]
  simp only [moveCore, sigmaOf, mul_assoc]

theorem sort_map {lib : Lib d} (ok : lib.Ok) {g : ℝ → ℝ} (hg : StrictMono g) (v : List ℝ) :
    lib.sort (v.map g) = lib.sort v := by
  refine ok.sort_cmp _ _ (by simp) fun i j hi hj => ?_
  rw [List.length_map] at hi hj
  simp only [List.getD_eq_getElem?_getD, List.getElem?_map, List.getElem?_eq_getElem hi, List.getElem?_eq_getElem hj,
    Option.map_some, Option.getD_some]
  exact hg.lt_iff_lt

/-- States of corresponding runs. -/
structure Rel (a : ℝ) (t : Vec d) (g : ℝ → ℝ) (s s' : St Unit (Vec d) ℝ (Core d)) : Prop where
  iterate : s'.iterate = move a t s.iterate
  overall : s'.overall = g s.overall
  cov : s'.cov = moveCore a t s.cov
  terminate : s'.terminate = s.terminate
  trace : s'.trace = s.trace.map (moveEv a t g)

section sim
variable {f f' : Vec d → ℝ} {a : ℝ} {t : Vec d} {g : ℝ → ℝ}

theorem offspring_move (hg : StrictMono g) (hf : ∀ x, f' (move a t x) = g (f x)) (lib : Lib d) (P : Par d) (k : Conf d)
    (c : Core d) (n : Nat) :
    offspring ((plain f').env lib P k) (plainSel f' lib P k) (moveCore a t c) n 0 ()
      = ((), (offspring ((plain f).env lib P k) (plainSel f lib P k) c n 0 ()).2.1.map g, false,
        (offspring ((plain f).env lib P k) (plainSel f lib P k) c n 0 ()).2.2.2.map (moveEv a t g)) := by
  rw [offspring_plain, offspring_plain]
  have hgen : (moveCore a t c).gen = c.gen := rfl
  simp only [pPosition_move, hf, hgen, List.map_map, Function.comp_def, moveEv]

open scoped Classical in
theorem takeBest_move (hg : StrictMono g) (lib : Lib d) (P : Par d) (k : Conf d)
    (m : Vec d) (v : ℝ) {s s' : St Unit (Vec d) ℝ (Core d)} (h : Rel a t g s s') :
    takeBest ((plain f').env lib P k) () (move a t m) (g v) s'
      = ((), move a t (takeBest ((plain f).env lib P k) () m v s).2.1,
        g (takeBest ((plain f).env lib P k) () m v s).2.2.1,
        (takeBest ((plain f).env lib P k) () m v s).2.2.2.1,
        (takeBest ((plain f).env lib P k) () m v s).2.2.2.2.map (moveEv a t g)) := by
  unfold takeBest
  rw [h.overall]
  by_cases hv : v < s.overall
  · rw [if_pos (hg hv), if_pos hv]
    rfl
  · rw [if_neg (by rwa [hg.lt_iff_lt]), if_neg hv, h.iterate]
    rfl

open scoped Classical in
theorem genLoop_move {lib : Lib d} (ok : lib.Ok) (P : Par d) (k : Conf d) (hg : StrictMono g)
    (hf : ∀ x, f' (move a t x) = g (f x)) (htol : k.tol ≤ 0) (patience : Nat) :
    ∀ rem s s' e e' s1 s1', Rel a t g s s' →
      genLoop ((plain f).env lib P k) (plainSel f lib P k) P.lambda patience rem s = some (e, s1) →
      genLoop ((plain f').env lib P k) (plainSel f' lib P k) P.lambda patience rem s' = some (e', s1') →
      (a = 1 ∨ (e ≠ .diverged ∧ e' ≠ .diverged)) → e' = e ∧ Rel a t g s1 s1' := by
  intro rem
  induction rem with
  | zero =>
    intro s s' e e' s1 s1' hR h h' _
    simp only [genLoop, Option.some.injEq, Prod.mk.injEq] at h h'
    obtain ⟨rfl, rfl⟩ := h
    obtain ⟨rfl, rfl⟩ := h'
    exact ⟨rfl, hR⟩
  | succ rem ih =>
    intro s s' e e' s1 s1' hR h h' hdiv
    rw [genLoop] at h h'
    by_cases hterm : s.terminate = true
    · rw [if_pos hterm] at h
      rw [if_pos (by rw [hR.terminate]; exact hterm)] at h'
      simp only [Option.some.injEq, Prod.mk.injEq] at h h'
      obtain ⟨rfl, rfl⟩ := h
      obtain ⟨rfl, rfl⟩ := h'
      exact ⟨rfl, hR⟩
    rw [if_neg hterm] at h
    rw [if_neg (by rw [hR.terminate]; exact hterm)] at h'
    by_cases hmu : P.mu = 0
    · have : ∀ c objs, ((plain f).env lib P k).recombine c objs = none := fun c objs => if_pos hmu
      dsimp only at h
      rw [this] at h
      simp at h
    have hr : ∀ c objs, ((plain f).env lib P k).recombine c objs
        = some (meanOf P c (ranked lib k.eps c (k.draws c.gen) objs)) := fun c objs => if_neg hmu
    have hr' : ∀ c objs, ((plain f').env lib P k).recombine c objs
        = some (meanOf P c (ranked lib k.eps c (k.draws c.gen) objs)) := fun c objs => if_neg hmu
    have hw : s.w = () := rfl
    have hw' : s'.w = () := rfl
    dsimp only at h h'
    rw [hr] at h
    rw [hr'] at h'
    dsimp only at h h'
    rw [hw, hR.cov, offspring_move hg hf] at h'
    set o := offspring ((plain f).env lib P k) (plainSel f lib P k) s.cov P.lambda 0 () with ho
    have ho1 : o.2.2.1 = false := by rw [ho, offspring_plain]
    dsimp only at h'
    have hrk : ranked lib k.eps (moveCore a t s.cov) (k.draws (moveCore a t s.cov).gen) (o.2.1.map g)
        = ranked lib k.eps s.cov (k.draws s.cov.gen) o.2.1 := by
      funext r
      show (factor lib k.eps s.cov).2 *ᵥ k.draws s.cov.gen (lib.sort (o.2.1.map g) r) = _
      rw [sort_map ok hg]; rfl
    rw [hrk, meanOf_move] at h'
    set m := meanOf P s.cov (ranked lib k.eps s.cov (k.draws s.cov.gen) o.2.1) with hm
    have htr : ∀ x, ((plain f).env lib P k).transform x = x := fun _ => rfl
    have htr' : ∀ x, ((plain f').env lib P k).transform x = x := fun _ => rfl
    rw [htr, plainSel_eq] at h
    rw [htr', plainSel_eq, hf] at h'
    dsimp only at h h'
    rw [takeBest_move (f := f) hg lib P k m (f m) hR] at h'
    have hU : ∀ x : Unit, x = () := fun _ => rfl
    rw [hU o.1] at h
    set b := takeBest ((plain f).env lib P k) () m (f m) s with hb
    have had : ((plain f').env lib P k).adapt (moveCore a t s.cov) (o.2.1.map g)
        = moveCore a t (((plain f).env lib P k).adapt s.cov o.2.1) :=
      next_move lib P k.eps a t s.cov (k.draws s.cov.gen) (sort_map ok hg o.2.1)
    rw [had] at h'
    set cov := ((plain f).env lib P k).adapt s.cov o.2.1 with hcov
    have hcl : ∀ x y, ((plain f).env lib P k).close x y = false := by
      intro x y
      show decide (|x - y| < k.tol) = false
      rw [decide_eq_false_iff_not]
      have := abs_nonneg (x - y); linarith
    have hcl' : ∀ x y, ((plain f').env lib P k).close x y = false := hcl
    have hnan : ∀ x, ((plain f).env lib P k).isNanInf x = false := fun _ => rfl
    have hnan' : ∀ x, ((plain f').env lib P k).isNanInf x = false := fun _ => rfl
    simp only [hcl, hnan, Bool.false_eq_true, if_false] at h
    simp only [hcl', hnan', Bool.false_eq_true, if_false] at h'
    have hRel : ∀ l l' n n', Rel a t g
        (⟨b.1, b.2.1, b.2.2.1, l, n, cov, o.2.2.1 || false || b.2.2.2.1,
          s.trace ++ o.2.2.2 ++ [Ev.eval m (f m) false] ++ b.2.2.2.2 ++ [Ev.gen (f m) b.2.2.1]⟩)
        (⟨(), move a t b.2.1, g b.2.2.1, l', n', moveCore a t cov, false || false || b.2.2.2.1,
          s'.trace ++ o.2.2.2.map (moveEv a t g) ++ [Ev.eval (move a t m) (g (f m)) false]
            ++ b.2.2.2.2.map (moveEv a t g) ++ [Ev.gen (g (f m)) (g b.2.2.1)]⟩) := by
      intro l l' n n'
      refine ⟨rfl, rfl, rfl, ?_, ?_⟩
      · show (false || false || b.2.2.2.1) = (o.2.2.1 || false || b.2.2.2.1)
        rw [ho1]
      · show _ = List.map _ _
        rw [hR.trace]
        simp [moveEv]
    have hdv : ((plain f).env lib P k).diverged cov = decide (cov.sigma > 10 ^ 14) := rfl
    have hdv' : ((plain f').env lib P k).diverged (moveCore a t cov) = decide (a * cov.sigma > 10 ^ 14) := rfl
    by_cases h1 : ((plain f).env lib P k).diverged cov = true
    · rw [if_pos h1] at h
      simp only [Option.some.injEq, Prod.mk.injEq] at h
      rcases hdiv with ha | ⟨hd, -⟩
      · have h1' : ((plain f').env lib P k).diverged (moveCore a t cov) = true := by
          rw [hdv', ha, one_mul]; rw [hdv] at h1; exact h1
        rw [if_pos h1'] at h'
        simp only [Option.some.injEq, Prod.mk.injEq] at h'
        obtain ⟨rfl, rfl⟩ := h
        obtain ⟨rfl, rfl⟩ := h'
        exact ⟨rfl, hRel _ _ _ _⟩
      · exact absurd h.1.symm hd
    · rw [if_neg h1] at h
      by_cases h1' : ((plain f').env lib P k).diverged (moveCore a t cov) = true
      · rw [if_pos h1'] at h'
        simp only [Option.some.injEq, Prod.mk.injEq] at h'
        rcases hdiv with ha | ⟨-, hd⟩
        · exfalso
          apply h1
          rw [hdv', ha, one_mul] at h1'
          rw [hdv]; exact h1'
        · exact absurd h'.1.symm hd
      · rw [if_neg h1'] at h'
        exact ih _ _ _ _ _ _ (hRel _ _ _ _) h h' hdiv

open scoped Classical in
theorem start_move (lib : Lib d) (P : Par d) (k : Conf d) (hf : ∀ x, f' (move a t x) = g (f x)) (sigma : ℝ)
    (x : Vec d) :
    Rel a t g (start ((plain f).env lib P k) 1 1 (Core.init x sigma) () x)
      (start ((plain f').env lib P k) 1 1 (Core.init (move a t x) (a * sigma)) () (move a t x)) := by
  have hx := hf x
  refine ⟨rfl, ?_, rfl, ?_, ?_⟩ <;> simp [start, initialLoop, batches, User.env, env, plain, moveEv, hx]

end sim

open scoped Classical in
/-- A run of CMA-ES or Active CMA-ES (the variant is `P`) on the plain objective `f`. -/
noncomputable def run (f : Vec d → ℝ) (lib : Lib d) (P : Par d) (k : Conf d) (patience maxIterations : Nat)
    (sigma : ℝ) (x : Vec d) : Option (Result (Vec d) ℝ) :=
  optimize ((plain f).env lib P k) (plainSel f lib P k) 1 1 P.lambda patience maxIterations (Core.init x sigma) () x

theorem run_move {f f' : Vec d → ℝ} {a : ℝ} {t : Vec d} {g : ℝ → ℝ} {lib : Lib d} (ok : lib.Ok) (P : Par d) (k : Conf d)
    (hg : StrictMono g) (hf : ∀ x, f' (move a t x) = g (f x)) (htol : k.tol ≤ 0) (patience maxIterations : Nat)
    (sigma : ℝ) (x : Vec d) (r r' : Result (Vec d) ℝ)
    (h : run f lib P k patience maxIterations sigma x = some r)
    (h' : run f' lib P k patience maxIterations (a * sigma) (move a t x) = some r')
    (hdiv : a = 1 ∨ (r.why ≠ .diverged ∧ r'.why ≠ .diverged)) :
    r'.why = r.why ∧ r'.x = move a t r.x ∧ r'.obj = g r.obj ∧ r'.trace = r.trace.map (moveEv a t g) := by
  classical
  unfold run optimize at h h'
  obtain ⟨⟨e, s⟩, h1, rfl⟩ := Option.map_eq_some_iff.1 h
  obtain ⟨⟨e', s'⟩, h1', rfl⟩ := Option.map_eq_some_iff.1 h'
  obtain ⟨he, hR⟩ := genLoop_move ok P k hg hf htol patience _ _ _ _ _ _ _ (start_move lib P k hf sigma x) h1 h1' hdiv
  refine ⟨he, hR.iterate, hR.overall, ?_⟩
  show s'.trace ++ [Ev.endOpt s'.iterate] = (s.trace ++ [Ev.endOpt s.iterate]).map _
  rw [hR.trace, hR.iterate]
  simp [moveEv]

/-- **C268**, order: with tolerance zero, runs on `f` and on `g ∘ f`, `g` strictly increasing, with the same random
numbers evaluate the same points in the same order, stop for the same reason and end at the same point; all
objective values seen are mapped by `g`. -/
theorem C268_order {lib : Lib d} (ok : lib.Ok) (P : Par d) (k : Conf d) (f : Vec d → ℝ) (g : ℝ → ℝ) (hg : StrictMono g)
    (htol : k.tol ≤ 0) (patience maxIterations : Nat) (sigma : ℝ) (x : Vec d) (r r' : Result (Vec d) ℝ)
    (h : run f lib P k patience maxIterations sigma x = some r)
    (h' : run (fun y => g (f y)) lib P k patience maxIterations sigma x = some r') :
    r'.why = r.why ∧ r'.x = r.x ∧ r'.obj = g r.obj ∧
      r'.trace = r.trace.map (fun ev => match ev with
        | .eval y v b => .eval y (g v) b
        | .gen m b => .gen (g m) (g b)
        | .step y b => .step y b
        | .endOpt y => .endOpt y) := by
  have hid : ∀ y : Vec d, move 1 0 y = y := fun y => by simp [move]
  have hf : ∀ y : Vec d, (fun y => g (f y)) (move 1 0 y) = g (f y) := fun y => by rw [hid]
  have h'' : run (fun y => g (f y)) lib P k patience maxIterations (1 * sigma) (move 1 0 x) = some r' := by
    rw [hid, one_mul]; exact h'
  obtain ⟨h1, h2, h3, h4⟩ := run_move ok P k hg hf htol patience maxIterations sigma x r r' h h'' (.inl rfl)
  refine ⟨h1, by rw [h2, hid], h3, ?_⟩
  rw [h4]
  refine List.map_congr_left fun ev _ => ?_
  cases ev <;> simp [moveEv, hid]

/-- **C268**, origin: with tolerance zero, the run on the shifted function `y ↦ f (y - t)` from the shifted starting
point is the shifted run. -/
theorem C268_translation {lib : Lib d} (ok : lib.Ok) (P : Par d) (k : Conf d) (f : Vec d → ℝ) (t : Vec d)
    (htol : k.tol ≤ 0) (patience maxIterations : Nat) (sigma : ℝ) (x : Vec d) (r r' : Result (Vec d) ℝ)
    (h : run f lib P k patience maxIterations sigma x = some r)
    (h' : run (fun y => f (y - t)) lib P k patience maxIterations sigma (x + t) = some r') :
    r'.why = r.why ∧ r'.x = r.x + t ∧ r'.obj = r.obj ∧
      r'.trace = r.trace.map (fun ev => match ev with
        | .eval y v b => .eval (y + t) v b
        | .gen m b => .gen m b
        | .step y b => .step (y + t) b
        | .endOpt y => .endOpt (y + t)) := by
  have hid : ∀ y : Vec d, move 1 t y = y + t := fun y => by simp [move]
  have hf : ∀ y : Vec d, (fun y => f (y - t)) (move 1 t y) = id (f y) := fun y => by simp [hid]
  have h'' : run (fun y => f (y - t)) lib P k patience maxIterations (1 * sigma) (move 1 t x) = some r' := by
    rw [hid, one_mul]; exact h'
  obtain ⟨h1, h2, h3, h4⟩ := run_move ok P k strictMono_id hf htol patience maxIterations sigma x r r' h h'' (.inl rfl)
  refine ⟨h1, by rw [h2, hid], h3, ?_⟩
  rw [h4]
  refine List.map_congr_left fun ev _ => ?_
  cases ev <;> simp [moveEv, hid]

/-- **C268**, unit of length: with tolerance zero, the run on `y ↦ f (y / a)` from the scaled starting point with the
scaled step size is the scaled run, unless one of the two is ended by the guard against step sizes above `1e14`. -/
theorem C268_scale {lib : Lib d} (ok : lib.Ok) (P : Par d) (k : Conf d) (f : Vec d → ℝ) (a : ℝ) (ha : 0 < a)
    (htol : k.tol ≤ 0) (patience maxIterations : Nat) (sigma : ℝ) (x : Vec d) (r r' : Result (Vec d) ℝ)
    (h : run f lib P k patience maxIterations sigma x = some r)
    (h' : run (fun y => f (a⁻¹ • y)) lib P k patience maxIterations (a * sigma) (a • x) = some r')
    (hd : r.why ≠ .diverged) (hd' : r'.why ≠ .diverged) :
    r'.why = r.why ∧ r'.x = a • r.x ∧ r'.obj = r.obj ∧
      r'.trace = r.trace.map (fun ev => match ev with
        | .eval y v b => .eval (a • y) v b
        | .gen m b => .gen m b
        | .step y b => .step (a • y) b
        | .endOpt y => .endOpt (a • y)) := by
  have hid : ∀ y : Vec d, move a 0 y = a • y := fun y => by simp [move]
  have hf : ∀ y : Vec d, (fun y => f (a⁻¹ • y)) (move a 0 y) = id (f y) := fun y => by
    simp [hid, smul_smul, inv_mul_cancel₀ ha.ne']
  have h'' : run (fun y => f (a⁻¹ • y)) lib P k patience maxIterations (a * sigma) (move a 0 x) = some r' := by
    rw [hid]; exact h'
  obtain ⟨h1, h2, h3, h4⟩ := run_move ok P k strictMono_id hf htol patience maxIterations sigma x r r' h h''
    (.inr ⟨hd, hd'⟩)
  refine ⟨h1, by rw [h2, hid], h3, ?_⟩
  rw [h4]
  refine List.map_congr_left fun ev _ => ?_
  cases ev <;> simp [moveEv, hid]

/-- Runs on the sphere function and on its exponential agree. -/
example (k : Conf 2) (htol : k.tol ≤ 0) (r r' : Result (Vec 2) ℝ)
    (h : run sphere (exactLib 2) (cmaes 2 4) k 10 1000 1 ![1, 1] = some r)
    (h' : run (fun y => Real.exp (sphere y)) (exactLib 2) (cmaes 2 4) k 10 1000 1 ![1, 1] = some r') : r'.x = r.x :=
  (C268_order (exactLib_ok 2) (cmaes 2 4) k sphere Real.exp Real.exp_strictMono htol 10 1000 1 _ r r' h h').2.1

/-- Such runs exist. -/
example (k : Conf 2) : ∃ r, run sphere (exactLib 2) (cmaes 2 4) k 10 1000 1 ![1, 1] = some r :=
  C271_population_partial (plain sphere) (exactLib 2) (cmaes 2 4) (.inl ⟨4, by norm_num, rfl⟩) k _ 1 1 10 1000 _ _ _

example (k : Conf 2) (htol : k.tol ≤ 0) (r r' : Result (Vec 2) ℝ)
    (h : run sphere (exactLib 2) (active 2 4) k 10 1000 1 ![1, 1] = some r)
    (h' : run (fun y => sphere (y - ![3, 0])) (exactLib 2) (active 2 4) k 10 1000 1 (![1, 1] + ![3, 0]) = some r') :
    r'.x = r.x + ![3, 0] :=
  (C268_translation (exactLib_ok 2) (active 2 4) k sphere ![3, 0] htol 10 1000 1 _ r r' h h').2.1

example (k : Conf 2) (htol : k.tol ≤ 0) (r r' : Result (Vec 2) ℝ)
    (h : run sphere (exactLib 2) (cmaes 2 4) k 10 1000 1 ![1, 1] = some r)
    (h' : run (fun y => sphere ((2 : ℝ)⁻¹ • y)) (exactLib 2) (cmaes 2 4) k 10 1000 (2 * 1) ((2 : ℝ) • ![1, 1]) = some r')
    (hd : r.why ≠ .diverged) (hd' : r'.why ≠ .diverged) : r'.x = (2 : ℝ) • r.x :=
  (C268_scale (exactLib_ok 2) (cmaes 2 4) k sphere 2 two_pos htol 10 1000 1 _ r r' h h' hd hd').2.1

end Ens.Cmaes.Numeric
