import Verif.Spsa.Setter
import Mathlib.Algebra.BigOperators.Group.Finset.Basic
import Mathlib.Algebra.BigOperators.Intervals
import Mathlib.Algebra.Order.BigOperators.Group.Finset

/-
C324: SPSA in two calls of `a` and `b` iterations against one call of `a + b` (spsa_impl.hpp:58-131). Limits are set through
`MaxIterations()`, so that the stability constant of the gains is the same in all calls (C322).
-/

namespace Ens.Spsa

variable {W ι : Type}

/-- The objective is a function, no callback acts and no stopping rule applies: only the random numbers depend on the world. -/
structure Idle (env : Env W ι) (f : (ι → ℝ) → ℝ) : Prop where
  evaluate : ∀ w x, env.evaluate w x = (w, f x)
  cbEvaluate : ∀ w x v, env.cbEvaluate w x v = (w, false)
  cbBegin : ∀ w x, env.cbBegin w x = (w, x)
  cbStep : ∀ w x, env.cbStep w x = (w, x, false)
  isBad : ∀ v, env.isBad v = false
  isClose : ∀ u v, env.isClose u v = false

/-- The state of the random numbers and the coordinates after a call: nothing else is kept from one call to the next. -/
noncomputable def after (env : Env W ι) (p : Params) (w : W) (x : ι → ℝ) : W × (ι → ℝ) :=
  match loop env p p.maxIterations 0 (start env w x) with
  | (.loop, s) => ((evalAt env s).2.w, (evalAt env s).2.x)
  | (_, s) => (s.w, s.x)

/-- `after` has the coordinates of `optimize`. -/
theorem after_x (env : Env W ι) (p : Params) (w : W) (x : ι → ℝ) : (after env p w x).2 = (optimize env p w x).x := by
  unfold after optimize
  split <;> rename_i h <;> rw [h]
  · rename_i e s _
    cases e
    · rfl
    · rfl
    · rename_i hne; exact absurd rfl hne

/-- One iteration, as a function of the two quantities that matter. -/
noncomputable def turn (env : Env W ι) (f : (ι → ℝ) → ℝ) (p : Params) (k : Nat) (s : W × (ι → ℝ)) : W × (ι → ℝ) :=
  let d := direction (env.bits s.1).2
  ((env.bits s.1).1, s.2 - p.gain k • fun i => (f (s.2 + p.probe k • d) - f (s.2 - p.probe k • d)) * (1 / (2 * p.probe k * d i)))

noncomputable def turns (env : Env W ι) (f : (ι → ℝ) → ℝ) (p : Params) : Nat → Nat → W × (ι → ℝ) → W × (ι → ℝ)
  | 0, _, s => s
  | n + 1, k, s => turns env f p n (k + 1) (turn env f p k s)

theorem loop_turns {env : Env W ι} {f : (ι → ℝ) → ℝ} (hi : Idle env f) (p : Params) (n k : Nat) (s : St W ι)
    (ht : s.terminate = false) :
    (loop env p n k s).1 = .loop ∧ ((loop env p n k s).2.w, (loop env p n k s).2.x) = turns env f p n k (s.w, s.x) := by
  induction n generalizing k s with
  | zero => exact ⟨rfl, rfl⟩
  | succ n ih =>
    have e : ∀ d : ι → ℝ, s.x + p.probe k • d - (2 * p.probe k) • d = s.x - p.probe k • d := fun d => by module
    have e' : ∀ d : ι → ℝ, s.x - p.probe k • d + p.probe k • d = s.x := fun d => by module
    unfold loop
    rw [if_neg (by rw [ht]; simp), hi.isBad, hi.isClose]
    simp only [Bool.false_eq_true, if_false]
    have hterm : (probes env p k { s with last := s.overall }).2.2.2.terminate = false := by
      simp [probes, evalAt, hi.evaluate, hi.cbEvaluate, ht]
    rw [hterm]
    simp only [Bool.false_eq_true, if_false]
    obtain ⟨h1, h2⟩ := ih (k + 1) (stepPart env p k (probes env p k { s with last := s.overall }).1
      (probes env p k { s with last := s.overall }).2.1 (probes env p k { s with last := s.overall }).2.2.1
      (probes env p k { s with last := s.overall }).2.2.2)
      (by simp [probes, stepPart, evalAt, hi.evaluate, hi.cbEvaluate, hi.cbStep, ht])
    refine ⟨h1, h2.trans ?_⟩
    rw [turns]
    congr 1
    simp only [probes, stepPart, evalAt, hi.evaluate, hi.cbEvaluate, hi.cbStep, turn, e, e']

theorem after_turns {env : Env W ι} {f : (ι → ℝ) → ℝ} (hi : Idle env f) (p : Params) (w : W) (x : ι → ℝ) :
    after env p w x = turns env f p p.maxIterations 0 (w, x) := by
  have hs : (start env w x).w = w ∧ (start env w x).x = x ∧ (start env w x).terminate = false := by
    simp [start, hi.cbBegin]
  obtain ⟨h1, h2⟩ := loop_turns hi p p.maxIterations 0 (start env w x) hs.2.2
  rw [hs.1, hs.2.1] at h2
  rw [← h2]
  unfold after
  split
  · rename_i s h
    rw [h]
    simp [evalAt, hi.evaluate, hi.cbEvaluate]
  · rename_i e s hne h
    rw [h] at h1
    exact absurd h1 hne

theorem turns_add (env : Env W ι) (f : (ι → ℝ) → ℝ) (p : Params) (a b k : Nat) (s : W × (ι → ℝ)) :
    turns env f p (a + b) k s = turns env f p b (k + a) (turns env f p a k s) := by
  induction a generalizing k s with
  | zero => simp [turns]
  | succ a ih =>
    rw [show a + 1 + b = (a + b) + 1 by omega, turns, ih, turns, show k + 1 + a = k + (a + 1) by omega]

/-- **C324** The part that holds: with constant gains (`alpha = gamma = 0`) and nothing that stops the run, two calls of `a` and `b`
iterations leave the coordinates and the random numbers where one call of `a + b` iterations does. -/
theorem C324_constant_gains_partial {env : Env W ι} {f : (ι → ℝ) → ℝ} (hi : Idle env f) (p : Params) (ha : p.alpha = 0)
    (hg : p.gamma = 0) (a b : Nat) (w : W) (x : ι → ℝ) :
    let first := after env (p.setMaxIterations a) w x
    after env (p.setMaxIterations b) first.1 first.2 = after env (p.setMaxIterations (a + b)) w x := by
  intro first
  have hstep : ∀ n k k' s, turns env f p n k s = turns env f p n k' s := by
    intro n
    induction n with
    | zero => intro k k' s; rfl
    | succ n ih =>
      intro k k' s
      have : turn env f p k s = turn env f p k' s := by simp [turn, Params.gain, Params.probe, ha, hg]
      rw [turns, turns, this, ih]
  have hset : ∀ m n k s, turns env f (p.setMaxIterations m) n k s = turns env f p n k s := by
    intro m n
    induction n with
    | zero => intro k s; rfl
    | succ n ih => intro k s; rw [turns, turns, ih]; rfl
  have h1 : first = turns env f p a 0 (w, x) := by
    show after env (p.setMaxIterations a) w x = _
    rw [after_turns hi, hset]; rfl
  rw [after_turns hi, after_turns hi, hset, hset]
  show turns env f p b 0 (first.1, first.2) = turns env f p (a + b) 0 (w, x)
  rw [turns_add, Prod.mk.eta, h1]
  exact hstep _ _ _ _

theorem line_idle : Idle line fun x => x 0 :=
  ⟨fun _ _ => rfl, fun _ _ _ => rfl, fun _ _ => rfl, fun _ _ => rfl, fun _ => rfl, fun _ _ => rfl⟩

/-- On the objective `x` every iteration moves by its gain. -/
theorem line_turns (p : Params) (hc : ∀ k, p.probe k ≠ 0) (n k : Nat) (x : Fin 1 → ℝ) :
    (turns line (fun x => x 0) p n k ((), x)).2 0 = x 0 - ∑ i ∈ Finset.range n, p.gain (k + i) := by
  induction n generalizing k x with
  | zero => simp [turns]
  | succ n ih =>
    rw [turns]
    have ht : turn line (fun x => x 0) p k ((), x) = ((), (turn line (fun x => x 0) p k ((), x)).2) := rfl
    have hx : (turn line (fun x => x 0) p k ((), x)).2 0 = x 0 - p.gain k := by
      have := hc k
      simp [turn, line, direction]
      field_simp
      ring
    rw [ht, ih, hx, Finset.sum_range_succ']
    simp only [Nat.add_zero]
    rw [Finset.sum_congr rfl fun i _ => by rw [show k + 1 + i = k + (i + 1) by omega]]
    ring

/-- **C324** (refuted) "Calling Optimize() again continues the run." The numbering of the iterations, and with it both gain sequences,
restarts: for every decaying step size and all `a, b ≥ 1`, two calls of `a` and `b` iterations on `f x = x` end strictly below the point
where one call of `a + b` iterations ends. -/
theorem C324_continue_refuted (p : Params) (ha : 0 < p.alpha) (hk : 0 ≤ p.ak) (hs : 0 < p.stepSize) (he : 0 < p.evalStep)
    (a b : Nat) (h1 : 1 ≤ a) (h2 : 1 ≤ b) (x : Fin 1 → ℝ) :
    (optimize line (p.setMaxIterations b) () (optimize line (p.setMaxIterations a) () x).x).x 0 <
      (optimize line (p.setMaxIterations (a + b)) () x).x 0 := by
  have hc : ∀ m k, (p.setMaxIterations m).probe k ≠ 0 := by
    intro m k
    have : (0 : ℝ) < ((k : ℝ) + 1) ^ p.gamma := Real.rpow_pos_of_pos (by positivity) _
    exact (div_pos he this).ne'
  have hrun : ∀ m y, (optimize line (p.setMaxIterations m) () y).x 0 = y 0 - ∑ i ∈ Finset.range m, p.gain i := by
    intro m y
    rw [← after_x, after_turns line_idle, line_turns _ (hc m)]
    simp [Params.setMaxIterations, Params.gain]
  rw [hrun, hrun, hrun, Finset.sum_range_add]
  have hlt : ∑ i ∈ Finset.range b, p.gain (a + i) < ∑ i ∈ Finset.range b, p.gain i := by
    apply Finset.sum_lt_sum_of_nonempty (by simp; omega)
    intro i _
    unfold Params.gain
    have hp : (0 : ℝ) < (i : ℝ) + 1 + p.ak := by positivity
    apply div_lt_div_of_pos_left hs (Real.rpow_pos_of_pos hp _)
    apply Real.rpow_lt_rpow hp.le _ ha
    have : (1 : ℝ) ≤ a := by exact_mod_cast h1
    push_cast
    linarith
  linarith

/-! ### Concrete cases of the hypotheses -/

/-- `C324_constant_gains_partial`: a world of random bits, two coordinates, constant gains; the run does move. -/
example : ∃ env : Env Nat (Fin 2), Idle env (fun x => x 0 ^ 2 + x 1 ^ 2) ∧ (Params.new 0 0 1 1 5).alpha = 0 ∧
    (Params.new 0 0 1 1 5).gamma = 0 ∧ (turn env (fun x => x 0 ^ 2 + x 1 ^ 2) (Params.new 0 0 1 1 5) 0 (0, fun _ => 1)).2 0 = -3 := by
  refine ⟨⟨fun w x => (w, x 0 ^ 2 + x 1 ^ 2), fun w _ _ => (w, false), fun w x => (w, x), fun w x => (w, x, false),
    fun w => (w + 1, fun i => (w + i.val) % 3 < 2), fun _ => false, fun _ _ => false, 1000⟩,
    ⟨fun _ _ => rfl, fun _ _ _ => rfl, fun _ _ => rfl, fun _ _ => rfl, fun _ => rfl, fun _ _ => rfl⟩, rfl, rfl, ?_⟩
  simp [turn, Params.gain, Params.probe, Params.new, direction]
  norm_num

/-- `C324_continue_refuted`: the default parameters. -/
example : 0 < (Params.new 0.602 0.101 0.16 0.3 100000).alpha ∧ 0 ≤ (Params.new 0.602 0.101 0.16 0.3 100000).ak ∧
    0 < (Params.new 0.602 0.101 0.16 0.3 100000).stepSize ∧ 0 < (Params.new 0.602 0.101 0.16 0.3 100000).evalStep := by
  norm_num [Params.new]

end Ens.Spsa
