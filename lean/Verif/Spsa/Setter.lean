import Verif.Spsa.Gains

/-
C322: `MaxIterations()` of SPSA after construction (spsa.hpp:107-109). The constructor derives the member `ak` from
`maxIterations` (spsa_impl.hpp:34); the accessor does not update it.
-/

namespace Ens.Spsa

variable {W ι : Type}

/-- `MaxIterations() = n` (spsa.hpp:107-109). -/
def Params.setMaxIterations (p : Params) (n : Nat) : Params := { p with maxIterations := n }

/-- The moves of a run, in order. -/
def steps (t : List (Ev ι)) : List ((ι → ℝ) × (ι → ℝ)) := t.filterMap fun e => match e with
  | .step a b => some (a, b)
  | _ => none

/-- The loop reads of its parameters only the two gain sequences. -/
theorem loop_congr (env : Env W ι) (p q : Params) (hg : ∀ k, p.gain k = q.gain k) (hp : ∀ k, p.probe k = q.probe k) (n k : Nat)
    (s : St W ι) : loop env p n k s = loop env q n k s := by
  induction n generalizing k s with
  | zero => rfl
  | succ n ih =>
    have h1 : ∀ s, probes env p k s = probes env q k s := fun s => by simp only [probes, hp]
    have h2 : ∀ a b d s, stepPart env p k a b d s = stepPart env q k a b d s := fun a b d s => by simp only [stepPart, hp, hg]
    simp only [loop, h1, h2, ih]

theorem optimize_congr (env : Env W ι) (p q : Params) (hg : ∀ k, p.gain k = q.gain k) (hp : ∀ k, p.probe k = q.probe k)
    (hm : p.maxIterations = q.maxIterations) (w : W) (x : ι → ℝ) : optimize env p w x = optimize env q w x := by
  unfold optimize
  rw [loop_congr env p q hg hp, hm]

theorem steps_append (a b : List (Ev ι)) : steps (a ++ b) = steps a ++ steps b := List.filterMap_append

theorem probes_steps (env : Env W ι) (p : Params) (k : Nat) (s : St W ι) :
    steps (probes env p k s).2.2.2.trace = steps s.trace := by
  simp [probes, evalAt, steps]

theorem loop_grows (env : Env W ι) (p : Params) (n k : Nat) (s : St W ι) :
    steps s.trace <+: steps (loop env p n k s).2.trace := by
  induction n generalizing k s with
  | zero => exact List.prefix_rfl
  | succ n ih =>
    unfold loop
    split
    · exact List.prefix_rfl
    split
    · exact List.prefix_rfl
    split
    · exact List.prefix_rfl
    dsimp only
    split
    · rw [probes_steps]
    · refine List.IsPrefix.trans ?_ (ih _ _)
      simp only [stepPart, evalAt, steps_append, probes_steps, List.append_assoc]
      exact List.prefix_append _ _

theorem loop_prefix (env : Env W ι) (p : Params) {n m : Nat} (h : n ≤ m) (k : Nat) (s : St W ι) :
    steps (loop env p n k s).2.trace <+: steps (loop env p m k s).2.trace := by
  induction n generalizing m k s with
  | zero => exact loop_grows env p m k s
  | succ n ih =>
    obtain ⟨m, rfl⟩ : ∃ j, m = j + 1 := ⟨m - 1, by omega⟩
    unfold loop
    split
    · exact List.prefix_rfl
    split
    · exact List.prefix_rfl
    split
    · exact List.prefix_rfl
    dsimp only
    split
    · exact List.prefix_rfl
    · exact ih (by omega) _ _

theorem optimize_steps (env : Env W ι) (p : Params) (w : W) (x : ι → ℝ) :
    steps (optimize env p w x).trace = steps (loop env p p.maxIterations 0 (start env w x)).2.trace := by
  unfold optimize
  split
  all_goals rename_i h; rw [h]; simp [evalAt, steps]

/-- **C322** Lowering `MaxIterations()` after construction cuts the run short: its moves are the first moves of the run that the
optimizer as constructed would have made, whatever the objective, the callbacks and the directions. -/
theorem C322_lowering_cuts_short_partial (env : Env W ι) (p : Params) (n : Nat) (hn : n ≤ p.maxIterations) (w : W) (x : ι → ℝ) :
    steps (optimize env (p.setMaxIterations n) w x).trace <+: steps (optimize env p w x).trace ∧
      (steps (optimize env (p.setMaxIterations n) w x).trace).length ≤ n := by
  have hb : ∀ n k (s : St W ι), (steps (loop env p n k s).2.trace).length ≤ (steps s.trace).length + n := by
    intro n
    induction n with
    | zero => intro k s; exact le_rfl
    | succ n ih =>
      intro k s
      unfold loop
      split
      · simp
      split
      · simp
      split
      · simp
      dsimp only
      split
      · rw [probes_steps]; simp
      · refine (ih _ _).trans ?_
        simp only [stepPart, evalAt, steps_append, probes_steps]
        simp [steps]
        omega
  rw [optimize_steps, optimize_steps]
  have e : loop env (p.setMaxIterations n) n 0 (start env w x) = loop env p n 0 (start env w x) :=
    loop_congr env (p.setMaxIterations n) p (fun _ => rfl) (fun _ => rfl) _ _ _
  rw [show (p.setMaxIterations n).maxIterations = n from rfl, e]
  refine ⟨loop_prefix env p hn 0 _, (hb n 0 _).trans ?_⟩
  simp [start, steps]

/-- **C322** If the step sizes do not decay (`alpha = 0`) the accessor is as good as the constructor. -/
theorem C322_same_without_decay_partial (env : Env W ι) (gamma stepSize evalStep : ℝ) (n₀ n : Nat) (w : W) (x : ι → ℝ) :
    optimize env ((Params.new 0 gamma stepSize evalStep n₀).setMaxIterations n) w x =
      optimize env (Params.new 0 gamma stepSize evalStep n) w x :=
  optimize_congr env ((Params.new 0 gamma stepSize evalStep n₀).setMaxIterations n) (Params.new 0 gamma stepSize evalStep n)
    (fun k => by simp [Params.gain, Params.new, Params.setMaxIterations]) (fun _ => rfl) rfl w x

/-- One iteration of the objective `x` on the line, with the direction `+1` and idle callbacks, moves by the first gain. -/
def line : Env Unit (Fin 1) where
  evaluate := fun w x => (w, x 0)
  cbEvaluate := fun w _ _ => (w, false)
  cbBegin := fun w x => (w, x)
  cbStep := fun w x => (w, x, false)
  bits := fun w => (w, fun _ => true)
  isBad := fun _ => false
  isClose := fun _ _ => false
  dblMax := 1000

theorem line_run (p : Params) (h1 : p.maxIterations = 1) (hc : p.probe 0 ≠ 0) (x : Fin 1 → ℝ) :
    (optimize line p () x).x 0 = x 0 - p.gain 0 ∧ (optimize line p () x).obj = x 0 - p.gain 0 := by
  unfold optimize
  rw [h1]
  simp [loop, line, start, probes, evalAt, stepPart, direction]
  field_simp
  ring

/-- **C322** (refuted: attributes may be changed through the accessors). If the step sizes decay at all, an optimizer constructed
with one limit and then given another through `MaxIterations()` does not behave as one constructed with that limit: already a single
iteration on `f x = x` ends elsewhere, for every `alpha > 0`, every positive step size and every other initial limit. -/
theorem C322_setter_is_constructor_refuted (alpha gamma stepSize evalStep : ℝ) (ha : 0 < alpha) (hs : 0 < stepSize)
    (he : 0 < evalStep) (n₀ : Nat) (hn : n₀ ≠ 1) (x : Fin 1 → ℝ) :
    (optimize line ((Params.new alpha gamma stepSize evalStep n₀).setMaxIterations 1) () x).obj ≠
      (optimize line (Params.new alpha gamma stepSize evalStep 1) () x).obj := by
  have hp : ∀ n, ((Params.new alpha gamma stepSize evalStep n).probe 0) ≠ 0 := by
    intro n
    simp [Params.probe, Params.new, he.ne']
  rw [(line_run ((Params.new alpha gamma stepSize evalStep n₀).setMaxIterations 1) rfl (hp n₀) x).2, (line_run _ rfl (hp 1) x).2]
  intro h
  have h2 : stepSize / ((0 : ℝ) + 1 + 0.001 * n₀) ^ alpha = stepSize / ((0 : ℝ) + 1 + 0.001 * (1 : ℕ)) ^ alpha := by
    have h3 : ((Params.new alpha gamma stepSize evalStep n₀).setMaxIterations 1).gain 0 =
      (Params.new alpha gamma stepSize evalStep 1).gain 0 := by linarith
    simpa [Params.gain, Params.new, Params.setMaxIterations] using h3
  have p1 : (0 : ℝ) < 0 + 1 + 0.001 * n₀ := by positivity
  have p2 : (0 : ℝ) < 0 + 1 + 0.001 * (1 : ℕ) := by positivity
  rw [div_eq_div_iff (Real.rpow_pos_of_pos p1 _).ne' (Real.rpow_pos_of_pos p2 _).ne'] at h2
  have h4 := mul_left_cancel₀ hs.ne' h2
  have h5 := Real.rpow_left_injOn ha.ne' p2.le p1.le h4
  have h6 : (n₀ : ℝ) = (1 : ℕ) := by
    have : (0.001 : ℝ) ≠ 0 := by norm_num
    have h7 : (0.001 : ℝ) * n₀ = 0.001 * (1 : ℕ) := by linarith
    exact mul_left_cancel₀ this h7
  exact hn (by exact_mod_cast h6)

/-- **C322** The direction of the error: lowering the limit through the accessor leaves every step of a run smaller than the constructor
would have made it, raising it leaves every step larger. -/
theorem C322_stale_gain (alpha gamma stepSize evalStep : ℝ) (ha : 0 < alpha) (hs : 0 < stepSize) (n₀ n k : Nat) (h : n < n₀) :
    ((Params.new alpha gamma stepSize evalStep n₀).setMaxIterations n).gain k < (Params.new alpha gamma stepSize evalStep n).gain k ∧
      (Params.new alpha gamma stepSize evalStep n₀).gain k <
        ((Params.new alpha gamma stepSize evalStep n).setMaxIterations n₀).gain k := by
  have hc : (n : ℝ) < n₀ := by exact_mod_cast h
  have p2 : (0 : ℝ) < (k : ℝ) + 1 + 0.001 * n := by positivity
  have key : stepSize / ((k : ℝ) + 1 + 0.001 * n₀) ^ alpha < stepSize / ((k : ℝ) + 1 + 0.001 * n) ^ alpha := by
    apply div_lt_div_of_pos_left hs (Real.rpow_pos_of_pos p2 _)
    apply Real.rpow_lt_rpow p2.le _ ha
    linarith
  exact ⟨key, key⟩

/-! ### Concrete cases of the hypotheses -/

/-- `C322_lowering_cuts_short_partial`: the default limit lowered to one, on a run that does move. -/
example : 1 ≤ (Params.new 1 0 1 1 100000).maxIterations ∧
    (optimize line ((Params.new 1 0 1 1 100000).setMaxIterations 1) () (fun _ => 1)).x 0 = 1 - 1 / 101 := by
  refine ⟨by simp [Params.new], ?_⟩
  rw [(line_run _ rfl (by simp [Params.probe, Params.new, Params.setMaxIterations]) _).1]
  simp [Params.gain, Params.new, Params.setMaxIterations]
  norm_num

/-- `C322_setter_is_constructor_refuted`, `C322_stale_gain`: the default parameters. -/
example : (0 : ℝ) < 0.602 ∧ (0 : ℝ) < 0.16 ∧ (0 : ℝ) < 0.3 ∧ (100000 : Nat) ≠ 1 ∧ (1 : Nat) < 100000 := by norm_num

end Ens.Spsa
