import Verif.Prob.Draws

/-
Ville's inequality: a nonnegative quantity that does not grow on average rarely ever becomes large.  Nothing here
models code of the library.
-/

namespace Ens.Prob

open scoped ENNReal

variable {D S : Type}

/-- If `V` does not grow on average over a draw, then `V` ever reaches `c` with probability at most `V s / c`, however
many draws are made. -/
theorem ville (μ : PMF D) (step : S → D → S) (V : S → ℝ≥0∞) (hV : ∀ s, ∑' z, μ z * V (step s z) ≤ V s) (c : ℝ≥0∞) :
    ∀ (n : Nat) (s : S), c * pr (draws μ n) {w | ∃ k, c ≤ V ((w.take k).foldl step s)} ≤ V s := by
  intro n
  induction n with
  | zero =>
    intro s
    by_cases hc : c ≤ V s
    · exact le_trans (mul_le_of_le_one_right (zero_le) (pr_le_one _ _)) hc
    · have h0 : pr (draws μ 0) {w | ∃ k, c ≤ V ((w.take k).foldl step s)} ≤ pr (draws μ 0) (∅ : Set (List D)) := by
        refine pr_congr_length μ 0 fun l hl h => ?_
        obtain ⟨k, hk⟩ := h
        have : l = [] := List.length_eq_zero_iff.1 hl
        subst this
        rw [List.take_nil] at hk
        exact absurd hk hc
      have h1 : pr (draws μ 0) (∅ : Set (List D)) = 0 := by unfold pr; exact MeasureTheory.measure_empty
      rw [h1] at h0
      rw [le_antisymm h0 (zero_le), mul_zero]
      exact zero_le
  | succ n ih =>
    intro s
    by_cases hc : c ≤ V s
    · exact le_trans (mul_le_of_le_one_right (zero_le) (pr_le_one _ _)) hc
    · rw [pr_draws_succ, ← ENNReal.tsum_mul_left]
      refine le_trans (ENNReal.tsum_le_tsum fun z => ?_) (hV s)
      rw [mul_left_comm]
      refine mul_le_mul_right (le_trans (mul_le_mul_right (pr_mono _ ?_) _) (ih (step s z))) _
      intro w hw
      obtain ⟨k, hk⟩ := hw
      cases k with
      | zero => exact absurd hk hc
      | succ k => exact ⟨k, by rwa [List.take_succ_cons, List.foldl_cons] at hk⟩

/-- Averages over several draws are taken one draw after the other. -/
theorem avg_draws_succ (μ : PMF D) (n : Nat) (g : List D → ℝ≥0∞) :
    ∑' w, draws μ (n + 1) w * g w = ∑' z, μ z * ∑' w, draws μ n w * g (z :: w) := by
  have e : ∀ w, draws μ (n + 1) w * g w = ∑' z, μ z * ((draws μ n).map (z :: ·) w * g w) := by
    intro w
    rw [draws, PMF.bind_apply, ← ENNReal.tsum_mul_right]
    exact tsum_congr fun z => mul_assoc _ _ _
  rw [tsum_congr e, ENNReal.tsum_comm]
  refine tsum_congr fun z => ?_
  rw [ENNReal.tsum_mul_left]
  congr 1
  classical
  have e2 : ∀ w, (draws μ n).map (z :: ·) w * g w = ∑' v, draws μ n v * (if w = z :: v then g w else 0) := by
    intro w
    rw [PMF.map_apply, ← ENNReal.tsum_mul_right]
    refine tsum_congr fun v => ?_
    split_ifs <;> simp
  rw [tsum_congr e2, ENNReal.tsum_comm]
  refine tsum_congr fun v => ?_
  rw [ENNReal.tsum_mul_left, tsum_eq_single (z :: v)]
  · simp
  · intro w hw; rw [if_neg hw]

theorem avg_draws_append (μ : PMF D) : ∀ (n m : Nat) (g : List D → ℝ≥0∞),
    ∑' w, draws μ (n + m) w * g w = ∑' l, draws μ n l * ∑' w, draws μ m w * g (l ++ w) := by
  intro n
  induction n with
  | zero =>
    intro m g
    have : ∑' l, draws μ 0 l * ∑' w, draws μ m w * g (l ++ w) = draws μ 0 [] * ∑' w, draws μ m w * g ([] ++ w) :=
      tsum_eq_single ([] : List D) fun l hl => by simp [draws, hl]
    rw [this, Nat.zero_add]
    simp [draws]
  | succ n ih =>
    intro m g
    rw [Nat.add_right_comm, avg_draws_succ, avg_draws_succ]
    refine tsum_congr fun z => ?_
    rw [ih]
    rfl

theorem markov {α : Type} (p : PMF α) (g : α → ℝ≥0∞) (c : ℝ≥0∞) : c * pr p {w | c ≤ g w} ≤ ∑' w, p w * g w := by
  rw [pr_eq, ← ENNReal.tsum_mul_left]
  refine ENNReal.tsum_le_tsum fun w => ?_
  classical
  by_cases h : c ≤ g w
  · rw [Set.indicator_of_mem (show w ∈ {w | c ≤ g w} from h), mul_comm]; gcongr
  · rw [Set.indicator_of_notMem (show w ∉ {w | c ≤ g w} from h)]; simp

end Ens.Prob
