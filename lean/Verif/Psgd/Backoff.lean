import Mathlib.Algebra.BigOperators.Group.List.Basic
import Mathlib.Algebra.Order.Field.Basic
import Mathlib.Algebra.Order.Floor.Semiring
import Mathlib.Data.Rat.Floor
import Mathlib.Tactic.Linarith
import Mathlib.Tactic.Ring
import Mathlib.Tactic.FieldSimp
import Mathlib.Tactic.Positivity
import Mathlib.Tactic.NormNum

/-
Model of `ExponentialBackoff` (`parallel_sgd/decay_policies/exponential_backoff.hpp`). Step sizes are in an ordered
field; `cutoffEpoch += firstBackoffEpoch / beta` adds the quotient in floating point and truncates, so (for exactly
representable values) it adds the integer part.
-/

namespace Ens.Psgd

variable {R : Type} [Field R] [LinearOrder R] [IsStrictOrderedRing R]

/-- Members that change (lines 71-83). -/
structure Backoff (R : Type) where
  step : R
  cutoff : Nat

/-- Constructor (lines 47-54). -/
def Backoff.init (K : Nat) (step : R) : Backoff R := ⟨step, K⟩

/-- `StepSize(numEpoch)` (lines 62-70); `gap` is the integer part of `firstBackoffEpoch / beta`. -/
def Backoff.stepSize (gap : Nat) (beta : R) (b : Backoff R) (epoch : Nat) : Backoff R × R :=
  if epoch ≥ b.cutoff then (⟨b.step * beta, b.cutoff + gap⟩, b.step * beta) else (b, b.step)

/-- State after the calls for epochs `1, ..., n` (the outer loop of `ParallelSGD`). -/
def backoffAfter (gap : Nat) (beta : R) (K : Nat) (step : R) : Nat → Backoff R
  | 0 => Backoff.init K step
  | n + 1 => ((backoffAfter gap beta K step n).stepSize gap beta (n + 1)).1

/-- Step size returned in epoch `n + 1`. -/
def backoffStep (gap : Nat) (beta : R) (K : Nat) (step : R) (n : Nat) : R :=
  ((backoffAfter gap beta K step n).stepSize gap beta (n + 1)).2

/-- Number of reductions made up to epoch `n`. -/
def reductions (gap K n : Nat) : Nat := if n < K then 0 else (n - K) / gap + 1

theorem backoffAfter_eq (gap : Nat) (hg : 0 < gap) (beta : R) (K : Nat) (hK : 0 < K) (step : R) (n : Nat) :
    backoffAfter gap beta K step n = ⟨step * beta ^ reductions gap K n, K + gap * reductions gap K n⟩ := by
  induction n with
  | zero => simp [backoffAfter, Backoff.init, reductions, hK]
  | succ n ih =>
    rw [backoffAfter, ih, Backoff.stepSize]
    simp only
    by_cases h1 : n + 1 < K
    · have e1 : reductions gap K n = 0 := if_pos (by omega)
      have e2 : reductions gap K (n + 1) = 0 := if_pos h1
      rw [e1, e2, if_neg (by omega)]
    · have e2 : reductions gap K (n + 1) = (n + 1 - K) / gap + 1 := if_neg h1
      by_cases h2 : n < K
      · have e1 : reductions gap K n = 0 := if_pos h2
        have h3 : n + 1 - K = 0 := by omega
        rw [e2, e1, h3, Nat.zero_div, if_pos (by omega)]
        simp
      · have e1 : reductions gap K n = (n - K) / gap + 1 := if_neg h2
        have h3 : n + 1 - K = (n - K) + 1 := by omega
        rw [e1, e2, h3]
        have hdm := Nat.div_add_mod (n - K) gap
        have hml := Nat.mod_lt (n - K) hg
        by_cases h4 : (n - K) % gap + 1 = gap
        · have h5 : (n - K + 1) / gap = (n - K) / gap + 1 := by
            apply Nat.div_eq_of_lt_le
            · rw [Nat.mul_comm, Nat.mul_add]; omega
            · rw [Nat.mul_comm, Nat.mul_add, Nat.mul_add]; omega
          have h6 : gap * ((n - K) / gap + 1) = gap * ((n - K) / gap) + gap := Nat.mul_succ _ _
          rw [h5, if_pos (by omega)]
          congr 1
          rw [pow_succ, pow_succ, pow_succ]; ring_nf
        · have h5 : (n - K + 1) / gap = (n - K) / gap := by
            apply Nat.div_eq_of_lt_le
            · rw [Nat.mul_comm]; omega
            · rw [Nat.mul_comm, Nat.mul_add]; omega
          have h6 : gap * ((n - K) / gap + 1) = gap * ((n - K) / gap) + gap := Nat.mul_succ _ _
          rw [h5, if_neg (by omega)]

/-- **C105** The step size of epoch `n` is `step * beta ^ r` where `r` is the number of cutoffs `K, K + g, K + 2 g, ...`
reached, with `K = firstBackoffEpoch` and `g` the integer part of `K / beta`. -/
theorem C105_step (gap : Nat) (hg : 0 < gap) (beta : R) (K : Nat) (hK : 0 < K) (step : R) (n : Nat) :
    backoffStep gap beta K step n = step * beta ^ reductions gap K (n + 1) := by
  have h := backoffAfter_eq gap hg beta K hK step (n + 1)
  rw [backoffAfter] at h
  have e : backoffStep gap beta K step n = ((backoffAfter gap beta K step n).stepSize gap beta (n + 1)).1.step := by
    unfold backoffStep Backoff.stepSize
    split <;> rfl
  rw [e, h]

theorem reductions_mono (gap K : Nat) {m n : Nat} (h : m ≤ n) : reductions gap K m ≤ reductions gap K n := by
  unfold reductions
  split
  · omega
  · rw [if_neg (by omega)]
    have : (m - K) / gap ≤ (n - K) / gap := Nat.div_le_div_right (by omega)
    omega

/-- **C105** With `0 < beta < 1` and a positive initial step, step sizes stay positive and never increase. -/
theorem C105_positive_decreasing (gap : Nat) (hg : 0 < gap) {beta : R} (hb0 : 0 < beta) (hb1 : beta < 1) (K : Nat)
    (hK : 0 < K) {step : R} (hs : 0 < step) {m n : Nat} (hmn : m ≤ n) :
    0 < backoffStep gap beta K step n ∧ backoffStep gap beta K step n ≤ backoffStep gap beta K step m := by
  rw [C105_step gap hg beta K hK, C105_step gap hg beta K hK]
  refine ⟨by positivity, ?_⟩
  exact mul_le_mul_of_nonneg_left (pow_le_pow_of_le_one hb0.le hb1.le (reductions_mono gap K (by omega))) hs.le

/-- Geometric tail with blocks of `gap` equal terms. -/
theorem sum_bound (gap : Nat) (hg : 0 < gap) {beta : R} (hb0 : 0 < beta) (hb1 : beta < 1) (K : Nat) (hK : 0 < K)
    {step : R} (hs : 0 < step) (N : Nat) :
    ((List.range N).map (backoffStep gap beta K step)).sum ≤ step * (K + gap / (1 - beta)) := by
  have h1b : (0 : R) < 1 - beta := by linarith
  have hgR : (0 : R) < gap := by exact_mod_cast hg
  have hKR : (0 : R) < K := by exact_mod_cast hK
  -- potential: what is left of the current block, plus all later blocks
  have key : ∀ N, ((List.range N).map (backoffStep gap beta K step)).sum +
      step * beta ^ reductions gap K N * (K + gap * reductions gap K N - N : R) +
      step * beta ^ reductions gap K N * (gap * beta / (1 - beta)) ≤ step * (K + gap / (1 - beta)) ∧
      (N : R) < K + gap * reductions gap K N := by
    intro N
    induction N with
    | zero =>
      have e : reductions gap K 0 = 0 := if_pos hK
      rw [e]
      simp only [List.range_zero, List.map_nil, List.sum_nil, pow_zero, Nat.cast_zero]
      refine ⟨?_, by linarith⟩
      have : gap * beta / (1 - beta) ≤ (gap : R) / (1 - beta) := by
        apply div_le_div_of_nonneg_right _ h1b.le
        nlinarith
      nlinarith
    | succ n ih =>
      obtain ⟨ih1, ih2⟩ := ih
      rw [List.range_succ, List.map_append, List.sum_append, List.map_cons, List.map_nil, List.sum_singleton,
        C105_step gap hg beta K hK]
      have hstep : reductions gap K (n + 1) = reductions gap K n ∨
          (reductions gap K (n + 1) = reductions gap K n + 1 ∧ n + 1 = K + gap * reductions gap K n) := by
        have a := backoffAfter_eq gap hg beta K hK step n
        by_cases h1 : n + 1 < K
        · left; rw [reductions, reductions, if_pos h1, if_pos (by omega)]
        · have e2 : reductions gap K (n + 1) = (n + 1 - K) / gap + 1 := if_neg h1
          by_cases h2 : n < K
          · right
            have e1 : reductions gap K n = 0 := if_pos h2
            have h3 : n + 1 - K = 0 := by omega
            rw [e2, e1, h3, Nat.zero_div]
            omega
          · have e1 : reductions gap K n = (n - K) / gap + 1 := if_neg h2
            have h3 : n + 1 - K = (n - K) + 1 := by omega
            rw [e1, e2, h3]
            have hdm := Nat.div_add_mod (n - K) gap
            have hml := Nat.mod_lt (n - K) hg
            have h6 : gap * ((n - K) / gap + 1) = gap * ((n - K) / gap) + gap := Nat.mul_succ _ _
            by_cases h4 : (n - K) % gap + 1 = gap
            · right
              have h5 : (n - K + 1) / gap = (n - K) / gap + 1 := by
                apply Nat.div_eq_of_lt_le
                · rw [Nat.mul_comm, Nat.mul_add]; omega
                · rw [Nat.mul_comm, Nat.mul_add, Nat.mul_add]; omega
              rw [h5]
              omega
            · left
              have h5 : (n - K + 1) / gap = (n - K) / gap := by
                apply Nat.div_eq_of_lt_le
                · rw [Nat.mul_comm]; omega
                · rw [Nat.mul_comm, Nat.mul_add]; omega
              rw [h5]
      have hp : 0 < step * beta ^ reductions gap K n := by positivity
      rcases hstep with h | ⟨h, hn⟩
      · rw [h]
        refine ⟨?_, ?_⟩
        · push_cast
          linarith
        · have : n + 1 < K + gap * reductions gap K (n + 1) := by
            unfold reductions
            split
            · omega
            · have := Nat.lt_div_mul_add hg (a := n + 1 - K)
              rw [Nat.mul_add, Nat.mul_comm]
              omega
          rw [h] at this
          exact_mod_cast this
      · have hnR : (n : R) + 1 = K + gap * reductions gap K n := by exact_mod_cast hn
        rw [h]
        refine ⟨?_, ?_⟩
        · push_cast
          rw [pow_succ]
          have e3 : gap * beta / (1 - beta) = gap * beta + beta * (gap * beta / (1 - beta)) := by
            field_simp
            ring
          have e4 : (K : R) + gap * (reductions gap K n + 1) - (n + 1) = gap := by linarith
          rw [e4]
          have e5 : (K : R) + gap * reductions gap K n - n = 1 := by linarith
          rw [e5] at ih1
          set A := step * beta ^ reductions gap K n with hA
          have : step * (beta ^ reductions gap K n * beta) = A * beta := by rw [hA]; ring
          rw [this]
          set B := gap * beta / (1 - beta) with hB
          have hAb : A * beta ≤ A := by nlinarith
          nlinarith
        · push_cast
          linarith
  obtain ⟨h1, h2⟩ := key N
  have hp : 0 < step * beta ^ reductions gap K N := by positivity
  have : 0 < gap * beta / (1 - beta) := by positivity
  nlinarith [mul_pos hp (sub_pos.2 h2), mul_pos hp this]

/-- **C105** The step sizes are summable: however many epochs are run, they add up to at most
`step * (K + g / (1 - beta))`, so the schedule is geometric and not a `1/k` schedule. -/
theorem C105_summable (gap : Nat) (hg : 0 < gap) {beta : R} (hb0 : 0 < beta) (hb1 : beta < 1) (K : Nat) (hK : 0 < K)
    {step : R} (hs : 0 < step) (N : Nat) :
    ((List.range N).map (backoffStep gap beta K step)).sum ≤ step * (K + gap / (1 - beta)) :=
  sum_bound gap hg hb0 hb1 K hK hs N

/-- Non-vacuity: `K = 2`, `beta = 1/2`: the first epochs. -/
example : ((List.range 10).map (backoffStep 4 (1 / 2 : ℚ) 2 1)) =
    [1, 1/2, 1/2, 1/2, 1/2, 1/4, 1/4, 1/4, 1/4, 1/8] := by decide +kernel

end Ens.Psgd
