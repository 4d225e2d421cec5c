import Verif.Cmaes.Numeric
import Mathlib.Algebra.Order.Chebyshev

/-
C264: recombination weights and learning rates of CMA-ES and Active CMA-ES are in the ranges the algorithm
needs, for every dimension and every population size with at least one parent.
-/

namespace Ens.Cmaes.Numeric
open Matrix Finset

theorem rawWeight_pos {mu j : Nat} (h : j < mu) : 0 < rawWeight mu j := by
  unfold rawWeight
  have h1 : (j : ℝ) + 1 ≤ mu := by exact_mod_cast h
  have : Real.log (j + 1) < Real.log (mu + 0.5) :=
    Real.log_lt_log (by positivity) (by norm_num; linarith)
  linarith

theorem rawWeight_lt {mu i j : Nat} (h : i < j) : rawWeight mu j < rawWeight mu i := by
  unfold rawWeight
  have h1 : (i : ℝ) < j := by exact_mod_cast h
  have : Real.log (i + 1) < Real.log (j + 1) := Real.log_lt_log (by positivity) (by linarith)
  linarith

theorem rawSum_pos {mu : Nat} (h : 1 ≤ mu) : 0 < ∑ k ∈ range mu, rawWeight mu k :=
  sum_pos (fun k hk => rawWeight_pos (mem_range.1 hk)) ⟨0, mem_range.2 h⟩

theorem weight_pos {mu j : Nat} (h : j < mu) : 0 < weight mu j :=
  div_pos (rawWeight_pos h) (rawSum_pos (by omega))

theorem weight_sum {mu : Nat} (h : 1 ≤ mu) : ∑ j ∈ range mu, weight mu j = 1 := by
  unfold weight
  rw [← sum_div, div_self (rawSum_pos h).ne']

theorem weight_le_one {mu j : Nat} (h : j < mu) : weight mu j ≤ 1 := by
  rw [← weight_sum (show 1 ≤ mu by omega)]
  exact single_le_sum (f := weight mu) (fun k hk => (weight_pos (mem_range.1 hk)).le) (mem_range.2 h)

theorem weightSq_pos {mu : Nat} (h : 1 ≤ mu) : 0 < ∑ k ∈ range mu, weight mu k ^ 2 :=
  sum_pos (fun k hk => pow_pos (weight_pos (mem_range.1 hk)) 2) ⟨0, mem_range.2 h⟩

theorem muEffective_ge {mu : Nat} (h : 1 ≤ mu) : 1 ≤ muEffective mu := by
  unfold muEffective
  rw [le_div_iff₀ (weightSq_pos h), one_mul, ← weight_sum h]
  refine sum_le_sum fun k hk => ?_
  have h0 := weight_pos (mem_range.1 hk)
  have h1 := weight_le_one (mem_range.1 hk)
  nlinarith

theorem muEffective_le {mu : Nat} (h : 1 ≤ mu) : muEffective mu ≤ mu := by
  unfold muEffective
  rw [div_le_iff₀ (weightSq_pos h)]
  have := sq_sum_le_card_mul_sum_sq (s := range mu) (f := weight mu)
  rw [weight_sum h] at this
  simpa using this

theorem enn_pos {n : ℝ} (hn : 1 ≤ n) : 0 < ennOf n := by
  unfold ennOf
  have h1 : 1 / (4 * n) ≤ 1 / 4 := by
    apply one_div_le_one_div_of_le <;> linarith
  have h2 : 0 < 1 / (21 * n ^ 2) := by positivity
  exact mul_pos (Real.sqrt_pos.2 (by linarith)) (by linarith)

theorem cs_pos {n me : ℝ} (hn : 1 ≤ n) (hm : 1 ≤ me) : 0 < csOf n me := by unfold csOf; positivity

theorem cs_lt {n me : ℝ} (hn : 1 ≤ n) (hm : 1 ≤ me) : csOf n me < 1 := by
  unfold csOf; rw [div_lt_one (by positivity)]; linarith

theorem cc_pos {n me : ℝ} (hn : 1 ≤ n) (hm : 1 ≤ me) : 0 < ccOf n me := by unfold ccOf; positivity

theorem cc_lt {n me : ℝ} (hn : 1 ≤ n) (hm : 1 ≤ me) : ccOf n me < 1 := by
  unfold ccOf; rw [div_lt_one (by positivity)]
  have : 0 < me / n := by positivity
  have : 2 * me / n = 2 * (me / n) := by ring
  linarith

theorem c1_pos {n me : ℝ} (hn : 1 ≤ n) (hm : 1 ≤ me) : 0 < c1Of n me := by unfold c1Of; positivity

theorem c1_lt {n me : ℝ} (hn : 1 ≤ n) (hm : 1 ≤ me) : c1Of n me < 1 / 3 := by
  unfold c1Of; rw [div_lt_iff₀ (by positivity)]
  norm_num at *; nlinarith

theorem cmu_nonneg {n me : ℝ} (hn : 1 ≤ n) (hm : 1 ≤ me) : 0 ≤ cmuOf n me := by
  unfold cmuOf
  have h1 := c1_lt hn hm
  refine le_min (by linarith) (div_nonneg ?_ (by positivity))
  have : me - 2 + 1 / me = (me - 1) ^ 2 / me := by field_simp; ring
  rw [this]; positivity

theorem cmu_le {n me : ℝ} : c1Of n me + cmuOf n me ≤ 1 := by
  have : cmuOf n me ≤ 1 - c1Of n me := min_le_left _ _
  linarith

/-- **C264**, weights: for every number of parents `mu ≥ 1` the recombination weights are positive, strictly
decreasing with the rank and sum to one; the variance effective number of parents is between `1` and `mu`. -/
theorem C264_weights (mu : Nat) (h : 1 ≤ mu) :
    (∀ j < mu, 0 < weight mu j) ∧ (∀ i j, i < j → j < mu → weight mu j < weight mu i) ∧
      ∑ j ∈ range mu, weight mu j = 1 ∧ 1 ≤ muEffective mu ∧ muEffective mu ≤ mu :=
  ⟨fun _ hj => weight_pos hj,
    fun _ _ hij _ => div_lt_div_of_pos_right (rawWeight_lt hij) (rawSum_pos h),
    weight_sum h, muEffective_ge h, muEffective_le h⟩

/-- **C264**, learning rates of CMA-ES: for every dimension `d ≥ 1` and population size `lambda ≥ 2` the constants
of cmaes_impl.hpp:112-128 are rates: decay factors in `(0, 1)`, damping above `1`, a positive expected length, and
covariance weights `c1 > 0`, `cmu ≥ 0`, `c1 + cmu ≤ 1`. -/
theorem C264_rates (d lambda : Nat) (hd : 1 ≤ d) (hl : 2 ≤ lambda) :
    (1 ≤ (cmaes d lambda).mu ∧ 2 * (cmaes d lambda).mu ≤ lambda) ∧
    (0 < (cmaes d lambda).cs ∧ (cmaes d lambda).cs < 1) ∧ 1 < (cmaes d lambda).ds ∧ 0 < ennOf d ∧
      (0 < ccOf d (cmaes d lambda).me ∧ ccOf d (cmaes d lambda).me < 1) ∧
      0 < c1Of d (cmaes d lambda).me ∧ 0 ≤ cmuOf d (cmaes d lambda).me ∧
      c1Of d (cmaes d lambda).me + cmuOf d (cmaes d lambda).me ≤ 1 := by
  have hn : (1 : ℝ) ≤ d := by exact_mod_cast hd
  have hmu : 1 ≤ lambda / 2 := by omega
  have hm := muEffective_ge hmu
  refine ⟨⟨hmu, ?_⟩, ⟨cs_pos hn hm, cs_lt hn hm⟩, ?_, enn_pos hn, ⟨cc_pos hn hm, cc_lt hn hm⟩, c1_pos hn hm,
    cmu_nonneg hn hm, cmu_le⟩
  · show 2 * (lambda / 2) ≤ lambda
    omega
  · show 1 < dsOf _ _
    unfold dsOf
    have := cs_pos hn hm
    have h2 : (0 : ℝ) ≤ max (√((muEffective (lambda / 2) - 1) / (d + 1)) - 1) 0 := le_max_right _ _
    linarith

example : (0 < (cmaes 2 6).cs ∧ (cmaes 2 6).cs < 1) := (C264_rates 2 6 (by norm_num) (by norm_num)).2.1

/-- **C264**, damping and thresholds of CMA-ES (cmaes_impl.hpp:113-116, 122): the damping is `1 + cs` exactly when the effective
number of parents is at most `d + 2`, and larger otherwise; the square of the expected length is `d - 1/2` up to `1/(6 d)`; the
length above which the covariance path stalls is more than 1.4 and at most 2.4 expected lengths, 2.4 of them in one dimension. -/
theorem C264_damping_thresholds (d lambda : Nat) (hd : 1 ≤ d) (hl : 2 ≤ lambda) :
    ((cmaes d lambda).me ≤ d + 2 → (cmaes d lambda).ds = 1 + (cmaes d lambda).cs) ∧
    (d + 2 < (cmaes d lambda).me → 1 + (cmaes d lambda).cs < (cmaes d lambda).ds) ∧
    ((d : ℝ) - 1 / 2 < ennOf d ^ 2 ∧ ennOf d ^ 2 < d - 1 / 2 + 1 / (6 * d)) ∧
    (1.4 * ennOf d < hOf d ∧ hOf d ≤ 2.4 * ennOf d ∧ hOf 1 = 2.4 * ennOf 1) := by
  have hn : (1 : ℝ) ≤ d := by exact_mod_cast hd
  have hmu : 1 ≤ lambda / 2 := by omega
  have hm := muEffective_ge hmu
  have he := enn_pos hn
  refine ⟨?_, ?_, ⟨?_, ?_⟩, ?_, ?_, ?_⟩
  · intro h
    show 1 + csOf _ _ + 2 * max _ 0 = 1 + csOf _ _
    have h1 : √((muEffective (lambda / 2) - 1) / (d + 1)) ≤ 1 := by
      rw [Real.sqrt_le_one]
      rw [div_le_one (by linarith)]
      have : muEffective (lambda / 2) ≤ d + 2 := h
      linarith
    rw [max_eq_right (by linarith)]
    ring
  · intro h
    show 1 + csOf _ _ < 1 + csOf _ _ + 2 * max _ 0
    have h1 : 1 < √((muEffective (lambda / 2) - 1) / (d + 1)) := by
      rw [Real.lt_sqrt (by norm_num), one_pow, one_lt_div (by linarith)]
      have : d + 2 < muEffective (lambda / 2) := h
      linarith
    have h2 := le_max_left (√((muEffective (lambda / 2) - 1) / (d + 1)) - 1) 0
    linarith
  · rw [ennOf, mul_pow, Real.sq_sqrt (by linarith)]
    have hd0 : (0 : ℝ) < d := by linarith
    have e : (d : ℝ) * (1 - 1 / (4 * d) + 1 / (21 * d ^ 2)) ^ 2 - (d - 1 / 2) =
        (53 / 336 * d ^ 2 - 1 / 42 * d + 1 / 441) / d ^ 3 := by
      field_simp
      ring
    have h3 : 0 < (53 / 336 * (d : ℝ) ^ 2 - 1 / 42 * d + 1 / 441) / d ^ 3 := by
      apply div_pos _ (by positivity)
      nlinarith
    linarith
  · rw [ennOf, mul_pow, Real.sq_sqrt (by linarith)]
    have hd0 : (0 : ℝ) < d := by linarith
    have e : (d : ℝ) - 1 / 2 + 1 / (6 * d) - (d : ℝ) * (1 - 1 / (4 * d) + 1 / (21 * d ^ 2)) ^ 2 =
        (3 / 336 * d ^ 2 + 1 / 42 * d - 1 / 441) / d ^ 3 := by
      field_simp
      ring
    have h3 : 0 < (3 / 336 * (d : ℝ) ^ 2 + 1 / 42 * d - 1 / 441) / d ^ 3 := by
      apply div_pos _ (by positivity)
      nlinarith
    linarith
  · rw [hOf]
    have : (0 : ℝ) < 2 / (d + 1) := by positivity
    nlinarith
  · rw [hOf]
    have : 2 / ((d : ℝ) + 1) ≤ 1 := by rw [div_le_one (by linarith)]; linarith
    nlinarith
  · rw [hOf]
    norm_num

/-- In ten dimensions two parents are too few to raise the damping. -/
example : (cmaes 10 4).ds = 1 + (cmaes 10 4).cs :=
  (C264_damping_thresholds 10 4 (by norm_num) (by norm_num)).1
    (le_trans (show muEffective 2 ≤ 2 from by simpa using muEffective_le (mu := 2) (by norm_num)) (by norm_num))

/-- Non-trivial weights: with two parents the better one gets the larger share. -/
example : 0 < weight 2 1 ∧ weight 2 1 < weight 2 0 :=
  ⟨(C264_weights 2 (by norm_num)).1 1 (by norm_num), (C264_weights 2 (by norm_num)).2.1 0 1 (by norm_num) (by norm_num)⟩

/-- **C264**, Active CMA-ES (active_cmaes_impl.hpp:97-122): for every dimension `d ≥ 1` and population size
`lambda ≥ 4` there is a parent, at most a quarter of the offspring are parents, equal weights sum to one, and decay,
covariance and active-update rates are in `(0, 1)`. -/
theorem C264_active (d lambda : Nat) (hd : 1 ≤ d) (hl : 4 ≤ lambda) :
    (1 ≤ (active d lambda).mu ∧ 4 * (active d lambda).mu ≤ lambda) ∧
      ∑ j ∈ range (active d lambda).mu, (active d lambda).w j = 1 ∧
      (0 < (active d lambda).cs ∧ (active d lambda).cs < 1) ∧ 1 < (active d lambda).ds ∧
      (0 < ccovOf d ∧ ccovOf d < 1) ∧
      (0 < betaOf d (active d lambda).mu ∧ betaOf d (active d lambda).mu < 1) := by
  have hn : (1 : ℝ) ≤ d := by exact_mod_cast hd
  have hmu : 1 ≤ lambda / 4 := by omega
  have hm : (1 : ℝ) ≤ (lambda / 4 : Nat) := by exact_mod_cast hmu
  have hcs : 0 < activeCs d := by unfold activeCs; positivity
  have h2 : (1 : ℝ) < √2 := by
    rw [show (1 : ℝ) = √1 by simp]; exact Real.sqrt_lt_sqrt (by norm_num) (by norm_num)
  refine ⟨⟨hmu, ?_⟩, ?_, ⟨hcs, ?_⟩, ?_, ⟨?_, ?_⟩, ?_, ?_⟩
  · show 4 * (lambda / 4) ≤ lambda
    omega
  · show ∑ j ∈ range (lambda / 4), (1 / ((lambda / 4 : Nat) : ℝ)) = 1
    rw [sum_const, card_range, nsmul_eq_mul]
    field_simp
  · show activeCs d < 1
    unfold activeCs; rw [div_lt_one (by positivity)]; linarith
  · show 1 < 1 + activeCs d
    linarith
  · unfold ccovOf; positivity
  · unfold ccovOf; rw [div_lt_one (by positivity)]; nlinarith
  · show 0 < betaOf d ((lambda / 4 : Nat) : ℝ)
    unfold betaOf
    exact div_pos (by linarith) (by positivity)
  · show betaOf d ((lambda / 4 : Nat) : ℝ) < 1
    unfold betaOf; rw [div_lt_one (by positivity)]; nlinarith

example : (active 2 8).mu = 2 ∧ 0 < betaOf 2 (active 2 8).mu :=
  ⟨rfl, (C264_active 2 8 (by norm_num) (by norm_num)).2.2.2.2.2.1⟩

end Ens.Cmaes.Numeric
