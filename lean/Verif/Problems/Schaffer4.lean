import Mathlib.Analysis.SpecialFunctions.Trigonometric.Bounds
import Mathlib.Analysis.Real.Pi.Bounds
import Mathlib.Topology.Order.Compact
import Mathlib.Tactic.FinCases
import Mathlib.Tactic.Ring
import Mathlib.Tactic.FieldSimp
import Mathlib.Tactic.NormNum
import Mathlib.Tactic.Linarith
import Mathlib.Tactic.IntervalCases
import Verif.Problems.Model

/-
C301: where the fourth Schaffer function has its minima (schaffer_function_n4.hpp:26-27 documents the value 0.292579 and two points).
-/

namespace Ens.Problems.Schaffer4

open Real Ens.Problems

theorem cos_one_near : 0.5403023 ≤ cos 1 ∧ cos 1 ≤ 0.5403024 := by
  have h := Complex.exp_bound (x := Complex.I) (by simp) (n := 12) (by norm_num)
  have h2 := (Complex.abs_re_le_norm _).trans h
  have hre : (Complex.exp Complex.I).re = cos 1 := by
    have := Complex.exp_ofReal_mul_I_re 1
    simpa using this
  have hI2 : Complex.I ^ 2 = -1 := Complex.I_sq
  have hs : ((∑ m ∈ Finset.range 12, Complex.I ^ m / (m.factorial : ℂ))).re = 1 - 1 / 2 + 1 / 24 - 1 / 720 + 1 / 40320 - 1 / 3628800 := by
    have e3 : Complex.I ^ 3 = -Complex.I := by rw [pow_succ, hI2]; ring
    have e4 : Complex.I ^ 4 = 1 := Complex.I_pow_four
    have e5 : Complex.I ^ 5 = Complex.I := by rw [pow_succ, e4]; ring
    have e6 : Complex.I ^ 6 = -1 := by rw [pow_succ, e5]; simp
    have e7 : Complex.I ^ 7 = -Complex.I := by rw [pow_succ, e6]; ring
    have e8 : Complex.I ^ 8 = 1 := by rw [pow_succ, e7]; simp
    have e9 : Complex.I ^ 9 = Complex.I := by rw [pow_succ, e8]; ring
    have e10 : Complex.I ^ 10 = -1 := by rw [pow_succ, e9]; simp
    have e11 : Complex.I ^ 11 = -Complex.I := by rw [pow_succ, e10]; ring
    have d : ∀ (z : ℂ) (k : ℕ), (z / (k : ℂ)).re = z.re / k := fun z k => Complex.div_natCast_re z k
    rw [Complex.re_sum]
    simp only [d]
    simp only [Finset.sum_range_succ, Finset.sum_range_zero, pow_zero, pow_one, hI2, e3, e4, e5, e6, e7, e8, e9, e10, e11,
      Complex.neg_re, Complex.one_re, Complex.I_re, Nat.factorial]
    norm_num
  rw [Complex.sub_re, hre, hs] at h2
  simp only [Complex.norm_I, one_pow, Nat.factorial] at h2
  norm_num at h2
  rw [abs_le] at h2
  constructor <;> linarith [h2.1, h2.2]

theorem cos_sq_near : 0.2919265 ≤ cos 1 ^ 2 ∧ cos 1 ^ 2 ≤ 0.2919267 := by
  obtain ⟨h1, h2⟩ := cos_one_near
  constructor <;> nlinarith

theorem cos_sq_diff (s : ℝ) : cos s ^ 2 - cos 1 ^ 2 = sin (1 - s) * sin (1 + s) := by
  rw [sin_sub, sin_add]
  have a := sin_sq_add_cos_sq s
  have b := sin_sq_add_cos_sq 1
  linear_combination (-(cos s ^ 2)) * b + (cos 1 ^ 2) * a

theorem pi_near : 3.141592 < π ∧ π < 3.141593 := ⟨pi_gt_d6, pi_lt_d6⟩

/-- The angle moves away from its worst value at least linearly. -/
theorem cos_sq_ge {s : ℝ} (h0 : 0 ≤ s) (h1 : s ≤ 1) : cos 1 ^ 2 + 0.4 * (1 - s) ≤ cos s ^ 2 := by
  have hp := pi_near
  have a : 2 / π * (1 - s) ≤ sin (1 - s) := mul_le_sin (by linarith) (by linarith)
  have b : 2 / π ≤ sin (1 + s) := by
    by_cases h : 1 + s ≤ π / 2
    · have := mul_le_sin (x := 1 + s) (by linarith) h
      have q : 2 / π * 1 ≤ 2 / π * (1 + s) := mul_le_mul_of_nonneg_left (by linarith) (by positivity)
      linarith
    · have := mul_le_sin (x := π - (1 + s)) (by linarith) (by linarith)
      rw [sin_pi_sub] at this
      have q : 2 / π * 1 ≤ 2 / π * (π - (1 + s)) := mul_le_mul_of_nonneg_left (by linarith) (by positivity)
      linarith
  have c : (0.636 : ℝ) ≤ 2 / π := by rw [le_div_iff₀ (by linarith)]; linarith
  have d := cos_sq_diff s
  have e : 0.636 * (1 - s) ≤ sin (1 - s) := le_trans (mul_le_mul_of_nonneg_right c (by linarith)) a
  have f : 0.636 * (1 - s) * 0.636 ≤ sin (1 - s) * sin (1 + s) :=
    mul_le_mul e (c.trans b) (by norm_num) ((mul_nonneg (by norm_num) (by linarith)).trans e)
  nlinarith

theorem cos_sq_ge_one (t : ℝ) : cos 1 ^ 2 ≤ cos (sin t) ^ 2 := by
  have h : cos 1 ≤ cos (sin t) := by
    rw [← cos_abs (sin t)]
    exact cos_le_cos_of_nonneg_of_le_pi (abs_nonneg _) (by linarith [pi_near.1]) (abs_sin_le_one t)
  exact pow_le_pow_left₀ (by linarith [cos_one_near.1]) h 2

theorem cos_sq_le {s : ℝ} (h1 : s ≤ 1) : cos s ^ 2 ≤ cos 1 ^ 2 + (1 - s) := by
  have d := cos_sq_diff s
  have a : |sin (1 - s) * sin (1 + s)| ≤ (1 - s) * 1 := by
    rw [abs_mul]
    refine mul_le_mul ?_ (abs_sin_le_one _) (abs_nonneg _) (by linarith)
    have := abs_sin_le_abs (x := 1 - s)
    rwa [abs_of_nonneg (show 0 ≤ 1 - s by linarith)] at this
  have := le_abs_self (sin (1 - s) * sin (1 + s))
  linarith

/-- Below `π / 2` the numerator moves away from its least value at least quadratically. -/
theorem num_ge {t : ℝ} (h0 : 0 ≤ t) (h1 : t ≤ π / 2) : cos 1 ^ 2 + 0.08 * (π / 2 - t) ^ 2 ≤ cos (sin t) ^ 2 := by
  have hp := pi_near
  have hs : sin t = cos (π / 2 - t) := (cos_pi_div_two_sub t).symm
  have a : cos (π / 2 - t) ≤ 1 - 2 / π ^ 2 * (π / 2 - t) ^ 2 :=
    cos_le_one_sub_mul_cos_sq (by rw [abs_of_nonneg (by linarith)]; linarith)
  have c : (0.2 : ℝ) ≤ 2 / π ^ 2 := by rw [le_div_iff₀ (by positivity)]; nlinarith
  have b := cos_sq_ge (sin_nonneg_of_nonneg_of_le_pi h0 (by linarith)) (sin_le_one t)
  nlinarith [mul_le_mul_of_nonneg_right c (sq_nonneg (π / 2 - t))]

/-- The profile along an axis: the value at a point `(0, √t)`. -/
theorem profile_ge {t : ℝ} (h0 : 0 ≤ t) : -0.207422 * (1 + 0.001 * t) ^ 2 ≤ cos (sin t) ^ 2 - 0.5 := by
  have hp := pi_near
  have hc := cos_sq_near.1
  by_cases h : t ≤ π / 2
  · have := num_ge h0 h
    generalize hd : π / 2 - t = d at this
    have e : t = π / 2 - d := by linarith
    have : (1.570796 - d) ≤ t := by linarith
    have q : (1 + 0.001 * (1.570796 - d)) ^ 2 ≤ (1 + 0.001 * t) ^ 2 := by
      refine pow_le_pow_left₀ ?_ (by linarith) 2
      linarith
    nlinarith [sq_nonneg (d - 0.0026)]
  · have := cos_sq_ge_one t
    have q : (1.001570796 : ℝ) ^ 2 ≤ (1 + 0.001 * t) ^ 2 := pow_le_pow_left₀ (by norm_num) (by linarith) 2
    nlinarith

theorem diff_le (y : Fin 2 → ℝ) : |y 0 ^ 2 - y 1 ^ 2| ≤ y 0 ^ 2 + y 1 ^ 2 :=
  abs_le.2 ⟨by nlinarith [sq_nonneg (y 0), sq_nonneg (y 1)], by nlinarith [sq_nonneg (y 0), sq_nonneg (y 1)]⟩

/-- **C301** (value) No point has a value below `0.292578`, and both documented points have a value between that and the documented `0.292579`.
The largest value is `1`, at the origin. -/
theorem C301_value :
    (∀ y, 0.292578 ≤ schaffer4 y ∧ schaffer4 y ≤ 1) ∧ schaffer4 ![0, 0] = 1 ∧
    schaffer4 ![0, 1.25313] ≤ 0.292579 ∧ schaffer4 ![0, -1.25313] ≤ 0.292579 := by
  refine ⟨fun y => ?_, by norm_num [schaffer4], ?_⟩
  · have hr : 0 ≤ y 0 ^ 2 + y 1 ^ 2 := by positivity
    have hd : (0 : ℝ) < (1 + 0.001 * (y 0 ^ 2 + y 1 ^ 2)) ^ 2 := by positivity
    have ht := diff_le y
    have h := profile_ge (abs_nonneg (y 0 ^ 2 - y 1 ^ 2))
    have ha := abs_nonneg (y 0 ^ 2 - y 1 ^ 2)
    have hq : (1 + 0.001 * |y 0 ^ 2 - y 1 ^ 2|) ^ 2 ≤ (1 + 0.001 * (y 0 ^ 2 + y 1 ^ 2)) ^ 2 :=
      pow_le_pow_left₀ (by linarith) (by linarith) 2
    unfold schaffer4
    constructor
    · have : -0.207422 ≤ (cos (sin |y 0 ^ 2 - y 1 ^ 2|) ^ 2 - 0.5) / (1 + 0.001 * (y 0 ^ 2 + y 1 ^ 2)) ^ 2 := by
        rw [le_div_iff₀ hd]; linarith
      linarith
    · have h1 : (1 : ℝ) ≤ (1 + 0.001 * (y 0 ^ 2 + y 1 ^ 2)) ^ 2 := one_le_pow₀ (by linarith)
      have : (cos (sin |y 0 ^ 2 - y 1 ^ 2|) ^ 2 - 0.5) / (1 + 0.001 * (y 0 ^ 2 + y 1 ^ 2)) ^ 2 ≤ 0.5 := by
        rw [div_le_iff₀ hd]
        have := cos_sq_le_one (sin |y 0 ^ 2 - y 1 ^ 2|)
        nlinarith
      linarith
  · have key : 0.5 + (cos (sin (1.25313 ^ 2)) ^ 2 - 0.5) / (1 + 0.001 * (1.25313 ^ 2)) ^ 2 ≤ (0.292579 : ℝ) := by
      have hp := pi_near
      have hc := cos_sq_near.2
      have hs : sin ((1.25313 : ℝ) ^ 2) = cos (π / 2 - 1.25313 ^ 2) := (cos_pi_div_two_sub _).symm
      have h1 := one_sub_sq_div_two_le_cos (x := π / 2 - 1.25313 ^ 2)
      have h2 : (π / 2 - 1.25313 ^ 2) ^ 2 ≤ 0.0000003 := by nlinarith
      have h3 := cos_sq_le (sin_le_one ((1.25313 : ℝ) ^ 2))
      have : (cos (sin ((1.25313 : ℝ) ^ 2)) ^ 2 - 0.5) / (1 + 0.001 * (1.25313 ^ 2)) ^ 2 ≤ -0.207421 := by
        rw [div_le_iff₀ (by positivity)]
        norm_num at *
        linarith
      linarith
    have e : schaffer4 ![0, 1.25313] = 0.5 + (cos (sin (1.25313 ^ 2)) ^ 2 - 0.5) / (1 + 0.001 * (1.25313 ^ 2)) ^ 2 := by
      unfold schaffer4
      have : |(![0, 1.25313] : Fin 2 → ℝ) 0 ^ 2 - (![0, 1.25313] : Fin 2 → ℝ) 1 ^ 2| = 1.25313 ^ 2 := by
        simp
      rw [this]; simp
    have e2 : schaffer4 ![0, -1.25313] = schaffer4 ![0, 1.25313] := by simp [schaffer4]
    exact ⟨e ▸ key, e2 ▸ e ▸ key⟩

/-- The function does not change when the coordinates change places or signs. -/
theorem schaffer4_symm (a b : ℝ) :
    schaffer4 ![a, b] = schaffer4 ![b, a] ∧ schaffer4 ![-a, b] = schaffer4 ![a, b] ∧ schaffer4 ![a, -b] = schaffer4 ![a, b] := by
  refine ⟨?_, ?_, ?_⟩ <;> simp [schaffer4]
  rw [abs_sub_comm, add_comm (a ^ 2)]

theorem schaffer4_axis {t : ℝ} (h : 0 ≤ t) : schaffer4 ![0, √t] = 0.5 + (cos (sin t) ^ 2 - 0.5) / (1 + 0.001 * t) ^ 2 := by
  simp [schaffer4, Real.sq_sqrt h, abs_of_nonneg h]

/-- A point as good as the documented ones is near the circle of radius `1.254` and near an axis. -/
theorem good_near {y : Fin 2 → ℝ} (h : schaffer4 y ≤ 0.292579) :
    1.5645 ≤ |y 0 ^ 2 - y 1 ^ 2| ∧ y 0 ^ 2 + y 1 ^ 2 ≤ 1.573 := by
  have hp := pi_near
  have hc := cos_sq_near.1
  have hr : 0 ≤ y 0 ^ 2 + y 1 ^ 2 := by positivity
  have hd : (0 : ℝ) < (1 + 0.001 * (y 0 ^ 2 + y 1 ^ 2)) ^ 2 := by positivity
  have ht := diff_le y
  have ha := abs_nonneg (y 0 ^ 2 - y 1 ^ 2)
  unfold schaffer4 at h
  have h' : (cos (sin |y 0 ^ 2 - y 1 ^ 2|) ^ 2 - 0.5) / (1 + 0.001 * (y 0 ^ 2 + y 1 ^ 2)) ^ 2 ≤ -0.207421 := by linarith
  rw [div_le_iff₀ hd] at h'
  generalize |y 0 ^ 2 - y 1 ^ 2| = t at *
  generalize y 0 ^ 2 + y 1 ^ 2 = r at *
  have h1 := cos_sq_ge_one t
  constructor
  · by_contra hlt
    push Not at hlt
    have h2 := num_ge ha (by linarith)
    have h3 : (0.006296 : ℝ) ^ 2 ≤ (π / 2 - t) ^ 2 := pow_le_pow_left₀ (by norm_num) (by linarith) 2
    have h4 : (1 + 0.001 * (π / 2 - (π / 2 - t))) ^ 2 ≤ (1 + 0.001 * r) ^ 2 := pow_le_pow_left₀ (by linarith) (by linarith) 2
    have h5 : 0.006296 ≤ π / 2 - t := by linarith
    have h6 : π / 2 - t ≤ 1.5708 := by linarith
    generalize π / 2 - t = d at *
    have h7 : (1 + 0.001 * (1.570796 - d)) ^ 2 ≤ (1 + 0.001 * (π / 2 - d)) ^ 2 := by
      refine pow_le_pow_left₀ (by linarith) (by linarith) 2
    nlinarith
  · by_contra hlt
    push Not at hlt
    have h4 : (1 + 0.001 * 1.573) ^ 2 ≤ (1 + 0.001 * r) ^ 2 := pow_le_pow_left₀ (by norm_num) (by linarith) 2
    nlinarith

/-- **C301** (minimisers) There is a distance `a` between `1.25` and `1.2543` such that all four points on the axes at that distance are
minimisers - not only the two documented ones - and every minimiser is on an axis, at a distance in that range. -/
theorem C301_minimisers :
    (∃ a : ℝ, 1.25 < a ∧ a < 1.2543 ∧
      ∀ p ∈ ({![0, a], ![0, -a], ![a, 0], ![-a, 0]} : Set (Fin 2 → ℝ)), ∀ z, schaffer4 p ≤ schaffer4 z) ∧
    ∀ y, (∀ z, schaffer4 y ≤ schaffer4 z) →
      (y 0 = 0 ∧ 1.25 < |y 1| ∧ |y 1| < 1.2543) ∨ (y 1 = 0 ∧ 1.25 < |y 0| ∧ |y 0| < 1.2543) := by
  have second : ∀ y, (∀ z, schaffer4 y ≤ schaffer4 z) →
      (y 0 = 0 ∧ 1.25 < |y 1| ∧ |y 1| < 1.2543) ∨ (y 1 = 0 ∧ 1.25 < |y 0| ∧ |y 0| < 1.2543) := by
    intro y hy
    have hg := (hy _).trans C301_value.2.2.1
    obtain ⟨h1, h2⟩ := good_near hg
    have ht := diff_le y
    have ha := abs_nonneg (y 0 ^ 2 - y 1 ^ 2)
    have hax : y 0 = 0 ∨ y 1 = 0 := by
      by_contra hne
      push Not at hne
      have hlt : |y 0 ^ 2 - y 1 ^ 2| < y 0 ^ 2 + y 1 ^ 2 := by
        have p0 : 0 < y 0 ^ 2 := by have := hne.1; positivity
        have p1 : 0 < y 1 ^ 2 := by have := hne.2; positivity
        exact abs_lt.2 ⟨by linarith, by linarith⟩
      have hz := hy ![0, √|y 0 ^ 2 - y 1 ^ 2|]
      rw [schaffer4_axis ha] at hz
      unfold schaffer4 at hz hg
      have hd : (0 : ℝ) < (1 + 0.001 * (y 0 ^ 2 + y 1 ^ 2)) ^ 2 := by positivity
      have hd' : (0 : ℝ) < (1 + 0.001 * |y 0 ^ 2 - y 1 ^ 2|) ^ 2 := by positivity
      have hN : cos (sin |y 0 ^ 2 - y 1 ^ 2|) ^ 2 - 0.5 < 0 := by
        by_contra hN
        push Not at hN
        have := div_nonneg hN hd.le
        linarith
      generalize |y 0 ^ 2 - y 1 ^ 2| = t at *
      generalize y 0 ^ 2 + y 1 ^ 2 = r at *
      have hq : (1 + 0.001 * t) ^ 2 < (1 + 0.001 * r) ^ 2 := pow_lt_pow_left₀ (by linarith) (by linarith) (by norm_num)
      have := div_lt_div_of_pos_left (neg_pos.2 hN) hd' hq
      rw [neg_div, neg_div] at this
      linarith
    have root : ∀ v : ℝ, 1.5645 ≤ v ^ 2 → v ^ 2 ≤ 1.573 → 1.25 < |v| ∧ |v| < 1.2543 := by
      intro v l u
      rw [← sq_abs] at l u
      have := abs_nonneg v
      constructor <;> by_contra hc <;> push Not at hc <;> nlinarith
    rcases hax with h | h
    · left
      rw [h] at h1 h2
      norm_num at h1 h2
      exact ⟨h, root _ (by norm_num; linarith) (by norm_num; linarith)⟩
    · right
      rw [h] at h1 h2
      norm_num at h1 h2
      exact ⟨h, root _ (by norm_num; linarith) (by norm_num; linarith)⟩
  refine ⟨?_, second⟩
  have hcont : Continuous schaffer4 := by
    unfold schaffer4
    refine continuous_const.add (Continuous.div (by fun_prop) (by fun_prop) fun y => ?_)
    positivity
  obtain ⟨y, -, hy⟩ := (isCompact_univ_pi (fun _ : Fin 2 => isCompact_Icc (a := (-2 : ℝ)) (b := 2))).exists_isMinOn
    ⟨![0, 1.25313], by intro i _; fin_cases i <;> norm_num⟩ hcont.continuousOn
  have hmin : ∀ z, schaffer4 y ≤ schaffer4 z := by
    intro z
    by_cases hz : z ∈ Set.univ.pi fun _ : Fin 2 => Set.Icc (-2 : ℝ) 2
    · exact hy hz
    · have hdoc : schaffer4 y ≤ 0.292579 :=
        (show schaffer4 y ≤ schaffer4 ![0, 1.25313] from hy (by intro i _; fin_cases i <;> norm_num)).trans C301_value.2.2.1
      refine hdoc.trans ?_
      by_contra hb
      push Not at hb
      have hr := (good_near hb.le).2
      refine hz fun i _ => ?_
      fin_cases i
      · exact ⟨by show -2 ≤ z 0; nlinarith [sq_nonneg (z 1)], by show z 0 ≤ 2; nlinarith [sq_nonneg (z 1)]⟩
      · exact ⟨by show -2 ≤ z 1; nlinarith [sq_nonneg (z 0)], by show z 1 ≤ 2; nlinarith [sq_nonneg (z 0)]⟩
  have four : ∀ a : ℝ, (∀ z, schaffer4 ![0, a] ≤ schaffer4 z) →
      ∀ p ∈ ({![0, |a|], ![0, -|a|], ![|a|, 0], ![-|a|, 0]} : Set (Fin 2 → ℝ)), ∀ z, schaffer4 p ≤ schaffer4 z := by
    intro a h p hp z
    have e : schaffer4 ![0, |a|] = schaffer4 ![0, a] := by
      rcases abs_choice a with q | q <;> rw [q]
      exact (schaffer4_symm 0 a).2.2
    have e2 : schaffer4 ![0, -|a|] = schaffer4 ![0, a] := (schaffer4_symm 0 _).2.2.trans e
    have e3 : schaffer4 ![|a|, 0] = schaffer4 ![0, a] := (schaffer4_symm _ 0).1.trans e
    have e4 : schaffer4 ![-|a|, 0] = schaffer4 ![0, a] := (schaffer4_symm _ 0).1.trans e2
    simp only [Set.mem_insert_iff, Set.mem_singleton_iff] at hp
    rcases hp with rfl | rfl | rfl | rfl
    · exact e ▸ h z
    · exact e2 ▸ h z
    · exact e3 ▸ h z
    · exact e4 ▸ h z
  have hy2 : y = ![y 0, y 1] := by ext i; fin_cases i <;> rfl
  rcases second y hmin with ⟨h0, l, u⟩ | ⟨h0, l, u⟩
  · refine ⟨|y 1|, l, u, four _ fun z => ?_⟩
    rw [← h0, ← hy2]; exact hmin z
  · refine ⟨|y 0|, l, u, four _ fun z => ?_⟩
    rw [(schaffer4_symm 0 (y 0)).1, ← h0, ← hy2]; exact hmin z

/-- The second part of the claim is about points that exist. -/
example : ∃ y, ∀ z, schaffer4 y ≤ schaffer4 z :=
  let ⟨a, _, _, h⟩ := C301_minimisers.1
  ⟨![a, 0], h _ (by simp)⟩

end Ens.Problems.Schaffer4
