import Mathlib.Analysis.SpecialFunctions.Pow.Real
import Mathlib.Analysis.SpecialFunctions.Trigonometric.Basic
import Mathlib.Analysis.Real.Pi.Bounds
import Mathlib.Analysis.Complex.Trigonometric
import Mathlib.Tactic.Linarith
import Mathlib.Tactic.Positivity

/-
C244: the Hölder table and Cross-in-Tray functions; C245: the Schaffer function N.4.  Over the
reals; the separable overloads ignore their other arguments and are not modelled.
-/

namespace Ens.Problems

/-- HolderTableFunction::Evaluate, problems/holder_table_function_impl.hpp 38-41. -/
noncomputable def holderTable (x y : ℝ) : ℝ :=
  -|Real.sin x * Real.cos y * Real.exp (|1 - √(x * x + y * y) / Real.pi|)|

/-- CrossInTrayFunction::Evaluate, problems/cross_in_tray_function_impl.hpp 38-41. -/
noncomputable def crossInTray (x y : ℝ) : ℝ :=
  -0.0001 * |Real.sin x * Real.sin y * Real.exp (|100 - √(x ^ 2 + y ^ 2) / Real.pi|) + 1| ^ (0.1 : ℝ)

/-- SchafferFunctionN4::Evaluate, problems/schaffer_function_n4_impl.hpp 38-42. -/
noncomputable def schafferN4 (x y : ℝ) : ℝ :=
  0.5 + (Real.cos (Real.sin |x ^ 2 - y ^ 2|) ^ 2 - 0.5) / (1 + 0.001 * (x ^ 2 + y ^ 2)) ^ 2

/-- The formula in the documentation of CrossInTrayFunction
(problems/cross_in_tray_function.hpp 21-24). -/
noncomputable def crossInTrayDoc (x y : ℝ) : ℝ :=
  -0.0001 * (|Real.sin x * Real.sin y * Real.exp (|100 - √(x ^ 2 + y ^ 2) / Real.pi|)| + 1) ^ (0.1 : ℝ)

/-! ### C244 -/

/-- **C244** The four points documented as minimisers of the Hölder table function have the same value, as any
points that differ in signs. -/
theorem C244_holder_symmetric_partial (x y : ℝ) :
    holderTable (-x) y = holderTable x y ∧ holderTable x (-y) = holderTable x y ∧
      holderTable (-x) (-y) = holderTable x y := by
  unfold holderTable
  simp only [Real.sin_neg, Real.cos_neg, neg_mul, mul_neg, neg_neg, abs_neg, and_self]

/-- **C244** But it has no minimum on the plane: it takes arbitrarily small values. -/
theorem C244_holder_minimum_refuted : ¬ ∃ m : ℝ, ∀ x y, m ≤ holderTable x y := by
  rintro ⟨m, h⟩
  obtain ⟨k, hk⟩ := exists_nat_gt |m|
  have hx := h (Real.pi / 2 + k * (2 * Real.pi)) 0
  have hpi := Real.pi_pos
  have hnn : 0 ≤ Real.pi / 2 + k * (2 * Real.pi) := by positivity
  unfold holderTable at hx
  rw [Real.sin_add_nat_mul_two_pi, Real.sin_pi_div_two, Real.cos_zero, mul_zero, add_zero,
    Real.sqrt_mul_self hnn, one_mul, one_mul, abs_of_pos (Real.exp_pos _)] at hx
  have hdiv : (Real.pi / 2 + k * (2 * Real.pi)) / Real.pi = 1 / 2 + 2 * k := by
    field_simp
  rw [hdiv] at hx
  have h1 : 2 * (k : ℝ) - 1 / 2 ≤ |1 - (1 / 2 + 2 * (k : ℝ))| := by
    rw [abs_sub_comm]
    exact le_trans (by linarith) (le_abs_self _)
  have h2 := Real.exp_le_exp.2 h1
  have h3 := Real.add_one_le_exp (2 * (k : ℝ) - 1 / 2)
  have h4 := neg_abs_le m
  have h5 : (0 : ℝ) ≤ k := Nat.cast_nonneg k
  linarith

/-- **C244** Cross-in-Tray agrees with its documented formula where the sines have no opposite signs. -/
theorem C244_cross_formula_partial (x y : ℝ) (h : 0 ≤ Real.sin x * Real.sin y) :
    crossInTray x y = crossInTrayDoc x y := by
  unfold crossInTray crossInTrayDoc
  have h0 : 0 ≤ Real.sin x * Real.sin y * Real.exp (|100 - √(x ^ 2 + y ^ 2) / Real.pi|) :=
    mul_nonneg h (Real.exp_pos _).le
  rw [abs_of_nonneg h0, abs_of_nonneg (by linarith)]

example : 0 ≤ Real.sin (Real.pi / 2) * Real.sin (Real.pi / 2) := by
  rw [Real.sin_pi_div_two]; norm_num

/-- **C244** Where they have, the value is larger than documented. -/
theorem C244_cross_above (x y : ℝ) (h : Real.sin x * Real.sin y < 0) :
    crossInTrayDoc x y < crossInTray x y := by
  unfold crossInTray crossInTrayDoc
  have h0 : Real.sin x * Real.sin y * Real.exp (|100 - √(x ^ 2 + y ^ 2) / Real.pi|) < 0 :=
    mul_neg_of_neg_of_pos h (Real.exp_pos _)
  generalize Real.sin x * Real.sin y * Real.exp (|100 - √(x ^ 2 + y ^ 2) / Real.pi|) = z at *
  have hz : |z + 1| < |z| + 1 := by
    rw [abs_of_neg h0, abs_lt]; constructor <;> linarith
  have := Real.rpow_lt_rpow (abs_nonneg _) hz (by norm_num : (0 : ℝ) < 0.1)
  linarith

/-- **C244** So the values at the points with opposite signs are not those at the points with equal signs,
though all four are documented as minimisers. -/
theorem C244_cross_symmetric_refuted : ¬ ∀ x y : ℝ, crossInTray x (-y) = crossInTray x y := by
  intro h
  have h1 := h (Real.pi / 2) (Real.pi / 2)
  have h2 := C244_cross_above (Real.pi / 2) (-(Real.pi / 2)) (by
    rw [Real.sin_neg, Real.sin_pi_div_two]; norm_num)
  have h3 := C244_cross_formula_partial (Real.pi / 2) (Real.pi / 2) (by
    rw [Real.sin_pi_div_two]; norm_num)
  have h4 : crossInTrayDoc (Real.pi / 2) (-(Real.pi / 2)) = crossInTrayDoc (Real.pi / 2) (Real.pi / 2) := by
    unfold crossInTrayDoc
    simp only [Real.sin_neg, mul_neg, neg_mul, abs_neg, neg_sq]
  rw [h1, h3, h4] at h2
  exact lt_irrefl _ h2

/-- **C244** No point whose sines have opposite signs, such as the documented (1.34941, -1.34941), is a
minimiser. -/
theorem C244_cross_not_minimiser (x y : ℝ) (h : Real.sin x * Real.sin y < 0) :
    crossInTray x (-y) < crossInTray x y := by
  have h1 := C244_cross_above x y h
  have h2 := C244_cross_formula_partial x (-y) (by rw [Real.sin_neg]; linarith)
  have h4 : crossInTrayDoc x (-y) = crossInTrayDoc x y := by
    unfold crossInTrayDoc
    simp only [Real.sin_neg, mul_neg, neg_mul, abs_neg, neg_sq]
  rw [h2, h4]
  exact h1

example : Real.sin 1.34941 * Real.sin (-1.34941) < 0 := by
  have : 0 < Real.sin 1.34941 :=
    Real.sin_pos_of_pos_of_lt_pi (by norm_num) (lt_trans (by norm_num) Real.pi_gt_three)
  rw [Real.sin_neg]
  nlinarith

/-- **C244** Cross-in-Tray has no minimum on the plane either. -/
theorem C244_cross_minimum_refuted : ¬ ∃ m : ℝ, ∀ x y, m ≤ crossInTray x y := by
  rintro ⟨m, h⟩
  obtain ⟨k, hk⟩ := exists_nat_gt (|m| * 100000 + 100)
  have hx := h (Real.pi / 2 + k * (2 * Real.pi)) (Real.pi / 2 + k * (2 * Real.pi))
  have hpi := Real.pi_pos
  have hk0 : (0 : ℝ) ≤ k := Nat.cast_nonneg k
  set a := Real.pi / 2 + k * (2 * Real.pi) with ha
  have ha0 : 0 ≤ a := by positivity
  have hs : Real.sin a = 1 := by rw [ha, Real.sin_add_nat_mul_two_pi, Real.sin_pi_div_two]
  have hroot : a ≤ √(a ^ 2 + a ^ 2) := Real.le_sqrt_of_sq_le (by nlinarith [sq_nonneg a])
  have hdiv : 1 / 2 + 2 * (k : ℝ) ≤ √(a ^ 2 + a ^ 2) / Real.pi := by
    rw [le_div_iff₀ hpi]
    calc (1 / 2 + 2 * (k : ℝ)) * Real.pi = a := by rw [ha]; ring
      _ ≤ _ := hroot
  unfold crossInTray at hx
  rw [hs, one_mul, one_mul] at hx
  generalize √(a ^ 2 + a ^ 2) / Real.pi = q at *
  have h1 : (k : ℝ) ≤ |100 - q| := by
    rw [abs_sub_comm]
    refine le_trans ?_ (le_abs_self _)
    linarith [abs_nonneg m]
  have h2 : Real.exp k ≤ |Real.exp (|100 - q|) + 1| := by
    rw [abs_of_pos (by positivity)]
    linarith [Real.exp_le_exp.2 h1]
  have h3 : Real.exp (k * 0.1) ≤ |Real.exp (|100 - q|) + 1| ^ (0.1 : ℝ) := by
    rw [Real.exp_mul]
    exact Real.rpow_le_rpow (Real.exp_pos _).le h2 (by norm_num)
  have h4 := Real.add_one_le_exp ((k : ℝ) * 0.1)
  have h5 := neg_abs_le m
  norm_num at hx h3 h4
  linarith

/-! ### C245 -/

/-- **C245** Schaffer's function N.4 lies above `cos² 1` (0.29192..., the documented minimum is 0.292579)
everywhere. -/
theorem C245_lower_bound (x y : ℝ) : Real.cos 1 ^ 2 ≤ schafferN4 x y := by
  have hc : 0 ≤ Real.cos 1 := Real.cos_one_pos.le
  have hs : Real.cos 1 ≤ Real.cos (Real.sin |x ^ 2 - y ^ 2|) := by
    rw [← Real.cos_abs (Real.sin _)]
    exact Real.cos_le_cos_of_nonneg_of_le_pi (abs_nonneg _)
      (by linarith [Real.pi_gt_three]) (Real.abs_sin_le_one _)
  have hsq : Real.cos 1 ^ 2 ≤ Real.cos (Real.sin |x ^ 2 - y ^ 2|) ^ 2 := by nlinarith
  have hd : 1 ≤ (1 + 0.001 * (x ^ 2 + y ^ 2)) ^ 2 := by
    have : 0 ≤ 0.001 * (x ^ 2 + y ^ 2) := by positivity
    nlinarith
  have hhalf : Real.cos 1 ^ 2 ≤ 1 / 2 := by
    have h1 := Real.cos_one_le
    nlinarith
  unfold schafferN4
  generalize (1 + 0.001 * (x ^ 2 + y ^ 2)) ^ 2 = d at *
  generalize Real.cos (Real.sin |x ^ 2 - y ^ 2|) ^ 2 = c at *
  have hd0 : 0 < d := by linarith
  have : Real.cos 1 ^ 2 - 1 / 2 ≤ (c - 0.5) / d := by
    rw [le_div_iff₀ hd0]
    norm_num
    nlinarith
  norm_num at this ⊢
  linarith

/-- **C245** It does not change if the coordinates are exchanged or change sign. -/
theorem C245_symmetric (x y : ℝ) : schafferN4 y x = schafferN4 x y ∧
    schafferN4 (-x) y = schafferN4 x y ∧ schafferN4 x (-y) = schafferN4 x y := by
  unfold schafferN4
  rw [abs_sub_comm (y ^ 2), add_comm (y ^ 2)]
  simp only [neg_sq, and_self]

/-- **C245** Hence the documented minimisers (0, ±c) are not the only ones: whatever `c ≠ 0` is, if they are
minimisers, then so is (c, 0). -/
theorem C245_minimisers_refuted (c : ℝ) (hc : c ≠ 0) :
    ¬ ∀ x y : ℝ, (∀ x' y', schafferN4 x y ≤ schafferN4 x' y') ↔ x = 0 ∧ (y = c ∨ y = -c) := by
  intro h
  have h1 := (h 0 c).2 ⟨rfl, Or.inl rfl⟩
  have h2 := (h c 0).1 fun x' y' => by rw [(C245_symmetric 0 c).1]; exact h1 x' y'
  exact hc h2.1

end Ens.Problems
