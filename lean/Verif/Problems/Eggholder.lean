import Verif.Problems.Gradients

/-
C154 for Eggholder: by how much `Gradient` misses the derivative of `Evaluate`.
-/

namespace Ens.Problems

open Function Real

/-- **C154** (partial) Eggholder away from the two kinks: the gradient is what the code returns plus an explicit error. With
`P = cos √|a| a / |a|^1.5`, `a = x₀ - x₁ - 47` and `Q` the same for `b = x₀/2 + x₁ + 47`, the code has `x₀ P / 2^1.5` where the
derivatives have `x₀ P / 2` and `-x₀ P / 2`, and `(x₀ + 47) Q / 4` where they have `(x₁ + 47) Q / 4` and `(x₁ + 47) Q / 2`. -/
theorem C154_eggholder_partial {x : Fin 2 → ℝ} (ha : x 0 - x 1 - 47 ≠ 0) (hb : x 0 / 2 + x 1 + 47 ≠ 0) {P Q : ℝ}
    (hP : P = cos √|x 0 - x 1 - 47| * (x 0 - x 1 - 47) / |x 0 - x 1 - 47| ^ (1.5 : ℝ))
    (hQ : Q = cos √|x 0 / 2 + x 1 + 47| * (x 0 / 2 + x 1 + 47) / |x 0 / 2 + x 1 + 47| ^ (1.5 : ℝ)) :
    GradAt eggholder (eggholderGrad x +
      ![x 0 * P * (1 / 2 ^ (1.5 : ℝ) - 1 / 2) + (x 0 - x 1) * Q / 4,
        x 0 * P * (1 / 2 ^ (1.5 : ℝ) + 1 / 2) + ((x 0 + 47) / 4 - (x 1 + 47) / 2) * Q]) x := by
  have ha' : x 0 - (x 1 + 47) ≠ 0 := by rwa [← sub_sub]
  have hb' : x 1 + x 0 / 2 + 47 ≠ 0 := by rwa [add_comm (x 1)]
  have ea : x 0 - (x 1 + 47) = x 0 - x 1 - 47 := by ring
  have eb : x 1 + x 0 / 2 + 47 = x 0 / 2 + x 1 + 47 := by ring
  have hra : |x 0 - x 1 - 47| ^ (1.5 : ℝ) ≠ 0 := (Real.rpow_pos_of_pos (abs_pos.2 ha) _).ne'
  have hrb : |x 0 / 2 + x 1 + 47| ^ (1.5 : ℝ) ≠ 0 := (Real.rpow_pos_of_pos (abs_pos.2 hb) _).ne'
  have hr2 : (2 : ℝ) ^ (1.5 : ℝ) ≠ 0 := (Real.rpow_pos_of_pos (by norm_num) _).ne'
  have hmul : (2 * |x 0 - x 1 - 47|) ^ (1.5 : ℝ) = 2 ^ (1.5 : ℝ) * |x 0 - x 1 - 47| ^ (1.5 : ℝ) :=
    Real.mul_rpow (by norm_num) (abs_nonneg _)
  refine GradAt.of_partials ?_ fun i => ?_
  · unfold eggholder
    have d1 : DifferentiableAt ℝ (fun y : Fin 2 → ℝ => √|y 1 + y 0 / 2 + 47|) x :=
      DifferentiableAt.sqrt (DifferentiableAt.abs (by fun_prop) hb') (abs_ne_zero.2 hb')
    have d2 : DifferentiableAt ℝ (fun y : Fin 2 → ℝ => √|y 0 - (y 1 + 47)|) x :=
      DifferentiableAt.sqrt (DifferentiableAt.abs (by fun_prop) ha') (abs_ne_zero.2 ha')
    exact (DifferentiableAt.mul (by fun_prop) d1.sin).sub (DifferentiableAt.mul (by fun_prop) d2.sin)
  · subst hP hQ
    fin_cases i
    · have hu : HasDerivAt (fun t : ℝ => x 1 + t / 2 + 47) (1 / 2) (x 0) := by
        simpa using (((hasDerivAt_id (x 0)).div_const 2).const_add (x 1)).add_const 47
      have hv : HasDerivAt (fun t : ℝ => t - (x 1 + 47)) 1 (x 0) := (hasDerivAt_id (x 0)).sub_const _
      have h3 := ((hasDerivAt_sqrt_abs hu hb').sin.const_mul (-1 * (x 1 + 47))).fun_sub
        ((hasDerivAt_id (x 0)).fun_mul (hasDerivAt_sqrt_abs hv ha').sin)
      have hf : (fun t => eggholder (update x 0 t)) = fun t : ℝ => -1 * (x 1 + 47) * sin √|x 1 + t / 2 + 47| -
          id t * sin √|t - (x 1 + 47)| := by
        funext t; simp [eggholder, update_apply]
      show HasDerivAt (fun t => eggholder (update x 0 t)) _ (x 0)
      rw [hf]
      refine h3.congr_deriv ?_
      simp only [ea, eb, eggholderGrad, hmul, id, Pi.add_apply]
      generalize |x 0 - x 1 - 47| ^ (1.5 : ℝ) = r at hra
      generalize |x 0 / 2 + x 1 + 47| ^ (1.5 : ℝ) = s at hrb
      generalize (2 : ℝ) ^ (1.5 : ℝ) = q at hr2
      generalize cos √|x 0 - x 1 - 47| = ca
      generalize cos √|x 0 / 2 + x 1 + 47| = cb
      generalize sin √|x 0 - x 1 - 47| = sa
      simp
      field_simp
      ring
    · have hu : HasDerivAt (fun t : ℝ => t + x 0 / 2 + 47) 1 (x 1) := by
        simpa using ((hasDerivAt_id (x 1)).add_const (x 0 / 2)).add_const 47
      have hv : HasDerivAt (fun t : ℝ => x 0 - (t + 47)) (-1) (x 1) := by
        simpa using ((hasDerivAt_id (x 1)).add_const 47).const_sub (x 0)
      have hw : HasDerivAt (fun t : ℝ => -1 * (t + 47)) (-1 * 1) (x 1) :=
        ((hasDerivAt_id (x 1)).add_const 47).const_mul (-1)
      have h3 := (hw.fun_mul (hasDerivAt_sqrt_abs hu hb').sin).fun_sub
        ((hasDerivAt_sqrt_abs hv ha').sin.const_mul (x 0))
      have hf : (fun t => eggholder (update x 1 t)) = fun t : ℝ => -1 * (t + 47) * sin √|t + x 0 / 2 + 47| -
          x 0 * sin √|x 0 - (t + 47)| := by
        funext t; simp [eggholder, update_apply]
      show HasDerivAt (fun t => eggholder (update x 1 t)) _ (x 1)
      rw [hf]
      refine h3.congr_deriv ?_
      simp only [ea, eb, eggholderGrad, hmul, Pi.add_apply]
      generalize |x 0 - x 1 - 47| ^ (1.5 : ℝ) = r at hra
      generalize |x 0 / 2 + x 1 + 47| ^ (1.5 : ℝ) = s at hrb
      generalize (2 : ℝ) ^ (1.5 : ℝ) = q at hr2
      generalize cos √|x 0 - x 1 - 47| = ca
      generalize cos √|x 0 / 2 + x 1 + 47| = cb
      generalize sin √|x 0 / 2 + x 1 + 47| = sa
      simp
      field_simp
      ring

/-- The hypotheses of `C154_eggholder_partial` are met, e.g., at the origin. -/
example : GradAt eggholder (eggholderGrad 0 + ![0, -(47 / 4) * (cos √47 * 47 / 47 ^ (1.5 : ℝ))]) 0 := by
  have h := C154_eggholder_partial (x := 0) (by simp) (by simp) rfl rfl
  convert h using 2
  ext i
  fin_cases i
  · simp
  · simp
    ring

end Ens.Problems
