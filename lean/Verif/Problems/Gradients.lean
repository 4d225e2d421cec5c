import Mathlib.Analysis.SpecialFunctions.Trigonometric.Deriv
import Mathlib.Analysis.SpecialFunctions.ExpDeriv
import Mathlib.Analysis.SpecialFunctions.Sqrt
import Mathlib.Analysis.Calculus.Deriv.Pow
import Mathlib.Analysis.Calculus.Deriv.Inv
import Mathlib.Analysis.Calculus.Deriv.Abs
import Mathlib.Tactic.FinCases
import Mathlib.Tactic.Ring
import Mathlib.Tactic.FieldSimp
import Mathlib.Tactic.NormNum
import Mathlib.Tactic.Linarith
import Verif.Problems.Base
import Verif.Problems.Model

/-
C65 for the problems of fixed dimension: `Gradient` is the derivative of `Evaluate`.
-/

namespace Ens.Problems

open Function Real

set_option linter.unusedSimpArgs false

/-- Proves `GradAt f (g x) x` for expressions differentiable everywhere: the partial derivatives are computed and compared. -/
local macro "gradient" f:ident g:ident : tactic => `(tactic| (
  refine GradAt.of_partials (by unfold $f; fun_prop) fun i => ?_
  refine HasDerivAt.congr_deriv (DifferentiableAt.hasDerivAt (by unfold $f; fin_cases i <;> simp <;> fun_prop)) ?_
  fin_cases i <;>
    simp (disch := fun_prop) [$f:ident, $g:ident, update_apply, deriv_fun_sub, deriv_fun_add, deriv_fun_mul,
      deriv_fun_pow] <;> ring))

/-- **C65** Beale. -/
theorem C65_beale (x : Fin 2 → ℝ) : GradAt beale (bealeGrad x) x := by gradient beale bealeGrad

/-- **C65** Booth. -/
theorem C65_booth (x : Fin 2 → ℝ) : GradAt booth (boothGrad x) x := by gradient booth boothGrad

/-- **C65** Colville. -/
theorem C65_colville (x : Fin 4 → ℝ) : GradAt colville (colvilleGrad x) x := by gradient colville colvilleGrad

/-- **C65** Easom. -/
theorem C65_easom (x : Fin 2 → ℝ) : GradAt easom (easomGrad x) x := by gradient easom easomGrad

/-- **C65** Goldstein-Price. -/
theorem C65_goldsteinPrice (x : Fin 2 → ℝ) : GradAt goldsteinPrice (goldsteinPriceGrad x) x := by
  gradient goldsteinPrice goldsteinPriceGrad

/-- **C65** Himmelblau. -/
theorem C65_himmelblau (x : Fin 2 → ℝ) : GradAt himmelblau (himmelblauGrad x) x := by gradient himmelblau himmelblauGrad

/-- **C65** Lévy N.13. -/
theorem C65_levy13 (x : Fin 2 → ℝ) : GradAt levy13 (levy13Grad x) x := by gradient levy13 levy13Grad

/-- **C65** McCormick. -/
theorem C65_mcCormick (x : Fin 2 → ℝ) : GradAt mcCormick (mcCormickGrad x) x := by gradient mcCormick mcCormickGrad

/-- **C65** Rosenbrock. -/
theorem C65_rosenbrock (x : Fin 2 → ℝ) : GradAt rosenbrock (rosenbrockGrad x) x := by gradient rosenbrock rosenbrockGrad

/-- **C65** Three-hump camel. -/
theorem C65_threeHump (x : Fin 2 → ℝ) : GradAt threeHump (threeHumpGrad x) x := by gradient threeHump threeHumpGrad

/-- **C65** Wood. -/
theorem C65_wood (x : Fin 4 → ℝ) : GradAt wood (woodGrad x) x := by gradient wood woodGrad

/-- **C65** `GDTestFunction`. -/
theorem C65_gdTest (x : Fin 3 → ℝ) : GradAt gdTest (gdTestGrad x) x := by gradient gdTest gdTestGrad

theorem schaffer2_pos (a b : ℝ) : (0 : ℝ) < 1 + 0.001 * (a ^ 2 + b ^ 2) := by positivity

/-- **C65** Schaffer N.2. -/
theorem C65_schaffer2 (x : Fin 2 → ℝ) : GradAt schaffer2 (schaffer2Grad x) x := by
  have hne := (schaffer2_pos (x 0) (x 1)).ne'
  have h0 : (1 + 0.001 * (x 0 ^ 2 + x 1 ^ 2)) ^ 2 ≠ 0 := pow_ne_zero 2 hne
  have e : (0.001 * (x 0 * x 0 + x 1 * x 1) + 1 : ℝ) = 1 + 0.001 * (x 0 ^ 2 + x 1 ^ 2) := by ring
  have e' : x 0 * x 0 - x 1 * x 1 = x 0 ^ 2 - x 1 ^ 2 := by ring
  refine GradAt.of_partials ?_ fun i => ?_
  · unfold schaffer2
    fun_prop (disch := assumption)
  · fin_cases i
    · have h1 : HasDerivAt (fun t => sin (t ^ 2 - x 1 ^ 2)) (cos (x 0 ^ 2 - x 1 ^ 2) * (2 * x 0)) (x 0) := by
        simpa using ((hasDerivAt_pow 2 (x 0)).sub_const (x 1 ^ 2)).sin
      have h2 : HasDerivAt (fun t => 1 + 0.001 * (t ^ 2 + x 1 ^ 2)) (0.001 * (2 * x 0)) (x 0) := by
        simpa using (((hasDerivAt_pow 2 (x 0)).add_const (x 1 ^ 2)).const_mul 0.001).const_add 1
      have h3 := (((h1.fun_pow 2).sub_const 0.5).fun_div (h2.fun_pow 2) h0).const_add 0.5
      have hf : (fun t => schaffer2 (update x 0 t)) = fun t => 0.5 + (sin (t ^ 2 - x 1 ^ 2) ^ 2 - 0.5) /
          (1 + 0.001 * (t ^ 2 + x 1 ^ 2)) ^ 2 := by
        funext t; simp [schaffer2, update_apply]
      show HasDerivAt (fun t => schaffer2 (update x 0 t)) _ (x 0)
      rw [hf]
      refine h3.congr_deriv ?_
      simp only [schaffer2Grad, e, e']
      generalize 1 + 0.001 * (x 0 ^ 2 + x 1 ^ 2) = d at hne ⊢
      simp
      field_simp
      ring
    · have h1 : HasDerivAt (fun t => sin (x 0 ^ 2 - t ^ 2)) (cos (x 0 ^ 2 - x 1 ^ 2) * (-(2 * x 1))) (x 1) := by
        simpa using ((hasDerivAt_pow 2 (x 1)).const_sub (x 0 ^ 2)).sin
      have h2 : HasDerivAt (fun t => 1 + 0.001 * (x 0 ^ 2 + t ^ 2)) (0.001 * (2 * x 1)) (x 1) := by
        simpa using (((hasDerivAt_pow 2 (x 1)).const_add (x 0 ^ 2)).const_mul 0.001).const_add 1
      have h3 := (((h1.fun_pow 2).sub_const 0.5).fun_div (h2.fun_pow 2) h0).const_add 0.5
      have hf : (fun t => schaffer2 (update x 1 t)) = fun t => 0.5 + (sin (x 0 ^ 2 - t ^ 2) ^ 2 - 0.5) /
          (1 + 0.001 * (x 0 ^ 2 + t ^ 2)) ^ 2 := by
        funext t; simp [schaffer2, update_apply]
      show HasDerivAt (fun t => schaffer2 (update x 1 t)) _ (x 1)
      rw [hf]
      refine h3.congr_deriv ?_
      simp only [schaffer2Grad, e, e']
      generalize 1 + 0.001 * (x 0 ^ 2 + x 1 ^ 2) = d at hne ⊢
      simp
      field_simp
      ring

/-- Away from the origin the squared norm is not 0. -/
theorem sq_pos_of_ne {x : Fin 2 → ℝ} (hx : x ≠ 0) : 0 < x 0 ^ 2 + x 1 ^ 2 := by
  by_contra h
  apply hx
  have h0 : x 0 ^ 2 = 0 := by nlinarith [sq_nonneg (x 0), sq_nonneg (x 1)]
  have h1 : x 1 ^ 2 = 0 := by nlinarith [sq_nonneg (x 0), sq_nonneg (x 1)]
  funext i
  fin_cases i
  · simpa using h0
  · simpa using h1

/-- **C154** Drop-wave, away from the origin (at the origin, the minimiser, the code computes 0 / 0). -/
theorem C154_dropWave_partial {x : Fin 2 → ℝ} (hx : x ≠ 0) : GradAt dropWave (dropWaveGrad x) x := by
  have hpos := sq_pos_of_ne hx
  have hne := hpos.ne'
  have hd : (0.5 * (x 0 ^ 2 + x 1 ^ 2) + 2 : ℝ) ≠ 0 := by positivity
  have hs : √(x 0 ^ 2 + x 1 ^ 2) ≠ 0 := (Real.sqrt_pos.2 hpos).ne'
  refine GradAt.of_partials ?_ fun i => ?_
  · unfold dropWave
    fun_prop (disch := assumption)
  · fin_cases i
    · have h1 : HasDerivAt (fun t => t ^ 2 + x 1 ^ 2) (2 * x 0) (x 0) := by
        simpa using (hasDerivAt_pow 2 (x 0)).add_const (x 1 ^ 2)
      have h3 := ((((h1.sqrt hne).const_mul 12).cos.const_add 1).const_mul (-1)).fun_div
        ((h1.const_mul 0.5).add_const 2) hd
      have hf : (fun t => dropWave (update x 0 t)) = fun t => -1 * (1 + cos (12 * √(t ^ 2 + x 1 ^ 2))) /
          (0.5 * (t ^ 2 + x 1 ^ 2) + 2) := by
        funext t; simp [dropWave, update_apply]
      show HasDerivAt (fun t => dropWave (update x 0 t)) _ (x 0)
      rw [hf]
      refine h3.congr_deriv ?_
      simp only [dropWaveGrad]
      generalize √(x 0 ^ 2 + x 1 ^ 2) = r at hs ⊢
      generalize (0.5 * (x 0 ^ 2 + x 1 ^ 2) + 2) = d at hd ⊢
      simp
      field_simp
      ring
    · have h1 : HasDerivAt (fun t => x 0 ^ 2 + t ^ 2) (2 * x 1) (x 1) := by
        simpa using (hasDerivAt_pow 2 (x 1)).const_add (x 0 ^ 2)
      have h3 := ((((h1.sqrt hne).const_mul 12).cos.const_add 1).const_mul (-1)).fun_div
        ((h1.const_mul 0.5).add_const 2) hd
      have hf : (fun t => dropWave (update x 1 t)) = fun t => -1 * (1 + cos (12 * √(x 0 ^ 2 + t ^ 2))) /
          (0.5 * (x 0 ^ 2 + t ^ 2) + 2) := by
        funext t; simp [dropWave, update_apply]
      show HasDerivAt (fun t => dropWave (update x 1 t)) _ (x 1)
      rw [hf]
      refine h3.congr_deriv ?_
      simp only [dropWaveGrad]
      generalize √(x 0 ^ 2 + x 1 ^ 2) = r at hs ⊢
      generalize (0.5 * (x 0 ^ 2 + x 1 ^ 2) + 2) = d at hd ⊢
      simp
      field_simp
      ring

/-- **C154** Ackley, away from the origin, with `epsilon = 0`.  Missing: `epsilon > 0` (next theorem). -/
theorem C154_ackley_partial (c : ℝ) {x : Fin 2 → ℝ} (hx : x ≠ 0) : GradAt (ackley c) (ackleyGrad c 0 x) x := by
  have hpos := sq_pos_of_ne hx
  have hne : (0.5 * (x 0 * x 0 + x 1 * x 1) : ℝ) ≠ 0 := by nlinarith
  have hs : √(0.5 * (x 0 * x 0 + x 1 * x 1)) ≠ 0 := (Real.sqrt_pos.2 (by nlinarith)).ne'
  refine GradAt.of_partials ?_ fun i => ?_
  · unfold ackley
    fun_prop (disch := assumption)
  · fin_cases i
    · have h1 : HasDerivAt (fun t => 0.5 * (t * t + x 1 * x 1)) (0.5 * (x 0 + x 0)) (x 0) := by
        simpa using (((hasDerivAt_id (x 0)).mul (hasDerivAt_id (x 0))).add_const (x 1 * x 1)).const_mul 0.5
      have h2 : HasDerivAt (fun t => 0.5 * (cos (c * t) + cos (c * x 1))) (0.5 * (-sin (c * x 0) * c)) (x 0) := by
        simpa using ((((hasDerivAt_id (x 0)).const_mul c).cos).add_const (cos (c * x 1))).const_mul 0.5
      have h3 := (((((h1.sqrt hne).const_mul (-0.2)).exp.const_mul (-20)).fun_sub h2.exp).add_const (exp 1)).add_const 20
      have hf : (fun t => ackley c (update x 0 t)) = fun t => -20 * exp (-0.2 * √(0.5 * (t * t + x 1 * x 1))) -
          exp (0.5 * (cos (c * t) + cos (c * x 1))) + exp 1 + 20 := by
        funext t; simp [ackley, update_apply]
      show HasDerivAt (fun t => ackley c (update x 0 t)) _ (x 0)
      rw [hf]
      refine h3.congr_deriv ?_
      simp only [ackleyGrad, ackT]
      generalize √(0.5 * (x 0 * x 0 + x 1 * x 1)) = r at hs ⊢
      simp
      field_simp
      ring
    · have h1 : HasDerivAt (fun t => 0.5 * (x 0 * x 0 + t * t)) (0.5 * (x 1 + x 1)) (x 1) := by
        simpa using (((hasDerivAt_id (x 1)).mul (hasDerivAt_id (x 1))).const_add (x 0 * x 0)).const_mul 0.5
      have h2 : HasDerivAt (fun t => 0.5 * (cos (c * x 0) + cos (c * t))) (0.5 * (-sin (c * x 1) * c)) (x 1) := by
        simpa using ((((hasDerivAt_id (x 1)).const_mul c).cos).const_add (cos (c * x 0))).const_mul 0.5
      have h3 := (((((h1.sqrt hne).const_mul (-0.2)).exp.const_mul (-20)).fun_sub h2.exp).add_const (exp 1)).add_const 20
      have hf : (fun t => ackley c (update x 1 t)) = fun t => -20 * exp (-0.2 * √(0.5 * (x 0 * x 0 + t * t))) -
          exp (0.5 * (cos (c * x 0) + cos (c * t))) + exp 1 + 20 := by
        funext t; simp [ackley, update_apply]
      show HasDerivAt (fun t => ackley c (update x 1 t)) _ (x 1)
      rw [hf]
      refine h3.congr_deriv ?_
      simp only [ackleyGrad, ackT]
      generalize √(0.5 * (x 0 * x 0 + x 1 * x 1)) = r at hs ⊢
      simp
      field_simp
      ring

theorem abs_le_ackT (x : Fin 2 → ℝ) (i : Fin 2) : |x i| ≤ 2 * ackT x := by
  have h : x i ^ 2 ≤ 4 * (0.5 * (x 0 * x 0 + x 1 * x 1)) := by
    fin_cases i <;> simp <;> nlinarith [sq_nonneg (x 0), sq_nonneg (x 1)]
  have h2 := Real.sqrt_le_sqrt h
  rw [Real.sqrt_sq_eq_abs, Real.sqrt_mul (by norm_num), show (4 : ℝ) = 2 ^ 2 by norm_num, Real.sqrt_sq (by norm_num)] at h2
  exact h2

/-- **C154** Ackley with a positive `epsilon`: the gradient differs from the true one by at most `4 ε / (t0 + ε)` in each
component, `t0` the root mean square of the coordinates. -/
theorem C154_ackley_close (c : ℝ) {ε : ℝ} (hε : 0 < ε) {x : Fin 2 → ℝ} (hx : x ≠ 0) (i : Fin 2) :
    |ackleyGrad c ε x i - ackleyGrad c 0 x i| ≤ 4 * ε / (ackT x + ε) := by
  have hpos := sq_pos_of_ne hx
  have ht : 0 < ackT x := Real.sqrt_pos.2 (by nlinarith)
  have hi := abs_le_ackT x i
  have e1 : exp (-0.2 * ackT x) ≤ 1 := Real.exp_le_one_iff.2 (by nlinarith)
  have e0 := Real.exp_pos (-0.2 * ackT x)
  have key : ackleyGrad c ε x i - ackleyGrad c 0 x i =
      -(x i * (2 * exp (-0.2 * ackT x) * ε / (ackT x * (ackT x + ε)))) := by
    fin_cases i <;> simp [ackleyGrad] <;> field_simp <;> ring
  rw [key, abs_neg, abs_mul, abs_of_pos (by positivity : (0:ℝ) < 2 * exp (-0.2 * ackT x) * ε / (ackT x * (ackT x + ε)))]
  rw [mul_div_assoc', div_le_div_iff₀ (by positivity) (by positivity)]
  have : |x i| * (2 * exp (-0.2 * ackT x) * ε) ≤ 2 * ackT x * (2 * 1 * ε) := by
    gcongr
  nlinarith [mul_le_mul_of_nonneg_right this (by positivity : (0:ℝ) ≤ ackT x + ε)]

/-- **C154 is false for Ackley with the default `epsilon > 0`**: at (2, 2) with `c = 0`, for instance. -/
theorem C154_ackley_refuted : ¬ ∀ (c ε : ℝ) (x : Fin 2 → ℝ), 0 < ε → x ≠ 0 → GradAt (ackley c) (ackleyGrad c ε x) x := by
  intro h
  have hx : (![1, 1] : Fin 2 → ℝ) ≠ 0 := fun e => by simpa using congrFun e 0
  have h1 := (h 0 1 ![1, 1] one_pos hx).unique (C154_ackley_partial 0 hx)
  have h2 := congrFun h1 0
  have ht : ackT ![1, 1] = 1 := by simp [ackT]; norm_num
  simp [ackleyGrad, ht] at h2
  norm_num at h2

theorem abs_rpow_three_halves (u : ℝ) : |u| ^ (1.5 : ℝ) = |u| * √|u| := by
  rcases eq_or_ne u 0 with rfl | hu
  · simp; norm_num
  · have hp : 0 < |u| := abs_pos.2 hu
    rw [show (1.5 : ℝ) = 1 + 1 / 2 by norm_num, Real.rpow_add hp, Real.rpow_one, ← Real.sqrt_eq_rpow]

/-- The derivative of `√|u|`. -/
theorem hasDerivAt_sqrt_abs {u : ℝ → ℝ} {u' t : ℝ} (hu : HasDerivAt u u' t) (h0 : u t ≠ 0) :
    HasDerivAt (fun s => √|u s|) (u' * u t / (2 * |u t| ^ (1.5 : ℝ))) t := by
  have hp : 0 < |u t| := abs_pos.2 h0
  have h1 : HasDerivAt (fun s => |u s|) (SignType.sign (u t) * u') t := (hasDerivAt_abs h0).comp t hu
  refine (h1.sqrt hp.ne').congr_deriv ?_
  rw [abs_rpow_three_halves]
  have hs : (SignType.sign (u t) : ℝ) * |u t| = u t := sign_mul_abs _
  have hq : √|u t| ≠ 0 := (Real.sqrt_pos.2 hp).ne'
  rw [div_eq_div_iff (by positivity) (by positivity)]
  linear_combination (2 * √|u t| * u') * hs

/-- **C154** Bukin N.6 with `epsilon = 0`, away from the two kinks. -/
theorem C154_bukin_partial {x : Fin 2 → ℝ} (hu : x 1 - 0.01 * x 0 ^ 2 ≠ 0) (h10 : x 0 + 10 ≠ 0) :
    GradAt bukin (bukinGrad 0 x) x := by
  have hq := abs_rpow_three_halves (x 1 - 0.01 * x 0 ^ 2)
  have hp : 0 < |x 1 - 0.01 * x 0 ^ 2| := abs_pos.2 hu
  have hp' : |x 1 - 0.01 * x 0 ^ 2| ≠ 0 := hp.ne'
  refine GradAt.of_partials ?_ fun i => ?_
  · unfold bukin
    have d1 : DifferentiableAt ℝ (fun y : Fin 2 → ℝ => |y 1 - 0.01 * y 0 ^ 2|) x :=
      DifferentiableAt.abs (by fun_prop) hu
    have d2 : DifferentiableAt ℝ (fun y : Fin 2 → ℝ => |y 0 + 10|) x := DifferentiableAt.abs (by fun_prop) h10
    exact ((d1.sqrt hp').const_mul 100).add (d2.const_mul 0.01)
  · fin_cases i
    · have h1 : HasDerivAt (fun t => x 1 - 0.01 * t ^ 2) (-(0.01 * (2 * x 0))) (x 0) := by
        simpa using ((hasDerivAt_pow 2 (x 0)).const_mul 0.01).const_sub (x 1)
      have h2 : HasDerivAt (fun t => |t + 10|) ((SignType.sign (x 0 + 10) : ℝ) * 1) (x 0) :=
        HasDerivAt.comp (h₂ := fun s : ℝ => |s|) (h := fun t : ℝ => t + 10) (x 0) (hasDerivAt_abs h10)
          ((hasDerivAt_id' (x 0)).add_const 10)
      have h3 := ((hasDerivAt_sqrt_abs h1 hu).const_mul 100).fun_add (h2.const_mul 0.01)
      have hf : (fun t => bukin (update x 0 t)) = fun t => 100 * √|x 1 - 0.01 * t ^ 2| + 0.01 * |t + 10| := by
        funext t; simp [bukin, update_apply]
      show HasDerivAt (fun t => bukin (update x 0 t)) _ (x 0)
      rw [hf]
      refine h3.congr_deriv ?_
      have hs : (SignType.sign (x 0 + 10) : ℝ) * |x 0 + 10| = x 0 + 10 := sign_mul_abs _
      have h10' : |x 0 + 10| ≠ 0 := abs_ne_zero.2 h10
      have hs' : (SignType.sign (x 0 + 10) : ℝ) = (x 0 + 10) / |x 0 + 10| := by
        rw [eq_div_iff h10']; exact hs
      have hr : |x 1 - 0.01 * x 0 ^ 2| ^ (1.5 : ℝ) ≠ 0 := by
        rw [hq]; exact mul_ne_zero hp' (Real.sqrt_pos.2 hp).ne'
      simp only [bukinGrad]
      rw [hs', show (10.0 : ℝ) = 10 by norm_num]
      generalize |x 1 - 0.01 * x 0 ^ 2| ^ (1.5 : ℝ) = r at hr ⊢
      simp
      field_simp
      ring
    · have h1 : HasDerivAt (fun t => t - 0.01 * x 0 ^ 2) 1 (x 1) := (hasDerivAt_id (x 1)).sub_const _
      have h3 := ((hasDerivAt_sqrt_abs h1 hu).const_mul 100).add_const (0.01 * |x 0 + 10|)
      have hf : (fun t => bukin (update x 1 t)) = fun t => 100 * √|t - 0.01 * x 0 ^ 2| + 0.01 * |x 0 + 10| := by
        funext t; simp [bukin, update_apply]
      show HasDerivAt (fun t => bukin (update x 1 t)) _ (x 1)
      rw [hf]
      refine h3.congr_deriv ?_
      simp only [bukinGrad]
      generalize |x 1 - 0.01 * x 0 ^ 2| ^ (1.5 : ℝ) = r
      simp
      ring

/-- The gradient Matyas should have: 0.48 in both components. -/
noncomputable def matyasTrue (x : Fin 2 → ℝ) : Fin 2 → ℝ := ![0.52 * x 0 - 0.48 * x 1, 0.52 * x 1 - 0.48 * x 0]

/-- **C154** Matyas: the gradient of the code is right exactly on the axis `x 1 = 0` ("48" for "0.48"). -/
theorem C154_matyas_exact (x : Fin 2 → ℝ) : GradAt matyas (matyasGrad x) x ↔ x 1 = 0 := by
  have ht : GradAt matyas (matyasTrue x) x := by gradient matyas matyasTrue
  constructor
  · intro h
    have := congrFun (h.unique ht) 0
    simp [matyasGrad, matyasTrue] at this
    rcases this with h | h
    · norm_num at h
    · exact h
  · intro h
    have : matyasGrad x = matyasTrue x := by simp [matyasGrad, matyasTrue, h]
    rw [this]; exact ht

/-- **C154 is false for Matyas.** -/
theorem C154_matyas_refuted : ¬ ∀ x, GradAt matyas (matyasGrad x) x := by
  intro h
  have := (C154_matyas_exact _).1 (h ![0, 1])
  simp at this

/-- **C154** `TestFuncFW`: the code returns half of the gradient. -/
theorem C154_testFuncFW_half (x : Fin 3 → ℝ) : GradAt testFuncFW (2 • testFuncFWGrad x) x := by
  refine GradAt.of_partials (by unfold testFuncFW; fun_prop) fun i => ?_
  refine HasDerivAt.congr_deriv (DifferentiableAt.hasDerivAt (by unfold testFuncFW; fin_cases i <;> simp <;> fun_prop)) ?_
  fin_cases i <;> simp (disch := fun_prop) [testFuncFW, testFuncFWGrad, update_apply, deriv_fun_sub, deriv_fun_add,
    deriv_fun_mul, deriv_fun_pow]

/-- **C154 is false for `TestFuncFW`.** -/
theorem C154_testFuncFW_refuted : ¬ ∀ x, GradAt testFuncFW (testFuncFWGrad x) x := by
  intro h
  have := congrFun ((h 0).unique (C154_testFuncFW_half 0)) 0
  simp [testFuncFWGrad] at this
  norm_num at this

/-- **C154 is false for Eggholder**, at points where both functions are smooth: the code uses `x 0 + 47` where the derivative
has `x 1 + 47`. -/
theorem C154_eggholder_refuted : ¬ ∀ x : Fin 2 → ℝ, x 0 - x 1 - 47 ≠ 0 → x 0 / 2 + x 1 + 47 ≠ 0 →
    GradAt eggholder (eggholderGrad x) x := by
  intro h
  have h1 := (h ![0, -46] (by simp; norm_num) (by simp; norm_num)).partial 0
  have hu : HasDerivAt (fun t : ℝ => -46 + t / 2 + 47) (1 / 2) 0 := by
    simpa using (((hasDerivAt_id (0 : ℝ)).div_const 2).const_add (-46)).add_const 47
  have hv : HasDerivAt (fun t : ℝ => t - (-46 + 47)) 1 0 := (hasDerivAt_id (0 : ℝ)).sub_const _
  have hu' := hasDerivAt_sqrt_abs hu (by norm_num)
  have hv' := hasDerivAt_sqrt_abs hv (by norm_num)
  have h3 := (hu'.sin.const_mul (-1 * (-46 + 47))).fun_sub ((hasDerivAt_id (0 : ℝ)).fun_mul hv'.sin)
  have hf : (fun t => eggholder (update ![0, -46] 0 t)) = fun t : ℝ => -1 * (-46 + 47) * sin √|-46 + t / 2 + 47| -
      id t * sin √|t - (-46 + 47)| := by
    funext t; simp [eggholder, update_apply]
  rw [hf] at h1
  have h2 := h1.unique h3
  have hc := Real.cos_one_pos
  have e1 : |(-46 + 0 / 2 + 47 : ℝ)| = 1 := by norm_num
  have e2 : |(0 - (-46 + 47) : ℝ)| = 1 := by norm_num
  have e3 : |(0 - -46 - 47 : ℝ)| = 1 := by norm_num
  have e4 : |(0 / 2 + -46 + 47 : ℝ)| = 1 := by norm_num
  simp only [eggholderGrad, Matrix.cons_val_zero, Matrix.cons_val_one, e1, e2, e3, e4, Real.sqrt_one, Real.one_rpow] at h2
  norm_num at h2
  linarith

end Ens.Problems
