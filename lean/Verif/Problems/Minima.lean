import Mathlib.Analysis.SpecialFunctions.Trigonometric.Bounds
import Mathlib.Analysis.Real.Pi.Bounds
import Mathlib.Tactic.FinCases
import Mathlib.Tactic.Ring
import Mathlib.Tactic.FieldSimp
import Mathlib.Tactic.NormNum
import Mathlib.Tactic.Linarith
import Verif.Problems.Base
import Verif.Problems.Model

/-
C67 for the problems of fixed dimension: the documented point attains the documented value, and no point has a smaller one.
-/

namespace Ens.Problems

open Real

/-- **C67** Ackley, for every `c`. -/
theorem C67_ackley (c : ℝ) : MinAt (ackley c) ![0, 0] 0 := by
  constructor
  · simp [ackley]; norm_num
  · intro y
    have h1 : exp (-0.2 * √(0.5 * (y 0 * y 0 + y 1 * y 1))) ≤ 1 :=
      Real.exp_le_one_iff.2 (by nlinarith [Real.sqrt_nonneg (0.5 * (y 0 * y 0 + y 1 * y 1))])
    have h2 : exp (0.5 * (cos (c * y 0) + cos (c * y 1))) ≤ exp 1 :=
      Real.exp_le_exp.2 (by linarith [Real.cos_le_one (c * y 0), Real.cos_le_one (c * y 1)])
    unfold ackley
    linarith

/-- **C67** Beale. -/
theorem C67_beale : MinAt beale ![3, 0.5] 0 := by
  constructor
  · simp [beale]; norm_num
  · intro y; unfold beale; positivity

/-- **C67** Booth. -/
theorem C67_booth : MinAt booth ![1, 3] 0 := by
  constructor
  · simp [booth]; norm_num
  · intro y; unfold booth; positivity

/-- **C67** Bukin N.6. -/
theorem C67_bukin : MinAt bukin ![-10, 1] 0 := by
  constructor
  · simp [bukin]; norm_num
  · intro y; unfold bukin; positivity

/-- **C67** Colville. -/
theorem C67_colville : MinAt colville ![1, 1, 1, 1] 0 := by
  constructor
  · simp [colville]
  · intro y; unfold colville
    nlinarith [sq_nonneg (y 0 ^ 2 - y 1), sq_nonneg (y 0 - 1), sq_nonneg (y 2 - 1), sq_nonneg (y 2 ^ 2 - y 3),
      sq_nonneg (y 1 - 1 + (y 3 - 1)), sq_nonneg (y 1 - 1), sq_nonneg (y 3 - 1)]

theorem dropWave_at_zero : dropWave ![0, 0] = -1 := by simp [dropWave]

/-- **C156** Drop-wave: the minimum is at the documented point, but it is -1. -/
theorem C156_dropWave_partial : MinAt dropWave ![0, 0] (-1) := by
  refine ⟨dropWave_at_zero, fun y => ?_⟩
  unfold dropWave
  have hd : (0 : ℝ) < 0.5 * (y 0 ^ 2 + y 1 ^ 2) + 2 := by positivity
  rw [le_div_iff₀ hd]
  nlinarith [Real.cos_le_one (12 * √(y 0 ^ 2 + y 1 ^ 2)), sq_nonneg (y 0), sq_nonneg (y 1)]

/-- **C156 is false for drop-wave**: `GetFinalObjective()` returns 0. -/
theorem C156_dropWave_refuted : ¬ MinAt dropWave ![0, 0] 0 := by
  intro h
  have := h.1
  rw [dropWave_at_zero] at this
  norm_num at this

/-- **C156** Easom: the minimum is -1, at (π, π). -/
theorem C156_easom_partial : MinAt easom ![π, π] (-1) := by
  constructor
  · simp [easom]
  · intro y
    unfold easom
    have h1 : exp (-1 * (y 0 - π) ^ 2 - (y 1 - π) ^ 2) ≤ 1 :=
      Real.exp_le_one_iff.2 (by nlinarith [sq_nonneg (y 0 - π), sq_nonneg (y 1 - π)])
    have h0 := Real.exp_pos (-1 * (y 0 - π) ^ 2 - (y 1 - π) ^ 2)
    have h2 : |cos (y 0) * cos (y 1)| ≤ 1 := by
      rw [abs_mul]
      exact mul_le_one₀ (Real.abs_cos_le_one _) (abs_nonneg _) (Real.abs_cos_le_one _)
    have h3 := abs_le.1 h2
    nlinarith

/-- **C156** Easom: the documented point (3.14, 3.14) is within 0.00001 of the minimum. -/
theorem C156_easom_close : easom ![3.14, 3.14] ≤ -1 + 0.00001 := by
  have hlo := Real.pi_gt_d4
  have hhi := Real.pi_lt_d4
  set δ := π - 3.14 with hδ
  have hd0 : 0 ≤ δ := by linarith
  have hd1 : δ ≤ 0.0016 := by linarith
  have e : (3.14 : ℝ) = π - δ := by rw [hδ]; ring
  have hc : cos 3.14 = -cos δ := by rw [e, Real.cos_pi_sub]
  have hcd : 1 - δ ^ 2 / 2 ≤ cos δ := Real.one_sub_sq_div_two_le_cos
  have hcd1 := Real.cos_le_one δ
  have he : 1 - 2 * δ ^ 2 ≤ exp (-1 * (3.14 - π) ^ 2 - (3.14 - π) ^ 2) := by
    have := Real.add_one_le_exp (-1 * (3.14 - π) ^ 2 - (3.14 - π) ^ 2)
    have e2 : (3.14 - π) ^ 2 = δ ^ 2 := by rw [hδ]; ring
    rw [e2] at this ⊢
    linarith
  have he1 : exp (-1 * (3.14 - π) ^ 2 - (3.14 - π) ^ 2) ≤ 1 :=
    Real.exp_le_one_iff.2 (by nlinarith [sq_nonneg (3.14 - π)])
  simp only [easom, Matrix.cons_val_zero, Matrix.cons_val_one, hc]
  have hsq : δ ^ 2 ≤ 0.00000256 := by nlinarith
  have hsq0 := sq_nonneg δ
  generalize exp (-1 * (3.14 - π) ^ 2 - (3.14 - π) ^ 2) = E at he he1 ⊢
  have hc2 : 1 - 0.00000128 ≤ cos δ := by linarith
  have hE : 1 - 0.00000512 ≤ E := by linarith
  have hcc : (1 - 0.00000128) * (1 - 0.00000128) ≤ cos δ * cos δ := by
    apply mul_le_mul hc2 hc2 (by norm_num) (by linarith)
  have : (1 - 0.00000128) * (1 - 0.00000128) * (1 - 0.00000512) ≤ cos δ * cos δ * E := by
    apply mul_le_mul hcc hE (by norm_num) (by nlinarith)
  have e3 : - -cos δ * -cos δ * E = -(cos δ * cos δ * E) := by ring
  rw [e3]
  norm_num at this ⊢
  linarith

/-- **C67** Goldstein-Price.  The objective is a product of a quartic in `x 0 + x 1`, at least 1, and a quartic in
`2 x 0 - 3 x 1`, at least 3. -/
theorem C67_goldsteinPrice : MinAt goldsteinPrice ![0, -1] 3 := by
  constructor
  · simp [goldsteinPrice]; norm_num
  · intro y
    have hA : goldsteinPrice y = (1 + (y 0 + y 1 + 1) ^ 2 * (3 * (y 0 + y 1) ^ 2 - 14 * (y 0 + y 1) + 19)) *
        (3 + (2 * y 0 - 3 * y 1 - 3) ^ 2 * (3 * (2 * y 0 - 3 * y 1) ^ 2 + 2 * (2 * y 0 - 3 * y 1) + 3)) := by
      unfold goldsteinPrice; ring
    rw [hA]
    generalize y 0 + y 1 = s
    generalize 2 * y 0 - 3 * y 1 = t
    have h1 : 0 ≤ 3 * s ^ 2 - 14 * s + 19 := by nlinarith [sq_nonneg (3 * s - 7)]
    have h2 : 0 ≤ 3 * t ^ 2 + 2 * t + 3 := by nlinarith [sq_nonneg (3 * t + 1)]
    have h3 := mul_nonneg (sq_nonneg (s + 1)) h1
    have h4 := mul_nonneg (sq_nonneg (t - 3)) h2
    nlinarith [mul_nonneg h3 h4]

/-- **C67** Himmelblau: (3, 2) is one of the minimisers. -/
theorem C67_himmelblau : MinAt himmelblau ![3, 2] 0 := by
  constructor
  · simp [himmelblau]; norm_num
  · intro y; unfold himmelblau; positivity

/-- **C67** Lévy N.13. -/
theorem C67_levy13 : MinAt levy13 ![1, 1] 0 := by
  constructor
  · have : sin (3 * π * 1) = 0 := by
      have := Real.sin_nat_mul_pi 3
      simpa using this
    simp [levy13] at this ⊢
    exact this
  · intro y; unfold levy13; positivity

/-- **C67** Matyas. -/
theorem C67_matyas : MinAt matyas ![0, 0] 0 := by
  constructor
  · simp [matyas]
  · intro y; unfold matyas; nlinarith [sq_nonneg (y 0 - y 1), sq_nonneg (y 0), sq_nonneg (y 1)]

/-- **C67** Rosenbrock. -/
theorem C67_rosenbrock : MinAt rosenbrock ![1, 1] 0 := by
  constructor
  · simp [rosenbrock]
  · intro y; unfold rosenbrock; positivity

/-- **C67** Schaffer N.2. -/
theorem C67_schaffer2 : MinAt schaffer2 ![0, 0] 0 := by
  constructor
  · simp [schaffer2]
  · intro y
    unfold schaffer2
    have hd : (1 : ℝ) ≤ (1 + 0.001 * (y 0 ^ 2 + y 1 ^ 2)) ^ 2 := by
      apply one_le_pow₀
      nlinarith [sq_nonneg (y 0), sq_nonneg (y 1)]
    have : -0.5 ≤ (sin (y 0 ^ 2 - y 1 ^ 2) ^ 2 - 0.5) / (1 + 0.001 * (y 0 ^ 2 + y 1 ^ 2)) ^ 2 := by
      rw [le_div_iff₀ (by linarith)]
      nlinarith [sq_nonneg (sin (y 0 ^ 2 - y 1 ^ 2))]
    linarith

/-- **C67** Three-hump camel. -/
theorem C67_threeHump : MinAt threeHump ![0, 0] 0 := by
  constructor
  · simp [threeHump]
  · intro y
    have : threeHump y = (y 1 + y 0 / 2) ^ 2 + y 0 ^ 2 * (1.75 - 1.05 * y 0 ^ 2 + (y 0 ^ 2) ^ 2 / 6) := by
      unfold threeHump; ring
    rw [this]
    have h : 0 ≤ 1.75 - 1.05 * y 0 ^ 2 + (y 0 ^ 2) ^ 2 / 6 := by nlinarith [sq_nonneg (y 0 ^ 2 - 3.15)]
    have := mul_nonneg (sq_nonneg (y 0)) h
    positivity

/-- **C67** Wood. -/
theorem C67_wood : MinAt wood ![1, 1, 1, 1] 0 := by
  constructor
  · simp [wood]; norm_num
  · intro y; unfold wood; positivity

/-- **C67** `GDTestFunction`. -/
theorem C67_gdTest : MinAt gdTest ![0, 0, 0] 0 := by
  constructor
  · simp [gdTest]
  · intro y; unfold gdTest; nlinarith [sq_nonneg (y 0), sq_nonneg (y 1), sq_nonneg (y 2)]

/-- **C67** `TestFuncFW`, whose minimiser is (0.1, 0.2, 0.3). -/
theorem C67_testFuncFW : MinAt testFuncFW ![0.1, 0.2, 0.3] 0 := by
  constructor
  · simp [testFuncFW]
  · intro y; unfold testFuncFW; positivity

/-! ### McCormick -/

theorem mcCormick_eq (x : Fin 2 → ℝ) :
    mcCormick x = sin (x 0 + x 1) + (x 0 + x 1) / 2 + (x 0 - x 1 - 1) ^ 2 := by
  unfold mcCormick; ring

/-- **C156 is false for McCormick**: without bounds on the coordinates the objective is unbounded below. -/
theorem C156_mcCormick_refuted (v : ℝ) : ¬ ∃ p, MinAt mcCormick p v := by
  rintro ⟨p, _, h⟩
  have := h ![v - 3, v - 4]
  rw [mcCormick_eq] at this
  simp at this
  have := Real.sin_le_one (v - 3 + (v - 4))
  linarith

/-- For `0 ≤ v ≤ 2.42`: `v - sin v ≤ √3 (1 - cos v)`. -/
theorem mcCormick_aux {w : ℝ} (h0 : 0 ≤ w) (h1 : w ≤ 1.21) : w ≤ sin w * (√3 * sin w + cos w) := by
  have h3 : (1.7 : ℝ) ≤ √3 := Real.le_sqrt_of_sq_le (by norm_num)
  have hcos : 1 - w ^ 2 / 2 ≤ cos w := Real.one_sub_sq_div_two_le_cos
  rcases eq_or_lt_of_le h0 with rfl | hpos
  · simp
  have hs : w - w ^ 3 / 6 ≤ sin w := (Real.sin_gt_sub_cube hpos).le
  have hw2 : w ^ 2 ≤ 1.4641 := by nlinarith
  have hs0 : 0 ≤ w - w ^ 3 / 6 := by nlinarith
  have hb : 1.7 * (w - w ^ 3 / 6) + (1 - w ^ 2 / 2) ≤ √3 * sin w + cos w := by nlinarith
  have hb0 : 0 ≤ 1.7 * (w - w ^ 3 / 6) + (1 - w ^ 2 / 2) := by nlinarith
  have hm : (w - w ^ 3 / 6) * (1.7 * (w - w ^ 3 / 6) + (1 - w ^ 2 / 2)) ≤ sin w * (√3 * sin w + cos w) :=
    mul_le_mul hs hb hb0 (hs0.trans hs)
  refine le_trans ?_ hm
  have key : 0 ≤ w ^ 2 * (1.7 - (2 / 3) * w - (3.4 / 6) * w ^ 2 + w ^ 3 / 12 + (1.7 / 36) * w ^ 4) := by
    apply mul_nonneg (sq_nonneg w)
    have : 0 ≤ w ^ 3 / 12 + (1.7 / 36) * w ^ 4 := by positivity
    nlinarith
  nlinarith

/-- **C156** McCormick, on the half-plane `x 0 + x 1 ≥ -4.5`, which contains the customary domain `[-1.5, 4] × [-3, 4]`: the
minimum is `-√3/2 - π/3`, at `((1 - 2π/3)/2, (-1 - 2π/3)/2)`.  Missing: the whole plane, where there is none. -/
theorem C156_mcCormick_partial :
    mcCormick ![(1 - 2 * π / 3) / 2, (-1 - 2 * π / 3) / 2] = -√3 / 2 - π / 3 ∧
    ∀ y : Fin 2 → ℝ, -4.5 ≤ y 0 + y 1 → -√3 / 2 - π / 3 ≤ mcCormick y := by
  have hsin : sin (2 * π / 3) = √3 / 2 := by
    rw [show 2 * π / 3 = π - π / 3 by ring, Real.sin_pi_sub, Real.sin_pi_div_three]
  have hcos : cos (2 * π / 3) = -(1 / 2) := by
    rw [show 2 * π / 3 = π - π / 3 by ring, Real.cos_pi_sub, Real.cos_pi_div_three]
  constructor
  · rw [mcCormick_eq]
    simp only [Matrix.cons_val_zero, Matrix.cons_val_one]
    rw [show (1 - 2 * π / 3) / 2 + (-1 - 2 * π / 3) / 2 = -(2 * π / 3) by ring, Real.sin_neg, hsin]
    ring
  · intro y hy
    rw [mcCormick_eq]
    generalize y 0 + y 1 = s at hy ⊢
    have hq := sq_nonneg (y 0 - y 1 - 1)
    suffices h : -√3 / 2 - π / 3 ≤ sin s + s / 2 by linarith
    set u := s + 2 * π / 3 with hu
    have hs : sin s = -(1 / 2) * sin u - √3 / 2 * cos u := by
      rw [show s = u - 2 * π / 3 by rw [hu]; ring, Real.sin_sub, hsin, hcos]; ring
    have h3 : 0 ≤ √3 := Real.sqrt_nonneg 3
    have hc1 := Real.cos_le_one u
    rw [hs]
    have hsu : s / 2 = u / 2 - π / 3 := by rw [hu]; ring
    rw [hsu]
    rcases le_total 0 u with h | h
    · have := Real.sin_le h
      nlinarith
    · have hw := mcCormick_aux (w := -u / 2) (by linarith) (by rw [hu]; linarith [Real.pi_gt_d4])
      have e1 : sin u = -(2 * sin (-u / 2) * cos (-u / 2)) := by
        rw [← Real.sin_two_mul, show 2 * (-u / 2) = -u by ring, Real.sin_neg]; ring
      have e2 : cos u = 1 - 2 * sin (-u / 2) ^ 2 := by
        have := Real.cos_two_mul (-u / 2)
        rw [show 2 * (-u / 2) = -u by ring, Real.cos_neg] at this
        nlinarith [Real.sin_sq_add_cos_sq (-u / 2)]
      rw [e1, e2]
      nlinarith

/-- **C156** McCormick: the documented value -1.9133 is within 0.0001 of the minimum. -/
theorem C156_mcCormick_close : |(-√3 / 2 - π / 3) - (-1.9133)| ≤ 0.0001 := by
  have h1 : (1.73205 : ℝ) ≤ √3 := Real.le_sqrt_of_sq_le (by norm_num)
  have h2 : √3 ≤ 1.7321 := Real.sqrt_le_iff.2 ⟨by norm_num, by norm_num⟩
  have := Real.pi_gt_d6
  have := Real.pi_lt_d6
  rw [abs_le]
  constructor <;> linarith

end Ens.Problems
