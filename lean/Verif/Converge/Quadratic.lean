import Mathlib.Analysis.InnerProductSpace.Spectrum
import Mathlib.Analysis.InnerProductSpace.Calculus
import Verif.Converge.Base

/-
C293: exactly which step sizes work on convex quadratics, for `StandardSGD`, `MomentumSGD`, `NesterovMomentumSGD` and `QHSGD`
on the whole sum.
-/

namespace Ens.Converge

open Ens.Sgd Ens.Update Filter
open scoped InnerProductSpace Topology

/-! ### Recurrences of order two -/

/-- If both roots of `z² - a z + b` are inside the unit circle, solutions tend to zero. -/
theorem recurrence_stable {a b : ℝ} (hb : |b| < 1) (ha : |a| < 1 + b) {e : Nat → ℝ}
    (he : ∀ k, e (k + 2) = a * e (k + 1) - b * e k) : Tendsto e atTop (𝓝 0) := by
  obtain ⟨hb1, hb2⟩ := abs_lt.1 hb
  obtain ⟨ha1, ha2⟩ := abs_lt.1 ha
  have hpos : 0 < (1 + b) ^ 2 - a ^ 2 := by nlinarith
  have hw : Tendsto (fun k => (1 - b) * ‖(1 + b) * e k - a * e (k + 1)‖ ^ 2) atTop (𝓝 0) := by
    refine tendsto_of_energy (e := fun k => (1 + b) * (e (k + 1) ^ 2 + e k ^ 2) - 2 * a * (e (k + 1) * e k)) (m := 0) ?_ ?_ ?_
    · intro k
      have : 0 < 1 - b := by linarith
      positivity
    · intro k
      rw [Real.norm_eq_abs, sq_abs, he k]
      apply le_of_eq
      ring
    · intro k
      have h1 : |a * (e (k + 1) * e k)| ≤ (1 + b) * (|e (k + 1)| * |e k|) := by
        rw [abs_mul, abs_mul]
        exact mul_le_mul_of_nonneg_right ha.le (by positivity)
      have h2 := (abs_le.1 h1).2
      have h3 : 0 ≤ (1 + b) * (|e (k + 1)| - |e k|) ^ 2 := mul_nonneg (by linarith) (sq_nonneg _)
      have h4 : (|e (k + 1)| - |e k|) ^ 2 = e (k + 1) ^ 2 + e k ^ 2 - 2 * (|e (k + 1)| * |e k|) := by
        rw [sub_sq, sq_abs, sq_abs]; ring
      rw [h4] at h3
      nlinarith
  have hw0 : Tendsto (fun k => (1 + b) * e k - a * e (k + 1)) atTop (𝓝 0) := tendsto_of_norm_sq (by linarith) hw
  have hc := (((tendsto_add_atTop_iff_nat 1).2 hw0).const_mul (1 + b)).sub (hw0.const_mul (a * b))
  rw [mul_zero, mul_zero, sub_zero] at hc
  have hd := hc.const_mul ((1 + b) ^ 2 - a ^ 2)⁻¹
  rw [mul_zero] at hd
  rw [← tendsto_add_atTop_iff_nat 1]
  refine hd.congr fun k => ?_
  rw [he k, inv_mul_eq_iff_eq_mul₀ hpos.ne']
  ring

/-- With a root below or at `-1`, solutions that start with a change of sign do not tend to zero. -/
theorem recurrence_unstable {a b c : ℝ} (hab : 1 + b ≤ -a) (hc : (0 ≤ b ∧ c ≤ -1) ∨ (b ≤ 0 ∧ a ≤ 0 ∧ c < 0)) {e : Nat → ℝ}
    (h0 : 0 < e 0) (h1 : e 1 = c * e 0) (he : ∀ k, e (k + 2) = a * e (k + 1) - b * e k) : ¬ Tendsto e atTop (𝓝 0) := by
  obtain ⟨y, hy⟩ : ∃ y : Nat → ℝ, ∀ k, y k = (-1) ^ k * e k := ⟨_, fun _ => rfl⟩
  have hrec : ∀ k, y (k + 2) = -a * y (k + 1) - b * y k := by
    intro k
    rw [hy, hy, hy, he k, pow_succ, pow_succ]
    ring
  have y0 : y 0 = e 0 := by rw [hy]; simp
  have y1 : y 1 = -c * e 0 := by rw [hy, h1]; ring
  have hlow : ∃ m > 0, ∀ k, m ≤ y k := by
    rcases hc with ⟨hb, hc⟩ | ⟨hb, ha, hc⟩
    · refine ⟨e 0, h0, ?_⟩
      have key : ∀ k, e 0 ≤ y k ∧ y k ≤ y (k + 1) := by
        intro k
        induction k with
        | zero => exact ⟨y0.ge, by rw [y0, y1]; nlinarith⟩
        | succ k ih =>
          refine ⟨ih.1.trans ih.2, ?_⟩
          rw [hrec]
          have h2 : 0 ≤ y (k + 1) := by linarith [ih.1, ih.2]
          nlinarith [mul_le_mul_of_nonneg_right hab h2, mul_le_mul_of_nonneg_left ih.2 hb]
      exact fun k => (key k).1
    · refine ⟨min (y 0) (y 1), lt_min (by rw [y0]; exact h0) (by rw [y1]; nlinarith), ?_⟩
      set m := min (y 0) (y 1) with hm
      have hm0 : 0 < m := lt_min (by rw [y0]; exact h0) (by rw [y1]; nlinarith)
      have key : ∀ k, m ≤ y k ∧ m ≤ y (k + 1) := by
        intro k
        induction k with
        | zero => exact ⟨min_le_left _ _, min_le_right _ _⟩
        | succ k ih =>
          refine ⟨ih.2, ?_⟩
          rw [hrec]
          nlinarith [mul_le_mul_of_nonneg_left ih.2 (by linarith : 0 ≤ -a), mul_le_mul_of_nonneg_left ih.1 (by linarith : 0 ≤ -b)]
      exact fun k => (key k).1
  obtain ⟨m, hm, hlow⟩ := hlow
  intro ht
  obtain ⟨N, hN⟩ := (Metric.tendsto_atTop.1 ht) m hm
  have h2 := hN N le_rfl
  rw [dist_zero_right, Real.norm_eq_abs] at h2
  have h3 := hlow N
  rw [hy] at h3
  have h4 : (-1 : ℝ) ^ N * e N ≤ |e N| := by
    refine (le_abs_self _).trans ?_
    rw [abs_mul, abs_pow, abs_neg, abs_one, one_pow, one_mul]
  linarith

/-! ### Quadratics -/

variable {d : Nat} {R : Type}

/-- Gradient of `x ↦ ⟪x - s, A (x - s)⟫ / 2`. -/
def quadGrad (A : Vec d →ₗ[ℝ] Vec d) (s x : Vec d) : Vec d := A (x - s)

/-- It is the gradient of that function. -/
theorem quadGrad_isGradient {A : Vec d →ₗ[ℝ] Vec d} (hA : A.IsSymmetric) (s x : Vec d) :
    HasFDerivAt (fun x => 1 / 2 * ⟪x - s, A (x - s)⟫_ℝ) (innerSL ℝ (quadGrad A s x)) x := by
  have h1 : HasFDerivAt (fun x : Vec d => x - s) (ContinuousLinearMap.id ℝ (Vec d)) x := (hasFDerivAt_id x).sub_const s
  have h2 : HasFDerivAt (fun x : Vec d => A (x - s)) (A.toContinuousLinearMap.comp (ContinuousLinearMap.id ℝ (Vec d))) x :=
    (A.toContinuousLinearMap.hasFDerivAt (x := x - s)).comp x h1
  have h3 := (h1.inner ℝ h2).const_mul (1 / 2 : ℝ)
  refine h3.congr_fderiv ?_
  ext1 y
  have h4 : ⟪y, A (x - s)⟫_ℝ = ⟪A (x - s), y⟫_ℝ := real_inner_comm _ _
  have h5 : ⟪x - s, A y⟫_ℝ = ⟪A (x - s), y⟫_ℝ := (hA (x - s) y).symm
  simp only [ContinuousLinearMap.smul_apply, ContinuousLinearMap.comp_apply, ContinuousLinearMap.prod_apply,
    fderivInnerCLM_apply, ContinuousLinearMap.id_apply, innerSL_apply_apply, quadGrad, smul_eq_mul]
  show 1 / 2 * (⟪x - s, A y⟫_ℝ + ⟪y, A (x - s)⟫_ℝ) = _
  rw [h4, h5]
  ring

theorem inner_quad {A : Vec d →ₗ[ℝ] Vec d} (hA : A.IsSymmetric) {w : Vec d} {l : ℝ} (hw : A w = l • w) (s x : Vec d) :
    ⟪w, quadGrad A s x⟫_ℝ = l * ⟪w, x - s⟫_ℝ := by
  rw [quadGrad, ← hA w, hw, real_inner_smul_left]

/-- A method whose errors along eigenvectors satisfy a recurrence with coefficients depending on the eigenvalue works from every
start exactly if all eigenvalues are in the region of stability. -/
theorem quad_iff {A : Vec d →ₗ[ℝ] Vec d} (hA : A.IsSymmetric) (hpos : ∀ l, Module.End.HasEigenvalue A l → 0 ≤ l)
    {up : UpdPol (Fin d → R) ℝ (Vec d) (Vec d)} {α : ℝ} {s : Vec d} {a b c : ℝ → ℝ} {ok : ℝ → Prop}
    (hrec : ∀ w l, A w = l • w → ∀ x k, ⟪w, (iter up (quadGrad A s) α x (k + 2)).2 - s⟫_ℝ =
      a l * ⟪w, (iter up (quadGrad A s) α x (k + 1)).2 - s⟫_ℝ - b l * ⟪w, (iter up (quadGrad A s) α x k).2 - s⟫_ℝ)
    (h1 : ∀ w l, A w = l • w → ∀ x, ⟪w, (iter up (quadGrad A s) α x 1).2 - s⟫_ℝ = c l * ⟪w, x - s⟫_ℝ)
    (hz : ok 0) (hstab : ∀ l, 0 < l → ok l → |b l| < 1 ∧ |a l| < 1 + b l)
    (hun : ∀ l, 0 < l → ¬ ok l → 1 + b l ≤ -a l ∧ ((0 ≤ b l ∧ c l ≤ -1) ∨ (b l ≤ 0 ∧ a l ≤ 0 ∧ c l < 0))) :
    (∀ x, DrivesToZero up (quadGrad A s) α x) ↔ ∀ l, Module.End.HasEigenvalue A l → ok l := by
  constructor
  · intro h l hl
    by_contra hok
    have hl0 : 0 < l := by
      rcases (hpos l hl).eq_or_lt with h0 | h0
      · exact absurd (h0 ▸ hz) hok
      · exact h0
    obtain ⟨w, hw⟩ := hl.exists_hasEigenvector
    have hAw := hw.apply_eq_smul
    have hw0 : w ≠ 0 := hw.2
    obtain ⟨u1, u2⟩ := hun l hl0 hok
    refine recurrence_unstable (e := fun k => ⟪w, (iter up (quadGrad A s) α (s + w) k).2 - s⟫_ℝ) u1 u2 ?_ ?_ ?_ ?_
    · show 0 < ⟪w, s + w - s⟫_ℝ
      rw [add_sub_cancel_left, real_inner_self_eq_norm_sq]
      have := norm_pos_iff.2 hw0
      positivity
    · exact h1 w l hAw (s + w)
    · exact hrec w l hAw (s + w)
    · have ht := (h (s + w)).small
      have h2 := (tendsto_const_nhds (x := w)).inner ht (𝕜 := ℝ)
      rw [inner_zero_right] at h2
      have h3 := h2.const_mul l⁻¹
      rw [mul_zero] at h3
      refine h3.congr fun k => ?_
      rw [inner_quad hA hAw, inv_mul_cancel_left₀ hl0.ne']
  · intro h x
    apply drives_of_tendsto
    have hn : Module.finrank ℝ (Vec d) = d := finrank_euclideanSpace_fin
    set B := hA.eigenvectorBasis hn
    have hB : ∀ i, A (B i) = hA.eigenvalues hn i • B i := fun i => hA.apply_eigenvectorBasis hn i
    have hcoord : ∀ i, Tendsto (fun k => ⟪B i, quadGrad A s (iter up (quadGrad A s) α x k).2⟫_ℝ) atTop (𝓝 0) := by
      intro i
      have hev : Module.End.HasEigenvalue A (hA.eigenvalues hn i) := by simpa using hA.hasEigenvalue_eigenvalues hn i
      simp only [inner_quad hA (hB i)]
      rcases (hpos _ hev).eq_or_lt with h0 | h0
      · rw [← h0]
        simp
      · obtain ⟨s1, s2⟩ := hstab _ h0 (h _ hev)
        have := (recurrence_stable s1 s2 (e := fun k => ⟪B i, (iter up (quadGrad A s) α x k).2 - s⟫_ℝ)
          (hrec _ _ (hB i) x)).const_mul (hA.eigenvalues hn i)
        rwa [mul_zero] at this
    refine tendsto_of_norm_sq one_pos ?_
    have h2 : Tendsto (fun k => ∑ i, ‖⟪B i, quadGrad A s (iter up (quadGrad A s) α x k).2⟫_ℝ‖ ^ 2) atTop (𝓝 0) := by
      have h3 := tendsto_finset_sum (Finset.univ : Finset (Fin d)) fun i _ => ((hcoord i).norm.pow 2)
      simpa using h3
    refine h2.congr fun k => ?_
    rw [one_mul, B.sum_sq_norm_inner_right]

section methods
variable {A : Vec d →ₗ[ℝ] Vec d} {s : Vec d} {α β ν : ℝ}

/-- **C293** `StandardSGD` on the whole sum of a convex quadratic works from every start exactly for step sizes with
`stepSize · λ < 2` for all eigenvalues `λ` of the Hessian. -/
theorem C293_standard (hA : A.IsSymmetric) (hpos : ∀ l, Module.End.HasEigenvalue A l → 0 ≤ l) (hα : 0 < α) :
    (∀ x, DrivesToZero (lift vanilla) (quadGrad A s) α x) ↔ ∀ l, Module.End.HasEigenvalue A l → α * l < 2 := by
  have hX : ∀ x k, (iter (lift vanilla) (quadGrad A s) α x (k + 1)).2 - s =
      ((iter (lift vanilla) (quadGrad A s) α x k).2 - s) - α • quadGrad A s (iter (lift vanilla) (quadGrad A s) α x k).2 := by
    intro x k
    ext i
    simp [iter, lift, vanilla]
    ring
  refine quad_iff hA hpos (a := fun l => 1 - α * l) (b := fun _ => 0) (c := fun l => 1 - α * l) (ok := fun l => α * l < 2)
    ?_ ?_ (by simp) ?_ ?_
  · intro w l hw x k
    rw [hX, inner_sub_right, real_inner_smul_right, inner_quad hA hw]
    ring
  · intro w l hw x
    rw [hX, inner_sub_right, real_inner_smul_right, inner_quad hA hw]
    show ⟪w, x - s⟫_ℝ - α * (l * ⟪w, x - s⟫_ℝ) = _
    ring
  · intro l hl hok
    have := mul_pos hα hl
    exact ⟨by simp, by rw [abs_lt]; constructor <;> linarith⟩
  · intro l hl hok
    rw [not_lt] at hok
    exact ⟨by linarith, Or.inl ⟨le_rfl, by linarith⟩⟩

/-- **C293** `MomentumSGD`: exactly for `stepSize · λ < 2 (1 + momentum)`. -/
theorem C293_momentum (hA : A.IsSymmetric) (hpos : ∀ l, Module.End.HasEigenvalue A l → 0 ≤ l) (hα : 0 < α)
    (h0 : 0 ≤ β) (h1 : β < 1) :
    (∀ x, DrivesToZero (lift (momentum β)) (quadGrad A s) α x) ↔
      ∀ l, Module.End.HasEigenvalue A l → α * l < 2 * (1 + β) := by
  have hX : ∀ x k, (iter (lift (momentum β)) (quadGrad A s) α x (k + 1)).2 - s =
      ((iter (lift (momentum β)) (quadGrad A s) α x k).2 - s) +
        WithLp.toLp 2 (iter (lift (momentum β)) (quadGrad A s) α x (k + 1)).1 := by
    intro x k
    ext i
    simp [iter, lift, momentum]
    ring
  have hV : ∀ x k, (WithLp.toLp 2 (iter (lift (momentum β)) (quadGrad A s) α x (k + 1)).1 : Vec d) =
      β • WithLp.toLp 2 (iter (lift (momentum β)) (quadGrad A s) α x k).1 -
        α • quadGrad A s (iter (lift (momentum β)) (quadGrad A s) α x k).2 := by
    intro x k
    ext i
    simp [iter, lift, momentum]
  have hV0 : ∀ x, (WithLp.toLp 2 (iter (lift (momentum β)) (quadGrad A s) α x 0).1 : Vec d) = 0 := by
    intro x
    ext i
    simp [iter, lift, momentum]
  refine quad_iff hA hpos (a := fun l => 1 + β - α * l) (b := fun _ => β) (c := fun l => 1 - α * l)
    (ok := fun l => α * l < 2 * (1 + β)) ?_ ?_ (by simp; linarith) ?_ ?_
  · intro w l hw x k
    have eX1 := congrArg (fun v => ⟪w, v⟫_ℝ) (hX x k)
    have eX2 := congrArg (fun v => ⟪w, v⟫_ℝ) (hX x (k + 1))
    have eV2 := congrArg (fun v => ⟪w, v⟫_ℝ) (hV x (k + 1))
    simp only [inner_add_right, inner_sub_right _ (β • _), real_inner_smul_right, inner_quad hA hw] at eX1 eX2 eV2
    rw [eX2, eV2]
    linear_combination (-β) * eX1
  · intro w l hw x
    rw [hX x 0, hV x 0, hV0, smul_zero, zero_sub, inner_add_right, inner_neg_right, real_inner_smul_right, inner_quad hA hw]
    show ⟪w, x - s⟫_ℝ + -(α * (l * ⟪w, x - s⟫_ℝ)) = _
    ring
  · intro l hl hok
    have := mul_pos hα hl
    exact ⟨by rw [abs_lt]; constructor <;> linarith, by rw [abs_lt]; constructor <;> linarith⟩
  · intro l hl hok
    rw [not_lt] at hok
    exact ⟨by linarith, Or.inl ⟨h0, by linarith⟩⟩

/-- **C293** `NesterovMomentumSGD`: exactly for `stepSize · λ · (1 + 2 momentum) < 2 (1 + momentum)`. -/
theorem C293_nesterov (hA : A.IsSymmetric) (hpos : ∀ l, Module.End.HasEigenvalue A l → 0 ≤ l) (hα : 0 < α)
    (h0 : 0 ≤ β) (h1 : β < 1) :
    (∀ x, DrivesToZero (lift (nesterov β)) (quadGrad A s) α x) ↔
      ∀ l, Module.End.HasEigenvalue A l → α * l * (1 + 2 * β) < 2 * (1 + β) := by
  have hX : ∀ x k, (iter (lift (nesterov β)) (quadGrad A s) α x (k + 1)).2 - s =
      ((iter (lift (nesterov β)) (quadGrad A s) α x k).2 - s) +
        (β • WithLp.toLp 2 (iter (lift (nesterov β)) (quadGrad A s) α x (k + 1)).1 -
          α • quadGrad A s (iter (lift (nesterov β)) (quadGrad A s) α x k).2) := by
    intro x k
    ext i
    simp [iter, lift, nesterov]
    ring
  have hV : ∀ x k, (WithLp.toLp 2 (iter (lift (nesterov β)) (quadGrad A s) α x (k + 1)).1 : Vec d) =
      β • WithLp.toLp 2 (iter (lift (nesterov β)) (quadGrad A s) α x k).1 -
        α • quadGrad A s (iter (lift (nesterov β)) (quadGrad A s) α x k).2 := by
    intro x k
    ext i
    simp [iter, lift, nesterov]
  have hV0 : ∀ x, (WithLp.toLp 2 (iter (lift (nesterov β)) (quadGrad A s) α x 0).1 : Vec d) = 0 := by
    intro x
    ext i
    simp [iter, lift, nesterov]
  refine quad_iff hA hpos (a := fun l => (1 + β) * (1 - α * l)) (b := fun l => β * (1 - α * l))
    (c := fun l => 1 - (1 + β) * (α * l)) (ok := fun l => α * l * (1 + 2 * β) < 2 * (1 + β)) ?_ ?_ (by simp; linarith) ?_ ?_
  · intro w l hw x k
    have eX1 := congrArg (fun v => ⟪w, v⟫_ℝ) (hX x k)
    have eX2 := congrArg (fun v => ⟪w, v⟫_ℝ) (hX x (k + 1))
    have eV2 := congrArg (fun v => ⟪w, v⟫_ℝ) (hV x (k + 1))
    simp only [inner_add_right, inner_sub_right _ (β • _), real_inner_smul_right, inner_quad hA hw] at eX1 eX2 eV2
    rw [eX2, eV2]
    linear_combination (-β) * eX1
  · intro w l hw x
    have eX1 := congrArg (fun v => ⟪w, v⟫_ℝ) (hX x 0)
    have eV1 := congrArg (fun v => ⟪w, v⟫_ℝ) (hV x 0)
    rw [hV0, smul_zero, zero_sub] at eV1
    simp only [inner_add_right, inner_sub_right _ (β • _), inner_neg_right, real_inner_smul_right, inner_quad hA hw] at eX1 eV1
    rw [eX1, eV1]
    show ⟪w, x - s⟫_ℝ + (β * -(α * (l * ⟪w, x - s⟫_ℝ)) - (α * (l * ⟪w, x - s⟫_ℝ))) = _
    ring
  · intro l hl hok
    have := mul_pos hα hl
    generalize α * l = t at this hok ⊢
    have h2 : β * (t - 1) < 1 := by
      have h5 : (t - 1) * (1 + 2 * β) < 1 := by nlinarith
      rcases le_or_gt t 1 with h | h
      · nlinarith
      · nlinarith
    exact ⟨by rw [abs_lt]; constructor <;> nlinarith, by rw [abs_lt]; constructor <;> nlinarith⟩
  · intro l hl hok
    rw [not_lt] at hok
    have := mul_pos hα hl
    generalize α * l = t at this hok ⊢
    have h3 : 1 < t := by nlinarith
    refine ⟨by nlinarith, Or.inr ⟨by nlinarith, by nlinarith, by nlinarith⟩⟩

/-- **C293** `QHSGD`: exactly for `stepSize · λ · (1 + momentum - 2 v momentum) < 2 (1 + momentum)`. -/
theorem C293_qh (hA : A.IsSymmetric) (hpos : ∀ l, Module.End.HasEigenvalue A l → 0 ≤ l) (hα : 0 < α)
    (h0 : 0 ≤ β) (h1 : β < 1) (hν0 : 0 ≤ ν) (hν1 : ν ≤ 1) :
    (∀ x, DrivesToZero (lift (qh ν β)) (quadGrad A s) α x) ↔
      ∀ l, Module.End.HasEigenvalue A l → α * l * (1 + β - 2 * ν * β) < 2 * (1 + β) := by
  have hX : ∀ x k, (iter (lift (qh ν β)) (quadGrad A s) α x (k + 1)).2 - s =
      ((iter (lift (qh ν β)) (quadGrad A s) α x k).2 - s) -
        (α * (1 - ν)) • quadGrad A s (iter (lift (qh ν β)) (quadGrad A s) α x k).2 -
        (α * ν) • WithLp.toLp 2 (iter (lift (qh ν β)) (quadGrad A s) α x (k + 1)).1 := by
    intro x k
    ext i
    simp [iter, lift, qh]
    ring
  have hV : ∀ x k, (WithLp.toLp 2 (iter (lift (qh ν β)) (quadGrad A s) α x (k + 1)).1 : Vec d) =
      β • WithLp.toLp 2 (iter (lift (qh ν β)) (quadGrad A s) α x k).1 +
        (1 - β) • quadGrad A s (iter (lift (qh ν β)) (quadGrad A s) α x k).2 := by
    intro x k
    ext i
    simp [iter, lift, qh]
  have hV0 : ∀ x, (WithLp.toLp 2 (iter (lift (qh ν β)) (quadGrad A s) α x 0).1 : Vec d) = 0 := by
    intro x
    ext i
    simp [iter, lift, qh]
  refine quad_iff hA hpos (a := fun l => 1 + β - α * l * (1 - ν * β)) (b := fun l => β * (1 - α * l * (1 - ν)))
    (c := fun l => 1 - α * l * (1 - ν * β)) (ok := fun l => α * l * (1 + β - 2 * ν * β) < 2 * (1 + β)) ?_ ?_
    (by simp; linarith) ?_ ?_
  · intro w l hw x k
    have eX1 := congrArg (fun v => ⟪w, v⟫_ℝ) (hX x k)
    have eX2 := congrArg (fun v => ⟪w, v⟫_ℝ) (hX x (k + 1))
    have eV2 := congrArg (fun v => ⟪w, v⟫_ℝ) (hV x (k + 1))
    simp only [inner_add_right, inner_sub_right _ (_ - _ • _), inner_sub_right _ _ (_ • _), real_inner_smul_right,
      inner_quad hA hw] at eX1 eX2 eV2
    rw [eX2, eV2]
    linear_combination (-β) * eX1
  · intro w l hw x
    rw [hX x 0, hV x 0, hV0, smul_zero, zero_add, inner_sub_right, inner_sub_right,
      real_inner_smul_right, real_inner_smul_right, real_inner_smul_right, inner_quad hA hw]
    show ⟪w, x - s⟫_ℝ - (α * (1 - ν) * (l * ⟪w, x - s⟫_ℝ)) - (α * ν * ((1 - β) * (l * ⟪w, x - s⟫_ℝ))) = _
    ring
  · intro l hl hok
    have := mul_pos hα hl
    generalize α * l = t at this hok ⊢
    have h2 : 2 * (t * (β * (1 - ν))) ≤ t * (1 + β - 2 * ν * β) := by nlinarith
    have h3 : 0 ≤ t * (β * (1 - ν)) := mul_nonneg this.le (mul_nonneg h0 (by linarith))
    have h4 : 0 < t * (1 - β) := mul_pos this (by linarith)
    exact ⟨by rw [abs_lt]; constructor <;> nlinarith, by rw [abs_lt]; constructor <;> nlinarith⟩
  · intro l hl hok
    rw [not_lt] at hok
    have := mul_pos hα hl
    generalize α * l = t at this hok ⊢
    have h4 : 0 < t * (1 - β) := mul_pos this (by linarith)
    have h5 : 0 ≤ t * (β * (1 - ν)) := mul_nonneg this.le (mul_nonneg h0 (by linarith))
    have h6 : 1 + β ≤ t * (1 - ν * β) := by nlinarith
    refine ⟨by nlinarith, ?_⟩
    rcases le_total 0 (β * (1 - t * (1 - ν))) with hb | hb
    · exact Or.inl ⟨hb, by nlinarith⟩
    · exact Or.inr ⟨hb, by linarith, by nlinarith⟩

end methods

/-! ### Example -/

/-- Three times the identity. -/
def three : Vec 2 →ₗ[ℝ] Vec 2 := (3 : ℝ) • LinearMap.id

theorem three_symmetric : three.IsSymmetric := by
  intro x y
  simp [three, real_inner_smul_left, real_inner_smul_right]

theorem three_eigenvalue {l : ℝ} (h : Module.End.HasEigenvalue three l) : l = 3 := by
  obtain ⟨w, hw⟩ := h.exists_hasEigenvector
  have h1 : (3 : ℝ) • w = l • w := hw.apply_eq_smul
  exact (smul_left_injective ℝ hw.2 h1).symm

/-- With step size 1 on `3 ‖x‖² / 2`, `MomentumSGD` with momentum 0.9 works although `StandardSGD` and `NesterovMomentumSGD` with the
same momentum do not. -/
example : (∀ x, DrivesToZero (lift (momentum 0.9)) (quadGrad three 0) 1 x) ∧
    ¬ (∀ x, DrivesToZero (lift vanilla) (quadGrad three 0) 1 x) ∧
    ¬ (∀ x, DrivesToZero (lift (nesterov 0.9)) (quadGrad three 0) 1 x) ∧
    (∀ x, DrivesToZero (lift (qh 0.7 0.9)) (quadGrad three 0) 1 x) := by
  have hp : ∀ l, Module.End.HasEigenvalue three l → 0 ≤ l := fun l h => by rw [three_eigenvalue h]; norm_num
  have h3 : Module.End.HasEigenvalue three 3 := by
    refine Module.End.hasEigenvalue_of_hasEigenvector (x := WithLp.toLp 2 fun _ => 1) ⟨Module.End.mem_eigenspace_iff.2 rfl, ?_⟩
    intro h
    have := congrFun (congrArg (WithLp.ofLp) h) 0
    simp at this
  refine ⟨?_, ?_, ?_, ?_⟩
  · rw [C293_momentum three_symmetric hp (by norm_num) (by norm_num) (by norm_num)]
    intro l h; rw [three_eigenvalue h]; norm_num
  · rw [C293_standard three_symmetric hp (by norm_num)]
    intro h; have := h 3 h3; norm_num at this
  · rw [C293_nesterov three_symmetric hp (by norm_num) (by norm_num) (by norm_num)]
    intro h; have := h 3 h3; norm_num at this
  · rw [C293_qh three_symmetric hp (by norm_num) (by norm_num) (by norm_num) (by norm_num) (by norm_num)]
    intro l h; rw [three_eigenvalue h]; norm_num

end Ens.Converge
