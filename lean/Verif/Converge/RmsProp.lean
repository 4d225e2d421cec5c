import Mathlib.MeasureTheory.Integral.IntervalIntegral.FundThmCalculus
import Verif.Converge.Adaptive

/-
C255: RMSProp converges for step sizes that are small compared with epsilon, and not in general.
-/

namespace Ens.Converge

open Ens.Sgd Ens.Update Filter

variable {d : Nat} {f : Vec d → ℝ} {g : Vec d → Vec d} {L m : ℝ}

/-- One step with an own step size for each coordinate. -/
theorem diag_step (hs : LSmooth f g L) (hL : 0 ≤ L) {lo hi : ℝ} (hhi : hi * L ≤ 2) {h : Fin d → ℝ}
    (hlo : 0 ≤ lo) (h1 : ∀ i, lo ≤ h i) (h2 : ∀ i, h i ≤ hi) {x y : Vec d} (hy : ∀ i, y i = x i - h i * g x i) :
    f y ≤ f x - lo * (1 - L * hi / 2) * ‖g x‖ ^ 2 := by
  have hd := hs.descent x y
  have e : ∀ i, (y - x) i = -(h i * g x i) := fun i => by rw [PiLp.sub_apply, hy]; ring
  refine hd.trans ?_
  rw [EuclideanSpace.norm_sq_eq, EuclideanSpace.norm_sq_eq, PiLp.inner_apply, Finset.mul_sum, Finset.mul_sum, add_assoc,
    ← Finset.sum_add_distrib, sub_eq_add_neg (f x), ← Finset.sum_neg_distrib]
  refine add_le_add le_rfl (Finset.sum_le_sum fun i _ => ?_)
  rw [e]
  simp only [RCLike.inner_apply, conj_trivial, Real.norm_eq_abs, sq_abs]
  have hq := sq_nonneg (g x i)
  have h3 : 0 ≤ 1 - L * hi / 2 := by linarith
  have h0 : 0 ≤ h i := hlo.trans (h1 i)
  have k1 : lo * (1 - L * hi / 2) ≤ h i * (1 - L * h i / 2) := by
    have a1 : lo * (1 - L * hi / 2) ≤ h i * (1 - L * hi / 2) := mul_le_mul_of_nonneg_right (h1 i) h3
    have a2 : h i * (1 - L * hi / 2) ≤ h i * (1 - L * h i / 2) := by
      apply mul_le_mul_of_nonneg_left _ h0
      nlinarith [mul_le_mul_of_nonneg_left (h2 i) hL]
    linarith
  nlinarith [mul_le_mul_of_nonneg_right k1 hq]

theorem rms_seq (hs : LSmooth f g L) (hL : 0 < L) (hm : ∀ y, m ≤ f y) {a eps al : ℝ} (ha : 0 < a) (he : 0 < eps)
    (hal : 0 ≤ al) (hal1 : al ≤ 1) (hae : a * L < 2 * eps) {X : Nat → Vec d} {s : Nat → Fin d → ℝ} (h0 : ∀ i, s 0 i = 0)
    (h1 : ∀ k i, s (k + 1) i = s k i * al + (1 - al) * (g (X k) i * g (X k) i))
    (h2 : ∀ k i, X (k + 1) i = X k i - a * g (X k) i / (√(s (k + 1) i) + eps)) :
    Tendsto (fun k => g (X k)) atTop (nhds 0) := by
  have hhi : a / eps * L < 2 := by
    rw [div_mul_eq_mul_div, div_lt_iff₀ he]; linarith
  have hup : ∀ k i, a / (√(s (k + 1) i) + eps) ≤ a / eps := fun k i =>
    div_le_div_of_nonneg_left ha.le he (by linarith [Real.sqrt_nonneg (s (k + 1) i)])
  have hX : ∀ k i, X (k + 1) i = X k i - a / (√(s (k + 1) i) + eps) * g (X k) i := fun k i => by
    rw [h2, div_mul_eq_mul_div]
  have hmono : ∀ k, f (X k) ≤ f (X 0) := by
    intro k
    induction k with
    | zero => exact le_rfl
    | succ k ih =>
      have := diag_step hs hL.le hhi.le le_rfl (fun i => by positivity) (hup k) (hX k)
      simp only [zero_mul, sub_zero] at this
      exact this.trans ih
  set G := 2 * L * (f (X 0) - m) with hG
  have hgb : ∀ k i, g (X k) i * g (X k) i ≤ G := by
    intro k i
    have b1 := grad_bound hs hL hm (X k)
    have b2 : 2 * L * (f (X k) - m) ≤ G := mul_le_mul_of_nonneg_left (by linarith [hmono k]) (by linarith)
    have b3 := pow_le_pow_left₀ (norm_nonneg _) (PiLp.norm_apply_le (g (X k)) i) 2
    rw [Real.norm_eq_abs, sq_abs] at b3
    nlinarith
  have hG0 : 0 ≤ G := mul_nonneg (by linarith) (by linarith [hm (X 0)])
  have hsb : ∀ k i, s k i ≤ G := by
    intro k i
    induction k with
    | zero => rw [h0]; exact hG0
    | succ k ih =>
      rw [h1]
      have c1 := mul_le_mul_of_nonneg_right ih hal
      have c2 := mul_le_mul_of_nonneg_left (hgb k i) (by linarith : 0 ≤ 1 - al)
      linarith
  have hlo : ∀ k i, a / (√G + eps) ≤ a / (√(s (k + 1) i) + eps) := fun k i =>
    div_le_div_of_nonneg_left ha.le (by positivity) (by linarith [Real.sqrt_le_sqrt (hsb (k + 1) i)])
  have hlp : 0 < a / (√G + eps) := by positivity
  refine tendsto_of_norm_sq (c := a / (√G + eps) * (1 - L * (a / eps) / 2)) (mul_pos hlp (by linarith)) ?_
  refine tendsto_of_energy (e := fun k => f (X k)) (m := m) (fun k => ?_) (fun k => ?_) (fun k => hm _)
  · exact mul_nonneg (mul_pos hlp (by linarith)).le (sq_nonneg _)
  · exact diag_step hs hL.le hhi.le hlp.le (hlo k) (hup k) (hX k)

/-- RMSProp drives the gradient of a smooth function that is bounded below to zero if the step size is less than
`2 epsilon / L`. -/
theorem C255_rmsProp_partial (hs : LSmooth f g L) (hL : 0 < L) (hm : ∀ y, m ≤ f y) {a eps al : ℝ} (ha : 0 < a) (he : 0 < eps)
    (hal : 0 ≤ al) (hal1 : al ≤ 1) (hae : a * L < 2 * eps) (x : Vec d) : DrivesToZero (lift (rmsProp al eps)) g a x :=
  drives_of_tendsto <| rms_seq (s := fun k => (iter (lift (rmsProp al eps)) g a x k).1) hs hL hm ha he hal hal1 hae
    (fun _ => rfl) (fun _ _ => rfl) (fun _ _ => rfl)

/-! ### Functions of one variable -/

/-- A function of one variable as a function on `Vec 1`. -/
theorem smooth_one {φ γ : ℝ → ℝ} (hd : ∀ t, HasDerivAt φ (γ t) t) (hl : ∀ s t, |γ s - γ t| ≤ L * |s - t|) :
    LSmooth (fun x : Vec 1 => φ (x 0)) (fun x => WithLp.toLp 2 fun _ => γ (x 0)) L := by
  refine ⟨fun x => ?_, fun x y => ?_⟩
  · have hp : HasFDerivAt (fun x : Vec 1 => x 0) (EuclideanSpace.proj (𝕜 := ℝ) (0 : Fin 1)) x :=
      (EuclideanSpace.proj (𝕜 := ℝ) (0 : Fin 1)).hasFDerivAt
    have h := (hd (x 0)).comp_hasFDerivAt x hp
    refine h.congr_fderiv ?_
    ext y
    simp [PiLp.inner_apply, mul_comm]
  · rw [EuclideanSpace.norm_eq, EuclideanSpace.norm_eq]
    simp only [Fin.sum_univ_one, PiLp.sub_apply, Real.norm_eq_abs, sq_abs, Fin.isValue]
    rw [Real.sqrt_sq_eq_abs, Real.sqrt_sq_eq_abs]
    exact hl _ _

/-- Slope of the Huber function: `y` times the sign outside `[-δ, δ]`, linear between. -/
noncomputable def slope (y δ t : ℝ) : ℝ := y / δ * max (-δ) (min δ t)

/-- The Huber function. -/
noncomputable def huber (y δ t : ℝ) : ℝ := ∫ s in (0 : ℝ)..t, slope y δ s

theorem slope_cont (y δ : ℝ) : Continuous (slope y δ) := by unfold slope; fun_prop

theorem huber_deriv (y δ t : ℝ) : HasDerivAt (huber y δ) (slope y δ t) t :=
  ((slope_cont y δ).integral_hasStrictDerivAt 0 t).hasDerivAt

theorem slope_lip {y δ : ℝ} (hy : 0 ≤ y) (hδ : 0 < δ) (s t : ℝ) : |slope y δ s - slope y δ t| ≤ y / δ * |s - t| := by
  unfold slope
  rw [← mul_sub, abs_mul, abs_of_nonneg (by positivity : 0 ≤ y / δ)]
  apply mul_le_mul_of_nonneg_left _ (by positivity)
  refine (abs_max_sub_max_le_max _ _ _ _).trans ?_
  rw [sub_self, abs_zero]
  refine max_le (abs_nonneg _) ((abs_min_sub_min_le_max _ _ _ _).trans ?_)
  rw [sub_self, abs_zero]
  exact max_le (abs_nonneg _) le_rfl

theorem slope_pos {y δ t : ℝ} (hδ : 0 < δ) (ht : δ ≤ t) : slope y δ t = y := by
  unfold slope
  rw [min_eq_left ht, max_eq_right (by linarith)]
  field_simp

theorem slope_neg {y δ t : ℝ} (hδ : 0 < δ) (ht : t ≤ -δ) : slope y δ t = -y := by
  unfold slope
  rw [min_eq_right (by linarith), max_eq_left ht]
  field_simp

theorem slope_mono {y δ : ℝ} (hy : 0 ≤ y) (hδ : 0 < δ) : Monotone (slope y δ) := by
  intro s t h
  unfold slope
  apply mul_le_mul_of_nonneg_left _ (by positivity)
  exact max_le_max le_rfl (min_le_min le_rfl h)

theorem slope_zero {y δ : ℝ} (hδ : 0 < δ) : slope y δ 0 = 0 := by
  unfold slope
  rw [min_eq_right hδ.le, max_eq_right (by linarith), mul_zero]

theorem huber_nonneg {y δ : ℝ} (hy : 0 ≤ y) (hδ : 0 < δ) (t : ℝ) : 0 ≤ huber y δ t := by
  unfold huber
  rcases le_total 0 t with h | h
  · refine intervalIntegral.integral_nonneg h fun s hs => ?_
    rw [← slope_zero (y := y) hδ]
    exact slope_mono hy hδ hs.1
  · rw [intervalIntegral.integral_symm, ← intervalIntegral.integral_neg]
    refine intervalIntegral.integral_nonneg h fun s hs => ?_
    have := slope_mono hy hδ hs.2
    rw [slope_zero hδ] at this
    linarith

theorem huber_convex {y δ : ℝ} (hy : 0 ≤ y) (hδ : 0 < δ) : ConvexOn ℝ Set.univ (huber y δ) := by
  have hd : deriv (huber y δ) = slope y δ := funext fun t => (huber_deriv y δ t).deriv
  refine MonotoneOn.convexOn_of_deriv convex_univ (fun t _ => (huber_deriv y δ t).continuousAt.continuousWithinAt)
    (fun t _ => (huber_deriv y δ t).differentiableAt.differentiableWithinAt) ?_
  rw [hd]
  exact fun s _ t _ h => slope_mono hy hδ h

/-! ### RMSProp keeps jumping over the minimum -/

/-- Length of step `k` of RMSProp where all gradients have length `epsilon`. -/
noncomputable def tau (a al : ℝ) (k : Nat) : ℝ := a / (1 + √(1 - al ^ k))

theorem tau_anti {a al : ℝ} (ha : 0 < a) (h0 : 0 ≤ al) (h1 : al < 1) : Antitone (tau a al) := by
  refine antitone_nat_of_succ_le fun k => ?_
  unfold tau
  have : al ^ (k + 1) ≤ al ^ k := pow_le_pow_of_le_one h0 h1.le (Nat.le_succ k)
  have := Real.sqrt_le_sqrt (by linarith : 1 - al ^ k ≤ 1 - al ^ (k + 1))
  have := Real.sqrt_nonneg (1 - al ^ k)
  exact div_le_div_of_nonneg_left ha.le (by linarith) (by linarith)

theorem tau_ge {a al : ℝ} (ha : 0 < a) (h0 : 0 ≤ al) (k : Nat) : a / 2 ≤ tau a al k := by
  unfold tau
  have h2 : √(1 - al ^ k) ≤ 1 := by
    rw [Real.sqrt_le_one]
    have := pow_nonneg h0 k
    linarith
  have := Real.sqrt_nonneg (1 - al ^ k)
  exact div_le_div_of_nonneg_left ha.le (by linarith) (by linarith)

/-- The gradient in dimension one. -/
noncomputable def hg (y δ : ℝ) (x : Vec 1) : Vec 1 := WithLp.toLp 2 fun _ => slope y δ (x 0)

theorem rms_jump {a al e : ℝ} (ha : 0 < a) (h0 : 0 ≤ al) (h1 : al < 1) (he : 0 < e) (k : Nat) :
    let δ := (a - tau a al 1) / 2
    let it := iter (lift (rmsProp al e)) (hg e δ) a (WithLp.toLp 2 fun _ => tau a al 1 / 2)
    (it (2 * k)).1 0 = (1 - al ^ (2 * k)) * e ^ 2 ∧ (it (2 * k)).2 0 ≤ tau a al 1 / 2 ∧
      tau a al 1 / 2 - tau a al 1 + tau a al (2 * k + 1) ≤ (it (2 * k)).2 0 ∧
      (it (2 * k + 1)).1 0 = (1 - al ^ (2 * k + 1)) * e ^ 2 ∧
      (it (2 * k + 1)).2 0 = (it (2 * k)).2 0 - tau a al (2 * k + 1) := by
  intro δ it
  have hδ : 0 < δ := by
    have : tau a al 1 < a := by
      unfold tau
      rw [div_lt_iff₀ (by positivity), pow_one]
      have : 0 < √(1 - al) := Real.sqrt_pos.2 (by linarith)
      nlinarith
    show 0 < (a - tau a al 1) / 2
    linarith
  have hstep : ∀ j, (it j).1 0 = (1 - al ^ j) * e ^ 2 → (slope e δ ((it j).2 0)) * (slope e δ ((it j).2 0)) = e ^ 2 →
      (it (j + 1)).1 0 = (1 - al ^ (j + 1)) * e ^ 2 ∧
        (it (j + 1)).2 0 = (it j).2 0 - slope e δ ((it j).2 0) / e * tau a al (j + 1) := by
    intro j hj hq
    have e1 : (it (j + 1)).1 0 = (it j).1 0 * al + (1 - al) * (slope e δ ((it j).2 0) * slope e δ ((it j).2 0)) := rfl
    have e2 : (it (j + 1)).2 0 = (it j).2 0 - a * slope e δ ((it j).2 0) / (√((it (j + 1)).1 0) + e) := rfl
    have e3 : (it (j + 1)).1 0 = (1 - al ^ (j + 1)) * e ^ 2 := by
      rw [e1, hj, hq]; ring
    refine ⟨e3, ?_⟩
    rw [e2, e3, Real.sqrt_mul (by have := pow_le_one₀ (n := j + 1) h0 h1.le; linarith), Real.sqrt_sq he.le, tau]
    have : 0 < 1 + √(1 - al ^ (j + 1)) := by positivity
    congr 1
    rw [show √(1 - al ^ (j + 1)) * e + e = e * (1 + √(1 - al ^ (j + 1))) by ring]
    field_simp
  have hτ := tau_anti ha h0 h1
  have heven : ∀ k, (it (2 * k)).1 0 = (1 - al ^ (2 * k)) * e ^ 2 → (it (2 * k)).2 0 ≤ tau a al 1 / 2 →
      tau a al 1 / 2 - tau a al 1 + tau a al (2 * k + 1) ≤ (it (2 * k)).2 0 →
      (it (2 * k + 1)).1 0 = (1 - al ^ (2 * k + 1)) * e ^ 2 ∧
      (it (2 * k + 1)).2 0 = (it (2 * k)).2 0 - tau a al (2 * k + 1) := by
    intro k a1 a2 a3
    have hs : slope e δ ((it (2 * k)).2 0) = e := by
      apply slope_pos hδ
      have := tau_ge ha h0 (al := al) (2 * k + 1)
      show (a - tau a al 1) / 2 ≤ _
      linarith
    obtain ⟨b1, b2⟩ := hstep (2 * k) a1 (by rw [hs]; ring)
    refine ⟨b1, ?_⟩
    rw [b2, hs, div_self he.ne', one_mul]
  induction k with
  | zero =>
    have c1 : (it (2 * 0)).1 0 = (1 - al ^ (2 * 0)) * e ^ 2 := by
      show (0 : ℝ) = _
      simp
    have c2 : (it (2 * 0)).2 0 = tau a al 1 / 2 := rfl
    have c3 : tau a al 1 / 2 - tau a al 1 + tau a al (2 * 0 + 1) ≤ (it (2 * 0)).2 0 := by
      rw [c2]; simp
    exact ⟨c1, c2.le, c3, heven 0 c1 c2.le c3⟩
  | succ k ih =>
    obtain ⟨a1, a2, a3, a4, a5⟩ := ih
    have hge := tau_ge ha h0 (al := al) (2 * k + 1)
    have hs : slope e δ ((it (2 * k + 1)).2 0) = -e := by
      apply slope_neg hδ
      rw [a5]
      show _ ≤ -((a - tau a al 1) / 2)
      linarith
    obtain ⟨b1, b2⟩ := hstep (2 * k + 1) a4 (by rw [hs]; ring)
    rw [hs, neg_div, div_self he.ne', a5] at b2
    have d1 : tau a al (2 * k + 1 + 1) ≤ tau a al (2 * k + 1) := hτ (Nat.le_succ _)
    have d2 : tau a al (2 * (k + 1) + 1) ≤ tau a al (2 * k + 1 + 1) := hτ (by omega)
    have c1 : (it (2 * (k + 1))).1 0 = (1 - al ^ (2 * (k + 1))) * e ^ 2 := b1
    have b2' : (it (2 * (k + 1))).2 0 = (it (2 * k)).2 0 - tau a al (2 * k + 1) - -1 * tau a al (2 * k + 1 + 1) := b2
    have c2 : (it (2 * (k + 1))).2 0 ≤ tau a al 1 / 2 := by rw [b2']; linarith
    have c3 : tau a al 1 / 2 - tau a al 1 + tau a al (2 * (k + 1) + 1) ≤ (it (2 * (k + 1))).2 0 := by rw [b2']; linarith
    exact ⟨c1, c2, c3, heven (k + 1) c1 c2 c3⟩

/-- Whatever the step size, `epsilon` and `alpha < 1`, there is a smooth convex function (of one variable, bounded below) and a
starting point from which RMSProp does not drive the gradient to zero: it jumps to and fro over the minimum for ever. -/
theorem C255_rmsProp_refuted {a al e : ℝ} (ha : 0 < a) (h0 : 0 ≤ al) (h1 : al < 1) (he : 0 < e) :
    ¬ ∀ (f : Vec 1 → ℝ) (g : Vec 1 → Vec 1) (L : ℝ) (x : Vec 1), LSmooth f g L → ConvexOn ℝ Set.univ f → (∀ y, 0 ≤ f y) →
      DrivesToZero (lift (rmsProp al e)) g a x := by
  intro h
  set δ := (a - tau a al 1) / 2 with hδd
  have hδ : 0 < δ := by
    have : tau a al 1 < a := by
      unfold tau
      rw [div_lt_iff₀ (by positivity), pow_one]
      have : 0 < √(1 - al) := Real.sqrt_pos.2 (by linarith)
      nlinarith
    rw [hδd]
    linarith
  have hcv : ConvexOn ℝ Set.univ (fun x : Vec 1 => huber e δ (x 0)) := by
    have := (huber_convex he.le hδ).comp_linearMap (EuclideanSpace.proj (𝕜 := ℝ) (0 : Fin 1) : Vec 1 →L[ℝ] ℝ).toLinearMap
    exact this
  have hd := (h (fun x => huber e δ (x 0)) (hg e δ) (e / δ) (WithLp.toLp 2 fun _ => tau a al 1 / 2)
    (smooth_one (huber_deriv e δ) (slope_lip he.le hδ)) hcv (fun y => huber_nonneg he.le hδ _)).small
  rw [Metric.tendsto_atTop] at hd
  obtain ⟨N, hN⟩ := hd e he
  have hk := hN (2 * N) (by omega)
  obtain ⟨-, -, a3, -⟩ := rms_jump ha h0 h1 he N
  have hs : slope e δ ((iter (lift (rmsProp al e)) (hg e δ) a (WithLp.toLp 2 fun _ => tau a al 1 / 2) (2 * N)).2 0) = e := by
    apply slope_pos hδ
    have := tau_ge ha h0 (al := al) (2 * N + 1)
    refine le_trans ?_ a3
    rw [hδd]
    linarith
  rw [dist_zero_right, hg, hs, EuclideanSpace.norm_eq] at hk
  simp [Real.sqrt_sq_eq_abs, abs_of_pos he] at hk

/-- Non-trivial case of the positive theorem. -/
example (x : Vec 3) : DrivesToZero (lift (rmsProp (99 / 100) 1)) id (1 / 2) x :=
  C255_rmsProp_partial half_smooth one_pos half_nonneg (by norm_num) one_pos (by norm_num) (by norm_num) (by norm_num) x

end Ens.Converge
