import Verif.Converge.Base

/-
C250: gradient descent with momentum (`MomentumSGD`, `NesterovMomentumSGD`, `QHSGD`, `StandardSGD` on the whole sum) drives the
gradient of a smooth function to zero.
-/

namespace Ens.Converge

open Ens.Sgd Ens.Update Filter

section seq
variable {V : Type*} [NormedAddCommGroup V] [InnerProductSpace ℝ V] {f : V → ℝ} {g : V → V} {L m α μ ν : ℝ} {X v : Nat → V}

theorem momentum_seq (hs : LSmooth f g L) (hm : ∀ y, m ≤ f y) (h0 : 0 ≤ μ) (hα : 0 < α) (hL : α * L < 2 * (1 - μ))
    (hv : ∀ k, v (k + 1) = μ • v k - α • g (X k)) (hx : ∀ k, X (k + 1) = X k + v (k + 1)) :
    Tendsto (fun k => g (X k)) atTop (nhds 0) := by
  have hc : 0 < (1 - μ) / α - L / 2 := by
    rw [sub_pos, lt_div_iff₀ hα]
    linarith
  have key : ∀ k, f (X (k + 1)) + μ / (2 * α) * ‖v (k + 1)‖ ^ 2 ≤
      f (X k) + μ / (2 * α) * ‖v k‖ ^ 2 - ((1 - μ) / α - L / 2) * ‖v (k + 1)‖ ^ 2 := by
    intro k
    have hd := hs.descent (X k) (X (k + 1))
    rw [hx k, add_sub_cancel_left] at hd
    have hg : α * inner ℝ (g (X k)) (v (k + 1)) = μ * inner ℝ (v k) (v (k + 1)) - ‖v (k + 1)‖ ^ 2 := by
      have e : α • g (X k) = μ • v k - v (k + 1) := by rw [hv k]; abel
      rw [← real_inner_smul_left, e, inner_sub_left, real_inner_smul_left, real_inner_self_eq_norm_sq]
    have hvv : inner ℝ (v k) (v (k + 1)) ≤ (‖v k‖ ^ 2 + ‖v (k + 1)‖ ^ 2) / 2 := by
      have := real_inner_le_norm (v k) (v (k + 1))
      nlinarith [sq_nonneg (‖v k‖ - ‖v (k + 1)‖)]
    have hi : inner ℝ (g (X k)) (v (k + 1)) ≤ μ / (2 * α) * ‖v k‖ ^ 2 + (μ / (2 * α) - 1 / α) * ‖v (k + 1)‖ ^ 2 := by
      have : inner ℝ (g (X k)) (v (k + 1)) = (μ * inner ℝ (v k) (v (k + 1)) - ‖v (k + 1)‖ ^ 2) / α := by
        rw [← hg]; field_simp
      rw [this, div_le_iff₀ hα]
      have e : (μ / (2 * α) * ‖v k‖ ^ 2 + (μ / (2 * α) - 1 / α) * ‖v (k + 1)‖ ^ 2) * α =
          μ * ((‖v k‖ ^ 2 + ‖v (k + 1)‖ ^ 2) / 2) - ‖v (k + 1)‖ ^ 2 := by field_simp; ring
      rw [e]
      nlinarith [mul_le_mul_of_nonneg_left hvv h0]
    have e2 : (1 - μ) / α = 1 / α - 2 * (μ / (2 * α)) := by field_simp
    rw [hx k, e2]
    linarith
  have h1 := tendsto_of_energy (e := fun k => f (X k) + μ / (2 * α) * ‖v k‖ ^ 2) (m := m)
    (fun k => mul_nonneg hc.le (sq_nonneg ‖v (k + 1)‖)) key
    (fun k => by have := hm (X k); have : 0 ≤ μ / (2 * α) * ‖v k‖ ^ 2 := by positivity
                 linarith)
  have h2 : Tendsto (fun k => v (k + 1)) atTop (nhds 0) := tendsto_of_norm_sq hc h1
  have h3 : Tendsto v atTop (nhds 0) := (tendsto_add_atTop_iff_nat 1).1 h2
  have h4 : Tendsto (fun k => (1 / α) • (μ • v k - v (k + 1))) atTop (nhds ((1 / α) • (μ • 0 - 0))) :=
    ((h3.const_smul μ).sub h2).const_smul (1 / α)
  simp only [smul_zero, sub_zero] at h4
  refine h4.congr fun k => ?_
  rw [hv k, sub_sub_cancel, smul_smul, one_div, inv_mul_cancel₀ hα.ne', one_smul]

theorem nesterov_seq (hs : LSmooth f g L) (hcv : ConvexOn ℝ Set.univ f) (hm : ∀ y, m ≤ f y) (h0 : 0 ≤ μ) (h1 : μ < 1)
    (hα : 0 < α) (hL : α * L ≤ 1) (hv : ∀ k, v (k + 1) = μ • v k - α • g (X k))
    (hx : ∀ k, X (k + 1) = X k + (μ • v (k + 1) - α • g (X k))) : Tendsto (fun k => g (X k)) atTop (nhds 0) := by
  -- the points at which the momentum is taken off
  let Y : Nat → V := fun k => X k - μ • v k
  have hY : ∀ k, Y (k + 1) = X k - α • g (X k) := by
    intro k
    show X (k + 1) - μ • v (k + 1) = _
    rw [hx k]; abel
  have hc : 0 < (1 - μ ^ 2) / (2 * α) := by
    have : μ ^ 2 < 1 := by nlinarith
    apply div_pos <;> linarith
  have key : ∀ k, f (Y (k + 1)) + 1 / (2 * α) * ‖v (k + 1)‖ ^ 2 ≤
      f (Y k) + 1 / (2 * α) * ‖v k‖ ^ 2 - (1 - μ ^ 2) / (2 * α) * ‖v k‖ ^ 2 := by
    intro k
    have hd := hs.descent (X k) (Y (k + 1))
    have e1 : Y (k + 1) - X k = -(α • g (X k)) := by rw [hY k]; abel
    rw [e1, inner_neg_right, real_inner_smul_right, real_inner_self_eq_norm_sq, norm_neg, norm_smul, Real.norm_of_nonneg hα.le]
      at hd
    have hf := convex_first_order hs.grad hcv (X k) (Y k)
    have e2 : Y k - X k = -(μ • v k) := by show X k - μ • v k - X k = _; abel
    rw [e2, inner_neg_right, real_inner_smul_right] at hf
    have hn : ‖v (k + 1)‖ ^ 2 = μ ^ 2 * ‖v k‖ ^ 2 - 2 * α * (μ * inner ℝ (g (X k)) (v k)) + α ^ 2 * ‖g (X k)‖ ^ 2 := by
      rw [hv k, norm_sub_sq_real, norm_smul, norm_smul, real_inner_smul_left, real_inner_smul_right, real_inner_comm,
        Real.norm_of_nonneg h0, Real.norm_of_nonneg hα.le]
      ring
    have e3 : (1 - μ ^ 2) / (2 * α) * ‖v k‖ ^ 2 = 1 / (2 * α) * ‖v k‖ ^ 2 - 1 / (2 * α) * (μ ^ 2 * ‖v k‖ ^ 2) := by ring
    have e4 : 1 / (2 * α) * ‖v (k + 1)‖ ^ 2 = 1 / (2 * α) * (μ ^ 2 * ‖v k‖ ^ 2) - μ * inner ℝ (g (X k)) (v k) +
        α / 2 * ‖g (X k)‖ ^ 2 := by rw [hn]; field_simp
    rw [e3, e4]
    have : (α * L) * (α * ‖g (X k)‖ ^ 2) ≤ 1 * (α * ‖g (X k)‖ ^ 2) := mul_le_mul_of_nonneg_right hL (by positivity)
    nlinarith
  have t1 := tendsto_of_energy (e := fun k => f (Y k) + 1 / (2 * α) * ‖v k‖ ^ 2) (m := m)
    (fun k => mul_nonneg hc.le (sq_nonneg ‖v k‖)) key
    (fun k => by have := hm (Y k); have : 0 ≤ 1 / (2 * α) * ‖v k‖ ^ 2 := by positivity
                 linarith)
  have h3 : Tendsto v atTop (nhds 0) := tendsto_of_norm_sq hc t1
  have h2 : Tendsto (fun k => v (k + 1)) atTop (nhds 0) := (tendsto_add_atTop_iff_nat 1).2 h3
  have h4 : Tendsto (fun k => (1 / α) • (μ • v k - v (k + 1))) atTop (nhds ((1 / α) • (μ • 0 - 0))) :=
    ((h3.const_smul μ).sub h2).const_smul (1 / α)
  simp only [smul_zero, sub_zero] at h4
  refine h4.congr fun k => ?_
  rw [hv k, sub_sub_cancel, smul_smul, one_div, inv_mul_cancel₀ hα.ne', one_smul]

theorem qh_seq (hs : LSmooth f g L) (hm : ∀ y, m ≤ f y) (h0 : 0 ≤ μ) (h1 : μ < 1) (hν : 0 ≤ ν) (hν1 : ν ≤ 1)
    (hα : 0 < α) (hL0 : 0 ≤ L) (hL : α * L < 2) (hv : ∀ k, v (k + 1) = μ • v k + (1 - μ) • g (X k))
    (hx : ∀ k, X (k + 1) = X k - α • ((1 - ν) • g (X k) + ν • v (k + 1))) : Tendsto (fun k => g (X k)) atTop (nhds 0) := by
  have hμ : 0 < 1 - μ := by linarith
  have hc : 0 < α * (1 - α * L / 2) := by nlinarith
  have key : ∀ k, f (X (k + 1)) + α * ν * μ / (2 * (1 - μ)) * ‖v (k + 1)‖ ^ 2 ≤
      f (X k) + α * ν * μ / (2 * (1 - μ)) * ‖v k‖ ^ 2 -
        α * (1 - α * L / 2) * ((1 - ν) * ‖g (X k)‖ ^ 2 + ν * ‖v (k + 1)‖ ^ 2) := by
    intro k
    have hd := hs.descent (X k) (X (k + 1))
    have e1 : X (k + 1) - X k = -(α • ((1 - ν) • g (X k) + ν • v (k + 1))) := by rw [hx k]; abel
    rw [e1, inner_neg_right, real_inner_smul_right, inner_add_right, real_inner_smul_right, real_inner_smul_right,
      real_inner_self_eq_norm_sq, norm_neg, norm_smul, Real.norm_of_nonneg hα.le] at hd
    -- the length of a convex combination
    have hcomb : ‖(1 - ν) • g (X k) + ν • v (k + 1)‖ ^ 2 ≤ (1 - ν) * ‖g (X k)‖ ^ 2 + ν * ‖v (k + 1)‖ ^ 2 := by
      have t := norm_add_le ((1 - ν) • g (X k)) (ν • v (k + 1))
      rw [norm_smul, norm_smul, Real.norm_of_nonneg hν, Real.norm_of_nonneg (by linarith : 0 ≤ 1 - ν)] at t
      have t2 := pow_le_pow_left₀ (norm_nonneg _) t 2
      refine t2.trans ?_
      nlinarith [mul_nonneg (mul_nonneg hν (by linarith : 0 ≤ 1 - ν)) (sq_nonneg (‖g (X k)‖ - ‖v (k + 1)‖))]
    have hin : (1 - μ) * inner ℝ (g (X k)) (v (k + 1)) = ‖v (k + 1)‖ ^ 2 - μ * inner ℝ (v k) (v (k + 1)) := by
      have e : (1 - μ) • g (X k) = v (k + 1) - μ • v k := by rw [hv k]; abel
      rw [← real_inner_smul_left, e, inner_sub_left, real_inner_smul_left, real_inner_self_eq_norm_sq]
    have hvv : inner ℝ (v k) (v (k + 1)) ≤ (‖v k‖ ^ 2 + ‖v (k + 1)‖ ^ 2) / 2 := by
      have := real_inner_le_norm (v k) (v (k + 1))
      nlinarith [sq_nonneg (‖v k‖ - ‖v (k + 1)‖)]
    have hin2 : ‖v (k + 1)‖ ^ 2 + μ / (2 * (1 - μ)) * ‖v (k + 1)‖ ^ 2 - μ / (2 * (1 - μ)) * ‖v k‖ ^ 2 ≤
        inner ℝ (g (X k)) (v (k + 1)) := by
      have e : inner ℝ (g (X k)) (v (k + 1)) = (‖v (k + 1)‖ ^ 2 - μ * inner ℝ (v k) (v (k + 1))) / (1 - μ) := by
        rw [← hin]; field_simp
      rw [e, le_div_iff₀ hμ]
      have e2 : (‖v (k + 1)‖ ^ 2 + μ / (2 * (1 - μ)) * ‖v (k + 1)‖ ^ 2 - μ / (2 * (1 - μ)) * ‖v k‖ ^ 2) * (1 - μ) =
          ‖v (k + 1)‖ ^ 2 - μ * ((‖v k‖ ^ 2 + ‖v (k + 1)‖ ^ 2) / 2) := by field_simp; ring
      rw [e2]
      nlinarith [mul_le_mul_of_nonneg_left hvv h0]
    have p1 := mul_le_mul_of_nonneg_left hin2 (mul_nonneg hα.le hν)
    have p2 := mul_le_mul_of_nonneg_left hcomb (by positivity : 0 ≤ L / 2 * α ^ 2)
    have e3 : α * ν * μ / (2 * (1 - μ)) = α * ν * (μ / (2 * (1 - μ))) := by ring
    rw [e3]
    generalize μ / (2 * (1 - μ)) = c at *
    nlinarith
  have hq : ∀ k, 0 ≤ (1 - ν) * ‖g (X k)‖ ^ 2 + ν * ‖v (k + 1)‖ ^ 2 := fun k =>
    add_nonneg (mul_nonneg (by linarith) (sq_nonneg _)) (mul_nonneg hν (sq_nonneg _))
  have t1 := tendsto_of_energy (e := fun k => f (X k) + α * ν * μ / (2 * (1 - μ)) * ‖v k‖ ^ 2) (m := m)
    (fun k => mul_nonneg hc.le (hq k)) key
    (fun k => by have := hm (X k); have : 0 ≤ α * ν * μ / (2 * (1 - μ)) * ‖v k‖ ^ 2 := by positivity
                 linarith)
  rcases hν.lt_or_eq with hpos | hz
  · have t2 : Tendsto (fun k => α * (1 - α * L / 2) * ν * ‖v (k + 1)‖ ^ 2) atTop (nhds 0) := by
      refine squeeze_zero (fun k => by have := sq_nonneg ‖v (k + 1)‖; positivity) (fun k => ?_) t1
      have : 0 ≤ α * (1 - α * L / 2) * ((1 - ν) * ‖g (X k)‖ ^ 2) :=
        mul_nonneg hc.le (mul_nonneg (by linarith) (sq_nonneg _))
      nlinarith
    have h2 : Tendsto (fun k => v (k + 1)) atTop (nhds 0) := tendsto_of_norm_sq (mul_pos hc hpos) t2
    have h3 : Tendsto v atTop (nhds 0) := (tendsto_add_atTop_iff_nat 1).1 h2
    have h4 : Tendsto (fun k => (1 / (1 - μ)) • (v (k + 1) - μ • v k)) atTop (nhds ((1 / (1 - μ)) • (0 - μ • 0))) :=
      (h2.sub (h3.const_smul μ)).const_smul (1 / (1 - μ))
    simp only [smul_zero, sub_zero] at h4
    refine h4.congr fun k => ?_
    rw [hv k, add_sub_cancel_left, smul_smul, one_div, inv_mul_cancel₀ hμ.ne', one_smul]
  · subst hz
    refine tendsto_of_norm_sq hc ?_
    refine t1.congr fun k => ?_
    ring

end seq

variable {d : Nat} {f : Vec d → ℝ} {g : Vec d → Vec d} {L m : ℝ}

/-- **C250** `StandardSGD` on the whole sum: for an `L`-smooth function that is bounded below and a step size below `2/L` the
gradient tends to zero. -/
theorem C250_standard (hs : LSmooth f g L) (hm : ∀ y, m ≤ f y) {a : ℝ} (ha : 0 < a) (hL : a * L < 2) (x : Vec d) :
    DrivesToZero (lift vanilla) g a x := by
  refine drives_of_tendsto ?_
  refine momentum_seq (μ := 0) (v := fun k => match k with
      | 0 => 0
      | k + 1 => -(a • g (iter (lift vanilla) g a x k).2)) hs hm le_rfl ha (by linarith) (fun k => ?_) (fun k => ?_)
  · simp
  · ext i
    simp [iter, lift, vanilla, sub_eq_add_neg]

/-- **C250** `MomentumSGD` on the whole sum: for a momentum in `[0, 1)` and a step size below `2 (1 - momentum) / L`. -/
theorem C250_momentum (hs : LSmooth f g L) (hm : ∀ y, m ≤ f y) {a mu : ℝ} (h0 : 0 ≤ mu) (ha : 0 < a)
    (hL : a * L < 2 * (1 - mu)) (x : Vec d) : DrivesToZero (lift (momentum mu)) g a x := by
  refine drives_of_tendsto ?_
  refine momentum_seq (μ := mu) (v := fun k => WithLp.toLp 2 (iter (lift (momentum mu)) g a x k).1) hs hm h0 ha hL
    (fun k => ?_) (fun k => ?_)
  · ext i
    simp [iter, lift, momentum]
  · ext i
    simp [iter, lift, momentum]

/-- **C250** `NesterovMomentumSGD` on the whole sum: for a convex function, a momentum in `[0, 1)` and a step size of at most
`1/L`, whatever the momentum. -/
theorem C250_nesterov (hs : LSmooth f g L) (hc : ConvexOn ℝ Set.univ f) (hm : ∀ y, m ≤ f y) {a mu : ℝ} (h0 : 0 ≤ mu)
    (h1 : mu < 1) (ha : 0 < a) (hL : a * L ≤ 1) (x : Vec d) : DrivesToZero (lift (nesterov mu)) g a x := by
  refine drives_of_tendsto ?_
  refine nesterov_seq (μ := mu) (v := fun k => WithLp.toLp 2 (iter (lift (nesterov mu)) g a x k).1) hs hc hm h0 h1 ha hL
    (fun k => ?_) (fun k => ?_)
  · ext i
    simp [iter, lift, nesterov]
  · ext i
    simp [iter, lift, nesterov]

/-- **C250** `QHSGD` (`QHUpdate`) on the whole sum: for parameters `v` in `[0, 1]`, momentum in `[0, 1)` and a step size below
`2/L`. -/
theorem C250_qh (hs : LSmooth f g L) (hm : ∀ y, m ≤ f y) {a nu mu : ℝ} (h0 : 0 ≤ mu) (h1 : mu < 1) (hn : 0 ≤ nu) (hn1 : nu ≤ 1)
    (ha : 0 < a) (hL0 : 0 ≤ L) (hL : a * L < 2) (x : Vec d) : DrivesToZero (lift (qh nu mu)) g a x := by
  refine drives_of_tendsto ?_
  refine qh_seq (μ := mu) (ν := nu) (v := fun k => WithLp.toLp 2 (iter (lift (qh nu mu)) g a x k).1) hs hm h0 h1 hn hn1 ha hL0
    hL (fun k => ?_) (fun k => ?_)
  · ext i
    simp [iter, lift, qh]
  · ext i
    simp [iter, lift, qh]
    ring

/-- **C250** (refuted) "The gradient tends to zero for every step size": already at the limit `2/L` plain gradient descent
oscillates. So the bound of `C250_standard` is sharp. -/
theorem C250_step_refuted : ¬ ∀ (d : Nat) (f : Vec d → ℝ) (g : Vec d → Vec d) (a : ℝ) (x : Vec d), LSmooth f g 1 →
    (∀ y, 0 ≤ f y) → 0 < a → DrivesToZero (lift vanilla) g a x := by
  intro h
  have h1 := (h 1 half id 2 (WithLp.toLp 2 fun _ => 1) half_smooth half_nonneg two_pos).small
  have e : ∀ k, (iter (lift vanilla) id 2 (WithLp.toLp 2 fun _ => (1 : ℝ)) k).2 =
      ((-1 : ℝ) ^ k) • (WithLp.toLp 2 fun _ => (1 : ℝ) : Vec 1) := by
    intro k
    induction k with
    | zero => simp [iter]
    | succ k ih =>
      rw [iter, ih]
      ext i
      simp [lift, vanilla, pow_succ]
      ring
  rw [Metric.tendsto_atTop] at h1
  obtain ⟨N, hN⟩ := h1 1 one_pos
  have h2 := hN N le_rfl
  simp only [id] at h2
  rw [e, dist_zero_right, norm_smul] at h2
  simp [EuclideanSpace.norm_eq] at h2

/-- Hypotheses of C250: the squared norm, with default-like parameters. -/
example : LSmooth (half (d := 3)) id 1 ∧ ConvexOn ℝ Set.univ (half (d := 3)) ∧ (∀ y : Vec 3, 0 ≤ half y) ∧
    (0.01 : ℝ) * 1 < 2 * (1 - 0.5) :=
  ⟨half_smooth, half_convex, half_nonneg, by norm_num⟩

end Ens.Converge
