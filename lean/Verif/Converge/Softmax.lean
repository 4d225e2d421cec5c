import Verif.Converge.Gd
import Verif.Converge.LbfgsStop
import Verif.Shape.Norms
import Verif.Converge.Cd
import Verif.Problems.SoftmaxProps

/-
C307: training a softmax regression model with gradient descent, L-BFGS and coordinate descent: the objective of
`SoftmaxRegressionFunction` meets the assumptions of the convergence theorems, with explicit constants.
-/

namespace Ens.Problems.Softmax

open Real Ens.Converge

variable {K d n D : Nat}

/-- The parameters, one row per class, as a vector. -/
abbrev Par (K D : Nat) := EuclideanSpace ℝ (Fin K × Fin D)

/-! ### The softmax map is Lipschitz with constant 1/2 -/

theorem var_eq (p v : Fin K → ℝ) (h1 : ∑ k, p k = 1) :
    ∑ k, p k * v k ^ 2 - (∑ k, p k * v k) ^ 2 = 1 / 2 * ∑ k, ∑ l, p k * p l * (v k - v l) ^ 2 := by
  have e : ∀ k, ∑ l, p k * p l * (v k - v l) ^ 2 =
      p k * v k ^ 2 * ∑ l, p l - 2 * (p k * v k) * ∑ l, p l * v l + p k * ∑ l, p l * v l ^ 2 := by
    intro k
    rw [Finset.mul_sum, Finset.mul_sum, Finset.mul_sum, ← Finset.sum_sub_distrib, ← Finset.sum_add_distrib]
    exact Finset.sum_congr rfl fun l _ => by ring
  simp only [e, h1, mul_one, Finset.sum_add_distrib, Finset.sum_sub_distrib]
  rw [← Finset.sum_mul, ← Finset.sum_mul, ← Finset.mul_sum, h1]
  ring

theorem var_nonneg (p v : Fin K → ℝ) (hp : ∀ k, 0 ≤ p k) (h1 : ∑ k, p k = 1) :
    0 ≤ ∑ k, p k * v k ^ 2 - (∑ k, p k * v k) ^ 2 := by
  rw [var_eq p v h1]
  have : 0 ≤ ∑ k, ∑ l, p k * p l * (v k - v l) ^ 2 :=
    Finset.sum_nonneg fun k _ => Finset.sum_nonneg fun l _ => mul_nonneg (mul_nonneg (hp k) (hp l)) (sq_nonneg _)
  linarith

theorem var_le (p v : Fin K → ℝ) (hp : ∀ k, 0 ≤ p k) (h1 : ∑ k, p k = 1) :
    ∑ k, p k * v k ^ 2 - (∑ k, p k * v k) ^ 2 ≤ 1 / 2 * ∑ k, v k ^ 2 := by
  rw [var_eq p v h1]
  refine mul_le_mul_of_nonneg_left ?_ (by norm_num)
  have h2 : ∀ k, ∑ l, p k * p l * (v k - v l) ^ 2 ≤
      2 * (p k * v k ^ 2) + 2 * (p k * ∑ l, p l * v l ^ 2) - 4 * (p k ^ 2 * v k ^ 2) := by
    intro k
    have h3 : ∀ l ∈ Finset.univ, p k * p l * (v k - v l) ^ 2 ≤
        2 * (p k * v k ^ 2) * p l + 2 * (p k * (p l * v l ^ 2)) - if l = k then 4 * (p k ^ 2 * v k ^ 2) else 0 := by
      intro l _
      by_cases hlk : l = k
      · subst hlk
        rw [if_pos rfl]
        apply le_of_eq; ring
      · rw [if_neg hlk]
        nlinarith [mul_nonneg (mul_nonneg (hp k) (hp l)) (sq_nonneg (v k + v l))]
    refine (Finset.sum_le_sum h3).trans (le_of_eq ?_)
    rw [Finset.sum_sub_distrib, Finset.sum_add_distrib, ← Finset.mul_sum, ← Finset.mul_sum, ← Finset.mul_sum, h1]
    simp
  refine (Finset.sum_le_sum fun k _ => h2 k).trans ?_
  rw [Finset.sum_sub_distrib, Finset.sum_add_distrib, ← Finset.mul_sum, ← Finset.mul_sum, ← Finset.mul_sum, ← Finset.sum_mul, h1,
    Finset.mul_sum, Finset.mul_sum]
  simp only [one_mul]
  rw [Finset.mul_sum, ← Finset.sum_add_distrib, Finset.mul_sum, ← Finset.sum_sub_distrib]
  refine Finset.sum_le_sum fun k _ => ?_
  nlinarith [mul_nonneg (sq_nonneg (2 * p k - 1)) (sq_nonneg (v k))]

theorem cov_le (p v w : Fin K → ℝ) (hp : ∀ k, 0 ≤ p k) (h1 : ∑ k, p k = 1) :
    ∑ k, p k * (v k * w k) - (∑ k, p k * v k) * (∑ k, p k * w k) ≤ 1 / 8 * ∑ k, v k ^ 2 + 1 / 2 * ∑ k, w k ^ 2 := by
  have hv := var_le p v hp h1
  have hw := var_le p w hp h1
  have h0 := var_nonneg p (fun k => v k / 2 - w k) hp h1
  have e1 : ∑ k, p k * (v k / 2 - w k) ^ 2 =
      1 / 4 * ∑ k, p k * v k ^ 2 - ∑ k, p k * (v k * w k) + ∑ k, p k * w k ^ 2 := by
    rw [Finset.mul_sum, ← Finset.sum_sub_distrib, ← Finset.sum_add_distrib]
    exact Finset.sum_congr rfl fun k _ => by ring
  have e2 : ∑ k, p k * (v k / 2 - w k) = 1 / 2 * ∑ k, p k * v k - ∑ k, p k * w k := by
    rw [Finset.mul_sum, ← Finset.sum_sub_distrib]
    exact Finset.sum_congr rfl fun k _ => by ring
  simp only [e1, e2] at h0
  nlinarith

/-- The probabilities of one point from its exponents (lines 173-180 of softmax_regression_function_impl.hpp). -/
noncomputable def soft (h : Fin K → ℝ) (k : Fin K) : ℝ := exp (h k) / ∑ l, exp (h l)

theorem probs_soft (h : Fin n → Fin K → ℝ) (i : Fin n) : probs h i = soft (h i) := rfl

theorem soft_nonneg (h : Fin K → ℝ) (k : Fin K) : 0 ≤ soft h k := (div_pos (exp_pos _) (sumExp_pos h k)).le

theorem soft_sum (h : Fin K → ℝ) (hK : 0 < K) : ∑ k, soft h k = 1 := by
  simp only [soft]
  rw [← Finset.sum_div, div_self (sumExp_pos h ⟨0, hK⟩).ne']

theorem soft_deriv (h v w : Fin K → ℝ) (hK : 0 < K) (t : ℝ) :
    HasDerivAt (fun t : ℝ => ∑ k, soft (fun l => h l + t * v l) k * w k)
      (∑ k, soft (fun l => h l + t * v l) k * (v k * w k) -
        (∑ k, soft (fun l => h l + t * v l) k * v k) * ∑ k, soft (fun l => h l + t * v l) k * w k) t := by
  have he : ∀ k, HasDerivAt (fun t : ℝ => exp (h k + t * v k)) (exp (h k + t * v k) * v k) t := fun k => by
    have := (((hasDerivAt_id t).mul_const (v k)).const_add (h k)).exp
    simpa using this
  have hZ : HasDerivAt (fun t : ℝ => ∑ k, exp (h k + t * v k)) (∑ k, exp (h k + t * v k) * v k) t :=
    HasDerivAt.fun_sum fun k _ => he k
  have hN : HasDerivAt (fun t : ℝ => ∑ k, exp (h k + t * v k) * w k) (∑ k, exp (h k + t * v k) * v k * w k) t :=
    HasDerivAt.fun_sum fun k _ => (he k).mul_const (w k)
  have hp : 0 < ∑ l, exp (h l + t * v l) := sumExp_pos (fun l => h l + t * v l) ⟨0, hK⟩
  have hd := hN.div hZ hp.ne'
  have e0 : ∀ s : ℝ, ∑ k, soft (fun l => h l + s * v l) k * w k =
      (∑ k, exp (h k + s * v k) * w k) / ∑ k, exp (h k + s * v k) := fun s => by
    rw [Finset.sum_div]
    exact Finset.sum_congr rfl fun k _ => by rw [soft]; ring
  have e1 : ∑ k, soft (fun l => h l + t * v l) k * (v k * w k) =
      (∑ k, exp (h k + t * v k) * v k * w k) / ∑ k, exp (h k + t * v k) := by
    rw [Finset.sum_div]
    exact Finset.sum_congr rfl fun k _ => by rw [soft]; ring
  have e2 : ∑ k, soft (fun l => h l + t * v l) k * v k =
      (∑ k, exp (h k + t * v k) * v k) / ∑ k, exp (h k + t * v k) := by
    rw [Finset.sum_div]
    exact Finset.sum_congr rfl fun k _ => by rw [soft]; ring
  rw [e1, e2, e0]
  simp only [e0]
  refine hd.congr_deriv ?_
  generalize ∑ k, exp (h k + t * v k) = Z at hp ⊢
  field_simp

/-- The probabilities move at most half as far as the exponents. -/
theorem soft_lip (h g : Fin K → ℝ) (hK : 0 < K) :
    ∑ k, (soft g k - soft h k) ^ 2 ≤ 1 / 4 * ∑ k, (g k - h k) ^ 2 := by
  set v : Fin K → ℝ := fun k => g k - h k with hv
  set w : Fin K → ℝ := fun k => soft g k - soft h k with hw
  obtain ⟨c, -, hc⟩ := exists_hasDerivAt_eq_slope (fun t : ℝ => ∑ k, soft (fun l => h l + t * v l) k * w k) _ zero_lt_one
    (fun t _ => (soft_deriv h v w hK t).continuousAt.continuousWithinAt) (fun t _ => soft_deriv h v w hK t)
  have hle := cov_le (soft fun l => h l + c * v l) v w (soft_nonneg _) (soft_sum _ hK)
  rw [hc] at hle
  have e1 : (fun l => h l + 1 * v l) = g := by funext l; simp [hv]
  have e0 : (fun l => h l + 0 * v l) = h := by funext l; simp
  simp only [e1, e0, sub_zero, div_one] at hle
  rw [← Finset.sum_sub_distrib] at hle
  have e2 : ∑ k, (soft g k * w k - soft h k * w k) = ∑ k, w k ^ 2 :=
    Finset.sum_congr rfl fun k _ => by simp only [hw]; ring
  rw [e2] at hle
  linarith

/-! ### Constants of the objective -/

theorem isGrad_of_gradAt {ι : Type} [Fintype ι] {f : (ι → ℝ) → ℝ} {g : (ι → ℝ) → ι → ℝ} (h : ∀ x, GradAt f (g x) x) :
    IsGrad (fun x : EuclideanSpace ℝ ι => f x.ofLp) fun x => WithLp.toLp 2 (g x.ofLp) := by
  intro x
  have h1 : HasFDerivAt f _ ((EuclideanSpace.equiv ι ℝ) x) := h x.ofLp
  have h2 := h1.comp x (EuclideanSpace.equiv ι ℝ).hasFDerivAt
  refine h2.congr_fderiv ?_
  ext v
  simp [PiLp.inner_apply, mul_comm, EuclideanSpace.equiv]

/-- Products of a row of class weights and a row of features. -/
noncomputable def outer (u : Fin K → ℝ) (b : Fin D → ℝ) : Par K D := WithLp.toLp 2 fun q => u q.1 * b q.2

theorem norm_outer (u : Fin K → ℝ) (b : Fin D → ℝ) : ‖outer u b‖ ^ 2 = (∑ k, u k ^ 2) * ∑ j, b j ^ 2 := by
  rw [EuclideanSpace.norm_sq_eq, Fintype.sum_prod_type, Finset.sum_mul]
  refine Finset.sum_congr rfl fun k _ => ?_
  rw [Finset.mul_sum]
  exact Finset.sum_congr rfl fun j _ => by simp [outer, mul_pow]

theorem lin_dist (a : Fin n → Fin D → ℝ) (θ η : Par K D) (i : Fin n) :
    ∑ k, (lin a θ.ofLp i k - lin a η.ofLp i k) ^ 2 ≤ (∑ j, a i j ^ 2) * ‖θ - η‖ ^ 2 := by
  rw [EuclideanSpace.norm_sq_eq, Fintype.sum_prod_type, Finset.mul_sum]
  refine Finset.sum_le_sum fun k _ => ?_
  have e : lin a θ.ofLp i k - lin a η.ofLp i k = ∑ j, a i j * (θ.ofLp (k, j) - η.ofLp (k, j)) := by
    simp only [lin]
    rw [← Finset.sum_sub_distrib]
    exact Finset.sum_congr rfl fun j _ => by ring
  rw [e]
  refine (Finset.sum_mul_sq_le_sq_mul_sq Finset.univ (a i) fun j => θ.ofLp (k, j) - η.ofLp (k, j)).trans (le_of_eq ?_)
  simp

theorem outer_le (a : Fin n → Fin D → ℝ) (θ η : Par K D) (hK : 0 < K) (i : Fin n) :
    ‖outer (fun k => probs (lin a θ.ofLp) i k - probs (lin a η.ofLp) i k) (a i)‖ ≤ 1 / 2 * (∑ j, a i j ^ 2) * ‖θ - η‖ := by
  have hA : 0 ≤ ∑ j, a i j ^ 2 := Finset.sum_nonneg fun j _ => sq_nonneg _
  refine (sq_le_sq₀ (norm_nonneg _) (by positivity)).1 ?_
  rw [norm_outer]
  have h1 := soft_lip (lin a η.ofLp i) (lin a θ.ofLp i) hK
  have h2 := lin_dist a θ η i
  simp only [probs_soft]
  calc _ ≤ (1 / 4 * ((∑ j, a i j ^ 2) * ‖θ - η‖ ^ 2)) * ∑ j, a i j ^ 2 :=
        mul_le_mul_of_nonneg_right (h1.trans (mul_le_mul_of_nonneg_left h2 (by norm_num))) hA
    _ = _ := by ring

/-- Smoothness of the mean loss over all points, from general features. -/
theorem loss_smooth {S : Softmax K d n} {labels : Fin n → Fin K} (hl : S.Labelled labels) (hlam : 0 ≤ S.lam)
    (a : Fin n → Fin D → ℝ) (hn : 0 < n) :
    LSmooth (fun θ : Par K D => S.meanLoss labels a Finset.univ n θ.ofLp)
      (fun θ => WithLp.toLp 2 (S.gradLin a Finset.univ n θ.ofLp)) (S.lam + (∑ i, ∑ j, a i j ^ 2) / (2 * n)) := by
  have hK : 0 < K := (labels ⟨0, hn⟩).pos
  refine ⟨isGrad_of_gradAt (grad_meanLoss hl a Finset.univ n), fun θ η => ?_⟩
  have e : WithLp.toLp 2 (S.gradLin a Finset.univ n θ.ofLp) - WithLp.toLp 2 (S.gradLin a Finset.univ n η.ofLp) =
      S.lam • (θ - η) + (n : ℝ)⁻¹ • ∑ i, outer (fun k => probs (lin a θ.ofLp) i k - probs (lin a η.ofLp) i k) (a i) := by
    ext q
    simp only [gradLin, outer, PiLp.sub_apply, PiLp.add_apply, PiLp.smul_apply, smul_eq_mul, WithLp.ofLp_sum, Finset.sum_apply]
    rw [div_eq_inv_mul, div_eq_inv_mul, Finset.mul_sum, Finset.mul_sum, Finset.mul_sum]
    rw [show ∑ i, (n : ℝ)⁻¹ * ((probs (lin a θ.ofLp) i q.1 - probs (lin a η.ofLp) i q.1) * a i q.2) =
      ∑ i, (n : ℝ)⁻¹ * ((probs (lin a θ.ofLp) i q.1 - S.gt q.1 i) * a i q.2) -
        ∑ i, (n : ℝ)⁻¹ * ((probs (lin a η.ofLp) i q.1 - S.gt q.1 i) * a i q.2) by
      rw [← Finset.sum_sub_distrib]; exact Finset.sum_congr rfl fun i _ => by ring]
    ring
  rw [e]
  have h1 : ‖∑ i, outer (fun k => probs (lin a θ.ofLp) i k - probs (lin a η.ofLp) i k) (a i)‖ ≤
      1 / 2 * (∑ i, ∑ j, a i j ^ 2) * ‖θ - η‖ := by
    refine (norm_sum_le _ _).trans ?_
    rw [Finset.mul_sum, Finset.sum_mul]
    exact Finset.sum_le_sum fun i _ => outer_le a θ η hK i
  have hn' : (0 : ℝ) < n := by exact_mod_cast hn
  refine (norm_add_le _ _).trans ?_
  rw [norm_smul, norm_smul, Real.norm_of_nonneg hlam, Real.norm_of_nonneg (by positivity), add_mul]
  refine add_le_add le_rfl ((mul_le_mul_of_nonneg_left h1 (by positivity)).trans (le_of_eq ?_))
  field_simp

/-- Strong convexity, from general features. -/
theorem loss_strong {S : Softmax K d n} {labels : Fin n → Fin K} (hl : S.Labelled labels)
    (a : Fin n → Fin D → ℝ) :
    StronglyConvex (fun θ : Par K D => S.meanLoss labels a Finset.univ n θ.ofLp)
      (fun θ => WithLp.toLp 2 (S.gradLin a Finset.univ n θ.ofLp)) S.lam := by
  intro θ η
  have h0 := meanLoss_tangent (S := { S with lam := 0 }) hl le_rfl a Finset.univ n (Nat.cast_nonneg n) θ.ofLp η.ofLp
  simp only [meanLoss, gradLin, zero_div, zero_mul, add_zero] at h0
  have e1 : inner ℝ (WithLp.toLp 2 (S.gradLin a Finset.univ n θ.ofLp) : Par K D) (η - θ) =
      ∑ q : Fin K × Fin D, (∑ i, (probs (lin a θ.ofLp) i q.1 - S.gt q.1 i) * a i q.2) / n * (η.ofLp q - θ.ofLp q) +
        S.lam * ∑ q : Fin K × Fin D, θ.ofLp q * (η.ofLp q - θ.ofLp q) := by
    rw [PiLp.inner_apply, Finset.mul_sum, ← Finset.sum_add_distrib]
    refine Finset.sum_congr rfl fun q _ => ?_
    simp [gradLin]
    ring
  have e2 : ‖η - θ‖ ^ 2 = ∑ q : Fin K × Fin D, (η.ofLp q - θ.ofLp q) ^ 2 := by
    rw [EuclideanSpace.norm_sq_eq]; simp
  have e3 : ∑ q : Fin K × Fin D, θ.ofLp q ^ 2 + 2 * ∑ q : Fin K × Fin D, θ.ofLp q * (η.ofLp q - θ.ofLp q) +
      ∑ q : Fin K × Fin D, (η.ofLp q - θ.ofLp q) ^ 2 = ∑ q : Fin K × Fin D, η.ofLp q ^ 2 := by
    rw [Finset.mul_sum, ← Finset.sum_add_distrib, ← Finset.sum_add_distrib]
    exact Finset.sum_congr rfl fun q _ => by ring
  rw [e1, e2]
  simp only [meanLoss]
  have e4 := congrArg (S.lam / 2 * ·) e3
  simp only at e4
  linarith

/-- `Evaluate` and `Gradient` on Euclidean space, without and with intercept. -/
noncomputable def obj (S : Softmax K d n) (θ : Par K d) : ℝ := S.evaluate θ.ofLp
noncomputable def objGrad (S : Softmax K d n) (θ : Par K d) : Par K d := WithLp.toLp 2 (S.gradient θ.ofLp)
noncomputable def objI (S : Softmax K d n) (θ : Par K (d + 1)) : ℝ := S.evaluateI θ.ofLp
noncomputable def objGradI (S : Softmax K d n) (θ : Par K (d + 1)) : Par K (d + 1) := WithLp.toLp 2 (S.gradientI θ.ofLp)

theorem obj_lin {S : Softmax K d n} {labels : Fin n → Fin K} (hl : S.Labelled labels) :
    S.obj = fun θ : Par K d => S.meanLoss labels S.X Finset.univ n θ.ofLp := by
  funext θ; exact cost_eq hl S.X θ.ofLp

theorem objI_lin {S : Softmax K d n} {labels : Fin n → Fin K} (hl : S.Labelled labels) :
    S.objI = fun θ : Par K (d + 1) => S.meanLoss labels (withOne S.X) Finset.univ n θ.ofLp := by
  funext θ; rw [objI, evaluateI, logitsI_lin, cost_eq hl]

theorem objGradI_lin (S : Softmax K d n) :
    S.objGradI = fun θ : Par K (d + 1) => WithLp.toLp 2 (S.gradLin (withOne S.X) Finset.univ n θ.ofLp) := by
  funext θ; rw [objGradI, gradientI_lin]

theorem withOne_sq (X : Fin n → Fin d → ℝ) : ∑ i, ∑ j, withOne X i j ^ 2 = ∑ i, (1 + ∑ j, X i j ^ 2) :=
  Finset.sum_congr rfl fun i _ => by rw [Fin.sum_univ_succ]; simp [withOne]

/-- **C307** On data with labels below the number of classes and `lambda ≥ 0`, the objective of `SoftmaxRegressionFunction` has a
Lipschitz continuous gradient, which is what `Gradient` returns, with the constant `lambda + ∑ ‖x_i‖² / (2 n)` (with an intercept
`1 + ‖x_i‖²` instead of `‖x_i‖²`), and is strongly convex with constant `lambda`. -/
theorem C307_constants {S : Softmax K d n} {labels : Fin n → Fin K} (hl : S.Labelled labels) (hlam : 0 ≤ S.lam) (hn : 0 < n) :
    (LSmooth S.obj S.objGrad (S.lam + (∑ i, ∑ j, S.X i j ^ 2) / (2 * n)) ∧ StronglyConvex S.obj S.objGrad S.lam) ∧
    LSmooth S.objI S.objGradI (S.lam + (∑ i, (1 + ∑ j, S.X i j ^ 2)) / (2 * n)) ∧ StronglyConvex S.objI S.objGradI S.lam := by
  refine ⟨⟨?_, ?_⟩, ?_, ?_⟩
  · rw [obj_lin hl]; exact loss_smooth hl hlam S.X hn
  · rw [obj_lin hl]; exact loss_strong hl S.X
  · rw [objI_lin hl, objGradI_lin, ← withOne_sq]; exact loss_smooth hl hlam (withOne S.X) hn
  · rw [objI_lin hl, objGradI_lin]; exact loss_strong hl (withOne S.X)

theorem cost_nonneg {S : Softmax K d n} {labels : Fin n → Fin K} (hl : S.Labelled labels) (hlam : 0 ≤ S.lam)
    (a : Fin n → Fin D → ℝ) (θ : Fin K × Fin D → ℝ) : 0 ≤ S.meanLoss labels a Finset.univ n θ := by
  unfold meanLoss
  refine add_nonneg (div_nonneg (Finset.sum_nonneg fun i _ => ?_) (Nat.cast_nonneg n))
    (mul_nonneg (by linarith) (Finset.sum_nonneg fun q _ => sq_nonneg _))
  rw [sub_nonneg, ← log_exp (∑ j, θ (labels i, j) * a i j)]
  exact log_le_log (exp_pos _) (Finset.single_le_sum (f := fun l => exp (∑ j, θ (l, j) * a i j))
    (fun l _ => (exp_pos _).le) (Finset.mem_univ (labels i)))

theorem obj_nonneg {S : Softmax K d n} {labels : Fin n → Fin K} (hl : S.Labelled labels) (hlam : 0 ≤ S.lam) :
    (∀ θ, 0 ≤ S.obj θ) ∧ ∀ θ, 0 ≤ S.objI θ := by
  refine ⟨fun θ => ?_, fun θ => ?_⟩
  · rw [obj_lin hl]; exact cost_nonneg hl hlam _ _
  · rw [objI_lin hl]; exact cost_nonneg hl hlam _ _

/-- A strongly convex function with a gradient on a finite-dimensional space has one minimiser. -/
theorem exists_unique_min {ι : Type} [Fintype ι] {f : EuclideanSpace ℝ ι → ℝ} {g : EuclideanSpace ℝ ι → EuclideanSpace ℝ ι} {μ : ℝ}
    (hμ : 0 < μ) (hg : IsGrad f g) (h : StronglyConvex f g μ) :
    ∃ z, g z = 0 ∧ ∀ y, f y ≤ f z → y = z := by
  set R := 2 * ‖g 0‖ / μ with hR
  have hR0 : 0 ≤ R := by positivity
  have hcont : Continuous f := continuous_iff_continuousAt.2 fun x => (hg x).continuousAt
  obtain ⟨z, -, hz⟩ := (isCompact_closedBall (0 : EuclideanSpace ℝ ι) R).exists_isMinOn ⟨0, by simpa using hR0⟩ hcont.continuousOn
  have hmin : ∀ y, f z ≤ f y := by
    intro y
    by_cases hy : y ∈ Metric.closedBall (0 : EuclideanSpace ℝ ι) R
    · exact hz hy
    · have h0 : f z ≤ f 0 := hz (by simpa using hR0)
      have h1 := h 0 y
      rw [sub_zero] at h1
      have h2 : -(‖g 0‖ * ‖y‖) ≤ inner ℝ (g 0) y := (abs_le.1 (abs_real_inner_le_norm _ _)).1
      have h3 : R < ‖y‖ := by simpa using hy
      rw [hR, div_lt_iff₀ hμ] at h3
      have h4 := norm_nonneg y
      nlinarith
  have h0 : g z = 0 := by
    have h2 := (IsLocalMin.hasFDerivAt_eq_zero (Filter.Eventually.of_forall hmin) (hg z))
    have h3 : inner ℝ (g z) (g z) = 0 := by rw [← innerSL_apply_apply ℝ, h2]; rfl
    exact inner_self_eq_zero.1 h3
  refine ⟨z, h0, fun y hy => ?_⟩
  have h1 := h z y
  rw [h0, inner_zero_left] at h1
  have h2 : ‖y - z‖ ^ 2 ≤ 0 := by nlinarith [sq_nonneg ‖y - z‖]
  have h3 : ‖y - z‖ = 0 := by nlinarith [norm_nonneg (y - z)]
  exact sub_eq_zero.1 (norm_eq_zero.1 h3)

/-- **C307** With `lambda > 0` there is exactly one minimiser, and it is the only zero of `Gradient` — whichever classes occur. -/
theorem C307_minimiser {S : Softmax K d n} {labels : Fin n → Fin K} (hl : S.Labelled labels) (hlam : 0 < S.lam) (hn : 0 < n) :
    (∃ z, (∀ η, S.evaluate z ≤ S.evaluate η) ∧ (∀ η, (∀ η', S.evaluate η ≤ S.evaluate η') → η = z) ∧
      ∀ η, S.gradient η = 0 ↔ η = z) ∧
    ∃ z, (∀ η, S.evaluateI z ≤ S.evaluateI η) ∧ (∀ η, (∀ η', S.evaluateI η ≤ S.evaluateI η') → η = z) ∧
      ∀ η, S.gradientI η = 0 ↔ η = z := by
  obtain ⟨⟨h1, h2⟩, h3, h4⟩ := C307_constants hl hlam.le hn
  have hc := C217_convex hl hlam.le
  refine ⟨?_, ?_⟩
  · obtain ⟨z, hz, hu⟩ := exists_unique_min hlam h1.grad h2
    have hz' : S.gradient z.ofLp = 0 := congrArg WithLp.ofLp hz
    have hu' : ∀ η, (∀ η', S.evaluate η ≤ S.evaluate η') → η = z.ofLp := fun η h =>
      congrArg WithLp.ofLp (hu (WithLp.toLp 2 η) (h z.ofLp))
    exact ⟨z.ofLp, hc.2.2.1 _ hz', hu', fun η => ⟨fun h => hu' η (hc.2.2.1 _ h), fun h => h ▸ hz'⟩⟩
  · obtain ⟨z, hz, hu⟩ := exists_unique_min hlam h3.grad h4
    have hz' : S.gradientI z.ofLp = 0 := congrArg WithLp.ofLp hz
    have hu' : ∀ η, (∀ η', S.evaluateI η ≤ S.evaluateI η') → η = z.ofLp := fun η h =>
      congrArg WithLp.ofLp (hu (WithLp.toLp 2 η) (h z.ofLp))
    exact ⟨z.ofLp, hc.2.2.2 _ hz', hu', fun η => ⟨fun h => hu' η (hc.2.2.2 _ h), fun h => h ▸ hz'⟩⟩

/-! ### Gradient descent and L-BFGS -/

/-- **C307** `GradientDescent` with a step size of at most the inverse of the Lipschitz constant: the `k`-th objective evaluated is
that of its parameters and within `(1 - stepSize lambda)^k` times the initial excess of the objective of every `z`; with a positive
tolerance at most `f(x₀) / tolerance + 2` evaluations are made, and a return by the tolerance test leaves an excess of less than
`tolerance / (stepSize lambda)` (unless the very first test against the largest number already succeeds). -/
theorem C307_gd {S : Softmax K d n} {labels : Fin n → Fin K} (hl : S.Labelled labels) (hlam : 0 < S.lam) (hn : 0 < n) {η : ℝ}
    (hη : 0 < η) (hL : (S.lam + (∑ i, ∑ j, S.X i j ^ 2) / (2 * n)) * η ≤ 1) {tol : ℝ} (htol : 0 < tol) (mv : ℝ) (mi fuel : Nat)
    (x : Par K d) {r : Gd.Result Unit (Par K d) ℝ}
    (h : Gd.optimize (Gd.realEnv S.obj S.objGrad η (closeTo tol) mv) mi fuel () x = some r) :
    (∀ (k : Nat) (p : Par K d × ℝ), (Gd.evals r.trace)[k]? = some p → p.2 = S.evaluate p.1.ofLp ∧
      ∀ z : Fin K × Fin d → ℝ, p.2 - S.evaluate z ≤ (1 - η * S.lam) ^ k * (S.evaluate x.ofLp - S.evaluate z)) ∧
    ((Gd.evals r.trace).length : ℝ) ≤ S.evaluate x.ofLp / tol + 2 ∧
    (tol ≤ |mv - S.evaluate x.ofLp| → r.exit = .tol → ∀ z : Fin K × Fin d → ℝ, S.evaluate r.x.ofLp - S.evaluate z < tol / (η * S.lam)) := by
  obtain ⟨⟨h1, h2⟩, -, -⟩ := C307_constants hl hlam.le hn
  have hE := realEnv_exact S.obj S.objGrad η tol mv
  have hA : 0 ≤ (∑ i, ∑ j, S.X i j ^ 2) / (2 * (n : ℝ)) :=
    div_nonneg (Finset.sum_nonneg fun i _ => Finset.sum_nonneg fun j _ => sq_nonneg _) (by positivity)
  refine ⟨fun k p hp => ?_, ?_, fun hfar he z => C257_tolerance hE hlam h2 h1 hη hL hfar h he (WithLp.toLp 2 z)⟩
  · have := fun z : Fin K × Fin d → ℝ => C257_linear hE hlam (by linarith) h2 h1 hη hL h k p hp (WithLp.toLp 2 z)
    exact ⟨(this 0).1, fun z => (this z).2⟩
  · have := C257_evaluations hE h1 hη hL htol (obj_nonneg hl hlam.le).1 h
    rw [sub_zero] at this
    exact this

/-- The same with intercept. -/
theorem C307_gd_intercept {S : Softmax K d n} {labels : Fin n → Fin K} (hl : S.Labelled labels) (hlam : 0 < S.lam) (hn : 0 < n)
    {η : ℝ} (hη : 0 < η) (hL : (S.lam + (∑ i, (1 + ∑ j, S.X i j ^ 2)) / (2 * n)) * η ≤ 1) {tol : ℝ} (htol : 0 < tol) (mv : ℝ)
    (mi fuel : Nat) (x : Par K (d + 1)) {r : Gd.Result Unit (Par K (d + 1)) ℝ}
    (h : Gd.optimize (Gd.realEnv S.objI S.objGradI η (closeTo tol) mv) mi fuel () x = some r) :
    (∀ (k : Nat) (p : Par K (d + 1) × ℝ), (Gd.evals r.trace)[k]? = some p → p.2 = S.evaluateI p.1.ofLp ∧
      ∀ z : Fin K × Fin (d + 1) → ℝ, p.2 - S.evaluateI z ≤ (1 - η * S.lam) ^ k * (S.evaluateI x.ofLp - S.evaluateI z)) ∧
    ((Gd.evals r.trace).length : ℝ) ≤ S.evaluateI x.ofLp / tol + 2 ∧
    (tol ≤ |mv - S.evaluateI x.ofLp| → r.exit = .tol →
      ∀ z : Fin K × Fin (d + 1) → ℝ, S.evaluateI r.x.ofLp - S.evaluateI z < tol / (η * S.lam)) := by
  obtain ⟨-, h1, h2⟩ := C307_constants hl hlam.le hn
  have hE := realEnv_exact S.objI S.objGradI η tol mv
  have hA : 0 ≤ (∑ i, (1 + ∑ j, S.X i j ^ 2)) / (2 * (n : ℝ)) :=
    div_nonneg (Finset.sum_nonneg fun i _ => add_nonneg zero_le_one (Finset.sum_nonneg fun j _ => sq_nonneg _)) (by positivity)
  refine ⟨fun k p hp => ?_, ?_, fun hfar he z => C257_tolerance hE hlam h2 h1 hη hL hfar h he (WithLp.toLp 2 z)⟩
  · have := fun z : Fin K × Fin (d + 1) → ℝ => C257_linear hE hlam (by linarith) h2 h1 hη hL h k p hp (WithLp.toLp 2 z)
    exact ⟨(this 0).1, fun z => (this z).2⟩
  · have := C257_evaluations hE h1 hη hL htol (obj_nonneg hl hlam.le).2 h
    rw [sub_zero] at this
    exact this

/-- **C307** When `L_BFGS` stops because the norm of the gradient - as computed by `arma::norm` on the `K × d` parameter matrix - is smaller
than `minGradientNorm`, the parameters returned are within `min(K, d) * minGradientNorm² / (2 lambda)` of the smallest objective and within
`√min(K, d) * minGradientNorm / lambda` of the parameters with zero gradient; without and with intercept (then with `d + 1` for `d`),
whatever the callbacks (that leave the parameters and the gradient alone) and the settings. -/
theorem C307_lbfgs {W : Type} {S : Softmax K d n} {labels : Fin n → Fin K} (hl : S.Labelled labels) (hlam : 0 < S.lam)
    (hn : 0 < n) (c : LbfgsCfg) (hfactr : 0 ≤ c.factr) :
    (∀ (u : LbfgsCb W (Par K d)) (mem : (Nat → Par K d) × (Nat → Par K d)) (t0 : Bool) (fuel : Nat) (w : W) (x : Par K d)
      (r : LSt W (Par K d)), S.evaluate x.ofLp < c.maxVal →
      Lbfgs.optimize (Shape.lbfgsMat c S.obj S.objGrad u) mem t0 fuel w x = some (.gradient, r) →
      (∀ z, S.evaluate r.x.ofLp ≤ S.evaluate z + (min K d : Nat) * c.minGradientNorm ^ 2 / (2 * S.lam)) ∧
        ∀ z, S.gradient z = 0 → ‖r.x - WithLp.toLp 2 z‖ ≤ √(min K d : Nat) * c.minGradientNorm / S.lam) ∧
    ∀ (u : LbfgsCb W (Par K (d + 1))) (mem : (Nat → Par K (d + 1)) × (Nat → Par K (d + 1))) (t0 : Bool) (fuel : Nat) (w : W)
      (x : Par K (d + 1)) (r : LSt W (Par K (d + 1))), S.evaluateI x.ofLp < c.maxVal →
      Lbfgs.optimize (Shape.lbfgsMat c S.objI S.objGradI u) mem t0 fuel w x = some (.gradient, r) →
      (∀ z, S.evaluateI r.x.ofLp ≤ S.evaluateI z + (min K (d + 1) : Nat) * c.minGradientNorm ^ 2 / (2 * S.lam)) ∧
        ∀ z, S.gradientI z = 0 → ‖r.x - WithLp.toLp 2 z‖ ≤ √(min K (d + 1) : Nat) * c.minGradientNorm / S.lam := by
  obtain ⟨⟨-, h2⟩, -, h4⟩ := C307_constants hl hlam.le hn
  refine ⟨fun u mem t0 fuel w x r hx h => ?_, fun u mem t0 fuel w x r hx h => ?_⟩
  · obtain ⟨ha, hb⟩ := Shape.C308_lbfgs_stop_partial hlam h2 hfactr hx h
    exact ⟨fun z => ha (WithLp.toLp 2 z), fun z hz => hb (WithLp.toLp 2 z) (congrArg (WithLp.toLp 2) hz)⟩
  · obtain ⟨ha, hb⟩ := Shape.C308_lbfgs_stop_partial hlam h4 hfactr hx h
    exact ⟨fun z => ha (WithLp.toLp 2 z), fun z hz => hb (WithLp.toLp 2 z) (congrArg (WithLp.toLp 2) hz)⟩

/-! ### Coordinate descent -/

/-- The columns of the parameter matrix: one per feature, with one entry per class. -/
abbrev ColPar (K d : Nat) := Cols d (EuclideanSpace ℝ (Fin K))

/-- From columns to the matrix. -/
noncomputable def flat (y : ColPar K d) : Par K d := WithLp.toLp 2 fun q => (y q.2).ofLp q.1

/-- From the matrix to columns. -/
noncomputable def cols (θ : Par K d) : ColPar K d := WithLp.toLp 2 fun j => WithLp.toLp 2 fun k => θ.ofLp (k, j)

theorem inner_flat (y z : ColPar K d) : inner ℝ (flat y) (flat z) = inner ℝ y z := by
  rw [PiLp.inner_apply, PiLp.inner_apply, Fintype.sum_prod_type_right]
  exact Finset.sum_congr rfl fun j _ => by rw [PiLp.inner_apply]; rfl

theorem flat_cols (θ : Par K d) : flat (cols θ) = θ := rfl

theorem flat_sub (y z : ColPar K d) : flat (y - z) = flat y - flat z := rfl

theorem norm_flat (y : ColPar K d) : ‖flat y‖ = ‖y‖ := by
  have h := inner_flat y y
  rw [real_inner_self_eq_norm_sq, real_inner_self_eq_norm_sq] at h
  exact (sq_eq_sq₀ (norm_nonneg _) (norm_nonneg _)).1 h

/-- `flat` as a continuous linear map. -/
noncomputable def flatL : ColPar K d →L[ℝ] Par K d :=
  LinearMap.mkContinuous ⟨⟨flat, fun _ _ => rfl⟩, fun _ _ => rfl⟩ 1 fun y => by
    rw [one_mul]; exact (norm_flat y).le

/-- The objective and its gradient by columns. -/
noncomputable def colObj (S : Softmax K d n) (y : ColPar K d) : ℝ := S.evaluate (flat y).ofLp
noncomputable def colGrad (S : Softmax K d n) (y : ColPar K d) : ColPar K d := cols (S.objGrad (flat y))

theorem col_smooth {S : Softmax K d n} {L : ℝ} (h : LSmooth S.obj S.objGrad L) : LSmooth S.colObj S.colGrad L := by
  refine ⟨fun y => ?_, fun y z => ?_⟩
  · have h1 : HasFDerivAt (flat : ColPar K d → Par K d) flatL y := flatL.hasFDerivAt
    refine ((h.grad (flat y)).comp y h1).congr_fderiv ?_
    ext v
    change inner ℝ (S.objGrad (flat y)) (flat v) = inner ℝ (cols (S.objGrad (flat y))) v
    rw [← inner_flat (cols _) v, flat_cols]
  · rw [← norm_flat (S.colGrad y - S.colGrad z), ← norm_flat (y - z), flat_sub, flat_sub]
    exact h.lip (flat y) (flat z)

/-- **C307** Coordinate descent (`CyclicDescent`, no intercept, callbacks that do nothing, no stop by the tolerance) with a step size
below `2 / L`, `L = lambda + ∑ ‖x_i‖² / (2 n)`, and any source of partial gradients that answers as `PartialGradient` does: the excess
over the smallest objective shrinks by a constant factor in every round over the features. -/
theorem C307_cd {W E : Type} {S : Softmax K d n} {labels : Fin n → Fin K} (hl : S.Labelled labels) (hlam : 0 < S.lam) (hn : 0 < n)
    (hd : 0 < d) {α L : ℝ} (hL : S.lam + (∑ i, ∑ j, S.X i j ^ 2) / (2 * n) = L) (hα : 0 < α) (hα2 : α * L < 2)
    {env : Cd.Env W (EuclideanSpace ℝ (Fin K)) E} {pick : Nat → ColPar K d → Fin d}
    (hp : ∀ i y, Cd.cyclic i d = some (pick i y : Nat)) (hq : QuietCd env S.colGrad α pick) {R u fuel : Nat}
    (hR : R * d + 1 < 2 ^ 64) (hu : 0 < u) {w : W} {x : List (EuclideanSpace ℝ (Fin K))} (hx : x.length = d)
    {r : Cd.Result W (EuclideanSpace ℝ (Fin K)) E} (h : Cd.optimize env (R * d + 1) u fuel w x = some (.returned r))
    (z : Fin K × Fin d → ℝ) (hz : ∀ η, S.evaluate z ≤ S.evaluate η) :
    S.evaluate (flat (ofList r.x)).ofLp - S.evaluate z ≤
      (1 - 2 * S.lam * (α * (1 - L * α / 2)) / (d ^ 2 * (1 + L * α) ^ 2)) ^ R * (S.evaluate (flat (ofList x)).ofLp - S.evaluate z) ∧
    0 < 2 * S.lam * (α * (1 - L * α / 2)) / (d ^ 2 * (1 + L * α) ^ 2) := by
  obtain ⟨⟨h1, h2⟩, -, -⟩ := C307_constants hl hlam.le hn
  rw [hL] at h1
  have hA : 0 ≤ (∑ i, ∑ j, S.X i j ^ 2) / (2 * (n : ℝ)) :=
    div_nonneg (Finset.sum_nonneg fun i _ => Finset.sum_nonneg fun j _ => sq_nonneg _) (by positivity)
  have hlL : S.lam ≤ L := by linarith
  have hL0 : 0 < L := hlam.trans_le hlL
  have hd1 : (1 : ℝ) ≤ d := by exact_mod_cast hd
  have hpos : 0 < 1 - L * α / 2 := by linarith [mul_comm α L]
  refine ⟨?_, by positivity⟩
  refine C252_linear (f := S.colObj) (b := S.evaluate z) (col_smooth h1) hL0.le hα hα2 (mu := S.lam) (fun y => ?_) hd ?_ hp hq hR hu hx h
  · have := h2.gap hlam (flat y) (WithLp.toLp 2 z)
    rw [le_div_iff₀ (by positivity)] at this
    rw [← norm_flat (S.colGrad y)]
    have e : flat (S.colGrad y) = S.objGrad (flat y) := rfl
    rw [e]
    have e2 : S.obj (flat y) - S.obj (WithLp.toLp 2 z) = S.colObj y - S.evaluate z := rfl
    rw [e2] at this
    linarith
  · rw [sub_nonneg, div_le_one (by positivity)]
    have hsq : (1 : ℝ) ≤ d ^ 2 := one_le_pow₀ hd1
    have h3 : 2 * S.lam * (α * (1 - L * α / 2)) ≤ 1 * (1 + L * α) ^ 2 := by
      have : S.lam * α ≤ L * α := mul_le_mul_of_nonneg_right hlL hα.le
      have h4 : 0 < L * α := by positivity
      nlinarith
    exact h3.trans (mul_le_mul_of_nonneg_right hsq (sq_nonneg _))

/-- `CD` on the class, without intercept and with `tolerance = 0`, callbacks that do nothing: the answers of `PartialGradient` and
`Evaluate` (softmax_regression_function_impl.hpp:186-220, 308-340), the update of cd_impl.hpp:87. -/
noncomputable def softCd (S : Softmax K d n) (α : ℝ) (pick : Nat → ColPar K d → Fin d) : Cd.Env Unit (EuclideanSpace ℝ (Fin K)) ℝ where
  feature := fun _ i x => ((), pick i (ofList x))
  partialGrad := fun _ x j => ((), if h : j < d then
    List.ofFn fun i : Fin d => WithLp.toLp 2 fun k => S.partialGradient (flat (ofList x)).ofLp ⟨j, h⟩ (k, i) else [])
  cbGradient := fun _ _ _ G => ((), G, false)
  cbStep := fun _ x => ((), x, false)
  evaluate := fun _ x => ((), S.evaluate (flat (ofList x)).ofLp)
  cbEvaluate := fun _ _ _ => ((), false)
  cbBegin := fun _ x => ((), x)
  cbEnd := fun _ x => ((), x)
  moveCol := fun c g => c - α • g
  zero := 0
  maxVal := 0
  isBad := fun _ => false
  isClose := fun _ _ => false

theorem softCd_quiet (S : Softmax K d n) (α : ℝ) (pick : Nat → ColPar K d → Fin d) :
    QuietCd (S.softCd α pick) S.colGrad α pick where
  feature := fun _ _ _ => rfl
  grad := fun _ x j _ => by
    have : j.val < d := j.isLt
    simp only [softCd, this, dif_pos, List.getElem?_ofFn, Fin.eta, C219_no_intercept_partial, if_true]
    rfl
  move := fun _ _ => rfl
  cbGradient := fun _ _ _ _ => rfl
  cbStep := fun _ _ => rfl
  cbBegin := fun _ _ => rfl
  cbEvaluate := fun _ _ _ => rfl
  finite := fun _ => rfl
  tol := fun _ _ => rfl

/-! ### Concrete cases: two points, two classes, two features, `lambda = 1` -/

theorem square_lip : square.lam + (∑ i, ∑ j, square.X i j ^ 2) / (2 * (2 : Nat)) = 5 / 2 := by
  norm_num [square, Fin.sum_univ_two]

/-- Gradient descent with step size `2 / 5`. -/
example : ∃ fuel r, Gd.optimize (Gd.realEnv square.obj square.objGrad (2 / 5) (closeTo (1 / 10)) 1000) 100 fuel () 0 = some r ∧
    ((Gd.evals r.trace).length : ℝ) ≤ square.evaluate (0 : Par 2 2).ofLp / (1 / 10) + 2 := by
  obtain ⟨r, hr⟩ := Gd.C14_gd_terminates (maxIterations := 100)
    (Gd.realEnv square.obj square.objGrad (2 / 5) (closeTo (1 / 10)) 1000) (by norm_num) () 0
  refine ⟨_, r, hr, (C307_gd (S := square) (labels := id) rfl (by norm_num [square]) (by norm_num) (by norm_num) ?_ (by norm_num) 1000 100 _ 0 hr).2.1⟩
  rw [square_lip]; norm_num

/-- Five rounds of cyclic coordinate descent with step size `2 / 5`. -/
example (z : Fin 2 × Fin 2 → ℝ) (hz : ∀ η, square.evaluate z ≤ square.evaluate η) :
    ∃ fuel r, Cd.optimize (square.softCd (2 / 5) fun i _ => ⟨i % 2, Nat.mod_lt _ two_pos⟩) (5 * 2 + 1) 1 fuel () [0, 0] =
        some (.returned r) ∧
      square.evaluate (flat (ofList r.x)).ofLp - square.evaluate z ≤
        (39 / 40) ^ 5 * (square.evaluate (flat (ofList [0, 0])).ofLp - square.evaluate z) := by
  have hq := square.softCd_quiet (2 / 5) fun i _ => ⟨i % 2, Nat.mod_lt _ two_pos⟩
  obtain ⟨o, ho⟩ : ∃ o, Cd.optimize (square.softCd (2 / 5) fun i _ => ⟨i % 2, Nat.mod_lt _ two_pos⟩) (5 * 2 + 1) 1 100 () [0, 0] =
    some o := ⟨_, rfl⟩
  obtain ⟨r, rfl, -⟩ := C252_textbook hq (by norm_num) one_pos rfl ho
  refine ⟨100, r, ho, ?_⟩
  have h := (C307_cd (S := square) (labels := id) rfl (by norm_num [square]) (by norm_num) (by norm_num) square_lip (by norm_num) (by norm_num)
    (fun _ _ => rfl) hq (by norm_num) one_pos rfl ho z hz).1
  norm_num [square] at h ⊢
  exact h

theorem square_start : ‖square.objGrad 0‖ = 1 / 2 := by
  have h : ‖square.objGrad 0‖ ^ 2 = (1 / 2) ^ 2 := by
    rw [EuclideanSpace.norm_sq_eq, Fintype.sum_prod_type]
    simp only [Fin.sum_univ_two, objGrad, gradient, probs, logits, square, groundTruth]
    norm_num
  exact (sq_eq_sq₀ (norm_nonneg _) (by norm_num)).1 h

/-- L-BFGS with `minGradientNorm = 1` from zero, where the gradient has length 1/2: the excess is at most 1. -/
example : ∃ r, Lbfgs.optimize (Shape.lbfgsMat { lbfgsDefault with minGradientNorm := 1 } square.obj square.objGrad
      Shape.quiet) (fun _ => 0, fun _ => 0) false 1 () 0 =
        some (.gradient, r) ∧ ∀ z, square.evaluate r.x.ofLp ≤ square.evaluate z + (min 2 2 : Nat) * 1 ^ 2 / (2 * square.lam) := by
  have hrun : ∃ r, Lbfgs.optimize (Shape.lbfgsMat { lbfgsDefault with minGradientNorm := 1 } square.obj square.objGrad
      Shape.quiet) (fun _ => 0, fun _ => 0) false 1 () 0 = some (.gradient, r) := by
    have hs : (Shape.lbfgsMat { lbfgsDefault with minGradientNorm := 1 } square.obj square.objGrad
        Shape.quiet).gradSmall (square.objGrad 0) = true := by
      refine decide_eq_true (((Shape.armaNorm_le _).trans (le_of_eq (Shape.fro_matOf _))).trans_lt ?_)
      rw [square_start]; norm_num
    unfold Lbfgs.optimize
    rw [iterate, Lbfgs.step, if_neg (by simp [Shape.lbfgsMat, lbfgsEnv, lbfgsDefault, Lbfgs.start, Shape.quiet])]
    simp only
    rw [if_pos (by exact hs)]
    exact ⟨_, rfl⟩
  obtain ⟨r, hr⟩ := hrun
  refine ⟨r, hr, ((C307_lbfgs (S := square) (labels := id) rfl (by norm_num [square]) (by norm_num) _ (by norm_num [lbfgsDefault])).1
    _ _ _ _ _ _ r ?_ hr).1⟩
  have hlog : log 2 ≤ 2 := (log_le_sub_one_of_pos two_pos).trans (by norm_num)
  have : square.evaluate (0 : Par 2 2).ofLp = log 2 := by
    simp only [evaluate, cost, Fin.sum_univ_two, probs, logits, square, groundTruth, Fintype.sum_prod_type]
    norm_num
    rw [log_div one_ne_zero two_ne_zero, log_one]; ring
  rw [this]
  have h300 : (10 : ℝ) ^ 1 ≤ 10 ^ 300 := pow_le_pow_right₀ (by norm_num) (by norm_num)
  change log 2 < (10 : ℝ) ^ 300
  exact hlog.trans_lt ((by norm_num : (2 : ℝ) < 10 ^ 1).trans_le h300)

/-- There is such a `z`, and only one. -/
example : ∃ z, (∀ η, square.evaluate z ≤ square.evaluate η) ∧ ∀ η, square.gradient η = 0 ↔ η = z := by
  obtain ⟨⟨z, h1, -, h3⟩, -⟩ := C307_minimiser (S := square) (labels := id) rfl (by norm_num [square]) (by norm_num)
  exact ⟨z, h1, h3⟩

end Ens.Problems.Softmax
