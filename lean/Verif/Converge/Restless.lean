import Mathlib.Analysis.SpecificLimits.Normed
import Verif.Converge.Base

/-
C320: with a constant step size, the results of longer and longer runs of SGD converge only to a point where the gradients
of all functions vanish.

doc/optimizers.md calls AMSGrad "a variant of Adam with guaranteed convergence".  The class `AMSGrad` has a constant
step size (`NoDecay`), so like the other methods it keeps moving unless every single gradient tends to zero.
-/

namespace Ens.Converge

open Ens.Sgd Ens.Update Filter Topology

variable {R V E U M G : Type} {d : Nat}

/-- A sequence of updates with step size `a`: states `s`, coordinates `x`, gradients `g`. -/
structure Path (P : Policy R) (a : ℝ) (s : Nat → R) (x g : Nat → ℝ) : Prop where
  init : s 0 = P.init
  state : ∀ t, s (t + 1) = (P.update (s t) a (g t) (x t)).1
  coord : ∀ t, x (t + 1) = (P.update (s t) a (g t) (x t)).2

/-- When the steps become short, then because the gradients do. -/
def Restless (P : Policy R) (a : ℝ) : Prop :=
  ∀ (s : Nat → R) (x g : Nat → ℝ), Path P a s x g → (∃ B, ∀ t, |g t| ≤ B) →
    Tendsto (fun t => x (t + 1) - x t) atTop (𝓝 0) → Tendsto g atTop (𝓝 0)

theorem to_zero {u v : Nat → ℝ} {κ : ℝ} (hκ : 0 < κ) (h : ∀ t, κ * |u t| ≤ |v t|) (hv : Tendsto v atTop (𝓝 0)) :
    Tendsto u atTop (𝓝 0) := by
  have hv' := (tendsto_zero_iff_abs_tendsto_zero v).1 hv
  refine (tendsto_zero_iff_abs_tendsto_zero u).2 (squeeze_zero (fun t => abs_nonneg _) (g := fun t => κ⁻¹ * |v t|) (fun t => ?_) ?_)
  · show |u t| ≤ κ⁻¹ * |v t|
    rw [inv_mul_eq_div, le_div_iff₀ hκ, mul_comm]; exact h t
  · simpa using hv'.const_mul κ⁻¹

theorem restless_of_direct {P : Policy R} {a : ℝ}
    (h : ∀ (s : Nat → R) (x g : Nat → ℝ), Path P a s x g → ∀ B, 0 ≤ B → (∀ t, |g t| ≤ B) →
      ∃ κ > 0, ∀ t, κ * |g t| ≤ |x (t + 1) - x t|) : Restless P a := by
  intro s x g hp ⟨B, hB⟩ hx
  obtain ⟨κ, hκ, hk⟩ := h s x g hp B ((abs_nonneg _).trans (hB 0)) hB
  exact to_zero hκ hk hx

theorem restless_of_moment {P : Policy R} {a β : ℝ} (hβ' : β < 1) (m : R → ℝ)
    (hm : ∀ s g x, m (P.update s a g x).1 = m s * β + (1 - β) * g)
    (h : ∀ (s : Nat → R) (x g : Nat → ℝ), Path P a s x g → ∀ B, 0 ≤ B → (∀ t, |g t| ≤ B) →
      ∃ κ > 0, ∀ t, κ * |m (s (t + 1))| ≤ |x (t + 1) - x t|) : Restless P a := by
  intro s x g hp ⟨B, hB⟩ hx
  obtain ⟨κ, hκ, hk⟩ := h s x g hp B ((abs_nonneg _).trans (hB 0)) hB
  have h1 : Tendsto (fun t => m (s (t + 1))) atTop (𝓝 0) := to_zero hκ hk hx
  have h0 : Tendsto (fun t => m (s t)) atTop (𝓝 0) := (tendsto_add_atTop_iff_nat 1).1 h1
  have hg : ∀ t, g t = (m (s (t + 1)) - m (s t) * β) / (1 - β) := by
    intro t
    rw [hp.state, hm]
    have : (1 - β) ≠ 0 := by linarith
    field_simp
    ring
  have := (h1.sub (h0.mul_const β)).div_const (1 - β)
  simp only [zero_mul, sub_zero, zero_div] at this
  exact this.congr fun t => (hg t).symm

/-- An exponential average of squares stays below the largest square. -/
theorem ema_le {q c v B : ℝ} (hq : 0 ≤ q) (hq' : q < 1) (hv : v ≤ B) (hc : c ≤ B) : v * q + (1 - q) * c ≤ B := by
  nlinarith

theorem sq_le_of_abs {g B : ℝ} (h : |g| ≤ B) : g * g ≤ B ^ 2 := by
  nlinarith [abs_mul_abs_self g, abs_nonneg g]

theorem step_of_quot {c D m κ : ℝ} (hD : 0 < D) (hc : 0 ≤ κ) (h : κ * D ≤ c) (y : ℝ) : κ * |m| ≤ |y - c * m / D - y| := by
  have h0 : 0 ≤ c := le_trans (by positivity) h
  have e : y - c * m / D - y = -(c / D * m) := by ring
  rw [e, abs_neg, abs_mul, abs_of_nonneg (div_nonneg h0 hD.le)]
  gcongr
  rwa [le_div_iff₀ hD]

theorem restless_vanilla {a : ℝ} (ha : 0 < a) : Restless vanilla a := by
  refine restless_of_direct fun s x g hp B _ _ => ⟨a, ha, fun t => ?_⟩
  rw [hp.coord t]
  show a * |g t| ≤ |x t - a * g t - x t|
  have : x t - a * g t - x t = -(a * g t) := by ring
  rw [this, abs_neg, abs_mul, abs_of_pos ha]

theorem restless_momentum {a : ℝ} (ha : 0 < a) (mu : ℝ) : Restless (momentum mu) a := by
  intro s x g hp _ hx
  have h1 : Tendsto (fun t => s (t + 1)) atTop (𝓝 0) := by
    refine hx.congr fun t => ?_
    rw [hp.coord t, hp.state t]
    simp [momentum]
  have h0 : Tendsto s atTop (𝓝 0) := (tendsto_add_atTop_iff_nat 1).1 h1
  have := ((h0.const_mul mu).sub h1).div_const a
  simp only [mul_zero, sub_zero, zero_div] at this
  refine this.congr fun t => ?_
  rw [hp.state t]
  simp only [momentum]
  field_simp
  ring

theorem restless_rmsProp {a al eps : ℝ} (ha : 0 < a) (h : 0 ≤ al) (h' : al < 1) (he : 0 < eps) : Restless (rmsProp al eps) a := by
  refine restless_of_direct fun s x g hp B hB hg => ⟨a / (B + eps), by positivity, fun t => ?_⟩
  have hs : ∀ t, s t ≤ B ^ 2 := by
    intro t
    induction t with
    | zero => rw [hp.init]; exact sq_nonneg B
    | succ t ih => rw [hp.state]; exact ema_le h h' ih (sq_le_of_abs (hg t))
  have hv := hs (t + 1)
  rw [hp.state] at hv
  rw [hp.coord t]
  have hq : √(s t * al + (1 - al) * (g t * g t)) ≤ B := Real.sqrt_le_iff.2 ⟨hB, hv⟩
  have := Real.sqrt_nonneg (s t * al + (1 - al) * (g t * g t))
  exact step_of_quot (by linarith) (by positivity) (by rw [div_mul_eq_mul_div, div_le_iff₀ (by linarith)]; gcongr) _

theorem restless_adaDelta {a rho eps : ℝ} (ha : 0 < a) (h : 0 ≤ rho) (h' : rho < 1) (he : 0 < eps) :
    Restless (adaDelta rho eps) a := by
  refine restless_of_direct fun s x g hp B hB hg => ⟨a * √(eps / (B ^ 2 + eps)), by positivity, fun t => ?_⟩
  have hs : ∀ t, 0 ≤ (s t).1 ∧ (s t).1 ≤ B ^ 2 ∧ 0 ≤ (s t).2 := by
    intro t
    induction t with
    | zero => rw [hp.init]; exact ⟨le_rfl, sq_nonneg B, le_rfl⟩
    | succ t ih =>
      rw [hp.state]
      have : 0 ≤ 1 - rho := by linarith
      obtain ⟨i1, i2, i3⟩ := ih
      refine ⟨?_, ema_le h h' i2 (sq_le_of_abs (hg t)), ?_⟩
      · show 0 ≤ (s t).1 * rho + (1 - rho) * (g t * g t)
        have := mul_self_nonneg (g t); positivity
      · show 0 ≤ (s t).2 * rho + (1 - rho) * (_ * _)
        exact add_nonneg (mul_nonneg i3 h) (mul_nonneg this (mul_self_nonneg _))
  obtain ⟨h1, h2, _⟩ := hs (t + 1)
  obtain ⟨_, _, h3⟩ := hs t
  rw [hp.state] at h1 h2
  rw [hp.coord t]
  show _ ≤ |x t - a * (√(((s t).2 + eps) / ((s t).1 * rho + (1 - rho) * (g t * g t) + eps)) * g t) - x t|
  have h1' : 0 ≤ (s t).1 * rho + (1 - rho) * (g t * g t) := h1
  have h2' : (s t).1 * rho + (1 - rho) * (g t * g t) ≤ B ^ 2 := h2
  generalize (s t).1 * rho + (1 - rho) * (g t * g t) = q at h1' h2'
  have e : x t - a * (√(((s t).2 + eps) / (q + eps)) * g t) - x t = -(a * √(((s t).2 + eps) / (q + eps)) * g t) := by ring
  rw [e, abs_neg, abs_mul, abs_of_nonneg (mul_nonneg ha.le (Real.sqrt_nonneg _))]
  refine mul_le_mul_of_nonneg_right (mul_le_mul_of_nonneg_left (Real.sqrt_le_sqrt ?_) ha.le) (abs_nonneg _)
  exact div_le_div₀ (by linarith) (by linarith) (by linarith) (by linarith)

/-- Correction of the bias. -/
theorem corr_ge {b1 b2 : ℝ} (h1 : 0 ≤ b1) (h1' : b1 < 1) (h2 : 0 ≤ b2) (h2' : b2 < 1) (t : Nat) :
    √(1 - b2) ≤ √(1 - b2 ^ (t + 1)) / (1 - b1 ^ (t + 1)) := by
  have p1 : b1 ^ (t + 1) < 1 := pow_lt_one₀ h1 h1' (by omega)
  have p1' : 0 ≤ b1 ^ (t + 1) := by positivity
  have p2 : b2 ^ (t + 1) ≤ b2 := pow_le_of_le_one h2 h2'.le (by omega)
  rw [le_div_iff₀ (by linarith)]
  calc √(1 - b2) * (1 - b1 ^ (t + 1)) ≤ √(1 - b2) * 1 := by gcongr; linarith
    _ = √(1 - b2) := mul_one _
    _ ≤ _ := Real.sqrt_le_sqrt (by linarith)

theorem restless_adam {a : ℝ} {b : Betas} (ha : 0 < a) (h1 : 0 ≤ b.b1) (h1' : b.b1 < 1) (h2 : 0 ≤ b.b2) (h2' : b.b2 < 1)
    (he : 0 < b.eps) : Restless (adam b) a := by
  have hq : 0 < √(1 - b.b2) := Real.sqrt_pos.2 (by linarith)
  refine restless_of_moment h1' Mom.m (fun _ _ _ => rfl) fun s x g hp B hB hg => ⟨a * √(1 - b.b2) / (B + b.eps), by positivity, fun t => ?_⟩
  have hs : ∀ t, (s t).v ≤ B ^ 2 ∧ (s t).t = t := by
    intro t
    induction t with
    | zero => rw [hp.init]; exact ⟨sq_nonneg B, rfl⟩
    | succ t ih => rw [hp.state]; exact ⟨ema_le h2 h2' ih.1 (sq_le_of_abs (hg t)), congrArg (· + 1) ih.2⟩
  have hv := (hs (t + 1)).1
  have ht := (hs t).2
  rw [hp.state] at hv
  rw [hp.coord t, hp.state t]
  simp only [adam] at hv ⊢
  rw [ht]
  generalize (s t).v * b.b2 + (1 - b.b2) * (g t * g t) = v at hv
  have hsq : √v ≤ B := Real.sqrt_le_iff.2 ⟨hB, hv⟩
  have := Real.sqrt_nonneg v
  have hc := corr_ge h1 h1' h2 h2' t
  have hc0 := mul_nonneg ha.le (hq.le.trans hc)
  refine step_of_quot (by linarith) (by positivity) ?_ _
  rw [div_mul_eq_mul_div, div_le_iff₀ (by linarith), mul_div_assoc a]
  gcongr

theorem restless_amsGrad {a : ℝ} {b : Betas} (ha : 0 < a) (h1 : 0 ≤ b.b1) (h1' : b.b1 < 1) (h2 : 0 ≤ b.b2) (h2' : b.b2 < 1)
    (he : 0 < b.eps) : Restless (amsGrad b) a := by
  have hq : 0 < √(1 - b.b2) := Real.sqrt_pos.2 (by linarith)
  refine restless_of_moment h1' MomMax.m (fun _ _ _ => rfl) fun s x g hp B hB hg => ⟨a * √(1 - b.b2) / (B + b.eps), by positivity, fun t => ?_⟩
  have hs : ∀ t, (s t).v ≤ B ^ 2 ∧ (s t).vi ≤ B ^ 2 ∧ (s t).t = t := by
    intro t
    induction t with
    | zero => rw [hp.init]; exact ⟨sq_nonneg B, sq_nonneg B, rfl⟩
    | succ t ih =>
      rw [hp.state]
      have := ema_le h2 h2' ih.1 (sq_le_of_abs (hg t))
      exact ⟨this, max_le ih.2.1 this, congrArg (· + 1) ih.2.2⟩
  have hv := (hs (t + 1)).2.1
  have ht := (hs t).2.2
  rw [hp.state] at hv
  rw [hp.coord t, hp.state t]
  simp only [amsGrad] at hv ⊢
  rw [ht]
  generalize max (s t).vi ((s t).v * b.b2 + (1 - b.b2) * (g t * g t)) = v at hv
  have hsq : √v ≤ B := Real.sqrt_le_iff.2 ⟨hB, hv⟩
  have := Real.sqrt_nonneg v
  have hc := corr_ge h1 h1' h2 h2' t
  have hc0 := mul_nonneg ha.le (hq.le.trans hc)
  refine step_of_quot (by linarith) (by positivity) ?_ _
  rw [div_mul_eq_mul_div, div_le_iff₀ (by linarith), mul_div_assoc a]
  gcongr

theorem restless_padam {a q : ℝ} {b : Betas} (ha : 0 < a) (hq0 : 0 ≤ q) (h1 : 0 ≤ b.b1) (h1' : b.b1 < 1) (h2 : 0 ≤ b.b2)
    (h2' : b.b2 < 1) (he : 0 < b.eps) : Restless (padam b q) a := by
  have hq : 0 < √(1 - b.b2) := Real.sqrt_pos.2 (by linarith)
  refine restless_of_moment h1' MomMax.m (fun _ _ _ => rfl) fun s x g hp B hB hg =>
    ⟨a * √(1 - b.b2) / (B ^ 2 + b.eps) ^ q, by have := Real.rpow_pos_of_pos (show 0 < B ^ 2 + b.eps by positivity) q; positivity, fun t => ?_⟩
  have hs : ∀ t, (s t).v ≤ B ^ 2 ∧ (0 ≤ (s t).vi ∧ (s t).vi ≤ B ^ 2) ∧ (s t).t = t := by
    intro t
    induction t with
    | zero => rw [hp.init]; exact ⟨sq_nonneg B, ⟨le_rfl, sq_nonneg B⟩, rfl⟩
    | succ t ih =>
      rw [hp.state]
      have := ema_le h2 h2' ih.1 (sq_le_of_abs (hg t))
      exact ⟨this, ⟨le_max_of_le_left ih.2.1.1, max_le ih.2.1.2 this⟩, congrArg (· + 1) ih.2.2⟩
  have hv := (hs (t + 1)).2.1
  have ht := (hs t).2.2
  rw [hp.state] at hv
  rw [hp.coord t, hp.state t]
  simp only [padam] at hv ⊢
  rw [ht]
  generalize max (s t).vi ((s t).v * b.b2 + (1 - b.b2) * (g t * g t)) = v at hv
  have hp1 : 0 < (v + b.eps) ^ q := Real.rpow_pos_of_pos (by linarith [hv.1]) q
  have hp2 : (v + b.eps) ^ q ≤ (B ^ 2 + b.eps) ^ q := Real.rpow_le_rpow (by linarith [hv.1]) (by linarith [hv.2]) hq0
  have hc := corr_ge h1 h1' h2 h2' t
  have hc0 := mul_nonneg ha.le (hq.le.trans hc)
  refine step_of_quot hp1 (by have := hp1.trans_le hp2; positivity) ?_ _
  rw [div_mul_eq_mul_div, div_le_iff₀ (hp1.trans_le hp2), mul_div_assoc a]
  gcongr

theorem restless_adaMax {a : ℝ} {b : Betas} (ha : 0 < a) (h1 : 0 ≤ b.b1) (h1' : b.b1 < 1) (h2 : 0 ≤ b.b2) (h2' : b.b2 < 1)
    (he : 0 < b.eps) : Restless (adaMax b) a := by
  refine restless_of_moment h1' Mom.m (fun _ _ _ => rfl) fun s x g hp B hB hg => ⟨a / (B + b.eps), by positivity, fun t => ?_⟩
  have hs : ∀ t, (0 ≤ (s t).v ∧ (s t).v ≤ B) ∧ (s t).t = t := by
    intro t
    induction t with
    | zero => rw [hp.init]; exact ⟨⟨le_rfl, hB⟩, rfl⟩
    | succ t ih =>
      rw [hp.state]
      refine ⟨⟨le_max_of_le_right (abs_nonneg _), max_le ?_ (hg t)⟩, congrArg (· + 1) ih.2⟩
      exact le_trans (mul_le_of_le_one_right ih.1.1 h2'.le) ih.1.2
  have hv := (hs (t + 1)).1
  have ht := (hs t).2
  rw [hp.state] at hv
  rw [hp.coord t, hp.state t]
  simp only [adaMax] at hv ⊢
  rw [ht]
  generalize max ((s t).v * b.b2) |g t| = v at hv
  have p1 : b.b1 ^ (t + 1) < 1 := pow_lt_one₀ h1 h1' (by omega)
  have p1' : 0 ≤ b.b1 ^ (t + 1) := by positivity
  rw [if_pos (by linarith)]
  refine step_of_quot (by linarith [hv.1]) (by positivity) ?_ _
  rw [div_mul_eq_mul_div, div_le_iff₀ (by linarith)]
  have : a ≤ a / (1 - b.b1 ^ (t + 1)) := by rw [le_div_iff₀ (by linarith)]; nlinarith
  have := hv.1
  gcongr
  exact hv.2

/-- A contraction with a vanishing perturbation. -/
theorem contraction {y e : Nat → ℝ} {ρ : ℝ} (h0 : 0 ≤ ρ) (h1 : ρ < 1) (hy : ∀ t, y (t + 1) = ρ * y t + e t)
    (he : Tendsto e atTop (𝓝 0)) : Tendsto y atTop (𝓝 0) := by
  rw [Metric.tendsto_atTop] at he ⊢
  intro ε hε
  obtain ⟨T, hT⟩ := he ((1 - ρ) * (ε / 2)) (by have : 0 < 1 - ρ := by linarith
                                               positivity)
  have key : ∀ k, |y (T + k)| ≤ ρ ^ k * |y T| + ε / 2 := by
    intro k
    induction k with
    | zero => simp only [Nat.add_zero, pow_zero, one_mul]; linarith
    | succ k ih =>
      have h2 := hT (T + k) (by omega)
      rw [Real.dist_eq, sub_zero] at h2
      rw [← Nat.add_assoc, hy]
      have h3 := abs_add_le (ρ * y (T + k)) (e (T + k))
      rw [abs_mul, abs_of_nonneg h0] at h3
      have h4 := mul_le_mul_of_nonneg_left ih h0
      rw [pow_succ]
      nlinarith
  have hp : Tendsto (fun k => ρ ^ k * |y T|) atTop (𝓝 0) := by
    simpa using (tendsto_pow_atTop_nhds_zero_of_lt_one h0 h1).mul_const |y T|
  rw [Metric.tendsto_atTop] at hp
  obtain ⟨K, hK⟩ := hp (ε / 2) (by linarith)
  refine ⟨T + K, fun t ht => ?_⟩
  obtain ⟨k, rfl⟩ := Nat.exists_eq_add_of_le (show T ≤ t by omega)
  have h5 := hK k (by omega)
  rw [Real.dist_eq, sub_zero] at h5 ⊢
  have := le_abs_self (ρ ^ k * |y T|)
  linarith [key k]

/-- `Nesterov`: the step is `mu v' - a g` with `v' = mu v - a g`, so `v` contracts while the steps are short. -/
theorem restless_nesterov {a mu : ℝ} (ha : 0 < a) (h : 0 ≤ mu) : Restless (nesterov mu) a := by
  intro s x g hp _ hx
  have hv : ∀ t, s (t + 1) = mu * s t - a * g t := fun t => by rw [hp.state]; rfl
  have hd : ∀ t, x (t + 1) - x t = mu * s (t + 1) - a * g t := fun t => by
    rw [hv, hp.coord t]; simp only [nesterov]; ring
  have hr : ∀ t, s (t + 1) = mu / (1 + mu) * s t + (x (t + 1) - x t) / (1 + mu) := by
    intro t
    rw [hd t]
    have := hv t
    have h0 : (1 + mu) ≠ 0 := by linarith
    field_simp
    linarith
  have hs : Tendsto s atTop (𝓝 0) := contraction (by positivity) (by rw [div_lt_one (by linarith)]; linarith) hr
    (by simpa using hx.div_const (1 + mu))
  have := ((hs.const_mul mu).sub ((tendsto_add_atTop_iff_nat 1).2 hs)).div_const a
  simp only [mul_zero, sub_zero, zero_div] at this
  refine this.congr fun t => ?_
  rw [hv]
  field_simp
  ring

/-- `QHUpdate`: the step is `-a ((1 - nu) g + nu v')` with `v' = mu v + (1 - mu) g`. -/
theorem restless_qh {a nu mu : ℝ} (ha : 0 < a) (h : 0 ≤ mu) (h' : mu < 1) (hn : 0 ≤ nu) (hn' : nu ≤ 1) : Restless (qh nu mu) a := by
  intro s x g hp _ hx
  have hv : ∀ t, s (t + 1) = mu * s t + (1 - mu) * g t := fun t => by rw [hp.state]; rfl
  have hd : ∀ t, x (t + 1) - x t = -a * ((1 - nu) * g t + nu * s (t + 1)) := fun t => by
    rw [hv, hp.coord t]; simp only [qh]; ring
  have hc : 0 < 1 - nu * mu := by nlinarith
  have hr : ∀ t, s (t + 1) = mu * (1 - nu) / (1 - nu * mu) * s t + -(1 - mu) / (a * (1 - nu * mu)) * (x (t + 1) - x t) := by
    intro t
    rw [hd t, hv t]
    have hc1 : 1 - nu * mu ≠ 0 := hc.ne'
    have hc2 : 1 - mu * nu ≠ 0 := by rwa [mul_comm mu]
    field_simp
    ring
  have hs : Tendsto s atTop (𝓝 0) := contraction (div_nonneg (mul_nonneg h (by linarith)) hc.le)
    (by rw [div_lt_one hc]; nlinarith) hr (by simpa using hx.const_mul (-(1 - mu) / (a * (1 - nu * mu))))
  have := (((tendsto_add_atTop_iff_nat 1).2 hs).sub (hs.const_mul mu)).div_const (1 - mu)
  simp only [mul_zero, sub_zero, zero_div] at this
  refine this.congr fun t => ?_
  rw [hv]
  have : (1 - mu) ≠ 0 := by linarith
  field_simp
  ring

/-- `AdaBelief`: the second moment also collects `eps` in every step and is bounded all the same. -/
theorem restless_adaBelief {a : ℝ} {b : Betas} (ha : 0 < a) (h1 : 0 ≤ b.b1) (h1' : b.b1 < 1) (h2 : 0 ≤ b.b2) (h2' : b.b2 < 1)
    (he : 0 < b.eps) : Restless (adaBelief b) a := by
  have h2p : 0 < 1 - b.b2 := by linarith
  refine restless_of_moment h1' Mom.m (fun _ _ _ => rfl) fun s x g hp B hB hg =>
    ⟨a / (√((4 * B ^ 2 + b.eps / (1 - b.b2)) / (1 - b.b2)) + b.eps), by positivity, fun t => ?_⟩
  have hC : b.eps = b.eps / (1 - b.b2) * (1 - b.b2) := by field_simp
  have hs : ∀ t, |(s t).m| ≤ B ∧ (s t).v ≤ 4 * B ^ 2 + b.eps / (1 - b.b2) ∧ (s t).t = t := by
    intro t
    induction t with
    | zero => rw [hp.init]; exact ⟨by simpa [adaBelief] using hB, by show (0 : ℝ) ≤ _; positivity, rfl⟩
    | succ t ih =>
      rw [hp.state]
      obtain ⟨i1, i2, i3⟩ := ih
      have hm : |(s t).m * b.b1 + (1 - b.b1) * g t| ≤ B := by
        have hg := hg t
        rw [abs_le] at i1 hg ⊢
        constructor <;> nlinarith [i1.1, i1.2, hg.1, hg.2]
      refine ⟨hm, ?_, congrArg (· + 1) i3⟩
      show (s t).v * b.b2 + ((1 - b.b2) * (g t - ((s t).m * b.b1 + (1 - b.b1) * g t)) ^ 2 + b.eps) ≤ _
      generalize (s t).m * b.b1 + (1 - b.b1) * g t = m at hm
      have hd : (g t - m) ^ 2 ≤ 4 * B ^ 2 := by
        have := hg t
        rw [abs_le] at this hm
        nlinarith [this.1, this.2, hm.1, hm.2]
      have := mul_le_mul_of_nonneg_right i2 h2
      have := mul_le_mul_of_nonneg_left hd h2p.le
      nlinarith
  have hv := (hs (t + 1)).2.1
  have ht := (hs t).2.2
  rw [hp.state] at hv
  rw [hp.coord t, hp.state t]
  simp only [adaBelief] at hv ⊢
  rw [ht]
  generalize (s t).v * b.b2 + ((1 - b.b2) * (g t - ((s t).m * b.b1 + (1 - b.b1) * g t)) ^ 2 + b.eps) = v at hv
  have p1 : b.b1 ^ (t + 1) < 1 := pow_lt_one₀ h1 h1' (by omega)
  have p1' : 0 ≤ b.b1 ^ (t + 1) := by positivity
  have p2 : b.b2 ^ (t + 1) ≤ b.b2 := pow_le_of_le_one h2 h2'.le (by omega)
  have hsq : √(v / (1 - b.b2 ^ (t + 1))) ≤ √((4 * B ^ 2 + b.eps / (1 - b.b2)) / (1 - b.b2)) :=
    Real.sqrt_le_sqrt (div_le_div₀ (by positivity) hv h2p (by linarith))
  have := Real.sqrt_nonneg (v / (1 - b.b2 ^ (t + 1)))
  have e : ∀ m D : ℝ, m / (1 - b.b1 ^ (t + 1)) * a / D = a / (1 - b.b1 ^ (t + 1)) * m / D := fun m D => by ring
  rw [e]
  refine step_of_quot (by linarith) (by positivity) ?_ _
  have h3 : a ≤ a / (1 - b.b1 ^ (t + 1)) := by rw [le_div_iff₀ (by linarith)]; nlinarith
  rw [div_mul_eq_mul_div, div_le_iff₀ (by positivity)]
  exact mul_le_mul h3 (by linarith) (by linarith) (ha.le.trans h3)

/-- `Yogi`. -/
theorem restless_yogi {a : ℝ} {b : Betas} (ha : 0 < a) (h1' : b.b1 < 1) (h2 : 0 ≤ b.b2) (h2' : b.b2 < 1)
    (he : 0 < b.eps) : Restless (yogi b) a := by
  refine restless_of_moment h1' Mom.m (fun _ _ _ => rfl) fun s x g hp B hB hg => ⟨a / (2 * B + b.eps), by positivity, fun t => ?_⟩
  have hs : ∀ t, (s t).v ≤ 2 * B ^ 2 := by
    intro t
    induction t with
    | zero => rw [hp.init]; show (0 : ℝ) ≤ _; positivity
    | succ t ih =>
      rw [hp.state]
      show (s t).v - (1 - b.b2) * Real.sign ((s t).v - g t ^ 2) * g t ^ 2 ≤ _
      have hg2 : g t ^ 2 ≤ B ^ 2 := by rw [sq (g t)]; exact sq_le_of_abs (hg t)
      have hg0 := sq_nonneg (g t)
      rcases lt_trichotomy ((s t).v - g t ^ 2) 0 with h | h | h
      · rw [Real.sign_of_neg h]; nlinarith
      · rw [h, Real.sign_zero]; linarith
      · rw [Real.sign_of_pos h]; nlinarith
  have hv := hs (t + 1)
  rw [hp.state] at hv
  rw [hp.coord t, hp.state t]
  simp only [yogi] at hv ⊢
  generalize (s t).v - (1 - b.b2) * Real.sign ((s t).v - g t ^ 2) * g t ^ 2 = v at hv
  have hsq : √v ≤ 2 * B := Real.sqrt_le_iff.2 ⟨by positivity, by nlinarith [sq_nonneg B]⟩
  have := Real.sqrt_nonneg v
  exact step_of_quot (by linarith) (by positivity) (by rw [div_mul_eq_mul_div, div_le_iff₀ (by linarith)]; gcongr) _

/-- `AdaBound` and `AMSBound`. -/
theorem restless_adaBound {ams : Bool} {a fl gamma : ℝ} {b : Betas} (ha : 0 < a) (hf : 0 < fl) (hgm : 0 < gamma) (h1 : 0 ≤ b.b1)
    (h1' : b.b1 < 1) (h2 : 0 ≤ b.b2) (h2' : b.b2 < 1) (he : 0 < b.eps) : Restless (adaBound ams b fl gamma) a := by
  have hq : 0 < √(1 - b.b2) := Real.sqrt_pos.2 (by linarith)
  refine restless_of_moment h1' BMom.m (fun _ _ _ => rfl) fun s x g hp B hB hg =>
    ⟨min fl (a * √(1 - b.b2) / (B + b.eps)), lt_min hf (by positivity), fun t => ?_⟩
  have hs : ∀ t, (s t).v ≤ B ^ 2 ∧ (s t).vi ≤ B ^ 2 ∧ (s t).t = t ∧ (if (s t).first then a else (s t).a0) = a := by
    intro t
    induction t with
    | zero => rw [hp.init]; exact ⟨sq_nonneg B, sq_nonneg B, rfl, rfl⟩
    | succ t ih =>
      rw [hp.state]
      have := ema_le h2 h2' ih.1 (sq_le_of_abs (hg t))
      refine ⟨this, ?_, congrArg (· + 1) ih.2.2.1, ih.2.2.2⟩
      cases ams
      · exact this
      · exact max_le ih.2.1 this
  have hv := (hs (t + 1)).2.1
  obtain ⟨-, -, ht, h0⟩ := hs t
  rw [hp.state] at hv
  rw [hp.coord t, hp.state t]
  simp only [adaBound] at hv ⊢
  rw [ht, h0]
  generalize (if ams = true then max (s t).vi ((s t).v * b.b2 + (1 - b.b2) * (g t * g t))
    else (s t).v * b.b2 + (1 - b.b2) * (g t * g t)) = v at hv
  generalize (s t).m * b.b1 + (1 - b.b1) * g t = m
  have hsq : √v ≤ B := Real.sqrt_le_iff.2 ⟨hB, hv⟩
  have := Real.sqrt_nonneg v
  have hc := corr_ge h1 h1' h2 h2' t
  have hc0 := mul_nonneg ha.le (hq.le.trans hc)
  have hfl : fl * a / a = fl := by field_simp
  have hup : fl ≤ boundHi gamma (fl * a / a) (t + 1) := by
    rw [hfl, boundHi]
    have : 0 ≤ 1 / (gamma * ((t + 1 : Nat) : ℝ)) := by positivity
    nlinarith
  have hra : a * √(1 - b.b2) / (B + b.eps) ≤ a * √(1 - b.b2 ^ (t + 1)) / (1 - b.b1 ^ (t + 1)) / (√v + b.eps) := by
    rw [mul_div_assoc a (√(1 - b.b2 ^ (t + 1)))]
    exact div_le_div₀ hc0 (mul_le_mul_of_nonneg_left hc ha.le) (by linarith) (by linarith)
  have hk := (min_le_min hup hra).trans (le_max_right (boundLo gamma (fl * a / a) (t + 1)) _)
  generalize max (boundLo gamma (fl * a / a) (t + 1)) _ = r at hk ⊢
  have e : x t - r * m - x t = -(r * m) := by ring
  have hk0 : 0 ≤ min fl (a * √(1 - b.b2) / (B + b.eps)) := le_min hf.le (by positivity)
  rw [e, abs_neg, abs_mul, abs_of_nonneg (hk0.trans hk)]
  gcongr

/-- `OptimisticAdam`: the step `-a (2 u' - u)` makes the direction `u` contract. -/
theorem restless_optimisticAdam {a : ℝ} {b : Betas} (ha : 0 < a) (h1 : 0 ≤ b.b1) (h1' : b.b1 < 1) (h2 : 0 ≤ b.b2)
    (h2' : b.b2 < 1) (he : 0 < b.eps) : Restless (optimisticAdam b) a := by
  intro s x g hp ⟨B, hg⟩ hx
  have hB : 0 ≤ B := (abs_nonneg _).trans (hg 0)
  have h2p : 0 < 1 - b.b2 := by linarith
  have hr : ∀ t, (s (t + 1)).g = 1 / 2 * (s t).g + -(x (t + 1) - x t) / (2 * a) := by
    intro t
    rw [hp.coord t, hp.state t]
    simp only [optimisticAdam]
    field_simp
    ring
  have hu : Tendsto (fun t => (s t).g) atTop (𝓝 0) := contraction (y := fun t => (s t).g) (by norm_num) (by norm_num) hr
    (by simpa using hx.neg.div_const (2 * a))
  have hs : ∀ t, (s t).v ≤ B ^ 2 ∧ (s t).t = t := by
    intro t
    induction t with
    | zero => rw [hp.init]; exact ⟨sq_nonneg B, rfl⟩
    | succ t ih => rw [hp.state]; exact ⟨ema_le h2 h2' ih.1 (sq_le_of_abs (hg t)), congrArg (· + 1) ih.2⟩
  have hm1 : Tendsto (fun t => (s (t + 1)).m) atTop (𝓝 0) := by
    refine to_zero (κ := 1 / (√(B ^ 2 / (1 - b.b2)) + b.eps)) (by positivity) (fun t => ?_) ((tendsto_add_atTop_iff_nat 1).2 hu)
    have hv := (hs (t + 1)).1
    have ht := (hs t).2
    rw [hp.state] at hv ⊢
    simp only [optimisticAdam] at hv ⊢
    rw [ht]
    generalize (s t).v * b.b2 + (1 - b.b2) * (g t * g t) = v at hv
    generalize (s t).m * b.b1 + (1 - b.b1) * g t = m
    have p1 : b.b1 ^ (t + 1) < 1 := pow_lt_one₀ h1 h1' (by omega)
    have p1' : 0 ≤ b.b1 ^ (t + 1) := by positivity
    have p2 : b.b2 ^ (t + 1) ≤ b.b2 := pow_le_of_le_one h2 h2'.le (by omega)
    have hsq : √(v / (1 - b.b2 ^ (t + 1))) ≤ √(B ^ 2 / (1 - b.b2)) :=
      Real.sqrt_le_sqrt (div_le_div₀ (by positivity) hv h2p (by linarith))
    have h0 := Real.sqrt_nonneg (v / (1 - b.b2 ^ (t + 1)))
    have h3 : |m| ≤ |m / (1 - b.b1 ^ (t + 1))| := by
      rw [abs_div, abs_of_pos (show 0 < 1 - b.b1 ^ (t + 1) by linarith), le_div_iff₀ (by linarith)]
      nlinarith [abs_nonneg m]
    rw [abs_div, abs_of_pos (show 0 < √(v / (1 - b.b2 ^ (t + 1))) + b.eps by linarith), one_div_mul_eq_div]
    exact div_le_div₀ (abs_nonneg _) h3 (by linarith) (by linarith)
  have hm0 : Tendsto (fun t => (s t).m) atTop (𝓝 0) := (tendsto_add_atTop_iff_nat 1).1 hm1
  have := (hm1.sub (hm0.mul_const b.b1)).div_const (1 - b.b1)
  simp only [zero_mul, sub_zero, zero_div] at this
  refine this.congr fun t => ?_
  rw [hp.state]
  simp only [optimisticAdam]
  have : (1 - b.b1) ≠ 0 := by linarith
  field_simp
  ring

/-! ### The run of the program -/

/-- State of the policy and coordinates after `k` visits, one function at a time in order, with the gradients `gr`. -/
noncomputable def cyc (up : UpdPol U ℝ M G) (gr : Nat → M → G) (n : Nat) (a : ℝ) (x : M) : Nat → U × M
  | 0 => (up.fresh x, x)
  | k + 1 => up.upd (cyc up gr n a x k).1 (cyc up gr n a x k).2 a (gr (k % n) (cyc up gr n a x k).2)

theorem next_cyc {up : UpdPol U ℝ M G} {grad : M → Nat → Nat → G} {gr : Nat → M → G} {n K : Nat} (hn : 0 < n)
    (hg : ∀ x, ∀ i < n, grad x i 1 = gr i x) (a : ℝ) (x : M) : ∀ k ≤ K,
      (Tb.next up (noDecay M G) ⟨n, 1, K, grad, id, id⟩)^[k] ⟨0, a, (), up.fresh x, (), x⟩ =
        ⟨k, a, (), (cyc up gr n a x k).1, (), (cyc up gr n a x k).2⟩ := by
  intro k
  induction k with
  | zero => intro _; simp [cyc]
  | succ k ih =>
    intro hk
    rw [Function.iterate_succ_apply', ih (by omega)]
    have hm := Nat.mod_lt k hn
    have hsz : min (min 1 (K - k)) (n - k % n) = 1 := by omega
    simp only [Tb.next, hsz, noDecay, id, hg _ _ hm, cyc]

theorem run_cyc {up : UpdPol U ℝ M G} {u : User V M G E} {grad : M → Nat → Nat → G} {gr : Nat → M → G}
    (hq : Quiet u grad id id) {p : Params} (hn : 0 < p.numFunctions) (hb : p.batchSize = 1)
    (hg : ∀ x, ∀ i < p.numFunctions, grad x i 1 = gr i x) (hK : 0 < p.maxIterations) {fuel : Nat}
    {a : ℝ} {v : V} {x : M} {r : Result (Live U Unit Unit ℝ × V) M E}
    (h : optimizeObj up (noDecay M G) u p true fuel (Obj.new a ()) v x = .returned r) :
    r.x = (cyc up gr p.numFunctions a x p.maxIterations).2 := by
  obtain ⟨-, k, hk, hlt, hx, -⟩ := C149_sgd_is_textbook hq hn h
  rw [if_neg (by omega), hb] at hk hlt hx
  have hpro : prologue up (noDecay M G) true x (Obj.new a () : Obj U Unit Unit ℝ) = ⟨a, (), up.fresh x, ()⟩ := rfl
  rw [hpro] at hk hlt hx
  have hit := next_cyc (K := p.maxIterations) hn hg (up := up) a x
  have hkK : k = p.maxIterations := by
    rcases Nat.lt_trichotomy k p.maxIterations with h1 | h1 | h1
    · have e := hit k h1.le
      simp only at hk
      rw [e] at hk
      exact hk
    · exact h1
    · have := hlt _ h1
      simp only at this
      rw [hit _ le_rfl] at this
      exact absurd this (lt_irrefl _)
  simp only at hx
  rw [hx, hkK, hit _ le_rfl]

/-- The results of runs of `Optimize` with the update policy `up`, constant step size `a` and one function per batch, started at
`x`, tend to `z` as the number of iterations grows. -/
def ResultsTend (up : UpdPol U ℝ (Vec d) (Vec d)) (gr : Nat → Vec d → Vec d) (n : Nat) (a : ℝ) (x z : Vec d) : Prop :=
  ∀ δ > 0, ∃ N₀ : Nat, ∀ (V E : Type) (u : User V (Vec d) (Vec d) E) (grad : Vec d → Nat → Nat → Vec d) (p : Params) (fuel : Nat)
    (v : V) (r : Result (Live U Unit Unit ℝ × V) (Vec d) E), Quiet u grad id id → p.numFunctions = n → p.batchSize = 1 →
    (∀ x, ∀ i < n, grad x i 1 = gr i x) → N₀ < p.maxIterations →
    optimizeObj up (noDecay _ _) u p true fuel (Obj.new a ()) v x = .returned r → ‖r.x - z‖ < δ

/-- A sum of functions with the given gradients. -/
def sumUser (gr : Nat → Vec d → Vec d) : User Unit (Vec d) (Vec d) Unit :=
  { plainUser (fun x => x) with evalGrad := fun _ x i _ => ((), (), gr i x) }

theorem sumUser_quiet (gr : Nat → Vec d → Vec d) : Quiet (sumUser gr) (fun x i _ => gr i x) id id :=
  ⟨fun _ _ _ _ => rfl, fun _ _ _ _ => rfl, fun _ _ => rfl, fun _ _ => rfl, fun _ _ _ _ => rfl,
    fun _ _ _ _ => rfl, fun _ => rfl, fun _ _ => rfl⟩

theorem ResultsTend.tendsto {up : UpdPol U ℝ (Vec d) (Vec d)} {gr : Nat → Vec d → Vec d} {n : Nat} (hn : 0 < n) {a : ℝ}
    {x z : Vec d} (h : ResultsTend up gr n a x z) : Tendsto (fun k => (cyc up gr n a x k).2) atTop (𝓝 z) := by
  rw [Metric.tendsto_atTop]
  intro δ hδ
  obtain ⟨N, hN⟩ := h δ hδ
  refine ⟨N + 1, fun k hk => ?_⟩
  obtain ⟨r, hr⟩ := run_returns up (sumUser gr) (p := ⟨n, 1, k, false, false⟩) hn one_pos a () x
  have h1 := hN Unit Unit (sumUser gr) _ ⟨n, 1, k, false, false⟩ _ () r (sumUser_quiet gr) rfl rfl (fun _ _ _ => rfl)
    (by show N < k; omega) hr
  rw [run_cyc (sumUser_quiet gr) (p := ⟨n, 1, k, false, false⟩) hn rfl (fun _ _ _ => rfl) (by show 0 < k; omega) hr] at h1
  rwa [dist_eq_norm]

theorem ResultsTend.of_tendsto {up : UpdPol U ℝ (Vec d) (Vec d)} {gr : Nat → Vec d → Vec d} {n : Nat} (hn : 0 < n) {a : ℝ}
    {x z : Vec d} (h : Tendsto (fun k => (cyc up gr n a x k).2) atTop (𝓝 z)) : ResultsTend up gr n a x z := by
  intro δ hδ
  rw [Metric.tendsto_atTop] at h
  obtain ⟨N, hN⟩ := h δ hδ
  refine ⟨N, fun V E u grad p fuel v r hq hp hb hg hK hr => ?_⟩
  subst hp
  rw [run_cyc hq hn hb hg (by omega) hr, ← dist_eq_norm]
  exact hN _ hK.le

/-- **C320** (what convergence takes) If the results of `SGD<P>::Optimize` with a constant step size and one function per batch
tend to a point `z` as the iterations grow, then the gradient of every single function vanishes at `z`, provided the gradients
are continuous and the policy is `Restless`: vanilla, momentum, Nesterov momentum, QHUpdate, RMSProp, AdaDelta, Adam, AMSGrad,
Padam, AdaMax, AdaBelief, Yogi, AdaBound, AMSBound and OptimisticAdam are. -/
theorem C320_converges_only_where_all_vanish {P : Policy R} {a : ℝ} (hP : Restless P a) {gr : Nat → Vec d → Vec d} {n : Nat}
    (hn : 0 < n) (hc : ∀ i < n, Continuous (gr i)) {x z : Vec d} (h : ResultsTend (lift P) gr n a x z) :
    ∀ i < n, gr i z = 0 := by
  intro i hi
  have ht := h.tendsto hn
  set c := cyc (lift P) gr n a x with hcd
  have hgi : ∀ i < n, Tendsto (fun k => gr i (c k).2) atTop (𝓝 (gr i z)) := fun i hi => ((hc i hi).tendsto z).comp ht
  have hev : ∀ j, Tendsto (fun k => (c k).2 j) atTop (𝓝 (z j)) := fun j =>
    ((EuclideanSpace.proj (𝕜 := ℝ) j).continuous.tendsto z).comp ht
  ext j
  have hpath : Path P a (fun k => (c k).1 j) (fun k => (c k).2 j) (fun k => gr (k % n) (c k).2 j) :=
    ⟨rfl, fun _ => rfl, fun _ => rfl⟩
  have hbd : ∃ B, ∀ t, |gr (t % n) (c t).2 j| ≤ B := by
    have hone : ∀ i < n, ∃ B, ∀ t, |gr i (c t).2 j| ≤ B := by
      intro i hi
      have h1 : Tendsto (fun k => gr i (c k).2 j) atTop (𝓝 (gr i z j)) :=
        ((EuclideanSpace.proj (𝕜 := ℝ) j).continuous.tendsto (gr i z)).comp (hgi i hi)
      obtain ⟨B, hB⟩ := (Metric.isBounded_range_of_tendsto _ h1).exists_norm_le
      exact ⟨B, fun t => hB _ ⟨t, rfl⟩⟩
    choose! B hB using hone
    refine ⟨∑ i ∈ Finset.range n, |B i|, fun t => ?_⟩
    have hm := Nat.mod_lt t hn
    exact (hB _ hm t).trans ((le_abs_self _).trans
      (Finset.single_le_sum (f := fun i => |B i|) (fun _ _ => abs_nonneg _) (Finset.mem_range.2 hm)))
  have hstep : Tendsto (fun t => (c (t + 1)).2 j - (c t).2 j) atTop (𝓝 0) := by
    simpa using ((tendsto_add_atTop_iff_nat 1).2 (hev j)).sub (hev j)
  have h0 := hP _ _ _ hpath hbd hstep
  have hsub : Tendsto (fun k => i + n * k) atTop atTop :=
    tendsto_atTop_mono (fun k => by nlinarith : ∀ k, k ≤ i + n * k) tendsto_id
  have h1 : Tendsto (fun k => gr i (c (i + n * k)).2 j) atTop (𝓝 0) := by
    refine (h0.comp hsub).congr fun k => ?_
    show gr ((i + n * k) % n) _ j = _
    rw [Nat.add_mul_mod_self_left, Nat.mod_eq_of_lt hi]
  have h2 : Tendsto (fun k => gr i (c (i + n * k)).2 j) atTop (𝓝 (gr i z j)) :=
    (((EuclideanSpace.proj (𝕜 := ℝ) j).continuous.tendsto (gr i z)).comp (hgi i hi)).comp hsub
  exact tendsto_nhds_unique h2 h1

/-- Results that do tend to a point: three functions `‖x‖²/2`, vanilla updates with step size one half, any start. -/
example (x : Vec 2) : ResultsTend (lift vanilla) (fun _ x => x) 3 (1 / 2) x 0 := by
  refine .of_tendsto three_pos ?_
  have h : ∀ k, (cyc (lift vanilla) (fun _ x => x) 3 (1 / 2) x k).2 = (1 / 2 : ℝ) ^ k • x := by
    intro k
    induction k with
    | zero => simp [cyc]
    | succ k ih =>
      have hs : (cyc (lift vanilla) (fun _ x => x) 3 (1 / 2) x (k + 1)).2 =
          WithLp.toLp 2 fun i => (cyc (lift vanilla) (fun _ x => x) 3 (1 / 2) x k).2 i -
            1 / 2 * (cyc (lift vanilla) (fun _ x => x) 3 (1 / 2) x k).2 i := rfl
      rw [hs, ih]
      ext j
      simp only [PiLp.smul_apply, smul_eq_mul]
      ring
  simp only [h]
  simpa using (tendsto_pow_atTop_nhds_zero_of_lt_one (by norm_num : (0 : ℝ) ≤ 1 / 2) (by norm_num)).smul_const x

/-! ### AMSGrad -/

/-- Gradients of `(x - 1)² / 2` and `(x + 1)² / 2` in one dimension. -/
noncomputable def pull (i : Nat) (x : Vec 1) : Vec 1 := x - WithLp.toLp 2 fun _ => if i = 0 then 1 else -1

theorem pull_continuous (i : Nat) : Continuous (pull i) := by unfold pull; fun_prop

/-- **C320** (refuted) `AMSGrad` does not have the "guaranteed convergence" of doc/optimizers.md: on the strongly convex sum
`(x - 1)²/2 + (x + 1)²/2`, for every step size, all decay rates and every starting point, the results of longer and longer runs
tend to no point at all. -/
theorem C320_amsgrad_refuted {a : ℝ} {b : Betas} (ha : 0 < a) (h1 : 0 ≤ b.b1) (h1' : b.b1 < 1) (h2 : 0 ≤ b.b2) (h2' : b.b2 < 1)
    (he : 0 < b.eps) (x : Vec 1) : ¬ ∃ z, ResultsTend (lift (amsGrad b)) pull 2 a x z := by
  rintro ⟨z, hz⟩
  have h := C320_converges_only_where_all_vanish (restless_amsGrad ha h1 h1' h2 h2' he) two_pos (fun i _ => pull_continuous i) hz
  have e0 := congrArg (fun y : Vec 1 => y 0) (h 0 two_pos)
  have e1 := congrArg (fun y : Vec 1 => y 0) (h 1 one_lt_two)
  simp [pull] at e0 e1
  linarith

/-- The default parameters of `AMSGrad`. -/
example (x : Vec 1) : ¬ ∃ z, ResultsTend (lift (amsGrad ⟨9 / 10, 999 / 1000, 1 / 10 ^ 8⟩)) pull 2 (1 / 1000) x z :=
  C320_amsgrad_refuted (by norm_num) (by norm_num) (by norm_num) (by norm_num) (by norm_num) (by norm_num) x

end Ens.Converge
