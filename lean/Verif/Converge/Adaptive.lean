import Verif.Converge.Base
import Verif.Update.Norm

/-
C251: AdaGrad and WNGrad drive the gradient of a smooth function to zero whatever the step size.
-/

namespace Ens.Converge

open Ens.Sgd Ens.Update Filter

variable {d : Nat} {f : Vec d → ℝ} {g : Vec d → Vec d} {L m : ℝ}

/-- AdaGrad: a coordinate whose sum of squares is bounded, and `√s' ≤ √s + 2 g² / (√s' + ε)` for the others. -/
theorem sqrt_growth {s y e : ℝ} (hs : 0 ≤ s) (he : 0 < e) (hy : e ≤ √(s + y * y)) :
    √(s + y * y) ≤ √s + 2 * (y * y / (√(s + y * y) + e)) := by
  have hpos : 0 < √(s + y * y) := lt_of_lt_of_le he hy
  have h1 : √(s + y * y) ^ 2 = s + y * y := Real.sq_sqrt (by nlinarith [mul_self_nonneg y])
  have h2 : √s ^ 2 = s := Real.sq_sqrt hs
  have h3 : 0 ≤ √s := Real.sqrt_nonneg s
  have h4 : √(s + y * y) - √s ≤ y * y / √(s + y * y) := by
    rw [le_div_iff₀ hpos]
    nlinarith
  have h5 : y * y / √(s + y * y) ≤ 2 * (y * y / (√(s + y * y) + e)) := by
    rw [← mul_div_assoc, div_le_div_iff₀ hpos (by linarith)]
    nlinarith [mul_self_nonneg y]
  linarith

theorem adaGrad_seq (hs : LSmooth f g L) (hL : 0 ≤ L) (hm : ∀ y, m ≤ f y) {α ε : ℝ} (hα : 0 < α) (hε : 0 < ε)
    {X : Nat → Vec d} {s : Nat → Fin d → ℝ} (h0 : ∀ i, s 0 i = 0)
    (h1 : ∀ k i, s (k + 1) i = s k i + g (X k) i * g (X k) i)
    (h2 : ∀ k i, X (k + 1) i = X k i - α * g (X k) i / (√(s (k + 1) i) + ε)) :
    Tendsto (fun k => g (X k)) atTop (nhds 0) := by
  classical
  have hmono : ∀ i, Monotone fun k => s k i := fun i =>
    monotone_nat_of_le_succ fun k => by rw [h1]; nlinarith [mul_self_nonneg (g (X k) i)]
  have hnn : ∀ k i, 0 ≤ s k i := fun k i => by have := hmono i (Nat.zero_le k); simp only [h0] at this; exact this
  -- one step
  have hstep : ∀ k, f (X (k + 1)) ≤ f (X k) + ∑ i, (L / 2 * (α ^ 2 * (g (X k) i * g (X k) i) / (√(s (k + 1) i) + ε) ^ 2) -
      α * (g (X k) i * g (X k) i) / (√(s (k + 1) i) + ε)) := by
    intro k
    have hd := hs.descent (X k) (X (k + 1))
    have e : ∀ i, (X (k + 1) - X k) i = -(α * g (X k) i / (√(s (k + 1) i) + ε)) := fun i => by
      rw [PiLp.sub_apply, h2]; ring
    rw [EuclideanSpace.norm_sq_eq, PiLp.inner_apply] at hd
    refine hd.trans (le_of_eq ?_)
    rw [add_assoc, Finset.mul_sum, ← Finset.sum_add_distrib]
    congr 1
    refine Finset.sum_congr rfl fun i _ => ?_
    rw [e]
    simp only [RCLike.inner_apply, conj_trivial, Real.norm_eq_abs, sq_abs]
    have : 0 < √(s (k + 1) i) + ε := by positivity
    field_simp
    ring
  have hbd : ∀ i, ∃ B, ∀ k, s k i ≤ B := by
    by_contra hcon
    push Not at hcon
    obtain ⟨i0, hi0⟩ := hcon
    let T : Finset (Fin d) := Finset.univ.filter fun i => ∃ B, ∀ k, s k i ≤ B
    have hT : i0 ∉ T := by
      simp only [T, Finset.mem_filter, Finset.mem_univ, true_and, not_exists, not_forall, not_le]
      exact hi0
    have hB : ∀ i, ∃ B, i ∈ T → ∀ k, s k i ≤ B := by
      intro i
      by_cases h : i ∈ T
      · obtain ⟨B, hB⟩ := (Finset.mem_filter.1 h).2
        exact ⟨B, fun _ => hB⟩
      · exact ⟨0, fun h' => absurd h' h⟩
    choose B hB using hB
    let H := max (α * L) ε
    have hH : ∀ i, ∃ k0, i ∉ T → ∀ k ≥ k0, H ≤ √(s k i) := by
      intro i
      by_cases h : i ∈ T
      · exact ⟨0, fun h' => absurd h h'⟩
      · simp only [T, Finset.mem_filter, Finset.mem_univ, true_and, not_exists, not_forall, not_le] at h
        obtain ⟨k0, hk0⟩ := h (H ^ 2)
        refine ⟨k0, fun _ k hk => ?_⟩
        exact Real.le_sqrt_of_sq_le (hk0.le.trans (hmono i hk))
    choose k0 hk0 using hH
    let K := ∑ i, k0 i
    have hK : ∀ i, k0 i ≤ K := fun i => Finset.single_le_sum (f := k0) (fun _ _ => Nat.zero_le _) (Finset.mem_univ i)
    let c := L * α ^ 2 / (2 * ε ^ 2)
    have hc : 0 ≤ c := by positivity
    let e : Nat → ℝ := fun k => f (X k) - c * ∑ i ∈ T, s k i
    have hlow : ∀ k, m - c * ∑ i ∈ T, B i ≤ e k := by
      intro k
      have : ∑ i ∈ T, s k i ≤ ∑ i ∈ T, B i := Finset.sum_le_sum fun i hi => hB i hi k
      have := mul_le_mul_of_nonneg_left this hc
      have := hm (X k)
      show _ ≤ f (X k) - c * ∑ i ∈ T, s k i
      linarith
    have hdec : ∀ k ≥ K, e (k + 1) ≤ e k - α / 2 * (g (X k) i0 * g (X k) i0 / (√(s (k + 1) i0) + ε)) := by
      intro k hk
      have hsum : ∑ i, (L / 2 * (α ^ 2 * (g (X k) i * g (X k) i) / (√(s (k + 1) i) + ε) ^ 2) -
          α * (g (X k) i * g (X k) i) / (√(s (k + 1) i) + ε)) ≤
          ∑ i, ((if i ∈ T then c * (g (X k) i * g (X k) i) else 0) -
            (if i = i0 then α / 2 * (g (X k) i * g (X k) i / (√(s (k + 1) i) + ε)) else 0)) := by
        refine Finset.sum_le_sum fun i _ => ?_
        have hq : 0 ≤ √(s (k + 1) i) := Real.sqrt_nonneg _
        have hh : 0 < √(s (k + 1) i) + ε := by positivity
        have hg2 := mul_self_nonneg (g (X k) i)
        by_cases hi : i ∈ T
        · have hne : i ≠ i0 := fun h => hT (h ▸ hi)
          rw [if_pos hi, if_neg hne, sub_zero]
          have a1 : 0 ≤ α * (g (X k) i * g (X k) i) / (√(s (k + 1) i) + ε) := by positivity
          have a2 : L / 2 * (α ^ 2 * (g (X k) i * g (X k) i) / (√(s (k + 1) i) + ε) ^ 2) ≤ c * (g (X k) i * g (X k) i) := by
            have : (ε : ℝ) ^ 2 ≤ (√(s (k + 1) i) + ε) ^ 2 := pow_le_pow_left₀ hε.le (by linarith) 2
            have b1 : α ^ 2 * (g (X k) i * g (X k) i) / (√(s (k + 1) i) + ε) ^ 2 ≤ α ^ 2 * (g (X k) i * g (X k) i) / ε ^ 2 :=
              div_le_div_of_nonneg_left (by positivity) (by positivity) this
            have b2 := mul_le_mul_of_nonneg_left b1 (by positivity : 0 ≤ L / 2)
            refine b2.trans (le_of_eq ?_)
            show _ = L * α ^ 2 / (2 * ε ^ 2) * _
            field_simp
          linarith
        · rw [if_neg hi, zero_sub]
          have hbig : H ≤ √(s (k + 1) i) := hk0 i hi (k + 1) (by have := hK i; omega)
          have hb2 : α * L ≤ √(s (k + 1) i) + ε := by have := le_max_left (α * L) ε; have : α * L ≤ H := this; linarith
          have a1 : L / 2 * (α ^ 2 * (g (X k) i * g (X k) i) / (√(s (k + 1) i) + ε) ^ 2) ≤
              α / 2 * (g (X k) i * g (X k) i / (√(s (k + 1) i) + ε)) := by
            have e1 : L / 2 * (α ^ 2 * (g (X k) i * g (X k) i) / (√(s (k + 1) i) + ε) ^ 2) =
                α / 2 * (g (X k) i * g (X k) i / (√(s (k + 1) i) + ε)) * (α * L / (√(s (k + 1) i) + ε)) := by
              field_simp
            rw [e1]
            exact mul_le_of_le_one_right (by positivity) ((div_le_one hh).2 hb2)
          have e2 : α * (g (X k) i * g (X k) i) / (√(s (k + 1) i) + ε) =
              2 * (α / 2 * (g (X k) i * g (X k) i / (√(s (k + 1) i) + ε))) := by ring
          rw [e2]
          have a3 : 0 ≤ α / 2 * (g (X k) i * g (X k) i / (√(s (k + 1) i) + ε)) := by positivity
          split_ifs <;> linarith
      have hr : ∑ i, ((if i ∈ T then c * (g (X k) i * g (X k) i) else 0) -
            (if i = i0 then α / 2 * (g (X k) i * g (X k) i / (√(s (k + 1) i) + ε)) else 0)) =
          c * ∑ i ∈ T, g (X k) i * g (X k) i - α / 2 * (g (X k) i0 * g (X k) i0 / (√(s (k + 1) i0) + ε)) := by
        rw [Finset.sum_sub_distrib, Finset.sum_ite_eq' Finset.univ i0, if_pos (Finset.mem_univ i0), Finset.sum_ite_mem,
          Finset.univ_inter, ← Finset.mul_sum]
      rw [hr] at hsum
      have hS : ∑ i ∈ T, s (k + 1) i = ∑ i ∈ T, s k i + ∑ i ∈ T, g (X k) i * g (X k) i := by
        rw [← Finset.sum_add_distrib]
        exact Finset.sum_congr rfl fun i _ => h1 k i
      have := hstep k
      show f (X (k + 1)) - c * ∑ i ∈ T, s (k + 1) i ≤ f (X k) - c * ∑ i ∈ T, s k i - _
      rw [hS]
      linarith
    have hroot : ∀ k ≥ K, √(s (k + 1) i0) ≤ √(s k i0) + 4 / α * (e k - e (k + 1)) := by
      intro k hk
      have hge : ε ≤ √(s k i0 + g (X k) i0 * g (X k) i0) := by
        rw [← h1]
        exact (le_max_right (α * L) ε).trans (hk0 i0 hT (k + 1) (by have := hK i0; omega))
      have hgr := sqrt_growth (hnn k i0) hε hge
      rw [← h1] at hgr
      have hd := hdec k hk
      have : 2 * (g (X k) i0 * g (X k) i0 / (√(s (k + 1) i0) + ε)) ≤ 4 / α * (e k - e (k + 1)) := by
        have e1 : 2 * (g (X k) i0 * g (X k) i0 / (√(s (k + 1) i0) + ε)) =
            4 / α * (α / 2 * (g (X k) i0 * g (X k) i0 / (√(s (k + 1) i0) + ε))) := by field_simp; ring
        rw [e1]
        exact mul_le_mul_of_nonneg_left (by linarith) (by positivity)
      linarith
    have hall : ∀ j, √(s (K + j) i0) ≤ √(s K i0) + 4 / α * (e K - e (K + j)) := by
      intro j
      induction j with
      | zero => simp
      | succ j ih =>
        have := hroot (K + j) (by omega)
        have e1 : 4 / α * (e K - e (K + (j + 1))) = 4 / α * (e K - e (K + j)) + 4 / α * (e (K + j) - e (K + j + 1)) := by
          rw [← add_assoc K j 1]; ring
        rw [e1]
        show √(s (K + j + 1) i0) ≤ _
        linarith
    let Bd := √(s K i0) + 4 / α * (e K - (m - c * ∑ i ∈ T, B i))
    obtain ⟨k1, hk1⟩ := hi0 (Bd ^ 2)
    have hle : √(s (K + k1) i0) ≤ Bd := by
      refine (hall k1).trans ?_
      have : 4 / α * (e K - e (K + k1)) ≤ 4 / α * (e K - (m - c * ∑ i ∈ T, B i)) :=
        mul_le_mul_of_nonneg_left (by linarith [hlow (K + k1)]) (by positivity)
      show _ ≤ √(s K i0) + _
      linarith
    have hsq : s (K + k1) i0 ≤ Bd ^ 2 := by
      have := pow_le_pow_left₀ (Real.sqrt_nonneg _) hle 2
      rwa [Real.sq_sqrt (hnn _ _)] at this
    have := hmono i0 (show k1 ≤ K + k1 by omega)
    simp only at this
    linarith
  -- so the sums converge and the gradients tend to zero
  have hcoord : ∀ i, Tendsto (fun k => g (X k) i) atTop (nhds 0) := by
    intro i
    obtain ⟨B, hB⟩ := hbd i
    have t := tendsto_of_energy (e := fun k => -s k i) (q := fun k => 1 * ‖g (X k) i‖ ^ 2) (m := -B)
      (fun k => by positivity) (fun k => by
        rw [h1, Real.norm_eq_abs, sq_abs]; exact le_of_eq (by ring)) (fun k => by
        linarith [hB k])
    exact tendsto_of_norm_sq one_pos t
  have hsum : Tendsto (fun k => 1 * ‖g (X k)‖ ^ 2) atTop (nhds 0) := by
    have : Tendsto (fun k => ∑ i, ‖g (X k) i‖ ^ 2) atTop (nhds (∑ i : Fin d, ‖(0 : ℝ)‖ ^ 2)) :=
      tendsto_finsetSum _ fun i _ => ((hcoord i).norm).pow 2
    simp only [norm_zero, ne_eq, OfNat.ofNat_ne_zero, not_false_eq_true, zero_pow, Finset.sum_const_zero] at this
    refine this.congr fun k => ?_
    rw [EuclideanSpace.norm_sq_eq, one_mul]
  exact tendsto_of_norm_sq one_pos hsum

/-- **C251** `AdaGrad` on the whole sum drives the gradient to zero for every step size: for a smooth function that is bounded
below, whatever its Lipschitz constant. -/
theorem C251_adaGrad (hs : LSmooth f g L) (hL : 0 ≤ L) (hm : ∀ y, m ≤ f y) {a eps : ℝ} (ha : 0 < a) (he : 0 < eps)
    (x : Vec d) : DrivesToZero (lift (adaGrad eps)) g a x :=
  drives_of_tendsto <| adaGrad_seq (s := fun k => (iter (lift (adaGrad eps)) g a x k).1) hs hL hm ha he (fun _ => rfl)
    (fun _ _ => rfl) (fun _ _ => rfl)

/-! ### WNGrad -/

/-- `WNGradUpdate` with the value of its member `b` before the run (1 for a new object, `wn_grad_update.hpp:40`). -/
noncomputable def wnPol (b0 : ℝ) : UpdPol ℝ ℝ (Vec d) (Vec d) where
  fresh := fun _ => b0
  upd := fun b x a g => ((wnGrad.update b () a g x).1, (wnGrad.update b () a g x).2.2)

theorem grad_bound (hs : LSmooth f g L) (hL : 0 < L) (hm : ∀ y, m ≤ f y) (x : Vec d) : ‖g x‖ ^ 2 ≤ 2 * L * (f x - m) := by
  have hd := hs.descent x (x - (1 / L) • g x)
  have e : x - (1 / L) • g x - x = -((1 / L) • g x) := by abel
  rw [e, inner_neg_right, real_inner_smul_right, real_inner_self_eq_norm_sq, norm_neg, norm_smul,
    Real.norm_of_nonneg (by positivity)] at hd
  have h1 := hm (x - (1 / L) • g x)
  have e2 : L / 2 * (1 / L * ‖g x‖) ^ 2 = 1 / L * ‖g x‖ ^ 2 / 2 := by field_simp
  rw [e2] at hd
  have h2 : 1 / L * ‖g x‖ ^ 2 / 2 ≤ f x - m := by linarith
  have e3 : ‖g x‖ ^ 2 = 2 * L * (1 / L * ‖g x‖ ^ 2 / 2) := by field_simp
  rw [e3]
  exact mul_le_mul_of_nonneg_left h2 (by positivity)

theorem wn_seq (hs : LSmooth f g L) (hL : 0 < L) (hm : ∀ y, m ≤ f y) {α : ℝ} (hα : 0 < α) {X : Nat → Vec d} {b : Nat → ℝ}
    (hb0 : 0 < b 0) (hb : ∀ k, b (k + 1) = b k + α ^ 2 / b k * ‖g (X k)‖ ^ 2)
    (hx : ∀ k, X (k + 1) = X k - (α / b (k + 1)) • g (X k)) : Tendsto (fun k => g (X k)) atTop (nhds 0) := by
  have hpos : ∀ k, 0 < b k := by
    intro k
    induction k with
    | zero => exact hb0
    | succ k ih => rw [hb]; positivity
  have hmono : Monotone b := monotone_nat_of_le_succ fun k => by
    rw [hb]
    have := hpos k
    have : 0 ≤ α ^ 2 / b k * ‖g (X k)‖ ^ 2 := by positivity
    linarith
  have hbd : ∃ B, ∀ k, b k ≤ B := by
    by_cases hc : ∃ k0, α * L ≤ b k0
    swap
    · push Not at hc
      exact ⟨α * L, fun k => (hc k).le⟩
    obtain ⟨k0, hk0⟩ := hc
    have hdec : ∀ k ≥ k0, f (X (k + 1)) ≤ f (X k) - α / (2 * b (k + 1)) * ‖g (X k)‖ ^ 2 := by
      intro k hk
      have hd := hs.descent (X k) (X (k + 1))
      have hp := hpos (k + 1)
      have e : X (k + 1) - X k = -((α / b (k + 1)) • g (X k)) := by rw [hx]; abel
      rw [e, inner_neg_right, real_inner_smul_right, real_inner_self_eq_norm_sq, norm_neg, norm_smul,
        Real.norm_of_nonneg (by positivity)] at hd
      have hle : α * L ≤ b (k + 1) := hk0.trans (hmono (by omega))
      have e2 : L / 2 * (α / b (k + 1) * ‖g (X k)‖) ^ 2 = α / (2 * b (k + 1)) * ‖g (X k)‖ ^ 2 * (α * L / b (k + 1)) := by
        field_simp
      have h3 : α / (2 * b (k + 1)) * ‖g (X k)‖ ^ 2 * (α * L / b (k + 1)) ≤ α / (2 * b (k + 1)) * ‖g (X k)‖ ^ 2 :=
        mul_le_of_le_one_right (by positivity) ((div_le_one hp).2 hle)
      have e3 : α / b (k + 1) * ‖g (X k)‖ ^ 2 = 2 * (α / (2 * b (k + 1)) * ‖g (X k)‖ ^ 2) := by field_simp
      rw [e2, e3] at hd
      linarith
    have hf : ∀ j, f (X (k0 + j)) ≤ f (X k0) := by
      intro j
      induction j with
      | zero => simp
      | succ j ih =>
        have := hdec (k0 + j) (by omega)
        have hp := hpos (k0 + j + 1)
        have : 0 ≤ α / (2 * b (k0 + j + 1)) * ‖g (X (k0 + j))‖ ^ 2 := by positivity
        show f (X (k0 + j + 1)) ≤ _
        linarith
    let G2 := 2 * L * (f (X k0) - m)
    have hG : ∀ j, ‖g (X (k0 + j))‖ ^ 2 ≤ G2 := fun j =>
      (grad_bound hs hL hm _).trans (mul_le_mul_of_nonneg_left (by linarith [hf j]) (by positivity))
    let rho := 1 + α ^ 2 * G2 / b k0 ^ 2
    have hp0 := hpos k0
    have hG0 : 0 ≤ G2 := (sq_nonneg _).trans (hG 0)
    have hrho : 0 < rho := by show 0 < 1 + α ^ 2 * G2 / b k0 ^ 2; positivity
    have hgrow : ∀ j, b (k0 + j + 1) ≤ b (k0 + j) + 2 * rho * α * (f (X (k0 + j)) - f (X (k0 + j + 1))) := by
      intro j
      have hp := hpos (k0 + j)
      have hp' := hpos (k0 + j + 1)
      have hge : b k0 ≤ b (k0 + j) := hmono (by omega)
      -- the ratio of two successive denominators
      have hr : b (k0 + j + 1) ≤ rho * b (k0 + j) := by
        rw [hb]
        have e1 : α ^ 2 / b (k0 + j) * ‖g (X (k0 + j))‖ ^ 2 = α ^ 2 * ‖g (X (k0 + j))‖ ^ 2 / b (k0 + j) ^ 2 * b (k0 + j) := by
          field_simp
        have h1 : α ^ 2 * ‖g (X (k0 + j))‖ ^ 2 / b (k0 + j) ^ 2 ≤ α ^ 2 * G2 / b k0 ^ 2 :=
          div_le_div₀ (by positivity) (mul_le_mul_of_nonneg_left (hG j) (by positivity)) (by positivity)
            (pow_le_pow_left₀ hp0.le hge 2)
        rw [e1]
        show _ ≤ (1 + α ^ 2 * G2 / b k0 ^ 2) * b (k0 + j)
        nlinarith [mul_le_mul_of_nonneg_right h1 hp.le]
      have hd := hdec (k0 + j) (by omega)
      rw [hb (k0 + j)]
      have h2 : α ^ 2 / b (k0 + j) * ‖g (X (k0 + j))‖ ^ 2 ≤
          2 * rho * α * (α / (2 * b (k0 + j + 1)) * ‖g (X (k0 + j))‖ ^ 2) := by
        have e1 : 2 * rho * α * (α / (2 * b (k0 + j + 1)) * ‖g (X (k0 + j))‖ ^ 2) =
            α ^ 2 * ‖g (X (k0 + j))‖ ^ 2 * (rho / b (k0 + j + 1)) := by field_simp
        have e2 : α ^ 2 / b (k0 + j) * ‖g (X (k0 + j))‖ ^ 2 = α ^ 2 * ‖g (X (k0 + j))‖ ^ 2 * (1 / b (k0 + j)) := by field_simp
        rw [e1, e2]
        refine mul_le_mul_of_nonneg_left ?_ (by positivity)
        rw [div_le_div_iff₀ hp hp']
        linarith
      have h3 : 2 * rho * α * (α / (2 * b (k0 + j + 1)) * ‖g (X (k0 + j))‖ ^ 2) ≤
          2 * rho * α * (f (X (k0 + j)) - f (X (k0 + j + 1))) :=
        mul_le_mul_of_nonneg_left (by linarith) (by positivity)
      linarith
    refine ⟨b k0 + 2 * rho * α * (f (X k0) - m), fun k => ?_⟩
    have hall : ∀ j, b (k0 + j) ≤ b k0 + 2 * rho * α * (f (X k0) - f (X (k0 + j))) := by
      intro j
      induction j with
      | zero => simp
      | succ j ih =>
        have := hgrow j
        show b (k0 + j + 1) ≤ b k0 + 2 * rho * α * (f (X k0) - f (X (k0 + j + 1)))
        nlinarith
    have h1 := hall k
    have h2 : b k ≤ b (k0 + k) := hmono (by omega)
    have h3 : 2 * rho * α * (f (X k0) - f (X (k0 + k))) ≤ 2 * rho * α * (f (X k0) - m) :=
      mul_le_mul_of_nonneg_left (by linarith [hm (X (k0 + k))]) (by positivity)
    linarith
  obtain ⟨B, hB⟩ := hbd
  have t := tendsto_of_energy (e := fun k => -b k ^ 2) (q := fun k => 2 * α ^ 2 * ‖g (X k)‖ ^ 2) (m := -B ^ 2)
    (fun k => by positivity) (fun k => by
      have hp := hpos k
      have e : b (k + 1) ^ 2 = b k ^ 2 + 2 * α ^ 2 * ‖g (X k)‖ ^ 2 + (α ^ 2 / b k * ‖g (X k)‖ ^ 2) ^ 2 := by
        rw [hb]; field_simp; ring
      rw [e]
      nlinarith [sq_nonneg (α ^ 2 / b k * ‖g (X k)‖ ^ 2)]) (fun k => by
      have := pow_le_pow_left₀ (hpos k).le (hB k) 2
      linarith)
  exact tendsto_of_norm_sq (by positivity) t

/-- **C251** `WNGrad` on the whole sum drives the gradient to zero for every step size, also when the object was used before
(whatever positive value its member `b` has). -/
theorem C251_wnGrad (hs : LSmooth f g L) (hL : 0 < L) (hm : ∀ y, m ≤ f y) {a b0 : ℝ} (ha : 0 < a) (hb : 0 < b0)
    (x : Vec d) : DrivesToZero (wnPol b0) g a x :=
  drives_of_tendsto <| wn_seq (b := fun k => (iter (wnPol b0) g a x k).1) hs hL hm ha hb (fun _ => rfl) (fun _ => rfl)

/-- The hypotheses hold for the squared norm. -/
example (x : Vec 2) : DrivesToZero (lift (adaGrad 1e-8)) id 100 x ∧ DrivesToZero (wnPol 1) id 100 x :=
  ⟨C251_adaGrad half_smooth zero_le_one half_nonneg (by norm_num) (by norm_num) x,
    C251_wnGrad half_smooth one_pos half_nonneg (by norm_num) one_pos x⟩

end Ens.Converge
