import Verif.Converge.Base
import Verif.Converge.LbfgsDir
import Verif.Sgd.Invariant
import Mathlib.Algebra.Order.Chebyshev

/-
C297: where StandardSGD ends up on a sum of strongly convex functions, with any order of visitation.
-/

namespace Ens.Converge

open Ens.Sgd Ens.Update

variable {V E : Type} {d : Nat}

section
variable {H : Type} [NormedAddCommGroup H] [InnerProductSpace ℝ H]

/-- Smooth convex functions: the gradient bounds the gap to the tangent from below. -/
theorem tangent_gap {f : H → ℝ} {g : H → H} {L : ℝ} (hL : 0 < L) (hs : LSmooth f g L)
    (hc : ∀ x y, f x + inner ℝ (g x) (y - x) ≤ f y) (x y : H) :
    f x + inner ℝ (g x) (y - x) + ‖g y - g x‖ ^ 2 / (2 * L) ≤ f y := by
  have h1 := hc x (y - (1 / L) • (g y - g x))
  have h2 := hs.descent y (y - (1 / L) • (g y - g x))
  rw [show y - (1 / L) • (g y - g x) - y = -((1 / L) • (g y - g x)) by abel, inner_neg_right, real_inner_smul_right,
    norm_neg, norm_smul, mul_pow, Real.norm_eq_abs, sq_abs] at h2
  rw [show y - (1 / L) • (g y - g x) - x = (y - x) - (1 / L) • (g y - g x) by abel, inner_sub_right,
    real_inner_smul_right] at h1
  have h3 : ‖g y - g x‖ ^ 2 = inner ℝ (g y) (g y - g x) - inner ℝ (g x) (g y - g x) := by
    rw [← inner_sub_left, real_inner_self_eq_norm_sq]
  have h4 : L / 2 * ((1 / L) ^ 2 * ‖g y - g x‖ ^ 2) = ‖g y - g x‖ ^ 2 / (2 * L) := by
    field_simp
  have h5 : 1 / L * inner ℝ (g y) (g y - g x) = 1 / L * inner ℝ (g x) (g y - g x) + 2 * (‖g y - g x‖ ^ 2 / (2 * L)) := by
    have : 2 * (‖g y - g x‖ ^ 2 / (2 * L)) = 1 / L * ‖g y - g x‖ ^ 2 := by field_simp
    rw [this, h3]
    ring
  linarith

/-- The gradient of a smooth convex function is cocoercive. -/
theorem cocoercive {f : H → ℝ} {g : H → H} {L : ℝ} (hL : 0 < L) (hs : LSmooth f g L)
    (hc : ∀ x y, f x + inner ℝ (g x) (y - x) ≤ f y) (x y : H) :
    ‖g x - g y‖ ^ 2 ≤ L * inner ℝ (g x - g y) (x - y) := by
  have h1 := tangent_gap hL hs hc x y
  have h2 := tangent_gap hL hs hc y x
  rw [norm_sub_rev] at h1
  have h3 : inner ℝ (g x) (y - x) = -inner ℝ (g x) (x - y) := by rw [← neg_sub x y, inner_neg_right]
  have h4 : ‖g x - g y‖ ^ 2 / (2 * L) * 2 ≤ inner ℝ (g x - g y) (x - y) := by
    rw [inner_sub_left]
    linarith
  have h5 : ‖g x - g y‖ ^ 2 = L * (‖g x - g y‖ ^ 2 / (2 * L) * 2) := by field_simp
  rw [h5]
  exact mul_le_mul_of_nonneg_left h4 hL.le

/-- A gradient step on a sum of `k` strongly convex functions brings points together. -/
theorem batch_contracts {g : Nat → H → H} {k : Nat} {L μ a : ℝ} (ha : 0 ≤ a)
    (hco : ∀ j x y, ‖g j x - g j y‖ ^ 2 ≤ L * inner ℝ (g j x - g j y) (x - y))
    (hmu : ∀ j x y, μ * ‖x - y‖ ^ 2 ≤ inner ℝ (g j x - g j y) (x - y)) (hμ : 0 ≤ μ) (hk : a * (k * L) ≤ 1)
    (hkm : a * (k * μ) ≤ 2) (x y : H) :
    ‖(x - a • ∑ j ∈ Finset.range k, g j x) - (y - a • ∑ j ∈ Finset.range k, g j y)‖ ≤ (1 - a * (k * μ) / 2) * ‖x - y‖ := by
  set S := ∑ j ∈ Finset.range k, (g j x - g j y) with hS
  have e : (x - a • ∑ j ∈ Finset.range k, g j x) - (y - a • ∑ j ∈ Finset.range k, g j y) = (x - y) - a • S := by
    rw [hS, Finset.sum_sub_distrib, smul_sub]
    abel
  have h1 : inner ℝ S (x - y) = ∑ j ∈ Finset.range k, inner ℝ (g j x - g j y) (x - y) := by
    rw [hS, sum_inner]
  have h2 : k * μ * ‖x - y‖ ^ 2 ≤ inner ℝ S (x - y) := by
    rw [h1]
    calc (k : ℝ) * μ * ‖x - y‖ ^ 2 = ∑ _j ∈ Finset.range k, μ * ‖x - y‖ ^ 2 := by simp; ring
      _ ≤ _ := Finset.sum_le_sum fun j _ => hmu j x y
  have h3 : ‖S‖ ^ 2 ≤ k * (L * inner ℝ S (x - y)) := by
    have c1 : ‖S‖ ≤ ∑ j ∈ Finset.range k, ‖g j x - g j y‖ := norm_sum_le _ _
    have c2 : (∑ j ∈ Finset.range k, ‖g j x - g j y‖) ^ 2 ≤ k * ∑ j ∈ Finset.range k, ‖g j x - g j y‖ ^ 2 := by
      have := sq_sum_le_card_mul_sum_sq (s := Finset.range k) (f := fun j => ‖g j x - g j y‖)
      simpa using this
    have c3 : ∑ j ∈ Finset.range k, ‖g j x - g j y‖ ^ 2 ≤ L * inner ℝ S (x - y) := by
      rw [h1, Finset.mul_sum]
      exact Finset.sum_le_sum fun j _ => hco j x y
    calc ‖S‖ ^ 2 ≤ (∑ j ∈ Finset.range k, ‖g j x - g j y‖) ^ 2 := pow_le_pow_left₀ (norm_nonneg _) c1 2
      _ ≤ _ := c2
      _ ≤ _ := mul_le_mul_of_nonneg_left c3 (Nat.cast_nonneg k)
  have h4 : 0 ≤ inner ℝ S (x - y) := le_trans (by positivity) h2
  rw [e]
  refine abs_le_of_sq_le_sq' ?_ (mul_nonneg (by linarith) (norm_nonneg _)) |>.2
  rw [norm_sub_sq_real, real_inner_smul_right, norm_smul, mul_pow, Real.norm_eq_abs, sq_abs, real_inner_comm]
  have h5 : a ^ 2 * ‖S‖ ^ 2 ≤ a * inner ℝ S (x - y) := by
    calc a ^ 2 * ‖S‖ ^ 2 ≤ a ^ 2 * (k * (L * inner ℝ S (x - y))) := mul_le_mul_of_nonneg_left h3 (sq_nonneg a)
      _ = a * (k * L) * (a * inner ℝ S (x - y)) := by ring
      _ ≤ 1 * (a * inner ℝ S (x - y)) := mul_le_mul_of_nonneg_right hk (mul_nonneg ha h4)
      _ = _ := one_mul _
  have h6 := mul_le_mul_of_nonneg_left h2 ha
  have h7 : ((1 - a * (k * μ) / 2) * ‖x - y‖) ^ 2 = ‖x - y‖ ^ 2 - a * (k * μ * ‖x - y‖ ^ 2) + (a * (k * μ) / 2 * ‖x - y‖) ^ 2 := by
    ring
  rw [h7]
  have := sq_nonneg (a * (k * μ) / 2 * ‖x - y‖)
  linarith

end

/-- A sum of `n` functions, implemented as documented: `loss v j` is function `j` in the order belonging to the state `v` of
the user code (`Shuffle` changes the order), `gr v j` its gradient; each is `L`-smooth and `μ`-strongly convex, `z` is the
minimiser of the sum, and `Γ` bounds the single gradients at `z`.  Callbacks only watch, or ask to stop. -/
structure StrongSum (u : User V (Vec d) (Vec d) E) (n : Nat) (loss : V → Nat → Vec d → ℝ) (gr : V → Nat → Vec d → Vec d)
    (L μ Γ : ℝ) (z : Vec d) : Prop where
  grad : ∀ v x b k, (u.evalGrad v x b k).2.2 = ∑ j ∈ Finset.range k, gr v (b + j) x
  smooth : ∀ v j, LSmooth (loss v j) (gr v j) L
  convex : ∀ v j, StronglyConvex (loss v j) (gr v j) μ
  crit : ∀ v, ∑ j ∈ Finset.range n, gr v j z = 0
  bound : ∀ v j, ‖gr v j z‖ ≤ Γ
  evalGrad_keeps : ∀ v x b k, gr (u.evalGrad v x b k).1 = gr v
  cbEvalGrad_keeps : ∀ v x e g, gr (u.cbEvalGrad v x e g).1 = gr v
  cbEvalGrad_grad : ∀ v x e g, (u.cbEvalGrad v x e g).2.1 = g
  cbStep_keeps : ∀ v x, gr (u.cbStep v x).1 = gr v
  cbStep_x : ∀ v x, (u.cbStep v x).2.1 = x
  cbBegin : ∀ v x, (u.cbBegin v x).2 = x

variable {u : User V (Vec d) (Vec d) E} {n : Nat} {loss : V → Nat → Vec d → ℝ} {gr : V → Nat → Vec d → Vec d}
  {L μ Γ a : ℝ} {z : Vec d}

/-- The point that the steps with the gradients at `z` itself lead to: it returns to `z` at the end of each epoch. -/
noncomputable def shadow (gr : V → Nat → Vec d → Vec d) (a : ℝ) (z : Vec d) (v : V) (c : Nat) : Vec d :=
  z - a • ∑ j ∈ Finset.range c, gr v j z

theorem shadow_dist (hu : StrongSum u n loss gr L μ Γ z) (ha : 0 ≤ a) (v : V) (c : Nat) :
    ‖shadow gr a z v c - z‖ ≤ a * (c * Γ) := by
  rw [shadow, sub_sub_cancel_left, norm_neg, norm_smul, Real.norm_of_nonneg ha]
  refine mul_le_mul_of_nonneg_left ?_ ha
  refine (norm_sum_le _ _).trans ((Finset.sum_le_card_nsmul _ _ Γ fun j _ => hu.bound v j).trans (le_of_eq ?_))
  simp

/-- One batch. -/
theorem batch_near (hu : StrongSum u n loss gr L μ Γ z) (hL : 0 < L) (hμ : 0 < μ) (hμL : μ ≤ L) (ha : 0 ≤ a) (v : V)
    {b k : Nat} (hb : b + k ≤ n) (hk : a * (k * L) ≤ 1) (x : Vec d) {D : ℝ} (hD : 0 ≤ D) {i : Nat}
    (h : ‖x - shadow gr a z v b‖ ≤ (1 - a * μ / 2) ^ i * D + 2 * a * L * n * Γ / μ) :
    ‖x - a • (∑ j ∈ Finset.range k, gr v (b + j) x) - shadow gr a z v (b + k)‖ ≤
      (1 - a * μ / 2) ^ (i + k) * D + 2 * a * L * n * Γ / μ := by
  set s := shadow gr a z v b with hs
  have hΓ : 0 ≤ Γ := (norm_nonneg _).trans (hu.bound v 0)
  have hkm : a * (k * μ) ≤ 1 := by
    refine le_trans ?_ hk
    exact mul_le_mul_of_nonneg_left (mul_le_mul_of_nonneg_left hμL (Nat.cast_nonneg k)) ha
  have hconv : ∀ j x y, loss v j x + inner ℝ (gr v j x) (y - x) ≤ loss v j y := by
    intro j x y
    have := hu.convex v j x y
    have h2 : 0 ≤ μ / 2 * ‖y - x‖ ^ 2 := by positivity
    linarith
  have hco : ∀ j x y, ‖gr v (b + j) x - gr v (b + j) y‖ ^ 2 ≤ L * inner ℝ (gr v (b + j) x - gr v (b + j) y) (x - y) :=
    fun j => cocoercive hL (hu.smooth v _) (hconv _)
  have hmo : ∀ j x y, μ * ‖x - y‖ ^ 2 ≤ inner ℝ (gr v (b + j) x - gr v (b + j) y) (x - y) := by
    intro j x y
    have h1 := hu.convex v (b + j) x y
    have h2 := hu.convex v (b + j) y x
    rw [norm_sub_rev] at h1
    have h3 : inner ℝ (gr v (b + j) x) (y - x) = -inner ℝ (gr v (b + j) x) (x - y) := by
      rw [← neg_sub x y, inner_neg_right]
    rw [inner_sub_left]
    linarith
  have h1 := batch_contracts ha hco hmo hμ.le hk (by linarith) x s
  have h2 : ‖∑ j ∈ Finset.range k, gr v (b + j) s - ∑ j ∈ Finset.range k, gr v (b + j) z‖ ≤ k * (L * (a * (n * Γ))) := by
    rw [← Finset.sum_sub_distrib]
    refine (norm_sum_le _ _).trans ((Finset.sum_le_card_nsmul _ _ (L * (a * (n * Γ))) fun j _ => ?_).trans (le_of_eq (by simp)))
    refine ((hu.smooth v (b + j)).lip s z).trans (mul_le_mul_of_nonneg_left ?_ hL.le)
    refine (shadow_dist hu ha v b).trans (mul_le_mul_of_nonneg_left (mul_le_mul_of_nonneg_right ?_ hΓ) ha)
    exact_mod_cast (by omega : b ≤ n)
  have h3 : x - a • (∑ j ∈ Finset.range k, gr v (b + j) x) - shadow gr a z v (b + k) =
      ((x - a • ∑ j ∈ Finset.range k, gr v (b + j) x) - (s - a • ∑ j ∈ Finset.range k, gr v (b + j) s)) -
        a • (∑ j ∈ Finset.range k, gr v (b + j) s - ∑ j ∈ Finset.range k, gr v (b + j) z) := by
    rw [hs, shadow, shadow, Finset.sum_range_add, smul_add, smul_sub]
    abel
  rw [h3]
  refine (norm_sub_le _ _).trans ?_
  rw [norm_smul, Real.norm_of_nonneg ha]
  have h4 := mul_le_mul_of_nonneg_left h2 ha
  have h5 := mul_le_mul_of_nonneg_left h (by linarith : 0 ≤ 1 - a * (k * μ) / 2)
  have h6 : 1 - a * (k * μ) / 2 ≤ (1 - a * μ / 2) ^ k := by
    rcases Nat.eq_zero_or_pos k with rfl | hk0
    · simp
    · have hk1 : (1 : ℝ) ≤ k := by exact_mod_cast hk0
      have : a * μ ≤ a * (k * μ) := mul_le_mul_of_nonneg_left (le_mul_of_one_le_left hμ.le hk1) ha
      have hb := one_add_mul_le_pow (a := -(a * μ / 2)) (by linarith) k
      calc 1 - a * (k * μ) / 2 = 1 + k * -(a * μ / 2) := by ring
        _ ≤ _ := hb
        _ = _ := by ring
  have h7 : (1 - a * (k * μ) / 2) * ((1 - a * μ / 2) ^ i * D) ≤ (1 - a * μ / 2) ^ (i + k) * D := by
    rcases Nat.eq_zero_or_pos k with rfl | hk0
    · simp
    · have hk1 : (1 : ℝ) ≤ k := by exact_mod_cast hk0
      have : a * μ ≤ a * (k * μ) := mul_le_mul_of_nonneg_left (le_mul_of_one_le_left hμ.le hk1) ha
      have hp : 0 ≤ (1 - a * μ / 2) ^ i * D := mul_nonneg (pow_nonneg (by linarith) _) hD
      calc _ ≤ (1 - a * μ / 2) ^ k * ((1 - a * μ / 2) ^ i * D) := mul_le_mul_of_nonneg_right h6 hp
        _ = _ := by rw [pow_add]; ring
  have h8 : (1 - a * (k * μ) / 2) * (2 * a * L * n * Γ / μ) + a * (k * (L * (a * (n * Γ)))) = 2 * a * L * n * Γ / μ := by
    field_simp
    ring
  rw [mul_add] at h5
  linarith

/-- The predicate that a run preserves. -/
def Near (n : Nat) (gr : V → Nat → Vec d → Vec d) (L μ Γ a : ℝ) (z : Vec d) (D : ℝ) (i : Nat)
    (w : Live (Fin d → Unit) Unit Unit ℝ × V) (x : Vec d) : Prop :=
  w.1.step = a ∧ ‖x - shadow gr a z w.2 (i % n)‖ ≤ (1 - a * μ / 2) ^ i * D + 2 * a * L * n * Γ / μ

theorem near_preserved {p : Params} (hu : StrongSum u p.numFunctions loss gr L μ Γ z) (hL : 0 < L)
    (hμ : 0 < μ) (hμL : μ ≤ L) (ha : 0 ≤ a) (hB : a * (p.batchSize * L) ≤ 1) {D : ℝ} (hD : 0 ≤ D) :
    Preserved (mkEnv (lift vanilla) (noDecay (Vec d) (Vec d)) u) p (Near p.numFunctions gr L μ Γ a z D) where
  beginEpoch := by
    intro i w x m e hi ⟨h1, h2⟩
    refine ⟨h1, ?_⟩
    rw [hi, shadow, Finset.sum_range_zero] at h2 ⊢
    exact h2
  endEpoch := by
    intro i w x m e hi ⟨h1, h2⟩
    refine ⟨h1, ?_⟩
    rw [hi, shadow, Finset.sum_range_zero] at h2 ⊢
    exact h2
  shuffle := by
    intro _ i w x hi ⟨h1, h2⟩
    refine ⟨h1, ?_⟩
    rw [hi, shadow, Finset.sum_range_zero] at h2 ⊢
    exact h2
  batch := by
    intro i w x k hk0 hk hle ⟨h1, h2⟩
    have hka : a * (k * L) ≤ 1 := by
      refine le_trans (mul_le_mul_of_nonneg_left (mul_le_mul_of_nonneg_right ?_ hL.le) ha) hB
      exact_mod_cast hk
    have h3 := batch_near hu hL hμ hμL ha w.2 hle hka x hD h2
    simp only [mkEnv, noDecay]
    refine ⟨h1, ?_⟩
    rw [hu.cbStep_x, hu.cbEvalGrad_grad, h1, hu.grad]
    have e1 : ∀ g : Vec d, ((lift vanilla : UpdPol (Fin d → Unit) ℝ (Vec d) (Vec d)).upd w.1.upd x a g).2 = x - a • g := by
      intro g
      ext c
      simp [lift, vanilla]
    rw [e1]
    have e2 : ∀ v, gr v = gr w.2 → shadow gr a z v ((i + k) % p.numFunctions) =
        shadow gr a z w.2 (i % p.numFunctions + k) := by
      intro v hv
      rcases Nat.lt_or_ge (i % p.numFunctions + k) p.numFunctions with hlt | hge
      · rw [← Nat.mod_add_mod, Nat.mod_eq_of_lt hlt, shadow, shadow, hv]
      · have he : i % p.numFunctions + k = p.numFunctions := by omega
        rw [← Nat.mod_add_mod, he, Nat.mod_self, shadow, shadow, hu.crit, Finset.sum_range_zero]
    rw [e2]
    · exact h3
    · rw [hu.cbStep_keeps, hu.cbEvalGrad_keeps, hu.evalGrad_keeps]

/-- **C297** `StandardSGD` on a sum of strongly convex smooth functions, with or without shuffling, any batch size with
`stepSize · batchSize · L ≤ 1`, however the run ends: if it has visited `i` functions, the coordinates handed back are no
further from the minimiser `z` than `(1 - stepSize μ / 2) ^ i` times the distance of the start, plus
`2 stepSize L n Γ / μ`, plus `stepSize Γ` for each function visited in an unfinished epoch. -/
theorem C297_distance {p : Params} (hu : StrongSum u p.numFunctions loss gr L μ Γ z) (hn : 0 < p.numFunctions)
    (hb : 0 < p.batchSize) (hL : 0 < L) (hμ : 0 < μ) (hμL : μ ≤ L) {o : Obj (Fin d → Unit) Unit Unit ℝ}
    (ha : 0 < o.step) (hB : o.step * (p.batchSize * L) ≤ 1) {reset : Bool} {fuel : Nat} {v : V} {x : Vec d}
    {r : Result (Live (Fin d → Unit) Unit Unit ℝ × V) (Vec d) E}
    (h : optimizeObj (lift vanilla) (noDecay (Vec d) (Vec d)) u p reset fuel o v x = .returned r) :
    ‖r.x - z‖ ≤ (1 - o.step * μ / 2) ^ (visits r.trace).length * ‖x - z‖ + 2 * o.step * L * p.numFunctions * Γ / μ +
      o.step * (((visits r.trace).length % p.numFunctions : Nat) * Γ) := by
  obtain ⟨⟨w, hw, hd⟩, -⟩ := optimize_preserved
    (near_preserved hu hL hμ hμL ha.le hB (norm_nonneg (x - z))) hn hb
    (by
      refine ⟨rfl, ?_⟩
      show ‖(u.cbBegin v x).2 - _‖ ≤ _
      rw [hu.cbBegin, Nat.zero_mod, shadow, Finset.sum_range_zero, smul_zero, sub_zero, pow_zero, one_mul]
      have hΓ : 0 ≤ Γ := (norm_nonneg _).trans (hu.bound v 0)
      have : 0 ≤ 2 * o.step * L * p.numFunctions * Γ / μ := by positivity
      linarith) h
  have h2 := shadow_dist hu ha.le w.2 ((visits r.trace).length % p.numFunctions)
  calc ‖r.x - z‖ = ‖(r.x - shadow gr o.step z w.2 ((visits r.trace).length % p.numFunctions)) +
        (shadow gr o.step z w.2 ((visits r.trace).length % p.numFunctions) - z)‖ := by congr 1; abel
    _ ≤ _ := norm_add_le _ _
    _ ≤ _ := add_le_add hd h2

/-- **C297** So small step sizes lead close to the minimiser: for every `ε` there is a bound on the step size such that every
run with a smaller one ends within `ε` of the minimiser once it has visited enough functions. -/
theorem C297_reaches {p : Params} (hu : StrongSum u p.numFunctions loss gr L μ Γ z) (hn : 0 < p.numFunctions)
    (hb : 0 < p.batchSize) (hL : 0 < L) (hμ : 0 < μ) (hμL : μ ≤ L) (x : Vec d) {ε : ℝ} (hε : 0 < ε) :
    ∃ a₀ : ℝ, 0 < a₀ ∧ ∀ o : Obj (Fin d → Unit) Unit Unit ℝ, 0 < o.step → o.step ≤ a₀ → ∃ N : Nat,
      ∀ (reset : Bool) (fuel : Nat) (v : V) (r : Result (Live (Fin d → Unit) Unit Unit ℝ × V) (Vec d) E) (q : Params),
        q.numFunctions = p.numFunctions → q.batchSize = p.batchSize →
        optimizeObj (lift vanilla) (noDecay (Vec d) (Vec d)) u q reset fuel o v x = .returned r →
        N ≤ (visits r.trace).length → ‖r.x - z‖ < ε := by
  by_cases hV : Nonempty V
  swap
  · exact ⟨1, one_pos, fun o _ _ => ⟨0, fun _ _ v => (hV ⟨v⟩).elim⟩⟩
  obtain ⟨v0⟩ := hV
  have hΓ : 0 ≤ Γ := (norm_nonneg _).trans (hu.bound v0 0)
  have hB' : (0 : ℝ) < p.batchSize := by exact_mod_cast hb
  have hn' : (0 : ℝ) < p.numFunctions := by exact_mod_cast hn
  set K := 2 * L * p.numFunctions * Γ / μ + p.numFunctions * Γ with hK
  have hK0 : 0 ≤ K := by positivity
  refine ⟨min (1 / (p.batchSize * L)) (ε / (2 * (K + 1))), lt_min (by positivity) (by positivity), ?_⟩
  intro o ho hle
  have h1 : o.step * (p.batchSize * L) ≤ 1 := by
    have := hle.trans (min_le_left _ _)
    rwa [le_div_iff₀ (by positivity)] at this
  have h2 : o.step * K < ε / 2 := by
    have h3 := hle.trans (min_le_right _ _)
    rw [le_div_iff₀ (by positivity)] at h3
    nlinarith
  have hq1 : o.step * μ ≤ 1 := by
    have : (1 : ℝ) ≤ p.batchSize := by exact_mod_cast hb
    refine le_trans (mul_le_mul_of_nonneg_left (hμL.trans ?_) ho.le) h1
    exact le_mul_of_one_le_left hL.le this
  have hlt : |1 - o.step * μ / 2| < 1 := by
    have := mul_pos ho hμ
    rw [abs_lt]
    constructor <;> linarith
  have hq0 : 0 ≤ 1 - o.step * μ / 2 := by linarith
  obtain ⟨N, hN⟩ := exists_pow_lt_of_lt_one (show 0 < ε / 2 / (‖x - z‖ + 1) by positivity) (abs_lt.1 hlt).2
  refine ⟨N, ?_⟩
  intro reset fuel v r q hqn hqb h hvis
  have hd := C297_distance (p := q) (by rw [hqn]; exact hu) (by rw [hqn]; exact hn) (by rw [hqb]; exact hb) hL hμ hμL ho
    (by rw [hqb]; exact h1) h
  rw [hqn] at hd
  have h3 : (1 - o.step * μ / 2) ^ (visits r.trace).length ≤ (1 - o.step * μ / 2) ^ N :=
    pow_le_pow_of_le_one hq0 (abs_lt.1 hlt).2.le hvis
  have h4 : (1 - o.step * μ / 2) ^ N * (‖x - z‖ + 1) < ε / 2 := by
    rwa [lt_div_iff₀ (by positivity)] at hN
  have h5 : (1 - o.step * μ / 2) ^ (visits r.trace).length * ‖x - z‖ ≤ (1 - o.step * μ / 2) ^ N * (‖x - z‖ + 1) := by
    refine mul_le_mul h3 (by linarith) (norm_nonneg _) (pow_nonneg hq0 _)
  have h6 : o.step * (((visits r.trace).length % p.numFunctions : Nat) * Γ) ≤ o.step * (p.numFunctions * Γ) := by
    refine mul_le_mul_of_nonneg_left (mul_le_mul_of_nonneg_right ?_ hΓ) ho.le
    exact_mod_cast (Nat.mod_lt _ hn).le
  have h7 : 2 * o.step * L * p.numFunctions * Γ / μ + o.step * (p.numFunctions * Γ) = o.step * K := by
    rw [hK]; ring
  linarith

/-! ### A concrete sum: the squared distances from `c` and `-c`, in an order that `Shuffle` reverses -/

/-- Which of the two centres function `j` has, in the order `v`. -/
noncomputable def centre (c : Vec d) (v : Bool) (j : Nat) : Vec d := if (j % 2 == 0) = v then c else -c

/-- A function object for `‖x - c‖² / 2 + ‖x + c‖² / 2`; the order is `v`; callbacks only watch; the objective values are not
used by the iteration. -/
noncomputable def pairUser (c : Vec d) : User Bool (Vec d) (Vec d) Unit where
  evalGrad := fun v x b k => (v, (), ∑ j ∈ Finset.range k, (x - centre c v (b + j)))
  evaluate := fun v _ _ _ => (v, ())
  shuffle := fun v => !v
  cbBegin := fun v x => (v, x)
  cbBeginEpoch := fun v _ _ _ => (v, false)
  cbEvalGrad := fun v _ _ g => (v, g, false)
  cbStep := fun v x => (v, x, false)
  cbEndEpoch := fun v _ _ _ => (v, false)
  cbEvaluate := fun v _ _ => (v, false)
  cbEnd := fun v x => (v, x)
  add := fun _ _ => ()
  zero := ()
  divN := fun _ _ => ()
  dblMax := ()
  isBad := fun _ => false
  isClose := fun _ _ => false

theorem pairUser_strong (c : Vec d) :
    StrongSum (pairUser c) 2 (fun v j x => half (x - centre c v j)) (fun v j x => x - centre c v j) 1 1 ‖c‖ 0 where
  grad _ _ _ _ := rfl
  smooth v j := by
    refine ⟨fun x => ?_, fun x y => by simp⟩
    have h := (half_smooth.grad (x - centre c v j)).comp x ((hasFDerivAt_id x).sub_const (centre c v j))
    exact h
  convex v j x y := by
    refine le_of_eq ?_
    simp only [half]
    rw [show y - centre c v j = (x - centre c v j) + (y - x) by abel, norm_add_sq_real]
    ring
  crit v := by
    cases v <;> simp [Finset.sum_range_succ, centre]
  bound v j := by
    unfold centre
    split <;> simp
  evalGrad_keeps _ _ _ _ := rfl
  cbEvalGrad_keeps _ _ _ _ := rfl
  cbEvalGrad_grad _ _ _ _ := rfl
  cbStep_keeps _ _ := rfl
  cbStep_x _ _ := rfl
  cbBegin _ _ := rfl

/-- Non-trivial case: a thousand epochs with shuffling, one function at a time, step size 1/10. -/
example (c x : Vec d) (v : Bool) : ∃ r, optimizeObj (lift vanilla) (noDecay (Vec d) (Vec d)) (pairUser c)
    ⟨2, 1, 2000, true, false⟩ true 2000 (Obj.new (1 / 10) ()) v x = .returned r ∧
    ‖r.x‖ ≤ (1 - 1 / 10 * 1 / 2) ^ (visits r.trace).length * ‖x‖ + 2 * (1 / 10) * 1 * 2 * ‖c‖ / 1 +
      1 / 10 * (((visits r.trace).length % 2 : Nat) * ‖c‖) := by
  obtain ⟨r, hr⟩ := run_returns (lift vanilla) (pairUser c) (p := ⟨2, 1, 2000, true, false⟩) two_pos one_pos (1 / 10) v x
  refine ⟨r, hr, ?_⟩
  have h := C297_distance (p := ⟨2, 1, 2000, true, false⟩) (pairUser_strong c) two_pos one_pos one_pos one_pos le_rfl
    (o := Obj.new (1 / 10) ()) (by norm_num [Obj.new]) (by norm_num [Obj.new]) hr
  simpa only [sub_zero, Obj.new, Nat.cast_ofNat] using h

/-- Non-trivial case: a step size that leads within `1/100`. -/
example (c x : Vec d) : ∃ a₀ : ℝ, 0 < a₀ ∧ ∀ a : ℝ, 0 < a → a ≤ a₀ → ∃ N : Nat, ∀ (v : Bool) (m : Nat) r,
    optimizeObj (lift vanilla) (noDecay (Vec d) (Vec d)) (pairUser c) ⟨2, 1, m, true, false⟩ true m (Obj.new a ()) v x =
      .returned r → N ≤ (visits r.trace).length → ‖r.x‖ < 1 / 100 := by
  obtain ⟨a₀, h0, h⟩ := C297_reaches (p := ⟨2, 1, 0, true, false⟩) (pairUser_strong c) two_pos one_pos one_pos one_pos le_rfl x
    (ε := 1 / 100) (by norm_num)
  refine ⟨a₀, h0, fun a ha hle => ?_⟩
  obtain ⟨N, hN⟩ := h (Obj.new a ()) ha hle
  refine ⟨N, fun v m r hr hv => ?_⟩
  simpa using hN true m v r ⟨2, 1, m, true, false⟩ rfl rfl hr hv

/-- **C297** The neighbourhood is real: without shuffling, on `‖x - c‖² / 2 + ‖x + c‖² / 2` (minimiser `0`) started at
`-stepSize / (2 - stepSize) c`, `StandardSGD` ends every epoch at that same point, however many epochs it runs. -/
theorem C297_bias (c : Vec d) {a : ℝ} (ha : a ≠ 2) (m : Nat) (fuel : Nat) (exact : Bool)
    {r : Result (Live (Fin d → Unit) Unit Unit ℝ × Bool) (Vec d) Unit}
    (h : optimizeObj (lift vanilla) (noDecay (Vec d) (Vec d)) (pairUser c) ⟨2, 1, 2 * m, false, exact⟩ true fuel
      (Obj.new a ()) true (-((a / (2 - a)) • c)) = .returned r) (hv : (visits r.trace).length % 2 = 0) :
    r.x = -((a / (2 - a)) • c) := by
  set x₀ : Vec d := -((a / (2 - a)) • c) with hx₀
  have h2a : 2 - a ≠ 0 := sub_ne_zero.2 ha.symm
  have e1 : ∀ (s : Fin d → Unit) (x g : Vec d), ((lift vanilla : UpdPol (Fin d → Unit) ℝ (Vec d) (Vec d)).upd s x a g).2 =
      x - a • g := by
    intro s x g
    ext c
    simp [lift, vanilla]
  have hP : Preserved (mkEnv (lift vanilla) (noDecay (Vec d) (Vec d)) (pairUser c)) ⟨2, 1, 2 * m, false, exact⟩
      (fun i w x => w.1.step = a ∧ w.2 = true ∧ x = if i % 2 = 0 then x₀ else x₀ - a • (x₀ - c)) := by
    refine ⟨fun _ _ _ _ _ _ h => h, fun _ _ _ _ _ _ h => h, fun h => absurd h Bool.false_ne_true, ?_⟩
    intro i w x k hk0 hk _ ⟨h1, h2, h3⟩
    have hk1 : k = 1 := by
      have : k ≤ 1 := hk
      omega
    subst hk1
    simp only [mkEnv, noDecay, pairUser]
    refine ⟨h1, h2, ?_⟩
    rw [h1, e1, h2, Finset.sum_range_one, Nat.add_zero]
    rcases Nat.mod_two_eq_zero_or_one i with hi | hi
    · rw [if_pos hi] at h3
      rw [hi, if_neg (by omega), h3]
      simp [centre]
    · rw [if_neg (by omega)] at h3
      rw [hi, if_pos (by omega), h3]
      simp only [centre]
      norm_num
      rw [hx₀]
      ext q
      simp only [PiLp.add_apply, PiLp.sub_apply, PiLp.smul_apply, PiLp.neg_apply, smul_eq_mul]
      field_simp
      ring
  obtain ⟨⟨w, -, -, hx⟩, -⟩ := optimize_preserved hP two_pos one_pos ⟨rfl, rfl, rfl⟩ h
  rwa [if_pos hv] at hx

/-- Non-trivial case: step size 1/2 and two epochs: the run ends at `-c / 3`. -/
example (c : Vec d) : ∃ r, optimizeObj (lift vanilla) (noDecay (Vec d) (Vec d)) (pairUser c) ⟨2, 1, 2 * 2, false, false⟩ true 4
    (Obj.new (1 / 2) ()) true (-((1 / 2 / (2 - 1 / 2) : ℝ) • c)) = .returned r ∧
    ((visits r.trace).length % 2 = 0 → r.x = -((1 / 2 / (2 - 1 / 2) : ℝ) • c)) := by
  obtain ⟨r, hr⟩ := run_returns (lift vanilla) (pairUser c) (p := ⟨2, 1, 2 * 2, false, false⟩) two_pos one_pos (1 / 2) true
    (-((1 / 2 / (2 - 1 / 2) : ℝ) • c))
  exact ⟨r, hr, C297_bias c (by norm_num) 2 4 false hr⟩

end Ens.Converge
