import Verif.Converge.Momentum
import Verif.Converge.LbfgsDir
import Mathlib.Analysis.SpecialFunctions.Log.Basic

/-
C287: `NesterovMomentumSGD` on the whole sum is the accelerated gradient method on strongly convex functions.
-/

namespace Ens.Converge

open Ens.Sgd Ens.Update
open scoped InnerProductSpace

section seq
variable {V : Type} [NormedAddCommGroup V] [InnerProductSpace ℝ V] {f : V → ℝ} {g : V → V} {L θ : ℝ} {X v : Nat → V}

/-- The energy of the accelerated method: `y` is the iterate of the code, `x` the iterate without its momentum term, `z` the
auxiliary point of the analysis. -/
noncomputable def energy (f : V → ℝ) (μ θ : ℝ) (s x y : V) : ℝ :=
  f x - f s + μ / 2 * ‖(1 / θ) • ((1 + θ) • y - x) - s‖ ^ 2

theorem norm_mix (θ : ℝ) (a b : V) :
    ‖(1 - θ) • a + θ • b‖ ^ 2 = (1 - θ) * ‖a‖ ^ 2 + θ * ‖b‖ ^ 2 - θ * (1 - θ) * ‖a - b‖ ^ 2 := by
  rw [norm_add_sq_real, norm_sub_sq_real, real_inner_smul_left, real_inner_smul_right, norm_smul, norm_smul, mul_pow, mul_pow,
    Real.norm_eq_abs, Real.norm_eq_abs, sq_abs, sq_abs]
  ring

theorem energy_step (hs : LSmooth f g L) (hc : StronglyConvex f g (θ ^ 2 * L)) (hL : 0 < L) (h0 : 0 < θ) (h1 : θ ≤ 1)
    (s : V) {x y x' y' : V} (hx : x' = y - (1 / L) • g y) (hy : y' = x' + ((1 - θ) / (1 + θ)) • (x' - x)) :
    energy f (θ ^ 2 * L) θ s x' y' ≤ (1 - θ) * energy f (θ ^ 2 * L) θ s x y := by
  set z := (1 / θ) • ((1 + θ) • y - x) with hz
  set a := z - s with ha
  set b := y - s with hb
  have hxy : x - y = θ • (b - a) := by
    have e1 : θ • z = (1 + θ) • y - x := by rw [hz, smul_smul, mul_one_div_cancel h0.ne', one_smul]
    have e2 : b - a = y - z := by rw [ha, hb]; abel
    rw [e2, smul_sub, e1, add_smul, one_smul]
    abel
  have hz' : (1 / θ) • ((1 + θ) • y' - x') - s = (1 - θ) • a + θ • b - (1 / (θ * L)) • g y := by
    have e0 : (1 + θ) • y' = (1 + θ) • x' + (1 - θ) • (x' - x) := by
      rw [hy, smul_add, smul_smul, mul_div_cancel₀ _ (by linarith : (1 + θ) ≠ 0)]
    have e1 : x = y + θ • (b - a) := by rw [← hxy]; abel
    rw [e0, e1, hx]
    have e2 : y = b + s := by rw [hb]; abel
    have e3 : (1 / (θ * L)) • g y = (1 / θ) • ((1 / L) • g y) := by rw [smul_smul]; congr 1; field_simp
    rw [e3]
    generalize (1 / L) • g y = w
    rw [e2]
    clear_value a b
    match_scalars <;> field_simp <;> ring
  have d1 := hs.descent y x'
  have d2 : f x' ≤ f y - ‖g y‖ ^ 2 / (2 * L) := by
    have e : x' - y = -((1 / L) • g y) := by rw [hx]; abel
    rw [e, inner_neg_right, real_inner_smul_right, norm_neg, norm_smul, real_inner_self_eq_norm_sq, mul_pow] at d1
    have : L / 2 * (‖1 / L‖ ^ 2 * ‖g y‖ ^ 2) = ‖g y‖ ^ 2 / (2 * L) := by
      rw [Real.norm_eq_abs, sq_abs]; field_simp
    have e3 : 1 / L * ‖g y‖ ^ 2 = 2 * (‖g y‖ ^ 2 / (2 * L)) := by field_simp
    linarith
  have c1 := hc y s
  have c2 := hc y x
  have hμ : 0 ≤ θ ^ 2 * L := by positivity
  have c2' : f y + ⟪g y, x - y⟫_ℝ ≤ f x := by nlinarith [sq_nonneg ‖x - y‖]
  rw [hxy, real_inner_smul_right, inner_sub_right] at c2'
  have hsy : s - y = -b := by rw [hb]; abel
  rw [hsy, inner_neg_right, norm_neg] at c1
  have hn : ‖(1 - θ) • a + θ • b - (1 / (θ * L)) • g y‖ ^ 2 = ‖(1 - θ) • a + θ • b‖ ^ 2 -
      2 / (θ * L) * ((1 - θ) * ⟪g y, a⟫_ℝ + θ * ⟪g y, b⟫_ℝ) + (1 / (θ * L)) ^ 2 * ‖g y‖ ^ 2 := by
    rw [norm_sub_sq_real, real_inner_smul_right, norm_smul, mul_pow, Real.norm_eq_abs, sq_abs, real_inner_comm, inner_add_right,
      real_inner_smul_right, real_inner_smul_right]
    ring
  have hcv : ‖(1 - θ) • a + θ • b‖ ^ 2 ≤ (1 - θ) * ‖a‖ ^ 2 + θ * ‖b‖ ^ 2 := by
    have e := norm_mix θ a b
    have : 0 ≤ θ * (1 - θ) * ‖a - b‖ ^ 2 := mul_nonneg (mul_nonneg h0.le (by linarith)) (sq_nonneg _)
    linarith
  unfold energy
  rw [hz', hn, ← hz, ← ha]
  have e1 : θ ^ 2 * L / 2 * (2 / (θ * L) * ((1 - θ) * ⟪g y, a⟫_ℝ + θ * ⟪g y, b⟫_ℝ)) =
      θ * ((1 - θ) * ⟪g y, a⟫_ℝ + θ * ⟪g y, b⟫_ℝ) := by field_simp
  have e2 : θ ^ 2 * L / 2 * ((1 / (θ * L)) ^ 2 * ‖g y‖ ^ 2) = ‖g y‖ ^ 2 / (2 * L) := by field_simp
  have e3 := mul_le_mul_of_nonneg_left hcv (by positivity : 0 ≤ θ ^ 2 * L / 2)
  have e4 := mul_le_mul_of_nonneg_left c2' (by linarith : 0 ≤ 1 - θ)
  have e5 := mul_le_mul_of_nonneg_left c1 h0.le
  rw [mul_add, mul_sub, e1, e2]
  nlinarith

theorem energy_start (f : V → ℝ) (μ : ℝ) (h0 : 0 < θ) (s x : V) : energy f μ θ s x x = f x - f s + μ / 2 * ‖x - s‖ ^ 2 := by
  unfold energy
  rw [add_smul, one_smul, add_sub_cancel_left, smul_smul, one_div_mul_cancel h0.ne', one_smul]

/-- The value at the iterate of the code. -/
theorem energy_value (hs : LSmooth f g L) (hc : StronglyConvex f g (θ ^ 2 * L)) (hL : 0 < L) (h0 : 0 < θ) (h1 : θ ≤ 1)
    {s : V} (hg : g s = 0) (x y : V) : f y - f s ≤ energy f (θ ^ 2 * L) θ s x y / θ := by
  set z := (1 / θ) • ((1 + θ) • y - x) with hz
  have hμ : 0 ≤ θ ^ 2 * L := by positivity
  have c1 : f y + ⟪g y, x - y⟫_ℝ ≤ f x := by have := hc y x; nlinarith [sq_nonneg ‖x - y‖]
  have c2 : f y + ⟪g y, z - y⟫_ℝ ≤ f z := by have := hc y z; nlinarith [sq_nonneg ‖z - y‖]
  have e : x - y = -(θ • (z - y)) := by
    have e1 : θ • z = (1 + θ) • y - x := by rw [hz, smul_smul, mul_one_div_cancel h0.ne', one_smul]
    rw [smul_sub, e1, add_smul, one_smul]
    abel
  rw [e, inner_neg_right, real_inner_smul_right] at c1
  have d := hs.descent s z
  rw [hg, inner_zero_left] at d
  have c3 := hc.dist hg x
  have hx : 0 ≤ f x - f s := le_trans (by positivity) c3
  unfold energy
  rw [← hz, le_div_iff₀ h0]
  have h3 : θ * (f y + ⟪g y, z - y⟫_ℝ) ≤ θ * f z := mul_le_mul_of_nonneg_left c2 h0.le
  have h4 : (1 + θ) * (f y - f s) ≤ (f x - f s) + θ * (L / 2 * ‖z - s‖ ^ 2) := by nlinarith
  have hq : 0 ≤ L / 2 * ‖z - s‖ ^ 2 := by positivity
  have c4 := hc.dist hg y
  have hy : 0 ≤ f y - f s := le_trans (by positivity) c4
  have h5 : θ * ((1 + θ) * (f y - f s)) ≤ θ * ((f x - f s) + θ * (L / 2 * ‖z - s‖ ^ 2)) := mul_le_mul_of_nonneg_left h4 h0.le
  nlinarith [mul_nonneg h0.le hy, mul_nonneg (mul_nonneg h0.le h0.le) hy, mul_nonneg (by linarith : 0 ≤ 1 - θ) hx]

theorem accelerated_seq (hs : LSmooth f g L) (hc : StronglyConvex f g (θ ^ 2 * L)) (hL : 0 < L) (h0 : 0 < θ) (h1 : θ ≤ 1)
    {s : V} (hg : g s = 0) (hv0 : v 0 = 0)
    (hv : ∀ k, v (k + 1) = ((1 - θ) / (1 + θ)) • v k - (1 / L) • g (X k))
    (hx : ∀ k, X (k + 1) = X k + (((1 - θ) / (1 + θ)) • v (k + 1) - (1 / L) • g (X k))) (k : Nat) :
    f (X k) - f s ≤ (1 - θ) ^ k / θ * (f (X 0) - f s + θ ^ 2 * L / 2 * ‖X 0 - s‖ ^ 2) := by
  have he : ∀ k, energy f (θ ^ 2 * L) θ s (X k - ((1 - θ) / (1 + θ)) • v k) (X k) ≤
      (1 - θ) ^ k * (f (X 0) - f s + θ ^ 2 * L / 2 * ‖X 0 - s‖ ^ 2) := by
    intro k
    induction k with
    | zero => rw [hv0, smul_zero, sub_zero, energy_start f _ h0, pow_zero, one_mul]
    | succ k ih =>
      have hY : X (k + 1) - ((1 - θ) / (1 + θ)) • v (k + 1) = X k - (1 / L) • g (X k) := by rw [hx]; abel
      have st := energy_step hs hc hL h0 h1 s (x := X k - ((1 - θ) / (1 + θ)) • v k) (y := X k) (y' := X (k + 1)) hY
        (by rw [hY, show X k - (1 / L) • g (X k) - (X k - ((1 - θ) / (1 + θ)) • v k) =
              v (k + 1) by rw [hv]; abel, hx]; abel)
      refine st.trans ?_
      rw [pow_succ (1 - θ) k, mul_comm ((1 - θ) ^ k), mul_assoc]
      exact mul_le_mul_of_nonneg_left ih (by linarith)
  refine (energy_value hs hc hL h0 h1 hg (X k - ((1 - θ) / (1 + θ)) • v k) (X k)).trans ?_
  rw [div_mul_eq_mul_div]
  exact div_le_div_of_nonneg_right (he k) h0.le

end seq

variable {d : Nat} {f : Vec d → ℝ} {g : Vec d → Vec d} {L θ : ℝ}

/-- **C287** `NesterovMomentumSGD` on the whole sum, for an `L`-smooth function that is strongly convex with constant `θ² L`
(that is, with condition number `1/θ²`), step size `1/L` and momentum `(1 - θ) / (1 + θ)`: after `K` epochs that nothing stops
early, the gap of the returned coordinates is at most `(1 - θ)^K / θ` times the initial energy. -/
theorem C287_nesterov {V E : Type} (hs : LSmooth f g L) (hc : StronglyConvex f g (θ ^ 2 * L)) (hL : 0 < L) (h0 : 0 < θ)
    (h1 : θ ≤ 1) {s : Vec d} (hg : g s = 0) {u : User V (Vec d) (Vec d) E} {grad : Vec d → Nat → Nat → Vec d}
    (hq : Quiet u grad id id) {p : Params} (hn : 0 < p.numFunctions) (hb : p.numFunctions ≤ p.batchSize)
    (hgr : ∀ x, grad x 0 p.numFunctions = g x) {K : Nat} (hK : 0 < K) (hm : p.maxIterations = K * p.numFunctions) {fuel : Nat}
    {v : V} {x : Vec d} {r : Result (Live (Fin d → ℝ) Unit Unit ℝ × V) (Vec d) E}
    (h : optimizeObj (lift (nesterov ((1 - θ) / (1 + θ)))) (noDecay _ _) u p true fuel (Obj.new (1 / L) ()) v x = .returned r) :
    f r.x - f s ≤ (1 - θ) ^ K / θ * (f x - f s + θ ^ 2 * L / 2 * ‖x - s‖ ^ 2) := by
  rw [run_iter hq hn hb hgr hK hm h]
  refine accelerated_seq (X := fun k => (iter (lift (nesterov ((1 - θ) / (1 + θ)))) g (1 / L) x k).2)
    (v := fun k => WithLp.toLp 2 (iter (lift (nesterov ((1 - θ) / (1 + θ)))) g (1 / L) x k).1) hs hc hL h0 h1 hg ?_
    (fun k => ?_) (fun k => ?_) K
  · ext i
    simp [iter, lift, nesterov]
  · ext i
    simp [iter, lift, nesterov]
  · ext i
    simp [iter, lift, nesterov]

/-- **C287** So the number of epochs to reach a gap of `ε` grows like the square root of the condition number. -/
theorem C287_epochs {V E : Type} (hs : LSmooth f g L) (hc : StronglyConvex f g (θ ^ 2 * L)) (hL : 0 < L) (h0 : 0 < θ)
    (h1 : θ ≤ 1) {s : Vec d} (hg : g s = 0) {u : User V (Vec d) (Vec d) E} {grad : Vec d → Nat → Nat → Vec d}
    (hq : Quiet u grad id id) {p : Params} (hn : 0 < p.numFunctions) (hb : p.numFunctions ≤ p.batchSize)
    (hgr : ∀ x, grad x 0 p.numFunctions = g x) {K : Nat} (hK : 0 < K) (hm : p.maxIterations = K * p.numFunctions) {fuel : Nat}
    {v : V} {x : Vec d} {r : Result (Live (Fin d → ℝ) Unit Unit ℝ × V) (Vec d) E} {ε : ℝ} (hε : 0 < ε)
    (hKε : 1 / θ * Real.log (2 * (f x - f s) / (θ * ε)) ≤ K)
    (h : optimizeObj (lift (nesterov ((1 - θ) / (1 + θ)))) (noDecay _ _) u p true fuel (Obj.new (1 / L) ()) v x = .returned r) :
    f r.x - f s ≤ ε := by
  have hr := C287_nesterov hs hc hL h0 h1 hg hq hn hb hgr hK hm h
  have hd := hc.dist hg x
  have hnn : 0 ≤ f x - f s := le_trans (by positivity) hd
  have hp : 0 ≤ (1 - θ) ^ K / θ := div_nonneg (pow_nonneg (by linarith) K) h0.le
  refine hr.trans ((mul_le_mul_of_nonneg_left (by linarith : _ ≤ 2 * (f x - f s)) hp).trans ?_)
  rcases hnn.eq_or_lt with he | hpos
  · rw [← he, mul_zero, mul_zero]
    exact hε.le
  have hexp : (1 - θ) ^ K ≤ Real.exp (-(θ * K)) := by
    rw [mul_comm, ← mul_neg, Real.exp_nat_mul]
    exact pow_le_pow_left₀ (by linarith) (by have := Real.add_one_le_exp (-θ); linarith) K
  have hlog : Real.log (2 * (f x - f s) / (θ * ε)) ≤ θ * K := by
    rw [one_div, inv_mul_le_iff₀ h0] at hKε
    exact hKε
  have h3 : 2 * (f x - f s) / (θ * ε) ≤ Real.exp (θ * K) := by
    rw [← Real.log_le_iff_le_exp (by positivity)]
    exact hlog
  rw [div_le_iff₀ (by positivity)] at h3
  have h4 : Real.exp (-(θ * K)) * (Real.exp (θ * K) * (θ * ε)) = θ * ε := by
    rw [← mul_assoc, ← Real.exp_add, neg_add_cancel, Real.exp_zero, one_mul]
  rw [div_mul_eq_mul_div, div_le_iff₀ h0]
  calc (1 - θ) ^ K * (2 * (f x - f s)) ≤ Real.exp (-(θ * K)) * (Real.exp (θ * K) * (θ * ε)) :=
        mul_le_mul hexp h3 (by positivity) (Real.exp_pos _).le
    _ = ε * θ := by rw [h4, mul_comm]

/-! ### Without momentum -/

/-- `x ↦ c ‖x‖² / 2`. -/
noncomputable def bowl (c : ℝ) (x : Vec d) : ℝ := c / 2 * ‖x‖ ^ 2

theorem bowl_smooth {c L : ℝ} (h0 : 0 ≤ c) (hcL : c ≤ L) : LSmooth (bowl c (d := d)) (fun x => c • x) L := by
  refine ⟨fun x => ?_, fun x y => ?_⟩
  · have h := ((hasStrictFDerivAt_norm_sq x).hasFDerivAt).const_mul (c / 2 : ℝ)
    refine h.congr_fderiv ?_
    ext y
    simp [real_inner_smul_left]
    ring
  · rw [← smul_sub, norm_smul, Real.norm_eq_abs, abs_of_nonneg h0]
    exact mul_le_mul_of_nonneg_right hcL (norm_nonneg _)

theorem bowl_strong {c μ : ℝ} (h : μ ≤ c) : StronglyConvex (bowl c (d := d)) (fun x => c • x) μ := by
  intro x y
  have e : ‖y‖ ^ 2 = ‖x‖ ^ 2 + 2 * ⟪x, y - x⟫_ℝ + ‖y - x‖ ^ 2 := by
    rw [← norm_add_sq_real, add_sub_cancel]
  unfold bowl
  rw [e, real_inner_smul_left]
  nlinarith [sq_nonneg ‖y - x‖]

theorem bowl_iter (c a : ℝ) (x : Vec d) (K : Nat) :
    (iter (lift vanilla) (fun x : Vec d => c • x) a x K).2 = ((1 - a * c) ^ K) • x := by
  induction K with
  | zero => simp [iter]
  | succ K ih =>
    rw [iter, ih]
    ext i
    simp [lift, vanilla]
    ring

/-- **C287** `StandardSGD` has no such rate, whatever its step size: for every step size there is a function with the same
constants for which the gap after `K` epochs is at least `((1 - θ²) / (1 + θ²))^(2K)` times the initial one. -/
theorem C287_standard_slower (hL : 0 < L) (h0 : 0 < θ) (h1 : θ ≤ 1) (a : ℝ) :
    ∃ (f : Vec d → ℝ) (g : Vec d → Vec d), LSmooth f g L ∧ StronglyConvex f g (θ ^ 2 * L) ∧ g 0 = 0 ∧
      ∀ {V E : Type} {u : User V (Vec d) (Vec d) E} {grad : Vec d → Nat → Nat → Vec d} {p : Params} {K fuel : Nat} {v : V}
        {x : Vec d} {r : Result (Live (Fin d → Unit) Unit Unit ℝ × V) (Vec d) E}, Quiet u grad id id → 0 < p.numFunctions →
        p.numFunctions ≤ p.batchSize → (∀ x, grad x 0 p.numFunctions = g x) → 0 < K → p.maxIterations = K * p.numFunctions →
        optimizeObj (lift vanilla) (noDecay _ _) u p true fuel (Obj.new a ()) v x = .returned r →
        ((1 - θ ^ 2) / (1 + θ ^ 2)) ^ (2 * K) * (f x - f 0) ≤ f r.x - f 0 := by
  have hq0 : 0 ≤ (1 - θ ^ 2) / (1 + θ ^ 2) := div_nonneg (by nlinarith) (by positivity)
  have hθ : θ ^ 2 ≤ 1 := by nlinarith
  have key : ∃ c, 0 ≤ c ∧ c ≤ L ∧ θ ^ 2 * L ≤ c ∧ ((1 - θ ^ 2) / (1 + θ ^ 2)) ^ 2 ≤ (1 - a * c) ^ 2 := by
    by_cases hcase : a * L * (1 + θ ^ 2) ≤ 2
    · refine ⟨θ ^ 2 * L, by positivity, by nlinarith, le_rfl, ?_⟩
      refine pow_le_pow_left₀ hq0 ?_ 2
      rw [div_le_iff₀ (by positivity)]
      nlinarith [mul_le_mul_of_nonneg_left hcase (sq_nonneg θ)]
    · refine ⟨L, hL.le, le_rfl, by nlinarith, ?_⟩
      rw [← neg_sub (a * L) 1, neg_sq]
      refine pow_le_pow_left₀ hq0 ?_ 2
      rw [div_le_iff₀ (by positivity)]
      nlinarith
  obtain ⟨c, hc0, hcL, hcμ, hc⟩ := key
  refine ⟨bowl c, fun x => c • x, bowl_smooth hc0 hcL, bowl_strong hcμ, smul_zero _, ?_⟩
  intro V E u grad p K fuel v x r hq hn hb hgr hK hm h
  rw [run_iter hq hn hb hgr hK hm h, bowl_iter]
  simp only [bowl, norm_zero, norm_smul, mul_pow]
  rw [pow_mul, Real.norm_eq_abs, sq_abs, ← pow_mul (1 - a * c), mul_comm K 2, pow_mul]
  have h2 := pow_le_pow_left₀ (sq_nonneg _) hc K
  have h3 : 0 ≤ c / 2 * ‖x‖ ^ 2 := by positivity
  nlinarith [mul_le_mul_of_nonneg_right h2 h3]

/-- Hypotheses of C287 with constants `L = 1` and `μ = 1/100`; the momentum is then 9/11, and the run exists. -/
example : LSmooth (bowl 1 (d := 3)) (fun x => (1 : ℝ) • x) 1 ∧
    StronglyConvex (bowl 1 (d := 3)) (fun x => (1 : ℝ) • x) ((1 / 10) ^ 2 * 1) ∧ ((1 - 1 / 10) / (1 + 1 / 10) : ℝ) = 9 / 11 ∧
    ∃ r, optimizeObj (lift (nesterov (9 / 11))) (noDecay _ _) (plainUser fun x : Vec 3 => (1 : ℝ) • x) ⟨1, 1, 50, false, false⟩ true
      50 (Obj.new 1 ()) () (WithLp.toLp 2 fun _ => 1) = .returned r :=
  ⟨bowl_smooth (by norm_num) le_rfl, bowl_strong (by norm_num), by norm_num,
    run_returns _ _ (p := ⟨1, 1, 50, false, false⟩) one_pos one_pos _ _ _⟩

end Ens.Converge
