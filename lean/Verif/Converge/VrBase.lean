import Verif.Converge.LbfgsDir
import Verif.Vr.Svrg
import Verif.Vr.Sarah

/-
C262, C263: SVRG and SARAH on sums of smooth functions.  Shared parts: sums of smooth functions, and what a pass of many small
steps, whose directions stay close to the full gradient, does to the objective.
-/

namespace Ens.Converge

open Ens.Vr
open Ens.Vr.Svrg (average)

variable {W V : Type} [NormedAddCommGroup V] [InnerProductSpace ℝ V]

/-- The function is the sum of `n` smooth functions, visited in some order; gradients have the Lipschitz constant `L`; callbacks
do not change coordinates and gradients (they may stop the run, and Shuffle may reorder the functions). -/
structure SmoothSum (u : Ens.Vr.User W V V ℝ) (φ : Nat → V → ℝ) (γ : Nat → V → V) (perm : W → Nat → Nat) (L : ℝ) : Prop where
  sep : Separable u φ γ perm
  smooth : ∀ j, LSmooth (φ j) (γ j) L
  divG : ∀ g n, u.divG g n = (n : ℝ)⁻¹ • g
  step : ∀ w x, (u.cbStep w x).2.1 = x
  begin_ : ∀ w x, (u.cbBegin w x).2 = x
  end_ : ∀ w x, (u.cbEnd w x).2 = x

theorem objective_smooth {φ : Nat → V → ℝ} {γ : Nat → V → V} {L : ℝ} (h : ∀ j, LSmooth (φ j) (γ j) L) (n : Nat) :
    LSmooth (objective n φ) (objective n γ) (n * L) := by
  induction n with
  | zero =>
    refine ⟨fun x => ?_, fun x y => by simp [objective]⟩
    have : objective 0 φ = fun _ => 0 := rfl
    rw [this]
    simp only [objective, List.range_zero, List.map_nil, List.sum_nil, map_zero]
    exact hasFDerivAt_const 0 x
  | succ n ih =>
    have e1 : objective (n + 1) φ = fun x => objective n φ x + φ n x := by
      funext x; simp [objective, List.range_succ]
    have e2 : objective (n + 1) γ = fun x => objective n γ x + γ n x := by
      funext x; simp [objective, List.range_succ]
    rw [e1, e2]
    refine ⟨fun x => ?_, fun x y => ?_⟩
    · have := (ih.grad x).add ((h n).grad x)
      simp only [map_add]
      exact this
    · have k1 := ih.lip x y
      have k2 := (h n).lip x y
      calc ‖objective n γ x + γ n x - (objective n γ y + γ n y)‖
          = ‖(objective n γ x - objective n γ y) + (γ n x - γ n y)‖ := by congr 1; abel
        _ ≤ _ := (norm_add_le _ _).trans (add_le_add k1 k2)
        _ = _ := by push_cast; ring

/-- The mean gradient of a batch is Lipschitz as well. -/
theorem batch_lip {γ : Nat → V → V} {L : ℝ} (h : ∀ j x y, ‖γ j x - γ j y‖ ≤ L * ‖x - y‖) (σ : Nat → Nat) (a k : Nat) (hk : 0 < k)
    (x y : V) : ‖(k : ℝ)⁻¹ • (((List.range' a k).map fun i => γ (σ i) x).sum - ((List.range' a k).map fun i => γ (σ i) y).sum)‖ ≤
      L * ‖x - y‖ := by
  have key : ∀ l : List Nat, ‖(l.map fun i => γ (σ i) x).sum - (l.map fun i => γ (σ i) y).sum‖ ≤ l.length * (L * ‖x - y‖) := by
    intro l
    induction l with
    | nil => simp
    | cons i l ih =>
      simp only [List.map_cons, List.sum_cons, List.length_cons]
      have e : γ (σ i) x + (l.map fun i => γ (σ i) x).sum - (γ (σ i) y + (l.map fun i => γ (σ i) y).sum) =
        (γ (σ i) x - γ (σ i) y) + ((l.map fun i => γ (σ i) x).sum - (l.map fun i => γ (σ i) y).sum) := by abel
      rw [e]
      refine (norm_add_le _ _).trans ?_
      have := h (σ i) x y
      push_cast
      linarith
  have hk' : (0 : ℝ) < k := by exact_mod_cast hk
  rw [norm_smul, norm_inv, Real.norm_natCast]
  have := key (List.range' a k)
  rw [List.length_range'] at this
  rw [inv_mul_le_iff₀ hk']
  exact this

/-! ### Many small steps -/

/-- The relative errors of the directions of `j` steps, added up. -/
noncomputable def drift (s : ℝ) (j : Nat) : ℝ := ∑ i ∈ Finset.range j, ((1 + s) ^ i - 1)

theorem pow_le_linear {s : ℝ} (hs : 0 ≤ s) : ∀ i : Nat, i * s ≤ 1 / 2 → (1 + s) ^ i ≤ 1 + 2 * (i * s)
  | 0, _ => by simp
  | i + 1, h => by
    push_cast at h ⊢
    have ih := pow_le_linear hs i (by nlinarith)
    rw [pow_succ]
    have hi : (0 : ℝ) ≤ i := Nat.cast_nonneg i
    nlinarith [mul_nonneg hi hs]

theorem drift_le {s : ℝ} (hs : 0 ≤ s) : ∀ j : Nat, j * s ≤ 1 / 4 → drift s j ≤ j * (j * s)
  | 0, _ => by simp [drift]
  | j + 1, h => by
    push_cast at h
    have ih := drift_le hs j (by nlinarith)
    have hj : (0 : ℝ) ≤ j := Nat.cast_nonneg j
    have k := pow_le_linear hs j (by nlinarith)
    rw [drift, Finset.sum_range_succ]
    rw [drift] at ih
    push_cast
    nlinarith

/-- What a pass does that moves by about `-τ` times the mean gradient. -/
theorem pass_descent {F : V → ℝ} {G : V → V} {n : Nat} {L τ : ℝ} (hs : LSmooth F G (n * L)) (hn : 0 < n) (hL : 0 ≤ L) (hτ : 0 ≤ τ)
    (hτL : τ * L ≤ 1 / 4) {x y : V} (he : ‖y - x + τ • ((n : ℝ)⁻¹ • G x)‖ ≤ τ / 4 * ‖(n : ℝ)⁻¹ • G x‖) :
    F y ≤ F x - τ / (2 * n) * ‖G x‖ ^ 2 ∧ ‖G y‖ ≤ 21 / 16 * ‖G x‖ := by
  have hn' : (0 : ℝ) < n := by exact_mod_cast hn
  set g := (n : ℝ)⁻¹ • G x with hg
  have eG : G x = (n : ℝ) • g := by rw [hg, smul_smul, mul_inv_cancel₀ hn'.ne', one_smul]
  have eN : ‖G x‖ = n * ‖g‖ := by rw [eG, norm_smul, Real.norm_natCast]
  clear_value g
  set e := y - x + τ • g with hee
  have ed : y - x = e - τ • g := by rw [hee]; abel
  have hd : ‖y - x‖ ≤ 5 / 4 * (τ * ‖g‖) := by
    rw [ed]
    refine (norm_sub_le _ _).trans ?_
    rw [norm_smul, Real.norm_of_nonneg hτ]
    linarith
  have hg0 := norm_nonneg g
  have hd0 := norm_nonneg (y - x)
  constructor
  · have k := hs.descent x y
    have k1 : inner ℝ (G x) (y - x) ≤ -(3 / 4 * (n * (τ * ‖g‖ ^ 2))) := by
      rw [eG, ed, inner_sub_right, real_inner_smul_left, real_inner_smul_left, inner_smul_right, real_inner_self_eq_norm_sq]
      have c := (real_inner_le_norm g e).trans (mul_le_mul_of_nonneg_left he hg0)
      have := mul_le_mul_of_nonneg_left c hn'.le
      nlinarith
    have k2 : ‖y - x‖ ^ 2 ≤ (5 / 4 * (τ * ‖g‖)) ^ 2 := pow_le_pow_left₀ hd0 hd 2
    have k3 : n * L / 2 * ‖y - x‖ ^ 2 ≤ n * L / 2 * (5 / 4 * (τ * ‖g‖)) ^ 2 := mul_le_mul_of_nonneg_left k2 (by positivity)
    have k4 : n * L / 2 * (5 / 4 * (τ * ‖g‖)) ^ 2 = 25 / 32 * (τ * L) * (n * (τ * ‖g‖ ^ 2)) := by ring
    have k5 : 0 ≤ n * (τ * ‖g‖ ^ 2) := by positivity
    have k6 : 25 / 32 * (τ * L) * (n * (τ * ‖g‖ ^ 2)) ≤ 25 / 32 * (1 / 4) * (n * (τ * ‖g‖ ^ 2)) :=
      mul_le_mul_of_nonneg_right (by linarith) k5
    have k7 : τ / (2 * n) * ‖G x‖ ^ 2 = 1 / 2 * (n * (τ * ‖g‖ ^ 2)) := by
      rw [eN]; field_simp
    rw [k7]
    linarith
  · have k := hs.lip y x
    have k1 : ‖G y‖ ≤ ‖G x‖ + ‖G y - G x‖ := by
      have := norm_add_le (G x) (G y - G x)
      rwa [add_sub_cancel] at this
    have k2 : n * L * ‖y - x‖ ≤ n * L * (5 / 4 * (τ * ‖g‖)) := mul_le_mul_of_nonneg_left hd (by positivity)
    have k3 : n * L * (5 / 4 * (τ * ‖g‖)) = 5 / 4 * (τ * L) * (n * ‖g‖) := by ring
    have k4 : 5 / 4 * (τ * L) * (n * ‖g‖) ≤ 5 / 4 * (1 / 4) * (n * ‖g‖) :=
      mul_le_mul_of_nonneg_right (by linarith) (by positivity)
    rw [eN] at k1 ⊢
    linarith

/-- The same for `j` steps of size `a` whose directions have the relative errors `(1 + a L)^i - 1`. -/
theorem steps_descent {F : V → ℝ} {G : V → V} {n j : Nat} {L a : ℝ} (hs : LSmooth F G (n * L)) (hn : 0 < n) (hL : 0 ≤ L)
    (ha : 0 ≤ a) (haL : j * (a * L) ≤ 1 / 4) {x y : V}
    (he : ‖y - x + (j * a) • ((n : ℝ)⁻¹ • G x)‖ ≤ a * drift (a * L) j * ‖(n : ℝ)⁻¹ • G x‖) :
    F y ≤ F x - j * a / (2 * n) * ‖G x‖ ^ 2 ∧ ‖G y‖ ≤ 21 / 16 * ‖G x‖ := by
  have hj : (0 : ℝ) ≤ j := Nat.cast_nonneg j
  refine pass_descent hs hn hL (mul_nonneg hj ha) (by linarith) (he.trans (mul_le_mul_of_nonneg_right ?_ (norm_nonneg _)))
  have k := drift_le (mul_nonneg ha hL) j haL
  calc a * drift (a * L) j ≤ a * (j * (j * (a * L))) := mul_le_mul_of_nonneg_left k ha
    _ = j * a * (j * (a * L)) := by ring
    _ ≤ j * a * (1 / 4) := mul_le_mul_of_nonneg_left haL (mul_nonneg hj ha)
    _ = _ := by ring

/-! ### A concrete sum: the squared distances from `0` and `1` -/

open scoped Classical in
/-- A function object for `x²/2 + (x - 1)²/2` with the given tolerance; no callbacks. -/
noncomputable def twoSquares (tol : ℝ) : Ens.Vr.User Unit ℝ ℝ ℝ where
  n := 2
  evaluate _ x a k := ((), ((List.range' a k).map fun i : Nat => (x - (i : ℝ)) ^ 2 / 2).sum)
  gradient _ x a k := ((), ((List.range' a k).map fun i : Nat => x - (i : ℝ)).sum)
  shuffle _ := ()
  cbBegin _ x := ((), x)
  cbEval _ _ _ := ((), false)
  cbGrad _ _ g := ((), g, false)
  cbStep _ x := ((), x, false)
  cbEnd _ x := ((), x)
  addE := (· + ·)
  zero := 0
  isBad _ := false
  near s t := decide (|s - t| < tol)
  dblMax := 10 ^ 300
  addG := (· + ·)
  divG g n := (n : ℝ)⁻¹ • g

theorem twoSquares_smooth (tol : ℝ) :
    SmoothSum (twoSquares tol) (fun j x => (x - (j : ℝ)) ^ 2 / 2) (fun j x => x - (j : ℝ)) (fun _ j => j) 1 where
  sep := ⟨fun _ _ => rfl, rfl, fun _ _ => rfl, fun _ _ _ _ => rfl, fun _ _ _ _ => rfl, fun _ _ _ => rfl, fun _ _ _ _ => rfl,
    fun _ _ _ _ => rfl, fun _ _ _ => rfl, fun _ _ _ => rfl, fun _ => by simp⟩
  smooth j := by
    refine ⟨fun x => ?_, fun x y => by simp⟩
    have h1 : HasDerivAt (fun y : ℝ => (y - (j : ℝ)) ^ 2 / 2) (x - j) x := by
      have := (((hasDerivAt_id x).sub_const (j : ℝ)).pow 2).div_const 2
      refine this.congr_deriv ?_
      simp
    rw [hasDerivAt_iff_hasFDerivAt] at h1
    refine h1.congr_fderiv ?_
    ext
    simp
  divG _ _ := rfl
  step _ _ := rfl
  begin_ _ _ := rfl
  end_ _ _ := rfl

theorem twoSquares_objective (x : ℝ) : objective 2 (fun j x => (x - (j : ℝ)) ^ 2 / 2) x = x ^ 2 / 2 + (x - 1) ^ 2 / 2 ∧
    objective 2 (fun j x => x - (j : ℝ)) x = 2 * x - 1 := by
  constructor <;> simp [objective, List.range_succ] <;> ring

theorem twoSquares_convex : StronglyConvex (objective 2 fun j x => (x - (j : ℝ)) ^ 2 / 2) (objective 2 fun j x => x - (j : ℝ))
    ((2 : Nat) * 1) := by
  intro x y
  rw [(twoSquares_objective x).1, (twoSquares_objective y).1, (twoSquares_objective x).2]
  simp only [RCLike.inner_apply, conj_trivial, Real.norm_eq_abs, sq_abs]
  push_cast
  nlinarith

end Ens.Converge
