import Verif.Lbfgs.Direction
import Verif.Analysis.Smooth

/-
How far the BFGS direction of `Verif/Lbfgs/Direction.lean` can turn away from the steepest descent when every pair it is
made of has curvature between `μ` and `L`. Also the facts on strongly convex functions that C256 needs.
-/

namespace Ens.Converge

open Ens.Lbfgs
open scoped InnerProductSpace

variable {V : Type} [NormedAddCommGroup V] [InnerProductSpace ℝ V]

/-- `f` lies above its tangents by `μ/2` times the squared distance (strong convexity, first order). -/
def StronglyConvex (f : V → ℝ) (g : V → V) (μ : ℝ) : Prop :=
  ∀ x y, f x + ⟪g x, y - x⟫_ℝ + μ / 2 * ‖y - x‖ ^ 2 ≤ f y

/-- A small gradient means a nearly optimal value. -/
theorem StronglyConvex.gap {f : V → ℝ} {g : V → V} {μ : ℝ} (h : StronglyConvex f g μ) (hμ : 0 < μ) (x y : V) :
    f x - f y ≤ ‖g x‖ ^ 2 / (2 * μ) := by
  have h1 := h x y
  have h2 : -(‖g x‖ * ‖y - x‖) ≤ ⟪g x, y - x⟫_ℝ := (abs_le.1 (abs_real_inner_le_norm _ _)).1
  rw [le_div_iff₀ (by positivity)]
  nlinarith [sq_nonneg (‖g x‖ - μ * ‖y - x‖)]

/-- Distance to a minimiser. -/
theorem StronglyConvex.dist {f : V → ℝ} {g : V → V} {μ : ℝ} (h : StronglyConvex f g μ) {y : V} (hy : g y = 0)
    (x : V) : μ / 2 * ‖x - y‖ ^ 2 ≤ f x - f y := by
  have h1 := h y x
  rw [hy, inner_zero_left] at h1
  linarith

theorem StronglyConvex.mono {f : V → ℝ} {g : V → V} {μ : ℝ} (h : StronglyConvex f g μ) (x y : V) :
    μ * ‖y - x‖ ^ 2 ≤ ⟪g y - g x, y - x⟫_ℝ := by
  have h1 := h x y
  have h2 := h y x
  rw [inner_sub_left]
  rw [show x - y = -(y - x) by abel, inner_neg_right, norm_neg] at h2
  linarith

/-- A pair with curvature between `μ` and `L`. -/
structure GoodPair (μ L : ℝ) (p : V × V) : Prop where
  pos : 0 < ⟪p.2, p.1⟫_ℝ
  low : μ * ‖p.1‖ ^ 2 ≤ ⟪p.2, p.1⟫_ℝ
  high : ‖p.2‖ ≤ L * ‖p.1‖

/-- `H` is bounded below and above. -/
structure Between (c C : ℝ) (H : V →ₗ[ℝ] V) : Prop where
  low : ∀ u, c * ‖u‖ ^ 2 ≤ ⟪u, H u⟫_ℝ
  high : ∀ u, ‖H u‖ ≤ C * ‖u‖

theorem bfgs_apply (H : V →ₗ[ℝ] V) (ρ : ℝ) (s y v : V) : bfgsUpdate H ρ s y v =
    H (v - (ρ * ⟪s, v⟫_ℝ) • y) - (ρ * ⟪y, H (v - (ρ * ⟪s, v⟫_ℝ) • y)⟫_ℝ) • s + (ρ * ⟪s, v⟫_ℝ) • s := by
  simp only [bfgsUpdate, LinearMap.add_apply, LinearMap.comp_apply, LinearMap.sub_apply, LinearMap.id_apply,
    LinearMap.smul_apply, rankOne_apply, smul_smul]

/-- One BFGS update keeps the bounds, up to constants. -/
theorem Between.update {μ L c C : ℝ} (hμ : 0 < μ) (hL : μ ≤ L) {H : V →ₗ[ℝ] V} (h : Between c C H) (hc : 0 < c)
    (hcM : c ≤ μ / L ^ 2) (hC : 1 / μ ≤ C) {p : V × V} (hp : GoodPair μ L p) :
    Between (c / 2) ((1 + (1 + L / μ) ^ 2) * C) (bfgsUpdate H (1 / ⟪p.2, p.1⟫_ℝ) p.1 p.2) := by
  obtain ⟨s, y⟩ := p
  obtain ⟨hpos, hlow, hhigh⟩ := hp
  simp only at hpos hlow hhigh
  set ρ := 1 / ⟪y, s⟫_ℝ with hρ
  have hρ0 : 0 < ρ := one_div_pos.2 hpos
  have hρ1 : ρ * ⟪y, s⟫_ℝ = 1 := by rw [hρ]; field_simp
  have hL0 : 0 < L := hμ.trans_le hL
  have hC0 : 0 < C := lt_of_lt_of_le (by positivity) hC
  -- `ρ ‖s‖² ≤ 1 / μ`, `ρ ‖s‖ ‖y‖ ≤ L / μ`, `ρ ‖y‖² ≤ L² / μ`
  have hss : ρ * ‖s‖ ^ 2 ≤ 1 / μ := by
    rw [le_div_iff₀ hμ]
    calc ρ * ‖s‖ ^ 2 * μ = ρ * (μ * ‖s‖ ^ 2) := by ring
      _ ≤ ρ * ⟪y, s⟫_ℝ := mul_le_mul_of_nonneg_left hlow hρ0.le
      _ = 1 := hρ1
  have hsy : ρ * (‖s‖ * ‖y‖) ≤ L / μ := by
    have : ‖s‖ * ‖y‖ ≤ L * ‖s‖ ^ 2 := by nlinarith [norm_nonneg s]
    calc ρ * (‖s‖ * ‖y‖) ≤ ρ * (L * ‖s‖ ^ 2) := mul_le_mul_of_nonneg_left this hρ0.le
      _ = L * (ρ * ‖s‖ ^ 2) := by ring
      _ ≤ L * (1 / μ) := mul_le_mul_of_nonneg_left hss hL0.le
      _ = L / μ := by ring
  have hyy : ρ * ‖y‖ ^ 2 ≤ L ^ 2 / μ := by
    have : ‖y‖ ^ 2 ≤ L ^ 2 * ‖s‖ ^ 2 := by
      rw [← mul_pow]; exact pow_le_pow_left₀ (norm_nonneg _) hhigh 2
    calc ρ * ‖y‖ ^ 2 ≤ ρ * (L ^ 2 * ‖s‖ ^ 2) := mul_le_mul_of_nonneg_left this hρ0.le
      _ = L ^ 2 * (ρ * ‖s‖ ^ 2) := by ring
      _ ≤ L ^ 2 * (1 / μ) := mul_le_mul_of_nonneg_left hss (by positivity)
      _ = L ^ 2 / μ := by ring
  constructor
  · intro u
    set a := ⟪s, u⟫_ℝ with ha
    set q := u - (ρ * a) • y with hq
    have e1 : ⟪u, bfgsUpdate H ρ s y u⟫_ℝ = ⟪q, H q⟫_ℝ + ρ * a ^ 2 := by
      rw [bfgs_apply, ← ha, ← hq]
      have hu : u = q + (ρ * a) • y := by rw [hq]; abel
      rw [inner_add_right, inner_sub_right, inner_smul_right, inner_smul_right, real_inner_comm s u, ← ha]
      conv_lhs => rw [show ⟪u, H q⟫_ℝ = ⟪q, H q⟫_ℝ + ρ * a * ⟪y, H q⟫_ℝ by
        conv_lhs => rw [hu]
        rw [inner_add_left, inner_smul_left]; simp]
      ring
    have e2 : ‖u‖ ^ 2 ≤ 2 * ‖q‖ ^ 2 + 2 * (ρ * a ^ 2) * (L ^ 2 / μ) := by
      have hu : u = q + (ρ * a) • y := by rw [hq]; abel
      have h1 : ‖u‖ ≤ ‖q‖ + ‖(ρ * a) • y‖ :=
        (congrArg norm hu).trans_le (norm_add_le _ _)
      have h2 : ‖(ρ * a) • y‖ ^ 2 = ρ * a ^ 2 * (ρ * ‖y‖ ^ 2) := by
        rw [norm_smul, mul_pow, Real.norm_eq_abs, sq_abs]; ring
      have h3 : ρ * a ^ 2 * (ρ * ‖y‖ ^ 2) ≤ ρ * a ^ 2 * (L ^ 2 / μ) :=
        mul_le_mul_of_nonneg_left hyy (by positivity)
      have h4 : ‖u‖ ^ 2 ≤ (‖q‖ + ‖(ρ * a) • y‖) ^ 2 := pow_le_pow_left₀ (norm_nonneg _) h1 2
      nlinarith [sq_nonneg (‖q‖ - ‖(ρ * a) • y‖)]
    rw [e1]
    have e3 := h.low q
    have e4 : c * (L ^ 2 / μ) ≤ 1 := by
      rw [le_div_iff₀ (by positivity)] at hcM
      rw [← mul_div_assoc, div_le_one hμ]; exact hcM
    have e5 : c * (L ^ 2 / μ) * (ρ * a ^ 2) ≤ 1 * (ρ * a ^ 2) :=
      mul_le_mul_of_nonneg_right e4 (by positivity)
    nlinarith
  · intro u
    rw [bfgs_apply]
    set a := ⟪s, u⟫_ℝ with ha
    set q := u - (ρ * a) • y with hq
    have ha' : |a| ≤ ‖s‖ * ‖u‖ := abs_real_inner_le_norm _ _
    have hqn : ‖q‖ ≤ (1 + L / μ) * ‖u‖ := by
      have h1 : ‖q‖ ≤ ‖u‖ + ‖(ρ * a) • y‖ := norm_sub_le _ _
      have h2 : ‖(ρ * a) • y‖ ≤ ρ * (‖s‖ * ‖y‖) * ‖u‖ := by
        rw [norm_smul, Real.norm_eq_abs, abs_mul, abs_of_pos hρ0]
        have := mul_le_mul_of_nonneg_right ha' (norm_nonneg y)
        have := mul_le_mul_of_nonneg_left this hρ0.le
        linarith
      have h3 := mul_le_mul_of_nonneg_right hsy (norm_nonneg u)
      linarith
    have hHq : ‖H q‖ ≤ C * ((1 + L / μ) * ‖u‖) := (h.high q).trans (mul_le_mul_of_nonneg_left hqn hC0.le)
    have h1 : ‖(ρ * ⟪y, H q⟫_ℝ) • s‖ ≤ L / μ * ‖H q‖ := by
      rw [norm_smul, Real.norm_eq_abs, abs_mul, abs_of_pos hρ0]
      have h2 : |⟪y, H q⟫_ℝ| ≤ ‖y‖ * ‖H q‖ := abs_real_inner_le_norm _ _
      have h3 := mul_le_mul_of_nonneg_right h2 (norm_nonneg s)
      have h4 := mul_le_mul_of_nonneg_left h3 hρ0.le
      have h5 := mul_le_mul_of_nonneg_right hsy (norm_nonneg (H q))
      linarith
    have h2 : ‖(ρ * a) • s‖ ≤ 1 / μ * ‖u‖ := by
      rw [norm_smul, Real.norm_eq_abs, abs_mul, abs_of_pos hρ0]
      have h3 := mul_le_mul_of_nonneg_right ha' (norm_nonneg s)
      have h4 := mul_le_mul_of_nonneg_left h3 hρ0.le
      have h5 := mul_le_mul_of_nonneg_right hss (norm_nonneg u)
      nlinarith
    have h3 : ‖H q - (ρ * ⟪y, H q⟫_ℝ) • s + (ρ * a) • s‖ ≤ ‖H q‖ + L / μ * ‖H q‖ + 1 / μ * ‖u‖ := by
      refine (norm_add_le _ _).trans (add_le_add ((norm_sub_le _ _).trans ?_) h2)
      linarith
    have h4 : 1 / μ * ‖u‖ ≤ C * ‖u‖ := mul_le_mul_of_nonneg_right hC (norm_nonneg u)
    have h5 : (1 + L / μ) * ‖H q‖ ≤ (1 + L / μ) * (C * ((1 + L / μ) * ‖u‖)) :=
      mul_le_mul_of_nonneg_left hHq (by positivity)
    nlinarith

/-- The bounds after all updates. -/
theorem bfgsInverse_between {μ L scale : ℝ} (hμ : 0 < μ) (hL : μ ≤ L) (h1 : μ / L ^ 2 ≤ scale) (h2 : scale ≤ 1 / μ)
    (l : List (V × V)) (hl : ∀ p ∈ l, GoodPair μ L p) :
    Between (μ / L ^ 2 / 2 ^ l.length) ((1 + (1 + L / μ) ^ 2) ^ l.length * (1 / μ)) (bfgsInverse scale l) := by
  have hL0 : 0 < L := hμ.trans_le hL
  induction l using List.reverseRecOn with
  | nil =>
    have hs : 0 < scale := lt_of_lt_of_le (by positivity) h1
    constructor
    · intro u
      simp only [bfgsInverse, List.foldl_nil, LinearMap.smul_apply, LinearMap.id_apply, inner_smul_right,
        real_inner_self_eq_norm_sq, List.length_nil, pow_zero, div_one]
      exact mul_le_mul_of_nonneg_right h1 (by positivity)
    · intro u
      simp only [bfgsInverse, List.foldl_nil, LinearMap.smul_apply, LinearMap.id_apply, norm_smul, List.length_nil,
        pow_zero, one_mul, Real.norm_of_nonneg hs.le]
      exact mul_le_mul_of_nonneg_right h2 (norm_nonneg _)
  | append_singleton l p ih =>
    have ih := ih fun q hq => hl q (by simp [hq])
    have hK : (1 : ℝ) ≤ 1 + (1 + L / μ) ^ 2 := by nlinarith [sq_nonneg (1 + L / μ)]
    have := Between.update hμ hL ih (by positivity)
      (div_le_self (by positivity) (one_le_pow₀ (by norm_num)))
      (le_mul_of_one_le_left (by positivity) (one_le_pow₀ hK)) (hl p (by simp))
    unfold bfgsInverse at this ⊢
    rw [List.foldl_append, List.foldl_cons, List.foldl_nil, List.length_append, List.length_singleton, pow_succ (2 : ℝ),
      pow_succ (1 + (1 + L / μ) ^ 2)]
    refine ⟨fun u => ?_, fun u => ?_⟩
    · have := this.low u
      rw [← div_div (μ / L ^ 2)]
      exact this
    · have := this.high u
      calc _ ≤ _ := this
        _ = _ := by ring

/-- The cosine of the angle to the steepest descent, for at most `m` pairs. -/
noncomputable def cosBound (μ L : ℝ) (m : Nat) : ℝ := (μ / L) ^ 2 / (2 * (1 + (1 + L / μ) ^ 2)) ^ m

theorem cosBound_pos {μ L : ℝ} (hμ : 0 < μ) (hL : μ ≤ L) (m : Nat) : 0 < cosBound μ L m := by
  have : 0 < L := hμ.trans_le hL
  unfold cosBound; positivity

theorem cosBound_le_one {μ L : ℝ} (hμ : 0 < μ) (hL : μ ≤ L) (m : Nat) : cosBound μ L m ≤ 1 := by
  have hL0 : 0 < L := hμ.trans_le hL
  unfold cosBound
  have h1 : (μ / L) ^ 2 ≤ 1 := pow_le_one₀ (by positivity) ((div_le_one hL0).2 hL)
  have h2 : (1 : ℝ) ≤ (2 * (1 + (1 + L / μ) ^ 2)) ^ m := one_le_pow₀ (by nlinarith [sq_nonneg (1 + L / μ)])
  exact (div_le_one (by positivity)).2 (h1.trans h2)

/-- The direction makes an angle with the negative gradient that is bounded away from a right angle. -/
theorem direction_angle {μ L scale : ℝ} (hμ : 0 < μ) (hL : μ ≤ L) (h1 : μ / L ^ 2 ≤ scale) (h2 : scale ≤ 1 / μ)
    {m : Nat} (l : List (V × V)) (hm : l.length ≤ m) (hl : ∀ p ∈ l, GoodPair μ L p) (g : V) :
    cosBound μ L m * (‖g‖ * ‖bfgsInverse scale l g‖) ≤ ⟪g, bfgsInverse scale l g⟫_ℝ := by
  have hL0 : 0 < L := hμ.trans_le hL
  obtain ⟨hlow, hhigh⟩ := bfgsInverse_between hμ hL h1 h2 l hl
  have hK : (1 : ℝ) ≤ 1 + (1 + L / μ) ^ 2 := by nlinarith [sq_nonneg (1 + L / μ)]
  have e1 := hlow g
  have e2 := hhigh g
  refine le_trans ?_ e1
  have e3 : cosBound μ L m ≤ cosBound μ L l.length := by
    unfold cosBound
    refine div_le_div_of_nonneg_left (by positivity) (by positivity) (pow_le_pow_right₀ (by linarith) hm)
  have e4 : ‖g‖ * ‖bfgsInverse scale l g‖ ≤ ‖g‖ * ((1 + (1 + L / μ) ^ 2) ^ l.length * (1 / μ) * ‖g‖) :=
    mul_le_mul_of_nonneg_left e2 (norm_nonneg _)
  calc cosBound μ L m * (‖g‖ * ‖bfgsInverse scale l g‖)
      ≤ cosBound μ L l.length * (‖g‖ * ((1 + (1 + L / μ) ^ 2) ^ l.length * (1 / μ) * ‖g‖)) :=
        mul_le_mul e3 e4 (by positivity) (cosBound_pos hμ hL _).le
    _ = μ / L ^ 2 / 2 ^ l.length * ‖g‖ ^ 2 := by
        unfold cosBound
        rw [mul_pow]
        have : (1 + (1 + L / μ) ^ 2) ^ l.length ≠ 0 := by positivity
        field_simp

end Ens.Converge
