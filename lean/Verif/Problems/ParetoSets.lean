import Verif.Problems.MultiProps
import Mathlib.Analysis.SpecialFunctions.Sqrt
import Mathlib.Topology.Order.IntermediateValue
import Mathlib.Analysis.Real.Pi.Bounds
import Mathlib.Analysis.Complex.Exponential
import Mathlib.Analysis.SpecialFunctions.Trigonometric.Bounds

/-
C226 (Pareto sets of Schaffer N.1 and Fonseca-Fleming), C227 (ZDT), and the definitions of dominance and Pareto optimality.
-/

namespace Ens.Problems.Multi

open Real

/-- `u` dominates `v` (minimisation): nowhere larger, and not equal. -/
def Dominates (u v : List ℝ) : Prop := List.Forall₂ (· ≤ ·) u v ∧ u ≠ v

/-- `x` is Pareto optimal for the objectives `F` on `S`. -/
def ParetoOptimal (S : Set Coords) (F : Coords → List ℝ) (x : Coords) : Prop :=
  x ∈ S ∧ ∀ y ∈ S, ¬ Dominates (F y) (F x)

theorem dominates_two {a b c d : ℝ} : Dominates [a, b] [c, d] ↔ (a ≤ c ∧ b ≤ d) ∧ (a < c ∨ b < d) := by
  simp only [Dominates, List.forall₂_cons, List.forall₂_nil_left_iff, and_true, ne_eq, List.cons.injEq]
  constructor
  · rintro ⟨⟨h1, h2⟩, h3⟩
    refine ⟨⟨h1, h2⟩, ?_⟩
    by_contra h
    push Not at h
    exact h3 ⟨le_antisymm h1 h.1, le_antisymm h2 h.2⟩
  · rintro ⟨h, h3⟩
    refine ⟨h, fun h4 => ?_⟩
    rcases h3 with h3 | h3 <;> linarith [h4.1, h4.2]

/-! ### C226 -/

/-- **C226** Schaffer N.1: without bounds, the Pareto-optimal points are those with 0 ≤ x ≤ 2. -/
theorem C226_schaffer (x : Coords) : ParetoOptimal Set.univ (values schafferObjs) x ↔ 0 ≤ x 0 ∧ x 0 ≤ 2 := by
  have hv : ∀ y : Coords, values schafferObjs y = [y 0 ^ 2, (y 0 - 2) ^ 2] := fun y => rfl
  simp only [ParetoOptimal, Set.mem_univ, true_and, true_implies, hv, dominates_two]
  constructor
  · intro h
    constructor
    · by_contra h0
      refine h (fun _ => 0) ⟨⟨?_, ?_⟩, Or.inl ?_⟩ <;> nlinarith
    · by_contra h0
      refine h (fun _ => 2) ⟨⟨?_, ?_⟩, Or.inl ?_⟩ <;> nlinarith
  · rintro ⟨h0, h2⟩ y ⟨⟨h3, h4⟩, h5⟩
    have h6 : y 0 ≤ x 0 := abs_le_of_sq_le_sq' h3 h0 |>.2
    have h7 : x 0 ≤ y 0 := by
      have := abs_le_of_sq_le_sq' (by nlinarith : (2 - y 0) ^ 2 ≤ (2 - x 0) ^ 2) (by linarith)
      linarith [this.2]
    have h8 : x 0 = y 0 := le_antisymm h7 h6
    rw [h8] at h5
    simp at h5

private theorem ff_order (a b : ℝ) : 1 - exp (-a) ≤ 1 - exp (-b) ↔ a ≤ b := by
  rw [sub_le_sub_iff_left, exp_le_exp, neg_le_neg_iff]

private theorem ff_lt (a b : ℝ) : 1 - exp (-a) < 1 - exp (-b) ↔ a < b := by
  rw [sub_lt_sub_iff_left, exp_lt_exp, neg_lt_neg_iff]

/-- **C226** Fonseca-Fleming: without bounds, the Pareto-optimal points are those whose three coordinates are equal and lie between
-1/√3 and 1/√3. -/
theorem C226_fonseca_fleming (x : Coords) :
    ParetoOptimal Set.univ (values ffObjs) x ↔ x 0 = x 1 ∧ x 1 = x 2 ∧ -(1 / √3) ≤ x 0 ∧ x 0 ≤ 1 / √3 := by
  have hp : (0 : ℝ) < 1 / √3 := by positivity
  have hv : ∀ y : Coords, values ffObjs y =
      [1 - exp (-((y 0 - 1 / √3) ^ 2 + (y 1 - 1 / √3) ^ 2 + (y 2 - 1 / √3) ^ 2)),
        1 - exp (-((y 0 + 1 / √3) ^ 2 + (y 1 + 1 / √3) ^ 2 + (y 2 + 1 / √3) ^ 2))] := by
    intro y
    simp only [values, ffObjs, ffA, ffB, List.map]
    congr 3
    · ring
    · congr 2; ring
  simp only [ParetoOptimal, Set.mem_univ, true_and, true_implies, hv, dominates_two, ff_order, ff_lt]
  generalize 1 / √3 = p at *
  constructor
  · intro h
    -- a dominating point: the projection of `x` onto the segment
    have key : ∀ t : ℝ, (t - p) ^ 2 ≤ ((x 0 + x 1 + x 2) / 3 - p) ^ 2 → (t + p) ^ 2 ≤ ((x 0 + x 1 + x 2) / 3 + p) ^ 2 →
        x 0 = x 1 ∧ x 1 = x 2 ∧ ((x 0 + x 1 + x 2) / 3 - p) ^ 2 ≤ (t - p) ^ 2 ∧ ((x 0 + x 1 + x 2) / 3 + p) ^ 2 ≤ (t + p) ^ 2 := by
      intro t h1 h2
      have h3 := h fun _ => t
      simp only [not_and, not_or, not_lt] at h3
      have e1 : ∀ q, (x 0 - q) ^ 2 + (x 1 - q) ^ 2 + (x 2 - q) ^ 2 = 3 * ((x 0 + x 1 + x 2) / 3 - q) ^ 2
          + ((x 0 - x 1) ^ 2 + (x 1 - x 2) ^ 2 + (x 2 - x 0) ^ 2) / 3 := fun q => by ring
      have e2 := e1 p
      have e3 := e1 (-p)
      simp only [sub_neg_eq_add] at e3
      have s1 := sq_nonneg (x 0 - x 1)
      have s2 := sq_nonneg (x 1 - x 2)
      have s3 := sq_nonneg (x 2 - x 0)
      have h4 := h3 ⟨by linarith, by linarith⟩
      have z1 : (x 0 - x 1) ^ 2 = 0 := by linarith [h4.1]
      have z2 : (x 1 - x 2) ^ 2 = 0 := by linarith [h4.1]
      have z1' := pow_eq_zero_iff two_ne_zero |>.1 z1
      have z2' := pow_eq_zero_iff two_ne_zero |>.1 z2
      refine ⟨by linarith, by linarith, by linarith [h4.1], by linarith [h4.2]⟩
    obtain ⟨h01, h12, -, -⟩ := key ((x 0 + x 1 + x 2) / 3) le_rfl le_rfl
    refine ⟨h01, h12, ?_, ?_⟩
    · by_contra hc
      have hm : (x 0 + x 1 + x 2) / 3 = x 0 := by rw [← h12, ← h01]; ring
      obtain ⟨-, -, h3, h4⟩ := key (-p) (by rw [hm]; nlinarith) (by rw [hm]; nlinarith)
      rw [hm] at h3 h4
      nlinarith
    · by_contra hc
      have hm : (x 0 + x 1 + x 2) / 3 = x 0 := by rw [← h12, ← h01]; ring
      obtain ⟨-, -, h3, h4⟩ := key p (by rw [hm]; nlinarith) (by rw [hm]; nlinarith)
      rw [hm] at h3 h4
      nlinarith
  · rintro ⟨h01, h12, hl, hu⟩ y ⟨⟨h1, h2⟩, h3⟩
    rw [← h12, ← h01] at h1 h2 h3
    have e1 : ∀ q, (y 0 - q) ^ 2 + (y 1 - q) ^ 2 + (y 2 - q) ^ 2 = 3 * ((y 0 + y 1 + y 2) / 3 - q) ^ 2
        + ((y 0 - y 1) ^ 2 + (y 1 - y 2) ^ 2 + (y 2 - y 0) ^ 2) / 3 := fun q => by ring
    have e2 := e1 p
    have e3 := e1 (-p)
    simp only [sub_neg_eq_add] at e3
    have s1 := sq_nonneg (y 0 - y 1)
    have s2 := sq_nonneg (y 1 - y 2)
    have s3 := sq_nonneg (y 2 - y 0)
    have a1 : (p - (y 0 + y 1 + y 2) / 3) ^ 2 ≤ (p - x 0) ^ 2 := by nlinarith
    have a2 : ((y 0 + y 1 + y 2) / 3 + p) ^ 2 ≤ (x 0 + p) ^ 2 := by nlinarith
    have b1 := (abs_le_of_sq_le_sq' a1 (by linarith)).2
    have b2 := (abs_le_of_sq_le_sq' a2 (by linarith)).2
    have b3 : (y 0 + y 1 + y 2) / 3 = x 0 := by linarith
    rw [b3] at e2 e3
    rcases h3 with h3 | h3 <;> linarith

example : ParetoOptimal Set.univ (values ffObjs) fun _ => 0.5 := by
  refine (C226_fonseca_fleming _).2 ⟨rfl, rfl, ?_, ?_⟩
  · have : (0 : ℝ) < 1 / √3 := by positivity
    exact le_trans (neg_nonpos.2 this.le) (by norm_num)
  · rw [le_div_iff₀ (by positivity), ← le_div_iff₀' (by norm_num), sqrt_le_left (by norm_num)]
    norm_num

/-! ### C227 -/

/-- The box of ZDT1, ZDT2, ZDT3 (n = 30) and ZDT6 (n = 10). -/
def unitBox (n : Nat) : Set Coords := {x | ∀ i < n, 0 ≤ x i ∧ x i ≤ 1}

/-- The box of ZDT4. -/
def zdt4Box : Set Coords := {x | (0 ≤ x 0 ∧ x 0 ≤ 1) ∧ ∀ i, 1 ≤ i → i < 10 → -10 ≤ x i ∧ x i ≤ 10}

/-- A problem with the objectives `f` and `φ (f x) (g x)`, where `φ a` is strictly increasing on [1, ∞) for the values `a` of `f`, and
every point of the set has a companion with the same `f` and g = 1. -/
private theorem optimal_iff (S : Set Coords) (F : Coords → List ℝ) (f g : Coords → ℝ) (φ : ℝ → ℝ → ℝ)
    (hF : ∀ x ∈ S, F x = [f x, φ (f x) (g x)]) (hg : ∀ x ∈ S, 1 ≤ g x)
    (hφ : ∀ x ∈ S, ∀ s t, 1 ≤ s → s < t → φ (f x) s < φ (f x) t)
    (hz : ∀ x ∈ S, ∃ y ∈ S, f y = f x ∧ g y = 1) (x : Coords) (hx : x ∈ S) :
    ParetoOptimal S F x ↔ g x = 1 ∧ ∀ y ∈ S, f y < f x → φ (f x) 1 < φ (f y) 1 := by
  have mono : ∀ y ∈ S, φ (f y) 1 ≤ φ (f y) (g y) := fun y hy => by
    rcases (hg y hy).eq_or_lt with h | h
    · rw [← h]
    · exact (hφ y hy 1 _ le_rfl h).le
  constructor
  · rintro ⟨-, h⟩
    have h1 : g x = 1 := by
      by_contra hne
      obtain ⟨y, hy, hyf, hyg⟩ := hz x hx
      refine h y hy ?_
      rw [hF y hy, hF x hx, dominates_two, hyf, hyg]
      have hlt := hφ x hx 1 (g x) le_rfl (lt_of_le_of_ne (hg x hx) (Ne.symm hne))
      exact ⟨⟨le_rfl, hlt.le⟩, Or.inr hlt⟩
    refine ⟨h1, fun y hy hlt => ?_⟩
    by_contra hc
    obtain ⟨z, hz, hzf, hzg⟩ := hz y hy
    refine h z hz ?_
    rw [hF z hz, hF x hx, dominates_two, hzf, hzg, h1]
    exact ⟨⟨hlt.le, not_lt.1 hc⟩, Or.inl hlt⟩
  · rintro ⟨h1, h2⟩
    refine ⟨hx, fun y hy hd => ?_⟩
    rw [hF y hy, hF x hx, dominates_two, h1] at hd
    obtain ⟨⟨ha, hb⟩, hc⟩ := hd
    rcases ha.eq_or_lt with he | hl
    · rw [he] at hb hc
      rcases hc with hc | hc
      · exact lt_irrefl _ hc
      · have := mono y hy
        rw [he] at this
        linarith
    · have := h2 y hy hl
      have := mono y hy
      linarith

/-- The companion with zero tail. -/
private def zeroTail (x : Coords) : Coords := fun i => if i = 0 then x 0 else 0

private theorem tail_zero_iff {n : Nat} {f : ℝ → ℝ} (hf : ∀ t, 0 ≤ f t) (x : Coords) :
    tailSum n f x = 0 ↔ ∀ i, 1 ≤ i → i < n → f (x i) = 0 := by
  unfold tailSum
  rw [Finset.sum_eq_zero_iff_of_nonneg fun i _ => hf _]
  simp only [Finset.mem_Ico, and_imp]

private theorem tail_box {n : Nat} {x : Coords} (hx : x ∈ unitBox n) :
    0 ≤ tailSum n (fun t => t) x ∧ (tailSum n (fun t => t) x = 0 ↔ ∀ i, 1 ≤ i → i < n → x i = 0) := by
  unfold tailSum
  have h0 : ∀ i ∈ Finset.Ico 1 n, 0 ≤ x i := fun i hi => (hx i (Finset.mem_Ico.1 hi).2).1
  refine ⟨Finset.sum_nonneg h0, ?_⟩
  rw [Finset.sum_eq_zero_iff_of_nonneg h0]
  simp only [Finset.mem_Ico, and_imp]

private theorem zeroTail_box {n : Nat} (hn : 0 < n) {x : Coords} (hx : x ∈ unitBox n) : zeroTail x ∈ unitBox n := by
  intro i _
  unfold zeroTail
  split
  · exact hx 0 hn
  · exact ⟨le_rfl, zero_le_one⟩

private theorem tailSum_zeroTail (n : Nat) (x : Coords) : tailSum n (fun t => t) (zeroTail x) = 0 := by
  unfold tailSum zeroTail
  exact Finset.sum_eq_zero fun i hi => if_neg (by have := (Finset.mem_Ico.1 hi).1; omega)

private theorem zdtG_spec {x : Coords} (hx : x ∈ unitBox 30) :
    1 ≤ zdtG x ∧ (zdtG x = 1 ↔ ∀ i, 1 ≤ i → i < 30 → x i = 0) := by
  obtain ⟨h1, h2⟩ := tail_box hx
  rw [← h2]
  unfold zdtG
  constructor
  · have : 0 ≤ 9 * tailSum 30 (fun t => t) x / ((30 : ℝ) - 1) := by
      apply div_nonneg <;> [positivity; norm_num]
    linarith
  · constructor <;> intro h
    · have : 9 * tailSum 30 (fun t => t) x / ((30 : ℝ) - 1) = 0 := by linarith
      rw [div_eq_zero_iff] at this
      rcases this with h | h
      · linarith
      · norm_num at h
    · rw [h]; simp

private theorem zdtG_zeroTail (x : Coords) : zdtG (zeroTail x) = 1 := by
  unfold zdtG; rw [tailSum_zeroTail]; simp

/-- g (1 - √(a / g)) = g - √a √g. -/
private theorem convex_form {a g : ℝ} (ha : 0 ≤ a) (hg : 0 < g) : g * (1 - √(a / g)) = g - √a * √g := by
  rw [sqrt_div ha]
  have h : 0 < √g := sqrt_pos.2 hg
  have h2 : √g * √g = g := mul_self_sqrt hg.le
  have h3 : g * (√a / √g) = √a * √g := by
    rw [mul_div_assoc', div_eq_iff h.ne', mul_assoc, h2, mul_comm]
  rw [mul_sub, mul_one, h3]

private theorem convex_mono {a s t : ℝ} (ha : 0 ≤ a) (ha1 : a ≤ 1) (hs : 1 ≤ s) (hst : s < t) :
    s * (1 - √(a / s)) < t * (1 - √(a / t)) := by
  rw [convex_form ha (by linarith), convex_form ha (by linarith)]
  have h1 : √a ≤ 1 := sqrt_le_one.2 ha1
  have h2 : (1 : ℝ) ≤ √s := one_le_sqrt.2 hs
  have h3 : √s < √t := sqrt_lt_sqrt (by linarith) hst
  have h4 : √s * √s = s := mul_self_sqrt (by linarith)
  have h5 : √t * √t = t := mul_self_sqrt (by linarith)
  have h6 := sqrt_nonneg a
  nlinarith [mul_pos (sub_pos.2 h3) (by linarith : (0 : ℝ) < √s + √t - √a)]

private theorem concave_mono {a s t : ℝ} (hs : 1 ≤ s) (hst : s < t) : s * (1 - (a / s) ^ 2) < t * (1 - (a / t) ^ 2) := by
  have hs0 : 0 < s := by linarith
  have ht0 : 0 < t := by linarith
  have e : ∀ u : ℝ, 0 < u → u * (1 - (a / u) ^ 2) = u - a ^ 2 / u := fun u hu => by field_simp
  rw [e s hs0, e t ht0]
  have : a ^ 2 / t ≤ a ^ 2 / s := div_le_div_of_nonneg_left (sq_nonneg a) hs0 hst.le
  linarith

/-- **C227** ZDT1: in the unit box the Pareto-optimal points are those whose variables from the second on are zero. -/
theorem C227_zdt1 (x : Coords) (hx : x ∈ unitBox 30) :
    ParetoOptimal (unitBox 30) (values zdt1Objs) x ↔ ∀ i, 1 ≤ i → i < 30 → x i = 0 := by
  rw [← (zdtG_spec hx).2, optimal_iff _ _ (fun x => x 0) zdtG (fun a g => g * (1 - √(a / g))) (fun y _ => by rw [← C224_zdt1]; rfl)
    (fun y hy => (zdtG_spec hy).1) (fun y hy s t hs hst => convex_mono (hy 0 (by norm_num)).1 (hy 0 (by norm_num)).2 hs hst)
    (fun y hy => ⟨zeroTail y, zeroTail_box (by norm_num) hy, by simp [zeroTail], zdtG_zeroTail y⟩) x hx]
  refine ⟨fun h => h.1, fun h => ⟨h, fun y hy hlt => ?_⟩⟩
  have := sqrt_lt_sqrt (hy 0 (by norm_num)).1 hlt
  simpa using this

/-- **C227** ZDT2. -/
theorem C227_zdt2 (x : Coords) (hx : x ∈ unitBox 30) :
    ParetoOptimal (unitBox 30) (values zdt2Objs) x ↔ ∀ i, 1 ≤ i → i < 30 → x i = 0 := by
  rw [← (zdtG_spec hx).2, optimal_iff _ _ (fun x => x 0) zdtG (fun a g => g * (1 - (a / g) ^ 2)) (fun y _ => by rw [← C224_zdt2]; rfl)
    (fun y hy => (zdtG_spec hy).1) (fun y hy s t hs hst => concave_mono hs hst)
    (fun y hy => ⟨zeroTail y, zeroTail_box (by norm_num) hy, by simp [zeroTail], zdtG_zeroTail y⟩) x hx]
  refine ⟨fun h => h.1, fun h => ⟨h, fun y hy hlt => ?_⟩⟩
  have := (hy 0 (by norm_num)).1
  simp only [div_one, one_mul]
  nlinarith

/-- **C227** ZDT3: the Pareto-optimal points are those whose variables from the second on are zero and whose first variable gives a
smaller value of 1 - √t - t sin(10πt) than every smaller t. -/
theorem C227_zdt3 (x : Coords) (hx : x ∈ unitBox 30) :
    ParetoOptimal (unitBox 30) (values zdt3Objs) x ↔ (∀ i, 1 ≤ i → i < 30 → x i = 0) ∧
      ∀ t, 0 ≤ t → t < x 0 → 1 - √(x 0) - x 0 * sin (10 * π * x 0) < 1 - √t - t * sin (10 * π * t) := by
  rw [← (zdtG_spec hx).2, optimal_iff _ _ (fun x => x 0) zdtG (fun a g => g * (1 - √(a / g) - a / g * sin (10 * π * a)))
    (fun y _ => by rw [← C224_zdt3]; rfl) (fun y hy => (zdtG_spec hy).1) (fun y hy s t hs hst => ?_)
    (fun y hy => ⟨zeroTail y, zeroTail_box (by norm_num) hy, by simp [zeroTail], zdtG_zeroTail y⟩) x hx]
  · refine and_congr_right fun h => ⟨fun h2 t ht htx => ?_, fun h2 y hy hlt => ?_⟩
    · have := h2 (fun i => if i = 0 then t else 0) (fun i _ => ?_) (by simpa using htx)
      · simpa using this
      · have := (hx 0 (by norm_num)).2
        show 0 ≤ (if i = 0 then t else 0) ∧ (if i = 0 then t else 0) ≤ 1
        split
        · exact ⟨ht, by linarith⟩
        · exact ⟨le_rfl, zero_le_one⟩
    · simpa using h2 (y 0) (hy 0 (by norm_num)).1 hlt
  · have e : ∀ u : ℝ, 0 < u → u * (1 - √(y 0 / u) - y 0 / u * sin (10 * π * y 0)) = u * (1 - √(y 0 / u)) - y 0 * sin (10 * π * y 0) := by
      intro u hu; field_simp
    rw [e s (by linarith), e t (by linarith)]
    have := convex_mono (hy 0 (by norm_num)).1 (hy 0 (by norm_num)).2 hs hst
    linarith

private theorem zdt4G_spec (x : Coords) : 1 ≤ zdt4G x ∧ (zdt4G x = 1 ↔ ∀ i, 1 ≤ i → i < 10 → x i = 0) := by
  have h : zdt4G x = 1 + tailSum 10 (fun t => t ^ 2 + 10 * (1 - cos (4 * π * t))) x := by
    unfold zdt4G tailSum
    have : ∑ i ∈ Finset.Ico 1 10, (x i ^ 2 + 10 * (1 - cos (4 * π * x i)))
        = ∑ i ∈ Finset.Ico 1 10, (x i ^ 2 - 10 * cos (4 * π * x i)) + ∑ _i ∈ Finset.Ico 1 10, (10 : ℝ) := by
      rw [← Finset.sum_add_distrib]
      exact Finset.sum_congr rfl fun i _ => by ring
    rw [this]
    simp
    ring
  have hf : ∀ t : ℝ, 0 ≤ t ^ 2 + 10 * (1 - cos (4 * π * t)) := fun t => by
    have := cos_le_one (4 * π * t)
    nlinarith [sq_nonneg t]
  have h0 : 0 ≤ tailSum 10 (fun t => t ^ 2 + 10 * (1 - cos (4 * π * t))) x := Finset.sum_nonneg fun i _ => hf _
  refine ⟨by linarith, ?_⟩
  rw [h, add_eq_left, tail_zero_iff hf]
  refine forall_congr' fun i => forall_congr' fun _ => forall_congr' fun _ => ⟨fun h1 => ?_, fun h1 => by simp [h1]⟩
  have := cos_le_one (4 * π * x i)
  have h2 : x i ^ 2 = 0 := le_antisymm (by nlinarith) (sq_nonneg _)
  exact pow_eq_zero_iff two_ne_zero |>.1 h2

/-- **C227** ZDT4, in the box of the documentation. -/
theorem C227_zdt4 (x : Coords) (hx : x ∈ zdt4Box) :
    ParetoOptimal zdt4Box (values zdt4Objs) x ↔ ∀ i, 1 ≤ i → i < 10 → x i = 0 := by
  have hz : ∀ y : Coords, ∀ i, 1 ≤ i → zeroTail y i = 0 := fun y i hi => if_neg (by omega)
  rw [← (zdt4G_spec x).2, optimal_iff zdt4Box _ (fun x => x 0) zdt4G (fun a g => g * (1 - √(a / g))) (fun y _ => by rw [← C224_zdt4]; rfl)
    (fun y hy => (zdt4G_spec y).1) (fun y hy s t hs hst => convex_mono hy.1.1 hy.1.2 hs hst)
    (fun y hy => ⟨zeroTail y, ⟨by simpa [zeroTail] using hy.1, fun i hi _ => by rw [hz y i hi]; norm_num⟩, by simp [zeroTail],
      (zdt4G_spec _).2.2 fun i hi _ => hz y i hi⟩) x hx]
  refine ⟨fun h => h.1, fun h => ⟨h, fun y hy hlt => ?_⟩⟩
  have := sqrt_lt_sqrt hy.1.1 hlt
  simpa using this

private theorem zdt6G_spec {x : Coords} (hx : x ∈ unitBox 10) :
    1 ≤ zdt6G x ∧ (zdt6G x = 1 ↔ ∀ i, 1 ≤ i → i < 10 → x i = 0) := by
  obtain ⟨h1, h2⟩ := tail_box hx
  have h3 : 0 ≤ tailSum 10 (fun t => t) x / 9 := by positivity
  rw [← h2]
  unfold zdt6G
  constructor
  · have := rpow_nonneg h3 (0.25 : ℝ)
    linarith
  · constructor <;> intro h
    · have h4 : (tailSum 10 (fun t => t) x / 9) ^ (0.25 : ℝ) = 0 := by linarith
      rw [rpow_eq_zero h3 (by norm_num)] at h4
      linarith
    · rw [h, zero_div, zero_rpow (by norm_num)]; simp

/-- The first objective of ZDT6 lies between 0 and 1. -/
private theorem zdt6F_range {t : ℝ} (ht : 0 ≤ t) : 0 ≤ zdt6F t ∧ zdt6F t ≤ 1 := by
  unfold zdt6F
  have h1 : exp (-4 * t) ≤ 1 := exp_le_one_iff.2 (by linarith)
  have h2 := exp_pos (-4 * t)
  have h3 : sin (6 * π * t) ^ 6 ≤ 1 := by
    have : sin (6 * π * t) ^ 6 = (sin (6 * π * t) ^ 2) ^ 3 := by ring
    rw [this]
    exact pow_le_one₀ (sq_nonneg _) (sin_sq_le_one _)
  have h4 : 0 ≤ sin (6 * π * t) ^ 6 := by positivity
  constructor <;> nlinarith

/-- **C227** ZDT6. -/
theorem C227_zdt6 (x : Coords) (hx : x ∈ unitBox 10) :
    ParetoOptimal (unitBox 10) (values zdt6Objs) x ↔ ∀ i, 1 ≤ i → i < 10 → x i = 0 := by
  rw [← (zdt6G_spec hx).2, optimal_iff _ _ (fun x => zdt6F (x 0)) zdt6G (fun a g => g * (1 - (a / g) ^ 2)) (fun y _ => by rw [← C224_zdt6]; rfl)
    (fun y hy => (zdt6G_spec hy).1) (fun y hy s t hs hst => concave_mono hs hst)
    (fun y hy => ⟨zeroTail y, zeroTail_box (by norm_num) hy, by simp [zeroTail],
      (zdt6G_spec (zeroTail_box (by norm_num) hy)).2.2 fun i hi _ => if_neg (by omega)⟩) x hx]
  refine ⟨fun h => h.1, fun h => ⟨h, fun y hy hlt => ?_⟩⟩
  have := (zdt6F_range (hy 0 (by norm_num)).1).1
  simp only [div_one, one_mul]
  nlinarith

/-! ### The reference fronts -/

private theorem linspace_length (a b : ℝ) (n : Nat) : (linspace a b n).length = n := by
  unfold linspace
  split
  · simp_all
  · simp

private theorem linspace_mem {a b : ℝ} (hab : a ≤ b) {n : Nat} {t : ℝ} (ht : t ∈ linspace a b n) : a ≤ t ∧ t ≤ b := by
  unfold linspace at ht
  split at ht
  · rw [List.mem_singleton] at ht; subst ht; exact ⟨hab, le_rfl⟩
  · rename_i hn
    obtain ⟨i, hi, rfl⟩ := List.mem_map.1 ht
    rw [List.mem_range] at hi
    have hn2 : (2 : ℝ) ≤ n := by exact_mod_cast (by omega : 2 ≤ n)
    have hi1 : (i : ℝ) + 1 ≤ n := by exact_mod_cast hi
    have hd : 0 ≤ (b - a) / ((n : ℝ) - 1) := div_nonneg (by linarith) (by linarith)
    have hi0 : (0 : ℝ) ≤ i := Nat.cast_nonneg i
    constructor
    · nlinarith
    · have : (i : ℝ) * ((b - a) / ((n : ℝ) - 1)) ≤ b - a := by
        rw [mul_div_assoc', div_le_iff₀ (by linarith)]
        nlinarith
      linarith

/-- The point with first variable `t` and zeros. -/
private def headOnly (t : ℝ) : Coords := fun i => if i = 0 then t else 0

private theorem headOnly_box {n : Nat} {t : ℝ} (h : 0 ≤ t ∧ t ≤ 1) : headOnly t ∈ unitBox n := by
  intro i _
  unfold headOnly
  split
  · exact h
  · exact ⟨le_rfl, zero_le_one⟩

private theorem headOnly_tail {t : ℝ} {i : Nat} (hi : 1 ≤ i) : headOnly t i = 0 := if_neg (by omega)

/-- **C227** ZDT1: the reference front has the requested number of points, each is the pair of objectives of a Pareto-optimal point, and
each such pair lies on the curve of the front. -/
theorem C227_zdt1_front (n : Nat) :
    (zdt1Front n).length = n ∧
    (∀ v ∈ zdt1Front n, ∃ x, ParetoOptimal (unitBox 30) (values zdt1Objs) x ∧ values zdt1Objs x = v) ∧
    ∀ x, ParetoOptimal (unitBox 30) (values zdt1Objs) x → values zdt1Objs x = [x 0, 1 - √(x 0)] := by
  have hv : ∀ x ∈ unitBox 30, (∀ i, 1 ≤ i → i < 30 → x i = 0) → values zdt1Objs x = [x 0, 1 - √(x 0)] := fun x hx h => by
    rw [← C224_zdt1, zdt1Eval, (zdtG_spec hx).2.2 h]
    simp
  refine ⟨by simp [zdt1Front, linspace_length], fun v h => ?_, fun x hx => hv x hx.1 ((C227_zdt1 x hx.1).1 hx)⟩
  obtain ⟨t, ht, rfl⟩ := List.mem_map.1 h
  have hb := headOnly_box (n := 30) (linspace_mem zero_le_one ht)
  have ho := fun i hi (_ : i < 30) => headOnly_tail (t := t) (i := i) hi
  refine ⟨headOnly t, (C227_zdt1 _ hb).2 ho, ?_⟩
  rw [hv _ hb ho]
  simp [headOnly]

/-- **C227** ZDT2, the reference front. -/
theorem C227_zdt2_front (n : Nat) :
    (zdt2Front n).length = n ∧
    (∀ v ∈ zdt2Front n, ∃ x, ParetoOptimal (unitBox 30) (values zdt2Objs) x ∧ values zdt2Objs x = v) ∧
    ∀ x, ParetoOptimal (unitBox 30) (values zdt2Objs) x → values zdt2Objs x = [x 0, 1 - x 0 ^ 2] := by
  have hv : ∀ x ∈ unitBox 30, (∀ i, 1 ≤ i → i < 30 → x i = 0) → values zdt2Objs x = [x 0, 1 - x 0 ^ 2] := fun x hx h => by
    rw [← C224_zdt2, zdt2Eval, (zdtG_spec hx).2.2 h]
    simp
  refine ⟨by simp [zdt2Front, linspace_length], fun v h => ?_, fun x hx => hv x hx.1 ((C227_zdt2 x hx.1).1 hx)⟩
  obtain ⟨t, ht, rfl⟩ := List.mem_map.1 h
  have hb := headOnly_box (n := 30) (linspace_mem zero_le_one ht)
  have ho := fun i hi (_ : i < 30) => headOnly_tail (t := t) (i := i) hi
  refine ⟨headOnly t, (C227_zdt2 _ hb).2 ho, ?_⟩
  rw [hv _ hb ho]
  simp [headOnly]

/-- **C227** ZDT4, the reference front (the same as for ZDT1). -/
theorem C227_zdt4_front (n : Nat) :
    (∀ v ∈ zdt1Front n, ∃ x, ParetoOptimal zdt4Box (values zdt4Objs) x ∧ values zdt4Objs x = v) ∧
    ∀ x, ParetoOptimal zdt4Box (values zdt4Objs) x → values zdt4Objs x = [x 0, 1 - √(x 0)] := by
  have hv : ∀ x, (∀ i, 1 ≤ i → i < 10 → x i = 0) → values zdt4Objs x = [x 0, 1 - √(x 0)] := fun x h => by
    rw [← C224_zdt4, zdt4Eval, (zdt4G_spec x).2.2 h]
    simp
  refine ⟨fun v h => ?_, fun x hx => hv x ((C227_zdt4 x hx.1).1 hx)⟩
  obtain ⟨t, ht, rfl⟩ := List.mem_map.1 h
  have ho := fun i hi (_ : i < 10) => headOnly_tail (t := t) (i := i) hi
  have hb : headOnly t ∈ zdt4Box := ⟨by simpa [headOnly] using linspace_mem zero_le_one ht, fun i hi _ => by
    rw [headOnly_tail hi]; norm_num⟩
  refine ⟨headOnly t, (C227_zdt4 _ hb).2 ho, ?_⟩
  rw [hv _ ho]
  simp [headOnly]

private theorem cos_double_bound {x c : ℝ} (hc0 : 0 ≤ c) (h : c ≤ cos (x / 2)) : 2 * c ^ 2 - 1 ≤ cos x := by
  have : cos x = 2 * cos (x / 2) ^ 2 - 1 := by rw [← cos_two_mul]; ring_nf
  rw [this]
  nlinarith

/-- The first objective of ZDT6 takes a value below the start of the reference front. -/
private theorem zdt6F_low : zdt6F 0.0814578 ≤ 0.2807753191 := by
  have hpi := pi_lt_d20
  have hpi0 := pi_pos
  set d : ℝ := π * 0.0112532 with hd
  have hd0 : 0 ≤ d := by positivity
  have hd1 : d / 2 / 2 / 2 / 2 / 2 / 2 / 2 ≤ 0.000276195081635756 := by rw [hd]; linarith
  have c7 : (0.9999999618581384 : ℝ) ≤ cos (d / 2 / 2 / 2 / 2 / 2 / 2 / 2) := by
    have := one_sub_sq_div_two_le_cos (x := d / 2 / 2 / 2 / 2 / 2 / 2 / 2)
    have h0 : 0 ≤ d / 2 / 2 / 2 / 2 / 2 / 2 / 2 := by positivity
    have h1 : (d / 2 / 2 / 2 / 2 / 2 / 2 / 2) ^ 2 ≤ 0.000276195081635756 ^ 2 := pow_le_pow_left₀ h0 hd1 2
    norm_num at h1 this ⊢
    linarith
  have c6 : (0.9999998474325565 : ℝ) ≤ cos (d / 2 / 2 / 2 / 2 / 2 / 2) := le_trans (by norm_num) (cos_double_bound (by norm_num) c7)
  have c5 : (0.9999993897302725 : ℝ) ≤ cos (d / 2 / 2 / 2 / 2 / 2) := le_trans (by norm_num) (cos_double_bound (by norm_num) c6)
  have c4 : (0.9999975589218348 : ℝ) ≤ cos (d / 2 / 2 / 2 / 2) := le_trans (by norm_num) (cos_double_bound (by norm_num) c5)
  have c3 : (0.9999902356992569 : ℝ) ≤ cos (d / 2 / 2 / 2) := le_trans (by norm_num) (cos_double_bound (by norm_num) c4)
  have c2 : (0.9999609429877107 : ℝ) ≤ cos (d / 2 / 2) := le_trans (by norm_num) (cos_double_bound (by norm_num) c3)
  have c1 : (0.9998437750017432 : ℝ) ≤ cos (d / 2) := le_trans (by norm_num) (cos_double_bound (by norm_num) c2)
  have c0 : (0.9993751488194729 : ℝ) ≤ cos d := le_trans (by norm_num) (cos_double_bound (by norm_num) c1)
  have hs : sin (6 * π * 0.0814578) = cos d := by
    rw [← cos_pi_div_two_sub, hd]
    congr 1
    ring
  have hs6 : (0.9993751488194729 : ℝ) ^ 6 ≤ sin (6 * π * 0.0814578) ^ 6 := by
    rw [hs]; exact pow_le_pow_left₀ (by norm_num) c0 6
  have he : exp (0.3258312 : ℝ) ≤ 1.3851815304952918 := by
    refine le_trans (exp_bound' (by norm_num) (by norm_num) (n := 10) (by norm_num)) ?_
    simp only [Finset.sum_range_succ, Finset.sum_range_zero, Nat.factorial]
    norm_num
  have he2 : (1 / 1.3851815304952918 : ℝ) ≤ exp (-4 * 0.0814578) := by
    have : (-4 * 0.0814578 : ℝ) = -0.3258312 := by norm_num
    rw [this, exp_neg, one_div]
    exact inv_anti₀ (exp_pos _) he
  have hmul : (1 / 1.3851815304952918 : ℝ) * 0.9993751488194729 ^ 6 ≤ exp (-4 * 0.0814578) * sin (6 * π * 0.0814578) ^ 6 :=
    mul_le_mul he2 hs6 (by positivity) (exp_pos _).le
  have hnum : (0.7192246809 : ℝ) ≤ 1 / 1.3851815304952918 * 0.9993751488194729 ^ 6 := by norm_num
  unfold zdt6F
  linarith

/-- **C227** ZDT6, the reference front. -/
theorem C227_zdt6_front (n : Nat) :
    (zdt6Front n).length = n ∧
    (∀ v ∈ zdt6Front n, ∃ x, ParetoOptimal (unitBox 10) (values zdt6Objs) x ∧ values zdt6Objs x = v) ∧
    ∀ x, ParetoOptimal (unitBox 10) (values zdt6Objs) x → ∃ t, values zdt6Objs x = [t, 1 - t ^ 2] ∧ 0 ≤ t ∧ t ≤ 1 := by
  have hv : ∀ x ∈ unitBox 10, (∀ i, 1 ≤ i → i < 10 → x i = 0) → values zdt6Objs x = [zdt6F (x 0), 1 - zdt6F (x 0) ^ 2] :=
    fun x hx h => by
      rw [← C224_zdt6, zdt6Eval, (zdt6G_spec hx).2.2 h]
      simp
  refine ⟨by simp [zdt6Front, linspace_length], fun v h => ?_, fun x hx => ⟨_, hv x hx.1 ((C227_zdt6 x hx.1).1 hx),
    zdt6F_range (hx.1 0 (by norm_num)).1⟩⟩
  obtain ⟨t, ht, rfl⟩ := List.mem_map.1 h
  have ht' := linspace_mem (by norm_num) ht
  have hcont : ContinuousOn zdt6F (Set.Icc 0 0.0814578) := by unfold zdt6F; fun_prop
  have h0 : zdt6F 0 = 1 := by simp [zdt6F]
  obtain ⟨u, hu, hut⟩ := intermediate_value_Icc' (by norm_num) hcont ⟨le_trans zdt6F_low ht'.1, by rw [h0]; exact ht'.2⟩
  have hb := headOnly_box (n := 10) (t := u) ⟨hu.1, le_trans hu.2 (by norm_num)⟩
  have ho := fun i hi (_ : i < 10) => headOnly_tail (t := u) (i := i) hi
  refine ⟨headOnly u, (C227_zdt6 _ hb).2 ho, ?_⟩
  rw [hv _ hb ho]
  simp [headOnly, hut]

end Ens.Problems.Multi
