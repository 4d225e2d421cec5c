import Verif.Problems.DtlzSets

/-
C230: the Pareto sets of MAF1, MAF3, MAF4, MAF5 and DTLZ7.
-/

namespace Ens.Problems.Multi

open Real

/-- The objectives are increasing functions of a factor `v` times a direction; no direction is below another one or zero; every point has
a companion with the same direction and the smallest factor one: the Pareto-optimal points are those with that factor. -/
private theorem antichain_optimal (S : Set Coords) (F : Coords → List ℝ) (φ ψ χ : ℝ → ℝ) (v a b c : Coords → ℝ)
    (hφ : StrictMonoOn φ (Set.Ici 0)) (hψ : StrictMonoOn ψ (Set.Ici 0)) (hχ : StrictMonoOn χ (Set.Ici 0))
    (hF : ∀ x ∈ S, F x = [φ (v x * a x), ψ (v x * b x), χ (v x * c x)]) (hv : ∀ x ∈ S, 1 ≤ v x)
    (h0 : ∀ x ∈ S, 0 ≤ a x ∧ 0 ≤ b x ∧ 0 ≤ c x) (hn : ∀ x ∈ S, 0 < a x + b x + c x)
    (ha : ∀ x ∈ S, ∀ y ∈ S, a y ≤ a x → b y ≤ b x → c y ≤ c x → a y = a x ∧ b y = b x ∧ c y = c x)
    (hz : ∀ x ∈ S, ∃ y ∈ S, v y = 1 ∧ a y = a x ∧ b y = b x ∧ c y = c x) (x : Coords) (hx : x ∈ S) :
    ParetoOptimal S F x ↔ v x = 1 := by
  have nn : ∀ x ∈ S, 0 ≤ v x * a x ∧ 0 ≤ v x * b x ∧ 0 ≤ v x * c x := fun x hx => by
    have h1 : 0 ≤ v x := by linarith [hv x hx]
    obtain ⟨h2, h3, h4⟩ := h0 x hx
    exact ⟨mul_nonneg h1 h2, mul_nonneg h1 h3, mul_nonneg h1 h4⟩
  constructor
  · rintro ⟨-, h⟩
    by_contra hne
    have hlt : 1 < v x := lt_of_le_of_ne (hv x hx) (Ne.symm hne)
    obtain ⟨y, hy, hyv, e1, e2, e3⟩ := hz x hx
    obtain ⟨h1, h2, h3⟩ := h0 x hx
    obtain ⟨m1, m2, m3⟩ := nn x hx
    refine h y hy ?_
    rw [hF y hy, hF x hx, hyv, e1, e2, e3, one_mul, one_mul, one_mul]
    refine ⟨.cons (hφ.monotoneOn h1 m1 (by nlinarith)) (.cons (hψ.monotoneOn h2 m2 (by nlinarith))
      (.cons (hχ.monotoneOn h3 m3 (by nlinarith)) .nil)), fun he => ?_⟩
    simp only [List.cons.injEq, and_true] at he
    have i1 := hφ.injOn h1 m1 he.1
    have i2 := hψ.injOn h2 m2 he.2.1
    have i3 := hχ.injOn h3 m3 he.2.2
    have := hn x hx
    nlinarith
  · intro hvx
    refine ⟨hx, fun y hy hd => ?_⟩
    obtain ⟨hle, hneq⟩ := hd
    rw [hF y hy, hF x hx] at hle
    simp only [List.forall₂_cons, List.forall₂_nil_left_iff, and_true] at hle
    obtain ⟨y1, y2, y3⟩ := h0 y hy
    have l1 := (hφ.le_iff_le (nn y hy).1 (nn x hx).1).1 hle.1
    have l2 := (hψ.le_iff_le (nn y hy).2.1 (nn x hx).2.1).1 hle.2.1
    have l3 := (hχ.le_iff_le (nn y hy).2.2 (nn x hx).2.2).1 hle.2.2
    rw [hvx, one_mul] at l1 l2 l3
    have hvy := hv y hy
    obtain ⟨e1, e2, e3⟩ := ha x hx y hy (by nlinarith) (by nlinarith) (by nlinarith)
    have hpos := hn y hy
    have hvy1 : v y = 1 := by
      rw [← e1] at l1
      rw [← e2] at l2
      rw [← e3] at l3
      by_contra hne
      have hlt : 1 < v y := lt_of_le_of_ne hvy (Ne.symm hne)
      nlinarith
    apply hneq
    rw [hF y hy, hF x hx, hvx, hvy1, e1, e2, e3]

/-- The companion whose distance variables are one half. -/
private def halfRest (x : Coords) : Coords := fun i => if i < 2 then x i else 0.5

private theorem halfRest_box {x : Coords} (hx : x ∈ unitBox 12) : halfRest x ∈ unitBox 12 := by
  intro i hi
  unfold halfRest
  split
  · exact hx i hi
  · norm_num

private theorem one_iff {g : ℝ} : 1 + g = 1 ↔ g = 0 := by
  constructor <;> intro h <;> linarith

private theorem half_of_rest {g : Coords → ℝ} (hg : ∀ x, g x = 0 ↔ ∀ i, 2 ≤ i → i < 12 → x i = 0.5) (x : Coords) :
    1 + g (halfRest x) = 1 := one_iff.2 ((hg _).2 fun i hi _ => if_neg (by omega))

private theorem mono_id : StrictMonoOn (fun t : ℝ => t) (Set.Ici 0) := fun _ _ _ _ h => h

private theorem mono_pow {c : ℝ} (hc : 0 < c) {k : Nat} (hk : k ≠ 0) : StrictMonoOn (fun t : ℝ => c * t ^ k) (Set.Ici 0) :=
  fun _ hs _ _ h => mul_lt_mul_of_pos_left (pow_lt_pow_left₀ h hs hk) hc

/-- **C230** MAF1: in the unit box the Pareto-optimal points are those whose distance variables are one half; there the objectives add
up to two. -/
theorem C230_maf1 (x : Coords) (hx : x ∈ unitBox 12) :
    (ParetoOptimal (unitBox 12) (values (threeObjs maf1Obj)) x ↔ ∀ i, 2 ≤ i → i < 12 → x i = 0.5) ∧
    (ParetoOptimal (unitBox 12) (values (threeObjs maf1Obj)) x → (values (threeObjs maf1Obj) x).sum = 2) := by
  have e : ∀ z : Coords, values (threeObjs maf1Obj) z = [(1 + gQuad 12 z) * z 0, (1 + gQuad 12 z) * (1 - z 0 * (1 - z 1)),
      (1 + gQuad 12 z) * (1 - z 0 * z 1)] := fun z => by
    rw [← C224_maf1]
    simp only [maf1Eval, spread, List.cons.injEq, and_true]
    refine ⟨?_, ?_, ?_⟩ <;> ring
  have h : ParetoOptimal (unitBox 12) (values (threeObjs maf1Obj)) x ↔ ∀ i, 2 ≤ i → i < 12 → x i = 0.5 := by
    rw [← gQuad_zero_iff, ← one_iff, antichain_optimal (unitBox 12) _ (fun t => t) (fun t => t) (fun t => t) (fun x => 1 + gQuad 12 x)
      (fun x => x 0) (fun x => 1 - x 0 * (1 - x 1)) (fun x => 1 - x 0 * x 1) mono_id mono_id mono_id (fun z _ => e z)
      (fun z _ => by linarith [gQuad_nonneg 12 z]) (fun z hz => ?_) (fun z _ => by nlinarith)
      (fun z _ y _ h1 h2 h3 => ⟨by nlinarith, by nlinarith, by nlinarith⟩)
      (fun z hz => ⟨halfRest z, halfRest_box hz, half_of_rest (gQuad_zero_iff 12) z, rfl, rfl, rfl⟩) x hx]
    have h0 := hz 0 (by norm_num)
    have h1 := hz 1 (by norm_num)
    exact ⟨h0.1, by nlinarith, by nlinarith⟩
  refine ⟨h, fun ho => ?_⟩
  rw [e, one_iff.2 ((gQuad_zero_iff 12 x).2 (h.1 ho))]
  simp
  ring

/-- The directions on the sphere: none is below another one. -/
private theorem sphere_antichain {a b a' b' : ℝ} (h0 : 0 ≤ sin a' ∧ 0 ≤ cos a') (h1 : 0 ≤ sin b' ∧ 0 ≤ cos b')
    (h2 : 0 ≤ sin a ∧ 0 ≤ cos a) (h3 : 0 ≤ sin b ∧ 0 ≤ cos b)
    (l1 : sin a' ≤ sin a) (l2 : cos a' * sin b' ≤ cos a * sin b) (l3 : cos a' * cos b' ≤ cos a * cos b) :
    sin a' = sin a ∧ cos a' * sin b' = cos a * sin b ∧ cos a' * cos b' = cos a * cos b := by
  have n1 := sphere_norm a b
  have n2 := sphere_norm a' b'
  have p1 := pow_le_pow_left₀ h0.1 l1 2
  have p2 := pow_le_pow_left₀ (mul_nonneg h0.2 h1.1) l2 2
  have p3 := pow_le_pow_left₀ (mul_nonneg h0.2 h1.2) l3 2
  exact ⟨(pow_left_inj₀ h0.1 h2.1 two_ne_zero).1 (by linarith),
    (pow_left_inj₀ (mul_nonneg h0.2 h1.1) (mul_nonneg h2.2 h3.1) two_ne_zero).1 (by linarith),
    (pow_left_inj₀ (mul_nonneg h0.2 h1.2) (mul_nonneg h2.2 h3.2) two_ne_zero).1 (by linarith)⟩

private theorem sphere_pos {a b : ℝ} (h2 : 0 ≤ sin a ∧ 0 ≤ cos a) (h3 : 0 ≤ sin b ∧ 0 ≤ cos b) :
    0 < sin a + cos a * sin b + cos a * cos b := by
  have n1 := sphere_norm a b
  have m1 := mul_nonneg h2.2 h3.1
  have m2 := mul_nonneg h2.2 h3.2
  by_contra h
  have e1 : sin a = 0 := by linarith [h2.1]
  have e2 : cos a * sin b = 0 := by linarith [h2.1]
  have e3 : cos a * cos b = 0 := by linarith [h2.1]
  rw [e1, e2, e3] at n1
  norm_num at n1

/-- A problem whose objectives are increasing functions of the coordinates on a sphere. -/
private theorem sphere_set (F : Coords → List ℝ) (φ ψ χ : ℝ → ℝ) (theta : Coords → Nat → ℝ) (g : Coords → ℝ)
    (hφ : StrictMonoOn φ (Set.Ici 0)) (hψ : StrictMonoOn ψ (Set.Ici 0)) (hχ : StrictMonoOn χ (Set.Ici 0))
    (hF : ∀ x, F x = [φ ((1 + g x) * sin (theta x 0 * π * 0.5)),
      ψ ((1 + g x) * (cos (theta x 0 * π * 0.5) * sin (theta x 1 * π * 0.5))),
      χ ((1 + g x) * (cos (theta x 0 * π * 0.5) * cos (theta x 1 * π * 0.5)))])
    (hθ : ∀ x ∈ unitBox 12, ∀ i < 2, 0 ≤ theta x i ∧ theta x i ≤ 1) (hθ' : ∀ x, ∀ i < 2, theta (halfRest x) i = theta x i)
    (hg : ∀ x, 0 ≤ g x) (hg0 : ∀ x, g x = 0 ↔ ∀ i, 2 ≤ i → i < 12 → x i = 0.5) (x : Coords) (hx : x ∈ unitBox 12) :
    ParetoOptimal (unitBox 12) F x ↔ ∀ i, 2 ≤ i → i < 12 → x i = 0.5 := by
  have t0 := fun z hz => trig_nonneg (hθ z hz 0 (by norm_num))
  have t1 := fun z hz => trig_nonneg (hθ z hz 1 (by norm_num))
  rw [← hg0, ← one_iff, antichain_optimal (unitBox 12) F φ ψ χ (fun x => 1 + g x) (fun x => sin (theta x 0 * π * 0.5))
    (fun x => cos (theta x 0 * π * 0.5) * sin (theta x 1 * π * 0.5)) (fun x => cos (theta x 0 * π * 0.5) * cos (theta x 1 * π * 0.5))
    hφ hψ hχ (fun z _ => hF z) (fun z _ => by linarith [hg z])
    (fun z hz => ⟨(t0 z hz).1, mul_nonneg (t0 z hz).2 (t1 z hz).1, mul_nonneg (t0 z hz).2 (t1 z hz).2⟩)
    (fun z hz => sphere_pos (t0 z hz) (t1 z hz))
    (fun z hz y hy h1 h2 h3 => sphere_antichain (t0 y hy) (t1 y hy) (t0 z hz) (t1 z hz) h1 h2 h3)
    (fun z hz => ⟨halfRest z, halfRest_box hz, half_of_rest hg0 z, by rw [hθ' z 0 (by norm_num)],
      by rw [hθ' z 0 (by norm_num), hθ' z 1 (by norm_num)], by rw [hθ' z 0 (by norm_num), hθ' z 1 (by norm_num)]⟩) x hx]

/-- **C230** MAF3: in the unit box the Pareto-optimal points are those whose distance variables are one half; there √f₁, and the square
roots of √f₂ and √f₃, are on the unit sphere. -/
theorem C230_maf3 (x : Coords) (hx : x ∈ unitBox 12) :
    (ParetoOptimal (unitBox 12) (values (threeObjs maf3Obj)) x ↔ ∀ i, 2 ≤ i → i < 12 → x i = 0.5) ∧
    (ParetoOptimal (unitBox 12) (values (threeObjs maf3Obj)) x →
      ∃ f1 f2 f3, values (threeObjs maf3Obj) x = [f1, f2, f3] ∧ f1 + √f2 + √f3 = 1) := by
  have e : ∀ z : Coords, values (threeObjs maf3Obj) z = [1 * ((1 + gRast 12 z) * sin (z 0 * π * 0.5)) ^ 2,
      1 * ((1 + gRast 12 z) * (cos (z 0 * π * 0.5) * sin (z 1 * π * 0.5))) ^ 4,
      1 * ((1 + gRast 12 z) * (cos (z 0 * π * 0.5) * cos (z 1 * π * 0.5))) ^ 4] := fun z => by
    rw [← C224_maf3]
    simp only [maf3Eval, spread, List.cons.injEq, and_true]
    refine ⟨?_, ?_, ?_⟩ <;> norm_num <;> ring
  have h := sphere_set (values (threeObjs maf3Obj)) _ _ _ (fun x => x) (gRast 12) (mono_pow one_pos two_ne_zero)
    (mono_pow one_pos (by norm_num : 4 ≠ 0)) (mono_pow one_pos (by norm_num : 4 ≠ 0)) e (fun z hz i hi => hz i (by omega))
    (fun z i hi => if_pos hi) (gRast_nonneg 12 (by norm_num)) (gRast_zero_iff 12 (by norm_num)) x hx
  refine ⟨h, fun ho => ⟨_, _, _, e x, ?_⟩⟩
  have hs : ∀ t : ℝ, √(1 * ((1 + 0) * t) ^ 4) = t ^ 2 := fun t => by
    rw [show 1 * ((1 + 0) * t) ^ 4 = (t ^ 2) ^ 2 by ring, sqrt_sq (sq_nonneg t)]
  rw [(gRast_zero_iff 12 (by norm_num) x).2 (h.1 ho), hs, hs]
  have := sphere_norm (x 0 * π * 0.5) (x 1 * π * 0.5)
  linarith

/-- **C230** MAF5, for every `alpha` and positive `a`. -/
theorem C230_maf5 (alpha a : Nat) (ha : 0 < a) (x : Coords) (hx : x ∈ unitBox 12) :
    ParetoOptimal (unitBox 12) (values (threeObjs (maf5Obj alpha a))) x ↔ ∀ i, 2 ≤ i → i < 12 → x i = 0.5 := by
  have e : ∀ z : Coords, values (threeObjs (maf5Obj alpha a)) z =
      [(a : ℝ) ^ 1 * ((1 + gQuad 12 z) * sin (z 0 ^ alpha * π * 0.5)) ^ 4,
      (a : ℝ) ^ 2 * ((1 + gQuad 12 z) * (cos (z 0 ^ alpha * π * 0.5) * sin (z 1 ^ alpha * π * 0.5))) ^ 4,
      (a : ℝ) ^ 3 * ((1 + gQuad 12 z) * (cos (z 0 ^ alpha * π * 0.5) * cos (z 1 ^ alpha * π * 0.5))) ^ 4] := fun z => by
    rw [← C224_maf5]
    simp only [maf5Eval, spread, List.cons.injEq, and_true]
    refine ⟨?_, ?_, ?_⟩ <;> ring
  have ha' : (0 : ℝ) < a := by exact_mod_cast ha
  exact sphere_set (values (threeObjs (maf5Obj alpha a))) _ _ _ (fun x i => x i ^ alpha) (gQuad 12)
    (mono_pow (pow_pos ha' 1) (by norm_num : 4 ≠ 0)) (mono_pow (pow_pos ha' 2) (by norm_num : 4 ≠ 0))
    (mono_pow (pow_pos ha' 3) (by norm_num : 4 ≠ 0)) e
    (fun z hz i hi => ⟨pow_nonneg (hz i (by omega)).1 _, pow_le_one₀ (hz i (by omega)).1 (hz i (by omega)).2⟩)
    (fun z i hi => by simp only [halfRest, if_pos hi]) (gQuad_nonneg 12) (gQuad_zero_iff 12) x hx

/-- **C230** MAF4 (`Evaluate`, for every positive real `a`). -/
theorem C230_maf4 (a : ℝ) (ha : 0 < a) (x : Coords) (hx : x ∈ unitBox 12) :
    ParetoOptimal (unitBox 12) (maf4Eval a) x ↔ ∀ i, 2 ≤ i → i < 12 → x i = 0.5 := by
  have e : ∀ z : Coords, maf4Eval a z =
      [a ^ 3 * ((1 + gRast 12 z) * (1 - sin (z 0 * π * 0.5))) ^ 1,
      a ^ 2 * ((1 + gRast 12 z) * (1 - cos (z 0 * π * 0.5) * sin (z 1 * π * 0.5))) ^ 1,
      a ^ 1 * ((1 + gRast 12 z) * (1 - cos (z 0 * π * 0.5) * cos (z 1 * π * 0.5))) ^ 1] := fun z => by
    simp only [maf4Eval, spread, List.cons.injEq, and_true]
    refine ⟨?_, ?_, ?_⟩ <;> norm_num <;> ring
  have t0 := fun (z : Coords) (hz : z ∈ unitBox 12) => trig_nonneg (hz 0 (by norm_num))
  have t1 := fun (z : Coords) (hz : z ∈ unitBox 12) => trig_nonneg (hz 1 (by norm_num))
  rw [← gRast_zero_iff 12 (by norm_num), ← one_iff, antichain_optimal (unitBox 12) (maf4Eval a) _ _ _ (fun x => 1 + gRast 12 x)
    (fun z => 1 - sin (z 0 * π * 0.5)) (fun z => 1 - cos (z 0 * π * 0.5) * sin (z 1 * π * 0.5))
    (fun z => 1 - cos (z 0 * π * 0.5) * cos (z 1 * π * 0.5)) (mono_pow (pow_pos ha 3) one_ne_zero)
    (mono_pow (pow_pos ha 2) one_ne_zero) (mono_pow (pow_pos ha 1) one_ne_zero) (fun z _ => e z)
    (fun z _ => by linarith [gRast_nonneg 12 (by norm_num) z]) (fun z hz => ?_) (fun z hz => ?_) (fun z hz y hy h1 h2 h3 => ?_)
    (fun z hz => ⟨halfRest z, halfRest_box hz, half_of_rest (gRast_zero_iff 12 (by norm_num)) z, rfl, rfl, rfl⟩) x hx]
  · exact ⟨by linarith [sin_le_one (z 0 * π * 0.5)],
      by linarith [mul_le_one₀ (cos_le_one (z 0 * π * 0.5)) (t1 z hz).1 (sin_le_one (z 1 * π * 0.5))],
      by linarith [mul_le_one₀ (cos_le_one (z 0 * π * 0.5)) (t1 z hz).2 (cos_le_one (z 1 * π * 0.5))]⟩
  · have n := sphere_norm (z 0 * π * 0.5) (z 1 * π * 0.5)
    nlinarith [sq_nonneg (sin (z 0 * π * 0.5) - 1), sq_nonneg (cos (z 0 * π * 0.5) * sin (z 1 * π * 0.5) - 1),
      sq_nonneg (cos (z 0 * π * 0.5) * cos (z 1 * π * 0.5) - 1)]
  · obtain ⟨e1, e2, e3⟩ := sphere_antichain (t0 z hz) (t1 z hz) (t0 y hy) (t1 y hy) (by linarith) (by linarith) (by linarith)
    exact ⟨by rw [e1], by rw [e2], by rw [e3]⟩

/-- **C230** DTLZ7: in the unit box the Pareto-optimal points are those whose distance variables are zero and whose first two variables
cannot be lowered without lowering the sum of t (1 + cos 3πt) over them. -/
theorem C230_dtlz7 (x : Coords) (hx : x ∈ unitBox 7) :
    ParetoOptimal (unitBox 7) (values dtlz7Objs) x ↔ (∀ i, 2 ≤ i → i < 7 → x i = 0) ∧
      ∀ s t, 0 ≤ s → s ≤ x 0 → 0 ≤ t → t ≤ x 1 → (s, t) ≠ (x 0, x 1) →
        s * (1 + cos (3 * π * s)) + t * (1 + cos (3 * π * t)) < x 0 * (1 + cos (3 * π * x 0)) + x 1 * (1 + cos (3 * π * x 1)) := by
  have gnn : ∀ z ∈ unitBox 7, 1 ≤ gSeven z := fun z hz => by
    unfold gSeven distSum
    have : 0 ≤ ∑ i ∈ Finset.Ico 2 7, z i := Finset.sum_nonneg fun i hi => (hz i (by simp at hi; omega)).1
    norm_num
    linarith
  have g0 : ∀ z ∈ unitBox 7, gSeven z = 1 ↔ ∀ i, 2 ≤ i → i < 7 → z i = 0 := fun z hz => by
    unfold gSeven distSum
    norm_num
    rw [Finset.sum_eq_zero_iff_of_nonneg fun i hi => (hz i (by simp at hi; omega)).1]
    simp only [Finset.mem_Ico, and_imp]
  have e : ∀ z ∈ unitBox 7, values dtlz7Objs z = [z 0, z 1, 3 * (1 + gSeven z) -
      (z 0 * (1 + cos (3 * π * z 0)) + z 1 * (1 + cos (3 * π * z 1)))] := fun z hz => by
    have hg := gnn z hz
    have hne : 1 + gSeven z ≠ 0 := by linarith
    rw [← C224_dtlz7]
    simp only [dtlz7Eval, hSeven, List.range_succ, List.range_zero, List.nil_append, List.foldl_append, List.foldl_cons,
      List.foldl_nil, List.cons.injEq, and_true, true_and]
    field_simp
    rw [mul_comm 3 π]
    field_simp
    ring
  rw [← g0 x hx]
  constructor
  · rintro ⟨-, h⟩
    have key : ∀ s t, 0 ≤ s → s ≤ x 0 → 0 ≤ t → t ≤ x 1 → ¬ Dominates [s, t, 3 * (1 + 1) -
        (s * (1 + cos (3 * π * s)) + t * (1 + cos (3 * π * t)))] (values dtlz7Objs x) := by
      intro s t h1 h2 h3 h4 hd
      let y : Coords := fun i => if i = 0 then s else if i = 1 then t else 0
      have hy : y ∈ unitBox 7 := fun i hi => by
        have b0 := (hx 0 (by norm_num)).2
        have b1 := (hx 1 (by norm_num)).2
        simp only [y]
        split
        · exact ⟨h1, by linarith⟩
        · split
          · exact ⟨h3, by linarith⟩
          · norm_num
      refine h y hy ?_
      rw [e y hy, (g0 y hy).2 fun i h1 _ => by simp only [y]; rw [if_neg (by omega), if_neg (by omega)]]
      exact hd
    have hg : gSeven x = 1 := by
      by_contra hne
      have hlt : 1 < gSeven x := lt_of_le_of_ne (gnn x hx) (Ne.symm hne)
      refine key (x 0) (x 1) (hx 0 (by norm_num)).1 le_rfl (hx 1 (by norm_num)).1 le_rfl ?_
      rw [e x hx]
      refine ⟨.cons le_rfl (.cons le_rfl (.cons (by linarith) .nil)), fun he => ?_⟩
      simp only [List.cons.injEq, and_true, true_and] at he
      linarith
    refine ⟨hg, fun s t h1 h2 h3 h4 hne => ?_⟩
    by_contra hle
    refine key s t h1 h2 h3 h4 ?_
    rw [e x hx, hg]
    refine ⟨.cons h2 (.cons h4 (.cons (by linarith) .nil)), fun he => ?_⟩
    simp only [List.cons.injEq, and_true] at he
    exact hne (by rw [he.1, he.2.1])
  · rintro ⟨hg, h⟩
    refine ⟨hx, fun y hy hd => ?_⟩
    obtain ⟨hle, hneq⟩ := hd
    rw [e y hy, e x hx, hg] at hle
    simp only [List.forall₂_cons, List.forall₂_nil_left_iff, and_true] at hle
    obtain ⟨l1, l2, l3⟩ := hle
    have hgy := gnn y hy
    by_cases hne : (y 0, y 1) = (x 0, x 1)
    · have h0 : y 0 = x 0 := congrArg Prod.fst hne
      have h1 : y 1 = x 1 := congrArg Prod.snd hne
      rw [h0, h1] at l3
      apply hneq
      rw [e y hy, e x hx, hg, h0, h1, show gSeven y = 1 by linarith]
    · have := h (y 0) (y 1) (hy 0 (by norm_num)).1 l1 (hy 1 (by norm_num)).1 l2 hne
      linarith

/-- The corner (0, 0, 0, ...) is Pareto optimal for DTLZ7. -/
example : ParetoOptimal (unitBox 7) (values dtlz7Objs) fun _ => 0 :=
  (C230_dtlz7 _ fun i _ => by norm_num).2 ⟨fun _ _ _ => rfl, fun s t h1 h2 h3 h4 hne =>
    absurd (Prod.ext (le_antisymm h2 h1) (le_antisymm h4 h3)) hne⟩

end Ens.Problems.Multi
