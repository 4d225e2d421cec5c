import Verif.Problems.ParetoSets

/-
C228 (Pareto sets and reference fronts of DTLZ1–4) and C229 (the distance variables of MAF2).
-/

namespace Ens.Problems.Multi

open Real

/-- The objectives are a distance `v` times a direction of norm one (in the `p`-norm) with entries that are not negative, and every point
has a companion with the same direction at the smallest distance one half: the Pareto-optimal points are those at that distance. -/
private theorem radial_optimal (S : Set Coords) (F : Coords → List ℝ) (v a b c : Coords → ℝ) (p : Nat) (hp : p ≠ 0)
    (hF : ∀ x ∈ S, F x = [v x * a x, v x * b x, v x * c x]) (hv : ∀ x ∈ S, 0.5 ≤ v x)
    (h0 : ∀ x ∈ S, 0 ≤ a x ∧ 0 ≤ b x ∧ 0 ≤ c x) (hn : ∀ x ∈ S, a x ^ p + b x ^ p + c x ^ p = 1)
    (hz : ∀ x ∈ S, ∃ y ∈ S, v y = 0.5 ∧ a y = a x ∧ b y = b x ∧ c y = c x) (x : Coords) (hx : x ∈ S) :
    ParetoOptimal S F x ↔ v x = 0.5 := by
  constructor
  · rintro ⟨-, h⟩
    by_contra hne
    have hlt : 0.5 < v x := lt_of_le_of_ne (hv x hx) (Ne.symm hne)
    obtain ⟨y, hy, hyv, ha, hb, hc⟩ := hz x hx
    refine h y hy ?_
    rw [hF y hy, hF x hx, hyv, ha, hb, hc]
    obtain ⟨h1, h2, h3⟩ := h0 x hx
    refine ⟨?_, fun he => ?_⟩
    · refine .cons ?_ (.cons ?_ (.cons ?_ .nil)) <;> exact mul_le_mul_of_nonneg_right hlt.le ‹_›
    · simp only [List.cons.injEq, and_true, mul_eq_mul_right_iff] at he
      have hz' : a x = 0 ∧ b x = 0 ∧ c x = 0 := by
        refine ⟨he.1.resolve_left hlt.ne, he.2.1.resolve_left hlt.ne, he.2.2.resolve_left hlt.ne⟩
      have := hn x hx
      rw [hz'.1, hz'.2.1, hz'.2.2, zero_pow hp] at this
      norm_num at this
  · intro hvx
    refine ⟨hx, fun y hy hd => ?_⟩
    rw [hF y hy, hF x hx] at hd
    obtain ⟨hle, hneq⟩ := hd
    simp only [List.forall₂_cons, List.forall₂_nil_left_iff, and_true] at hle
    obtain ⟨l1, l2, l3⟩ := hle
    obtain ⟨y1, y2, y3⟩ := h0 y hy
    obtain ⟨x1, x2, x3⟩ := h0 x hx
    have vy := hv y hy
    have vy0 : 0 ≤ v y := by linarith
    have vx0 : 0 ≤ v x := by rw [hvx]; norm_num
    have p1 := pow_le_pow_left₀ (mul_nonneg vy0 y1) l1 p
    have p2 := pow_le_pow_left₀ (mul_nonneg vy0 y2) l2 p
    have p3 := pow_le_pow_left₀ (mul_nonneg vy0 y3) l3 p
    have sy : (v y * a y) ^ p + (v y * b y) ^ p + (v y * c y) ^ p = v y ^ p := by
      rw [mul_pow, mul_pow, mul_pow, ← mul_add, ← mul_add, hn y hy, mul_one]
    have sx : (v x * a x) ^ p + (v x * b x) ^ p + (v x * c x) ^ p = v x ^ p := by
      rw [mul_pow, mul_pow, mul_pow, ← mul_add, ← mul_add, hn x hx, mul_one]
    have hpow : v x ^ p ≤ v y ^ p := pow_le_pow_left₀ vx0 (by rw [hvx]; exact vy) p
    have e1 : (v y * a y) ^ p = (v x * a x) ^ p := by linarith
    have e2 : (v y * b y) ^ p = (v x * b x) ^ p := by linarith
    have e3 : (v y * c y) ^ p = (v x * c x) ^ p := by linarith
    refine hneq ?_
    rw [(pow_left_inj₀ (mul_nonneg vy0 y1) (mul_nonneg vx0 x1) hp).1 e1,
      (pow_left_inj₀ (mul_nonneg vy0 y2) (mul_nonneg vx0 x2) hp).1 e2,
      (pow_left_inj₀ (mul_nonneg vy0 y3) (mul_nonneg vx0 x3) hp).1 e3]

/-- The companion whose distance variables are one half. -/
private def halfTail (x : Coords) : Coords := fun i => if i < 2 then x i else 0.5

private theorem halfTail_box {x : Coords} (hx : x ∈ unitBox 7) : halfTail x ∈ unitBox 7 := by
  intro i hi
  unfold halfTail
  split
  · exact hx i hi
  · norm_num

private theorem gRast_eq (n : Nat) (hn : 3 ≤ n) (x : Coords) :
    gRast n x = 100 * distSum n (fun t => (t - 0.5) ^ 2 + (1 - cos (20 * π * (t - 0.5)))) x := by
  unfold gRast distSum
  have h : ((n - 3 + 1 : Nat) : ℝ) = ∑ _i ∈ Finset.Ico 2 n, (1 : ℝ) := by
    rw [Finset.sum_const, Nat.card_Ico, nsmul_eq_mul, mul_one]
    congr 1; omega
  rw [h, ← Finset.sum_add_distrib]
  congr 1
  exact Finset.sum_congr rfl fun i _ => by ring

theorem gRast_zero_iff (n : Nat) (hn : 3 ≤ n) (x : Coords) : gRast n x = 0 ↔ ∀ i, 2 ≤ i → i < n → x i = 0.5 := by
  have hf : ∀ t : ℝ, 0 ≤ 1 - cos (20 * π * (t - 0.5)) := fun t => by linarith [cos_le_one (20 * π * (t - 0.5))]
  rw [gRast_eq n hn, mul_eq_zero, or_iff_right (by norm_num)]
  unfold distSum
  rw [Finset.sum_eq_zero_iff_of_nonneg fun i _ => add_nonneg (sq_nonneg _) (hf _)]
  simp only [Finset.mem_Ico, and_imp]
  refine forall_congr' fun i => forall_congr' fun _ => forall_congr' fun _ => ⟨fun h => ?_, fun h => by simp [h]⟩
  have h2 : (x i - 0.5) ^ 2 = 0 := le_antisymm (by linarith [hf (x i)]) (sq_nonneg _)
  linarith [pow_eq_zero_iff two_ne_zero |>.1 h2]

theorem gQuad_nonneg (n : Nat) (x : Coords) : 0 ≤ gQuad n x := by
  unfold gQuad distSum
  exact Finset.sum_nonneg fun _ _ => sq_nonneg _

theorem gQuad_zero_iff (n : Nat) (x : Coords) : gQuad n x = 0 ↔ ∀ i, 2 ≤ i → i < n → x i = 0.5 := by
  unfold gQuad distSum
  rw [Finset.sum_eq_zero_iff_of_nonneg fun _ _ => sq_nonneg _]
  simp only [Finset.mem_Ico, and_imp]
  refine forall_congr' fun i => forall_congr' fun _ => forall_congr' fun _ => ⟨fun h => ?_, fun h => by simp [h]⟩
  linarith [pow_eq_zero_iff two_ne_zero |>.1 h]

private theorem half_iff {g : ℝ} : 0.5 * (1 + g) = 0.5 ↔ g = 0 := by
  constructor <;> intro h
  · norm_num at h; linarith
  · rw [h]; norm_num

private theorem dtlz1_rows (x : Coords) : dtlz1Eval x =
    [0.5 * (1 + gRast 7 x) * (1 - x 0), 0.5 * (1 + gRast 7 x) * (x 0 * (1 - x 1)), 0.5 * (1 + gRast 7 x) * (x 0 * x 1)] := by
  simp [dtlz1Eval, spread, mul_assoc]

/-- **C228** DTLZ1, the objectives of `Evaluate`: in the unit box the Pareto-optimal points are those whose distance variables are one
half, and there the objectives add up to one half. -/
theorem C228_dtlz1 (x : Coords) (hx : x ∈ unitBox 7) :
    (ParetoOptimal (unitBox 7) dtlz1Eval x ↔ ∀ i, 2 ≤ i → i < 7 → x i = 0.5) ∧
    (ParetoOptimal (unitBox 7) dtlz1Eval x → (dtlz1Eval x).sum = 0.5) := by
  have h : ParetoOptimal (unitBox 7) dtlz1Eval x ↔ ∀ i, 2 ≤ i → i < 7 → x i = 0.5 := by
    rw [← gRast_zero_iff 7 (by norm_num), ← half_iff, radial_optimal (unitBox 7) dtlz1Eval (fun x => 0.5 * (1 + gRast 7 x))
      (fun x => 1 - x 0) (fun x => x 0 * (1 - x 1)) (fun x => x 0 * x 1) 1 one_ne_zero (fun y _ => dtlz1_rows y)
      (fun y _ => by have := gRast_nonneg 7 (by norm_num) y; linarith) (fun y hy => ?_) (fun y _ => by ring)
      (fun y hy => ⟨halfTail y, halfTail_box hy, half_iff.2 ((gRast_zero_iff 7 (by norm_num) _).2 fun i hi _ => if_neg (by omega)),
        by simp [halfTail], by simp [halfTail], by simp [halfTail]⟩) x hx]
    have h0 := hy 0 (by norm_num)
    have h1 := hy 1 (by norm_num)
    exact ⟨by linarith, mul_nonneg h0.1 (by linarith), mul_nonneg h0.1 h1.1⟩
  refine ⟨h, fun ho => ?_⟩
  rw [dtlz1_rows, half_iff.2 ((gRast_zero_iff 7 (by norm_num) x).2 (h.1 ho))]
  simp
  ring

/-- **C228** DTLZ1: for a number of points of the form (p + 1)(p + 2)/2, the reference front has that many points, and each is the
vector of objectives (of `Evaluate`) of a Pareto-optimal point. -/
theorem C228_dtlz1_front (n p : Nat) (hp : 1 ≤ p) (hnp : n = (3 + p - 1).choose p) :
    ∃ F, ∀ fuel, F ≤ fuel → ∃ front, dtlz1Front n fuel = some front ∧ front.length = n ∧
      ∀ v ∈ front, ∃ x, ParetoOptimal (unitBox 7) dtlz1Eval x ∧ dtlz1Eval x = v := by
  have hn : 1 ≤ n := by rw [hnp]; exact Nat.choose_pos (by omega)
  obtain ⟨F, hF⟩ := (Ens.Moo.DasDennis.C38_uniform_weights 3 n (by norm_num) hn (0 : ℝ)).2 p hp hnp
  refine ⟨F, fun fuel hf => ?_⟩
  obtain ⟨cols, hg, hlen, -, hmem⟩ := hF fuel hf
  refine ⟨_, by rw [dtlz1Front, hg, Option.map_some], ?_⟩
  refine ⟨by simpa using hlen, fun v hv => ?_⟩
  obtain ⟨w, hw, rfl⟩ := List.mem_map.1 hv
  obtain ⟨t, ht3, hts, rfl⟩ := (hmem w).1 hw
  obtain ⟨a, b, c, rfl⟩ : ∃ a b c, t = [a, b, c] := by
    match t, ht3 with
    | [a, b, c], _ => exact ⟨a, b, c, rfl⟩
  simp only [List.sum_cons, List.sum_nil] at hts
  have hp0 : (0 : ℝ) < p := by exact_mod_cast hp
  have habc : (a : ℝ) + b + c = p := by exact_mod_cast (by omega : a + b + c = p)
  have ha0 : (0 : ℝ) ≤ a := Nat.cast_nonneg a
  have hb0 : (0 : ℝ) ≤ b := Nat.cast_nonneg b
  have hc0 : (0 : ℝ) ≤ c := Nat.cast_nonneg c
  -- a point with these objectives
  let x : Coords := fun i => if i = 0 then 1 - (a : ℝ) / p else if i = 1 then (c : ℝ) / (b + c) else 0.5
  have hx0 : x 0 = 1 - (a : ℝ) / p := rfl
  have hx1 : x 1 = (c : ℝ) / (b + c) := rfl
  have hbox : x ∈ unitBox 7 := by
    intro i _
    simp only [x]
    split
    · constructor
      · rw [sub_nonneg, div_le_one hp0]; linarith
      · have : 0 ≤ (a : ℝ) / p := by positivity
        linarith
    · split
      · constructor
        · positivity
        · exact div_le_one_of_le₀ (by linarith) (by linarith)
      · norm_num
  have htail : ∀ i, 2 ≤ i → i < 7 → x i = 0.5 := fun i hi _ => by
    simp only [x]
    rw [if_neg (by omega), if_neg (by omega)]
  refine ⟨x, (C228_dtlz1 x hbox).1.2 htail, ?_⟩
  rw [dtlz1_rows, half_iff.2 ((gRast_zero_iff 7 (by norm_num) x).2 htail), hx0, hx1]
  have h1a : 1 - (a : ℝ) / p = (b + c) / p := by rw [eq_div_iff hp0.ne', sub_mul, div_mul_cancel₀ _ hp0.ne']; linarith
  rw [h1a]
  simp only [List.map_cons, List.map_nil, add_zero, List.cons.injEq, and_true]
  have hA : 1 - ((b : ℝ) + c) / p = a / p := by rw [← h1a]; ring
  refine ⟨by rw [hA], ?_, ?_⟩
  · rcases (add_nonneg hb0 hc0).eq_or_lt with hz | hz
    · have : (b : ℝ) = 0 := by linarith
      rw [← hz, this]; simp
    · congr 1
      field_simp
      ring
  · rcases (add_nonneg hb0 hc0).eq_or_lt with hz | hz
    · have : (c : ℝ) = 0 := by linarith
      rw [← hz, this]; simp
    · congr 1
      field_simp

example : 136 = (3 + 15 - 1).choose 15 := by decide

/-- **C228** (refuted) DTLZ1, the objectives of the tuple: the documented points, with all distance variables one half, are not all
Pareto optimal. -/
theorem C228_dtlz1_tuple_refuted :
    ¬ ∀ x ∈ unitBox 7, (∀ i, 2 ≤ i → i < 7 → x i = 0.5) → ParetoOptimal (unitBox 7) (values dtlz1Objs) x := by
  intro h
  let x : Coords := fun i => if i < 2 then 1 else 0.5
  let y : Coords := fun i => if i < 2 then 1 else 0
  have hx : x ∈ unitBox 7 := fun i _ => by simp only [x]; split <;> norm_num
  have hy : y ∈ unitBox 7 := fun i _ => by simp only [y]; split <;> norm_num
  have hxt : ∀ i, 2 ≤ i → i < 7 → x i = 0.5 := fun i hi _ => if_neg (by omega)
  refine (h x hx hxt).2 y hy ?_
  have hgx := (gRast_zero_iff 7 (by norm_num) x).2 hxt
  have e : ∀ z : Coords, values dtlz1Objs z = [0.5 * (1 - z 0) * (1 + gRast 7 z), 0.5 * z 0 * (1 - z 1) * (1 + gRast 7 z),
      0.5 * z 0 * z 1 * z 2 * (1 + gRast 7 z)] := fun z => by
    simp [values, dtlz1Objs, dtlz1Obj, threeObjs, prodTo, List.range_succ]
  rw [e, e, hgx]
  have y0 : y 0 = 1 := rfl
  have y1 : y 1 = 1 := rfl
  have y2 : y 2 = 0 := rfl
  have x0 : x 0 = 1 := rfl
  have x1 : x 1 = 1 := rfl
  have x2 : x 2 = 0.5 := rfl
  rw [y0, y1, y2, x0, x1, x2]
  refine ⟨.cons (by norm_num) (.cons (by norm_num) (.cons (by norm_num) .nil)), fun he => ?_⟩
  simp only [List.cons.injEq] at he
  have := he.2.2.1
  norm_num at this

/-! ### DTLZ2–4 -/

private theorem sphere_rows (theta : Nat → ℝ) (G : ℝ) : sphereEval theta G =
    [0.5 * (1 + G) * sin (theta 0 * π * 0.5), 0.5 * (1 + G) * (cos (theta 0 * π * 0.5) * sin (theta 1 * π * 0.5)),
      0.5 * (1 + G) * (cos (theta 0 * π * 0.5) * cos (theta 1 * π * 0.5))] := by
  simp [sphereEval, spread, mul_assoc]

theorem sphere_norm (a b : ℝ) : sin a ^ 2 + (cos a * sin b) ^ 2 + (cos a * cos b) ^ 2 = 1 := by
  have h1 := sin_sq_add_cos_sq a
  have h2 := sin_sq_add_cos_sq b
  calc _ = sin a ^ 2 + cos a ^ 2 * (sin b ^ 2 + cos b ^ 2) := by ring
    _ = 1 := by rw [h2, mul_one, h1]

theorem trig_nonneg {t : ℝ} (h : 0 ≤ t ∧ t ≤ 1) : 0 ≤ sin (t * π * 0.5) ∧ 0 ≤ cos (t * π * 0.5) := by
  have hp := pi_pos
  have h1 : t * π ≤ π := by nlinarith
  have h2 : 0 ≤ t * π := mul_nonneg h.1 hp.le
  exact ⟨sin_nonneg_of_nonneg_of_le_pi (by linarith) (by linarith), cos_nonneg_of_neg_pi_div_two_le_of_le (by linarith) (by linarith)⟩

/-- A problem on the sphere whose first two angles lie in [0, 1] and depend on the first two variables only. -/
private theorem sphere_optimal (theta : Coords → Nat → ℝ) (g : Coords → ℝ) (hθ : ∀ x ∈ unitBox 7, ∀ i < 2, 0 ≤ theta x i ∧ theta x i ≤ 1)
    (hθ' : ∀ x, ∀ i < 2, theta (halfTail x) i = theta x i) (hg : ∀ x, 0 ≤ g x)
    (hg0 : ∀ x, g x = 0 ↔ ∀ i, 2 ≤ i → i < 7 → x i = 0.5) (x : Coords) (hx : x ∈ unitBox 7) :
    (ParetoOptimal (unitBox 7) (fun x => sphereEval (theta x) (g x)) x ↔ ∀ i, 2 ≤ i → i < 7 → x i = 0.5) ∧
    (ParetoOptimal (unitBox 7) (fun x => sphereEval (theta x) (g x)) x →
      ((sphereEval (theta x) (g x)).map (· ^ 2)).sum = 0.5 ^ 2) := by
  have h : ParetoOptimal (unitBox 7) (fun x => sphereEval (theta x) (g x)) x ↔ ∀ i, 2 ≤ i → i < 7 → x i = 0.5 := by
    rw [← hg0, ← half_iff, radial_optimal (unitBox 7) _ (fun x => 0.5 * (1 + g x))
      (fun x => sin (theta x 0 * π * 0.5)) (fun x => cos (theta x 0 * π * 0.5) * sin (theta x 1 * π * 0.5))
      (fun x => cos (theta x 0 * π * 0.5) * cos (theta x 1 * π * 0.5)) 2 two_ne_zero (fun y _ => sphere_rows _ _)
      (fun y _ => by have := hg y; linarith) (fun y hy => ?_) (fun y _ => sphere_norm _ _)
      (fun y hy => ⟨halfTail y, halfTail_box hy, half_iff.2 ((hg0 _).2 fun i hi _ => if_neg (by omega)),
        by rw [hθ' y 0 (by norm_num)], by rw [hθ' y 0 (by norm_num), hθ' y 1 (by norm_num)],
        by rw [hθ' y 0 (by norm_num), hθ' y 1 (by norm_num)]⟩) x hx]
    have h0 := trig_nonneg (hθ y hy 0 (by norm_num))
    have h1 := trig_nonneg (hθ y hy 1 (by norm_num))
    exact ⟨h0.1, mul_nonneg h0.2 h1.1, mul_nonneg h0.2 h1.2⟩
  refine ⟨h, fun ho => ?_⟩
  rw [sphere_rows, half_iff.2 ((hg0 x).2 (h.1 ho))]
  simp only [List.map_cons, List.map_nil, List.sum_cons, List.sum_nil, add_zero]
  have := sphere_norm (theta x 0 * π * 0.5) (theta x 1 * π * 0.5)
  nlinarith

/-- **C228** DTLZ2, the objectives of `Evaluate`: in the unit box the Pareto-optimal points are those whose distance variables are one
half; their objectives lie on the sphere of radius one half. -/
theorem C228_dtlz2 (x : Coords) (hx : x ∈ unitBox 7) :
    (ParetoOptimal (unitBox 7) dtlz2Eval x ↔ ∀ i, 2 ≤ i → i < 7 → x i = 0.5) ∧
    (ParetoOptimal (unitBox 7) dtlz2Eval x → ((dtlz2Eval x).map (· ^ 2)).sum = 0.5 ^ 2) :=
  sphere_optimal (fun x => x) (gQuad 7) (fun y hy i hi => hy i (by omega)) (fun y i hi => if_pos hi) (gQuad_nonneg 7)
    (gQuad_zero_iff 7) x hx

/-- **C228** DTLZ3. -/
theorem C228_dtlz3 (x : Coords) (hx : x ∈ unitBox 7) :
    (ParetoOptimal (unitBox 7) dtlz3Eval x ↔ ∀ i, 2 ≤ i → i < 7 → x i = 0.5) ∧
    (ParetoOptimal (unitBox 7) dtlz3Eval x → ((dtlz3Eval x).map (· ^ 2)).sum = 0.5 ^ 2) :=
  sphere_optimal (fun x => x) (gRast 7) (fun y hy i hi => hy i (by omega)) (fun y i hi => if_pos hi) (gRast_nonneg 7 (by norm_num))
    (gRast_zero_iff 7 (by norm_num)) x hx

/-- **C228** DTLZ4, for every `alpha`. -/
theorem C228_dtlz4 (alpha : Nat) (x : Coords) (hx : x ∈ unitBox 7) :
    (ParetoOptimal (unitBox 7) (dtlz4Eval alpha) x ↔ ∀ i, 2 ≤ i → i < 7 → x i = 0.5) ∧
    (ParetoOptimal (unitBox 7) (dtlz4Eval alpha) x → ((dtlz4Eval alpha x).map (· ^ 2)).sum = 0.5 ^ 2) :=
  sphere_optimal (fun x i => x i ^ alpha) (gQuad 7)
    (fun y hy i hi => ⟨pow_nonneg (hy i (by omega)).1 _, pow_le_one₀ (hy i (by omega)).1 (hy i (by omega)).2⟩)
    (fun y i hi => by simp only [halfTail, if_pos hi]) (gQuad_nonneg 7) (gQuad_zero_iff 7) x hx

/-- **C228** (refuted) DTLZ2, the objectives of the tuple: the documented points are not all Pareto optimal. -/
theorem C228_dtlz2_tuple_refuted :
    ¬ ∀ x ∈ unitBox 7, (∀ i, 2 ≤ i → i < 7 → x i = 0.5) → ParetoOptimal (unitBox 7) (values dtlz2Objs) x := by
  intro h
  let x : Coords := fun i => if i < 2 then 0 else 0.5
  let y : Coords := fun i => if i < 2 then 0 else 1
  have hx : x ∈ unitBox 7 := fun i _ => by simp only [x]; split <;> norm_num
  have hy : y ∈ unitBox 7 := fun i _ => by simp only [y]; split <;> norm_num
  have hxt : ∀ i, 2 ≤ i → i < 7 → x i = 0.5 := fun i hi _ => if_neg (by omega)
  refine (h x hx hxt).2 y hy ?_
  have hgx := (gQuad_zero_iff 7 x).2 hxt
  have e : ∀ z : Coords, z 0 = 0 → z 1 = 0 → values dtlz2Objs z = [0, 0, cos (z 2 * π * 0.5) * (1 + gQuad 7 z)] := fun z h0 h1 => by
    simp [values, dtlz2Objs, sphereObj, threeObjs, prodTo, List.range_succ, h0, h1]
  rw [e x rfl rfl, e y rfl rfl, hgx]
  have y2 : y 2 = 1 := rfl
  have x2 : x 2 = 0.5 := rfl
  have hc : cos (y 2 * π * 0.5) = 0 := by rw [y2, ← cos_pi_div_two]; congr 1; ring
  have hc2 : 0 < cos (x 2 * π * 0.5) := by
    rw [x2]
    exact cos_pos_of_mem_Ioo ⟨by linarith [pi_pos], by linarith [pi_pos]⟩
  rw [hc]
  refine ⟨.cons le_rfl (.cons le_rfl (.cons (by linarith) .nil)), fun he => ?_⟩
  simp only [List.cons.injEq] at he
  linarith [he.2.2.1]

/-- **C228** (refuted) DTLZ2, DTLZ3, DTLZ4: the reference front is never returned; the call throws for every number of points. -/
theorem C228_sphere_front_refuted (n : Nat) : ∃ F, ∀ fuel, F ≤ fuel → dtlz2Front n fuel = none := by
  rcases Nat.eq_zero_or_pos n with rfl | hn
  · refine ⟨1, fun fuel hf => ?_⟩
    obtain ⟨k, rfl⟩ : ∃ k, fuel = k + 1 := ⟨fuel - 1, by omega⟩
    have : Ens.Moo.DasDennis.findNumPartitions 3 0 (k + 1) = some 0 := by
      simp [Ens.Moo.DasDennis.findNumPartitions, Ens.Moo.DasDennis.partitionsLoop, Ens.Moo.DasDennis.findNumUniformPoints,
        Ens.Moo.DasDennis.binomialCoefficient]
    simp [dtlz2Front, Ens.Moo.DasDennis.generate, this, Ens.Moo.DasDennis.findNumUniformPoints,
        Ens.Moo.DasDennis.binomialCoefficient]
  · obtain ⟨hno, hyes⟩ := Ens.Moo.DasDennis.C38_uniform_weights 3 n (by norm_num) hn (0 : ℝ)
    by_cases hex : ∃ p, 1 ≤ p ∧ n = (3 + p - 1).choose p
    · obtain ⟨p, hp, hnp⟩ := hex
      obtain ⟨F, hF⟩ := hyes p hp hnp
      refine ⟨F, fun fuel hf => ?_⟩
      obtain ⟨cols, hg, hlen, -, -⟩ := hF fuel hf
      have hn2 : 2 ≤ n := by
        have := Ens.Moo.DasDennis.points_ge 3 (by norm_num) p
        omega
      rw [dtlz2Front, hg]
      match cols, hlen with
      | [], h => simp
      | [c], h => simp at h; omega
      | _ :: _ :: _, _ => rfl
    · push Not at hex
      obtain ⟨F, hF⟩ := hno hex
      exact ⟨F, fun fuel hf => by rw [dtlz2Front, hF fuel hf]; rfl⟩

/-! ### C229 -/

/-- **C229** (refuted) MAF2: the distance variables (rows 2 to 11) do not matter; points that agree on the first two variables have the
same objectives, for `Evaluate` and for the tuple. -/
theorem C229_maf2_refuted (x y : Coords) (h0 : x 0 = y 0) (h1 : x 1 = y 1) :
    maf2Eval x = maf2Eval y ∧ values (threeObjs maf2Obj) x = values (threeObjs maf2Obj) y := by
  have key : maf2Eval x = maf2Eval y := by
    have hG : ∀ z : Coords, maf2G z 1 = 0 ∧ maf2G z 2 = 0 := fun z => by
      constructor <;> simp [maf2G]
    have hG0 : maf2G x 0 = maf2G y 0 := by simp only [maf2G, h0]
    simp [maf2Eval, spread, maf2Theta, h0, h1, hG, hG0]
  exact ⟨key, by rw [← C224_maf2, ← C224_maf2, key]⟩

/-- **C229** (refuted) MAF2: the Pareto-optimal points are those whose distance variables are one half. -/
theorem C229_maf2_optimal_refuted :
    ¬ ∀ x ∈ unitBox 12, ParetoOptimal (unitBox 12) maf2Eval x → ∀ i, 2 ≤ i → i < 12 → x i = 0.5 := by
  intro h
  have hz : (fun _ => 0 : Coords) ∈ unitBox 12 := fun i _ => by norm_num
  have hG : ∀ z : Coords, maf2G z 1 = 0 ∧ maf2G z 2 = 0 := fun z => by
    constructor <;> simp [maf2G]
  have e : ∀ z : Coords, maf2Eval z = [sin (maf2Theta z 0), cos (maf2Theta z 0) * sin (maf2Theta z 1),
      cos (maf2Theta z 0) * cos (maf2Theta z 1) * (1 + maf2G z 0)] := fun z => by
    simp [maf2Eval, spread, hG]
  have hp := pi_pos
  have hmono : ∀ y ∈ unitBox 12, ∀ i < 12, sin (maf2Theta y i) ≤ sin (maf2Theta (fun _ => 0) i) → y i = 0 := by
    intro y hy i hi hle
    have hb := hy i hi
    by_contra hne
    have hpos : 0 < y i := lt_of_le_of_ne hb.1 (Ne.symm hne)
    refine absurd hle (not_le.2 (sin_lt_sin_of_lt_of_le_pi_div_two ?_ ?_ ?_)) <;> unfold maf2Theta <;> nlinarith
  have ho : ParetoOptimal (unitBox 12) maf2Eval fun _ => 0 := by
    refine ⟨hz, fun y hy hd => ?_⟩
    obtain ⟨hle, hne⟩ := hd
    rw [e, e] at hle
    cases hle with
    | cons h0 hle =>
      have y0 := hmono y hy 0 (by norm_num) h0
      have t0 : maf2Theta y 0 = maf2Theta (fun _ => 0) 0 := by simp [maf2Theta, y0]
      cases hle with
      | cons h1 _ =>
        rw [t0] at h1
        have hc : 0 < cos (maf2Theta (fun _ => 0) 0) := by
          apply cos_pos_of_mem_Ioo
          constructor <;> simp only [maf2Theta] <;> linarith
        have y1 := hmono y hy 1 (by norm_num) (le_of_mul_le_mul_left h1 hc)
        exact hne (C229_maf2_refuted y (fun _ => 0) y0 y1).1
  have := h _ hz ho 2 le_rfl (by norm_num)
  norm_num at this

end Ens.Problems.Multi
