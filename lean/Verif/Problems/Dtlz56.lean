import Verif.Problems.DtlzSets

/-
C303 (Pareto sets of DTLZ5 and DTLZ6) and C229 (the Pareto set of MAF2 as it is).
-/

namespace Ens.Problems.Multi

open Real

/-! ### The angles -/

/-- The smallest angle when `g` is `G`. -/
private noncomputable def low (G : ℝ) : ℝ := π / 4 / (1 + G)

private theorem ang_bounds {G t : ℝ} (hG : 0 ≤ G) (h0 : 0 ≤ t) (h1 : t ≤ 1) :
    low G ≤ 0.5 * (1 + 2 * t * G) / (1 + G) * π * 0.5 ∧ 0.5 * (1 + 2 * t * G) / (1 + G) * π * 0.5 ≤ π / 2 - low G := by
  have hp := pi_pos
  have hg : 0 < 1 + G := by linarith
  have e : 0.5 * (1 + 2 * t * G) / (1 + G) * π * 0.5 = low G + t * G * (π / 2) / (1 + G) := by
    unfold low; field_simp; ring
  have e2 : π / 2 - low G = low G + G * (π / 2) / (1 + G) := by
    unfold low; field_simp; ring
  rw [e2, e]
  constructor
  · have : 0 ≤ t * G * (π / 2) / (1 + G) := by positivity
    linarith
  · have : t * G * (π / 2) / (1 + G) ≤ G * (π / 2) / (1 + G) := by
      apply div_le_div_of_nonneg_right _ hg.le
      have : t * G ≤ 1 * G := mul_le_mul_of_nonneg_right h1 hG
      nlinarith
    linarith

private theorem low_pos {G : ℝ} (hG : 0 ≤ G) : 0 < low G ∧ low G ≤ π / 4 := by
  have hp := pi_pos
  have hg : 0 < 1 + G := by linarith
  refine ⟨by unfold low; positivity, ?_⟩
  unfold low
  rw [div_le_iff₀ hg]
  nlinarith

/-- The sine of the smallest angle times the distance is larger than at distance one. -/
private theorem sin_low {G : ℝ} (hG : 0 < G) : sin (π / 4) < (1 + G) * sin (low G) := by
  have hp := pi_pos
  have hg : 0 < 1 + G := by linarith
  have h := strictConcaveOn_sin_Icc.2 (show π / 4 ∈ Set.Icc 0 π from ⟨by linarith, by linarith⟩)
    (show (0 : ℝ) ∈ Set.Icc 0 π from ⟨le_refl _, hp.le⟩) (by positivity) (show 0 < 1 / (1 + G) by positivity)
    (show 0 < G / (1 + G) by positivity) (by field_simp)
  simp only [smul_eq_mul, sin_zero, mul_zero, add_zero] at h
  have e : 1 / (1 + G) * (π / 4) = low G := by unfold low; field_simp
  rw [e] at h
  have := mul_lt_mul_of_pos_left h hg
  rwa [← mul_assoc, mul_one_div_cancel hg.ne', one_mul] at this

/-- The square of the sine of the smallest angle times the distance gets smaller with the distance. -/
private theorem sinsq_low {G H : ℝ} (hG : 0 ≤ G) (h : G < H) : (1 + H) * sin (low H) ^ 2 < (1 + G) * sin (low G) ^ 2 := by
  have hp := pi_pos
  have hg : 0 < 1 + G := by linarith
  have hh : 0 < 1 + H := by linarith
  obtain ⟨l1, l2⟩ := low_pos hG
  have key := strictConcaveOn_cos_Icc.2 (show 2 * low G ∈ Set.Icc (-(π / 2)) (π / 2) from ⟨by linarith, by linarith⟩)
    (show (0 : ℝ) ∈ Set.Icc (-(π / 2)) (π / 2) from ⟨by linarith, by linarith⟩) (by positivity)
    (show 0 < (1 + G) / (1 + H) by positivity) (show 0 < (H - G) / (1 + H) from div_pos (by linarith) hh) (by field_simp; ring)
  simp only [smul_eq_mul, cos_zero, mul_zero, add_zero, mul_one] at key
  have e : (1 + G) / (1 + H) * (2 * low G) = 2 * low H := by unfold low; field_simp
  rw [e] at key
  have e2 : ∀ a, cos (2 * a) = 1 - 2 * sin a ^ 2 := fun a => by rw [cos_two_mul, cos_sq']; ring
  rw [e2, e2] at key
  have := mul_lt_mul_of_pos_left key hh
  have e3 : (1 + H) * ((1 + G) / (1 + H) * (1 - 2 * sin (low G) ^ 2) + (H - G) / (1 + H)) =
      (1 + G) * (1 - 2 * sin (low G) ^ 2) + (H - G) := by field_simp
  rw [e3] at this
  linarith

/-! ### Optimal points -/

variable {S : Set Coords} {F : Coords → List ℝ} {g : Coords → ℝ} {h : Coords → ℝ} {c : ℝ}

/-- The angle of row `i`. -/
private noncomputable def angle (g : Coords → ℝ) (x : Coords) (i : Nat) : ℝ := theta5 (g x) x i * π * 0.5

private theorem angle_zero {x : Coords} (hx : g x = 0) (i : Nat) : angle g x i = π / 4 := by
  simp [angle, theta5, hx]; ring

private theorem angle_bounds {x : Coords} (hg : 0 ≤ g x) {i : Nat} (hx : 0 ≤ x i ∧ x i ≤ 1) :
    low (g x) ≤ angle g x i ∧ angle g x i ≤ π / 2 - low (g x) := ang_bounds hg hx.1 hx.2

private theorem sin_angle {x : Coords} (hg : 0 ≤ g x) {i : Nat} (hx : 0 ≤ x i ∧ x i ≤ 1) : sin (low (g x)) ≤ sin (angle g x i) := by
  obtain ⟨h1, h2⟩ := angle_bounds hg hx
  obtain ⟨l1, l2⟩ := low_pos hg
  exact sin_le_sin_of_le_of_le_pi_div_two (by linarith) (by linarith) h1

private theorem cos_angle {x : Coords} (hg : 0 ≤ g x) {i : Nat} (hx : 0 ≤ x i ∧ x i ≤ 1) : sin (low (g x)) ≤ cos (angle g x i) := by
  obtain ⟨h1, h2⟩ := angle_bounds hg hx
  obtain ⟨l1, l2⟩ := low_pos hg
  rw [← cos_pi_div_two_sub]
  exact cos_le_cos_of_nonneg_of_le_pi (by linarith) (by linarith [pi_pos]) h2

/-- Points where `g` is zero minimise the first objective, all with the same objectives. -/
private theorem zero_optimal (hc : 0 < c) (hg : ∀ x ∈ S, 0 ≤ g x) (hS : ∀ x ∈ S, ∀ i < 2, 0 ≤ x i ∧ x i ≤ 1)
    (hF : ∀ x ∈ S, F x = [c * (1 + g x) * sin (angle g x 0), c * (1 + g x) * (cos (angle g x 0) * sin (angle g x 1)), h x])
    (hh : ∀ x ∈ S, ∀ y ∈ S, g x = 0 → g y = 0 → h x = h y) {x : Coords} (hx : x ∈ S) (hx0 : g x = 0) : ParetoOptimal S F x := by
  refine ⟨hx, fun y hy hd => ?_⟩
  rw [hF x hx, hF y hy] at hd
  obtain ⟨hle, hne⟩ := hd
  simp only [List.forall₂_cons, List.forall₂_nil_left_iff, and_true] at hle
  have h1 := hle.1
  rw [hx0, angle_zero hx0] at h1
  have hy0 : g y = 0 := by
    by_contra hn
    have hpos : 0 < g y := lt_of_le_of_ne (hg y hy) (Ne.symm hn)
    have h2 := sin_low hpos
    have h3 := sin_angle (hg y hy) (hS y hy 0 (by norm_num))
    have h4 : (1 + g y) * sin (low (g y)) ≤ (1 + g y) * sin (angle g y 0) := mul_le_mul_of_nonneg_left h3 (by linarith)
    have h5 : c * sin (π / 4) < c * ((1 + g y) * sin (angle g y 0)) := mul_lt_mul_of_pos_left (by linarith) hc
    nlinarith
  refine hne ?_
  rw [hx0, hy0, angle_zero hx0, angle_zero hx0, angle_zero hy0, angle_zero hy0, hh x hx y hy hx0 hy0]

/-- Where `g` is largest, the first variable is one and the second zero, the second objective is smallest. -/
private theorem far_optimal (hc : 0 < c) (hg : ∀ x ∈ S, 0 ≤ g x) (hS : ∀ x ∈ S, ∀ i < 2, 0 ≤ x i ∧ x i ≤ 1)
    (hF : ∀ x ∈ S, F x = [c * (1 + g x) * sin (angle g x 0), c * (1 + g x) * (cos (angle g x 0) * sin (angle g x 1)), h x])
    {x : Coords} (hx : x ∈ S) (hmax : ∀ y ∈ S, g y ≤ g x) (hx0 : x 0 = 1) (hx1 : x 1 = 0)
    (hh : ∀ y ∈ S, g y = g x → angle g y 0 = angle g x 0 → angle g y 1 = angle g x 1 → h x ≤ h y) : ParetoOptimal S F x := by
  have hgx := hg x hx
  have hp := pi_pos
  obtain ⟨l1, l2⟩ := low_pos hgx
  have a1 : angle g x 1 = low (g x) := by
    have : 0 < 1 + g x := by linarith
    simp only [angle, theta5, low, hx1]; field_simp; ring
  have a0 : angle g x 0 = π / 2 - low (g x) := by
    have : 0 < 1 + g x := by linarith
    simp only [angle, theta5, low, hx0]; field_simp; ring
  refine ⟨hx, fun y hy hd => ?_⟩
  rw [hF x hx, hF y hy] at hd
  obtain ⟨hle, hne⟩ := hd
  simp only [List.forall₂_cons, List.forall₂_nil_left_iff, and_true] at hle
  obtain ⟨-, h2, h3⟩ := hle
  rw [a0, a1, cos_pi_div_two_sub] at h2
  have hgy := hg y hy
  have s1 := sin_angle hgy (hS y hy 1 (by norm_num))
  have s0 := cos_angle hgy (hS y hy 0 (by norm_num))
  obtain ⟨m1, m2⟩ := low_pos hgy
  have spos : 0 < sin (low (g y)) := sin_pos_of_pos_of_lt_pi m1 (by linarith)
  have hprod : sin (low (g y)) * sin (low (g y)) ≤ cos (angle g y 0) * sin (angle g y 1) :=
    mul_le_mul s0 s1 spos.le (spos.le.trans s0)
  have hgpos : 0 < 1 + g y := by linarith
  have h2' : (1 + g y) * (cos (angle g y 0) * sin (angle g y 1)) ≤ (1 + g x) * (sin (low (g x)) * sin (low (g x))) := by
    have h2 : c * ((1 + g y) * (cos (angle g y 0) * sin (angle g y 1))) ≤ c * ((1 + g x) * (sin (low (g x)) * sin (low (g x)))) := by
      linarith
    exact le_of_mul_le_mul_left h2 hc
  have hgeq : g y = g x := by
    by_contra hn
    have := sinsq_low hgy (lt_of_le_of_ne (hmax y hy) hn)
    have h4 : (1 + g y) * (sin (low (g y)) * sin (low (g y))) ≤ (1 + g y) * (cos (angle g y 0) * sin (angle g y 1)) :=
      mul_le_mul_of_nonneg_left hprod hgpos.le
    nlinarith
  rw [hgeq] at h2' s0 s1 spos hprod
  have h5 : cos (angle g y 0) * sin (angle g y 1) ≤ sin (low (g x)) * sin (low (g x)) :=
    le_of_mul_le_mul_left h2' (by linarith)
  have c0 : cos (angle g y 0) = sin (low (g x)) := by
    refine le_antisymm ?_ s0
    by_contra hn
    push Not at hn
    have : sin (low (g x)) * sin (low (g x)) < cos (angle g y 0) * sin (angle g y 1) := mul_lt_mul hn s1 spos (spos.le.trans s0)
    linarith
  have c1 : sin (angle g y 1) = sin (low (g x)) := by
    rw [c0] at h5
    exact le_antisymm (le_of_mul_le_mul_left h5 spos) s1
  obtain ⟨b1, b2⟩ := angle_bounds hgy (hS y hy 0 (by norm_num))
  obtain ⟨b3, b4⟩ := angle_bounds hgy (hS y hy 1 (by norm_num))
  have e0 : angle g y 0 = angle g x 0 := by
    rw [a0]
    refine injOn_cos ⟨by linarith, by linarith⟩ ⟨by linarith, by linarith⟩ ?_
    rw [c0, cos_pi_div_two_sub]
  have e1 : angle g y 1 = angle g x 1 := by
    rw [a1]
    exact injOn_sin ⟨by linarith, by linarith⟩ ⟨by linarith, by linarith⟩ c1
  refine hne ?_
  rw [hgeq, e0, e1, le_antisymm h3 (hh y hy hgeq e0 e1)]

/-! ### DTLZ5 and DTLZ6 -/

private theorem eval_rows (x : Coords) : sphereEval (theta5 (g x) x) (g x) =
    [0.5 * (1 + g x) * sin (angle g x 0), 0.5 * (1 + g x) * (cos (angle g x 0) * sin (angle g x 1)),
      0.5 * (1 + g x) * (cos (angle g x 0) * cos (angle g x 1))] := by
  simp [sphereEval, spread, angle, mul_assoc]

private theorem tuple_rows (x : Coords) : values (threeObjs fun stop x => sphereObj (theta5 (g x) x) (g x) stop) x =
    [1 * (1 + g x) * sin (angle g x 0), 1 * (1 + g x) * (cos (angle g x 0) * sin (angle g x 1)),
      (1 + g x) * (cos (angle g x 0) * cos (angle g x 1) * cos (angle g x 2))] := by
  simp only [values, threeObjs, List.map_cons, List.map_nil, sphereObj, prodTo, angle]
  simp [List.range_succ]
  refine ⟨by ring, by ring, by ring⟩

/-- The point with all variables one but the second, which is zero. -/
def farPoint : Coords := fun i => if i = 1 then 0 else 1

private theorem far_mem : farPoint ∈ unitBox 7 := fun i _ => by unfold farPoint; split_ifs <;> norm_num

private theorem box_two {x : Coords} (hx : x ∈ unitBox 7) : ∀ i < 2, 0 ≤ x i ∧ x i ≤ 1 := fun i hi => hx i (by omega)

private theorem both (hg : ∀ x ∈ unitBox 7, 0 ≤ g x) (hmax : ∀ y ∈ unitBox 7, g y ≤ g farPoint) :
    (∀ x ∈ unitBox 7, g x = 0 → ParetoOptimal (unitBox 7) (fun x => sphereEval (theta5 (g x) x) (g x)) x ∧
      ParetoOptimal (unitBox 7) (values (threeObjs fun stop x => sphereObj (theta5 (g x) x) (g x) stop)) x ∧
      sphereEval (theta5 (g x) x) (g x) = [0.5 * (√2 / 2), 0.25, 0.25]) ∧
    ParetoOptimal (unitBox 7) (fun x => sphereEval (theta5 (g x) x) (g x)) farPoint ∧
    ParetoOptimal (unitBox 7) (values (threeObjs fun stop x => sphereObj (theta5 (g x) x) (g x) stop)) farPoint := by
  refine ⟨fun x hx h0 => ⟨?_, ?_, ?_⟩, ?_, ?_⟩
  · exact zero_optimal (by norm_num) hg (fun x hx => box_two hx) (fun x _ => eval_rows x)
      (fun x _ y _ h1 h2 => by rw [h1, h2, angle_zero h1, angle_zero h1, angle_zero h2, angle_zero h2]) hx h0
  · exact zero_optimal one_pos hg (fun x hx => box_two hx) (fun x _ => tuple_rows x)
      (fun x _ y _ h1 h2 => by
        rw [h1, h2, angle_zero h1, angle_zero h1, angle_zero h1, angle_zero h2, angle_zero h2, angle_zero h2]) hx h0
  · have h2 : √2 * √2 = 2 := mul_self_sqrt (by norm_num)
    rw [eval_rows, h0, angle_zero h0, angle_zero h0, sin_pi_div_four, cos_pi_div_four]
    norm_num
    linarith
  · exact far_optimal (by norm_num) hg (fun x hx => box_two hx) (fun x _ => eval_rows x) far_mem hmax rfl rfl
      (fun y _ h1 h2 h3 => by rw [h1, h2, h3])
  · refine far_optimal one_pos hg (fun x hx => box_two hx) (fun x _ => tuple_rows x) far_mem hmax rfl rfl (fun y hy h1 h2 h3 => ?_)
    have hf : angle g farPoint 2 = π / 2 - low (g farPoint) := by
      have : 0 < 1 + g farPoint := by have := hg _ far_mem; linarith
      simp only [angle, theta5, low, show farPoint 2 = 1 from rfl]; field_simp; ring
    have h4 := cos_angle (hg y hy) (hy 2 (by norm_num))
    have h5 := cos_angle (hg _ far_mem) (far_mem 0 (by norm_num))
    have h6 := cos_angle (hg _ far_mem) (far_mem 1 (by norm_num))
    obtain ⟨l1, l2⟩ := low_pos (hg _ far_mem)
    have h7 := sin_pos_of_pos_of_lt_pi l1 (by linarith [pi_pos])
    rw [h1] at h4
    rw [h1, h2, h3, hf, cos_pi_div_two_sub]
    refine mul_le_mul_of_nonneg_left (mul_le_mul_of_nonneg_left h4 ?_) ?_
    · exact mul_nonneg (h7.le.trans h5) (h7.le.trans h6)
    · have := hg _ far_mem; linarith

private theorem gQuad_max : ∀ y ∈ unitBox 7, gQuad 7 y ≤ gQuad 7 farPoint := by
  intro y hy
  unfold gQuad distSum
  refine Finset.sum_le_sum fun i hi => ?_
  rw [Finset.mem_Ico] at hi
  obtain ⟨h0, h1⟩ := hy i hi.2
  have : farPoint i = 1 := if_neg (by omega)
  rw [this]
  nlinarith

private theorem gRoot_max : ∀ y ∈ unitBox 7, gRoot y ≤ gRoot farPoint := by
  intro y hy
  unfold gRoot distSum
  refine Finset.sum_le_sum fun i hi => ?_
  rw [Finset.mem_Ico] at hi
  obtain ⟨h0, h1⟩ := hy i hi.2
  have : farPoint i = 1 := if_neg (by omega)
  dsimp only
  rw [this]
  exact rpow_le_rpow h0 h1 (by norm_num)

private theorem gRoot_nonneg {x : Coords} (hx : x ∈ unitBox 7) : 0 ≤ gRoot x := by
  unfold gRoot distSum
  refine Finset.sum_nonneg fun i hi => ?_
  rw [Finset.mem_Ico] at hi
  exact rpow_nonneg (hx i hi.2).1 _

/-- **C303** (partial) DTLZ5: in the unit box the points whose distance variables are one half are Pareto optimal, for `Evaluate` and for
the tuple; but all of them have the same objectives. Missing: that there are no others (false, see below). -/
theorem C303_dtlz5_partial (x : Coords) (hx : x ∈ unitBox 7) (h : ∀ i, 2 ≤ i → i < 7 → x i = 0.5) :
    ParetoOptimal (unitBox 7) dtlz5Eval x ∧ ParetoOptimal (unitBox 7) (values dtlz5Objs) x ∧ dtlz5Eval x = [0.5 * (√2 / 2), 0.25, 0.25] :=
  (both (g := gQuad 7) (fun x _ => gQuad_nonneg 7 x) gQuad_max).1 x hx ((gQuad_zero_iff 7 x).2 h)

/-- **C303** (partial) DTLZ6: likewise the points whose distance variables are zero. -/
theorem C303_dtlz6_partial (x : Coords) (hx : x ∈ unitBox 7) (h : ∀ i, 2 ≤ i → i < 7 → x i = 0) :
    ParetoOptimal (unitBox 7) dtlz6Eval x ∧ ParetoOptimal (unitBox 7) (values dtlz6Objs) x ∧ dtlz6Eval x = [0.5 * (√2 / 2), 0.25, 0.25] := by
  refine (both (g := gRoot) (fun x hx => gRoot_nonneg hx) gRoot_max).1 x hx ?_
  unfold gRoot distSum
  refine Finset.sum_eq_zero fun i hi => ?_
  rw [Finset.mem_Ico] at hi
  dsimp only
  rw [h i hi.1 hi.2]
  exact zero_rpow (by norm_num)

/-- **C303** (refuted) "Only these": in DTLZ5 and DTLZ6 a point whose distance variables are all one is Pareto optimal too, because the
first variable is transformed like the others and no longer selects a point of a curve. -/
theorem C303_others_refuted :
    (ParetoOptimal (unitBox 7) dtlz5Eval farPoint ∧ ParetoOptimal (unitBox 7) (values dtlz5Objs) farPoint) ∧
    (ParetoOptimal (unitBox 7) dtlz6Eval farPoint ∧ ParetoOptimal (unitBox 7) (values dtlz6Objs) farPoint) ∧
    ∀ i, 2 ≤ i → farPoint i = 1 :=
  ⟨(both (g := gQuad 7) (fun x _ => gQuad_nonneg 7 x) gQuad_max).2, (both (g := gRoot) (fun x hx => gRoot_nonneg hx) gRoot_max).2,
    fun i hi => if_neg (by omega)⟩

/-- **C303** (refuted) DTLZ6, as documented ("optimized to x_i = 0.5"): the point with the first two variables zero and all others one half
is dominated. -/
theorem C303_dtlz6_half_refuted :
    ¬ ∀ x ∈ unitBox 7, (∀ i, 2 ≤ i → i < 7 → x i = 0.5) → ParetoOptimal (unitBox 7) dtlz6Eval x := by
  intro hall
  let x : Coords := fun i => if i < 2 then 0 else 0.5
  have hx : x ∈ unitBox 7 := fun i _ => by simp only [x]; split_ifs <;> norm_num
  have hz : (fun _ => 0 : Coords) ∈ unitBox 7 := fun i _ => by norm_num
  have ho := hall x hx fun i hi _ => if_neg (by omega)
  have hG : 0 < gRoot x := by
    unfold gRoot distSum
    refine Finset.sum_pos (fun i hi => ?_) ⟨2, by simp⟩
    rw [Finset.mem_Ico] at hi
    have : x i = 0.5 := if_neg (by omega)
    dsimp only
    rw [this]
    exact rpow_pos_of_pos (by norm_num) _
  have hp := pi_pos
  obtain ⟨l1, l2⟩ := low_pos hG.le
  have a : ∀ i < 2, angle gRoot x i = low (gRoot x) := fun i hi => by
    have : 0 < 1 + gRoot x := by linarith
    have hxi : x i = 0 := if_pos hi
    simp only [angle, theta5, low, hxi]; field_simp; ring
  refine ho.2 _ hz ?_
  rw [(C303_dtlz6_partial (fun _ => 0) hz fun _ _ _ => rfl).2.2, show dtlz6Eval x = _ from eval_rows (g := gRoot) x, a 0 (by norm_num),
    a 1 (by norm_num)]
  have h1 := sin_low hG
  have h2 : cos (π / 4) ≤ cos (low (gRoot x)) := cos_le_cos_of_nonneg_of_le_pi l1.le (by linarith) l2
  have hs : √2 * √2 = 2 := mul_self_sqrt (by norm_num)
  have hs1 : 1 < √2 := by nlinarith [sqrt_nonneg 2]
  rw [sin_pi_div_four] at h1
  rw [cos_pi_div_four] at h2
  have h3 : √2 / 2 * (√2 / 2) ≤ (1 + gRoot x) * sin (low (gRoot x)) * cos (low (gRoot x)) :=
    mul_le_mul h1.le h2 (by positivity) (by linarith)
  have h4 : √2 / 2 * (√2 / 2) ≤ cos (low (gRoot x)) * cos (low (gRoot x)) := mul_le_mul h2 h2 (by positivity) (by linarith)
  have h5 : 0 ≤ gRoot x * (cos (low (gRoot x)) * cos (low (gRoot x))) := mul_nonneg hG.le (mul_self_nonneg _)
  refine ⟨.cons ?_ (.cons ?_ (.cons ?_ .nil)), fun he => ?_⟩
  · nlinarith
  · nlinarith
  · nlinarith
  · simp only [List.cons.injEq] at he
    have := he.1
    nlinarith

/-- Both kinds of points exist. -/
example : (fun _ => 0.5 : Coords) ∈ unitBox 7 ∧ (fun _ => 0 : Coords) ∈ unitBox 7 := by
  constructor <;> intro i _ <;> norm_num

/-! ### MAF2 -/

private theorem maf2_angle {z : Coords} (hz : z ∈ unitBox 12) {i : Nat} (hi : i < 12) : π / 8 ≤ maf2Theta z i ∧ maf2Theta z i ≤ 3 * π / 8 := by
  have hp := pi_pos
  obtain ⟨h0, h1⟩ := hz i hi
  unfold maf2Theta
  constructor <;> nlinarith

/-- The last objective over the cosine of the second angle gets smaller with the first variable. -/
private theorem maf2_decreasing {x y : Coords} (hx : x ∈ unitBox 12) (hy : y ∈ unitBox 12) (hd0 : y 0 < x 0) :
    cos (maf2Theta x 0) * (1 + (x 0 - 0.5) ^ 2 * 0.25) < cos (maf2Theta y 0) * (1 + (y 0 - 0.5) ^ 2 * 0.25) := by
  have hp := pi_pos
  obtain ⟨x0l, x0u⟩ := maf2_angle hx (i := 0) (by norm_num)
  obtain ⟨y0l, y0u⟩ := maf2_angle hy (i := 0) (by norm_num)
  obtain ⟨bx0, bx1⟩ := hx 0 (by norm_num)
  obtain ⟨by0, by1⟩ := hy 0 (by norm_num)
  have cy0 : 0 < cos (maf2Theta y 0) := cos_pos_of_mem_Ioo ⟨by linarith, by linarith⟩
  have hlt : maf2Theta y 0 < maf2Theta x 0 := by unfold maf2Theta; nlinarith
  have hcc : cos (maf2Theta x 0) < cos (maf2Theta y 0) := cos_lt_cos_of_nonneg_of_le_pi (by linarith) (by linarith) hlt
  by_cases hsum : x 0 + y 0 ≤ 1
  · have hgg : (x 0 - 0.5) ^ 2 * 0.25 ≤ (y 0 - 0.5) ^ 2 * 0.25 := by nlinarith
    exact mul_lt_mul hcc (by linarith) (by positivity) cy0.le
  · push Not at hsum
    have hdiff : cos (maf2Theta y 0) - cos (maf2Theta x 0) =
        2 * sin ((maf2Theta x 0 + maf2Theta y 0) / 2) * sin ((maf2Theta x 0 - maf2Theta y 0) / 2) := by
      rw [cos_sub_cos]
      have : (maf2Theta y 0 - maf2Theta x 0) / 2 = -((maf2Theta x 0 - maf2Theta y 0) / 2) := by ring
      rw [this, sin_neg, add_comm (maf2Theta y 0)]
      ring
    have hm : √2 / 2 ≤ sin ((maf2Theta x 0 + maf2Theta y 0) / 2) := by
      rw [← sin_pi_div_four]
      refine sin_le_sin_of_le_of_le_pi_div_two (by linarith) (by linarith) ?_
      unfold maf2Theta
      nlinarith
    have hdd : (x 0 - y 0) / 4 ≤ sin ((maf2Theta x 0 - maf2Theta y 0) / 2) := by
      have he : (maf2Theta x 0 - maf2Theta y 0) / 2 = π / 8 * (x 0 - y 0) := by unfold maf2Theta; ring
      have := mul_le_sin (x := (maf2Theta x 0 - maf2Theta y 0) / 2) (by linarith) (by linarith)
      rw [he] at this ⊢
      refine le_trans (le_of_eq ?_) this
      field_simp
      ring
    have h2r : (1.4 : ℝ) ≤ √2 := le_sqrt_of_sq_le (by norm_num)
    have hbig : 0.35 * (x 0 - y 0) ≤ cos (maf2Theta y 0) - cos (maf2Theta x 0) := by
      rw [hdiff]
      have : (0.7 : ℝ) * ((x 0 - y 0) / 4) ≤ sin ((maf2Theta x 0 + maf2Theta y 0) / 2) * sin ((maf2Theta x 0 - maf2Theta y 0) / 2) :=
        mul_le_mul (by linarith) hdd (by linarith) (by linarith)
      nlinarith
    have hgd : (x 0 - 0.5) ^ 2 * 0.25 - (y 0 - 0.5) ^ 2 * 0.25 ≤ 0.25 * (x 0 - y 0) := by
      have h := mul_le_mul_of_nonneg_left (show x 0 + y 0 - 1 ≤ 1 by linarith) (sub_nonneg.2 hd0.le)
      clear * - h
      linarith
    have hgd0 : 0 ≤ (x 0 - 0.5) ^ 2 * 0.25 - (y 0 - 0.5) ^ 2 * 0.25 := by
      have h := mul_nonneg (sub_nonneg.2 hd0.le) (show 0 ≤ x 0 + y 0 - 1 by linarith)
      clear * - h
      linarith
    have hc1' := cos_le_one (maf2Theta x 0)
    have hgy : 0 ≤ (y 0 - 0.5) ^ 2 * 0.25 := by positivity
    have t1 : cos (maf2Theta x 0) * ((x 0 - 0.5) ^ 2 * 0.25 - (y 0 - 0.5) ^ 2 * 0.25) ≤
        1 * ((x 0 - 0.5) ^ 2 * 0.25 - (y 0 - 0.5) ^ 2 * 0.25) := mul_le_mul_of_nonneg_right hc1' hgd0
    have t2 : 0 ≤ (cos (maf2Theta y 0) - cos (maf2Theta x 0)) * ((y 0 - 0.5) ^ 2 * 0.25) :=
      mul_nonneg (by linarith) hgy
    nlinarith

/-- **C229** (partial) What the Pareto set of MAF2 is instead: the whole unit box. -/
theorem C229_maf2_set_partial (x : Coords) (hx : x ∈ unitBox 12) :
    ParetoOptimal (unitBox 12) maf2Eval x ∧ ParetoOptimal (unitBox 12) (values (threeObjs maf2Obj)) x := by
  have hG : ∀ z : Coords, maf2G z 1 = 0 ∧ maf2G z 2 = 0 := fun z => by
    constructor <;> simp [maf2G]
  have hG0 : ∀ z : Coords, maf2G z 0 = (z 0 - 0.5) ^ 2 * 0.25 := fun z => by simp [maf2G]
  have e : ∀ z : Coords, maf2Eval z = [sin (maf2Theta z 0), cos (maf2Theta z 0) * sin (maf2Theta z 1),
      cos (maf2Theta z 0) * cos (maf2Theta z 1) * (1 + (z 0 - 0.5) ^ 2 * 0.25)] := fun z => by
    simp [maf2Eval, spread, hG, hG0]
  have hp := pi_pos
  have hth : ∀ z ∈ unitBox 12, ∀ i < 12, π / 8 ≤ maf2Theta z i ∧ maf2Theta z i ≤ 3 * π / 8 := fun z hz i hi => maf2_angle hz hi
  have key : ParetoOptimal (unitBox 12) maf2Eval x := by
    refine ⟨hx, fun y hy hd => ?_⟩
    obtain ⟨hle, hne⟩ := hd
    have hle' := hle
    rw [e, e] at hle'
    simp only [List.forall₂_cons, List.forall₂_nil_left_iff, and_true] at hle'
    obtain ⟨h1, h2, h3⟩ := hle'
    obtain ⟨x0l, x0u⟩ := hth x hx 0 (by norm_num)
    obtain ⟨x1l, x1u⟩ := hth x hx 1 (by norm_num)
    obtain ⟨y0l, y0u⟩ := hth y hy 0 (by norm_num)
    obtain ⟨y1l, y1u⟩ := hth y hy 1 (by norm_num)
    obtain ⟨bx0, bx1⟩ := hx 0 (by norm_num)
    obtain ⟨by0, by1⟩ := hy 0 (by norm_num)
    have cx0 : 0 < cos (maf2Theta x 0) := cos_pos_of_mem_Ioo ⟨by linarith, by linarith⟩
    have cy0 : 0 < cos (maf2Theta y 0) := cos_pos_of_mem_Ioo ⟨by linarith, by linarith⟩
    have cx1 : 0 < cos (maf2Theta x 1) := cos_pos_of_mem_Ioo ⟨by linarith, by linarith⟩
    have cy1 : 0 < cos (maf2Theta y 1) := cos_pos_of_mem_Ioo ⟨by linarith, by linarith⟩
    have sx1 : 0 < sin (maf2Theta x 1) := sin_pos_of_pos_of_lt_pi (by linarith) (by linarith)
    have hy0 : maf2Theta y 0 ≤ maf2Theta x 0 := by
      by_contra hn
      push Not at hn
      exact absurd h1 (not_le.2 (sin_lt_sin_of_lt_of_le_pi_div_two (by linarith) (by linarith) hn))
    rcases eq_or_lt_of_le hy0 with heq | hlt
    · have e0 : y 0 = x 0 := by
        unfold maf2Theta at heq
        have := mul_left_cancel₀ (by positivity) heq
        linarith
      rw [heq] at h2 h3
      rw [e0] at h3
      have h2 := le_of_mul_le_mul_left h2 cx0
      have hpos : 0 < 1 + (x 0 - 0.5) ^ 2 * 0.25 := by positivity
      have h3 := le_of_mul_le_mul_left (le_of_mul_le_mul_right h3 hpos) cx0
      have l1 : maf2Theta y 1 ≤ maf2Theta x 1 := by
        by_contra hn
        push Not at hn
        exact absurd h2 (not_le.2 (sin_lt_sin_of_lt_of_le_pi_div_two (by linarith) (by linarith) hn))
      have l2 : maf2Theta x 1 ≤ maf2Theta y 1 := by
        by_contra hn
        push Not at hn
        exact absurd h3 (not_le.2 (cos_lt_cos_of_nonneg_of_le_pi (by linarith) (by linarith) hn))
      refine hne ?_
      rw [e, e, heq, e0, le_antisymm l1 l2]
    · have hd0 : y 0 < x 0 := by
        unfold maf2Theta at hlt
        have := lt_of_mul_lt_mul_left hlt (by positivity)
        linarith
      have hcc : cos (maf2Theta x 0) < cos (maf2Theta y 0) := cos_lt_cos_of_nonneg_of_le_pi (by linarith) (by linarith) hlt
      have hs : sin (maf2Theta y 1) < sin (maf2Theta x 1) := by
        by_contra hn
        push Not at hn
        have : cos (maf2Theta x 0) * sin (maf2Theta x 1) < cos (maf2Theta y 0) * sin (maf2Theta y 1) :=
          mul_lt_mul hcc hn sx1 cy0.le
        linarith
      have hth1 : maf2Theta y 1 < maf2Theta x 1 := by
        by_contra hn
        push Not at hn
        exact absurd (sin_le_sin_of_le_of_le_pi_div_two (by linarith) (by linarith) hn) (not_le.2 hs)
      have hc1 : cos (maf2Theta x 1) < cos (maf2Theta y 1) := cos_lt_cos_of_nonneg_of_le_pi (by linarith) (by linarith) hth1
      have hr := maf2_decreasing hx hy hd0
      have : cos (maf2Theta x 0) * (1 + (x 0 - 0.5) ^ 2 * 0.25) * cos (maf2Theta x 1) <
          cos (maf2Theta y 0) * (1 + (y 0 - 0.5) ^ 2 * 0.25) * cos (maf2Theta y 1) :=
        mul_lt_mul hr hc1.le cx1 (by positivity)
      clear * - this h3
      linarith
  refine ⟨key, ?_⟩
  have hfun : values (threeObjs maf2Obj) = maf2Eval := funext fun z => (C224_maf2 z).symm
  rw [hfun]
  exact key

end Ens.Problems.Multi
