import Verif.Problems.DtlzSets

/-
C304: the Pareto set of MAF6.
-/

namespace Ens.Problems.Multi

open Real

/-- The angle of row `i` where the distance variables are one half. -/
private noncomputable def base (I : Nat) (x : Coords) (i : Nat) : ℝ := if i < I then x i * π * 0.5 else 0.25

private theorem cos_lip {a t : ℝ} (h : a ≤ t + d) (h0 : t ≤ a) : cos t - d ≤ cos a := by
  have h1 : cos t - cos a = 2 * sin ((a + t) / 2) * sin ((a - t) / 2) := by
    rw [cos_sub_cos]
    have : (t - a) / 2 = -((a - t) / 2) := by ring
    rw [this, sin_neg, add_comm t]
    ring
  have h2 : |sin ((a + t) / 2) * sin ((a - t) / 2)| ≤ (a - t) / 2 := by
    rw [abs_mul]
    have e1 := abs_sin_le_one ((a + t) / 2)
    have e2 : |sin ((a - t) / 2)| ≤ |(a - t) / 2| := abs_sin_le_abs
    rw [abs_of_nonneg (show 0 ≤ (a - t) / 2 by linarith)] at e2
    calc |sin ((a + t) / 2)| * |sin ((a - t) / 2)| ≤ 1 * ((a - t) / 2) := mul_le_mul e1 e2 (abs_nonneg _) one_pos.le
      _ = (a - t) / 2 := one_mul _
  have h3 := (abs_le.1 h2).2
  nlinarith

/-- Moving away from one half costs at least as much in the distance as it can gain in the angle. -/
private theorem gain {I : Nat} {x : Coords} (hx : x ∈ unitBox 12) {i : Nat} (hi : i < 2) :
    0 ≤ sin (base I x i) ∧ 0 ≤ cos (base I x i) ∧ 0 ≤ sin (maf6Theta I x i) ∧ 0 ≤ cos (maf6Theta I x i) ∧
    sin (base I x i) ≤ (1 + 5 * gQuad 12 x) * sin (maf6Theta I x i) ∧
    cos (base I x i) ≤ (1 + 5 * gQuad 12 x) * cos (maf6Theta I x i) := by
  obtain ⟨h0, h1⟩ := hx i (by omega)
  have hp := pi_pos
  have hp3 := pi_gt_three
  have hG := gQuad_nonneg 12 x
  by_cases hI : i < I
  · have e1 : base I x i = x i * π * 0.5 := if_pos hI
    have e2 : maf6Theta I x i = x i * π * 0.5 := if_pos hI
    have hs : 0 ≤ sin (x i * π * 0.5) := sin_nonneg_of_nonneg_of_le_pi (by positivity) (by nlinarith)
    have hc : 0 ≤ cos (x i * π * 0.5) := by
      refine cos_nonneg_of_neg_pi_div_two_le_of_le ?_ (by nlinarith)
      have : 0 ≤ x i * π * 0.5 := by positivity
      linarith
    rw [e1, e2]
    refine ⟨hs, hc, hs, hc, ?_, ?_⟩ <;> nlinarith
  · have e1 : base I x i = 0.25 := if_neg hI
    have e2 : maf6Theta I x i = 0.25 * (1 + 2 * x i * gQuad 12 x) / (1 + gQuad 12 x) := if_neg hI
    rw [e1, e2]
    set G := gQuad 12 x
    have hg : 0 < 1 + G := by linarith
    set a := 0.25 * (1 + 2 * x i * G) / (1 + G) with ha
    have hlow : 0.25 / (1 + G) ≤ a := by
      rw [ha]
      refine div_le_div_of_nonneg_right ?_ hg.le
      have : 0 ≤ x i * G := mul_nonneg h0 hG
      linarith
    have hxG : x i * G ≤ G := by nlinarith
    have hup : a ≤ 0.25 + 0.25 * G := by
      rw [ha, div_le_iff₀ hg]
      nlinarith
    have hup2 : a ≤ 0.5 := by
      rw [ha, div_le_iff₀ hg]
      nlinarith
    have hlow0 : 0 < 0.25 / (1 + G) := by positivity
    have hapos : 0 < a := lt_of_lt_of_le hlow0 hlow
    have ca : 0.5 ≤ cos a := by
      rw [show (0.5 : ℝ) = 1 / 2 by norm_num, ← cos_pi_div_three]
      exact cos_le_cos_of_nonneg_of_le_pi hapos.le (by linarith) (by linarith)
    have sa : 0 < sin a := sin_pos_of_pos_of_lt_pi hapos (by linarith)
    refine ⟨sin_nonneg_of_nonneg_of_le_pi (by norm_num) (by linarith), (cos_pos_of_mem_Ioo ⟨by linarith, by linarith⟩).le, sa.le,
      by linarith, ?_, ?_⟩
    · have hc := strictConcaveOn_sin_Icc.concaveOn.2 (show (0.25 : ℝ) ∈ Set.Icc 0 π from ⟨by norm_num, by linarith⟩)
        (show (0 : ℝ) ∈ Set.Icc 0 π from ⟨le_refl _, hp.le⟩) (show 0 ≤ 1 / (1 + G) by positivity)
        (show 0 ≤ G / (1 + G) by positivity) (by field_simp)
      simp only [smul_eq_mul, sin_zero, mul_zero, add_zero] at hc
      have e3 : 1 / (1 + G) * 0.25 = 0.25 / (1 + G) := by ring
      rw [e3] at hc
      have hs : sin (0.25 / (1 + G)) ≤ sin a := sin_le_sin_of_le_of_le_pi_div_two (by linarith) (by linarith) hlow
      have h2 := mul_le_mul_of_nonneg_left (hc.trans hs) hg.le
      rw [← mul_assoc, mul_one_div_cancel hg.ne', one_mul] at h2
      have : 0 ≤ G * sin a := mul_nonneg hG sa.le
      linarith
    · have hl : cos 0.25 - 0.25 * G ≤ cos a := by
        by_cases h : 0.25 ≤ a
        · exact cos_lip hup h
        · push Not at h
          have := cos_le_cos_of_nonneg_of_le_pi hapos.le (show (0.25 : ℝ) ≤ π by linarith) h.le
          linarith
      have : G * 0.5 ≤ G * cos a := mul_le_mul_of_nonneg_left ca hG
      linarith

/-- The same point with the distance variables one half. -/
private noncomputable def middle (x : Coords) : Coords := fun i => if i < 2 then x i else 0.5

private theorem middle_mem {x : Coords} (hx : x ∈ unitBox 12) : middle x ∈ unitBox 12 := fun i hi => by
  unfold middle
  split_ifs
  · exact hx i hi
  · norm_num

private theorem middle_g (x : Coords) : gQuad 12 (middle x) = 0 :=
  (gQuad_zero_iff 12 _).2 fun i hi _ => if_neg (by omega)

private theorem rows6 (I : Nat) (x : Coords) : maf6Eval I x =
    [(1 + 100 * gQuad 12 x) * sin (maf6Theta I x 0), (1 + 100 * gQuad 12 x) * (cos (maf6Theta I x 0) * sin (maf6Theta I x 1)),
      (1 + 100 * gQuad 12 x) * (cos (maf6Theta I x 0) * cos (maf6Theta I x 1))] := by
  simp [maf6Eval, spread, mul_assoc]

private theorem rows_middle (I : Nat) (x : Coords) : maf6Eval I (middle x) =
    [sin (base I x 0), cos (base I x 0) * sin (base I x 1), cos (base I x 0) * cos (base I x 1)] := by
  have h : ∀ i < 2, maf6Theta I (middle x) i = base I x i := fun i hi => by
    unfold maf6Theta base
    rw [middle_g]
    simp [middle, hi]
  rw [rows6, middle_g, h 0 (by norm_num), h 1 (by norm_num)]
  simp

private theorem norm6 (a b : ℝ) : sin a ^ 2 + (cos a * sin b) ^ 2 + (cos a * cos b) ^ 2 = 1 := by
  have h1 := sin_sq_add_cos_sq a
  have h2 := sin_sq_add_cos_sq b
  nlinarith

private theorem gQuad_le (x : Coords) (hx : x ∈ unitBox 12) : gQuad 12 x ≤ 2.5 := by
  unfold gQuad distSum
  have : ∀ i ∈ Finset.Ico 2 12, (x i - 0.5) ^ 2 ≤ 0.25 := fun i hi => by
    rw [Finset.mem_Ico] at hi
    obtain ⟨h0, h1⟩ := hx i hi.2
    nlinarith
  refine (Finset.sum_le_sum this).trans ?_
  simp
  norm_num

private theorem middle_le (I : Nat) {x : Coords} (hx : x ∈ unitBox 12) : List.Forall₂ (· ≤ ·) (maf6Eval I (middle x)) (maf6Eval I x) := by
  obtain ⟨s0, c0, s0', c0', gs0, gc0⟩ := gain (I := I) hx (i := 0) (by norm_num)
  obtain ⟨s1, c1, s1', c1', gs1, gc1⟩ := gain (I := I) hx (i := 1) (by norm_num)
  have hG := gQuad_nonneg 12 x
  have hG2 := gQuad_le x hx
  rw [rows_middle, rows6]
  have hk : (1 + 5 * gQuad 12 x) * (1 + 5 * gQuad 12 x) ≤ 1 + 100 * gQuad 12 x := by nlinarith
  have two : ∀ {u v u' v' : ℝ}, 0 ≤ u → 0 ≤ v → 0 ≤ u' → 0 ≤ v' → u ≤ (1 + 5 * gQuad 12 x) * u' → v ≤ (1 + 5 * gQuad 12 x) * v' →
      u * v ≤ (1 + 100 * gQuad 12 x) * (u' * v') := by
    intro u v u' v' _ hv hu' hv' h1 h2
    calc u * v ≤ (1 + 5 * gQuad 12 x) * u' * ((1 + 5 * gQuad 12 x) * v') := mul_le_mul h1 h2 hv (by positivity)
      _ = (1 + 5 * gQuad 12 x) * (1 + 5 * gQuad 12 x) * (u' * v') := by ring
      _ ≤ _ := mul_le_mul_of_nonneg_right hk (mul_nonneg hu' hv')
  refine .cons ?_ (.cons (two c0 s1 c0' s1' gc0 gs1) (.cons (two c0 c1 c0' c1' gc0 gc1) .nil))
  nlinarith [mul_nonneg hG s0']

/-- **C304** MAF6, for every manifold dimension `I`: in the unit box the Pareto-optimal points, for `Evaluate` and for the tuple, are those
whose distance variables are one half; their objectives have norm one. -/
theorem C304_maf6 (I : Nat) (x : Coords) (hx : x ∈ unitBox 12) :
    (ParetoOptimal (unitBox 12) (maf6Eval I) x ↔ ∀ i, 2 ≤ i → i < 12 → x i = 0.5) ∧
    (ParetoOptimal (unitBox 12) (values (threeObjs (maf6Obj I))) x ↔ ∀ i, 2 ≤ i → i < 12 → x i = 0.5) ∧
    (ParetoOptimal (unitBox 12) (maf6Eval I) x → ((maf6Eval I x).map (· ^ 2)).sum = 1) := by
  have hnorm : ∀ z, ((maf6Eval I z).map (· ^ 2)).sum = (1 + 100 * gQuad 12 z) ^ 2 := fun z => by
    rw [rows6]
    simp only [List.map_cons, List.map_nil, List.sum_cons, List.sum_nil, add_zero]
    have := norm6 (maf6Theta I z 0) (maf6Theta I z 1)
    nlinarith
  have hpos : ∀ z ∈ unitBox 12, ∃ a b c, maf6Eval I z = [a, b, c] ∧ 0 ≤ a ∧ 0 ≤ b ∧ 0 ≤ c := fun z hz => by
    obtain ⟨-, -, s0', c0', -⟩ := gain (I := I) hz (i := 0) (by norm_num)
    obtain ⟨-, -, s1', c1', -⟩ := gain (I := I) hz (i := 1) (by norm_num)
    have hG := gQuad_nonneg 12 z
    exact ⟨_, _, _, rows6 I z, by positivity, by positivity, by positivity⟩
  have key : ParetoOptimal (unitBox 12) (maf6Eval I) x ↔ ∀ i, 2 ≤ i → i < 12 → x i = 0.5 := by
    rw [← gQuad_zero_iff 12]
    constructor
    · rintro ⟨-, h⟩
      by_contra hne
      have hG : 0 < gQuad 12 x := lt_of_le_of_ne (gQuad_nonneg 12 x) (Ne.symm hne)
      refine h (middle x) (middle_mem hx) ⟨middle_le I hx, fun he => ?_⟩
      have := congrArg (fun l : List ℝ => (l.map (· ^ 2)).sum) he
      rw [hnorm, hnorm, middle_g] at this
      nlinarith
    · intro hG
      refine ⟨hx, fun z hz hd => ?_⟩
      obtain ⟨hle, hne⟩ := hd
      obtain ⟨a, b, c, ea, pa, pb, pc⟩ := hpos z hz
      obtain ⟨a', b', c', ea', pa', pb', pc'⟩ := hpos x hx
      have n1 := hnorm z
      have n2 := hnorm x
      rw [ea] at n1
      rw [ea', hG] at n2
      rw [ea, ea'] at hle hne
      simp only [List.map_cons, List.map_nil, List.sum_cons, List.sum_nil, add_zero] at n1 n2
      simp only [List.forall₂_cons, List.forall₂_nil_left_iff, and_true] at hle
      obtain ⟨l1, l2, l3⟩ := hle
      have hGz := gQuad_nonneg 12 z
      have q1 : a ^ 2 ≤ a' ^ 2 := pow_le_pow_left₀ pa l1 2
      have q2 : b ^ 2 ≤ b' ^ 2 := pow_le_pow_left₀ pb l2 2
      have q3 : c ^ 2 ≤ c' ^ 2 := pow_le_pow_left₀ pc l3 2
      have hbig : 1 ≤ (1 + 100 * gQuad 12 z) ^ 2 := one_le_pow₀ (by linarith)
      refine hne ?_
      rw [(pow_left_inj₀ pa pa' two_ne_zero).1 (by linarith), (pow_left_inj₀ pb pb' two_ne_zero).1 (by linarith),
        (pow_left_inj₀ pc pc' two_ne_zero).1 (by linarith)]
  have hfun : values (threeObjs (maf6Obj I)) = maf6Eval I := funext fun z => (C224_maf6 I z).symm
  refine ⟨key, by rw [hfun]; exact key, fun ho => ?_⟩
  rw [hnorm, (gQuad_zero_iff 12 x).2 (key.1 ho)]
  norm_num

/-- Such points exist. -/
example : (fun _ => 0.5 : Coords) ∈ unitBox 12 := fun i _ => by norm_num

end Ens.Problems.Multi
