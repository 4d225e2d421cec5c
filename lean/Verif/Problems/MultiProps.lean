import Verif.Problems.Multi
import Mathlib.Tactic.NormNum
import Mathlib.Tactic.Linarith
import Mathlib.Tactic.Positivity
import Mathlib.Tactic.FieldSimp

/-
C224 (the tuple of objectives is `Evaluate`), C225 (DTLZ1–6 and MAF4, where it is not).
-/

namespace Ens.Problems.Multi

open Real

/-- **C224** Schaffer N.1. -/
theorem C224_schaffer (x : Coords) : schafferEval x = values schafferObjs x := rfl

/-- **C224** Fonseca-Fleming. -/
theorem C224_fonseca_fleming (x : Coords) : ffEval x = values ffObjs x := rfl

private theorem nine (x : Coords) : 1 + 9 * tailSum 30 (fun t => t) x / ((29 : Nat) : ℝ) = zdtG x := by
  unfold zdtG; norm_num

/-- **C224** ZDT1. -/
theorem C224_zdt1 (x : Coords) : zdt1Eval x = values zdt1Objs x := by
  simp only [zdt1Eval, values, zdt1Objs, List.map, nine]

/-- **C224** ZDT2. -/
theorem C224_zdt2 (x : Coords) : zdt2Eval x = values zdt2Objs x := by
  simp only [zdt2Eval, values, zdt2Objs, List.map, nine]

/-- **C224** ZDT3. -/
theorem C224_zdt3 (x : Coords) : zdt3Eval x = values zdt3Objs x := by
  simp only [zdt3Eval, values, zdt3Objs, List.map, nine]

/-- **C224** ZDT4. -/
theorem C224_zdt4 (x : Coords) : zdt4Eval x = values zdt4Objs x := rfl

/-- **C224** ZDT6. -/
theorem C224_zdt6 (x : Coords) : zdt6Eval x = values zdt6Objs x := rfl

local macro "rows" : tactic => `(tactic| (
  simp [values, threeObjs, spread, prodTo, List.range_succ]))

/-- **C224** DTLZ7 and MAF7. -/
theorem C224_dtlz7 (x : Coords) : dtlz7Eval x = values dtlz7Objs x := by
  simp [dtlz7Eval, dtlz7Objs, dtlz7Obj, values, threeObjs]

/-- **C224** MAF1. -/
theorem C224_maf1 (x : Coords) : maf1Eval x = values (threeObjs maf1Obj) x := by
  unfold maf1Eval maf1Obj; rows

/-- **C224** MAF2. -/
theorem C224_maf2 (x : Coords) : maf2Eval x = values (threeObjs maf2Obj) x := by
  unfold maf2Eval maf2Obj; rows

/-- **C224** MAF3. -/
theorem C224_maf3 (x : Coords) : maf3Eval x = values (threeObjs maf3Obj) x := by
  unfold maf3Eval maf3Obj; rows
  refine ⟨?_, ?_, ?_⟩ <;> ring

/-- **C224** MAF5, for every `alpha` and `a`. -/
theorem C224_maf5 (alpha a : Nat) (x : Coords) : maf5Eval alpha a x = values (threeObjs (maf5Obj alpha a)) x := by
  unfold maf5Eval maf5Obj
  simp only [values, threeObjs, spread, prodTo, List.range_succ, List.range_zero, List.nil_append, List.foldl_append, List.foldl_cons,
    List.foldl_nil, List.map, List.cons.injEq, and_true]
  refine ⟨?_, ?_, ?_⟩ <;> norm_num <;> first | ring1 | (left; ring1)

/-- **C224** MAF6, for every `I`. -/
theorem C224_maf6 (I : Nat) (x : Coords) : maf6Eval I x = values (threeObjs (maf6Obj I)) x := by
  have h : ∀ i, (if i < I then π * x i * 0.5 else 0.25 * (1 + 2 * x i * gQuad 12 x) / (1 + gQuad 12 x)) = maf6Theta I x i := by
    intro i
    unfold maf6Theta
    split
    · ring
    · rfl
  simp only [values, threeObjs, List.map, maf6Obj, h, maf6Eval]
  rows
  refine ⟨?_, ?_, ?_⟩ <;> ring

/-! ### C225: DTLZ1–6 and MAF4 -/

/-- **C225** (part) DTLZ1: the first two objectives of the tuple are those of `Evaluate`; the third is the third of `Evaluate` times
the first distance variable. -/
theorem C225_dtlz1_partial (x : Coords) :
    ∃ f1 f2 f3, dtlz1Eval x = [f1, f2, f3] ∧ values dtlz1Objs x = [f1, f2, f3 * x 2] := by
  refine ⟨_, _, _, rfl, ?_⟩
  unfold dtlz1Objs dtlz1Obj; rows
  refine ⟨?_, ?_, ?_⟩ <;> ring

/-- **C225** (part) DTLZ2–6, any angles and any value of `g`: the first two objectives of the tuple are twice those of `Evaluate`, the
third is twice the third of `Evaluate` times the cosine of the third angle. -/
theorem C225_sphere_partial (theta : Nat → ℝ) (G : ℝ) :
    ∃ f1 f2 f3, sphereEval theta G = [f1, f2, f3] ∧
      (List.range 3).map (sphereObj theta G) = [2 * f1, 2 * f2, 2 * f3 * cos (theta 2 * π * 0.5)] := by
  refine ⟨_, _, _, rfl, ?_⟩
  unfold sphereObj; rows
  refine ⟨?_, ?_, ?_⟩ <;> ring

private theorem half_pow : ∀ n : Nat, (1 - 0.5 : ℝ) * (0.5 : ℝ) ^ n ≠ 0 := fun n => by positivity

/-- The tuple of DTLZ2–6 for a problem with the angles `theta x` and the value `G x`. -/
private theorem sphere_ne (theta : Nat → ℝ) (G : ℝ) (hG : 0 ≤ G) (h0 : theta 0 * π * 0.5 ∈ Set.Ioo 0 π) :
    sphereEval theta G ≠ (List.range 3).map (sphereObj theta G) := by
  intro h
  simp [sphereEval, sphereObj, spread, prodTo, List.range_succ] at h
  have hs := sin_pos_of_pos_of_lt_pi h0.1 h0.2
  have h1 := h.1
  have : 0 < sin (theta 0 * π * 0.5) * (1 + G) := by positivity
  nlinarith

private theorem pi_quarter_mem : (0.5 : ℝ) * π * 0.5 ∈ Set.Ioo 0 π := by
  constructor <;> nlinarith [pi_pos]

theorem gRast_half (n : Nat) (hn : 3 ≤ n) : gRast n (fun _ => 0.5) = 0 := by
  unfold gRast distSum
  have h : ((n - 3 + 1 : Nat) : ℝ) = (n : ℝ) - 2 := by
    have : n - 3 + 1 = n - 2 := by omega
    rw [this, Nat.cast_sub (by omega)]
    norm_num
  have h' : ((n - 2 : Nat) : ℝ) = (n : ℝ) - 2 := by rw [Nat.cast_sub (by omega)]; norm_num
  rw [h]
  simp [h']

/-- **C225** (refuted) DTLZ1: the tuple is not `Evaluate`; at all variables one half they differ. -/
theorem C225_dtlz1_refuted : ¬ ∀ x, dtlz1Eval x = values dtlz1Objs x := by
  intro h
  have := h fun _ => 0.5
  simp [dtlz1Eval, dtlz1Objs, dtlz1Obj, values, threeObjs, spread, prodTo, List.range_succ, gRast_half] at this
  norm_num at this

/-- **C225** (refuted) DTLZ2. -/
theorem C225_dtlz2_refuted : ¬ ∀ x, dtlz2Eval x = values dtlz2Objs x := fun h =>
  sphere_ne (fun _ => 0.5) (gQuad 7 fun _ => 0.5) (by unfold gQuad distSum; positivity) pi_quarter_mem (h fun _ => 0.5)

/-- **C225** (refuted) DTLZ3. -/
theorem C225_dtlz3_refuted : ¬ ∀ x, dtlz3Eval x = values dtlz3Objs x := fun h =>
  sphere_ne (fun _ => 0.5) (gRast 7 fun _ => 0.5) (by rw [gRast_half 7 (by norm_num)]) pi_quarter_mem (h fun _ => 0.5)

/-- **C225** (refuted) DTLZ4, for every `alpha`. -/
theorem C225_dtlz4_refuted (alpha : Nat) : ¬ ∀ x, dtlz4Eval alpha x = values (dtlz4Objs alpha) x := fun h => by
  refine sphere_ne (fun i => (fun _ => 0.5 : Coords) i ^ alpha) (gQuad 7 fun _ => 0.5) (by unfold gQuad distSum; positivity) ?_
    (h fun _ => 0.5)
  have h1 : (0 : ℝ) < 0.5 ^ alpha := by positivity
  have h2 : (0.5 : ℝ) ^ alpha ≤ 1 := pow_le_one₀ (by norm_num) (by norm_num)
  constructor
  · have := pi_pos; positivity
  · nlinarith [pi_pos, mul_le_mul_of_nonneg_right h2 pi_pos.le]

/-- **C225** (refuted) DTLZ5. -/
theorem C225_dtlz5_refuted : ¬ ∀ x, dtlz5Eval x = values dtlz5Objs x := fun h => by
  refine sphere_ne (theta5 (gQuad 7 fun _ => 0.5) fun _ => 0.5) (gQuad 7 fun _ => 0.5) (by unfold gQuad distSum; positivity) ?_
    (h fun _ => 0.5)
  have : theta5 (gQuad 7 fun _ => 0.5) (fun _ => 0.5) 0 = 0.5 := by simp [theta5, gQuad, distSum]
  rw [this]
  exact pi_quarter_mem

/-- **C225** (refuted) DTLZ6. -/
theorem C225_dtlz6_refuted : ¬ ∀ x, dtlz6Eval x = values dtlz6Objs x := fun h => by
  have hG : gRoot (fun _ => 0) = 0 := by
    have h0 : (0 : ℝ) ^ (0.1 : ℝ) = 0 := zero_rpow (by norm_num)
    simp [gRoot, distSum, h0]
  refine sphere_ne (theta5 (gRoot fun _ => 0) fun _ => 0) (gRoot fun _ => 0) hG.ge ?_ (h fun _ => 0)
  have : theta5 (gRoot fun _ => 0) (fun _ => 0) 0 = 0.5 := by simp [theta5, hG]
  rw [this]
  exact pi_quarter_mem

/-- **C225** (part) MAF4: with an integer `a` (the default is 2) the tuple is `Evaluate`. -/
theorem C225_maf4_partial (a : Nat) (x : Coords) : maf4Eval a x = values (threeObjs (maf4Obj a)) x := by
  unfold maf4Eval maf4Obj maf4GetA; rows
  refine ⟨?_, ?_, ?_⟩ <;> ring

theorem gRast_nonneg (n : Nat) (hn : 3 ≤ n) (x : Coords) : 0 ≤ gRast n x := by
  unfold gRast distSum
  have h : ((n - 3 + 1 : Nat) : ℝ) = ∑ _i ∈ Finset.Ico 2 n, (1 : ℝ) := by
    rw [Finset.sum_const, Nat.card_Ico, nsmul_eq_mul, mul_one]
    congr 1; omega
  rw [h, ← Finset.sum_add_distrib]
  refine mul_nonneg (by norm_num) (Finset.sum_nonneg fun i _ => ?_)
  have := cos_le_one (20 * π * (x i - 0.5))
  nlinarith [sq_nonneg (x i - 0.5)]

/-- **C225** (refuted) MAF4: with `a` = 1/2 the tuple is constant zero, `Evaluate` is not. -/
theorem C225_maf4_refuted : ¬ ∀ a x, 0 ≤ a → maf4Eval a x = values (threeObjs (maf4Obj a)) x := by
  intro h
  have := h 0.5 (fun _ => 0) (by norm_num)
  have hf : maf4GetA 0.5 = 0 := by simp [maf4GetA]; norm_num
  have hg := gRast_nonneg 12 (by norm_num) fun _ => 0
  simp [maf4Eval, maf4Obj, hf, values, threeObjs, spread, prodTo, List.range_succ] at this
  rcases this with h1 | h1
  · linarith
  · norm_num at h1

end Ens.Problems.Multi
