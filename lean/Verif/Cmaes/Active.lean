import Verif.Cmaes.Recombine

/-
C269: the repair of a covariance matrix with negative eigenvalues in Active CMA-ES.
C270: shapes of the iterate.  C271: population of one.
-/

namespace Ens.Cmaes.Numeric
open Matrix

variable {d : Nat}

example (k : Conf 2) (he : 0 < k.eps) (z : Nat → Vec 2) (objs : List ℝ) :
    ∃ A L : Mat 2, retry (exactLib 2) k.eps 2 (Core.init (0 : Vec 2) 1).C = some (A, L) ∧
      (next (exactLib 2) (cmaes 2 4) k.eps (Core.init 0 1) z objs).ps
        = (1 - (cmaes 2 4).cs) • (Core.init (0 : Vec 2) 1).ps
          + √((cmaes 2 4).cs * (2 - (cmaes 2 4).cs) * (cmaes 2 4).me) •
            (A⁻¹ *ᵥ (L *ᵥ ∑ r ∈ Finset.range (4 / 2), weight (4 / 2) r • z ((exactLib 2).sort objs r))) :=
  C267_path_exact (plain fun x => x ⬝ᵥ x) (exactLib 2) (exactLib_ok 2) k he _ 1 1 10 4 (by norm_num) (by norm_num) 1
    one_pos () 0 _ (reached_zero (fun x => x ⬝ᵥ x) (exactLib 2) (cmaes 2 4) k 10 1 0) z objs

example : ∃ (k : Conf 1) (c : Core 1) (z : Nat → Vec 1), k.eps = 1 / 2 ∧ k.tol = 0 ∧ k.maxVal = 9 ∧
    Reached (plain fun _ => 0) (exactLib 1) (cmaes 1 2) k (plainSel (fun _ => 0) (exactLib 1) (cmaes 1 2) k) 1 1 10 1 () 0 c ∧
      ∀ objs, ¬ PathLength (exactLib 1) (cmaes 1 2) (1 / 2) c z objs :=
  C267_path_refuted (exactLib 1) (exactLib_ok 1) (fun _ => 0) (1 / 2) 0 9 (by norm_num)

/-! ### Repair of the covariance matrix -/

/-- The intended repair: directions (eigenvectors) with a nonnegative variance keep it. -/
def KeepsGoodDirections (before after : Mat d) : Prop :=
  ∀ (v : Vec d) (e : ℝ), 0 ≤ e → before *ᵥ v = e • v → after *ᵥ v = e • v

/-- **C269**, exactly what the repair does, for every state of a run of Active CMA-ES: a positive semidefinite matrix is
kept, every other one is replaced by zero, and then the next generation samples from a sphere whose variance is
machine epsilon. -/
theorem C269_repair_exact {W : Type} (u : User W d) (lib : Lib d) (ok : lib.Ok) (k : Conf d) (he : 0 < k.eps)
    (sel : Select W (Vec d) ℝ) (n b patience lambda : Nat) (hd : 1 ≤ d) (sigma : ℝ) (hs : 0 < sigma)
    (w : W) (x : Vec d) (c : Core d) (h : Reached u lib (active d lambda) k sel n b patience sigma w x c)
    (z : Nat → Vec d) (objs : List ℝ) :
    ((rawCov lib (active d lambda) k.eps c z objs).PosSemidef →
      (next lib (active d lambda) k.eps c z objs).C = rawCov lib (active d lambda) k.eps c z objs) ∧
    (¬ (rawCov lib (active d lambda) k.eps c z objs).PosSemidef →
      (next lib (active d lambda) k.eps c z objs).C = 0 ∧
        ∃ L, retry lib k.eps 2 (next lib (active d lambda) k.eps c z objs).C = some (k.eps • 1, L)) := by
  have hc : Inv c := reached_inv hs (fun c z objs hc => (inv_next_active ok he hc z objs).2) h
  have hh := (inv_next_active ok he (lambda := lambda) hc z objs).1
  refine ⟨fun hp => by rw [next_C]; exact (repair_eq ok _ hh).1 hp, fun hp => ?_⟩
  have h0 : (next lib (active d lambda) k.eps c z objs).C = 0 := by rw [next_C]; exact (repair_eq ok _ hh).2 hp
  refine ⟨h0, ?_⟩
  rw [h0]
  obtain ⟨B, L, h1, h2, h3, -⟩ := retry_psd ok he (A := (0 : Mat d)) PosSemidef.zero
  refine ⟨L, ?_⟩
  rw [h1 0]
  rcases h2 with rfl | ⟨-, h2⟩
  · have := h3.diag_pos (i := (⟨0, hd⟩ : Fin d))
    simp at this
  · rw [h2, zero_add]

/-- **C269**, the part that holds: as long as the computed matrix has no negative eigenvalue, and always for CMA-ES
(C265), nothing is lost. -/
theorem C269_repair_partial (lib : Lib d) (ok : lib.Ok) (P : Par d) (eps : ℝ) (c : Core d) (z : Nat → Vec d)
    (objs : List ℝ) (hp : (rawCov lib P eps c z objs).PosSemidef) :
    KeepsGoodDirections (rawCov lib P eps c z objs) (next lib P eps c z objs).C := by
  intro v e _ h
  rw [next_C, (repair_eq ok _ hp.isHermitian).1 hp]
  exact h

/-- The sphere function. -/
def sphere (x : Vec d) : ℝ := x ⬝ᵥ x

/-- Draws of the counterexample: the fourth offspring gets ten standard deviations along the first axis. -/
def spike (_i j : Nat) : Vec 2 := if j = 3 then ![10, 0] else 0

theorem spike_zero {i j : Nat} (h : j ≠ 3) : spike i j = 0 := by simp [spike, h]

/-- **C269** refuted: a run of Active CMA-ES with four offspring on the sphere function in two dimensions, started at the
minimum with step size 1.  In its first generation the updated matrix has one negative eigenvalue and one direction
with positive variance; the repair erases the variance of that direction too. -/
theorem C269_repair_refuted (lib : Lib 2) (ok : lib.Ok) (eps tol maxVal : ℝ) (he : 0 < eps) :
    ∃ (k : Conf 2) (c : Core 2) (objs : List ℝ), k.eps = eps ∧ k.tol = tol ∧ k.maxVal = maxVal ∧
      Reached (plain sphere) lib (active 2 4) k (plainSel sphere lib (active 2 4) k) 1 1 25 1 () 0 c ∧
      Reached (plain sphere) lib (active 2 4) k (plainSel sphere lib (active 2 4) k) 1 1 25 1 () 0
        (next lib (active 2 4) eps c (k.draws c.gen) objs) ∧
      (∃ (v : Vec 2) (e : ℝ), v ≠ 0 ∧ 0 < e ∧
        rawCov lib (active 2 4) eps c (k.draws c.gen) objs *ᵥ v = e • v ∧
        (next lib (active 2 4) eps c (k.draws c.gen) objs).C *ᵥ v = 0) ∧
      ¬ KeepsGoodDirections (rawCov lib (active 2 4) eps c (k.draws c.gen) objs)
        (next lib (active 2 4) eps c (k.draws c.gen) objs).C := by
  let k : Conf 2 := ⟨eps, tol, maxVal, spike⟩
  set c : Core 2 := Core.init 0 1 with hc
  have hmu : (active 2 4).mu ≠ 0 := by show 4 / 4 ≠ 0; norm_num
  have hR := reached_one sphere lib (active 2 4) hmu k 25 1 0
  rw [← hc] at hR
  set objs := (List.range (active 2 4).lambda).map fun j => sphere (pPosition lib k.eps c (k.draws 1 j)) with hobjs
  -- the factor of the identity
  obtain ⟨B, L, h1, h2, h3, h4⟩ := retry_psd ok he (A := (1 : Mat 2)) PosSemidef.one
  have hB : B = 1 := by
    rcases h2 with h2 | ⟨h2, -⟩
    · exact h2
    · exact absurd PosDef.one h2
  subst hB
  have hf : factor lib eps c = (1, L) := by
    simp only [hc, factor, Core.init, h1 0, Option.getD_some]
  have hLL : Lᵀ * L = 1 := mul_eq_one_comm.1 h4
  have hdot : ∀ a b : Vec 2, (L *ᵥ a) ⬝ᵥ (L *ᵥ b) = a ⬝ᵥ b := by
    intro a b
    rw [dotProduct_mulVec, ← mulVec_transpose, mulVec_mulVec, hLL, one_mulVec]
  have hpos : ∀ j, pPosition lib k.eps c (k.draws 1 j) = L *ᵥ spike 1 j := by
    intro j
    show c.m + c.sigma • pStep lib eps c (spike 1 j) = _
    rw [pStep, hf]
    simp [hc, Core.init]
  have hobj : ∀ j < 4, objs.getD j 0 = if j = 3 then 100 else 0 := by
    intro j hj
    have hl4 : (active 2 4).lambda = 4 := rfl
    rw [hobjs, hl4]
    simp only [hpos, sphere, hdot]
    have : j = 0 ∨ j = 1 ∨ j = 2 ∨ j = 3 := by omega
    rcases this with rfl | rfl | rfl | rfl <;> simp [List.range_succ, spike] <;> norm_num
  have hlen : objs.length = 4 := by rw [hobjs]; simp; rfl
  -- the worst offspring is number 3
  have hworst : lib.sort objs 3 = 3 := by
    obtain ⟨r, hr, hr3⟩ := sort_surj ok objs (j := 3) (by omega)
    by_cases h : r = 3
    · rw [← h]; rw [h] at hr3; rw [h]; exact hr3
    · have hle := ok.sort_le objs r 3 (by omega) (by omega)
      have hlt : lib.sort objs 3 < 4 := by rw [← hlen]; exact ok.sort_lt objs 3 (by omega)
      rw [hr3, hobj 3 (by norm_num), hobj _ hlt] at hle
      by_contra hne
      simp [hne] at hle
      norm_num at hle
  have hbest : lib.sort objs 0 ≠ 3 := by
    intro h0
    have := ok.sort_inj objs 0 3 (by omega) (by omega) (by rw [h0, hworst])
    omega
  have hy0 : ranked lib eps c (k.draws c.gen) objs 0 = 0 := by
    show pStep lib eps c (spike 1 _) = 0
    rw [spike_zero hbest]; simp [pStep]
  have hy3 : ranked lib eps c (k.draws c.gen) objs 3 = L *ᵥ ![10, 0] := by
    show pStep lib eps c (spike 1 (lib.sort objs 3)) = _
    rw [hworst, pStep, hf]; simp [spike]
  have hstep : stepOf (active 2 4) (ranked lib eps c (k.draws c.gen) objs) = 0 := by
    rw [stepOf_eq _ hmu]
    show ∑ r ∈ Finset.range 1, _ = _
    simp [hy0]
  have hbeta : betaOf 2 1 = 1 / 100 := by norm_num [betaOf]
  have hraw : rawCov lib (active 2 4) eps c (k.draws c.gen) objs
      = (1 - ccovOf 2) • (1 : Mat 2) - (1 / 100 : ℝ) • vecMulVec (L *ᵥ ![10, 0]) (L *ᵥ ![10, 0]) := by
    unfold rawCov
    dsimp only
    rw [hstep, hf]
    rw [show (active 2 4).cov = activeCov 2 4 1 from rfl]
    unfold activeCov
    dsimp only
    have hpc : c.pc = 0 := rfl
    simp [hpc, hy0, hy3, hbeta]
  have hcc : ccovOf 2 < 1 ∧ 0 < ccovOf 2 :=
    ⟨(C264_active 2 4 (by norm_num) (by norm_num)).2.2.2.2.1.2, (C264_active 2 4 (by norm_num) (by norm_num)).2.2.2.2.1.1⟩
  set M := rawCov lib (active 2 4) eps c (k.draws c.gen) objs with hM
  have hMv : ∀ v : Vec 2, M *ᵥ v = (1 - ccovOf 2) • v - ((1 / 100 : ℝ) * ((L *ᵥ ![10, 0]) ⬝ᵥ v)) • (L *ᵥ ![10, 0]) := by
    intro v
    rw [hraw, sub_mulVec, smul_mulVec, smul_mulVec, one_mulVec, vecMulVec_mulVec]
    rw [op_smul_eq_smul, smul_smul]
  have hherm : M.IsHermitian := (inv_next_active ok he (lambda := 4) (inv_init 0 one_pos) (k.draws c.gen) objs).1
  have hnot : ¬ M.PosSemidef := by
    intro hp
    have hq := hp.dotProduct_mulVec_nonneg (L *ᵥ ![10, 0])
    rw [hMv, star_trivial, dotProduct_sub, dotProduct_smul, dotProduct_smul, hdot] at hq
    norm_num [smul_eq_mul] at hq
    linarith [hcc.2]
  have hgone : (next lib (active 2 4) eps c (k.draws c.gen) objs).C = 0 := by
    rw [next_C]; exact (repair_eq ok _ hherm).2 hnot
  have hv : M *ᵥ (L *ᵥ ![0, 1]) = (1 - ccovOf 2) • (L *ᵥ ![0, 1]) := by
    rw [hMv, hdot]; simp
  have hv0 : L *ᵥ ![0, 1] ≠ (0 : Vec 2) := by
    intro h0
    have := hdot ![0, 1] ![0, 1]
    rw [h0] at this
    simp at this
  refine ⟨k, c, objs, rfl, rfl, rfl, reached_zero sphere lib (active 2 4) k 25 1 0, hR, ?_, ?_⟩
  · exact ⟨L *ᵥ ![0, 1], 1 - ccovOf 2, hv0, by linarith [hcc.1], hv, by rw [hgone, zero_mulVec]⟩
  · intro hk
    have := hk _ _ (by linarith [hcc.1]) hv
    rw [hgone, zero_mulVec] at this
    rcases smul_eq_zero.1 this.symm with h | h
    · linarith [hcc.1]
    · exact hv0 h

example : ∃ (k : Conf 2) (c : Core 2) (objs : List ℝ), k.eps = 1 / 2 ∧
    ¬ KeepsGoodDirections (rawCov (exactLib 2) (active 2 4) (1 / 2) c (k.draws c.gen) objs)
      (next (exactLib 2) (active 2 4) (1 / 2) c (k.draws c.gen) objs).C := by
  obtain ⟨k, c, objs, h, -, -, -, -, -, h'⟩ :=
    C269_repair_refuted (exactLib 2) (exactLib_ok 2) (1 / 2) 0 9 (by norm_num)
  exact ⟨k, c, objs, h, h'⟩

example (k : Conf 2) (he : 0 < k.eps) (z : Nat → Vec 2) (objs : List ℝ) :
    KeepsGoodDirections (rawCov (exactLib 2) (cmaes 2 4) k.eps (Core.init 0 1) z objs)
      (next (exactLib 2) (cmaes 2 4) k.eps (Core.init 0 1) z objs).C :=
  C269_repair_partial (exactLib 2) (exactLib_ok 2) (cmaes 2 4) k.eps _ z objs
    (inv_next_cmaes (exactLib_ok 2) he (by norm_num) (by norm_num) (inv_init 0 one_pos) z objs).1

example (k : Conf 2) (he : 0 < k.eps) (z : Nat → Vec 2) (objs : List ℝ)
    (h : ¬ (rawCov (exactLib 2) (active 2 4) k.eps (Core.init 0 1) z objs).PosSemidef) :
    (next (exactLib 2) (active 2 4) k.eps (Core.init 0 1) z objs).C = 0 :=
  ((C269_repair_exact (plain sphere) (exactLib 2) (exactLib_ok 2) k he _ 1 1 25 4 (by norm_num) 1 one_pos () 0 _
    (reached_zero sphere (exactLib 2) (active 2 4) k 25 1 0) z objs).2 h).1

/-! ### Shapes -/

/-- Number of rows and columns. -/
abbrev Shape := Nat × Nat

/-- Product of matrices: defined when the inner sizes agree, otherwise Armadillo throws. -/
def mulShape (a b : Shape) : Option Shape := if a.2 = b.1 then some (a.1, b.2) else none

/-- Sum of matrices: both must have the same shape. -/
def addShape (a b : Shape) : Option Shape := if a = b then some a else none

/-- Shape of `pStep` (cmaes_impl.hpp:206-215, active_cmaes_impl.hpp:201-210): `covLower` is a square matrix with
`n_elem` rows, `randn` has the shape of the iterate. -/
def stepShape (rows cols : Nat) : Option Shape :=
  let n := rows * cols
  if rows > cols then mulShape (n, n) (rows, cols) else mulShape (rows, cols) (n, n)

/-- Shape of `pPosition` (cmaes_impl.hpp:217): `none` if the first offspring cannot be computed. -/
def positionShape (rows cols : Nat) : Option Shape :=
  (stepShape rows cols).bind fun s => addShape (rows, cols) s

/-- **C270**, exactly which iterates CMA-ES and Active CMA-ES accept: those with one row or one column. -/
theorem C270_shape_exact (rows cols : Nat) (hr : 0 < rows) (hc : 0 < cols) :
    positionShape rows cols = (if rows = 1 ∨ cols = 1 then some (rows, cols) else none) := by
  unfold positionShape stepShape mulShape addShape
  have key1 : rows * cols = rows ↔ cols = 1 := by
    constructor
    · intro h; exact Nat.eq_of_mul_eq_mul_left hr (by omega)
    · rintro rfl; omega
  have key2 : cols = rows * cols ↔ rows = 1 := by
    constructor
    · intro h; exact Nat.eq_of_mul_eq_mul_right hc (by omega)
    · rintro rfl; omega
  by_cases h : rows > cols
  · have : rows ≠ 1 := by omega
    by_cases h1 : cols = 1
    · subst h1; simp [h]
    · simp [h, key1, h1, this]
  · by_cases h1 : rows = 1
    · subst h1; simp [h]
    · have : cols ≠ 1 := by omega
      simp [h, key2, h1, this]

/-- **C270** refuted: an iterate with two rows and two columns makes the first generation throw, although any
matrix-shaped iterate is accepted by the interface. -/
theorem C270_shape_refuted : ¬ ∀ rows cols, 0 < rows → 0 < cols → positionShape rows cols = some (rows, cols) := by
  intro h
  have := h 2 2 (by norm_num) (by norm_num)
  rw [C270_shape_exact 2 2 (by norm_num) (by norm_num)] at this
  simp at this

/-- **C270**, the part that holds: column and row vectors of every length work. -/
theorem C270_shape_partial (n : Nat) (hn : 0 < n) :
    positionShape n 1 = some (n, 1) ∧ positionShape 1 n = some (1, n) := by
  rw [C270_shape_exact n 1 hn one_pos, C270_shape_exact 1 n one_pos hn]
  simp

example : positionShape 3 1 = some (3, 1) ∧ positionShape 3 2 = none := by decide

/-! ### Population of one -/

theorem genLoop_one {W : Type} (u : User W d) (lib : Lib d) (k : Conf d) (sel : Select W (Vec d) ℝ)
    (patience rem : Nat) (s : St W (Vec d) ℝ (Core d)) (h : s.terminate = false) :
    open scoped Classical in genLoop (u.env lib (cmaes d 1) k) sel 1 patience (rem + 1) s = none := by
  classical
  rw [genLoop, if_neg (by simp [h])]
  dsimp only
  have : ∀ c objs, (u.env lib (cmaes d 1) k).recombine c objs = none := by
    intro c objs
    simp only [User.env, env, cmaes]
    exact if_pos (by norm_num)
  rw [this]

/-- **C271** refuted: a population of one is accepted by the constructor, but there is no parent to recombine: every run
that gets to its first generation reads `w(0)` of an empty vector, which throws. -/
theorem C271_population_refuted {W : Type} (u : User W d) (lib : Lib d) (k : Conf d) (sel : Select W (Vec d) ℝ)
    (n b patience maxIterations : Nat) (hm : generations maxIterations ≠ 0) (c : Core d) (w : W) (x : Vec d)
    (h : (start (u.env lib (cmaes d 1) k) n b c w x).terminate = false) :
    open scoped Classical in
    optimize (u.env lib (cmaes d 1) k) sel n b 1 patience maxIterations c w x = none := by
  classical
  obtain ⟨r, hr⟩ := Nat.exists_eq_succ_of_ne_zero hm
  rw [optimize, hr, Nat.succ_eq_add_one, genLoop_one u lib k sel patience r _ h]
  rfl

theorem genLoop_some {W : Type} (u : User W d) (lib : Lib d) (P : Par d) (hP : P.mu ≠ 0) (k : Conf d)
    (sel : Select W (Vec d) ℝ) (patience : Nat) :
    open scoped Classical in
    ∀ rem s, ∃ r, genLoop (u.env lib P k) sel P.lambda patience rem s = some r := by
  classical
  intro rem
  induction rem with
  | zero => intro s; exact ⟨_, rfl⟩
  | succ rem ih =>
    intro s
    rw [genLoop]
    by_cases ht : s.terminate = true
    · rw [if_pos ht]; exact ⟨_, rfl⟩
    · rw [if_neg ht]
      dsimp only
      have hr : ∀ c objs, (u.env lib P k).recombine c objs
          = some (meanOf P c (ranked lib k.eps c (k.draws c.gen) objs)) := fun c objs => if_neg hP
      rw [hr]
      dsimp only
      split_ifs
      all_goals first
        | exact ih _
        | exact ⟨_, rfl⟩

/-- **C271**, the part that holds: with at least two offspring (four for Active CMA-ES) every generation has a parent and
no run throws. -/
theorem C271_population_partial {W : Type} (u : User W d) (lib : Lib d) (P : Par d)
    (hP : (∃ lambda, 2 ≤ lambda ∧ P = cmaes d lambda) ∨ (∃ lambda, 4 ≤ lambda ∧ P = active d lambda)) (k : Conf d)
    (sel : Select W (Vec d) ℝ) (n b patience maxIterations : Nat) (c : Core d) (w : W) (x : Vec d) :
    open scoped Classical in
    ∃ r, optimize (u.env lib P k) sel n b P.lambda patience maxIterations c w x = some r := by
  classical
  have hmu : P.mu ≠ 0 := by
    rcases hP with ⟨l, hl, rfl⟩ | ⟨l, hl, rfl⟩
    · show l / 2 ≠ 0; omega
    · show l / 4 ≠ 0; omega
  obtain ⟨r, hr⟩ := genLoop_some u lib P hmu k sel patience (generations maxIterations)
    (start (u.env lib P k) n b c w x)
  rw [optimize, hr]
  exact ⟨_, rfl⟩

example (k : Conf 2) : open scoped Classical in
    optimize ((plain sphere).env (exactLib 2) (cmaes 2 1) k) (plainSel sphere (exactLib 2) (cmaes 2 1) k) 1 1 1 10 1000
      (Core.init 0 1) () 0 = none ∧
    ∃ r, optimize ((plain sphere).env (exactLib 2) (cmaes 2 2) k) (plainSel sphere (exactLib 2) (cmaes 2 2) k) 1 1 2 10 1000
      (Core.init 0 1) () 0 = some r :=
  ⟨C271_population_refuted _ _ _ _ 1 1 10 1000 (by decide) _ _ _
      (by simp [start, initialLoop, batches, User.env, env, plain]),
    C271_population_partial (plain sphere) (exactLib 2) (cmaes 2 2) (.inl ⟨2, le_refl 2, rfl⟩) k _ 1 1 10 1000 _ _ _⟩

end Ens.Cmaes.Numeric
