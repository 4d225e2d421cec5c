import Verif.Cmaes.Covariance

/-
C266: the new mean is the weighted average of the positions of the best offspring.
C267: the evolution path of the step size is scaled with the inverse of the covariance matrix, not with its
inverse square root as in the publication cited.
Also: explicit first generations of runs, used by the examples.
-/

namespace Ens.Cmaes.Numeric
open Matrix

variable {d : Nat}

theorem foldl_sum (w : Nat → ℝ) (y : Nat → Vec d) : ∀ n : Nat, ∀ s : Vec d,
    (List.range n).foldl (fun s j => s + w (j + 1) • y (j + 1)) s
      = s + ∑ j ∈ Finset.range n, w (j + 1) • y (j + 1) := by
  intro n
  induction n with
  | zero => intro s; simp
  | succ n ih =>
    intro s
    rw [List.range_succ, List.foldl_append, ih, Finset.sum_range_succ]
    simp [add_assoc]

theorem stepOf_eq (P : Par d) (h : P.mu ≠ 0) (y : Nat → Vec d) :
    stepOf P y = ∑ r ∈ Finset.range P.mu, P.w r • y r := by
  unfold stepOf
  rw [foldl_sum]
  obtain ⟨k, hk⟩ := Nat.exists_eq_succ_of_ne_zero h
  rw [hk, Finset.sum_range_succ', add_comm]
  simp

theorem meanOf_eq (P : Par d) (h : P.mu ≠ 0) (h1 : ∑ r ∈ Finset.range P.mu, P.w r = 1) (c : Core d) (y : Nat → Vec d) :
    meanOf P c y = ∑ r ∈ Finset.range P.mu, P.w r • (c.m + c.sigma • y r) := by
  unfold meanOf
  rw [stepOf_eq P h]
  simp only [smul_add, Finset.sum_add_distrib, ← Finset.sum_smul, h1, one_smul, Finset.smul_sum]
  congr 1
  exact Finset.sum_congr rfl fun r _ => smul_comm _ _ _

theorem sort_surj {lib : Lib d} (ok : lib.Ok) (v : List ℝ) {j : Nat} (hj : j < v.length) :
    ∃ r < v.length, lib.sort v r = j := by
  let f : Fin v.length → Fin v.length := fun r => ⟨lib.sort v r, ok.sort_lt v r r.2⟩
  have hf : Function.Injective f := fun a b hab =>
    Fin.ext (ok.sort_inj v a b a.2 b.2 (Fin.mk.inj_iff.1 hab))
  obtain ⟨r, hr⟩ := Finite.surjective_of_injective hf ⟨j, hj⟩
  exact ⟨r, r.2, Fin.mk.inj_iff.1 hr⟩

/-- The `mu` offspring chosen: `rank` lists the offspring (numbered in order of creation) with the best first. -/
structure Ranking (objs : List ℝ) (rank : Nat → Nat) : Prop where
  lt : ∀ r < objs.length, rank r < objs.length
  inj : ∀ r s, r < objs.length → s < objs.length → rank r = rank s → r = s
  surj : ∀ j < objs.length, ∃ r < objs.length, rank r = j
  le : ∀ r s, r ≤ s → s < objs.length → objs.getD (rank r) 0 ≤ objs.getD (rank s) 0

theorem sort_ranking {lib : Lib d} (ok : lib.Ok) (objs : List ℝ) : Ranking objs (lib.sort objs) :=
  ⟨ok.sort_lt objs, ok.sort_inj objs, fun _ hj => sort_surj ok objs hj, ok.sort_le objs⟩

/-- **C266**, CMA-ES: the new mean of a generation with `lambda ≥ 2` offspring is the average of the positions of the
`lambda / 2` best offspring, with the weights `weight` (positive, strictly decreasing with the rank, sum one: C264);
every offspring left out is at least as bad as every one chosen. -/
theorem C266_cmaes {W : Type} (u : User W d) (lib : Lib d) (ok : lib.Ok) (k : Conf d) (lambda : Nat) (hl : 2 ≤ lambda)
    (c : Core d) (w : W) (objs : List ℝ) (hlen : objs.length = lambda) :
    ∃ rank, Ranking objs rank ∧
      (∀ r j, r < lambda / 2 → j < lambda → (∀ q < lambda / 2, rank q ≠ j) →
        objs.getD (rank r) 0 ≤ objs.getD j 0) ∧
      (u.env lib (cmaes d lambda) k).recombine c objs
        = some (∑ r ∈ Finset.range (lambda / 2),
            weight (lambda / 2) r • ((u.env lib (cmaes d lambda) k).sample w c (rank r)).2) := by
  have hmu : lambda / 2 ≠ 0 := by omega
  have hr := sort_ranking ok objs
  refine ⟨lib.sort objs, hr, ?_, ?_⟩
  · intro r j hr' hj hq
    obtain ⟨s, hs, rfl⟩ := hr.surj j (by omega)
    have : lambda / 2 ≤ s := by
      by_contra hc
      exact hq s (by omega) rfl
    exact hr.le r s (by omega) hs
  · have h1 : ∑ r ∈ Finset.range (cmaes d lambda).mu, (cmaes d lambda).w r = 1 :=
      weight_sum (show 1 ≤ lambda / 2 by omega)
    have := meanOf_eq (cmaes d lambda) hmu h1 c (ranked lib k.eps c (k.draws c.gen) objs)
    show (if lambda / 2 = 0 then none else some _) = _
    rw [if_neg hmu, this]
    rfl

/-- **C266**, Active CMA-ES: the new mean is the plain average of the positions of the `lambda / 4` best offspring. -/
theorem C266_active {W : Type} (u : User W d) (lib : Lib d) (ok : lib.Ok) (k : Conf d) (lambda : Nat) (hl : 4 ≤ lambda)
    (c : Core d) (w : W) (objs : List ℝ) (hlen : objs.length = lambda) :
    ∃ rank, Ranking objs rank ∧
      (∀ r j, r < lambda / 4 → j < lambda → (∀ q < lambda / 4, rank q ≠ j) →
        objs.getD (rank r) 0 ≤ objs.getD j 0) ∧
      (u.env lib (active d lambda) k).recombine c objs
        = some ((1 / ((lambda / 4 : Nat) : ℝ)) • ∑ r ∈ Finset.range (lambda / 4),
            ((u.env lib (active d lambda) k).sample w c (rank r)).2) := by
  have hmu : lambda / 4 ≠ 0 := by omega
  have hr := sort_ranking ok objs
  refine ⟨lib.sort objs, hr, ?_, ?_⟩
  · intro r j hr' hj hq
    obtain ⟨s, hs, rfl⟩ := hr.surj j (by omega)
    have : lambda / 4 ≤ s := by
      by_contra hc
      exact hq s (by omega) rfl
    exact hr.le r s (by omega) hs
  · have h1 : ∑ r ∈ Finset.range (active d lambda).mu, (active d lambda).w r = 1 := by
      show ∑ r ∈ Finset.range (lambda / 4), (1 / ((lambda / 4 : Nat) : ℝ)) = 1
      have : (0 : ℝ) < (lambda / 4 : Nat) := by exact_mod_cast Nat.pos_of_ne_zero hmu
      rw [Finset.sum_const, Finset.card_range, nsmul_eq_mul]
      field_simp
    have := meanOf_eq (active d lambda) hmu h1 c (ranked lib k.eps c (k.draws c.gen) objs)
    show (if lambda / 4 = 0 then none else some _) = _
    rw [if_neg hmu, this, Finset.smul_sum]
    rfl

/-! ### First generation of a run -/

/-- A user with a plain objective and no callbacks. -/
def plain (f : Vec d → ℝ) : User Unit d where
  transform := id
  evaluate := fun w x _ _ => (w, f x)
  cbEvaluate := fun w _ _ => (w, false)
  cbStep := fun w _ => (w, false)
  cbBegin := fun w _ => w

/-- `FullSelection` of a plain objective. -/
noncomputable def plainSel (f : Vec d → ℝ) (lib : Lib d) (P : Par d) (k : Conf d) : Select Unit (Vec d) ℝ :=
  fullSelection ((plain f).env lib P k) 1 1

theorem plainSel_eq (f : Vec d → ℝ) (lib : Lib d) (P : Par d) (k : Conf d) (w : Unit) (x : Vec d) :
    plainSel f lib P k w x = (w, f x, false, [.eval x (f x) false]) := by
  simp [plainSel, fullSelection, fullLoop, batches, User.env, env, plain]

theorem offspring_plain (f : Vec d → ℝ) (lib : Lib d) (P : Par d) (k : Conf d) (c : Core d) :
    ∀ n j w, offspring ((plain f).env lib P k) (plainSel f lib P k) c n j w
      = (w, (List.range n).map (fun i => f (pPosition lib k.eps c (k.draws c.gen (j + i)))), false,
        (List.range n).map (fun i => .eval (pPosition lib k.eps c (k.draws c.gen (j + i)))
          (f (pPosition lib k.eps c (k.draws c.gen (j + i)))) false)) := by
  intro n
  induction n with
  | zero => intro j w; simp [offspring]
  | succ n ih =>
    intro j w
    rw [offspring]
    simp only [plainSel_eq]
    rw [ih]
    simp only [List.range_succ_eq_map, List.map_cons, List.map_map, Function.comp_def]
    have h : ∀ i, j + 1 + i = j + (i + 1) := fun i => by omega
    simp only [h]
    rfl

theorem reached_zero (f : Vec d → ℝ) (lib : Lib d) (P : Par d) (k : Conf d) (patience : Nat)
    (sigma : ℝ) (x : Vec d) :
    Reached (plain f) lib P k (plainSel f lib P k) 1 1 patience sigma () x (Core.init x sigma) := by
  classical
  exact ⟨0, _, _, rfl, rfl⟩

/-- A run on a plain objective reaches the state computed from the initial one. -/
theorem reached_one (f : Vec d → ℝ) (lib : Lib d) (P : Par d) (hP : P.mu ≠ 0) (k : Conf d) (patience : Nat)
    (sigma : ℝ) (x : Vec d) :
    Reached (plain f) lib P k (plainSel f lib P k) 1 1 patience sigma () x
      (next lib P k.eps (Core.init x sigma) (k.draws 1)
        ((List.range P.lambda).map fun j => f (pPosition lib k.eps (Core.init x sigma) (k.draws 1 j)))) := by
  classical
  set st := start ((plain f).env lib P k) 1 1 (Core.init x sigma) () x with hst
  have ht : st.terminate = false := by
    simp [hst, start, initialLoop, batches, User.env, env, plain]
  have hcov : st.cov = Core.init x sigma := rfl
  have hgen : (Core.init x sigma).gen = 1 := rfl
  have key : ∃ e s, genLoop ((plain f).env lib P k) (plainSel f lib P k) P.lambda patience 1 st = some (e, s) ∧
      s.cov = ((plain f).env lib P k).adapt st.cov
        (offspring ((plain f).env lib P k) (plainSel f lib P k) st.cov P.lambda 0 st.w).2.1 := by
    rw [genLoop, if_neg (by simp [ht])]
    dsimp only
    have hr : ∀ c objs, ((plain f).env lib P k).recombine c objs
        = some (meanOf P c (ranked lib k.eps c (k.draws c.gen) objs)) := fun c objs => if_neg hP
    rw [hr]
    dsimp only
    split_ifs
    · exact ⟨_, _, rfl, rfl⟩
    · exact ⟨_, _, rfl, rfl⟩
    · exact ⟨_, _, rfl, rfl⟩
    · exact ⟨_, _, rfl, rfl⟩
    · exact ⟨_, _, rfl, rfl⟩
  obtain ⟨e, s, h, hs⟩ := key
  refine ⟨1, e, s, h, ?_⟩
  rw [hs, offspring_plain, hcov]
  show next lib P k.eps (Core.init x sigma) (k.draws 1) _ = _
  simp [hgen]

/-- **C265** and **C266** apply to a run of two generations on the sphere function with the exact library. -/
example (k : Conf 2) (he : 0 < k.eps) :
    ∃ c : Core 2, c.gen = 2 ∧ c.C.PosSemidef ∧
      Reached (plain fun x => x ⬝ᵥ x) (exactLib 2) (cmaes 2 4) k (plainSel (fun x => x ⬝ᵥ x) (exactLib 2) (cmaes 2 4) k)
        1 1 10 1 () 0 c := by
  have h := reached_one (fun x : Vec 2 => x ⬝ᵥ x) (exactLib 2) (cmaes 2 4) (by show 4 / 2 ≠ 0; norm_num) k 10 1 0
  exact ⟨_, rfl, (C265_cmaes _ _ (exactLib_ok 2) k he _ 1 1 10 4 (by norm_num) (by norm_num) 1 one_pos () 0 _ h).1, h⟩

/-- The same for Active CMA-ES. -/
example (k : Conf 2) (he : 0 < k.eps) :
    ∃ c : Core 2, c.gen = 2 ∧ c.C.PosSemidef ∧
      Reached (plain fun x => x ⬝ᵥ x) (exactLib 2) (active 2 4) k
        (plainSel (fun x => x ⬝ᵥ x) (exactLib 2) (active 2 4) k) 1 1 10 1 () 0 c := by
  have h := reached_one (fun x : Vec 2 => x ⬝ᵥ x) (exactLib 2) (active 2 4) (by show 4 / 4 ≠ 0; norm_num) k 10 1 0
  exact ⟨_, rfl, (C265_active _ _ (exactLib_ok 2) k he _ 1 1 10 4 1 one_pos () 0 _ h).1, h⟩

/-- Four offspring, two parents: the two with objectives 1 and 2. -/
example (k : Conf 2) (c : Core 2) : ∃ rank, Ranking [3, 1, 4, 2] rank ∧
    ((plain fun x => x ⬝ᵥ x).env (exactLib 2) (cmaes 2 4) k).recombine c [3, 1, 4, 2]
      = some (∑ r ∈ Finset.range 2, weight 2 r •
          (((plain fun x => x ⬝ᵥ x).env (exactLib 2) (cmaes 2 4) k).sample () c (rank r)).2) := by
  obtain ⟨rank, h1, -, h3⟩ := C266_cmaes (plain fun x : Vec 2 => x ⬝ᵥ x) (exactLib 2) (exactLib_ok 2) k 4 (by norm_num) c
    () [3, 1, 4, 2] rfl
  exact ⟨rank, h1, h3⟩

example (k : Conf 2) (c : Core 2) : ∃ rank, Ranking [3, 1, 4, 2] rank ∧
    ((plain fun x => x ⬝ᵥ x).env (exactLib 2) (active 2 4) k).recombine c [3, 1, 4, 2]
      = some ((1 / ((1 : Nat) : ℝ)) • ∑ r ∈ Finset.range 1,
          (((plain fun x => x ⬝ᵥ x).env (exactLib 2) (active 2 4) k).sample () c (rank r)).2) := by
  obtain ⟨rank, h1, -, h3⟩ := C266_active (plain fun x : Vec 2 => x ⬝ᵥ x) (exactLib 2) (exactLib_ok 2) k 4 (by norm_num) c
    () [3, 1, 4, 2] rfl
  exact ⟨rank, h1, h3⟩

/-! ### The evolution path of the step size -/

theorem whiten_inv {lib : Lib d} (ok : lib.Ok) {A : Mat d} (hA : A.PosDef) : whiten lib A = A⁻¹ := by
  have hm := ok.eig_mul A hA.isHermitian
  have ho := ok.eig_orth A hA.isHermitian
  unfold whiten
  generalize (lib.eig A).1 = ev at *
  generalize (lib.eig A).2 = U at *
  have hpos : ∀ i, 0 < ev i := by
    intro i
    have h1 : (Uᵀ * A * U).PosDef := by
      have := hA.conjTranspose_mul_mul_same (B := U) (by
        intro x y hxy
        have := congrArg (fun v => Uᵀ *ᵥ v) hxy
        simpa [mulVec_mulVec, ho] using this)
      simpa [conjTranspose_eq_transpose_of_trivial] using this
    have e : Uᵀ * A * U = diagonal ev := by
      have e : Uᵀ * (U * diagonal ev * Uᵀ) * U = (Uᵀ * U) * diagonal ev * (Uᵀ * U) := by
        simp only [Matrix.mul_assoc]
      rw [hm, e, ho]; simp
    have h2 := (e ▸ h1).diag_pos (i := i)
    rwa [diagonal_apply_eq] at h2
  symm
  apply inv_eq_left_inv
  rw [hm]
  have e : U * diagonal (fun i => 1 / ev i) * Uᵀ * (U * diagonal ev * Uᵀ)
      = U * diagonal (fun i => 1 / ev i) * (Uᵀ * U) * diagonal ev * Uᵀ := by
    simp only [Matrix.mul_assoc]
  have h2 : (fun i => 1 / ev i * ev i) = fun _ : Fin d => (1 : ℝ) := by
    funext i; rw [one_div, inv_mul_cancel₀ (hpos i).ne']
  have ho' : U * Uᵀ = 1 := mul_eq_one_comm.1 ho
  rw [e, ho, Matrix.mul_one, Matrix.mul_assoc U, diagonal_mul_diagonal, h2]
  simp [ho']

/-- The published rule for the step-size path (Hansen and Ostermeier 2001): what a generation adds to the path has,
up to the constant factor `√(cs (2 - cs) muEffective)`, the length of the average of the random numbers selected,
whatever the covariance matrix. -/
def PathLength (lib : Lib d) (P : Par d) (eps : ℝ) (c : Core d) (z : Nat → Vec d) (objs : List ℝ) : Prop :=
  norm2 ((next lib P eps c z objs).ps - (1 - P.cs) • c.ps)
    = √(P.cs * (2 - P.cs) * P.me) * norm2 (∑ r ∈ Finset.range P.mu, P.w r • z (lib.sort objs r))

theorem norm2_smul (a : ℝ) (ha : 0 ≤ a) (v : Vec d) : norm2 (a • v) = a * norm2 v := by
  unfold norm2
  rw [smul_dotProduct, dotProduct_smul, smul_eq_mul, smul_eq_mul, ← mul_assoc, Real.sqrt_mul (by positivity),
    Real.sqrt_mul_self ha]

theorem norm2_orth {L : Mat d} (h : L * Lᵀ = 1) (v : Vec d) : norm2 (L *ᵥ v) = norm2 v := by
  have h' : Lᵀ * L = 1 := mul_eq_one_comm.1 h
  unfold norm2
  rw [dotProduct_mulVec, ← mulVec_transpose, mulVec_mulVec, h', one_mulVec]

theorem step_draws (lib : Lib d) (P : Par d) (hP : P.mu ≠ 0) (eps : ℝ) (c : Core d) (z : Nat → Vec d)
    (objs : List ℝ) : stepOf P (ranked lib eps c z objs)
      = (factor lib eps c).2 *ᵥ ∑ r ∈ Finset.range P.mu, P.w r • z (lib.sort objs r) := by
  rw [stepOf_eq P hP, mulVec_sum]
  refine Finset.sum_congr rfl fun r _ => ?_
  rw [mulVec_smul]; rfl

/-- **C267**, what the code computes: the path of the step size moves by the inverse `A⁻¹` of the covariance matrix
times the step (`eigvec * diagmat(1 / eigval) * eigvec.t()`). -/
theorem C267_path_exact {W : Type} (u : User W d) (lib : Lib d) (ok : lib.Ok) (k : Conf d) (he : 0 < k.eps)
    (sel : Select W (Vec d) ℝ) (n b patience lambda : Nat) (hd : 1 ≤ d) (hl : 2 ≤ lambda) (sigma : ℝ) (hs : 0 < sigma)
    (w : W) (x : Vec d) (c : Core d) (h : Reached u lib (cmaes d lambda) k sel n b patience sigma w x c)
    (z : Nat → Vec d) (objs : List ℝ) :
    ∃ A L : Mat d, retry lib k.eps 2 c.C = some (A, L) ∧
      (next lib (cmaes d lambda) k.eps c z objs).ps
        = (1 - (cmaes d lambda).cs) • c.ps
          + √((cmaes d lambda).cs * (2 - (cmaes d lambda).cs) * (cmaes d lambda).me) •
            (A⁻¹ *ᵥ (L *ᵥ ∑ r ∈ Finset.range (lambda / 2), weight (lambda / 2) r • z (lib.sort objs r))) := by
  have hc : Inv c := reached_inv hs (fun c z objs hc => (inv_next_cmaes ok he hd hl hc z objs).2) h
  obtain ⟨h1, h2, h3, h4⟩ := factor_spec ok he hc
  refine ⟨(factor lib k.eps c).1, (factor lib k.eps c).2, h4 0, ?_⟩
  rw [← whiten_inv ok h1]
  show psOf lib (cmaes d lambda) _ _ _ = _
  rw [step_draws lib (cmaes d lambda) (by show lambda / 2 ≠ 0; omega)]
  rfl

/-- **C267**, the part that holds: while the covariance matrix is the identity, in particular in the first generation
of a run, the path grows as published. -/
theorem C267_path_partial (lib : Lib d) (ok : lib.Ok) (P : Par d) (hP : P.mu ≠ 0) (eps : ℝ) (he : 0 < eps)
    (c : Core d) (hC : c.C = 1) (z : Nat → Vec d) (objs : List ℝ) :
    PathLength lib P eps c z objs := by
  obtain ⟨B, L, h1, h2, h3, h4⟩ := retry_psd ok he (A := c.C) (hC ▸ PosSemidef.one)
  have hB : B = 1 := by
    rcases h2 with h2 | ⟨h2, -⟩
    · rw [h2, hC]
    · exact absurd (hC ▸ PosDef.one) h2
  subst hB
  have hf : factor lib eps c = (1, L) := by simp only [factor, h1 0, Option.getD_some]
  unfold PathLength
  have : (next lib P eps c z objs).ps - (1 - P.cs) • c.ps
      = √(P.cs * (2 - P.cs) * P.me) • (L *ᵥ ∑ r ∈ Finset.range P.mu, P.w r • z (lib.sort objs r)) := by
    show psOf lib P _ _ _ - _ = _
    unfold psOf
    rw [step_draws lib P hP, hf, whiten_inv ok PosDef.one]
    simp
  rw [this, norm2_smul _ (Real.sqrt_nonneg _), norm2_orth h4]

example (k : Conf 2) (he : 0 < k.eps) (z : Nat → Vec 2) (objs : List ℝ) :
    PathLength (exactLib 2) (cmaes 2 4) k.eps (Core.init 0 1) z objs :=
  C267_path_partial (exactLib 2) (exactLib_ok 2) (cmaes 2 4) (by show 4 / 2 ≠ 0; norm_num) k.eps he _ rfl z objs

theorem weight_one : weight 1 0 = 1 := by
  have := weight_sum (mu := 1) (le_refl 1)
  simpa using this

theorem me_one : muEffective 1 = 1 := by simp [muEffective, weight_one]

theorem cmu_one (n : ℝ) (hn : 1 ≤ n) : cmuOf n 1 = 0 := by
  unfold cmuOf
  have := c1_lt hn (le_refl 1)
  norm_num
  linarith

/-- **C267** refuted: a run in one dimension with two offspring reaches, after one generation, a state in which the
next generation adds to the path a vector of another length than published. -/
theorem C267_path_refuted (lib : Lib 1) (ok : lib.Ok) (f : Vec 1 → ℝ) (eps tol maxVal : ℝ) (he : 0 < eps) :
    ∃ (k : Conf 1) (c : Core 1) (z : Nat → Vec 1), k.eps = eps ∧ k.tol = tol ∧ k.maxVal = maxVal ∧
      Reached (plain f) lib (cmaes 1 2) k (plainSel f lib (cmaes 1 2) k) 1 1 10 1 () 0 c ∧
      ∀ objs, ¬ PathLength lib (cmaes 1 2) eps c z objs := by
  let k : Conf 1 := ⟨eps, tol, maxVal, fun _ _ => 0⟩
  have hmu : (cmaes 1 2).mu ≠ 0 := by show 2 / 2 ≠ 0; norm_num
  have hR := reached_one f lib (cmaes 1 2) hmu k 10 1 0
  set objs := (List.range (cmaes 1 2).lambda).map fun j => f (pPosition lib k.eps (Core.init 0 1) (k.draws 1 j))
    with hobjs
  set c1 := c1Of 1 1 with hc1
  have hc1p : 0 < c1 := c1_pos (le_refl 1) (le_refl 1)
  have hc1l : c1 < 1 / 3 := c1_lt (le_refl 1) (le_refl 1)
  have hraw : rawCov lib (cmaes 1 2) k.eps (Core.init 0 1) (k.draws 1) objs = (1 - c1) • 1 := by
    have hs : stepOf (cmaes 1 2) (ranked lib k.eps (Core.init 0 1) (k.draws 1) objs) = 0 := by
      rw [step_draws lib _ hmu]; simp [k]
    obtain ⟨B, L, h1, h2, h3, h4⟩ := retry_psd ok he (A := (1 : Mat 1)) PosSemidef.one
    have hB : B = 1 := by
      rcases h2 with h2 | ⟨h2, -⟩
      · exact h2
      · exact absurd PosDef.one h2
    subst hB
    have hf : factor lib k.eps (Core.init 0 1) = (1, L) := by
      simp only [factor, Core.init, h1 0, k, Option.getD_some]
    unfold rawCov
    dsimp only
    rw [hs]
    have hps : psOf lib (cmaes 1 2) (factor lib k.eps (Core.init 0 1)).1 (Core.init 0 1).ps 0 = (0 : Vec 1) := by
      simp [psOf, Core.init]
    rw [hps, hf]
    have hn : norm2 (0 : Vec 1) = 0 := by simp [norm2]
    rw [hn]
    show (cmaesCov 1 (2 / 2) _ _ _ _ _ _).2 = _
    have hh : 0 < hOf ((1 : ℕ) : ℝ) := by
      unfold hOf
      have := enn_pos (n := ((1 : ℕ) : ℝ)) (by norm_num)
      positivity
    unfold cmaesCov
    dsimp only
    rw [if_pos (by rw [zero_div]; exact hh)]
    have hy : ∀ j, ranked lib k.eps (Core.init 0 1) (k.draws 1) objs j = 0 := by
      intro j; simp [ranked, pStep, k]
    have h22 : 2 / 2 = 1 := by norm_num
    simp [rankMu, h22, me_one, cmu_one 1 (le_refl 1), Core.init, hy, hc1]
  set c := next lib (cmaes 1 2) k.eps (Core.init 0 1) (k.draws 1) objs with hc
  have hCp : ((1 - c1) • (1 : Mat 1)).PosDef := PosDef.one.smul (by linarith)
  have hC : c.C = (1 - c1) • 1 := by
    rw [hc, next_C, hraw]
    exact (repair_eq ok _ hCp.isHermitian).1 hCp.posSemidef
  refine ⟨k, c, fun _ _ => 1, rfl, rfl, rfl, hR, fun objs' => ?_⟩
  obtain ⟨B, L, h1, h2, h3, h4⟩ := retry_psd ok he (A := c.C) (hC ▸ hCp.posSemidef)
  have hB : B = (1 - c1) • 1 := by
    rcases h2 with h2 | ⟨h2, -⟩
    · rw [h2, hC]
    · exact absurd (hC ▸ hCp) h2
  subst hB
  have hf : factor lib k.eps c = ((1 - c1) • 1, L) := by simp only [factor, k, h1 0, Option.getD_some]
  unfold PathLength
  have hsum : ∑ r ∈ Finset.range (cmaes 1 2).mu, (cmaes 1 2).w r • (fun _ : Fin 1 => (1 : ℝ)) = fun _ => 1 := by
    show ∑ r ∈ Finset.range 1, weight 1 r • (fun _ : Fin 1 => (1 : ℝ)) = fun _ => 1
    simp [weight_one]
  have hps : (next lib (cmaes 1 2) eps c (fun _ _ => 1) objs').ps - (1 - (cmaes 1 2).cs) • c.ps
      = √((cmaes 1 2).cs * (2 - (cmaes 1 2).cs) * (cmaes 1 2).me) •
        (((1 - c1) • (1 : Mat 1))⁻¹ *ᵥ (L *ᵥ fun _ => 1)) := by
    show psOf lib (cmaes 1 2) _ _ _ - _ = _
    unfold psOf
    rw [step_draws lib _ hmu, show eps = k.eps from rfl, hf, whiten_inv ok hCp, hsum]
    simp
  rw [hps, norm2_smul _ (Real.sqrt_nonneg _), hsum]
  have hK : 0 < √((cmaes 1 2).cs * (2 - (cmaes 1 2).cs) * (cmaes 1 2).me) := by
    have hm := me_one
    have h1' : 0 < (cmaes 1 2).cs ∧ (cmaes 1 2).cs < 1 := (C264_rates 1 2 (le_refl 1) (le_refl 2)).2.1
    have h2' : (cmaes 1 2).me = 1 := me_one
    rw [h2']
    apply Real.sqrt_pos.2
    nlinarith [h1'.1, h1'.2]
  intro hcon
  have hcon := mul_left_cancel₀ hK.ne' hcon
  have hL : L 0 0 * L 0 0 = 1 - c1 := by
    have := congrFun (congrFun h4 0) 0
    simpa [Matrix.mul_apply] using this
  have hinv : ((1 - c1) • (1 : Mat 1))⁻¹ = (1 - c1)⁻¹ • (1 : Mat 1) := by
    apply inv_eq_left_inv
    rw [smul_mul_smul_comm, inv_mul_cancel₀ (by linarith)]; simp
  rw [hinv] at hcon
  have e1 : norm2 (((1 - c1)⁻¹ • (1 : Mat 1)) *ᵥ (L *ᵥ fun _ => (1 : ℝ))) = √((1 - c1)⁻¹) := by
    unfold norm2
    congr 1
    simp [dotProduct, mulVec, smul_mulVec]
    have : (1 - c1)⁻¹ * L 0 0 * ((1 - c1)⁻¹ * L 0 0) = (1 - c1)⁻¹ * (1 - c1)⁻¹ * (L 0 0 * L 0 0) := by ring
    rw [this, hL, mul_assoc, inv_mul_cancel₀ (by linarith), mul_one]
  have e2 : norm2 (fun _ : Fin 1 => (1 : ℝ)) = 1 := by simp [norm2, dotProduct]
  rw [e1, e2, Real.sqrt_eq_one] at hcon
  have := inv_eq_one.1 hcon
  linarith

end Ens.Cmaes.Numeric
