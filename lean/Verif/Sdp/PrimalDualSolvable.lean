import Verif.Sdp.PrimalDualExact

/-
`PrimalDualSolver`: when the linear systems of the two search directions can be solved (C248).
-/

namespace Ens.PrimalDual

open Matrix Ens.Lrsdp

variable {n : Nat} {W : Type}

theorem accu_trace_left {A B : Mat n ℝ} (hA : A.IsSymm) : accu A B = (A * B).trace := by
  simp only [accu, hadamard_apply, trace, diag_apply, mul_apply]
  rw [Finset.sum_comm]
  exact Finset.sum_congr rfl fun i _ => Finset.sum_congr rfl fun j _ => by rw [hA.apply i j]

theorem trace_quad_nonneg {M : Mat n ℝ} (h : PSD M) {U : Mat n ℝ} (hU : U.IsSymm) : 0 ≤ (U * (M * U)).trace := by
  have e := trace_cols U M
  rw [hU.eq] at e
  rw [e]
  exact Finset.sum_nonneg fun j _ => h.2 _

theorem trace_mixed_pos {X Z U : Mat n ℝ} (hX : PD X) (hZ : PD Z) (hU : U.IsSymm) (h0 : U ≠ 0) :
    0 < (U * (X * (U * Z))).trace := by
  obtain ⟨l, hl⟩ := exists_gram hZ.psd
  have e1 : (U * (X * (U * Z))).trace = ((U * l)ᵀ * (X * (U * l))).trace := by
    rw [← hl, transpose_mul, hU.eq]
    have : U * (X * (U * (l * lᵀ))) = (U * (X * (U * l))) * lᵀ := by simp only [Matrix.mul_assoc]
    rw [this, trace_mul_comm]
    simp only [Matrix.mul_assoc]
  rw [e1, trace_cols]
  have hne : U * l ≠ 0 := by
    intro hz
    apply h0
    have hUZ : U * Z = 0 := by rw [← hl, ← Matrix.mul_assoc, hz, Matrix.zero_mul]
    refine lyapunov_zero hZ ?_
    have := congrArg transpose hUZ
    rw [transpose_mul, hU.eq, hZ.1.eq, transpose_zero] at this
    rw [hUZ, this, add_zero]
  obtain ⟨j, hj⟩ : ∃ j, (fun i => (U * l) i j) ≠ 0 := by
    by_contra hall
    push Not at hall
    exact hne (by ext i j; exact congrFun (hall j) i)
  exact Finset.sum_pos' (fun j _ => hX.psd.2 _) ⟨j, Finset.mem_univ j, hX.2 _ hj⟩

/-- The bilinear form of the matrix of the linear system is positive if `XZ + ZX` is positive semidefinite. -/
theorem schur_pos {X Z V T : Mat n ℝ} (hX : PD X) (hZ : PD Z) (hXZ : PSD (X * Z + Z * X)) (hV : V.IsSymm) (h0 : V ≠ 0)
    (hT : Z * T + T * Z = X * V + V * X) : 0 < accu V T := by
  obtain ⟨U, hU⟩ := exists_syl hZ V
  have hUs : U.IsSymm := by
    refine lyapunov_unique hZ (h := V) ?_ hU
    have := congrArg transpose hU
    rw [transpose_add, transpose_mul, transpose_mul, hZ.1.eq, hV.eq] at this
    rw [add_comm]; exact this
  have hU0 : U ≠ 0 := by
    rintro rfl
    apply h0
    rw [← hU, Matrix.mul_zero, Matrix.zero_mul, add_zero]
  have p1 := trace_quad_nonneg hXZ hUs
  have p2 := trace_mixed_pos hX hZ hUs hU0
  have e : (V * T).trace = (U * ((X * Z + Z * X) * U)).trace + 2 * (U * (X * (U * Z))).trace := by
    have a1 : (V * T).trace = (U * (X * V + V * X)).trace := by
      rw [← hT]
      conv_lhs => rw [← hU]
      rw [Matrix.add_mul, trace_add, Matrix.mul_add, trace_add]
      have : (Z * U * T).trace = (U * (T * Z)).trace := by
        rw [Matrix.mul_assoc, trace_mul_comm, Matrix.mul_assoc]
      rw [this, Matrix.mul_assoc]
      ring
    rw [a1, ← hU]
    have a2 : (U * (Z * U * X)).trace = (U * (X * (U * Z))).trace := by
      rw [trace_mul_comm, Matrix.mul_assoc, Matrix.mul_assoc, trace_mul_comm]
      simp only [Matrix.mul_assoc]
    have a3 : (U * (U * Z * X)).trace = (U * (Z * X * U)).trace := by
      rw [← Matrix.mul_assoc U (Z * X) U, trace_mul_comm (U * (Z * X)) U]
      simp only [Matrix.mul_assoc]
    simp only [Matrix.mul_add, Matrix.add_mul, trace_add]
    rw [a2, a3]
    simp only [Matrix.mul_assoc]
    ring
  rw [accu_trace_left hV, e]
  linarith

/-- Linearly independent constraint matrices. -/
def Independent (p : Sdp (Fin n) ℝ) : Prop := ∀ y : Fin p.all.length → ℝ, ∑ k, y k • p.all[k].1 = 0 → y = 0

/-- `arma::solve` succeeds when there is a solution. -/
def Solves (env : Env n ℝ W) : Prop :=
  ∀ {m : Nat} (M : Mat m ℝ) r, (∃ d, M *ᵥ d = r) → ∃ d, env.solve M r = some d

theorem exactEnv_solves (n : Nat) : Solves (exactEnv n) := fun M r h => ⟨_, dif_pos h⟩

theorem schur_quad {env : Env n ℝ W} (he : Exact env) {p : Sdp (Fin n) ℝ} (hA : ∀ a ∈ p.all, a.1.IsSymm) {X Z : Mat n ℝ}
    (hX : PD X) (hZ : PD Z) (y : Fin p.all.length → ℝ) :
    ∃ T, Z * T + T * Z = X * (∑ k, y k • p.all[k].1) + (∑ k, y k • p.all[k].1) * X ∧
      y ⬝ᵥ schur env p X Z *ᵥ y = accu (∑ k, y k • p.all[k].1) T := by
  have hAk : ∀ k : Fin p.all.length, (p.all[k].1).IsSymm := fun k => hA _ (List.getElem_mem _)
  have hj : ∀ k : Fin p.all.length, (X * p.all[k].1 + p.all[k].1 * X).IsSymm := by
    intro k
    unfold Matrix.IsSymm
    rw [transpose_add, transpose_mul, transpose_mul, hX.1.eq, (hAk k).eq, add_comm]
  refine ⟨∑ k, y k • env.syl Z (X * p.all[k].1 + p.all[k].1 * X), ?_, ?_⟩
  · rw [Finset.mul_sum, Finset.sum_mul, ← Finset.sum_add_distrib, Finset.mul_sum, Finset.sum_mul, ← Finset.sum_add_distrib]
    refine Finset.sum_congr rfl fun k _ => ?_
    rw [Matrix.mul_smul, Matrix.smul_mul, ← smul_add, he.syl Z _ hZ (hj k), smul_add, Matrix.mul_smul, Matrix.smul_mul]
  · have hc : ∀ A B : Mat n ℝ, accu A B = accu B A := fun A B => by
      simp only [accu, hadamard_apply, mul_comm]
    rw [accu_sum]
    simp only [dotProduct, mulVec, schur, row, Finset.mul_sum]
    rw [Finset.sum_comm]
    refine Finset.sum_congr rfl fun j _ => ?_
    rw [accu_smul, hc, accu_sum, Finset.mul_sum]
    refine Finset.sum_congr rfl fun i _ => ?_
    rw [accu_smul, upper_eq (hAk i), upper_eq (syl_symm he hZ (hj j)), hc]
    ring

/-- **C248** If the constraint matrices are symmetric and linearly independent, the iterates positive definite and `XZ + ZX`
positive semidefinite, the matrix of the linear system is invertible and both solves of an iteration succeed whatever the right
hand side. What is missing: the condition on `XZ + ZX` (see `C248_singular_refuted`). -/
theorem C248_solvable_partial {env : Env n ℝ W} (he : Exact env) (hs : Solves env) {p : Sdp (Fin n) ℝ}
    (hA : ∀ a ∈ p.all, a.1.IsSymm) (hi : Independent p) {X Z : Mat n ℝ} (hX : PD X) (hZ : PD Z)
    (hXZ : PSD (X * Z + Z * X)) (rp : Fin p.all.length → ℝ) (rd rc : Mat n ℝ) :
    IsUnit (schur env p X Z) ∧ ∃ d, solveKKT env p Z (schur env p X Z) X rp rd rc = some d := by
  have hAk : ∀ k : Fin p.all.length, (p.all[k].1).IsSymm := fun k => hA _ (List.getElem_mem _)
  have hinj : Function.Injective (schur env p X Z).mulVecLin := by
    refine (injective_iff_map_eq_zero _).2 fun y hy => ?_
    by_contra hne
    obtain ⟨T, hT, hq⟩ := schur_quad he hA hX hZ y
    have hV : (∑ k, y k • p.all[k].1).IsSymm := by
      unfold Matrix.IsSymm
      rw [transpose_sum]
      exact Finset.sum_congr rfl fun k _ => by rw [transpose_smul, (hAk k).eq]
    have hV0 : ∑ k, y k • p.all[k].1 ≠ 0 := fun h => hne (hi y h)
    have hpos := schur_pos hX hZ hXZ hV hV0 hT
    rw [mulVecLin_apply] at hy
    rw [hy, dotProduct_zero] at hq
    linarith
  have hsur := LinearMap.injective_iff_surjective.1 hinj
  refine ⟨?_, ?_⟩
  · exact Matrix.mulVec_injective_iff_isUnit.1 hinj
  · have : ∀ r, ∃ d, env.solve (schur env p X Z) r = some d := fun r => hs _ r (hsur r)
    obtain ⟨dy, hdy⟩ := this fun k => rp k + row p k (upper (env.syl Z ((2 : ℝ) • (fMul X rd - rc))))
    exact ⟨_, by
      simp only [solveKKT, Option.bind_eq_bind]
      rw [hdy]; rfl⟩

/-- **C248** The default dual iterate is the identity, for which the condition holds: the first iteration of
`Optimize(sdp, coordinates)` does not throw, for every positive definite starting point. -/
theorem C248_default_start {env : Env n ℝ W} (he : Exact env) (hs : Solves env) {p : Sdp (Fin n) ℝ}
    (hA : ∀ a ∈ p.all, a.1.IsSymm) (hi : Independent p) {X : Mat n ℝ} (hX : PD X) (hI : PD (1 : Mat n ℝ))
    (hb : ∀ w x, (env.cbBegin w x).2 = x) (c : Params ℝ) (w : W) (s : St n ℝ W p.all.length) :
    step env c p (start env p w X (fun _ => 1) 1) ≠ .inr (.throws, s) := by
  have hXZ : PSD (X * 1 + 1 * X) := by
    rw [Matrix.mul_one, Matrix.one_mul]
    refine ⟨hX.1.add hX.1, fun v => ?_⟩
    rw [add_mulVec, dotProduct_add]
    exact add_nonneg (hX.psd.2 v) (hX.psd.2 v)
  intro h
  unfold step at h
  have hx : (start env p w X (fun _ => 1) 1).x = X := hb w X
  have hz : (start env p w X (fun _ => 1) 1).z = 1 := rfl
  split_ifs at h with hc
  · simp only [hx, hz] at h
    obtain ⟨d, hd⟩ := (C248_solvable_partial he hs hA hi hX hI hXZ
      (residual p (start env p w X (fun _ => 1) 1).sx)
      (upper p.C - (start env p w X (fun _ => 1) 1).sz - adjoint p (start env p w X (fun _ => 1) 1).y)
      (upper (rcPredict X 1))).2
    rw [hd] at h
    simp only at h
    split at h
    · simp at h
    · rename_i a ha
      split at h
      · simp at h
      · rename_i b hb'
        obtain ⟨d', hd'⟩ := (C248_solvable_partial he hs hA hi hX hI hXZ
          (residual p (start env p w X (fun _ => 1) 1).sx)
          (upper p.C - (start env p w X (fun _ => 1) 1).sz - adjoint p (start env p w X (fun _ => 1) 1).y)
          (upper (rcCorrect (muOf (accu (start env p w X (fun _ => 1) 1).sx (start env p w X (fun _ => 1) 1).sz) X 1 d.dX d.dZ
            a b) X 1 d.dX d.dZ))).2
        rw [hd'] at h
        simp only at h
        split at h
        · simp at h
        · split at h
          · simp at h
          · unfold update at h
            simp only at h
            split_ifs at h
            simp at h
  · simp at h

/-! ### A singular system -/

def badX : Mat 2 ℝ := !![2, 1; 1, 1]
def badZ : Mat 2 ℝ := !![1, 0; 0, 43]
def badA : Mat 2 ℝ := !![-1, 4; 4, 0]

/-- One constraint `⟨badA, X⟩ = b`. -/
def badP (b : ℝ) : Sdp (Fin 2) ℝ := ⟨0, [], [(badA, b)]⟩

theorem symm2 (a b c : ℝ) : (!![a, b; b, c] : Mat 2 ℝ).IsSymm := by
  ext i j
  fin_cases i <;> fin_cases j <;> rfl

theorem badA_symm : badA.IsSymm := symm2 _ _ _

theorem badX_pd : PD badX := by
  refine ⟨symm2 _ _ _, fun v hv => ?_⟩
  have e : v ⬝ᵥ badX *ᵥ v = v 0 ^ 2 + (v 0 + v 1) ^ 2 := by
    simp [badX, dotProduct, mulVec, Fin.sum_univ_two]; ring
  rw [e]
  by_contra h
  have h0 : v 0 = 0 := by nlinarith [sq_nonneg (v 0), sq_nonneg (v 0 + v 1)]
  have h1 : v 1 = 0 := by nlinarith [sq_nonneg (v 0), sq_nonneg (v 0 + v 1)]
  exact hv (by ext i; fin_cases i <;> simp [h0, h1])

theorem badZ_pd : PD badZ := by
  refine ⟨symm2 _ _ _, fun v hv => ?_⟩
  have e : v ⬝ᵥ badZ *ᵥ v = v 0 ^ 2 + 43 * v 1 ^ 2 := by
    simp [badZ, dotProduct, mulVec, Fin.sum_univ_two]; ring
  rw [e]
  by_contra h
  have h0 : v 0 = 0 := by nlinarith [sq_nonneg (v 0), sq_nonneg (v 1)]
  have h1 : v 1 = 0 := by nlinarith [sq_nonneg (v 0), sq_nonneg (v 1)]
  exact hv (by ext i; fin_cases i <;> simp [h0, h1])

theorem badP_mem (b : ℝ) : ∀ a ∈ (badP b).all, a = (badA, b) := by
  intro a ha
  simpa [Sdp.all, badP] using ha

theorem badP_get (b : ℝ) (k : Fin (badP b).all.length) : (badP b).all[k] = (badA, b) :=
  badP_mem b _ (List.getElem_mem _)

theorem badP_indep (b : ℝ) : Independent (badP b) := by
  intro y hy
  have hl : (badP b).all.length = 1 := rfl
  funext k
  have hsum : ∑ j, y j • (badP b).all[j].1 = y k • badA := by
    rw [Finset.sum_eq_single k]
    · rw [badP_get]
    · intro j _ hj
      exact absurd (Fin.ext (by omega)) hj
    · intro h; exact absurd (Finset.mem_univ k) h
  rw [hsum] at hy
  have := congrFun (congrFun hy 0) 0
  simpa [badA] using this

theorem badP_schur {env : Env 2 ℝ W} (he : Exact env) (b : ℝ) : schur env (badP b) badX badZ = 0 := by
  have hs : env.syl badZ (badX * badA + badA * badX) = !![2, 1/4; 1/4, 4/43] := by
    have hsy : (badX * badA + badA * badX).IsSymm := by
      unfold Matrix.IsSymm
      rw [transpose_add, transpose_mul, transpose_mul, badX_pd.1.eq, badA_symm.eq, add_comm]
    refine lyapunov_unique badZ_pd (he.syl _ _ badZ_pd hsy) ?_
    ext i j
    fin_cases i <;> fin_cases j <;> simp [badZ, badX, badA, mul_apply, Fin.sum_univ_two] <;> norm_num
  ext i j
  simp only [schur, row, badP_get]
  rw [hs, upper_eq (symm2 _ _ _), upper_eq badA_symm]
  simp [accu, badA, Fin.sum_univ_two]
  norm_num

/-- **C248** (refuted) "With linearly independent constraints and positive definite starting points the solver does not throw":
two positive definite matrices for which the system is singular. -/
theorem C248_singular_refuted :
    ¬ ∀ (p : Sdp (Fin 2) ℝ) (c : Params ℝ) (X Z : Mat 2 ℝ) (y : Fin p.all.length → ℝ) (s : St 2 ℝ Unit p.all.length),
      p.C.IsSymm → (∀ a ∈ p.all, a.1.IsSymm) → Independent p → PD X → PD Z → 1 < c.maxIterations →
      optimize (exactEnv 1) c p 1 () X y Z ≠ .done (.throws, s) := by
  intro h
  have he := exactEnv_exact 1
  have key : ∀ b : ℝ, (fun k : Fin (badP b).all.length => residual (badP b) (upper badX) k + row (badP b) k
      (upper ((exactEnv 1).syl badZ ((2 : ℝ) • (fMul badX (upper (badP b).C - upper badZ - adjoint (badP b) fun _ => 0) -
        upper (rcPredict badX badZ)))))) ≠ 0 → False := by
    intro b hr
    have hnone : ∀ r : Fin (badP b).all.length → ℝ, r ≠ 0 →
        (exactEnv 1).solve (schur (exactEnv 1) (badP b) badX badZ) r = none := by
      intro r hr
      refine dif_neg ?_
      rintro ⟨d, hd⟩
      rw [badP_schur he b, zero_mulVec] at hd
      exact hr hd.symm
    let c : Params ℝ := ⟨2, 1 / 2, 1, 1, 1⟩
    let s0 := start (exactEnv 1) (badP b) () badX (fun _ => 0) badZ
    have hstep : step (exactEnv 1) c (badP b) s0 = .inr (.throws, s0) := by
      have hk : solveKKT (exactEnv 1) (badP b) s0.z (schur (exactEnv 1) (badP b) s0.x s0.z) s0.x
          (residual (badP b) s0.sx) (upper (badP b).C - s0.sz - adjoint (badP b) s0.y) (upper (rcPredict s0.x s0.z)) = none := by
        simp only [solveKKT, Option.bind_eq_bind]
        exact Option.bind_eq_none_iff.2 fun a ha => by
          have hn := hnone _ hr
          exact absurd (ha.symm.trans hn) (by simp)
      unfold step
      rw [if_pos ⟨show (1 : Nat) ≠ 2 by decide, rfl⟩]
      simp only
      rw [hk]
    refine h (badP b) c badX badZ (fun _ => 0) s0 (by simp [badP, Matrix.IsSymm])
      (fun a ha => by rw [badP_mem b a ha]; exact symm2 _ _ _) (badP_indep b) badX_pd badZ_pd (by decide) ?_
    unfold optimize
    rw [if_neg (by simp [(he.check _ badX_pd.1).2 badX_pd]), if_neg (by simp [(he.check _ badZ_pd.1).2 badZ_pd])]
    rw [iterate, show step (exactEnv 1) c (badP b) (start (exactEnv 1) (badP b) () badX (fun _ => 0) badZ) = _ from hstep]
    rfl
  -- the right hand side is `b` plus something that does not depend on `b`
  by_cases h0 : (fun k : Fin (badP 0).all.length => residual (badP 0) (upper badX) k + row (badP 0) k
      (upper ((exactEnv 1).syl badZ ((2 : ℝ) • (fMul badX (upper (badP 0).C - upper badZ - adjoint (badP 0) fun _ => 0) -
        upper (rcPredict badX badZ)))))) = 0
  · refine key 1 fun h1 => ?_
    have a0 := congrFun h0 ⟨0, by decide⟩
    have a1 := congrFun h1 ⟨0, by decide⟩
    simp only [residual, row, badP_get, Pi.zero_apply] at a0 a1
    have hadj : ∀ b : ℝ, adjoint (badP b) (fun _ => 0) = 0 := fun b => by simp [adjoint]
    rw [hadj] at a0 a1
    simp only [badP] at a0 a1
    linarith
  · exact key 0 h0

/-- Hypotheses of `C248_solvable_partial` and `C248_default_start`. -/
example : Exact (exactEnv 1) ∧ Solves (exactEnv 1) ∧ Independent (badP 1) ∧ PD badX ∧ PD (1 : Mat 2 ℝ) ∧
    ∀ w x, ((exactEnv 1).cbBegin w x).2 = x :=
  ⟨exactEnv_exact 1, exactEnv_solves 1, badP_indep 1, badX_pd, pd_one, fun _ _ => rfl⟩

end Ens.PrimalDual
