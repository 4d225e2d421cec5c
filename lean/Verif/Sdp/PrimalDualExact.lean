import Mathlib.Analysis.Matrix.PosDef
import Mathlib.Analysis.Matrix.Order
import Verif.Sdp.PrimalDualCert

/-
`PrimalDualSolver`: exact library routines exist in every dimension, so the hypotheses of C187 to C190 can be met; the
step length along directions that stay in the cone (C188).
-/

namespace Ens.PrimalDual

open Matrix Ens.Lrsdp

variable {n : Nat}

theorem herm {b : Mat n ℝ} (h : b.IsSymm) : b.IsHermitian := by
  unfold Matrix.IsHermitian
  rw [conjTranspose_eq_transpose_of_trivial]; exact h

theorem exists_top {b : Mat (n + 1) ℝ} (h : b.IsSymm) : ∃ lam : ℝ,
    (∀ v, v ⬝ᵥ b *ᵥ v ≤ lam * (v ⬝ᵥ v)) ∧ ∃ v, v ≠ 0 ∧ b *ᵥ v = lam • v := by
  have hb := herm h
  obtain ⟨i, -, hi⟩ := Finset.exists_max_image (Finset.univ : Finset (Fin (n + 1))) hb.eigenvalues ⟨0, Finset.mem_univ 0⟩
  refine ⟨hb.eigenvalues i, fun v => ?_, ?_⟩
  · have hps : (hb.eigenvalues i • (1 : Mat (n + 1) ℝ) - b).PosSemidef := by
      have hd : (diagonal fun j => hb.eigenvalues i - hb.eigenvalues j).PosSemidef :=
        PosSemidef.diagonal fun j => sub_nonneg.2 (hi j (Finset.mem_univ j))
      have := hd.mul_mul_conjTranspose_same (hb.eigenvectorUnitary : Mat (n + 1) ℝ)
      convert this using 1
      have hu : (hb.eigenvectorUnitary : Mat (n + 1) ℝ) * (hb.eigenvectorUnitary : Mat (n + 1) ℝ)ᴴ = 1 :=
        Unitary.mul_star_self_of_mem hb.eigenvectorUnitary.2
      have hs := hb.spectral_theorem
      rw [Unitary.conjStarAlgAut_apply] at hs
      have e : (diagonal fun j => hb.eigenvalues i - hb.eigenvalues j) =
          hb.eigenvalues i • (1 : Mat (n + 1) ℝ) - diagonal (RCLike.ofReal ∘ hb.eigenvalues) := by
        ext a c
        by_cases hac : a = c
        · subst hac; simp
        · simp [hac]
      rw [e, Matrix.mul_sub, Matrix.sub_mul, Matrix.mul_smul, Matrix.smul_mul, Matrix.mul_one, hu]
      congr 1
    have := (posSemidef_iff_dotProduct_mulVec.1 hps).2 v
    rw [sub_mulVec, dotProduct_sub, smul_mulVec, one_mulVec, dotProduct_smul, star_trivial, smul_eq_mul] at this
    linarith
  · refine ⟨hb.eigenvectorBasis i, fun h0 => ?_, ?_⟩
    · have := hb.eigenvectorBasis.orthonormal.ne_zero i
      exact this (by ext k; exact congrFun h0 k)
    · exact hb.mulVec_eigenvectorBasis i

theorem exists_gram {a : Mat n ℝ} (h : PSD a) : ∃ l : Mat n ℝ, l * lᵀ = a := by
  have hp : a.PosSemidef := posSemidef_iff_dotProduct_mulVec.2 ⟨herm h.1, fun v => by simpa using h.2 v⟩
  open scoped MatrixOrder ComplexOrder in
  obtain ⟨y, hy⟩ := CStarAlgebra.nonneg_iff_eq_star_mul_self.mp hp.nonneg
  refine ⟨yᵀ, ?_⟩
  rw [transpose_transpose, hy, star_eq_conjTranspose, conjTranspose_eq_transpose_of_trivial]

theorem exists_syl {a : Mat n ℝ} (ha : PD a) (h : Mat n ℝ) : ∃ s, a * s + s * a = h := by
  let f : Mat n ℝ →ₗ[ℝ] Mat n ℝ := LinearMap.mulLeft ℝ a + LinearMap.mulRight ℝ a
  have hinj : Function.Injective f := (injective_iff_map_eq_zero f).2 fun s hs => lyapunov_zero ha hs
  obtain ⟨s, hs⟩ := (LinearMap.injective_iff_surjective.1 hinj) h
  exact ⟨s, hs⟩

open Classical in
/-- Exact versions of the library routines for matrices of size `n + 1`. -/
noncomputable def exactEnv (n : Nat) : Env (n + 1) ℝ Unit where
  check := fun a => decide (PD a)
  chol := fun a => if h : PD a then some (exists_gram h.psd).choose else none
  inv := fun l => if h : ∃ li, li * l = 1 then some h.choose else none
  topEig := fun b => if h : b.IsSymm then some ((exists_top h).choose, false) else none
  syl := fun a h => if ha : PD a then (exists_syl ha h).choose else 0
  solve := fun {m} M r => if h : ∃ d : Fin m → ℝ, M *ᵥ d = r then some h.choose else none
  norm := norm2
  cbBegin := fun w x => (w, x)
  cbStep := fun w x => (w, x, false)
  cbEnd := fun w x => (w, x)

theorem exactEnv_exact (n : Nat) : Exact (exactEnv n) where
  check := fun a _ => by simp [exactEnv]
  chol := fun a l _ h => by
    simp only [exactEnv] at h
    split_ifs at h with hp
    exact Option.some.inj h ▸ (exists_gram hp.psd).choose_spec
  chol_some := fun a h => ⟨_, dif_pos h⟩
  inv := fun l li h => by
    simp only [exactEnv] at h
    split_ifs at h with hp
    exact Option.some.inj h ▸ hp.choose_spec
  inv_some := fun l h => ⟨_, dif_pos h⟩
  topEig := fun b e hb h => by
    simp only [exactEnv, dif_pos hb, Option.some.injEq] at h
    subst h
    exact (exists_top hb).choose_spec
  topEig_some := fun b h => ⟨_, dif_pos h⟩
  syl := fun a h ha _ => by
    simp only [exactEnv, dif_pos ha]
    exact (exists_syl ha h).choose_spec
  solve := fun M r d h => by
    simp only [exactEnv] at h
    split_ifs at h with hp
    exact Option.some.inj h ▸ hp.choose_spec

theorem pd_smul_one {t : ℝ} (h : 0 < t) : PD (t • (1 : Mat (n + 1) ℝ)) := by
  refine ⟨by unfold Matrix.IsSymm; rw [transpose_smul, transpose_one], fun v hv => ?_⟩
  rw [smul_mulVec, one_mulVec, dotProduct_smul, smul_eq_mul]
  exact mul_pos h (quad_self_pos hv)

theorem pd_one : PD (1 : Mat (n + 1) ℝ) := by simpa using pd_smul_one (n := n) one_pos

/-- Hypotheses of C188, with a direction that leaves the cone. -/
example : Exact (exactEnv 1) ∧ PD (1 : Mat 2 ℝ) ∧ (-1 : Mat 2 ℝ).IsSymm ∧ ∃ t : ℝ, 0 ≤ t ∧ ¬ PSD (1 + t • (-1 : Mat 2 ℝ)) := by
  refine ⟨exactEnv_exact 1, pd_one, by unfold Matrix.IsSymm; rw [transpose_neg, transpose_one], 2, by norm_num, fun h => ?_⟩
  have := h.2 ![1, 0]
  simp [dotProduct, mulVec, Fin.sum_univ_two, Matrix.one_apply] at this

/-- **C188** (refuted) "`alpha = min(1, tau * alphahat)` with `alphahat` the supremum of the steps that stay in the cone": along a
direction that never leaves the cone the supremum is infinite, but the step is `tau`, not 1. -/
theorem C188_alpha_refuted :
    ¬ ∀ (env : Env 1 ℝ Unit) (tau : ℝ) (a dA : Mat 1 ℝ) (s : ℝ), Exact env → 0 < tau → tau < 1 → PD a → dA.IsSymm →
      (∀ t : ℝ, 0 ≤ t → PSD (a + t • dA)) → alpha env tau a dA = some s → s = 1 := by
  intro h
  have h1 : (1 : Mat 1 ℝ).IsSymm := transpose_one
  have he := exactEnv_exact 0
  obtain ⟨s, hs, -⟩ := C188_alpha_partial he (tau := 1 / 2) (by norm_num) (by norm_num) (pd_one (n := 0)) h1
  have := h (exactEnv 0) (1 / 2) 1 1 s he (by norm_num) (by norm_num) pd_one h1
    (fun t ht => by
      have e : (1 : Mat 1 ℝ) + t • 1 = (1 + t) • 1 := by rw [add_smul, one_smul]
      rw [e]
      exact (pd_smul_one (n := 0) (by linarith)).psd) hs
  subst this
  simp only [alpha, Option.bind_eq_bind, Option.bind_eq_some_iff, Option.some.injEq] at hs
  obtain ⟨l, hl, li, hli, e, hee, hs⟩ := hs
  have hll := he.chol 1 l h1 hl
  have hil := he.inv l li hli
  have hB : (-li * 1 * liᵀ).IsSymm := by
    unfold Matrix.IsSymm
    rw [Matrix.mul_one, transpose_mul, transpose_transpose, transpose_neg, Matrix.mul_neg, Matrix.neg_mul]
  obtain ⟨-, v, hv, hev⟩ := he.topEig _ _ hB hee
  have hq := (quad_chol hll 1 v hil).2
  rw [hev, one_mulVec, dotProduct_smul, smul_eq_mul] at hq
  have hne : liᵀ *ᵥ v ≠ 0 := by
    intro h0
    apply hv
    have : lᵀ *ᵥ (liᵀ *ᵥ v) = v := by rw [mulVec_mulVec, ← transpose_mul, hil, transpose_one, one_mulVec]
    rw [← this, h0, mulVec_zero]
  have p1 := quad_self_pos hne
  have p2 := quad_self_pos hv
  have hneg : e.1 < 0 := by nlinarith
  rw [stepLength, if_pos (.inl hneg)] at hs
  norm_num at hs

/-! ### A run that converges -/

/-- `min 2 x` subject to `x = 1`. -/
def progR : Sdp (Fin 1) ℝ := ⟨(2 : ℝ) • 1, [], [(1, 1)]⟩

theorem progR_symm : progR.C.IsSymm ∧ ∀ a ∈ progR.all, a.1.IsSymm := by
  refine ⟨by unfold Matrix.IsSymm progR; rw [transpose_smul, transpose_one], fun a ha => ?_⟩
  simp only [Sdp.all, progR, List.nil_append, List.mem_singleton] at ha
  subst ha
  exact transpose_one

theorem progR_schur (k j : Fin progR.all.length) : schur (exactEnv 0) progR 1 1 k j = 1 := by
  have hk : ∀ k : Fin progR.all.length, progR.all[k].1 = 1 := fun k => by
    have : progR.all[k] ∈ progR.all := List.getElem_mem _
    simp only [Sdp.all, progR, List.nil_append, List.mem_singleton] at this
    simp only [Sdp.all, progR, List.nil_append]
    exact congrArg Prod.fst this
  have h1 : (1 : Mat 1 ℝ).IsSymm := transpose_one
  have hs : (exactEnv 0).syl 1 (1 * 1 + 1 * 1) = 1 :=
    lyapunov_unique pd_one ((exactEnv_exact 0).syl 1 _ pd_one (by rw [Matrix.one_mul]; exact h1.add h1)) rfl
  simp only [schur, row, hk, hs, upper_eq h1]
  simp [accu]

theorem solve_progR (r : Fin progR.all.length → ℝ) : ∃ d, (exactEnv 0).solve (schur (exactEnv 0) progR 1 1) r = some d := by
  refine ⟨_, dif_pos ⟨r, ?_⟩⟩
  funext k
  have hl : progR.all.length = 1 := rfl
  simp only [mulVec, dotProduct, progR_schur, one_mul]
  have : ∀ j : Fin progR.all.length, j = k := fun j => Fin.ext (by omega)
  have e : ∀ j ∈ (Finset.univ : Finset (Fin progR.all.length)), r j = r k := fun j _ => by rw [this j]
  rw [Finset.sum_congr rfl e, Finset.sum_const, Finset.card_univ, Fintype.card_fin, hl, one_smul]

/-- Hypotheses of C187, C189, C190 and C201: a run that converges after a step. -/
theorem progR_run : Exact (exactEnv 0) ∧ progR.C.IsSymm ∧ (∀ a ∈ progR.all, a.1.IsSymm) ∧
    ∃ (c : Params ℝ) (s : St 1 ℝ Unit progR.all.length), c.tau = 99 / 100 ∧
      optimize (exactEnv 0) c progR 1 () 1 (fun _ => 1) 1 = .done (.converged, s) := by
  refine ⟨exactEnv_exact 0, progR_symm.1, progR_symm.2, ?_⟩
  set env := exactEnv 0 with henv
  have he := exactEnv_exact 0
  have h1 : (1 : Mat 1 ℝ).IsSymm := transpose_one
  have kkt : ∀ rc : Mat 1 ℝ, rc.IsSymm → ∃ d, solveKKT env progR 1 (schur env progR 1 1) 1 (residual progR (upper 1))
      (upper progR.C - upper 1 - adjoint progR fun _ => 1) rc = some d ∧ d.dX.IsSymm ∧ d.dZ.IsSymm := by
    intro rc hrc
    obtain ⟨dy, hdy⟩ := solve_progR fun k => residual progR (upper 1) k + row progR k (upper (env.syl 1 ((2 : ℝ) •
      (fMul 1 (upper progR.C - upper 1 - adjoint progR fun _ => 1) - rc))))
    have : ∃ d, solveKKT env progR 1 (schur env progR 1 1) 1 (residual progR (upper 1))
        (upper progR.C - upper 1 - adjoint progR fun _ => 1) rc = some d := ⟨_, by
      simp only [solveKKT, Option.bind_eq_bind]
      rw [hdy]; rfl⟩
    obtain ⟨d, hd⟩ := this
    exact ⟨d, hd, (C187_kkt he progR progR_symm.2 h1 pd_one _
      (((upper_symm _).sub (upper_symm _)).sub (adjoint_symm _ _)) hrc hd).2.2.2⟩
  have al : ∀ d : Mat 1 ℝ, d.IsSymm → ∃ a, alpha env (99 / 100) 1 d = some a := fun d hd => by
    obtain ⟨a, ha, -⟩ := C188_alpha_partial he (tau := 99 / 100) (by norm_num) (by norm_num) pd_one hd
    exact ⟨a, ha⟩
  obtain ⟨d, hd, dx, dz⟩ := kkt _ (upper_symm (rcPredict 1 1))
  obtain ⟨a, ha⟩ := al _ dx
  obtain ⟨b, hb⟩ := al _ dz
  obtain ⟨d', hd', dx', dz'⟩ := kkt _ (upper_symm (rcCorrect (muOf (accu (upper 1) (upper 1)) 1 1 d.dX d.dZ a b) 1 1 d.dX d.dZ))
  obtain ⟨a', ha'⟩ := al _ dx'
  obtain ⟨b', hb'⟩ := al _ dz'
  let s0 := start env progR () 1 (fun _ => 1) 1
  let s1 := after env progR s0 d' a' b'
  refine ⟨⟨1000, 99 / 100, norm2 (entries (s1.x * s1.z)), norm2 (List.ofFn (residual progR s1.sx)),
    norm2 (entries (s1.z - progR.C + ∑ k, s1.y k • progR.all[k].1))⟩, s1, rfl, ?_⟩
  have hch : env.check 1 = true := (he.check 1 h1).2 pd_one
  unfold optimize
  rw [if_neg (by simp [hch]), if_neg (by simp [hch])]
  have hstep : step env ⟨1000, 99 / 100, norm2 (entries (s1.x * s1.z)), norm2 (List.ofFn (residual progR s1.sx)),
      norm2 (entries (s1.z - progR.C + ∑ k, s1.y k • progR.all[k].1))⟩ progR s0 = .inr (.converged, s1) := by
    unfold step
    rw [if_pos ⟨by simp [s0, start], rfl⟩]
    simp only [s0, start, henv, exactEnv] at hd ha hb hd' ha' hb' ⊢
    rw [hd]; simp only
    rw [ha]; simp only
    rw [hb]; simp only
    rw [hd']; simp only
    rw [ha']; simp only
    rw [hb']; simp only
    rw [update_eq, if_pos]
    · rfl
    · simp only [kktHolds, Bool.and_eq_true, decide_eq_true_eq]
      exact ⟨⟨le_refl _, le_refl _⟩, le_refl _⟩
  have hit : iterate (step env ⟨1000, 99 / 100, norm2 (entries (s1.x * s1.z)), norm2 (List.ofFn (residual progR s1.sx)),
      norm2 (entries (s1.z - progR.C + ∑ k, s1.y k • progR.all[k].1))⟩ progR) 1 (start env progR () 1 (fun _ => 1) 1) =
      some (.converged, s1) := by
    rw [iterate]
    rw [show step env _ progR (start env progR () 1 (fun _ => 1) 1) = _ from hstep]
  rw [hit]
  rfl

end Ens.PrimalDual
