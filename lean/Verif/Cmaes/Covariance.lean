import Verif.Cmaes.Params
import Mathlib.Algebra.Order.Star.Real

/-
C265: the covariance matrix stays symmetric positive semidefinite, the Cholesky loop ends after at most one
repair, the step size stays positive; the eigenvalue repair never changes the matrix of CMA-ES.
-/

namespace Ens.Cmaes.Numeric
open Matrix

variable {d : Nat}

theorem psd_iff {lib : Lib d} (ok : lib.Ok) (A : Mat d) (hA : A.IsHermitian) :
    A.PosSemidef ↔ ∀ i, 0 ≤ (lib.eig A).1 i := by
  have hm := ok.eig_mul A hA
  have ho := ok.eig_orth A hA
  generalize (lib.eig A).1 = ev at *
  generalize (lib.eig A).2 = U at *
  constructor
  · intro h i
    have h1 : (Uᵀ * A * U).PosSemidef := by
      have := h.conjTranspose_mul_mul_same U
      simpa [conjTranspose_eq_transpose_of_trivial] using this
    have e : Uᵀ * A * U = diagonal ev := by
      have e : Uᵀ * (U * diagonal ev * Uᵀ) * U = (Uᵀ * U) * diagonal ev * (Uᵀ * U) := by
        simp only [Matrix.mul_assoc]
      rw [hm, e, ho]; simp
    have h2 := (e ▸ h1).diag_nonneg (i := i)
    rwa [diagonal_apply_eq] at h2
  · intro h
    rw [hm]
    have := (PosSemidef.diagonal (R := ℝ) (d := ev) h).mul_mul_conjTranspose_same U
    simpa [conjTranspose_eq_transpose_of_trivial] using this

/-- What the repair does to a symmetric matrix: nothing if it is positive semidefinite, and otherwise everything is
erased, since the eigenvalues are in ascending order and the first one is negative. -/
theorem repair_eq {lib : Lib d} (ok : lib.Ok) (A : Mat d) (hA : A.IsHermitian) :
    (A.PosSemidef → repair lib A = A) ∧ (¬ A.PosSemidef → repair lib A = 0) := by
  have hiff := psd_iff ok A hA
  have hmono := ok.eig_mono A hA
  constructor
  · intro h
    have h0 := hiff.1 h
    have : firstNegative (lib.eig A).1 = none := by
      unfold firstNegative
      rw [List.find?_eq_none]
      intro i _
      simpa using h0 i
    simp [repair, this]
  · intro h
    rw [hiff] at h
    push Not at h
    obtain ⟨i, hi⟩ := h
    cases hf : firstNegative (lib.eig A).1 with
    | none =>
      unfold firstNegative at hf
      rw [List.find?_eq_none] at hf
      have := hf i (List.mem_finRange i)
      simp at this
      linarith
    | some k =>
      have hk0 : k.val = 0 := by
        unfold firstNegative at hf
        by_contra hne
        obtain ⟨-, as, bs, hl, has⟩ := List.find?_eq_some_iff_append.1 hf
        have hd0 : 0 < d := by omega
        have hz : (⟨0, hd0⟩ : Fin d) ∈ as := by
          have h0 : (List.finRange d)[0]? = some ⟨0, hd0⟩ := by simp [hd0]
          have hidx : as.length = k.val := by
            have h1 : (List.finRange d)[as.length]? = some k := by rw [hl]; simp
            rw [List.getElem?_eq_some_iff] at h1
            obtain ⟨hlt, h1⟩ := h1
            simp at h1
            rw [← h1]
          rw [hl, List.getElem?_append_left (by omega)] at h0
          exact List.mem_of_getElem? h0
        have h2 := has _ hz
        simp at h2
        have h3 := hmono (show (⟨0, hd0⟩ : Fin d) ≤ i from Nat.zero_le _)
        linarith
      simp [repair, hf, hk0]

theorem psd_eps {A : Mat d} (hA : A.PosSemidef) {eps : ℝ} (he : 0 < eps) : (A + eps • 1).PosDef :=
  PosDef.posSemidef_add hA (PosDef.one.smul he)

/-- The Cholesky loop on a positive semidefinite matrix. -/
theorem retry_psd {lib : Lib d} (ok : lib.Ok) {eps : ℝ} (he : 0 < eps) {A : Mat d} (hA : A.PosSemidef) :
    ∃ B L, (∀ k, retry lib eps (k + 2) A = some (B, L)) ∧ (B = A ∨ (¬ A.PosDef ∧ B = A + eps • 1)) ∧ B.PosDef ∧
      L * Lᵀ = B := by
  by_cases h : A.PosDef
  · have h1 := (ok.chol_posDef A hA.isHermitian).2 h
    obtain ⟨L, hL⟩ := Option.isSome_iff_exists.1 h1
    exact ⟨A, L, fun k => by simp [retry, hL], Or.inl rfl, h, ok.chol_some _ _ hL⟩
  · have h1 : lib.chol A = none := by
      have := mt (ok.chol_posDef A hA.isHermitian).1 h
      simpa using this
    have hp := psd_eps hA he
    have h2 := (ok.chol_posDef _ hp.isHermitian).2 hp
    obtain ⟨L, hL⟩ := Option.isSome_iff_exists.1 h2
    exact ⟨_, L, fun k => by simp [retry, h1, hL], Or.inr ⟨h, rfl⟩, hp, ok.chol_some _ _ hL⟩

/-- The invariant of a run. -/
structure Inv (c : Core d) : Prop where
  psd : c.C.PosSemidef
  sigma : 0 < c.sigma
  gen : 1 ≤ c.gen

theorem factor_spec {lib : Lib d} (ok : lib.Ok) {eps : ℝ} (he : 0 < eps) {c : Core d} (hc : Inv c) :
    (factor lib eps c).1.PosDef ∧ (factor lib eps c).2 * (factor lib eps c).2ᵀ = (factor lib eps c).1 ∧
      ((factor lib eps c).1 = c.C ∨ (¬ c.C.PosDef ∧ (factor lib eps c).1 = c.C + eps • 1)) ∧
      ∀ k, retry lib eps (k + 2) c.C = some (factor lib eps c) := by
  obtain ⟨B, L, h1, h2, h3, h4⟩ := retry_psd ok he hc.psd
  have hf : factor lib eps c = (B, L) := by simp only [factor, h1 0, Option.getD_some]
  rw [hf]
  exact ⟨h3, h4, h2, h1⟩

theorem psd_outer (v : Vec d) : (vecMulVec v v).PosSemidef := by
  simpa using posSemidef_vecMulVec_self_star (R := ℝ) v

theorem herm_outer (v : Vec d) : (vecMulVec v v).IsHermitian := (psd_outer v).isHermitian

theorem psd_foldl (l : List Nat) (a : Nat → ℝ) (y : Nat → Vec d) (ha : ∀ j ∈ l, 0 ≤ a j) :
    ∀ C : Mat d, C.PosSemidef → (l.foldl (fun A j => A + a j • vecMulVec (y j) (y j)) C).PosSemidef := by
  induction l with
  | nil => intro C h; exact h
  | cons j l ih =>
    intro C h
    rw [List.foldl_cons]
    refine ih (fun k hk => ha k (List.mem_cons_of_mem _ hk)) _ (h.add ((psd_outer _).smul ?_))
    exact ha j List.mem_cons_self

theorem cmaesCov_psd {mu : Nat} (hd : 1 ≤ d) (hmu : 1 ≤ mu) (i : Nat) (pn : ℝ) (pc step : Vec d) {C : Mat d}
    (hC : C.PosSemidef) (y : Nat → Vec d) : (cmaesCov d mu i pn pc step C y).2.PosSemidef := by
  have hn : (1 : ℝ) ≤ d := by exact_mod_cast hd
  have hm := muEffective_ge hmu
  have h1 := (c1_pos hn hm).le
  have h2 := cmu_nonneg hn hm
  have h3 := cmu_le (n := (d : ℝ)) (me := muEffective mu)
  have h4 : 0 ≤ 1 - c1Of d (muEffective mu) - cmuOf d (muEffective mu) := by linarith
  have h5 := cc_pos hn hm
  have h6 := cc_lt hn hm
  have h7 : 0 ≤ ccOf d (muEffective mu) * (2 - ccOf d (muEffective mu)) := by nlinarith
  have h8 : ∀ j ∈ List.range mu, 0 ≤ cmuOf d (muEffective mu) * weight mu j :=
    fun j hj => mul_nonneg h2 (weight_pos (List.mem_range.1 hj)).le
  unfold cmaesCov rankMu
  dsimp only
  split_ifs
  · exact psd_foldl _ (fun j => cmuOf d (muEffective mu) * weight mu j) y h8 _
      ((hC.smul h4).add ((psd_outer _).smul h1))
  · exact psd_foldl _ (fun j => cmuOf d (muEffective mu) * weight mu j) y h8 _
      ((hC.smul h4).add (((psd_outer _).add (hC.smul h7)).smul h1))

theorem herm_foldl_add (l : List Nat) (a : ℝ) (y : Nat → Vec d) :
    ∀ C : Mat d, C.IsHermitian → (l.foldl (fun A j => A + a • vecMulVec (y j) (y j)) C).IsHermitian := by
  induction l with
  | nil => intro C h; exact h
  | cons j l ih =>
    intro C h
    rw [List.foldl_cons]
    refine ih _ (h.add ?_)
    have := herm_outer (y j)
    rw [IsHermitian, conjTranspose_smul, this.eq]; simp

theorem herm_foldl_sub (l : List Nat) (a : ℝ) (y : Nat → Vec d) :
    ∀ C : Mat d, C.IsHermitian → (l.foldl (fun A j => A - a • vecMulVec (y j) (y j)) C).IsHermitian := by
  induction l with
  | nil => intro C h; exact h
  | cons j l ih =>
    intro C h
    rw [List.foldl_cons]
    refine ih _ (h.sub ?_)
    have := herm_outer (y j)
    rw [IsHermitian, conjTranspose_smul, this.eq]; simp

theorem herm_smul {A : Mat d} (h : A.IsHermitian) (a : ℝ) : (a • A).IsHermitian := by
  rw [IsHermitian, conjTranspose_smul, h.eq]; simp

theorem activeCov_herm (lambda mu i : Nat) (pn : ℝ) (pc step : Vec d) {C : Mat d} (hC : C.IsHermitian)
    (y : Nat → Vec d) : (activeCov d lambda mu i pn pc step C y).2.IsHermitian := by
  unfold activeCov
  dsimp only
  refine herm_foldl_sub _ _ (fun j => y (lambda - mu + j)) _ (herm_foldl_add _ _ _ _ ?_)
  exact (herm_smul hC _).add (herm_smul (herm_outer _) _)

theorem repair_psd {lib : Lib d} (ok : lib.Ok) {A : Mat d} (hA : A.IsHermitian) : (repair lib A).PosSemidef := by
  by_cases h : A.PosSemidef
  · rw [(repair_eq ok A hA).1 h]; exact h
  · rw [(repair_eq ok A hA).2 h]; exact PosSemidef.zero

theorem sigmaOf_pos (P : Par d) {s : ℝ} (hs : 0 < s) (pn : ℝ) : 0 < sigmaOf P s pn :=
  mul_pos hs (Real.exp_pos _)

/-- The covariance matrix computed in a generation, before the repair. -/
noncomputable def rawCov (lib : Lib d) (P : Par d) (eps : ℝ) (c : Core d) (z : Nat → Vec d) (objs : List ℝ) :
    Mat d :=
  let A := (factor lib eps c).1
  let y := ranked lib eps c z objs
  (P.cov c.gen (norm2 (psOf lib P A c.ps (stepOf P y))) c.pc (stepOf P y) A y).2

theorem next_C (lib : Lib d) (P : Par d) (eps : ℝ) (c : Core d) (z : Nat → Vec d) (objs : List ℝ) :
    (next lib P eps c z objs).C = repair lib (rawCov lib P eps c z objs) := rfl

theorem inv_next_cmaes {lib : Lib d} (ok : lib.Ok) {eps : ℝ} (he : 0 < eps) (hd : 1 ≤ d) {lambda : Nat}
    (hl : 2 ≤ lambda) {c : Core d} (hc : Inv c) (z : Nat → Vec d) (objs : List ℝ) :
    (rawCov lib (cmaes d lambda) eps c z objs).PosSemidef ∧ Inv (next lib (cmaes d lambda) eps c z objs) := by
  have hp : (rawCov lib (cmaes d lambda) eps c z objs).PosSemidef :=
    cmaesCov_psd hd (by omega) _ _ _ _ (factor_spec ok he hc).1.posSemidef _
  exact ⟨hp, by rw [next_C]; exact repair_psd ok hp.isHermitian, sigmaOf_pos _ hc.sigma _, by
    show 1 ≤ c.gen + 1; omega⟩

theorem inv_next_active {lib : Lib d} (ok : lib.Ok) {eps : ℝ} (he : 0 < eps) {lambda : Nat}
    {c : Core d} (hc : Inv c) (z : Nat → Vec d) (objs : List ℝ) :
    (rawCov lib (active d lambda) eps c z objs).IsHermitian ∧ Inv (next lib (active d lambda) eps c z objs) := by
  have hp : (rawCov lib (active d lambda) eps c z objs).IsHermitian :=
    activeCov_herm (d := d) lambda (lambda / 4) c.gen
      (norm2 (psOf lib (active d lambda) (factor lib eps c).1 c.ps (stepOf (active d lambda) (ranked lib eps c z objs))))
      c.pc (stepOf (active d lambda) (ranked lib eps c z objs)) (factor_spec ok he hc).1.isHermitian _
  exact ⟨hp, by rw [next_C]; exact repair_psd ok hp, sigmaOf_pos _ hc.sigma _, by show 1 ≤ c.gen + 1; omega⟩

theorem inv_init (x : Vec d) {sigma : ℝ} (hs : 0 < sigma) : Inv (Core.init x sigma) :=
  ⟨PosSemidef.one, hs, le_refl 1⟩

/-- A property of the numerical state kept by the adaptation holds at the end of every run. -/
theorem genLoop_inv {W M E C : Type} (env : Env W M E C) [LT E] [DecidableLT E] (sel : Select W M E)
    (lambda patience : Nat) (I : C → Prop) (hI : ∀ c objs, I c → I (env.adapt c objs)) :
    ∀ rem s e s', genLoop env sel lambda patience rem s = some (e, s') → I s.cov → I s'.cov := by
  intro rem
  induction rem with
  | zero =>
    intro s e s' h hs
    simp only [genLoop, Option.some.injEq, Prod.mk.injEq] at h
    rw [← h.2]; exact hs
  | succ rem ih =>
    intro s e s' h hs
    rw [genLoop] at h
    by_cases h1 : s.terminate = true
    · rw [if_pos h1] at h
      simp only [Option.some.injEq, Prod.mk.injEq] at h
      rw [← h.2]; exact hs
    · rw [if_neg h1] at h
      dsimp only at h
      cases hr : env.recombine s.cov (offspring env sel s.cov lambda 0 s.w).2.1 with
      | none => rw [hr] at h; simp at h
      | some mean =>
        rw [hr] at h
        dsimp only at h
        have h0 := hI s.cov (offspring env sel s.cov lambda 0 s.w).2.1 hs
        split_ifs at h
        all_goals first
          | exact ih _ _ _ h h0
          | (simp only [Option.some.injEq, Prod.mk.injEq] at h
             rw [← h.2]; exact h0)

/-! ### Runs -/

/-- What a user supplies to a run. -/
structure User (W : Type) (d : Nat) where
  transform : Vec d → Vec d
  evaluate : W → Vec d → Nat → Nat → W × ℝ
  cbEvaluate : W → Vec d → ℝ → W × Bool
  cbStep : W → Vec d → W × Bool
  cbBegin : W → Vec d → W

/-- Settings of a run: machine epsilon, tolerance, largest number, draws. -/
structure Conf (d : Nat) where
  eps : ℝ
  tol : ℝ
  maxVal : ℝ
  draws : Nat → Nat → Vec d

noncomputable def User.env {W : Type} (u : User W d) (lib : Lib d) (P : Par d) (k : Conf d) :
    Env W (Vec d) ℝ (Core d) :=
  Numeric.env lib P k.eps k.draws k.tol k.maxVal u.transform u.evaluate u.cbEvaluate u.cbStep u.cbBegin

/-- Numerical states reached in a run: those left after any number of generations of a run from `x` with starting
step size `sigma`. -/
def Reached {W : Type} (u : User W d) (lib : Lib d) (P : Par d) (k : Conf d) (sel : Select W (Vec d) ℝ)
    (n b patience : Nat) (sigma : ℝ) (w : W) (x : Vec d) (c : Core d) : Prop :=
  open scoped Classical in
  ∃ rem e s, genLoop (u.env lib P k) sel P.lambda patience rem (start (u.env lib P k) n b (Core.init x sigma) w x)
    = some (e, s) ∧ s.cov = c

theorem reached_inv {W : Type} {u : User W d} {lib : Lib d} {P : Par d} {k : Conf d} {sel : Select W (Vec d) ℝ}
    {n b patience : Nat} {sigma : ℝ} {w : W} {x : Vec d} {c : Core d}
    (hs : 0 < sigma) (hP : ∀ c z objs, Inv c → Inv (next lib P k.eps c z objs))
    (h : Reached u lib P k sel n b patience sigma w x c) : Inv c := by
  classical
  obtain ⟨rem, e, s, h, rfl⟩ := h
  exact genLoop_inv _ sel _ _ Inv (fun c objs hc => hP c _ objs hc) _ _ _ _ h (inv_init x hs)

/-- **C265**, CMA-ES: in every run, whatever the objective, the callbacks, the selection policy, the transformation
and the random numbers, at every generation: the covariance matrix is symmetric positive semidefinite and the
step size positive; the Cholesky loop ends, with the matrix itself or the matrix with epsilon added once to the diagonal
(only when it was singular), and gives a factor `L` with `L * Lᵀ` equal to that positive definite matrix; the
matrix computed at the end of the generation is positive semidefinite, so that the repair of negative
eigenvalues leaves it unchanged. -/
theorem C265_cmaes {W : Type} (u : User W d) (lib : Lib d) (ok : lib.Ok) (k : Conf d) (he : 0 < k.eps)
    (sel : Select W (Vec d) ℝ) (n b patience lambda : Nat) (hd : 1 ≤ d) (hl : 2 ≤ lambda) (sigma : ℝ) (hs : 0 < sigma)
    (w : W) (x : Vec d) (c : Core d)
    (h : Reached u lib (cmaes d lambda) k sel n b patience sigma w x c) :
    c.C.PosSemidef ∧ 0 < c.sigma ∧
      (∃ A L : Mat d, (∀ fuel, 2 ≤ fuel → retry lib k.eps fuel c.C = some (A, L)) ∧ A.PosDef ∧ L * Lᵀ = A ∧
        (A = c.C ∨ (¬ c.C.PosDef ∧ A = c.C + k.eps • 1))) ∧
      ∀ z objs, (rawCov lib (cmaes d lambda) k.eps c z objs).PosSemidef ∧
        (next lib (cmaes d lambda) k.eps c z objs).C = rawCov lib (cmaes d lambda) k.eps c z objs := by
  have hc : Inv c := reached_inv hs (fun c z objs hc => (inv_next_cmaes ok he hd hl hc z objs).2) h
  refine ⟨hc.psd, hc.sigma, ?_, fun z objs => ?_⟩
  · obtain ⟨h1, h2, h3, h4⟩ := factor_spec ok he hc
    refine ⟨(factor lib k.eps c).1, (factor lib k.eps c).2, fun fuel hf => ?_, h1, h2, h3⟩
    have := h4 (fuel - 2)
    rwa [show fuel - 2 + 2 = fuel by omega] at this
  · have hp := (inv_next_cmaes ok he hd hl hc z objs).1
    exact ⟨hp, by rw [next_C]; exact (repair_eq ok _ hp.isHermitian).1 hp⟩

/-- **C265**, Active CMA-ES: the same, except that the matrix computed at the end of a generation is only symmetric:
it may have negative eigenvalues, and is then repaired (see C269). -/
theorem C265_active {W : Type} (u : User W d) (lib : Lib d) (ok : lib.Ok) (k : Conf d) (he : 0 < k.eps)
    (sel : Select W (Vec d) ℝ) (n b patience lambda : Nat) (sigma : ℝ) (hs : 0 < sigma)
    (w : W) (x : Vec d) (c : Core d)
    (h : Reached u lib (active d lambda) k sel n b patience sigma w x c) :
    c.C.PosSemidef ∧ 0 < c.sigma ∧
      (∃ A L : Mat d, (∀ fuel, 2 ≤ fuel → retry lib k.eps fuel c.C = some (A, L)) ∧ A.PosDef ∧ L * Lᵀ = A ∧
        (A = c.C ∨ (¬ c.C.PosDef ∧ A = c.C + k.eps • 1))) ∧
      ∀ z objs, (rawCov lib (active d lambda) k.eps c z objs).IsHermitian := by
  have hc : Inv c := reached_inv hs (fun c z objs hc => (inv_next_active ok he hc z objs).2) h
  refine ⟨hc.psd, hc.sigma, ?_, fun z objs => (inv_next_active ok he hc z objs).1⟩
  obtain ⟨h1, h2, h3, h4⟩ := factor_spec ok he hc
  refine ⟨(factor lib k.eps c).1, (factor lib k.eps c).2, fun fuel hf => ?_, h1, h2, h3⟩
  have := h4 (fuel - 2)
  rwa [show fuel - 2 + 2 = fuel by omega] at this

end Ens.Cmaes.Numeric
