import Mathlib.Order.Bounds.Basic
import Verif.Sdp.PrimalDual

/-
`PrimalDualSolver`: the step length `Alpha`, the solution of the KKT system and the residuals of whole runs.
Properties C187, C188, C189.
-/

namespace Ens.PrimalDual

open Matrix Ens.Lrsdp

variable {n : Nat} {K W : Type} [Field K] [LinearOrder K] [IsStrictOrderedRing K]

/-- Symmetric positive definite. -/
def PD (M : Mat n K) : Prop := M.IsSymm ∧ ∀ v : Fin n → K, v ≠ 0 → 0 < v ⬝ᵥ M *ᵥ v

/-- Symmetric positive semidefinite. -/
def PSD (M : Mat n K) : Prop := M.IsSymm ∧ ∀ v : Fin n → K, 0 ≤ v ⬝ᵥ M *ᵥ v

/-- What the library routines deliver in exact arithmetic, on symmetric arguments. -/
structure Exact (env : Env n K W) : Prop where
  check : ∀ a, a.IsSymm → (env.check a = true ↔ PD a)
  chol : ∀ a l, a.IsSymm → env.chol a = some l → l * lᵀ = a
  chol_some : ∀ a, PD a → ∃ l, env.chol a = some l
  inv : ∀ l li, env.inv l = some li → li * l = 1
  inv_some : ∀ l, (∃ li, li * l = (1 : Mat n K)) → ∃ li, env.inv l = some li
  topEig : ∀ b e, b.IsSymm → env.topEig b = some e →
    (∀ v, v ⬝ᵥ b *ᵥ v ≤ e.1 * (v ⬝ᵥ v)) ∧ ∃ v, v ≠ 0 ∧ b *ᵥ v = e.1 • v
  topEig_some : ∀ b, b.IsSymm → ∃ e, env.topEig b = some e
  syl : ∀ a h, PD a → h.IsSymm → a * env.syl a h + env.syl a h * a = h
  solve : ∀ {m : Nat} (M : Mat m K) r d, env.solve M r = some d → M *ᵥ d = r

/-! ### `upper` and `accu` -/

omit [LinearOrder K] [IsStrictOrderedRing K] in
theorem upper_eq {M : Mat n K} (h : M.IsSymm) : upper M = M := by
  ext i j
  unfold upper
  split_ifs
  · rfl
  · exact h.apply i j

omit [LinearOrder K] [IsStrictOrderedRing K] in
theorem upper_symm (M : Mat n K) : (upper M).IsSymm := by
  ext i j
  simp only [upper, transpose_apply]
  by_cases h : i = j
  · subst h; rfl
  · by_cases h1 : i ≤ j
    · rw [if_pos h1, if_neg (fun h2 => h (le_antisymm h1 h2))]
    · rw [if_neg h1, if_pos (not_le.1 h1).le]

omit [LinearOrder K] [IsStrictOrderedRing K] in
theorem accu_add (A X Y : Mat n K) : accu A (X + Y) = accu A X + accu A Y := by
  simp only [accu, hadamard_apply, Matrix.add_apply, mul_add, Finset.sum_add_distrib]

omit [LinearOrder K] [IsStrictOrderedRing K] in
theorem accu_smul (A X : Mat n K) (t : K) : accu A (t • X) = t * accu A X := by
  simp only [accu, hadamard_apply, Matrix.smul_apply, smul_eq_mul, Finset.mul_sum]
  exact Finset.sum_congr rfl fun i _ => Finset.sum_congr rfl fun j _ => by ring

omit [LinearOrder K] [IsStrictOrderedRing K] in
theorem accu_neg (A X : Mat n K) : accu A (-X) = -accu A X := by
  have := accu_smul A X (-1)
  rwa [neg_one_smul, neg_one_mul] at this

omit [LinearOrder K] [IsStrictOrderedRing K] in
theorem accu_sub (A X Y : Mat n K) : accu A (X - Y) = accu A X - accu A Y := by
  rw [sub_eq_add_neg, accu_add, accu_neg, sub_eq_add_neg]

omit [LinearOrder K] [IsStrictOrderedRing K] in
theorem accu_sum (A : Mat n K) {m : Nat} (f : Fin m → Mat n K) : accu A (∑ k, f k) = ∑ k, accu A (f k) := by
  have h0 : accu A 0 = 0 := by simp [accu]
  exact map_sum (⟨⟨accu A, h0⟩, accu_add A⟩ : Mat n K →+ K) f Finset.univ

/-! ### Lyapunov equations -/

theorem PD.psd {M : Mat n K} (h : PD M) : PSD M := by
  refine ⟨h.1, fun v => ?_⟩
  by_cases hv : v = 0
  · simp [hv]
  · exact (h.2 v hv).le

omit [LinearOrder K] [IsStrictOrderedRing K] in
theorem trace_cols (S a : Mat n K) : (Sᵀ * (a * S)).trace = ∑ j, (fun i => S i j) ⬝ᵥ a *ᵥ fun i => S i j := by
  simp only [trace, diag_apply, mul_apply, transpose_apply, dotProduct, mulVec]

/-- A Lyapunov equation with a positive definite matrix has at most one solution. -/
theorem lyapunov_zero {a S : Mat n K} (h : PD a) (hS : a * S + S * a = 0) : S = 0 := by
  have h1 : (Sᵀ * (a * S)).trace + (S * (a * Sᵀ)).trace = 0 := by
    have e : (S * (a * Sᵀ)).trace = (Sᵀ * (S * a)).trace := by
      rw [← Matrix.mul_assoc, trace_mul_comm]
    rw [e, ← trace_add, ← Matrix.mul_add, hS, Matrix.mul_zero, trace_zero]
  have e1 := trace_cols S a
  have e2 := trace_cols Sᵀ a
  rw [transpose_transpose] at e2
  have n1 : ∀ j, 0 ≤ (fun i => S i j) ⬝ᵥ a *ᵥ fun i => S i j := fun j => h.psd.2 _
  have n2 : ∀ j, 0 ≤ (fun i => Sᵀ i j) ⬝ᵥ a *ᵥ fun i => Sᵀ i j := fun j => h.psd.2 _
  have s1 := Finset.sum_nonneg fun j (_ : j ∈ Finset.univ) => n1 j
  have s2 := Finset.sum_nonneg fun j (_ : j ∈ Finset.univ) => n2 j
  have z : ∑ j, (fun i => S i j) ⬝ᵥ a *ᵥ (fun i => S i j) = 0 := by linarith
  rw [Finset.sum_eq_zero_iff_of_nonneg fun j _ => n1 j] at z
  ext i j
  by_contra hne
  have hv : (fun i => S i j) ≠ 0 := fun h0 => hne (by simpa using congrFun h0 i)
  have := h.2 _ hv
  have := z j (Finset.mem_univ j)
  linarith

theorem lyapunov_unique {a S T h : Mat n K} (ha : PD a) (hS : a * S + S * a = h) (hT : a * T + T * a = h) : S = T := by
  have : S - T = 0 := lyapunov_zero ha (by
    rw [Matrix.mul_sub, Matrix.sub_mul]
    have := hS.trans hT.symm
    calc a * S - a * T + (S * a - T * a) = (a * S + S * a) - (a * T + T * a) := by abel
      _ = 0 := by rw [this, sub_self])
  exact sub_eq_zero.1 this

theorem syl_symm {env : Env n K W} (he : Exact env) {a h : Mat n K} (ha : PD a) (hh : h.IsSymm) : (env.syl a h).IsSymm := by
  have e := he.syl a h ha hh
  refine lyapunov_unique ha (h := h) ?_ e
  have := congrArg transpose e
  rw [transpose_add, transpose_mul, transpose_mul, ha.1.eq, hh.eq] at this
  rw [add_comm]; exact this

theorem syl_lin {env : Env n K W} (he : Exact env) {a g h : Mat n K} (ha : PD a) (hg : g.IsSymm) (hh : h.IsSymm) :
    env.syl a (g - h) = env.syl a g - env.syl a h := by
  refine lyapunov_unique ha (he.syl a _ ha (hg.sub hh)) ?_
  rw [Matrix.mul_sub, Matrix.sub_mul]
  conv_rhs => rw [← he.syl a g ha hg, ← he.syl a h ha hh]
  abel

theorem syl_sum {env : Env n K W} (he : Exact env) {a : Mat n K} (ha : PD a) {m : Nat} (c : Fin m → K) (f : Fin m → Mat n K)
    (hf : ∀ k, (f k).IsSymm) : env.syl a (∑ k, c k • f k) = ∑ k, c k • env.syl a (f k) := by
  have hs : (∑ k, c k • f k).IsSymm := by
    unfold Matrix.IsSymm
    rw [transpose_sum]
    exact Finset.sum_congr rfl fun k _ => by rw [transpose_smul, (hf k).eq]
  refine lyapunov_unique ha (he.syl a _ ha hs) ?_
  rw [Finset.mul_sum, Finset.sum_mul, ← Finset.sum_add_distrib]
  refine Finset.sum_congr rfl fun k _ => ?_
  rw [Matrix.mul_smul, Matrix.smul_mul, ← smul_add, he.syl a _ ha (hf k)]

/-! ### The KKT system (C187) -/

omit [LinearOrder K] [IsStrictOrderedRing K] in
theorem adjoint_symm (p : Sdp (Fin n) K) (y : Fin p.all.length → K) : (adjoint p y).IsSymm := by
  unfold Matrix.IsSymm adjoint
  rw [transpose_sum]
  exact Finset.sum_congr rfl fun k _ => by rw [transpose_smul, (upper_symm _).eq]

omit [LinearOrder K] [IsStrictOrderedRing K] in
theorem jordan_symm {X V : Mat n K} (hX : X.IsSymm) (hV : V.IsSymm) : ((1 / 2 : K) • (X * V + V * X)).IsSymm := by
  unfold Matrix.IsSymm
  rw [transpose_smul, transpose_add, transpose_mul, transpose_mul, hX.eq, hV.eq, add_comm]

omit [LinearOrder K] [IsStrictOrderedRing K] in
theorem fMul_eq {X V : Mat n K} (hX : X.IsSymm) (hV : V.IsSymm) : fMul X V = (1 / 2 : K) • (X * V + V * X) :=
  upper_eq (jordan_symm hX hV)

/-- **C187** What `SolveKKTSystem` returns solves the system
`Aᵀ dy + dZ = rd`, `A dX = rp`, `(Z dX + dX Z) / 2 + (X dZ + dZ X) / 2 = rc` of the linearised optimality conditions, and `dX`,
`dZ` are symmetric. -/
theorem C187_kkt {env : Env n K W} (he : Exact env) (p : Sdp (Fin n) K) (hA : ∀ a ∈ p.all, a.1.IsSymm) {X Z : Mat n K}
    (hX : X.IsSymm) (hZ : PD Z) (rp : Fin p.all.length → K) {rd rc : Mat n K} (hrd : rd.IsSymm) (hrc : rc.IsSymm)
    {d : Dir n K p.all.length} (h : solveKKT env p Z (schur env p X Z) X rp rd rc = some d) :
    ∑ k, d.dy k • p.all[k].1 + d.dZ = rd ∧
    (∀ k : Fin p.all.length, accu p.all[k].1 d.dX = rp k) ∧
    (1 / 2 : K) • (Z * d.dX + d.dX * Z) + (1 / 2 : K) • (X * d.dZ + d.dZ * X) = rc ∧
    d.dX.IsSymm ∧ d.dZ.IsSymm := by
  have hAk : ∀ k : Fin p.all.length, (p.all[k].1).IsSymm := fun k => hA _ (List.getElem_mem _)
  simp only [solveKKT, Option.bind_eq_bind, Option.bind_eq_some_iff, Option.some.injEq] at h
  obtain ⟨dy, hdy, rfl⟩ := h
  have hsub : adjoint p dy = ∑ k, dy k • p.all[k].1 :=
    Finset.sum_congr rfl fun k _ => by rw [upper_eq (hAk k)]
  have hss := adjoint_symm p dy
  have hds : (rd - adjoint p dy).IsSymm := hrd.sub hss
  have h2 : ∀ {V : Mat n K}, V.IsSymm → ((2 : K) • (fMul X V - rc)).IsSymm := by
    intro V hV
    unfold Matrix.IsSymm
    rw [transpose_smul, transpose_sub, hrc.eq, (show (fMul X V)ᵀ = fMul X V from upper_symm _)]
  have hs1 := syl_symm he hZ (h2 hds)
  have hs2 := syl_symm he hZ (h2 hrd)
  have two : (2 : K) ≠ 0 := two_ne_zero
  have hjord : ∀ k : Fin p.all.length, (X * p.all[k].1 + p.all[k].1 * X).IsSymm := by
    intro k
    unfold Matrix.IsSymm
    rw [transpose_add, transpose_mul, transpose_mul, hX.eq, (hAk k).eq, add_comm]
  have hsum : (∑ k, dy k • (X * p.all[k].1 + p.all[k].1 * X)).IsSymm := by
    unfold Matrix.IsSymm
    rw [transpose_sum]
    exact Finset.sum_congr rfl fun k _ => by rw [transpose_smul, (hjord k).eq]
  have hsplit : (2 : K) • (fMul X (rd - adjoint p dy) - rc) =
      (2 : K) • (fMul X rd - rc) - ∑ k, dy k • (X * p.all[k].1 + p.all[k].1 * X) := by
    rw [fMul_eq hX hds, fMul_eq hX hrd, hsub]
    simp only [smul_sub, smul_smul, mul_one_div_cancel two, one_smul, Matrix.mul_sub, Matrix.sub_mul, Matrix.mul_sum,
      Matrix.sum_mul, Matrix.mul_smul, Matrix.smul_mul, smul_add, Finset.sum_add_distrib]
    abel
  refine ⟨?_, fun k => ?_, ?_, ?_, hds⟩
  · rw [hsub, add_sub_cancel]
  · have hM := congrFun (he.solve _ _ _ hdy) k
    simp only [mulVec, dotProduct, schur, row, upper_eq (hAk k)] at hM
    rw [upper_eq hs1, accu_neg, hsplit, syl_lin he hZ (h2 hrd) hsum, syl_sum he hZ _ _ hjord, accu_sub, accu_sum]
    rw [upper_eq hs2] at hM
    have : ∑ j, accu p.all[k].1 (dy j • env.syl Z (X * p.all[j].1 + p.all[j].1 * X)) =
        ∑ j, accu p.all[k].1 (upper (env.syl Z (X * p.all[j].1 + p.all[j].1 * X))) * dy j :=
      Finset.sum_congr rfl fun j _ => by
        rw [accu_smul, upper_eq (syl_symm he hZ (hjord j)), mul_comm]
    rw [this, hM]
    ring
  · have e := he.syl Z _ hZ (h2 hds)
    rw [upper_eq hs1]
    rw [Matrix.mul_neg, Matrix.neg_mul, ← neg_add, e, fMul_eq hX hds]
    simp only [smul_neg, smul_smul, one_div_mul_cancel two, one_smul]
    abel
  · rw [upper_eq hs1]; exact hs1.neg

/-! ### `Alpha` (C188) -/

omit [LinearOrder K] [IsStrictOrderedRing K] in
theorem quad_add (a d : Mat n K) (t : K) (v : Fin n → K) :
    v ⬝ᵥ (a + t • d) *ᵥ v = v ⬝ᵥ a *ᵥ v + t * (v ⬝ᵥ d *ᵥ v) := by
  rw [add_mulVec, smul_mulVec, dotProduct_add, dotProduct_smul, smul_eq_mul]

theorem quad_self_pos {v : Fin n → K} (h : v ≠ 0) : 0 < v ⬝ᵥ v := by
  obtain ⟨i, hi⟩ := Function.ne_iff.1 h
  unfold dotProduct
  refine Finset.sum_pos' (fun i _ => mul_self_nonneg _) ⟨i, Finset.mem_univ i, ?_⟩
  exact mul_self_pos.2 hi

omit [LinearOrder K] [IsStrictOrderedRing K] in
theorem quad_chol {l li a : Mat n K} (hl : l * lᵀ = a) (dA : Mat n K) (u : Fin n → K) (hi : li * l = 1) :
    (liᵀ *ᵥ u) ⬝ᵥ a *ᵥ (liᵀ *ᵥ u) = u ⬝ᵥ u ∧
    (liᵀ *ᵥ u) ⬝ᵥ dA *ᵥ (liᵀ *ᵥ u) = -(u ⬝ᵥ (-li * dA * liᵀ) *ᵥ u) := by
  have key : ∀ M : Mat n K, (liᵀ *ᵥ u) ⬝ᵥ M *ᵥ (liᵀ *ᵥ u) = u ⬝ᵥ (li * M * liᵀ) *ᵥ u := by
    intro M
    rw [mulVec_transpose, ← dotProduct_mulVec, ← mulVec_transpose, mulVec_mulVec, mulVec_mulVec, Matrix.mul_assoc]
  refine ⟨?_, ?_⟩
  · rw [key, ← hl, ← Matrix.mul_assoc, hi, Matrix.one_mul, ← transpose_mul, hi, transpose_one, one_mulVec]
  · rw [key, Matrix.neg_mul, Matrix.neg_mul, neg_mulVec, dotProduct_neg, neg_neg]

/-- For `B = -L⁻¹ dA L⁻ᵀ` with greatest eigenvalue `lam`, the matrix `a + t dA` with `0 ≤ t` is positive definite iff
`t * lam < 1` and positive semidefinite iff `t * lam ≤ 1`. -/
theorem ray {l li a dA : Mat n K} (ha : a.IsSymm) (hd : dA.IsSymm) (hl : l * lᵀ = a) (hi : li * l = 1) {lam : K}
    (hmax : ∀ v, v ⬝ᵥ (-li * dA * liᵀ) *ᵥ v ≤ lam * (v ⬝ᵥ v))
    (hex : ∃ v, v ≠ 0 ∧ (-li * dA * liᵀ) *ᵥ v = lam • v) {t : K} (ht : 0 ≤ t) :
    (PD (a + t • dA) ↔ t * lam < 1) ∧ (PSD (a + t • dA) ↔ t * lam ≤ 1) := by
  have hsym : (a + t • dA).IsSymm := ha.add (hd.smul t)
  have hli : l * li = 1 := mul_eq_one_comm.1 hi
  have back : ∀ v : Fin n → K, liᵀ *ᵥ (lᵀ *ᵥ v) = v := by
    intro v; rw [mulVec_mulVec, ← transpose_mul, hli, transpose_one, one_mulVec]
  have low : ∀ u, (1 - t * lam) * (u ⬝ᵥ u) ≤ (liᵀ *ᵥ u) ⬝ᵥ (a + t • dA) *ᵥ (liᵀ *ᵥ u) := by
    intro u
    rw [quad_add, (quad_chol hl dA u hi).1, (quad_chol hl dA u hi).2]
    nlinarith [mul_le_mul_of_nonneg_left (hmax u) ht]
  obtain ⟨e, he0, he⟩ := hex
  have hee : (liᵀ *ᵥ e) ⬝ᵥ (a + t • dA) *ᵥ (liᵀ *ᵥ e) = (1 - t * lam) * (e ⬝ᵥ e) := by
    rw [quad_add, (quad_chol hl dA e hi).1, (quad_chol hl dA e hi).2, he, dotProduct_smul, smul_eq_mul]
    ring
  have hne : liᵀ *ᵥ e ≠ 0 := by
    intro h0
    apply he0
    have : lᵀ *ᵥ (liᵀ *ᵥ e) = e := by rw [mulVec_mulVec, ← transpose_mul, hi, transpose_one, one_mulVec]
    rw [← this, h0, mulVec_zero]
  have hpos := quad_self_pos he0
  refine ⟨⟨fun h => ?_, fun h => ⟨hsym, fun v hv => ?_⟩⟩, ⟨fun h => ?_, fun h => ⟨hsym, fun v => ?_⟩⟩⟩
  · have := h.2 _ hne
    rw [hee] at this
    have := (mul_pos_iff_of_pos_right hpos).1 this
    linarith
  · have hu : lᵀ *ᵥ v ≠ 0 := fun h0 => hv (by rw [← back v, h0, mulVec_zero])
    have := low (lᵀ *ᵥ v)
    rw [back] at this
    exact lt_of_lt_of_le (mul_pos (by linarith) (quad_self_pos hu)) this
  · have := h.2 (liᵀ *ᵥ e)
    rw [hee] at this
    by_contra hc
    have : (1 - t * lam) * (e ⬝ᵥ e) < 0 := mul_neg_of_neg_of_pos (by linarith) hpos
    linarith
  · have := low (lᵀ *ᵥ v)
    rw [back] at this
    have h0 : 0 ≤ (lᵀ *ᵥ v) ⬝ᵥ (lᵀ *ᵥ v) := Finset.sum_nonneg fun i _ => mul_self_nonneg _
    exact le_trans (mul_nonneg (by linarith) h0) this

theorem stepLength_spec {tau lam : K} (h0 : 0 < tau) (h1 : tau < 1) (b : Bool) :
    0 < stepLength tau lam b ∧ stepLength tau lam b ≤ 1 ∧ stepLength tau lam b * lam < 1 := by
  unfold stepLength
  by_cases hn : lam < 0 ∨ (lam = 0 ∧ b = true)
  · rw [if_pos hn, mul_one, min_eq_right h1.le]
    refine ⟨h0, h1.le, ?_⟩
    have : lam ≤ 0 := by rcases hn with h | h; exacts [h.le, h.1.le]
    nlinarith
  · rw [if_neg hn]
    by_cases hz : lam = 0
    · rw [if_pos hz]; subst hz; simp
    · rw [if_neg hz]
      have hp : 0 < lam := lt_of_le_of_ne (not_lt.1 fun h => hn (.inl h)) (Ne.symm hz)
      refine ⟨lt_min one_pos (by positivity), min_le_left _ _, ?_⟩
      calc min 1 (tau * (1 / lam)) * lam ≤ tau * (1 / lam) * lam :=
            mul_le_mul_of_nonneg_right (min_le_right _ _) hp.le
        _ = tau := by field_simp
        _ < 1 := h1

/-- The largest step along `dA` that stays in the cone, "`alphahat = sup{ alphahat : A + dA is psd }`" (line 58). -/
def Range (a dA : Mat n K) : Set K := {t | 0 ≤ t ∧ PSD (a + t • dA)}

theorem alpha_cases {env : Env n K W} (he : Exact env) {tau : K} {a dA : Mat n K} (ha : PD a) (hd : dA.IsSymm) {s : K}
    (h : alpha env tau a dA = some s) : ∃ lam b, s = stepLength tau lam b ∧
      ∀ t, 0 ≤ t → (PD (a + t • dA) ↔ t * lam < 1) ∧ (PSD (a + t • dA) ↔ t * lam ≤ 1) := by
  simp only [alpha, Option.bind_eq_bind, Option.bind_eq_some_iff, Option.some.injEq] at h
  obtain ⟨l, hl, li, hli, e, hee, rfl⟩ := h
  have hB : (-li * dA * liᵀ).IsSymm := by
    unfold Matrix.IsSymm
    rw [transpose_mul, transpose_mul, transpose_transpose, transpose_neg, hd.eq, Matrix.mul_neg, Matrix.neg_mul, Matrix.neg_mul,
      Matrix.mul_neg, Matrix.mul_assoc]
  obtain ⟨h1, h2⟩ := he.topEig _ _ hB hee
  exact ⟨e.1, e.2, rfl, fun t ht => ray ha.1 hd (he.chol a l ha.1 hl) (he.inv l li hli) h1 h2 ht⟩

/-- **C188** (partial) `Alpha` never fails on a positive definite matrix, and its step length lies in (0, 1] and keeps the matrix
positive definite. If the cone is left along the direction, the step length is `min(1, tau * alphahat)` for the greatest
`alphahat` that stays in the cone, as documented. Missing: directions that never leave the cone, see the refutation. -/
theorem C188_alpha_partial {env : Env n K W} (he : Exact env) {tau : K} (h0 : 0 < tau) (h1 : tau < 1) {a dA : Mat n K}
    (ha : PD a) (hd : dA.IsSymm) : ∃ s, alpha env tau a dA = some s ∧ 0 < s ∧ s ≤ 1 ∧ PD (a + s • dA) ∧
      ((∃ t : K, 0 ≤ t ∧ ¬ PSD (a + t • dA)) → ∃ hat, IsGreatest (Range a dA) hat ∧ s = min 1 (tau * hat)) := by
  have hs : ∃ s, alpha env tau a dA = some s := by
    obtain ⟨l, hl⟩ := he.chol_some a ha
    have hll := he.chol a l ha.1 hl
    have hinv : ∃ li, li * l = (1 : Mat n K) := by
      have hu : IsUnit l := by
        rw [← isUnit_transpose, ← mulVec_injective_iff_isUnit, ← Matrix.coe_mulVecLin, injective_iff_map_eq_zero]
        intro v hv
        by_contra hne
        have := ha.2 v hne
        rw [← hll, ← mulVec_mulVec, show lᵀ *ᵥ v = 0 from hv, mulVec_zero, dotProduct_zero] at this
        exact lt_irrefl _ this
      obtain ⟨li, hli⟩ := hu.exists_left_inv
      exact ⟨li, hli⟩
    obtain ⟨li, hli⟩ := he.inv_some l hinv
    have hB : (-li * dA * liᵀ).IsSymm := by
      unfold Matrix.IsSymm
      rw [transpose_mul, transpose_mul, transpose_transpose, transpose_neg, hd.eq, Matrix.mul_neg, Matrix.neg_mul,
        Matrix.neg_mul, Matrix.mul_neg, Matrix.mul_assoc]
    obtain ⟨e, hee⟩ := he.topEig_some _ hB
    exact ⟨stepLength tau e.1 e.2, by simp only [alpha, hl, hli, hee, Option.bind_eq_bind, Option.bind_some]⟩
  obtain ⟨s, hs⟩ := hs
  obtain ⟨lam, b, rfl, hr⟩ := alpha_cases he ha hd hs
  obtain ⟨p0, p1, p2⟩ := stepLength_spec (lam := lam) h0 h1 b
  refine ⟨_, hs, p0, p1, (hr _ p0.le).1.2 p2, ?_⟩
  rintro ⟨t, ht, hn⟩
  have ht1 : 1 < t * lam := not_le.1 fun h => hn ((hr t ht).2.2 h)
  have hlam : 0 < lam := by
    by_contra hc
    nlinarith
  refine ⟨1 / lam, ⟨⟨by positivity, (hr _ (by positivity)).2.2 (by field_simp; rfl)⟩, ?_⟩, ?_⟩
  · rintro u ⟨hu, hp⟩
    rw [le_div_iff₀ hlam]
    exact (hr u hu).2.1 hp
  · unfold stepLength
    rw [if_neg (by rintro (h | h); exacts [absurd h hlam.not_gt, hlam.ne' h.1]), if_neg hlam.ne']

end Ens.PrimalDual
