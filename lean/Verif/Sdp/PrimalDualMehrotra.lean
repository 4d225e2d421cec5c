import Verif.Sdp.PrimalDualExact
import Verif.Sdp.PrimalDualTrace

/-
`PrimalDualSolver`: every run is a sequence of predictor-corrector steps (C201).
-/

namespace Ens.PrimalDual

open Matrix Ens.Lrsdp

variable {n : Nat} {K W : Type} [Field K] [LinearOrder K]

/-- Primal iterate, multipliers, dual iterate. -/
abbrev Point (n : Nat) (K : Type) (m : Nat) := Mat n K × (Fin m → K) × Mat n K

/-- `d` solves the optimality conditions linearised at `u`, with right-hand side `R` for the complementarity. -/
structure Newton (p : Sdp (Fin n) K) (u : Point n K p.all.length) (R : Mat n K) (d : Dir n K p.all.length) : Prop where
  dual : ∑ k, d.dy k • p.all[k].1 + d.dZ = p.C - u.2.2 - ∑ k, u.2.1 k • p.all[k].1
  primal : ∀ k : Fin p.all.length, accu p.all[k].1 d.dX = p.all[k].2 - accu p.all[k].1 u.1
  compl : (1 / 2 : K) • (u.2.2 * d.dX + d.dX * u.2.2) + (1 / 2 : K) • (u.1 * d.dZ + d.dZ * u.1) = R
  symmX : d.dX.IsSymm
  symmZ : d.dZ.IsSymm

/-- A step length: in (0, 1], inside the cone, and the fraction `tau` of the way to the boundary if there is one. -/
structure Length (tau : K) (a dA : Mat n K) (s : K) : Prop where
  pos : 0 < s
  le_one : s ≤ 1
  inside : PD (a + s • dA)
  fraction : (∃ t : K, 0 ≤ t ∧ ¬ PSD (a + t • dA)) → ∃ hat, IsGreatest (Range a dA) hat ∧ s = min 1 (tau * hat)

/-- A predictor-corrector step from `u` to `v`: the predictor aims at complementarity, the centering weight is the cube of the
factor by which it would reduce `⟨X, Z⟩`, and the corrector includes the second-order term of the predictor. -/
def Mehrotra (p : Sdp (Fin n) K) (tau : K) (u v : Point n K p.all.length) : Prop :=
  ∃ (d d' : Dir n K p.all.length) (a b a' b' : K),
    Newton p u (-((1 / 2 : K) • (u.1 * u.2.2 + u.2.2 * u.1))) d ∧ Length tau u.1 d.dX a ∧ Length tau u.2.2 d.dZ b ∧
    Newton p u ((((accu (u.1 + a • d.dX) (u.2.2 + b • d.dZ)) / accu u.1 u.2.2) ^ 3 * (accu u.1 u.2.2 / n)) • (1 : Mat n K) -
      (1 / 2 : K) • (u.1 * u.2.2 + u.2.2 * u.1) - (1 / 2 : K) • (d.dX * d.dZ + d.dZ * d.dX)) d' ∧
    Length tau u.1 d'.dX a' ∧ Length tau u.2.2 d'.dZ b' ∧
    v = (u.1 + a' • d'.dX, u.2.1 + b' • d'.dy, u.2.2 + b' • d'.dZ)

/-- `k` steps of a relation. -/
inductive Steps {α : Type} (R : α → α → Prop) : Nat → α → α → Prop
  | zero (u : α) : Steps R 0 u u
  | snoc {k : Nat} {u v w : α} : Steps R k u v → R v w → Steps R (k + 1) u w

theorem step_took (env : Env n K W) (c : Params K) (p : Sdp (Fin n) K) (s s' : St n K W p.all.length)
    (h : step env c p s = .inl s' ∨ step env c p s = .inr (.converged, s')) :
    ∃ (d d' : Dir n K p.all.length) (a b a' b' : K),
      solveKKT env p s.z (schur env p s.x s.z) s.x (residual p s.sx) (upper p.C - s.sz - adjoint p s.y)
        (upper (rcPredict s.x s.z)) = some d ∧
      alpha env c.tau s.x d.dX = some a ∧ alpha env c.tau s.z d.dZ = some b ∧
      solveKKT env p s.z (schur env p s.x s.z) s.x (residual p s.sx) (upper p.C - s.sz - adjoint p s.y)
        (upper (rcCorrect (muOf (accu s.sx s.sz) s.x s.z d.dX d.dZ a b) s.x s.z d.dX d.dZ)) = some d' ∧
      alpha env c.tau s.x d'.dX = some a' ∧ alpha env c.tau s.z d'.dZ = some b' ∧ s' = after env p s d' a' b' := by
  unfold step at h
  by_cases hc : s.iteration ≠ c.maxIterations ∧ s.terminate = false
  · rw [if_pos hc] at h
    simp only at h
    cases h1 : solveKKT env p s.z (schur env p s.x s.z) s.x (residual p s.sx) (upper p.C - s.sz - adjoint p s.y)
        (upper (rcPredict s.x s.z)) with
    | none => rw [h1] at h; simp at h
    | some d =>
      rw [h1] at h; simp only at h
      cases h2 : alpha env c.tau s.x d.dX with
      | none => rw [h2] at h; simp at h
      | some a =>
        rw [h2] at h; simp only at h
        cases h3 : alpha env c.tau s.z d.dZ with
        | none => rw [h3] at h; simp at h
        | some b =>
          rw [h3] at h; simp only at h
          cases h4 : solveKKT env p s.z (schur env p s.x s.z) s.x (residual p s.sx) (upper p.C - s.sz - adjoint p s.y)
              (upper (rcCorrect (muOf (accu s.sx s.sz) s.x s.z d.dX d.dZ a b) s.x s.z d.dX d.dZ)) with
          | none => rw [h4] at h; simp at h
          | some d' =>
            rw [h4] at h; simp only at h
            cases h5 : alpha env c.tau s.x d'.dX with
            | none => rw [h5] at h; simp at h
            | some a' =>
              rw [h5] at h; simp only at h
              cases h6 : alpha env c.tau s.z d'.dZ with
              | none => rw [h6] at h; simp at h
              | some b' =>
                rw [h6] at h
                simp only [update_eq] at h
                refine ⟨d, d', a, b, a', b', rfl, h2, h3, h4, h5, h6, ?_⟩
                split_ifs at h
                · exact (by simpa using h : _ = s').symm
                · exact (by simpa using h : _ = s').symm
  · rw [if_neg hc] at h
    simp at h

variable [IsStrictOrderedRing K]

theorem newton_of {env : Env n K W} (he : Exact env) (p : Sdp (Fin n) K) (hC : p.C.IsSymm) (hA : ∀ a ∈ p.all, a.1.IsSymm)
    {x₀ z₀ : Mat n K} {y₀ : Fin p.all.length → K} {s : St n K W p.all.length} (hs : Good p x₀ y₀ z₀ s) {rc : Mat n K}
    (hrc : rc.IsSymm) {d : Dir n K p.all.length}
    (hd : solveKKT env p s.z (schur env p s.x s.z) s.x (residual p s.sx) (upper p.C - s.sz - adjoint p s.y) (upper rc) = some d) :
    Newton p (s.x, s.y, s.z) rc d := by
  have hAk : ∀ k : Fin p.all.length, (p.all[k].1).IsSymm := fun k => hA _ (List.getElem_mem _)
  have hadj : adjoint p s.y = ∑ k, s.y k • p.all[k].1 := Finset.sum_congr rfl fun k _ => by rw [upper_eq (hAk k)]
  have hrds : (upper p.C - s.sz - adjoint p s.y).IsSymm := by
    rw [hs.sz]
    exact ((upper_symm _).sub hs.z.1).sub (adjoint_symm p _)
  obtain ⟨k1, k2, k3, hX, hZ⟩ := C187_kkt he p hA hs.x.1 hs.z _ hrds (upper_symm rc) hd
  refine ⟨?_, ?_, ?_, hX, hZ⟩
  · rw [k1, upper_eq hC, hs.sz, hadj]
  · intro k
    rw [k2 k]
    simp only [residual, row, upper_eq (hAk k), hs.sx]
  · rw [upper_eq hrc] at k3
    exact k3

theorem length_of {env : Env n K W} (he : Exact env) {tau : K} (h0 : 0 < tau) (h1 : tau < 1) {a dA : Mat n K} (ha : PD a)
    (hd : dA.IsSymm) {t : K} (h : alpha env tau a dA = some t) : Length tau a dA t := by
  obtain ⟨s, hs, h2, h3, h4, h5⟩ := C188_alpha_partial he h0 h1 ha hd
  rw [h] at hs
  cases hs
  exact ⟨h2, h3, h4, h5⟩

/-- **C201** On a program with symmetric matrices, in exact arithmetic and with callbacks that leave the coordinates alone, every
run is a sequence of predictor-corrector steps from the starting point to what is handed back, one per `StepTaken`. -/
theorem C201_predictor_corrector {env : Env n K W} (he : Exact env) (hbg : ∀ w x, (env.cbBegin w x).2 = x)
    (hcb : ∀ w x, (env.cbStep w x).2.1 = x) (hen : ∀ w x, (env.cbEnd w x).2 = x) {c : Params K} (h0 : 0 < c.tau)
    (h1 : c.tau < 1) (p : Sdp (Fin n) K) (hC : p.C.IsSymm) (hA : ∀ a ∈ p.all, a.1.IsSymm) (fuel : Nat) (w : W)
    {x : Mat n K} (y : Fin p.all.length → K) {z : Mat n K} (hx : x.IsSymm) (hz : z.IsSymm)
    {e : Exit} {s : St n K W p.all.length} (h : optimize env c p fuel w x y z = .done (e, s)) :
    Steps (Mehrotra p c.tau) (s.trace.countP Ev.isStep) (x, y, z) (s.x, s.y, s.z) := by
  unfold optimize at h
  by_cases hcx : env.check x = false
  · rw [if_pos hcx] at h; cases h
  rw [if_neg hcx] at h
  by_cases hcz : env.check z = false
  · rw [if_pos hcz] at h; cases h
  rw [if_neg hcz] at h
  have px := (he.check x hx).1 (by simpa using hcx)
  have pz := (he.check z hz).1 (by simpa using hcz)
  have hg : Good p x y z (start env p w x y z) := by
    constructor
    · simpa [start, hbg] using px
    · simpa [start] using pz
    · simpa [start, hbg] using upper_eq hx
    · simpa [start] using upper_eq hz
    · intro k; simp [start, hbg, left]
    · simp [start, left]
    · simp [start]
  have hstart : Steps (Mehrotra p c.tau) ((start env p w x y z).trace.countP Ev.isStep) (x, y, z)
      ((start env p w x y z).x, (start env p w x y z).y, (start env p w x y z).z) := by
    simp only [start, hbg]
    exact Steps.zero _
  have key : ∀ s s' : St n K W p.all.length,
      (Good p x y z s ∧ Steps (Mehrotra p c.tau) (s.trace.countP Ev.isStep) (x, y, z) (s.x, s.y, s.z)) →
      (step env c p s = .inl s' ∨ step env c p s = .inr (.converged, s')) →
      (Good p x y z s' ∧ Steps (Mehrotra p c.tau) (s'.trace.countP Ev.isStep) (x, y, z) (s'.x, s'.y, s'.z)) := by
    rintro s s' ⟨hG, hS⟩ hst
    obtain ⟨d, d', a, b, a', b', k1, k2, k3, k4, k5, k6, rfl⟩ := step_took env c p s s' hst
    refine ⟨good_after he hcb h0 h1 p hC hA hG k4 k5 k6, ?_⟩
    have cnt : (after env p s d' a' b').trace.countP Ev.isStep = s.trace.countP Ev.isStep + 1 := by
      simp [after, List.countP_append, Ev.isStep]
    have hxz : (s.x * s.z + s.z * s.x).IsSymm := by
      unfold Matrix.IsSymm
      rw [transpose_add, transpose_mul, transpose_mul, hG.x.1.eq, hG.z.1.eq, add_comm]
    have n1 : Newton p (s.x, s.y, s.z) (-((1 / 2 : K) • (s.x * s.z + s.z * s.x))) d := by
      have e : rcPredict s.x s.z = -((1 / 2 : K) • (s.x * s.z + s.z * s.x)) := by rw [rcPredict, neg_smul]
      rw [e] at k1
      refine newton_of he p hC hA hG ?_ k1
      unfold Matrix.IsSymm
      rw [transpose_neg, transpose_smul, hxz.eq]
    have hdd : (d.dX * d.dZ + d.dZ * d.dX).IsSymm := by
      unfold Matrix.IsSymm
      rw [transpose_add, transpose_mul, transpose_mul, n1.symmX.eq, n1.symmZ.eq, add_comm]
    have n2 : Newton p (s.x, s.y, s.z) ((((accu (s.x + a • d.dX) (s.z + b • d.dZ)) / accu s.x s.z) ^ 3 *
        (accu s.x s.z / n)) • (1 : Mat n K) - (1 / 2 : K) • (s.x * s.z + s.z * s.x) -
        (1 / 2 : K) • (d.dX * d.dZ + d.dZ * d.dX)) d' := by
      have e : rcCorrect (muOf (accu s.sx s.sz) s.x s.z d.dX d.dZ a b) s.x s.z d.dX d.dZ =
          (((accu (s.x + a • d.dX) (s.z + b • d.dZ)) / accu s.x s.z) ^ 3 *
          (accu s.x s.z / n)) • (1 : Mat n K) - (1 / 2 : K) • (s.x * s.z + s.z * s.x) -
          (1 / 2 : K) • (d.dX * d.dZ + d.dZ * d.dX) := by
        rw [rcCorrect, muOf, hG.sx, hG.sz, mul_div_assoc, sub_sub, ← smul_add, add_assoc (s.x * s.z + s.z * s.x)]
      rw [e] at k4
      refine newton_of he p hC hA hG ?_ k4
      unfold Matrix.IsSymm
      rw [transpose_sub, transpose_sub, transpose_smul, transpose_smul, transpose_smul, transpose_one, hxz.eq, hdd.eq]
    rw [cnt]
    refine Steps.snoc hS ⟨d, d', a, b, a', b', n1, length_of he h0 h1 hG.x n1.symmX k2,
      length_of he h0 h1 hG.z n1.symmZ k3, n2, length_of he h0 h1 hG.x n2.symmX k5,
      length_of he h0 h1 hG.z n2.symmZ k6, ?_⟩
    simp only [after, hcb]
  cases hr : iterate (step env c p) fuel (start env p w x y z) with
  | none => rw [hr] at h; cases h
  | some r =>
    rw [hr] at h
    simp only [Outcome.done.injEq, Prod.mk.injEq] at h
    obtain ⟨rfl, rfl⟩ := h
    have := iterate_inv (fun s : St n K W p.all.length =>
        Good p x y z s ∧ Steps (Mehrotra p c.tau) (s.trace.countP Ev.isStep) (x, y, z) (s.x, s.y, s.z))
      (fun r => Steps (Mehrotra p c.tau) (r.2.trace.countP Ev.isStep) (x, y, z) (r.2.x, r.2.y, r.2.z))
      (fun s s' hs hst => key s s' hs (.inl hst)) ?_ fuel _ r ⟨hg, hstart⟩ hr
    · have fin : (finish env r.1 r.2).x = r.2.x ∧ (finish env r.1 r.2).z = r.2.z ∧ (finish env r.1 r.2).y = r.2.y ∧
          (finish env r.1 r.2).trace.countP Ev.isStep = r.2.trace.countP Ev.isStep := by
        unfold finish
        split <;> simp [hen, List.countP_append, Ev.isStep]
      rw [fin.1, fin.2.1, fin.2.2.1, fin.2.2.2]
      exact this
    · intro s r hs hst
      rcases step_cases env c p s with ⟨e, -, he', -⟩ | ⟨-, -, rc, d, a, b, -, -, -, he'⟩
      · rw [he'] at hst
        cases hst
        exact hs.2
      · have : ∃ s', r = (.converged, s') := by
          rw [he', update_eq] at hst
          split_ifs at hst
          exact ⟨_, (Sum.inr.inj hst).symm⟩
        obtain ⟨s', rfl⟩ := this
        exact (key s s' hs (.inr hst)).2

/-- Hypotheses of C201. -/
example : Exact (exactEnv 0) ∧ progR.C.IsSymm ∧ (∀ a ∈ progR.all, a.1.IsSymm) ∧
    ∃ (c : Params ℝ) (s : St 1 ℝ Unit progR.all.length), c.tau = 99 / 100 ∧
      optimize (exactEnv 0) c progR 1 () 1 (fun _ => 1) 1 = .done (.converged, s) := progR_run

end Ens.PrimalDual
