import Mathlib.Analysis.SpecialFunctions.Pow.Real
import Mathlib.Algebra.Order.Chebyshev
import Verif.Sdp.PrimalDualProps

/-
`PrimalDualSolver`: whole runs. Properties C189, C190, C191.
-/

namespace Ens.PrimalDual

open Matrix Ens.Lrsdp

variable {n : Nat} {K W : Type} [Field K] [LinearOrder K]

/-! ### One pass -/

/-- A pass either leaves the loop without touching the iterates or takes a step along a solution of the KKT system. -/
theorem step_cases (env : Env n K W) (c : Params K) (p : Sdp (Fin n) K) (s : St n K W p.all.length) :
    (∃ e, e ≠ .converged ∧ step env c p s = .inr (e, s) ∧
      (e = .limit ↔ ¬ (s.iteration ≠ c.maxIterations ∧ s.terminate = false)) ∧
      (e = .cholX → ∃ rc : Mat n K, ∃ d, solveKKT env p s.z (schur env p s.x s.z) s.x (residual p s.sx)
        (upper p.C - s.sz - adjoint p s.y) (upper rc) = some d ∧ alpha env c.tau s.x d.dX = none) ∧
      (e = .cholZ → ∃ rc : Mat n K, ∃ d, solveKKT env p s.z (schur env p s.x s.z) s.x (residual p s.sx)
        (upper p.C - s.sz - adjoint p s.y) (upper rc) = some d ∧ alpha env c.tau s.z d.dZ = none)) ∨
    (s.iteration ≠ c.maxIterations ∧ s.terminate = false ∧ ∃ (rc : Mat n K) (d : Dir n K p.all.length) (a b : K),
      solveKKT env p s.z (schur env p s.x s.z) s.x (residual p s.sx) (upper p.C - s.sz - adjoint p s.y) (upper rc) = some d ∧
      alpha env c.tau s.x d.dX = some a ∧ alpha env c.tau s.z d.dZ = some b ∧ step env c p s = update env c p s d a b) := by
  by_cases hc : s.iteration ≠ c.maxIterations ∧ s.terminate = false
  · unfold step
    rw [if_pos hc]
    simp only
    cases h1 : solveKKT env p s.z (schur env p s.x s.z) s.x (residual p s.sx) (upper p.C - s.sz - adjoint p s.y)
        (upper (rcPredict s.x s.z)) with
    | none => exact .inl ⟨.throws, by simp, rfl, by simp [hc], by simp, by simp⟩
    | some d =>
      simp only
      cases h2 : alpha env c.tau s.x d.dX with
      | none => exact .inl ⟨.cholX, by simp, rfl, by simp [hc], fun _ => ⟨_, d, h1, h2⟩, by simp⟩
      | some a =>
        simp only
        cases h3 : alpha env c.tau s.z d.dZ with
        | none => exact .inl ⟨.cholZ, by simp, rfl, by simp [hc], by simp, fun _ => ⟨_, d, h1, h3⟩⟩
        | some b =>
          simp only
          cases h4 : solveKKT env p s.z (schur env p s.x s.z) s.x (residual p s.sx) (upper p.C - s.sz - adjoint p s.y)
              (upper (rcCorrect (muOf (accu s.sx s.sz) s.x s.z d.dX d.dZ a b) s.x s.z d.dX d.dZ)) with
          | none => exact .inl ⟨.throws, by simp, rfl, by simp [hc], by simp, by simp⟩
          | some d' =>
            simp only
            cases h5 : alpha env c.tau s.x d'.dX with
            | none => exact .inl ⟨.cholX, by simp, rfl, by simp [hc], fun _ => ⟨_, d', h4, h5⟩, by simp⟩
            | some a' =>
              simp only
              cases h6 : alpha env c.tau s.z d'.dZ with
              | none => exact .inl ⟨.cholZ, by simp, rfl, by simp [hc], by simp, fun _ => ⟨_, d', h4, h6⟩⟩
              | some b' => exact .inr ⟨hc.1, hc.2, _, d', a', b', h4, h5, h6, rfl⟩
  · refine .inl ⟨.limit, by simp, ?_, by simp [hc], by simp, by simp⟩
    unfold step
    rw [if_neg hc]

/-- The state after a step. -/
def after (env : Env n K W) (p : Sdp (Fin n) K) (s : St n K W p.all.length) (d : Dir n K p.all.length) (a b : K) :
    St n K W p.all.length :=
  let x := s.x + a • d.dX
  let r := env.cbStep s.w x
  { s with
    w := r.1
    x := r.2.1
    sx := upper r.2.1
    y := s.y + b • d.dy
    z := s.z + b • d.dZ
    sz := upper (s.z + b • d.dZ)
    obj := accu p.C r.2.1
    terminate := s.terminate || r.2.2
    iteration := (s.iteration + 1) % 2 ^ 64
    steps := s.steps ++ [(a, b)]
    trace := s.trace ++ [.step x r.2.2] }

theorem update_eq (env : Env n K W) (c : Params K) (p : Sdp (Fin n) K) (s : St n K W p.all.length)
    (d : Dir n K p.all.length) (a b : K) : update env c p s d a b =
      if kktHolds env c p (after env p s d a b).x (after env p s d a b).y (after env p s d a b).z (after env p s d a b).sx then
        .inr (.converged, after env p s d a b) else .inl (after env p s d a b) := rfl

/-- What an exit tells about the state. -/
def Told (env : Env n K W) (c : Params K) (p : Sdp (Fin n) K) (r : Exit × St n K W p.all.length) : Prop :=
  (r.1 = .converged → kktHolds env c p r.2.x r.2.y r.2.z r.2.sx = true) ∧
  (r.1 = .limit → r.2.iteration = c.maxIterations ∨ r.2.terminate = true) ∧
  (r.1 = .cholX → ∃ rc : Mat n K, ∃ d, solveKKT env p r.2.z (schur env p r.2.x r.2.z) r.2.x (residual p r.2.sx)
    (upper p.C - r.2.sz - adjoint p r.2.y) (upper rc) = some d ∧ alpha env c.tau r.2.x d.dX = none) ∧
  (r.1 = .cholZ → ∃ rc : Mat n K, ∃ d, solveKKT env p r.2.z (schur env p r.2.x r.2.z) r.2.x (residual p r.2.sx)
    (upper p.C - r.2.sz - adjoint p r.2.y) (upper rc) = some d ∧ alpha env c.tau r.2.z d.dZ = none)

/-- Rule for runs: what holds at the start and is kept by every step holds at the exit, together with what the exit tells. -/
theorem run_rule (env : Env n K W) (c : Params K) (p : Sdp (Fin n) K) (Inv : St n K W p.all.length → Prop)
    (hstep : ∀ s rc d a b, Inv s → s.iteration ≠ c.maxIterations → s.terminate = false →
      solveKKT env p s.z (schur env p s.x s.z) s.x (residual p s.sx) (upper p.C - s.sz - adjoint p s.y) (upper rc) = some d →
      alpha env c.tau s.x d.dX = some a → alpha env c.tau s.z d.dZ = some b → Inv (after env p s d a b))
    (fuel : Nat) (s : St n K W p.all.length) (hs : Inv s) (r : Exit × St n K W p.all.length)
    (h : iterate (step env c p) fuel s = some r) : Inv r.2 ∧ Told env c p r := by
  refine iterate_inv Inv (fun r => Inv r.2 ∧ Told env c p r) ?_ ?_ fuel s r hs h
  · intro s s' hs hst
    rcases step_cases env c p s with ⟨e, -, he, -⟩ | ⟨h1, h2, rc, d, a, b, hd, ha, hb, he⟩
    · rw [he] at hst; simp at hst
    · rw [he, update_eq] at hst
      split_ifs at hst
      simp only [Sum.inl.injEq] at hst
      exact hst ▸ hstep s rc d a b hs h1 h2 hd ha hb
  · intro s r hs hst
    rcases step_cases env c p s with ⟨e, hne, he, hlim, hX, hZ⟩ | ⟨h1, h2, rc, d, a, b, hd, ha, hb, he⟩
    · rw [he] at hst
      simp only [Sum.inr.injEq] at hst
      subst hst
      refine ⟨hs, fun h => absurd h hne, fun h => ?_, hX, hZ⟩
      have := hlim.1 h
      by_contra hc
      simp only [not_or, Bool.not_eq_true] at hc
      exact this hc
    · rw [he, update_eq] at hst
      split_ifs at hst with hk
      simp only [Sum.inr.injEq] at hst
      subst hst
      exact ⟨hstep s rc d a b hs h1 h2 hd ha hb, fun _ => hk, by simp, by simp, by simp⟩

/-! ### Residuals (C189) -/

/-- `b_k - ⟨A_k, X⟩`. -/
def primal (p : Sdp (Fin n) K) (X : Mat n K) (k : Fin p.all.length) : K := p.all[k].2 - accu p.all[k].1 X

/-- `C - Z - Σ y_k A_k`. -/
def dual (p : Sdp (Fin n) K) (y : Fin p.all.length → K) (Z : Mat n K) : Mat n K := p.C - Z - ∑ k, y k • p.all[k].1

/-- Product of the `1 - α` (or `1 - β`) of the steps taken. -/
def left (l : List K) : K := (l.map fun a => 1 - a).prod

omit [LinearOrder K] in
theorem left_snoc (l : List K) (a : K) : left (l ++ [a]) = (1 - a) * left l := by
  simp [left, mul_comm]

section
variable [IsStrictOrderedRing K]

structure Good (p : Sdp (Fin n) K) (x₀ : Mat n K) (y₀ : Fin p.all.length → K) (z₀ : Mat n K) (s : St n K W p.all.length) :
    Prop where
  x : PD s.x
  z : PD s.z
  sx : s.sx = s.x
  sz : s.sz = s.z
  primal : ∀ k, primal p s.x k = left (s.steps.map Prod.fst) * primal p x₀ k
  dual : dual p s.y s.z = left (s.steps.map Prod.snd) • dual p y₀ z₀
  steps : ∀ q ∈ s.steps, 0 < q.1 ∧ q.1 ≤ 1 ∧ 0 < q.2 ∧ q.2 ≤ 1

theorem good_after {env : Env n K W} (he : Exact env) (hcb : ∀ w x, (env.cbStep w x).2.1 = x) {tau : K} (h0 : 0 < tau)
    (h1 : tau < 1) (p : Sdp (Fin n) K) (hC : p.C.IsSymm) (hA : ∀ a ∈ p.all, a.1.IsSymm) {x₀ z₀ : Mat n K}
    {y₀ : Fin p.all.length → K} {s : St n K W p.all.length} (hs : Good p x₀ y₀ z₀ s) {rc : Mat n K}
    {d : Dir n K p.all.length} {a b : K}
    (hd : solveKKT env p s.z (schur env p s.x s.z) s.x (residual p s.sx) (upper p.C - s.sz - adjoint p s.y) (upper rc) = some d)
    (ha : alpha env tau s.x d.dX = some a) (hb : alpha env tau s.z d.dZ = some b) : Good p x₀ y₀ z₀ (after env p s d a b) := by
  have hAk : ∀ k : Fin p.all.length, (p.all[k].1).IsSymm := fun k => hA _ (List.getElem_mem _)
  have hadj : adjoint p s.y = ∑ k, s.y k • p.all[k].1 := Finset.sum_congr rfl fun k _ => by rw [upper_eq (hAk k)]
  have hrd : upper p.C - s.sz - adjoint p s.y = dual p s.y s.z := by rw [upper_eq hC, hs.sz, hadj]; rfl
  have hrds : (dual p s.y s.z).IsSymm := by
    unfold dual
    rw [← hadj]
    exact (hC.sub hs.z.1).sub (adjoint_symm p s.y)
  rw [hrd] at hd
  obtain ⟨k1, k2, -, hX, hZ⟩ := C187_kkt he p hA hs.x.1 hs.z _ hrds (upper_symm rc) hd
  obtain ⟨a', ha', pa0, pa1, pax, -⟩ := C188_alpha_partial he h0 h1 hs.x hX
  obtain ⟨b', hb', pb0, pb1, pbx, -⟩ := C188_alpha_partial he h0 h1 hs.z hZ
  obtain rfl : a = a' := by rw [ha] at ha'; exact Option.some.inj ha'
  obtain rfl : b = b' := by rw [hb] at hb'; exact Option.some.inj hb'
  have hres : ∀ k, residual p s.sx k = primal p s.x k := by
    intro k
    simp only [residual, row, upper_eq (hAk k), hs.sx]; rfl
  refine ⟨?_, pbx, ?_, ?_, ?_, ?_, ?_⟩
  · simp only [after, hcb]; exact pax
  · simp only [after, hcb]; exact upper_eq pax.1
  · simp only [after]; exact upper_eq pbx.1
  · intro k
    simp only [after, hcb, List.map_append, List.map_cons, List.map_nil, left_snoc]
    have e : primal p (s.x + a • d.dX) k = (1 - a) * primal p s.x k := by
      have := k2 k
      rw [hres] at this
      unfold primal at this ⊢
      rw [accu_add, accu_smul, this]; ring
    rw [e, hs.primal k]; ring
  · simp only [after, List.map_append, List.map_cons, List.map_nil, left_snoc]
    have e : dual p (s.y + b • d.dy) (s.z + b • d.dZ) = (1 - b) • dual p s.y s.z := by
      have e1 : b • dual p s.y s.z = b • (∑ k, d.dy k • p.all[k].1 + d.dZ) := by rw [k1]
      rw [sub_smul, one_smul, e1]
      simp only [dual, Pi.add_apply, Pi.smul_apply, smul_eq_mul, add_smul, Finset.sum_add_distrib, smul_add, Finset.smul_sum,
        smul_smul]
      abel
    rw [e, hs.dual, smul_smul]
  · intro q hq
    simp only [after, List.mem_append, List.mem_singleton] at hq
    rcases hq with hq | rfl
    · exact hs.steps q hq
    · exact ⟨pa0, pa1, pb0, pb1⟩

/-- **C189** From symmetric positive definite starting points, on a program with symmetric matrices and with callbacks that leave
the coordinates alone, in exact arithmetic: every run keeps both iterates symmetric positive definite, never ends with a
failed Cholesky decomposition, and each step multiplies the violation of every equality constraint by `1 - α` and that of
the dual constraint by `1 - β`, with `α` and `β` in (0, 1]: infeasibility never grows. -/
theorem C189_residuals {env : Env n K W} (he : Exact env) (hbg : ∀ w x, (env.cbBegin w x).2 = x)
    (hcb : ∀ w x, (env.cbStep w x).2.1 = x) (hen : ∀ w x, (env.cbEnd w x).2 = x) {c : Params K} (h0 : 0 < c.tau)
    (h1 : c.tau < 1) (p : Sdp (Fin n) K) (hC : p.C.IsSymm) (hA : ∀ a ∈ p.all, a.1.IsSymm) (fuel : Nat) (w : W)
    {x : Mat n K} (y : Fin p.all.length → K) {z : Mat n K} (hx : x.IsSymm) (hz : z.IsSymm)
    {e : Exit} {s : St n K W p.all.length} (h : optimize env c p fuel w x y z = .done (e, s)) :
    PD s.x ∧ PD s.z ∧ e ≠ .cholX ∧ e ≠ .cholZ ∧
    (∀ k, primal p s.x k = left (s.steps.map Prod.fst) * primal p x k) ∧
    dual p s.y s.z = left (s.steps.map Prod.snd) • dual p y z ∧
    (∀ q ∈ s.steps, 0 < q.1 ∧ q.1 ≤ 1 ∧ 0 < q.2 ∧ q.2 ≤ 1) := by
  unfold optimize at h
  by_cases hcx : env.check x = false
  · rw [if_pos hcx] at h; cases h
  rw [if_neg hcx] at h
  by_cases hcz : env.check z = false
  · rw [if_pos hcz] at h; cases h
  rw [if_neg hcz] at h
  have px := (he.check x hx).1 (by simpa using hcx)
  have pz := (he.check z hz).1 (by simpa using hcz)
  have hg : Good p x y z (start env p w x y z) := by
    constructor
    · simpa [start, hbg] using px
    · simpa [start] using pz
    · simpa [start, hbg] using upper_eq hx
    · simpa [start] using upper_eq hz
    · intro k; simp [start, hbg, left]
    · simp [start, left]
    · simp [start]
  cases hr : iterate (step env c p) fuel (start env p w x y z) with
  | none => rw [hr] at h; cases h
  | some r =>
    rw [hr] at h
    simp only [Outcome.done.injEq, Prod.mk.injEq] at h
    obtain ⟨rfl, rfl⟩ := h
    obtain ⟨hG, -, -, hX, hZ⟩ := run_rule env c p (Good p x y z)
      (fun s rc d a b hs _ _ hd ha hb => good_after he hcb h0 h1 p hC hA hs hd ha hb) fuel _ hg r hr
    have hAk : ∀ k : Fin p.all.length, (p.all[k].1).IsSymm := fun k => hA _ (List.getElem_mem _)
    have hrds : (upper p.C - r.2.sz - adjoint p r.2.y).IsSymm := by
      rw [hG.sz]
      exact ((upper_symm _).sub hG.z.1).sub (adjoint_symm p _)
    have fin : (finish env r.1 r.2).x = r.2.x ∧ (finish env r.1 r.2).z = r.2.z ∧ (finish env r.1 r.2).y = r.2.y ∧
        (finish env r.1 r.2).steps = r.2.steps := by
      unfold finish
      split <;> simp [hen]
    refine ⟨fin.1 ▸ hG.x, fin.2.1 ▸ hG.z, fun hh => ?_, fun hh => ?_, ?_, ?_, ?_⟩
    · obtain ⟨rc, d, hd, ha⟩ := hX hh
      obtain ⟨-, -, -, sX, -⟩ := C187_kkt he p hA hG.x.1 hG.z _ hrds (upper_symm rc) hd
      obtain ⟨a, ha', -⟩ := C188_alpha_partial he h0 h1 hG.x sX
      rw [ha] at ha'; cases ha'
    · obtain ⟨rc, d, hd, ha⟩ := hZ hh
      obtain ⟨-, -, -, -, sZ⟩ := C187_kkt he p hA hG.x.1 hG.z _ hrds (upper_symm rc) hd
      obtain ⟨a, ha', -⟩ := C188_alpha_partial he h0 h1 hG.z sZ
      rw [ha] at ha'; cases ha'
    · rw [fin.1, fin.2.2.2]; exact hG.primal
    · rw [fin.2.1, fin.2.2.1, fin.2.2.2]; exact hG.dual
    · rw [fin.2.2.2]; exact hG.steps

end

end Ens.PrimalDual
