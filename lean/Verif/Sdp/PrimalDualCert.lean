import Mathlib.Analysis.SpecialFunctions.Pow.Real
import Mathlib.Algebra.Order.BigOperators.Ring.Finset
import Verif.Sdp.PrimalDualRun

/-
`PrimalDualSolver`: what a reported convergence means. Property C190.
-/

namespace Ens.PrimalDual

open Matrix Ens.Lrsdp

variable {n : Nat} {W : Type}

/-- Euclidean norm of a list of numbers. -/
noncomputable def norm2 (l : List ℝ) : ℝ := √((l.map fun a => a ^ 2).sum)

theorem sum_entries (M : Mat n ℝ) (f : ℝ → ℝ) : ((entries M).map f).sum = ∑ i, ∑ j, f (M i j) := by
  unfold entries
  rw [List.map_flatMap]
  have h : ∀ (l : List (Fin n)) (g : Fin n → List ℝ), (l.flatMap g).sum = (l.map fun i => (g i).sum).sum := by
    intro l g
    induction l with
    | nil => rfl
    | cons a l ih => simp [List.flatMap_cons, ih]
  rw [h, ← List.sum_ofFn, List.ofFn_eq_map]
  congr 1
  apply List.map_congr_left
  intro i _
  rw [← List.sum_ofFn, List.ofFn_eq_map, List.map_map]
  rfl

/-- Cauchy-Schwarz. -/
theorem accu_le (A B : Mat n ℝ) : accu A B ≤ norm2 (entries A) * norm2 (entries B) := by
  unfold norm2
  rw [sum_entries, sum_entries, ← Real.sqrt_mul (by positivity)]
  refine Real.le_sqrt_of_sq_le ?_
  have := Finset.sum_mul_sq_le_sq_mul_sq (Finset.univ : Finset (Fin n × Fin n)) (fun q => A q.1 q.2) fun q => B q.1 q.2
  simp only [Fintype.sum_prod_type] at this
  simpa [accu, hadamard_apply] using this

theorem sum_le_norm {m : Nat} (a b : Fin m → ℝ) : ∑ k, a k * b k ≤ norm2 (List.ofFn a) * norm2 (List.ofFn b) := by
  unfold norm2
  rw [List.map_ofFn, List.map_ofFn, List.sum_ofFn, List.sum_ofFn]
  simp only [Function.comp_apply]
  rw [← Real.sqrt_mul (Finset.sum_nonneg fun k _ => sq_nonneg _)]
  exact Real.le_sqrt_of_sq_le (Finset.sum_mul_sq_le_sq_mul_sq _ _ _)

theorem norm2_nonneg (l : List ℝ) : 0 ≤ norm2 l := Real.sqrt_nonneg _

theorem accu_comm (A B : Mat n ℝ) : accu A B = accu B A := by
  simp only [accu, hadamard_apply, mul_comm]

theorem accu_trace {A B : Mat n ℝ} (h : B.IsSymm) : accu A B = (A * B).trace := accu_eq h A

/-- The inner product of two positive semidefinite matrices, one of them a Gram matrix, is not negative. -/
theorem accu_gram_nonneg {l X : Mat n ℝ} (hX : PSD X) : 0 ≤ accu (l * lᵀ) X := by
  rw [accu_trace hX.1, Matrix.mul_assoc, trace_mul_comm]
  have : (lᵀ * X * l).trace = ∑ j, (fun i => l i j) ⬝ᵥ X *ᵥ fun i => l i j := by
    rw [Matrix.mul_assoc]
    exact trace_cols l X
  rw [this]
  exact Finset.sum_nonneg fun j _ => hX.2 _

/-- **C190** A reported convergence is a certificate: in exact arithmetic the value returned exceeds the objective of any feasible
point `X'` of the program by at most `√n * normXzTol + ‖y‖ * primalInfeasTol + ‖X - X'‖ * dualInfeasTol`, and the three
residuals are within their tolerances. -/
theorem C190_certificate {env : Env n ℝ W} (he : Exact env) (hnorm : ∀ l, env.norm l = norm2 l)
    (hbg : ∀ w x, (env.cbBegin w x).2 = x) (hcb : ∀ w x, (env.cbStep w x).2.1 = x) (hen : ∀ w x, (env.cbEnd w x).2 = x)
    {c : Params ℝ} (h0 : 0 < c.tau) (h1 : c.tau < 1) (p : Sdp (Fin n) ℝ) (hC : p.C.IsSymm) (hA : ∀ a ∈ p.all, a.1.IsSymm)
    (fuel : Nat) (w : W) {x z : Mat n ℝ} (y : Fin p.all.length → ℝ) (hx : x.IsSymm) (hz : z.IsSymm)
    {s : St n ℝ W p.all.length} (h : optimize env c p fuel w x y z = .done (.converged, s)) :
    s.obj = accu p.C s.x ∧
    norm2 (entries (s.x * s.z)) ≤ c.normXzTol ∧
    norm2 (List.ofFn (primal p s.x)) ≤ c.primalInfeasTol ∧
    norm2 (entries (dual p s.y s.z)) ≤ c.dualInfeasTol ∧
    ∀ X', PSD X' → (∀ k : Fin p.all.length, accu p.all[k].1 X' = p.all[k].2) →
      s.obj ≤ accu p.C X' + (√n * c.normXzTol + norm2 (List.ofFn s.y) * c.primalInfeasTol +
        norm2 (entries (s.x - X')) * c.dualInfeasTol) := by
  obtain ⟨px, pz, -⟩ := C189_residuals he hbg hcb hen h0 h1 p hC hA fuel w y hx hz h
  have hAk : ∀ k : Fin p.all.length, (p.all[k].1).IsSymm := fun k => hA _ (List.getElem_mem _)
  -- the state at the exit
  have key : s.obj = accu p.C s.x ∧ s.sx = s.x ∧ kktHolds env c p s.x s.y s.z s.sx = true := by
    unfold optimize at h
    split_ifs at h with hcx hcz
    cases hr : iterate (step env c p) fuel (start env p w x y z) with
    | none => rw [hr] at h; cases h
    | some r =>
      rw [hr] at h
      simp only [Outcome.done.injEq, Prod.mk.injEq] at h
      obtain ⟨hr1, hr2⟩ := h
      have hfin : finish env r.1 r.2 = r.2 := by rw [hr1]; rfl
      rw [hfin] at hr2
      obtain ⟨⟨hG, ho⟩, hk, -⟩ := run_rule env c p
        (fun s => Good p x y z s ∧ (s.steps ≠ [] → s.obj = accu p.C s.x))
        (fun s rc d a b hs _ _ hd ha hb => ⟨good_after he hcb h0 h1 p hC hA hs.1 hd ha hb, fun _ => rfl⟩) fuel _
        ⟨by
          constructor
          · simpa [start, hbg] using (he.check x hx).1 (by simpa using hcx)
          · simpa [start] using (he.check z hz).1 (by simpa using hcz)
          · simpa [start, hbg] using upper_eq hx
          · simpa [start] using upper_eq hz
          · intro k; simp [start, hbg, left]
          · simp [start, left]
          · simp [start], fun hne => absurd rfl hne⟩ r hr
      have hne : r.2.steps ≠ [] := by
        have : (fun r : Exit × St n ℝ W p.all.length => r.1 = .converged → r.2.steps ≠ []) r := by
          refine iterate_inv (fun _ => True) (fun r => r.1 = .converged → r.2.steps ≠ []) (fun _ _ _ _ => trivial) ?_ fuel _ r
            trivial hr
          intro s r _ hst hc
          rcases step_cases env c p s with ⟨e, hne, hh, -⟩ | ⟨-, -, rc, d, a, b, -, -, -, hh⟩
          · rw [hh] at hst
            simp only [Sum.inr.injEq] at hst
            subst hst
            exact absurd hc hne
          · rw [hh, update_eq] at hst
            split_ifs at hst
            simp only [Sum.inr.injEq] at hst
            subst hst
            simp [after]
        exact this hr1
      subst hr2
      exact ⟨ho hne, hG.sx, hk hr1⟩
  obtain ⟨ho, hsx, hk⟩ := key
  simp only [kktHolds, Bool.and_eq_true, decide_eq_true_eq, hnorm] at hk
  obtain ⟨⟨k1, k2⟩, k3⟩ := hk
  have hres : residual p s.sx = primal p s.x := by
    funext k
    simp only [residual, row, upper_eq (hAk k), hsx]; rfl
  rw [hres] at k2
  have hdual : norm2 (entries (dual p s.y s.z)) ≤ c.dualInfeasTol := by
    refine le_trans (le_of_eq ?_) k3
    unfold norm2
    rw [sum_entries, sum_entries]
    have : dual p s.y s.z = -(s.z - p.C + ∑ k, s.y k • p.all[k].1) := by unfold dual; abel
    rw [this]
    simp only [Matrix.neg_apply, neg_sq]
  refine ⟨ho, k1, k2, hdual, fun X' hX' hf => ?_⟩
  -- C = dual + Z + Σ y A
  have hCeq : p.C = dual p s.y s.z + s.z + ∑ k, s.y k • p.all[k].1 := by unfold dual; abel
  have hsplit : ∀ X : Mat n ℝ, accu p.C X = accu (dual p s.y s.z) X + accu s.z X + ∑ k, s.y k * accu p.all[k].1 X := by
    intro X
    conv_lhs => rw [hCeq]
    rw [accu_comm, accu_add, accu_add, accu_sum, accu_comm, accu_comm X s.z]
    congr 1
    exact Finset.sum_congr rfl fun k _ => by rw [accu_smul, accu_comm]
  have hzx : accu s.z X' ≥ 0 := by
    obtain ⟨l, hl⟩ := he.chol_some _ pz
    rw [← he.chol _ l pz.1 hl]
    exact accu_gram_nonneg hX'
  have hgap : accu s.z s.x ≤ √n * c.normXzTol := by
    rw [accu_comm, accu_trace pz.1]
    have e : (s.x * s.z).trace = accu (1 : Mat n ℝ) (s.x * s.z) := by
      simp only [accu, hadamard_apply, Matrix.one_apply, trace, diag_apply, ite_mul, one_mul, zero_mul, Finset.sum_ite_eq,
        Finset.mem_univ, if_true]
    rw [e]
    refine (accu_le _ _).trans ?_
    have : norm2 (entries (1 : Mat n ℝ)) = √n := by
      unfold norm2
      rw [sum_entries]
      simp [Matrix.one_apply]
    rw [this]
    exact mul_le_mul_of_nonneg_left k1 (Real.sqrt_nonneg _)
  have hpr : ∑ k, s.y k * (accu p.all[k].1 s.x - accu p.all[k].1 X') ≤
      norm2 (List.ofFn s.y) * c.primalInfeasTol := by
    have e : ∑ k, s.y k * (accu p.all[k].1 s.x - accu p.all[k].1 X') = ∑ k, s.y k * (-primal p s.x k) :=
      Finset.sum_congr rfl fun k _ => by rw [hf k]; unfold primal; ring
    rw [e]
    refine (sum_le_norm s.y fun k => -primal p s.x k).trans ?_
    refine mul_le_mul_of_nonneg_left (le_trans (le_of_eq ?_) k2) (norm2_nonneg _)
    unfold norm2
    rw [List.map_ofFn, List.map_ofFn]
    simp [Function.comp_def]
  have hdu : accu (dual p s.y s.z) (s.x - X') ≤ norm2 (entries (s.x - X')) * c.dualInfeasTol := by
    refine (accu_le _ _).trans ?_
    rw [mul_comm]
    exact mul_le_mul_of_nonneg_left hdual (norm2_nonneg _)
  rw [ho, hsplit s.x, hsplit X']
  rw [accu_sub] at hdu
  have e2 : ∑ k, s.y k * (accu p.all[k].1 s.x - accu p.all[k].1 X') =
      ∑ k, s.y k * accu p.all[k].1 s.x - ∑ k, s.y k * accu p.all[k].1 X' := by
    rw [← Finset.sum_sub_distrib]
    exact Finset.sum_congr rfl fun k _ => by ring
  linarith

end Ens.PrimalDual
