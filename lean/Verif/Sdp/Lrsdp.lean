import Mathlib.LinearAlgebra.Matrix.Trace
import Mathlib.LinearAlgebra.Matrix.Hadamard
import Mathlib.LinearAlgebra.Matrix.Symmetric
import Mathlib.Analysis.Calculus.Deriv.Pow
import Mathlib.Analysis.Calculus.Deriv.Add
import Mathlib.Analysis.Calculus.Deriv.Mul
import Mathlib.Algebra.BigOperators.Fin
import Mathlib.Tactic.Ring
import Mathlib.Tactic.Linarith
import Mathlib.Tactic.NormNum
import Mathlib.Tactic.FinCases

/-
`LRSDPFunction` and the specialisations of `AugLagrangianFunction` for it (`sdp/lrsdp_function_impl.hpp:58-324`), with exact
arithmetic. The state is the matrix `rrt` cached in the function object (`lrsdp_function.hpp`, member `rrt`).
Property C70, C183, C184.
-/

namespace Ens.Lrsdp

open Matrix

/-- `SDP` (`sdp/sdp.hpp`): objective matrix, sparse and dense constraints `⟨A, X⟩ = b`. -/
structure Sdp (n K : Type) where
  C : Matrix n n K
  sparse : List (Matrix n n K × K)
  dense : List (Matrix n n K × K)

variable {n r K : Type} [Fintype n] [Fintype r] [Field K]

/-- `arma::accu(A % X)` -/
def accu (A X : Matrix n n K) : K := ∑ i, ∑ j, (A ⊙ X) i j

/-- `UpdateObjective` (lines 126-145), starting at constraint `off`. -/
def updateObjective (X : Matrix n n K) (lam : Nat → K) (sigma : K) : Nat → List (Matrix n n K × K) → K → K
  | _, [], o => o
  | off, a :: l, o =>
    let c := accu a.1 X - a.2
    updateObjective X lam sigma (off + 1) l (o - lam off * c + sigma / 2 * c * c)

/-- `UpdateGradient` (lines 150-168). -/
def updateGradient (X : Matrix n n K) (lam : Nat → K) (sigma : K) :
    Nat → List (Matrix n n K × K) → Matrix n n K → Matrix n n K
  | _, [], s => s
  | off, a :: l, s =>
    let c := accu a.1 X - a.2
    updateGradient X lam sigma (off + 1) l (s - (lam off - sigma * c) • a.1)

/-- `EvaluateImpl` (lines 171-221), the specialised `AugLagrangianFunction::Evaluate`: new cache and value. -/
def evalAL (p : Sdp n K) (lam : Nat → K) (sigma : K) (R : Matrix n r K) : Matrix n n K × K :=
  let X := R * Rᵀ
  (X, updateObjective X lam sigma p.sparse.length p.dense
    (updateObjective X lam sigma 0 p.sparse ((Rᵀ * p.C) * R).trace))

/-- `GradientImpl` (lines 224-249), the specialised `AugLagrangianFunction::Gradient`, with the cached matrix `X`. -/
def gradAL (p : Sdp n K) (X : Matrix n n K) (lam : Nat → K) (sigma : K) (R : Matrix n r K) : Matrix n r K :=
  ((2 : K) • updateGradient X lam sigma p.sparse.length p.dense (updateGradient X lam sigma 0 p.sparse p.C)) * R

/-- `LRSDPFunction::Evaluate` (lines 60-67): the coordinates are not used. -/
def evaluate (p : Sdp n K) (X : Matrix n n K) (_R : Matrix n r K) : K := accu p.C X

/-- `LRSDPFunction::EvaluateConstraint` (lines 80-99). `none`: read past the end of `DenseA`. -/
def evalConstraint (p : Sdp n K) (X : Matrix n n K) (i : Nat) (R : Matrix n r K) : Option K :=
  if i < p.sparse.length then p.sparse[i]?.map fun a => accu a.1 X - a.2
  else p.dense[i - p.sparse.length]?.map fun a => ((Rᵀ * a.1) * R).trace - a.2

/-- Calls that reach the function object: those of `AugLagrangian` and its inner optimizer, and the assignment of the
cache at the start of `LRSDP::Optimize` (`lrsdp_impl.hpp:34-36`). -/
inductive Call (n r K : Type) where
  | start (R : Matrix n r K)
  | evalAL (lam : Nat → K) (sigma : K) (R : Matrix n r K)
  | gradAL (lam : Nat → K) (sigma : K) (R : Matrix n r K)
  | evaluate (R : Matrix n r K)
  | constraint (i : Nat) (R : Matrix n r K)

/-- What a call hands back. -/
inductive Answer (n r K : Type) where
  | none
  | value (v : K)
  | gradient (G : Matrix n r K)
  | ub

/-- One call on the object whose cache is `X`. -/
def call (p : Sdp n K) (X : Matrix n n K) : Call n r K → Matrix n n K × Answer n r K
  | .start R => (R * Rᵀ, .none)
  | .evalAL lam sigma R => ((evalAL p lam sigma R).1, .value (evalAL p lam sigma R).2)
  | .gradAL lam sigma R => (X, .gradient (gradAL p X lam sigma R))
  | .evaluate R => (X, .value (evaluate p X R))
  | .constraint i R => (X, match evalConstraint p X i R with | some v => .value v | Option.none => .ub)

/-- The cache after a sequence of calls. -/
def after (p : Sdp n K) (X : Matrix n n K) (h : List (Call n r K)) : Matrix n n K := h.foldl (fun X c => (call p X c).1) X

/-! ### The semidefinite program -/

/-- All constraints in the order of the multipliers. -/
def Sdp.all (p : Sdp n K) : List (Matrix n n K × K) := p.sparse ++ p.dense

/-- Objective of the program at `X`: `tr (C X)`. -/
def Sdp.obj (p : Sdp n K) (X : Matrix n n K) : K := (p.C * X).trace

/-- Constraint `k` of the program at `X`: `tr (A_k X) - b_k`. -/
def Sdp.con (p : Sdp n K) (k : Fin p.all.length) (X : Matrix n n K) : K := (p.all[k].1 * X).trace - p.all[k].2

/-- The augmented Lagrangian of `min tr (C R Rᵀ)` subject to `tr (A_k R Rᵀ) = b_k`. -/
def Sdp.lagrangian (p : Sdp n K) (lam : Nat → K) (sigma : K) (R : Matrix n r K) : K :=
  p.obj (R * Rᵀ) - ∑ k : Fin p.all.length, lam k * p.con k (R * Rᵀ) + sigma / 2 * ∑ k, p.con k (R * Rᵀ) ^ 2

/-! ### Closed forms of the loops -/

theorem accu_eq {X : Matrix n n K} (hX : X.IsSymm) (A : Matrix n n K) : accu A X = (A * X).trace := by
  unfold accu
  simp only [Matrix.trace, Matrix.diag, Matrix.mul_apply, Matrix.hadamard_apply]
  refine Finset.sum_congr rfl fun i _ => Finset.sum_congr rfl fun j _ => ?_
  rw [← hX.apply i j]

theorem updateObjective_append (X : Matrix n n K) (lam : Nat → K) (sigma : K) : ∀ (l l' : List (Matrix n n K × K)) (off : Nat)
    (o : K), updateObjective X lam sigma off (l ++ l') o =
      updateObjective X lam sigma (off + l.length) l' (updateObjective X lam sigma off l o)
  | [], l', off, o => rfl
  | a :: l, l', off, o => by
    rw [List.cons_append, updateObjective, updateObjective, updateObjective_append, List.length_cons,
      show off + 1 + l.length = off + (l.length + 1) by omega]

theorem updateGradient_append (X : Matrix n n K) (lam : Nat → K) (sigma : K) : ∀ (l l' : List (Matrix n n K × K)) (off : Nat)
    (s : Matrix n n K), updateGradient X lam sigma off (l ++ l') s =
      updateGradient X lam sigma (off + l.length) l' (updateGradient X lam sigma off l s)
  | [], l', off, o => rfl
  | a :: l, l', off, o => by
    rw [List.cons_append, updateGradient, updateGradient, updateGradient_append, List.length_cons,
      show off + 1 + l.length = off + (l.length + 1) by omega]

theorem updateObjective_eq (X : Matrix n n K) (lam : Nat → K) (sigma : K) : ∀ (l : List (Matrix n n K × K)) (off : Nat) (o : K),
    updateObjective X lam sigma off l o = o - ∑ k : Fin l.length, lam (off + k) * (accu l[k].1 X - l[k].2) +
      sigma / 2 * ∑ k : Fin l.length, (accu l[k].1 X - l[k].2) ^ 2
  | [], off, o => by simp [updateObjective]
  | a :: l, off, o => by
    rw [updateObjective, updateObjective_eq X lam sigma l]
    have e1 : ∑ k : Fin (a :: l).length, lam (off + k) * (accu (a :: l)[k].1 X - (a :: l)[k].2) =
        lam off * (accu a.1 X - a.2) + ∑ k : Fin l.length, lam (off + 1 + k) * (accu l[k].1 X - l[k].2) := by
      refine (Fin.sum_univ_succ (n := l.length) _).trans ?_
      congr 1
      refine Finset.sum_congr rfl fun k _ => ?_
      simp [Nat.add_comm, Nat.add_left_comm]
    have e2 : ∑ k : Fin (a :: l).length, (accu (a :: l)[k].1 X - (a :: l)[k].2) ^ 2 =
        (accu a.1 X - a.2) ^ 2 + ∑ k : Fin l.length, (accu l[k].1 X - l[k].2) ^ 2 :=
      Fin.sum_univ_succ (n := l.length) _
    rw [e1, e2]
    ring

theorem updateGradient_eq (X : Matrix n n K) (lam : Nat → K) (sigma : K) : ∀ (l : List (Matrix n n K × K)) (off : Nat)
    (s : Matrix n n K), updateGradient X lam sigma off l s =
      s - ∑ k : Fin l.length, (lam (off + k) - sigma * (accu l[k].1 X - l[k].2)) • l[k].1
  | [], off, o => by simp [updateGradient]
  | a :: l, off, s => by
    rw [updateGradient, updateGradient_eq X lam sigma l]
    have e1 : ∑ k : Fin (a :: l).length, (lam (off + k) - sigma * (accu (a :: l)[k].1 X - (a :: l)[k].2)) • (a :: l)[k].1 =
        (lam off - sigma * (accu a.1 X - a.2)) • a.1 +
          ∑ k : Fin l.length, (lam (off + 1 + k) - sigma * (accu l[k].1 X - l[k].2)) • l[k].1 := by
      refine (Fin.sum_univ_succ (n := l.length) _).trans ?_
      congr 1
      refine Finset.sum_congr rfl fun k _ => ?_
      simp [Nat.add_comm, Nat.add_left_comm]
    rw [e1]
    abel

theorem symm_gram (R : Matrix n r K) : (R * Rᵀ).IsSymm := by
  simp [Matrix.IsSymm]

theorem evalAL_eq (p : Sdp n K) (lam : Nat → K) (sigma : K) (R : Matrix n r K) :
    (evalAL p lam sigma R).2 = p.lagrangian lam sigma R := by
  have h := updateObjective_append (R * Rᵀ) lam sigma p.sparse p.dense 0 ((Rᵀ * p.C) * R).trace
  rw [Nat.zero_add] at h
  have h0 : ((Rᵀ * p.C) * R).trace = p.obj (R * Rᵀ) := by
    rw [Sdp.obj, Matrix.mul_assoc, Matrix.trace_mul_comm, Matrix.mul_assoc]
  show updateObjective (R * Rᵀ) lam sigma p.sparse.length p.dense _ = _
  rw [← h, updateObjective_eq, h0]
  simp only [Nat.zero_add, accu_eq (symm_gram R)]
  rfl

theorem gradAL_eq (p : Sdp n K) (lam : Nat → K) (sigma : K) (R : Matrix n r K) :
    gradAL p (R * Rᵀ) lam sigma R =
      (2 : K) • ((p.C - ∑ k : Fin p.all.length, (lam k - sigma * p.con k (R * Rᵀ)) • p.all[k].1) * R) := by
  have h := updateGradient_append (R * Rᵀ) lam sigma p.sparse p.dense 0 p.C
  rw [Nat.zero_add] at h
  rw [gradAL, ← h, updateGradient_eq, Matrix.smul_mul]
  simp only [Nat.zero_add, accu_eq (symm_gram R)]
  rfl

/-! ### Derivatives -/

/-- `tr (A (R + tD)(R + tD)ᵀ)` is a polynomial in `t` with linear coefficient `2 ⟨A R, D⟩` when `A` is symmetric. -/
theorem hasDerivAt_quad {A : Matrix n n ℝ} (hA : A.IsSymm) (R D : Matrix n r ℝ) :
    HasDerivAt (fun t : ℝ => (A * ((R + t • D) * (R + t • D)ᵀ)).trace) (2 * ((A * R)ᵀ * D).trace) 0 := by
  have e : (fun t : ℝ => (A * ((R + t • D) * (R + t • D)ᵀ)).trace) =
      fun t : ℝ => (A * (R * Rᵀ)).trace + (t * (2 * ((A * R)ᵀ * D).trace) + t ^ 2 * (A * (D * Dᵀ)).trace) := by
    funext t
    have h1 : (A * (D * Rᵀ)).trace = ((A * R)ᵀ * D).trace := by
      rw [← Matrix.mul_assoc, Matrix.trace_mul_comm, Matrix.transpose_mul, hA.eq, Matrix.mul_assoc]
    have h2 : (A * (R * Dᵀ)).trace = ((A * R)ᵀ * D).trace := by
      rw [← Matrix.trace_transpose, Matrix.transpose_mul, Matrix.transpose_mul, Matrix.transpose_transpose, hA.eq,
        Matrix.trace_mul_comm, h1]
    simp only [Matrix.transpose_add, Matrix.transpose_smul, Matrix.add_mul, Matrix.mul_add, Matrix.trace_add, Matrix.smul_mul,
      Matrix.mul_smul, Matrix.trace_smul, smul_eq_mul, h1, h2]
    ring
  rw [e]
  have h := ((hasDerivAt_id (0 : ℝ)).mul_const (2 * ((A * R)ᵀ * D).trace)).add
    (((hasDerivAt_id (0 : ℝ)).pow 2).mul_const (A * (D * Dᵀ)).trace)
  have h' := h.const_add (A * (R * Rᵀ)).trace
  simpa using h'

/-- **C183** For a program with symmetric matrices, any multipliers, penalty parameter, cache and coordinates: `Evaluate` of
the augmented function is the augmented Lagrangian of the program at `X = R Rᵀ`, and the `Gradient` call following it at the
same coordinates is its gradient (its inner product with any direction is the derivative along that direction). -/
theorem C183_augmented (p : Sdp n ℝ) (hC : p.C.IsSymm) (hA : ∀ a ∈ p.all, a.1.IsSymm) (lam : Nat → ℝ) (sigma : ℝ)
    (X : Matrix n n ℝ) (R : Matrix n r ℝ) :
    (call p X (.evalAL lam sigma R)).2 = .value (p.lagrangian lam sigma R) ∧
      ∃ G, (call p (call p X (.evalAL lam sigma R)).1 (.gradAL lam sigma R)).2 = .gradient G ∧
        ∀ D : Matrix n r ℝ, HasDerivAt (fun t : ℝ => p.lagrangian lam sigma (R + t • D)) (∑ i, ∑ j, G i j * D i j) 0 := by
  refine ⟨by rw [call, evalAL_eq], _, rfl, fun D => ?_⟩
  have hcon : ∀ k : Fin p.all.length, HasDerivAt (fun t : ℝ => p.con k ((R + t • D) * (R + t • D)ᵀ))
      (2 * ((p.all[k].1 * R)ᵀ * D).trace) 0 := fun k =>
    (hasDerivAt_quad (hA _ (List.getElem_mem _)) R D).sub_const _
  have hobj := hasDerivAt_quad hC R D
  have h1 := HasDerivAt.fun_sum (u := Finset.univ) fun k _ => (hcon k).const_mul (lam k)
  have h2 := HasDerivAt.fun_sum (u := Finset.univ) fun k _ => (hcon k).fun_pow 2
  have h := (hobj.sub h1).add (h2.const_mul (sigma / 2))
  have e : (fun t : ℝ => p.lagrangian lam sigma (R + t • D)) =
      ((fun t : ℝ => (p.C * ((R + t • D) * (R + t • D)ᵀ)).trace) -
        fun t : ℝ => ∑ k : Fin p.all.length, lam k * p.con k ((R + t • D) * (R + t • D)ᵀ)) +
      fun t : ℝ => sigma / 2 * ∑ k : Fin p.all.length, p.con k ((R + t • D) * (R + t • D)ᵀ) ^ 2 := rfl
  rw [e]
  refine h.congr_deriv (Eq.symm ?_)
  have ht : ∀ M : Matrix n r ℝ, ∑ i, ∑ j, M i j * D i j = (Mᵀ * D).trace := by
    intro M
    simp only [Matrix.trace, Matrix.diag, Matrix.mul_apply, Matrix.transpose_apply]
    exact Finset.sum_comm
  rw [ht]
  show (((gradAL p (R * Rᵀ) lam sigma R)ᵀ) * D).trace = _
  rw [gradAL_eq]
  simp only [Matrix.transpose_smul, Matrix.smul_mul, Matrix.trace_smul, Matrix.sub_mul, Matrix.transpose_sub, Matrix.trace_sub,
    Matrix.sum_mul, Matrix.transpose_sum, Matrix.trace_sum, smul_eq_mul, zero_smul, add_zero]
  rw [mul_sub, Finset.mul_sum, Finset.mul_sum, sub_add, ← Finset.sum_sub_distrib]
  congr 1
  refine Finset.sum_congr rfl fun k _ => ?_
  ring

/-- A program with a sparse and a dense constraint that meets the hypotheses. -/
example : let p : Sdp (Fin 2) ℝ := ⟨!![1, 2; 2, 5], [(!![0, 1; 1, 0], 3)], [(1, 1)]⟩
    p.C.IsSymm ∧ ∀ a ∈ p.all, a.1.IsSymm := by
  intro p
  refine ⟨?_, ?_⟩
  · ext i j; fin_cases i <;> fin_cases j <;> rfl
  · simp only [p, Sdp.all, List.cons_append, List.nil_append, List.mem_cons, List.not_mem_nil, or_false, forall_eq_or_imp,
      forall_eq]
    refine ⟨?_, Matrix.isSymm_one⟩
    ext i j; fin_cases i <;> fin_cases j <;> rfl

/-! ### Histories of calls -/

/-- The answer of the program itself to a call, whatever was called before. -/
def Sdp.answer (p : Sdp n K) : Call n r K → Answer n r K
  | .start _ => .none
  | .evalAL lam sigma R => .value (p.lagrangian lam sigma R)
  | .gradAL lam sigma R => .gradient
      ((2 : K) • ((p.C - ∑ k : Fin p.all.length, (lam k - sigma * p.con k (R * Rᵀ)) • p.all[k].1) * R))
  | .evaluate R => .value (p.obj (R * Rᵀ))
  | .constraint i R => if h : i < p.all.length then .value (p.con ⟨i, h⟩ (R * Rᵀ)) else .ub

/-- The answers of the code to a sequence of calls. -/
def answers (p : Sdp n K) : Matrix n n K → List (Call n r K) → List (Answer n r K)
  | _, [] => []
  | X, c :: h => (call p X c).2 :: answers p (call p X c).1 h

/-- Is every call that reads the cache made at the coordinates of the latest call that writes it? `last`: those coordinates. -/
def Coherent (p : Sdp n K) : Option (Matrix n r K) → List (Call n r K) → Prop
  | _, [] => True
  | _, .start R :: h => Coherent p (some R) h
  | _, .evalAL _ _ R :: h => Coherent p (some R) h
  | last, .gradAL _ _ R :: h => last = some R ∧ Coherent p last h
  | last, .evaluate R :: h => last = some R ∧ Coherent p last h
  | last, .constraint i R :: h => (i < p.sparse.length → last = some R) ∧ Coherent p last h

theorem constraint_eq (p : Sdp n K) {X : Matrix n n K} {i : Nat} {R : Matrix n r K}
    (hX : i < p.sparse.length → X = R * Rᵀ) :
    (call p X (.constraint i R)).2 = p.answer (.constraint i R) := by
  simp only [call, evalConstraint, Sdp.answer]
  by_cases hi : i < p.sparse.length
  · have hl : i < p.all.length := by rw [Sdp.all, List.length_append]; omega
    rw [if_pos hi, dif_pos hl, List.getElem?_eq_getElem hi, hX hi]
    simp only [Option.map_some, Sdp.con, accu_eq (symm_gram R)]
    simp [Sdp.all, List.getElem_append_left hi]
  · rw [if_neg hi]
    by_cases hl : i < p.all.length
    · have hd : i - p.sparse.length < p.dense.length := by rw [Sdp.all, List.length_append] at hl; omega
      have h0 : ∀ A : Matrix n n K, ((Rᵀ * A) * R).trace = (A * (R * Rᵀ)).trace := by
        intro A
        rw [Matrix.mul_assoc, Matrix.trace_mul_comm, Matrix.mul_assoc]
      rw [dif_pos hl, List.getElem?_eq_getElem hd]
      simp [Sdp.con, Sdp.all, List.getElem_append_right (Nat.le_of_not_lt hi), h0]
    · have hd : ¬ i - p.sparse.length < p.dense.length := by rw [Sdp.all, List.length_append] at hl; omega
      rw [dif_neg hl, List.getElem?_eq_none (Nat.le_of_not_lt hd)]
      rfl

/-- **C70** (partial) Any program, any sequence of calls in which each `Gradient`, `Evaluate` and sparse
`EvaluateConstraint` is made at the coordinates of the latest augmented `Evaluate` (or of the start of
`LRSDP::Optimize`): every answer is the one the program gives at `X = R Rᵀ`. Missing: other sequences, see
`C70_history_refuted`. -/
theorem C70_history_partial (p : Sdp n K) (X : Matrix n n K) (last : Option (Matrix n r K))
    (hX : ∀ R, last = some R → X = R * Rᵀ) (h : List (Call n r K)) (hc : Coherent p last h) :
    answers p X h = h.map p.answer := by
  induction h generalizing X last with
  | nil => rfl
  | cons c h ih =>
    rw [answers, List.map_cons]
    cases c with
    | start R =>
      exact congrArg _ (ih _ (some R) (fun R' e => by cases e; rfl) hc)
    | evalAL lam sigma R =>
      rw [ih _ (some R) (fun R' e => by cases e; rfl) hc]
      simp only [call, evalAL_eq, Sdp.answer]
    | gradAL lam sigma R =>
      obtain ⟨e, hc⟩ := hc
      have hX' := hX R e
      rw [ih (call p X (.gradAL lam sigma R)).1 last (fun R' e' => hX R' e') hc]
      simp only [call, hX', gradAL_eq, Sdp.answer]
    | evaluate R =>
      obtain ⟨e, hc⟩ := hc
      have hX' := hX R e
      rw [ih (call p X (.evaluate R)).1 last (fun R' e' => hX R' e') hc]
      simp only [call, evaluate, hX', accu_eq (symm_gram R), Sdp.answer, Sdp.obj]
    | constraint i R =>
      obtain ⟨e, hc⟩ := hc
      rw [ih (call p X (.constraint i R)).1 last (fun R' e' => hX R' e') hc, constraint_eq p fun hi => hX R (e hi)]

/-- A one-dimensional program: minimise `x` subject to `x = 1`, `x = R²`. -/
def tiny : Sdp (Fin 1) ℚ := ⟨1, [(1, 1)], []⟩

/-- The 1×1 matrix. -/
def mk1 (v : ℚ) : Matrix (Fin 1) (Fin 1) ℚ := fun _ _ => v

/-- The values in a list of answers (1×1 gradients as numbers). -/
def shown : List (Answer (Fin 1) (Fin 1) ℚ) → List (Option ℚ)
  | [] => []
  | .value v :: l => some v :: shown l
  | .gradient G :: l => some (G 0 0) :: shown l
  | _ :: l => none :: shown l

/-- The hypotheses of `C70_history_partial` are met by what L-BFGS does in an iteration whose only trial is accepted. -/
example : Coherent tiny none [.start (mk1 2), .evaluate (mk1 2), .constraint 0 (mk1 2), .evalAL (fun _ => 0) 10 (mk1 2),
    .gradAL (fun _ => 0) 10 (mk1 2), .evalAL (fun _ => 0) 10 (mk1 1), .gradAL (fun _ => 0) 10 (mk1 1), .evaluate (mk1 1)] ∧
    shown (answers tiny 0 [.start (mk1 2), .evaluate (mk1 2), .constraint 0 (mk1 2), .evalAL (fun _ => 0) 10 (mk1 2),
    .gradAL (fun _ => 0) 10 (mk1 2), .evalAL (fun _ => 0) 10 (mk1 1), .gradAL (fun _ => 0) 10 (mk1 1), .evaluate (mk1 1)]) =
    [none, some 4, some 3, some 49, some 124, some 1, some 2, some 1] := by
  refine ⟨?_, by decide +kernel⟩
  simp [Coherent, tiny]

/-- **C70** (refuted) "Evaluate, EvaluateConstraint and Gradient are those of the program at the coordinates given": after
`Evaluate` at 1, all of them answer for `X = 1` when asked at 2. -/
theorem C70_history_refuted :
    (¬ ∀ (p : Sdp (Fin 1) ℚ) (X : Matrix (Fin 1) (Fin 1) ℚ) (h : List (Call (Fin 1) (Fin 1) ℚ)),
      answers p X h = h.map p.answer) ∧
    shown (answers tiny 0 [.evalAL (fun _ => 0) 10 (mk1 1), .gradAL (fun _ => 0) 10 (mk1 2), .evaluate (mk1 2),
      .constraint 0 (mk1 2)]) = [some 1, some 4, some 1, some 0] ∧
    shown ([.evalAL (fun _ => 0) 10 (mk1 1), .gradAL (fun _ => 0) 10 (mk1 2), .evaluate (mk1 2),
      .constraint 0 (mk1 2)].map tiny.answer) = [some 1, some 124, some 4, some 3] := by
  refine ⟨fun h => ?_, by decide +kernel, by decide +kernel⟩
  have := congrArg shown (h tiny 0 [.evalAL (fun _ => 0) 10 (mk1 1), .evaluate (mk1 2)])
  revert this
  decide +kernel

/-- **C184** (refuted) "For any program the gradient after `Evaluate` at the same coordinates is that of the augmented
Lagrangian": it needs symmetric matrices. With `C = [[0, 1], [0, 0]]`, no constraints and `R = (0, 1)`, the code's gradient
has inner product 2 with `D = (1, 0)`, the derivative of `tr (C R Rᵀ)` along `D` is 1. -/
theorem C184_symmetry_refuted :
    ¬ ∀ (p : Sdp (Fin 2) ℝ) (lam : Nat → ℝ) (sigma : ℝ) (R D : Matrix (Fin 2) (Fin 1) ℝ),
      HasDerivAt (fun t : ℝ => p.lagrangian lam sigma (R + t • D))
        (∑ i, ∑ j, gradAL p (R * Rᵀ) lam sigma R i j * D i j) 0 := by
  intro h
  have h1 := h ⟨!![0, 1; 0, 0], [], []⟩ (fun _ => 0) 0 !![0; 1] !![1; 0]
  have e : (fun t : ℝ => (⟨!![0, 1; 0, 0], [], []⟩ : Sdp (Fin 2) ℝ).lagrangian (fun _ => 0) 0
      ((!![0; 1] : Matrix (Fin 2) (Fin 1) ℝ) + t • !![1; 0])) = fun t : ℝ => t := by
    funext t
    simp [Sdp.lagrangian, Sdp.obj, Matrix.trace, Matrix.mul_apply, Fin.sum_univ_two, Matrix.vecMul, dotProduct]
  rw [e] at h1
  have h2 := h1.unique (hasDerivAt_id' (0 : ℝ))
  simp [gradAL, updateGradient, Matrix.mul_apply, Fin.sum_univ_two] at h2

end Ens.Lrsdp
