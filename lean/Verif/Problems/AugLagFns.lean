import Verif.Problems.Base
import Mathlib.Analysis.Calculus.Deriv.Pow
import Mathlib.Analysis.Calculus.Deriv.Abs
import Mathlib.Analysis.InnerProductSpace.Calculus
import Mathlib.Tactic.FinCases
import Mathlib.Tactic.Linarith

/-
The constrained test problems, problems/aug_lagrangian_test_functions.hpp (18-170) and
problems/aug_lagrangian_test_functions_impl.hpp (20-290), over ℝ: the function of Snyman (`AugLagrangianTestFunction`),
`GockenbachFunction` and `LovaszThetaSDP`.

Simplified: exact arithmetic in place of floating point; coordinates have the shape the problem expects (two or three entries, one
column per vertex); an edge is a pair of vertices below the number of vertices (a fractional or larger entry of `edges` indexes out of
bounds in the code).  `LovaszThetaSDP::GetInitialPoint` is not modelled.
-/

namespace Ens.Problems

/-- AugLagrangianTestFunction::Evaluate, problems/aug_lagrangian_test_functions_impl.hpp 36-42. -/
def snyman (x : Fin 2 → ℝ) : ℝ := 6 * x 0 ^ 2 + 4 * (x 0 * x 1) + 3 * x 1 ^ 2

/-- AugLagrangianTestFunction::Gradient, problems/aug_lagrangian_test_functions_impl.hpp 44-53. -/
def snymanGrad (x : Fin 2 → ℝ) : Fin 2 → ℝ := ![12 * x 0 + 4 * x 1, 4 * x 0 + 6 * x 1]

/-- AugLagrangianTestFunction::EvaluateConstraint, problems/aug_lagrangian_test_functions_impl.hpp 55-64. -/
def snymanCon (index : Nat) (x : Fin 2 → ℝ) : ℝ := if index ≠ 0 then 0 else x 0 + x 1 - 5

/-- AugLagrangianTestFunction::GradientConstraint, problems/aug_lagrangian_test_functions_impl.hpp 66-80. -/
def snymanConGrad (index : Nat) : Fin 2 → ℝ := if index = 0 then ![1, 1] else ![0, 0]

/-- GockenbachFunction::GockenbachFunction(), problems/aug_lagrangian_test_functions_impl.hpp 85-90: the initial point. -/
def gockenbachInit : Fin 3 → ℝ := ![0, 0, 1]

/-- GockenbachFunction::Evaluate, problems/aug_lagrangian_test_functions_impl.hpp 98-106. -/
def gockenbach (x : Fin 3 → ℝ) : ℝ := (x 0 - 1) ^ 2 + 2 * (x 1 + 2) ^ 2 + 3 * (x 2 + 3) ^ 2

/-- GockenbachFunction::Gradient, problems/aug_lagrangian_test_functions_impl.hpp 108-120. -/
def gockenbachGrad (x : Fin 3 → ℝ) : Fin 3 → ℝ := ![2 * (x 0 - 1), 4 * (x 1 + 2), 6 * (x 2 + 3)]

/-- GockenbachFunction::EvaluateConstraint, problems/aug_lagrangian_test_functions_impl.hpp 122-146. -/
noncomputable def gockenbachCon : Nat → (Fin 3 → ℝ) → ℝ
  | 0, x => x 2 - x 1 - x 0 - 1
  | 1, x => min 0 (x 2 - x 0 ^ 2)
  | _, _ => 0

/-- GockenbachFunction::GradientConstraint, problems/aug_lagrangian_test_functions_impl.hpp 148-174. -/
def gockenbachConGrad : Nat → (Fin 3 → ℝ) → (Fin 3 → ℝ)
  | 0, _ => ![-1, -1, 1]
  | 1, x => ![-2 * x 0, 0, 1]
  | _, _ => ![0, 0, 0]

/-- A matrix of coordinates, `r` rows and `n` columns, as a function of the pair of indices. -/
abbrev Coord (r n : Nat) := Fin r × Fin n → ℝ

section Lovasz

variable {r n : Nat}

/-- (RᵀR)(i, j), the scalar product of columns `i` and `j` of `R`. -/
def gram (R : Coord r n) (i j : Fin n) : ℝ := ∑ a, R (a, i) * R (a, j)

/-- LovaszThetaSDP::Evaluate, problems/aug_lagrangian_test_functions_impl.hpp 193-201. -/
def lovasz (R : Coord r n) : ℝ := -∑ i, ∑ j, gram R i j

/-- The matrix A of an edge, problems/aug_lagrangian_test_functions_impl.hpp 233-238. -/
def edgeMat (e : Fin n × Fin n) (i j : Fin n) : ℝ :=
  if (i, j) = (e.2, e.1) then 1 else if (i, j) = (e.1, e.2) then 1 else 0

/-- The matrix S' of LovaszThetaSDP::Gradient, problems/aug_lagrangian_test_functions_impl.hpp 211-246 (the loop over the
constraints: index 0 is the trace, index `k + 1` the edge `k`), for square coordinates. -/
noncomputable def lovaszS (es : List (Fin n × Fin n)) (R : Coord n n) (i j : Fin n) : ℝ :=
  es.foldl (fun s e => s - (-1 - 0.5 * ∑ k, ∑ l, edgeMat e k l * gram R k l) * edgeMat e i j)
    (-1 - (-(n : ℝ) - 0.5 * ((∑ k, ∑ l, R (l, k) * R (k, l)) - 1)) * if i = j then 1 else 0)

/-- LovaszThetaSDP::Gradient, problems/aug_lagrangian_test_functions_impl.hpp 203-251.  `none`: the element-wise product of `Rᵀ` and
`R` (line 223) throws unless `R` is square.  The result is `trans(2 * s * trans(R))`. -/
noncomputable def lovaszGrad (es : List (Fin n × Fin n)) (R : Coord r n) : Option (Coord r n) :=
  if h : r = n then
    some fun p => 2 * ∑ k, lovaszS es (fun q => R (Fin.cast h.symm q.1, q.2)) p.2 k * R (p.1, k)
  else none

/-- LovaszThetaSDP::EvaluateConstraint, problems/aug_lagrangian_test_functions_impl.hpp 259-276; `none`: no such edge. -/
noncomputable def lovaszCon (es : List (Fin n × Fin n)) : Nat → Option (Coord r n → ℝ)
  | 0 => some fun R => -1 + ∑ i, |gram R i i|
  | k + 1 => es[k]?.map fun e R => |gram R e.1 e.2|

/-- LovaszThetaSDP::GradientConstraint, problems/aug_lagrangian_test_functions_impl.hpp 278-304: column `i` is set to column `j` of
`R`, then column `i` of `R` is added to column `j`. -/
def lovaszConGrad (es : List (Fin n × Fin n)) (R : Coord r n) : Nat → Option (Coord r n)
  | 0 => some fun p => 2 * R p
  | k + 1 => es[k]?.map fun e p =>
      (if p.2 = e.1 then R (p.1, e.2) else 0) + if p.2 = e.2 then R (p.1, e.1) else 0

end Lovasz

end Ens.Problems
