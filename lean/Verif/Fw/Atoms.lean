import Mathlib.Analysis.InnerProductSpace.Basic
import Verif.Fw.Model
import Verif.Fw.Proximal

/-
Atoms of Frank-Wolfe with the square loss: `FuncSq` (fw/func_sq.hpp), `Atoms` (fw/atoms.hpp), the update rules `UpdateSpan`
(fw/update_span.hpp) and `UpdateFullCorrection` (fw/update_full_correction.hpp).

Coordinates are vectors of a real inner product space `X`, the matrix `A` is a linear map to a space `Y` with its transpose
`At`. `arma::solve` is a parameter. Columns of `currentAtoms`, `currentCoeffs` and `atomSqTerm` are lists.
-/

namespace Ens.Fw



open scoped RealInnerProductSpace

variable {X Y : Type} [NormedAddCommGroup X] [InnerProductSpace ℝ X] [NormedAddCommGroup Y] [InnerProductSpace ℝ Y]

/-- `FuncSq` members (fw/func_sq.hpp:70-75); `At` is `A.t()`. -/
structure FuncSq (X Y : Type) [NormedAddCommGroup X] [InnerProductSpace ℝ X] [NormedAddCommGroup Y]
    [InnerProductSpace ℝ Y] where
  A : X →ₗ[ℝ] Y
  At : Y →ₗ[ℝ] X
  b : Y

/-- `FuncSq::Evaluate` (fw/func_sq.hpp:41-45). -/
noncomputable def FuncSq.eval (f : FuncSq X Y) (x : X) : ℝ := ⟪f.A x - f.b, f.A x - f.b⟫ * 0.5

/-- `FuncSq::Gradient` (fw/func_sq.hpp:54-58). -/
def FuncSq.grad (f : FuncSq X Y) (x : X) : X := f.At (f.A x - f.b)

/-- `Atoms` members (fw/atoms.hpp:205-214). -/
structure Atoms (X : Type) where
  atoms : List X
  coeffs : List ℝ
  sq : List ℝ

/-- `Atoms::Atoms` (fw/atoms.hpp:27). -/
def Atoms.empty : Atoms X := ⟨[], [], []⟩

/-- A matrix with the given columns times a coefficient vector. -/
def comb {Z : Type} [NormedAddCommGroup Z] [InnerProductSpace ℝ Z] (c : List ℝ) (l : List Z) : Z :=
  (List.zipWith (fun a v => a • v) c l).sum

/-- `Atoms::AddAtom` (fw/atoms.hpp:35-56): the new atom comes first. -/
noncomputable def Atoms.add (f : FuncSq X Y) (a : Atoms X) (v : X) (c : ℝ) : Atoms X :=
  if a.atoms.isEmpty then ⟨[v], [c], [‖f.A v‖ ^ 2]⟩
  else ⟨v :: a.atoms, c :: a.coeffs, ‖f.A v‖ ^ 2 :: a.sq⟩

/-- `Atoms::RecoverVector` (fw/atoms.hpp:60-63). -/
def Atoms.recover (a : Atoms X) : X := comb a.coeffs a.atoms

/-- `index_min`: the first index of a least entry. -/
noncomputable def indexMin (l : List ℝ) : Nat :=
  l.findIdx fun x => decide (∀ y ∈ l, x ≤ y)

/-- The vector `gap` (fw/atoms.hpp:97-98). -/
noncomputable def gaps (f : FuncSq X Y) (a : Atoms X) (sqTerm : List ℝ) : List ℝ :=
  let g := f.grad a.recover
  List.zipWith (fun q p => q - p) sqTerm (List.zipWith (fun c v => c * ⟪g, v⟫) a.coeffs a.atoms)

/-- One pass of the loop of `Atoms::PruneSupport` (fw/atoms.hpp:88-132) with its condition. -/
noncomputable def pruneBody (f : FuncSq X Y) (solve : List Y → Y → List ℝ) (F : ℝ) (t : Atoms X × List ℝ) :
    (Atoms X × List ℝ) ⊕ Atoms X :=
  if t.1.atoms.length > 1 then
    let ind := indexMin (gaps f t.1 t.2)
    let newAtoms := t.1.atoms.eraseIdx ind
    let newCoeffs := solve (newAtoms.map f.A) f.b
    let Fnew := f.eval (comb newCoeffs newAtoms)
    if Fnew > F then .inr t.1
    else .inl (⟨newAtoms, newCoeffs, t.1.sq.eraseIdx ind⟩, t.2.eraseIdx ind)
  else .inr t.1

/-- `Atoms::PruneSupport` (fw/atoms.hpp:84-133); every pass deletes an atom. -/
noncomputable def Atoms.prune (f : FuncSq X Y) (solve : List Y → Y → List ℝ) (F : ℝ) (a : Atoms X) : Option (Atoms X) :=
  iterate (pruneBody f solve F) (a.atoms.length + 1) (a, List.zipWith (fun q c => 0.5 * q * c ^ 2) a.sq a.coeffs)

/-- `UpdateSpan::Update` (fw/update_span.hpp:49-77); `none`: pruning did not end (excluded in `prune_total`). -/
noncomputable def updateSpan (f : FuncSq X Y) (solve : List Y → Y → List ℝ) (isPrune : Bool) (a : Atoms X) (x s : X) :
    Option (Atoms X × X) :=
  let a1 := a.add f s 0
  let a2 : Atoms X := { a1 with coeffs := solve (a1.atoms.map f.A) f.b }
  let new := a2.recover
  if isPrune then
    let F := 0.25 * f.eval x + 0.75 * f.eval new
    (a2.prune f solve F).map fun a3 => (a3, a3.recover)
  else some (a2, new)

open scoped Classical in
/-- `(1.0 - gamma) * ...` with the explicit line search of fw/update_full_correction.hpp:68-73; `none`: 0/0. -/
noncomputable def fcGamma (f : FuncSq X Y) (tau : ℝ) (x s : X) : Option ℝ :=
  let v := tau • s - x
  if f.A v = 0 then none
  else some (min (⟪f.b - f.A x, f.A v⟫ / ‖f.A v‖ ^ 2) 1)

/-- The projected coefficients as numbers; `none` if one is infinite or NaN. -/
def numbers : List (Proximal.Entry ℝ) → Option (List ℝ)
  | [] => some []
  | .fin x :: l => (numbers l).map (x :: ·)
  | _ :: _ => none

/-- The loop of `Atoms::ProjectedGradientEnhancement` (fw/atoms.hpp:173-191), `k` passes left, current `value`. -/
noncomputable def enhanceLoop (f : FuncSq X Y) (tau step tol : ℝ) : Nat → Atoms X → ℝ → Option (Atoms X)
  | 0, a, _ => some a
  | k + 1, a, value =>
    let g := f.grad a.recover
    let c := List.zipWith (fun c v => c - step * ⟪v, g⟫) a.coeffs a.atoms
    match numbers (Proximal.projectL1 c tau) with
    | none => none
    | some c' =>
      let a' : Atoms X := { a with coeffs := c' }
      let valueNew := f.eval a'.recover
      if value - valueNew < tol then some a' else enhanceLoop f tau step tol k a' valueNew

/-- `Atoms::ProjectedGradientEnhancement` (fw/atoms.hpp:163-192): `iter` runs from 1 to `maxIteration - 1`. -/
noncomputable def Atoms.enhance (f : FuncSq X Y) (tau step : ℝ) (maxIteration : Nat) (tol : ℝ) (a : Atoms X) : Option (Atoms X) :=
  enhanceLoop f tau step tol (maxIteration - 1) a (f.eval a.recover)

/-- `UpdateFullCorrection::Update` (fw/update_full_correction.hpp:61-82), with the defaults `maxIteration = 100`,
`tolerance = 1e-3` of the enhancement. -/
noncomputable def updateFullCorrection (f : FuncSq X Y) (tau step : ℝ) (a : Atoms X) (x s : X) : Option (Atoms X × X) :=
  match fcGamma f tau x s with
  | none => none
  | some gamma =>
    let a1 : Atoms X := { a with coeffs := a.coeffs.map fun c => (1 - gamma) * c }
    let a2 := a1.add f s (gamma * tau)
    (a2.enhance f tau step 100 0.001).map fun a3 => (a3, a3.recover)

end Ens.Fw
