/-
Model of `GridSearch::Optimize` (/repo/include/ensmallen_bits/grid_search/grid_search_impl.hpp).

Coordinates are lists of category numbers (a column vector); the objective may be stateful.
-/

namespace Ens.Grid

/-- `bestObjective`, `bestParameters`, `currentParameters`, the objective's own state, and the list
of evaluations made so far. -/
structure St (W E : Type) where
  w : W
  bestObj : E
  best : List Nat
  cur : List Nat
  evald : List (List Nat × E)

variable {W E : Type} [LT E] [DecidableLT E]

/-- One evaluation (lines 86-91). -/
def evalCurrent (F : W → List Nat → W × E) (s : St W E) : St W E :=
  let r := F s.w s.cur
  let s := { s with w := r.1, evald := s.evald ++ [(s.cur, r.2)] }
  if r.2 < s.bestObj then { s with bestObj := r.2, best := s.cur } else s

mutual
/-- The recursive overload (lines 57-93) for dimension `i`, `rem` dimensions left.  Reading
`numCategories(i)` out of range is an Armadillo error (`none`). -/
def search (F : W → List Nat → W × E) (numCategories : List Nat) :
    (rem i : Nat) → St W E → Option (St W E)
  | 0, _, s => some (evalCurrent F s)
  | rem + 1, i, s =>
    match numCategories[i]? with
    | none => none
    | some c => forJ F numCategories rem i c 0 s
termination_by rem => (rem, 0)

/-- The `for` over the category values `j, j+1, ...` (`n` left), lines 77-82. -/
def forJ (F : W → List Nat → W × E) (numCategories : List Nat) (rem i : Nat) :
    (n j : Nat) → St W E → Option (St W E)
  | 0, _, s => some s
  | n + 1, j, s =>
    match search F numCategories rem (i + 1) { s with cur := s.cur.set i j } with
    | none => none
    | some s' => forJ F numCategories rem i n (j + 1) s'
termination_by n => (rem, n + 1)
end

inductive Outcome (W E : Type) where
  | invalidArgument
  | outOfBounds
  | ok (s : St W E)

/-- The public `Optimize` (lines 20-55). `maxVal` is `std::numeric_limits<ElemType>::max()`. -/
def optimize (F : W → List Nat → W × E) (maxVal : E) (categorical : List Bool)
    (numCategories : List Nat) (w : W) : Outcome W E :=
  if categorical.all id then
    let d := categorical.length
    match search F numCategories d 0 ⟨w, maxVal, List.replicate d 0, List.replicate d 0, []⟩ with
    | none => .outOfBounds
    | some s => .ok s
  else .invalidArgument

end Ens.Grid
