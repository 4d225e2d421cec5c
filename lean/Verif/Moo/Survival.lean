import Mathlib.Algebra.Order.Field.Basic
import Mathlib.Algebra.Order.Ring.WithTop
import Mathlib.Data.List.Sort
import Mathlib.Tactic.Positivity
import Mathlib.Tactic.Ring
import Verif.Moo.Agemoea

/-
AGEMOEA: `SurvivalScoreAssignment` and what it calls (`agemoea/agemoea_impl.hpp:426-582, 671-799`): model.

Exact arithmetic over an ordered field, with the infinities of the code as `⊤` and explicit cases for the divisions by zero
that the code tolerates. A front is a list of indices; "position" is an index into the front.
-/

namespace Ens.Moo.Agemoea

open Ens.Moo

/-- `std::pow`/`arma::pow`, `std::log` and `arma::solve(A, ones)` for the rows `A`: `none` if it throws, `some none` if the
result has infinite or NaN entries. -/
structure Ops (K : Type) where
  pow : K → K → K
  log : K → K
  solve : Nat → (Nat → Nat → K) → Option (Option (Nat → K))

variable {K : Type} [Field K] [LinearOrder K]

/-- `front[i]`. -/
def member (front : List Nat) (i : Nat) : Nat := front.getD i 0

/-- `arma::dot` of vectors with `m` entries. -/
def dot (m : Nat) (a b : Nat → K) : K := accu m fun k => a k * b k

/-- One entry of `PointToLineDistance` (573-580). -/
def lineDistance (m : Nat) (a b x : Nat → K) : K :=
  let ba := fun k => b k - a k
  let pa := fun k => x k - a k
  let t := dot m pa ba / dot m ba ba
  accu m fun k => (pa k - t * ba k) ^ 2

/-- `arma::index_min` of `n` entries: the first smallest; 0 if all are infinite. -/
def indexMin (n : Nat) (d : Nat → WithTop K) : Nat :=
  ((List.range n).foldl (fun s i => if d i < s.2 then (i, d i) else s) ((0, ⊤) : Nat × WithTop K)).1

/-- `arma::index_max` of `n` entries: the first greatest. -/
def indexMax (n : Nat) (v : Nat → K) : Nat :=
  ((List.range n).foldl (fun s i => if s.2 < (v i : WithBot K) then (i, (v i : WithBot K)) else s)
    ((0, ⊥) : Nat × WithBot K)).1

/-- `W.col(i)` (544-545). -/
def axis (i k : Nat) : K := (if k = i then 1 else 0) + 1 / 1000000

/-- `FindExtremePoints` (529-557): the positions found, in order. -/
def extremes (m : Nat) (front : List Nat) (objs : Nat → Nat → K) : List Nat :=
  if front.length ≤ m then List.range front.length
  else (List.range m).foldl (fun sel i => sel ++ [indexMin front.length fun j =>
    if j ∈ sel then ⊤ else ((lineDistance m (fun _ => 0) (axis i) (objs (member front j)) : K) : WithTop K)]) []

/-- `arma::max(vectorizedObjectives, 1)` (449, 456, 467, 473, 480). -/
def frontMax (front : List Nat) (objs : Nat → Nat → K) (k : Nat) : K :=
  front.tail.foldl (fun acc p => max acc (objs p k)) (objs (member front 0) k)

/-- `normalization + (normalization == 0)` (468, 483). -/
def fixZero (v : Nat → K) (k : Nat) : K := v k + if v k = 0 then 1 else 0

/-- `NormalizeFront` (427-484). -/
def normalizeFront (o : Ops K) (m : Nat) (front extreme : List Nat) (objs : Nat → Nat → K) : Nat → K :=
  let top := frontMax front objs
  if front.length < m then top
  else if ¬ extreme.Nodup then top
  else
    match o.solve m (fun i k => objs (member front (extreme.getD i 0)) k) with
    | none => fixZero top
    | some none => fixZero top
    | some (some h) =>
      if ∃ k ∈ List.range m, h k < 0 then fixZero top
      else if ∃ k ∈ List.range m, h k = 0 then fixZero top
      else fixZero fun k => 1 / h k

/-- `GetGeometry` (486-509), from the average `avg` of the point nearest to the diagonal. `1 / 0` and `log` of it are
infinite, so that `p = 0` is replaced by 1; a negative average gives NaN, likewise; `log 1 = 0` makes `p` infinite. -/
def exponent (o : Ops K) (m : Nat) (avg : K) : WithTop K :=
  if avg ≤ 0 then 1
  else if o.log (1 / avg) = 0 then (if o.log m = 0 then 1 else ⊤)
  else if o.log m / o.log (1 / avg) ≤ 1 / 10 then 1
  else ((o.log m / o.log (1 / avg) : K) : WithTop K)

def geometry (o : Ops K) (m : Nat) (front extreme : List Nat) (objs : Nat → Nat → K) : WithTop K :=
  let i := indexMin front.length fun j =>
    if j ∈ extreme then ⊤ else ((lineDistance m (fun _ => 0) (fun _ => 1) (objs (member front j)) : K) : WithTop K)
  exponent o m (accu m (objs (member front i)) / m)

/-- `pow(accu(pow(abs(v), p)), 1.0 / p)` (523, 768-769, 793-795); with `p` infinite the outer exponent is 0. -/
def minkowski (o : Ops K) (m : Nat) (p : WithTop K) (v : Nat → K) : K :=
  match p with
  | ⊤ => 1
  | (q : K) => o.pow (accu m fun k => o.pow |v k| q) (1 / q)

/-- `pairwise(s, t)` after the division of column `t` (513-527, 766-770); `none` is a division by zero (infinite or NaN). -/
def pairwise (o : Ops K) (m : Nat) (p : WithTop K) (front : List Nat) (objs : Nat → Nat → K) (s t : Nat) : Option K :=
  let den := minkowski o m p (objs (member front t))
  if den = 0 then none
  else some ((if s = t then 0
    else minkowski o m p fun k => objs (member front s) k - objs (member front t) k) / den)

/-- Loop body of `DiversityScore` (682-694). Infinite and NaN entries pass neither comparison. -/
def diversityStep (f : Nat → Nat → Option K) (S : Nat) (s : WithTop K × WithTop K) (t : Nat) : WithTop K × WithTop K :=
  if t = S then s
  else
    match f S t with
    | none => s
    | some v => if (v : WithTop K) < s.1 then (v, s.1) else if (v : WithTop K) < s.2 then (s.1, v) else s

/-- `DiversityScore` (672-698); `selected` in ascending order. -/
def diversity (selected : List Nat) (f : Nat → Nat → Option K) (S : Nat) : K :=
  let r := selected.foldl (diversityStep f S) (⊤, ⊤)
  r.1.untopD 0 + r.2.untopD 0

/-- State of the loop 772-784. `selected` in order of insertion; `score` is indexed by the population. -/
structure Sel (K : Type) where
  selected : List Nat
  remaining : List Nat
  score : Nat → WithTop K

/-- A `std::set` of positions, in the order of its iterators. -/
def ascending (n : Nat) (l : List Nat) : List Nat := (List.range n).filter fun i => i ∈ l

/-- `value` (775-779). -/
def values (front : List Nat) (f : Nat → Nat → Option K) (s : Sel K) (i : Nat) : K :=
  if i ∈ s.remaining then diversity (ascending front.length s.selected) f i else -1

/-- Body of the loop 772-784. -/
def pickNext (front : List Nat) (f : Nat → Nat → Option K) (s : Sel K) : Sel K :=
  let i := indexMax front.length (values front f s)
  ⟨s.selected ++ [i], s.remaining.erase i,
    Function.update s.score (member front i) ((values front f s i : K) : WithTop K)⟩

/-- The loop 772-784; `none`: fuel exhausted. -/
def pickAll (front : List Nat) (f : Nat → Nat → Option K) : Nat → Sel K → Option (Sel K)
  | 0, s => if s.remaining = [] then some s else none
  | fuel + 1, s => if s.remaining = [] then some s else pickAll front f fuel (pickNext front f s)

/-- The sets before the loop (740-758). -/
def startSel (front extreme : List Nat) (score : Nat → WithTop K) : Sel K :=
  ⟨extreme, (List.range front.length).filter fun i => i ∉ extreme,
    extreme.foldl (fun sc i => Function.update sc (member front i) ⊤) score⟩

/-- `fNum == 0` (714-785): the normalisation, the exponent and the scores. `objs` are not yet shifted. -/
def firstFrontScores (o : Ops K) (m : Nat) (front : List Nat) (ideal : Nat → K) (objs : Nat → Nat → K)
    (score : Nat → WithTop K) : Option ((Nat → K) × WithTop K × (Nat → WithTop K)) :=
  if front.length < m then
    some (normalizeFront o m front (List.replicate m 0) objs, 1, score)
  else
    let shifted := fun i k => objs i k - ideal k
    let ext := extremes m front shifted
    let norm := normalizeFront o m front ext shifted
    let scaled := fun i k => shifted i k / norm k
    let p := geometry o m front ext scaled
    match pickAll front (pairwise o m p front scaled) front.length (startSel front ext score) with
    | none => none
    | some s => some (norm, p, s.score)

/-- `1.0 / x`. -/
def reciprocal (x : K) : WithTop K := if x = 0 then ⊤ else ((1 / x : K) : WithTop K)

/-- The other fronts (788-798). -/
def laterScores (o : Ops K) (m : Nat) (ideal norm : Nat → K) (p : WithTop K) (objs : Nat → Nat → K)
    (later : List Nat) (score : Nat → WithTop K) : Nat → WithTop K :=
  later.foldl (fun sc i => Function.update sc i
    (reciprocal (minkowski o m p fun k => objs i k / norm k - ideal k))) score

/-- The loop over the fronts (162-179): the vector `normalize` and the scores. -/
def survival (o : Ops K) (m : Nat) (fronts : List (List Nat)) (objs : Nat → Nat → K) :
    Option ((Nat → K) × (Nat → WithTop K)) :=
  match fronts with
  | (first :: rest) :: later =>
    let ideal := idealPoint objs first rest
    match firstFrontScores o m (first :: rest) ideal objs (fun _ => 0) with
    | none => none
    | some (norm, p, sc) => some (norm, laterScores o m ideal norm p objs later.flatten sc)
  | _ => none

/-- AGEMOEA with its own survival scores. -/
def withSurvival {W I : Type} (env : Moo.Env W I K) (o : Ops K) (m : Nat) : Env W I K where
  toEnv := env
  norm := fun fronts objs => ((survival o m fronts objs).getD (fun _ => 0, fun _ => 0)).1
  score := fun fronts objs => ((survival o m fronts objs).getD (fun _ => 0, fun _ => 0)).2

end Ens.Moo.Agemoea
