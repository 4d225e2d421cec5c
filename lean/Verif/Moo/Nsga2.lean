import Mathlib.Algebra.Order.Field.Basic
import Mathlib.Algebra.Order.Field.Rat
import Mathlib.Algebra.BigOperators.Group.List.Basic
import Mathlib.Data.Rat.Defs
import Verif.Moo.Pareto

/-
NSGA2 (`nsga2/nsga2_impl.hpp`): model.
-/

namespace Ens.Moo

variable {W I R : Type}

/-- User code and library randomness used by NSGA2.
* `evaluate w k x`: call of the `k`-th objective;
* `initial`: `arma::randu(...) - 0.5 + iterate` (134-135);
* `clamp`: `arma::min(arma::max(x, lowerBound), upperBound)` (138, 334);
* `pick`: `arma::randi(0, populationSize - 1)` (279-280);
* `cross`: `Crossover` (294, 310-322; see `crossover` below);
* `perturb`: the noise added by `Mutate` (330-331);
* `approx`: `arma::approx_equal(_, _, "absdiff", epsilon)` (181, 184);
* `sort`: `std::sort` with the given comparison (174);
* `sortIdx`: `std::sort` of `sortedIdx` by the given values (448);
* `cbBegin`, `cbGen`: the callbacks; `maxVal`: `std::numeric_limits::max()`. -/
structure Env (W I R : Type) where
  evaluate : W → Nat → I → W × R
  initial : W → I → W × I
  clamp : I → I
  pick : W → W × Nat
  cross : W → I → I → W × I × I
  perturb : W → I → W × I
  approx : I → I → Bool
  sort : (I → I → Bool) → List I → List I
  sortIdx : (Nat → R) → List Nat → List Nat
  cbBegin : W → I → W
  cbGen : W → List I → (Nat → Nat → R) → List (List Nat) → W × Bool
  maxVal : R

/-- The argument check (nsga2_impl.hpp:73-77, agemoea_impl.hpp:68-72): does the call throw? -/
def guardThrows (populationSize : Nat) : Bool :=
  decide (populationSize < 4) && decide (populationSize % 4 ≠ 0)

/-- `Crossover` (nsga2_impl.hpp:310-322) on genes; `idx i` is the outcome of the random comparison. -/
def crossover {K : Type} [Ring K] (idx : Nat → Bool) (a b : Nat → K) : (Nat → K) × (Nat → K) :=
  let m : Nat → K := fun i => if idx i then 1 else 0
  (fun i => a i * m i + b i * (1 - m i), fun i => a i * (1 - m i) + a i * m i)

/-- The random initial population (nsga2_impl.hpp:132-139). -/
def initialPopulation (env : Env W I R) (x : I) : Nat → W → W × List I
  | 0, w => (w, [])
  | n + 1, w =>
    let d := env.initial w x
    let r := initialPopulation env x n d.1
    (r.1, env.clamp d.2 :: r.2)

/-- The choice of two parents (nsga2_impl.hpp:279-289, agemoea_impl.hpp:291-301). -/
def parents (env : Env W I R) (populationSize : Nat) (w : W) : W × Nat × Nat :=
  let a := env.pick w
  let b := env.pick a.1
  let indexB := if a.2 = b.2 then (if b.2 < populationSize - 1 then b.2 + 1 else b.2 - 1) else b.2
  (b.1, a.2, indexB)

/-- One pass of the loop of `BinaryTournamentSelection` (nsga2_impl.hpp:278-301); `none` is an access outside
the population. -/
def breedTwo (env : Env W I R) (populationSize : Nat) (pop : List I) (w : W) : Option (W × I × I) := do
  let p := parents env populationSize w
  let a ← pop[p.2.1]?
  let b ← pop[p.2.2]?
  let c := env.cross p.1 a b
  let ma := env.perturb c.1 c.2.1
  let mb := env.perturb ma.1 c.2.2
  some (mb.1, env.clamp ma.2, env.clamp mb.2)

/-- The loop of `BinaryTournamentSelection` (nsga2_impl.hpp:274-302): two children per pass until there are at
least as many children as members, i.e. `⌈size / 2⌉` passes. -/
def breed (env : Env W I R) (populationSize : Nat) (pop : List I) : Nat → W → Option (W × List I)
  | 0, w => some (w, [])
  | n + 1, w => do
    let r ← breedTwo env populationSize pop w
    let rest ← breed env populationSize pop n r.1
    some (rest.1, r.2.1 :: r.2.2 :: rest.2)

/-- Entry `(i, k)` of `calculatedObjectives` assigned. -/
def setObj (o : Nat → Nat → R) (i k : Nat) (v : R) : Nat → Nat → R :=
  Function.update o i (Function.update (o i) k v)

/-- `EvaluateObjectives<k>` (nsga2_impl.hpp:255-266, agemoea_impl.hpp:267-278, moead_impl.hpp:424-437) on the
individuals `pop`; `rem` is the number of objectives from `k` on. The recursive call for the next objective is
inside the loop over the individuals. -/
def evaluateObjectives (evaluate : W → Nat → I → W × R) (pop : List I) :
    (rem k : Nat) → W × (Nat → Nat → R) → W × (Nat → Nat → R)
  | 0, _, s => s
  | rem + 1, k, s =>
    pop.zipIdx.foldl
      (fun s p =>
        let e := evaluate s.1 k p.1
        evaluateObjectives evaluate pop rem (k + 1) (e.1, setObj s.2 p.2 k e.2)) s

/-- Position of the last member approximately equal to `x`, 0 if there is none (nsga2_impl.hpp:178-186). -/
def lastIdx (approx : I → I → Bool) (pop : List I) (x : I) : Nat :=
  pop.zipIdx.foldl (fun acc p => if approx p.1 x then p.2 else acc) 0

/-- `CrowdingOperator` (nsga2_impl.hpp:473-484), `SurvivalScoreOperator` (agemoea_impl.hpp:803-815). -/
def crowdingOperator [LT R] [DecidableLT R] (ranks : Nat → Nat) (crowd : Nat → R) (p q : Nat) : Bool :=
  decide (ranks p < ranks q) || (decide (ranks p = ranks q) && decide (crowd q < crowd p))

/-- Additions of the inner loop of `CrowdingDistanceAssignment` for the positions in the list
(nsga2_impl.hpp:463-467). -/
def crowdAdd [Field R] (key : Nat → Nat) (term : Nat → R) (l : List Nat) (cd : Nat → R) : Nat → R :=
  l.foldl (fun cd i => Function.update cd (key i) (cd (key i) + term i)) cd

/-- Body of the loop over the objectives of `CrowdingDistanceAssignment` (nsga2_impl.hpp:439-467). The state is
(`sortedIdx`, `crowdingDistance`). Fronts are non-empty (C30), the `getD` defaults are never used. -/
def crowdStep [Field R] [LinearOrder R] (sortIdx : (Nat → R) → List Nat → List Nat) (maxVal : R)
    (front : List Nat) (obj : Nat → Nat → R) (s : List Nat × (Nat → R)) (m : Nat) :
    List Nat × (Nat → R) :=
  let fSize := front.length
  let fValues : Nat → R := fun j => obj (front.getD j 0) m
  let sorted := sortIdx fValues s.1
  let key : Nat → Nat := fun i => front.getD (sorted.getD i 0) 0
  let v : Nat → R := fun i => fValues (sorted.getD i 0)
  let cd := Function.update (Function.update s.2 (key 0) maxVal) (key (fSize - 1)) maxVal
  let diff := |v (fSize - 1) - v 0|
  let scale := if diff = 0 then 1 else diff
  (sorted, crowdAdd key (fun i => (v (i + 1) - v (i - 1)) / scale)
    ((List.range (fSize - 2)).map (· + 1)) cd)

/-- `CrowdingDistanceAssignment` (nsga2_impl.hpp:425-469). -/
def crowdingDistance [Field R] [LinearOrder R] (sortIdx : (Nat → R) → List Nat → List Nat) (maxVal : R)
    (numObjectives : Nat) (obj : Nat → Nat → R) (cd : Nat → R) (front : List Nat) : Nat → R :=
  ((List.range numObjectives).foldl (crowdStep sortIdx maxVal front obj)
    (List.range front.length, cd)).2

structure St (W I R : Type) where
  w : W
  pop : List I
  objs : Nat → Nat → R
  /-- `calculatedObjectives.size()` -/
  objSize : Nat
  fronts : List (List Nat)
  ranks : Nat → Nat
  terminate : Bool
  /-- populations after each generation, latest last -/
  history : List (List I)

/-- Body of the generation loop (nsga2_impl.hpp:146-198); `none` is an access out of bounds. -/
def generation [Field R] [LinearOrder R] (env : Env W I R) (populationSize numObjectives : Nat)
    (s : St W I R) : Option (St W I R) := do
  let b ← breed env populationSize s.pop ((s.pop.length + 1) / 2) s.w
  let pop2 := s.pop ++ b.2
  let e := evaluateObjectives env.evaluate (pop2.take populationSize) numObjectives 0 (b.1, fun _ _ => 0)
  let dom := fun p q => dominates numObjectives (e.2 p) (e.2 q)
  let f ← fastNonDominatedSort dom populationSize (populationSize + 1) s.ranks
  let crowd := f.1.foldl (crowdingDistance env.sortIdx env.maxVal numObjectives e.2) (fun _ => 0)
  let sorted := env.sort (fun x y => crowdingOperator f.2 crowd (lastIdx env.approx pop2 x)
    (lastIdx env.approx pop2 y)) pop2
  let pop' := sorted.take populationSize
  let c := env.cbGen e.1 pop' e.2 f.1
  some ⟨c.1, pop', e.2, pop2.length, f.1, f.2, c.2, s.history ++ [pop']⟩

/-- The generation loop (nsga2_impl.hpp:146-198). -/
def genLoop [Field R] [LinearOrder R] (env : Env W I R) (populationSize numObjectives : Nat) :
    Nat → St W I R → Option (St W I R)
  | 0, s => some s
  | n + 1, s =>
    if s.terminate then some s
    else (generation env populationSize numObjectives s).bind
      (genLoop env populationSize numObjectives n)

/-- `arma::accu(calculatedObjectives[i])`. -/
def accu [AddMonoid R] (numObjectives : Nat) (o : Nat → R) : R :=
  ((List.range numObjectives).map o).sum

/-- The returned performance (nsga2_impl.hpp:228-234, agemoea_impl.hpp:240-246): smallest objective sum over
all entries of `calculatedObjectives`. -/
def performance [AddMonoid R] [LinearOrder R] (maxVal : R) (numObjectives size : Nat)
    (objs : Nat → Nat → R) : R :=
  (List.range size).foldl
    (fun acc i => if accu numObjectives (objs i) < acc then accu numObjectives (objs i) else acc) maxVal

structure Result (I R : Type) where
  paretoSet : List I
  paretoFront : List (Nat → R)
  iterate : I
  value : R

/-- The population and member variables before the first generation (nsga2_impl.hpp:107-144). -/
def start [Zero R] (env : Env W I R) (populationSize : Nat) (w : W) (x : I) : St W I R :=
  let p := initialPopulation env x populationSize w
  ⟨env.cbBegin p.1 x, p.2, fun _ _ => 0, populationSize, [], fun _ => 0, false, [p.2]⟩

/-- Outputs (nsga2_impl.hpp:200-234); `none` is an access out of bounds. -/
def finish [AddMonoid R] [LinearOrder R] (env : Env W I R) (numObjectives : Nat) (s : St W I R) :
    Option (Result I R) := do
  let f ← s.fronts[0]?
  let set ← f.mapM (fun j => s.pop[j]?)
  let j ← f[0]?
  let it ← s.pop[j]?
  some ⟨set, f.map s.objs, it, performance env.maxVal numObjectives s.objSize s.objs⟩

inductive Outcome (α : Type) where
  | throws
  | ub
  | ok (a : α)
  deriving DecidableEq

/-- `NSGA2::Optimize` (nsga2_impl.hpp:63-235); bounds of the same shape as the iterate. -/
def optimize [Field R] [LinearOrder R] (env : Env W I R) (populationSize maxGenerations numObjectives : Nat)
    (w : W) (x : I) : Outcome (St W I R × Result I R) :=
  if guardThrows populationSize then .throws
  else
    match genLoop env populationSize numObjectives maxGenerations (start env populationSize w x) with
    | none => .ub
    | some s =>
      match finish env numObjectives s with
      | none => .ub
      | some r => .ok (s, r)

end Ens.Moo
