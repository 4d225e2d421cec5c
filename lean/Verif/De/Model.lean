import Verif.Common

/-
Model of `DE::Optimize` (/repo/include/ensmallen_bits/de/de_impl.hpp).

The objective, callbacks and random generators act on the opaque world `W`; `M` is a candidate
matrix, `E` an objective value.
-/

namespace Ens.De

structure Env (W M E : Type) where
  /-- `population[i].randn(...); population[i] += iterate` (lines 76-77) -/
  sample : W → M → W × M
  /-- `function.Evaluate` (lines 78, 127, 131) -/
  evaluate : W → M → W × E
  /-- `Callback::Evaluate` (lines 80, 128, 132) -/
  cbEvaluate : W → M → E → W × Bool
  /-- `Callback::BeginOptimization` (line 91) -/
  cbBegin : W → M → W × M
  /-- `Callback::StepTaken` (line 144; may change the coordinates) -/
  cbStep : W → M → W × M × Bool
  /-- `arma::randi(distr_param(0, populationSize - 1))` (lines 103, 109) -/
  randi : W → Nat → W × Nat
  /-- mutant and crossover (lines 114-125): best element, members `l`, `m`, current member -/
  mutant : W → M → M → M → M → W × M
  /-- `std::abs(a - b) < tolerance` (line 153) -/
  isClose : E → E → Bool
  /-- `DBL_MAX` (line 66) -/
  dblMax : E
  /-- what `fitnessValues.min()` starts from (infinity) -/
  inf : E

inductive Ev (M E : Type) where
  /-- population after initialisation -/
  | init (pop : List M) (fit : List E)
  /-- indices used for a mutant -/
  | pick (member l m : Nat)
  | cb (stop : Bool)
  /-- population at the end of a generation -/
  | gen (pop : List M) (fit : List E)
  | endOpt (x : M)

structure St (W M E : Type) where
  w : W
  pop : List M
  fit : List E
  best : Option M
  last : E
  terminate : Bool
  trace : List (Ev M E)

/-- Outcomes other than a normal result. -/
inductive Err where
  /-- `populationSize < 3` -/
  | logicError
  /-- the sampling loops of lines 101-111 did not end within the fuel -/
  | diverges
  /-- `bestElement` is still empty: Armadillo rejects the sum of line 114 -/
  | noBest
  /-- a random index outside the population -/
  | outOfBounds
  deriving DecidableEq

variable {W M E : Type} [LT E] [DecidableLT E] [DecidableEq E]

/-- One initial member (lines 76-87). -/
def initStep (env : Env W M E) (x₀ : M) (s : St W M E) : St W M E :=
  let p := env.sample s.w x₀
  let o := env.evaluate p.1 p.2
  let c := env.cbEvaluate o.1 p.2 o.2
  { w := c.1, pop := s.pop ++ [p.2], fit := s.fit ++ [o.2]
    last := if o.2 < s.last then o.2 else s.last
    best := if o.2 < s.last then some p.2 else s.best
    terminate := s.terminate || c.2, trace := s.trace ++ [.cb c.2] }

/-- The initial population (lines 74-88). -/
def initLoop (env : Env W M E) (x₀ : M) : Nat → St W M E → St W M E
  | 0, s => s
  | n + 1, s => initLoop env x₀ n (initStep env x₀ s)

/-- `do { l = randi } while (l == member)` (lines 101-105). -/
def drawL (env : Env W M E) (n member : Nat) : Nat → W → Option (W × Nat)
  | 0, _ => none
  | fuel + 1, w =>
    let d := env.randi w n
    if d.2 = member then drawL env n member fuel d.1 else some d

/-- `do { m = randi } while (m == member && m == l)` (lines 107-111). -/
def drawM (env : Env W M E) (n member l : Nat) : Nat → W → Option (W × Nat)
  | 0, _ => none
  | fuel + 1, w =>
    let d := env.randi w n
    if d.2 = member ∧ d.2 = l then drawM env n member l fuel d.1 else some d

/-- Lines 127-150 for member `k` with current value `x` and the given mutant; the flag is `break`. -/
def compete (env : Env W M E) (s : St W M E) (k : Nat) (x mu : M) : St W M E × Bool :=
  let o := env.evaluate s.w x
  let c := env.cbEvaluate o.1 x o.2
  let o' := env.evaluate c.1 mu
  let c' := env.cbEvaluate o'.1 mu o'.2
  let s1 : St W M E :=
    { s with w := c'.1, terminate := s.terminate || c.2 || c'.2,
             trace := s.trace ++ [.cb c.2, .cb c'.2] }
  if s1.terminate then (s1, true)
  else if o'.2 < o.2 then
    let k' := env.cbStep s1.w mu
    ({ s1 with w := k'.1, terminate := s1.terminate || k'.2.2, trace := s1.trace ++ [.cb k'.2.2],
               pop := s1.pop.set k k'.2.1, fit := s1.fit.set k o'.2 }, false)
  else ({ s1 with pop := s1.pop.set k x, fit := s1.fit.set k o.2 }, false)

/-- One member of the generation (lines 97-150). -/
def memberStep (env : Env W M E) (fuel n k : Nat) (s : St W M E) : Except Err (St W M E × Bool) :=
  match drawL env n k fuel s.w with
  | none => .error .diverges
  | some (w1, l) =>
    match drawM env n k l fuel w1 with
    | none => .error .diverges
    | some (w2, m) =>
      match s.best with
      | none => .error .noBest
      | some b =>
        match s.pop[k]?, s.pop[l]?, s.pop[m]? with
        | some x, some xl, some xm =>
          let mu := env.mutant w2 b xl xm x
          .ok (compete env { s with w := mu.1, trace := s.trace ++ [.pick k l m] } k x mu.2)
        | _, _, _ => .error .outOfBounds

/-- The member loop (lines 95-151): members `k, ..., n - 1`, `rem` of them left. -/
def memberLoop (env : Env W M E) (fuel n : Nat) : Nat → Nat → St W M E → Except Err (St W M E)
  | 0, _, s => .ok s
  | rem + 1, k, s =>
    match memberStep env fuel n k s with
    | .error e => .error e
    | .ok (s', true) => .ok s'
    | .ok (s', false) => memberLoop env fuel n rem (k + 1) s'

/-- `fitnessValues.min()`: Armadillo starts from infinity and keeps strictly smaller values. -/
def minFit (inf : E) (fit : List E) : E := fit.foldl (fun m v => if v < m then v else m) inf

/-- The search of lines 162-169: the first member whose fitness equals `last`. -/
def findBest (last : E) : List M → List E → Option M
  | p :: ps, f :: fs => if f = last then some p else findBest last ps fs
  | _, _ => none

/-- The generation loop (lines 92-170), `rem` generations left; the flag tells a tolerance exit. -/
def genLoop (env : Env W M E) (fuel n : Nat) : Nat → St W M E → Except Err (St W M E × Bool)
  | 0, s => .ok (s, false)
  | rem + 1, s =>
    if s.terminate then .ok (s, false)
    else
      match memberLoop env fuel n n 0 s with
      | .error e => .error e
      | .ok s1 =>
        let s2 := { s1 with trace := s1.trace ++ [.gen s1.pop s1.fit] }
        let mn := minFit env.inf s2.fit
        if env.isClose s2.last mn then .ok (s2, true)
        else
          genLoop env fuel n rem
            { s2 with last := mn, best := (findBest mn s2.pop s2.fit).or s2.best }

structure Result (M E : Type) where
  obj : E
  /-- final coordinates; `none` is the empty matrix -/
  x : Option M
  tol : Bool
  pop : List M
  fit : List E
  trace : List (Ev M E)

/-- State before the population is drawn (lines 47-70). -/
def start0 (env : Env W M E) (w : W) : St W M E := ⟨w, [], [], none, env.dblMax, false, []⟩

/-- State at the top of the generation loop. -/
def start (env : Env W M E) (n : Nat) (w : W) (x : M) : St W M E :=
  let s := initLoop env x n (start0 env w)
  { s with w := (env.cbBegin s.w x).1, trace := s.trace ++ [.init s.pop s.fit] }

/-- `Optimize` (lines 33-176).  `fuel` bounds the index sampling loops only. -/
def optimize (env : Env W M E) (populationSize maxGenerations fuel : Nat) (w : W) (x : M) :
    Except Err (Result M E) :=
  if populationSize < 3 then .error .logicError
  else
    match genLoop env fuel populationSize maxGenerations (start env populationSize w x) with
    | .error e => .error e
    | .ok (s, tol) =>
      .ok ⟨s.last, s.best, tol, s.pop, s.fit,
        s.trace ++ match s.best with | some b => [.endOpt b] | none => []⟩

/-- The crossover of lines 117-125 on the column-major element lists: `cr` has `nRows` draws, and only
the first `nRows` elements take part; `keep` is `cr[it] >= crossoverRate`. -/
def crossover {X : Type} (keep : List Bool) (mutant iterate : List X) : List X :=
  (List.range mutant.length).zipWith
    (fun i mv => if keep.getD i false then iterate.getD i mv else mv) mutant

end Ens.De
