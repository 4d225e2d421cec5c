/-
Model of `CNE` (/repo/include/ensmallen_bits/cne/cne_impl.hpp).

A candidate is its list of elements `List X`.  Objective, callbacks, random numbers and
`arma::sort_index` are parameters.
-/

namespace Ens.Cne

structure Env (W X E : Type) where
  /-- `arma::randn(...) + iterate` (line 96) -/
  sample : W → List X → W × List X
  /-- `function.Evaluate` (lines 113, 130, 159) -/
  evaluate : W → List X → W × E
  /-- `Callback::Evaluate` (lines 114, 132, 160) -/
  cbEvaluate : W → List X → E → W × Bool
  /-- `Callback::BeginOptimization` (line 118) -/
  cbBegin : W → List X → W × List X
  /-- `Callback::StepTaken` (line 126; may change the candidate that is evaluated, which is a copy) -/
  cbStep : W → List X → W × List X × Bool
  /-- `arma::randi(0, numElite - 1)` (lines 184-188) -/
  randi : W → Nat → W × Nat
  /-- `random > 0.5` (lines 229-230) -/
  coin : W → W × Bool
  /-- the noise of `Mutate` (lines 251-254) applied to one candidate -/
  mutate : W → List X → W × List X
  /-- `arma::sort_index(fitnessValues)` (line 173); `none`: it throws (NaN) -/
  sortIndex : List E → Option (List Nat)
  /-- `std::abs(lastBestFitness - fitnessValues.min()) < tolerance` (line 143) -/
  isClose : E → List E → Bool
  /-- `fitnessValues.min()` (line 151) -/
  min : List E → E

inductive Err where
  /-- population size, line 62 -/
  | tooSmall
  /-- line 76 -/
  | noParents
  /-- line 83 -/
  | noChildren
  /-- an index outside its container, in particular `index(0)` of an empty `index` (line 155) -/
  | outOfBounds
  /-- `sort_index` detected NaN -/
  | sortError
  deriving DecidableEq

/-- The number of elite candidates after the parity correction (lines 69-73), in 64-bit arithmetic;
`elite0` is `floor(selectPercent * populationSize)`. -/
def numElite (n elite0 : Nat) : Nat :=
  if (n + 2 ^ 64 - elite0) % 2 ^ 64 % 2 ≠ 0 then (elite0 + 2 ^ 64 - 1) % 2 ^ 64 else elite0

/-- The argument checks (lines 62-87). -/
def guards (n elite0 : Nat) : Except Err Nat :=
  if n < 4 then .error .tooSmall
  else if numElite n elite0 < 2 then .error .noParents
  else if (n + 2 ^ 64 - numElite n elite0) % 2 ^ 64 < 2 then .error .noChildren
  else .ok (numElite n elite0)

variable {W X E : Type}

/-- Element loop of `Crossover` (lines 226-240): the two children of `mom` and `dad`. -/
def cross (coin : W → W × Bool) : W → List X → List X → W × List X × List X
  | w, m :: ms, d :: ds =>
    let c := coin w
    let r := cross coin c.1 ms ds
    if c.2 then (r.1, m :: r.2.1, d :: r.2.2) else (r.1, d :: r.2.1, m :: r.2.2)
  | w, _, _ => (w, [], [])

/-- Choice of the parents (lines 184-201). -/
def parents (env : Env W X E) (e : Nat) (w : W) : W × Nat × Nat :=
  let m := env.randi w e
  let d := env.randi m.1 e
  (d.1, m.2, if m.2 = d.2 then (if d.2 ≠ e - 1 then d.2 + 1 else d.2 - 1) else d.2)

/-- One pass of the loop of lines 181-206. -/
def breed (env : Env W X E) (index : List Nat) (e i : Nat) (w : W) (pop : List (List X)) :
    Option (W × List (List X)) :=
  let p := parents env e w
  match index[p.2.1]?, index[p.2.2]?, index[i]?, index[i + 1]? with
  | some mom, some dad, some c1, some c2 =>
    match pop[mom]?, pop[dad]? with
    | some gm, some gd =>
      if c1 < pop.length ∧ c2 < pop.length then
        let r := cross env.coin p.1 gm gd
        some (r.1, (pop.set c1 r.2.1).set c2 r.2.2)
      else none
    | _, _ => none
  | _, _, _, _ => none

/-- The loop of lines 181-206, `rem` passes from `i`. -/
def breedLoop (env : Env W X E) (index : List Nat) (e : Nat) :
    Nat → Nat → W → List (List X) → Option (W × List (List X))
  | 0, _, w, pop => some (w, pop)
  | rem + 1, i, w, pop =>
    match breed env index e i w pop with
    | none => none
    | some (w', pop') => breedLoop env index e rem (i + 1) w' pop'

/-- `Mutate` (lines 244-256): every candidate but the first of `index`, here the list `idx` of the
remaining ones. -/
def mutateLoop (env : Env W X E) : List Nat → W → List (List X) → Option (W × List (List X))
  | [], w, pop => some (w, pop)
  | j :: js, w, pop =>
    match pop[j]? with
    | none => none
    | some g =>
      let r := env.mutate w g
      mutateLoop env js r.1 (pop.set j r.2)

/-- `Reproduce` (lines 168-211) with the index vector computed. -/
def reproduce (env : Env W X E) (n e : Nat) (index : List Nat) (w : W) (pop : List (List X)) :
    Option (W × List (List X)) :=
  match breedLoop env index e (n - 1 - e) e w pop with
  | none => none
  | some (w', pop') => mutateLoop env (index.drop 1) w' pop'

inductive Ev (X E : Type) where
  /-- `Callback::StepTaken` was given `g`, left `g'` -/
  | step (g g' : List X) (stop : Bool)
  /-- `x` was evaluated, `Callback::Evaluate` notified of `f` -/
  | eval (x : List X) (f : E) (stop : Bool)
  /-- a generation has been evaluated -/
  | gen (pop : List (List X)) (fit : List E)
  | endOpt (x : List X)

structure St (W X E : Type) where
  w : W
  pop : List (List X)
  index : List Nat
  last : E
  terminate : Bool
  trace : List (Ev X E)

/-- Initial population (lines 93-98). -/
def sampleLoop (env : Env W X E) (x₀ : List X) : Nat → W → W × List (List X)
  | 0, w => (w, [])
  | n + 1, w =>
    let p := env.sample w x₀
    let r := sampleLoop env x₀ n p.1
    (r.1, p.2 :: r.2)

/-- Evaluation of a generation (lines 122-134): the fitnesses in order, `terminate`, what happened. -/
def evalLoop (env : Env W X E) : List (List X) → W → W × List E × Bool × List (Ev X E)
  | [], w => (w, [], false, [])
  | g :: gs, w =>
    let k := env.cbStep w g
    let o := env.evaluate k.1 k.2.1
    let c := env.cbEvaluate o.1 k.2.1 o.2
    let r := evalLoop env gs c.1
    (r.1, o.2 :: r.2.1, k.2.2 || c.2 || r.2.2.1,
      .step g k.2.1 k.2.2 :: .eval k.2.1 o.2 c.2 :: r.2.2.2)

/-- The generation loop (lines 119-152), `rem` generations left. -/
def genLoop (env : Env W X E) (n e : Nat) : Nat → St W X E → Except Err (St W X E)
  | 0, s => .ok s
  | rem + 1, s =>
    if s.terminate then .ok s
    else
      let v := evalLoop env s.pop s.w
      match env.sortIndex v.2.1 with
      | none => .error .sortError
      | some index =>
        match reproduce env n e index v.1 s.pop with
        | none => .error .outOfBounds
        | some (w', pop') =>
          let s1 : St W X E := ⟨w', pop', index, s.last, s.terminate || v.2.2.1,
            s.trace ++ v.2.2.2 ++ [.gen s.pop v.2.1]⟩
          if env.isClose s.last v.2.1 then .ok s1
          else genLoop env n e rem { s1 with last := env.min v.2.1 }

structure Result (X E : Type) where
  obj : E
  x : List X
  trace : List (Ev X E)

/-- State before the generation loop (lines 90-118). -/
def start (env : Env W X E) (n : Nat) (w : W) (x : List X) : St W X E :=
  let p := sampleLoop env x n w
  let o := env.evaluate p.1 x
  let c := env.cbEvaluate o.1 x o.2
  ⟨(env.cbBegin c.1 x).1, p.2, [], o.2, c.2, [.eval x o.2 c.2]⟩

/-- `Optimize` (lines 40-164). -/
def optimize (env : Env W X E) (n elite0 maxGenerations : Nat) (w : W) (x : List X) :
    Except Err (Result X E) :=
  match guards n elite0 with
  | .error e => .error e
  | .ok e =>
    match genLoop env n e maxGenerations (start env n w x) with
    | .error e => .error e
    | .ok s =>
      match s.index[0]?.bind (s.pop[·]?) with
      | none => .error .outOfBounds
      | some best =>
        let o := env.evaluate s.w best
        .ok ⟨o.2, best, s.trace ++ [.eval best o.2 (env.cbEvaluate o.1 best o.2).2, .endOpt best]⟩

end Ens.Cne
