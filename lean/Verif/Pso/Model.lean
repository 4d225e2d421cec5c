/-
Model of `PSOType::Optimize` (/repo/include/ensmallen_bits/pso/pso_impl.hpp), `LBestUpdate`
(pso/update_policies/lbest_update.hpp) and `DefaultInit` (pso/init_policies/default_init.hpp).

Objective, callbacks, initialisation and velocity update are parameters of the main loop; matrix
arithmetic is the abstract operation `add`.  `particleFitnesses` is only ever written just before it
is compared and is not part of the state.
-/

namespace Ens.Pso

/-- One slice of `particlePositions`, `particleVelocities`, `particleBestPositions` and one element of
`particleBestFitnesses` (lines 82-86). -/
structure Particle (M E : Type) where
  pos : M
  vel : M
  bestPos : M
  bestFit : E
  deriving DecidableEq, Repr

structure Env (W M E : Type) where
  /-- `function.Evaluate` (lines 109, 133, 183) -/
  evaluate : W → M → W × E
  /-- `Callback::Evaluate` (lines 110, 134, 184) -/
  cbEvaluate : W → M → E → W × Bool
  /-- `Callback::StepTaken` on the best particle's recorded position (lines 165, 213) -/
  cbStep : W → M → W × M × Bool
  /-- `Update` of the velocity policy (lines 149, 197): the new velocities -/
  velocity : W → List (Particle M E) → W × List M
  /-- `+` of matrices (lines 154, 202) -/
  add : M → M → M
  /-- `performanceHorizon.front() - performanceHorizon.back() < impTolerance` (line 177) -/
  noImprovement : E → E → Bool
  /-- `std::numeric_limits<ElemType>::max()` (line 120) -/
  maxVal : E

inductive Err where
  /-- lines 61-67 -/
  | horizonTooLong
  /-- `slice(bestParticle)` of an empty cube (lines 166, 214, 223) -/
  | outOfBounds
  /-- `front()` of an empty queue (line 177, undefined behaviour) -/
  | emptyQueue
  deriving DecidableEq

/-- What happened during a run. -/
inductive Ev (M E : Type) where
  /-- an evaluation and its callback's answer -/
  | eval (x : M) (v : E) (stop : Bool)
  /-- a finished iteration: personal best fitnesses, global best -/
  | iter (fits : List E) (best : E)
  /-- the answer of the `StepTaken` callback -/
  | step (stop : Bool)

structure St (W M E : Type) where
  w : W
  swarm : List (Particle M E)
  best : Nat
  bestFit : E
  queue : List E
  terminate : Bool
  trace : List (Ev M E)

variable {W M E : Type} [LT E] [DecidableLT E]

/-- Initial fitnesses (lines 106-113), stopping at the first stop request. -/
def evalInit (env : Env W M E) : List (Particle M E) → W →
    W × List (Particle M E) × Bool × List (Ev M E)
  | [], w => (w, [], false, [])
  | p :: ps, w =>
    let o := env.evaluate w p.pos
    let c := env.cbEvaluate o.1 p.pos o.2
    let p' := { p with bestFit := o.2 }
    if c.2 then (c.1, p' :: ps, true, [.eval p.pos o.2 true])
    else
      let r := evalInit env ps c.1
      (r.1, p' :: r.2.1, r.2.2.1, .eval p.pos o.2 false :: r.2.2.2)

/-- Personal best (lines 140-144, 188-192). -/
def improve (p : Particle M E) (v : E) : Particle M E :=
  if v < p.bestFit then { p with bestFit := v, bestPos := p.pos } else p

/-- Evaluation of the swarm (lines 131-145 with `lastToo = false`: a stop request leaves the loop before
the comparison; lines 181-193 with `lastToo = true`: the comparison is made before the loop is left). -/
def evalSwarm (env : Env W M E) (lastToo : Bool) : List (Particle M E) → W →
    W × List (Particle M E) × Bool × List (Ev M E)
  | [], w => (w, [], false, [])
  | p :: ps, w =>
    let o := env.evaluate w p.pos
    let c := env.cbEvaluate o.1 p.pos o.2
    if c.2 then (c.1, (if lastToo then improve p o.2 else p) :: ps, true, [.eval p.pos o.2 true])
    else
      let r := evalSwarm env lastToo ps c.1
      (r.1, improve p o.2 :: r.2.1, r.2.2.1, .eval p.pos o.2 false :: r.2.2.2)

/-- `particlePositions += particleVelocities` after the velocity update (lines 149-154, 197-202). -/
def move (add : M → M → M) : List (Particle M E) → List M → List (Particle M E)
  | p :: ps, v :: vs => { p with vel := v, pos := add p.pos v } :: move add ps vs
  | ps, _ => ps

/-- The best particle (lines 156-163, 204-211), from particle number `j` on. -/
def findBest : List (Particle M E) → Nat → Nat × E → Nat × E
  | [], _, b => b
  | p :: ps, j, b => findBest ps (j + 1) (if p.bestFit < b.2 then (j, p.bestFit) else b)

/-- The part common to both loops: lines 131-166 and 181-214. -/
def pass (env : Env W M E) (lastToo : Bool) (s : St W M E) : Except Err (St W M E) :=
  let v := evalSwarm env lastToo s.swarm s.w
  let u := env.velocity v.1 v.2.1
  let sw := move env.add v.2.1 u.2
  let b := findBest sw 0 (s.best, s.bestFit)
  match sw[b.1]? with
  | none => .error .outOfBounds
  | some p =>
    let k := env.cbStep u.1 p.bestPos
    .ok ⟨k.1, sw.set b.1 { p with bestPos := k.2.1 }, b.1, b.2, s.queue, v.2.2.1 || k.2.2,
      s.trace ++ v.2.2.2 ++ [.iter (sw.map (·.bestFit)) b.2, .step k.2.2]⟩

/-- First loop (lines 128-170), `rem` iterations left. -/
def phase1 (env : Env W M E) : Nat → St W M E → Except Err (St W M E)
  | 0, s => .ok s
  | rem + 1, s =>
    if s.terminate then .ok s
    else
      match pass env false s with
      | .error e => .error e
      | .ok s' => phase1 env rem { s' with queue := s'.queue ++ [s'.bestFit] }

/-- Second loop (lines 173-220), `rem` iterations left. -/
def phase2 (env : Env W M E) : Nat → St W M E → Except Err (St W M E)
  | 0, s => .ok s
  | rem + 1, s =>
    if s.terminate then .ok s
    else
      match s.queue.head?, s.queue.getLast? with
      | some f, some b =>
        if env.noImprovement f b then .ok s
        else
          match pass env true s with
          | .error e => .error e
          | .ok s' => phase2 env rem { s' with queue := s'.queue.drop 1 ++ [s'.bestFit] }
      | _, _ => .error .emptyQueue

structure Result (M E : Type) where
  obj : E
  x : M
  trace : List (Ev M E)

/-- State before the loops (lines 106-120); `swarm` is what the initialisation policy produced. -/
def start (env : Env W M E) (w : W) (swarm : List (Particle M E)) : St W M E :=
  let r := evalInit env swarm w
  ⟨r.1, r.2.1, 0, env.maxVal, [], r.2.2.1, r.2.2.2⟩

/-- `Optimize` (lines 41-227) after the initialisation of swarm and policy. -/
def optimize (env : Env W M E) (horizon maxIter : Nat) (w : W) (swarm : List (Particle M E)) :
    Except Err (Result M E) :=
  if maxIter < horizon then .error .horizonTooLong
  else
    match phase1 env horizon (start env w swarm) with
    | .error e => .error e
    | .ok s1 =>
      match phase2 env (maxIter - horizon) s1 with
      | .error e => .error e
      | .ok s =>
        match s.swarm[s.best]? with
        | none => .error .outOfBounds
        | some p => .ok ⟨s.bestFit, p.bestPos, s.trace⟩

/-! ### LBestUpdate -/

/-- Lines 178-179 of lbest_update.hpp. -/
def left (n i : Nat) : Nat := (i + n - 1) % n
def right (n i : Nat) : Nat := (i + 1) % n

/-- `localBestIndices(i)` after the loop of lines 135-143: two assignments, the second one overwriting
the first. -/
def localBest (n : Nat) (fit : Nat → E) (i : Nat) : Nat :=
  let first := if fit (left n i) < fit i then left n i else i
  let second := if fit (right n i) < fit i then right n i else i
  (fun (_old : Nat) => second) first

end Ens.Pso
