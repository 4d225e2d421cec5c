import Mathlib.Analysis.SpecialFunctions.Log.Basic

/-
Model of `SA<CoolingScheduleType>` (/repo/include/ensmallen_bits/sa/sa_impl.hpp) and
`ExponentialSchedule` (/repo/include/ensmallen_bits/sa/exponential_schedule.hpp).

`E` are matrix elements (also energies), `R` the `double` quantities.  The matrix is its list of
elements.  `arma::randu`, the objective and the callbacks act on the opaque world `W`.
-/

namespace Ens.Sa

structure Env (W E R : Type) where
  /-- `function.Evaluate(iterate)` (lines 69, 166) -/
  evaluate : W → List E → W × E
  /-- `Callback::Evaluate` (lines 70, 168) -/
  cbEvaluate : W → List E → E → W × Bool
  /-- `Callback::BeginOptimization` (line 83) -/
  cbBegin : W → List E → W × List E
  /-- `Callback::StepTaken` (line 102) -/
  cbStep : W → List E → W × List E × Bool
  /-- `arma::randu()` (lines 161, 173) -/
  randu : W → W × R
  /-- `iterate(idx) + move` for a given move size and uniform draw (lines 161-165) -/
  propose : E → R → R → E
  /-- `delta <= 0. || criterion > xi`, arguments previous energy, new energy, temperature, `xi`
  (lines 173-176) -/
  accepts : E → E → R → R → Bool
  /-- one element of `MoveControl` (lines 224-233): move size, number of accepted moves -/
  control : R → Nat → R
  /-- `coolingSchedule.NextTemperature(temperature, energy)` -/
  cool : R → E → R
  /-- `std::abs(energy - oldEnergy) < tolerance` (line 107) -/
  isClose : E → E → Bool

/-- A completed move: coordinate, temperature, draw, coordinates and energy before, proposal and its
energy, verdict, coordinates and energy after. -/
structure Move (E R : Type) where
  idx : Nat
  size : R
  unif : R
  temp : R
  xi : R
  x : List E
  e : E
  prop : List E
  newE : E
  accepted : Bool
  x' : List E
  e' : E

inductive Ev (E R : Type) where
  | eval (x : List E) (e : E)
  | cbEval (stop : Bool)
  | beginOpt (x x' : List E)
  | move (m : Move E R)
  | stepTaken (x : List E) (stop : Bool)
  | cool (t : R)
  | endOpt (x : List E)

/-- Members and locals: `temperature` is a member of the optimizer object. -/
structure St (W E R : Type) where
  w : W
  x : List E
  energy : E
  idx : Nat
  sweep : Nat
  accept : List Nat
  moveSize : List R
  temp : R
  frozen : Nat
  terminate : Bool
  trace : List (Ev E R)

/-- Parameters of the object that do not change. -/
structure Params (R : Type) where
  maxIterations : Nat
  initMoves : Nat
  moveCtrlSweep : Nat
  maxToleranceSweep : Nat
  initMoveCoef : R

variable {W E R : Type}

/-- `++idx`, the sweep counter and `MoveControl` (lines 186-197); the acceptance counts are kept as
natural numbers (the code stores them as matrix elements). -/
def advance (env : Env W E R) (p : Params R) (s : St W E R) : St W E R :=
  let idx := s.idx + 1
  let s1 := if idx = s.x.length then { s with idx := 0, sweep := s.sweep + 1 } else { s with idx := idx }
  if s1.sweep = p.moveCtrlSweep then
    { s1 with moveSize := List.zipWith env.control s1.moveSize s1.accept,
              accept := s1.accept.map fun _ => 0, sweep := 0 }
  else s1

/-- Propose, evaluate, accept or restore (lines 155-184); `v` is `iterate(idx)`, `m` `moveSize(idx)`. -/
def tryMove (env : Env W E R) (s : St W E R) (v : E) (m : R) : St W E R :=
  let u := env.randu s.w
  let prop := s.x.set s.idx (env.propose v m u.2)
  let o := env.evaluate u.1 prop
  let c := env.cbEvaluate o.1 prop o.2
  let xi := env.randu c.1
  let acc := env.accepts s.energy o.2 s.temp xi.2
  let x' := if acc then prop else prop.set s.idx v
  let e' := if acc then o.2 else s.energy
  { s with
    w := xi.1, x := x', energy := e'
    accept := if acc then s.accept.modify s.idx (· + 1) else s.accept
    terminate := s.terminate || c.2
    trace := s.trace ++ [.eval prop o.2, .cbEval c.2,
      .move ⟨s.idx, m, u.2, s.temp, xi.2, s.x, s.energy, prop, o.2, acc, x', e'⟩] }

/-- `GenerateMove` (lines 140-200); `none` when `iterate(idx)` is out of range (empty matrix, or a
callback shrank it). -/
def generateMove (env : Env W E R) (p : Params R) (s : St W E R) : Option (St W E R) :=
  match s.x[s.idx]?, s.moveSize[s.idx]? with
  | some v, some m => some (advance env p (tryMove env s v m))
  | _, _ => none

/-- State before the initial moves (lines 62-83). -/
def start (env : Env W E R) (p : Params R) (temp : R) (w : W) (x : List E) : St W E R :=
  let o := env.evaluate w x
  let c := env.cbEvaluate o.1 x o.2
  let b := env.cbBegin c.1 x
  { w := b.1, x := b.2, energy := o.2, idx := 0, sweep := 0, accept := x.map fun _ => 0,
    moveSize := x.map fun _ => p.initMoveCoef, temp := temp, frozen := 0, terminate := c.2,
    trace := [.eval x o.2, .cbEval c.2, .beginOpt x b.2] }

/-- The initial moves (lines 86-92). -/
def initLoop (env : Env W E R) (p : Params R) : Nat → St W E R → Option (St W E R)
  | 0, s => some s
  | n + 1, s =>
    match generateMove env p s with
    | none => none
    | some s' => if s'.terminate then some s' else initLoop env p n s'

/-- Notification and cooling (lines 102-103) and the frozen counter (lines 107-110). -/
def afterMove (env : Env W E R) (oldE : E) (s : St W E R) : St W E R :=
  let k := env.cbStep s.w s.x
  { s with w := k.1, x := k.2.1, terminate := s.terminate || k.2.2,
           temp := env.cool s.temp s.energy,
           frozen := if env.isClose s.energy oldE then s.frozen + 1 else 0,
           trace := s.trace ++ [.stepTaken k.2.1 k.2.2, .cool (env.cool s.temp s.energy)] }

/-- The main loop (lines 95-122): `n` is `maxIterations - i`; the flag says whether the frozen test
ended it. -/
def mainLoop (env : Env W E R) (p : Params R) : Nat → St W E R → Option (St W E R × Bool)
  | 0, s => some (s, false)
  | n + 1, s =>
    if s.terminate then some (s, false)
    else
      match generateMove env p s with
      | none => none
      | some s1 =>
        if s1.terminate then some (s1, false)
        else
          let s2 := afterMove env s.energy s1
          if s2.frozen ≥ (p.maxToleranceSweep * p.moveCtrlSweep * s2.x.length) % 2 ^ 64 then
            some (s2, true)
          else mainLoop env p n s2

structure Result (W E R : Type) where
  energy : E
  x : List E
  /-- the temperature left in the optimizer object -/
  temp : R
  frozen : Bool
  w : W
  trace : List (Ev E R)

/-- `Optimize` (lines 46-129) on an optimizer object whose current temperature is `temp`. -/
def optimize (env : Env W E R) (p : Params R) (temp : R) (w : W) (x : List E) :
    Option (Result W E R) :=
  match initLoop env p p.initMoves (start env p temp w x) with
  | none => none
  | some s =>
    match mainLoop env p p.maxIterations s with
    | none => none
    | some (s, f) => some ⟨s.energy, s.x, s.temp, f, s.w, s.trace ++ [.endOpt s.x]⟩

/-! ### The arithmetic over the reals -/

noncomputable section

/-- Lines 161-165: the Laplace-distributed proposal. -/
def proposeR (v m u : ℝ) : ℝ :=
  let unif := 2 * u - 1
  v + if unif < 0 then m * Real.log (1 + unif) else -m * Real.log (1 - unif)

open Classical in
/-- Lines 173-176. -/
def acceptsR (prev new T xi : ℝ) : Bool :=
  let delta := new - prev
  let criterion := Real.exp (-delta / T)
  decide (delta ≤ 0 ∨ criterion > xi)

open Classical in
/-- `MoveControl` on one element (lines 221-233). -/
def controlR (gain maxMoveCoef : ℝ) (nMoves : Nat) (m : ℝ) (accepted : Nat) : ℝ :=
  let m' := Real.exp (Real.log m + gain * ((accepted : ℝ) / nMoves - 0.44))
  if m' > maxMoveCoef then maxMoveCoef else m'

/-- `ExponentialSchedule::NextTemperature` (exponential_schedule.hpp:49-54). -/
def coolR (lambda T : ℝ) (_energy : ℝ) : ℝ := (1 - lambda) * T

end

end Ens.Sa
