/-
Model of `Lookahead<BaseOptimizerType, DecayPolicyType>::Optimize`
(/repo/include/ensmallen_bits/lookahead/lookahead_impl.hpp).

The inner optimizer, the objective, the callbacks and the arithmetic are parameters; all of their mutable state is the opaque
world `W`. The inner optimizer is handed the same callbacks (line 143-144), so what it reports to them is part of its result.
`S` is the type of step sizes.
-/

namespace Ens.Lookahead

/-- What the user's callbacks see. -/
inductive Cb where
  | beginOpt
  | endOpt
  /-- any other notification and the answer to it -/
  | other (stop : Bool)
  deriving DecidableEq, Repr

/-- Outside world of a run. -/
structure Env (W M E S : Type) where
  /-- `baseOptimizer.Optimize(f, iterateModel, callbacks...)` (line 143): new world, returned objective, final inner
  coordinates, notifications sent -/
  inner : W → M → W × E × M × List Cb
  /-- `instDecayPolicy.Update(iterate, stepSize, iterateModel)` (line 148): may change coordinates and step size -/
  decay : W → M → S → M → W × M × S
  /-- `iterate + stepSize * (iterateModel - iterate)` (line 172) -/
  lerp : S → M → M → M
  /-- `Callback::BeginOptimization` (line 136) -/
  cbBegin : W → M → W × M
  /-- `Callback::StepTaken` (line 173; may change the coordinates) -/
  cbStep : W → M → W × M × Bool
  /-- `f.Evaluate(iterate, begin, batchSize)` (line 198) -/
  evaluate : W → M → Nat → Nat → W × E
  /-- `Callback::Evaluate` (line 203) -/
  cbEvaluate : W → M → E → W × Bool
  add : E → E → E
  zero : E
  dblMax : E
  /-- `isnan(e) || isinf(e)` (line 151) -/
  isBad : E → Bool
  /-- `abs(last - overall) < tolerance` (line 162) -/
  isClose : E → E → Bool

/-- The members read by `Optimize`; `batchSize` is that of the base optimizer, or 1 (lines 188-192). -/
structure Params where
  maxIterations : Nat
  exactObjective : Bool
  numFunctions : Nat
  batchSize : Nat

/-- Lines 137-138. -/
def Params.actualMax (p : Params) : Nat := if p.maxIterations = 0 then 2 ^ 64 - 1 else p.maxIterations

/-- Events, in order. -/
inductive Ev (M E S : Type) where
  | beginOpt (x x' : M)
  /-- an inner run from `x` -/
  | inner (x : M) (obj : E) (model : M) (cbs : List Cb)
  /-- coordinates and step size as the decay policy left them -/
  | decay (x : M) (step : S)
  /-- a synchronisation -/
  | sync (x : M) (step : S) (model y : M)
  | stepTaken (x : M) (stop : Bool)
  | evaluate (x : M) (begin size : Nat) (obj : E)
  | endOpt (x : M)

/-- Coordinates, step size (a member of the object, changed by the decay policy), locals (lines 120-124). -/
structure St (W M E S : Type) where
  w : W
  x : M
  step : S
  overall : E
  last : E
  terminate : Bool
  trace : List (Ev M E S)

inductive Exit where
  | bad | tol | loop
  deriving DecidableEq

variable {W M E S : Type}

/-- Before the loop (lines 119-136). -/
def start (env : Env W M E S) (step : S) (w : W) (x : M) : St W M E S :=
  let b := env.cbBegin w x
  ⟨b.1, b.2, step, env.zero, env.dblMax, false, [.beginOpt x b.2]⟩

/-- The inner run and the decay (lines 141-149); also the inner coordinates. -/
def innerPart (env : Env W M E S) (s : St W M E S) : St W M E S × M :=
  let r := env.inner s.w s.x
  let d := env.decay r.1 s.x s.step r.2.2.1
  ({ s with w := d.1, x := d.2.1, step := d.2.2, overall := r.2.1,
            trace := s.trace ++ [.inner s.x r.2.1 r.2.2.1 r.2.2.2, .decay d.2.1 d.2.2] }, r.2.2.1)

/-- The synchronisation (lines 172-176). -/
def syncPart (env : Env W M E S) (s : St W M E S) (model : M) : St W M E S :=
  let y := env.lerp s.step s.x model
  let k := env.cbStep s.w y
  { s with w := k.1, x := k.2.1, terminate := s.terminate || k.2.2, last := s.overall,
           trace := s.trace ++ [.sync s.x s.step model y, .stepTaken k.2.1 k.2.2] }

/-- The loop (lines 139-177), `n` is `actualMaxIterations - i`. -/
def loop (env : Env W M E S) : Nat → St W M E S → Exit × St W M E S
  | 0, s => (.loop, s)
  | n + 1, s =>
    if s.terminate then (.loop, s)
    else
      let r := innerPart env s
      if env.isBad r.1.overall then (.bad, { r.1 with x := r.2 })
      else if env.isClose r.1.last r.1.overall then (.tol, { r.1 with x := r.2 })
      else loop env n (syncPart env r.1 r.2)

/-- The final objective (lines 194-204); `none` when `fuel` does not suffice (`batchSize = 0`). -/
def exactLoop (env : Env W M E S) (p : Params) : Nat → Nat → St W M E S → Option (St W M E S)
  | 0, i, s => if i < p.numFunctions then none else some s
  | fuel + 1, i, s =>
    if i < p.numFunctions then
      let eff := min p.batchSize (p.numFunctions - i)
      let r := env.evaluate s.w s.x i eff
      let c := env.cbEvaluate r.1 s.x r.2
      exactLoop env p fuel (i + p.batchSize)
        { s with w := c.1, overall := env.add s.overall r.2, trace := s.trace ++ [.evaluate s.x i eff r.2] }
    else some s

structure Result (M E S : Type) where
  exit : Exit
  obj : E
  x : M
  trace : List (Ev M E S)

/-- `EndOptimization` and `return` (lines 158-159, 168-169, 207-208). -/
def finish (e : Exit) (s : St W M E S) : Result M E S := ⟨e, s.overall, s.x, s.trace ++ [.endOpt s.x]⟩

/-- `Optimize` (lines 77-209); `none`: the final evaluation never ends. -/
def optimize (env : Env W M E S) (p : Params) (step : S) (w : W) (x : M) : Option (Result M E S) :=
  match loop env p.actualMax (start env step w x) with
  | (.loop, s) =>
    if p.exactObjective then (exactLoop env p p.numFunctions 0 { s with overall := env.zero }).map (finish .loop)
    else some (finish .loop s)
  | (e, s) => some (finish e s)

/-- The notifications the user's callbacks receive during a run. -/
def Ev.cbs : Ev M E S → List Cb
  | .beginOpt _ _ => [.beginOpt]
  | .inner _ _ _ l => l
  | .decay _ _ => []
  | .sync _ _ _ _ => []
  | .stepTaken _ b => [.other b]
  | .evaluate _ _ _ _ => [.other false]
  | .endOpt _ => [.endOpt]

end Ens.Lookahead
