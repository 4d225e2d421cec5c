/-
Model of `SGD<UpdatePolicyType, DecayPolicyType>::Optimize`
(/repo/include/ensmallen_bits/sgd/sgd_impl.hpp).

Everything supplied from outside (objective, callbacks, update policy, decay policy, element
arithmetic) is a parameter; all of its mutable state is the opaque world `W`.
-/

namespace Ens.Sgd

/-- Outside world of an SGD run.  `M`: coordinates, `G`: gradients, `E`: element type. -/
structure Env (W M G E : Type) where
  /-- `f.EvaluateWithGradient(iterate, begin, gradient, batchSize)` (sgd_impl.hpp:145) -/
  evalGrad : W → M → Nat → Nat → W × E × G
  /-- `f.Evaluate(iterate, begin, batchSize)` (sgd_impl.hpp:222) -/
  evaluate : W → M → Nat → Nat → W × E
  /-- `f.Shuffle()` (sgd_impl.hpp:205) -/
  shuffle : W → W
  /-- `instUpdatePolicy.Update(iterate, stepSize, gradient)` (sgd_impl.hpp:153) -/
  update : W → M → G → W × M
  /-- `instDecayPolicy.Update(iterate, stepSize, gradient)` (sgd_impl.hpp:159) -/
  decay : W → M → G → W × M
  /-- `Callback::BeginOptimization` (sgd_impl.hpp:127; the coordinates are passed by reference) -/
  cbBegin : W → M → W × M
  /-- `Callback::BeginEpoch` (sgd_impl.hpp:128, 193) -/
  cbBeginEpoch : W → M → Nat → E → W × Bool
  /-- `Callback::EvaluateWithGradient` (sgd_impl.hpp:149; may modify the gradient) -/
  cbEvalGrad : W → M → E → G → W × G × Bool
  /-- `Callback::StepTaken` (sgd_impl.hpp:156; may modify the coordinates) -/
  cbStep : W → M → W × M × Bool
  /-- `Callback::EndEpoch` (sgd_impl.hpp:168) -/
  cbEndEpoch : W → M → Nat → E → W × Bool
  /-- `Callback::Evaluate` (sgd_impl.hpp:227) -/
  cbEvaluate : W → M → E → W × Bool
  /-- `Callback::EndOptimization` (sgd_impl.hpp:180, 189, 231) -/
  cbEnd : W → M → W × M
  /-- element addition, zero, division by a count, `DBL_MAX` -/
  add : E → E → E
  zero : E
  divN : E → Nat → E
  dblMax : E
  /-- `isnan(e) || isinf(e)` (sgd_impl.hpp:175) -/
  isBad : E → Bool
  /-- `abs(last - overall) < tolerance` (sgd_impl.hpp:184) -/
  isClose : E → E → Bool

/-- The members read by `Optimize` (sgd_impl.hpp:35-40). -/
structure Params where
  numFunctions : Nat
  batchSize : Nat
  maxIterations : Nat
  shuffle : Bool
  exactObjective : Bool

/-- `std::numeric_limits<size_t>::max()` on a 64-bit target. -/
def sizeMax : Nat := 2 ^ 64 - 1

/-- sgd_impl.hpp:125-126. -/
def Params.actualMax (p : Params) : Nat :=
  if p.maxIterations = 0 then sizeMax else p.maxIterations

/-- Observable events: every call the optimizer makes to user code, in order. -/
inductive Ev (M E : Type) where
  | beginOpt (x : M)
  | beginEpoch (epoch : Nat) (obj : E) (stop : Bool)
  | evalGrad (x : M) (begin size : Nat) (obj : E)
  | cbEvalGrad (stop : Bool)
  | update (before after : M)
  | stepTaken (stop : Bool)
  | endEpoch (epoch : Nat) (obj : E) (stop : Bool)
  | shuffle
  | evaluate (x : M) (begin size : Nat) (obj : E)
  | endOpt (x : M)

/-- Local variables of `Optimize` (sgd_impl.hpp:96-103, loop variable `i` of line 130), the current
coordinates and the world. -/
structure St (W M E : Type) where
  w : W
  x : M
  i : Nat
  cur : Nat
  epoch : Nat
  overall : E
  last : E
  terminate : Bool
  trace : List (Ev M E)

variable {W M G E : Type}

/-- sgd_impl.hpp:139-141. -/
def effBatch (p : Params) (s : St W M E) : Nat :=
  min (min p.batchSize (p.actualMax - s.i)) (p.numFunctions - s.cur)

/-- First part of the loop body, sgd_impl.hpp:139-163: evaluate a batch, notify, update, notify,
decay, advance the counters. -/
def stepBatch (env : Env W M G E) (p : Params) (s : St W M E) : St W M E :=
  let eff := effBatch p s
  let r := env.evalGrad s.w s.x s.cur eff
  let c := env.cbEvalGrad r.1 s.x r.2.1 r.2.2
  let u := env.update c.1 s.x c.2.1
  let k := env.cbStep u.1 u.2
  let d := env.decay k.1 k.2.1 c.2.1
  { s with
    w := d.1, x := d.2, i := s.i + eff, cur := s.cur + eff,
    overall := env.add s.overall r.2.1,
    terminate := s.terminate || c.2.2 || k.2.2,
    trace := s.trace ++
      [.evalGrad s.x s.cur eff r.2.1, .cbEvalGrad c.2.2, .update s.x u.2, .stepTaken k.2.2] }

/-- How a run ended. -/
inductive Exit where
  /-- NaN/Inf return, sgd_impl.hpp:175-182 -/
  | bad
  /-- tolerance return, sgd_impl.hpp:184-191 -/
  | tol
  /-- loop left (limit reached or a stop request), sgd_impl.hpp:209-232 -/
  | loop
  deriving DecidableEq, Repr

/-- Result of one loop body. -/
inductive BodyRes (W M E : Type) where
  | cont (s : St W M E)
  | ret (e : Exit) (s : St W M E)
  /-- undefined behaviour: `% numFunctions` with `numFunctions = 0` -/
  | ub

/-- Second part of the loop body at an epoch end, sgd_impl.hpp:168-205.  `EndOptimization` of the two
`return` paths is added by `finish`. -/
def epochEnd (env : Env W M G E) (p : Params) (s : St W M E) : BodyRes W M E :=
  let avg := env.divN s.overall p.numFunctions
  let e := env.cbEndEpoch s.w s.x s.epoch avg
  let s1 : St W M E :=
    { s with w := e.1, epoch := s.epoch + 1, terminate := s.terminate || e.2,
             trace := s.trace ++ [.endEpoch s.epoch avg e.2] }
  if env.isBad s.overall then .ret .bad s1
  else if env.isClose s.last s.overall then .ret .tol s1
  else
    let b := env.cbBeginEpoch s1.w s1.x s1.epoch s1.overall
    let s2 : St W M E :=
      { s1 with w := b.1, terminate := s1.terminate || b.2,
                trace := s1.trace ++ [.beginEpoch s1.epoch s1.overall b.2] }
    let s3 : St W M E :=
      if s2.i ≠ p.actualMax then { s2 with last := s2.overall, overall := env.zero, cur := 0 }
      else s2
    .cont (if p.shuffle then { s3 with w := env.shuffle s3.w, trace := s3.trace ++ [.shuffle] }
           else s3)

/-- The loop body, sgd_impl.hpp:130-207. -/
def body (env : Env W M G E) (p : Params) (s : St W M E) : BodyRes W M E :=
  if p.numFunctions = 0 then .ub
  else
    let s' := stepBatch env p s
    if s'.cur % p.numFunctions = 0 then epochEnd env p s' else .cont s'

/-- Result of the loop. -/
inductive LoopRes (W M E : Type) where
  | done (e : Exit) (s : St W M E)
  | ub
  | outOfFuel

/-- The `for` loop of sgd_impl.hpp:130, at most `fuel` passes. -/
def loop (env : Env W M G E) (p : Params) : Nat → St W M E → LoopRes W M E
  | 0, s => if s.i < p.actualMax ∧ s.terminate = false then .outOfFuel else .done .loop s
  | fuel + 1, s =>
    if s.i < p.actualMax ∧ s.terminate = false then
      match body env p s with
      | .cont s' => loop env p fuel s'
      | .ret e s' => .done e s'
      | .ub => .ub
    else .done .loop s

/-- State before the loop, sgd_impl.hpp:96-129. -/
def start (env : Env W M G E) (w : W) (x : M) : St W M E :=
  let b := env.cbBegin w x
  let e := env.cbBeginEpoch b.1 b.2 1 env.zero
  { w := e.1, x := b.2, i := 0, cur := 0, epoch := 1, overall := env.zero, last := env.dblMax,
    terminate := e.2, trace := [.beginOpt x, .beginEpoch 1 env.zero e.2] }

/-- The final objective loop, sgd_impl.hpp:218-228; `none` if `fuel` does not suffice
(`batchSize = 0`: the loop never advances). -/
def exactLoop (env : Env W M G E) (p : Params) : Nat → Nat → St W M E → Option (St W M E)
  | 0, i, s => if i < p.numFunctions then none else some s
  | fuel + 1, i, s =>
    if i < p.numFunctions then
      let eff := min p.batchSize (p.numFunctions - i)
      let r := env.evaluate s.w s.x i eff
      let c := env.cbEvaluate r.1 s.x r.2
      exactLoop env p fuel (i + p.batchSize)
        { s with w := c.1, overall := env.add s.overall r.2,
                 trace := s.trace ++ [.evaluate s.x i eff r.2] }
    else some s

/-- What the caller sees: the returned objective, the coordinates at the final notification, and the
complete sequence of calls made. -/
structure Result (W M E : Type) where
  exit : Exit
  obj : E
  /-- coordinates at the `EndOptimization` notification -/
  x : M
  trace : List (Ev M E)
  /-- total number of functions visited and world after the run -/
  w : W

inductive Outcome (W M E : Type) where
  | returned (r : Result W M E)
  | ub
  | diverges

/-- `EndOptimization` and `return overallObjective` (sgd_impl.hpp:180-181, 189-190, 231-232). -/
def finish (env : Env W M G E) (e : Exit) (s : St W M E) : Result W M E :=
  { exit := e, obj := s.overall, x := s.x, trace := s.trace ++ [.endOpt s.x],
    w := (env.cbEnd s.w s.x).1 }

/-- `Optimize` (sgd_impl.hpp:93-233) with at most `fuel` loop passes. -/
def optimize (env : Env W M G E) (p : Params) (fuel : Nat) (w : W) (x : M) : Outcome W M E :=
  match loop env p fuel (start env w x) with
  | .ub => .ub
  | .outOfFuel => .diverges
  | .done .bad s => .returned (finish env .bad s)
  | .done .tol s => .returned (finish env .tol s)
  | .done .loop s =>
    if p.exactObjective then
      match exactLoop env p p.numFunctions 0 { s with overall := env.zero } with
      | some s' => .returned (finish env .loop s')
      | none => .diverges
    else .returned (finish env .loop s)

end Ens.Sgd
