import Verif.Loop
import Verif.Sgd.Lemmas

/-
Model of `Eve::Optimize` (/repo/include/ensmallen_bits/eve/eve_impl.hpp) and of
`SPALeRASGD<DecayPolicyType>::Optimize` (/repo/include/ensmallen_bits/spalera_sgd/spalera_sgd_impl.hpp).

The two functions have the same loop; `Kind` lists where they differ.  As in the model of SGD, everything supplied from
outside (objective, callbacks, element arithmetic) and the step itself are parameters acting on the opaque world `W`; the
steps of the two optimizers are modelled in `Verif/Epoch/Eve.lean` and `Verif/Epoch/Spalera.lean`.
-/

namespace Ens.Epoch

/-- Outside world of a run.  `M`: coordinates, `G`: gradients, `E`: element type. -/
structure Env (W M G E : Type) where
  /-- `f.EvaluateWithGradient(iterate, begin, gradient, batchSize)` (eve 120, spalera 157) -/
  evalGrad : W → M → Nat → Nat → W × E × G
  /-- `f.Evaluate(iterate, begin, batchSize)` (eve 212; spalera 110, 241) -/
  evaluate : W → M → Nat → Nat → W × E
  /-- `f.Shuffle()` (eve 198, spalera 227) -/
  shuffle : W → W
  /-- the step (eve 129-151; spalera 166-167) from objective and gradient of the batch, loop counter `i` and batch size;
  `false`: the policy reports failure (spalera only) -/
  update : W → M → E → G → Nat → Nat → W × M × Bool
  /-- `instDecayPolicy.Update` (spalera 179-180; Eve has none) -/
  decay : W → M → G → W × M
  cbBegin : W → M → W × M
  cbBeginEpoch : W → M → Nat → E → W × Bool
  /-- `Callback::EvaluateWithGradient` (eve 124, spalera 160; may modify the gradient) -/
  cbEvalGrad : W → M → E → G → W × G × Bool
  /-- `Callback::StepTaken` (eve 153, spalera 176; may modify the coordinates) -/
  cbStep : W → M → W × M × Bool
  cbEndEpoch : W → M → Nat → E → W × Bool
  /-- `Callback::Evaluate` (eve 217; spalera 113, 246) -/
  cbEvaluate : W → M → E → W × Bool
  add : E → E → E
  zero : E
  divN : E → Nat → E
  dblMax : E
  /-- `isnan(e) || isinf(e)` (eve 168, spalera 196) -/
  isBad : E → Bool
  /-- `abs(last - overall) < tolerance` (eve 177, spalera 206) -/
  isClose : E → E → Bool

/-- Where `Eve::Optimize` and `SPALeRASGD::Optimize` differ. -/
inductive Kind where
  | eve
  | spalera
  deriving DecidableEq

structure Params where
  kind : Kind
  numFunctions : Nat
  batchSize : Nat
  maxIterations : Nat
  shuffle : Bool
  exactObjective : Bool

/-- eve 103-104, spalera 139-140 -/
def Params.actualMax (p : Params) : Nat := if p.maxIterations = 0 then 2 ^ 64 - 1 else p.maxIterations

/-- Calls made, in order, with the answers of the callbacks. -/
inductive Ev (M E : Type) where
  | beginOpt (x x' : M)
  /-- a call of `Evaluate` (outside the loop) -/
  | evaluate (x : M) (begin size : Nat) (obj : E) (stop : Bool)
  | beginEpoch (epoch : Nat) (obj : E) (stop : Bool)
  | evalGrad (x : M) (begin size : Nat) (obj : E) (stop : Bool)
  | update (before after : M) (ok : Bool)
  | stepTaken (x : M) (stop : Bool)
  /-- coordinates as the decay policy left them -/
  | decay (x : M)
  | endEpoch (epoch : Nat) (obj : E) (stop : Bool)
  | shuffle
  | endOpt (x : M)

/-- Locals, coordinates and the world. -/
structure St (W M E : Type) where
  w : W
  x : M
  i : Nat
  cur : Nat
  epoch : Nat
  overall : E
  last : E
  terminate : Bool
  trace : List (Ev M E)

/-- How a run ended; `fail`: the policy reported failure (spalera 166-175). -/
inductive Exit where
  | bad | tol | loop | fail
  deriving DecidableEq

inductive Res (W M E : Type) where
  | ret (e : Exit) (s : St W M E)
  /-- `% numFunctions` with `numFunctions = 0` -/
  | ub

variable {W M G E : Type}

/-- `Evaluate` of one batch with its notification (eve 211-217; spalera 109-113, 240-246). -/
def evalOne (env : Env W M G E) (s : St W M E) (c : Nat × Nat) : St W M E :=
  let r := env.evaluate s.w s.x c.1 c.2
  let k := env.cbEvaluate r.1 s.x r.2
  { s with w := k.1, overall := env.add s.overall r.2, terminate := s.terminate || k.2,
           trace := s.trace ++ [.evaluate s.x c.1 c.2 r.2 k.2] }

/-- `for (i = 0; i < numFunctions; i += batchSize)` over batches of `min(batchSize, numFunctions - i)` functions (eve 209-218;
spalera 107-114, 238-247), for `batchSize > 0`. -/
def evalAll (env : Env W M G E) (p : Params) (s : St W M E) : St W M E :=
  (Sgd.chunks p.numFunctions p.batchSize p.numFunctions 0).foldl (evalOne env) s

/-- `Callback::BeginEpoch` (eve 186, spalera 141, 223). -/
def beginEpoch (env : Env W M G E) (s : St W M E) : St W M E :=
  let b := env.cbBeginEpoch s.w s.x s.epoch s.overall
  { s with w := b.1, terminate := s.terminate || b.2, trace := s.trace ++ [.beginEpoch s.epoch s.overall b.2] }

/-- Before the loop (eve 80-101; spalera 96-142). SPALeRA adds up the objective at the start, and does not reset the sum. -/
def start (env : Env W M G E) (p : Params) (w : W) (x : M) : St W M E :=
  let b := env.cbBegin w x
  let s : St W M E := ⟨b.1, b.2, 0, 0, 1, env.zero, env.dblMax, false, [.beginOpt x b.2]⟩
  match p.kind with
  | .eve => s
  | .spalera => beginEpoch env (evalAll env p s)

/-- eve 114-116, spalera 153-155 -/
def effBatch (p : Params) (s : St W M E) : Nat :=
  min (min p.batchSize (p.actualMax - s.i)) (p.numFunctions - s.cur)

/-- The batch is evaluated and announced (eve 120-125: the objective is added up first; spalera 157-161); also objective
and gradient. -/
def gradPart (env : Env W M G E) (p : Params) (s : St W M E) : St W M E × E × G :=
  let r := env.evalGrad s.w s.x s.cur (effBatch p s)
  let c := env.cbEvalGrad r.1 s.x r.2.1 r.2.2
  ({ s with w := c.1, overall := (if p.kind = .eve then env.add s.overall r.2.1 else s.overall),
            terminate := s.terminate || c.2.2,
            trace := s.trace ++ [.evalGrad s.x s.cur (effBatch p s) r.2.1 c.2.2] }, r.2.1, c.2.1)

/-- After the step (eve 153-156; spalera 176-184): notification, decay, counters. -/
def afterStep (env : Env W M G E) (p : Params) (eff : Nat) (obj : E) (g : G) (s : St W M E) : St W M E :=
  let k := env.cbStep s.w s.x
  let d := env.decay k.1 k.2.1 g
  { s with w := d.1, x := d.2, i := s.i + eff, cur := s.cur + eff,
           overall := (if p.kind = .eve then s.overall else env.add s.overall obj),
           terminate := s.terminate || k.2.2, trace := s.trace ++ [.stepTaken k.2.1 k.2.2, .decay d.2] }

/-- eve 190-195, spalera 216-221 -/
def resetCounters (env : Env W M G E) (p : Params) (s : St W M E) : St W M E :=
  if s.i ≠ p.actualMax then { s with last := s.overall, overall := env.zero, cur := 0 } else s

/-- End of an epoch (eve 161-198; spalera 189-227): Eve announces the next epoch before it resets the counters, SPALeRA
after. -/
def epochEnd (env : Env W M G E) (p : Params) (s : St W M E) : St W M E ⊕ Res W M E :=
  let avg := env.divN s.overall p.numFunctions
  let e := env.cbEndEpoch s.w s.x s.epoch avg
  let s1 : St W M E := { s with w := e.1, epoch := s.epoch + 1, terminate := s.terminate || e.2,
                                trace := s.trace ++ [.endEpoch s.epoch avg e.2] }
  if env.isBad s.overall then .inr (.ret .bad s1)
  else if env.isClose s.last s.overall then .inr (.ret .tol s1)
  else
    let s2 := if p.kind = .eve then resetCounters env p (beginEpoch env s1)
      else beginEpoch env (resetCounters env p s1)
    .inl (if p.shuffle then { s2 with w := env.shuffle s2.w, trace := s2.trace ++ [.shuffle] } else s2)

/-- The step itself (eve 129-151; spalera 166-167). -/
def stepPart (env : Env W M G E) (s : St W M E) (obj : E) (g : G) (eff : Nat) : St W M E × Bool :=
  let u := env.update s.w s.x obj g s.i eff
  ({ s with w := u.1, x := u.2.1, trace := s.trace ++ [.update s.x u.2.1 u.2.2] }, u.2.2)

/-- One pass of the loop with its condition (eve 105-200; spalera 143-229). -/
def step (env : Env W M G E) (p : Params) (s : St W M E) : St W M E ⊕ Res W M E :=
  if s.i < p.actualMax ∧ s.terminate = false then
    if p.numFunctions = 0 then .inr .ub
    else
      let r := gradPart env p s
      if r.1.terminate then .inr (.ret .loop r.1)
      else
        let u := stepPart env r.1 r.2.1 r.2.2 (effBatch p s)
        if u.2 = false then .inr (.ret .fail u.1)
        else
          let s' := afterStep env p (effBatch p s) r.2.1 r.2.2 u.1
          if s'.cur % p.numFunctions = 0 then epochEnd env p s' else .inl s'
  else .inr (.ret .loop s)

structure Result (M E : Type) where
  exit : Exit
  obj : E
  x : M
  trace : List (Ev M E)

inductive Outcome (M E : Type) where
  | returned (r : Result M E)
  | ub

/-- `EndOptimization` and `return overallObjective`. -/
def finish (e : Exit) (s : St W M E) : Outcome M E := .returned ⟨e, s.overall, s.x, s.trace ++ [.endOpt s.x]⟩

/-- After the loop (eve 206-222, spalera 235-251, and the early returns). -/
def conclude (env : Env W M G E) (p : Params) : Res W M E → Outcome M E
  | .ub => .ub
  | .ret .loop s =>
    finish .loop (if p.exactObjective then evalAll env p { s with overall := env.zero } else s)
  | .ret e s => finish e s

/-- `Optimize`; `none`: not finished within `fuel` passes. -/
def optimize (env : Env W M G E) (p : Params) (fuel : Nat) (w : W) (x : M) : Option (Outcome M E) :=
  (iterate (step env p) fuel (start env p w x)).map (conclude env p)

end Ens.Epoch
