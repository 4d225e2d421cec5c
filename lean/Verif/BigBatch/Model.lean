/-
Model of `BigBatchSGD<UpdatePolicyType>::Optimize`
(/repo/include/ensmallen_bits/bigbatch_sgd/bigbatch_sgd_impl.hpp).

The objective, the callbacks, the step size policy and all element arithmetic are parameters; their mutable state is the opaque
world `W` (that of the policy includes the step size). `M`: coordinates, `G`: gradients, `E`: element type, `R`: `double`.
-/

namespace Ens.BigBatch

structure Env (W M G E R : Type) where
  /-- `f.Gradient(iterate, index, g, 1)` (lines 125, 132, 170) -/
  gradient : W → M → Nat → W × G
  /-- `Callback::Gradient` (lines 127, 134, 171; may change the gradient) -/
  cbGradient : W → M → G → W × G × Bool
  /-- `instUpdatePolicy.Update` (lines 197-199) with gradient, `gB`, `vB`, `currentFunction`, `batchSize`, `effectiveBatchSize`,
  `reset`: may change coordinates and gradient -/
  policy : W → M → G → R → R → Nat → Nat → Nat → Bool → W × M × G
  /-- `iterate - stepSize * gradient` (line 202) -/
  step : W → M → G → M
  /-- `f.Evaluate(iterate, begin, batchSize)` (lines 205, 273) -/
  evaluate : W → M → Nat → Nat → W × E
  cbBegin : W → M → W × M
  cbStep : W → M → W × M × Bool
  cbEvaluate : W → M → E → W × Bool
  cbEndEpoch : W → M → Nat → E → W × Bool
  cbBeginEpoch : W → M → Nat → E → W × Bool
  /-- `f.Shuffle()` (line 256) -/
  shuffle : W → W
  /-- `gradient + functionGradient` (lines 144, 181) -/
  addG : G → G → G
  /-- `delta1 + (functionGradient - delta1) / k` (lines 137, 174) -/
  mean : G → G → Nat → G
  /-- `vB + norm(functionGradient - delta1) * norm(functionGradient - delta0)` (lines 140, 177): `vB`, `g`, `delta1`, `delta0` -/
  addVar : R → G → G → G → R
  zeroR : R
  /-- `pow(norm(gradient / n, 2), 2)` (lines 146, 183) -/
  sqNorm : G → Nat → R
  /-- `gB <= ((1 / ((double) batchSize - 1) * vB) / batchSize)` (line 155) -/
  noisy : R → R → Nat → Bool
  /-- `size_t(batchDelta * batchSize)` (line 158) -/
  delta : Nat → Nat
  add : E → E → E
  zero : E
  divN : E → Nat → E
  dblMax : E
  isBad : E → Bool
  isClose : E → E → Bool

/-- Constant members; `batchSize` is part of the state, because `Optimize` changes it. -/
structure Params where
  numFunctions : Nat
  maxIterations : Nat
  shuffle : Bool
  exactObjective : Bool

/-- Lines 105-106. -/
def Params.actualMax (p : Params) : Nat := if p.maxIterations = 0 then 2 ^ 64 - 1 else p.maxIterations

inductive Ev (M E : Type) where
  | beginOpt (x x' : M)
  | gradient (x : M) (index : Nat)
  | cbGradient (stop : Bool)
  | policy (x x' : M) (batchSize : Nat)
  /-- a move, with the range of functions it is based on -/
  | step (x x' : M) (begin size : Nat)
  | stepTaken (x : M) (stop : Bool)
  | evaluate (x : M) (begin size : Nat) (obj : E)
  | cbEvaluate (stop : Bool)
  | endEpoch (epoch : Nat) (obj : E) (stop : Bool)
  | beginEpoch (epoch : Nat) (obj : E) (stop : Bool)
  | shuffle
  | endOpt (x : M)

/-- Locals of the batch estimation (lines 117-192). -/
structure Batch (W M G E R : Type) where
  w : W
  batchSize : Nat
  eff : Nat
  k : Nat
  vB : R
  gB : R
  grad : G
  delta1 : G
  reset : Bool
  terminate : Bool
  trace : List (Ev M E)

/-- Locals of `Optimize` (lines 91-109), coordinates, and the member `batchSize`. -/
structure St (W M E : Type) where
  w : W
  x : M
  batchSize : Nat
  i : Nat
  cur : Nat
  epoch : Nat
  overall : E
  last : E
  terminate : Bool
  trace : List (Ev M E)

variable {W M G E R : Type}

/-- One gradient and its notification (lines 125-127, 132-135, 170-172). -/
def oneGrad (env : Env W M G E R) (x : M) (index : Nat) (w : W) : W × G × Bool × List (Ev M E) :=
  let g := env.gradient w x index
  let c := env.cbGradient g.1 x g.2
  (c.1, c.2.1, c.2.2, [.gradient x index, .cbGradient c.2.2])

/-- Body of the loops at lines 132-144 and 170-181; `div` is what the mean is divided by. -/
def addSample (env : Env W M G E R) (x : M) (index div : Nat) (b : Batch W M G E R) : Batch W M G E R :=
  let g := oneGrad env x index b.w
  let delta0 := env.mean b.delta1 g.2.1 div
  { b with w := g.1, terminate := b.terminate || g.2.2.1, vB := env.addVar b.vB g.2.1 b.delta1 delta0, delta1 := delta0,
           grad := env.addG b.grad g.2.1, trace := b.trace ++ g.2.2.2, k := b.k + 1 }

/-- Lines 130-145: `n` further samples from `index`, dividing by `k`. -/
def firstLoop (env : Env W M G E R) (x : M) : Nat → Nat → Batch W M G E R → Batch W M G E R
  | 0, _, b => b
  | n + 1, index, b => firstLoop env x n (index + 1) (addSample env x index b.k b)

/-- Lines 168-182: `n` further samples from `index`, dividing by `k + 1`. -/
def growLoop (env : Env W M G E R) (x : M) : Nat → Nat → Batch W M G E R → Batch W M G E R
  | 0, _, b => b
  | n + 1, index, b => growLoop env x n (index + 1) (addSample env x index (b.k + 1) b)

/-- Lines 158-160. -/
def offset (env : Env W M G E R) (batchSize : Nat) : Nat :=
  if env.delta batchSize ≤ 0 then 1 else env.delta batchSize

/-- Lines 166-167. -/
def batchStart (p : Params) (cur batchSize off : Nat) : Nat :=
  if cur + batchSize + off - 1 < p.numFunctions then cur + batchSize - 1 else 0

/-- The growing loop (lines 155-191); `none` when the fuel runs out. -/
def grow (env : Env W M G E R) (p : Params) (x : M) (cur : Nat) : Nat → Batch W M G E R → Option (Batch W M G E R)
  | 0, _ => none
  | fuel + 1, b =>
    if env.noisy b.gB b.vB b.batchSize then
      let off := offset env b.batchSize
      if cur + b.batchSize + off ≥ p.numFunctions then some b
      else
        let b' := growLoop env x off (batchStart p cur b.batchSize off) b
        grow env p x cur fuel
          { b' with gB := env.sqNorm b'.grad (b.batchSize + off), batchSize := b.batchSize + off, eff := b.eff + off,
                    reset := true }
    else some b

/-- Lines 117-119. -/
def effBatch (p : Params) (s : St W M E) : Nat :=
  min (min s.batchSize (p.actualMax - s.i)) (p.numFunctions - s.cur)

/-- Lines 117-192. -/
def estimate (env : Env W M G E R) (p : Params) (s : St W M E) : Option (Batch W M G E R) :=
  let eff := effBatch p s
  let g := oneGrad env s.x s.cur s.w
  let b : Batch W M G E R :=
    { w := g.1, batchSize := s.batchSize, eff := eff, k := 1, vB := env.zeroR, gB := env.zeroR, grad := g.2.1, delta1 := g.2.1,
      reset := false, terminate := s.terminate || g.2.2.1, trace := s.trace ++ g.2.2.2 }
  let b := firstLoop env s.x (eff - 1) (s.cur + 1) b
  let b := { b with gB := env.sqNorm b.grad eff }
  if eff = s.batchSize then grow env p s.x s.cur (p.numFunctions + 1) b else some b

/-- Lines 197-213. -/
def stepPart (env : Env W M G E R) (s : St W M E) (b : Batch W M G E R) : St W M E :=
  let u := env.policy b.w s.x b.grad b.gB b.vB s.cur b.batchSize b.eff b.reset
  let y := env.step u.1 u.2.1 u.2.2
  let k := env.cbStep u.1 y
  let o := env.evaluate k.1 k.2.1 s.cur b.eff
  let c := env.cbEvaluate o.1 k.2.1 o.2
  { s with w := c.1, x := k.2.1, batchSize := b.batchSize, i := s.i + b.eff, cur := s.cur + b.eff,
           overall := env.add s.overall o.2, terminate := b.terminate || k.2.2 || c.2,
           trace := b.trace ++ [.policy s.x u.2.1 b.batchSize, .step u.2.1 y s.cur b.eff, .stepTaken k.2.1 k.2.2,
             .evaluate k.2.1 s.cur b.eff o.2, .cbEvaluate c.2] }

inductive Exit where
  | bad | tol | loop
  deriving DecidableEq, Repr

inductive BodyRes (W M E : Type) where
  | cont (s : St W M E)
  | ret (e : Exit) (s : St W M E)
  /-- undefined behaviour: `% numFunctions` with `numFunctions = 0` -/
  | ub

/-- Lines 216-257. -/
def epochEnd (env : Env W M G E R) (p : Params) (s : St W M E) : BodyRes W M E :=
  let avg := env.divN s.overall p.numFunctions
  let e := env.cbEndEpoch s.w s.x s.epoch avg
  let s1 : St W M E := { s with w := e.1, epoch := s.epoch + 1, terminate := s.terminate || e.2,
                                trace := s.trace ++ [.endEpoch s.epoch avg e.2] }
  if env.isBad s.overall then .ret .bad s1
  else if env.isClose s.last s.overall then .ret .tol s1
  else
    let b := env.cbBeginEpoch s1.w s1.x s1.epoch s1.overall
    let s2 : St W M E := { s1 with w := b.1, terminate := s1.terminate || b.2,
                                   trace := s1.trace ++ [.beginEpoch s1.epoch s1.overall b.2] }
    let s3 : St W M E := if s2.i ≠ p.actualMax then { s2 with last := s2.overall, overall := env.zero, cur := 0 } else s2
    .cont (if p.shuffle then { s3 with w := env.shuffle s3.w, trace := s3.trace ++ [.shuffle] } else s3)

/-- One pass through the loop (lines 110-258). `none`: the growing loop does not end (shown impossible). A stop request seen during
the estimation leaves the loop (`break`, line 195) with the grown batch size. -/
def body (env : Env W M G E R) (p : Params) (s : St W M E) : Option (Bool × BodyRes W M E) :=
  match estimate env p s with
  | none => none
  | some b =>
    if b.terminate then
      some (true, .cont { s with w := b.w, batchSize := b.batchSize, terminate := true, trace := b.trace })
    else
      let s1 := stepPart env s b
      if p.numFunctions = 0 then some (false, .ub)
      else if s1.cur % p.numFunctions = 0 then some (false, epochEnd env p s1)
      else some (false, .cont s1)

inductive Res (W M E : Type) where
  | done (e : Exit) (s : St W M E)
  | ub
  /-- still running when the fuel was used up -/
  | running (s : St W M E)

/-- The loop (lines 108-258). -/
def loop (env : Env W M G E R) (p : Params) : Nat → St W M E → Res W M E
  | 0, s => .running s
  | fuel + 1, s =>
    if s.i < p.actualMax ∧ s.terminate = false then
      match body env p s with
      | none => .running s
      | some (true, .cont s') => .done .loop s'
      | some (false, .cont s') => loop env p fuel s'
      | some (_, .ret e s') => .done e s'
      | some (_, .ub) => .ub
    else .done .loop s

/-- Lines 88-107. -/
def start (env : Env W M G E R) (batchSize : Nat) (w : W) (x : M) : St W M E :=
  let b := env.cbBegin w x
  ⟨b.1, b.2, batchSize, 0, 0, 1, env.zero, env.dblMax, false, [.beginOpt x b.2]⟩

/-- The final pass (lines 267-280). -/
def exactLoop (env : Env W M G E R) (p : Params) : Nat → Nat → St W M E → Option (St W M E)
  | 0, i, s => if i < p.numFunctions then none else some s
  | fuel + 1, i, s =>
    if i < p.numFunctions then
      let eff := min s.batchSize (p.numFunctions - i)
      let o := env.evaluate s.w s.x i eff
      let c := env.cbEvaluate o.1 s.x o.2
      exactLoop env p fuel (i + s.batchSize)
        { s with w := c.1, overall := env.add s.overall o.2,
                 trace := s.trace ++ [.evaluate s.x i eff o.2, .cbEvaluate c.2] }
    else some s

structure Result (M E : Type) where
  exit : Exit
  obj : E
  x : M
  /-- the member `batchSize` after the call -/
  batchSize : Nat
  trace : List (Ev M E)

def finish (e : Exit) (s : St W M E) : Result M E := ⟨e, s.overall, s.x, s.batchSize, s.trace ++ [.endOpt s.x]⟩

/-- `Optimize` (lines 55-284). `none`: undefined behaviour, or not finished within `fuel` passes. -/
def optimize (env : Env W M G E R) (p : Params) (fuel batchSize : Nat) (w : W) (x : M) : Option (Result M E) :=
  match loop env p fuel (start env batchSize w x) with
  | .done .loop s =>
    if p.exactObjective then (exactLoop env p p.numFunctions 0 { s with overall := env.zero }).map (finish .loop)
    else some (finish .loop s)
  | .done e s => some (finish e s)
  | _ => none

end Ens.BigBatch
