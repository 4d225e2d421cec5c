import Verif.Loop

/-
Model of `CD<DescentPolicyType>::Optimize` (/repo/include/ensmallen_bits/cd/cd_impl.hpp) and of the
descent policies (/repo/include/ensmallen_bits/cd/descent_policies).

Coordinates are the list of columns of the matrix; `C` is a column.
-/

namespace Ens.Cd

/-- Outside world. -/
structure Env (W C E : Type) where
  /-- `descentPolicy.DescentFeature(i, iterate, function)` (lines 74-76) -/
  feature : W → Nat → List C → W × Nat
  /-- `function.PartialGradient(iterate, featureIdx, gradient)` (line 79): a matrix -/
  partialGrad : W → List C → Nat → W × List C
  /-- `Callback::Gradient` (line 81; may change the gradient) -/
  cbGradient : W → List C → E → List C → W × List C × Bool
  /-- `Callback::StepTaken` (line 88; may change the coordinates) -/
  cbStep : W → List C → W × List C × Bool
  /-- `function.Evaluate(iterate)` (lines 93, 128) -/
  evaluate : W → List C → W × E
  /-- `Callback::Evaluate` (lines 94, 129) -/
  cbEvaluate : W → List C → E → W × Bool
  /-- `Callback::BeginOptimization`, `Callback::EndOptimization` -/
  cbBegin : W → List C → W × List C
  cbEnd : W → List C → W × List C
  /-- `col - stepSize * gradientCol` (line 87) -/
  moveCol : C → C → C
  zero : E
  maxVal : E
  isBad : E → Bool
  isClose : E → E → Bool

/-- Calls made, in order.  `step i j x g y`: iteration `i` moved column `j` of `x` along `g`,
giving `y`.  `beginOpt x x'`, `cbGradient g _`, `stepTaken x _`: the primed/first argument is the value
as the callback left it. -/
inductive Ev (C E : Type) where
  | beginOpt (x x' : List C)
  | feature (i j : Nat)
  | partialGrad (x : List C) (j : Nat) (g : List C)
  | cbGradient (g : List C) (stop : Bool)
  | step (i j : Nat) (x g y : List C)
  | stepTaken (x : List C) (stop : Bool)
  | evaluate (x : List C) (obj : E)
  | cbEvaluate (stop : Bool)
  | endOpt (x : List C)

structure St (W C E : Type) where
  w : W
  x : List C
  i : Nat
  overall : E
  last : E
  terminate : Bool
  trace : List (Ev C E)

inductive Exit where
  | bad | tol | loop
  deriving DecidableEq

structure Result (W C E : Type) where
  exit : Exit
  obj : E
  x : List C
  trace : List (Ev C E)
  /-- the outside world after `EndOptimization` -/
  w : W

inductive Outcome (W C E : Type) where
  | returned (r : Result W C E)
  /-- `iterate.col(featureIdx)` or `gradient.col(featureIdx)` out of range (Armadillo error) -/
  | outOfBounds
  /-- `i % updateInterval` with `updateInterval = 0` -/
  | divByZero

variable {W C E : Type}

/-- lines 62-70 -/
def start (env : Env W C E) (w : W) (x : List C) : St W C E :=
  let b := env.cbBegin w x
  ⟨b.1, b.2, 1, env.zero, env.maxVal, false, [.beginOpt x b.2]⟩

/-- `EndOptimization` and `return` (lines 106-107, 115-116, 131-132) -/
def finish (env : Env W C E) (e : Exit) (obj : E) (s : St W C E) : Outcome W C E :=
  .returned ⟨e, obj, s.x, s.trace ++ [.endOpt s.x], (env.cbEnd s.w s.x).1⟩

/-- After the loop, lines 126-132. -/
def afterLoop (env : Env W C E) (s : St W C E) : Outcome W C E :=
  let o := env.evaluate s.w s.x
  let c := env.cbEvaluate o.1 s.x o.2
  finish env .loop o.2 { s with w := c.1, trace := s.trace ++ [.evaluate s.x o.2, .cbEvaluate c.2] }

/-- First part of the body, lines 74-82: choose the coordinate, get the partial gradient, notify.
Returns the feature and the (possibly modified) gradient. -/
def gradPart (env : Env W C E) (s : St W C E) : St W C E × Nat × List C :=
  let f := env.feature s.w s.i s.x
  let g := env.partialGrad f.1 s.x f.2
  let c := env.cbGradient g.1 s.x s.overall g.2
  ({ s with w := c.1, terminate := s.terminate || c.2.2,
            trace := s.trace ++ [.feature s.i f.2, .partialGrad s.x f.2 g.2, .cbGradient c.2.1 c.2.2] },
    f.2, c.2.1)

/-- The column update and its notification, lines 87-88. -/
def movePart (env : Env W C E) (s : St W C E) (j : Nat) (g : List C) (xj gj : C) : St W C E :=
  let y := s.x.set j (env.moveCol xj gj)
  let k := env.cbStep s.w y
  { s with w := k.1, x := k.2.1, terminate := s.terminate || k.2.2,
           trace := s.trace ++ [.step s.i j s.x g y, .stepTaken k.2.1 k.2.2] }

/-- The periodic evaluation, lines 93-95. -/
def evalPart (env : Env W C E) (s : St W C E) : St W C E :=
  let o := env.evaluate s.w s.x
  let c := env.cbEvaluate o.1 s.x o.2
  { s with w := c.1, overall := o.2, terminate := s.terminate || c.2,
           trace := s.trace ++ [.evaluate s.x o.2, .cbEvaluate c.2] }

/-- One pass: the loop condition of line 71 and the body, lines 72-121. -/
def step (env : Env W C E) (maxIterations updateInterval : Nat) (s : St W C E) :
    St W C E ⊕ Outcome W C E :=
  if s.i = maxIterations ∨ s.terminate = true then .inr (afterLoop env s)
  else
    let p := gradPart env s
    if p.1.terminate then .inr (afterLoop env p.1)   -- `break`, line 83-84
    else
      match p.1.x[p.2.1]?, p.2.2[p.2.1]? with
      | some xj, some gj =>
        let s2 := movePart env p.1 p.2.1 p.2.2 xj gj
        if updateInterval = 0 then .inr .divByZero
        else if s.i % updateInterval = 0 then
          let s3 := evalPart env s2
          if env.isBad s3.overall then .inr (finish env .bad s3.overall s3)
          else if env.isClose s3.last s3.overall then .inr (finish env .tol s3.overall s3)
          else .inl { s3 with last := s3.overall, i := (s3.i + 1) % 2 ^ 64 }
        else .inl { s2 with i := (s2.i + 1) % 2 ^ 64 }
      | _, _ => .inr .outOfBounds

/-- `Optimize` (lines 37-133). -/
def optimize (env : Env W C E) (maxIterations updateInterval fuel : Nat) (w : W) (x : List C) :
    Option (Outcome W C E) :=
  iterate (step env maxIterations updateInterval) fuel (start env w x)

/-- `CyclicDescent::DescentFeature` (cyclic_descent.hpp:49-55); `none`: division by zero. -/
def cyclic (iteration numFeatures : Nat) : Option Nat :=
  if numFeatures = 0 then none else some (iteration % numFeatures)

/-- `RandomDescent::DescentFeature` (random_descent.hpp:50-57): a draw of `randi` in
`[0, NumFeatures() - 1]` (`none` if there is no feature, where `NumFeatures() - 1` wraps). -/
def random (draw numFeatures : Nat) : Option Nat :=
  if numFeatures = 0 then none else some (draw % numFeatures)

/-- `GreedyDescent::DescentFeature` (greedy_descent.hpp:49-73); `descent i` is `accu` of the partial
gradient of feature `i`. -/
def greedy {E : Type} [LT E] [DecidableLT E] (zero : E) (descent : Nat → E) (numFeatures : Nat) : Nat :=
  ((List.range numFeatures).foldl
    (fun (b : Nat × E) i => if b.2 < descent i then (i, descent i) else b) (0, zero)).1

end Ens.Cd
