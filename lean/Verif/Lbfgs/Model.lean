import Verif.Common
import Verif.Loop

/-
Model of `L_BFGS::LineSearch` and `L_BFGS::Optimize` (`lbfgs/lbfgs_impl.hpp`). The objective, the callbacks and the
arithmetic are parameters; the direction itself is in `Verif/Lbfgs/Direction.lean`.
-/

namespace Ens.Lbfgs

/-- Outside world and arithmetic. `X`: coordinates, `G`: gradients and directions, `E`: numbers, `Mem`: the cubes `s`
and `y`. -/
structure Env (W X G E Mem : Type) where
  /-- `EvaluateWithGradient` (lines 269, 400) -/
  evalGrad : W → X → W × E × G
  /-- `Callback::EvaluateWithGradient` (lines 277, 402; may change the gradient) -/
  cbEvalGrad : W → X → E → G → W × G × Bool
  cbBegin : W → X → W × X
  cbStep : W → X → W × X × Bool
  cbEnd : W → X → W × X
  /-- `iterate + stepSize * direction` (lines 267-268, 330) -/
  move : X → E → G → X
  dot : G → G → E
  isNaN : E → Bool
  isFinite : E → Bool
  isZero : E → Bool
  /-- `norm(gradient, 2) < minGradientNorm` (line 420) -/
  gradSmall : G → Bool
  /-- `ChooseScalingFactor` (line 437) -/
  scaling : Nat → G → Mem → E
  /-- `SearchDirection` (line 454) -/
  direction : Nat → G → E → Mem → G
  /-- `UpdateBasisSet` (line 490) -/
  update : Nat → X → X → G → G → Mem → Mem
  /-- `(prev - value) / denom <= factr` (lines 479-482) -/
  stable : E → E → Bool
  armijoConstant : E
  wolfe : E
  minStep : E
  maxStep : E
  zero : E
  one : E
  inc : E
  dec : E
  maxVal : E
  maxLineSearchTrials : Nat
  maxIterations : Nat

variable {W X G E Mem : Type}

/-- Local variables of `LineSearch` (lines 229-261). `trials` is a ghost variable: step sizes and values tried. -/
structure LS (W G E : Type) where
  w : W
  step : E
  fv : E
  grad : G
  num : Nat
  bestStep : E
  bestObj : E
  terminate : Bool
  trials : List (E × E)

/-- How the loop of `LineSearch` was left. -/
inductive LsExit where
  | nan | wolfe | limit
  deriving DecidableEq

section

variable [Add E] [Mul E] [Neg E] [LT E] [DecidableLT E]

/-- Choice of `width`; `none` is the `break` of line 312 (lines 287-315). -/
def width (env : Env W X G E Mem) (initF initDot lin : E) (dir : G) (step fv : E) (grad : G) : Option E :=
  if initF + step * lin < fv then some env.dec
  else if env.dot grad dir < env.wolfe * initDot then some env.inc
  else if -env.wolfe * initDot < env.dot grad dir then some env.dec
  else none

/-- Body of the loop of `LineSearch` (lines 265-326). -/
def lsStep (env : Env W X G E Mem) (x : X) (dir : G) (initF initDot lin : E) (s : LS W G E) :
    LS W G E ⊕ (LsExit × LS W G E) :=
  let x' := env.move x s.step dir
  let r := env.evalGrad s.w x'
  if env.isNaN r.2.1 then .inr (.nan, { s with w := r.1, fv := r.2.1, grad := r.2.2 })
  else
    let c := env.cbEvalGrad r.1 x' r.2.1 r.2.2
    let b := if r.2.1 < s.bestObj then (s.step, r.2.1) else (s.bestStep, s.bestObj)
    let t : LS W G E :=
      { w := c.1, step := s.step, fv := r.2.1, grad := c.2.1, num := s.num + 1, bestStep := b.1,
        bestObj := b.2, terminate := s.terminate || c.2.2, trials := s.trials ++ [(s.step, r.2.1)] }
    match width env initF initDot lin dir s.step r.2.1 c.2.1 with
    | none => .inr (.wolfe, t)
    | some wd =>
      if s.step < env.minStep ∨ env.maxStep < s.step ∨ env.maxLineSearchTrials ≤ t.num then .inr (.limit, t)
      else .inl { t with step := s.step * wd }

/-- State before the loop of `LineSearch` (lines 229-261). -/
def lsStart (env : Env W X G E Mem) (w : W) (fv : E) (grad : G) (terminate : Bool) : LS W G E :=
  ⟨w, env.one, fv, grad, 0, env.one, env.maxVal, terminate, []⟩

/-- Passes of the line-search loop that always suffice. -/
def lsFuel (env : Env W X G E Mem) : Nat := max 1 env.maxLineSearchTrials

/-- State of `Optimize`. `log` is a ghost variable: the values of `functionValue` at the start of each iteration;
`evals` counts the evaluations. -/
structure St (W X G E Mem : Type) where
  w : W
  x : X
  fv : E
  grad : G
  mem : Mem
  it : Nat
  terminate : Bool
  log : List E
  evals : Nat

/-- Why the main loop ended. -/
inductive Exit where
  | loop | gradient | nanObjective | zeroScaling | badScaling | notDescent | lsNaN | zeroStep | stable
  deriving DecidableEq

/-- The part of the main loop after the search loop of `LineSearch` (lines 330-332, 461-492). -/
def afterSearch (env : Env W X G E Mem) (s : St W X G E Mem) (dir : G) (e : LsExit) (t : LS W G E) :
    St W X G E Mem ⊕ (Exit × St W X G E Mem) :=
  if e = .nan then
    .inr (.lsNaN, { s with w := t.w, fv := t.fv, grad := t.grad, terminate := t.terminate,
                           evals := s.evals + t.trials.length + 1 })
  else
    let x' := env.move s.x t.bestStep dir
    let u := { s with w := t.w, x := x', fv := t.fv, grad := t.grad, terminate := t.terminate,
                      evals := s.evals + t.trials.length }
    if env.isZero t.bestStep then .inr (.zeroStep, u)
    else if env.stable s.fv t.fv then .inr (.stable, u)
    else
      let c := env.cbStep t.w x'
      .inl { u with w := c.1, x := c.2.1, mem := env.update s.it x' s.x t.grad s.grad s.mem,
                    it := s.it + 1, terminate := t.terminate || c.2.2 }

/-- Body of the main loop (lines 409-493) including its condition. -/
def step (env : Env W X G E Mem) (s : St W X G E Mem) : St W X G E Mem ⊕ (Exit × St W X G E Mem) :=
  if ¬ (env.maxIterations = 0 ∨ s.it ≠ env.maxIterations) ∨ s.terminate = true then .inr (.loop, s)
  else
    let s := { s with log := s.log ++ [s.fv] }
    if env.gradSmall s.grad then .inr (.gradient, s)
    else if env.isNaN s.fv then .inr (.nanObjective, s)
    else
      let sc := env.scaling s.it s.grad s.mem
      if env.isZero sc then .inr (.zeroScaling, s)
      else if ¬ env.isFinite sc then .inr (.badScaling, s)
      else
        let dir := env.direction s.it s.grad sc s.mem
        let d0 := env.dot s.grad dir
        if env.zero < d0 ∨ ¬ env.isFinite d0 then .inr (.notDescent, s)
        else
          match iterate (lsStep env s.x dir s.fv d0 (env.armijoConstant * d0)) (lsFuel env)
              (lsStart env s.w s.fv s.grad s.terminate) with
          | none => .inr (.lsNaN, s)
          | some r => afterSearch env s dir r.1 r.2

/-- Everything before the main loop (lines 371-408). `terminate` is a member variable that is never reset. -/
def start (env : Env W X G E Mem) (mem : Mem) (terminate : Bool) (w : W) (x : X) : St W X G E Mem :=
  let r := env.evalGrad w x
  let c := env.cbEvalGrad r.1 x r.2.1 r.2.2
  let b := env.cbBegin c.1 x
  ⟨b.1, b.2, r.2.1, c.2.1, mem, 0, terminate || c.2.2, [], 1⟩

/-- `Optimize` (lines 351-497): the exit taken and the final state (its `fv` is the returned value). `none`: out of
fuel. -/
def optimize (env : Env W X G E Mem) (mem : Mem) (terminate : Bool) (fuel : Nat) (w : W) (x : X) :
    Option (Exit × St W X G E Mem) :=
  (iterate (step env) fuel (start env mem terminate w x)).map fun r =>
    let e := env.cbEnd r.2.w r.2.x
    (r.1, { r.2 with w := e.1, x := e.2 })

end

end Ens.Lbfgs
