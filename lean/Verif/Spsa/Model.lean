import Mathlib.Analysis.SpecialFunctions.Pow.Real
import Mathlib.Algebra.Module.Pi

/-
Model of `SPSA::Optimize` (/repo/include/ensmallen_bits/spsa/spsa_impl.hpp), over the reals: coordinates are functions
`ι → ℝ`. Rounding is not modelled. The objective, the callbacks and the random directions act on the opaque world `W`;
the tests for NaN/infinity and for closeness are parameters.
-/

namespace Ens.Spsa

structure Env (W ι : Type) where
  /-- `function.Evaluate` (lines 102, 107, 120, 127) -/
  evaluate : W → (ι → ℝ) → W × ℝ
  /-- `Callback::Evaluate` (lines 103, 108, 121, 128) -/
  cbEvaluate : W → (ι → ℝ) → ℝ → W × Bool
  /-- `Callback::BeginOptimization` (line 65) -/
  cbBegin : W → (ι → ℝ) → W × (ι → ℝ)
  /-- `Callback::StepTaken` (line 118; may change the coordinates) -/
  cbStep : W → (ι → ℝ) → W × (ι → ℝ) × Bool
  /-- `arma::randi(..., distr_param(0, 1))` (line 98): a bit per element -/
  bits : W → W × (ι → Bool)
  /-- `isnan(e) || isinf(e)` (line 72) -/
  isBad : ℝ → Bool
  /-- `abs(last - overall) < tolerance` (line 81) -/
  isClose : ℝ → ℝ → Bool
  /-- `DBL_MAX` (line 60) -/
  dblMax : ℝ

/-- Members (lines 24-37). -/
structure Params where
  alpha : ℝ
  gamma : ℝ
  stepSize : ℝ
  evalStep : ℝ
  ak : ℝ
  maxIterations : Nat

/-- The constructor (lines 24-37). -/
noncomputable def Params.new (alpha gamma stepSize evalStep : ℝ) (maxIterations : Nat) : Params :=
  ⟨alpha, gamma, stepSize, evalStep, 0.001 * maxIterations, maxIterations⟩

/-- Gain sequences (lines 93-94). -/
noncomputable def Params.gain (p : Params) (k : Nat) : ℝ := p.stepSize / ((k : ℝ) + 1 + p.ak) ^ p.alpha
noncomputable def Params.probe (p : Params) (k : Nat) : ℝ := p.evalStep / ((k : ℝ) + 1) ^ p.gamma

/-- Lines 97-99: the direction from the bits. -/
def direction {ι : Type} (b : ι → Bool) : ι → ℝ := fun i => (if b i then 1 else 0) * 2 - 1

inductive Ev (ι : Type) where
  | beginOpt (x x' : ι → ℝ)
  | eval (x : ι → ℝ) (v : ℝ)
  | cbEval (stop : Bool)
  | step (before after : ι → ℝ)
  | stepTaken (x : ι → ℝ) (stop : Bool)
  | endOpt (x : ι → ℝ)

structure St (W ι : Type) where
  w : W
  x : ι → ℝ
  overall : ℝ
  last : ℝ
  terminate : Bool
  trace : List (Ev ι)

inductive Exit where
  | bad | tol | loop
  deriving DecidableEq

variable {W ι : Type}

/-- An evaluation and its notification (lines 102-104, 107-109, 120-122): value and state. -/
def evalAt (env : Env W ι) (s : St W ι) : ℝ × St W ι :=
  let o := env.evaluate s.w s.x
  let c := env.cbEvaluate o.1 s.x o.2
  (o.2, { s with w := c.1, terminate := s.terminate || c.2, trace := s.trace ++ [.eval s.x o.2, .cbEval c.2] })

/-- The two probes (lines 97-111): `fPlus`, `fMinus`, direction, state. -/
noncomputable def probes (env : Env W ι) (p : Params) (k : Nat) (s : St W ι) : ℝ × ℝ × (ι → ℝ) × St W ι :=
  let b := env.bits s.w
  let d := direction b.2
  let plus := evalAt env { s with w := b.1, x := s.x + p.probe k • d }
  let minus := evalAt env { plus.2 with x := plus.2.x - (2 * p.probe k) • d }
  (plus.1, minus.1, d, { minus.2 with x := minus.2.x + p.probe k • d })

/-- Lines 115-122. -/
noncomputable def stepPart (env : Env W ι) (p : Params) (k : Nat) (fp fm : ℝ) (d : ι → ℝ) (s : St W ι) : St W ι :=
  let g : ι → ℝ := fun i => (fp - fm) * (1 / (2 * p.probe k * d i))
  let y := s.x - p.gain k • g
  let c := env.cbStep s.w y
  let r := evalAt env { s with w := c.1, x := c.2.1, terminate := s.terminate || c.2.2,
                               trace := s.trace ++ [.step s.x y, .stepTaken c.2.1 c.2.2] }
  { r.2 with overall := r.1 }

/-- The loop (lines 66-123) from iteration `k`, `n` iterations left. -/
noncomputable def loop (env : Env W ι) (p : Params) : Nat → Nat → St W ι → Exit × St W ι
  | 0, _, s => (.loop, s)
  | n + 1, k, s =>
    if s.terminate then (.loop, s)
    else if env.isBad s.overall then (.bad, s)
    else if env.isClose s.last s.overall then (.tol, s)
    else
      let r := probes env p k { s with last := s.overall }
      if r.2.2.2.terminate then (.loop, r.2.2.2)
      else loop env p n (k + 1) (stepPart env p k r.1 r.2.1 r.2.2.1 r.2.2.2)

structure Result (ι : Type) where
  exit : Exit
  obj : ℝ
  x : ι → ℝ
  trace : List (Ev ι)

/-- Before the loop (lines 58-65). -/
def start (env : Env W ι) (w : W) (x : ι → ℝ) : St W ι :=
  let b := env.cbBegin w x
  ⟨b.1, b.2, 0, env.dblMax, false, [.beginOpt x b.2]⟩

/-- `Optimize` (lines 42-132). -/
noncomputable def optimize (env : Env W ι) (p : Params) (w : W) (x : ι → ℝ) : Result ι :=
  match loop env p p.maxIterations 0 (start env w x) with
  | (.loop, s) =>
    let r := evalAt env s
    ⟨.loop, r.1, r.2.x, r.2.trace ++ [.endOpt r.2.x]⟩
  | (e, s) => ⟨e, s.overall, s.x, s.trace ++ [.endOpt s.x]⟩

end Ens.Spsa
