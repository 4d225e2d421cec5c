import Verif.Callbacks.Model

/-
Model of `CMAES::Optimize` (/repo/include/ensmallen_bits/cmaes/cmaes_impl.hpp), `FullSelection`,
`RandomSelection` and `POP_CMAES::Optimize` (pop_cmaes_impl.hpp).

The objective, callbacks, random numbers, the transformation policy and the numerical state (evolution
paths, covariance, step size: type `C`) are parameters.  `ActiveCMAES` has the same loop with another
adaptation, so the model covers it too (active_cmaes_impl.hpp, which lacks only the evaluation
counter).
-/

namespace Ens.Cmaes

/-- Notifications of a run: the values passed to `Callback::Evaluate`, the generations, the step
callbacks. -/
inductive Ev (M E : Type) where
  | eval (x : M) (v : E) (stop : Bool)
  /-- a generation is complete: objective of the new mean, best objective so far -/
  | gen (mean : E) (best : E)
  | step (x : M) (stop : Bool)
  | endOpt (x : M)

structure Env (W M E C : Type) where
  /-- `transformationPolicy.Transform` -/
  transform : M → M
  /-- the separable objective: `function.Evaluate(x, first, batchSize)` -/
  evaluate : W → M → Nat → Nat → W × E
  add : E → E → E
  zero : E
  /-- `Callback::Evaluate` -/
  cbEvaluate : W → M → E → W × Bool
  /-- `Callback::StepTaken` (line 248), on a copy -/
  cbStep : W → M → W × Bool
  /-- `Callback::BeginOptimization` (line 182) -/
  cbBegin : W → M → W
  /-- position of offspring number `j` (lines 198-217) -/
  sample : W → C → Nat → W × M
  /-- `sort_index` and recombination (lines 226-232): the new mean; `none`: NaN met by the sort -/
  recombine : C → List E → Option M
  /-- adaptation (lines 252-344) -/
  adapt : C → List E → C
  /-- `std::isnan(sigma) || sigma > 1e14` (line 269) -/
  diverged : C → Bool
  /-- line 350 -/
  isNanInf : E → Bool
  /-- `std::abs(lastObjective - overallObjective) < tolerance` (line 360) -/
  close : E → E → Bool
  maxVal : E

/-- A selection policy: `Select(function, batchSize, iterate, terminate, callbacks...)`; the
notifications it makes are part of the result. -/
abbrev Select (W M E : Type) := W → M → W × E × Bool × List (Ev M E)

variable {W M E C : Type}

/-- Start indices and sizes of the batches `for (f = 0; f < n; f += b)` (lines 144-146); `n` bounds the
number of passes, enough for `b > 0`. -/
def batches (n b : Nat) : List (Nat × Nat) :=
  ((List.range n).filter (· % b = 0)).map fun f => (f, min b (n - f))

/-- The initial objective (lines 144-153): callbacks get the objective of the batch. -/
def initialLoop (env : Env W M E C) (x : M) : List (Nat × Nat) → W → E → W × E × Bool × List (Ev M E)
  | [], w, acc => (w, acc, false, [])
  | b :: bs, w, acc =>
    let o := env.evaluate w x b.1 b.2
    let c := env.cbEvaluate o.1 x o.2
    let r := initialLoop env x bs c.1 (env.add acc o.2)
    (r.1, r.2.1, c.2 || r.2.2.1, .eval x o.2 c.2 :: r.2.2.2)

/-- Loop of `FullSelection::Select` (full_selection.hpp:44-52): callbacks get the sum so far. -/
def fullLoop (env : Env W M E C) (x : M) : List (Nat × Nat) → W → E → W × E × Bool × List (Ev M E)
  | [], w, acc => (w, acc, false, [])
  | b :: bs, w, acc =>
    let o := env.evaluate w x b.1 b.2
    let s := env.add acc o.2
    let c := env.cbEvaluate o.1 x s
    let r := fullLoop env x bs c.1 s
    (r.1, r.2.1, c.2 || r.2.2.1, .eval x s c.2 :: r.2.2.2)

/-- `FullSelection::Select` (full_selection.hpp:35-55). -/
def fullSelection (env : Env W M E C) (n b : Nat) : Select W M E :=
  fun w x => fullLoop env x (batches n b) w env.zero

/-- `RandomSelection::Select` (random_selection.hpp:50-74): `pick` is the random start index, `m` the number
`floor(numFunctions * fraction)`. -/
def randomSelection (env : Env W M E C) (pick : W → W × Nat) (n b m : Nat) : Select W M E :=
  fun w x =>
    (batches m b).foldl (fun (acc : W × E × Bool × List (Ev M E)) _ =>
      let p := pick acc.1
      let o := env.evaluate p.1 x p.2 (min b (n - p.2))
      let s := env.add acc.2.1 o.2
      let c := env.cbEvaluate o.1 x s
      (c.1, s, acc.2.2.1 || c.2, acc.2.2.2 ++ [.eval x s c.2])) (w, env.zero, false, [])

structure St (W M E C : Type) where
  w : W
  iterate : M
  overall : E
  last : E
  steps : Nat
  cov : C
  terminate : Bool
  trace : List (Ev M E)

/-- Offspring (lines 204-223): objectives in order of creation. -/
def offspring (env : Env W M E C) (sel : Select W M E) (c : C) :
    Nat → Nat → W → W × List E × Bool × List (Ev M E)
  | 0, _, w => (w, [], false, [])
  | rem + 1, j, w =>
    let p := env.sample w c j
    let o := sel p.1 (env.transform p.2)
    let r := offspring env sel c rem (j + 1) o.1
    (r.1, o.2.1 :: r.2.1, o.2.2.1 || r.2.2.1, o.2.2.2 ++ r.2.2.2)

/-- Why a run ended. -/
inductive Exit where
  | diverged | nanInf | tolerance | limitOrStop
  deriving DecidableEq

/-- The new best (lines 242-250). -/
def takeBest (env : Env W M E C) [LT E] [DecidableLT E] (w : W) (mean : M) (v : E) (s : St W M E C) :
    W × M × E × Bool × List (Ev M E) :=
  if v < s.overall then
    let k := env.cbStep w (env.transform mean)
    (k.1, mean, v, k.2, [.step (env.transform mean) k.2])
  else (w, s.iterate, s.overall, false, [])

/-- The generation loop (lines 190-378), `rem` generations left; `none`: the sort met a NaN and threw. -/
def genLoop (env : Env W M E C) [LT E] [DecidableLT E] (sel : Select W M E) (lambda patience : Nat) :
    Nat → St W M E C → Option (Exit × St W M E C)
  | 0, s => some (.limitOrStop, s)
  | rem + 1, s =>
    if s.terminate then some (.limitOrStop, s)
    else
      let o := offspring env sel s.cov lambda 0 s.w
      match env.recombine s.cov o.2.1 with
      | none => none
      | some mean =>
        let v := sel o.1 (env.transform mean)
        let b := takeBest env v.1 mean v.2.1 s
        let cov := env.adapt s.cov o.2.1
        let s1 : St W M E C := ⟨b.1, b.2.1, b.2.2.1, s.last, s.steps, cov,
          o.2.2.1 || v.2.2.1 || b.2.2.2.1,
          s.trace ++ o.2.2.2 ++ v.2.2.2 ++ b.2.2.2.2 ++ [.gen v.2.1 b.2.2.1]⟩
        if env.diverged cov then some (.diverged, s1)
        else if env.isNanInf s1.overall then some (.nanInf, s1)
        else if env.close s.last s1.overall then
          if patience < s.steps then some (.tolerance, s1)
          else genLoop env sel lambda patience rem { s1 with steps := s.steps + 1, last := s1.overall }
        else genLoop env sel lambda patience rem { s1 with steps := 1, last := s1.overall }

structure Result (M E : Type) where
  obj : E
  x : M
  why : Exit
  trace : List (Ev M E)

/-- State before the loop (lines 137-188). -/
def start (env : Env W M E C) (n b : Nat) (c₀ : C) (w : W) (x : M) : St W M E C :=
  let i := initialLoop env (env.transform x) (batches n b) w env.zero
  ⟨env.cbBegin i.1 (env.transform x), x, i.2.1, env.maxVal, 0, c₀, i.2.2.1, i.2.2.2⟩

/-- Number of generations of `for (i = 1; i != maxIterations; ++i)` in 64-bit arithmetic (line 190). -/
def generations (maxIterations : Nat) : Nat := (maxIterations + 2 ^ 64 - 1) % 2 ^ 64

/-- `Optimize` (lines 72-383). -/
def optimize (env : Env W M E C) [LT E] [DecidableLT E] (sel : Select W M E) (n b lambda patience : Nat)
    (maxIterations : Nat) (c₀ : C) (w : W) (x : M) : Option (Result M E) :=
  (genLoop env sel lambda patience (generations maxIterations) (start env n b c₀ w x)).map fun r =>
    ⟨r.2.overall, env.transform r.2.iterate, r.1,
      r.2.trace ++ [.endOpt (env.transform r.2.iterate)]⟩

/-! ### POP_CMAES -/

/-- What one inner `CMAES::Optimize` gives: returned value, coordinates left in `iterate`, the
notifications of `Callback::Evaluate`, the number of objective evaluations it added to the member
`functionEvaluations`, and whether one of the callbacks asked to stop. -/
structure Inner (M E : Type) where
  obj : E
  x : M
  notes : List (M × E)
  evals : Nat
  stopped : Bool

structure PopSt (M E : Type) where
  /-- `sbc` and `overallSBC` -/
  sbc : Callbacks.StoreBest M E
  overallSbc : Callbacks.StoreBest M E
  overall : E
  /-- the member `functionEvaluations` of the base class, never reset -/
  counter : Nat
  /-- `totalFunctionEvaluations` -/
  total : Nat
  runs : List (Inner M E)

/-- Lines 60-79: the first run. -/
def popStart [LT E] [DecidableLT E] (maxVal : E) (counter : Nat) (r : Inner M E) : PopSt M E :=
  let sbc := (Callbacks.StoreBest.init maxVal).run r.notes
  ⟨sbc, sbc, r.obj, counter + r.evals, 0, [r]⟩

/-- One restart (lines 88-142), `r` the inner run made (in whichever regime). -/
def popRestart [LT E] [DecidableLT E] (s : PopSt M E) (r : Inner M E) : PopSt M E :=
  let sbc := s.sbc.run r.notes
  let better := r.obj < s.overall
  ⟨sbc, if better then sbc else s.overallSbc, if better then r.obj else s.overall,
    s.counter + r.evals, s.total + (s.counter + r.evals), s.runs ++ [r]⟩

/-- The restart loop (lines 86-154): `inner` gives the result of the run number `k` (regime, population and
step size depend on the history, hence on the state; all of that is in `inner`), `rem` restarts
left. -/
def popLoop [LT E] [DecidableLT E] (inner : PopSt M E → Inner M E) (budget : Nat) :
    Nat → PopSt M E → PopSt M E
  | 0, s => s
  | rem + 1, s =>
    let s' := popRestart s (inner s)
    if budget ≤ s'.total then s' else popLoop inner budget rem s'

/-- `POP_CMAES::Optimize` (lines 51-159): final state; the returned objective and coordinates are those
of `overallSbc`. -/
def popOptimize [LT E] [DecidableLT E] (maxVal : E) (counter : Nat) (first : Inner M E)
    (inner : PopSt M E → Inner M E) (maxRestarts budget : Nat) : PopSt M E :=
  popLoop inner budget maxRestarts (popStart maxVal counter first)

end Ens.Cmaes
