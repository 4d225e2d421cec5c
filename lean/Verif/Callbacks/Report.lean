import Mathlib.Algebra.Order.Field.Rat
import Mathlib.Algebra.Order.Floor.Semiring
import Mathlib.Algebra.Order.Floor.Ring
import Mathlib.Data.Rat.Floor

/-!
# The reporting callbacks: `Report` and `ProgressBar`

`callbacks/report.hpp` lines 20-617 and `callbacks/progress_bar.hpp` lines 20-269.

The callbacks are state machines driven by the callback events of an optimisation.  Doubles are
an abstract number type `R` (arithmetic exact, no rounding); the two user parameters that are
divided by (`iterationsPercentage`, `width`) are rationals.  Printing is modelled by what is
printed (rows, values, tokens), not by the character layout.  The clock is a parameter: each event
that reads the clock carries the reading.  `none` is undefined behaviour (a `std::vector` read past
its end, a conversion of an out of range `double` to `size_t`).
-/

namespace Ens.Report

/-- The callback events `Report` reacts to (report.hpp 242-395).  `step`/`endEpoch` carry
the reading of the clock and the optimiser's `StepSize()`, if it has one (lines 552-569). -/
inductive Ev (R : Type) where
  | evaluate (objective : R)
  | evaluateConstraint (objective : R)
  | gradient (norm : R)
  | gradientConstraint (norm : R)
  | beginEpoch
  | endEpoch (objective : R) (time : R) (stepSize : Option R)
  | stepTaken (time : R) (stepSize : Option R)

/-- The data members of `Report` that change during an optimisation (report.hpp 571-616). -/
structure St (R : Type) where
  objectives : List R
  timings : List R
  gradientsNorm : List R
  stepsizes : List R
  objective : R
  gradientNorm : R
  hasGradient : Bool
  hasEndEpoch : Bool
  gradientCalls : Nat
  evaluateCalls : Nat
  epochCalls : Nat

/-- The constructor, report.hpp 36-48. -/
def St.fresh (R : Type) [Zero R] : St R := ⟨[], [], [], [], 0, 0, false, false, 0, 0, 0⟩

/-- `BeginOptimization`, report.hpp 58-64: stores the coordinates and starts the timer; none of the
members of `St` is touched. -/
def St.beginOptimization (s : St R) : St R := s

/-- The common pushes of `EndEpoch` (lines 280-286) and `StepTaken` (lines 305-311). -/
def St.push (s : St R) (obj time : R) (stepSize : Option R) : St R :=
  { s with
    objectives := s.objectives ++ [obj]
    timings := s.timings ++ [time]
    gradientsNorm := if s.hasGradient then s.gradientsNorm ++ [s.gradientNorm] else s.gradientsNorm
    stepsizes := s.stepsizes ++ stepSize.toList }

/-- `Gradient`, report.hpp 364-374. -/
def St.gradient (s : St R) (norm : R) : St R :=
  { s with hasGradient := true, gradientNorm := norm, gradientCalls := s.gradientCalls + 1 }

/-- One callback event: `BeginEpoch` (lines 242-251), `EndEpoch` (262-288), `StepTaken`
(298-314), `Evaluate` (324-333), `EvaluateConstraint` (344-354), `Gradient` (364-374),
`GradientConstraint` (385-393).  Every handler returns `false`. -/
def St.step [Add R] (s : St R) : Ev R → St R
  | .evaluate o => { s with objective := o, evaluateCalls := s.evaluateCalls + 1 }
  | .evaluateConstraint o =>
    { s with objective := s.objective + o, evaluateCalls := s.evaluateCalls + 1 }
  | .gradient g => s.gradient g
  | .gradientConstraint g => s.gradient g
  | .beginEpoch => { s with epochCalls := s.epochCalls + 1 }
  | .endEpoch o t ss =>
    let s := if s.hasEndEpoch then s else
      { s with
        hasEndEpoch := true, objectives := [], timings := [], gradientsNorm := [], stepsizes := [] }
    s.push o t ss
  | .stepTaken t ss => if s.hasEndEpoch then s else s.push s.objective t ss

/-- The events of one optimisation. -/
def St.run [Add R] (s : St R) (es : List (Ev R)) : St R := es.foldl St.step s.beginOptimization

/-- A row of the iteration table, report.hpp 116-132. -/
structure Row (R : Type) where
  iter : Nat
  loss : R
  change : R
  gradient : Option R
  stepSize : Option R
  time : R
  deriving DecidableEq

/-- `iterationStep`, report.hpp 112-114: the quotient converted from `double` to `size_t`
(undefined when it is not a finite number in range), at least 1. -/
def iterationStep (size : Nat) (percentage : ℚ) : Option Nat :=
  if percentage = 0 then none
  else
    let q : ℚ := size / (percentage * 100)
    if q ≤ -1 ∨ 2 ^ 64 ≤ q then none
    else some (if ⌊q⌋₊ = 0 then 1 else ⌊q⌋₊)

/-- One row of the table, report.hpp 118-131; `none` if a vector is read past its end. -/
def St.row [Sub R] [Zero R] (s : St R) (step i : Nat) : Option (Row R) := do
  let loss ← s.objectives[i]?
  let change ← if i > 0 then do
      let a ← s.objectives[i - step]?
      let b ← s.objectives[i]?
      pure (a - b)
    else pure 0
  let gradient ← if s.hasGradient then (s.gradientsNorm[i]?).map some else pure none
  let stepSize ← if !s.stepsizes.isEmpty then (s.stepsizes[i]?).map some else pure none
  let time ← s.timings[i]?
  pure ⟨i, loss, change, gradient, stepSize, time⟩

/-- The loop over the rows, report.hpp 116-132.  `fuel` bounds the number of iterations;
`size` is enough because the step is at least 1. -/
def St.rows [Sub R] [Zero R] (s : St R) (step : Nat) : Nat → Nat → Option (List (Row R))
  | 0, _ => some []
  | fuel + 1, i =>
    if i < s.objectives.length then do
      let r ← s.row step i
      let rest ← s.rows step fuel (i + step)
      pure (r :: rest)
    else some []

/-- The iteration table, report.hpp 112-132. -/
def St.table [Sub R] [Zero R] (s : St R) (percentage : ℚ) : Option (List (Row R)) := do
  let step ← iterationStep s.objectives.length percentage
  s.rows step s.objectives.length 0

/-- What the optimiser and the function offer (the trait dispatched helpers, lines 397-466). -/
structure Ctx where
  numFunctions : Option Nat
  maxIterations : Option Nat
  batchSize : Option Nat
  deriving DecidableEq

/-- The "Optimizer:" section, report.hpp 181-187 with `PrintMaxIterations` (427-444) and
`PrintBatchSize` (452-465): maximum iterations, "reached maximum iterations", batch size. -/
structure OptSection where
  maxIterations : Option (Nat × Bool)
  batchSize : Option Nat
  deriving DecidableEq

/-- The end of the report, report.hpp 153-231. -/
structure Summary (R : Type) where
  initial : R
  final : R
  change : R
  optimizer : Option OptSection
  /-- `none`: "0 (No steps taken! …)" -/
  iterations : Option Nat
  epochs : Option Nat
  stepSizes : Option (R × R)
  maxNorm : Option R
  evaluateCalls : Nat
  gradientCalls : Option Nat
  time : R
  deriving DecidableEq

/-- The part of the report after the table: either "Objective never computed" with the time (lines
161-171) or the summary. -/
inductive Tail (R : Type) where
  | neverComputed (time : R)
  | summary (s : Summary R)
  deriving DecidableEq

/-- `EndOptimization` (report.hpp 74-231) without the coordinates and the version: the table, the
number of functions, the tail, and the precision the output stream is left with (`precision` before
the call; line 81 sets 4, every `PrettyPrintElement` sets 3 (line 480), line 230 restores it).
`time` is the reading of the clock. -/
def St.endOptimization [Sub R] [Zero R] [Max R] (s : St R) (ctx : Ctx) (percentage : ℚ)
    (precision : Nat) (time : R) :
    Option (List (Row R) × Option Nat × Tail R × Nat × St R) := do
  let tbl ← s.table percentage
  let tookStep := decide (s.objectives.length > 0)
  if s.evaluateCalls = 0 then
    -- lines 156-171: `objectives.size() == 0 && evaluateCalls > 0` is false, `evaluateCalls == 0`
    pure (tbl, ctx.numFunctions, .neverComputed time, 3, s)
  else
    let s := if s.objectives.length = 0 then
      { s with objectives := s.objectives ++ [s.objective], timings := s.timings ++ [time] } else s
    let first ← s.objectives[0]?
    let last ← s.objectives[s.objectives.length - 1]?
    let t ← s.timings[s.timings.length - 1]?
    let sec : OptSection :=
      ⟨ctx.maxIterations.map fun m => (m, decide (m = s.objectives.length)), ctx.batchSize⟩
    pure (tbl, ctx.numFunctions,
      .summary
        { initial := first
          final := last
          change := first - last
          -- line 186 tests `functionStream`
          optimizer := if ctx.numFunctions.isSome then some sec else none
          iterations := if tookStep then some s.objectives.length else none
          epochs := if s.epochCalls > 0 then some s.epochCalls else none
          stepSizes := do
            let a ← s.stepsizes.head?
            let b ← s.stepsizes.getLast?
            pure (a, b)
          maxNorm := if s.hasGradient then
            match s.gradientsNorm with
              | [] => none
              | g :: gs => some (gs.foldl max g)
            else none
          evaluateCalls := s.evaluateCalls
          gradientCalls := if s.hasGradient then some s.gradientCalls else none
          time := t },
      precision, s)

/-- What `TruncatePrint` prints: a value, the inline `" ... "`, the `"..."` line. -/
inductive Tok (R : Type) where
  | val (x : R)
  | dots
  | dotsLine
  deriving DecidableEq

/-- The subtraction of `size_t`. -/
def usub (a b : Nat) : Nat := if b ≤ a then a - b else a + 2 ^ 64 - b

/-- The inner loop of `TruncatePrint`, report.hpp 527-547, from row `r` with linear index `n`:
tokens and the value of `n` after the loop.  `none`: `data(n)` out of bounds. -/
def truncRow (data : List R) (rows size c : Nat) : Nat → Nat → Nat → Option (List (Tok R) × Nat)
  | 0, _, n => some ([], n)
  | fuel + 1, r, n =>
    if r < rows then
      if r < usub size 1 then do
        let x ← data[n]?
        let (ts, n') ← truncRow data rows size c fuel (r + 1) (n + 1)
        pure (.val x :: ts, n')
      else do
        let n := usub ((c + 1) * rows) 1
        let x ← data[n]?
        pure ([.dots, .val x], n)
    else some ([], n)

/-- The outer loop of `TruncatePrint`, report.hpp 518-551, from column `c` with linear index `n`;
`data` is the matrix in column-major order. -/
def truncCols (data : List R) (rows cols size : Nat) : Nat → Nat → Nat → Option (List (Tok R))
  | 0, _, _ => some []
  | fuel + 1, c, n =>
    if c < cols then
      if c ≥ usub size 1 then do
        let n := usub (usub cols 2 * rows % 2 ^ 64) 1
        let (ts, _) ← truncRow data rows size c rows 0 n
        pure (.dotsLine :: ts)
      else do
        let (ts, n') ← truncRow data rows size c rows 0 n
        let rest ← truncCols data rows cols size fuel (c + 1) n'
        pure (ts ++ rest)
    else some []

/-- `TruncatePrint`, report.hpp 513-552. -/
def truncatePrint (data : List R) (rows cols size : Nat) : Option (List (Tok R)) :=
  truncCols data rows cols size cols 0 0

/-! ## The progress bar -/

/-- The members of `ProgressBar` that change, progress_bar.hpp 233-264. -/
structure Bar where
  objective : ℚ
  epochs : Nat
  epochSize : Nat
  step : Nat
  newEpoch : Bool
  epoch : Nat
  deriving DecidableEq

/-- The constructor, progress_bar.hpp 33-46. -/
def Bar.fresh : Bar := ⟨0, 0, 0, 1, false, 1⟩

/-- `BeginOptimization`, progress_bar.hpp 54-90; `none`: integer division by zero. -/
def Bar.beginOptimization (b : Bar) (numFunctions batchSize maxIterations : Nat) : Option Bar :=
  if numFunctions = 0 ∨ batchSize = 0 then none
  else some { b with
    epochSize := numFunctions / batchSize + (if numFunctions % batchSize > 0 then 1 else 0)
    epochs := maxIterations / numFunctions + (if maxIterations % numFunctions > 0 then 1 else 0) }

/-- `BeginEpoch`, progress_bar.hpp 100-119. -/
def Bar.beginEpoch (b : Bar) (epochIn : Nat) : Bar :=
  { b with objective := 0, step := 1, epoch := epochIn, newEpoch := true }

/-- `Evaluate`, progress_bar.hpp 180-189. -/
def Bar.evaluate (b : Bar) (objectiveIn : ℚ) (batchSize : Nat) : Bar :=
  { b with objective := b.objective + objectiveIn / batchSize }

/-- The characters of the bar. -/
inductive Ch where
  | eq | gt | dot
  deriving DecidableEq

/-- One character, progress_bar.hpp 148-159. -/
def barChar (progress i : Nat) : Ch :=
  if i < progress then .eq else if i = progress then .gt else .dot

/-- The loop that draws the bar, progress_bar.hpp 146-160: `i += width` with `i` a `size_t` and
`width` a `double` truncates the sum.  `none`: the fuel is used up before the loop ends. -/
def barLoop (width : ℚ) (progress : Nat) : Nat → Nat → Option (List Ch)
  | 0, i => if i < 100 then none else some []
  | fuel + 1, i =>
    if i < 100 then (barLoop width progress fuel ⌊(i : ℚ) + width⌋₊).map (barChar progress i :: ·)
    else some []

/-- What one `StepTaken` prints. -/
structure BarLine where
  /-- "Epoch e" or "Epoch e/n" -/
  header : Option (Nat × Option Nat)
  step : Nat
  epochSize : Nat
  bar : List Ch
  progress : Nat
  loss : ℚ
  deriving DecidableEq

/-- `StepTaken`, progress_bar.hpp 128-170, without the ETA; `width = 100.0 / widthIn` (line 35). -/
def Bar.stepTaken (b : Bar) (widthIn fuel : Nat) : Option (BarLine × Bar) := do
  let header := if b.newEpoch then some (b.epoch, if b.epochs > 0 then some b.epochs else none)
    else none
  let progress := ⌊(b.step : ℚ) / b.epochSize * 100⌋₊
  let bar ← barLoop (100 / widthIn) progress fuel 0
  let b' := { b with newEpoch := false, step := b.step + 1 }
  pure (⟨header, b.step, b.epochSize, bar, progress, b'.objective / b'.step⟩, b')

/-- What `EndEpoch` prints, progress_bar.hpp 200-230, without the timings. -/
def Bar.endEpoch (b : Bar) (widthIn fuel : Nat) (objective : ℚ) :
    Option (Nat × Nat × List Ch × Nat × ℚ) := do
  let progress := ⌊((usub b.step 1 : Nat) : ℚ) / b.epochSize * 100⌋₊
  let bar ← barLoop (100 / widthIn) progress fuel 0
  pure (usub b.step 1, b.epochSize, bar, progress, objective)

end Ens.Report
