/-
Model of the callback dispatcher and of the bundled bookkeeping callbacks.

C++ sources (all under /repo/include/ensmallen_bits/callbacks):
  callbacks.hpp, early_stop_at_min_loss.hpp, store_best_coordinates.hpp,
  grad_clip_by_norm.hpp, grad_clip_by_value.hpp, query_front.hpp, timer_stop.hpp
-/

namespace Ens.Callbacks

/-! ### Dispatch -/

/-- One callback method as seen by the dispatcher (callbacks.hpp:213-262, the three
`EvaluateFunction` overloads selected by `HasEvaluateSignature::{hasBool,hasVoid,hasNone}`;
the same three overloads exist for every other bool notification).

`S` is the joint state of everything a handler may read or write: the states of all callbacks
(they may share state) and the reference arguments of the notification (for instance the gradient,
which `Gradient` handlers may modify).  Simplification: template overload resolution is replaced by
this tag. -/
inductive Handler (S : Type) where
  /-- method exists and returns `bool` -/
  | bool (f : S → S × Bool)
  /-- method exists and returns `void` -/
  | void (f : S → S)
  /-- method does not exist -/
  | none

variable {S : Type}

/-- The call of a single handler: callbacks.hpp:213-226 (bool), 228-246 (void: call, then
`return false`), 248-262 (none: `return false`). -/
def Handler.call : Handler S → S → S × Bool
  | .bool f, s => f s
  | .void f, s => (f s, false)
  | .none, s => (s, false)

/-- Whether user code is actually entered. -/
def Handler.exists? : Handler S → Bool
  | .none => false
  | _ => true

/-- The accumulator of the fold over the parameter pack; `trace` lists the positions of the
callbacks whose user code was entered, in call order. -/
structure DState (S : Type) where
  st : S
  result : Bool
  trace : List Nat

/-- One element of the braced initializer list `result = result || F(callback)...`
(callbacks.hpp:272-290 and the analogous bodies): the call is skipped once `result` is true. -/
def dispatchOne (d : DState S) (ih : Handler S × Nat) : DState S :=
  if d.result then d
  else
    let r := ih.1.call d.st
    { st := r.1, result := r.2,
      trace := if ih.1.exists? then d.trace ++ [ih.2] else d.trace }

/-- A whole bool notification (callbacks.hpp:272-290 `Evaluate`, and `Gradient`,
`EvaluateConstraint`, `BeginEpoch`, `EndEpoch`, `StepTaken`, `GenerationalStepTaken`). -/
def dispatch (cbs : List (Handler S)) (s : S) : DState S :=
  cbs.zipIdx.foldl dispatchOne ⟨s, false, []⟩

/-- The `void` notifications `BeginOptimization` / `EndOptimization` (callbacks.hpp:104-129,
178-203): recursion over the pack, the answer of a handler is discarded (`(void)`). -/
def dispatchAll : List (Handler S) → Nat → S → S × List Nat
  | [], _, s => (s, [])
  | h :: hs, i, s =>
    let r := dispatchAll hs (i + 1) (h.call s).1
    (r.1, if h.exists? then i :: r.2 else r.2)

/-- Which kind of handler was entered during an `EvaluateWithGradient` notification. -/
inductive Kind where
  | eval | grad
  deriving DecidableEq, Repr

/-- `Callback::EvaluateWithGradient` (callbacks.hpp, lines 586-610: two consecutive initializer lists
sharing `result`).  Every callback contributes an `Evaluate` and a `Gradient` handler.  The second
fold starts with the `result` of the first, so it does nothing if that is `true`. -/
def dispatchEvalGrad (cbs : List (Handler S × Handler S)) (s : S) : S × Bool × List (Kind × Nat) :=
  let d1 := dispatch (cbs.map Prod.fst) s
  let d2 := (cbs.map Prod.snd).zipIdx.foldl dispatchOne ⟨d1.st, d1.result, []⟩
  (d2.st, d2.result, d1.trace.map (Prod.mk .eval) ++ d2.trace.map (Prod.mk .grad))

/-! ### EarlyStopAtMinLoss -/

/-- early_stop_at_min_loss.hpp:103-115 (members).  `E` is the element type of objectives. -/
structure EarlyStop (E : Type) where
  patience : Nat
  bestObjective : E
  steps : Nat

/-- The constructors, early_stop_at_min_loss.hpp:35-60; `maxVal` is
`std::numeric_limits<double>::max()`. -/
def EarlyStop.init {E : Type} (maxVal : E) (patience : Nat) : EarlyStop E :=
  ⟨patience, maxVal, 0⟩

/-- `EndEpoch`, early_stop_at_min_loss.hpp:72-98.  The `callbackUsed` branch only replaces the
objective by `localFunc(coordinates)`; `obj` is the value after that replacement. -/
def EarlyStop.endEpoch {E : Type} [LT E] [DecidableLT E] (c : EarlyStop E) (obj : E) :
    EarlyStop E × Bool :=
  if obj < c.bestObjective then
    ({ c with steps := 0, bestObjective := obj }, false)
  else
    let c' := { c with steps := c.steps + 1 }
    if c'.patience ≤ c'.steps then (c', true) else (c', false)

/-- Feed a sequence of epoch losses; the answers are collected in order. -/
def EarlyStop.run {E : Type} [LT E] [DecidableLT E] (c : EarlyStop E) :
    List E → EarlyStop E × List Bool
  | [] => (c, [])
  | o :: os =>
    let r := c.endEpoch o
    let rest := EarlyStop.run r.1 os
    (rest.1, r.2 :: rest.2)

/-! ### StoreBestCoordinates -/

/-- store_best_coordinates.hpp:66-71.  `coords = none` is the empty matrix of a callback that has
stored nothing. -/
structure StoreBest (M E : Type) where
  bestObjective : E
  coords : Option M

/-- store_best_coordinates.hpp:31. -/
def StoreBest.init {M E : Type} (maxVal : E) : StoreBest M E := ⟨maxVal, none⟩

/-- `Evaluate`, store_best_coordinates.hpp:43-54 (always answers `false`). -/
def StoreBest.evaluate {M E : Type} [LT E] [DecidableLT E] (c : StoreBest M E) (x : M) (obj : E) :
    StoreBest M E × Bool :=
  (if obj < c.bestObjective then ⟨obj, some x⟩ else c, false)

/-- A sequence of `Evaluate` notifications (one or several runs: the class has no
`BeginOptimization`, so nothing happens between runs). -/
def StoreBest.run {M E : Type} [LT E] [DecidableLT E] (c : StoreBest M E) (l : List (M × E)) :
    StoreBest M E :=
  l.foldl (fun c p => (c.evaluate p.1 p.2).1) c

/-! ### QueryFront -/

/-- query_front.hpp:78-84: `genCounter` and the vector of stored fronts. -/
structure QueryFront (F : Type) where
  queryRate : Nat
  genCounter : Nat
  fronts : List F

/-- `GenerationalStepTaken`, query_front.hpp:51-75.  `front` is the cube assembled from
`objectives[frontIndices[0][i]]`.  `none` models the division by zero (UB) for `queryRate = 0`. -/
def QueryFront.step {F : Type} (c : QueryFront F) (front : F) : Option (QueryFront F) :=
  if c.queryRate = 0 then none
  else some
    { c with
      fronts := if c.genCounter % c.queryRate = 0 then c.fronts ++ [front] else c.fronts
      genCounter := c.genCounter + 1 }

/-- A run: the front of every generation, in order. -/
def QueryFront.run {F : Type} (c : QueryFront F) : List F → Option (QueryFront F)
  | [] => some c
  | f :: fs => (c.step f).bind (fun c' => QueryFront.run c' fs)

/-! ### TimerStop -/

/-- Notifications a `TimerStop` object reacts to, with the clock reading at that moment. -/
inductive TimerEv (T : Type) where
  | begin (now : T)
  | endEpoch (now : T)

/-- timer_stop.hpp:40-71: `BeginOptimization` starts (or restarts) the timer, `EndEpoch` answers
`timer.toc() > duration`.  The state is the reading at the last start; `toc()` of a timer that was
never started is 0 (armadillo's `wall_clock`).  Times are readings of an arbitrary clock. -/
def timerStep {T : Type} [Sub T] [Zero T] [LT T] [DecidableLT T] (duration : T) (start : Option T) :
    TimerEv T → Option T × Bool
  | .begin now => (some now, false)
  | .endEpoch now =>
    (start, decide (duration < match start with | some t => now - t | none => 0))

/-- The answers to a sequence of notifications. -/
def timerRun {T : Type} [Sub T] [Zero T] [LT T] [DecidableLT T] (duration : T) :
    Option T → List (TimerEv T) → List Bool
  | _, [] => []
  | s, e :: es => (timerStep duration s e).2 :: timerRun duration (timerStep duration s e).1 es

end Ens.Callbacks
