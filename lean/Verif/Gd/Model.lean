/-
Model of `GradientDescent::Optimize`
(/repo/include/ensmallen_bits/gradient_descent/gradient_descent_impl.hpp).

User code (objective, callbacks) and element arithmetic are parameters; all mutable user state is
the opaque world `W`.
-/

namespace Ens.Gd

/-- Outside world of a run. -/
structure Env (W M G E : Type) where
  /-- `f.EvaluateWithGradient(iterate, gradient)` (line 72) -/
  evalGrad : W → M → W × E × G
  /-- `Callback::BeginOptimization` (line 69) -/
  cbBegin : W → M → W × M
  /-- `Callback::EvaluateWithGradient` (line 74; may change the gradient) -/
  cbEvalGrad : W → M → E → G → W × G × Bool
  /-- `Callback::StepTaken` (line 105; may change the coordinates) -/
  cbStep : W → M → W × M × Bool
  /-- `Callback::EndOptimization` (lines 87, 96, 111) -/
  cbEnd : W → M → W × M
  /-- `iterate -= stepSize * gradient` (line 104) -/
  move : M → G → M
  /-- `isnan || isinf` (line 81) -/
  isBad : E → Bool
  /-- `abs(last - overall) < tolerance` (line 91) -/
  isClose : E → E → Bool
  /-- `std::numeric_limits<ElemType>::max()` -/
  maxVal : E

/-- Calls made, in order. -/
inductive Ev (M E : Type) where
  | beginOpt (x : M)
  | eval (x : M) (obj : E)
  | cbEval (stop : Bool)
  | step (before after : M)
  | stepTaken (stop : Bool)
  | endOpt (x : M)
  deriving DecidableEq

/-- Local variables (lines 59-66) and the loop counter. -/
structure St (W M E : Type) where
  w : W
  x : M
  i : Nat
  overall : E
  last : E
  terminate : Bool
  trace : List (Ev M E)

inductive Exit where
  | bad | tol | loop
  deriving DecidableEq

/-- `++i` on a 64-bit `size_t`. -/
def incr (i : Nat) : Nat := (i + 1) % 2 ^ 64

variable {W M G E : Type}

/-- State before the loop (lines 59-69). -/
def start (env : Env W M G E) (w : W) (x : M) : St W M E :=
  let b := env.cbBegin w x
  { w := b.1, x := b.2, i := 1, overall := env.maxVal, last := env.maxVal, terminate := false,
    trace := [.beginOpt x] }

inductive BodyRes (W M E : Type) where
  | cont (s : St W M E)
  | ret (e : Exit) (s : St W M E)

/-- First half of the body, lines 72-79: evaluate and notify; also the (possibly modified)
gradient. -/
def evalPart (env : Env W M G E) (s : St W M E) : St W M E × G :=
  let r := env.evalGrad s.w s.x
  let c := env.cbEvalGrad r.1 s.x r.2.1 r.2.2
  ({ s with w := c.1, overall := r.2.1, terminate := s.terminate || c.2.2,
            trace := s.trace ++ [.eval s.x r.2.1, .cbEval c.2.2] }, c.2.1)

/-- Second half, lines 100-105 and the `++i` of line 70: move and notify. -/
def movePart (env : Env W M G E) (s : St W M E) (g : G) : St W M E :=
  let y := env.move s.x g
  let k := env.cbStep s.w y
  { s with w := k.1, x := k.2.1, i := incr s.i, last := s.overall,
           terminate := s.terminate || k.2.2,
           trace := s.trace ++ [.step s.x y, .stepTaken k.2.2] }

/-- The loop body, lines 72-105. -/
def body (env : Env W M G E) (s : St W M E) : BodyRes W M E :=
  let r := evalPart env s
  if env.isBad r.1.overall then .ret .bad r.1
  else if env.isClose r.1.last r.1.overall then .ret .tol r.1
  else .cont (movePart env r.1 r.2)

inductive LoopRes (W M E : Type) where
  | done (e : Exit) (s : St W M E)
  | outOfFuel

/-- The `for` loop of line 70, at most `fuel` passes. -/
def loop (env : Env W M G E) (maxIterations : Nat) : Nat → St W M E → LoopRes W M E
  | 0, s =>
    if s.i ≠ maxIterations ∧ s.terminate = false then .outOfFuel else .done .loop s
  | fuel + 1, s =>
    if s.i ≠ maxIterations ∧ s.terminate = false then
      match body env s with
      | .cont s' => loop env maxIterations fuel s'
      | .ret e s' => .done e s'
    else .done .loop s

structure Result (W M E : Type) where
  exit : Exit
  obj : E
  /-- coordinates at the `EndOptimization` notification -/
  x : M
  trace : List (Ev M E)
  w : W

/-- `Optimize` (lines 39-113); `none` if `fuel` passes do not suffice. -/
def optimize (env : Env W M G E) (maxIterations fuel : Nat) (w : W) (x : M) :
    Option (Result W M E) :=
  match loop env maxIterations fuel (start env w x) with
  | .outOfFuel => none
  | .done e s =>
    some { exit := e, obj := s.overall, x := s.x, trace := s.trace ++ [.endOpt s.x],
           w := (env.cbEnd s.w s.x).1 }

/-- The overload with category information (lines 121-158): it accepts exactly the calls in which
both descriptions have one entry per row and no dimension is categorical, and then delegates. -/
def optimizeCategorical {α : Type} (nRows : Nat) (categorical : List Bool) (numCategories : List Nat)
    (run : Unit → α) : Except String α :=
  if categorical.length ≠ nRows then .error "invalid_argument"
  else if numCategories.length ≠ nRows then .error "invalid_argument"
  else if categorical.any id then .error "invalid_argument"
  else .ok (run ())

end Ens.Gd
