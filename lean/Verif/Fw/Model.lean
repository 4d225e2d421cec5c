import Verif.Loop
import Verif.Fw.LineSearch

/-
`FrankWolfe::Optimize` (`fw/frank_wolfe_impl.hpp:46-117`) and the update rules `UpdateClassic` (`fw/update_classic.hpp:46-54`)
and `UpdateLineSearch` (`fw/update_linesearch.hpp:67-79`).
-/

namespace Ens.Fw

/-- User code: objective with gradient, linear solver, update rule, callbacks; `W` is everything they may change. -/
structure User (W X G E : Type) where
  evalGrad : W → X → W × E × G
  /-- `linearConstrSolver.Optimize(gradient, s)` -/
  lmo : W → G → W × X
  /-- `updateRule.Update(f, iterate, s, iterateNew, i)` -/
  update : W → X → X → Nat → W × X
  /-- `fabs(dot(iterate - s, gradient)) < tolerance` -/
  within : X → X → G → Bool
  cbBegin : W → X → W × X
  /-- may change the gradient -/
  cbEval : W → X → E → G → W × G × Bool
  cbStep : W → X → W × X × Bool
  cbEnd : W → X → W × X
  maxE : E

/-- Events: objective evaluations with the point, steps with the new point, stop requests. -/
inductive Ev (X E : Type) where
  | eval (x : X) (o : E)
  | step (x : X)
  | stop

structure St (W X E : Type) where
  w : W
  x : X
  obj : E
  term : Bool
  i : Nat
  trace : List (Ev X E)

inductive Exit where
  | loop | gap
  deriving DecidableEq

variable {W X G E : Type}

/-- Body of the loop of lines 79-110 with its condition. -/
def body (u : User W X G E) (maxIterations : Nat) (t : St W X E) : St W X E ⊕ (Exit × St W X E) :=
  if t.i ≠ maxIterations ∧ t.term = false then
    let r := u.evalGrad t.w t.x
    let c := u.cbEval r.1 t.x r.2.1 r.2.2
    let l := u.lmo c.1 c.2.1
    let tr := t.trace ++ .eval t.x r.2.1 :: if c.2.2 then [.stop] else []
    if u.within t.x l.2 c.2.1 then
      .inr (.gap, { t with w := l.1, obj := r.2.1, term := t.term || c.2.2, trace := tr })
    else
      let n := u.update l.1 t.x l.2 t.i
      let d := u.cbStep n.1 n.2
      .inl ⟨d.1, d.2.1, r.2.1, c.2.2 || d.2.2, t.i + 1, tr ++ .step d.2.1 :: if d.2.2 then [.stop] else []⟩
  else .inr (.loop, t)

/-- State at the start of the loop. -/
def start (u : User W X G E) (w : W) (x : X) : St W X E :=
  ⟨(u.cbBegin w x).1, (u.cbBegin w x).2, u.maxE, false, 1, []⟩

/-- `EndOptimization`. -/
def finish (u : User W X G E) (t : St W X E) : St W X E :=
  { t with w := (u.cbEnd t.w t.x).1, x := (u.cbEnd t.w t.x).2 }

/-- `Optimize`: why it ended and the final state (`obj` is the value returned, `x` the coordinates). -/
def optimize (u : User W X G E) (maxIterations fuel : Nat) (w : W) (x : X) : Option (Exit × St W X E) :=
  (iterate (body u maxIterations) fuel (start u w x)).map fun r => (r.1, finish u r.2)

/-- `UpdateClassic::Update`. -/
def classic {K : Type} [Field K] [AddCommGroup X] [Module K X] (x s : X) (i : Nat) : X :=
  (1 - 2 / ((i : K) + 2)) • x + (2 / ((i : K) + 2)) • s

/-- `UpdateLineSearch::Update`, with `D x s` the derivative along the segment; `none`: the search did not end or ended with
NaN (excluded by C69). -/
def viaSearch {K : Type} [Field K] [LinearOrder K] [AddCommGroup X] [Module K X] (p : LsParams K)
    (D : X → X → K → K) (x s : X) : Option X :=
  (lineSearch p (D x s)).bind (lsPoint x s)

end Ens.Fw
