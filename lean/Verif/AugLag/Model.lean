import Verif.Loop

/-
`AugLagrangian::Optimize` (`aug_lagrangian/aug_lagrangian_impl.hpp:22-221`), with the arithmetic, the inner L-BFGS run, the
constrained function and the callbacks as parameters. Callbacks act on the world `W` (they may request a stop); only
`BeginOptimization`, `StepTaken` and `EndOptimization` may change the coordinates (simplification). The arrays `Lambda` are
lists; reading them out of bounds is undefined behaviour (exit `ub`).
-/

namespace Ens.AugLag

/-- The arithmetic used by the loop. -/
structure Ops (E : Type) where
  zero : E
  add : E → E → E
  /-- `std::pow(c, 2)` -/
  sq : E → E
  /-- `lambda - sigma * c` (line 193) -/
  lamUpd : E → E → E → E
  /-- `penaltyThresholdFactor * penalty` (line 198) -/
  scale : E → E
  /-- `sigma * sigmaUpdateFactor` (line 204) -/
  grow : E → E
  /-- `abs(lastObjective - objective) < 1e3 * epsilon` (line 149) -/
  close : E → E → Bool
  /-- `sigma > 500000` (line 150) -/
  big : E → Bool
  /-- `sigma >= max / 2` (line 206) -/
  huge : E → Bool
  /-- `penalty < penaltyThreshold` (line 183) -/
  below : E → E → Bool
  maxE : E
  /-- the default penalty parameter 10 (`aug_lagrangian_function_impl.hpp:28`) -/
  ten : E

structure User (W X E : Type) where
  numConstraints : Nat
  eval : W → X → W × E
  cons : W → Nat → X → W × E
  /-- `lbfgs.Optimize(augfunc, coordinates, callbacks...)` with the multipliers and penalty parameter of `augfunc` -/
  solve : W → X → List E → E → W × X
  cbBegin : W → X → W × X
  cbCons : W → X → Nat → E → W × Bool
  cbEval : W → X → E → W × Bool
  cbStep : W → X → W × X × Bool
  cbEnd : W → X → W × X

/-- One pass of the outer loop that reached the update of lines 183-213. -/
structure Upd (X E : Type) where
  x : X
  penalty : E
  threshold : E
  lam : List E
  sigma : E
  lam' : List E
  sigma' : E

inductive Ev (X E : Type) where
  /-- the inner solver returned `x` -/
  | solved (x : X)
  /-- constraint callback for constraint `i` with a value -/
  | told (x : X) (i : Nat) (v : E)
  | update (u : Upd X E)
  | stop

structure St (W X E : Type) where
  w : W
  x : X
  lam : List E
  sigma : E
  threshold : E
  last : E
  term : Bool
  it : Nat
  trace : List (Ev X E)

inductive Exit where
  | converged | sigmaLarge | loop | ub
  deriving DecidableEq

variable {W X E : Type}

def flag (b : Bool) : List (Ev X E) := if b then [.stop] else []

/-- Lines 117-124 and 167-175: sum of squared constraint values, with the callbacks. -/
def penaltyLoop (o : Ops E) (u : User W X E) (x : X) (s : W × E × Bool × List (Ev X E)) (i : Nat) :
    W × E × Bool × List (Ev X E) :=
  let r := u.cons s.1 i x
  let c := u.cbCons r.1 x i (o.sq r.2)
  (c.1, o.add s.2.1 (o.sq r.2), s.2.2.1 || c.2, s.2.2.2 ++ .told x i (o.sq r.2) :: flag c.2)

def penaltyOf (o : Ops E) (u : User W X E) (x : X) (w : W) (term : Bool) : W × E × Bool × List (Ev X E) :=
  (List.range u.numConstraints).foldl (penaltyLoop o u x) (w, o.zero, term, [])

/-- Lines 187-194. -/
def lambdaLoop (o : Ops E) (u : User W X E) (x : X) (sigma : E) (s : W × List E × Bool × List (Ev X E)) (i : Nat) :
    W × List E × Bool × List (Ev X E) :=
  let r := u.cons s.1 i x
  let c := u.cbCons r.1 x i r.2
  (c.1, s.2.1.set i (o.lamUpd (s.2.1.getD i o.zero) sigma r.2), s.2.2.1 || c.2, s.2.2.2 ++ .told x i r.2 :: flag c.2)

def lambdaOf (o : Ops E) (u : User W X E) (x : X) (sigma : E) (w : W) (lam : List E) (term : Bool) :
    W × List E × Bool × List (Ev X E) :=
  (List.range u.numConstraints).foldl (lambdaLoop o u x sigma) (w, lam, term, [])

/-- Lines 183-216: update of multipliers or penalty parameter, then `StepTaken`. -/
def updateStep (o : Ops E) (u : User W X E) (t : St W X E) (penalty : E) : St W X E ⊕ (Exit × St W X E) :=
  if o.below penalty t.threshold then
    let l := lambdaOf o u t.x t.sigma t.w t.lam t.term
    let d := u.cbStep l.1 t.x
    .inl { t with w := d.1, x := d.2.1, lam := l.2.1, threshold := o.scale penalty, term := l.2.2.1 || d.2.2, it := t.it + 1,
                  trace := t.trace ++ (l.2.2.2 ++ .update ⟨t.x, penalty, t.threshold, t.lam, t.sigma, l.2.1, t.sigma⟩ ::
                    flag d.2.2) }
  else
    let s' := o.grow t.sigma
    let t' : St W X E := { t with sigma := s', trace := t.trace ++
      [.update ⟨t.x, penalty, t.threshold, t.lam, t.sigma, t.lam, s'⟩] }
    if o.huge s' then .inr (.sigmaLarge, t')
    else
      let d := u.cbStep t'.w t'.x
      .inl { t' with w := d.1, x := d.2.1, term := t'.term || d.2.2, it := t'.it + 1, trace := t'.trace ++ flag d.2.2 }

/-- Lines 138-175: inner run, objective, penalty; the state after the inner run and whether line 149 holds. -/
def inner (u : User W X E) (t : St W X E) : St W X E × E :=
  let s := u.solve t.w t.x t.lam t.sigma
  let r := u.eval s.1 s.2
  let c := u.cbEval r.1 s.2 r.2
  ({ t with w := c.1, x := s.2, term := t.term || c.2, trace := t.trace ++ .solved s.2 :: flag c.2 }, r.2)

def afterInner (o : Ops E) (u : User W X E) (t : St W X E) (obj : E) : St W X E ⊕ (Exit × St W X E) :=
  if o.close t.last obj && o.big t.sigma then .inr (.converged, t)
  else
    let p := penaltyOf o u t.x t.w t.term
    let t' : St W X E := { t with w := p.1, last := obj, term := p.2.2.1, trace := t.trace ++ p.2.2.2 }
    if t'.term then .inr (.loop, t') else updateStep o u t' p.2.1

/-- One pass of the loop of lines 133-217; `maxIterations = 0` is no limit (the counter would have to reach `2^64 - 1`). -/
def body (o : Ops E) (u : User W X E) (maxIterations : Nat) (t : St W X E) : St W X E ⊕ (Exit × St W X E) :=
  if (maxIterations = 0 ∨ t.it ≠ maxIterations - 1) ∧ t.term = false then
    if t.lam.length < u.numConstraints then .inr (.ub, t)
    else afterInner o u (inner u t).1 (inner u t).2
  else .inr (.loop, t)

/-- The members of the optimizer that a run reads and changes. -/
structure Obj (E : Type) where
  lam : List E
  sigma : E
  terminate : Bool

/-- Lines 103-132. -/
def start (o : Ops E) (u : User W X E) (terminate : Bool) (lam : List E) (sigma : E) (w : W) (x : X) : St W X E :=
  let r := u.eval w x
  let p := penaltyOf o u x r.1 terminate
  let b := u.cbBegin p.1 x
  ⟨b.1, b.2, lam, sigma, o.maxE, r.2, p.2.2.1, 0, p.2.2.2⟩

/-- `EndOptimization`. -/
def finish (u : User W X E) (t : St W X E) : St W X E :=
  { t with w := (u.cbEnd t.w t.x).1, x := (u.cbEnd t.w t.x).2 }

/-- The members after the run: the multipliers and the penalty parameter are stored only on convergence. -/
def store (ob : Obj E) (r : Exit × St W X E) : Obj E :=
  if r.1 = .converged then ⟨r.2.lam, r.2.sigma, r.2.term⟩ else { ob with terminate := r.2.term }

/-- The third overload (lines 79-221), on an `AugLagrangianFunction` with multipliers `lam` and parameter `sigma`; returns
the members, how it ended and the final state. The value returned is `true` iff it ended by `converged`. -/
def run (o : Ops E) (u : User W X E) (maxIterations fuel : Nat) (ob : Obj E) (lam : List E) (sigma : E) (w : W) (x : X) :
    Option (Obj E × Exit × St W X E) :=
  (iterate (body o u maxIterations) fuel (start o u ob.terminate lam sigma w x)).map fun r => (store ob r, r.1, finish u r.2)

/-- First overload (lines 40-53): initial multipliers and penalty parameter given. -/
def optimizeInit (o : Ops E) (u : User W X E) (maxIterations fuel : Nat) (ob : Obj E) (initLambda : List E) (initSigma : E)
    (w : W) (x : X) : Option (Obj E × Exit × St W X E) :=
  run o u maxIterations fuel { ob with lam := initLambda, sigma := initSigma } initLambda initSigma w x

/-- Second overload (lines 60-77): the members if the multipliers are not empty, else zeros and 10. -/
def optimize (o : Ops E) (u : User W X E) (maxIterations fuel : Nat) (ob : Obj E) (w : W) (x : X) :
    Option (Obj E × Exit × St W X E) :=
  if ob.lam.isEmpty then run o u maxIterations fuel ob (List.replicate u.numConstraints o.zero) o.ten w x
  else run o u maxIterations fuel ob ob.lam ob.sigma w x

end Ens.AugLag
