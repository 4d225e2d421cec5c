import Verif.Sgd.Model

/-
Model of an `SGD<UpdatePolicyType, DecayPolicyType>` object across several `Optimize()` calls
(/repo/include/ensmallen_bits/sgd/sgd.hpp, sgd_impl.hpp).

Simplifications: one matrix type per object (so `Has<InstPolicyType>()` only tells whether a policy
was set before), and callbacks do not reach back into the optimizer object they are handed.
-/

namespace Ens.Sgd

/-- An update policy: the nested `Policy` constructor (which is given the dimensions of the
coordinates) and its `Update(iterate, stepSize, gradient)`; see e.g.
sgd/update_policies/momentum_update.hpp:77-120. -/
structure UpdPol (U S M G : Type) where
  fresh : M → U
  upd : U → M → S → G → U × M

/-- A decay policy: the nested `Policy` constructor and `Update(iterate, stepSize, gradient)`, which
may change the policy object (`P`, a member of the optimizer), the nested object (`D`), the step size
(passed by reference) and the coordinates; see sgd/decay_policies/no_decay.hpp:54-59,
sgdr/cyclical_decay.hpp:117-146. -/
structure DecPol (P D S M G : Type) where
  fresh : D
  upd : P → D → S → M → G → P × D × S × M

/-- Mutable members of the object (sgd.hpp:170-218 `stepSize`, `decayPolicy`, `isInitialized`,
`instUpdatePolicy`, `instDecayPolicy`). -/
structure Obj (U P D S : Type) where
  step : S
  parent : P
  isInit : Bool
  upd : Option U
  dec : Option D

/-- The same members during a run, when both nested policies exist. -/
structure Live (U P D S : Type) where
  step : S
  parent : P
  upd : U
  dec : D

/-- The rest of the world: objective function, callbacks, arithmetic. -/
structure User (V M G E : Type) where
  evalGrad : V → M → Nat → Nat → V × E × G
  evaluate : V → M → Nat → Nat → V × E
  shuffle : V → V
  cbBegin : V → M → V × M
  cbBeginEpoch : V → M → Nat → E → V × Bool
  cbEvalGrad : V → M → E → G → V × G × Bool
  cbStep : V → M → V × M × Bool
  cbEndEpoch : V → M → Nat → E → V × Bool
  cbEvaluate : V → M → E → V × Bool
  cbEnd : V → M → V × M
  add : E → E → E
  zero : E
  divN : E → Nat → E
  dblMax : E
  isBad : E → Bool
  isClose : E → E → Bool

variable {U P D S V M G E : Type}

/-- A newly constructed object (sgd_impl.hpp:24-48). -/
def Obj.new (step : S) (parent : P) : Obj U P D S := ⟨step, parent, false, none, none⟩

/-- Policy initialisation at the start of `Optimize` (sgd_impl.hpp:105-121). -/
def prologue (up : UpdPol U S M G) (dp : DecPol P D S M G) (resetPolicy : Bool) (x : M)
    (o : Obj U P D S) : Live U P D S :=
  { step := o.step
    parent := o.parent
    dec := match o.isInit, o.dec with
      | true, some d => d
      | _, _ => dp.fresh
    upd := match resetPolicy, o.isInit, o.upd with
      | false, true, some u => u
      | _, _, _ => up.fresh x }

/-- The object after the run. -/
def Live.close (l : Live U P D S) : Obj U P D S := ⟨l.step, l.parent, true, some l.upd, some l.dec⟩

/-- The environment the loop runs in: the update policy sees the coordinates, the step size and the
gradient; the decay policy may change the step size. -/
def mkEnv (up : UpdPol U S M G) (dp : DecPol P D S M G) (u : User V M G E) :
    Env (Live U P D S × V) M G E where
  evalGrad := fun w x b k => let r := u.evalGrad w.2 x b k; ((w.1, r.1), r.2.1, r.2.2)
  evaluate := fun w x b k => let r := u.evaluate w.2 x b k; ((w.1, r.1), r.2)
  shuffle := fun w => (w.1, u.shuffle w.2)
  update := fun w x g =>
    let r := up.upd w.1.upd x w.1.step g
    (({ w.1 with upd := r.1 }, w.2), r.2)
  decay := fun w x g =>
    let r := dp.upd w.1.parent w.1.dec w.1.step x g
    (({ w.1 with parent := r.1, dec := r.2.1, step := r.2.2.1 }, w.2), r.2.2.2)
  cbBegin := fun w x => let r := u.cbBegin w.2 x; ((w.1, r.1), r.2)
  cbBeginEpoch := fun w x n e => let r := u.cbBeginEpoch w.2 x n e; ((w.1, r.1), r.2)
  cbEvalGrad := fun w x e g => let r := u.cbEvalGrad w.2 x e g; ((w.1, r.1), r.2.1, r.2.2)
  cbStep := fun w x => let r := u.cbStep w.2 x; ((w.1, r.1), r.2.1, r.2.2)
  cbEndEpoch := fun w x n e => let r := u.cbEndEpoch w.2 x n e; ((w.1, r.1), r.2)
  cbEvaluate := fun w x e => let r := u.cbEvaluate w.2 x e; ((w.1, r.1), r.2)
  cbEnd := fun w x => let r := u.cbEnd w.2 x; ((w.1, r.1), r.2)
  add := u.add
  zero := u.zero
  divN := u.divN
  dblMax := u.dblMax
  isBad := u.isBad
  isClose := u.isClose

/-- `Optimize` on an object (sgd_impl.hpp:93-233). -/
def optimizeObj (up : UpdPol U S M G) (dp : DecPol P D S M G) (u : User V M G E) (p : Params)
    (resetPolicy : Bool) (fuel : Nat) (o : Obj U P D S) (v : V) (x : M) :
    Outcome (Live U P D S × V) M E :=
  optimize (mkEnv up dp u) p fuel (prologue up dp resetPolicy x o, v) x

/-- Objects that can result from a new one by any number of completed `Optimize` calls, with any
functions, parameters, callbacks and starting points. -/
inductive Reach (up : UpdPol U S M G) (dp : DecPol P D S M G) (E : Type) (step : S) (parent : P) :
    Obj U P D S → Prop
  | new : Reach up dp E step parent (Obj.new step parent)
  | call {V : Type} {o : Obj U P D S} (u : User V M G E) (p : Params) (reset : Bool) (fuel : Nat)
      (v : V) (x : M) (r : Result (Live U P D S × V) M E) :
      Reach up dp E step parent o →
      optimizeObj up dp u p reset fuel o v x = .returned r →
      Reach up dp E step parent r.w.1.close

end Ens.Sgd
