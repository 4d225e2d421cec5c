import Mathlib.Logic.Function.Basic
import Mathlib.Algebra.Group.Defs
import Mathlib.Data.List.OfFn
import Verif.Common
import Verif.Loop

/-
Model of `ParallelSGD` (`parallel_sgd/parallel_sgd_impl.hpp`): the parallel region of one iteration as a transition
system over interleavings, and the outer loop.
-/

namespace Ens.Psgd

/-! ### One parallel round -/

/-- The loop range of thread `threadId`: positions of the visitation order (lines 154-156). -/
def threadRange (share n threadId : Nat) : List Nat :=
  (List.range n).filter fun j => threadId * share ≤ j && j < (threadId + 1) * share

/-- One thread: functions still to visit, and coordinate updates of the current gradient not yet applied. -/
structure Thread (Idx R : Type) where
  todo : List Nat
  pending : List (Idx × R)

/-- State of the parallel region. `log` is a ghost variable: the gradients read, with the function. -/
structure Config (T : Nat) (Idx R : Type) where
  x : Idx → R
  threads : Fin T → Thread Idx R
  log : List (Nat × List (Idx × R))

variable {T : Nat} {Idx R : Type} [DecidableEq Idx]

/-- One step of one thread (lines 154-188). Reading a gradient (line 164) is one step, and the coordinates it is
computed from may be torn by concurrent writes: the gradient read is only constrained by `allowed`. Each coordinate
update is an `omp atomic` (line 183, `UpdateLocation` lines 24-46). -/
inductive Step [Sub R] (allowed : (Idx → R) → Nat → List (Idx × R) → Prop) :
    Config T Idx R → Config T Idx R → Prop
  | read (c : Config T Idx R) (t : Fin T) (j : Nat) (rest : List Nat) (g : List (Idx × R))
      (h : c.threads t = ⟨j :: rest, []⟩) (hg : allowed c.x j g) :
      Step allowed c { c with threads := Function.update c.threads t ⟨rest, g⟩, log := c.log ++ [(j, g)] }
  | write (c : Config T Idx R) (t : Fin T) (todo : List Nat) (k : Idx) (v : R) (ps : List (Idx × R))
      (h : c.threads t = ⟨todo, (k, v) :: ps⟩) :
      Step allowed c
        { c with x := Function.update c.x k (c.x k - v), threads := Function.update c.threads t ⟨todo, ps⟩ }

/-- Executions: any interleaving. -/
inductive Run [Sub R] (allowed : (Idx → R) → Nat → List (Idx × R) → Prop) :
    Config T Idx R → Config T Idx R → Prop
  | refl (c) : Run allowed c c
  | step {a b c} : Run allowed a b → Step allowed b c → Run allowed a c

/-- Start of the region: thread `t` owns its range of the visitation order (lines 145-156). -/
def init (x : Idx → R) (order : List Nat) (share : Nat) : Config T Idx R :=
  ⟨x, fun t => ⟨(threadRange share order.length t).filterMap (order[·]?), []⟩, []⟩

/-- End of the region: every thread is done (implicit barrier at line 189). -/
def Done (c : Config T Idx R) : Prop := ∀ t, c.threads t = ⟨[], []⟩

/-! ### Outer loop -/

/-- Outside world. `round` stands for the shuffle and the parallel region; its nondeterminism is in the world. -/
structure Env (W X E D : Type) where
  eval : W → X → W × E
  cbEval : W → X → E → W × Bool
  cbBegin : W → X → W × X
  cbEnd : W → X → W × X
  stepSize : D → Nat → D × E
  round : W → X → E → W × X × Bool
  isBad : E → Bool
  near : E → E → Bool
  maxVal : E
  maxIterations : Nat

inductive Exit where
  | loop | bad | near
  deriving DecidableEq

structure St (W X E D : Type) where
  w : W
  x : X
  d : D
  i : Nat
  obj : E
  terminate : Bool
  rounds : Nat

variable {W X E D : Type}

/-- Body of the outer loop with its condition (lines 102-190). -/
def body (env : Env W X E D) (s : St W X E D) : St W X E D ⊕ (Exit × St W X E D) :=
  if s.i = env.maxIterations ∨ s.terminate = true then .inr (.loop, s)
  else
    let r := env.eval s.w s.x
    let c := env.cbEval r.1 s.x r.2
    if env.isBad r.2 then .inr (.bad, { s with w := c.1, obj := r.2, terminate := s.terminate || c.2 })
    else if env.near s.obj r.2 then .inr (.near, { s with w := c.1, obj := r.2, terminate := s.terminate || c.2 })
    else
      let d := env.stepSize s.d s.i
      let q := env.round c.1 s.x d.2
      .inl { w := q.1, x := q.2.1, d := d.1, i := s.i + 1, obj := r.2, terminate := s.terminate || c.2 || q.2.2,
             rounds := s.rounds + 1 }

/-- `Optimize` (lines 85-196). The state's `obj` is the returned value. -/
def optimize (env : Env W X E D) (d : D) (fuel : Nat) (w : W) (x : X) : Option (Exit × St W X E D) :=
  let b := env.cbBegin w x
  (iterate (body env) fuel ⟨b.1, b.2, d, 1, env.maxVal, false, 0⟩).map fun r =>
    let e := env.cbEnd r.2.w r.2.x
    (r.1, { r.2 with w := e.1, x := e.2 })

end Ens.Psgd
