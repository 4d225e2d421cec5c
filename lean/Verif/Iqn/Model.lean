import Mathlib.Algebra.Module.LinearMap.Basic
import Mathlib.Algebra.Field.Basic
import Verif.Vr.Base

/-
IQN (`iqn/iqn_impl.hpp`): model.

Points and gradients are vectors of a `K`-module `V`; per-batch Hessian approximations are elements of a module `H` with
the few matrix operations the code uses (`Hess`).  Reshaping and vectorising are identities here; the shape check they
entail is modelled by `shapeOk`.
-/

namespace Ens.Iqn

open Ens.Vr

/-- The matrix operations used by IQN, with the laws of matrices. -/
structure Hess (K V H : Type) [Field K] [AddCommGroup V] [Module K V] [AddCommGroup H] [Module K H] where
  /-- `Q * v` -/
  app : H →ₗ[K] V →ₗ[K] V
  /-- `a.t() * b` -/
  dot : V → V → K
  /-- identity -/
  eye : H
  /-- `a * a.t()` -/
  outer : V → H
  /-- `Q * s * s.t() * Q` -/
  sand : H → V → H
  app_eye : ∀ v, app eye v = v
  app_outer : ∀ a v, app (outer a) v = dot a v • a
  app_sand : ∀ Q s v, app (sand Q s) v = dot s (app Q v) • app Q s

variable {W E K V H : Type} [Field K] [AddCommGroup V] [Module K V] [AddCommGroup H] [Module K H]

/-- Members of `IQN`, and the external pieces: `differs x y` is `norm(x - y) > 0`, `solve B v` is `B.i() * v`. -/
structure Params (K V H E : Type) where
  stepSize : K
  batchSize : Nat
  maxIterations : Nat
  differs : V → V → Bool
  solve : H → V → V
  /-- `overallObjective /= numFunctions` -/
  divE : E → Nat → E
  /-- `overallObjective < tolerance` -/
  small : E → Bool

/-- The tables and aggregates (lines 78-113) and the iterate. -/
structure Tab (W V H : Type) where
  s : S W
  y : Nat → V
  t : Nat → V
  Q : Nat → H
  B : H
  u : V
  g : V
  x : V

/-- Lines 66-68. -/
def numBatches (n b : Nat) : Nat := n / b + (if n % b ≠ 0 then 1 else 0)

/-- Start and size of batch `f` (lines 94, 124-125, 129). -/
def batch (n b f : Nat) : Nat × Nat := (f * b, min b (n - f * b))

/-- One pass of the initialisation loop (lines 91-109); `i = f * batchSize` there. -/
def initStep (u : User W V V E) (h : Hess K V H) (b : Nat) (r : V) (a : Tab W V H) (f : Nat) : Tab W V H :=
  let q := gradAt u a.s r (batch u.n b f)
  { a with s := q.1
           t := Function.update a.t f r
           y := Function.update a.y f ((1 / ((batch u.n b f).2 : K)) • q.2)
           Q := Function.update a.Q f h.eye
           g := a.g + q.2 }

/-- Lines 78-113, `r` the random point of line 84, `x` the starting point. -/
def init (u : User W V V E) (h : Hess K V H) (b : Nat) (w : W) (r x : V) : Tab W V H :=
  let a := (List.range (numBatches u.n b)).foldl (initStep u h b r)
    ⟨⟨w, false, []⟩, fun _ => 0, fun _ => 0, fun _ => 0, h.eye, 0, 0, x⟩
  { a with g := (1 / (u.n : K)) • a.g, u := r }

/-- The updated Hessian approximation of a batch (lines 139-141). -/
def update (h : Hess K V H) (Q : H) (s yy : V) : H :=
  Q + (1 / h.dot yy s) • h.outer yy - (1 / h.dot s (h.app Q s)) • h.sand Q s

/-- Lines 127-164: one visit of batch `it`. -/
def visit (u : User W V V E) (h : Hess K V H) (p : Params K V H E) (a : Tab W V H) (it : Nat) : Tab W V H :=
  if p.differs a.x (a.t it) then
    let q := u.gradient a.s.w a.x (batch u.n p.batchSize it).1 (batch u.n p.batchSize it).2
    let c := u.cbGrad q.1 a.x ((1 / ((batch u.n p.batchSize it).2 : K)) • q.2)
    let s := a.s.note c.1 (.grad (batch u.n p.batchSize it).1 (batch u.n p.batchSize it).2) c.2.2
    let N := (numBatches u.n p.batchSize : K)
    let Q' := update h (a.Q it) (a.x - a.t it) (c.2.1 - a.y it)
    let B := a.B + (1 / N) • (Q' - a.Q it)
    let u' := a.u + (1 / N) • (h.app Q' a.x - h.app (a.Q it) (a.t it))
    let g := a.g + (1 / N) • (c.2.1 - a.y it)
    let d := stepAt u s (p.stepSize • p.solve B (u' - g) + (1 - p.stepSize) • a.x)
    ⟨d.1, Function.update a.y it c.2.1, Function.update a.t it a.x, Function.update a.Q it Q', B, u', g, d.2⟩
  else a

/-- The pass of lines 118-167, with its counters `j` and `f`. -/
def passStep (u : User W V V E) (h : Hess K V H) (p : Params K V H E) (c : Nat × Nat × Tab W V H) :
    (Nat × Nat × Tab W V H) ⊕ Tab W V H :=
  if c.2.1 < u.n then
    let it := (c.1 + 1) % numBatches u.n p.batchSize
    .inl (c.1 + 1, c.2.1 + (batch u.n p.batchSize it).2, visit u h p c.2.2 it)
  else .inr c.2.2

/-- One pass over all batches; `none` would be an endless loop. -/
def pass (u : User W V V E) (h : Hess K V H) (p : Params K V H E) (a : Tab W V H) : Option (Tab W V H) :=
  iterate (passStep u h p) (u.n + 1) (0, 0, a)

structure St (W V H E : Type) where
  a : Tab W V H
  overall : E
  i : Nat

inductive Exit where
  | loop | bad | small
  deriving DecidableEq

inductive Res (W V H E : Type) where
  | ret (e : Exit) (t : St W V H E)
  | stuck

/-- The main loop with its condition `i != maxIterations && !terminate` (lines 116-203). -/
def body (u : User W V V E) (h : Hess K V H) (p : Params K V H E) (t : St W V H E) : St W V H E ⊕ Res W V H E :=
  if t.i ≠ p.maxIterations ∧ t.a.s.term = false then
    match pass u h p t.a with
    | none => .inr .stuck
    | some a =>
      let o := evalAll u p.batchSize a.s a.x
      let t := { t with a := { a with s := o.1 }, overall := p.divE o.2 u.n }
      if u.isBad t.overall then .inr (.ret .bad t)
      else if p.small t.overall then .inr (.ret .small t)
      else .inl { t with i := t.i + 1 }
  else .inr (.ret .loop t)

/-- The state at the start of the main loop: the gradient callbacks of the initialisation come before
`BeginOptimization` (line 115). -/
def start (u : User W V V E) (h : Hess K V H) (p : Params K V H E) (w : W) (r x : V) : St W V H E :=
  let a := init u h p.batchSize w r x
  let c := u.cbBegin a.s.w a.x
  ⟨{ a with s := { a.s with w := c.1 }, x := c.2 }, u.zero, 1⟩

/-- `EndOptimization`. -/
def finish (u : User W V V E) (t : St W V H E) : St W V H E :=
  let d := u.cbEnd t.a.s.w t.a.x
  { t with a := { t.a with s := { t.a.s with w := d.1 }, x := d.2 } }

/-- `Optimize` (lines 64-210). -/
def optimize (u : User W V V E) (h : Hess K V H) (p : Params K V H E) (fuel : Nat) (w : W) (r x : V) :
    Option (Res W V H E) :=
  (iterate (body u h p) fuel (start u h p w r x)).map fun q =>
    match q with
    | .stuck => .stuck
    | .ret e t => .ret e (finish u t)

/-- Is `u.t() - vectorise(g)` (line 159) a difference of matrices of the same shape? For an iterate of `rows` by `cols`
elements `u.t()` is `cols` by `rows`, the other operand is `rows * cols` by 1. Armadillo raises `std::logic_error`
otherwise. -/
def shapeOk (rows cols : Nat) : Bool := cols == rows * cols && rows == 1

end Ens.Iqn
