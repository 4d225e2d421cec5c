import Verif.Fw.Model
import Verif.AugLag.Model
import Verif.Lbfgs.Model
import Verif.Iqn.Model
import Verif.Vr.Katyusha
import Verif.Vr.Sarah
import Verif.Psgd.Model
import Verif.Sdp.PrimalDualTrace

/-
C321: what an `EndOptimization` callback writes to the coordinates is what the caller gets, on every path out of `Optimize`,
and changes nothing else: neither the run before nor the value returned.

For each optimizer the run with the callback `e` is the run with a callback that does nothing, followed by `e`.
-/

namespace Ens.EndLast

/-- **C321** `FrankWolfe`. -/
theorem C321_fw {W X G E : Type} (u : Fw.User W X G E) (e : W → X → W × X) (m fuel : Nat) (w : W) (x : X) :
    Fw.optimize { u with cbEnd := e } m fuel w x =
      (Fw.optimize { u with cbEnd := fun w x => (w, x) } m fuel w x).map fun r =>
        (r.1, { r.2 with w := (e r.2.w r.2.x).1, x := (e r.2.w r.2.x).2 }) := by
  unfold Fw.optimize
  rw [Option.map_map]
  rfl

/-- **C321** `AugLagrangian`, with the stored or with given multipliers: those stored afterwards do not depend on the callback
either. -/
theorem C321_augLag {W X E : Type} (o : AugLag.Ops E) (u : AugLag.User W X E) (e : W → X → W × X) (m fuel : Nat) (ob : AugLag.Obj E)
    (lam : List E) (sigma : E) (w : W) (x : X) :
    let last : AugLag.Obj E × AugLag.Exit × AugLag.St W X E → AugLag.Obj E × AugLag.Exit × AugLag.St W X E := fun r =>
      (r.1, r.2.1, { r.2.2 with w := (e r.2.2.w r.2.2.x).1, x := (e r.2.2.w r.2.2.x).2 })
    AugLag.optimize o { u with cbEnd := e } m fuel ob w x =
        (AugLag.optimize o { u with cbEnd := fun w x => (w, x) } m fuel ob w x).map last ∧
      AugLag.optimizeInit o { u with cbEnd := e } m fuel ob lam sigma w x =
        (AugLag.optimizeInit o { u with cbEnd := fun w x => (w, x) } m fuel ob lam sigma w x).map last := by
  constructor
  · unfold AugLag.optimize AugLag.run
    split <;> rw [Option.map_map] <;> rfl
  · unfold AugLag.optimizeInit AugLag.run
    rw [Option.map_map]
    rfl

/-- **C321** `L_BFGS`. -/
theorem C321_lbfgs {W X G E Mem : Type} [Add E] [Mul E] [Neg E] [LT E] [DecidableLT E] (env : Lbfgs.Env W X G E Mem)
    (e : W → X → W × X) (mem : Mem) (terminate : Bool) (fuel : Nat) (w : W) (x : X) :
    Lbfgs.optimize { env with cbEnd := e } mem terminate fuel w x =
      (Lbfgs.optimize { env with cbEnd := fun w x => (w, x) } mem terminate fuel w x).map fun r =>
        (r.1, { r.2 with w := (e r.2.w r.2.x).1, x := (e r.2.w r.2.x).2 }) := by
  unfold Lbfgs.optimize
  rw [Option.map_map]
  rfl

/-- **C321** `ParallelSGD`. -/
theorem C321_psgd {W X E D : Type} (env : Psgd.Env W X E D) (e : W → X → W × X) (d : D) (fuel : Nat) (w : W) (x : X) :
    Psgd.optimize { env with cbEnd := e } d fuel w x =
      (Psgd.optimize { env with cbEnd := fun w x => (w, x) } d fuel w x).map fun r =>
        (r.1, { r.2 with w := (e r.2.w r.2.x).1, x := (e r.2.w r.2.x).2 }) := by
  unfold Psgd.optimize
  rw [Option.map_map]
  rfl

/-- **C321** `IQN`. -/
theorem C321_iqn {W E K V H : Type} [Field K] [AddCommGroup V] [Module K V] [AddCommGroup H] [Module K H] (u : Vr.User W V V E)
    (h : Iqn.Hess K V H) (p : Iqn.Params K V H E) (e : W → V → W × V) (fuel : Nat) (w : W) (r x : V) :
    Iqn.optimize { u with cbEnd := e } h p fuel w r x =
      (Iqn.optimize { u with cbEnd := fun w x => (w, x) } h p fuel w r x).map fun q =>
        match q with
        | .stuck => .stuck
        | .ret ex t => .ret ex { t with a := { t.a with s := { t.a.s with w := (e t.a.s.w t.a.x).1 }, x := (e t.a.s.w t.a.x).2 } } := by
  unfold Iqn.optimize
  rw [Option.map_map]
  show Option.map _ (iterate (Iqn.body u h p) fuel (Iqn.start u h p w r x)) = Option.map _ (iterate (Iqn.body u h p) fuel (Iqn.start u h p w r x))
  congr 1
  funext q
  cases q <;> rfl

/-- **C321** `SVRGType`, with or without the exact objective at the end. -/
theorem C321_svrg {W X G E : Type} (u : Vr.User W X G E) (p : Vr.Svrg.Params W X G E) (e : W → X → W × X) (step : E) (fuel : Nat)
    (w : W) (x : X) :
    Vr.Svrg.optimize { u with cbEnd := e } p step fuel w x =
      (Vr.Svrg.optimize { u with cbEnd := fun w x => (w, x) } p step fuel w x).map fun q =>
        match q with
        | .stuck => .stuck
        | .ret ex t => .ret ex { t with s := { t.s with w := (e t.s.w t.x).1 }, x := (e t.s.w t.x).2 } := by
  unfold Vr.Svrg.optimize
  rw [Option.map_map]
  show Option.map _ (iterate (Vr.Svrg.body u p) fuel _) = Option.map _ (iterate (Vr.Svrg.body u p) fuel _)
  congr 1
  funext q
  cases q <;> rfl

/-- **C321** `SARAHType`. -/
theorem C321_sarah {W X G E : Type} (u : Vr.User W X G E) (p : Vr.Sarah.Params X G E) (e : W → X → W × X) (fuel : Nat)
    (w : W) (x : X) :
    Vr.Sarah.optimize { u with cbEnd := e } p fuel w x =
      (Vr.Sarah.optimize { u with cbEnd := fun w x => (w, x) } p fuel w x).map fun q =>
        match q with
        | .stuck => .stuck
        | .ret ex t => .ret ex { t with s := { t.s with w := (e t.s.w t.x).1 }, x := (e t.s.w t.x).2 } := by
  unfold Vr.Sarah.optimize
  rw [Option.map_map]
  show Option.map _ (iterate (Vr.Sarah.body u p) fuel _) = Option.map _ (iterate (Vr.Sarah.body u p) fuel _)
  congr 1
  funext q
  cases q <;> rfl

/-- **C321** `KatyushaType`. -/
theorem C321_katyusha {W E K V : Type} [Field K] [LinearOrder K] [AddCommGroup V] [Module K V] (u : Vr.User W V V E)
    (p : Vr.Katyusha.Params K) (e : W → V → W × V) (fuel : Nat) (w : W) (x : V) :
    Vr.Katyusha.optimize { u with cbEnd := e } p fuel w x =
      (Vr.Katyusha.optimize { u with cbEnd := fun w x => (w, x) } p fuel w x).map fun q =>
        match q with
        | .stuck => .stuck
        | .ret ex t => .ret ex { t with s := { t.s with w := (e t.s.w t.x).1 }, x := (e t.s.w t.x).2 } := by
  unfold Vr.Katyusha.optimize
  rw [Option.map_map]
  show Option.map _ (iterate (Vr.Katyusha.body u p) fuel _) = Option.map _ (iterate (Vr.Katyusha.body u p) fuel _)
  congr 1
  funext q
  cases q <;> rfl

/-- Halving the distance to 0 per step, for `f x = x`; the callback at the end writes 7. -/
def toZero : Fw.User Nat ℚ ℚ ℚ where
  evalGrad := fun w x => (w, x, 1)
  lmo := fun w _ => (w, 0)
  update := fun w x s _ => (w, (x + s) / 2)
  within := fun _ _ _ => false
  cbBegin := fun w x => (w, x)
  cbEval := fun w _ _ g => (w, g, false)
  cbStep := fun w x => (w, x, false)
  cbEnd := fun w _ => (w + 1, 7)
  maxE := 1000

/-- A run in which the callback has something to write: the caller gets 7, but the value of the point before the last step. -/
example : ((Fw.optimize toZero 4 10 0 8).map fun r => (r.2.x, r.2.obj, r.2.w)) = some (7, 2, 1) ∧
    ((Fw.optimize { toZero with cbEnd := fun w x => (w, x) } 4 10 0 8).map fun r => (r.2.x, r.2.obj, r.2.w)) = some (1, 2, 0) := by
  decide +kernel

/-- **C321** (refuted) `PrimalDualSolver`: a successful run ignores the callback. -/
theorem C321_primalDual_refuted : ¬ ∀ (env : PrimalDual.Env 1 ℚ Unit) (c : PrimalDual.Params ℚ) (p : Lrsdp.Sdp (Fin 1) ℚ) (fuel : Nat)
    (x y : PrimalDual.Mat 1 ℚ) (e : PrimalDual.Exit) (s : PrimalDual.St 1 ℚ Unit p.all.length), (∀ w x, (env.cbEnd w x).2 = y) →
    PrimalDual.optimizeDefault env c p fuel () x = .done (e, s) → e ≠ .throws → s.x = y := by
  intro h
  have hv : PrimalDual.view (PrimalDual.optimizeDefault { PrimalDual.scalar false with cbEnd := fun w _ => (w, PrimalDual.one1 7) }
      ⟨1000, 99 / 100, 1 / 10, 1 / 10, 1 / 10⟩ PrimalDual.prog 10 () (PrimalDual.one1 1)) = some (.converged, 1, 2, 1, 0) := by
    decide +kernel
  cases hr : PrimalDual.optimizeDefault { PrimalDual.scalar false with cbEnd := fun w _ => (w, PrimalDual.one1 7) }
      ⟨1000, 99 / 100, 1 / 10, 1 / 10, 1 / 10⟩ PrimalDual.prog 10 () (PrimalDual.one1 1) with
  | rejected => rw [hr] at hv; simp [PrimalDual.view] at hv
  | fuel => rw [hr] at hv; simp [PrimalDual.view] at hv
  | done q =>
    obtain ⟨e, s⟩ := q
    rw [hr] at hv
    simp only [PrimalDual.view, Option.some.injEq, Prod.mk.injEq] at hv
    have := h _ _ _ _ _ (PrimalDual.one1 7) e s (fun _ _ => rfl) hr (by rw [hv.1]; simp)
    have h1 := hv.2.1
    rw [this] at h1
    norm_num [PrimalDual.one1] at h1

end Ens.EndLast
