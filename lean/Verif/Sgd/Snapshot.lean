import Mathlib.Algebra.Module.Basic
import Verif.Sgd.ObjectProps

/-
Model of `SnapshotSGDR` and its decay policy `SnapshotEnsembles`
(/repo/include/ensmallen_bits/sgdr/snapshot_sgdr_impl.hpp, snapshot_ensembles.hpp).

Simplifications: `double` members are real numbers, `size_t` members natural numbers, except in the
exponent of the constructor, whose wrap-around modulo 2^64 is modelled, and in its conversion to
`size_t`, which is undefined for values from 2^64 on.
-/

namespace Ens.Sgd

variable {U V M G E : Type}

/-- `SnapshotEnsembles` members (sgdr/snapshot_ensembles.hpp:198-221). -/
structure Snap where
  epochRestart : Nat
  multFactor : ℝ
  constStepSize : ℝ
  nextRestart : Nat
  batchRestart : Nat
  epochBatches : ℝ
  epoch : Nat
  snapshotEpochs : Nat

/-- The loop of the constructor that counts the restarts of a run of `maxIterations` batches
(sgdr/snapshot_ensembles.hpp:70-80): `er`, `nr`, the count, after `i` passes. -/
noncomputable def Snap.ctorLoop (epochRestart : Nat) (multFactor : ℝ) : Nat → Nat × Nat × Nat
  | 0 => (epochRestart, epochRestart, 0)
  | i + 1 =>
    let r := Snap.ctorLoop epochRestart multFactor i
    if i > r.2.1 then
      let er := ⌊(r.1 : ℝ) * multFactor⌋₊
      (er, r.2.1 + er, r.2.2 + 1)
    else r

/-- `snapshotEpochs - snapshots + 1` in `size_t` arithmetic (sgdr/snapshot_ensembles.hpp:83). -/
def Snap.exponent (count snapshots : Nat) : Nat := (count + (2 ^ 64 - snapshots % 2 ^ 64) + 1) % 2 ^ 64

/-- `snapshotEpochs = epochRestart * std::pow(multFactor, ...)` (sgdr/snapshot_ensembles.hpp:82-83);
`none`: the product does not fit a `size_t`, undefined behaviour. -/
noncomputable def Snap.threshold (epochRestart : Nat) (multFactor : ℝ) (count snapshots : Nat) :
    Option Nat :=
  let t : ℝ := (epochRestart : ℝ) * multFactor ^ Snap.exponent count snapshots
  if t < 2 ^ 64 then some ⌊t⌋₊ else none

/-- Constructor (sgdr/snapshot_ensembles.hpp:57-84). -/
noncomputable def Snap.new (epochRestart : Nat) (multFactor step : ℝ) (maxIterations snapshots : Nat) :
    Option Snap :=
  match Snap.threshold epochRestart multFactor
      (Snap.ctorLoop epochRestart multFactor maxIterations).2.2 snapshots with
  | some t => some ⟨epochRestart, multFactor, step, epochRestart, 0, 0, 0, t⟩
  | none => none

/-- `SnapshotEnsembles::Policy::Update` (sgdr/snapshot_ensembles.hpp:149-184), `shots` are the
snapshots of the nested policy object. -/
noncomputable def Snap.update (c : Snap) (shots : List M) (step : ℝ) (x : M) : Snap × List M × ℝ :=
  let r : Snap × ℝ :=
    if c.epoch ≥ c.epochRestart then
      ({ c with batchRestart := c.batchRestart + 1 },
        0.5 * c.constStepSize * (1 + Real.cos ((c.batchRestart / c.epochBatches) * Real.pi)))
    else (c, step)
  let q : Snap × List M :=
    if r.1.epoch > r.1.nextRestart then
      let er := ⌊(r.1.epochRestart : ℝ) * r.1.multFactor⌋₊
      let shots' := if er ≥ r.1.snapshotEpochs then shots ++ [x] else shots
      ({ r.1 with batchRestart := 0, epochRestart := er, nextRestart := r.1.nextRestart + er }, shots')
    else (r.1, shots)
  ({ q.1 with epoch := q.1.epoch + 1 }, q.2, r.2)

/-- `SnapshotEnsembles` as a decay policy: the nested `Policy` starts without snapshots
(sgdr/snapshot_ensembles.hpp:132-140, 195) and never moves the coordinates. -/
noncomputable def snapshotDecay (M G : Type) : DecPol Snap (List M) ℝ M G where
  fresh := []
  upd := fun c d s x _ => let r := c.update d s x; (r.1, r.2.1, r.2.2, x)

/-- A `SnapshotSGDR` object: its own `batchSize` and `accumulate` members and its SGD object
(sgdr/snapshot_sgdr.hpp:206-217). -/
structure SnapObj (U M : Type) where
  batchSize : Nat
  accumulate : Bool
  sgd : Obj U Snap (List M) ℝ

/-- `SnapshotSGDR::Optimize` before it delegates (sgdr/snapshot_sgdr_impl.hpp:69-82); `p.batchSize` is
the batch size of the SGD object, which is what the `BatchSize()` modifier changes. -/
noncomputable def SnapObj.prepare (p : Params) (o : SnapObj U M) : SnapObj U M :=
  { o with
    batchSize := if p.batchSize ≠ o.batchSize then p.batchSize else o.batchSize
    sgd := { o.sgd with parent :=
      { o.sgd.parent with
        constStepSize := if o.sgd.step ≠ o.sgd.parent.constStepSize then o.sgd.step
          else o.sgd.parent.constStepSize
        epochBatches := (p.numFunctions : ℝ) / (o.batchSize : ℝ) } } }

/-- The objective loop over all functions (sgdr/snapshot_sgdr_impl.hpp:107-113): functions
`i, ..., i + k - 1`, one at a time. -/
def sumFrom (u : User V M G E) (x : M) : Nat → Nat → V × E → V × E
  | 0, _, a => a
  | k + 1, i, a =>
    let r := u.evaluate a.1 x i 1
    sumFrom u x k (i + 1) (r.1, u.add a.2 r.2)

/-- What `SnapshotSGDR::Optimize` leaves: returned value, coordinates, object, world, and the calls
made by the inner SGD run. -/
structure SnapRes (U V M E : Type) where
  obj : E
  x : M
  o : SnapObj U M
  v : V
  trace : List (Ev M E)

/-- `iterate += Snapshots()[i]` for all `i`, then `iterate /= (numSnapshots + 1)`
(sgdr/snapshot_sgdr_impl.hpp:97-104). -/
noncomputable def ensemble [AddCommGroup M] [Module ℝ M] (x : M) (shots : List M) : M :=
  ((shots.length : ℝ) + 1)⁻¹ • shots.foldl (· + ·) x

/-- `SnapshotSGDR::Optimize` (sgdr/snapshot_sgdr_impl.hpp:62-117).  The coordinates after the inner run are those
`EndOptimization` callbacks were shown (callbacks that change them there are not modelled). -/
noncomputable def snapOptimize [AddCommGroup M] [Module ℝ M] (up : UpdPol U ℝ M G) (u : User V M G E)
    (p : Params) (resetPolicy : Bool) (fuel : Nat) (o : SnapObj U M) (v : V) (x : M) :
    Option (SnapRes U V M E) :=
  let o' := o.prepare p
  match optimizeObj up (snapshotDecay M G) u p resetPolicy fuel o'.sgd v x with
  | .returned r =>
    let sgd := r.w.1.close
    if o.accumulate then
      let x' := ensemble r.x r.w.1.dec
      let s := sumFrom u x' p.numFunctions 0 (r.w.2, u.zero)
      some ⟨s.2, x', { o' with sgd := sgd }, s.1, r.trace⟩
    else some ⟨r.obj, r.x, { o' with sgd := sgd }, r.w.2, r.trace⟩
  | _ => none

/-- A newly constructed object (sgdr/snapshot_sgdr_impl.hpp:21-53); `none`: undefined behaviour in the
constructor of the decay policy. -/
noncomputable def SnapObj.new (epochRestart : Nat) (multFactor : ℝ) (batchSize : Nat) (step : ℝ)
    (maxIterations snapshots : Nat) (accumulate : Bool) : Option (SnapObj U M) :=
  match Snap.new epochRestart multFactor step maxIterations snapshots with
  | some c => some ⟨batchSize, accumulate, Obj.new step c⟩
  | none => none

end Ens.Sgd
