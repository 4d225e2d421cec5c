import Verif.Sgd.Snapshot

/-
C312: an SGDR or SnapshotSGDR object configured through its setters against one constructed with the
same values.

`Tolerance()` is not among the settings: the model leaves the convergence test to the environment
(`User.isClose`).
-/

namespace Ens.Sgd

variable {U V M G E : Type}

/-- The constructor arguments of SGDR and SnapshotSGDR that have a setter (sgdr/sgdr_impl.hpp:20-47,
sgdr/snapshot_sgdr_impl.hpp:20-53). -/
structure Args where
  step : ℝ
  batchSize : Nat
  maxIterations : Nat
  shuffle : Bool
  exactObjective : Bool

/-- An assignment through a setter (sgdr/sgdr.hpp:126-153, sgdr/snapshot_sgdr.hpp:143-170). -/
inductive Setting
  | stepSize (s : ℝ)
  | batchSize (b : Nat)
  | maxIterations (m : Nat)
  | shuffle (b : Bool)
  | exactObjective (b : Bool)

/-- The constructor arguments that the assignment amounts to. -/
def Args.set (a : Args) : Setting → Args
  | .stepSize s => { a with step := s }
  | .batchSize b => { a with batchSize := b }
  | .maxIterations m => { a with maxIterations := m }
  | .shuffle b => { a with shuffle := b }
  | .exactObjective b => { a with exactObjective := b }

/-- An object as the user sees it: the plain members of its SGD object, which the setters assign
(`p.numFunctions` is overwritten at each call), and the rest of the object. -/
structure Handle (O : Type) where
  p : Params
  o : O

/-- `Args` as members of a new SGD object. -/
def Args.params (a : Args) : Params := ⟨0, a.batchSize, a.maxIterations, a.shuffle, a.exactObjective⟩

/-- A new SGDR object (sgdr/sgdr_impl.hpp:20-47). -/
noncomputable def newSgdr (epochRestart : Nat) (multFactor : ℝ) (a : Args) :
    Handle (Obj U Cyclic Unit ℝ) :=
  ⟨a.params, Obj.new a.step (Cyclic.new epochRestart multFactor a.step)⟩

/-- A setter of SGDR: every one assigns a member of the SGD object (sgdr/sgdr.hpp:126-153). -/
noncomputable def Handle.setSgdr (h : Handle (Obj U Cyclic Unit ℝ)) :
    Setting → Handle (Obj U Cyclic Unit ℝ)
  | .stepSize s => { h with o := { h.o with step := s } }
  | .batchSize b => { h with p := { h.p with batchSize := b } }
  | .maxIterations m => { h with p := { h.p with maxIterations := m } }
  | .shuffle b => { h with p := { h.p with shuffle := b } }
  | .exactObjective b => { h with p := { h.p with exactObjective := b } }

/-- `Optimize` on the object, for a function with `n` parts (sgdr/sgdr_impl.hpp:50-77). -/
noncomputable def Handle.runSgdr (up : UpdPol U ℝ M G) (u : User V M G E) (n : Nat)
    (resetPolicy : Bool) (fuel : Nat) (v : V) (x : M) (h : Handle (Obj U Cyclic Unit ℝ)) :
    Outcome (Live U Cyclic Unit ℝ × V) M E :=
  sgdrOptimize up u { h.p with numFunctions := n } resetPolicy fuel h.o v x

theorem setSgdr_shape (er : Nat) (mf c : ℝ) (a : Args) (l : List Setting) :
    l.foldl Handle.setSgdr (⟨a.params, Obj.new a.step (Cyclic.new er mf c)⟩ :
        Handle (Obj U Cyclic Unit ℝ)) =
      ⟨(l.foldl Args.set a).params, Obj.new (l.foldl Args.set a).step (Cyclic.new er mf c)⟩ := by
  induction l generalizing a with
  | nil => rfl
  | cons t l ih =>
    rw [List.foldl_cons, List.foldl_cons, ← ih]
    cases t <;> rfl

/-- **C312** for SGDR: a new object on which any sequence of setters has been used runs exactly like
one whose constructor was given the final values: the same returned value, coordinates, calls, and
object left behind. -/
theorem C312_sgdr (up : UpdPol U ℝ M G) (u : User V M G E) (n : Nat) (resetPolicy : Bool)
    (fuel : Nat) (v : V) (x : M) (er : Nat) (mf : ℝ) (a : Args) (l : List Setting) :
    (l.foldl Handle.setSgdr (newSgdr er mf a)).runSgdr up u n resetPolicy fuel v x =
      (newSgdr er mf (l.foldl Args.set a)).runSgdr up u n resetPolicy fuel v x := by
  unfold newSgdr
  rw [setSgdr_shape]
  generalize l.foldl Args.set a = b
  simp only [Handle.runSgdr, sgdrOptimize]
  congr 1
  simp only [sgdrPrepare, Obj.new, Cyclic.new]
  by_cases h : b.step = a.step <;> simp [h]

/-- A new SnapshotSGDR object (sgdr/snapshot_sgdr_impl.hpp:20-53); `none`: undefined behaviour in the
constructor of the decay policy. -/
noncomputable def newSnap (epochRestart : Nat) (multFactor : ℝ) (snapshots : Nat) (accumulate : Bool)
    (a : Args) : Option (Handle (SnapObj U M)) :=
  (SnapObj.new epochRestart multFactor a.batchSize a.step a.maxIterations snapshots accumulate).map
    fun o => ⟨a.params, o⟩

/-- A setter of SnapshotSGDR (sgdr/snapshot_sgdr.hpp:143-170). -/
noncomputable def Handle.setSnap (h : Handle (SnapObj U M)) : Setting → Handle (SnapObj U M)
  | .stepSize s => { h with o := { h.o with sgd := { h.o.sgd with step := s } } }
  | .batchSize b => { h with p := { h.p with batchSize := b } }
  | .maxIterations m => { h with p := { h.p with maxIterations := m } }
  | .shuffle b => { h with p := { h.p with shuffle := b } }
  | .exactObjective b => { h with p := { h.p with exactObjective := b } }

/-- `Optimize` on the object, for a function with `n` parts (sgdr/snapshot_sgdr_impl.hpp:55-118). -/
noncomputable def Handle.runSnap [AddCommGroup M] [Module ℝ M] (up : UpdPol U ℝ M G)
    (u : User V M G E) (n : Nat) (resetPolicy : Bool) (fuel : Nat) (v : V) (x : M)
    (h : Handle (SnapObj U M)) : Option (SnapRes U V M E) :=
  snapOptimize up u { h.p with numFunctions := n } resetPolicy fuel h.o v x

theorem setSnap_shape (c : Snap) (bs : Nat) (acc : Bool) (a : Args) (l : List Setting) :
    l.foldl Handle.setSnap (⟨a.params, ⟨bs, acc, Obj.new a.step c⟩⟩ : Handle (SnapObj U M)) =
      ⟨(l.foldl Args.set a).params, ⟨bs, acc, Obj.new (l.foldl Args.set a).step c⟩⟩ := by
  induction l generalizing a with
  | nil => rfl
  | cons t l ih =>
    rw [List.foldl_cons, List.foldl_cons, ← ih]
    cases t <;> rfl

/-- **C312** for SnapshotSGDR, the part that holds: as long as the final batch size is the one the
constructor was given and the number of restarts counted by the constructor is the same for the final
iteration limit as for the given one, the setters act like constructor arguments. -/
theorem C312_snapshot_partial [AddCommGroup M] [Module ℝ M] (up : UpdPol U ℝ M G)
    (u : User V M G E) (n : Nat) (resetPolicy : Bool) (fuel : Nat) (v : V) (x : M) (er : Nat) (mf : ℝ)
    (snapshots : Nat) (acc : Bool) (a : Args) (l : List Setting)
    (hb : (l.foldl Args.set a).batchSize = a.batchSize)
    (hm : (Snap.ctorLoop er mf (l.foldl Args.set a).maxIterations).2.2 =
      (Snap.ctorLoop er mf a.maxIterations).2.2) :
    ((newSnap er mf snapshots acc a).map fun h =>
        (l.foldl Handle.setSnap h).runSnap up u n resetPolicy fuel v x) =
      (newSnap er mf snapshots acc (l.foldl Args.set a)).map fun h =>
        h.runSnap up u n resetPolicy fuel v x := by
  simp only [newSnap, SnapObj.new, Snap.new, hm, hb]
  cases Snap.threshold er mf (Snap.ctorLoop er mf a.maxIterations).2.2 snapshots with
  | none => rfl
  | some t =>
    simp only [Option.map_some, setSnap_shape]
    generalize l.foldl Args.set a = b
    congr 1
    simp only [Handle.runSnap, snapOptimize]
    have : (SnapObj.prepare (U := U) (M := M) { b.params with numFunctions := n }
        ⟨a.batchSize, acc, Obj.new b.step ⟨er, mf, a.step, er, 0, 0, 0, t⟩⟩) =
      SnapObj.prepare { b.params with numFunctions := n }
        ⟨a.batchSize, acc, Obj.new b.step ⟨er, mf, b.step, er, 0, 0, 0, t⟩⟩ := by
      simp only [SnapObj.prepare, Obj.new]
      by_cases h : b.step = a.step <;> simp [h]
    rw [this]

/-- Arguments and settings that meet the hypotheses and change something. -/
example : ∃ (a : Args) (l : List Setting), (l.foldl Args.set a).step ≠ a.step ∧
    (l.foldl Args.set a).maxIterations ≠ a.maxIterations ∧
    (l.foldl Args.set a).batchSize = a.batchSize ∧
    (Snap.ctorLoop 50 2 (l.foldl Args.set a).maxIterations).2.2 =
      (Snap.ctorLoop 50 2 a.maxIterations).2.2 :=
  ⟨⟨1, 32, 3, true, false⟩, [.stepSize 2, .maxIterations 2, .shuffle false], by simp [Args.set],
    by simp [Args.set], rfl, by simp [Args.set, Snap.ctorLoop]⟩

/-- Four batches of a schedule with restart after one batch, multiplier 2, step size 1, two batches per
epoch, and threshold `t`, on the function of slope 1 with two parts. -/
theorem fourBatches (t : Nat) : ∃ r,
    optimize (mkEnv vanilla (snapshotDecay ℝ ℝ) slope) ⟨2, 1, 4, false, false⟩ 4
      (⟨1, ⟨1, 2, 1, 1, 0, 2, 0, t⟩, (), []⟩, ()) 0 = .returned r ∧
    r.x = -(7 / 2) ∧ r.w.1.dec = if 2 ≥ t then [-3] else [] := by
  have hcos : Real.cos (2⁻¹ * Real.pi) = 0 := by
    rw [show 2⁻¹ * Real.pi = Real.pi / 2 by ring]; exact Real.cos_pi_div_two
  have u0 : ∀ (d : List ℝ) x, Snap.update ⟨1, 2, 1, 1, 0, 2, 0, t⟩ d 1 x
      = (⟨1, 2, 1, 1, 0, 2, 1, t⟩, d, 1) := by
    intro d x; simp [Snap.update]
  have u1 : ∀ (d : List ℝ) x, Snap.update ⟨1, 2, 1, 1, 0, 2, 1, t⟩ d 1 x
      = (⟨1, 2, 1, 1, 1, 2, 2, t⟩, d, 1) := by
    intro d x; simp [Snap.update]; norm_num
  have u2 : ∀ (d : List ℝ) x, Snap.update ⟨1, 2, 1, 1, 1, 2, 2, t⟩ d 1 x
      = (⟨2, 2, 1, 3, 0, 2, 3, t⟩, if 2 ≥ t then d ++ [x] else d, 1 / 2) := by
    intro d x; simp [Snap.update, hcos]; norm_num
  have u3 : ∀ (d : List ℝ) x, Snap.update ⟨2, 2, 1, 3, 0, 2, 3, t⟩ d (1 / 2) x
      = (⟨2, 2, 1, 3, 1, 2, 4, t⟩, d, 1) := by
    intro d x; simp [Snap.update]; norm_num
  simp [optimize, loop, start, body, stepBatch, epochEnd, mkEnv, slope, effBatch, Params.actualMax,
    snapshotDecay, vanilla, finish, u0, u1, u2]
  norm_num
  rw [u3]

theorem newSnap_four (a : Args) (t : Nat) (hs : a.step = 1) (hb : a.batchSize = 1)
    (ht : Snap.threshold 1 2 (Snap.ctorLoop 1 2 a.maxIterations).2.2 1 = some t) :
    newSnap (U := Unit) (M := ℝ) 1 2 1 true a =
      some ⟨a.params, ⟨1, true, Obj.new 1 ⟨1, 2, 1, 1, 0, 0, 0, t⟩⟩⟩ := by
  simp [newSnap, SnapObj.new, Snap.new, ht, hs, hb]

theorem runSnap_four (t : Nat) : ∃ r,
    (Handle.mk (Args.params ⟨1, 1, 4, false, false⟩)
      (⟨1, true, Obj.new 1 ⟨1, 2, 1, 1, 0, 0, 0, t⟩⟩ : SnapObj Unit ℝ)).runSnap vanilla slope 2 true 4 () 0
        = some r ∧ r.x = ensemble (-(7 / 2)) (if 2 ≥ t then [-3] else []) := by
  obtain ⟨q, h1, h2, h3⟩ := fourBatches t
  have : optimizeObj vanilla (snapshotDecay ℝ ℝ) slope
      ({ Args.params ⟨1, 1, 4, false, false⟩ with numFunctions := 2 }) true 4
      (SnapObj.prepare ({ Args.params ⟨1, 1, 4, false, false⟩ with numFunctions := 2 })
        (⟨1, true, Obj.new 1 ⟨1, 2, 1, 1, 0, 0, 0, t⟩⟩ : SnapObj Unit ℝ)).sgd () 0 = .returned q := by
    rw [← h1]
    simp [optimizeObj, prologue, SnapObj.prepare, Obj.new, Args.params, vanilla, snapshotDecay]
  simp only [Handle.runSnap, snapOptimize]
  rw [this]
  simp only [if_true]
  exact ⟨_, rfl, by simp only [h2, h3]⟩

/-- **C312** is false for the iteration limit of SnapshotSGDR: how long a cycle must be for a snapshot is
computed once, in the constructor.  On a function of slope 1 with two parts (restart after one batch,
multiplier 2, step size 1, one snapshot), an object constructed for 9 iterations and set to 4 takes no
snapshot and returns -3.5; one constructed for 4 averages a snapshot and returns -3.25. -/
theorem C312_snapshot_refuted : ∃ (h h' : Handle (SnapObj Unit ℝ)) (r r' : SnapRes Unit Unit ℝ Unit),
    newSnap 1 2 1 true ⟨1, 1, 9, false, false⟩ = some h ∧
    newSnap 1 2 1 true ⟨1, 1, 4, false, false⟩ = some h' ∧
    (h.setSnap (.maxIterations 4)).runSnap vanilla slope 2 true 4 () 0 = some r ∧
    h'.runSnap vanilla slope 2 true 4 () 0 = some r' ∧
    r.x = -(7 / 2) ∧ r'.x = -(13 / 4) := by
  have t9 : Snap.threshold 1 2 (Snap.ctorLoop 1 2 9).2.2 1 = some 8 := by
    have f2 : ⌊(2 : ℝ) * 2⌋₊ = 4 := by rw [show (2 : ℝ) * 2 = (4 : ℕ) by norm_num, Nat.floor_natCast]
    have f4 : ⌊(4 : ℝ) * 2⌋₊ = 8 := by rw [show (4 : ℝ) * 2 = (8 : ℕ) by norm_num, Nat.floor_natCast]
    have f8 : ⌊(2 : ℝ) ^ 3⌋₊ = 8 := by rw [show (2 : ℝ) ^ 3 = (8 : ℕ) by norm_num, Nat.floor_natCast]
    have hc : (Snap.ctorLoop 1 2 9).2.2 = 3 := by simp [Snap.ctorLoop, f2, f4]
    have he : Snap.exponent 3 1 = 3 := rfl
    rw [hc, Snap.threshold, he]
    simp [f8]
    norm_num
  have t4 : Snap.threshold 1 2 (Snap.ctorLoop 1 2 4).2.2 1 = some 2 := by
    have hc : (Snap.ctorLoop 1 2 4).2.2 = 1 := by simp [Snap.ctorLoop]
    have he : Snap.exponent 1 1 = 1 := rfl
    rw [hc, Snap.threshold, he]
    simp
    norm_num
  obtain ⟨r, hr, hx⟩ := runSnap_four 8
  obtain ⟨r', hr', hx'⟩ := runSnap_four 2
  refine ⟨_, _, r, r', newSnap_four ⟨1, 1, 9, false, false⟩ 8 rfl rfl t9,
    newSnap_four ⟨1, 1, 4, false, false⟩ 2 rfl rfl t4, hr, hr', ?_, ?_⟩
  · rw [hx]; simp [ensemble]
  · rw [hx']; simp [ensemble]; norm_num

end Ens.Sgd
