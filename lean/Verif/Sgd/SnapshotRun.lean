import Verif.Sgd.SnapshotProps
import Verif.Sgd.Props

/-
C202–C206: runs of `SnapshotSGDR`.
-/

namespace Ens.Sgd

variable {U V M G E : Type}

/-! ### The policy during a run -/

/-- During a run the members of the decay policy, the snapshots and the step size are those of
`Snap.after` at the coordinates after each batch. -/
theorem snap_batchwise (up : UpdPol U ℝ M G) (u : User V M G E) (p : Params) (proj : M → M)
    (hp : ∀ v x, (u.cbStep v x).2.1 = proj x) (c : Snap) (shots : List M) (step : ℝ) :
    Batchwise (mkEnv up (snapshotDecay M G) u) p
      (fun w ys => (w.1.parent, w.1.dec, w.1.step) = c.after shots step (ys.map proj)) := by
  constructor
  case batch =>
    intro s ys h
    rw [List.map_append, List.map_singleton, Snap.after_snoc, ← h]
    simp only [stepBatch, mkEnv, snapshotDecay, moved]
    simp only [hp]
  all_goals (intros; simp only [mkEnv]; assumption)

/-- The snapshots an object holds from earlier calls. -/
def held (o : SnapObj U M) : List M :=
  match o.sgd.isInit, o.sgd.dec with
  | true, some d => d
  | _, _ => []

/-- What one `Optimize` call does, in terms of the schedule. -/
theorem snapOptimize_spec [AddCommGroup M] [Module ℝ M] (up : UpdPol U ℝ M G) (u : User V M G E)
    {p : Params} {reset : Bool} {fuel : Nat} {o : SnapObj U M} {v : V} {x : M} {r : SnapRes U V M E}
    {proj : M → M} (hp : ∀ v x, (u.cbStep v x).2.1 = proj x)
    (hn : 0 < p.numFunctions) (hb : 0 < p.batchSize)
    (h : snapOptimize up u p reset fuel o v x = some r) :
    let c := (o.prepare p).sgd.parent
    let old := held o
    let a := c.after old o.sgd.step ((updates r.trace).map proj)
    r.o.sgd.parent = a.1 ∧ r.o.sgd.dec = some a.2.1 ∧ r.o.sgd.step = a.2.2 ∧ r.o.sgd.isInit = true ∧
    r.o.accumulate = o.accumulate ∧ r.o.batchSize = p.batchSize ∧
    (updates r.trace).length ≤ (visits r.trace).length ∧
      (visits r.trace).length ≤ (updates r.trace).length * p.batchSize ∧
      (visits r.trace).length ≤ p.actualMax ∧
    ∃ q, optimizeObj up (snapshotDecay M G) u p reset fuel (o.prepare p).sgd v x = .returned q ∧
      r.trace = q.trace ∧
      (o.accumulate = true → r.x = ensemble q.x a.2.1 ∧
        (r.v, r.obj) = sumFrom u r.x p.numFunctions 0 (q.w.2, u.zero)) ∧
      (o.accumulate = false → r.x = q.x ∧ r.obj = q.obj ∧ r.v = q.w.2) := by
  intro c old a
  unfold snapOptimize at h
  simp only at h
  cases hq : optimizeObj up (snapshotDecay M G) u p reset fuel (o.prepare p).sgd v x with
  | ub => rw [hq] at h; cases h
  | diverges => rw [hq] at h; cases h
  | returned q =>
    rw [hq] at h
    have hq' := hq
    unfold optimizeObj at hq'
    obtain ⟨b1, b2, b3, b4⟩ := optimize_batches (snap_batchwise up u p proj hp c old o.sgd.step) hn hb
      (w := (prologue up (snapshotDecay M G) reset x (o.prepare p).sgd, v)) (by
        simp only [prologue, Snap.after, List.map_nil, List.foldl_nil, Prod.mk.injEq]
        refine ⟨rfl, ?_, rfl⟩
        have a1 : (o.prepare p).sgd.isInit = o.sgd.isInit := rfl
        have a2 : (o.prepare p).sgd.dec = o.sgd.dec := rfl
        rw [a1, a2]
        show _ = held o
        unfold held
        cases o.sgd.isInit <;> cases o.sgd.dec <;> rfl) hq'
    have hbs : (o.prepare p).batchSize = p.batchSize := by
      show (if p.batchSize ≠ o.batchSize then p.batchSize else o.batchSize) = _
      split
      · rfl
      · rename_i hh; exact (not_not.1 hh).symm
    have hacc : (o.prepare p).accumulate = o.accumulate := rfl
    have e1 : q.w.1.parent = (c.after old o.sgd.step ((updates q.trace).map proj)).1 := by rw [← b1]
    have e2 : q.w.1.dec = (c.after old o.sgd.step ((updates q.trace).map proj)).2.1 := by rw [← b1]
    have e3 : q.w.1.step = (c.after old o.sgd.step ((updates q.trace).map proj)).2.2 := by rw [← b1]
    simp only at h
    split at h
    · rename_i ha
      cases h
      exact ⟨e1, by rw [← e2]; rfl, e3, rfl, rfl, hbs, b2, b3, b4, q, rfl, rfl,
        fun _ => ⟨by rw [← e2], rfl⟩, fun hf => by rw [ha] at hf; cases hf⟩
    · rename_i ha
      cases h
      exact ⟨e1, by rw [← e2]; rfl, e3, rfl, rfl, hbs, b2, b3, b4, q, rfl, rfl,
        fun hf => absurd hf ha, fun _ => ⟨rfl, rfl, rfl⟩⟩

/-! ### C202 -/

/-- The events end with the notification of the final coordinates of the inner run. -/
theorem endOpt_last {W : Type} {env : Env W M G E} {p : Params} {fuel : Nat} {w : W} {x : M}
    {r : Result W M E} (h : optimize env p fuel w x = .returned r) :
    r.trace.getLast? = some (.endOpt r.x) := by
  have fin : ∀ e s, (finish env e s).trace.getLast? = some (.endOpt (finish env e s).x) := by
    intro e s; simp [finish]
  unfold optimize at h
  split at h
  · cases h
  · cases h
  · cases h; exact fin _ _
  · cases h; exact fin _ _
  · split at h
    · split at h
      · cases h; exact fin _ _
      · cases h
    · cases h; exact fin _ _

theorem foldl_add_eq [AddCommGroup M] (x : M) (l : List M) : l.foldl (· + ·) x = x + l.sum := by
  induction l generalizing x with
  | nil => simp
  | cons a l ih => rw [List.foldl_cons, ih, List.sum_cons]; abel

theorem sumFrom_eq (u : User V M G E) (f : M → Nat → E) (hf : ∀ v x i, (u.evaluate v x i 1).2 = f x i)
    (x : M) (k i : Nat) (a : V × E) :
    (sumFrom u x k i a).2 = ((List.range' i k).map (f x)).foldl u.add a.2 := by
  induction k generalizing i a with
  | zero => rfl
  | succ k ih => rw [sumFrom, ih, List.range'_succ, List.map_cons, List.foldl_cons, hf]

/-- **C202** What the first `Optimize` of a new `SnapshotSGDR` (accumulating; natural multiplier
`m ≥ 2`) returns.  Let `R` be the number of restarts that fit in the `maxIt` batches the constructor
was told about, i.e. of the `j ≥ 1` with `restartAt er m j < maxIt`, and let at most `R + 1` snapshots be
asked for.  Let the step callbacks map coordinates by `proj`.  Then the snapshots held by the object are
the coordinates at the end of the batches `restartAt er m j`, `j > R - snapshots`; the coordinates
handed back are the mean of these snapshots and the final coordinates of the inner run; and the
returned value is the sum of all functions' values at the coordinates handed back. -/
theorem C202_ensemble [AddCommGroup M] [Module ℝ M] (up : UpdPol U ℝ M G) (u : User V M G E)
    {p : Params} {reset : Bool} {fuel : Nat} {v : V} {x : M} {r : SnapRes U V M E}
    {proj : M → M} (hp : ∀ v x, (u.cbStep v x).2.1 = proj x)
    {f : M → Nat → E} (hf : ∀ v x i, (u.evaluate v x i 1).2 = f x i)
    (hn : 0 < p.numFunctions) (hb : 0 < p.batchSize)
    {er m bs maxIt snapshots R : Nat} {step : ℝ} (her : 0 < er) (hm : 2 ≤ m)
    (hR : ∀ j, 1 ≤ j → (j ≤ R ↔ 1 + er * ∑ i ∈ Finset.range j, m ^ i < maxIt))
    (hs : snapshots ≤ R + 1) (hs64 : snapshots < 2 ^ 64) (hR64 : R < 2 ^ 64 - 1)
    {o : SnapObj U M} (ho : SnapObj.new er m bs step maxIt snapshots true = some o)
    (h : snapOptimize up u p reset fuel o v x = some r) :
    ∃ (shots : List M) (last : M),
      r.o.sgd.dec = some shots ∧
      shots = atRestarts er m (R - snapshots) ((updates r.trace).map proj) ∧
      r.trace.getLast? = some (.endOpt last) ∧
      ((shots.length : ℝ) + 1) • r.x = last + shots.sum ∧
      r.obj = ((List.range p.numFunctions).map (f r.x)).foldl u.add u.zero := by
  unfold SnapObj.new at ho
  split at ho
  · rename_i c hc
    cases ho
    obtain ⟨n1, n2, -, n4, -, n6, n7⟩ := new_spec hc
    obtain ⟨-, s2, -, -, -, -, -, -, -, q, hq, ht, ha, -⟩ := snapOptimize_spec up u hp hn hb h
    have hcount : (Snap.ctorLoop er m maxIt).2.2 = R := by
      have key := fun j hj => ctorLoop_count her (by omega : 0 < m) maxIt j hj
      have hR' : ∀ j, 1 ≤ j → (j ≤ R ↔ restartAt er m j < maxIt) := hR
      apply Nat.le_antisymm
      · rcases Nat.eq_zero_or_pos (Snap.ctorLoop er m maxIt).2.2 with h0 | h0
        · omega
        · exact (hR' _ h0).2 ((key _ h0).1 (le_refl _))
      · rcases Nat.eq_zero_or_pos R with h0 | h0
        · omega
        · exact (key _ h0).2 ((hR' _ h0).1 (le_refl _))
    rw [hcount] at n7
    have hth := threshold_eq hs hs64 hR64 n7
    have hsh : (((SnapObj.mk (U := U) (M := M) bs true (Obj.new step c)).prepare p).sgd.parent.after []
        step ((updates r.trace).map proj)).2.1
        = atRestarts er m (R - snapshots) ((updates r.trace).map proj) := by
      have := after_shots (lo := R - snapshots) her (by omega : 1 ≤ m)
        (((SnapObj.mk (U := U) (M := M) bs true (Obj.new step c)).prepare p).sgd.parent) n1 n2 n4 n6 (by
          show (2 ≤ m ∧ c.snapshotEpochs = _) ∨ _ ∧ c.snapshotEpochs ≤ _
          rcases Nat.lt_or_eq_of_le hs with h1 | h1
          · left; refine ⟨hm, ?_⟩; rw [hth]; congr 2; omega
          · right
            refine ⟨by omega, ?_⟩
            rw [hth, h1]
            simp only [Nat.sub_self, pow_zero, mul_one]
            exact Nat.le_mul_of_pos_right _ (by omega)) [] step ((updates r.trace).map proj)
      rw [this, List.nil_append]
    obtain ⟨hx, hv⟩ := ha rfl
    refine ⟨_, q.x, s2, ?_, ?_, ?_, ?_⟩
    · exact hsh
    · rw [ht]; exact endOpt_last hq
    · rw [hx]
      unfold ensemble
      rw [foldl_add_eq, smul_smul, mul_inv_cancel₀ (by positivity), one_smul]
    · have : r.obj = (sumFrom u r.x p.numFunctions 0 (q.w.2, u.zero)).2 := by rw [← hv]
      rw [this, sumFrom_eq u f hf, List.range_eq_range']
  · cases ho

end Ens.Sgd
