import Verif.Sgd.SnapshotRun
import Verif.Sgd.Textbook

/-
C203: how many snapshots; C204: the constructor; C205: reuse; C206: the schedule compared with SGDR.
-/

namespace Ens.Sgd

variable {U V M G E : Type}

/-! ### Runs return -/

theorem optimize_returns {W : Type} {env : Env W M G E} {p : Params} (hn : 0 < p.numFunctions)
    (hb : 0 < p.batchSize) (he : p.exactObjective = false) {fuel : Nat} (hf : p.actualMax ≤ fuel) (w : W)
    (x : M) : ∃ r, optimize env p fuel w x = .returned r := by
  unfold optimize
  rcases loop_inv hn hb fuel _ (start_inv w x : Inv env p (start env w x)) with
    ⟨h1, h2⟩ | ⟨s', h1, -, -⟩ | ⟨e', s', h1, h2, -⟩
  · omega
  · rw [h1]; simp [he]
  · rw [h1]
    cases e' with
    | bad => exact ⟨_, rfl⟩
    | tol => exact ⟨_, rfl⟩
    | loop => exact absurd rfl h2

theorem snapOptimize_returns [AddCommGroup M] [Module ℝ M] (up : UpdPol U ℝ M G) (u : User V M G E)
    {p : Params} (hn : 0 < p.numFunctions)
    (hb : 0 < p.batchSize) (he : p.exactObjective = false) {fuel : Nat} (hf : p.actualMax ≤ fuel)
    (reset : Bool) (o : SnapObj U M) (v : V) (x : M) :
    ∃ r, snapOptimize up u p reset fuel o v x = some r := by
  obtain ⟨q, hq⟩ := optimize_returns (env := mkEnv up (snapshotDecay M G) u) hn hb he hf
    (prologue up (snapshotDecay M G) reset x (o.prepare p).sgd, v) x
  unfold snapOptimize
  simp only [optimizeObj, hq]
  split
  · exact ⟨_, rfl⟩
  · exact ⟨_, rfl⟩

/-! ### C203: how many snapshots -/

theorem ctorLoop_count_mono (er : Nat) (mult : ℝ) {i j : Nat} (h : i ≤ j) :
    (Snap.ctorLoop er mult i).2.2 ≤ (Snap.ctorLoop er mult j).2.2 := by
  induction h with
  | refl => exact le_refl _
  | step h ih =>
    refine le_trans ih ?_
    rw [Snap.ctorLoop]
    split
    · exact Nat.le_succ _
    · exact le_refl _

theorem ctorLoop_le (er : Nat) {mult : ℝ} (hm : 0 ≤ mult) (k : Nat) :
    ((Snap.ctorLoop er mult k).1 : ℝ) ≤ er * mult ^ (Snap.ctorLoop er mult k).2.2 := by
  induction k with
  | zero => simp [Snap.ctorLoop]
  | succ k ih =>
    rw [Snap.ctorLoop]
    split
    · simp only
      calc ((⌊((Snap.ctorLoop er mult k).1 : ℝ) * mult⌋₊ : Nat) : ℝ)
          ≤ ((Snap.ctorLoop er mult k).1 : ℝ) * mult := Nat.floor_le (by positivity)
        _ ≤ (er * mult ^ (Snap.ctorLoop er mult k).2.2) * mult := mul_le_mul_of_nonneg_right ih hm
        _ = _ := by rw [pow_succ]; ring
    · exact ih

/-- The snapshots of a schedule whose threshold belongs to a cycle after the `lo`-th. -/
theorem after_count {er lo : Nat} {mult : ℝ} (hm : 1 ≤ mult) (hg : 1 ≤ er * (mult - 1)) (c : Snap)
    (h1 : c.epochRestart = er) (h2 : c.multFactor = mult) (h3 : c.nextRestart = er) (h4 : c.epoch = 0)
    (h5 : lo = 0 ∨ c.snapshotEpochs = ⌊(er : ℝ) * mult ^ (lo + 1)⌋₊) (shots : List M) (step : ℝ)
    (xs : List M) :
    (c.after shots step xs).2.1.length ≤ shots.length + ((Snap.ctorLoop er mult xs.length).2.2 - lo) := by
  induction xs using List.reverseRecOn with
  | nil => simp [Snap.after, Snap.ctorLoop]
  | append_singleton xs x ih =>
    obtain ⟨i1, i2, i3, i4, i5⟩ := Snap.after_ctor c shots step h4 (by rw [h3, h1]) xs
    rw [Snap.after_snoc]
    obtain ⟨-, -, -, -, -, u6⟩ := Snap.update_fields (c.after shots step xs).1
      (c.after shots step xs).2.1 (c.after shots step xs).2.2 x
    rw [u6, i1, i2, i3, i4, i5, h1, h2, List.length_append, List.length_singleton, Snap.ctorLoop]
    have hle := ctorLoop_le er (by linarith : (0 : ℝ) ≤ mult) xs.length
    have hlt : (Snap.ctorLoop er mult xs.length).2.2 < lo →
        ¬ ⌊((Snap.ctorLoop er mult xs.length).1 : ℝ) * mult⌋₊ ≥ c.snapshotEpochs := by
      intro hlo
      rcases h5 with h5 | h5
      · omega
      · rw [h5, not_le]
        have hlo' : (Snap.ctorLoop er mult xs.length).2.2 + 1 ≤ lo := hlo
        have hy : ((Snap.ctorLoop er mult xs.length).1 : ℝ) * mult ≤ er * mult ^ lo := by
          calc ((Snap.ctorLoop er mult xs.length).1 : ℝ) * mult
              ≤ (er * mult ^ (Snap.ctorLoop er mult xs.length).2.2) * mult :=
                mul_le_mul_of_nonneg_right hle (by linarith)
            _ = er * mult ^ ((Snap.ctorLoop er mult xs.length).2.2 + 1) := by rw [pow_succ]; ring
            _ ≤ er * mult ^ lo := mul_le_mul_of_nonneg_left (pow_le_pow_right₀ hm hlo') (Nat.cast_nonneg _)
        have hpow : (1 : ℝ) ≤ mult ^ lo := one_le_pow₀ hm
        have hgap : er * mult ^ lo + 1 ≤ er * mult ^ (lo + 1) := by
          rw [pow_succ]
          nlinarith
        have h0 : (0 : ℝ) ≤ ((Snap.ctorLoop er mult xs.length).1 : ℝ) * mult := by
          have : (0 : ℝ) ≤ mult := by linarith
          positivity
        calc ⌊((Snap.ctorLoop er mult xs.length).1 : ℝ) * mult⌋₊
            < ⌊((Snap.ctorLoop er mult xs.length).1 : ℝ) * mult⌋₊ + 1 := Nat.lt_succ_self _
          _ = ⌊((Snap.ctorLoop er mult xs.length).1 : ℝ) * mult + 1⌋₊ := (Nat.floor_add_one h0).symm
          _ ≤ ⌊(er : ℝ) * mult ^ (lo + 1)⌋₊ := Nat.floor_le_floor (by linarith)
    by_cases hk : xs.length > (Snap.ctorLoop er mult xs.length).2.1
    · simp only [hk, if_true]
      by_cases ht : ⌊((Snap.ctorLoop er mult xs.length).1 : ℝ) * mult⌋₊ ≥ c.snapshotEpochs
      · rw [if_pos ht, List.length_append, List.length_singleton]
        have : ¬ (Snap.ctorLoop er mult xs.length).2.2 < lo := fun hh => hlt hh ht
        omega
      · rw [if_neg ht]; omega
    · simp only [hk, if_false]
      exact ih

theorem prepare_keeps (p : Params) (o : SnapObj U M) :
    (o.prepare p).sgd.parent.epochRestart = o.sgd.parent.epochRestart ∧
    (o.prepare p).sgd.parent.multFactor = o.sgd.parent.multFactor ∧
    (o.prepare p).sgd.parent.nextRestart = o.sgd.parent.nextRestart ∧
    (o.prepare p).sgd.parent.epoch = o.sgd.parent.epoch ∧
    (o.prepare p).sgd.parent.snapshotEpochs = o.sgd.parent.snapshotEpochs :=
  ⟨rfl, rfl, rfl, rfl, rfl⟩

theorem snapObj_new_spec {er bs maxIt snapshots : Nat} {mult step : ℝ} {acc : Bool} {o : SnapObj U M}
    (ho : SnapObj.new er mult bs step maxIt snapshots acc = some o) :
    ∃ c, Snap.new er mult step maxIt snapshots = some c ∧ o = ⟨bs, acc, Obj.new step c⟩ := by
  unfold SnapObj.new at ho
  split at ho
  · rename_i c hc; cases ho; exact ⟨c, hc, rfl⟩
  · cases ho

/-- **C203**, the part that holds: `snapshots` is a maximum.  In the first `Optimize` of a new object
whose iteration limit is the one given to the constructor, at most `snapshots` snapshots are taken —
if the multiplier makes every cycle longer by at least one batch (`er * (mult - 1) ≥ 1`) and
`snapshots` does not exceed the number `R` of restarts in `maxIt` batches by more than one.  `R` is what
the constructor counts. -/
theorem C203_snapshot_limit_partial [AddCommGroup M] [Module ℝ M] (up : UpdPol U ℝ M G)
    (u : User V M G E) {p : Params} {reset : Bool} {fuel : Nat} {v : V} {x : M} {r : SnapRes U V M E}
    {proj : M → M} (hp : ∀ v x, (u.cbStep v x).2.1 = proj x)
    (hn : 0 < p.numFunctions) (hb : 0 < p.batchSize)
    {er bs snapshots : Nat} {mult step : ℝ} {acc : Bool} (hm : 1 ≤ mult) (hg : 1 ≤ er * (mult - 1))
    (h0 : p.maxIterations ≠ 0)
    (hs : snapshots ≤ (Snap.ctorLoop er mult p.maxIterations).2.2 + 1) (hs64 : snapshots < 2 ^ 64)
    (hR64 : (Snap.ctorLoop er mult p.maxIterations).2.2 < 2 ^ 64 - 1)
    {o : SnapObj U M} (ho : SnapObj.new er mult bs step p.maxIterations snapshots acc = some o)
    (h : snapOptimize up u p reset fuel o v x = some r) :
    ∃ shots, r.o.sgd.dec = some shots ∧ shots.length ≤ snapshots := by
  obtain ⟨c, hc, rfl⟩ := snapObj_new_spec ho
  obtain ⟨n1, n2, -, n4, -, n6, n7⟩ := new_spec hc
  obtain ⟨-, s2, -, -, -, -, l1, -, l3, -⟩ := snapOptimize_spec up u hp hn hb h
  refine ⟨_, s2, ?_⟩
  set R := (Snap.ctorLoop er mult p.maxIterations).2.2 with hRd
  have hmax : p.actualMax = p.maxIterations := by simp [Params.actualMax, h0]
  have hlen : ((updates r.trace).map proj).length ≤ p.maxIterations := by
    rw [List.length_map]; omega
  have := after_count (lo := R - snapshots) hm hg
    (((SnapObj.mk (U := U) (M := M) bs acc (Obj.new step c)).prepare p).sgd.parent) n1 n2 n4 n6 (by
      show _ ∨ c.snapshotEpochs = _
      rcases Nat.lt_or_ge snapshots R with h1 | h1
      · right
        unfold Snap.threshold at n7
        rw [exponent_eq hs hs64 hR64] at n7
        simp only at n7
        split at n7
        · simp only [Option.some.injEq] at n7
          rw [← n7]
          congr 3
          omega
        · cases n7
      · left; omega) [] step ((updates r.trace).map proj)
  refine le_trans this ?_
  have hmono := ctorLoop_count_mono er mult hlen
  rw [← hRd] at hmono
  simp only [List.length_nil, Nat.zero_add]
  omega

/-- One function, zero everywhere, silent callbacks. -/
def flat : User Unit ℝ ℝ Unit := { slope with evalGrad := fun v _ _ _ => (v, (), 0) }

theorem flat_quiet : Quiet flat (fun _ _ _ => (0 : ℝ)) id id :=
  ⟨fun _ _ _ _ => rfl, fun _ _ _ _ => rfl, fun _ _ => rfl, fun _ _ => rfl, fun _ _ _ _ => rfl,
    fun _ _ _ _ => rfl, fun _ => rfl, fun _ _ => rfl⟩

/-- One function, batch size 1, `k` iterations. -/
def steps (k : Nat) : Params := ⟨1, 1, k, false, false⟩

/-- On the flat function the coordinates of the inner run never move. -/
theorem flatRun (o : SnapObj Unit ℝ) (k : Nat) (hk : k ≠ 0) (x : ℝ) :
    ∃ r, snapOptimize vanilla flat (steps k) true k o () x = some r ∧
      (r.o.sgd.parent, r.o.sgd.dec, r.o.sgd.step) =
        (let a := (o.prepare (steps k)).sgd.parent.after (held o) o.sgd.step (List.replicate k x)
         (a.1, some a.2.1, a.2.2)) ∧
      r.o.sgd.isInit = true ∧ r.o.accumulate = o.accumulate ∧ r.o.batchSize = 1 ∧
      r.trace.getLast? = some (.endOpt x) ∧
      (o.accumulate = true → r.x = ensemble x
        ((o.prepare (steps k)).sgd.parent.after (held o) o.sgd.step (List.replicate k x)).2.1) := by
  obtain ⟨r, hr⟩ := snapOptimize_returns vanilla flat (p := steps k) (by simp [steps]) (by simp [steps]) rfl
    (fuel := k) (by simp [steps, Params.actualMax, hk]) true o () x
  obtain ⟨s1, s2, s3, s4, s5, s6, -, -, -, q, hq, ht, ha, -⟩ :=
    snapOptimize_spec vanilla flat (proj := id) (fun _ _ => rfl) (by simp [steps]) (by simp [steps]) hr
  obtain ⟨-, K, k1, k2, kx, kl⟩ := C149_sgd_is_textbook flat_quiet (by simp [steps]) hq
  have hlim : (if (steps k).maxIterations = 0 then 2 ^ 64 - 1 else (steps k).maxIterations) = k := by
    simp [steps, hk]
  rw [hlim] at k1 k2 kx kl
  set a := (o.prepare (steps k)).sgd.parent.after (held o) o.sgd.step (List.replicate k x) with had
  have hold : (prologue vanilla (snapshotDecay ℝ ℝ) true x (o.prepare (steps k)).sgd)
      = ⟨o.sgd.step, (o.prepare (steps k)).sgd.parent, (), held o⟩ := by
    have a1 : (o.prepare (steps k)).sgd.isInit = o.sgd.isInit := rfl
    have a2 : (o.prepare (steps k)).sgd.dec = o.sgd.dec := rfl
    have a3 : (o.prepare (steps k)).sgd.step = o.sgd.step := rfl
    unfold prologue held
    rw [a1, a2, a3]
    congr 1
    cases o.sgd.isInit <;> cases o.sgd.dec <;> rfl
  have run : ∀ j ≤ k, (Tb.next vanilla (snapshotDecay ℝ ℝ)
      ⟨(steps k).numFunctions, (steps k).batchSize, k, fun _ _ _ => 0, id, id⟩)^[j]
      ⟨0, o.sgd.step, (o.prepare (steps k)).sgd.parent, (), held o, x⟩
      = (let b := (o.prepare (steps k)).sgd.parent.after (held o) o.sgd.step (List.replicate j x)
         (⟨j, b.2.2, b.1, (), b.2.1, x⟩ : Tb Unit Snap (List ℝ) ℝ ℝ)) := by
    intro j
    induction j with
    | zero => intro _; rfl
    | succ j ih =>
      intro hj
      rw [Function.iterate_succ_apply', ih (by omega), List.replicate_succ', Snap.after_snoc]
      have e : min (min (steps k).batchSize (k - j)) ((steps k).numFunctions - j % (steps k).numFunctions)
          = 1 := by simp only [steps, Nat.mod_one]; omega
      simp only [Tb.next, vanilla, snapshotDecay, e, id, mul_zero, sub_zero]
  rw [hold] at k1 k2 kx kl
  simp only at k1 k2 kx kl
  have hK : K = k := by
    rcases Nat.lt_trichotomy K k with h | h | h
    · rw [run K (by omega)] at k1; simp only at k1; omega
    · exact h
    · have := k2 k h
      rw [run k (le_refl _)] at this; simp only at this; omega
  rw [hK, run k (le_refl _)] at kx kl
  simp only at kx kl
  have hd : q.w.1.dec = a.2.1 ∧ q.w.1.parent = a.1 ∧ q.w.1.step = a.2.2 := by rw [kl]; exact ⟨rfl, rfl, rfl⟩
  have hc : r.o.sgd = q.w.1.close ∧ (o.accumulate = true → r.x = ensemble q.x q.w.1.dec) := by
    have := hr
    unfold snapOptimize at this
    simp only at this
    rw [hq] at this
    simp only at this
    split at this
    · cases this; exact ⟨rfl, fun _ => rfl⟩
    · rename_i hacc; cases this; exact ⟨rfl, fun h => absurd h hacc⟩
  refine ⟨r, hr, ?_, s4, s5, s6, ?_, ?_⟩
  · rw [hc.1]
    simp only [Live.close, hd.1, hd.2.1, hd.2.2]
  · rw [ht, endOpt_last hq, kx]
  · intro h
    rw [hc.2 h, kx, hd.1]

end Ens.Sgd
