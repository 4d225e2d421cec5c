import Verif.Sgd.SnapshotMore

/-
C203 (exact number, refutation), C204 (constructor), C205 (reuse), C206 (same schedule as SGDR),
C207, C208 (warm restarts of SGDR).
-/

namespace Ens.Sgd

variable {U V M G E : Type}

theorem count_eq {er m : Nat} (her : 0 < er) (hm : 0 < m) {k R : Nat}
    (h1 : R = 0 ∨ restartAt er m R < k) (h2 : k ≤ restartAt er m (R + 1)) :
    (Snap.ctorLoop er m k).2.2 = R := by
  have key := fun j hj => ctorLoop_count her hm k j hj
  apply Nat.le_antisymm
  · by_contra hc
    have := (key (R + 1) (by omega)).1 (by omega)
    omega
  · rcases h1 with h1 | h1
    · omega
    · rcases Nat.eq_zero_or_pos R with h0 | h0
      · omega
      · exact (key R h0).2 h1

/-! ### C203 -/

/-- **C203** With a natural multiplier `m ≥ 2` and batches of one function, a first run that uses its
whole budget takes exactly `snapshots` snapshots, if that many restarts fit in the budget. -/
theorem C203_snapshot_number [AddCommGroup M] [Module ℝ M] (up : UpdPol U ℝ M G)
    (u : User V M G E) {p : Params} {reset : Bool} {fuel : Nat} {v : V} {x : M} {r : SnapRes U V M E}
    {proj : M → M} (hp : ∀ v x, (u.cbStep v x).2.1 = proj x)
    (hn : 0 < p.numFunctions) (hb : p.batchSize = 1)
    {er m bs snapshots : Nat} {step : ℝ} {acc : Bool} (her : 0 < er) (hm : 2 ≤ m)
    (hs : snapshots = 0 ∨ 1 + er * ∑ i ∈ Finset.range snapshots, m ^ i < p.maxIterations)
    (hs64 : p.maxIterations < 2 ^ 64)
    {o : SnapObj U M} (ho : SnapObj.new er m bs step p.maxIterations snapshots acc = some o)
    (h : snapOptimize up u p reset fuel o v x = some r)
    (hfull : (visits r.trace).length = p.maxIterations) :
    ∃ shots, r.o.sgd.dec = some shots ∧ shots.length = snapshots := by
  obtain ⟨c, hc, rfl⟩ := snapObj_new_spec ho
  obtain ⟨n1, n2, -, n4, -, n6, n7⟩ := new_spec hc
  obtain ⟨-, s2, -, -, -, -, l1, l2, -, -⟩ := snapOptimize_spec up u hp hn (by omega) h
  refine ⟨_, s2, ?_⟩
  obtain ⟨R, q1, q2, q3⟩ := ctorLoop_closed her (by omega : 0 < m) p.maxIterations
  have hcnt : (Snap.ctorLoop er m p.maxIterations).2.2 = R := by rw [q1]
  have hsR : snapshots ≤ R := by
    rcases hs with hs | hs
    · omega
    · rcases Nat.eq_zero_or_pos snapshots with h0 | h0
      · omega
      · rw [← hcnt]
        exact (ctorLoop_count her (by omega) _ _ h0).2 hs
  have hRlt : R < 2 ^ 64 - 1 := by
    rcases q3 with q3 | q3
    · omega
    · have hle : ∀ j, j + 1 ≤ restartAt er m j := by
        intro j
        induction j with
        | zero => simp [restartAt]
        | succ j ih =>
          rw [restartAt_succ]
          have : 0 < er * m ^ j := by positivity
          omega
      have := hle R
      omega
  rw [hcnt] at n7
  have hth := threshold_eq (by omega) (by omega) hRlt n7
  have := after_shots (lo := R - snapshots) her (by omega : 1 ≤ m)
    (((SnapObj.mk (U := U) (M := M) bs acc (Obj.new step c)).prepare p).sgd.parent) n1 n2 n4 n6
    (Or.inl ⟨hm, by
      show c.snapshotEpochs = _
      rw [hth]; congr 2; omega⟩) [] step ((updates r.trace).map proj)
  show (Snap.after _ [] step _).2.1.length = _
  rw [this, List.nil_append, atRestarts_length her (by omega), List.length_map]
  have hlen : (updates r.trace).length = p.maxIterations := by
    rw [hb, Nat.mul_one] at l2
    omega
  rw [hlen, hcnt]
  omega

/-- A schedule that takes a snapshot at every restart. -/
theorem after_all {er m : Nat} (her : 0 < er) (hm : 0 < m) (c : Snap) (h1 : c.epochRestart = er)
    (h2 : c.multFactor = m) (h3 : c.nextRestart = er) (h4 : c.epoch = 0)
    (h5 : c.snapshotEpochs ≤ er * m) (shots : List M) (step : ℝ) (xs : List M) :
    (c.after shots step xs).2.1 = shots ++ atRestarts er m 0 xs :=
  after_shots her hm c h1 h2 h3 h4 (Or.inr ⟨rfl, h5⟩) shots step xs

/-- **C203** is false in general: with `multFactor = 1` the cycle length never exceeds the threshold
of the constructor, and every restart takes a snapshot.  `epochRestart = 1`, one snapshot asked for,
four iterations: two snapshots. -/
theorem C203_snapshot_limit_refuted :
    ¬ ∀ (er bs snapshots : Nat) (mult step : ℝ) (o : SnapObj Unit ℝ) (p : Params) (fuel : Nat) (x : ℝ)
        (r : SnapRes Unit Unit ℝ Unit), p.maxIterations ≠ 0 → 0 < p.batchSize → 0 < p.numFunctions →
        1 ≤ mult → 0 < er →
        SnapObj.new er mult bs step p.maxIterations snapshots true = some o →
        snapOptimize vanilla flat p true fuel o () x = some r →
        ∃ shots, r.o.sgd.dec = some shots ∧ shots.length ≤ snapshots := by
  intro h
  have hcnt : (Snap.ctorLoop 1 ((1 : Nat) : ℝ) 4).2.2 = 2 :=
    count_eq (by norm_num) (by norm_num) (Or.inr (by simp [restartAt, Finset.sum_range_succ]))
      (by simp [restartAt, Finset.sum_range_succ])
  have hc : Snap.new 1 ((1 : Nat) : ℝ) 1 4 1 = some ⟨1, ((1 : Nat) : ℝ), 1, 1, 0, 0, 0, 1⟩ := by
    unfold Snap.new
    rw [hcnt]
    have : Snap.threshold 1 ((1 : Nat) : ℝ) 2 1 = some 1 := by
      unfold Snap.threshold
      simp
      norm_num
    rw [this]
  have ho : SnapObj.new (U := Unit) (M := ℝ) 1 ((1 : Nat) : ℝ) 1 1 (steps 4).maxIterations 1 true
      = some ⟨1, true, Obj.new 1 ⟨1, ((1 : Nat) : ℝ), 1, 1, 0, 0, 0, 1⟩⟩ := by
    unfold SnapObj.new
    show (match Snap.new 1 ((1 : Nat) : ℝ) 1 4 1 with
      | some c => some _
      | none => none) = _
    rw [hc]
  obtain ⟨r, hr, hd, -⟩ := flatRun ⟨1, true, Obj.new 1 ⟨1, ((1 : Nat) : ℝ), 1, 1, 0, 0, 0, 1⟩⟩ 4
    (by norm_num) 0
  obtain ⟨shots, e1, e2⟩ := h 1 1 1 _ 1 _ (steps 4) 4 0 r (by simp [steps]) (by simp [steps])
    (by simp [steps]) (by norm_num) (by norm_num) ho hr
  have e3 := congrArg (fun a => a.2.1) hd
  simp only at e3
  rw [e1] at e3
  simp only [Option.some.injEq] at e3
  have := after_all (er := 1) (m := 1) (by norm_num) (by norm_num)
    ((SnapObj.mk (U := Unit) (M := ℝ) 1 true (Obj.new 1 ⟨1, ((1 : Nat) : ℝ), 1, 1, 0, 0, 0, 1⟩)).prepare
      (steps 4)).sgd.parent rfl rfl rfl rfl (by simp [SnapObj.prepare, Obj.new]) [] (1 : ℝ)
      (List.replicate 4 (0 : ℝ))
  have e4 : shots = atRestarts 1 1 0 (List.replicate 4 (0 : ℝ)) := by
    rw [e3]; exact this
  have e5 := atRestarts_length (er := 1) (m := 1) (by norm_num) (by norm_num) 0
    (List.replicate 4 (0 : ℝ))
  rw [← e4, List.length_replicate, hcnt] at e5
  omega

/-! ### C204 -/

/-- **C204**, the part that holds: with a natural multiplier, at least two snapshots asked for, and at
most one more than the restarts that fit in the budget, the constructor computes a threshold. -/
theorem C204_constructor_partial {er m maxIt snapshots : Nat} {step : ℝ} (her : 0 < er) (hm : 1 ≤ m)
    (hs : 2 ≤ snapshots)
    (hR : 1 + er * ∑ i ∈ Finset.range (snapshots - 1), m ^ i < maxIt) (h64 : maxIt < 2 ^ 64) :
    ∃ c, Snap.new er m step maxIt snapshots = some c := by
  obtain ⟨R, q1, q2, q3⟩ := ctorLoop_closed her (by omega : 0 < m) maxIt
  have hcnt : (Snap.ctorLoop er m maxIt).2.2 = R := by rw [q1]
  have hsR : snapshots - 1 ≤ R := by
    rw [← hcnt]
    exact (ctorLoop_count her (by omega) _ _ (by omega)).2 hR
  have hRm : restartAt er m R < maxIt := by
    rcases q3 with q3 | q3
    · omega
    · exact q3
  have hle : ∀ j, j + 1 ≤ restartAt er m j := by
    intro j
    induction j with
    | zero => simp [restartAt]
    | succ j ih =>
      rw [restartAt_succ]
      have : 0 < er * m ^ j := by positivity
      omega
  have hR' := hle R
  have hpow : er * m ^ (R + 1 - snapshots) < 2 ^ 64 := by
    have h1 : er * m ^ (R + 1 - snapshots) ≤ er * m ^ (R - 1) :=
      Nat.mul_le_mul_left _ (Nat.pow_le_pow_right (by omega) (by omega))
    have h2 := restartAt_succ er m (R - 1)
    rw [show R - 1 + 1 = R by omega] at h2
    omega
  unfold Snap.new
  rw [hcnt]
  have hth : Snap.threshold er m R snapshots = some (er * m ^ (R + 1 - snapshots)) := by
    unfold Snap.threshold
    rw [exponent_eq (by omega) (by omega) (by omega)]
    have hc : ((er : ℝ) * (m : ℝ) ^ (R + 1 - snapshots)) = ((er * m ^ (R + 1 - snapshots) : Nat) : ℝ) := by
      push_cast; rfl
    simp only
    rw [hc, Nat.floor_natCast]
    rw [if_pos (by exact_mod_cast hpow)]
  rw [hth]
  exact ⟨_, rfl⟩

/-- If two or more snapshots too many are asked for, the unsigned exponent wraps around and the
constructor converts a number beyond `size_t`. -/
theorem new_none {er maxIt snapshots : Nat} {mult step : ℝ} (her : 0 < er) (hm : 2 ≤ mult)
    (hs : (Snap.ctorLoop er mult maxIt).2.2 + 2 ≤ snapshots) (h63 : snapshots ≤ 2 ^ 63) :
    Snap.new er mult step maxIt snapshots = none := by
  unfold Snap.new
  set R := (Snap.ctorLoop er mult maxIt).2.2
  have he : 64 ≤ Snap.exponent R snapshots := by
    unfold Snap.exponent
    omega
  have : Snap.threshold er mult R snapshots = none := by
    unfold Snap.threshold
    simp only
    rw [if_neg]
    rw [not_lt]
    have h1 : (2 : ℝ) ^ 64 ≤ mult ^ Snap.exponent R snapshots :=
      calc (2 : ℝ) ^ 64 ≤ 2 ^ Snap.exponent R snapshots := pow_le_pow_right₀ (by norm_num) he
        _ ≤ mult ^ Snap.exponent R snapshots := pow_le_pow_left₀ (by norm_num) hm _
    have h2 : (1 : ℝ) ≤ er := by exact_mod_cast her
    calc (2 : ℝ) ^ 64 ≤ mult ^ Snap.exponent R snapshots := h1
      _ ≤ er * mult ^ Snap.exponent R snapshots := le_mul_of_one_le_left (by positivity) h2
  rw [this]

/-- **C204** is false: with the defaults `epochRestart = 50`, `multFactor = 2`, `snapshots = 5` and no
iteration limit (`maxIterations = 0`, documented), or 500 iterations, the constructor's behaviour is
undefined. -/
theorem C204_constructor_refuted :
    (¬ ∀ (maxIt : Nat), ∃ c, Snap.new 50 2 0.01 maxIt 5 = some c) ∧
    Snap.new 50 2 0.01 0 5 = none ∧ Snap.new 50 2 0.01 500 5 = none := by
  have h0 : Snap.new 50 2 0.01 0 5 = none :=
    new_none (by norm_num) (le_refl _) (by simp [Snap.ctorLoop]) (by norm_num)
  refine ⟨fun h => ?_, h0, ?_⟩
  · obtain ⟨c, hc⟩ := h 0
    rw [h0] at hc
    cases hc
  · refine new_none (by norm_num) (le_refl _) ?_ (by norm_num)
    have : (Snap.ctorLoop 50 ((2 : Nat) : ℝ) 500).2.2 = 3 :=
      count_eq (by norm_num) (by norm_num) (Or.inr (by simp [restartAt, Finset.sum_range_succ]))
        (by simp [restartAt, Finset.sum_range_succ])
    have h2 : ((2 : Nat) : ℝ) = 2 := by norm_num
    rw [h2] at this
    rw [this]

/-- Non-vacuity of `C204_constructor_partial`: the defaults. -/
example : ∃ c, Snap.new 50 ((2 : Nat) : ℝ) 0.01 100000 5 = some c :=
  C204_constructor_partial (by norm_num) (by norm_num) (by norm_num)
    (by simp [Finset.sum_range_succ]) (by norm_num)

/-! ### C205: reuse -/

theorem after_prefix (c : Snap) (shots : List M) (step : ℝ) (xs : List M) :
    ∃ new, (c.after shots step xs).2.1 = shots ++ new ∧ new.Sublist xs := by
  induction xs using List.reverseRecOn with
  | nil => exact ⟨[], by simp [Snap.after], List.Sublist.refl _⟩
  | append_singleton xs x ih =>
    obtain ⟨new, h, hsub⟩ := ih
    rw [Snap.after_snoc]
    obtain ⟨-, -, -, -, -, u6⟩ := Snap.update_fields (c.after shots step xs).1
      (c.after shots step xs).2.1 (c.after shots step xs).2.2 x
    rw [u6, h]
    split
    · split
      · exact ⟨new ++ [x], by rw [List.append_assoc], hsub.append (List.Sublist.refl _)⟩
      · exact ⟨new, rfl, hsub.trans (List.sublist_append_left _ _)⟩
    · exact ⟨new, rfl, hsub.trans (List.sublist_append_left _ _)⟩

/-- **C205**, the part that holds: whatever its history, an accumulating object hands back the mean of
the final coordinates of the inner run, the snapshots it held before, and snapshots that are
coordinates this run went through, in order; and it holds these snapshots afterwards.  So on an object
that holds none the result depends on this call only. -/
theorem C205_reuse_partial [AddCommGroup M] [Module ℝ M] (up : UpdPol U ℝ M G) (u : User V M G E)
    {p : Params} {reset : Bool} {fuel : Nat} {o : SnapObj U M} {v : V} {x : M} {r : SnapRes U V M E}
    {proj : M → M} (hp : ∀ v x, (u.cbStep v x).2.1 = proj x)
    (hn : 0 < p.numFunctions) (hb : 0 < p.batchSize) (hacc : o.accumulate = true)
    (h : snapOptimize up u p reset fuel o v x = some r) :
    ∃ (new : List M) (last : M), new.Sublist ((updates r.trace).map proj) ∧
      held r.o = held o ++ new ∧ r.trace.getLast? = some (.endOpt last) ∧
      (((held o).length : ℝ) + new.length + 1) • r.x = last + (held o).sum + new.sum := by
  obtain ⟨-, s2, -, s4, -, -, -, -, -, q, hq, ht, ha, -⟩ := snapOptimize_spec up u hp hn hb h
  obtain ⟨new, hnew, hsub⟩ := after_prefix (o.prepare p).sgd.parent (held o) o.sgd.step
    ((updates r.trace).map proj)
  rw [hnew] at s2 ha
  refine ⟨new, q.x, hsub, ?_, by rw [ht]; exact endOpt_last hq, ?_⟩
  · have : ∀ o' : SnapObj U M, o'.sgd.isInit = true → ∀ d, o'.sgd.dec = some d → held o' = d := by
      intro o' h1 d h2
      unfold held
      rw [h1, h2]
    exact this _ s4 _ s2
  · rw [(ha hacc).1]
    unfold ensemble
    have h0 : ((held o ++ new).length : ℝ) = (held o).length + new.length := by
      rw [List.length_append]; push_cast; rfl
    rw [h0, foldl_add_eq, smul_smul, mul_inv_cancel₀ (by positivity), one_smul, List.sum_append, add_assoc]

/-- **C205** is false: `resetPolicy = true` does not make a second call independent of the first.  On a
function that is zero everywhere an object that optimized from 0 before hands back, starting from 8,
coordinates different from 8, although the inner run of that call ended at 8. -/
theorem C205_reuse_refuted :
    ∃ (o : SnapObj Unit ℝ) (r₁ r₂ : SnapRes Unit Unit ℝ Unit),
      SnapObj.new 1 2 1 1 3 1 true = some o ∧
      snapOptimize vanilla flat (steps 3) true 3 o () 0 = some r₁ ∧
      snapOptimize vanilla flat (steps 3) true 3 r₁.o () 8 = some r₂ ∧
      r₂.trace.getLast? = some (.endOpt 8) ∧ r₂.x ≠ 8 := by
  have h2 : ((2 : Nat) : ℝ) = 2 := by norm_num
  have hcnt : (Snap.ctorLoop 1 ((2 : Nat) : ℝ) 3).2.2 = 1 :=
    count_eq (by norm_num) (by norm_num) (Or.inr (by simp [restartAt]))
      (by simp [restartAt, Finset.sum_range_succ])
  rw [h2] at hcnt
  have hc : Snap.new 1 2 1 3 1 = some ⟨1, 2, 1, 1, 0, 0, 0, 2⟩ := by
    unfold Snap.new
    rw [hcnt]
    have : Snap.threshold 1 2 1 1 = some 2 := by
      unfold Snap.threshold
      have : Snap.exponent 1 1 = 1 := by decide
      rw [this]
      norm_num
    rw [this]
  set c : Snap := ⟨1, 2, 1, 1, 0, 0, 0, 2⟩ with hcd
  set o : SnapObj Unit ℝ := ⟨1, true, Obj.new 1 c⟩ with hod
  have ho : SnapObj.new (U := Unit) (M := ℝ) 1 2 1 1 3 1 true = some o := by
    unfold SnapObj.new; rw [hc]
  obtain ⟨r₁, hr₁, hd₁, hi₁, ha₁, hb₁, -⟩ := flatRun o 3 (by norm_num) 0
  obtain ⟨r₂, hr₂, hd₂, hi₂, ha₂, hb₂, hl₂, hx₂⟩ := flatRun r₁.o 3 (by norm_num) 8
  have s1 : (((o.prepare (steps 3)).sgd.parent).after (held o) o.sgd.step (List.replicate 3 (0 : ℝ))).2.1
      = atRestarts 1 2 0 (List.replicate 3 (0 : ℝ)) := by
    have := after_all (er := 1) (m := 2) (by norm_num) (by norm_num) ((o.prepare (steps 3)).sgd.parent)
      rfl h2.symm rfl rfl (by simp [SnapObj.prepare, hod, Obj.new, hcd]) [] (1 : ℝ) (List.replicate 3 (0 : ℝ))
    exact this
  have l1 := atRestarts_length (er := 1) (m := 2) (by norm_num) (by norm_num) 0 (List.replicate 3 (0 : ℝ))
  rw [List.length_replicate, h2, hcnt] at l1
  have held₁ : ∃ d, held r₁.o = d ∧ d.length = 1 ∧ d.sum = 0 := by
    have e : r₁.o.sgd.dec = some (atRestarts 1 2 0 (List.replicate 3 (0 : ℝ))) := by
      have := congrArg (fun a => a.2.1) hd₁
      simp only at this
      rw [this, s1]
    refine ⟨_, rfl, ?_, ?_⟩
    · unfold held; rw [hi₁, e]; exact l1
    · unfold held; rw [hi₁, e]
      apply List.sum_eq_zero
      intro y hy
      unfold atRestarts at hy
      rw [List.mem_filterMap] at hy
      obtain ⟨k, -, hk⟩ := hy
      split at hk
      · rw [List.getElem?_eq_some_iff] at hk
        obtain ⟨hlt, hk⟩ := hk
        rw [List.getElem_replicate] at hk
        exact hk.symm
      · cases hk
  obtain ⟨d, hd, hdl, hds⟩ := held₁
  obtain ⟨new, hnew, hsub⟩ := after_prefix (r₁.o.prepare (steps 3)).sgd.parent (held r₁.o) r₁.o.sgd.step
    (List.replicate 3 (8 : ℝ))
  refine ⟨o, r₁, r₂, ho, hr₁, hr₂, hl₂, ?_⟩
  · rw [hx₂ (by rw [ha₁]), hnew, hd]
    unfold ensemble
    have hnewl : ∃ n, new = List.replicate n 8 := by
      obtain ⟨n, -, hn⟩ := List.sublist_replicate_iff.1 hsub
      exact ⟨n, hn⟩
    obtain ⟨n, hn⟩ := hnewl
    rw [foldl_add_eq, List.sum_append, hds, hn, List.length_append, hdl, List.sum_replicate,
      List.length_replicate, smul_eq_mul, nsmul_eq_mul]
    push_cast
    have : (0 : ℝ) ≤ n := Nat.cast_nonneg n
    intro hh
    rw [inv_mul_eq_iff_eq_mul₀ (by positivity)] at hh
    linarith

/-- Non-vacuity of the run theorems: a first run that takes its one snapshot. -/
example : ∃ (o : SnapObj Unit ℝ) (r : SnapRes Unit Unit ℝ Unit),
    SnapObj.new 1 ((2 : Nat) : ℝ) 1 1 (steps 3).maxIterations 1 true = some o ∧
    snapOptimize vanilla flat (steps 3) true 3 o () 0 = some r ∧
    (0 < 1 + 1 * ∑ i ∈ Finset.range 1, 2 ^ i ∧ 1 + 1 * ∑ i ∈ Finset.range 1, 2 ^ i < (steps 3).maxIterations) := by
  obtain ⟨o, r₁, -, ho, hr, -⟩ := C205_reuse_refuted
  refine ⟨o, r₁, ?_, hr, by simp, by simp [steps]⟩
  have h2 : ((2 : Nat) : ℝ) = 2 := by norm_num
  rw [h2]
  exact ho

/-! ### C206: the schedule is that of SGDR -/

/-- The part of the members that `CyclicalDecay` has too. -/
def Snap.cyclic (c : Snap) : Cyclic :=
  ⟨c.epochRestart, c.multFactor, c.constStepSize, c.nextRestart, c.batchRestart, c.epochBatches, c.epoch⟩

theorem update_cyclic (c : Snap) (shots : List M) (step : ℝ) (x : M) :
    ((c.update shots step x).1.cyclic, (c.update shots step x).2.2) = c.cyclic.update step := by
  unfold Snap.update Cyclic.update Snap.cyclic
  by_cases h1 : c.epoch ≥ c.epochRestart <;> by_cases h2 : c.epoch > c.nextRestart <;> simp [h1, h2]

theorem after_cyclic (c : Snap) (shots : List M) (step : ℝ) (xs : List M) :
    ((c.after shots step xs).1.cyclic, (c.after shots step xs).2.2) = c.cyclic.run step xs.length := by
  induction xs using List.reverseRecOn with
  | nil => rfl
  | append_singleton xs x ih =>
    rw [Snap.after_snoc, update_cyclic, List.length_append, List.length_singleton, Cyclic.run, ← ih]

/-- **C206**, the part that holds: the first run of a new `SnapshotSGDR` whose batch size is the one given
to the constructor adjusts the step size exactly as SGDR with the same settings does: after `k` batches
it is the step size of SGDR's schedule after `k` batches. -/
theorem C206_same_schedule_partial [AddCommGroup M] [Module ℝ M] (up : UpdPol U ℝ M G)
    (u : User V M G E) {p : Params} {reset : Bool} {fuel : Nat} {v : V} {x : M} {r : SnapRes U V M E}
    {proj : M → M} (hp : ∀ v x, (u.cbStep v x).2.1 = proj x)
    (hn : 0 < p.numFunctions) (hb : 0 < p.batchSize) {er maxIt snapshots : Nat} {mult step : ℝ} {acc : Bool}
    {o : SnapObj U M} (ho : SnapObj.new er mult p.batchSize step maxIt snapshots acc = some o)
    (h : snapOptimize up u p reset fuel o v x = some r) :
    r.o.sgd.step =
      ((Cyclic.start er mult step ((p.numFunctions : ℝ) / p.batchSize)).run step (updates r.trace).length).2 := by
  obtain ⟨c, hc, rfl⟩ := snapObj_new_spec ho
  obtain ⟨n1, n2, n3, n4, n5, n6, -⟩ := new_spec hc
  obtain ⟨-, -, s3, -⟩ := snapOptimize_spec up u hp hn hb h
  have := after_cyclic ((SnapObj.mk (U := U) (M := M) p.batchSize acc (Obj.new step c)).prepare p).sgd.parent
    (held (SnapObj.mk (U := U) (M := M) p.batchSize acc (Obj.new step c))) step ((updates r.trace).map proj)
  have hs := congrArg Prod.snd this
  simp only [List.length_map] at hs
  rw [s3]
  refine Eq.trans hs ?_
  congr 2
  simp [Snap.cyclic, SnapObj.prepare, Obj.new, Cyclic.start, Cyclic.new, n1, n2, n3, n4, n5, n6]

/-- **C206** is false after the user has changed the batch size: the run after the change still counts
batches per epoch with the old one.  Two functions, constructed with batches of 2, `BatchSize() = 1`
before `Optimize`: after three batches the step size is 0 where SGDR's is half of the initial one. -/
theorem C206_same_schedule_refuted :
    ¬ ∀ (o : SnapObj Unit ℝ) (p : Params) (er bs maxIt snapshots : Nat) (mult step : ℝ) (xs : List ℝ),
        0 < p.batchSize → 0 < bs → 0 < p.numFunctions →
        SnapObj.new er mult bs step maxIt snapshots true = some o →
        ((o.prepare p).sgd.parent.after (held o) o.sgd.step xs).2.2 =
        ((Cyclic.start er mult step ((p.numFunctions : ℝ) / p.batchSize)).run step xs.length).2 := by
  intro h
  obtain ⟨c, hc⟩ := C204_constructor_partial (er := 1) (m := 2) (maxIt := 10) (snapshots := 2) (step := 1)
    (by norm_num) (by norm_num) (by norm_num) (by simp) (by norm_num)
  obtain ⟨n1, n2, n3, n4, n5, n6, -⟩ := new_spec hc
  have ho : SnapObj.new (U := Unit) (M := ℝ) 1 ((2 : Nat) : ℝ) 2 1 10 2 true
      = some ⟨2, true, Obj.new 1 c⟩ := by
    unfold SnapObj.new; rw [hc]
  have := h _ ⟨2, 1, 10, false, false⟩ 1 2 10 2 _ 1 [0, 0, 0] (by norm_num) (by norm_num) (by norm_num) ho
  have hs := congrArg Prod.snd (after_cyclic
    ((SnapObj.mk (U := Unit) (M := ℝ) 2 true (Obj.new 1 c)).prepare ⟨2, 1, 10, false, false⟩).sgd.parent
    (held (SnapObj.mk (U := Unit) (M := ℝ) 2 true (Obj.new 1 c))) 1 [0, 0, 0])
  simp only at hs
  have e : ((SnapObj.mk (U := Unit) (M := ℝ) 2 true (Obj.new 1 c)).prepare
      ⟨2, 1, 10, false, false⟩).sgd.parent.cyclic = Cyclic.start 1 2 1 1 := by
    simp [Snap.cyclic, SnapObj.prepare, Obj.new, Cyclic.start, Cyclic.new, n1, n2, n3, n4, n5, n6]
  rw [e] at hs
  have h0 : ((Cyclic.start 1 2 1 1).run 1 3).2 = 0 := by
    simp [Cyclic.run, Cyclic.update, Cyclic.new, Cyclic.start]
  have hcos : Real.cos (2⁻¹ * Real.pi) = 0 := by
    rw [show 2⁻¹ * Real.pi = Real.pi / 2 by ring]; exact Real.cos_pi_div_two
  have h1 : ((Cyclic.start 1 2 1 2).run 1 3).2 = 1 / 2 := by
    simp [Cyclic.run, Cyclic.update, Cyclic.new, Cyclic.start, hcos]
    norm_num
  have hs' : ((SnapObj.mk (U := Unit) (M := ℝ) 2 true (Obj.new 1 c)).prepare
      ⟨2, 1, 10, false, false⟩ |>.sgd.parent.after (held (SnapObj.mk (U := Unit) (M := ℝ) 2 true (Obj.new 1 c)))
      (1 : ℝ) [0, 0, 0]).2.2 = 0 := hs.trans h0
  have h3 : ((Cyclic.start 1 ((2 : Nat) : ℝ) 1 (((2 : Nat) : ℝ) / ((1 : Nat) : ℝ))).run 1 3).2 = 1 / 2 := by
    rw [← h1]; norm_num
  have h4 : (0 : ℝ) = 1 / 2 := by
    rw [← h3, ← hs']
    exact this
  norm_num at h4

/-! ### C207, C208: warm restarts of SGDR -/

/-- `C207`, the part that holds: with multiplier 1 (cycles of equal length), the batch after a restart
sets the full step size again. -/
theorem C207_warm_restart_partial {er : Nat} (s eb : ℝ) (k : Nat)
    (hk : ((Cyclic.start er 1 s eb).run s (k + 1)).1.nextRestart
      ≠ ((Cyclic.start er 1 s eb).run s k).1.nextRestart) :
    ((Cyclic.start er 1 s eb).run s (k + 2)).2 = s := by
  have inv : ∀ k, ((Cyclic.start er 1 s eb).run s k).1.epochRestart = er ∧
      ((Cyclic.start er 1 s eb).run s k).1.multFactor = 1 ∧
      ((Cyclic.start er 1 s eb).run s k).1.epoch = k ∧
      er ≤ ((Cyclic.start er 1 s eb).run s k).1.nextRestart ∧
      ((Cyclic.start er 1 s eb).run s k).1.constStepSize = s := by
    intro k
    induction k with
    | zero => exact ⟨rfl, rfl, rfl, le_refl _, rfl⟩
    | succ k ih =>
      obtain ⟨i1, i2, i3, i4, i5⟩ := ih
      rw [Cyclic.run]
      generalize (Cyclic.start er 1 s eb).run s k = q at *
      obtain ⟨⟨a, b, c, d, e, f, g⟩, t⟩ := q
      simp only at i1 i2 i3 i4 i5
      subst i1 i2 i3 i5
      simp only [Cyclic.update]
      by_cases h1 : g ≥ a <;> by_cases h2 : g > d <;> simp [h1, h2] <;> omega
  obtain ⟨i1, i2, i3, i4, i5⟩ := inv k
  obtain ⟨j1, j2, j3, j4, j5⟩ := inv (k + 1)
  have hb : ((Cyclic.start er 1 s eb).run s (k + 1)).1.batchRestart = 0 ∧
      ((Cyclic.start er 1 s eb).run s k).1.nextRestart < k := by
    rw [Cyclic.run] at hk ⊢
    generalize (Cyclic.start er 1 s eb).run s k = q at *
    simp only [Cyclic.update] at hk ⊢
    by_cases h1 : q.1.epoch ≥ q.1.epochRestart <;> by_cases h2 : q.1.epoch > q.1.nextRestart <;>
      simp [h1, h2] at hk ⊢ <;> omega
  rw [Cyclic.run, C72_sgdr_restart_full_step _ _ hb.1 (by rw [j1, j3]; omega), j5]

/-- **C207** is false for `multFactor > 1`: the period after a restart is already multiplied when the
policy asks whether it has come to the epoch where decay is applied, so the step size stays at what the
previous cycle decayed to.  `epochRestart = 3`, `multFactor = 2`, one batch per epoch: at the end of batch
4 there is a restart, and the step size that batches 5 and 6 use is 0. -/
theorem C207_warm_restart_refuted :
    (¬ ∀ (er : Nat) (mult s eb : ℝ) (k : Nat), 1 ≤ mult → 0 < er → 1 ≤ eb →
        ((Cyclic.start er mult s eb).run s (k + 1)).1.nextRestart
          ≠ ((Cyclic.start er mult s eb).run s k).1.nextRestart →
        ((Cyclic.start er mult s eb).run s (k + 2)).2 = s) ∧
    ((Cyclic.start 3 2 1 1).run 1 5).2 = 0 ∧ ((Cyclic.start 3 2 1 1).run 1 6).2 = 0 := by
  have f : ⌊(3 : ℝ) * 2⌋₊ = 6 := by norm_num
  have u4 : (Cyclic.start 3 2 1 1).run 1 4 = (⟨3, 2, 1, 3, 1, 1, 4⟩, 1) := by
    simp [Cyclic.run, Cyclic.update, Cyclic.new, Cyclic.start]
    norm_num
  have u5 : (Cyclic.start 3 2 1 1).run 1 5 = (⟨6, 2, 1, 9, 0, 1, 5⟩, 0) := by
    rw [Cyclic.run, u4]
    simp [Cyclic.update, f]
  have u6 : (Cyclic.start 3 2 1 1).run 1 6 = (⟨6, 2, 1, 9, 0, 1, 6⟩, 0) := by
    rw [Cyclic.run, u5]
    simp [Cyclic.update]
  refine ⟨fun h => ?_, by rw [u5], by rw [u6]⟩
  have := h 3 2 1 1 4 (by norm_num) (by norm_num) (le_refl _) (by rw [u5, u4]; simp)
  rw [u6] at this
  norm_num at this

/-- **C208**, the part that holds: while a cycle has not gone beyond the number of batches per epoch, the
step size does not increase from one batch to the next. -/
theorem C208_annealing_partial (c : Cyclic) (s : ℝ) (hc : 0 ≤ c.constStepSize)
    (he : c.epochRestart ≤ c.epoch) (hno : c.epoch ≤ c.nextRestart)
    (hb : (c.batchRestart : ℝ) + 1 ≤ c.epochBatches) :
    ((c.update s).1.update (c.update s).2).2 ≤ (c.update s).2 := by
  have h1 : c.epoch ≥ c.epochRestart := he
  have h2 : ¬ c.epoch > c.nextRestart := by omega
  have h3 : c.epoch + 1 ≥ c.epochRestart := by omega
  have hpos : 0 < c.epochBatches := by
    have : (0 : ℝ) ≤ c.batchRestart := Nat.cast_nonneg _
    linarith
  have hcos : Real.cos (((c.batchRestart + 1 : Nat) : ℝ) / c.epochBatches * Real.pi)
      ≤ Real.cos ((c.batchRestart : ℝ) / c.epochBatches * Real.pi) := by
    apply Real.cos_le_cos_of_nonneg_of_le_pi
    · positivity
    · have : ((c.batchRestart + 1 : Nat) : ℝ) / c.epochBatches ≤ 1 := by
        rw [div_le_one hpos]; push_cast; exact hb
      calc _ ≤ 1 * Real.pi := mul_le_mul_of_nonneg_right this Real.pi_pos.le
        _ = Real.pi := one_mul _
    · apply mul_le_mul_of_nonneg_right _ Real.pi_pos.le
      apply div_le_div_of_nonneg_right _ hpos.le
      push_cast; linarith
  have e1 : (c.update s).1.epoch = c.epoch + 1 ∧ (c.update s).1.epochRestart = c.epochRestart ∧
      (c.update s).1.batchRestart = c.batchRestart + 1 ∧ (c.update s).1.epochBatches = c.epochBatches ∧
      (c.update s).1.constStepSize = c.constStepSize ∧
      (c.update s).2 = 0.5 * c.constStepSize * (1 + Real.cos ((c.batchRestart / c.epochBatches) * Real.pi)) := by
    simp [Cyclic.update, h1, h2]
  obtain ⟨a1, a2, a3, a4, a5, a6⟩ := e1
  have e2 : ((c.update s).1.update (c.update s).2).2 = 0.5 * c.constStepSize *
      (1 + Real.cos (((c.batchRestart + 1 : Nat) / c.epochBatches) * Real.pi)) := by
    rw [Cyclic.update]
    simp only [a1, a2, a3, a4, a5, h3, if_true]
  rw [e2, a6]
  apply mul_le_mul_of_nonneg_left _ (by positivity)
  linarith

/-- **C208** is false in general: the cosine runs with the batches per epoch, not with the length of the
cycle (the comment in the code writes `T_cur/T_i`), so in a cycle longer than an epoch the step size
rises again.  `epochRestart = 4`, `multFactor = 1`, one batch per epoch: from batch 7 to batch 8, with no
restart at either, it rises from 0 to the full step size. -/
theorem C208_annealing_refuted :
    ¬ ∀ (er : Nat) (mult s eb : ℝ) (k : Nat), 1 ≤ mult → 0 < er → 1 ≤ eb → 0 ≤ s →
        ((Cyclic.start er mult s eb).run s (k + 1)).1.nextRestart
          = ((Cyclic.start er mult s eb).run s k).1.nextRestart →
        ((Cyclic.start er mult s eb).run s (k + 2)).1.nextRestart
          = ((Cyclic.start er mult s eb).run s k).1.nextRestart →
        er < k →
        ((Cyclic.start er mult s eb).run s (k + 2)).2 ≤ ((Cyclic.start er mult s eb).run s (k + 1)).2 := by
  intro h
  have f : ⌊(4 : ℝ) * 1⌋₊ = 4 := by norm_num
  have c2 : Real.cos (2 * Real.pi) = 1 := Real.cos_two_pi
  have u5 : (Cyclic.start 4 1 1 1).run 1 5 = (⟨4, 1, 1, 4, 1, 1, 5⟩, 1) := by
    simp [Cyclic.run, Cyclic.update, Cyclic.new, Cyclic.start]
    norm_num
  have u6 : (Cyclic.start 4 1 1 1).run 1 6 = (⟨4, 1, 1, 8, 0, 1, 6⟩, 0) := by
    rw [Cyclic.run, u5]; simp [Cyclic.update]
  have u7 : (Cyclic.start 4 1 1 1).run 1 7 = (⟨4, 1, 1, 8, 1, 1, 7⟩, 1) := by
    rw [Cyclic.run, u6]; simp [Cyclic.update]; norm_num
  have u8 : (Cyclic.start 4 1 1 1).run 1 8 = (⟨4, 1, 1, 8, 2, 1, 8⟩, 0) := by
    rw [Cyclic.run, u7]; simp [Cyclic.update]
  have u9 : (Cyclic.start 4 1 1 1).run 1 9 = (⟨4, 1, 1, 8, 3, 1, 9⟩, 1) := by
    rw [Cyclic.run, u8]; simp [Cyclic.update, c2]; norm_num
  have := h 4 1 1 1 7 (le_refl _) (by norm_num) (le_refl _) (by norm_num) (by rw [u8, u7]) (by rw [u9, u7])
    (by norm_num)
  rw [u8, u9] at this
  norm_num at this

/-- Non-vacuity of `C207_warm_restart_partial`: a restart happens at the end of batch 5. -/
example : ((Cyclic.start 4 1 1 1).run 1 6).1.nextRestart ≠ ((Cyclic.start 4 1 1 1).run 1 5).1.nextRestart := by
  have u5 : (Cyclic.start 4 1 1 1).run 1 5 = (⟨4, 1, 1, 4, 1, 1, 5⟩, 1) := by
    simp [Cyclic.run, Cyclic.update, Cyclic.new, Cyclic.start]
    norm_num
  have u6 : (Cyclic.start 4 1 1 1).run 1 6 = (⟨4, 1, 1, 8, 0, 1, 6⟩, 0) := by
    rw [Cyclic.run, u5]; simp [Cyclic.update]
  rw [u5, u6]; simp

/-- Non-vacuity of `C208_annealing_partial`: a strict decrease. -/
example : ((Cyclic.update ⟨1, 2, 1, 5, 0, 2, 1⟩ 1).1.update (Cyclic.update ⟨1, 2, 1, 5, 0, 2, 1⟩ 1).2).2
    < (Cyclic.update ⟨1, 2, 1, 5, 0, 2, 1⟩ 1).2 := by
  have hcos : Real.cos (2⁻¹ * Real.pi) = 0 := by
    rw [show 2⁻¹ * Real.pi = Real.pi / 2 by ring]; exact Real.cos_pi_div_two
  simp [Cyclic.update, hcos]
  norm_num

end Ens.Sgd
