import Mathlib.Algebra.BigOperators.Intervals
import Mathlib.Algebra.Order.BigOperators.Group.Finset
import Mathlib.Algebra.Order.Floor.Semiring
import Verif.Sgd.Snapshot
import Verif.Sgd.Batches

/-
C202–C206: what `SnapshotSGDR` keeps, how many snapshots it takes, what it returns, and reuse.
-/

namespace Ens.Sgd

variable {U V M G E : Type}

/-! ### The schedule without the rest -/

/-- Members of the decay policy and snapshots after the batches that ended at the coordinates `xs`. -/
noncomputable def Snap.after (c : Snap) (shots : List M) (step : ℝ) (xs : List M) : Snap × List M × ℝ :=
  xs.foldl (fun a x => a.1.update a.2.1 a.2.2 x) (c, shots, step)

theorem Snap.after_snoc (c : Snap) (shots : List M) (step : ℝ) (xs : List M) (x : M) :
    c.after shots step (xs ++ [x]) =
      (c.after shots step xs).1.update (c.after shots step xs).2.1 (c.after shots step xs).2.2 x := by
  simp [Snap.after]

/-- What one update does to the members that decide about restarts. -/
theorem Snap.update_fields (c : Snap) (shots : List M) (step : ℝ) (x : M) :
    let er := ⌊(c.epochRestart : ℝ) * c.multFactor⌋₊
    let r := c.update shots step x
    r.1.epoch = c.epoch + 1 ∧ r.1.multFactor = c.multFactor ∧ r.1.snapshotEpochs = c.snapshotEpochs ∧
    r.1.epochRestart = (if c.epoch > c.nextRestart then er else c.epochRestart) ∧
    r.1.nextRestart = (if c.epoch > c.nextRestart then c.nextRestart + er else c.nextRestart) ∧
    r.2.1 = (if c.epoch > c.nextRestart then
      (if er ≥ c.snapshotEpochs then shots ++ [x] else shots) else shots) := by
  unfold Snap.update
  by_cases h1 : c.epoch ≥ c.epochRestart <;> by_cases h2 : c.epoch > c.nextRestart <;> simp [h1, h2]

/-- The constructor's count and the policy go through the same restarts. -/
theorem Snap.after_ctor (c : Snap) (shots : List M) (step : ℝ) (h0 : c.epoch = 0)
    (hn : c.nextRestart = c.epochRestart) (xs : List M) :
    let r := c.after shots step xs
    let q := Snap.ctorLoop c.epochRestart c.multFactor xs.length
    r.1.epoch = xs.length ∧ r.1.multFactor = c.multFactor ∧ r.1.snapshotEpochs = c.snapshotEpochs ∧
    r.1.epochRestart = q.1 ∧ r.1.nextRestart = q.2.1 := by
  induction xs using List.reverseRecOn with
  | nil => simp [Snap.after, Snap.ctorLoop, h0, hn]
  | append_singleton xs x ih =>
    obtain ⟨i1, i2, i3, i4, i5⟩ := ih
    rw [Snap.after_snoc]
    obtain ⟨u1, u2, u3, u4, u5, -⟩ := Snap.update_fields (c.after shots step xs).1
      (c.after shots step xs).2.1 (c.after shots step xs).2.2 x
    simp only [List.length_append, List.length_singleton]
    refine ⟨by rw [u1, i1], by rw [u2, i2], by rw [u3, i3], ?_, ?_⟩
    · rw [u4, i1, i2, i4, i5, Snap.ctorLoop]
      split <;> rfl
    · rw [u5, i1, i2, i4, i5, Snap.ctorLoop]
      split <;> rfl

/-! ### When restarts happen: closed form -/

/-- Number (from 0) of the batch at the end of which the `j`-th restart happens, `j ≥ 1`: the first
cycle has `er + 1` batches more than the batch 0, and every cycle is `m` times as long as the one
before. -/
def restartAt (er m j : Nat) : Nat := 1 + er * ∑ i ∈ Finset.range j, m ^ i

theorem restartAt_succ (er m j : Nat) : restartAt er m (j + 1) = restartAt er m j + er * m ^ j := by
  simp [restartAt, Finset.sum_range_succ]; ring

theorem restartAt_lt {er m : Nat} (her : 0 < er) (hm : 0 < m) {i j : Nat} (h : i < j) :
    restartAt er m i < restartAt er m j := by
  induction h with
  | refl => rw [restartAt_succ]; have : 0 < er * m ^ i := by positivity
            omega
  | step h ih => rw [restartAt_succ]; omega

theorem restartAt_lt_iff {er m : Nat} (her : 0 < er) (hm : 0 < m) {i j : Nat} :
    restartAt er m i < restartAt er m j ↔ i < j := by
  constructor
  · intro h
    by_contra hc
    rcases Nat.lt_or_eq_of_le (Nat.le_of_not_lt hc) with h' | h'
    · have := restartAt_lt her hm h'; omega
    · subst h'; omega
  · exact restartAt_lt her hm

theorem ctorLoop_closed {er m : Nat} (her : 0 < er) (hm : 0 < m) (k : Nat) :
    ∃ j, Snap.ctorLoop er m k = (er * m ^ j, restartAt er m (j + 1) - 1, j) ∧
      k ≤ restartAt er m (j + 1) ∧ (j = 0 ∨ restartAt er m j < k) := by
  induction k with
  | zero => exact ⟨0, by simp [Snap.ctorLoop, restartAt], by simp, Or.inl rfl⟩
  | succ k ih =>
    obtain ⟨j, h1, h2, h3⟩ := ih
    have h0 : 1 ≤ restartAt er m (j + 1) := by simp [restartAt]
    by_cases hk : k > restartAt er m (j + 1) - 1
    · refine ⟨j + 1, ?_, ?_, Or.inr (by omega)⟩
      · rw [Snap.ctorLoop, h1]
        simp only [hk, if_true]
        have hf : ⌊((er * m ^ j : Nat) : ℝ) * (m : ℝ)⌋₊ = er * m ^ (j + 1) := by
          rw [← Nat.cast_mul, Nat.floor_natCast, pow_succ]; ring
        rw [hf, restartAt_succ er m (j + 1)]
        congr 2
        omega
      · have := restartAt_lt her hm (Nat.lt_succ_self (j + 1))
        simp only [Nat.succ_eq_add_one] at this
        omega
    · refine ⟨j, ?_, by omega, ?_⟩
      · rw [Snap.ctorLoop, h1]
        simp only [hk, if_false]
      · rcases h3 with h3 | h3
        · exact Or.inl h3
        · exact Or.inr (by omega)

/-- The number of restarts counted in `k` batches is the number of `j ≥ 1` with `restartAt j < k`. -/
theorem ctorLoop_count {er m : Nat} (her : 0 < er) (hm : 0 < m) (k j : Nat) (hj : 1 ≤ j) :
    j ≤ (Snap.ctorLoop er m k).2.2 ↔ restartAt er m j < k := by
  obtain ⟨J, h1, h2, h3⟩ := ctorLoop_closed her hm k
  rw [h1]
  simp only
  constructor
  · intro h
    rcases h3 with h3 | h3
    · omega
    · rcases Nat.lt_or_eq_of_le h with h' | h'
      · have := restartAt_lt her hm h'; omega
      · subst h'; exact h3
  · intro h
    have : restartAt er m j < restartAt er m (J + 1) := by omega
    rw [restartAt_lt_iff her hm] at this
    omega

/-! ### C202: which coordinates are kept -/

open Classical in
/-- The coordinates in `xs` at the restarts number `lo + 1`, `lo + 2`, .... -/
noncomputable def atRestarts (er m lo : Nat) (xs : List M) : List M :=
  (List.range xs.length).filterMap fun k => if ∃ j, lo < j ∧ k = restartAt er m j then xs[k]? else none

theorem atRestarts_snoc (er m lo : Nat) (xs : List M) (x : M) :
    atRestarts er m lo (xs ++ [x]) = atRestarts er m lo xs ++
      (open Classical in if ∃ j, lo < j ∧ xs.length = restartAt er m j then [x] else []) := by
  classical
  unfold atRestarts
  rw [List.length_append, List.length_singleton, List.range_succ, List.filterMap_append]
  congr 1
  · apply List.filterMap_congr
    intro k hk
    rw [List.mem_range] at hk
    rw [List.getElem?_append_left hk]
  · simp only [List.filterMap_cons, List.filterMap_nil, List.getElem?_append_right (le_refl _),
      Nat.sub_self, List.getElem?_cons_zero]
    by_cases h : ∃ j, lo < j ∧ xs.length = restartAt er m j
    · simp only [h, if_true]
    · simp only [h, if_false]

theorem exponent_eq {count snapshots : Nat} (h : snapshots ≤ count + 1) (hs : snapshots < 2 ^ 64)
    (hc : count < 2 ^ 64 - 1) : Snap.exponent count snapshots = count + 1 - snapshots := by
  unfold Snap.exponent
  rw [Nat.mod_eq_of_lt hs]
  omega

/-- The threshold of the constructor when the multiplier is a natural number and nothing overflows. -/
theorem threshold_eq {er m count snapshots t : Nat} (h : snapshots ≤ count + 1)
    (hs : snapshots < 2 ^ 64) (hc : count < 2 ^ 64 - 1)
    (ht : Snap.threshold er m count snapshots = some t) : t = er * m ^ (count + 1 - snapshots) := by
  unfold Snap.threshold at ht
  rw [exponent_eq h hs hc] at ht
  simp only at ht
  split at ht
  · simp only [Option.some.injEq] at ht
    rw [← ht]
    have : ((er : ℝ) * (m : ℝ) ^ (count + 1 - snapshots)) = ((er * m ^ (count + 1 - snapshots) : Nat) : ℝ) := by
      push_cast; rfl
    rw [this, Nat.floor_natCast]
  · cases ht

theorem new_spec {er : ℕ} {mult step : ℝ} {maxIt snapshots : Nat} {c : Snap}
    (h : Snap.new er mult step maxIt snapshots = some c) :
    c.epochRestart = er ∧ c.multFactor = mult ∧ c.constStepSize = step ∧ c.nextRestart = er ∧
    c.batchRestart = 0 ∧ c.epoch = 0 ∧
    Snap.threshold er mult (Snap.ctorLoop er mult maxIt).2.2 snapshots = some c.snapshotEpochs := by
  unfold Snap.new at h
  split at h
  · rename_i t ht
    cases h
    exact ⟨rfl, rfl, rfl, rfl, rfl, rfl, ht⟩
  · cases h

/-- A schedule started with `er`, natural multiplier `m` and the threshold of the `lo`-th
cycle keeps the coordinates of the restarts after the `lo`-th. -/
theorem after_shots {er m lo : Nat} (her : 0 < er) (hm : 1 ≤ m) (c : Snap) (h1 : c.epochRestart = er)
    (h2 : c.multFactor = m) (h3 : c.nextRestart = er) (h4 : c.epoch = 0)
    (h5 : (2 ≤ m ∧ c.snapshotEpochs = er * m ^ (lo + 1)) ∨ (lo = 0 ∧ c.snapshotEpochs ≤ er * m))
    (shots : List M) (step : ℝ) (xs : List M) :
    (c.after shots step xs).2.1 = shots ++ atRestarts er m lo xs := by
  induction xs using List.reverseRecOn with
  | nil => simp [Snap.after, atRestarts]
  | append_singleton xs x ih =>
    obtain ⟨i1, i2, i3, i4, i5⟩ := Snap.after_ctor c shots step h4 (by rw [h3, h1]) xs
    rw [Snap.after_snoc]
    obtain ⟨-, -, -, -, -, u6⟩ := Snap.update_fields (c.after shots step xs).1
      (c.after shots step xs).2.1 (c.after shots step xs).2.2 x
    rw [u6, ih, i1, i2, i3, i4, i5, h1, h2, atRestarts_snoc]
    obtain ⟨j, q1, q2, q3⟩ := ctorLoop_closed her (by omega : 0 < m) xs.length
    rw [q1]
    simp only
    have hf : ⌊((er * m ^ j : Nat) : ℝ) * (m : ℝ)⌋₊ = er * m ^ (j + 1) := by
      rw [← Nat.cast_mul, Nat.floor_natCast, pow_succ]; ring
    have h0 : 1 ≤ restartAt er m (j + 1) := by simp [restartAt]
    rw [hf]
    by_cases hk : xs.length > restartAt er m (j + 1) - 1
    · have hk' : xs.length = restartAt er m (j + 1) := by omega
      simp only [hk, if_true]
      have e1 : (∃ j', lo < j' ∧ xs.length = restartAt er m j') ↔ lo < j + 1 := by
        constructor
        · rintro ⟨j', a, b⟩
          have : ¬ j' < j + 1 := by
            intro hlt; have := restartAt_lt her (by omega : 0 < m) hlt; omega
          have : ¬ j + 1 < j' := by
            intro hlt; have := restartAt_lt her (by omega : 0 < m) hlt; omega
          omega
        · exact fun h => ⟨j + 1, h, hk'⟩
      have e2 : er * m ^ (j + 1) ≥ c.snapshotEpochs ↔ lo < j + 1 := by
        rcases h5 with ⟨h5', h5⟩ | ⟨h5, h5'⟩
        · rw [h5, ge_iff_le, Nat.mul_le_mul_left_iff her, Nat.pow_le_pow_iff_right (by omega)]
          omega
        · subst h5
          constructor
          · intro; omega
          · intro _
            refine le_trans h5' (Nat.mul_le_mul_left _ ?_)
            calc m = m ^ 1 := (pow_one m).symm
              _ ≤ m ^ (j + 1) := Nat.pow_le_pow_right (by omega) (by omega)
      by_cases hlo : lo < j + 1
      · rw [if_pos (e2.2 hlo), if_pos (e1.2 hlo), List.append_assoc]
      · rw [if_neg (fun h => hlo (e2.1 h)), if_neg (fun h => hlo (e1.1 h)), List.append_nil]
    · simp only [hk, if_false]
      have hno : ¬ ∃ j', lo < j' ∧ xs.length = restartAt er m j' := by
        rintro ⟨j', a, b⟩
        have hlt : j' < j + 1 := (restartAt_lt_iff her (by omega : 0 < m)).1 (by omega)
        rcases q3 with q3 | q3
        · omega
        · rcases Nat.lt_or_eq_of_le (Nat.le_of_lt_succ hlt) with h' | h'
          · have := restartAt_lt her (by omega : 0 < m) h'; omega
          · subst h'; omega
      rw [if_neg hno, List.append_nil]

/-- As many coordinates as there are restarts after the `lo`-th. -/
theorem atRestarts_length {er m : Nat} (her : 0 < er) (hm : 0 < m) (lo : Nat) (xs : List M) :
    (atRestarts er m lo xs).length = (Snap.ctorLoop er m xs.length).2.2 - lo := by
  classical
  induction xs using List.reverseRecOn with
  | nil => simp [atRestarts, Snap.ctorLoop]
  | append_singleton xs x ih =>
    rw [atRestarts_snoc, List.length_append, ih, List.length_append, List.length_singleton]
    have k0 := fun j hj => ctorLoop_count her hm xs.length j hj
    have k1 := fun j hj => ctorLoop_count her hm (xs.length + 1) j hj
    set a := (Snap.ctorLoop er m xs.length).2.2
    set b := (Snap.ctorLoop er m (xs.length + 1)).2.2
    have hinj : ∀ i j, restartAt er m i = restartAt er m j → i = j := by
      intro i j hij
      rcases Nat.lt_trichotomy i j with h | h | h
      · have := restartAt_lt her hm h; omega
      · exact h
      · have := restartAt_lt her hm h; omega
    by_cases hr : ∃ j, 1 ≤ j ∧ xs.length = restartAt er m j
    · obtain ⟨j, hj, he⟩ := hr
      have hja : ¬ j ≤ a := by rw [k0 j hj]; omega
      have hjb : j ≤ b := by rw [k1 j hj]; omega
      have hb1 : ¬ j + 1 ≤ b := by
        rw [k1 (j + 1) (by omega)]
        have := restartAt_lt her hm (Nat.lt_succ_self j)
        simp only [Nat.succ_eq_add_one] at this
        omega
      have ha1 : j - 1 ≤ a := by
        rcases Nat.eq_zero_or_pos (j - 1) with h | h
        · omega
        · rw [k0 _ h]
          have := restartAt_lt her hm (by omega : j - 1 < j)
          omega
      by_cases hlo : lo < j
      · rw [if_pos ⟨j, hlo, he⟩, List.length_singleton]; omega
      · rw [if_neg (by rintro ⟨j', h1, h2⟩; exact hlo (hinj j' j (by omega) ▸ h1)), List.length_nil]; omega
    · have hab : a = b := by
        apply Nat.le_antisymm
        · rcases Nat.eq_zero_or_pos a with h | h
          · omega
          · rw [k1 a h]
            have := (k0 a h).1 (le_refl _)
            omega
        · rcases Nat.eq_zero_or_pos b with h | h
          · omega
          · rw [k0 b h]
            have h1 := (k1 b h).1 (le_refl _)
            have : xs.length ≠ restartAt er m b := fun hh => hr ⟨b, h, hh⟩
            omega
      rw [if_neg (by rintro ⟨j', h1, h2⟩; exact hr ⟨j', by omega, h2⟩), List.length_nil, hab]; omega

end Ens.Sgd
