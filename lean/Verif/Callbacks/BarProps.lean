import Verif.Callbacks.ReportProps
import Mathlib.Algebra.Order.Floor.Semifield

/-!
# Truncated matrices (C236) and the progress bar (C238)
-/

namespace Ens.Report

/-! ## C236: `TruncatePrint` -/

/-- The indices that are kept of `n` rows or columns: all if there are fewer than `size`,
otherwise the first `size - 1` and the last. -/
def kept (n size : Nat) : List Nat :=
  if n < size then List.range n else List.range (size - 1) ++ [n - 1]

/-- The values of the truncated matrix, column by column. -/
def truncated (data : List R) (rows cols size : Nat) : List (Option R) :=
  (kept cols size).flatMap fun c => (kept rows size).map fun r => data[c * rows + r]?

def Tok.value : Tok R → Option R
  | .val x => some x
  | _ => none

theorem usub_le {a b : Nat} (h : b ≤ a) : usub a b = a - b := if_pos h

/-- The inner loop when all rows are printed, or the first `size - 1` and the last. -/
theorem truncRow_eq (data : List R) (rows size c : Nat) (hs : 1 ≤ size)
    (hlast : size ≤ rows → (c + 1) * rows - 1 < data.length ∧ 1 ≤ (c + 1) * rows) :
    ∀ fuel r n, rows - r ≤ fuel → r ≤ size - 1 → r ≤ rows →
      n + (min rows (size - 1) - r) ≤ data.length →
      truncRow data rows size c fuel r n =
        some (((data.drop n).take (min rows (size - 1) - r)).map Tok.val ++
          (if size ≤ rows then [.dots] ++ (data[(c + 1) * rows - 1]?).toList.map Tok.val else []),
          if size ≤ rows then (c + 1) * rows - 1 else n + (rows - r)) := by
  intro fuel
  induction fuel with
  | zero =>
    intro r n hf hr hrr hn
    have : r = rows := by omega
    have hsz : ¬ size ≤ rows := by omega
    simp [truncRow, hsz, this]
  | succ fuel ih =>
    intro r n hf hr hrr hn
    unfold truncRow
    by_cases h1 : r < rows
    · rw [if_pos h1]
      have hus : usub size 1 = size - 1 := usub_le hs
      rw [hus]
      by_cases h2 : r < size - 1
      · rw [if_pos h2, ih (r + 1) (n + 1) (by omega) (by omega) (by omega) (by omega)]
        have hnl : n < data.length := by omega
        rw [List.getElem?_eq_getElem hnl]
        simp only [Option.bind_eq_bind, Option.bind_some, Option.pure_def]
        have : min rows (size - 1) - r = (min rows (size - 1) - (r + 1)) + 1 := by omega
        rw [this, List.drop_eq_getElem_cons hnl, List.take_succ_cons, List.map_cons,
          List.cons_append]
        congr 2
        split <;> omega
      · rw [if_neg h2]
        have hle : size ≤ rows := by omega
        obtain ⟨hl, hl1⟩ := hlast hle
        have hus2 : usub ((c + 1) * rows) 1 = (c + 1) * rows - 1 := usub_le hl1
        rw [hus2, List.getElem?_eq_getElem hl]
        have : min rows (size - 1) - r = 0 := by omega
        rw [this, if_pos hle, if_pos hle]
        have hget : data[(c + 1) * rows - 1]? = some data[(c + 1) * rows - 1] :=
          List.getElem?_eq_getElem hl
        simp only [Option.bind_eq_bind, hget, Option.bind_some, Option.pure_def, List.take_zero,
          List.map_nil, List.nil_append, Option.toList_some, List.map_cons, List.cons_append]
    · rw [if_neg h1]
      have : r = rows := by omega
      have hsz : ¬ size ≤ rows := by omega
      simp [hsz, this]

/-- C236 (partial): a column vector is printed as documented: all entries if there are fewer
than `size`, else the first `size - 1`, dots, and the last. -/
theorem C236_vector_partial (data : List R) (size : Nat) (hs : 2 ≤ size) (hd : data ≠ []) :
    truncatePrint data data.length 1 size =
      some (if data.length < size then data.map Tok.val
        else (data.take (size - 1)).map Tok.val ++ [.dots, .val (data.getLast hd)]) := by
  have hl : 1 ≤ data.length := by
    cases data with
    | nil => exact absurd rfl hd
    | cons a l => simp
  unfold truncatePrint truncCols
  have hus : usub size 1 = size - 1 := usub_le (by omega)
  rw [if_pos (by omega), hus, if_neg (by omega),
    truncRow_eq data data.length size 0 (by omega) (fun _ => by omega) data.length 0 0 (by omega)
      (by omega) (by omega) (by omega)]
  simp only [Option.bind_eq_bind, Option.bind_some, Option.pure_def, truncCols, List.append_nil]
  congr 1
  split
  · rename_i h
    rw [if_neg (by omega)]
    have : min data.length (size - 1) - 0 = size - 1 := by omega
    rw [this]
    have hg : data[(0 + 1) * data.length - 1]? = some (data.getLast hd) := by
      rw [List.getLast_eq_getElem, List.getElem?_eq_getElem (by omega)]
      simp
    rw [hg]
    simp
  · rw [if_pos (by omega)]
    have : min data.length (size - 1) - 0 = data.length := by omega
    rw [this]
    simp

example : truncatePrint [(1 : ℚ), 2, 3, 4, 5, 6] 6 1 4 =
    some [.val 1, .val 2, .val 3, .dots, .val 6] := by decide +kernel

/-- C236: with more than one column the printed values are not those of the truncated matrix. -/
theorem C236_refuted : ¬ ∀ (data : List ℚ) (rows cols size : Nat), data.length = rows * cols →
    2 ≤ size → (size < rows ∨ size < cols) → ∀ out,
    truncatePrint data rows cols size = some out →
    out.filterMap Tok.value = (truncated data rows cols size).filterMap id := by
  intro h
  have := h [1, 2, 3, 4, 5, 6, 7, 8, 9, 10] 5 2 4 (by decide) (by decide) (by decide)
    [.val 1, .val 2, .val 3, .dots, .val 5, .val 5, .val 6, .val 7, .dots, .val 10]
    (by decide +kernel)
  revert this
  decide +kernel

/-- C236: the documented example (4 rows, 5 columns, `size` 3): the last column is not printed, in
its place come two entries of columns 2 and 3 and the last entry of column 2. -/
theorem C236_documented_example_refuted :
    truncatePrint [(1 : ℚ), 6, 11, 16, 2, 7, 12, 17, 3, 8, 13, 18, 4, 9, 14, 19, 5, 10, 15, 20]
      4 5 3 =
      some [.val 1, .val 6, .dots, .val 16, .val 16, .val 2, .dots, .val 17, .dotsLine,
        .val 18, .val 4, .dots, .val 18] ∧
    (truncated [(1 : ℚ), 6, 11, 16, 2, 7, 12, 17, 3, 8, 13, 18, 4, 9, 14, 19, 5, 10, 15, 20]
      4 5 3).filterMap id = [1, 6, 16, 2, 7, 17, 5, 10, 20] := by
  decide +kernel

/-- C236: a matrix with two columns and `outputMatrixSize` 2 makes `TruncatePrint` access
the entry before the first. -/
theorem C236_two_columns_refuted (data : List R) (rows : Nat) (h1 : 1 ≤ rows)
    (hd : data.length < 2 ^ 64 - 1) : truncatePrint data rows 2 2 = none := by
  unfold truncatePrint
  unfold truncCols
  rw [if_pos (by omega)]
  have hus : usub 2 1 = 1 := rfl
  rw [hus, if_neg (by omega)]
  cases hr : truncRow data rows 2 0 rows 0 0 with
  | none => rfl
  | some p =>
    obtain ⟨ts, n'⟩ := p
    simp only [Option.bind_eq_bind, Option.bind_some]
    unfold truncCols
    rw [if_pos (by omega), hus, if_pos (by omega)]
    have hn : data.length ≤ usub (usub 2 2 * rows % 2 ^ 64) 1 := by
      have h0 : usub 2 2 * rows % 2 ^ 64 = 0 := by
        have : usub 2 2 = 0 := rfl
        rw [this, Nat.zero_mul, Nat.zero_mod]
      rw [h0]
      unfold usub
      rw [if_neg (by omega)]
      omega
    generalize usub (usub 2 2 * rows % 2 ^ 64) 1 = N at hn
    obtain ⟨k, rfl⟩ : ∃ k, rows = k + 1 := ⟨rows - 1, by omega⟩
    have hrow : truncRow data (k + 1) 2 (0 + 1) (k + 1) 0 N = none := by
      unfold truncRow
      rw [if_pos (by omega), hus, if_pos (by omega), List.getElem?_eq_none hn]
      rfl
    simp only [hrow, Option.bind_eq_bind, Option.bind_none]

example : ([1, 2, 3, 4, 5, 6] : List ℚ).length < 2 ^ 64 - 1 := by simp

/-! ## C238: the progress bar -/

/-- C238: the epoch size is the number of batches of a pass and `epochs` the number of passes,
both rounded up. -/
theorem C238_counts (b b' : Bar) (n k m : Nat) (h : b.beginOptimization n k m = some b') :
    (b'.epochSize * k ≥ n ∧ b'.epochSize * k < n + k) ∧
      (b'.epochs * n ≥ m ∧ b'.epochs * n < m + n) := by
  unfold Bar.beginOptimization at h
  split at h
  · cases h
  rename_i hh
  push Not at hh
  rw [Option.some.injEq] at h
  have key : ∀ a d : Nat, 0 < d →
      (a / d + (if a % d > 0 then 1 else 0)) * d ≥ a ∧
        (a / d + (if a % d > 0 then 1 else 0)) * d < a + d := by
    intro a d hd
    have h1 := Nat.div_add_mod a d
    have h2 := Nat.mod_lt a hd
    rw [Nat.mul_comm] at h1
    split
    · rw [Nat.add_mul]; omega
    · rw [Nat.add_mul]; omega
  rw [← h]
  exact ⟨key n k (Nat.pos_of_ne_zero hh.2), key m n (Nat.pos_of_ne_zero hh.1)⟩

example : Bar.fresh.beginOptimization 10 3 25 = some ⟨0, 3, 4, 1, false, 1⟩ := by decide +kernel

theorem floor_add (i : Nat) (w : ℚ) (hw : 0 ≤ w) : ⌊(i : ℚ) + w⌋₊ = i + ⌊w⌋₊ := by
  rw [add_comm, Nat.floor_add_natCast hw, add_comm]

theorem barLoop_eq (w : ℚ) (hw : 1 ≤ w) (progress : Nat) : ∀ fuel i, 100 - i ≤ fuel →
    barLoop w progress fuel i = some ((List.range ((100 - i + ⌊w⌋₊ - 1) / ⌊w⌋₊)).map
      fun j => barChar progress (i + j * ⌊w⌋₊)) := by
  have hk : 1 ≤ ⌊w⌋₊ := by rw [Nat.le_floor_iff (by linarith)]; simpa using hw
  intro fuel
  induction fuel with
  | zero =>
    intro i h
    unfold barLoop
    rw [if_neg (by omega), show 100 - i + ⌊w⌋₊ - 1 = ⌊w⌋₊ - 1 by omega, Nat.div_eq_of_lt (by omega)]
    rfl
  | succ fuel ih =>
    intro i h
    unfold barLoop
    by_cases hi : i < 100
    · rw [if_pos hi, floor_add i w (by linarith), ih _ (by omega)]
      have : (100 - i + ⌊w⌋₊ - 1) / ⌊w⌋₊ = (100 - (i + ⌊w⌋₊) + ⌊w⌋₊ - 1) / ⌊w⌋₊ + 1 := by
        rcases le_or_gt (i + ⌊w⌋₊) 100 with hle | hgt
        · rw [show 100 - i + ⌊w⌋₊ - 1 = (100 - (i + ⌊w⌋₊) + ⌊w⌋₊ - 1) + ⌊w⌋₊ by omega,
            Nat.add_div_right _ (by omega)]
        · rw [show 100 - (i + ⌊w⌋₊) + ⌊w⌋₊ - 1 = ⌊w⌋₊ - 1 by omega,
            Nat.div_eq_of_lt (by omega : ⌊w⌋₊ - 1 < ⌊w⌋₊),
            show 100 - i + ⌊w⌋₊ - 1 = (100 - i - 1) + ⌊w⌋₊ by omega,
            Nat.add_div_right _ (by omega), Nat.div_eq_of_lt (by omega)]
      rw [this, List.range_succ_eq_map]
      simp only [Option.map_some, List.map_cons, Nat.zero_mul, Nat.add_zero, List.map_map]
      congr 2
      apply List.map_congr_left
      intro j _
      simp only [Function.comp]
      congr 1
      rw [Nat.succ_mul]; omega
    · rw [if_neg hi, show 100 - i + ⌊w⌋₊ - 1 = ⌊w⌋₊ - 1 by omega, Nat.div_eq_of_lt (by omega)]
      rfl

theorem width_ge {w : Nat} (h1 : 1 ≤ w) (h2 : w ≤ 100) : (1 : ℚ) ≤ 100 / w := by
  rw [le_div_iff₀ (by exact_mod_cast h1), one_mul]
  exact_mod_cast h2

theorem width_floor (w : Nat) : ⌊(100 / w : ℚ)⌋₊ = 100 / w := by
  have := Nat.floor_div_eq_div (K := ℚ) 100 w
  simpa using this

/-- C238 (partial): for widths 1 to 100 the bar is drawn with `⌈100 / ⌊100 / w⌋⌉` characters; the
character at position `j` is `=`, `>` or `.` as `j ⌊100 / w⌋` percent is below, at or above the
progress.  The width is as asked for exactly when that number is `w`, e.g. if `w` divides 100. -/
theorem C238_width_partial (w progress : Nat) (h1 : 1 ≤ w) (h2 : w ≤ 100) :
    ∃ bar, (∀ fuel, 100 ≤ fuel → barLoop (100 / w) progress fuel 0 = some bar) ∧
      bar.length = (100 + 100 / w - 1) / (100 / w) ∧ w ≤ bar.length ∧
      (w ∣ 100 → bar.length = w) ∧
      ∀ (j : Nat) (c : Ch), bar[j]? = some c →
        (c = .eq ↔ j * (100 / w) < progress) ∧ (c = .gt ↔ j * (100 / w) = progress) ∧
          (c = .dot ↔ progress < j * (100 / w)) := by
  have hk : 1 ≤ 100 / w := Nat.div_pos h2 h1
  refine ⟨_, fun fuel hf => barLoop_eq _ (width_ge h1 h2) progress fuel 0 (by omega), ?_, ?_, ?_, ?_⟩
  · rw [width_floor]; simp
  · rw [width_floor]
    simp only [List.length_map, List.length_range, Nat.sub_zero]
    rw [Nat.le_div_iff_mul_le (by omega)]
    have := Nat.div_mul_le_self 100 w
    rw [Nat.mul_comm] at this
    omega
  · rintro ⟨k, hk'⟩
    rw [width_floor]
    simp only [List.length_map, List.length_range, Nat.sub_zero]
    have e : 100 / w = k := by rw [hk', Nat.mul_div_cancel_left _ (by omega)]
    rw [e]
    rw [e] at hk
    rw [hk', show w * k + k - 1 = (k - 1) + k * w by rw [Nat.mul_comm]; omega,
      Nat.add_mul_div_left _ _ (by omega), Nat.div_eq_of_lt (by omega)]
    omega
  · intro j c hc
    rw [width_floor] at hc
    simp only [List.getElem?_map, Option.map_eq_some_iff] at hc
    obtain ⟨j', hj', hc⟩ := hc
    obtain ⟨hlt, rfl⟩ := List.getElem?_eq_some_iff.1 hj'
    simp only [List.getElem_range, zero_add, barChar] at hc
    subst hc
    split
    · refine ⟨by simp; omega, by simp; omega, by simp; omega⟩
    · split
      · refine ⟨by simp; omega, by simp; omega, by simp; omega⟩
      · refine ⟨by simp; omega, by simp; omega, by simp; omega⟩

example : ∃ bar, barLoop (100 / (50 : Nat)) 30 100 0 = some bar ∧ bar.length = 50 := by
  obtain ⟨bar, h, h', _, _, _⟩ := C238_width_partial 50 30 (by norm_num) (by norm_num)
  exact ⟨bar, h 100 le_rfl, h'⟩

/-- C238: the bar is not as wide as asked for: the default width 70 draws 100 characters. -/
theorem C238_width_refuted : ¬ ∀ (w progress fuel : Nat) (bar : List Ch), 1 ≤ w →
    barLoop (100 / w) progress fuel 0 = some bar → bar.length = w := by
  intro h
  obtain ⟨bar, hb, hl, _⟩ := C238_width_partial 70 0 (by norm_num) (by norm_num)
  have := h 70 0 100 bar (by norm_num) (hb 100 le_rfl)
  omega

/-- C238: with a width above 100 drawing the bar never ends. -/
theorem C238_wide_refuted (w progress : Nat) (hw : 100 < w) :
    ∀ fuel, barLoop (100 / w) progress fuel 0 = none := by
  intro fuel
  have h0 : ⌊((0 : Nat) : ℚ) + 100 / w⌋₊ = 0 := by
    rw [Nat.cast_zero, zero_add, width_floor, Nat.div_eq_of_lt hw]
  induction fuel with
  | zero => rfl
  | succ fuel ih =>
    unfold barLoop
    rw [if_pos (by norm_num), h0, ih]
    rfl

example : (100 : Nat) < 120 := by norm_num

/-- C238: so `StepTaken` never returns then. -/
theorem C238_step_hangs_refuted (b : Bar) (w fuel : Nat) (hw : 100 < w) :
    b.stepTaken w fuel = none := by
  unfold Bar.stepTaken
  simp only [C238_wide_refuted w _ hw fuel, Option.bind_eq_bind, Option.bind_none]

/-- One batch: `Evaluate()` followed by `StepTaken()`. -/
def Bar.batch (b : Bar) (batchSize w fuel : Nat) (f : ℚ) : Option (BarLine × Bar) :=
  (b.evaluate f batchSize).stepTaken w fuel

/-- The batches of an epoch. -/
def Bar.batches (b : Bar) (batchSize w fuel : Nat) : List ℚ → Option (List BarLine × Bar)
  | [] => some ([], b)
  | f :: fs => do
    let (l, b) ← b.batch batchSize w fuel f
    let (ls, b) ← b.batches batchSize w fuel fs
    pure (l :: ls, b)

theorem batches_spec (batchSize w fuel : Nat) (h1 : 1 ≤ w) (h2 : w ≤ 100) (hf : 100 ≤ fuel) :
    ∀ (fs : List ℚ) (b : Bar),
      ∃ ls b', b.batches batchSize w fuel fs = some (ls, b') ∧ ls.length = fs.length ∧
        b'.step = b.step + fs.length ∧ b'.epochSize = b.epochSize ∧
        ∀ (k : Nat) (l : BarLine), ls[k]? = some l →
          l.step = b.step + k ∧ l.epochSize = b.epochSize ∧
          l.progress = (b.step + k) * 100 / b.epochSize ∧
          l.header = (if k = 0 ∧ b.newEpoch = true then
            some (b.epoch, if b.epochs > 0 then some b.epochs else none) else none) ∧
          l.loss = (b.objective + ((fs.take (k + 1)).map (· / (batchSize : ℚ))).sum) /
            (b.step + k + 1) := by
  have hprog : ∀ s e : Nat, ⌊(s : ℚ) / e * 100⌋₊ = s * 100 / e := by
    intro s e
    have := Nat.floor_div_eq_div (K := ℚ) (s * 100) e
    rw [← this]
    congr 1
    push_cast
    ring
  intro fs
  induction fs with
  | nil => intro b; exact ⟨[], b, rfl, rfl, rfl, rfl, by intro k l h; simp at h⟩
  | cons f fs ih =>
    intro b
    have hb := C238_width_partial w (⌊((b.step : Nat) : ℚ) / b.epochSize * 100⌋₊) h1 h2
    obtain ⟨bar, hbar, _⟩ := hb
    obtain ⟨ls, b', hls, hlen, hst, hes, hspec⟩ :=
      ih { b.evaluate f batchSize with newEpoch := false, step := b.step + 1 }
    refine ⟨⟨(if b.newEpoch then some (b.epoch, if b.epochs > 0 then some b.epochs else none)
        else none), b.step, b.epochSize, bar, ⌊((b.step : Nat) : ℚ) / b.epochSize * 100⌋₊,
        (b.objective + f / batchSize) / ((b.step + 1 : Nat) : ℚ)⟩ :: ls, b', ?_, ?_, ?_, hes, ?_⟩
    · have hb1 : b.batch batchSize w fuel f = some
          (⟨(if b.newEpoch then some (b.epoch, if b.epochs > 0 then some b.epochs else none)
            else none), b.step, b.epochSize, bar, ⌊((b.step : Nat) : ℚ) / b.epochSize * 100⌋₊,
            (b.objective + f / batchSize) / ((b.step + 1 : Nat) : ℚ)⟩,
          { b.evaluate f batchSize with newEpoch := false, step := b.step + 1 }) := by
        unfold Bar.batch Bar.stepTaken
        simp only [Bar.evaluate]
        rw [hbar fuel hf]
        rfl
      unfold Bar.batches
      rw [hb1]
      simp only [Option.bind_eq_bind, Option.bind_some]
      rw [hls]
      rfl
    · simp [hlen]
    · rw [hst]; simp; omega
    · intro k l hl
      cases k with
      | zero =>
        simp only [List.getElem?_cons_zero, Option.some.injEq] at hl
        subst hl
        refine ⟨rfl, rfl, ?_, ?_, ?_⟩
        · simp [hprog]
        · by_cases hn : b.newEpoch = true <;> simp [hn]
        · simp
      | succ k =>
        simp only [List.getElem?_cons_succ] at hl
        obtain ⟨a1, a2, a3, a4, a5⟩ := hspec k l hl
        simp only [Bar.evaluate] at a1 a2 a3 a4 a5
        refine ⟨by omega, a2, ?_, ?_, ?_⟩
        · rw [a3]; congr 2; omega
        · rw [a4]; simp
        · rw [a5]
          simp only [List.take_succ_cons, List.map_cons, List.sum_cons]
          push_cast
          rw [add_assoc]
          congr 1
          ring

/-- C238 (partial): during an epoch, step `k` of the epoch is announced as step `k` of
`epochSize` with progress `⌊100 k / epochSize⌋` percent, the epoch header comes before the first
step only, and the loss shown is the sum of the batch losses divided by `k + 1` — not by `k`. -/
theorem C238_epoch_partial (b : Bar) (epochIn batchSize w fuel : Nat) (h1 : 1 ≤ w) (h2 : w ≤ 100)
    (hf : 100 ≤ fuel) (fs : List ℚ) :
    ∃ ls b', (b.beginEpoch epochIn).batches batchSize w fuel fs = some (ls, b') ∧
      ls.length = fs.length ∧
      ∀ (k : Nat) (l : BarLine), ls[k]? = some l →
        l.step = k + 1 ∧ l.epochSize = b.epochSize ∧ l.progress = (k + 1) * 100 / b.epochSize ∧
        l.header = (if k = 0 then some (epochIn, if b.epochs > 0 then some b.epochs else none)
          else none) ∧
        l.loss = ((fs.take (k + 1)).map (· / (batchSize : ℚ))).sum / (k + 2) := by
  obtain ⟨ls, b', h, hlen, _, _, hspec⟩ :=
    batches_spec batchSize w fuel h1 h2 hf fs (b.beginEpoch epochIn)
  refine ⟨ls, b', h, hlen, ?_⟩
  intro k l hl
  obtain ⟨a1, a2, a3, a4, a5⟩ := hspec k l hl
  simp only [Bar.beginEpoch] at a1 a2 a3 a4 a5
  refine ⟨by omega, a2, by rw [a3, Nat.add_comm 1 k], ?_, ?_⟩
  · rw [a4]; simp
  · rw [a5]
    push_cast
    rw [zero_add]
    congr 1
    ring

example : (1 : Nat) ≤ 70 ∧ (70 : Nat) ≤ 100 ∧ (100 : Nat) ≤ 100 := by norm_num

/-- C238: the loss shown is not the mean batch loss of the epoch so far. -/
theorem C238_loss_refuted : ¬ ∀ (b : Bar) (epochIn batchSize w : Nat) (fs : List ℚ)
    (ls : List BarLine) (b' : Bar) (k : Nat) (l : BarLine), 1 ≤ w → 1 ≤ batchSize →
    (b.beginEpoch epochIn).batches batchSize w 100 fs = some (ls, b') → ls[k]? = some l →
    l.loss = ((fs.take (k + 1)).map (· / (batchSize : ℚ))).sum / (k + 1) := by
  intro h
  obtain ⟨ls, b', hb, hlen, hspec⟩ :=
    C238_epoch_partial Bar.fresh 1 1 100 100 (by norm_num) (by norm_num) le_rfl [4]
  cases ls with
  | nil => simp at hlen
  | cons l ls =>
    have e1 := h Bar.fresh 1 1 100 [4] (l :: ls) b' 0 l (by norm_num) le_rfl hb rfl
    have e2 := (hspec 0 l rfl).2.2.2.2
    rw [e1] at e2
    norm_num at e2

/-- C238 (partial): the end of the epoch is announced with the number of steps taken and the
objective of the epoch. -/
theorem C238_end_epoch_partial (b : Bar) (epochIn batchSize w fuel : Nat) (h1 : 1 ≤ w)
    (h2 : w ≤ 100) (hf : 100 ≤ fuel) (fs : List ℚ) (objective : ℚ) :
    ∃ ls b' bar, (b.beginEpoch epochIn).batches batchSize w fuel fs = some (ls, b') ∧
      b'.endEpoch w fuel objective =
        some (fs.length, b.epochSize, bar, fs.length * 100 / b.epochSize, objective) := by
  obtain ⟨ls, b', h, hlen, hst, hes, _⟩ :=
    batches_spec batchSize w fuel h1 h2 hf fs (b.beginEpoch epochIn)
  simp only [Bar.beginEpoch] at hst hes
  have hu : usub b'.step 1 = fs.length := by
    rw [hst, usub_le (by omega)]; omega
  have hprog : ⌊((fs.length : Nat) : ℚ) / b.epochSize * 100⌋₊ = fs.length * 100 / b.epochSize := by
    have := Nat.floor_div_eq_div (K := ℚ) (fs.length * 100) b.epochSize
    rw [← this]
    congr 1
    push_cast
    ring
  obtain ⟨bar, hbar, _⟩ := C238_width_partial w (fs.length * 100 / b.epochSize) h1 h2
  refine ⟨ls, b', bar, h, ?_⟩
  unfold Bar.endEpoch
  rw [hu, hes]
  simp only [hprog, hbar fuel hf, Option.bind_eq_bind, Option.bind_some, Option.pure_def]

end Ens.Report
