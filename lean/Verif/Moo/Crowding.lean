import Mathlib.Tactic.Linarith
import Verif.Moo.Nsga2Props

/-
C90: crowding distance of NSGA2. Also a vector-valued instance of the environment (non-vacuity of C31).
-/

namespace Ens.Moo

/-- NSGA2 on vectors with bounds [-1, 1] in each coordinate. -/
def demoVec : Env Nat (Nat → Int) ℚ where
  evaluate := fun w k x => (w, x k)
  initial := fun w x => (w + 1, fun i => x i + w)
  clamp := clampBox (fun _ => -1) (fun _ => 1)
  pick := fun w => (w + 1, w % 4)
  cross := fun w a b => (w, crossover (fun i => i % 2 == 0) a b)
  perturb := fun w x => (w + 1, fun i => x i + 3)
  approx := fun a b => a 0 == b 0
  sort := sortBy
  sortIdx := fun v l => sortBy (fun a b => decide (v a < v b)) l
  cbBegin := fun w _ => w
  cbGen := fun w _ _ _ => (w, false)
  maxVal := 1000

/-- Non-vacuity of `C31_nsga2_in_bounds`, `C92_nsga2_returns`, `C89_nsga2_value_partial`,
`C34_pareto_front_partial`. -/
example : ∃ a, optimize demoVec 4 7 2 0 (fun _ => 0) = .ok a :=
  C92_nsga2_returns (by decide) (by decide) (fun _ => Nat.mod_lt _ (by decide))
    (fun c l => sortBy_perm c l) _ _

/-! ### C90 -/

section
variable {R : Type} [Field R] [LinearOrder R]

/-- What `std::sort` guarantees for `sortedIdx`: a permutation with ascending values. -/
def SortsIdx (sortIdx : (Nat → R) → List Nat → List Nat) : Prop :=
  ∀ (v : Nat → R) (l : List Nat), (sortIdx v l).Perm l ∧ (sortIdx v l).Pairwise fun a b => v a ≤ v b

omit [LinearOrder R] in
theorem crowdAdd_notMem (key : Nat → Nat) (term : Nat → R) : ∀ (l : List Nat) (cd : Nat → R) (q : Nat),
    (∀ i ∈ l, key i ≠ q) → crowdAdd key term l cd q = cd q := by
  intro l
  induction l with
  | nil => intro cd q _; rfl
  | cons i l ih =>
    intro cd q h
    have : crowdAdd key term (i :: l) cd =
        crowdAdd key term l (Function.update cd (key i) (cd (key i) + term i)) := rfl
    rw [this, ih _ _ (fun j hj => h j (by simp [hj])), Function.update_of_ne (h i (by simp)).symm]

omit [LinearOrder R] in
theorem crowdAdd_mem (key : Nat → Nat) (term : Nat → R) : ∀ (l : List Nat) (cd : Nat → R),
    (l.map key).Nodup → ∀ i ∈ l, crowdAdd key term l cd (key i) = cd (key i) + term i := by
  intro l
  induction l with
  | nil => intro cd _ i hi; cases hi
  | cons j l ih =>
    intro cd hnd i hi
    have he : crowdAdd key term (j :: l) cd =
        crowdAdd key term l (Function.update cd (key j) (cd (key j) + term j)) := rfl
    rw [List.map_cons, List.nodup_cons] at hnd
    rw [he]
    rcases List.mem_cons.1 hi with rfl | hi
    · rw [crowdAdd_notMem, Function.update_self]
      intro k hk hc
      exact hnd.1 (List.mem_map.2 ⟨k, hk, hc⟩)
    · rw [ih _ hnd.2 i hi, Function.update_of_ne]
      intro hc
      exact hnd.1 (List.mem_map.2 ⟨i, hi, hc⟩)

variable [IsStrictOrderedRing R]

/-- One objective: positions 0 and last get `maxVal`; every other member gains a term between 0 and 1. -/
theorem crowdStep_spec {sortIdx : (Nat → R) → List Nat → List Nat} (hs : SortsIdx sortIdx) {maxVal : R}
    {front : List Nat} (hnd : front.Nodup) (hne : front ≠ []) (obj : Nat → Nat → R)
    {s : List Nat × (Nat → R)} (hp : s.1.Perm (List.range front.length)) (m : Nat) :
    let s' := crowdStep sortIdx maxVal front obj s m
    s'.1.Perm (List.range front.length) ∧
    ∃ lo ∈ front, ∃ hi ∈ front, (∀ q ∈ front, obj lo m ≤ obj q m) ∧ (∀ q ∈ front, obj q m ≤ obj hi m) ∧
      s'.2 lo = maxVal ∧ s'.2 hi = maxVal ∧
      (∀ q, q ≠ lo → q ≠ hi → s.2 q ≤ s'.2 q ∧ s'.2 q ≤ s.2 q + 1) := by
  obtain ⟨hperm, hasc⟩ := hs (fun j => obj (front.getD j 0) m) s.1
  have hperm := hperm.trans hp
  have hfs : 0 < front.length := List.length_pos_of_ne_nil hne
  simp only [crowdStep]
  generalize sortIdx (fun j => obj (front.getD j 0) m) s.1 = sorted at hperm hasc
  have hlen : sorted.length = front.length := by rw [hperm.length_eq, List.length_range]
  have hsnd : sorted.Nodup := hperm.nodup_iff.2 List.nodup_range
  have hslt : ∀ i < front.length, sorted.getD i 0 < front.length := by
    intro i hi
    rw [List.getD_eq_getElem?_getD, List.getElem?_eq_getElem (by omega), Option.getD_some]
    exact List.mem_range.1 (hperm.mem_iff.1 (List.getElem_mem _))
  set key : Nat → Nat := fun i => front.getD (sorted.getD i 0) 0 with hkey
  set v : Nat → R := fun i => obj (front.getD (sorted.getD i 0) 0) m with hv
  have hvkey : ∀ i, v i = obj (key i) m := fun i => rfl
  have hkmem : ∀ i < front.length, key i ∈ front := by
    intro i hi
    have := hslt i hi
    simp only [hkey]
    rw [List.getD_eq_getElem?_getD, List.getElem?_eq_getElem this, Option.getD_some]
    exact List.getElem_mem _
  have hkinj : ∀ i < front.length, ∀ j < front.length, key i = key j → i = j := by
    intro i hi j hj h
    have h1 := hslt i hi
    have h2 := hslt j hj
    simp only [hkey] at h
    rw [List.getD_eq_getElem?_getD (l := front), List.getD_eq_getElem?_getD (l := front),
      List.getElem?_eq_getElem h1, List.getElem?_eq_getElem h2, Option.getD_some, Option.getD_some,
      hnd.getElem_inj_iff] at h
    rw [List.getD_eq_getElem?_getD, List.getD_eq_getElem?_getD, List.getElem?_eq_getElem (by omega),
      List.getElem?_eq_getElem (by omega), Option.getD_some, Option.getD_some,
      hsnd.getElem_inj_iff] at h
    exact h
  have hksurj : ∀ q ∈ front, ∃ i < front.length, key i = q := by
    intro q hq
    obtain ⟨j, hj⟩ := List.getElem?_of_mem hq
    have hjl := getElem?_lt hj
    obtain ⟨i, hi⟩ := List.getElem?_of_mem (hperm.mem_iff.2 (List.mem_range.2 hjl))
    refine ⟨i, by rw [← hlen]; exact getElem?_lt hi, ?_⟩
    simp only [hkey]
    rw [List.getD_eq_getElem?_getD, List.getD_eq_getElem?_getD, hi, Option.getD_some, hj]
    rfl
  have hmono : ∀ i j, i ≤ j → j < front.length → v i ≤ v j := by
    intro i j hij hj
    rcases Nat.lt_or_eq_of_le hij with hlt | rfl
    · have := List.pairwise_iff_getElem.1 hasc i j (by omega) (by omega) hlt
      simp only [hv]
      rw [List.getD_eq_getElem?_getD (l := sorted) (i := i), List.getD_eq_getElem?_getD (l := sorted) (i := j),
        List.getElem?_eq_getElem (by omega), List.getElem?_eq_getElem (by omega), Option.getD_some,
        Option.getD_some]
      exact this
    · exact le_refl _
  have hrange : v 0 ≤ v (front.length - 1) := hmono _ _ (by omega) (by omega)
  set scale : R := if |v (front.length - 1) - v 0| = 0 then 1 else |v (front.length - 1) - v 0| with hscale
  have hspos : 0 < scale := by
    rw [hscale]
    split_ifs with h
    · exact one_pos
    · exact lt_of_le_of_ne (abs_nonneg _) (Ne.symm h)
  have hsle : v (front.length - 1) - v 0 ≤ scale := by
    rw [hscale]
    split_ifs with h
    · rw [abs_eq_zero] at h; rw [h]; exact zero_le_one
    · exact le_abs_self _
  have hterm : ∀ i, 1 ≤ i → i + 1 < front.length →
      0 ≤ (v (i + 1) - v (i - 1)) / scale ∧ (v (i + 1) - v (i - 1)) / scale ≤ 1 := by
    intro i h1 h2
    have a := hmono (i - 1) (i + 1) (by omega) h2
    have b := hmono (i + 1) (front.length - 1) (by omega) (by omega)
    have c := hmono 0 (i - 1) (by omega) (by omega)
    refine ⟨div_nonneg (by linarith) hspos.le, ?_⟩
    rw [div_le_one hspos]
    linarith
  have hl : ∀ i, i ∈ (List.range (front.length - 2)).map (· + 1) ↔ 1 ≤ i ∧ i + 1 < front.length := by
    intro i
    rw [List.mem_map]
    constructor
    · rintro ⟨a, ha, rfl⟩; rw [List.mem_range] at ha; omega
    · intro h; exact ⟨i - 1, by rw [List.mem_range]; omega, by omega⟩
  have hlnd : (((List.range (front.length - 2)).map (· + 1)).map key).Nodup := by
    rw [List.nodup_map_iff_inj_on]
    · intro i hi j hj h
      rw [hl] at hi hj
      exact hkinj i (by omega) j (by omega) h
    · rw [List.nodup_map_iff_inj_on List.nodup_range]
      intro a _ b _ h; omega
  refine ⟨hperm, key 0, hkmem 0 hfs, key (front.length - 1), hkmem _ (by omega), ?_, ?_, ?_, ?_, ?_⟩
  · intro q hq
    obtain ⟨i, hi, rfl⟩ := hksurj q hq
    rw [← hvkey, ← hvkey]; exact hmono _ _ (by omega) hi
  · intro q hq
    obtain ⟨i, hi, rfl⟩ := hksurj q hq
    rw [← hvkey, ← hvkey]; exact hmono _ _ (by omega) (by omega)
  · rw [crowdAdd_notMem]
    · by_cases h : key 0 = key (front.length - 1)
      · rw [h, Function.update_self]
      · rw [Function.update_of_ne h, Function.update_self]
    · intro i hi hc
      rw [hl] at hi
      have := hkinj i (by omega) 0 hfs hc
      omega
  · rw [crowdAdd_notMem, Function.update_self]
    intro i hi hc
    rw [hl] at hi
    have := hkinj i (by omega) _ (by omega) hc
    omega
  · intro q h0 h1
    by_cases hq : ∃ i ∈ (List.range (front.length - 2)).map (· + 1), key i = q
    · obtain ⟨i, hi, rfl⟩ := hq
      rw [crowdAdd_mem key _ _ _ hlnd i hi, Function.update_of_ne h1, Function.update_of_ne h0]
      rw [hl] at hi
      obtain ⟨a, b⟩ := hterm i hi.1 hi.2
      constructor <;> linarith
    · push_neg at hq
      rw [crowdAdd_notMem key _ _ _ q hq, Function.update_of_ne h1, Function.update_of_ne h0]
      constructor <;> linarith

/-- **C90** Crowding distance of a front, starting from zero distances: for every objective some member with the
smallest and some member with the largest value get at least `maxVal`; every member strictly between the
extremes in every objective gets a distance between 0 and the number of objectives; nothing outside the front
changes. -/
theorem C90_crowding_distance {sortIdx : (Nat → R) → List Nat → List Nat} (hs : SortsIdx sortIdx)
    {maxVal : R} (hmax : 0 ≤ maxVal) {front : List Nat} (hnd : front.Nodup) (hne : front ≠ [])
    (M : Nat) (obj : Nat → Nat → R) (cd : Nat → R) (h0 : ∀ q ∈ front, cd q = 0) :
    let cd' := crowdingDistance sortIdx maxVal M obj cd front
    (∀ m < M, ∃ lo ∈ front, ∃ hi ∈ front, (∀ q ∈ front, obj lo m ≤ obj q m) ∧
      (∀ q ∈ front, obj q m ≤ obj hi m) ∧ maxVal ≤ cd' lo ∧ maxVal ≤ cd' hi) ∧
    (∀ q ∈ front, 0 ≤ cd' q) ∧
    (∀ q ∈ front, (∀ m < M, ∃ a ∈ front, ∃ b ∈ front, obj a m < obj q m ∧ obj q m < obj b m) →
      cd' q ≤ M) := by
  unfold crowdingDistance
  induction M with
  | zero =>
    refine ⟨by omega, ?_, ?_⟩
    · intro q hq; simp [h0 q hq]
    · intro q hq _; simp [h0 q hq]
  | succ M ih =>
    have hpk : ∀ M, ((List.range M).foldl (crowdStep sortIdx maxVal front obj)
        (List.range front.length, cd)).1.Perm (List.range front.length) := by
      intro M
      induction M with
      | zero => exact List.Perm.refl _
      | succ M ihM =>
        rw [List.range_succ, List.foldl_append]
        exact (crowdStep_spec hs hnd hne obj ihM M).1
    have hp := hpk M
    rw [List.range_succ, List.foldl_append]
    simp only [List.foldl_cons, List.foldl_nil]
    generalize (List.range M).foldl (crowdStep sortIdx maxVal front obj) (List.range front.length, cd) = t
      at ih hp
    obtain ⟨h1, h2, h3⟩ := ih
    obtain ⟨-, lo, hlo, hi, hhi, a1, a2, a3, a4, a5⟩ :=
      crowdStep_spec (maxVal := maxVal) hs hnd hne obj hp M
    generalize crowdStep sortIdx maxVal front obj t M = t' at a3 a4 a5
    have hkeep : ∀ q, maxVal ≤ t.2 q → maxVal ≤ t'.2 q := by
      intro q hq
      by_cases e1 : q = lo
      · rw [e1, a3]
      · by_cases e2 : q = hi
        · rw [e2, a4]
        · exact hq.trans (a5 q e1 e2).1
    refine ⟨?_, ?_, ?_⟩
    · intro m hm
      rcases Nat.lt_or_ge m M with hlt | hge
      · obtain ⟨l, hl, h, hh, b1, b2, b3, b4⟩ := h1 m hlt
        exact ⟨l, hl, h, hh, b1, b2, hkeep _ b3, hkeep _ b4⟩
      · obtain rfl : m = M := by omega
        exact ⟨lo, hlo, hi, hhi, a1, a2, a3.ge, a4.ge⟩
    · intro q hq
      by_cases e1 : q = lo
      · rw [e1, a3]; exact hmax
      · by_cases e2 : q = hi
        · rw [e2, a4]; exact hmax
        · exact (h2 q hq).trans (a5 q e1 e2).1
    · intro q hq hbt
      have b := h3 q hq (fun m hm => hbt m (by omega))
      obtain ⟨x, hx, y, hy, c1, c2⟩ := hbt M (by omega)
      have e1 : q ≠ lo := by
        rintro rfl; exact absurd (a1 x hx) (not_le.2 c1)
      have e2 : q ≠ hi := by
        rintro rfl; exact absurd (a2 y hy) (not_le.2 c2)
      have := (a5 q e1 e2).2
      push_cast
      linarith

/-- **C90** Consequence used by the selection: among members of the same rank an extreme member in some
objective is preferred to a member strictly between the extremes in all of them, as long as `maxVal` exceeds
the number of objectives. -/
theorem C90_extremes_preferred {sortIdx : (Nat → R) → List Nat → List Nat} (hs : SortsIdx sortIdx)
    {maxVal : R} {M : Nat} (hmax : (M : R) < maxVal) {front : List Nat} (hnd : front.Nodup)
    (hne : front ≠ []) (obj : Nat → Nat → R) (ranks : Nat → Nat)
    (hr : ∀ p ∈ front, ∀ q ∈ front, ranks p = ranks q) :
    ∀ m < M, ∃ lo ∈ front, (∀ q ∈ front, obj lo m ≤ obj q m) ∧
      ∀ q ∈ front, (∀ m < M, ∃ a ∈ front, ∃ b ∈ front, obj a m < obj q m ∧ obj q m < obj b m) →
        crowdingOperator ranks (crowdingDistance sortIdx maxVal M obj (fun _ => 0) front) lo q = true := by
  have hM : (0 : R) ≤ M := Nat.cast_nonneg M
  obtain ⟨h1, -, h3⟩ := C90_crowding_distance hs (by linarith) hnd hne M obj (fun _ => 0) (fun _ _ => rfl)
    (maxVal := maxVal)
  intro m hm
  obtain ⟨lo, hlo, -, -, a1, -, a3, -⟩ := h1 m hm
  refine ⟨lo, hlo, a1, ?_⟩
  intro q hq hb
  have := h3 q hq hb
  unfold crowdingOperator
  rw [Bool.or_eq_true, Bool.and_eq_true, decide_eq_true_eq, decide_eq_true_eq, decide_eq_true_eq]
  right
  exact ⟨hr lo hlo q hq, lt_of_le_of_lt this (lt_of_lt_of_le hmax a3)⟩

end

/-- Non-vacuity: the sort used in the examples sorts. -/
theorem sortBy_sorts : SortsIdx (R := ℚ) (fun v l => sortBy (fun a b => decide (v a < v b)) l) := by
  intro v l
  refine ⟨sortBy_perm _ _, ?_⟩
  have hins : ∀ (a : Nat) (l : List Nat), l.Pairwise (fun a b => v a ≤ v b) →
      (insertBy (fun a b => decide (v a < v b)) a l).Pairwise (fun a b => v a ≤ v b) := by
    intro a l
    induction l with
    | nil => intro _; simp [insertBy]
    | cons b l ih =>
      intro h
      rw [List.pairwise_cons] at h
      unfold insertBy
      by_cases hb : v b < v a
      · simp only [hb, decide_true, if_true, List.pairwise_cons]
        refine ⟨?_, ih h.2⟩
        intro c hc
        have := (insertBy_perm (fun a b => decide (v a < v b)) a l).mem_iff.1 hc
        rcases List.mem_cons.1 this with rfl | hc
        · exact hb.le
        · exact h.1 c hc
      · simp only [hb, decide_false, Bool.false_eq_true, if_false, List.pairwise_cons]
        refine ⟨?_, h⟩
        intro c hc
        rcases List.mem_cons.1 hc with rfl | hc
        · exact not_lt.1 hb
        · exact (not_lt.1 hb).trans (h.1 c hc)
  induction l with
  | nil => exact List.Pairwise.nil
  | cons a l ih => exact hins a _ ih

example : (List.range 4).map (crowdingDistance (fun v l => sortBy (fun a b => decide (v a < v b)) l) 1000 1
    (fun q _ => (([3, 0, 4, 1] : List ℚ).getD q 0)) (fun _ => 0) [0, 1, 2, 3]) = [3 / 4, 1000, 1000, 3 / 4] := by
  decide +kernel

end Ens.Moo
