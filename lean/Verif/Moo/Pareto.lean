import Mathlib.Order.Defs.LinearOrder
import Mathlib.Order.Lattice
import Mathlib.Data.List.Nodup
import Mathlib.Data.List.Count
import Mathlib.Data.List.Range
import Mathlib.Data.List.Dedup
import Mathlib.Data.Finset.Basic
import Mathlib.Data.Finset.Card
import Mathlib.Algebra.Order.Ring.Nat
import Mathlib.Tactic.Linarith
import Verif.Common

/-
Pareto dominance and the fast non-dominated sort, shared by NSGA2 and AGEMOEA
(`nsga2/nsga2_impl.hpp`, `agemoea/agemoea_impl.hpp`).
-/

namespace Ens.Moo

/-! ### Model -/

/-- Body of the loop of `Dominates` (nsga2_impl.hpp:409-418, agemoea_impl.hpp:656-666); the state is
(`allBetterOrEqual`, `atleastOneBetter`). -/
def dominatesStep {R : Type} [LT R] [DecidableLT R] (p q : Nat → R) (s : Bool × Bool) (i : Nat) :
    Bool × Bool :=
  if q i < p i then (false, s.2) else if p i < q i then (s.1, true) else s

/-- `Dominates` (nsga2_impl.hpp:400-421, agemoea_impl.hpp:647-669) on the objective vectors of the two
candidates; `m` is `n_objectives`. -/
def dominates {R : Type} [LT R] [DecidableLT R] (m : Nat) (p q : Nat → R) : Bool :=
  let r := (List.range m).foldl (dominatesStep p q) (true, false)
  r.1 && r.2

/-- The members of `dominated[p]` in iteration order of the `std::set`
(nsga2_impl.hpp:353-359, agemoea_impl.hpp:600-606). -/
def dominated (dom : Nat → Nat → Bool) (n p : Nat) : List Nat :=
  (List.range n).filter (dom p)

/-- `dominationCount[p]` after the double loop (nsga2_impl.hpp:354-362, agemoea_impl.hpp:601-609). -/
def dominationCount (dom : Nat → Nat → Bool) (n p : Nat) : Int :=
  (((List.range n).countP fun q => !dom p q && dom q p) : Nat)

/-- `dominationCount` and `ranks`. The counts are integers: a `size_t` below zero is, like a negative
integer, different from zero. -/
structure SortSt where
  count : Nat → Int
  ranks : Nat → Nat

/-- Body of the inner loop over `dominated[p]` (nsga2_impl.hpp:379-388, agemoea_impl.hpp:626-635);
the second component is `nextFront`. -/
def relax (i : Nat) (s : SortSt × List Nat) (q : Nat) : SortSt × List Nat :=
  let c := s.1.count q - 1
  if c = 0 then (⟨Function.update s.1.count q c, Function.update s.1.ranks q (i + 1)⟩, s.2 ++ [q])
  else (⟨Function.update s.1.count q c, s.1.ranks⟩, s.2)

/-- Body of the `while` loop (nsga2_impl.hpp:375-392, agemoea_impl.hpp:622-639). -/
def nextFront (dom : Nat → Nat → Bool) (n i : Nat) (front : List Nat) (s : SortSt) :
    SortSt × List Nat :=
  front.foldl (fun s p => (dominated dom n p).foldl (relax i) s) (s, [])

/-- The `while` loop and the final `pop_back` (nsga2_impl.hpp:371-395, agemoea_impl.hpp:618-642). `fs` are
the fronts before the current one `front`; `none` is "out of fuel". -/
def sortLoop (dom : Nat → Nat → Bool) (n : Nat) :
    Nat → List (List Nat) → List Nat → SortSt → Option (List (List Nat) × (Nat → Nat))
  | 0, _, _, _ => none
  | fuel + 1, fs, front, s =>
    if front = [] then some (fs, s.ranks)
    else
      let r := nextFront dom n fs.length front s
      sortLoop dom n fuel (fs ++ [front]) r.2 r.1

/-- `fronts[0]` (nsga2_impl.hpp:364-368, agemoea_impl.hpp:611-615). -/
def firstFront (dom : Nat → Nat → Bool) (n : Nat) : List Nat :=
  (List.range n).filter fun p => dominationCount dom n p = 0

/-- `FastNonDominatedSort` (nsga2_impl.hpp:338-396 with `n = populationSize`, agemoea_impl.hpp:584-643 with
`n = calculatedObjectives.size()`). `ranks₀` is the content of `ranks` before the call. -/
def fastNonDominatedSort (dom : Nat → Nat → Bool) (n fuel : Nat) (ranks₀ : Nat → Nat) :
    Option (List (List Nat) × (Nat → Nat)) :=
  let f := firstFront dom n
  sortLoop dom n fuel [] f
    ⟨dominationCount dom n, fun p => if p ∈ f then 0 else ranks₀ p⟩

/-! ### C29 -/

section dominance
variable {R : Type}

theorem dominates_fold [LT R] [DecidableLT R] (p q : Nat → R) : ∀ (l : List Nat) (s : Bool × Bool),
    ((l.foldl (dominatesStep p q) s).1 = true ↔ s.1 = true ∧ ∀ i ∈ l, ¬ q i < p i) ∧
    ((l.foldl (dominatesStep p q) s).2 = true ↔ s.2 = true ∨ ∃ i ∈ l, ¬ q i < p i ∧ p i < q i) := by
  intro l
  induction l with
  | nil => intro s; simp
  | cons a l ih =>
    intro s
    obtain ⟨h1, h2⟩ := ih (dominatesStep p q s a)
    rw [List.foldl_cons, h1, h2]
    unfold dominatesStep
    by_cases h : q a < p a
    · simp [h]
    · by_cases h' : p a < q a
      · simp [h, h']
      · simp [h, h']

/-- **C29** For totally ordered values, `p` dominates `q` iff it is no worse in every objective and strictly better
in at least one. -/
theorem C29_dominates_iff [LinearOrder R] (m : Nat) (p q : Nat → R) :
    dominates m p q = true ↔ (∀ i < m, p i ≤ q i) ∧ ∃ i < m, p i < q i := by
  obtain ⟨h1, h2⟩ := dominates_fold p q (List.range m) (true, false)
  unfold dominates
  rw [Bool.and_eq_true, h1, h2]
  simp only [true_and, Bool.false_eq_true, false_or, List.mem_range, not_lt]
  constructor
  · rintro ⟨a, i, hi, -, hlt⟩; exact ⟨a, i, hi, hlt⟩
  · rintro ⟨a, i, hi, hlt⟩; exact ⟨a, i, hi, hlt.le, hlt⟩

/-- **C29** Dominance is irreflexive, asymmetric and transitive. -/
theorem C29_dominates_strict_order [LinearOrder R] (m : Nat) :
    (∀ p : Nat → R, dominates m p p = false) ∧
    (∀ p q : Nat → R, dominates m p q = true → dominates m q p = false) ∧
    (∀ p q r : Nat → R, dominates m p q = true → dominates m q r = true → dominates m p r = true) := by
  refine ⟨?_, ?_, ?_⟩
  · intro p
    rw [Bool.eq_false_iff]
    intro h
    obtain ⟨-, i, -, hi⟩ := (C29_dominates_iff m p p).1 h
    exact lt_irrefl _ hi
  · intro p q h
    rw [Bool.eq_false_iff]
    intro h'
    obtain ⟨-, i, him, hi⟩ := (C29_dominates_iff m p q).1 h
    obtain ⟨h2, -⟩ := (C29_dominates_iff m q p).1 h'
    exact absurd hi (not_lt.2 (h2 i him))
  · intro p q r h h'
    obtain ⟨h1, i, him, hi⟩ := (C29_dominates_iff m p q).1 h
    obtain ⟨h2, -⟩ := (C29_dominates_iff m q r).1 h'
    exact (C29_dominates_iff m p r).2
      ⟨fun j hj => (h1 j hj).trans (h2 j hj), i, him, hi.trans_le (h2 i him)⟩

/-- Irreflexivity and asymmetry need no assumption on the comparison beyond irreflexivity; in particular they
hold with NaN. -/
theorem C29_dominates_asymm_any [LT R] [DecidableLT R] (m : Nat) (p q : Nat → R)
    (h : dominates m p q = true) : dominates m q p = false := by
  obtain ⟨h1, h2⟩ := dominates_fold p q (List.range m) (true, false)
  obtain ⟨k1, -⟩ := dominates_fold q p (List.range m) (true, false)
  unfold dominates at h
  rw [Bool.and_eq_true, h1, h2] at h
  obtain ⟨-, h⟩ := h
  rcases h with h | ⟨i, hi, -, hlt⟩
  · cases h
  · rw [Bool.eq_false_iff]
    intro hc
    unfold dominates at hc
    rw [Bool.and_eq_true, k1] at hc
    exact hc.1.2 i hi hlt

/-- **C29** (refuted part) With NaN objective values dominance is not transitive. -/
theorem C29_nan_transitive_refuted :
    ¬ ∀ (m : Nat) (p q r : Nat → Dbl), dominates m p q = true → dominates m q r = true →
      dominates m p r = true := by
  intro h
  have := h 2 (fun i => if i = 0 then .fin 2 else .fin 0) (fun i => if i = 0 then .nan else .fin 1)
    (fun i => if i = 0 then .fin 1 else .fin 2) (by decide) (by decide)
  revert this
  decide

example : dominates 2 (fun i => if i = 0 then (1 : Int) else 0) (fun i => if i = 0 then 1 else 3) = true := by
  decide

end dominance

/-! ### C30: the sort -/

theorem relax_fold (i : Nat) : ∀ (l : List Nat) (s : SortSt),
    (∀ q, (l.foldl (relax i) (s, [])).1.count q = s.count q - (l.count q : Int)) ∧
    (∀ q, q ∈ (l.foldl (relax i) (s, [])).2 ↔ 1 ≤ s.count q ∧ s.count q ≤ (l.count q : Int)) ∧
    (l.foldl (relax i) (s, [])).2.Nodup ∧
    (∀ q, (l.foldl (relax i) (s, [])).1.ranks q =
      if q ∈ (l.foldl (relax i) (s, [])).2 then i + 1 else s.ranks q) := by
  intro l s
  induction l using List.reverseRecOn with
  | nil => refine ⟨by simp, ?_, by simp, by simp⟩; intro q; simp; omega
  | append_singleton l a ih =>
    obtain ⟨h1, h2, h3, h4⟩ := ih
    rw [List.foldl_append, List.foldl_cons, List.foldl_nil]
    generalize l.foldl (relax i) (s, []) = t at h1 h2 h3 h4
    have hc : ∀ q, ((l ++ [a]).count q : Int) = l.count q + if a = q then 1 else 0 := by
      intro q
      rw [List.count_append, List.count_singleton]
      push_cast
      congr 1
      by_cases h : a = q <;> simp [h]
    unfold relax
    by_cases hz : t.1.count a - 1 = 0
    · simp only [hz, if_true]
      have hna : a ∉ t.2 := by
        rw [h2]; have := h1 a; omega
      refine ⟨?_, ?_, ?_, ?_⟩
      · intro q
        rw [hc]
        by_cases hq : a = q
        · subst hq; simp only [Function.update_self, if_true]; have := h1 a; omega
        · rw [Function.update_of_ne (Ne.symm hq)]; simp only [hq, if_false]; have := h1 q; omega
      · intro q
        rw [hc, List.mem_append, List.mem_singleton, h2]
        by_cases hq : a = q
        · subst hq; have := h1 a; simp only [if_true, or_true, true_iff]
          have : (0 : Int) ≤ (l.count a : Int) := Int.natCast_nonneg _
          omega
        · simp only [hq, if_false]
          have : ¬ q = a := fun h => hq h.symm
          simp only [this, or_false]; omega
      · rw [List.nodup_append]
        refine ⟨h3, by simp, ?_⟩
        rintro x hx y hy rfl
        rw [List.mem_singleton] at hy; subst hy; exact hna hx
      · intro q
        by_cases hq : a = q
        · subst hq; simp
        · rw [Function.update_of_ne (Ne.symm hq), h4]
          have : ¬ q = a := fun h => hq h.symm
          simp [this]
    · simp only [hz, if_false]
      refine ⟨?_, ?_, h3, h4⟩
      · intro q
        rw [hc]
        by_cases hq : a = q
        · subst hq; simp only [Function.update_self, if_true]; have := h1 a; omega
        · rw [Function.update_of_ne (Ne.symm hq)]; simp only [hq, if_false]; have := h1 q; omega
      · intro q
        rw [hc, h2]
        by_cases hq : a = q
        · subst hq; have := h1 a; simp only [if_true]; omega
        · simp only [hq, if_false]; omega

theorem nextFront_eq (dom : Nat → Nat → Bool) (n i : Nat) (front : List Nat) (s : SortSt) :
    nextFront dom n i front s = (front.flatMap (dominated dom n)).foldl (relax i) (s, []) := by
  unfold nextFront
  generalize (s, ([] : List Nat)) = t
  induction front generalizing t with
  | nil => rfl
  | cons p front ih => rw [List.foldl_cons, ih, List.flatMap_cons, List.foldl_append]

theorem count_dominated (dom : Nat → Nat → Bool) (n q : Nat) (hq : q < n) : ∀ front : List Nat,
    (front.flatMap (dominated dom n)).count q = front.countP fun p => dom p q := by
  intro front
  induction front with
  | nil => rfl
  | cons p front ih =>
    rw [List.flatMap_cons, List.count_append, ih, List.countP_cons, Nat.add_comm]
    congr 1
    unfold dominated
    by_cases h : dom p q = true
    · simp only [h, if_true]
      exact List.count_eq_one_of_mem (List.nodup_range.filter _)
        (List.mem_filter.2 ⟨List.mem_range.2 hq, h⟩)
    · rw [if_neg h]
      exact List.count_eq_zero.2 fun hm => h (List.mem_filter.1 hm).2

/-- Dominators of `q` outside `P`. -/
def open_ (dom : Nat → Nat → Bool) (n : Nat) (P : List Nat) (q : Nat) : Nat :=
  (List.range n).countP fun p => dom p q && decide (p ∉ P)

theorem open_split (dom : Nat → Nat → Bool) (n q : Nat) (P front : List Nat) (hnd : front.Nodup)
    (hlt : ∀ p ∈ front, p < n) (hdis : ∀ p ∈ front, p ∉ P) :
    open_ dom n P q = (front.countP fun p => dom p q) + open_ dom n (P ++ front) q := by
  have h1 : (front.countP fun p => dom p q) =
      (List.range n).countP fun p => dom p q && decide (p ∈ front) := by
    rw [List.countP_eq_length_filter, List.countP_eq_length_filter]
    apply List.Perm.length_eq
    rw [List.perm_ext_iff_of_nodup (hnd.filter _) (List.nodup_range.filter _)]
    intro a
    simp only [List.mem_filter, List.mem_range, Bool.and_eq_true, decide_eq_true_eq]
    constructor
    · rintro ⟨a1, a2⟩; exact ⟨hlt a a1, a2, a1⟩
    · rintro ⟨-, a2, a1⟩; exact ⟨a1, a2⟩
  rw [h1]
  unfold open_
  induction List.range n with
  | nil => rfl
  | cons a l ih =>
    simp only [List.countP_cons, ih]
    by_cases hd : dom a q = true
    · by_cases hf : a ∈ front
      · have := hdis a hf
        simp [hd, hf, this]; omega
      · by_cases hP : a ∈ P
        · simp [hd, hf, hP]
        · simp [hd, hf, hP]; omega
    · simp only [Bool.not_eq_true] at hd
      simp [hd]

theorem open_eq_zero {dom : Nat → Nat → Bool} {n q : Nat} {P : List Nat} :
    open_ dom n P q = 0 ↔ ∀ p < n, dom p q = true → p ∈ P := by
  unfold open_
  rw [List.countP_eq_zero]
  simp only [List.mem_range, Bool.and_eq_true, decide_eq_true_eq, not_and, not_not]

structure SortInv (dom : Nat → Nat → Bool) (n : Nat) (fs : List (List Nat)) (front : List Nat)
    (s : SortSt) : Prop where
  nodup : (fs.flatten ++ front).Nodup
  lt : ∀ q ∈ fs.flatten ++ front, q < n
  nonempty : ∀ f ∈ fs, f ≠ []
  char : ∀ q < n, q ∉ fs.flatten → (q ∈ front ↔ ∀ p < n, dom p q = true → p ∈ fs.flatten)
  count : ∀ q < n, s.count q = (open_ dom n fs.flatten q : Int)
  ranks : ∀ (k : Nat) (f : List Nat), (fs ++ [front])[k]? = some f → ∀ q ∈ f, s.ranks q = k
  down : ∀ (k : Nat) (f : List Nat), (fs ++ [front])[k]? = some f → ∀ q ∈ f, ∀ p < n, dom p q = true →
    ∃ (j : Nat) (g : List Nat), j < k ∧ fs[j]? = some g ∧ p ∈ g
  chain : ∀ (k : Nat) (f : List Nat), (fs ++ [front])[k + 1]? = some f → ∀ q ∈ f,
    ∃ g : List Nat, (fs ++ [front])[k]? = some g ∧ ∃ p ∈ g, dom p q = true

theorem mem_flatten_of_getElem? {fs : List (List Nat)} {j : Nat} {g : List Nat} {p : Nat}
    (h : fs[j]? = some g) (hp : p ∈ g) : p ∈ fs.flatten :=
  List.mem_flatten.2 ⟨g, List.mem_of_getElem? h, hp⟩

theorem getElem?_snoc {α : Type} {l : List α} {a b : α} {k : Nat} (h : (l ++ [a])[k]? = some b) :
    (l[k]? = some b ∧ k < l.length) ∨ (k = l.length ∧ b = a) := by
  rcases Nat.lt_trichotomy k l.length with hk | hk | hk
  · rw [List.getElem?_append_left hk] at h; exact .inl ⟨h, hk⟩
  · subst hk
    simp at h
    exact .inr ⟨rfl, h.symm⟩
  · rw [List.getElem?_eq_none (by simp; omega)] at h; cases h

theorem SortInv.step {dom : Nat → Nat → Bool} {n : Nat}
    {fs : List (List Nat)} {front : List Nat} {s : SortSt} (h : SortInv dom n fs front s)
    (hne : front ≠ []) :
    SortInv dom n (fs ++ [front]) (nextFront dom n fs.length front s).2
      (nextFront dom n fs.length front s).1 := by
  have hfnd : front.Nodup := (List.nodup_append.1 h.nodup).2.1
  have hflt : ∀ p ∈ front, p < n := fun p hp => h.lt p (List.mem_append_right _ hp)
  have hdis : ∀ p ∈ front, p ∉ fs.flatten := fun p hp hP =>
    (List.nodup_append.1 h.nodup).2.2 p hP p hp rfl
  have hflat : (fs ++ [front]).flatten = fs.flatten ++ front := by simp
  rw [nextFront_eq]
  obtain ⟨h1, h2, h3, h4⟩ := relax_fold fs.length (front.flatMap (dominated dom n)) s
  generalize (front.flatMap (dominated dom n)).foldl (relax fs.length) (s, []) = t at h1 h2 h3 h4
  -- membership in the new front
  have hlt0 : ∀ q, q ∈ t.2 → q < n := by
    intro q hq
    obtain ⟨ha, hb⟩ := (h2 q).1 hq
    have : 0 < (front.flatMap (dominated dom n)).count q := by omega
    obtain ⟨p, -, hp⟩ := List.mem_flatMap.1 (List.count_pos_iff.1 this)
    exact List.mem_range.1 (List.mem_filter.1 hp).1
  have hmem : ∀ q < n, (q ∈ t.2 ↔ 0 < (front.countP fun p => dom p q) ∧
      open_ dom n (fs.flatten ++ front) q = 0) := by
    intro q hq
    have hs := open_split dom n q fs.flatten front hfnd hflt hdis
    have hcnt := count_dominated dom n q hq front
    rw [h2, h.count q hq, hcnt]
    omega
  have hex : ∀ q, q ∈ t.2 → ∃ p ∈ front, dom p q = true := by
    intro q hq
    have := ((hmem q (hlt0 q hq)).1 hq).1
    rw [List.countP_pos_iff] at this
    exact this
  have hnot : ∀ q, q ∈ t.2 → q ∉ fs.flatten ++ front := by
    intro q hq hm
    obtain ⟨p, hp, hd⟩ := hex q hq
    rcases List.mem_append.1 hm with hm | hm
    · obtain ⟨f, hf, hqf⟩ := List.mem_flatten.1 hm
      obtain ⟨k, hk⟩ := List.getElem?_of_mem hf
      have hk' : (fs ++ [front])[k]? = some f := by
        rw [List.getElem?_append_left]
        · exact hk
        · by_contra hc; rw [List.getElem?_eq_none (by omega)] at hk; cases hk
      obtain ⟨j, g, -, hg, hpg⟩ := h.down k f hk' q hqf p (hflt p hp) hd
      exact hdis p hp (mem_flatten_of_getElem? hg hpg)
    · exact hdis p hp (((h.char q (hflt q hm) (hdis q hm)).1 hm) p (hflt p hp) hd)
  have hidx : ∀ (k : Nat) (f : List Nat), (fs ++ [front] ++ [t.2])[k]? = some f →
      ((fs ++ [front])[k]? = some f) ∨ (k = fs.length + 1 ∧ f = t.2) := by
    intro k f hf
    rcases getElem?_snoc hf with ⟨hf, -⟩ | ⟨hk, hf⟩
    · exact .inl hf
    · right; exact ⟨by simpa using hk, hf⟩
  refine ⟨?_, ?_, ?_, ?_, ?_, ?_, ?_, ?_⟩
  · rw [hflat, List.nodup_append]
    refine ⟨h.nodup, h3, ?_⟩
    rintro a ha b hb rfl
    exact hnot a hb ha
  · rw [hflat]
    intro q hq
    rcases List.mem_append.1 hq with hq | hq
    · exact h.lt q hq
    · exact hlt0 q hq
  · intro f hf
    rcases List.mem_append.1 hf with hf | hf
    · exact h.nonempty f hf
    · rw [List.mem_singleton] at hf; subst hf; exact hne
  · intro q hq hn
    rw [hflat] at hn ⊢
    rw [hmem q hq, open_eq_zero]
    constructor
    · exact fun hh => hh.2
    · intro hh
      refine ⟨?_, hh⟩
      rw [List.countP_pos_iff]
      have hq1 : q ∉ fs.flatten := fun hc => hn (List.mem_append_left _ hc)
      have hq2 : q ∉ front := fun hc => hn (List.mem_append_right _ hc)
      have := mt (h.char q hq hq1).2 hq2
      push_neg at this
      obtain ⟨p, hp, hd, hpP⟩ := this
      rcases List.mem_append.1 (hh p hp hd) with hm | hm
      · exact absurd hm hpP
      · exact ⟨p, hm, hd⟩
  · intro q hq
    rw [hflat, h1, h.count q hq, count_dominated dom n q hq,
      open_split dom n q fs.flatten front hfnd hflt hdis]
    push_cast
    omega
  · intro k f hf q hq
    rw [h4]
    rcases hidx k f hf with hf | ⟨rfl, rfl⟩
    · rw [if_neg, h.ranks k f hf q hq]
      intro hc
      refine hnot q hc ?_
      rw [← hflat]
      exact mem_flatten_of_getElem? hf hq
    · rw [if_pos hq]
  · intro k f hf q hq p hp hd
    rcases hidx k f hf with hf | ⟨rfl, rfl⟩
    · obtain ⟨j, g, hj, hg, hpg⟩ := h.down k f hf q hq p hp hd
      refine ⟨j, g, hj, ?_, hpg⟩
      rw [List.getElem?_append_left]
      · exact hg
      · by_contra hc; rw [List.getElem?_eq_none (by omega)] at hg; cases hg
    · have := open_eq_zero.1 ((hmem q (hlt0 q hq)).1 hq).2 p hp hd
      rw [← hflat] at this
      obtain ⟨g, hg, hpg⟩ := List.mem_flatten.1 this
      obtain ⟨j, hj⟩ := List.getElem?_of_mem hg
      refine ⟨j, g, ?_, hj, hpg⟩
      by_contra hc
      rw [List.getElem?_eq_none (by simp; omega)] at hj; cases hj
  · intro k f hf q hq
    rcases hidx (k + 1) f hf with hf | ⟨hk, rfl⟩
    · obtain ⟨g, hg, hp⟩ := h.chain k f hf q hq
      refine ⟨g, ?_, hp⟩
      rw [List.getElem?_append_left]
      · exact hg
      · by_contra hc; rw [List.getElem?_eq_none (by omega)] at hg; cases hg
    · have hk : k = fs.length := by omega
      subst hk
      refine ⟨front, ?_, hex q hq⟩
      simp [List.getElem?_append]

theorem first_inv {dom : Nat → Nat → Bool} (hirr : ∀ p q, dom p q = true → dom q p = false)
    (n : Nat) (ranks₀ : Nat → Nat) :
    SortInv dom n [] (firstFront dom n)
      ⟨dominationCount dom n, fun p => if p ∈ firstFront dom n then 0 else ranks₀ p⟩ := by
  have hc : ∀ q, dominationCount dom n q = (open_ dom n [] q : Int) := by
    intro q
    unfold dominationCount open_
    congr 1
    apply List.countP_congr
    intro p _
    simp only [Bool.and_eq_true, Bool.not_eq_true', List.not_mem_nil, not_false_eq_true,
      decide_true, and_true]
    exact ⟨fun h => h.2, fun h => ⟨hirr p q h, h⟩⟩
  have hm : ∀ q, q ∈ firstFront dom n ↔ q < n ∧ ∀ p < n, dom p q = true → p ∈ ([] : List Nat) := by
    intro q
    unfold firstFront
    rw [List.mem_filter, List.mem_range, decide_eq_true_eq, hc, Int.natCast_eq_zero, open_eq_zero]
  refine ⟨?_, ?_, by simp, ?_, fun q _ => hc q, ?_, ?_, ?_⟩
  · exact List.nodup_range.filter _
  · intro q hq
    exact ((hm q).1 (by simpa using hq)).1
  · intro q hq _
    rw [hm]
    exact ⟨fun h => h.2, fun h => ⟨hq, h⟩⟩
  · intro k f hf q hq
    rcases getElem?_snoc hf with ⟨hf, -⟩ | ⟨rfl, rfl⟩
    · cases hf
    · simp [hq]
  · intro k f hf q hq p hp hd
    rcases getElem?_snoc hf with ⟨hf, -⟩ | ⟨rfl, rfl⟩
    · cases hf
    · exact absurd (((hm q).1 hq).2 p hp hd) (by simp)
  · intro k f hf
    rcases getElem?_snoc hf with ⟨hf, -⟩ | ⟨hk, -⟩
    · cases hf
    · simp at hk

/-- A finite strict order has a minimal element outside any proper subset. -/
theorem exists_min {dom : Nat → Nat → Bool} (hasym : ∀ p q, dom p q = true → dom q p = false)
    (htr : ∀ p q r, dom p q = true → dom q r = true → dom p r = true) (n : Nat) (P : List Nat) :
    ∀ (k q : Nat), q < n → q ∉ P → open_ dom n P q ≤ k →
      ∃ m < n, m ∉ P ∧ ∀ p < n, dom p m = true → p ∈ P := by
  intro k
  induction k with
  | zero =>
    intro q hq hP hk
    exact ⟨q, hq, hP, open_eq_zero.1 (by omega)⟩
  | succ k ih =>
    intro q hq hP hk
    by_cases h0 : open_ dom n P q = 0
    · exact ⟨q, hq, hP, open_eq_zero.1 h0⟩
    · have : ¬ ∀ p < n, dom p q = true → p ∈ P := fun hc => h0 (open_eq_zero.2 hc)
      push_neg at this
      obtain ⟨p, hp, hd, hpP⟩ := this
      refine ih p hp hpP ?_
      -- dominators of p are dominators of q, and p itself is not a dominator of p
      have hlt : open_ dom n P p < open_ dom n P q := by
        unfold open_
        rw [List.countP_eq_length_filter, List.countP_eq_length_filter]
        have hsub : (List.range n).filter (fun a => dom a p && decide (a ∉ P)) ⊆
            ((List.range n).filter (fun a => dom a q && decide (a ∉ P))).erase p := by
          intro a ha
          simp only [List.mem_filter, List.mem_range, Bool.and_eq_true, decide_eq_true_eq] at ha
          have hap : a ≠ p := by
            rintro rfl
            have := hasym a a ha.2.1
            rw [ha.2.1] at this; cases this
          rw [List.mem_erase_of_ne hap]
          simp only [List.mem_filter, List.mem_range, Bool.and_eq_true, decide_eq_true_eq]
          exact ⟨ha.1, htr _ _ _ ha.2.1 hd, ha.2.2⟩
        have hle := ((List.nodup_range (n := n)).filter
          (fun a => dom a p && decide (a ∉ P))).subperm hsub |>.length_le
        have hmem : p ∈ (List.range n).filter (fun a => dom a q && decide (a ∉ P)) := by
          simp only [List.mem_filter, List.mem_range, Bool.and_eq_true, decide_eq_true_eq]
          exact ⟨hp, hd, hpP⟩
        rw [List.length_erase_of_mem hmem] at hle
        have : 0 < ((List.range n).filter (fun a => dom a q && decide (a ∉ P))).length :=
          List.length_pos_of_mem hmem
        omega
      omega

theorem sortLoop_spec {dom : Nat → Nat → Bool} (hasym : ∀ p q, dom p q = true → dom q p = false)
    (htr : ∀ p q r, dom p q = true → dom q r = true → dom p r = true) (n : Nat) :
    ∀ (fuel : Nat) (fs : List (List Nat)) (front : List Nat) (s : SortSt),
    SortInv dom n fs front s → n < fs.flatten.length + fuel →
    ∃ gs s', sortLoop dom n fuel fs front s = some (gs, s'.ranks) ∧ SortInv dom n gs [] s' ∧
      ∀ q < n, q ∈ gs.flatten := by
  intro fuel
  induction fuel with
  | zero =>
    intro fs front s h hf
    exfalso
    have hnd := (List.nodup_append.1 h.nodup).1
    have hsub : fs.flatten ⊆ List.range n := fun q hq =>
      List.mem_range.2 (h.lt q (List.mem_append_left _ hq))
    have := (hnd.subperm hsub).length_le
    rw [List.length_range] at this
    omega
  | succ fuel ih =>
    intro fs front s h hf
    by_cases hne : front = []
    · subst hne
      refine ⟨fs, s, by simp [sortLoop], h, ?_⟩
      intro q hq
      by_contra hc
      obtain ⟨m, hm, hmP, hd⟩ := exists_min hasym htr n fs.flatten _ q hq hc (le_refl _)
      have := (h.char m hm hmP).2 hd
      simp at this
    · simp only [sortLoop, hne, if_false]
      refine ih _ _ _ (h.step hne) ?_
      have : 0 < front.length := List.length_pos_of_ne_nil hne
      have hl : (fs ++ [front]).flatten.length = fs.flatten.length + front.length := by
        rw [List.flatten_append, List.length_append]; simp
      omega

/-- The Pareto ranking of `{0, ..., n-1}` under the dominance relation `dom`, stated without reference to the
algorithm. -/
structure IsParetoRanking (dom : Nat → Nat → Bool) (n : Nat) (fronts : List (List Nat))
    (ranks : Nat → Nat) : Prop where
  /-- every member is in exactly one front, once -/
  partition : fronts.flatten.Perm (List.range n)
  nonempty : ∀ f ∈ fronts, f ≠ []
  /-- the first front is the set of non-dominated members -/
  first : ∀ f, fronts[0]? = some f → ∀ q, q ∈ f ↔ q < n ∧ ∀ p < n, dom p q = false
  /-- members of a front do not dominate each other -/
  incomparable : ∀ f ∈ fronts, ∀ p ∈ f, ∀ q ∈ f, dom p q = false
  /-- a dominator is in an earlier front -/
  order : ∀ (a b : Nat) (f g : List Nat), fronts[a]? = some f → fronts[b]? = some g →
    ∀ p ∈ f, ∀ q ∈ g, dom p q = true → a < b
  /-- every member of a later front has a dominator in the front just before -/
  dominated : ∀ (k : Nat) (g : List Nat), fronts[k + 1]? = some g → ∀ q ∈ g,
    ∃ f, fronts[k]? = some f ∧ ∃ p ∈ f, dom p q = true
  rank : ∀ (k : Nat) (f : List Nat), fronts[k]? = some f → ∀ q ∈ f, ranks q = k

theorem front_unique {fs : List (List Nat)} (hnd : fs.flatten.Nodup) {a b : Nat} {f g : List Nat} {p : Nat}
    (ha : fs[a]? = some f) (hb : fs[b]? = some g) (hp : p ∈ f) (hq : p ∈ g) : a = b := by
  induction fs generalizing a b with
  | nil => cases ha
  | cons x fs ih =>
    rw [List.flatten_cons, List.nodup_append] at hnd
    cases a with
    | zero =>
      cases b with
      | zero => rfl
      | succ b =>
        simp only [List.getElem?_cons_zero, Option.some.injEq] at ha
        simp only [List.getElem?_cons_succ] at hb
        subst ha
        exact absurd rfl (hnd.2.2 p hp p (mem_flatten_of_getElem? hb hq))
    | succ a =>
      simp only [List.getElem?_cons_succ] at ha
      cases b with
      | zero =>
        simp only [List.getElem?_cons_zero, Option.some.injEq] at hb
        subst hb
        exact absurd rfl (hnd.2.2 p hq p (mem_flatten_of_getElem? ha hp))
      | succ b =>
        simp only [List.getElem?_cons_succ] at hb
        rw [ih hnd.2.1 ha hb]

/-- **C30** For every strict order the fast non-dominated sort terminates and computes the Pareto ranking. -/
theorem C30_fast_non_dominated_sort {dom : Nat → Nat → Bool}
    (hasym : ∀ p q, dom p q = true → dom q p = false)
    (htr : ∀ p q r, dom p q = true → dom q r = true → dom p r = true) (n : Nat) (ranks₀ : Nat → Nat) :
    ∃ fronts ranks, fastNonDominatedSort dom n (n + 1) ranks₀ = some (fronts, ranks) ∧
      IsParetoRanking dom n fronts ranks := by
  obtain ⟨gs, s', he, h, hall⟩ := sortLoop_spec hasym htr n (n + 1) [] _ _ (first_inv hasym n ranks₀)
    (by simp)
  have hnd : gs.flatten.Nodup := (List.nodup_append.1 h.nodup).1
  have hlt : ∀ q ∈ gs.flatten, q < n := fun q hq => h.lt q (List.mem_append_left _ hq)
  have hidx : ∀ {k : Nat} {f : List Nat}, gs[k]? = some f → (gs ++ [[]])[k]? = some f := by
    intro k f hk
    rw [List.getElem?_append_left]
    · exact hk
    · by_contra hc; rw [List.getElem?_eq_none (by omega)] at hk; cases hk
  have hord : ∀ (a b : Nat) (f g : List Nat), gs[a]? = some f → gs[b]? = some g →
      ∀ p ∈ f, ∀ q ∈ g, dom p q = true → a < b := by
    intro a b f g ha hb p hp q hq hd
    obtain ⟨j, g', hj, hg', hpg⟩ := h.down b g (hidx hb) q hq p
      (hlt p (mem_flatten_of_getElem? ha hp)) hd
    rw [front_unique hnd ha hg' hp hpg]; exact hj
  refine ⟨gs, s'.ranks, he, ?_, h.nonempty, ?_, ?_, hord, ?_, ?_⟩
  · rw [List.perm_ext_iff_of_nodup hnd List.nodup_range]
    intro a
    rw [List.mem_range]
    exact ⟨hlt a, hall a⟩
  · intro f hf q
    constructor
    · intro hq
      have hqn := hlt q (mem_flatten_of_getElem? hf hq)
      refine ⟨hqn, fun p hp => ?_⟩
      rw [Bool.eq_false_iff]
      intro hd
      obtain ⟨j, -, hj, -⟩ := h.down 0 f (hidx hf) q hq p hp hd
      omega
    · rintro ⟨hqn, hd⟩
      obtain ⟨g, hg, hqg⟩ := List.mem_flatten.1 (hall q hqn)
      obtain ⟨k, hk⟩ := List.getElem?_of_mem hg
      cases k with
      | zero => rw [hf] at hk; cases hk; exact hqg
      | succ k =>
        obtain ⟨g', hg', p, hp, hpq⟩ := h.chain k g (hidx hk) q hqg
        have hg'' : p < n := by
          rcases getElem?_snoc hg' with ⟨h1, -⟩ | ⟨-, h1⟩
          · exact hlt p (mem_flatten_of_getElem? h1 hp)
          · rw [h1] at hp; cases hp
        rw [hd p hg''] at hpq; cases hpq
  · intro f hf p hp q hq
    rw [Bool.eq_false_iff]
    intro hd
    obtain ⟨k, hk⟩ := List.getElem?_of_mem hf
    exact absurd (hord k k f f hk hk p hp q hq hd) (lt_irrefl _)
  · intro k g hg q hq
    obtain ⟨f, hf, hp⟩ := h.chain k g (hidx hg) q hq
    rcases getElem?_snoc hf with ⟨h1, -⟩ | ⟨-, h1⟩
    · exact ⟨f, h1, hp⟩
    · obtain ⟨p, hp, -⟩ := hp; rw [h1] at hp; cases hp
  · intro k f hf q hq
    exact h.ranks k f (hidx hf) q hq

/-- **C30** The sort applied to objective vectors over a total order, whatever `ranks` held before. -/
theorem C30_pareto_fronts {R : Type} [LinearOrder R] (m n : Nat) (obj : Nat → Nat → R)
    (ranks₀ : Nat → Nat) :
    ∃ fronts ranks,
      fastNonDominatedSort (fun p q => dominates m (obj p) (obj q)) n (n + 1) ranks₀ =
        some (fronts, ranks) ∧
      IsParetoRanking (fun p q => dominates m (obj p) (obj q)) n fronts ranks := by
  obtain ⟨-, h1, h2⟩ := C29_dominates_strict_order (R := R) m
  apply C30_fast_non_dominated_sort
  · intro p q h; exact h1 _ _ h
  · intro p q r h h'; exact h2 _ _ _ h h'

/-- A ranking is determined by the dominance relation: two rankings have the same fronts up to the order inside a
front. -/
theorem IsParetoRanking.unique {dom : Nat → Nat → Bool} {n : Nat} {fs gs : List (List Nat)}
    {r r' : Nat → Nat} (h : IsParetoRanking dom n fs r) (h' : IsParetoRanking dom n gs r') :
    ∀ q < n, r q = r' q := by
  have key : ∀ (fs gs : List (List Nat)) (r r' : Nat → Nat), IsParetoRanking dom n fs r →
      IsParetoRanking dom n gs r' → ∀ (k : Nat) (f : List Nat), fs[k]? = some f → ∀ q ∈ f, k ≤ r' q := by
    intro fs gs r r' h h' k
    induction k with
    | zero => intros; omega
    | succ k ih =>
      intro f hf q hq
      obtain ⟨g, hg, p, hp, hd⟩ := h.dominated k f hf q hq
      have h1 := ih g hg p hp
      have hpn : p < n := List.mem_range.1 (h.partition.mem_iff.1 (mem_flatten_of_getElem? hg hp))
      have hqn : q < n := List.mem_range.1 (h.partition.mem_iff.1 (mem_flatten_of_getElem? hf hq))
      obtain ⟨gp, hgp, hpgp⟩ := List.mem_flatten.1 (h'.partition.mem_iff.2 (List.mem_range.2 hpn))
      obtain ⟨gq, hgq, hqgq⟩ := List.mem_flatten.1 (h'.partition.mem_iff.2 (List.mem_range.2 hqn))
      obtain ⟨a, ha⟩ := List.getElem?_of_mem hgp
      obtain ⟨b, hb⟩ := List.getElem?_of_mem hgq
      have := h'.order a b gp gq ha hb p hpgp q hqgq hd
      rw [h'.rank a gp ha p hpgp] at h1
      rw [h'.rank b gq hb q hqgq]
      omega
  intro q hq
  obtain ⟨f, hf, hqf⟩ := List.mem_flatten.1 (h.partition.mem_iff.2 (List.mem_range.2 hq))
  obtain ⟨g, hg, hqg⟩ := List.mem_flatten.1 (h'.partition.mem_iff.2 (List.mem_range.2 hq))
  obtain ⟨a, ha⟩ := List.getElem?_of_mem hf
  obtain ⟨b, hb⟩ := List.getElem?_of_mem hg
  have h1 := key fs gs r r' h h' a f ha q hqf
  have h2 := key gs fs r' r h' h b g hb q hqg
  rw [h.rank a f ha q hqf] at *
  rw [h'.rank b g hb q hqg] at *
  omega

/-- **C30** (refuted part) With NaN objective values dominance can be cyclic; then there is no front at all, and
the accesses to `fronts[0]` after the sort (nsga2_impl.hpp:201, agemoea_impl.hpp:162) are out of bounds. -/
theorem C30_nan_no_front_refuted :
    ¬ ∀ (m n : Nat) (obj : Nat → Nat → Dbl) (fronts : List (List Nat)) (ranks : Nat → Nat), 0 < n →
      fastNonDominatedSort (fun p q => dominates m (obj p) (obj q)) n (n + 1) (fun _ => 0) =
        some (fronts, ranks) → fronts ≠ [] := by
  intro h
  exact h 3 3 (fun p i => if p = i then .fin 0 else if (p + 2) % 3 = i then .fin 1 else .nan) []
    _ (by decide) rfl rfl

/-- Non-vacuity: four members with two objectives; two of them are copies of each other. -/
example : (fastNonDominatedSort (fun p q => dominates 2
      (fun i => if p = 0 then if i = 0 then (1 : Int) else 4 else if p = 1 then 9 else if i = 0 then 2 else 5)
      (fun i => if q = 0 then if i = 0 then 1 else 4 else if q = 1 then 9 else if i = 0 then 2 else 5)) 4 5
      (fun _ => 77)).map (fun r => (r.1, (List.range 4).map r.2)) =
    some ([[0], [2, 3], [1]], [0, 2, 1, 1]) := by decide +kernel

end Ens.Moo
