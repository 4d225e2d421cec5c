import Verif.Moo.Survival

/-
AGEMOEA, survival scores: C193, C195.
-/

namespace Ens.Moo.Agemoea

open Ens.Moo

variable {K : Type} [Field K] [LinearOrder K]

/-! ### Smallest and greatest entries -/

omit [Field K] in
theorem fold_min (d : Nat → WithTop K) : ∀ (l : List Nat) (s : Nat × WithTop K),
    let r := l.foldl (fun s i => if d i < s.2 then (i, d i) else s) s
    (r = s ∨ (r.1 ∈ l ∧ r.2 = d r.1)) ∧ r.2 ≤ s.2 ∧ ∀ j ∈ l, r.2 ≤ d j := by
  intro l
  induction l with
  | nil => intro s; exact ⟨.inl rfl, le_refl _, fun j hj => by cases hj⟩
  | cons a l ih =>
    intro s
    simp only [List.foldl_cons]
    by_cases h : d a < s.2
    · rw [if_pos h]
      obtain ⟨h1, h2, h3⟩ := ih (a, d a)
      refine ⟨.inr ?_, h2.trans h.le, ?_⟩
      · rcases h1 with h1 | ⟨h1, h4⟩
        · rw [h1]; exact ⟨by simp, rfl⟩
        · exact ⟨by simp [h1], h4⟩
      · intro j hj
        rcases List.mem_cons.1 hj with rfl | hj
        · exact h2
        · exact h3 j hj
    · rw [if_neg h]
      obtain ⟨h1, h2, h3⟩ := ih s
      refine ⟨?_, h2, ?_⟩
      · rcases h1 with h1 | ⟨h1, h4⟩
        · exact .inl h1
        · exact .inr ⟨by simp [h1], h4⟩
      · intro j hj
        rcases List.mem_cons.1 hj with rfl | hj
        · exact h2.trans (not_lt.1 h)
        · exact h3 j hj

omit [Field K] in
theorem indexMin_spec {n : Nat} {d : Nat → WithTop K} (h : ∃ j < n, d j ≠ ⊤) :
    indexMin n d < n ∧ d (indexMin n d) ≠ ⊤ ∧ ∀ j < n, d (indexMin n d) ≤ d j := by
  obtain ⟨h1, -, h3⟩ := fold_min d (List.range n) (0, ⊤)
  obtain ⟨j, hj, hd⟩ := h
  rcases h1 with h1 | ⟨h1, h2⟩
  · have := h3 j (List.mem_range.2 hj)
    rw [h1] at this
    exact absurd (top_le_iff.1 this) hd
  · have e : d (indexMin n d) = _ := h2.symm
    refine ⟨List.mem_range.1 h1, ?_, fun j hj => by rw [e]; exact h3 j (List.mem_range.2 hj)⟩
    intro hc
    have := h3 j (List.mem_range.2 hj)
    rw [← e, hc] at this
    exact hd (top_le_iff.1 this)

omit [Field K] in
theorem fold_max (v : Nat → K) : ∀ (l : List Nat) (s : Nat × WithBot K),
    let r := l.foldl (fun s i => if s.2 < (v i : WithBot K) then (i, (v i : WithBot K)) else s) s
    (r = s ∨ (r.1 ∈ l ∧ r.2 = v r.1)) ∧ s.2 ≤ r.2 ∧ ∀ j ∈ l, (v j : WithBot K) ≤ r.2 := by
  intro l
  induction l with
  | nil => intro s; exact ⟨.inl rfl, le_refl _, fun j hj => by cases hj⟩
  | cons a l ih =>
    intro s
    simp only [List.foldl_cons]
    by_cases h : s.2 < (v a : WithBot K)
    · rw [if_pos h]
      obtain ⟨h1, h2, h3⟩ := ih (a, v a)
      refine ⟨.inr ?_, h.le.trans h2, ?_⟩
      · rcases h1 with h1 | ⟨h1, h4⟩
        · rw [h1]; exact ⟨by simp, rfl⟩
        · exact ⟨by simp [h1], h4⟩
      · intro j hj
        rcases List.mem_cons.1 hj with rfl | hj
        · exact h2
        · exact h3 j hj
    · rw [if_neg h]
      obtain ⟨h1, h2, h3⟩ := ih s
      refine ⟨?_, h2, ?_⟩
      · rcases h1 with h1 | ⟨h1, h4⟩
        · exact .inl h1
        · exact .inr ⟨by simp [h1], h4⟩
      · intro j hj
        rcases List.mem_cons.1 hj with rfl | hj
        · exact (not_lt.1 h).trans h2
        · exact h3 j hj

omit [Field K] in
theorem indexMax_spec {n : Nat} {v : Nat → K} (h : 0 < n) :
    indexMax n v < n ∧ ∀ j < n, v j ≤ v (indexMax n v) := by
  obtain ⟨h1, -, h3⟩ := fold_max v (List.range n) (0, ⊥)
  rcases h1 with h1 | ⟨h1, h2⟩
  · have := h3 0 (List.mem_range.2 h)
    rw [h1] at this
    simp at this
  · have e : (v (indexMax n v) : WithBot K) = _ := h2.symm
    refine ⟨List.mem_range.1 h1, fun j hj => ?_⟩
    have := h3 j (List.mem_range.2 hj)
    rw [← e] at this
    exact WithBot.coe_le_coe.1 this

/-! ### Extreme points -/

theorem exists_unselected {n : Nat} {sel : List Nat} (h : sel.length < n) : ∃ j < n, j ∉ sel := by
  by_contra hc
  have : List.range n ⊆ sel := fun j hj => by
    by_contra hj'
    exact hc ⟨j, List.mem_range.1 hj, hj'⟩
  have := (List.subperm_of_subset List.nodup_range this).length_le
  rw [List.length_range] at this
  omega

/-- The points found are pairwise different, and the `i`-th is nearest to the `i`-th axis among those not found before. -/
theorem extremes_spec {m : Nat} {front : List Nat} (objs : Nat → Nat → K) (h : m < front.length) :
    (extremes m front objs).Nodup ∧ (extremes m front objs).length = m ∧
    (∀ i ∈ extremes m front objs, i < front.length) ∧
    ∀ (i e : Nat), (extremes m front objs)[i]? = some e → ∀ j < front.length, j ∉ (extremes m front objs).take i →
      lineDistance m (fun _ => 0) (axis i) (objs (member front e)) ≤
        lineDistance m (fun _ => 0) (axis i) (objs (member front j)) := by
  have key : ∀ q ≤ m, ∀ l : List Nat, (List.range q).foldl (fun sel i => sel ++ [indexMin front.length fun j =>
      if j ∈ sel then ⊤ else ((lineDistance m (fun _ => 0) (axis i) (objs (member front j)) : K) : WithTop K)]) [] = l →
      l.Nodup ∧ l.length = q ∧ (∀ i ∈ l, i < front.length) ∧
      ∀ (i e : Nat), l[i]? = some e → ∀ j < front.length, j ∉ l.take i →
      lineDistance m (fun _ => 0) (axis i) (objs (member front e)) ≤
        lineDistance m (fun _ => 0) (axis i) (objs (member front j)) := by
    intro q
    induction q with
    | zero =>
      rintro - l rfl
      exact ⟨List.nodup_nil, rfl, fun i hi => by simp at hi, fun i e hi => by simp at hi⟩
    | succ q ih =>
      intro hq l hl
      rw [List.range_succ, List.foldl_append] at hl
      obtain ⟨h1, h2, h3, h4⟩ := ih (by omega) _ rfl
      generalize (List.range q).foldl (fun sel i => sel ++ [indexMin front.length fun j =>
        if j ∈ sel then ⊤ else ((lineDistance m (fun _ => 0) (axis i) (objs (member front j)) : K) : WithTop K)]) [] = s
        at hl h1 h2 h3 h4
      simp only [List.foldl_cons, List.foldl_nil] at hl
      set d : Nat → WithTop K := fun j => if j ∈ s then ⊤ else
        ((lineDistance m (fun _ => 0) (axis q) (objs (member front j)) : K) : WithTop K) with hd
      obtain ⟨j₀, hj₀, hjs⟩ := exists_unselected (n := front.length) (sel := s) (by omega)
      obtain ⟨a1, a2, a3⟩ := indexMin_spec (n := front.length) (d := d) ⟨j₀, hj₀, by simp [hd, hjs]⟩
      have hns : indexMin front.length d ∉ s := by
        intro hc; exact a2 (by simp only [hd]; rw [if_pos hc])
      subst hl
      refine ⟨?_, by simp [h2], ?_, ?_⟩
      · rw [List.nodup_append]
        exact ⟨h1, List.nodup_singleton _, fun a ha b hb => by
          rw [List.mem_singleton] at hb; subst hb; rintro rfl; exact hns ha⟩
      · intro i hi
        rcases List.mem_append.1 hi with hi | hi
        · exact h3 i hi
        · rw [List.mem_singleton] at hi; subst hi; exact a1
      · intro i e hi j hj hjt
        by_cases hiq : i < q
        · rw [List.getElem?_append_left (by omega)] at hi
          rw [List.take_append_of_le_length (by omega)] at hjt
          exact h4 i e hi j hj hjt
        · have hi' := getElem?_lt hi
          simp only [List.length_append, List.length_singleton, h2] at hi'
          obtain rfl : i = q := by omega
          rw [List.getElem?_append_right (by omega), h2, Nat.sub_self, List.getElem?_cons_zero, Option.some.injEq] at hi
          rw [List.take_append_of_le_length (by omega), List.take_of_length_le (by omega)] at hjt
          have := a3 j hj
          rw [hi] at hns this
          simp only [hd, if_neg hns, if_neg hjt] at this
          exact WithTop.coe_le_coe.1 this
  unfold extremes
  rw [if_neg (by omega)]
  exact key m (le_refl _) _ rfl

theorem extremes_eq {m : Nat} {front : List Nat} (objs : Nat → Nat → K) (h : m = front.length) :
    extremes m front objs = List.range m := by
  unfold extremes
  rw [if_pos (by omega), h]

/-- In a front with at least `m` members there are `m` extreme positions. -/
theorem extremes_basic {m : Nat} {front : List Nat} (objs : Nat → Nat → K) (h : m ≤ front.length) :
    (extremes m front objs).Nodup ∧ (extremes m front objs).length = m ∧
    (∀ i ∈ extremes m front objs, i < front.length) := by
  rcases Nat.lt_or_eq_of_le h with h | h
  · obtain ⟨a, b, c, -⟩ := extremes_spec objs h
    exact ⟨a, b, c⟩
  · rw [extremes_eq objs h]
    exact ⟨List.nodup_range, List.length_range, fun i hi => by rw [List.mem_range] at hi; omega⟩

/-! ### The two smallest entries -/

/-- The sum of the two smallest elements (of all elements if there are fewer). -/
def twoSmallest (l : List K) : K := ((l.insertionSort (· ≤ ·)).take 2).sum

def least (l : List K) : WithTop K := l.head?.elim ⊤ (fun v => (v : WithTop K))

omit [Field K] in
theorem insert_two (v : K) {s : List K} (hs : s.Pairwise (· ≤ ·)) :
    (if (v : WithTop K) < least s then ((v : WithTop K), least s)
      else if (v : WithTop K) < least s.tail then (least s, (v : WithTop K)) else (least s, least s.tail)) =
    (least (s.orderedInsert (· ≤ ·) v), least (s.orderedInsert (· ≤ ·) v).tail) := by
  rcases s with _ | ⟨a, _ | ⟨b, s⟩⟩
  · simp [least]
  · by_cases h : v ≤ a
    · rw [List.orderedInsert_cons, if_pos h]
      rcases h.lt_or_eq with h | h
      · simp [least, h]
      · subst h; simp [least]
    · have h' : ¬ v < a := fun hc => h hc.le
      rw [List.orderedInsert_cons, if_neg h]
      simp [least, h']
  · have hab : a ≤ b := by
      rw [List.pairwise_cons] at hs
      exact hs.1 b (by simp)
    by_cases h : v ≤ a
    · rw [List.orderedInsert_cons, if_pos h]
      rcases h.lt_or_eq with h | h
      · simp [least, h]
      · subst h
        rcases hab.lt_or_eq with hb | hb
        · simp [least, hb]
        · subst hb; simp [least]
    · have h' : ¬ v < a := fun hc => h hc.le
      rw [List.orderedInsert_cons, if_neg h]
      by_cases hb : v ≤ b
      · rw [List.orderedInsert_cons, if_pos hb]
        rcases hb.lt_or_eq with hb | hb
        · simp [least, h', hb]
        · subst hb; simp [least, h']
      · have hb' : ¬ v < b := fun hc => hb hc.le
        rw [List.orderedInsert_cons, if_neg hb]
        simp [least, h', hb']

/-- Entries compared by `DiversityScore`. -/
def entriesOf (f : Nat → Nat → Option K) (S : Nat) (sel : List Nat) : List K :=
  (sel.filter fun t => t ≠ S).filterMap (f S)

omit [Field K] in
theorem diversity_fold (f : Nat → Nat → Option K) (S : Nat) : ∀ (sel : List Nat) (l : List K) (s : List K),
    s = l.insertionSort (· ≤ ·) →
    sel.foldl (diversityStep f S) (least s, least s.tail) =
      (least ((l ++ entriesOf f S sel).insertionSort (· ≤ ·)), least ((l ++ entriesOf f S sel).insertionSort (· ≤ ·)).tail) := by
  intro sel
  induction sel with
  | nil => rintro l s rfl; simp [entriesOf]
  | cons t sel ih =>
    rintro l s rfl
    rw [List.foldl_cons]
    by_cases ht : t = S
    · have e : entriesOf f S (t :: sel) = entriesOf f S sel := by simp [entriesOf, ht]
      rw [e, diversityStep, if_pos ht]
      exact ih l _ rfl
    · rw [diversityStep, if_neg ht]
      cases hf : f S t with
      | none =>
        have e : entriesOf f S (t :: sel) = entriesOf f S sel := by simp [entriesOf, ht, hf]
        rw [e]
        exact ih l _ rfl
      | some v =>
        have e : entriesOf f S (t :: sel) = v :: entriesOf f S sel := by simp [entriesOf, ht, hf]
        have hs := List.pairwise_insertionSort (r := (· ≤ ·)) (l : List K)
        have hh : (l.insertionSort (· ≤ ·)).orderedInsert (· ≤ ·) v = (l ++ [v]).insertionSort (· ≤ ·) := by
          apply List.Perm.eq_of_pairwise' (r := (· ≤ ·))
          · exact List.Pairwise.orderedInsert _ _ hs
          · exact List.pairwise_insertionSort _ _
          · refine (List.perm_orderedInsert _ _ _).trans ?_
            refine ((List.perm_insertionSort _ l).cons v).trans ?_
            exact (List.perm_append_singleton v l).symm.trans (List.perm_insertionSort _ _).symm
        have h2 := insert_two v hs
        rw [hh] at h2
        simp only
        rw [h2, e, ih (l ++ [v]) _ rfl, List.append_assoc]
        rfl

/-- `DiversityScore` is the sum of the two smallest entries that are not divisions by zero. -/
theorem diversity_eq (f : Nat → Nat → Option K) (S : Nat) (sel : List Nat) :
    diversity sel f S = twoSmallest (entriesOf f S sel) := by
  have h := diversity_fold f S sel [] [] rfl
  simp only [List.nil_append] at h
  unfold diversity
  rw [show ((⊤, ⊤) : WithTop K × WithTop K) = (least [], least ([] : List K).tail) from rfl, h]
  unfold twoSmallest
  generalize (entriesOf f S sel).insertionSort (· ≤ ·) = s
  rcases s with _ | ⟨a, _ | ⟨b, s⟩⟩ <;> simp [least]

theorem twoSmallest_perm {l l' : List K} (h : l.Perm l') : twoSmallest l = twoSmallest l' := by
  unfold twoSmallest
  rw [List.Perm.eq_of_pairwise' (List.pairwise_insertionSort (· ≤ ·) l) (List.pairwise_insertionSort (· ≤ ·) l')
    ((List.perm_insertionSort _ l).trans (h.trans (List.perm_insertionSort _ l').symm))]

variable [IsStrictOrderedRing K]

theorem twoSmallest_nonneg {l : List K} (h : ∀ v ∈ l, 0 ≤ v) : 0 ≤ twoSmallest l :=
  List.sum_nonneg fun v hv => h v ((List.mem_insertionSort _).1 (List.mem_of_mem_take hv))

/-- More entries, smaller sum, provided that there were two. -/
theorem twoSmallest_append {l : List K} (l' : List K) (h : 2 ≤ l.length) : twoSmallest (l ++ l') ≤ twoSmallest l := by
  induction l' using List.reverseRecOn with
  | nil => rw [List.append_nil]
  | append_singleton l' v ih =>
    refine le_trans ?_ ih
    rw [← List.append_assoc, twoSmallest_perm (List.perm_append_singleton v (l ++ l'))]
    unfold twoSmallest
    rw [List.insertionSort_cons]
    have hlen : 2 ≤ ((l ++ l').insertionSort (· ≤ ·)).length := by
      rw [List.length_insertionSort, List.length_append]; omega
    have hs := List.pairwise_insertionSort (r := (· ≤ ·)) (l ++ l')
    generalize (l ++ l').insertionSort (· ≤ ·) = s at hlen hs
    rcases s with _ | ⟨a, _ | ⟨b, s⟩⟩
    · simp at hlen
    · simp at hlen
    · have hab : a ≤ b := (List.pairwise_cons.1 hs).1 b (by simp)
      by_cases h1 : v ≤ a
      · rw [List.orderedInsert_cons, if_pos h1]
        simp only [List.take_succ_cons, List.take_zero, List.sum_cons, List.sum_nil, add_zero]
        linarith
      · rw [List.orderedInsert_cons, if_neg h1]
        by_cases h2 : v ≤ b
        · rw [List.orderedInsert_cons, if_pos h2]
          simp only [List.take_succ_cons, List.take_zero, List.sum_cons, List.sum_nil, add_zero]
          linarith
        · rw [List.orderedInsert_cons, if_neg h2]
          simp only [List.take_succ_cons, List.take_zero, List.sum_cons, List.sum_nil, add_zero]
          exact le_refl _

/-! ### The ideal point and the normalisation -/

omit [Field K] [IsStrictOrderedRing K] in
theorem idealPoint_spec (objs : Nat → Nat → K) (k : Nat) : ∀ (rest : List Nat) (first : Nat),
    (∀ p ∈ first :: rest, idealPoint objs first rest k ≤ objs p k) ∧
    ∃ p ∈ first :: rest, objs p k = idealPoint objs first rest k := by
  have key : ∀ (rest : List Nat) (acc : Nat → K),
      let r := rest.foldl (fun acc p k => min (acc k) (objs p k)) acc
      r k ≤ acc k ∧ (∀ p ∈ rest, r k ≤ objs p k) ∧ (r k = acc k ∨ ∃ p ∈ rest, objs p k = r k) := by
    intro rest
    induction rest with
    | nil => intro acc; exact ⟨le_refl _, (fun p hp => by cases hp), .inl rfl⟩
    | cons a rest ih =>
      intro acc
      obtain ⟨h1, h2, h3⟩ := ih (fun k => min (acc k) (objs a k))
      simp only [List.foldl_cons]
      refine ⟨h1.trans (min_le_left _ _), ?_, ?_⟩
      · intro p hp
        rcases List.mem_cons.1 hp with rfl | hp
        · exact h1.trans (min_le_right _ _)
        · exact h2 p hp
      · rcases h3 with h3 | ⟨p, hp, h3⟩
        · rcases min_choice (acc k) (objs a k) with hc | hc
          · exact .inl (by rw [h3, hc])
          · exact .inr ⟨a, by simp, by rw [h3, hc]⟩
        · exact .inr ⟨p, by simp [hp], h3⟩
  intro rest first
  obtain ⟨h1, h2, h3⟩ := key rest (objs first)
  refine ⟨?_, ?_⟩
  · intro p hp
    rcases List.mem_cons.1 hp with rfl | hp
    · exact h1
    · exact h2 p hp
  · rcases h3 with h3 | ⟨p, hp, h3⟩
    · exact ⟨first, by simp, h3.symm⟩
    · exact ⟨p, by simp [hp], h3⟩

omit [IsStrictOrderedRing K] [Field K] in
/-- Every member has a member of the first front that is at least as good. -/
theorem first_below {m n : Nat} {obj : Nat → Nat → K} {f : List Nat} {later : List (List Nat)} {ranks : Nat → Nat}
    (hr : IsParetoRanking (fun p q => dominates m (obj p) (obj q)) n (f :: later) ranks) {i : Nat} (hi : i < n) :
    ∃ p ∈ f, ∀ k < m, obj p k ≤ obj i k := by
  have key : ∀ (a : Nat) (g : List Nat), (f :: later)[a]? = some g → ∀ q ∈ g, ∃ p ∈ f, ∀ k < m, obj p k ≤ obj q k := by
    intro a
    induction a with
    | zero =>
      intro g hg q hq
      simp only [List.getElem?_cons_zero, Option.some.injEq] at hg
      subst hg
      exact ⟨q, hq, fun k _ => le_refl _⟩
    | succ a ih =>
      intro g hg q hq
      obtain ⟨g', hg', p, hp, hd⟩ := hr.dominated a g hg q hq
      obtain ⟨r, hr', hle⟩ := ih g' hg' p hp
      have := ((C29_dominates_iff m _ _).1 hd).1
      exact ⟨r, hr', fun k hk => (hle k hk).trans (this k hk)⟩
  have : i ∈ (f :: later).flatten := hr.partition.mem_iff.2 (List.mem_range.2 hi)
  obtain ⟨g, hg, hig⟩ := List.mem_flatten.1 this
  obtain ⟨a, ha⟩ := List.getElem?_of_mem hg
  exact key a g ha i hig

omit [Field K] [IsStrictOrderedRing K] in
theorem frontMax_spec (objs : Nat → Nat → K) (k : Nat) {front : List Nat} (hne : front ≠ []) :
    (∀ p ∈ front, objs p k ≤ frontMax front objs k) ∧ ∃ p ∈ front, objs p k = frontMax front objs k := by
  have key : ∀ (rest : List Nat) (acc : K),
      let r := rest.foldl (fun acc p => max acc (objs p k)) acc
      acc ≤ r ∧ (∀ p ∈ rest, objs p k ≤ r) ∧ (r = acc ∨ ∃ p ∈ rest, objs p k = r) := by
    intro rest
    induction rest with
    | nil => intro acc; exact ⟨le_refl _, (fun p hp => by cases hp), .inl rfl⟩
    | cons a rest ih =>
      intro acc
      obtain ⟨h1, h2, h3⟩ := ih (max acc (objs a k))
      simp only [List.foldl_cons]
      refine ⟨(le_max_left _ _).trans h1, ?_, ?_⟩
      · intro p hp
        rcases List.mem_cons.1 hp with rfl | hp
        · exact (le_max_right _ _).trans h1
        · exact h2 p hp
      · rcases h3 with h3 | ⟨p, hp, h3⟩
        · rcases max_choice acc (objs a k) with hc | hc
          · exact .inl (by rw [h3, hc])
          · exact .inr ⟨a, by simp, by rw [h3, hc]⟩
        · exact .inr ⟨p, by simp [hp], h3⟩
  rcases front with _ | ⟨first, rest⟩
  · exact absurd rfl hne
  obtain ⟨h1, h2, h3⟩ := key rest (objs first k)
  refine ⟨?_, ?_⟩
  · intro p hp
    rcases List.mem_cons.1 hp with rfl | hp
    · exact h1
    · exact h2 p hp
  · rcases h3 with h3 | ⟨p, hp, h3⟩
    · exact ⟨first, by simp, h3.symm⟩
    · exact ⟨p, by simp [hp], h3⟩

theorem fixZero_pos {v : Nat → K} {k : Nat} (h : 0 ≤ v k) : 0 < fixZero v k := by
  unfold fixZero
  split_ifs with h0
  · rw [h0]; norm_num
  · rw [add_zero]; exact lt_of_le_of_ne h (Ne.symm h0)

/-- In a front with at least `m` members whose objectives are not negative, all divisors are positive. -/
theorem normalizeFront_pos (o : Ops K) {m : Nat} {front ext : List Nat} {objs : Nat → Nat → K} (hlen : m ≤ front.length)
    (hext : ext.Nodup) (h0 : ∀ p ∈ front, ∀ k < m, 0 ≤ objs p k) {k : Nat} (hk : k < m) :
    0 < normalizeFront o m front ext objs k := by
  have hne : front ≠ [] := by rintro rfl; simp at hlen; omega
  have htop : 0 ≤ frontMax front objs k := by
    obtain ⟨p, hp, he⟩ := (frontMax_spec objs k hne).2
    rw [← he]; exact h0 p hp k hk
  unfold normalizeFront
  rw [if_neg (by omega), if_neg (by simpa using hext)]
  cases o.solve m (fun i k => objs (member front (ext.getD i 0)) k) with
  | none => exact fixZero_pos htop
  | some r =>
    cases r with
    | none => exact fixZero_pos htop
    | some h =>
      simp only
      split_ifs with h1 h2
      · exact fixZero_pos htop
      · exact fixZero_pos htop
      · apply fixZero_pos
        have : 0 ≤ h k := by
          by_contra hc
          exact h1 ⟨k, List.mem_range.2 hk, not_le.1 hc⟩
        positivity

/-! ### The greedy selection -/

omit [IsStrictOrderedRing K] in
theorem member_mem {front : List Nat} {i : Nat} (h : i < front.length) : member front i ∈ front := by
  unfold member
  rw [List.getD_eq_getElem?_getD, List.getElem?_eq_getElem h, Option.getD_some]
  exact List.getElem_mem _

omit [IsStrictOrderedRing K] in
theorem member_inj {front : List Nat} (hnd : front.Nodup) {i j : Nat} (hi : i < front.length) (hj : j < front.length)
    (h : member front i = member front j) : i = j := by
  unfold member at h
  rw [List.getD_eq_getElem?_getD, List.getD_eq_getElem?_getD, List.getElem?_eq_getElem hi, List.getElem?_eq_getElem hj,
    Option.getD_some, Option.getD_some, hnd.getElem_inj_iff] at h
  exact h

theorem diversity_nonneg {f : Nat → Nat → Option K} (hf : ∀ s t v, f s t = some v → 0 ≤ v) (sel : List Nat) (S : Nat) :
    0 ≤ diversity sel f S := by
  rw [diversity_eq]
  apply twoSmallest_nonneg
  intro v hv
  obtain ⟨t, -, ht⟩ := List.mem_filterMap.1 hv
  exact hf S t v ht

/-- One pass selects a remaining position with the greatest value. -/
theorem pick_spec {front : List Nat} {f : Nat → Nat → Option K} (hf : ∀ s t v, f s t = some v → 0 ≤ v) {s : Sel K}
    (hlt : ∀ i ∈ s.remaining, i < front.length) (hne : s.remaining ≠ []) :
    indexMax front.length (values front f s) ∈ s.remaining ∧
    ∀ j ∈ s.remaining, diversity (ascending front.length s.selected) f j ≤
      diversity (ascending front.length s.selected) f (indexMax front.length (values front f s)) := by
  obtain ⟨j₀, hj₀⟩ := List.exists_mem_of_ne_nil _ hne
  have hl := hlt j₀ hj₀
  obtain ⟨-, h2⟩ := indexMax_spec (n := front.length) (v := values front f s) (by omega)
  have hv : ∀ j ∈ s.remaining, values front f s j = diversity (ascending front.length s.selected) f j :=
    fun j hj => if_pos hj
  have hmem : indexMax front.length (values front f s) ∈ s.remaining := by
    by_contra hc
    have e : values front f s (indexMax front.length (values front f s)) = -1 := if_neg hc
    have := h2 j₀ hl
    rw [e, hv j₀ hj₀] at this
    have := diversity_nonneg hf (ascending front.length s.selected) j₀
    linarith
  refine ⟨hmem, fun j hj => ?_⟩
  rw [← hv j hj, ← hv _ hmem]
  exact h2 j (hlt j hj)

/-- The loop ends after one pass per remaining position. -/
theorem pickAll_spec {front : List Nat} (hnd : front.Nodup) {f : Nat → Nat → Option K}
    (hf : ∀ s t v, f s t = some v → 0 ≤ v) : ∀ (fuel : Nat) (s : Sel K), s.remaining.length ≤ fuel → s.remaining.Nodup →
    (∀ i ∈ s.remaining, i < front.length) →
    ∃ s' order, pickAll front f fuel s = some s' ∧ order.Perm s.remaining ∧
      (∀ pre i post, order = pre ++ i :: post →
        s'.score (member front i) = ((diversity (ascending front.length (s.selected ++ pre)) f i : K) : WithTop K) ∧
        ∀ j ∈ post, diversity (ascending front.length (s.selected ++ pre)) f j ≤
          diversity (ascending front.length (s.selected ++ pre)) f i) ∧
      ∀ q, (∀ i ∈ order, member front i ≠ q) → s'.score q = s.score q := by
  intro fuel
  induction fuel with
  | zero =>
    intro s h1 _ _
    have : s.remaining = [] := List.length_eq_zero_iff.1 (by omega)
    refine ⟨s, [], by rw [pickAll, if_pos this], by rw [this], ?_, fun q _ => rfl⟩
    intro pre i post h
    simp at h
  | succ fuel ih =>
    intro s h1 h2 h3
    by_cases hne : s.remaining = []
    · refine ⟨s, [], by rw [pickAll, if_pos hne], by rw [hne], ?_, fun q _ => rfl⟩
      intro pre i post h
      simp at h
    · obtain ⟨hmem, hmax⟩ := pick_spec hf h3 hne
      have hval : values front f s (indexMax front.length (values front f s)) = _ := if_pos hmem
      set i₀ := indexMax front.length (values front f s) with hi₀
      have hp : pickNext front f s = ⟨s.selected ++ [i₀], s.remaining.erase i₀,
          Function.update s.score (member front i₀) ((values front f s i₀ : K) : WithTop K)⟩ := rfl
      obtain ⟨s', order, a1, a2, a3, a4⟩ := ih (pickNext front f s)
        (by rw [hp]; simp only [List.length_erase_of_mem hmem]; omega) (by rw [hp]; exact h2.erase _)
        (by rw [hp]; intro i hi; exact h3 i (List.mem_of_mem_erase hi))
      rw [hp] at a2 a3 a4
      simp only at a2 a3 a4
      have hnot : ∀ i ∈ order, member front i ≠ member front i₀ := by
        intro i hi hc
        have hi := a2.mem_iff.1 hi
        have := member_inj hnd (h3 i (List.mem_of_mem_erase hi)) (h3 i₀ hmem) hc
        subst this
        exact (List.Nodup.mem_erase_iff h2).1 hi |>.1 rfl
      refine ⟨s', i₀ :: order, by rw [pickAll, if_neg hne, a1], (a2.cons i₀).trans (List.perm_cons_erase hmem).symm, ?_, ?_⟩
      · intro pre i post h
        rcases pre with _ | ⟨b, pre⟩
        · simp only [List.nil_append, List.cons.injEq] at h
          obtain ⟨rfl, rfl⟩ := h
          rw [List.append_nil]
          refine ⟨?_, fun j hj => hmax j (List.mem_of_mem_erase (a2.mem_iff.1 hj))⟩
          rw [a4 _ hnot, Function.update_self, hval]
        · simp only [List.cons_append, List.cons.injEq] at h
          obtain ⟨rfl, h⟩ := h
          have := a3 pre i post h
          rw [List.append_assoc] at this
          exact this
      · intro q hq
        rw [a4 q fun i hi => hq i (by simp [hi]), Function.update_of_ne]
        exact (hq i₀ (by simp)).symm

end Ens.Moo.Agemoea
