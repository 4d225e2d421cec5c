import Verif.Moo.SurvivalProps

/-
AGEMOEA, survival scores of the first front: C193, C195.
-/

namespace Ens.Moo.Agemoea

open Ens.Moo

variable {K : Type} [Field K] [LinearOrder K]

/-- What is required of `pow`. -/
structure Ops.Sane (o : Ops K) : Prop where
  pow_nonneg : ∀ x p, 0 ≤ x → 0 ≤ o.pow x p
  pow_pos : ∀ x p, 0 < x → 0 < o.pow x p
  zero_pow : ∀ p, 0 < p → o.pow 0 p = 0

variable [IsStrictOrderedRing K]

theorem accu_nonneg {m : Nat} {v : Nat → K} (h : ∀ k < m, 0 ≤ v k) : 0 ≤ accu m v := by
  unfold accu
  apply List.sum_nonneg
  intro x hx
  obtain ⟨k, hk, rfl⟩ := List.mem_map.1 hx
  exact h k (List.mem_range.1 hk)

theorem accu_eq_zero {m : Nat} {v : Nat → K} (h : ∀ k < m, 0 ≤ v k) : accu m v = 0 ↔ ∀ k < m, v k = 0 := by
  constructor
  · intro h0 k hk
    refine le_antisymm ?_ (h k hk)
    rw [← h0]
    unfold accu
    exact List.single_le_sum (fun x hx => by
      obtain ⟨k, hk, rfl⟩ := List.mem_map.1 hx
      exact h k (List.mem_range.1 hk)) _ (List.mem_map.2 ⟨k, List.mem_range.2 hk, rfl⟩)
  · intro h0
    unfold accu
    apply List.sum_eq_zero
    intro x hx
    obtain ⟨k, hk, rfl⟩ := List.mem_map.1 hx
    exact h0 k (List.mem_range.1 hk)

theorem minkowski_nonneg {o : Ops K} (ho : o.Sane) (m : Nat) (p : WithTop K) (v : Nat → K) : 0 ≤ minkowski o m p v := by
  induction p using WithTop.recTopCoe with
  | top => exact zero_le_one
  | coe q => exact ho.pow_nonneg _ _ (accu_nonneg fun k _ => ho.pow_nonneg _ _ (abs_nonneg _))

theorem minkowski_eq_zero {o : Ops K} (ho : o.Sane) (m : Nat) {q : K} (hq : 0 < q) (v : Nat → K) :
    minkowski o m (q : WithTop K) v = 0 ↔ ∀ k < m, v k = 0 := by
  have hn : ∀ k < m, 0 ≤ o.pow |v k| q := fun k _ => ho.pow_nonneg _ _ (abs_nonneg _)
  have h1 : ∀ k, o.pow |v k| q = 0 ↔ v k = 0 := by
    intro k
    constructor
    · intro h
      by_contra hc
      exact (ho.pow_pos _ q (abs_pos.2 hc)).ne' h
    · intro h; rw [h, abs_zero, ho.zero_pow q hq]
  show o.pow (accu m fun k => o.pow |v k| q) (1 / q) = 0 ↔ _
  constructor
  · intro h
    have : accu m (fun k => o.pow |v k| q) = 0 := by
      by_contra hc
      exact (ho.pow_pos _ (1 / q) (lt_of_le_of_ne (accu_nonneg hn) (Ne.symm hc))).ne' h
    intro k hk
    exact (h1 k).1 ((accu_eq_zero hn).1 this k hk)
  · intro h
    rw [(accu_eq_zero hn).2 fun k hk => (h1 k).2 (h k hk)]
    exact ho.zero_pow _ (one_div_pos.2 hq)

theorem exponent_cases (o : Ops K) (m : Nat) (avg : K) :
    exponent o m avg = ⊤ ∨ ∃ q : K, 0 < q ∧ exponent o m avg = (q : WithTop K) := by
  unfold exponent
  split_ifs with h1 h2 h3 h4
  · exact .inr ⟨1, one_pos, rfl⟩
  · exact .inr ⟨1, one_pos, rfl⟩
  · exact .inl rfl
  · exact .inr ⟨1, one_pos, rfl⟩
  · refine .inr ⟨_, ?_, rfl⟩
    have : (0 : K) < 1 / 10 := by norm_num
    exact this.trans (not_le.1 h4)

omit [Field K] [IsStrictOrderedRing K] in
theorem indexMin_lt {n : Nat} (h : 0 < n) (d : Nat → WithTop K) : indexMin n d < n := by
  obtain ⟨h1, -, -⟩ := fold_min d (List.range n) (0, ⊤)
  rcases h1 with h1 | ⟨h1, -⟩
  · have : indexMin n d = 0 := congrArg Prod.fst h1
    omega
  · exact List.mem_range.1 h1

/-! ### C193 -/

/-- **C193** The ideal point is, in each objective, the smallest value in the whole population evaluated. -/
theorem C193_ideal {m n : Nat} {obj : Nat → Nat → K} {first : Nat} {rest : List Nat} {later : List (List Nat)}
    {ranks : Nat → Nat} (hr : IsParetoRanking (fun p q => dominates m (obj p) (obj q)) n ((first :: rest) :: later) ranks)
    {k : Nat} (hk : k < m) : IsLeast {v | ∃ i < n, v = obj i k} (idealPoint obj first rest k) := by
  obtain ⟨h1, p, hp, h2⟩ := idealPoint_spec obj k rest first
  refine ⟨⟨p, ((hr.first _ rfl p).1 hp).1, h2.symm⟩, ?_⟩
  rintro v ⟨i, hi, rfl⟩
  obtain ⟨q, hq, hle⟩ := first_below hr hi
  exact (h1 q hq).trans (hle k hk)

/-- The divisors computed for the first front. -/
theorem first_norm_pos (o : Ops K) {m : Nat} (obj : Nat → Nat → K) (first : Nat) (rest : List Nat)
    (hlen : m ≤ (first :: rest).length) {k : Nat} (hk : k < m) :
    0 < normalizeFront o m (first :: rest)
      (extremes m (first :: rest) fun i k => obj i k - idealPoint obj first rest k)
      (fun i k => obj i k - idealPoint obj first rest k) k :=
  normalizeFront_pos o hlen (extremes_basic _ hlen).1
    (fun p hp k _ => sub_nonneg.2 ((idealPoint_spec obj k rest first).1 p hp)) hk

/-! ### Distance from a line -/

omit [LinearOrder K] [IsStrictOrderedRing K] in
theorem accu_square (m : Nat) (x b : Nat → K) (t : K) :
    accu m (fun k => (x k - t * b k) ^ 2) = dot m x x - 2 * t * dot m x b + t ^ 2 * dot m b b := by
  unfold dot accu
  induction m with
  | zero => simp
  | succ m ih =>
    simp only [List.range_succ, List.map_append, List.map_cons, List.map_nil, List.sum_append, List.sum_cons, List.sum_nil,
      add_zero]
    rw [ih]
    ring

/-- `PointToLineDistance` from the origin: the smallest squared distance of `x` from a point of the line. -/
theorem lineDistance_least (m : Nat) {b : Nat → K} (hb : 0 < dot m b b) (x : Nat → K) :
    (∃ t, lineDistance m (fun _ => 0) b x = accu m fun k => (x k - t * b k) ^ 2) ∧
    ∀ t, lineDistance m (fun _ => 0) b x ≤ accu m fun k => (x k - t * b k) ^ 2 := by
  have e : lineDistance m (fun _ => 0) b x = accu m fun k => (x k - dot m x b / dot m b b * b k) ^ 2 := by
    unfold lineDistance
    simp only [sub_zero]
  refine ⟨⟨_, e⟩, fun t => ?_⟩
  rw [e, accu_square, accu_square]
  have h : 0 ≤ (t - dot m x b / dot m b b) ^ 2 * dot m b b := mul_nonneg (sq_nonneg _) hb.le
  have hm : dot m x b / dot m b b * dot m b b = dot m x b := div_mul_cancel₀ _ hb.ne'
  generalize dot m x b / dot m b b = q at h hm
  rw [← hm]
  linarith [h, show (t - q) ^ 2 * dot m b b = t ^ 2 * dot m b b - 2 * t * (q * dot m b b) + q ^ 2 * dot m b b by ring,
    show 2 * q * (q * dot m b b) = 2 * (q ^ 2 * dot m b b) by ring]

theorem dot_axis_pos {m i : Nat} (h : i < m) : 0 < dot m (axis i : Nat → K) (axis i) := by
  unfold dot
  refine lt_of_le_of_ne (accu_nonneg fun k _ => mul_self_nonneg _) fun hc => ?_
  have := (accu_eq_zero fun k _ => mul_self_nonneg (axis i k : K)).1 hc.symm i h
  have hp : (0 : K) < axis i i := by unfold axis; rw [if_pos rfl]; positivity
  exact (mul_pos hp hp).ne' this

theorem dot_one_pos {m : Nat} (h : 0 < m) : 0 < dot m (fun _ => (1 : K)) fun _ => 1 := by
  unfold dot
  refine lt_of_le_of_ne (accu_nonneg fun k _ => by norm_num) fun hc => ?_
  have := (accu_eq_zero (m := m) (v := fun _ => (1 : K) * 1) fun k _ => by norm_num).1 hc.symm 0 h
  norm_num at this

/-- `c` is at least as near to the line through the origin and `b` as `x` is. -/
def Nearer (m : Nat) (b c x : Nat → K) : Prop :=
  ∃ t, ∀ t', accu m (fun k => (c k - t * b k) ^ 2) ≤ accu m fun k => (x k - t' * b k) ^ 2

theorem nearer_of {m : Nat} {b c x : Nat → K} (hb : 0 < dot m b b)
    (h : lineDistance m (fun _ => 0) b c ≤ lineDistance m (fun _ => 0) b x) : Nearer m b c x := by
  obtain ⟨⟨t, ht⟩, -⟩ := lineDistance_least m hb c
  obtain ⟨-, h2⟩ := lineDistance_least m hb x
  exact ⟨t, fun t' => by rw [← ht]; exact h.trans (h2 t')⟩

/-! ### The quotients -/

/-- Distance of two members of the front divided by the distance of the second from the origin. -/
def ratio (o : Ops K) (m : Nat) (p : WithTop K) (front : List Nat) (y : Nat → Nat → K) (i t : Nat) : K :=
  minkowski o m p (fun k => y (member front i) k - y (member front t) k) / minkowski o m p (y (member front t))

theorem twoSmallest_zero {l : List K} (h : ∀ v ∈ l, v = 0) : twoSmallest l = 0 :=
  List.sum_eq_zero fun v hv => h v ((List.mem_insertionSort _).1 (List.mem_of_mem_take hv))

/-- Two members of a first front: either all coincide with the origin or none does. -/
theorem origin_or {m n : Nat} {obj : Nat → Nat → K} {first : Nat} {rest : List Nat} {later : List (List Nat)}
    {ranks : Nat → Nat} (hr : IsParetoRanking (fun p q => dominates m (obj p) (obj q)) n ((first :: rest) :: later) ranks)
    {norm : Nat → K} (hn : ∀ k < m, 0 < norm k) :
    (∀ p ∈ first :: rest, ∀ k < m, (obj p k - idealPoint obj first rest k) / norm k = 0) ∨
    (2 ≤ m ∧ ∀ p ∈ first :: rest, ∃ k < m, (obj p k - idealPoint obj first rest k) / norm k ≠ 0) := by
  have hz : ∀ p, ∀ k < m, (obj p k - idealPoint obj first rest k) / norm k = 0 ↔ obj p k = idealPoint obj first rest k := by
    intro p k hk
    rw [div_eq_zero_iff, sub_eq_zero, or_iff_left (hn k hk).ne']
  have hle : ∀ k, ∀ p ∈ first :: rest, idealPoint obj first rest k ≤ obj p k :=
    fun k => (idealPoint_spec obj k rest first).1
  by_cases h : ∃ t ∈ first :: rest, ∀ k < m, obj t k = idealPoint obj first rest k
  · left
    obtain ⟨t, ht, he⟩ := h
    intro p hp k hk
    rw [hz p k hk]
    by_contra hc
    have := hr.incomparable (first :: rest) (by simp) t ht p hp
    rw [Bool.eq_false_iff] at this
    apply this
    rw [C29_dominates_iff]
    refine ⟨fun k hk => by rw [he k hk]; exact hle k p hp, k, hk, ?_⟩
    rw [he k hk]
    exact lt_of_le_of_ne (hle k p hp) (Ne.symm hc)
  · right
    have h' : ∀ p ∈ first :: rest, ∃ k < m, obj p k ≠ idealPoint obj first rest k := by
      intro p hp
      by_contra hc
      refine h ⟨p, hp, fun k hk => ?_⟩
      by_contra hne
      exact hc ⟨k, hk, hne⟩
    refine ⟨?_, fun p hp => ?_⟩
    · by_contra hm
      obtain ⟨k, hk, -⟩ := h' first (by simp)
      obtain rfl : k = 0 := by omega
      obtain ⟨p, hp, he⟩ := (idealPoint_spec obj 0 rest first).2
      obtain ⟨k', hk', hne⟩ := h' p hp
      obtain rfl : k' = 0 := by omega
      exact hne he
    · obtain ⟨k, hk, hne⟩ := h' p hp
      exact ⟨k, hk, fun hc => hne ((hz p k hk).1 hc)⟩

omit [Field K] [LinearOrder K] [IsStrictOrderedRing K] in
theorem ascending_perm {n : Nat} {l : List Nat} (hnd : l.Nodup) (hlt : ∀ i ∈ l, i < n) : (ascending n l).Perm l := by
  unfold ascending
  rw [List.perm_ext_iff_of_nodup (List.nodup_range.filter _) hnd]
  intro a
  simp only [List.mem_filter, List.mem_range, decide_eq_true_eq]
  exact ⟨fun h => h.2, fun h => ⟨hlt a h, h⟩⟩

/-- If no member is at the origin, `DiversityScore` takes the quotients. -/
theorem diversity_some {o : Ops K} {m : Nat} {p : WithTop K} {front : List Nat} {y : Nat → Nat → K}
    (h : ∀ t < front.length, minkowski o m p (y (member front t)) ≠ 0) {sel : List Nat} (hnd : sel.Nodup)
    (hlt : ∀ i ∈ sel, i < front.length) {S : Nat} (hS : S ∉ sel) :
    diversity (ascending front.length sel) (pairwise o m p front y) S =
      twoSmallest (sel.map (ratio o m p front y S)) := by
  have hp := ascending_perm hnd hlt
  rw [diversity_eq]
  apply twoSmallest_perm
  have e : entriesOf (pairwise o m p front y) S (ascending front.length sel) =
      (ascending front.length sel).map (ratio o m p front y S) := by
    unfold entriesOf
    rw [List.filter_eq_self.2, ← List.filterMap_eq_map]
    · apply List.filterMap_congr
      intro t ht
      have ht := hp.mem_iff.1 ht
      unfold pairwise
      simp only
      rw [if_neg (h t (hlt t ht)), if_neg (by rintro rfl; exact hS ht)]
      rfl
    · intro t ht
      have ht := hp.mem_iff.1 ht
      simp only [ne_eq, decide_not, Bool.not_eq_eq_eq_not, Bool.not_true, decide_eq_false_iff_not]
      rintro rfl
      exact hS ht
  rw [e]
  exact hp.map _

/-- If all members are at the origin, all values are 0. -/
theorem diversity_none {o : Ops K} {m : Nat} {p : WithTop K} {front : List Nat} {y : Nat → Nat → K}
    (h : ∀ t < front.length, minkowski o m p (y (member front t)) = 0) {sel : List Nat}
    (hlt : ∀ i ∈ sel, i < front.length) (S : Nat) :
    diversity (ascending front.length sel) (pairwise o m p front y) S = 0 ∧
    twoSmallest (sel.map (ratio o m p front y S)) = 0 := by
  constructor
  · rw [diversity_eq]
    apply twoSmallest_zero
    intro v hv
    obtain ⟨t, ht, hv⟩ := List.mem_filterMap.1 hv
    have ht : t < front.length := by
      have := (List.mem_filter.1 ht).1
      exact List.mem_range.1 (List.mem_filter.1 this).1
    unfold pairwise at hv
    simp only at hv
    rw [if_pos (h t ht)] at hv
    cases hv
  · apply twoSmallest_zero
    intro v hv
    obtain ⟨t, ht, rfl⟩ := List.mem_map.1 hv
    unfold ratio
    rw [h t (hlt t ht), div_zero]

omit [Field K] [IsStrictOrderedRing K] in
theorem foldl_top (front : List Nat) : ∀ (ext : List Nat) (sc : Nat → WithTop K),
    (∀ i ∈ ext, ext.foldl (fun sc i => Function.update sc (member front i) ⊤) sc (member front i) = ⊤) ∧
    ∀ q, (∀ i ∈ ext, member front i ≠ q) → ext.foldl (fun sc i => Function.update sc (member front i) ⊤) sc q = sc q := by
  intro ext
  induction ext with
  | nil => intro sc; exact ⟨(fun i hi => by cases hi), fun q _ => rfl⟩
  | cons a ext ih =>
    intro sc
    obtain ⟨h1, h2⟩ := ih (Function.update sc (member front a) ⊤)
    simp only [List.foldl_cons]
    refine ⟨?_, ?_⟩
    · intro i hi
      by_cases hc : ∃ j ∈ ext, member front j = member front i
      · obtain ⟨j, hj, he⟩ := hc
        rw [← he]; exact h1 j hj
      · rw [h2 _ fun j hj he => hc ⟨j, hj, he⟩]
        rcases List.mem_cons.1 hi with rfl | hi
        · exact Function.update_self _ _ _
        · exact absurd ⟨i, hi, rfl⟩ hc
    · intro q hq
      rw [h2 q fun i hi => hq i (by simp [hi]), Function.update_of_ne]
      exact (hq a (by simp)).symm

omit [IsStrictOrderedRing K] in
theorem laterScores_other (o : Ops K) (m : Nat) (ideal norm : Nat → K) (p : WithTop K) (objs : Nat → Nat → K) :
    ∀ (l : List Nat) (sc : Nat → WithTop K) (q : Nat), q ∉ l → laterScores o m ideal norm p objs l sc q = sc q := by
  intro l
  induction l with
  | nil => intro sc q _; rfl
  | cons a l ih =>
    intro sc q hq
    rw [List.mem_cons, not_or] at hq
    have : laterScores o m ideal norm p objs (a :: l) sc = laterScores o m ideal norm p objs l
      (Function.update sc a (reciprocal (minkowski o m p fun k => objs a k / norm k - ideal k))) := rfl
    rw [this, ih _ _ hq.2, Function.update_of_ne hq.1]

theorem laterScores_mem (o : Ops K) (m : Nat) (ideal norm : Nat → K) (p : WithTop K) (objs : Nat → Nat → K) :
    ∀ (l : List Nat) (sc : Nat → WithTop K) (q : Nat), q ∈ l → laterScores o m ideal norm p objs l sc q =
      reciprocal (minkowski o m p fun k => objs q k / norm k - ideal k) := by
  intro l
  induction l with
  | nil => intro sc q h; cases h
  | cons a l ih =>
    intro sc q _
    have e : laterScores o m ideal norm p objs (a :: l) sc = laterScores o m ideal norm p objs l
      (Function.update sc a (reciprocal (minkowski o m p fun k => objs a k / norm k - ideal k))) := rfl
    rw [e]
    by_cases hq : q ∈ l
    · exact ih _ _ hq
    · rw [laterScores_other _ _ _ _ _ _ _ _ _ hq]
      have : q = a := by simp_all
      subst this
      exact Function.update_self ..

theorem scores_core {o : Ops K} (ho : o.Sane) {m n : Nat} {obj : Nat → Nat → K} {first : Nat} {rest : List Nat}
    {later : List (List Nat)} {ranks : Nat → Nat}
    (hr : IsParetoRanking (fun p q => dominates m (obj p) (obj q)) n ((first :: rest) :: later) ranks)
    (hlen : m ≤ (first :: rest).length) :
    ∃ (norm : Nat → K) (sc : Nat → WithTop K) (p : WithTop K) (ext order : List Nat),
      ext = extremes m (first :: rest) (fun i k => obj i k - idealPoint obj first rest k) ∧
      survival o m ((first :: rest) :: later) obj = some (norm, sc) ∧
      ext.length = m ∧ (ext ++ order).Perm (List.range (first :: rest).length) ∧
      (∀ i ∈ ext, sc (member (first :: rest) i) = ⊤) ∧
      (∀ pre i post, order = pre ++ i :: post →
        sc (member (first :: rest) i) = ((twoSmallest ((ext ++ pre).map
          (ratio o m p (first :: rest) (normalise m norm ((first :: rest) :: later) obj) i)) : K) : WithTop K) ∧
        ∀ j ∈ post,
          twoSmallest ((ext ++ pre).map (ratio o m p (first :: rest) (normalise m norm ((first :: rest) :: later) obj) j)) ≤
          twoSmallest ((ext ++ pre).map (ratio o m p (first :: rest) (normalise m norm ((first :: rest) :: later) obj) i))) ∧
      (order.Pairwise fun i j => sc (member (first :: rest) j) ≤ sc (member (first :: rest) i)) ∧
      (m < (first :: rest).length → ∀ (i e : Nat), ext[i]? = some e → ∀ j < (first :: rest).length, j ∉ ext.take i →
        Nearer m (axis i) (fun k => obj (member (first :: rest) e) k - idealPoint obj first rest k)
          (fun k => obj (member (first :: rest) j) k - idealPoint obj first rest k)) ∧
      (0 < m → order ≠ [] → ∃ c ∈ order,
        (∀ j ∈ order, Nearer m (fun _ => 1) (normalise m norm ((first :: rest) :: later) obj (member (first :: rest) c))
          (normalise m norm ((first :: rest) :: later) obj (member (first :: rest) j))) ∧
        p = exponent o m (accu m (normalise m norm ((first :: rest) :: later) obj (member (first :: rest) c)) / m)) ∧
      ∀ i ∈ later.flatten, ∀ d, d = minkowski o m p (fun k =>
          normalise m norm ((first :: rest) :: later) obj i k - idealPoint obj first rest k) →
        (d = 0 → sc i = ⊤) ∧ (d ≠ 0 → sc i = ((1 / d : K) : WithTop K)) := by
  have hflat : ((first :: rest) ++ later.flatten).Nodup := by
    have := hr.partition.nodup_iff.2 List.nodup_range
    rwa [List.flatten_cons] at this
  obtain ⟨hfnd, -, hdis⟩ := List.nodup_append.1 hflat
  set front := first :: rest with hfront
  have hpos : 0 < front.length := by rw [hfront]; simp
  set shifted := fun i k => obj i k - idealPoint obj first rest k with hshifted
  set ext := extremes m front shifted with hext
  set norm := normalizeFront o m front ext shifted with hnorm
  have hn : ∀ k < m, 0 < norm k := fun k hk => first_norm_pos o obj first rest hlen hk
  set scaled := fun i k => shifted i k / norm k with hscaled
  set p := geometry o m front ext scaled with hp
  obtain ⟨hend, helen, helt⟩ := extremes_basic shifted hlen
  -- the quotients are not negative
  have hf : ∀ s t v, pairwise o m p front scaled s t = some v → 0 ≤ v := by
    intro s t v h
    unfold pairwise at h
    simp only at h
    split_ifs at h with h1 h2
    · cases h; rw [zero_div]
    · cases h
      exact div_nonneg (minkowski_nonneg ho _ _ _) (minkowski_nonneg ho _ _ _)
  have hrem : ∀ i ∈ (startSel front ext (fun _ => (0 : WithTop K))).remaining, i < front.length := fun i hi =>
    List.mem_range.1 (List.mem_filter.1 hi).1
  obtain ⟨s', order, a1, a2, a3, a4⟩ := pickAll_spec hfnd hf front.length (startSel front ext fun _ => 0)
    (by
      have := List.length_filter_le (fun i => decide (i ∉ ext)) (List.range front.length)
      rwa [List.length_range] at this)
    (List.nodup_range.filter _) hrem
  have hsel : (startSel front ext fun _ => (0 : WithTop K)).selected = ext := rfl
  rw [hsel] at a3
  -- what is in the order
  have horder : ∀ i ∈ order, i < front.length ∧ i ∉ ext := by
    intro i hi
    have := List.mem_filter.1 (a2.mem_iff.1 hi)
    exact ⟨List.mem_range.1 this.1, by simpa using this.2⟩
  have hond : order.Nodup := a2.nodup_iff.2 (List.nodup_range.filter _)
  have hall : (ext ++ order).Nodup :=
    List.nodup_append.2 ⟨hend, hond, fun a ha b hb he => (horder b hb).2 (he ▸ ha)⟩
  -- the values in terms of the quotients
  set y := normalise m norm (front :: later) obj with hy
  have hys : ∀ t < front.length, y (member front t) = scaled (member front t) := by
    intro t ht
    funext k
    have hm : member front t ∈ first :: rest := member_mem ht
    simp only [hy, hfront, normalise]
    rw [if_pos hm, if_neg (by rw [hfront] at hlen; omega)]
  have hratio : ∀ i t, i < front.length → t < front.length → ratio o m p front y i t = ratio o m p front scaled i t := by
    intro i t hi ht
    unfold ratio
    rw [hys i hi, hys t ht]
  have hdich : (∀ t < front.length, minkowski o m p (scaled (member front t)) = 0) ∨
      (2 ≤ m ∧ ∀ t < front.length, minkowski o m p (scaled (member front t)) ≠ 0) := by
    rcases origin_or hr hn with h | ⟨hm2, h⟩
    · left
      have hp1 : p = ((1 : K) : WithTop K) := by
        have hz : accu m (scaled (member front (indexMin front.length fun j => if j ∈ ext then ⊤ else
            ((lineDistance m (fun _ => 0) (fun _ => 1) (scaled (member front j)) : K) : WithTop K)))) = 0 := by
          have hm := member_mem (front := front) (indexMin_lt hpos fun j => if j ∈ ext then ⊤ else
            ((lineDistance m (fun _ => 0) (fun _ => 1) (scaled (member front j)) : K) : WithTop K))
          rw [accu_eq_zero]
          · exact fun k hk => h _ hm k hk
          · exact fun k hk => (h _ hm k hk).ge
        rw [hp]
        unfold geometry
        simp only
        rw [hz, zero_div]
        unfold exponent
        rw [if_pos (le_refl _)]
        rfl
      intro t ht
      rw [hp1, minkowski_eq_zero ho m one_pos]
      exact h _ (member_mem ht)
    · right
      refine ⟨hm2, fun t ht => ?_⟩
      rcases exponent_cases o m (accu m (scaled (member front (indexMin front.length fun j => if j ∈ ext then ⊤ else
        ((lineDistance m (fun _ => 0) (fun _ => 1) (scaled (member front j)) : K) : WithTop K)))) / m) with hc | ⟨q, hq, hc⟩
      · rw [show p = ⊤ from hc]; exact one_ne_zero
      · rw [show p = (q : WithTop K) from hc, Ne, minkowski_eq_zero ho m hq]
        obtain ⟨k, hk, hne⟩ := h _ (member_mem ht)
        exact fun hc => hne (hc k hk)
  have hdiv : ∀ sel S, sel.Nodup → (∀ i ∈ sel, i < front.length) → S ∉ sel → S < front.length →
      diversity (ascending front.length sel) (pairwise o m p front scaled) S =
        twoSmallest (sel.map (ratio o m p front y S)) := by
    intro sel S h1 h2 h3 h4
    have e : sel.map (ratio o m p front y S) = sel.map (ratio o m p front scaled S) :=
      List.map_congr_left fun t ht => hratio S t h4 (h2 t ht)
    rw [e]
    rcases hdich with h | ⟨-, h⟩
    · obtain ⟨b1, b2⟩ := diversity_none h h2 S
      rw [b1, b2]
    · exact diversity_some h h1 h2 h3
  have hpre : ∀ pre i post, order = pre ++ i :: post → (ext ++ pre).Nodup ∧ (∀ j ∈ ext ++ pre, j < front.length) ∧
      ∀ j ∈ i :: post, j ∉ ext ++ pre ∧ j < front.length := by
    intro pre i post h
    rw [h, ← List.append_assoc] at hall
    obtain ⟨b1, -, b3⟩ := List.nodup_append.1 hall
    refine ⟨b1, ?_, ?_⟩
    · intro j hj
      rcases List.mem_append.1 hj with hj | hj
      · exact helt j hj
      · exact (horder j (by rw [h]; simp [hj])).1
    · intro j hj
      exact ⟨fun hc => b3 j hc j hj rfl, (horder j (by rw [h]; exact List.mem_append_right _ hj)).1⟩
  have hscore : ∀ q ∈ front, laterScores o m (idealPoint obj first rest) norm p obj later.flatten s'.score q = s'.score q :=
    fun q hq => laterScores_other _ _ _ _ _ _ _ _ _ fun hc => hdis q hq q hc rfl
  have hkey : ∀ pre i post, order = pre ++ i :: post →
      s'.score (member front i) = ((twoSmallest ((ext ++ pre).map (ratio o m p front y i)) : K) : WithTop K) ∧
      ∀ j ∈ post, twoSmallest ((ext ++ pre).map (ratio o m p front y j)) ≤
        twoSmallest ((ext ++ pre).map (ratio o m p front y i)) := by
    intro pre i post h
    obtain ⟨b1, b2, b3⟩ := hpre pre i post h
    obtain ⟨c1, c2⟩ := a3 pre i post h
    have hi := b3 i (by simp)
    rw [hdiv _ i b1 b2 hi.1 hi.2] at c1
    refine ⟨c1, fun j hj => ?_⟩
    have hj' := b3 j (by simp [hj])
    have := c2 j hj
    rwa [hdiv _ i b1 b2 hi.1 hi.2, hdiv _ j b1 b2 hj'.1 hj'.2] at this
  have hperm : (ext ++ order).Perm (List.range front.length) := by
    rw [List.perm_ext_iff_of_nodup hall List.nodup_range]
    intro a
    rw [List.mem_append, List.mem_range]
    constructor
    · rintro (ha | ha)
      · exact helt a ha
      · exact (horder a ha).1
    · intro ha
      by_cases he : a ∈ ext
      · exact .inl he
      · exact .inr (a2.mem_iff.2 (List.mem_filter.2 ⟨List.mem_range.2 ha, by simpa using he⟩))
  refine ⟨norm, laterScores o m (idealPoint obj first rest) norm p obj later.flatten s'.score, p, ext, order, rfl, ?_, helen,
    hperm, ?_, ?_, ?_, ?_, ?_, ?_⟩
  · have e : firstFrontScores o m front (idealPoint obj first rest) obj (fun _ => 0) = some (norm, p, s'.score) := by
      unfold firstFrontScores
      rw [if_neg (by omega)]
      show (match pickAll front (pairwise o m p front scaled) front.length (startSel front ext fun _ => 0) with
        | none => none
        | some s => some (norm, p, s.score)) = _
      rw [a1]
    have e' : survival o m (front :: later) obj =
        match firstFrontScores o m front (idealPoint obj first rest) obj (fun _ => 0) with
        | none => none
        | some (norm, p, sc) => some (norm, laterScores o m (idealPoint obj first rest) norm p obj later.flatten sc) := rfl
    rw [e', e]
  · intro i hi
    rw [hscore _ (member_mem (helt i hi)), a4]
    · exact (foldl_top front ext _).1 i hi
    · intro j hj he
      have := member_inj hfnd (horder j hj).1 (helt i hi) he
      subst this
      exact (horder j hj).2 hi
  · intro pre i post h
    have hi := (hpre pre i post h).2.2 i (by simp)
    rw [hscore _ (member_mem hi.2)]
    exact hkey pre i post h
  · rw [List.pairwise_iff_getElem]
    intro a b ha hb hab
    -- split the order at both places
    have hsplit : order = order.take a ++ order[a] :: order.drop (a + 1) := by
      rw [List.cons_getElem_drop_succ, List.take_append_drop]
    have hsplit' : order = order.take b ++ order[b] :: order.drop (b + 1) := by
      rw [List.cons_getElem_drop_succ, List.take_append_drop]
    obtain ⟨c1, c2⟩ := hkey _ _ _ hsplit
    obtain ⟨d1, -⟩ := hkey _ _ _ hsplit'
    have hbp : order[b] ∈ order.drop (a + 1) := by
      rw [List.mem_drop_iff_getElem]
      refine ⟨b - (a + 1), by omega, ?_⟩
      congr 1
      omega
    rw [hscore _ (member_mem (horder _ (List.getElem_mem _)).1), hscore _ (member_mem (horder _ (List.getElem_mem _)).1), c1,
      d1, WithTop.coe_le_coe]
    refine le_trans ?_ (c2 _ hbp)
    obtain ⟨e1, e2, e3⟩ := hpre _ _ _ hsplit'
    rcases hdich with h | ⟨hm2, h⟩
    · have z : ∀ sel : List Nat, (∀ i ∈ sel, i < front.length) → twoSmallest (sel.map (ratio o m p front y order[b])) = 0 := by
        intro sel hs
        rw [List.map_congr_left fun t ht => hratio _ t (e3 _ List.mem_cons_self).2 (hs t ht)]
        exact (diversity_none h hs _).2
      rw [z _ e2, z _ (hpre _ _ _ hsplit).2.1]
    · have hta : order.take b = order.take a ++ (order.drop a).take (b - a) := by
        rw [← List.take_add]
        congr 1
        omega
      rw [hta, ← List.append_assoc, List.map_append (l₁ := ext ++ order.take a)]
      exact twoSmallest_append _ (by rw [List.length_map, List.length_append, helen]; omega)
  · intro hlt i e hi j hj hjt
    have him : i < m := by rw [← helen]; exact getElem?_lt hi
    exact nearer_of (dot_axis_pos him) ((extremes_spec shifted hlt).2.2.2 i e hi j hj hjt)
  · intro hm hne
    obtain ⟨j₀, hj₀⟩ := List.exists_mem_of_ne_nil _ hne
    obtain ⟨b1, b2, b3⟩ := indexMin_spec (n := front.length) (d := fun j => if j ∈ ext then ⊤ else
      ((lineDistance m (fun _ => 0) (fun _ => 1) (scaled (member front j)) : K) : WithTop K))
      ⟨j₀, (horder j₀ hj₀).1, by rw [if_neg (horder j₀ hj₀).2]; exact WithTop.coe_ne_top⟩
    have hce : indexMin front.length (fun j => if j ∈ ext then ⊤ else
      ((lineDistance m (fun _ => 0) (fun _ => 1) (scaled (member front j)) : K) : WithTop K)) ∉ ext := by
      intro hc
      rw [if_pos hc] at b2
      exact b2 rfl
    have hpd : p = exponent o m (accu m (scaled (member front (indexMin front.length fun j => if j ∈ ext then ⊤ else
      ((lineDistance m (fun _ => 0) (fun _ => 1) (scaled (member front j)) : K) : WithTop K)))) / m) := rfl
    generalize indexMin front.length (fun j => if j ∈ ext then ⊤ else
      ((lineDistance m (fun _ => 0) (fun _ => 1) (scaled (member front j)) : K) : WithTop K)) = c at b1 b2 b3 hce hpd
    refine ⟨c, ?_, ?_, by rw [← hy, hys c b1]; exact hpd⟩
    · rcases List.mem_append.1 (hperm.mem_iff.2 (List.mem_range.2 b1)) with h | h
      · exact absurd h hce
      · exact h
    · intro j hj
      have := b3 j (horder j hj).1
      rw [if_neg hce, if_neg (horder j hj).2, WithTop.coe_le_coe] at this
      rw [← hy, hys c b1, hys j (horder j hj).1]
      exact nearer_of (dot_one_pos hm) this
  · rintro i hi d rfl
    have hif : i ∉ first :: rest := fun hc => hdis i hc i hi rfl
    have e : ∀ k, normalise m norm (front :: later) obj i k = obj i k / norm k := by
      intro k
      simp only [hfront, normalise]
      rw [if_neg hif, if_pos hi]
    rw [laterScores_mem _ _ _ _ _ _ _ _ _ hi]
    simp only [e]
    exact ⟨fun h => by rw [reciprocal, if_pos h], fun h => by rw [reciprocal, if_neg h]⟩

/-- **C195** Survival scores of a first front with at least as many members as there are objectives, in terms of the
normalised objectives `y` (those the callbacks see). As many members as there are objectives get the score `⊤`; the others are
taken greedily, in an `order` in which each has, among those left, the greatest sum of its two smallest distances to the
members taken before (each divided by the distance of that member from the origin), and this sum is its score. Scores
do not increase along the order: the members with the best scores are those taken first. The `i`-th extreme member is the nearest
to the `i`-th axis among those not yet taken (before normalisation); the exponent `p` of the distances is computed from
the average of the other member nearest to the diagonal. A member of a later front has as score the reciprocal of its distance
from the ideal point as it was before the normalisation. -/
theorem C195_scores {o : Ops K} (ho : o.Sane) {m n : Nat} {obj : Nat → Nat → K} {first : Nat} {rest : List Nat}
    {later : List (List Nat)} {ranks : Nat → Nat}
    (hr : IsParetoRanking (fun p q => dominates m (obj p) (obj q)) n ((first :: rest) :: later) ranks)
    (hlen : m ≤ (first :: rest).length) :
    ∃ (norm : Nat → K) (sc : Nat → WithTop K) (p : WithTop K) (ext order : List Nat),
      survival o m ((first :: rest) :: later) obj = some (norm, sc) ∧
      ext.length = m ∧ (ext ++ order).Perm (List.range (first :: rest).length) ∧
      (∀ i ∈ ext, sc (member (first :: rest) i) = ⊤) ∧
      (∀ pre i post, order = pre ++ i :: post →
        sc (member (first :: rest) i) = ((twoSmallest ((ext ++ pre).map
          (ratio o m p (first :: rest) (normalise m norm ((first :: rest) :: later) obj) i)) : K) : WithTop K) ∧
        ∀ j ∈ post,
          twoSmallest ((ext ++ pre).map (ratio o m p (first :: rest) (normalise m norm ((first :: rest) :: later) obj) j)) ≤
          twoSmallest ((ext ++ pre).map (ratio o m p (first :: rest) (normalise m norm ((first :: rest) :: later) obj) i))) ∧
      (order.Pairwise fun i j => sc (member (first :: rest) j) ≤ sc (member (first :: rest) i)) ∧
      (m < (first :: rest).length → ∀ (i e : Nat), ext[i]? = some e → ∀ j < (first :: rest).length, j ∉ ext.take i →
        Nearer m (axis i) (fun k => obj (member (first :: rest) e) k - idealPoint obj first rest k)
          (fun k => obj (member (first :: rest) j) k - idealPoint obj first rest k)) ∧
      (0 < m → order ≠ [] → ∃ c ∈ order,
        (∀ j ∈ order, Nearer m (fun _ => 1) (normalise m norm ((first :: rest) :: later) obj (member (first :: rest) c))
          (normalise m norm ((first :: rest) :: later) obj (member (first :: rest) j))) ∧
        p = exponent o m (accu m (normalise m norm ((first :: rest) :: later) obj (member (first :: rest) c)) / m)) ∧
      ∀ i ∈ later.flatten, ∀ d, d = minkowski o m p (fun k =>
          normalise m norm ((first :: rest) :: later) obj i k - idealPoint obj first rest k) →
        (d = 0 → sc i = ⊤) ∧ (d ≠ 0 → sc i = ((1 / d : K) : WithTop K)) := by
  obtain ⟨norm, sc, p, ext, order, -, h⟩ := scores_core ho hr hlen
  exact ⟨norm, sc, p, ext, order, h⟩

end Ens.Moo.Agemoea
