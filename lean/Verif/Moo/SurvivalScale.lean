import Mathlib.Tactic.FieldSimp
import Verif.Moo.SurvivalMore

/-
C318: AGEMOEA and the units of the objectives.
-/

namespace Ens.Moo.Agemoea

open Ens.Moo

section
variable {K : Type} [Field K] [LinearOrder K] [IsStrictOrderedRing K] {a : K}

/-- Multiplying the matrix by `a` divides the solution by `a`, and does not change whether there is one. -/
def Ops.Homogeneous (o : Ops K) : Prop :=
  ∀ m A a, 0 < a → o.solve m (fun i k => a * A i k) = (o.solve m A).map (Option.map fun h k => h k / a)

theorem idealPoint_mul (ha : 0 < a) (obj : Nat → Nat → K) (k : Nat) (rest : List Nat) (first : Nat) :
    idealPoint (fun i k => a * obj i k) first rest k = a * idealPoint obj first rest k := by
  have key : ∀ (rest : List Nat) (acc : Nat → K),
      rest.foldl (fun acc p k => min (acc k) (a * obj p k)) (fun k => a * acc k) =
        fun k => a * rest.foldl (fun acc p k => min (acc k) (obj p k)) acc k := by
    intro rest
    induction rest with
    | nil => intro acc; rfl
    | cons b rest ih =>
      intro acc
      simp only [List.foldl_cons]
      rw [← ih]
      congr 1
      funext k
      exact (mul_min_of_nonneg _ _ ha.le).symm
  exact congrFun (key rest (obj first)) k

theorem idealPoint_le (obj : Nat → Nat → K) (k : Nat) (rest : List Nat) (first : Nat) :
    ∀ i ∈ first :: rest, idealPoint obj first rest k ≤ obj i k := by
  have key : ∀ (rest : List Nat) (acc : Nat → K), rest.foldl (fun acc p k => min (acc k) (obj p k)) acc k ≤ acc k ∧
      ∀ i ∈ rest, rest.foldl (fun acc p k => min (acc k) (obj p k)) acc k ≤ obj i k := by
    intro rest
    induction rest with
    | nil => exact fun acc => ⟨le_refl _, fun i hi => by cases hi⟩
    | cons b rest ih =>
      intro acc
      simp only [List.foldl_cons]
      obtain ⟨h1, h2⟩ := ih fun k => min (acc k) (obj b k)
      refine ⟨h1.trans (min_le_left _ _), fun i hi => ?_⟩
      rcases List.mem_cons.1 hi with rfl | hi
      · exact h1.trans (min_le_right _ _)
      · exact h2 i hi
  intro i hi
  rcases List.mem_cons.1 hi with rfl | hi
  · exact (key rest (obj i)).1
  · exact (key rest (obj first)).2 i hi

theorem accu_mul (m : Nat) (c : K) (f : Nat → K) : accu m (fun k => c * f k) = c * accu m f := by
  unfold accu
  exact List.sum_map_mul_left _ _ _

theorem accu_congr {m : Nat} {f g : Nat → K} (h : ∀ k < m, f k = g k) : accu m f = accu m g := by
  unfold accu
  congr 1
  exact List.map_congr_left fun k hk => h k (List.mem_range.1 hk)

theorem lineDistance_mul (m : Nat) (b x : Nat → K) :
    lineDistance m (fun _ => 0) b (fun k => a * x k) = a ^ 2 * lineDistance m (fun _ => 0) b x := by
  unfold lineDistance
  simp only [sub_zero]
  have hd : dot m (fun k => a * x k) b = a * dot m x b := by
    unfold dot
    rw [← accu_mul]
    exact accu_congr fun k _ => by ring
  rw [hd, ← accu_mul]
  exact accu_congr fun k _ => by ring

theorem lineDistance_congr {m : Nat} {b x y : Nat → K} (h : ∀ k < m, x k = y k) :
    lineDistance m (fun _ => 0) b x = lineDistance m (fun _ => 0) b y := by
  unfold lineDistance
  simp only [sub_zero]
  have hd : dot m x b = dot m y b := accu_congr fun k hk => by rw [h k hk]
  rw [hd]
  exact accu_congr fun k hk => by rw [h k hk]

omit [Field K] [IsStrictOrderedRing K] in
theorem indexMin_congr {n : Nat} {d d' : Nat → WithTop K} (h : ∀ j < n, d j = d' j) : indexMin n d = indexMin n d' := by
  unfold indexMin
  congr 1
  refine List.foldl_ext _ _ _ fun s j hj => ?_
  rw [h j (List.mem_range.1 hj)]

theorem indexMin_mul {c : K} (hc : 0 < c) (n : Nat) (p : Nat → Prop) [DecidablePred p] (d : Nat → K) :
    indexMin n (fun j => if p j then ⊤ else ((c * d j : K) : WithTop K)) =
      indexMin n (fun j => if p j then ⊤ else ((d j : K) : WithTop K)) := by
  unfold indexMin
  have key : ∀ (l : List Nat) (i : Nat) (v : WithTop K),
      l.foldl (fun s j => if (if p j then (⊤ : WithTop K) else ((c * d j : K) : WithTop K)) < s.2 then
          (j, if p j then (⊤ : WithTop K) else ((c * d j : K) : WithTop K)) else s) (i, v.map (c * ·)) =
        ((l.foldl (fun s j => if (if p j then (⊤ : WithTop K) else ((d j : K) : WithTop K)) < s.2 then
          (j, if p j then (⊤ : WithTop K) else ((d j : K) : WithTop K)) else s) (i, v)).1,
         (l.foldl (fun s j => if (if p j then (⊤ : WithTop K) else ((d j : K) : WithTop K)) < s.2 then
          (j, if p j then (⊤ : WithTop K) else ((d j : K) : WithTop K)) else s) (i, v)).2.map (c * ·)) := by
    intro l
    induction l with
    | nil => intro i v; rfl
    | cons j l ih =>
      intro i v
      simp only [List.foldl_cons]
      by_cases hp : p j
      · simp only [if_pos hp, not_top_lt, if_false]
        exact ih i v
      · simp only [if_neg hp]
        have hlt : ((c * d j : K) : WithTop K) < v.map (c * ·) ↔ ((d j : K) : WithTop K) < v := by
          cases v with
          | top => exact ⟨fun _ => WithTop.coe_lt_top _, fun _ => WithTop.coe_lt_top _⟩
          | coe v =>
            rw [WithTop.map_coe, WithTop.coe_lt_coe, WithTop.coe_lt_coe]
            exact mul_lt_mul_iff_right₀ hc
        by_cases hv : ((d j : K) : WithTop K) < v
        · rw [if_pos (hlt.2 hv), if_pos hv]
          exact ih j ((d j : K) : WithTop K)
        · rw [if_neg (fun k => hv (hlt.1 k)), if_neg hv]
          exact ih i v
  have := congrArg Prod.fst (key (List.range n) 0 ⊤)
  exact this

theorem extremes_mul (ha : 0 < a) (m : Nat) (front : List Nat) (objs : Nat → Nat → K) :
    extremes m front (fun i k => a * objs i k) = extremes m front objs := by
  unfold extremes
  split_ifs
  · rfl
  · refine List.foldl_ext _ _ _ fun sel i _ => ?_
    simp only [lineDistance_mul]
    rw [indexMin_mul (pow_pos ha 2) front.length (· ∈ sel)
      fun j => lineDistance m (fun _ => 0) (axis i) (objs (member front j))]

theorem frontMax_mul (ha : 0 < a) (front : List Nat) (objs : Nat → Nat → K) (k : Nat) :
    frontMax front (fun i k => a * objs i k) k = a * frontMax front objs k := by
  unfold frontMax
  simp only
  generalize front.tail = l
  generalize objs (member front 0) k = v
  induction l generalizing v with
  | nil => rfl
  | cons b l ih =>
    simp only [List.foldl_cons]
    rw [← ih, mul_max_of_nonneg _ _ ha.le]

/-- The divisor is multiplied by the factor, except where the greatest value is 0. -/
theorem normalizeFront_mul (ha : 0 < a) {o : Ops K} (ho : o.Homogeneous) (m : Nat) (front extreme : List Nat)
    (objs : Nat → Nat → K) :
    (∀ k < m, normalizeFront o m front extreme (fun i k => a * objs i k) k = a * normalizeFront o m front extreme objs k ∨
      frontMax front objs k = 0) := by
  have hfix : ∀ (v v' : Nat → K) k, v' k = a * v k → fixZero v' k = a * fixZero v k ∨ v k = 0 := by
    intro v v' k h
    by_cases hv : v k = 0
    · exact .inr hv
    · left
      unfold fixZero
      rw [h, if_neg (mul_ne_zero ha.ne' hv), if_neg hv]
      ring
  have htop : ∀ k, fixZero (frontMax front fun i k => a * objs i k) k = a * fixZero (frontMax front objs) k ∨
      frontMax front objs k = 0 := fun k => hfix _ _ k (frontMax_mul ha front objs k)
  intro k hk
  unfold normalizeFront
  simp only
  by_cases h1 : front.length < m
  · rw [if_pos h1, if_pos h1]
    exact .inl (frontMax_mul ha front objs k)
  · rw [if_neg h1, if_neg h1]
    by_cases h2 : ¬ extreme.Nodup
    · rw [if_pos h2, if_pos h2]
      exact .inl (frontMax_mul ha front objs k)
    · rw [if_neg h2, if_neg h2, ho m _ a ha]
      cases o.solve m fun i k => objs (member front (extreme.getD i 0)) k with
      | none => exact htop k
      | some r =>
        cases r with
        | none => exact htop k
        | some h =>
          simp only [Option.map_some]
          have e1 : (∃ k ∈ List.range m, h k / a < 0) ↔ ∃ k ∈ List.range m, h k < 0 := by
            simp only [div_lt_iff₀ ha, zero_mul]
          have e2 : (∃ k ∈ List.range m, h k / a = 0) ↔ ∃ k ∈ List.range m, h k = 0 := by
            simp only [div_eq_zero_iff, ha.ne', or_false]
          simp only [e1, e2]
          by_cases h3 : ∃ k ∈ List.range m, h k < 0
          · rw [if_pos h3, if_pos h3]
            exact htop k
          · rw [if_neg h3, if_neg h3]
            by_cases h4 : ∃ k ∈ List.range m, h k = 0
            · rw [if_pos h4, if_pos h4]
              exact htop k
            · rw [if_neg h4, if_neg h4]
              have hk0 : h k ≠ 0 := fun hc => h4 ⟨k, List.mem_range.2 hk, hc⟩
              rcases hfix (fun k => 1 / h k) (fun k => 1 / (h k / a)) k (by field_simp) with h5 | h5
              · exact .inl h5
              · exact absurd h5 (one_div_ne_zero hk0)

omit [LinearOrder K] [IsStrictOrderedRing K] in
theorem minkowski_congr [LinearOrder K] (o : Ops K) {m : Nat} (p : WithTop K) {v w : Nat → K} (h : ∀ k < m, v k = w k) :
    minkowski o m p v = minkowski o m p w := by
  unfold minkowski
  cases p with
  | top => rfl
  | coe q =>
    show o.pow (accu m fun k => o.pow |v k| q) _ = o.pow (accu m fun k => o.pow |w k| q) _
    have : (accu m fun k => o.pow |v k| q) = accu m fun k => o.pow |w k| q := by
      unfold accu
      congr 1
      exact List.map_congr_left fun k hk => by rw [h k (List.mem_range.1 hk)]
    rw [this]

theorem pickAll_congr {front : List Nat} {f f' : Nat → Nat → Option K}
    (h : ∀ s < front.length, ∀ t < front.length, f s t = f' s t) : ∀ (fuel : Nat) (s : Sel K),
    (∀ i ∈ s.remaining, i < front.length) → pickAll front f fuel s = pickAll front f' fuel s := by
  have hv : ∀ s : Sel K, (∀ i ∈ s.remaining, i < front.length) → values front f s = values front f' s := by
    intro s hs
    funext i
    unfold values
    split_ifs with hi
    · unfold diversity
      have : ∀ t ∈ ascending front.length s.selected, f i t = f' i t := by
        intro t ht
        unfold ascending at ht
        exact h i (hs i hi) t (List.mem_range.1 (List.mem_filter.1 ht).1)
      have e : (ascending front.length s.selected).foldl (diversityStep f i) (⊤, ⊤) =
          (ascending front.length s.selected).foldl (diversityStep f' i) (⊤, ⊤) := by
        refine List.foldl_ext _ _ _ fun b t ht => ?_
        unfold diversityStep
        rw [this t ht]
      simp only [e]
    · rfl
  intro fuel
  induction fuel with
  | zero => intro s _; rfl
  | succ n ih =>
    intro s hs
    rw [pickAll, pickAll]
    split_ifs
    · rfl
    · have e : pickNext front f s = pickNext front f' s := by
        unfold pickNext
        rw [hv s hs]
      rw [e]
      refine ih _ fun i hi => hs i ?_
      simp only [pickNext] at hi
      exact List.mem_of_mem_erase hi

/-- **C318** (partial) Multiplying all objectives by the same positive number (another unit) changes nothing about a first
front with at least as many members as there are objectives: same scores, same exponent. Missing: different factors and
the later fronts, see the refutations. -/
theorem C318_unit_partial (ha : 0 < a) {o : Ops K} (ho : o.Homogeneous) {m n : Nat} {obj : Nat → Nat → K} {first : Nat}
    {rest : List Nat} {later : List (List Nat)} {ranks : Nat → Nat}
    (hr : IsParetoRanking (fun p q => dominates m (obj p) (obj q)) n ((first :: rest) :: later) ranks)
    (hlen : m ≤ (first :: rest).length) {norm norm' : Nat → K} {sc sc' : Nat → WithTop K}
    (h : survival o m ((first :: rest) :: later) obj = some (norm, sc))
    (h' : survival o m ((first :: rest) :: later) (fun i k => a * obj i k) = some (norm', sc')) :
    (∀ k < m, norm' k = a * norm k ∨ ∀ i ∈ first :: rest, obj i k = obj first k) ∧ ∀ i ∈ first :: rest, sc' i = sc i := by
  have hflat : ((first :: rest) ++ later.flatten).Nodup := by
    have := hr.partition.nodup_iff.2 List.nodup_range
    rwa [List.flatten_cons] at this
  obtain ⟨-, -, hdis⟩ := List.nodup_append.1 hflat
  have hmem : ∀ j < (first :: rest).length, member (first :: rest) j ∈ first :: rest := by
    intro j hj
    unfold member
    rw [List.getD_eq_getElem?_getD, List.getElem?_eq_getElem hj]
    exact List.getElem_mem hj
  simp only [survival] at h h'
  unfold firstFrontScores at h h'
  rw [if_neg (by omega)] at h h'
  simp only at h h'
  have hsh : (fun i k => a * obj i k - idealPoint (fun i k => a * obj i k) first rest k) =
      fun i k => a * (obj i k - idealPoint obj first rest k) := by
    funext i k
    rw [idealPoint_mul ha]
    ring
  have hshift : ∀ i k, a * obj i k - idealPoint (fun i k => a * obj i k) first rest k =
      a * (obj i k - idealPoint obj first rest k) := fun i k => congrFun (congrFun hsh i) k
  simp only [hshift, extremes_mul ha] at h'
  have hzero : ∀ k, frontMax (first :: rest) (fun i k => obj i k - idealPoint obj first rest k) k = 0 →
      ∀ i ∈ first :: rest, obj i k = idealPoint obj first rest k := by
    intro k hk i hi
    have h1 := (frontMax_spec (fun i k => obj i k - idealPoint obj first rest k) k (front := first :: rest)
      (List.cons_ne_nil _ _)).1 i hi
    rw [hk] at h1
    have h2 := idealPoint_le obj k rest first i hi
    linarith
  generalize hext : extremes m (first :: rest) (fun i k => obj i k - idealPoint obj first rest k) = ext at h h'
  have hnorm := normalizeFront_mul ha ho m (first :: rest) ext (fun i k => obj i k - idealPoint obj first rest k)
  generalize normalizeFront o m (first :: rest) ext (fun i k => obj i k - idealPoint obj first rest k) = N at h hnorm
  generalize normalizeFront o m (first :: rest) ext (fun i k => a * (obj i k - idealPoint obj first rest k)) = N' at h' hnorm
  have hscaled : ∀ i ∈ first :: rest, ∀ k < m, a * (obj i k - idealPoint obj first rest k) / N' k =
      (obj i k - idealPoint obj first rest k) / N k := by
    intro i hi k hk
    rcases hnorm k hk with h1 | h1
    · rw [h1, mul_div_mul_left _ _ ha.ne']
    · rw [hzero k h1 i hi, sub_self, mul_zero, zero_div, zero_div]
  have hgeo : geometry o m (first :: rest) ext (fun i k => a * (obj i k - idealPoint obj first rest k) / N' k) =
      geometry o m (first :: rest) ext (fun i k => (obj i k - idealPoint obj first rest k) / N k) := by
    unfold geometry
    have hi : (indexMin (first :: rest).length fun j => if j ∈ ext then ⊤ else ((lineDistance m (fun _ => 0) (fun _ => 1)
        (fun k => a * (obj (member (first :: rest) j) k - idealPoint obj first rest k) / N' k) : K) : WithTop K)) =
        indexMin (first :: rest).length fun j => if j ∈ ext then ⊤ else ((lineDistance m (fun _ => 0) (fun _ => 1)
        (fun k => (obj (member (first :: rest) j) k - idealPoint obj first rest k) / N k) : K) : WithTop K) := by
      refine indexMin_congr fun j hj => ?_
      rw [lineDistance_congr (hscaled _ (hmem j hj))]
    simp only
    rw [hi]
    congr 2
    exact accu_congr (hscaled _ (hmem _ (indexMin_lt (by simp) _)))
  rw [hgeo] at h'
  generalize geometry o m (first :: rest) ext (fun i k => (obj i k - idealPoint obj first rest k) / N k) = p at h h'
  have hpair : ∀ s < (first :: rest).length, ∀ t < (first :: rest).length,
      pairwise o m p (first :: rest) (fun i k => a * (obj i k - idealPoint obj first rest k) / N' k) s t =
        pairwise o m p (first :: rest) (fun i k => (obj i k - idealPoint obj first rest k) / N k) s t := by
    intro s hs t ht
    unfold pairwise
    simp only
    rw [minkowski_congr o p (hscaled _ (hmem t ht))]
    have e : (minkowski o m p fun k =>
        a * (obj (member (first :: rest) s) k - idealPoint obj first rest k) / N' k -
          a * (obj (member (first :: rest) t) k - idealPoint obj first rest k) / N' k) =
        minkowski o m p fun k => (obj (member (first :: rest) s) k - idealPoint obj first rest k) / N k -
          (obj (member (first :: rest) t) k - idealPoint obj first rest k) / N k :=
      minkowski_congr o p fun k hk => by rw [hscaled _ (hmem s hs) k hk, hscaled _ (hmem t ht) k hk]
    rw [e]
  rw [pickAll_congr hpair _ _ (by
    intro i hi
    simp only [startSel] at hi
    exact List.mem_range.1 (List.mem_filter.1 hi).1)] at h'
  cases hp : pickAll (first :: rest) (pairwise o m p (first :: rest) fun i k => (obj i k - idealPoint obj first rest k) / N k)
      (first :: rest).length (startSel (first :: rest) ext fun _ => 0) with
  | none => rw [hp] at h; cases h
  | some s =>
    rw [hp] at h h'
    simp only [Option.some.injEq, Prod.mk.injEq] at h h'
    obtain ⟨rfl, rfl⟩ := h
    obtain ⟨rfl, rfl⟩ := h'
    refine ⟨fun k hk => (hnorm k hk).imp id fun h1 i hi => ?_, fun i hi => ?_⟩
    · rw [hzero k h1 i hi, hzero k h1 first (by simp)]
    · rw [laterScores_other _ _ _ _ _ _ _ _ _ fun hc => hdis i hi i hc rfl,
        laterScores_other _ _ _ _ _ _ _ _ _ fun hc => hdis i hi i hc rfl]

end

/-! ### Examples and refutations -/

/-- As `demoOps`, with a solver for two objectives (Cramer's rule). -/
def cramerOps : Ops ℚ where
  pow := fun x _ => x
  log := demoOps.log
  solve := fun m A =>
    if m = 2 ∧ A 0 0 * A 1 1 - A 0 1 * A 1 0 ≠ 0 then
      some (some fun k => if k = 0 then (A 1 1 - A 0 1) / (A 0 0 * A 1 1 - A 0 1 * A 1 0)
        else (A 0 0 - A 1 0) / (A 0 0 * A 1 1 - A 0 1 * A 1 0))
    else none

theorem cramerOps_homogeneous : cramerOps.Homogeneous := by
  intro m A a ha
  simp only [cramerOps]
  have hd : a * A 0 0 * (a * A 1 1) - a * A 0 1 * (a * A 1 0) = a ^ 2 * (A 0 0 * A 1 1 - A 0 1 * A 1 0) := by ring
  rw [hd]
  by_cases h : m = 2 ∧ A 0 0 * A 1 1 - A 0 1 * A 1 0 ≠ 0
  · rw [if_pos h, if_pos ⟨h.1, mul_ne_zero (pow_ne_zero 2 ha.ne') h.2⟩]
    simp only [Option.map_some, Option.some.injEq]
    funext k
    have h2 := h.2
    have ha' := ha.ne'
    generalize hD : A 0 0 * A 1 1 - A 0 1 * A 1 0 = D at *
    split_ifs
    · field_simp
    · field_simp
  · rw [if_neg h, if_neg]
    · rfl
    · exact fun hh => h ⟨hh.1, fun hc => hh.2 (by rw [hc, mul_zero])⟩

/-- Hypotheses of `C318_unit_partial`. -/
example : cramerOps.Homogeneous ∧ (∃ ranks, IsParetoRanking (fun p q => dominates 2 (corner p) (corner q)) 3 [[0, 1, 2]] ranks) ∧
    2 ≤ [0, 1, 2].length ∧ (survival cramerOps 2 [[0, 1, 2]] corner).isSome ∧
    (survival cramerOps 2 [[0, 1, 2]] fun i k => 1000 * corner i k).isSome :=
  ⟨cramerOps_homogeneous, corner_ranking, by decide, by decide +kernel, by decide +kernel⟩

/-- Four points of a front of three objectives. -/
def uneven : Nat → Nat → ℚ := table [[2, 0, 4], [4, 2, 1], [1, 1, 4], [0, 2, 4]]

/-- **C318** (refuted for different factors) "The unit of an objective does not matter": halving the third objective changes
which members count as extreme and are kept first. -/
theorem C318_units_refuted :
    ¬ ∀ (o : Ops ℚ) (m n : Nat) (obj : Nat → Nat → ℚ) (a : Nat → ℚ) (fronts : List (List Nat)) (ranks : Nat → Nat)
      (norm norm' : Nat → ℚ) (sc sc' : Nat → WithTop ℚ), o.Homogeneous → (∀ k, 0 < a k) →
      IsParetoRanking (fun p q => dominates m (obj p) (obj q)) n fronts ranks →
      survival o m fronts obj = some (norm, sc) → survival o m fronts (fun i k => a k * obj i k) = some (norm', sc') →
      ∀ i < n, (sc i = ⊤ ↔ sc' i = ⊤) := by
  intro h
  obtain ⟨ranks, hr⟩ := ranking_of (m := 3) (n := 4) (obj := uneven) (fronts := [[0, 1, 2, 3]]) (by decide +kernel)
  have hv : (survival cramerOps 3 [[0, 1, 2, 3]] uneven).map (fun r => decide (r.2 1 = ⊤)) = some true := by decide +kernel
  have hv' : (survival cramerOps 3 [[0, 1, 2, 3]] fun i k => (fun k => if k = 2 then (1 / 2 : ℚ) else 1) k * uneven i k).map
      (fun r => decide (r.2 1 = ⊤)) = some false := by decide +kernel
  cases hs : survival cramerOps 3 [[0, 1, 2, 3]] uneven with
  | none => rw [hs] at hv; cases hv
  | some r =>
    cases hs' : survival cramerOps 3 [[0, 1, 2, 3]] fun i k => (fun k => if k = 2 then (1 / 2 : ℚ) else 1) k * uneven i k with
    | none => rw [hs'] at hv'; cases hv'
    | some r' =>
      rw [hs, Option.map_some, Option.some.injEq, decide_eq_true_eq] at hv
      rw [hs', Option.map_some, Option.some.injEq, decide_eq_false_iff_not] at hv'
      exact hv' ((h cramerOps 3 4 uneven (fun k => if k = 2 then 1 / 2 else 1) [[0, 1, 2, 3]] ranks r.1 r'.1 r.2 r'.2
        cramerOps_homogeneous (fun k => by split_ifs <;> norm_num) hr hs hs' 1 (by decide)).1 hv)

/-- **C318** (refuted for the later fronts) "A common factor does not change which of two members of a front is preferred":
the later fronts compare normalised objectives with the ideal point before normalisation. -/
theorem C318_later_refuted :
    ¬ ∀ (o : Ops ℚ) (m n : Nat) (obj : Nat → Nat → ℚ) (a : ℚ) (fronts : List (List Nat)) (ranks : Nat → Nat)
      (norm norm' : Nat → ℚ) (sc sc' : Nat → WithTop ℚ), o.Homogeneous → 0 < a →
      IsParetoRanking (fun p q => dominates m (obj p) (obj q)) n fronts ranks →
      survival o m fronts obj = some (norm, sc) → survival o m fronts (fun i k => a * obj i k) = some (norm', sc') →
      ∀ i < n, ∀ j < n, ranks i = ranks j → (sc i < sc j ↔ sc' i < sc' j) := by
  intro h
  obtain ⟨ranks, hr⟩ := ranking_of (m := 2) (n := 4) (obj := faraway) (fronts := [[0, 1], [2, 3]]) (by decide +kernel)
  have hv : (survival cramerOps 2 [[0, 1], [2, 3]] faraway).map (fun r => decide (r.2 2 < r.2 3)) = some true := by
    decide +kernel
  have hv' : (survival cramerOps 2 [[0, 1], [2, 3]] fun i k => 1 / 10 * faraway i k).map
      (fun r => decide (r.2 2 < r.2 3)) = some false := by decide +kernel
  cases hs : survival cramerOps 2 [[0, 1], [2, 3]] faraway with
  | none => rw [hs] at hv; cases hv
  | some r =>
    cases hs' : survival cramerOps 2 [[0, 1], [2, 3]] fun i k => 1 / 10 * faraway i k with
    | none => rw [hs'] at hv'; cases hv'
    | some r' =>
      rw [hs, Option.map_some, Option.some.injEq, decide_eq_true_eq] at hv
      rw [hs', Option.map_some, Option.some.injEq, decide_eq_false_iff_not] at hv'
      refine hv' ((h cramerOps 2 4 faraway (1 / 10) [[0, 1], [2, 3]] ranks r.1 r'.1 r.2 r'.2
        cramerOps_homogeneous (by norm_num) hr hs hs' 2 (by decide) 3 (by decide) ?_).1 hv)
      rw [hr.rank 1 [2, 3] rfl 2 (by decide), hr.rank 1 [2, 3] rfl 3 (by decide)]

end Ens.Moo.Agemoea
