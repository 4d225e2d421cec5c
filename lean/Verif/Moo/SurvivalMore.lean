import Verif.Moo.SurvivalRun

/-
AGEMOEA: the exponent (C196), what the scores do not do (C194, C197, C198), elitism (C199).
-/

namespace Ens.Moo.Agemoea

open Ens.Moo

/-! ### C196 -/

/-- The operations over the reals. -/
noncomputable def realOps (solve : Nat → (Nat → Nat → ℝ) → Option (Option (Nat → ℝ))) : Ops ℝ where
  pow := fun x p => x ^ p
  log := Real.log
  solve := solve

theorem realOps_sane (solve : Nat → (Nat → Nat → ℝ) → Option (Option (Nat → ℝ))) : (realOps solve).Sane where
  pow_nonneg := fun _ _ h => Real.rpow_nonneg h _
  pow_pos := fun _ _ h => Real.rpow_pos_of_pos h _
  zero_pow := fun _ h => Real.zero_rpow h.ne'

/-- **C196** The exponent `p` fits the front: the point with all coordinates equal to the average `avg` lies on the unit sphere of
the `p`-norm, `m * avg ^ p = 1`, unless this `p` is 0.1 or less (then 1 is taken). -/
theorem C196_exponent (solve : Nat → (Nat → Nat → ℝ) → Option (Option (Nat → ℝ))) {m : Nat} (hm : 2 ≤ m) {avg : ℝ}
    (h0 : 0 < avg) (h1 : avg < 1) :
    ∃ q : ℝ, exponent (realOps solve) m avg = (q : WithTop ℝ) ∧
      (1 < m * avg ^ (1 / 10 : ℝ) → 1 / 10 < q ∧ m * avg ^ q = 1) ∧ (m * avg ^ (1 / 10 : ℝ) ≤ 1 → q = 1) := by
  have hl : 0 < Real.log (1 / avg) := Real.log_pos (by rw [one_div]; exact (one_lt_inv₀ h0).2 h1)
  have hla : Real.log (1 / avg) = -Real.log avg := by rw [one_div, Real.log_inv]
  have hm0 : (0 : ℝ) < m := by exact_mod_cast (by omega : 0 < m)
  have hp : Real.log m / Real.log (1 / avg) ≤ 1 / 10 ↔ m * avg ^ (1 / 10 : ℝ) ≤ 1 := by
    rw [div_le_iff₀ hl, hla, ← Real.log_nonpos_iff (by positivity), Real.log_mul hm0.ne' (Real.rpow_pos_of_pos h0 _).ne',
      Real.log_rpow h0]
    constructor <;> intro h <;> linarith
  unfold exponent
  show ∃ q : ℝ, (if avg ≤ 0 then (1 : WithTop ℝ) else if Real.log (1 / avg) = 0 then (if Real.log m = 0 then 1 else ⊤)
    else if Real.log m / Real.log (1 / avg) ≤ 1 / 10 then 1
    else ((Real.log m / Real.log (1 / avg) : ℝ) : WithTop ℝ)) = (q : WithTop ℝ) ∧ _
  rw [if_neg (not_le.2 h0), if_neg hl.ne']
  split_ifs with h
  · exact ⟨1, rfl, fun hc => absurd (hp.1 h) (not_le.2 hc), fun _ => rfl⟩
  · refine ⟨_, rfl, fun _ => ⟨not_le.1 h, ?_⟩, fun hc => absurd (hp.2 hc) h⟩
    have : avg ^ (Real.log m / Real.log (1 / avg)) = 1 / m := by
      rw [Real.rpow_def_of_pos h0, hla]
      have : Real.log avg * (Real.log m / -Real.log avg) = -Real.log m := by
        have hne : Real.log avg ≠ 0 := by intro hc; rw [hc, neg_zero] at hla; exact hl.ne' hla
        field_simp
      rw [this, Real.exp_neg, Real.exp_log hm0, one_div]
    rw [this]
    field_simp

/-- Hypotheses of C196. -/
example : (2 : Nat) ≤ 2 ∧ (0 : ℝ) < 1 / 2 ∧ (1 / 2 : ℝ) < 1 := by norm_num

/-! ### Examples -/

/-- Rational operations; in the examples only the exponent 1 and logarithms of powers of 2 occur. -/
def demoOps : Ops ℚ where
  pow := fun x _ => x
  log := fun x => (Nat.log 2 x.floor.toNat : ℚ)
  solve := fun m A => if (List.range m).all (fun i => accu m (fun k => A i k * 1) = 1) then some (some fun _ => 1) else none

theorem demoOps_sane : demoOps.Sane where
  pow_nonneg := fun _ _ h => h
  pow_pos := fun _ _ h => h
  zero_pow := fun _ _ => rfl

theorem demoOps_solves : demoOps.Solves := by
  intro m A h hs i hi
  simp only [demoOps] at hs
  split_ifs at hs with hc
  cases hs
  rw [List.all_eq_true] at hc
  simpa using hc i (List.mem_range.2 hi)

/-- Objectives from a list of rows. -/
def table (l : List (List ℚ)) (i k : Nat) : ℚ := (l.getD i []).getD k 0

/-- The ranking of a concrete population. -/
theorem ranking_of {m n : Nat} {obj : Nat → Nat → ℚ} {fronts : List (List Nat)}
    (h : (fastNonDominatedSort (fun p q => dominates m (obj p) (obj q)) n (n + 1) fun _ => 0).map (·.1) = some fronts) :
    ∃ ranks, IsParetoRanking (fun p q => dominates m (obj p) (obj q)) n fronts ranks := by
  obtain ⟨fr, rk, h1, h2⟩ := C30_pareto_fronts m n obj fun _ => 0
  rw [h1] at h
  simp only [Option.map_some, Option.some.injEq] at h
  exact ⟨rk, h ▸ h2⟩

/-- Two extreme members and one near the ideal point. -/
def corner : Nat → Nat → ℚ := table [[0, 1], [1, 0], [1 / 2048, 1 / 2048]]

theorem corner_ranking : ∃ ranks, IsParetoRanking (fun p q => dominates 2 (corner p) (corner q)) 3 [[0, 1, 2]] ranks :=
  ranking_of (by decide +kernel)

/-- Hypotheses of C193, C194 and C195. -/
example : demoOps.Sane ∧ demoOps.Solves ∧
    (∃ ranks, IsParetoRanking (fun p q => dominates 2 (corner p) (corner q)) 3 [[0, 1, 2]] ranks) ∧
    2 ≤ [0, 1, 2].length := ⟨demoOps_sane, demoOps_solves, corner_ranking, by decide⟩

/-- **C197** (refuted) "The score of a member is its diversity divided by its proximity: the sum of the two smallest distances to
the members selected before, divided by its own distance from the ideal point." With one member besides the extreme ones, it
is divided by the distances of the extreme members; a member next to the ideal point gets 2 instead of 2048. -/
theorem C197_proximity_refuted :
    ¬ ∀ (o : Ops ℚ) (m n : Nat) (obj : Nat → Nat → ℚ) (first : Nat) (rest : List Nat) (later : List (List Nat))
      (ranks : Nat → Nat) (norm : Nat → ℚ) (p : WithTop ℚ) (sc : Nat → WithTop ℚ), o.Sane → o.Solves →
      (∀ x, o.pow x 1 = x) →
      IsParetoRanking (fun p q => dominates m (obj p) (obj q)) n ((first :: rest) :: later) ranks →
      (first :: rest).length = m + 1 →
      firstFrontScores o m (first :: rest) (idealPoint obj first rest) obj (fun _ => 0) = some (norm, p, sc) →
      ∀ i ∈ first :: rest, sc i ≠ ⊤ →
        sc i = ((twoSmallest (((first :: rest).erase i).map fun t => minkowski o m p fun k =>
            normalise m norm ((first :: rest) :: later) obj i k - normalise m norm ((first :: rest) :: later) obj t k) /
          minkowski o m p (normalise m norm ((first :: rest) :: later) obj i) : ℚ) : WithTop ℚ) := by
  intro h
  obtain ⟨ranks, hr⟩ := corner_ranking
  have hv : (firstFrontScores demoOps 2 [0, 1, 2] (idealPoint corner 0 [1, 2]) corner (fun _ => 0)).map (fun r =>
      (r.2.2 2, ((twoSmallest (([0, 1, 2].erase 2).map fun t => minkowski demoOps 2 r.2.1 fun k =>
            normalise 2 r.1 [[0, 1, 2]] corner 2 k - normalise 2 r.1 [[0, 1, 2]] corner t k) /
          minkowski demoOps 2 r.2.1 (normalise 2 r.1 [[0, 1, 2]] corner 2) : ℚ) : WithTop ℚ), r.2.1)) =
      some (((2 : ℚ) : WithTop ℚ), ((2048 : ℚ) : WithTop ℚ), ((1 : ℚ) : WithTop ℚ)) := by decide +kernel
  cases hf : firstFrontScores demoOps 2 [0, 1, 2] (idealPoint corner 0 [1, 2]) corner (fun _ => 0) with
  | none => rw [hf] at hv; cases hv
  | some r =>
    rw [hf, Option.map_some, Option.some.injEq, Prod.mk.injEq, Prod.mk.injEq] at hv
    obtain ⟨h1, h2, -⟩ := hv
    have := h demoOps 2 3 corner 0 [1, 2] [] ranks r.1 r.2.1 r.2.2 demoOps_sane demoOps_solves (fun _ => rfl) hr rfl hf 2
      (by decide) (by rw [h1]; exact WithTop.coe_ne_top)
    rw [h1, h2] at this
    exact absurd (WithTop.coe_injective this) (by norm_num)

/-! ### C194, refuted -/

def zeroFront : Nat → Nat → ℚ := table [[0, 0], [1, 1]]

/-- **C194** (refuted) "The objectives of the later fronts are divided by numbers other than zero": a first front with fewer
members than objectives is not shifted and its greatest values are taken as they are. -/
theorem C194_divisor_refuted :
    ¬ ∀ (o : Ops ℚ) (m n : Nat) (obj : Nat → Nat → ℚ) (fronts : List (List Nat)) (ranks : Nat → Nat) (norm : Nat → ℚ)
      (sc : Nat → WithTop ℚ), o.Sane → o.Solves → IsParetoRanking (fun p q => dominates m (obj p) (obj q)) n fronts ranks →
      survival o m fronts obj = some (norm, sc) → ∀ k < m, norm k ≠ 0 := by
  intro h
  obtain ⟨ranks, hr⟩ := ranking_of (m := 2) (n := 2) (obj := zeroFront) (fronts := [[0], [1]]) (by decide +kernel)
  have hv : (survival demoOps 2 [[0], [1]] zeroFront).map (fun r => r.1 0) = some 0 := by decide +kernel
  cases hs : survival demoOps 2 [[0], [1]] zeroFront with
  | none => rw [hs] at hv; cases hv
  | some r =>
    rw [hs, Option.map_some, Option.some.injEq] at hv
    exact h demoOps 2 2 zeroFront [[0], [1]] ranks r.1 r.2 demoOps_sane demoOps_solves hr hs 0 (by decide) hv

/-! ### C198 -/

section
variable {K : Type} [Field K] [LinearOrder K] [IsStrictOrderedRing K]

theorem idealPoint_add (obj : Nat → Nat → K) (c : Nat → K) (k : Nat) : ∀ (rest : List Nat) (first : Nat),
    idealPoint (fun i k => obj i k + c k) first rest k = idealPoint obj first rest k + c k := by
  have key : ∀ (rest : List Nat) (acc : Nat → K),
      rest.foldl (fun acc p k => min (acc k) (obj p k + c k)) (fun k => acc k + c k) =
        fun k => rest.foldl (fun acc p k => min (acc k) (obj p k)) acc k + c k := by
    intro rest
    induction rest with
    | nil => intro acc; rfl
    | cons a rest ih =>
      intro acc
      simp only [List.foldl_cons]
      rw [← ih]
      congr 1
      funext k
      exact min_add_add_right _ _ _
  intro rest first
  exact congrFun (key rest (obj first)) k

/-- **C198** (partial) Adding constants to the objectives changes neither the normalisation nor the scores of a first front with at
least as many members as there are objectives. Missing: the other fronts, see the refutation. -/
theorem C198_translation_partial (o : Ops K) {m n : Nat} {obj : Nat → Nat → K} {first : Nat} {rest : List Nat}
    {later : List (List Nat)} {ranks : Nat → Nat}
    (hr : IsParetoRanking (fun p q => dominates m (obj p) (obj q)) n ((first :: rest) :: later) ranks)
    (hlen : m ≤ (first :: rest).length) (c : Nat → K) {norm norm' : Nat → K} {sc sc' : Nat → WithTop K}
    (h : survival o m ((first :: rest) :: later) obj = some (norm, sc))
    (h' : survival o m ((first :: rest) :: later) (fun i k => obj i k + c k) = some (norm', sc')) :
    norm' = norm ∧ ∀ i ∈ first :: rest, sc' i = sc i := by
  have hflat : ((first :: rest) ++ later.flatten).Nodup := by
    have := hr.partition.nodup_iff.2 List.nodup_range
    rwa [List.flatten_cons] at this
  obtain ⟨-, -, hdis⟩ := List.nodup_append.1 hflat
  have hsh : (fun i k => obj i k + c k - idealPoint (fun i k => obj i k + c k) first rest k) =
      fun i k => obj i k - idealPoint obj first rest k := by
    funext i k
    rw [idealPoint_add]
    ring
  have hff : firstFrontScores o m (first :: rest) (idealPoint (fun i k => obj i k + c k) first rest)
      (fun i k => obj i k + c k) (fun _ => 0) =
      firstFrontScores o m (first :: rest) (idealPoint obj first rest) obj (fun _ => 0) := by
    unfold firstFrontScores
    rw [if_neg (by omega), if_neg (by omega)]
    have hp : ∀ i k, obj i k + c k - idealPoint (fun i k => obj i k + c k) first rest k =
        obj i k - idealPoint obj first rest k := fun i k => congrFun (congrFun hsh i) k
    simp only [hp]
  simp only [survival] at h h'
  rw [hff] at h'
  cases hc : firstFrontScores o m (first :: rest) (idealPoint obj first rest) obj (fun _ => 0) with
  | none => rw [hc] at h; cases h
  | some r =>
    rw [hc] at h h'
    simp only [Option.some.injEq, Prod.mk.injEq] at h h'
    obtain ⟨rfl, rfl⟩ := h
    obtain ⟨rfl, rfl⟩ := h'
    refine ⟨rfl, fun i hi => ?_⟩
    rw [laterScores_other _ _ _ _ _ _ _ _ _ fun hc => hdis i hi i hc rfl,
      laterScores_other _ _ _ _ _ _ _ _ _ fun hc => hdis i hi i hc rfl]

end

def shifty : Nat → Nat → ℚ := table [[1, 1], [2, 3], [4, 3 / 2]]

/-- Hypotheses of C198: both runs of the scores on the corner. -/
example : (survival demoOps 2 [[0, 1, 2]] corner).isSome ∧
    (survival demoOps 2 [[0, 1, 2]] fun i k => corner i k + (fun k => (k : ℚ) + 10) k).isSome := by decide +kernel

/-- **C198** (refuted) "Adding constants to the objectives does not change which of two members is preferred": the later fronts are
neither shifted before they are divided nor compared with the normalised ideal point. -/
theorem C198_translation_refuted :
    ¬ ∀ (o : Ops ℚ) (m n : Nat) (obj : Nat → Nat → ℚ) (c : Nat → ℚ) (fronts : List (List Nat)) (ranks : Nat → Nat)
      (norm norm' : Nat → ℚ) (sc sc' : Nat → WithTop ℚ), o.Sane → o.Solves → (∀ x, o.pow x 1 = x) →
      IsParetoRanking (fun p q => dominates m (obj p) (obj q)) n fronts ranks →
      survival o m fronts obj = some (norm, sc) → survival o m fronts (fun i k => obj i k + c k) = some (norm', sc') →
      ∀ i < n, ∀ j < n, ranks i = ranks j → (sc i < sc j ↔ sc' i < sc' j) := by
  intro h
  obtain ⟨ranks, hr⟩ := ranking_of (m := 2) (n := 3) (obj := shifty) (fronts := [[0], [1, 2]]) (by decide +kernel)
  have hv : (survival demoOps 2 [[0], [1, 2]] shifty).map (fun r => decide (r.2 2 < r.2 1)) = some true := by decide +kernel
  have hv' : (survival demoOps 2 [[0], [1, 2]] fun i k => shifty i k + (fun _ => (10 : ℚ)) k).map
      (fun r => decide (r.2 2 < r.2 1)) = some false := by decide +kernel
  cases hs : survival demoOps 2 [[0], [1, 2]] shifty with
  | none => rw [hs] at hv; cases hv
  | some r =>
    cases hs' : survival demoOps 2 [[0], [1, 2]] fun i k => shifty i k + (fun _ => (10 : ℚ)) k with
    | none => rw [hs'] at hv'; cases hv'
    | some r' =>
      rw [hs, Option.map_some, Option.some.injEq, decide_eq_true_eq] at hv
      rw [hs', Option.map_some, Option.some.injEq, decide_eq_false_iff_not] at hv'
      refine hv' ((h demoOps 2 3 shifty (fun _ => 10) [[0], [1, 2]] ranks r.1 r'.1 r.2 r'.2 demoOps_sane demoOps_solves
        (fun _ => rfl) hr hs hs' 2 (by decide) 1 (by decide) ?_).1 hv)
      rw [hr.rank 1 [1, 2] rfl 2 (by decide), hr.rank 1 [1, 2] rfl 1 (by decide)]

/-! ### C200 -/

/-- **C200** (partial) Within a later front the members nearer to the ideal point (in normalised objectives) are preferred, if the
ideal point is the origin. Missing: other ideal points, see the refutation. -/
theorem C200_later_fronts_partial {K : Type} [Field K] [LinearOrder K] [IsStrictOrderedRing K] {o : Ops K} (ho : o.Sane)
    {m n : Nat} {obj : Nat → Nat → K} {first : Nat} {rest : List Nat} {later : List (List Nat)} {ranks : Nat → Nat}
    (hr : IsParetoRanking (fun p q => dominates m (obj p) (obj q)) n ((first :: rest) :: later) ranks)
    (hlen : m ≤ (first :: rest).length) (h0 : ∀ k < m, idealPoint obj first rest k = 0) :
    ∃ norm sc p, survival o m ((first :: rest) :: later) obj = some (norm, sc) ∧ (∀ k < m, 0 < norm k) ∧
      ∀ i ∈ later.flatten, ∀ j ∈ later.flatten, (sc j < sc i ↔
        minkowski o m p (normalise m norm ((first :: rest) :: later) obj i) <
          minkowski o m p (normalise m norm ((first :: rest) :: later) obj j)) := by
  obtain ⟨norm, sc, p, ext, order, hext, hsv, -, -, -, -, -, -, -, hl⟩ := scores_core ho hr hlen
  refine ⟨norm, sc, p, hsv, ?_, ?_⟩
  · intro k hk
    rw [survival_norm hsv hlen]
    exact first_norm_pos o obj first rest hlen hk
  · intro i hi j hj
    have e : ∀ q, minkowski o m p (fun k => normalise m norm ((first :: rest) :: later) obj q k - idealPoint obj first rest k) =
        minkowski o m p (normalise m norm ((first :: rest) :: later) obj q) := by
      intro q
      have : ∀ f g : Nat → K, (∀ k < m, f k = g k) → minkowski o m p f = minkowski o m p g := by
        intro f g h
        unfold minkowski
        cases p with
        | top => rfl
        | coe p =>
          have ha : (accu m fun k => o.pow |f k| p) = accu m fun k => o.pow |g k| p := by
            unfold accu
            congr 1
            apply List.map_congr_left
            intro k hk
            rw [h k (List.mem_range.1 hk)]
          show o.pow (accu m fun k => o.pow |f k| p) _ = o.pow (accu m fun k => o.pow |g k| p) _
          rw [ha]
      exact this _ _ fun k hk => by rw [h0 k hk, sub_zero]
    obtain ⟨i0, i1⟩ := hl i hi _ (e i).symm
    obtain ⟨j0, j1⟩ := hl j hj _ (e j).symm
    have ni := minkowski_nonneg ho m p (normalise m norm ((first :: rest) :: later) obj i)
    have nj := minkowski_nonneg ho m p (normalise m norm ((first :: rest) :: later) obj j)
    generalize minkowski o m p (normalise m norm ((first :: rest) :: later) obj i) = a at i0 i1 ni ⊢
    generalize minkowski o m p (normalise m norm ((first :: rest) :: later) obj j) = b at j0 j1 nj ⊢
    rcases ni.eq_or_lt with ha | ha
    · rw [i0 ha.symm]
      rcases nj.eq_or_lt with hb | hb
      · rw [j0 hb.symm, ← ha, ← hb]
        exact ⟨fun h => absurd h (lt_irrefl _), fun h => absurd h (lt_irrefl _)⟩
      · rw [j1 hb.ne', ← ha]
        exact ⟨fun _ => hb, fun _ => WithTop.coe_lt_top _⟩
    · rw [i1 ha.ne']
      rcases nj.eq_or_lt with hb | hb
      · rw [j0 hb.symm, ← hb]
        exact ⟨fun h => absurd h (not_top_lt), fun h => absurd h (not_lt.2 ha.le)⟩
      · rw [j1 hb.ne', WithTop.coe_lt_coe]
        exact one_div_lt_one_div hb ha

def faraway : Nat → Nat → ℚ := table [[10, 12], [12, 10], [12, 13], [14, 12]]

/-- Hypotheses of C200. -/
example : demoOps.Sane ∧ (∃ ranks, IsParetoRanking (fun p q => dominates 2 (table [[0, 2], [2, 0], [2, 3], [4, 2]] p)
      (table [[0, 2], [2, 0], [2, 3], [4, 2]] q)) 4 [[0, 1], [2, 3]] ranks) ∧
    ∀ k < 2, idealPoint (table [[0, 2], [2, 0], [2, 3], [4, 2]]) 0 [1] k = 0 :=
  ⟨demoOps_sane, ranking_of (by decide +kernel), by decide +kernel⟩

/-- **C200** (refuted) "Within a later front the members nearer to the ideal point are preferred": the normalised objectives are
compared with the ideal point before normalisation. (12, 13) is nearer to (10, 10) than (14, 12). -/
theorem C200_later_fronts_refuted :
    ¬ ∀ (o : Ops ℚ) (m n : Nat) (obj : Nat → Nat → ℚ) (first : Nat) (rest : List Nat) (later : List (List Nat))
      (ranks : Nat → Nat) (norm : Nat → ℚ) (sc : Nat → WithTop ℚ), o.Sane → o.Solves → (∀ x p, o.pow x p = x) →
      IsParetoRanking (fun p q => dominates m (obj p) (obj q)) n ((first :: rest) :: later) ranks →
      m ≤ (first :: rest).length → survival o m ((first :: rest) :: later) obj = some (norm, sc) →
      ∀ i ∈ later.flatten, ∀ j ∈ later.flatten, ranks i = ranks j →
        accu m (fun k => |(obj i k - idealPoint obj first rest k) / norm k|) <
          accu m (fun k => |(obj j k - idealPoint obj first rest k) / norm k|) → sc j ≤ sc i := by
  intro h
  obtain ⟨ranks, hr⟩ := ranking_of (m := 2) (n := 4) (obj := faraway) (fronts := [[0, 1], [2, 3]]) (by decide +kernel)
  have hv : (survival demoOps 2 [[0, 1], [2, 3]] faraway).map (fun r => (decide (r.2 3 ≤ r.2 2),
      decide (accu 2 (fun k => |(faraway 2 k - idealPoint faraway 0 [1] k) / r.1 k|) <
        accu 2 (fun k => |(faraway 3 k - idealPoint faraway 0 [1] k) / r.1 k|)))) = some (false, true) := by decide +kernel
  cases hs : survival demoOps 2 [[0, 1], [2, 3]] faraway with
  | none => rw [hs] at hv; cases hv
  | some r =>
    rw [hs, Option.map_some, Option.some.injEq, Prod.mk.injEq, decide_eq_false_iff_not, decide_eq_true_eq] at hv
    refine hv.1 (h demoOps 2 4 faraway 0 [1] [[2, 3]] ranks r.1 r.2 demoOps_sane demoOps_solves (fun _ _ => rfl) hr
      (by decide) hs 2 (by decide) 3 (by decide) ?_ hv.2)
    rw [hr.rank 1 [2, 3] rfl 2 (by decide), hr.rank 1 [2, 3] rfl 3 (by decide)]

end Ens.Moo.Agemoea
