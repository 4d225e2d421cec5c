import Mathlib.Analysis.SpecialFunctions.Pow.Real
import Mathlib.Data.Nat.Log
import Verif.Moo.SurvivalScore

/-
AGEMOEA: normalised objectives (C193, C194), the exponent (C196), what the scores do not do (C197, C198), elitism (C199).
-/

namespace Ens.Moo.Agemoea

open Ens.Moo

variable {K : Type} [Field K] [LinearOrder K]

/-- The vector `normalize` of a first front with at least `m` members. -/
theorem survival_norm {o : Ops K} {m : Nat} {first : Nat} {rest : List Nat} {later : List (List Nat)} {obj : Nat → Nat → K}
    {norm : Nat → K} {sc : Nat → WithTop K} (h : survival o m ((first :: rest) :: later) obj = some (norm, sc))
    (hlen : m ≤ (first :: rest).length) :
    norm = normalizeFront o m (first :: rest)
      (extremes m (first :: rest) fun i k => obj i k - idealPoint obj first rest k)
      (fun i k => obj i k - idealPoint obj first rest k) := by
  simp only [survival, firstFrontScores] at h
  rw [if_neg (by omega)] at h
  split at h
  · cases h
  · rename_i h'
    split at h'
    · cases h'
    · cases h'
      cases h
      rfl

variable [IsStrictOrderedRing K]

/-- **C193** The objectives that `GenerationalStepTaken` sees: if the first front has at least as many members as there are
objectives, its normalised objectives are not negative and each objective attains 0 in the front. -/
theorem C193_normalised {W I : Type} {env : Moo.Env W I K} {o : Ops K} (ho : o.Sane) {N m : Nat} (hN : 2 ≤ N)
    (hp : ∀ w, (env.pick w).2 < N) (hs : ∀ c l, (env.sort c l).Perm l) {s s' : St W I K} (hl : s.pop.length = N)
    (hg : generation (withSurvival env o m) N m s = some s') {f : List Nat} (hf : s'.fronts[0]? = some f)
    (hlen : m ≤ f.length) : ∀ k < m, (∀ i ∈ f, 0 ≤ s'.objs i k) ∧ ∃ i ∈ f, s'.objs i k = 0 := by
  obtain ⟨b, t, hb, hg', -, hrank, -⟩ := generation_spec (env := withSurvival env o m) (m := m) hN hp hs s hl
  rw [hg] at hg'
  cases hg'
  have hobj : s'.objs = normalise m (((survival o m s'.fronts
      (evaluateObjectives env.evaluate (s.pop ++ b.2) m 0 (b.1, fun _ _ => 0)).2).getD (fun _ => 0, fun _ => 0)).1) s'.fronts
      (evaluateObjectives env.evaluate (s.pop ++ b.2) m 0 (b.1, fun _ _ => 0)).2 := by
    simp only [generation, Option.bind_eq_bind, Option.bind_eq_some_iff, Option.some.injEq] at hg
    obtain ⟨b', hb', f', hf', rfl⟩ := hg
    have : b' = b := Option.some.inj (hb'.symm.trans hb)
    subst this
    rfl
  rw [hobj]
  change IsParetoRanking (fun p q => dominates m
    ((evaluateObjectives env.evaluate (s.pop ++ b.2) m 0 (b.1, fun _ _ => 0)).2 p)
    ((evaluateObjectives env.evaluate (s.pop ++ b.2) m 0 (b.1, fun _ _ => 0)).2 q)) _ _ _ at hrank
  generalize (evaluateObjectives env.evaluate (s.pop ++ b.2) m 0 (b.1, fun _ _ => 0)).2 = obj at hrank ⊢
  cases hfr : s'.fronts with
  | nil => rw [hfr] at hf; cases hf
  | cons f' later =>
    rw [hfr, List.getElem?_cons_zero, Option.some.injEq] at hf
    subst hf
    rcases f' with _ | ⟨first, rest⟩
    · exact absurd rfl (hrank.nonempty [] (by rw [hfr]; simp))
    rw [hfr] at hrank
    obtain ⟨norm, sc, p, ext, order, hsv, -⟩ := C195_scores ho hrank hlen
    rw [hsv, Option.getD_some]
    have hn : ∀ k < m, 0 < norm k := by
      intro k hk
      rw [survival_norm hsv hlen]
      exact first_norm_pos o obj first rest hlen hk
    have hnorm : ∀ i ∈ first :: rest, ∀ k, normalise m norm ((first :: rest) :: later) obj i k =
        (obj i k - idealPoint obj first rest k) / norm k := by
      intro i hi k
      simp only [normalise]
      rw [if_pos hi, if_neg (by omega)]
    intro k hk
    obtain ⟨h1, q, hq, h2⟩ := idealPoint_spec obj k rest first
    refine ⟨fun i hi => ?_, q, hq, ?_⟩
    · rw [hnorm i hi]
      exact div_nonneg (sub_nonneg.2 (h1 i hi)) (hn k hk).le
    · rw [hnorm q hq, h2, sub_self, zero_div]

/-! ### C194 -/

/-- `arma::solve(A, ones)`: what it returns is a solution. -/
def Ops.Solves (o : Ops K) : Prop :=
  ∀ m A h, o.solve m A = some (some h) → ∀ i < m, accu m (fun k => A i k * h k) = 1

omit [IsStrictOrderedRing K] in
theorem frontMax_fix (front : List Nat) (objs : Nat → Nat → K) (k : Nat) :
    (frontMax front objs k ≠ 0 ∧ fixZero (frontMax front objs) k = frontMax front objs k) ∨
    (frontMax front objs k = 0 ∧ fixZero (frontMax front objs) k = 1) := by
  unfold fixZero
  split_ifs with h
  · exact .inr ⟨h, by rw [h, zero_add]⟩
  · exact .inl ⟨h, add_zero _⟩

theorem normalizeFront_cases {o : Ops K} (ho : o.Solves) {m : Nat} {front ext : List Nat} (objs : Nat → Nat → K)
    (hlen : m ≤ front.length) (hext : ext.Nodup) (hel : ext.length = m) :
    (∀ e ∈ ext, accu m (fun k => objs (member front e) k / normalizeFront o m front ext objs k) = 1) ∨
    ∀ k < m, normalizeFront o m front ext objs k = fixZero (frontMax front objs) k := by
  unfold normalizeFront
  rw [if_neg (by omega), if_neg (by simpa using hext)]
  cases hs : o.solve m (fun i k => objs (member front (ext.getD i 0)) k) with
  | none => exact .inr fun k _ => rfl
  | some r =>
    cases r with
    | none => exact .inr fun k _ => rfl
    | some h =>
      simp only
      split_ifs with h1 h2
      · exact .inr fun k _ => rfl
      · exact .inr fun k _ => rfl
      · left
        intro e he
        obtain ⟨i, hi⟩ := List.getElem?_of_mem he
        have him : i < m := by rw [← hel]; exact getElem?_lt hi
        have := ho m _ h hs i him
        refine Eq.trans ?_ this
        unfold accu
        congr 1
        apply List.map_congr_left
        intro k hk
        have hk0 : h k ≠ 0 := fun hc => h2 ⟨k, hk, hc⟩
        have : fixZero (fun k => 1 / h k) k = 1 / h k := by
          unfold fixZero
          rw [if_neg (one_div_ne_zero hk0), add_zero]
        rw [this, div_div_eq_mul_div, div_one, List.getD_eq_getElem?_getD, hi, Option.getD_some]

/-- **C194** (partial) Normalisation of a first front with at least as many members as there are objectives: all divisors are
positive, and either every extreme member has normalised objectives that sum to 1 (the hyperplane through the extreme
members), or each objective has greatest value 1 in the front (0 if it is constant). Missing: smaller first fronts, see the
refutation. -/
theorem C194_normalisation_partial {o : Ops K} (ho : o.Sane) (hsol : o.Solves) {m n : Nat} {obj : Nat → Nat → K} {first : Nat}
    {rest : List Nat} {later : List (List Nat)} {ranks : Nat → Nat}
    (hr : IsParetoRanking (fun p q => dominates m (obj p) (obj q)) n ((first :: rest) :: later) ranks)
    (hlen : m ≤ (first :: rest).length) :
    ∃ norm sc, survival o m ((first :: rest) :: later) obj = some (norm, sc) ∧ (∀ k < m, 0 < norm k) ∧
      ((∃ ext : List Nat, ext.Nodup ∧ ext.length = m ∧ ∀ e ∈ ext, e ∈ first :: rest ∧ sc e = ⊤ ∧
          accu m (normalise m norm ((first :: rest) :: later) obj e) = 1) ∨
        ∀ k < m, (∀ i ∈ first :: rest, normalise m norm ((first :: rest) :: later) obj i k ≤ 1) ∧
          ((∃ i ∈ first :: rest, normalise m norm ((first :: rest) :: later) obj i k = 1) ∨
            ∀ i ∈ first :: rest, normalise m norm ((first :: rest) :: later) obj i k = 0)) := by
  obtain ⟨norm, sc, p, ext, order, hext, hsv, hel, -, htop, -⟩ := scores_core ho hr hlen
  have hn := survival_norm hsv hlen
  rw [← hext] at hn
  obtain ⟨hend, -, helt⟩ := extremes_basic (fun i k => obj i k - idealPoint obj first rest k) hlen
  rw [← hext] at hend helt
  have hfnd : (first :: rest).Nodup := by
    have := hr.partition.nodup_iff.2 List.nodup_range
    rw [List.flatten_cons] at this
    exact (List.nodup_append.1 this).1
  have hpos : ∀ k < m, 0 < norm k := by
    intro k hk
    rw [hn, hext]
    exact first_norm_pos o obj first rest hlen hk
  have hnorm : ∀ i ∈ first :: rest, ∀ k, normalise m norm ((first :: rest) :: later) obj i k =
      (obj i k - idealPoint obj first rest k) / norm k := by
    intro i hi k
    simp only [normalise]
    rw [if_pos hi, if_neg (by omega)]
  refine ⟨norm, sc, hsv, hpos, ?_⟩
  rcases normalizeFront_cases hsol (fun i k => obj i k - idealPoint obj first rest k) hlen hend hel with h | h
  · left
    refine ⟨ext.map (member (first :: rest)), ?_, by rw [List.length_map, hel], ?_⟩
    · exact (List.nodup_map_iff_inj_on hend).2 fun a ha b hb => member_inj hfnd (helt a ha) (helt b hb)
    · intro e he
      obtain ⟨i, hi, rfl⟩ := List.mem_map.1 he
      refine ⟨member_mem (helt i hi), htop i hi, ?_⟩
      rw [funext (hnorm _ (member_mem (helt i hi))), hn]
      exact h i hi
  · right
    intro k hk
    have hk' := h k hk
    rw [← hn] at hk'
    obtain ⟨m1, q, hq, m2⟩ := frontMax_spec (fun i k => obj i k - idealPoint obj first rest k) k
      (show first :: rest ≠ [] by simp)
    have hle := (idealPoint_spec obj k rest first).1
    rcases frontMax_fix (first :: rest) (fun i k => obj i k - idealPoint obj first rest k) k with ⟨h0, h1⟩ | ⟨h0, h1⟩
    · rw [h1] at hk'
      refine ⟨fun i hi => ?_, .inl ⟨q, hq, ?_⟩⟩
      · rw [hnorm i hi, div_le_one (hpos k hk), hk']
        exact m1 i hi
      · rw [hnorm q hq, m2, hk', div_self h0]
    · have hz : ∀ i ∈ first :: rest, normalise m norm ((first :: rest) :: later) obj i k = 0 := by
        intro i hi
        rw [hnorm i hi, le_antisymm (by rw [← h0]; exact m1 i hi) (sub_nonneg.2 (hle i hi)), zero_div]
      exact ⟨fun i hi => by rw [hz i hi]; exact zero_le_one, .inr hz⟩

end Ens.Moo.Agemoea
