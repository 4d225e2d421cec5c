import Verif.Moo.Affine
import Verif.Moo.Decomposition

/-
MOEA/D and changes of the objectives (`moead/moead_impl.hpp` and the decomposition policies): property C282.
-/

namespace Ens.Moo.Moead

open Ens.Moo Finset

variable {W I R : Type}

section

variable [Field R] [LinearOrder R] [IsStrictOrderedRing R]

/-- The same environment with objective `k` replaced by `a k * f + c k`. -/
def Env.rescale (env : Env W I R) (a c : Nat → R) : Env W I R :=
  { env with evaluate := fun w k x => ((env.evaluate w k x).1, a k * (env.evaluate w k x).2 + c k) }

/-- Objective vectors of a member in the two runs. -/
def Img (a : R) (c : Nat → R) (m : Nat) (f f' : Nat → R) : Prop := ∀ k < m, f' k = a * f k + c k

/-- The decomposition ranks the images of two objective vectors, with the image of the ideal point, like the vectors. -/
def Compatible (apply : Nat → (Nat → R) → (Nat → R) → R) (a : R) (c : Nat → R) (m : Nat) : Prop :=
  ∀ i z z' f f' g g', Img a c m z z' → Img a c m f f' → Img a c m g g' →
    (apply i z' f' < apply i z' g' ↔ apply i z f < apply i z g)

variable {env : Env W I R} {a : R} {c : Nat → R} {m : Nat}

theorem forall₂_getElem? {α β : Type} {P : α → β → Prop} {l : List α} {l' : List β} (h : List.Forall₂ P l l') :
    ∀ i : Nat, (l[i]? = none ∧ l'[i]? = none) ∨ ∃ x y, l[i]? = some x ∧ l'[i]? = some y ∧ P x y := by
  induction h with
  | nil => intro i; left; simp
  | cons h _ ih =>
    intro i
    cases i with
    | zero => exact .inr ⟨_, _, rfl, rfl, h⟩
    | succ i => simpa using ih i

theorem forall₂_set {α β : Type} {P : α → β → Prop} {l : List α} {l' : List β} (h : List.Forall₂ P l l') {x : α} {y : β}
    (hxy : P x y) : ∀ i, List.Forall₂ P (l.set i x) (l'.set i y) := by
  induction h with
  | nil => intro i; exact .nil
  | cons h t ih =>
    intro i
    cases i with
    | zero => exact .cons hxy t
    | succ i => exact .cons h (ih i)

omit [IsStrictOrderedRing R] in
theorem replaceLoop_twin (hcomp : Compatible env.apply a c m) {K maxReplace sub : Nat} {b : Bool} {z z' : Nat → R} {cand : I}
    {f f' : Nat → R} (hz : Img a c m z z') (hf : Img a c m f f') : ∀ (idxs : List Nat) (count : Nat) (pop : List I)
    (fit fit' : List (Nat → R)), List.Forall₂ (Img a c m) fit fit' →
    (replaceLoop env K maxReplace sub b z cand f idxs count (pop, fit) = none ∧
      replaceLoop (env.rescale (fun _ => a) c) K maxReplace sub b z' cand f' idxs count (pop, fit') = none) ∨
    ∃ p q q', replaceLoop env K maxReplace sub b z cand f idxs count (pop, fit) = some (p, q) ∧
      replaceLoop (env.rescale (fun _ => a) c) K maxReplace sub b z' cand f' idxs count (pop, fit') = some (p, q') ∧
      List.Forall₂ (Img a c m) q q'
  | [], _, pop, fit, fit', h => .inr ⟨pop, fit, fit', rfl, rfl, h⟩
  | idx :: rest, count, pop, fit, fit', h => by
    unfold replaceLoop
    by_cases hm : maxReplace ≤ count
    · rw [if_pos hm, if_pos hm]
      exact .inr ⟨pop, fit, fit', rfl, rfl, h⟩
    rw [if_neg hm, if_neg hm]
    have hpk : pickOf (env.rescale (fun _ => a) c) K sub b idx = pickOf env K sub b idx := rfl
    rw [hpk]
    cases pickOf env K sub b idx with
    | none => exact .inl ⟨rfl, rfl⟩
    | some pick =>
      simp only [Option.bind_eq_bind, Option.bind_some]
      rcases forall₂_getElem? h pick with ⟨h1, h2⟩ | ⟨g, g', h1, h2, hg⟩
      · rw [h1, h2]
        exact .inl ⟨rfl, rfl⟩
      rw [h1, h2]
      simp only [Option.bind_some]
      have hiff := hcomp pick z z' f f' g g' hz hf hg
      have hap : (env.rescale (fun _ => a) c).apply = env.apply := rfl
      rw [hap]
      by_cases hlt : env.apply pick z f < env.apply pick z g
      · rw [if_pos hlt, if_pos (hiff.2 hlt)]
        exact replaceLoop_twin hcomp hz hf rest (count + 1) _ _ _ (forall₂_set h hf pick)
      · rw [if_neg hlt, if_neg (mt hiff.1 hlt)]
        exact replaceLoop_twin hcomp hz hf rest count _ _ _ h

/-- States of the two runs. -/
structure Twin (a : R) (c : Nat → R) (m : Nat) (s s' : St W I R) : Prop where
  w : s'.w = s.w
  pop : s'.pop = s.pop
  fit : List.Forall₂ (Img a c m) s.fit s'.fit
  ideal : Img a c m s.ideal s'.ideal
  terminate : s'.terminate = s.terminate
  seen : s'.seen = s.seen
  history : List.Forall₂ (fun p p' => p'.1 = p.1 ∧ List.Forall₂ (Img a c m) p.2 p'.2) s.history s'.history

theorem img_min (ha : 0 < a) {f f' g g' : Nat → R} (hf : Img a c m f f') (hg : Img a c m g g') :
    Img a c m (fun k => min (f k) (g k)) fun k => min (f' k) (g' k) := by
  intro k hk
  dsimp only
  rw [hf k hk, hg k hk, mul_min_of_nonneg _ _ ha.le, min_add_add_right]

theorem mating_rescale (N K sub : Nat) (b : Bool) (w : W) : mating (env.rescale (fun _ => a) c) N K sub b w = mating env N K sub b w := rfl

theorem subproblem_twin (ha : 0 < a) (hcomp : Compatible env.apply a c m) {N K maxReplace : Nat} {s s' : St W I R}
    (h : Twin a c m s s') (sub : Nat) :
    (subproblem env N K maxReplace m s sub = none ∧ subproblem (env.rescale (fun _ => a) c) N K maxReplace m s' sub = none) ∨
    ∃ t t', subproblem env N K maxReplace m s sub = some t ∧ subproblem (env.rescale (fun _ => a) c) N K maxReplace m s' sub = some t' ∧
      Twin a c m t t' := by
  unfold subproblem
  have hcoin : (env.rescale (fun _ => a) c).coin = env.coin := rfl
  simp only [mating_rescale, hcoin, h.w, h.pop, Option.bind_eq_bind]
  cases mating env N K sub (env.coin s.w).2 (env.coin s.w).1 with
  | none => exact .inl ⟨rfl, rfl⟩
  | some r =>
    simp only [Option.bind_some]
    cases s.pop[sub]? with
    | none => exact .inl ⟨rfl, rfl⟩
    | some x1 =>
      simp only [Option.bind_some]
      cases s.pop[r.2.1]? with
      | none => exact .inl ⟨rfl, rfl⟩
      | some x2 =>
        simp only [Option.bind_some]
        cases s.pop[r.2.2]? with
        | none => exact .inl ⟨rfl, rfl⟩
        | some x3 =>
          simp only [Option.bind_some]
          have hmk : (env.rescale (fun _ => a) c).make = env.make := rfl
          have hcl : (env.rescale (fun _ => a) c).clamp = env.clamp := rfl
          have hsh : (env.rescale (fun _ => a) c).shuffle = env.shuffle := rfl
          have hev : (env.rescale (fun _ => a) c).evaluate = fun w k x => ((env.evaluate w k x).1, a * (env.evaluate w k x).2 + c k) := rfl
          rw [hmk, hcl, hsh, hev]
          obtain ⟨e1, e2⟩ := evaluate_image env.evaluate (fun _ => a) c [env.clamp (env.make r.1 x1 x2 x3).2] m 0 (fun _ _ => False)
            ((env.make r.1 x1 x2 x3).1, fun _ _ => (0 : R)) ((env.make r.1 x1 x2 x3).1, fun _ _ => (0 : R)) rfl
            (fun _ _ h => h.elim)
          rw [← e1]
          have hf : Img a c m ((evaluateObjectives env.evaluate [env.clamp (env.make r.1 x1 x2 x3).2] m 0
              ((env.make r.1 x1 x2 x3).1, fun _ _ => (0 : R))).2 0)
              ((evaluateObjectives (fun w k x => ((env.evaluate w k x).1, a * (env.evaluate w k x).2 + c k))
                [env.clamp (env.make r.1 x1 x2 x3).2] m 0 ((env.make r.1 x1 x2 x3).1, fun _ _ => (0 : R))).2 0) :=
            fun k hk => e2 0 k (.inr ⟨by simp, by omega, by omega⟩)
          rcases replaceLoop_twin (env := env) hcomp (K := K) (maxReplace := maxReplace) (sub := sub) (b := (env.coin s.w).2)
            (cand := env.clamp (env.make r.1 x1 x2 x3).2) (img_min ha h.ideal hf) hf
            (env.shuffle (evaluateObjectives env.evaluate [env.clamp (env.make r.1 x1 x2 x3).2] m 0
              ((env.make r.1 x1 x2 x3).1, fun _ _ => (0 : R))).1 (if (env.coin s.w).2 then K else N)).2 0 s.pop s.fit s'.fit h.fit with
            ⟨h1, h2⟩ | ⟨p, q, q', h1, h2, h3⟩
          · rw [h1, h2]
            exact .inl ⟨rfl, rfl⟩
          · rw [h1, h2]
            refine .inr ⟨_, _, rfl, rfl, ?_⟩
            exact ⟨rfl, rfl, h3, img_min ha h.ideal hf, h.terminate, by rw [h.seen], h.history⟩

theorem fold_twin (ha : 0 < a) (hcomp : Compatible env.apply a c m) {N K maxReplace : Nat} : ∀ (l : List Nat) {s s' : St W I R},
    Twin a c m s s' →
    (l.foldlM (subproblem env N K maxReplace m) s = none ∧ l.foldlM (subproblem (env.rescale (fun _ => a) c) N K maxReplace m) s' = none) ∨
    ∃ t t', l.foldlM (subproblem env N K maxReplace m) s = some t ∧
      l.foldlM (subproblem (env.rescale (fun _ => a) c) N K maxReplace m) s' = some t' ∧ Twin a c m t t'
  | [], s, s', h => .inr ⟨s, s', rfl, rfl, h⟩
  | i :: l, s, s', h => by
    rw [List.foldlM_cons, List.foldlM_cons]
    rcases subproblem_twin ha hcomp (N := N) (K := K) (maxReplace := maxReplace) h i with ⟨h1, h2⟩ | ⟨t, t', h1, h2, h3⟩
    · rw [h1, h2]
      exact .inl ⟨rfl, rfl⟩
    · rw [h1, h2]
      exact fold_twin ha hcomp l h3

theorem generation_twin (ha : 0 < a) (hcomp : Compatible env.apply a c m) (hcb : ∀ w f g, env.cbGen w f = env.cbGen w g)
    {N K maxReplace : Nat} {s s' : St W I R} (h : Twin a c m s s') :
    (generation env N K maxReplace m s = none ∧ generation (env.rescale (fun _ => a) c) N K maxReplace m s' = none) ∨
    ∃ t t', generation env N K maxReplace m s = some t ∧ generation (env.rescale (fun _ => a) c) N K maxReplace m s' = some t' ∧
      Twin a c m t t' := by
  unfold generation
  have hsh : (env.rescale (fun _ => a) c).shuffle = env.shuffle := rfl
  have hcg : (env.rescale (fun _ => a) c).cbGen = env.cbGen := rfl
  simp only [hsh, hcg, h.w, Option.bind_eq_bind]
  have h' : Twin a c m { s with w := (env.shuffle s.w N).1 } { s' with w := (env.shuffle s.w N).1 } :=
    ⟨rfl, h.pop, h.fit, h.ideal, h.terminate, h.seen, h.history⟩
  rcases fold_twin ha hcomp (N := N) (K := K) (maxReplace := maxReplace) (env.shuffle s.w N).2 h' with
    ⟨h1, h2⟩ | ⟨t, t', h1, h2, h3⟩
  · rw [h1, h2]
    exact .inl ⟨rfl, rfl⟩
  · rw [h1, h2]
    refine .inr ⟨_, _, rfl, rfl, ?_⟩
    rw [h3.w, hcb _ t'.fit t.fit]
    refine ⟨rfl, h3.pop, h3.fit, h3.ideal, rfl, h3.seen, ?_⟩
    exact List.rel_append h3.history (.cons ⟨h3.pop, h3.fit⟩ .nil)

theorem genLoop_twin (ha : 0 < a) (hcomp : Compatible env.apply a c m) (hcb : ∀ w f g, env.cbGen w f = env.cbGen w g)
    {N K maxReplace : Nat} : ∀ (G : Nat) {s s' : St W I R}, Twin a c m s s' →
    (genLoop env N K maxReplace m G s = none ∧ genLoop (env.rescale (fun _ => a) c) N K maxReplace m G s' = none) ∨
    ∃ t t', genLoop env N K maxReplace m G s = some t ∧ genLoop (env.rescale (fun _ => a) c) N K maxReplace m G s' = some t' ∧
      Twin a c m t t'
  | 0, s, s', h => .inr ⟨s, s', rfl, rfl, h⟩
  | G + 1, s, s', h => by
    unfold genLoop
    rw [h.terminate]
    by_cases ht : s.terminate = true
    · rw [if_pos ht, if_pos ht]
      exact .inr ⟨s, s', rfl, rfl, h⟩
    rw [if_neg ht, if_neg ht]
    rcases generation_twin ha hcomp hcb (N := N) (K := K) (maxReplace := maxReplace) h with ⟨h1, h2⟩ | ⟨t, t', h1, h2, h3⟩
    · rw [h1, h2]
      exact .inl ⟨rfl, rfl⟩
    · rw [h1, h2]
      exact genLoop_twin ha hcomp hcb G h3

theorem foldMin_twin (ha : 0 < a) : ∀ {l l' : List (Nat → R)}, List.Forall₂ (Img a c m) l l' → ∀ {z z' : Nat → R},
    Img a c m z z' → Img a c m (l.foldl (fun acc f k => min (acc k) (f k)) z) (l'.foldl (fun acc f k => min (acc k) (f k)) z')
  | _, _, .nil, _, _, hz => hz
  | _, _, .cons h t, _, _, hz => foldMin_twin ha t (img_min ha hz h)

/-- The objective values stay below the number the ideal point starts at (the largest one of the type, moead_impl.hpp:188). -/
def Below (env : Env W I R) (m : Nat) : Prop := ∀ w, ∀ k < m, ∀ x, (env.evaluate w k x).2 ≤ env.maxVal

omit [IsStrictOrderedRing R] in
theorem evaluateObjectives_below {env : Env W I R} {m : Nat} (h : Below env m) (pop : List I) : ∀ (rem k : Nat)
    (s : W × (Nat → Nat → R)) (D : Nat → Nat → Prop), k + rem ≤ m → (∀ i j, D i j → s.2 i j ≤ env.maxVal) →
    ∀ i j, D i j ∨ (i < pop.length ∧ k ≤ j ∧ j < k + rem) → (evaluateObjectives env.evaluate pop rem k s).2 i j ≤ env.maxVal
  | 0, k, s, D, _, hs, i, j, hij => hs i j (hij.resolve_right (by omega))
  | rem + 1, k, s, D, hkm, hs, i, j, hij => by
    have key : ∀ (l : List (I × Nat)) (s : W × (Nat → Nat → R)) (E : Nat → Nat → Prop), (∀ i j, E i j → s.2 i j ≤ env.maxVal) →
        ∀ i j, E i j ∨ (∃ p ∈ l, p.2 = i ∧ j = k) ∨ (l ≠ [] ∧ i < pop.length ∧ k + 1 ≤ j ∧ j < k + 1 + rem) →
        (l.foldl (fun s p =>
          let e := env.evaluate s.1 k p.1
          evaluateObjectives env.evaluate pop rem (k + 1) (e.1, setObj s.2 p.2 k e.2)) s).2 i j ≤ env.maxVal := by
      intro l
      induction l with
      | nil =>
        intro s E hE i j hd
        rcases hd with hd | ⟨p, hp, -⟩ | ⟨hn, -⟩
        · exact hE i j hd
        · cases hp
        · exact absurd rfl hn
      | cons p l ih =>
        intro s E hE i j hd
        rw [List.foldl_cons]
        refine ih _ (fun i j => (E i j ∨ i = p.2 ∧ j = k) ∨ (i < pop.length ∧ k + 1 ≤ j ∧ j < k + 1 + rem)) ?_ i j ?_
        · refine evaluateObjectives_below h pop rem (k + 1) _ (fun i j => E i j ∨ i = p.2 ∧ j = k) (by omega) ?_
          intro i j hd
          dsimp only
          rw [setObj_eq]
          by_cases hh : i = p.2 ∧ j = k
          · rw [if_pos hh]
            exact h _ _ (by omega) _
          · rw [if_neg hh]
            exact hE i j (hd.resolve_right hh)
        · rcases hd with hd | ⟨q, hq, h6, h7⟩ | ⟨-, h6⟩
          · exact .inl (.inl (.inl hd))
          · rcases List.mem_cons.1 hq with rfl | hq
            · exact .inl (.inl (.inr ⟨h6.symm, h7⟩))
            · exact .inr (.inl ⟨q, hq, h6, h7⟩)
          · exact .inl (.inr h6)
    unfold evaluateObjectives
    refine key pop.zipIdx s D hs i j ?_
    rcases hij with hd | ⟨hi, hk, hj⟩
    · exact .inl hd
    · by_cases hjk : j = k
      · right; left
        refine ⟨(pop[i], i), ?_, rfl, hjk⟩
        rw [List.mem_zipIdx_iff_getElem?]
        simp [hi]
      · right; right
        refine ⟨?_, hi, by omega, by omega⟩
        intro he
        have := congrArg List.length he
        simp at this
        rw [this] at hi
        simp at hi

theorem initialPopulation_length (env : Env W I R) (x : I) : ∀ (n : Nat) (w : W), (initialPopulation env x n w).2.length = n
  | 0, _ => rfl
  | n + 1, w => by simp [initialPopulation, initialPopulation_length env x n]

theorem initialPopulation_rescale (b : Nat → R) (x : I) : ∀ (n : Nat) (w : W),
    initialPopulation (env.rescale b c) x n w = initialPopulation env x n w
  | 0, _ => rfl
  | n + 1, w => by
    unfold initialPopulation
    dsimp only
    rw [initialPopulation_rescale b x n]
    rfl

theorem start_twin (ha : 0 < a) (hb : Below env m) (hb' : Below (env.rescale (fun _ => a) c) m) {N : Nat} (hN : 0 < N) (w : W) (x : I) :
    Twin a c m (start env N m w x) (start (env.rescale (fun _ => a) c) N m w x) := by
  unfold start
  simp only [initialPopulation_rescale]
  have hev : (env.rescale (fun _ => a) c).evaluate =
    fun w k x => ((env.evaluate w k x).1, a * (env.evaluate w k x).2 + c k) := rfl
  have hl := initialPopulation_length env x N w
  generalize initialPopulation env x N w = p at hl ⊢
  obtain ⟨e1, e2⟩ := evaluate_image env.evaluate (fun _ => a) c p.2 m 0 (fun _ _ => False)
    (p.1, fun _ _ => (0 : R)) (p.1, fun _ _ => (0 : R)) rfl (fun _ _ h => h.elim)
  have b1 := evaluateObjectives_below hb p.2 m 0 (p.1, fun _ _ => (0 : R)) (fun _ _ => False) (by omega) (fun _ _ h => h.elim)
  have b2 := evaluateObjectives_below hb' p.2 m 0 (p.1, fun _ _ => (0 : R)) (fun _ _ => False) (by omega) (fun _ _ h => h.elim)
  rw [hev] at b2 ⊢
  generalize evaluateObjectives env.evaluate p.2 m 0 (p.1, fun _ _ => (0 : R)) = e at e1 e2 b1 ⊢
  generalize evaluateObjectives (fun w k x => ((env.evaluate w k x).1, a * (env.evaluate w k x).2 + c k)) p.2 m 0
    (p.1, fun _ _ => (0 : R)) = e' at e1 e2 b2 ⊢
  have hfit : ∀ l : List Nat, (∀ i ∈ l, i < N) → List.Forall₂ (Img a c m) (l.map e.2) (l.map e'.2) := by
    intro l hlt
    induction l with
    | nil => exact .nil
    | cons i l ih =>
      refine .cons (fun k hk => e2 i k (.inr ⟨?_, by omega, by omega⟩)) (ih fun j hj => hlt j (by simp [hj]))
      rw [hl]
      exact hlt i (by simp)
  refine ⟨?_, rfl, hfit _ (fun i hi => List.mem_range.1 hi), ?_, rfl, rfl, .nil⟩
  · show env.cbBegin e'.1 x = env.cbBegin e.1 x
    rw [e1]
  · obtain ⟨n, rfl⟩ : ∃ n, N = n + 1 := ⟨N - 1, by omega⟩
    show Img a c m (((List.range (n + 1)).map e.2).foldl (fun acc f k => min (acc k) (f k)) fun _ => env.maxVal)
      (((List.range (n + 1)).map e'.2).foldl (fun acc f k => min (acc k) (f k)) fun _ => env.maxVal)
    rw [List.range_succ_eq_map, List.map_cons, List.map_cons, List.foldl_cons, List.foldl_cons]
    refine foldMin_twin ha (hfit _ ?_) ?_
    · intro i hi
      obtain ⟨j, hj, rfl⟩ := List.mem_map.1 hi
      have := List.mem_range.1 hj
      omega
    · intro k hk
      dsimp only
      have h1 := b1 0 k (.inr ⟨by omega, by omega, by omega⟩)
      have h2 := b2 0 k (.inr ⟨by omega, by omega, by omega⟩)
      have h2' : e'.2 0 k ≤ env.maxVal := h2
      rw [min_eq_right h1, min_eq_right h2']
      exact e2 0 k (.inr ⟨by omega, by omega, by omega⟩)

theorem performance_twin {fit fit' : List (Nat → R)} (h : List.Forall₂ (Img a c m) fit fit') : ∀ (l : List Nat) (v v' : R),
    (performance m fit l v = none ∧ performance m fit' l v' = none) ∨
    ∃ u u', performance m fit l v = some u ∧ performance m fit' l v' = some u'
  | [], v, v' => .inr ⟨v, v', rfl, rfl⟩
  | i :: l, v, v' => by
    unfold performance
    rcases forall₂_getElem? h i with ⟨h1, h2⟩ | ⟨g, g', h1, h2, -⟩
    · rw [h1, h2]
      exact .inl ⟨rfl, rfl⟩
    · rw [h1, h2]
      exact performance_twin h l _ _

theorem map_fst_eq {α β γ : Type} {P : α × β → α × γ → Prop} : ∀ {l : List (α × β)} {l' : List (α × γ)},
    List.Forall₂ (fun p p' => p'.1 = p.1 ∧ P p p') l l' → l'.map Prod.fst = l.map Prod.fst
  | _, _, .nil => rfl
  | _, _, .cons h t => by rw [List.map_cons, List.map_cons, h.1, map_fst_eq t]

/-- **C282** With a decomposition that ranks images like originals, replacing every objective `f k` by `a * f k + c k` with a common
`a > 0` changes neither the populations of MOEA/D nor the coordinates returned; the objective values are replaced
accordingly. -/
theorem C282_moead (ha : 0 < a) (hcomp : Compatible env.apply a c m) (hcb : ∀ w f g, env.cbGen w f = env.cbGen w g)
    (hb : Below env m) (hb' : Below (env.rescale (fun _ => a) c) m) (N K maxReplace G : Nat) (w : W) (x : I) :
    (optimize env N K maxReplace G m w x = .throws ∧ optimize (env.rescale (fun _ => a) c) N K maxReplace G m w x = .throws) ∨
    (optimize env N K maxReplace G m w x = .ub ∧ optimize (env.rescale (fun _ => a) c) N K maxReplace G m w x = .ub) ∨
    ∃ s s' r r', optimize env N K maxReplace G m w x = .ok (s, r) ∧
      optimize (env.rescale (fun _ => a) c) N K maxReplace G m w x = .ok (s', r') ∧
      s'.w = s.w ∧ s'.history.map Prod.fst = s.history.map Prod.fst ∧ s'.seen = s.seen ∧ r'.paretoSet = r.paretoSet ∧
      r'.iterate = r.iterate ∧ (∀ k < m, s'.ideal k = a * s.ideal k + c k) ∧
      List.Forall₂ (fun f f' => ∀ k < m, f' k = a * f k + c k) r.paretoFront r'.paretoFront := by
  unfold optimize
  split_ifs with h1 h2 h3
  · exact .inl ⟨rfl, rfl⟩
  · exact .inl ⟨rfl, rfl⟩
  · exact .inl ⟨rfl, rfl⟩
  right
  rcases genLoop_twin ha hcomp hcb (N := N) (K := K) (maxReplace := maxReplace) G
    (start_twin ha hb hb' (N := N) (by omega) w x) with ⟨h1, h2⟩ | ⟨t, t', h1, h2, h3⟩
  · rw [h1, h2]
    exact .inl ⟨rfl, rfl⟩
  rw [h1, h2]
  dsimp only
  unfold finish
  rw [h3.pop]
  cases t.pop.head? with
  | none => exact .inl ⟨rfl, rfl⟩
  | some y =>
    simp only [Option.bind_eq_bind, Option.bind_some]
    have hmv : (env.rescale (fun _ => a) c).maxVal = env.maxVal := rfl
    rw [hmv]
    rcases performance_twin h3.fit (List.range m) env.maxVal env.maxVal with ⟨p1, p2⟩ | ⟨u, u', p1, p2⟩
    · rw [p1, p2]
      exact .inl ⟨rfl, rfl⟩
    · rw [p1, p2]
      refine .inr ⟨_, _, _, _, rfl, rfl, ?_, ?_, h3.seen, rfl, rfl, h3.ideal, h3.fit⟩
      · show env.cbEnd t'.w y = env.cbEnd t.w y
        rw [h3.w]
      · exact map_fst_eq h3.history

/-- **C282** The Tchebycheff decomposition (for `m + 1` objectives) ranks images like originals. -/
theorem C282_tchebycheff (ha : 0 < a) (weights : Nat → Nat → R) (n : Nat) :
    Compatible (fun i z f => tchebycheff (weights i) z f n) a c (n + 1) := by
  have key : ∀ (w z z' f f' : Nat → R) (n : Nat), Img a c (n + 1) z z' → Img a c (n + 1) f f' →
      tchebycheff w z' f' n = a * tchebycheff w z f n := by
    intro w z z' f f' n
    have e : ∀ k, z' k = a * z k + c k → f' k = a * f k + c k → w k * |f' k - z' k| = a * (w k * |f k - z k|) := by
      intro k h1 h2
      rw [h1, h2, show a * f k + c k - (a * z k + c k) = a * (f k - z k) by ring, abs_mul, abs_of_pos ha]
      ring
    induction n with
    | zero =>
      intro h1 h2
      exact e 0 (h1 0 (by omega)) (h2 0 (by omega))
    | succ n ih =>
      intro h1 h2
      unfold tchebycheff
      rw [ih (fun k hk => h1 k (by omega)) (fun k hk => h2 k (by omega)), e _ (h1 _ (by omega)) (h2 _ (by omega)),
        mul_max_of_nonneg _ _ ha.le]
  intro i z z' f f' g g' hz hf hg
  dsimp only
  rw [key _ _ _ _ _ _ hz hf, key _ _ _ _ _ _ hz hg]
  exact mul_lt_mul_iff_right₀ ha

end

private theorem listSum_range (u : Nat → ℝ) : ∀ m, ((List.range m).map u).sum = ∑ k ∈ range m, u k
  | 0 => by simp
  | m + 1 => by rw [List.range_succ, List.map_append, List.sum_append, sum_range_succ, listSum_range u m]; simp

/-- **C282** The weighted average ranks images like originals. -/
theorem C282_weighted {a : ℝ} (ha : 0 < a) (c : Nat → ℝ) (weights : Nat → Nat → ℝ) (m : Nat) :
    Compatible (weightedAverage m weights) a c m := by
  have e : ∀ (i : Nat) (z f f' : Nat → ℝ), Img a c m f f' → weightedAverage m weights i z f' =
      a * (∑ k ∈ range m, weights i k * f k) + ∑ k ∈ range m, weights i k * c k := by
    intro i z f f' h
    have : weightedAverage m weights i z f' = ∑ k ∈ range m, weights i k * f' k := by
      unfold weightedAverage accu
      exact listSum_range _ m
    rw [this, mul_sum, ← sum_add_distrib]
    refine sum_congr rfl fun k hk => ?_
    rw [h k (mem_range.1 hk)]
    ring
  have e0 : ∀ (i : Nat) (z f : Nat → ℝ), weightedAverage m weights i z f = ∑ k ∈ range m, weights i k * f k := by
    intro i z f
    unfold weightedAverage accu
    exact listSum_range _ m
  intro i z z' f f' g g' _ hf hg
  rw [e i z' f f' hf, e i z' g g' hg, e0, e0, add_lt_add_iff_right]
  exact mul_lt_mul_iff_right₀ ha

/-- **C282** The penalty-based boundary intersection ranks images like originals. -/
theorem C282_pbi {a : ℝ} (ha : 0 < a) (c : Nat → ℝ) (theta : ℝ) (weights : Nat → Nat → ℝ) (m : Nat) :
    Compatible (fun i z f => pbi theta m (weights i) z f) a c m := by
  have e1 : ∀ (w z z' f f' : Nat → ℝ), Img a c m z z' → Img a c m f f' → pbiD1 m w z' f' = a * pbiD1 m w z f := by
    intro w z z' f f' hz hf
    unfold pbiD1
    rw [mul_sum]
    refine sum_congr rfl fun k hk => ?_
    rw [hz k (mem_range.1 hk), hf k (mem_range.1 hk)]
    ring
  have e2 : ∀ (w z z' f f' : Nat → ℝ), Img a c m z z' → Img a c m f f' → pbiD2 m w z' f' = a * pbiD2 m w z f := by
    intro w z z' f f' hz hf
    unfold pbiD2
    rw [e1 w z z' f f' hz hf]
    unfold norm2
    rw [← Real.sqrt_sq ha.le, ← Real.sqrt_mul (sq_nonneg _), Real.sqrt_sq ha.le, mul_sum]
    congr 1
    refine sum_congr rfl fun k hk => ?_
    dsimp only
    rw [hz k (mem_range.1 hk), hf k (mem_range.1 hk)]
    ring
  intro i z z' f f' g g' hz hf hg
  have e : ∀ f f', Img a c m f f' → pbi theta m (weights i) z' f' = a * pbi theta m (weights i) z f := by
    intro f f' hf
    unfold pbi
    rw [e1 _ _ _ _ _ hz hf, e2 _ _ _ _ _ hz hf]
    ring
  dsimp only
  rw [e f f' hf, e g g' hg]
  exact mul_lt_mul_iff_right₀ ha

/-- Populations after the generations of a run. -/
def historyOf : Outcome (St Nat Nat ℚ × Result Nat ℚ) → List (List Nat)
  | .ok (s, _) => s.history.map Prod.fst
  | _ => []

/-- The run of C231 (three members, two objectives, Tchebycheff): objectives in other units. -/
example : Compatible tchDemo.apply 3 (fun k => if k = 0 then 5 else -1) 2 ∧
    (∀ w f g, tchDemo.cbGen w f = tchDemo.cbGen w g) ∧ Below tchDemo 2 ∧
    Below (tchDemo.rescale (fun _ => 3) fun k => if k = 0 then 5 else -1) 2 ∧
    historyOf (optimize tchDemo 3 2 1 1 2 0 0) = [[1, 0, 0]] := by
  refine ⟨C282_tchebycheff (by norm_num) (fun _ _ => 1) 1, fun _ _ _ => rfl, ?_, ?_, by decide +kernel⟩
  · intro w k hk x
    simp only [tchDemo]
    split_ifs <;> norm_num
  · intro w k hk x
    simp only [tchDemo, Env.rescale]
    split_ifs <;> norm_num

/-- **C282** (refuted) The common factor is needed: with the Tchebycheff decomposition, objectives in different units change the
populations (NSGA2 is insensitive to them, C281). -/
theorem C282_units_refuted : ¬ ∀ (env : Env Nat Nat ℚ) (a : Nat → ℚ), (∀ k, 0 < a k) →
    (env.apply = fun _ z f => tchebycheff (fun _ => 1) z f 1) → (∀ w f g, env.cbGen w f = env.cbGen w g) → Below env 2 →
    Below (env.rescale a fun _ => 0) 2 →
    historyOf (optimize (env.rescale a fun _ => 0) 3 2 1 1 2 0 0) = historyOf (optimize env 3 2 1 1 2 0 0) := by
  intro h
  have := h tchDemo (fun k => if k = 0 then 1 else 20) (fun k => by split_ifs <;> norm_num) rfl (fun _ _ _ => rfl)
    (by
      intro w k hk x
      simp only [tchDemo]
      split_ifs <;> norm_num)
    (by
      intro w k hk x
      simp only [tchDemo, Env.rescale]
      split_ifs <;> norm_num)
  revert this
  decide +kernel

end Ens.Moo.Moead
