import Mathlib.Tactic.IntervalCases
import Mathlib.Algebra.Order.BigOperators.Group.List
import Verif.SortIndex
import Verif.Moo.Crowding

/-
MOEA/D-DE (`moead/moead_impl.hpp`): model.
-/

namespace Ens.Moo.Moead

open Ens.Moo

variable {W I R : Type}

/-- The parameters of the model:
* `evaluate w k x`: objective `k`;
* `initial`: a random individual before clamping (moead_impl.hpp:170-171);
* `clamp`: `min(max(x, lower), upper)` (174, 401);
* `sorted i`: `stable_sort_index` of the distances from weight `i` (159-161);
* `shuffle w n`: a shuffle of `0 .. n-1` (197, 258, 286);
* `coin`: `randu() < neighborProb` (206);
* `randi w n`: a random index below `n` (341-347);
* `make`: the differential operator (214-236) and the mutation loop (372-399) on the three parents, modelled gene by
  gene in `Verif/Moo/Genes.lean`. Iterates have one column: the bounds are column vectors, so with more columns the
  initial clamping (174) fails;
* `apply i z f`: the decomposition of subproblem `i` (271-274);
* `cbBegin`, `cbGen`, `cbEnd`: the callbacks. -/
structure Env (W I R : Type) where
  evaluate : W → Nat → I → W × R
  initial : W → I → W × I
  clamp : I → I
  sorted : Nat → List Nat
  shuffle : W → Nat → W × List Nat
  coin : W → W × Bool
  randi : W → Nat → W × Nat
  make : W → I → I → I → W × I
  apply : Nat → (Nat → R) → (Nat → R) → R
  cbBegin : W → I → W
  cbGen : W → List (Nat → R) → W × Bool
  cbEnd : W → I → W
  maxVal : R

/-- `neighborIndices.col(i)` (moead_impl.hpp:163): entries 1 to `neighborSize` of the sorted positions. -/
def neighbours (env : Env W I R) (neighborSize i : Nat) : List Nat :=
  ((env.sorted i).drop 1).take neighborSize

/-- The random initial population (moead_impl.hpp:167-175). -/
def initialPopulation (env : Env W I R) (x : I) : Nat → W → W × List I
  | 0, w => (w, [])
  | n + 1, w =>
    let d := env.initial w x
    let r := initialPopulation env x n d.1
    (r.1, env.clamp d.2 :: r.2)

/-- One of the two draws of `Mating` (moead_impl.hpp:339-347); `none` is an access out of bounds. -/
def draw (env : Env W I R) (N K sub : Nat) (sampleNeighbor : Bool) (w : W) : Option (W × Nat) :=
  if sampleNeighbor then
    let r := env.randi w K
    (neighbours env K sub)[r.2]?.map fun p => (r.1, p)
  else
    let r := env.randi w N
    some r

/-- `Mating` (moead_impl.hpp:331-360). -/
def mating (env : Env W I R) (N K sub : Nat) (sampleNeighbor : Bool) (w : W) : Option (W × Nat × Nat) := do
  let a ← draw env N K sub sampleNeighbor w
  let b ← draw env N K sub sampleNeighbor a.1
  let pointA := if a.2 = b.2 then (if a.2 = N - 1 then a.2 - 1 else a.2 + 1) else a.2
  some (b.1, pointA, b.2)

/-- The member looked at (moead_impl.hpp:268-269). -/
def pickOf (env : Env W I R) (K sub : Nat) (sampleNeighbor : Bool) (idx : Nat) : Option Nat :=
  if sampleNeighbor then (neighbours env K sub)[idx]? else some idx

/-- The replacement loop (moead_impl.hpp:261-282) over the shuffled positions. -/
def replaceLoop [LT R] [DecidableLT R] (env : Env W I R) (K maxReplace sub : Nat) (sampleNeighbor : Bool)
    (ideal : Nat → R) (cand : I) (f : Nat → R) :
    List Nat → Nat → List I × List (Nat → R) → Option (List I × List (Nat → R))
  | [], _, s => some s
  | idx :: rest, count, s =>
    if maxReplace ≤ count then some s
    else do
      let pick ← pickOf env K sub sampleNeighbor idx
      let old ← s.2[pick]?
      if env.apply pick ideal f < env.apply pick ideal old then
        replaceLoop env K maxReplace sub sampleNeighbor ideal cand f rest (count + 1)
          (s.1.set pick cand, s.2.set pick f)
      else replaceLoop env K maxReplace sub sampleNeighbor ideal cand f rest count s

/-- State of the main loop. `seen` (all individuals evaluated so far) and `history` (populations and objectives
after each generation) are ghost variables. -/
structure St (W I R : Type) where
  w : W
  pop : List I
  fit : List (Nat → R)
  ideal : Nat → R
  terminate : Bool
  seen : List I
  history : List (List I × List (Nat → R))

/-- Body of the loop over the subproblems (moead_impl.hpp:200-283). -/
def subproblem [Zero R] [LinearOrder R] (env : Env W I R) (N K maxReplace m : Nat) (s : St W I R)
    (sub : Nat) : Option (St W I R) := do
  let c := env.coin s.w
  let r ← mating env N K sub c.2 c.1
  let x1 ← s.pop[sub]?
  let x2 ← s.pop[r.2.1]?
  let x3 ← s.pop[r.2.2]?
  let d := env.make r.1 x1 x2 x3
  let cand := env.clamp d.2
  let e := evaluateObjectives env.evaluate [cand] m 0 (d.1, fun _ _ => 0)
  let f := e.2 0
  let ideal := fun k => min (s.ideal k) (f k)
  let sh := env.shuffle e.1 (if c.2 then K else N)
  let p ← replaceLoop env K maxReplace sub c.2 ideal cand f sh.2 0 (s.pop, s.fit)
  some { s with w := sh.1, pop := p.1, fit := p.2, ideal := ideal, seen := s.seen ++ [cand] }

/-- One generation (moead_impl.hpp:195-290). -/
def generation [Zero R] [LinearOrder R] (env : Env W I R) (N K maxReplace m : Nat) (s : St W I R) :
    Option (St W I R) := do
  let sh := env.shuffle s.w N
  let t ← sh.2.foldlM (subproblem env N K maxReplace m) { s with w := sh.1 }
  let c := env.cbGen (env.shuffle t.w N).1 t.fit
  some { t with w := c.1, terminate := c.2, history := t.history ++ [(t.pop, t.fit)] }

/-- The generation loop (moead_impl.hpp:194-291). -/
def genLoop [Zero R] [LinearOrder R] (env : Env W I R) (N K maxReplace m : Nat) :
    Nat → St W I R → Option (St W I R)
  | 0, s => some s
  | n + 1, s =>
    if s.terminate then some s
    else (generation env N K maxReplace m s).bind (genLoop env N K maxReplace m n)

/-- Everything before the main loop (moead_impl.hpp:167-191). -/
def start [Zero R] [LinearOrder R] (env : Env W I R) (N m : Nat) (w : W) (x : I) : St W I R :=
  let p := initialPopulation env x N w
  let e := evaluateObjectives env.evaluate p.2 m 0 (p.1, fun _ _ => 0)
  let fit := (List.range N).map e.2
  let ideal := fit.foldl (fun acc f k => min (acc k) (f k)) fun _ => env.maxVal
  ⟨env.cbBegin e.1 x, p.2, fit, ideal, false, p.2, []⟩

/-- The loop computing the returned value (moead_impl.hpp:319-325); note that it runs over the first
`numObjectives` members. `none`: access out of bounds. -/
def performance [AddMonoid R] [LinearOrder R] (m : Nat) (fit : List (Nat → R)) : List Nat → R → Option R
  | [], acc => some acc
  | i :: rest, acc => do
    let f ← fit[i]?
    performance m fit rest (if accu m f < acc then accu m f else acc)

/-- The end of `Optimize` (moead_impl.hpp:293-327). -/
def finish [AddMonoid R] [LinearOrder R] (env : Env W I R) (m : Nat) (s : St W I R) : Option (Result I R) := do
  let x ← s.pop.head?
  let v ← performance m s.fit (List.range m) env.maxVal
  some ⟨s.pop, s.fit, x, v⟩

/-- `Optimize` (moead_impl.hpp:86-328) with weights already generated (C38). -/
def optimize [AddMonoid R] [LinearOrder R] (env : Env W I R) (N K maxReplace G m : Nat) (w : W) (x : I) :
    Outcome (St W I R × Result I R) :=
  if N < 3 then .throws
  else if K < 2 then .throws
  else if N - 1 < K then .throws
  else
    match genLoop env N K maxReplace m G (start env N m w x) with
    | none => .ub
    | some s =>
      match finish env m s with
      | none => .ub
      | some r => .ok ({ s with w := env.cbEnd s.w r.iterate }, r)

/-! ### Facts about the pieces -/

/-- What the random sources and the sort deliver. -/
structure Ok (env : Env W I R) (N : Nat) : Prop where
  randi : ∀ w n, 0 < n → (env.randi w n).2 < n
  shuffle : ∀ w n, (env.shuffle w n).2.Perm (List.range n)
  sorted : ∀ i, (env.sorted i).Perm (List.range N)

theorem neighbours_length {env : Env W I R} {N : Nat} (h : Ok env N) {K : Nat} (hK : K ≤ N - 1) (i : Nat) :
    (neighbours env K i).length = K := by
  have := (h.sorted i).length_eq
  simp only [List.length_range] at this
  simp only [neighbours, List.length_take, List.length_drop, this]
  omega

theorem neighbours_lt {env : Env W I R} {N : Nat} (h : Ok env N) {K i j : Nat}
    (hj : j ∈ neighbours env K i) : j < N :=
  List.mem_range.1 ((h.sorted i).mem_iff.1 (List.mem_of_mem_drop (List.mem_of_mem_take hj)))

theorem draw_spec {env : Env W I R} {N K : Nat} (h : Ok env N) (hN : 0 < N) (hK0 : 0 < K) (hK : K ≤ N - 1)
    (sub : Nat) (b : Bool) (w : W) : ∃ r, draw env N K sub b w = some r ∧ r.2 < N ∧
      (b = true → r.2 ∈ neighbours env K sub) := by
  unfold draw
  cases b with
  | true =>
    rw [if_pos rfl]
    have hr := h.randi w K hK0
    have hl := neighbours_length h hK sub
    have hlt : (env.randi w K).2 < (neighbours env K sub).length := by omega
    refine ⟨((env.randi w K).1, (neighbours env K sub)[(env.randi w K).2]), ?_, ?_, ?_⟩
    · simp only [List.getElem?_eq_getElem hlt, Option.map_some]
    · exact neighbours_lt h (List.getElem_mem hlt)
    · intro _; exact List.getElem_mem hlt
  | false => exact ⟨env.randi w N, rfl, h.randi w N hN, by simp⟩

/-- **C97** `Mating` returns two different members of the population. -/
theorem C97_mating_distinct {env : Env W I R} {N K : Nat} (h : Ok env N) (hN : 2 ≤ N) (hK0 : 0 < K)
    (hK : K ≤ N - 1) (sub : Nat) (b : Bool) (w : W) : ∃ w' r2 r3, mating env N K sub b w = some (w', r2, r3) ∧
      r2 < N ∧ r3 < N ∧ r2 ≠ r3 := by
  obtain ⟨a, ha, ha1, -⟩ := draw_spec h (by omega) hK0 hK sub b w
  obtain ⟨c, hc, hc1, -⟩ := draw_spec h (by omega) hK0 hK sub b a.1
  simp only [mating, ha, hc, Option.bind_eq_bind, Option.bind_some]
  refine ⟨_, _, _, rfl, ?_, hc1, ?_⟩
  · split_ifs <;> omega
  · split_ifs <;> omega

/-- **C97** (partial) With neighbour sampling the second parent is a neighbour, and so is the first one whenever the
two draws differ. -/
theorem C97_mating_neighbours_partial {env : Env W I R} {N K sub : Nat} {w w₁ w₂ : W} {a b r2 r3 : Nat}
    (ha : draw env N K sub true w = some (w₁, a)) (hb : draw env N K sub true w₁ = some (w₂, b))
    (hm : mating env N K sub true w = some (w₂, r2, r3)) :
    r3 ∈ neighbours env K sub ∧ (a ≠ b → r2 ∈ neighbours env K sub) := by
  have key : ∀ {w w' : W} {p : Nat}, draw env N K sub true w = some (w', p) → p ∈ neighbours env K sub := by
    intro w w' p hp
    simp only [draw, if_true, Option.map_eq_some_iff, Prod.mk.injEq] at hp
    obtain ⟨q, hq, -, rfl⟩ := hp
    exact List.mem_of_getElem? hq
  simp only [mating, ha, hb, Option.bind_eq_bind, Option.bind_some, Option.some.injEq, Prod.mk.injEq,
    true_and] at hm
  obtain ⟨rfl, rfl⟩ := hm
  refine ⟨key hb, ?_⟩
  intro hab
  rw [if_neg hab]
  exact key ha

/-! ### C37: one candidate -/

/-- The members the loop may look at. -/
def picks (env : Env W I R) (K sub : Nat) (sampleNeighbor : Bool) (idxs : List Nat) : List Nat :=
  if sampleNeighbor then idxs.filterMap fun i => (neighbours env K sub)[i]? else idxs

theorem replaceLoop_spec [LT R] [DecidableLT R] (hirr : ∀ a : R, ¬ a < a) {env : Env W I R} {N K maxReplace sub : Nat}
    {b : Bool} {ideal : Nat → R} {cand : I} {f : Nat → R}
    (hnb : b = true → (∀ j ∈ neighbours env K sub, j < N)) :
    ∀ (idxs : List Nat) (count : Nat) (s : List I × List (Nat → R)),
    (∀ i ∈ idxs, i < if b then (neighbours env K sub).length else N) → s.1.length = N → s.2.length = N →
    count ≤ maxReplace →
    ∃ (s' : List I × List (Nat → R)) (changed : List Nat), replaceLoop env K maxReplace sub b ideal cand f idxs count s = some s' ∧
      s'.1.length = N ∧ s'.2.length = N ∧ changed.Nodup ∧ count + changed.length ≤ maxReplace ∧
      (∀ i ∈ changed, i ∈ picks env K sub b idxs ∧ s'.1[i]? = some cand ∧ s'.2[i]? = some f ∧
        ∃ old, s.2[i]? = some old ∧ env.apply i ideal f < env.apply i ideal old) ∧
      (∀ i, i ∉ changed → s'.1[i]? = s.1[i]? ∧ s'.2[i]? = s.2[i]?) ∧
      (count + changed.length < maxReplace → ∀ i ∈ picks env K sub b idxs, ∀ g, s'.2[i]? = some g →
        ¬ env.apply i ideal f < env.apply i ideal g) := by
  intro idxs
  induction idxs with
  | nil =>
    intro count s _ h1 h2 hc
    exact ⟨s, [], rfl, h1, h2, List.nodup_nil, by simpa using hc, by simp, by simp, by
      intro _ i hi; exfalso; cases b <;> simp [picks] at hi⟩
  | cons idx rest ih =>
    intro count s hidx h1 h2 hc
    rw [replaceLoop]
    by_cases hmax : maxReplace ≤ count
    · rw [if_pos hmax]
      exact ⟨s, [], rfl, h1, h2, List.nodup_nil, by simpa using hc, by simp, by simp, by
        intro h; simp at h; omega⟩
    rw [if_neg hmax]
    have hhead := hidx idx (by simp)
    have hrest : ∀ i ∈ rest, i < if b then (neighbours env K sub).length else N :=
      fun i hi => hidx i (by simp [hi])
    obtain ⟨pick, hpick, hpN, hpp⟩ : ∃ pick, pickOf env K sub b idx = some pick ∧
        pick < N ∧ picks env K sub b (idx :: rest) = pick :: picks env K sub b rest := by
      cases b with
      | true =>
        rw [if_pos rfl] at hhead
        refine ⟨(neighbours env K sub)[idx], by simp [pickOf, List.getElem?_eq_getElem hhead],
          hnb rfl _ (List.getElem_mem hhead), ?_⟩
        simp [picks, List.getElem?_eq_getElem hhead]
      | false =>
        refine ⟨idx, by simp [pickOf], by simpa using hhead, by simp [picks]⟩
    have hold : s.2[pick]? = some s.2[pick] := List.getElem?_eq_getElem (by omega)
    simp only [hpick, hold, Option.bind_eq_bind, Option.bind_some]
    by_cases himp : env.apply pick ideal f < env.apply pick ideal s.2[pick]
    · rw [if_pos himp]
      obtain ⟨s', changed, hs', hl1, hl2, hnd, hcnt, hch, hun, hmaxi⟩ :=
        ih (count + 1) (s.1.set pick cand, s.2.set pick f) hrest (by simpa using h1) (by simpa using h2)
          (by omega)
      have hnot : pick ∉ changed := by
        intro hp
        obtain ⟨-, -, -, old, ho, hlt⟩ := hch pick hp
        simp only [List.getElem?_set_self (show pick < s.2.length by omega), Option.some.injEq] at ho
        rw [← ho] at hlt
        exact hirr _ hlt
      refine ⟨s', pick :: changed, hs', hl1, hl2, List.nodup_cons.2 ⟨hnot, hnd⟩,
        by simp only [List.length_cons]; omega, ?_, ?_, ?_⟩
      · intro i hi
        rw [hpp]
        rcases List.mem_cons.1 hi with rfl | hi
        · obtain ⟨e1, e2⟩ := hun i hnot
          refine ⟨by simp, ?_, ?_, _, hold, himp⟩
          · rw [e1]; exact List.getElem?_set_self (by omega)
          · rw [e2]; exact List.getElem?_set_self (by omega)
        · obtain ⟨a1, a2, a3, old, a4, a5⟩ := hch i hi
          have hne : pick ≠ i := fun h => hnot (h ▸ hi)
          simp only [List.getElem?_set_ne hne] at a4
          exact ⟨by simp [a1], a2, a3, old, a4, a5⟩
      · intro i hi
        simp only [List.mem_cons, not_or] at hi
        obtain ⟨e1, e2⟩ := hun i hi.2
        simp only [List.getElem?_set_ne (Ne.symm hi.1)] at e1 e2
        exact ⟨e1, e2⟩
      · intro hlt i hi g hg
        rw [hpp] at hi
        rcases List.mem_cons.1 hi with rfl | hi
        · obtain ⟨-, e2⟩ := hun i hnot
          rw [hg] at e2
          simp only [List.getElem?_set_self (show i < s.2.length by omega), Option.some.injEq] at e2
          rw [e2]; exact hirr _
        · exact hmaxi (by simp only [List.length_cons] at hlt; omega) i hi g hg
    · rw [if_neg himp]
      obtain ⟨s', changed, hs', hl1, hl2, hnd, hcnt, hch, hun, hmaxi⟩ := ih count s hrest h1 h2 hc
      refine ⟨s', changed, hs', hl1, hl2, hnd, hcnt, ?_, hun, ?_⟩
      · intro i hi
        obtain ⟨a1, a2⟩ := hch i hi
        rw [hpp]
        exact ⟨by simp [a1], a2⟩
      · intro hlt i hi g hg
        rw [hpp] at hi
        rcases List.mem_cons.1 hi with rfl | hi
        · by_cases hic : i ∈ changed
          · obtain ⟨-, -, a3, -⟩ := hch i hic
            rw [hg] at a3
            simp only [Option.some.injEq] at a3
            rw [a3]; exact hirr _
          · obtain ⟨-, e2⟩ := hun i hic
            rw [hg, hold] at e2
            simp only [Option.some.injEq] at e2
            rw [e2]; exact himp
        · exact hmaxi hlt i hi g hg

/-- **C37** One candidate replaces at most `maxReplace` members, only among the positions looked at; each replaced
member had a strictly larger decomposition value; the others are untouched; and if fewer than `maxReplace`
replacements were made, the candidate improves on none of the positions looked at any more. -/
theorem C37_replacement [LT R] [DecidableLT R] (hirr : ∀ a : R, ¬ a < a) {env : Env W I R}
    {N K maxReplace sub : Nat} (hok : Ok env N) (hK : K ≤ N - 1) (b : Bool) (ideal : Nat → R) (cand : I) (f : Nat → R)
    (pop : List I) (fit : List (Nat → R)) (hp : pop.length = N) (hf : fit.length = N) (w : W) :
    ∃ (pop' : List I) (fit' : List (Nat → R)) (changed : List Nat),
      replaceLoop env K maxReplace sub b ideal cand f (env.shuffle w (if b then K else N)).2 0 (pop, fit) =
        some (pop', fit') ∧
      changed.Nodup ∧ changed.length ≤ maxReplace ∧
      (∀ i ∈ changed, i < N ∧ (b = true → i ∈ neighbours env K sub) ∧
        pop'[i]? = some cand ∧ fit'[i]? = some f ∧
        ∃ old, fit[i]? = some old ∧ env.apply i ideal f < env.apply i ideal old) ∧
      (∀ i, i ∉ changed → pop'[i]? = pop[i]? ∧ fit'[i]? = fit[i]?) ∧
      (changed.length < maxReplace → ∀ i < N, (b = true → i ∈ neighbours env K sub) →
        ∀ g, fit'[i]? = some g → ¬ env.apply i ideal f < env.apply i ideal g) := by
  have hlen := neighbours_length hok hK sub
  have hpick : ∀ i, i ∈ picks env K sub b (env.shuffle w (if b then K else N)).2 ↔
      i < N ∧ (b = true → i ∈ neighbours env K sub) := by
    intro i
    cases b with
    | true =>
      simp only [picks, if_true, List.mem_filterMap, (hok.shuffle w K).mem_iff, List.mem_range, true_implies]
      constructor
      · rintro ⟨a, -, ha⟩
        have := List.mem_of_getElem? ha
        exact ⟨neighbours_lt hok this, this⟩
      · rintro ⟨-, h⟩
        obtain ⟨a, ha⟩ := List.mem_iff_getElem?.1 h
        exact ⟨a, by have := getElem?_lt ha; omega, ha⟩
    | false =>
      simp only [picks, Bool.false_eq_true, if_false, (hok.shuffle w N).mem_iff, List.mem_range]
      simp
  obtain ⟨s', changed, hs', -, -, hnd, hcnt, hch, hun, hmaxi⟩ :=
    replaceLoop_spec hirr (b := b) (ideal := ideal) (cand := cand) (f := f) (maxReplace := maxReplace)
      (env := env) (sub := sub) (K := K) (N := N) (fun _ j hj => neighbours_lt hok hj)
      (env.shuffle w (if b then K else N)).2 0 (pop, fit)
      (by
        intro i hi
        have := List.mem_range.1 ((hok.shuffle w _).mem_iff.1 hi)
        cases b <;> simp_all) hp hf (Nat.zero_le _)
  refine ⟨s'.1, s'.2, changed, hs', hnd, by omega, ?_, hun, ?_⟩
  · intro i hi
    obtain ⟨a1, a2, a3, a4⟩ := hch i hi
    obtain ⟨h1, h2⟩ := (hpick i).1 a1
    exact ⟨h1, h2, a2, a3, a4⟩
  · intro hlt i hi hb g hg
    exact hmaxi (by omega) i ((hpick i).2 ⟨hi, hb⟩) g hg

end Ens.Moo.Moead
