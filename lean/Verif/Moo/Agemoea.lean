import Mathlib.Tactic.IntervalCases
import Verif.Moo.Crowding

/-
AGEMOEA (`agemoea/agemoea_impl.hpp`): model and C31, C35, C89, C94.
-/

namespace Ens.Moo.Agemoea

open Ens.Moo

variable {W I R : Type}

/-! ### Model -/

/-- The parameters of AGEMOEA: those of NSGA2 (`cross` is the conditional call of `Crossover`,
agemoea_impl.hpp:306-308; `perturb` the mutation loop, 393-422; both children are clamped at the end of `Mutate`,
424), and two quantities computed by `SurvivalScoreAssignment` that are left open here and modelled in
`Verif/Moo/Survival.lean`:
* `norm`: the vector `normalize` computed for the first front (434-483);
* `score`: the resulting `survivalScore` (700-799), `⊤` for `arma::datum::inf`. -/
structure Env (W I R : Type) extends Moo.Env W I R where
  norm : List (List Nat) → (Nat → Nat → R) → Nat → R
  score : List (List Nat) → (Nat → Nat → R) → Nat → WithTop R

/-- Component-wise minimum of the objectives of the members of the first front (agemoea_impl.hpp:162-167). -/
def idealPoint [LinearOrder R] (objs : Nat → Nat → R) (first : Nat) (rest : List Nat) : Nat → R :=
  rest.foldl (fun acc p k => min (acc k) (objs p k)) (objs first)

/-- The objectives after all calls of `SurvivalScoreAssignment` (agemoea_impl.hpp:171-179): members of the first
front are shifted by the ideal point and divided by `norm` if the front has at least `m` members (716-738),
those of the later fronts are divided by `norm` (790-792). -/
def normalise [Field R] [LinearOrder R] (m : Nat) (norm : Nat → R) (fronts : List (List Nat))
    (objs : Nat → Nat → R) : Nat → Nat → R :=
  match fronts with
  | (first :: rest) :: later => fun i k =>
    if i ∈ first :: rest then
      if (first :: rest).length < m then objs i k
      else (objs i k - idealPoint objs first rest k) / norm k
    else if i ∈ later.flatten then objs i k / norm k
    else objs i k
  | _ => objs

/-- Body of the generation loop (agemoea_impl.hpp:146-209). -/
def generation [Field R] [LinearOrder R] (env : Env W I R) (populationSize m : Nat) (s : St W I R) :
    Option (St W I R) := do
  let b ← breed env.toEnv populationSize s.pop ((s.pop.length + 1) / 2) s.w
  let pop2 := s.pop ++ b.2
  let e := evaluateObjectives env.evaluate pop2 m 0 (b.1, fun _ _ => 0)
  let dom := fun p q => dominates m (e.2 p) (e.2 q)
  let f ← fastNonDominatedSort dom pop2.length (pop2.length + 1) s.ranks
  let objs := normalise m (env.norm f.1 e.2) f.1 e.2
  let sorted := env.sort (fun x y => crowdingOperator f.2 (env.score f.1 e.2) (lastIdx env.approx pop2 x)
    (lastIdx env.approx pop2 y)) pop2
  let pop' := sorted.take populationSize
  let c := env.cbGen e.1 pop' objs f.1
  some ⟨c.1, pop', objs, pop2.length, f.1, f.2, c.2, s.history ++ [pop']⟩

/-- The generation loop (agemoea_impl.hpp:146-209). -/
def genLoop [Field R] [LinearOrder R] (env : Env W I R) (populationSize m : Nat) :
    Nat → St W I R → Option (St W I R)
  | 0, s => some s
  | n + 1, s =>
    if s.terminate then some s
    else (generation env populationSize m s).bind (genLoop env populationSize m n)

/-- Outputs (agemoea_impl.hpp:210-246): the objectives of the final population are evaluated into the first
entries of `calculatedObjectives`; the remaining entries keep the normalised values of the last generation. -/
def finish [AddMonoid R] [LinearOrder R] (env : Env W I R) (m : Nat) (s : St W I R) :
    Option (Result I R) := do
  let e := evaluateObjectives env.evaluate s.pop m 0 (s.w, s.objs)
  let f ← s.fronts[0]?
  let j ← f[0]?
  let it ← s.pop[j]?
  some ⟨s.pop, (List.range s.pop.length).map e.2, it, performance env.maxVal m s.objSize e.2⟩

/-- `AGEMOEA::Optimize` (agemoea_impl.hpp:62-247); the check is that of NSGA2. -/
def optimize [Field R] [LinearOrder R] (env : Env W I R) (populationSize maxGenerations m : Nat)
    (w : W) (x : I) : Outcome (St W I R × Result I R) :=
  if guardThrows populationSize then .throws
  else
    match genLoop env populationSize m maxGenerations (start env.toEnv populationSize w x) with
    | none => .ub
    | some s =>
      match finish env m s with
      | none => .ub
      | some r => .ok (s, r)

/-! ### C31 -/

theorem generation_pop [Field R] [LinearOrder R] {env : Env W I R} {B : I → Prop}
    (hB : ∀ x, B (env.clamp x)) (hs : ∀ c l, (env.sort c l).Perm l) {N m : Nat} {s s' : St W I R}
    (hg : generation env N m s = some s') (hpop : ∀ x ∈ s.pop, B x)
    (hh : ∀ p ∈ s.history, ∀ x ∈ p, B x) :
    (∀ x ∈ s'.pop, B x) ∧ (∀ p ∈ s'.history, ∀ x ∈ p, B x) := by
  simp only [generation, Option.bind_eq_bind, Option.bind_eq_some_iff, Option.some.injEq] at hg
  obtain ⟨b, hb, f, hf, rfl⟩ := hg
  obtain ⟨-, h2⟩ := breed_spec hB _ _ _ hb
  have key : ∀ c, ∀ x ∈ (env.sort c (s.pop ++ b.2)).take N, B x := by
    intro c x hx
    have hx := (hs c _).mem_iff.1 (List.mem_of_mem_take hx)
    rcases List.mem_append.1 hx with hx | hx
    · exact hpop x hx
    · exact h2 x hx
  refine ⟨key _, ?_⟩
  intro p hp
  rcases List.mem_append.1 hp with hp | hp
  · exact hh p hp
  · rw [List.mem_singleton] at hp; subst hp; exact key _

theorem genLoop_pop [Field R] [LinearOrder R] {env : Env W I R} {B : I → Prop}
    (hB : ∀ x, B (env.clamp x)) (hs : ∀ c l, (env.sort c l).Perm l) {N m : Nat} :
    ∀ (G : Nat) (s s' : St W I R), genLoop env N m G s = some s' → (∀ x ∈ s.pop, B x) →
    (∀ p ∈ s.history, ∀ x ∈ p, B x) →
    (∀ x ∈ s'.pop, B x) ∧ (∀ p ∈ s'.history, ∀ x ∈ p, B x) := by
  intro G
  induction G with
  | zero => intro s s' h h1 h2; cases h; exact ⟨h1, h2⟩
  | succ G ih =>
    intro s s' h h1 h2
    rw [genLoop] at h
    by_cases ht : s.terminate = true
    · rw [if_pos ht] at h; cases h; exact ⟨h1, h2⟩
    · rw [if_neg ht, Option.bind_eq_some_iff] at h
      obtain ⟨t, ht, h⟩ := h
      obtain ⟨h3, h4⟩ := generation_pop hB hs ht h1 h2
      exact ih t s' h h3 h4

theorem optimize_ok [Field R] [LinearOrder R] {env : Env W I R} {N G m : Nat} {w : W} {x : I}
    {s : St W I R} {r : Result I R} (h : optimize env N G m w x = .ok (s, r)) :
    genLoop env N m G (start env.toEnv N w x) = some s ∧ finish env m s = some r := by
  unfold optimize at h
  by_cases hg : guardThrows N = true
  · rw [if_pos hg] at h; cases h
  · rw [if_neg hg] at h
    cases hl : genLoop env N m G (start env.toEnv N w x) with
    | none => rw [hl] at h; cases h
    | some s₁ =>
      rw [hl] at h
      cases hfin : finish env m s₁ with
      | none => simp only [hfin] at h; cases h
      | some r₁ =>
        simp only [hfin, Outcome.ok.injEq, Prod.mk.injEq] at h
        obtain ⟨rfl, rfl⟩ := h
        exact ⟨rfl, hfin⟩

/-- **C31** In AGEMOEA every individual of every generation, every element of the Pareto set and the final iterate
lie within the bounds. -/
theorem C31_agemoea_in_bounds {K : Type} [LinearOrder K] [Field R] [LinearOrder R]
    (env : Env W (Nat → K) R) {lo hi : Nat → K} {d : Nat} (hlh : ∀ i < d, lo i ≤ hi i)
    (hc : env.clamp = clampBox lo hi) (hs : ∀ c l, (env.sort c l).Perm l) {N G m : Nat} {w : W}
    {x : Nat → K} {s : St W (Nat → K) R} {r : Result (Nat → K) R}
    (h : optimize env N G m w x = .ok (s, r)) :
    (∀ p ∈ s.history, ∀ y ∈ p, ∀ i < d, lo i ≤ y i ∧ y i ≤ hi i) ∧
    (∀ y ∈ r.paretoSet, ∀ i < d, lo i ≤ y i ∧ y i ≤ hi i) ∧
    ∀ i < d, lo i ≤ r.iterate i ∧ r.iterate i ≤ hi i := by
  obtain ⟨hl, hfin⟩ := optimize_ok h
  have hB : ∀ x, (fun y : Nat → K => ∀ i < d, lo i ≤ y i ∧ y i ≤ hi i) (env.clamp x) := by
    intro x; rw [hc]; exact clampBox_mem lo hi hlh x
  have hin := (initialPopulation_spec (env := env.toEnv)
    (B := fun y : Nat → K => ∀ i < d, lo i ≤ y i ∧ y i ≤ hi i) hB x N w).2
  obtain ⟨h1, h2⟩ := genLoop_pop (env := env)
    (B := fun y : Nat → K => ∀ i < d, lo i ≤ y i ∧ y i ≤ hi i) hB hs G _ _ hl hin
    (by intro p hp; rw [start] at hp; rw [List.mem_singleton] at hp; subst hp; exact hin)
  simp only [finish, Option.bind_eq_bind, Option.bind_eq_some_iff, Option.some.injEq] at hfin
  obtain ⟨f, -, j, -, it, hit, rfl⟩ := hfin
  exact ⟨h2, h1, h1 it (List.mem_of_getElem? hit)⟩

/-! ### C94: Pareto set and front -/

/-- **C94** In AGEMOEA `ParetoSet()` is the final population and `ParetoFront()` lists its objectives in the same
order. -/
theorem C94_agemoea_set_and_front [Field R] [LinearOrder R] {env : Env W I R} {F : Nat → I → R}
    (hF : ∀ w k x, (env.evaluate w k x).2 = F k x) {N G m : Nat} {w : W} {x : I} {s : St W I R}
    {r : Result I R} (h : optimize env N G m w x = .ok (s, r)) :
    r.paretoSet = s.pop ∧ r.paretoFront.length = r.paretoSet.length ∧
    (∀ (i : Nat) (y : I) (o : Nat → R), r.paretoSet[i]? = some y → r.paretoFront[i]? = some o →
      ∀ k < m, o k = F k y) ∧ r.iterate ∈ r.paretoSet := by
  obtain ⟨-, hfin⟩ := optimize_ok h
  simp only [finish, Option.bind_eq_bind, Option.bind_eq_some_iff, Option.some.injEq] at hfin
  obtain ⟨f, -, j, -, it, hit, rfl⟩ := hfin
  refine ⟨rfl, by simp, ?_, List.mem_of_getElem? hit⟩
  intro i y o hy ho k hk
  have hi := getElem?_lt hy
  simp only at hi
  rw [List.getElem?_map, List.getElem?_range hi] at ho
  simp only [Option.map_some, Option.some.injEq] at ho
  rw [← ho, evaluateObjectives_values hF s.pop (fun i => s.pop.getD i y)
    (by intro i x h; rw [List.getD_eq_getElem?_getD, h]; rfl)]
  rw [if_pos ⟨by omega, by omega, hi⟩, List.getD_eq_getElem?_getD, hy]
  rfl

/-! ### C35: the final iterate -/

/-- If in the last generation every parent is dominated by a member of the doubled population, the final access
is out of bounds. -/
theorem finish_ub [Field R] [LinearOrder R] {env : Env W I R} {N m n : Nat} {s : St W I R}
    {dom : Nat → Nat → Bool} (hlen : s.pop.length = N)
    (hr : IsParetoRanking dom n s.fronts s.ranks) (hNn : N ≤ n)
    (hd : ∀ i < N, ∃ j < n, dom j i = true) : finish env m s = none := by
  cases hf : s.fronts with
  | nil => simp [finish, hf]
  | cons f fs =>
    cases f with
    | nil => simp [finish, hf]
    | cons j f =>
      have hj := (hr.first (j :: f) (by rw [hf]; rfl) j).1 (by simp)
      have : N ≤ j := by
        by_contra hc
        obtain ⟨i, hi, hdi⟩ := hd j (by omega)
        rw [hj.2 i hi] at hdi; cases hdi
      simp only [finish, hf, List.getElem?_cons_zero, Option.bind_eq_bind, Option.bind_some]
      rw [List.getElem?_eq_none (by omega)]
      rfl

/-- One generation from a population of size `N`. -/
theorem generation_spec [Field R] [LinearOrder R] {env : Env W I R} {N m : Nat} (hN : 2 ≤ N)
    (hp : ∀ w, (env.pick w).2 < N) (hs : ∀ c l, (env.sort c l).Perm l) (s : St W I R)
    (hl : s.pop.length = N) :
    ∃ b s', breed env.toEnv N s.pop ((s.pop.length + 1) / 2) s.w = some b ∧
      generation env N m s = some s' ∧ s'.pop.length = N ∧
      IsParetoRanking (fun p q => dominates m
          ((evaluateObjectives env.evaluate (s.pop ++ b.2) m 0 (b.1, fun _ _ => 0)).2 p)
          ((evaluateObjectives env.evaluate (s.pop ++ b.2) m 0 (b.1, fun _ _ => 0)).2 q))
        (s.pop ++ b.2).length s'.fronts s'.ranks ∧ s'.objSize = (s.pop ++ b.2).length := by
  obtain ⟨b, hb⟩ := breed_isSome (env := env.toEnv) hN hp hl ((s.pop.length + 1) / 2) s.w
  obtain ⟨hbl, -⟩ := breed_spec (B := fun _ => True) (fun _ => trivial) _ _ _ hb
  obtain ⟨fr, rk, hf, hrank⟩ := C30_pareto_fronts m (s.pop ++ b.2).length
    (evaluateObjectives env.evaluate (s.pop ++ b.2) m 0 (b.1, fun _ _ => 0)).2 s.ranks
  refine ⟨b, _, hb, by
    simp only [generation, hb, Option.bind_eq_bind, Option.bind_some, hf]
    rfl, ?_, hrank, rfl⟩
  simp only [List.length_take, (hs _ _).length_eq, List.length_append, hbl]
  omega

/-- One objective, the value itself; the parents are 3, 2, 1, 5 and the children smaller. -/
def demoBase : Moo.Env Nat Int ℚ := { Moo.demo with perturb := fun w x => (w + 1, x - 10) }

theorem demoBase_pop : (start demoBase 4 0 0).pop = [3, 2, 1, 5] := by decide +kernel

theorem demoBase_breed : breed demoBase 4 (start demoBase 4 0 0).pop
    (((start demoBase 4 0 0).pop.length + 1) / 2) (start demoBase 4 0 0).w =
    some (8, [-7, -7, -9, -9]) := by decide +kernel

def demo (norm : List (List Nat) → (Nat → Nat → ℚ) → Nat → ℚ)
    (score : List (List Nat) → (Nat → Nat → ℚ) → Nat → WithTop ℚ) : Env Nat Int ℚ where
  toEnv := demoBase
  norm := norm
  score := score

/-- **C35** (refuted) "AGEMOEA hands back a member of the final population": whatever normalisation and survival
score are computed, the run below reads an element that has been removed from the population. -/
theorem C35_agemoea_final_iterate_refuted (norm : List (List Nat) → (Nat → Nat → ℚ) → Nat → ℚ)
    (score : List (List Nat) → (Nat → Nat → ℚ) → Nat → WithTop ℚ) :
    optimize (demo norm score) 4 1 1 0 0 = .ub := by
  obtain ⟨b, s', hb, hg, hlen, hrank, -⟩ := generation_spec (env := demo norm score) (N := 4) (m := 1)
    (by decide) (fun w => Nat.mod_lt _ (by decide)) (fun c l => sortBy_perm c l)
    (start demoBase 4 0 0) (by rw [demoBase_pop]; rfl)
  have hb' : some b = some (8, [-7, -7, -9, -9]) := hb.symm.trans demoBase_breed
  cases hb'
  rw [demoBase_pop] at hrank
  have hub : finish (demo norm score) 1 s' = none := by
    refine finish_ub hlen hrank (by decide) ?_
    intro i hi
    refine ⟨6, by decide, ?_⟩
    rw [C29_dominates_iff]
    have hv := evaluateObjectives_values (evaluate := (demo norm score).evaluate)
      (F := fun _ (x : Int) => (x : ℚ)) (fun _ _ _ => rfl)
      ([3, 2, 1, 5] ++ [-7, -7, -9, -9])
      (fun i => ([3, 2, 1, 5, -7, -7, -9, -9] : List Int).getD i 0)
      (by
        intro i x h
        rw [List.getD_eq_getElem?_getD]
        exact congrArg (fun o => Option.getD o 0) h) 1 0 (8, fun _ _ => 0)
    have hvi : ∀ i < 8, (evaluateObjectives (demo norm score).evaluate
        ([3, 2, 1, 5] ++ [-7, -7, -9, -9]) 1 0 (8, fun _ _ => 0)).2 i 0 =
        ((([3, 2, 1, 5, -7, -7, -9, -9] : List Int).getD i 0 : Int) : ℚ) := by
      intro i hi
      rw [hv, if_pos ⟨le_refl _, by decide, hi⟩]
    refine ⟨?_, 0, by decide, ?_⟩
    · intro k hk
      obtain rfl : k = 0 := by omega
      rw [hvi 6 (by decide), hvi i (by omega)]
      interval_cases i <;> norm_num
    · rw [hvi 6 (by decide), hvi i (by omega)]
      interval_cases i <;> norm_num
  have hgen : genLoop (demo norm score) 4 1 1 (start (demo norm score).toEnv 4 0 0) = some s' := by
    show (if (start demoBase 4 0 0).terminate = true then some (start demoBase 4 0 0) else
      (generation (demo norm score) 4 1 (start demoBase 4 0 0)).bind (genLoop (demo norm score) 4 1 0)) = _
    rw [if_neg (show ¬ (start demoBase 4 0 0).terminate = true by decide)]
    exact (congrArg (fun o => Option.bind o (genLoop (demo norm score) 4 1 0)) hg)
  unfold optimize
  rw [if_neg (by decide), hgen]
  simp only [hub]

/-- **C35** (partial) If the run gets past the final access, the coordinates handed back are a member of the final
population. -/
theorem C35_agemoea_final_iterate_partial [Field R] [LinearOrder R] {env : Env W I R} {N G m : Nat} {w : W}
    {x : I} {s : St W I R} {r : Result I R} (h : optimize env N G m w x = .ok (s, r)) :
    r.iterate ∈ s.pop := by
  obtain ⟨-, hfin⟩ := optimize_ok h
  simp only [finish, Option.bind_eq_bind, Option.bind_eq_some_iff, Option.some.injEq] at hfin
  obtain ⟨f, -, j, -, it, hit, rfl⟩ := hfin
  exact List.mem_of_getElem? hit

/-! ### The returned value -/

/-- A run in which the parents stay the best: 3, 2, 1, 5 and children 13, 15, ...; normalisation by 1. -/
def demoOk : Env Nat Int ℚ where
  toEnv := { Moo.demo with perturb := fun w x => (w + 1, x + w) }
  norm := fun _ _ _ => 1
  score := fun _ _ _ => 0

def demoOkView : Option (List Int × List ℚ × ℚ × Int) :=
  match optimize demoOk 4 1 1 0 0 with
  | .ok (s, r) => some (s.pop, r.paretoFront.map (· 0), r.value, r.iterate)
  | _ => none

theorem demoOkView_eq : demoOkView = some ([1, 2, 3, 5], [1, 2, 3, 5], 1, 3) := by decide +kernel

theorem demoOk_run : ∃ s r, optimize demoOk 4 1 1 0 0 = .ok (s, r) ∧ s.pop = [1, 2, 3, 5] ∧
    r.iterate = 3 := by
  have h := demoOkView_eq
  unfold demoOkView at h
  split at h
  · rename_i s r heq
    simp only [Option.some.injEq, Prod.mk.injEq] at h
    exact ⟨s, r, heq, h.1, h.2.2.2⟩
  · cases h

/-- **C35** (refuted) "The coordinates handed back are not dominated by another member of the final population":
the index of the best member before the sort is used after it. -/
theorem C35_agemoea_iterate_nondominated_refuted :
    ¬ ∀ (env : Env Nat Int ℚ) (F : Nat → Int → ℚ) (N G m w : Nat) (x : Int) (s : St Nat Int ℚ)
      (r : Result Int ℚ), (∀ w k x, (env.evaluate w k x).2 = F k x) → (∀ w, (env.pick w).2 < N) →
      (∀ c l, (env.sort c l).Perm l) → 4 ≤ N → N % 4 = 0 → optimize env N G m w x = .ok (s, r) →
      ∀ y ∈ s.pop, dominates m (fun k => F k y) (fun k => F k r.iterate) = false := by
  intro h
  obtain ⟨s, r, hr, hpop, hit⟩ := demoOk_run
  have := h demoOk (fun _ x => x) 4 1 1 0 0 s r (fun _ _ _ => rfl) (fun w => Nat.mod_lt _ (by decide))
    (fun c l => sortBy_perm c l) (by decide) (by decide) hr 1 (by rw [hpop]; decide)
  rw [hit] at this
  revert this
  decide +kernel

/-- The same start, but the children are copies of their parents. -/
def demoCopy : Env Nat Int ℚ where
  toEnv := { Moo.demo with perturb := fun w x => (w + 1, x) }
  norm := fun _ _ _ => 1
  score := fun _ _ _ => 0

/-- **C89** (refuted) "The value returned by AGEMOEA is the objective sum of some point it evaluated": in the run
above the objective is at least 1 everywhere but 0 is returned, a left-over of the normalisation. -/
theorem C89_agemoea_value_refuted :
    ¬ ∀ (env : Env Nat Int ℚ) (F : Nat → Int → ℚ) (N G m w : Nat) (x : Int) (s : St Nat Int ℚ)
      (r : Result Int ℚ), (∀ w k x, (env.evaluate w k x).2 = F k x) → (∀ w, (env.pick w).2 < N) →
      (∀ c l, (env.sort c l).Perm l) → 4 ≤ N → N % 4 = 0 → optimize env N G m w x = .ok (s, r) →
      ∃ p ∈ s.history, ∃ y ∈ p, r.value = accu m (fun k => F k y) := by
  intro h
  have hv : (match optimize demoCopy 4 1 1 0 0 with
    | .ok (s, r) => some (s.history.all (fun p => p.all (1 ≤ ·)), r.value)
    | _ => none) = some (true, 0) := by decide +kernel
  split at hv
  · rename_i s r heq
    simp only [Option.some.injEq, Prod.mk.injEq, List.all_eq_true, decide_eq_true_eq] at hv
    obtain ⟨p, hp, y, hy, hr⟩ := h demoCopy (fun _ x => x) 4 1 1 0 0 s r (fun _ _ _ => rfl)
      (fun w => Nat.mod_lt _ (by decide)) (fun c l => sortBy_perm c l) (by decide) (by decide) heq
    have h1 := hv.1 p hp y hy
    rw [hv.2] at hr
    simp only [accu, List.range_one, List.map_cons, List.map_nil, List.sum_cons, List.sum_nil,
      add_zero] at hr
    have : (1 : ℚ) ≤ (y : ℚ) := by exact_mod_cast h1
    rw [← hr] at this
    exact absurd this (by norm_num)
  · cases hv

/-- **C89** (partial) The value returned by AGEMOEA is at most the objective sum of every member of the final
population. -/
theorem C89_agemoea_value_partial [Field R] [LinearOrder R] {env : Env W I R} {F : Nat → I → R}
    (hF : ∀ w k x, (env.evaluate w k x).2 = F k x) (hs : ∀ c l, (env.sort c l).Perm l) {N G m : Nat}
    (hN : 2 ≤ N) (hp : ∀ w, (env.pick w).2 < N) {w : W} {x : I} {s : St W I R} {r : Result I R}
    (h : optimize env N G m w x = .ok (s, r)) :
    ∀ y ∈ s.pop, r.value ≤ accu m (fun k => F k y) := by
  obtain ⟨hl, hfin⟩ := optimize_ok h
  have key : ∀ (G : Nat) (s s' : St W I R), genLoop env N m G s = some s' → s.pop.length = N →
      N ≤ s.objSize → s'.pop.length = N ∧ N ≤ s'.objSize := by
    intro G
    induction G with
    | zero => intro s s' h h1 h2; cases h; exact ⟨h1, h2⟩
    | succ G ih =>
      intro s s' h h1 h2
      rw [genLoop] at h
      by_cases ht : s.terminate = true
      · rw [if_pos ht] at h; cases h; exact ⟨h1, h2⟩
      · rw [if_neg ht, Option.bind_eq_some_iff] at h
        obtain ⟨t, hg, h⟩ := h
        obtain ⟨b, t', hb, hg', a1, -, a3⟩ := generation_spec (m := m) hN hp hs s h1
        rw [hg] at hg'
        cases hg'
        refine ih t s' h a1 ?_
        rw [a3, List.length_append]; omega
  obtain ⟨hlen, hsize⟩ := key G _ _ hl
    (initialPopulation_spec (env := env.toEnv) (B := fun _ => True) (fun _ => trivial) x N w).1 (le_refl _)
  simp only [finish, Option.bind_eq_bind, Option.bind_eq_some_iff, Option.some.injEq] at hfin
  obtain ⟨f, -, j, -, it, hit, rfl⟩ := hfin
  intro y hy
  obtain ⟨i, hi⟩ := List.getElem?_of_mem hy
  have hil := getElem?_lt hi
  refine (performance_le _ _ _ _ i (by omega)).trans (le_of_eq ?_)
  unfold accu
  congr 1
  apply List.map_congr_left
  intro k hk
  rw [List.mem_range] at hk
  rw [evaluateObjectives_values hF s.pop (fun i => s.pop.getD i y)
    (by intro i x h; rw [List.getD_eq_getElem?_getD, h]; rfl)]
  rw [if_pos ⟨by omega, by omega, hil⟩, List.getD_eq_getElem?_getD, hi]
  rfl

end Ens.Moo.Agemoea
