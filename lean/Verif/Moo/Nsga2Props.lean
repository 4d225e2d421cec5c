import Mathlib.Tactic.FieldSimp
import Mathlib.Tactic.Ring
import Mathlib.Tactic.Positivity
import Mathlib.Tactic.NormNum
import Verif.Moo.Nsga2
import Verif.SortIndex

/-
C31-C34, C88, C89, C91, C92 for NSGA2.
-/

namespace Ens.Moo

variable {W I R : Type}

/-! ### C32: the argument check -/

/-- **C32** (refuted) "Population sizes below 4 or not a multiple of 4 are rejected." -/
theorem C32_guard_refuted :
    ¬ ∀ n : Nat, (n < 4 ∨ n % 4 ≠ 0) → guardThrows n = true := by
  intro h
  have := h 6 (by decide)
  revert this
  decide

/-- **C32** (partial) Exactly the sizes 1, 2 and 3 are rejected. -/
theorem C32_guard_partial (n : Nat) : guardThrows n = true ↔ n = 1 ∨ n = 2 ∨ n = 3 := by
  unfold guardThrows
  rw [Bool.and_eq_true, decide_eq_true_eq, decide_eq_true_eq]
  omega

/-! ### C33: crossover -/

/-- **C33** (refuted) "At every gene one child carries the gene of parent A and the other that of parent B." -/
theorem C33_crossover_refuted :
    ¬ ∀ (idx : Nat → Bool) (a b : Nat → Int) (i : Nat),
      ((crossover idx a b).1 i = a i ∧ (crossover idx a b).2 i = b i) ∨
      ((crossover idx a b).1 i = b i ∧ (crossover idx a b).2 i = a i) := by
  intro h
  have := h (fun _ => true) (fun _ => 1) (fun _ => 2) 0
  revert this
  decide

/-- **C33** (partial) The first child mixes the parents gene by gene; the second is a copy of parent A. -/
theorem C33_crossover_partial {K : Type} [Ring K] (idx : Nat → Bool) (a b : Nat → K) (i : Nat) :
    (crossover idx a b).1 i = (if idx i then a i else b i) ∧ (crossover idx a b).2 i = a i := by
  unfold crossover
  by_cases h : idx i = true <;> simp [h]

/-! ### The parents -/

theorem parents_spec (env : Env W I R) {n : Nat} (hn : 2 ≤ n) (hp : ∀ w, (env.pick w).2 < n) (w : W) :
    (parents env n w).2.1 < n ∧ (parents env n w).2.2 < n ∧
      (parents env n w).2.1 ≠ (parents env n w).2.2 := by
  have h1 := hp w
  have h2 := hp (env.pick w).1
  unfold parents
  simp only
  split_ifs with ha hb <;> omega

/-! ### Evaluation of the objectives -/

theorem setObj_eq (o : Nat → Nat → R) (i k : Nat) (v : R) (i' k' : Nat) :
    setObj o i k v i' k' = if i' = i ∧ k' = k then v else o i' k' := by
  unfold setObj
  by_cases h : i' = i
  · subst h
    by_cases h' : k' = k
    · subst h'; simp
    · simp [h']
  · simp [h]

theorem evaluateObjectives_values {evaluate : W → Nat → I → W × R} {F : Nat → I → R}
    (hF : ∀ w k x, (evaluate w k x).2 = F k x) (pop : List I) (P : Nat → I)
    (hP : ∀ i x, pop[i]? = some x → P i = x) : ∀ (rem k : Nat) (s : W × (Nat → Nat → R)) (i j : Nat),
    (evaluateObjectives evaluate pop rem k s).2 i j =
      if k ≤ j ∧ j < k + rem ∧ i < pop.length then F j (P i) else s.2 i j := by
  intro rem
  induction rem with
  | zero => intro k s i j; simp only [evaluateObjectives]; rw [if_neg (by omega)]
  | succ rem ih =>
    intro k s i j
    rw [evaluateObjectives]
    have key : ∀ (l : List (I × Nat)) (s : W × (Nat → Nat → R)), (∀ p ∈ l, pop[p.2]? = some p.1) →
        (l.foldl (fun s p =>
          let e := evaluate s.1 k p.1
          evaluateObjectives evaluate pop rem (k + 1) (e.1, setObj s.2 p.2 k e.2)) s).2 i j =
        if j = k then (if i ∈ l.map (·.2) then F k (P i) else s.2 i k)
        else if k + 1 ≤ j ∧ j < k + 1 + rem ∧ i < pop.length ∧ l ≠ [] then F j (P i) else s.2 i j := by
      intro l
      induction l with
      | nil => intro s _; by_cases hj : j = k <;> simp [hj]
      | cons p l ihl =>
        intro s hl
        rw [List.foldl_cons, ihl _ (fun q hq => hl q (by simp [hq]))]
        simp only [ih, setObj_eq, hF]
        have hPp := hP p.2 p.1 (hl p (by simp))
        by_cases hj : j = k
        · subst hj
          have hn : ¬ (j + 1 ≤ j ∧ j < j + 1 + rem ∧ i < pop.length) := by omega
          simp only [if_true, hn, if_false, and_true, List.map_cons, List.mem_cons]
          by_cases hi : i ∈ l.map (·.2)
          · simp only [hi, if_true, or_true]
          · by_cases hip : i = p.2
            · simp only [hi, if_false, hip, if_true, true_or, hPp]
              rw [hip] at hi; simp only [hi, if_false]
            · simp only [hi, hip, if_false, or_self]
        · simp only [hj, if_false, and_false]
          by_cases hc : k + 1 ≤ j ∧ j < k + 1 + rem ∧ i < pop.length
          · by_cases hl' : l = []
            · simp [hc, hl']
            · simp [hc, hl']
          · have h1 : ¬ (k + 1 ≤ j ∧ j < k + 1 + rem ∧ i < pop.length ∧ l ≠ []) := fun h =>
              hc ⟨h.1, h.2.1, h.2.2.1⟩
            have h2 : ¬ (k + 1 ≤ j ∧ j < k + 1 + rem ∧ i < pop.length ∧ p :: l ≠ []) := fun h =>
              hc ⟨h.1, h.2.1, h.2.2.1⟩
            simp only [h1, h2, hc, if_false]
    rw [key _ _ (fun p hp => List.mem_zipIdx_iff_getElem?.1 hp)]
    have hm : i ∈ (pop.zipIdx).map (·.2) ↔ i < pop.length := by
      constructor
      · intro h
        obtain ⟨p, hp, rfl⟩ := List.mem_map.1 h
        have := List.mem_zipIdx_iff_getElem?.1 hp
        by_contra hc
        rw [List.getElem?_eq_none (by omega)] at this; cases this
      · intro h
        exact List.mem_map.2 ⟨(pop[i], i), List.mem_zipIdx_iff_getElem?.2 (List.getElem?_eq_getElem h), rfl⟩
    by_cases hj : j = k
    · subst hj
      simp only [if_true, hm]
      by_cases hi : i < pop.length
      · rw [if_pos hi, if_pos ⟨le_refl _, by omega, hi⟩]
      · rw [if_neg hi, if_neg (fun h => hi h.2.2)]
    · simp only [hj, if_false]
      by_cases hc : k ≤ j ∧ j < k + (rem + 1) ∧ i < pop.length
      · rw [if_pos hc, if_pos]
        refine ⟨by omega, by omega, hc.2.2, ?_⟩
        intro h
        have := congrArg List.length h
        simp at this
        rw [this] at hc; simp at hc
      · rw [if_neg hc, if_neg]
        intro h
        exact hc ⟨by omega, by omega, h.2.2.1⟩

/-- **C88** The calls made by one `EvaluateObjectives`: with a population of `n`, objective `k` is called
`n ^ (k + 1)` times. -/
theorem C88_evaluation_count_partial (F : Nat → I → R) (pop : List I) (rem k : Nat)
    (s : (Nat → Nat) × (Nat → Nat → R)) (j : Nat) :
    (evaluateObjectives (fun (c : Nat → Nat) k x => (Function.update c k (c k + 1), F k x)) pop rem k s).1 j
      = s.1 j + if k ≤ j ∧ j < k + rem then pop.length ^ (j - k + 1) else 0 := by
  induction rem generalizing k s with
  | zero => simp only [evaluateObjectives]; rw [if_neg (by omega)]; rfl
  | succ rem ih =>
    rw [evaluateObjectives]
    have key : ∀ (l : List (I × Nat)) (s : (Nat → Nat) × (Nat → Nat → R)),
        (l.foldl (fun s p =>
          let e := (fun (c : Nat → Nat) k x => (Function.update c k (c k + 1), F k x)) s.1 k p.1
          evaluateObjectives (fun (c : Nat → Nat) k x => (Function.update c k (c k + 1), F k x)) pop rem
            (k + 1) (e.1, setObj s.2 p.2 k e.2)) s).1 j =
        s.1 j + l.length * (if j = k then 1 else
          if k + 1 ≤ j ∧ j < k + 1 + rem then pop.length ^ (j - (k + 1) + 1) else 0) := by
      intro l
      induction l with
      | nil => intro s; simp
      | cons p l ihl =>
        intro s
        rw [List.foldl_cons, ihl, List.length_cons]
        simp only [ih]
        by_cases hj : j = k
        · subst hj
          rw [if_neg (by omega)]
          simp only [Function.update_self, if_true]; omega
        · rw [Function.update_of_ne hj]
          simp only [hj, if_false]
          rw [Nat.add_mul, Nat.one_mul]; omega
    rw [key, List.length_zipIdx]
    congr 1
    by_cases hj : j = k
    · subst hj; simp
    · simp only [hj, if_false]
      by_cases hc : k + 1 ≤ j ∧ j < k + 1 + rem
      · rw [if_pos hc, if_pos (by omega)]
        have : j - k + 1 = (j - (k + 1) + 1) + 1 := by omega
        rw [this, Nat.pow_succ (n := pop.length) (m := j - (k + 1) + 1), Nat.mul_comm]
      · rw [if_neg hc, if_neg (by omega), Nat.mul_zero]

/-- **C88** (refuted) "Evaluating the objectives of a population calls every objective once per individual." -/
theorem C88_evaluation_count_refuted :
    ¬ ∀ (F : Nat → Int → Int) (pop : List Int) (m j : Nat), j < m →
      (evaluateObjectives (fun (c : Nat → Nat) k x => (Function.update c k (c k + 1), F k x)) pop m 0
        (fun _ => 0, fun _ _ => 0)).1 j = pop.length := by
  intro h
  have h1 := h (fun _ x => x) [1, 2, 3, 4] 2 1 (by decide)
  rw [C88_evaluation_count_partial] at h1
  revert h1
  decide

/-! ### C31: bounds -/

/-- `arma::min(arma::max(x, lo), hi)` gene by gene. -/
def clampBox [LinearOrder R] (lo hi x : Nat → R) : Nat → R := fun i => min (max (x i) (lo i)) (hi i)

theorem clampBox_mem [LinearOrder R] (lo hi : Nat → R) {d : Nat} (h : ∀ i < d, lo i ≤ hi i) (x : Nat → R) :
    ∀ i < d, lo i ≤ clampBox lo hi x i ∧ clampBox lo hi x i ≤ hi i := by
  intro i hi'
  unfold clampBox
  exact ⟨le_min (le_max_right _ _) (h i hi'), min_le_right _ _⟩

theorem breed_spec {env : Env W I R} {B : I → Prop} (hB : ∀ x, B (env.clamp x)) {N : Nat} {pop : List I} :
    ∀ (n : Nat) (w : W) (r : W × List I), breed env N pop n w = some r →
      r.2.length = 2 * n ∧ ∀ x ∈ r.2, B x := by
  intro n
  induction n with
  | zero => intro w r h; cases h; simp
  | succ n ih =>
    intro w r h
    simp only [breed, Option.bind_eq_bind, Option.bind_eq_some_iff, Option.some.injEq] at h
    obtain ⟨t, ht, rest, hrest, rfl⟩ := h
    obtain ⟨h1, h2⟩ := ih _ _ hrest
    simp only [breedTwo, Option.bind_eq_bind, Option.bind_eq_some_iff, Option.some.injEq] at ht
    obtain ⟨a, -, b, -, rfl⟩ := ht
    refine ⟨by simp [h1]; omega, ?_⟩
    intro x hx
    simp only [List.mem_cons] at hx
    rcases hx with rfl | rfl | hx
    · exact hB _
    · exact hB _
    · exact h2 x hx

theorem initialPopulation_spec {env : Env W I R} {B : I → Prop} (hB : ∀ x, B (env.clamp x)) (x : I) :
    ∀ (n : Nat) (w : W), (initialPopulation env x n w).2.length = n ∧
      ∀ y ∈ (initialPopulation env x n w).2, B y := by
  intro n
  induction n with
  | zero => intro w; simp [initialPopulation]
  | succ n ih =>
    intro w
    obtain ⟨h1, h2⟩ := ih (env.initial w x).1
    refine ⟨by simp [initialPopulation, h1], ?_⟩
    intro y hy
    simp only [initialPopulation, List.mem_cons] at hy
    rcases hy with rfl | hy
    · exact hB _
    · exact h2 y hy

theorem generation_pop [Field R] [LinearOrder R] {env : Env W I R} {B : I → Prop}
    (hB : ∀ x, B (env.clamp x)) (hs : ∀ c l, (env.sort c l).Perm l) {N m : Nat} {s s' : St W I R}
    (hg : generation env N m s = some s') (hpop : ∀ x ∈ s.pop, B x)
    (hh : ∀ p ∈ s.history, ∀ x ∈ p, B x) :
    (∀ x ∈ s'.pop, B x) ∧ (∀ p ∈ s'.history, ∀ x ∈ p, B x) := by
  simp only [generation, Option.bind_eq_bind, Option.bind_eq_some_iff, Option.some.injEq] at hg
  obtain ⟨b, hb, f, hf, rfl⟩ := hg
  obtain ⟨-, h2⟩ := breed_spec hB _ _ _ hb
  have key : ∀ c, ∀ x ∈ (env.sort c (s.pop ++ b.2)).take N, B x := by
    intro c x hx
    have hx := (hs c _).mem_iff.1 (List.mem_of_mem_take hx)
    rcases List.mem_append.1 hx with hx | hx
    · exact hpop x hx
    · exact h2 x hx
  refine ⟨key _, ?_⟩
  intro p hp
  rcases List.mem_append.1 hp with hp | hp
  · exact hh p hp
  · rw [List.mem_singleton] at hp; subst hp; exact key _

theorem genLoop_pop [Field R] [LinearOrder R] {env : Env W I R} {B : I → Prop}
    (hB : ∀ x, B (env.clamp x)) (hs : ∀ c l, (env.sort c l).Perm l) {N m : Nat} :
    ∀ (G : Nat) (s s' : St W I R), genLoop env N m G s = some s' → (∀ x ∈ s.pop, B x) →
    (∀ p ∈ s.history, ∀ x ∈ p, B x) →
    (∀ x ∈ s'.pop, B x) ∧ (∀ p ∈ s'.history, ∀ x ∈ p, B x) := by
  intro G
  induction G with
  | zero => intro s s' h h1 h2; cases h; exact ⟨h1, h2⟩
  | succ G ih =>
    intro s s' h h1 h2
    rw [genLoop] at h
    by_cases ht : s.terminate = true
    · rw [if_pos ht] at h; cases h; exact ⟨h1, h2⟩
    · rw [if_neg ht, Option.bind_eq_some_iff] at h
      obtain ⟨t, ht, h⟩ := h
      obtain ⟨h3, h4⟩ := generation_pop hB hs ht h1 h2
      exact ih t s' h h3 h4

theorem mapM_mem {α β : Type} {g : α → Option β} : ∀ {l : List α} {r : List β}, l.mapM g = some r →
    ∀ y ∈ r, ∃ x ∈ l, g x = some y := by
  intro l
  induction l with
  | nil =>
    intro r h y hy
    rw [List.mapM_nil] at h; cases h; cases hy
  | cons a l ih =>
    intro r h y hy
    rw [List.mapM_cons] at h
    simp only [Option.bind_eq_bind, Option.bind_eq_some_iff, Option.pure_def, Option.some.injEq] at h
    obtain ⟨b, hb, bs, hbs, rfl⟩ := h
    rcases List.mem_cons.1 hy with rfl | hy
    · exact ⟨a, by simp, hb⟩
    · obtain ⟨x, hx, hxy⟩ := ih hbs y hy
      exact ⟨x, by simp [hx], hxy⟩

/-- **C31** In NSGA2 every individual of every generation, every element of the Pareto set and the final iterate
lie within the bounds. -/
theorem C31_nsga2_in_bounds {K : Type} [LinearOrder K] [Field R] [LinearOrder R]
    (env : Env W (Nat → K) R) {lo hi : Nat → K} {d : Nat} (hlh : ∀ i < d, lo i ≤ hi i)
    (hc : env.clamp = clampBox lo hi) (hs : ∀ c l, (env.sort c l).Perm l) {N G m : Nat} {w : W}
    {x : Nat → K} {s : St W (Nat → K) R} {r : Result (Nat → K) R}
    (h : optimize env N G m w x = .ok (s, r)) :
    (∀ p ∈ s.history, ∀ y ∈ p, ∀ i < d, lo i ≤ y i ∧ y i ≤ hi i) ∧
    (∀ y ∈ r.paretoSet, ∀ i < d, lo i ≤ y i ∧ y i ≤ hi i) ∧
    ∀ i < d, lo i ≤ r.iterate i ∧ r.iterate i ≤ hi i := by
  unfold optimize at h
  by_cases hg : guardThrows N = true
  · rw [if_pos hg] at h; cases h
  · rw [if_neg hg] at h
    cases hl : genLoop env N m G (start env N w x) with
    | none => rw [hl] at h; cases h
    | some s₁ =>
      rw [hl] at h
      cases hfin : finish env m s₁ with
      | none => simp only [hfin] at h; cases h
      | some r₁ =>
        simp only [hfin, Outcome.ok.injEq, Prod.mk.injEq] at h
        obtain ⟨rfl, rfl⟩ := h
        have hB : ∀ x, (fun y : Nat → K => ∀ i < d, lo i ≤ y i ∧ y i ≤ hi i) (env.clamp x) := by
          intro x; rw [hc]; exact clampBox_mem lo hi hlh x
        have hin := (initialPopulation_spec (env := env)
          (B := fun y : Nat → K => ∀ i < d, lo i ≤ y i ∧ y i ≤ hi i) hB x N w).2
        obtain ⟨h1, h2⟩ := genLoop_pop (env := env)
          (B := fun y : Nat → K => ∀ i < d, lo i ≤ y i ∧ y i ≤ hi i) hB hs G _ _ hl hin
          (by intro p hp; rw [start] at hp; rw [List.mem_singleton] at hp; subst hp; exact hin)
        simp only [finish, Option.bind_eq_bind, Option.bind_eq_some_iff, Option.some.injEq] at hfin
        obtain ⟨f, -, set, hset, j, -, it, hit, rfl⟩ := hfin
        refine ⟨h2, ?_, h1 it (List.mem_of_getElem? hit)⟩
        intro y hy
        obtain ⟨j, -, hj⟩ := mapM_mem hset y hy
        exact h1 y (List.mem_of_getElem? hj)

/-! ### C92: the run is free of out-of-bounds accesses -/

theorem breed_isSome {env : Env W I R} {N : Nat} (hN : 2 ≤ N) (hp : ∀ w, (env.pick w).2 < N)
    {pop : List I} (hl : pop.length = N) : ∀ (n : Nat) (w : W), ∃ r, breed env N pop n w = some r := by
  intro n
  induction n with
  | zero => intro w; exact ⟨_, rfl⟩
  | succ n ih =>
    intro w
    obtain ⟨h1, h2, -⟩ := parents_spec env hN hp w
    have : ∃ t, breedTwo env N pop w = some t := by
      simp only [breedTwo]
      rw [List.getElem?_eq_getElem (by omega), List.getElem?_eq_getElem (by omega)]
      exact ⟨_, rfl⟩
    obtain ⟨t, ht⟩ := this
    obtain ⟨r, hr⟩ := ih t.1
    refine ⟨(r.1, t.2.1 :: t.2.2 :: r.2), ?_⟩
    simp only [breed, ht, hr, Option.bind_eq_bind, Option.bind_some]

/-- What holds after a generation: the fronts are the ranking of the first `N` members before selection. -/
structure GenOk [Field R] [LinearOrder R] (N m : Nat) (s : St W I R) : Prop where
  len : s.pop.length = N
  rank : IsParetoRanking (fun p q => dominates m (s.objs p) (s.objs q)) N s.fronts s.ranks
  size : N < s.objSize
  zero : ∀ i, N ≤ i → ∀ k, s.objs i k = 0

theorem generation_ok [Field R] [LinearOrder R] {env : Env W I R} {N m : Nat} (hN : 2 ≤ N)
    (hp : ∀ w, (env.pick w).2 < N) (hs : ∀ c l, (env.sort c l).Perm l) (s : St W I R)
    (hl : s.pop.length = N) :
    ∃ s', generation env N m s = some s' ∧ GenOk N m s' := by
  obtain ⟨b, hb⟩ := breed_isSome hN hp hl ((s.pop.length + 1) / 2) s.w
  obtain ⟨hbl, -⟩ := breed_spec (B := fun _ => True) (fun _ => trivial) _ _ _ hb
  let e := evaluateObjectives env.evaluate ((s.pop ++ b.2).take N) m 0 (b.1, fun _ _ => (0 : R))
  obtain ⟨fr, rk, hf, hrank⟩ := C30_pareto_fronts m N e.2 s.ranks
  have hz : ∀ i, N ≤ i → ∀ k, e.2 i k = 0 := by
    have : ∀ (pop : List I) (rem k : Nat) (t : W × (Nat → Nat → R)) (i j : Nat), pop.length ≤ i →
        (evaluateObjectives env.evaluate pop rem k t).2 i j = t.2 i j := by
      intro pop rem
      induction rem with
      | zero => intro k t i j _; rfl
      | succ rem ih =>
        intro k t i j hi
        rw [evaluateObjectives]
        have key : ∀ (l : List (I × Nat)) (t : W × (Nat → Nat → R)), (∀ p ∈ l, p.2 < pop.length) →
            (l.foldl (fun s p =>
              let e := env.evaluate s.1 k p.1
              evaluateObjectives env.evaluate pop rem (k + 1) (e.1, setObj s.2 p.2 k e.2)) t).2 i j =
            t.2 i j := by
          intro l
          induction l with
          | nil => intro t _; rfl
          | cons p l ihl =>
            intro t hl
            have hpl := hl p (by simp)
            rw [List.foldl_cons, ihl _ (fun q hq => hl q (by simp [hq])), ih _ _ _ _ hi]
            show setObj t.2 p.2 k _ i j = _
            rw [setObj_eq, if_neg (by omega)]
        refine key _ _ ?_
        intro p hp
        have := List.mem_zipIdx_iff_getElem?.1 hp
        by_contra hc
        rw [List.getElem?_eq_none (by omega)] at this; cases this
    intro i hi k
    rw [this _ _ _ _ _ _ (by rw [List.length_take]; omega)]
  have hlen : (s.pop ++ b.2).length = s.pop.length + 2 * ((s.pop.length + 1) / 2) := by
    rw [List.length_append, hbl]
  refine ⟨_, by
    simp only [generation, hb, Option.bind_eq_bind, Option.bind_some]
    rw [show fastNonDominatedSort (fun p q => dominates m (e.2 p) (e.2 q)) N (N + 1) s.ranks = _ from hf]
    simp only [Option.bind_some]
    rfl, ?_, hrank, ?_, hz⟩
  · simp only [List.length_take, (hs _ _).length_eq, hlen]; omega
  · simp only [hlen]; omega

theorem genLoop_ok [Field R] [LinearOrder R] {env : Env W I R} {N m : Nat} (hN : 2 ≤ N)
    (hp : ∀ w, (env.pick w).2 < N) (hs : ∀ c l, (env.sort c l).Perm l) :
    ∀ (G : Nat) (s : St W I R), s.pop.length = N → (GenOk N m s ∨ (s.terminate = false ∧ G ≠ 0)) →
    ∃ s', genLoop env N m G s = some s' ∧ GenOk N m s' := by
  intro G
  induction G with
  | zero =>
    intro s hl h
    rcases h with h | ⟨-, h⟩
    · exact ⟨s, rfl, h⟩
    · exact absurd rfl h
  | succ G ih =>
    intro s hl h
    rw [genLoop]
    by_cases ht : s.terminate = true
    · rcases h with h | ⟨h, -⟩
      · exact ⟨s, by rw [if_pos ht], h⟩
      · rw [ht] at h; cases h
    · obtain ⟨t, hg, hok⟩ := generation_ok (m := m) hN hp hs s hl
      obtain ⟨s', h1, h2⟩ := ih t hok.len (.inl hok)
      exact ⟨s', by rw [if_neg ht, hg]; exact h1, h2⟩

theorem finish_ok [Field R] [LinearOrder R] {env : Env W I R} {N m : Nat} (hN : 0 < N) {s : St W I R}
    (h : GenOk N m s) : ∃ f r, s.fronts[0]? = some f ∧ finish env m s = some r ∧
      r.paretoFront = f.map s.objs ∧
      r.value = performance env.maxVal m s.objSize s.objs := by
  have hlt : ∀ f ∈ s.fronts, ∀ j ∈ f, j < N := by
    intro f hf j hj
    exact List.mem_range.1 (h.rank.partition.mem_iff.1 (List.mem_flatten.2 ⟨f, hf, hj⟩))
  cases hfr : s.fronts with
  | nil =>
    have h0 := h.rank.partition.mem_iff.2 (List.mem_range.2 hN)
    rw [hfr] at h0
    simp at h0
  | cons f fs =>
    have hf : f ∈ s.fronts := by rw [hfr]; simp
    have hmap : ∀ l : List Nat, (∀ j ∈ l, j < N) → ∃ r, l.mapM (fun j => s.pop[j]?) = some r := by
      intro l
      induction l with
      | nil => intro _; exact ⟨_, List.mapM_nil⟩
      | cons a l ih =>
        intro hl
        obtain ⟨r, hr⟩ := ih (fun j hj => hl j (by simp [hj]))
        have ha := hl a (by simp)
        rw [List.mapM_cons, hr, List.getElem?_eq_getElem (by rw [h.len]; exact ha)]
        exact ⟨_, rfl⟩
    obtain ⟨set, hset⟩ := hmap f (hlt f hf)
    cases f with
    | nil => exact absurd rfl (h.rank.nonempty _ hf)
    | cons j f =>
      have hj := hlt _ hf j (by simp)
      refine ⟨j :: f, ⟨set, (j :: f).map s.objs, s.pop[j]'(by rw [h.len]; exact hj), _⟩, rfl, ?_, rfl, rfl⟩
      simp only [finish, hfr, List.getElem?_cons_zero, Option.bind_eq_bind, Option.bind_some, hset]
      rw [List.getElem?_eq_getElem (by rw [h.len]; exact hj)]
      rfl

/-- **C92** For a population of at least 4 and at least one generation NSGA2 always returns normally. -/
theorem C92_nsga2_returns [Field R] [LinearOrder R] {env : Env W I R} {N G m : Nat} (hN : 4 ≤ N)
    (hG : G ≠ 0) (hp : ∀ w, (env.pick w).2 < N) (hs : ∀ c l, (env.sort c l).Perm l) (w : W) (x : I) :
    ∃ a, optimize env N G m w x = .ok a := by
  have hl : (start env N w x).pop.length = N :=
    (initialPopulation_spec (B := fun _ => True) (fun _ => trivial) x N w).1
  obtain ⟨s, h1, h2⟩ := genLoop_ok (m := m) (by omega) hp hs G (start env N w x) hl (.inr ⟨rfl, hG⟩)
  obtain ⟨f, r, -, h3, -, -⟩ := finish_ok (env := env) (by omega) h2
  refine ⟨(s, r), ?_⟩
  have hg : ¬ guardThrows N = true := by rw [C32_guard_partial]; omega
  unfold optimize
  rw [if_neg hg, h1]
  simp only [h3]

/-- **C92** (refuted) "Every configuration that is not rejected returns normally": with no generation the fronts
are read although there are none. -/
theorem C92_nsga2_no_generations_refuted [Field R] [LinearOrder R] (env : Env W I R) (N m : Nat) (w : W)
    (x : I) (hN : guardThrows N = false) : optimize env N 0 m w x = .ub := by
  unfold optimize
  rw [if_neg (by rw [hN]; decide)]
  rfl

/-- **C32** (refuted) An empty population is accepted, and the run then has undefined behaviour. -/
theorem C32_empty_population_refuted [Field R] [LinearOrder R] (env : Env W I R) (G m : Nat) (w : W)
    (x : I) : optimize env 0 G m w x = .ub := by
  have key : ∀ (G : Nat) (s : St W I R), s.fronts = [] → ∀ s', genLoop env 0 m G s = some s' →
      s'.fronts = [] := by
    intro G
    induction G with
    | zero => intro s h s' hs; cases hs; exact h
    | succ G ih =>
      intro s h s' hs
      rw [genLoop] at hs
      by_cases ht : s.terminate = true
      · rw [if_pos ht] at hs; cases hs; exact h
      · rw [if_neg ht, Option.bind_eq_some_iff] at hs
        obtain ⟨t, hg, hs⟩ := hs
        refine ih t ?_ s' hs
        simp only [generation, Option.bind_eq_bind, Option.bind_eq_some_iff, Option.some.injEq] at hg
        obtain ⟨b, hb, f, hf, rfl⟩ := hg
        cases hf
        rfl
  unfold optimize
  rw [if_neg (by decide)]
  cases hl : genLoop env 0 m G (start env 0 w x) with
  | none => rfl
  | some s =>
    have := key G _ rfl s hl
    simp only [finish, this]
    rfl

/-! ### C89: the returned value -/

theorem performance_le [AddMonoid R] [LinearOrder R] (maxVal : R) (m size : Nat) (objs : Nat → Nat → R)
    (i : Nat) (hi : i < size) : performance maxVal m size objs ≤ accu m (objs i) := by
  unfold performance
  have key : ∀ (l : List Nat) (a : R),
      (l.foldl (fun acc i => if accu m (objs i) < acc then accu m (objs i) else acc) a ≤ a) ∧
      ∀ i ∈ l, l.foldl (fun acc i => if accu m (objs i) < acc then accu m (objs i) else acc) a ≤
        accu m (objs i) := by
    intro l
    induction l with
    | nil => intro a; exact ⟨le_refl _, by simp⟩
    | cons j l ih =>
      intro a
      obtain ⟨h1, h2⟩ := ih (if accu m (objs j) < a then accu m (objs j) else a)
      rw [List.foldl_cons]
      have hj : (if accu m (objs j) < a then accu m (objs j) else a) ≤ a ∧
          (if accu m (objs j) < a then accu m (objs j) else a) ≤ accu m (objs j) := by
        split_ifs with h
        · exact ⟨h.le, le_refl _⟩
        · exact ⟨le_refl _, not_lt.1 h⟩
      refine ⟨h1.trans hj.1, ?_⟩
      intro i hi
      rcases List.mem_cons.1 hi with rfl | hi
      · exact h1.trans hj.2
      · exact h2 i hi
  exact (key _ _).2 i (List.mem_range.2 hi)

/-- **C89** (partial) The value returned by NSGA2 is never positive, whatever the objectives: the entries of the
unevaluated children are zero. -/
theorem C89_nsga2_value_partial [Field R] [LinearOrder R] {env : Env W I R}
    {N G m : Nat} (hN : 4 ≤ N) (hG : G ≠ 0) (hp : ∀ w, (env.pick w).2 < N)
    (hs : ∀ c l, (env.sort c l).Perm l) (w : W) (x : I) :
    ∃ s r, optimize env N G m w x = .ok (s, r) ∧ r.value ≤ 0 := by
  have hl : (start env N w x).pop.length = N :=
    (initialPopulation_spec (B := fun _ => True) (fun _ => trivial) x N w).1
  obtain ⟨s, h1, h2⟩ := genLoop_ok (m := m) (by omega) hp hs G (start env N w x) hl (.inr ⟨rfl, hG⟩)
  obtain ⟨f, r, -, h3, -, h4⟩ := finish_ok (env := env) (by omega) h2
  refine ⟨s, r, ?_, ?_⟩
  · have hg : ¬ guardThrows N = true := by rw [C32_guard_partial]; omega
    unfold optimize
    rw [if_neg hg, h1]
    simp only [h3]
  · rw [h4]
    refine (performance_le _ _ _ _ N h2.size).trans (le_of_eq ?_)
    unfold accu
    have : (List.range m).map (s.objs N) = (List.range m).map (fun _ => (0 : R)) :=
      List.map_congr_left fun k _ => h2.zero N (le_refl _) k
    rw [this]
    simp

/-! ### A concrete run -/

/-- Stable insertion by a comparison. -/
def insertBy {α : Type} (lt : α → α → Bool) (a : α) : List α → List α
  | [] => [a]
  | b :: l => if lt b a then b :: insertBy lt a l else a :: b :: l

def sortBy {α : Type} (lt : α → α → Bool) (l : List α) : List α := l.foldr (insertBy lt) []

theorem insertBy_perm {α : Type} (lt : α → α → Bool) (a : α) : ∀ l, (insertBy lt a l).Perm (a :: l) := by
  intro l
  induction l with
  | nil => exact List.Perm.refl _
  | cons b l ih =>
    unfold insertBy
    split
    · exact (ih.cons b).trans (List.Perm.swap a b l)
    · exact List.Perm.refl _

theorem sortBy_perm {α : Type} (lt : α → α → Bool) : ∀ l, (sortBy lt l).Perm l := by
  intro l
  induction l with
  | nil => exact List.Perm.refl _
  | cons b l ih => exact (insertBy_perm lt b _).trans (ih.cons b)

/-- One objective, the value itself (individuals are integers between -100 and 100). The initial population is
3, 2, 1, 5; crossover as in the library; mutation adds 10, 11, 12, .... -/
def demo : Env Nat Int ℚ where
  evaluate := fun w _ x => (w, x)
  initial := fun w _ => (w + 1, ([3, 2, 1, 5] : List Int).getD w 0)
  clamp := fun x => min (max x (-100)) 100
  pick := fun w => (w, w % 4)
  cross := fun w a _ => (w, a, a)
  perturb := fun w x => (w + 1, x + 2 * w)
  approx := fun a b => a == b
  sort := sortBy
  sortIdx := fun v l => sortBy (fun a b => decide (v a < v b)) l
  cbBegin := fun w _ => w
  cbGen := fun w _ _ _ => (w, false)
  maxVal := 1000

/-- Sizes and the values needed below, in one computation. -/
def demoView : Option (List Int × List ℚ × ℚ × List Int × Int) :=
  match optimize demo 4 1 1 0 0 with
  | .ok (s, r) => some (r.paretoSet, r.paretoFront.map (· 0), r.value, s.pop, r.iterate)
  | _ => none

theorem demoView_eq : demoView = some ([13], [1], 0, [1, 11, 13, 13], 13) := by decide +kernel

theorem demo_run : ∃ s r, optimize demo 4 1 1 0 0 = .ok (s, r) ∧ r.paretoSet = [13] ∧
    r.paretoFront.map (· 0) = [1] ∧ r.value = 0 ∧ s.pop = [1, 11, 13, 13] ∧ r.iterate = 13 := by
  have h := demoView_eq
  unfold demoView at h
  split at h
  · rename_i s r heq
    simp only [Option.some.injEq, Prod.mk.injEq] at h
    exact ⟨s, r, heq, h.1, h.2.1, h.2.2.1, h.2.2.2.1, h.2.2.2.2⟩
  · cases h

/-- **C34** (refuted) "The `i`-th element of `ParetoSet()` has the objectives in the `i`-th element of
`ParetoFront()`." In the run above the set is `{13}` and the front `{1}`. -/
theorem C34_pareto_set_refuted :
    ¬ ∀ (env : Env Nat Int ℚ) (F : Nat → Int → ℚ) (N G m w : Nat) (x : Int) (s : St Nat Int ℚ)
      (r : Result Int ℚ), (∀ w k x, (env.evaluate w k x).2 = F k x) → (∀ w, (env.pick w).2 < N) →
      (∀ c l, (env.sort c l).Perm l) → 4 ≤ N → N % 4 = 0 → optimize env N G m w x = .ok (s, r) →
      ∀ (i : Nat) (y : Int) (o : Nat → ℚ), r.paretoSet[i]? = some y → r.paretoFront[i]? = some o →
        ∀ k < m, o k = F k y := by
  intro h
  obtain ⟨s, r, hr, h1, h2, -⟩ := demo_run
  cases hf : r.paretoFront with
  | nil => rw [hf] at h2; simp at h2
  | cons o l =>
    have := h demo (fun _ x => x) 4 1 1 0 0 s r (fun _ _ _ => rfl)
      (fun w => Nat.mod_lt _ (by decide)) (fun c l => sortBy_perm c l) (by decide) (by decide) hr
      0 13 o (by rw [h1]; rfl) (by rw [hf]; rfl) 0 (by decide)
    rw [hf] at h2
    simp only [List.map_cons, List.cons.injEq] at h2
    rw [h2.1] at this
    norm_num at this

/-- **C89** (refuted) "The returned value is the objective sum of an individual evaluated by NSGA2." -/
theorem C89_nsga2_value_refuted :
    ¬ ∀ (env : Env Nat Int ℚ) (F : Nat → Int → ℚ) (N G m w : Nat) (x : Int) (s : St Nat Int ℚ)
      (r : Result Int ℚ), (∀ w k x, (env.evaluate w k x).2 = F k x) → (∀ w, (env.pick w).2 < N) →
      (∀ c l, (env.sort c l).Perm l) → 4 ≤ N → N % 4 = 0 → optimize env N G m w x = .ok (s, r) →
      ∃ y, r.value = accu m (fun k => F k y) := by
  intro h
  obtain ⟨s, r, hr, hv⟩ := C89_nsga2_value_partial (env := { demo with evaluate := fun w _ _ => (w, 1) })
    (N := 4) (G := 1) (m := 1) (by decide) (by decide) (fun w => Nat.mod_lt _ (by decide))
    (fun c l => sortBy_perm c l) 0 0
  obtain ⟨y, hy⟩ := h { demo with evaluate := fun w _ _ => (w, 1) } (fun _ _ => 1) 4 1 1 0 0 s r
    (fun _ _ _ => rfl) (fun w => Nat.mod_lt _ (by decide)) (fun c l => sortBy_perm c l) (by decide)
    (by decide) hr
  rw [hy] at hv
  simp [accu] at hv
  exact absurd hv (by norm_num)

/-- **C91** (refuted) "No survivor of a generation is dominated by an individual that was dropped." The children
are not evaluated before the selection; in the run above 11 and 13 replace 2 and 3. -/
theorem C91_nsga2_elitism_refuted :
    ¬ ∀ (env : Env Nat Int ℚ) (F : Nat → Int → ℚ) (N m w : Nat) (x : Int) (s : St Nat Int ℚ)
      (r : Result Int ℚ), (∀ w k x, (env.evaluate w k x).2 = F k x) → (∀ w, (env.pick w).2 < N) →
      (∀ c l, (env.sort c l).Perm l) → 4 ≤ N → N % 4 = 0 → optimize env N 1 m w x = .ok (s, r) →
      ∀ y ∈ (start env N w x).pop, y ∉ s.pop → ∀ z ∈ s.pop,
        dominates m (fun k => F k y) (fun k => F k z) = false := by
  intro h
  obtain ⟨s, r, hr, -, -, -, h4, -⟩ := demo_run
  have := h demo (fun _ x => x) 4 1 0 0 s r (fun _ _ _ => rfl)
    (fun w => Nat.mod_lt _ (by decide)) (fun c l => sortBy_perm c l) (by decide) (by decide) hr
    2 (by decide) (by rw [h4]; decide) 11 (by rw [h4]; decide)
  revert this
  decide +kernel

/-! ### C34: what `ParetoFront()` is -/

/-- The state after a generation, related to the population before it. -/
structure GenFrom [Field R] [LinearOrder R] (F : Nat → I → R) (N m : Nat) (prev : List I)
    (s : St W I R) : Prop where
  ok : GenOk N m s
  prevLen : prev.length = N
  objs : ∀ i y, prev[i]? = some y → ∀ k < m, s.objs i k = F k y

theorem generation_from [Field R] [LinearOrder R] {env : Env W I R} {F : Nat → I → R}
    (hF : ∀ w k x, (env.evaluate w k x).2 = F k x) {N m : Nat} (hN : 2 ≤ N)
    (hp : ∀ w, (env.pick w).2 < N) (hs : ∀ c l, (env.sort c l).Perm l) (s : St W I R)
    (hl : s.pop.length = N) :
    ∃ s', generation env N m s = some s' ∧ GenFrom F N m s.pop s' := by
  obtain ⟨s', hg, hok⟩ := generation_ok (m := m) hN hp hs s hl
  refine ⟨s', hg, hok, hl, ?_⟩
  simp only [generation, Option.bind_eq_bind, Option.bind_eq_some_iff, Option.some.injEq] at hg
  obtain ⟨b, hb, f, hf, rfl⟩ := hg
  intro i y hy k hk
  have hi := getElem?_lt hy
  have htake : (s.pop ++ b.2).take N = s.pop := by rw [← hl]; simp
  simp only [htake]
  rw [evaluateObjectives_values hF s.pop (fun i => s.pop.getD i y)
    (by intro i x h; rw [List.getD_eq_getElem?_getD, h]; rfl)]
  rw [if_pos ⟨by omega, by omega, hi⟩, List.getD_eq_getElem?_getD, hy]
  rfl

theorem genLoop_from [Field R] [LinearOrder R] {env : Env W I R} {F : Nat → I → R}
    (hF : ∀ w k x, (env.evaluate w k x).2 = F k x) {N m : Nat} (hN : 2 ≤ N)
    (hp : ∀ w, (env.pick w).2 < N) (hs : ∀ c l, (env.sort c l).Perm l) :
    ∀ (G : Nat) (s : St W I R), s.pop.length = N → s.pop ∈ s.history →
    ((∃ prev ∈ s.history, GenFrom F N m prev s) ∨ (s.terminate = false ∧ G ≠ 0)) →
    ∃ s', genLoop env N m G s = some s' ∧ ∃ prev ∈ s'.history, GenFrom F N m prev s' := by
  intro G
  induction G with
  | zero =>
    intro s hl hh h
    rcases h with h | ⟨-, h⟩
    · exact ⟨s, rfl, h⟩
    · exact absurd rfl h
  | succ G ih =>
    intro s hl hh h
    rw [genLoop]
    by_cases ht : s.terminate = true
    · rcases h with h | ⟨h, -⟩
      · exact ⟨s, by rw [if_pos ht], h⟩
      · rw [ht] at h; cases h
    · obtain ⟨t, hg, hok⟩ := generation_from (m := m) hF hN hp hs s hl
      have hmem : s.pop ∈ t.history ∧ t.pop ∈ t.history := by
        simp only [generation, Option.bind_eq_bind, Option.bind_eq_some_iff, Option.some.injEq] at hg
        obtain ⟨b, hb, f, hf, rfl⟩ := hg
        exact ⟨List.mem_append_left _ hh, List.mem_append_right _ (List.mem_singleton.2 rfl)⟩
      obtain ⟨s', h1, h2⟩ := ih t hok.ok.len hmem.2 (.inl ⟨_, hmem.1, hok⟩)
      exact ⟨s', by rw [if_neg ht, hg]; exact h1, h2⟩

/-- **C34** (partial) `ParetoFront()` lists the objectives of exactly those members of the last but one population
that no other member of that population dominates. -/
theorem C34_pareto_front_partial [Field R] [LinearOrder R] {env : Env W I R} {F : Nat → I → R}
    (hF : ∀ w k x, (env.evaluate w k x).2 = F k x) {N G m : Nat} (hN : 4 ≤ N) (hG : G ≠ 0)
    (hp : ∀ w, (env.pick w).2 < N) (hs : ∀ c l, (env.sort c l).Perm l) (w : W) (x : I) :
    ∃ s r, optimize env N G m w x = .ok (s, r) ∧ ∃ prev ∈ s.history, prev.length = N ∧
      ∃ idx : List Nat, idx.Nodup ∧
        (∀ i, i ∈ idx ↔ ∃ y, prev[i]? = some y ∧
          ∀ z ∈ prev, dominates m (fun k => F k z) (fun k => F k y) = false) ∧
        r.paretoFront.length = idx.length ∧
        ∀ (n i : Nat) (y : I) (o : Nat → R), idx[n]? = some i → prev[i]? = some y →
          r.paretoFront[n]? = some o → ∀ k < m, o k = F k y := by
  obtain ⟨hl, -⟩ := initialPopulation_spec (env := env) (B := fun _ => True) (fun _ => trivial) x N w
  obtain ⟨s, h1, prev, hprev, h2⟩ := genLoop_from (m := m) hF (by omega) hp hs G (start env N w x) hl
    (List.mem_singleton.2 rfl) (.inr ⟨rfl, hG⟩)
  obtain ⟨f, r, hf, h3, h4, -⟩ := finish_ok (env := env) (by omega) h2.ok
  have hg : ¬ guardThrows N = true := by rw [C32_guard_partial]; omega
  -- dominance between entries is dominance between the members
  have hdom : ∀ (i j : Nat) (y z : I), prev[i]? = some y → prev[j]? = some z →
      dominates m (s.objs i) (s.objs j) = dominates m (fun k => F k y) (fun k => F k z) := by
    intro i j y z hi hj
    rw [Bool.eq_iff_iff, C29_dominates_iff, C29_dominates_iff]
    have a := h2.objs i y hi
    have b := h2.objs j z hj
    constructor
    · rintro ⟨c, k, hk, d⟩
      refine ⟨fun k hk => ?_, k, hk, ?_⟩
      · rw [← a k hk, ← b k hk]; exact c k hk
      · rw [← a k hk, ← b k hk]; exact d
    · rintro ⟨c, k, hk, d⟩
      refine ⟨fun k hk => ?_, k, hk, ?_⟩
      · rw [a k hk, b k hk]; exact c k hk
      · rw [a k hk, b k hk]; exact d
  refine ⟨s, r, ?_, prev, hprev, h2.prevLen, f, ?_, ?_, ?_, ?_⟩
  · unfold optimize
    rw [if_neg hg, h1]
    simp only [h3]
  · have hnd : s.fronts.flatten.Nodup := h2.ok.rank.partition.nodup_iff.2 List.nodup_range
    exact (List.nodup_flatten.1 hnd).1 f (List.mem_of_getElem? hf)
  · intro i
    rw [h2.ok.rank.first f hf i]
    constructor
    · rintro ⟨hi, hd⟩
      refine ⟨prev[i]'(by rw [h2.prevLen]; exact hi), List.getElem?_eq_getElem _, ?_⟩
      intro z hz
      obtain ⟨j, hj⟩ := List.getElem?_of_mem hz
      rw [← hdom j i z _ hj (List.getElem?_eq_getElem (by rw [h2.prevLen]; exact hi))]
      exact hd j (by rw [← h2.prevLen]; exact getElem?_lt hj)
    · rintro ⟨y, hy, hd⟩
      refine ⟨by rw [← h2.prevLen]; exact getElem?_lt hy, ?_⟩
      intro j hj
      have hj' : prev[j]? = some (prev[j]'(by rw [h2.prevLen]; exact hj)) := List.getElem?_eq_getElem _
      show dominates m (s.objs j) (s.objs i) = false
      rw [hdom j i _ y hj' hy]
      exact hd _ (List.getElem_mem _)
  · rw [h4, List.length_map]
  · intro n i y o hn hy ho k hk
    rw [h4, List.getElem?_map, hn] at ho
    simp only [Option.map_some, Option.some.injEq] at ho
    rw [← ho]
    exact h2.objs i y hy k hk

end Ens.Moo
