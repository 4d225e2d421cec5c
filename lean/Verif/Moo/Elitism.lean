import Verif.Moo.Agemoea

/-
AGEMOEA: which members survive a generation (C199).
-/

namespace Ens.Moo.Agemoea

open Ens.Moo

variable {W I R : Type}

/-- The comparisons for which `std::sort` is specified: strict weak orders. -/
structure StrictWeak {α : Type} (c : α → α → Bool) : Prop where
  asymm : ∀ a b, c a b = true → c b a = false
  negTrans : ∀ a b d, c a b = false → c b d = false → c a d = false

/-- What `std::sort` promises. -/
structure Sorts {α : Type} (sort : (α → α → Bool) → List α → List α) : Prop where
  perm : ∀ c l, (sort c l).Perm l
  sorted : ∀ c l, StrictWeak c → (sort c l).Pairwise fun a b => c b a = false

theorem sortBy_sorts {α : Type} : Sorts (sortBy (α := α)) where
  perm := sortBy_perm
  sorted := by
    intro c l hc
    induction l with
    | nil => exact List.Pairwise.nil
    | cons a l ih =>
      have key : ∀ l : List α, l.Pairwise (fun a b => c b a = false) →
          (insertBy c a l).Pairwise fun a b => c b a = false := by
        intro l
        induction l with
        | nil => intro _; exact List.pairwise_singleton _ _
        | cons b l ih =>
          intro h
          obtain ⟨h1, h2⟩ := List.pairwise_cons.1 h
          rw [insertBy]
          by_cases hb : c b a = true
          · rw [if_pos hb, List.pairwise_cons]
            refine ⟨?_, ih h2⟩
            intro x hx
            rcases List.mem_cons.1 ((insertBy_perm c a l).mem_iff.1 hx) with rfl | hx
            · exact hc.asymm _ _ hb
            · exact h1 x hx
          · rw [if_neg hb, List.pairwise_cons]
            have hb : c b a = false := by simpa using hb
            refine ⟨?_, h⟩
            intro x hx
            rcases List.mem_cons.1 hx with rfl | hx
            · exact hb
            · exact hc.negTrans _ _ _ (h1 x hx) hb
      exact key _ ih

theorem crowding_weak [LinearOrder R] {α : Type} (ranks : Nat → Nat) (crowd : Nat → R) (f : α → Nat) :
    StrictWeak fun x y => crowdingOperator ranks crowd (f x) (f y) where
  asymm := by
    intro a b h
    simp only [crowdingOperator, Bool.or_eq_true, Bool.and_eq_true, decide_eq_true_eq, Bool.or_eq_false_iff,
      Bool.and_eq_false_iff, decide_eq_false_iff_not] at h ⊢
    rcases h with h | ⟨h, h'⟩
    · exact ⟨by omega, .inl (by omega)⟩
    · exact ⟨by omega, .inr (not_lt.2 h'.le)⟩
  negTrans := by
    intro a b d h1 h2
    simp only [crowdingOperator, Bool.or_eq_false_iff, Bool.and_eq_false_iff, decide_eq_false_iff_not] at h1 h2 ⊢
    obtain ⟨a1, a2⟩ := h1
    obtain ⟨b1, b2⟩ := h2
    refine ⟨by omega, ?_⟩
    by_cases he : ranks (f a) = ranks (f d)
    · right
      have e1 : ranks (f a) = ranks (f b) := by omega
      have e2 : ranks (f b) = ranks (f d) := by omega
      have a3 := a2.resolve_left (not_not.2 e1)
      have b3 := b2.resolve_left (not_not.2 e2)
      exact not_lt.2 ((not_lt.1 a3).trans (not_lt.1 b3))
    · exact .inl he

theorem lastIdx_spec {approx : I → I → Bool} (ha : ∀ a b, approx a b = true ↔ a = b) {pop : List I} {x : I}
    (hx : x ∈ pop) : pop[lastIdx approx pop x]? = some x := by
  have key : ∀ (l : List (I × Nat)) (acc : Nat), (∀ p ∈ l, pop[p.2]? = some p.1) →
      (pop[acc]? = some x ∨ ∃ p ∈ l, p.1 = x) →
      pop[l.foldl (fun acc p => if approx p.1 x then p.2 else acc) acc]? = some x := by
    intro l
    induction l with
    | nil =>
      intro acc _ h
      rcases h with h | ⟨p, hp, -⟩
      · exact h
      · cases hp
    | cons p l ih =>
      intro acc hl h
      rw [List.foldl_cons]
      refine ih _ (fun q hq => hl q (List.mem_cons_of_mem _ hq)) ?_
      by_cases hc : approx p.1 x = true
      · rw [if_pos hc, hl p (by simp), (ha _ _).1 hc]; exact .inl rfl
      · rw [if_neg hc]
        rcases h with h | ⟨q, hq, hqx⟩
        · exact .inl h
        · rcases List.mem_cons.1 hq with rfl | hq
          · exact absurd ((ha _ _).2 hqx) hc
          · exact .inr ⟨q, hq, hqx⟩
  refine key pop.zipIdx 0 ?_ (.inr ?_)
  · intro p hp
    exact List.mem_zipIdx_iff_getElem?.1 hp
  · obtain ⟨i, hi⟩ := List.mem_iff_getElem?.1 hx
    exact ⟨(x, i), List.mem_zipIdx_iff_getElem?.2 hi, rfl⟩

/-- Of the parents `prev` and the `children` the population `next` survives: it has as many members as before, and no survivor is
dominated by a dropped individual. -/
def Elitist [LinearOrder R] (F : Nat → I → R) (m : Nat) (prev children next : List I) : Prop :=
  ∃ dropped, (prev ++ children).Perm (next ++ dropped) ∧ next.length = prev.length ∧
    ∀ y ∈ next, ∀ z ∈ dropped, dominates m (fun k => F k z) (fun k => F k y) = false

theorem rank_lt {dom : Nat → Nat → Bool} {n : Nat} {fronts : List (List Nat)} {ranks : Nat → Nat}
    (h : IsParetoRanking dom n fronts ranks) {p q : Nat} (hp : p < n) (hq : q < n) (hd : dom p q = true) :
    ranks p < ranks q := by
  have get : ∀ {p}, p < n → ∃ (a : Nat) (f : List Nat), fronts[a]? = some f ∧ p ∈ f := by
    intro p hp
    obtain ⟨f, hf, hpf⟩ := List.mem_flatten.1 (h.partition.mem_iff.2 (List.mem_range.2 hp))
    obtain ⟨a, ha⟩ := List.mem_iff_getElem?.1 hf
    exact ⟨a, f, ha, hpf⟩
  obtain ⟨a, f, ha, hpf⟩ := get hp
  obtain ⟨b, g, hb, hqg⟩ := get hq
  rw [h.rank a f ha p hpf, h.rank b g hb q hqg]
  exact h.order a b f g ha hb p hpf q hqg hd

theorem generation_elitist [Field R] [LinearOrder R] {env : Env W I R} {F : Nat → I → R}
    (hF : ∀ w k x, (env.evaluate w k x).2 = F k x) (ha : ∀ a b, env.approx a b = true ↔ a = b)
    (hs : Sorts env.sort) {N m : Nat} {s s' : St W I R} (hl : s.pop.length = N)
    (hg : generation env N m s = some s') :
    ∃ b, breed env.toEnv N s.pop ((N + 1) / 2) s.w = some b ∧ Elitist F m s.pop b.2 s'.pop := by
  simp only [generation, Option.bind_eq_bind, Option.bind_eq_some_iff, Option.some.injEq] at hg
  obtain ⟨b, hb, f, hf, rfl⟩ := hg
  obtain ⟨hbl, -⟩ := breed_spec (B := fun _ => True) (fun _ => trivial) _ _ _ hb
  obtain ⟨fr, rk, hf', hrank⟩ := C30_pareto_fronts m (s.pop ++ b.2).length
    (evaluateObjectives env.evaluate (s.pop ++ b.2) m 0 (b.1, fun _ _ => 0)).2 s.ranks
  rw [hf] at hf'
  cases hf'
  have hsorted := hs.sorted (fun x y => crowdingOperator rk (env.score fr
      (evaluateObjectives env.evaluate (s.pop ++ b.2) m 0 (b.1, fun _ _ => 0)).2)
      (lastIdx env.approx (s.pop ++ b.2) x) (lastIdx env.approx (s.pop ++ b.2) y)) (s.pop ++ b.2)
    (crowding_weak _ _ _)
  have hperm := hs.perm (fun x y => crowdingOperator rk (env.score fr
      (evaluateObjectives env.evaluate (s.pop ++ b.2) m 0 (b.1, fun _ _ => 0)).2)
      (lastIdx env.approx (s.pop ++ b.2) x) (lastIdx env.approx (s.pop ++ b.2) y)) (s.pop ++ b.2)
  refine ⟨b, by rw [hl] at hb; exact hb, _, hperm.symm.trans (by rw [List.take_append_drop]), ?_, ?_⟩
  · rw [List.length_take, hperm.length_eq, List.length_append]
    omega
  · intro y hy z hz
    rw [← List.take_append_drop N (env.sort _ _), List.pairwise_append] at hsorted
    have hc := hsorted.2.2 y hy z hz
    have hym : y ∈ s.pop ++ b.2 := hperm.mem_iff.1 (List.mem_of_mem_take hy)
    have hzm : z ∈ s.pop ++ b.2 := hperm.mem_iff.1 (List.mem_of_mem_drop hz)
    have hyi := lastIdx_spec ha hym
    have hzi := lastIdx_spec ha hzm
    have hv := evaluateObjectives_values hF (s.pop ++ b.2) (fun i => (s.pop ++ b.2).getD i y)
      (by intro i x h; rw [List.getD_eq_getElem?_getD, h]; rfl) m 0 (b.1, fun _ _ => 0)
    by_contra hd
    have hd : dominates m (fun k => F k z) (fun k => F k y) = true := by simpa using hd
    have hd' : dominates m
        ((evaluateObjectives env.evaluate (s.pop ++ b.2) m 0 (b.1, fun _ _ => 0)).2
          (lastIdx env.approx (s.pop ++ b.2) z))
        ((evaluateObjectives env.evaluate (s.pop ++ b.2) m 0 (b.1, fun _ _ => 0)).2
          (lastIdx env.approx (s.pop ++ b.2) y)) = true := by
      have e : ∀ x, (s.pop ++ b.2)[lastIdx env.approx (s.pop ++ b.2) x]? = some x → ∀ k < m,
          (evaluateObjectives env.evaluate (s.pop ++ b.2) m 0 (b.1, fun _ _ => 0)).2
            (lastIdx env.approx (s.pop ++ b.2) x) k = F k x := by
        intro x hx k hk
        rw [hv, if_pos ⟨Nat.zero_le _, by omega, getElem?_lt hx⟩]
        simp only [List.getD_eq_getElem?_getD, hx, Option.getD_some]
      rw [C29_dominates_iff] at hd ⊢
      refine ⟨fun k hk => by rw [e z hzi k hk, e y hyi k hk]; exact hd.1 k hk, ?_⟩
      obtain ⟨k, hk, hlt⟩ := hd.2
      exact ⟨k, hk, by rw [e z hzi k hk, e y hyi k hk]; exact hlt⟩
    have := rank_lt hrank (getElem?_lt hzi) (getElem?_lt hyi) hd'
    simp only [crowdingOperator, Bool.or_eq_false_iff, decide_eq_false_iff_not] at hc
    exact hc.1 this

theorem genLoop_length [Field R] [LinearOrder R] {env : Env W I R} {F : Nat → I → R}
    (hF : ∀ w k x, (env.evaluate w k x).2 = F k x) (ha : ∀ a b, env.approx a b = true ↔ a = b)
    (hs : Sorts env.sort) {N m : Nat} : ∀ (G : Nat) (s s' : St W I R),
    genLoop env N m G s = some s' → s.pop.length = N → s'.pop.length = N := by
  intro G
  induction G with
  | zero => intro s s' h h1; cases h; exact h1
  | succ G ih =>
    intro s s' h h1
    rw [genLoop] at h
    by_cases ht : s.terminate = true
    · rw [if_pos ht] at h; cases h; exact h1
    · rw [if_neg ht, Option.bind_eq_some_iff] at h
      obtain ⟨t, ht, h⟩ := h
      obtain ⟨b, -, dropped, -, h4, -⟩ := generation_elitist hF ha hs h1 ht
      exact ih t s' h (h4.trans h1)

/-- **C199** (partial) If no two different individuals are taken for equal, no survivor of a generation of AGEMOEA is dominated by
an individual that was dropped: after any number of generations, of the parents and the children bred from them those with
the better rank survive, and the survival scores only decide within a front. Missing: individuals within `epsilon` of each
other, see the refutation. -/
theorem C199_elitism_partial [Field R] [LinearOrder R] {env : Env W I R} {F : Nat → I → R}
    (hF : ∀ w k x, (env.evaluate w k x).2 = F k x) (ha : ∀ a b, env.approx a b = true ↔ a = b)
    (hs : Sorts env.sort) {N G m : Nat} {w : W} {x : I} {s s' : St W I R}
    (h : genLoop env N m G (start env.toEnv N w x) = some s) (hg : generation env N m s = some s') :
    ∃ b, breed env.toEnv N s.pop ((N + 1) / 2) s.w = some b ∧ Elitist F m s.pop b.2 s'.pop :=
  generation_elitist hF ha hs (genLoop_length hF ha hs G _ _ h
    (initialPopulation_spec (env := env.toEnv) (B := fun _ => True) (fun _ => trivial) x N w).1) hg

/-- Best value of a population of scalars. -/
def IsBest [LinearOrder R] (F : I → R) (pop : List I) (b : R) : Prop := IsLeast {v | ∃ x ∈ pop, F x = v} b

/-- **C199** With a single objective the best value of the population never gets worse. -/
theorem C199_best_monotone [LinearOrder R] {F : Nat → I → R} {prev children next : List I}
    (h : Elitist F 1 prev children next)
    {b b' : R} (hb : IsBest (F 0) prev b) (hb' : IsBest (F 0) next b') : b' ≤ b := by
  obtain ⟨dropped, hp, -, hd⟩ := h
  obtain ⟨⟨x, hx, rfl⟩, -⟩ := hb
  rcases List.mem_append.1 (hp.mem_iff.1 (List.mem_append_left _ hx)) with h | h
  · exact hb'.2 ⟨x, h, rfl⟩
  · obtain ⟨⟨y, hy, rfl⟩, -⟩ := hb'
    by_contra hc
    have := hd y hy x h
    rw [Bool.eq_false_iff] at this
    refine this ((C29_dominates_iff _ _ _).2 ⟨?_, 0, by decide, not_le.1 hc⟩)
    intro k hk
    obtain rfl : k = 0 := by omega
    exact (not_le.1 hc).le

/-- Hypotheses of C199: the first generation of a run. -/
example : (∀ a b, demoOk.approx a b = true ↔ a = b) ∧ Sorts demoOk.sort ∧
    ((genLoop demoOk 4 1 0 (start demoOk.toEnv 4 0 0)).bind (generation demoOk 4 1)).isSome :=
  ⟨fun a b => beq_iff_eq, sortBy_sorts, by decide +kernel⟩

/-- Individuals at distance 1 are taken for equal. -/
def demoNear : Env Nat Int ℚ where
  toEnv := { Moo.demo with
    initial := fun w _ => (w + 1, ([10, 20, 30, 41] : List Int).getD w 0)
    perturb := fun w _ => (w + 1, 10 * w)
    approx := fun a b => decide (|a - b| ≤ 1) }
  norm := fun _ _ _ => 1
  score := fun _ _ _ => 0

/-- **C199** (refuted) "No survivor of a generation is dominated by a dropped individual": two individuals within `epsilon` of each
other share the rank of the last of them. Parents 10, 20, 30, 41 and children 40, 50, 60, 70: 41 survives, 40 is dropped. -/
theorem C199_elitism_refuted :
    ¬ ∀ (env : Env Nat Int ℚ) (F : Nat → Int → ℚ) (N G m w : Nat) (x : Int) (s s' : St Nat Int ℚ),
      (∀ w k x, (env.evaluate w k x).2 = F k x) → (∀ a b, env.approx a b = true ↔ |a - b| ≤ 1) → Sorts env.sort →
      4 ≤ N → N % 4 = 0 → genLoop env N m G (start env.toEnv N w x) = some s → generation env N m s = some s' →
      ∃ b, breed env.toEnv N s.pop ((N + 1) / 2) s.w = some b ∧ Elitist F m s.pop b.2 s'.pop := by
  intro h
  have hv : (generation demoNear 4 1 (start demoNear.toEnv 4 0 0)).map (·.pop) = some [10, 20, 30, 41] := by
    decide +kernel
  have hb : breed demoNear.toEnv 4 (start demoNear.toEnv 4 0 0).pop ((4 + 1) / 2) (start demoNear.toEnv 4 0 0).w =
      some (8, [40, 50, 60, 70]) := by decide +kernel
  have hp : (start demoNear.toEnv 4 0 0).pop = [10, 20, 30, 41] := by decide +kernel
  cases hg : generation demoNear 4 1 (start demoNear.toEnv 4 0 0) with
  | none => rw [hg] at hv; cases hv
  | some s' =>
    rw [hg, Option.map_some, Option.some.injEq] at hv
    obtain ⟨b, hb', dropped, hperm, -, hd⟩ := h demoNear (fun _ x => x) 4 0 1 0 0 _ s' (fun _ _ _ => rfl)
      (fun a b => decide_eq_true_iff) sortBy_sorts (by decide) (by decide) rfl hg
    rw [hb] at hb'
    cases hb'
    rw [hp, hv] at hperm
    have hm : (40 : Int) ∈ dropped := by
      have : (40 : Int) ∈ [10, 20, 30, 41] ++ dropped := hperm.mem_iff.1 (by decide)
      simpa using this
    have := hd 41 (by rw [hv]; decide) 40 hm
    revert this
    decide +kernel

end Ens.Moo.Agemoea
