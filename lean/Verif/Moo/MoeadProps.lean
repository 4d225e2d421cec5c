import Mathlib.Algebra.Order.Ring.Rat
import Verif.Moo.Moead

/-
MOEA/D-DE: C31, C36, C89, C93, C95, C96, C98.
-/

namespace Ens.Moo.Moead

open Ens.Moo

variable {W I R : Type}

/-! ### Invariant of the main loop -/

structure Inv [LinearOrder R] (F : Nat → I → R) (B : I → Prop) (maxVal : R) (N m : Nat) (s : St W I R) :
    Prop where
  lenP : s.pop.length = N
  lenF : s.fit.length = N
  fit : ∀ (i : Nat) (x : I) (f : Nat → R), s.pop[i]? = some x → s.fit[i]? = some f → ∀ k < m, f k = F k x
  sub : ∀ x ∈ s.pop, x ∈ s.seen
  box : ∀ x ∈ s.seen, B x
  le : ∀ x ∈ s.seen, ∀ k < m, s.ideal k ≤ F k x
  att : ∀ k < m, s.ideal k = maxVal ∨ ∃ x ∈ s.seen, s.ideal k = F k x
  hist : ∀ p ∈ s.history, p.1.length = N ∧ p.2.length = N ∧ (∀ x ∈ p.1, x ∈ s.seen) ∧
    ∀ (i : Nat) (x : I) (f : Nat → R), p.1[i]? = some x → p.2[i]? = some f → ∀ k < m, f k = F k x

theorem candidate_fit [Zero R] {evaluate : W → Nat → I → W × R} {F : Nat → I → R}
    (hF : ∀ w k x, (evaluate w k x).2 = F k x) (x : I) (m : Nat) (w : W) :
    ∀ k < m, (evaluateObjectives evaluate [x] m 0 (w, fun _ _ => 0)).2 0 k = F k x := by
  intro k hk
  rw [evaluateObjectives_values hF [x] (fun _ => x)
    (by intro i y h; cases i with
      | zero => simpa using h
      | succ i => simp at h)]
  rw [if_pos ⟨by omega, by omega, by simp⟩]

theorem subproblem_inv [Zero R] [LinearOrder R] {env : Env W I R} {F : Nat → I → R} {B : I → Prop}
    (hF : ∀ w k x, (env.evaluate w k x).2 = F k x) (hB : ∀ x, B (env.clamp x)) {N K maxReplace m : Nat}
    (hok : Ok env N) (hN : 2 ≤ N) (hK0 : 0 < K) (hK : K ≤ N - 1) {s : St W I R} {v : R}
    (hi : Inv F B v N m s) {sub : Nat} (hsub : sub < N) :
    ∃ s', subproblem env N K maxReplace m s sub = some s' ∧ Inv F B v N m s' ∧ s'.terminate = s.terminate ∧
      s'.history = s.history ∧
      (∀ i g, s'.fit[i]? = some g → ∃ f, s.fit[i]? = some f ∧
        (g = f ∨ env.apply i s'.ideal g < env.apply i s'.ideal f)) := by
  obtain ⟨w', r2, r3, hm, h2, h3, -⟩ := C97_mating_distinct hok hN hK0 hK sub (env.coin s.w).2 (env.coin s.w).1
  have lg1 : sub < s.pop.length := by rw [hi.lenP]; exact hsub
  have g1 : s.pop[sub]? = some s.pop[sub] := List.getElem?_eq_getElem lg1
  have lg2 : r2 < s.pop.length := by rw [hi.lenP]; exact h2
  have g2 : s.pop[r2]? = some s.pop[r2] := List.getElem?_eq_getElem lg2
  have lg3 : r3 < s.pop.length := by rw [hi.lenP]; exact h3
  have g3 : s.pop[r3]? = some s.pop[r3] := List.getElem?_eq_getElem lg3
  simp only [subproblem, hm, g1, g2, g3, Option.bind_eq_bind, Option.bind_some]
  generalize hd : env.make w' s.pop[sub] s.pop[r2] s.pop[r3] = d
  have hfit := candidate_fit hF (env.clamp d.2) m d.1
  generalize he : evaluateObjectives env.evaluate [env.clamp d.2] m 0 (d.1, fun _ _ => 0) = e at hfit ⊢
  obtain ⟨pop', fit', changed, hrep, hnd, -, hch, hun, -⟩ :=
    C37_replacement (maxReplace := maxReplace) (sub := sub) (fun a : R => lt_irrefl a) hok hK (env.coin s.w).2
      (fun k => min (s.ideal k) (e.2 0 k)) (env.clamp d.2) (e.2 0) s.pop s.fit hi.lenP hi.lenF e.1
  obtain ⟨q, -, hq, hq1, hq2, -⟩ :=
    replaceLoop_spec (fun a : R => lt_irrefl a) (b := (env.coin s.w).2)
      (ideal := fun k => min (s.ideal k) (e.2 0 k)) (cand := env.clamp d.2) (f := e.2 0)
      (maxReplace := maxReplace) (env := env) (sub := sub) (K := K) (N := N)
      (fun _ j hj => neighbours_lt hok hj) (env.shuffle e.1 (if (env.coin s.w).2 then K else N)).2 0
      (s.pop, s.fit)
      (by
        intro i hi
        have := List.mem_range.1 ((hok.shuffle e.1 _).mem_iff.1 hi)
        have := neighbours_length hok hK sub
        cases h : (env.coin s.w).2 <;> simp_all) hi.lenP hi.lenF (Nat.zero_le _)
  rw [hrep] at hq
  cases hq
  rw [hrep]
  simp only [Option.bind_some]
  have hmem : ∀ x ∈ pop', x = env.clamp d.2 ∨ x ∈ s.pop := by
    intro x hx
    obtain ⟨i, hix⟩ := List.mem_iff_getElem?.1 hx
    by_cases hc : i ∈ changed
    · obtain ⟨-, -, a, -⟩ := hch i hc
      rw [hix] at a; cases a; exact Or.inl rfl
    · rw [(hun i hc).1] at hix
      exact Or.inr (List.mem_of_getElem? hix)
  refine ⟨_, rfl, ⟨hq1, hq2, ?_, ?_, ?_, ?_, ?_, ?_⟩, rfl, rfl, ?_⟩
  · intro i x f hx hf k hk
    dsimp only at hx hf
    by_cases hc : i ∈ changed
    · obtain ⟨-, -, a, b, -⟩ := hch i hc
      rw [hx] at a; rw [hf] at b; cases a; cases b
      exact hfit k hk
    · obtain ⟨a, b⟩ := hun i hc
      rw [hx] at a; rw [hf] at b
      exact hi.fit i x f a.symm b.symm k hk
  · intro x hx
    rcases hmem x hx with rfl | hx
    · simp
    · simp [hi.sub x hx]
  · intro x hx
    rcases List.mem_append.1 hx with hx | hx
    · exact hi.box x hx
    · rw [List.mem_singleton] at hx; subst hx; exact hB _
  · intro x hx k hk
    rcases List.mem_append.1 hx with hx | hx
    · exact le_trans (min_le_left _ _) (hi.le x hx k hk)
    · rw [List.mem_singleton] at hx; subst hx
      rw [← hfit k hk]; exact min_le_right _ _
  · intro k hk
    dsimp only
    rcases le_total (s.ideal k) (e.2 0 k) with h | h
    · rw [min_eq_left h]
      rcases hi.att k hk with h | ⟨x, hx, h⟩
      · exact Or.inl h
      · exact Or.inr ⟨x, by simp [hx], h⟩
    · rw [min_eq_right h]
      exact Or.inr ⟨env.clamp d.2, by simp, hfit k hk⟩
  · intro p hp
    obtain ⟨a, b, c, d⟩ := hi.hist p hp
    exact ⟨a, b, fun x hx => by simp [c x hx], d⟩
  · intro i g hg
    dsimp only at hg ⊢
    by_cases hc : i ∈ changed
    · obtain ⟨-, -, -, b, old, ho, hlt⟩ := hch i hc
      rw [hg] at b; cases b
      exact ⟨old, ho, Or.inr hlt⟩
    · rw [(hun i hc).2] at hg
      exact ⟨g, hg, Or.inl rfl⟩

/-- `Prog s s'`: for an ideal-independent decomposition no subproblem got worse. -/
def Prog [LinearOrder R] (env : Env W I R) (s s' : St W I R) : Prop :=
  (∀ i z z' f, env.apply i z f = env.apply i z' f) →
    ∀ i f g z, s.fit[i]? = some f → s'.fit[i]? = some g → env.apply i z g ≤ env.apply i z f

theorem foldlM_inv [Zero R] [LinearOrder R] {env : Env W I R} {F : Nat → I → R} {B : I → Prop}
    (hF : ∀ w k x, (env.evaluate w k x).2 = F k x) (hB : ∀ x, B (env.clamp x)) {N K maxReplace m : Nat}
    (hok : Ok env N) (hN : 2 ≤ N) (hK0 : 0 < K) (hK : K ≤ N - 1) {v : R} :
    ∀ (l : List Nat) (s : St W I R), (∀ i ∈ l, i < N) → Inv F B v N m s →
    ∃ s', l.foldlM (subproblem env N K maxReplace m) s = some s' ∧ Inv F B v N m s' ∧
      s'.terminate = s.terminate ∧ s'.history = s.history ∧ Prog env s s' := by
  intro l
  induction l with
  | nil =>
    intro s _ hi
    exact ⟨s, rfl, hi, rfl, rfl, by
      intro _ i f g z hf hg; rw [hf] at hg; cases hg; exact le_refl _⟩
  | cons a l ih =>
    intro s hl hi
    obtain ⟨t, ht, hit, ht1, ht2, ht3⟩ := subproblem_inv hF hB (maxReplace := maxReplace) hok hN hK0 hK hi
      (hl a (by simp))
    obtain ⟨s', hs', his, h1, h2, h3⟩ := ih t (fun i hi => hl i (by simp [hi])) hit
    refine ⟨s', ?_, his, h1.trans ht1, h2.trans ht2, ?_⟩
    · rw [List.foldlM_cons, ht]; exact hs'
    · intro hind i f g z hf hg
      have hit : i < t.fit.length := by
        rw [hit.lenF, ← his.lenF]; exact getElem?_lt hg
      have hge : t.fit[i]? = some t.fit[i] := List.getElem?_eq_getElem hit
      obtain ⟨f', hf', hlt⟩ := ht3 i _ hge
      rw [hf] at hf'; cases hf'
      refine le_trans (h3 hind i _ g z hge hg) ?_
      rcases hlt with h | h
      · rw [h]
      · rw [hind i z t.ideal, hind i z t.ideal f]; exact h.le

theorem generation_inv [Zero R] [LinearOrder R] {env : Env W I R} {F : Nat → I → R} {B : I → Prop}
    (hF : ∀ w k x, (env.evaluate w k x).2 = F k x) (hB : ∀ x, B (env.clamp x)) {N K maxReplace m : Nat}
    (hok : Ok env N) (hN : 2 ≤ N) (hK0 : 0 < K) (hK : K ≤ N - 1) {v : R} {s : St W I R}
    (hi : Inv F B v N m s) :
    ∃ s', generation env N K maxReplace m s = some s' ∧ Inv F B v N m s' ∧ Prog env s s' := by
  obtain ⟨t, ht, hit, -, -, hp⟩ := foldlM_inv hF hB (maxReplace := maxReplace) hok hN hK0 hK
    (env.shuffle s.w N).2 { s with w := (env.shuffle s.w N).1 }
    (fun i h => List.mem_range.1 ((hok.shuffle _ _).mem_iff.1 h))
    ⟨hi.lenP, hi.lenF, hi.fit, hi.sub, hi.box, hi.le, hi.att, hi.hist⟩
  simp only [generation, ht, Option.bind_eq_bind, Option.bind_some]
  refine ⟨_, rfl, ⟨hit.lenP, hit.lenF, hit.fit, hit.sub, hit.box, hit.le, hit.att, ?_⟩, hp⟩
  intro p hp
  rcases List.mem_append.1 hp with hp | hp
  · exact hit.hist p hp
  · rw [List.mem_singleton] at hp; subst hp
    exact ⟨hit.lenP, hit.lenF, hit.sub, hit.fit⟩

theorem genLoop_inv [Zero R] [LinearOrder R] {env : Env W I R} {F : Nat → I → R} {B : I → Prop}
    (hF : ∀ w k x, (env.evaluate w k x).2 = F k x) (hB : ∀ x, B (env.clamp x)) {N K maxReplace m : Nat}
    (hok : Ok env N) (hN : 2 ≤ N) (hK0 : 0 < K) (hK : K ≤ N - 1) {v : R} :
    ∀ (G : Nat) (s : St W I R), Inv F B v N m s →
    ∃ s', genLoop env N K maxReplace m G s = some s' ∧ Inv F B v N m s' ∧ Prog env s s' := by
  intro G
  induction G with
  | zero =>
    intro s hi
    exact ⟨s, rfl, hi, by intro _ i f g z hf hg; rw [hf] at hg; cases hg; exact le_refl _⟩
  | succ G ih =>
    intro s hi
    rw [genLoop]
    by_cases ht : s.terminate = true
    · rw [if_pos ht]
      exact ⟨s, rfl, hi, by intro _ i f g z hf hg; rw [hf] at hg; cases hg; exact le_refl _⟩
    · rw [if_neg ht]
      obtain ⟨t, ht, hit, hp⟩ := generation_inv hF hB (maxReplace := maxReplace) hok hN hK0 hK hi
      obtain ⟨s', hs', his, hp'⟩ := ih t hit
      refine ⟨s', by rw [ht]; exact hs', his, ?_⟩
      intro hind i f g z hf hg
      have hit : i < t.fit.length := by
        rw [hit.lenF, ← his.lenF]; exact getElem?_lt hg
      have hge : t.fit[i]? = some t.fit[i] := List.getElem?_eq_getElem hit
      exact le_trans (hp' hind i _ g z hge hg) (hp hind i f _ z hf hge)

theorem initialPopulation_box {env : Env W I R} {B : I → Prop} (hB : ∀ x, B (env.clamp x)) (x : I) :
    ∀ (n : Nat) (w : W), (initialPopulation env x n w).2.length = n ∧
      ∀ y ∈ (initialPopulation env x n w).2, B y := by
  intro n
  induction n with
  | zero => intro w; simp [initialPopulation]
  | succ n ih =>
    intro w
    obtain ⟨h1, h2⟩ := ih (env.initial w x).1
    refine ⟨by simp [initialPopulation, h1], ?_⟩
    intro y hy
    simp only [initialPopulation, List.mem_cons] at hy
    rcases hy with rfl | hy
    · exact hB _
    · exact h2 y hy

theorem fold_min [LinearOrder R] : ∀ (l : List (Nat → R)) (a : Nat → R) (k : Nat),
    (l.foldl (fun acc f k => min (acc k) (f k)) a) k ≤ a k ∧
    (∀ f ∈ l, (l.foldl (fun acc f k => min (acc k) (f k)) a) k ≤ f k) ∧
    ((l.foldl (fun acc f k => min (acc k) (f k)) a) k = a k ∨
      ∃ f ∈ l, (l.foldl (fun acc f k => min (acc k) (f k)) a) k = f k) := by
  intro l
  induction l with
  | nil => intro a k; simp
  | cons b l ih =>
    intro a k
    rw [List.foldl_cons]
    obtain ⟨h1, h2, h3⟩ := ih (fun k => min (a k) (b k)) k
    refine ⟨le_trans h1 (min_le_left _ _), ?_, ?_⟩
    · intro f hf
      rcases List.mem_cons.1 hf with rfl | hf
      · exact le_trans h1 (min_le_right _ _)
      · exact h2 f hf
    · rcases h3 with h3 | ⟨f, hf, h3⟩
      · rcases le_total (a k) (b k) with h | h
        · left; rw [h3]; exact min_eq_left h
        · right; exact ⟨b, by simp, by rw [h3]; exact min_eq_right h⟩
      · right; exact ⟨f, by simp [hf], h3⟩

theorem start_inv [Zero R] [LinearOrder R] {env : Env W I R} {F : Nat → I → R} {B : I → Prop}
    (hF : ∀ w k x, (env.evaluate w k x).2 = F k x) (hB : ∀ x, B (env.clamp x)) (N m : Nat) (w : W) (x : I) :
    Inv F B env.maxVal N m (start env N m w x) := by
  obtain ⟨h1, h2⟩ := initialPopulation_box hB x N w
  have hval := evaluateObjectives_values hF (initialPopulation env x N w).2
    (fun i => (initialPopulation env x N w).2.getD i x)
    (by intro i y h; rw [List.getD_eq_getElem?_getD, h]; rfl) m 0
    ((initialPopulation env x N w).1, fun _ _ => 0)
  have hfit : ∀ (i : Nat) (y : I) (f : Nat → R), (start env N m w x).pop[i]? = some y →
      (start env N m w x).fit[i]? = some f → ∀ k < m, f k = F k y := by
    intro i y f hy hf k hk
    have hy : (initialPopulation env x N w).2[i]? = some y := hy
    have hi := getElem?_lt hy
    simp only [start, List.getElem?_map, List.getElem?_range (show i < N by omega), Option.map_some,
      Option.some.injEq] at hf
    rw [← hf, hval i k, if_pos ⟨by omega, by omega, hi⟩, List.getD_eq_getElem?_getD, hy]
    rfl
  have hl : (start env N m w x).fit.length = N := by simp [start]
  have hlp : (start env N m w x).pop.length = N := h1
  refine ⟨h1, hl, hfit, fun x hx => hx, h2, ?_, ?_, by simp [start]⟩
  · intro y hy k hk
    obtain ⟨i, hi⟩ := List.mem_iff_getElem?.1 (show y ∈ (start env N m w x).pop from hy)
    have hi' : i < (start env N m w x).fit.length := by
      rw [hl, ← hlp]; exact getElem?_lt hi
    have := hfit i y _ hi (List.getElem?_eq_getElem hi') k hk
    rw [← this]
    exact (fold_min _ _ k).2.1 _ (List.getElem_mem hi')
  · intro k hk
    rcases (fold_min (start env N m w x).fit (fun _ => env.maxVal) k).2.2 with h | ⟨f, hf, h⟩
    · exact Or.inl h
    · obtain ⟨i, hi⟩ := List.mem_iff_getElem?.1 hf
      have hi' : i < (start env N m w x).pop.length := by
        rw [hlp, ← hl]; exact getElem?_lt hi
      refine Or.inr ⟨(start env N m w x).pop[i], List.getElem_mem hi', ?_⟩
      rw [← hfit i _ f (List.getElem?_eq_getElem hi') hi k hk]
      exact h

/-! ### C36 -/

/-- **C36** After any number of generations each component of the ideal point is the smallest value of that
objective over the initial population and all candidates evaluated. -/
theorem C36_ideal_point [Zero R] [LinearOrder R] {env : Env W I R} {F : Nat → I → R}
    (hF : ∀ w k x, (env.evaluate w k x).2 = F k x) {N K m : Nat} (maxReplace : Nat) (hok : Ok env N) (hN : 3 ≤ N)
    (hK0 : 2 ≤ K) (hK : K ≤ N - 1) (hmax : ∀ k x, F k x ≤ env.maxVal) (G : Nat) (w : W) (x : I) :
    ∃ s, genLoop env N K maxReplace m G (start env N m w x) = some s ∧
      (∀ y ∈ (initialPopulation env x N w).2, y ∈ s.seen) ∧
      ∀ k < m, IsLeast {v | ∃ y ∈ s.seen, v = F k y} (s.ideal k) := by
  have hseen : ∀ (G : Nat) (s s' : St W I R), genLoop env N K maxReplace m G s = some s' →
      ∀ y ∈ s.seen, y ∈ s'.seen := by
    have hsub : ∀ (l : List Nat) (s s' : St W I R),
        l.foldlM (subproblem env N K maxReplace m) s = some s' → ∀ y ∈ s.seen, y ∈ s'.seen := by
      intro l
      induction l with
      | nil => intro s s' h y hy; cases h; exact hy
      | cons a l ih =>
        intro s s' h y hy
        rw [List.foldlM_cons, Option.bind_eq_bind, Option.bind_eq_some_iff] at h
        obtain ⟨t, ht, h⟩ := h
        refine ih t s' h y ?_
        simp only [subproblem, Option.bind_eq_bind, Option.bind_eq_some_iff, Option.some.injEq] at ht
        obtain ⟨_, _, _, _, _, _, _, _, _, _, rfl⟩ := ht
        simp [hy]
    intro G
    induction G with
    | zero => intro s s' h y hy; cases h; exact hy
    | succ G ih =>
      intro s s' h y hy
      rw [genLoop] at h
      by_cases ht : s.terminate = true
      · rw [if_pos ht] at h; cases h; exact hy
      · rw [if_neg ht, Option.bind_eq_some_iff] at h
        obtain ⟨t, ht, h⟩ := h
        refine ih t s' h y ?_
        simp only [generation, Option.bind_eq_bind, Option.bind_eq_some_iff, Option.some.injEq] at ht
        obtain ⟨u, hu, rfl⟩ := ht
        exact hsub _ { s with w := (env.shuffle s.w N).1 } u hu y hy
  obtain ⟨s, hs, hi, -⟩ := genLoop_inv hF (B := fun _ => True) (fun _ => trivial) (maxReplace := maxReplace)
    (m := m) hok (by omega) (by omega) hK G (start env N m w x)
    (start_inv hF (B := fun _ => True) (fun _ => trivial) N m w x)
  refine ⟨s, hs, hseen G _ _ hs, ?_⟩
  intro k hk
  have hlb : ∀ y ∈ s.seen, s.ideal k ≤ F k y := fun y hy => hi.le y hy k hk
  refine ⟨?_, ?_⟩
  · rcases hi.att k hk with h | ⟨y, hy, h⟩
    · have h0 : 0 < s.pop.length := by rw [hi.lenP]; omega
      refine ⟨s.pop[0], hi.sub _ (List.getElem_mem h0), ?_⟩
      exact le_antisymm (hlb _ (hi.sub _ (List.getElem_mem h0))) (h ▸ hmax k _)
    · exact ⟨y, hy, h⟩
  · rintro v ⟨y, hy, rfl⟩
    exact hlb y hy

/-! ### Results of `Optimize` -/

theorem performance_spec [AddMonoid R] [LinearOrder R] (m : Nat) (fit : List (Nat → R)) :
    ∀ (l : List Nat) (acc : R), (∀ i ∈ l, i < fit.length) → ∃ v, performance m fit l acc = some v ∧ v ≤ acc ∧
      (∀ i ∈ l, ∀ f, fit[i]? = some f → v ≤ accu m f) ∧
      (v = acc ∨ ∃ i ∈ l, ∃ f, fit[i]? = some f ∧ v = accu m f) := by
  intro l
  induction l with
  | nil => intro acc _; exact ⟨acc, rfl, le_refl _, by simp, Or.inl rfl⟩
  | cons i l ih =>
    intro acc hl
    have hi : i < fit.length := hl i (by simp)
    have hg : fit[i]? = some fit[i] := List.getElem?_eq_getElem hi
    obtain ⟨v, hv, h1, h2, h3⟩ := ih (if accu m fit[i] < acc then accu m fit[i] else acc)
      (fun j hj => hl j (by simp [hj]))
    have hle : (if accu m fit[i] < acc then accu m fit[i] else acc) ≤ acc ∧
        (if accu m fit[i] < acc then accu m fit[i] else acc) ≤ accu m fit[i] := by
      split_ifs with h
      · exact ⟨h.le, le_refl _⟩
      · exact ⟨le_refl _, not_lt.1 h⟩
    refine ⟨v, ?_, h1.trans hle.1, ?_, ?_⟩
    · rw [performance, hg]; exact hv
    · intro j hj f hf
      rcases List.mem_cons.1 hj with rfl | hj
      · rw [hg] at hf; cases hf; exact h1.trans hle.2
      · exact h2 j hj f hf
    · rcases h3 with h3 | ⟨j, hj, f, hf, h3⟩
      · by_cases h : accu m fit[i] < acc
        · rw [if_pos h] at h3; exact Or.inr ⟨i, by simp, _, hg, h3⟩
        · rw [if_neg h] at h3; exact Or.inl h3
      · exact Or.inr ⟨j, by simp [hj], f, hf, h3⟩

theorem performance_ub [AddMonoid R] [LinearOrder R] (m : Nat) (fit : List (Nat → R)) :
    ∀ (l : List Nat) (acc : R), (∃ i ∈ l, fit.length ≤ i) → performance m fit l acc = none := by
  intro l
  induction l with
  | nil => rintro acc ⟨i, hi, -⟩; cases hi
  | cons i l ih =>
    rintro acc ⟨j, hj, hlen⟩
    rw [performance]
    rcases List.mem_cons.1 hj with rfl | hj
    · rw [List.getElem?_eq_none hlen]; rfl
    · cases fit[i]? with
      | none => rfl
      | some f => exact ih _ ⟨j, hj, hlen⟩

/-- **C95** For an accepted configuration with at least as many members as objectives, MOEA/D returns; the Pareto set
and front have `populationSize` entries, the `i`-th entry of the front holds the objectives of the `i`-th element of
the set, and the final iterate is the first element of the set. -/
theorem C95_moead_set_and_front [AddMonoid R] [LinearOrder R] {env : Env W I R} {F : Nat → I → R}
    (hF : ∀ w k x, (env.evaluate w k x).2 = F k x) {N K m : Nat} (maxReplace G : Nat) (hok : Ok env N)
    (hN : 3 ≤ N) (hK0 : 2 ≤ K) (hK : K ≤ N - 1) (hm : m ≤ N) (w : W) (x : I) :
    ∃ s r, optimize env N K maxReplace G m w x = .ok (s, r) ∧
      r.paretoSet.length = N ∧ r.paretoFront.length = N ∧
      (∀ (i : Nat) (y : I) (f : Nat → R), r.paretoSet[i]? = some y → r.paretoFront[i]? = some f →
        ∀ k < m, f k = F k y) ∧
      r.paretoSet[0]? = some r.iterate := by
  obtain ⟨s, hs, hi, -⟩ := genLoop_inv hF (B := fun _ => True) (fun _ => trivial) (maxReplace := maxReplace)
    (m := m) hok (by omega) (by omega) hK G (start env N m w x)
    (start_inv hF (B := fun _ => True) (fun _ => trivial) N m w x)
  have h0 : 0 < s.pop.length := by rw [hi.lenP]; omega
  obtain ⟨v, hv, -⟩ := performance_spec m s.fit (List.range m) env.maxVal
    (by intro i h; rw [hi.lenF]; have := List.mem_range.1 h; omega)
  have hfin : finish env m s = some ⟨s.pop, s.fit, s.pop[0], v⟩ := by
    simp only [finish, List.head?_eq_getElem?, List.getElem?_eq_getElem h0, hv, Option.bind_eq_bind,
      Option.bind_some]
  refine ⟨{ s with w := env.cbEnd s.w s.pop[0] }, ⟨s.pop, s.fit, s.pop[0], v⟩, ?_, hi.lenP, hi.lenF, hi.fit,
    List.getElem?_eq_getElem h0⟩
  unfold optimize
  rw [if_neg (by omega), if_neg (by omega), if_neg (by omega), hs]
  simp only [hfin]

/-- **C89** (partial) The value MOEA/D returns is the smallest objective sum among the first `numObjectives` members of
the final population (not over the whole population); with more objectives than members the last loop reads out
of bounds. -/
theorem C89_moead_value_partial [AddMonoid R] [LinearOrder R] {env : Env W I R} {F : Nat → I → R}
    (hF : ∀ w k x, (env.evaluate w k x).2 = F k x) {N K m : Nat} (maxReplace G : Nat) (hok : Ok env N)
    (hN : 3 ≤ N) (hK0 : 2 ≤ K) (hK : K ≤ N - 1) (w : W) (x : I) :
    (N < m → optimize env N K maxReplace G m w x = .ub) ∧
    ∀ s r, optimize env N K maxReplace G m w x = .ok (s, r) → m ≤ N ∧
      (∀ i < m, ∀ f, r.paretoFront[i]? = some f → r.value ≤ accu m f) ∧
      (r.value = env.maxVal ∨ ∃ i < m, ∃ f, r.paretoFront[i]? = some f ∧ r.value = accu m f) := by
  obtain ⟨s, hs, hi, -⟩ := genLoop_inv hF (B := fun _ => True) (fun _ => trivial) (maxReplace := maxReplace)
    (m := m) hok (by omega) (by omega) hK G (start env N m w x)
    (start_inv hF (B := fun _ => True) (fun _ => trivial) N m w x)
  have h0 : 0 < s.pop.length := by rw [hi.lenP]; omega
  have hub : N < m → optimize env N K maxReplace G m w x = .ub := by
    intro hlt
    have : finish env m s = none := by
      simp only [finish, List.head?_eq_getElem?, List.getElem?_eq_getElem h0, Option.bind_eq_bind,
        Option.bind_some]
      rw [performance_ub m s.fit _ _ ⟨N, List.mem_range.2 hlt, hi.lenF.le⟩]
      rfl
    unfold optimize
    rw [if_neg (by omega), if_neg (by omega), if_neg (by omega), hs]
    simp only [this]
  refine ⟨hub, ?_⟩
  intro s' r h
  have hm : m ≤ N := by
    by_contra hc
    rw [hub (by omega)] at h; cases h
  obtain ⟨v, hv, -, h2, h3⟩ := performance_spec m s.fit (List.range m) env.maxVal
    (by intro i h; rw [hi.lenF]; have := List.mem_range.1 h; omega)
  have hfin : finish env m s = some ⟨s.pop, s.fit, s.pop[0], v⟩ := by
    simp only [finish, List.head?_eq_getElem?, List.getElem?_eq_getElem h0, hv, Option.bind_eq_bind,
      Option.bind_some]
  unfold optimize at h
  rw [if_neg (by omega), if_neg (by omega), if_neg (by omega), hs] at h
  simp only [hfin, Outcome.ok.injEq, Prod.mk.injEq] at h
  obtain ⟨-, rfl⟩ := h
  refine ⟨hm, fun i hi => h2 i (List.mem_range.2 hi), ?_⟩
  rcases h3 with h3 | ⟨i, hi, f, hf, h3⟩
  · exact Or.inl h3
  · exact Or.inr ⟨i, List.mem_range.1 hi, f, hf, h3⟩

/-- **C31** In MOEA/D every individual ever evaluated, every member of every generation's population, every element of
the Pareto set and the final iterate lie within the bounds. -/
theorem C31_moead_in_bounds {D : Type} [LinearOrder D] [AddMonoid R] [LinearOrder R] {env : Env W (Nat → D) R}
    {F : Nat → (Nat → D) → R} (hF : ∀ w k x, (env.evaluate w k x).2 = F k x) {lo hi : Nat → D} {d : Nat}
    (hlh : ∀ i < d, lo i ≤ hi i) (hc : env.clamp = clampBox lo hi) {N K m : Nat} (maxReplace G : Nat)
    (hok : Ok env N) {w : W} {x : Nat → D} {s : St W (Nat → D) R} {r : Result (Nat → D) R}
    (h : optimize env N K maxReplace G m w x = .ok (s, r)) :
    (∀ y ∈ s.seen, ∀ i < d, lo i ≤ y i ∧ y i ≤ hi i) ∧
    (∀ p ∈ s.history, ∀ y ∈ p.1, ∀ i < d, lo i ≤ y i ∧ y i ≤ hi i) ∧
    (∀ y ∈ r.paretoSet, ∀ i < d, lo i ≤ y i ∧ y i ≤ hi i) ∧
    ∀ i < d, lo i ≤ r.iterate i ∧ r.iterate i ≤ hi i := by
  have hB : ∀ x, (fun y : Nat → D => ∀ i < d, lo i ≤ y i ∧ y i ≤ hi i) (env.clamp x) := by
    intro x; rw [hc]; exact clampBox_mem lo hi hlh x
  unfold optimize at h
  by_cases h1 : N < 3
  · rw [if_pos h1] at h; cases h
  by_cases h2 : K < 2
  · rw [if_neg h1, if_pos h2] at h; cases h
  by_cases h3 : N - 1 < K
  · rw [if_neg h1, if_neg h2, if_pos h3] at h; cases h
  rw [if_neg h1, if_neg h2, if_neg h3] at h
  obtain ⟨t, ht, hi, -⟩ := genLoop_inv hF (B := fun y : Nat → D => ∀ i < d, lo i ≤ y i ∧ y i ≤ hi i) hB
    (maxReplace := maxReplace) (m := m) hok (by omega) (by omega) (not_lt.1 h3) G (start env N m w x)
    (start_inv hF hB N m w x)
  rw [ht] at h
  cases hfin : finish env m t with
  | none => simp only [hfin] at h; cases h
  | some r' =>
    simp only [hfin, Outcome.ok.injEq, Prod.mk.injEq] at h
    obtain ⟨rfl, rfl⟩ := h
    simp only [finish, Option.bind_eq_bind, Option.bind_eq_some_iff, Option.some.injEq] at hfin
    obtain ⟨y, hy, v, -, rfl⟩ := hfin
    refine ⟨hi.box, fun p hp y hy => hi.box y ((hi.hist p hp).2.2.1 y hy), fun y hy => hi.box y (hi.sub y hy), ?_⟩
    exact hi.box y (hi.sub y (List.mem_of_mem_head? hy))

/-! ### C96 -/

/-- `WeightedAverage::Apply` (weighted_decomposition.hpp:50-56). -/
def weightedAverage [Mul R] [AddMonoid R] (m : Nat) (weights : Nat → Nat → R) (i : Nat) (_ideal f : Nat → R) : R :=
  accu m fun k => weights i k * f k

/-- **C96** With the weighted-average decomposition the value of every subproblem after any number of generations is
at most its value for the initial population. -/
theorem C96_weighted_monotone [Mul R] [AddMonoid R] [LinearOrder R] {env : Env W I R} {F : Nat → I → R}
    (hF : ∀ w k x, (env.evaluate w k x).2 = F k x) {N K m : Nat} (maxReplace G : Nat) (hok : Ok env N)
    (hN : 3 ≤ N) (hK0 : 2 ≤ K) (hK : K ≤ N - 1) (weights : Nat → Nat → R)
    (ha : env.apply = weightedAverage m weights) (w : W) (x : I) :
    ∃ s, genLoop env N K maxReplace m G (start env N m w x) = some s ∧
      ∀ (i : Nat) (y₀ y : I), (start env N m w x).pop[i]? = some y₀ → s.pop[i]? = some y →
        accu m (fun k => weights i k * F k y) ≤ accu m (fun k => weights i k * F k y₀) := by
  have h₀ := start_inv hF (B := fun _ => True) (fun _ => trivial) N m w x
  obtain ⟨s, hs, hi, hp⟩ := genLoop_inv hF (B := fun _ => True) (fun _ => trivial) (maxReplace := maxReplace)
    (m := m) hok (by omega) (by omega) hK G (start env N m w x) h₀
  refine ⟨s, hs, ?_⟩
  intro i y₀ y hy₀ hy
  have hl₀ : i < (start env N m w x).fit.length := by rw [h₀.lenF, ← h₀.lenP]; exact getElem?_lt hy₀
  have hl : i < s.fit.length := by rw [hi.lenF, ← hi.lenP]; exact getElem?_lt hy
  have g₀ := List.getElem?_eq_getElem hl₀
  have g := List.getElem?_eq_getElem hl
  have hle := hp (by intro i z z' f; rw [ha]; rfl) i _ _ (fun _ => env.maxVal) g₀ g
  rw [ha] at hle
  have hacc : ∀ (a b : Nat → R), (∀ k < m, a k = b k) → accu m a = accu m b := by
    intro a b h
    unfold accu
    congr 1
    exact List.map_congr_left fun k hk => h k (List.mem_range.1 hk)
  simp only [weightedAverage] at hle
  have e₁ := hacc (fun k => weights i k * s.fit[i] k) (fun k => weights i k * F k y)
    (fun k hk => by rw [hi.fit i y _ hy g k hk])
  have e₂ := hacc (fun k => weights i k * (start env N m w x).fit[i] k) (fun k => weights i k * F k y₀)
    (fun k hk => by rw [h₀.fit i y₀ _ hy₀ g₀ k hk])
  rw [e₁, e₂] at hle
  exact hle

/-! ### C98 -/

/-- **C98** (partial) If no other weight vector coincides with weight `i` (its distance to itself is the only
smallest one), the neighbourhood of `i` consists of `neighborSize` different other weights, and no weight outside it
is nearer. -/
theorem C98_neighbours_partial {D : Type} [LinearOrder D] {env : Env W I R} {N K i : Nat} (hi : i < N)
    (hK : K ≤ N - 1) (dist : Nat → D) (hdist : IsSortIndex ((List.range N).map dist) (env.sorted i))
    (hself : ∀ j < N, j ≠ i → dist i < dist j) :
    (neighbours env K i).Nodup ∧ (neighbours env K i).length = K ∧ i ∉ neighbours env K i ∧
    ∀ j ∈ neighbours env K i, j < N ∧ ∀ k < N, k ≠ i → k ∉ neighbours env K i → dist j ≤ dist k := by
  obtain ⟨hperm, hord⟩ := hdist
  simp only [List.length_map, List.length_range] at hperm
  have hnd : (env.sorted i).Nodup := hperm.nodup_iff.2 List.nodup_range
  have hlen : (env.sorted i).length = N := by rw [hperm.length_eq, List.length_range]
  have hget : ∀ a < N, ((List.range N).map dist)[a]? = some (dist a) := by
    intro a ha; simp [ha]
  have hmem : ∀ a, a ∈ env.sorted i ↔ a < N := fun a => by rw [hperm.mem_iff, List.mem_range]
  have hpos : ∀ p q a b : Nat, p ≤ q → (env.sorted i)[p]? = some a → (env.sorted i)[q]? = some b →
      dist a ≤ dist b := by
    intro p q a b hpq ha hb
    exact hord p q a b _ _ hpq ha hb (hget a ((hmem a).1 (List.mem_of_getElem? ha)))
      (hget b ((hmem b).1 (List.mem_of_getElem? hb)))
  cases hc : env.sorted i with
  | nil => rw [hc] at hlen; simp at hlen; omega
  | cons a t =>
    have hai : a = i := by
      by_contra hne
      have h1 := hself a ((hmem a).1 (by rw [hc]; simp)) hne
      obtain ⟨q, hq⟩ := List.mem_iff_getElem?.1 ((hmem i).2 hi)
      have h2 := hpos 0 q a i (Nat.zero_le _) (by rw [hc]; rfl) hq
      exact absurd h2 (not_le.2 h1)
    subst hai
    have hnb : neighbours env K a = t.take K := by simp [neighbours, hc]
    rw [hc] at hnd hlen
    rw [hnb]
    have hnt := (List.nodup_cons.1 hnd)
    simp only [List.length_cons] at hlen
    refine ⟨hnt.2.sublist (List.take_sublist _ _), by rw [List.length_take]; omega,
      fun h => hnt.1 (List.mem_of_mem_take h), ?_⟩
    intro j hj
    have hjt := List.mem_of_mem_take hj
    refine ⟨(hmem j).1 (by rw [hc]; simp [hjt]), ?_⟩
    intro k hk hka hkn
    have hkt : k ∈ t := by
      have := (hmem k).2 hk
      rw [hc] at this
      exact (List.mem_cons.1 this).resolve_left hka
    obtain ⟨p, hp⟩ := List.mem_iff_getElem?.1 hj
    have hpK : p < K := by
      have := getElem?_lt hp
      rw [List.length_take] at this; omega
    obtain ⟨q, hq⟩ := List.mem_iff_getElem?.1 hkt
    have hqK : K ≤ q := by
      by_contra hlt
      apply hkn
      exact List.mem_of_getElem? (i := q) (by rw [List.getElem?_take_of_lt (by omega)]; exact hq)
    rw [List.getElem?_take_of_lt hpK] at hp
    exact hpos (p + 1) (q + 1) j k (by omega) (by rw [hc]; exact hp) (by rw [hc]; exact hq)

/-! ### Concrete runs -/

/-- One objective `x`, initial members 3, 2, 1; every candidate is 5. -/
def demo : Env Nat Int ℚ where
  evaluate := fun w _ x => (w, (x : ℚ))
  initial := fun w _ => (w + 1, 3 - (w : Int))
  clamp := fun x => min (max x (-100)) 100
  sorted := fun i => if i = 0 then [0, 1, 2] else if i = 1 then [1, 0, 2] else [2, 1, 0]
  shuffle := fun w n => (w, List.range n)
  coin := fun w => (w + 1, w % 2 == 0)
  randi := fun w n => (w, w % n)
  make := fun w _ _ _ => (w, 5)
  apply := weightedAverage 1 fun _ _ => 1
  cbBegin := fun w _ => w
  cbGen := fun w _ => (w, false)
  cbEnd := fun w _ => w
  maxVal := 1000

theorem demo_ok : Ok demo 3 where
  randi := fun w n hn => Nat.mod_lt _ hn
  shuffle := fun _ _ => List.Perm.refl _
  sorted := by
    intro i
    simp only [demo]
    split_ifs <;> decide

theorem demo_run : ∃ s r, optimize demo 3 2 1 1 1 0 0 = .ok (s, r) ∧ r.paretoSet = [3, 2, 1] ∧ r.value = 3 := by
  have hv : (match optimize demo 3 2 1 1 1 0 0 with
    | .ok (_, r) => some (r.paretoSet, r.value)
    | _ => none) = some ([3, 2, 1], 3) := by decide +kernel
  split at hv
  · rename_i s r heq
    simp only [Option.some.injEq, Prod.mk.injEq] at hv
    exact ⟨s, r, heq, hv.1, hv.2⟩
  · cases hv

/-- **C89** (refuted) "The value MOEA/D returns is the smallest objective sum over the final population". -/
theorem C89_moead_value_refuted :
    ¬ ∀ (env : Env Nat Int ℚ) (F : Nat → Int → ℚ) (N K maxReplace G m w : Nat) (x : Int) (s : St Nat Int ℚ)
      (r : Result Int ℚ), (∀ w k x, (env.evaluate w k x).2 = F k x) → Ok env N → m ≤ N →
      optimize env N K maxReplace G m w x = .ok (s, r) →
      ∀ y ∈ r.paretoSet, r.value ≤ accu m (fun k => F k y) := by
  intro h
  obtain ⟨s, r, hr, hset, hval⟩ := demo_run
  have := h demo (fun _ x => x) 3 2 1 1 1 0 0 s r (fun _ _ _ => rfl) demo_ok (by decide) hr 1 (by rw [hset]; decide)
  rw [hval] at this
  revert this
  decide +kernel

/-- **C93** (refuted) "No member of the Pareto set returned by MOEA/D is dominated by another one". -/
theorem C93_moead_nondominated_refuted :
    ¬ ∀ (env : Env Nat Int ℚ) (F : Nat → Int → ℚ) (N K maxReplace G m w : Nat) (x : Int) (s : St Nat Int ℚ)
      (r : Result Int ℚ), (∀ w k x, (env.evaluate w k x).2 = F k x) → Ok env N → m ≤ N → 1 ≤ G →
      optimize env N K maxReplace G m w x = .ok (s, r) →
      ∀ y ∈ r.paretoSet, ∀ z ∈ r.paretoSet, dominates m (fun k => F k y) (fun k => F k z) = false := by
  intro h
  obtain ⟨s, r, hr, hset, -⟩ := demo_run
  have := h demo (fun _ x => x) 3 2 1 1 1 0 0 s r (fun _ _ _ => rfl) demo_ok (by decide) (by decide) hr
    1 (by rw [hset]; decide) 3 (by rw [hset]; decide)
  revert this
  decide +kernel

/-- **C97** (refuted) "With neighbour sampling both parents are neighbours of the subproblem": equal draws are pulled
apart by adding or subtracting one, whatever that index is; here the first parent becomes the subproblem itself. -/
theorem C97_mating_neighbours_refuted :
    ¬ ∀ (env : Env Nat Int ℚ) (N K sub w w' r2 r3 : Nat), Ok env N → 2 ≤ K → K ≤ N - 1 → sub < N →
      mating env N K sub true w = some (w', r2, r3) →
      r2 ∈ neighbours env K sub ∧ r2 ≠ sub := by
  intro h
  have := h demo 3 2 1 1 1 1 2 demo_ok (by decide) (by decide) (by decide) (by decide +kernel)
  revert this
  decide +kernel

theorem isSort3 (x y z : ℚ) (h1 : x ≤ y) (h2 : y ≤ z) : IsSortIndex [x, y, z] [0, 1, 2] := by
  have key : ∀ (i a : Nat), [0, 1, 2][i]? = some a → i = a := by
    intro i a h
    have hi : i < 3 := getElem?_lt h
    interval_cases i <;> simpa using h
  refine ⟨show [0, 1, 2].Perm (List.range 3) by decide, ?_⟩
  intro i j a b fa fb hij hi hj hfa hfb
  have hi' := key i a hi
  have hj' := key j b hj
  subst hi'; subst hj'
  have hi3 : i < 3 := getElem?_lt hi
  have hj3 : j < 3 := getElem?_lt hj
  clear hi hj
  interval_cases i <;> interval_cases j <;> simp at hfa hfb hij <;> subst hfa hfb <;>
    first | exact le_refl _ | assumption | exact le_trans h1 h2

/-- **C98** (refuted) "A weight vector is not among its own neighbours": with two equal weights (both distances are
the smallest) the stable order puts the other one first and the vector itself is kept. -/
theorem C98_neighbours_refuted :
    ¬ ∀ (env : Env Nat Int ℚ) (N K i : Nat) (dist : Nat → ℚ), i < N → K ≤ N - 1 →
      IsSortIndex ((List.range N).map dist) (env.sorted i) → (∀ j, dist i ≤ dist j) →
      i ∉ neighbours env K i := by
  intro h
  have hd : ∀ a : Nat, (fun j : Nat => if j = 2 then (1 : ℚ) else 0) 1 ≤ (fun j : Nat => if j = 2 then 1 else 0) a := by
    intro a; simp only [show ¬ (1 = 2) by decide, if_false]; split_ifs <;> norm_num
  have := h { demo with sorted := fun _ => [0, 1, 2] } 3 2 1 (fun j => if j = 2 then 1 else 0) (by decide)
    (by decide) ?_ hd
  · revert this; decide +kernel
  · exact isSort3 0 0 1 (by norm_num) (by norm_num)

/-- Non-vacuity of the run theorems: the demo configuration is accepted and makes three candidates. -/
example : Ok demo 3 ∧ demo.apply = weightedAverage 1 (fun _ _ => 1) ∧
    (match genLoop demo 3 2 1 1 1 (start demo 3 1 0 0) with
      | some s => s.seen == [3, 2, 1, 5, 5, 5]
      | none => false) = true :=
  ⟨demo_ok, rfl, by decide +kernel⟩

/-- Non-vacuity of `C98_neighbours_partial`. -/
example : IsSortIndex ((List.range 3).map fun j : Nat => if j = 0 then (0 : ℚ) else if j = 1 then 1 else 2)
    (demo.sorted 0) ∧ ∀ j < 3, j ≠ 0 →
      (fun j : Nat => if j = 0 then (0 : ℚ) else if j = 1 then 1 else 2) 0 <
      (fun j : Nat => if j = 0 then (0 : ℚ) else if j = 1 then 1 else 2) j := by
  refine ⟨isSort3 0 1 2 (by norm_num) (by norm_num), ?_⟩
  · intro j hj h0
    interval_cases j
    · exact absurd rfl h0
    · decide +kernel
    · decide +kernel

end Ens.Moo.Moead
