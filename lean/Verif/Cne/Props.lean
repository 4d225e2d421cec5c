import Mathlib.Data.List.Chain
import Mathlib.Data.List.Nodup
import Mathlib.Data.List.Perm.Basic
import Mathlib.Order.Lattice
import Mathlib.Data.List.Range
import Mathlib.Tactic.SplitIfs
import Verif.SortIndex
import Verif.Cne.Model

/-
C68, C77, C78: the conventional neural evolution optimizer.
-/

namespace Ens.Cne

variable {W X E : Type}

/-- Deterministic objective, callbacks that leave candidates alone, a correct index sort (it throws on
NaN, so values are linearly ordered), random indices in range. -/
structure Sane [LinearOrder E] (env : Env W X E) (F : List X → E) : Prop where
  evaluate : ∀ w x, (env.evaluate w x).2 = F x
  cbStep : ∀ w x, (env.cbStep w x).2.1 = x
  randi : ∀ w n, n ≠ 0 → (env.randi w n).2 < n
  sort : ∀ fit index, env.sortIndex fit = some index → IsSortIndex fit index

/-- Evaluated generations of a run. -/
def gens (t : List (Ev X E)) : List (List (List X) × List E) :=
  t.filterMap fun e => match e with | .gen p f => some (p, f) | _ => none

@[simp] theorem gens_append (a b : List (Ev X E)) : gens (a ++ b) = gens a ++ gens b := by
  simp [gens]

theorem cross_length (coin : W → W × Bool) : ∀ (a b : List X) (w : W), a.length = b.length →
    (cross coin w a b).2.1.length = a.length ∧ (cross coin w a b).2.2.length = a.length := by
  intro a
  induction a with
  | nil => intro b w h; cases b <;> simp_all [cross]
  | cons x a ih =>
    intro b w h
    cases b with
    | nil => simp at h
    | cons y b =>
      have := ih b (coin w).1 (by simpa using h)
      simp only [cross]
      split_ifs <;> simp [this.1, this.2]

/-- **C68** Crossover: at every position one child carries the mother's element and the other the
father's. -/
theorem C68_cne_crossover_complementary (coin : W → W × Bool) : ∀ (a b : List X) (w : W),
    a.length = b.length → ∀ i : Nat, ∀ x y, a[i]? = some x → b[i]? = some y →
    ((cross coin w a b).2.1[i]? = some x ∧ (cross coin w a b).2.2[i]? = some y) ∨
    ((cross coin w a b).2.1[i]? = some y ∧ (cross coin w a b).2.2[i]? = some x) := by
  intro a
  induction a with
  | nil => intro b w h i x y hx; simp at hx
  | cons u a ih =>
    intro b w h i x y hx hy
    cases b with
    | nil => simp at h
    | cons v b =>
      simp only [cross]
      cases i with
      | zero =>
        simp only [List.getElem?_cons_zero, Option.some.injEq] at hx hy
        subst hx; subst hy
        split_ifs <;> simp
      | succ i =>
        simp only [List.getElem?_cons_succ] at hx hy
        have := ih b (coin w).1 (by simpa using h) i x y hx hy
        split_ifs <;> simpa using this

example : cross (fun w : Nat => (w + 1, w % 2 == 0)) 0 [1, 2, 3] [4, 5, 6] =
    (3, [1, 5, 3], [4, 2, 6]) := rfl

/-- **C68** The two parents are different members of the elite. -/
theorem C68_cne_parents_distinct (env : Env W X E) (e : Nat) (he : 2 ≤ e) (w : W)
    (hr : ∀ w, (env.randi w e).2 < e) :
    (parents env e w).2.1 ≠ (parents env e w).2.2 ∧ (parents env e w).2.1 < e ∧
    (parents env e w).2.2 < e := by
  have h1 := hr w
  have h2 := hr (env.randi w e).1
  unfold parents
  simp only
  split_ifs <;> refine ⟨?_, h1, ?_⟩ <;> omega

/-! ### Reproduction keeps the best candidate -/

theorem breed_spec {env : Env W X E} {index : List Nat} {n e i : Nat}
    (hp : index.Perm (List.range n)) (he : 2 ≤ e) (hi : e ≤ i) (hin : i + 1 < n) {w : W}
    (hr : ∀ w, (env.randi w e).2 < e) {pop : List (List X)} (hl : pop.length = n) :
    ∃ w' pop', breed env index e i w pop = some (w', pop') ∧ pop'.length = n ∧
      ∀ k j : Nat, k < e → index[k]? = some j → pop'[j]? = pop[j]? := by
  obtain ⟨hlen, hget, hinj⟩ := perm_range_spec hp
  obtain ⟨_, h1, h2⟩ := C68_cne_parents_distinct env e he w hr
  obtain ⟨m, hm, hmn⟩ := hget (parents env e w).2.1 (by omega)
  obtain ⟨d, hd, hdn⟩ := hget (parents env e w).2.2 (by omega)
  obtain ⟨c1, hc1, hc1n⟩ := hget i (by omega)
  obtain ⟨c2, hc2, hc2n⟩ := hget (i + 1) hin
  unfold breed
  simp only [hm, hd, hc1, hc2, List.getElem?_eq_getElem (show m < pop.length by omega),
    List.getElem?_eq_getElem (show d < pop.length by omega), hl, hc1n, hc2n, and_self, if_true]
  refine ⟨_, _, rfl, by simp [hl], ?_⟩
  intro k j hk hj
  have hj1 : c1 ≠ j := by
    rintro rfl; have := hinj _ _ _ hj hc1; omega
  have hj2 : c2 ≠ j := by
    rintro rfl; have := hinj _ _ _ hj hc2; omega
  rw [List.getElem?_set_ne hj2, List.getElem?_set_ne hj1]

theorem breedLoop_spec {env : Env W X E} {index : List Nat} {n e : Nat}
    (hp : index.Perm (List.range n)) (he : 2 ≤ e) (hr : ∀ w, (env.randi w e).2 < e) :
    ∀ (rem i : Nat) (w : W) (pop : List (List X)), pop.length = n → e ≤ i → i + rem + 1 ≤ n ∨ rem = 0 →
    ∃ w' pop', breedLoop env index e rem i w pop = some (w', pop') ∧ pop'.length = n ∧
      ∀ k j : Nat, k < e → index[k]? = some j → pop'[j]? = pop[j]? := by
  intro rem
  induction rem with
  | zero => intro i w pop hl _ _; exact ⟨w, pop, rfl, hl, fun _ _ _ _ => rfl⟩
  | succ rem ih =>
    intro i w pop hl hi hb
    obtain ⟨w1, pop1, h1, h2, h3⟩ := breed_spec hp he hi (show i + 1 < n by omega) (w := w) hr hl
    obtain ⟨w2, pop2, h4, h5, h6⟩ := ih (i + 1) w1 pop1 h2 (by omega) (by omega)
    refine ⟨w2, pop2, by simp only [breedLoop, h1]; exact h4, h5, ?_⟩
    intro k j hk hj
    rw [h6 k j hk hj, h3 k j hk hj]

theorem mutateLoop_spec {env : Env W X E} {n : Nat} :
    ∀ (js : List Nat) (w : W) (pop : List (List X)), pop.length = n → (∀ j ∈ js, j < n) →
    ∃ w' pop', mutateLoop env js w pop = some (w', pop') ∧ pop'.length = n ∧
      ∀ j : Nat, j ∉ js → pop'[j]? = pop[j]? := by
  intro js
  induction js with
  | nil => intro w pop hl _; exact ⟨w, pop, rfl, hl, fun _ _ => rfl⟩
  | cons j js ih =>
    intro w pop hl hj
    have hjn := hj j (by simp)
    obtain ⟨w2, pop2, h4, h5, h6⟩ := ih (env.mutate w (pop[j]'(by omega))).1
      (pop.set j (env.mutate w (pop[j]'(by omega))).2) (by simp [hl])
      (fun k hk => hj k (by simp [hk]))
    refine ⟨w2, pop2, ?_, h5, ?_⟩
    · simp only [mutateLoop, List.getElem?_eq_getElem (show j < pop.length by omega)]; exact h4
    · intro k hk
      rw [List.mem_cons, not_or] at hk
      rw [h6 k hk.2, List.getElem?_set_ne (Ne.symm hk.1)]

/-- Reproduction succeeds and leaves the best candidate alone. -/
theorem reproduce_spec {env : Env W X E} {index : List Nat} {n e : Nat}
    (hp : index.Perm (List.range n)) (he : 2 ≤ e) (hn : n ≠ 0) (hr : ∀ w, (env.randi w e).2 < e)
    (w : W) {pop : List (List X)} (hl : pop.length = n) :
    ∃ w' pop' b, reproduce env n e index w pop = some (w', pop') ∧ pop'.length = n ∧
      index[0]? = some b ∧ b < n ∧ pop'[b]? = pop[b]? := by
  obtain ⟨hlen, hget, hinj⟩ := perm_range_spec hp
  obtain ⟨b, hb, hbn⟩ := hget 0 (by omega)
  obtain ⟨w1, pop1, h1, h2, h3⟩ := breedLoop_spec hp he hr (n - 1 - e) e w pop hl (le_refl _) (by omega)
  obtain ⟨w2, pop2, h4, h5, h6⟩ := mutateLoop_spec (env := env) (index.drop 1) w1 pop1 h2 (by
    intro j hj
    exact List.mem_range.1 (hp.mem_iff.1 (List.mem_of_mem_drop hj)))
  refine ⟨w2, pop2, b, by simp only [reproduce, h1]; exact h4, h5, hb, hbn, ?_⟩
  rw [h6 b ?_, h3 0 b (by omega) hb]
  intro hmem
  obtain ⟨i, hi⟩ := List.mem_iff_getElem?.1 hmem
  rw [List.getElem?_drop] at hi
  have := hinj _ _ _ hb hi
  omega

theorem evalLoop_spec [LinearOrder E] {env : Env W X E} {F : List X → E} (hs : Sane env F) :
    ∀ (pop : List (List X)) (w : W), (evalLoop env pop w).2.1 = pop.map F := by
  intro pop
  induction pop with
  | nil => intro w; rfl
  | cons g pop ih =>
    intro w
    simp only [evalLoop, List.map_cons, hs.evaluate, hs.cbStep, ih]

theorem evalLoop_gens (env : Env W X E) : ∀ (pop : List (List X)) (w : W),
    gens (evalLoop env pop w).2.2.2 = [] := by
  intro pop
  induction pop with
  | nil => intro w; rfl
  | cons g pop ih => intro w; exact ih _

theorem sampleLoop_length (env : Env W X E) (x : List X) : ∀ (n : Nat) (w : W),
    (sampleLoop env x n w).2.length = n := by
  intro n
  induction n with
  | zero => intro w; rfl
  | succ n ih => intro w; simp [sampleLoop, ih]

/-! ### The generation loop -/

/-- Best candidate of the last evaluated generation, if any. -/
structure Inv [LinearOrder E] (F : List X → E) (n : Nat) (s : St W X E) : Prop where
  len : s.pop.length = n
  fit : ∀ g ∈ gens s.trace, g.2 = g.1.map F ∧ g.1.length = n
  best : (gens s.trace = [] ∧ s.index = []) ∨
    ∃ b x, s.index[0]? = some b ∧ s.pop[b]? = some x ∧ (∃ g, (gens s.trace).getLast? = some g ∧ x ∈ g.1) ∧
      ∀ g ∈ gens s.trace, ∀ p ∈ g.1, F x ≤ F p

theorem genLoop_spec [LinearOrder E] {env : Env W X E} {F : List X → E} (hs : Sane env F)
    {n e : Nat} (hn : n ≠ 0) (he : 2 ≤ e) : ∀ (rem : Nat) (s : St W X E), Inv F n s →
    genLoop env n e rem s = .error .sortError ∨
    ∃ s', genLoop env n e rem s = .ok s' ∧ Inv F n s' ∧
      (gens s'.trace).length ≤ (gens s.trace).length + rem ∧
      gens s.trace <+: gens s'.trace ∧ (0 < rem → s.terminate = false → gens s'.trace ≠ []) := by
  intro rem
  induction rem with
  | zero => intro s h; exact .inr ⟨s, rfl, h, by omega, List.prefix_rfl, by simp [*]⟩
  | succ rem ih =>
    intro s h
    rw [genLoop]
    by_cases ht : s.terminate = true
    · simp only [ht, if_true]
      exact .inr ⟨s, rfl, h, by omega, List.prefix_rfl, by simp [*]⟩
    · simp only [ht, Bool.false_eq_true, if_false]
      have hfit := evalLoop_spec hs s.pop s.w
      have hevs := evalLoop_gens env s.pop s.w
      generalize evalLoop env s.pop s.w = v at hfit hevs ⊢
      cases hsort : env.sortIndex v.2.1 with
      | none => exact .inl rfl
      | some index =>
        obtain ⟨hperm, hord⟩ := hs.sort _ _ hsort
        have hfl : v.2.1.length = n := by rw [hfit, List.length_map, h.len]
        rw [hfl] at hperm
        obtain ⟨w', pop', b, h1, h2, h3, h4, h5⟩ :=
          reproduce_spec hperm he hn (fun w => hs.randi w e (by omega)) v.1 h.len
        simp only [h1]
        have hbx : s.pop[b]? = some (s.pop[b]'(by rw [h.len]; exact h4)) := List.getElem?_eq_getElem _
        generalize s.pop[b]'(by rw [h.len]; exact h4) = x at hbx
        have hxm : x ∈ s.pop := List.mem_of_getElem? hbx
        -- `x` is a minimum of the generation just evaluated
        have hmin : ∀ p ∈ s.pop, F x ≤ F p := by
          intro p hp
          obtain ⟨k, hk⟩ := List.mem_iff_getElem?.1 hp
          have hkn : k < n := by
            by_contra hc; rw [List.getElem?_eq_none (by rw [h.len]; omega)] at hk; cases hk
          have hki : k ∈ index := hperm.mem_iff.2 (List.mem_range.2 hkn)
          obtain ⟨j, hj⟩ := List.mem_iff_getElem?.1 hki
          refine hord 0 j b k _ _ (Nat.zero_le _) h3 hj ?_ ?_
          · rw [hfit, List.getElem?_map, hbx]; rfl
          · rw [hfit, List.getElem?_map, hk]; rfl
        have hg : ∀ t : List (Ev X E), gens (t ++ v.2.2.2 ++ [Ev.gen s.pop v.2.1]) =
            gens t ++ [(s.pop, v.2.1)] := by
          intro t; rw [gens_append, gens_append, hevs, List.append_nil]; rfl
        have hinv : ∀ (l : E) (w : W) (tm : Bool), Inv F n (⟨w, pop', index, l, tm,
            s.trace ++ v.2.2.2 ++ [.gen s.pop v.2.1]⟩ : St W X E) := by
          intro l w tm
          refine ⟨h2, ?_, .inr ⟨b, x, h3, h5.trans hbx, ?_, ?_⟩⟩
          · intro g hgm
            rw [hg, List.mem_append, List.mem_singleton] at hgm
            rcases hgm with hgm | rfl
            · exact h.fit g hgm
            · exact ⟨hfit, h.len⟩
          · rw [hg]; exact ⟨(s.pop, v.2.1), by simp, hxm⟩
          · intro g hgm p hp
            rw [hg, List.mem_append, List.mem_singleton] at hgm
            rcases hgm with hgm | rfl
            · rcases h.best with ⟨h0, _⟩ | ⟨b', x', hb1, hb2, _, hb4⟩
              · rw [h0] at hgm; cases hgm
              · exact le_trans (hmin x' (List.mem_of_getElem? hb2)) (hb4 g hgm p hp)
            · exact hmin p hp
        split_ifs with hc
        · refine .inr ⟨_, rfl, hinv _ _ _, ?_, ?_, ?_⟩
          · simp only [hg]; simp
          · simp only [hg]; exact List.prefix_append _ _
          · intro _ _; simp only [hg]; simp
        · rcases ih _ (hinv (env.min v.2.1) w' (false || v.2.2.1)) with
            h6 | ⟨s', h6, h7, h8, h9, _⟩
          · exact .inl h6
          · right
            have hne : gens s'.trace ≠ [] := by
              intro h0
              simp only [hg, h0] at h9
              have := h9.length_le
              simp at this
            refine ⟨s', h6, h7, ?_, ?_, fun _ _ => hne⟩
            · simp only [hg, List.length_append, List.length_singleton] at h8; omega
            · simp only [hg] at h9
              exact (List.prefix_append _ _).trans h9

/-! ### C68 -/

theorem start_inv [LinearOrder E] (env : Env W X E) (F : List X → E) (n : Nat) (w : W) (x : List X) :
    Inv F n (start env n w x) where
  len := sampleLoop_length env x n w
  fit := by simp [start, gens]
  best := .inl ⟨rfl, rfl⟩

/-- **C68** Whenever `Optimize` returns, the returned objective is the objective of the returned
candidate, the candidate belongs to the last evaluated generation, and no candidate of any evaluated
generation has a smaller objective (so the best fitness never worsens); at most `maxGenerations`
generations are evaluated. -/
theorem C68_cne_best_never_lost [LinearOrder E] {env : Env W X E} {F : List X → E} (hs : Sane env F)
    {n elite0 maxGen : Nat} {w : W} {x : List X} {r : Result X E}
    (h : optimize env n elite0 maxGen w x = .ok r) :
    r.obj = F r.x ∧ (∃ g, (gens r.trace).getLast? = some g ∧ r.x ∈ g.1) ∧
    (∀ g ∈ gens r.trace, ∀ p ∈ g.1, r.obj ≤ F p) ∧ (gens r.trace).length ≤ maxGen := by
  unfold optimize at h
  cases hg : guards n elite0 with
  | error e => rw [hg] at h; cases h
  | ok e =>
    rw [hg] at h
    simp only at h
    have hne : 4 ≤ n ∧ 2 ≤ e := by
      unfold guards at hg
      split_ifs at hg
      cases hg
      omega
    rcases genLoop_spec hs (e := e) (show n ≠ 0 by omega) hne.2 maxGen _ (start_inv env F n w x) with
      h1 | ⟨s, h1, h2, h3, _, _⟩
    · rw [h1] at h; cases h
    · rw [h1] at h
      simp only at h
      rcases h2.best with ⟨_, h0⟩ | ⟨b, y, hb, hy, hy2, hmin⟩
      · simp [h0] at h
      · simp only [hb, Option.bind_some, hy] at h
        cases h
        have hgt : ∀ f c, gens (s.trace ++ [Ev.eval y f c, Ev.endOpt y]) = gens s.trace := by
          intro f c; rw [gens_append]; simp [gens]
        simp only [hgt, hs.evaluate]
        exact ⟨trivial, hy2, hmin, by simpa [start, gens] using h3⟩

/-- **C68** With valid arguments, at least one generation and no stop request during the initial
evaluation, `Optimize` returns (unless the index sort meets a NaN). -/
theorem C68_cne_returns [LinearOrder E] {env : Env W X E} {F : List X → E} (hs : Sane env F)
    {n elite0 maxGen : Nat} {w : W} {x : List X} {e : Nat} (hg : guards n elite0 = .ok e)
    (hm : maxGen ≠ 0) (ht : (start env n w x).terminate = false) :
    optimize env n elite0 maxGen w x = .error .sortError ∨
    ∃ r, optimize env n elite0 maxGen w x = .ok r := by
  unfold optimize
  rw [hg]
  have hne : 4 ≤ n ∧ 2 ≤ e := by
    unfold guards at hg
    split_ifs at hg
    cases hg
    omega
  rcases genLoop_spec hs (e := e) (show n ≠ 0 by omega) hne.2 maxGen _ (start_inv env F n w x) with
    h1 | ⟨s, h1, h2, h3, _, h5⟩
  · simp only [h1]; exact .inl trivial
  · simp only [h1]
    rcases h2.best with ⟨h0, _⟩ | ⟨b, y, hb, hy, hy2, hmin⟩
    · exact absurd h0 (h5 (by omega) ht)
    · simp only [hb, Option.bind_some, hy]
      exact .inr ⟨_, rfl⟩

/-- Integer example: objective the sum of elements; mutation adds 10 to every element. -/
def demo (stop : Bool) : Env Nat Int Int where
  sample := fun w x => (w + 1, x.map (· + w))
  evaluate := fun w x => (w, x.sum)
  cbEvaluate := fun w _ _ => (w, stop)
  cbBegin := fun w x => (w, x)
  cbStep := fun w x => (w, x, false)
  randi := fun w n => (w + 1, w % n)
  coin := fun w => (w + 1, w % 2 == 0)
  mutate := fun w g => (w, g.map (· + 10))
  sortIndex := fun fit => some (sortIndex fit)
  isClose := fun _ _ => false
  min := fun l => l.headD 0

theorem demo_sane (stop : Bool) : Sane (demo stop) List.sum where
  evaluate := fun _ _ => rfl
  cbStep := fun _ _ => rfl
  randi := fun w n h => Nat.mod_lt _ (Nat.pos_of_ne_zero h)
  sort := by
    intro fit index h
    simp only [demo, Option.some.injEq] at h
    subst h
    exact isSortIndex_sortIndex fit

/-- Non-vacuity: two generations of four candidates. -/
example : ∃ r, optimize (demo false) 4 2 2 0 [5] = .ok r ∧ r.x = [5] ∧ r.obj = 5 ∧
    (gens r.trace).length = 2 := ⟨_, rfl, rfl, rfl, rfl⟩

/-- **C68** (refuted part) Elite candidates other than the best are not carried over: `Mutate` changes
them.  Here the second best of four with two elite candidates is gone in the next generation. -/
theorem C68_cne_elite_unchanged_refuted :
    ¬ ∀ (env : Env Nat Int Int) (F : List Int → Int) (n elite0 maxGen w : Nat) (x : List Int)
      (r : Result Int Int), Sane env F → optimize env n elite0 maxGen w x = .ok r →
      ∀ g g', (gens r.trace).head? = some g → (gens r.trace)[1]? = some g' →
      ∀ k < numElite n elite0, ∀ p, ((sortIndex g.2)[k]?.bind (g.1[·]?)) = some p → p ∈ g'.1 := by
  intro h
  have := h (demo false) List.sum 4 2 2 0 [5] _ (demo_sane false) rfl _ _ rfl rfl 1 (by decide) [6] rfl
  revert this
  decide

/-! ### C77: stop request before the first generation -/

/-- **C77** (refuted) "`Optimize` returns normally when a callback stops the run": a stop request during
the initial evaluation leaves the index vector empty, and its first element is read. -/
theorem C77_cne_stop_before_first_generation_refuted :
    ¬ ∀ (env : Env Nat Int Int) (F : List Int → Int) (n elite0 maxGen w : Nat) (x : List Int),
      Sane env F → (∃ e, guards n elite0 = .ok e) → maxGen ≠ 0 →
      ∃ r, optimize env n elite0 maxGen w x = .ok r := by
  intro h
  obtain ⟨r, hr⟩ := h (demo true) List.sum 4 2 2 0 [5] (demo_sane true) ⟨2, rfl⟩ (by decide)
  cases hr

/-- **C77** (refuted) Likewise for `maxGenerations = 0`. -/
theorem C77_cne_zero_generations_refuted :
    ¬ ∀ (env : Env Nat Int Int) (F : List Int → Int) (n elite0 w : Nat) (x : List Int),
      Sane env F → (∃ e, guards n elite0 = .ok e) →
      ∃ r, optimize env n elite0 0 w x = .ok r := by
  intro h
  obtain ⟨r, hr⟩ := h (demo false) List.sum 4 2 0 [5] (demo_sane false) ⟨2, rfl⟩
  cases hr

/-! ### C78: argument checks -/

/-- **C78** (refuted) "A selection percentage that leaves fewer than two parents is rejected": with an odd
population and no elite candidate the parity correction wraps around and nothing is rejected. -/
theorem C78_cne_guard_refuted :
    ¬ ∀ n elite0, 4 ≤ n → n < 2 ^ 64 → elite0 < 2 → guards n elite0 = .error .noParents := by
  intro h
  have := h 5 0 (by decide) (by decide) (by decide)
  revert this
  decide

/-- **C78** (partial) For `0 < floor(selectPercent * populationSize) <= populationSize` the checks are
exact: the number of elite candidates is rounded down to leave an even number of children, fewer than
two parents or fewer than two children are rejected, everything else accepted. -/
theorem C78_cne_guard_partial (n elite0 : Nat) (hn : 4 ≤ n) (hb : n < 2 ^ 64) (h0 : 0 < elite0)
    (h1 : elite0 ≤ n) :
    let e := if (n - elite0) % 2 = 0 then elite0 else elite0 - 1
    (e < 2 → guards n elite0 = .error .noParents) ∧
    (2 ≤ e → n - e < 2 → guards n elite0 = .error .noChildren) ∧
    (2 ≤ e → 2 ≤ n - e → guards n elite0 = .ok e) := by
  have hne : numElite n elite0 = if (n - elite0) % 2 = 0 then elite0 else elite0 - 1 := by
    unfold numElite
    rw [show (n + 2 ^ 64 - elite0) % 2 ^ 64 = n - elite0 by omega]
    split_ifs <;> omega
  simp only
  rw [← hne]
  have hle : numElite n elite0 ≤ n := by rw [hne]; split_ifs <;> omega
  unfold guards
  have hsub : (n + 2 ^ 64 - numElite n elite0) % 2 ^ 64 < 2 ↔ n - numElite n elite0 < 2 := by
    have := hle
    by_cases hz : numElite n elite0 = 0
    · rw [hz]; omega
    · rw [show (n + 2 ^ 64 - numElite n elite0) % 2 ^ 64 = n - numElite n elite0 by omega]
  rw [if_neg (by omega)]
  refine ⟨fun h => by rw [if_pos h], fun h h' => ?_, fun h h' => ?_⟩
  · rw [if_neg (by omega), if_pos (hsub.2 h')]
  · rw [if_neg (by omega), if_neg (by rw [hsub]; omega)]

example : guards 500 100 = .ok 100 ∧ guards 501 100 = .ok 99 := by decide

end Ens.Cne
