import Mathlib.Topology.Instances.ENNReal.Lemmas
import Mathlib.Analysis.SpecificLimits.Basic
import Mathlib.Probability.Distributions.Uniform
import Verif.Prob.Draws
import Verif.Cne.Props

/-
C294: with the stopping tolerance switched off, `CNE` finds every level of the objective that one
mutation of the best candidate can reach, with probability tending to one.

The model of `Verif/Cne/Model.lean` is run on a world that is the list of random draws still to come;
every call of the random number generator (`arma::randn` of one candidate, `arma::randi`, `arma::randu`
of a crossover, the noise of one mutation) takes the next draw.
-/

namespace Ens.Cne.Prob

open scoped ENNReal
open Ens.Prob

variable {D X E : Type}

/-- What the calls of the random number generator make of a draw. -/
structure Rng (D X : Type) where
  /-- `arma::randn(...) + iterate` (line 96) -/
  sample : D → List X → List X
  /-- `arma::randi(0, numElite - 1)` (lines 184-188) -/
  index : D → Nat → Nat
  /-- `random > 0.5` (lines 229-230) -/
  coin : D → Bool
  /-- the noise of `Mutate` (lines 251-254) applied to one candidate -/
  mutate : D → List X → List X

/-- `CNE` on a deterministic objective without callbacks, with tolerance zero or less
(`std::abs(...) < tolerance`, line 143, is then false). -/
def env [Inhabited D] (R : Rng D X) (f : List X → E) (sort : List E → List Nat) (min : List E → E) :
    Env (List D) X E where
  sample := fun w x => (w.tail, R.sample (w.headD default) x)
  evaluate := fun w x => (w, f x)
  cbEvaluate := fun w _ _ => (w, false)
  cbBegin := fun w x => (w, x)
  cbStep := fun w x => (w, x, false)
  randi := fun w e => (w.tail, R.index (w.headD default) e)
  coin := fun w => (w.tail, R.coin (w.headD default))
  mutate := fun w g => (w.tail, R.mutate (w.headD default) g)
  sortIndex := fun fit => some (sort fit)
  isClose := fun _ _ => false
  min := min

section World

variable [Inhabited D] (R : Rng D X) (f : List X → E) (sort : List E → List Nat) (mn : List E → E)

local notation "𝓔" => env R f sort mn

theorem eval_env : ∀ (pop : List (List X)) (w : List D),
    (evalLoop 𝓔 pop w).1 = w ∧ (evalLoop 𝓔 pop w).2.1 = pop.map f ∧
    (evalLoop 𝓔 pop w).2.2.1 = false := by
  intro pop
  induction pop with
  | nil => intro w; exact ⟨rfl, rfl, rfl⟩
  | cons g pop ih =>
    intro w
    obtain ⟨h1, h2, h3⟩ := ih w
    refine ⟨h1, ?_, ?_⟩
    · simp only [evalLoop, List.map_cons]
      exact congrArg _ h2
    · simp only [evalLoop]
      exact h3

theorem eval_trace : ∀ (pop : List (List X)) (w w' : List D),
    (evalLoop 𝓔 pop w).2.2.2 = (evalLoop 𝓔 pop w').2.2.2 := by
  intro pop
  induction pop with
  | nil => intro w w'; rfl
  | cons g pop ih =>
    intro w w'
    simp only [evalLoop]
    exact congrArg _ (congrArg _ (ih w w'))

theorem cross_frame : ∀ (a b : List X) (l r : List D), a.length = b.length → a.length ≤ l.length →
    cross (𝓔).coin (l ++ r) a b = (l.drop a.length ++ r, (cross (𝓔).coin l a b).2) ∧
    (cross (𝓔).coin l a b).1 = l.drop a.length := by
  intro a
  induction a with
  | nil => intro b l r h _; cases b <;> simp_all [cross]
  | cons x a ih =>
    intro b l r h hl
    cases b with
    | nil => simp at h
    | cons y b =>
      cases l with
      | nil => simp at hl
      | cons d l =>
        have h1 := ih b l r (by simpa using h) (by simpa using hl)
        simp only [cross]
        have e1 : (𝓔).coin (d :: l ++ r) = (l ++ r, R.coin d) := rfl
        have e2 : (𝓔).coin (d :: l) = (l, R.coin d) := rfl
        rw [e1, e2]
        simp only [h1.1, h1.2, List.length_cons, List.drop_succ_cons]
        cases R.coin d <;> simp

theorem cross_heads : ∀ (a b : List X) (l r : List D), a.length = b.length → a.length = l.length →
    (∀ d ∈ l, R.coin d = true) → (cross (𝓔).coin (l ++ r) a b).2.1 = a := by
  intro a
  induction a with
  | nil => intro b l r h _ _; cases b <;> simp_all [cross]
  | cons x a ih =>
    intro b l r h hl hc
    cases b with
    | nil => simp at h
    | cons y b =>
      cases l with
      | nil => simp at hl
      | cons d l =>
        have h1 := ih b l r (by simpa using h) (by simpa using hl) (fun d hd => hc d (by simp [hd]))
        have e1 : (𝓔).coin (d :: l ++ r) = (l ++ r, R.coin d) := rfl
        simp only [cross]
        rw [e1]
        simp only [hc d (by simp), if_true, h1]

/-- Adding draws that are not used. -/
def addTail (r : List D) (o : Option (List D × List (List X))) : Option (List D × List (List X)) :=
  o.map fun p => (p.1 ++ r, p.2)

theorem breed_frame (index : List Nat) (e i k : Nat) (pop : List (List X))
    (hk : ∀ g ∈ pop, g.length = k) (l r : List D) (hl : 2 + k ≤ l.length) :
    breed 𝓔 index e i (l ++ r) pop = addTail r (breed 𝓔 index e i l pop) ∧
    ∀ w' pop', breed 𝓔 index e i l pop = some (w', pop') →
      w' = l.drop (2 + k) ∧ ∀ g ∈ pop', g.length = k := by
  obtain ⟨d1, d2, l, rfl⟩ : ∃ d1 d2 l', l = d1 :: d2 :: l' := by
    match l, hl with
    | d1 :: d2 :: l', _ => exact ⟨d1, d2, l', rfl⟩
    | [_], hl => simp at hl; omega
    | [], hl => simp at hl
  have hl' : k ≤ l.length := by simp at hl; omega
  have p1 : parents 𝓔 e (d1 :: d2 :: l ++ r) =
      (l ++ r, (parents 𝓔 e (d1 :: d2 :: l)).2) := rfl
  have p2 : (parents 𝓔 e (d1 :: d2 :: l)).1 = l := rfl
  unfold breed
  simp only [p1, p2]
  generalize (parents 𝓔 e (d1 :: d2 :: l)).2 = p
  cases index[p.1]? with
  | none => exact ⟨rfl, by simp⟩
  | some mom =>
  cases index[p.2]? with
  | none => exact ⟨rfl, by simp⟩
  | some dad =>
  cases index[i]? with
  | none => exact ⟨rfl, by simp⟩
  | some c1 =>
  cases index[i + 1]? with
  | none => exact ⟨rfl, by simp⟩
  | some c2 =>
  simp only
  cases hm : pop[mom]? with
  | none => exact ⟨rfl, by simp⟩
  | some gm =>
  cases hd : pop[dad]? with
  | none => exact ⟨rfl, by simp⟩
  | some gd =>
  simp only
  have kgm := hk gm (List.mem_of_getElem? hm)
  have kgd := hk gd (List.mem_of_getElem? hd)
  by_cases hc : c1 < pop.length ∧ c2 < pop.length
  · simp only [hc, and_self, if_true]
    have hcr := cross_frame R f sort mn gm gd l r (by omega) (by omega)
    have hlen := cross_length (𝓔).coin gm gd l (by omega)
    refine ⟨?_, ?_⟩
    · rw [hcr.1]
      simp only [addTail, Option.map_some, hcr.2]
    · intro w' pop' h
      simp only [Option.some.injEq, Prod.mk.injEq] at h
      obtain ⟨rfl, rfl⟩ := h
      refine ⟨?_, ?_⟩
      · rw [hcr.2, kgm, show 2 + k = k + 1 + 1 by omega, List.drop_succ_cons, List.drop_succ_cons]
      · intro g hg
        rcases List.mem_or_eq_of_mem_set hg with hg | rfl
        · rcases List.mem_or_eq_of_mem_set hg with hg | rfl
          · exact hk g hg
          · omega
        · omega
  · simp only [hc, if_false]
    exact ⟨rfl, by simp⟩

theorem breed_keeps (index : List Nat) (n e i : Nat) (hp : index.Perm (List.range n))
    (w w' : List D) (pop pop' : List (List X)) (h : breed 𝓔 index e i w pop = some (w', pop')) :
    pop'.length = pop.length ∧
    ∀ k j : Nat, k < i → index[k]? = some j → pop'[j]? = pop[j]? := by
  obtain ⟨hlen, hget, hinj⟩ := perm_range_spec hp
  unfold breed at h
  simp only at h
  split at h
  · rename_i mom dad c1 c2 _ _ h1 h2
    split at h
    · split_ifs at h
      simp only [Option.some.injEq, Prod.mk.injEq] at h
      obtain ⟨_, rfl⟩ := h
      refine ⟨by simp, ?_⟩
      intro k j hk hj
      have hj1 : c1 ≠ j := by
        rintro rfl; have := hinj _ _ _ hj h1; omega
      have hj2 : c2 ≠ j := by
        rintro rfl; have := hinj _ _ _ hj h2; omega
      rw [List.getElem?_set_ne hj2, List.getElem?_set_ne hj1]
    · cases h
  · cases h

theorem breedLoop_frame (index : List Nat) (e k : Nat) : ∀ (rem i : Nat) (pop : List (List X))
    (_ : ∀ g ∈ pop, g.length = k) (l r : List D) (_ : rem * (2 + k) ≤ l.length),
    breedLoop 𝓔 index e rem i (l ++ r) pop = addTail r (breedLoop 𝓔 index e rem i l pop) ∧
    ∀ w' pop', breedLoop 𝓔 index e rem i l pop = some (w', pop') →
      w' = l.drop (rem * (2 + k)) ∧ ∀ g ∈ pop', g.length = k := by
  intro rem
  induction rem with
  | zero =>
    intro i pop hk l r _
    refine ⟨rfl, ?_⟩
    intro w' pop' h
    simp only [breedLoop, Option.some.injEq, Prod.mk.injEq] at h
    obtain ⟨rfl, rfl⟩ := h
    exact ⟨by simp, hk⟩
  | succ rem ih =>
    intro i pop hk l r hl
    have hl1 : 2 + k ≤ l.length := by
      have : (rem + 1) * (2 + k) = rem * (2 + k) + (2 + k) := by ring
      omega
    have hl2 : rem * (2 + k) ≤ (l.drop (2 + k)).length := by
      have : (rem + 1) * (2 + k) = rem * (2 + k) + (2 + k) := by ring
      rw [List.length_drop]; omega
    obtain ⟨h1, h2⟩ := breed_frame R f sort mn index e i k pop hk l r hl1
    simp only [breedLoop]
    rw [h1]
    cases hb : breed 𝓔 index e i l pop with
    | none => exact ⟨rfl, by simp⟩
    | some p =>
      obtain ⟨w1, pop1⟩ := p
      obtain ⟨rfl, h4⟩ := h2 w1 pop1 hb
      simp only [addTail, Option.map_some]
      obtain ⟨h5, h6⟩ := ih (i + 1) pop1 h4 (l.drop (2 + k)) r hl2
      refine ⟨h5, ?_⟩
      intro w' pop' h
      obtain ⟨h7, h8⟩ := h6 w' pop' h
      refine ⟨?_, h8⟩
      rw [h7, List.drop_drop]
      congr 1
      ring

theorem breedLoop_keeps (index : List Nat) (n e : Nat) (hp : index.Perm (List.range n)) :
    ∀ (rem i : Nat) (w w' : List D) (pop pop' : List (List X)),
    breedLoop 𝓔 index e rem i w pop = some (w', pop') →
    pop'.length = pop.length ∧
    ∀ k j : Nat, k < i → index[k]? = some j → pop'[j]? = pop[j]? := by
  intro rem
  induction rem with
  | zero =>
    intro i w w' pop pop' h
    simp only [breedLoop, Option.some.injEq, Prod.mk.injEq] at h
    obtain ⟨_, rfl⟩ := h
    exact ⟨rfl, fun _ _ _ _ => rfl⟩
  | succ rem ih =>
    intro i w w' pop pop' h
    simp only [breedLoop] at h
    cases hb : breed 𝓔 index e i w pop with
    | none => rw [hb] at h; cases h
    | some p =>
      obtain ⟨w1, pop1⟩ := p
      rw [hb] at h
      obtain ⟨h1, h2⟩ := breed_keeps R f sort mn index n e i hp w w1 pop pop1 hb
      obtain ⟨h3, h4⟩ := ih (i + 1) w1 w' pop1 pop' h
      exact ⟨h3.trans h1, fun k j hk hj => (h4 k j (by omega) hj).trans (h2 k j hk hj)⟩

theorem mutateLoop_frame (hmut : ∀ d g, (R.mutate d g).length = g.length) (k : Nat) :
    ∀ (js : List Nat) (pop : List (List X)) (_ : ∀ g ∈ pop, g.length = k) (l r : List D)
    (_ : js.length ≤ l.length),
    mutateLoop 𝓔 js (l ++ r) pop = addTail r (mutateLoop 𝓔 js l pop) ∧
    ∀ w' pop', mutateLoop 𝓔 js l pop = some (w', pop') →
      w' = l.drop js.length ∧ ∀ g ∈ pop', g.length = k := by
  intro js
  induction js with
  | nil =>
    intro pop hk l r _
    refine ⟨rfl, ?_⟩
    intro w' pop' h
    simp only [mutateLoop, Option.some.injEq, Prod.mk.injEq] at h
    obtain ⟨rfl, rfl⟩ := h
    exact ⟨rfl, hk⟩
  | cons j js ih =>
    intro pop hk l r hl
    cases l with
    | nil => simp at hl
    | cons d l =>
      simp only [mutateLoop]
      cases hj : pop[j]? with
      | none => exact ⟨rfl, by simp⟩
      | some g =>
        have e1 : (𝓔).mutate (d :: l ++ r) g = (l ++ r, R.mutate d g) := rfl
        have e2 : (𝓔).mutate (d :: l) g = (l, R.mutate d g) := rfl
        simp only [e1, e2]
        exact ih (pop.set j (R.mutate d g)) (by
          intro q hq
          rcases List.mem_or_eq_of_mem_set hq with hq | rfl
          · exact hk q hq
          · rw [hmut]; exact hk g (List.mem_of_getElem? hj)) l r (by simpa using hl)

theorem mutateLoop_at : ∀ (js : List Nat) (_ : js.Nodup) (l w' : List D) (pop pop' : List (List X)),
    mutateLoop 𝓔 js l pop = some (w', pop') →
    (∀ j, j ∉ js → pop'[j]? = pop[j]?) ∧
    ∀ (p j : Nat) (d : D) (g : List X), js[p]? = some j → l[p]? = some d → pop[j]? = some g →
      pop'[j]? = some (R.mutate d g) := by
  intro js
  induction js with
  | nil =>
    intro _ l w' pop pop' h
    simp only [mutateLoop, Option.some.injEq, Prod.mk.injEq] at h
    obtain ⟨_, rfl⟩ := h
    exact ⟨fun _ _ => rfl, by simp⟩
  | cons i js ih =>
    intro hnd l w' pop pop' h
    rw [List.nodup_cons] at hnd
    simp only [mutateLoop] at h
    cases hj : pop[i]? with
    | none => rw [hj] at h; cases h
    | some g0 =>
      rw [hj] at h
      simp only at h
      obtain ⟨h1, h2⟩ := ih hnd.2 _ _ _ _ h
      refine ⟨?_, ?_⟩
      · intro j hjn
        rw [List.mem_cons, not_or] at hjn
        rw [h1 j hjn.2, List.getElem?_set_ne (Ne.symm hjn.1)]
      · intro p j d g hp hl hg
        cases p with
        | zero =>
          simp only [List.getElem?_cons_zero, Option.some.injEq] at hp
          subst hp
          rw [h1 i hnd.1, List.getElem?_set_self (getElem?_lt hg)]
          rw [hj] at hg
          cases hg
          cases l with
          | nil => simp at hl
          | cons d0 l =>
            simp only [List.getElem?_cons_zero, Option.some.injEq] at hl
            subst hl
            rfl
        | succ p =>
          simp only [List.getElem?_cons_succ] at hp
          have hne : i ≠ j := by
            rintro rfl; exact hnd.1 (List.mem_of_getElem? hp)
          refine h2 p j d g hp ?_ ?_
          · cases l with
            | nil => simp at hl
            | cons d0 l =>
              have hl' : l[p]? = some d := by simpa using hl
              exact hl'
          · rw [List.getElem?_set_ne hne]; exact hg

/-- Number of draws that one reproduction takes: two parents and `k` elements for each of the
`n - 1 - e` crossovers, and the `n - 1` mutations. -/
def perGen (n e k : Nat) : Nat := (n - 1 - e) * (2 + k) + (n - 1)

theorem reproduce_frame (hmut : ∀ d g, (R.mutate d g).length = g.length) (k n e : Nat)
    (index : List Nat) (hp : index.Perm (List.range n)) (pop : List (List X))
    (hk : ∀ g ∈ pop, g.length = k) (l r : List D) (hl : l.length = perGen n e k) :
    reproduce 𝓔 n e index (l ++ r) pop = addTail r (reproduce 𝓔 n e index l pop) ∧
    ∀ w' pop', reproduce 𝓔 n e index l pop = some (w', pop') →
      w' = [] ∧ ∀ g ∈ pop', g.length = k := by
  obtain ⟨hlen, hget, hinj⟩ := perm_range_spec hp
  have hl1 : (n - 1 - e) * (2 + k) ≤ l.length := by rw [hl]; unfold perGen; omega
  obtain ⟨h1, h2⟩ := breedLoop_frame R f sort mn index e k (n - 1 - e) e pop hk l r hl1
  unfold reproduce
  rw [h1]
  cases hb : breedLoop 𝓔 index e (n - 1 - e) e l pop with
  | none => exact ⟨rfl, by simp⟩
  | some p =>
    obtain ⟨w1, pop1⟩ := p
    obtain ⟨rfl, h4⟩ := h2 w1 pop1 hb
    simp only [addTail, Option.map_some]
    have hjl : (index.drop 1).length = (l.drop ((n - 1 - e) * (2 + k))).length := by
      rw [List.length_drop, List.length_drop, hlen, hl]; unfold perGen; omega
    obtain ⟨h5, h6⟩ := mutateLoop_frame R f sort mn hmut k (index.drop 1) pop1 h4
      (l.drop ((n - 1 - e) * (2 + k))) r (by omega)
    refine ⟨h5, ?_⟩
    intro w' pop' h
    obtain ⟨h7, h8⟩ := h6 w' pop' h
    refine ⟨?_, h8⟩
    rw [h7, hjl]
    exact List.drop_length

end World

/-- The draws of a reproduction that make the first child a copy of the best candidate and then mutate
this child with a draw of `H`. -/
def lucky (R : Rng D X) (n e k : Nat) (H : Set D) : Set (List D) :=
  {l | ∃ a b, l = a ++ b ∧ (∃ d, a = [d] ∧ d ∈ {d | R.index d e = 0}) ∧
    b ∈ {l | ∃ a b, l = a ++ b ∧ a ∈ {l : List D | l.length = 1} ∧
      b ∈ {l | ∃ a b, l = a ++ b ∧ a ∈ {l | l.length = k ∧ ∀ c ∈ l, c ∈ {d | R.coin d = true}} ∧
        b ∈ {l | ∃ a b, l = a ++ b ∧
          a ∈ {l : List D | l.length = (n - 2 - e) * (2 + k) + (e - 1)} ∧
          b ∈ {l | ∃ a b, l = a ++ b ∧ (∃ d, a = [d] ∧ d ∈ H) ∧
            b ∈ {l : List D | l.length = n - 1 - e}}}}}}

theorem pr_lucky (R : Rng D X) (μ : PMF D) (n e k : Nat) (hn : e + 2 ≤ n) (he : 2 ≤ e) (H : Set D) :
    pr μ {d | R.index d e = 0} * pr μ {d | R.coin d = true} ^ k * pr μ H ≤
      pr (draws μ (perGen n e k)) (lucky R n e k H) := by
  have hN : perGen n e k =
      1 + (1 + (k + (((n - 2 - e) * (2 + k) + (e - 1)) + (1 + (n - 1 - e))))) := by
    unfold perGen
    obtain ⟨q, rfl⟩ : ∃ q, n = e + 2 + q := ⟨n - (e + 2), by omega⟩
    have e1 : e + 2 + q - 1 - e = q + 1 := by omega
    have e2 : e + 2 + q - 2 - e = q := by omega
    rw [e1, e2]
    have : (q + 1) * (2 + k) = q * (2 + k) + (2 + k) := by ring
    omega
  rw [hN]
  have h5 := le_trans (mul_le_mul' (pr_one μ H) (le_of_eq (pr_length μ (n - 1 - e)).symm))
    (pr_append μ (n := 1) (m := n - 1 - e) _ _)
  have h4 := le_trans (mul_le_mul' (le_of_eq (pr_length μ ((n - 2 - e) * (2 + k) + (e - 1))).symm) h5)
    (pr_append μ _ _)
  have h3 := le_trans (mul_le_mul' (pr_all μ {d | R.coin d = true} k) h4) (pr_append μ _ _)
  have h2 := le_trans (mul_le_mul' (le_of_eq (pr_length μ 1).symm) h3) (pr_append μ _ _)
  have h1 := le_trans (mul_le_mul' (pr_one μ {d | R.index d e = 0}) h2) (pr_append μ _ _)
  refine le_trans (le_of_eq ?_) h1
  rw [one_mul, one_mul, mul_one, mul_assoc]

section Hit

variable [Inhabited D] (R : Rng D X) (f : List X → E) (sort : List E → List Nat) (mn : List E → E)

local notation "𝓔" => env R f sort mn

/-- With lucky draws the next population contains a mutation by a draw of `H` of the best candidate. -/
theorem lucky_hits (hidx : ∀ d m, m ≠ 0 → R.index d m < m) (n e k : Nat) (hn : e + 2 ≤ n) (he : 2 ≤ e)
    (index : List Nat) (hp : index.Perm (List.range n)) (pop : List (List X)) (hlp : pop.length = n)
    (hk : ∀ g ∈ pop, g.length = k) (b : Nat) (x : List X) (hb : index[0]? = some b)
    (hx : pop[b]? = some x) (H : Set D) (l : List D) (hl : l ∈ lucky R n e k H)
    (w' : List D) (pop' : List (List X)) (h : reproduce 𝓔 n e index l pop = some (w', pop')) :
    ∃ d ∈ H, R.mutate d x ∈ pop' := by
  obtain ⟨_, _, rfl, ⟨d1, rfl, hd1⟩, _, _, rfl, hd2, cs, _, rfl, ⟨hcs, hcoin⟩, ms, _, rfl, hms, _, rs,
    rfl, ⟨dh, rfl, hdh⟩, hrs⟩ := hl
  rename_i a2
  obtain ⟨d2, rfl⟩ := List.length_eq_one_iff.1 (show a2.length = 1 from hd2)
  obtain ⟨hlen, hget, hinj⟩ := perm_range_spec hp
  obtain ⟨q, rfl⟩ : ∃ q, n = e + 2 + q := ⟨n - (e + 2), by omega⟩
  have eq1 : e + 2 + q - 1 - e = q + 1 := by omega
  have eq2 : e + 2 + q - 2 - e = q := by omega
  simp only [Set.mem_setOf_eq, eq2] at hd1 hms hcoin
  -- the first crossover
  obtain ⟨c1, hc1, hc1n⟩ := hget e (by omega)
  obtain ⟨c2, hc2, hc2n⟩ := hget (e + 1) (by omega)
  have hc12 : c2 ≠ c1 := by
    rintro rfl; have := hinj _ _ _ hc1 hc2; omega
  set rest := ms ++ ([dh] ++ rs) with hrest
  have hl0 : ([d1] ++ ([d2] ++ (cs ++ rest)) : List D) = (d1 :: d2 :: cs) ++ rest := by simp
  rw [hl0] at h
  unfold reproduce at h
  rw [eq1] at h
  simp only [breedLoop] at h
  have hfr := breed_frame R f sort mn index e e k pop hk (d1 :: d2 :: cs) rest (by simp [hcs]; omega)
  cases hbr : breed 𝓔 index e e (d1 :: d2 :: cs) pop with
  | none => rw [hfr.1, hbr] at h; cases h
  | some p =>
    obtain ⟨w1, pop1⟩ := p
    obtain ⟨hw1, hk1⟩ := hfr.2 w1 pop1 hbr
    have hw1' : w1 = [] := by
      rw [hw1, List.drop_eq_nil_iff]; simp [hcs]; omega
    rw [hfr.1, hbr, hw1'] at h
    simp only [addTail, Option.map_some, List.nil_append] at h
    -- the first child is the best candidate
    have hchild : pop1[c1]? = some x ∧ pop1.length = pop.length := by
      have hm0 : (parents 𝓔 e (d1 :: d2 :: cs)).2.1 = 0 := hd1
      have hpw : (parents 𝓔 e (d1 :: d2 :: cs)).1 = cs := rfl
      have hdad := (C68_cne_parents_distinct 𝓔 e he (d1 :: d2 :: cs)
        (fun w => hidx _ e (by omega))).2.2
      obtain ⟨dd, hdd, hddn⟩ := hget (parents 𝓔 e (d1 :: d2 :: cs)).2.2 (by omega)
      unfold breed at hbr
      simp only [hm0, hpw, hdd, hb, hc1, hc2, hx,
        List.getElem?_eq_getElem (show dd < pop.length by omega), hlp, hc1n, hc2n, and_self,
        if_true, Option.some.injEq, Prod.mk.injEq] at hbr
      obtain ⟨_, rfl⟩ := hbr
      have hxk := hk x (List.mem_of_getElem? hx)
      have hdk := hk (pop[dd]'(by omega)) (List.getElem_mem _)
      have hh := cross_heads R f sort mn x (pop[dd]'(by omega)) cs [] (by omega) (by omega) hcoin
      rw [List.append_nil] at hh
      refine ⟨?_, by simp⟩
      rw [List.getElem?_set_ne hc12, List.getElem?_set_self (by omega), hh]
    -- the later crossovers leave it alone
    cases hbl : breedLoop 𝓔 index e q (e + 1) rest pop1 with
    | none => rw [hbl] at h; cases h
    | some p =>
      obtain ⟨w2, pop2⟩ := p
      rw [hbl] at h
      simp only at h
      have hml : ms.length = q * (2 + k) + (e - 1) := hms
      have hrl : q * (2 + k) ≤ rest.length := by
        rw [hrest, List.length_append]; omega
      have h6 := (breedLoop_frame R f sort mn index e k q (e + 1) pop1 hk1 rest [] hrl).2 w2 pop2 hbl
      have h7 := (breedLoop_keeps R f sort mn index _ e hp q (e + 1) rest w2 pop1 pop2 hbl).2 e c1
        (by omega) hc1
      rw [hchild.1] at h7
      -- mutation
      have hnd : (index.drop 1).Nodup :=
        (hp.nodup_iff.2 List.nodup_range).sublist (List.drop_sublist _ _)
      have h8 := (mutateLoop_at R f sort mn (index.drop 1) hnd w2 w' pop2 pop' h).2 (e - 1) c1 dh x
        (by rw [List.getElem?_drop, show 1 + (e - 1) = e by omega]; exact hc1)
        (by
          rw [h6.1, List.getElem?_drop, hrest, List.getElem?_append_right (by omega), hml]
          simp)
        h7
      exact ⟨dh, hdh, List.mem_of_getElem? h8⟩

end Hit

section Loop

variable [Inhabited D] [LinearOrder E] (R : Rng D X) (f : List X → E) (sort : List E → List Nat)
  (mn : List E → E)

local notation "𝓔" => env R f sort mn

theorem sane (hidx : ∀ d m, m ≠ 0 → R.index d m < m) (hsort : ∀ v, IsSortIndex v (sort v)) :
    Sane 𝓔 f where
  evaluate := fun _ _ => rfl
  cbStep := fun _ _ => rfl
  randi := fun _ n hn => hidx _ n hn
  sort := fun fit index h => by
    have : sort fit = index := by simpa [env] using h
    rw [← this]; exact hsort fit

/-- The candidate at `index(0)` reaches the level `v`. -/
def Good (v : E) (s : St (List D) X E) : Prop :=
  ∃ b x, s.index[0]? = some b ∧ s.pop[b]? = some x ∧ f x ≤ v

/-- One generation. -/
theorem gen_step (hidx : ∀ d m, m ≠ 0 → R.index d m < m) (hsort : ∀ v, IsSortIndex v (sort v))
    {n e : Nat} (hn : n ≠ 0) (he : 2 ≤ e) (s : St (List D) X E) (ht : s.terminate = false)
    (hl : s.pop.length = n) :
    ∃ w' pop' b x, reproduce 𝓔 n e (sort (s.pop.map f)) s.w s.pop = some (w', pop') ∧
      pop'.length = n ∧ (sort (s.pop.map f))[0]? = some b ∧ s.pop[b]? = some x ∧ pop'[b]? = some x ∧
      (∀ p ∈ s.pop, f x ≤ f p) ∧
      ∀ rem, genLoop 𝓔 n e (rem + 1) s = genLoop 𝓔 n e rem ⟨w', pop', sort (s.pop.map f),
        mn (s.pop.map f), false,
        s.trace ++ (evalLoop 𝓔 s.pop s.w).2.2.2 ++ [.gen s.pop (s.pop.map f)]⟩ := by
  obtain ⟨hperm, hord⟩ := hsort (s.pop.map f)
  have hperm' : (sort (s.pop.map f)).Perm (List.range n) := by simpa [hl] using hperm
  obtain ⟨w', pop', b, h1, h2, h3, h4, h5⟩ :=
    reproduce_spec (env := 𝓔) hperm' he hn (fun w => hidx _ e (by omega)) s.w hl
  have hbx : s.pop[b]? = some (s.pop[b]'(by omega)) := List.getElem?_eq_getElem _
  refine ⟨w', pop', b, s.pop[b]'(by omega), h1, h2, h3, hbx, h5.trans hbx, ?_, ?_⟩
  · intro p hp
    obtain ⟨j, hj⟩ := List.mem_iff_getElem?.1 hp
    have hjn : j < n := by have := getElem?_lt hj; omega
    obtain ⟨i, hi⟩ := List.mem_iff_getElem?.1 (hperm'.mem_iff.2 (List.mem_range.2 hjn))
    refine hord 0 i b j _ _ (Nat.zero_le _) h3 hi ?_ ?_
    · rw [List.getElem?_map, hbx]; rfl
    · rw [List.getElem?_map, hj]; rfl
  · intro rem
    obtain ⟨e1, e2, e3⟩ := eval_env R f sort mn s.pop s.w
    rw [genLoop]
    simp only [ht, Bool.false_eq_true, if_false, e1, e2, e3]
    have e4 : (𝓔).sortIndex (s.pop.map f) = some (sort (s.pop.map f)) := rfl
    simp only [e4, h1]
    rfl

theorem genLoop_good (hidx : ∀ d m, m ≠ 0 → R.index d m < m) (hsort : ∀ v, IsSortIndex v (sort v))
    {n e : Nat} (hn : n ≠ 0) (he : 2 ≤ e) (v : E) : ∀ (rem : Nat) (s : St (List D) X E),
    s.terminate = false → s.pop.length = n → (∃ g ∈ s.pop, f g ≤ v) → (rem = 0 → Good f v s) →
    ∃ s', genLoop 𝓔 n e rem s = .ok s' ∧ Good f v s' := by
  intro rem
  induction rem with
  | zero => intro s _ _ _ h; exact ⟨s, rfl, h rfl⟩
  | succ rem ih =>
    intro s ht hl hg _
    obtain ⟨w', pop', b, x, _, h2, h3, h4, h5, h6, h7⟩ := gen_step R f sort mn hidx hsort hn he s ht hl
    obtain ⟨g, hg, hgv⟩ := hg
    have hxv : f x ≤ v := le_trans (h6 g hg) hgv
    rw [h7]
    exact ih _ rfl h2 ⟨x, List.mem_of_getElem? h5, hxv⟩ fun _ => ⟨b, x, h3, h5, hxv⟩

/-- The generation loop fails to reach the level with geometrically small probability. -/
theorem genLoop_prob (hidx : ∀ d m, m ≠ 0 → R.index d m < m) (hsort : ∀ v, IsSortIndex v (sort v))
    (hmut : ∀ d g, (R.mutate d g).length = g.length) {n e k : Nat} (hn : e + 2 ≤ n) (he : 2 ≤ e)
    (μ : PMF D) (u v : E) (η : ℝ≥0∞)
    (hη : ∀ g : List X, g.length = k → f g ≤ u → η ≤ pr μ {d | f (R.mutate d g) ≤ v}) :
    ∀ (T : Nat) (s : St (List D) X E), s.terminate = false → s.pop.length = n →
    (∀ g ∈ s.pop, g.length = k) → (∃ g ∈ s.pop, f g ≤ u) →
    pr (draws μ ((T + 1) * perGen n e k))
      {w | ¬ ∃ s', genLoop 𝓔 n e (T + 1) { s with w := w } = .ok s' ∧ Good f v s'} ≤
    (1 - pr μ {d | R.index d e = 0} * pr μ {d | R.coin d = true} ^ k * η) ^ T := by
  intro T
  induction T with
  | zero => intro s _ _ _ _; rw [pow_zero]; exact pr_le_one _ _
  | succ T ih =>
    intro s ht hl hk hu
    -- the best candidate of this generation
    have hsp := hsort (s.pop.map f)
    have hperm' : (sort (s.pop.map f)).Perm (List.range n) := by simpa [hl] using hsp.1
    obtain ⟨_, _, b, x, _, _, hb, hx, _, hmin, _⟩ :=
      gen_step R f sort mn hidx hsort (show n ≠ 0 by omega) he s ht hl
    obtain ⟨g, hg, hgu⟩ := hu
    have hxu : f x ≤ u := le_trans (hmin g hg) hgu
    have hxk := hk x (List.mem_of_getElem? hx)
    rw [show (T + 1 + 1) * perGen n e k = perGen n e k + (T + 1) * perGen n e k by ring, pow_succ',
      ]
    refine pr_round μ _ (lucky R n e k {d | f (R.mutate d x) ≤ v})
      (le_trans (mul_le_mul' (le_refl _) (hη x hxk hxu)) (pr_lucky R μ n e k hn he _)) ?_ ?_
    · intro l hll hlu
      have : {r | l ++ r ∈ {w | ¬ ∃ s', genLoop 𝓔 n e (T + 1 + 1) { s with w := w } = .ok s' ∧
          Good f v s'}} = ∅ := by
        rw [Set.eq_empty_iff_forall_notMem]
        intro r hr
        apply hr
        obtain ⟨w1, pop1, b1, x1, h1, h2, h3, h4, h5, h6, h7⟩ := gen_step R f sort mn hidx hsort
          (show n ≠ 0 by omega) he { s with w := l ++ r } ht hl
        rw [h7]
        have hfr := reproduce_frame R f sort mn hmut k n e _ hperm' s.pop hk l r hll
        simp only at h1
        rw [hfr.1] at h1
        cases hrp : reproduce 𝓔 n e (sort (s.pop.map f)) l s.pop with
        | none => rw [hrp] at h1; cases h1
        | some p =>
          obtain ⟨w2, pop2⟩ := p
          rw [hrp] at h1
          simp only [addTail, Option.map_some, Option.some.injEq, Prod.mk.injEq] at h1
          obtain ⟨_, rfl⟩ := h1
          obtain ⟨d, hd, hmem⟩ := lucky_hits R f sort mn hidx n e k hn he _ hperm' s.pop hl hk b x hb hx _
            l hlu w2 pop2 hrp
          exact genLoop_good R f sort mn hidx hsort (show n ≠ 0 by omega) he v (T + 1) _ rfl h2
            ⟨_, hmem, hd⟩ (by omega)
      rw [this]
      simp [pr]
    · intro l hll
      obtain ⟨w1, pop1, b1, x1, h1, h2, h3, h4, h5, h6, h7⟩ := gen_step R f sort mn hidx hsort
          (show n ≠ 0 by omega) he { s with w := l } ht hl
      have hfr := fun r => reproduce_frame R f sort mn hmut k n e _ hperm' s.pop hk l r hll
      simp only at h1 h4 h6
      obtain ⟨rfl, hk1⟩ := (hfr []).2 w1 pop1 h1
      refine le_trans (pr_mono _ ?_) (ih ⟨[], pop1, sort (s.pop.map f), mn (s.pop.map f), false,
        s.trace ++ (evalLoop 𝓔 s.pop l).2.2.2 ++ [.gen s.pop (s.pop.map f)]⟩ rfl h2 hk1
        ⟨x1, List.mem_of_getElem? h5, le_trans (h6 g hg) hgu⟩)
      intro r hr hc
      apply hr
      obtain ⟨w2, pop2, b2, x2, k1, _, _, _, _, _, k7⟩ := gen_step R f sort mn hidx hsort
          (show n ≠ 0 by omega) he { s with w := l ++ r } ht hl
      simp only at k1 k7
      rw [(hfr r).1, h1] at k1
      simp only [addTail, Option.map_some, List.nil_append, Option.some.injEq, Prod.mk.injEq] at k1
      obtain ⟨rfl, rfl⟩ := k1
      rw [k7, eval_trace R f sort mn s.pop (l ++ r) l]
      exact hc

end Loop

/-! ### The whole run -/

section Run

variable [Inhabited D] [LinearOrder E] (R : Rng D X) (f : List X → E) (sort : List E → List Nat)
  (mn : List E → E)

local notation "𝓔" => env R f sort mn

theorem sampleLoop_env (x : List X) : ∀ (n : Nat) (l r : List D), l.length = n →
    sampleLoop 𝓔 x n (l ++ r) = (r, l.map (R.sample · x)) := by
  intro n
  induction n with
  | zero => intro l r h; rw [List.length_eq_zero_iff] at h; subst h; rfl
  | succ n ih =>
    intro l r h
    cases l with
    | nil => simp at h
    | cons d l =>
      have h1 := ih l r (by simpa using h)
      have e1 : (𝓔).sample (d :: l ++ r) x = (l ++ r, R.sample d x) := rfl
      simp only [sampleLoop, e1, h1, List.map_cons]

/-- **C294** Let the tolerance be zero or less.  Suppose that from every candidate of objective at most
`u` one mutation reaches the level `v` with probability at least `η`.  Then `Optimize` with `T + 1`
generations, started with an initial population whose best candidate has objective at most `u`, returns
a candidate above the level `v` with probability at most `(1 - p c ^ k η) ^ T`; here `p` is the
probability that a parent is the best candidate, `c` that of one outcome of the coin of the crossover
and `k` the number of elements. -/
theorem C294_finds_level (hidx : ∀ d m, m ≠ 0 → R.index d m < m)
    (hsort : ∀ v, IsSortIndex v (sort v)) (hmut : ∀ d g, (R.mutate d g).length = g.length)
    (x : List X) (hsam : ∀ d, (R.sample d x).length = x.length) {n elite0 e : Nat}
    (hg : guards n elite0 = .ok e) (hn : e + 2 ≤ n) (μ : PMF D) (u v : E) (η : ℝ≥0∞)
    (hη : ∀ g : List X, g.length = x.length → f g ≤ u → η ≤ pr μ {d | f (R.mutate d g) ≤ v})
    (T : Nat) :
    pr (draws μ (n + (T + 1) * perGen n e x.length))
      {w | (∃ d ∈ w.take n, f (R.sample d x) ≤ u) ∧
        ¬ ∃ r, optimize 𝓔 n elite0 (T + 1) w x = .ok r ∧ r.obj = f r.x ∧ r.obj ≤ v} ≤
    (1 - pr μ {d | R.index d e = 0} * pr μ {d | R.coin d = true} ^ x.length * η) ^ T := by
  have he : 2 ≤ e := by
    unfold guards at hg
    split_ifs at hg
    cases hg
    omega
  have h0 := pr_round μ (n := n) (m := (T + 1) * perGen n e x.length)
      {w | (∃ d ∈ w.take n, f (R.sample d x) ≤ u) ∧
        ¬ ∃ r, optimize 𝓔 n elite0 (T + 1) w x = .ok r ∧ r.obj = f r.x ∧ r.obj ≤ v} ∅ (δ := 0)
      (c := (1 - pr μ {d | R.index d e = 0} * pr μ {d | R.coin d = true} ^ x.length * η) ^ T)
      zero_le (by simp) ?_
  · simpa using h0
  · intro l hl
    classical
    by_cases hu : ∃ d ∈ l, f (R.sample d x) ≤ u
    · refine le_trans (pr_mono _ ?_) (genLoop_prob R f sort mn hidx hsort hmut hn he μ u v η hη T
        ⟨[], l.map (R.sample · x), [], f x, false, [.eval x (f x) false]⟩ rfl (by simp [hl]) (by
          intro g hgm
          obtain ⟨d, _, rfl⟩ := List.mem_map.1 hgm
          exact hsam d) (by
          obtain ⟨d, hd, hdu⟩ := hu
          exact ⟨_, List.mem_map.2 ⟨d, hd, rfl⟩, hdu⟩))
      rintro r ⟨_, hr⟩ ⟨s', hs', b, y, hb, hy, hyv⟩
      apply hr
      have hst : start 𝓔 n (l ++ r) x =
          ⟨r, l.map (R.sample · x), [], f x, false, [.eval x (f x) false]⟩ := by
        unfold start
        rw [sampleLoop_env R f sort mn x n l r hl]
        rfl
      refine ⟨⟨f y, y, s'.trace ++ [.eval y (f y) false, .endOpt y]⟩, ?_, rfl, hyv⟩
      unfold optimize
      rw [hg]
      simp only [hst]
      simp only at hs'
      rw [hs']
      simp only [hb, Option.bind_some, hy]
      rfl
    · have : {r | l ++ r ∈ {w | (∃ d ∈ w.take n, f (R.sample d x) ≤ u) ∧
        ¬ ∃ r, optimize 𝓔 n elite0 (T + 1) w x = .ok r ∧ r.obj = f r.x ∧ r.obj ≤ v}} = ∅ := by
        rw [Set.eq_empty_iff_forall_notMem]
        rintro r ⟨⟨d, hd, hdu⟩, _⟩
        rw [List.take_left' hl] at hd
        exact hu ⟨d, hd, hdu⟩
      rw [this]
      simp [pr]

/-- **C294** If every candidate can reach the level `v` by one mutation with probability at least
`η > 0`, a parent is the best candidate and the coin shows either side with positive probability, then
the probability that `Optimize` misses the level tends to zero as the number of generations grows. -/
theorem C294_finds_level_limit (hidx : ∀ d m, m ≠ 0 → R.index d m < m)
    (hsort : ∀ v, IsSortIndex v (sort v)) (hmut : ∀ d g, (R.mutate d g).length = g.length)
    (x : List X) (hsam : ∀ d, (R.sample d x).length = x.length) {n elite0 e : Nat}
    (hg : guards n elite0 = .ok e) (hn : e + 2 ≤ n) (μ : PMF D) (v : E) (η : ℝ≥0∞) (hη0 : η ≠ 0)
    (hη : ∀ g : List X, g.length = x.length → η ≤ pr μ {d | f (R.mutate d g) ≤ v})
    (hp : pr μ {d | R.index d e = 0} ≠ 0) (hc : pr μ {d | R.coin d = true} ≠ 0)
    (u : E) (hu : ∀ d, f (R.sample d x) ≤ u) :
    Filter.Tendsto (fun T => pr (draws μ (n + (T + 1) * perGen n e x.length))
      {w | ¬ ∃ r, optimize 𝓔 n elite0 (T + 1) w x = .ok r ∧ r.obj = f r.x ∧ r.obj ≤ v})
      Filter.atTop (nhds 0) := by
  have hpos : pr μ {d | R.index d e = 0} * pr μ {d | R.coin d = true} ^ x.length * η ≠ 0 :=
    mul_ne_zero (mul_ne_zero hp (pow_ne_zero _ hc)) hη0
  have hlt : 1 - pr μ {d | R.index d e = 0} * pr μ {d | R.coin d = true} ^ x.length * η < 1 :=
    ENNReal.sub_lt_self ENNReal.one_ne_top one_ne_zero hpos
  refine tendsto_of_tendsto_of_tendsto_of_le_of_le tendsto_const_nhds
    (ENNReal.tendsto_pow_atTop_nhds_zero_of_lt_one hlt) (fun _ => zero_le) fun T => ?_
  refine le_trans (pr_congr_length μ _ ?_) (C294_finds_level R f sort mn hidx hsort hmut x hsam hg hn μ
    u v η (fun g hgl _ => hη g hgl) T)
  intro w hw hm
  refine ⟨?_, hm⟩
  have hn4 : 4 ≤ n := by
    unfold guards at hg
    split_ifs at hg
    omega
  cases w with
  | nil => simp at hw; omega
  | cons d w =>
    obtain ⟨n, rfl⟩ : ∃ m, n = m + 1 := ⟨n - 1, by omega⟩
    exact ⟨d, by simp, hu d⟩

/-- **C294** With a positive tolerance this fails: if all candidates drawn from `S` have fitness above
the level `v`, and generations of such candidates are within the tolerance of the starting point, then
the level is missed with probability at least `P(S) ^ n`, however many generations are allowed. -/
theorem C294_tolerance_stops (hidx : ∀ d m, m ≠ 0 → R.index d m < m)
    (hsort : ∀ v, IsSortIndex v (sort v)) (close : E → List E → Bool)
    (x : List X) {n elite0 e : Nat} (hg : guards n elite0 = .ok e) (μ : PMF D) (v : E) (S : Set D)
    (hS : ∀ d ∈ S, v < f (R.sample d x))
    (hclose : ∀ l : List D, l.length = n → (∀ d ∈ l, d ∈ S) →
      close (f x) (l.map fun d => f (R.sample d x)) = true) (T m : Nat) :
    pr μ S ^ n ≤ pr (draws μ (n + m))
      {w | ¬ ∃ r, optimize { 𝓔 with isClose := close } n elite0 (T + 1) w x = .ok r ∧ r.obj ≤ v} := by
  have hn4 : 4 ≤ n ∧ 2 ≤ e := by
    unfold guards at hg
    split_ifs at hg
    cases hg
    omega
  refine le_trans (pr_all μ S n) ?_
  have h1 := pr_append μ (n := n) (m := m) {l | l.length = n ∧ ∀ c ∈ l, c ∈ S} {l | l.length = m}
  rw [pr_length, mul_one] at h1
  refine le_trans h1 (pr_mono _ ?_)
  rintro w ⟨l, r, rfl, ⟨hl, hlS⟩, -⟩ ⟨res, hres, hobj⟩
  have hst : start { 𝓔 with isClose := close } n (l ++ r) x =
      ⟨r, l.map (R.sample · x), [], f x, false, [.eval x (f x) false]⟩ := by
    have h2 := sampleLoop_env R f sort mn x n l r hl
    have h3 : sampleLoop { 𝓔 with isClose := close } x n (l ++ r) = sampleLoop 𝓔 x n (l ++ r) := by
      generalize l ++ r = w
      clear h1 hres hg hn4 hclose hl h2
      induction n generalizing w with
      | zero => rfl
      | succ n ih => simp only [sampleLoop]; rw [ih]
    unfold start
    rw [h3, h2]
    rfl
  have hsn : Sane { 𝓔 with isClose := close } f := by
    have := sane R f sort mn hidx hsort
    exact ⟨this.evaluate, this.cbStep, this.randi, this.sort⟩
  unfold optimize at hres
  rw [hg] at hres
  simp only [hst] at hres
  rw [genLoop] at hres
  have hfit := evalLoop_spec hsn (l.map (R.sample · x)) r
  simp only [Bool.false_eq_true, if_false] at hres
  generalize evalLoop { 𝓔 with isClose := close } (l.map (R.sample · x)) r = ev at hfit hres
  have hso : (𝓔).sortIndex ev.2.1 = some (sort ev.2.1) := rfl
  rw [hso] at hres
  simp only at hres
  obtain ⟨hperm, -⟩ := hsort ev.2.1
  have hperm' : (sort ev.2.1).Perm (List.range n) := by simpa [hfit, hl] using hperm
  obtain ⟨w', pop', b, k1, k2, k3, k4, k5⟩ :=
    reproduce_spec (env := { 𝓔 with isClose := close }) hperm' hn4.2 (show n ≠ 0 by omega)
      (fun w => hidx _ e (by omega)) ev.1 (pop := l.map (R.sample · x)) (by simp [hl])
  rw [k1] at hres
  simp only at hres
  have hcl : close (f x) ev.2.1 = true := by
    rw [hfit, List.map_map]
    exact hclose l hl hlS
  simp only [hcl, if_true, k3, Option.bind_some] at hres
  have hbx : (l.map (R.sample · x))[b]? = some ((l.map (R.sample · x))[b]'(by simp [hl, k4])) :=
    List.getElem?_eq_getElem _
  have hmem : (l.map (R.sample · x))[b]'(by simp [hl, k4]) ∈ l.map (R.sample · x) :=
    List.getElem_mem _
  generalize (l.map (R.sample · x))[b]'(by simp [hl, k4]) = y at hbx hmem
  rw [k5, hbx] at hres
  simp only at hres
  cases hres
  obtain ⟨d, hd, rfl⟩ := List.mem_map.1 hmem
  exact absurd hobj (not_le.2 (hS d (hlS d hd)))

end Run

/-- Draws of `0, 1, 2`; candidates with elements modulo 3, mutation adds the draw to every element. -/
def demoRng : Rng (Fin 3) (Fin 3) where
  sample := fun d x => x.map (· + d)
  index := fun d m => d.val % m
  coin := fun d => d = 0
  mutate := fun d g => g.map (· + d)

theorem pr_fin3 (A : Set (Fin 3)) (d : Fin 3) (h : d ∈ A) :
    (3 : ℝ≥0∞)⁻¹ ≤ pr (PMF.uniformOfFintype (Fin 3)) A := by
  rw [pr_eq]
  refine le_trans (le_of_eq ?_) (ENNReal.le_tsum d)
  rw [Set.indicator_of_mem h, PMF.uniformOfFintype_apply]
  simp

/-- The hypotheses hold for `demoRng`, a population of 4 with 2 elite candidates, and the objective
`x ↦ x` on one element: the minimum 0 is found with probability tending to one. -/
example : Filter.Tendsto (fun T => pr (draws (PMF.uniformOfFintype (Fin 3)) (4 + (T + 1) * perGen 4 2 1))
      {w | ¬ ∃ r, optimize (env demoRng (fun g => (g.map Fin.val).sum) sortIndex (fun _ => 0)) 4 2 (T + 1) w
        [2] = .ok r ∧ r.obj = (r.x.map Fin.val).sum ∧ r.obj ≤ 0})
      Filter.atTop (nhds 0) := by
  refine C294_finds_level_limit demoRng (fun g => (g.map Fin.val).sum) sortIndex (fun _ => 0)
    (fun d m hm => Nat.mod_lt _ (Nat.pos_of_ne_zero hm)) isSortIndex_sortIndex (fun d g => by
      simp [demoRng]) [2] (fun d => by simp [demoRng]) (e := 2) (by decide) (by decide) _ 0 3⁻¹
    (by simp) ?_ ?_ ?_ 2 ?_
  · intro g hgl
    obtain ⟨a, rfl⟩ := List.length_eq_one_iff.1 hgl
    refine pr_fin3 _ (-a) ?_
    simp [demoRng]
  · exact fun h => absurd (le_trans (pr_fin3 _ 0 (by simp [demoRng])) (le_of_eq h)) (by simp)
  · exact fun h => absurd (le_trans (pr_fin3 _ 0 (by simp [demoRng])) (le_of_eq h)) (by simp)
  · intro d
    fin_cases d <;> simp [demoRng]

/-- With a tolerance of 1 (integer objectives: any equal value stops) and the same objective, the run
started at 2 stops at 2 with probability at least `1 / 81`. -/
example (T m : Nat) : (3 : ℝ≥0∞)⁻¹ ^ 4 ≤ pr (draws (PMF.uniformOfFintype (Fin 3)) (4 + m))
      {w | ¬ ∃ r, optimize { env demoRng (fun g => (g.map Fin.val).sum) sortIndex (fun _ => 0) with
        isClose := fun last fit => fit.all (· = last) } 4 2 (T + 1) w [2] = .ok r ∧ r.obj ≤ 0} := by
  refine le_trans (pow_le_pow_left' (pr_fin3 {0} 0 rfl) 4)
    (C294_tolerance_stops demoRng (fun g => (g.map Fin.val).sum) sortIndex (fun _ => 0)
      (fun d m hm => Nat.mod_lt _ (Nat.pos_of_ne_zero hm)) isSortIndex_sortIndex _ [2] (e := 2)
      (by decide) _ 0 {0} ?_ ?_ T m)
  · rintro d rfl; decide
  · intro l _ hS
    simp only [List.all_map, List.all_eq_true]
    intro d hd
    rw [show d = 0 from hS d hd]
    decide

end Ens.Cne.Prob
