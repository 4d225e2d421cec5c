import Mathlib.Algebra.Order.BigOperators.Group.List
import Mathlib.Algebra.Order.Ring.Defs
import Mathlib.Tactic.Linarith
import Verif.Moo.MoeadProps

/-
Property C93: what remains true of the claim that MOEA/D returns nondominated members (`moead/moead_impl.hpp:194-291`): the members of
one position never get worse.
-/

namespace Ens.Moo.Moead

open Ens.Moo

variable {W I R : Type}

theorem accu_lt [Field R] [LinearOrder R] [IsStrictOrderedRing R] {m : Nat} {wt f g : Nat → R} (hw : ∀ k < m, 0 < wt k)
    (hd : dominates m f g = true) : accu m (fun k => wt k * f k) < accu m (fun k => wt k * g k) := by
  obtain ⟨h1, k, hk, hlt⟩ := (C29_dominates_iff _ _ _).1 hd
  unfold accu
  refine List.sum_lt_sum _ _ ?_ ⟨k, List.mem_range.2 hk, mul_lt_mul_of_pos_left hlt (hw k hk)⟩
  intro j hj
  exact mul_le_mul_of_nonneg_left (h1 j (List.mem_range.1 hj)) (hw j (List.mem_range.1 hj)).le

theorem genLoop_add [Zero R] [LinearOrder R] (env : Env W I R) (N K maxReplace m : Nat) : ∀ (a b : Nat) (s : St W I R),
    genLoop env N K maxReplace m (a + b) s = (genLoop env N K maxReplace m a s).bind (genLoop env N K maxReplace m b) := by
  intro a
  induction a with
  | zero => intro b s; simp [genLoop]
  | succ a ih =>
    intro b s
    rw [show a + 1 + b = (a + b) + 1 by omega, genLoop, genLoop]
    by_cases ht : s.terminate = true
    · simp only [ht, if_true, Option.bind_some]
      cases b with
      | zero => rfl
      | succ b => simp [genLoop, ht]
    · simp only [ht, Bool.false_eq_true, if_false]
      cases generation env N K maxReplace m s with
      | none => rfl
      | some t => simpa using ih b t

/-- **C93** (partial) With the weighted-average decomposition and positive weights, no member of the population after `b` further
generations is dominated by the member that had its position before them, whatever the number `a` of generations before. Missing: members
of different positions may dominate each other. -/
theorem C93_position_partial [Field R] [LinearOrder R] [IsStrictOrderedRing R] {env : Env W I R} {F : Nat → I → R}
    (hF : ∀ w k x, (env.evaluate w k x).2 = F k x) {N K m : Nat} (maxReplace a b : Nat) (hok : Ok env N)
    (hN : 3 ≤ N) (hK0 : 2 ≤ K) (hK : K ≤ N - 1) (weights : Nat → Nat → R) (hw : ∀ i < N, ∀ k < m, 0 < weights i k)
    (ha : env.apply = weightedAverage m weights) (w : W) (x : I) :
    ∃ s t, genLoop env N K maxReplace m a (start env N m w x) = some s ∧
      genLoop env N K maxReplace m (a + b) (start env N m w x) = some t ∧ s.pop.length = N ∧ t.pop.length = N ∧
      ∀ (i : Nat) (y z : I), s.pop[i]? = some y → t.pop[i]? = some z →
        dominates m (fun k => F k y) (fun k => F k z) = false := by
  have h₀ := start_inv hF (B := fun _ => True) (fun _ => trivial) N m w x
  obtain ⟨s, hs, hi, -⟩ := genLoop_inv hF (B := fun _ => True) (fun _ => trivial) (maxReplace := maxReplace)
    (m := m) hok (by omega) (by omega) hK a (start env N m w x) h₀
  obtain ⟨t, ht, hj, hp⟩ := genLoop_inv hF (B := fun _ => True) (fun _ => trivial) (maxReplace := maxReplace)
    (m := m) hok (by omega) (by omega) hK b s hi
  refine ⟨s, t, hs, by rw [genLoop_add, hs]; exact ht, hi.lenP, hj.lenP, ?_⟩
  intro i y z hy hz
  by_contra hd
  rw [Bool.not_eq_false] at hd
  have hiN : i < N := by rw [← hi.lenP]; exact getElem?_lt hy
  have g := List.getElem?_eq_getElem (show i < s.fit.length by rw [hi.lenF]; exact hiN)
  have g' := List.getElem?_eq_getElem (show i < t.fit.length by rw [hj.lenF]; exact hiN)
  have hle := hp (by intro i z z' f; rw [ha]; rfl) i _ _ (fun _ => env.maxVal) g g'
  rw [ha] at hle
  simp only [weightedAverage] at hle
  have hd' : dominates m (s.fit[i]'(by rw [hi.lenF]; exact hiN)) (t.fit[i]'(by rw [hj.lenF]; exact hiN)) = true := by
    obtain ⟨h1, k, hk, hlt⟩ := (C29_dominates_iff _ _ _).1 hd
    refine (C29_dominates_iff _ _ _).2 ⟨fun k hk => ?_, k, hk, ?_⟩
    · rw [hi.fit i y _ hy g k hk, hj.fit i z _ hz g' k hk]; exact h1 k hk
    · rw [hi.fit i y _ hy g k hk, hj.fit i z _ hz g' k hk]; exact hlt
  exact absurd hle (not_le.2 (accu_lt (hw i hiN) hd'))

/-- The hypotheses are met by the concrete run. -/
example : (∀ i < 3, ∀ k < 1, (0 : ℚ) < (fun _ _ : Nat => 1) i k) ∧ demo.apply = weightedAverage 1 (fun _ _ => 1) ∧ Ok demo 3 :=
  ⟨fun _ _ _ _ => one_pos, rfl, demo_ok⟩

end Ens.Moo.Moead
