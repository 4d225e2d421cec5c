import Verif.Loop

/-
Running a loop in two parts: generic lemmas for C317.
-/

namespace Ens

variable {S R : Type}

/-- As long as the loop `short` goes on, `long` does the same: the run of `short` is a prefix of that of `long`. -/
theorem iterate_prefix {short long : S → S ⊕ R} (Inv : S → Prop)
    (hl : ∀ s s', Inv s → short s = .inl s' → Inv s' ∧ long s = .inl s') :
    ∀ (f : Nat) (s : S) (r : R), Inv s → iterate short f s = some r →
      ∃ k s₁, k < f ∧ Inv s₁ ∧ short s₁ = .inr r ∧ ∀ g, iterate long (k + g) s = iterate long g s₁ := by
  intro f
  induction f with
  | zero => intro s r _ h; simp [iterate] at h
  | succ n ih =>
    intro s r hs h
    rw [iterate] at h
    cases hst : short s with
    | inl s' =>
      rw [hst] at h
      obtain ⟨hi, hlong⟩ := hl s s' hs hst
      obtain ⟨k, s₁, hk, h1, h2, h3⟩ := ih s' r hi h
      refine ⟨k + 1, s₁, by omega, h1, h2, fun g => ?_⟩
      rw [show k + 1 + g = (k + g) + 1 by omega, iterate, hlong]
      exact h3 g
    | inr r' =>
      rw [hst] at h
      simp only [Option.some.injEq] at h
      subst h
      exact ⟨0, s, by omega, hs, hst, fun g => by rw [Nat.zero_add]⟩

/-- Two loops in step with each other. -/
theorem iterate_sim {S' R' : Type} {one : S → S ⊕ R} {two : S' → S' ⊕ R'} (Rel : S → S' → Prop) (Post : R → R' → Prop)
    (hl : ∀ t s t', Rel t s → one t = .inl t' → ∃ s', two s = .inl s' ∧ Rel t' s')
    (hr : ∀ t s r, Rel t s → one t = .inr r → ∃ r', two s = .inr r' ∧ Post r r') :
    ∀ (f : Nat) (t : S) (s : S') (r : R), Rel t s → iterate one f t = some r →
      ∃ r', iterate two f s = some r' ∧ Post r r' := by
  intro f
  induction f with
  | zero => intro t s r _ h; simp [iterate] at h
  | succ n ih =>
    intro t s r hs h
    rw [iterate] at h ⊢
    cases hst : one t with
    | inl t' =>
      rw [hst] at h
      obtain ⟨s', h1, h2⟩ := hl t s t' hs hst
      rw [h1]
      exact ih t' s' r h2 h
    | inr r₁ =>
      rw [hst] at h
      simp only [Option.some.injEq] at h
      subst h
      obtain ⟨r', h1, h2⟩ := hr t s r₁ hs hst
      rw [h1]
      exact ⟨r', rfl, h2⟩

end Ens
