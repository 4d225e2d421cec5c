/-
A generic loop: `step` either continues with a new state or leaves the loop with a result.
Used to model the main loops of the optimizers; the C++ loop condition is part of `step`.
-/

namespace Ens

variable {S R : Type}

/-- Run at most `fuel` passes; `none` means the fuel did not suffice. -/
def iterate (step : S → S ⊕ R) : Nat → S → Option R
  | 0, _ => none
  | fuel + 1, s =>
    match step s with
    | .inl s' => iterate step fuel s'
    | .inr r => some r

/-- Invariant rule. -/
theorem iterate_inv {step : S → S ⊕ R} (Inv : S → Prop) (Post : R → Prop)
    (hl : ∀ s s', Inv s → step s = .inl s' → Inv s')
    (hr : ∀ s r, Inv s → step s = .inr r → Post r) :
    ∀ (fuel : Nat) (s : S) (r : R), Inv s → iterate step fuel s = some r → Post r := by
  intro fuel
  induction fuel with
  | zero => intro s r _ h; simp [iterate] at h
  | succ n ih =>
    intro s r hs h
    rw [iterate] at h
    cases hst : step s with
    | inl s' => rw [hst] at h; exact ih s' r (hl s s' hs hst) h
    | inr r' =>
      rw [hst] at h
      simp only [Option.some.injEq] at h
      exact h ▸ hr s r' hs hst

/-- Termination rule: a measure that decreases while an invariant holds. -/
theorem iterate_total {step : S → S ⊕ R} (Inv : S → Prop) (μ : S → Nat)
    (hl : ∀ s s', Inv s → step s = .inl s' → Inv s' ∧ μ s' < μ s) :
    ∀ (fuel : Nat) (s : S), Inv s → μ s < fuel → ∃ r, iterate step fuel s = some r := by
  intro fuel
  induction fuel with
  | zero => intro s _ h; omega
  | succ n ih =>
    intro s hs hμ
    rw [iterate]
    cases hst : step s with
    | inl s' =>
      have := hl s s' hs hst
      exact ih s' this.1 (by omega)
    | inr r' => exact ⟨r', rfl⟩

/-- More fuel does not change the result. -/
theorem iterate_mono {step : S → S ⊕ R} : ∀ (f g : Nat) (s : S) (r : R), f ≤ g →
    iterate step f s = some r → iterate step g s = some r := by
  intro f
  induction f with
  | zero => intro g s r _ h; simp [iterate] at h
  | succ n ih =>
    intro g s r hle h
    obtain ⟨g, rfl⟩ : ∃ k, g = k + 1 := ⟨g - 1, by omega⟩
    rw [iterate] at h ⊢
    cases hst : step s with
    | inl s' => rw [hst] at h; exact ih g s' r (by omega) h
    | inr r' => rw [hst] at h; exact h

end Ens
