import Mathlib.Data.List.Basic

/-
What happens after a stop request: the part of a trace behind its first event of a given kind.
-/

namespace Ens

/-- The events behind the first one that satisfies `p` (nothing if there is none). -/
def behind {α : Type} (p : α → Bool) : List α → List α
  | [] => []
  | a :: t => if p a then t else behind p t

variable {α : Type} {p : α → Bool}

theorem behind_of_none {t : List α} (h : t.any p = false) (u : List α) : behind p (t ++ u) = behind p u := by
  induction t with
  | nil => rfl
  | cons a t ih =>
    simp only [List.any_cons, Bool.or_eq_false_iff] at h
    rw [List.cons_append, behind, h.1]
    exact ih h.2

theorem behind_of_some {t : List α} (h : t.any p = true) (u : List α) : behind p (t ++ u) = behind p t ++ u := by
  induction t with
  | nil => cases h
  | cons a t ih =>
    rw [List.cons_append, behind, behind]
    split_ifs with ha
    · rfl
    · exact ih (by simpa [ha] using h)

/-- `behind` is what follows the first event of the kind. -/
theorem behind_spec {t : List α} (h : t.any p = true) :
    ∃ pre e, t = pre ++ e :: behind p t ∧ p e = true ∧ pre.any p = false := by
  induction t with
  | nil => cases h
  | cons a t ih =>
    rw [behind]
    split_ifs with ha
    · exact ⟨[], a, rfl, ha, rfl⟩
    · obtain ⟨pre, e, h1, h2, h3⟩ := ih (by simpa [ha] using h)
      exact ⟨a :: pre, e, by rw [List.cons_append, ← h1], h2, by simp [ha, h3]⟩

end Ens
