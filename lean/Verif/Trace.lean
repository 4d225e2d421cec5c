import Mathlib.Data.List.Basic

/-
Reasoning about event traces: a property of every event together with everything before it.
-/

namespace Ens

/-- `P` holds of every event of the trace and the events that precede it. -/
def Along {α : Type} (P : List α → α → Prop) (t : List α) : Prop :=
  ∀ pre e post, t = pre ++ e :: post → P pre e

theorem along_nil {α : Type} (P : List α → α → Prop) : Along P [] := by
  intro pre e post h; simp at h

theorem along_snoc {α : Type} (P : List α → α → Prop) (t : List α) (a : α) :
    Along P (t ++ [a]) ↔ Along P t ∧ P t a := by
  constructor
  · intro h
    refine ⟨fun pre e post he => h pre e (post ++ [a]) (by simp [he]), h t a [] rfl⟩
  · rintro ⟨h1, h2⟩ pre e post he
    rcases List.eq_nil_or_concat post with hp | ⟨post', b, hp⟩
    · subst hp
      have : t = pre ∧ a = e := by
        have := List.append_inj' he rfl
        exact ⟨this.1, by simpa using this.2⟩
      rw [← this.1, ← this.2]; exact h2
    · subst hp
      have he' : t ++ [a] = (pre ++ e :: post') ++ [b] := by simp [he]
      have := (List.append_inj' he' rfl).1
      exact h1 pre e post' this

theorem along_snoc₂ {α : Type} (P : List α → α → Prop) (t : List α) (a b : α) :
    Along P (t ++ [a, b]) ↔ Along P t ∧ P t a ∧ P (t ++ [a]) b := by
  rw [show t ++ [a, b] = (t ++ [a]) ++ [b] by simp, along_snoc, along_snoc, and_assoc]

theorem along_snoc₄ {α : Type} (P : List α → α → Prop) (t : List α) (a b c d : α) :
    Along P (t ++ [a, b, c, d]) ↔
      Along P t ∧ P t a ∧ P (t ++ [a]) b ∧ P (t ++ [a, b]) c ∧ P (t ++ [a, b, c]) d := by
  rw [show t ++ [a, b, c, d] = (((t ++ [a]) ++ [b]) ++ [c]) ++ [d] by simp]
  rw [along_snoc, along_snoc, along_snoc, along_snoc]
  simp only [and_assoc, List.append_assoc, List.cons_append, List.nil_append]

end Ens
