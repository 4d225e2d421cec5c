import Mathlib.Data.List.Induction
import Verif.Common

/-
"Keep the strictly better one" bookkeeping, used by many optimizers, and its specification.
-/

namespace Ens

variable {M E : Type} [LT E] [DecidableLT E]

/-- `if (objective < bestObjective) { bestObjective = objective; best = candidate; }` -/
def bestStep (b p : M × E) : M × E := if p.2 < b.2 then p else b

/-- `r` is the first best element of `l` below the threshold `t`: nothing in `l` is better and
nothing before it has the same objective. -/
def FirstBest (t : E) (l : List (M × E)) (r : M × E) : Prop :=
  r.2 < t ∧ (∀ p ∈ l, ¬ p.2 < r.2) ∧ ∃ pre post, l = pre ++ r :: post ∧ ∀ p ∈ pre, p.2 ≠ r.2

theorem bestFold_spec [StrictPO E] (b : M × E) (l : List (M × E)) :
    (l.foldl bestStep b = b ∧ ∀ p ∈ l, ¬ p.2 < b.2) ∨ FirstBest b.2 l (l.foldl bestStep b) := by
  induction l using List.reverseRecOn with
  | nil => left; exact ⟨rfl, by simp⟩
  | append_singleton l p ih =>
    rw [List.foldl_append, List.foldl_cons, List.foldl_nil]
    rcases ih with ⟨h1, h2⟩ | ⟨h2, h3, pre, post, h4, h5⟩
    · rw [h1]
      by_cases hlt : p.2 < b.2
      · right
        rw [show bestStep b p = p from if_pos hlt]
        refine ⟨hlt, ?_, l, [], rfl, ?_⟩
        · intro q hq
          rcases List.mem_append.1 hq with hq | hq
          · intro hlt'; exact h2 q hq (StrictPO.trans _ _ _ hlt' hlt)
          · rw [List.mem_singleton.1 hq]; exact StrictPO.irrefl _
        · intro q hq he; exact h2 q hq (he ▸ hlt)
      · left
        refine ⟨if_neg hlt, ?_⟩
        intro q hq
        rcases List.mem_append.1 hq with hq | hq
        · exact h2 q hq
        · rw [List.mem_singleton.1 hq]; exact hlt
    · right
      generalize l.foldl bestStep b = r at *
      by_cases hlt : p.2 < r.2
      · rw [show bestStep r p = p from if_pos hlt]
        refine ⟨StrictPO.trans _ _ _ hlt h2, ?_, l, [], rfl, ?_⟩
        · intro q hq
          rcases List.mem_append.1 hq with hq | hq
          · intro hlt'; exact h3 q hq (StrictPO.trans _ _ _ hlt' hlt)
          · rw [List.mem_singleton.1 hq]; exact StrictPO.irrefl _
        · intro q hq he; exact h3 q hq (he ▸ hlt)
      · rw [show bestStep r p = r from if_neg hlt]
        refine ⟨h2, ?_, pre, post ++ [p], by simp [h4], h5⟩
        intro q hq
        rcases List.mem_append.1 hq with hq | hq
        · exact h3 q hq
        · rw [List.mem_singleton.1 hq]; exact hlt

end Ens
