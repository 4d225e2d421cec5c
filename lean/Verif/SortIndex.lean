import Mathlib.Data.List.Sort
import Mathlib.Data.List.Range
import Mathlib.Data.List.Nodup

/-
Specification of `arma::sort_index` (ascending) and one implementation of it (used in examples).
-/

namespace Ens

/-- `index` is a permutation of the positions of `fit` that lists the values in ascending order. -/
def IsSortIndex {E : Type} [LE E] (fit : List E) (index : List Nat) : Prop :=
  index.Perm (List.range fit.length) ∧
  ∀ (i j a b : Nat) (fa fb : E), i ≤ j → index[i]? = some a → index[j]? = some b →
    fit[a]? = some fa → fit[b]? = some fb → fa ≤ fb

/-- Insertion sort of the positions. -/
def sortIndex {E : Type} [LinearOrder E] [Inhabited E] (fit : List E) : List Nat :=
  (List.range fit.length).insertionSort fun a b => fit.getD a default ≤ fit.getD b default

theorem getElem?_lt {α : Type} {l : List α} {i : Nat} {a : α} (h : l[i]? = some a) :
    i < l.length := by
  by_contra hc
  rw [List.getElem?_eq_none (by omega)] at h; cases h

theorem isSortIndex_sortIndex {E : Type} [LinearOrder E] [Inhabited E] (fit : List E) :
    IsSortIndex fit (sortIndex fit) := by
  refine ⟨List.perm_insertionSort _ _, ?_⟩
  intro i j a b fa fb hij hi hj hfa hfb
  let r : Nat → Nat → Prop := fun a b => fit.getD a default ≤ fit.getD b default
  haveI : Std.Total r := ⟨fun a b => le_total _ _⟩
  haveI : IsTrans Nat r := ⟨fun a b c h1 h2 => le_trans h1 h2⟩
  have hsort : (sortIndex fit).Pairwise r := List.pairwise_insertionSort r _
  rcases Nat.lt_or_eq_of_le hij with hlt | rfl
  · have hj' := getElem?_lt hj
    have hi' := getElem?_lt hi
    have := List.pairwise_iff_getElem.1 hsort i j hi' hj' hlt
    rw [List.getElem?_eq_getElem hi'] at hi
    rw [List.getElem?_eq_getElem hj'] at hj
    simp only [Option.some.injEq] at hi hj
    rw [hi, hj] at this
    simp only [r, List.getD_eq_getElem?_getD, hfa, hfb, Option.getD_some] at this
    exact this
  · rw [hi] at hj; cases hj; rw [hfa] at hfb; cases hfb; exact le_refl _

theorem perm_range_spec {index : List Nat} {n : Nat} (hp : index.Perm (List.range n)) :
    index.length = n ∧ (∀ i : Nat, i < n → ∃ j, index[i]? = some j ∧ j < n) ∧
    ∀ i j a : Nat, index[i]? = some a → index[j]? = some a → i = j := by
  have hl : index.length = n := by rw [hp.length_eq, List.length_range]
  have hnd : index.Nodup := hp.nodup_iff.2 List.nodup_range
  refine ⟨hl, ?_, ?_⟩
  · intro i hi
    have hi' : i < index.length := by omega
    refine ⟨index[i], List.getElem?_eq_getElem hi', ?_⟩
    exact List.mem_range.1 (hp.mem_iff.1 (List.getElem_mem hi'))
  · intro i j a hi hj
    have hi' := getElem?_lt hi
    have hj' := getElem?_lt hj
    rw [List.getElem?_eq_getElem hi'] at hi
    rw [List.getElem?_eq_getElem hj'] at hj
    simp only [Option.some.injEq] at hi hj
    exact hnd.getElem_inj_iff.1 (hi.trans hj.symm)

end Ens
