import Verif.Holder.Props
import Mathlib.Data.Finset.Card

/-
Property C127: exactly what a program on `Any` holders loses (`utility/any.hpp:29-124`).
-/

namespace Ens.Holder

/-- The number of objects released. -/
def frees (l : List Ev) : Nat := (l.filter fun e => match e with | .free _ => true | _ => false).length

/-- The number of `Set`s on a holder that was `Set` before and not cleaned since, when those in `full` already were. -/
def lost (full : Finset Nat) : List Op → Nat
  | [] => 0
  | .set v _ :: os => (if v ∈ full then 1 else 0) + lost (insert v full) os
  | .clean v :: os => lost (full.erase v) os
  | .as _ _ :: os => lost full os
  | .copy _ _ :: os => lost full os

/-- The holders that are `Set` and not cleaned since. -/
def fullAfter (full : Finset Nat) : List Op → Finset Nat
  | [] => full
  | .set v _ :: os => fullAfter (insert v full) os
  | .clean v :: os => fullAfter (full.erase v) os
  | .as _ _ :: os => fullAfter full os
  | .copy _ _ :: os => fullAfter full os

theorem frees_append (a b : List Ev) : frees (a ++ b) = frees a + frees b := by simp [frees]

theorem as_frees {m m' : Mem} {v t : Nat} (h : as m v t = some m') : frees m'.log = frees m.log ∧ m'.var = m.var ∧ m'.next = m.next ∧
    m'.live = m.live := by
  unfold as at h
  split at h
  · cases h; simp [frees]
  · split at h
    · cases h
    · split at h
      · cases h; simp [frees]
      · cases h

theorem tally : ∀ (ops : List Op) {m : Mem} {full : Finset Nat}, Inv m → (∀ v, v ∈ full ↔ (m.var v).held ≠ none) →
    (∀ op ∈ ops, Ok op) → ∃ m', run m ops = some m' ∧ Inv m' ∧ (∀ v, v ∈ fullAfter full ops ↔ (m'.var v).held ≠ none) ∧
      frees m'.log + (fullAfter full ops).card + lost full ops + m.next = m'.next + frees m.log + full.card ∧
      (Reach m → lost full ops = 0 → Reach m')
  | [], m, full, h, hf, _ => ⟨m, rfl, h, hf, by simp only [lost, fullAfter]; omega, fun h _ => h⟩
  | .set v t :: ops, m, full, h, hf, hok => by
    have hi := inv_set h v (hok _ (List.mem_cons_self ..))
    obtain ⟨m', h1, h2, h3, h4, h5⟩ := tally ops (full := insert v full) hi (fun u => by
      by_cases hu : u = v
      · subst hu; simp [setNew, setVar]
      · simp only [Finset.mem_insert, hu, false_or, setNew, setVar, if_false]
        exact hf u) fun o ho => hok o (List.mem_cons_of_mem _ ho)
    refine ⟨m', h1, h2, h3, ?_, ?_⟩
    · have e1 : (setNew m v t).next = m.next + 1 := rfl
      have e2 : frees (setNew m v t).log = frees m.log := by simp [setNew, setVar, frees]
      rw [e1, e2] at h4
      simp only [lost, fullAfter]
      by_cases hv : v ∈ full
      · rw [Finset.insert_eq_of_mem hv] at h4 ⊢
        rw [if_pos hv]
        omega
      · rw [Finset.card_insert_of_notMem hv] at h4
        rw [if_neg hv]
        omega
    · intro hr hl
      simp only [lost] at hl
      have hv : v ∉ full := fun hv => by rw [if_pos hv] at hl; omega
      refine h5 ?_ (by omega)
      intro o ho
      simp only [setNew, setVar] at ho ⊢
      by_cases hn : o = m.next
      · exact ⟨v, by simp [hn]⟩
      · rw [if_neg hn] at ho
        obtain ⟨u, hu⟩ := hr o ho
        have huv : u ≠ v := by
          rintro rfl
          exact hv ((hf u).2 (by rw [hu]; simp))
        exact ⟨u, by simp only [if_neg huv]; exact hu⟩
  | .clean v :: ops, m, full, h, hf, hok => by
    obtain ⟨m1, c1, c2, c3, c4, c5, c6, c7, c8⟩ := inv_clean h v
    obtain ⟨m', h1, h2, h3, h4, h5⟩ := tally ops (full := full.erase v) c2 (fun u => by
      by_cases hu : u = v
      · subst hu; simp [c5]
      · rw [Finset.mem_erase, c4 u hu, hf u]; simp [hu]) fun o ho => hok o (List.mem_cons_of_mem _ ho)
    refine ⟨m', by simp only [run, step, c1]; exact h1, h2, h3, ?_, ?_⟩
    · simp only [lost, fullAfter]
      cases hh : (m.var v).held with
      | none =>
        have hv : v ∉ full := fun hv => (hf v).1 hv hh
        rw [Finset.erase_eq_of_notMem hv, c7 hh] at h4
        rw [Finset.erase_eq_of_notMem hv]
        exact h4
      | some o =>
        have hv : v ∈ full := (hf v).2 (by rw [hh]; simp)
        have e2 : frees m1.log = frees m.log + 1 := by rw [c8 o hh, frees_append]; rfl
        have e3 := Finset.card_erase_add_one hv
        rw [c3, e2] at h4
        omega
    · intro hr hl
      simp only [lost] at hl
      refine h5 ?_ hl
      obtain ⟨m2, d1, -, d2, -⟩ := clean_reach h hr v
      rw [c1] at d1
      cases d1
      exact d2
  | .as v t :: ops, m, full, h, hf, hok => by
    obtain ⟨m1, c1, c2, -⟩ := inv_as h v (hok _ (List.mem_cons_self ..))
    obtain ⟨d1, d2, d3, d4⟩ := as_frees c1
    obtain ⟨m', h1, h2, h3, h4, h5⟩ := tally ops (full := full) c2 (fun u => by rw [d2]; exact hf u)
      fun o ho => hok o (List.mem_cons_of_mem _ ho)
    refine ⟨m', by simp only [run, step, c1]; exact h1, h2, h3, ?_, ?_⟩
    · simp only [lost, fullAfter]
      rw [d1, d3] at h4
      exact h4
    · intro hr hl
      refine h5 ?_ hl
      unfold Reach
      rw [d2, d4]
      exact hr
  | .copy v w :: ops, m, full, h, hf, hok => (hok _ (List.mem_cons_self ..)).elim

theorem lost_cleans : ∀ (vs : List Nat) (full : Finset Nat), lost full (vs.map .clean) = 0
  | [], _ => rfl
  | v :: vs, full => lost_cleans vs _

theorem full_cleans : ∀ (vs : List Nat) (full : Finset Nat), (∀ v ∈ full, v ∈ vs) → fullAfter full (vs.map .clean) = ∅
  | [], full, h => Finset.eq_empty_of_forall_notMem fun v hv => by simpa using h v hv
  | v :: vs, full, h => full_cleans vs _ fun u hu => by
    rw [Finset.mem_erase] at hu
    exact (List.mem_cons.1 (h u hu.2)).resolve_left hu.1

theorem lost_append : ∀ (a b : List Op) (full : Finset Nat), lost full (a ++ b) = lost full a + lost (fullAfter full a) b
  | [], b, full => by simp [lost, fullAfter]
  | .set v t :: a, b, full => by simp only [List.cons_append, lost, fullAfter, lost_append a b]; omega
  | .clean v :: a, b, full => by simp only [List.cons_append, lost, fullAfter, lost_append a b]
  | .as v t :: a, b, full => by simp only [List.cons_append, lost, fullAfter, lost_append a b]
  | .copy v w :: a, b, full => by simp only [List.cons_append, lost, fullAfter, lost_append a b]

theorem fullAfter_append : ∀ (a b : List Op) (full : Finset Nat), fullAfter full (a ++ b) = fullAfter (fullAfter full a) b
  | [], b, full => rfl
  | .set v t :: a, b, full => fullAfter_append a b _
  | .clean v :: a, b, full => fullAfter_append a b _
  | .as v t :: a, b, full => fullAfter_append a b _
  | .copy v w :: a, b, full => fullAfter_append a b _

theorem mem_fullAfter : ∀ (ops : List Op) (full : Finset Nat) {v : Nat}, v ∈ fullAfter full ops → v ∈ full ∨ ∃ t, .set v t ∈ ops
  | [], full, v, h => Or.inl h
  | .set u t :: a, full, v, h => by
    rcases mem_fullAfter a _ h with h | ⟨t', h⟩
    · rcases Finset.mem_insert.1 h with rfl | h
      · exact Or.inr ⟨t, List.mem_cons_self ..⟩
      · exact Or.inl h
    · exact Or.inr ⟨t', List.mem_cons_of_mem _ h⟩
  | .clean u :: a, full, v, h => by
    rcases mem_fullAfter a _ h with h | ⟨t', h⟩
    · exact Or.inl (Finset.mem_of_mem_erase h)
    · exact Or.inr ⟨t', List.mem_cons_of_mem _ h⟩
  | .as _ _ :: a, full, v, h => by
    rcases mem_fullAfter a _ h with h | ⟨t', h⟩
    · exact Or.inl h
    · exact Or.inr ⟨t', List.mem_cons_of_mem _ h⟩
  | .copy _ _ :: a, full, v, h => by
    rcases mem_fullAfter a _ h with h | ⟨t', h⟩
    · exact Or.inl h
    · exact Or.inr ⟨t', List.mem_cons_of_mem _ h⟩

/-- **C127** (partial) After a program without copies that finally cleans every holder it `Set`, the objects never released are exactly as
many as the `Set`s on holders that were still full; if there were none, every object is released (once). Missing: that nothing is lost
otherwise, which is false. -/
theorem C127_lost_partial (ops : List Op) (vs : List Nat) (hok : ∀ op ∈ ops, Ok op) (hvs : ∀ v t, .set v t ∈ ops → v ∈ vs) :
    ∃ m, run Mem.init (ops ++ vs.map .clean) = some m ∧ frees m.log + lost ∅ ops = sets ops ∧
      (lost ∅ ops = 0 ↔ ∀ o, m.log.count (.free o) = m.log.count (.alloc o)) := by
  have hok' : ∀ op ∈ ops ++ vs.map Op.clean, Ok op := by
    intro op hop
    rcases List.mem_append.1 hop with h | h
    · exact hok op h
    · obtain ⟨v, -, rfl⟩ := List.mem_map.1 h
      trivial
  obtain ⟨m, h1, h2, h3, h4, h5⟩ := tally (ops ++ vs.map Op.clean) (full := ∅) inv_init (fun v => by simp [Mem.init, Any.empty]) hok'
  obtain ⟨m2, e1, -, e2, -⟩ := inv_run _ inv_init hok'
  rw [h1] at e1
  cases e1
  have hfull : fullAfter ∅ (ops ++ vs.map Op.clean) = ∅ := by
    rw [fullAfter_append]
    refine full_cleans _ _ fun v hv => ?_
    rcases mem_fullAfter _ _ hv with h | ⟨t, h⟩
    · simp at h
    · exact hvs v t h
  have hs : sets (vs.map Op.clean) = 0 := by
    clear * -
    induction vs with
    | nil => rfl
    | cons v vs ih => exact ih
  rw [lost_append, lost_cleans, hfull, e2, sets_append, hs] at h4
  simp only [Mem.init, frees, List.filter_nil, List.length_nil, Finset.card_empty] at h4
  have hsum : frees m.log + lost ∅ ops = sets ops := by simp only [frees]; omega
  refine ⟨m, h1, hsum, ?_, ?_⟩
  · intro hl o
    have hr := h5 (by intro o ho; simp [Mem.init] at ho) (by rw [lost_append, lost_cleans, hl])
    have hlive : m.live o = none := by
      by_contra hne
      obtain ⟨v, hv⟩ := hr o hne
      have := (h3 v).2 (by rw [hv]; simp)
      rw [hfull] at this
      simp at this
    have := h2.free o
    rw [if_pos hlive] at this
    omega
  · intro hall
    have hcount : ∀ (l : List Ev) (n : Nat), (∀ o, l.count (.free o) = if o < n then 1 else 0) → frees l = n := by
      intro l n hl
      have hnd : ((l.filterMap fun e => match e with | .free o => some o | _ => none)).Perm (List.range n) := by
        rw [List.perm_iff_count]
        intro o
        have hc : ∀ l : List Ev, (l.filterMap fun e => match e with | .free o => some o | _ => none).count o = l.count (.free o) := by
          intro l
          induction l with
          | nil => rfl
          | cons e l ih => cases e <;> simp_all [List.filterMap_cons, List.count_cons]
        rw [hc, hl o]
        by_cases ho : o < n
        · rw [if_pos ho, List.count_eq_one_of_mem List.nodup_range (List.mem_range.2 ho)]
        · rw [if_neg ho, List.count_eq_zero_of_not_mem (by simpa using ho)]
      have hlen := hnd.length_eq
      rw [List.length_range] at hlen
      rw [← hlen]
      have : ∀ l : List Ev, frees l = (l.filterMap fun e => match e with | .free o => some o | _ => none).length := by
        intro l
        induction l with
        | nil => rfl
        | cons e l ih => cases e <;> simp_all [frees, List.filterMap_cons]
      exact this l
    have hf := hcount m.log m.next fun o => by rw [hall o, h2.alloc o]
    rw [hf, e2, sets_append, hs] at hsum
    simp only [Mem.init] at hsum
    omega

/-- A program that replaces an object properly loses none; one that does not loses one. -/
example : lost ∅ [.set 0 1, .as 0 1, .clean 0, .set 0 2, .set 1 1] = 0 ∧ lost ∅ [.set 0 1, .set 0 1] = 1 := by decide

end Ens.Holder
