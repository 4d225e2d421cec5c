import Verif.Cmaes.Pop

/-
Properties C86 and C87: what remains true of stop requests and of the best candidate in `POP_CMAES` (`cmaes/pop_cmaes_impl.hpp:51-159`).
-/

namespace Ens.Cmaes

open Callbacks (StoreBest)

variable {M E : Type} [LT E] [DecidableLT E]

/-- What holds between restarts: the best candidate of all runs is in `sbc`; `overall` is the result of some run; the candidates of a run
that was the best so far, and of the runs before it, are accounted for in `overallSbc`. -/
structure Best (s : PopSt M E) : Prop where
  all : ∀ r ∈ s.runs, ∀ p ∈ r.notes, ¬ p.2 < s.sbc.bestObjective
  le : NW s.overallSbc.bestObjective s.sbc.bestObjective
  some : ∃ q ∈ s.runs, s.overall = q.obj
  records : ∀ pre r post, s.runs = pre ++ r :: post → (∀ q ∈ pre, r.obj < q.obj) →
    ∀ q ∈ pre ++ [r], ∀ p ∈ q.notes, ¬ p.2 < s.overallSbc.bestObjective

theorem best_start [StrictPO E] (maxVal : E) (counter : Nat) (r : Inner M E) : Best (popStart maxVal counter r) := by
  obtain ⟨-, h2, -⟩ := storeBest_run_spec r.notes (StoreBest.init maxVal)
  refine ⟨?_, NW.rfl, ⟨r, List.mem_singleton.2 rfl, rfl⟩, ?_⟩
  · intro q hq
    rw [List.mem_singleton.1 hq]
    exact h2
  · intro pre q post h _ q' hq'
    have : q' ∈ [r] := by
      rw [show [r] = pre ++ q :: post from h]
      rcases List.mem_append.1 hq' with h | h
      · exact List.mem_append_left _ h
      · rw [List.mem_singleton.1 h]; simp
    rw [List.mem_singleton.1 this]
    exact h2

theorem best_restart [StrictPO E] {s : PopSt M E} (h : Best s) (r : Inner M E) : Best (popRestart s r) := by
  obtain ⟨h1, h2, -⟩ := storeBest_run_spec r.notes s.sbc
  have hall : ∀ q ∈ s.runs ++ [r], ∀ p ∈ q.notes, ¬ p.2 < (s.sbc.run r.notes).bestObjective := by
    intro q hq p hp
    rcases List.mem_append.1 hq with hq | hq
    · rcases h1 with h1 | h1
      · rw [h1]; exact h.all q hq p hp
      · exact fun hlt => h.all q hq p hp (StrictPO.trans _ _ _ hlt h1)
    · rw [List.mem_singleton.1 hq] at hp
      exact h2 p hp
  obtain ⟨q0, hq0, ho⟩ := h.some
  refine ⟨hall, ?_, ?_, ?_⟩
  · simp only [popRestart]
    split_ifs
    · exact NW.rfl
    · exact h.le.trans h1
  · simp only [popRestart]
    split_ifs
    · exact ⟨r, by simp, rfl⟩
    · exact ⟨q0, List.mem_append_left _ hq0, ho⟩
  · intro pre q post hs hrec q' hq' p hp
    by_cases hb : r.obj < s.overall
    · have : (popRestart s r).overallSbc = s.sbc.run r.notes := by simp [popRestart, hb]
      rw [this]
      refine hall q' ?_ p hp
      rw [show s.runs ++ [r] = pre ++ q :: post from hs]
      rcases List.mem_append.1 hq' with h | h
      · exact List.mem_append_left _ h
      · rw [List.mem_singleton.1 h]; simp
    · have e : (popRestart s r).overallSbc = s.overallSbc := by simp [popRestart, hb]
      rw [e]
      rcases List.eq_nil_or_concat post with rfl | ⟨post', z, rfl⟩
      · have hs' : s.runs ++ [r] = pre ++ [q] := hs
        obtain ⟨e1, e2⟩ := List.append_inj' hs' rfl
        cases e2
        exact absurd (by rw [ho]; exact hrec q0 (e1 ▸ hq0)) hb
      · have hs' : s.runs ++ [r] = (pre ++ q :: post') ++ [z] := by rw [List.append_assoc]; simpa [popRestart] using hs
        obtain ⟨e1, -⟩ := List.append_inj' hs' rfl
        exact h.records pre q post' e1 hrec q' hq' p hp

theorem best_loop [StrictPO E] (inner : PopSt M E → Inner M E) (budget : Nat) : ∀ (rem : Nat) {s : PopSt M E}, Best s →
    Best (popLoop inner budget rem s)
  | 0, _, h => h
  | rem + 1, s, h => by
    simp only [popLoop]
    split_ifs
    · exact best_restart h _
    · exact best_loop inner budget rem (best_restart h _)

/-- **C87** (partial) The returned objective is not above any candidate reported by an inner run that returned less than all inner runs
before it, nor above any candidate reported by these; in particular by the first. Missing: the candidates reported later, which the
refutation shows may be better. -/
theorem C87_pop_best_candidate_partial [StrictPO E] (maxVal : E) (counter : Nat) (first : Inner M E) (inner : PopSt M E → Inner M E)
    (maxRestarts budget : Nat) {pre post : List (Inner M E)} {r : Inner M E}
    (h : (popOptimize maxVal counter first inner maxRestarts budget).runs = pre ++ r :: post) (hrec : ∀ q ∈ pre, r.obj < q.obj) :
    ∀ q ∈ pre ++ [r], ∀ p ∈ q.notes, ¬ p.2 < (popOptimize maxVal counter first inner maxRestarts budget).overallSbc.bestObjective :=
  (best_loop inner budget maxRestarts (best_start maxVal counter first)).records pre r post h hrec

/-- The second run improves on the first: the candidate 3 it reported is not lost. -/
example : (popOptimize (1000 : Int) 0 (⟨5, 5, [(5, 5)], 10, false⟩ : Inner Int Int)
    (fun _ => ⟨4, 4, [(3, 3), (4, 4)], 10, false⟩) 1 100).runs = [⟨5, 5, [(5, 5)], 10, false⟩] ++ [⟨4, 4, [(3, 3), (4, 4)], 10, false⟩] ∧
    (popOptimize (1000 : Int) 0 (⟨5, 5, [(5, 5)], 10, false⟩ : Inner Int Int)
    (fun _ => ⟨4, 4, [(3, 3), (4, 4)], 10, false⟩) 1 100).overallSbc.bestObjective = 3 := ⟨rfl, by decide⟩

theorem loop_prefix (inner : PopSt M E → Inner M E) (budget b : Nat) : ∀ (rem : Nat) (s : PopSt M E) (f : Inner M E) (rs : List (Inner M E)),
    s.runs = f :: rs → s.counter = b + (rs.map (·.evals)).sum → s.total = overcount b (rs.map (·.evals)) →
    ∃ rs', (popLoop inner budget rem s).runs = f :: rs ++ rs' ∧ rs'.length ≤ rem ∧
      ∀ pre r post, rs' = pre ++ r :: post → post ≠ [] → overcount b ((rs ++ pre ++ [r]).map (·.evals)) < budget
  | 0, s, f, rs, h, _, _ => ⟨[], by simpa [popLoop] using h, by simp, fun pre r post h => by simp at h⟩
  | rem + 1, s, f, rs, h, hc, ht => by
    have h' : (popRestart s (inner s)).runs = f :: (rs ++ [inner s]) := by simp [popRestart, h]
    have ht' : (popRestart s (inner s)).total = overcount b ((rs ++ [inner s]).map (·.evals)) := by
      rw [List.map_append, List.map_singleton, overcount_append, ← ht, ← hc]
      rfl
    have hc' : (popRestart s (inner s)).counter = b + ((rs ++ [inner s]).map (·.evals)).sum := by
      simp only [popRestart, List.map_append, List.sum_append, List.map_singleton, List.sum_singleton, hc]
      omega
    simp only [popLoop]
    split_ifs with hb
    · refine ⟨[inner s], by simpa using h', by simp, fun pre r post e hne => ?_⟩
      cases pre with
      | nil => simp only [List.nil_append, List.cons.injEq] at e; exact absurd e.2.symm hne
      | cons a pre => simp at e
    · obtain ⟨rs', h1, h2, h3⟩ := loop_prefix inner budget b rem _ f _ h' hc' ht'
      refine ⟨inner s :: rs', by simpa using h1, by simp; omega, fun pre r post e hne => ?_⟩
      cases pre with
      | nil =>
        simp only [List.nil_append, List.cons.injEq] at e
        rw [← e.1, List.append_nil, ← ht']
        omega
      | cons a pre =>
        simp only [List.cons_append, List.cons.injEq] at e
        have := h3 pre r post e.2 hne
        rw [← e.1]
        simpa using this

/-- **C86** (partial) After an inner run in which a callback asked to stop (indeed after any restart) another one is started only while
fewer than `maxRestarts` restarts were made and what is counted as evaluations (see `C85_pop_budget_partial`) is below the budget. Missing:
that no run is started. -/
theorem C86_pop_stop_partial (maxVal : E) (counter : Nat) (first : Inner M E) (inner : PopSt M E → Inner M E) (maxRestarts budget : Nat)
    {pre post : List (Inner M E)} {r : Inner M E}
    (h : (popOptimize maxVal counter first inner maxRestarts budget).runs = first :: pre ++ r :: post) (hpost : post ≠ []) :
    pre.length + 1 < maxRestarts ∧ overcount (counter + first.evals) ((pre ++ [r]).map (·.evals)) < budget := by
  obtain ⟨rs', h1, h2, h3⟩ := loop_prefix inner budget (counter + first.evals) maxRestarts (popStart maxVal counter first) first [] rfl
    (by simp [popStart]) (by simp [popStart, overcount])
  have e : rs' = pre ++ r :: post := by
    have : first :: [] ++ rs' = first :: pre ++ r :: post := h1.symm.trans h
    simpa using this
  refine ⟨?_, by simpa using h3 pre r post e hpost⟩
  have : 0 < post.length := List.length_pos_of_ne_nil hpost
  rw [e] at h2
  simp only [List.length_append, List.length_cons] at h2
  omega

/-- Three restarts allowed, the budget for the restarts is used up by the second. -/
example : (popOptimize (1000 : Int) 0 (⟨5, 5, [(5, 5)], 10, false⟩ : Inner Int Int) (fun _ => ⟨5, 5, [(5, 5)], 10, true⟩) 3 45).runs =
    ⟨5, 5, [(5, 5)], 10, false⟩ :: [] ++ ⟨5, 5, [(5, 5)], 10, true⟩ :: [⟨5, 5, [(5, 5)], 10, true⟩] := rfl

end Ens.Cmaes
