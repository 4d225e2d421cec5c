import Verif.Fw.Props

/-
Frank-Wolfe: the trace of the model is what user code sees (C311).
-/

namespace Ens.Fw

variable {W X G E : Type}

/-- `log` is kept by the objective and the callbacks; the linear minimisation and the update rule do not touch it. -/
structure Logs (u : User W X G E) (log : W → List (Ev X E)) : Prop where
  evalGrad : ∀ w x, log (u.evalGrad w x).1 = log w ++ [.eval x (u.evalGrad w x).2.1]
  lmo : ∀ w g, log (u.lmo w g).1 = log w
  update : ∀ w x s i, log (u.update w x s i).1 = log w
  cbBegin : ∀ w x, log (u.cbBegin w x).1 = log w
  cbEval : ∀ w x o g, log (u.cbEval w x o g).1 = log w ++ if (u.cbEval w x o g).2.2 then [.stop] else []
  cbStep : ∀ w x, log (u.cbStep w x).1 = log w ++ .step (u.cbStep w x).2.1 :: if (u.cbStep w x).2.2 then [.stop] else []
  cbEnd : ∀ w x, log (u.cbEnd w x).1 = log w

/-- Any user code with a log added. -/
def User.logging (u : User W X G E) : User (W × List (Ev X E)) X G E :=
  { u with
    evalGrad := fun w x => let r := u.evalGrad w.1 x; ((r.1, w.2 ++ [.eval x r.2.1]), r.2)
    lmo := fun w g => let r := u.lmo w.1 g; ((r.1, w.2), r.2)
    update := fun w x s i => let r := u.update w.1 x s i; ((r.1, w.2), r.2)
    cbBegin := fun w x => let r := u.cbBegin w.1 x; ((r.1, w.2), r.2)
    cbEval := fun w x o g => let r := u.cbEval w.1 x o g; ((r.1, w.2 ++ if r.2.2 then [.stop] else []), r.2)
    cbStep := fun w x => let r := u.cbStep w.1 x; ((r.1, w.2 ++ .step r.2.1 :: if r.2.2 then [.stop] else []), r.2)
    cbEnd := fun w x => let r := u.cbEnd w.1 x; ((r.1, w.2), r.2) }

theorem logging_logs (u : User W X G E) : Logs u.logging Prod.snd := by
  constructor <;> intros <;> rfl

variable {u : User W X G E} {log : W → List (Ev X E)}

theorem one_stop {tr : List (Ev X E)} (hn : Ev.stop ∉ tr) (b : Bool) (e : Ev X E) (he : e ≠ .stop := by simp) :
    (false || b) = true ↔ Ev.stop ∈ tr ++ e :: if b then [.stop] else [] := by
  cases b <;> simp [hn, he.symm]

theorem two_stops {tr : List (Ev X E)} (hn : Ev.stop ∉ tr) (b c : Bool) (e e' : Ev X E) (he : e ≠ .stop := by simp)
    (he' : e' ≠ .stop := by simp) :
    (b || c) = true ↔ Ev.stop ∈ (tr ++ e :: if b then [.stop] else []) ++ e' :: if c then [.stop] else [] := by
  cases b <;> cases c <;> simp [hn, he.symm, he'.symm]

/-- **C311** Frank-Wolfe and OMP: the log kept by the objective and the callbacks holds exactly the events of the
run, and the flag at the end says whether the log holds an answer "stop". -/
theorem C311_fw (h : Logs u log) {m fuel : Nat} {w : W} {x : X} {e : Exit} {t : St W X E}
    (hr : optimize u m fuel w x = some (e, t)) :
    log t.w = log w ++ t.trace ∧ (t.term = true ↔ Ev.stop ∈ t.trace) := by
  unfold optimize at hr
  rw [Option.map_eq_some_iff] at hr
  obtain ⟨r, hr, he⟩ := hr
  have key := iterate_inv (step := body u m)
    (fun t => log t.w = log w ++ t.trace ∧ (t.term = true ↔ Ev.stop ∈ t.trace))
    (fun r => log r.2.w = log w ++ r.2.trace ∧ (r.2.term = true ↔ Ev.stop ∈ r.2.trace)) ?_ ?_ fuel _ r
    ⟨by simp [start, h.cbBegin], by simp [start]⟩ hr
  · cases he
    simpa [finish, h.cbEnd] using key
  · intro t t' ht hst
    unfold body at hst
    by_cases h1 : t.i ≠ m ∧ t.term = false
    · rw [if_pos h1] at hst
      have hn : Ev.stop ∉ t.trace := fun hs => by simpa [h1.2] using ht.2.2 hs
      simp only at hst
      by_cases hw : u.within t.x (u.lmo (u.cbEval (u.evalGrad t.w t.x).1 t.x (u.evalGrad t.w t.x).2.1 (u.evalGrad t.w t.x).2.2).1
          (u.cbEval (u.evalGrad t.w t.x).1 t.x (u.evalGrad t.w t.x).2.1 (u.evalGrad t.w t.x).2.2).2.1).2
          (u.cbEval (u.evalGrad t.w t.x).1 t.x (u.evalGrad t.w t.x).2.1 (u.evalGrad t.w t.x).2.2).2.1 = true
      · rw [if_pos hw] at hst; cases hst
      · rw [if_neg hw] at hst
        cases hst
        exact ⟨by simp only [h.cbStep, h.update, h.lmo, h.cbEval, h.evalGrad, ht.1, List.append_assoc, List.cons_append,
          List.nil_append], two_stops hn _ _ _ _⟩
    · rw [if_neg h1] at hst; cases hst
  · intro t r ht hst
    unfold body at hst
    by_cases h1 : t.i ≠ m ∧ t.term = false
    · rw [if_pos h1] at hst
      have hn : Ev.stop ∉ t.trace := fun hs => by simpa [h1.2] using ht.2.2 hs
      simp only at hst
      by_cases hw : u.within t.x (u.lmo (u.cbEval (u.evalGrad t.w t.x).1 t.x (u.evalGrad t.w t.x).2.1 (u.evalGrad t.w t.x).2.2).1
          (u.cbEval (u.evalGrad t.w t.x).1 t.x (u.evalGrad t.w t.x).2.1 (u.evalGrad t.w t.x).2.2).2.1).2
          (u.cbEval (u.evalGrad t.w t.x).1 t.x (u.evalGrad t.w t.x).2.1 (u.evalGrad t.w t.x).2.2).2.1 = true
      · rw [if_pos hw] at hst
        cases hst
        exact ⟨by simp only [h.lmo, h.cbEval, h.evalGrad, ht.1, List.append_assoc, List.cons_append, List.nil_append],
          h1.2 ▸ one_stop hn _ _⟩
      · rw [if_neg hw] at hst; cases hst
    · rw [if_neg h1] at hst; cases hst; exact ht

/-- The hypotheses are met by a logged run of two steps. -/
example : Logs (lin false).logging Prod.snd ∧ (optimize (lin false).logging 3 10 ((), []) 1).isSome = true :=
  ⟨logging_logs _, by decide +kernel⟩

end Ens.Fw
