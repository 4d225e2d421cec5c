import Verif.Sa.Props

/-
Simulated annealing: the trace of the model is what user code sees (C311).
-/

namespace Ens.Sa

variable {W E R : Type}

/-- `log` is kept by the objective and the callbacks; the random numbers are not part of it. -/
structure Logs (env : Env W E R) (log : W → List (Ev E R)) : Prop where
  evaluate : ∀ w x, log (env.evaluate w x).1 = log w ++ [.eval x (env.evaluate w x).2]
  cbEvaluate : ∀ w x e, log (env.cbEvaluate w x e).1 = log w ++ [.cbEval (env.cbEvaluate w x e).2]
  cbBegin : ∀ w x, log (env.cbBegin w x).1 = log w ++ [.beginOpt x (env.cbBegin w x).2]
  cbStep : ∀ w x, log (env.cbStep w x).1 = log w ++ [.stepTaken (env.cbStep w x).2.1 (env.cbStep w x).2.2]
  randu : ∀ w, log (env.randu w).1 = log w

/-- Any user code with a log added. -/
def Env.logging (env : Env W E R) : Env (W × List (Ev E R)) E R where
  evaluate w x := let r := env.evaluate w.1 x; ((r.1, w.2 ++ [.eval x r.2]), r.2)
  cbEvaluate w x e := let r := env.cbEvaluate w.1 x e; ((r.1, w.2 ++ [.cbEval r.2]), r.2)
  cbBegin w x := let r := env.cbBegin w.1 x; ((r.1, w.2 ++ [.beginOpt x r.2]), r.2)
  cbStep w x := let r := env.cbStep w.1 x; ((r.1, w.2 ++ [.stepTaken r.2.1 r.2.2]), r.2)
  randu w := let r := env.randu w.1; ((r.1, w.2), r.2)
  propose := env.propose
  accepts := env.accepts
  control := env.control
  cool := env.cool
  isClose := env.isClose

theorem logging_logs (env : Env W E R) : Logs env.logging Prod.snd := by
  constructor <;> intros <;> rfl

def Ev.inner : Ev E R → Bool
  | .move _ => true
  | .cool _ => true
  | .endOpt _ => true
  | _ => false

/-- The events seen by the objective and by the callbacks up to the final notification. -/
def calls (t : List (Ev E R)) : List (Ev E R) := t.filter fun e => !e.inner

variable {env : Env W E R} {log : W → List (Ev E R)} {pre : List (Ev E R)} {p : Params R}

theorem advance_kept (s : St W E R) : (advance env p s).w = s.w ∧ (advance env p s).trace = s.trace := by
  unfold advance
  simp only
  split_ifs <;> exact ⟨rfl, rfl⟩

theorem generateMove_kept (h : Logs env log) {s s' : St W E R} (hs : log s.w = pre ++ calls s.trace)
    (he : generateMove env p s = some s') : log s'.w = pre ++ calls s'.trace := by
  unfold generateMove at he
  split at he
  · cases he
    rw [(advance_kept _).1, (advance_kept _).2]
    simp [tryMove, h.randu, h.cbEvaluate, h.evaluate, hs, calls, Ev.inner]
  · cases he

theorem initLoop_kept (h : Logs env log) : ∀ (n : Nat) (s s' : St W E R), log s.w = pre ++ calls s.trace →
    initLoop env p n s = some s' → log s'.w = pre ++ calls s'.trace := by
  intro n
  induction n with
  | zero => intro s s' hs he; cases he; exact hs
  | succ n ih =>
    intro s s' hs he
    unfold initLoop at he
    split at he
    · cases he
    · rename_i s1 h1
      have := generateMove_kept h hs h1
      split_ifs at he
      · cases he; exact this
      · exact ih _ _ this he

theorem mainLoop_kept (h : Logs env log) : ∀ (n : Nat) (s s' : St W E R) (f : Bool), log s.w = pre ++ calls s.trace →
    mainLoop env p n s = some (s', f) → log s'.w = pre ++ calls s'.trace := by
  intro n
  induction n with
  | zero => intro s s' f hs he; cases he; exact hs
  | succ n ih =>
    intro s s' f hs he
    unfold mainLoop at he
    split_ifs at he
    · cases he; exact hs
    · split at he
      · cases he
      · rename_i s1 h1
        have h2 := generateMove_kept h hs h1
        have h3 : log (afterMove env s.energy s1).w = pre ++ calls (afterMove env s.energy s1).trace := by
          simp [afterMove, h.cbStep, h2, calls, Ev.inner]
        simp only at he
        split_ifs at he
        · cases he; exact h2
        · cases he; exact h3
        · exact ih _ _ _ h3 he

/-- **C311** Simulated annealing: the log kept by the objective and the callbacks holds exactly the evaluations, answers and
notifications of the run, in order. -/
theorem C311_sa (h : Logs env log) {temp : R} {w : W} {x : List E} {r : Result W E R}
    (hr : optimize env p temp w x = some r) : log r.w = log w ++ calls r.trace := by
  unfold optimize at hr
  split at hr
  · cases hr
  · rename_i s hs
    split at hr
    · cases hr
    · rename_i s1 f h1
      cases hr
      have h0 := initLoop_kept (pre := log w) h _ _ _ (by simp [start, h.cbBegin, h.cbEvaluate, h.evaluate, calls, Ev.inner]) hs
      have := mainLoop_kept h _ _ _ _ h0 h1
      simp [this, calls, Ev.inner]

/-- The hypotheses are met: three annealing moves of a logged run. -/
example : Logs demo.logging Prod.snd ∧ ∃ r, optimize demo.logging (demoParams 3) 0 ((), []) [1, 5] = some r ∧
    r.x = [0, 4] ∧ calls r.trace = r.w.2 ∧ r.w.2 ≠ [] :=
  ⟨logging_logs _, _, rfl, rfl, rfl, by decide⟩

end Ens.Sa
