import Verif.Sgd.Props
import Verif.Sgd.Object

/-
SGD: the trace of the model is what user code sees (C311).

The theorems on SGD speak about the trace of the model. Here the objective and the callbacks keep a log of their own,
in their own state, and the log after a run is the trace of the run.
-/

namespace Ens.Sgd

variable {W M G E : Type}

/-- `log` is kept by the user code: every call of the objective and of a callback with its arguments, for callbacks that
can ask for a stop also the answer. The update and decay policies do not touch it, nor does `Callback::Evaluate`. -/
structure Logs (env : Env W M G E) (log : W → List (Ev M E)) : Prop where
  evalGrad : ∀ w x a k, log (env.evalGrad w x a k).1 = log w ++ [.evalGrad x a k (env.evalGrad w x a k).2.1]
  evaluate : ∀ w x a k, log (env.evaluate w x a k).1 = log w ++ [.evaluate x a k (env.evaluate w x a k).2]
  shuffle : ∀ w, log (env.shuffle w) = log w ++ [.shuffle]
  update : ∀ w x g, log (env.update w x g).1 = log w
  decay : ∀ w x g, log (env.decay w x g).1 = log w
  cbBegin : ∀ w x, log (env.cbBegin w x).1 = log w ++ [.beginOpt x]
  cbBeginEpoch : ∀ w x n o, log (env.cbBeginEpoch w x n o).1 = log w ++ [.beginEpoch n o (env.cbBeginEpoch w x n o).2]
  cbEvalGrad : ∀ w x o g, log (env.cbEvalGrad w x o g).1 = log w ++ [.cbEvalGrad (env.cbEvalGrad w x o g).2.2]
  cbStep : ∀ w x, log (env.cbStep w x).1 = log w ++ [.stepTaken (env.cbStep w x).2.2]
  cbEndEpoch : ∀ w x n o, log (env.cbEndEpoch w x n o).1 = log w ++ [.endEpoch n o (env.cbEndEpoch w x n o).2]
  cbEvaluate : ∀ w x o, log (env.cbEvaluate w x o).1 = log w
  cbEnd : ∀ w x, log (env.cbEnd w x).1 = log w ++ [.endOpt x]

/-- Any user code and policies with a log added. -/
def Env.logging (env : Env W M G E) : Env (W × List (Ev M E)) M G E where
  evalGrad w x a k := let r := env.evalGrad w.1 x a k; ((r.1, w.2 ++ [.evalGrad x a k r.2.1]), r.2)
  evaluate w x a k := let r := env.evaluate w.1 x a k; ((r.1, w.2 ++ [.evaluate x a k r.2]), r.2)
  shuffle w := (env.shuffle w.1, w.2 ++ [.shuffle])
  update w x g := let r := env.update w.1 x g; ((r.1, w.2), r.2)
  decay w x g := let r := env.decay w.1 x g; ((r.1, w.2), r.2)
  cbBegin w x := let r := env.cbBegin w.1 x; ((r.1, w.2 ++ [.beginOpt x]), r.2)
  cbBeginEpoch w x n o := let r := env.cbBeginEpoch w.1 x n o; ((r.1, w.2 ++ [.beginEpoch n o r.2]), r.2)
  cbEvalGrad w x o g := let r := env.cbEvalGrad w.1 x o g; ((r.1, w.2 ++ [.cbEvalGrad r.2.2]), r.2)
  cbStep w x := let r := env.cbStep w.1 x; ((r.1, w.2 ++ [.stepTaken r.2.2]), r.2)
  cbEndEpoch w x n o := let r := env.cbEndEpoch w.1 x n o; ((r.1, w.2 ++ [.endEpoch n o r.2]), r.2)
  cbEvaluate w x o := let r := env.cbEvaluate w.1 x o; ((r.1, w.2), r.2)
  cbEnd w x := let r := env.cbEnd w.1 x; ((r.1, w.2 ++ [.endOpt x]), r.2)
  add := env.add
  zero := env.zero
  divN := env.divN
  dblMax := env.dblMax
  isBad := env.isBad
  isClose := env.isClose

theorem logging_logs (env : Env W M G E) : Logs env.logging Prod.snd := by
  constructor <;> intros <;> rfl

def Ev.isUpdate : Ev M E → Bool
  | .update _ _ => true
  | _ => false

/-- The events seen by user code: all but the updates of the coordinates by the policy. -/
def calls (t : List (Ev M E)) : List (Ev M E) := t.filter fun e => !e.isUpdate

variable {env : Env W M G E} {log : W → List (Ev M E)} {pre : List (Ev M E)} {p : Params}

/-- The log of the state's world is the trace (started at `pre`), and the flag says whether a callback asked for a stop. -/
def Kept (log : W → List (Ev M E)) (pre : List (Ev M E)) (s : St W M E) : Prop :=
  log s.w = pre ++ calls s.trace ∧ s.terminate = anyStop s.trace

theorem start_kept (h : Logs env log) (w : W) (x : M) : Kept log (log w) (start env w x) := by
  constructor
  · simp [start, h.cbBeginEpoch, h.cbBegin, calls, Ev.isUpdate]
  · simp [start, anyStop, Ev.stops]

theorem stepBatch_kept (h : Logs env log) {s : St W M E} (hs : Kept log pre s) : Kept log pre (stepBatch env p s) := by
  obtain ⟨h1, h2⟩ := hs
  constructor
  · simp [stepBatch, h.decay, h.cbStep, h.update, h.cbEvalGrad, h.evalGrad, h1, calls, Ev.isUpdate]
  · simp [stepBatch, h2, anyStop, Ev.stops, Bool.or_assoc]

theorem epochEnd_kept (h : Logs env log) {s : St W M E} (hs : Kept log pre s) :
    (∀ s', epochEnd env p s = .cont s' → Kept log pre s') ∧ ∀ e s', epochEnd env p s = .ret e s' → Kept log pre s' := by
  obtain ⟨h1, h2⟩ := hs
  unfold epochEnd
  simp only
  refine ⟨fun s' he => ?_, fun e s' he => ?_⟩ <;> split_ifs at he <;> cases he <;>
    (constructor <;> simp [h.cbEndEpoch, h.cbBeginEpoch, h.shuffle, h1, h2, calls, Ev.isUpdate, anyStop, Ev.stops, Bool.or_assoc])

theorem body_kept (h : Logs env log) {s : St W M E} (hs : Kept log pre s) :
    (∀ s', body env p s = .cont s' → Kept log pre s') ∧ ∀ e s', body env p s = .ret e s' → Kept log pre s' := by
  have hb := stepBatch_kept (p := p) h hs
  unfold body
  by_cases h0 : p.numFunctions = 0
  · rw [if_pos h0]; exact ⟨fun _ h => (by cases h), fun _ _ h => (by cases h)⟩
  · rw [if_neg h0]
    simp only
    by_cases h1 : (stepBatch env p s).cur % p.numFunctions = 0
    · rw [if_pos h1]; exact epochEnd_kept h hb
    · rw [if_neg h1]; exact ⟨fun _ h => (by cases h; exact hb), fun _ _ h => (by cases h)⟩

theorem loop_kept (h : Logs env log) : ∀ (fuel : Nat) (s : St W M E), Kept log pre s → ∀ e s',
    loop env p fuel s = .done e s' → Kept log pre s' := by
  intro fuel
  induction fuel with
  | zero =>
    intro s hs e s' he
    unfold loop at he
    split_ifs at he
    cases he; exact hs
  | succ n ih =>
    intro s hs e s' he
    unfold loop at he
    split_ifs at he
    · have hb := body_kept (p := p) h hs
      cases hr : body env p s with
      | cont s1 => rw [hr] at he; exact ih s1 (hb.1 _ hr) e s' he
      | ret e1 s1 => rw [hr] at he; cases he; exact hb.2 _ _ hr
      | ub => rw [hr] at he; cases he
    · cases he; exact hs

theorem exactLoop_kept (h : Logs env log) : ∀ (fuel i : Nat) (s : St W M E), Kept log pre s → ∀ s',
    exactLoop env p fuel i s = some s' → Kept log pre s' := by
  intro fuel
  induction fuel with
  | zero =>
    intro i s hs s' he
    unfold exactLoop at he
    split_ifs at he
    cases he; exact hs
  | succ n ih =>
    intro i s hs s' he
    unfold exactLoop at he
    split_ifs at he
    · refine ih _ _ ?_ s' he
      constructor
      · simp [h.cbEvaluate, h.evaluate, hs.1, calls, Ev.isUpdate]
      · simp [hs.2, anyStop, Ev.stops]
    · cases he; exact hs

/-- **C311** SGD with any policies: a log kept by the objective and the callbacks holds, after a run, exactly the events of
the run in order; no call is made that the trace does not show and none is lost. -/
theorem C311_sgd (h : Logs env log) {fuel : Nat} {w : W} {x : M} {r : Result W M E}
    (hr : optimize env p fuel w x = .returned r) : log r.w = log w ++ calls r.trace := by
  have key : ∀ (e : Exit) (s : St W M E), Kept log (log w) s → log (finish env e s).w = log w ++ calls (finish env e s).trace := by
    intro e s hs
    simp [finish, h.cbEnd, hs.1, calls, Ev.isUpdate]
  have hl := fun e s => loop_kept (pre := log w) (p := p) h fuel _ (start_kept h w x) e s
  unfold optimize at hr
  split at hr
  · cases hr
  · cases hr
  · rename_i s he; cases hr; exact key _ _ (hl _ _ he)
  · rename_i s he; cases hr; exact key _ _ (hl _ _ he)
  · rename_i s he
    split_ifs at hr
    · split at hr
      · rename_i s' hx; cases hr
        exact key _ _ (exactLoop_kept h _ _ { s with overall := env.zero } ⟨(hl _ _ he).1, (hl _ _ he).2⟩ _ hx)
      · cases hr
    · cases hr; exact key _ _ (hl _ _ he)

theorem calls_split {t : List (Ev M E)} {pre post : List (Ev M E)} {e : Ev M E} (h : calls t = pre ++ e :: post) :
    ∃ a b, t = a ++ e :: b ∧ calls a = pre ∧ calls b = post := by
  unfold calls at h
  obtain ⟨a, c, rfl, ha, hc⟩ := List.filter_eq_append_iff.1 h
  obtain ⟨a', b, rfl, ha', -, hb⟩ := List.filter_eq_cons_iff.1 hc
  refine ⟨a ++ a', b, by simp, ?_, hb⟩
  have : List.filter (fun e : Ev M E => !e.isUpdate) a' = [] := List.filter_eq_nil_iff.2 ha'
  simp [calls, ha, this]

theorem stop_of_calls (t : List (Ev M E)) : anyStop (calls t) = anyStop t := by
  induction t with
  | nil => rfl
  | cons a t ih => cases a <;> simp_all [calls, anyStop, Ev.isUpdate, Ev.stops]

/-- **C311** What the log shows after a request: once an entry of the log is a callback's answer "stop", the log holds no
further call of `EvaluateWithGradient`. -/
theorem C311_sgd_stop (h : Logs env log) (hn : 0 < p.numFunctions) (hb : 0 < p.batchSize) {fuel : Nat} {w : W} {x : M}
    {r : Result W M E} (hr : optimize env p fuel w x = .returned r) :
    ∃ l, log r.w = log w ++ l ∧
      ∀ pre post y b sz o, l = pre ++ .evalGrad y b sz o :: post → ∀ e ∈ pre, e.stops = false := by
  refine ⟨_, C311_sgd h hr, fun pre post y b sz o he e hm => ?_⟩
  obtain ⟨a, c, ht, ha, -⟩ := calls_split he
  have := (C11_sgd_prompt_stop_partial hn hb hr).1 a c y b sz o ht
  rw [← stop_of_calls, ha] at this
  exact Bool.eq_false_iff.2 fun hs => by
    rw [anyStop, List.any_eq_false] at this
    exact this e hm hs

/-- The hypotheses are met: the log of a run whose callback asks for a stop in the first batch. -/
example : Logs (demoEnv true false).logging Prod.snd ∧
    ∃ r, optimize (demoEnv true false).logging (demoP false) 7 ((), []) 100 = .returned r ∧
      r.w.2 = [.beginOpt 100, .beginEpoch 1 0 false, .evalGrad 100 0 2 201, .cbEvalGrad true, .stepTaken false, .endOpt 98] :=
  ⟨logging_logs _, _, rfl, rfl⟩

/-! ### Objects -/

section Object
variable {U P D S V : Type}

/-- The log is kept by the objective and the callbacks given to an SGD object. -/
structure UserLogs (u : User V M G E) (log : V → List (Ev M E)) : Prop where
  evalGrad : ∀ v x a k, log (u.evalGrad v x a k).1 = log v ++ [.evalGrad x a k (u.evalGrad v x a k).2.1]
  evaluate : ∀ v x a k, log (u.evaluate v x a k).1 = log v ++ [.evaluate x a k (u.evaluate v x a k).2]
  shuffle : ∀ v, log (u.shuffle v) = log v ++ [.shuffle]
  cbBegin : ∀ v x, log (u.cbBegin v x).1 = log v ++ [.beginOpt x]
  cbBeginEpoch : ∀ v x n o, log (u.cbBeginEpoch v x n o).1 = log v ++ [.beginEpoch n o (u.cbBeginEpoch v x n o).2]
  cbEvalGrad : ∀ v x o g, log (u.cbEvalGrad v x o g).1 = log v ++ [.cbEvalGrad (u.cbEvalGrad v x o g).2.2]
  cbStep : ∀ v x, log (u.cbStep v x).1 = log v ++ [.stepTaken (u.cbStep v x).2.2]
  cbEndEpoch : ∀ v x n o, log (u.cbEndEpoch v x n o).1 = log v ++ [.endEpoch n o (u.cbEndEpoch v x n o).2]
  cbEvaluate : ∀ v x o, log (u.cbEvaluate v x o).1 = log v
  cbEnd : ∀ v x, log (u.cbEnd v x).1 = log v ++ [.endOpt x]

/-- **C311** SGD objects with any update and decay policy, in any state: the log of the user code grows by the events of the
run. -/
theorem C311_sgd_object {u : User V M G E} {log : V → List (Ev M E)} (h : UserLogs u log) {up : UpdPol U S M G}
    {dp : DecPol P D S M G} {reset : Bool} {fuel : Nat} {o : Obj U P D S} {v : V} {x : M}
    {r : Result (Live U P D S × V) M E} (hr : optimizeObj up dp u p reset fuel o v x = .returned r) :
    log r.w.2 = log v ++ calls r.trace := by
  refine C311_sgd (log := fun w => log w.2) (env := mkEnv up dp u) ?_ hr
  exact {
    evalGrad := fun w x a k => h.evalGrad w.2 x a k
    evaluate := fun w x a k => h.evaluate w.2 x a k
    shuffle := fun w => h.shuffle w.2
    update := fun _ _ _ => rfl
    decay := fun _ _ _ => rfl
    cbBegin := fun w x => h.cbBegin w.2 x
    cbBeginEpoch := fun w x n o => h.cbBeginEpoch w.2 x n o
    cbEvalGrad := fun w x o g => h.cbEvalGrad w.2 x o g
    cbStep := fun w x => h.cbStep w.2 x
    cbEndEpoch := fun w x n o => h.cbEndEpoch w.2 x n o
    cbEvaluate := fun w x o => h.cbEvaluate w.2 x o
    cbEnd := fun w x => h.cbEnd w.2 x }

end Object

end Ens.Sgd
