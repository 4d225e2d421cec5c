import Verif.Gd.Props

/-
Gradient descent: the trace of the model is what user code sees (C311).
-/

namespace Ens.Gd

variable {W M G E : Type}

/-- `log` is kept by the objective and the callbacks: every call with its arguments, and the answers. -/
structure Logs (env : Env W M G E) (log : W → List (Ev M E)) : Prop where
  evalGrad : ∀ w x, log (env.evalGrad w x).1 = log w ++ [.eval x (env.evalGrad w x).2.1]
  cbBegin : ∀ w x, log (env.cbBegin w x).1 = log w ++ [.beginOpt x]
  cbEvalGrad : ∀ w x o g, log (env.cbEvalGrad w x o g).1 = log w ++ [.cbEval (env.cbEvalGrad w x o g).2.2]
  cbStep : ∀ w x, log (env.cbStep w x).1 = log w ++ [.stepTaken (env.cbStep w x).2.2]
  cbEnd : ∀ w x, log (env.cbEnd w x).1 = log w ++ [.endOpt x]

/-- Any user code with a log added. -/
def Env.logging (env : Env W M G E) : Env (W × List (Ev M E)) M G E where
  evalGrad w x := let r := env.evalGrad w.1 x; ((r.1, w.2 ++ [.eval x r.2.1]), r.2)
  cbBegin w x := let r := env.cbBegin w.1 x; ((r.1, w.2 ++ [.beginOpt x]), r.2)
  cbEvalGrad w x o g := let r := env.cbEvalGrad w.1 x o g; ((r.1, w.2 ++ [.cbEval r.2.2]), r.2)
  cbStep w x := let r := env.cbStep w.1 x; ((r.1, w.2 ++ [.stepTaken r.2.2]), r.2)
  cbEnd w x := let r := env.cbEnd w.1 x; ((r.1, w.2 ++ [.endOpt x]), r.2)
  move := env.move
  isBad := env.isBad
  isClose := env.isClose
  maxVal := env.maxVal

theorem logging_logs (env : Env W M G E) : Logs env.logging Prod.snd := by
  constructor <;> intros <;> rfl

def Ev.isMove : Ev M E → Bool
  | .step _ _ => true
  | _ => false

/-- The events seen by user code. -/
def calls (t : List (Ev M E)) : List (Ev M E) := t.filter fun e => !e.isMove

variable {env : Env W M G E} {log : W → List (Ev M E)} {pre : List (Ev M E)} {m : Nat}

theorem body_kept (h : Logs env log) {s : St W M E} (hs : log s.w = pre ++ calls s.trace) :
    (∀ s', body env s = .cont s' → log s'.w = pre ++ calls s'.trace) ∧
      ∀ e s', body env s = .ret e s' → log s'.w = pre ++ calls s'.trace := by
  unfold body
  simp only
  refine ⟨fun s' he => ?_, fun e s' he => ?_⟩ <;> split_ifs at he <;> cases he <;>
    simp [evalPart, movePart, h.cbEvalGrad, h.evalGrad, h.cbStep, hs, calls, Ev.isMove]

theorem loop_kept (h : Logs env log) : ∀ (fuel : Nat) (s : St W M E), log s.w = pre ++ calls s.trace → ∀ e s',
    loop env m fuel s = .done e s' → log s'.w = pre ++ calls s'.trace := by
  intro fuel
  induction fuel with
  | zero =>
    intro s hs e s' he
    unfold loop at he
    split_ifs at he
    cases he; exact hs
  | succ n ih =>
    intro s hs e s' he
    unfold loop at he
    split_ifs at he
    · have hb := body_kept h hs
      cases hr : body env s with
      | cont s1 => rw [hr] at he; exact ih s1 (hb.1 _ hr) e s' he
      | ret e1 s1 => rw [hr] at he; cases he; exact hb.2 _ _ hr
    · cases he; exact hs

/-- **C311** Gradient descent: the log kept by the objective and the callbacks holds exactly the events of the run. -/
theorem C311_gd (h : Logs env log) {fuel : Nat} {w : W} {x : M} {r : Result W M E}
    (hr : optimize env m fuel w x = some r) : log r.w = log w ++ calls r.trace := by
  unfold optimize at hr
  split at hr
  · cases hr
  · rename_i e s he
    cases hr
    have := loop_kept (pre := log w) h fuel _ (by simp [start, h.cbBegin, calls, Ev.isMove]) e s he
    simp [h.cbEnd, this, calls, Ev.isMove]

/-- **C311** Nothing is evaluated after a request: every entry of the log before a call of the objective is not an answer
"stop". -/
theorem C311_gd_stop (h : Logs env log) (hm : m < 2 ^ 64) {fuel : Nat} {w : W} {x : M} {r : Result W M E}
    (hr : optimize env m fuel w x = some r) :
    ∃ l, log r.w = log w ++ l ∧ ∀ pre post y o, l = pre ++ .eval y o :: post → ∀ e ∈ pre, e.stops = false := by
  refine ⟨_, C311_gd h hr, ?_⟩
  have hcl : ∀ (t : List (Ev M E)), anyStop (calls t) = anyStop t := by
    intro t
    induction t with
    | nil => rfl
    | cons a t ih => cases a <;> simp_all [calls, anyStop, Ev.isMove, Ev.stops]
  have hlaw : ∀ t : List (Ev M E), (∀ pre post y o, t = pre ++ .eval y o :: post → anyStop pre = false) →
      ∀ pre post y o, calls t = pre ++ .eval y o :: post → ∀ e ∈ pre, e.stops = false := by
    intro t ht pre post y o he e hm
    unfold calls at he
    obtain ⟨a, c, rfl, ha, hc⟩ := List.filter_eq_append_iff.1 he
    obtain ⟨a', b, rfl, ha', -, hb⟩ := List.filter_eq_cons_iff.1 hc
    have hn : List.filter (fun e : Ev M E => !e.isMove) a' = [] := List.filter_eq_nil_iff.2 ha'
    have h1 := ht (a ++ a') b y o (by simp)
    rw [← hcl, show calls (a ++ a') = pre by simp [calls, ha, hn], anyStop, List.any_eq_false] at h1
    exact Bool.eq_false_iff.2 fun hs => h1 e hm hs
  refine hlaw _ fun pre post y o he => ?_
  obtain ⟨s, k, htr, -, -, hc⟩ := optimize_facts hm hr
  have ha : Along EvLaw r.trace := by
    rw [htr, along_snoc]
    exact ⟨hc.elim (fun c => c.2.1.law) fun c => c.2.1.law, trivial⟩
  exact (ha pre _ post he).1

/-- The hypotheses are met: two evaluations, and what the user's log shows. -/
example : Logs (demo false).logging Prod.snd ∧ ∃ r, optimize (demo false).logging 3 10 ((), []) 100 = some r ∧
    r.w.2 = [.beginOpt 100, .eval 100 100, .cbEval false, .stepTaken false, .eval 99 99, .cbEval false, .stepTaken false,
      .endOpt 98] :=
  ⟨logging_logs _, _, rfl, rfl⟩

end Ens.Gd
