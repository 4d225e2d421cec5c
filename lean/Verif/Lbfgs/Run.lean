import Mathlib.Algebra.Order.Field.Basic
import Mathlib.Tactic.Linarith
import Mathlib.Tactic.Positivity
import Verif.Stop
import Verif.Lbfgs.Props

/-
L-BFGS: C162 (stop requests), C163 (trial steps of the line search), C164 (basis pairs).
-/

namespace Ens.Lbfgs

/-! ### C162: stop requests, by logging every call of user code in the world -/

section stop

variable {W X G E Mem : Type}

inductive Ev (X E : Type) where
  | eval (x : X)
  | told (x : X) (f : E) (stop : Bool)
  | begin (x : X)
  | step (x : X) (stop : Bool)
  | fin (x : X)

/-- The same user code, with a log of the calls. -/
def traced (env : Env W X G E Mem) : Env (W × List (Ev X E)) X G E Mem :=
  { env with
    evalGrad := fun w x => (((env.evalGrad w.1 x).1, w.2 ++ [.eval x]), (env.evalGrad w.1 x).2)
    cbEvalGrad := fun w x f g =>
      (((env.cbEvalGrad w.1 x f g).1, w.2 ++ [.told x f (env.cbEvalGrad w.1 x f g).2.2]), (env.cbEvalGrad w.1 x f g).2)
    cbBegin := fun w x => (((env.cbBegin w.1 x).1, w.2 ++ [.begin x]), (env.cbBegin w.1 x).2)
    cbStep := fun w x =>
      (((env.cbStep w.1 x).1, w.2 ++ [.step x (env.cbStep w.1 x).2.2]), (env.cbStep w.1 x).2)
    cbEnd := fun w x => (((env.cbEnd w.1 x).1, w.2 ++ [.fin x]), (env.cbEnd w.1 x).2) }

variable [Add E] [Mul E] [Neg E] [LT E] [DecidableLT E]

def LS.forget (s : LS (W × List (Ev X E)) G E) : LS W G E := { s with w := s.w.1 }
def St.forget (s : St (W × List (Ev X E)) X G E Mem) : St W X G E Mem := { s with w := s.w.1 }

theorem iterate_map {S R S' R' : Type} {f : S → S ⊕ R} {g : S' → S' ⊕ R'} (φ : S → S') (ψ : R → R')
    (h : ∀ s, g (φ s) = Sum.map φ ψ (f s)) : ∀ (n : Nat) (s : S), iterate g n (φ s) = (iterate f n s).map ψ := by
  intro n
  induction n with
  | zero => intro s; rfl
  | succ n ih =>
    intro s
    rw [iterate, iterate, h s]
    cases f s with
    | inl s' => exact ih s'
    | inr r => rfl

theorem ite_map {A B : Type} {c c' : Prop} [Decidable c] [Decidable c'] (φ : A → B) {a b : A} {a' b' : B} (hc : c' = c)
    (ha : a' = φ a) (hb : b' = φ b) : (if c' then a' else b') = φ (if c then a else b) := by
  subst hc
  split_ifs <;> assumption

theorem opt_map {A B O O' : Type} (φ : A → B) {ψ : O → O'} {o : Option O} {o' : Option O'} {a : A} {a' : B} {f : O → A}
    {f' : O' → B} (ho : o' = o.map ψ) (ha : a' = φ a) (hf : ∀ r, f' (ψ r) = φ (f r)) :
    (match (generalizing := false) o' with | none => a' | some r => f' r) = φ (match (generalizing := false) o with | none => a | some r => f r) := by
  subst ho
  cases o with
  | none => exact ha
  | some r => exact hf r

theorem opt_id {A : Type} (o : Option A) : o.map id = o := by simp

theorem lsStep_forget (env : Env W X G E Mem) (x : X) (dir : G) (a b c : E) (s : LS (W × List (Ev X E)) G E) :
    lsStep env x dir a b c s.forget = Sum.map LS.forget (Prod.map id LS.forget) (lsStep (traced env) x dir a b c s) := by
  unfold lsStep
  refine ite_map _ rfl rfl ?_
  refine opt_map (ψ := id) _ (opt_id _).symm rfl fun wd => ?_
  exact ite_map _ rfl rfl rfl

def tail (env : Env W X G E Mem) (s : St W X G E Mem) (dir : G) :
    Option (LsExit × LS W G E) → St W X G E Mem ⊕ (Exit × St W X G E Mem)
  | none => .inr (.lsNaN, s)
  | some r => afterSearch env s dir r.1 r.2

theorem step_forget (env : Env W X G E Mem) (s : St (W × List (Ev X E)) X G E Mem) :
    step env s.forget = Sum.map St.forget (Prod.map id St.forget) (step (traced env) s) := by
  have key : ∀ (dir : G) (s : St (W × List (Ev X E)) X G E Mem) (e : LsExit) (t : LS (W × List (Ev X E)) G E),
      afterSearch env s.forget dir e t.forget =
        Sum.map St.forget (Prod.map id St.forget) (afterSearch (traced env) s dir e t) := by
    intro dir s e t
    unfold afterSearch
    refine ite_map _ rfl rfl ?_
    refine ite_map _ rfl rfl ?_
    refine ite_map _ rfl rfl rfl
  have hls : ∀ (dir : G) (s : St (W × List (Ev X E)) X G E Mem),
      iterate (lsStep env s.x dir s.fv (env.dot s.grad dir) (env.armijoConstant * env.dot s.grad dir)) (lsFuel env)
        (lsStart env s.w.1 s.fv s.grad s.terminate) =
      (iterate (lsStep (traced env) s.x dir s.fv (env.dot s.grad dir) (env.armijoConstant * env.dot s.grad dir))
        (lsFuel env) (lsStart (traced env) s.w s.fv s.grad s.terminate)).map (Prod.map id LS.forget) := by
    intro dir s
    exact iterate_map LS.forget _ (lsStep_forget env _ _ _ _ _) _
      (lsStart (traced env) s.w s.fv s.grad s.terminate)
  unfold step
  refine ite_map _ rfl rfl ?_
  refine ite_map _ rfl rfl ?_
  refine ite_map _ rfl rfl ?_
  refine ite_map _ rfl rfl ?_
  refine ite_map _ rfl rfl ?_
  refine ite_map _ rfl rfl ?_
  have htail : ∀ (dir : G) (s : St (W × List (Ev X E)) X G E Mem) (o : Option (LsExit × LS (W × List (Ev X E)) G E)),
      tail env s.forget dir (o.map (Prod.map id LS.forget)) =
        Sum.map St.forget (Prod.map id St.forget) (tail (traced env) s dir o) := by
    intro dir s o
    cases o with
    | none => rfl
    | some r => exact key dir s r.1 r.2
  exact (congrArg (tail env _ _) (hls (env.direction s.it s.grad (env.scaling s.it s.grad s.mem) s.mem) s)).trans
    (htail _ ({ s with log := s.log ++ [s.fv] }) _)

/-- Logging does not change a run. -/
theorem traced_run (env : Env W X G E Mem) (mem : Mem) (t0 : Bool) (fuel : Nat) (w : W) (l : List (Ev X E)) (x : X) :
    optimize env mem t0 fuel w x = (optimize (traced env) mem t0 fuel (w, l) x).map (Prod.map id St.forget) := by
  unfold optimize
  rw [show start env mem t0 w x = (start (traced env) mem t0 (w, l) x).forget from rfl,
    iterate_map St.forget _ (step_forget env)]
  cases iterate (step (traced env)) fuel (start (traced env) mem t0 (w, l) x) <;> rfl

def isStop : Ev X E → Bool
  | .told _ _ b => b
  | .step _ b => b
  | _ => false

/-- Evaluations. -/
def evals : List (Ev X E) → Nat
  | [] => 0
  | .eval _ :: t => evals t + 1
  | _ :: t => evals t

/-- `StepTaken` notifications. -/
def steps : List (Ev X E) → Nat
  | [] => 0
  | .step _ _ :: t => steps t + 1
  | _ :: t => steps t

omit [Add E] [Mul E] [Neg E] [LT E] [DecidableLT E] in
theorem evals_append (a b : List (Ev X E)) : evals (a ++ b) = evals a + evals b := by
  induction a with
  | nil => simp [evals]
  | cons e a ih => cases e <;> simp [evals, ih]; omega

omit [Add E] [Mul E] [Neg E] [LT E] [DecidableLT E] in
theorem steps_append (a b : List (Ev X E)) : steps (a ++ b) = steps a + steps b := by
  induction a with
  | nil => simp [steps]
  | cons e a ih => cases e <;> simp [steps, ih]; omega

/-- Log of a line search that began with the log `l`. -/
structure LsLog (l : List (Ev X E)) (s : LS (W × List (Ev X E)) G E) : Prop where
  ex : ∃ evs, s.w.2 = l ++ evs ∧ s.terminate = evs.any isStop ∧ steps (behind isStop evs) = 0 ∧
    (s.terminate = true → evals (behind isStop evs) + 1 ≤ s.num)

theorem ls_log (env : Env W X G E Mem) (x : X) (dir : G) (a b c : E) (l : List (Ev X E)) {fuel : Nat}
    {s : LS (W × List (Ev X E)) G E} {r : LsExit × LS (W × List (Ev X E)) G E} (hs : LsLog l s)
    (hn : s.num < max 1 env.maxLineSearchTrials)
    (h : iterate (lsStep (traced env) x dir a b c) fuel s = some r) :
    ∃ evs, r.2.w.2 = l ++ evs ∧ r.2.terminate = evs.any isStop ∧ steps (behind isStop evs) = 0 ∧
      evals (behind isStop evs) < max 1 env.maxLineSearchTrials := by
  have grow : ∀ (evs : List (Ev X E)) (x f bb n), steps (behind isStop evs) = 0 →
      (evs.any isStop = true → evals (behind isStop evs) + 1 ≤ n) →
      steps (behind isStop (evs ++ [Ev.eval x, .told x f bb])) = 0 ∧
      ((evs.any isStop || bb) = true → evals (behind isStop (evs ++ [Ev.eval x, .told x f bb])) + 1 ≤ n + 1) := by
    intro evs x f bb n h1 h2
    cases hc : evs.any isStop
    · rw [behind_of_none hc]
      cases bb <;> simp [behind, isStop, steps, evals]
    · rw [behind_of_some hc, steps_append, evals_append, h1]
      have := h2 hc
      simp [steps, evals]
      omega
  refine iterate_inv (fun s => LsLog l s ∧ s.num < max 1 env.maxLineSearchTrials)
    (fun r : LsExit × LS (W × List (Ev X E)) G E => ∃ evs, r.2.w.2 = l ++ evs ∧ r.2.terminate = evs.any isStop ∧
      steps (behind isStop evs) = 0 ∧ evals (behind isStop evs) < max 1 env.maxLineSearchTrials) ?_ ?_
    fuel s r ⟨hs, hn⟩ h
  · intro s s' ⟨⟨evs, h1, h2, h3, h4⟩, hn⟩ h
    unfold lsStep at h
    simp only at h
    split at h
    · cases h
    · split at h
      · cases h
      · split at h
        · cases h
        · rename_i hc
          cases h
          simp only [not_or] at hc
          obtain ⟨g1, g2⟩ := grow evs (env.move x s.step dir) (env.evalGrad s.w.1 (env.move x s.step dir)).2.1
            (env.cbEvalGrad (env.evalGrad s.w.1 (env.move x s.step dir)).1 (env.move x s.step dir)
              (env.evalGrad s.w.1 (env.move x s.step dir)).2.1 (env.evalGrad s.w.1 (env.move x s.step dir)).2.2).2.2
            s.num h3 (by rw [← h2]; exact h4)
          refine ⟨⟨_, ?_, ?_, g1, ?_⟩, ?_⟩
          · simp only [traced, h1, List.append_assoc]; rfl
          · simp only [traced, h2, List.any_append]; simp [isStop]
          · simpa only [traced, h2] using g2
          · have := hc.2.2; simp only [traced] at this ⊢; omega
  · intro s r ⟨⟨evs, h1, h2, h3, h4⟩, hn⟩ h
    unfold lsStep at h
    simp only at h
    split at h
    · cases h
      refine ⟨evs ++ [.eval (env.move x s.step dir)], by simp [traced, h1], by simp [h2, isStop], ?_, ?_⟩
      all_goals
        cases hc : evs.any isStop
        · rw [behind_of_none hc]; simp [behind, isStop, steps, evals]; try omega
        · rw [behind_of_some hc]
          have := h4 (h2.trans hc)
          simp [steps_append, evals_append, h3, steps, evals]; try omega
    · obtain ⟨g1, g2⟩ := grow evs (env.move x s.step dir) (env.evalGrad s.w.1 (env.move x s.step dir)).2.1
        (env.cbEvalGrad (env.evalGrad s.w.1 (env.move x s.step dir)).1 (env.move x s.step dir)
          (env.evalGrad s.w.1 (env.move x s.step dir)).2.1 (env.evalGrad s.w.1 (env.move x s.step dir)).2.2).2.2
        s.num h3 (by rw [← h2]; exact h4)
      have hlt : evals (behind isStop (evs ++ [Ev.eval (env.move x s.step dir), .told (env.move x s.step dir)
          (env.evalGrad s.w.1 (env.move x s.step dir)).2.1
          (env.cbEvalGrad (env.evalGrad s.w.1 (env.move x s.step dir)).1 (env.move x s.step dir)
            (env.evalGrad s.w.1 (env.move x s.step dir)).2.1 (env.evalGrad s.w.1 (env.move x s.step dir)).2.2).2.2]))
          < max 1 env.maxLineSearchTrials := by
        cases hc : (evs.any isStop || (env.cbEvalGrad (env.evalGrad s.w.1 (env.move x s.step dir)).1
            (env.move x s.step dir) (env.evalGrad s.w.1 (env.move x s.step dir)).2.1
            (env.evalGrad s.w.1 (env.move x s.step dir)).2.2).2.2)
        · rw [Bool.or_eq_false_iff] at hc
          rw [behind_of_none hc.1]
          simp only [behind, isStop, hc.2]
          simp [evals]
        · have := g2 hc; omega
      split at h
      · cases h
        exact ⟨_, by simp only [traced, h1, List.append_assoc]; rfl,
          by simp only [traced, h2, List.any_append]; simp [isStop], g1, hlt⟩
      · split at h
        · cases h
          exact ⟨_, by simp only [traced, h1, List.append_assoc]; rfl,
            by simp only [traced, h2, List.any_append]; simp [isStop], g1, hlt⟩
        · cases h

/-- What may follow a stop request. -/
def Brief (n : Nat) (l : List (Ev X E)) : Prop :=
  evals (behind isStop l) < max 1 n ∧ steps (behind isStop l) ≤ 1

/-- **C162** L-BFGS, any objective, callbacks and arithmetic: after a stop request the objective is evaluated fewer than
`max(1, maxLineSearchTrials)` times (the rest of the line search under way) and at most one step is announced. -/
theorem C162_lbfgs_stop (env : Env W X G E Mem) (mem : Mem) (t0 : Bool) (fuel : Nat) (w : W) (x : X)
    {r : Exit × St (W × List (Ev X E)) X G E Mem} (h : optimize (traced env) mem t0 fuel (w, []) x = some r) :
    evals (behind isStop r.2.w.2) < max 1 env.maxLineSearchTrials ∧ steps (behind isStop r.2.w.2) ≤ 1 := by
  unfold optimize at h
  rw [Option.map_eq_some_iff] at h
  obtain ⟨⟨e, s⟩, hi, rfl⟩ := h
  have hend : ∀ l : List (Ev X E), Brief env.maxLineSearchTrials l → ∀ x, Brief env.maxLineSearchTrials (l ++ [.fin x]) := by
    intro l hl x
    cases hc : l.any isStop
    · rw [Brief, behind_of_none hc]; simp [behind, isStop, evals, steps]
    · rw [Brief, behind_of_some hc, evals_append, steps_append]; exact ⟨by simpa [evals] using hl.1, by simpa [steps] using hl.2⟩
  have main : Brief env.maxLineSearchTrials s.w.2 := by
    refine iterate_inv (fun s => (s.terminate = false → s.w.2.any isStop = false) ∧ Brief env.maxLineSearchTrials s.w.2)
      (fun r : Exit × St (W × List (Ev X E)) X G E Mem => Brief env.maxLineSearchTrials r.2.w.2)
      ?_ ?_ fuel _ (e, s) ?_ hi
    all_goals try
      intro s r ⟨hq, hb⟩ h
      unfold step at h
      split at h
      · first
          | (cases h; done)
          | (cases h; exact hb)
      rename_i hloop
      rw [not_or] at hloop
      have hq := hq (by simpa using hloop.2)
      have ht : s.terminate = false := by simpa using hloop.2
      simp only at h
      split at h
      · first | (cases h; done) | (cases h; exact hb)
      split at h
      · first | (cases h; done) | (cases h; exact hb)
      split at h
      · first | (cases h; done) | (cases h; exact hb)
      split at h
      · first | (cases h; done) | (cases h; exact hb)
      split at h
      · first | (cases h; done) | (cases h; exact hb)
      split at h
      · first | (cases h; done) | (cases h; exact hb)
      rename_i o ho
      obtain ⟨evs, h1, h2, h3, h4⟩ := ls_log env _ _ _ _ _ s.w.2
        ⟨[], by simp [lsStart], by simp [lsStart, ht], by simp [behind, steps], by simp [lsStart, ht]⟩
        (by simp [lsStart]) ho
      have hbr : Brief env.maxLineSearchTrials (s.w.2 ++ evs) := by
        rw [Brief, behind_of_none hq]; exact ⟨h4, by omega⟩
      unfold afterSearch at h
      simp only at h
      split at h
      · first | (cases h; done) | (cases h; simp only [h1]; exact hbr)
      split at h
      · first | (cases h; done) | (cases h; simp only [h1]; exact hbr)
      split at h
      · first | (cases h; done) | (cases h; simp only [h1]; exact hbr)
    · cases h
      simp only [traced, h1, h2]
      constructor
      · intro hh
        rw [Bool.or_eq_false_iff] at hh
        simp only [List.any_append, hq, hh.1]
        simp [isStop, hh.2]
      · cases hc : evs.any isStop
        · rw [Brief, List.append_assoc, behind_of_none hq, behind_of_none hc]
          simp only [behind]
          split_ifs <;> simp [evals, steps]
        · rw [Brief, List.append_assoc, behind_of_none hq, behind_of_some hc, evals_append, steps_append, h3]
          simp [evals, steps]; omega
    · cases h
    · constructor
      · intro hh
        simp only [start, Bool.or_eq_false_iff] at hh
        simp only [start, traced] at hh ⊢
        simp [isStop, hh.2]
      · simp only [start, traced, Brief, List.nil_append, List.cons_append, behind, isStop]
        simp only [Bool.false_eq_true, if_false]
        split_ifs <;> simp [evals, steps]
  exact hend _ main _

/-- Non-vacuity: on `5 x⁴` from 1 with a step that is too long and three trials; the callback asks to stop at the first
trial, the search goes on for two more evaluations and one step is announced. -/
example : (optimize (traced { scalarEnv (fun x => 5 * x ^ 4) (fun x => 20 * x ^ 3) 3 9 false with
      cbEvalGrad := fun w _ f g => (w, g, decide (f = 1280)), scaling := fun _ _ _ => 1 / 4 }) mem0 false 9 ((), []) 1).map
    (fun r => (evals r.2.w.2, evals (behind isStop r.2.w.2), steps (behind isStop r.2.w.2))) = some (4, 2, 1) := by
  decide +kernel

end stop

/-! ### C163: the trial steps -/

section trials

variable {W X G E Mem : Type} [Field E] [LinearOrder E] [IsStrictOrderedRing E]

/-- Invariant: what the trials so far say about the next step size. -/
structure TrialInv (env : Env W X G E Mem) (x : X) (D : X → G) (dir : G) (initF initDot lin : E) (s : LS W G E) :
    Prop where
  pos : 0 < s.step
  first : (s.trials.map Prod.fst ++ [s.step]).head? = some 1
  next : ∀ k a fa b, s.trials[k]? = some (a, fa) → (s.trials.map Prod.fst ++ [s.step])[k + 1]? = some b →
    0 < b ∧ env.minStep ≤ a ∧ a ≤ env.maxStep ∧
    ((b < a ∧ (initF + a * lin < fa ∨ -env.wolfe * initDot < env.dot (D (env.move x a dir)) dir)) ∨
     (a < b ∧ fa ≤ initF + a * lin ∧ env.dot (D (env.move x a dir)) dir < env.wolfe * initDot))

/-- **C163** Line search of L-BFGS, with the factors `0 < dec < 1 < inc` of the code, a deterministic gradient and watching
callbacks.  The first trial step is 1.  A further trial is made only while the step is within `[minStep, maxStep]`, and then
either it is shorter, because the last one did not decrease the objective enough or met a slope that rises too fast, or it is
longer, because the decrease was sufficient but the slope still falls too fast. -/
theorem C163_trial_steps (env : Env W X G E Mem) (h1 : env.one = 1) (hd0 : 0 < env.dec) (hd1 : env.dec < 1) (hi : 1 < env.inc)
    {D : X → G} (hD : ∀ w x, (env.evalGrad w x).2.2 = D x) (hcb : ∀ w x v g, (env.cbEvalGrad w x v g).2.1 = g)
    (x : X) (dir : G) (initF initDot lin : E) (w : W) (fv : E) (grad : G) (terminate : Bool) (fuel : Nat)
    {r : LsExit × LS W G E}
    (h : iterate (lsStep env x dir initF initDot lin) fuel (lsStart env w fv grad terminate) = some r) :
    (∀ p, r.2.trials.head? = some p → p.1 = 1) ∧
    ∀ k a fa b fb, r.2.trials[k]? = some (a, fa) → r.2.trials[k + 1]? = some (b, fb) →
      0 < b ∧ env.minStep ≤ a ∧ a ≤ env.maxStep ∧
      ((b < a ∧ (initF + a * lin < fa ∨ -env.wolfe * initDot < env.dot (D (env.move x a dir)) dir)) ∨
       (a < b ∧ fa ≤ initF + a * lin ∧ env.dot (D (env.move x a dir)) dir < env.wolfe * initDot)) := by
  have post : ∀ s : LS W G E, TrialInv env x D dir initF initDot lin s → ∀ l, (l = s.trials ∨ ∃ f, l = s.trials ++ [(s.step, f)]) →
      (∀ p, l.head? = some p → p.1 = 1) ∧
      ∀ k a fa b fb, l[k]? = some (a, fa) → l[k + 1]? = some (b, fb) →
        0 < b ∧ env.minStep ≤ a ∧ a ≤ env.maxStep ∧
        ((b < a ∧ (initF + a * lin < fa ∨ -env.wolfe * initDot < env.dot (D (env.move x a dir)) dir)) ∨
         (a < b ∧ fa ≤ initF + a * lin ∧ env.dot (D (env.move x a dir)) dir < env.wolfe * initDot)) := by
    intro s hs l hl
    have hf := hs.first
    have hkey : ∀ (k : Nat) b fb, l[k]? = some (b, fb) → (s.trials.map Prod.fst ++ [s.step])[k]? = some b := by
      intro k b fb hk
      rcases hl with rfl | ⟨f, rfl⟩
      · have hlt : k < s.trials.length := (List.getElem?_eq_some_iff.1 hk).1
        rw [List.getElem?_append_left (by simpa using hlt), List.getElem?_map, hk]; rfl
      · have : (s.trials.map Prod.fst ++ [s.step]) = (s.trials ++ [(s.step, f)]).map Prod.fst := by simp
        rw [this, List.getElem?_map, hk]; rfl
    refine ⟨?_, ?_⟩
    · intro p hp
      have := hkey 0 p.1 p.2 (by rw [← List.head?_eq_getElem?, hp])
      rw [← List.head?_eq_getElem?, hf] at this
      exact (Option.some.inj this).symm
    · intro k a fa b fb ha hb
      refine hs.next k a fa b ?_ (hkey _ _ _ hb)
      rcases hl with rfl | ⟨f, rfl⟩
      · exact ha
      · have hlt : k + 1 < (s.trials ++ [(s.step, f)]).length := (List.getElem?_eq_some_iff.1 hb).1
        rw [List.getElem?_append_left (by simp at hlt; omega)] at ha
        exact ha
  refine iterate_inv (TrialInv env x D dir initF initDot lin) (fun r : LsExit × LS W G E =>
    (∀ p, r.2.trials.head? = some p → p.1 = 1) ∧
    ∀ k a fa b fb, r.2.trials[k]? = some (a, fa) → r.2.trials[k + 1]? = some (b, fb) →
      0 < b ∧ env.minStep ≤ a ∧ a ≤ env.maxStep ∧
      ((b < a ∧ (initF + a * lin < fa ∨ -env.wolfe * initDot < env.dot (D (env.move x a dir)) dir)) ∨
       (a < b ∧ fa ≤ initF + a * lin ∧ env.dot (D (env.move x a dir)) dir < env.wolfe * initDot))) ?_ ?_ fuel _ r ?_ h
  · intro s s' hs h
    unfold lsStep at h
    simp only [hcb, hD] at h
    split at h
    · cases h
    · split at h
      · cases h
      · rename_i wd hw
        split at h
        · cases h
        · rename_i hc
          cases h
          simp only [not_or, not_lt] at hc
          have hwd : 0 < s.step * wd ∧
              ((s.step * wd < s.step ∧ (initF + s.step * lin < (env.evalGrad s.w (env.move x s.step dir)).2.1 ∨
                -env.wolfe * initDot < env.dot (D (env.move x s.step dir)) dir)) ∨
               (s.step < s.step * wd ∧ (env.evalGrad s.w (env.move x s.step dir)).2.1 ≤ initF + s.step * lin ∧
                env.dot (D (env.move x s.step dir)) dir < env.wolfe * initDot)) := by
            have hp := hs.pos
            unfold width at hw
            split at hw
            · rename_i hA
              cases hw
              exact ⟨by positivity, .inl ⟨by nlinarith, .inl hA⟩⟩
            · rename_i hA
              split at hw
              · rename_i hB
                cases hw
                have : 0 < env.inc := by linarith
                exact ⟨by positivity, .inr ⟨by nlinarith, not_lt.1 hA, hB⟩⟩
              · split at hw
                · rename_i hC
                  cases hw
                  exact ⟨by positivity, .inl ⟨by nlinarith, .inr hC⟩⟩
                · cases hw
          refine ⟨hwd.1, ?_, ?_⟩
          · have := hs.first
            simp only [List.map_append, List.map_cons, List.map_nil]
            rw [List.head?_append, this]
            rfl
          · intro k a fa b ha hb
            simp only [List.map_append, List.map_cons, List.map_nil] at hb
            by_cases hk : k < s.trials.length
            · rw [List.getElem?_append_left hk] at ha
              rw [List.getElem?_append_left (by simp; omega)] at hb
              exact hs.next k a fa b ha hb
            · have hke : k = s.trials.length := by
                have := (List.getElem?_eq_some_iff.1 ha).1
                simp at this; omega
              subst hke
              rw [List.getElem?_append_right (le_refl _)] at ha
              rw [List.getElem?_append_right (by simp)] at hb
              simp at ha hb
              obtain ⟨rfl, rfl⟩ := ha
              subst hb
              exact ⟨hwd.1, hc.1, hc.2.1, hwd.2⟩
  · intro s r hs h
    unfold lsStep at h
    simp only at h
    split at h
    · cases h; exact post s hs _ (.inl rfl)
    · split at h
      · cases h; exact post s hs _ (.inr ⟨_, rfl⟩)
      · split at h
        · cases h; exact post s hs _ (.inr ⟨_, rfl⟩)
        · cases h
  · refine ⟨by simp [lsStart, h1], by simp [lsStart, h1], ?_⟩
    intro k a fa b ha
    simp [lsStart] at ha

/-- Non-vacuity: on `x⁴` from 1 along `-8` the step is halved three times. -/
example : (iterate (lsStep (scalarEnv (fun x => x ^ 4) (fun x => 4 * x ^ 3) 9 9 false) 1 (-8) 1 (-32) (-32 / 10 ^ 4))
      9 (lsStart (scalarEnv (fun x => x ^ 4) (fun x => 4 * x ^ 3) 9 9 false) () 1 4 false)).map
    (fun r => r.2.trials.map Prod.fst) = some [1, 1 / 2, 1 / 4, 1 / 8] := by decide +kernel

end trials

/-! ### C164: basis pairs -/

section pairs

variable {W X G E : Type} [Add E] [Mul E] [Neg E] [LT E] [DecidableLT E]

/-- What `UpdateBasisSet` is given: new and old coordinates, new and old gradient. -/
structure Pair (X G : Type) where
  x : X
  x' : X
  g : G
  g' : G

/-- The pairs recorded in a run that is now at `x` with gradient `g`: each one belongs to a step along the search direction
computed from the pairs before it, starts where the last one ended (after the callback), and the gradients are
those of the state. -/
inductive Linked (env : Env W X G E (List (Pair X G))) (x₀ : X) (g₀ : G) : List (Pair X G) → X → G → Prop
  | nil : Linked env x₀ g₀ [] x₀ g₀
  | snoc {l : List (Pair X G)} {x : X} {g : G} (h : Linked env x₀ g₀ l x g) (a : E) (g' : G) (w : W) :
      Linked env x₀ g₀ (l ++ [⟨env.move x a (env.direction l.length g (env.scaling l.length g l) l), x, g', g⟩])
        (env.cbStep w (env.move x a (env.direction l.length g (env.scaling l.length g l) l))).2.1 g'

/-- **C164** With a memory that keeps everything `UpdateBasisSet` is given: the `i`-th pair of a run consists of the coordinates
the line search reached (before the callback could change them) and those it started from, which are where the previous step
(after the callback) ended, with the gradients of the two ends; the direction is computed from the earlier pairs. -/
theorem C164_basis_pairs (env : Env W X G E (List (Pair X G)))
    (hu : ∀ i x x' g g' m, env.update i x x' g g' m = m ++ [⟨x, x', g, g'⟩])
    (t0 : Bool) (fuel : Nat) (w : W) (x : X) {r : Exit × St W X G E (List (Pair X G))}
    (h : optimize env [] t0 fuel w x = some r) :
    r.2.mem.length = r.2.it ∧
    ∃ y g, Linked env (start env [] t0 w x).x (start env [] t0 w x).grad r.2.mem y g := by
  unfold optimize at h
  rw [Option.map_eq_some_iff] at h
  obtain ⟨⟨e, s⟩, hi, rfl⟩ := h
  simp only
  refine iterate_inv (fun s => s.mem.length = s.it ∧
      Linked env (start env [] t0 w x).x (start env [] t0 w x).grad s.mem s.x s.grad)
    (fun r : Exit × St W X G E (List (Pair X G)) => r.2.mem.length = r.2.it ∧
      ∃ y g, Linked env (start env [] t0 w x).x (start env [] t0 w x).grad r.2.mem y g)
    ?_ ?_ fuel _ (e, s) ⟨rfl, .nil⟩ hi
  · intro s s' ⟨hl, hk⟩ h
    unfold step at h
    iterate 7
      split at h
      · cases h
      try simp only at h
    unfold afterSearch at h
    simp only at h
    iterate 3
      split at h
      · cases h
    cases h
    simp only [hu]
    refine ⟨by simp [hl], ?_⟩
    rw [← hl]
    exact .snoc hk _ _ _
  · intro s r ⟨hl, hk⟩ h
    unfold step at h
    iterate 7
      split at h
      · cases h; exact ⟨hl, _, _, hk⟩
      try simp only at h
    unfold afterSearch at h
    simp only at h
    iterate 3
      split at h
      · cases h; exact ⟨hl, _, _, hk⟩
    cases h

/-- Steepest descent on `x⁴`, with a callback that moves the coordinates. -/
def pairEnv : Env Unit ℚ ℚ ℚ (List (Pair ℚ ℚ)) :=
  { scalarEnv (fun x => x ^ 4) (fun x => 4 * x ^ 3) 3 2 false with
    cbStep := fun w x => (w, x - 1 / 8, false)
    scaling := fun _ _ _ => 1 / 8
    direction := fun _ g sc _ => -(sc * g)
    update := fun _ x x' g g' m => m ++ [⟨x, x', g, g'⟩] }

/-- Non-vacuity: two pairs; the second starts where the callback left the coordinates. -/
example : (optimize pairEnv [] false 9 () 1).map (fun r => r.2.mem.map fun p => (p.x, p.x')) =
    some [(1 / 2, 1), (5 / 16, 3 / 8)] := by decide +kernel

end pairs

end Ens.Lbfgs
