import Verif.Callbacks.Report
import Mathlib.Algebra.BigOperators.Group.List.Basic
import Mathlib.Data.List.GetD
import Mathlib.Tactic.Linarith
import Mathlib.Tactic.Ring
import Mathlib.Tactic.NormNum
import Mathlib.Tactic.Push
import Mathlib.Tactic.FieldSimp
import Mathlib.Tactic.Positivity

/-!
# Properties of `Report`: what is recorded and what is reported (C234, C235, C237)
-/

namespace Ens.Report

/-! ## Vocabulary: the recorded events of a run, independent of the state machine -/

def Ev.isEval : Ev R → Bool
  | .evaluate _ | .evaluateConstraint _ => true
  | _ => false

def Ev.isGrad : Ev R → Bool
  | .gradient _ | .gradientConstraint _ => true
  | _ => false

def Ev.isBeginEpoch : Ev R → Bool
  | .beginEpoch => true
  | _ => false

def Ev.isEndEpoch : Ev R → Bool
  | .endEpoch .. => true
  | _ => false

def Ev.isStep : Ev R → Bool
  | .stepTaken .. => true
  | _ => false

def Ev.evalVal : Ev R → Option R
  | .evaluate o => some o
  | _ => none

def Ev.conVal : Ev R → Option R
  | .evaluateConstraint o => some o
  | _ => none

def Ev.gradVal : Ev R → Option R
  | .gradient o | .gradientConstraint o => some o
  | _ => none

/-- The objective at a point of the run: the value of the last `Evaluate()` plus the values of the
`EvaluateConstraint()` calls after it. -/
def lossAfter [AddCommMonoid R] (es : List (Ev R)) : R :=
  (es.reverse.findSome? Ev.evalVal).getD 0 +
    ((es.reverse.takeWhile fun e => e.evalVal.isNone).filterMap Ev.conVal).sum

/-- The norm of the last gradient, if there is one. -/
def normAfter (es : List (Ev R)) : Option R := es.reverse.findSome? Ev.gradVal

/-- The positions of the recorded events: the ends of the epochs if there are any, else the
steps. -/
def recorded (es : List (Ev R)) : List Nat :=
  (List.range es.length).filter fun i =>
    if es.any Ev.isEndEpoch then (es[i]?.map Ev.isEndEpoch).getD false
    else (es[i]?.map Ev.isStep).getD false

/-- The loss at a recorded event. -/
def lossAt [AddCommMonoid R] (es : List (Ev R)) (i : Nat) : R :=
  match es[i]? with
  | some (.endEpoch o _ _) => o
  | _ => lossAfter (es.take i)

def timeAt [Zero R] (es : List (Ev R)) (i : Nat) : R :=
  match es[i]? with
  | some (.endEpoch _ t _) => t
  | some (.stepTaken t _) => t
  | _ => 0

def stepSizeAt (es : List (Ev R)) (i : Nat) : Option R :=
  match es[i]? with
  | some (.endEpoch _ _ s) => s
  | some (.stepTaken _ s) => s
  | _ => none

/-! ## The invariant -/

theorem run_snoc [Add R] (s : St R) (es : List (Ev R)) (e : Ev R) :
    s.run (es ++ [e]) = (s.run es).step e := by
  simp [St.run]

theorem run_append [Add R] (s : St R) (es es' : List (Ev R)) :
    s.run (es ++ es') = (s.run es).run es' := by
  simp [St.run, St.beginOptimization]

theorem lossAfter_snoc [AddCommMonoid R] (es : List (Ev R)) (e : Ev R) :
    lossAfter (es ++ [e]) =
      match e with
      | .evaluate o => o
      | .evaluateConstraint o => lossAfter es + o
      | _ => lossAfter es := by
  have h1 : ∀ l : List (Ev R), (e :: l).findSome? Ev.evalVal =
      match e with
      | .evaluate o => some o
      | _ => l.findSome? Ev.evalVal := by
    intro l; rw [List.findSome?_cons]; cases e <;> rfl
  have h2 : ∀ l : List (Ev R), ((e :: l).takeWhile fun e => e.evalVal.isNone) =
      match e with
      | .evaluate o => []
      | _ => e :: (l.takeWhile fun e => e.evalVal.isNone) := by
    intro l; rw [List.takeWhile_cons]; cases e <;> rfl
  unfold lossAfter
  rw [List.reverse_append, List.reverse_singleton, List.singleton_append, h1, h2]
  cases e with
  | evaluateConstraint o =>
    simp only [List.filterMap_cons, Ev.conVal, List.sum_cons]
    rw [add_assoc]
    congr 1
    exact add_comm _ _
  | _ => simp [List.filterMap_cons, Ev.conVal]

theorem normAfter_snoc (es : List (Ev R)) (e : Ev R) :
    normAfter (es ++ [e]) = match e.gradVal with
      | some g => some g
      | none => normAfter es := by
  simp only [normAfter, List.reverse_append, List.reverse_cons, List.reverse_nil, List.nil_append,
    List.cons_append, List.findSome?_cons]
  cases e.gradVal <;> rfl

theorem recorded_lt {es : List (Ev R)} {i : Nat} (h : i ∈ recorded es) : i < es.length := by
  simp only [recorded, List.mem_filter, List.mem_range] at h
  exact h.1

theorem recorded_snoc (es : List (Ev R)) (e : Ev R) :
    recorded (es ++ [e]) =
      if e.isEndEpoch then (if es.any Ev.isEndEpoch then recorded es else []) ++ [es.length]
      else if e.isStep && !es.any Ev.isEndEpoch then recorded es ++ [es.length]
      else recorded es := by
  have hcongr : ∀ (p q : Nat → Bool), (∀ i < es.length, p i = q i) →
      (List.range es.length).filter p = (List.range es.length).filter q := by
    intro p q h
    apply List.filter_congr
    intro i hi
    exact h i (List.mem_range.1 hi)
  have hget : ∀ i < es.length, (es ++ [e])[i]? = es[i]? := by
    intro i hi
    rw [List.getElem?_append_left hi]
  have hlast : (es ++ [e])[es.length]? = some e := by simp
  have hnone : es.any Ev.isEndEpoch = false →
      ∀ i < es.length, (es[i]?.map Ev.isEndEpoch).getD false = false := by
    intro h i hi
    rw [List.any_eq_false] at h
    rw [List.getElem?_eq_getElem hi]
    simpa using h _ (List.getElem_mem hi)
  unfold recorded
  rw [List.length_append, List.length_singleton, List.range_succ, List.filter_append]
  have hA : (es ++ [e]).any Ev.isEndEpoch = (es.any Ev.isEndEpoch || e.isEndEpoch) := by simp
  rw [hA]
  rcases he : e.isEndEpoch with _ | _
  · rcases ha : es.any Ev.isEndEpoch with _ | _
    · rcases hs : e.isStep with _ | _
      · simp only [Bool.or_self, Bool.false_eq_true, if_false, List.filter_singleton, hlast,
          Option.map_some, Option.getD_some, hs, Bool.not_false, Bool.and_true, cond_false, List.append_nil]
        apply hcongr
        intro i hi
        rw [hget i hi]
      · simp only [Bool.or_self, Bool.false_eq_true, if_false, List.filter_singleton, hlast,
          Option.map_some, Option.getD_some, hs, Bool.not_false, Bool.and_true, if_true]
        congr 1
        apply hcongr
        intro i hi
        rw [hget i hi]
    · simp only [Bool.or_false, Bool.false_eq_true, if_false, if_true, List.filter_singleton, hlast,
        Option.map_some, Option.getD_some, he, Bool.not_true, Bool.and_false, cond_false, List.append_nil]
      apply hcongr
      intro i hi
      rw [hget i hi]
  · simp only [Bool.or_true, if_true, List.filter_singleton, hlast, Option.map_some,
      Option.getD_some, he]
    congr 1
    rcases ha : es.any Ev.isEndEpoch with _ | _
    · simp only [Bool.false_eq_true, if_false]
      rw [List.filter_eq_nil_iff]
      intro i hi
      rw [hget i (List.mem_range.1 hi), hnone ha i (List.mem_range.1 hi)]
      simp
    · simp only [if_true]
      apply hcongr
      intro i hi
      rw [hget i hi]

theorem lossAt_append [AddCommMonoid R] (es : List (Ev R)) (e : Ev R) {i : Nat}
    (h : i < es.length) : lossAt (es ++ [e]) i = lossAt es i := by
  simp only [lossAt, List.getElem?_append_left h, List.take_append_of_le_length h.le]

theorem timeAt_append [Zero R] (es : List (Ev R)) (e : Ev R) {i : Nat} (h : i < es.length) :
    timeAt (es ++ [e]) i = timeAt es i := by
  simp only [timeAt, List.getElem?_append_left h]

theorem stepSizeAt_append (es : List (Ev R)) (e : Ev R) {i : Nat} (h : i < es.length) :
    stepSizeAt (es ++ [e]) i = stepSizeAt es i := by
  simp only [stepSizeAt, List.getElem?_append_left h]

/-- What a `Report` holds after the events `es`. -/
structure Holds [AddCommMonoid R] (s : St R) (es : List (Ev R)) : Prop where
  objective : s.objective = lossAfter es
  gradientNorm : s.hasGradient = true → normAfter es = some s.gradientNorm
  hasGradient : s.hasGradient = es.any Ev.isGrad
  hasEndEpoch : s.hasEndEpoch = es.any Ev.isEndEpoch
  objectives : s.objectives = (recorded es).map (lossAt es)
  timings : s.timings = (recorded es).map (timeAt es)
  stepsizes : s.stepsizes = (recorded es).filterMap (stepSizeAt es)
  gradientsNorm : s.gradientsNorm = (recorded es).filterMap fun i => normAfter (es.take i)

theorem normAfter_isSome (es : List (Ev R)) : (normAfter es).isSome = es.any Ev.isGrad := by
  induction es using List.reverseRecOn with
  | nil => rfl
  | append_singleton es e ih =>
    rw [normAfter_snoc]
    cases e <;> simp [Ev.gradVal, Ev.isGrad, ih]

theorem holds_run [AddCommMonoid R] (es : List (Ev R)) :
    Holds ((St.fresh R).run es) es := by
  induction es using List.reverseRecOn with
  | nil =>
    refine ⟨?_, ?_, rfl, rfl, rfl, rfl, rfl, rfl⟩
    · simp [St.run, St.fresh, St.beginOptimization, lossAfter]
    · intro h; simp [St.run, St.fresh, St.beginOptimization] at h
  | append_singleton es e ih =>
    rw [run_snoc]
    obtain ⟨ho, hg, hG, hE, hos, hts, hss, hgs⟩ := ih
    set s := (St.fresh R).run es with hs
    have m1 : (recorded es).map (lossAt (es ++ [e])) = (recorded es).map (lossAt es) :=
      List.map_congr_left fun i hi => lossAt_append es e (recorded_lt hi)
    have m2 : (recorded es).map (timeAt (es ++ [e])) = (recorded es).map (timeAt es) :=
      List.map_congr_left fun i hi => timeAt_append es e (recorded_lt hi)
    have m3 : (recorded es).filterMap (stepSizeAt (es ++ [e])) =
        (recorded es).filterMap (stepSizeAt es) :=
      List.filterMap_congr fun i hi => stepSizeAt_append es e (recorded_lt hi)
    have m4 : ((recorded es).filterMap fun i => normAfter ((es ++ [e]).take i)) =
        (recorded es).filterMap fun i => normAfter (es.take i) :=
      List.filterMap_congr fun i hi => by
        rw [List.take_append_of_le_length (recorded_lt hi).le]
    have hN : (if s.hasGradient then [s.gradientNorm] else []) = (normAfter es).toList := by
      have := normAfter_isSome es
      rw [← hG] at this
      rcases h : s.hasGradient with _ | _
      · rw [h] at this
        rw [Option.isSome_eq_false_iff, Option.isNone_iff_eq_none] at this
        simp [this]
      · rw [hg h]; simp
    have hp : (if s.hasGradient then s.gradientsNorm ++ [s.gradientNorm] else s.gradientsNorm) =
        s.gradientsNorm ++ (normAfter es).toList := by
      rw [← hN]; split <;> simp
    have hgv : e.gradVal = none → ((s.hasGradient = true → normAfter (es ++ [e]) = some s.gradientNorm))
        := by
      intro h h'
      rw [normAfter_snoc, h]
      exact hg h'
    cases e with
    | evaluate o =>
      refine ⟨?_, hgv rfl, ?_, ?_, ?_, ?_, ?_, ?_⟩
      all_goals simp only [St.step, lossAfter_snoc, recorded_snoc, Ev.isEndEpoch, Ev.isStep,
        Bool.false_eq_true, if_false, Bool.false_and, List.any_append, List.any_cons, List.any_nil,
        Ev.isGrad, Bool.or_false, hG, hE, m1, m2, m3, m4, hos, hts, hss, hgs]
    | evaluateConstraint o =>
      refine ⟨?_, hgv rfl, ?_, ?_, ?_, ?_, ?_, ?_⟩
      all_goals simp only [St.step, lossAfter_snoc, recorded_snoc, Ev.isEndEpoch, Ev.isStep,
        Bool.false_eq_true, if_false, Bool.false_and, List.any_append, List.any_cons, List.any_nil,
        Ev.isGrad, Bool.or_false, ho, hG, hE, m1, m2, m3, m4, hos, hts, hss, hgs]
    | gradient o =>
      refine ⟨?_, ?_, ?_, ?_, ?_, ?_, ?_, ?_⟩
      all_goals simp only [St.step, St.gradient, normAfter_snoc, Ev.gradVal, lossAfter_snoc,
        recorded_snoc, Ev.isEndEpoch, Ev.isStep,
        Bool.false_eq_true, if_false, Bool.false_and, List.any_append, List.any_cons, List.any_nil,
        Ev.isGrad, Bool.or_false, Bool.or_true, ho, hG, hE, m1, m2, m3, m4, hos, hts, hss, hgs,
        implies_true]
    | gradientConstraint o =>
      refine ⟨?_, ?_, ?_, ?_, ?_, ?_, ?_, ?_⟩
      all_goals simp only [St.step, St.gradient, normAfter_snoc, Ev.gradVal, lossAfter_snoc,
        recorded_snoc, Ev.isEndEpoch, Ev.isStep,
        Bool.false_eq_true, if_false, Bool.false_and, List.any_append, List.any_cons, List.any_nil,
        Ev.isGrad, Bool.or_false, Bool.or_true, ho, hG, hE, m1, m2, m3, m4, hos, hts, hss, hgs,
        implies_true]
    | beginEpoch =>
      refine ⟨?_, hgv rfl, ?_, ?_, ?_, ?_, ?_, ?_⟩
      all_goals simp only [St.step, lossAfter_snoc, recorded_snoc, Ev.isEndEpoch, Ev.isStep,
        Bool.false_eq_true, if_false, Bool.false_and, List.any_append, List.any_cons, List.any_nil,
        Ev.isGrad, Bool.or_false, ho, hG, hE, m1, m2, m3, m4, hos, hts, hss, hgs]
    | endEpoch o t ss =>
      have l1 : lossAt (es ++ [.endEpoch o t ss]) es.length = o := by simp [lossAt]
      have l2 : timeAt (es ++ [.endEpoch o t ss]) es.length = t := by simp [timeAt]
      have l3 : stepSizeAt (es ++ [.endEpoch o t ss]) es.length = ss := by simp [stepSizeAt]
      have l4 : (es ++ [Ev.endEpoch o t ss]).take es.length = es := by simp
      rcases hA : es.any Ev.isEndEpoch with _ | _
      · refine ⟨?_, ?_, ?_, ?_, ?_, ?_, ?_, ?_⟩
        · simp only [St.step, hE, hA, Bool.false_eq_true, if_false, St.push, lossAfter_snoc, ho]
        · simp only [St.step, hE, hA, Bool.false_eq_true, if_false, St.push]; exact hgv rfl
        · simp only [St.step, hE, hA, Bool.false_eq_true, if_false, St.push, List.any_append,
            List.any_cons, List.any_nil, Ev.isGrad, Bool.or_false, hG]
        · simp [St.step, hE, hA, St.push, Ev.isEndEpoch]
        · simp [St.step, hE, hA, St.push, recorded_snoc, Ev.isEndEpoch, l1]
        · simp [St.step, hE, hA, St.push, recorded_snoc, Ev.isEndEpoch, l2]
        · simp only [St.step, hE, hA, St.push, recorded_snoc, Ev.isEndEpoch]
          simp [l3, List.filterMap_cons]
          cases ss <;> rfl
        · simp only [St.step, hE, hA, St.push, recorded_snoc, Ev.isEndEpoch, Bool.false_eq_true,
            if_false, if_true, List.nil_append, List.filterMap_cons, l4, List.filterMap_nil]
          rw [hN]
          cases normAfter es <;> rfl
      · have hr : recorded (es ++ [.endEpoch o t ss]) = recorded es ++ [es.length] := by
          rw [recorded_snoc]; simp [Ev.isEndEpoch, hA]
        refine ⟨?_, ?_, ?_, ?_, ?_, ?_, ?_, ?_⟩
        · simp only [St.step, hE, hA, if_true, St.push, lossAfter_snoc, ho]
        · simp only [St.step, hE, hA, if_true, St.push]; exact hgv rfl
        · simp only [St.step, hE, hA, if_true, St.push, List.any_append,
            List.any_cons, List.any_nil, Ev.isGrad, Bool.or_false, hG]
        · simp [St.step, hE, hA, St.push, Ev.isEndEpoch]
        · simp only [St.step, hE, hA, if_true, St.push, hr, List.map_append, m1, l1, hos,
            List.map_cons, List.map_nil]
        · simp only [St.step, hE, hA, if_true, St.push, hr, List.map_append, m2, l2, hts,
            List.map_cons, List.map_nil]
        · simp only [St.step, hE, hA, if_true, St.push, hr, List.filterMap_append, m3, hss,
            List.filterMap_cons, List.filterMap_nil, l3]
          cases ss <;> rfl
        · simp only [St.step, hE, hA, if_true, St.push, hr, List.filterMap_append, m4,
            List.filterMap_cons, List.filterMap_nil, l4]
          rw [hp, hgs]
          cases normAfter es <;> rfl
    | stepTaken t ss =>
      have l1 : lossAt (es ++ [.stepTaken t ss]) es.length = lossAfter es := by simp [lossAt]
      have l2 : timeAt (es ++ [.stepTaken t ss]) es.length = t := by simp [timeAt]
      have l3 : stepSizeAt (es ++ [.stepTaken t ss]) es.length = ss := by simp [stepSizeAt]
      have l4 : (es ++ [Ev.stepTaken t ss]).take es.length = es := by simp
      rcases hA : es.any Ev.isEndEpoch with _ | _
      · have hr : recorded (es ++ [.stepTaken t ss]) = recorded es ++ [es.length] := by
          rw [recorded_snoc]; simp [Ev.isEndEpoch, Ev.isStep, hA]
        refine ⟨?_, ?_, ?_, ?_, ?_, ?_, ?_, ?_⟩
        · simp only [St.step, hE, hA, Bool.false_eq_true, if_false, St.push, lossAfter_snoc, ho]
        · simp only [St.step, hE, hA, Bool.false_eq_true, if_false, St.push]; exact hgv rfl
        · simp only [St.step, hE, hA, Bool.false_eq_true, if_false, St.push, List.any_append,
            List.any_cons, List.any_nil, Ev.isGrad, Bool.or_false, hG]
        · simp [St.step, hE, hA, St.push, Ev.isEndEpoch]
        · simp only [St.step, hE, hA, Bool.false_eq_true, if_false, St.push, hr, List.map_append,
            m1, l1, hos, List.map_cons, List.map_nil, ho]
        · simp only [St.step, hE, hA, Bool.false_eq_true, if_false, St.push, hr, List.map_append,
            m2, l2, hts, List.map_cons, List.map_nil]
        · simp only [St.step, hE, hA, Bool.false_eq_true, if_false, St.push, hr,
            List.filterMap_append, m3, hss, List.filterMap_cons, List.filterMap_nil, l3]
          cases ss <;> rfl
        · simp only [St.step, hE, hA, Bool.false_eq_true, if_false, St.push, hr,
            List.filterMap_append, m4, List.filterMap_cons, List.filterMap_nil, l4]
          rw [hp, hgs]
          cases normAfter es <;> rfl
      · have hr : recorded (es ++ [.stepTaken t ss]) = recorded es := by
          rw [recorded_snoc]; simp [Ev.isEndEpoch, hA]
        refine ⟨?_, ?_, ?_, ?_, ?_, ?_, ?_, ?_⟩
        · simp only [St.step, hE, hA, if_true, lossAfter_snoc, ho]
        · simp only [St.step, hE, hA, if_true]; exact hgv rfl
        · simp only [St.step, hE, hA, if_true, List.any_append,
            List.any_cons, List.any_nil, Ev.isGrad, Bool.or_false, hG]
        · simp [St.step, hE, hA]
        · simp only [St.step, hE, hA, if_true, hr, m1, hos]
        · simp only [St.step, hE, hA, if_true, hr, m2, hts]
        · simp only [St.step, hE, hA, if_true, hr, m3, hss]
        · simp only [St.step, hE, hA, if_true, hr, m4, hgs]

/-! ## C234: what the callback records -/

/-- C234: the counters count the calls, whatever was in the object before. -/
theorem C234_counts [Add R] (s : St R) (es : List (Ev R)) :
    (s.run es).evaluateCalls = s.evaluateCalls + es.countP Ev.isEval ∧
      (s.run es).gradientCalls = s.gradientCalls + es.countP Ev.isGrad ∧
      (s.run es).epochCalls = s.epochCalls + es.countP Ev.isBeginEpoch := by
  induction es using List.reverseRecOn with
  | nil => simp [St.run, St.beginOptimization]
  | append_singleton es e ih =>
    rw [run_snoc]
    obtain ⟨h1, h2, h3⟩ := ih
    cases e with
    | endEpoch o t ss =>
      simp only [St.step, List.countP_append, List.countP_singleton, Ev.isEval, Ev.isGrad,
        Ev.isBeginEpoch]
      split <;> simp [St.push, h1, h2, h3]
    | stepTaken t ss =>
      simp only [St.step, List.countP_append, List.countP_singleton, Ev.isEval, Ev.isGrad,
        Ev.isBeginEpoch]
      split <;> simp [St.push, h1, h2, h3]
    | _ => simp [St.step, St.gradient, List.countP_append, Ev.isEval, Ev.isGrad, Ev.isBeginEpoch,
        h1, h2, h3, add_assoc]

/-- C234: a new `Report` records, for every recorded event (the ends of the epochs if there are
any, else the steps), its loss, its time, its step size and the norm of the last gradient before
it. -/
theorem C234_recorded [AddCommMonoid R] (es : List (Ev R)) :
    ((St.fresh R).run es).objectives = (recorded es).map (lossAt es) ∧
      ((St.fresh R).run es).timings = (recorded es).map (timeAt es) ∧
      ((St.fresh R).run es).stepsizes = (recorded es).filterMap (stepSizeAt es) ∧
      ((St.fresh R).run es).gradientsNorm =
        (recorded es).filterMap fun i => normAfter (es.take i) :=
  ⟨(holds_run es).objectives, (holds_run es).timings, (holds_run es).stepsizes,
    (holds_run es).gradientsNorm⟩

example : ((St.fresh ℚ).run [.evaluate 5, .gradient 2, .stepTaken 1 none, .evaluate 3,
    .evaluateConstraint 4, .gradient 1, .stepTaken 2 none]).objectives = [5, 7] ∧
    recorded [Ev.evaluate (5 : ℚ), .gradient 2, .stepTaken 1 none, .evaluate 3,
    .evaluateConstraint 4, .gradient 1, .stepTaken 2 none] = [2, 6] := by
  decide +kernel

/-! ## C235: the table -/

/-- All vectors have one entry per recorded event. -/
structure Aligned (s : St R) : Prop where
  timings : s.timings.length = s.objectives.length
  gradients : s.hasGradient = true → s.gradientsNorm.length = s.objectives.length
  stepsizes : s.stepsizes = [] ∨ s.stepsizes.length = s.objectives.length

/-- The row printed for recorded event `i`. -/
def rowVal [Sub R] [Zero R] (s : St R) (step i : Nat) : Row R :=
  { iter := i
    loss := s.objectives.getD i 0
    change := if i > 0 then s.objectives.getD (i - step) 0 - s.objectives.getD i 0 else 0
    gradient := if s.hasGradient then some (s.gradientsNorm.getD i 0) else none
    stepSize := s.stepsizes[i]?
    time := s.timings.getD i 0 }

theorem row_eq [Sub R] [Zero R] {s : St R} (hs : Aligned s) (step i : Nat)
    (hi : i < s.objectives.length) : s.row step i = some (rowVal s step i) := by
  have h1 : s.objectives[i]? = some (s.objectives.getD i 0) := by
    rw [List.getElem?_eq_getElem hi, List.getD_eq_getElem _ _ hi]
  have h2 : s.objectives[i - step]? = some (s.objectives.getD (i - step) 0) := by
    have : i - step < s.objectives.length := by omega
    rw [List.getElem?_eq_getElem this, List.getD_eq_getElem _ _ this]
  have h3 : s.timings[i]? = some (s.timings.getD i 0) := by
    have : i < s.timings.length := by rw [hs.timings]; exact hi
    rw [List.getElem?_eq_getElem this, List.getD_eq_getElem _ _ this]
  have h4 : s.hasGradient = true → s.gradientsNorm[i]? = some (s.gradientsNorm.getD i 0) := by
    intro hg
    have : i < s.gradientsNorm.length := by rw [hs.gradients hg]; exact hi
    rw [List.getElem?_eq_getElem this, List.getD_eq_getElem _ _ this]
  have h5 : s.stepsizes.isEmpty = false → s.stepsizes[i]? = some (s.stepsizes.getD i 0) := by
    intro he
    rcases hs.stepsizes with h | h
    · rw [h] at he; cases he
    · have : i < s.stepsizes.length := by rw [h]; exact hi
      rw [List.getElem?_eq_getElem this, List.getD_eq_getElem _ _ this]
  have h6 : s.stepsizes.isEmpty = true → s.stepsizes[i]? = none := by
    intro he
    rw [List.isEmpty_iff] at he
    rw [he]; rfl
  unfold St.row rowVal
  rcases hg : s.hasGradient with _ | _ <;> rcases he : s.stepsizes.isEmpty with _ | _ <;>
    by_cases h0 : i > 0
  all_goals simp only [h0, hg, he, if_true, if_false, Bool.not_true, Bool.not_false,
    Bool.false_eq_true, h1, h2, h3, Option.bind_eq_bind, Option.bind_some, Option.pure_def]
  all_goals first
    | simp only [h4 hg, h5 he, Option.map_some, Option.bind_some]
    | simp only [h4 hg, h6 he, Option.map_some, Option.bind_some]
    | simp only [h5 he, Option.map_some, Option.bind_some]
    | simp only [h6 he, Option.map_some, Option.bind_some]

theorem rows_eq [Sub R] [Zero R] {s : St R} (hs : Aligned s) {step : Nat} (h1 : 1 ≤ step) :
    ∀ fuel i, s.objectives.length - i ≤ fuel →
      s.rows step fuel i = some ((List.range ((s.objectives.length - i + step - 1) / step)).map
        fun j => rowVal s step (i + j * step)) := by
  intro fuel
  induction fuel with
  | zero =>
    intro i h
    have : s.objectives.length - i + step - 1 = step - 1 := by omega
    rw [this, Nat.div_eq_of_lt (by omega)]
    rfl
  | succ fuel ih =>
    intro i h
    unfold St.rows
    by_cases hi : i < s.objectives.length
    · rw [if_pos hi, row_eq hs step i hi, ih (i + step) (by omega)]
      have : (s.objectives.length - i + step - 1) / step =
          (s.objectives.length - (i + step) + step - 1) / step + 1 := by
        rcases le_or_gt (i + step) s.objectives.length with hle | hgt
        · rw [show s.objectives.length - i + step - 1 =
            (s.objectives.length - (i + step) + step - 1) + step by omega,
            Nat.add_div_right _ (by omega)]
        · rw [show s.objectives.length - (i + step) + step - 1 = step - 1 by omega,
            Nat.div_eq_of_lt (by omega : step - 1 < step)]
          rw [show s.objectives.length - i + step - 1 =
            (s.objectives.length - i - 1) + step by omega,
            Nat.add_div_right _ (by omega), Nat.div_eq_of_lt (by omega)]
      rw [this, List.range_succ_eq_map]
      simp only [Option.bind_eq_bind, Option.bind_some, Option.pure_def, List.map_cons,
        Nat.zero_mul, Nat.add_zero, List.map_map]
      congr 2
      apply List.map_congr_left
      intro j _
      simp only [Function.comp]
      congr 1
      rw [Nat.succ_mul]; omega
    · rw [if_neg hi]
      have : s.objectives.length - i + step - 1 = step - 1 := by omega
      rw [this, Nat.div_eq_of_lt (by omega)]
      rfl

theorem getD_getElem? [Zero R] (l : List R) (i : Nat) (h : i < l.length) :
    l[i]? = some (l.getD i 0) := by
  rw [List.getElem?_eq_getElem h, List.getD_eq_getElem _ _ h]

/-- The number of rows between two printed ones. -/
theorem iterationStep_pos {n step : Nat} {p : ℚ} (h : iterationStep n p = some step) :
    1 ≤ step := by
  unfold iterationStep at h
  split at h
  · cases h
  · dsimp only at h
    split at h
    · cases h
    · rw [Option.some.injEq] at h
      rw [← h]
      split <;> omega

theorem filterMap_all {α β : Type} (l : List α) (f : α → Option β)
    (h : ∀ a ∈ l, (f a).isSome) : (l.filterMap f).length = l.length := by
  induction l with
  | nil => rfl
  | cons a l ih =>
    obtain ⟨b, hb⟩ := Option.isSome_iff_exists.1 (h a (by simp))
    rw [List.filterMap_cons, hb]
    simp [ih fun x hx => h x (by simp [hx])]

theorem filterMap_getElem? {α β : Type} (l : List α) (f : α → Option β)
    (h : ∀ a ∈ l, (f a).isSome) (i : Nat) : (l.filterMap f)[i]? = l[i]?.bind f := by
  induction l generalizing i with
  | nil => simp
  | cons a l ih =>
    obtain ⟨b, hb⟩ := Option.isSome_iff_exists.1 (h a (by simp))
    rw [List.filterMap_cons, hb]
    cases i with
    | zero => simp [hb]
    | succ i => simp [ih fun x hx => h x (by simp [hx])]

/-- The optimiser computes a gradient before the first recorded event, or never. -/
def GradientFirst (es : List (Ev R)) : Prop :=
  es.any Ev.isGrad = false ∨ ∀ i ∈ recorded es, (es.take i).any Ev.isGrad = true

/-- The optimiser has `StepSize()` (all events carry a step size) or has not. -/
def StepSizeUniform (es : List (Ev R)) : Prop :=
  (∀ i ∈ recorded es, (stepSizeAt es i).isSome = true) ∨ ∀ i ∈ recorded es, stepSizeAt es i = none

theorem aligned_run [AddCommMonoid R] {es : List (Ev R)} (hg : GradientFirst es)
    (hss : StepSizeUniform es) : Aligned ((St.fresh R).run es) := by
  have h := holds_run es
  refine ⟨by rw [h.timings, h.objectives]; simp, ?_, ?_⟩
  · intro hG
    rw [h.hasGradient] at hG
    rcases hg with hg | hg
    · rw [hg] at hG; cases hG
    · rw [h.gradientsNorm, h.objectives, List.length_map]
      apply filterMap_all
      intro i hi
      rw [normAfter_isSome]
      exact hg i hi
  · rw [h.stepsizes, h.objectives, List.length_map]
    rcases hss with hs | hs
    · right; exact filterMap_all _ _ hs
    · left
      rw [List.filterMap_eq_nil_iff]
      exact hs

/-- C235 (partial): if a gradient is computed before the first recorded event or never, the table
is printed without reading past the end of a vector.  With `step` as computed from the percentage
it has `⌈n / step⌉` rows for `n` recorded events; row `j` shows the iteration number `j * step`,
the loss, gradient norm, step size and time of the recorded event of that number, and the decrease
of the loss since the previous row. -/
theorem C235_table_partial [AddCommGroup R] (es : List (Ev R)) (p : ℚ) (step : Nat)
    (hg : GradientFirst es) (hss : StepSizeUniform es)
    (hstep : iterationStep (recorded es).length p = some step) :
    ∃ rows, ((St.fresh R).run es).table p = some rows ∧
      rows.length = ((recorded es).length + step - 1) / step ∧
      ∀ (j : Nat) (r : Row R), rows[j]? = some r →
        ∃ i, (recorded es)[j * step]? = some i ∧
          r.iter = j * step ∧ r.loss = lossAt es i ∧
          r.gradient = normAfter (es.take i) ∧
          r.stepSize = stepSizeAt es i ∧ r.time = timeAt es i ∧
          (j = 0 → r.change = 0) ∧
          ∀ (k : Nat) (r' : Row R), j = k + 1 → rows[k]? = some r' →
            r.change = r'.loss - r.loss := by
  have h := holds_run es
  have hal := aligned_run hg hss
  set s := (St.fresh R).run es with hs
  have hlen : s.objectives.length = (recorded es).length := by rw [h.objectives]; simp
  have h1 := iterationStep_pos hstep
  refine ⟨(List.range ((s.objectives.length - 0 + step - 1) / step)).map
    fun j => rowVal s step (0 + j * step), ?_, ?_, ?_⟩
  · unfold St.table
    rw [hlen, hstep]
    simp only [Option.bind_eq_bind, Option.bind_some]
    rw [rows_eq hal h1 _ 0 (by omega), hlen]
  · simp [hlen]
  · intro j r hr
    simp only [List.getElem?_map, Nat.sub_zero, Option.map_eq_some_iff] at hr
    obtain ⟨j', hj', hr⟩ := hr
    obtain ⟨hlt, rfl⟩ := List.getElem?_eq_some_iff.1 hj'
    simp only [List.length_range] at hlt
    simp only [List.getElem_range, zero_add] at hr
    have hjn : j * step < (recorded es).length := by
      rw [hlen] at hlt
      have := Nat.div_mul_le_self ((recorded es).length + step - 1) step
      have h2 : (j + 1) * step ≤ ((recorded es).length + step - 1) / step * step :=
        Nat.mul_le_mul_right _ hlt
      rw [Nat.succ_mul] at h2
      omega
    have hobj : ∀ k (hk : k < (recorded es).length),
        s.objectives.getD k 0 = lossAt es ((recorded es)[k]) := by
      intro k hk
      rw [h.objectives, List.getD_eq_getElem _ _ (by simpa using hk), List.getElem_map]
    refine ⟨(recorded es)[j * step], List.getElem?_eq_getElem hjn, ?_, ?_, ?_, ?_, ?_, ?_, ?_⟩
    · rw [← hr]; rfl
    · rw [← hr]; exact hobj _ hjn
    · rw [← hr]
      simp only [rowVal]
      rcases hg with hg | hg
      · rw [if_neg (by rw [h.hasGradient, hg]; simp)]
        have := normAfter_isSome (es.take (recorded es)[j * step])
        have hn : (es.take (recorded es)[j * step]).any Ev.isGrad = false := by
          rw [List.any_eq_false] at hg ⊢
          intro e he
          exact hg e (List.mem_of_mem_take he)
        rw [hn, Option.isSome_eq_false_iff, Option.isNone_iff_eq_none] at this
        rw [this]
      · have hmem : (recorded es)[j * step] ∈ recorded es := List.getElem_mem hjn
        have hany := hg _ hmem
        have hG : s.hasGradient = true := by
          rw [h.hasGradient, List.any_eq_true]
          obtain ⟨e, he, he'⟩ := List.any_eq_true.1 hany
          exact ⟨e, List.mem_of_mem_take he, he'⟩
        rw [if_pos hG]
        have hN : ∀ i ∈ recorded es, (normAfter (es.take i)).isSome := by
          intro i hi; rw [normAfter_isSome]; exact hg i hi
        have hl : j * step < s.gradientsNorm.length := by
          rw [hal.gradients hG, hlen]; exact hjn
        rw [← getD_getElem? _ _ hl, h.gradientsNorm,
          filterMap_getElem? _ (fun i => normAfter (es.take i)) hN,
          List.getElem?_eq_getElem hjn]
        rfl
    · rw [← hr]
      simp only [rowVal]
      rw [h.stepsizes]
      rcases hss with hss | hss
      · rw [filterMap_getElem? _ _ hss, List.getElem?_eq_getElem hjn]
        rfl
      · rw [List.filterMap_eq_nil_iff.2 hss, hss _ (List.getElem_mem hjn)]
        rfl
    · rw [← hr]
      simp only [rowVal]
      rw [h.timings, List.getD_eq_getElem _ _ (by simpa using hjn), List.getElem_map]
    · intro h0
      rw [← hr]
      simp [rowVal, h0]
    · intro k r' hk hr'
      simp only [List.getElem?_map, Nat.sub_zero, Option.map_eq_some_iff] at hr'
      obtain ⟨k', hk', hr'⟩ := hr'
      obtain ⟨hltk, rfl⟩ := List.getElem?_eq_some_iff.1 hk'
      simp only [List.getElem_range, zero_add] at hr'
      rw [← hr, ← hr', hk]
      have : (k + 1) * step > 0 := Nat.mul_pos (by omega) (by omega)
      simp only [rowVal, if_pos this]
      rw [show (k + 1) * step - step = k * step by rw [Nat.succ_mul]; omega]

example : GradientFirst [Ev.evaluate (5 : ℚ), .gradient 2, .stepTaken 1 (some 3), .evaluate 3,
      .gradient 1, .stepTaken 2 (some 3)] ∧
    StepSizeUniform [Ev.evaluate (5 : ℚ), .gradient 2, .stepTaken 1 (some 3), .evaluate 3,
      .gradient 1, .stepTaken 2 (some 3)] ∧
    iterationStep (recorded [Ev.evaluate (5 : ℚ), .gradient 2, .stepTaken 1 (some 3), .evaluate 3,
      .gradient 1, .stepTaken 2 (some 3)]).length (1 / 10) = some 1 := by
  refine ⟨?_, ?_, ?_⟩
  · right; decide +kernel
  · left; decide +kernel
  · decide +kernel

/-- C235: without that condition the table reads past the end of `gradientsNorm`. -/
theorem C235_gradient_refuted : ¬ ∀ (es : List (Ev ℚ)) (p : ℚ), 0 < p → p ≤ 1 →
    ((St.fresh ℚ).run es).table p ≠ none := by
  intro h
  exact h [.evaluate 1, .stepTaken 0 none, .evaluate 1, .gradient 1, .stepTaken 0 none] 1
    (by norm_num) (by norm_num) (by decide +kernel)

/-- C235: the condition holds for each optimiser, but not for one `Report` object used first with
an optimiser that needs no gradients and then with one that does. -/
theorem C235_reuse_refuted : ¬ ∀ (es es' : List (Ev ℚ)) (p : ℚ), 0 < p → p ≤ 1 →
    GradientFirst es → StepSizeUniform es → GradientFirst es' → StepSizeUniform es' →
    (((St.fresh ℚ).run es).run es').table p ≠ none := by
  intro h
  exact h [.evaluate 1, .stepTaken 0 none] [.evaluate 1, .gradient 1, .stepTaken 0 none] 1
    (by norm_num) (by norm_num) (Or.inl (by decide +kernel)) (Or.inr (by decide +kernel))
    (Or.inr (by decide +kernel)) (Or.inr (by decide +kernel)) (by decide +kernel)

/-- C235: the percentage 0 is in the documented range `[0, 1]`, and is a division by zero. -/
theorem C235_zero_percentage_refuted : ¬ ∀ (es : List (Ev ℚ)) (p : ℚ), 0 ≤ p → p ≤ 1 →
    GradientFirst es → StepSizeUniform es → ((St.fresh ℚ).run es).table p ≠ none := by
  intro h
  exact h [.evaluate 1, .stepTaken 0 none] 0 (by norm_num) (by norm_num)
    (Or.inl (by decide +kernel)) (Or.inr (by decide +kernel)) (by decide +kernel)

/-- The number of rows for `n` recorded events. -/
def rowCount (n : Nat) (p : ℚ) : Option Nat := (iterationStep n p).map fun s => (n + s - 1) / s

/-- C235: `iterationsPercentage` is not the fraction of the iterations that is reported:
of 1000 iterations the default 0.1 reports 10. -/
theorem C235_percentage_refuted : ¬ ∀ (n : Nat) (p : ℚ), 0 < p → p ≤ 1 → ∀ k,
    rowCount n p = some k → k = ⌈p * n⌉₊ := by
  intro h
  have := h 1000 (1 / 10) (by norm_num) (by norm_num) 10 (by decide +kernel)
  rw [show (1 / 10 : ℚ) * ((1000 : Nat) : ℚ) = ((100 : Nat) : ℚ) by norm_num,
    Nat.ceil_natCast] at this
  omega

/-- C235 (range): for a positive percentage the conversion of the row distance to `size_t` is defined exactly when the number of
recorded iterations is less than `2^64 * 100 p`; a tiny percentage is undefined behaviour like 0. -/
theorem C235_defined (n : Nat) (p : ℚ) (hp : 0 < p) : (rowCount n p).isSome ↔ (n : ℚ) < 18446744073709551616 * (100 * p) := by
  have hP : (0 : ℚ) < p * 100 := by positivity
  have h0 : ¬ (n : ℚ) / (p * 100) ≤ -1 := by
    have : (0 : ℚ) ≤ n / (p * 100) := by positivity
    linarith
  rw [rowCount, Option.isSome_map, iterationStep, if_neg hp.ne', ← mul_comm p 100, ← div_lt_iff₀ hP]
  dsimp only
  have e : (2 : ℚ) ^ 64 = 18446744073709551616 := by norm_num
  rw [← not_le, ← e]
  split
  · rename_i h
    simpa using h.resolve_left h0
  · rename_i h
    simpa using fun h' => h (Or.inr h')

example : (rowCount 2 (1 / 10 ^ 22)).isSome = false := by
  rw [Bool.eq_false_iff, Ne, C235_defined 2 _ (by norm_num)]; norm_num

/-- C235 (partial): the number of rows is set by the percentage alone: with at least
`100 p` iterations it is at least `100 p` and less than `200 p + 1` rows; with fewer, every
iteration is a row. -/
theorem C235_rows_partial (n : Nat) (p : ℚ) (hp : 0 < p) (k : Nat)
    (hk : rowCount n p = some k) :
    (p * 100 ≤ n → p * 100 ≤ k ∧ (k : ℚ) < 200 * p + 1) ∧ ((n : ℚ) < p * 100 → k = n) := by
  unfold rowCount at hk
  rw [Option.map_eq_some_iff] at hk
  obtain ⟨step, hstep, hk⟩ := hk
  have hpos := iterationStep_pos hstep
  unfold iterationStep at hstep
  rw [if_neg hp.ne'] at hstep
  dsimp only at hstep
  split at hstep
  · cases hstep
  rw [Option.some.injEq] at hstep
  have hP : (0 : ℚ) < p * 100 := by positivity
  constructor
  · intro hn
    have hq : (1 : ℚ) ≤ n / (p * 100) := by rw [le_div_iff₀ hP]; linarith
    have hf : 1 ≤ ⌊(n : ℚ) / (p * 100)⌋₊ := by rw [Nat.le_floor_iff (by positivity)]; simpa using hq
    rw [if_neg (by omega)] at hstep
    have h1 : (step : ℚ) ≤ n / (p * 100) := by
      rw [← hstep]; exact Nat.floor_le (by positivity)
    have h2 : (n : ℚ) / (p * 100) < step + 1 := by
      rw [← hstep]; exact Nat.lt_floor_add_one _
    have hs0 : (0 : ℚ) < step := by exact_mod_cast hpos
    have hs1 : (1 : ℚ) ≤ step := by exact_mod_cast hpos
    have hkn : n ≤ k * step := by
      rw [← hk]
      have := Nat.div_add_mod (n + step - 1) step
      have hm := Nat.mod_lt (n + step - 1) (by omega : step > 0)
      rw [Nat.mul_comm] at this
      omega
    have hkn' : k * step ≤ n + step - 1 := by rw [← hk]; exact Nat.div_mul_le_self _ _
    have e1 : (n : ℚ) ≤ k * step := by exact_mod_cast hkn
    have e2 : (k : ℚ) * step ≤ n + step - 1 := by
      have : k * step + 1 ≤ n + step := by omega
      have : ((k * step + 1 : Nat) : ℚ) ≤ ((n + step : Nat) : ℚ) := by exact_mod_cast this
      push_cast at this
      linarith
    rw [le_div_iff₀ hP] at h1
    rw [div_lt_iff₀ hP] at h2
    constructor
    · by_contra hcon
      push Not at hcon
      nlinarith
    · by_contra hcon
      push Not at hcon
      nlinarith
  · intro hn
    have hq : (n : ℚ) / (p * 100) < 1 := by rw [div_lt_one hP]; exact hn
    have hf : ⌊(n : ℚ) / (p * 100)⌋₊ = 0 := by rw [Nat.floor_eq_zero]; exact hq
    rw [if_pos hf] at hstep
    subst hstep
    simp at hk
    omega

example : rowCount 1234 (1 / 10) = some 11 ∧ rowCount 7 (1 / 10) = some 7 := by
  constructor <;> decide +kernel

/-! ## C237: the summary -/

/-- C237 (partial): after a run of a new `Report` in which something was recorded and evaluated,
the summary shows the loss of the first and of the last recorded event and their difference, the
number of recorded events, the numbers of calls, the time of the last recorded event, the first and
last step size and the largest recorded gradient norm; the precision of the stream is restored. -/
theorem C237_summary_partial [AddCommGroup R] [Max R] (es : List (Ev R)) (ctx : Ctx) (p : ℚ)
    (prec : Nat) (time : R) (i₀ i₁ step : Nat) (hg : GradientFirst es) (hss : StepSizeUniform es)
    (hstep : iterationStep (recorded es).length p = some step)
    (h0 : (recorded es).head? = some i₀) (h1 : (recorded es).getLast? = some i₁)
    (he : es.any Ev.isEval = true) :
    ∃ tbl sum st, ((St.fresh R).run es).endOptimization ctx p prec time =
        some (tbl, ctx.numFunctions, .summary sum, prec, st) ∧
      ((St.fresh R).run es).table p = some tbl ∧
      sum.initial = lossAt es i₀ ∧ sum.final = lossAt es i₁ ∧
      sum.change = lossAt es i₀ - lossAt es i₁ ∧
      sum.iterations = some (recorded es).length ∧
      sum.epochs = (if es.any Ev.isBeginEpoch then some (es.countP Ev.isBeginEpoch) else none) ∧
      sum.evaluateCalls = es.countP Ev.isEval ∧
      sum.gradientCalls = (if es.any Ev.isGrad then some (es.countP Ev.isGrad) else none) ∧
      sum.time = timeAt es i₁ ∧
      sum.stepSizes = ((stepSizeAt es i₀).bind fun a => (stepSizeAt es i₁).map fun b => (a, b)) ∧
      sum.maxNorm = ((recorded es).filterMap fun i => normAfter (es.take i)).max? ∧
      (ctx.numFunctions.isSome → sum.optimizer = some
        ⟨ctx.maxIterations.map fun m => (m, decide (m = (recorded es).length)),
          ctx.batchSize⟩) := by
  have h := holds_run es
  obtain ⟨rows, hr, -, -⟩ := C235_table_partial es p step hg hss hstep
  obtain ⟨c1, c2, c3⟩ := C234_counts (St.fresh R) es
  simp only [St.fresh, zero_add] at c1 c2 c3
  change ((St.fresh R).run es).evaluateCalls = _ at c1
  change ((St.fresh R).run es).gradientCalls = _ at c2
  change ((St.fresh R).run es).epochCalls = _ at c3
  have hlen : ((St.fresh R).run es).objectives.length = (recorded es).length := by
    rw [h.objectives]; simp
  have hlen' : ((St.fresh R).run es).timings.length = (recorded es).length := by
    rw [h.timings]; simp
  have hpos : 0 < (recorded es).length := by
    cases hh : recorded es with
    | nil => rw [hh] at h0; simp at h0
    | cons a l => simp
  have e0 : ((St.fresh R).run es).objectives[0]? = some (lossAt es i₀) := by
    rw [h.objectives, List.getElem?_map, ← List.head?_eq_getElem?, h0]; rfl
  have e1 : ((St.fresh R).run es).objectives[(recorded es).length - 1]? = some (lossAt es i₁) := by
    rw [h.objectives, List.getElem?_map, ← List.getLast?_eq_getElem?, h1]; rfl
  have e2 : ((St.fresh R).run es).timings[(recorded es).length - 1]? = some (timeAt es i₁) := by
    rw [h.timings, List.getElem?_map, ← List.getLast?_eq_getElem?, h1]; rfl
  have hev : es.countP Ev.isEval ≠ 0 := by
    rw [Ne, List.countP_eq_zero]
    intro hh
    obtain ⟨e, hm, hh'⟩ := List.any_eq_true.1 he
    exact hh e hm hh'
  have hbe : (es.countP Ev.isBeginEpoch > 0) ↔ es.any Ev.isBeginEpoch = true := by
    rw [gt_iff_lt, List.countP_pos_iff, List.any_eq_true]
  unfold St.endOptimization
  rw [hr, c1]
  simp only [Option.bind_eq_bind, Option.bind_some, if_neg hev, hlen, if_neg hpos.ne', e0, e1,
    hlen', e2, Option.pure_def, hpos, decide_true, if_true, gt_iff_lt]
  have ess : ((St.fresh R).run es).stepsizes.head? = stepSizeAt es i₀ ∧
      ((St.fresh R).run es).stepsizes.getLast? = stepSizeAt es i₁ := by
    rw [h.stepsizes]
    rcases hss with hss | hss
    · rw [List.head?_eq_getElem?, List.getLast?_eq_getElem?, filterMap_getElem? _ _ hss,
        filterMap_getElem? _ _ hss, filterMap_all _ _ hss, ← List.head?_eq_getElem?,
        ← List.getLast?_eq_getElem?, h0, h1]
      exact ⟨rfl, rfl⟩
    · rw [List.filterMap_eq_nil_iff.2 hss, hss i₀ (List.mem_of_mem_head? h0),
        hss i₁ (List.mem_of_getLast? h1)]
      exact ⟨rfl, rfl⟩
  refine ⟨rows, _, _, rfl, rfl, rfl, rfl, rfl, rfl, ?_, c1, ?_, rfl, ?_, ?_, ?_⟩
  · simp only [c3]
    by_cases hb : es.any Ev.isBeginEpoch = true
    · rw [if_pos (hbe.2 hb), if_pos hb]
    · rw [if_neg (fun hc => hb (hbe.1 hc)), if_neg hb]
  · simp only [c2, h.hasGradient]
  · simp only [ess.1, ess.2]
    cases stepSizeAt es i₀ <;> cases stepSizeAt es i₁ <;> rfl
  · simp only [h.gradientsNorm]
    by_cases hG : ((St.fresh R).run es).hasGradient = true
    · rw [if_pos hG]
      cases (recorded es).filterMap fun i => normAfter (es.take i) <;> rfl
    · rw [if_neg hG]
      have hn : ((recorded es).filterMap fun i => normAfter (es.take i)) = [] := by
        rw [List.filterMap_eq_nil_iff]
        intro i _
        rw [← Option.isNone_iff_eq_none, ← Option.isSome_eq_false_iff, normAfter_isSome]
        rw [h.hasGradient, Bool.not_eq_true] at hG
        rw [List.any_eq_false] at hG ⊢
        intro e he
        exact hG e (List.mem_of_mem_take he)
      rw [hn]
      rfl
  · intro hf
    simp only [hf, if_true]

example : (recorded [Ev.evaluate (5 : ℚ), .gradient 2, .stepTaken 1 (some 3), .evaluate 3,
      .gradient 1, .stepTaken 2 (some 3)]).head? = some 2 ∧
    (recorded [Ev.evaluate (5 : ℚ), .gradient 2, .stepTaken 1 (some 3), .evaluate 3,
      .gradient 1, .stepTaken 2 (some 3)]).getLast? = some 5 := by
  decide +kernel

/-- C237: without a step the report shows the last objective as initial and final loss and
"0 iterations". -/
theorem C237_no_steps [AddCommGroup R] [Max R] (es : List (Ev R)) (ctx : Ctx) (p : ℚ) (prec : Nat)
    (time : R) (hp : 0 < p) (h0 : recorded es = []) (he : es.any Ev.isEval = true) :
    ∃ sum st, ((St.fresh R).run es).endOptimization ctx p prec time =
        some ([], ctx.numFunctions, .summary sum, prec, st) ∧
      sum.initial = lossAfter es ∧ sum.final = lossAfter es ∧ sum.change = 0 ∧
      sum.iterations = none ∧ sum.time = time ∧ sum.evaluateCalls = es.countP Ev.isEval := by
  have h := holds_run es
  obtain ⟨c1, c2, c3⟩ := C234_counts (St.fresh R) es
  simp only [St.fresh, zero_add] at c1
  change ((St.fresh R).run es).evaluateCalls = _ at c1
  have ho : ((St.fresh R).run es).objectives = [] := by rw [h.objectives, h0]; rfl
  have ht : ((St.fresh R).run es).timings = [] := by rw [h.timings, h0]; rfl
  have hev : es.countP Ev.isEval ≠ 0 := by
    rw [Ne, List.countP_eq_zero]
    intro hh
    obtain ⟨e, hm, hh'⟩ := List.any_eq_true.1 he
    exact hh e hm hh'
  have htab : ((St.fresh R).run es).table p = some [] := by
    unfold St.table iterationStep
    rw [ho]
    simp [hp.ne', St.rows]
    norm_num
  unfold St.endOptimization
  rw [htab, c1, ho, ht]
  simp only [Option.bind_eq_bind, Option.bind_some, if_neg hev, List.length_nil, if_true,
    List.nil_append, List.length_singleton, List.getElem?_cons_zero, Nat.sub_self, Option.pure_def]
  refine ⟨_, _, rfl, h.objective, h.objective, sub_self _, ?_, rfl, rfl⟩
  simp

example : recorded [Ev.evaluate (5 : ℚ), .gradient 2] = [] ∧
    [Ev.evaluate (5 : ℚ), .gradient 2].any Ev.isEval = true := by decide +kernel

/-- The summary of a report. -/
def summaryOf {R : Type} :
    Option (List (Row R) × Option Nat × Tail R × Nat × St R) → Option (Summary R)
  | some (_, _, .summary s, _, _) => some s
  | _ => none

/-- The precision of the output stream after a report. -/
def precisionOf {R : Type} :
    Option (List (Row R) × Option Nat × Tail R × Nat × St R) → Option Nat
  | some (_, _, _, n, _) => some n
  | _ => none

/-- C237: used for a second optimisation, a `Report` does not report that optimisation: the
initial loss is the one of the first. -/
theorem C237_reuse_refuted : ¬ ∀ (es es' : List (Ev ℚ)) (ctx : Ctx) (i : Nat) (s : Summary ℚ),
    summaryOf (((St.fresh ℚ).run es |>.run es').endOptimization ctx 1 6 0) = some s →
    (recorded es').head? = some i → s.initial = lossAt es' i := by
  intro h
  have := h [.evaluate 7, .stepTaken 0 none] [.evaluate 3, .stepTaken 0 none] ⟨none, none, none⟩ 1
    ⟨7, 3, 4, none, some 2, none, none, none, 2, none, 0⟩ (by decide +kernel) (by decide +kernel)
  revert this
  decide +kernel

/-- C237: the optimizer section (maximum iterations, batch size) is printed only for functions
with `NumFunctions()`: for all other functions it is lost. -/
theorem C237_optimizer_section_refuted : ¬ ∀ (es : List (Ev ℚ)) (ctx : Ctx) (s : Summary ℚ),
    summaryOf (((St.fresh ℚ).run es).endOptimization ctx 1 6 0) = some s →
    ctx.maxIterations.isSome → s.optimizer.isSome := by
  intro h
  have := h [.evaluate 7, .stepTaken 0 none] ⟨none, some 5, none⟩
    ⟨7, 7, 0, none, some 1, none, none, none, 1, none, 0⟩ (by decide +kernel) (by decide +kernel)
  revert this
  decide +kernel

/-- C237: for the optimisers with epochs "Iterations" is the number of epochs, and so
"Reached maximum iterations" is wrong: an SGD run of 2 steps that used up its two iterations in one
epoch is reported as not having reached the maximum. -/
theorem C237_max_iterations_refuted : ¬ ∀ (es : List (Ev ℚ)) (ctx : Ctx) (s : Summary ℚ) (m : Nat)
    (b : Bool) (k : Option Nat),
    summaryOf (((St.fresh ℚ).run es).endOptimization ctx 1 6 0) = some s →
    s.optimizer = some ⟨some (m, b), k⟩ → (b = true ↔ m = es.countP Ev.isStep) := by
  intro h
  have := h [.beginEpoch, .evaluate 7, .stepTaken 0 none, .evaluate 6, .stepTaken 0 none,
      .endEpoch 13 0 none] ⟨some 2, some 2, none⟩
    ⟨13, 13, 0, some ⟨some (2, false), none⟩, some 1, some 1, none, none, 2, none, 0⟩ 2 false none
    (by decide +kernel) (by decide +kernel)
  revert this
  decide +kernel

/-- C237: when the objective was never evaluated the precision of the stream is not restored. -/
theorem C237_precision_refuted : ¬ ∀ (es : List (Ev ℚ)) (ctx : Ctx) (prec n : Nat),
    precisionOf (((St.fresh ℚ).run es).endOptimization ctx 1 prec 0) = some n → n = prec := by
  intro h
  have := h [.gradient 1, .stepTaken 0 none] ⟨none, none, none⟩ 6 3 (by decide +kernel)
  omega

/-- C237: an optimisation whose objective is known only from `EndEpoch()` is reported as
"Objective never computed". -/
theorem C237_end_epoch_refuted : ¬ ∀ (es : List (Ev ℚ)) (ctx : Ctx), recorded es ≠ [] →
    GradientFirst es → (summaryOf (((St.fresh ℚ).run es).endOptimization ctx 1 6 0)).isSome := by
  intro h
  have := h [.beginEpoch, .endEpoch 3 0 none] ⟨none, none, none⟩ (by decide +kernel)
    (Or.inl (by decide +kernel))
  revert this
  decide +kernel

end Ens.Report
