import Mathlib.Algebra.Order.Group.Int
import Mathlib.Algebra.Order.Group.Defs
import Mathlib.Data.List.Basic
import Verif.Callbacks.Model

/-
C152: `TimerStop` measures the time since the last `BeginOptimization`.
-/

namespace Ens.Callbacks

variable {T : Type}

theorem timerRun_append [Sub T] [Zero T] [LT T] [DecidableLT T] (d : T) (s : Option T)
    (a b : List (TimerEv T)) :
    ∃ s', timerRun d s (a ++ b) = timerRun d s a ++ timerRun d s' b := by
  induction a generalizing s with
  | nil => exact ⟨s, rfl⟩
  | cons e a ih =>
    obtain ⟨s', h⟩ := ih (timerStep d s e).1
    exact ⟨s', by simp [timerRun, h]⟩

theorem timerRun_epochs [Sub T] [Zero T] [LT T] [DecidableLT T] (d t₀ : T) (ts : List T) :
    timerRun d (some t₀) (ts.map .endEpoch) = ts.map (fun t => decide (d < t - t₀)) := by
  induction ts with
  | nil => rfl
  | cons t ts ih => simp [timerRun, timerStep, ih]

/-- **C152** Whatever happened to the object before (earlier runs included), in a run that begins at
time `t₀` the answer at the end of each epoch is whether more than `duration` has passed since `t₀`. -/
theorem C152_timer_stop_exact [Sub T] [Zero T] [LT T] [DecidableLT T] (d t₀ : T) (s : Option T)
    (before : List (TimerEv T)) (ts : List T) :
    ∃ old, timerRun d s (before ++ .begin t₀ :: ts.map .endEpoch) =
      old ++ false :: ts.map (fun t => decide (d < t - t₀)) := by
  obtain ⟨s', h⟩ := timerRun_append d s before (.begin t₀ :: ts.map .endEpoch)
  refine ⟨timerRun d s before, ?_⟩
  rw [h]
  show _ ++ (_ :: timerRun d (some t₀) _) = _
  rw [timerRun_epochs]; rfl

/-- **C152** With a clock that does not run backwards, a timer that asked to stop keeps asking, and
with a non-negative duration it never asks at the starting time. -/
theorem C152_timer_stop_monotone [AddCommGroup T] [LinearOrder T] [IsOrderedAddMonoid T] (d t₀ : T)
    (hd : 0 ≤ d) (t t' : T) (h : t ≤ t') :
    timerRun d none [.begin t₀, .endEpoch t₀] = [false, false] ∧
    (timerRun d none [.begin t₀, .endEpoch t] = [false, true] →
      timerRun d none [.begin t₀, .endEpoch t, .endEpoch t'] = [false, true, true]) := by
  constructor
  · simp [timerRun, timerStep, hd]
  · intro h1
    have : d < t - t₀ := by
      simp only [timerRun, timerStep, List.cons.injEq, and_true, true_and, decide_eq_true_eq] at h1
      exact of_decide_eq_true h1
    have h2 : d < t' - t₀ := lt_of_lt_of_le this (sub_le_sub_right h t₀)
    simp only [timerRun, timerStep, List.cons.injEq, and_true, true_and, decide_eq_true_eq]
    exact ⟨decide_eq_true this, decide_eq_true h2⟩

/-- Non-vacuity: a reused timer with duration 5: the first run starts at 0 and times out, the second
starts at 100 and times out only after 105. -/
example : timerRun (5 : Int) none [.begin 0, .endEpoch 3, .endEpoch 7, .begin 100, .endEpoch 104, .endEpoch 106]
    = [false, false, true, false, false, true] := by decide

end Ens.Callbacks
