import Mathlib.Tactic.FinCases
import Verif.Sdp.PrimalDualRun

/-
`PrimalDualSolver`: callbacks, number of iterations and returned value. Property C191, C192.
-/

namespace Ens.PrimalDual

open Matrix Ens.Lrsdp

variable {n : Nat} {K W : Type} [Field K] [LinearOrder K]

/-- The coordinates given to `StepTaken` during a run, with the answers. -/
def Ev.isStep : Ev n K → Bool
  | .step .. => true
  | _ => false

def Ev.stops : Ev n K → Bool
  | .step _ b => b
  | _ => false

/-- Shape of the trace at the top of the loop. -/
structure Shape {m : Nat} (x₀ : Mat n K) (p : Sdp (Fin n) K) (s : St n K W m) : Prop where
  first : ∃ t, s.trace = .begin x₀ :: t ∧ (∀ e ∈ t, e.isStep = true)
  count : s.trace.countP Ev.isStep = s.steps.length
  stop : s.terminate = s.trace.any Ev.stops
  iteration : s.iteration = (1 + s.steps.length) % 2 ^ 64
  obj : s.steps ≠ [] → s.obj = accu p.C s.x
  zero : s.steps = [] → s.obj = 0

/-- **C191** (partial) Callbacks and returned value of a run that ends in a return. `BeginOptimization` comes first, then one
`StepTaken` per step and nothing else, except that `EndOptimization` is the last call unless the KKT test succeeded (or an
exception was thrown). If the limit ended the run, either a callback asked to stop or exactly `maxIterations - 1` steps were made
(counting modulo `2^64`). The value is the objective at the final coordinates if a step was made, also when `StepTaken`
changed them. Missing: `EndOptimization` on success, `maxIterations` steps, the value when no step was made, see the refutations. -/
theorem C191_run_partial {env : Env n K W} (hen : ∀ w x, (env.cbEnd w x).2 = x) {c : Params K} (p : Sdp (Fin n) K) (fuel : Nat)
    (w : W) (x : Mat n K) (y : Fin p.all.length → K) (z : Mat n K) {e : Exit} {s : St n K W p.all.length}
    (h : optimize env c p fuel w x y z = .done (e, s)) :
    (∃ t, s.trace = .begin x :: t ++ (if e = .converged ∨ e = .throws then [] else [.endOpt s.x]) ∧
      (∀ v ∈ t, v.isStep = true) ∧ t.length = s.steps.length ∧
      (e = .limit → t.any Ev.stops = true ∨ (1 + s.steps.length) % 2 ^ 64 = c.maxIterations)) ∧
    (s.steps ≠ [] → s.obj = accu p.C s.x) ∧ (s.steps = [] → s.obj = 0) := by
  unfold optimize at h
  split_ifs at h with hcx hcz
  cases hr : iterate (step env c p) fuel (start env p w x y z) with
  | none => rw [hr] at h; cases h
  | some r =>
    rw [hr] at h
    simp only [Outcome.done.injEq, Prod.mk.injEq] at h
    obtain ⟨rfl, rfl⟩ := h
    obtain ⟨hG, -, hl, -⟩ := run_rule env c p (Shape x p)
      (fun s rc d a b hs _ _ _ _ _ => by
        obtain ⟨t, ht, hall⟩ := hs.first
        refine ⟨⟨t ++ [.step (s.x + a • d.dX) (env.cbStep s.w (s.x + a • d.dX)).2.2], ?_, ?_⟩, ?_, ?_, ?_, ?_, ?_⟩
        · simp [after, ht]
        · intro v hv
          rcases List.mem_append.1 hv with hv | hv
          · exact hall v hv
          · simp only [List.mem_singleton] at hv; subst hv; rfl
        · simp [after, List.countP_append, hs.count, Ev.isStep]
        · simp [after, List.any_append, hs.stop, Ev.stops]
        · simp only [after, hs.iteration, List.length_append, List.length_singleton]; omega
        · intro _; rfl
        · intro h0; simp [after] at h0)
      fuel _ ⟨⟨[], rfl, by simp⟩, rfl, rfl, rfl, fun h => absurd rfl h, fun _ => rfl⟩ r hr
    obtain ⟨t, ht, hall⟩ := hG.first
    have hlen : t.length = r.2.steps.length := by
      have := hG.count
      rw [ht, List.countP_cons_of_neg (by simp [Ev.isStep]), List.countP_eq_length.2 hall] at this
      exact this
    have hlim : r.1 = .limit → t.any Ev.stops = true ∨ (1 + r.2.steps.length) % 2 ^ 64 = c.maxIterations := by
      intro h
      rcases hl h with h | h
      · right; rw [← hG.iteration, h]
      · left
        rw [hG.stop, ht] at h
        simpa [Ev.stops] using h
    have hobj := hG.obj
    have hzero := hG.zero
    revert hlim
    generalize r.1 = ex
    intro hlim
    cases ex
    all_goals
      refine ⟨⟨t, ?_, hall, ?_, ?_⟩, ?_, ?_⟩
      · simp [finish, ht, hen]
      · exact hlen
      · exact hlim
      · simpa [finish, hen] using hobj
      · simpa [finish] using hzero

/-! ### Concrete runs in dimension 1 -/

/-- A 1×1 matrix. -/
def one1 (v : ℚ) : Mat 1 ℚ := fun _ _ => v

/-- The library routines on 1×1 matrices (square roots of squares). -/
def scalar (stop : Bool) : Env 1 ℚ Unit where
  check := fun a => decide (0 < a 0 0)
  chol := fun a => if 0 < a 0 0 then some (one1 ((Nat.sqrt (a 0 0).num.toNat : ℚ) / (Nat.sqrt (a 0 0).den : ℚ))) else none
  inv := fun l => if l 0 0 = 0 then none else some (one1 (1 / l 0 0))
  topEig := fun b => some (b 0 0, false)
  syl := fun a h => one1 (h 0 0 / (2 * a 0 0))
  solve := fun {m} M r => some fun i => r i / M i i
  norm := fun l => (l.map fun a => |a|).sum
  cbBegin := fun w x => (w, x)
  cbStep := fun w x => (w, x, stop)
  cbEnd := fun w x => (w, x)

/-- `min 2 x` subject to `x = 1`. -/
def prog : Sdp (Fin 1) ℚ := ⟨one1 2, [], [(one1 1, 1)]⟩

/-- What is shown of a run: exit, coordinates, value, steps, number of `EndOptimization` calls. -/
def view {p : Sdp (Fin 1) ℚ} : Outcome (Exit × St 1 ℚ Unit p.all.length) → Option (Exit × ℚ × ℚ × Nat × Nat)
  | .done (e, s) => some (e, s.x 0 0, s.obj, s.steps.length, s.trace.countP fun v => match v with | .endOpt _ => true | _ => false)
  | _ => none

/-- A run that converges after a step: no `EndOptimization`. -/
theorem demo_converged : view (optimizeDefault (scalar false) ⟨1000, 99 / 100, 1 / 10, 1 / 10, 1 / 10⟩ prog 10 () (one1 1)) =
    some (.converged, 1, 2, 1, 0) := by decide +kernel

/-- A limit of 1 permits no step and the value returned is 0. -/
theorem demo_limit : view (optimizeDefault (scalar false) ⟨1, 99 / 100, 1 / 10, 1 / 10, 1 / 10⟩ prog 10 () (one1 1)) =
    some (.limit, 1, 0, 0, 1) := by decide +kernel

/-- Hypotheses of `C191_run_partial`: a run that ends by a callback after one step. -/
example : (∀ w x, ((scalar true).cbEnd w x).2 = x) ∧
    view (optimizeDefault (scalar true) ⟨1000, 99 / 100, 0, 0, 0⟩ prog 10 () (one1 1)) = some (.limit, 1, 2, 1, 1) :=
  ⟨fun _ _ => rfl, by decide +kernel⟩

/-- **C191** (refuted) "Every run that returns ends with `EndOptimization`": not the successful ones. -/
theorem C191_end_refuted :
    ¬ ∀ (env : Env 1 ℚ Unit) (c : Params ℚ) (p : Sdp (Fin 1) ℚ) (fuel : Nat) (x : Mat 1 ℚ) (e : Exit)
      (s : St 1 ℚ Unit p.all.length), optimizeDefault env c p fuel () x = .done (e, s) → e ≠ .throws →
      ∃ t v, s.trace = t ++ [.endOpt v] := by
  intro h
  have hv := demo_converged
  cases hr : optimizeDefault (scalar false) ⟨1000, 99 / 100, 1 / 10, 1 / 10, 1 / 10⟩ prog 10 () (one1 1) with
  | rejected => rw [hr] at hv; simp [view] at hv
  | fuel => rw [hr] at hv; simp [view] at hv
  | done q =>
    obtain ⟨e, s⟩ := q
    rw [hr] at hv
    simp only [view, Option.some.injEq, Prod.mk.injEq] at hv
    obtain ⟨t, v, ht⟩ := h _ _ _ _ _ e s hr (by rw [hv.1]; simp)
    have := hv.2.2.2.2
    rw [ht, List.countP_append] at this
    simp at this

/-- **C192** (refuted) "The value returned is the primal objective at the coordinates handed back" (`primal_dual.hpp:47-48`), and
`maxIterations` iterations are permitted: with the limit 1 no iteration is made and 0 is returned. -/
theorem C192_value_refuted :
    ¬ ∀ (env : Env 1 ℚ Unit) (c : Params ℚ) (p : Sdp (Fin 1) ℚ) (fuel : Nat) (x : Mat 1 ℚ) (e : Exit)
      (s : St 1 ℚ Unit p.all.length), optimizeDefault env c p fuel () x = .done (e, s) → e ≠ .throws →
      s.obj = accu p.C s.x := by
  intro h
  have hv := demo_limit
  cases hr : optimizeDefault (scalar false) ⟨1, 99 / 100, 1 / 10, 1 / 10, 1 / 10⟩ prog 10 () (one1 1) with
  | rejected => rw [hr] at hv; simp [view] at hv
  | fuel => rw [hr] at hv; simp [view] at hv
  | done q =>
    obtain ⟨e, s⟩ := q
    rw [hr] at hv
    simp only [view, Option.some.injEq, Prod.mk.injEq] at hv
    have := h _ _ _ _ _ e s hr (by rw [hv.1]; simp)
    rw [hv.2.2.1] at this
    simp [accu, prog, one1, hv.2.1] at this

end Ens.PrimalDual
