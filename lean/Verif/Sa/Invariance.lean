import Mathlib.Tactic.Ring
import Mathlib.Tactic.Linarith
import Mathlib.Tactic.FieldSimp
import Verif.Sa.Model

/-
C275: simulated annealing does not depend on the origin of the coordinate system, nor on the zero of the energy, nor -
with temperature and tolerance in the same unit - on the unit of energy.
-/

namespace Ens.Sa

/-- Coordinates shifted by `t`. -/
def shift (t : Nat → ℝ) (x : List ℝ) : List ℝ := x.mapIdx fun i v => v + t i

@[simp] theorem shift_length (t : Nat → ℝ) (x : List ℝ) : (shift t x).length = x.length := by simp [shift]

theorem shift_getElem? (t : Nat → ℝ) (x : List ℝ) (i : Nat) : (shift t x)[i]? = x[i]?.map (· + t i) := by
  simp [shift]

theorem shift_set (t : Nat → ℝ) (x : List ℝ) (i : Nat) (v : ℝ) : (shift t x).set i (v + t i) = shift t (x.set i v) := by
  refine List.ext_getElem (by simp) fun k h1 h2 => ?_
  simp only [shift, List.getElem_set, List.getElem_mapIdx]
  split_ifs with h
  · rw [h]
  · rfl

section generic
variable {W : Type}

/-- A move in other coordinates, with energies `g` and temperatures `τ`. -/
def Move.map (t : Nat → ℝ) (g τ : ℝ → ℝ) (m : Move ℝ ℝ) : Move ℝ ℝ :=
  { m with temp := τ m.temp, x := shift t m.x, e := g m.e, prop := shift t m.prop, newE := g m.newE,
           x' := shift t m.x', e' := g m.e' }

def Ev.map (t : Nat → ℝ) (g τ : ℝ → ℝ) : Ev ℝ ℝ → Ev ℝ ℝ
  | .eval x e => .eval (shift t x) (g e)
  | .cbEval s => .cbEval s
  | .beginOpt x y => .beginOpt (shift t x) (shift t y)
  | .move m => .move (m.map t g τ)
  | .stepTaken x s => .stepTaken (shift t x) s
  | .cool T => .cool (τ T)
  | .endOpt x => .endOpt (shift t x)

def Result.map (t : Nat → ℝ) (g τ : ℝ → ℝ) (r : Result W ℝ ℝ) : Result W ℝ ℝ :=
  ⟨g r.energy, shift t r.x, τ r.temp, r.frozen, r.w, r.trace.map (Ev.map t g τ)⟩

/-- `env'` is `env` in shifted coordinates, with other units of energy and temperature. -/
structure Sim (env env' : Env W ℝ ℝ) (t : Nat → ℝ) (g τ : ℝ → ℝ) : Prop where
  evaluate : ∀ w x, env'.evaluate w (shift t x) = ((env.evaluate w x).1, g (env.evaluate w x).2)
  cbEvaluate : ∀ w x v, env'.cbEvaluate w (shift t x) (g v) = env.cbEvaluate w x v
  cbBegin : ∀ w x, env'.cbBegin w (shift t x) = ((env.cbBegin w x).1, shift t (env.cbBegin w x).2)
  cbStep : ∀ w x, env'.cbStep w (shift t x)
    = ((env.cbStep w x).1, shift t (env.cbStep w x).2.1, (env.cbStep w x).2.2)
  randu : env'.randu = env.randu
  propose : ∀ v s m u, env'.propose (v + s) m u = env.propose v m u + s
  accepts : ∀ a b T xi, env'.accepts (g a) (g b) (τ T) xi = env.accepts a b T xi
  control : env'.control = env.control
  cool : ∀ T e, env'.cool (τ T) (g e) = τ (env.cool T e)
  isClose : ∀ a b, env'.isClose (g a) (g b) = env.isClose a b

def St.map (t : Nat → ℝ) (g τ : ℝ → ℝ) (s : St W ℝ ℝ) : St W ℝ ℝ :=
  { s with x := shift t s.x, energy := g s.energy, temp := τ s.temp, trace := s.trace.map (Ev.map t g τ) }

variable {env env' : Env W ℝ ℝ} {t : Nat → ℝ} {g τ : ℝ → ℝ}

theorem tryMove_map (h : Sim env env' t g τ) (s : St W ℝ ℝ) (v m : ℝ) :
    tryMove env' (s.map t g τ) (v + t s.idx) m = (tryMove env s v m).map t g τ := by
  simp only [tryMove, St.map, h.randu, h.propose, shift_set, h.evaluate, h.cbEvaluate, h.accepts]
  split_ifs <;> simp [Ev.map, Move.map]

theorem advance_map (h : Sim env env' t g τ) (p : Params ℝ) (s : St W ℝ ℝ) :
    advance env' p (s.map t g τ) = (advance env p s).map t g τ := by
  simp only [advance, St.map, h.control, shift_length]
  split_ifs <;> rfl

theorem generateMove_map (h : Sim env env' t g τ) (p : Params ℝ) (s : St W ℝ ℝ) :
    generateMove env' p (s.map t g τ) = (generateMove env p s).map (St.map t g τ) := by
  unfold generateMove
  have h1 : (s.map t g τ).x[(s.map t g τ).idx]? = s.x[s.idx]?.map (· + t s.idx) := shift_getElem? t s.x s.idx
  have h2 : (s.map t g τ).moveSize[(s.map t g τ).idx]? = s.moveSize[s.idx]? := rfl
  rw [h1, h2]
  cases s.x[s.idx]? with
  | none => rfl
  | some v =>
    cases s.moveSize[s.idx]? with
    | none => rfl
    | some m =>
      simp only [Option.map_some]
      rw [tryMove_map h, advance_map h]

theorem start_map (h : Sim env env' t g τ) (p : Params ℝ) (temp : ℝ) (w : W) (x : List ℝ) :
    start env' p (τ temp) w (shift t x) = (start env p temp w x).map t g τ := by
  simp only [start, St.map, h.evaluate, h.cbEvaluate, h.cbBegin, List.map_cons, List.map_nil, Ev.map]
  have : ∀ {α : Type} (c : α), (shift t x).map (fun _ => c) = x.map fun _ => c := by
    intro α c
    simp
  rw [this, this]

theorem initLoop_map (h : Sim env env' t g τ) (p : Params ℝ) (n : Nat) :
    ∀ s : St W ℝ ℝ, initLoop env' p n (s.map t g τ) = (initLoop env p n s).map (St.map t g τ) := by
  induction n with
  | zero => intro s; rfl
  | succ n ih =>
    intro s
    rw [initLoop, initLoop, generateMove_map h]
    cases generateMove env p s with
    | none => rfl
    | some s' =>
      simp only [Option.map_some]
      have ht : (s'.map t g τ).terminate = s'.terminate := rfl
      rw [ht, ih]
      split_ifs <;> rfl

theorem afterMove_map (h : Sim env env' t g τ) (oldE : ℝ) (s : St W ℝ ℝ) :
    afterMove env' (g oldE) (s.map t g τ) = (afterMove env oldE s).map t g τ := by
  simp only [afterMove, St.map, h.cbStep, h.cool, h.isClose, List.map_append, List.map_cons, List.map_nil, Ev.map]

theorem mainLoop_map (h : Sim env env' t g τ) (p : Params ℝ) (n : Nat) :
    ∀ s : St W ℝ ℝ, mainLoop env' p n (s.map t g τ) = (mainLoop env p n s).map fun r => (r.1.map t g τ, r.2) := by
  induction n with
  | zero => intro s; rfl
  | succ n ih =>
    intro s
    rw [mainLoop, mainLoop, generateMove_map h]
    have ht : (s.map t g τ).terminate = s.terminate := rfl
    have he : (s.map t g τ).energy = g s.energy := rfl
    rw [ht, he]
    by_cases h1 : s.terminate = true
    · rw [if_pos h1, if_pos h1]; rfl
    rw [if_neg h1, if_neg h1]
    cases generateMove env p s with
    | none => rfl
    | some s1 =>
      simp only [Option.map_some]
      have ht1 : (s1.map t g τ).terminate = s1.terminate := rfl
      rw [ht1]
      by_cases h2 : s1.terminate = true
      · rw [if_pos h2, if_pos h2]; rfl
      rw [if_neg h2, if_neg h2, afterMove_map h, ih]
      have hf : ((afterMove env s.energy s1).map t g τ).frozen = (afterMove env s.energy s1).frozen := rfl
      have hx : ((afterMove env s.energy s1).map t g τ).x.length = (afterMove env s.energy s1).x.length :=
        shift_length _ _
      rw [hf, hx]
      split_ifs <;> rfl

theorem optimize_map (h : Sim env env' t g τ) (p : Params ℝ) (temp : ℝ) (w : W) (x : List ℝ) :
    optimize env' p (τ temp) w (shift t x) = (optimize env p temp w x).map (Result.map t g τ) := by
  unfold optimize
  rw [start_map h, initLoop_map h]
  cases initLoop env p p.initMoves (start env p temp w x) with
  | none => rfl
  | some s =>
    simp only [Option.map_some]
    rw [mainLoop_map h]
    cases mainLoop env p p.maxIterations s with
    | none => rfl
    | some r => simp [St.map, Result.map, Ev.map]

end generic

/-! ### With the arithmetic of the code -/

open scoped Classical in
/-- SA with exponential schedule `lambda`, gain, largest move and tolerance, without callbacks. -/
noncomputable def realEnv {W : Type} (randu : W → W × ℝ) (lambda gain maxMove tol : ℝ) (sweep : Nat) (f : List ℝ → ℝ) :
    Env W ℝ ℝ where
  evaluate w x := (w, f x)
  cbEvaluate w _ _ := (w, false)
  cbBegin w x := (w, x)
  cbStep w x := (w, x, false)
  randu := randu
  propose := proposeR
  accepts := acceptsR
  control := controlR gain maxMove sweep
  cool := coolR lambda
  isClose a b := decide (|a - b| < tol)

/-- **C275** Start `t` further, evaluate the objective `t` further back, multiply it by `a > 0` and add `c`, and multiply
the initial temperature and the tolerance by `a`: with the same random numbers the same moves are tried and accepted,
all coordinates are moved by `t`, and the run ends at the same time for the same reason. -/
theorem C275_invariance {W : Type} (randu : W → W × ℝ) (lambda gain maxMove tol a c : ℝ) (ha : 0 < a) (t : Nat → ℝ)
    (f : List ℝ → ℝ) (p : Params ℝ) (temp : ℝ) (w : W) (x : List ℝ) :
    optimize (realEnv randu lambda gain maxMove (a * tol) p.moveCtrlSweep
        fun y => a * f (shift (fun i => -t i) y) + c) p (a * temp) w (shift t x)
      = (optimize (realEnv randu lambda gain maxMove tol p.moveCtrlSweep f) p temp w x).map
          (Result.map t (fun v => a * v + c) fun T => a * T) := by
  refine optimize_map (τ := fun T => a * T) (env := realEnv randu lambda gain maxMove tol p.moveCtrlSweep f) (env' := realEnv randu lambda gain maxMove
    (a * tol) p.moveCtrlSweep fun y => a * f (shift (fun i => -t i) y) + c) ⟨?_, fun _ _ _ => rfl, fun _ _ => rfl,
    fun _ _ => rfl, rfl, ?_, ?_, rfl, ?_, ?_⟩ p temp w x
  · intro w x
    have : shift (fun i => -t i) (shift t x) = x := by
      refine List.ext_getElem (by simp) fun i h1 h2 => ?_
      simp [shift]
    simp only [realEnv, this]
  · intro v s m u
    simp only [realEnv, proposeR]
    ring
  · intro e e' T xi
    simp only [realEnv, acceptsR]
    have h1 : a * e' + c - (a * e + c) = a * (e' - e) := by ring
    have h2 : -(a * (e' - e)) / (a * T) = -(e' - e) / T := by
      rw [neg_div, neg_div, mul_div_mul_left _ _ ha.ne']
    rw [h1, h2, decide_eq_decide]
    have h3 : a * (e' - e) ≤ 0 ↔ e' - e ≤ 0 := by
      constructor
      · intro h; by_contra hc
        have := mul_pos ha (not_le.1 hc)
        linarith
      · intro h; exact mul_nonpos_of_nonneg_of_nonpos ha.le h
    rw [h3]
  · intro T e
    simp only [realEnv, coolR]
    ring
  · intro e e'
    simp only [realEnv, decide_eq_decide]
    have h1 : a * e + c - (a * e' + c) = a * (e - e') := by ring
    rw [h1, abs_mul, abs_of_pos ha]
    exact mul_lt_mul_iff_right₀ ha

/-- Non-vacuity: a change of all three units. -/
example : ∃ (a c : ℝ) (t : Nat → ℝ), 0 < a ∧ a ≠ 1 ∧ c ≠ 0 ∧ t 0 ≠ 0 := ⟨2, 1, fun _ => 1, by norm_num⟩

end Ens.Sa
