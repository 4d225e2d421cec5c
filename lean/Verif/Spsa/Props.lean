import Verif.Spsa.Model
import Mathlib.Algebra.BigOperators.Field
import Mathlib.Data.Fintype.Pi
import Mathlib.Data.Fintype.BigOperators
import Mathlib.Tactic.Ring
import Mathlib.Tactic.Linarith
import Mathlib.Tactic.FieldSimp
import Mathlib.Tactic.Module
import Mathlib.Tactic.NormNum

namespace Ens.Spsa

variable {W ι : Type}

/-- `Rounds env p x₀ k t x ov last b`: `t` consists of `k` complete iterations starting from `x₀`. Iteration `k` (counted from 0)
evaluates the objective at `x + c_k d` and at `x - c_k d` with `d` a vector of signs, moves to
`y = x - a_k (f⁺ - f⁻) / (2 c_k d)`, and evaluates the objective at the point left by `StepTaken`. It takes place only if no
earlier notification asked to stop and the objective is finite and not close to the one before. `ov`, `last`: last two
objectives (0 and `DBL_MAX` for those that do not exist yet), `b`: stop requested. -/
inductive Rounds (env : Env W ι) (p : Params) (x₀ : ι → ℝ) :
    Nat → List (Ev ι) → (ι → ℝ) → ℝ → ℝ → Bool → Prop where
  | nil : Rounds env p x₀ 0 [] x₀ 0 env.dblMax false
  | snoc {k t x ov last d fp fm y x' b v c} (w₁ w₂ w₃ w₄ : W) (prev : Rounds env p x₀ k t x ov last false)
      (hbad : env.isBad ov = false) (hclose : env.isClose last ov = false)
      (hd : ∀ i, d i = 1 ∨ d i = -1)
      (hfp : (env.evaluate w₁ (x + p.probe k • d)).2 = fp) (hfm : (env.evaluate w₂ (x - p.probe k • d)).2 = fm)
      (hy : ∀ i, y i = x i - p.gain k * ((fp - fm) / (2 * p.probe k * d i)))
      (hst : (env.cbStep w₃ y).2 = (x', b)) (hv : (env.evaluate w₄ x').2 = v) :
      Rounds env p x₀ (k + 1)
        (t ++ [.eval (x + p.probe k • d) fp, .cbEval false, .eval (x - p.probe k • d) fm, .cbEval false,
          .step x y, .stepTaken x' b, .eval x' v, .cbEval c]) x' v ov (b || c)

theorem direction_sign (b : ι → Bool) (i : ι) : direction b i = 1 ∨ direction b i = -1 := by
  unfold direction
  cases b i
  · right; norm_num
  · left; norm_num

theorem probes_spec (env : Env W ι) (p : Params) (k : Nat) (s : St W ι) :
    ∃ (w₁ w₂ : W) (c₁ c₂ : Bool),
      (∀ i, (probes env p k s).2.2.1 i = 1 ∨ (probes env p k s).2.2.1 i = -1) ∧
      (env.evaluate w₁ (s.x + p.probe k • (probes env p k s).2.2.1)).2 = (probes env p k s).1 ∧
      (env.evaluate w₂ (s.x - p.probe k • (probes env p k s).2.2.1)).2 = (probes env p k s).2.1 ∧
      (probes env p k s).2.2.2.x = s.x ∧
      (probes env p k s).2.2.2.overall = s.overall ∧ (probes env p k s).2.2.2.last = s.last ∧
      (probes env p k s).2.2.2.terminate = (s.terminate || c₁ || c₂) ∧
      (probes env p k s).2.2.2.trace = s.trace ++ [.eval (s.x + p.probe k • (probes env p k s).2.2.1) (probes env p k s).1,
        .cbEval c₁, .eval (s.x - p.probe k • (probes env p k s).2.2.1) (probes env p k s).2.1, .cbEval c₂] := by
  have e : ∀ d : ι → ℝ, s.x + p.probe k • d - (2 * p.probe k) • d = s.x - p.probe k • d := fun d => by module
  have e' : ∀ d : ι → ℝ, s.x + p.probe k • d - (2 * p.probe k) • d + p.probe k • d = s.x := fun d => by module
  let xp := s.x + p.probe k • direction (env.bits s.w).2
  let xm := s.x + p.probe k • direction (env.bits s.w).2 - (2 * p.probe k) • direction (env.bits s.w).2
  let o := env.evaluate (env.bits s.w).1 xp
  let w₂ := (env.cbEvaluate o.1 xp o.2).1
  let o' := env.evaluate w₂ xm
  refine ⟨(env.bits s.w).1, w₂, (env.cbEvaluate o.1 xp o.2).2, (env.cbEvaluate o'.1 xm o'.2).2, direction_sign _, rfl, ?_, ?_,
    rfl, rfl, rfl, ?_⟩
  · rw [← e]; rfl
  · exact e' _
  · rw [← e]
    simp only [probes, evalAt, List.append_assoc, List.cons_append, List.nil_append]
    rfl

theorem stepPart_spec (env : Env W ι) (p : Params) (k : Nat) (fp fm : ℝ) (d : ι → ℝ) (s : St W ι) :
    ∃ (w₃ w₄ : W) (y : ι → ℝ) (b c : Bool),
      (∀ i, y i = s.x i - p.gain k * ((fp - fm) / (2 * p.probe k * d i))) ∧
      (env.cbStep w₃ y).2 = ((stepPart env p k fp fm d s).x, b) ∧
      (env.evaluate w₄ (stepPart env p k fp fm d s).x).2 = (stepPart env p k fp fm d s).overall ∧
      (stepPart env p k fp fm d s).last = s.last ∧
      (stepPart env p k fp fm d s).terminate = (s.terminate || b || c) ∧
      (stepPart env p k fp fm d s).trace = s.trace ++ [.step s.x y, .stepTaken (stepPart env p k fp fm d s).x b,
        .eval (stepPart env p k fp fm d s).x (stepPart env p k fp fm d s).overall, .cbEval c] := by
  let y : ι → ℝ := s.x - p.gain k • (fun i => (fp - fm) * (1 / (2 * p.probe k * d i)))
  let c := env.cbStep s.w y
  let o := env.evaluate c.1 c.2.1
  refine ⟨s.w, c.1, y, c.2.2, (env.cbEvaluate o.1 c.2.1 o.2).2, fun i => ?_, rfl, rfl, rfl, rfl, ?_⟩
  · simp only [y, Pi.sub_apply, Pi.smul_apply, smul_eq_mul]
    rw [mul_one_div]
  · simp only [stepPart, evalAt, List.append_assoc, List.cons_append, List.nil_append]
    rfl

/-- How the loop ends. -/
inductive Ending (env : Env W ι) (p : Params) (x₀ : ι → ℝ) (pre : List (Ev ι)) (n : Nat) : Exit → St W ι → Prop where
  /-- all iterations done, or a stop request in the last one -/
  | full {k t s} (h : Rounds env p x₀ k t s.x s.overall s.last s.terminate) (hk : k = n ∨ s.terminate = true) (hkn : k ≤ n)
      (ht : s.trace = pre ++ t) : Ending env p x₀ pre n .loop s
  /-- stop request during the probes; the coordinates are back where they were -/
  | probing {k t s ov last d fp fm c₁ c₂} (w₁ w₂ : W) (h : Rounds env p x₀ k t s.x ov last false) (hkn : k < n)
      (hbad : env.isBad ov = false) (hclose : env.isClose last ov = false)
      (hd : ∀ i, d i = 1 ∨ d i = -1) (hc : (c₁ || c₂) = true)
      (hfp : (env.evaluate w₁ (s.x + p.probe k • d)).2 = fp) (hfm : (env.evaluate w₂ (s.x - p.probe k • d)).2 = fm)
      (ht : s.trace = pre ++ t ++ [.eval (s.x + p.probe k • d) fp, .cbEval c₁, .eval (s.x - p.probe k • d) fm, .cbEval c₂]) :
      Ending env p x₀ pre n .loop s
  | bad {k t s} (h : Rounds env p x₀ k t s.x s.overall s.last false) (hkn : k < n) (hbad : env.isBad s.overall = true)
      (ht : s.trace = pre ++ t) : Ending env p x₀ pre n .bad s
  | tol {k t s} (h : Rounds env p x₀ k t s.x s.overall s.last false) (hkn : k < n) (hbad : env.isBad s.overall = false)
      (hclose : env.isClose s.last s.overall = true)
      (ht : s.trace = pre ++ t) : Ending env p x₀ pre n .tol s

theorem loop_spec (env : Env W ι) (p : Params) (x₀ : ι → ℝ) (pre : List (Ev ι)) (N : Nat) :
    ∀ (n k : Nat) (s : St W ι) (t : List (Ev ι)), n + k = N → s.trace = pre ++ t →
      Rounds env p x₀ k t s.x s.overall s.last s.terminate →
      Ending env p x₀ pre N (loop env p n k s).1 (loop env p n k s).2 := by
  intro n
  induction n with
  | zero =>
    intro k s t hN ht hr
    exact .full hr (Or.inl (by omega)) (by omega) ht
  | succ n ih =>
    intro k s t hN ht hr
    rw [loop]
    by_cases hterm : s.terminate = true
    · rw [if_pos hterm]
      exact .full hr (Or.inr hterm) (by omega) ht
    rw [if_neg hterm]
    have hf : s.terminate = false := by simpa using hterm
    rw [hf] at hr
    by_cases hbad : env.isBad s.overall = true
    · rw [if_pos hbad]
      exact .bad hr (by omega) hbad ht
    rw [if_neg hbad]
    have hb : env.isBad s.overall = false := by simpa using hbad
    by_cases hcl : env.isClose s.last s.overall = true
    · rw [if_pos hcl]
      exact .tol hr (by omega) hb hcl ht
    rw [if_neg hcl]
    have hc : env.isClose s.last s.overall = false := by simpa using hcl
    dsimp only
    obtain ⟨w₁, w₂, c₁, c₂, p1, p2, p3, p4, p5, p6, p7, p8⟩ := probes_spec env p k { s with last := s.overall }
    generalize probes env p k { s with last := s.overall } = r at *
    dsimp only at p2 p3 p4 p5 p6 p7 p8
    by_cases hst : r.2.2.2.terminate = true
    · rw [if_pos hst]
      rw [← p4] at hr p2 p3 p8
      refine .probing (c₁ := c₁) (c₂ := c₂) w₁ w₂ hr (by omega) hb hc p1 ?_ p2 p3 ?_
      · rw [hst, hf, Bool.false_or] at p7; exact p7.symm
      · rw [p8, ht]
    · rw [if_neg hst]
      have hst' : r.2.2.2.terminate = false := by simpa using hst
      rw [hst', hf, Bool.false_or] at p7
      obtain ⟨rfl, rfl⟩ := Bool.or_eq_false_iff.1 p7.symm
      obtain ⟨w₃, w₄, y, b, c, q1, q2, q3, q4, q5, q6⟩ := stepPart_spec env p k r.1 r.2.1 r.2.2.1 r.2.2.2
      generalize stepPart env p k r.1 r.2.1 r.2.2.1 r.2.2.2 = z at *
      rw [p4] at q1 q6
      have hround := Rounds.snoc (c := c) w₁ w₂ w₃ w₄ hr hb hc p1 p2 p3 q1 q2 q3
      refine ih (k + 1) z (t ++ [.eval (s.x + p.probe k • r.2.2.1) r.1, .cbEval false,
        .eval (s.x - p.probe k • r.2.2.1) r.2.1, .cbEval false, .step s.x y, .stepTaken z.x b, .eval z.x z.overall, .cbEval c])
        (by omega) ?_ (by rw [q5, q4, p6, hst', Bool.false_or]; exact hround)
      · rw [q6, p8, ht]; simp only [List.append_assoc, List.cons_append, List.nil_append]

/-- How a run ends: `t` are the events after `BeginOptimization`. -/
inductive RunEnd (env : Env W ι) (p : Params) (x₀ : ι → ℝ) (r : Result ι) : List (Ev ι) → Prop where
  /-- iteration limit or stop request: one more evaluation, whose value is returned -/
  | full {k t ov last b c} (w : W) (h : Rounds env p x₀ k t r.x ov last b) (hk : k = p.maxIterations ∨ b = true)
      (hkn : k ≤ p.maxIterations) (he : r.exit = .loop) (ho : (env.evaluate w r.x).2 = r.obj) :
      RunEnd env p x₀ r (t ++ [.eval r.x r.obj, .cbEval c, .endOpt r.x])
  /-- stop request during the probes -/
  | probing {k t ov last d fp fm c₁ c₂ c} (w w₁ w₂ : W) (h : Rounds env p x₀ k t r.x ov last false) (hkn : k < p.maxIterations)
      (hbad : env.isBad ov = false) (hclose : env.isClose last ov = false) (he : r.exit = .loop)
      (hd : ∀ i, d i = 1 ∨ d i = -1) (hc : (c₁ || c₂) = true)
      (hfp : (env.evaluate w₁ (r.x + p.probe k • d)).2 = fp) (hfm : (env.evaluate w₂ (r.x - p.probe k • d)).2 = fm)
      (ho : (env.evaluate w r.x).2 = r.obj) :
      RunEnd env p x₀ r (t ++ [.eval (r.x + p.probe k • d) fp, .cbEval c₁, .eval (r.x - p.probe k • d) fm, .cbEval c₂,
        .eval r.x r.obj, .cbEval c, .endOpt r.x])
  | bad {k t last} (h : Rounds env p x₀ k t r.x r.obj last false) (hkn : k < p.maxIterations) (he : r.exit = .bad)
      (hbad : env.isBad r.obj = true) : RunEnd env p x₀ r (t ++ [.endOpt r.x])
  | tol {k t last} (h : Rounds env p x₀ k t r.x r.obj last false) (hkn : k < p.maxIterations) (he : r.exit = .tol)
      (hbad : env.isBad r.obj = false) (hclose : env.isClose last r.obj = true) : RunEnd env p x₀ r (t ++ [.endOpt r.x])

/-- **C62** (what a run does). Every run is a sequence of iterations as described by `Rounds`, at most `maxIterations` many, ended
in one of the four ways of `RunEnd`: in particular the probes leave the coordinates where they were, also when a callback asks to
stop between them, and each move is the gain times the gradient estimate. -/
theorem C62_run_shape (env : Env W ι) (p : Params) (w : W) (x : ι → ℝ) :
    ∃ t, (optimize env p w x).trace = .beginOpt x (env.cbBegin w x).2 :: t ∧
      RunEnd env p (env.cbBegin w x).2 (optimize env p w x) t := by
  have h := loop_spec env p (env.cbBegin w x).2 [.beginOpt x (env.cbBegin w x).2] p.maxIterations p.maxIterations 0
    (start env w x) [] rfl rfl .nil
  unfold optimize
  generalize loop env p p.maxIterations 0 (start env w x) = q at *
  obtain ⟨e, s⟩ := q
  dsimp only at h
  cases h with
  | @full k t _ h hk hkn ht =>
    refine ⟨_, ?_, RunEnd.full (c := (env.cbEvaluate (env.evaluate s.w s.x).1 s.x (env.evaluate s.w s.x).2).2) s.w h hk hkn rfl rfl⟩
    simp only [evalAt, ht, List.append_assoc, List.cons_append, List.nil_append]
  | @probing k t _ ov last d fp fm c₁ c₂ w₁ w₂ h hkn hbad hclose hd hc hfp hfm ht =>
    refine ⟨_, ?_, RunEnd.probing (c₁ := c₁) (c₂ := c₂)
      (c := (env.cbEvaluate (env.evaluate s.w s.x).1 s.x (env.evaluate s.w s.x).2).2) s.w w₁ w₂ h hkn hbad hclose rfl hd hc hfp
      hfm rfl⟩
    simp only [evalAt, ht, List.append_assoc, List.cons_append, List.nil_append]
  | @bad k t _ h hkn hbad ht =>
    refine ⟨_, ?_, RunEnd.bad h hkn rfl hbad⟩
    simp only [ht, List.append_assoc, List.cons_append, List.nil_append]
  | @tol k t _ h hkn hbad hclose ht =>
    refine ⟨_, ?_, RunEnd.tol h hkn rfl hbad hclose⟩
    simp only [ht, List.append_assoc, List.cons_append, List.nil_append]

theorem Rounds.zero {env : Env W ι} {p : Params} {x₀ k t x ov last b} (h : Rounds env p x₀ k t x ov last b) (hk : k = 0) :
    ov = 0 ∧ last = env.dblMax := by
  cases h with
  | nil => exact ⟨rfl, rfl⟩
  | snoc => omega

/-- The objective remembered after at least one iteration is one of the current coordinates. -/
theorem Rounds.objective {env : Env W ι} {f : (ι → ℝ) → ℝ} (hf : ∀ w x, (env.evaluate w x).2 = f x)
    {p : Params} {x₀ k t x ov last b} (h : Rounds env p x₀ k t x ov last b) (hk : 0 < k) : ov = f x := by
  cases h with
  | nil => omega
  | snoc w₁ w₂ w₃ w₄ prev hbad hclose hd hfp hfm hy hst hv => rw [← hv, hf]

/-- **C62** (returned objective). For a deterministic objective, whatever ends the run, the value returned is the objective of the
returned coordinates. (0 counts as finite, and as not close to `DBL_MAX`.) -/
theorem C62_returned_objective (env : Env W ι) (f : (ι → ℝ) → ℝ) (hf : ∀ w x, (env.evaluate w x).2 = f x)
    (h0 : env.isBad 0 = false) (h0' : env.isClose env.dblMax 0 = false) (p : Params) (w : W) (x : ι → ℝ) :
    (optimize env p w x).obj = f (optimize env p w x).x := by
  obtain ⟨t, _, h⟩ := C62_run_shape env p w x
  generalize optimize env p w x = r at *
  cases h with
  | full w h hk hkn he ho => rw [← ho, hf]
  | probing w w₁ w₂ h hkn hbad hclose he hd hc hfp hfm ho => rw [← ho, hf]
  | @bad k t last h hkn he hbad =>
    rcases Nat.eq_zero_or_pos k with rfl | hk
    · have : r.obj = 0 := (h.zero rfl).1
      rw [this, h0] at hbad; cases hbad
    · exact h.objective hf hk
  | @tol k t last h hkn he hbad hclose =>
    rcases Nat.eq_zero_or_pos k with rfl | hk
    · obtain ⟨h1, h2⟩ := h.zero rfl
      rw [h1, h2, h0'] at hclose; cases hclose
    · exact h.objective hf hk

/-! ### The gradient estimate on quadratic objectives -/

/-- Estimate of line 115 for probe size `c` and signs `d`. -/
noncomputable def estimate (f : (ι → ℝ) → ℝ) (x : ι → ℝ) (c : ℝ) (d : ι → ℝ) : ι → ℝ :=
  fun i => (f (x + c • d) - f (x - c • d)) / (2 * c * d i)

/-- Every move recorded in a run is the gain times this estimate, with the probe size of its iteration and a vector of signs. -/
theorem Rounds.step_mem {env : Env W ι} {f : (ι → ℝ) → ℝ} (hf : ∀ w x, (env.evaluate w x).2 = f x)
    {p : Params} {x₀ n t x ov last b} (h : Rounds env p x₀ n t x ov last b) {xa y} (hm : Ev.step xa y ∈ t) :
    ∃ k < n, ∃ d : ι → ℝ, (∀ i, d i = 1 ∨ d i = -1) ∧ y = xa - p.gain k • estimate f xa (p.probe k) d := by
  induction h with
  | nil => cases hm
  | @snoc k t x ov last d fp fm y' x' b v c w₁ w₂ w₃ w₄ prev hbad hclose hd hfp hfm hy hst hv ih =>
    rcases List.mem_append.1 hm with hm | hm
    · obtain ⟨k', hk', rest⟩ := ih hm
      exact ⟨k', by omega, rest⟩
    · simp only [List.mem_cons, List.mem_nil_iff, or_false, reduceCtorEq, false_or] at hm
      injection hm with e1 e2
      subst e1 e2
      refine ⟨k, by omega, d, hd, funext fun i => ?_⟩
      rw [hy i, ← hfp, ← hfm, hf, hf]
      rfl

theorem step_mem_run {env : Env W ι} {f : (ι → ℝ) → ℝ} (hf : ∀ w x, (env.evaluate w x).2 = f x)
    (p : Params) (w : W) (x : ι → ℝ) {xa y} (hm : Ev.step xa y ∈ (optimize env p w x).trace) :
    ∃ k < p.maxIterations, ∃ d : ι → ℝ, (∀ i, d i = 1 ∨ d i = -1) ∧ y = xa - p.gain k • estimate f xa (p.probe k) d := by
  obtain ⟨t, ht, h⟩ := C62_run_shape env p w x
  generalize optimize env p w x = r at *
  rw [ht] at hm
  simp only [List.mem_cons, reduceCtorEq, false_or] at hm
  have key : ∀ {k t' ov last b}, Rounds env p (env.cbBegin w x).2 k t' r.x ov last b → k ≤ p.maxIterations → Ev.step xa y ∈ t' →
      ∃ k < p.maxIterations, ∃ d : ι → ℝ, (∀ i, d i = 1 ∨ d i = -1) ∧ y = xa - p.gain k • estimate f xa (p.probe k) d := by
    intro k t' ov last b hr hk hm'
    obtain ⟨k', hk', rest⟩ := hr.step_mem hf hm'
    exact ⟨k', by omega, rest⟩
  cases h with
  | full w h hk hkn he ho => exact key h hkn (by simpa using hm)
  | probing w w₁ w₂ h hkn hbad hclose he hd hc hfp hfm ho => exact key h (by omega) (by simpa using hm)
  | bad h hkn he hbad => exact key h (by omega) (by simpa using hm)
  | tol h hkn he hbad hclose => exact key h (by omega) (by simpa using hm)

/-- A quadratic function: a constant, a linear and a bilinear part, written at `x` in every direction. -/
def IsQuadratic [Fintype ι] (f : (ι → ℝ) → ℝ) (grad : (ι → ℝ) → (ι → ℝ)) (hess : ι → ι → ℝ) : Prop :=
  ∀ x h, f (x + h) = f x + ∑ i, grad x i * h i + (1 / 2) * ∑ i, ∑ j, hess i j * h i * h j

theorem estimate_quadratic [Fintype ι] {f : (ι → ℝ) → ℝ} {grad hess} (hq : IsQuadratic f grad hess) (x : ι → ℝ) {c : ℝ} (hc : c ≠ 0)
    {d : ι → ℝ} (hd : ∀ i, d i = 1 ∨ d i = -1) (i : ι) : estimate f x c d i = (∑ j, grad x j * d j) * d i := by
  have h1 := hq x (c • d)
  have h2 := hq x (-(c • d))
  rw [← sub_eq_add_neg] at h2
  have h3 : f (x + c • d) - f (x - c • d) = 2 * c * ∑ j, grad x j * d j := by
    rw [h1, h2]
    simp only [Pi.smul_apply, Pi.neg_apply, smul_eq_mul, mul_neg, neg_mul, neg_neg, Finset.sum_neg_distrib]
    have : ∑ j, grad x j * (c * d j) = c * ∑ j, grad x j * d j := by
      rw [Finset.mul_sum]; exact Finset.sum_congr rfl fun _ _ => by ring
    rw [this]; ring
  unfold estimate
  rw [h3]
  rcases hd i with hi | hi <;> rw [hi] <;> field_simp

/-- **C142** (never uphill). On a quadratic objective, with positive step and probe sizes, every move of a run is along a descent
direction: its scalar product with the gradient is not positive, whatever signs were drawn. More precisely it is
`-gain * (gradient · d)²`. -/
theorem C142_descent_direction [Fintype ι] (env : Env W ι) (f : (ι → ℝ) → ℝ) (hf : ∀ w x, (env.evaluate w x).2 = f x) (grad hess)
    (hq : IsQuadratic f grad hess) (p : Params) (hs : 0 < p.stepSize) (he : 0 < p.evalStep) (hak : 0 ≤ p.ak) (w : W) (x : ι → ℝ)
    (xa y : ι → ℝ) (hm : Ev.step xa y ∈ (optimize env p w x).trace) :
    ∃ (a : ℝ) (d : ι → ℝ), 0 < a ∧ (∀ i, d i = 1 ∨ d i = -1) ∧
      y = xa - (a * ∑ j, grad xa j * d j) • d ∧ ∑ i, grad xa i * (y i - xa i) = -a * (∑ j, grad xa j * d j) ^ 2 := by
  obtain ⟨k, _, d, hd, hy⟩ := step_mem_run hf p w x hm
  have hc : 0 < p.probe k := by
    unfold Params.probe; exact div_pos he (Real.rpow_pos_of_pos (by positivity) _)
  have ha : 0 < p.gain k := by
    unfold Params.gain; exact div_pos hs (Real.rpow_pos_of_pos (by positivity) _)
  have hy' : y = xa - (p.gain k * ∑ j, grad xa j * d j) • d := by
    rw [hy]; funext i
    simp only [Pi.sub_apply, Pi.smul_apply, smul_eq_mul, estimate_quadratic hq xa hc.ne' hd]
    ring
  refine ⟨p.gain k, d, ha, hd, hy', ?_⟩
  rw [hy']
  simp only [Pi.sub_apply, Pi.smul_apply, smul_eq_mul, sub_sub_cancel_left]
  have : ∀ q : ℝ, ∑ i, grad xa i * -(p.gain k * q * d i) = -(p.gain k * q) * ∑ i, grad xa i * d i := by
    intro q
    rw [Finset.mul_sum]; exact Finset.sum_congr rfl fun _ _ => by ring
  rw [this]; ring

/-- Two different elements of a random sign vector are uncorrelated. -/
theorem sum_direction_mul [Fintype ι] [DecidableEq ι] (i j : ι) :
    ∑ b : ι → Bool, direction b j * direction b i = if j = i then (2 : ℝ) ^ Fintype.card ι else 0 := by
  by_cases hij : j = i
  · subst hij
    rw [if_pos rfl]
    have : ∀ b : ι → Bool, direction b j * direction b j = (1 : ℝ) := fun b => by
      rcases direction_sign b j with h | h <;> rw [h] <;> norm_num
    simp only [this, Finset.sum_const, nsmul_eq_mul, mul_one, Finset.card_univ, Fintype.card_pi, Fintype.card_bool,
      Finset.prod_const]
    norm_num
  · rw [if_neg hij]
    refine Finset.sum_involution (fun b _ => Function.update b j (!b j)) ?_ ?_ ?_ ?_
    · intro b _
      have h1 : direction (Function.update b j (!b j)) j = -direction b j := by
        unfold direction
        rw [Function.update_self]
        cases b j <;> norm_num
      have h2 : direction (Function.update b j (!b j)) i = direction b i := by
        unfold direction
        rw [Function.update_of_ne (Ne.symm hij)]
      rw [h1, h2]; ring
    · intro b _ _ h
      have := congrFun h j
      rw [Function.update_self] at this
      cases hb : b j <;> simp [hb] at this
    · intro b _; exact Finset.mem_univ _
    · intro b _
      funext l
      by_cases hl : l = j
      · subst hl; simp
      · simp [Function.update_of_ne hl]

/-- **C142** (unbiased). On a quadratic objective the gradient estimate, averaged over all equally likely sign vectors, is exactly the
gradient, for every probe size. -/
theorem C142_unbiased [Fintype ι] [DecidableEq ι] (f : (ι → ℝ) → ℝ) (grad hess) (hq : IsQuadratic f grad hess) (x : ι → ℝ) (c : ℝ)
    (hc : c ≠ 0) (i : ι) :
    (∑ b : ι → Bool, estimate f x c (direction b) i) / (Fintype.card (ι → Bool) : ℝ) = grad x i := by
  have h1 : ∀ b : ι → Bool, estimate f x c (direction b) i = ∑ j, grad x j * (direction b j * direction b i) := fun b => by
    rw [estimate_quadratic hq x hc (direction_sign b), Finset.sum_mul]
    exact Finset.sum_congr rfl fun _ _ => by ring
  simp only [h1]
  rw [Finset.sum_comm]
  simp only [← Finset.mul_sum, sum_direction_mul, mul_ite, mul_zero, Finset.sum_ite_eq', Finset.mem_univ, if_true]
  rw [Fintype.card_fun, Fintype.card_bool]
  push_cast
  field_simp

/-! ### The stopping rule -/

/-- Number of moves. -/
def moves (t : List (Ev ι)) : Nat := t.countP fun | .step .. => true | _ => false

theorem Rounds.moves_eq {env : Env W ι} {p : Params} {x₀ k t x ov last b} (h : Rounds env p x₀ k t x ov last b) : moves t = k := by
  induction h with
  | nil => rfl
  | snoc w₁ w₂ w₃ w₄ prev hbad hclose hd hfp hfm hy hst hv ih =>
    simp only [moves, List.countP_append] at *
    rw [ih]; rfl

theorem Rounds.one {env : Env W ι} {p : Params} {x₀ k t x ov last b} (h : Rounds env p x₀ k t x ov last b) (hk : 1 ≤ k) :
    ∃ w, ov = (env.evaluate w x).2 ∧ Ev.eval x ov ∈ t := by
  cases h with
  | nil => omega
  | snoc w₁ w₂ w₃ w₄ prev hbad hclose hd hfp hfm hy hst hv => exact ⟨w₄, hv.symm, by simp⟩

theorem Rounds.two {env : Env W ι} {p : Params} {x₀ k t x ov last b} (h : Rounds env p x₀ k t x ov last b) (hk : 2 ≤ k) :
    ∃ xa w y, last = (env.evaluate w xa).2 ∧ Ev.eval xa last ∈ t ∧ Ev.eval x ov ∈ t ∧ Ev.step xa y ∈ t := by
  cases h with
  | nil => omega
  | @snoc k t x' ov last d fp fm y _ b _ c w₁ w₂ w₃ w₄ prev hbad hclose hd hfp hfm hy hst hv =>
    obtain ⟨w, h1, h2⟩ := prev.one (by omega)
    exact ⟨x', w, y, h1, by simp [h2], by simp, by simp⟩

/-- **C139** (tolerance exit). A run ended by the tolerance after at least two moves has computed two successive objectives that are
close, the second being the returned one. -/
theorem C139_tolerance_partial (env : Env W ι) (p : Params) (w : W) (x : ι → ℝ) (he : (optimize env p w x).exit = .tol)
    (hm : 2 ≤ moves (optimize env p w x).trace) :
    ∃ (xa : ι → ℝ) (wa : W), env.isClose (env.evaluate wa xa).2 (optimize env p w x).obj = true ∧
      Ev.eval xa (env.evaluate wa xa).2 ∈ (optimize env p w x).trace ∧
      Ev.eval (optimize env p w x).x (optimize env p w x).obj ∈ (optimize env p w x).trace ∧
      ∃ y, Ev.step xa y ∈ (optimize env p w x).trace := by
  obtain ⟨t, ht, h⟩ := C62_run_shape env p w x
  generalize optimize env p w x = r at *
  generalize (env.cbBegin w x).2 = x₀ at *
  obtain ⟨ex, ob, xx, tr⟩ := r
  dsimp only at *
  cases h with
  | full w h hk hkn he' ho => rw [he] at he'; cases he'
  | probing w w₁ w₂ h hkn hbad hclose he' hd hc hfp hfm ho => rw [he] at he'; cases he'
  | bad h hkn he' hbad => rw [he] at he'; cases he'
  | @tol k t last h hkn he' hbad hclose =>
    have hmk : moves tr = k := by
      rw [ht, ← h.moves_eq]
      simp [moves]
    rw [hmk] at hm
    obtain ⟨xa, wa, y, g1, g2, g3, g4⟩ := h.two hm
    exact ⟨xa, wa, by rw [← g1]; exact hclose, by rw [ht, ← g1]; simp [g2], by rw [ht]; simp [g3], y, by rw [ht]; simp [g4]⟩

/-- The objective `f x = x 0` in one variable, constant gains 1. -/
noncomputable def demo : Env Unit (Fin 1) where
  evaluate := fun _ x => ((), x 0)
  cbEvaluate := fun _ _ _ => ((), false)
  cbBegin := fun _ x => ((), x)
  cbStep := fun _ x => ((), x, false)
  bits := fun _ => ((), fun _ => true)
  isBad := fun _ => false
  isClose := fun a b => @decide (|a - b| < 1 / 100) (Classical.propDecidable _)
  dblMax := 1000

noncomputable def demoP (n : Nat) : Params := ⟨0, 0, 1, 1, 0.001, n⟩

theorem demo_run : optimize demo (demoP 5) () (fun _ => 1) =
    ⟨.tol, 0, fun _ => 0, [.beginOpt (fun _ => 1) (fun _ => 1), .eval (fun _ => 2) 2, .cbEval false, .eval (fun _ => 0) 0, .cbEval false,
      .step (fun _ => 1) (fun _ => 0), .stepTaken (fun _ => 0) false, .eval (fun _ => 0) 0, .cbEval false, .endOpt (fun _ => 0)]⟩ := by
  have e1 : ((fun _ => 1 : Fin 1 → ℝ) + (1 : ℝ) • direction (fun _ => true)) = fun _ => 2 := by
    funext i; norm_num [direction]
  have e2 : ((fun _ => 2 : Fin 1 → ℝ) - (2 * 1 : ℝ) • direction (fun _ => true)) = fun _ => 0 := by
    funext i; simp [direction]; norm_num
  have e3 : ((fun _ => 0 : Fin 1 → ℝ) + (1 : ℝ) • direction (fun _ => true)) = fun _ => 1 := by
    funext i; norm_num [direction]
  have e4 : ((fun _ => 1 : Fin 1 → ℝ) - (1 : ℝ) • (fun i => ((2 : ℝ) - 0) * (1 / (2 * 1 * direction (fun _ => true) i)))) = fun _ => 0 := by
    funext i; simp [direction]; norm_num
  have g : (demoP 5).gain 0 = 1 := by simp [Params.gain, demoP]
  have c : (demoP 5).probe 0 = 1 := by simp [Params.probe, demoP]
  have n1 : demo.isClose 1000 0 = false := by simp [demo]; norm_num
  have n2 : demo.isClose 0 0 = true := by simp [demo]
  have hs : start demo () (fun _ => 1) = ⟨(), fun _ => 1, 0, 1000, false, [.beginOpt (fun _ => 1) (fun _ => 1)]⟩ := rfl
  have hp : probes demo (demoP 5) 0 ⟨(), fun _ => 1, 0, 0, false, [.beginOpt (fun _ => 1) (fun _ => 1)]⟩ =
      (2, 0, direction (fun _ => true), ⟨(), fun _ => 1, 0, 0, false, [.beginOpt (fun _ => 1) (fun _ => 1),
        .eval (fun _ => 2) 2, .cbEval false, .eval (fun _ => 0) 0, .cbEval false]⟩) := by
    simp only [probes, evalAt, c]
    simp only [show demo.bits () = ((), fun _ => true) from rfl, e1, e2, e3]
    rfl
  unfold optimize
  rw [show (demoP 5).maxIterations = 3 + 1 + 1 from rfl, loop, hs]
  simp only [Bool.false_eq_true, if_false]
  rw [if_neg (by simp [demo]), n1, if_neg (by simp), hp]
  simp only [Bool.false_eq_true, if_false, stepPart, g, c, e4, evalAt]
  rw [loop]
  simp [demo]

/-- **C139** (refuted: first tolerance test). The test before the second iteration compares the first objective with the initial 0
of the variable, not with an objective: on `f x = x` from 1 the run stops at 0 "within tolerance" although the only move changed the
objective from 1 to 0. -/
theorem C139_tolerance_refuted :
    ¬ ∀ (env : Env Unit (Fin 1)) (p : Params) (x : Fin 1 → ℝ), (optimize env p () x).exit = .tol →
      ∃ xa y, Ev.step xa y ∈ (optimize env p () x).trace ∧ env.isClose (env.evaluate () xa).2 (optimize env p () x).obj = true ∧
        y = (optimize env p () x).x := by
  intro h
  obtain ⟨xa, y, h1, h2, h3⟩ := h demo (demoP 5) (fun _ => 1) (by rw [demo_run])
  rw [demo_run] at h1 h2 h3
  simp only [List.mem_cons, List.mem_nil_iff, or_false, reduceCtorEq, false_or] at h1
  injection h1 with e1 e2
  subst e1
  simp [demo] at h2
  norm_num at h2

/-- **C139** (refuted: `maxIterations = 0`). The documentation says 0 means no limit; the loop then performs no iteration at all. -/
theorem C139_zero_means_no_limit_refuted :
    ¬ ∀ (env : Env Unit (Fin 1)) (p : Params) (x : Fin 1 → ℝ), p.maxIterations = 0 → env.isBad 0 = false →
      env.isClose env.dblMax 0 = false → 0 < moves (optimize env p () x).trace := by
  intro h
  have h1 := h demo (demoP 0) (fun _ => 1) rfl rfl (by simp [demo]; norm_num)
  simp [optimize, loop, start, demoP, evalAt, moves, demo] at h1

/-! ### Concrete cases of the hypotheses -/

/-- Hypotheses of `C62_returned_objective` and `C142_descent_direction` (a move is made). -/
example : (∀ w x, (demo.evaluate w x).2 = x 0) ∧ demo.isBad 0 = false ∧ demo.isClose demo.dblMax 0 = false ∧
    IsQuadratic (fun x : Fin 1 → ℝ => x 0) (fun _ _ => 1) (fun _ _ => 0) ∧ 0 < (demoP 5).stepSize ∧ 0 < (demoP 5).evalStep ∧
    0 ≤ (demoP 5).ak ∧ Ev.step (fun _ => 1) (fun _ => 0) ∈ (optimize demo (demoP 5) () (fun _ => 1)).trace :=
  ⟨fun _ _ => rfl, rfl, by simp [demo]; norm_num, fun x h => by simp, by norm_num [demoP], by norm_num [demoP], by norm_num [demoP],
    by rw [demo_run]; simp⟩

/-- Hypotheses of `C139_tolerance_partial`: a constant objective. -/
example : ∃ env : Env Unit (Fin 1), (optimize env (demoP 5) () (fun _ => 1)).exit = .tol ∧
    2 ≤ moves (optimize env (demoP 5) () (fun _ => 1)).trace := by
  refine ⟨{ demo with evaluate := fun _ _ => ((), 5) }, ?_⟩
  have h1 : ¬ ((1000 : ℝ) < 1 / 100) := by norm_num
  have h2 : ¬ ((5 : ℝ) < 1 / 100) := by norm_num
  simp [optimize, loop, start, probes, evalAt, stepPart, demo, demoP, moves, h1, h2]
  norm_num

/-- Hypothesis of `C142_unbiased` with curvature: `f x = x 0 ^ 2 + x 0 * x 1`. -/
example : IsQuadratic (fun x : Fin 2 → ℝ => x 0 ^ 2 + x 0 * x 1) (fun x i => if i = 0 then 2 * x 0 + x 1 else x 0)
    (fun i j => if i = 0 then (if j = 0 then 2 else 1) else (if j = 0 then 1 else 0)) := by
  intro x h
  simp [Fin.sum_univ_two]
  ring

end Ens.Spsa
