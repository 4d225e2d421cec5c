import Verif.Lbfgs.Run
import Verif.Converge.LbfgsStop

/-
C285: L-BFGS under rotations, reflections and translations of the space.
-/

namespace Ens.Lbfgs

variable {W X X' G G' E Mem Mem' : Type} [Add E] [Mul E] [Neg E] [LT E] [DecidableLT E]

/-- The environments correspond: coordinates by `φ`, gradients and directions by `γ`, the stored pairs by `μ`. -/
structure Sim (env : Env W X G E Mem) (env' : Env W X' G' E Mem') (φ : X → X') (γ : G → G') (μ : Mem → Mem') : Prop where
  evalGrad : ∀ w x, env'.evalGrad w (φ x) = ((env.evalGrad w x).1, (env.evalGrad w x).2.1, γ (env.evalGrad w x).2.2)
  cbEvalGrad : ∀ w x e g, env'.cbEvalGrad w (φ x) e (γ g) =
    ((env.cbEvalGrad w x e g).1, γ (env.cbEvalGrad w x e g).2.1, (env.cbEvalGrad w x e g).2.2)
  cbBegin : ∀ w x, env'.cbBegin w (φ x) = ((env.cbBegin w x).1, φ (env.cbBegin w x).2)
  cbStep : ∀ w x, env'.cbStep w (φ x) = ((env.cbStep w x).1, φ (env.cbStep w x).2.1, (env.cbStep w x).2.2)
  cbEnd : ∀ w x, env'.cbEnd w (φ x) = ((env.cbEnd w x).1, φ (env.cbEnd w x).2)
  move : ∀ x a d, env'.move (φ x) a (γ d) = φ (env.move x a d)
  dot : ∀ a b, env'.dot (γ a) (γ b) = env.dot a b
  isNaN : env'.isNaN = env.isNaN
  isFinite : env'.isFinite = env.isFinite
  isZero : env'.isZero = env.isZero
  gradSmall : ∀ g, env'.gradSmall (γ g) = env.gradSmall g
  scaling : ∀ n g m, env'.scaling n (γ g) (μ m) = env.scaling n g m
  direction : ∀ n g a m, env'.direction n (γ g) a (μ m) = γ (env.direction n g a m)
  update : ∀ n x y g k m, env'.update n (φ x) (φ y) (γ g) (γ k) (μ m) = μ (env.update n x y g k m)
  stable : env'.stable = env.stable
  armijoConstant : env'.armijoConstant = env.armijoConstant
  wolfe : env'.wolfe = env.wolfe
  minStep : env'.minStep = env.minStep
  maxStep : env'.maxStep = env.maxStep
  zero : env'.zero = env.zero
  one : env'.one = env.one
  inc : env'.inc = env.inc
  dec : env'.dec = env.dec
  maxVal : env'.maxVal = env.maxVal
  maxLineSearchTrials : env'.maxLineSearchTrials = env.maxLineSearchTrials
  maxIterations : env'.maxIterations = env.maxIterations

def LS.image (γ : G → G') (s : LS W G E) : LS W G' E :=
  ⟨s.w, s.step, s.fv, γ s.grad, s.num, s.bestStep, s.bestObj, s.terminate, s.trials⟩

/-- The state in the other coordinates: same objective, iteration counter, flags and numbers of evaluations. -/
def St.image (φ : X → X') (γ : G → G') (μ : Mem → Mem') (s : St W X G E Mem) : St W X' G' E Mem' :=
  ⟨s.w, φ s.x, s.fv, γ s.grad, μ s.mem, s.it, s.terminate, s.log, s.evals⟩

variable {env : Env W X G E Mem} {env' : Env W X' G' E Mem'} {φ : X → X'} {γ : G → G'} {μ : Mem → Mem'}

theorem lsStep_image (h : Sim env env' φ γ μ) (x : X) (dir : G) (a b c : E) (s : LS W G E) :
    lsStep env' (φ x) (γ dir) a b c (s.image γ) = Sum.map (LS.image γ) (Prod.map id (LS.image γ)) (lsStep env x dir a b c s) := by
  have hw : ∀ fv grad, width env' a b c (γ dir) s.step fv (γ grad) = width env a b c dir s.step fv grad := by
    intro fv grad
    simp only [width, h.dec, h.inc, h.dot, h.wolfe]
  unfold lsStep
  simp only [LS.image, h.move, h.evalGrad, h.isNaN, h.cbEvalGrad, hw, h.minStep, h.maxStep, h.maxLineSearchTrials]
  split_ifs
  · rfl
  all_goals
    cases width env a b c dir s.step (env.evalGrad s.w (env.move x s.step dir)).2.1
      (env.cbEvalGrad (env.evalGrad s.w (env.move x s.step dir)).1 (env.move x s.step dir)
        (env.evalGrad s.w (env.move x s.step dir)).2.1 (env.evalGrad s.w (env.move x s.step dir)).2.2).2.1 with
    | none => rfl
    | some wd => rfl

theorem afterSearch_image (h : Sim env env' φ γ μ) (s : St W X G E Mem) (dir : G) (e : LsExit) (t : LS W G E) :
    afterSearch env' (s.image φ γ μ) (γ dir) e (t.image γ) =
      Sum.map (St.image φ γ μ) (Prod.map id (St.image φ γ μ)) (afterSearch env s dir e t) := by
  unfold afterSearch
  simp only [St.image, LS.image, h.move, h.isZero, h.stable, h.cbStep, h.update]
  split_ifs <;> rfl

theorem step_image (h : Sim env env' φ γ μ) (s : St W X G E Mem) :
    step env' (s.image φ γ μ) = Sum.map (St.image φ γ μ) (Prod.map id (St.image φ γ μ)) (step env s) := by
  have hls : ∀ (dir : G) (s : St W X G E Mem),
      iterate (lsStep env' (φ s.x) (γ dir) s.fv (env.dot s.grad dir) (env.armijoConstant * env.dot s.grad dir)) (lsFuel env)
        (lsStart env' s.w s.fv (γ s.grad) s.terminate) =
      (iterate (lsStep env s.x dir s.fv (env.dot s.grad dir) (env.armijoConstant * env.dot s.grad dir))
        (lsFuel env) (lsStart env s.w s.fv s.grad s.terminate)).map (Prod.map id (LS.image γ)) := by
    intro dir s
    rw [← iterate_map (LS.image γ) _ (lsStep_image h _ _ _ _ _)]
    simp only [lsStart, LS.image, h.one, h.maxVal]
  have hf : lsFuel env' = lsFuel env := by simp only [lsFuel, h.maxLineSearchTrials]
  unfold step
  simp only [h.maxIterations, hf, h.isNaN, h.isZero, h.isFinite, h.zero, h.armijoConstant]
  simp only [St.image, h.gradSmall, h.scaling, h.direction, h.dot]
  have hl := hls (env.direction s.it s.grad (env.scaling s.it s.grad s.mem) s.mem) s
  rw [hl]
  split_ifs
  any_goals rfl
  all_goals
    cases iterate (lsStep env s.x (env.direction s.it s.grad (env.scaling s.it s.grad s.mem) s.mem) s.fv
      (env.dot s.grad (env.direction s.it s.grad (env.scaling s.it s.grad s.mem) s.mem))
      (env.armijoConstant * env.dot s.grad (env.direction s.it s.grad (env.scaling s.it s.grad s.mem) s.mem))) (lsFuel env)
      (lsStart env s.w s.fv s.grad s.terminate) with
    | none => rfl
    | some r => exact afterSearch_image h ({ s with log := s.log ++ [s.fv] }) _ r.1 r.2

/-- Corresponding environments give corresponding runs. -/
theorem optimize_image (h : Sim env env' φ γ μ) (mem : Mem) (t0 : Bool) (fuel : Nat) (w : W) (x : X) :
    optimize env' (μ mem) t0 fuel w (φ x) = (optimize env mem t0 fuel w x).map (Prod.map id (St.image φ γ μ)) := by
  have hs : start env' (μ mem) t0 w (φ x) = (start env mem t0 w x).image φ γ μ := by
    simp only [start, St.image, h.evalGrad, h.cbEvalGrad, h.cbBegin]
  unfold optimize
  rw [hs, iterate_map (St.image φ γ μ) _ (step_image h)]
  cases iterate (step env) fuel (start env mem t0 w x) with
  | none => rfl
  | some r => simp only [Option.map_some, Prod.map, St.image, h.cbEnd, id]

/-! ### The arithmetic of the library -/

open scoped InnerProductSpace

variable {V V' : Type} [NormedAddCommGroup V] [InnerProductSpace ℝ V] [NormedAddCommGroup V'] [InnerProductSpace ℝ V']

theorem searchDirection_image (Q : V →ₗᵢ[ℝ] V') (nb : Nat) (d : V) (it : Nat) (sc : ℝ) (s y : Nat → V) :
    searchDirection (fun a b : V' => ⟪a, b⟫_ℝ) nb (Q d) it sc (fun i => Q (s i)) (fun i => Q (y i)) =
      Q (searchDirection (fun a b : V => ⟪a, b⟫_ℝ) nb d it sc s y) := by
  have h1 : ∀ (l : List Nat) (st : Dir ℝ V),
      l.foldl (firstStep (fun a b : V' => ⟪a, b⟫_ℝ) nb it (fun i => Q (s i)) (fun i => Q (y i))) ⟨Q st.dir, st.rho, st.alpha⟩ =
        ⟨Q (l.foldl (firstStep (fun a b : V => ⟪a, b⟫_ℝ) nb it s y) st).dir,
          (l.foldl (firstStep (fun a b : V => ⟪a, b⟫_ℝ) nb it s y) st).rho,
          (l.foldl (firstStep (fun a b : V => ⟪a, b⟫_ℝ) nb it s y) st).alpha⟩ := by
    intro l
    induction l with
    | nil => intro st; rfl
    | cons i l ih =>
      intro st
      rw [List.foldl_cons, List.foldl_cons, ← ih]
      congr 1
      simp only [firstStep, Q.inner_map_map, map_sub, map_smul]
  have h2 : ∀ (rho alpha : Nat → ℝ) (l : List Nat) (v : V),
      l.foldl (secondStep (fun a b : V' => ⟪a, b⟫_ℝ) nb it (fun i => Q (s i)) (fun i => Q (y i)) rho alpha) (Q v) =
        Q (l.foldl (secondStep (fun a b : V => ⟪a, b⟫_ℝ) nb it s y rho alpha) v) := by
    intro rho alpha l
    induction l with
    | nil => intro v; rfl
    | cons i l ih =>
      intro v
      rw [List.foldl_cons, List.foldl_cons, ← ih]
      congr 1
      simp only [secondStep, Q.inner_map_map, map_add, map_smul]
  unfold searchDirection
  simp only
  have := h1 ((List.range' (limit nb it + 1) (it - limit nb it)).reverse) ⟨d, fun _ => 0, fun _ => 0⟩
  simp only at this
  rw [this]
  simp only
  rw [← map_smul, h2, ← map_smul]

end Ens.Lbfgs

namespace Ens.Converge

open Ens.Lbfgs
open scoped InnerProductSpace

variable {V V' W : Type} [NormedAddCommGroup V] [InnerProductSpace ℝ V] [NormedAddCommGroup V'] [InnerProductSpace ℝ V']

/-- Functions and callbacks that correspond under `x ↦ Q x + t`. -/
structure Transported (Q : V →ₗᵢ[ℝ] V') (t : V') (f : V → ℝ) (g : V → V) (u : LbfgsCb W V) (f' : V' → ℝ) (g' : V' → V') (u' : LbfgsCb W V') :
    Prop where
  f : ∀ x, f' (Q x + t) = f x
  g : ∀ x, g' (Q x + t) = Q (g x)
  evalGrad : ∀ w x v d, u'.evalGrad w (Q x + t) v (Q d) = u.evalGrad w x v d
  begin : ∀ w x, u'.begin w (Q x + t) = u.begin w x
  step : ∀ w x, u'.step w (Q x + t) = u.step w x
  end_ : ∀ w x, u'.end_ w (Q x + t) = u.end_ w x

/-- **C285** L-BFGS does not depend on the system of coordinates: on the function transported by `x ↦ Q x + t`, where `Q`
preserves lengths and angles, `Optimize` returns the same value for the same reason after the same number of iterations and of
evaluations, from the image of the point, and ends in the image of the point. -/
theorem C285_lbfgs (c : LbfgsCfg) {Q : V →ₗᵢ[ℝ] V'} {t : V'} {f : V → ℝ} {g : V → V} {u : LbfgsCb W V} {f' : V' → ℝ} {g' : V' → V'}
    {u' : LbfgsCb W V'} (h : Transported Q t f g u f' g' u') (s y : Nat → V) (t0 : Bool) (fuel : Nat) (w : W) (x : V) :
    optimize (lbfgsEnv c f' g' u') (fun i => Q (s i), fun i => Q (y i)) t0 fuel w (Q x + t) =
      (optimize (lbfgsEnv c f g u) (s, y) t0 fuel w x).map fun r =>
        (r.1, ⟨r.2.w, Q r.2.x + t, r.2.fv, Q r.2.grad, (fun i => Q (r.2.mem.1 i), fun i => Q (r.2.mem.2 i)), r.2.it, r.2.terminate,
          r.2.log, r.2.evals⟩) := by
  have hb : ∀ (nb it : Nat) (r : Nat → V) (v : V), updateBasis nb it (fun i => Q (r i)) (Q v) = fun i => Q (updateBasis nb it r v i) := by
    intro nb it r v
    funext i
    simp only [updateBasis, Function.update_apply]
    split_ifs <;> rfl
  have hs : Sim (lbfgsEnv c f g u) (lbfgsEnv c f' g' u') (fun x => Q x + t) Q
      (fun m : (Nat → V) × (Nat → V) => ((fun i => Q (m.1 i), fun i => Q (m.2 i)) : (Nat → V') × (Nat → V'))) := by
    constructor
    · intro w x; simp only [lbfgsEnv, h.f, h.g]
    · intro w x e d; simp only [lbfgsEnv, h.evalGrad]
    · intro w x; simp only [lbfgsEnv, h.begin]
    · intro w x; simp only [lbfgsEnv, h.step]
    · intro w x; simp only [lbfgsEnv, h.end_]
    · intro x a d
      simp only [lbfgsEnv, map_add, map_smul]
      abel
    · intro a b; simp only [lbfgsEnv, Q.inner_map_map]
    · rfl
    · rfl
    · rfl
    · intro d; simp only [lbfgsEnv, Q.norm_map]
    · intro n d m; simp only [lbfgsEnv, scalingFactor, Q.norm_map, Q.inner_map_map]
    · intro n d a m; simp only [lbfgsEnv, searchDirection_image]
    · intro n x y d k m
      simp only [lbfgsEnv, add_sub_add_right_eq_sub, ← map_sub, hb]
    all_goals rfl
  exact optimize_image hs (s, y) t0 fuel w x

/-- Non-vacuity: the function `halfSq` reflected and moved to the minimiser 3, with callbacks that do nothing. -/
theorem halfSq_transported : Transported (LinearIsometryEquiv.neg ℝ (E := ℝ)).toLinearIsometry 3 halfSq (fun x => x) noCb
    (fun x => halfSq (x - 3)) (fun x => x - 3) noCb := by
  constructor
  · intro x; simp [halfSq]
  · intro x; simp
  all_goals intros; rfl

example : ∃ fuel e r r', optimize (lbfgsEnv lbfgsDefault halfSq (fun x => x) noCb) (fun _ => 0, fun _ => 0) false fuel () (1 / 2) =
    some (e, r) ∧ optimize (lbfgsEnv lbfgsDefault (fun x => halfSq (x - 3)) (fun x => x - 3) noCb) (fun _ => -0, fun _ => -0) false fuel ()
      (-(1 / 2) + 3) = some (e, r') ∧ r'.x = 3 - r.x ∧ r'.it = r.it := by
  obtain ⟨fuel, ⟨e, r⟩, h⟩ := C256_terminates (μ := 1) (L := 1) one_pos le_rfl halfSq_convex halfSq_smooth (by decide)
    (by norm_num [lbfgsDefault]) (by norm_num [lbfgsDefault]) (by norm_num [lbfgsDefault]) (by norm_num [lbfgsDefault])
    (by norm_num [lbfgsDefault]) (by norm_num [lbfgsDefault]) halfSq_clean
  have := C285_lbfgs lbfgsDefault halfSq_transported (fun _ => 0) (fun _ => 0) false fuel () (1 / 2)
  rw [h] at this
  exact ⟨fuel, e, r, _, h, this, by simp [sub_eq_neg_add], rfl⟩

/-- **C285** (refuted) "Adding a constant to the objective does not change where L-BFGS stops." The test of line 479 compares the
decrease with the size of the objective: from 4, `x² / 2` is minimised, `x² / 2 + 10¹⁶` is left at 3 after one line search. -/
theorem C285_offset_refuted : ¬ ∀ (f g : ℚ → ℚ) (k : ℚ) (fuel : Nat) (x : ℚ),
    (optimize (scalarEnv (fun x => f x + k) g 50 10000 false) mem0 false fuel () x).map (fun r => (r.1, r.2.x)) =
      (optimize (scalarEnv f g 50 10000 false) mem0 false fuel () x).map fun r => (r.1, r.2.x) := by
  intro h
  have h1 := h (fun x => x ^ 2 / 2) (fun x => x) (10 ^ 16) 20 4
  have h2 : (optimize (scalarEnv (fun x => x ^ 2 / 2 + 10 ^ 16) (fun x => x) 50 10000 false) mem0 false 20 () 4).map
      (fun r => (r.1, r.2.x)) = some (.stable, 3) := by decide +kernel
  have h3 : (optimize (scalarEnv (fun x => x ^ 2 / 2) (fun x => x) 50 10000 false) mem0 false 20 () 4).map
      (fun r => (r.1, r.2.x)) = some (.gradient, 0) := by decide +kernel
  rw [h2, h3] at h1
  simp at h1

end Ens.Converge
