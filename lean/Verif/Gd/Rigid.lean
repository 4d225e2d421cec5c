import Verif.Gd.Props
import Verif.Gd.Textbook
import Mathlib.Analysis.InnerProductSpace.Calculus

/-
C289: gradient descent under rigid motions of the space and added constants in the objective.
-/

namespace Ens.Gd

open scoped InnerProductSpace

section sim
variable {W M M' G G' E E' : Type}

/-- Corresponding environments: coordinates by `φ`, gradients by `γ`, objectives by `ε`; the largest number, which the first
objective is compared with, need not correspond. -/
structure Sim (env : Env W M G E) (env' : Env W M' G' E') (φ : M → M') (γ : G → G') (ε : E → E') : Prop where
  evalGrad : ∀ w x, env'.evalGrad w (φ x) = ((env.evalGrad w x).1, ε (env.evalGrad w x).2.1, γ (env.evalGrad w x).2.2)
  cbBegin : ∀ w x, env'.cbBegin w (φ x) = ((env.cbBegin w x).1, φ (env.cbBegin w x).2)
  cbEvalGrad : ∀ w x e g, env'.cbEvalGrad w (φ x) (ε e) (γ g) =
    ((env.cbEvalGrad w x e g).1, γ (env.cbEvalGrad w x e g).2.1, (env.cbEvalGrad w x e g).2.2)
  cbStep : ∀ w x, env'.cbStep w (φ x) = ((env.cbStep w x).1, φ (env.cbStep w x).2.1, (env.cbStep w x).2.2)
  cbEnd : ∀ w x, env'.cbEnd w (φ x) = ((env.cbEnd w x).1, φ (env.cbEnd w x).2)
  move : ∀ x g, env'.move (φ x) (γ g) = φ (env.move x g)
  isBad : ∀ e, env'.isBad (ε e) = env.isBad e
  isClose : ∀ a b, env'.isClose (ε a) (ε b) = env.isClose a b
  first : ∀ w x, env'.isClose env'.maxVal (ε (env.evalGrad w x).2.1) = env.isClose env.maxVal (env.evalGrad w x).2.1

/-- An event in the other coordinates. -/
def Ev.image (φ : M → M') (ε : E → E') : Ev M E → Ev M' E'
  | .beginOpt x => .beginOpt (φ x)
  | .eval x o => .eval (φ x) (ε o)
  | .cbEval b => .cbEval b
  | .step x y => .step (φ x) (φ y)
  | .stepTaken b => .stepTaken b
  | .endOpt x => .endOpt (φ x)

/-- A result in the other coordinates. -/
def Result.image (φ : M → M') (ε : E → E') (r : Result W M E) : Result W M' E' :=
  ⟨r.exit, ε r.obj, φ r.x, r.trace.map (Ev.image φ ε), r.w⟩

variable {env : Env W M G E} {env' : Env W M' G' E'} {φ : M → M'} {γ : G → G'} {ε : E → E'}

/-- Corresponding states; `last` is the largest number in the first pass. -/
structure Rel (env : Env W M G E) (env' : Env W M' G' E') (φ : M → M') (ε : E → E') (s : St W M E) (s' : St W M' E') : Prop where
  w : s'.w = s.w
  x : s'.x = φ s.x
  i : s'.i = s.i
  overall : s'.overall = ε s.overall ∨ (s.i = 1 ∧ s.terminate = false)
  last : s'.last = ε s.last ∨ (s.last = env.maxVal ∧ s'.last = env'.maxVal)
  terminate : s'.terminate = s.terminate
  trace : s'.trace = s.trace.map (Ev.image φ ε)

theorem loop_rel (h : Sim env env' φ γ ε) {m : Nat} (hm : m ≠ 1) : ∀ (fuel : Nat) (s : St W M E) (s' : St W M' E'),
    Rel env env' φ ε s s' →
    (loop env m fuel s = .outOfFuel ∧ loop env' m fuel s' = .outOfFuel) ∨
      ∃ e t t', loop env m fuel s = .done e t ∧ loop env' m fuel s' = .done e t' ∧ t'.w = t.w ∧ t'.x = φ t.x ∧
        t'.overall = ε t.overall ∧ t'.trace = t.trace.map (Ev.image φ ε) := by
  have stop : ∀ (s : St W M E) (s' : St W M' E'), Rel env env' φ ε s s' → ¬ (s.i ≠ m ∧ s.terminate = false) →
      s'.overall = ε s.overall := by
    intro s s' r hc
    rcases r.overall with h1 | ⟨h1, h2⟩
    · exact h1
    · exact absurd ⟨by rw [h1]; exact hm.symm, h2⟩ hc
  intro fuel
  induction fuel with
  | zero =>
    intro s s' r
    simp only [loop, r.i, r.terminate]
    split_ifs with hc
    · exact .inl ⟨rfl, rfl⟩
    · exact .inr ⟨.loop, s, s', rfl, rfl, r.w, r.x, stop s s' r hc, r.trace⟩
  | succ fuel ih =>
    intro s s' r
    simp only [loop, r.i, r.terminate]
    split_ifs with hc
    · have hl : env'.isClose s'.last (ε (env.evalGrad s.w s.x).2.1) = env.isClose s.last (env.evalGrad s.w s.x).2.1 := by
        rcases r.last with h1 | ⟨h1, h2⟩
        · rw [h1, h.isClose]
        · rw [h1, h2, h.first]
      simp only [body, evalPart, r.w, r.x, h.evalGrad, h.cbEvalGrad, h.isBad, hl]
      by_cases hb : env.isBad (env.evalGrad s.w s.x).2.1 = true
      · simp only [hb, if_true]
        exact .inr ⟨.bad, _, _, rfl, rfl, rfl, rfl, rfl, by simp [r.trace, Ev.image]⟩
      simp only [hb, if_false]
      by_cases hcl : env.isClose s.last (env.evalGrad s.w s.x).2.1 = true
      · simp only [hcl, if_true]
        exact .inr ⟨.tol, _, _, rfl, rfl, rfl, rfl, rfl, by simp [r.trace, Ev.image]⟩
      simp only [hcl, if_false]
      refine ih _ _ ⟨?_, ?_, ?_, ?_, ?_, ?_, ?_⟩
      · simp [movePart, h.move, h.cbStep]
      · simp [movePart, h.move, h.cbStep]
      · simp [movePart, r.i]
      · exact .inl (by simp [movePart])
      · exact .inl (by simp [movePart])
      · simp [movePart, h.move, h.cbStep, r.terminate]
      · simp [movePart, h.move, h.cbStep, r.trace, Ev.image]
    · exact .inr ⟨.loop, s, s', rfl, rfl, r.w, r.x, stop s s' r hc, r.trace⟩

theorem optimize_image (h : Sim env env' φ γ ε) {m : Nat} (hm : m ≠ 1) (fuel : Nat) (w : W) (x : M) :
    optimize env' m fuel w (φ x) = (optimize env m fuel w x).map (Result.image φ ε) := by
  have hs : Rel env env' φ ε (start env w x) (start env' w (φ x)) :=
    ⟨by simp [start, h.cbBegin], by simp [start, h.cbBegin], rfl, .inr ⟨rfl, rfl⟩, .inr ⟨rfl, rfl⟩, rfl, by simp [start, Ev.image]⟩
  unfold optimize
  rcases loop_rel h hm fuel _ _ hs with ⟨e1, e2⟩ | ⟨e, t, t', e1, e2, e3, e4, e5, e6⟩
  · rw [e1, e2]; rfl
  · rw [e1, e2]
    simp [Result.image, Ev.image, e3, e4, e5, e6, h.cbEnd]

end sim

variable {V V' W : Type} [NormedAddCommGroup V] [InnerProductSpace ℝ V] [NormedAddCommGroup V'] [InnerProductSpace ℝ V']

/-- Gradient descent in exact arithmetic on `f` with gradient `g`: callbacks may stop the run at any time, but leave gradient and
coordinates as they are; the largest number is far from all objectives (gradient_descent/gradient_descent_impl.hpp:57-105). -/
structure Plain (env : Env W V V ℝ) (f : V → ℝ) (g : V → V) (η tol : ℝ) : Prop where
  evalGrad : ∀ w x, (env.evalGrad w x).2 = (f x, g x)
  begin_ : ∀ w x, (env.cbBegin w x).2 = x
  cbEvalGrad : ∀ w x e g, (env.cbEvalGrad w x e g).2.1 = g
  cbStep : ∀ w x, (env.cbStep w x).2.1 = x
  cbEnd : ∀ w x, (env.cbEnd w x).2 = x
  move : ∀ x d, env.move x d = x - η • d
  isBad : ∀ v, env.isBad v = false
  isClose : ∀ a b, env.isClose a b = true ↔ |a - b| < tol
  far : ∀ x, tol ≤ |env.maxVal - f x|

/-- Callbacks that change the world alike and stop at the same moments, whatever constant is added to the objective. -/
structure SameWorld (env : Env W V V ℝ) (env' : Env W V' V' ℝ) (φ : V → V') (γ : V → V') (c : ℝ) : Prop where
  evalGrad : ∀ w x, (env'.evalGrad w (φ x)).1 = (env.evalGrad w x).1
  begin_ : ∀ w x, (env'.cbBegin w (φ x)).1 = (env.cbBegin w x).1
  cbEvalGrad : ∀ w x e g, (env'.cbEvalGrad w (φ x) (e + c) (γ g)).1 = (env.cbEvalGrad w x e g).1 ∧
    (env'.cbEvalGrad w (φ x) (e + c) (γ g)).2.2 = (env.cbEvalGrad w x e g).2.2
  cbStep : ∀ w x, (env'.cbStep w (φ x)).1 = (env.cbStep w x).1 ∧ (env'.cbStep w (φ x)).2.2 = (env.cbStep w x).2.2
  cbEnd : ∀ w x, (env'.cbEnd w (φ x)).1 = (env.cbEnd w x).1

/-- **C289** `GradientDescent` on an objective read in other coordinates `y = Q x + t`, where `Q` preserves distances, with a
constant added: the run is the image of the original one, event by event, and the objective returned is the old one plus the
constant. -/
theorem C289_rigid {env : Env W V V ℝ} {env' : Env W V' V' ℝ} (Q : V →ₗᵢ[ℝ] V') (t : V') (c : ℝ) {f : V → ℝ} {g : V → V}
    {f' : V' → ℝ} {g' : V' → V'} {η tol : ℝ} (h : Plain env f g η tol) (h' : Plain env' f' g' η tol)
    (hf : ∀ x, f' (Q x + t) = f x + c) (hg : ∀ x, g' (Q x + t) = Q (g x))
    (hw : SameWorld env env' (fun x => Q x + t) Q c) {m : Nat} (hm : m ≠ 1) (fuel : Nat) (w : W) (x : V) :
    optimize env' m fuel w (Q x + t) = (optimize env m fuel w x).map (Result.image (fun x => Q x + t) (· + c)) := by
  refine optimize_image (φ := fun x => Q x + t) (γ := Q) (ε := (· + c)) ⟨?_, ?_, ?_, ?_, ?_, ?_, ?_, ?_, ?_⟩ hm fuel w x
  · intro w x
    exact Prod.ext (hw.evalGrad w x) (by rw [h'.evalGrad, h.evalGrad, hf, hg])
  · intro w x
    exact Prod.ext (hw.begin_ w x) (by rw [h'.begin_, h.begin_])
  · intro w x e g
    exact Prod.ext (hw.cbEvalGrad w x e g).1 (Prod.ext (by rw [h'.cbEvalGrad, h.cbEvalGrad]) (hw.cbEvalGrad w x e g).2)
  · intro w x
    exact Prod.ext (hw.cbStep w x).1 (Prod.ext (by rw [h'.cbStep, h.cbStep]) (hw.cbStep w x).2)
  · intro w x
    exact Prod.ext (hw.cbEnd w x) (by rw [h'.cbEnd, h.cbEnd])
  · intro x d
    rw [h'.move, h.move, map_sub, map_smul]
    abel
  · intro e
    rw [h'.isBad, h.isBad]
  · intro a b
    rw [Bool.eq_iff_iff, h'.isClose, h.isClose, add_sub_add_right_eq_sub]
  · intro w x
    rw [Bool.eq_iff_iff, h'.isClose, h.isClose, h.evalGrad, ← hf]
    exact ⟨fun h1 => absurd h1 (not_lt.2 (h'.far _)), fun h1 => absurd h1 (not_lt.2 (h.far _))⟩

/-- **C289** The gradient of the objective read in other coordinates. -/
theorem C289_gradient (Q : V ≃ₗᵢ[ℝ] V') (t : V') (c : ℝ) {f : V → ℝ} {g : V → V} (hg : IsGrad f g) :
    IsGrad (fun y => f (Q.symm (y - t)) + c) (fun y => Q (g (Q.symm (y - t)))) := by
  intro y
  have h1 : HasFDerivAt (fun y : V' => Q.symm (y - t)) (Q.symm.toContinuousLinearEquiv : V' →L[ℝ] V) y :=
    ((Q.symm.toContinuousLinearEquiv : V' →L[ℝ] V).hasFDerivAt).comp _ ((hasFDerivAt_id _).sub_const t)
  have h2 := (HasFDerivAt.comp (g := f) (f := fun y : V' => Q.symm (y - t)) y (hg (Q.symm (y - t))) h1).add_const c
  refine h2.congr_fderiv ?_
  ext v
  have := Q.inner_map_map (g (Q.symm (y - t))) (Q.symm v)
  rw [Q.apply_symm_apply] at this
  simp only [ContinuousLinearMap.comp_apply, innerSL_apply_apply]
  exact this.symm

/-- A user that only computes, with the given largest number. -/
noncomputable def computing (f : V → ℝ) (g : V → V) (η tol big : ℝ) : Env Unit V V ℝ where
  evalGrad := fun _ x => ((), f x, g x)
  cbBegin := fun _ x => ((), x)
  cbEvalGrad := fun _ _ _ g => ((), g, false)
  cbStep := fun _ x => ((), x, false)
  cbEnd := fun _ x => ((), x)
  move := fun x d => x - η • d
  isBad := fun _ => false
  isClose := fun a b => decide (|a - b| < tol)
  maxVal := big

/-- Hypotheses of C289: the sine on the line, reflected at 3, raised by 5. -/
example (m : Nat) (hm : m ≠ 1) (fuel : Nat) (x : ℝ) :
    optimize (computing (fun y => Real.sin (3 - y) + 5) (fun y => -Real.cos (3 - y)) 0.01 1e-5 1000) m fuel () (-x + 3) =
      (optimize (computing Real.sin Real.cos 0.01 1e-5 1000) m fuel () x).map
        (Result.image (fun x => -x + 3) (· + 5)) := by
  have hp : ∀ (f : ℝ → ℝ) (g : ℝ → ℝ), (∀ x, |f x| ≤ 6) → Plain (computing f g 0.01 1e-5 1000) f g 0.01 1e-5 := fun f g hf =>
    ⟨fun _ _ => rfl, fun _ _ => rfl, fun _ _ _ _ => rfl, fun _ _ => rfl, fun _ _ => rfl, fun _ _ => rfl, fun _ => rfl,
      fun a b => by simp [computing], fun x => by
        have := abs_le.1 (hf x)
        simp only [computing]
        rw [abs_of_nonneg (by linarith)]
        norm_num
        linarith⟩
  refine C289_rigid (LinearIsometryEquiv.neg ℝ).toLinearIsometry 3 5 (hp Real.sin Real.cos fun x => ?_)
    (hp _ _ fun x => ?_) (fun x => ?_) (fun x => ?_) ?_ hm fuel () x
  · exact (Real.abs_sin_le_one x).trans (by norm_num)
  · have := abs_le.1 (Real.abs_sin_le_one (3 - x))
    exact abs_le.2 ⟨by linarith, by linarith⟩
  · simp
  · simp
  · exact ⟨fun _ _ => rfl, fun _ _ => rfl, fun _ _ _ _ => ⟨rfl, rfl⟩, fun _ _ => ⟨rfl, rfl⟩, fun _ _ => rfl⟩

end Ens.Gd
