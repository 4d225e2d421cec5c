import Verif.Fw.Props
import Verif.Gd.Props
import Mathlib.Analysis.InnerProductSpace.Calculus

/-
C288: Frank-Wolfe does not depend on the choice of affine coordinates.
-/

namespace Ens.Fw

open scoped InnerProductSpace

section sim
variable {W X X' G G' E : Type}

/-- Corresponding user code: coordinates by `φ`, gradients by `γ`. -/
structure Sim (u : User W X G E) (u' : User W X' G' E) (φ : X → X') (γ : G → G') : Prop where
  evalGrad : ∀ w x, u'.evalGrad w (φ x) = ((u.evalGrad w x).1, (u.evalGrad w x).2.1, γ (u.evalGrad w x).2.2)
  lmo : ∀ w v, u'.lmo w (γ v) = ((u.lmo w v).1, φ (u.lmo w v).2)
  update : ∀ w x s i, u'.update w (φ x) (φ s) i = ((u.update w x s i).1, φ (u.update w x s i).2)
  within : ∀ x s v, u'.within (φ x) (φ s) (γ v) = u.within x s v
  cbBegin : ∀ w x, u'.cbBegin w (φ x) = ((u.cbBegin w x).1, φ (u.cbBegin w x).2)
  cbEval : ∀ w x e v, u'.cbEval w (φ x) e (γ v) = ((u.cbEval w x e v).1, γ (u.cbEval w x e v).2.1, (u.cbEval w x e v).2.2)
  cbStep : ∀ w x, u'.cbStep w (φ x) = ((u.cbStep w x).1, φ (u.cbStep w x).2.1, (u.cbStep w x).2.2)
  cbEnd : ∀ w x, u'.cbEnd w (φ x) = ((u.cbEnd w x).1, φ (u.cbEnd w x).2)
  maxE : u'.maxE = u.maxE

/-- An event in the other coordinates. -/
def Ev.image (φ : X → X') : Ev X E → Ev X' E
  | .eval x o => .eval (φ x) o
  | .step x => .step (φ x)
  | .stop => .stop

/-- The state in the other coordinates: same objective, flag, number of iterations and world. -/
def St.image (φ : X → X') (t : St W X E) : St W X' E := ⟨t.w, φ t.x, t.obj, t.term, t.i, t.trace.map (Ev.image φ)⟩

variable {u : User W X G E} {u' : User W X' G' E} {φ : X → X'} {γ : G → G'}

theorem body_image (h : Sim u u' φ γ) (m : Nat) (t : St W X E) :
    body u' m (t.image φ) = Sum.map (St.image φ) (Prod.map id (St.image φ)) (body u m t) := by
  unfold body
  simp only [St.image, h.evalGrad, h.cbEval, h.lmo, h.within, h.update, h.cbStep]
  split_ifs <;> simp [St.image, Ev.image]

theorem loop_image (h : Sim u u' φ γ) (m : Nat) : ∀ (fuel : Nat) (t : St W X E),
    iterate (body u' m) fuel (t.image φ) = (iterate (body u m) fuel t).map (Prod.map id (St.image φ))
  | 0, _ => rfl
  | fuel + 1, t => by
    have hb := body_image h m t
    simp only [iterate]
    rw [hb]
    cases body u m t with
    | inl t' => exact loop_image h m fuel t'
    | inr r => rfl

theorem optimize_image (h : Sim u u' φ γ) (m fuel : Nat) (w : W) (x : X) :
    optimize u' m fuel w (φ x) = (optimize u m fuel w x).map (Prod.map id (St.image φ)) := by
  have hs : start u' w (φ x) = (start u w x).image φ := by simp [start, St.image, h.cbBegin, h.maxE]
  unfold optimize
  rw [hs, loop_image h, Option.map_map, Option.map_map]
  congr 1
  funext r
  simp [finish, St.image, h.cbEnd]

end sim

variable {V V' W : Type} [NormedAddCommGroup V] [InnerProductSpace ℝ V] [NormedAddCommGroup V'] [InnerProductSpace ℝ V']

/-- The two update rules of the library, as functions of the old point, the solution of the linear problem and the iteration;
the line search sees the derivative of the objective along the segment. -/
inductive Rule where
  | classic
  | lineSearch (p : LsParams ℝ)

/-- The point the rule moves to (the line search always yields one, C69). -/
noncomputable def Rule.point (g : V → V) : Rule → V → V → Nat → V
  | .classic, x, s, i => Fw.classic (K := ℝ) x s i
  | .lineSearch p, x, s, _ => (viaSearch p (fun x s t => ⟪g (x + t • (s - x)), s - x⟫_ℝ) x s).getD x

/-- What Frank-Wolfe is run with: an objective with its gradient, a linear solver, an update rule of the library, the gap test of
lines 94-95 and callbacks that may stop the run at any time but change neither gradient nor coordinates. -/
structure Exact (u : User W V V ℝ) (f : V → ℝ) (g : V → V) (s : V → V) (rule : Rule) (tol : ℝ) : Prop where
  evalGrad : ∀ w x, (u.evalGrad w x).2 = (f x, g x)
  lmo : ∀ w v, (u.lmo w v).2 = s v
  update : ∀ w x y i, (u.update w x y i).2 = rule.point g x y i
  within : ∀ x y v, u.within x y v = true ↔ |⟪x - y, v⟫_ℝ| < tol
  begin_ : ∀ w x, (u.cbBegin w x).2 = x
  cbEval : ∀ w x o v, (u.cbEval w x o v).2.1 = v
  cbStep : ∀ w x, (u.cbStep w x).2.1 = x
  end_ : ∀ w x, (u.cbEnd w x).2 = x

/-- The two users change the world alike and their callbacks ask for a stop at the same moments. -/
structure SameWorld (u : User W V V ℝ) (u' : User W V' V' ℝ) (φ : V → V') (γ : V → V') : Prop where
  evalGrad : ∀ w x, (u'.evalGrad w (φ x)).1 = (u.evalGrad w x).1
  lmo : ∀ w v, (u'.lmo w (γ v)).1 = (u.lmo w v).1
  update : ∀ w x y i, (u'.update w (φ x) (φ y) i).1 = (u.update w x y i).1
  begin_ : ∀ w x, (u'.cbBegin w (φ x)).1 = (u.cbBegin w x).1
  cbEval : ∀ w x o v, (u'.cbEval w (φ x) o (γ v)).1 = (u.cbEval w x o v).1 ∧
    (u'.cbEval w (φ x) o (γ v)).2.2 = (u.cbEval w x o v).2.2
  cbStep : ∀ w x, (u'.cbStep w (φ x)).1 = (u.cbStep w x).1 ∧ (u'.cbStep w (φ x)).2.2 = (u.cbStep w x).2.2
  end_ : ∀ w x, (u'.cbEnd w (φ x)).1 = (u.cbEnd w x).1
  maxE : u'.maxE = u.maxE

theorem classic_affine (A : V →ₗ[ℝ] V') (b : V') (x s : V) (i : Nat) :
    Fw.classic (K := ℝ) (A x + b) (A s + b) i = A (Fw.classic (K := ℝ) x s i) + b := by
  unfold classic
  rw [map_add, map_smul, map_smul]
  module

theorem rule_affine (A : V →ₗ[ℝ] V') (b : V') {γ : V → V'} (hγ : ∀ v h, ⟪γ v, A h⟫_ℝ = ⟪v, h⟫_ℝ) {g : V → V} {g' : V' → V'}
    (hg : ∀ x, g' (A x + b) = γ (g x)) (rule : Rule) (x s : V) (i : Nat) :
    rule.point g' (A x + b) (A s + b) i = A (rule.point g x s i) + b := by
  cases rule with
  | classic => exact classic_affine A b x s i
  | lineSearch p =>
    have hD : (fun t : ℝ => ⟪g' (A x + b + t • (A s + b - (A x + b))), A s + b - (A x + b)⟫_ℝ) =
        fun t : ℝ => ⟪g (x + t • (s - x)), s - x⟫_ℝ := by
      funext t
      have e1 : A s + b - (A x + b) = A (s - x) := by rw [map_sub]; abel
      have e2 : A x + b + t • A (s - x) = A (x + t • (s - x)) + b := by rw [map_add, map_smul]; abel
      rw [e1, e2, hg, hγ]
    simp only [Rule.point, viaSearch]
    rw [hD]
    cases Fw.lineSearch p fun t : ℝ => ⟪g (x + t • (s - x)), s - x⟫_ℝ with
    | none => rfl
    | some r =>
      have hpt : ∀ c : ℝ, (1 - c) • (A x + b) + c • (A s + b) = A ((1 - c) • x + c • s) + b := by
        intro c
        rw [map_add, map_smul, map_smul]
        module
      rcases r with ⟨e, c⟩ | _
      · cases e <;> simp only [lsPoint, hpt, Option.bind_some, Option.getD_some]
      · rfl

/-- **C288** Frank-Wolfe in coordinates `y = A x + b`, with `A` any linear map with an adjoint inverse `γ` on gradients: if the
objective, its gradient and the solutions of the linear problems are those of the run in the coordinates `x`, expressed in the
new coordinates, then so is the whole run: same reason of the return, same value, same number of iterations, same stops, and
all points are the images of those of the run in `x`. -/
theorem C288_affine {u : User W V V ℝ} {u' : User W V' V' ℝ} (A : V →ₗ[ℝ] V') (b : V') {γ : V → V'}
    (hγ : ∀ v h, ⟪γ v, A h⟫_ℝ = ⟪v, h⟫_ℝ) {f : V → ℝ} {g : V → V} {s : V → V} {f' : V' → ℝ} {g' : V' → V'} {s' : V' → V'}
    {rule : Rule} {tol : ℝ} (hu : Exact u f g s rule tol) (hu' : Exact u' f' g' s' rule tol)
    (hf : ∀ x, f' (A x + b) = f x) (hg : ∀ x, g' (A x + b) = γ (g x)) (hs : ∀ v, s' (γ v) = A (s v) + b)
    (hw : SameWorld u u' (fun x => A x + b) γ) (m fuel : Nat) (w : W) (x : V) :
    optimize u' m fuel w (A x + b) = (optimize u m fuel w x).map (Prod.map id (St.image fun x => A x + b)) := by
  refine optimize_image (φ := fun x => A x + b) (γ := γ) ⟨?_, ?_, ?_, ?_, ?_, ?_, ?_, ?_, hw.maxE⟩ m fuel w x
  · intro w x
    refine Prod.ext (hw.evalGrad w x) ?_
    rw [hu'.evalGrad, hu.evalGrad, hf, hg]
  · intro w v
    exact Prod.ext (hw.lmo w v) (by rw [hu'.lmo, hu.lmo, hs])
  · intro w x y i
    refine Prod.ext (hw.update w x y i) ?_
    rw [hu'.update, hu.update]
    exact rule_affine A b hγ hg rule x y i
  · intro x y v
    rw [Bool.eq_iff_iff, hu'.within, hu.within]
    have e : A x + b - (A y + b) = A (x - y) := by rw [map_sub]; abel
    rw [e, real_inner_comm, hγ, real_inner_comm]
  · intro w x
    exact Prod.ext (hw.begin_ w x) (by rw [hu'.begin_, hu.begin_])
  · intro w x o v
    exact Prod.ext (hw.cbEval w x o v).1 (Prod.ext (by rw [hu'.cbEval, hu.cbEval]) (hw.cbEval w x o v).2)
  · intro w x
    exact Prod.ext (hw.cbStep w x).1 (Prod.ext (by rw [hu'.cbStep, hu.cbStep]) (hw.cbStep w x).2)
  · intro w x
    exact Prod.ext (hw.end_ w x) (by rw [hu'.end_, hu.end_])

/-! ### The transported problem -/

/-- **C288** For an invertible change of coordinates the objective of `C288_affine` is the old one read in the new coordinates,
the gradient given to Frank-Wolfe is its gradient, and the solver is a linear solver for the image of the feasible set. -/
theorem C288_transported (A : V ≃L[ℝ] V') (b : V') (γ : V ≃ V') (hγ : ∀ v h, ⟪γ v, A h⟫_ℝ = ⟪v, h⟫_ℝ) {f : V → ℝ} {g : V → V}
    (hg : IsGrad f g) {s : V → V} {C : Set V} (hs : ∀ v, s v ∈ C ∧ ∀ z ∈ C, ⟪v, s v⟫_ℝ ≤ ⟪v, z⟫_ℝ) :
    IsGrad (fun y => f (A.symm (y - b))) (fun y => γ (g (A.symm (y - b)))) ∧
      ∀ v', A (s (γ.symm v')) + b ∈ (fun x => A x + b) '' C ∧
        ∀ z ∈ (fun x => A x + b) '' C, ⟪v', A (s (γ.symm v')) + b⟫_ℝ ≤ ⟪v', z⟫_ℝ := by
  constructor
  · intro y
    have h1 : HasFDerivAt (fun y : V' => A.symm (y - b)) (A.symm : V' →L[ℝ] V) y :=
      ((A.symm : V' →L[ℝ] V).hasFDerivAt).comp _ ((hasFDerivAt_id _).sub_const b)
    have h2 := HasFDerivAt.comp (g := f) (f := fun y : V' => A.symm (y - b)) y (hg (A.symm (y - b))) h1
    refine h2.congr_fderiv ?_
    ext v
    have := hγ (g (A.symm (y - b))) (A.symm v)
    rw [A.apply_symm_apply] at this
    simp only [ContinuousLinearMap.comp_apply, innerSL_apply_apply]
    exact this.symm
  · intro v'
    refine ⟨⟨_, (hs _).1, rfl⟩, ?_⟩
    rintro _ ⟨z, hz, rfl⟩
    have h1 := (hs (γ.symm v')).2 z hz
    rw [← hγ, ← hγ, γ.apply_symm_apply] at h1
    simp only [inner_add_right]
    linarith

/-- The user that does nothing but compute. -/
noncomputable def plain (f : V → ℝ) (g : V → V) (s : V → V) (rule : Rule) (tol : ℝ) : User Unit V V ℝ where
  evalGrad := fun _ x => ((), f x, g x)
  lmo := fun _ v => ((), s v)
  update := fun _ x y i => ((), rule.point g x y i)
  within := fun x y v => decide (|⟪x - y, v⟫_ℝ| < tol)
  cbBegin := fun _ x => ((), x)
  cbEval := fun _ _ _ v => ((), v, false)
  cbStep := fun _ x => ((), x, false)
  cbEnd := fun _ x => ((), x)
  maxE := 0

theorem plain_exact (f : V → ℝ) (g : V → V) (s : V → V) (rule : Rule) (tol : ℝ) : Exact (plain f g s rule tol) f g s rule tol :=
  ⟨fun _ _ => rfl, fun _ _ => rfl, fun _ _ _ _ => rfl, fun _ _ _ => by simp [plain], fun _ _ => rfl, fun _ _ _ _ => rfl,
    fun _ _ => rfl, fun _ _ => rfl⟩

/-- **C288** In particular: a run on the transported problem is the image of the run on the original one. -/
theorem C288_runs (A : V ≃L[ℝ] V') (b : V') (γ : V ≃ V') (hγ : ∀ v h, ⟪γ v, A h⟫_ℝ = ⟪v, h⟫_ℝ) (f : V → ℝ) (g s : V → V)
    (rule : Rule) (tol : ℝ) (m fuel : Nat) (x : V) :
    optimize (plain (fun y => f (A.symm (y - b))) (fun y => γ (g (A.symm (y - b)))) (fun v => A (s (γ.symm v)) + b) rule tol)
        m fuel () (A x + b) =
      (optimize (plain f g s rule tol) m fuel () x).map (Prod.map id (St.image fun x => A x + b)) := by
  refine C288_affine (A : V →ₗ[ℝ] V') b (γ := γ) hγ (plain_exact f g s rule tol) (plain_exact _ _ _ rule tol) ?_ ?_ ?_ ?_ m fuel () x
  · intro x; simp
  · intro x; simp
  · intro v; simp
  · exact ⟨fun _ _ => rfl, fun _ _ => rfl, fun _ _ _ _ => rfl, fun _ _ => rfl, fun _ _ _ _ => ⟨rfl, rfl⟩,
      fun _ _ => ⟨rfl, rfl⟩, fun _ _ => rfl, rfl⟩

/-- Gradient descent with exact arithmetic on the line, with the step size 1/2 (`gradient_descent/gradient_descent_impl.hpp:71-105`). -/
def gdLine (f g : ℚ → ℚ) : Gd.Env Unit ℚ ℚ ℚ where
  evalGrad := fun _ x => ((), f x, g x)
  cbBegin := fun _ x => ((), x)
  cbEvalGrad := fun _ _ _ v => ((), v, false)
  cbStep := fun _ x => ((), x, false)
  cbEnd := fun _ x => ((), x)
  move := fun x v => x - 1 / 2 * v
  isBad := fun _ => false
  isClose := fun _ _ => false
  maxVal := 0

/-- **C288** Gradient descent, in contrast, depends on the unit of length: on `x² / 2`, read as `y² / 8` in the coordinate
`y = 2 x`, it moves to other points. -/
theorem C288_gd_refuted : ¬ ∀ (c : ℚ), c ≠ 0 → ∀ (f g : ℚ → ℚ) (m fuel : Nat) (x : ℚ),
    (Gd.optimize (gdLine (fun y => f (y / c)) (fun y => g (y / c) / c)) m fuel () (c * x)).map (fun r => r.x) =
      (Gd.optimize (gdLine f g) m fuel () x).map fun r => c * r.x := by
  intro h
  have h1 := h 2 two_ne_zero (fun x => x ^ 2 / 2) id 2 3 1
  have h2 : (Gd.optimize (gdLine (fun y => (y / 2) ^ 2 / 2) (fun y => id (y / 2) / 2)) 2 3 () (2 * 1)).map (fun r => r.x) = some (7 / 4) ∧
      ((Gd.optimize (gdLine (fun x => x ^ 2 / 2) id) 2 3 () 1).map fun r => 2 * r.x) = some 1 := by
    decide +kernel
  rw [h2.1, h2.2] at h1
  exact absurd h1 (by decide +kernel)

/-- Hypotheses of C288: the line with the unit of length changed and the origin moved. -/
example : ∃ (A : ℝ ≃L[ℝ] ℝ) (γ : ℝ ≃ ℝ), (∀ v h, ⟪γ v, A h⟫_ℝ = ⟪v, h⟫_ℝ) ∧ A 1 = 2 := by
  refine ⟨ContinuousLinearEquiv.smulLeft (Units.mk0 (2 : ℝ) two_ne_zero), Equiv.mulLeft₀ (1 / 2) (by norm_num), fun v h => ?_, ?_⟩
  · simp [Units.smul_def]
    ring
  · simp [Units.smul_def]

end Ens.Fw
