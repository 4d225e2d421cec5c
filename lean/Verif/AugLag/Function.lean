import Mathlib.Analysis.Calculus.Deriv.Pow
import Mathlib.Analysis.Calculus.FDeriv.Mul
import Mathlib.Tactic.Module
import Mathlib.Tactic.Ring
import Mathlib.Tactic.Linarith
import Verif.Analysis.Smooth

/-
`AugLagrangianFunction::Evaluate` and `Gradient` (`aug_lagrangian/aug_lagrangian_function_impl.hpp:50-96`) over the reals.
Properties C50, C125.
-/

namespace Ens.AugLag

variable {V : Type} [NormedAddCommGroup V] [InnerProductSpace ℝ V]

/-- A constrained function with the gradients it reports. -/
structure Fn (V : Type) where
  numConstraints : Nat
  f : V → ℝ
  g : V → V
  c : Nat → V → ℝ
  gc : Nat → V → V

/-- `Evaluate`. -/
noncomputable def evaluate (p : Fn V) (lam : Nat → ℝ) (sigma : ℝ) (x : V) : ℝ :=
  (List.range p.numConstraints).foldl (fun o i => o + ((-lam i) * p.c i x + sigma * p.c i x ^ 2 / 2)) (p.f x)

/-- `Gradient`. -/
noncomputable def gradient (p : Fn V) (lam : Nat → ℝ) (sigma : ℝ) (x : V) : V :=
  (List.range p.numConstraints).foldl (fun a i => a + (-lam i + sigma * p.c i x) • p.gc i x) (p.g x)

/-- **C50** If the reported gradients are the derivatives of the objective and of each constraint, `Gradient` is the
derivative of `Evaluate`, for all multipliers, penalty parameters and points. -/
theorem C50_gradient {p : Fn V} (hf : IsGrad p.f p.g) (hc : ∀ i < p.numConstraints, IsGrad (p.c i) (p.gc i)) (lam : Nat → ℝ)
    (sigma : ℝ) : IsGrad (evaluate p lam sigma) (gradient p lam sigma) := by
  have key : ∀ l : List Nat, (∀ i ∈ l, IsGrad (p.c i) (p.gc i)) → ∀ (F : V → ℝ) (G : V → V), IsGrad F G →
      IsGrad (fun x => l.foldl (fun o i => o + ((-lam i) * p.c i x + sigma * p.c i x ^ 2 / 2)) (F x))
        (fun x => l.foldl (fun a i => a + (-lam i + sigma * p.c i x) • p.gc i x) (G x)) := by
    intro l
    induction l with
    | nil => intro _ F G h; exact h
    | cons i l ih =>
      intro hl F G h
      simp only [List.foldl_cons]
      refine ih (fun j hj => hl j (List.mem_cons_of_mem _ hj))
        (fun x => F x + ((-lam i) * p.c i x + sigma * p.c i x ^ 2 / 2)) (fun x => G x + (-lam i + sigma * p.c i x) • p.gc i x) ?_
      intro x
      have h1 := h x
      have h2 := hl i (List.mem_cons_self ..) x
      have h3 := (h2.const_mul (-lam i)).add (((h2.pow 2).const_mul sigma).mul_const (1 / 2))
      have h4 := h1.add h3
      have e1 : (fun x => F x + ((-lam i) * p.c i x + sigma * p.c i x ^ 2 / 2)) =
          (F + ((fun x => -lam i * p.c i x) + fun x => sigma * p.c i x ^ 2 * (1 / 2))) := by
        funext x
        simp only [Pi.add_apply]
        ring
      rw [e1]
      convert! h4 using 1
      ext d
      simp [inner_add_left, inner_smul_left]
      ring
  exact key _ (fun i hi => hc i (List.mem_range.1 hi)) p.f p.g hf

theorem foldl_add {M : Type} [AddCommMonoid M] (t : Nat → M) : ∀ (l : List Nat) (a : M),
    l.foldl (fun o i => o + t i) a = a + (l.map t).sum
  | [], a => by simp
  | i :: l, a => by rw [List.foldl_cons, foldl_add t l, List.map_cons, List.sum_cons]; rw [add_assoc]

/-- The Lagrangian's gradient. -/
noncomputable def lagrangianGrad (p : Fn V) (lam : Nat → ℝ) (x : V) : V :=
  p.g x - ((List.range p.numConstraints).map fun i => lam i • p.gc i x).sum

/-- **C125** First-order estimates: the multiplier update `lambda - sigma c(x)` makes the gradient of the Lagrangian at
`x` equal to the gradient of the augmented Lagrangian that the inner solver made small. -/
theorem C125_multipliers (p : Fn V) (lam : Nat → ℝ) (sigma : ℝ) (x : V) :
    lagrangianGrad p (fun i => lam i - sigma * p.c i x) x = gradient p lam sigma x := by
  unfold lagrangianGrad gradient
  rw [foldl_add]
  generalize List.range p.numConstraints = l
  rw [sub_eq_add_neg]
  congr 1
  induction l with
  | nil => simp
  | cons i l ih =>
    simp only [List.map_cons, List.sum_cons, neg_add]
    rw [ih]
    congr 1
    module

/-- Value of the augmented Lagrangian as a sum. -/
theorem evaluate_eq (p : Fn V) (lam : Nat → ℝ) (sigma : ℝ) (x : V) :
    evaluate p lam sigma x = p.f x - ((List.range p.numConstraints).map fun i => lam i * p.c i x).sum +
      sigma / 2 * ((List.range p.numConstraints).map fun i => p.c i x ^ 2).sum := by
  unfold evaluate
  rw [foldl_add]
  generalize List.range p.numConstraints = l
  rw [sub_add, sub_eq_add_neg]
  congr 1
  induction l with
  | nil => simp
  | cons i l ih =>
    simp only [List.map_cons, List.sum_cons]
    rw [ih]; ring

/-- **C125** Exactness: a point where the augmented Lagrangian is within `eps` of its minimum over the feasible points
has an objective no larger than that of any feasible point, up to `eps` and a term that vanishes with the constraint
violation; in particular a feasible minimiser of the augmented Lagrangian solves the constrained problem. -/
theorem C125_exact {p : Fn V} {lam : Nat → ℝ} {sigma eps : ℝ} {x : V}
    (hx : ∀ y, (∀ i < p.numConstraints, p.c i y = 0) → evaluate p lam sigma x ≤ evaluate p lam sigma y + eps) {y : V}
    (hy : ∀ i < p.numConstraints, p.c i y = 0) :
    p.f x ≤ p.f y + eps + ((List.range p.numConstraints).map fun i => lam i * p.c i x).sum -
        sigma / 2 * ((List.range p.numConstraints).map fun i => p.c i x ^ 2).sum ∧
      ((∀ i < p.numConstraints, p.c i x = 0) → p.f x ≤ p.f y + eps) := by
  have hz : ∀ (z : V), (∀ i < p.numConstraints, p.c i z = 0) → evaluate p lam sigma z = p.f z := by
    intro z hz
    rw [evaluate_eq]
    have h1 : (List.range p.numConstraints).map (fun i => lam i * p.c i z) = (List.range p.numConstraints).map fun _ => 0 := by
      apply List.map_congr_left
      intro i hi
      rw [hz i (List.mem_range.1 hi), mul_zero]
    have h2 : (List.range p.numConstraints).map (fun i => p.c i z ^ 2) = (List.range p.numConstraints).map fun _ => (0 : ℝ) := by
      apply List.map_congr_left
      intro i hi
      rw [hz i (List.mem_range.1 hi)]; norm_num
    rw [h1, h2]
    simp
  have h := hx y hy
  rw [hz y hy] at h
  refine ⟨?_, fun h0 => ?_⟩
  · rw [evaluate_eq] at h; linarith
  · rw [hz x h0] at h; exact h

/-- `f(x) = x^2` subject to `x = 1`. -/
noncomputable def demo : Fn ℝ := ⟨1, fun x => x ^ 2, fun x => 2 * x, fun _ x => x - 1, fun _ _ => 1⟩

/-- The hypotheses of `C50_gradient` hold for it. -/
example : IsGrad (evaluate demo (fun _ => 3) 10) (gradient demo (fun _ => 3) 10) := by
  apply C50_gradient
  · intro x
    have := (hasDerivAt_pow 2 x).hasFDerivAt
    convert! this using 1
    ext
    simp [demo]
  · intro i _ x
    have := ((hasDerivAt_id x).sub_const 1).hasFDerivAt
    convert! this using 1

/-- With the multiplier 2 the minimiser of the augmented Lagrangian is feasible. -/
example : ∀ y, evaluate demo (fun _ => 2) 10 1 ≤ evaluate demo (fun _ => 2) 10 y + 0 := by
  intro y
  simp [evaluate, demo]
  nlinarith [sq_nonneg (y - 1)]

end Ens.AugLag
