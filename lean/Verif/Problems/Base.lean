import Mathlib.Analysis.Calculus.FDeriv.Add
import Mathlib.Analysis.Calculus.FDeriv.Pi
import Mathlib.Analysis.Calculus.FDeriv.Mul
import Mathlib.Analysis.Calculus.Deriv.Pi
import Mathlib.Analysis.Calculus.Deriv.Comp

/-
What it means that `Gradient` is the derivative of `Evaluate`, for problems over `ι → ℝ` (`ι` is `Fin n`, or pairs of row and column).
-/

namespace Ens.Problems

open Function

variable {n : Nat} {ι : Type} [Fintype ι]

/-- `g` is the gradient of `f` at `x`: `f` is (Fréchet) differentiable there and its derivative is `v ↦ ∑ g i * v i`. -/
def GradAt (f : (ι → ℝ) → ℝ) (g : ι → ℝ) (x : ι → ℝ) : Prop :=
  HasFDerivAt f (∑ i, g i • (ContinuousLinearMap.proj i : (ι → ℝ) →L[ℝ] ℝ)) x

/-- A documented minimum: the point attains the value, and no point has a smaller one. -/
def MinAt (f : (Fin n → ℝ) → ℝ) (x : Fin n → ℝ) (v : ℝ) : Prop := f x = v ∧ ∀ y, v ≤ f y

theorem GradAt.plus {f f' : (ι → ℝ) → ℝ} {g g' x : ι → ℝ} (h : GradAt f g x) (h' : GradAt f' g' x) :
    GradAt (fun y => f y + f' y) (fun i => g i + g' i) x := by
  refine (HasFDerivAt.add (show HasFDerivAt _ _ _ from h) (show HasFDerivAt _ _ _ from h')).congr_fderiv ?_
  simp only [add_smul, Finset.sum_add_distrib]

theorem GradAt.total {κ : Type} {s : Finset κ} {f : κ → (ι → ℝ) → ℝ} {g : κ → ι → ℝ} {x : ι → ℝ}
    (h : ∀ a ∈ s, GradAt (f a) (g a) x) : GradAt (fun y => ∑ a ∈ s, f a y) (fun i => ∑ a ∈ s, g a i) x := by
  refine (HasFDerivAt.fun_sum fun a ha => (show HasFDerivAt _ _ _ from h a ha)).congr_fderiv ?_
  simp only [Finset.sum_smul]
  exact Finset.sum_comm

theorem GradAt.comp {f : (ι → ℝ) → ℝ} {g x : ι → ℝ} {h : ℝ → ℝ} {h' : ℝ} (hh : HasDerivAt h h' (f x))
    (hf : GradAt f g x) : GradAt (fun y => h (f y)) (fun i => h' * g i) x := by
  refine (hh.comp_hasFDerivAt x (show HasFDerivAt _ _ _ from hf)).congr_fderiv ?_
  simp only [Finset.smul_sum, smul_smul]

theorem GradAt.smul {f : (ι → ℝ) → ℝ} {g x : ι → ℝ} (c : ℝ) (hf : GradAt f g x) :
    GradAt (fun y => c * f y) (fun i => c * g i) x := by
  refine ((show HasFDerivAt _ _ _ from hf).const_smul c).congr_fderiv ?_
  simp only [Finset.smul_sum, smul_smul]

theorem GradAt.affine (c : ℝ) (a x : ι → ℝ) : GradAt (fun y => c + ∑ i, a i * y i) a x := by
  have h : HasFDerivAt (fun y : ι → ℝ => (∑ i, a i • (ContinuousLinearMap.proj i : (ι → ℝ) →L[ℝ] ℝ)) y)
      (∑ i, a i • (ContinuousLinearMap.proj i : (ι → ℝ) →L[ℝ] ℝ)) x := ContinuousLinearMap.hasFDerivAt _
  refine (h.const_add c).congr_of_eventuallyEq (Filter.Eventually.of_forall fun y => ?_)
  simp

theorem GradAt.congr {f f' : (ι → ℝ) → ℝ} {g g' x : ι → ℝ} (h : GradAt f g x) (hf : ∀ y, f' y = f y) (hg : ∀ i, g' i = g i) :
    GradAt f' g' x := by
  obtain rfl : f' = f := funext hf
  obtain rfl : g' = g := funext hg
  exact h

theorem GradAt.times {f f' : (ι → ℝ) → ℝ} {g g' x : ι → ℝ} (h : GradAt f g x) (h' : GradAt f' g' x) :
    GradAt (fun y => f y * f' y) (fun i => f x * g' i + f' x * g i) x := by
  refine (HasFDerivAt.mul (show HasFDerivAt _ _ _ from h) (show HasFDerivAt _ _ _ from h')).congr_fderiv ?_
  simp only [add_smul, Finset.sum_add_distrib, Finset.smul_sum, smul_smul]

variable [DecidableEq ι]

theorem GradAt.proj (k : ι) (x : ι → ℝ) : GradAt (fun y => y k) (fun i => if i = k then 1 else 0) x :=
  (GradAt.affine 0 (fun i => if i = k then 1 else 0) x).congr (fun y => by simp) fun _ => rfl

theorem GradAt.of_partials {f : (ι → ℝ) → ℝ} {g x : ι → ℝ} (hd : DifferentiableAt ℝ f x)
    (hp : ∀ i, HasDerivAt (fun t => f (update x i t)) (g i) (x i)) : GradAt f g x := by
  refine hd.hasFDerivAt.congr_fderiv ?_
  refine ContinuousLinearMap.ext fun v => ?_
  have key : ∀ i, fderiv ℝ f x (Pi.single i 1) = g i := by
    intro i
    have h1 : HasFDerivAt f (fderiv ℝ f x) (update x i (x i)) := by
      rw [update_eq_self]; exact hd.hasFDerivAt
    have h2 := h1.comp_hasDerivAt (x i) (hasDerivAt_update x i (x i))
    exact h2.unique (hp i)
  have hv : v = ∑ i, v i • (Pi.single i 1 : ι → ℝ) := by
    funext j
    rw [Finset.sum_apply]
    simp [Pi.single_apply]
  conv_lhs => rw [hv]
  simp [key, mul_comm]

theorem GradAt.unique {f : (ι → ℝ) → ℝ} {g g' x : ι → ℝ} (h : GradAt f g x) (h' : GradAt f g' x) : g = g' := by
  have := HasFDerivAt.unique (show HasFDerivAt _ _ _ from h) (show HasFDerivAt _ _ _ from h')
  funext i
  have h3 := congrArg (fun L : (ι → ℝ) →L[ℝ] ℝ => L (Pi.single i 1)) this
  simpa [Pi.single_apply] using h3

theorem GradAt.partial {f : (ι → ℝ) → ℝ} {g x : ι → ℝ} (h : GradAt f g x) (i : ι) :
    HasDerivAt (fun t => f (update x i t)) (g i) (x i) := by
  have h1 : HasFDerivAt f (∑ j, g j • (ContinuousLinearMap.proj j : (ι → ℝ) →L[ℝ] ℝ)) (update x i (x i)) := by
    rw [update_eq_self]; exact h
  have h2 := h1.comp_hasDerivAt (x i) (hasDerivAt_update x i (x i))
  refine h2.congr_deriv ?_
  simp [Pi.single_apply]

end Ens.Problems
