import Mathlib.Analysis.InnerProductSpace.Calculus
import Mathlib.Analysis.Calculus.MeanValue
import Mathlib.Analysis.Calculus.Deriv.MeanValue
import Mathlib.Analysis.Convex.Deriv

/-
Standard facts on smooth and convex functions on a real inner product space, used by the
convergence properties (C16, C46, ...).  Nothing here is about ensmallen.
-/

namespace Ens

variable {V : Type*} [NormedAddCommGroup V] [InnerProductSpace ℝ V]

/-- `g` is the gradient of `f` everywhere. -/
def IsGrad (f : V → ℝ) (g : V → V) : Prop := ∀ x, HasFDerivAt f (innerSL ℝ (g x)) x

/-- `f` is `L`-smooth: its gradient `g` is Lipschitz with constant `L`. -/
structure LSmooth (f : V → ℝ) (g : V → V) (L : ℝ) : Prop where
  grad : IsGrad f g
  lip : ∀ x y, ‖g x - g y‖ ≤ L * ‖x - y‖

theorem IsGrad.hasDerivAt_line {f : V → ℝ} {g : V → V} (h : IsGrad f g) (x d : V) (t : ℝ) :
    HasDerivAt (fun t : ℝ => f (x + t • d)) (inner ℝ (g (x + t • d)) d) t := by
  have h1 : HasDerivAt (fun t : ℝ => x + t • d) d t := by
    simpa using ((hasDerivAt_id t).smul_const d).const_add x
  have h2 := (h (x + t • d)).comp_hasDerivAt t h1
  rw [innerSL_apply_apply] at h2
  exact h2

/-- The descent lemma. -/
theorem LSmooth.descent {f : V → ℝ} {g : V → V} {L : ℝ} (h : LSmooth f g L) (x y : V) :
    f y ≤ f x + inner ℝ (g x) (y - x) + L / 2 * ‖y - x‖ ^ 2 := by
  set d := y - x with hd
  let ψ : ℝ → ℝ := fun t => f (x + t • d) - t * inner ℝ (g x) d - L / 2 * t ^ 2 * ‖d‖ ^ 2
  have hder : ∀ t, HasDerivAt ψ
      (inner ℝ (g (x + t • d)) d - inner ℝ (g x) d - L * t * ‖d‖ ^ 2) t := by
    intro t
    have h1 := h.grad.hasDerivAt_line x d t
    have h2 : HasDerivAt (fun t : ℝ => t * inner ℝ (g x) d) (inner ℝ (g x) d) t := by
      simpa using (hasDerivAt_id t).mul_const (inner ℝ (g x) d)
    have h3 : HasDerivAt (fun t : ℝ => L / 2 * t ^ 2 * ‖d‖ ^ 2) (L * t * ‖d‖ ^ 2) t := by
      have := (((hasDerivAt_id t).pow 2).const_mul (L / 2)).mul_const (‖d‖ ^ 2)
      refine this.congr_deriv ?_
      simp only [Nat.cast_ofNat, id, mul_one, Nat.add_one_sub_one, pow_one]
      ring
    exact (h1.sub h2).sub h3
  have hanti : AntitoneOn ψ (Set.Icc 0 1) := by
    apply antitoneOn_of_deriv_nonpos (convex_Icc 0 1)
    · exact fun t _ => (hder t).continuousAt.continuousWithinAt
    · exact fun t _ => (hder t).differentiableAt.differentiableWithinAt
    · intro t ht
      rw [interior_Icc] at ht
      rw [(hder t).deriv, ← inner_sub_left]
      have h1 : inner ℝ (g (x + t • d) - g x) d ≤ ‖g (x + t • d) - g x‖ * ‖d‖ :=
        real_inner_le_norm _ _
      have h2 : ‖g (x + t • d) - g x‖ ≤ L * (t * ‖d‖) := by
        have := h.lip (x + t • d) x
        rwa [add_sub_cancel_left, norm_smul, Real.norm_of_nonneg ht.1.le] at this
      have h3 : ‖g (x + t • d) - g x‖ * ‖d‖ ≤ L * (t * ‖d‖) * ‖d‖ :=
        mul_le_mul_of_nonneg_right h2 (norm_nonneg _)
      nlinarith
  have := hanti (by simp : (0 : ℝ) ∈ Set.Icc 0 1) (by simp : (1 : ℝ) ∈ Set.Icc 0 1) zero_le_one
  simp only [ψ, one_smul, zero_smul, add_zero] at this
  rw [hd, add_sub_cancel] at this
  rw [← hd] at this
  linarith

/-- First-order characterisation of convexity. -/
theorem convex_first_order {f : V → ℝ} {g : V → V} (hg : IsGrad f g)
    (hc : ConvexOn ℝ Set.univ f) (x y : V) : f x + inner ℝ (g x) (y - x) ≤ f y := by
  have hφ : ConvexOn ℝ Set.univ (fun t : ℝ => f (x + t • (y - x))) := by
    have h1 := hc.comp_affineMap (AffineMap.lineMap x y : ℝ →ᵃ[ℝ] V)
    simp only [Set.preimage_univ] at h1
    have h2 : (fun t : ℝ => f (x + t • (y - x))) = f ∘ (AffineMap.lineMap x y : ℝ →ᵃ[ℝ] V) := by
      funext t
      simp [AffineMap.lineMap_apply, add_comm]
    rw [h2]
    exact h1
  have hd := hg.hasDerivAt_line x (y - x) 0
  have := hφ.le_slope_of_hasDerivAt (Set.mem_univ 0) (Set.mem_univ 1) zero_lt_one hd
  simp [slope] at this
  linarith

end Ens
