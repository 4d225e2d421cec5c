import Verif.Converge.Lbfgs
import Mathlib.Analysis.SpecificLimits.Basic
import Mathlib.Algebra.Polynomial.Derivative

/-
C256, continued: the number of iterations of L-BFGS on strongly convex functions, a run that meets the hypotheses, and the
failure of the gradient test without convexity.
-/

namespace Ens.Converge

open Ens.Lbfgs
open scoped InnerProductSpace

variable {V W : Type} [NormedAddCommGroup V] [InnerProductSpace ℝ V]

variable {c : LbfgsCfg} {f : V → ℝ} {g : V → V} {u : LbfgsCb W V}

/-- An iteration only completes if the gradient norm is not below the tolerance. -/
theorem step_gradient {s s' : LSt W V} (h : LNext c f g u s s') : c.minGradientNorm ≤ ‖s.grad‖ := by
  by_contra hc
  have hg : (lbfgsEnv c f g u).gradSmall s.grad = true := by simpa [lbfgsEnv] using not_le.1 hc
  unfold LNext step at h
  split_ifs at h
  simp only [hg, if_true, reduceCtorEq] at h

theorem reach_bound {μ L : ℝ} (hμ : 0 < μ) (hL : μ ≤ L) (hsc : StronglyConvex f g μ) (hs : LSmooth f g L)
    (hnb : 0 < c.numBasis) (h1 : 0 ≤ c.armijoConstant) (h1' : c.armijoConstant ≤ 1) (h0 : 0 ≤ c.wolfe)
    (h2 : c.wolfe ≤ 1) (hfactr : 0 ≤ c.factr) (hmin : 0 ≤ c.minGradientNorm)
    {mem : (Nat → V) × (Nat → V)} {t0 : Bool} {w : W} {x₀ : V}
    (hclean : CleanRun c f g u (start (lbfgsEnv c f g u) mem t0 w x₀)) {s s' : LSt W V}
    (h : Relation.ReflTransGen (LNext c f g u) (start (lbfgsEnv c f g u) mem t0 w x₀) s) (hn : LNext c f g u s s') :
    c.minGradientNorm ^ 2 ≤ (1 - lbfgsRate c μ L) ^ s.it * (L / μ * ‖g x₀‖ ^ 2) := by
  have hL0 : 0 < L := hμ.trans_le hL
  obtain ⟨hinv, hrate⟩ := clean_reach hμ hL hsc hs hnb h1 h1' h0 h2 hfactr hclean h
  have hg := step_gradient hn
  rw [hinv.grad] at hg
  have hr := lbfgsRate_le_one (c := c) hμ hL hnb h1 h1' h0 h2
  set y := s.x - (1 / L) • g s.x with hy
  have hdesc := hs.descent s.x y
  have e1 : y - s.x = -((1 / L) • g s.x) := by rw [hy]; abel
  rw [e1, inner_neg_right, inner_smul_right, real_inner_self_eq_norm_sq, norm_neg, norm_smul,
    Real.norm_of_nonneg (by positivity)] at hdesc
  have h3 : ‖g s.x‖ ^ 2 / (2 * L) ≤ f s.x - f y := by
    have e2 : L / 2 * (1 / L * ‖g s.x‖) ^ 2 = ‖g s.x‖ ^ 2 / (2 * L) := by field_simp
    have e3 : 1 / L * ‖g s.x‖ ^ 2 = 2 * (‖g s.x‖ ^ 2 / (2 * L)) := by field_simp
    rw [e2, e3] at hdesc
    linarith
  have h4 := hrate y
  have h5 := hsc.gap hμ x₀ y
  have h6 : c.minGradientNorm ^ 2 ≤ ‖g s.x‖ ^ 2 := pow_le_pow_left₀ hmin hg 2
  have h7 : (1 - lbfgsRate c μ L) ^ s.it * (f x₀ - f y) ≤ (1 - lbfgsRate c μ L) ^ s.it * (‖g x₀‖ ^ 2 / (2 * μ)) :=
    mul_le_mul_of_nonneg_left h5 (pow_nonneg (by linarith) _)
  have h8 : ‖g s.x‖ ^ 2 / (2 * L) ≤ (1 - lbfgsRate c μ L) ^ s.it * (‖g x₀‖ ^ 2 / (2 * μ)) := by linarith
  rw [div_le_iff₀ (by positivity)] at h8
  calc c.minGradientNorm ^ 2 ≤ ‖g s.x‖ ^ 2 := h6
    _ ≤ _ := h8
    _ = _ := by field_simp

/-- **C256** The number of iterations of such a run: each further iteration needs
`minGradientNorm² ≤ (1 - κ)^k (L / μ) ‖g(x₀)‖²`. -/
theorem C256_iterations {μ L : ℝ} (hμ : 0 < μ) (hL : μ ≤ L) (hsc : StronglyConvex f g μ) (hs : LSmooth f g L)
    (hnb : 0 < c.numBasis) (h1 : 0 ≤ c.armijoConstant) (h1' : c.armijoConstant ≤ 1) (h0 : 0 ≤ c.wolfe)
    (h2 : c.wolfe ≤ 1) (hfactr : 0 ≤ c.factr) (hmin : 0 ≤ c.minGradientNorm)
    {mem : (Nat → V) × (Nat → V)} {t0 : Bool} {w : W} {x₀ : V}
    (hclean : CleanRun c f g u (start (lbfgsEnv c f g u) mem t0 w x₀)) {fuel : Nat} {e : Exit} {r : LSt W V}
    (h : optimize (lbfgsEnv c f g u) mem t0 fuel w x₀ = some (e, r)) {k : Nat} (hk : k < r.it) :
    c.minGradientNorm ^ 2 ≤ (1 - 2 * μ * (c.armijoConstant * (1 - c.wolfe) / L) *
      ((μ / L) ^ 2 / (2 * (1 + (1 + L / μ) ^ 2)) ^ c.numBasis) ^ 2) ^ k * (L / μ * ‖g x₀‖ ^ 2) := by
  unfold optimize at h
  rw [Option.map_eq_some_iff] at h
  obtain ⟨⟨e, s⟩, hit, heq⟩ := h
  simp only [Prod.mk.injEq] at heq
  obtain ⟨rfl, rfl⟩ := heq
  set s₀ := start (lbfgsEnv c f g u) mem t0 w x₀ with hs₀
  have hpost := iterate_inv
    (fun s => Relation.ReflTransGen (LNext c f g u) s₀ s ∧ ∀ j, j < s.it → c.minGradientNorm ^ 2 ≤
      (1 - lbfgsRate c μ L) ^ j * (L / μ * ‖g x₀‖ ^ 2))
    (fun r : Exit × LSt W V => ∀ j, j < r.2.it → c.minGradientNorm ^ 2 ≤
      (1 - lbfgsRate c μ L) ^ j * (L / μ * ‖g x₀‖ ^ 2)) ?_ ?_ fuel s₀ (e, s)
    ⟨.refl, fun j hj => absurd hj (Nat.not_lt_zero j)⟩ hit
  · exact hpost k hk
  · intro s s' ⟨hr, hj⟩ hn
    refine ⟨hr.tail hn, fun j hlt => ?_⟩
    obtain ⟨-, -, -, -, -, -, -, hit', -⟩ := ((step_cases s).1 s' hn).run
    rw [hit'] at hlt
    rcases Nat.lt_succ_iff_lt_or_eq.1 hlt with h' | rfl
    · exact hj j h'
    · exact reach_bound hμ hL hsc hs hnb h1 h1' h0 h2 hfactr hmin hclean hr hn
  · intro s r ⟨_, hj⟩ hstep j hlt
    rcases (step_cases s).2 r hstep with ⟨-, b, -⟩ | ⟨-, b, -⟩
    · exact hj j (b ▸ hlt)
    · exact hj j (b ▸ hlt)

/-- **C256** Such a run ends by itself, also without a limit on the number of iterations. -/
theorem C256_terminates {μ L : ℝ} (hμ : 0 < μ) (hL : μ ≤ L) (hsc : StronglyConvex f g μ) (hs : LSmooth f g L)
    (hnb : 0 < c.numBasis) (h1 : 0 < c.armijoConstant) (h1' : c.armijoConstant ≤ 1) (h0 : 0 ≤ c.wolfe)
    (h2 : c.wolfe < 1) (hfactr : 0 ≤ c.factr) (hmin : 0 < c.minGradientNorm)
    {mem : (Nat → V) × (Nat → V)} {t0 : Bool} {w : W} {x₀ : V}
    (hclean : CleanRun c f g u (start (lbfgsEnv c f g u) mem t0 w x₀)) :
    ∃ fuel r, optimize (lbfgsEnv c f g u) mem t0 fuel w x₀ = some r := by
  have hr := lbfgsRate_le_one (c := c) hμ hL hnb h1.le h1' h0 h2.le
  have hr0 := lbfgsRate_pos (c := c) hμ hL h1 h2
  have hlim := (tendsto_pow_atTop_nhds_zero_of_lt_one (r := 1 - lbfgsRate c μ L) (by linarith)
    (by linarith)).mul_const (L / μ * ‖g x₀‖ ^ 2)
  rw [zero_mul] at hlim
  obtain ⟨N, hN⟩ := (hlim.eventually_lt_const (show (0 : ℝ) < c.minGradientNorm ^ 2 by positivity)).exists
  have hq : ∀ s s' : LSt W V, Relation.ReflTransGen (LNext c f g u) (start (lbfgsEnv c f g u) mem t0 w x₀) s →
      LNext c f g u s s' → s.it < N := by
    intro s s' hs1 hs2
    by_contra hc
    have hb := reach_bound hμ hL hsc hs hnb h1.le h1' h0 h2.le hfactr hmin.le hclean hs1 hs2
    have hle : (1 - lbfgsRate c μ L) ^ s.it * (L / μ * ‖g x₀‖ ^ 2) ≤ (1 - lbfgsRate c μ L) ^ N * (L / μ * ‖g x₀‖ ^ 2) := by
      have hL0 : 0 < L := hμ.trans_le hL
      exact mul_le_mul_of_nonneg_right (pow_le_pow_of_le_one (by linarith) (by linarith) (not_lt.1 hc)) (by positivity)
    linarith
  obtain ⟨r, hr'⟩ := iterate_total (step := step (lbfgsEnv c f g u))
    (fun s => Relation.ReflTransGen (LNext c f g u) (start (lbfgsEnv c f g u) mem t0 w x₀) s) (fun s => N + 1 - s.it)
    (fun s s' hs1 hs2 => by
      obtain ⟨-, -, -, -, -, -, -, hit', -⟩ := ((step_cases s).1 s' hs2).run
      have := hq s s' hs1 hs2
      exact ⟨hs1.tail hs2, by omega⟩) (N + 2) (start (lbfgsEnv c f g u) mem t0 w x₀) .refl (by show N + 1 - 0 < _; omega)
  exact ⟨N + 2, _, by unfold optimize; rw [hr']; rfl⟩

/-! ### A run that meets the hypotheses: `x²/2` from `1/2` -/

/-- The default parameters (lbfgs/lbfgs.hpp:52-60), without a limit on the number of iterations. -/
noncomputable def lbfgsDefault : LbfgsCfg where
  numBasis := 10
  maxIterations := 0
  armijoConstant := 1 / 10 ^ 4
  wolfe := 9 / 10
  minGradientNorm := 1 / 10 ^ 6
  factr := 1 / 10 ^ 15
  maxLineSearchTrials := 50
  minStep := 1 / 10 ^ 20
  maxStep := 10 ^ 20
  tol := 1 / 10 ^ 13
  maxVal := 10 ^ 300

/-- Callbacks that do nothing. -/
def noCb : LbfgsCb Unit ℝ := ⟨fun w _ _ _ => (w, false), fun w _ => w, fun w _ => (w, false), fun w _ => w⟩

/-- `x²/2`. -/
noncomputable def halfSq (x : ℝ) : ℝ := x ^ 2 / 2

theorem halfSq_convex : StronglyConvex halfSq (fun x => x) 1 := by
  intro x y
  simp only [halfSq, RCLike.inner_apply, conj_trivial, Real.norm_eq_abs, sq_abs]
  nlinarith

theorem halfSq_search : ∃ t : LS Unit ℝ ℝ,
    searchOf lbfgsDefault halfSq (fun x => x) noCb
      (start (lbfgsEnv lbfgsDefault halfSq (fun x => x) noCb) (fun _ => 0, fun _ => 0) false () (1 / 2)) =
      some (.wolfe, t) ∧ t.step = 1 / 2 ∧ t.bestStep = 1 / 2 ∧ t.grad = 0 := by
  set s := start (lbfgsEnv lbfgsDefault halfSq (fun x => x) noCb) (fun _ => 0, fun _ => 0) false () (1 / 2) with hs
  have hgrad : s.grad = 1 / 2 := rfl
  have hx : s.x = 1 / 2 := rfl
  have hfv : s.fv = halfSq (1 / 2) := rfl
  have hdir : dirOf lbfgsDefault s = -1 := by
    have hsc : scalingFactor lbfgsDefault s.it s.grad s.mem.1 s.mem.2 = 2 := by
      unfold scalingFactor
      rw [if_neg (show ¬ 0 < s.it from Nat.lt_irrefl 0), hgrad, if_pos] <;>
        norm_num [lbfgsDefault, abs_of_pos]
    unfold dirOf
    rw [hsc, hgrad]
    show (-1 : ℝ) • ((2 : ℝ) • (1 / 2 : ℝ)) = -1
    norm_num
  unfold searchOf
  rw [hdir, hgrad, hx, hfv]
  show ∃ t, iterate _ 50 _ = _ ∧ _
  rw [iterate, lsStep_lib, width_lib, if_pos]
  swap
  · show halfSq (1 / 2) + 1 * (1 / 10 ^ 4 * ⟪(1 / 2 : ℝ), -1⟫_ℝ) < halfSq (1 / 2 + (1 : ℝ) • (-1))
    simp only [halfSq, RCLike.inner_apply, conj_trivial, smul_eq_mul]
    norm_num
  simp only
  rw [if_neg]
  swap
  · show ¬ ((1 : ℝ) < 1 / 10 ^ 20 ∨ (10 : ℝ) ^ 20 < 1 ∨ 50 ≤ 0 + 1)
    norm_num
  simp only
  rw [iterate, lsStep_lib, width_lib]
  have e1 : (lsStart (lbfgsEnv lbfgsDefault halfSq (fun x => x) noCb) s.w (halfSq (1 / 2)) (1 / 2) s.terminate).step
      * (0.5 : ℝ) = 1 / 2 := by
    show (1 : ℝ) * 0.5 = 1 / 2
    norm_num
  simp only [e1]
  have e2 : (1 / 2 : ℝ) + (1 / 2 : ℝ) • (-1) = 0 := by norm_num
  rw [e2, if_neg, if_neg, if_neg]
  · refine ⟨_, rfl, rfl, ?_, ?_⟩
    · show (bestOf _ _ _ _).1 = _
      unfold bestOf
      rw [if_pos]
      show halfSq (1 / 2 + (1 / 2 : ℝ) • (-1)) < (bestOf _ _ _ _).2
      rw [e2]
      unfold bestOf
      split_ifs
      · show halfSq 0 < halfSq (1 / 2 + (1 : ℝ) • (-1))
        simp only [halfSq, smul_eq_mul]; norm_num
      · show halfSq 0 < 10 ^ 300
        simp only [halfSq]; norm_num
    · show (1 / 2 : ℝ) + (1 / 2 : ℝ) • (-1) = 0
      exact e2
  · show ¬ (-(9 / 10 : ℝ) * ⟪(1 / 2 : ℝ), -1⟫_ℝ < ⟪(0 : ℝ), -1⟫_ℝ)
    simp only [RCLike.inner_apply, conj_trivial]; norm_num
  · show ¬ (⟪(0 : ℝ), -1⟫_ℝ < (9 / 10 : ℝ) * ⟪(1 / 2 : ℝ), -1⟫_ℝ)
    simp only [RCLike.inner_apply, conj_trivial]; norm_num
  · show ¬ (halfSq (1 / 2) + 1 / 2 * (1 / 10 ^ 4 * ⟪(1 / 2 : ℝ), -1⟫_ℝ) < halfSq 0)
    simp only [halfSq, RCLike.inner_apply, conj_trivial]; norm_num

/-- Non-vacuity of C256: every line search of the run from `1/2` is clean. -/
theorem halfSq_clean : CleanRun lbfgsDefault halfSq (fun x => x) noCb
    (start (lbfgsEnv lbfgsDefault halfSq (fun x => x) noCb) (fun _ => 0, fun _ => 0) false () (1 / 2)) := by
  obtain ⟨t, ht, h1, h2, h3⟩ := halfSq_search
  intro s hs hmove
  rcases hs.cases_head with rfl | ⟨s1, hn, hs1⟩
  · refine ⟨t, ht, h2.trans h1.symm, ?_⟩
    rw [h3]
    show (1 / 10 ^ 13 : ℝ) ≤ ‖(0 : ℝ) - 1 / 2‖ ^ 2
    rw [Real.norm_eq_abs, sq_abs]
    norm_num
  · exfalso
    obtain ⟨e, t', ht', -, -, -, hg, -⟩ := ((step_cases _).1 s1 hn).run
    rw [ht] at ht'
    simp only [Option.some.injEq, Prod.mk.injEq] at ht'
    rw [← ht'.2, h3] at hg
    have hend : step (lbfgsEnv lbfgsDefault halfSq (fun x => x) noCb) s1 =
        .inr (.gradient, { s1 with log := s1.log ++ [s1.fv] }) ∨
        step (lbfgsEnv lbfgsDefault halfSq (fun x => x) noCb) s1 = .inr (.loop, s1) := by
      have hsm : (lbfgsEnv lbfgsDefault halfSq (fun x => x) noCb).gradSmall s1.grad = true := by
        rw [hg]; simp [lbfgsEnv, lbfgsDefault]
      unfold step
      split_ifs
      · exact .inr rfl
      · left; simp only [hsm, if_true]
    have hs2 : s = s1 := by
      rcases hs1.cases_head with rfl | ⟨s2, hn2, -⟩
      · rfl
      · unfold LNext at hn2
        rcases hend with h | h <;> rw [h] at hn2 <;> cases hn2
    subst hs2
    rcases hmove with ⟨s', h⟩ | ⟨r, h⟩
    · unfold LNext at h
      rcases hend with h' | h' <;> rw [h'] at h <;> cases h
    · rcases hend with h' | h' <;> rw [h'] at h <;> cases h

theorem halfSq_smooth : LSmooth halfSq (fun x => x) 1 := by
  refine ⟨fun x => ?_, fun x y => by simp⟩
  have : HasDerivAt (fun x : ℝ => x ^ 2 / 2) x x := by
    have := ((hasDerivAt_id x).pow 2).div_const 2
    refine this.congr_deriv ?_
    simp
  rw [hasDerivAt_iff_hasFDerivAt] at this
  refine this.congr_fderiv ?_
  ext
  simp

example : ∃ fuel e r, optimize (lbfgsEnv lbfgsDefault halfSq (fun x => x) noCb) (fun _ => 0, fun _ => 0) false fuel ()
    (1 / 2) = some (e, r) ∧ ∀ y, halfSq r.x - halfSq y ≤ (1 - 2 * 1 * (1 / 10 ^ 4 * (1 - 9 / 10) / 1) *
      ((1 / 1) ^ 2 / (2 * (1 + (1 + 1 / 1) ^ 2)) ^ 10) ^ 2) ^ r.it * (halfSq (1 / 2) - halfSq y) := by
  obtain ⟨fuel, ⟨e, r⟩, h⟩ := C256_terminates (μ := 1) (L := 1) one_pos le_rfl halfSq_convex halfSq_smooth (by decide)
    (by norm_num [lbfgsDefault]) (by norm_num [lbfgsDefault]) (by norm_num [lbfgsDefault]) (by norm_num [lbfgsDefault])
    (by norm_num [lbfgsDefault]) (by norm_num [lbfgsDefault]) halfSq_clean
  exact ⟨fuel, e, r, h, C256_linear (μ := 1) (L := 1) one_pos le_rfl halfSq_convex halfSq_smooth (by decide)
    (by norm_num [lbfgsDefault]) (by norm_num [lbfgsDefault]) (by norm_num [lbfgsDefault]) (by norm_num [lbfgsDefault])
    (by norm_num [lbfgsDefault]) halfSq_clean h⟩

/-! ### Without convexity -/

open Polynomial in
/-- **C256** (refuted) "When L-BFGS stops because the gradient norm is below `minGradientNorm`, the gradient at the
returned coordinates is that small": on the polynomial `-x - 5/2 x² + 17 x³ - 26 x⁴ + 12 x⁵` from 0 the line search tries
1 (slope 1) and then 1/2 (slope 0, larger value); it moves to 1 and keeps the gradient 0. -/
theorem C256_stationary_refuted :
    ¬ ∀ (P : ℚ[X]) (fuel : Nat) (x : ℚ) (s : St Unit ℚ ℚ ℚ ((Nat → ℚ) × (Nat → ℚ))),
      optimize (scalarEnv (fun x => P.eval x) (fun x => P.derivative.eval x) 50 10000 false) mem0 false fuel () x =
        some (.gradient, s) → |P.derivative.eval s.x| < 1 / 10 ^ 6 := by
  intro h
  have e1 : (fun x : ℚ => (-X - C (5 / 2) * X ^ 2 + C 17 * X ^ 3 - C 26 * X ^ 4 + C 12 * X ^ 5 : ℚ[X]).eval x) =
      fun x => -x - 5 / 2 * x ^ 2 + 17 * x ^ 3 - 26 * x ^ 4 + 12 * x ^ 5 := by
    funext x; simp
  have e2 : (fun x : ℚ => (derivative (-X - C (5 / 2) * X ^ 2 + C 17 * X ^ 3 - C 26 * X ^ 4 + C 12 * X ^ 5 : ℚ[X])).eval x) =
      fun x => -1 - 5 * x + 51 * x ^ 2 - 104 * x ^ 3 + 60 * x ^ 4 := by
    funext x; simp [derivative_X_pow]; ring
  have h' := h (-X - C (5 / 2) * X ^ 2 + C 17 * X ^ 3 - C 26 * X ^ 4 + C 12 * X ^ 5) 5 0
  rw [e1, e2] at h'
  have hv : ((optimize (scalarEnv (fun x => -x - 5 / 2 * x ^ 2 + 17 * x ^ 3 - 26 * x ^ 4 + 12 * x ^ 5)
      (fun x => -1 - 5 * x + 51 * x ^ 2 - 104 * x ^ 3 + 60 * x ^ 4) 50 10000 false) mem0 false 5 () 0).map fun r =>
      (r.1, r.2.x)) = some (.gradient, 1) := by decide +kernel
  rw [Option.map_eq_some_iff] at hv
  obtain ⟨⟨e, s⟩, hs, hv⟩ := hv
  simp only [Prod.mk.injEq] at hv
  obtain ⟨rfl, hx⟩ := hv
  have := h' s hs
  rw [hx, congrFun e2 1] at this
  norm_num at this

end Ens.Converge
