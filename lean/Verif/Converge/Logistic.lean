import Mathlib.Analysis.Calculus.MeanValue
import Verif.Converge.Gd
import Verif.Converge.RegretProps
import Verif.Converge.Svrg
import Verif.Problems.LogisticProps

/-
C278: training a logistic regression model with gradient descent, SGD and SVRG: the objective of
`LogisticRegressionFunction` meets the assumptions of the convergence theorems, with explicit constants.
-/

namespace Ens.Problems.Logistic

open Real Ens.Converge

variable {d n : Nat}

/-- The features of a point, the constant one first, as a vector. -/
noncomputable def fv (x : Fin d → ℝ) : Vec (d + 1) := WithLp.toLp 2 (feat x)

theorem norm_fv (x : Fin d → ℝ) : ‖fv x‖ ^ 2 = 1 + ∑ j, x j ^ 2 := by
  rw [EuclideanSpace.norm_sq_eq, Fin.sum_univ_succ]
  simp [fv, feat]

theorem margin_inner (p : Vec (d + 1)) (x : Fin d → ℝ) : margin p.ofLp x = inner ℝ (fv x) p := by
  rw [margin_eq, zero_add, PiLp.inner_apply]
  exact Finset.sum_congr rfl fun j _ => by simp [fv, mul_comm]

/-- The parameters without the intercept. -/
noncomputable def tailV (p : Vec (d + 1)) : Vec (d + 1) := WithLp.toLp 2 (Fin.cons 0 fun j => p j.succ)

theorem norm_tailV_le (p : Vec (d + 1)) : ‖tailV p‖ ≤ ‖p‖ := by
  refine (sq_le_sq₀ (norm_nonneg _) (norm_nonneg _)).1 ?_
  rw [EuclideanSpace.norm_sq_eq, EuclideanSpace.norm_sq_eq, Fin.sum_univ_succ, Fin.sum_univ_succ]
  simp [tailV]
  positivity

theorem tailV_sub (p q : Vec (d + 1)) : tailV (p - q) = tailV p - tailV q := by
  ext k
  induction k using Fin.cases <;> simp [tailV]

/-- A part of the objective: a multiple of the penalty, and some of the points. -/
noncomputable def part (D : Logistic d n) (c : ℝ) (s : Finset (Fin n)) (p : Vec (d + 1)) : ℝ :=
  c * tailDot p.ofLp - ∑ i ∈ s, D.logLik p.ofLp i

noncomputable def partGrad (D : Logistic d n) (c : ℝ) (s : Finset (Fin n)) (p : Vec (d + 1)) : Vec (d + 1) :=
  (2 * c) • tailV p + ∑ i ∈ s, (sigm (margin p.ofLp (D.X i)) - D.y i) • fv (D.X i)

theorem partGrad_apply (D : Logistic d n) (c : ℝ) (s : Finset (Fin n)) (p : Vec (d + 1)) :
    (partGrad D c s p).ofLp = Fin.cons (-∑ i ∈ s, ((D.y i : ℝ) - sigm (margin p.ofLp (D.X i))))
        fun j => ∑ i ∈ s, (sigm (margin p.ofLp (D.X i)) - (D.y i : ℝ)) * D.X i j + 2 * c * p j.succ := by
  funext k
  induction k using Fin.cases with
  | zero => simp [partGrad, tailV, fv, feat]
  | succ j => simp [partGrad, tailV, fv, feat]; ring

/-- From the gradient on coordinates to that on Euclidean space. -/
theorem isGrad_of_gradAt {m : Nat} {f : (Fin m → ℝ) → ℝ} {g : (Fin m → ℝ) → Fin m → ℝ} (h : ∀ x, GradAt f (g x) x) :
    IsGrad (fun x : Vec m => f x.ofLp) fun x => WithLp.toLp 2 (g x.ofLp) := by
  intro x
  have h1 : HasFDerivAt f _ ((EuclideanSpace.equiv (Fin m) ℝ) x) := h x.ofLp
  have h2 := h1.comp x (EuclideanSpace.equiv (Fin m) ℝ).hasFDerivAt
  refine h2.congr_fderiv ?_
  ext v
  simp [PiLp.inner_apply, mul_comm, EuclideanSpace.equiv]

theorem sigm_lip (s t : ℝ) : |sigm s - sigm t| ≤ 1 / 4 * |s - t| := by
  have h := Convex.norm_image_sub_le_of_norm_hasDerivWithin_le (f := sigm) (f' := fun t => sigm t * (1 - sigm t)) (C := 1 / 4)
    (s := Set.univ) (x := t) (y := s) (fun x _ => (hasDerivAt_sigm x).hasDerivWithinAt) (fun x _ => by
      have h0 := sigm_pos x
      have h1 := sigm_lt_one x
      rw [Real.norm_of_nonneg (by nlinarith)]
      nlinarith [sq_nonneg (sigm x - 1 / 2)]) convex_univ (Set.mem_univ _) (Set.mem_univ _)
  simpa [Real.norm_eq_abs] using h

theorem part_smooth (D : Logistic d n) (hy : D.Binary) {c : ℝ} (hc : 0 ≤ c) (s : Finset (Fin n)) :
    LSmooth (part D c s) (partGrad D c s) (2 * c + 1 / 4 * ∑ i ∈ s, (1 + ∑ j, D.X i j ^ 2)) := by
  refine ⟨?_, fun p q => ?_⟩
  · have h := isGrad_of_gradAt (fun x => D.grad_part hy x s c)
    intro x
    have := h x
    rw [show partGrad D c s x = WithLp.toLp 2 ((partGrad D c s x).ofLp) from rfl, partGrad_apply]
    exact this
  · have e : partGrad D c s p - partGrad D c s q = (2 * c) • tailV (p - q) +
        ∑ i ∈ s, (sigm (margin p.ofLp (D.X i)) - sigm (margin q.ofLp (D.X i))) • fv (D.X i) := by
      unfold partGrad
      rw [tailV_sub, smul_sub, add_sub_add_comm, ← Finset.sum_sub_distrib]
      congr 1
      exact Finset.sum_congr rfl fun i _ => by rw [← sub_smul]; congr 1; ring
    rw [e, add_mul, mul_assoc (1 / 4 : ℝ), Finset.sum_mul, Finset.mul_sum]
    refine (norm_add_le _ _).trans (add_le_add ?_ ((norm_sum_le _ _).trans (Finset.sum_le_sum fun i _ => ?_)))
    · rw [norm_smul, Real.norm_of_nonneg (by positivity)]
      exact mul_le_mul_of_nonneg_left (norm_tailV_le _) (by positivity)
    · rw [norm_smul, Real.norm_eq_abs, ← norm_fv]
      have h1 := sigm_lip (margin p.ofLp (D.X i)) (margin q.ofLp (D.X i))
      rw [margin_inner, margin_inner, ← inner_sub_right] at h1
      have h2 := abs_real_inner_le_norm (fv (D.X i)) (p - q)
      rw [margin_inner, margin_inner]
      calc _ ≤ 1 / 4 * (‖fv (D.X i)‖ * ‖p - q‖) * ‖fv (D.X i)‖ :=
            mul_le_mul_of_nonneg_right (h1.trans (mul_le_mul_of_nonneg_left h2 (by norm_num))) (norm_nonneg _)
        _ = _ := by ring

/-- Tangents lie below. -/
theorem part_tangent (D : Logistic d n) (hy : D.Binary) {c : ℝ} (hc : 0 ≤ c) (s : Finset (Fin n)) (p q : Vec (d + 1)) :
    part D c s p + inner ℝ (partGrad D c s p) (q - p) + c * ‖tailV (q - p)‖ ^ 2 ≤ part D c s q := by
  have h1 := Finset.sum_le_sum fun i (_ : i ∈ s) => neg_lik_tangent (D.y i) (hy i) (margin p.ofLp (D.X i)) (margin q.ofLp (D.X i))
  rw [Finset.sum_add_distrib, Finset.sum_neg_distrib, Finset.sum_neg_distrib] at h1
  have e1 : inner ℝ (partGrad D c s p) (q - p) = 2 * c * inner ℝ (tailV p) (q - p) +
      ∑ i ∈ s, (sigm (margin p.ofLp (D.X i)) - D.y i) * (margin q.ofLp (D.X i) - margin p.ofLp (D.X i)) := by
    rw [partGrad, inner_add_left, real_inner_smul_left, sum_inner]
    congr 1
    refine Finset.sum_congr rfl fun i _ => ?_
    rw [real_inner_smul_left, inner_sub_right, ← margin_inner, ← margin_inner]
  have e2 : tailDot p.ofLp + 2 * inner ℝ (tailV p) (q - p) + ‖tailV (q - p)‖ ^ 2 = tailDot q.ofLp := by
    rw [tailDot, tailDot, PiLp.inner_apply, EuclideanSpace.norm_sq_eq, Fin.sum_univ_succ, Fin.sum_univ_succ]
    simp only [tailV, Fin.cons_zero, Fin.cons_succ, inner_zero_left, zero_add, norm_zero, Real.norm_eq_abs, sq_abs]
    rw [Finset.mul_sum, ← Finset.sum_add_distrib]
    simp only [ne_eq, OfNat.ofNat_ne_zero, not_false_eq_true, zero_pow, zero_add]
    rw [← Finset.sum_add_distrib]
    refine Finset.sum_congr rfl fun j _ => ?_
    simp
    ring
  have e3 := congrArg (c * ·) e2
  simp only at e3
  unfold part logLik
  rw [e1]
  linarith

theorem part_convex (D : Logistic d n) (hy : D.Binary) {c : ℝ} (hc : 0 ≤ c) (s : Finset (Fin n)) :
    ConvexOn ℝ Set.univ (part D c s) := by
  refine ⟨convex_univ, fun p _ q _ a b ha hb hab => ?_⟩
  have hp := part_tangent D hy hc s (a • p + b • q) p
  have hq := part_tangent D hy hc s (a • p + b • q) q
  have h1 : 0 ≤ c * ‖tailV (p - (a • p + b • q))‖ ^ 2 := by positivity
  have h2 : 0 ≤ c * ‖tailV (q - (a • p + b • q))‖ ^ 2 := by positivity
  have e : a * inner ℝ (partGrad D c s (a • p + b • q)) (p - (a • p + b • q)) +
      b * inner ℝ (partGrad D c s (a • p + b • q)) (q - (a • p + b • q)) = 0 := by
    rw [← real_inner_smul_right, ← real_inner_smul_right, ← inner_add_right]
    have : a • (p - (a • p + b • q)) + b • (q - (a • p + b • q)) = 0 := by
      have hb' : b = 1 - a := by linarith
      subst hb'
      module
    rw [this, inner_zero_right]
  have hp' := mul_le_mul_of_nonneg_left hp ha
  have hq' := mul_le_mul_of_nonneg_left hq hb
  have e1 := congrArg (· * part D c s (a • p + b • q)) hab
  simp only [smul_eq_mul] at e1 ⊢
  nlinarith [mul_nonneg ha h1, mul_nonneg hb h2]

/-! ### The objective -/

/-- `Evaluate` and `Gradient` on Euclidean space. -/
noncomputable def obj (D : Logistic d n) (p : Vec (d + 1)) : ℝ := D.evaluate p.ofLp
noncomputable def objGrad (D : Logistic d n) (p : Vec (d + 1)) : Vec (d + 1) := WithLp.toLp 2 (D.gradient p.ofLp)

theorem obj_eq (D : Logistic d n) : D.obj = part D (D.lam / 2) Finset.univ := by
  funext p
  rw [obj, evaluate, part, show (0.5 : ℝ) * D.lam = D.lam / 2 by norm_num; ring]

theorem objGrad_eq (D : Logistic d n) : D.objGrad = partGrad D (D.lam / 2) Finset.univ := by
  funext p
  rw [show partGrad D (D.lam / 2) Finset.univ p = WithLp.toLp 2 ((partGrad D (D.lam / 2) Finset.univ p).ofLp) from rfl,
    partGrad_apply, objGrad]
  congr 1
  funext k
  induction k using Fin.cases with
  | zero => rfl
  | succ j => simp only [gradient, Fin.cons_succ]; ring

/-- `lambda + 1/4 ∑ (1 + ‖x_i‖²)`. -/
noncomputable def lipC (D : Logistic d n) : ℝ := D.lam + 1 / 4 * ∑ i, (1 + ∑ j, D.X i j ^ 2)

theorem obj_smooth (D : Logistic d n) (hy : D.Binary) (hl : 0 ≤ D.lam) : LSmooth D.obj D.objGrad D.lipC := by
  rw [obj_eq, objGrad_eq, show D.lipC = 2 * (D.lam / 2) + 1 / 4 * ∑ i, (1 + ∑ j, D.X i j ^ 2) by rw [lipC]; ring]
  exact part_smooth D hy (by positivity) _

theorem logLik_nonpos (D : Logistic d n) (hy : D.Binary) (p : Fin (d + 1) → ℝ) (i : Fin n) : D.logLik p i ≤ 0 := by
  refine log_nonpos (lik_pos _ (hy i) _).le ?_
  have h0 := sigm_pos (margin p (D.X i))
  have h1 := sigm_lt_one (margin p (D.X i))
  rcases hy i with h | h <;> rw [h] <;> norm_num <;> linarith

theorem obj_nonneg (D : Logistic d n) (hy : D.Binary) (hl : 0 ≤ D.lam) (p : Vec (d + 1)) : 0 ≤ D.obj p := by
  rw [obj_eq, part]
  have h1 : ∑ i, D.logLik p.ofLp i ≤ 0 := Finset.sum_nonpos fun i _ => D.logLik_nonpos hy _ i
  have h2 : 0 ≤ tailDot p.ofLp := Finset.sum_nonneg fun j _ => mul_self_nonneg _
  have := mul_nonneg (by positivity : 0 ≤ D.lam / 2) h2
  linarith

theorem objGrad_zero (D : Logistic d n) (hy : D.Binary) (hl : 0 ≤ D.lam) {p : Vec (d + 1)} (h : ∀ q, D.obj p ≤ D.obj q) :
    ∑ i, (sigm (margin p.ofLp (D.X i)) - D.y i) = 0 := by
  have h1 : IsLocalMin D.obj p := Filter.Eventually.of_forall h
  have h2 := h1.hasFDerivAt_eq_zero ((D.obj_smooth hy hl).grad p)
  have h3 : inner ℝ (D.objGrad p) (D.objGrad p) = 0 := by
    rw [← innerSL_apply_apply ℝ, h2]; rfl
  have h4 : D.objGrad p = 0 := inner_self_eq_zero.1 h3
  have h5 : (D.objGrad p).ofLp 0 = 0 := by rw [h4]; rfl
  rw [objGrad_eq, partGrad_apply] at h5
  simp only [Fin.cons_zero] at h5
  rw [← Finset.sum_neg_distrib] at h5
  rw [← h5]
  exact Finset.sum_congr rfl fun i _ => by ring

theorem lik_le_one (m : ℝ) : log (sigm m) ≤ m := by
  have h : sigm m ≤ exp m := by
    rw [sigm, div_le_iff₀ (by positivity), mul_add, ← exp_add]
    simp
    positivity
  calc log (sigm m) ≤ log (exp m) := log_le_log (sigm_pos m) h
    _ = m := log_exp m

theorem lik_le_zero (m : ℝ) : log (1 - sigm m) ≤ -m := by
  have h : 1 - sigm m ≤ exp (-m) := by
    rw [sigm, one_sub_div (by positivity), div_le_iff₀ (by positivity)]
    nlinarith [exp_pos (-m), sq_nonneg (exp (-m))]
  calc log (1 - sigm m) ≤ log (exp (-m)) := log_le_log (by linarith [sigm_lt_one m]) h
    _ = -m := log_exp _

theorem margin_split (p : Vec (d + 1)) (x : Fin d → ℝ) : margin p.ofLp x = p.ofLp 0 + inner ℝ (fv x) (tailV p) := by
  rw [margin_inner, PiLp.inner_apply, PiLp.inner_apply, Fin.sum_univ_succ, Fin.sum_univ_succ]
  simp [fv, feat, tailV]

theorem norm_split (p : Vec (d + 1)) : ‖p‖ ^ 2 = p.ofLp 0 ^ 2 + ‖tailV p‖ ^ 2 := by
  rw [EuclideanSpace.norm_sq_eq, EuclideanSpace.norm_sq_eq, Fin.sum_univ_succ, Fin.sum_univ_succ]
  simp [tailV]

theorem tailDot_eq (p : Vec (d + 1)) : tailDot p.ofLp = ‖tailV p‖ ^ 2 := by
  rw [EuclideanSpace.norm_sq_eq, Fin.sum_univ_succ]
  simp [tailV, tailDot]
  exact Finset.sum_congr rfl fun j _ => by ring

/-- With a penalty and both classes present, small objectives are found near the origin only. -/
theorem obj_coercive (D : Logistic d n) (hy : D.Binary) (hl : 0 < D.lam) {i₀ i₁ : Fin n} (h0 : D.y i₀ = 0) (h1 : D.y i₁ = 1) (C : ℝ) :
    ∃ R, ∀ p, D.obj p ≤ C → ‖p‖ ≤ R := by
  set F := ‖fv (D.X i₀)‖ + ‖fv (D.X i₁)‖ with hF
  set T := √(2 * C / D.lam) with hT
  refine ⟨√((C + F * T) ^ 2 + T ^ 2), fun p hp => ?_⟩
  have hsum : ∀ i, -D.logLik p.ofLp i ≤ ∑ i, -D.logLik p.ofLp i :=
    fun i => Finset.single_le_sum (f := fun i => -D.logLik p.ofLp i) (fun k _ => by linarith [D.logLik_nonpos hy p.ofLp k])
      (Finset.mem_univ i)
  have htd : 0 ≤ D.lam / 2 * ‖tailV p‖ ^ 2 := by positivity
  rw [obj_eq, part, tailDot_eq, sub_eq_add_neg, ← Finset.sum_neg_distrib] at hp
  have hs0 : 0 ≤ ∑ i, -D.logLik p.ofLp i := Finset.sum_nonneg fun i _ => by linarith [D.logLik_nonpos hy p.ofLp i]
  have ht : ‖tailV p‖ ≤ T := by
    rw [hT]
    refine Real.le_sqrt_of_sq_le ?_
    rw [le_div_iff₀ hl]
    linarith
  have hT0 : 0 ≤ T := Real.sqrt_nonneg _
  have b0 := hsum i₀
  have b1 := hsum i₁
  have c0 : D.logLik p.ofLp i₀ ≤ -margin p.ofLp (D.X i₀) := by
    have := lik_le_zero (margin p.ofLp (D.X i₀))
    rw [logLik, h0]
    norm_num
    rw [← sub_eq_add_neg]
    exact this
  have c1 : D.logLik p.ofLp i₁ ≤ margin p.ofLp (D.X i₁) := by
    have := lik_le_one (margin p.ofLp (D.X i₁))
    rw [logLik, h1]
    norm_num
    exact this
  rw [margin_split] at c0 c1
  have d0 := (abs_le.1 (abs_real_inner_le_norm (fv (D.X i₀)) (tailV p))).1
  have d1 := (abs_le.1 (abs_real_inner_le_norm (fv (D.X i₁)) (tailV p))).2
  have n0 := norm_nonneg (fv (D.X i₀))
  have n1 := norm_nonneg (fv (D.X i₁))
  have e0 := mul_le_mul_of_nonneg_left ht n0
  have e1 := mul_le_mul_of_nonneg_left ht n1
  have f0 := mul_nonneg n0 hT0
  have f1 := mul_nonneg n1 hT0
  have hFT : F * T = ‖fv (D.X i₀)‖ * T + ‖fv (D.X i₁)‖ * T := by rw [hF]; ring
  have hp0 : |p.ofLp 0| ≤ C + F * T := abs_le.2 ⟨by linarith, by linarith⟩
  refine Real.le_sqrt_of_sq_le ?_
  rw [norm_split, ← sq_abs (p.ofLp 0)]
  exact add_le_add (pow_le_pow_left₀ (abs_nonneg _) hp0 2) (pow_le_pow_left₀ (norm_nonneg _) ht 2)

theorem sigm_strictMono : StrictMono sigm := by
  intro s t h
  unfold sigm
  exact one_div_lt_one_div_of_lt (by positivity) (by linarith [exp_lt_exp.2 (neg_lt_neg h)])

/-- **C278** With a positive `lambda` and at least one point, the objective of `LogisticRegressionFunction` has a minimiser
exactly if both classes occur in the data, and then only one. -/
theorem C278_minimiser (D : Logistic d n) (hy : D.Binary) (hl : 0 < D.lam) (hn : 0 < n) :
    ((∃ p, ∀ q, D.evaluate p ≤ D.evaluate q) ↔ (∃ i, D.y i = 0) ∧ ∃ i, D.y i = 1) ∧
      ∀ p p', (∀ q, D.evaluate p ≤ D.evaluate q) → (∀ q, D.evaluate p' ≤ D.evaluate q) → p = p' := by
  have : Nonempty (Fin n) := ⟨⟨0, hn⟩⟩
  refine ⟨⟨?_, ?_⟩, ?_⟩
  · rintro ⟨p, hp⟩
    have h0 := D.objGrad_zero hy hl.le (p := WithLp.toLp 2 p) fun q => hp q.ofLp
    constructor
    · by_contra hc
      push Not at hc
      have : ∑ i, (sigm (margin p (D.X i)) - D.y i) < 0 := by
        refine Finset.sum_neg (fun i _ => ?_) Finset.univ_nonempty
        rw [(hy i).resolve_left (hc i)]
        push_cast
        linarith [sigm_lt_one (margin p (D.X i))]
      exact absurd h0 this.ne
    · by_contra hc
      push Not at hc
      have : 0 < ∑ i, (sigm (margin p (D.X i)) - D.y i) := by
        refine Finset.sum_pos (fun i _ => ?_) Finset.univ_nonempty
        rw [(hy i).resolve_right (hc i)]
        push_cast
        linarith [sigm_pos (margin p (D.X i))]
      exact absurd h0 this.ne'
  · rintro ⟨⟨i₀, h0⟩, i₁, h1⟩
    obtain ⟨R, hR⟩ := D.obj_coercive hy hl h0 h1 (D.obj 0)
    have hcont : Continuous D.obj := continuous_iff_continuousAt.2 fun x => ((D.obj_smooth hy hl.le).grad x).continuousAt
    have hR0 : (0 : ℝ) ≤ R := by simpa using hR 0 le_rfl
    obtain ⟨p, -, hp⟩ := (isCompact_closedBall (0 : Vec (d + 1)) R).exists_isMinOn ⟨0, by simpa using hR0⟩ hcont.continuousOn
    refine ⟨p.ofLp, fun q => ?_⟩
    show D.obj p ≤ D.obj (WithLp.toLp 2 q)
    by_cases hq : D.obj (WithLp.toLp 2 q) ≤ D.obj 0
    · exact hp (by simpa using hR _ hq)
    · exact (hp (by simpa using hR0)).trans (not_le.1 hq).le
  · intro p p' hp hp'
    have hz : tailV (WithLp.toLp 2 p - WithLp.toLp 2 p') = (0 : Vec (d + 1)) := by
      have ha : 0 ≤ D.lam / 2 := by positivity
      set P : Vec (d + 1) := WithLp.toLp 2 p
      set P' : Vec (d + 1) := WithLp.toLp 2 p'
      set z : Vec (d + 1) := (1 / 2 : ℝ) • P + (1 / 2 : ℝ) • P'
      have t1 := part_tangent D hy ha Finset.univ z P
      have t2 := part_tangent D hy ha Finset.univ z P'
      rw [← obj_eq] at t1 t2
      have e1 : P - z = (1 / 2 : ℝ) • (P - P') := by simp only [z]; module
      have e2 : P' - z = -((1 / 2 : ℝ) • (P - P')) := by simp only [z]; module
      rw [e1] at t1
      rw [e2, inner_neg_right] at t2
      have u1 : D.obj P ≤ D.obj z := hp z.ofLp
      have u2 : D.obj P' ≤ D.obj z := hp' z.ofLp
      have e3 : tailV ((1 / 2 : ℝ) • (P - P')) = (1 / 2 : ℝ) • tailV (P - P') := by
        ext k
        induction k using Fin.cases <;> simp [tailV]
      rw [e3, norm_smul] at t1
      have v2 : 0 ≤ D.lam / 2 * ‖tailV (-((1 / 2 : ℝ) • (P - P')))‖ ^ 2 := by positivity
      have v1 : D.lam / 2 * (‖(1 / 2 : ℝ)‖ * ‖tailV (P - P')‖) ^ 2 ≤ 0 := by linarith
      have v3 : ‖tailV (P - P')‖ ^ 2 ≤ 0 := by
        rw [Real.norm_of_nonneg (by norm_num : (0 : ℝ) ≤ 1 / 2)] at v1
        by_contra hc
        push Not at hc
        have : 0 < D.lam / 2 * (1 / 2 * ‖tailV (P - P')‖) ^ 2 := by
          rw [mul_pow]; positivity
        linarith
      have v4 : ‖tailV (P - P')‖ = 0 := by
        have := sq_nonneg ‖tailV (P - P')‖
        exact pow_eq_zero_iff (two_ne_zero) |>.1 (le_antisymm v3 this)
      exact norm_eq_zero.1 v4
    have htail : ∀ j : Fin d, p j.succ = p' j.succ := by
      intro j
      have := congrArg (fun v : Vec (d + 1) => v.ofLp j.succ) hz
      simp [tailV] at this
      linarith
    have hm : ∀ x : Fin d → ℝ, margin p x = margin p' x + (p 0 - p' 0) := by
      intro x
      unfold margin
      simp only [htail]
      ring
    have g1 := D.objGrad_zero hy hl.le (p := WithLp.toLp 2 p) fun q => hp q.ofLp
    have g2 := D.objGrad_zero hy hl.le (p := WithLp.toLp 2 p') fun q => hp' q.ofLp
    simp only [hm] at g1
    have h00 : p 0 = p' 0 := by
      rcases lt_trichotomy (p 0 - p' 0) 0 with h | h | h
      · have : ∑ i, (sigm (margin p' (D.X i) + (p 0 - p' 0)) - D.y i) < ∑ i, (sigm (margin p' (D.X i)) - D.y i) :=
          Finset.sum_lt_sum_of_nonempty Finset.univ_nonempty fun i _ =>
            sub_lt_sub_right (sigm_strictMono (by linarith)) _
        linarith
      · linarith
      · have : ∑ i, (sigm (margin p' (D.X i)) - D.y i) < ∑ i, (sigm (margin p' (D.X i) + (p 0 - p' 0)) - D.y i) :=
          Finset.sum_lt_sum_of_nonempty Finset.univ_nonempty fun i _ =>
            sub_lt_sub_right (sigm_strictMono (by linarith)) _
        linarith
    funext k
    induction k using Fin.cases with
    | zero => exact h00
    | succ j => exact htail j

/-- **C278** The objective is convex, and the gradient the class returns is that of the objective and Lipschitz continuous
with the constant `lambda + ∑ (1 + ‖x_i‖²) / 4`. -/
theorem C278_smooth (D : Logistic d n) (hy : D.Binary) (hl : 0 ≤ D.lam) :
    ConvexOn ℝ Set.univ (fun p : Vec (d + 1) => D.evaluate p.ofLp) ∧
      LSmooth (fun p : Vec (d + 1) => D.evaluate p.ofLp) (fun p => WithLp.toLp 2 (D.gradient p.ofLp))
        (D.lam + 1 / 4 * ∑ i, (1 + ∑ j, D.X i j ^ 2)) := by
  refine ⟨?_, D.obj_smooth hy hl⟩
  have : ConvexOn ℝ Set.univ D.obj := by rw [obj_eq]; exact part_convex D hy (by positivity) _
  exact this

/-! ### Gradient descent -/

/-- **C278** `GradientDescent` with a step size of at most `1 / (lambda + ∑ (1 + ‖x_i‖²) / 4)` on a logistic regression
function: the objectives it evaluates never increase, the `k`-th one is within `‖x₀ - z‖² / (2 stepSize k)` of the objective of
every `z`, and with a positive tolerance it makes at most `f(x₀) / tolerance + 2` evaluations. -/
theorem C278_gd (D : Logistic d n) (hy : D.Binary) (hl : 0 ≤ D.lam) {η : ℝ} (hη : 0 < η)
    (hL : (D.lam + 1 / 4 * ∑ i, (1 + ∑ j, D.X i j ^ 2)) * η ≤ 1) {tol : ℝ} (mv : ℝ) (mi fuel : Nat) (x : Vec (d + 1))
    {r : Gd.Result Unit (Vec (d + 1)) ℝ}
    (h : Gd.optimize (Gd.realEnv D.obj D.objGrad η (fun a b => decide (|a - b| < tol)) mv) mi fuel () x = some r) :
    (∀ (k : Nat) (p q : Vec (d + 1) × ℝ), (Gd.evals r.trace)[k]? = some p → (Gd.evals r.trace)[k + 1]? = some q →
      q.2 ≤ p.2) ∧
    (∀ (k : Nat) (p : Vec (d + 1) × ℝ), 0 < k → (Gd.evals r.trace)[k]? = some p →
      p.2 = D.evaluate p.1.ofLp ∧ ∀ z : Vec (d + 1), p.2 - D.evaluate z.ofLp ≤ ‖x - z‖ ^ 2 / (2 * η * k)) ∧
    (0 < tol → ((Gd.evals r.trace).length : ℝ) ≤ D.evaluate x.ofLp / tol + 2) := by
  have hs := D.obj_smooth hy hl
  have hc : ConvexOn ℝ Set.univ D.obj := by rw [obj_eq]; exact part_convex D hy (by positivity) _
  refine ⟨fun k p q hp hq => ?_, fun k p hk hp => ?_, fun htol => ?_⟩
  · obtain ⟨-, -, h3⟩ := Gd.C16_gd_descent hs hη hL _ mv mi fuel x r h k p q hp hq
    have : 0 ≤ η / 2 * ‖D.objGrad p.1‖ ^ 2 := by positivity
    linarith
  · exact ⟨(Gd.C16_gd_convex_rate hs hη hL hc 0 _ mv mi fuel x r h k hk p hp).1,
      fun z => (Gd.C16_gd_convex_rate hs hη hL hc z _ mv mi fuel x r h k hk p hp).2⟩
  · have hE : GdExact (Gd.realEnv D.obj D.objGrad η (fun a b => decide (|a - b| < tol)) mv) D.obj D.objGrad η tol := by
      refine ⟨⟨?_, ?_, ?_, ?_⟩, ?_, ?_, ?_⟩ <;> intros <;> simp [Gd.realEnv]
    have := C257_evaluations hE hs hη hL htol (fun y => D.obj_nonneg hy hl y) h
    rw [sub_zero] at this
    exact this

/-! ### SGD and SVRG -/

/-- Function `j` of the sum: point `j` and the `n`-th part of the penalty.  There are no functions from `n` on. -/
noncomputable def phi (D : Logistic d n) (j : Nat) (p : Vec (d + 1)) : ℝ :=
  if h : j < n then part D (D.lam / (2 * n)) {⟨j, h⟩} p else 0

noncomputable def gam (D : Logistic d n) (j : Nat) (p : Vec (d + 1)) : Vec (d + 1) :=
  if h : j < n then partGrad D (D.lam / (2 * n)) {⟨j, h⟩} p else 0

/-- The number the point at position `i` had originally. -/
def permN (σ : Equiv.Perm (Fin n)) (i : Nat) : Nat := if h : i < n then (σ ⟨i, h⟩).val else i

theorem permN_isPerm (σ : Equiv.Perm (Fin n)) : ((List.range n).map (permN σ)).Perm (List.range n) := by
  refine (List.perm_ext_iff_of_nodup ?_ List.nodup_range).2 fun a => ?_
  · refine (List.nodup_map_iff_inj_on List.nodup_range).2 fun x hx y hy h => ?_
    rw [List.mem_range] at hx hy
    rw [permN, permN, dif_pos hx, dif_pos hy] at h
    exact Fin.mk.inj (σ.injective (Fin.ext h))
  · rw [List.mem_map]
    constructor
    · rintro ⟨i, hi, rfl⟩
      rw [List.mem_range] at hi ⊢
      rw [permN, dif_pos hi]
      exact (σ _).isLt
    · intro ha
      rw [List.mem_range] at ha
      refine ⟨(σ.symm ⟨a, ha⟩).val, List.mem_range.2 (Fin.isLt _), ?_⟩
      rw [permN, dif_pos (Fin.isLt _)]
      simp

theorem batch_succ {n b k : Nat} (h : b + (k + 1) ≤ n) : batch n b (k + 1) = insert ⟨b + k, by omega⟩ (batch n b k) := by
  ext i
  simp only [batch, Finset.mem_filter, Finset.mem_univ, true_and, Finset.mem_insert, Fin.ext_iff]
  omega

theorem batch_range {M : Type} [AddCommMonoid M] {n b : Nat} (t : Fin n → M) : ∀ k (h : b + k ≤ n),
    ∑ i ∈ batch n b k, t i = ∑ j ∈ Finset.range k, if h : b + j < n then t ⟨b + j, h⟩ else 0
  | 0, _ => by
    have : batch n b 0 = ∅ := by
      ext i
      simp only [batch, Finset.mem_filter, Finset.mem_univ, true_and, Finset.notMem_empty, iff_false]
      omega
    rw [this]
    rfl
  | k + 1, h => by
    rw [batch_succ h, Finset.sum_insert (by simp [batch]), batch_range t k (by omega), Finset.sum_range_succ, add_comm,
      dif_pos (by omega)]

theorem batch_value (D : Logistic d n) (σ : Equiv.Perm (Fin n)) (p : Vec (d + 1)) {b k : Nat} (h1 : 1 ≤ k) (h : b + k ≤ n) :
    (D.shuffle σ).evaluateBatch p.ofLp b k = some (∑ j ∈ Finset.range k, D.phi (permN σ (b + j)) p) := by
  have hn : 0 < n := by omega
  rw [evaluateBatch, if_pos ⟨h1, h⟩, batch_range _ k h]
  congr 1
  have e : ∀ j ∈ Finset.range k, D.phi (permN σ (b + j)) p = D.lam / (2 * n) * tailDot p.ofLp -
      if h : b + j < n then (D.shuffle σ).logLik p.ofLp ⟨b + j, h⟩ else 0 := by
    intro j hj
    have hj' : b + j < n := by have := Finset.mem_range.1 hj; omega
    rw [dif_pos hj', permN, dif_pos hj', phi, dif_pos (Fin.isLt _), part, Finset.sum_singleton]
    rfl
  rw [Finset.sum_congr rfl e, Finset.sum_sub_distrib, Finset.sum_const, Finset.card_range, nsmul_eq_mul]
  show D.lam * _ * _ - _ = _
  congr 1
  ring

theorem batch_grad (D : Logistic d n) (σ : Equiv.Perm (Fin n)) (p : Vec (d + 1)) {b k : Nat} (h1 : 1 ≤ k) (h : b + k ≤ n) :
    (D.shuffle σ).gradientBatch p.ofLp b k = some (∑ j ∈ Finset.range k, D.gam (permN σ (b + j)) p).ofLp := by
  have hn : 0 < n := by omega
  have e : ∀ j ∈ Finset.range k, D.gam (permN σ (b + j)) p = (2 * (D.lam / (2 * n))) • tailV p +
      if h : b + j < n then (sigm (margin p.ofLp ((D.shuffle σ).X ⟨b + j, h⟩)) - (D.shuffle σ).y ⟨b + j, h⟩) •
        fv ((D.shuffle σ).X ⟨b + j, h⟩) else 0 := by
    intro j hj
    have hj' : b + j < n := by have := Finset.mem_range.1 hj; omega
    rw [dif_pos hj', permN, dif_pos hj', gam, dif_pos (Fin.isLt _), partGrad, Finset.sum_singleton]
    rfl
  rw [Finset.sum_congr rfl e, Finset.sum_add_distrib, Finset.sum_const, Finset.card_range,
    ← batch_range (fun i => (sigm (margin p.ofLp ((D.shuffle σ).X i)) - (D.shuffle σ).y i) • fv ((D.shuffle σ).X i)) k h,
    ← Nat.cast_smul_eq_nsmul ℝ, smul_smul,
    show (k : ℝ) * (2 * (D.lam / (2 * n))) = 2 * (k * (D.lam / (2 * n))) by ring]
  have := partGrad_apply (D.shuffle σ) (k * (D.lam / (2 * n))) (batch n b k) p
  rw [partGrad] at this
  rw [this, gradientBatch, if_pos ⟨h1, h⟩]
  congr 2
  funext j
  congr 1
  show D.lam * _ / _ * _ = _
  field_simp

theorem sum_range'_eq {M : Type} [AddCommMonoid M] (f : Nat → M) (a : Nat) : ∀ k,
    ((List.range' a k).map f).sum = ∑ j ∈ Finset.range k, f (a + j)
  | 0 => by simp
  | k + 1 => by
    rw [List.range'_concat, List.map_append, List.sum_append, sum_range'_eq f a k, Finset.sum_range_succ]
    simp

theorem phi_sum (D : Logistic d n) (hn : 0 < n) (p : Vec (d + 1)) : ∑ j ∈ Finset.range n, D.phi j p = D.obj p := by
  have hn' : (n : ℝ) ≠ 0 := by exact_mod_cast hn.ne'
  rw [Finset.sum_range]
  simp only [phi, Fin.is_lt, dif_pos, part, Finset.sum_singleton, Fin.eta]
  rw [Finset.sum_sub_distrib, Finset.sum_const, Finset.card_univ, Fintype.card_fin, nsmul_eq_mul, obj_eq, part]
  congr 1
  field_simp

theorem gam_sum (D : Logistic d n) (hn : 0 < n) (p : Vec (d + 1)) : ∑ j ∈ Finset.range n, D.gam j p = D.objGrad p := by
  have hn' : (n : ℝ) ≠ 0 := by exact_mod_cast hn.ne'
  rw [Finset.sum_range]
  simp only [gam, Fin.is_lt, dif_pos, partGrad, Finset.sum_singleton, Fin.eta]
  rw [Finset.sum_add_distrib, Finset.sum_const, Finset.card_univ, Fintype.card_fin, ← Nat.cast_smul_eq_nsmul ℝ, smul_smul,
    objGrad_eq, partGrad]
  congr 2
  field_simp

theorem perm_sum' (D : Logistic d n) (σ : Equiv.Perm (Fin n)) {M : Type} [AddCommMonoid M] (f : Nat → M) :
    ∑ j ∈ Finset.range n, f (permN σ j) = ∑ j ∈ Finset.range n, f j := by
  have := Ens.Vr.perm_sum (permN_isPerm σ) f
  rw [List.range_eq_range', sum_range'_eq, sum_range'_eq] at this
  simpa using this

/-- A `LogisticRegressionFunction` given to `StandardSGD`.  The state is the order in which the points are, and the state of
the random number generator; `draw` gives the next ordering (`Shuffle`, lines 67-84).  Batches that reach beyond the data are
undefined behaviour in the code and are not asked for (C02); here they get the sum over what there is.  The callbacks are
those of the plain optimizer: none. -/
noncomputable def sgdUser {R : Type} (D : Logistic d n) (draw : R → Equiv.Perm (Fin n) × R) (dblMax : ℝ) (close : ℝ → ℝ → Bool) :
    Sgd.User (Equiv.Perm (Fin n) × R) (Vec (d + 1)) (Vec (d + 1)) ℝ where
  evalGrad v x b k := (v, match (D.shuffle v.1).evaluateWithGradientBatch x.ofLp b k with
    | some r => (r.1, WithLp.toLp 2 r.2)
    | none => (∑ j ∈ Finset.range k, D.phi (permN v.1 (b + j)) x, ∑ j ∈ Finset.range k, D.gam (permN v.1 (b + j)) x))
  evaluate v x b k := (v, match (D.shuffle v.1).evaluateBatch x.ofLp b k with
    | some r => r
    | none => ∑ j ∈ Finset.range k, D.phi (permN v.1 (b + j)) x)
  shuffle v := (v.1 * (draw v.2).1, (draw v.2).2)
  cbBegin v x := (v, x)
  cbBeginEpoch v _ _ _ := (v, false)
  cbEvalGrad v _ _ g := (v, g, false)
  cbStep v x := (v, x, false)
  cbEndEpoch v _ _ _ := (v, false)
  cbEvaluate v _ _ := (v, false)
  cbEnd v x := (v, x)
  add a b := a + b
  zero := 0
  divN a k := a / k
  dblMax := dblMax
  isBad _ := false
  isClose := close

/-- Drawing an ordering of the shuffled data is what `Shuffle` does to them. -/
theorem shuffle_shuffle (D : Logistic d n) (σ τ : Equiv.Perm (Fin n)) : (D.shuffle σ).shuffle τ = D.shuffle (σ * τ) := rfl

theorem sgdUser_evalGrad {R : Type} (D : Logistic d n) (draw : R → Equiv.Perm (Fin n) × R) (dblMax : ℝ) (close : ℝ → ℝ → Bool)
    (v : Equiv.Perm (Fin n) × R) (x : Vec (d + 1)) (b k : Nat) :
    (D.sgdUser draw dblMax close).evalGrad v x b k =
      (v, ∑ j ∈ Finset.range k, D.phi (permN v.1 (b + j)) x, ∑ j ∈ Finset.range k, D.gam (permN v.1 (b + j)) x) := by
  by_cases h : 1 ≤ k ∧ b + k ≤ n
  · obtain ⟨e1, e2⟩ := ((D.shuffle v.1).C214_evaluateWithGradient x.ofLp).2 b k
    rw [batch_value D v.1 x h.1 h.2] at e1
    rw [batch_grad D v.1 x h.1 h.2] at e2
    simp only [sgdUser]
    cases hr : (D.shuffle v.1).evaluateWithGradientBatch x.ofLp b k with
    | none => rw [hr] at e1
    | some r =>
      rw [hr] at e1 e2
      simp only [Option.map_some, Option.some.injEq] at e1 e2
      simp only [e1, e2]
  · simp only [sgdUser, evaluateWithGradientBatch, if_neg h]

theorem sgdUser_convex {R : Type} (D : Logistic d n) (hy : D.Binary) (hl : D.lam = 0) {Γ : ℝ} (hΓ0 : 0 ≤ Γ)
    (hΓ : ∀ i, 1 + ∑ j, D.X i j ^ 2 ≤ Γ ^ 2) (draw : R → Equiv.Perm (Fin n) × R) (dblMax : ℝ) (close : ℝ → ℝ → Bool) :
    ConvexSum (D.sgdUser draw dblMax close) n (fun v j => D.phi (permN v.1 j)) (fun v j => D.gam (permN v.1 j)) Γ where
  value v x b k := by rw [sgdUser_evalGrad]
  grad v x b k := by rw [sgdUser_evalGrad]
  sub v j x y := by
    simp only [phi, gam]
    split
    · have := part_tangent D hy (c := D.lam / (2 * n)) (by rw [hl]; simp) {⟨permN v.1 j, by assumption⟩} x y
      have h2 : 0 ≤ D.lam / (2 * n) * ‖tailV (y - x)‖ ^ 2 := by rw [hl]; simp
      linarith
    · simp
  lip v j x := by
    simp only [gam]
    split
    · rw [partGrad, hl, Finset.sum_singleton]
      simp only [zero_div, mul_zero, zero_smul, zero_add]
      rw [norm_smul, Real.norm_eq_abs]
      have h1 : |sigm (margin x.ofLp (D.X ⟨permN v.1 j, by assumption⟩)) - D.y ⟨permN v.1 j, by assumption⟩| ≤ 1 := by
        have a := sigm_pos (margin x.ofLp (D.X ⟨permN v.1 j, by assumption⟩))
        have b := sigm_lt_one (margin x.ofLp (D.X ⟨permN v.1 j, by assumption⟩))
        rw [abs_le]
        rcases hy ⟨permN v.1 j, by assumption⟩ with h | h <;> rw [h] <;> push_cast <;> constructor <;> linarith
      have h2 : ‖fv (D.X ⟨permN v.1 j, by assumption⟩)‖ ≤ Γ := by
        refine (sq_le_sq₀ (norm_nonneg _) hΓ0).1 ?_
        rw [norm_fv]
        exact hΓ _
      calc _ ≤ 1 * Γ := mul_le_mul h1 h2 (norm_nonneg _) zero_le_one
        _ = Γ := one_mul _
    · simpa using hΓ0
  order v v' x := by rw [perm_sum' D v.1 fun j => D.phi j x, perm_sum' D v'.1 fun j => D.phi j x]
  evalGrad_keeps v x b k := rfl
  cbEvalGrad_keeps v x e g := rfl
  cbEvalGrad_grad v x e g := rfl
  cbStep_keeps v x := rfl
  cbBegin v x := rfl
  add a b := rfl
  zero := rfl
  divN a k := rfl

/-- **C278** `StandardSGD` on a logistic regression function without penalty (`lambda = 0`, the default), whatever orderings
are drawn: the objectives per point of the epochs are on average not further above that of any other parameters `z` than
`‖x₀ - z‖² / (2 stepSize n epochs) + stepSize · batchSize · (1 + max ‖x_i‖²) / 2`. -/
theorem C278_sgd {R : Type} (D : Logistic d n) (hy : D.Binary) (hl : D.lam = 0) (hn : 0 < n) {B : ℝ}
    (hB : ∀ i, ∑ j, D.X i j ^ 2 ≤ B) (draw : R → Equiv.Perm (Fin n) × R) (dblMax : ℝ) (close : ℝ → ℝ → Bool)
    {p : Sgd.Params} (hp : p.numFunctions = n) (hb : 0 < p.batchSize) (z : Vec (d + 1))
    {o : Sgd.Obj (Fin (d + 1) → Unit) Unit Unit ℝ} (ha : 0 < o.step) {reset : Bool} {fuel : Nat} {v : Equiv.Perm (Fin n) × R}
    {x : Vec (d + 1)} {r : Sgd.Result (Sgd.Live (Fin (d + 1) → Unit) Unit Unit ℝ × (Equiv.Perm (Fin n) × R)) (Vec (d + 1)) ℝ}
    (h : Sgd.optimizeObj (lift Ens.Update.vanilla) (Ens.Converge.noDecay (Vec (d + 1)) (Vec (d + 1))) (D.sgdUser draw dblMax close) p reset fuel
      o v x = .returned r) (hE : Ens.Converge.epochMeans r.trace ≠ []) :
    (Ens.Converge.epochMeans r.trace).sum / (Ens.Converge.epochMeans r.trace).length ≤
      D.evaluate z.ofLp / n + ‖x - z‖ ^ 2 / (2 * o.step * (n * (Ens.Converge.epochMeans r.trace).length)) +
        o.step * p.batchSize * (1 + B) / 2 := by
  have hB0 : 0 ≤ 1 + B := by
    have : 0 ≤ ∑ j, D.X ⟨0, hn⟩ j ^ 2 := Finset.sum_nonneg fun j _ => sq_nonneg _
    linarith [hB ⟨0, hn⟩]
  have hu := D.sgdUser_convex hy hl (Real.sqrt_nonneg (1 + B)) (fun i => by rw [Real.sq_sqrt hB0]; linarith [hB i]) draw dblMax close
  subst hp
  have h1 := C253_sgd_regret (u := D.sgdUser draw dblMax close) (loss := fun v j => D.phi (permN v.1 j))
    (gr := fun v j => D.gam (permN v.1 j)) hu hn hb (z := z) (fun _ _ => le_rfl) ha h hE
  have h2 : ∑ j ∈ Finset.range p.numFunctions, D.phi (permN v.1 j) z = D.evaluate z.ofLp :=
    (perm_sum' D v.1 fun j => D.phi j z).trans (D.phi_sum hn z)
  rw [Real.sq_sqrt hB0, h2] at h1
  exact h1

/-- A `LogisticRegressionFunction` given to SVRG, as in `sgdUser`. -/
noncomputable def vrUser {R : Type} (D : Logistic d n) (draw : R → Equiv.Perm (Fin n) × R) (dblMax tol : ℝ) :
    Ens.Vr.User (Equiv.Perm (Fin n) × R) (Vec (d + 1)) (Vec (d + 1)) ℝ where
  n := n
  evaluate v x b k := (v, match (D.shuffle v.1).evaluateBatch x.ofLp b k with
    | some r => r
    | none => ∑ j ∈ Finset.range k, D.phi (permN v.1 (b + j)) x)
  gradient v x b k := (v, match (D.shuffle v.1).gradientBatch x.ofLp b k with
    | some r => WithLp.toLp 2 r
    | none => ∑ j ∈ Finset.range k, D.gam (permN v.1 (b + j)) x)
  shuffle v := (v.1 * (draw v.2).1, (draw v.2).2)
  cbBegin v x := (v, x)
  cbEval v _ _ := (v, false)
  cbGrad v _ g := (v, g, false)
  cbStep v x := (v, x, false)
  cbEnd v x := (v, x)
  addE a b := a + b
  zero := 0
  isBad _ := false
  near s t := decide (|s - t| < tol)
  dblMax := dblMax
  addG a b := a + b
  divG g k := (k : ℝ)⁻¹ • g

theorem vrUser_smooth {R : Type} (D : Logistic d n) (hy : D.Binary) (hl : 0 ≤ D.lam) {B : ℝ} (hB0 : 0 ≤ B)
    (hB : ∀ i, ∑ j, D.X i j ^ 2 ≤ B) (draw : R → Equiv.Perm (Fin n) × R) (dblMax tol : ℝ) :
    SmoothSum (D.vrUser draw dblMax tol) D.phi D.gam (fun v => permN v.1) (D.lam / n + (1 + B) / 4) where
  sep := {
    addE := fun _ _ => rfl
    zero := rfl
    addG := fun _ _ => rfl
    eval := fun v x b k => by
      rw [sum_range'_eq]
      by_cases h : 1 ≤ k ∧ b + k ≤ n
      · simp only [vrUser, batch_value D v.1 x h.1 h.2]
      · simp only [vrUser, evaluateBatch, if_neg h]
    grad := fun v x b k => by
      rw [sum_range'_eq]
      by_cases h : 1 ≤ k ∧ b + k ≤ n
      · simp only [vrUser, batch_grad D v.1 x h.1 h.2]
      · simp only [vrUser, gradientBatch, if_neg h]
    cbGrad := fun _ _ _ => rfl
    evalPerm := fun _ _ _ _ => rfl
    gradPerm := fun _ _ _ _ => rfl
    cbEvalPerm := fun _ _ _ => rfl
    cbGradPerm := fun _ _ _ => rfl
    isPerm := fun v => permN_isPerm v.1 }
  smooth j := by
    by_cases h : j < n
    · have h1 := part_smooth D hy (c := D.lam / (2 * n)) (by positivity) {⟨j, h⟩}
      have e1 : D.phi j = part D (D.lam / (2 * n)) {⟨j, h⟩} := by funext x; rw [phi, dif_pos h]
      have e2 : D.gam j = partGrad D (D.lam / (2 * n)) {⟨j, h⟩} := by funext x; rw [gam, dif_pos h]
      rw [e1, e2]
      refine ⟨h1.grad, fun x y => (h1.lip x y).trans (mul_le_mul_of_nonneg_right ?_ (norm_nonneg _))⟩
      rw [Finset.sum_singleton]
      have := hB ⟨j, h⟩
      have e : 2 * (D.lam / (2 * n)) = D.lam / n := by
        have : (n : ℝ) ≠ 0 := by
          have : n ≠ 0 := by omega
          exact_mod_cast this
        field_simp
      rw [e]
      linarith
    · have e1 : D.phi j = fun _ => 0 := by funext x; rw [phi, dif_neg h]
      have e2 : D.gam j = fun _ => 0 := by funext x; rw [gam, dif_neg h]
      rw [e1, e2]
      refine ⟨fun x => ?_, fun x y => ?_⟩
      · simpa using hasFDerivAt_const (0 : ℝ) x
      · simp only [sub_self, norm_zero]
        positivity
  divG _ _ := rfl
  step _ _ := rfl
  begin_ _ _ := rfl
  end_ _ _ := rfl

/-- **C278** SVRG on a logistic regression function, whatever orderings are drawn, with
`innerIterations · stepSize · (lambda / n + (1 + max ‖x_i‖²) / 4) ≤ 1 / 4` and a positive tolerance: it terminates (with
unlimited iterations too), after at most `f(x₀) / tolerance + 1` passes over the data, at parameters that are not worse than
the initial ones, and if it stopped because of the tolerance the gradient there is small. -/
theorem C278_svrg {R : Type} (D : Logistic d n) (hy : D.Binary) (hl : 0 ≤ D.lam) (hn : 0 < n) {B : ℝ}
    (hB : ∀ i, ∑ j, D.X i j ^ 2 ≤ B) (draw : R → Equiv.Perm (Fin n) × R) (dblMax : ℝ) {tol : ℝ} (htol : 0 < tol)
    {p : Ens.Vr.Svrg.Params (Equiv.Perm (Fin n) × R) (Vec (d + 1)) (Vec (d + 1)) ℝ} (hp : PlainSvrg p) (hb : 0 < p.batchSize)
    {m : Nat} (hm : m = if p.innerIterations = 0 then n else p.innerIterations) {a : ℝ} (ha : 0 < a)
    (haL : m * (a * (D.lam / n + (1 + B) / 4)) ≤ 1 / 4) (v : Equiv.Perm (Fin n) × R) (x : Vec (d + 1)) :
    ∃ fuel e t, Ens.Vr.Svrg.optimize (D.vrUser draw dblMax tol) p a fuel v x = some (.ret e t) ∧
      D.evaluate t.x.ofLp ≤ D.evaluate x.ofLp ∧ (t.i : ℝ) ≤ D.evaluate x.ofLp / tol + 1 ∧
      (e = .near → 0 < t.i → ∑ c, D.gradient t.x.ofLp c ^ 2 ≤ 4 * n * p.batchSize * tol / (m * a)) := by
  have hB0 : 0 ≤ B := by
    have : 0 ≤ ∑ j, D.X ⟨0, hn⟩ j ^ 2 := Finset.sum_nonneg fun j _ => sq_nonneg _
    linarith [hB ⟨0, hn⟩]
  have hu := D.vrUser_smooth hy hl hB0 hB draw dblMax tol
  have hL : 0 ≤ D.lam / n + (1 + B) / 4 := by positivity
  have hnear : ∀ s t : ℝ, (D.vrUser draw dblMax tol).near s t = true ↔ |s - t| < tol := fun s t => by simp [vrUser]
  have hobj : ∀ y, Ens.Vr.objective (D.vrUser draw dblMax tol).n D.phi y = D.evaluate y.ofLp := by
    intro y
    refine Eq.trans ?_ (D.phi_sum hn y)
    show ((List.range n).map fun j => D.phi j y).sum = _
    rw [List.range_eq_range', sum_range'_eq]
    simp only [zero_add]
  have hgr : ∀ y, Ens.Vr.objective (D.vrUser draw dblMax tol).n D.gam y = D.objGrad y := by
    intro y
    refine Eq.trans ?_ (D.gam_sum hn y)
    show ((List.range n).map fun j => D.gam j y).sum = _
    rw [List.range_eq_range', sum_range'_eq]
    simp only [zero_add]
  have hlb : ∀ y, 0 ≤ Ens.Vr.objective (D.vrUser draw dblMax tol).n D.phi y := fun y => by
    rw [hobj]; exact D.obj_nonneg hy hl y
  have haL' : ((if p.innerIterations = 0 then (D.vrUser draw dblMax tol).n else p.innerIterations : Nat) : ℝ) *
      (a * (D.lam / n + (1 + B) / 4)) ≤ 1 / 4 := by rw [hm] at haL; exact haL
  obtain ⟨fuel, e, t, h⟩ := C262_svrg_terminates hu hp hn hb hL ha haL' htol hnear hlb v x
  refine ⟨fuel, e, t, h, ?_, ?_, ?_⟩
  · have := C262_svrg_descends hu hp hn hb hL ha haL' h
    rwa [hobj, hobj] at this
  · have h0 : 0 ≤ D.evaluate x.ofLp / tol := div_nonneg (D.obj_nonneg hy hl x) htol.le
    rcases C262_svrg_passes hu hp hn hb hL ha haL' hnear hlb h with h1 | h1
    · rw [hobj, sub_zero, ← le_div_iff₀ htol] at h1
      linarith
    · rw [h1]
      push_cast
      linarith
  · rintro rfl hi
    have := C262_svrg_tolerance hu hp hn hb hL ha hm haL hnear h hi
    rw [hgr, EuclideanSpace.norm_sq_eq] at this
    simp only [Real.norm_eq_abs, sq_abs] at this
    exact this

theorem twoPoints_binary : twoPoints.Binary := fun i => by
  have := i.isLt
  simp only [twoPoints]
  omega

/-- One point of each class, `lambda = 1`: there is exactly one minimiser. -/
example : ∃ p, ∀ q, twoPoints.evaluate p ≤ twoPoints.evaluate q :=
  ((twoPoints.C278_minimiser twoPoints_binary (by norm_num [twoPoints]) (by norm_num)).1).2 ⟨⟨0, rfl⟩, ⟨1, rfl⟩⟩

/-- Gradient descent on it with step size `4 / 7`. -/
example : ∃ fuel r, Gd.optimize (Gd.realEnv twoPoints.obj twoPoints.objGrad (4 / 7) (fun a b => decide (|a - b| < 1 / 10)) 1000)
      100 fuel () 0 = some r ∧
    ((Gd.evals r.trace).length : ℝ) ≤ twoPoints.evaluate (0 : Vec 2).ofLp / (1 / 10) + 2 := by
  obtain ⟨r, hr⟩ := Gd.C14_gd_terminates (maxIterations := 100)
    (Gd.realEnv twoPoints.obj twoPoints.objGrad (4 / 7) (fun a b => decide (|a - b| < 1 / 10)) 1000) (by norm_num) () 0
  exact ⟨_, r, hr, (twoPoints.C278_gd twoPoints_binary (by norm_num [twoPoints]) (by norm_num)
    (by norm_num [twoPoints, Fin.sum_univ_succ]) 1000 100 _ 0 hr).2.2 (by norm_num)⟩

/-- The same points without penalty. -/
def twoFree : Logistic 1 2 := { twoPoints with lam := 0 }

/-- SGD on them: two epochs, the points swapped in between. -/
noncomputable def twoRun : Sgd.Outcome (Sgd.Live (Fin 2 → Unit) Unit Unit ℝ × (Equiv.Perm (Fin 2) × Unit)) (Vec 2) ℝ :=
  Sgd.optimizeObj (lift Ens.Update.vanilla) (Ens.Converge.noDecay (Vec 2) (Vec 2))
    (twoFree.sgdUser (fun _ => (Equiv.swap 0 1, ())) 1000 (fun _ _ => false)) ⟨2, 1, 4, true, false⟩ true 5 (Sgd.Obj.new 1 ())
    (1, ()) 0

theorem twoRun_epochs : epochsOf twoRun = 2 := by decide +kernel

example : ∃ r, twoRun = .returned r ∧ (epochMeans r.trace).length = 2 ∧
    ∀ z : Vec 2, (epochMeans r.trace).sum / 2 ≤ twoFree.evaluate z.ofLp / 2 + ‖0 - z‖ ^ 2 / (2 * 1 * (2 * 2)) + 1 * 1 * (1 + 1) / 2 := by
  have hE := twoRun_epochs
  cases hr : twoRun with
  | ub => rw [hr] at hE; cases hE
  | diverges => rw [hr] at hE; cases hE
  | returned r =>
    rw [hr] at hE
    have hE' : (epochMeans r.trace).length = 2 := hE
    refine ⟨r, rfl, hE', fun z => ?_⟩
    have h := twoFree.C278_sgd twoPoints_binary rfl (by norm_num) (B := 1) (fun i => by
      fin_cases i <;> simp [twoFree, twoPoints]) _ _ _ (p := ⟨2, 1, 4, true, false⟩) rfl (by norm_num) z (by norm_num [Sgd.Obj.new]) hr
      (by intro h; rw [h] at hE'; cases hE')
    rw [hE'] at h
    simpa [Sgd.Obj.new] using h

/-- SVRG on the two points with `lambda = 1`. -/
noncomputable def twoSvrg : Ens.Vr.Svrg.Params (Equiv.Perm (Fin 2) × Unit) (Vec 2) (Vec 2) ℝ where
  batchSize := 1
  maxIterations := 0
  innerIterations := 0
  shuffle := true
  exact := true
  update w x full g g0 k st := (w, x - st • (full + (k : ℝ)⁻¹ • (g - g0)))
  decay w _ _ _ _ _ st := (w, st)

example : ∃ fuel e t, Ens.Vr.Svrg.optimize (twoPoints.vrUser (fun _ => (Equiv.swap 0 1, ())) 1000 (1 / 10)) twoSvrg (1 / 8) fuel
    (1, ()) 0 = some (.ret e t) ∧ twoPoints.evaluate t.x.ofLp ≤ twoPoints.evaluate (0 : Vec 2).ofLp := by
  obtain ⟨fuel, e, t, h, h1, -⟩ := twoPoints.C278_svrg twoPoints_binary (by norm_num [twoPoints]) (by norm_num) (B := 1)
    (fun i => by fin_cases i <;> simp [twoPoints]) (fun _ => (Equiv.swap 0 1, ())) 1000 (tol := 1 / 10) (by norm_num)
    (p := twoSvrg) ⟨fun _ _ _ _ _ _ _ => rfl, fun _ _ _ _ _ _ _ => rfl⟩ (by decide) (m := 2) rfl (a := 1 / 8) (by norm_num)
    (by norm_num [twoPoints]) (1, ()) 0
  exact ⟨fuel, e, t, h, h1⟩

end Ens.Problems.Logistic
