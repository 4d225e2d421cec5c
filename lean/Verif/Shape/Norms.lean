import Mathlib.Analysis.CStarAlgebra.Matrix
import Verif.Callbacks.Props
import Verif.Update.Norm
import Verif.Converge.LbfgsStop

/-
C308: norm tests on parameters that are a matrix.  `arma::norm(X)` and `arma::norm(X, 2)` of a matrix with more than one row and more
than one column are its largest singular value; of a vector, its Euclidean length.  (This is about Armadillo, outside /repo.)  The
operator norm of a matrix between Euclidean spaces is both at once.
-/

namespace Ens.Shape

open Ens.Converge Ens.Callbacks
open scoped Matrix.Norms.L2Operator

variable {m n : Nat}

abbrev Mat (m n : Nat) := Matrix (Fin m) (Fin n) ℝ

/-- `arma::norm(X)`, `arma::norm(X, 2)`. -/
noncomputable def armaNorm (A : Mat m n) : ℝ := ‖A‖

/-- The Euclidean length of all entries, `arma::norm(vectorise(X))` or `arma::norm(X, "fro")`. -/
noncomputable def fro (A : Mat m n) : ℝ := √(∑ i, ∑ j, A i j ^ 2)

theorem fro_sq (A : Mat m n) : fro A ^ 2 = ∑ i, ∑ j, A i j ^ 2 :=
  Real.sq_sqrt (Finset.sum_nonneg fun _ _ => Finset.sum_nonneg fun _ _ => sq_nonneg _)

theorem fro_nonneg (A : Mat m n) : 0 ≤ fro A := Real.sqrt_nonneg _

theorem col_le (A : Mat m n) (j : Fin n) : ∑ i, A i j ^ 2 ≤ armaNorm A ^ 2 := by
  have h := A.l2_opNorm_mulVec (EuclideanSpace.single j (1 : ℝ))
  rw [EuclideanSpace.norm_single, norm_one, mul_one] at h
  have h2 := pow_le_pow_left₀ (norm_nonneg _) h 2
  rw [EuclideanSpace.norm_sq_eq] at h2
  refine le_trans (le_of_eq (Finset.sum_congr rfl fun i _ => ?_)) h2
  simp [Matrix.mulVec, dotProduct, Pi.single_apply, EuclideanSpace.equiv]

theorem armaNorm_transpose (A : Mat m n) : armaNorm A.transpose = armaNorm A := by
  have := A.l2_opNorm_conjTranspose
  rw [Matrix.conjTranspose_eq_transpose_of_trivial] at this
  exact this

/-- The two norms differ by at most the square root of the smaller dimension. -/
theorem fro_le (A : Mat m n) : fro A ^ 2 ≤ ((min m n : Nat) : ℝ) * armaNorm A ^ 2 := by
  have h1 : fro A ^ 2 ≤ n * armaNorm A ^ 2 := by
    rw [fro_sq, Finset.sum_comm]
    refine (Finset.sum_le_sum fun j _ => col_le A j).trans (le_of_eq ?_)
    simp
  have h2 : fro A ^ 2 ≤ m * armaNorm A ^ 2 := by
    rw [fro_sq]
    refine (Finset.sum_le_sum (g := fun _ => armaNorm A ^ 2) fun i _ => ?_).trans (le_of_eq (by simp))
    rw [← armaNorm_transpose]
    exact col_le A.transpose i
  rcases le_total m n with h | h
  · rwa [min_eq_left h]
  · rwa [min_eq_right h]

theorem armaNorm_le (A : Mat m n) : armaNorm A ≤ fro A := by
  rw [armaNorm, Matrix.l2_opNorm_def]
  refine ContinuousLinearMap.opNorm_le_bound _ (fro_nonneg A) fun x => ?_
  refine (sq_le_sq₀ (norm_nonneg _) (mul_nonneg (fro_nonneg A) (norm_nonneg _))).1 ?_
  rw [mul_pow, fro_sq, EuclideanSpace.norm_sq_eq, EuclideanSpace.norm_sq_eq, Finset.sum_mul]
  refine Finset.sum_le_sum fun i _ => ?_
  refine le_trans (le_of_eq ?_) ((Finset.sum_mul_sq_le_sq_mul_sq Finset.univ (A i) x.ofLp).trans (le_of_eq ?_))
  · simp [Matrix.toLpLin_apply, Matrix.mulVec, dotProduct]
  · simp

/-- Of a row or a column, `arma::norm` is the Euclidean length. -/
theorem armaNorm_vec (A : Mat m n) (h : m = 1 ∨ n = 1) : armaNorm A = fro A := by
  refine le_antisymm (armaNorm_le A) ?_
  refine (sq_le_sq₀ (fro_nonneg A) (norm_nonneg A)).1 ((fro_le A).trans ?_)
  have h1 : ((min m n : Nat) : ℝ) ≤ 1 := by
    have : min m n ≤ 1 := by omega
    exact_mod_cast this
  exact (mul_le_mul_of_nonneg_right h1 (sq_nonneg _)).trans (le_of_eq (one_mul _))

/-! ### Clipping by norm -/

theorem fro_smul (a : ℝ) (A : Mat m n) : fro (a • A) = |a| * fro A := by
  unfold fro
  rw [← Real.sqrt_sq_eq_abs, ← Real.sqrt_mul (sq_nonneg a), Finset.mul_sum]
  congr 1
  refine Finset.sum_congr rfl fun i _ => ?_
  rw [Finset.mul_sum]
  exact Finset.sum_congr rfl fun j _ => by rw [Matrix.smul_apply, smul_eq_mul, mul_pow]

/-- **C308** What `GradClipByNorm` does guarantee about the Euclidean length of a gradient matrix: it is at most `√min(rows, cols)` times
the given norm, and at most the given norm when the gradient is a row or a column; a gradient whose length is within the given norm is
left alone. -/
theorem C308_clip_partial (maxNorm : ℝ) (hm : 0 ≤ maxNorm) (A : Mat m n) :
    fro (clipByNorm maxNorm A) ≤ √(min m n : Nat) * maxNorm ∧
    (m = 1 ∨ n = 1 → fro (clipByNorm maxNorm A) ≤ maxNorm) ∧
    (fro A ≤ maxNorm → clipByNorm maxNorm A = A) := by
  obtain ⟨h1, -, h3, -⟩ := C06_clip_by_norm maxNorm hm A
  refine ⟨?_, fun h => ?_, fun h => h3 ((armaNorm_le A).trans h)⟩
  · refine (sq_le_sq₀ (fro_nonneg _) (mul_nonneg (Real.sqrt_nonneg _) hm)).1 ?_
    rw [mul_pow, Real.sq_sqrt (Nat.cast_nonneg _)]
    exact (fro_le _).trans (mul_le_mul_of_nonneg_left (pow_le_pow_left₀ (norm_nonneg _) h1 2) (Nat.cast_nonneg _))
  · rw [← armaNorm_vec _ h]; exact h1

theorem armaNorm_smul_one [NeZero n] (a : ℝ) : armaNorm (a • (1 : Mat n n)) = |a| := by
  unfold armaNorm
  rw [norm_smul, Real.norm_eq_abs, ← Matrix.diagonal_one, Matrix.l2_opNorm_diagonal]
  simp

theorem fro_one : fro (1 : Mat n n) = √n := by
  unfold fro
  congr 1
  simp [Matrix.one_apply]

/-- **C308** The factor cannot be improved: square gradients of any size reach it. -/
theorem C308_clip_tight [NeZero n] {maxNorm : ℝ} (hm : 0 ≤ maxNorm) :
    fro (clipByNorm maxNorm (maxNorm • (1 : Mat n n))) = √(min n n : Nat) * maxNorm := by
  rw [(C06_clip_by_norm maxNorm hm _).2.2.1 (le_of_eq ((armaNorm_smul_one maxNorm).trans (abs_of_nonneg hm))), fro_smul, fro_one,
    abs_of_nonneg hm, min_self, mul_comm]

/-- **C308** `GradClipByNorm` does not bound the L2-norm of the gradient by the given norm when the parameters are a matrix
(doc/callbacks.md:163-166 says it does). -/
theorem C308_clip_refuted : ¬ ∀ (m n : Nat) (maxNorm : ℝ), 0 < maxNorm → ∀ A : Mat m n, fro (clipByNorm maxNorm A) ≤ maxNorm := by
  intro h
  have h1 := h 2 2 1 one_pos ((1 : ℝ) • 1)
  rw [C308_clip_tight zero_le_one, mul_one, Real.sqrt_le_iff] at h1
  norm_num at h1

/-! ### The stopping test of L-BFGS -/

/-- The matrix with given entries. -/
def matOf (x : EuclideanSpace ℝ (Fin m × Fin n)) : Mat m n := fun i j => x.ofLp (i, j)

theorem fro_matOf (x : EuclideanSpace ℝ (Fin m × Fin n)) : fro (matOf x) = ‖x‖ := by
  refine (sq_eq_sq₀ (fro_nonneg _) (norm_nonneg _)).1 ?_
  rw [fro_sq, EuclideanSpace.norm_sq_eq, Fintype.sum_prod_type]
  simp [matOf]

open scoped Classical in
/-- L-BFGS with exact arithmetic on parameters that are an `m × n` matrix: dot products are sums over all entries, `lbfgs_impl.hpp:100`
asks for the "fro" norm, but the stopping test of line 420 is `arma::norm(gradient, 2) < minGradientNorm`. -/
noncomputable def lbfgsMat {W : Type} (c : LbfgsCfg) (f : EuclideanSpace ℝ (Fin m × Fin n) → ℝ)
    (g : EuclideanSpace ℝ (Fin m × Fin n) → EuclideanSpace ℝ (Fin m × Fin n)) (u : LbfgsCb W (EuclideanSpace ℝ (Fin m × Fin n))) :
    Lbfgs.Env W (EuclideanSpace ℝ (Fin m × Fin n)) (EuclideanSpace ℝ (Fin m × Fin n)) ℝ
      ((Nat → EuclideanSpace ℝ (Fin m × Fin n)) × (Nat → EuclideanSpace ℝ (Fin m × Fin n))) :=
  { lbfgsEnv c f g u with gradSmall := fun d => decide (armaNorm (matOf d) < c.minGradientNorm) }

section Stop
variable {W : Type} {c : LbfgsCfg} {f : EuclideanSpace ℝ (Fin m × Fin n) → ℝ}
  {g : EuclideanSpace ℝ (Fin m × Fin n) → EuclideanSpace ℝ (Fin m × Fin n)} {u : LbfgsCb W (EuclideanSpace ℝ (Fin m × Fin n))}

/-- The matrix run does what the run on the vectorised parameters does, unless the matrix test stops it. -/
theorem step_mat (s : LSt W (EuclideanSpace ℝ (Fin m × Fin n))) :
    (armaNorm (matOf s.grad) < c.minGradientNorm ∧ ((Lbfgs.step (lbfgsMat c f g u) s = .inr (.loop, s) ∧
        Lbfgs.step (lbfgsEnv c f g u) s = .inr (.loop, s)) ∨
        Lbfgs.step (lbfgsMat c f g u) s = .inr (.gradient, { s with log := s.log ++ [s.fv] }))) ∨
      (¬ armaNorm (matOf s.grad) < c.minGradientNorm ∧ Lbfgs.step (lbfgsMat c f g u) s = Lbfgs.step (lbfgsEnv c f g u) s) := by
  by_cases h0 : ¬ (c.maxIterations = 0 ∨ s.it ≠ c.maxIterations) ∨ s.terminate = true
  · have h1 : Lbfgs.step (lbfgsMat c f g u) s = .inr (.loop, s) := by unfold Lbfgs.step; rw [if_pos (by exact h0)]
    have h2 : Lbfgs.step (lbfgsEnv c f g u) s = .inr (.loop, s) := by unfold Lbfgs.step; rw [if_pos (by exact h0)]
    by_cases hs : armaNorm (matOf s.grad) < c.minGradientNorm
    · exact .inl ⟨hs, .inl ⟨h1, h2⟩⟩
    · exact .inr ⟨hs, h1.trans h2.symm⟩
  · by_cases hs : armaNorm (matOf s.grad) < c.minGradientNorm
    · refine .inl ⟨hs, .inr ?_⟩
      unfold Lbfgs.step
      rw [if_neg (by exact h0)]
      simp only
      rw [if_pos (by exact decide_eq_true hs)]
    · refine .inr ⟨hs, ?_⟩
      have hs' : ¬ ‖s.grad‖ < c.minGradientNorm := fun h => hs (lt_of_le_of_lt (fro_matOf s.grad ▸ armaNorm_le _) h)
      unfold Lbfgs.step
      simp only
      refine (if_neg (by exact h0)).trans ((if_neg (by exact fun h => hs (of_decide_eq_true h))).trans ?_)
      refine Eq.symm ((if_neg (by exact h0)).trans ((if_neg (by exact fun h => hs' (of_decide_eq_true h))).trans ?_))
      rfl

/-- With one row or one column the two are the same. -/
theorem lbfgsMat_vec (h : m = 1 ∨ n = 1) : lbfgsMat c f g u = lbfgsEnv c f g u := by
  unfold lbfgsMat
  have : (fun d : EuclideanSpace ℝ (Fin m × Fin n) => decide (armaNorm (matOf d) < c.minGradientNorm)) =
      (lbfgsEnv c f g u).gradSmall := by
    funext d
    rw [armaNorm_vec _ h, fro_matOf]
    rfl
  rw [this]

theorem gradient_exit_point (hfactr : 0 ≤ c.factr) {mem} {t0 : Bool} {fuel : Nat} {w : W} {x₀} (hx : f x₀ < c.maxVal)
    {r : LSt W (EuclideanSpace ℝ (Fin m × Fin n))}
    (h : Lbfgs.optimize (lbfgsMat c f g u) mem t0 fuel w x₀ = some (.gradient, r)) :
    ∃ z, armaNorm (matOf (g z)) < c.minGradientNorm ∧ f r.x ≤ f z := by
  unfold Lbfgs.optimize at h
  rw [Option.map_eq_some_iff] at h
  obtain ⟨⟨e, s⟩, hit, heq⟩ := h
  simp only [Prod.mk.injEq] at heq
  obtain ⟨rfl, rfl⟩ := heq
  let Inv : LSt W (EuclideanSpace ℝ (Fin m × Fin n)) → Prop :=
    fun s => ∃ z, s.grad = g z ∧ s.fv = f z ∧ f s.x ≤ f z ∧ s.fv < c.maxVal
  have hpost : (fun r : Lbfgs.Exit × LSt W (EuclideanSpace ℝ (Fin m × Fin n)) => r.1 = .gradient →
      ∃ z, armaNorm (matOf (g z)) < c.minGradientNorm ∧ f r.2.x ≤ f z) (.gradient, s) := by
    refine iterate_inv Inv (fun r => r.1 = .gradient → ∃ z, armaNorm (matOf (g z)) < c.minGradientNorm ∧ f r.2.x ≤ f z)
      ?_ ?_ fuel _ _ ⟨x₀, rfl, rfl, le_refl _, hx⟩ hit
    · rintro s s' ⟨z, hz1, hz2, hz3, hz4⟩ hs
      rcases step_mat (c := c) (f := f) (g := g) (u := u) s with ⟨-, ⟨h1, -⟩ | h1⟩ | ⟨-, h1⟩
      · rw [h1] at hs; cases hs
      · rw [h1] at hs; cases hs
      rw [h1] at hs
      obtain ⟨e, t, -, hd, h1, h2, h3, -, -, h6⟩ := ((step_cases s).1 s' hs).run
      have hlt : t.fv < s.fv := decrease hfactr h6
      refine ⟨s.x + t.step • dirOf c s, h3.trans hd.grad, h2.trans hd.fv, ?_, h2 ▸ hlt.trans hz4⟩
      rw [h1, ← hd.fv]
      exact hd.best (hlt.trans hz4)
    · rintro s r ⟨z, hz1, hz2, hz3, hz4⟩ hs hr
      rcases step_mat (c := c) (f := f) (g := g) (u := u) s with ⟨hn, ⟨h1, -⟩ | h1⟩ | ⟨hn, h1⟩
      · rw [h1] at hs; cases hs; cases hr
      · rw [h1] at hs; cases hs
        exact ⟨z, hz1 ▸ hn, hz3⟩
      · rw [h1] at hs
        rcases (step_cases s).2 r hs with ⟨-, -, -, -, -, h2⟩ | ⟨h1, -⟩
        · exact absurd (lt_of_le_of_lt (fro_matOf s.grad ▸ armaNorm_le _) (h2 hr)) hn
        · rw [h1] at hr; cases hr
  exact hpost rfl

/-- **C308** If L-BFGS stops because of `minGradientNorm` on an `m × n` parameter matrix, the objective at the parameters returned is
within `min(m, n) * minGradientNorm² / (2 μ)` of every other value of a `μ`-strongly convex objective, and the parameters are within
`√min(m, n) * minGradientNorm / μ` of the minimiser, in Euclidean length. -/
theorem C308_lbfgs_stop_partial {μ : ℝ} (hμ : 0 < μ) (hsc : StronglyConvex f g μ) (hfactr : 0 ≤ c.factr)
    {mem} {t0 : Bool} {fuel : Nat} {w : W} {x₀} (hx : f x₀ < c.maxVal) {r : LSt W (EuclideanSpace ℝ (Fin m × Fin n))}
    (h : Lbfgs.optimize (lbfgsMat c f g u) mem t0 fuel w x₀ = some (.gradient, r)) :
    (∀ y, f r.x ≤ f y + (min m n : Nat) * c.minGradientNorm ^ 2 / (2 * μ)) ∧
      ∀ y, g y = 0 → ‖r.x - y‖ ≤ √(min m n : Nat) * c.minGradientNorm / μ := by
  obtain ⟨z, hz, hle⟩ := gradient_exit_point hfactr hx h
  have hG : 0 ≤ c.minGradientNorm := (norm_nonneg _).trans hz.le
  have hgz : ‖g z‖ ^ 2 ≤ (min m n : Nat) * c.minGradientNorm ^ 2 := by
    rw [← fro_matOf]
    exact (fro_le _).trans (mul_le_mul_of_nonneg_left (pow_le_pow_left₀ (norm_nonneg _) hz.le 2) (Nat.cast_nonneg _))
  have hgap : ∀ y, f r.x ≤ f y + (min m n : Nat) * c.minGradientNorm ^ 2 / (2 * μ) := by
    intro y
    have h1 := hsc.gap hμ z y
    have h2 : ‖g z‖ ^ 2 / (2 * μ) ≤ (min m n : Nat) * c.minGradientNorm ^ 2 / (2 * μ) := by gcongr
    linarith
  refine ⟨hgap, fun y hy => ?_⟩
  have h1 := hsc.dist hy r.x
  have h2 := hgap y
  have h3 : ‖r.x - y‖ ^ 2 ≤ (√(min m n : Nat) * c.minGradientNorm / μ) ^ 2 := by
    have : μ / 2 * ‖r.x - y‖ ^ 2 ≤ (min m n : Nat) * c.minGradientNorm ^ 2 / (2 * μ) := by linarith
    rw [le_div_iff₀ (by positivity)] at this
    rw [div_pow, mul_pow, Real.sq_sqrt (Nat.cast_nonneg _), le_div_iff₀ (by positivity)]
    linarith
  exact (pow_le_pow_iff_left₀ (norm_nonneg _) (by positivity) two_ne_zero).1 h3

/-- **C308** The matrix run never goes on longer than the run on the same parameters as one column: if that one ends, so does this one, with
at most as many iterations. -/
theorem C308_lbfgs_no_later {mem} {t0 : Bool} {fuel : Nat} {w : W} {x₀} {e : Lbfgs.Exit}
    {r : LSt W (EuclideanSpace ℝ (Fin m × Fin n))} (h : Lbfgs.optimize (lbfgsEnv c f g u) mem t0 fuel w x₀ = some (e, r)) :
    ∃ e' r', Lbfgs.optimize (lbfgsMat c f g u) mem t0 fuel w x₀ = some (e', r') ∧ r'.it ≤ r.it ∧
      (e' ≠ .gradient → (e', r') = (e, r)) := by
  have key : ∀ (fuel : Nat) (s : LSt W (EuclideanSpace ℝ (Fin m × Fin n))) (q : Lbfgs.Exit × LSt W (EuclideanSpace ℝ (Fin m × Fin n))),
      iterate (Lbfgs.step (lbfgsEnv c f g u)) fuel s = some q → s.it ≤ q.2.it ∧
        ∃ q', iterate (Lbfgs.step (lbfgsMat c f g u)) fuel s = some q' ∧ q'.2.it ≤ q.2.it ∧ (q'.1 ≠ .gradient → q' = q) := by
    intro fuel
    induction fuel with
    | zero => intro s q h; cases h
    | succ k ih =>
      intro s q h
      have hmono : s.it ≤ q.2.it := by
        rw [iterate] at h
        cases hs : Lbfgs.step (lbfgsEnv c f g u) s with
        | inl s' =>
          rw [hs] at h
          obtain ⟨e, t, -, -, -, -, -, hit, -⟩ := ((step_cases s).1 s' hs).run
          have := (ih s' q h).1
          omega
        | inr q' =>
          rw [hs] at h
          cases h
          rcases (step_cases s).2 q hs with ⟨-, hit, -⟩ | ⟨-, hit, -⟩
          · omega
          · omega
      refine ⟨hmono, ?_⟩
      rw [iterate] at h
      rcases step_mat (c := c) (f := f) (g := g) (u := u) s with ⟨-, ⟨h1, h2⟩ | h1⟩ | ⟨-, h1⟩
      · rw [h2] at h; cases h
        exact ⟨_, by rw [iterate, h1], le_refl _, fun _ => rfl⟩
      · exact ⟨_, by rw [iterate, h1], hmono, fun hh => absurd rfl hh⟩
      · cases hs : Lbfgs.step (lbfgsEnv c f g u) s with
        | inl s' =>
          rw [hs] at h h1
          obtain ⟨q', hq, hr⟩ := (ih s' q h).2
          exact ⟨q', by rw [iterate, h1]; exact hq, hr⟩
        | inr q' =>
          rw [hs] at h h1
          cases h
          exact ⟨_, by rw [iterate, h1], le_refl _, fun _ => rfl⟩
  unfold Lbfgs.optimize at h ⊢
  rw [Option.map_eq_some_iff] at h
  obtain ⟨q, hq, heq⟩ := h
  simp only [Prod.mk.injEq] at heq
  obtain ⟨rfl, rfl⟩ := heq
  obtain ⟨-, q', hq', h1, h2⟩ := key fuel _ q hq
  have hstart : Lbfgs.start (lbfgsMat c f g u) mem t0 w x₀ = Lbfgs.start (lbfgsEnv c f g u) mem t0 w x₀ := rfl
  refine ⟨q'.1, { q'.2 with w := u.end_ q'.2.w q'.2.x }, by rw [hstart, hq']; rfl, h1, fun hh => ?_⟩
  have := h2 hh
  subst this
  rfl

end Stop

/-! ### A run that stops at once -/

/-- `9/10` of the identity, as parameters. -/
noncomputable def nine : EuclideanSpace ℝ (Fin 2 × Fin 2) := WithLp.toLp 2 fun p => if p.1 = p.2 then 9 / 10 else 0

theorem matOf_nine : matOf nine = (9 / 10 : ℝ) • 1 := by
  funext i j
  simp [matOf, nine, Matrix.one_apply]

theorem norm_nine : 1 < ‖nine‖ := by
  have h : ‖nine‖ ^ 2 = 2 * (9 / 10) ^ 2 := by
    rw [← fro_matOf, matOf_nine, fro_smul, fro_one, mul_pow, Real.sq_sqrt (Nat.cast_nonneg _)]
    norm_num
  by_contra hc
  have := pow_le_pow_left₀ (norm_nonneg nine) (not_lt.1 hc) 2
  rw [h] at this
  norm_num at this

/-- No callbacks. -/
def quiet {V : Type} : LbfgsCb Unit V := ⟨fun w _ _ _ => (w, false), fun w _ => w, fun w _ => (w, false), fun w _ => w⟩

/-- Half the squared length, its gradient, the default settings but `minGradientNorm = 1`. -/
noncomputable abbrev nineEnv := lbfgsMat (W := Unit) { lbfgsDefault with minGradientNorm := 1 }
  (fun x : EuclideanSpace ℝ (Fin 2 × Fin 2) => ‖x‖ ^ 2 / 2) id quiet

theorem half_convex : StronglyConvex (fun x : EuclideanSpace ℝ (Fin 2 × Fin 2) => ‖x‖ ^ 2 / 2) id 1 := by
  intro x y
  have h := norm_sub_sq_real y x
  have e : inner ℝ x (y - x) = inner ℝ x y - ‖x‖ ^ 2 := by rw [inner_sub_right, real_inner_self_eq_norm_sq]
  rw [real_inner_comm] at h
  simp only [id]
  linarith

theorem nine_start : ‖nine‖ ^ 2 / 2 < (10 : ℝ) ^ 300 := by
  have h : ‖nine‖ ^ 2 / 2 ≤ 1 := by
    rw [← fro_matOf, matOf_nine, fro_smul, fro_one, mul_pow, Real.sq_sqrt (Nat.cast_nonneg _)]
    norm_num
  have h300 : (10 : ℝ) ^ 1 ≤ 10 ^ 300 := pow_le_pow_right₀ (by norm_num) (by norm_num)
  exact h.trans_lt ((by norm_num : (1 : ℝ) < 10 ^ 1).trans_le h300)

theorem nine_stops : ∃ r, Lbfgs.optimize nineEnv (fun _ => 0, fun _ => 0) false 1 () nine = some (.gradient, r) ∧ r.x = nine := by
  have hs : nineEnv.gradSmall nine = true := by
    refine decide_eq_true ?_
    rw [matOf_nine, armaNorm_smul_one, abs_of_pos (by norm_num)]
    norm_num
  unfold Lbfgs.optimize
  rw [iterate, Lbfgs.step, if_neg (by simp [nineEnv, lbfgsMat, lbfgsEnv, lbfgsDefault, Lbfgs.start, quiet])]
  simp only
  rw [if_pos (by exact hs)]
  exact ⟨_, rfl, rfl⟩

/-- **C308** On a parameter matrix, L-BFGS stops because of `minGradientNorm` although the length of the gradient is not below it - nor the
distance from the minimiser, which `C256_gradient_exit` guarantees on a vector (`μ = 1`). -/
theorem C308_lbfgs_stop_refuted : ∃ (c : LbfgsCfg) (f : EuclideanSpace ℝ (Fin 2 × Fin 2) → ℝ) (g : _ → _) (x₀ : _) (r : LSt Unit _),
    0 ≤ c.factr ∧ f x₀ < c.maxVal ∧ StronglyConvex f g 1 ∧ g 0 = 0 ∧
    Lbfgs.optimize (lbfgsMat c f g quiet) (fun _ => 0, fun _ => 0) false 1 () x₀ = some (.gradient, r) ∧
    c.minGradientNorm < ‖g r.x‖ ∧ c.minGradientNorm / 1 < ‖r.x - 0‖ := by
  obtain ⟨r, hr, hx⟩ := nine_stops
  refine ⟨_, _, _, nine, r, ?_, ?_, ?_, rfl, hr, ?_, ?_⟩
  · norm_num [lbfgsDefault]
  · exact nine_start
  · exact half_convex
  · rw [hx]; exact norm_nine
  · rw [hx, sub_zero, div_one]; exact norm_nine

/-- The case also meets the hypotheses of `C308_lbfgs_stop_partial`; it is within `√2`. -/
example : ‖nine - 0‖ ≤ √(min 2 2 : Nat) * 1 / 1 := by
  obtain ⟨r, hr, hx⟩ := nine_stops
  rw [← hx]
  exact (C308_lbfgs_stop_partial one_pos half_convex (by norm_num [lbfgsDefault]) nine_start hr).2 0 rfl

/-- `C308_lbfgs_no_later` on the run with `minGradientNorm = 2`, which also stops at once on the vectorised parameters. -/
example : ∃ e' r', Lbfgs.optimize (lbfgsMat { lbfgsDefault with minGradientNorm := 2 }
    (fun x : EuclideanSpace ℝ (Fin 2 × Fin 2) => ‖x‖ ^ 2 / 2) id quiet) (fun _ => 0, fun _ => 0) false 1 () nine = some (e', r') ∧
      r'.it ≤ 0 := by
  have hs : ‖nine‖ < 2 := by
    by_contra hc
    have h1 := pow_le_pow_left₀ (by norm_num) (not_lt.1 hc) 2
    rw [← fro_matOf, matOf_nine, fro_smul, fro_one, mul_pow, Real.sq_sqrt (Nat.cast_nonneg _)] at h1
    norm_num at h1
  have hrun : ∃ r, Lbfgs.optimize (lbfgsEnv { lbfgsDefault with minGradientNorm := 2 }
      (fun x : EuclideanSpace ℝ (Fin 2 × Fin 2) => ‖x‖ ^ 2 / 2) id quiet) (fun _ => 0, fun _ => 0) false 1 () nine =
        some (.gradient, r) ∧ r.it = 0 := by
    unfold Lbfgs.optimize
    rw [iterate, Lbfgs.step, if_neg (by simp [lbfgsEnv, lbfgsDefault, Lbfgs.start, quiet])]
    simp only
    rw [if_pos (by exact decide_eq_true hs)]
    exact ⟨_, rfl, rfl⟩
  obtain ⟨r, hr, h0⟩ := hrun
  obtain ⟨e', r', h1, h2, -⟩ := C308_lbfgs_no_later hr
  exact ⟨e', r', h1, h0 ▸ h2⟩

/-! ### WNGrad -/

/-- **C308** WNGrad moves a parameter matrix differently from the same parameters as one column: one step from zero with step size 1 and
`9/10` of the identity as gradient differs when the four numbers are a column. -/
theorem C308_wnGrad_refuted :
    matOf (Update.wnGrad.run (1 : ℝ) () (0 : EuclideanSpace ℝ (Fin 2 × Fin 2)) [(1, nine)]).2.2 ≠
      (Update.wnGrad.run (1 : ℝ) () (0 : Mat 2 2) [(1, matOf nine)]).2.2 := by
  intro h
  have h1 := congrFun (congrFun h 0) 0
  have e1 : ‖nine‖ ^ 2 = 2 * (9 / 10) ^ 2 := by
    rw [← fro_matOf, matOf_nine, fro_smul, fro_one, mul_pow, Real.sq_sqrt (Nat.cast_nonneg _)]
    norm_num
  have e2 : ‖matOf nine‖ = 9 / 10 := by
    have := armaNorm_smul_one (n := 2) (9 / 10 : ℝ)
    rw [← matOf_nine, abs_of_pos (by norm_num)] at this
    exact this
  simp only [Update.Owned.run, Update.wnGrad, e1, e2] at h1
  norm_num [matOf, nine] at h1

/-- **C308** On a row or a column it is the same. -/
theorem C308_wnGrad_partial (hv : m = 1 ∨ n = 1) (b : ℝ) (x : EuclideanSpace ℝ (Fin m × Fin n))
    (l : List (ℝ × EuclideanSpace ℝ (Fin m × Fin n))) :
    (Update.wnGrad.run b () (matOf x) (l.map fun p => (p.1, matOf p.2))).2.2 = matOf (Update.wnGrad.run b () x l).2.2 := by
  induction l generalizing b x with
  | nil => rfl
  | cons p l ih =>
    have e : ‖matOf p.2‖ = ‖p.2‖ := (armaNorm_vec _ hv).trans (fro_matOf _)
    have h := ih (b + p.1 ^ 2 / b * ‖p.2‖ ^ 2) (x - (p.1 / (b + p.1 ^ 2 / b * ‖p.2‖ ^ 2)) • p.2)
    rw [List.map_cons, Update.Owned.run, Update.Owned.run]
    simp only [Update.wnGrad, e] at h ⊢
    exact h

end Ens.Shape
