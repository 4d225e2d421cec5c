import Mathlib.Data.Matrix.Mul
import Mathlib.Algebra.BigOperators.Field
import Verif.Problems.LogisticProps

/-
C217-C220: softmax regression: the objective and its gradient, batches, partial gradients, shuffling.
-/

namespace Ens.Problems.Softmax

open Real

variable {K d n D : Nat}

/-- The labels are classes, and `groundTruth` is the matrix the constructor makes of them. -/
def Labelled (S : Softmax K d n) (labels : Fin n → Fin K) : Prop := S.gt = groundTruth fun i => (labels i).val

/-- Exponents from general features: `θ` row `k` times the features of point `i`. -/
def lin (a : Fin n → Fin D → ℝ) (θ : Fin K × Fin D → ℝ) (i : Fin n) (k : Fin K) : ℝ := ∑ j, θ (k, j) * a i j

/-- The features of the points with the constant one first. -/
def withOne (X : Fin n → Fin d → ℝ) : Fin n → Fin (d + 1) → ℝ := fun i => Fin.cons 1 (X i)

theorem logits_lin (S : Softmax K d n) (θ : Fin K × Fin d → ℝ) : S.logits θ = lin S.X θ := rfl

theorem logitsI_lin (S : Softmax K d n) (θ : Fin K × Fin (d + 1) → ℝ) : S.logitsI θ = lin (withOne S.X) θ := by
  funext i k
  rw [lin, Fin.sum_univ_succ]
  simp [logitsI, withOne]

/-- The gradient from general features. -/
noncomputable def gradLin (S : Softmax K d n) (a : Fin n → Fin D → ℝ) (s : Finset (Fin n)) (m : ℝ) (θ : Fin K × Fin D → ℝ) :
    Fin K × Fin D → ℝ := fun q =>
  (∑ i ∈ s, (probs (lin a θ) i q.1 - S.gt q.1 i) * a i q.2) / m + S.lam * θ q

theorem gradient_lin (S : Softmax K d n) (θ : Fin K × Fin d → ℝ) : S.gradient θ = S.gradLin S.X Finset.univ n θ := rfl

theorem gradientI_lin (S : Softmax K d n) (θ : Fin K × Fin (d + 1) → ℝ) :
    S.gradientI θ = S.gradLin (withOne S.X) Finset.univ n θ := by
  funext q
  obtain ⟨k, j⟩ := q
  rw [gradientI, gradLin, logitsI_lin]
  induction j using Fin.cases <;> rfl

theorem sumExp_pos (h : Fin K → ℝ) (k : Fin K) : 0 < ∑ l, exp (h l) :=
  Finset.sum_pos (fun l _ => exp_pos _) ⟨k, Finset.mem_univ k⟩

/-- **C217** The probabilities of a point are positive and add up to one. -/
theorem C217_probabilities (h : Fin n → Fin K → ℝ) (hK : 0 < K) (i : Fin n) :
    (∀ k, 0 < probs h i k) ∧ ∑ k, probs h i k = 1 := by
  have hp := sumExp_pos (h i) ⟨0, hK⟩
  refine ⟨fun k => div_pos (exp_pos _) hp, ?_⟩
  simp only [probs]
  rw [← Finset.sum_div, div_self hp.ne']

theorem log_probs (h : Fin n → Fin K → ℝ) (i : Fin n) (k : Fin K) : log (probs h i k) = h i k - log (∑ l, exp (h i l)) := by
  rw [probs, log_div (exp_pos _).ne' (sumExp_pos (h i) k).ne', log_exp]

theorem labelled_sum {S : Softmax K d n} {labels : Fin n → Fin K} (hl : S.Labelled labels) (i : Fin n) (t : Fin K → ℝ) :
    ∑ k, S.gt k i * t k = t (labels i) := by
  rw [hl]
  rw [Finset.sum_eq_single (labels i)]
  · simp [groundTruth]
  · intro k _ hk
    simp [groundTruth, Fin.val_inj, hk.symm]
  · intro h; exact absurd (Finset.mem_univ _) h

theorem labelled_apply {S : Softmax K d n} {labels : Fin n → Fin K} (hl : S.Labelled labels) (i : Fin n) (k : Fin K) :
    S.gt k i = if labels i = k then 1 else 0 := by
  rw [hl]; simp [groundTruth, Fin.val_inj]

/-- The mean cross-entropy over the points of `s` counted `m` times, with weight decay. -/
noncomputable def meanLoss (S : Softmax K d n) (labels : Fin n → Fin K) (a : Fin n → Fin D → ℝ) (s : Finset (Fin n)) (m : ℝ)
    (θ : Fin K × Fin D → ℝ) : ℝ :=
  (∑ i ∈ s, (log (∑ l, exp (∑ j, θ (l, j) * a i j)) - ∑ j, θ (labels i, j) * a i j)) / m + S.lam / 2 * ∑ q, θ q ^ 2

theorem cost_eq {S : Softmax K d n} {labels : Fin n → Fin K} (hl : S.Labelled labels) (a : Fin n → Fin D → ℝ)
    (θ : Fin K × Fin D → ℝ) : S.cost (lin a θ) θ = S.meanLoss labels a Finset.univ n θ := by
  rw [cost, meanLoss, neg_div']
  congr 1
  · congr 1
    rw [← Finset.sum_neg_distrib]
    refine Finset.sum_congr rfl fun i _ => ?_
    rw [labelled_sum hl i fun k => log (probs (lin a θ) i k), log_probs, neg_sub]
    rfl
  · norm_num
    rw [show S.lam / 2 = 1 / 2 * S.lam by ring]
    congr 1
    exact Finset.sum_congr rfl fun q _ => by ring

/-- **C217** `Evaluate` is the mean cross-entropy of the labels plus `λ/2` times the squared parameters (with the
intercept, the feature one is added to every point). -/
theorem C217_textbook {S : Softmax K d n} {labels : Fin n → Fin K} (hl : S.Labelled labels) :
    (∀ θ, S.evaluate θ =
      (∑ i, (log (∑ l, exp (∑ j, θ (l, j) * S.X i j)) - ∑ j, θ (labels i, j) * S.X i j)) / n + S.lam / 2 * ∑ q, θ q ^ 2) ∧
    ∀ θ, S.evaluateI θ =
      (∑ i, (log (∑ l, exp (θ (l, 0) + ∑ j : Fin d, θ (l, j.succ) * S.X i j)) -
        (θ (labels i, 0) + ∑ j : Fin d, θ (labels i, j.succ) * S.X i j))) / n + S.lam / 2 * ∑ q, θ q ^ 2 := by
  refine ⟨fun θ => cost_eq hl S.X θ, fun θ => ?_⟩
  rw [evaluateI, logitsI_lin, cost_eq hl, meanLoss]
  simp only [Fin.sum_univ_succ (n := d), withOne, Fin.cons_zero, Fin.cons_succ, mul_one]

theorem grad_lin (a : Fin n → Fin D → ℝ) (θ : Fin K × Fin D → ℝ) (i : Fin n) (k : Fin K) :
    GradAt (fun η => lin a η i k) (fun q => if q.1 = k then a i q.2 else 0) θ := by
  refine (GradAt.affine 0 (fun q : Fin K × Fin D => if q.1 = k then a i q.2 else 0) θ).congr (fun η => ?_) fun _ => rfl
  rw [zero_add, Fintype.sum_prod_type, Finset.sum_eq_single k]
  · simp [lin, mul_comm]
  · intro l _ hl; simp [hl]
  · intro h; exact absurd (Finset.mem_univ _) h

theorem grad_lse (a : Fin n → Fin D → ℝ) (θ : Fin K × Fin D → ℝ) (i : Fin n) (hK : 0 < K) :
    GradAt (fun η => log (∑ l, exp (lin a η i l))) (fun q => probs (lin a θ) i q.1 * a i q.2) θ := by
  have h1 : ∀ l ∈ (Finset.univ : Finset (Fin K)), GradAt (fun η => exp (lin a η i l))
      (fun q => exp (lin a θ i l) * if q.1 = l then a i q.2 else 0) θ := fun l _ =>
    GradAt.comp (h := exp) (f := fun η => lin a η i l) (hasDerivAt_exp (lin a θ i l)) (grad_lin a θ i l)
  have hp := sumExp_pos (lin a θ i) ⟨0, hK⟩
  have h2 := GradAt.comp (h := log) (f := fun η => ∑ l, exp (lin a η i l)) (hasDerivAt_log hp.ne') (GradAt.total h1)
  refine h2.congr (fun _ => rfl) fun q => ?_
  simp only [mul_ite, mul_zero, Finset.sum_ite_eq, Finset.mem_univ, if_true, probs]
  field_simp

theorem grad_meanLoss {S : Softmax K d n} {labels : Fin n → Fin K} (hl : S.Labelled labels) (a : Fin n → Fin D → ℝ)
    (s : Finset (Fin n)) (m : ℝ) (θ : Fin K × Fin D → ℝ) : GradAt (S.meanLoss labels a s m) (S.gradLin a s m θ) θ := by
  have h1 : ∀ i ∈ s, GradAt (fun η => log (∑ l, exp (lin a η i l)) + -1 * lin a η i (labels i))
      (fun q => probs (lin a θ) i q.1 * a i q.2 + -1 * if q.1 = labels i then a i q.2 else 0) θ := fun i _ =>
    (grad_lse a θ i (labels i).pos).plus ((grad_lin a θ i (labels i)).smul (-1))
  have h2 := (GradAt.total h1).smul m⁻¹
  have h3 : ∀ q ∈ (Finset.univ : Finset (Fin K × Fin D)), GradAt (fun η : Fin K × Fin D → ℝ => η q ^ 2)
      (fun r => 2 * θ q * (Pi.single q 1 : Fin K × Fin D → ℝ) r) θ := by
    intro q _
    have hc : GradAt (fun η : Fin K × Fin D → ℝ => η q) (Pi.single q 1) θ :=
      (GradAt.affine 0 (Pi.single q 1) θ).congr (fun y => by simp [Pi.single_apply]) fun _ => rfl
    have hd : HasDerivAt (fun t : ℝ => t ^ 2) (2 * θ q) (θ q) := by simpa using hasDerivAt_pow 2 (θ q)
    exact GradAt.comp (h := fun t : ℝ => t ^ 2) hd hc
  refine (h2.plus ((GradAt.total h3).smul (S.lam / 2))).congr (fun η => ?_) fun q => ?_
  · rw [meanLoss, div_eq_inv_mul]
    congr 2
    exact Finset.sum_congr rfl fun i _ => by simp only [lin]; ring
  · rw [gradLin, div_eq_inv_mul]
    congr 1
    · congr 1
      refine Finset.sum_congr rfl fun i _ => ?_
      rw [labelled_apply hl]
      by_cases h : q.1 = labels i
      · simp [h]; ring
      · simp [h, Ne.symm h]
    · simp [Pi.single_apply]; ring

/-- **C217** `Gradient` is the gradient of `Evaluate`, with and without intercept. -/
theorem C217_gradient {S : Softmax K d n} {labels : Fin n → Fin K} (hl : S.Labelled labels) :
    (∀ θ, GradAt S.evaluate (S.gradient θ) θ) ∧ ∀ θ, GradAt S.evaluateI (S.gradientI θ) θ := by
  refine ⟨fun θ => ?_, fun θ => ?_⟩
  · exact (grad_meanLoss hl S.X Finset.univ n θ).congr (fun η => cost_eq hl S.X η) fun _ => rfl
  · refine (grad_meanLoss hl (withOne S.X) Finset.univ n θ).congr (fun η => ?_) fun q => by rw [gradientI_lin]
    rw [evaluateI, logitsI_lin, cost_eq hl]

theorem lse_tangent (h g : Fin K → ℝ) (hK : 0 < K) :
    log (∑ l, exp (h l)) + ∑ l, exp (h l) / (∑ c, exp (h c)) * (g l - h l) ≤ log (∑ l, exp (g l)) := by
  have hp := sumExp_pos h ⟨0, hK⟩
  have hg := sumExp_pos g ⟨0, hK⟩
  have hj := convexOn_exp.map_sum_le (t := Finset.univ) (w := fun l => exp (h l) / ∑ c, exp (h c)) (p := fun l => g l - h l)
    (fun l _ => by positivity) (by rw [← Finset.sum_div, div_self hp.ne']) (fun _ _ => Set.mem_univ _)
  simp only [smul_eq_mul] at hj
  have e : ∑ l, exp (h l) / (∑ c, exp (h c)) * exp (g l - h l) = (∑ l, exp (g l)) / ∑ c, exp (h c) := by
    rw [Finset.sum_div]
    refine Finset.sum_congr rfl fun l _ => ?_
    rw [exp_sub]
    have := exp_pos (h l)
    field_simp
  rw [e] at hj
  have h3 := log_le_log (exp_pos _) hj
  rw [log_exp, log_div hg.ne' hp.ne'] at h3
  linarith

theorem meanLoss_tangent {S : Softmax K d n} {labels : Fin n → Fin K} (hl : S.Labelled labels) (hlam : 0 ≤ S.lam)
    (a : Fin n → Fin D → ℝ) (s : Finset (Fin n)) (m : ℝ) (hm : 0 ≤ m) (θ η : Fin K × Fin D → ℝ) :
    S.meanLoss labels a s m θ + ∑ q, S.gradLin a s m θ q * (η q - θ q) ≤ S.meanLoss labels a s m η := by
  have h1 : ∀ i, log (∑ l, exp (lin a θ i l)) - lin a θ i (labels i) +
      ∑ l, (probs (lin a θ) i l - S.gt l i) * (lin a η i l - lin a θ i l) ≤
        log (∑ l, exp (lin a η i l)) - lin a η i (labels i) := by
    intro i
    have ht := lse_tangent (lin a θ i) (lin a η i) (labels i).pos
    have hs := labelled_sum hl i fun l => lin a η i l - lin a θ i l
    simp only [sub_mul, Finset.sum_sub_distrib]
    simp only [probs]
    rw [hs]
    linarith
  have h2 := Finset.sum_le_sum fun i (_ : i ∈ s) => h1 i
  rw [Finset.sum_add_distrib] at h2
  have h3 := div_le_div_of_nonneg_right h2 hm
  have h4 : ∑ q, θ q ^ 2 + ∑ q, 2 * θ q * (η q - θ q) ≤ ∑ q, η q ^ 2 := by
    rw [← Finset.sum_add_distrib]
    exact Finset.sum_le_sum fun q _ => by nlinarith [sq_nonneg (η q - θ q)]
  have h5 := mul_le_mul_of_nonneg_left h4 (by positivity : (0 : ℝ) ≤ S.lam / 2)
  have h6 : ∑ q, S.gradLin a s m θ q * (η q - θ q) =
      (∑ i ∈ s, ∑ l, (probs (lin a θ) i l - S.gt l i) * (lin a η i l - lin a θ i l)) / m +
        S.lam / 2 * ∑ q, 2 * θ q * (η q - θ q) := by
    simp only [gradLin, add_mul, Finset.sum_add_distrib]
    congr 1
    · have e : ∀ i l, (probs (lin a θ) i l - S.gt l i) * (lin a η i l - lin a θ i l) =
          ∑ j, (probs (lin a θ) i l - S.gt l i) * a i j * (η (l, j) - θ (l, j)) := by
        intro i l
        rw [show lin a η i l - lin a θ i l = ∑ j, (η (l, j) - θ (l, j)) * a i j by
          simp only [lin, sub_mul, Finset.sum_sub_distrib], Finset.mul_sum]
        exact Finset.sum_congr rfl fun j _ => by ring
      simp only [e]
      rw [Fintype.sum_prod_type, Finset.sum_div]
      simp only [Finset.sum_div, Finset.sum_mul]
      rw [Finset.sum_comm' (t' := Finset.univ) (s' := fun _ => s) (by simp)]
      refine Finset.sum_congr rfl fun l _ => ?_
      rw [Finset.sum_comm]
      exact Finset.sum_congr rfl fun i _ => Finset.sum_congr rfl fun j _ => by ring
    · rw [Finset.mul_sum]
      exact Finset.sum_congr rfl fun q _ => by ring
  rw [h6, meanLoss, meanLoss]
  simp only [lin] at h3 h5 ⊢
  rw [add_div] at h3
  linarith

/-- **C217** With `lambda ≥ 0` the objective lies above its tangents, and a zero of `Gradient` is a global minimum. -/
theorem C217_convex {S : Softmax K d n} {labels : Fin n → Fin K} (hl : S.Labelled labels) (hlam : 0 ≤ S.lam) :
    (∀ θ η, S.evaluate θ + ∑ q, S.gradient θ q * (η q - θ q) ≤ S.evaluate η) ∧
    (∀ θ η, S.evaluateI θ + ∑ q, S.gradientI θ q * (η q - θ q) ≤ S.evaluateI η) ∧
    (∀ θ, S.gradient θ = 0 → ∀ η, S.evaluate θ ≤ S.evaluate η) ∧
    ∀ θ, S.gradientI θ = 0 → ∀ η, S.evaluateI θ ≤ S.evaluateI η := by
  have h1 : ∀ θ η, S.evaluate θ + ∑ q, S.gradient θ q * (η q - θ q) ≤ S.evaluate η := by
    intro θ η
    have := meanLoss_tangent hl hlam S.X Finset.univ n (Nat.cast_nonneg n) θ η
    rwa [← cost_eq hl, ← cost_eq hl] at this
  have h2 : ∀ θ η, S.evaluateI θ + ∑ q, S.gradientI θ q * (η q - θ q) ≤ S.evaluateI η := by
    intro θ η
    have := meanLoss_tangent hl hlam (withOne S.X) Finset.univ n (Nat.cast_nonneg n) θ η
    rwa [← cost_eq hl, ← cost_eq hl, ← logitsI_lin, ← logitsI_lin, ← gradientI_lin] at this
  refine ⟨h1, h2, fun θ h0 η => ?_, fun θ h0 η => ?_⟩
  · have := h1 θ η; rw [h0] at this; simpa using this
  · have := h2 θ η; rw [h0] at this; simpa using this

/-- Two points, two classes, two features. -/
noncomputable def square : Softmax 2 2 2 := ⟨fun i j => i.val + j.val, groundTruth fun i => i.val, 1⟩

example : square.Labelled id := rfl

example : Covers 4 [(0, 2), (2, 2)] ∧ ∀ q ∈ [(0, 2), (2, 2)], q.2 = 2 :=
  ⟨⟨by simp, fun i hi => by interval_cases i <;> decide⟩, by simp⟩

/-! ### Batches -/

/-- **C218** The batch `Gradient` is the gradient of the mean cross-entropy over the batch plus the whole weight decay;
it throws exactly if the batch is empty or leaves the data. -/
theorem C218_gradient_batch {S : Softmax K d n} {labels : Fin n → Fin K} (hl : S.Labelled labels) (θ : Fin K × Fin d → ℝ)
    (b k : Nat) :
    (¬ (1 ≤ k ∧ b + k ≤ n) → S.gradientBatch θ b k = none) ∧
    (1 ≤ k ∧ b + k ≤ n → ∃ g, S.gradientBatch θ b k = some g ∧
      GradAt (fun η => (∑ i ∈ Finset.univ.filter (fun i : Fin n => b ≤ i.val ∧ i.val < b + k),
        (log (∑ l, exp (∑ j, η (l, j) * S.X i j)) - ∑ j, η (labels i, j) * S.X i j)) / k + S.lam / 2 * ∑ q, η q ^ 2) g θ) := by
  refine ⟨fun h => by rw [gradientBatch, if_neg h], fun h => ⟨_, by rw [gradientBatch, if_pos h], ?_⟩⟩
  exact grad_meanLoss hl S.X (batch n b k) k θ

/-- The same with intercept. -/
theorem C218_gradient_batch_intercept {S : Softmax K d n} {labels : Fin n → Fin K} (hl : S.Labelled labels)
    (θ : Fin K × Fin (d + 1) → ℝ) (b k : Nat) :
    (¬ (1 ≤ k ∧ b + k ≤ n) → S.gradientBatchI θ b k = none) ∧
    (1 ≤ k ∧ b + k ≤ n → ∃ g, S.gradientBatchI θ b k = some g ∧
      GradAt (fun η => (∑ i ∈ Finset.univ.filter (fun i : Fin n => b ≤ i.val ∧ i.val < b + k),
        (log (∑ l, exp (η (l, 0) + ∑ j : Fin d, η (l, j.succ) * S.X i j)) -
          (η (labels i, 0) + ∑ j : Fin d, η (labels i, j.succ) * S.X i j))) / k + S.lam / 2 * ∑ q, η q ^ 2) g θ) := by
  refine ⟨fun h => by rw [gradientBatchI, if_neg h], fun h => ⟨_, by rw [gradientBatchI, if_pos h], ?_⟩⟩
  refine (grad_meanLoss hl (withOne S.X) (batch n b k) k θ).congr (fun η => ?_) fun q => ?_
  · rw [meanLoss]
    simp only [Fin.sum_univ_succ (n := d), withOne, Fin.cons_zero, Fin.cons_succ, mul_one]
    rfl
  · obtain ⟨c, j⟩ := q
    rw [gradLin, logitsI_lin]
    induction j using Fin.cases <;> rfl

/-- **C218, refuted**: over an epoch the batch gradients add up to `Gradient`. -/
theorem C218_epoch_refuted : ¬ ∀ (K d n : Nat) (S : Softmax K d n) (labels : Fin n → Fin K) (θ : Fin K × Fin d → ℝ)
    (bs : List (Nat × Nat)) (gs : List (Fin K × Fin d → ℝ)), S.Labelled labels → Covers n bs →
    (bs.map fun q => S.gradientBatch θ q.1 q.2) = gs.map some → gs.sum = S.gradient θ := by
  intro h
  have h1 := h 1 1 2 ⟨fun _ _ => 0, groundTruth fun _ => 0, 1⟩ (fun _ => 0) (fun _ => 1) [(0, 1), (1, 1)]
    [fun _ => 1, fun _ => 1] rfl ⟨by simp, fun i hi => by interval_cases i <;> decide⟩
    (by simp [gradientBatch])
  have h2 := congrFun h1 (0, 0)
  simp [gradient] at h2

/-- **C218** What they add up to, for batches of one size: `Gradient` times the number of batches. -/
theorem C218_epoch_partial (S : Softmax K d n) (θ : Fin K × Fin d → ℝ) (k : Nat) (bs : List (Nat × Nat)) (h : Covers n bs)
    (hk : ∀ q ∈ bs, q.2 = k) :
    ∃ gs : List (Fin K × Fin d → ℝ), (bs.map fun q => S.gradientBatch θ q.1 q.2) = gs.map some ∧
      gs.sum = (bs.length : ℝ) • S.gradient θ := by
  refine ⟨bs.map fun q => S.gradLin S.X (batch n q.1 q.2) k θ, ?_, ?_⟩
  · rw [List.map_map]
    refine List.map_congr_left fun q hq => ?_
    rw [Function.comp, hk q hq, gradientBatch, if_pos (hk q hq ▸ h.1 q hq)]
    rfl
  · have hn : n = bs.length * k := by
      rw [← h.total, List.map_congr_left (g := fun _ => k) hk]
      simp
    funext c
    rw [list_sum_apply, List.map_map]
    have e : ∀ l : List (Nat × Nat), (l.map ((fun f : Fin K × Fin d → ℝ => f c) ∘ fun q => S.gradLin S.X (batch n q.1 q.2) k θ)).sum =
        (l.map fun q => ∑ i ∈ batch n q.1 q.2, (probs (S.logits θ) i c.1 - S.gt c.1 i) * S.X i c.2).sum / k +
          l.length * (S.lam * θ c) := by
      intro l
      induction l with
      | nil => simp
      | cons q l ih =>
        simp only [List.map_cons, List.sum_cons, ih, List.length_cons, Function.comp]
        rw [gradLin, logits_lin]
        push_cast
        ring
    rw [e, h.sum, Pi.smul_apply, smul_eq_mul, gradient, mul_add]
    congr 1
    rcases Nat.eq_zero_or_pos k with rfl | hk0
    · have : bs = [] := by
        rcases bs with _ | ⟨q, bs⟩
        · rfl
        · have h1 := h.1 q (List.mem_cons_self ..); have h2 := hk q (List.mem_cons_self ..); omega
      subst this; simp
    · rcases Nat.eq_zero_or_pos bs.length with h0 | hb
      · rw [h0, Nat.zero_mul] at hn
        subst hn; simp
      · have e1 : (k : ℝ) ≠ 0 := by positivity
        have e2 : (bs.length : ℝ) ≠ 0 := by positivity
        have e3 : (n : ℝ) = bs.length * k := by exact_mod_cast hn
        rw [e3]
        field_simp

/-- **C218** `Evaluate` on a batch throws for every number of classes that is not the number of parameters per class. -/
theorem C218_evaluate_throws (S : Softmax K d n) (b k : Nat) :
    (d ≠ K → ∀ θ, S.evaluateBatch θ b k = none) ∧ (d + 1 ≠ K → ∀ θ, S.evaluateBatchI θ b k = none) := by
  constructor <;> intro hK θ
  · unfold evaluateBatch costBatch accuProduct
    by_cases h : 1 ≤ k ∧ b + k ≤ n <;> simp [h, hK]
  · unfold evaluateBatchI costBatch accuProduct
    by_cases h : 1 ≤ k ∧ b + k ≤ n <;> simp [h, hK]

/-- **C218, refuted**: where it does not throw, the batch `Evaluate` on all of the data is `Evaluate`. -/
theorem C218_evaluate_refuted : ¬ ∀ (K d n : Nat) (S : Softmax K d n) (labels : Fin n → Fin K) (θ : Fin K × Fin d → ℝ) (v : ℝ),
    S.Labelled labels → S.evaluateBatch θ 0 n = some v → v = S.evaluate θ := by
  intro h
  have h1 := h 2 2 1 ⟨fun _ _ => 0, groundTruth fun _ => 0, 1⟩ (fun _ => 0) (fun q => if q = (0, 1) then 1 else 0) _ rfl
    (by rw [evaluateBatch, costBatch, if_pos (by omega), accuProduct, dif_pos rfl]; rfl)
  rw [evaluate, cost] at h1
  have e : batch 1 0 1 = Finset.univ := by decide
  rw [e] at h1
  have h2 := add_left_cancel h1
  norm_num [Fin.sum_univ_two, Fintype.sum_prod_type] at h2

/-- **C218** The value of the batch `Evaluate` where it does not throw: the mean cross-entropy of the batch, and the weight decay with
the entries of the square of the parameter matrix added up. -/
theorem C218_evaluate_value (S : Softmax K K n) (θ : Fin K × Fin K → ℝ) (b k : Nat) (hk : 1 ≤ k) (hb : b + k ≤ n) :
    S.evaluateBatch θ b k =
      some (-((∑ i ∈ batch n b k, ∑ c, S.gt c i * log (probs (S.logits θ) i c)) / k) +
        0.5 * S.lam * ∑ a, ∑ c, ((Matrix.of fun a c => θ (a, c)) * (Matrix.of fun a c => θ (a, c))) a c) := by
  rw [evaluateBatch, costBatch, if_pos ⟨hk, hb⟩, accuProduct, dif_pos rfl]
  simp [Matrix.mul_apply]

/-- **C218** Without weight decay, and where it does not throw, batches of one size add up to `Evaluate` times their number. -/
theorem C218_evaluate_partial (S : Softmax K d n) (θ : Fin K × Fin d → ℝ) (k : Nat) (bs : List (Nat × Nat)) (h : Covers n bs)
    (hk : ∀ q ∈ bs, q.2 = k) (hK : d = K) (hlam : S.lam = 0) :
    ∃ vs : List ℝ, (bs.map fun q => S.evaluateBatch θ q.1 q.2) = vs.map some ∧ vs.sum = bs.length * S.evaluate θ := by
  subst hK
  refine ⟨bs.map fun q => -((∑ i ∈ batch n q.1 q.2, ∑ c, S.gt c i * log (probs (S.logits θ) i c)) / k), ?_, ?_⟩
  · rw [List.map_map]
    refine List.map_congr_left fun q hq => ?_
    rw [Function.comp, hk q hq, evaluateBatch, costBatch, if_pos (hk q hq ▸ h.1 q hq), accuProduct, dif_pos rfl, hlam]
    simp
  · have hn : n = bs.length * k := by
      rw [← h.total, List.map_congr_left (g := fun _ => k) hk]
      simp
    have e : ∀ l : List (Nat × Nat), (l.map fun q => -((∑ i ∈ batch n q.1 q.2, ∑ c, S.gt c i * log (probs (S.logits θ) i c)) / (k : ℝ))).sum =
        -((l.map fun q => ∑ i ∈ batch n q.1 q.2, ∑ c, S.gt c i * log (probs (S.logits θ) i c)).sum / k) := by
      intro l
      induction l with
      | nil => simp
      | cons q l ih => simp only [List.map_cons, List.sum_cons, ih]; ring
    rw [e, h.sum, evaluate, cost, hlam]
    rcases Nat.eq_zero_or_pos k with rfl | hk0
    · have : bs = [] := by
        rcases bs with _ | ⟨q, bs⟩
        · rfl
        · have h1 := h.1 q (List.mem_cons_self ..); have h2 := hk q (List.mem_cons_self ..); omega
      subst this; simp
    · rcases Nat.eq_zero_or_pos bs.length with h0 | hb
      · rw [h0, Nat.zero_mul] at hn
        subst hn; simp
      · have e1 : (k : ℝ) ≠ 0 := by positivity
        have e2 : (bs.length : ℝ) ≠ 0 := by positivity
        have e3 : (n : ℝ) = bs.length * k := by exact_mod_cast hn
        rw [e3]
        field_simp
        ring

/-! ### Partial gradients -/

/-- **C219** Without intercept `PartialGradient(θ, j)` is column `j` of `Gradient` and zero elsewhere. -/
theorem C219_no_intercept_partial (S : Softmax K d n) (θ : Fin K × Fin d → ℝ) (j : Fin d) (q : Fin K × Fin d) :
    S.partialGradient θ j q = if q.2 = j then S.gradient θ q else 0 := by
  rw [partialGradient]
  split
  · next h => subst h; rfl
  · rfl

/-- **C219** With intercept: column 0 is right; column `j` from 1 on is made from row `j` of the data, which belongs to
column `j + 1`; and the last column throws. -/
theorem C219_intercept_partial (S : Softmax K d n) (θ : Fin K × Fin (d + 1) → ℝ) :
    S.partialGradientI θ 0 = some (fun q => if q.2 = 0 then S.gradientI θ q else 0) ∧
    (∀ (j : Fin d) (hj : 0 < j.val), ∃ g, S.partialGradientI θ j.castSucc = some g ∧
      (∀ c, g (c, j.castSucc) = S.gradientI θ (c, j.succ) - S.lam * θ (c, j.succ) + S.lam * θ (c, j.castSucc)) ∧
      ∀ c i, i ≠ j.castSucc → g (c, i) = 0) ∧
    (0 < d → S.partialGradientI θ (Fin.last d) = none) := by
  refine ⟨?_, fun j hj => ?_, fun hd => ?_⟩
  · rw [partialGradientI, if_pos rfl]
    refine congrArg some (funext fun q => ?_)
    obtain ⟨c, i⟩ := q
    by_cases h : i = 0
    · subst h; simp [gradientI]
    · simp [h]
  · refine ⟨_, by
      rw [partialGradientI, if_neg (by intro h; have := congrArg Fin.val h; simp at this; omega), dif_pos (by simp)], ?_, ?_⟩
    · intro c
      simp only [if_true, gradientI, Fin.cases_succ]
      simp
    · intro c i hi
      simp [hi]
  · rw [partialGradientI, if_neg (by intro h; have := congrArg Fin.val h; simp at this; omega), dif_neg (by simp)]

/-- **C219, refuted**: `PartialGradient(θ, j)` is column `j` of `Gradient` — it fails to return at all for the last column, and
the column it returns may be another feature's. -/
theorem C219_intercept_refuted :
    (¬ ∀ (K d n : Nat) (S : Softmax K d n) (θ : Fin K × Fin (d + 1) → ℝ) (j : Fin (d + 1)), ∃ g, S.partialGradientI θ j = some g) ∧
    ¬ ∀ (K d n : Nat) (S : Softmax K d n) (labels : Fin n → Fin K) (θ : Fin K × Fin (d + 1) → ℝ) (j : Fin (d + 1))
      (g : Fin K × Fin (d + 1) → ℝ), S.Labelled labels → S.partialGradientI θ j = some g →
      ∀ c, g (c, j) = S.gradientI θ (c, j) := by
  constructor
  · intro h
    obtain ⟨g, hg⟩ := h 1 1 1 ⟨fun _ _ => 0, fun _ _ => 0, 0⟩ (fun _ => 0) 1
    have := (C219_intercept_partial (⟨fun _ _ => 0, fun _ _ => 0, 0⟩ : Softmax 1 1 1) (fun _ => 0)).2.2 (by omega)
    rw [show (Fin.last 1) = (1 : Fin 2) from rfl, hg] at this
    cases this
  · intro h
    let S : Softmax 2 2 1 := ⟨fun _ j => if j = 1 then 1 else 0, groundTruth fun _ => 0, 0⟩
    obtain ⟨g, hg, hc, -⟩ := (C219_intercept_partial S (fun _ => 0)).2.1 1 (by decide)
    have h1 := h 2 2 1 S (fun _ => 0) (fun _ => 0) (1 : Fin 2).castSucc g rfl hg 1
    rw [hc 1] at h1
    have e : (1 : Fin 2).castSucc = (0 : Fin 2).succ := rfl
    rw [e, gradientI, gradientI] at h1
    simp only [Fin.cases_succ] at h1
    simp [S, groundTruth, probs, logitsI] at h1

/-! ### Shuffling -/

/-- **C220** With more points than classes — any real use — `Shuffle` throws whatever ordering is drawn. -/
theorem C220_shuffle_throws {S : Softmax K d n} {labels : Fin n → Fin K} (hl : S.Labelled labels) (hn : K < n)
    (ord : Equiv.Perm (Fin n)) : S.shuffle ord = none := by
  rw [shuffle, if_neg]
  intro h
  have h1 := h (labels (ord ⟨K, hn⟩)) (ord ⟨K, hn⟩) (by rw [labelled_apply hl]; simp)
  simp at h1

/-- **C220, refuted**: where `Shuffle` returns, the objective is the one from before. -/
theorem C220_shuffle_refuted : ¬ ∀ (K d n : Nat) (S S' : Softmax K d n) (labels : Fin n → Fin K) (ord : Equiv.Perm (Fin n))
    (θ : Fin K × Fin d → ℝ), S.Labelled labels → S.shuffle ord = some S' → S'.evaluate θ = S.evaluate θ := by
  intro h
  let S : Softmax 2 1 2 := ⟨fun i _ => i.val, groundTruth fun _ => 0, 0⟩
  let S' : Softmax 2 1 2 := ⟨fun i _ => i.val, fun a b => if b = 0 then 1 else 0, 0⟩
  have hs : S.shuffle (Equiv.refl _) = some S' := by
    rw [shuffle, if_pos (fun k i _ => ⟨i.isLt, k.isLt⟩)]
    refine congrArg some ?_
    simp only [S, S', groundTruth, Softmax.mk.injEq, Equiv.refl_apply, true_and, and_true]
    funext a b
    rw [dif_pos ⟨a.isLt, b.isLt⟩]
    fin_cases b <;> rfl
  have h1 := h 2 1 2 S S' (fun _ => 0) (Equiv.refl _) (fun q => if q.1 = 0 then 1 else 0) rfl hs
  simp [evaluate, cost, S, S', groundTruth, Fin.sum_univ_two, probs, logits] at h1
  have h2 : log (exp 1 / (exp 1 + 1)) = log (1 + 1)⁻¹ := by rw [log_inv]; linarith
  have h3 := log_injOn_pos (by simp only [Set.mem_Ioi]; positivity) (by simp only [Set.mem_Ioi]; positivity) h2
  have h4 := add_one_lt_exp (one_ne_zero (α := ℝ))
  rw [div_eq_iff (by positivity)] at h3
  linarith

/-- **C220** What `Shuffle` makes where it returns: the points in the drawn order, and the label matrix of the shuffled points with
rows and columns exchanged. -/
theorem C220_shuffle_result {S S' : Softmax K d n} {ord : Equiv.Perm (Fin n)} (h : S.shuffle ord = some S') :
    (∀ i, S'.X i = S.X (ord i)) ∧ S'.lam = S.lam ∧
      ∀ (k : Fin K) (i : Fin n) (hi : i.val < K) (hk : k.val < n), S'.gt ⟨i, hi⟩ ⟨k, hk⟩ = S.gt k (ord i) := by
  unfold shuffle at h
  split at h
  · cases h
    exact ⟨fun _ => rfl, rfl, fun k i hi hk => dif_pos ⟨i.isLt, k.isLt⟩⟩
  · cases h

/-- Three points of two classes: every use of `Shuffle` throws. -/
example (ord : Equiv.Perm (Fin 3)) :
    (⟨fun _ _ => 0, groundTruth fun i => i.val % 2, 0⟩ : Softmax 2 1 3).shuffle ord = none :=
  C220_shuffle_throws (S := ⟨fun _ _ => 0, groundTruth fun i => i.val % 2, 0⟩) (labels := fun i => ⟨i.val % 2, by omega⟩) rfl
    (by omega) ord

/-- What line 66-67 stored in the right order would give: the objective of the shuffled data is the same. -/
theorem C220_repaired_partial (S : Softmax K d n) (ord : Equiv.Perm (Fin n)) (θ : Fin K × Fin d → ℝ) :
    (⟨fun i => S.X (ord i), fun k i => S.gt k (ord i), S.lam⟩ : Softmax K d n).evaluate θ = S.evaluate θ := by
  rw [evaluate, evaluate, cost, cost]
  congr 2
  exact congrArg (· / (n : ℝ)) (Equiv.sum_comp ord fun i => ∑ k, S.gt k i * log (probs (S.logits θ) i k))

end Ens.Problems.Softmax
