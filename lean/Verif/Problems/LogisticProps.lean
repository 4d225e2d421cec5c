import Mathlib.Analysis.SpecialFunctions.ExpDeriv
import Mathlib.Analysis.SpecialFunctions.Log.Deriv
import Mathlib.Analysis.Convex.SpecificFunctions.Basic
import Mathlib.Analysis.Calculus.Deriv.Inv
import Mathlib.Analysis.Calculus.Deriv.Pow
import Mathlib.Tactic.FieldSimp
import Mathlib.Tactic.Linarith
import Mathlib.Tactic.NormNum
import Mathlib.Tactic.Positivity
import Mathlib.Tactic.IntervalCases
import Verif.Problems.Regression

/-
C214: what the logistic regression objective is, its gradients, batches, shuffling, predictions.
-/

namespace Ens.Problems

open Real

/-- Every point is in exactly one of the ranges, and no range is empty or leaves the data: the batches of one epoch. -/
def Covers (n : Nat) (bs : List (Nat × Nat)) : Prop :=
  (∀ q ∈ bs, 1 ≤ q.2 ∧ q.1 + q.2 ≤ n) ∧ ∀ i < n, bs.countP (fun q => q.1 ≤ i ∧ i < q.1 + q.2) = 1

theorem sum_batch {n : Nat} {M : Type} [AddCommMonoid M] (t : Fin n → M) (bs : List (Nat × Nat)) :
    (bs.map fun q => ∑ i ∈ batch n q.1 q.2, t i).sum =
      ∑ i : Fin n, bs.countP (fun q => q.1 ≤ i.val ∧ i.val < q.1 + q.2) • t i := by
  induction bs with
  | nil => simp
  | cons q bs ih =>
    rw [List.map_cons, List.sum_cons, ih, batch, Finset.sum_filter, ← Finset.sum_add_distrib]
    refine Finset.sum_congr rfl fun i _ => ?_
    rw [List.countP_cons]
    by_cases h : q.1 ≤ i.val ∧ i.val < q.1 + q.2
    · simp [h, add_smul, add_comm]
    · simp [h]

theorem Covers.sum {n : Nat} {M : Type} [AddCommMonoid M] (t : Fin n → M) {bs : List (Nat × Nat)} (h : Covers n bs) :
    (bs.map fun q => ∑ i ∈ batch n q.1 q.2, t i).sum = ∑ i, t i := by
  rw [sum_batch]
  exact Finset.sum_congr rfl fun i _ => by rw [h.2 i.val i.isLt, one_smul]

theorem card_batch {n b k : Nat} (h : b + k ≤ n) : (batch n b k).card = k := by
  have e : (batch n b k).map Fin.valEmbedding = Finset.Ico b (b + k) := by
    ext i
    simp only [batch, Finset.mem_map, Finset.mem_filter, Finset.mem_univ, true_and, Fin.valEmbedding_apply, Finset.mem_Ico]
    constructor
    · rintro ⟨a, ha, rfl⟩; exact ha
    · intro hi; exact ⟨⟨i, by omega⟩, hi, rfl⟩
  rw [← Finset.card_map, e, Nat.card_Ico]; omega

theorem Covers.total {n : Nat} {bs : List (Nat × Nat)} (h : Covers n bs) : (bs.map Prod.snd).sum = n := by
  have := h.sum (fun _ => (1 : Nat))
  simp only [Finset.sum_const, smul_eq_mul, mul_one, Finset.card_univ, Fintype.card_fin] at this
  rw [← this]
  refine congrArg List.sum (List.map_congr_left fun q hq => ?_)
  rw [card_batch (h.1 q hq).2]

theorem Covers.total_real {n : Nat} {bs : List (Nat × Nat)} (h : Covers n bs) : (bs.map fun q => (q.2 : ℝ)).sum = n := by
  have := congrArg (Nat.cast (R := ℝ)) h.total
  rw [Nat.cast_list_sum, List.map_map] at this
  exact this

theorem list_sum_apply {κ : Type} (l : List (κ → ℝ)) (c : κ) : l.sum c = (l.map fun f => f c).sum := by
  induction l with
  | nil => rfl
  | cons a l ih => rw [List.sum_cons, List.map_cons, List.sum_cons, Pi.add_apply, ih]

namespace Logistic

variable {d n : Nat}

theorem sigm_pos (t : ℝ) : 0 < sigm t := by unfold sigm; positivity

theorem sigm_lt_one (t : ℝ) : sigm t < 1 := by
  unfold sigm
  rw [div_lt_one (by positivity)]
  linarith [exp_pos (-t)]

theorem hasDerivAt_sigm (t : ℝ) : HasDerivAt sigm (sigm t * (1 - sigm t)) t := by
  have h1 : HasDerivAt (fun t : ℝ => 1 + exp (-t)) (-exp (-t)) t := by
    simpa using ((hasDerivAt_id t).neg.exp).const_add 1
  have hp : (1 + exp (-t)) ≠ 0 := by positivity
  have h2 := h1.inv hp
  have e : sigm = (fun t : ℝ => (1 + exp (-t)))⁻¹ := by funext t; simp [sigm]
  rw [e]
  refine h2.congr_deriv ?_
  simp only [Pi.inv_apply]
  field_simp
  ring

/-- Responses are zero or one. -/
def Binary (D : Logistic d n) : Prop := ∀ i, D.y i = 0 ∨ D.y i = 1

theorem lik_pos (y : Nat) (hy : y = 0 ∨ y = 1) (t : ℝ) : 0 < 1 - (y : ℝ) + sigm t * (2 * (y : ℝ) - 1) := by
  have := sigm_pos t
  have := sigm_lt_one t
  rcases hy with rfl | rfl <;> norm_num <;> linarith

theorem hasDerivAt_lik (y : Nat) (hy : y = 0 ∨ y = 1) (t : ℝ) :
    HasDerivAt (fun t => log (1 - (y : ℝ) + sigm t * (2 * (y : ℝ) - 1))) ((y : ℝ) - sigm t) t := by
  have h := (((hasDerivAt_sigm t).mul_const (2 * (y : ℝ) - 1)).const_add (1 - (y : ℝ))).log (lik_pos y hy t).ne'
  refine h.congr_deriv ?_
  have h0 := sigm_pos t
  have h1 := sigm_lt_one t
  rcases hy with rfl | rfl
  · have : 1 - sigm t ≠ 0 := by linarith
    norm_num
    rw [show 1 + -sigm t = 1 - sigm t by ring]
    field_simp
  · norm_num
    field_simp

/-- The features of a point, the constant one first. -/
def feat (x : Fin d → ℝ) : Fin (d + 1) → ℝ := Fin.cons 1 x

theorem margin_eq (p : Fin (d + 1) → ℝ) (x : Fin d → ℝ) : margin p x = 0 + ∑ j, feat x j * p j := by
  rw [Fin.sum_univ_succ]
  simp [margin, feat, mul_comm]

theorem grad_margin (p : Fin (d + 1) → ℝ) (x : Fin d → ℝ) : GradAt (fun q => margin q x) (feat x) p :=
  (GradAt.affine 0 (feat x) p).congr (fun y => margin_eq y x) fun _ => rfl

theorem grad_tailDot (p : Fin (d + 1) → ℝ) : GradAt (fun q => tailDot q) (Fin.cons 0 fun j : Fin d => 2 * p j.succ) p := by
  have h : ∀ j ∈ (Finset.univ : Finset (Fin d)), GradAt (fun q : Fin (d + 1) → ℝ => q j.succ * q j.succ)
      (fun i => 2 * p j.succ * (Pi.single j.succ 1 : Fin (d + 1) → ℝ) i) p := by
    intro j _
    have hc : GradAt (fun q : Fin (d + 1) → ℝ => q j.succ) (Pi.single j.succ 1) p :=
      (GradAt.affine 0 (Pi.single j.succ 1) p).congr (fun y => by simp [Pi.single_apply]) fun _ => rfl
    have hd : HasDerivAt (fun t : ℝ => t * t) (2 * p j.succ) (p j.succ) := by
      refine ((hasDerivAt_id (p j.succ)).mul (hasDerivAt_id (p j.succ))).congr_deriv ?_
      simp; ring
    exact hc.comp hd
  refine (GradAt.total h).congr (fun y => rfl) fun i => ?_
  induction i using Fin.cases with
  | zero => simp [Pi.single_apply, Fin.succ_ne_zero, eq_comm]
  | succ j => simp [Pi.single_apply]

theorem grad_logLik (D : Logistic d n) (hy : D.Binary) (p : Fin (d + 1) → ℝ) (i : Fin n) :
    GradAt (fun q => D.logLik q i) (fun c => ((D.y i : ℝ) - sigm (margin p (D.X i))) * feat (D.X i) c) p :=
  GradAt.comp (h := fun t => log (1 - (D.y i : ℝ) + sigm t * (2 * (D.y i : ℝ) - 1))) (f := fun q => margin q (D.X i))
    (hasDerivAt_lik (D.y i) (hy i) (margin p (D.X i))) (grad_margin p (D.X i))

theorem grad_part (D : Logistic d n) (hy : D.Binary) (p : Fin (d + 1) → ℝ) (s : Finset (Fin n)) (c : ℝ) :
    GradAt (fun q => c * tailDot q - ∑ i ∈ s, D.logLik q i)
      (Fin.cons (-∑ i ∈ s, ((D.y i : ℝ) - sigm (margin p (D.X i))))
        fun j => ∑ i ∈ s, (sigm (margin p (D.X i)) - (D.y i : ℝ)) * D.X i j + 2 * c * p j.succ) p := by
  have h1 := (grad_tailDot p).smul c
  have h2 := (GradAt.total (s := s) fun i _ => D.grad_logLik hy p i).smul (-1)
  refine (h1.plus h2).congr (fun y => by ring) fun k => ?_
  induction k using Fin.cases with
  | zero => simp [feat]
  | succ j =>
    simp only [Fin.cons_succ, feat]
    rw [neg_one_mul, ← Finset.sum_neg_distrib]
    rw [add_comm]
    congr 1
    · ring
    · exact Finset.sum_congr rfl fun i _ => by ring

/-- **C214** With responses in {0, 1}, `Gradient` is the gradient of `Evaluate`. -/
theorem C214_gradient (D : Logistic d n) (hy : D.Binary) (p : Fin (d + 1) → ℝ) : GradAt D.evaluate (D.gradient p) p := by
  refine (D.grad_part hy p Finset.univ (0.5 * D.lam)).congr (fun y => rfl) fun k => ?_
  induction k using Fin.cases with
  | zero => rfl
  | succ j => simp only [gradient, Fin.cons_succ]; congr 1; ring

/-- **C214** The same for a batch: where the batch lies in the data, `Evaluate` and `Gradient` on it return, and the
second is the gradient of the first; a batch that leaves the data makes both throw. -/
theorem C214_gradient_batch (D : Logistic d n) (hy : D.Binary) (p : Fin (d + 1) → ℝ) (b k : Nat) :
    (∃ f g, (∀ q, D.evaluateBatch q b k = some (f q)) ∧ D.gradientBatch p b k = some g ∧ GradAt f g p ∧ 1 ≤ k ∧ b + k ≤ n) ∨
      ((∀ q, D.evaluateBatch q b k = none) ∧ D.gradientBatch p b k = none ∧ ¬ (1 ≤ k ∧ b + k ≤ n)) := by
  by_cases h : 1 ≤ k ∧ b + k ≤ n
  · refine Or.inl ⟨_, _, fun q => by rw [evaluateBatch, if_pos h], by rw [gradientBatch, if_pos h], ?_, h⟩
    have hn : (n : ℝ) ≠ 0 := by
      have : 0 < n := by omega
      positivity
    refine (D.grad_part hy p (batch n b k) (D.lam * ((k : ℝ) / (2 * (n : ℝ))))).congr (fun y => rfl) fun c => ?_
    induction c using Fin.cases with
    | zero => rfl
    | succ j => simp only [Fin.cons_succ]; congr 1; field_simp
  · exact Or.inr ⟨fun q => by rw [evaluateBatch, if_neg h], by rw [gradientBatch, if_neg h], h⟩

/-- **C214** Over any epoch — ranges that cover every point exactly once — the batch objectives add up to `Evaluate`
and the batch gradients to `Gradient`. -/
theorem C214_epoch (D : Logistic d n) (hn : 0 < n) (p : Fin (d + 1) → ℝ) (bs : List (Nat × Nat)) (h : Covers n bs) :
    ∃ (vs : List ℝ) (gs : List (Fin (d + 1) → ℝ)), (bs.map fun q => D.evaluateBatch p q.1 q.2) = vs.map some ∧ vs.sum = D.evaluate p ∧
      (bs.map fun q => D.gradientBatch p q.1 q.2) = gs.map some ∧ gs.sum = D.gradient p := by
  have hn' : (n : ℝ) ≠ 0 := by positivity
  refine ⟨bs.map fun q => D.lam * ((q.2 : ℝ) / (2 * (n : ℝ))) * tailDot p - ∑ i ∈ batch n q.1 q.2, D.logLik p i,
    bs.map fun q => Fin.cons (-∑ i ∈ batch n q.1 q.2, ((D.y i : ℝ) - sigm (margin p (D.X i))))
      fun j => ∑ i ∈ batch n q.1 q.2, (sigm (margin p (D.X i)) - (D.y i : ℝ)) * D.X i j + D.lam * p j.succ / n * q.2,
    ?_, ?_, ?_, ?_⟩
  · rw [List.map_map]
    exact List.map_congr_left fun q hq => by rw [evaluateBatch, if_pos (h.1 q hq)]; rfl
  · have e : ∀ l : List (Nat × Nat), (l.map fun q => D.lam * ((q.2 : ℝ) / (2 * (n : ℝ))) * tailDot p -
        ∑ i ∈ batch n q.1 q.2, D.logLik p i).sum =
        D.lam * ((l.map fun q => (q.2 : ℝ)).sum / (2 * (n : ℝ))) * tailDot p -
          (l.map fun q => ∑ i ∈ batch n q.1 q.2, D.logLik p i).sum := by
      intro l
      induction l with
      | nil => simp
      | cons q l ih => simp only [List.map_cons, List.sum_cons, ih]; ring
    rw [e, h.total_real, h.sum, evaluate]
    congr 1
    field_simp
    norm_num
    ring
  · rw [List.map_map]
    exact List.map_congr_left fun q hq => by rw [gradientBatch, if_pos (h.1 q hq)]; rfl
  · funext c
    rw [list_sum_apply, List.map_map]
    induction c using Fin.cases with
    | zero =>
      have e := h.sum (fun i => -((D.y i : ℝ) - sigm (margin p (D.X i))))
      simp only [Finset.sum_neg_distrib] at e
      exact e
    | succ j =>
      have e : ∀ l : List (Nat × Nat), (l.map fun q => ∑ i ∈ batch n q.1 q.2, (sigm (margin p (D.X i)) - (D.y i : ℝ)) * D.X i j +
          D.lam * p j.succ / n * q.2).sum =
          (l.map fun q => ∑ i ∈ batch n q.1 q.2, (sigm (margin p (D.X i)) - (D.y i : ℝ)) * D.X i j).sum +
            D.lam * p j.succ / n * (l.map fun q => (q.2 : ℝ)).sum := by
        intro l
        induction l with
        | nil => simp
        | cons q l ih => simp only [List.map_cons, List.sum_cons, ih]; ring
      have e2 := e bs
      rw [h.total_real, h.sum, div_mul_cancel₀ _ hn'] at e2
      exact e2

/-- **C214** `EvaluateWithGradient` returns what `Evaluate` and `Gradient` return, on everything and on a batch. -/
theorem C214_evaluateWithGradient (D : Logistic d n) (p : Fin (d + 1) → ℝ) :
    D.evaluateWithGradient p = (D.evaluate p, D.gradient p) ∧
      ∀ b k, (D.evaluateWithGradientBatch p b k).map Prod.fst = D.evaluateBatch p b k ∧
        (D.evaluateWithGradientBatch p b k).map Prod.snd = D.gradientBatch p b k := by
  constructor
  · rw [evaluateWithGradient, evaluate, gradient, show D.lam / 2 = 0.5 * D.lam by norm_num; ring]
  · intro b k
    unfold evaluateWithGradientBatch evaluateBatch gradientBatch
    by_cases h : 1 ≤ k ∧ b + k ≤ n <;> simp [h]

/-- **C214** `PartialGradient(parameters, j, g)` puts entry `j` of `Gradient` into entry `j` of `g`. -/
theorem C214_partialGradient (D : Logistic d n) (p : Fin (d + 1) → ℝ) (j : Fin (d + 1)) (g : Fin (d + 1) → ℝ) :
    D.partialGradient p j g j = D.gradient p j ∧ ∀ c, c ≠ j → D.partialGradient p j g c = g c := by
  constructor
  · rw [partialGradient, Function.update_self]
    induction j using Fin.cases with
    | zero => rfl
    | succ c =>
      simp only [gradient, Fin.cases_succ, Fin.cons_succ]
      congr 1
      exact Finset.sum_congr rfl fun i _ => by ring
  · intro c hc
    rw [partialGradient, Function.update_of_ne hc]

/-- **C214** Shuffling, in whatever order, changes neither the objective nor its gradient. -/
theorem C214_shuffle (D : Logistic d n) (ord : Equiv.Perm (Fin n)) (p : Fin (d + 1) → ℝ) :
    (D.shuffle ord).evaluate p = D.evaluate p ∧ (D.shuffle ord).gradient p = D.gradient p := by
  constructor
  · unfold evaluate
    congr 1
    exact Equiv.sum_comp ord fun i => D.logLik p i
  · funext c
    induction c using Fin.cases with
    | zero =>
      simp only [gradient, Fin.cons_zero]
      exact congrArg Neg.neg (Equiv.sum_comp ord fun i => (D.y i : ℝ) - sigm (margin p (D.X i)))
    | succ j =>
      simp only [gradient, Fin.cons_succ]
      exact congrArg (· + D.lam * p j.succ)
        (Equiv.sum_comp ord fun i => (sigm (margin p (D.X i)) - (D.y i : ℝ)) * D.X i j)

/-- **C214** The objective is the regularised negative log-likelihood: with the signs `±1` for the classes 1 and 0 it is
`λ/2 ‖w‖² + ∑ log(1 + exp(-± margin))`, the intercept left out of the norm. -/
theorem C214_textbook (D : Logistic d n) (hy : D.Binary) (p : Fin (d + 1) → ℝ) :
    D.evaluate p = D.lam / 2 * ∑ j : Fin d, p j.succ ^ 2 +
      ∑ i, log (1 + exp (-((if D.y i = 1 then 1 else -1) * (p 0 + ∑ j : Fin d, p j.succ * D.X i j)))) := by
  rw [evaluate, sub_eq_add_neg, ← Finset.sum_neg_distrib]
  congr 1
  · rw [tailDot]
    norm_num
    rw [show D.lam / 2 = 1 / 2 * D.lam by ring]
    congr 1
    exact Finset.sum_congr rfl fun j _ => by ring
  · refine Finset.sum_congr rfl fun i _ => ?_
    rw [logLik, ← log_inv]
    congr 1
    generalize hm : margin p (D.X i) = m
    rw [show p 0 + ∑ j : Fin d, p j.succ * D.X i j = m from hm]
    rcases hy i with h | h <;> rw [h]
    · simp only [sigm]
      norm_num
      rw [exp_neg]
      have := exp_pos m
      field_simp
      ring
    · simp only [sigm]
      norm_num

theorem softplus_tangent (s t : ℝ) : log (1 + exp s) + exp s / (1 + exp s) * (t - s) ≤ log (1 + exp t) := by
  have hs := exp_pos s
  have ha : (0 : ℝ) ≤ 1 / (1 + exp s) := by positivity
  have hb : (0 : ℝ) ≤ exp s / (1 + exp s) := by positivity
  have h := convexOn_exp.2 (Set.mem_univ (0 : ℝ)) (Set.mem_univ (t - s)) ha hb (by field_simp)
  simp only [smul_eq_mul, mul_zero, zero_add, exp_zero, mul_one] at h
  have h2 : 1 / (1 + exp s) + exp s / (1 + exp s) * exp (t - s) = (1 + exp t) / (1 + exp s) := by
    rw [exp_sub]; field_simp
  rw [h2] at h
  have h3 := log_le_log (exp_pos _) h
  rw [log_exp, log_div (by positivity) (by positivity)] at h3
  linarith

theorem neg_lik_tangent (y : Nat) (hy : y = 0 ∨ y = 1) (s t : ℝ) :
    -log (1 - (y : ℝ) + sigm s * (2 * (y : ℝ) - 1)) + (sigm s - y) * (t - s) ≤
      -log (1 - (y : ℝ) + sigm t * (2 * (y : ℝ) - 1)) := by
  have e0 : ∀ t, 1 - sigm t = (1 + exp t)⁻¹ := by
    intro t
    have := exp_pos t
    rw [sigm, exp_neg]
    field_simp
    ring
  have e1 : ∀ t, sigm t = (1 + exp (-t))⁻¹ := by intro t; simp [sigm]
  rcases hy with rfl | rfl
  · have := softplus_tangent s t
    have e2 : exp s / (1 + exp s) = sigm s := by
      rw [sigm, exp_neg]
      have := exp_pos s
      field_simp
      ring
    norm_num
    rw [← sub_eq_add_neg, ← sub_eq_add_neg, e0, e0, log_inv, log_inv]
    rw [e2] at this
    linarith
  · have := softplus_tangent (-s) (-t)
    have e2 : exp (-s) / (1 + exp (-s)) = 1 - sigm s := by
      rw [sigm]
      have := exp_pos (-s)
      field_simp
      ring
    norm_num
    rw [e2] at this
    rw [e1 t, e1 s, log_inv, log_inv, ← e1 s]
    linarith

/-- **C214** With `lambda ≥ 0` the objective lies above each of its tangents, so it is convex, and a point where
`Gradient` vanishes is a global minimum. -/
theorem C214_convex (D : Logistic d n) (hy : D.Binary) (hl : 0 ≤ D.lam) (p : Fin (d + 1) → ℝ) :
    (∀ q, D.evaluate p + ∑ c, D.gradient p c * (q c - p c) ≤ D.evaluate q) ∧
      (D.gradient p = 0 → ∀ q, D.evaluate p ≤ D.evaluate q) := by
  have key : ∀ q, D.evaluate p + ∑ c, D.gradient p c * (q c - p c) ≤ D.evaluate q := by
    intro q
    have h1 : ∀ i, -D.logLik p i + (sigm (margin p (D.X i)) - D.y i) * (margin q (D.X i) - margin p (D.X i)) ≤ -D.logLik q i :=
      fun i => neg_lik_tangent (D.y i) (hy i) _ _
    have h2 := Finset.sum_le_sum fun i (_ : i ∈ Finset.univ) => h1 i
    rw [Finset.sum_add_distrib, Finset.sum_neg_distrib, Finset.sum_neg_distrib] at h2
    have h3 : tailDot p + ∑ j : Fin d, 2 * p j.succ * (q j.succ - p j.succ) ≤ tailDot q := by
      rw [tailDot, tailDot, ← Finset.sum_add_distrib]
      exact Finset.sum_le_sum fun j _ => by nlinarith [sq_nonneg (q j.succ - p j.succ)]
    have h4 := mul_le_mul_of_nonneg_left h3 (by positivity : (0 : ℝ) ≤ 0.5 * D.lam)
    have h5 : ∑ c, D.gradient p c * (q c - p c) =
        ∑ i, (sigm (margin p (D.X i)) - D.y i) * (margin q (D.X i) - margin p (D.X i)) +
          0.5 * D.lam * ∑ j : Fin d, 2 * p j.succ * (q j.succ - p j.succ) := by
      rw [Fin.sum_univ_succ]
      simp only [gradient, Fin.cons_zero, Fin.cons_succ, add_mul, Finset.sum_add_distrib]
      have e1 : ∀ i, (sigm (margin p (D.X i)) - D.y i) * (margin q (D.X i) - margin p (D.X i)) =
          (sigm (margin p (D.X i)) - D.y i) * (q 0 - p 0) +
            ∑ j : Fin d, (sigm (margin p (D.X i)) - D.y i) * D.X i j * (q j.succ - p j.succ) := by
        intro i
        simp only [margin]
        rw [show ∀ a b : ℝ, q 0 + a - (p 0 + b) = (q 0 - p 0) + (a - b) by intros; ring, ← Finset.sum_sub_distrib, mul_add,
          Finset.mul_sum]
        congr 1
        exact Finset.sum_congr rfl fun j _ => by ring
      rw [Finset.sum_congr rfl fun i _ => e1 i, Finset.sum_add_distrib, add_assoc]
      congr 1
      · rw [← Finset.sum_mul, ← Finset.sum_neg_distrib]
        congr 1
        exact Finset.sum_congr rfl fun i _ => by ring
      · congr 1
        · rw [Finset.sum_comm]
          exact Finset.sum_congr rfl fun j _ => by rw [Finset.sum_mul]
        · rw [Finset.mul_sum]
          exact Finset.sum_congr rfl fun j _ => by norm_num; ring
    rw [evaluate, evaluate, h5]
    linarith
  refine ⟨key, fun h0 q => ?_⟩
  have := key q
  rw [h0] at this
  simpa using this

/-- **C215** `Classify` answers 1 where the sigmoid reaches the boundary and 0 where it does not, for every boundary in
[0, 1]. -/
theorem C215_classify_partial (x : Fin d → ℝ) (p : Fin (d + 1) → ℝ) (β : ℝ) (h0 : 0 ≤ β) (h1 : β ≤ 1) :
    classify x p β = if β ≤ 1 / (1 + exp (-(p 0 + ∑ j : Fin d, p j.succ * x j))) then 1 else 0 := by
  have hs0 := sigm_pos (margin p x)
  have hs1 := sigm_lt_one (margin p x)
  have e : 1 / (1 + exp (-(p 0 + ∑ j : Fin d, p j.succ * x j))) = sigm (margin p x) := rfl
  rw [e, classify]
  split
  · next h => rw [Nat.floor_eq_iff (by linarith)]; constructor <;> norm_num <;> linarith
  · next h => rw [Nat.floor_eq_iff (by linarith)]; constructor <;> norm_num <;> linarith

/-- With the default boundary: class 1 exactly on the closed half-space of the nonnegative margins. -/
theorem C215_halfspace_partial (x : Fin d → ℝ) (p : Fin (d + 1) → ℝ) :
    classify x p 0.5 = if 0 ≤ p 0 + ∑ j : Fin d, p j.succ * x j then 1 else 0 := by
  rw [C215_classify_partial x p 0.5 (by norm_num) (by norm_num)]
  generalize p 0 + ∑ j : Fin d, p j.succ * x j = m
  have he := exp_pos (-m)
  have : (0.5 : ℝ) ≤ 1 / (1 + exp (-m)) ↔ 0 ≤ m := by
    rw [le_div_iff₀ (by positivity)]
    constructor
    · intro h
      have : exp (-m) ≤ 1 := by norm_num at h; linarith
      have := exp_le_one_iff.1 this
      linarith
    · intro h
      have : exp (-m) ≤ 1 := exp_le_one_iff.2 (by linarith)
      norm_num; linarith
  simp only [this]

/-- **C215, refuted**: the documentation promises 1 where the sigmoid is *greater* than the boundary and 0 otherwise. -/
theorem C215_classify_refuted : ¬ ∀ (d : Nat) (x : Fin d → ℝ) (p : Fin (d + 1) → ℝ) (β : ℝ), 0 < β → β < 1 →
    classify x p β = if β < 1 / (1 + exp (-(p 0 + ∑ j : Fin d, p j.succ * x j))) then 1 else 0 := by
  intro h
  have h1 := h 1 0 0 0.5 (by norm_num) (by norm_num)
  rw [C215_halfspace_partial] at h1
  norm_num at h1

/-- **C215** The accuracy is the percentage of the points whose label is predicted: between 0 and 100, and 100 exactly if
every label is. -/
theorem C215_accuracy (X : Fin n → Fin d → ℝ) (y : Fin n → Nat) (p : Fin (d + 1) → ℝ) (β : ℝ) (hn : 0 < n) :
    0 ≤ accuracy X y p β ∧ accuracy X y p β ≤ 100 ∧
      (accuracy X y p β = 100 ↔ ∀ i, y i = classify (X i) p β) ∧ (accuracy X y p β = 0 ↔ ∀ i, y i ≠ classify (X i) p β) := by
  have hn' : (0 : ℝ) < n := by exact_mod_cast hn
  have hle : (Finset.univ.filter fun i => y i = classify (X i) p β).card ≤ n := by
    simpa using Finset.card_filter_le (Finset.univ : Finset (Fin n)) fun i => y i = classify (X i) p β
  have hle' : ((Finset.univ.filter fun i => y i = classify (X i) p β).card : ℝ) ≤ n := by exact_mod_cast hle
  unfold accuracy
  push_cast
  refine ⟨by positivity, ?_, ?_, ?_⟩
  · rw [div_le_iff₀ hn']; linarith
  · rw [div_eq_iff hn'.ne', mul_comm (100 : ℝ), mul_left_inj' (by norm_num), Nat.cast_inj]
    constructor
    · intro h i
      have := Finset.filter_card_eq (s := (Finset.univ : Finset (Fin n))) (by simpa using h) i (Finset.mem_univ i)
      exact this
    · intro h
      rw [Finset.filter_true_of_mem fun i _ => h i]; simp
  · rw [div_eq_zero_iff, or_iff_left hn'.ne', mul_eq_zero, or_iff_left (by norm_num), Nat.cast_eq_zero, Finset.card_eq_zero,
      Finset.filter_eq_empty_iff]
    simp

/-- **C216** With at least one predictor, `Evaluate` accepts a parameter matrix exactly if it is a row with one element more than there are
predictors. -/
theorem C216_accepted (d r c : Nat) (hd : 0 < d) : shapeOk d r c = true ↔ r = 1 ∧ c = d + 1 := by
  simp only [shapeOk, Bool.and_eq_true, decide_eq_true_eq, beq_iff_eq]
  constructor
  · rintro ⟨⟨_, h2⟩, rfl⟩
    omega
  · rintro ⟨rfl, rfl⟩
    omega

/-- **C216, refuted**: the constructor that takes an initial point keeps the one given if `Evaluate` accepts its shape. -/
theorem C216_initialPoint_refuted : ¬ ∀ d r c, shapeOk d r c = true → initialShape d r c = (r, c, true) := by
  intro h
  exact absurd (h 2 1 3 (by decide)) (by decide)

/-- **C216** With at least one predictor, no initial point that `Evaluate` would accept is kept — zeros are put in its
place — and one that is kept makes `Evaluate` throw. -/
theorem C216_initialPoint_partial (d r c : Nat) (hd : 0 < d) :
    (shapeOk d r c = true → initialShape d r c = (1, d + 1, false)) ∧
      ((initialShape d r c).2.2 = true → shapeOk d (initialShape d r c).1 (initialShape d r c).2.1 = false) := by
  constructor
  · intro h
    simp only [shapeOk, Bool.and_eq_true, decide_eq_true_eq, beq_iff_eq] at h
    obtain ⟨⟨_, h2⟩, rfl⟩ := h
    rw [initialShape, if_pos (by omega)]
  · intro h
    by_cases hh : r ≠ d + 1 ∨ c ≠ 1
    · rw [initialShape, if_pos hh] at h; simp at h
    · rw [initialShape, if_neg hh]
      have : r = d + 1 := by omega
      simp [shapeOk]
      omega

/-- Two points on the line, one of each class. -/
def twoPoints : Logistic 1 2 := { X := fun i _ => i.val, y := fun i => i.val, lam := 1 }

example : twoPoints.Binary := fun i => by
  have := i.isLt
  simp only [twoPoints]
  omega

example : Covers 2 [(0, 1), (1, 1)] := ⟨by simp, fun i hi => by interval_cases i <;> decide⟩

example : Covers 5 [(3, 2), (0, 3)] := ⟨by simp, fun i hi => by interval_cases i <;> decide⟩

example : initialShape 2 3 1 = (3, 1, true) ∧ initialShape 2 1 3 = (1, 3, false) := by decide

end Logistic

end Ens.Problems
