import Mathlib.Analysis.SpecialFunctions.Log.Basic
import Verif.Problems.Base

/-
`LogisticRegressionFunction` and `SoftmaxRegressionFunction` (problems/logistic_regression_function_impl.hpp,
problems/softmax_regression_function_impl.hpp) over ℝ: no overflow of `exp`, no `log(0)`.

The data are indexed by the points (`Fin n`).  A column range outside the matrix makes Armadillo throw, which is `none`.
-/

namespace Ens.Problems

open Real

/-! ### Logistic regression -/

/-- The members of `LogisticRegressionFunction` (logistic_regression_function.hpp:201-210): column `i` of `predictors`, the
responses (`size_t`), and `lambda`. -/
structure Logistic (d n : Nat) where
  X : Fin n → Fin d → ℝ
  y : Fin n → Nat
  lam : ℝ

/-- The column range `cols(begin, begin + batchSize - 1)`. -/
def batch (n b k : Nat) : Finset (Fin n) := Finset.univ.filter fun i => b ≤ i.val ∧ i.val < b + k

namespace Logistic

variable {d n : Nat}

/-- `1 / (1 + exp(-t))` (logistic_regression_function_impl.hpp:110-112, 147-150, 174-175, 204). -/
noncomputable def sigm (t : ℝ) : ℝ := 1 / (1 + exp (-t))

/-- `parameters(0, 0) + parameters.tail_cols(n_elem - 1) * x` (lines 111-112). -/
def margin (p : Fin (d + 1) → ℝ) (x : Fin d → ℝ) : ℝ := p 0 + ∑ j : Fin d, p j.succ * x j

/-- `dot(parameters.tail_cols(n_elem - 1), parameters.tail_cols(n_elem - 1))` (lines 105-106). -/
def tailDot (p : Fin (d + 1) → ℝ) : ℝ := ∑ j : Fin d, p j.succ * p j.succ

/-- One entry of `log(1.0 - responses + sigmoid % (2 * responses - 1.0))` (lines 120-122). -/
noncomputable def logLik (D : Logistic d n) (p : Fin (d + 1) → ℝ) (i : Fin n) : ℝ :=
  log (1 - (D.y i : ℝ) + sigm (margin p (D.X i)) * (2 * (D.y i : ℝ) - 1))

/-- `Evaluate(parameters)` (lines 90-126). -/
noncomputable def evaluate (D : Logistic d n) (p : Fin (d + 1) → ℝ) : ℝ :=
  0.5 * D.lam * tailDot p - ∑ i, D.logLik p i

/-- `Evaluate(parameters, begin, batchSize)` (lines 132-160). -/
noncomputable def evaluateBatch (D : Logistic d n) (p : Fin (d + 1) → ℝ) (b k : Nat) : Option ℝ :=
  if 1 ≤ k ∧ b + k ≤ n then
    some (D.lam * ((k : ℝ) / (2 * (n : ℝ))) * tailDot p - ∑ i ∈ batch n b k, D.logLik p i)
  else none

/-- `Gradient(parameters, gradient)` (lines 163-181). -/
noncomputable def gradient (D : Logistic d n) (p : Fin (d + 1) → ℝ) : Fin (d + 1) → ℝ :=
  Fin.cons (-∑ i, ((D.y i : ℝ) - sigm (margin p (D.X i))))
    fun j => ∑ i, (sigm (margin p (D.X i)) - (D.y i : ℝ)) * D.X i j + D.lam * p j.succ

/-- `Gradient(parameters, begin, gradient, batchSize)` (lines 185-212). -/
noncomputable def gradientBatch (D : Logistic d n) (p : Fin (d + 1) → ℝ) (b k : Nat) : Option (Fin (d + 1) → ℝ) :=
  if 1 ≤ k ∧ b + k ≤ n then
    some (Fin.cons (-∑ i ∈ batch n b k, ((D.y i : ℝ) - sigm (margin p (D.X i))))
      fun j => ∑ i ∈ batch n b k, (sigm (margin p (D.X i)) - (D.y i : ℝ)) * D.X i j + D.lam * p j.succ / n * k)
  else none

/-- `PartialGradient(parameters, j, gradient)` (lines 218-240) on a sparse matrix `g` that already has the size of the
parameters: `set_size` (229) then leaves its entries, and only entry `j` is assigned. -/
noncomputable def partialGradient (D : Logistic d n) (p : Fin (d + 1) → ℝ) (j : Fin (d + 1)) (g : Fin (d + 1) → ℝ) :
    Fin (d + 1) → ℝ :=
  Function.update g j
    (Fin.cases (-∑ i, ((D.y i : ℝ) - sigm (margin p (D.X i))))
      (fun c => ∑ i, -D.X i c * ((D.y i : ℝ) - sigm (margin p (D.X i))) + D.lam * p c.succ) j)

/-- `EvaluateWithGradient(parameters, gradient)` (lines 242-276). -/
noncomputable def evaluateWithGradient (D : Logistic d n) (p : Fin (d + 1) → ℝ) : ℝ × (Fin (d + 1) → ℝ) :=
  (D.lam / 2 * tailDot p - ∑ i, D.logLik p i,
    Fin.cons (-∑ i, ((D.y i : ℝ) - sigm (margin p (D.X i))))
      fun j => ∑ i, (sigm (margin p (D.X i)) - (D.y i : ℝ)) * D.X i j + D.lam * p j.succ)

/-- `EvaluateWithGradient(parameters, begin, gradient, batchSize)` (lines 278-320). -/
noncomputable def evaluateWithGradientBatch (D : Logistic d n) (p : Fin (d + 1) → ℝ) (b k : Nat) :
    Option (ℝ × (Fin (d + 1) → ℝ)) :=
  if 1 ≤ k ∧ b + k ≤ n then
    some (D.lam * ((k : ℝ) / (2 * (n : ℝ))) * tailDot p - ∑ i ∈ batch n b k, D.logLik p i,
      Fin.cons (-∑ i ∈ batch n b k, ((D.y i : ℝ) - sigm (margin p (D.X i))))
        fun j => ∑ i ∈ batch n b k, (sigm (margin p (D.X i)) - (D.y i : ℝ)) * D.X i j + D.lam * p j.succ / n * k)
  else none

/-- `Shuffle()` (lines 67-84) with the drawn `ordering`. -/
def shuffle (D : Logistic d n) (ord : Equiv.Perm (Fin n)) : Logistic d n :=
  { D with
    X := fun i => D.X (ord i)
    y := fun i => D.y (ord i) }

/-- One label of `Classify` (lines 322-335): `conv_to<Row<size_t>>` truncates. -/
noncomputable def classify (x : Fin d → ℝ) (p : Fin (d + 1) → ℝ) (boundary : ℝ) : Nat :=
  ⌊sigm (margin p x) + (1 - boundary)⌋₊

/-- `ComputeAccuracy` (lines 337-357). -/
noncomputable def accuracy (X : Fin n → Fin d → ℝ) (y : Fin n → Nat) (p : Fin (d + 1) → ℝ) (boundary : ℝ) : ℝ :=
  (((Finset.univ.filter fun i => y i = classify (X i) p boundary).card * 100 : Nat) : ℝ) / n

/-- The shape of `initialPoint` after the constructor that takes one (lines 46-62), and whether the values given were
kept; `r`, `c` are the rows and columns given. -/
def initialShape (d r c : Nat) : Nat × Nat × Bool :=
  if r ≠ d + 1 ∨ c ≠ 1 then (1, d + 1, false) else (r, c, true)

/-- `parameters.tail_cols(parameters.n_elem - 1) * predictors` for an `r × c` parameter matrix: Armadillo throws if more
columns are asked for than there are, if the inner dimensions of the product differ, or if the result does not fit the
`Row` it is assigned to (lines 105-112). -/
def shapeOk (d r c : Nat) : Bool := r * c - 1 ≤ c && r * c - 1 == d && r == 1

end Logistic

/-! ### Softmax regression -/

/-- The members of `SoftmaxRegressionFunction` (softmax_regression_function.hpp:186-199); `gt` is `groundTruth`. -/
structure Softmax (K d n : Nat) where
  X : Fin n → Fin d → ℝ
  gt : Fin K → Fin n → ℝ
  lam : ℝ

namespace Softmax

variable {K d n D : Nat}

/-- `GetGroundTruthMatrix` (softmax_regression_function_impl.hpp:119-146): column `i` has a one in row `labels(i)`. -/
def groundTruth (labels : Fin n → Nat) : Fin K → Fin n → ℝ := fun k i => if labels i = k.val then 1 else 0

/-- The exponents of `GetProbabilitiesMatrix` without intercept (lines 173-177). -/
def logits (S : Softmax K d n) (θ : Fin K × Fin d → ℝ) (i : Fin n) (k : Fin K) : ℝ := ∑ j, θ (k, j) * S.X i j

/-- The exponents of `GetProbabilitiesMatrix` with `fitIntercept` (lines 160-172). -/
def logitsI (S : Softmax K d n) (θ : Fin K × Fin (d + 1) → ℝ) (i : Fin n) (k : Fin K) : ℝ :=
  θ (k, 0) + ∑ j : Fin d, θ (k, j.succ) * S.X i j

/-- `hypothesis / repmat(sum(hypothesis, 0), numClasses, 1)` (lines 179-180). -/
noncomputable def probs (h : Fin n → Fin K → ℝ) (i : Fin n) (k : Fin K) : ℝ := exp (h i k) / ∑ l, exp (h i l)

/-- `Evaluate(parameters)` (lines 186-220), from the exponents. -/
noncomputable def cost (S : Softmax K d n) (h : Fin n → Fin K → ℝ) (θ : Fin K × Fin D → ℝ) : ℝ :=
  -((∑ i, ∑ k, S.gt k i * log (probs h i k)) / n) + 0.5 * S.lam * ∑ q, θ q * θ q

noncomputable def evaluate (S : Softmax K d n) (θ : Fin K × Fin d → ℝ) : ℝ := S.cost (S.logits θ) θ

noncomputable def evaluateI (S : Softmax K d n) (θ : Fin K × Fin (d + 1) → ℝ) : ℝ := S.cost (S.logitsI θ) θ

/-- `accu(parameters * parameters)` of line 238: the matrix product, which throws unless the matrix is square. -/
noncomputable def accuProduct (θ : Fin K × Fin D → ℝ) : Option ℝ :=
  if h : D = K then some (∑ a : Fin K, ∑ c : Fin D, ∑ l : Fin D, θ (a, l) * θ (Fin.cast h l, c)) else none

/-- `Evaluate(parameters, start, batchSize)` (lines 225-241), from the exponents. -/
noncomputable def costBatch (S : Softmax K d n) (h : Fin n → Fin K → ℝ) (θ : Fin K × Fin D → ℝ) (b k : Nat) : Option ℝ :=
  if 1 ≤ k ∧ b + k ≤ n then
    (accuProduct θ).map fun w =>
      -((∑ i ∈ batch n b k, ∑ c, S.gt c i * log (probs h i c)) / k) + 0.5 * S.lam * w
  else none

noncomputable def evaluateBatch (S : Softmax K d n) (θ : Fin K × Fin d → ℝ) (b k : Nat) : Option ℝ :=
  S.costBatch (S.logits θ) θ b k

noncomputable def evaluateBatchI (S : Softmax K d n) (θ : Fin K × Fin (d + 1) → ℝ) (b k : Nat) : Option ℝ :=
  S.costBatch (S.logitsI θ) θ b k

/-- `Gradient(parameters, gradient)` without intercept (lines 272-276). -/
noncomputable def gradient (S : Softmax K d n) (θ : Fin K × Fin d → ℝ) : Fin K × Fin d → ℝ := fun q =>
  (∑ i, (probs (S.logits θ) i q.1 - S.gt q.1 i) * S.X i q.2) / n + S.lam * θ q

/-- `Gradient(parameters, gradient)` with intercept (lines 260-271). -/
noncomputable def gradientI (S : Softmax K d n) (θ : Fin K × Fin (d + 1) → ℝ) : Fin K × Fin (d + 1) → ℝ := fun q =>
  Fin.cases ((∑ i, (probs (S.logitsI θ) i q.1 - S.gt q.1 i) * 1) / n + S.lam * θ (q.1, 0))
    (fun j => (∑ i, (probs (S.logitsI θ) i q.1 - S.gt q.1 i) * S.X i j) / n + S.lam * θ (q.1, j.succ)) q.2

/-- `Gradient(parameters, start, gradient, batchSize)` without intercept (lines 301-306). -/
noncomputable def gradientBatch (S : Softmax K d n) (θ : Fin K × Fin d → ℝ) (b k : Nat) : Option (Fin K × Fin d → ℝ) :=
  if 1 ≤ k ∧ b + k ≤ n then
    some fun q => (∑ i ∈ batch n b k, (probs (S.logits θ) i q.1 - S.gt q.1 i) * S.X i q.2) / k + S.lam * θ q
  else none

/-- `Gradient(parameters, start, gradient, batchSize)` with intercept (lines 290-300). -/
noncomputable def gradientBatchI (S : Softmax K d n) (θ : Fin K × Fin (d + 1) → ℝ) (b k : Nat) :
    Option (Fin K × Fin (d + 1) → ℝ) :=
  if 1 ≤ k ∧ b + k ≤ n then
    some fun q =>
      Fin.cases ((∑ i ∈ batch n b k, (probs (S.logitsI θ) i q.1 - S.gt q.1 i) * 1) / k + S.lam * θ (q.1, 0))
        (fun j => (∑ i ∈ batch n b k, (probs (S.logitsI θ) i q.1 - S.gt q.1 i) * S.X i j) / k + S.lam * θ (q.1, j.succ)) q.2
  else none

/-- `PartialGradient(parameters, j, gradient)` without intercept (lines 314-320, 335-339): zero outside column `j`. -/
noncomputable def partialGradient (S : Softmax K d n) (θ : Fin K × Fin d → ℝ) (j : Fin d) : Fin K × Fin d → ℝ := fun q =>
  if q.2 = j then (∑ i, (probs (S.logits θ) i q.1 - S.gt q.1 i) * S.X i j) / n + S.lam * θ (q.1, j) else 0

/-- `PartialGradient(parameters, j, gradient)` with intercept (lines 314-334).  Line 331 takes `data.row(j)` where column
`j` of the parameters belongs to `data.row(j - 1)`; for the last column there is no such row and Armadillo throws. -/
noncomputable def partialGradientI (S : Softmax K d n) (θ : Fin K × Fin (d + 1) → ℝ) (j : Fin (d + 1)) :
    Option (Fin K × Fin (d + 1) → ℝ) :=
  if j = 0 then
    some fun q => if q.2 = j then (∑ i, (probs (S.logitsI θ) i q.1 - S.gt q.1 i) * 1) / n + S.lam * θ (q.1, 0) else 0
  else if h : j.val < d then
    some fun q =>
      if q.2 = j then
        (∑ i, (probs (S.logitsI θ) i q.1 - S.gt q.1 i) * S.X i ⟨j.val, h⟩) / n + S.lam * θ (q.1, j)
      else 0
  else none

/-- `Shuffle()` (lines 43-76) with the drawn `ordering`.  `reverseOrdering` is the inverse permutation.  The batch
constructor of `arma::sp_mat` reads the row from row 0 of the locations and the column from row 1, and throws if one is
outside the matrix; lines 66-67 store the (new) column in row 0 and the row in row 1. -/
noncomputable def shuffle (S : Softmax K d n) (ord : Equiv.Perm (Fin n)) : Option (Softmax K d n) :=
  open scoped Classical in
  if ∀ k i, S.gt k i ≠ 0 → (ord.symm i).val < K ∧ k.val < n then
    some { X := fun i => S.X (ord i)
           gt := fun a b => if h : a.val < n ∧ b.val < K then S.gt ⟨b.val, h.2⟩ (ord ⟨a.val, h.1⟩) else 0
           lam := S.lam }
  else none

end Softmax

end Ens.Problems
