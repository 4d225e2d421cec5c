import Mathlib.Analysis.SpecialFunctions.Trigonometric.Basic
import Mathlib.Analysis.SpecialFunctions.Pow.Real
import Mathlib.Data.Real.Sqrt
import Mathlib.Data.Fin.VecNotation
import Mathlib.Data.Fin.Tuple.Basic

/-
The bundled separable problems (/repo/include/ensmallen_bits/problems), over the reals.  `ord` is `visitationOrder`;
`Shuffle()` replaces it by another permutation, so every theorem is for an arbitrary `ord`.  Reading beyond its end is
undefined behaviour in the code; the theorems about all functions use only `ord 0 … ord (n - 1)`.
-/

namespace Ens.Problems

open Real Function

noncomputable section

variable {n : Nat}

/-- The loop `for (j = begin; j < begin + batchSize; ++j) objective += term(visitationOrder[j])`. -/
def evalLoop (term : Fin n → ℝ → ℝ) (ord : Nat → Fin n) (b k : Nat) (x : Fin n → ℝ) : ℝ :=
  (List.range' b k).foldl (fun s j => s + term (ord j) (x (ord j))) 0

/-- The loop `gradient(p) += dterm(coordinates(p))`, from zero. -/
def gradLoop (dterm : Fin n → ℝ → ℝ) (ord : Nat → Fin n) (b k : Nat) (x : Fin n → ℝ) : Fin n → ℝ :=
  (List.range' b k).foldl (fun g j => update g (ord j) (g (ord j) + dterm (ord j) (x (ord j)))) 0

/-- `SphereFunction::Evaluate` (sphere_function_impl.hpp:42-56); all functions (58-63) is `b = 0`, `k = n`. -/
def sphere (ord : Nat → Fin n) (b k : Nat) (x : Fin n → ℝ) : ℝ := evalLoop (fun _ t => t ^ 2) ord b k x

/-- `SphereFunction::Gradient` (sphere_function_impl.hpp:65-78). -/
def sphereGrad (ord : Nat → Fin n) (b k : Nat) (x : Fin n → ℝ) : Fin n → ℝ :=
  gradLoop (fun _ t => 2 * t) ord b k x

/-- `StyblinskiTangFunction::Evaluate` (styblinski_tang_function_impl.hpp:36-52). -/
def styblinski (ord : Nat → Fin n) (b k : Nat) (x : Fin n → ℝ) : ℝ :=
  evalLoop (fun _ t => t ^ 4 - 16 * t ^ 2 + 5 * t) ord b k x / 2

/-- `StyblinskiTangFunction::Gradient` (styblinski_tang_function_impl.hpp:61-75). -/
def styblinskiGrad (ord : Nat → Fin n) (b k : Nat) (x : Fin n → ℝ) : Fin n → ℝ :=
  gradLoop (fun _ t => 0.5 * (4 * t ^ 3 - 32 * t + 5)) ord b k x

/-- `SchwefelFunction::Evaluate` (schwefel_function_impl.hpp:36-51). -/
def schwefel (ord : Nat → Fin n) (b k : Nat) (x : Fin n → ℝ) : ℝ :=
  evalLoop (fun _ t => t * sin √|t|) ord b k x - 418.9829 * k

/-- `SchwefelFunction::Gradient` (schwefel_function_impl.hpp:60-76). -/
def schwefelGrad (ord : Nat → Fin n) (b k : Nat) (x : Fin n → ℝ) : Fin n → ℝ :=
  gradLoop (fun _ t => t ^ 2 * cos √|t| / (2 * |t| ^ (1.5 : ℝ)) + sin √|t|) ord b k x

/-- `RastriginFunction::Evaluate` (rastrigin_function_impl.hpp:36-55): `10 n` is added whatever the batch size. -/
def rastrigin (ord : Nat → Fin n) (b k : Nat) (x : Fin n → ℝ) : ℝ :=
  evalLoop (fun _ t => t ^ 2 - 10 * cos (2 * π * t)) ord b k x + 10 * n

/-- `RastriginFunction::Gradient` (rastrigin_function_impl.hpp:64-78): every term is multiplied by `10 n`. -/
def rastriginGrad (ord : Nat → Fin n) (b k : Nat) (x : Fin n → ℝ) : Fin n → ℝ :=
  gradLoop (fun _ t => 10 * n * (2 * (t + 10 * π * sin (2 * π * t)))) ord b k x

/-- The three terms of `SGDTestFunction` (sgd_test_function_impl.hpp:41-58). -/
def sgdTerm (i : Fin 3) (t : ℝ) : ℝ :=
  if i = 0 then -exp (-|t|) else if i = 1 then t ^ 2 else t ^ 4 + 3 * t ^ 2

/-- Their derivatives as coded (sgd_test_function_impl.hpp:71-90). -/
def sgdDTerm (i : Fin 3) (t : ℝ) : ℝ :=
  if i = 0 then (if 0 ≤ t then exp (-t) else -exp t) else if i = 1 then 2 * t else 4 * t ^ 3 + 6 * t

/-- `SGDTestFunction::Evaluate` (sgd_test_function_impl.hpp:33-61). -/
def sgdTest (ord : Nat → Fin 3) (b k : Nat) (x : Fin 3 → ℝ) : ℝ := evalLoop sgdTerm ord b k x

/-- `SGDTestFunction::Gradient` (sgd_test_function_impl.hpp:63-91). -/
def sgdTestGrad (ord : Nat → Fin 3) (b k : Nat) (x : Fin 3 → ℝ) : Fin 3 → ℝ := gradLoop sgdDTerm ord b k x

/-- `SparseTestFunction` (sparse_test_function_impl.hpp:21-42): the order is fixed, index `j` beyond 3 is out of bounds
(taken modulo 4 here). -/
def sparseTest (b k : Nat) (x : Fin 4 → ℝ) : ℝ :=
  evalLoop (fun i t => t * t + ![-4, -2, -3, -8] i * t + ![20, 12, 15, 100] i) (Fin.ofNat 4) b k x

/-- `SparseTestFunction::Gradient` (sparse_test_function_impl.hpp:59-69): assignment, not addition. -/
def sparseTestGrad (b k : Nat) (x : Fin 4 → ℝ) : Fin 4 → ℝ :=
  (List.range' b k).foldl (fun g j => update g (Fin.ofNat 4 j) (2 * x (Fin.ofNat 4 j) + ![-4, -2, -3, -8] (Fin.ofNat 4 j))) 0

/-- `SparseTestFunction::PartialGradient` (sparse_test_function_impl.hpp:71-79). -/
def sparseTestPartial (x : Fin 4 → ℝ) (j : Fin 4) : Fin 4 → ℝ :=
  update 0 j (2 * x j + ![-4, -2, -3, -8] j)

/-! ### Generalized Rosenbrock, `n = m + 1` dimensions, `m` functions -/

variable {m : Nat}

/-- One term (generalized_rosenbrock_function_impl.hpp:57-59, 72-73). -/
def grTerm (x : Fin (m + 1) → ℝ) (p : Fin m) : ℝ :=
  100 * (x p.castSucc ^ 2 - x p.succ) ^ 2 + (1 - x p.castSucc) ^ 2

/-- `GeneralizedRosenbrockFunction::Evaluate` for a batch (generalized_rosenbrock_function_impl.hpp:48-63). -/
def genRosenBatch (ord : Nat → Fin m) (b k : Nat) (x : Fin (m + 1) → ℝ) : ℝ :=
  (List.range' b k).foldl (fun s j => s + grTerm x (ord j)) 0

/-- `GeneralizedRosenbrockFunction::Evaluate` (generalized_rosenbrock_function_impl.hpp:65-77). -/
def genRosen (x : Fin (m + 1) → ℝ) : ℝ :=
  (List.finRange m).foldl (fun s p => s + grTerm x p) 0

/-- `GeneralizedRosenbrockFunction::Gradient` for a batch (generalized_rosenbrock_function_impl.hpp:79-94). -/
def genRosenBatchGrad (ord : Nat → Fin m) (b k : Nat) (x : Fin (m + 1) → ℝ) : Fin (m + 1) → ℝ :=
  (List.range' b k).foldl (fun g j =>
    let p := ord j
    update (update g p.castSucc (400 * (x p.castSucc ^ 3 - x p.castSucc * x p.succ) + 2 * (x p.castSucc - 1)))
      p.succ (200 * (x p.succ - x p.castSucc ^ 2))) 0

/-- Coordinate `i - 1`. -/
def prevIdx (i : Fin (m + 1)) : Fin (m + 1) := ⟨i.val - 1, by omega⟩

/-- `GeneralizedRosenbrockFunction::Gradient` (generalized_rosenbrock_function_impl.hpp:96-113); with one coordinate the code
reads out of bounds. -/
def genRosenGrad (x : Fin (m + 1) → ℝ) : Fin (m + 1) → ℝ :=
  let g := (List.finRange m).foldl (fun g p =>
    let g := update g p.castSucc (400 * (x p.castSucc ^ 3 - x p.castSucc * x p.succ) + 2 * (x p.castSucc - 1))
    if 0 < p.val then
      update g p.castSucc (g p.castSucc + 200 * (x p.castSucc - x (prevIdx p.castSucc) ^ 2))
    else g) (0 : Fin (m + 1) → ℝ)
  update g (Fin.last m) (200 * (x (Fin.last m) - x (prevIdx (Fin.last m)) ^ 2))

end

end Ens.Problems
