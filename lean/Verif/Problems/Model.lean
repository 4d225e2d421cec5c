import Mathlib.Analysis.SpecialFunctions.Trigonometric.Basic
import Mathlib.Analysis.SpecialFunctions.Pow.Real
import Mathlib.Data.Real.Sqrt
import Mathlib.Data.Fin.VecNotation

/-
The bundled problems of fixed dimension (/repo/include/ensmallen_bits/problems), over the reals: `f` is
`Evaluate(coordinates)`, `fGrad` is what `Gradient(coordinates, gradient)` leaves in `gradient`.  Each of these problems has
`NumFunctions() == 1` and ignores `begin` and `batchSize`.  Division by zero, which is NaN or infinite in the code, is 0 here;
every theorem excludes the points where it occurs.  `std::pow(x, k)` with an integer literal `k` is the power, with 1.5 or
0.1 it is the real power.
-/

namespace Ens.Problems

open Real

noncomputable section

/-- `AckleyFunction::Evaluate` (ackley_function_impl.hpp:27-52); `c` is a constructor argument (2π by default). -/
def ackley (c : ℝ) (x : Fin 2 → ℝ) : ℝ :=
  -20 * exp (-0.2 * √(0.5 * (x 0 * x 0 + x 1 * x 1))) - exp (0.5 * (cos (c * x 0) + cos (c * x 1))) + exp 1 + 20

/-- `t0` of ackley_function_impl.hpp:68. -/
def ackT (x : Fin 2 → ℝ) : ℝ := √(0.5 * (x 0 * x 0 + x 1 * x 1))

/-- `AckleyFunction::Gradient` (ackley_function_impl.hpp:54-83). -/
def ackleyGrad (c ε : ℝ) (x : Fin 2 → ℝ) : Fin 2 → ℝ :=
  let t1 := 2 * exp (-0.2 * ackT x) / (ackT x + ε)
  let t2 := 0.5 * c * exp (0.5 * (cos (c * x 0) + cos (c * x 1)))
  ![x 0 * t1 + t2 * sin (c * x 0), x 1 * t1 + t2 * sin (c * x 1)]

/-- `BealeFunction::Evaluate` (beale_function_impl.hpp:25-50). -/
def beale (x : Fin 2 → ℝ) : ℝ :=
  (1.5 - x 0 + x 0 * x 1) ^ 2 + (2.25 - x 0 + x 0 * x 1 * x 1) ^ 2 + (2.625 - x 0 + x 0 * x 1 ^ 3) ^ 2

/-- `BealeFunction::Gradient` (beale_function_impl.hpp:52-83). -/
def bealeGrad (x : Fin 2 → ℝ) : Fin 2 → ℝ :=
  let s := x 1 * x 1
  let c := x 1 ^ 3
  ![(2 * x 1 - 2) * (x 0 * x 1 - x 0 + 1.5) + (2 * s - 2) * (x 0 * s - x 0 + 2.25) +
      (2 * c - 2) * (x 0 * c - x 0 + 2.625),
    6 * x 0 * s * (x 0 * c - x 0 + 2.625) + 4 * x 0 * x 1 * (x 0 * s - x 0 + 2.25) +
      2 * x 0 * (x 0 * x 1 - x 0 + 1.5)]

/-- `BoothFunction::Evaluate` (booth_function_impl.hpp:25-49). -/
def booth (x : Fin 2 → ℝ) : ℝ := (x 0 + 2 * x 1 - 7) ^ 2 + (2 * x 0 + x 1 - 5) ^ 2

/-- `BoothFunction::Gradient` (booth_function_impl.hpp:51-74). -/
def boothGrad (x : Fin 2 → ℝ) : Fin 2 → ℝ := ![10 * x 0 + 8 * x 1 - 34, 8 * x 0 + 10 * x 1 - 38]

/-- `BukinFunction::Evaluate` (bukin_function_impl.hpp:26-50). -/
def bukin (x : Fin 2 → ℝ) : ℝ := 100 * √|x 1 - 0.01 * x 0 ^ 2| + 0.01 * |x 0 + 10|

/-- `BukinFunction::Gradient` (bukin_function_impl.hpp:52-78). -/
def bukinGrad (ε : ℝ) (x : Fin 2 → ℝ) : Fin 2 → ℝ :=
  ![0.01 * (x 0 + 10.0) / (|x 0 + 10.0| + ε) -
      x 0 * (x 1 - 0.01 * x 0 ^ 2) / |x 1 - 0.01 * x 0 ^ 2| ^ (1.5 : ℝ),
    50 * (x 1 - 0.01 * x 0 ^ 2) / |x 1 - 0.01 * x 0 ^ 2| ^ (1.5 : ℝ)]

/-- `ColvilleFunction::Evaluate` (colville_function_impl.hpp:25-53). -/
def colville (x : Fin 4 → ℝ) : ℝ :=
  100 * (x 0 ^ 2 - x 1) ^ 2 + (x 0 - 1) ^ 2 + (x 2 - 1) ^ 2 + 90 * (x 2 ^ 2 - x 3) ^ 2 +
    10.1 * ((x 1 - 1) ^ 2 + (x 3 - 1) ^ 2) + 19.8 * (x 1 - 1) * (x 3 - 1)

/-- `ColvilleFunction::Gradient` (colville_function_impl.hpp:55-82). -/
def colvilleGrad (x : Fin 4 → ℝ) : Fin 4 → ℝ :=
  ![2 * (200 * x 0 * (x 0 ^ 2 - x 1) + x 0 - 1), 19.8 * x 3 - 200 * x 0 ^ 2 + 220.2 * x 1 - 40,
    2 * (180 * x 2 * (x 2 ^ 2 - x 3) + x 2 - 1), 200.2 * x 3 + 19.8 * x 1 - 180 * x 2 ^ 2 - 40]

/-- `DropWaveFunction::Evaluate` (drop_wave_function_impl.hpp:25-50). -/
def dropWave (x : Fin 2 → ℝ) : ℝ :=
  -1 * (1 + cos (12 * √(x 0 ^ 2 + x 1 ^ 2))) / (0.5 * (x 0 ^ 2 + x 1 ^ 2) + 2)

/-- `DropWaveFunction::Gradient` (drop_wave_function_impl.hpp:52-86). -/
def dropWaveGrad (x : Fin 2 → ℝ) : Fin 2 → ℝ :=
  ![12 * x 0 * sin (12 * √(x 0 ^ 2 + x 1 ^ 2)) / (√(x 0 ^ 2 + x 1 ^ 2) * (0.5 * (x 0 ^ 2 + x 1 ^ 2) + 2)) -
      x 0 * (-1 * cos (12 * √(x 0 ^ 2 + x 1 ^ 2)) - 1) / (0.5 * (x 0 ^ 2 + x 1 ^ 2) + 2) ^ 2,
    12 * x 1 * sin (12 * √(x 0 ^ 2 + x 1 ^ 2)) / (√(x 0 ^ 2 + x 1 ^ 2) * (0.5 * (x 0 ^ 2 + x 1 ^ 2) + 2)) -
      x 1 * (-1 * cos (12 * √(x 0 ^ 2 + x 1 ^ 2)) - 1) / (0.5 * (x 0 ^ 2 + x 1 ^ 2) + 2) ^ 2]

/-- `EasomFunction::Evaluate` (easom_function_impl.hpp:25-50). -/
def easom (x : Fin 2 → ℝ) : ℝ := -cos (x 0) * cos (x 1) * exp (-1 * (x 0 - π) ^ 2 - (x 1 - π) ^ 2)

/-- `EasomFunction::Gradient` (easom_function_impl.hpp:52-88). -/
def easomGrad (x : Fin 2 → ℝ) : Fin 2 → ℝ :=
  ![2 * (x 0 - π) * exp (-1 * (x 0 - π) ^ 2 - (x 1 - π) ^ 2) * cos (x 0) * cos (x 1) +
      exp (-1 * (x 0 - π) ^ 2 - (x 1 - π) ^ 2) * sin (x 0) * cos (x 1),
    2 * (x 1 - π) * exp (-1 * (x 0 - π) ^ 2 - (x 1 - π) ^ 2) * cos (x 0) * cos (x 1) +
      exp (-1 * (x 0 - π) ^ 2 - (x 1 - π) ^ 2) * cos (x 0) * sin (x 1)]

/-- `EggholderFunction::Evaluate` (eggholder_function_impl.hpp:25-50). -/
def eggholder (x : Fin 2 → ℝ) : ℝ :=
  -1 * (x 1 + 47) * sin √|x 1 + x 0 / 2 + 47| - x 0 * sin √|x 0 - (x 1 + 47)|

/-- `EggholderFunction::Gradient` (eggholder_function_impl.hpp:52-86). -/
def eggholderGrad (x : Fin 2 → ℝ) : Fin 2 → ℝ :=
  ![-1 * sin √|x 0 - x 1 - 47| -
      x 0 * (x 0 - x 1 - 47) * cos √|x 0 - x 1 - 47| / (2 * |x 0 - x 1 - 47|) ^ (1.5 : ℝ) -
      (x 0 + 47) * (x 0 / 2 + x 1 + 47) * cos √|x 0 / 2 + x 1 + 47| / (4 * |x 0 / 2 + x 1 + 47| ^ (1.5 : ℝ)),
    -1 * sin √|x 0 / 2 + x 1 + 47| -
      x 0 * (x 0 - x 1 - 47) * cos √|x 0 - x 1 - 47| / (2 * |x 0 - x 1 - 47|) ^ (1.5 : ℝ) -
      (x 0 + 47) * (x 0 / 2 + x 1 + 47) * cos √|x 0 / 2 + x 1 + 47| / (4 * |x 0 / 2 + x 1 + 47| ^ (1.5 : ℝ))]

/-- `GoldsteinPriceFunction::Evaluate` (goldstein_price_function_impl.hpp:26-54). -/
def goldsteinPrice (x : Fin 2 → ℝ) : ℝ :=
  (1 + (x 0 + x 1 + 1) ^ 2 * (19 - 14 * x 0 + 3 * x 0 ^ 2 - 14 * x 1 + 6 * (x 0 * x 1) + 3 * x 1 ^ 2)) *
    (30 + (2 * x 0 - 3 * x 1) ^ 2 *
      (18 - 32 * x 0 + 12 * x 0 ^ 2 + 48 * x 1 - 36 * (x 0 * x 1) + 27 * x 1 ^ 2))

/-- `GoldsteinPriceFunction::Gradient` (goldstein_price_function_impl.hpp:56-93). -/
def goldsteinPriceGrad (x : Fin 2 → ℝ) : Fin 2 → ℝ :=
  ![((2 * x 0 - 3 * x 1) ^ 2 * (24 * x 0 - 36 * x 1 - 32) + (8 * x 0 - 12 * x 1) *
        (12 * x 0 * x 0 - 36 * x 0 * x 1 - 32 * x 0 + 27 * x 1 * x 1 + 48 * x 1 + 18)) *
        ((x 0 + x 1 + 1) ^ 2 * (3 * x 0 * x 0 + 6 * x 0 * x 1 - 14 * x 0 + 3 * x 1 * x 1 - 14 * x 1 + 19) + 1) +
      ((2 * x 0 - 3 * x 1) ^ 2 *
          (12 * x 0 * x 0 - 36 * x 0 * x 1 - 32 * x 0 + 27 * x 1 * x 1 + 48 * x 1 + 18) + 30) *
        ((x 0 + x 1 + 1) ^ 2 * (6 * x 0 + 6 * x 1 - 14) + (2 * x 0 + 2 * x 1 + 2) *
          (3 * x 0 * x 0 + 6 * x 0 * x 1 - 14 * x 0 + 3 * x 1 * x 1 - 14 * x 1 + 19)),
    ((-12 * x 0 + 18 * x 1) *
        (12 * x 0 * x 0 - 36 * x 0 * x 1 - 32 * x 0 + 27 * x 1 * x 1 + 48 * x 1 + 18) +
        (2 * x 0 - 3 * x 1) ^ 2 * (-36 * x 0 + 54 * x 1 + 48)) *
        ((x 0 + x 1 + 1) ^ 2 * (3 * x 0 * x 0 + 6 * x 0 * x 1 - 14 * x 0 + 3 * x 1 * x 1 - 14 * x 1 + 19) + 1) +
      ((2 * x 0 - 3 * x 1) ^ 2 *
          (12 * x 0 * x 0 - 36 * x 0 * x 1 - 32 * x 0 + 27 * x 1 * x 1 + 48 * x 1 + 18) + 30) *
        ((x 0 + x 1 + 1) ^ 2 * (6 * x 0 + 6 * x 1 - 14) + (2 * x 0 + 2 * x 1 + 2) *
          (3 * x 0 * x 0 + 6 * x 0 * x 1 - 14 * x 0 + 3 * x 1 * x 1 - 14 * x 1 + 19))]

/-- `HimmelblauFunction::Evaluate` (himmelblau_function_impl.hpp:25-48). -/
def himmelblau (x : Fin 2 → ℝ) : ℝ := (x 0 * x 0 + x 1 - 11) ^ 2 + (x 0 + x 1 * x 1 - 7) ^ 2

/-- `HimmelblauFunction::Gradient` (himmelblau_function_impl.hpp:50-77). -/
def himmelblauGrad (x : Fin 2 → ℝ) : Fin 2 → ℝ :=
  ![4 * x 0 * (x 0 * x 0 + x 1 - 11) + 2 * (x 0 + x 1 * x 1 - 7),
    2 * (x 0 * x 0 + x 1 - 11) + 4 * x 1 * (x 0 + x 1 * x 1 - 7)]

/-- `LevyFunctionN13::Evaluate` (levy_function_n13_impl.hpp:25-52). -/
def levy13 (x : Fin 2 → ℝ) : ℝ :=
  sin (3 * π * x 0) ^ 2 + (x 0 - 1) ^ 2 * (1 + sin (3 * π * x 1) ^ 2) + (x 1 - 1) ^ 2 * (1 + sin (2 * π * x 1) ^ 2)

/-- `LevyFunctionN13::Gradient` (levy_function_n13_impl.hpp:54-84). -/
def levy13Grad (x : Fin 2 → ℝ) : Fin 2 → ℝ :=
  ![(2 * x 0 - 2) * (sin (3 * π * x 1) ^ 2 + 1) + 6 * π * sin (3 * π * x 0) * cos (3 * π * x 0),
    6 * π * (x 0 - 1) ^ 2 * sin (3 * π * x 1) * cos (3 * π * x 1) +
      4 * π * (x 1 - 1) ^ 2 * sin (2 * π * x 1) * cos (2 * π * x 1) + (2 * x 1 - 2) * (sin (2 * π * x 1) ^ 2 + 1)]

/-- `MatyasFunction::Evaluate` (matyas_function_impl.hpp:25-49). -/
def matyas (x : Fin 2 → ℝ) : ℝ := 0.26 * (x 0 ^ 2 + x 1 ^ 2) - 0.48 * x 0 * x 1

/-- `MatyasFunction::Gradient` (matyas_function_impl.hpp:51-74). -/
def matyasGrad (x : Fin 2 → ℝ) : Fin 2 → ℝ := ![0.52 * x 0 - 48 * x 1, 0.52 * x 1 - 0.48 * x 0]

/-- `McCormickFunction::Evaluate` (mc_cormick_function_impl.hpp:25-46). -/
def mcCormick (x : Fin 2 → ℝ) : ℝ := sin (x 0 + x 1) + (x 0 - x 1) ^ 2 - 1.5 * x 0 + 2.5 * x 1 + 1

/-- `McCormickFunction::Gradient` (mc_cormick_function_impl.hpp:48-68). -/
def mcCormickGrad (x : Fin 2 → ℝ) : Fin 2 → ℝ :=
  ![cos (x 0 + x 1) + 2 * x 0 - 2 * x 1 - 1.5, cos (x 0 + x 1) - 2 * x 0 + 2 * x 1 + 2.5]

/-- `RosenbrockFunction::Evaluate` (rosenbrock_function_impl.hpp:26-51). -/
def rosenbrock (x : Fin 2 → ℝ) : ℝ := 100 * (x 1 - x 0 ^ 2) ^ 2 + (1 - x 0) ^ 2

/-- `RosenbrockFunction::Gradient` (rosenbrock_function_impl.hpp:53-76). -/
def rosenbrockGrad (x : Fin 2 → ℝ) : Fin 2 → ℝ :=
  ![-2 * (1 - x 0) + 400 * (x 0 ^ 3 - x 1 * x 0), 200 * (x 1 - x 0 ^ 2)]

/-- `SchafferFunctionN2::Evaluate` (schaffer_function_n2_impl.hpp:25-50). -/
def schaffer2 (x : Fin 2 → ℝ) : ℝ :=
  0.5 + (sin (x 0 ^ 2 - x 1 ^ 2) ^ 2 - 0.5) / (1 + 0.001 * (x 0 ^ 2 + x 1 ^ 2)) ^ 2

/-- `SchafferFunctionN2::Gradient` (schaffer_function_n2_impl.hpp:52-86). -/
def schaffer2Grad (x : Fin 2 → ℝ) : Fin 2 → ℝ :=
  let sum1 := x 0 * x 0 - x 1 * x 1
  let sum2 := 0.001 * (x 0 * x 0 + x 1 * x 1) + 1
  let expr1 := -0.004 * (sin sum1 ^ 2 - 0.5) / sum2 ^ 3
  let expr2 := 4 * sin sum1 * cos sum1 / sum2 ^ 2
  ![x 0 * (expr1 + expr2), x 1 * (expr1 - expr2)]

/-- `SchafferFunctionN4::Evaluate` (schaffer_function_n4_impl.hpp:25-50). -/
def schaffer4 (x : Fin 2 → ℝ) : ℝ :=
  0.5 + (cos (sin |x 0 ^ 2 - x 1 ^ 2|) ^ 2 - 0.5) / (1 + 0.001 * (x 0 ^ 2 + x 1 ^ 2)) ^ 2

/-- `ThreeHumpCamelFunction::Evaluate` (three_hump_camel_function_impl.hpp:26-49). -/
def threeHump (x : Fin 2 → ℝ) : ℝ := 2 * x 0 ^ 2 - 1.05 * x 0 ^ 4 + x 0 ^ 6 / 6 + x 0 * x 1 + x 1 ^ 2

/-- `ThreeHumpCamelFunction::Gradient` (three_hump_camel_function_impl.hpp:51-74). -/
def threeHumpGrad (x : Fin 2 → ℝ) : Fin 2 → ℝ := ![x 0 ^ 5 - 4.2 * x 0 ^ 3 + 4 * x 0 + x 1, x 0 + 2 * x 1]

/-- `WoodFunction::Evaluate` (wood_function_impl.hpp:26-57). -/
def wood (x : Fin 4 → ℝ) : ℝ :=
  100 * (x 1 - x 0 ^ 2) ^ 2 + (1 - x 0) ^ 2 + 90 * (x 3 - x 2 ^ 2) ^ 2 + (1 - x 2) ^ 2 +
    10 * (x 1 + x 3 - 2) ^ 2 + 1 / 10 * (x 1 - x 3) ^ 2

/-- `WoodFunction::Gradient` (wood_function_impl.hpp:59-88). -/
def woodGrad (x : Fin 4 → ℝ) : Fin 4 → ℝ :=
  ![400 * (x 0 ^ 3 - x 1 * x 0) - 2 * (1 - x 0),
    200 * (x 1 - x 0 ^ 2) + 20 * (x 1 + x 3 - 2) + 1 / 5 * (x 1 - x 3),
    360 * (x 2 ^ 3 - x 3 * x 2) - 2 * (1 - x 2),
    180 * (x 3 - x 2 ^ 2) + 20 * (x 1 + x 3 - 2) - 1 / 5 * (x 1 - x 3)]

/-- `TestFuncFW::Evaluate` (fw_test_function.hpp:35-41). -/
def testFuncFW (x : Fin 3 → ℝ) : ℝ := (x 0 - 0.1) ^ 2 + (x 1 - 0.2) ^ 2 + (x 2 - 0.3) ^ 2

/-- `TestFuncFW::Gradient` (fw_test_function.hpp:49-55). -/
def testFuncFWGrad (x : Fin 3 → ℝ) : Fin 3 → ℝ := ![x 0 - 0.1, x 1 - 0.2, x 2 - 0.3]

/-- `GDTestFunction::Evaluate` (gradient_descent_test_function_impl.hpp:20-26), for a column of three elements. -/
def gdTest (x : Fin 3 → ℝ) : ℝ := x 0 * x 0 + x 1 * x 1 + x 2 * x 2

/-- `GDTestFunction::Gradient` (gradient_descent_test_function_impl.hpp:28-33). -/
def gdTestGrad (x : Fin 3 → ℝ) : Fin 3 → ℝ := ![2 * x 0, 2 * x 1, 2 * x 2]

end

end Ens.Problems
