import Mathlib.Analysis.SpecialFunctions.Pow.Real
import Mathlib.Analysis.SpecialFunctions.Trigonometric.Basic
import Verif.Moo.DasDennis

/-
The multi-objective test problems, over ℝ: problems/schaffer_function_n1.hpp, problems/fonseca_fleming_function.hpp, problems/zdt/*,
problems/dtlz/*, problems/maf/*.

Each problem offers its objectives twice: `Evaluate` returns all of them, `GetObjectives` returns a tuple of function objects, and the
optimizers use only the tuple.  Both are modelled, for one column of coordinates (the matrix versions work column by column).  A
column is a function of the row number; rows from `numVariables` on are never read.

Simplified: exact real arithmetic; `std::pow(x, 0.1)` and `std::pow(x, 0.25)` are the real power (a negative base is NaN in C++; the
theorems about these problems are about the documented box); `sqrt` of a negative number likewise.  A problem object holds references
to itself in its objective objects; copying problem objects is not modelled.
-/

namespace Ens.Problems.Multi

open Real

/-- One column of coordinates. -/
abbrev Coords := Nat → ℝ

/-- The values of the tuple of objectives. -/
def values (objectives : List (Coords → ℝ)) (x : Coords) : List ℝ := objectives.map fun f => f x

/-! ### Schaffer N.1 -/

/-- SchafferFunctionN1::Evaluate, problems/schaffer_function_n1.hpp 50-61. -/
def schafferEval (x : Coords) : List ℝ := [x 0 ^ 2, (x 0 - 2) ^ 2]

/-- SchafferFunctionN1::GetObjectives, problems/schaffer_function_n1.hpp 72-92. -/
def schafferObjs : List (Coords → ℝ) := [fun x => x 0 ^ 2, fun x => (x 0 - 2) ^ 2]

/-! ### Fonseca-Fleming -/

/-- FonsecaFlemingFunction::ObjectiveA::Evaluate, problems/fonseca_fleming_function.hpp 73-83. -/
noncomputable def ffA (x : Coords) : ℝ :=
  1 - exp (-(x 0 - 1 / √3) ^ 2 - (x 1 - 1 / √3) ^ 2 - (x 2 - 1 / √3) ^ 2)

/-- FonsecaFlemingFunction::ObjectiveB::Evaluate, problems/fonseca_fleming_function.hpp 85-95. -/
noncomputable def ffB (x : Coords) : ℝ :=
  1 - exp (-(x 0 + 1 / √3) ^ 2 - (x 1 + 1 / √3) ^ 2 - (x 2 + 1 / √3) ^ 2)

/-- FonsecaFlemingFunction::Evaluate, problems/fonseca_fleming_function.hpp 51-62. -/
noncomputable def ffEval (x : Coords) : List ℝ := [ffA x, ffB x]

/-- FonsecaFlemingFunction::GetObjectives, problems/fonseca_fleming_function.hpp 98-101. -/
noncomputable def ffObjs : List (Coords → ℝ) := [ffA, ffB]

/-! ### ZDT -/

/-- `arma::accu(coords(arma::span(1, numVariables - 1), 0))`. -/
def tailSum (n : Nat) (f : ℝ → ℝ) (x : Coords) : ℝ := ∑ i ∈ Finset.Ico 1 n, f (x i)

/-- `g` in ZDT1, ZDT2, ZDT3 (30 variables): problems/zdt/zdt1_function.hpp 80-81 and 120-122, zdt2_function.hpp 81-82, zdt3_function.hpp
87-88. -/
noncomputable def zdtG (x : Coords) : ℝ := 1 + 9 * tailSum 30 (fun t => t) x / ((30 : ℝ) - 1)

/-- ZDT1::Evaluate, problems/zdt/zdt1_function.hpp 73-86. -/
noncomputable def zdt1Eval (x : Coords) : List ℝ := [x 0, zdtG x * (1 - √(x 0 / zdtG x))]

/-- ZDT1::GetObjectives, problems/zdt/zdt1_function.hpp 97-135. -/
noncomputable def zdt1Objs : List (Coords → ℝ) :=
  [fun x => x 0, fun x =>
    let g := 1 + 9 * tailSum 30 (fun t => t) x / ((29 : Nat) : ℝ)
    g * (1 - √(x 0 / g))]

/-- ZDT2::Evaluate, problems/zdt/zdt2_function.hpp 74-87. -/
noncomputable def zdt2Eval (x : Coords) : List ℝ := [x 0, zdtG x * (1 - (x 0 / zdtG x) ^ 2)]

/-- ZDT2::GetObjectives, problems/zdt/zdt2_function.hpp 98-136. -/
noncomputable def zdt2Objs : List (Coords → ℝ) :=
  [fun x => x 0, fun x =>
    let g := 1 + 9 * tailSum 30 (fun t => t) x / ((29 : Nat) : ℝ)
    g * (1 - (x 0 / g) ^ 2)]

/-- ZDT3::Evaluate, problems/zdt/zdt3_function.hpp 81-94. -/
noncomputable def zdt3Eval (x : Coords) : List ℝ :=
  [x 0, zdtG x * (1 - √(x 0 / zdtG x) - x 0 / zdtG x * sin (10 * π * x 0))]

/-- ZDT3::GetObjectives, problems/zdt/zdt3_function.hpp 105-143. -/
noncomputable def zdt3Objs : List (Coords → ℝ) :=
  [fun x => x 0, fun x =>
    let g := 1 + 9 * tailSum 30 (fun t => t) x / ((29 : Nat) : ℝ)
    g * (1 - √(x 0 / g) - x 0 / g * sin (10 * π * x 0))]

/-- `g` in ZDT4::Evaluate, problems/zdt/zdt4_function.hpp 81-84 (10 variables). -/
noncomputable def zdt4G (x : Coords) : ℝ := 1 + 10 * ((10 - 1 : Nat) : ℝ) + tailSum 10 (fun t => t ^ 2 - 10 * cos (4 * π * t)) x

/-- ZDT4::Evaluate, problems/zdt/zdt4_function.hpp 75-89. -/
noncomputable def zdt4Eval (x : Coords) : List ℝ := [x 0, zdt4G x * (1 - √(x 0 / zdt4G x))]

/-- ZDT4::GetObjectives, problems/zdt/zdt4_function.hpp 100-139. -/
noncomputable def zdt4Objs : List (Coords → ℝ) :=
  [fun x => x 0, fun x =>
    let g := 1 + 10 * ((9 : Nat) : ℝ) + tailSum 10 (fun t => t ^ 2 - 10 * cos (4 * π * t)) x
    g * (1 - √(x 0 / g))]

/-- The first objective of ZDT6, problems/zdt/zdt6_function.hpp 81-82 and 106-110. -/
noncomputable def zdt6F (t : ℝ) : ℝ := 1 - exp (-4 * t) * sin (6 * π * t) ^ 6

/-- `g` in ZDT6::Evaluate, problems/zdt/zdt6_function.hpp 83-85 (10 variables). -/
noncomputable def zdt6G (x : Coords) : ℝ := 1 + 9 * (tailSum 10 (fun t => t) x / 9) ^ (0.25 : ℝ)

/-- ZDT6::Evaluate, problems/zdt/zdt6_function.hpp 75-90. -/
noncomputable def zdt6Eval (x : Coords) : List ℝ := [zdt6F (x 0), zdt6G x * (1 - (zdt6F (x 0) / zdt6G x) ^ 2)]

/-- ZDT6::GetObjectives, problems/zdt/zdt6_function.hpp 101-141. -/
noncomputable def zdt6Objs : List (Coords → ℝ) :=
  [fun x => zdt6F (x 0), fun x =>
    let g := 1 + 9 * (tailSum 10 (fun t => t) x / 9) ^ (0.25 : ℝ)
    g * (1 - (zdt6F (x 0) / g) ^ 2)]

/-- `arma::linspace(a, b, n)`: `n` values from `a` to `b`; the only value of `n = 1` is `b`. -/
noncomputable def linspace (a b : ℝ) (n : Nat) : List ℝ :=
  if n = 1 then [b] else (List.range n).map fun (i : Nat) => a + (i : ℝ) * ((b - a) / ((n : ℝ) - 1))

/-- GetReferenceFront of ZDT1 and ZDT4, problems/zdt/zdt1_function.hpp 140-149, zdt4_function.hpp 144-153. -/
noncomputable def zdt1Front (numParetoPoints : Nat) : List (List ℝ) := (linspace 0 1 numParetoPoints).map fun t => [t, 1 - √t]

/-- GetReferenceFront of ZDT2, problems/zdt/zdt2_function.hpp 141-150. -/
noncomputable def zdt2Front (numParetoPoints : Nat) : List (List ℝ) := (linspace 0 1 numParetoPoints).map fun t => [t, 1 - t ^ 2]

/-- GetReferenceFront of ZDT6, problems/zdt/zdt6_function.hpp 146-155. -/
noncomputable def zdt6Front (numParetoPoints : Nat) : List (List ℝ) :=
  (linspace 0.2807753191 1 numParetoPoints).map fun t => [t, 1 - t ^ 2]

/-! ### DTLZ and MAF -/

/-- The loop of `Evaluate` in DTLZ1–6 and MAF1–6: row `i` of the objectives is computed from `value`, then `value` is updated; after
`k` rows (`numObjectives - 1`) the last row is computed from `value`. -/
def spread (row next : Nat → ℝ → ℝ) (last : ℝ → ℝ) : Nat → Nat → ℝ → List ℝ
  | _, 0, value => [last value]
  | i, k + 1, value => row i value :: spread row next last (i + 1) k (next i value)

/-- The product loop of the objective objects in DTLZ1–6 and MAF1–6: `value` times `c 0 * ... * c (stop - 1)`. -/
def prodTo (c : Nat → ℝ) (stop : Nat) (value : ℝ) : ℝ := (List.range stop).foldl (fun v i => v * c i) value

/-- The objectives of the tuple for `stop` = 0, 1, 2 (constructors of the problem classes). -/
def threeObjs (f : Nat → Coords → ℝ) : List (Coords → ℝ) := [f 0, f 1, f 2]

/-- The sum over the distance variables, rows 2 to `n - 1`, that the functions `g` use. -/
def distSum (n : Nat) (f : ℝ → ℝ) (x : Coords) : ℝ := ∑ i ∈ Finset.Ico 2 n, f (x i)

/-- `g` in DTLZ1 and DTLZ3 (n = 7), MAF3 and MAF4 (n = 12): dtlz1_function.hpp 114-129, dtlz3_function.hpp 112-128, maf3_function.hpp
101-117, maf4_function.hpp 116-132. -/
noncomputable def gRast (n : Nat) (x : Coords) : ℝ :=
  100 * (((n - 3 + 1 : Nat) : ℝ) + distSum n (fun t => (t - 0.5) ^ 2 - cos (20 * π * (t - 0.5))) x)

/-- `g` in DTLZ2, 4, 5 (n = 7), MAF1, 5, 6 (n = 12): dtlz2_function.hpp 111-124, dtlz4_function.hpp 114-128, dtlz5_function.hpp 111-125,
maf1_function.hpp 97-110, maf5_function.hpp 132-146, maf6_function.hpp 117-131. -/
noncomputable def gQuad (n : Nat) (x : Coords) : ℝ := distSum n (fun t => (t - 0.5) ^ 2) x

/-- `g` in DTLZ6, dtlz6_function.hpp 111-125. -/
noncomputable def gRoot (x : Coords) : ℝ := distSum 7 (fun t => t ^ (0.1 : ℝ)) x

/-- DTLZ1::Evaluate, dtlz1_function.hpp 138-153. -/
noncomputable def dtlz1Eval (x : Coords) : List ℝ :=
  spread (fun i v => v * (1 - x i)) (fun i v => v * x i) (fun v => v) 0 2 (0.5 * (1 + gRast 7 x))

/-- DTLZ1::DTLZObjective::Evaluate, dtlz1_function.hpp 168-189. -/
noncomputable def dtlz1Obj (stop : Nat) (x : Coords) : ℝ :=
  let value := prodTo x stop 0.5
  let value := if stop ≠ 3 - 1 then value * (1 - x stop) else value * x stop
  value * (1 + gRast 7 x)

/-- The loop of DTLZ2–6::Evaluate: `theta i` is the angle of row `i` (before the factor π/2) and `G` the value of `g`;
dtlz2_function.hpp 133-149, dtlz3_function.hpp 136-152, dtlz4_function.hpp 136-152, dtlz5_function.hpp 133-151, dtlz6_function.hpp
133-151. -/
noncomputable def sphereEval (theta : Nat → ℝ) (G : ℝ) : List ℝ :=
  spread (fun i v => v * sin (theta i * π * 0.5)) (fun i v => v * cos (theta i * π * 0.5)) (fun v => v) 0 2 (0.5 * (1 + G))

/-- The objective objects of DTLZ2–6: dtlz2_function.hpp 164-185, dtlz3_function.hpp 167-188, dtlz4_function.hpp 167-188,
dtlz5_function.hpp 166-190, dtlz6_function.hpp 166-190. -/
noncomputable def sphereObj (theta : Nat → ℝ) (G : ℝ) (stop : Nat) : ℝ :=
  let value := prodTo (fun i => cos (theta i * π * 0.5)) stop 1
  let value := if stop ≠ 3 - 1 then value * sin (theta stop * π * 0.5) else value * cos (theta stop * π * 0.5)
  value * (1 + G)

/-- The angle in DTLZ5 and DTLZ6, dtlz5_function.hpp 144, 175 and 178. -/
noncomputable def theta5 (G : ℝ) (x : Coords) (i : Nat) : ℝ := 0.5 * (1 + 2 * x i * G) / (1 + G)

/-- DTLZ2::Evaluate, dtlz2_function.hpp 133-149. -/
noncomputable def dtlz2Eval (x : Coords) : List ℝ := sphereEval x (gQuad 7 x)
/-- DTLZ3::Evaluate, dtlz3_function.hpp 136-152. -/
noncomputable def dtlz3Eval (x : Coords) : List ℝ := sphereEval x (gRast 7 x)
/-- DTLZ4::Evaluate, dtlz4_function.hpp 136-152. -/
noncomputable def dtlz4Eval (alpha : Nat) (x : Coords) : List ℝ := sphereEval (fun i => x i ^ alpha) (gQuad 7 x)
/-- DTLZ5::Evaluate, dtlz5_function.hpp 133-151. -/
noncomputable def dtlz5Eval (x : Coords) : List ℝ := sphereEval (theta5 (gQuad 7 x) x) (gQuad 7 x)
/-- DTLZ6::Evaluate, dtlz6_function.hpp 133-151. -/
noncomputable def dtlz6Eval (x : Coords) : List ℝ := sphereEval (theta5 (gRoot x) x) (gRoot x)

/-- DTLZ1::GetObjectives, dtlz1_function.hpp 168-199. -/
noncomputable def dtlz1Objs : List (Coords → ℝ) := threeObjs dtlz1Obj
/-- DTLZ2::GetObjectives, dtlz2_function.hpp 164-195. -/
noncomputable def dtlz2Objs : List (Coords → ℝ) := threeObjs fun stop x => sphereObj x (gQuad 7 x) stop
/-- DTLZ3::GetObjectives, dtlz3_function.hpp 167-198. -/
noncomputable def dtlz3Objs : List (Coords → ℝ) := threeObjs fun stop x => sphereObj x (gRast 7 x) stop
/-- DTLZ4::GetObjectives, dtlz4_function.hpp 167-198. -/
noncomputable def dtlz4Objs (alpha : Nat) : List (Coords → ℝ) :=
  threeObjs fun stop x => sphereObj (fun i => x i ^ alpha) (gQuad 7 x) stop
/-- DTLZ5::GetObjectives, dtlz5_function.hpp 166-200. -/
noncomputable def dtlz5Objs : List (Coords → ℝ) := threeObjs fun stop x => sphereObj (theta5 (gQuad 7 x) x) (gQuad 7 x) stop
/-- DTLZ6::GetObjectives, dtlz6_function.hpp 166-200. -/
noncomputable def dtlz6Objs : List (Coords → ℝ) := threeObjs fun stop x => sphereObj (theta5 (gRoot x) x) (gRoot x) stop

/-- `g` of DTLZ7, dtlz7_function.hpp 111-123. -/
noncomputable def gSeven (x : Coords) : ℝ := 9.0 / ((7 - 3 + 1 : Nat) : ℝ) * distSum 7 (fun t => t) x + 1

/-- `h` of DTLZ7, dtlz7_function.hpp 131-146. -/
noncomputable def hSeven (x : Coords) (G : ℝ) : ℝ :=
  (List.range (3 - 1)).foldl (fun s i => s - x i * (1 + cos (π * 3 * x i)) / (1 + G)) (1 * 3)

/-- DTLZ7::Evaluate (also MAF7), dtlz7_function.hpp 154-165. -/
noncomputable def dtlz7Eval (x : Coords) : List ℝ := [x 0, x 1, (1 + gSeven x) * hSeven x (gSeven x)]

/-- DTLZ7::DTLZ7Objective::Evaluate, dtlz7_function.hpp 180-190. -/
noncomputable def dtlz7Obj (stop : Nat) (x : Coords) : ℝ :=
  if stop ≠ 3 - 1 then x stop else (1 + gSeven x) * hSeven x (gSeven x)

/-- DTLZ7::GetObjectives, dtlz7_function.hpp 180-200. -/
noncomputable def dtlz7Objs : List (Coords → ℝ) := threeObjs dtlz7Obj

/-- MAF1::Evaluate, maf1_function.hpp 118-133. -/
noncomputable def maf1Eval (x : Coords) : List ℝ :=
  spread (fun i v => (1 - v * (1 - x i)) * (1 + gQuad 12 x)) (fun i v => v * x i) (fun v => (1 - v) * (1 + gQuad 12 x)) 0 2 1

/-- MAF1::MAF1Objective::Evaluate, maf1_function.hpp 148-169. -/
noncomputable def maf1Obj (stop : Nat) (x : Coords) : ℝ :=
  if stop = 0 then x 0 * (1 + gQuad 12 x)
  else
    let value := prodTo x stop 1
    let value := if stop ≠ 3 - 1 then value * (1 - x stop) else value
    (1 - value) * (1 + gQuad 12 x)

/-- Row `i` of MAF2::g, maf2_function.hpp 103-123: k = 10, c = 3; the loop runs `j` from `numObjectives - 1 + i * c` while
`j < numVariables - 1 + (i + 1) * c` and `j < numObjectives`, and adds a term of row `i` (not of row `j`). -/
noncomputable def maf2G (x : Coords) (i : Nat) : ℝ :=
  ∑ _j ∈ Finset.Ico (3 - 1 + i * ((12 - 3 + 1) / 3)) (min (12 - 1 + (i + 1) * ((12 - 3 + 1) / 3)) 3), (x i - 0.5) ^ 2 * 0.25

/-- The angle in MAF2, maf2_function.hpp 142, 174. -/
noncomputable def maf2Theta (x : Coords) (i : Nat) : ℝ := π * 0.5 * (x i / 2 + 0.25)

/-- MAF2::Evaluate, maf2_function.hpp 131-150. -/
noncomputable def maf2Eval (x : Coords) : List ℝ :=
  spread (fun i v => v * sin (maf2Theta x i) * (1 + maf2G x (3 - 1 - i))) (fun i v => v * cos (maf2Theta x i))
    (fun v => v * (1 + maf2G x 0)) 0 2 1

/-- MAF2::MAF2Objective::Evaluate, maf2_function.hpp 165-185. -/
noncomputable def maf2Obj (stop : Nat) (x : Coords) : ℝ :=
  let value := prodTo (fun i => cos (maf2Theta x i)) stop 1
  let value := if stop ≠ 3 - 1 then value * sin (maf2Theta x stop) else value
  value * (1 + maf2G x (3 - 1 - stop))

/-- MAF3::Evaluate, maf3_function.hpp 125-141. -/
noncomputable def maf3Eval (x : Coords) : List ℝ :=
  spread (fun i v => v ^ (if i = 0 then 2 else 4) * sin (x i * π * 0.5) ^ (if i = 0 then 2 else 4))
    (fun i v => v * cos (x i * π * 0.5)) (fun v => v ^ 4) 0 2 (1 + gRast 12 x)

/-- MAF3::MAF3Objective::Evaluate, maf3_function.hpp 156-177. -/
noncomputable def maf3Obj (stop : Nat) (x : Coords) : ℝ :=
  let value := prodTo (fun i => cos (x i * π * 0.5)) stop 1
  let value := if stop ≠ 3 - 1 then value * sin (x stop * π * 0.5) else value
  let value := value * (1 + gRast 12 x)
  if stop = 0 then value ^ 2 else value ^ 4

/-- MAF4::Evaluate with the member `a`, maf4_function.hpp 140-158. -/
noncomputable def maf4Eval (a : ℝ) (x : Coords) : List ℝ :=
  spread (fun i v => (1 - v * sin (x i * π * 0.5)) * (1 + gRast 12 x) * a ^ (3 - i)) (fun i v => v * cos (x i * π * 0.5))
    (fun v => (1 - v) * (1 + gRast 12 x) * a ^ 1) 0 2 1

/-- MAF4::GetA, maf4_function.hpp 99-100: the `double` member as a `size_t` (for a member that is not negative). -/
noncomputable def maf4GetA (a : ℝ) : Nat := ⌊a⌋₊

/-- MAF4::MAF4Objective::Evaluate, maf4_function.hpp 173-192. -/
noncomputable def maf4Obj (a : ℝ) (stop : Nat) (x : Coords) : ℝ :=
  let value := prodTo (fun i => cos (x i * π * 0.5)) stop 1
  let value := if stop ≠ 3 - 1 then value * sin (x stop * π * 0.5) else value
  (maf4GetA a : ℝ) ^ (3 - stop) * (1 - value) * (1 + gRast 12 x)

/-- MAF5::Evaluate with the members `alpha` and `a` (both `size_t`), maf5_function.hpp 154-171. -/
noncomputable def maf5Eval (alpha a : Nat) (x : Coords) : List ℝ :=
  spread (fun i v => (a : ℝ) ^ (i + 1) * v ^ 4 * sin (x i ^ alpha * π * 0.5) ^ 4) (fun i v => v * cos (x i ^ alpha * π * 0.5))
    (fun v => v ^ 4 * (a : ℝ) ^ 3) 0 2 (1 + gQuad 12 x)

/-- MAF5::MAF5Objective::Evaluate, maf5_function.hpp 186-207. -/
noncomputable def maf5Obj (alpha a : Nat) (stop : Nat) (x : Coords) : ℝ :=
  let value := prodTo (fun i => cos (x i ^ alpha * π * 0.5)) stop 1
  let value := if stop ≠ 3 - 1 then value * sin (x stop ^ alpha * π * 0.5) else value
  let value := value * (1 + gQuad 12 x)
  let value := value ^ 4
  value * (a : ℝ) ^ (stop + 1)

/-- The angle in MAF6 with the member `I`, maf6_function.hpp 150-157, 188-195, 199-206. -/
noncomputable def maf6Theta (I : Nat) (x : Coords) (i : Nat) : ℝ :=
  if i < I then x i * π * 0.5 else 0.25 * (1 + 2 * x i * gQuad 12 x) / (1 + gQuad 12 x)

/-- MAF6::Evaluate, maf6_function.hpp 139-164. -/
noncomputable def maf6Eval (I : Nat) (x : Coords) : List ℝ :=
  spread (fun i v => v * sin (maf6Theta I x i)) (fun i v => v * cos (maf6Theta I x i)) (fun v => v) 0 2 (1 + 100 * gQuad 12 x)

/-- MAF6::MAF6Objective::Evaluate, maf6_function.hpp 179-215. -/
noncomputable def maf6Obj (I : Nat) (stop : Nat) (x : Coords) : ℝ :=
  let theta i := if i < I then π * x i * 0.5 else 0.25 * (1 + 2 * x i * gQuad 12 x) / (1 + gQuad 12 x)
  let value := prodTo (fun i => cos (theta i)) stop 1
  let value := if stop ≠ 3 - 1 then value * sin (theta stop) else value
  value * (1 + 100 * gQuad 12 x)

/-- DTLZ1::GetReferenceFront, dtlz1_function.hpp 203-207: half the uniform weights (`none`: the weights throw, or out of fuel). -/
noncomputable def dtlz1Front (numParetoPoints fuel : Nat) : Option (List (List ℝ)) :=
  (Ens.Moo.DasDennis.generate 3 numParetoPoints (0 : ℝ) fuel).map fun cols => cols.map fun c => c.map fun t => 0.5 * t

/-- DTLZ2::GetReferenceFront, dtlz2_function.hpp 199-207 (also DTLZ3 202-210, DTLZ4 202-210): the 3 × n matrix of weights is normalised
row by row, which gives a 3 × n matrix again; storing it as a column vector throws unless it has one column; then the weights are
divided by the matrix with the three entries of that vector in every column. -/
noncomputable def dtlz2Front (numParetoPoints fuel : Nat) : Option (List (List ℝ)) :=
  (Ens.Moo.DasDennis.generate 3 numParetoPoints (0 : ℝ) fuel).bind fun cols =>
    match cols with
    | [c] => some [c.map fun t => t / (t / |t|)]
    | _ => none

end Ens.Problems.Multi
