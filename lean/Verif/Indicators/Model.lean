import Mathlib.Analysis.SpecialFunctions.Pow.Real
import Mathlib.Data.Real.Sqrt

/-
The quality indicators of /repo/include/ensmallen_bits/utility/indicators: `Epsilon::Evaluate`, `IGD::Evaluate`,
`IGDPlus::Evaluate`, over the reals.

A front is the list of its points (slices), a point has `m` objectives.  `big` is `std::numeric_limits<ElemType>::max()`.
Floating-point infinities and NaN occur only where modelled explicitly: division by zero in `Epsilon` and the division by the
number of reference points when there are none (`none`).
-/

namespace Ens.Indicators

noncomputable section

open Classical

variable {m : Nat}

/-- Inner loop of igd.hpp:71-80: the Euclidean distance. -/
def dist (z a : Fin m → ℝ) : ℝ := Real.sqrt (∑ k, (a k - z k) ^ 2)

/-- Inner loop of igd_plus.hpp:72-80. -/
def distPlus (z a : Fin m → ℝ) : ℝ := Real.sqrt (∑ k, (max (a k - z k) 0) ^ 2)

/-- The loop over `j` (igd.hpp:67-82, igd_plus.hpp:69-83): the smallest distance, starting from `big`. -/
def nearest (d : (Fin m → ℝ) → ℝ) (big : ℝ) (front : List (Fin m → ℝ)) : ℝ :=
  front.foldl (fun mn a => if d a < mn then d a else mn) big

/-- `IGD::Evaluate` (igd.hpp:60-90); `none`: 0 / 0. -/
def igd (big p : ℝ) (front ref : List (Fin m → ℝ)) : Option ℝ :=
  if ref.length = 0 then none
  else
    some ((ref.foldl (fun s z => s + nearest (dist z) big front ^ p) 0 / ref.length) ^ (1 / p))

/-- `IGDPlus::Evaluate` (igd_plus.hpp:61-89); `none`: 0 / 0. -/
def igdPlus (big : ℝ) (front ref : List (Fin m → ℝ)) : Option ℝ :=
  if ref.length = 0 then none
  else some (ref.foldl (fun s z => s + nearest (distPlus z) big front) 0 / ref.length)

/-- One element of `frontRatio` (epsilon.hpp:76-77): `+inf` is replaced by -1; `-inf` and NaN (0 / 0) never win the
comparison `>` of `max()` and are `⊥`. -/
def ratio (a z : ℝ) : WithBot ℝ :=
  if z = 0 then (if 0 < a then ((-1 : ℝ) : WithBot ℝ) else ⊥) else ((a / z : ℝ) : WithBot ℝ)

/-- `frontRatio.max()` (epsilon.hpp:78); Armadillo starts from `-inf`. -/
def worstRatio (a z : Fin m → ℝ) : WithBot ℝ := Finset.univ.sup fun k => ratio (a k) (z k)

/-- The loop over `j` (epsilon.hpp:73-81). -/
def epsMin (big : ℝ) (front : List (Fin m → ℝ)) (z : Fin m → ℝ) : WithBot ℝ :=
  front.foldl (fun mn a => if worstRatio a z < mn then worstRatio a z else mn) ((big : ℝ) : WithBot ℝ)

/-- `Epsilon::Evaluate` (epsilon.hpp:65-87). -/
def epsilon (big : ℝ) (front ref : List (Fin m → ℝ)) : ℝ :=
  ref.foldl (fun e z => if ((e : ℝ) : WithBot ℝ) < epsMin big front z then (epsMin big front z).unbotD 0 else e) 0

end

end Ens.Indicators
