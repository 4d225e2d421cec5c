import Mathlib.Algebra.Order.Floor.Ring
import Mathlib.Data.Real.Archimedean
import Mathlib.Tactic.Linarith
import Mathlib.Tactic.FieldSimp
import Mathlib.Tactic.Ring
import Mathlib.Tactic.NormNum
import Mathlib.Tactic.Positivity

/-
C26: `BoundaryBoxConstraint`
(/repo/include/ensmallen_bits/cmaes/transformation_policies/boundary_box_constraint.hpp).

One coordinate over the reals; the conversion `(int)` of a non-negative number is the floor
(a quotient beyond the range of `int`, undefined behaviour in C++, is not modelled).
-/

namespace Ens.Cmaes

/-- Lines 90-95. -/
noncomputable def diff (lb ub : ℝ) : ℝ := (ub - lb) / 2
noncomputable def al (lb ub : ℝ) : ℝ := min (diff lb ub) ((1 + |lb|) / 20)
noncomputable def au (lb ub : ℝ) : ℝ := min (diff lb ub) ((1 + |ub|) / 20)
noncomputable def xlow (lb ub : ℝ) : ℝ := lb - 2 * al lb ub - diff lb ub
noncomputable def xup (lb ub : ℝ) : ℝ := ub + 2 * au lb ub + diff lb ub
noncomputable def period (lb ub : ℝ) : ℝ := 2 * (2 * diff lb ub + al lb ub + au lb ub)

/-- Lines 98-101. -/
noncomputable def shiftUp (lb ub y : ℝ) : ℝ :=
  if y < xlow lb ub then y + period lb ub * (1 + ⌊(xlow lb ub - y) / period lb ub⌋) else y

/-- Lines 102-105. -/
noncomputable def shiftDown (lb ub y : ℝ) : ℝ :=
  if y > xup lb ub then y - period lb ub * (1 + ⌊(y - xup lb ub) / period lb ub⌋) else y

/-- Lines 106-109. -/
noncomputable def mirrorLow (lb ub y : ℝ) : ℝ :=
  if y < lb - al lb ub then y + 2 * (lb - al lb ub - y) else y

/-- Lines 110-113. -/
noncomputable def mirrorUp (lb ub y : ℝ) : ℝ :=
  if y > ub + au lb ub then y - 2 * (y - ub - au lb ub) else y

/-- Lines 116-127. -/
noncomputable def bend (lb ub y : ℝ) : ℝ :=
  if y < lb + al lb ub then
    lb + (y - (lb - al lb ub)) * (y - (lb - al lb ub)) / 4 / al lb ub
  else if y > ub - au lb ub then
    ub - (y - (ub + au lb ub)) * (y - (ub + au lb ub)) / 4 / au lb ub
  else y

/-- `Transform` of one coordinate (lines 90-127). -/
noncomputable def transform (lb ub x : ℝ) : ℝ :=
  bend lb ub (mirrorUp lb ub (mirrorLow lb ub (shiftDown lb ub (shiftUp lb ub x))))

section
variable {lb ub : ℝ}

theorem widths (h : lb < ub) : 0 < diff lb ub ∧ 0 < al lb ub ∧ 0 < au lb ub ∧
    al lb ub ≤ diff lb ub ∧ au lb ub ≤ diff lb ub ∧ ub = lb + 2 * diff lb ub := by
  have hd : 0 < diff lb ub := by unfold diff; linarith
  refine ⟨hd, lt_min hd ?_, lt_min hd ?_, min_le_left _ _, min_le_left _ _, by unfold diff; ring⟩
  · have := abs_nonneg lb; positivity
  · have := abs_nonneg ub; positivity

theorem shift_mem (h : lb < ub) (x : ℝ) :
    xlow lb ub ≤ shiftDown lb ub (shiftUp lb ub x) ∧ shiftDown lb ub (shiftUp lb ub x) ≤ xup lb ub := by
  obtain ⟨h1, h2, h3, h4, h5, h6⟩ := widths h
  have hp : 0 < period lb ub := by unfold period; linarith
  have hpx : xup lb ub = xlow lb ub + period lb ub := by
    unfold xup xlow period; linarith
  have key : ∀ t : ℝ, 0 < t → t < period lb ub * (1 + ⌊t / period lb ub⌋) ∧
      period lb ub * (1 + ⌊t / period lb ub⌋) ≤ t + period lb ub := by
    intro t _
    have ha := Int.floor_le (t / period lb ub)
    have hb := Int.lt_floor_add_one (t / period lb ub)
    rw [div_lt_iff₀ hp] at hb
    rw [le_div_iff₀ hp] at ha
    constructor <;> nlinarith
  by_cases hx : x < xlow lb ub
  · obtain ⟨ha, hb⟩ := key (xlow lb ub - x) (by linarith)
    have hs : shiftUp lb ub x = x + period lb ub * (1 + ⌊(xlow lb ub - x) / period lb ub⌋) := if_pos hx
    have hsd : shiftDown lb ub (shiftUp lb ub x) = shiftUp lb ub x := by
      unfold shiftDown; rw [if_neg]; rw [hs]; linarith
    rw [hsd, hs]
    constructor <;> linarith
  · have hs : shiftUp lb ub x = x := if_neg hx
    rw [hs]
    by_cases hx2 : x > xup lb ub
    · obtain ⟨ha, hb⟩ := key (x - xup lb ub) (by linarith)
      have hsd : shiftDown lb ub x = x - period lb ub * (1 + ⌊(x - xup lb ub) / period lb ub⌋) :=
        if_pos hx2
      rw [hsd]
      constructor <;> linarith
    · have hsd : shiftDown lb ub x = x := if_neg hx2
      rw [hsd]; constructor <;> linarith

theorem mirror_mem (h : lb < ub) {y : ℝ} (hl : xlow lb ub ≤ y) (hu : y ≤ xup lb ub) :
    lb - al lb ub ≤ mirrorUp lb ub (mirrorLow lb ub y) ∧
    mirrorUp lb ub (mirrorLow lb ub y) ≤ ub + au lb ub := by
  obtain ⟨h1, h2, h3, h4, h5, h6⟩ := widths h
  unfold xlow at hl
  unfold xup at hu
  by_cases hy : y < lb - al lb ub
  · have hm : mirrorLow lb ub y = y + 2 * (lb - al lb ub - y) := if_pos hy
    have hmu : mirrorUp lb ub (mirrorLow lb ub y) = mirrorLow lb ub y := by
      unfold mirrorUp; rw [if_neg]; rw [hm]; linarith
    rw [hmu, hm]; constructor <;> linarith
  · have hm : mirrorLow lb ub y = y := if_neg hy
    rw [hm]
    by_cases hy2 : y > ub + au lb ub
    · have : mirrorUp lb ub y = y - 2 * (y - ub - au lb ub) := if_pos hy2
      rw [this]; constructor <;> linarith
    · have : mirrorUp lb ub y = y := if_neg hy2
      rw [this]; constructor <;> linarith

theorem bend_mem (h : lb < ub) {y : ℝ} (hl : lb - al lb ub ≤ y) (hu : y ≤ ub + au lb ub) :
    lb ≤ bend lb ub y ∧ bend lb ub y ≤ ub := by
  obtain ⟨h1, h2, h3, h4, h5, h6⟩ := widths h
  have key : ∀ (a t : ℝ), 0 < a → 0 ≤ t → t ≤ 2 * a → 0 ≤ t * t / 4 / a ∧ t * t / 4 / a ≤ a := by
    intro a t ha ht htu
    refine ⟨by positivity, ?_⟩
    rw [div_div, div_le_iff₀ (by positivity)]
    nlinarith
  unfold bend
  by_cases hy : y < lb + al lb ub
  · rw [if_pos hy]
    obtain ⟨ha, hb⟩ := key (al lb ub) (y - (lb - al lb ub)) h2 (by linarith) (by linarith)
    constructor <;> linarith
  · rw [if_neg hy]
    by_cases hy2 : y > ub - au lb ub
    · rw [if_pos hy2]
      obtain ⟨ha, hb⟩ := key (au lb ub) (ub + au lb ub - y) h3 (by linarith) (by linarith)
      have : (y - (ub + au lb ub)) * (y - (ub + au lb ub)) =
          (ub + au lb ub - y) * (ub + au lb ub - y) := by ring
      rw [this]
      constructor <;> linarith
    · rw [if_neg hy2]
      constructor <;> linarith

end

/-- **C26** Every real coordinate is mapped into `[lowerBound, upperBound]`. -/
theorem C26_transform_in_box (lb ub : ℝ) (h : lb < ub) (x : ℝ) :
    lb ≤ transform lb ub x ∧ transform lb ub x ≤ ub := by
  obtain ⟨h1, h2⟩ := shift_mem h x
  obtain ⟨h3, h4⟩ := mirror_mem h h1 h2
  exact bend_mem h h3 h4

/-- **C26** The transformation leaves every coordinate alone that is at least `al` above the lower and `au`
below the upper bound, where `al`, `au` are at most half the width of the box and at most
`(1 + |bound|) / 20`. -/
theorem C26_transform_identity (lb ub : ℝ) (h : lb < ub) (x : ℝ) (hl : lb + al lb ub ≤ x)
    (hu : x ≤ ub - au lb ub) :
    transform lb ub x = x ∧ al lb ub ≤ (ub - lb) / 2 ∧ au lb ub ≤ (ub - lb) / 2 ∧
    al lb ub ≤ (1 + |lb|) / 20 ∧ au lb ub ≤ (1 + |ub|) / 20 := by
  obtain ⟨h1, h2, h3, h4, h5, h6⟩ := widths h
  refine ⟨?_, h4, h5, min_le_right _ _, min_le_right _ _⟩
  have e1 : shiftUp lb ub x = x := if_neg (by unfold xlow; linarith)
  have e2 : shiftDown lb ub x = x := if_neg (by unfold xup; linarith)
  have e3 : mirrorLow lb ub x = x := if_neg (by linarith)
  have e4 : mirrorUp lb ub x = x := if_neg (by linarith)
  have e5 : bend lb ub x = x := by
    unfold bend
    rw [if_neg (by linarith), if_neg (by linarith)]
  unfold transform
  rw [e1, e2, e3, e4, e5]

/-- Non-vacuity: the box [-10, 10] and the point 5. -/
example : (-10 : ℝ) + al (-10) 10 ≤ 5 ∧ (5 : ℝ) ≤ 10 - au (-10) 10 := by
  have h1 : al (-10 : ℝ) 10 ≤ (1 + |(-10 : ℝ)|) / 20 := min_le_right _ _
  have h2 : au (-10 : ℝ) 10 ≤ (1 + |(10 : ℝ)|) / 20 := min_le_right _ _
  norm_num at h1 h2
  constructor <;> linarith

/-- **C26** Continuity at the joints: the bent parts meet the identity part and the mirror points, so the whole
box including its boundary is reached: both bounds are images. -/
theorem C26_transform_reaches_bounds (lb ub : ℝ) (h : lb < ub) :
    transform lb ub (lb - al lb ub) = lb ∧ transform lb ub (ub + au lb ub) = ub := by
  obtain ⟨h1, h2, h3, h4, h5, h6⟩ := widths h
  constructor
  · have e1 : shiftUp lb ub (lb - al lb ub) = lb - al lb ub := if_neg (by unfold xlow; linarith)
    have e2 : shiftDown lb ub (lb - al lb ub) = lb - al lb ub := if_neg (by unfold xup; linarith)
    have e3 : mirrorLow lb ub (lb - al lb ub) = lb - al lb ub := if_neg (by linarith)
    have e4 : mirrorUp lb ub (lb - al lb ub) = lb - al lb ub := if_neg (by linarith)
    unfold transform
    rw [e1, e2, e3, e4]
    unfold bend
    rw [if_pos (by linarith)]
    simp
  · have e1 : shiftUp lb ub (ub + au lb ub) = ub + au lb ub := if_neg (by unfold xlow; linarith)
    have e2 : shiftDown lb ub (ub + au lb ub) = ub + au lb ub := if_neg (by unfold xup; linarith)
    have e3 : mirrorLow lb ub (ub + au lb ub) = ub + au lb ub := if_neg (by linarith)
    have e4 : mirrorUp lb ub (ub + au lb ub) = ub + au lb ub := if_neg (by linarith)
    unfold transform
    rw [e1, e2, e3, e4]
    unfold bend
    rw [if_neg (by linarith), if_pos (by linarith)]
    simp

/-- **C26** (refuted) The class comment's "identity transformation in between the lower and upper bounds": near
the bounds points are moved.  In the box [0, 2] the point 0 goes to 1/80. -/
theorem C26_identity_in_box_refuted :
    ¬ ∀ lb ub x : ℝ, lb < ub → lb ≤ x → x ≤ ub → transform lb ub x = x := by
  intro h
  have h0 := h 0 2 0 (by norm_num) (le_refl _) (by norm_num)
  have hal : al 0 2 = 1 / 20 := by unfold al diff; norm_num
  have hau : au 0 2 = 3 / 20 := by
    unfold au diff; rw [abs_of_pos (by norm_num)]; norm_num
  have hd : diff 0 2 = 1 := by unfold diff; norm_num
  have e1 : shiftUp 0 2 0 = 0 := if_neg (by unfold xlow; rw [hal, hd]; norm_num)
  have e2 : shiftDown 0 2 0 = 0 := if_neg (by unfold xup; rw [hau, hd]; norm_num)
  have e3 : mirrorLow 0 2 0 = 0 := if_neg (by rw [hal]; norm_num)
  have e4 : mirrorUp 0 2 0 = 0 := if_neg (by rw [hau]; norm_num)
  unfold transform at h0
  rw [e1, e2, e3, e4] at h0
  unfold bend at h0
  rw [hal] at h0
  rw [if_pos (by norm_num)] at h0
  norm_num at h0

end Ens.Cmaes
