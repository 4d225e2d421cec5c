import Mathlib.Algebra.Order.Field.Basic
import Mathlib.Algebra.Order.Field.Rat
import Mathlib.Algebra.Module.Basic
import Mathlib.Tactic.Linarith
import Mathlib.Tactic.Abel
import Mathlib.Tactic.NormNum
import Mathlib.Tactic.FieldSimp
import Mathlib.Tactic.Positivity
import Verif.Loop

/-
The secant line search of Frank-Wolfe (`fw/line_search/line_search_impl.hpp`): model and property C69.

Numbers are an ordered field; the divisions that can have a zero denominator are modelled as IEEE does: `num / den` with
`num = 0` is a zero with the sign of `den`, a division by it gives an infinity (clamped afterwards), `0 / 0` gives NaN
and is a separate outcome.
-/

namespace Ens.Fw

variable {K X : Type} [Field K] [LinearOrder K]

/-- Members of `LineSearch`. -/
structure LsParams (K : Type) where
  maxIterations : Nat
  tolerance : K

/-- Why the search ended. -/
inductive LsExit where
  | left | right | flat | nonconvex | within | limit
  deriving DecidableEq

/-- Result of a search: the position `gamma` on the segment from `x1` (0) to `x2` (1), or NaN. -/
inductive LsRes (K : Type) where
  | at (e : LsExit) (gamma : K)
  | nan
  deriving DecidableEq

/-- State of the loop: `secant = num / den`. -/
structure LsSt (K : Type) where
  k : Nat
  gamma : K
  d : K
  num : K
  den : K

/-- Lines 73-74. -/
def clamp01 (g : K) : K := min (max g 0) 1

/-- Lines 72-74: the new `gamma`; `none` is NaN. -/
def newGamma (s : LsSt K) : Option K :=
  if s.num = 0 then
    if s.d = 0 then none
    else if (0 < s.d ∧ 0 < s.den) ∨ (s.d < 0 ∧ s.den < 0) then some 0 else some 1
  else some (clamp01 (s.gamma - s.d / (s.num / s.den)))

/-- Body of the loop of lines 61-90 with its condition; `D` is `Derivative` along the segment. -/
def lsStep (p : LsParams K) (D : K → K) (s : LsSt K) : LsSt K ⊕ LsRes K :=
  if s.k < p.maxIterations then
    if s.num / s.den < 0 then .inr (.at .nonconvex 0)
    else
      match newGamma s with
      | none => .inr .nan
      | some g =>
        if g = s.gamma then .inr .nan
        else if |D g| < p.tolerance then .inr (.at .within g)
        else .inl ⟨s.k + 1, g, D g, D g - s.d, g - s.gamma⟩
  else .inr (.at .limit s.gamma)

/-- `LineSearch::Optimize` (lines 37-96). -/
def lineSearch (p : LsParams K) (D : K → K) : Option (LsRes K) :=
  if 0 ≤ D 0 then some (.at .left 0)
  else if D 1 ≤ 0 then some (.at .right 1)
  else if D 1 - D 0 < p.tolerance then some (.at .flat 0)
  else iterate (lsStep p D) (p.maxIterations + 1) ⟨0, 0, D 0, D 1 - D 0, 1⟩

/-- What `Optimize` does to `x2`: in the cases of lines 45-58 and 64-69 it is set to `x1` or left alone, otherwise
`(1 - gamma) x1 + gamma x2`; the value returned is `f(x2)` in every case. -/
def lsPoint [AddCommGroup X] [Module K X] (x1 x2 : X) : LsRes K → Option X
  | .at .left _ => some x1
  | .at .right _ => some x2
  | .at .flat _ => some x1
  | .at .nonconvex _ => some x1
  | .at .within g => some ((1 - g) • x1 + g • x2)
  | .at .limit g => some ((1 - g) • x1 + g • x2)
  | .nan => none

theorem clamp01_mem [IsStrictOrderedRing K] (g : K) : 0 ≤ clamp01 g ∧ clamp01 g ≤ 1 :=
  ⟨le_min (le_max_right _ _) zero_le_one, min_le_right _ _⟩

theorem clamp01_lt [IsStrictOrderedRing K] {g x : K} (hx : x ≤ 1) (h : clamp01 g < x) : g < x := by
  unfold clamp01 at h
  rcases min_lt_iff.1 h with h | h
  · exact lt_of_le_of_lt (le_max_left _ _) h
  · exact absurd h (not_lt.2 hx)

theorem clamp01_ne [IsStrictOrderedRing K] {g x : K} (hx0 : 0 ≤ x) (hx1 : x ≤ 1) (hlt : g < x → 0 < x)
    (hgt : x < g → x < 1) (hne : g ≠ x) : clamp01 g ≠ x := by
  intro h
  rcases lt_trichotomy g x with h' | h' | h'
  · have h1 := hlt h'
    have : clamp01 g < x := by
      unfold clamp01
      rw [min_lt_iff]
      exact Or.inl (max_lt h' h1)
    exact absurd h this.ne
  · exact hne h'
  · have h1 := hgt h'
    have : x < clamp01 g := by
      unfold clamp01
      rw [lt_min_iff]
      exact ⟨lt_of_lt_of_le h' (le_max_left _ _), h1⟩
    exact absurd h this.ne'

/-- Loop invariant. -/
structure LsInv (D : K → K) (s : LsSt K) : Prop where
  g0 : 0 ≤ s.gamma
  g1 : s.gamma ≤ 1
  d : s.d = D s.gamma
  dne : s.d ≠ 0
  den : s.den ≠ 0
  moved : s.den < 0 → s.gamma < 1
  flat : s.den < 0 → s.num = 0 → 0 < s.d

section
variable [IsStrictOrderedRing K]

/-- The next `gamma` exists, lies in the segment and differs from the current one. -/
theorem newGamma_spec {D : K → K} {s : LsSt K} (h0 : D 0 < 0) (h1 : 0 < D 1) (hi : LsInv D s)
    (hs : ¬ s.num / s.den < 0) : ∃ g, newGamma s = some g ∧ 0 ≤ g ∧ g ≤ 1 ∧ g ≠ s.gamma ∧ (g < s.gamma → 0 < s.d) := by
  have hz : s.gamma = 0 → s.d < 0 := fun h => by rw [hi.d, h]; exact h0
  have ho : s.gamma = 1 → 0 < s.d := fun h => by rw [hi.d, h]; exact h1
  unfold newGamma
  by_cases hn : s.num = 0
  · rw [if_pos hn, if_neg hi.dne]
    by_cases hc : (0 < s.d ∧ 0 < s.den) ∨ (s.d < 0 ∧ s.den < 0)
    · rw [if_pos hc]
      have hd : 0 < s.d := by
        rcases hc with hc | hc
        · exact hc.1
        · exact hi.flat hc.2 hn
      refine ⟨0, rfl, le_refl _, zero_le_one, fun h => ?_, fun _ => hd⟩
      exact absurd (hz h.symm) (not_lt.2 hd.le)
    · rw [if_neg hc]
      refine ⟨1, rfl, zero_le_one, le_refl _, fun h => ?_, fun h => absurd h (not_lt.2 hi.g1)⟩
      have hd := ho h.symm
      rcases lt_or_gt_of_ne hi.den with hden | hden
      · exact absurd h (hi.moved hden).ne'
      · exact hc (Or.inl ⟨hd, hden⟩)
  · rw [if_neg hn]
    have hpos : 0 < s.num / s.den := lt_of_le_of_ne (not_lt.1 hs) (Ne.symm (div_ne_zero hn hi.den))
    obtain ⟨c0, c1⟩ := clamp01_mem (s.gamma - s.d / (s.num / s.den))
    have hsign : s.gamma - s.d / (s.num / s.den) < s.gamma → 0 < s.d := by
      intro h
      have : 0 < s.d / (s.num / s.den) := by linarith
      rcases lt_or_gt_of_ne hi.dne with hd | hd
      · exact absurd (div_neg_of_neg_of_pos hd hpos) (not_lt.2 this.le)
      · exact hd
    have hsign' : s.gamma < s.gamma - s.d / (s.num / s.den) → s.d < 0 := by
      intro h
      have : s.d / (s.num / s.den) < 0 := by linarith
      rcases lt_or_gt_of_ne hi.dne with hd | hd
      · exact hd
      · exact absurd (div_pos hd hpos) (not_lt.2 this.le)
    refine ⟨_, rfl, c0, c1, clamp01_ne hi.g0 hi.g1 ?_ ?_ ?_, fun h => hsign (clamp01_lt hi.g1 h)⟩
    · intro h
      refine lt_of_le_of_ne hi.g0 (fun h' => ?_)
      exact absurd (hz h'.symm) (not_lt.2 (hsign h).le)
    · intro h
      refine lt_of_le_of_ne hi.g1 (fun h' => ?_)
      exact absurd (ho h') (not_lt.2 (hsign' h).le)
    · intro h
      have : s.d / (s.num / s.den) = 0 := by linarith
      exact div_ne_zero hi.dne hpos.ne' this

theorem lsStep_inv {p : LsParams K} (ht : 0 < p.tolerance) {D : K → K} (h0 : D 0 < 0) (h1 : 0 < D 1) {s : LsSt K}
    (hi : LsInv D s) :
    (∀ s', lsStep p D s = .inl s' → LsInv D s' ∧ s'.k = s.k + 1 ∧ s.k < p.maxIterations) ∧
    (∀ r, lsStep p D s = .inr r → ∃ e g, r = .at e g ∧ 0 ≤ g ∧ g ≤ 1 ∧ (e = .within → |D g| < p.tolerance) ∧
      (e = .nonconvex → g = 0) ∧ (e = .left ∨ e = .flat → g = 0) ∧ (e = .right → g = 1)) := by
  unfold lsStep
  split
  · rename_i hk
    split
    · exact ⟨(fun s' h => by cases h), fun r hr => by
        cases hr
        exact ⟨_, _, rfl, le_refl _, zero_le_one, (fun h => by cases h), fun _ => rfl, (fun _ => rfl), fun h => by cases h⟩⟩
    · rename_i hs
      obtain ⟨g, e, g0, g1, gne, gs⟩ := newGamma_spec h0 h1 hi hs
      rw [e]
      simp only
      rw [if_neg gne]
      split
      · rename_i hw
        exact ⟨(fun s' h => by cases h), fun r hr => by
          cases hr
          exact ⟨_, _, rfl, g0, g1, fun _ => hw, (fun h => by cases h), (fun h => by rcases h with h | h <;> cases h),
            fun h => by cases h⟩⟩
      · rename_i hw
        refine ⟨fun s' h => ?_, fun r hr => by cases hr⟩
        cases h
        refine ⟨⟨g0, g1, rfl, ?_, sub_ne_zero.2 gne, ?_, ?_⟩, rfl, hk⟩
        · intro h
          dsimp only at h
          rw [h, abs_zero] at hw
          exact hw ht
        · intro h
          dsimp only at h ⊢
          have := hi.g1
          linarith
        · intro h hn
          dsimp only at h hn ⊢
          have hd : D g = s.d := by linarith
          rw [hd]
          exact gs (by linarith)
  · exact ⟨(fun s' h => by cases h), fun r hr => by
      cases hr
      exact ⟨_, _, rfl, hi.g0, hi.g1, (fun h => by cases h), (fun h => by cases h),
        (fun h => by rcases h with h | h <;> cases h), fun h => by cases h⟩⟩

/-- **C69** For a positive tolerance the secant search always ends, never divides zero by zero, and its result is a point of
the segment; if it reports convergence the derivative there is below the tolerance. No convexity is needed. -/
theorem lineSearch_spec {p : LsParams K} (ht : 0 < p.tolerance) (D : K → K) :
    ∃ e g, lineSearch p D = some (.at e g) ∧ 0 ≤ g ∧ g ≤ 1 ∧ (e = .within → |D g| < p.tolerance) ∧
      (e = .nonconvex → g = 0) ∧ (e = .left ∨ e = .flat → g = 0) ∧ (e = .right → g = 1) := by
  unfold lineSearch
  split
  · exact ⟨_, _, rfl, le_refl _, zero_le_one, (fun h => by cases h), fun _ => rfl, fun _ => rfl, fun h => by cases h⟩
  rename_i h0
  split
  · exact ⟨_, _, rfl, zero_le_one, le_refl _, (fun h => by cases h), (fun h => by cases h),
      (fun h => by rcases h with h | h <;> cases h), fun _ => rfl⟩
  rename_i h1
  split
  · exact ⟨_, _, rfl, le_refl _, zero_le_one, (fun h => by cases h), fun _ => rfl, fun _ => rfl, fun h => by cases h⟩
  rw [not_le] at h0 h1
  have hi : LsInv D ⟨0, 0, D 0, D 1 - D 0, 1⟩ :=
    ⟨le_refl _, zero_le_one, rfl, h0.ne, one_ne_zero, fun _ => zero_lt_one, fun h => absurd h (not_lt.2 zero_le_one)⟩
  obtain ⟨r, hr⟩ := iterate_total (step := lsStep p D) (LsInv D) (fun s => p.maxIterations - s.k)
    (fun s s' h h' => by
      obtain ⟨a, b, c⟩ := (lsStep_inv ht h0 h1 h).1 s' h'
      exact ⟨a, by omega⟩) (p.maxIterations + 1) ⟨0, 0, D 0, D 1 - D 0, 1⟩ hi (by dsimp only; omega)
  obtain ⟨e, g, rfl, h⟩ := iterate_inv (step := lsStep p D) (LsInv D)
    (fun r => ∃ e g, r = .at e g ∧ 0 ≤ g ∧ g ≤ 1 ∧ (e = .within → |D g| < p.tolerance) ∧
      (e = .nonconvex → g = 0) ∧ (e = .left ∨ e = .flat → g = 0) ∧ (e = .right → g = 1))
    (fun s s' h h' => ((lsStep_inv ht h0 h1 h).1 s' h').1) (fun s r h h' => (lsStep_inv ht h0 h1 h).2 r h')
    (p.maxIterations + 1) _ r hi hr
  exact ⟨e, g, hr, h⟩

/-- **C69** In terms of the points: for a positive tolerance the search ends with a point `x1 + t (x2 - x1)`, `0 ≤ t ≤ 1`. -/
theorem C69_line_search [AddCommGroup X] [Module K X] {p : LsParams K} (ht : 0 < p.tolerance) (D : K → K) (x1 x2 : X) :
    ∃ r t, lineSearch p D = some r ∧ 0 ≤ t ∧ t ≤ 1 ∧ lsPoint x1 x2 r = some (x1 + t • (x2 - x1)) ∧
      (∀ g, r = .at .within g → t = g ∧ |D t| < p.tolerance) := by
  obtain ⟨e, g, h, g0, g1, hw, hn, hl, hr⟩ := lineSearch_spec ht D
  refine ⟨_, g, h, g0, g1, ?_, ?_⟩
  · have hmid : (1 - g) • x1 + g • x2 = x1 + g • (x2 - x1) := by rw [sub_smul, one_smul, smul_sub]; abel
    cases e with
    | left => rw [hl (Or.inl rfl)]; simp [lsPoint]
    | right => rw [hr rfl]; simp [lsPoint]
    | flat => rw [hl (Or.inr rfl)]; simp [lsPoint]
    | nonconvex => rw [hn rfl]; simp [lsPoint]
    | within => simp [lsPoint, hmid]
    | limit => simp [lsPoint, hmid]
  · intro g' h'
    cases h'
    exact ⟨rfl, hw rfl⟩

/-- **C117** (partial) For a convex function along the segment (`φ` with derivative `D`, tangent inequality) the point
found is no worse than `x1` by more than the tolerance, unless the iteration limit was reached. -/
theorem C117_descent_partial {p : LsParams K} (ht : 0 < p.tolerance) {D φ : K → K}
    (hc : ∀ s t, 0 ≤ s → s ≤ 1 → 0 ≤ t → t ≤ 1 → φ s + D s * (t - s) ≤ φ t) {e : LsExit} {g : K}
    (hr : lineSearch p D = some (.at e g)) (hl : e ≠ .limit) : φ g ≤ φ 0 + p.tolerance := by
  obtain ⟨e', g', h, g0, g1, hw, hn, hl', hr'⟩ := lineSearch_spec ht D
  rw [h] at hr
  simp only [Option.some.injEq, LsRes.at.injEq] at hr
  obtain ⟨rfl, rfl⟩ := hr
  cases e' with
  | left => rw [hl' (Or.inl rfl)]; linarith
  | flat => rw [hl' (Or.inr rfl)]; linarith
  | nonconvex => rw [hn rfl]; linarith
  | limit => exact absurd rfl hl
  | right =>
    rw [hr' rfl] at h ⊢
    have h1 : D 1 ≤ 0 := by
      unfold lineSearch at h
      split at h
      · simp at h
      split at h
      · assumption
      split at h
      · simp at h
      rename_i a b c
      rw [not_le] at a b
      have hi : LsInv D ⟨0, 0, D 0, D 1 - D 0, 1⟩ :=
        ⟨le_refl _, zero_le_one, rfl, a.ne, one_ne_zero, fun _ => zero_lt_one, fun h => absurd h (not_lt.2 zero_le_one)⟩
      have := iterate_inv (step := lsStep p D) (LsInv D) (fun r => r ≠ .at .right 1)
        (fun s s' h h' => ((lsStep_inv ht a b h).1 s' h').1) (by
          intro s r hs hr
          unfold lsStep at hr
          split at hr
          · split at hr
            · cases hr; simp
            · split at hr
              · cases hr; simp
              · split at hr
                · cases hr; simp
                · split at hr
                  · cases hr; simp
                  · cases hr
          · cases hr; simp) _ _ _ hi h
      exact absurd rfl this
    have := hc 1 0 zero_le_one (le_refl _) (le_refl _) zero_le_one
    linarith
  | within =>
    have h1 := hc g' 0 g0 g1 (le_refl _) zero_le_one
    have h2 := hw rfl
    have h3 := abs_lt.1 h2
    have : D g' * g' ≤ p.tolerance := by
      rcases le_total 0 (D g') with h | h
      · calc D g' * g' ≤ D g' * 1 := mul_le_mul_of_nonneg_left g1 h
          _ ≤ p.tolerance := by linarith
      · have := mul_nonpos_of_nonpos_of_nonneg h g0
        linarith
    linarith

end

/-- Derivative of a convex function with a kink at 9/10. -/
def kink (t : ℚ) : ℚ := if t < 9 / 10 then -1 else 100

/-- The function itself: `-t` up to 9/10, then steeply rising. -/
def kinkVal (t : ℚ) : ℚ := if t < 9 / 10 then -t else -9 / 10 + 100 * (t - 9 / 10)

/-- **C117** (refuted) "For a convex function the line search never returns a point worse than `x1` by more than the
tolerance": when the iteration limit is reached the last trial point is returned whatever its value. -/
theorem C117_descent_refuted :
    ¬ ∀ (m : Nat) (D φ : ℚ → ℚ), (∀ s t, 0 ≤ s → s ≤ 1 → 0 ≤ t → t ≤ 1 → φ s + D s * (t - s) ≤ φ t) →
      ∀ e g, lineSearch ⟨m, 1 / 1000⟩ D = some (.at e g) → φ g ≤ φ 0 + 1 / 1000 := by
  intro h
  have hc : ∀ s t : ℚ, 0 ≤ s → s ≤ 1 → 0 ≤ t → t ≤ 1 → kinkVal s + kink s * (t - s) ≤ kinkVal t := by
    intro s t _ _ _ _
    unfold kinkVal kink
    split <;> split <;> linarith
  have hv : lineSearch (K := ℚ) ⟨2, 1 / 1000⟩ kink = some (.at .limit 1) := by decide +kernel
  have := h 2 kink kinkVal hc _ _ hv
  unfold kinkVal at this
  norm_num at this

/-- A search on `φ t = (t - 1/3)^2` that converges. -/
example : lineSearch (K := ℚ) ⟨100, 1 / 1000⟩ (fun t => 2 * (t - 1 / 3)) = some (.at .within (1 / 3)) := by
  decide +kernel

end Ens.Fw
