import Mathlib.Tactic.Linarith
import Mathlib.Tactic.Positivity
import Mathlib.Tactic.NormNum
import Mathlib.Tactic.FinCases
import Mathlib.Algebra.Order.BigOperators.Group.List
import Mathlib.Algebra.Order.BigOperators.Group.Finset
import Mathlib.Algebra.Order.BigOperators.Ring.Finset
import Verif.Indicators.Model

/-
C64 (IGD, IGD+) and C153 (epsilon).
-/

namespace Ens.Indicators

open Classical

variable {m : Nat}

/-- `a` is at least as good as `z` in every objective (minimisation). -/
def Covers (a z : Fin m → ℝ) : Prop := ∀ k, a k ≤ z k

/-! ### Helpers -/

theorem nearest_le_big (d : (Fin m → ℝ) → ℝ) (big : ℝ) (front : List (Fin m → ℝ)) : nearest d big front ≤ big := by
  unfold nearest
  induction front generalizing big with
  | nil => exact le_rfl
  | cons a l ih =>
    rw [List.foldl_cons]
    split
    · exact (ih _).trans (le_of_lt (by assumption))
    · exact ih _

theorem nearest_le (d : (Fin m → ℝ) → ℝ) (big : ℝ) (front : List (Fin m → ℝ)) {a : Fin m → ℝ} (h : a ∈ front) :
    nearest d big front ≤ d a := by
  induction front generalizing big with
  | nil => cases h
  | cons b l ih =>
    have e : nearest d big (b :: l) = nearest d (if d b < big then d b else big) l := rfl
    rcases List.mem_cons.1 h with rfl | h
    · rw [e]
      refine (nearest_le_big _ _ _).trans ?_
      split
      · exact le_rfl
      · linarith
    · rw [e]; exact ih _ h

theorem nearest_mem (d : (Fin m → ℝ) → ℝ) (big : ℝ) (front : List (Fin m → ℝ)) :
    nearest d big front = big ∨ ∃ a ∈ front, nearest d big front = d a := by
  induction front generalizing big with
  | nil => exact .inl rfl
  | cons b l ih =>
    have e : nearest d big (b :: l) = nearest d (if d b < big then d b else big) l := rfl
    rw [e]
    rcases ih (if d b < big then d b else big) with h | ⟨a, ha, h⟩
    · by_cases hb : d b < big
      · rw [if_pos hb] at h ⊢; exact .inr ⟨b, List.mem_cons_self, h⟩
      · rw [if_neg hb] at h ⊢; exact .inl h
    · exact .inr ⟨a, List.mem_cons_of_mem _ ha, h⟩

/-- The loop finds the greatest lower bound of `big` and all distances. -/
theorem le_nearest_iff (d : (Fin m → ℝ) → ℝ) (big c : ℝ) (front : List (Fin m → ℝ)) :
    c ≤ nearest d big front ↔ c ≤ big ∧ ∀ a ∈ front, c ≤ d a := by
  constructor
  · intro h
    exact ⟨h.trans (nearest_le_big _ _ _), fun a ha => h.trans (nearest_le _ _ _ ha)⟩
  · rintro ⟨h1, h2⟩
    rcases nearest_mem d big front with h | ⟨a, ha, h⟩
    · rw [h]; exact h1
    · rw [h]; exact h2 a ha

theorem foldl_add_eq (f : (Fin m → ℝ) → ℝ) (l : List (Fin m → ℝ)) (c : ℝ) :
    l.foldl (fun s z => s + f z) c = c + (l.map f).sum := by
  induction l generalizing c with
  | nil => simp
  | cons a l ih => rw [List.foldl_cons, ih, List.map_cons, List.sum_cons]; ring

theorem dist_nonneg (z a : Fin m → ℝ) : 0 ≤ dist z a := Real.sqrt_nonneg _

theorem distPlus_nonneg (z a : Fin m → ℝ) : 0 ≤ distPlus z a := Real.sqrt_nonneg _

theorem distPlus_le_dist (z a : Fin m → ℝ) : distPlus z a ≤ dist z a := by
  apply Real.sqrt_le_sqrt
  apply Finset.sum_le_sum
  intro k _
  rcases le_total (a k - z k) 0 with h | h
  · rw [max_eq_right h]; simpa using sq_nonneg (a k - z k)
  · rw [max_eq_left h]

theorem dist_eq_zero (z a : Fin m → ℝ) : dist z a = 0 ↔ a = z := by
  rw [dist, Real.sqrt_eq_zero (Finset.sum_nonneg fun _ _ => by positivity),
    Finset.sum_eq_zero_iff_of_nonneg (fun _ _ => by positivity)]
  constructor
  · intro h
    funext k
    have := h k (Finset.mem_univ k)
    have : a k - z k = 0 := by simpa using this
    linarith
  · rintro rfl k _; simp

theorem distPlus_eq_zero (z a : Fin m → ℝ) : distPlus z a = 0 ↔ Covers a z := by
  rw [distPlus, Real.sqrt_eq_zero (Finset.sum_nonneg fun _ _ => by positivity),
    Finset.sum_eq_zero_iff_of_nonneg (fun _ _ => by positivity)]
  constructor
  · intro h k
    have := h k (Finset.mem_univ k)
    have : max (a k - z k) 0 = 0 := by simpa using this
    have := max_eq_right_iff.1 this
    linarith
  · intro h k _
    rw [max_eq_right (by linarith [h k])]; simp

theorem distPlus_mono {z a b : Fin m → ℝ} (h : Covers a b) : distPlus z a ≤ distPlus z b := by
  apply Real.sqrt_le_sqrt
  apply Finset.sum_le_sum
  intro k _
  have : max (a k - z k) 0 ≤ max (b k - z k) 0 := max_le_max (by linarith [h k]) le_rfl
  exact pow_le_pow_left₀ (le_max_right _ _) this 2

theorem nearest_nonneg {d : (Fin m → ℝ) → ℝ} (hd : ∀ a, 0 ≤ d a) {big : ℝ} (hb : 0 ≤ big) (front : List (Fin m → ℝ)) :
    0 ≤ nearest d big front := (le_nearest_iff d big 0 front).2 ⟨hb, fun a _ => hd a⟩

theorem sum_map_le {f g : (Fin m → ℝ) → ℝ} {l : List (Fin m → ℝ)} (h : ∀ z ∈ l, f z ≤ g z) :
    (l.map f).sum ≤ (l.map g).sum := List.sum_le_sum h

theorem sum_map_eq_zero {f : (Fin m → ℝ) → ℝ} {l : List (Fin m → ℝ)} (h : ∀ z ∈ l, 0 ≤ f z) :
    (l.map f).sum = 0 ↔ ∀ z ∈ l, f z = 0 := by
  induction l with
  | nil => simp
  | cons a l ih =>
    have h1 := h a List.mem_cons_self
    have h2 : ∀ z ∈ l, 0 ≤ f z := fun z hz => h z (List.mem_cons_of_mem _ hz)
    have h3 : 0 ≤ (l.map f).sum := List.sum_nonneg (by simpa using h2)
    rw [List.map_cons, List.sum_cons, add_eq_zero_iff_of_nonneg h1 h3, ih h2]
    simp

theorem igdPlus_eq (big : ℝ) (front : List (Fin m → ℝ)) {ref : List (Fin m → ℝ)} (hr : ref ≠ []) :
    igdPlus big front ref = some ((ref.map fun z => nearest (distPlus z) big front).sum / ref.length) := by
  rw [igdPlus, if_neg (by simpa using hr), foldl_add_eq, zero_add]

theorem igd_eq (big p : ℝ) (front : List (Fin m → ℝ)) {ref : List (Fin m → ℝ)} (hr : ref ≠ []) :
    igd big p front ref =
      some (((ref.map fun z => nearest (dist z) big front ^ p).sum / ref.length) ^ (1 / p)) := by
  rw [igd, if_neg (by simpa using hr), foldl_add_eq, zero_add]

theorem length_pos {ref : List (Fin m → ℝ)} (hr : ref ≠ []) : (0 : ℝ) < ref.length := by
  exact_mod_cast List.length_pos_iff.2 hr

/-! ### C64: IGD and IGD+ -/

/-- **C64** Both indicators are defined exactly for non-empty reference fronts, and never negative. -/
theorem C64_nonneg {big p : ℝ} (hb : 0 ≤ big) (front ref : List (Fin m → ℝ)) :
    (∀ v, igd big p front ref = some v → 0 ≤ v) ∧ (∀ v, igdPlus big front ref = some v → 0 ≤ v) ∧
    (igd big p front ref = none ↔ ref = []) ∧ (igdPlus big front ref = none ↔ ref = []) := by
  refine ⟨?_, ?_, ?_, ?_⟩
  · intro v hv
    by_cases hr : ref = []
    · subst hr; simp [igd] at hv
    · rw [igd_eq big p front hr] at hv
      cases hv
      apply Real.rpow_nonneg
      apply div_nonneg _ (length_pos hr).le
      exact List.sum_nonneg (by
        simp only [List.mem_map]
        rintro _ ⟨z, _, rfl⟩
        exact Real.rpow_nonneg (nearest_nonneg (dist_nonneg z) hb front) p)
  · intro v hv
    by_cases hr : ref = []
    · subst hr; simp [igdPlus] at hv
    · rw [igdPlus_eq big front hr] at hv
      cases hv
      apply div_nonneg _ (length_pos hr).le
      exact List.sum_nonneg (by
        simp only [List.mem_map]
        rintro _ ⟨z, _, rfl⟩
        exact nearest_nonneg (distPlus_nonneg z) hb front)
  · by_cases hr : ref = []
    · simp [hr, igd]
    · simp [hr, igd_eq big p front hr]
  · by_cases hr : ref = []
    · simp [hr, igdPlus]
    · simp [hr, igdPlus_eq big front hr]

/-- **C64** IGD is zero exactly when every reference point is in the front. -/
theorem C64_igd_zero {big p : ℝ} (hb : 0 < big) (hp : 0 < p) (front : List (Fin m → ℝ)) {ref : List (Fin m → ℝ)}
    (hr : ref ≠ []) : igd big p front ref = some 0 ↔ ∀ z ∈ ref, z ∈ front := by
  have hn : ∀ z, 0 ≤ nearest (dist z) big front := fun z => nearest_nonneg (dist_nonneg z) hb.le front
  have hs : 0 ≤ (ref.map fun z => nearest (dist z) big front ^ p).sum / ref.length := by
    apply div_nonneg _ (length_pos hr).le
    exact List.sum_nonneg (by
      simp only [List.mem_map]; rintro _ ⟨z, _, rfl⟩; exact Real.rpow_nonneg (hn z) p)
  rw [igd_eq big p front hr, Option.some.injEq, Real.rpow_eq_zero hs (by positivity),
    div_eq_zero_iff, or_iff_left (length_pos hr).ne',
    sum_map_eq_zero fun z _ => Real.rpow_nonneg (hn z) p]
  refine forall₂_congr fun z _ => ?_
  rw [Real.rpow_eq_zero (hn z) hp.ne']
  constructor
  · intro h
    rcases nearest_mem (dist z) big front with h' | ⟨a, ha, h'⟩
    · rw [h] at h'; exact absurd h'.symm hb.ne'
    · rw [h] at h'
      rw [← (dist_eq_zero z a).1 h'.symm]; exact ha
  · intro hz
    refine le_antisymm ?_ (hn z)
    exact (nearest_le (dist z) big front hz).trans (le_of_eq ((dist_eq_zero z z).2 rfl))

/-- **C64** IGD+ is zero exactly when every reference point is weakly dominated by a point of the front. -/
theorem C64_igdPlus_zero {big : ℝ} (hb : 0 < big) (front : List (Fin m → ℝ)) {ref : List (Fin m → ℝ)}
    (hr : ref ≠ []) : igdPlus big front ref = some 0 ↔ ∀ z ∈ ref, ∃ a ∈ front, Covers a z := by
  have hn : ∀ z, 0 ≤ nearest (distPlus z) big front := fun z => nearest_nonneg (distPlus_nonneg z) hb.le front
  rw [igdPlus_eq big front hr, Option.some.injEq, div_eq_zero_iff, or_iff_left (length_pos hr).ne',
    sum_map_eq_zero fun z _ => hn z]
  refine forall₂_congr fun z _ => ?_
  constructor
  · intro h
    rcases nearest_mem (distPlus z) big front with h' | ⟨a, ha, h'⟩
    · rw [h] at h'; exact absurd h'.symm hb.ne'
    · rw [h] at h'
      exact ⟨a, ha, (distPlus_eq_zero z a).1 h'.symm⟩
  · rintro ⟨a, ha, hc⟩
    refine le_antisymm ?_ (hn z)
    exact (nearest_le (distPlus z) big front ha).trans (le_of_eq ((distPlus_eq_zero z a).2 hc))

/-- **C64** IGD+ respects dominance: if every point of `B` is weakly dominated by some point of `A`, then `A` is rated at
least as good as `B`.  In particular adding points never makes the rating worse, and neither the order of the points nor
duplicates matter. -/
theorem C64_igdPlus_compliant {big : ℝ} (A B : List (Fin m → ℝ)) (hAB : ∀ b ∈ B, ∃ a ∈ A, Covers a b)
    {ref : List (Fin m → ℝ)} {va vb : ℝ} (ha : igdPlus big A ref = some va) (hb : igdPlus big B ref = some vb) :
    va ≤ vb := by
  by_cases hr : ref = []
  · subst hr; simp [igdPlus] at ha
  rw [igdPlus_eq big A hr] at ha
  rw [igdPlus_eq big B hr] at hb
  cases ha; cases hb
  apply div_le_div_of_nonneg_right _ (length_pos hr).le
  apply sum_map_le
  intro z _
  rw [le_nearest_iff]
  refine ⟨nearest_le_big _ _ _, fun b hb => ?_⟩
  obtain ⟨a, ha, hc⟩ := hAB b hb
  exact (nearest_le _ _ _ ha).trans (distPlus_mono hc)

/-- **C64** Adding points to the front never increases IGD, and neither their order nor duplicates matter. -/
theorem C64_igd_more_points {big p : ℝ} (hbig : 0 ≤ big) (hp : 0 < p) (A B : List (Fin m → ℝ)) (hAB : ∀ b ∈ B, b ∈ A)
    {ref : List (Fin m → ℝ)} {va vb : ℝ} (ha : igd big p A ref = some va) (hb : igd big p B ref = some vb) :
    va ≤ vb := by
  by_cases hr : ref = []
  · subst hr; simp [igd] at ha
  rw [igd_eq big p A hr] at ha
  rw [igd_eq big p B hr] at hb
  cases ha; cases hb
  have hn : ∀ z, 0 ≤ nearest (dist z) big A := fun z => nearest_nonneg (dist_nonneg z) hbig A
  apply Real.rpow_le_rpow _ _ (by positivity)
  · apply div_nonneg _ (length_pos hr).le
    exact List.sum_nonneg (by
      simp only [List.mem_map]; rintro _ ⟨z, _, rfl⟩; exact Real.rpow_nonneg (hn z) p)
  · apply div_le_div_of_nonneg_right _ (length_pos hr).le
    apply sum_map_le
    intro z _
    apply Real.rpow_le_rpow (hn z) _ hp.le
    rw [le_nearest_iff]
    exact ⟨nearest_le_big _ _ _, fun b hb => nearest_le _ _ _ (hAB b hb)⟩

/-- **C64** IGD+ is never larger than IGD with exponent 1. -/
theorem C64_igdPlus_le_igd {big : ℝ} (front : List (Fin m → ℝ)) {ref : List (Fin m → ℝ)} {v w : ℝ}
    (hv : igdPlus big front ref = some v) (hw : igd big 1 front ref = some w) : v ≤ w := by
  by_cases hr : ref = []
  · subst hr; simp [igdPlus] at hv
  rw [igdPlus_eq big front hr] at hv
  rw [igd_eq big 1 front hr] at hw
  cases hv; cases hw
  simp only [Real.rpow_one, div_one]
  apply div_le_div_of_nonneg_right _ (length_pos hr).le
  apply sum_map_le
  intro z _
  rw [le_nearest_iff]
  exact ⟨nearest_le_big _ _ _, fun a ha => (nearest_le _ _ _ ha).trans (distPlus_le_dist z a)⟩

/-- **C64** What the values mean when all distances are below the numeric maximum: the average over the reference points of
the distance to the nearest point of the front. -/
theorem C64_nearest_is_min {d : (Fin m → ℝ) → ℝ} {big : ℝ} {front : List (Fin m → ℝ)} (hf : front ≠ [])
    (hbig : ∀ a ∈ front, d a ≤ big) :
    (∃ a ∈ front, nearest d big front = d a) ∧ ∀ a ∈ front, nearest d big front ≤ d a := by
  refine ⟨?_, fun a ha => nearest_le _ _ _ ha⟩
  rcases nearest_mem d big front with h | h
  · obtain ⟨a, ha⟩ := List.exists_mem_of_ne_nil front hf
    exact ⟨a, ha, le_antisymm (nearest_le _ _ _ ha) (by rw [h]; exact hbig a ha)⟩
  · exact h

/-- Non-vacuity: a front of two points and a reference of two points; IGD+ is 0 although IGD is not. -/
example : igdPlus 1000 [![0, 1], ![1, 0]] [![1, 1], ![(2 : ℝ), 0]] = some 0 ∧
    igd 1000 1 [![0, 1], ![1, 0]] [![1, 1], ![(2 : ℝ), 0]] ≠ some 0 := by
  constructor
  · rw [C64_igdPlus_zero (by norm_num) _ (by simp)]
    intro z hz
    simp only [List.mem_cons, List.not_mem_nil, or_false] at hz
    rcases hz with rfl | rfl
    · refine ⟨![0, 1], by simp, ?_⟩
      intro k; fin_cases k <;> simp
    · refine ⟨![1, 0], by simp, ?_⟩
      intro k; fin_cases k <;> simp
  · rw [Ne, C64_igd_zero (by norm_num) (by norm_num) _ (by simp)]
    intro h
    have := h ![1, 1] (by simp)
    simp only [List.mem_cons, List.not_mem_nil, or_false] at this
    rcases this with h | h
    · have := congrFun h 0; simp at this
    · have := congrFun h 1; simp at this

/-! ### C153: epsilon -/

theorem foldl_min_le {X : Type} (f : X → WithBot ℝ) (c : WithBot ℝ) (b : WithBot ℝ) (l : List X) :
    l.foldl (fun mn a => if f a < mn then f a else mn) b ≤ c ↔ b ≤ c ∨ ∃ a ∈ l, f a ≤ c := by
  induction l generalizing b with
  | nil => simp
  | cons a l ih =>
    rw [List.foldl_cons, ih]
    have : (if f a < b then f a else b) ≤ c ↔ b ≤ c ∨ f a ≤ c := by
      split
      · rename_i h
        exact ⟨.inr, fun h' => h'.elim (fun h'' => h.le.trans h'') id⟩
      · rename_i h
        exact ⟨.inl, fun h' => h'.elim id (fun h'' => (not_lt.1 h).trans h'')⟩
    rw [this]
    simp only [List.mem_cons, exists_eq_or_imp, or_assoc]

theorem epsMin_le (big c : ℝ) (hc : c < big) (front : List (Fin m → ℝ)) (z : Fin m → ℝ) :
    epsMin big front z ≤ (c : WithBot ℝ) ↔ ∃ a ∈ front, worstRatio a z ≤ (c : WithBot ℝ) := by
  rw [epsMin, foldl_min_le]
  constructor
  · rintro (h | h)
    · exact absurd (WithBot.coe_le_coe.1 h) (not_le.2 hc)
    · exact h
  · exact .inr

theorem epsilon_fold (big : ℝ) (front ref : List (Fin m → ℝ)) (e₀ c : ℝ) :
    ref.foldl (fun e z => if ((e : ℝ) : WithBot ℝ) < epsMin big front z then (epsMin big front z).unbotD 0 else e) e₀
      ≤ c ↔ e₀ ≤ c ∧ ∀ z ∈ ref, epsMin big front z ≤ (c : WithBot ℝ) := by
  induction ref generalizing e₀ with
  | nil => simp
  | cons z l ih =>
    rw [List.foldl_cons, ih]
    have key : (if ((e₀ : ℝ) : WithBot ℝ) < epsMin big front z then (epsMin big front z).unbotD 0 else e₀) ≤ c ↔
        e₀ ≤ c ∧ epsMin big front z ≤ (c : WithBot ℝ) := by
      generalize epsMin big front z = v
      induction v using WithBot.recBotCoe with
      | bot => simp
      | coe v =>
        simp only [WithBot.coe_lt_coe, WithBot.unbotD_coe, WithBot.coe_le_coe]
        split
        · rename_i h; exact ⟨fun h' => ⟨h.le.trans h', h'⟩, fun h' => h'.2⟩
        · rename_i h; exact ⟨fun h' => ⟨h', (not_lt.1 h).trans h'⟩, fun h' => h'.1⟩
    rw [key]
    simp only [List.mem_cons, forall_eq_or_imp, and_assoc]

theorem worstRatio_le (a z : Fin m → ℝ) (hz : ∀ k, 0 < z k) (c : ℝ) :
    worstRatio a z ≤ (c : WithBot ℝ) ↔ ∀ k, a k ≤ c * z k := by
  rw [worstRatio, Finset.sup_le_iff]
  refine ⟨fun h k => ?_, fun h k _ => ?_⟩
  · have := h k (Finset.mem_univ k)
    rw [ratio, if_neg (hz k).ne', WithBot.coe_le_coe] at this
    exact (div_le_iff₀ (hz k)).1 this
  · rw [ratio, if_neg (hz k).ne', WithBot.coe_le_coe]
    exact (div_le_iff₀ (hz k)).2 (h k)

/-- **C153**, the part that holds: for a reference front with positive objective values, `Epsilon` is the smallest factor
`c ≥ 0` (below the numeric maximum) such that every reference point, multiplied by `c`, is weakly dominated by a point of the
front.  Missing: objectives that may be zero or negative, where it is false (below). -/
theorem C153_epsilon_is_factor_partial {big c : ℝ} (hc : 0 ≤ c) (hcb : c < big) (front : List (Fin m → ℝ))
    {ref : List (Fin m → ℝ)} (hpos : ∀ z ∈ ref, ∀ k, 0 < z k) :
    epsilon big front ref ≤ c ↔ ∀ z ∈ ref, ∃ a ∈ front, ∀ k, a k ≤ c * z k := by
  rw [epsilon, epsilon_fold]
  refine ⟨fun h z hz => ?_, fun h => ⟨hc, fun z hz => ?_⟩⟩
  · obtain ⟨a, ha, h'⟩ := (epsMin_le big c hcb front z).1 (h.2 z hz)
    exact ⟨a, ha, (worstRatio_le a z (hpos z hz) c).1 h'⟩
  · obtain ⟨a, ha, h'⟩ := h z hz
    exact (epsMin_le big c hcb front z).2 ⟨a, ha, (worstRatio_le a z (hpos z hz) c).2 h'⟩

/-- **C153** (positive objectives) `Epsilon` is at most 1 exactly when the front covers the reference front. -/
theorem C153_epsilon_le_one_partial {big : ℝ} (hb : 1 < big) (front : List (Fin m → ℝ))
    {ref : List (Fin m → ℝ)} (hpos : ∀ z ∈ ref, ∀ k, 0 < z k) :
    epsilon big front ref ≤ 1 ↔ ∀ z ∈ ref, ∃ a ∈ front, Covers a z := by
  rw [C153_epsilon_is_factor_partial zero_le_one hb front hpos]
  simp [Covers]

/-- **C153** `Epsilon` is never negative and, whatever the signs, never larger than the numeric maximum; with positive
reference values a front that covers another is rated at least as good. -/
theorem C153_epsilon_compliant_partial {big : ℝ} (hb : 0 ≤ big) (A B : List (Fin m → ℝ)) {ref : List (Fin m → ℝ)} :
    0 ≤ epsilon big A ref ∧ epsilon big A ref ≤ big ∧
    ((∀ z ∈ ref, ∀ k, 0 < z k) → (∀ b ∈ B, ∃ a ∈ A, Covers a b) → epsilon big A ref ≤ epsilon big B ref) := by
  have hn : ∀ F : List (Fin m → ℝ), 0 ≤ epsilon big F ref := fun F =>
    ((epsilon_fold big F ref 0 _).1 (le_refl (epsilon big F ref))).1
  have hu : ∀ F : List (Fin m → ℝ), epsilon big F ref ≤ big := fun F =>
    (epsilon_fold big F ref 0 big).2 ⟨hb, fun z _ => (foldl_min_le _ _ _ _).2 (.inl le_rfl)⟩
  refine ⟨hn A, hu A, fun hpos hAB => ?_⟩
  rcases (hu B).lt_or_eq with h | h
  · rw [C153_epsilon_is_factor_partial (hn B) h A hpos]
    intro z hz
    obtain ⟨b, hb', hk⟩ := (C153_epsilon_is_factor_partial (hn B) h B hpos).1 le_rfl z hz
    obtain ⟨a, ha, hc⟩ := hAB b hb'
    exact ⟨a, ha, fun k => (hc k).trans (hk k)⟩
  · rw [h]; exact hu A

/-- **C153 is false as stated**: for a minimisation problem with negative objective values, a front that strictly dominates
the reference gets a rating above 1 (here 2). -/
theorem C153_epsilon_negative_refuted :
    ¬ ∀ (front ref : List (Fin 1 → ℝ)), (∀ z ∈ ref, ∃ a ∈ front, Covers a z) → epsilon 1000 front ref ≤ 1 := by
  intro h
  have h1 := h [![-2]] [![-1]] (by
    intro z hz
    simp only [List.mem_singleton] at hz
    subst hz
    exact ⟨![-2], by simp, fun k => by fin_cases k; norm_num⟩)
  rw [epsilon, epsilon_fold] at h1
  obtain ⟨a, ha, h2⟩ := (epsMin_le 1000 1 (by norm_num) _ _).1 (h1.2 _ List.mem_cons_self)
  simp only [List.mem_singleton] at ha
  subst ha
  rw [worstRatio, Finset.sup_le_iff] at h2
  have := h2 0 (Finset.mem_univ 0)
  rw [ratio, if_neg (by simp), WithBot.coe_le_coe] at this
  norm_num at this

/-- **C153 is false as stated**, the other direction: with a zero in the reference (the ideal value of an objective, for
instance) the infinite ratio is replaced by -1 and the objective is ignored, so a front arbitrarily far away in that objective
gets a rating of at most 1. -/
theorem C153_epsilon_zero_reference_refuted :
    ¬ ∀ (front ref : List (Fin 2 → ℝ)), (∀ z ∈ ref, ∀ k, 0 ≤ z k) → epsilon 1000 front ref ≤ 1 →
      ∀ z ∈ ref, ∃ a ∈ front, Covers a z := by
  intro h
  have h1 := h [![500, 1]] [![0, 1]] (by
    intro z hz
    simp only [List.mem_singleton] at hz
    subst hz
    intro k; fin_cases k <;> simp) (by
    rw [epsilon, epsilon_fold]
    refine ⟨by norm_num, fun z hz => ?_⟩
    simp only [List.mem_singleton] at hz
    subst hz
    refine (epsMin_le 1000 1 (by norm_num) _ _).2 ⟨_, List.mem_cons_self, ?_⟩
    rw [worstRatio, Finset.sup_le_iff]
    intro k _
    fin_cases k
    · simp only [ratio]
      rw [if_pos (by simp), if_pos (by simp), WithBot.coe_le_coe]; norm_num
    · simp only [ratio]
      rw [if_neg (by simp), WithBot.coe_le_coe]; simp) ![0, 1] (by simp)
  obtain ⟨a, ha, hc⟩ := h1
  simp only [List.mem_singleton] at ha
  subst ha
  have := hc 0
  simp at this
  linarith

/-- Non-vacuity of the positive case: a front covering a two-point reference, not containing it. -/
example : epsilon 1000 [![1, 3], ![2, 1]] [![1, 4], ![(3 : ℝ), 1]] ≤ 1 := by
  rw [C153_epsilon_le_one_partial (by norm_num) _ (by
    intro z hz
    simp only [List.mem_cons, List.not_mem_nil, or_false] at hz
    rcases hz with rfl | rfl <;> intro k <;> fin_cases k <;> norm_num)]
  intro z hz
  simp only [List.mem_cons, List.not_mem_nil, or_false] at hz
  rcases hz with rfl | rfl
  · exact ⟨![1, 3], by simp, fun k => by fin_cases k <;> norm_num⟩
  · exact ⟨![2, 1], by simp, fun k => by fin_cases k <;> norm_num⟩

end Ens.Indicators
