import Mathlib.Analysis.MeanInequalities
import Mathlib.Analysis.SpecialFunctions.Pow.Real
import Mathlib.Data.List.FinRange
import Mathlib.Tactic.Linarith
import Mathlib.Tactic.NormNum
import Mathlib.Tactic.FieldSimp
import Mathlib.Tactic.Ring

/-
`ConstrLpBallSolver::Optimize` (`fw/constr_lpball.hpp:82-136`) and `ConstrStructGroupSolver::Optimize` with `GroupLpBall`
(`fw/constr_structure_group.hpp:86-110`, `148-222`), over the reals, for gradients given as one column. Properties C46,
C119, C120.

Outside /repo: `arma::normalise(x, p)` and `arma::norm(x, p)` take `p` as an unsigned integer (`const uword p`), so a
`double` argument is truncated; `normalise` divides each column by its norm, or by 1 if that is zero; `index_max` is the
first index of a largest element.
-/

namespace Ens.Fw.Lp

/-- The norm parameter `double p`. -/
inductive P where
  | inf
  | fin (p : ℝ)

variable {n : Nat}

/-- `arma::sign`; also the expression `(0.0 < x) - (x < 0.0)` of line 125. -/
noncomputable def sgn (x : ℝ) : ℝ := if 0 < x then 1 else if x < 0 then -1 else 0

/-- `regFlag ? v / lambda : v`. -/
noncomputable def divLam (lam : Option (Fin n → ℝ)) (v : Fin n → ℝ) (i : Fin n) : ℝ :=
  match lam with
  | none => v i
  | some l => v i / l i

/-- `s.index_max()`. -/
noncomputable def indexMax (a : Fin (n + 1) → ℝ) : Fin (n + 1) :=
  (List.finRange (n + 1)).foldl (fun k i => if a k < a i then i else k) 0

/-- `arma::norm(x, r)` for a positive integer `r`. -/
noncomputable def norm (r : Nat) (x : Fin n → ℝ) : ℝ := (∑ i, |x i| ^ (r : ℝ)) ^ (1 / (r : ℝ))

/-- `arma::normalise(x, p)` of one column: `p` is truncated. -/
noncomputable def normalise (p : ℝ) (x : Fin n → ℝ) (i : Fin n) : ℝ :=
  x i / (if norm ⌊p⌋₊ x = 0 then 1 else norm ⌊p⌋₊ x)

/-- `q = 1 / (1 - 1 / p)`. -/
noncomputable def conj (p : ℝ) : ℝ := 1 / (1 - 1 / p)

/-- `ConstrLpBallSolver::Optimize(v, s)`; `s0` is the old content of `s`, kept when `p < 1`. -/
noncomputable def oracle (p : P) (lam : Option (Fin (n + 1) → ℝ)) (v s0 : Fin (n + 1) → ℝ) : Fin (n + 1) → ℝ :=
  match p with
  | .inf => divLam lam fun i => -sgn (v i)
  | .fin p =>
    if 1 < p then
      divLam lam (normalise p fun i => -sgn (v i) * |divLam lam v i| ^ (conj p - 1))
    else if p = 1 then
      let k := indexMax fun i => |divLam lam v i|
      divLam lam fun i => if i = k then -sgn (v k) else 0
    else s0

/-! ### The ball -/

/-- Weight of a coordinate: the constraint set is the ball in the norm of `lambda % s`. -/
def wt (lam : Option (Fin n → ℝ)) (i : Fin n) : ℝ :=
  match lam with
  | none => 1
  | some l => l i

/-- `‖lambda % s‖_p ≤ 1`. -/
def InBall (p : P) (lam : Option (Fin n → ℝ)) (s : Fin n → ℝ) : Prop :=
  match p with
  | .inf => ∀ i, |wt lam i * s i| ≤ 1
  | .fin p => ∑ i, |wt lam i * s i| ^ p ≤ 1

/-- `s` is a point of the ball minimising the inner product with `v`. -/
def IsLmo (p : P) (lam : Option (Fin n → ℝ)) (v s : Fin n → ℝ) : Prop :=
  InBall p lam s ∧ ∀ y, InBall p lam y → ∑ i, v i * s i ≤ ∑ i, v i * y i

/-! ### Lemmas -/

theorem sgn_mul (x : ℝ) : sgn x * x = |x| := by
  unfold sgn
  split
  · rename_i h; rw [one_mul, abs_of_pos h]
  · split
    · rename_i h; rw [abs_of_neg h]; ring
    · have : x = 0 := by linarith
      rw [this]; simp

theorem mul_sgn (x : ℝ) : x * sgn x = |x| := by rw [mul_comm, sgn_mul]

theorem abs_sgn_le (x : ℝ) : |sgn x| ≤ 1 := by
  unfold sgn; split
  · simp
  · split <;> simp

theorem abs_sgn {x : ℝ} (h : x ≠ 0) : |sgn x| = 1 := by
  unfold sgn; split
  · simp
  · split
    · simp
    · exact absurd (by linarith) h

theorem divLam_eq (lam : Option (Fin n → ℝ)) (v : Fin n → ℝ) (i : Fin n) : divLam lam v i = v i / wt lam i := by
  cases lam <;> simp [divLam, wt]

theorem divLam_none (v : Fin n → ℝ) : divLam none v = v := rfl

theorem foldl_max (a : Fin (n + 1) → ℝ) : ∀ (l : List (Fin (n + 1))) (k : Fin (n + 1)),
    a k ≤ a (l.foldl (fun k i => if a k < a i then i else k) k) ∧
      ∀ i ∈ l, a i ≤ a (l.foldl (fun k i => if a k < a i then i else k) k)
  | [], k => ⟨le_refl _, by simp⟩
  | j :: l, k => by
    obtain ⟨h1, h2⟩ := foldl_max a l (if a k < a j then j else k)
    have hj : a j ≤ a (if a k < a j then j else k) ∧ a k ≤ a (if a k < a j then j else k) := by
      split
      · rename_i h; exact ⟨le_refl _, h.le⟩
      · rename_i h; exact ⟨not_lt.1 h, le_refl _⟩
    rw [List.foldl_cons]
    refine ⟨le_trans hj.2 h1, fun i hi => ?_⟩
    rcases List.mem_cons.1 hi with rfl | hi
    · exact le_trans hj.1 h1
    · exact h2 i hi

theorem le_indexMax (a : Fin (n + 1) → ℝ) (i : Fin (n + 1)) : a i ≤ a (indexMax a) :=
  (foldl_max a _ _).2 i (List.mem_finRange i)

/-- Inner products in terms of the scaled vectors. -/
theorem inner_scaled {lam : Option (Fin n → ℝ)} (hl : ∀ i, 0 < wt lam i) (v y : Fin n → ℝ) :
    ∑ i, v i * y i = ∑ i, divLam lam v i * (wt lam i * y i) := by
  apply Finset.sum_congr rfl
  intro i _
  rw [divLam_eq]
  have := (hl i).ne'
  field_simp

/-! ### C46 -/

/-- **C46** `p = infinity`. -/
theorem C46_linf (lam : Option (Fin (n + 1) → ℝ)) (hl : ∀ i, 0 < wt lam i) (v s0 : Fin (n + 1) → ℝ) :
    IsLmo .inf lam v (oracle .inf lam v s0) := by
  constructor
  · intro i
    have := (hl i).ne'
    simp only [oracle, divLam_eq]
    rw [mul_div_cancel₀ _ this, abs_neg]
    exact abs_sgn_le _
  · intro y hy
    rw [inner_scaled hl v y, inner_scaled hl]
    apply Finset.sum_le_sum
    intro i _
    simp only [oracle, divLam_eq]
    rw [mul_div_cancel₀ _ (hl i).ne']
    have h1 : v i / wt lam i * -sgn (v i) = -(|v i| / wt lam i) := by
      rw [← mul_sgn]; ring
    have h2 : |v i / wt lam i * (wt lam i * y i)| ≤ |v i| / wt lam i := by
      rw [abs_mul, abs_div, abs_of_pos (hl i)]
      have : 0 ≤ |v i| / wt lam i := div_nonneg (abs_nonneg _) (hl i).le
      have hy := hy i
      nlinarith
    rw [h1]
    linarith [(abs_le.1 h2).1]

/-- **C46** `p = 1`. -/
theorem C46_l1 (lam : Option (Fin (n + 1) → ℝ)) (hl : ∀ i, 0 < wt lam i) (v s0 : Fin (n + 1) → ℝ) :
    IsLmo (.fin 1) lam v (oracle (.fin 1) lam v s0) := by
  have ho : oracle (.fin 1) lam v s0 = divLam lam fun i =>
      if i = indexMax (fun i => |divLam lam v i|) then -sgn (v (indexMax fun i => |divLam lam v i|)) else 0 := by
    simp [oracle]
  rw [ho]
  set k := indexMax fun i => |divLam lam v i| with hk
  have hmax : ∀ i, |divLam lam v i| ≤ |divLam lam v k| := le_indexMax _
  have hw : ∀ i, wt lam i * divLam lam (fun i => if i = k then -sgn (v k) else 0) i = if i = k then -sgn (v k) else 0 := by
    intro i
    rw [divLam_eq, mul_div_cancel₀ _ (hl i).ne']
  constructor
  · simp only [InBall, Real.rpow_one, hw]
    rw [Finset.sum_eq_single k]
    · simp [abs_sgn_le]
    · intro b _ hb; simp [hb]
    · simp
  · intro y hy
    simp only [InBall, Real.rpow_one] at hy
    rw [inner_scaled hl v y, inner_scaled hl]
    simp only [hw]
    rw [Finset.sum_eq_single k]
    rotate_left
    · intro b _ hb; simp [hb]
    · simp
    rw [if_pos rfl]
    have h1 : divLam lam v k * -sgn (v k) = -|divLam lam v k| := by
      rw [divLam_eq, abs_div, abs_of_pos (hl k), ← mul_sgn]; ring
    have h2 : |∑ i, divLam lam v i * (wt lam i * y i)| ≤ |divLam lam v k| := by
      refine le_trans (Finset.abs_sum_le_sum_abs _ _) ?_
      calc ∑ i, |divLam lam v i * (wt lam i * y i)| ≤ ∑ i, |divLam lam v k| * |wt lam i * y i| := by
            apply Finset.sum_le_sum
            intro i _
            rw [abs_mul]
            exact mul_le_mul_of_nonneg_right (hmax i) (abs_nonneg _)
        _ = |divLam lam v k| * ∑ i, |wt lam i * y i| := by rw [Finset.mul_sum]
        _ ≤ |divLam lam v k| * 1 := mul_le_mul_of_nonneg_left hy (abs_nonneg _)
        _ = _ := mul_one _
    rw [h1]
    linarith [(abs_le.1 h2).1]

theorem conj_conj {p : ℝ} (hp : 1 < p) : p.HolderConjugate (conj p) := by
  rw [Real.holderConjugate_iff]
  refine ⟨hp, ?_⟩
  unfold conj
  rw [one_div, inv_inv, one_div]
  ring

/-- Entries of the un-normalised direction. -/
theorem abs_dir {p : ℝ} (hp : 1 < p) {lam : Option (Fin n → ℝ)} (hl : ∀ i, 0 < wt lam i) (v : Fin n → ℝ) (i : Fin n) :
    |-sgn (v i) * |divLam lam v i| ^ (conj p - 1)| = |divLam lam v i| ^ (conj p - 1) := by
  have hq : 0 < conj p - 1 := by have := (conj_conj hp).symm.lt; linarith
  rw [abs_mul, abs_neg, abs_of_nonneg (Real.rpow_nonneg (abs_nonneg _) _)]
  by_cases h : v i = 0
  · have : divLam lam v i = 0 := by rw [divLam_eq, h, zero_div]
    rw [this, abs_zero, Real.zero_rpow hq.ne', mul_zero]
  · rw [abs_sgn h, one_mul]

theorem norm_nonneg (r : Nat) (x : Fin n → ℝ) : 0 ≤ norm r x :=
  Real.rpow_nonneg (Finset.sum_nonneg fun i _ => Real.rpow_nonneg (abs_nonneg _) _) _

/-- A normalised column has unit norm, or is zero. -/
theorem normalise_spec {p : ℝ} (hp : 1 ≤ p) (x : Fin n → ℝ) :
    (x = 0 ∧ normalise p x = 0) ∨ ∑ i, |normalise p x i| ^ (⌊p⌋₊ : ℝ) = 1 := by
  have hr : (1 : ℝ) ≤ (⌊p⌋₊ : ℝ) := by
    have := (Nat.one_le_floor_iff p).2 hp
    exact_mod_cast this
  set r : ℝ := (⌊p⌋₊ : ℝ) with hrr
  have hr0 : r ≠ 0 := by linarith
  by_cases hN : norm ⌊p⌋₊ x = 0
  · left
    have hsum : ∑ i, |x i| ^ r = 0 := by
      unfold norm at hN
      rwa [Real.rpow_eq_zero (Finset.sum_nonneg fun i _ => Real.rpow_nonneg (abs_nonneg _) _)
        (by rw [one_div]; exact inv_ne_zero hr0)] at hN
    have hx : x = 0 := by
      funext i
      have := (Finset.sum_eq_zero_iff_of_nonneg (fun i _ => Real.rpow_nonneg (abs_nonneg (x i)) r)).1 hsum i
        (Finset.mem_univ i)
      rw [Real.rpow_eq_zero (abs_nonneg _) hr0] at this
      exact abs_eq_zero.1 this
    refine ⟨hx, ?_⟩
    funext i
    simp [normalise, hx]
  · right
    have hpos : 0 < norm ⌊p⌋₊ x := lt_of_le_of_ne (norm_nonneg _ _) (Ne.symm hN)
    have hS : 0 ≤ ∑ i, |x i| ^ r := Finset.sum_nonneg fun i _ => Real.rpow_nonneg (abs_nonneg _) _
    have hpow : norm ⌊p⌋₊ x ^ r = ∑ i, |x i| ^ r := by
      unfold norm
      rw [← hrr, ← Real.rpow_mul hS, one_div, inv_mul_cancel₀ hr0, Real.rpow_one]
    have : ∀ i, |normalise p x i| ^ r = |x i| ^ r / norm ⌊p⌋₊ x ^ r := by
      intro i
      unfold normalise
      rw [if_neg hN, abs_div, abs_of_pos hpos, Real.div_rpow (abs_nonneg _) hpos.le]
    simp only [this]
    rw [← Finset.sum_div, hpow, div_self]
    rw [← hpow]
    exact (Real.rpow_pos_of_pos hpos r).ne'

/-- **C46** (partial) `1 < p < infinity`: the answer is in the ball, for every such `p`. -/
theorem C46_lp_feasible {p : ℝ} (hp : 1 < p) (lam : Option (Fin (n + 1) → ℝ)) (hl : ∀ i, 0 < wt lam i)
    (v s0 : Fin (n + 1) → ℝ) : InBall (.fin p) lam (oracle (.fin p) lam v s0) := by
  simp only [InBall, oracle, if_pos hp]
  have hw : ∀ x : Fin (n + 1) → ℝ, ∀ i, wt lam i * divLam lam x i = x i := by
    intro x i
    rw [divLam_eq, mul_div_cancel₀ _ (hl i).ne']
  simp only [hw]
  rcases normalise_spec hp.le fun i => -sgn (v i) * |divLam lam v i| ^ (conj p - 1) with ⟨-, h⟩ | h
  · rw [h]
    simp [Real.zero_rpow (show p ≠ 0 by linarith)]
  · refine le_trans ?_ h.le
    apply Finset.sum_le_sum
    intro i _
    set u := |normalise p (fun i => -sgn (v i) * |divLam lam v i| ^ (conj p - 1)) i| with hu
    have h0 : 0 ≤ u := abs_nonneg _
    have hr : (1 : ℝ) ≤ (⌊p⌋₊ : ℝ) := by
      have := (Nat.one_le_floor_iff p).2 hp.le
      exact_mod_cast this
    have h1 : u ≤ 1 := by
      by_contra hc
      rw [not_le] at hc
      have h2 : u ^ (⌊p⌋₊ : ℝ) ≤ 1 := by
        refine le_trans ?_ h.le
        exact Finset.single_le_sum (f := fun i => |normalise p (fun i => -sgn (v i) * |divLam lam v i| ^ (conj p - 1)) i| ^
          (⌊p⌋₊ : ℝ)) (fun i _ => Real.rpow_nonneg (abs_nonneg _) _) (Finset.mem_univ i)
      have h3 : 1 < u ^ (⌊p⌋₊ : ℝ) := Real.one_lt_rpow hc (by linarith)
      linarith
    rcases h0.eq_or_lt with h0 | h0
    · rw [← h0, Real.zero_rpow (by linarith), Real.zero_rpow (by linarith)]
    · exact Real.rpow_le_rpow_of_exponent_ge h0 h1 (Nat.floor_le (by linarith))

/-- Lower bound (Hölder) for every point of the ball. -/
theorem holder_bound {p : ℝ} (hp : 1 < p) {lam : Option (Fin n → ℝ)} (hl : ∀ i, 0 < wt lam i) (v y : Fin n → ℝ)
    (hy : InBall (.fin p) lam y) : -(∑ i, |divLam lam v i| ^ conj p) ^ (1 / conj p) ≤ ∑ i, v i * y i := by
  have h := conj_conj hp
  rw [inner_scaled hl]
  have h1 := Real.inner_le_Lp_mul_Lq Finset.univ (fun i => -divLam lam v i) (fun i => wt lam i * y i) h.symm
  simp only [abs_neg, neg_mul, Finset.sum_neg_distrib] at h1
  have h2 : (∑ i, |wt lam i * y i| ^ p) ^ (1 / p) ≤ 1 :=
    Real.rpow_le_one (Finset.sum_nonneg fun i _ => Real.rpow_nonneg (abs_nonneg _) _) hy
      (by have := h.pos; positivity)
  have h3 : 0 ≤ (∑ i, |divLam lam v i| ^ conj p) ^ (1 / conj p) :=
    Real.rpow_nonneg (Finset.sum_nonneg fun i _ => Real.rpow_nonneg (abs_nonneg _) _) _
  nlinarith

/-- The value attained when `p` is an integer. -/
theorem lp_value {p : ℝ} (hp : 1 < p) (hint : (⌊p⌋₊ : ℝ) = p) {lam : Option (Fin (n + 1) → ℝ)} (hl : ∀ i, 0 < wt lam i)
    (v s0 : Fin (n + 1) → ℝ) :
    ∑ i, v i * oracle (.fin p) lam v s0 i = -(∑ i, |divLam lam v i| ^ conj p) ^ (1 / conj p) := by
  have h := conj_conj hp
  have hq1 : 0 < conj p - 1 := by have := h.symm.lt; linarith
  have hq0 : conj p ≠ 0 := by linarith
  set S := ∑ i, |divLam lam v i| ^ conj p with hS
  have hS0 : 0 ≤ S := Finset.sum_nonneg fun i _ => Real.rpow_nonneg (abs_nonneg _) _
  have hN : norm ⌊p⌋₊ (fun i => -sgn (v i) * |divLam lam v i| ^ (conj p - 1)) = S ^ (1 / p) := by
    unfold norm
    simp only [abs_dir hp hl, hint]
    congr 1
    apply Finset.sum_congr rfl
    intro i _
    rw [← Real.rpow_mul (abs_nonneg _)]
    congr 1
    have := h.symm.sub_one_mul_conj
    linarith
  have hterm : ∀ i, divLam lam v i * (-sgn (v i) * |divLam lam v i| ^ (conj p - 1)) = -|divLam lam v i| ^ conj p := by
    intro i
    have h1 : divLam lam v i * sgn (v i) = |divLam lam v i| := by
      rw [divLam_eq, abs_div, abs_of_pos (hl i), ← mul_sgn]; ring
    have h2 : |divLam lam v i| ^ conj p = |divLam lam v i| * |divLam lam v i| ^ (conj p - 1) := by
      rcases (abs_nonneg (divLam lam v i)).eq_or_lt with h0 | h0
      · rw [← h0, Real.zero_rpow hq0, zero_mul]
      · rw [← Real.rpow_one_add' h0.le (by linarith)]
        congr 1; ring
    rw [h2, ← h1]; ring
  rw [inner_scaled hl]
  have hw : ∀ x : Fin (n + 1) → ℝ, ∀ i, wt lam i * divLam lam x i = x i := by
    intro x i
    rw [divLam_eq, mul_div_cancel₀ _ (hl i).ne']
  simp only [oracle, if_pos hp, hw, normalise, hN]
  rcases hS0.eq_or_lt with h0 | h0
  · have hz : ∀ i, |divLam lam v i| ^ conj p = 0 := by
      intro i
      exact (Finset.sum_eq_zero_iff_of_nonneg (fun i _ => Real.rpow_nonneg (abs_nonneg _) _)).1 (hS.symm.trans h0.symm) i
        (Finset.mem_univ i)
    have hz' : ∀ i, divLam lam v i = 0 := by
      intro i
      have := hz i
      rw [Real.rpow_eq_zero (abs_nonneg _) hq0] at this
      exact abs_eq_zero.1 this
    simp only [hz', zero_mul, Finset.sum_const_zero]
    rw [← h0, Real.zero_rpow (by rw [one_div]; exact inv_ne_zero hq0), neg_zero]
  · have hpos : 0 < S ^ (1 / p) := Real.rpow_pos_of_pos h0 _
    rw [if_neg hpos.ne']
    have : ∀ i, divLam lam v i * (-sgn (v i) * |divLam lam v i| ^ (conj p - 1) / S ^ (1 / p)) =
        -|divLam lam v i| ^ conj p / S ^ (1 / p) := by
      intro i
      rw [← hterm]; ring
    simp only [this]
    rw [← Finset.sum_div, Finset.sum_neg_distrib, ← hS, neg_div]
    congr 1
    rw [div_eq_iff hpos.ne', ← Real.rpow_add h0]
    have : 1 / conj p + 1 / p = 1 := by
      rw [one_div, one_div, add_comm]; exact h.inv_add_inv_eq_one
    rw [this, Real.rpow_one]

/-- **C46** (partial) `1 < p < infinity` and `p` an integer: the answer is a minimiser over the ball. For other `p` see
`C46_lp_feasible` (it is in the ball) and `C46_lp_refuted` (it need not be a minimiser). -/
theorem C46_lp_partial {p : ℝ} (hp : 1 < p) (hint : (⌊p⌋₊ : ℝ) = p) (lam : Option (Fin (n + 1) → ℝ))
    (hl : ∀ i, 0 < wt lam i) (v s0 : Fin (n + 1) → ℝ) : IsLmo (.fin p) lam v (oracle (.fin p) lam v s0) :=
  ⟨C46_lp_feasible hp lam hl v s0, fun y hy => by rw [lp_value hp hint hl]; exact holder_bound hp hl v y hy⟩

/-- **C46** (refuted) For `p = 3/2` and gradient `(1, 1)` the answer is not a minimiser: `normalise` uses the norm of
the truncated exponent 1. -/
theorem C46_lp_refuted : ¬ ∀ p : ℝ, 1 < p → ∀ v s0 : Fin 2 → ℝ, IsLmo (.fin p) none v (oracle (.fin p) none v s0) := by
  intro h
  have hfl : ⌊(3 / 2 : ℝ)⌋₊ = 1 := by
    rw [Nat.floor_eq_iff (by norm_num)]; norm_num
  have hq : conj (3 / 2) = 3 := by unfold conj; norm_num
  have h1 := (h (3 / 2) (by norm_num) (fun _ => 1) ![0, 0]).2 (fun _ => -3 / 5) (by
    simp only [InBall, wt, Fin.sum_univ_two, one_mul]
    have e : |(-3 / 5 : ℝ)| = 3 / 5 := by norm_num
    rw [e]
    have h2 : ((3 / 5 : ℝ) ^ (3 / 2 : ℝ)) ^ 2 ≤ (1 / 2) ^ 2 := by
      rw [← Real.rpow_natCast, ← Real.rpow_mul (by norm_num)]
      norm_num
    have h3 : (3 / 5 : ℝ) ^ (3 / 2 : ℝ) ≤ 1 / 2 := by
      have := abs_le_of_sq_le_sq' h2 (by norm_num)
      exact this.2
    linarith)
  simp only [oracle, divLam_none, if_pos (show (1 : ℝ) < 3 / 2 by norm_num), hq] at h1
  simp only [normalise, norm, hfl, sgn] at h1
  norm_num at h1

example : IsLmo (.fin 2) (some ![1, 2]) ![3, 4] (oracle (.fin 2) (some ![1, 2]) ![3, 4] ![0, 0]) :=
  C46_lp_partial (by norm_num) (by norm_num) _ (by intro i; fin_cases i <;> norm_num [wt]) _ _

/-! ### C119: several columns -/

/-- The oracle on a matrix, `1 < p`, no weights: `normalise` works column by column (default `dim = 0`) and everything
else element by element. -/
noncomputable def oracleMat {c : Nat} (p : ℝ) (v : Fin (n + 1) → Fin c → ℝ) : Fin (n + 1) → Fin c → ℝ :=
  fun i j => oracle (.fin p) none (fun i => v i j) (fun _ => 0) i

/-- **C119** (refuted) "For a matrix of coordinates with several columns the answer is in the ball": each column is
normalised on its own. -/
theorem C119_matrix_refuted :
    ¬ ∀ (p : ℝ), 1 < p → ∀ v : Fin 1 → Fin 2 → ℝ, ∑ i, ∑ j, |oracleMat p v i j| ^ p ≤ 1 := by
  intro h
  have h1 := h 2 (by norm_num) fun _ _ => 1
  have hq : conj 2 = 2 := by unfold conj; norm_num
  have hfl : ⌊(2 : ℝ)⌋₊ = 2 := by norm_num
  have hv : ∀ i j, oracleMat 2 (fun (_ : Fin 1) (_ : Fin 2) => (1 : ℝ)) i j = -1 := by
    intro i j
    simp only [oracleMat, oracle, divLam_none, if_pos (show (1 : ℝ) < 2 by norm_num), hq]
    simp only [normalise, norm, hfl, sgn]
    norm_num
  simp only [hv] at h1
  norm_num at h1

/-- **C119** (partial) What does hold: every column is a minimiser over its own ball (integer `p`). -/
theorem C119_columns_partial {c : Nat} {p : ℝ} (hp : 1 < p) (hint : (⌊p⌋₊ : ℝ) = p) (v : Fin (n + 1) → Fin c → ℝ)
    (j : Fin c) : IsLmo (.fin p) none (fun i => v i j) (fun i => oracleMat p v i j) :=
  C46_lp_partial hp hint none (fun _ => by simp [wt]) _ _

/-! ### C120: structured groups -/

/-- The scan over groups `1..nGroups` of lines 91-107: index and dual norm of the best so far. -/
noncomputable def scan (dn : Nat → ℝ) (nGroups : Nat) : Nat × ℝ :=
  (List.range' 1 nGroups).foldl (fun b i => if b.2 < dn i then (i, dn i) else b) (1, 0)

theorem scan_foldl (dn : Nat → ℝ) : ∀ (l : List Nat) (b : Nat × ℝ),
    let r := l.foldl (fun b i => if b.2 < dn i then (i, dn i) else b) b
    b.2 ≤ r.2 ∧ (∀ i ∈ l, dn i ≤ r.2) ∧ (r = b ∨ r.1 ∈ l ∧ r.2 = dn r.1)
  | [], b => ⟨le_refl _, by simp, .inl rfl⟩
  | j :: l, b => by
    obtain ⟨h1, h2, h3⟩ := scan_foldl dn l (if b.2 < dn j then (j, dn j) else b)
    simp only [List.foldl_cons]
    have hj : dn j ≤ (if b.2 < dn j then (j, dn j) else b).2 ∧ b.2 ≤ (if b.2 < dn j then (j, dn j) else b).2 := by
      split
      · rename_i h; exact ⟨le_refl _, h.le⟩
      · rename_i h; exact ⟨not_lt.1 h, le_refl _⟩
    refine ⟨le_trans hj.2 h1, ?_, ?_⟩
    · intro i hi
      rcases List.mem_cons.1 hi with rfl | hi
      · exact le_trans hj.1 h1
      · exact h2 i hi
    · rcases h3 with h3 | ⟨h3, h4⟩
      · rw [h3]
        split
        · right; exact ⟨List.mem_cons_self .., rfl⟩
        · left; rfl
      · right; exact ⟨List.mem_cons_of_mem _ h3, h4⟩

/-- **C120** The group chosen has the largest dual norm, for any `GroupType` with at least one group and dual norms
that are not negative. -/
theorem C120_scan {dn : Nat → ℝ} (h0 : ∀ i, 0 ≤ dn i) {nGroups : Nat} (hn : 0 < nGroups) :
    1 ≤ (scan dn nGroups).1 ∧ (scan dn nGroups).1 ≤ nGroups ∧
      ∀ i, 1 ≤ i → i ≤ nGroups → dn i ≤ dn (scan dn nGroups).1 := by
  obtain ⟨h1, h2, h3⟩ := scan_foldl dn (List.range' 1 nGroups) (1, 0)
  change 0 ≤ (scan dn nGroups).2 at h1
  change ∀ i ∈ _, dn i ≤ (scan dn nGroups).2 at h2
  change scan dn nGroups = _ ∨ (scan dn nGroups).1 ∈ _ ∧ _ at h3
  have hle : (scan dn nGroups).2 ≤ dn (scan dn nGroups).1 := by
    rcases h3 with h3 | ⟨-, h3⟩
    · rw [h3]; exact h0 1
    · exact h3.le
  have hr : 1 ≤ (scan dn nGroups).1 ∧ (scan dn nGroups).1 ≤ nGroups := by
    rcases h3 with h3 | ⟨h3, -⟩
    · rw [h3]; exact ⟨le_refl 1, hn⟩
    · rw [List.mem_range'_1] at h3; omega
  refine ⟨hr.1, hr.2, fun i h1 h2' => le_trans (h2 i ?_) hle⟩
  rw [List.mem_range'_1]; omega

/-- A group: its (distinct) indices, at least one. -/
structure Group (dim : Nat) where
  size : Nat
  idx : Fin (size + 1) → Fin dim
  inj : Function.Injective idx

variable {dim : Nat}

/-- `GroupLpBall::ProjectToGroup`. -/
def restrict (G : Group dim) (v : Fin dim → ℝ) : Fin (G.size + 1) → ℝ := fun i => v (G.idx i)

/-- Lines 181-184: back to the original dimension. -/
noncomputable def extend (G : Group dim) (s : Fin (G.size + 1) → ℝ) (j : Fin dim) : ℝ :=
  (List.finRange (G.size + 1)).foldl (fun a i => if G.idx i = j then s i else a) 0

/-- `GroupLpBall::DualNorm` (`p ≥ 1`); the argument `q` of `arma::norm` is truncated. -/
noncomputable def dualNorm (p : P) (y : Fin (n + 1) → ℝ) : ℝ :=
  match p with
  | .inf => norm 1 y
  | .fin p => if 1 < p then norm ⌊conj p⌋₊ y else |y (indexMax fun i => |y i|)|

/-- `ConstrStructGroupSolver<GroupLpBall>::Optimize`; groups are numbered from 1. -/
noncomputable def groupOracle (p : P) (G : Nat → Group dim) (nGroups : Nat) (v : Fin dim → ℝ) : Fin dim → ℝ :=
  let k := (scan (fun i => dualNorm p (restrict (G i) v)) nGroups).1
  extend (G k) (oracle p none (restrict (G k) v) fun _ => 0)

/-- `s` is supported on the group and its restriction is in the unit ball. -/
def InGroup (p : P) (G : Group dim) (s : Fin dim → ℝ) : Prop :=
  (∀ j, (∀ i, G.idx i ≠ j) → s j = 0) ∧ InBall p none (restrict G s)

theorem foldl_other {α β : Type} {c : α → Prop} [DecidablePred c] {f : α → β} :
    ∀ (l : List α) (a : β), (∀ i ∈ l, ¬ c i) → l.foldl (fun a i => if c i then f i else a) a = a
  | [], _, _ => rfl
  | i :: l, a, h => by
    rw [List.foldl_cons, if_neg (h i (List.mem_cons_self ..))]
    exact foldl_other l a fun j hj => h j (List.mem_cons_of_mem _ hj)

theorem foldl_hit {α β : Type} [DecidableEq α] {f : α → β} (k : α) :
    ∀ (l : List α) (a : β), k ∈ l → l.foldl (fun a i => if i = k then f i else a) a = f k
  | i :: l, a, h => by
    rw [List.foldl_cons]
    by_cases hk : k ∈ l
    · exact foldl_hit k l _ hk
    · have : k = i := by
        rcases List.mem_cons.1 h with h | h
        · exact h
        · exact absurd h hk
      subst this
      rw [if_pos rfl]
      exact foldl_other l _ fun j hj he => hk (he ▸ hj)

theorem extend_idx (G : Group dim) (s : Fin (G.size + 1) → ℝ) (i : Fin (G.size + 1)) : extend G s (G.idx i) = s i := by
  unfold extend
  have : (fun (a : ℝ) (k : Fin (G.size + 1)) => if G.idx k = G.idx i then s k else a) = fun a k => if k = i then s k else a := by
    funext a k
    simp only [G.inj.eq_iff]
  rw [this]
  exact foldl_hit i _ _ (List.mem_finRange i)

theorem extend_other (G : Group dim) (s : Fin (G.size + 1) → ℝ) (j : Fin dim) (h : ∀ i, G.idx i ≠ j) : extend G s j = 0 :=
  foldl_other _ _ fun i _ => h i

/-- Inner product with a vector supported on a group. -/
theorem inner_group (G : Group dim) (v s : Fin dim → ℝ) (h : ∀ j, (∀ i, G.idx i ≠ j) → s j = 0) :
    ∑ j, v j * s j = ∑ i, restrict G v i * restrict G s i := by
  unfold restrict
  rw [← Finset.sum_image (s := Finset.univ) (g := G.idx) (f := fun j => v j * s j) (fun a _ b _ hab => G.inj hab)]
  symm
  apply Finset.sum_subset (Finset.subset_univ _)
  intro j _ hj
  rw [h j, mul_zero]
  intro i hi
  exact hj (Finset.mem_image.2 ⟨i, Finset.mem_univ i, hi⟩)

theorem wt_none (i : Fin n) : wt none i = 1 := rfl

/-- The dual norm is minus the minimum over the ball when the conjugate exponent is an integer or infinite. -/
theorem dual_value {p : P} (hp : p = .inf ∨ p = .fin 1 ∨ p = .fin 2) (y : Fin (n + 1) → ℝ) :
    ∑ i, y i * oracle p none y (fun _ => 0) i = -dualNorm p y := by
  rcases hp with rfl | rfl | rfl
  · simp only [oracle, dualNorm, norm, divLam]
    simp only [Nat.cast_one, div_one, Real.rpow_one]
    rw [← Finset.sum_neg_distrib]
    apply Finset.sum_congr rfl
    intro i _
    rw [← mul_sgn]; ring
  · have h1 : ¬ (1 : ℝ) < 1 := lt_irrefl 1
    simp only [oracle, dualNorm, divLam_none, if_neg h1, if_true]
    rw [Finset.sum_eq_single (indexMax fun i => |y i|)]
    · refine (congrArg _ (if_pos rfl)).trans ?_
      rw [← mul_sgn]; ring
    · intro b _ hb; simp [hb]
    · simp
  · have hq : conj 2 = 2 := by unfold conj; norm_num
    have hfl : ⌊(2 : ℝ)⌋₊ = 2 := by norm_num
    rw [lp_value (by norm_num) (by rw [hfl]; norm_num) (fun i => by simp [wt])]
    simp only [dualNorm, if_pos (show (1 : ℝ) < 2 by norm_num), hq, norm, hfl, divLam]
    norm_num

theorem dualNorm_nonneg (p : P) (y : Fin (n + 1) → ℝ) : 0 ≤ dualNorm p y := by
  cases p with
  | inf => exact norm_nonneg _ _
  | fin p =>
    simp only [dualNorm]
    split
    · exact norm_nonneg _ _
    · exact abs_nonneg _

theorem oracle_lmo {p : P} (hp : p = .inf ∨ p = .fin 1 ∨ p = .fin 2) (y s0 : Fin (n + 1) → ℝ) :
    IsLmo p none y (oracle p none y s0) := by
  rcases hp with rfl | rfl | rfl
  · exact C46_linf none (fun _ => by simp [wt]) _ _
  · exact C46_l1 none (fun _ => by simp [wt]) _ _
  · exact C46_lp_partial (by norm_num) (by norm_num) none (fun _ => by simp [wt]) _ _

/-- **C120** (partial) For `p` = 1, 2 or infinity the answer is an atom (supported on one group, in that group's unit
ball) and minimises the inner product with the gradient over the unit balls of all groups; groups may overlap. -/
theorem C120_groups_partial {p : P} (hp : p = .inf ∨ p = .fin 1 ∨ p = .fin 2) (G : Nat → Group dim) {nGroups : Nat}
    (hn : 0 < nGroups) (v : Fin dim → ℝ) :
    (∃ k, 1 ≤ k ∧ k ≤ nGroups ∧ InGroup p (G k) (groupOracle p G nGroups v)) ∧
      ∀ i, 1 ≤ i → i ≤ nGroups → ∀ y, InGroup p (G i) y → ∑ j, v j * groupOracle p G nGroups v j ≤ ∑ j, v j * y j := by
  obtain ⟨k1, k2, k3⟩ := C120_scan (dn := fun i => dualNorm p (restrict (G i) v)) (fun i => dualNorm_nonneg _ _) hn
  set k := (scan (fun i => dualNorm p (restrict (G i) v)) nGroups).1 with hk
  have hs : ∀ j, (∀ i, (G k).idx i ≠ j) → groupOracle p G nGroups v j = 0 := fun j hj => extend_other _ _ _ hj
  have hres : restrict (G k) (groupOracle p G nGroups v) = oracle p none (restrict (G k) v) fun _ => 0 := by
    funext i
    exact extend_idx _ _ _
  refine ⟨⟨k, k1, k2, hs, by rw [hres]; exact (oracle_lmo hp _ _).1⟩, ?_⟩
  intro i h1 h2 y hy
  rw [inner_group (G k) v _ hs, hres, dual_value hp, inner_group (G i) v y hy.1]
  refine le_trans ?_ ((oracle_lmo hp (restrict (G i) v) fun _ => 0).2 _ hy.2)
  rw [dual_value hp]
  exact neg_le_neg (k3 i h1 h2)

/-- Groups `{0, 1}` and `{2}`. -/
def pairGroup : Group 3 := ⟨1, ![0, 1], by decide⟩
def lastGroup : Group 3 := ⟨0, ![2], by decide⟩
def twoGroups (i : Nat) : Group 3 := if i = 2 then lastGroup else pairGroup

/-- **C120** (refuted) For `p = 3` the chosen group is wrong: the conjugate exponent 3/2 is truncated to 1. -/
theorem C120_groups_refuted :
    ¬ ∀ p : ℝ, 1 < p → ∀ v : Fin 3 → ℝ, ∀ y, InGroup (.fin p) lastGroup y →
      ∑ j, v j * groupOracle (.fin p) twoGroups 2 v j ≤ ∑ j, v j * y j := by
  intro h
  have h1 := h 3 (by norm_num) ![1, 1, 9 / 5] ![0, 0, -1] (by
    constructor
    · intro j hj
      fin_cases j
      · rfl
      · rfl
      · exact absurd rfl (hj 0)
    · change ∑ i : Fin 1, |1 * (![0, 0, -1] : Fin 3 → ℝ) (lastGroup.idx i)| ^ (3 : ℝ) ≤ 1
      simp [lastGroup])
  have hfl : ⌊(3 : ℝ)⌋₊ = 3 := by norm_num
  have hq : conj 3 = 3 / 2 := by unfold conj; norm_num
  have hflq : ⌊(3 / 2 : ℝ)⌋₊ = 1 := by rw [Nat.floor_eq_iff (by norm_num)]; norm_num
  have e1 : dualNorm (.fin 3) (restrict (twoGroups 1) ![1, 1, 9 / 5]) = 2 := by
    simp only [dualNorm, if_pos (show (1 : ℝ) < 3 by norm_num), hq, hflq, norm]
    change (∑ i : Fin 2, |(![1, 1, 9 / 5] : Fin 3 → ℝ) (pairGroup.idx i)| ^ ((1 : ℕ) : ℝ)) ^ (1 / ((1 : ℕ) : ℝ)) = 2
    rw [Fin.sum_univ_two]
    simp [pairGroup]
    norm_num
  have e2 : dualNorm (.fin 3) (restrict (twoGroups 2) ![1, 1, 9 / 5]) = 9 / 5 := by
    simp only [dualNorm, if_pos (show (1 : ℝ) < 3 by norm_num), hq, hflq, norm]
    change (∑ i : Fin 1, |(![1, 1, 9 / 5] : Fin 3 → ℝ) (lastGroup.idx i)| ^ ((1 : ℕ) : ℝ)) ^ (1 / ((1 : ℕ) : ℝ)) = 9 / 5
    simp [lastGroup]
    norm_num
  have hsc : (scan (fun i => dualNorm (.fin 3) (restrict (twoGroups i) ![1, 1, 9 / 5])) 2).1 = 1 := by
    unfold scan
    change ((List.foldl _ _ [1, 2] : Nat × ℝ)).1 = 1
    simp only [List.foldl_cons, List.foldl_nil, e1, e2]
    norm_num
  have hgo : groupOracle (.fin 3) twoGroups 2 ![1, 1, 9 / 5] =
      extend pairGroup (oracle (.fin 3) none (restrict pairGroup ![1, 1, 9 / 5]) fun _ => 0) := by
    unfold groupOracle
    dsimp only
    rw [hsc]
    rfl
  have hsupp : ∀ j, (∀ i, pairGroup.idx i ≠ j) → groupOracle (.fin 3) twoGroups 2 ![1, 1, 9 / 5] j = 0 := by
    intro j hj
    rw [hgo]
    exact extend_other _ _ _ hj
  have hres : restrict pairGroup (groupOracle (.fin 3) twoGroups 2 ![1, 1, 9 / 5]) =
      oracle (.fin 3) none (restrict pairGroup ![1, 1, 9 / 5]) fun _ => 0 := by
    funext i
    rw [hgo]
    exact extend_idx pairGroup _ i
  rw [inner_group pairGroup _ _ hsupp, hres, lp_value (by norm_num) (by rw [hfl]; norm_num) (fun i => by simp [wt])] at h1
  have e3 : ∑ i, |divLam none (restrict pairGroup ![1, 1, 9 / 5]) i| ^ conj 3 = (2 : ℝ) := by
    change ∑ i : Fin 2, |(![1, 1, 9 / 5] : Fin 3 → ℝ) (pairGroup.idx i)| ^ conj 3 = (2 : ℝ)
    rw [Fin.sum_univ_two]
    simp [pairGroup]
    norm_num
  rw [e3, hq, Fin.sum_univ_three] at h1
  simp at h1
  have h2 : ((2 : ℝ) ^ (2 / 3 : ℝ)) ^ 3 = 4 := by
    rw [← Real.rpow_natCast, ← Real.rpow_mul (by norm_num)]
    norm_num
  have h3 : (9 / 5 : ℝ) ≤ 2 ^ (2 / 3 : ℝ) := by
    have e : (3 / 2 : ℝ)⁻¹ = 2 / 3 := by norm_num
    linarith
  have h4 : (9 / 5 : ℝ) ^ 3 ≤ (2 ^ (2 / 3 : ℝ)) ^ 3 := pow_le_pow_left₀ (by norm_num) h3 3
  rw [h2] at h4
  norm_num at h4

example : ∃ k, 1 ≤ k ∧ k ≤ 2 ∧ InGroup (.fin 2) (twoGroups k) (groupOracle (.fin 2) twoGroups 2 ![1, 1, 9 / 5]) :=
  (C120_groups_partial (.inr (.inr rfl)) twoGroups (by norm_num) _).1

end Ens.Fw.Lp
