import Mathlib.Analysis.SpecificLimits.Normed
import Verif.Converge.AmsGrad

/-
C259, C261, the calculation: a policy on the functions `n x, -x, ..., -x` (`n` functions, their sum is `x`), one at a time, clipped
to [0, 4].  The large gradient makes the denominator of Adam and its variants large; by the time of the small gradients it has
decayed, so they move the point further than the large one.
-/

namespace Ens.Converge

open Ens.Sgd Ens.Update Filter

variable {S : Type} {P : Policy S} {a U : ℝ} {n h : Nat} {drop rise : Nat → ℝ}

/-- Gradient of function `j`. -/
def saw (n j : Nat) : ℝ := if j = 0 then n else -1

theorem saw_abs (hn : 0 < n) (j : Nat) : -1 ≤ saw n j ∧ saw n j ≤ n ∧ saw n j * saw n j ≤ (n : ℝ) ^ 2 ∧
    1 ≤ saw n j * saw n j := by
  have hn' : (1 : ℝ) ≤ n := by exact_mod_cast hn
  unfold saw
  split_ifs
  · exact ⟨by linarith, le_rfl, by nlinarith, by nlinarith⟩
  · exact ⟨le_rfl, by linarith, by nlinarith, by norm_num⟩

theorem saw_first (n p : Nat) : saw n ((p * n + 0) % n) = n := by simp [saw]

theorem saw_later {i : Nat} (p : Nat) (hi : i + 1 < n) : saw n ((p * n + (i + 1)) % n) = -1 := by
  rw [Nat.mul_add_mod_self_right, Nat.mod_eq_of_lt hi]
  simp [saw]

/-- State of the policy and point after `t` visits, from the point 4. -/
noncomputable def sawRun (P : Policy S) (a : ℝ) (n : Nat) : Nat → S × ℝ
  | 0 => (P.init, 4)
  | t + 1 =>
    let r := P.update (sawRun P a n t).1 a (saw n (t % n)) (sawRun P a n t).2
    (r.1, max 0 (min 4 r.2))

/-- Bounds on the moves within every period: down by at most `a (drop i - rise i)`, up by at most `a U`, and `rise` wins. -/
structure Sawtooth (P : Policy S) (n : Nat) (drop rise : Nat → ℝ) (U : ℝ) : Prop where
  pos : 0 < n
  drop0 : ∀ i, 0 ≤ drop i
  rise0 : ∀ i, 0 ≤ rise i
  up0 : 0 ≤ U
  sum : ∑ i ∈ Finset.range n, drop i ≤ ∑ i ∈ Finset.range n, rise i
  lo : ∀ a p i, 0 < a → i < n → (sawRun P a n (p * n + i)).2 - a * drop i + a * rise i ≤
    (P.update (sawRun P a n (p * n + i)).1 a (saw n ((p * n + i) % n)) (sawRun P a n (p * n + i)).2).2
  hi : ∀ a p i, 0 < a → i < n →
    (P.update (sawRun P a n (p * n + i)).1 a (saw n ((p * n + i) % n)) (sawRun P a n (p * n + i)).2).2 ≤
      (sawRun P a n (p * n + i)).2 + a * U

theorem saw_box : ∀ t, 0 ≤ (sawRun P a n t).2 ∧ (sawRun P a n t).2 ≤ 4
  | 0 => by simp [sawRun]
  | t + 1 => ⟨le_max_left _ _, max_le (by norm_num) (min_le_left _ _)⟩

theorem saw_within (hs : Sawtooth P n drop rise U) (ha : 0 < a) {p : Nat} : ∀ i ≤ n,
    min ((sawRun P a n (p * n)).2 - a * ∑ j ∈ Finset.range i, drop j + a * ∑ j ∈ Finset.range i, rise j)
      (4 - a * ∑ j ∈ Finset.range i, drop j) ≤ (sawRun P a n (p * n + i)).2 := by
  intro i
  induction i with
  | zero => intro _; simp
  | succ i ih =>
    intro hi
    have h1 := ih (by omega)
    have h2 := hs.lo a p i ha (by omega)
    have h3 := mul_nonneg ha.le (hs.drop0 i)
    have h4 := mul_nonneg ha.le (hs.rise0 i)
    have h5 : 0 ≤ a * ∑ j ∈ Finset.range i, drop j := mul_nonneg ha.le (Finset.sum_nonneg fun j _ => hs.drop0 j)
    rw [Finset.sum_range_succ, Finset.sum_range_succ, mul_add, mul_add]
    have h6 : min 4 ((sawRun P a n (p * n + i)).2 - a * drop i + a * rise i) ≤ (sawRun P a n (p * n + (i + 1))).2 :=
      le_max_of_le_right (min_le_min_left _ h2)
    refine le_trans (le_min ?_ ?_) h6
    · exact (min_le_right _ _).trans (by linarith)
    · rcases min_le_iff.1 h1 with h6 | h6
      · exact (min_le_left _ _).trans (by linarith)
      · exact (min_le_right _ _).trans (by linarith)

/-- At the beginning of every period the point is at least 3. -/
theorem saw_high (hs : Sawtooth P n drop rise U) (ha : 0 < a) (hd : a * ∑ j ∈ Finset.range n, drop j ≤ 1) (p : Nat) :
    3 ≤ (sawRun P a n (p * n)).2 := by
  induction p with
  | zero => simp [sawRun]; norm_num
  | succ p ih =>
    have h1 := saw_within hs ha (p := p) n le_rfl
    have h2 := mul_le_mul_of_nonneg_left hs.sum ha.le
    rw [Nat.add_mul, Nat.one_mul]
    refine le_trans (le_min ?_ ?_) h1 <;> linarith

theorem saw_drift (hs : Sawtooth P n drop rise U) (ha : 0 < a) (p : Nat) : ∀ i ≤ n,
    (sawRun P a n (p * n + i)).2 ≤ (sawRun P a n (p * n)).2 + i * (a * U) := by
  intro i
  induction i with
  | zero => intro _; simp
  | succ i ih =>
    intro hi
    have h1 := ih (by omega)
    have h2 := hs.hi a p i ha (by omega)
    have h3 := (saw_box (P := P) (a := a) (n := n) (p * n + i)).1
    have h4 := mul_nonneg ha.le hs.up0
    have h5 : (sawRun P a n (p * n + (i + 1))).2 ≤ (sawRun P a n (p * n + i)).2 + a * U :=
      max_le (by linarith) ((min_le_right _ _).trans h2)
    push_cast
    linarith

/-- The losses of a period add up to at least 2 (the minimum of the sum on [0, 4] is 0). -/
theorem saw_loss (hs : Sawtooth P n drop rise U) (ha : 0 < a) (hd : a * ∑ j ∈ Finset.range n, drop j ≤ 1)
    (hu : (n : ℝ) ^ 2 * (a * U) ≤ 1) (p : Nat) : 2 ≤ ∑ i ∈ Finset.range n, saw n i * (sawRun P a n (p * n + i)).2 := by
  have hn := hs.pos
  obtain ⟨l, rfl⟩ : ∃ l, n = l + 1 := ⟨n - 1, by omega⟩
  have h3 := saw_high hs ha hd p
  have hδ0 : 0 ≤ a * U := mul_nonneg ha.le hs.up0
  set δ := a * U with hδ
  set y := (sawRun P a (l + 1) (p * (l + 1))).2 with hy
  rw [Finset.sum_range_succ']
  have e0 : saw (l + 1) 0 * (sawRun P a (l + 1) (p * (l + 1) + 0)).2 = (l + 1) * y := by simp [saw, hy]
  rw [e0]
  have h4 : -((l : ℝ) * (y + l * δ)) ≤ ∑ i ∈ Finset.range l, saw (l + 1) (i + 1) * (sawRun P a (l + 1) (p * (l + 1) + (i + 1))).2 := by
    have : ∀ i ∈ Finset.range l, -(y + l * δ) ≤ saw (l + 1) (i + 1) * (sawRun P a (l + 1) (p * (l + 1) + (i + 1))).2 := by
      intro i hi
      have hi' := Finset.mem_range.1 hi
      have h5 := saw_drift hs ha p (i + 1) (by omega)
      have h6 : ((i + 1 : Nat) : ℝ) ≤ l := by exact_mod_cast hi'
      have h7 := mul_le_mul_of_nonneg_right h6 hδ0
      have h8 : saw (l + 1) (i + 1) = -1 := by simp [saw]
      rw [h8]
      linarith
    have := Finset.card_nsmul_le_sum _ _ _ this
    rw [Finset.card_range, nsmul_eq_mul] at this
    linarith
  push_cast at hu
  have hl0 : (0 : ℝ) ≤ l := by positivity
  nlinarith [mul_nonneg hl0 hδ0]

theorem saw_total (hs : Sawtooth P n drop rise U) (ha : 0 < a) (hd : a * ∑ j ∈ Finset.range n, drop j ≤ 1)
    (hu : (n : ℝ) ^ 2 * (a * U) ≤ 1) (E : Nat) :
    2 * (E : ℝ) ≤ ∑ t ∈ Finset.range (E * n), saw n (t % n) * (sawRun P a n t).2 := by
  induction E with
  | zero => simp
  | succ E ih =>
    rw [Nat.add_mul, Nat.one_mul, Finset.sum_range_add]
    have h1 := saw_loss hs ha hd hu E
    have h2 : ∑ i ∈ Finset.range n, saw n ((E * n + i) % n) * (sawRun P a n (E * n + i)).2 =
        ∑ i ∈ Finset.range n, saw n i * (sawRun P a n (E * n + i)).2 :=
      Finset.sum_congr rfl fun i hi => by
        rw [Nat.mul_add_mod_self_right, Nat.mod_eq_of_lt (Finset.mem_range.1 hi)]
    rw [h2]
    push_cast
    linarith

/-! ### The moments -/

/-- Running average of the gradients. -/
noncomputable def emaSaw (β : ℝ) (n : Nat) : Nat → ℝ
  | 0 => 0
  | t + 1 => emaSaw β n t * β + (1 - β) * saw n (t % n)

/-- Running average of their squares. -/
noncomputable def sqSaw (β : ℝ) (n : Nat) : Nat → ℝ
  | 0 => 0
  | t + 1 => sqSaw β n t * β + (1 - β) * (saw n (t % n) * saw n (t % n))

/-- Decaying maximum of their absolute values. -/
noncomputable def maxSaw (β : ℝ) (n : Nat) : Nat → ℝ
  | 0 => 0
  | t + 1 => max (maxSaw β n t * β) |saw n (t % n)|

variable {β : ℝ}

theorem ema_bounds (h0 : 0 ≤ β) (h1 : β < 1) (hn : 0 < n) (t : Nat) :
    -(1 - β ^ t) ≤ emaSaw β n t ∧ emaSaw β n t ≤ n := by
  induction t with
  | zero => simp [emaSaw]
  | succ t ih =>
    obtain ⟨g1, g2, -, -⟩ := saw_abs hn (t % n)
    simp only [emaSaw, pow_succ]
    constructor <;> nlinarith

theorem ema_period (h0 : 0 ≤ β) (h1 : β < 1) (p : Nat) : ∀ i < n,
    emaSaw β n (p * n + i + 1) ≤ β ^ i * (n + 1) - (1 - β ^ (p * n + i + 1)) := by
  intro i
  induction i with
  | zero =>
    intro hn
    have i2 := (ema_bounds h0 h1 hn (p * n)).2
    have e : emaSaw β n (p * n + 0 + 1) = emaSaw β n (p * n + 0) * β + (1 - β) * saw n ((p * n + 0) % n) := rfl
    rw [e, saw_first, Nat.add_zero]
    have := pow_nonneg h0 (p * n + 1)
    rw [pow_zero]
    nlinarith
  | succ i ih =>
    intro hi
    have j := ih (by omega)
    have e : emaSaw β n (p * n + (i + 1) + 1) =
        emaSaw β n (p * n + i + 1) * β + (1 - β) * saw n ((p * n + (i + 1)) % n) := rfl
    rw [e, saw_later p hi, pow_succ β i, show p * n + (i + 1) + 1 = (p * n + i + 1) + 1 by omega, pow_succ β (p * n + i + 1)]
    nlinarith [mul_le_mul_of_nonneg_right j h0]

theorem sq_bounds (h0 : 0 ≤ β) (h1 : β < 1) (hn : 0 < n) (t : Nat) :
    1 - β ^ t ≤ sqSaw β n t ∧ sqSaw β n t ≤ (n : ℝ) ^ 2 := by
  induction t with
  | zero => simp [sqSaw]
  | succ t ih =>
    obtain ⟨-, -, g3, g4⟩ := saw_abs hn (t % n)
    simp only [sqSaw, pow_succ]
    constructor <;> nlinarith

theorem sq_nonneg' (h0 : 0 ≤ β) (h1 : β < 1) (hn : 0 < n) (t : Nat) : 0 ≤ sqSaw β n t := by
  have := (sq_bounds h0 h1 hn t).1
  have := pow_le_one₀ (n := t) h0 h1.le
  linarith

theorem sq_period (h0 : 0 ≤ β) (h1 : β < 1) (p : Nat) : ∀ i < n,
    β ^ i * ((1 - β) * (n : ℝ) ^ 2) ≤ sqSaw β n (p * n + i + 1) ∧
    sqSaw β n (p * n + i + 1) ≤ β ^ i * (n : ℝ) ^ 2 + (1 - β ^ (p * n + i + 1)) := by
  intro i
  induction i with
  | zero =>
    intro hn
    obtain ⟨-, i2⟩ := sq_bounds h0 h1 hn (p * n)
    have i1 := sq_nonneg' h0 h1 hn (p * n)
    have e : sqSaw β n (p * n + 0 + 1) =
        sqSaw β n (p * n + 0) * β + (1 - β) * (saw n ((p * n + 0) % n) * saw n ((p * n + 0) % n)) := rfl
    rw [e, saw_first, Nat.add_zero]
    have := pow_le_one₀ (n := p * n + 1) h0 h1.le
    rw [pow_zero]
    have := mul_nonneg i1 h0
    constructor <;> nlinarith
  | succ i ih =>
    intro hi
    obtain ⟨j2, j3⟩ := ih (by omega)
    have e : sqSaw β n (p * n + (i + 1) + 1) = sqSaw β n (p * n + i + 1) * β +
        (1 - β) * (saw n ((p * n + (i + 1)) % n) * saw n ((p * n + (i + 1)) % n)) := rfl
    rw [e, saw_later p hi, pow_succ β i, show p * n + (i + 1) + 1 = (p * n + i + 1) + 1 by omega, pow_succ β (p * n + i + 1)]
    constructor
    · nlinarith [mul_le_mul_of_nonneg_right j2 h0]
    · nlinarith [mul_le_mul_of_nonneg_right j3 h0]

theorem max_bounds (h0 : 0 ≤ β) (h1 : β < 1) (hn : 0 < n) (t : Nat) : 0 ≤ maxSaw β n t ∧ maxSaw β n t ≤ n := by
  have hn' : (1 : ℝ) ≤ n := by exact_mod_cast hn
  induction t with
  | zero => simp [maxSaw]
  | succ t ih =>
    obtain ⟨g1, g2, -, -⟩ := saw_abs hn (t % n)
    exact ⟨le_max_of_le_right (abs_nonneg _), max_le (by nlinarith [ih.1, ih.2]) (abs_le.2 ⟨by linarith, g2⟩)⟩

theorem max_period (h0 : 0 ≤ β) (h1 : β < 1) (p : Nat) : ∀ i < n,
    β ^ i * (n : ℝ) ≤ maxSaw β n (p * n + i + 1) ∧ maxSaw β n (p * n + i + 1) ≤ β ^ i * (n : ℝ) + 1 := by
  intro i
  induction i with
  | zero =>
    intro hn
    obtain ⟨i1, i2⟩ := max_bounds h0 h1 hn (p * n)
    have e : maxSaw β n (p * n + 0 + 1) = max (maxSaw β n (p * n + 0) * β) |saw n ((p * n + 0) % n)| := rfl
    have hn' : (0 : ℝ) ≤ n := by positivity
    rw [e, saw_first, Nat.add_zero, abs_of_nonneg hn', pow_zero, one_mul]
    exact ⟨le_max_right _ _, max_le (by nlinarith) (by linarith)⟩
  | succ i ih =>
    intro hi
    obtain ⟨j2, j3⟩ := ih (by omega)
    have e : maxSaw β n (p * n + (i + 1) + 1) =
        max (maxSaw β n (p * n + i + 1) * β) |saw n ((p * n + (i + 1)) % n)| := rfl
    rw [e, saw_later p hi, pow_succ β i, abs_neg, abs_one]
    have hp : 0 ≤ β ^ i * β * n := by positivity
    refine ⟨le_max_of_le_left (by nlinarith [mul_le_mul_of_nonneg_right j2 h0]), max_le ?_ (by linarith)⟩
    nlinarith [mul_le_mul_of_nonneg_right j3 h0]

/-! ### Quotients -/

/-- Numerators that shrink like `β ^ i` over denominators that shrink like `κ ^ i` but not below `ε`: their sum over a period is
small compared with the length of the period. -/
theorem sum_small {β κ A c ε θ : ℝ} (h0 : 0 ≤ β) (h1 : β < 1) (hκ : 0 < κ) (hκ' : κ ≤ 1) (hA : 0 ≤ A) (hc : 0 < c) (hε : 0 < ε)
    (hθ : 0 < θ) : ∀ᶠ h : Nat in atTop,
      ∑ i ∈ Finset.range (4 * h), A * (β ^ i * (4 * h : Nat)) / max (κ ^ i * (c * (4 * h : Nat))) ε ≤ h * θ := by
  have h2 : 0 < 1 - β := by linarith
  obtain ⟨k, hk⟩ : ∃ k : Nat, β ^ k < θ / 2 * ((1 - β) * ε / (4 * (A + 1))) := exists_pow_lt_of_lt_one (by positivity) h1
  set B := A / (κ ^ k * c) with hB
  have e3 : ∀ᶠ h : Nat in atTop, k * B ≤ h * (θ / 2) :=
    ((tendsto_natCast_atTop_atTop (R := ℝ)).atTop_mul_const (by positivity : 0 < θ / 2)).eventually_ge_atTop _
  refine (e3.and (eventually_ge_atTop (k + 1))).mono fun h ⟨hh3, hh4⟩ => ?_
  set n := 4 * h with hnd
  have hn' : (0 : ℝ) < n := by exact_mod_cast (by omega : 0 < n)
  obtain ⟨l, hl⟩ : ∃ l, n = k + l := ⟨n - k, by omega⟩
  have early : ∀ i ∈ Finset.range k, A * (β ^ i * n) / max (κ ^ i * (c * n)) ε ≤ B := by
    intro i hi
    have hi' := (Finset.mem_range.1 hi).le
    have d1 : β ^ i * n ≤ n := by
      have := pow_le_one₀ (n := i) h0 h1.le
      nlinarith
    have d2 : κ ^ k * (c * n) ≤ max (κ ^ i * (c * n)) ε :=
      le_max_of_le_left (mul_le_mul_of_nonneg_right (pow_le_pow_of_le_one hκ.le hκ' hi') (by positivity))
    calc _ ≤ A * n / (κ ^ k * (c * n)) := div_le_div₀ (by positivity) (mul_le_mul_of_nonneg_left d1 hA) (by positivity) d2
      _ = B := by rw [hB]; field_simp
  have c1 : ∑ i ∈ Finset.range k, A * (β ^ i * n) / max (κ ^ i * (c * n)) ε ≤ k * B := by
    refine (Finset.sum_le_card_nsmul _ _ B early).trans (le_of_eq ?_)
    rw [Finset.card_range, nsmul_eq_mul]
  have c2 : ∑ i ∈ Finset.range l, A * (β ^ (k + i) * n) / max (κ ^ (k + i) * (c * n)) ε ≤ A * n / ((1 - β) * ε) * β ^ k := by
    have d1 : ∀ i ∈ Finset.range l, A * (β ^ (k + i) * n) / max (κ ^ (k + i) * (c * n)) ε ≤ A * n / ε * β ^ k * β ^ i := by
      intro i _
      refine (div_le_div_of_nonneg_left (by positivity) hε (le_max_right _ _)).trans (le_of_eq ?_)
      rw [pow_add]; ring
    refine (Finset.sum_le_sum d1).trans ?_
    rw [← Finset.mul_sum]
    have d2 : ∑ i ∈ Finset.range l, β ^ i ≤ 1 / (1 - β) := by
      rw [le_div_iff₀ h2]
      have := geom_sum_mul_neg β l
      have := pow_nonneg h0 l
      linarith
    calc _ ≤ A * n / ε * β ^ k * (1 / (1 - β)) := mul_le_mul_of_nonneg_left d2 (by positivity)
      _ = _ := by field_simp
  have c3 : A * n / ((1 - β) * ε) * β ^ k ≤ h * (θ / 2) := by
    have hh : (0 : ℝ) ≤ h := by positivity
    calc _ ≤ A * n / ((1 - β) * ε) * (θ / 2 * ((1 - β) * ε / (4 * (A + 1)))) := mul_le_mul_of_nonneg_left hk.le (by positivity)
      _ = h * (θ / 2) * (A / (A + 1)) := by rw [hnd]; push_cast; field_simp
      _ ≤ h * (θ / 2) * 1 := mul_le_mul_of_nonneg_left ((div_le_one (by linarith)).2 (by linarith)) (by positivity)
      _ = _ := mul_one _
  have c4 : ∑ i ∈ Finset.range n, A * (β ^ i * n) / max (κ ^ i * (c * n)) ε =
      ∑ i ∈ Finset.range k, A * (β ^ i * n) / max (κ ^ i * (c * n)) ε +
        ∑ i ∈ Finset.range l, A * (β ^ (k + i) * n) / max (κ ^ (k + i) * (c * n)) ε := by
    conv_lhs => rw [show Finset.range n = Finset.range (k + l) by rw [hl]]
    rw [Finset.sum_range_add]
  rw [c4]
  linarith

/-- The last three quarters of a period. -/
theorem late_sum (h : Nat) (q : ℝ) : ∑ i ∈ Finset.range (4 * h), (if h ≤ i then q else 0) = h * (3 * q) := by
  have : Finset.range (4 * h) = Finset.range (h + 3 * h) := by congr 1; omega
  rw [this, Finset.sum_range_add]
  have h1 : ∑ x ∈ Finset.range h, (if h ≤ x then q else 0) = 0 :=
    Finset.sum_eq_zero fun x hx => if_neg (by have := Finset.mem_range.1 hx; omega)
  have h2 : ∑ x ∈ Finset.range (3 * h), (if h ≤ h + x then q else 0) = h * (3 * q) := by
    rw [Finset.sum_congr rfl fun x _ => if_pos (Nat.le_add_right h x), Finset.sum_const, Finset.card_range, nsmul_eq_mul]
    push_cast
    ring
  rw [h1, h2, zero_add]

/-- A policy whose moves are `a num / den` with bounds as for Adam. -/
structure Quotient (P : Policy S) (β κ A c ε q Dm B : ℝ) (num den : Nat → Nat → ℝ) : Prop where
  b0 : 0 ≤ β
  b1 : β < 1
  k0 : 0 < κ
  k1 : κ ≤ 1
  A0 : 0 ≤ A
  c0 : 0 < c
  e0 : 0 < ε
  q0 : 0 < q
  D0 : 0 < Dm
  B0 : 0 ≤ B
  upd : ∀ n a t, (P.update (sawRun P a n t).1 a (saw n (t % n)) (sawRun P a n t).2).2 =
    (sawRun P a n t).2 - a * (num n t / den n t)
  num_le : ∀ᶠ h in atTop, ∀ p i, i < 4 * h → num (4 * h) (p * (4 * h) + i) ≤ A * (β ^ i * (4 * h : Nat))
  num_ge : ∀ᶠ h in atTop, ∀ p i, i < 4 * h → -B ≤ num (4 * h) (p * (4 * h) + i)
  den_ge : ∀ᶠ h in atTop, ∀ p i, i < 4 * h → max (κ ^ i * (c * (4 * h : Nat))) ε ≤ den (4 * h) (p * (4 * h) + i)
  late : ∀ᶠ h in atTop, ∀ p i, i < 4 * h → h ≤ i → num (4 * h) (p * (4 * h) + i) ≤ -q ∧ den (4 * h) (p * (4 * h) + i) ≤ Dm

theorem sawtooth_of_quotient {β κ A c ε q Dm B : ℝ} {num den : Nat → Nat → ℝ} (H : Quotient P β κ A c ε q Dm B num den) :
    ∃ n drop rise U, Sawtooth P n drop rise U := by
  have hq := H.q0
  have hD := H.D0
  have hA := H.A0
  have hβ := H.b0
  have hκ := H.k0
  have hc := H.c0
  have hε := H.e0
  have hB := H.B0
  obtain ⟨h, ⟨⟨⟨⟨⟨s1, s2⟩, s3⟩, s4⟩, s5⟩, s6⟩⟩ := ((((((sum_small H.b0 H.b1 H.k0 H.k1 H.A0 H.c0 H.e0
    (by positivity : 0 < 3 * (q / Dm))).and H.num_le).and H.num_ge).and H.den_ge).and H.late).and (eventually_ge_atTop 1)).exists
  refine ⟨4 * h, fun i => A * (β ^ i * (4 * h : Nat)) / max (κ ^ i * (c * (4 * h : Nat))) ε, fun i => if h ≤ i then q / Dm else 0,
    B / ε, by omega, fun i => by positivity, fun i => by split_ifs <;> positivity, by positivity, ?_, ?_, ?_⟩
  · rw [late_sum]
    exact s1
  · intro a p i ha hi
    rw [H.upd]
    have d0 : 0 < max (κ ^ i * (c * (4 * h : Nat))) ε := lt_max_of_lt_right hε
    have d1 := s4 p i hi
    have d2 := d0.trans_le d1
    have d3 := s2 p i hi
    set N := num (4 * h) (p * (4 * h) + i)
    set D := den (4 * h) (p * (4 * h) + i)
    set X := A * (β ^ i * (4 * h : Nat)) / max (κ ^ i * (c * (4 * h : Nat))) ε with hX
    have hX0 : 0 ≤ X := by rw [hX]; positivity
    have key : N / D ≤ X - (if h ≤ i then q / Dm else 0) := by
      split_ifs with hh
      · obtain ⟨l1, l2⟩ := s5 p i hi hh
        have : N / D ≤ -(q / Dm) := by
          rw [← neg_div, div_le_div_iff₀ d2 hD]
          nlinarith
        linarith
      · rw [sub_zero]
        calc N / D ≤ A * (β ^ i * (4 * h : Nat)) / D := div_le_div_of_nonneg_right d3 d2.le
          _ ≤ X := div_le_div_of_nonneg_left (by positivity) d0 d1
    have := mul_le_mul_of_nonneg_left key ha.le
    rw [mul_sub] at this
    linarith
  · intro a p i ha hi
    rw [H.upd]
    have d1 := (le_max_right _ _).trans (s4 p i hi)
    have d3 := s3 p i hi
    set N := num (4 * h) (p * (4 * h) + i)
    set D := den (4 * h) (p * (4 * h) + i)
    have : -(N / D) ≤ B / ε := by
      rw [← neg_div]
      exact div_le_div₀ hB (by linarith) hε d1
    have := mul_le_mul_of_nonneg_left this ha.le
    linarith

/-! ### Late in a period -/

theorem tendsto_pow_four {β : ℝ} (h0 : 0 ≤ β) (h1 : β < 1) (k : Nat) {δ : ℝ} (hδ : 0 < δ) :
    ∀ᶠ h : Nat in atTop, β ^ h * ((4 * h : Nat) + 1 : ℝ) ^ k ≤ δ := by
  have e := (tendsto_pow_const_mul_const_pow_of_abs_lt_one k (r := β) (by rw [abs_of_nonneg h0]; exact h1)).const_mul (5 ^ k)
  rw [mul_zero] at e
  refine ((e.eventually_le_const hδ).and (eventually_ge_atTop 1)).mono fun h ⟨hh, hh1⟩ => ?_
  have h2 : ((4 * h : Nat) + 1 : ℝ) ≤ 5 * h := by
    have : (1 : ℝ) ≤ h := by exact_mod_cast hh1
    push_cast
    linarith
  calc β ^ h * ((4 * h : Nat) + 1 : ℝ) ^ k ≤ β ^ h * (5 * h) ^ k :=
        mul_le_mul_of_nonneg_left (pow_le_pow_left₀ (by positivity) h2 k) (by positivity)
    _ = 5 ^ k * ((h : ℝ) ^ k * β ^ h) := by rw [mul_pow]; ring
    _ ≤ δ := hh

/-- The average of the gradients, with bias correction or without, is close to -1. -/
theorem ema_late {β : ℝ} (h0 : 0 ≤ β) (h1 : β < 1) {δ : ℝ} (hδ : 0 < δ) : ∀ᶠ h : Nat in atTop, ∀ p i, i < 4 * h → h ≤ i →
    emaSaw β (4 * h) (p * (4 * h) + i + 1) ≤ -(1 - δ) ∧
    emaSaw β (4 * h) (p * (4 * h) + i + 1) / (1 - β ^ (p * (4 * h) + i + 1)) ≤ -(1 - δ) := by
  have hb : 0 < 1 - β := by linarith
  refine ((tendsto_pow_four h0 h1 1 (by positivity : 0 < δ * (1 - β) / 2)).and (eventually_ge_atTop 1)).mono
    fun h ⟨hh, hh1⟩ p i hi hhi => ?_
  have k1 := ema_period h0 h1 p i hi
  have k2 : β ^ i ≤ β ^ h := pow_le_pow_of_le_one h0 h1.le hhi
  set t := p * (4 * h) + i + 1 with ht
  have k3 : β ^ t ≤ β ^ h := pow_le_pow_of_le_one h0 h1.le (by omega)
  have k4 : β ^ t ≤ β := pow_le_of_le_one h0 h1.le (by omega)
  have k5 : 0 ≤ β ^ t := pow_nonneg h0 t
  have k6 : 0 ≤ β ^ h := pow_nonneg h0 h
  rw [pow_one] at hh
  have hN : (0 : ℝ) ≤ (4 * h : Nat) := by positivity
  have k7 : β ^ i * ((4 * h : Nat) + 1 : ℝ) ≤ δ * (1 - β) / 2 := (mul_le_mul_of_nonneg_right k2 (by linarith)).trans hh
  have k8 : β ^ h ≤ δ * (1 - β) / 2 := by nlinarith
  have k9 : δ * (1 - β) ≤ δ := by nlinarith
  constructor
  · linarith
  · rw [div_le_iff₀ (by linarith)]
    have : δ * (1 - β) ≤ δ * (1 - β ^ t) := mul_le_mul_of_nonneg_left (by linarith) hδ.le
    nlinarith

/-- The average of the squares, with bias correction or without, is close to 1. -/
theorem sq_late {β : ℝ} (h0 : 0 ≤ β) (h1 : β < 1) {δ : ℝ} (hδ : 0 < δ) : ∀ᶠ h : Nat in atTop, ∀ p i, i < 4 * h → h ≤ i →
    sqSaw β (4 * h) (p * (4 * h) + i + 1) ≤ 1 + δ ∧
    sqSaw β (4 * h) (p * (4 * h) + i + 1) / (1 - β ^ (p * (4 * h) + i + 1)) ≤ 1 + δ := by
  have hb : 0 < 1 - β := by linarith
  refine ((tendsto_pow_four h0 h1 2 (by positivity : 0 < δ * (1 - β))).and (eventually_ge_atTop 1)).mono
    fun h ⟨hh, hh1⟩ p i hi hhi => ?_
  have k1 := (sq_period h0 h1 p i hi).2
  have k2 : β ^ i ≤ β ^ h := pow_le_pow_of_le_one h0 h1.le hhi
  set t := p * (4 * h) + i + 1 with ht
  have k4 : β ^ t ≤ β := pow_le_of_le_one h0 h1.le (by omega)
  have k5 : 0 ≤ β ^ t := pow_nonneg h0 t
  have hN : (0 : ℝ) ≤ (4 * h : Nat) := by positivity
  have k6 : ((4 * h : Nat) : ℝ) ^ 2 ≤ ((4 * h : Nat) + 1 : ℝ) ^ 2 := pow_le_pow_left₀ hN (by linarith) 2
  have k7 : β ^ i * ((4 * h : Nat) : ℝ) ^ 2 ≤ δ * (1 - β) :=
    (mul_le_mul k2 k6 (by positivity) (pow_nonneg h0 h)).trans hh
  have k9 : δ * (1 - β) ≤ δ := by nlinarith
  constructor
  · linarith
  · rw [div_le_iff₀ (by linarith)]
    have : δ * (1 - β) ≤ δ * (1 - β ^ t) := mul_le_mul_of_nonneg_left (by linarith) hδ.le
    linarith

theorem max_late {β : ℝ} (h0 : 0 ≤ β) (h1 : β < 1) : ∀ᶠ h : Nat in atTop, ∀ p i, i < 4 * h → h ≤ i →
    maxSaw β (4 * h) (p * (4 * h) + i + 1) ≤ 2 := by
  refine (tendsto_pow_four h0 h1 1 one_pos).mono fun h hh p i hi hhi => ?_
  have k1 := (max_period h0 h1 p i hi).2
  have k2 : β ^ i ≤ β ^ h := pow_le_pow_of_le_one h0 h1.le hhi
  rw [pow_one] at hh
  have hN : (0 : ℝ) ≤ (4 * h : Nat) := by positivity
  have k6 := pow_nonneg h0 h
  have k7 : β ^ i * ((4 * h : Nat) : ℝ) ≤ 1 := (mul_le_mul_of_nonneg_right k2 hN).trans (by nlinarith)
  linarith

/-- Early in a period: bounds in the form that `Quotient` wants. -/
theorem ema_early {β : ℝ} (h0 : 0 ≤ β) (h1 : β < 1) (p : Nat) {i : Nat} (hi : i < n) :
    emaSaw β n (p * n + i + 1) ≤ 2 * (β ^ i * n) ∧ -1 ≤ emaSaw β n (p * n + i + 1) := by
  have hn : 0 < n := by omega
  have hn' : (1 : ℝ) ≤ n := by exact_mod_cast hn
  have k1 := ema_period h0 h1 p i hi
  have k2 := (ema_bounds h0 h1 hn (p * n + i + 1)).1
  have k3 := pow_le_one₀ (n := p * n + i + 1) h0 h1.le
  have k4 := pow_nonneg h0 (p * n + i + 1)
  have k5 := pow_nonneg h0 i
  constructor <;> nlinarith

theorem sq_early {β : ℝ} (h0 : 0 ≤ β) (h1 : β < 1) (p : Nat) {i : Nat} (hi : i < n) :
    √β ^ i * (√(1 - β) * n) ≤ √(sqSaw β n (p * n + i + 1)) := by
  have hn' : (0 : ℝ) ≤ n := by positivity
  have h2 : 0 ≤ 1 - β := by linarith
  apply Real.le_sqrt_of_sq_le
  have := (sq_period h0 h1 p i hi).1
  calc (√β ^ i * (√(1 - β) * n)) ^ 2 = (√β ^ 2) ^ i * (√(1 - β) ^ 2 * (n : ℝ) ^ 2) := by ring
    _ = β ^ i * ((1 - β) * (n : ℝ) ^ 2) := by rw [Real.sq_sqrt h0, Real.sq_sqrt h2]
    _ ≤ _ := this

end Ens.Converge
