import Verif.Update.Model
import Mathlib.Tactic.Linarith
import Mathlib.Tactic.Positivity
import Mathlib.Tactic.Ring
import Mathlib.Tactic.NormNum
import Mathlib.Tactic.FieldSimp
import Mathlib.Algebra.Order.Field.Basic

/-
Property C57: second moments stay non-negative and the denominators of the updates positive.
-/

namespace Ens.Update

/-- The parameters of the documentation: `beta1`, `beta2` in `[0, 1)`, positive `epsilon`. -/
structure Betas.Ok (b : Betas) : Prop where
  b1 : 0 ≤ b.b1
  b1' : b.b1 < 1
  b2 : 0 ≤ b.b2
  b2' : b.b2 < 1
  eps : 0 < b.eps

/-- A property of the state kept by every update holds after any sequence. -/
theorem run_inv {S : Type} {P : Policy S} (I : S → Prop) (hstep : ∀ s a g x, I s → I (P.update s a g x).1) :
    ∀ (l : List (ℝ × ℝ)) (s : S) (x : ℝ), I s → I (run P s x l).1
  | [], _, _, h => h
  | (a, g) :: l, s, x, h => run_inv I hstep l _ _ (hstep s a g x h)

/-- The same when only some updates are allowed. -/
theorem run_inv' {S : Type} {P : Policy S} (I : S → Prop) (ok : ℝ × ℝ → Prop)
    (hstep : ∀ s a g x, ok (a, g) → I s → I (P.update s a g x).1) :
    ∀ (l : List (ℝ × ℝ)) (s : S) (x : ℝ), (∀ p ∈ l, ok p) → I s → I (run P s x l).1
  | [], _, _, _, h => h
  | (a, g) :: l, s, x, hl, h =>
    run_inv' I ok hstep l _ _ (fun p hp => hl p (List.mem_cons_of_mem _ hp)) (hstep s a g x (hl _ (List.mem_cons_self ..)) h)

/-- The last update. -/
theorem run_append {S : Type} (P : Policy S) : ∀ (l₁ l₂ : List (ℝ × ℝ)) (s : S) (x : ℝ),
    run P s x (l₁ ++ l₂) = run P (run P s x l₁).1 (run P s x l₁).2 l₂
  | [], _, _, _ => rfl
  | (a, g) :: l₁, l₂, s, x => by simp only [List.cons_append, run]; exact run_append P l₁ l₂ _ _

theorem bias_pos {b : ℝ} (h0 : 0 ≤ b) (h1 : b < 1) (t : Nat) : 0 < 1 - b ^ (t + 1) := by
  have := pow_lt_one₀ h0 h1 (Nat.add_one_ne_zero t)
  linarith

theorem bias_le {b : ℝ} (h0 : 0 ≤ b) (t : Nat) : 1 - b ^ t ≤ 1 := by
  have := pow_nonneg h0 t
  linarith

theorem ema_nonneg {v b g : ℝ} (hv : 0 ≤ v) (h0 : 0 ≤ b) (h1 : b < 1) : 0 ≤ v * b + (1 - b) * (g * g) := by
  have h1 : 0 ≤ 1 - b := by linarith
  have h2 := mul_self_nonneg g
  positivity

theorem sqrt_add_pos {v e : ℝ} (he : 0 < e) : 0 < √v + e := by
  have := Real.sqrt_nonneg v
  linarith

/-- What an update needs to be defined: the argument of the square root is non-negative and the divisors are positive. -/
structure Defined (root div1 div2 div3 : ℝ) : Prop where
  root : 0 ≤ root
  div1 : 0 < div1
  div2 : 0 < div2
  div3 : 0 < div3

/-- **C57** Adam: after any updates and one more, the second moment is non-negative and everything the update divides by is
positive. -/
theorem C57_adam {b : Betas} (hb : b.Ok) (l : List (ℝ × ℝ)) (x0 a g x : ℝ) :
    let s := ((adam b).update (run (adam b) (adam b).init x0 l).1 a g x).1
    Defined s.v (1 - b.b1 ^ s.t) (1 - b.b2 ^ s.t) (√s.v + b.eps) := by
  have h : 0 ≤ (run (adam b) (adam b).init x0 l).1.v :=
    run_inv (P := adam b) (fun s => 0 ≤ s.v) (fun s a g x hs => ema_nonneg hs hb.b2 hb.b2') l _ _ (le_refl _)
  exact ⟨ema_nonneg h hb.b2 hb.b2', bias_pos hb.b1 hb.b1' _, bias_pos hb.b2 hb.b2' _, sqrt_add_pos hb.eps⟩

/-- **C57** AMSGrad. -/
theorem C57_amsGrad {b : Betas} (hb : b.Ok) (l : List (ℝ × ℝ)) (x0 a g x : ℝ) :
    let s := ((amsGrad b).update (run (amsGrad b) (amsGrad b).init x0 l).1 a g x).1
    0 ≤ s.v ∧ s.v ≤ s.vi ∧ Defined s.vi (1 - b.b1 ^ s.t) (1 - b.b2 ^ s.t) (√s.vi + b.eps) := by
  have h : 0 ≤ (run (amsGrad b) (amsGrad b).init x0 l).1.v ∧ 0 ≤ (run (amsGrad b) (amsGrad b).init x0 l).1.vi :=
    run_inv (P := amsGrad b) (fun s => 0 ≤ s.v ∧ 0 ≤ s.vi)
      (fun s a g x hs => ⟨ema_nonneg hs.1 hb.b2 hb.b2', le_trans hs.2 (le_max_left _ _)⟩) l _ _ ⟨le_refl _, le_refl _⟩
  have hv := ema_nonneg (g := g) h.1 hb.b2 hb.b2'
  exact ⟨hv, le_max_right _ _, le_trans h.2 (le_max_left _ _), bias_pos hb.b1 hb.b1' _, bias_pos hb.b2 hb.b2' _,
    sqrt_add_pos hb.eps⟩

/-- **C57** Padam: the base of the power is positive. -/
theorem C57_padam {b : Betas} (hb : b.Ok) (p : ℝ) (l : List (ℝ × ℝ)) (x0 a g x : ℝ) :
    let s := ((padam b p).update (run (padam b p) (padam b p).init x0 l).1 a g x).1
    Defined s.v (1 - b.b1 ^ s.t) (1 - b.b2 ^ s.t) ((s.vi + b.eps) ^ p) := by
  have h : 0 ≤ (run (padam b p) (padam b p).init x0 l).1.v ∧ 0 ≤ (run (padam b p) (padam b p).init x0 l).1.vi :=
    run_inv (P := padam b p) (fun s => 0 ≤ s.v ∧ 0 ≤ s.vi)
      (fun s a g x hs => ⟨ema_nonneg hs.1 hb.b2 hb.b2', le_trans hs.2 (le_max_left _ _)⟩) l _ _ ⟨le_refl _, le_refl _⟩
  refine ⟨ema_nonneg h.1 hb.b2 hb.b2', bias_pos hb.b1 hb.b1' _, bias_pos hb.b2 hb.b2' _, ?_⟩
  apply Real.rpow_pos_of_pos
  have h2 := le_trans h.2 (le_max_left _ ((run (padam b p) (padam b p).init x0 l).1.v * b.b2 + (1 - b.b2) * (g * g)))
  exact add_pos_of_nonneg_of_pos h2 hb.eps

/-- **C57** QHAdam: for `nu2` in `[0, 1]` the argument of the square root is non-negative. -/
theorem C57_qhAdam {b : Betas} (hb : b.Ok) (n1 : ℝ) {n2 : ℝ} (h0 : 0 ≤ n2) (h1 : n2 ≤ 1) (l : List (ℝ × ℝ)) (x0 a g x : ℝ) :
    let s := ((qhAdam b n1 n2).update (run (qhAdam b n1 n2) (qhAdam b n1 n2).init x0 l).1 a g x).1
    Defined ((1 - n2) * (g * g) + n2 * (s.v / (1 - b.b2 ^ s.t))) (1 - b.b1 ^ s.t) (1 - b.b2 ^ s.t)
      (√((1 - n2) * (g * g) + n2 * (s.v / (1 - b.b2 ^ s.t))) + b.eps) := by
  have h : 0 ≤ (run (qhAdam b n1 n2) (qhAdam b n1 n2).init x0 l).1.v :=
    run_inv (P := qhAdam b n1 n2) (fun s => 0 ≤ s.v) (fun s a g x hs => ema_nonneg hs hb.b2 hb.b2') l _ _ (le_refl _)
  have hv := ema_nonneg (g := g) h hb.b2 hb.b2'
  refine ⟨?_, bias_pos hb.b1 hb.b1' _, bias_pos hb.b2 hb.b2' _, sqrt_add_pos hb.eps⟩
  have h2 := bias_pos hb.b2 hb.b2' (run (qhAdam b n1 n2) (qhAdam b n1 n2).init x0 l).1.t
  exact add_nonneg (mul_nonneg (by linarith) (mul_self_nonneg g)) (mul_nonneg h0 (div_nonneg hv h2.le))

/-- **C57** OptimisticAdam. -/
theorem C57_optimisticAdam {b : Betas} (hb : b.Ok) (l : List (ℝ × ℝ)) (x0 a g x : ℝ) :
    let s := ((optimisticAdam b).update (run (optimisticAdam b) (optimisticAdam b).init x0 l).1 a g x).1
    Defined (s.v / (1 - b.b2 ^ s.t)) (1 - b.b1 ^ s.t) (1 - b.b2 ^ s.t) (√(s.v / (1 - b.b2 ^ s.t)) + b.eps) := by
  have h : 0 ≤ (run (optimisticAdam b) (optimisticAdam b).init x0 l).1.v :=
    run_inv (P := optimisticAdam b) (fun s => 0 ≤ s.v) (fun s a g x hs => ema_nonneg hs hb.b2 hb.b2') l _ _ (le_refl _)
  exact ⟨div_nonneg (ema_nonneg h hb.b2 hb.b2') (bias_pos hb.b2 hb.b2' _).le, bias_pos hb.b1 hb.b1' _,
    bias_pos hb.b2 hb.b2' _, sqrt_add_pos hb.eps⟩

/-- **C57** AdaBelief. -/
theorem C57_adaBelief {b : Betas} (hb : b.Ok) (l : List (ℝ × ℝ)) (x0 a g x : ℝ) :
    let s := ((adaBelief b).update (run (adaBelief b) (adaBelief b).init x0 l).1 a g x).1
    Defined (s.v / (1 - b.b2 ^ s.t)) (1 - b.b1 ^ s.t) (1 - b.b2 ^ s.t) (√(s.v / (1 - b.b2 ^ s.t)) + b.eps) := by
  have hstep : ∀ (s : Mom) (a g x : ℝ), 0 ≤ s.v → 0 ≤ ((adaBelief b).update s a g x).1.v := by
    intro s a g x hs
    have h1 : 0 ≤ 1 - b.b2 := by linarith [hb.b2']
    have h2 := mul_nonneg h1 (sq_nonneg (g - (s.m * b.b1 + (1 - b.b1) * g)))
    have h3 := mul_nonneg hs hb.b2
    have h4 := hb.eps
    show 0 ≤ s.v * b.b2 + ((1 - b.b2) * (g - (s.m * b.b1 + (1 - b.b1) * g)) ^ 2 + b.eps)
    linarith
  have h : 0 ≤ (run (adaBelief b) (adaBelief b).init x0 l).1.v := run_inv (P := adaBelief b) (fun s => 0 ≤ s.v) hstep l _ _ (le_refl _)
  exact ⟨div_nonneg (hstep _ a g x h) (bias_pos hb.b2 hb.b2' _).le, bias_pos hb.b1 hb.b1' _, bias_pos hb.b2 hb.b2' _,
    sqrt_add_pos hb.eps⟩

/-- **C57** Yogi: although the second moment is decreased by the squared gradient, it never becomes negative. -/
theorem C57_yogi {b : Betas} (hb : b.Ok) (l : List (ℝ × ℝ)) (x0 : ℝ) : 0 ≤ (run (yogi b) (yogi b).init x0 l).1.v := by
  refine run_inv (P := yogi b) (fun s => 0 ≤ s.v) ?_ l _ _ (le_refl _)
  intro s a g x hs
  show 0 ≤ s.v - (1 - b.b2) * Real.sign (s.v - g ^ 2) * g ^ 2
  have hg := sq_nonneg g
  have h1 : 0 ≤ 1 - b.b2 := by linarith [hb.b2']
  have h2 : 0 ≤ b.b2 * g ^ 2 := mul_nonneg hb.b2 hg
  rcases lt_trichotomy (s.v - g ^ 2) 0 with h | h | h
  · rw [Real.sign_of_neg h]
    have := mul_nonneg h1 hg
    nlinarith
  · rw [h, Real.sign_zero]
    simpa using hs
  · rw [Real.sign_of_pos h]
    nlinarith

/-- **C57** RMSProp. -/
theorem C57_rmsProp {al e : ℝ} (h0 : 0 ≤ al) (h1 : al < 1) (he : 0 < e) (l : List (ℝ × ℝ)) (x0 : ℝ) :
    0 ≤ (run (rmsProp al e) (rmsProp al e).init x0 l).1 ∧ 0 < √(run (rmsProp al e) (rmsProp al e).init x0 l).1 + e :=
  ⟨run_inv (P := rmsProp al e) (fun s => 0 ≤ s) (fun s a g x hs => ema_nonneg hs h0 h1) l _ _ (le_refl _), sqrt_add_pos he⟩

/-- **C57** AdaGrad. -/
theorem C57_adaGrad {e : ℝ} (he : 0 < e) (l : List (ℝ × ℝ)) (x0 : ℝ) :
    0 ≤ (run (adaGrad e) (adaGrad e).init x0 l).1 ∧ 0 < √(run (adaGrad e) (adaGrad e).init x0 l).1 + e :=
  ⟨run_inv (P := adaGrad e) (fun s => 0 ≤ s) (fun s a g x hs => add_nonneg hs (mul_self_nonneg g)) l _ _ (le_refl _),
    sqrt_add_pos he⟩

/-- **C57** AdaSqrt. -/
theorem C57_adaSqrt {e : ℝ} (he : 0 < e) (l : List (ℝ × ℝ)) (x0 : ℝ) :
    0 ≤ (run (adaSqrt e) (adaSqrt e).init x0 l).1.1 ∧ 0 < (run (adaSqrt e) (adaSqrt e).init x0 l).1.1 + e := by
  have h := run_inv (P := adaSqrt e) (fun s => 0 ≤ s.1) (fun s a g x hs => add_nonneg hs (mul_self_nonneg g)) l (adaSqrt e).init x0
    (le_refl _)
  exact ⟨h, add_pos_of_nonneg_of_pos h he⟩

/-- **C57** AdaDelta: both accumulators, hence the quotient under the root. -/
theorem C57_adaDelta {r e : ℝ} (h0 : 0 ≤ r) (h1 : r < 1) (he : 0 < e) (l : List (ℝ × ℝ)) (x0 : ℝ) :
    0 ≤ (run (adaDelta r e) (adaDelta r e).init x0 l).1.1 ∧ 0 ≤ (run (adaDelta r e) (adaDelta r e).init x0 l).1.2 ∧
    0 < (run (adaDelta r e) (adaDelta r e).init x0 l).1.1 + e := by
  have h := run_inv (P := adaDelta r e) (fun s => 0 ≤ s.1 ∧ 0 ≤ s.2)
    (fun s a g x hs => ⟨ema_nonneg hs.1 h0 h1, ema_nonneg hs.2 h0 h1⟩) l (adaDelta r e).init x0 ⟨le_refl _, le_refl _⟩
  exact ⟨h.1, h.2, add_pos_of_nonneg_of_pos h.1 he⟩

/-- **C57** SMORMS3, for a non-negative step size: the memory stays at least `1` (so `1 / (mem + 1)` is in `(0, 1/2]`), the
squared mean gradient never exceeds the mean square, and the divisors are positive. -/
theorem C57_smorms3 {e : ℝ} (he : 0 < e) (l : List (ℝ × ℝ)) (hl : ∀ p ∈ l, 0 ≤ p.1) (x0 : ℝ) :
    let s := (run (smorms3 e) (smorms3 e).init x0 l).1
    1 ≤ s.mem ∧ s.g ^ 2 ≤ s.g2 ∧ 0 < s.g2 + e := by
  have h : 1 ≤ (run (smorms3 e) (smorms3 e).init x0 l).1.mem ∧
      (run (smorms3 e) (smorms3 e).init x0 l).1.g ^ 2 ≤ (run (smorms3 e) (smorms3 e).init x0 l).1.g2 := by
    refine run_inv' (P := smorms3 e) (fun s => 1 ≤ s.mem ∧ s.g ^ 2 ≤ s.g2) (fun p => 0 ≤ p.1) ?_ l _ _ hl ⟨le_refl _, ?_⟩
    · intro s a g x ha hs
      have hr : 0 < 1 / (s.mem + 1) ∧ 1 / (s.mem + 1) ≤ 1 := by
        constructor
        · have : 0 < s.mem + 1 := by linarith [hs.1]
          positivity
        · rw [div_le_one (by linarith [hs.1])]; linarith [hs.1]
      have hsq : ((1 - 1 / (s.mem + 1)) * s.g + 1 / (s.mem + 1) * g) ^ 2 ≤
          (1 - 1 / (s.mem + 1)) * s.g2 + 1 / (s.mem + 1) * (g * g) := by
        generalize 1 / (s.mem + 1) = r at hr
        have h1 : 0 ≤ (1 - r) * r * (s.g - g) ^ 2 := mul_nonneg (mul_nonneg (by linarith) hr.1.le) (sq_nonneg _)
        have h2 : (1 - r) * s.g ^ 2 ≤ (1 - r) * s.g2 := mul_le_mul_of_nonneg_left hs.2 (by linarith)
        nlinarith
      refine ⟨?_, hsq⟩
      show 1 ≤ s.mem * (1 - min (_ / _) a) + 1
      have hg2 : 0 ≤ (1 - 1 / (s.mem + 1)) * s.g2 + 1 / (s.mem + 1) * (g * g) := le_trans (sq_nonneg _) hsq
      have hy : min (((1 - 1 / (s.mem + 1)) * s.g + 1 / (s.mem + 1) * g) * ((1 - 1 / (s.mem + 1)) * s.g + 1 / (s.mem + 1) * g) /
          ((1 - 1 / (s.mem + 1)) * s.g2 + 1 / (s.mem + 1) * (g * g) + e)) a ≤ 1 := by
        refine le_trans (min_le_left _ _) ?_
        rw [div_le_one (by linarith), ← sq]
        linarith
      have := mul_nonneg (show 0 ≤ s.mem by linarith [hs.1]) (sub_nonneg.2 hy)
      linarith
    · show (0 : ℝ) ^ 2 ≤ 0
      norm_num
  exact ⟨h.1, h.2, by nlinarith [sq_nonneg (run (smorms3 e) (smorms3 e).init x0 l).1.g, h.2]⟩

/-- **C57** AdaMax and NadaMax divide by a positive number. -/
theorem C57_adaMax {b : Betas} (hb : b.Ok) (l : List (ℝ × ℝ)) (x0 : ℝ) :
    0 < (run (adaMax b) (adaMax b).init x0 l).1.v + b.eps :=
  add_pos_of_nonneg_of_pos (run_inv (P := adaMax b) (fun s => 0 ≤ s.v)
    (fun s a g x _ => le_trans (abs_nonneg g) (le_max_right _ _)) l _ _ (le_refl _)) hb.eps

theorem C57_nadaMax {b : Betas} (hb : b.Ok) (d : ℝ) (l : List (ℝ × ℝ)) (x0 : ℝ) :
    0 < (run (nadaMax b d) (nadaMax b d).init x0 l).1.v + b.eps :=
  add_pos_of_nonneg_of_pos (run_inv (P := nadaMax b d) (fun s => 0 ≤ s.v)
    (fun s a g x _ => le_trans (abs_nonneg g) (le_max_right _ _)) l _ _ (le_refl _)) hb.eps

theorem beta1T_range {b1 d : ℝ} (h0 : 0 ≤ b1) (hd : 0 ≤ d) (t : Nat) : 0 ≤ beta1T b1 d t ∧ beta1T b1 d t ≤ b1 := by
  have h1 : (0 : ℝ) < (0.96 : ℝ) ^ ((t : ℝ) * d) := Real.rpow_pos_of_pos (by norm_num) _
  have h2 : (0.96 : ℝ) ^ ((t : ℝ) * d) ≤ 1 := Real.rpow_le_one (by norm_num) (by norm_num) (by positivity)
  unfold beta1T
  constructor
  · exact mul_nonneg h0 (by linarith)
  · have : b1 * (1 - 1 / 2 * (0.96 : ℝ) ^ ((t : ℝ) * d)) ≤ b1 * 1 := mul_le_mul_of_nonneg_left (by linarith) h0
    linarith

/-- **C57** Nadam: with `scheduleDecay ≥ 0` the products of the momentum schedule stay below `1`, so the update divides by
positive numbers only. -/
theorem C57_nadam {b : Betas} (hb : b.Ok) {d : ℝ} (hd : 0 ≤ d) (l : List (ℝ × ℝ)) (x0 a g x : ℝ) :
    let s := ((nadam b d).update (run (nadam b d) (nadam b d).init x0 l).1 a g x).1
    Defined s.v (1 - s.cum) (1 - s.cum * beta1T b.b1 d (s.t + 1)) (√s.v + b.eps) := by
  have h := run_inv (P := nadam b d) (fun s => 0 ≤ s.v ∧ 0 ≤ s.cum ∧ s.cum ≤ 1) (fun s a g x hs => by
    obtain ⟨h1, h2⟩ := beta1T_range hb.b1 hd (s.t + 1)
    refine ⟨?_, mul_nonneg hs.2.1 h1, ?_⟩
    · have := ema_nonneg (g := g) hs.1 hb.b2 hb.b2'
      show 0 ≤ s.v * b.b2 + (1 - b.b2) * g * g
      rwa [mul_assoc (1 - b.b2)]
    · exact mul_le_one₀ hs.2.2 h1 (le_trans h2 hb.b1'.le)) l (nadam b d).init x0 ⟨le_refl _, zero_le_one, le_refl _⟩
  obtain ⟨hv, hc0, hc1⟩ := h
  generalize (run (nadam b d) (nadam b d).init x0 l).1 = s at hv hc0 hc1
  obtain ⟨h1, h2⟩ := beta1T_range hb.b1 hd (s.t + 1)
  obtain ⟨h3, h4⟩ := beta1T_range hb.b1 hd (s.t + 1 + 1)
  have hcum : s.cum * beta1T b.b1 d (s.t + 1) ≤ b.b1 := by
    calc s.cum * beta1T b.b1 d (s.t + 1) ≤ 1 * b.b1 := mul_le_mul hc1 h2 h1 zero_le_one
      _ = b.b1 := one_mul _
  have hcum0 : 0 ≤ s.cum * beta1T b.b1 d (s.t + 1) := mul_nonneg hc0 h1
  refine ⟨?_, ?_, ?_, sqrt_add_pos hb.eps⟩
  · have := ema_nonneg (g := g) hv hb.b2 hb.b2'
    show 0 ≤ s.v * b.b2 + (1 - b.b2) * g * g
    rwa [mul_assoc (1 - b.b2)]
  · show 0 < 1 - s.cum * beta1T b.b1 d (s.t + 1)
    linarith [hb.b1']
  · show 0 < 1 - s.cum * beta1T b.b1 d (s.t + 1) * beta1T b.b1 d (s.t + 1 + 1)
    have : s.cum * beta1T b.b1 d (s.t + 1) * beta1T b.b1 d (s.t + 1 + 1) ≤ b.b1 * 1 :=
      mul_le_mul hcum (le_trans h4 hb.b1'.le) h3 hb.b1
    linarith [hb.b1']

/-- **C57** AdaBound and AMSBound. -/
theorem C57_adaBound {b : Betas} (hb : b.Ok) (ams : Bool) (fl ga : ℝ) (l : List (ℝ × ℝ)) (x0 a g x : ℝ) :
    let s := ((adaBound ams b fl ga).update (run (adaBound ams b fl ga) (adaBound ams b fl ga).init x0 l).1 a g x).1
    Defined s.vi (1 - b.b1 ^ s.t) (1 - b.b2 ^ s.t) (√s.vi + b.eps) := by
  have hstep : ∀ (s : BMom) (a g x : ℝ), 0 ≤ s.v ∧ 0 ≤ s.vi → 0 ≤ ((adaBound ams b fl ga).update s a g x).1.v ∧
      0 ≤ ((adaBound ams b fl ga).update s a g x).1.vi := by
    intro s a g x hs
    have h1 := ema_nonneg (g := g) hs.1 hb.b2 hb.b2'
    refine ⟨h1, ?_⟩
    show 0 ≤ if ams = true then max s.vi _ else _
    split
    · exact le_trans hs.2 (le_max_left _ _)
    · exact h1
  have h := run_inv (P := adaBound ams b fl ga) (fun s => 0 ≤ s.v ∧ 0 ≤ s.vi) hstep l (adaBound ams b fl ga).init x0
    ⟨le_refl _, le_refl _⟩
  exact ⟨(hstep _ a g x h).2, bias_pos hb.b1 hb.b1' _, bias_pos hb.b2 hb.b2' _, sqrt_add_pos hb.eps⟩

/-- **C57** FTML, started at `iteration = 0` and with positive step size: what the update divides by is positive. -/
theorem C57_ftml {b : Betas} (hb : b.Ok) (l : List (ℝ × ℝ)) (x0 : ℝ) {a : ℝ} (ha : 0 < a) (g x : ℝ) :
    let s := ((ftml b 0).update (run (ftml b 0) (ftml b 0).init x0 l).1 a g x).1
    Defined (s.v / (1 - b.b2 ^ s.t)) (1 - b.b1 ^ s.t) (1 - b.b2 ^ s.t) s.d := by
  have h : 0 ≤ (run (ftml b 0) (ftml b 0).init x0 l).1.v :=
    run_inv (P := ftml b 0) (fun s => 0 ≤ s.v) (fun s a g x hs => ema_nonneg hs hb.b2 hb.b2') l _ _ (le_refl _)
  refine ⟨div_nonneg (ema_nonneg h hb.b2 hb.b2') (bias_pos hb.b2 hb.b2' _).le, bias_pos hb.b1 hb.b1' _,
    bias_pos hb.b2 hb.b2' _, ?_⟩
  exact mul_pos (div_pos (bias_pos hb.b1 hb.b1' _) ha) (sqrt_add_pos hb.eps)

/-- The defaults of Adam. -/
example : (⟨0.9, 0.999, 1e-8⟩ : Betas).Ok := ⟨by norm_num, by norm_num, by norm_num, by norm_num, by norm_num⟩

end Ens.Update
