import Verif.Converge.Average

/-
C261: the other members of the Adam family, with the question of C259: AdaMax, Nadam, NadaMax, QHAdam, AdaBelief, OptimisticAdam.
-/

namespace Ens.Converge

open Ens.Sgd Ens.Update Filter

variable {b : Betas}

theorem pow_corr {β : ℝ} (h0 : 0 ≤ β) (h1 : β < 1) (t : Nat) : 1 - β ≤ 1 - β ^ (t + 1) ∧ 1 - β ^ (t + 1) ≤ 1 := by
  have h2 : β ^ (t + 1) ≤ β := pow_le_of_le_one h0 h1.le (Nat.succ_ne_zero _)
  have h3 := pow_nonneg h0 (t + 1)
  constructor <;> linarith

/-- Policies that divide a weighted sum of the average of the gradients and the last gradient by some denominator. -/
theorem stays_of_mixed {S : Type} {P : Policy S} {c e : Nat → ℝ} {den : Nat → Nat → ℝ} {β κ C q c₀ ε Dm : ℝ} (h0 : 0 ≤ β)
    (h1 : β < 1) (hκ : 0 < κ) (hκ' : κ ≤ 1) (hC : 0 ≤ C) (hq : 0 < q) (hc₀ : 0 < c₀) (hε : 0 < ε) (hDm : 0 < Dm)
    (hc : ∀ t, 0 ≤ c t ∧ c t ≤ C) (he : ∀ t, 0 ≤ e t ∧ e t ≤ C) (hce : ∀ t, q ≤ c t + e t)
    (hupd : ∀ n a t, (P.update (sawRun P a n t).1 a (saw n (t % n)) (sawRun P a n t).2).2 = (sawRun P a n t).2 -
      a * ((c t * emaSaw β n (t + 1) + e t * saw n (t % n)) / den n t))
    (hden : ∀ᶠ h in atTop, ∀ p i, i < 4 * h → max (κ ^ i * (c₀ * (4 * h : Nat))) ε ≤ den (4 * h) (p * (4 * h) + i))
    (hlate : ∀ᶠ h in atTop, ∀ p i, i < 4 * h → h ≤ i → den (4 * h) (p * (4 * h) + i) ≤ Dm) : StaysAway P := by
  refine stays_of_quotient (β := β) (κ := κ) (A := 3 * C) (c := c₀) (ε := ε) (q := q / 2) (Dm := Dm) (B := 2 * C)
    ⟨h0, h1, hκ, hκ', by positivity, hc₀, hε, by positivity, hDm, by positivity, hupd, Eventually.of_forall fun h p i hi => ?_,
      Eventually.of_forall fun h p i hi => ?_, hden, ?_⟩
  · obtain ⟨k1, k2⟩ := ema_early h0 h1 p hi
    obtain ⟨c1, c2⟩ := hc (p * (4 * h) + i)
    obtain ⟨e1, e2⟩ := he (p * (4 * h) + i)
    have hX : 0 ≤ β ^ i * ((4 * h : Nat) : ℝ) := mul_nonneg (pow_nonneg h0 i) (by positivity)
    have f1 : c (p * (4 * h) + i) * emaSaw β (4 * h) (p * (4 * h) + i + 1) ≤ C * (2 * (β ^ i * (4 * h : Nat))) :=
      (mul_le_mul_of_nonneg_left k1 c1).trans (mul_le_mul_of_nonneg_right c2 (by positivity))
    have f2 : e (p * (4 * h) + i) * saw (4 * h) ((p * (4 * h) + i) % (4 * h)) ≤ C * (β ^ i * (4 * h : Nat)) := by
      rcases i with _ | i
      · rw [saw_first, pow_zero, one_mul]
        exact mul_le_mul_of_nonneg_right e2 (by positivity)
      · rw [saw_later p hi]
        have := mul_nonneg hC hX
        linarith
    linarith
  · obtain ⟨k1, k2⟩ := ema_early h0 h1 p hi
    obtain ⟨c1, c2⟩ := hc (p * (4 * h) + i)
    obtain ⟨e1, e2⟩ := he (p * (4 * h) + i)
    obtain ⟨g1, -⟩ := saw_abs (n := 4 * h) (by omega) ((p * (4 * h) + i) % (4 * h))
    have f1 := mul_le_mul_of_nonneg_left k2 c1
    have f2 := mul_le_mul_of_nonneg_left g1 e1
    linarith
  · refine (((ema_late h0 h1 (by norm_num : (0 : ℝ) < 1 / 2)).and hlate).and (eventually_ge_atTop 1)).mono
      fun h ⟨⟨k1, k2⟩, k3⟩ p i hi hhi => ⟨?_, k2 p i hi hhi⟩
    have k4 := (k1 p i hi hhi).1
    obtain ⟨c1, c2⟩ := hc (p * (4 * h) + i)
    obtain ⟨e1, e2⟩ := he (p * (4 * h) + i)
    have k5 := hce (p * (4 * h) + i)
    obtain ⟨j, rfl⟩ : ∃ j, i = j + 1 := ⟨i - 1, by omega⟩
    rw [saw_later p hi]
    have := mul_le_mul_of_nonneg_left k4 c1
    linarith

/-- The denominator of AdaMax and NadaMax. -/
theorem max_den (hb : BetasOk b) :
    (∀ᶠ h in atTop, ∀ p i, i < 4 * h → max (b.b2 ^ i * (1 * (4 * h : Nat))) b.eps ≤
      maxSaw b.b2 (4 * h) (p * (4 * h) + i + 1) + b.eps) ∧
    ∀ᶠ h in atTop, ∀ p i, i < 4 * h → h ≤ i → maxSaw b.b2 (4 * h) (p * (4 * h) + i + 1) + b.eps ≤ 2 + b.eps := by
  constructor
  · refine Eventually.of_forall fun h p i hi => ?_
    have k := (max_period hb.b2.le hb.b2' p i hi).1
    have k1 := (max_bounds hb.b2.le hb.b2' (by omega : 0 < 4 * h) (p * (4 * h) + i + 1)).1
    have := hb.eps
    exact max_le (by linarith) (by linarith)
  · exact (max_late hb.b2.le hb.b2').mono fun h k p i hi hhi => by linarith [k p i hi hhi]

/-- The denominator of Adam and Nadam. -/
theorem sq_den (hb : BetasOk b) :
    (∀ᶠ h in atTop, ∀ p i, i < 4 * h → max (√b.b2 ^ i * (√(1 - b.b2) * (4 * h : Nat))) b.eps ≤
      √(sqSaw b.b2 (4 * h) (p * (4 * h) + i + 1)) + b.eps) ∧
    ∀ᶠ h in atTop, ∀ p i, i < 4 * h → h ≤ i → √(sqSaw b.b2 (4 * h) (p * (4 * h) + i + 1)) + b.eps ≤ 2 + b.eps := by
  constructor
  · refine Eventually.of_forall fun h p i hi => ?_
    have k := sq_early hb.b2.le hb.b2' p hi
    have := Real.sqrt_nonneg (sqSaw b.b2 (4 * h) (p * (4 * h) + i + 1))
    have := hb.eps
    exact max_le (by linarith) (by linarith)
  · refine (sq_late hb.b2.le hb.b2' (by norm_num : (0 : ℝ) < 3)).mono fun h k p i hi hhi => ?_
    have k4 := (k p i hi hhi).1
    have : √(sqSaw b.b2 (4 * h) (p * (4 * h) + i + 1)) ≤ 2 := by
      rw [Real.sqrt_le_left (by norm_num)]
      linarith
    linarith

/-! ### AdaMax -/

theorem adaMax_state (b : Betas) (a : ℝ) (n t : Nat) : (sawRun (adaMax b) a n t).1 = ⟨emaSaw b.b1 n t, maxSaw b.b2 n t, t⟩ := by
  induction t with
  | zero => rfl
  | succ t ih => simp only [sawRun, adaMax, emaSaw, maxSaw] at ih ⊢; rw [ih]

/-- AdaMax stays away, whatever its parameters. -/
theorem C261_adaMax_stays (h1 : 0 ≤ b.b1) (h1' : b.b1 < 1) (h2 : 0 < b.b2) (h2' : b.b2 < 1) (he : 0 < b.eps) :
    StaysAway (adaMax b) := by
  have hb : BetasOk b := ⟨h1, h1', h2, h2', he⟩
  have hp : 0 < 1 - b.b1 := by linarith
  obtain ⟨k1, k2⟩ := max_den hb
  refine stays_of_mixed (c := fun t => 1 / (1 - b.b1 ^ (t + 1))) (e := fun _ => 0) (C := 1 / (1 - b.b1)) (q := 1)
    (den := fun n t => maxSaw b.b2 n (t + 1) + b.eps) h1 h1' h2 h2'.le (by positivity) one_pos one_pos he (by positivity)
    (fun t => ?_) (fun t => ⟨le_rfl, by positivity⟩) (fun t => ?_) (fun n a t => ?_) k1 k2
  · obtain ⟨j1, j2⟩ := pow_corr h1 h1' t
    have : 0 < 1 - b.b1 ^ (t + 1) := by linarith
    exact ⟨by positivity, one_div_le_one_div_of_le hp j1⟩
  · obtain ⟨j1, j2⟩ := pow_corr h1 h1' t
    rw [add_zero, le_div_iff₀ (by linarith)]
    linarith
  · obtain ⟨j1, j2⟩ := pow_corr h1 h1' t
    rw [adaMax_state]
    simp only [adaMax, emaSaw, maxSaw]
    rw [if_pos (by linarith : (0 : ℝ) < 1 - b.b1 ^ (t + 1)).ne']
    ring

/-! ### Nadam and NadaMax -/

/-- Product of the scheduled momenta. -/
noncomputable def cumT (b1 decay : ℝ) : Nat → ℝ
  | 0 => 1
  | t + 1 => cumT b1 decay t * beta1T b1 decay (t + 1)

theorem beta1T_mem {b1 decay : ℝ} (h1 : 0 ≤ b1) (hd : 0 ≤ decay) (t : Nat) : 0 ≤ beta1T b1 decay t ∧ beta1T b1 decay t ≤ b1 := by
  have k1 : (0.96 : ℝ) ^ ((t : ℝ) * decay) ≤ 1 := Real.rpow_le_one (by norm_num) (by norm_num) (by positivity)
  have k2 : 0 ≤ (0.96 : ℝ) ^ ((t : ℝ) * decay) := Real.rpow_nonneg (by norm_num) _
  unfold beta1T
  constructor <;> nlinarith

theorem cumT_mem {b1 decay : ℝ} (h1 : 0 ≤ b1) (h1' : b1 < 1) (hd : 0 ≤ decay) (t : Nat) :
    0 ≤ cumT b1 decay t ∧ cumT b1 decay t ≤ 1 ∧ cumT b1 decay (t + 1) ≤ b1 := by
  induction t with
  | zero =>
    have := beta1T_mem h1 hd (0 + 1)
    simp only [cumT]
    exact ⟨zero_le_one, le_rfl, by linarith⟩
  | succ t ih =>
    obtain ⟨i1, i2, i3⟩ := ih
    have k1 := beta1T_mem h1 hd (t + 1)
    have k2 := beta1T_mem h1 hd (t + 1 + 1)
    have c1 : 0 ≤ cumT b1 decay (t + 1) := mul_nonneg i1 k1.1
    refine ⟨c1, by linarith, ?_⟩
    show cumT b1 decay (t + 1) * beta1T b1 decay (t + 1 + 1) ≤ b1
    nlinarith

/-- The weights of the last gradient and of the average in Nadam. -/
theorem nadam_weights {b1 decay : ℝ} (h1 : 0 ≤ b1) (h1' : b1 < 1) (hd : 0 ≤ decay) (t : Nat) :
    (1 - b1 ≤ (1 - beta1T b1 decay (t + 1)) / (1 - cumT b1 decay (t + 1)) ∧
      (1 - beta1T b1 decay (t + 1)) / (1 - cumT b1 decay (t + 1)) ≤ 1 / (1 - b1)) ∧
    0 ≤ beta1T b1 decay (t + 1 + 1) / (1 - cumT b1 decay (t + 1) * beta1T b1 decay (t + 1 + 1)) ∧
      beta1T b1 decay (t + 1 + 1) / (1 - cumT b1 decay (t + 1) * beta1T b1 decay (t + 1 + 1)) ≤ 1 / (1 - b1) ∧
    0 < 1 - cumT b1 decay (t + 1) ∧ 0 < 1 - cumT b1 decay (t + 1) * beta1T b1 decay (t + 1 + 1) := by
  obtain ⟨-, -, c3⟩ := cumT_mem h1 h1' hd t
  obtain ⟨c1, -, -⟩ := cumT_mem h1 h1' hd (t + 1)
  obtain ⟨d1, d2⟩ := beta1T_mem h1 hd (t + 1)
  obtain ⟨e1, e2⟩ := beta1T_mem h1 hd (t + 1 + 1)
  set cu := cumT b1 decay (t + 1)
  set x := beta1T b1 decay (t + 1)
  set y := beta1T b1 decay (t + 1 + 1)
  have hp : 0 < 1 - b1 := by linarith
  have f1 : 0 < 1 - cu := by linarith
  have f2 : cu * y ≤ b1 := by nlinarith
  have f3 : 0 ≤ cu * y := mul_nonneg c1 e1
  have f4 : 0 < 1 - cu * y := by linarith
  refine ⟨⟨?_, ?_⟩, by positivity, ?_, f1, f4⟩
  · rw [le_div_iff₀ f1]; nlinarith
  · exact div_le_div₀ zero_le_one (by linarith) hp (by linarith)
  · exact div_le_div₀ zero_le_one (by linarith) hp (by linarith)

theorem nadam_state (b : Betas) (decay a : ℝ) (n t : Nat) :
    (sawRun (nadam b decay) a n t).1 = ⟨emaSaw b.b1 n t, sqSaw b.b2 n t, cumT b.b1 decay t, t⟩ := by
  induction t with
  | zero => rfl
  | succ t ih =>
    simp only [sawRun, nadam, emaSaw, sqSaw, cumT] at ih ⊢
    rw [ih, mul_assoc (1 - b.b2)]

theorem nadaMax_state (b : Betas) (decay a : ℝ) (n t : Nat) :
    (sawRun (nadaMax b decay) a n t).1 = ⟨emaSaw b.b1 n t, maxSaw b.b2 n t, cumT b.b1 decay t, t⟩ := by
  induction t with
  | zero => rfl
  | succ t ih => simp only [sawRun, nadaMax, emaSaw, maxSaw, cumT] at ih ⊢; rw [ih]

/-- Nadam stays away, whatever its parameters. -/
theorem C261_nadam_stays {decay : ℝ} (h1 : 0 ≤ b.b1) (h1' : b.b1 < 1) (h2 : 0 < b.b2) (h2' : b.b2 < 1) (he : 0 < b.eps)
    (hd : 0 ≤ decay) : StaysAway (nadam b decay) := by
  have hb : BetasOk b := ⟨h1, h1', h2, h2', he⟩
  have hp : 0 < 1 - b.b1 := by linarith
  have hq : 0 < √(1 - b.b2) := Real.sqrt_pos.2 (by linarith)
  have hs : ∀ t, √(1 - b.b2) ≤ √(1 - b.b2 ^ (t + 1)) ∧ √(1 - b.b2 ^ (t + 1)) ≤ 1 := fun t =>
    ⟨Real.sqrt_le_sqrt (pow_corr h2.le h2' t).1, Real.sqrt_le_one.2 (pow_corr h2.le h2' t).2⟩
  obtain ⟨k1, k2⟩ := sq_den hb
  refine stays_of_mixed
    (c := fun t => beta1T b.b1 decay (t + 1 + 1) / (1 - cumT b.b1 decay (t + 1) * beta1T b.b1 decay (t + 1 + 1)) *
      √(1 - b.b2 ^ (t + 1)))
    (e := fun t => (1 - beta1T b.b1 decay (t + 1)) / (1 - cumT b.b1 decay (t + 1)) * √(1 - b.b2 ^ (t + 1)))
    (C := 1 / (1 - b.b1)) (q := (1 - b.b1) * √(1 - b.b2))
    (den := fun n t => √(sqSaw b.b2 n (t + 1)) + b.eps) h1 h1' (Real.sqrt_pos.2 h2) (Real.sqrt_le_one.2 h2'.le) (by positivity)
    (by positivity) hq he (by positivity : 0 < 2 + b.eps) (fun t => ?_) (fun t => ?_) (fun t => ?_) (fun n a t => ?_) k1 k2
  · obtain ⟨-, w1, w2, -⟩ := nadam_weights h1 h1' hd t
    exact ⟨mul_nonneg w1 (Real.sqrt_nonneg _), (mul_le_of_le_one_right w1 (hs t).2).trans w2⟩
  · obtain ⟨⟨w1, w2⟩, -⟩ := nadam_weights h1 h1' hd t
    have w0 := hp.le.trans w1
    exact ⟨mul_nonneg w0 (Real.sqrt_nonneg _), (mul_le_of_le_one_right w0 (hs t).2).trans w2⟩
  · obtain ⟨⟨w1, w2⟩, w3, -⟩ := nadam_weights h1 h1' hd t
    have := mul_nonneg w3 (Real.sqrt_nonneg (1 - b.b2 ^ (t + 1)))
    have := mul_le_mul w1 (hs t).1 hq.le (hp.le.trans w1)
    linarith
  · rw [nadam_state]
    simp only [nadam, emaSaw, sqSaw, cumT]
    rw [mul_assoc (1 - b.b2)]
    ring

/-- NadaMax stays away, whatever its parameters. -/
theorem C261_nadaMax_stays {decay : ℝ} (h1 : 0 ≤ b.b1) (h1' : b.b1 < 1) (h2 : 0 < b.b2) (h2' : b.b2 < 1) (he : 0 < b.eps)
    (hd : 0 ≤ decay) : StaysAway (nadaMax b decay) := by
  have hb : BetasOk b := ⟨h1, h1', h2, h2', he⟩
  have hp : 0 < 1 - b.b1 := by linarith
  obtain ⟨k1, k2⟩ := max_den hb
  refine stays_of_mixed
    (c := fun t => beta1T b.b1 decay (t + 1 + 1) / (1 - cumT b.b1 decay (t + 1) * beta1T b.b1 decay (t + 1 + 1)))
    (e := fun t => (1 - beta1T b.b1 decay (t + 1)) / (1 - cumT b.b1 decay (t + 1))) (C := 1 / (1 - b.b1)) (q := 1 - b.b1)
    (den := fun n t => maxSaw b.b2 n (t + 1) + b.eps) h1 h1' h2 h2'.le (by positivity) hp one_pos he
    (by positivity : 0 < 2 + b.eps) (fun t => ?_) (fun t => ?_) (fun t => ?_) (fun n a t => ?_) k1 k2
  · obtain ⟨-, w1, w2, -⟩ := nadam_weights h1 h1' hd t
    exact ⟨w1, w2⟩
  · obtain ⟨⟨w1, w2⟩, -⟩ := nadam_weights h1 h1' hd t
    exact ⟨hp.le.trans w1, w2⟩
  · obtain ⟨⟨w1, w2⟩, w3, -⟩ := nadam_weights h1 h1' hd t
    linarith
  · obtain ⟨-, -, -, w4, w5⟩ := nadam_weights h1 h1' hd t
    rw [nadaMax_state]
    simp only [cumT] at w4 w5
    simp only [nadaMax, emaSaw, maxSaw, cumT]
    rw [if_pos ⟨w4.ne', w5.ne'⟩]
    ring

/-! ### QHAdam -/

theorem qhAdam_state (b : Betas) (nu1 nu2 a : ℝ) (n t : Nat) :
    (sawRun (qhAdam b nu1 nu2) a n t).1 = ⟨emaSaw b.b1 n t, sqSaw b.b2 n t, t⟩ := by
  induction t with
  | zero => rfl
  | succ t ih => simp only [sawRun, qhAdam, emaSaw, sqSaw] at ih ⊢; rw [ih]

/-- QHAdam stays away, whatever its parameters (with some weight on the average of the squares: `nu2 > 0`). -/
theorem C261_qhAdam_stays {nu1 nu2 : ℝ} (h1 : 0 ≤ b.b1) (h1' : b.b1 < 1) (h2 : 0 < b.b2) (h2' : b.b2 < 1) (he : 0 < b.eps)
    (hn1 : 0 ≤ nu1) (hn1' : nu1 ≤ 1) (hn2 : 0 < nu2) (hn2' : nu2 ≤ 1) : StaysAway (qhAdam b nu1 nu2) := by
  have hp : 0 < 1 - b.b1 := by linarith
  have hq : 0 < √(1 - b.b2) := Real.sqrt_pos.2 (by linarith)
  have hC : 1 ≤ 1 / (1 - b.b1) := by rw [le_div_iff₀ hp]; linarith
  refine stays_of_mixed (c := fun t => nu1 / (1 - b.b1 ^ (t + 1))) (e := fun _ => 1 - nu1) (C := 1 / (1 - b.b1)) (q := 1)
    (κ := √b.b2) (c₀ := √nu2 * √(1 - b.b2)) (ε := b.eps) (Dm := 2 + b.eps)
    (den := fun n t => √((1 - nu2) * (saw n (t % n) * saw n (t % n)) + nu2 * (sqSaw b.b2 n (t + 1) / (1 - b.b2 ^ (t + 1)))) + b.eps)
    h1 h1' (Real.sqrt_pos.2 h2) (Real.sqrt_le_one.2 h2'.le) (by positivity) one_pos (by positivity) he (by positivity)
    (fun t => ?_) (fun t => ⟨by linarith, by linarith⟩) (fun t => ?_) (fun n a t => ?_)
    (Eventually.of_forall fun h p i hi => ?_) ?_
  · obtain ⟨j1, j2⟩ := pow_corr h1 h1' t
    have : 0 < 1 - b.b1 ^ (t + 1) := by linarith
    exact ⟨by positivity, div_le_div₀ zero_le_one hn1' hp j1⟩
  · obtain ⟨j1, j2⟩ := pow_corr h1 h1' t
    have : nu1 ≤ nu1 / (1 - b.b1 ^ (t + 1)) := by
      rw [le_div_iff₀ (by linarith)]
      nlinarith
    linarith
  · rw [qhAdam_state]
    simp only [qhAdam, emaSaw, sqSaw]
    ring
  · have k := sq_early h2.le h2' p hi
    set t := p * (4 * h) + i with ht
    obtain ⟨j1, j2⟩ := pow_corr h2.le h2' t
    have hv := sq_nonneg' h2.le h2' (by omega : 0 < 4 * h) (t + 1)
    have k1 : sqSaw b.b2 (4 * h) (t + 1) ≤ sqSaw b.b2 (4 * h) (t + 1) / (1 - b.b2 ^ (t + 1)) := by
      rw [le_div_iff₀ (by linarith)]
      nlinarith
    have k2 : √nu2 * √(sqSaw b.b2 (4 * h) (t + 1)) ≤ √((1 - nu2) * (saw (4 * h) (t % (4 * h)) * saw (4 * h) (t % (4 * h))) +
        nu2 * (sqSaw b.b2 (4 * h) (t + 1) / (1 - b.b2 ^ (t + 1)))) := by
      rw [← Real.sqrt_mul hn2.le]
      apply Real.sqrt_le_sqrt
      have := mul_nonneg (by linarith : 0 ≤ 1 - nu2) (mul_self_nonneg (saw (4 * h) (t % (4 * h))))
      have := mul_le_mul_of_nonneg_left k1 hn2.le
      linarith
    have k3 := mul_le_mul_of_nonneg_left k (Real.sqrt_nonneg nu2)
    refine max_le ?_ (by linarith [Real.sqrt_nonneg ((1 - nu2) * (saw (4 * h) (t % (4 * h)) * saw (4 * h) (t % (4 * h))) +
        nu2 * (sqSaw b.b2 (4 * h) (t + 1) / (1 - b.b2 ^ (t + 1))))])
    calc √b.b2 ^ i * (√nu2 * √(1 - b.b2) * (4 * h : Nat)) = √nu2 * (√b.b2 ^ i * (√(1 - b.b2) * (4 * h : Nat))) := by ring
      _ ≤ _ := by linarith
  · refine ((sq_late h2.le h2' (by norm_num : (0 : ℝ) < 3)).and (eventually_ge_atTop 1)).mono fun h ⟨k, k0⟩ p i hi hhi => ?_
    have k4 := (k p i hi hhi).2
    obtain ⟨j, rfl⟩ : ∃ j, i = j + 1 := ⟨i - 1, by omega⟩
    rw [saw_later p hi]
    have k5 := mul_le_mul_of_nonneg_left k4 hn2.le
    have : √((1 - nu2) * (-1 * -1) + nu2 * (sqSaw b.b2 (4 * h) (p * (4 * h) + (j + 1) + 1) /
        (1 - b.b2 ^ (p * (4 * h) + (j + 1) + 1)))) ≤ 2 := by
      rw [Real.sqrt_le_left (by norm_num)]
      nlinarith
    linarith

/-! ### AdaBelief -/

/-- The second average of AdaBelief. -/
noncomputable def belSaw (b : Betas) (n : Nat) : Nat → ℝ
  | 0 => 0
  | t + 1 => belSaw b n t * b.b2 + ((1 - b.b2) * (saw n (t % n) - emaSaw b.b1 n (t + 1)) ^ 2 + b.eps)

theorem adaBelief_state (b : Betas) (a : ℝ) (n t : Nat) :
    (sawRun (adaBelief b) a n t).1 = ⟨emaSaw b.b1 n t, belSaw b n t, t⟩ := by
  induction t with
  | zero => rfl
  | succ t ih => simp only [sawRun, adaBelief, emaSaw, belSaw] at ih ⊢; rw [ih]

theorem bel_bounds (hb : BetasOk b) {n : Nat} (hn : 0 < n) (t : Nat) :
    0 ≤ belSaw b n t ∧ belSaw b n t ≤ ((n : ℝ) + 1) ^ 2 + b.eps / (1 - b.b2) := by
  have hp : 0 < 1 - b.b2 := by linarith [hb.b2']
  have he := hb.eps
  induction t with
  | zero => simp only [belSaw]; exact ⟨le_rfl, by positivity⟩
  | succ t ih =>
    obtain ⟨g1, g2, -, -⟩ := saw_abs hn (t % n)
    obtain ⟨m1, m2⟩ := ema_bounds hb.b1 hb.b1' hn (t + 1)
    have m3 := pow_nonneg hb.b1 (t + 1)
    have k : (saw n (t % n) - emaSaw b.b1 n (t + 1)) ^ 2 ≤ ((n : ℝ) + 1) ^ 2 := sq_le_sq' (by linarith) (by linarith)
    have k0 := sq_nonneg (saw n (t % n) - emaSaw b.b1 n (t + 1))
    simp only [belSaw]
    have e1 : b.eps / (1 - b.b2) * b.b2 + b.eps = b.eps / (1 - b.b2) := by field_simp; ring
    have i1 := mul_nonneg ih.1 hb.b2.le
    have i2 := mul_le_mul_of_nonneg_right ih.2 hb.b2.le
    have i3 := mul_nonneg hp.le k0
    have i4 := mul_le_mul_of_nonneg_left k hp.le
    constructor <;> linarith

/-- The distance of the average of the gradients from -1 within a period. -/
theorem ema_dist {β : ℝ} (h0 : 0 ≤ β) (h1 : β < 1) {n : Nat} (p : Nat) {i : Nat} (hi : i < n) :
    (-1 - emaSaw β n (p * n + i + 1)) ^ 2 ≤ (β ^ 2) ^ i * (4 * ((n : ℝ) + 1) ^ 2) := by
  have k1 := ema_period h0 h1 p i hi
  have k2 := (ema_bounds h0 h1 (by omega : 0 < n) (p * n + i + 1)).1
  have k3 : β ^ (p * n + i + 1) ≤ β ^ i := pow_le_pow_of_le_one h0 h1.le (by omega)
  have k4 := pow_nonneg h0 (p * n + i + 1)
  have k5 := pow_nonneg h0 i
  have hn : (0 : ℝ) ≤ n := by positivity
  have : (-1 - emaSaw β n (p * n + i + 1)) ^ 2 ≤ (β ^ i * (2 * ((n : ℝ) + 1))) ^ 2 :=
    sq_le_sq' (by nlinarith) (by nlinarith)
  refine this.trans (le_of_eq ?_)
  rw [mul_pow, ← pow_mul, ← pow_mul, mul_comm i 2]
  ring

theorem bel_lower (hb : BetasOk b) {n : Nat} (p : Nat) (hm : emaSaw b.b1 n (p * n) ≤ 0) : ∀ i < n,
    b.b2 ^ i * ((1 - b.b2) * (b.b1 * n) ^ 2) ≤ belSaw b n (p * n + i + 1) := by
  have hp : 0 < 1 - b.b2 := by linarith [hb.b2']
  have he := hb.eps
  intro i
  induction i with
  | zero =>
    intro hn
    have k := (bel_bounds hb hn (p * n)).1
    have k1 : (b.b1 * n) ^ 2 ≤ (saw n ((p * n + 0) % n) - emaSaw b.b1 n (p * n + 0 + 1)) ^ 2 := by
      apply pow_le_pow_left₀ (mul_nonneg hb.b1 (by positivity))
      rw [Nat.add_zero]
      simp only [emaSaw]
      have := saw_first n p
      rw [Nat.add_zero] at this
      rw [this]
      nlinarith [mul_nonneg hb.b1 (neg_nonneg.2 hm)]
    have k2 := mul_le_mul_of_nonneg_left k1 hp.le
    have k3 := mul_nonneg k hb.b2.le
    rw [Nat.add_zero] at k2 ⊢
    simp only [belSaw, pow_zero, one_mul]
    linarith
  | succ i ih =>
    intro hi
    have k := mul_le_mul_of_nonneg_right (ih (by omega)) hb.b2.le
    have k1 := mul_nonneg hp.le (sq_nonneg (saw n ((p * n + i + 1) % n) - emaSaw b.b1 n (p * n + i + 1 + 1)))
    show _ ≤ belSaw b n (p * n + i + 1) * b.b2 + ((1 - b.b2) *
      (saw n ((p * n + i + 1) % n) - emaSaw b.b1 n (p * n + i + 1 + 1)) ^ 2 + b.eps)
    rw [pow_succ]
    linarith

theorem bel_upper (hb : BetasOk b) {n : Nat} {ρ : ℝ} (h1 : b.b2 ≤ ρ) (h2 : b.b1 ^ 2 ≤ ρ) (p : Nat) : ∀ i < n,
    belSaw b n (p * n + i + 1) ≤ ρ ^ i * ((i + 1 : ℝ) * (4 * ((n : ℝ) + 1) ^ 2)) + b.eps / (1 - b.b2) := by
  have hp : 0 < 1 - b.b2 := by linarith [hb.b2']
  have he := hb.eps
  have hρ : 0 ≤ ρ := hb.b2.le.trans h1
  have e1 : b.eps / (1 - b.b2) * b.b2 + b.eps = b.eps / (1 - b.b2) := by field_simp; ring
  intro i
  induction i with
  | zero =>
    intro hn
    have := (bel_bounds hb hn (p * n + 0 + 1)).2
    have := sq_nonneg ((n : ℝ) + 1)
    simp only [pow_zero, one_mul, Nat.cast_zero, zero_add]
    linarith
  | succ i ih =>
    intro hi
    have i1 := ih (by omega)
    have d := ema_dist hb.b1 hb.b1' p hi
    have hX : 0 ≤ ρ ^ i * ((i + 1 : ℝ) * (4 * ((n : ℝ) + 1) ^ 2)) := by positivity
    have k1 := mul_le_mul_of_nonneg_right i1 hb.b2.le
    have k2 := mul_le_mul_of_nonneg_left h1 hX
    have k3 : (b.b1 ^ 2) ^ (i + 1) * (4 * ((n : ℝ) + 1) ^ 2) ≤ ρ ^ (i + 1) * (4 * ((n : ℝ) + 1) ^ 2) :=
      mul_le_mul_of_nonneg_right (pow_le_pow_left₀ (sq_nonneg _) h2 _) (by positivity)
    have k4 : (1 - b.b2) * (-1 - emaSaw b.b1 n (p * n + (i + 1) + 1)) ^ 2 ≤ (-1 - emaSaw b.b1 n (p * n + (i + 1) + 1)) ^ 2 :=
      mul_le_of_le_one_left (sq_nonneg _) (by linarith [hb.b2])
    show belSaw b n (p * n + i + 1) * b.b2 + ((1 - b.b2) *
      (saw n ((p * n + (i + 1)) % n) - emaSaw b.b1 n (p * n + (i + 1) + 1)) ^ 2 + b.eps) ≤ _
    rw [saw_later p hi]
    push_cast
    have e2 : ρ ^ (i + 1) * (((i : ℝ) + 1 + 1) * (4 * ((n : ℝ) + 1) ^ 2)) =
        ρ ^ i * ((i + 1 : ℝ) * (4 * ((n : ℝ) + 1) ^ 2)) * ρ + ρ ^ (i + 1) * (4 * ((n : ℝ) + 1) ^ 2) := by
      rw [pow_succ]; ring
    rw [e2]
    linarith

/-- AdaBelief stays away, whatever its parameters. -/
theorem C261_adaBelief_stays (h1 : 0 < b.b1) (h1' : b.b1 < 1) (h2 : 0 < b.b2) (h2' : b.b2 < 1) (he : 0 < b.eps) :
    StaysAway (adaBelief b) := by
  have hb : BetasOk b := ⟨h1.le, h1', h2, h2', he⟩
  have hp : 0 < 1 - b.b1 := by linarith
  have hp2 : 0 < 1 - b.b2 := by linarith
  have hq : 0 < √(1 - b.b2) := Real.sqrt_pos.2 hp2
  refine stays_of_mixed (c := fun t => 1 / (1 - b.b1 ^ (t + 1))) (e := fun _ => 0) (C := 1 / (1 - b.b1)) (q := 1)
    (κ := √b.b2) (c₀ := √(1 - b.b2) * b.b1) (ε := b.eps) (Dm := √((1 + b.eps / (1 - b.b2)) / (1 - b.b2)) + b.eps)
    (den := fun n t => √(belSaw b n (t + 1) / (1 - b.b2 ^ (t + 1))) + b.eps)
    h1.le h1' (Real.sqrt_pos.2 h2) (Real.sqrt_le_one.2 h2'.le) (by positivity) one_pos (by positivity) he (by positivity)
    (fun t => ?_) (fun t => ⟨le_rfl, by positivity⟩) (fun t => ?_) (fun n a t => ?_) ?_ ?_
  · obtain ⟨j1, j2⟩ := pow_corr h1.le h1' t
    have : 0 < 1 - b.b1 ^ (t + 1) := by linarith
    exact ⟨by positivity, one_div_le_one_div_of_le hp j1⟩
  · obtain ⟨j1, j2⟩ := pow_corr h1.le h1' t
    rw [add_zero, le_div_iff₀ (by linarith)]
    linarith
  · rw [adaBelief_state]
    simp only [adaBelief, emaSaw, belSaw]
    ring
  · refine ((ema_late h1.le h1' one_pos).and (eventually_ge_atTop 1)).mono fun h ⟨k, k0⟩ p i hi => ?_
    have hm : emaSaw b.b1 (4 * h) (p * (4 * h)) ≤ 0 := by
      rcases p with _ | p
      · simp [emaSaw]
      · have := (k p (4 * h - 1) (by omega) (by omega)).1
        rw [show p * (4 * h) + (4 * h - 1) + 1 = (p + 1) * (4 * h) from by rw [Nat.add_mul]; omega] at this
        linarith
    have k1 := bel_lower hb p hm i hi
    have hv := (bel_bounds hb (by omega : 0 < 4 * h) (p * (4 * h) + i + 1)).1
    obtain ⟨j1, j2⟩ := pow_corr h2.le h2' (p * (4 * h) + i)
    refine max_le ?_ (by linarith [Real.sqrt_nonneg (belSaw b (4 * h) (p * (4 * h) + i + 1) / (1 - b.b2 ^ (p * (4 * h) + i + 1)))])
    have k2 : √b.b2 ^ i * (√(1 - b.b2) * b.b1 * (4 * h : Nat)) ≤
        √(belSaw b (4 * h) (p * (4 * h) + i + 1) / (1 - b.b2 ^ (p * (4 * h) + i + 1))) := by
      apply Real.le_sqrt_of_sq_le
      calc (√b.b2 ^ i * (√(1 - b.b2) * b.b1 * (4 * h : Nat))) ^ 2
          = (√b.b2 ^ 2) ^ i * (√(1 - b.b2) ^ 2 * (b.b1 * (4 * h : Nat)) ^ 2) := by ring
        _ = b.b2 ^ i * ((1 - b.b2) * (b.b1 * (4 * h : Nat)) ^ 2) := by rw [Real.sq_sqrt h2.le, Real.sq_sqrt hp2.le]
        _ ≤ belSaw b (4 * h) (p * (4 * h) + i + 1) := k1
        _ ≤ _ := by
          rw [le_div_iff₀ (by linarith)]
          nlinarith
    linarith
  · have hρ : max b.b2 (b.b1 ^ 2) < 1 := max_lt h2' (by nlinarith)
    have hρ0 : 0 ≤ max b.b2 (b.b1 ^ 2) := h2.le.trans (le_max_left _ _)
    refine (tendsto_pow_four hρ0 hρ 3 (by norm_num : (0 : ℝ) < 1 / 4)).mono fun h k p i hi hhi => ?_
    have k1 := bel_upper hb (le_max_left b.b2 (b.b1 ^ 2)) (le_max_right _ _) p i hi
    set ρ := max b.b2 (b.b1 ^ 2)
    have k2 : ρ ^ i ≤ ρ ^ h := pow_le_pow_of_le_one hρ0 hρ.le hhi
    have hi' : (i : ℝ) + 1 ≤ (4 * h : Nat) + 1 := by
      have : (i : ℝ) ≤ (4 * h : Nat) := by exact_mod_cast hi.le
      linarith
    have k3 : ρ ^ i * ((i + 1 : ℝ) * (4 * (((4 * h : Nat) : ℝ) + 1) ^ 2)) ≤ 1 := by
      calc ρ ^ i * ((i + 1 : ℝ) * (4 * (((4 * h : Nat) : ℝ) + 1) ^ 2))
          ≤ ρ ^ h * ((((4 * h : Nat) : ℝ) + 1) * (4 * (((4 * h : Nat) : ℝ) + 1) ^ 2)) := by
            apply mul_le_mul k2 (mul_le_mul_of_nonneg_right hi' (by positivity)) (by positivity) (by positivity)
        _ = 4 * (ρ ^ h * (((4 * h : Nat) : ℝ) + 1) ^ 3) := by ring
        _ ≤ 1 := by linarith
    obtain ⟨j1, j2⟩ := pow_corr h2.le h2' (p * (4 * h) + i)
    have k4 : √(belSaw b (4 * h) (p * (4 * h) + i + 1) / (1 - b.b2 ^ (p * (4 * h) + i + 1))) ≤
        √((1 + b.eps / (1 - b.b2)) / (1 - b.b2)) := by
      apply Real.sqrt_le_sqrt
      exact div_le_div₀ (by positivity) (by linarith) hp2 j1
    linarith

/-! ### OptimisticAdam -/

/-- The direction of Adam after `t` gradients. -/
noncomputable def optSaw (b : Betas) (n t : Nat) : ℝ :=
  emaSaw b.b1 n t / (1 - b.b1 ^ t) / (√(sqSaw b.b2 n t / (1 - b.b2 ^ t)) + b.eps)

theorem optimisticAdam_state (b : Betas) (a : ℝ) (n t : Nat) :
    (sawRun (optimisticAdam b) a n t).1 = ⟨emaSaw b.b1 n t, sqSaw b.b2 n t, optSaw b n t, t⟩ := by
  induction t with
  | zero => simp [sawRun, optimisticAdam, emaSaw, sqSaw, optSaw]
  | succ t ih => simp only [sawRun, optimisticAdam, emaSaw, sqSaw, optSaw] at ih ⊢; rw [ih]

theorem opt_lower (hb : BetasOk b) {n : Nat} (hn : 0 < n) (t : Nat) : -(1 / (1 + b.eps)) ≤ optSaw b n t := by
  have he := hb.eps
  rcases t with _ | t
  · simp only [optSaw, emaSaw, zero_div]
    have : 0 ≤ 1 / (1 + b.eps) := by positivity
    linarith
  obtain ⟨j1, j2⟩ := pow_corr hb.b1 hb.b1' t
  obtain ⟨l1, l2⟩ := pow_corr hb.b2.le hb.b2' t
  have j0 : 0 < 1 - b.b1 ^ (t + 1) := by linarith [hb.b1']
  have l0 : 0 < 1 - b.b2 ^ (t + 1) := by linarith [hb.b2']
  have k1 : -1 ≤ emaSaw b.b1 n (t + 1) / (1 - b.b1 ^ (t + 1)) := by
    rw [le_div_iff₀ j0]
    linarith [(ema_bounds hb.b1 hb.b1' hn (t + 1)).1]
  have k2 : 1 ≤ √(sqSaw b.b2 n (t + 1) / (1 - b.b2 ^ (t + 1))) := by
    rw [Real.one_le_sqrt, one_le_div l0]
    exact (sq_bounds hb.b2.le hb.b2' hn (t + 1)).1
  unfold optSaw
  rw [← neg_div, div_le_div_iff₀ (by linarith) (by linarith)]
  nlinarith

theorem opt_upper (hb : BetasOk b) {n : Nat} (hn : 0 < n) (t : Nat) : optSaw b n t ≤ n / (1 - b.b1) / b.eps := by
  have he := hb.eps
  have hp : 0 < 1 - b.b1 := by linarith [hb.b1']
  rcases t with _ | t
  · simp only [optSaw, emaSaw, zero_div]
    positivity
  obtain ⟨j1, j2⟩ := pow_corr hb.b1 hb.b1' t
  unfold optSaw
  refine div_le_div₀ (by positivity) ?_ he (by linarith [Real.sqrt_nonneg (sqSaw b.b2 n (t + 1) / (1 - b.b2 ^ (t + 1)))])
  exact div_le_div₀ (by positivity) (ema_bounds hb.b1 hb.b1' hn (t + 1)).2 hp j1

theorem opt_early (hb : BetasOk b) {n : Nat} (p : Nat) {i : Nat} (hi : i < n) : optSaw b n (p * n + i + 1) ≤
    2 / (1 - b.b1) * (b.b1 ^ i * n) / max (√b.b2 ^ i * (√(1 - b.b2) * n)) b.eps := by
  have he := hb.eps
  have hp : 0 < 1 - b.b1 := by linarith [hb.b1']
  obtain ⟨j1, j2⟩ := pow_corr hb.b1 hb.b1' (p * n + i)
  obtain ⟨l1, l2⟩ := pow_corr hb.b2.le hb.b2' (p * n + i)
  have l0 : 0 < 1 - b.b2 ^ (p * n + i + 1) := by linarith [hb.b2']
  have hX : 0 ≤ b.b1 ^ i * (n : ℝ) := mul_nonneg (pow_nonneg hb.b1 i) (by positivity)
  unfold optSaw
  refine div_le_div₀ (by positivity) ?_ (lt_max_of_lt_right he) (max_le ?_ ?_)
  · calc emaSaw b.b1 n (p * n + i + 1) / (1 - b.b1 ^ (p * n + i + 1)) ≤ 2 * (b.b1 ^ i * n) / (1 - b.b1) :=
          div_le_div₀ (by positivity) (ema_early hb.b1 hb.b1' p hi).1 hp j1
      _ = _ := by ring
  · have k := sq_early hb.b2.le hb.b2' p hi
    have : √(sqSaw b.b2 n (p * n + i + 1)) ≤ √(sqSaw b.b2 n (p * n + i + 1) / (1 - b.b2 ^ (p * n + i + 1))) := by
      apply Real.sqrt_le_sqrt
      rw [le_div_iff₀ l0]
      nlinarith [sq_nonneg' hb.b2.le hb.b2' (by omega : 0 < n) (p * n + i + 1)]
    linarith
  · linarith [Real.sqrt_nonneg (sqSaw b.b2 n (p * n + i + 1) / (1 - b.b2 ^ (p * n + i + 1)))]

theorem opt_late (hb : BetasOk b) : ∀ᶠ h in atTop, ∀ p i, i < 4 * h → h ≤ i →
    optSaw b (4 * h) (p * (4 * h) + i + 1) ≤ -(7 / 9 * (1 / (1 + b.eps))) := by
  have he := hb.eps
  refine ((ema_late hb.b1 hb.b1' (by norm_num : (0 : ℝ) < 1 / 8)).and (sq_late hb.b2.le hb.b2' (by norm_num : (0 : ℝ) < 1 / 4))).mono
    fun h ⟨k1, k2⟩ p i hi hhi => ?_
  have m := (k1 p i hi hhi).2
  have v : √(sqSaw b.b2 (4 * h) (p * (4 * h) + i + 1) / (1 - b.b2 ^ (p * (4 * h) + i + 1))) ≤ 9 / 8 := by
    rw [Real.sqrt_le_left (by norm_num)]
    linarith [(k2 p i hi hhi).2]
  have v0 := Real.sqrt_nonneg (sqSaw b.b2 (4 * h) (p * (4 * h) + i + 1) / (1 - b.b2 ^ (p * (4 * h) + i + 1)))
  unfold optSaw
  rw [div_le_iff₀ (by linarith)]
  have w : 7 / 9 * (1 / (1 + b.eps)) * (√(sqSaw b.b2 (4 * h) (p * (4 * h) + i + 1) / (1 - b.b2 ^ (p * (4 * h) + i + 1))) + b.eps) ≤
      7 / 8 := by
    rw [mul_one_div, div_mul_eq_mul_div, div_le_iff₀ (by linarith)]
    linarith
  linarith

/-- OptimisticAdam stays away, whatever its parameters. -/
theorem C261_optimisticAdam_stays (h1 : 0 ≤ b.b1) (h1' : b.b1 < 1) (h2 : 0 < b.b2) (h2' : b.b2 < 1) (he : 0 < b.eps) :
    StaysAway (optimisticAdam b) := by
  have hb : BetasOk b := ⟨h1, h1', h2, h2', he⟩
  have hp : 0 < 1 - b.b1 := by linarith
  set w := 1 / (1 + b.eps) with hw
  have hw0 : 0 < w := by rw [hw]; positivity
  obtain ⟨h, ⟨k1, k2⟩, hh⟩ := (((opt_late hb).and (sum_small h1 h1' (Real.sqrt_pos.2 h2) (Real.sqrt_le_one.2 h2'.le)
    (by positivity : 0 ≤ 2 * (2 / (1 - b.b1))) (Real.sqrt_pos.2 (by linarith : 0 < 1 - b.b2)) he
    (by positivity : 0 < 2 / 3 * w))).and (eventually_ge_atTop 1)).exists
  set X := fun i : Nat => 2 / (1 - b.b1) * (b.b1 ^ i * (4 * h : Nat)) / max (√b.b2 ^ i * (√(1 - b.b2) * (4 * h : Nat))) b.eps with hX
  have hX0 : ∀ i, 0 ≤ X i := fun i => div_nonneg (mul_nonneg (by positivity) (mul_nonneg (pow_nonneg h1 i) (by positivity)))
    (he.le.trans (le_max_right _ _))
  have hupd : ∀ a t, ((optimisticAdam b).update (sawRun (optimisticAdam b) a (4 * h) t).1 a (saw (4 * h) (t % (4 * h)))
      (sawRun (optimisticAdam b) a (4 * h) t).2).2 = (sawRun (optimisticAdam b) a (4 * h) t).2 -
        a * (2 * optSaw b (4 * h) (t + 1) - optSaw b (4 * h) t) := by
    intro a t
    rw [optimisticAdam_state]
    simp only [optimisticAdam, optSaw, emaSaw, sqSaw]
    ring
  have hn : 0 < 4 * h := by omega
  refine stays_of_sawtooth (n := 4 * h) (drop := fun i => 2 * X i + if i < h then w else 0)
    (rise := fun i => if h ≤ i then 5 / 9 * w else 0) (U := 2 * w + (4 * h : Nat) / (1 - b.b1) / b.eps)
    ⟨hn, fun i => ?_, fun i => ?_, by positivity, ?_, fun a p i ha hi => ?_, fun a p i ha hi => ?_⟩
  · have := hX0 i
    split_ifs <;> linarith
  · split_ifs <;> linarith
  · rw [late_sum, Finset.sum_add_distrib]
    have e1 : ∑ i ∈ Finset.range (4 * h), 2 * X i ≤ h * (2 / 3 * w) := by
      refine le_trans (le_of_eq (Finset.sum_congr rfl fun i _ => ?_)) k2
      rw [hX]
      ring
    have e2 : ∑ i ∈ Finset.range (4 * h), (if i < h then w else 0) = h * w := by
      have : Finset.range (4 * h) = Finset.range (h + 3 * h) := by congr 1; omega
      rw [this, Finset.sum_range_add]
      have q1 : ∑ x ∈ Finset.range h, (if x < h then w else 0) = h * w := by
        rw [Finset.sum_congr rfl fun x hx => if_pos (Finset.mem_range.1 hx), Finset.sum_const, Finset.card_range, nsmul_eq_mul]
      have q2 : ∑ x ∈ Finset.range (3 * h), (if h + x < h then w else 0) = 0 :=
        Finset.sum_eq_zero fun x _ => if_neg (by omega)
      rw [q1, q2, add_zero]
    rw [e2]
    linarith
  · rw [hupd]
    have u1 := opt_early hb p hi
    have u2 := opt_lower hb hn (p * (4 * h) + i)
    rw [← hw] at u2
    have x0 := hX0 i
    by_cases hc : h ≤ i
    · have u3 := k1 p i hi hc
      rw [← hw] at u3
      simp only [if_pos hc, if_neg (by omega : ¬ i < h)]
      have := mul_nonneg ha.le x0
      nlinarith
    · simp only [if_neg hc, if_pos (by omega : i < h)]
      have u4 : 2 * optSaw b (4 * h) (p * (4 * h) + i + 1) - optSaw b (4 * h) (p * (4 * h) + i) ≤ 2 * X i + w := by linarith
      have := mul_le_mul_of_nonneg_left u4 ha.le
      linarith
  · rw [hupd]
    have u1 := opt_lower hb hn (p * (4 * h) + i + 1)
    have u2 := opt_upper hb hn (p * (4 * h) + i)
    rw [← hw] at u1
    have u4 : -(2 * w + (4 * h : Nat) / (1 - b.b1) / b.eps) ≤
        2 * optSaw b (4 * h) (p * (4 * h) + i + 1) - optSaw b (4 * h) (p * (4 * h) + i) := by linarith
    have := mul_le_mul_of_nonneg_left u4 ha.le
    linarith

/-! ### None of them comes close on average -/

theorem C261_adaMax_refuted (h1 : 0 ≤ b.b1) (h1' : b.b1 < 1) (h2 : 0 < b.b2) (h2' : b.b2 < 1) (he : 0 < b.eps) :
    ¬ CloseOnAverage (lift (adaMax b) : UpdPol (Fin 1 → Mom) ℝ (Vec 1) (Vec 1)) :=
  not_close (C261_adaMax_stays h1 h1' h2 h2' he)

theorem C261_nadam_refuted {decay : ℝ} (h1 : 0 ≤ b.b1) (h1' : b.b1 < 1) (h2 : 0 < b.b2) (h2' : b.b2 < 1) (he : 0 < b.eps) (hd : 0 ≤ decay) :
    ¬ CloseOnAverage (lift (nadam b decay) : UpdPol (Fin 1 → NMom) ℝ (Vec 1) (Vec 1)) :=
  not_close (C261_nadam_stays h1 h1' h2 h2' he hd)

theorem C261_nadaMax_refuted {decay : ℝ} (h1 : 0 ≤ b.b1) (h1' : b.b1 < 1) (h2 : 0 < b.b2) (h2' : b.b2 < 1) (he : 0 < b.eps) (hd : 0 ≤ decay) :
    ¬ CloseOnAverage (lift (nadaMax b decay) : UpdPol (Fin 1 → NMom) ℝ (Vec 1) (Vec 1)) :=
  not_close (C261_nadaMax_stays h1 h1' h2 h2' he hd)

theorem C261_qhAdam_refuted {nu1 nu2 : ℝ} (h1 : 0 ≤ b.b1) (h1' : b.b1 < 1) (h2 : 0 < b.b2) (h2' : b.b2 < 1) (he : 0 < b.eps)
    (hn1 : 0 ≤ nu1) (hn1' : nu1 ≤ 1) (hn2 : 0 < nu2) (hn2' : nu2 ≤ 1) :
    ¬ CloseOnAverage (lift (qhAdam b nu1 nu2) : UpdPol (Fin 1 → Mom) ℝ (Vec 1) (Vec 1)) :=
  not_close (C261_qhAdam_stays h1 h1' h2 h2' he hn1 hn1' hn2 hn2')

theorem C261_adaBelief_refuted (h1 : 0 < b.b1) (h1' : b.b1 < 1) (h2 : 0 < b.b2) (h2' : b.b2 < 1) (he : 0 < b.eps) :
    ¬ CloseOnAverage (lift (adaBelief b) : UpdPol (Fin 1 → Mom) ℝ (Vec 1) (Vec 1)) :=
  not_close (C261_adaBelief_stays h1 h1' h2 h2' he)

theorem C261_optimisticAdam_refuted (h1 : 0 ≤ b.b1) (h1' : b.b1 < 1) (h2 : 0 < b.b2) (h2' : b.b2 < 1) (he : 0 < b.eps) :
    ¬ CloseOnAverage (lift (optimisticAdam b) : UpdPol (Fin 1 → OMom) ℝ (Vec 1) (Vec 1)) :=
  not_close (C261_optimisticAdam_stays h1 h1' h2 h2' he)

/-! The default parameters. -/

example : ¬ CloseOnAverage (lift (adaMax ⟨0.9, 0.999, 1e-8⟩) : UpdPol (Fin 1 → Mom) ℝ (Vec 1) (Vec 1)) :=
  C261_adaMax_refuted (by norm_num) (by norm_num) (by norm_num) (by norm_num) (by norm_num)

example : ¬ CloseOnAverage (lift (nadam ⟨0.9, 0.999, 1e-8⟩ 4e-3) : UpdPol (Fin 1 → NMom) ℝ (Vec 1) (Vec 1)) :=
  C261_nadam_refuted (by norm_num) (by norm_num) (by norm_num) (by norm_num) (by norm_num) (by norm_num)

example : ¬ CloseOnAverage (lift (nadaMax ⟨0.9, 0.999, 1e-8⟩ 4e-3) : UpdPol (Fin 1 → NMom) ℝ (Vec 1) (Vec 1)) :=
  C261_nadaMax_refuted (by norm_num) (by norm_num) (by norm_num) (by norm_num) (by norm_num) (by norm_num)

example : ¬ CloseOnAverage (lift (qhAdam ⟨0.9, 0.999, 1e-8⟩ 0.7 1) : UpdPol (Fin 1 → Mom) ℝ (Vec 1) (Vec 1)) :=
  C261_qhAdam_refuted (by norm_num) (by norm_num) (by norm_num) (by norm_num) (by norm_num) (by norm_num) (by norm_num) (by norm_num) (by norm_num)

example : ¬ CloseOnAverage (lift (adaBelief ⟨0.9, 0.999, 1e-12⟩) : UpdPol (Fin 1 → Mom) ℝ (Vec 1) (Vec 1)) :=
  C261_adaBelief_refuted (by norm_num) (by norm_num) (by norm_num) (by norm_num) (by norm_num)

example : ¬ CloseOnAverage (lift (optimisticAdam ⟨0.9, 0.999, 1e-8⟩) : UpdPol (Fin 1 → OMom) ℝ (Vec 1) (Vec 1)) :=
  C261_optimisticAdam_refuted (by norm_num) (by norm_num) (by norm_num) (by norm_num) (by norm_num)

end Ens.Converge
