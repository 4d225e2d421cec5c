import Verif.Update.Moments
import Mathlib.Algebra.BigOperators.Intervals
import Mathlib.Algebra.BigOperators.Ring.Finset
import Mathlib.Order.Bounds.Basic

/-
C177: the moves of the adaptive policies as explicit functions of all gradients so far, as published.
-/

namespace Ens.Update

open Finset

variable {S : Type}

/-- State and coordinate after `n` updates with step sizes `a` and gradients `g`. -/
def traj (P : Policy S) (x : ℝ) (a g : ℕ → ℝ) (n : ℕ) : S × ℝ :=
  run P P.init x ((List.range n).map fun i => (a i, g i))

/-- Exponential average of `h 0, ..., h n`. -/
noncomputable def avg (β : ℝ) (h : ℕ → ℝ) (n : ℕ) : ℝ := (1 - β) * ∑ i ∈ range (n + 1), β ^ (n - i) * h i

theorem traj_succ (P : Policy S) (x : ℝ) (a g : ℕ → ℝ) (n : ℕ) :
    traj P x a g (n + 1) = P.update (traj P x a g n).1 (a n) (g n) (traj P x a g n).2 := by
  unfold traj
  rw [List.range_succ, List.map_append, run_append]
  rfl

theorem avg_of_rec {m : ℕ → ℝ} {β : ℝ} {h : ℕ → ℝ} (h0 : m 0 = 0) (hs : ∀ n, m (n + 1) = m n * β + (1 - β) * h n) (n : ℕ) :
    m (n + 1) = avg β h n := by
  induction n with
  | zero => rw [hs, h0, avg]; simp
  | succ n ih =>
    rw [hs, ih, avg, avg, sum_range_succ _ (n + 1), Nat.sub_self, pow_zero, one_mul, mul_add, mul_right_comm, mul_sum, mul_sum]
    congr 1
    refine sum_congr rfl fun i hi => ?_
    rw [show n + 1 - i = (n - i) + 1 by have := mem_range.1 hi; omega, pow_succ]
    ring

theorem sum_of_rec {m h : ℕ → ℝ} (h0 : m 0 = 0) (hs : ∀ n, m (n + 1) = m n + h n) (n : ℕ) :
    m n = ∑ i ∈ range n, h i := by
  induction n with
  | zero => simpa using h0
  | succ n ih => rw [hs, ih, sum_range_succ]

theorem count_of_rec {t : ℕ → ℕ} (h0 : t 0 = 0) (hs : ∀ n, t (n + 1) = t n + 1) (n : ℕ) : t n = n := by
  induction n with
  | zero => exact h0
  | succ n ih => rw [hs, ih]

theorem max_of_rec {u v : ℕ → ℝ} (h0 : u 0 = 0) (hs : ∀ n, u (n + 1) = max (u n) (v (n + 1))) (hv : ∀ n, 0 ≤ v (n + 1)) (n : ℕ) :
    IsGreatest {y | ∃ k ≤ n, y = v (k + 1)} (u (n + 1)) := by
  induction n with
  | zero =>
    rw [hs, h0, max_eq_right (hv 0)]
    refine ⟨⟨0, le_refl _, rfl⟩, ?_⟩
    rintro y ⟨k, hk, rfl⟩
    rw [Nat.le_zero.1 hk]
  | succ n ih =>
    rw [hs]
    obtain ⟨⟨k, hk, hku⟩, ih2⟩ := ih
    refine ⟨?_, ?_⟩
    · rcases max_choice (u (n + 1)) (v (n + 1 + 1)) with h | h
      · exact ⟨k, by omega, by rw [h, hku]⟩
      · exact ⟨n + 1, le_refl _, h⟩
    · rintro y ⟨j, hj, rfl⟩
      rcases Nat.lt_or_ge n j with h | h
      · rw [show j = n + 1 by omega]; exact le_max_right _ _
      · exact le_trans (ih2 ⟨j, h, rfl⟩) (le_max_left _ _)

theorem decayed_max_of_rec {u h : ℕ → ℝ} {β : ℝ} (hβ : 0 ≤ β) (h0 : u 0 = 0) (hs : ∀ n, u (n + 1) = max (u n * β) |h n|) (n : ℕ) :
    IsGreatest {y | ∃ i ≤ n, y = β ^ (n - i) * |h i|} (u (n + 1)) := by
  induction n with
  | zero =>
    rw [hs, h0, zero_mul, max_eq_right (abs_nonneg _)]
    refine ⟨⟨0, le_refl _, by simp⟩, ?_⟩
    rintro y ⟨k, hk, rfl⟩
    rw [Nat.le_zero.1 hk]; simp
  | succ n ih =>
    rw [hs]
    obtain ⟨⟨k, hk, hku⟩, ih2⟩ := ih
    have hp : ∀ i ≤ n, β ^ (n + 1 - i) * |h i| = β ^ (n - i) * |h i| * β := fun i hi => by
      rw [show n + 1 - i = (n - i) + 1 by omega, pow_succ]; ring
    refine ⟨?_, ?_⟩
    · rcases max_choice (u (n + 1) * β) |h (n + 1)| with hc | hc
      · exact ⟨k, by omega, by rw [hc, hku, hp k hk]⟩
      · exact ⟨n + 1, le_refl _, by rw [hc]; simp⟩
    · rintro y ⟨j, hj, rfl⟩
      rcases Nat.lt_or_ge n j with hc | hc
      · rw [show j = n + 1 by omega]; simp
      · rw [hp j hc]
        exact le_trans (mul_le_mul_of_nonneg_right (ih2 ⟨j, hc, rfl⟩) hβ) (le_max_left _ _)

theorem avg_nonneg {β : ℝ} (h0 : 0 ≤ β) (h1 : β ≤ 1) {h : ℕ → ℝ} (hh : ∀ i, 0 ≤ h i) (n : ℕ) : 0 ≤ avg β h n :=
  mul_nonneg (by linarith) (sum_nonneg fun i _ => mul_nonneg (pow_nonneg h0 _) (hh i))

/-! ### Sums of squares -/

/-- **C177** AdaGrad. -/
theorem C177_adaGrad (e x : ℝ) (a g : ℕ → ℝ) (n : ℕ) :
    (traj (adaGrad e) x a g (n + 1)).2 = (traj (adaGrad e) x a g n).2 - a n * g n / (√(∑ i ∈ range (n + 1), g i ^ 2) + e) := by
  have h := sum_of_rec (m := fun n => (traj (adaGrad e) x a g n).1) (h := fun i => g i ^ 2) rfl
    (fun n => by (try dsimp only); rw [traj_succ, sq]; rfl) (n + 1)
  try dsimp only at h
  rw [← h, traj_succ]
  rfl

/-- **C177** AdaSqrt. -/
theorem C177_adaSqrt (e x : ℝ) (a g : ℕ → ℝ) (n : ℕ) :
    (traj (adaSqrt e) x a g (n + 1)).2 =
      (traj (adaSqrt e) x a g n).2 - a n * √((n : ℝ) + 1) * g n / ((∑ i ∈ range (n + 1), g i ^ 2) + e) := by
  have h := sum_of_rec (m := fun n => (traj (adaSqrt e) x a g n).1.1) (h := fun i => g i ^ 2) rfl
    (fun n => by (try dsimp only); rw [traj_succ, sq]; rfl) (n + 1)
  have ht := count_of_rec (t := fun n => (traj (adaSqrt e) x a g n).1.2) rfl (fun n => by (try dsimp only); rw [traj_succ]; rfl) (n + 1)
  try dsimp only at h ht
  have hc : (n : ℝ) + 1 = ((n + 1 : ℕ) : ℝ) := by push_cast; ring
  have hx : (traj (adaSqrt e) x a g (n + 1)).2 = (traj (adaSqrt e) x a g n).2 -
      a n * √((traj (adaSqrt e) x a g (n + 1)).1.2 : ℝ) * g n / ((traj (adaSqrt e) x a g (n + 1)).1.1 + e) := by
    rw [traj_succ]; rfl
  rw [hx, h, ht, hc]

/-! ### Exponential averages -/

/-- **C177** RMSProp. -/
theorem C177_rmsProp (al e x : ℝ) (a g : ℕ → ℝ) (n : ℕ) :
    (traj (rmsProp al e) x a g (n + 1)).2 =
      (traj (rmsProp al e) x a g n).2 - a n * g n / (√(avg al (fun i => g i ^ 2) n) + e) := by
  have h := avg_of_rec (m := fun n => (traj (rmsProp al e) x a g n).1) (h := fun i => g i ^ 2) (β := al) rfl
    (fun n => by (try dsimp only); rw [traj_succ, sq]; rfl) n
  rw [← h]
  (try dsimp only)
  rw [traj_succ]
  rfl

/-- **C177** AdaDelta: the moves are `a dx` for the sequence `dx` with
`dx_n = RMS(dx_0 .. dx_{n-1}) / RMS(g_0 .. g_n) g_n`. -/
theorem C177_adaDelta (r e x : ℝ) (a g : ℕ → ℝ) :
    ∃ dx : ℕ → ℝ, dx 0 = √(e / (avg r (fun i => g i ^ 2) 0 + e)) * g 0 ∧
      (∀ n, dx (n + 1) = √((avg r (fun i => dx i ^ 2) n + e) / (avg r (fun i => g i ^ 2) (n + 1) + e)) * g (n + 1)) ∧
      ∀ n, (traj (adaDelta r e) x a g (n + 1)).2 = (traj (adaDelta r e) x a g n).2 - a n * dx n := by
  let dx : ℕ → ℝ := fun n => √(((traj (adaDelta r e) x a g n).1.2 + e) / ((traj (adaDelta r e) x a g (n + 1)).1.1 + e)) * g n
  have h := avg_of_rec (m := fun n => (traj (adaDelta r e) x a g n).1.1) (h := fun i => g i ^ 2) (β := r) rfl
    (fun n => by (try dsimp only); rw [traj_succ, sq]; rfl)
  have hd := avg_of_rec (m := fun n => (traj (adaDelta r e) x a g n).1.2) (h := fun i => dx i ^ 2) (β := r) rfl
    (fun n => by try dsimp only [dx]; rw [sq, traj_succ]; rfl)
  try dsimp only at h hd
  refine ⟨dx, ?_, ?_, ?_⟩
  · rw [← h]
    show √((0 + e) / _) * _ = _
    rw [zero_add]
  · intro n
    rw [← h, ← hd]
  · intro n
    try dsimp only [dx]
    rw [traj_succ]
    rfl

/-- **C177** AdaDelta moves no further than `a √((E + eps) / (1 - rho))`, where `E` is the average of the squared moves. -/
theorem C177_adaDelta_bound {r e : ℝ} (h0 : 0 ≤ r) (h1 : r < 1) (he : 0 < e) (x : ℝ) (a g : ℕ → ℝ) (ha : ∀ n, 0 ≤ a n) (n : ℕ) :
    |(traj (adaDelta r e) x a g (n + 1)).2 - (traj (adaDelta r e) x a g n).2| ≤
      a n * √(((traj (adaDelta r e) x a g n).1.2 + e) / (1 - r)) := by
  obtain ⟨p1, p2, p3⟩ := C57_adaDelta h0 h1 he ((List.range n).map fun i => (a i, g i)) x
  rw [traj_succ]
  change 0 ≤ (traj (adaDelta r e) x a g n).1.1 at p1
  change 0 ≤ (traj (adaDelta r e) x a g n).1.2 at p2
  generalize traj (adaDelta r e) x a g n = s at *
  show |s.2 - a n * (√((s.1.2 + e) / (s.1.1 * r + (1 - r) * (g n * g n) + e)) * g n) - s.2| ≤ _
  rw [show s.2 - a n * (√((s.1.2 + e) / (s.1.1 * r + (1 - r) * (g n * g n) + e)) * g n) - s.2 =
    -(a n * (√((s.1.2 + e) / (s.1.1 * r + (1 - r) * (g n * g n) + e)) * g n)) by ring, abs_neg, abs_mul, abs_of_nonneg (ha n)]
  refine mul_le_mul_of_nonneg_left ?_ (ha n)
  refine Real.le_sqrt_of_sq_le ?_
  have hr : 0 < 1 - r := by linarith
  have hq : 0 < s.1.1 * r + (1 - r) * (g n * g n) + e := by
    have := mul_nonneg p1 h0
    have := mul_nonneg hr.le (mul_self_nonneg (g n))
    linarith
  have hE : 0 < s.1.2 + e := by linarith
  rw [sq_abs, mul_pow, Real.sq_sqrt (div_pos hE hq).le, div_mul_eq_mul_div, div_le_div_iff₀ hq hr]
  have : (1 - r) * (g n * g n) ≤ s.1.1 * r + (1 - r) * (g n * g n) + e := by nlinarith [mul_nonneg p1 h0]
  nlinarith [mul_le_mul_of_nonneg_left this hE.le]

/-- **C177** Adam. -/
theorem C177_adam (b : Betas) (x : ℝ) (a g : ℕ → ℝ) (n : ℕ) :
    (traj (adam b) x a g (n + 1)).2 = (traj (adam b) x a g n).2 - a n * √(1 - b.b2 ^ (n + 1)) / (1 - b.b1 ^ (n + 1)) *
      avg b.b1 g n / (√(avg b.b2 (fun i => g i ^ 2) n) + b.eps) := by
  have hm := avg_of_rec (m := fun n => (traj (adam b) x a g n).1.m) (h := g) (β := b.b1) rfl
    (fun n => by (try dsimp only); rw [traj_succ]; rfl) n
  have hv := avg_of_rec (m := fun n => (traj (adam b) x a g n).1.v) (h := fun i => g i ^ 2) (β := b.b2) rfl
    (fun n => by (try dsimp only); rw [traj_succ, sq]; rfl) n
  have ht := count_of_rec (t := fun n => (traj (adam b) x a g n).1.t) rfl (fun n => by (try dsimp only); rw [traj_succ]; rfl) (n + 1)
  have hx : (traj (adam b) x a g (n + 1)).2 = (traj (adam b) x a g n).2 - a n * √(1 - b.b2 ^ (traj (adam b) x a g (n + 1)).1.t) / (1 - b.b1 ^ (traj (adam b) x a g (n + 1)).1.t) *
      (traj (adam b) x a g (n + 1)).1.m / (√(traj (adam b) x a g (n + 1)).1.v + b.eps) := by
    rw [traj_succ]; rfl
  rw [hx, hm, hv, ht]

/-- **C177** AMSGrad: the largest average so far. -/
theorem C177_amsGrad {b : Betas} (h0 : 0 ≤ b.b2) (h1 : b.b2 ≤ 1) (x : ℝ) (a g : ℕ → ℝ) (n : ℕ) :
    ∃ v, IsGreatest {y | ∃ k ≤ n, y = avg b.b2 (fun i => g i ^ 2) k} v ∧
      (traj (amsGrad b) x a g (n + 1)).2 = (traj (amsGrad b) x a g n).2 -
        a n * √(1 - b.b2 ^ (n + 1)) / (1 - b.b1 ^ (n + 1)) * avg b.b1 g n / (√v + b.eps) := by
  have hm := avg_of_rec (m := fun n => (traj (amsGrad b) x a g n).1.m) (h := g) (β := b.b1) rfl
    (fun n => by (try dsimp only); rw [traj_succ]; rfl) n
  have hv := avg_of_rec (m := fun n => (traj (amsGrad b) x a g n).1.v) (h := fun i => g i ^ 2) (β := b.b2) rfl
    (fun n => by (try dsimp only); rw [traj_succ, sq]; rfl)
  have ht := count_of_rec (t := fun n => (traj (amsGrad b) x a g n).1.t) rfl (fun n => by (try dsimp only); rw [traj_succ]; rfl) (n + 1)
  have hu := max_of_rec (u := fun n => (traj (amsGrad b) x a g n).1.vi) (v := fun n => (traj (amsGrad b) x a g n).1.v) rfl
    (fun n => by (try dsimp only); rw [traj_succ]; rfl) (fun n => by rw [hv]; exact avg_nonneg h0 h1 (fun i => sq_nonneg _) n) n
  try dsimp only at hm hv ht hu
  simp only [hv] at hu
  refine ⟨_, hu, ?_⟩
  have hx : (traj (amsGrad b) x a g (n + 1)).2 = (traj (amsGrad b) x a g n).2 - a n * √(1 - b.b2 ^ (traj (amsGrad b) x a g (n + 1)).1.t) / (1 - b.b1 ^ (traj (amsGrad b) x a g (n + 1)).1.t) *
      (traj (amsGrad b) x a g (n + 1)).1.m / (√(traj (amsGrad b) x a g (n + 1)).1.vi + b.eps) := by
    rw [traj_succ]; rfl
  rw [hx, hm, ht]

/-- **C177** Padam. -/
theorem C177_padam {b : Betas} (h0 : 0 ≤ b.b2) (h1 : b.b2 ≤ 1) (part x : ℝ) (a g : ℕ → ℝ) (n : ℕ) :
    ∃ v, IsGreatest {y | ∃ k ≤ n, y = avg b.b2 (fun i => g i ^ 2) k} v ∧
      (traj (padam b part) x a g (n + 1)).2 = (traj (padam b part) x a g n).2 -
        a n * √(1 - b.b2 ^ (n + 1)) / (1 - b.b1 ^ (n + 1)) * avg b.b1 g n / (v + b.eps) ^ part := by
  have hm := avg_of_rec (m := fun n => (traj (padam b part) x a g n).1.m) (h := g) (β := b.b1) rfl
    (fun n => by (try dsimp only); rw [traj_succ]; rfl) n
  have hv := avg_of_rec (m := fun n => (traj (padam b part) x a g n).1.v) (h := fun i => g i ^ 2) (β := b.b2) rfl
    (fun n => by (try dsimp only); rw [traj_succ, sq]; rfl)
  have ht := count_of_rec (t := fun n => (traj (padam b part) x a g n).1.t) rfl (fun n => by (try dsimp only); rw [traj_succ]; rfl)
    (n + 1)
  have hu := max_of_rec (u := fun n => (traj (padam b part) x a g n).1.vi) (v := fun n => (traj (padam b part) x a g n).1.v) rfl
    (fun n => by (try dsimp only); rw [traj_succ]; rfl) (fun n => by rw [hv]; exact avg_nonneg h0 h1 (fun i => sq_nonneg _) n) n
  try dsimp only at hm hv ht hu
  simp only [hv] at hu
  refine ⟨_, hu, ?_⟩
  have hx : (traj (padam b part) x a g (n + 1)).2 = (traj (padam b part) x a g n).2 - a n * √(1 - b.b2 ^ (traj (padam b part) x a g (n + 1)).1.t) / (1 - b.b1 ^ (traj (padam b part) x a g (n + 1)).1.t) *
      (traj (padam b part) x a g (n + 1)).1.m / ((traj (padam b part) x a g (n + 1)).1.vi + b.eps) ^ part := by
    rw [traj_succ]; rfl
  rw [hx, hm, ht]

/-- **C177** AdaMax: the largest decayed gradient. -/
theorem C177_adaMax {b : Betas} (h1 : 0 ≤ b.b1) (h1' : b.b1 < 1) (h0 : 0 ≤ b.b2) (x : ℝ) (a g : ℕ → ℝ) (n : ℕ) :
    ∃ u, IsGreatest {y | ∃ i ≤ n, y = b.b2 ^ (n - i) * |g i|} u ∧
      (traj (adaMax b) x a g (n + 1)).2 = (traj (adaMax b) x a g n).2 - a n / (1 - b.b1 ^ (n + 1)) * avg b.b1 g n / (u + b.eps) := by
  have hm := avg_of_rec (m := fun n => (traj (adaMax b) x a g n).1.m) (h := g) (β := b.b1) rfl
    (fun n => by (try dsimp only); rw [traj_succ]; rfl) n
  have ht := count_of_rec (t := fun n => (traj (adaMax b) x a g n).1.t) rfl (fun n => by (try dsimp only); rw [traj_succ]; rfl)
  have hu := decayed_max_of_rec (u := fun n => (traj (adaMax b) x a g n).1.v) (h := g) h0 rfl
    (fun n => by (try dsimp only); rw [traj_succ]; rfl) n
  try dsimp only at hm ht hu
  refine ⟨_, hu, ?_⟩
  have hne : 1 - b.b1 ^ ((traj (adaMax b) x a g n).1.t + 1) ≠ 0 := (bias_pos h1 h1' _).ne'
  have hx : (traj (adaMax b) x a g (n + 1)).2 = (traj (adaMax b) x a g n).2 -
      a n / (1 - b.b1 ^ (traj (adaMax b) x a g (n + 1)).1.t) * (traj (adaMax b) x a g (n + 1)).1.m /
        ((traj (adaMax b) x a g (n + 1)).1.v + b.eps) := by
    rw [traj_succ]; exact if_pos hne
  rw [hx, hm, ht]

/-- **C177** OptimisticAdam. -/
theorem C177_optimisticAdam (b : Betas) (x : ℝ) (a g : ℕ → ℝ) (u : ℕ → ℝ) (hu : ∀ n, u n = avg b.b1 g n / (1 - b.b1 ^ (n + 1)) /
      (√(avg b.b2 (fun i => g i ^ 2) n / (1 - b.b2 ^ (n + 1))) + b.eps)) :
    (traj (optimisticAdam b) x a g 1).2 = x - 2 * a 0 * u 0 ∧
    ∀ n, (traj (optimisticAdam b) x a g (n + 2)).2 = (traj (optimisticAdam b) x a g (n + 1)).2 - 2 * a (n + 1) * u (n + 1) +
      a (n + 1) * u n := by
  have hm := avg_of_rec (m := fun n => (traj (optimisticAdam b) x a g n).1.m) (h := g) (β := b.b1) rfl
    (fun n => by (try dsimp only); rw [traj_succ]; rfl)
  have hv := avg_of_rec (m := fun n => (traj (optimisticAdam b) x a g n).1.v) (h := fun i => g i ^ 2) (β := b.b2) rfl
    (fun n => by (try dsimp only); rw [traj_succ, sq]; rfl)
  have ht := count_of_rec (t := fun n => (traj (optimisticAdam b) x a g n).1.t) rfl (fun n => by (try dsimp only); rw [traj_succ]; rfl)
  have hg : ∀ n, (traj (optimisticAdam b) x a g (n + 1)).1.g = u n := by
    intro n
    have hx : (traj (optimisticAdam b) x a g (n + 1)).1.g =
        (traj (optimisticAdam b) x a g (n + 1)).1.m / (1 - b.b1 ^ (traj (optimisticAdam b) x a g (n + 1)).1.t) /
          (√((traj (optimisticAdam b) x a g (n + 1)).1.v / (1 - b.b2 ^ (traj (optimisticAdam b) x a g (n + 1)).1.t)) + b.eps) := by
      rw [traj_succ]; rfl
    rw [hx, hu, hm, hv, ht]
  have hx : ∀ n, (traj (optimisticAdam b) x a g (n + 1)).2 = (traj (optimisticAdam b) x a g n).2 -
      (2 * a n * (traj (optimisticAdam b) x a g (n + 1)).1.g - a n * (traj (optimisticAdam b) x a g n).1.g) := by
    intro n
    rw [traj_succ]
    rfl
  refine ⟨?_, fun n => ?_⟩
  · rw [hx, hg]
    show x - (2 * a 0 * u 0 - a 0 * 0) = _
    ring
  · rw [hx, hg, hg]
    ring

/-- **C177** AdaBelief: the second average is that of the squared deviations, with `eps` added at every step. -/
theorem C177_adaBelief (b : Betas) (x : ℝ) (a g : ℕ → ℝ) (n : ℕ) :
    (traj (adaBelief b) x a g (n + 1)).2 = (traj (adaBelief b) x a g n).2 - avg b.b1 g n / (1 - b.b1 ^ (n + 1)) * a n /
      (√((avg b.b2 (fun i => (g i - avg b.b1 g i) ^ 2) n + b.eps * ∑ i ∈ range (n + 1), b.b2 ^ i) / (1 - b.b2 ^ (n + 1))) +
        b.eps) := by
  have hm := avg_of_rec (m := fun n => (traj (adaBelief b) x a g n).1.m) (h := g) (β := b.b1) rfl
    (fun n => by (try dsimp only); rw [traj_succ]; rfl)
  have hm' : ∀ n, (traj (adaBelief b) x a g n).1.m * b.b1 + (1 - b.b1) * g n = avg b.b1 g n := by
    intro n
    rw [← hm]; (try dsimp only); rw [traj_succ]; rfl
  have ht := count_of_rec (t := fun n => (traj (adaBelief b) x a g n).1.t) rfl (fun n => by (try dsimp only); rw [traj_succ]; rfl)
  have hgeo : ∀ n, ∑ i ∈ range (n + 1), b.b2 ^ i = (∑ i ∈ range n, b.b2 ^ i) * b.b2 + 1 := by
    intro n
    rw [sum_range_succ', sum_mul]
    simp [pow_succ]
  have hv : ∀ n, (traj (adaBelief b) x a g (n + 1)).1.v = avg b.b2 (fun i => (g i - avg b.b1 g i) ^ 2) n +
      b.eps * ∑ i ∈ range (n + 1), b.b2 ^ i := by
    have := avg_of_rec (m := fun n => (traj (adaBelief b) x a g n).1.v - b.eps * ∑ i ∈ range n, b.b2 ^ i)
      (h := fun i => (g i - avg b.b1 g i) ^ 2) (β := b.b2) (by (try dsimp only); simp [traj, run, adaBelief]) (fun n => by
        try dsimp only
        rw [hgeo, traj_succ, ← hm' n]
        show (traj (adaBelief b) x a g n).1.v * b.b2 + ((1 - b.b2) * (g n - ((traj (adaBelief b) x a g n).1.m * b.b1 +
          (1 - b.b1) * g n)) ^ 2 + b.eps) - _ = _
        ring)
    intro n
    have := this n
    try dsimp only at this
    rw [← this]
    ring
  have hx : (traj (adaBelief b) x a g (n + 1)).2 = (traj (adaBelief b) x a g n).2 - (traj (adaBelief b) x a g (n + 1)).1.m / (1 - b.b1 ^ (traj (adaBelief b) x a g (n + 1)).1.t) * a n /
      (√((traj (adaBelief b) x a g (n + 1)).1.v / (1 - b.b2 ^ (traj (adaBelief b) x a g (n + 1)).1.t)) + b.eps) := by
    rw [traj_succ]; rfl
  rw [hx, hm, hv, ht]

/-- **C177** QHAdam. -/
theorem C177_qhAdam (b : Betas) (nu1 nu2 x : ℝ) (a g : ℕ → ℝ) (n : ℕ) :
    (traj (qhAdam b nu1 nu2) x a g (n + 1)).2 = (traj (qhAdam b nu1 nu2) x a g n).2 -
      a n * (((1 - nu1) * g n + nu1 * (avg b.b1 g n / (1 - b.b1 ^ (n + 1)))) /
        (√((1 - nu2) * g n ^ 2 + nu2 * (avg b.b2 (fun i => g i ^ 2) n / (1 - b.b2 ^ (n + 1)))) + b.eps)) := by
  have hm := avg_of_rec (m := fun n => (traj (qhAdam b nu1 nu2) x a g n).1.m) (h := g) (β := b.b1) rfl
    (fun n => by (try dsimp only); rw [traj_succ]; rfl) n
  have hv := avg_of_rec (m := fun n => (traj (qhAdam b nu1 nu2) x a g n).1.v) (h := fun i => g i ^ 2) (β := b.b2) rfl
    (fun n => by (try dsimp only); rw [traj_succ, sq]; rfl) n
  have ht := count_of_rec (t := fun n => (traj (qhAdam b nu1 nu2) x a g n).1.t) rfl (fun n => by (try dsimp only); rw [traj_succ]; rfl)
    (n + 1)
  have hx : (traj (qhAdam b nu1 nu2) x a g (n + 1)).2 = (traj (qhAdam b nu1 nu2) x a g n).2 - a n * (((1 - nu1) * g n + nu1 * ((traj (qhAdam b nu1 nu2) x a g (n + 1)).1.m / (1 - b.b1 ^ (traj (qhAdam b nu1 nu2) x a g (n + 1)).1.t))) /
      (√((1 - nu2) * (g n * g n) + nu2 * ((traj (qhAdam b nu1 nu2) x a g (n + 1)).1.v / (1 - b.b2 ^ (traj (qhAdam b nu1 nu2) x a g (n + 1)).1.t))) + b.eps)) := by
    rw [traj_succ]; rfl
  rw [hx, hm, hv, ht, sq]

/-- The momentum schedule of Nadam and NadaMax at step `n`, counted from 1. -/
noncomputable def sched (b1 decay : ℝ) (n : ℕ) : ℝ := b1 * (1 - (0.96 : ℝ) ^ ((n : ℝ) * decay) / 2)

theorem beta1T_eq (b1 decay : ℝ) (t : ℕ) : beta1T b1 decay t = sched b1 decay t := by
  unfold beta1T sched; ring

theorem prod_of_rec {c f : ℕ → ℝ} (h0 : c 0 = 1) (hs : ∀ n, c (n + 1) = c n * f (n + 1)) (n : ℕ) :
    c n = ∏ i ∈ range n, f (i + 1) := by
  induction n with
  | zero => simpa using h0
  | succ n ih => rw [hs, ih, prod_range_succ]

/-- **C177** Nadam. -/
theorem C177_nadam (b : Betas) (decay x : ℝ) (a g : ℕ → ℝ) (n : ℕ) :
    let μ := sched b.b1 decay
    (traj (nadam b decay) x a g (n + 1)).2 = (traj (nadam b decay) x a g n).2 -
      a n * ((1 - μ (n + 1)) / (1 - ∏ i ∈ range (n + 1), μ (i + 1)) * g n +
        μ (n + 2) / (1 - ∏ i ∈ range (n + 2), μ (i + 1)) * avg b.b1 g n) * √(1 - b.b2 ^ (n + 1)) /
        (√(avg b.b2 (fun i => g i ^ 2) n) + b.eps) := by
  intro μ
  have hm := avg_of_rec (m := fun n => (traj (nadam b decay) x a g n).1.m) (h := g) (β := b.b1) rfl
    (fun n => by (try dsimp only); rw [traj_succ]; rfl) n
  have hv := avg_of_rec (m := fun n => (traj (nadam b decay) x a g n).1.v) (h := fun i => g i ^ 2) (β := b.b2) rfl
    (fun n => by
      (try dsimp only); rw [traj_succ]
      show _ * b.b2 + (1 - b.b2) * g n * g n = _
      ring) n
  have ht := count_of_rec (t := fun n => (traj (nadam b decay) x a g n).1.t) rfl (fun n => by (try dsimp only); rw [traj_succ]; rfl)
  try dsimp only at hm hv ht
  have hc := prod_of_rec (c := fun n => (traj (nadam b decay) x a g n).1.cum) (f := μ) rfl
    (fun n => by
      (try dsimp only); rw [traj_succ]
      show _ * beta1T b.b1 decay ((traj (nadam b decay) x a g n).1.t + 1) = _
      rw [beta1T_eq, ht])
  try dsimp only at hc
  have hx : (traj (nadam b decay) x a g (n + 1)).2 = (traj (nadam b decay) x a g n).2 -
      a n * ((1 - beta1T b.b1 decay (traj (nadam b decay) x a g (n + 1)).1.t) / (1 - (traj (nadam b decay) x a g (n + 1)).1.cum) * g n +
        beta1T b.b1 decay ((traj (nadam b decay) x a g (n + 1)).1.t + 1) / (1 - (traj (nadam b decay) x a g (n + 1)).1.cum * beta1T b.b1 decay ((traj (nadam b decay) x a g (n + 1)).1.t + 1)) * (traj (nadam b decay) x a g (n + 1)).1.m) *
        √(1 - b.b2 ^ (traj (nadam b decay) x a g (n + 1)).1.t) / (√(traj (nadam b decay) x a g (n + 1)).1.v + b.eps) := by
    rw [traj_succ]; rfl
  rw [hx, hm, hv, ht, beta1T_eq, beta1T_eq, hc, prod_range_succ _ (n + 1)]

/-- **C177** NadaMax, while the divisors are not zero. -/
theorem C177_nadaMax {b : Betas} (h0 : 0 ≤ b.b2) (decay x : ℝ) (a g : ℕ → ℝ) (n : ℕ) (μ : ℕ → ℝ) (hμ : μ = sched b.b1 decay)
    (hd : ∏ i ∈ range (n + 1), μ (i + 1) ≠ 1) (hd' : ∏ i ∈ range (n + 2), μ (i + 1) ≠ 1) :
    ∃ u, IsGreatest {y | ∃ i ≤ n, y = b.b2 ^ (n - i) * |g i|} u ∧
      (traj (nadaMax b decay) x a g (n + 1)).2 = (traj (nadaMax b decay) x a g n).2 -
        a n * ((1 - μ (n + 1)) / (1 - ∏ i ∈ range (n + 1), μ (i + 1)) * g n +
          μ (n + 2) / (1 - ∏ i ∈ range (n + 2), μ (i + 1)) * avg b.b1 g n) / (u + b.eps) := by
  have hm := avg_of_rec (m := fun n => (traj (nadaMax b decay) x a g n).1.m) (h := g) (β := b.b1) rfl
    (fun n => by (try dsimp only); rw [traj_succ]; rfl) n
  have ht := count_of_rec (t := fun n => (traj (nadaMax b decay) x a g n).1.t) rfl
    (fun n => by (try dsimp only); rw [traj_succ]; rfl)
  have hu := decayed_max_of_rec (u := fun n => (traj (nadaMax b decay) x a g n).1.v) (h := g) h0 rfl
    (fun n => by (try dsimp only); rw [traj_succ]; rfl) n
  try dsimp only at hm ht hu
  have hc := prod_of_rec (c := fun n => (traj (nadaMax b decay) x a g n).1.cum) (f := μ) rfl
    (fun n => by
      (try dsimp only); rw [traj_succ]
      show _ * beta1T b.b1 decay ((traj (nadaMax b decay) x a g n).1.t + 1) = _
      rw [beta1T_eq, ht, hμ])
  try dsimp only at hc
  refine ⟨_, hu, ?_⟩
  have hx : (traj (nadaMax b decay) x a g (n + 1)).2 =
      if 1 - (traj (nadaMax b decay) x a g (n + 1)).1.cum ≠ 0 ∧ 1 - (traj (nadaMax b decay) x a g (n + 1)).1.cum * beta1T b.b1 decay ((traj (nadaMax b decay) x a g (n + 1)).1.t + 1) ≠ 0 then (traj (nadaMax b decay) x a g n).2 -
        a n * ((1 - beta1T b.b1 decay (traj (nadaMax b decay) x a g (n + 1)).1.t) / (1 - (traj (nadaMax b decay) x a g (n + 1)).1.cum) * g n +
          beta1T b.b1 decay ((traj (nadaMax b decay) x a g (n + 1)).1.t + 1) / (1 - (traj (nadaMax b decay) x a g (n + 1)).1.cum * beta1T b.b1 decay ((traj (nadaMax b decay) x a g (n + 1)).1.t + 1)) * (traj (nadaMax b decay) x a g (n + 1)).1.m) / ((traj (nadaMax b decay) x a g (n + 1)).1.v + b.eps)
      else (traj (nadaMax b decay) x a g n).2 := by
    rw [traj_succ]; rfl
  have e2 : (∏ i ∈ range (n + 1), μ (i + 1)) * sched b.b1 decay (n + 1 + 1) = ∏ i ∈ range (n + 2), μ (i + 1) := by
    rw [prod_range_succ _ (n + 1), ← hμ]
  rw [hx, hm, ht, beta1T_eq, beta1T_eq, hc, e2, if_pos ⟨sub_ne_zero.2 hd.symm, sub_ne_zero.2 hd'.symm⟩, ← hμ]

/-- **C177** AdaBound and AMSBound: the rate of Adam (AMSGrad) for this coordinate, clipped to bounds that close in on
`finalLr a_n / a_0`. -/
theorem C177_adaBound (ams : Bool) {b : Betas} (h0 : 0 ≤ b.b2) (h1 : b.b2 ≤ 1) (fl ga x : ℝ) (a g : ℕ → ℝ) (n : ℕ) :
    ∃ v, (ams = true → IsGreatest {y | ∃ k ≤ n, y = avg b.b2 (fun i => g i ^ 2) k} v) ∧
      (ams = false → v = avg b.b2 (fun i => g i ^ 2) n) ∧
      (traj (adaBound ams b fl ga) x a g (n + 1)).2 = (traj (adaBound ams b fl ga) x a g n).2 -
        max (fl * a n / a 0 * (1 - 1 / (ga * (n + 1) + 1))) (min (fl * a n / a 0 * (1 + 1 / (ga * (n + 1))))
          (a n * √(1 - b.b2 ^ (n + 1)) / (1 - b.b1 ^ (n + 1)) / (√v + b.eps))) * avg b.b1 g n := by
  have hm := avg_of_rec (m := fun n => (traj (adaBound ams b fl ga) x a g n).1.m) (h := g) (β := b.b1) rfl
    (fun n => by (try dsimp only); rw [traj_succ]; rfl) n
  have hv := avg_of_rec (m := fun n => (traj (adaBound ams b fl ga) x a g n).1.v) (h := fun i => g i ^ 2) (β := b.b2) rfl
    (fun n => by (try dsimp only); rw [traj_succ, sq]; rfl)
  have ht := count_of_rec (t := fun n => (traj (adaBound ams b fl ga) x a g n).1.t) rfl
    (fun n => by (try dsimp only); rw [traj_succ]; rfl)
  try dsimp only at hm hv ht
  have hf : ∀ n, (traj (adaBound ams b fl ga) x a g (n + 1)).1.first = false ∧
      (traj (adaBound ams b fl ga) x a g (n + 1)).1.a0 = a 0 := by
    intro n
    induction n with
    | zero => rw [traj_succ]; exact ⟨rfl, rfl⟩
    | succ n ih =>
      rw [traj_succ]
      refine ⟨rfl, ?_⟩
      show (if (traj (adaBound ams b fl ga) x a g (n + 1)).1.first = true then a (n + 1)
        else (traj (adaBound ams b fl ga) x a g (n + 1)).1.a0) = a 0
      rw [ih.1, ih.2]
      rfl
  refine ⟨(traj (adaBound ams b fl ga) x a g (n + 1)).1.vi, ?_, ?_, ?_⟩
  · intro ha
    have hu := max_of_rec (u := fun n => (traj (adaBound ams b fl ga) x a g n).1.vi)
      (v := fun n => (traj (adaBound ams b fl ga) x a g n).1.v) rfl
      (fun n => by
        (try dsimp only); rw [traj_succ]
        show (if ams = true then max _ _ else _) = _
        rw [if_pos ha]; rfl)
      (fun n => by rw [hv]; exact avg_nonneg h0 h1 (fun i => sq_nonneg _) n) n
    try dsimp only at hu
    simp only [hv] at hu
    exact hu
  · intro ha
    rw [← hv, traj_succ]
    show (if ams = true then max _ _ else _) = _
    rw [ha]; rfl
  · have hx : (traj (adaBound ams b fl ga) x a g (n + 1)).2 = (traj (adaBound ams b fl ga) x a g n).2 -
        max (boundLo ga (fl * a n / (traj (adaBound ams b fl ga) x a g (n + 1)).1.a0) (traj (adaBound ams b fl ga) x a g (n + 1)).1.t) (min (boundHi ga (fl * a n / (traj (adaBound ams b fl ga) x a g (n + 1)).1.a0) (traj (adaBound ams b fl ga) x a g (n + 1)).1.t)
          (a n * √(1 - b.b2 ^ (traj (adaBound ams b fl ga) x a g (n + 1)).1.t) / (1 - b.b1 ^ (traj (adaBound ams b fl ga) x a g (n + 1)).1.t) / (√(traj (adaBound ams b fl ga) x a g (n + 1)).1.vi + b.eps))) * (traj (adaBound ams b fl ga) x a g (n + 1)).1.m := by
      rw [traj_succ]; rfl
    rw [hx, hm, ht, (hf n).2, boundLo, boundHi]
    push_cast
    rfl

/-- Constant gradients: the average is `g` times the usual correction. -/
example (β g : ℝ) (n : ℕ) : avg β (fun _ => g) n = (1 - β ^ (n + 1)) * g := by
  have := avg_of_rec (m := fun n => (1 - β ^ n) * g) (β := β) (h := fun _ => g) (by simp)
    (fun n => by (try dsimp only); rw [pow_succ]; ring) n
  exact this.symm

/-- Two steps of AdaSqrt with gradients 1, 2. -/
example : (traj (adaSqrt 1) 0 (fun _ => 1) (fun n => (n : ℝ) + 1) 1).2 = -(1 / 2) := by
  rw [C177_adaSqrt]
  simp [traj, run]
  norm_num

/-- The hypotheses of `C177_nadaMax` at the default parameters: no product of the schedule is 1. -/
example (n : ℕ) : ∏ i ∈ range (n + 1), sched 0.9 4e-3 (i + 1) ≠ 1 := by
  have h : ∀ t : ℕ, 0 ≤ sched 0.9 4e-3 t ∧ sched 0.9 4e-3 t ≤ 0.9 := by
    intro t
    have h96 : (0 : ℝ) ≤ 0.96 ^ ((t : ℝ) * 4e-3) := by positivity
    have h96' : (0.96 : ℝ) ^ ((t : ℝ) * 4e-3) ≤ 1 := Real.rpow_le_one (by norm_num) (by norm_num) (by positivity)
    unfold sched
    constructor <;> nlinarith
  refine ne_of_lt (lt_of_le_of_lt ?_ (show (0.9 : ℝ) < 1 by norm_num))
  rw [Finset.prod_range_succ]
  refine le_trans (mul_le_of_le_one_left (h _).1 (Finset.prod_le_one (fun i _ => (h _).1) fun i _ => ?_)) (h _).2
  exact (h _).2.trans (by norm_num)

end Ens.Update
