import Verif.Psgd.Hogwild
import Verif.Psgd.Backoff

/-
C316: `ParallelSGD` with `ExponentialBackoff` (parallel_sgd_impl.hpp:102-190,
decay_policies/exponential_backoff.hpp:62-70): the cutoffs are equally far apart, so the step sizes add up to a
finite number and the run stops approaching the minimiser.
-/

namespace Ens.Psgd

open Ens.Converge

variable {d T n : Nat} {gr : Nat → Vec d → Vec d} {F : Vec d → ℝ} {M m L Γ a : ℝ} {z : Vec d} {W : Type}

theorem abs_total_le (k : Fin d) (g : List (Fin d × ℝ)) : |total k g| ≤ totalAbs k g := by
  induction g with
  | nil => simp [total, totalAbs]
  | cons p g ih =>
    rw [total_cons, totalAbs_cons]
    refine (abs_add_le _ _).trans (add_le_add ?_ ih)
    split <;> simp

/-- The sum of what is subtracted is no longer than the sum of the absolute values. -/
theorem norm_vec_le (log : List (Nat × List (Fin d × ℝ))) :
    ‖(log.map fun p => vec p.2).sum‖ ≤ ‖(log.map fun p => absVec p.2).sum‖ := by
  refine norm_le_of_abs fun k => ?_
  induction log with
  | nil => simp
  | cons p l ih =>
    rw [List.map_cons, List.map_cons, List.sum_cons, List.sum_cons]
    exact (abs_add_le _ _).trans (add_le_add (abs_total_le k p.2) ih)

/-- **C316** One round moves the coordinates by at most `2 n a (Γ + L D)`, `D` being the distance from the minimiser,
whatever the interleaving. -/
theorem C316_round_moves (hg : GoodSum n gr F M m L Γ z) (hL : 0 ≤ L) (hΓ : 0 ≤ Γ) (ha : 0 ≤ a)
    (hnL : 2 * (a * (n * L)) ≤ 1) {order : List Nat} {share : Nat} (hT : n ≤ T * share)
    (ho : order.Perm (List.range n)) {x₀ : Vec d} {c : Config T (Fin d) ℝ}
    (h : Run (fun _ _ _ => True) (init x₀ order share) c) (hd : Done c) (hr : Reads gr a x₀ c.log) :
    ‖WithLp.toLp 2 c.x - x₀‖ ≤ 2 * (n * (a * (Γ + L * ‖x₀ - z‖))) := by
  have hol : order.length = n := by rw [ho.length_eq, List.length_range]
  obtain ⟨h1, h2, -⟩ := C42_no_lost_update (fun _ _ _ => True) order share (by rw [hol]; exact hT) x₀ h hd
  have h2' := h2.trans ho
  have hlen : c.log.length = n := by simpa using h2'.length_eq
  have hlt : ∀ p ∈ c.log, p.1 < n := fun p hp =>
    List.mem_range.1 (h2'.mem_iff.1 (List.mem_map.2 ⟨p, hp, rfl⟩))
  set D := ‖x₀ - z‖ with hD
  have hD0 : 0 ≤ D := norm_nonneg _
  set R := 2 * (n * (a * (Γ + L * D))) with hR
  have hR0 : 0 ≤ R := by positivity
  have hcl : n * (a * (Γ + L * (‖x₀ - z‖ + R))) ≤ R := by
    rw [← hD]
    have t1 : 2 * (a * (n * L)) * R ≤ 1 * R := mul_le_mul_of_nonneg_right hnL hR0
    have t2 : (n : ℝ) * (a * (Γ + L * (D + R))) = R / 2 + a * (n * L) * R := by rw [hR]; ring
    rw [t2]
    linarith
  obtain ⟨h3, -⟩ := round_log hg hL ha hΓ hR0 hcl c.log hlen.le hlt hr
  have e2 : WithLp.toLp 2 c.x - x₀ = -(c.log.map fun p => vec p.2).sum := by
    ext k
    show c.x k - x₀ k = -(c.log.map fun p => vec p.2).sum k
    rw [h1 k]
    have : (c.log.map fun p => total k p.2).sum = (c.log.map fun p => vec p.2).sum k := by
      generalize c.log = l
      induction l with
      | nil => simp
      | cons p l ih => rw [List.map_cons, List.map_cons, List.sum_cons, List.sum_cons, ih]; rfl
    rw [this]
    ring
  rw [e2, norm_neg]
  rw [hlen] at h3
  exact (norm_vec_le _).trans (h3.trans hcl)

/-- `ParallelSGD` with `ExponentialBackoff`, as `Hogwild`; `gap` is the integer part of `firstBackoffEpoch / beta`. -/
structure HogwildBackoff (env : Env W (Vec d) ℝ (Backoff ℝ)) (n : Nat) (gr : Nat → Vec d → Vec d) (gap : Nat)
    (beta : ℝ) : Prop where
  cbBegin : ∀ w x, (env.cbBegin w x).2 = x
  cbEnd : ∀ w x, (env.cbEnd w x).2 = x
  stepSize : ∀ b i, env.stepSize b i = b.stepSize gap beta i
  round : ∀ (w : W) (x : Vec d) (a : ℝ), ∃ (T share : Nat) (order : List Nat) (c : Config T (Fin d) ℝ), n ≤ T * share ∧
    order.Perm (List.range n) ∧ Run (fun _ _ _ => True) (init x order share) c ∧ Done c ∧ Reads gr a x c.log ∧
    (env.round w x a).2.1 = WithLp.toLp 2 c.x

/-- Induction over the rounds of such a run: `I k x` holds for the coordinates after `k` rounds (helper). -/
theorem backoff_run {env : Env W (Vec d) ℝ (Backoff ℝ)} {gap : Nat} {beta : ℝ} (hh : HogwildBackoff env n gr gap beta)
    {K : Nat} {step : ℝ} (I : Nat → Vec d → Prop) {x : Vec d} (h0 : I 0 x)
    (hs : ∀ (k : Nat) (x : Vec d) (T share : Nat) (order : List Nat) (c : Config T (Fin d) ℝ), I k x → n ≤ T * share →
      order.Perm (List.range n) → Run (fun _ _ _ => True) (init x order share) c → Done c →
      Reads gr (backoffStep gap beta K step k) x c.log → I (k + 1) (WithLp.toLp 2 c.x))
    (fuel : Nat) (w : W) {e : Exit} {s : St W (Vec d) ℝ (Backoff ℝ)}
    (h : optimize env (Backoff.init K step) fuel w x = some (e, s)) : I s.rounds s.x := by
  unfold optimize at h
  simp only [Option.map_eq_some_iff] at h
  obtain ⟨r, hr, h⟩ := h
  simp only [Prod.mk.injEq] at h
  obtain ⟨-, rfl⟩ := h
  show I r.2.rounds (env.cbEnd _ _).2
  rw [hh.cbEnd]
  refine iterate_inv (step := body env)
    (fun s => I s.rounds s.x ∧ s.i = s.rounds + 1 ∧ s.d = backoffAfter gap beta K step s.rounds)
    (fun r => I r.2.rounds r.2.x) ?_ ?_ fuel _ r ?_ hr
  · intro s s' ⟨hi, h1, h2⟩ hb
    unfold body at hb
    split at hb
    · cases hb
    simp only at hb
    split at hb
    · cases hb
    split at hb
    · cases hb
    cases hb
    simp only
    obtain ⟨T, share, order, c, c1, c2, c3, c4, c5, c6⟩ :=
      hh.round (env.cbEval (env.eval s.w s.x).1 s.x (env.eval s.w s.x).2).1 s.x (backoffStep gap beta K step s.rounds)
    have e1 : (env.stepSize s.d s.i).2 = backoffStep gap beta K step s.rounds := by
      rw [hh.stepSize, h1, h2]; rfl
    refine ⟨?_, by rw [h1], ?_⟩
    · rw [e1, c6]
      exact hs _ _ _ _ _ _ hi c1 c2 c3 c4 c5
    · rw [hh.stepSize, h1, h2]; rfl
  · intro s r ⟨hi, _⟩ hb
    unfold body at hb
    split at hb
    · cases hb; exact hi
    simp only at hb
    split at hb
    · cases hb; exact hi
    split at hb
    · cases hb; exact hi
    · cases hb
  · refine ⟨?_, rfl, rfl⟩
    show I 0 (env.cbBegin w x).2
    rw [hh.cbBegin]
    exact h0

theorem backoffStep_le {gap : Nat} (hgap : 0 < gap) {beta : ℝ} (hb0 : 0 < beta) (hb1 : beta < 1) {K : Nat} (hK : 0 < K)
    {step : ℝ} (hs : 0 < step) (k : Nat) :
    0 < backoffStep gap beta K step k ∧ backoffStep gap beta K step k ≤ step := by
  rw [C105_step gap hgap beta K hK]
  refine ⟨by positivity, ?_⟩
  exact mul_le_of_le_one_right hs.le (pow_le_one₀ hb0.le hb1.le)

theorem exp_le_one_sub {t : ℝ} (h0 : 0 ≤ t) (h1 : 2 * t ≤ 1) : Real.exp (-(2 * t)) ≤ 1 - t := by
  rw [Real.exp_neg, inv_le_comm₀ (Real.exp_pos _) (by linarith)]
  refine le_trans ?_ (Real.add_one_le_exp (2 * t))
  rw [inv_le_iff_one_le_mul₀ (by linarith)]
  nlinarith

/-- **C316** (partial) With `ExponentialBackoff`, however the threads interleave, the run stays as close to the minimiser as
the initial step size warrants: within the initial distance plus `8 step n² L Γ / m`. -/
theorem C316_bounded_partial {env : Env W (Vec d) ℝ (Backoff ℝ)} {gap : Nat} {beta : ℝ} (hh : HogwildBackoff env n gr gap beta)
    (hg : GoodSum n gr F M m L Γ z) (hM : 0 < M) (hm : 0 < m) (hL : 0 ≤ L) (hΓ : 0 ≤ Γ) (hgap : 0 < gap) (hb0 : 0 < beta)
    (hb1 : beta < 1) {K : Nat} (hK : 0 < K) {step : ℝ} (hs : 0 < step) (haM : step * M ≤ 1) (ham : step * m ≤ 2)
    (hnL : 2 * (step * (n * L)) ≤ 1) (hnm : 8 * (step * (n * L) ^ 2) ≤ m) (fuel : Nat) (w : W) (x : Vec d) {e : Exit}
    {s : St W (Vec d) ℝ (Backoff ℝ)} (h : optimize env (Backoff.init K step) fuel w x = some (e, s)) :
    ‖s.x - z‖ ≤ (∏ k ∈ Finset.range s.rounds, (1 - backoffStep gap beta K step k * m / 4)) * ‖x - z‖ +
      8 * step * n ^ 2 * L * Γ / m := by
  refine backoff_run hh (fun k y => ‖y - z‖ ≤ (∏ k ∈ Finset.range k, (1 - backoffStep gap beta K step k * m / 4)) * ‖x - z‖ +
    8 * step * n ^ 2 * L * Γ / m) ?_ ?_ fuel w h
  · have : 0 ≤ 8 * step * n ^ 2 * L * Γ / m := by positivity
    simp only [Finset.range_zero, Finset.prod_empty, one_mul]
    linarith
  · intro k y T share order c hi c1 c2 c3 c4 c5
    obtain ⟨p0, p1⟩ := backoffStep_le hgap hb0 hb1 hK hs k
    rw [Finset.prod_range_succ]
    generalize (∏ k ∈ Finset.range k, (1 - backoffStep gap beta K step k * m / 4)) = P at hi ⊢
    generalize backoffStep gap beta K step k = a at p0 p1 c5 ⊢
    have q1 : a * M ≤ 1 := (mul_le_mul_of_nonneg_right p1 hM.le).trans haM
    have q2 : a * m ≤ 2 := (mul_le_mul_of_nonneg_right p1 hm.le).trans ham
    have q3 : 2 * (a * (n * L)) ≤ 1 := by
      have := mul_le_mul_of_nonneg_right p1 (show 0 ≤ (n : ℝ) * L by positivity)
      linarith
    have q4 : 8 * (a * (n * L) ^ 2) ≤ m := by
      have := mul_le_mul_of_nonneg_right p1 (show 0 ≤ ((n : ℝ) * L) ^ 2 by positivity)
      linarith
    have h1 := C315_round hg hM hm hL hΓ p0.le q1 q2 q3 q4 c1 c2 c3 c4 c5
    have h2 := mul_le_mul_of_nonneg_left hi (show 0 ≤ 1 - a * m / 4 by linarith)
    have h3 : (1 - a * m / 4) * (8 * step * n ^ 2 * L * Γ / m) = 8 * step * n ^ 2 * L * Γ / m - 2 * (a * step) * n ^ 2 * L * Γ := by
      field_simp
      ring
    have h4 : 2 * (a * n) ^ 2 * L * Γ ≤ 2 * (a * step) * n ^ 2 * L * Γ := by
      have t : a * a ≤ a * step := mul_le_mul_of_nonneg_left p1 p0.le
      have := mul_le_mul_of_nonneg_right t (show 0 ≤ 2 * (n : ℝ) ^ 2 * L * Γ by positivity)
      linarith
    rw [mul_add, h3] at h2
    linarith

/-- **C316** (refuting the documented "1/k convergence") With `ExponentialBackoff`, on functions that share their minimiser
(`Γ = 0`), however the threads interleave and however many rounds are made, the coordinates never come closer to the
minimiser than a fixed fraction of the initial distance. -/
theorem C316_stalls {env : Env W (Vec d) ℝ (Backoff ℝ)} {gap : Nat} {beta : ℝ} (hh : HogwildBackoff env n gr gap beta)
    (hg : GoodSum n gr F M m L 0 z) (hL : 0 ≤ L) (hgap : 0 < gap) (hb0 : 0 < beta) (hb1 : beta < 1) {K : Nat} (hK : 0 < K)
    {step : ℝ} (hs : 0 < step) (hnL : 4 * (step * (n * L)) ≤ 1) (fuel : Nat) (w : W) (x : Vec d) {e : Exit}
    {s : St W (Vec d) ℝ (Backoff ℝ)} (h : optimize env (Backoff.init K step) fuel w x = some (e, s)) :
    Real.exp (-(4 * (n * L) * (step * (K + gap / (1 - beta))))) * ‖x - z‖ ≤ ‖s.x - z‖ := by
  have hnL0 : 0 ≤ (n : ℝ) * L := by positivity
  have key : Real.exp (-(4 * (n * L) * ((List.range s.rounds).map (backoffStep gap beta K step)).sum)) * ‖x - z‖ ≤
      ‖s.x - z‖ := by
    refine backoff_run hh (fun k y => Real.exp (-(4 * (n * L) * ((List.range k).map (backoffStep gap beta K step)).sum)) *
      ‖x - z‖ ≤ ‖y - z‖) (by simp) ?_ fuel w h
    intro k y T share order c hi c1 c2 c3 c4 c5
    obtain ⟨p0, p1⟩ := backoffStep_le hgap hb0 hb1 hK hs k
    rw [List.range_succ, List.map_append, List.sum_append]
    simp only [List.map_cons, List.map_nil, List.sum_cons, List.sum_nil, add_zero]
    generalize ((List.range k).map (backoffStep gap beta K step)).sum = S at hi ⊢
    generalize backoffStep gap beta K step k = a at p0 p1 c5 ⊢
    have q3 : 4 * (a * (n * L)) ≤ 1 := by
      have := mul_le_mul_of_nonneg_right p1 hnL0
      linarith
    have q0 : 0 ≤ a * (n * L) := by positivity
    have h1 := C316_round_moves hg hL le_rfl p0.le (by linarith) c1 c2 c3 c4 c5
    have h2 : ‖y - z‖ ≤ ‖WithLp.toLp 2 c.x - z‖ + ‖WithLp.toLp 2 c.x - y‖ := by
      have := norm_sub_le (WithLp.toLp 2 c.x - z) (WithLp.toLp 2 c.x - y)
      rwa [sub_sub_sub_cancel_left] at this
    have h3 := exp_le_one_sub (t := 2 * (a * (n * L))) (by positivity) (by linarith)
    have h4 : Real.exp (-(4 * (n * L) * (S + a))) = Real.exp (-(2 * (2 * (a * (n * L))))) * Real.exp (-(4 * (n * L) * S)) := by
      rw [← Real.exp_add]
      congr 1
      ring
    rw [h4, mul_assoc]
    have h5 := mul_le_mul_of_nonneg_left hi (Real.exp_pos (-(2 * (2 * (a * (n * L)))))).le
    have h6 := mul_le_mul_of_nonneg_right h3 (norm_nonneg (y - z))
    have h7 : 2 * ((n : ℝ) * (a * (0 + L * ‖y - z‖))) = 2 * (a * (n * L)) * ‖y - z‖ := by ring
    rw [h7] at h1
    linarith
  refine le_trans (mul_le_mul_of_nonneg_right (Real.exp_le_exp.2 ?_) (norm_nonneg _)) key
  have := mul_le_mul_of_nonneg_left (C105_summable gap hgap hb0 hb1 K hK hs s.rounds) (show 0 ≤ 4 * ((n : ℝ) * L) by positivity)
  linarith

/-! ### A concrete case -/

/-- The two functions of `twoGr` with `ExponentialBackoff`. -/
noncomputable def twoBackoff (c : Vec 1) (gap : Nat) (beta : ℝ) (maxIterations : Nat) :
    Env Unit (Vec 1) ℝ (Backoff ℝ) where
  eval := fun w x => (w, half (x - c) + half (x + c))
  cbEval := fun w _ _ => (w, false)
  cbBegin := fun w x => (w, x)
  cbEnd := fun w x => (w, x)
  stepSize := fun b i => b.stepSize gap beta i
  round := fun w x a => (w, x - a • (x - c) - a • (x + c), false)
  isBad := fun _ => false
  near := fun _ _ => false
  maxVal := 10 ^ 308
  maxIterations := maxIterations

theorem twoBackoff_hogwild (c : Vec 1) (gap : Nat) (beta : ℝ) (m : Nat) :
    HogwildBackoff (twoBackoff c gap beta m) 2 (twoGr c) gap beta :=
  ⟨fun _ _ => rfl, fun _ _ => rfl, fun _ _ => rfl, fun w x a => (twoEnv_hogwild c a m).round w x⟩

theorem twoBackoff_returns (c : Vec 1) (gap : Nat) (beta : ℝ) (m : Nat) : ∀ (k : Nat) (s : St Unit (Vec 1) ℝ (Backoff ℝ)),
    s.terminate = false → s.i + k = m →
    ∃ e s', iterate (body (twoBackoff c gap beta m)) (k + 1) s = some (e, s') ∧ s'.rounds = s.rounds + k := by
  intro k
  induction k with
  | zero =>
    intro s ht hi
    refine ⟨.loop, s, ?_, rfl⟩
    have : body (twoBackoff c gap beta m) s = .inr (.loop, s) := if_pos (.inl hi)
    rw [iterate, this]
  | succ k ih =>
    intro s ht hi
    have hne : ¬ (s.i = (twoBackoff c gap beta m).maxIterations ∨ s.terminate = true) := by
      rintro (h | h)
      · have : s.i = m := h
        omega
      · rw [ht] at h; cases h
    have hb : ∃ s1, body (twoBackoff c gap beta m) s = .inl s1 ∧ s1.terminate = false ∧ s1.i = s.i + 1 ∧
        s1.rounds = s.rounds + 1 := by
      unfold body
      rw [if_neg hne]
      exact ⟨_, rfl, by simp [twoBackoff, ht], rfl, rfl⟩
    obtain ⟨s1, h1, h2, h3, h4⟩ := hb
    obtain ⟨e, s', h5, h6⟩ := ih s1 h2 (by omega)
    refine ⟨e, s', ?_, by omega⟩
    rw [iterate, h1]
    exact h5

/-- **C316** (refuted) "With `ExponentialBackoff` the distance from the minimiser tends to zero as the number of rounds
grows": minimising `‖x‖²` from any other point with `ExponentialBackoff(1, 1/8, 1/2)`. -/
theorem C316_converges_refuted :
    ¬ ∀ (x : Vec 1) (ε : ℝ), 0 < ε → ∃ N : Nat, ∀ (maxIterations fuel : Nat) (e : Exit) (s : St Unit (Vec 1) ℝ (Backoff ℝ)),
      optimize (twoBackoff 0 2 (1 / 2) maxIterations) (Backoff.init 1 (1 / 8)) fuel () x = some (e, s) → N ≤ s.rounds →
      ‖s.x - 0‖ < ε := by
  intro hall
  set x : Vec 1 := WithLp.toLp 2 fun _ => 1 with hx
  have hx1 : ‖x - 0‖ = 1 := by
    rw [sub_zero, hx, EuclideanSpace.norm_eq]
    simp
  set δ := Real.exp (-(4 * ((2 : Nat) * (1 : ℝ)) * (1 / 8 * ((1 : Nat) + (2 : Nat) / (1 - 1 / 2))))) with hδ
  obtain ⟨N, hN⟩ := hall x δ (Real.exp_pos _)
  have hret : ∃ e s, optimize (twoBackoff 0 2 (1 / 2) (N + 1)) (Backoff.init 1 (1 / 8)) (N + 1) () x = some (e, s) ∧
      N ≤ s.rounds := by
    obtain ⟨e, s, h1, h2⟩ := twoBackoff_returns (0 : Vec 1) 2 (1 / 2) (N + 1) N ⟨(), x, Backoff.init 1 (1 / 8), 1, 10 ^ 308, false, 0⟩
      rfl (by simp only; omega)
    refine ⟨e, s, ?_, by rw [h2]; simp⟩
    simp only [optimize]
    show (iterate (body (twoBackoff 0 2 (1 / 2) (N + 1))) (N + 1) ⟨(), x, Backoff.init 1 (1 / 8), 1, 10 ^ 308, false, 0⟩).map _ = _
    rw [h1]
    rfl
  obtain ⟨e, s, hs, hr⟩ := hret
  have h1 := hN _ _ _ _ hs hr
  have hg := twoGr_good 0
  rw [norm_zero] at hg
  have h2 := C316_stalls (twoBackoff_hogwild 0 2 (1 / 2) (N + 1)) hg zero_le_one two_pos (by norm_num) (by norm_num)
    one_pos (by norm_num) (by norm_num) _ _ _ hs
  rw [hx1, mul_one] at h2
  linarith

/-- Non-vacuity: ten rounds on `‖x - c‖² / 2 + ‖x + c‖² / 2` with `ExponentialBackoff(1, 1/100, 1/2)`. -/
example (c x : Vec 1) : ∃ e s, optimize (twoBackoff c 2 (1 / 2) 11) (Backoff.init 1 (1 / 100)) 11 () x = some (e, s) ∧
    s.rounds = 10 ∧ ‖s.x - 0‖ ≤ (∏ k ∈ Finset.range s.rounds, (1 - backoffStep 2 (1 / 2) 1 (1 / 100) k * 2 / 4)) * ‖x - 0‖ +
      8 * (1 / 100) * (2 : Nat) ^ 2 * 1 * ‖c‖ / 2 := by
  obtain ⟨e, s, h1, h2⟩ := twoBackoff_returns c 2 (1 / 2) 11 10 ⟨(), x, Backoff.init 1 (1 / 100), 1, 10 ^ 308, false, 0⟩ rfl rfl
  have h : optimize (twoBackoff c 2 (1 / 2) 11) (Backoff.init 1 (1 / 100)) 11 () x = some (e, s) := by
    simp only [optimize]
    show (iterate (body (twoBackoff c 2 (1 / 2) 11)) 11 ⟨(), x, Backoff.init 1 (1 / 100), 1, 10 ^ 308, false, 0⟩).map _ = _
    rw [h1]
    rfl
  exact ⟨e, s, h, by rw [h2], C316_bounded_partial (twoBackoff_hogwild c 2 (1 / 2) 11) (twoGr_good c) two_pos two_pos
    zero_le_one (norm_nonneg _) two_pos (by norm_num) (by norm_num) one_pos (by norm_num) (by norm_num) (by norm_num)
    (by norm_num) (by norm_num) _ _ _ h⟩

end Ens.Psgd
