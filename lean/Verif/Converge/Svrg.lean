import Verif.Converge.VrBase

/-
C262: SVRG with a constant, small step size on a sum of smooth functions.
-/

namespace Ens.Converge

open Ens.Vr Ens.Vr.Svrg

variable {W V : Type} [NormedAddCommGroup V] [InnerProductSpace ℝ V] {u : Ens.Vr.User W V V ℝ} {φ : Nat → V → ℝ}
  {γ : Nat → V → V} {perm : W → Nat → Nat} {L a : ℝ}

/-- `SVRGUpdate` (`svrg/svrg_update.hpp:57-67`) and `NoDecay` (`svrg/svrg.hpp`: the default decay policy). -/
structure PlainSvrg (p : Ens.Vr.Svrg.Params W V V ℝ) : Prop where
  update : ∀ w x full g g0 k st, (p.update w x full g g0 k st).2 = x - st • (full + (k : ℝ)⁻¹ • (g - g0))
  decay : ∀ w x x0 g full k st, (p.decay w x x0 g full k st).2 = st

variable {p : Ens.Vr.Svrg.Params W V V ℝ}

theorem wrap_facts {t : Svrg.Inner W V} (hn : 0 < u.n) (hc : t.cur ≤ u.n) (sh : Bool) :
    (wrap u sh t).cur < u.n ∧ (wrap u sh t).f = t.f ∧ (wrap u sh t).x = t.x := by
  unfold wrap
  split
  · exact ⟨hn, rfl, rfl⟩
  · rename_i hm
    refine ⟨?_, rfl, rfl⟩
    rcases Nat.lt_or_ge t.cur u.n with h | h
    · exact h
    · exact absurd (by rw [show t.cur = u.n by omega, Nat.mod_self]) hm

theorem svrg_inner (hu : SmoothSum u φ γ perm L) (hp : PlainSvrg p) (hn : 0 < u.n) (hb : 0 < p.batchSize) (hL : 0 ≤ L) (ha : 0 ≤ a)
    (m : Nat) (x0 : V) (s : S W) {fuel : Nat} {r : Svrg.Inner W V}
    (h : iterate (innerStep u p m x0 (average u.n γ x0) a) fuel ⟨s, x0, 0, 0⟩ = some r) :
    ∃ j : Nat, j ≤ m ∧ (r.s.term = false → m ≤ j * p.batchSize) ∧
      ‖r.x - x0 + (j * a) • average u.n γ x0‖ ≤ a * drift (a * L) j * ‖average u.n γ x0‖ := by
  set g := average u.n γ x0 with hg
  let I : Svrg.Inner W V → Prop := fun t => t.cur ≤ u.n ∧ ∃ j : Nat, j ≤ t.f ∧ j ≤ m ∧ t.f ≤ j * p.batchSize ∧
    L * ‖t.x - x0‖ ≤ ((1 + a * L) ^ j - 1) * ‖g‖ ∧ ‖t.x - x0 + (j * a) • g‖ ≤ a * drift (a * L) j * ‖g‖
  refine iterate_inv I (fun r => ∃ j : Nat, j ≤ m ∧ (r.s.term = false → m ≤ j * p.batchSize) ∧
      ‖r.x - x0 + (j * a) • g‖ ≤ a * drift (a * L) j * ‖g‖) ?_ ?_ fuel _ r ⟨Nat.zero_le _, 0, by simp, by simp, by simp, by simp,
        by simp [drift]⟩ h
  · rintro t t' ⟨h1, j, h2, h3, h4, h5, h6⟩ ht
    unfold innerStep at ht
    split at ht
    swap
    · cases ht
    rename_i hlt
    obtain ⟨w1, w2, w3⟩ := wrap_facts (t := t) hn h1 p.shuffle
    set w := wrap u p.shuffle t
    simp only at ht
    split at ht
    · cases ht
    cases ht
    set eff := min p.batchSize (u.n - w.cur) with heff
    have he : 0 < eff := by omega
    obtain ⟨g1, g2⟩ := gradAt_rest hu.sep w.s w.x (w.cur, eff)
    obtain ⟨g3, g4⟩ := gradAt_rest hu.sep (gradAt u w.s w.x (w.cur, eff)).1 x0 (w.cur, eff)
    rw [g2] at g3
    rw [w3] at g1 g3
    refine ⟨by show w.cur + eff ≤ u.n; omega, j + 1, by show j + 1 ≤ w.f + eff; omega, by omega,
      by show w.f + eff ≤ _; rw [w2, Nat.add_mul]; omega, ?_, ?_⟩
    all_goals
      simp only [stepAt, hu.step, hp.update, g1, g3, w3]
      set δ := (eff : ℝ)⁻¹ • (((List.range' w.cur eff).map fun i => γ (perm w.s.w i) t.x).sum -
        ((List.range' w.cur eff).map fun i => γ (perm w.s.w i) x0).sum) with hδ
      have hd : ‖δ‖ ≤ ((1 + a * L) ^ j - 1) * ‖g‖ :=
        (batch_lip (fun j x y => (hu.smooth j).lip x y) (perm w.s.w) w.cur eff he t.x x0).trans h5
    · have e : t.x - a • (g + δ) - x0 = (t.x - x0) - a • (g + δ) := by abel
      have k : ‖t.x - a • (g + δ) - x0‖ ≤ ‖t.x - x0‖ + a * (‖g‖ + ‖δ‖) := by
        rw [e]
        refine (norm_sub_le _ _).trans (add_le_add le_rfl ?_)
        rw [norm_smul, Real.norm_of_nonneg ha]
        exact mul_le_mul_of_nonneg_left (norm_add_le _ _) ha
      have k1 := mul_le_mul_of_nonneg_left k hL
      have k2 := mul_le_mul_of_nonneg_left hd (mul_nonneg ha hL)
      rw [pow_succ]
      nlinarith
    · have e : t.x - a • (g + δ) - x0 + (((j + 1 : Nat) : ℝ) * a) • g = (t.x - x0 + (j * a) • g) - a • δ := by
        push_cast
        module
      rw [e]
      refine (norm_sub_le _ _).trans ?_
      rw [norm_smul, Real.norm_of_nonneg ha, drift, Finset.sum_range_succ]
      rw [drift] at h6
      have := mul_le_mul_of_nonneg_left hd ha
      nlinarith
  · rintro t r ⟨h1, j, h2, h3, h4, h5, h6⟩ ht
    unfold innerStep at ht
    split at ht
    · obtain ⟨w1, w2, w3⟩ := wrap_facts (t := t) hn h1 p.shuffle
      simp only at ht
      split at ht
      · rename_i hterm
        cases ht
        refine ⟨j, h3, fun hf => ?_, ?_⟩
        · dsimp only at hf
          rw [hf] at hterm; cases hterm
        · rw [← w3] at h6
          exact h6
      · cases ht
    · cases ht
      exact ⟨j, h3, fun _ => by omega, h6⟩

/-- One pass of the outer loop. -/
theorem svrg_body (hu : SmoothSum u φ γ perm L) (hp : PlainSvrg p) (hn : 0 < u.n) (hb : 0 < p.batchSize) (hL : 0 ≤ L) (ha : 0 < a)
    {m : Nat} (hm : m = if p.innerIterations = 0 then u.n else p.innerIterations) (haL : m * (a * L) ≤ 1 / 4) {t : St W V ℝ}
    (hst : t.step = a) :
    (∀ t', body u p t = .inl t' → t'.step = a ∧ t'.i = t.i + 1 ∧ t'.last = objective u.n φ t.x ∧ t.s.term = false ∧
      u.near t.last (objective u.n φ t.x) = false ∧ objective u.n φ t'.x ≤ objective u.n φ t.x ∧
      ‖objective u.n γ t'.x‖ ≤ 21 / 16 * ‖objective u.n γ t.x‖ ∧ (t'.s.term = false →
        objective u.n φ t'.x ≤ objective u.n φ t.x - m * a / (2 * u.n * p.batchSize) * ‖objective u.n γ t.x‖ ^ 2)) ∧
    (∀ r, body u p t = .inr r → ∀ e t', r = .ret e t' → t'.x = t.x ∧ t'.i = t.i ∧ (t'.s.term = false → t.s.term = false) ∧
      (e = .near → t.s.term = false ∧ u.near t.last (objective u.n φ t.x) = true)) := by
  have hn' : (0 : ℝ) < u.n := by exact_mod_cast hn
  have hb' : (0 : ℝ) < p.batchSize := by exact_mod_cast hb
  unfold body
  split
  · refine ⟨(fun t' h => by cases h), fun r hr e t' he => ?_⟩
    cases hr
    cases he
    exact ⟨rfl, rfl, id, fun h => by cases h⟩
  rename_i hlim
  simp only [not_or, Bool.not_eq_true] at hlim
  obtain ⟨ov, -⟩ := evalAll_value hu.sep hb t.s t.x
  simp only [ov]
  split
  · refine ⟨(fun t' h => by cases h), fun r hr e t' he => ?_⟩
    cases hr
    cases he
    exact ⟨rfl, rfl, fun _ => hlim.2, fun h => by cases h⟩
  split
  · refine ⟨(fun t' h => by cases h), fun r hr e t' he => ?_⟩
    cases hr
    cases he
    exact ⟨rfl, rfl, fun _ => hlim.2, fun h => by cases h⟩
  split
  · rename_i hnear
    refine ⟨(fun t' h => by cases h), fun r hr e t' he => ?_⟩
    cases hr
    cases he
    exact ⟨rfl, rfl, fun _ => hlim.2, fun _ => ⟨hlim.2, hnear⟩⟩
  rename_i hnear
  obtain ⟨g, hg⟩ := fullGrad_some u (gradAt u) (b := p.batchSize) hn (evalAll u p.batchSize t.s t.x).1 t.x t.x
  rw [hg]
  have hga := C43_full_gradient hu.sep hu.divG hb hg
  simp only
  split
  · refine ⟨(fun t' h => by cases h), fun r hr e t' he => ?_⟩
    cases hr
    cases he
    exact ⟨rfl, rfl, fun _ => hlim.2, fun h => by cases h⟩
  rw [hst, hga]
  split
  · exact ⟨(fun t' h => by cases h), fun r hr e t' he => by cases hr; cases he⟩
  rename_i r hr
  refine ⟨fun t' h => ?_, fun r hr => by cases hr⟩
  cases h
  obtain ⟨j, j1, j2, j3⟩ := svrg_inner hu hp hn hb hL ha.le _ _ _ hr
  have hjm : j ≤ m := by rw [hm]; exact j1
  have hjm' : (j : ℝ) ≤ m := by exact_mod_cast hjm
  have haL' : j * (a * L) ≤ 1 / 4 := (mul_le_mul_of_nonneg_right hjm' (mul_nonneg ha.le hL)).trans haL
  obtain ⟨d1, d2⟩ := steps_descent (objective_smooth hu.smooth u.n) hn hL ha.le haL' j3
  have hG := sq_nonneg ‖objective u.n γ t.x‖
  have hj0 : (0 : ℝ) ≤ j := Nat.cast_nonneg j
  refine ⟨hp.decay _ _ _ _ _ _ _, rfl, rfl, hlim.2, by simpa using hnear, ?_, d2, fun hterm => ?_⟩
  · have : 0 ≤ j * a / (2 * u.n) * ‖objective u.n γ t.x‖ ^ 2 := by positivity
    dsimp only
    linarith
  · have h1 : m ≤ j * p.batchSize := by rw [hm]; exact j2 hterm
    have h2 : (m : ℝ) ≤ j * p.batchSize := by exact_mod_cast h1
    have h3 : m * a / (2 * u.n * p.batchSize) ≤ j * a / (2 * u.n) := by
      rw [div_le_div_iff₀ (by positivity) (by positivity)]
      have := mul_le_mul_of_nonneg_right h2 (by positivity : 0 ≤ a * (2 * u.n))
      linarith
    have := mul_le_mul_of_nonneg_right h3 hG
    dsimp only
    linarith

theorem evalAll_term (b : Nat) (s : S W) (x : V) (h : s.term = true) : (evalAll u b s x).1.term = true := by
  unfold evalAll
  have : ∀ (l : List (Nat × Nat)) (a : S W × ℝ), a.1.term = true →
      (l.foldl (fun a p => let r := evalAt u a.1 x p; (r.1, u.addE a.2 r.2)) a).1.term = true := by
    intro l
    induction l with
    | nil => exact fun a h => h
    | cons q l ih => exact fun a h => ih _ (by simp [evalAt, S.note, h])
  exact this _ _ h

/-- The outer loop: what is known when it returns. -/
theorem svrg_loop (hu : SmoothSum u φ γ perm L) (hp : PlainSvrg p) (hn : 0 < u.n) (hb : 0 < p.batchSize) (hL : 0 ≤ L) (ha : 0 < a)
    {m : Nat} (hm : m = if p.innerIterations = 0 then u.n else p.innerIterations) (haL : m * (a * L) ≤ 1 / 4) {w : W} {x : V}
    {fuel : Nat} {e : Exit} {t : St W V ℝ} (h : optimize u p a fuel w x = some (.ret e t))
    (I : St W V ℝ → Prop) (h0 : ∀ q : St W V ℝ, q.x = x → q.i = 0 → I q)
    (hI : ∀ q q' : St W V ℝ, I q → q'.i = q.i + 1 → q'.last = objective u.n φ q.x → q.s.term = false →
      u.near q.last (objective u.n φ q.x) = false → objective u.n φ q'.x ≤ objective u.n φ q.x →
      ‖objective u.n γ q'.x‖ ≤ 21 / 16 * ‖objective u.n γ q.x‖ → (q'.s.term = false →
        objective u.n φ q'.x ≤ objective u.n φ q.x - m * a / (2 * u.n * p.batchSize) * ‖objective u.n γ q.x‖ ^ 2) → I q') :
    ∃ q : St W V ℝ, I q ∧ t.x = q.x ∧ t.i = q.i ∧ (t.s.term = false → q.s.term = false) ∧
      (e = .near → q.s.term = false ∧ u.near q.last (objective u.n φ q.x) = true) := by
  unfold optimize at h
  simp only at h
  obtain ⟨r, hr, he⟩ := Option.map_eq_some_iff.1 h
  have key := iterate_inv (step := body u p) (fun q => I q ∧ q.step = a)
    (fun r => ∀ e t', r = .ret e t' → ∃ q : St W V ℝ, I q ∧ t'.x = q.x ∧ t'.i = q.i ∧ (t'.s.term = false → q.s.term = false) ∧
      (e = .near → q.s.term = false ∧ u.near q.last (objective u.n φ q.x) = true))
    (by
      rintro q q' ⟨h1, h2⟩ h3
      obtain ⟨k1, k2, k3, k4, k5, k6, k7, k8⟩ := (svrg_body hu hp hn hb hL ha hm haL h2).1 q' h3
      exact ⟨hI q q' h1 k2 k3 k4 k5 k6 k7 k8, k1⟩)
    (by
      rintro q r ⟨h1, h2⟩ h3 e t' h4
      obtain ⟨k1, k2, k3, k4⟩ := (svrg_body hu hp hn hb hL ha hm haL h2).2 r h3 e t' h4
      exact ⟨q, h1, k1, k2, k3, k4⟩)
    fuel _ r ⟨h0 _ (hu.begin_ w x) rfl, rfl⟩ hr
  cases r with
  | stuck => cases he
  | ret e' t' =>
    cases he
    obtain ⟨q, k1, k2, k3, k4, k5⟩ := key _ _ rfl
    refine ⟨q, k1, ?_, ?_, fun hf => k4 ?_, k5⟩
    · unfold finish
      simp only [hu.end_]
      split <;> exact k2
    · unfold finish
      split <;> exact k3
    · unfold finish at hf
      simp only at hf
      split at hf
      · by_contra hc
        rw [evalAll_term _ _ _ (by simpa using hc)] at hf
        cases hf
      · exact hf

/-- **C262** With a step size of at most `1/(4 m L)`, `m` the number of inner iterations and `L` the Lipschitz constant of the
gradients of the functions, SVRG never returns coordinates with a larger objective than those it was given, whatever the batch
size, the order of the functions and the callback that stops it. -/
theorem C262_svrg_descends (hu : SmoothSum u φ γ perm L) (hp : PlainSvrg p) (hn : 0 < u.n) (hb : 0 < p.batchSize) (hL : 0 ≤ L)
    (ha : 0 < a) (haL : ((if p.innerIterations = 0 then u.n else p.innerIterations : Nat) : ℝ) * (a * L) ≤ 1 / 4) {w : W} {x : V}
    {fuel : Nat} {e : Exit} {t : St W V ℝ} (h : optimize u p a fuel w x = some (.ret e t)) :
    objective u.n φ t.x ≤ objective u.n φ x := by
  obtain ⟨q, k1, k2, -⟩ := svrg_loop hu hp hn hb hL ha rfl haL h (fun q => objective u.n φ q.x ≤ objective u.n φ x)
    (fun q hq _ => by rw [hq]) (fun q q' h1 _ _ _ _ h2 _ _ => h2.trans h1)
  rw [k2]
  exact k1

/-- **C262** When SVRG stops because the objective changed by less than the tolerance, the gradient of the objective at the
returned coordinates is small. -/
theorem C262_svrg_tolerance (hu : SmoothSum u φ γ perm L) (hp : PlainSvrg p) (hn : 0 < u.n) (hb : 0 < p.batchSize) (hL : 0 ≤ L)
    (ha : 0 < a) {m : Nat} (hm : m = if p.innerIterations = 0 then u.n else p.innerIterations) (haL : m * (a * L) ≤ 1 / 4)
    {tol : ℝ} (hnear : ∀ s t : ℝ, u.near s t = true ↔ |s - t| < tol) {w : W} {x : V}
    {fuel : Nat} {t : St W V ℝ} (h : optimize u p a fuel w x = some (.ret .near t)) (hi : 0 < t.i) :
    ‖objective u.n γ t.x‖ ^ 2 ≤ 4 * u.n * p.batchSize * tol / (m * a) := by
  have hn' : (0 : ℝ) < u.n := by exact_mod_cast hn
  have hb' : (0 : ℝ) < p.batchSize := by exact_mod_cast hb
  have hm' : (0 : ℝ) < m := by
    have : 0 < m := by rw [hm]; split <;> omega
    exact_mod_cast this
  obtain ⟨q, k1, k2, k3, -, k4⟩ := svrg_loop hu hp hn hb hL ha hm haL h (fun q => 0 < q.i → ∃ y, q.last = objective u.n φ y ∧
      ‖objective u.n γ q.x‖ ≤ 21 / 16 * ‖objective u.n γ y‖ ∧ (q.s.term = false →
        objective u.n φ q.x ≤ objective u.n φ y - m * a / (2 * u.n * p.batchSize) * ‖objective u.n γ y‖ ^ 2))
    (fun q _ hq hq' => by omega) (fun q q' _ _ h2 _ _ _ h3 h4 _ => ⟨q.x, h2, h3, h4⟩)
  obtain ⟨y, y1, y2, y3⟩ := k1 (by omega)
  obtain ⟨k5, k6⟩ := k4 rfl
  have y4 := y3 k5
  rw [hnear, y1] at k6
  have k7 := (abs_lt.1 k6).2
  rw [k2]
  set Y := ‖objective u.n γ y‖
  have k8 : m * a / (2 * u.n * p.batchSize) * Y ^ 2 < tol := by linarith
  rw [div_mul_eq_mul_div, div_lt_iff₀ (by positivity)] at k8
  rw [le_div_iff₀ (by positivity)]
  have k9 : ‖objective u.n γ q.x‖ ^ 2 ≤ (21 / 16 * Y) ^ 2 := pow_le_pow_left₀ (norm_nonneg _) y2 2
  have k10 : ‖objective u.n γ q.x‖ ^ 2 * (m * a) ≤ (21 / 16 * Y) ^ 2 * (m * a) := mul_le_mul_of_nonneg_right k9 (by positivity)
  have k11 : 0 ≤ m * a * Y ^ 2 := by positivity
  nlinarith

/-- **C262** The number of passes of SVRG before the tolerance test stops it is bounded by the distance of the objective from a
lower bound. -/
theorem C262_svrg_passes (hu : SmoothSum u φ γ perm L) (hp : PlainSvrg p) (hn : 0 < u.n) (hb : 0 < p.batchSize) (hL : 0 ≤ L)
    (ha : 0 < a) (haL : ((if p.innerIterations = 0 then u.n else p.innerIterations : Nat) : ℝ) * (a * L) ≤ 1 / 4)
    {tol : ℝ} (hnear : ∀ s t : ℝ, u.near s t = true ↔ |s - t| < tol) {lb : ℝ} (hlb : ∀ y, lb ≤ objective u.n φ y) {w : W} {x : V}
    {fuel : Nat} {e : Exit} {t : St W V ℝ} (h : optimize u p a fuel w x = some (.ret e t)) :
    ((t.i : ℝ) - 1) * tol ≤ objective u.n φ x - lb ∨ t.i = 0 := by
  obtain ⟨q, k1, -, k3, -⟩ := svrg_loop hu hp hn hb hL ha rfl haL h (fun q => q.i = 0 ∧ q.x = x ∨ 0 < q.i ∧
      objective u.n φ q.x ≤ q.last ∧ (∃ y, q.last = objective u.n φ y) ∧ ((q.i : ℝ) - 1) * tol ≤ objective u.n φ x - q.last)
    (fun q hq hi => Or.inl ⟨hi, hq⟩) (by
      rintro q q' (⟨h1, h1'⟩ | ⟨h1, h2, -, h3⟩) h4 h5 h6 h7 h8 - -
      · right
        refine ⟨by omega, h5 ▸ h8, ⟨_, h5⟩, ?_⟩
        rw [h4, h1, h5, h1']
        simp
      · right
        refine ⟨by omega, h5 ▸ h8, ⟨_, h5⟩, ?_⟩
        have h9 : ¬ |q.last - objective u.n φ q.x| < tol := by rw [← hnear, h7]; simp
        rw [abs_of_nonneg (by linarith)] at h9
        push Not at h9
        rw [h4, h5]
        push_cast
        linarith)
  rcases k1 with ⟨k1, -⟩ | ⟨-, -, ⟨y, hy⟩, k1⟩
  · exact Or.inr (k3.trans k1)
  · left
    rw [k3]
    have := hlb y
    linarith

/-- **C262** SVRG terminates without an iteration limit when the objective is bounded below and the tolerance is positive. -/
theorem C262_svrg_terminates (hu : SmoothSum u φ γ perm L) (hp : PlainSvrg p) (hn : 0 < u.n) (hb : 0 < p.batchSize) (hL : 0 ≤ L)
    (ha : 0 < a) (haL : ((if p.innerIterations = 0 then u.n else p.innerIterations : Nat) : ℝ) * (a * L) ≤ 1 / 4)
    {tol : ℝ} (htol : 0 < tol) (hnear : ∀ s t : ℝ, u.near s t = true ↔ |s - t| < tol) {lb : ℝ} (hlb : ∀ y, lb ≤ objective u.n φ y)
    (w : W) (x : V) : ∃ fuel e t, optimize u p a fuel w x = some (.ret e t) := by
  have h0 : Sound u.n (⟨(u.cbBegin w x).1, false, []⟩ : S W) := ⟨by simp, along_nil _⟩
  let I : St W V ℝ → Prop := fun q => Sound u.n q.s ∧ q.step = a ∧ (q.i = 0 ∨ objective u.n φ q.x ≤ q.last)
  let μ : St W V ℝ → Nat := fun q => if q.i = 0 then ⌊(objective u.n φ q.x - lb) / tol⌋₊ + 1 else ⌊(q.last - lb) / tol⌋₊
  let q0 : St W V ℝ := ⟨⟨(u.cbBegin w x).1, false, []⟩, (u.cbBegin w x).2, a, u.dblMax, u.zero, 0⟩
  obtain ⟨r, hr⟩ := iterate_total (step := body u p) I μ
    (by
      rintro q q' ⟨h1, h2, h3⟩ ht
      obtain ⟨s1, -⟩ := (body_spec hn hb h1).1 q' ht
      obtain ⟨k1, k2, k3, k4, k5, k6, -⟩ := (svrg_body hu hp hn hb hL ha rfl haL h2).1 q' ht
      refine ⟨⟨s1, k1, Or.inr (k3 ▸ k6)⟩, ?_⟩
      have hi : ¬ q'.i = 0 := by omega
      simp only [μ, if_neg hi, k3]
      split
      · exact Nat.lt_succ_self _
      · rename_i h4
        have h5 := h3.resolve_left h4
        have h9 : ¬ |q.last - objective u.n φ q.x| < tol := by rw [← hnear, k5]; simp
        rw [abs_of_nonneg (by linarith)] at h9
        push Not at h9
        have h10 : 0 ≤ (objective u.n φ q.x - lb) / tol := div_nonneg (by linarith [hlb q.x]) htol.le
        have h11 : (objective u.n φ q.x - lb) / tol + 1 ≤ (q.last - lb) / tol := by
          rw [div_add_one htol.ne', div_le_div_iff_of_pos_right htol]
          linarith
        calc _ < ⌊(objective u.n φ q.x - lb) / tol⌋₊ + 1 := Nat.lt_succ_self _
          _ = ⌊(objective u.n φ q.x - lb) / tol + 1⌋₊ := (Nat.floor_add_one h10).symm
          _ ≤ _ := Nat.floor_le_floor h11)
    (μ q0 + 1) q0 ⟨h0, rfl, Or.inl rfl⟩ (Nat.lt_succ_self _)
  have hp' := iterate_inv (step := body u p) (fun t => Sound u.n t.s) (fun r => ∃ e t', r = .ret e t')
    (fun t t' h ht => ((body_spec hn hb h).1 t' ht).1)
    (fun t r h ht => by obtain ⟨e, t', h', -⟩ := (body_spec hn hb h).2 r ht; exact ⟨e, t', h'⟩) _ _ r h0 hr
  obtain ⟨e, t', rfl⟩ := hp'
  exact ⟨μ q0 + 1, e, finish u p e t', by unfold optimize; simp only; rw [hr]; rfl⟩

/-- **C262** On strongly convex objectives every completed pass of SVRG brings the objective closer to any other value by a fixed
factor: linear convergence, for every order of the functions. -/
theorem C262_svrg_linear (hu : SmoothSum u φ γ perm L) (hp : PlainSvrg p) (hn : 0 < u.n) (hb : 0 < p.batchSize)
    (ha : 0 < a) {m : Nat} (hm : m = if p.innerIterations = 0 then u.n else p.innerIterations) (haL : m * (a * L) ≤ 1 / 4)
    {μ : ℝ} (hμ : 0 < μ) (hμL : μ ≤ L) (hc : StronglyConvex (objective u.n φ) (objective u.n γ) (u.n * μ)) (z : V) {w : W} {x : V}
    {fuel : Nat} {e : Exit} {t : St W V ℝ} (h : optimize u p a fuel w x = some (.ret e t)) (hterm : t.s.term = false) :
    objective u.n φ t.x - objective u.n φ z ≤ (1 - m * a * μ / p.batchSize) ^ t.i * (objective u.n φ x - objective u.n φ z) := by
  have hn' : (0 : ℝ) < u.n := by exact_mod_cast hn
  have hb' : (1 : ℝ) ≤ p.batchSize := by exact_mod_cast hb
  have hm' : (0 : ℝ) ≤ m := Nat.cast_nonneg m
  obtain ⟨q, k1, k2, k3, k4, -⟩ := svrg_loop hu hp hn hb (hμ.le.trans hμL) ha hm haL h (fun q => q.s.term = false →
      objective u.n φ q.x - objective u.n φ z ≤ (1 - m * a * μ / p.batchSize) ^ q.i * (objective u.n φ x - objective u.n φ z))
    (fun q hq hi _ => by rw [hq, hi]; simp) (by
      intro q q' h1 h2 _ h4 _ _ _ h8 h9
      have h10 := h8 h9
      have h11 := hc.gap (by positivity) q.x z
      rw [le_div_iff₀ (by positivity)] at h11
      set R := 1 - m * a * μ / p.batchSize with hR
      have hR0 : 0 ≤ R := by
        have k : m * a * μ / p.batchSize ≤ 1 := by
          rw [div_le_one (by positivity)]
          have : m * a * μ ≤ m * a * L := mul_le_mul_of_nonneg_left hμL (by positivity)
          nlinarith
        linarith
      have h12 : objective u.n φ q'.x - objective u.n φ z ≤ R * (objective u.n φ q.x - objective u.n φ z) := by
        have k := mul_le_mul_of_nonneg_left h11 (by positivity : 0 ≤ m * a / (2 * u.n * p.batchSize))
        have k' : m * a / (2 * u.n * p.batchSize) * ((objective u.n φ q.x - objective u.n φ z) * (2 * (u.n * μ))) =
            m * a * μ / p.batchSize * (objective u.n φ q.x - objective u.n φ z) := by
          field_simp
        rw [k'] at k
        rw [hR]
        linarith
      have h13 := mul_le_mul_of_nonneg_left (h1 h4) hR0
      rw [h2, pow_succ']
      linarith)
  rw [k2, k3]
  exact k1 (k4 hterm)

/-! ### Examples -/

/-- SVRG with batches of one function and the default number of inner iterations. -/
noncomputable def svrgParams (maxIterations : Nat) : Ens.Vr.Svrg.Params Unit ℝ ℝ ℝ where
  batchSize := 1
  maxIterations := maxIterations
  innerIterations := 0
  shuffle := true
  exact := true
  update _ x full g g0 k st := ((), x - st • (full + (k : ℝ)⁻¹ • (g - g0)))
  decay _ _ _ _ _ _ st := ((), st)

theorem svrgParams_plain (k : Nat) : PlainSvrg (svrgParams k) := ⟨fun _ _ _ _ _ _ _ => rfl, fun _ _ _ _ _ _ _ => rfl⟩

theorem svrg_small (tol : ℝ) (k : Nat) : ((if (svrgParams k).innerIterations = 0 then (twoSquares tol).n else
    (svrgParams k).innerIterations : Nat) : ℝ) * (1 / 8 * 1) ≤ 1 / 4 := by
  simp [svrgParams, twoSquares]; norm_num

theorem twoSquares_bound (tol : ℝ) (y : ℝ) : 0 ≤ objective (twoSquares tol).n (fun j x => (x - (j : ℝ)) ^ 2 / 2) y := by
  show 0 ≤ objective 2 _ y
  rw [(twoSquares_objective y).1]; positivity

theorem twoSquares_near (tol s t : ℝ) : (twoSquares tol).near s t = true ↔ |s - t| < tol := by
  simp [twoSquares]

/-- SVRG started at 5 with tolerance 1/100 and no iteration limit returns; its result is no worse, after at most 2051 passes. -/
example : ∃ fuel e t, optimize (twoSquares (1 / 100)) (svrgParams 0) (1 / 8) fuel () 5 = some (.ret e t) ∧
    t.x ^ 2 / 2 + (t.x - 1) ^ 2 / 2 ≤ 41 / 2 ∧ t.i ≤ 2051 := by
  obtain ⟨fuel, e, t, h⟩ := C262_svrg_terminates (twoSquares_smooth _) (svrgParams_plain 0) (by decide) (by decide) zero_le_one
    (by norm_num : (0 : ℝ) < 1 / 8) (svrg_small _ _) (by norm_num) (twoSquares_near (1 / 100)) (twoSquares_bound _) () 5
  have h1 := C262_svrg_descends (twoSquares_smooth _) (svrgParams_plain 0) (by decide) (by decide) zero_le_one
    (by norm_num : (0 : ℝ) < 1 / 8) (svrg_small _ _) h
  have h2 := C262_svrg_passes (twoSquares_smooth _) (svrgParams_plain 0) (by decide) (by decide) zero_le_one
    (by norm_num : (0 : ℝ) < 1 / 8) (svrg_small _ _) (twoSquares_near (1 / 100)) (twoSquares_bound _) h
  change objective 2 _ _ ≤ objective 2 _ _ at h1
  change _ ≤ objective 2 _ _ - _ ∨ _ at h2
  rw [(twoSquares_objective _).1, (twoSquares_objective _).1] at h1
  rw [(twoSquares_objective _).1] at h2
  refine ⟨fuel, e, t, h, by linarith, ?_⟩
  rcases h2 with h2 | h2
  · have : (t.i : ℝ) ≤ 2051 := by linarith
    exact_mod_cast this
  · omega

open scoped Classical in
/-- One pass from 5: the objective falls as promised. -/
example : ∃ e t, optimize (twoSquares 0) (svrgParams 1) (1 / 8) 2 () 5 = some (.ret e t) ∧ t.s.term = false ∧ t.i = 1 ∧
    (t.x ^ 2 / 2 + (t.x - 1) ^ 2 / 2) - 1 / 4 ≤ 3 / 4 * (41 / 2 - 1 / 4) := by
  have hf : ∀ s t : ℝ, (twoSquares 0).near s t = false := fun s t => by
    simp [twoSquares]
  obtain ⟨e, t, h, h1, h2⟩ : ∃ e t, optimize (twoSquares 0) (svrgParams 1) (1 / 8) 2 () 5 = some (.ret e t) ∧
      t.s.term = false ∧ t.i = 1 := by
    unfold optimize
    simp only [iterate, body, hf]
    exact ⟨_, _, rfl, rfl, rfl⟩
  have h3 := C262_svrg_linear (twoSquares_smooth _) (svrgParams_plain 1) (by decide) (by decide)
    (by norm_num : (0 : ℝ) < 1 / 8) rfl (svrg_small _ _) one_pos le_rfl twoSquares_convex (1 / 2 : ℝ) h h1
  change objective 2 _ _ - objective 2 _ _ ≤ _ * (objective 2 _ _ - objective 2 _ _) at h3
  rw [(twoSquares_objective _).1, (twoSquares_objective _).1, (twoSquares_objective _).1, h2] at h3
  refine ⟨e, t, h, h1, h2, ?_⟩
  simp only [svrgParams, twoSquares] at h3
  norm_num at h3 ⊢
  linarith

end Ens.Converge
