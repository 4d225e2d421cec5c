import Verif.Converge.Svrg

/-
C263: SARAH and SARAH+ with small step sizes on a sum of smooth functions.
-/

namespace Ens.Converge

open Ens.Vr Ens.Vr.Sarah
open Ens.Vr.Svrg (average)

variable {W V : Type} [NormedAddCommGroup V] [InnerProductSpace ℝ V] {u : Ens.Vr.User W V V ℝ} {φ : Nat → V → ℝ}
  {γ : Nat → V → V} {perm : W → Nat → Nat} {L a : ℝ}

/-- The arithmetic of `SARAHUpdate` (`sarah/sarah_update.hpp:36-47`) and `SARAHPlusUpdate` (`sarah/sarah_plus_update.hpp:47-62`),
which differ in the flag only, and of the first move (`sarah/sarah_impl.hpp:154`). -/
structure AnySarah (p : Ens.Vr.Sarah.Params V V ℝ) (a : ℝ) : Prop where
  move : ∀ x v, p.move x v = x - a • v
  v : ∀ x v g g0 k nv, (p.update x v g g0 k nv).2.1 = v + (k : ℝ)⁻¹ • (g - g0)
  x : ∀ x v g g0 k nv, (p.update x v g g0 k nv).1 = x - a • (v + (k : ℝ)⁻¹ • (g - g0))

variable {p : Ens.Vr.Sarah.Params V V ℝ}

theorem sarah_wrap {t : Sarah.Inner W V V} (hn : 0 < u.n) (hc : t.cur ≤ u.n) (sh : Bool) :
    (wrap u sh t).cur < u.n ∧ (wrap u sh t).f = t.f ∧ (wrap u sh t).x = t.x ∧ (wrap u sh t).v = t.v ∧ (wrap u sh t).x0 = t.x0 := by
  unfold wrap
  split
  · exact ⟨hn, rfl, rfl, rfl, rfl⟩
  · rename_i hm
    refine ⟨?_, rfl, rfl, rfl, rfl⟩
    rcases Nat.lt_or_ge t.cur u.n with h | h
    · exact h
    · exact absurd (by rw [show t.cur = u.n by omega, Nat.mod_self]) hm

/-- The change of the direction in one inner step. -/
theorem sarah_delta (hu : SmoothSum u φ γ perm L) (hL : 0 ≤ L) (ha : 0 ≤ a) (t : Sarah.Inner W V V) (q : Nat × Nat) (hq : 0 < q.2)
    (hx : 0 < t.f → t.x - t.x0 = -(a • t.v)) :
    ‖(q.2 : ℝ)⁻¹ • ((twoGrads u t q).2.1 - (twoGrads u t q).2.2)‖ ≤ a * L * ‖t.v‖ := by
  unfold twoGrads
  obtain ⟨g1, g2⟩ := gradAt_rest hu.sep t.s t.x q
  simp only
  split
  · rename_i hf
    obtain ⟨g3, g4⟩ := gradAt_rest hu.sep (gradAt u t.s t.x q).1 t.x0 q
    rw [g2] at g3
    simp only [g1, g3]
    refine (batch_lip (fun j x y => (hu.smooth j).lip x y) (perm t.s.w) q.1 q.2 hq t.x t.x0).trans (le_of_eq ?_)
    rw [hx hf, norm_neg, norm_smul, Real.norm_of_nonneg ha]
    ring
  · simp only [sub_self, smul_zero, norm_zero]
    positivity

theorem sarah_inner (hu : SmoothSum u φ γ perm L) (hp : AnySarah p a) (hn : 0 < u.n) (hb : 0 < p.batchSize) (hL : 0 ≤ L)
    (ha : 0 ≤ a) (m : Nat) (vNorm : ℝ) (x0 x1 : V) (s : S W) {fuel : Nat} {r : Sarah.Inner W V V}
    (h : iterate (innerStep u p m vNorm) fuel ⟨s, x0 - a • average u.n γ x0, x1, average u.n γ x0, 0, 0⟩ = some r) :
    ∃ j : Nat, 1 ≤ j ∧ j ≤ m + 1 ∧ ((∀ x v g g0 k nv, (p.update x v g g0 k nv).2.2 = false) → r.s.term = false →
        m ≤ (j - 1) * p.batchSize) ∧
      ‖r.x - x0 + (j * a) • average u.n γ x0‖ ≤ a * drift (a * L) j * ‖average u.n γ x0‖ := by
  set g := average u.n γ x0 with hg
  let I : Sarah.Inner W V V → Prop := fun t => t.cur ≤ u.n ∧ (0 < t.f → t.x - t.x0 = -(a • t.v)) ∧
    ∃ j : Nat, 1 ≤ j ∧ j ≤ t.f + 1 ∧ j ≤ m + 1 ∧ t.f ≤ (j - 1) * p.batchSize ∧
    ‖t.v - g‖ ≤ ((1 + a * L) ^ (j - 1) - 1) * ‖g‖ ∧ ‖t.x - x0 + (j * a) • g‖ ≤ a * drift (a * L) j * ‖g‖
  have key : ∀ (t : Sarah.Inner W V V) (j : Nat) (q : Nat × Nat), 0 < q.2 → (0 < t.f → t.x - t.x0 = -(a • t.v)) → 1 ≤ j →
      ‖t.v - g‖ ≤ ((1 + a * L) ^ (j - 1) - 1) * ‖g‖ → ‖t.x - x0 + (j * a) • g‖ ≤ a * drift (a * L) j * ‖g‖ →
      ‖t.v + (q.2 : ℝ)⁻¹ • ((twoGrads u t q).2.1 - (twoGrads u t q).2.2) - g‖ ≤ ((1 + a * L) ^ (j + 1 - 1) - 1) * ‖g‖ ∧
      ‖t.x - a • (t.v + (q.2 : ℝ)⁻¹ • ((twoGrads u t q).2.1 - (twoGrads u t q).2.2)) - x0 + (((j + 1 : Nat) : ℝ) * a) • g‖ ≤
        a * drift (a * L) (j + 1) * ‖g‖ := by
    intro t j q hq hx hj hv hd
    have hδ := sarah_delta hu hL ha t q hq hx
    set δ := (q.2 : ℝ)⁻¹ • ((twoGrads u t q).2.1 - (twoGrads u t q).2.2)
    have k1 : ‖t.v‖ ≤ ‖t.v - g‖ + ‖g‖ := by
      have := norm_add_le (t.v - g) g
      rwa [sub_add_cancel] at this
    have k2 : ‖t.v + δ - g‖ ≤ ‖t.v - g‖ + ‖δ‖ := by
      rw [show t.v + δ - g = (t.v - g) + δ by abel]
      exact norm_add_le _ _
    have haL := mul_nonneg ha hL
    have k3 : ‖t.v + δ - g‖ ≤ ((1 + a * L) ^ (j + 1 - 1) - 1) * ‖g‖ := by
      obtain ⟨i, rfl⟩ : ∃ i, j = i + 1 := ⟨j - 1, by omega⟩
      simp only [Nat.add_sub_cancel] at hv ⊢
      have := mul_le_mul_of_nonneg_left (k1.trans (add_le_add hv le_rfl)) haL
      rw [pow_succ]
      nlinarith
    refine ⟨k3, ?_⟩
    have e : t.x - a • (t.v + δ) - x0 + (((j + 1 : Nat) : ℝ) * a) • g = (t.x - x0 + (j * a) • g) - a • (t.v + δ - g) := by
      push_cast
      module
    rw [e]
    refine (norm_sub_le _ _).trans ?_
    rw [norm_smul, Real.norm_of_nonneg ha, drift, Finset.sum_range_succ]
    rw [drift] at hd
    simp only [Nat.add_sub_cancel] at k3
    have := mul_le_mul_of_nonneg_left k3 ha
    nlinarith
  refine iterate_inv I (fun r => ∃ j : Nat, 1 ≤ j ∧ j ≤ m + 1 ∧ ((∀ x v g g0 k nv, (p.update x v g g0 k nv).2.2 = false) →
      r.s.term = false → m ≤ (j - 1) * p.batchSize) ∧ ‖r.x - x0 + (j * a) • g‖ ≤ a * drift (a * L) j * ‖g‖) ?_ ?_ fuel _ r
      ⟨Nat.zero_le _, (fun h => absurd h (lt_irrefl _)), 1, le_rfl, le_rfl, by omega, by simp, by simp, ?_⟩ h
  · rintro t t' ⟨h1, h1', j, h2, h3, h3', h4, h5, h6⟩ ht
    unfold innerStep at ht
    split at ht
    swap
    · cases ht
    rename_i hlt
    obtain ⟨w1, w2, w3, w4, w5⟩ := sarah_wrap (t := t) hn h1 p.shuffle
    set w := wrap u p.shuffle t
    simp only at ht
    split at ht
    · cases ht
    split at ht
    · cases ht
    cases ht
    set eff := min p.batchSize (u.n - w.cur) with heff
    have he : 0 < eff := by omega
    obtain ⟨k1, k2⟩ := key w j (w.cur, eff) he (by rw [w2, w3, w4, w5]; exact h1') h2 (by rw [w4]; exact h5) (by rw [w3]; exact h6)
    refine ⟨by show w.cur + eff ≤ u.n; omega, fun _ => ?_, j + 1, by omega, by show j + 1 ≤ w.f + eff + 1; omega, by omega,
      ?_, ?_, ?_⟩
    · simp only [stepAt, hu.step, hp.x, hp.v]
      abel
    · show w.f + eff ≤ _
      rw [w2, show j + 1 - 1 = (j - 1) + 1 by omega, Nat.add_mul]
      omega
    · simp only [hp.v]
      exact k1
    · simp only [stepAt, hu.step, hp.x]
      exact k2
  · rintro t r ⟨h1, h1', j, h2, h3, h3', h4, h5, h6⟩ ht
    unfold innerStep at ht
    split at ht
    · rename_i hlt
      obtain ⟨w1, w2, w3, w4, w5⟩ := sarah_wrap (t := t) hn h1 p.shuffle
      set w := wrap u p.shuffle t
      simp only at ht
      split at ht
      · rename_i hterm
        cases ht
        refine ⟨j, h2, h3', fun _ hf => ?_, ?_⟩
        · dsimp only at hf
          rw [hf] at hterm; cases hterm
        · rw [← w3] at h6
          exact h6
      split at ht
      · rename_i hflag
        cases ht
        obtain ⟨k1, k2⟩ := key w j (w.cur, min p.batchSize (u.n - w.cur)) (by show 0 < min _ _; omega)
          (by rw [w2, w3, w4, w5]; exact h1') h2 (by rw [w4]; exact h5) (by rw [w3]; exact h6)
        refine ⟨j + 1, by omega, by omega, fun hf => ?_, ?_⟩
        · rw [hf] at hflag; cases hflag
        · simp only [hp.x]
          exact k2
      · cases ht
    · cases ht
      exact ⟨j, h2, h3', fun _ _ => by omega, h6⟩
  · have : x0 - a • g - x0 + ((1 : Nat) * a) • g = 0 := by
      push_cast
      module
    simp only [this, norm_zero]
    simp [drift]

/-- One pass of the outer loop. -/
theorem sarah_body (hu : SmoothSum u φ γ perm L) (hp : AnySarah p a) (hn : 0 < u.n) (hb : 0 < p.batchSize) (hL : 0 ≤ L) (ha : 0 < a)
    {m : Nat} (hm : m = if p.innerIterations = 0 then u.n else p.innerIterations) (haL : (m + 1) * (a * L) ≤ 1 / 4) {t : St W V ℝ} :
    (∀ t', body u p t = .inl t' → t'.i = t.i + 1 ∧ t'.last = objective u.n φ t.x ∧ t.s.term = false ∧
      u.near t.last (objective u.n φ t.x) = false ∧
      ‖objective u.n γ t'.x‖ ≤ 21 / 16 * ‖objective u.n γ t.x‖ ∧
      objective u.n φ t'.x ≤ objective u.n φ t.x - a / (2 * u.n) * ‖objective u.n γ t.x‖ ^ 2 ∧
      ((∀ x v g g0 k nv, (p.update x v g g0 k nv).2.2 = false) → t'.s.term = false →
        objective u.n φ t'.x ≤ objective u.n φ t.x - (1 + m / p.batchSize) * a / (2 * u.n) * ‖objective u.n γ t.x‖ ^ 2)) ∧
    (∀ r, body u p t = .inr r → ∀ e t', r = .ret e t' → t'.x = t.x ∧ t'.i = t.i ∧ (t'.s.term = false → t.s.term = false) ∧
      (e = .near → t.s.term = false ∧ u.near t.last (objective u.n φ t.x) = true)) := by
  have hn' : (0 : ℝ) < u.n := by exact_mod_cast hn
  have hb' : (0 : ℝ) < p.batchSize := by exact_mod_cast hb
  unfold body
  split
  · refine ⟨(fun t' h => by cases h), fun r hr e t' he => ?_⟩
    cases hr
    cases he
    exact ⟨rfl, rfl, id, fun h => by cases h⟩
  rename_i hlim
  simp only [not_or, Bool.not_eq_true] at hlim
  obtain ⟨ov, -⟩ := evalAll_value hu.sep hb t.s t.x
  simp only [ov]
  split
  · refine ⟨(fun t' h => by cases h), fun r hr e t' he => ?_⟩
    cases hr
    cases he
    exact ⟨rfl, rfl, fun _ => hlim.2, fun h => by cases h⟩
  split
  · rename_i hnear
    refine ⟨(fun t' h => by cases h), fun r hr e t' he => ?_⟩
    cases hr
    cases he
    exact ⟨rfl, rfl, fun _ => hlim.2, fun _ => ⟨hlim.2, hnear⟩⟩
  rename_i hnear
  obtain ⟨g, hg⟩ := fullGrad_some u (gradQuiet u) (b := p.batchSize) hn (evalAll u p.batchSize t.s t.x).1 t.x t.x
  rw [hg]
  have hga : g.2 = average u.n γ t.x := by
    rw [(fullGrad_average hu.sep hb (gradQuiet_rest hu.sep) hg).1, hu.divG]
    rfl
  simp only
  split
  · refine ⟨(fun t' h => by cases h), fun r hr e t' he => ?_⟩
    cases hr
    cases he
    exact ⟨rfl, rfl, fun _ => hlim.2, fun h => by cases h⟩
  rw [hp.move, hga]
  split
  · exact ⟨(fun t' h => by cases h), fun r hr e t' he => by cases hr; cases he⟩
  rename_i r hr
  refine ⟨fun t' h => ?_, fun r hr => by cases hr⟩
  cases h
  obtain ⟨j, j0, j1, j2, j3⟩ := sarah_inner hu hp hn hb hL ha.le _ _ _ _ _ hr
  have hjm : j ≤ m + 1 := by rw [hm]; exact j1
  have hjm' : (j : ℝ) ≤ m + 1 := by exact_mod_cast hjm
  have haL' : j * (a * L) ≤ 1 / 4 := (mul_le_mul_of_nonneg_right hjm' (mul_nonneg ha.le hL)).trans haL
  obtain ⟨d1, d2⟩ := steps_descent (objective_smooth hu.smooth u.n) hn hL ha.le haL' j3
  have hG := sq_nonneg ‖objective u.n γ t.x‖
  have hj0 : (1 : ℝ) ≤ j := by exact_mod_cast j0
  have scale : ∀ k : ℝ, k ≤ j → k * a / (2 * u.n) * ‖objective u.n γ t.x‖ ^ 2 ≤ j * a / (2 * u.n) * ‖objective u.n γ t.x‖ ^ 2 := by
    intro k hk
    refine mul_le_mul_of_nonneg_right ?_ hG
    rw [div_le_div_iff_of_pos_right (by positivity)]
    exact mul_le_mul_of_nonneg_right hk ha.le
  refine ⟨rfl, rfl, hlim.2, by simpa using hnear, d2, ?_, fun hflag hterm => ?_⟩
  · have := scale 1 hj0
    rw [one_mul] at this
    dsimp only
    linarith
  · have h1 : m ≤ (j - 1) * p.batchSize := by rw [hm]; exact j2 hflag hterm
    have h2 : (m : ℝ) ≤ (j - 1) * p.batchSize := by
      have : (m : ℝ) ≤ ((j - 1 : Nat) : ℝ) * p.batchSize := by exact_mod_cast h1
      rwa [Nat.cast_sub j0, Nat.cast_one] at this
    have h3 : 1 + m / p.batchSize ≤ (j : ℝ) := by
      have : (m : ℝ) / p.batchSize ≤ j - 1 := by rwa [div_le_iff₀ hb']
      linarith
    have := scale _ h3
    dsimp only
    linarith

/-- The outer loop: what is known when it returns. -/
theorem sarah_loop (hu : SmoothSum u φ γ perm L) (hp : AnySarah p a) (hn : 0 < u.n) (hb : 0 < p.batchSize) (hL : 0 ≤ L) (ha : 0 < a)
    {m : Nat} (hm : m = if p.innerIterations = 0 then u.n else p.innerIterations) (haL : (m + 1) * (a * L) ≤ 1 / 4) {w : W} {x : V}
    {fuel : Nat} {e : Exit} {t : St W V ℝ} (h : optimize u p fuel w x = some (.ret e t))
    (I : St W V ℝ → Prop) (h0 : ∀ q : St W V ℝ, q.x = x → q.i = 0 → I q)
    (hI : ∀ q q' : St W V ℝ, I q → q'.i = q.i + 1 → q'.last = objective u.n φ q.x → q.s.term = false →
      u.near q.last (objective u.n φ q.x) = false →
      ‖objective u.n γ q'.x‖ ≤ 21 / 16 * ‖objective u.n γ q.x‖ →
      objective u.n φ q'.x ≤ objective u.n φ q.x - a / (2 * u.n) * ‖objective u.n γ q.x‖ ^ 2 →
      ((∀ x v g g0 k nv, (p.update x v g g0 k nv).2.2 = false) → q'.s.term = false →
        objective u.n φ q'.x ≤ objective u.n φ q.x - (1 + m / p.batchSize) * a / (2 * u.n) * ‖objective u.n γ q.x‖ ^ 2) → I q') :
    ∃ q : St W V ℝ, I q ∧ t.x = q.x ∧ t.i = q.i ∧ (t.s.term = false → q.s.term = false) ∧
      (e = .near → q.s.term = false ∧ u.near q.last (objective u.n φ q.x) = true) := by
  unfold optimize at h
  simp only at h
  obtain ⟨r, hr, he⟩ := Option.map_eq_some_iff.1 h
  have key := iterate_inv (step := body u p) I
    (fun r => ∀ e t', r = .ret e t' → ∃ q : St W V ℝ, I q ∧ t'.x = q.x ∧ t'.i = q.i ∧ (t'.s.term = false → q.s.term = false) ∧
      (e = .near → q.s.term = false ∧ u.near q.last (objective u.n φ q.x) = true))
    (by
      intro q q' h1 h3
      obtain ⟨k2, k3, k4, k5, k6, k7, k8⟩ := (sarah_body hu hp hn hb hL ha hm haL).1 q' h3
      exact hI q q' h1 k2 k3 k4 k5 k6 k7 k8)
    (by
      intro q r h1 h3 e t' h4
      obtain ⟨k1, k2, k3, k4⟩ := (sarah_body hu hp hn hb hL ha hm haL).2 r h3 e t' h4
      exact ⟨q, h1, k1, k2, k3, k4⟩)
    fuel _ r (h0 _ (hu.begin_ w x) rfl) hr
  cases r with
  | stuck => cases he
  | ret e' t' =>
    cases he
    obtain ⟨q, k1, k2, k3, k4, k5⟩ := key _ _ rfl
    refine ⟨q, k1, ?_, ?_, fun hf => k4 ?_, k5⟩
    · unfold finish
      simp only [hu.end_]
      split <;> exact k2
    · unfold finish
      split <;> exact k3
    · unfold finish at hf
      simp only at hf
      split at hf
      · by_contra hc
        rw [evalAll_term _ _ _ (by simpa using hc)] at hf
        cases hf
      · exact hf

/-- **C263** With a step size of at most `1/(4 (m + 1) L)`, `m` the number of inner iterations and `L` the Lipschitz constant of
the gradients of the functions, SARAH and SARAH+ never return coordinates with a larger objective than those they were given,
whatever the batch size, the order of the functions and the callback that stops them. -/
theorem C263_sarah_descends (hu : SmoothSum u φ γ perm L) (hp : AnySarah p a) (hn : 0 < u.n) (hb : 0 < p.batchSize) (hL : 0 ≤ L)
    (ha : 0 < a) (haL : (((if p.innerIterations = 0 then u.n else p.innerIterations : Nat) : ℝ) + 1) * (a * L) ≤ 1 / 4) {w : W}
    {x : V} {fuel : Nat} {e : Exit} {t : St W V ℝ} (h : optimize u p fuel w x = some (.ret e t)) :
    objective u.n φ t.x ≤ objective u.n φ x := by
  obtain ⟨q, k1, k2, -⟩ := sarah_loop hu hp hn hb hL ha rfl haL h (fun q => objective u.n φ q.x ≤ objective u.n φ x)
    (fun q hq _ => by rw [hq]) (fun q q' h1 _ _ _ _ _ h2 _ => by
      have : 0 ≤ a / (2 * u.n) * ‖objective u.n γ q.x‖ ^ 2 := by positivity
      linarith)
  rw [k2]
  exact k1

/-- **C263** When SARAH or SARAH+ stops because the objective changed by less than the tolerance, the gradient of the objective at
the returned coordinates is small. -/
theorem C263_sarah_tolerance (hu : SmoothSum u φ γ perm L) (hp : AnySarah p a) (hn : 0 < u.n) (hb : 0 < p.batchSize) (hL : 0 ≤ L)
    (ha : 0 < a) (haL : (((if p.innerIterations = 0 then u.n else p.innerIterations : Nat) : ℝ) + 1) * (a * L) ≤ 1 / 4)
    {tol : ℝ} (hnear : ∀ s t : ℝ, u.near s t = true ↔ |s - t| < tol) {w : W} {x : V}
    {fuel : Nat} {t : St W V ℝ} (h : optimize u p fuel w x = some (.ret .near t)) (hi : 0 < t.i) :
    ‖objective u.n γ t.x‖ ^ 2 ≤ 4 * u.n * tol / a := by
  have hn' : (0 : ℝ) < u.n := by exact_mod_cast hn
  obtain ⟨q, k1, k2, k3, -, k4⟩ := sarah_loop hu hp hn hb hL ha rfl haL h (fun q => 0 < q.i → ∃ y, q.last = objective u.n φ y ∧
      ‖objective u.n γ q.x‖ ≤ 21 / 16 * ‖objective u.n γ y‖ ∧
        objective u.n φ q.x ≤ objective u.n φ y - a / (2 * u.n) * ‖objective u.n γ y‖ ^ 2)
    (fun q _ hq hq' => by omega) (fun q q' _ _ h2 _ _ h3 h4 _ _ => ⟨q.x, h2, h3, h4⟩)
  obtain ⟨y, y1, y2, y3⟩ := k1 (by omega)
  obtain ⟨-, k6⟩ := k4 rfl
  rw [hnear, y1] at k6
  have k7 := (abs_lt.1 k6).2
  rw [k2]
  set Y := ‖objective u.n γ y‖
  have k8 : a / (2 * u.n) * Y ^ 2 < tol := by linarith
  rw [div_mul_eq_mul_div, div_lt_iff₀ (by positivity)] at k8
  rw [le_div_iff₀ (by positivity)]
  have k9 : ‖objective u.n γ q.x‖ ^ 2 ≤ (21 / 16 * Y) ^ 2 := pow_le_pow_left₀ (norm_nonneg _) y2 2
  have k10 : ‖objective u.n γ q.x‖ ^ 2 * a ≤ (21 / 16 * Y) ^ 2 * a := mul_le_mul_of_nonneg_right k9 (by positivity)
  have k11 : 0 ≤ a * Y ^ 2 := by positivity
  nlinarith

/-- **C263** The number of passes of SARAH and SARAH+ before the tolerance test stops them is bounded by the distance of the
objective from a lower bound. -/
theorem C263_sarah_passes (hu : SmoothSum u φ γ perm L) (hp : AnySarah p a) (hn : 0 < u.n) (hb : 0 < p.batchSize) (hL : 0 ≤ L)
    (ha : 0 < a) (haL : (((if p.innerIterations = 0 then u.n else p.innerIterations : Nat) : ℝ) + 1) * (a * L) ≤ 1 / 4)
    {tol : ℝ} (hnear : ∀ s t : ℝ, u.near s t = true ↔ |s - t| < tol) {lb : ℝ} (hlb : ∀ y, lb ≤ objective u.n φ y) {w : W} {x : V}
    {fuel : Nat} {e : Exit} {t : St W V ℝ} (h : optimize u p fuel w x = some (.ret e t)) :
    ((t.i : ℝ) - 1) * tol ≤ objective u.n φ x - lb ∨ t.i = 0 := by
  obtain ⟨q, k1, -, k3, -⟩ := sarah_loop hu hp hn hb hL ha rfl haL h (fun q => q.i = 0 ∧ q.x = x ∨ 0 < q.i ∧
      objective u.n φ q.x ≤ q.last ∧ (∃ y, q.last = objective u.n φ y) ∧ ((q.i : ℝ) - 1) * tol ≤ objective u.n φ x - q.last)
    (fun q hq hi => Or.inl ⟨hi, hq⟩) (by
      intro q q' hq h4 h5 h6 h7 _ h8' _
      have h8 : objective u.n φ q'.x ≤ objective u.n φ q.x := by
        have : 0 ≤ a / (2 * u.n) * ‖objective u.n γ q.x‖ ^ 2 := by positivity
        linarith
      rcases hq with ⟨h1, h1'⟩ | ⟨h1, h2, -, h3⟩
      · right
        refine ⟨by omega, h5 ▸ h8, ⟨_, h5⟩, ?_⟩
        rw [h4, h1, h5, h1']
        simp
      · right
        refine ⟨by omega, h5 ▸ h8, ⟨_, h5⟩, ?_⟩
        have h9 : ¬ |q.last - objective u.n φ q.x| < tol := by rw [← hnear, h7]; simp
        rw [abs_of_nonneg (by linarith)] at h9
        push Not at h9
        rw [h4, h5]
        push_cast
        linarith)
  rcases k1 with ⟨k1, -⟩ | ⟨-, -, ⟨y, hy⟩, k1⟩
  · exact Or.inr (k3.trans k1)
  · left
    rw [k3]
    have := hlb y
    linarith

/-- **C263** SARAH and SARAH+ terminate without an iteration limit when the objective is bounded below and the tolerance is
positive. -/
theorem C263_sarah_terminates (hu : SmoothSum u φ γ perm L) (hp : AnySarah p a) (hn : 0 < u.n) (hb : 0 < p.batchSize) (hL : 0 ≤ L)
    (ha : 0 < a) (haL : (((if p.innerIterations = 0 then u.n else p.innerIterations : Nat) : ℝ) + 1) * (a * L) ≤ 1 / 4)
    {tol : ℝ} (htol : 0 < tol) (hnear : ∀ s t : ℝ, u.near s t = true ↔ |s - t| < tol) {lb : ℝ} (hlb : ∀ y, lb ≤ objective u.n φ y)
    (w : W) (x : V) : ∃ fuel e t, optimize u p fuel w x = some (.ret e t) := by
  have h0 : Sound u.n (⟨(u.cbBegin w x).1, false, []⟩ : S W) := ⟨by simp, along_nil _⟩
  let I : St W V ℝ → Prop := fun q => Sound u.n q.s ∧ (q.i = 0 ∨ objective u.n φ q.x ≤ q.last)
  let μ : St W V ℝ → Nat := fun q => if q.i = 0 then ⌊(objective u.n φ q.x - lb) / tol⌋₊ + 1 else ⌊(q.last - lb) / tol⌋₊
  let q0 : St W V ℝ := ⟨⟨(u.cbBegin w x).1, false, []⟩, (u.cbBegin w x).2, u.dblMax, u.zero, 0⟩
  obtain ⟨r, hr⟩ := iterate_total (step := body u p) I μ
    (by
      rintro q q' ⟨h1, h3⟩ ht
      obtain ⟨s1, -⟩ := (body_spec hn hb h1).1 q' ht
      obtain ⟨k2, k3, k4, k5, -, k6', -⟩ := (sarah_body hu hp hn hb hL ha rfl haL).1 q' ht
      have k6 : objective u.n φ q'.x ≤ objective u.n φ q.x := by
        have : 0 ≤ a / (2 * u.n) * ‖objective u.n γ q.x‖ ^ 2 := by positivity
        linarith
      refine ⟨⟨s1, Or.inr (k3 ▸ k6)⟩, ?_⟩
      have hi : ¬ q'.i = 0 := by omega
      simp only [μ, if_neg hi, k3]
      split
      · exact Nat.lt_succ_self _
      · rename_i h4
        have h5 := h3.resolve_left h4
        have h9 : ¬ |q.last - objective u.n φ q.x| < tol := by rw [← hnear, k5]; simp
        rw [abs_of_nonneg (by linarith)] at h9
        push Not at h9
        have h10 : 0 ≤ (objective u.n φ q.x - lb) / tol := div_nonneg (by linarith [hlb q.x]) htol.le
        have h11 : (objective u.n φ q.x - lb) / tol + 1 ≤ (q.last - lb) / tol := by
          rw [div_add_one htol.ne', div_le_div_iff_of_pos_right htol]
          linarith
        calc _ < ⌊(objective u.n φ q.x - lb) / tol⌋₊ + 1 := Nat.lt_succ_self _
          _ = ⌊(objective u.n φ q.x - lb) / tol + 1⌋₊ := (Nat.floor_add_one h10).symm
          _ ≤ _ := Nat.floor_le_floor h11)
    (μ q0 + 1) q0 ⟨h0, Or.inl rfl⟩ (Nat.lt_succ_self _)
  have hp' := iterate_inv (step := body u p) (fun t => Sound u.n t.s) (fun r => ∃ e t', r = .ret e t')
    (fun t t' h ht => ((body_spec hn hb h).1 t' ht).1)
    (fun t r h ht => by obtain ⟨e, t', h', -⟩ := (body_spec hn hb h).2 r ht; exact ⟨e, t', h'⟩) _ _ r h0 hr
  obtain ⟨e, t', rfl⟩ := hp'
  exact ⟨μ q0 + 1, e, finish u p e t', by unfold optimize; simp only; rw [hr]; rfl⟩

/-- One pass contracts the distance from the minimum. -/
theorem contract {F : V → ℝ} {G : V → V} {n : Nat} {μ κ R : ℝ} (hn : 0 < n) (hμ : 0 < μ) (hκ : 0 ≤ κ)
    (hc : StronglyConvex F G (n * μ)) {x y z : V} (h : F y ≤ F x - κ / (2 * n) * ‖G x‖ ^ 2) (hR : R = 1 - κ * μ) :
    F y - F z ≤ R * (F x - F z) := by
  have hn' : (0 : ℝ) < n := by exact_mod_cast hn
  have h11 := hc.gap (by positivity) x z
  rw [le_div_iff₀ (by positivity)] at h11
  have k := mul_le_mul_of_nonneg_left h11 (by positivity : 0 ≤ κ / (2 * n))
  have k' : κ / (2 * n) * ((F x - F z) * (2 * (n * μ))) = κ * μ * (F x - F z) := by field_simp
  rw [k'] at k
  rw [hR]
  linarith

/-- **C263** On strongly convex objectives every pass of SARAH or SARAH+, even one cut short, brings the objective closer to any
other value by a fixed factor: linear convergence, for every order of the functions. -/
theorem C263_sarah_linear (hu : SmoothSum u φ γ perm L) (hp : AnySarah p a) (hn : 0 < u.n) (hb : 0 < p.batchSize)
    (ha : 0 < a) (haL : (((if p.innerIterations = 0 then u.n else p.innerIterations : Nat) : ℝ) + 1) * (a * L) ≤ 1 / 4)
    {μ : ℝ} (hμ : 0 < μ) (hμL : μ ≤ L) (hc : StronglyConvex (objective u.n φ) (objective u.n γ) (u.n * μ)) (z : V) {w : W} {x : V}
    {fuel : Nat} {e : Exit} {t : St W V ℝ} (h : optimize u p fuel w x = some (.ret e t)) :
    objective u.n φ t.x - objective u.n φ z ≤ (1 - a * μ) ^ t.i * (objective u.n φ x - objective u.n φ z) := by
  obtain ⟨q, k1, k2, k3, -⟩ := sarah_loop hu hp hn hb (hμ.le.trans hμL) ha rfl haL h (fun q =>
      objective u.n φ q.x - objective u.n φ z ≤ (1 - a * μ) ^ q.i * (objective u.n φ x - objective u.n φ z))
    (fun q hq hi => by rw [hq, hi]; simp) (by
      intro q q' h1 h2 _ _ _ _ h8 _
      have hR0 : 0 ≤ 1 - a * μ := by
        have k1 : a * μ ≤ a * L := mul_le_mul_of_nonneg_left hμL ha.le
        have k2 : 0 ≤ a * L := mul_nonneg ha.le (hμ.le.trans hμL)
        have k3 : a * L ≤ (((if p.innerIterations = 0 then u.n else p.innerIterations : Nat) : ℝ) + 1) * (a * L) :=
          le_mul_of_one_le_left k2 (le_add_of_nonneg_left (Nat.cast_nonneg _))
        linarith
      have h12 := contract hn hμ ha.le hc (z := z) h8 rfl
      have h13 := mul_le_mul_of_nonneg_left h1 hR0
      rw [h2, pow_succ']
      linarith)
  rw [k2, k3]
  exact k1

/-- **C263** For SARAH (not SARAH+) and runs not stopped by a callback the factor improves with the number of inner iterations. -/
theorem C263_sarah_fast (hu : SmoothSum u φ γ perm L) (hp : AnySarah p a) (hplain : ∀ x v g g0 k nv, (p.update x v g g0 k nv).2.2 = false)
    (hn : 0 < u.n) (hb : 0 < p.batchSize) (ha : 0 < a) {m : Nat} (hm : m = if p.innerIterations = 0 then u.n else p.innerIterations)
    (haL : (m + 1) * (a * L) ≤ 1 / 4) {μ : ℝ} (hμ : 0 < μ) (hμL : μ ≤ L)
    (hc : StronglyConvex (objective u.n φ) (objective u.n γ) (u.n * μ)) (z : V) {w : W} {x : V}
    {fuel : Nat} {e : Exit} {t : St W V ℝ} (h : optimize u p fuel w x = some (.ret e t)) (hterm : t.s.term = false) :
    objective u.n φ t.x - objective u.n φ z ≤
      (1 - (1 + m / p.batchSize) * a * μ) ^ t.i * (objective u.n φ x - objective u.n φ z) := by
  have hb' : (1 : ℝ) ≤ p.batchSize := by exact_mod_cast hb
  have hm' : (0 : ℝ) ≤ m := Nat.cast_nonneg m
  obtain ⟨q, k1, k2, k3, k4, -⟩ := sarah_loop hu hp hn hb (hμ.le.trans hμL) ha hm haL h (fun q => q.s.term = false →
      objective u.n φ q.x - objective u.n φ z ≤
        (1 - (1 + m / p.batchSize) * a * μ) ^ q.i * (objective u.n φ x - objective u.n φ z))
    (fun q hq hi _ => by rw [hq, hi]; simp) (by
      intro q q' h1 h2 _ h4 _ _ _ h8 h9
      have hκ : (0 : ℝ) ≤ (1 + m / p.batchSize) * a := by positivity
      have hR0 : 0 ≤ 1 - (1 + m / p.batchSize) * a * μ := by
        have k1 : (m : ℝ) / p.batchSize ≤ m := div_le_self hm' hb'
        have k2 : (1 + m / p.batchSize) * a * μ ≤ (1 + m / p.batchSize) * a * L := mul_le_mul_of_nonneg_left hμL hκ
        have k3 : (1 + m / p.batchSize) * (a * L) ≤ (m + 1) * (a * L) :=
          mul_le_mul_of_nonneg_right (by linarith) (mul_nonneg ha.le (hμ.le.trans hμL))
        linarith
      have h12 := contract hn hμ hκ hc (z := z) (h8 hplain h9) rfl
      have h13 := mul_le_mul_of_nonneg_left (h1 h4) hR0
      rw [h2, pow_succ']
      linarith)
  rw [k2, k3]
  exact k1 (k4 hterm)

/-! ### Examples -/

open scoped Classical in
/-- SARAH (`plus = none`) and SARAH+ with batches of one function and the default number of inner iterations. -/
noncomputable def sarahParams (maxIterations : Nat) (plus : Option ℝ) : Ens.Vr.Sarah.Params ℝ ℝ ℝ where
  batchSize := 1
  maxIterations := maxIterations
  innerIterations := 0
  shuffle := true
  exact := true
  move x v := x - (1 / 12 : ℝ) • v
  norm v := |v|
  update x v g g0 k nv := (x - (1 / 12 : ℝ) • (v + (k : ℝ)⁻¹ • (g - g0)), v + (k : ℝ)⁻¹ • (g - g0),
    match plus with
    | none => false
    | some c => decide (|v + (k : ℝ)⁻¹ • (g - g0)| ≤ c * nv))

theorem sarahParams_any (k : Nat) (plus : Option ℝ) : AnySarah (sarahParams k plus) (1 / 12) :=
  ⟨fun _ _ => rfl, fun _ _ _ _ _ _ => rfl, fun _ _ _ _ _ _ => rfl⟩

theorem sarah_small (tol : ℝ) (k : Nat) (plus : Option ℝ) : (((if (sarahParams k plus).innerIterations = 0 then (twoSquares tol).n
    else (sarahParams k plus).innerIterations : Nat) : ℝ) + 1) * (1 / 12 * 1) ≤ 1 / 4 := by
  simp [sarahParams, twoSquares]; norm_num

/-- SARAH+ with its default `gamma`, started at 5 with tolerance 1/100 and no iteration limit. -/
example : ∃ fuel e t, optimize (twoSquares (1 / 100)) (sarahParams 0 (some (1 / 8))) fuel () 5 = some (.ret e t) ∧
    t.x ^ 2 / 2 + (t.x - 1) ^ 2 / 2 ≤ 41 / 2 ∧ t.i ≤ 2051 ∧
    t.x ^ 2 / 2 + (t.x - 1) ^ 2 / 2 - 1 / 4 ≤ (11 / 12) ^ t.i * (81 / 4) := by
  obtain ⟨fuel, e, t, h⟩ := C263_sarah_terminates (twoSquares_smooth _) (sarahParams_any 0 (some (1 / 8))) (by decide) (by decide) zero_le_one
    (by norm_num : (0 : ℝ) < 1 / 12) (sarah_small _ _ _) (by norm_num) (twoSquares_near (1 / 100)) (twoSquares_bound _) () 5
  have h1 := C263_sarah_descends (twoSquares_smooth _) (sarahParams_any 0 (some (1 / 8))) (by decide) (by decide) zero_le_one
    (by norm_num : (0 : ℝ) < 1 / 12) (sarah_small _ _ _) h
  have h2 := C263_sarah_passes (twoSquares_smooth _) (sarahParams_any 0 (some (1 / 8))) (by decide) (by decide) zero_le_one
    (by norm_num : (0 : ℝ) < 1 / 12) (sarah_small _ _ _) (twoSquares_near (1 / 100)) (twoSquares_bound _) h
  have h3 := C263_sarah_linear (twoSquares_smooth _) (sarahParams_any 0 (some (1 / 8))) (by decide) (by decide)
    (by norm_num : (0 : ℝ) < 1 / 12) (sarah_small _ _ _) one_pos le_rfl twoSquares_convex (1 / 2 : ℝ) h
  change objective 2 _ _ ≤ objective 2 _ _ at h1
  change _ ≤ objective 2 _ _ - _ ∨ _ at h2
  change objective 2 _ _ - objective 2 _ _ ≤ _ * (objective 2 _ _ - objective 2 _ _) at h3
  rw [(twoSquares_objective _).1, (twoSquares_objective _).1] at h1
  rw [(twoSquares_objective _).1] at h2
  rw [(twoSquares_objective _).1, (twoSquares_objective _).1, (twoSquares_objective _).1] at h3
  refine ⟨fuel, e, t, h, by linarith, ?_, ?_⟩
  · rcases h2 with h2 | h2
    · have : (t.i : ℝ) ≤ 2051 := by linarith
      exact_mod_cast this
    · omega
  · norm_num at h3 ⊢
    linarith

/-- One pass of SARAH from 5. -/
example : ∃ e t, optimize (twoSquares 0) (sarahParams 1 none) 2 () 5 = some (.ret e t) ∧ t.s.term = false ∧ t.i = 1 ∧
    (t.x ^ 2 / 2 + (t.x - 1) ^ 2 / 2) - 1 / 4 ≤ 3 / 4 * (41 / 2 - 1 / 4) := by
  have hf : ∀ s t : ℝ, (twoSquares 0).near s t = false := fun s t => by
    simp [twoSquares]
  obtain ⟨e, t, h, h1, h2⟩ : ∃ e t, optimize (twoSquares 0) (sarahParams 1 none) 2 () 5 = some (.ret e t) ∧
      t.s.term = false ∧ t.i = 1 := by
    unfold optimize
    simp only [iterate, body, hf]
    exact ⟨_, _, rfl, rfl, rfl⟩
  have h3 := C263_sarah_fast (twoSquares_smooth _) (sarahParams_any 1 none) (fun _ _ _ _ _ _ => rfl) (by decide) (by decide)
    (by norm_num : (0 : ℝ) < 1 / 12) rfl (sarah_small _ _ _) one_pos le_rfl twoSquares_convex (1 / 2 : ℝ) h h1
  change objective 2 _ _ - objective 2 _ _ ≤ _ * (objective 2 _ _ - objective 2 _ _) at h3
  rw [(twoSquares_objective _).1, (twoSquares_objective _).1, (twoSquares_objective _).1, h2] at h3
  refine ⟨e, t, h, h1, h2, ?_⟩
  simp only [sarahParams, twoSquares] at h3
  norm_num at h3 ⊢
  linarith

end Ens.Converge
