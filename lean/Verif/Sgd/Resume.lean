import Verif.Sgd.Props
import Verif.Sgd.Object

/-
C313: optimizing in two calls against optimizing in one.
-/

namespace Ens.Sgd

variable {W M G E : Type} {env : Env W M G E} {p : Params}

/-- A setting in which calls can be split: tolerance 0 (the convergence test never succeeds), and callbacks that
do nothing at the boundaries of a call and of an epoch (`EndEpoch` callbacks may act, but not on the epoch number).
The callbacks after evaluations and steps are arbitrary. -/
structure Splittable (env : Env W M G E) : Prop where
  cbBegin : ∀ w x, env.cbBegin w x = (w, x)
  cbEnd : ∀ w x, env.cbEnd w x = (w, x)
  cbBeginEpoch : ∀ w x n e, env.cbBeginEpoch w x n e = (w, false)
  cbEndEpoch : ∀ w x n m e, env.cbEndEpoch w x n e = env.cbEndEpoch w x m e
  isClose : ∀ a b, env.isClose a b = false

/-- Same run so far, up to the counters, the previous objective and the trace. -/
structure Alike (c : Nat) (t s : St W M E) : Prop where
  w : t.w = s.w
  x : t.x = s.x
  i : t.i + c = s.i
  cur : t.cur = s.cur
  overall : t.overall = s.overall
  terminate : t.terminate = s.terminate

/-- What `epochEnd` does in a splittable setting. -/
theorem epochEnd_split (h : Splittable env) (p : Params) (s : St W M E) :
    (env.isBad s.overall = true ∧ ∃ t, epochEnd env p s = .ret .bad t ∧ t.x = s.x ∧ t.i = s.i ∧ t.cur = s.cur ∧
      t.overall = s.overall ∧ t.w = (env.cbEndEpoch s.w s.x 0 (env.divN s.overall p.numFunctions)).1 ∧
      t.terminate = (s.terminate || (env.cbEndEpoch s.w s.x 0 (env.divN s.overall p.numFunctions)).2)) ∨
    (env.isBad s.overall = false ∧ ∃ t, epochEnd env p s = .cont t ∧ t.x = s.x ∧ t.i = s.i ∧
      t.cur = (if s.i ≠ p.actualMax then 0 else s.cur) ∧
      t.overall = (if s.i ≠ p.actualMax then env.zero else s.overall) ∧
      t.w = (if p.shuffle then env.shuffle (env.cbEndEpoch s.w s.x 0 (env.divN s.overall p.numFunctions)).1
        else (env.cbEndEpoch s.w s.x 0 (env.divN s.overall p.numFunctions)).1) ∧
      t.terminate = (s.terminate || (env.cbEndEpoch s.w s.x 0 (env.divN s.overall p.numFunctions)).2)) := by
  unfold epochEnd
  simp only [h.isClose, h.cbBeginEpoch, h.cbEndEpoch s.w s.x s.epoch 0]
  cases hb : env.isBad s.overall with
  | true => exact .inl ⟨rfl, _, rfl, rfl, rfl, rfl, rfl, rfl, rfl⟩
  | false =>
    refine .inr ⟨rfl, _, rfl, ?_⟩
    by_cases hi : s.i = p.actualMax <;> cases p.shuffle <;> simp [hi]

theorem stepBatch_alike {p₂ p₃ : Params} {c : Nat} (hn : p₂.numFunctions = p₃.numFunctions)
    (hb : p₂.batchSize = p₃.batchSize) (hm : p₂.actualMax + c = p₃.actualMax) {t s : St W M E} (h : Alike c t s) :
    Alike c (stepBatch env p₂ t) (stepBatch env p₃ s) := by
  have he : effBatch p₂ t = effBatch p₃ s := by
    unfold effBatch
    rw [hn, hb, h.cur, show p₂.actualMax - t.i = p₃.actualMax - s.i by have := h.i; omega]
  constructor
  · simp only [stepBatch, he, h.w, h.x, h.cur]
  · simp only [stepBatch, he, h.w, h.x, h.cur]
  · simp only [stepBatch, he]; have := h.i; omega
  · simp only [stepBatch, he, h.cur]
  · simp only [stepBatch, he, h.w, h.x, h.cur, h.overall]
  · simp only [stepBatch, he, h.w, h.x, h.cur, h.terminate]

/-- Two loops with limits that differ by what one of them is ahead run alike. -/
theorem loop_alike (hs : Splittable env) {p₂ p₃ : Params} {c : Nat} (hn : p₂.numFunctions = p₃.numFunctions)
    (hb : p₂.batchSize = p₃.batchSize) (hsh : p₂.shuffle = p₃.shuffle) (hm : p₂.actualMax + c = p₃.actualMax) :
    ∀ (f : Nat) (t s : St W M E), Alike c t s → ∀ e t', loop env p₂ f t = .done e t' →
      ∃ s', loop env p₃ f s = .done e s' ∧ Alike c t' s' := by
  intro f
  induction f with
  | zero =>
    intro t s h e t' hl
    rw [loop] at hl ⊢
    by_cases hc : t.i < p₂.actualMax ∧ t.terminate = false
    · rw [if_pos hc] at hl; cases hl
    · rw [if_neg hc] at hl
      rw [if_neg (fun hh => hc ⟨by have := h.i; have := hh.1; omega, h.terminate.trans hh.2⟩)]
      cases hl
      exact ⟨s, rfl, h⟩
  | succ f ih =>
    intro t s h e t' hl
    rw [loop] at hl ⊢
    by_cases hc : t.i < p₂.actualMax ∧ t.terminate = false
    · rw [if_pos hc] at hl
      rw [if_pos (by rw [← h.terminate]; have := h.i; exact ⟨by omega, hc.2⟩)]
      have ha := stepBatch_alike (env := env) hn hb hm h
      unfold body at hl ⊢
      rw [hn] at hl
      by_cases h0 : p₃.numFunctions = 0
      · rw [if_pos h0] at hl; cases hl
      · rw [if_neg h0] at hl ⊢
        simp only [ha.cur] at hl ⊢
        by_cases hz : (stepBatch env p₃ s).cur % p₃.numFunctions = 0
        · rw [if_pos hz] at hl ⊢
          have hx : (stepBatch env p₂ t).i = p₂.actualMax ↔ (stepBatch env p₃ s).i = p₃.actualMax := by
            have := ha.i; omega
          rcases epochEnd_split hs p₂ (stepBatch env p₂ t) with
            ⟨hb2, t2, e2, g1, g2, g3, g4, g5, g6⟩ | ⟨hb2, t2, e2, g1, g2, g3, g4, g5, g6⟩ <;>
          rcases epochEnd_split hs p₃ (stepBatch env p₃ s) with
            ⟨hb3, t3, e3, k1, k2, k3, k4, k5, k6⟩ | ⟨hb3, t3, e3, k1, k2, k3, k4, k5, k6⟩
          · rw [e2] at hl
            rw [e3]
            cases hl
            exact ⟨t3, rfl, by rw [g5, k5, ha.w, ha.x, ha.overall, hn], by rw [g1, k1, ha.x], by rw [g2, k2, ha.i],
              by rw [g3, k3, ha.cur], by rw [g4, k4, ha.overall],
              by rw [g6, k6, ha.w, ha.x, ha.overall, hn, ha.terminate]⟩
          · rw [ha.overall, hb3] at hb2; cases hb2
          · rw [ha.overall, hb3] at hb2; cases hb2
          · rw [e2] at hl
            rw [e3]
            refine ih t2 t3 ⟨by rw [g5, k5, ha.w, ha.x, ha.overall, hn, hsh], by rw [g1, k1, ha.x],
              by rw [g2, k2, ha.i], ?_, ?_, by rw [g6, k6, ha.w, ha.x, ha.overall, hn, ha.terminate]⟩ e t' hl
            · rw [g3, k3, ha.cur]; simp only [ne_eq, hx]
            · rw [g4, k4, ha.overall]; simp only [ne_eq, hx]
        · rw [if_neg hz] at hl ⊢
          exact ih _ _ ha e t' hl
    · rw [if_neg hc] at hl
      rw [if_neg (fun hh => hc ⟨by have := h.i; have := hh.1; omega, h.terminate.trans hh.2⟩)]
      cases hl
      exact ⟨s, rfl, h⟩

theorem loop_fuel (p : Params) : ∀ (f k : Nat) (s : St W M E) e s', loop env p f s = .done e s' →
    loop env p (f + k) s = .done e s' := by
  intro f
  induction f with
  | zero =>
    intro k s e s' h
    rw [loop] at h
    by_cases hc : s.i < p.actualMax ∧ s.terminate = false
    · rw [if_pos hc] at h; cases h
    · rw [if_neg hc] at h
      cases k with
      | zero => rw [loop, if_neg hc]; exact h
      | succ k => rw [Nat.zero_add, loop, if_neg hc]; exact h
  | succ f ih =>
    intro k s e s' h
    rw [Nat.succ_add]
    rw [loop] at h ⊢
    by_cases hc : s.i < p.actualMax ∧ s.terminate = false
    · rw [if_pos hc] at h ⊢
      cases hb : body env p s with
      | cont t => rw [hb] at h; exact ih k t e s' h
      | ret e' t => rw [hb] at h; exact h
      | ub => rw [hb] at h; cases h
    · rw [if_neg hc] at h ⊢; exact h

/-- The loop with the smaller limit `a * n`, left because of the limit, is a prefix of the one with the larger limit. -/
theorem loop_prefix (hs : Splittable env) {p₁ p₃ : Params} {n a : Nat} (hp : 0 < n) (hn1 : p₁.numFunctions = n)
    (hn3 : p₃.numFunctions = n) (hb : p₁.batchSize = p₃.batchSize) (hpos : 0 < p₃.batchSize)
    (hsh : p₁.shuffle = p₃.shuffle) (hm1 : p₁.actualMax = a * n) (hm3 : a * n < p₃.actualMax) :
    ∀ (f : Nat) (s s1 : St W M E) (k : Nat), s.cur < n → s.i = k * n + s.cur → k < a → s.terminate = false →
      loop env p₁ f s = .done .loop s1 → s1.terminate = false →
      ∃ f', f' ≤ f ∧ ∃ s3, (∀ g, loop env p₃ (f' + g) s = loop env p₃ g s3) ∧ s3.w = s1.w ∧ s3.x = s1.x ∧
        s3.i = a * n ∧ s3.cur = 0 ∧ s3.overall = env.zero ∧ s3.terminate = false := by
  intro f
  induction f with
  | zero =>
    intro s s1 k hc hi hk ht hl _
    have : s.i < a * n := by
      have : (k + 1) * n ≤ a * n := Nat.mul_le_mul_right n hk
      rw [Nat.succ_mul] at this; omega
    rw [loop, if_pos ⟨by rw [hm1]; exact this, ht⟩] at hl
    cases hl
  | succ f ih =>
    intro s s1 k hc hi hk ht hl ht1
    have hle : (k + 1) * n ≤ a * n := Nat.mul_le_mul_right n hk
    rw [Nat.succ_mul] at hle
    have hlt : s.i < a * n := by omega
    rw [loop, if_pos ⟨by rw [hm1]; exact hlt, ht⟩] at hl
    have hstep3 : ∀ g, loop env p₃ (g + 1) s = match body env p₃ s with
        | .cont s' => loop env p₃ g s'
        | .ret e s' => .done e s'
        | .ub => .ub := by
      intro g
      rw [loop, if_pos ⟨by omega, ht⟩]
      cases body env p₃ s <;> rfl
    have he : effBatch p₁ s = effBatch p₃ s := by
      unfold effBatch
      rw [hb, hn1, hn3]
      omega
    have hsb : stepBatch env p₁ s = stepBatch env p₃ s := by
      simp only [stepBatch, he]
    have heff : 0 < effBatch p₃ s ∧ effBatch p₃ s ≤ n - s.cur := by
      unfold effBatch
      rw [hn3]
      omega
    have hcur : (stepBatch env p₃ s).cur = s.cur + effBatch p₃ s := rfl
    have hii : (stepBatch env p₃ s).i = s.i + effBatch p₃ s := rfl
    unfold body at hl
    rw [hn1, if_neg (by omega), hsb] at hl
    have hb3 : body env p₃ s = if (stepBatch env p₃ s).cur % n = 0 then epochEnd env p₃ (stepBatch env p₃ s)
        else .cont (stepBatch env p₃ s) := by
      unfold body; rw [hn3, if_neg (by omega)]
    generalize stepBatch env p₃ s = q at *
    simp only at hl
    -- a state from which the loops go on
    have go : ∀ (t : St W M E) (k' : Nat), body env p₃ s = .cont t → loop env p₁ f t = .done .loop s1 → t.cur < n →
        t.i = k' * n + t.cur → k' < a →
        ∃ f', f' ≤ f + 1 ∧ ∃ s3, (∀ g, loop env p₃ (f' + g) s = loop env p₃ g s3) ∧ s3.w = s1.w ∧ s3.x = s1.x ∧
          s3.i = a * n ∧ s3.cur = 0 ∧ s3.overall = env.zero ∧ s3.terminate = false := by
      intro t k' hbt hlt' hct hit hk'
      have htt : t.terminate = false := by
        by_contra hne
        have : loop env p₁ f t = .done .loop t := by
          cases f <;> rw [loop, if_neg (fun h => hne h.2)]
        rw [this] at hlt'
        cases hlt'
        exact hne ht1
      obtain ⟨f', hf', s3, h1, h2⟩ := ih t s1 k' hct hit hk' htt hlt' ht1
      refine ⟨f' + 1, by omega, s3, fun g => ?_, h2⟩
      rw [show f' + 1 + g = (f' + g) + 1 by omega, hstep3, hbt]
      exact h1 g
    by_cases hz : q.cur % n = 0
    · have hqn : q.cur = n := by
        obtain ⟨m, hm⟩ := Nat.dvd_of_mod_eq_zero hz
        have : m = 1 := by
          rcases m with _ | _ | m
          · omega
          · rfl
          · exfalso
            have : n * (m + 1 + 1) = n * m + n + n := rfl
            have : n ≤ n * m + n := Nat.le_add_left _ _
            omega
        rw [hm, this, Nat.mul_one]
      have hqi : q.i = (k + 1) * n := by rw [Nat.succ_mul]; omega
      rw [if_pos hz] at hl hb3
      by_cases hlast : k + 1 = a
      · -- the last epoch of the first call
        have e1 : q.i = p₁.actualMax := by rw [hqi, hlast, hm1]
        have e3 : q.i ≠ p₃.actualMax := by rw [hqi, hlast]; omega
        rcases epochEnd_split hs p₁ q with ⟨-, t2, r2, -⟩ | ⟨hgood, t2, r2, g1, g2, g3, g4, g5, g6⟩
        · rw [r2] at hl; cases hl
        · rcases epochEnd_split hs p₃ q with ⟨hbad, t3, r3, -⟩ | ⟨-, t3, r3, k1, k2, k3, k4, k5, k6⟩
          · rw [hgood] at hbad; cases hbad
          · rw [r2] at hl
            simp only at hl
            have hs1 : s1 = t2 := by
              have : loop env p₁ f t2 = .done .loop t2 := by
                cases f <;> rw [loop, if_neg (fun h => by rw [g2, e1] at h; omega)]
              rw [this] at hl
              cases hl
              rfl
            refine ⟨1, by omega, t3, fun g => ?_, ?_, by rw [hs1, g1, k1], by rw [k2, hqi, hlast],
              by rw [k3, if_pos e3], by rw [k4, if_pos e3], ?_⟩
            · rw [Nat.add_comm, hstep3, hb3, r3]
            · rw [hs1, g5, k5, hsh, hn1, hn3]
            · rw [hs1, g6] at ht1
              rw [k6, hn3, ← hn1]; exact ht1
      · have e1 : q.i ≠ p₁.actualMax := by
          rw [hqi, hm1]
          intro h
          exact hlast (Nat.eq_of_mul_eq_mul_right hp h)
        have hk2 : (k + 1) * n < a * n := Nat.mul_lt_mul_of_pos_right (by omega) hp
        have e3 : q.i ≠ p₃.actualMax := by rw [hqi]; omega
        have heq : epochEnd env p₁ q = epochEnd env p₃ q := by
          unfold epochEnd
          simp only [hn1, hn3, hsh]
          rw [if_pos e1, if_pos e3]
        rw [heq] at hl
        rcases epochEnd_split hs p₃ q with ⟨-, t3, r3, -⟩ | ⟨-, t3, r3, k1, k2, k3, k4, k5, k6⟩
        · rw [r3] at hl; cases hl
        · rw [r3] at hl hb3
          rw [if_pos e3] at k3
          exact go t3 (k + 1) hb3 hl (by omega) (by rw [k2, hqi, k3]; omega) (by omega)
    · rw [if_neg hz] at hl hb3
      refine go q k hb3 hl ?_ (by omega) hk
      have : q.cur ≠ n := fun h => hz (by rw [h, Nat.mod_self])
      omega

/-- **C313** A call of `a` epochs that ran to its limit without a stop request, followed by a call of `b` epochs on
the coordinates it left, ends like one call of `a + b` epochs: same reason, same returned value, same coordinates,
same world (function, callbacks, policy state). -/
theorem C313_sgd (hs : Splittable env) {n a b f₁ f₂ : Nat} {w : W} {x : M} {r₁ r₂ : Result W M E}
    (hn : 0 < n) (hpn : p.numFunctions = n) (hb : 0 < p.batchSize) (hex : p.exactObjective = false)
    (ha : 0 < a) (hb' : 0 < b)
    (h₁ : optimize env { p with maxIterations := a * n } f₁ w x = .returned r₁)
    (hexit : r₁.exit = .loop) (hstop : anyStop r₁.trace = false)
    (h₂ : optimize env { p with maxIterations := b * n } f₂ r₁.w r₁.x = .returned r₂) :
    ∃ r, optimize env { p with maxIterations := (a + b) * n } (f₁ + f₂) w x = .returned r ∧
      r.exit = r₂.exit ∧ r.obj = r₂.obj ∧ r.x = r₂.x ∧ r.w = r₂.w := by
  have mx : ∀ c, 0 < c → ({ p with maxIterations := c * n } : Params).actualMax = c * n := by
    intro c hc
    have := Nat.mul_pos hc hn
    unfold Params.actualMax
    exact if_neg (by simp only; omega)
  -- the first call
  obtain ⟨s1, hl1, hr1x, hr1w, hst1⟩ : ∃ s1, loop env { p with maxIterations := a * n } f₁ (start env w x)
      = .done .loop s1 ∧ r₁.x = s1.x ∧ r₁.w = s1.w ∧ s1.terminate = false := by
    rcases loop_inv (env := env) (p := { p with maxIterations := a * n }) (by simp only; omega) hb f₁ (start env w x)
      (start_inv w x) with ⟨hl, _⟩ | ⟨s, hl, hinv, -⟩ | ⟨e, s, hl, he, -⟩
    · unfold optimize at h₁; rw [hl] at h₁; cases h₁
    · unfold optimize at h₁
      rw [hl] at h₁
      simp only [hex, Bool.false_eq_true, if_false, Outcome.returned.injEq] at h₁
      subst h₁
      refine ⟨s, hl, rfl, by simp [finish, hs.cbEnd], ?_⟩
      rw [hinv.stop]
      rw [finish, anyStop_append] at hstop
      simp only [Bool.or_eq_false_iff] at hstop
      exact hstop.1
    · unfold optimize at h₁
      rw [hl] at h₁
      cases e with
      | loop => exact absurd rfl he
      | bad => simp only [Outcome.returned.injEq] at h₁; subst h₁; cases hexit
      | tol => simp only [Outcome.returned.injEq] at h₁; subst h₁; cases hexit
  have hlt : a * n < (a + b) * n := Nat.mul_lt_mul_of_pos_right (by omega) hn
  obtain ⟨f', hf', s3, hg, q1, q2, q3, q4, q5, q6⟩ := loop_prefix (env := env) hs
    (p₁ := { p with maxIterations := a * n }) (p₃ := { p with maxIterations := (a + b) * n })
    hn hpn hpn rfl hb rfl (mx a ha) (by rw [mx _ (by omega)]; exact hlt) f₁ (start env w x) s1 0
    (by simpa [start] using hn) (by simp [start]) ha (by simp [start, hs.cbBegin, hs.cbBeginEpoch]) hl1 hst1
  -- the second call
  have hal : Alike (a * n) (start env r₁.w r₁.x) s3 := by
    constructor <;> simp [start, hs.cbBegin, hs.cbBeginEpoch, hr1x, hr1w, q1, q2, q3, q4, q5, q6]
  have key : ∀ e t, loop env { p with maxIterations := b * n } f₂ (start env r₁.w r₁.x) = .done e t →
      ∃ s', loop env { p with maxIterations := (a + b) * n } (f₁ + f₂) (start env w x) = .done e s' ∧
        Alike (a * n) t s' := by
    intro e t h
    obtain ⟨s', h1, h2⟩ := loop_alike (env := env) hs (p₂ := { p with maxIterations := b * n })
      (p₃ := { p with maxIterations := (a + b) * n }) (c := a * n) rfl rfl rfl
      (by rw [mx b hb', mx _ (by omega), Nat.add_mul]; omega) f₂ _ _ hal e t h
    refine ⟨s', ?_, h2⟩
    rw [show f₁ + f₂ = f' + (f₂ + (f₁ - f')) by omega, hg]
    exact loop_fuel _ _ _ _ _ _ h1
  unfold optimize at h₂ ⊢
  cases hl2 : loop env { p with maxIterations := b * n } f₂ (start env r₁.w r₁.x) with
  | ub => rw [hl2] at h₂; cases h₂
  | outOfFuel => rw [hl2] at h₂; cases h₂
  | done e t =>
    rw [hl2] at h₂
    obtain ⟨s', h1, h2⟩ := key e t hl2
    rw [h1]
    cases e <;> simp only [hex, Bool.false_eq_true, if_false, Outcome.returned.injEq] at h₂ ⊢ <;> subst h₂ <;>
      exact ⟨_, rfl, rfl, h2.overall.symm, h2.x.symm, by simp [finish, hs.cbEnd, h2.w]⟩

section
variable {U P D S V : Type}

/-- The same for what the user supplies to an SGD object: nothing happens at the boundaries, tolerance 0. -/
structure SplitUser (u : User V M G E) : Prop where
  cbBegin : ∀ v x, u.cbBegin v x = (v, x)
  cbEnd : ∀ v x, u.cbEnd v x = (v, x)
  cbBeginEpoch : ∀ v x n e, u.cbBeginEpoch v x n e = (v, false)
  cbEndEpoch : ∀ v x n m e, u.cbEndEpoch v x n e = u.cbEndEpoch v x m e
  isClose : ∀ a b, u.isClose a b = false

theorem SplitUser.splittable {u : User V M G E} (h : SplitUser u) (up : UpdPol U S M G) (dp : DecPol P D S M G) :
    Splittable (mkEnv up dp u) := by
  constructor
  · intro w x; simp [mkEnv, h.cbBegin]
  · intro w x; simp [mkEnv, h.cbEnd]
  · intro w x n e; simp [mkEnv, h.cbBeginEpoch]
  · intro w x n m e; simp only [mkEnv]; rw [h.cbEndEpoch w.2 x n m e]
  · intro a b; simp [mkEnv, h.isClose]

/-- **C313** for an SGD object with `resetPolicy = false`, any update and decay policy and any history: two calls on
the object (of `a` and `b` epochs, the first one running to its limit) leave the coordinates, the object (policy
state, step size, schedule), the function and the callbacks exactly as one call of `a + b` epochs, and return the
same value. -/
theorem C313_sgd_object (up : UpdPol U S M G) (dp : DecPol P D S M G) {u : User V M G E} (hu : SplitUser u)
    {n a b f₁ f₂ : Nat} {o : Obj U P D S} {v : V} {x : M} {r₁ r₂ : Result (Live U P D S × V) M E}
    (hn : 0 < n) (hpn : p.numFunctions = n) (hb : 0 < p.batchSize) (hex : p.exactObjective = false)
    (ha : 0 < a) (hb' : 0 < b)
    (h₁ : optimizeObj up dp u { p with maxIterations := a * n } false f₁ o v x = .returned r₁)
    (hexit : r₁.exit = .loop) (hstop : anyStop r₁.trace = false)
    (h₂ : optimizeObj up dp u { p with maxIterations := b * n } false f₂ r₁.w.1.close r₁.w.2 r₁.x = .returned r₂) :
    ∃ r, optimizeObj up dp u { p with maxIterations := (a + b) * n } false (f₁ + f₂) o v x = .returned r ∧
      r.exit = r₂.exit ∧ r.obj = r₂.obj ∧ r.x = r₂.x ∧ r.w.1.close = r₂.w.1.close ∧ r.w.2 = r₂.w.2 := by
  have hc : (prologue up dp false r₁.x r₁.w.1.close, r₁.w.2) = r₁.w := rfl
  unfold optimizeObj at h₁ h₂ ⊢
  rw [hc] at h₂
  obtain ⟨r, k1, k2, k3, k4, k5⟩ := C313_sgd (hu.splittable up dp) hn hpn hb hex ha hb' h₁ hexit hstop h₂
  exact ⟨r, k1, k2, k3, k4, by rw [k5], by rw [k5]⟩

/-- **C313** With an update policy without state (`VanillaUpdate`) the reset changes nothing: two calls with
`resetPolicy = true`, the default, leave what one call leaves. -/
theorem C313_sgd_stateless [Subsingleton U] (up : UpdPol U S M G) (dp : DecPol P D S M G) {u : User V M G E}
    (hu : SplitUser u) {n a b f₁ f₂ : Nat} {o : Obj U P D S} {v : V} {x : M}
    {r₁ r₂ : Result (Live U P D S × V) M E}
    (hn : 0 < n) (hpn : p.numFunctions = n) (hb : 0 < p.batchSize) (hex : p.exactObjective = false)
    (ha : 0 < a) (hb' : 0 < b)
    (h₁ : optimizeObj up dp u { p with maxIterations := a * n } true f₁ o v x = .returned r₁)
    (hexit : r₁.exit = .loop) (hstop : anyStop r₁.trace = false)
    (h₂ : optimizeObj up dp u { p with maxIterations := b * n } true f₂ r₁.w.1.close r₁.w.2 r₁.x = .returned r₂) :
    ∃ r, optimizeObj up dp u { p with maxIterations := (a + b) * n } true (f₁ + f₂) o v x = .returned r ∧
      r.exit = r₂.exit ∧ r.obj = r₂.obj ∧ r.x = r₂.x ∧ r.w.1.close = r₂.w.1.close ∧ r.w.2 = r₂.w.2 := by
  have same : ∀ (q : Params) (f : Nat) (o : Obj U P D S) (v : V) (x : M),
      optimizeObj up dp u q true f o v x = optimizeObj up dp u q false f o v x := by
    intro q f o v x
    unfold optimizeObj
    rw [show prologue up dp true x o = prologue up dp false x o by
      unfold prologue; congr 1; exact Subsingleton.elim _ _]
  rw [same] at h₁ h₂ ⊢
  exact C313_sgd_object up dp hu hn hpn hb hex ha hb' h₁ hexit hstop h₂

end

/-- Momentum 1/2 on rationals (sgd/update_policies/momentum_update.hpp:77-120): the state is the velocity. -/
def halfMomentum : UpdPol Rat Rat Rat Rat where
  fresh := fun _ => 0
  upd := fun v x s g => (1 / 2 * v - s * g, x + (1 / 2 * v - s * g))

/-- A schedule that never changes anything. -/
def constStep : DecPol Unit Unit Rat Rat Rat where
  fresh := ()
  upd := fun _ _ s x _ => ((), (), s, x)

/-- Two functions of slope 1, silent callbacks, tolerance 0. -/
def twoSlopes : User Unit Rat Rat Rat where
  evalGrad := fun v x _ k => (v, x * k, k)
  evaluate := fun v x _ k => (v, x * k)
  shuffle := fun v => v
  cbBegin := fun v x => (v, x)
  cbBeginEpoch := fun v _ _ _ => (v, false)
  cbEvalGrad := fun v _ _ g => (v, g, false)
  cbStep := fun v x => (v, x, false)
  cbEndEpoch := fun v _ _ _ => (v, false)
  cbEvaluate := fun v _ _ => (v, false)
  cbEnd := fun v x => (v, x)
  add := (· + ·)
  zero := 0
  divN := fun e n => e / n
  dblMax := 1000
  isBad := fun _ => false
  isClose := fun _ _ => false

theorem twoSlopes_split : SplitUser twoSlopes :=
  ⟨fun _ _ => rfl, fun _ _ => rfl, fun _ _ _ _ => rfl, fun _ _ _ _ _ => rfl, fun _ _ => rfl⟩

/-- The hypotheses of `C313_sgd_object` are met by momentum, one epoch and then one more. -/
example : ∃ r₁ r₂, optimizeObj halfMomentum constStep twoSlopes ⟨2, 1, 1 * 2, false, false⟩ false 2
      (Obj.new 1 ()) () 0 = .returned r₁ ∧ r₁.exit = .loop ∧ anyStop r₁.trace = false ∧
    optimizeObj halfMomentum constStep twoSlopes ⟨2, 1, 1 * 2, false, false⟩ false 2
      r₁.w.1.close r₁.w.2 r₁.x = .returned r₂ ∧ r₂.x = -49 / 8 :=
  ⟨_, _, rfl, rfl, rfl, rfl, by decide +kernel⟩

/-- With `resetPolicy = true` (the default) the velocity is lost between the calls: two calls of one epoch end
elsewhere than one call of two epochs. -/
theorem C313_reset_needed : ∃ r₁ r₂ r,
    optimizeObj halfMomentum constStep twoSlopes ⟨2, 1, 1 * 2, false, false⟩ true 2 (Obj.new 1 ()) () 0
      = .returned r₁ ∧ r₁.exit = .loop ∧ anyStop r₁.trace = false ∧
    optimizeObj halfMomentum constStep twoSlopes ⟨2, 1, 1 * 2, false, false⟩ true 2 r₁.w.1.close r₁.w.2 r₁.x
      = .returned r₂ ∧
    optimizeObj halfMomentum constStep twoSlopes ⟨2, 1, (1 + 1) * 2, false, false⟩ true 4 (Obj.new 1 ()) () 0
      = .returned r ∧ r.x ≠ r₂.x :=
  ⟨_, _, _, rfl, rfl, rfl, rfl, rfl, by decide +kernel⟩

end Ens.Sgd
