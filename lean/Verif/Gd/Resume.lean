import Verif.Gd.Model

/-
C313 for gradient descent: optimizing in two calls against optimizing in one.
-/

namespace Ens.Gd

variable {W M G E : Type} {env : Env W M G E}

/-- Tolerance 0 and callbacks that do nothing at the boundaries of a call. -/
structure Splittable (env : Env W M G E) : Prop where
  cbBegin : ∀ w x, env.cbBegin w x = (w, x)
  cbEnd : ∀ w x, env.cbEnd w x = (w, x)
  isClose : ∀ a b, env.isClose a b = false

/-- Same run so far, `c` iterations apart; the objective is the same once one was computed. -/
structure Alike (c : Nat) (t s : St W M E) : Prop where
  w : t.w = s.w
  x : t.x = s.x
  i : t.i + c = s.i
  overall : t.i = 1 ∨ t.overall = s.overall
  terminate : t.terminate = s.terminate

theorem loop_fuel (m : Nat) : ∀ (f k : Nat) (s : St W M E) e s', loop env m f s = .done e s' →
    loop env m (f + k) s = .done e s' := by
  intro f
  induction f with
  | zero =>
    intro k s e s' h
    rw [loop] at h
    by_cases hc : s.i ≠ m ∧ s.terminate = false
    · rw [if_pos hc] at h; cases h
    · rw [if_neg hc] at h
      cases k with
      | zero => rw [loop, if_neg hc]; exact h
      | succ k => rw [Nat.zero_add, loop, if_neg hc]; exact h
  | succ f ih =>
    intro k s e s' h
    rw [Nat.succ_add]
    rw [loop] at h ⊢
    by_cases hc : s.i ≠ m ∧ s.terminate = false
    · rw [if_pos hc] at h ⊢
      cases hb : body env s with
      | cont t => rw [hb] at h; exact ih k t e s' h
      | ret e' t => rw [hb] at h; exact h
    · rw [if_neg hc] at h ⊢; exact h

theorem loop_alike (hs : Splittable env) {m c : Nat} (hm : m + c < 2 ^ 64) :
    ∀ (f : Nat) (t s : St W M E), Alike c t s → t.i ≤ m → ∀ e t', loop env m f t = .done e t' →
      ∃ s', loop env (m + c) f s = .done e s' ∧ t'.w = s'.w ∧ t'.x = s'.x ∧
        (t.i < m ∧ t.terminate = false ∨ t.overall = s.overall → t'.overall = s'.overall) := by
  intro f
  induction f with
  | zero =>
    intro t s h hi e t' hl
    rw [loop] at hl ⊢
    by_cases hc : t.i ≠ m ∧ t.terminate = false
    · rw [if_pos hc] at hl; cases hl
    · rw [if_neg hc] at hl
      rw [if_neg (fun hh => hc ⟨by have := h.i; have := hh.1; omega, h.terminate.trans hh.2⟩)]
      cases hl
      exact ⟨s, rfl, h.w, h.x, fun hh => hh.elim (fun k => absurd ⟨by omega, k.2⟩ hc) id⟩
  | succ f ih =>
    intro t s h hi e t' hl
    rw [loop] at hl ⊢
    by_cases hc : t.i ≠ m ∧ t.terminate = false
    · rw [if_pos hc] at hl
      rw [if_pos ⟨by have := h.i; have := hc.1; omega, h.terminate ▸ hc.2⟩]
      unfold body at hl ⊢
      have hev : (evalPart env t).1.overall = (evalPart env s).1.overall ∧ (evalPart env t).2 = (evalPart env s).2 ∧
          (evalPart env t).1.w = (evalPart env s).1.w ∧ (evalPart env t).1.x = (evalPart env s).1.x ∧
          (evalPart env t).1.terminate = (evalPart env s).1.terminate ∧ (evalPart env t).1.i = t.i ∧
          (evalPart env s).1.i = s.i := by
        simp [evalPart, h.w, h.x, h.terminate]
      obtain ⟨v1, v2, v3, v4, v5, v6, v7⟩ := hev
      generalize evalPart env t = a at *
      generalize evalPart env s = b at *
      simp only [hs.isClose, Bool.false_eq_true, if_false] at hl ⊢
      rw [← v1]
      by_cases hbad : env.isBad a.1.overall = true
      · rw [if_pos hbad] at hl ⊢
        cases hl
        exact ⟨b.1, rfl, v3, v4, fun _ => v1⟩
      · rw [if_neg hbad] at hl ⊢
        have inc : incr t.i = t.i + 1 := by
          unfold incr
          exact Nat.mod_eq_of_lt (by have := hc.1; omega)
        have inc' : incr s.i = s.i + 1 := by
          unfold incr
          exact Nat.mod_eq_of_lt (by have := hc.1; have := h.i; omega)
        obtain ⟨s', k1, k2, k3, k4⟩ := ih (movePart env a.1 a.2) (movePart env b.1 b.2)
          ⟨by simp only [movePart, v2, v3, v4], by simp only [movePart, v2, v3, v4],
            by simp only [movePart, v6, v7, inc, inc']; have := h.i; omega,
            .inr (by simp only [movePart, v1]), by simp only [movePart, v2, v3, v4, v5]⟩
          (by simp only [movePart, v6, inc]; have := hc.1; omega) e t' hl
        exact ⟨s', k1, k2, k3, fun _ => k4 (.inr (by simp only [movePart, v1]))⟩
    · rw [if_neg hc] at hl
      rw [if_neg (fun hh => hc ⟨by have := h.i; have := hh.1; omega, h.terminate.trans hh.2⟩)]
      cases hl
      exact ⟨s, rfl, h.w, h.x, fun hh => hh.elim (fun k => absurd ⟨by omega, k.2⟩ hc) id⟩

/-- The loop with the smaller limit, left because of the limit, is a prefix of the one with the larger limit. -/
theorem loop_prefix {m m' : Nat} (hmm : m < m') (hm : m < 2 ^ 64) : ∀ (f : Nat) (s s1 : St W M E), s.i ≤ m →
    loop env m f s = .done .loop s1 → s1.terminate = false →
    ∃ f', f' ≤ f ∧ (∀ g, loop env m' (f' + g) s = loop env m' g s1) ∧ s1.i = m := by
  intro f
  induction f with
  | zero =>
    intro s s1 hi hl ht
    rw [loop] at hl
    by_cases hc : s.i ≠ m ∧ s.terminate = false
    · rw [if_pos hc] at hl; cases hl
    · rw [if_neg hc] at hl
      cases hl
      exact ⟨0, Nat.le_refl _, fun g => by rw [Nat.zero_add], Decidable.byContradiction fun hne => hc ⟨hne, ht⟩⟩
  | succ f ih =>
    intro s s1 hi hl ht
    rw [loop] at hl
    by_cases hc : s.i ≠ m ∧ s.terminate = false
    · rw [if_pos hc] at hl
      cases hb : body env s with
      | ret e t =>
        rw [hb] at hl
        simp only [LoopRes.done.injEq] at hl
        unfold body at hb
        simp only at hb
        split at hb
        · cases hb; cases hl.1
        · split at hb
          · cases hb; cases hl.1
          · cases hb
      | cont t =>
        rw [hb] at hl
        have hti : t.i = s.i + 1 := by
          unfold body at hb
          simp only at hb
          split at hb
          · cases hb
          · split at hb
            · cases hb
            · cases hb
              simp only [movePart, evalPart, incr]
              exact Nat.mod_eq_of_lt (by have := hc.1; omega)
        obtain ⟨f', h1, h2, h3⟩ := ih t s1 (by have := hc.1; omega) hl ht
        refine ⟨f' + 1, by omega, fun g => ?_, h3⟩
        rw [show f' + 1 + g = (f' + g) + 1 by omega, loop, if_pos ⟨by have := hc.1; omega, hc.2⟩, hb]
        exact h2 g
    · rw [if_neg hc] at hl
      cases hl
      exact ⟨0, Nat.zero_le _, fun g => by rw [Nat.zero_add], Decidable.byContradiction fun hne => hc ⟨hne, ht⟩⟩

/-- Did a callback ask to stop? -/
def Ev.asks : Ev M E → Bool
  | .cbEval b => b
  | .stepTaken b => b
  | _ => false

theorem loop_asks (m : Nat) : ∀ (f : Nat) (s : St W M E) e s', s.terminate = s.trace.any Ev.asks →
    loop env m f s = .done e s' → s'.terminate = s'.trace.any Ev.asks := by
  intro f
  induction f with
  | zero =>
    intro s e s' h hl
    rw [loop] at hl
    split at hl
    · cases hl
    · cases hl; exact h
  | succ f ih =>
    intro s e s' h hl
    rw [loop] at hl
    split at hl
    · unfold body at hl
      simp only at hl
      by_cases hb : env.isBad (evalPart env s).1.overall = true
      · rw [if_pos hb] at hl
        cases hl
        simp [evalPart, h, Ev.asks]
      · rw [if_neg hb] at hl
        by_cases hk : env.isClose (evalPart env s).1.last (evalPart env s).1.overall = true
        · rw [if_pos hk] at hl
          cases hl
          simp [evalPart, h, Ev.asks]
        · rw [if_neg hk] at hl
          exact ih _ e s' (by simp [movePart, evalPart, h, Ev.asks, Bool.or_assoc]) hl
    · cases hl; exact h

/-- **C313** for gradient descent (`maxIterations` counts one more than the steps made, C14): a call that makes
`a` steps and runs to its limit without a stop request, followed by a call of `b` steps on the coordinates it left,
ends like one call of `a + b` steps: same reason, returned value, coordinates and world. -/
theorem C313_gd (hs : Splittable env) {a b f₁ f₂ : Nat} {w : W} {x : M} {r₁ r₂ : Result W M E}
    (hb : 0 < b) (hlim : a + b + 1 < 2 ^ 64)
    (h₁ : optimize env (a + 1) f₁ w x = some r₁) (hexit : r₁.exit = .loop) (hstop : r₁.trace.any Ev.asks = false)
    (h₂ : optimize env (b + 1) f₂ r₁.w r₁.x = some r₂) :
    ∃ r, optimize env (a + b + 1) (f₁ + f₂) w x = some r ∧
      r.exit = r₂.exit ∧ r.obj = r₂.obj ∧ r.x = r₂.x ∧ r.w = r₂.w := by
  unfold optimize at h₁ h₂ ⊢
  cases hl1 : loop env (a + 1) f₁ (start env w x) with
  | outOfFuel => rw [hl1] at h₁; cases h₁
  | done e s1 =>
    rw [hl1] at h₁
    simp only [Option.some.injEq] at h₁
    subst h₁
    simp only at hexit
    subst hexit
    have hst1 : s1.terminate = false := by
      rw [loop_asks (a + 1) f₁ _ _ _ (by simp [start, Ev.asks]) hl1]
      simp only [List.any_append, Bool.or_eq_false_iff] at hstop
      exact hstop.1
    obtain ⟨f', hf', hg, hi⟩ := loop_prefix (env := env) (m := a + 1) (m' := b + 1 + a) (by omega) (by omega) f₁
      (start env w x) s1 (by simp [start]) hl1 hst1
    cases hl2 : loop env (b + 1) f₂ (start env (env.cbEnd s1.w s1.x).1 s1.x) with
    | outOfFuel => simp only at h₂; rw [hl2] at h₂; cases h₂
    | done e t =>
      simp only at h₂
      rw [hl2] at h₂
      simp only [Option.some.injEq] at h₂
      subst h₂
      have hal : Alike a (start env (env.cbEnd s1.w s1.x).1 s1.x) s1 := by
        refine ⟨?_, ?_, ?_, .inl rfl, ?_⟩ <;> simp [start, hs.cbBegin, hs.cbEnd, hi, hst1]
        omega
      obtain ⟨s', k1, k2, k3, k4⟩ := loop_alike (env := env) hs (m := b + 1) (c := a) (by omega) f₂ _ _ hal
        (by simp [start]) e t hl2
      have : loop env (a + b + 1) (f₁ + f₂) (start env w x) = .done e s' := by
        rw [show a + b + 1 = b + 1 + a by omega, show f₁ + f₂ = f' + (f₂ + (f₁ - f')) by omega, hg]
        exact loop_fuel _ _ _ _ _ _ k1
      rw [this]
      refine ⟨_, rfl, rfl, (k4 (.inl ⟨by simp [start]; omega, rfl⟩)).symm, k3.symm, ?_⟩
      simp only [k2, k3]

/-- The hypotheses are met: `x ^ 2 / 2` with step size 1/2, two steps and then three. -/
example : ∃ (env : Env Unit Rat Rat Rat) (r₁ r₂ : Result Unit Rat Rat), Splittable env ∧
    optimize env 3 2 () 8 = some r₁ ∧ r₁.exit = .loop ∧ r₁.trace.any Ev.asks = false ∧ r₁.x = 2 ∧
    optimize env 4 3 r₁.w r₁.x = some r₂ ∧ r₂.x = 1 / 4 :=
  ⟨{ evalGrad := fun w x => (w, x ^ 2 / 2, x), cbBegin := fun w x => (w, x),
     cbEvalGrad := fun w _ _ g => (w, g, false), cbStep := fun w x => (w, x, false), cbEnd := fun w x => (w, x),
     move := fun x g => x - 1 / 2 * g, isBad := fun _ => false, isClose := fun _ _ => false, maxVal := 1000 },
    _, _, ⟨fun _ _ => rfl, fun _ _ => rfl, fun _ _ => rfl⟩, rfl, rfl, rfl, by decide +kernel, rfl, by decide +kernel⟩

end Ens.Gd
