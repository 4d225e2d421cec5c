import Mathlib.Tactic.Linarith
import Mathlib.Tactic.NormNum
import Mathlib.Data.Rat.Defs
import Mathlib.Algebra.Order.Field.Rat
import Mathlib.Algebra.Field.Rat
import Verif.Resume
import Verif.Fw.Model

/-
C317 for Frank-Wolfe: optimizing in two calls against optimizing in one.
-/

namespace Ens.Fw

variable {W X G E : Type}

/-- Callbacks that do nothing at the boundaries of a call. -/
structure Splittable (u : User W X G E) : Prop where
  cbBegin : ∀ w x, u.cbBegin w x = (w, x)
  cbEnd : ∀ w x, u.cbEnd w x = (w, x)

/-- Same run, `a` iterations apart, `tr` the events of the first part. -/
structure Alike (a : Nat) (tr : List (Ev X E)) (t s : St W X E) : Prop where
  w : t.w = s.w
  x : t.x = s.x
  i : t.i + a = s.i
  obj : t.i = 1 ∨ t.obj = s.obj
  term : t.term = s.term
  first : t.i = 1 → t.term = false
  trace : s.trace = tr ++ t.trace

/-- **C317** (Frank-Wolfe) If the update rule does not use the iteration number (`UpdateLineSearch`, `UpdateSpan`,
`UpdateFullCorrection`), a call of `a` steps that runs to its limit without a stop request, followed by a call with room
for `b` steps on the coordinates it left, is the same as one call with room for `a + b` steps: same reason to end,
returned value, coordinates and world, and the events are those of the two calls one after the other. -/
theorem C317_fw_partial {u : User W X G E} (hs : Splittable u) {a b f₁ f₂ : Nat} {w : W} {x : X} {t₁ t₂ : St W X E} {e : Exit}
    (hcount : ∀ w x s i, u.update w x s (i + a) = u.update w x s i) (hb : 0 < b)
    (h₁ : optimize u (a + 1) f₁ w x = some (.loop, t₁)) (hstop : t₁.term = false)
    (h₂ : optimize u (b + 1) f₂ t₁.w t₁.x = some (e, t₂)) :
    ∃ t, optimize u (a + b + 1) (f₁ + f₂) w x = some (e, t) ∧
      t.x = t₂.x ∧ t.obj = t₂.obj ∧ t.w = t₂.w ∧ t.trace = t₁.trace ++ t₂.trace := by
  unfold optimize at h₁ h₂ ⊢
  rw [Option.map_eq_some_iff] at h₁ h₂
  obtain ⟨⟨e₁, s₁⟩, h₁, k₁⟩ := h₁
  obtain ⟨⟨e₂, s₂⟩, h₂, k₂⟩ := h₂
  simp only [Prod.mk.injEq] at k₁ k₂
  obtain ⟨rfl, rfl⟩ := k₁
  obtain ⟨rfl, rfl⟩ := k₂
  obtain ⟨k, s, hk, hi, hend, hrun⟩ := iterate_prefix (short := body u (a + 1)) (long := body u (a + b + 1))
    (fun s => s.i ≤ a + 1)
    (by
      intro s s' hi hbody
      unfold body at hbody ⊢
      by_cases hc : s.i ≠ a + 1 ∧ s.term = false
      · rw [if_pos hc] at hbody
        rw [if_pos ⟨by have := hc.1; omega, hc.2⟩]
        refine ⟨?_, hbody⟩
        simp only at hbody
        split at hbody
        · cases hbody
        · cases hbody
          have := hc.1
          simp only
          omega
      · rw [if_neg hc] at hbody
        cases hbody) f₁ (start u w x) _ (by simp [start]) h₁
  have hss : s = s₁ ∧ s.i = a + 1 := by
    unfold body at hend
    by_cases hc : s.i ≠ a + 1 ∧ s.term = false
    · rw [if_pos hc] at hend
      simp only at hend
      split at hend
      · cases hend
      · cases hend
    · rw [if_neg hc] at hend
      cases hend
      refine ⟨rfl, Decidable.byContradiction fun hne => hc ⟨hne, ?_⟩⟩
      simpa [finish] using hstop
  obtain ⟨rfl, hi'⟩ := hss
  have hterm : s.term = false := by simpa [finish] using hstop
  obtain ⟨r', hr, hp⟩ := iterate_sim (one := body u (b + 1)) (two := body u (a + b + 1))
    (fun t s' => (1 ≤ t.i ∧ t.i ≤ b + 1) ∧ Alike a s.trace t s')
    (fun r r' => r'.1 = r.1 ∧ r'.2.x = r.2.x ∧ r'.2.obj = r.2.obj ∧ r'.2.w = r.2.w ∧ r'.2.trace = s.trace ++ r.2.trace)
    (by
      rintro t s' t' ⟨hle, h⟩ hbody
      unfold body at hbody ⊢
      by_cases hc : t.i ≠ b + 1 ∧ t.term = false
      · rw [if_pos hc] at hbody
        rw [if_pos ⟨by have := hc.1; have := h.i; omega, h.term ▸ hc.2⟩]
        simp only at hbody ⊢
        rw [← h.w, ← h.x, ← h.i, hcount]
        split at hbody
        · cases hbody
        · rename_i hw
          rw [if_neg hw]
          cases hbody
          refine ⟨_, rfl, by have := hc.1; simp only; omega, rfl, rfl, by simp only; omega, .inr rfl, rfl, ?_, ?_⟩
          · intro h1
            simp only at h1
            omega
          · simp [h.trace]
      · rw [if_neg hc] at hbody
        cases hbody)
    (by
      rintro t s' ⟨er, tr⟩ ⟨hle, h⟩ hbody
      unfold body at hbody ⊢
      by_cases hc : t.i ≠ b + 1 ∧ t.term = false
      · rw [if_pos hc] at hbody
        rw [if_pos ⟨by have := hc.1; have := h.i; omega, h.term ▸ hc.2⟩]
        simp only at hbody ⊢
        rw [← h.w, ← h.x, ← h.i]
        split at hbody
        · rename_i hw
          rw [if_pos hw]
          cases hbody
          exact ⟨_, rfl, rfl, rfl, rfl, rfl, by simp [h.trace]⟩
        · cases hbody
      · rw [if_neg hc] at hbody
        cases hbody
        rw [if_neg (fun hh => hc ⟨by have := hh.1; have := h.i; omega, h.term.trans hh.2⟩)]
        refine ⟨_, rfl, rfl, h.x.symm, ?_, h.w.symm, h.trace⟩
        rcases h.obj with h1 | h1
        · exact absurd ⟨by omega, h.first h1⟩ hc
        · exact h1.symm)
    f₂ _ s _ ⟨by simp [start], by
      refine ⟨?_, ?_, ?_, .inl rfl, ?_, fun _ => rfl, ?_⟩ <;> simp [start, finish, hs.cbBegin, hs.cbEnd, hi', hterm]
      omega⟩ h₂
  have hlong : iterate (body u (a + b + 1)) (f₁ + f₂) (start u w x) = some r' := by
    rw [show f₁ + f₂ = k + (f₂ + (f₁ - k)) by omega, hrun]
    exact iterate_mono _ _ _ _ (by omega) hr
  obtain ⟨e', t'⟩ := r'
  obtain ⟨p1, p2, p3, p4, p5⟩ := hp
  simp only at p1 p2 p3 p4 p5
  subst p1
  refine ⟨finish u t', by rw [hlong]; rfl, ?_, p3, ?_, p5⟩
  · simp [finish, hs.cbEnd, p2]
  · simp [finish, hs.cbEnd, p2, p4]

/-! ### UpdateClassic uses the iteration number -/

/-- `x ^ 2 / 2` on the interval from -1 to 1 with `UpdateClassic`. -/
def half (tol : ℚ) : User Unit ℚ ℚ ℚ where
  evalGrad w x := (w, x ^ 2 / 2, x)
  lmo w g := (w, if 0 < g then -1 else 1)
  update w x s i := (w, classic (K := ℚ) x s i)
  within x s g := decide (|(x - s) * g| < tol)
  cbBegin w x := (w, x)
  cbEval w _ _ g := (w, g, false)
  cbStep w x := (w, x, false)
  cbEnd w x := (w, x)
  maxE := 1000

/-- Coordinates after `k` calls of one step each, every call continuing where the one before ended. -/
def oneByOne (tol : ℚ) : Nat → ℚ → Option ℚ
  | 0, x => some x
  | k + 1, x => (optimize (half tol) 2 2 () x).bind fun r => oneByOne tol k r.2.x

theorem half_call {tol x : ℚ} (ht : tol ≤ 1 / 3) (hx : 1 / 3 ≤ |x|) (hx1 : |x| ≤ 1) :
    ∃ r, optimize (half tol) 2 2 () x = some r ∧ 1 / 3 ≤ |r.2.x| ∧ |r.2.x| ≤ 1 := by
  have hgap : ¬ |(x - (if 0 < x then -1 else 1)) * x| < tol := by
    rw [not_lt]
    refine ht.trans ?_
    rw [abs_mul]
    split
    · rename_i h
      rw [abs_of_pos h] at *
      rw [abs_of_pos (by linarith)]
      nlinarith
    · rename_i h
      rw [abs_of_nonpos (not_lt.1 h)] at *
      rw [abs_of_nonpos (by linarith)]
      nlinarith
  refine ⟨(.loop, ⟨(), classic (K := ℚ) x (if 0 < x then -1 else 1) 1, x ^ 2 / 2, false, 2,
    [.eval x (x ^ 2 / 2), .step (classic (K := ℚ) x (if 0 < x then -1 else 1) 1)]⟩), ?_, ?_⟩
  · rw [abs_mul] at hgap
    simp [optimize, iterate, body, start, finish, half, hgap]
  · simp only [classic, smul_eq_mul, Nat.cast_one]
    split
    · rename_i h
      rw [abs_of_pos h] at *
      rw [abs_of_nonpos (by linarith)]
      constructor <;> linarith
    · rename_i h
      rw [abs_of_nonpos (not_lt.1 h)] at *
      rw [abs_of_nonneg (by linarith)]
      constructor <;> linarith

/-- Calls of one step each never come closer to the minimiser 0 than 1/3, however many are made. -/
theorem C317_fw_stalls {tol : ℚ} (ht : tol ≤ 1 / 3) : ∀ (k : Nat) (x : ℚ), 1 / 3 ≤ |x| → |x| ≤ 1 →
    ∃ y, oneByOne tol k x = some y ∧ 1 / 3 ≤ |y| := by
  intro k
  induction k with
  | zero => exact fun x hx _ => ⟨x, rfl, hx⟩
  | succ k ih =>
    intro x hx hx1
    obtain ⟨r, h1, h2, h3⟩ := half_call ht hx hx1
    obtain ⟨y, h4, h5⟩ := ih r.2.x h2 h3
    exact ⟨y, by rw [oneByOne, h1]; exact h4, h5⟩

example : (1 : ℚ) / 3 ≤ |1| ∧ |(1 : ℚ)| ≤ 1 ∧ (1 : ℚ) / 100000 ≤ 1 / 3 := by norm_num

/-- **C317** (refuted for `UpdateClassic`) From 1, one call of three steps ends at -1/5, while calls of one step each stay
at a distance of at least 1/3 from the minimiser whatever their number. -/
theorem C317_fw_classic_refuted : ∃ t, optimize (half (1 / 100000)) 4 4 () 1 = some (.loop, t) ∧ t.x = -1 / 5 ∧
    ∀ k, ∃ y, oneByOne (1 / 100000) k 1 = some y ∧ 1 / 3 ≤ |y| := by
  have h : (optimize (half (1 / 100000)) 4 4 () 1).map (fun r => (r.1, r.2.x)) = some (.loop, -1 / 5) := by decide +kernel
  rw [Option.map_eq_some_iff] at h
  obtain ⟨⟨e, t⟩, h1, h2⟩ := h
  simp only [Prod.mk.injEq] at h2
  obtain ⟨rfl, h2⟩ := h2
  refine ⟨t, h1, h2, fun k => C317_fw_stalls (by norm_num) k 1 (by norm_num) (by norm_num)⟩

/-- The same problem with a rule that ignores the number (half way to the vertex). -/
def halfway : User Unit ℚ ℚ ℚ := { half (1 / 100000) with update := fun w x s _ => (w, (x + s) / 2) }

/-- `C317_fw_partial` applies: one step and then room for two. -/
example : Splittable halfway ∧ (∀ w x s i, halfway.update w x s (i + 1) = halfway.update w x s i) ∧
    (∃ t₁, optimize halfway 2 2 () 1 = some (.loop, t₁) ∧ t₁.term = false ∧ t₁.x = 0) ∧
    (optimize halfway 3 3 () 0).isSome := by
  refine ⟨⟨fun _ _ => rfl, fun _ _ => rfl⟩, fun _ _ _ _ => rfl, ?_, by decide +kernel⟩
  have h : (optimize halfway 2 2 () 1).map (fun r => (r.1, r.2.term, r.2.x)) = some (.loop, false, 0) := by decide +kernel
  rw [Option.map_eq_some_iff] at h
  obtain ⟨⟨e, t⟩, h1, h2⟩ := h
  simp only [Prod.mk.injEq] at h2
  obtain ⟨rfl, h2, h3⟩ := h2
  exact ⟨t, h1, h2, h3⟩

end Ens.Fw
