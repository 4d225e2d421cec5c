import Verif.AugLag.Overloads
import Verif.Resume

/-
C326: `AugLagrangian::Optimize` in instalments (`aug_lagrangian/aug_lagrangian_impl.hpp:40-221`).
-/

namespace Ens.AugLag

variable {W X E : Type} {o : Ops E} {u : User W X E}

/-- A user calling `Optimize(function, coordinates)` `k` times on the same object, each time at the coordinates of the previous call; the
members at the end and how each call ended. -/
def calls (o : Ops E) (u : User W X E) (m fuel : Nat) : Nat → Obj E → W → X → Option (Obj E × List Exit)
  | 0, ob, _, _ => some (ob, [])
  | k + 1, ob, w, x => (optimize o u m fuel ob w x).bind fun r =>
      (calls o u m fuel k r.1 r.2.2.w r.2.2.x).map fun q => (q.1, r.2.1 :: q.2)

/-- The sum of squared constraint values. -/
def violation (o : Ops E) (n : Nat) (C : Nat → X → E) (x : X) : E :=
  (List.range n).foldl (fun a i => o.add a (o.sq (C i x))) o.zero

theorem penaltyOf_violation {C : Nat → X → E} (hC : ∀ w i x, (u.cons w i x).2 = C i x) (x : X) (w : W) (b : Bool) :
    (penaltyOf o u x w b).2.1 = violation o u.numConstraints C x := by
  unfold penaltyOf violation
  generalize List.range u.numConstraints = l
  suffices h : ∀ (s : W × E × Bool × List (Ev X E)), (l.foldl (penaltyLoop o u x) s).2.1 =
      l.foldl (fun a i => o.add a (o.sq (C i x))) s.2.1 from h _
  induction l with
  | nil => intro s; rfl
  | cons i l ih =>
    intro s
    rw [List.foldl_cons, ih, List.foldl_cons]
    simp only [penaltyLoop, hC]

/-- What the passes of a short run keep: the penalty parameter has been multiplied at most once per pass after the first. -/
def Short (o : Ops E) (m : Nat) (σ₀ : E) (t : St W X E) : Prop :=
  (t.it = 0 ∧ t.threshold = o.maxE ∧ t.sigma = σ₀) ∨
    (1 ≤ t.it ∧ t.it + 1 ≤ m ∧ ∃ j, j + 1 ≤ t.it ∧ t.sigma = o.grow^[j] σ₀)

theorem body_short {C : Nat → X → E} (hC : ∀ w i x, (u.cons w i x).2 = C i x)
    (hmax : ∀ w x l s, o.below (violation o u.numConstraints C (u.solve w x l s).2) o.maxE = true) {m : Nat} (hm : m ≠ 0) {σ₀ : E}
    (hbig : ∀ j, j = 0 ∨ j + 3 ≤ m → o.big (o.grow^[j] σ₀) = false) {t : St W X E} (ht : Short o m σ₀ t) :
    (∀ t', body o u m t = .inl t' → Short o m σ₀ t') ∧ ∀ r, body o u m t = .inr r → r.1 ≠ .converged := by
  unfold body
  split
  · rename_i hg
    split
    · exact ⟨fun _ h => (by cases h), fun r h => by cases h; simp⟩
    · have hit : t.it ≠ m - 1 := by rcases hg.1 with h | h; exact absurd h hm; exact h
      have hσ : o.big t.sigma = false := by
        rcases ht with ⟨-, -, hs⟩ | ⟨h1, h2, j, hj, hs⟩
        · rw [hs]; exact hbig 0 (.inl rfl)
        · rw [hs]; exact hbig j (by omega)
      unfold afterInner
      have hi : (inner u t).1.sigma = t.sigma := rfl
      rw [hi, hσ]
      simp only [Bool.and_false, Bool.false_eq_true, if_false]
      split
      · exact ⟨fun _ h => (by cases h), fun r h => by cases h; simp⟩
      · unfold updateStep
        dsimp only
        rw [penaltyOf_violation hC]
        split
        · refine ⟨fun t' h => ?_, fun _ h => by cases h⟩
          cases h
          refine .inr ⟨by show 1 ≤ t.it + 1; omega, ?_, ?_⟩
          · show t.it + 1 + 1 ≤ m
            rcases ht with ⟨h0, -, -⟩ | ⟨h1, h2, -⟩ <;> omega
          · rcases ht with ⟨h0, -, hs⟩ | ⟨h1, h2, j, hj, hs⟩
            · exact ⟨0, by show 0 + 1 ≤ t.it + 1; omega, hs⟩
            · exact ⟨j, by show j + 1 ≤ t.it + 1; omega, hs⟩
        · rename_i hb
          have hne : ¬ t.threshold = o.maxE := fun h => hb (by
            show o.below _ t.threshold = true
            rw [h]; exact hmax _ _ _ _)
          split
          · exact ⟨fun _ h => (by cases h), fun r h => by cases h; simp⟩
          · refine ⟨fun t' h => ?_, fun _ h => by cases h⟩
            cases h
            rcases ht with ⟨-, h, -⟩ | ⟨h1, h2, j, hj, hs⟩
            · exact absurd h hne
            · refine .inr ⟨by show 1 ≤ t.it + 1; omega, by show t.it + 1 + 1 ≤ m; omega, j + 1, by
                show j + 1 + 1 ≤ t.it + 1; omega, ?_⟩
              show o.grow t.sigma = _
              rw [hs, Function.iterate_succ_apply']
  · exact ⟨fun _ h => (by cases h), fun r h => by cases h; simp⟩

/-- **C326** (short calls) The penalty parameter grows at most once per pass after the first of a call, and it is forgotten at the end of a
call that did not converge. So if it is not beyond 500000 after `maxIterations - 3` multiplications, then however often `Optimize` is
called, no call returns `true` and the members stay as they are. -/
theorem C326_short_calls {C : Nat → X → E} (hC : ∀ w i x, (u.cons w i x).2 = C i x)
    (hmax : ∀ w x l s, o.below (violation o u.numConstraints C (u.solve w x l s).2) o.maxE = true) {m : Nat} (hm : m ≠ 0) {fuel : Nat} {lam : List E} {σ : E}
    (hbig : ∀ j, j = 0 ∨ j + 3 ≤ m → o.big (o.grow^[j] (if lam.isEmpty then o.ten else σ)) = false) :
    ∀ (k : Nat) (b : Bool) (w : W) (x : X) (ob' : Obj E) (es : List Exit), calls o u m fuel k ⟨lam, σ, b⟩ w x = some (ob', es) →
      ob'.lam = lam ∧ ob'.sigma = σ ∧ es.length = k ∧ ∀ e ∈ es, e ≠ .converged := by
  have key : ∀ (b : Bool) (w : W) (x : X) r, optimize o u m fuel ⟨lam, σ, b⟩ w x = some r →
      r.2.1 ≠ .converged ∧ r.1.lam = lam ∧ r.1.sigma = σ := by
    intro b w x r hr
    obtain ⟨ob', e, t⟩ := r
    have hne : e ≠ .converged := by
      have gen : ∀ L, run o u m fuel ⟨lam, σ, b⟩ L (if lam.isEmpty then o.ten else σ) w x = some (ob', e, t) → e ≠ .converged := by
        intro L h
        unfold run at h
        rw [Option.map_eq_some_iff] at h
        obtain ⟨r, hr, h⟩ := h
        simp only [Prod.mk.injEq] at h
        rw [← h.2.1]
        exact iterate_inv (Short o m _) (fun r : Exit × St W X E => r.1 ≠ .converged)
          (fun a a' ha h => (body_short hC hmax hm hbig ha).1 a' h) (fun a r ha h => (body_short hC hmax hm hbig ha).2 r h) fuel _ r
          (.inl ⟨rfl, rfl, rfl⟩) hr
      unfold optimize at hr
      dsimp only at hr
      cases hl : lam.isEmpty with
      | true => rw [hl] at hr gen; exact gen _ hr
      | false => rw [hl] at hr gen; exact gen _ hr
    have := C302_left.2 hr
    rw [if_neg hne] at this
    exact ⟨hne, this⟩
  intro k
  induction k with
  | zero =>
    intro b w x ob' es h
    simp only [calls, Option.some.injEq, Prod.mk.injEq] at h
    obtain ⟨rfl, rfl⟩ := h
    simp
  | succ k ih =>
    intro b w x ob' es h
    rw [calls, Option.bind_eq_some_iff] at h
    obtain ⟨r, hr, h⟩ := h
    rw [Option.map_eq_some_iff] at h
    obtain ⟨q, hq, h⟩ := h
    obtain ⟨h1, h2, h3⟩ := key b w x r hr
    have hob : r.1 = ⟨lam, σ, r.1.terminate⟩ := by rw [← h2, ← h3]
    rw [hob] at hq
    obtain ⟨i1, i2, i3, i4⟩ := ih _ _ _ q.1 q.2 hq
    simp only [Prod.mk.injEq] at h
    obtain ⟨rfl, rfl⟩ := h
    refine ⟨i1, i2, by simp [i3], fun e he => ?_⟩
    rcases List.mem_cons.1 he with rfl | he
    · exact h1
    · exact i4 e he

/-- Constant objective, one constraint `x = 2`, a solver that always returns 0, callbacks that watch. -/
def fixed : User Unit ℚ ℚ := { stuck (fun _ => false) with solve := fun w _ _ _ => (w, 0) }

/-- With the default factors and `maxIterations = 7` no number of calls returns `true`. -/
theorem fixed_never (k : Nat) (b : Bool) (x : ℚ) (ob' : Obj ℚ) (es : List Exit)
    (h : calls ratOps fixed 7 7 k ⟨[], 0, b⟩ () x = some (ob', es)) : es.length = k ∧ ∀ e ∈ es, e ≠ .converged :=
  (C326_short_calls (u := fixed) (C := fun _ x => x - 2) (fun _ _ _ => rfl) (fun _ _ _ _ => by
      show ratOps.below (violation ratOps 1 (fun _ x => x - 2) (0 : ℚ)) ratOps.maxE = true
      decide +kernel) (m := 7) (by decide)
    (fun j hj => by
      have : j < 5 := by omega
      clear hj; revert j; decide +kernel) k b () x ob' es h).2.2

/-- The hypotheses are met and the calls end: three calls of six passes each. -/
example : (calls ratOps fixed 7 7 3 ⟨[], 0, false⟩ () 0).map (fun q => (q.1.lam, q.2)) = some ([], [.loop, .loop, .loop]) := by
  decide +kernel

/-- **C326** (refuted) "If a run is stopped by `maxIterations`, calling `Optimize` again continues it": with the default factors one call
with `maxIterations = 9` returns `true`, any number of calls with `maxIterations = 7` does not. -/
theorem C326_continue_refuted :
    ¬ ∀ (u : User Unit ℚ ℚ) (F : ℚ → ℚ), Watch u F → ∀ ob' t, optimize ratOps u 9 9 ⟨[], 0, false⟩ () 0 = some (ob', .converged, t) →
      ∃ k ob'' es, calls ratOps u 7 7 k ⟨[], 0, false⟩ () 0 = some (ob'', es) ∧ .converged ∈ es := by
  intro h
  have hrun : ((optimize ratOps fixed 9 9 ⟨[], 0, false⟩ () 0).map fun r => r.2.1) = some .converged := by decide +kernel
  rw [Option.map_eq_some_iff] at hrun
  obtain ⟨⟨ob', e, t⟩, hr, rfl⟩ := hrun
  obtain ⟨k, ob'', es, h1, h2⟩ := h fixed (fun _ => 0)
    ⟨fun _ _ => rfl, fun _ _ => rfl, fun _ _ _ _ => rfl, fun _ _ _ => rfl, fun _ _ => rfl, fun _ _ => rfl⟩ ob' t hr
  exact (fixed_never k false 0 ob'' es h1).2 _ h2 rfl

/-! ### What does continue a run -/

/-- Callbacks that do nothing, and a function whose values depend on the point only. -/
structure Idle (u : User W X E) (F : X → E) : Prop where
  eval : ∀ w x, u.eval w x = (w, F x)
  cons : ∀ w i x, (u.cons w i x).1 = w
  cbBegin : ∀ w x, u.cbBegin w x = (w, x)
  cbCons : ∀ w x i v, u.cbCons w x i v = (w, false)
  cbEval : ∀ w x v, u.cbEval w x v = (w, false)
  cbStep : ∀ w x, u.cbStep w x = (w, x, false)
  cbEnd : ∀ w x, u.cbEnd w x = (w, x)

theorem Idle.watch {F : X → E} (h : Idle u F) : Watch u F where
  eval w x := by rw [h.eval]
  begin_ w x := by rw [h.cbBegin]
  cons w x i v := by rw [h.cbCons]
  evalCb w x v := by rw [h.cbEval]
  step w x := by rw [h.cbStep]
  end_ w x := by rw [h.cbEnd]

theorem penaltyOf_world {F : X → E} (h : Idle u F) (x : X) (w : W) (b : Bool) : (penaltyOf o u x w b).1 = w := by
  unfold penaltyOf
  generalize List.range u.numConstraints = l
  suffices h : ∀ (s : W × E × Bool × List (Ev X E)), (l.foldl (penaltyLoop o u x) s).1 = s.1 from h _
  induction l with
  | nil => intro s; rfl
  | cons i l ih =>
    intro s
    rw [List.foldl_cons, ih]
    simp only [penaltyLoop, h.cbCons, h.cons]

theorem start_idle {F : X → E} (h : Idle u F) (lam : List E) (σ : E) (w : W) (x : X) :
    start o u false lam σ w x = ⟨w, x, lam, σ, o.maxE, F x, false, 0, (penaltyOf o u x w false).2.2.2⟩ := by
  unfold start
  simp only [h.eval, h.cbBegin, penaltyOf_world h, penaltyOf_term h.watch]

/-- The point the inner solver goes to. -/
def next (u : User W X E) (t : St W X E) : X := (u.solve t.w t.x t.lam t.sigma).2

/-- A state of the second call and the state of the single call it corresponds to; the next test of line 183 is the same. -/
structure Rel (o : Ops E) (u : User W X E) (C : Nat → X → E) (a : Nat) (s t : St W X E) : Prop where
  w : t.w = s.w
  x : t.x = s.x
  lam : t.lam = s.lam
  sigma : t.sigma = s.sigma
  last : t.last = s.last
  term : t.term = s.term
  it : t.it = s.it + a
  thr : t.threshold = s.threshold ∨ (o.below (violation o u.numConstraints C (next u s)) t.threshold = true ∧
    o.below (violation o u.numConstraints C (next u s)) s.threshold = true)

/-- The results of the second call and of the single call. -/
def Same (a : Nat) (r r' : Exit × St W X E) : Prop :=
  r'.1 = r.1 ∧ r'.2.w = r.2.w ∧ r'.2.x = r.2.x ∧ r'.2.lam = r.2.lam ∧ r'.2.sigma = r.2.sigma ∧ r'.2.it = r.2.it + a

theorem body_rel {C : Nat → X → E} (hC : ∀ w i x, (u.cons w i x).2 = C i x) {a b : Nat} {s t : St W X E} (h : Rel o u C a s t) :
    (∀ s', body o u (b + 1) s = .inl s' → ∃ t', body o u (a + b + 1) t = .inl t' ∧ Rel o u C a s' t') ∧
      ∀ r, body o u (b + 1) s = .inr r → ∃ r', body o u (a + b + 1) t = .inr r' ∧ Same a r r' := by
  obtain ⟨w₀, x₀, lam₀, σ₀, thr, last₀, term₀, it, tr⟩ := s
  obtain ⟨w, x, lam, σ, thr', last, term, it', tr'⟩ := t
  obtain ⟨h1, h2, h3, h4, h5, h6, h7, h8⟩ := h
  dsimp only at h1 h2 h3 h4 h5 h6 h7 h8
  subst h1 h2 h3 h4 h5 h6 h7
  have hbel : o.below (violation o u.numConstraints C (u.solve w x lam σ).2) thr' =
      o.below (violation o u.numConstraints C (u.solve w x lam σ).2) thr := by
    rcases h8 with h | ⟨h, h'⟩
    · rw [h]
    · exact Eq.trans (show o.below _ thr' = true from h) (Eq.symm h')
  by_cases hg : (b + 1 = 0 ∨ it ≠ b + 1 - 1) ∧ term = false
  · have hg' : (a + b + 1 = 0 ∨ it + a ≠ a + b + 1 - 1) ∧ term = false := ⟨by omega, hg.2⟩
    unfold body
    rw [if_pos hg, if_pos hg']
    by_cases hl : lam.length < u.numConstraints
    · dsimp only
      rw [if_pos hl, if_pos hl]
      exact ⟨fun _ h => (by cases h), fun r h => by cases h; exact ⟨_, rfl, rfl, rfl, rfl, rfl, rfl, rfl⟩⟩
    · dsimp only
      rw [if_neg hl, if_neg hl]
      unfold afterInner inner
      dsimp only
      split
      · exact ⟨fun _ h => (by cases h), fun r h => by cases h; exact ⟨_, rfl, rfl, rfl, rfl, rfl, rfl, rfl⟩⟩
      · split
        · exact ⟨fun _ h => (by cases h), fun r h => by cases h; exact ⟨_, rfl, rfl, rfl, rfl, rfl, rfl, rfl⟩⟩
        · unfold updateStep
          dsimp only
          rw [penaltyOf_violation hC, hbel]
          split
          · refine ⟨fun s' h => ?_, fun _ h => by cases h⟩
            cases h
            exact ⟨_, rfl, rfl, rfl, rfl, rfl, rfl, rfl, by dsimp only; omega, .inl rfl⟩
          · rename_i hb
            have hthr : thr' = thr := by
              rcases h8 with h | ⟨-, h⟩
              · exact h
              · exact absurd h hb
            split
            · exact ⟨fun _ h => (by cases h), fun r h => by cases h; exact ⟨_, rfl, rfl, rfl, rfl, rfl, rfl, rfl⟩⟩
            · refine ⟨fun s' h => ?_, fun _ h => by cases h⟩
              cases h
              exact ⟨_, rfl, rfl, rfl, rfl, rfl, rfl, rfl, by dsimp only; omega, .inl hthr⟩
  · have hg' : ¬ ((a + b + 1 = 0 ∨ it + a ≠ a + b + 1 - 1) ∧ term = false) := fun h => hg ⟨by omega, h.2⟩
    unfold body
    rw [if_neg hg, if_neg hg']
    exact ⟨fun _ h => (by cases h), fun r h => by cases h; exact ⟨_, rfl, rfl, rfl, rfl, rfl, rfl, rfl⟩⟩

/-- What a pass with idle callbacks keeps. -/
theorem body_idle {F : X → E} (h : Idle u F) {a b : Nat} {t : St W X E} (hit : t.it ≤ a) (hlast : t.last = F t.x) (ht : t.term = false) :
    (∀ t', body o u (a + 1) t = .inl t' →
      (t'.it ≤ a ∧ t'.last = F t'.x ∧ t'.term = false) ∧ body o u (a + b + 1) t = .inl t') ∧
      ∀ t', body o u (a + 1) t = .inr (.loop, t') → t' = t ∧ t.it = a := by
  have hterm := body_term (o := o) (m := a + 1) h.watch ht
  have hp : ∀ x w, (penaltyOf o u x w false).2.2.1 = false := fun x w => penaltyOf_term h.watch x w false
  by_cases hg : t.it = a
  · have hg' : ¬ ((a + 1 = 0 ∨ t.it ≠ a + 1 - 1) ∧ t.term = false) := by omega
    unfold body
    rw [if_neg hg']
    exact ⟨fun _ h => (by cases h), fun _ h => by cases h; exact ⟨rfl, hg⟩⟩
  · have h1 : (a + 1 = 0 ∨ t.it ≠ a + 1 - 1) ∧ t.term = false := ⟨by omega, ht⟩
    have h2 : (a + b + 1 = 0 ∨ t.it ≠ a + b + 1 - 1) ∧ t.term = false := ⟨by omega, ht⟩
    have heq : body o u (a + b + 1) t = body o u (a + 1) t := by unfold body; rw [if_pos h1, if_pos h2]
    suffices hs : (∀ t', body o u (a + 1) t = .inl t' → t'.it ≤ a ∧ t'.last = F t'.x) ∧
        ∀ t', body o u (a + 1) t ≠ .inr (.loop, t') from
      ⟨fun t' hb => ⟨⟨(hs.1 t' hb).1, (hs.1 t' hb).2, hterm.1 t' hb⟩, heq.trans hb⟩, fun t' hb => absurd hb (hs.2 t')⟩
    unfold body
    rw [if_pos h1]
    split
    · exact ⟨fun _ h => (by cases h), fun _ h => by cases h⟩
    · unfold afterInner inner
      simp only [h.eval, h.cbEval, ht, Bool.or_false, hp, Bool.false_eq_true, if_false]
      split
      · exact ⟨fun _ h => (by cases h), fun _ h => by cases h⟩
      · unfold updateStep
        simp only [h.cbStep]
        split
        · exact ⟨fun _ h => by cases h; exact ⟨by dsimp only; omega, rfl⟩, fun _ h => by cases h⟩
        · split
          · exact ⟨fun _ h => (by cases h), fun _ h => by cases h⟩
          · exact ⟨fun _ h => by cases h; exact ⟨by dsimp only; omega, rfl⟩, fun _ h => by cases h⟩

/-- **C326** (partial) With callbacks that do nothing, a run stopped by its limit of `a` passes is continued by the overload that takes the
multipliers and the penalty parameter reached, provided the next pass of the longer run would have updated the multipliers, not the penalty
parameter: the second call (of at most `b` passes) ends as one call of `a + b` passes does, at the same point with the same multipliers and
penalty parameter. Missing: the other case, because each call starts with the largest threshold; and the multipliers reached, which
`Lambda()` and `Sigma()` do not give (`C302_left`). -/
theorem C326_continue_partial {F : X → E} {C : Nat → X → E} (hu : Idle u F) (hC : ∀ w i x, (u.cons w i x).2 = C i x) {a b f₁ f₂ : Nat}
    {ob ob₁ ob₂ : Obj E} (hob : ob.terminate = false) {L : List E} {σ : E} {w : W} {x : X} {t₁ t₂ : St W X E} {e : Exit}
    (h₁ : optimizeInit o u (a + 1) f₁ ob L σ w x = some (ob₁, .loop, t₁))
    (hthr : o.below (violation o u.numConstraints C (next u t₁)) t₁.threshold = true)
    (hmax : o.below (violation o u.numConstraints C (next u t₁)) o.maxE = true)
    (h₂ : optimizeInit o u (b + 1) f₂ ob₁ t₁.lam t₁.sigma t₁.w t₁.x = some (ob₂, e, t₂)) :
    ∃ ob' t, optimizeInit o u (a + b + 1) (f₁ + f₂) ob L σ w x = some (ob', e, t) ∧
      t.w = t₂.w ∧ t.x = t₂.x ∧ t.lam = t₂.lam ∧ t.sigma = t₂.sigma ∧ t.it = t₂.it + a := by
  unfold optimizeInit run at h₁ h₂ ⊢
  rw [Option.map_eq_some_iff] at h₁ h₂
  obtain ⟨⟨e₁, r₁⟩, h₁, q₁⟩ := h₁
  obtain ⟨⟨e₂, r₂⟩, h₂, q₂⟩ := h₂
  have hfin : ∀ r : St W X E, finish u r = r := fun r => by unfold finish; rw [hu.cbEnd]
  simp only [Prod.mk.injEq, hfin] at q₁ q₂
  obtain ⟨q0, rfl, rfl⟩ := q₁
  obtain ⟨-, rfl, rfl⟩ := q₂
  dsimp only at h₁ h₂ hthr hmax ⊢
  rw [hob, start_idle hu] at h₁ ⊢
  obtain ⟨k, s₁, hk, ⟨i1, i2, i3⟩, hend, hlong⟩ := iterate_prefix (short := body o u (a + 1)) (long := body o u (a + b + 1))
    (fun t => t.it ≤ a ∧ t.last = F t.x ∧ t.term = false) (fun s s' hs h => (body_idle hu hs.1 hs.2.1 hs.2.2).1 s' h) f₁ _ _
    ⟨Nat.zero_le _, rfl, rfl⟩ h₁
  obtain ⟨rfl, hit⟩ := (body_idle (b := b) hu i1 i2 i3).2 _ hend
  have ht1 : ob₁.terminate = false := by rw [← q0]; exact i3
  rw [ht1, start_idle hu] at h₂
  have hR : Rel o u C a ⟨r₁.w, r₁.x, r₁.lam, r₁.sigma, o.maxE, F r₁.x, false, 0, (penaltyOf o u r₁.x r₁.w false).2.2.2⟩ r₁ :=
    ⟨rfl, rfl, rfl, rfl, i2, i3, by rw [hit]; dsimp only; omega, .inr ⟨hthr, hmax⟩⟩
  obtain ⟨r', hr', hs⟩ := iterate_sim (Rel o u C a) (Same a) (fun s t s' hR h => (body_rel hC hR).1 s' h)
    (fun s t r hR h => (body_rel hC hR).2 r h) f₂ _ r₁ _ hR h₂
  obtain ⟨g1, g2, g3, g4, g5, g6⟩ := hs
  have hfull := iterate_mono _ (f₁ + f₂) _ r' (by omega) ((hlong f₂).trans hr')
  rw [hfull]
  exact ⟨_, _, by rw [Option.map_some, g1], by rw [hfin]; exact g2, by rw [hfin]; exact g3, by rw [hfin]; exact g4,
    by rw [hfin]; exact g5, by rw [hfin]; exact g6⟩

/-- One constraint `x = 2`; the solver goes towards 2, further as the multiplier grows. -/
def near : User Unit ℚ ℚ := { stuck (fun _ => false) with
  eval := fun w x => (w, x), solve := fun w x l _ => (w, 2 - (2 - x) / (4 + l.getD 0 0)) }

/-- The hypotheses are met: two passes and then three more, against five at once. -/
example : ∃ ob₁ t₁ ob₂ t₂, optimizeInit ratOps near 3 3 ⟨[], 0, false⟩ [0] 10 () 0 = some (ob₁, .loop, t₁) ∧
    optimizeInit ratOps near 4 4 ob₁ t₁.lam t₁.sigma t₁.w t₁.x = some (ob₂, .loop, t₂) ∧
    ∃ ob' t, optimizeInit ratOps near 6 7 ⟨[], 0, false⟩ [0] 10 () 0 = some (ob', .loop, t) ∧ t.lam = t₂.lam ∧ t.x = t₂.x ∧ t₁.x ≠ t₂.x := by
  have hu : Idle near (fun x => x) := ⟨fun _ _ => rfl, fun _ _ _ => rfl, fun _ _ => rfl, fun _ _ _ _ => rfl, fun _ _ _ => rfl,
    fun _ _ => rfl, fun _ _ => rfl⟩
  have h : ((optimizeInit ratOps near 3 3 ⟨[], 0, false⟩ [0] 10 () 0).bind fun r₁ =>
      (optimizeInit ratOps near 4 4 r₁.1 r₁.2.2.lam r₁.2.2.sigma r₁.2.2.w r₁.2.2.x).map fun r₂ =>
        decide (r₁.2.1 = .loop ∧ r₂.2.1 = .loop ∧
          ratOps.below (violation ratOps 1 (fun _ x => x - 2) (next near r₁.2.2)) r₁.2.2.threshold = true ∧
          ratOps.below (violation ratOps 1 (fun _ x => x - 2) (next near r₁.2.2)) ratOps.maxE = true ∧ r₁.2.2.x ≠ r₂.2.2.x)) =
      some true := by decide +kernel
  rw [Option.bind_eq_some_iff] at h
  obtain ⟨⟨ob₁, e₁, t₁⟩, h₁, h⟩ := h
  rw [Option.map_eq_some_iff] at h
  obtain ⟨⟨ob₂, e₂, t₂⟩, h₂, h⟩ := h
  obtain ⟨rfl, rfl, h3, h4, h5⟩ := of_decide_eq_true h
  obtain ⟨ob', t, g1, -, g2, g3, -, -⟩ := C326_continue_partial hu (C := fun _ x => x - 2) (fun _ _ _ => rfl) (a := 2) (b := 3) rfl h₁ h3 h4 h₂
  exact ⟨ob₁, t₁, ob₂, t₂, h₁, h₂, ob', t, g1, g3, g2, h5⟩

end Ens.AugLag
