import Verif.Vr.Svrg
import Verif.Resume

/-
C325: SVRG in two calls of `a` and `b` epochs against one call of `a + b` (svrg_impl.hpp:60-268).

The world carries everything that outlives a call besides the coordinates and the step size: the state of the function (its order),
of the callbacks and of the decay policy. The decay policy is made on the first call only, whatever `resetPolicy`
(svrg_impl.hpp:102-108), so nothing resets it in between; the update policy has no state (svrg_update.hpp).
-/

namespace Ens.Vr

variable {W X G E : Type}

/-- The state of a run that has the events `l` behind it. -/
def S.pre (l : List Ev) (s : S W) : S W := ⟨s.w, s.term, l ++ s.trace⟩

theorem note_pre (l : List Ev) (s : S W) (w : W) (e : Ev) (b : Bool) : (s.pre l).note w e b = (s.note w e b).pre l := by
  simp [S.note, S.pre]

theorem evalAt_pre (u : User W X G E) (l : List Ev) (s : S W) (x : X) (p : Nat × Nat) :
    evalAt u (s.pre l) x p = ((evalAt u s x p).1.pre l, (evalAt u s x p).2) := by
  simp only [evalAt, note_pre]
  rfl

theorem gradAt_pre (u : User W X G E) (l : List Ev) (s : S W) (x : X) (p : Nat × Nat) :
    gradAt u (s.pre l) x p = ((gradAt u s x p).1.pre l, (gradAt u s x p).2) := by
  simp only [gradAt, note_pre]
  rfl

theorem stepAt_pre (u : User W X G E) (l : List Ev) (s : S W) (x : X) :
    stepAt u (s.pre l) x = ((stepAt u s x).1.pre l, (stepAt u s x).2) := by
  simp only [stepAt, note_pre]
  rfl

theorem foldl_pre {A B : Type} (l : List Ev) (f : S W × A → B → S W × A)
    (h : ∀ a b, f (a.1.pre l, a.2) b = ((f a b).1.pre l, (f a b).2)) (bs : List B) (a : S W × A) :
    bs.foldl f (a.1.pre l, a.2) = ((bs.foldl f a).1.pre l, (bs.foldl f a).2) := by
  induction bs generalizing a with
  | nil => rfl
  | cons b bs ih => rw [List.foldl_cons, List.foldl_cons, h, ih]

theorem evalAll_pre (u : User W X G E) (b : Nat) (l : List Ev) (s : S W) (x : X) :
    evalAll u b (s.pre l) x = ((evalAll u b s x).1.pre l, (evalAll u b s x).2) :=
  foldl_pre l (fun a p => ((evalAt u a.1 x p).1, u.addE a.2 (evalAt u a.1 x p).2)) (fun a p => by simp only [evalAt_pre]) _ (s, u.zero)

theorem fullGrad_pre (u : User W X G E) (b : Nat) (l : List Ev) (s : S W) (x : X) :
    fullGrad u (gradAt u) b (s.pre l) x x = (fullGrad u (gradAt u) b s x x).map fun g => (g.1.pre l, g.2) := by
  unfold fullGrad
  cases batchList u.n b with
  | nil => rfl
  | cons p ps =>
    simp only [Option.map_some]
    rw [gradAt_pre]
    have := foldl_pre l (fun a p => ((gradAt u a.1 x p).1, u.addG a.2 (gradAt u a.1 x p).2)) (fun a p => by simp only [gradAt_pre]) ps
      (gradAt u s x p)
    rw [this]

namespace Svrg

def Inner.pre (l : List Ev) (t : Inner W X) : Inner W X := { t with s := t.s.pre l }

theorem innerStep_pre (u : User W X G E) (p : Params W X G E) (inner : Nat) (x0 : X) (full : G) (step : E) (l : List Ev)
    (t : Inner W X) : innerStep u p inner x0 full step (t.pre l) =
      (innerStep u p inner x0 full step t).map (Inner.pre l) (Inner.pre l) := by
  have hw : wrap u p.shuffle (t.pre l) = (wrap u p.shuffle t).pre l := by
    unfold wrap
    by_cases h0 : t.cur % u.n = 0
    · rw [if_pos h0, if_pos (show (t.pre l).cur % u.n = 0 from h0)]
      cases p.shuffle <;> rfl
    · rw [if_neg h0, if_neg (show ¬(t.pre l).cur % u.n = 0 from h0)]
  unfold innerStep
  rw [hw]
  simp only [show (t.pre l).f = t.f from rfl]
  split
  · generalize wrap u p.shuffle t = t
    simp only [Inner.pre, gradAt_pre]
    rw [show ((gradAt u (gradAt u t.s t.x (t.cur, min p.batchSize (u.n - t.cur))).1 x0 (t.cur, min p.batchSize (u.n - t.cur))).1.pre
      l).term = (gradAt u (gradAt u t.s t.x (t.cur, min p.batchSize (u.n - t.cur))).1 x0
        (t.cur, min p.batchSize (u.n - t.cur))).1.term from rfl]
    split
    · rfl
    · generalize gradAt u (gradAt u t.s t.x (t.cur, min p.batchSize (u.n - t.cur))).1 x0 (t.cur, min p.batchSize (u.n - t.cur)) = g0
      generalize gradAt u t.s t.x (t.cur, min p.batchSize (u.n - t.cur)) = g
      have e := fun w => stepAt_pre u l ({ g0.1 with w := w } : S W)
      simp only [S.pre] at e
      simp only [S.pre, e, Sum.map, Function.comp]
      rfl
  · rfl

theorem inner_pre (u : User W X G E) (p : Params W X G E) (inner : Nat) (x0 : X) (full : G) (step : E) (l : List Ev) (f : Nat)
    (t : Inner W X) : iterate (innerStep u p inner x0 full step) f (t.pre l) =
      (iterate (innerStep u p inner x0 full step) f t).map (Inner.pre l) := by
  induction f generalizing t with
  | zero => rfl
  | succ f ih =>
    rw [iterate, iterate, innerStep_pre]
    cases innerStep u p inner x0 full step t with
    | inl t' => exact ih t'
    | inr r => rfl

/-- `p` with another limit (`MaxIterations()`, svrg.hpp). -/
def Params.limit (p : Params W X G E) (m : Nat) : Params W X G E := { p with maxIterations := m }

theorem lim_iff (p : Params W X G E) (m i : Nat) : limitReached (p.limit m) i = true ↔ m ≠ 0 ∧ m ≤ i := by
  show (decide (m ≠ 0) && decide (m ≤ i)) = true ↔ _
  simp

theorem lim_false (p : Params W X G E) (m i : Nat) : limitReached (p.limit m) i = false ↔ ¬(m ≠ 0 ∧ m ≤ i) := by
  rw [← lim_iff p m i, Bool.not_eq_true]

/-- Tolerance 0 and callbacks that do nothing at the boundaries of a call. -/
structure Splittable (u : User W X G E) : Prop where
  cbBegin : ∀ w x, u.cbBegin w x = (w, x)
  cbEnd : ∀ w x, u.cbEnd w x = (w, x)
  near : ∀ a b, u.near a b = false

/-- `s` is `t`, `c` epochs and the events `l` later; the objective is the same once one was computed. -/
structure Alike (l : List Ev) (c : Nat) (t s : St W X E) : Prop where
  state : s.s = t.s.pre l
  x : s.x = t.x
  step : s.step = t.step
  i : s.i = t.i + c
  overall : t.i = 0 ∧ t.s.term = false ∨ s.overall = t.overall

/-- Results alike. -/
inductive Same (l : List Ev) (c : Nat) : Res W X E → Res W X E → Prop where
  | ret (e t s) : Alike l c t s → s.overall = t.overall → Same l c (.ret e t) (.ret e s)
  | stuck : Same l c .stuck .stuck

theorem body_alike {u : User W X G E} (hs : Splittable u) (p : Params W X G E) {l : List Ev} {b c : Nat} (hb : 0 < b)
    {t s : St W X E} (h : Alike l c t s) :
    (∀ t', body u (p.limit b) t = .inl t' → ∃ s', body u (p.limit (c + b)) s = .inl s' ∧ Alike l c t' s') ∧
      ∀ r, body u (p.limit b) t = .inr r → ∃ r', body u (p.limit (c + b)) s = .inr r' ∧ Same l c r r' := by
  obtain ⟨ts, tx, tstep, tlast, tov, ti⟩ := t
  obtain ⟨ss, sx, sstep, slast, sov, si⟩ := s
  obtain ⟨h1, h2, h3, h4, h5⟩ := h
  dsimp only at h1 h2 h3 h4 h5
  subst h1 h2 h3 h4
  have hlim : limitReached (p.limit (c + b)) (ti + c) = limitReached (p.limit b) ti := by
    rw [Bool.eq_iff_iff, lim_iff, lim_iff]
    omega
  have heff : effInner u (p.limit (c + b)) = effInner u (p.limit b) := rfl
  have hin : ∀ n x0 full st, innerStep u (p.limit (c + b)) n x0 full st = innerStep u (p.limit b) n x0 full st := fun _ _ _ _ => rfl
  unfold body
  simp only [hlim, heff, hin, hs.near, Bool.false_eq_true, if_false, evalAll_pre]
  simp only [show (p.limit (c + b)).batchSize = p.batchSize from rfl, show (p.limit b).batchSize = p.batchSize from rfl,
    show (p.limit (c + b)).decay = p.decay from rfl, show (p.limit b).decay = p.decay from rfl]
  have ht : (ts.pre l).term = ts.term := rfl
  rw [ht]
  by_cases hc : limitReached (p.limit b) ti = true ∨ ts.term = true
  · rw [if_pos hc, if_pos hc]
    refine ⟨fun t' h => (by cases h), fun r h => ?_⟩
    cases h
    refine ⟨_, rfl, .ret _ _ _ ⟨rfl, rfl, rfl, rfl, h5⟩ ?_⟩
    rcases h5 with ⟨h6, h7⟩ | h5
    · rcases hc with hc | hc
      · rw [lim_iff] at hc
        omega
      · rw [h7] at hc; cases hc
    · exact h5
  rw [if_neg hc, if_neg hc]
  generalize evalAll u p.batchSize ts sx = o
  rw [show (o.1.pre l).term = o.1.term from rfl]
  by_cases h6 : o.1.term = true
  · rw [if_pos h6, if_pos h6]
    refine ⟨fun t' h => (by cases h), fun r h => ?_⟩
    cases h
    exact ⟨_, rfl, .ret _ _ _ ⟨rfl, rfl, rfl, rfl, .inr rfl⟩ rfl⟩
  rw [if_neg h6, if_neg h6]
  by_cases h7 : u.isBad o.2 = true
  · rw [if_pos h7, if_pos h7]
    refine ⟨fun t' h => (by cases h), fun r h => ?_⟩
    cases h
    exact ⟨_, rfl, .ret _ _ _ ⟨rfl, rfl, rfl, rfl, .inr rfl⟩ rfl⟩
  rw [if_neg h7, if_neg h7, fullGrad_pre]
  cases fullGrad u (gradAt u) p.batchSize o.1 sx sx with
  | none =>
    refine ⟨fun t' h => (by cases h), fun r h => ?_⟩
    cases h
    exact ⟨_, rfl, .stuck⟩
  | some g =>
    simp only [Option.map_some]
    rw [show (g.1.pre l).term = g.1.term from rfl]
    by_cases h8 : g.1.term = true
    · rw [if_pos h8, if_pos h8]
      refine ⟨fun t' h => (by cases h), fun r h => ?_⟩
      cases h
      exact ⟨_, rfl, .ret _ _ _ ⟨rfl, rfl, rfl, rfl, .inr rfl⟩ rfl⟩
    rw [if_neg h8, if_neg h8]
    have hi := inner_pre u (p.limit b) (effInner u (p.limit b)) sx g.2 sstep l (effInner u (p.limit b) + 1) ⟨g.1, sx, 0, 0⟩
    rw [show (⟨g.1.pre l, sx, 0, 0⟩ : Inner W X) = (⟨g.1, sx, 0, 0⟩ : Inner W X).pre l from rfl, hi]
    cases iterate (innerStep u (p.limit b) (effInner u (p.limit b)) sx g.2 sstep) (effInner u (p.limit b) + 1) ⟨g.1, sx, 0, 0⟩ with
    | none =>
      refine ⟨fun t' h => (by cases h), fun r h => ?_⟩
      cases h
      exact ⟨_, rfl, .stuck⟩
    | some r =>
      simp only [Option.map_some]
      refine ⟨fun t' h => ?_, fun r h => by cases h⟩
      cases h
      refine ⟨_, rfl, rfl, rfl, rfl, ?_, .inr rfl⟩
      show ti + c + 1 = ti + 1 + c
      omega

/-- **C325** SVRG in instalments: if a call of `a` epochs runs to its limit, a second call of `b` epochs from where it ended
does what the rest of one call of `a + b` epochs does: it ends for the same reason at the same coordinates, with the same
returned value, step size and state of the function, the decay policy and the callbacks, and the events of the two calls together
are those of the one. For every function, decay policy, batch size, epoch length and callback on evaluations, gradients and steps.
Tolerance 0, callbacks that do nothing at the boundaries of calls, `exactObjective = false`. -/
theorem C325_svrg {u : User W X G E} (hs : Splittable u) (p : Params W X G E) (hex : p.exact = false) {a b : Nat} (ha : 0 < a)
    (hb : 0 < b) {step : E} {f₁ f₂ : Nat} {w : W} {x : X} {t₁ t₂ : St W X E} {e : Exit}
    (h₁ : optimize u (p.limit a) step f₁ w x = some (.ret .loop t₁)) (ht : t₁.s.term = false)
    (h₂ : optimize u (p.limit b) t₁.step f₂ t₁.s.w t₁.x = some (.ret e t₂)) :
    ∃ f t, optimize u (p.limit (a + b)) step f w x = some (.ret e t) ∧ t.x = t₂.x ∧ t.overall = t₂.overall ∧ t.step = t₂.step ∧
      t.s.w = t₂.s.w ∧ t.s.trace = t₁.s.trace ++ t₂.s.trace ∧ t.i = a + t₂.i := by
  have hfin : ∀ m e (t : St W X E), finish u (p.limit m) e t = t := by
    intro m e t
    simp [finish, Params.limit, hex, hs.cbEnd]
  unfold optimize at h₁ h₂ ⊢
  simp only [hs.cbBegin] at h₁ h₂ ⊢
  rw [Option.map_eq_some_iff] at h₁ h₂
  obtain ⟨r₁, k₁, m₁⟩ := h₁
  obtain ⟨r₂, k₂, m₂⟩ := h₂
  cases r₁ with
  | stuck => cases m₁
  | ret e₁ t₁' =>
  cases r₂ with
  | stuck => cases m₂
  | ret e₂ t₂' =>
  simp only [hfin, Res.ret.injEq] at m₁ m₂
  obtain ⟨rfl, rfl⟩ := m₁
  obtain ⟨rfl, rfl⟩ := m₂
  have hpre : ∀ s s' : St W X E, s.i ≤ a → body u (p.limit a) s = .inl s' → s'.i ≤ a ∧ body u (p.limit (a + b)) s = .inl s' := by
    intro s s' hi h
    have hl : limitReached (p.limit a) s.i = false := by
      by_contra hc
      unfold body at h
      rw [if_pos (.inl (by simpa using hc))] at h
      cases h
    have hlt : s.i < a := by
      rw [lim_false] at hl
      omega
    have hl' : limitReached (p.limit (a + b)) s.i = false := by
      rw [lim_false]
      omega
    refine ⟨?_, ?_⟩
    · unfold body at h
      rw [hl] at h
      dsimp only at h
      split at h
      · cases h
      split at h
      · cases h
      split at h
      · cases h
      split at h
      · cases h
      split at h
      · cases h
      split at h
      · cases h
      split at h
      · cases h
      · cases h
        exact hlt
    · rw [← h]
      unfold body
      rw [hl, hl']
      rfl
  obtain ⟨k, s₁, hk, hi, hret, hgo⟩ := iterate_prefix (fun s : St W X E => s.i ≤ a) hpre f₁ _ _ (Nat.zero_le _) k₁
  have hex₁ : t₁' = s₁ ∧ s₁.i = a := by
    unfold body at hret
    by_cases hc : limitReached (p.limit a) s₁.i = true ∨ s₁.s.term = true
    · rw [if_pos hc] at hret
      cases hret
      refine ⟨rfl, ?_⟩
      rcases hc with hc | hc
      · rw [lim_iff] at hc
        omega
      · rw [ht] at hc; cases hc
    · rw [if_neg hc] at hret
      dsimp only at hret
      split at hret
      · rename_i h6; cases hret; rw [h6] at ht; cases ht
      split at hret
      · cases hret
      split at hret
      · cases hret
      split at hret
      · cases hret
      split at hret
      · rename_i h6; cases hret; rw [h6] at ht; cases ht
      split at hret
      · cases hret
      · cases hret
  obtain ⟨rfl, hia⟩ := hex₁
  obtain ⟨r', hr', hsame⟩ := iterate_sim (Alike t₁'.s.trace a) (Same t₁'.s.trace a)
    (fun t s t' h h' => (body_alike hs p hb h).1 t' h') (fun t s r h h' => (body_alike hs p hb h).2 r h') f₂
    ⟨⟨t₁'.s.w, false, []⟩, t₁'.x, t₁'.step, u.dblMax, u.zero, 0⟩ t₁' _
    ⟨by simp [S.pre, ← ht], rfl, rfl, by simp [hia], .inl ⟨rfl, rfl⟩⟩ k₂
  cases hsame with
  | ret e t s hal hov =>
    refine ⟨k + f₂, s, ?_, hal.x, hov, hal.step, by rw [hal.state]; rfl, by rw [hal.state]; rfl, by rw [hal.i]; omega⟩
    rw [hgo, hr']
    simp [hfin]

/-! ### A concrete case of the hypotheses -/

/-- Two functions with gradients `x` and `3 x`, integer arithmetic; the world counts the shuffles. -/
def two : User Nat Int Int Int where
  n := 2
  evaluate w x first size := (w, x * x * (first + size))
  gradient w x first _ := (w, (1 + 2 * first) * x)
  shuffle w := w + 1
  cbBegin w x := (w, x)
  cbEval w _ _ := (w, false)
  cbGrad w _ g := (w, g, false)
  cbStep w x := (w, x, false)
  cbEnd w x := (w, x)
  addE := (· + ·)
  zero := 0
  isBad _ := false
  near _ _ := false
  dblMax := 1000000
  addG := (· + ·)
  divG g n := g / n

/-- SVRG with a decay that lowers the step size. -/
def twoParams : Params Nat Int Int Int :=
  ⟨1, 7, 0, true, false, fun w x full g g0 _ a => (w, x - a * (full + (g - g0))), fun w _ _ _ _ _ a => (w + 10, a - 1)⟩

example : Splittable two ∧ twoParams.exact = false :=
  ⟨⟨fun _ _ => rfl, fun _ _ => rfl, fun _ _ => rfl⟩, rfl⟩

/-- Two epochs, then one: the first call leaves the coordinates 731 and the step size 1, the second the coordinates 2193. -/
example : ∃ t₁ t₂ e, optimize two (twoParams.limit 2) 3 5 0 1 = some (.ret .loop t₁) ∧ t₁.s.term = false ∧ t₁.x ≠ 1 ∧ t₁.step = 1 ∧
    optimize two (twoParams.limit 1) t₁.step 5 t₁.s.w t₁.x = some (.ret e t₂) ∧ t₂.x ≠ t₁.x :=
  ⟨_, _, _, rfl, rfl, by decide, rfl, rfl, by decide⟩

end Svrg

end Ens.Vr
