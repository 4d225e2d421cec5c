import Verif.Vr.Sarah
import Verif.Vr.SvrgResume

/-
C325 for SARAH (sarah_impl.hpp:44-243): two calls of `a` and `b` epochs against one call of `a + b`. Neither update policy
(sarah_update.hpp, sarah_plus_update.hpp) keeps anything between epochs.
-/

namespace Ens.Vr

variable {W X G E : Type}

theorem gradQuiet_pre (u : User W X G E) (l : List Ev) (s : S W) (x : X) (p : Nat × Nat) :
    gradQuiet u (s.pre l) x p = ((gradQuiet u s x p).1.pre l, (gradQuiet u s x p).2) := by
  simp only [gradQuiet, note_pre]
  rfl

theorem fullGradQuiet_pre (u : User W X G E) (b : Nat) (l : List Ev) (s : S W) (x : X) :
    fullGrad u (gradQuiet u) b (s.pre l) x x = (fullGrad u (gradQuiet u) b s x x).map fun g => (g.1.pre l, g.2) := by
  unfold fullGrad
  cases batchList u.n b with
  | nil => rfl
  | cons p ps =>
    simp only [Option.map_some]
    rw [gradAt_pre]
    have := foldl_pre l (fun a p => ((gradQuiet u a.1 x p).1, u.addG a.2 (gradQuiet u a.1 x p).2))
      (fun a p => by simp only [gradQuiet_pre]) ps (gradAt u s x p)
    rw [this]

namespace Sarah

def Inner.pre (l : List Ev) (t : Inner W X G) : Inner W X G := { t with s := t.s.pre l }

theorem twoGrads_pre (u : User W X G E) (l : List Ev) (t : Inner W X G) (q : Nat × Nat) :
    twoGrads u (t.pre l) q = ((twoGrads u t q).1.pre l, (twoGrads u t q).2) := by
  unfold twoGrads
  simp only [Inner.pre, gradAt_pre]
  split <;> rfl

theorem innerStep_pre (u : User W X G E) (p : Params X G E) (inner : Nat) (vNorm : E) (l : List Ev)
    (t : Inner W X G) : innerStep u p inner vNorm (t.pre l) =
      (innerStep u p inner vNorm t).map (Inner.pre l) (Inner.pre l) := by
  have hw : wrap u p.shuffle (t.pre l) = (wrap u p.shuffle t).pre l := by
    unfold wrap
    by_cases h0 : t.cur % u.n = 0
    · rw [if_pos h0, if_pos (show (t.pre l).cur % u.n = 0 from h0)]
      cases p.shuffle <;> rfl
    · rw [if_neg h0, if_neg (show ¬(t.pre l).cur % u.n = 0 from h0)]
  unfold innerStep
  rw [hw]
  simp only [show (t.pre l).f = t.f from rfl]
  split
  · generalize wrap u p.shuffle t = t
    simp only [show (t.pre l).cur = t.cur from rfl, twoGrads_pre]
    generalize twoGrads u t (t.cur, min p.batchSize (u.n - t.cur)) = g
    rw [show (g.1.pre l).term = g.1.term from rfl]
    split
    · rfl
    · simp only [show (t.pre l).x = t.x from rfl, show (t.pre l).v = t.v from rfl]
      split
      · simp only [note_pre]
        rfl
      · simp only [stepAt_pre]
        rfl
  · rfl

theorem inner_pre (u : User W X G E) (p : Params X G E) (inner : Nat) (vNorm : E) (l : List Ev) (f : Nat)
    (t : Inner W X G) : iterate (innerStep u p inner vNorm) f (t.pre l) =
      (iterate (innerStep u p inner vNorm) f t).map (Inner.pre l) := by
  induction f generalizing t with
  | zero => rfl
  | succ f ih =>
    rw [iterate, iterate, innerStep_pre]
    cases innerStep u p inner vNorm t with
    | inl t' => exact ih t'
    | inr r => rfl

/-- `p` with another limit (`MaxIterations()`, sarah.hpp). -/
def Params.limit (p : Params X G E) (m : Nat) : Params X G E := { p with maxIterations := m }

theorem lim_iff (p : Params X G E) (m i : Nat) : limitReached (p.limit m) i = true ↔ m ≠ 0 ∧ m ≤ i := by
  show (decide (m ≠ 0) && decide (m ≤ i)) = true ↔ _
  simp

theorem lim_false (p : Params X G E) (m i : Nat) : limitReached (p.limit m) i = false ↔ ¬(m ≠ 0 ∧ m ≤ i) := by
  rw [← lim_iff p m i, Bool.not_eq_true]

/-- Tolerance 0 and callbacks that do nothing at the boundaries of a call. -/
structure Splittable (u : User W X G E) : Prop where
  cbBegin : ∀ w x, u.cbBegin w x = (w, x)
  cbEnd : ∀ w x, u.cbEnd w x = (w, x)
  near : ∀ a b, u.near a b = false

/-- `s` is `t`, `c` epochs and the events `l` later; the objective is the same once one was computed. -/
structure Alike (l : List Ev) (c : Nat) (t s : St W X E) : Prop where
  state : s.s = t.s.pre l
  x : s.x = t.x
  i : s.i = t.i + c
  overall : t.i = 0 ∧ t.s.term = false ∨ s.overall = t.overall

/-- Results alike. -/
inductive Same (l : List Ev) (c : Nat) : Res W X E → Res W X E → Prop where
  | ret (e t s) : Alike l c t s → s.overall = t.overall → Same l c (.ret e t) (.ret e s)
  | stuck : Same l c .stuck .stuck

theorem body_alike {u : User W X G E} (hs : Splittable u) (p : Params X G E) {l : List Ev} {b c : Nat} (hb : 0 < b)
    {t s : St W X E} (h : Alike l c t s) :
    (∀ t', body u (p.limit b) t = .inl t' → ∃ s', body u (p.limit (c + b)) s = .inl s' ∧ Alike l c t' s') ∧
      ∀ r, body u (p.limit b) t = .inr r → ∃ r', body u (p.limit (c + b)) s = .inr r' ∧ Same l c r r' := by
  obtain ⟨ts, tx, tlast, tov, ti⟩ := t
  obtain ⟨ss, sx, slast, sov, si⟩ := s
  obtain ⟨h1, h2, h4, h5⟩ := h
  dsimp only at h1 h2 h4 h5
  subst h1 h2 h4
  have hlim : limitReached (p.limit (c + b)) (ti + c) = limitReached (p.limit b) ti := by
    rw [Bool.eq_iff_iff, lim_iff, lim_iff]
    omega
  have heff : effInner u (p.limit (c + b)) = effInner u (p.limit b) := rfl
  have hin : ∀ n v, innerStep u (p.limit (c + b)) n v = innerStep u (p.limit b) n v := fun _ _ => rfl
  unfold body
  simp only [hlim, heff, hin, hs.near, Bool.false_eq_true, if_false, evalAll_pre]
  simp only [show (p.limit (c + b)).batchSize = p.batchSize from rfl, show (p.limit b).batchSize = p.batchSize from rfl,
    show (p.limit (c + b)).move = p.move from rfl, show (p.limit b).move = p.move from rfl,
    show (p.limit (c + b)).norm = p.norm from rfl, show (p.limit b).norm = p.norm from rfl]
  have ht : (ts.pre l).term = ts.term := rfl
  rw [ht]
  by_cases hc : limitReached (p.limit b) ti = true ∨ ts.term = true
  · rw [if_pos hc, if_pos hc]
    refine ⟨fun t' h => (by cases h), fun r h => ?_⟩
    cases h
    refine ⟨_, rfl, .ret _ _ _ ⟨rfl, rfl, rfl, h5⟩ ?_⟩
    rcases h5 with ⟨h6, h7⟩ | h5
    · rcases hc with hc | hc
      · rw [lim_iff] at hc
        omega
      · rw [h7] at hc; cases hc
    · exact h5
  rw [if_neg hc, if_neg hc]
  generalize evalAll u p.batchSize ts sx = o
  by_cases h7 : u.isBad o.2 = true
  · rw [if_pos h7, if_pos h7]
    refine ⟨fun t' h => (by cases h), fun r h => ?_⟩
    cases h
    exact ⟨_, rfl, .ret _ _ _ ⟨rfl, rfl, rfl, .inr rfl⟩ rfl⟩
  rw [if_neg h7, if_neg h7, fullGradQuiet_pre]
  cases fullGrad u (gradQuiet u) p.batchSize o.1 sx sx with
  | none =>
    refine ⟨fun t' h => (by cases h), fun r h => ?_⟩
    cases h
    exact ⟨_, rfl, .stuck⟩
  | some g =>
    simp only [Option.map_some]
    rw [show (g.1.pre l).term = g.1.term from rfl]
    by_cases h8 : g.1.term = true
    · rw [if_pos h8, if_pos h8]
      refine ⟨fun t' h => (by cases h), fun r h => ?_⟩
      cases h
      exact ⟨_, rfl, .ret _ _ _ ⟨rfl, rfl, rfl, .inr rfl⟩ rfl⟩
    rw [if_neg h8, if_neg h8]
    have hi := inner_pre u (p.limit b) (effInner u (p.limit b)) (p.norm g.2) l (effInner u (p.limit b) + 1)
      ⟨g.1.note g.1.w .step false, p.move sx g.2, p.move sx g.2, g.2, 0, 0⟩
    rw [show (g.1.pre l).w = g.1.w from rfl, note_pre, show (⟨(g.1.note g.1.w .step false).pre l, p.move sx g.2, p.move sx g.2, g.2, 0,
      0⟩ : Inner W X G) = (⟨g.1.note g.1.w .step false, p.move sx g.2, p.move sx g.2, g.2, 0, 0⟩ : Inner W X G).pre l from rfl, hi]
    cases iterate (innerStep u (p.limit b) (effInner u (p.limit b)) (p.norm g.2)) (effInner u (p.limit b) + 1)
      ⟨g.1.note g.1.w .step false, p.move sx g.2, p.move sx g.2, g.2, 0, 0⟩ with
    | none =>
      refine ⟨fun t' h => (by cases h), fun r h => ?_⟩
      cases h
      exact ⟨_, rfl, .stuck⟩
    | some r =>
      simp only [Option.map_some]
      refine ⟨fun t' h => ?_, fun r h => by cases h⟩
      cases h
      refine ⟨_, rfl, rfl, rfl, ?_, .inr rfl⟩
      show ti + c + 1 = ti + 1 + c
      omega

/-- **C325** SARAH in instalments: if a call of `a` epochs runs to its limit, a second call of `b` epochs from where it ended does
what the rest of one call of `a + b` epochs does: same reason of the return, coordinates, returned value, state of the function and of the
callbacks, and the events of the two calls together are those of the one. Tolerance 0, callbacks that do nothing at the boundaries of
calls, `exactObjective = false`. -/
theorem C325_sarah {u : User W X G E} (hs : Splittable u) (p : Params X G E) (hex : p.exact = false) {a b : Nat} (ha : 0 < a)
    (hb : 0 < b) {f₁ f₂ : Nat} {w : W} {x : X} {t₁ t₂ : St W X E} {e : Exit}
    (h₁ : optimize u (p.limit a) f₁ w x = some (.ret .loop t₁)) (ht : t₁.s.term = false)
    (h₂ : optimize u (p.limit b) f₂ t₁.s.w t₁.x = some (.ret e t₂)) :
    ∃ f t, optimize u (p.limit (a + b)) f w x = some (.ret e t) ∧ t.x = t₂.x ∧ t.overall = t₂.overall ∧ 
      t.s.w = t₂.s.w ∧ t.s.trace = t₁.s.trace ++ t₂.s.trace ∧ t.i = a + t₂.i := by
  have hfin : ∀ m e (t : St W X E), finish u (p.limit m) e t = t := by
    intro m e t
    simp [finish, Params.limit, hex, hs.cbEnd]
  unfold optimize at h₁ h₂ ⊢
  simp only [hs.cbBegin] at h₁ h₂ ⊢
  rw [Option.map_eq_some_iff] at h₁ h₂
  obtain ⟨r₁, k₁, m₁⟩ := h₁
  obtain ⟨r₂, k₂, m₂⟩ := h₂
  cases r₁ with
  | stuck => cases m₁
  | ret e₁ t₁' =>
  cases r₂ with
  | stuck => cases m₂
  | ret e₂ t₂' =>
  simp only [hfin, Res.ret.injEq] at m₁ m₂
  obtain ⟨rfl, rfl⟩ := m₁
  obtain ⟨rfl, rfl⟩ := m₂
  have hpre : ∀ s s' : St W X E, s.i ≤ a → body u (p.limit a) s = .inl s' → s'.i ≤ a ∧ body u (p.limit (a + b)) s = .inl s' := by
    intro s s' hi h
    have hl : limitReached (p.limit a) s.i = false := by
      by_contra hc
      unfold body at h
      rw [if_pos (.inl (by simpa using hc))] at h
      cases h
    have hlt : s.i < a := by
      rw [lim_false] at hl
      omega
    have hl' : limitReached (p.limit (a + b)) s.i = false := by
      rw [lim_false]
      omega
    refine ⟨?_, ?_⟩
    · unfold body at h
      rw [hl] at h
      dsimp only at h
      split at h
      · cases h
      split at h
      · cases h
      split at h
      · cases h
      split at h
      · cases h
      split at h
      · cases h
      split at h
      · cases h
      · cases h
        exact hlt
    · rw [← h]
      unfold body
      rw [hl, hl']
      rfl
  obtain ⟨k, s₁, hk, hi, hret, hgo⟩ := iterate_prefix (fun s : St W X E => s.i ≤ a) hpre f₁ _ _ (Nat.zero_le _) k₁
  have hex₁ : t₁' = s₁ ∧ s₁.i = a := by
    unfold body at hret
    by_cases hc : limitReached (p.limit a) s₁.i = true ∨ s₁.s.term = true
    · rw [if_pos hc] at hret
      cases hret
      refine ⟨rfl, ?_⟩
      rcases hc with hc | hc
      · rw [lim_iff] at hc
        omega
      · rw [ht] at hc; cases hc
    · rw [if_neg hc] at hret
      dsimp only at hret
      split at hret
      · cases hret
      split at hret
      · cases hret
      split at hret
      · cases hret
      split at hret
      · rename_i h6; cases hret; rw [h6] at ht; cases ht
      split at hret
      · cases hret
      · cases hret
  obtain ⟨rfl, hia⟩ := hex₁
  obtain ⟨r', hr', hsame⟩ := iterate_sim (Alike t₁'.s.trace a) (Same t₁'.s.trace a)
    (fun t s t' h h' => (body_alike hs p hb h).1 t' h') (fun t s r h h' => (body_alike hs p hb h).2 r h') f₂
    ⟨⟨t₁'.s.w, false, []⟩, t₁'.x, u.dblMax, u.zero, 0⟩ t₁' _
    ⟨by simp [S.pre, ← ht], rfl, by simp [hia], .inl ⟨rfl, rfl⟩⟩ k₂
  cases hsame with
  | ret e t s hal hov =>
    refine ⟨k + f₂, s, ?_, hal.x, hov, by rw [hal.state]; rfl, by rw [hal.state]; rfl, by rw [hal.i]; omega⟩
    rw [hgo, hr']
    simp [hfin]

/-! ### A concrete case of the hypotheses -/

/-- SARAH with step size 3 in integer arithmetic. -/
def twoParams : Params Int Int Int :=
  ⟨1, 7, 0, true, false, fun x g => x - 3 * g, fun g => g * g, fun x v g g0 _ _ => (x - 3 * (v + (g - g0)), v + (g - g0), false)⟩

example : Splittable Svrg.two ∧ twoParams.exact = false :=
  ⟨⟨fun _ _ => rfl, fun _ _ => rfl, fun _ _ => rfl⟩, rfl⟩

example : ∃ t₁ t₂ e, optimize Svrg.two (twoParams.limit 2) 5 0 1 = some (.ret .loop t₁) ∧ t₁.s.term = false ∧ t₁.x ≠ 1 ∧
    optimize Svrg.two (twoParams.limit 1) 5 t₁.s.w t₁.x = some (.ret e t₂) ∧ t₂.x ≠ t₁.x :=
  ⟨_, _, _, rfl, rfl, by decide, rfl, by decide⟩

end Sarah

end Ens.Vr
