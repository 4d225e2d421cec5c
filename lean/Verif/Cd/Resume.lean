import Verif.Resume
import Verif.Cd.Props

/-
C317 for coordinate descent: optimizing in two calls against optimizing in one.
-/

namespace Ens.Cd

variable {W C E : Type}

/-- Tolerance 0; callbacks that do nothing at the boundaries of a call; a gradient callback that does not look at the
objective it is told; evaluating (with its notification) leaves the world as it is. -/
structure Splittable (env : Env W C E) : Prop where
  cbBegin : ∀ w x, env.cbBegin w x = (w, x)
  cbEnd : ∀ w x, env.cbEnd w x = (w, x)
  cbGradient : ∀ w x o o' g, env.cbGradient w x o g = env.cbGradient w x o' g
  evaluate : ∀ w x, (env.cbEvaluate (env.evaluate w x).1 x (env.evaluate w x).2).1 = w
  isClose : ∀ a b, env.isClose a b = false

/-- Same run, `a` iterations apart. -/
structure Alike (a : Nat) (t s : St W C E) : Prop where
  w : t.w = s.w
  x : t.x = s.x
  i : t.i + a = s.i
  terminate : t.terminate = s.terminate

/-- The two outcomes are the same up to the events. -/
def Same : Outcome W C E → Outcome W C E → Prop
  | .returned r, .returned r' => r.exit = r'.exit ∧ r.obj = r'.obj ∧ r.x = r'.x ∧ r.w = r'.w
  | .outOfBounds, .outOfBounds => True
  | .divByZero, .divByZero => True
  | _, _ => False

theorem finish_same {env : Env W C E} {t s : St W C E} (e : Exit) (o : E) (hw : t.w = s.w) (hx : t.x = s.x) :
    Same (finish env e o t) (finish env e o s) := by
  simp [finish, Same, hw, hx]

theorem afterLoop_same {env : Env W C E} {t s : St W C E} (hw : t.w = s.w) (hx : t.x = s.x) :
    Same (afterLoop env t) (afterLoop env s) := by
  simp [afterLoop, finish, Same, hw, hx]

/-- A pass that goes on counts one iteration and records every stop request. -/
theorem step_inl {env : Env W C E} {m u : Nat} {s s' : St W C E} (h : step env m u s = .inl s')
    (ht : s.terminate = anyStop s.trace) (hm : m < 2 ^ 64) (hi : s.i ≤ m) :
    s.i < m ∧ s'.i = s.i + 1 ∧ s'.terminate = anyStop s'.trace := by
  unfold step at h
  by_cases hc : s.i = m ∨ s.terminate = true
  · rw [if_pos hc] at h; cases h
  · rw [if_neg hc] at h
    have hlt : s.i < m := by omega
    have hmod : (s.i + 1) % 2 ^ 64 = s.i + 1 := Nat.mod_eq_of_lt (by omega)
    simp only at h
    split at h
    · cases h
    · split at h
      · split at h
        · cases h
        · split at h
          · split at h
            · cases h
            · split at h
              · cases h
              · cases h
                refine ⟨hlt, by simp only [evalPart, movePart, gradPart]; exact hmod, ?_⟩
                simp [evalPart, movePart, gradPart, anyStop, Ev.stops, ht, Bool.or_assoc]
          · cases h
            refine ⟨hlt, by simp only [movePart, gradPart]; exact hmod, ?_⟩
            simp [movePart, gradPart, anyStop, Ev.stops, ht, Bool.or_assoc]
      · cases h

/-- The limit matters only when it is reached. -/
theorem step_limit {env : Env W C E} {m m' u : Nat} {s : St W C E} (h : s.i = m ↔ s.i = m') :
    step env m u s = step env m' u s := by
  unfold step
  simp only [h]

/-- Two passes `a` iterations apart. -/
theorem step_alike {env : Env W C E} (hs : Splittable env) {a b u : Nat} (hu : u ∣ a)
    (hpol : ∀ w i x, env.feature w (i + a) x = env.feature w i x) (hlim : a + b + 1 < 2 ^ 64) {t s : St W C E}
    (h : Alike a t s) (hi : t.i ≤ b + 1) :
    (∀ t', step env (b + 1) u t = .inl t' → ∃ s', step env (a + b + 1) u s = .inl s' ∧ t'.i ≤ b + 1 ∧ Alike a t' s') ∧
    (∀ r, step env (b + 1) u t = .inr r → ∃ r', step env (a + b + 1) u s = .inr r' ∧ Same r r') := by
  unfold step
  by_cases hc : t.i = b + 1 ∨ t.terminate = true
  · rw [if_pos hc, if_pos (show s.i = a + b + 1 ∨ s.terminate = true from
      hc.imp (fun k => by have := h.i; omega) (fun k => h.terminate ▸ k))]
    refine ⟨fun _ k => (by cases k), fun r k => ?_⟩
    cases k
    exact ⟨_, rfl, afterLoop_same h.w h.x⟩
  · rw [if_neg hc, if_neg (show ¬ (s.i = a + b + 1 ∨ s.terminate = true) from
      fun hh => hc (hh.imp (fun k => by have := h.i; omega) (fun k => h.terminate.trans k)))]
    have hg : (gradPart env t).1.w = (gradPart env s).1.w ∧ (gradPart env t).1.x = (gradPart env s).1.x ∧
        (gradPart env t).1.terminate = (gradPart env s).1.terminate ∧ (gradPart env t).1.i = t.i ∧
        (gradPart env s).1.i = s.i ∧ (gradPart env t).2 = (gradPart env s).2 := by
      simp only [gradPart, ← h.w, ← h.x, ← h.i, ← h.terminate, hpol]
      rw [hs.cbGradient _ _ s.overall t.overall]
      simp
    obtain ⟨v1, v2, v3, v4, v5, v6⟩ := hg
    simp only
    generalize gradPart env t = p at *
    generalize gradPart env s = q at *
    rw [← v3, ← v2, ← v6]
    by_cases hp : p.1.terminate = true
    · rw [if_pos hp, if_pos hp]
      refine ⟨fun _ k => (by cases k), fun r k => ?_⟩
      cases k
      exact ⟨_, rfl, afterLoop_same v1 v2⟩
    · rw [if_neg hp, if_neg hp]
      have hmod : (t.i + 1) % 2 ^ 64 = t.i + 1 := Nat.mod_eq_of_lt (by omega)
      have hmod' : (s.i + 1) % 2 ^ 64 = s.i + 1 := Nat.mod_eq_of_lt (by have := h.i; omega)
      cases hx : p.1.x[p.2.1]? with
      | none =>
        refine ⟨fun _ k => (by cases k), fun r k => ?_⟩
        cases k
        exact ⟨_, rfl, trivial⟩
      | some xj =>
        cases hgj : p.2.2[p.2.1]? with
        | none =>
          refine ⟨fun _ k => (by cases k), fun r k => ?_⟩
          cases k
          exact ⟨_, rfl, trivial⟩
        | some gj =>
          simp only
          by_cases hu0 : u = 0
          · rw [if_pos hu0, if_pos hu0]
            refine ⟨fun _ k => (by cases k), fun r k => ?_⟩
            cases k
            exact ⟨_, rfl, trivial⟩
          · rw [if_neg hu0, if_neg hu0]
            have hmod2 : s.i % u = t.i % u := by
              obtain ⟨c, hc'⟩ := hu
              rw [← h.i, hc', Nat.add_mul_mod_self_left]
            rw [hmod2]
            have hmv : (movePart env p.1 p.2.1 p.2.2 xj gj).w = (movePart env q.1 p.2.1 p.2.2 xj gj).w ∧
                (movePart env p.1 p.2.1 p.2.2 xj gj).x = (movePart env q.1 p.2.1 p.2.2 xj gj).x ∧
                (movePart env p.1 p.2.1 p.2.2 xj gj).terminate = (movePart env q.1 p.2.1 p.2.2 xj gj).terminate ∧
                (movePart env p.1 p.2.1 p.2.2 xj gj).i = t.i ∧ (movePart env q.1 p.2.1 p.2.2 xj gj).i = s.i := by
              simp [movePart, v1, v2, v3, v4, v5]
            generalize movePart env p.1 p.2.1 p.2.2 xj gj = t2 at *
            generalize movePart env q.1 p.2.1 p.2.2 xj gj = s2 at *
            obtain ⟨m1, m2, m3, m4, m5⟩ := hmv
            by_cases hui : t.i % u = 0
            · rw [if_pos hui, if_pos hui]
              have hev : (evalPart env t2).w = (evalPart env s2).w ∧ (evalPart env t2).x = (evalPart env s2).x ∧
                  (evalPart env t2).terminate = (evalPart env s2).terminate ∧ (evalPart env t2).i = t.i ∧
                  (evalPart env s2).i = s.i ∧ (evalPart env t2).overall = (evalPart env s2).overall := by
                simp [evalPart, m1, m2, m3, m4, m5]
              generalize evalPart env t2 = t3 at *
              generalize evalPart env s2 = s3 at *
              obtain ⟨e1, e2, e3, e4, e5, e6⟩ := hev
              rw [hs.isClose, hs.isClose, ← e6]
              by_cases hbad : env.isBad t3.overall = true
              · rw [if_pos hbad, if_pos hbad]
                refine ⟨fun _ k => (by cases k), fun r k => ?_⟩
                cases k
                exact ⟨_, rfl, finish_same _ _ e1 e2⟩
              · rw [if_neg hbad, if_neg hbad, if_neg Bool.false_ne_true, if_neg Bool.false_ne_true]
                refine ⟨fun t' k => ?_, fun _ k => (by cases k)⟩
                cases k
                refine ⟨_, rfl, ?_, e1, e2, ?_, e3⟩
                · simp only [e4]; omega
                · simp only [e4, e5]; have := h.i; omega
            · rw [if_neg hui, if_neg hui]
              refine ⟨fun t' k => ?_, fun _ k => (by cases k)⟩
              cases k
              refine ⟨_, rfl, ?_, m1, m2, ?_, m3⟩
              · simp only [m4]; omega
              · simp only [m4, m5]; have := h.i; omega

/-- **C317** (coordinate descent) A call of `a` steps that runs to its limit without a stop request, followed by a call
with room for `b` steps on the coordinates it left, ends like one call with room for `a + b` steps (same way to end,
returned value, coordinates, world), when `a` is a multiple of `updateInterval` and the choice of the coordinate in
iteration `i + a` is that in iteration `i`: always for policies that do not look at the number (greedy, random), and
for `CyclicDescent` when `a` is a multiple of the number of features. -/
theorem C317_cd_partial {env : Env W C E} (hs : Splittable env) {a b u f₁ f₂ : Nat} (hu : u ∣ a)
    (hpol : ∀ w i x, env.feature w (i + a) x = env.feature w i x) (hlim : a + b + 1 < 2 ^ 64)
    {w : W} {x : List C} {r₁ : Result W C E} {o : Outcome W C E} (hb : 0 < b)
    (h₁ : optimize env (a + 1) u f₁ w x = some (.returned r₁)) (hexit : r₁.exit = .loop)
    (hstop : anyStop r₁.trace = false) (h₂ : optimize env (b + 1) u f₂ r₁.w r₁.x = some o) :
    ∃ o', optimize env (a + b + 1) u (f₁ + f₂) w x = some o' ∧ Same o o' := by
  unfold optimize at h₁ h₂ ⊢
  obtain ⟨k, s, hk, ⟨hi, ht⟩, hend, hrun⟩ := iterate_prefix (short := step env (a + 1) u) (long := step env (a + b + 1) u)
    (fun s => s.i ≤ a + 1 ∧ s.terminate = anyStop s.trace)
    (by
      intro s s' ⟨hi, ht⟩ hst
      obtain ⟨k1, k2, k3⟩ := step_inl hst ht (by omega) hi
      exact ⟨⟨by omega, k3⟩, by rw [← hst]; exact (step_limit (by omega)).symm⟩)
    f₁ (start env w x) _ (by simp [start, anyStop, Ev.stops]) h₁
  have hss : s.i = a + 1 ∧ s.terminate = false ∧ r₁.x = s.x ∧ r₁.w = s.w := by
    unfold step at hend
    by_cases hc : s.i = a + 1 ∨ s.terminate = true
    · rw [if_pos hc] at hend
      simp only [afterLoop, finish, Sum.inr.injEq, Outcome.returned.injEq] at hend
      subst hend
      have hf : s.terminate = false := by
        rw [ht]
        simp only [anyStop_append, Bool.or_eq_false_iff] at hstop
        exact hstop.1.1
      rw [hf] at hc
      refine ⟨by simpa using hc, hf, rfl, ?_⟩
      simp [hs.cbEnd, hs.evaluate]
    · rw [if_neg hc] at hend
      simp only at hend
      split at hend
      · rename_i hterm
        exfalso
        simp only [afterLoop, finish, Sum.inr.injEq, Outcome.returned.injEq] at hend
        subst hend
        have : (gradPart env s).1.terminate = anyStop (gradPart env s).1.trace := by
          simp [gradPart, anyStop, Ev.stops, ht]
        rw [this] at hterm
        simp only [anyStop_append, Bool.or_eq_false_iff, hterm] at hstop
        exact absurd hstop.1.1 (by simp)
      · split at hend
        · split at hend
          · cases hend
          · split at hend
            · split at hend
              · simp only [finish, Sum.inr.injEq, Outcome.returned.injEq] at hend
                subst hend
                cases hexit
              · split at hend
                · simp only [finish, Sum.inr.injEq, Outcome.returned.injEq] at hend
                  subst hend
                  cases hexit
                · cases hend
            · cases hend
        · cases hend
  obtain ⟨hsi, hterm, hx, hw⟩ := hss
  rw [hx, hw] at h₂
  obtain ⟨r', hr, hp⟩ := iterate_sim (one := step env (b + 1) u) (two := step env (a + b + 1) u)
    (fun t s' => t.i ≤ b + 1 ∧ Alike a t s') Same
    (fun t s' t' h hst => (step_alike hs hu hpol hlim h.2 h.1).1 t' hst)
    (fun t s' r h hst => (step_alike hs hu hpol hlim h.2 h.1).2 r hst) f₂ _ s _
    ⟨by simp [start], by
      refine ⟨?_, ?_, ?_, ?_⟩ <;> simp [start, hs.cbBegin, hsi, hterm]
      omega⟩ h₂
  refine ⟨r', ?_, hp⟩
  rw [show f₁ + f₂ = k + (f₂ + (f₁ - k)) by omega, hrun]
  exact iterate_mono _ _ _ _ (by omega) hr

/-- `CyclicDescent` chooses alike `a` iterations later exactly when `a` is a multiple of the number of features. -/
theorem C317_cyclic_period {n a : Nat} (hn : 0 < n) : (∀ i, cyclic (i + a) n = cyclic i n) ↔ n ∣ a := by
  unfold cyclic
  simp only [if_neg (Nat.pos_iff_ne_zero.1 hn), Option.some.injEq]
  constructor
  · intro h
    have := h 0
    rw [Nat.zero_add, Nat.zero_mod] at this
    exact Nat.dvd_of_mod_eq_zero this
  · rintro ⟨c, rfl⟩ i
    exact Nat.add_mul_mod_self_left i n c

theorem step_col0 {env : Env W C E} {n m u : Nat} (hm : m ≤ n) (hn : n < 2 ^ 64)
    (hpol : ∀ w i x, cyclic i n = some (env.feature w i x).2) (hstep : ∀ w x, (env.cbStep w x).2.1 = x) {c : Option C}
    {s : St W C E} (hi : 1 ≤ s.i ∧ s.i ≤ m) (h0 : s.x[0]? = c) :
    (∀ s', step env m u s = .inl s' → (1 ≤ s'.i ∧ s'.i ≤ m) ∧ s'.x[0]? = c) ∧
    (∀ r, step env m u s = .inr (.returned r) → r.x[0]? = c) := by
  unfold step
  by_cases hc : s.i = m ∨ s.terminate = true
  · rw [if_pos hc]
    refine ⟨fun _ k => (by cases k), fun r k => ?_⟩
    simp only [afterLoop, finish, Sum.inr.injEq, Outcome.returned.injEq] at k
    subst k
    exact h0
  · rw [if_neg hc]
    have hlt : s.i < m := by omega
    have hf : (env.feature s.w s.i s.x).2 = s.i := by
      have := hpol s.w s.i s.x
      unfold cyclic at this
      rw [if_neg (by omega), Nat.mod_eq_of_lt (by omega)] at this
      exact (Option.some.inj this).symm
    have hp : (gradPart env s).1.x = s.x ∧ (gradPart env s).1.i = s.i ∧ (gradPart env s).2.1 = s.i := by
      simp [gradPart, hf]
    simp only
    generalize gradPart env s = p at *
    obtain ⟨p1, p2, p3⟩ := hp
    by_cases ht : p.1.terminate = true
    · rw [if_pos ht]
      refine ⟨fun _ k => (by cases k), fun r k => ?_⟩
      simp only [afterLoop, finish, Sum.inr.injEq, Outcome.returned.injEq] at k
      subst k
      simp only [p1, h0]
    · rw [if_neg ht]
      have hmod : (s.i + 1) % 2 ^ 64 = s.i + 1 := Nat.mod_eq_of_lt (by omega)
      cases p.1.x[p.2.1]? with
      | none => exact ⟨fun _ k => (by cases k), fun _ k => (by cases k)⟩
      | some xj =>
        cases p.2.2[p.2.1]? with
        | none => exact ⟨fun _ k => (by cases k), fun _ k => (by cases k)⟩
        | some gj =>
          simp only
          have hmv : (movePart env p.1 p.2.1 p.2.2 xj gj).i = s.i ∧ (movePart env p.1 p.2.1 p.2.2 xj gj).x[0]? = c := by
            refine ⟨p2, ?_⟩
            simp only [movePart, hstep, p1, p3]
            rw [List.getElem?_set_ne (by omega), h0]
          generalize movePart env p.1 p.2.1 p.2.2 xj gj = t2 at *
          obtain ⟨m1, m2⟩ := hmv
          by_cases hu0 : u = 0
          · rw [if_pos hu0]
            exact ⟨fun _ k => (by cases k), fun _ k => (by cases k)⟩
          · rw [if_neg hu0]
            by_cases hui : s.i % u = 0
            · rw [if_pos hui]
              have he : (evalPart env t2).i = s.i ∧ (evalPart env t2).x[0]? = c := ⟨m1, m2⟩
              generalize evalPart env t2 = t3 at *
              obtain ⟨e1, e2⟩ := he
              split
              · refine ⟨fun _ k => (by cases k), fun r k => ?_⟩
                simp only [finish, Sum.inr.injEq, Outcome.returned.injEq] at k
                subst k
                exact e2
              · split
                · refine ⟨fun _ k => (by cases k), fun r k => ?_⟩
                  simp only [finish, Sum.inr.injEq, Outcome.returned.injEq] at k
                  subst k
                  exact e2
                · refine ⟨fun s' k => ?_, fun _ k => (by cases k)⟩
                  cases k
                  simp only [e1, e2, hmod]
                  exact ⟨by omega, trivial⟩
            · rw [if_neg hui]
              refine ⟨fun s' k => ?_, fun _ k => (by cases k)⟩
              cases k
              simp only [m1, m2, hmod]
              exact ⟨by omega, trivial⟩

/-- With `CyclicDescent` on `n` features, a call with `maxIterations` between 1 and `n` never touches the first feature:
iteration numbers start at 1 in every call. -/
theorem C317_cyclic_first_feature {env : Env W C E} {n m u fuel : Nat} (hm1 : 1 ≤ m) (hm : m ≤ n) (hn : n < 2 ^ 64)
    (hpol : ∀ w i x, cyclic i n = some (env.feature w i x).2) (hbegin : ∀ w x, (env.cbBegin w x).2 = x)
    (hstep : ∀ w x, (env.cbStep w x).2.1 = x) {w : W} {x : List C} {r : Result W C E}
    (h : optimize env m u fuel w x = some (.returned r)) : r.x[0]? = x[0]? := by
  have := iterate_inv (step := step env m u) (fun s => (1 ≤ s.i ∧ s.i ≤ m) ∧ s.x[0]? = x[0]?)
    (fun o => ∀ r, o = .returned r → r.x[0]? = x[0]?)
    (fun s s' hs k => (step_col0 hm hn hpol hstep hs.1 hs.2).1 s' k)
    (fun s o hs k r hr => (step_col0 hm hn hpol hstep hs.1 hs.2).2 r (hr ▸ k)) fuel (start env w x) _
    (by simp only [start, hbegin]; exact ⟨⟨Nat.le_refl _, hm1⟩, trivial⟩) h
  exact this r rfl

/-- Coordinates after several calls with the same limit, every call continuing where the one before ended. -/
def calls (env : Env W C E) (m u fuel : Nat) : Nat → W → List C → Option (List C)
  | 0, _, x => some x
  | k + 1, w, x =>
    match optimize env m u fuel w x with
    | some (.returned r) => calls env m u fuel k r.w r.x
    | _ => none

/-- The same for any number of such calls. -/
theorem C317_cyclic_calls {env : Env W C E} {n m u fuel : Nat} (hm1 : 1 ≤ m) (hm : m ≤ n) (hn : n < 2 ^ 64)
    (hpol : ∀ w i x, cyclic i n = some (env.feature w i x).2) (hbegin : ∀ w x, (env.cbBegin w x).2 = x)
    (hstep : ∀ w x, (env.cbStep w x).2.1 = x) : ∀ (k : Nat) (w : W) (x y : List C),
    calls env m u fuel k w x = some y → y[0]? = x[0]? := by
  intro k
  induction k with
  | zero => intro w x y h; cases h; rfl
  | succ k ih =>
    intro w x y h
    rw [calls] at h
    split at h
    · rename_i r hr
      exact (ih _ _ _ h).trans (C317_cyclic_first_feature hm1 hm hn hpol hbegin hstep hr)
    · cases h

/-- `((x₀ - 1)² + (x₁ - 1)²) / 2` with step size 1 and `CyclicDescent`. -/
def pairEnv : Env Unit Int Int where
  feature w i _ := (w, i % 2)
  partialGrad w x _ := (w, x.map (· - 1))
  cbGradient w _ _ g := (w, g, false)
  cbStep w x := (w, x, false)
  evaluate w x := (w, (x.map fun c => (c - 1) ^ 2).sum)
  cbEvaluate w _ _ := (w, false)
  cbBegin w x := (w, x)
  cbEnd w x := (w, x)
  moveCol x g := x - g
  zero := 0
  maxVal := 1000
  isBad _ := false
  isClose _ _ := false

theorem pairEnv_split : Splittable pairEnv :=
  ⟨fun _ _ => rfl, fun _ _ => rfl, fun _ _ _ _ _ => rfl, fun _ _ => rfl, fun _ _ => rfl⟩

/-- **C317** (refuted for `CyclicDescent`) One call of two steps finds the minimiser (1, 1); calls of one step each never
change the first coordinate, however many are made. -/
theorem C317_cd_cyclic_refuted :
    (∃ r, optimize pairEnv 3 1 3 () [5, 5] = some (.returned r) ∧ r.x = [1, 1]) ∧
    calls pairEnv 2 1 2 2 () [5, 5] = some [5, 1] ∧
    ∀ k fuel y, calls pairEnv 2 1 fuel k () [5, 5] = some y → y[0]? = some 5 := by
  refine ⟨⟨_, rfl, by decide⟩, by decide, fun k fuel y h => ?_⟩
  exact C317_cyclic_calls (n := 2) (by omega) (by omega) (by omega) (fun _ _ _ => rfl) (fun _ _ => rfl) (fun _ _ => rfl)
    k () _ y h

/-- `C317_cd_partial` applies: two steps and then two. -/
example : ∃ r₁ o, Splittable pairEnv ∧ (∀ w i x, pairEnv.feature w (i + 2) x = pairEnv.feature w i x) ∧
    optimize pairEnv 3 1 3 () [5, 5] = some (.returned r₁) ∧ r₁.exit = .loop ∧ anyStop r₁.trace = false ∧
    optimize pairEnv 3 1 3 r₁.w r₁.x = some o :=
  ⟨_, _, pairEnv_split, fun _ i _ => by simp [pairEnv], rfl, rfl, rfl, rfl⟩

end Ens.Cd
