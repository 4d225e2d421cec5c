import Verif.AugLag.Props

/-
C302: the overloads of `AugLagrangian::Optimize` and the members `Lambda()` and `Sigma()`.
-/

namespace Ens.AugLag

variable {W X E : Type} {o : Ops E} {u : User W X E} {m fuel : Nat}

/-- **C302** (which values a run starts from) With multipliers and penalty parameter given, the members of the object do not matter; giving
them is the same as storing them in `Lambda()` and `Sigma()` first, if there is at least one multiplier. Without any multipliers stored
`Sigma()` is ignored: the run is that with zeros and 10. -/
theorem C302_start (L : List E) (s : E) (ob ob' : Obj E) (ht : ob.terminate = ob'.terminate) (w : W) (x : X) :
    optimizeInit o u m fuel ob L s w x = optimizeInit o u m fuel ob' L s w x ∧
    (L ≠ [] → optimize o u m fuel ⟨L, s, ob.terminate⟩ w x = optimizeInit o u m fuel ob L s w x) ∧
    (ob.lam = [] → (optimize o u m fuel ob w x).map Prod.snd =
      (optimizeInit o u m fuel ob (List.replicate u.numConstraints o.zero) o.ten w x).map Prod.snd) := by
  refine ⟨?_, ?_, ?_⟩
  · unfold optimizeInit; rw [ht]
  · intro h
    have he : L.isEmpty = false := by
      cases L with
      | nil => exact absurd rfl h
      | cons => rfl
    unfold optimize optimizeInit
    simp only [he, Bool.false_eq_true, if_false]
  · intro h
    unfold optimize optimizeInit run
    simp only [h, List.isEmpty_nil, if_true, Option.map_map]
    rfl

/-- **C302** (what is left) Unless a run converged its progress is not stored: given values stay, otherwise the members are as before. -/
theorem C302_left {ob ob' : Obj E} {e : Exit} {t : St W X E} {w : W} {x : X} :
    (∀ L s, optimizeInit o u m fuel ob L s w x = some (ob', e, t) →
      if e = .converged then ob'.lam = t.lam ∧ ob'.sigma = t.sigma else ob'.lam = L ∧ ob'.sigma = s) ∧
    (optimize o u m fuel ob w x = some (ob', e, t) →
      if e = .converged then ob'.lam = t.lam ∧ ob'.sigma = t.sigma else ob'.lam = ob.lam ∧ ob'.sigma = ob.sigma) := by
  have key : ∀ (b : Obj E) L s, run o u m fuel b L s w x = some (ob', e, t) →
      if e = .converged then ob'.lam = t.lam ∧ ob'.sigma = t.sigma else ob'.lam = b.lam ∧ ob'.sigma = b.sigma := by
    intro b L s h
    unfold run at h
    rw [Option.map_eq_some_iff] at h
    obtain ⟨r, -, h⟩ := h
    simp only [Prod.mk.injEq] at h
    obtain ⟨h1, h2, h3⟩ := h
    subst h1 h2 h3
    unfold store
    split <;> exact ⟨rfl, rfl⟩
  refine ⟨fun L s h => key { ob with lam := L, sigma := s } L s h, fun h => ?_⟩
  unfold optimize at h
  split at h <;> exact key _ _ _ h

/-- Callbacks that watch, and an objective that depends on the point only. -/
structure Watch (u : User W X E) (F : X → E) : Prop where
  eval : ∀ w x, (u.eval w x).2 = F x
  begin_ : ∀ w x, (u.cbBegin w x).2 = x
  cons : ∀ w x i v, (u.cbCons w x i v).2 = false
  evalCb : ∀ w x v, (u.cbEval w x v).2 = false
  step : ∀ w x, (u.cbStep w x).2 = (x, false)
  end_ : ∀ w x, (u.cbEnd w x).2 = x

theorem penaltyOf_term {F : X → E} (hu : Watch u F) (x : X) (w : W) (b : Bool) : (penaltyOf o u x w b).2.2.1 = b := by
  unfold penaltyOf
  generalize List.range u.numConstraints = l
  suffices h : ∀ (s : W × E × Bool × List (Ev X E)), (l.foldl (penaltyLoop o u x) s).2.2.1 = s.2.2.1 from h _
  induction l with
  | nil => intro s; rfl
  | cons i l ih =>
    intro s
    rw [List.foldl_cons, ih]
    simp [penaltyLoop, hu.cons]

theorem penaltyOf_trace (x : X) (w : W) (b : Bool) : (penaltyOf o u x w b).2.2.2.countP isSolved = 0 := by
  unfold penaltyOf
  generalize List.range u.numConstraints = l
  suffices h : ∀ (s : W × E × Bool × List (Ev X E)), s.2.2.2.countP isSolved = 0 →
      (l.foldl (penaltyLoop o u x) s).2.2.2.countP isSolved = 0 from h _ rfl
  induction l with
  | nil => intro s hs; exact hs
  | cons i l ih =>
    intro s hs
    rw [List.foldl_cons]
    refine ih _ ?_
    simp only [penaltyLoop, List.countP_append, hs, flag]
    split <;> rfl

/-- **C302** (running again) After a run that returned `true`, another call of `Optimize` at the point found goes on from the multipliers and
the penalty parameter found: if the inner solver then does not change the objective noticeably, it makes one inner run, returns `true` and
leaves the members as they are. -/
theorem C302_again {F : X → E} (hu : Watch u F) (hm : m ≠ 1) {ob ob' : Obj E} {t : St W X E} {w : W} {x : X}
    (h : optimize o u m fuel ob w x = some (ob', .converged, t)) (hne : ob'.lam ≠ []) (hlen : u.numConstraints ≤ ob'.lam.length)
    (hterm : ob'.terminate = false) (w' : W)
    (hrest : ∀ w, o.close (F t.x) (F (u.solve w t.x ob'.lam ob'.sigma).2) = true) :
    ∃ t', optimize o u m (fuel + 1) ob' w' t.x = some (ob', .converged, t') ∧
      (∃ w'', t'.x = (u.solve w'' t.x ob'.lam ob'.sigma).2) ∧
      t'.trace.countP isSolved = 1 := by
  -- the penalty parameter of a converged run is large
  have hbig : o.big ob'.sigma = true := by
    have hl := (C302_left.2 h)
    rw [if_pos rfl] at hl
    rw [hl.2]
    have gen : ∀ L s (b : Obj E), run o u m fuel b L s w x = some (ob', .converged, t) → o.big t.sigma = true := by
      intro L s b hr
      unfold run at hr
      rw [Option.map_eq_some_iff] at hr
      obtain ⟨r, hr, he⟩ := hr
      simp only [Prod.mk.injEq] at he
      obtain ⟨-, h2, h3⟩ := he
      have := iterate_inv (step := body o u m) (fun _ => True) (fun r => r.1 = .converged → o.big r.2.sigma = true)
        (fun _ _ _ _ => trivial) (fun s r _ hb => ?_) fuel _ r trivial hr h2
      · rw [← h3]; exact this
      · intro hc
        unfold body at hb
        split at hb
        · split at hb
          · injection hb with hb; rw [← hb] at hc; cases hc
          · unfold afterInner at hb
            split at hb
            · rename_i hif
              injection hb with hb
              rw [← hb]
              exact (Bool.and_eq_true _ _ ▸ hif).2
            · dsimp only at hb
              split at hb
              · injection hb with hb; rw [← hb] at hc; cases hc
              · unfold updateStep at hb
                split at hb
                · cases hb
                · dsimp only at hb
                  split at hb
                  · injection hb with hb; rw [← hb] at hc; cases hc
                  · cases hb
        · injection hb with hb; rw [← hb] at hc; cases hc
    unfold optimize at h
    split at h <;> exact gen _ _ _ h
  have he : ob'.lam.isEmpty = false := by
    cases hl : ob'.lam with
    | nil => exact absurd hl hne
    | cons => rfl
  unfold optimize
  simp only [he, Bool.false_eq_true, if_false]
  unfold run
  rw [iterate]
  set s := start o u ob'.terminate ob'.lam ob'.sigma w' t.x with hs
  have sx : s.x = t.x := hu.begin_ _ _
  have st : s.term = false := by
    have : s.term = ob'.terminate := penaltyOf_term hu _ _ _
    rw [this, hterm]
  have sl : s.last = F t.x := hu.eval _ _
  have sσ : s.sigma = ob'.sigma := rfl
  have sL : s.lam = ob'.lam := rfl
  have hb : body o u m s = .inr (.converged, (inner u s).1) := by
    unfold body
    rw [if_pos ⟨by show m = 0 ∨ 0 ≠ m - 1; omega, st⟩, if_neg (by rw [sL]; omega)]
    unfold afterInner
    have h1 : (inner u s).1.last = s.last := rfl
    have h2 : (inner u s).1.sigma = s.sigma := rfl
    have h3 : (inner u s).2 = F (u.solve s.w s.x s.lam s.sigma).2 := hu.eval _ _
    rw [h1, h2, h3, sl, sσ, sL, sx, hrest, hbig]
    rfl
  rw [hb]
  have hlast : (inner u s).1.term = false := by
    show (s.term || (u.cbEval _ _ _).2) = false
    rw [hu.evalCb, st]; rfl
  refine ⟨finish u (inner u s).1, ?_, ⟨s.w, ?_⟩, ?_⟩
  · simp only [Option.map_some, store, if_true]
    rw [hlast]
    have : ob' = ⟨ob'.lam, ob'.sigma, ob'.terminate⟩ := rfl
    rw [this, hterm]
    rfl
  · show (u.cbEnd _ _).2 = _
    rw [hu.end_]
    show (u.solve s.w s.x s.lam s.sigma).2 = _
    rw [sx, sσ, sL]
  · show (s.trace ++ _).countP isSolved = 1
    have h0 : s.trace.countP isSolved = 0 := penaltyOf_trace _ _ _
    rw [List.countP_append, h0]
    simp [flag, hu.evalCb, isSolved]

/-- Constant objective, constraint `x = 2`, a solver that stays where it is: the first run with the default settings returns `true`, and the
second is as `C302_again` says. -/
example : ∃ ob' t, optimize ratOps (stuck fun _ => false) 1000 1000 ⟨[], 0, false⟩ () 0 = some (ob', .converged, t) ∧
    ∃ t', optimize ratOps (stuck fun _ => false) 1000 1001 ob' () t.x = some (ob', .converged, t') ∧ t'.trace.countP isSolved = 1 := by
  have hrun : ((optimize ratOps (stuck fun _ => false) 1000 1000 ⟨[], 0, false⟩ () 0).map fun r =>
      (r.2.1, r.1.lam.length, r.1.terminate)) = some (.converged, 1, false) := by decide +kernel
  rw [Option.map_eq_some_iff] at hrun
  obtain ⟨⟨ob', e, t⟩, hr, htr⟩ := hrun
  simp only [Prod.mk.injEq] at htr
  obtain ⟨rfl, hl, ht⟩ := htr
  obtain ⟨t', h1, -, h3⟩ := C302_again (u := stuck fun _ => false) (F := fun _ => 0)
    ⟨fun _ _ => rfl, fun _ _ => rfl, fun _ _ _ _ => rfl, fun _ _ _ => rfl, fun _ _ => rfl, fun _ _ => rfl⟩ (by decide) hr
    (by intro h; rw [h] at hl; simp at hl) (by rw [hl]; decide) ht () (fun _ => by decide +kernel)
  exact ⟨ob', t, hr, t', h1, h3⟩

/-! ### What is true of C122, C124 and C126 -/

theorem lambdaOf_term {F : X → E} (hu : Watch u F) (x : X) (σ : E) (w : W) (lam : List E) (b : Bool) :
    (lambdaOf o u x σ w lam b).2.2.1 = b := by
  unfold lambdaOf
  generalize List.range u.numConstraints = l
  suffices h : ∀ (s : W × List E × Bool × List (Ev X E)), (l.foldl (lambdaLoop o u x σ) s).2.2.1 = s.2.2.1 from h _
  induction l with
  | nil => intro s; rfl
  | cons i l ih =>
    intro s
    rw [List.foldl_cons, ih]
    simp [lambdaLoop, hu.cons]

theorem body_term {F : X → E} (hu : Watch u F) {t : St W X E} (ht : t.term = false) :
    (∀ t', body o u m t = .inl t' → t'.term = false) ∧ ∀ r, body o u m t = .inr r → r.2.term = false := by
  have hi : (inner u t).1.term = false := by
    show (t.term || (u.cbEval _ _ _).2) = false
    rw [hu.evalCb, ht]; rfl
  have hp : (penaltyOf o u (inner u t).1.x (inner u t).1.w (inner u t).1.term).2.2.1 = false := by rw [penaltyOf_term hu, hi]
  unfold body
  split
  · split
    · exact ⟨fun _ h => (by cases h), fun r h => by cases h; exact ht⟩
    · unfold afterInner
      split
      · exact ⟨fun _ h => (by cases h), fun r h => by cases h; exact hi⟩
      · dsimp only
        rw [hp]
        simp only [Bool.false_eq_true, if_false]
        unfold updateStep
        split
        · refine ⟨fun t' h => ?_, fun _ h => by cases h⟩
          cases h
          dsimp only
          rw [lambdaOf_term hu, hu.step]; rfl
        · dsimp only
          split
          · exact ⟨fun _ h => (by cases h), fun r h => by cases h; rfl⟩
          · refine ⟨fun t' h => ?_, fun _ h => by cases h⟩
            cases h
            dsimp only
            rw [hu.step]; rfl
  · exact ⟨fun _ h => (by cases h), fun r h => by cases h; exact ht⟩

/-- **C122** (partial) As long as no callback has asked to stop, a run with given multipliers and penalty parameter does not depend on
earlier runs of the same object, however they ended: it is the run of a new object. Missing: runs after a stop request, where it is false. -/
theorem C122_reuse_partial {F : X → E} (hu : Watch u F) {ob ob' : Obj E} (hob : ob.terminate = false) {e : Exit} {t : St W X E} {w : W} {x : X}
    (h : optimize o u m fuel ob w x = some (ob', e, t) ∨ ∃ L s, optimizeInit o u m fuel ob L s w x = some (ob', e, t))
    {W' X' : Type} (u' : User W' X' E) (m' fuel' : Nat) (L : List E) (s z : E) (w' : W') (x' : X') :
    optimizeInit o u' m' fuel' ob' L s w' x' = optimizeInit o u' m' fuel' ⟨[], z, false⟩ L s w' x' := by
  have key : ∀ (b : Obj E) L s, b.terminate = false → run o u m fuel b L s w x = some (ob', e, t) → ob'.terminate = false := by
    intro b L s hb h
    unfold run at h
    rw [Option.map_eq_some_iff] at h
    obtain ⟨r, hr, h⟩ := h
    simp only [Prod.mk.injEq] at h
    obtain ⟨h1, -, -⟩ := h
    have := iterate_inv (fun t => t.term = false) (fun r : Exit × St W X E => r.2.term = false)
      (fun a a' ha h => (body_term hu ha).1 a' h) (fun a r ha h => (body_term hu ha).2 r h) fuel _ r
      (by show (penaltyOf o u x _ _).2.2.1 = false; rw [penaltyOf_term hu, hb]) hr
    rw [← h1]
    unfold store
    split <;> exact this
  refine (C302_start L s ob' ⟨[], z, false⟩ ?_ w' x').1
  rcases h with h | ⟨L, s, h⟩
  · unfold optimize at h
    split at h <;> exact key _ _ _ hob h
  · exact key { ob with lam := L, sigma := s } L s hob h

/-- Everything the constraint callbacks are told. -/
def Told (o : Ops E) (u : User W X E) (C : Nat → X → E) (l : List (Ev X E)) : Prop :=
  ∀ x i v, .told x i v ∈ l → i < u.numConstraints ∧ (v = C i x ∨ v = o.sq (C i x))

theorem Told.append {C : Nat → X → E} {l l' : List (Ev X E)} (h : Told o u C l) (h' : Told o u C l') : Told o u C (l ++ l') := by
  intro x i v hv
  rcases List.mem_append.1 hv with hv | hv
  · exact h x i v hv
  · exact h' x i v hv

theorem told_flag {C : Nat → X → E} (b : Bool) : Told o u C (flag b) := by
  intro x i v hv
  unfold flag at hv
  split at hv <;> simp at hv

theorem told_cons {C : Nat → X → E} {l : List (Ev X E)} {x : X} {i : Nat} {v : E} (hi : i < u.numConstraints)
    (hv : v = C i x ∨ v = o.sq (C i x)) (h : Told o u C l) : Told o u C (.told x i v :: l) := by
  intro x' i' v' hm
  rcases List.mem_cons.1 hm with hm | hm
  · cases hm; exact ⟨hi, hv⟩
  · exact h _ _ _ hm

theorem told_skip {C : Nat → X → E} {l : List (Ev X E)} {e : Ev X E} (he : ∀ x i v, e ≠ .told x i v) (h : Told o u C l) :
    Told o u C (e :: l) := by
  intro x' i' v' hm
  rcases List.mem_cons.1 hm with hm | hm
  · exact absurd hm.symm (he _ _ _)
  · exact h _ _ _ hm

theorem penaltyOf_told {C : Nat → X → E} (hC : ∀ w i x, (u.cons w i x).2 = C i x) (x : X) (w : W) (b : Bool) :
    Told o u C (penaltyOf o u x w b).2.2.2 := by
  unfold penaltyOf
  suffices h : ∀ (l : List Nat) (s : W × E × Bool × List (Ev X E)), (∀ i ∈ l, i < u.numConstraints) → Told o u C s.2.2.2 →
      Told o u C (l.foldl (penaltyLoop o u x) s).2.2.2 from
    h _ _ (fun i hi => List.mem_range.1 hi) (by intro x i v hv; cases hv)
  intro l
  induction l with
  | nil => intro s _ hs; exact hs
  | cons i l ih =>
    intro s hl hs
    rw [List.foldl_cons]
    refine ih _ (fun j hj => hl j (by simp [hj])) (hs.append (told_cons (hl i (by simp)) (.inr ?_) (told_flag _)))
    rw [hC]

theorem lambdaOf_told {C : Nat → X → E} (hC : ∀ w i x, (u.cons w i x).2 = C i x) (x : X) (σ : E) (w : W) (lam : List E) (b : Bool) :
    Told o u C (lambdaOf o u x σ w lam b).2.2.2 := by
  unfold lambdaOf
  suffices h : ∀ (l : List Nat) (s : W × List E × Bool × List (Ev X E)), (∀ i ∈ l, i < u.numConstraints) → Told o u C s.2.2.2 →
      Told o u C (l.foldl (lambdaLoop o u x σ) s).2.2.2 from
    h _ _ (fun i hi => List.mem_range.1 hi) (by intro x i v hv; cases hv)
  intro l
  induction l with
  | nil => intro s _ hs; exact hs
  | cons i l ih =>
    intro s hl hs
    rw [List.foldl_cons]
    refine ih _ (fun j hj => hl j (by simp [hj])) (hs.append (told_cons (hl i (by simp)) (.inl ?_) (told_flag _)))
    rw [hC]

theorem body_told {C : Nat → X → E} (hC : ∀ w i x, (u.cons w i x).2 = C i x) {t : St W X E} (ht : Told o u C t.trace) :
    (∀ t', body o u m t = .inl t' → Told o u C t'.trace) ∧ ∀ r, body o u m t = .inr r → Told o u C r.2.trace := by
  have nsolved : ∀ y : X, ∀ x i (v : E), (Ev.solved y : Ev X E) ≠ .told x i v := by intro _ _ _ _ h; cases h
  have nupd : ∀ y : Upd X E, ∀ x i (v : E), (Ev.update y : Ev X E) ≠ .told x i v := by intro _ _ _ _ h; cases h
  have hi : Told o u C (inner u t).1.trace := ht.append (told_skip (nsolved _) (told_flag _))
  have hp := hi.append (penaltyOf_told (o := o) hC (inner u t).1.x (inner u t).1.w (inner u t).1.term)
  unfold body
  split
  · split
    · exact ⟨fun _ h => (by cases h), fun r h => by cases h; exact ht⟩
    · unfold afterInner
      split
      · exact ⟨fun _ h => (by cases h), fun r h => by cases h; exact hi⟩
      · dsimp only
        split
        · exact ⟨fun _ h => (by cases h), fun r h => by cases h; exact hp⟩
        · unfold updateStep
          split
          · refine ⟨fun t' h => ?_, fun _ h => by cases h⟩
            cases h
            exact hp.append ((lambdaOf_told hC _ _ _ _ _).append (told_skip (nupd _) (told_flag _)))
          · dsimp only
            have hq := fun z : Upd X E => hp.append (told_skip (l := []) (nupd z) (fun _ _ _ h => by cases h))
            split
            · exact ⟨fun _ h => (by cases h), fun r h => by cases h; exact hq _⟩
            · refine ⟨fun t' h => ?_, fun _ h => by cases h⟩
              cases h
              exact (hq _).append (told_flag _)
  · exact ⟨fun _ h => (by cases h), fun r h => by cases h; exact ht⟩

/-- **C124** (partial) What the callback `EvaluateConstraint` is told belongs to an existing constraint at the point it is told, and is the
value of the constraint or its square. Missing: that it is the value; that is false. -/
theorem C124_value_partial {C : Nat → X → E} (hC : ∀ w i x, (u.cons w i x).2 = C i x) {ob ob' : Obj E} {e : Exit} {t : St W X E}
    {w : W} {x : X} (h : optimize o u m fuel ob w x = some (ob', e, t)) :
    ∀ x i v, .told x i v ∈ t.trace → i < u.numConstraints ∧ (v = C i x ∨ v = o.sq (C i x)) := by
  have key : ∀ (b : Obj E) L s, run o u m fuel b L s w x = some (ob', e, t) → Told o u C t.trace := by
    intro b L s h
    unfold run at h
    rw [Option.map_eq_some_iff] at h
    obtain ⟨r, hr, h⟩ := h
    simp only [Prod.mk.injEq] at h
    obtain ⟨-, -, h3⟩ := h
    rw [← h3]
    exact iterate_inv (fun t => Told o u C t.trace) (fun r : Exit × St W X E => Told o u C r.2.trace)
      (fun a a' ha h => (body_told hC ha).1 a' h) (fun a r ha h => (body_told hC ha).2 r h) fuel _ r
      (penaltyOf_told hC _ _ _) hr
  unfold optimize at h
  split at h <;> exact key _ _ _ h

/-- **C126** (partial) Without stored multipliers, or with as many as there are constraints, nothing is read out of bounds. Missing: other
numbers of multipliers, which are not replaced. -/
theorem C126_size_partial {F : X → E} {C : Nat → X → E} (hF : ∀ w x, (u.eval w x).2 = F x) (hC : ∀ w i x, (u.cons w i x).2 = C i x)
    {ob ob' : Obj E} (hlen : ob.lam = [] ∨ ob.lam.length = u.numConstraints) {e : Exit} {t : St W X E}
    {w : W} {x : X} (h : optimize o u m fuel ob w x = some (ob', e, t)) : e ≠ .ub := by
  unfold optimize at h
  split at h
  · obtain ⟨t₀, ho, -⟩ := run_out (le := fun _ _ => True) hF hC (fun _ _ _ => trivial) trivial (by simp) h
    exact ho.noUb
  · rename_i hne
    obtain ⟨t₀, ho, -⟩ := run_out (le := fun _ _ => True) hF hC (fun _ _ _ => trivial) trivial
      (hlen.resolve_left fun hc => hne (by rw [hc]; rfl)) h
    exact ho.noUb

/-- The hypotheses of the three theorems hold for the run with the default settings of `C123_feasible_refuted`. -/
example : ∃ ob' e t, optimize ratOps (stuck fun _ => false) 1000 1000 ⟨[], 0, false⟩ () 0 = some (ob', e, t) ∧ e ≠ .ub ∧
    (∀ x i v, .told x i v ∈ t.trace → i < 1 ∧ (v = x - 2 ∨ v = (x - 2) * (x - 2))) ∧
    optimizeInit ratOps (stuck fun _ => false) 3 3 ob' [1] 7 () 5 = optimizeInit ratOps (stuck fun _ => false) 3 3 ⟨[], 0, false⟩ [1] 7 () 5 := by
  have hrun : ((optimize ratOps (stuck fun _ => false) 1000 1000 ⟨[], 0, false⟩ () 0).map fun r => r.2.1) = some .converged := by
    decide +kernel
  rw [Option.map_eq_some_iff] at hrun
  obtain ⟨⟨ob', e, t⟩, hr, -⟩ := hrun
  refine ⟨ob', e, t, hr, C126_size_partial (F := fun _ => 0) (C := fun _ x => x - 2) (fun _ _ => rfl) (fun _ _ _ => rfl) (.inl rfl) hr,
    C124_value_partial (C := fun _ x => x - 2) (fun _ _ _ => rfl) hr, C122_reuse_partial (F := fun _ => 0)
      ⟨fun _ _ => rfl, fun _ _ => rfl, fun _ _ _ _ => rfl, fun _ _ _ => rfl, fun _ _ => rfl, fun _ _ => rfl⟩ rfl (.inl hr) _ _ _ _ _ _ _ _⟩

end Ens.AugLag
