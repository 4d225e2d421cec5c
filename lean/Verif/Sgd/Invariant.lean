import Verif.Sgd.Lemmas

/-
A predicate on (functions visited so far, world, coordinates) that every batch and every epoch change preserve holds at the
end of a run of `Optimize`.
-/

namespace Ens.Sgd

variable {W M G E : Type} {env : Env W M G E} {p : Params} {P : Nat → W → M → Prop}

/-- What the calls made by the loop have to preserve; `i` counts the functions visited. -/
structure Preserved (env : Env W M G E) (p : Params) (P : Nat → W → M → Prop) : Prop where
  beginEpoch : ∀ i w x n e, i % p.numFunctions = 0 → P i w x → P i (env.cbBeginEpoch w x n e).1 x
  endEpoch : ∀ i w x n e, i % p.numFunctions = 0 → P i w x → P i (env.cbEndEpoch w x n e).1 x
  shuffle : p.shuffle = true → ∀ i w x, i % p.numFunctions = 0 → P i w x → P i (env.shuffle w) x
  batch : ∀ i w x k, 0 < k → k ≤ p.batchSize → i % p.numFunctions + k ≤ p.numFunctions → P i w x →
    let r := env.evalGrad w x (i % p.numFunctions) k
    let c := env.cbEvalGrad r.1 x r.2.1 r.2.2
    let u := env.update c.1 x c.2.1
    let s := env.cbStep u.1 u.2
    let d := env.decay s.1 s.2.1 c.2.1
    P (i + k) d.1 d.2

theorem body_preserved (hP : Preserved env p P) (hn : 0 < p.numFunctions) (hb : 0 < p.batchSize) {s : St W M E}
    (h : Inv env p s) (hlt : s.i < p.actualMax) (hs : P s.i s.w s.x) :
    (∀ s', body env p s = .cont s' → P s'.i s'.w s'.x) ∧ ∀ e s', body env p s = .ret e s' → P s'.i s'.w s'.x := by
  obtain ⟨h1, h2, h3⟩ := effBatch_facts hn hb h hlt
  have hc := h.cur hlt
  have heb : effBatch p s ≤ p.batchSize := by unfold effBatch; omega
  have ho := hP.batch _ _ _ (effBatch p s) (by omega) heb h2 hs
  rw [← hc] at ho
  have hbody : body env p s =
      if (stepBatch env p s).cur % p.numFunctions = 0 then epochEnd env p (stepBatch env p s)
      else .cont (stepBatch env p s) := by
    simp [body, Nat.pos_iff_ne_zero.1 hn]
  have hq : P (stepBatch env p s).i (stepBatch env p s).w (stepBatch env p s).x := ho
  have hqi : (stepBatch env p s).i = s.i + effBatch p s := rfl
  have hqc : (stepBatch env p s).cur = s.cur + effBatch p s := rfl
  rw [hbody]
  generalize stepBatch env p s = t at hq hqi hqc ⊢
  split
  · rename_i hend
    have hmod : t.i % p.numFunctions = 0 := by
      rw [hqi, ← Nat.mod_add_mod, ← hc, ← hqc]
      exact hend
    have e1 := fun n e => hP.endEpoch _ _ _ n e hmod hq
    unfold epochEnd
    simp only
    refine ⟨fun s' hs' => ?_, fun e s' hs' => ?_⟩
    · split_ifs at hs' with h1 h2 h3 h4 <;> first | (cases hs'; done) | skip
      all_goals
        simp only [BodyRes.cont.injEq] at hs'
        subst hs'
        first
          | exact hP.shuffle ‹_› _ _ _ hmod (hP.beginEpoch _ _ _ _ _ hmod (e1 _ _))
          | exact hP.beginEpoch _ _ _ _ _ hmod (e1 _ _)
    · split_ifs at hs' with h1 h2
      all_goals
        first
          | (simp only [BodyRes.ret.injEq] at hs'
             obtain ⟨-, rfl⟩ := hs'
             exact e1 _ _)
          | (exact absurd hs' (by simp))
  · refine ⟨fun s' hs' => ?_, fun e s' hs' => by cases hs'⟩
    cases hs'
    exact hq

theorem loop_preserved (hP : Preserved env p P) (hn : 0 < p.numFunctions) (hb : 0 < p.batchSize) :
    ∀ (fuel : Nat) (s : St W M E) (e : Exit) (s' : St W M E), Inv env p s → P s.i s.w s.x →
      loop env p fuel s = .done e s' → P s'.i s'.w s'.x ∧ (visits s'.trace).length = s'.i ∧
        (e = .loop → s'.i = p.actualMax ∨ anyStop s'.trace = true) := by
  have hlen : ∀ {s : St W M E}, TrInv env p s → (visits s.trace).length = s.i := by
    intro s h
    rw [h.visits]; simp
  have hleave : ∀ {s : St W M E}, Inv env p s → ¬(s.i < p.actualMax ∧ s.terminate = false) →
      s.i = p.actualMax ∨ anyStop s.trace = true := by
    intro s h hc
    have h1 := h.le
    rw [← h.stop]
    rcases Nat.lt_or_ge s.i p.actualMax with h2 | h2
    · right
      by_contra h3
      exact hc ⟨h2, by simpa using h3⟩
    · left; omega
  intro fuel
  induction fuel with
  | zero =>
    intro s e s' h hs hl
    rw [loop] at hl
    split at hl
    · cases hl
    · rename_i hc
      cases hl; exact ⟨hs, hlen h.toTrInv, fun _ => hleave h hc⟩
  | succ fuel ih =>
    intro s e s' h hs hl
    rw [loop] at hl
    split at hl
    · rename_i hc
      obtain ⟨b1, b2⟩ := body_preserved hP hn hb h hc.1 hs
      rcases body_inv hn hb h hc.1 hc.2 with ⟨s1, hs1, hinv, -⟩ | ⟨e1, s1, hs1, he1, hret, -⟩
      · rw [hs1] at hl
        exact ih s1 e s' hinv (b1 _ hs1) hl
      · rw [hs1] at hl
        cases hl
        exact ⟨b2 _ _ hs1, hlen hret.toTrInv, fun he => absurd he he1⟩
    · rename_i hc
      cases hl; exact ⟨hs, hlen h.toTrInv, fun _ => hleave h hc⟩

theorem exactLoop_same (env : Env W M G E) (p : Params) : ∀ (fuel i : Nat) (s s' : St W M E),
    exactLoop env p fuel i s = some s' → s'.x = s.x ∧ visits s'.trace = visits s.trace ∧
      anyStop s'.trace = anyStop s.trace := by
  intro fuel
  induction fuel with
  | zero =>
    intro i s s' h
    rw [exactLoop] at h
    split at h
    · cases h
    · cases h; exact ⟨rfl, rfl, rfl⟩
  | succ fuel ih =>
    intro i s s' h
    rw [exactLoop] at h
    split at h
    · obtain ⟨h1, h2, h3⟩ := ih _ _ _ h
      exact ⟨h1, by rw [h2]; simp [visits], by rw [h3]; simp [anyStop, Ev.stops]⟩
    · cases h; exact ⟨rfl, rfl, rfl⟩

/-- However a run ends, the predicate holds for the number of functions visited and the coordinates handed back. -/
theorem optimize_preserved (hP : Preserved env p P) (hn : 0 < p.numFunctions) (hb : 0 < p.batchSize) {fuel : Nat} {w : W}
    {x : M} (h0 : P 0 (env.cbBegin w x).1 (env.cbBegin w x).2) {r : Result W M E}
    (h : optimize env p fuel w x = .returned r) : (∃ w', P (visits r.trace).length w' r.x) ∧
      (r.exit = .loop → (visits r.trace).length = p.actualMax ∨ anyStop r.trace = true) := by
  have hs : P (start env w x).i (start env w x).w (start env w x).x := hP.beginEpoch 0 _ _ _ _ (Nat.zero_mod _) h0
  rw [optimize] at h
  cases hl : loop env p fuel (start env w x) with
  | ub => rw [hl] at h; cases h
  | outOfFuel => rw [hl] at h; cases h
  | done e s =>
    obtain ⟨hp, hlen, hex⟩ := loop_preserved hP hn hb fuel _ e s (start_inv w x) hs hl
    rw [← hlen] at hp hex
    have hfin : ∀ e (t : St W M E), t.x = s.x → visits t.trace = visits s.trace → anyStop t.trace = anyStop s.trace →
        (e = .loop → (visits s.trace).length = p.actualMax ∨ anyStop s.trace = true) →
        (∃ w', P (visits (finish env e t).trace).length w' (finish env e t).x) ∧ ((finish env e t).exit = .loop →
          (visits (finish env e t).trace).length = p.actualMax ∨ anyStop (finish env e t).trace = true) := by
      intro e t hx hv ha hex'
      have h1 : visits (finish env e t).trace = visits s.trace := by
        rw [← hv]; simp [finish, visits]
      have h2 : anyStop (finish env e t).trace = anyStop s.trace := by
        rw [← ha]; simp [finish, anyStop, Ev.stops]
      rw [h1, h2]
      refine ⟨⟨s.w, ?_⟩, hex'⟩
      show P _ _ t.x
      rw [hx]
      exact hp
    rw [hl] at h
    cases e with
    | bad => cases h; exact hfin _ _ rfl rfl rfl (by simp)
    | tol => cases h; exact hfin _ _ rfl rfl rfl (by simp)
    | loop =>
      simp only at h
      split at h
      · split at h
        · rename_i s' hs'
          cases h
          obtain ⟨k1, k2, k3⟩ := exactLoop_same _ _ _ _ _ _ hs'
          exact hfin _ _ k1 k2 k3 hex
        · cases h
      · cases h; exact hfin _ _ rfl rfl rfl hex

end Ens.Sgd
