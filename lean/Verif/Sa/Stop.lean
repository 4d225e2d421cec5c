import Verif.Stop
import Verif.Sa.Control

/-
C157: stop requests in simulated annealing.
-/

namespace Ens.Sa

variable {W E R : Type}

def Ev.isEval : Ev E R → Bool
  | .eval _ _ => true
  | _ => false

/-- Number of objective evaluations. -/
def evals (t : List (Ev E R)) : Nat := t.countP Ev.isEval

theorem evals_append (a b : List (Ev E R)) : evals (a ++ b) = evals a + evals b := by simp [evals]

/-- Nobody has asked to stop. -/
def Calm (s : St W E R) : Prop := s.terminate = false ∧ s.trace.any Ev.stops = false

/-- Somebody has, and at most `k` evaluations followed. -/
def Asked (k : Nat) (s : St W E R) : Prop :=
  s.terminate = true ∧ s.trace.any Ev.stops = true ∧ evals (behind Ev.stops s.trace) ≤ k

theorem generateMove_stop {env : Env W E R} {p : Params R} {s s' : St W E R} {k : Nat}
    (hg : generateMove env p s = some s') :
    (Calm s → Calm s' ∨ Asked 0 s') ∧ (Asked k s → Asked (k + 1) s') := by
  unfold generateMove at hg
  cases hx : s.x[s.idx]? with
  | none => rw [hx] at hg; cases hg
  | some v =>
    cases hm : s.moveSize[s.idx]? with
    | none => rw [hx, hm] at hg; cases hg
    | some m =>
      rw [hx, hm] at hg
      simp only [Option.some.injEq] at hg
      subst hg
      obtain ⟨_, _, _, ast, atr, _⟩ := advance_same env p (tryMove env s v m)
      have key : ∃ a o c mv, (tryMove env s v m).trace = s.trace ++ [.eval a o, .cbEval c, .move mv] ∧
          (tryMove env s v m).terminate = (s.terminate || c) := by
        unfold tryMove
        simp only
        generalize env.randu s.w = u
        generalize env.evaluate u.1 _ = o
        generalize env.cbEvaluate o.1 _ o.2 = c
        exact ⟨_, o.2, c.2, _, rfl, rfl⟩
      obtain ⟨a, o, c, mv, htr, hte⟩ := key
      unfold Calm Asked
      rw [ast, atr, htr, hte]
      constructor
      · rintro ⟨h1, h2⟩
        cases c
        · left
          exact ⟨by rw [h1]; rfl, by rw [List.any_append, h2]; rfl⟩
        · right
          refine ⟨by simp, by rw [List.any_append, h2]; rfl, ?_⟩
          rw [behind_of_none h2]
          exact le_refl 0
      · rintro ⟨h1, h2, h3⟩
        refine ⟨by rw [h1]; rfl, by rw [List.any_append, h2]; rfl, ?_⟩
        rw [behind_of_some h2, evals_append]
        exact Nat.add_le_add_right h3 1

theorem afterMove_stop {env : Env W E R} {s : St W E R} {oldE : E} (h : Calm s) :
    Calm (afterMove env oldE s) ∨ Asked 0 (afterMove env oldE s) := by
  unfold afterMove
  generalize env.cbStep s.w s.x = k
  unfold Calm Asked
  simp only
  obtain ⟨h1, h2⟩ := h
  cases hk : k.2.2
  · left; exact ⟨by rw [h1]; rfl, by rw [List.any_append, h2]; rfl⟩
  · right
    refine ⟨by simp, by rw [List.any_append, h2]; rfl, ?_⟩
    rw [behind_of_none h2]
    exact le_refl 0

theorem Asked.mono {k k' : Nat} {s : St W E R} (h : Asked k s) (hk : k ≤ k') : Asked k' s := ⟨h.1, h.2.1, h.2.2.trans hk⟩

theorem initLoop_stop {env : Env W E R} {p : Params R} : ∀ (n : Nat) (s s' : St W E R), initLoop env p n s = some s' →
    (Calm s → Calm s' ∨ Asked 0 s') ∧ (Asked 0 s → Asked 1 s') := by
  intro n
  induction n with
  | zero => intro s s' hr; cases hr; exact ⟨.inl, fun h => h.mono (by omega)⟩
  | succ n ih =>
    intro s s' hr
    rw [initLoop] at hr
    cases hg : generateMove env p s with
    | none => rw [hg] at hr; cases hr
    | some s1 =>
      rw [hg] at hr
      simp only at hr
      obtain ⟨h1, h2⟩ := generateMove_stop (k := 0) hg
      split_ifs at hr with ht
      · cases hr; exact ⟨h1, h2⟩
      · refine ⟨fun h => (ih _ _ hr).1 ((h1 h).resolve_right fun h => ht h.1), fun h => absurd (h2 h).1 ht⟩

theorem mainLoop_stop {env : Env W E R} {p : Params R} : ∀ (n : Nat) (s s' : St W E R) (f : Bool),
    mainLoop env p n s = some (s', f) → (Calm s → Calm s' ∨ Asked 0 s') ∧ (s.terminate = true → s' = s) := by
  intro n
  induction n with
  | zero => intro s s' f hr; cases hr; exact ⟨.inl, fun _ => rfl⟩
  | succ n ih =>
    intro s s' f hr
    rw [mainLoop] at hr
    split_ifs at hr with ht
    · cases hr; exact ⟨.inl, fun _ => rfl⟩
    · refine ⟨fun h => ?_, fun h => absurd h ht⟩
      cases hg : generateMove env p s with
      | none => rw [hg] at hr; cases hr
      | some s1 =>
        rw [hg] at hr
        simp only at hr
        have h1 := (generateMove_stop (k := 0) hg).1 h
        split_ifs at hr with ht1
        · cases hr; exact h1
        · cases hr; exact afterMove_stop (h1.resolve_right fun h => ht1 h.1)
        · have h2 := afterMove_stop (env := env) (oldE := s.energy) (h1.resolve_right fun h => ht1 h.1)
          rcases h2 with h2 | h2
          · exact (ih _ _ _ hr).1 h2
          · rw [(ih _ _ _ hr).2 h2.1]; exact .inr h2

/-- **C157** Simulated annealing, any objective and callbacks: after a stop request the objective is not evaluated again,
except for one initial move if the request came with the very first evaluation. -/
theorem C157_sa_stop {env : Env W E R} {p : Params R} {T₀ : R} {w : W} {x₀ : List E} {r : Result W E R}
    (h : optimize env p T₀ w x₀ = some r) (hs : r.trace.any Ev.stops = true) :
    evals (behind Ev.stops r.trace) ≤ 1 ∧
    ((start env p T₀ w x₀).terminate = false → evals (behind Ev.stops r.trace) = 0) := by
  unfold optimize at h
  cases h1 : initLoop env p p.initMoves (start env p T₀ w x₀) with
  | none => rw [h1] at h; cases h
  | some s =>
    rw [h1] at h
    simp only at h
    cases hm : mainLoop env p p.maxIterations s with
    | none => rw [hm] at h; cases h
    | some a =>
      obtain ⟨s', f⟩ := a
      rw [hm] at h
      simp only [Option.some.injEq] at h
      subst h
      have hfin : ∀ k, Calm s' ∨ Asked k s' → evals (behind Ev.stops (s'.trace ++ [.endOpt s'.x])) ≤ k := by
        intro k hk
        rcases hk with hk | hk
        · simp only [List.any_append, hk.2] at hs
          cases hs
        · rw [behind_of_some hk.2.1, evals_append]
          exact hk.2.2
      have hi := initLoop_stop _ _ _ h1
      have hmm := mainLoop_stop _ _ _ _ hm
      cases hst : (start env p T₀ w x₀).terminate
      · have hc : Calm (start env p T₀ w x₀) := by
          refine ⟨hst, ?_⟩
          simp only [start] at hst ⊢
          simp [Ev.stops, hst]
        have : Calm s' ∨ Asked 0 s' := by
          rcases hi.1 hc with h2 | h2
          · exact hmm.1 h2
          · rw [hmm.2 h2.1]; exact .inr h2
        have h0 := hfin 0 this
        exact ⟨by simp only; omega, fun _ => by simp only; omega⟩
      · have hc : Asked 0 (start env p T₀ w x₀) := by
          refine ⟨hst, ?_, ?_⟩
          · simp only [start] at hst ⊢
            simp [Ev.stops, hst]
          · simp only [start] at hst ⊢
            simp [behind, Ev.stops, hst, evals, Ev.isEval]
        have h2 := hi.2 hc
        have := hmm.2 h2.1
        exact ⟨hfin 1 (by rw [this]; exact .inr h2), by simp⟩

/-- Non-vacuity: a stop request at the third annealing step. -/
example : ∃ r, optimize { demoC with cbStep := fun w x => (w + 1, x, w == 2) } ⟨9, 0, 1, 9, 1⟩ 0 0 [0] = some r ∧
    r.trace.any Ev.stops = true ∧ moves r.trace = 3 := ⟨_, rfl, rfl, rfl⟩

end Ens.Sa
