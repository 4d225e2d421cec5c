import Verif.Stop
import Verif.De.Props

/-
C157: stop requests in differential evolution.
-/

namespace Ens.De

variable {W M E : Type} [LT E] [DecidableLT E] [DecidableEq E]

/-- A callback asked to stop. -/
def isStop : Ev M E → Bool
  | .cb b => b
  | _ => false

/-- Number of generations that ended. -/
def gens (t : List (Ev M E)) : Nat := t.countP fun e => match e with | .gen _ _ => true | _ => false

/-- Number of members that were tried. -/
def tries (t : List (Ev M E)) : Nat := (picks t).length

/-- Number of callbacks notified with a say in stopping. -/
def cbs (t : List (Ev M E)) : Nat := t.countP fun e => match e with | .cb _ => true | _ => false

/-- Nobody has asked to stop. -/
def Calm (s : St W M E) : Prop := s.terminate = false ∧ s.trace.any isStop = false

/-- Somebody has, and since then `b` happened. -/
def Asked (s : St W M E) (P : List (Ev M E) → Prop) : Prop :=
  s.terminate = true ∧ s.trace.any isStop = true ∧ P (behind isStop s.trace)

theorem Asked.mono {s : St W M E} {P Q : List (Ev M E) → Prop} (h : Asked s P) (hpq : ∀ t, P t → Q t) : Asked s Q :=
  ⟨h.1, h.2.1, hpq _ h.2.2⟩

/-- What may follow a request within a generation. -/
def Late (b : List (Ev M E)) : Prop :=
  b = [] ∨ (∃ c, b = [.cb c]) ∨ ∃ k l m c c', b = [.pick k l m, .cb c, .cb c']

theorem compete_stop {env : Env W M E} {s : St W M E} {k l m : Nat} {x mu : M} {t : List (Ev M E)}
    (ht : s.trace = t ++ [.pick k l m])
    (h : (s.terminate = false ∧ t.any isStop = false) ∨
      (s.terminate = true ∧ t.any isStop = true ∧ behind isStop t = [])) :
    ((compete env s k x mu).2 = true ∧ Asked (compete env s k x mu).1 Late) ∨
    ((compete env s k x mu).2 = false ∧ (Calm (compete env s k x mu).1 ∨ Asked (compete env s k x mu).1 (· = []))) := by
  unfold compete
  simp only
  rcases h with ⟨h1, h2⟩ | ⟨h1, h2, h3⟩
  · have h4 : s.trace.any isStop = false := by rw [ht, List.any_append, h2]; rfl
    simp only [h1, Bool.false_or]
    cases hc : (env.cbEvaluate (env.evaluate s.w x).1 x (env.evaluate s.w x).2).2
    · generalize (env.cbEvaluate (env.evaluate s.w x).1 x (env.evaluate s.w x).2).1 = w1
      cases hc' : (env.cbEvaluate (env.evaluate w1 mu).1 mu (env.evaluate w1 mu).2).2
      · have h5 : (s.trace ++ [Ev.cb false, Ev.cb false]).any isStop = false := by rw [List.any_append, h4]; rfl
        simp only [Bool.or_self, Bool.false_eq_true, if_false, Bool.false_or]
        right
        split_ifs with hlt
        · refine ⟨rfl, ?_⟩
          generalize env.cbStep _ mu = kk
          cases hk : kk.2.2
          · left
            exact ⟨by simp only [hk], by simp only [hk]; rw [List.any_append, h5]; rfl⟩
          · right
            refine ⟨by simp only [hk], by simp only [hk]; rw [List.any_append, h5]; rfl, ?_⟩
            simp only [hk]
            rw [behind_of_none h5]; rfl
        · exact ⟨rfl, .inl ⟨rfl, h5⟩⟩
      · left
        simp only [Bool.or_true, if_true]
        refine ⟨trivial, rfl, by rw [List.any_append, h4]; rfl, .inl ?_⟩
        rw [behind_of_none h4]; rfl
    · left
      generalize (env.cbEvaluate (env.evaluate s.w x).1 x (env.evaluate s.w x).2).1 = w1
      refine ⟨by simp, ?_⟩
      simp only [Bool.true_or, if_true]
      refine ⟨rfl, by rw [List.any_append, h4]; rfl, .inr (.inl ?_)⟩
      rw [behind_of_none h4]
      exact ⟨_, rfl⟩
  · left
    simp only [h1, Bool.true_or, if_true]
    refine ⟨trivial, ⟨rfl, ?_, .inr (.inr ?_)⟩⟩
    · simp only [ht]; rw [List.any_append, List.any_append, h2]; rfl
    · simp only [ht]; rw [List.append_assoc, behind_of_some h2, h3]; exact ⟨k, l, m, _, _, rfl⟩

theorem memberStep_stop {env : Env W M E} {fuel n k : Nat} {s s' : St W M E} {f : Bool}
    (h : Calm s ∨ Asked s (· = [])) (hr : memberStep env fuel n k s = .ok (s', f)) :
    (f = true ∧ Asked s' Late) ∨ (f = false ∧ (Calm s' ∨ Asked s' (· = []))) := by
  unfold memberStep at hr
  cases hl : drawL env n k fuel s.w with
  | none => rw [hl] at hr; cases hr
  | some a =>
    obtain ⟨w1, l⟩ := a
    rw [hl] at hr
    simp only at hr
    cases hm : drawM env n k l fuel w1 with
    | none => rw [hm] at hr; cases hr
    | some a =>
      obtain ⟨w2, m⟩ := a
      rw [hm] at hr
      simp only at hr
      cases hb : s.best with
      | none => rw [hb] at hr; cases hr
      | some b =>
        rw [hb] at hr
        simp only at hr
        cases hx : s.pop[k]? <;> cases hxl : s.pop[l]? <;> cases hxm : s.pop[m]? <;> rw [hx, hxl, hxm] at hr <;> try cases hr
        rename_i x xl xm
        simp only [Except.ok.injEq] at hr
        have hc := compete_stop (env := env)
          (s := ⟨(env.mutant w2 b xl xm x).1, s.pop, s.fit, some b, s.last, s.terminate, s.trace ++ [.pick k l m]⟩) (x := x) (mu := (env.mutant w2 b xl xm x).2) (k := k) (l := l) (m := m)
          (t := s.trace) rfl h
        rw [hr] at hc
        exact hc

theorem memberLoop_stop {env : Env W M E} {fuel n : Nat} : ∀ (rem k : Nat) (s s' : St W M E),
    Calm s ∨ Asked s (· = []) → memberLoop env fuel n rem k s = .ok s' → Calm s' ∨ Asked s' Late := by
  intro rem
  induction rem with
  | zero =>
    intro k s s' h hr
    cases hr
    exact h.imp id fun h => h.mono fun t ht => .inl ht
  | succ rem ih =>
    intro k s s' h hr
    rw [memberLoop] at hr
    cases hm : memberStep env fuel n k s with
    | error e => rw [hm] at hr; cases hr
    | ok a =>
      obtain ⟨s1, f⟩ := a
      rw [hm] at hr
      rcases memberStep_stop h hm with ⟨rfl, h1⟩ | ⟨rfl, h1⟩
      · cases hr; exact .inr h1
      · exact ih _ _ _ h1 hr

/-- What may follow a request made in a generation until the loop ends. -/
def Late' (b : List (Ev M E)) : Prop := tries b ≤ 1 ∧ gens b ≤ 1 ∧ cbs b ≤ 2 ∧ ∀ e ∈ b, (∀ p f, e ≠ .init p f) ∧ ∀ x, e ≠ .endOpt x

theorem Late.late' {b : List (Ev M E)} (h : Late b) (p : List M) (f : List E) : Late' (b ++ [.gen p f]) := by
  rcases h with rfl | ⟨c, rfl⟩ | ⟨k, l, m, c, c', rfl⟩ <;>
    refine ⟨by simp [tries, picks], by simp [gens, List.countP_cons], by simp [cbs, List.countP_cons], ?_⟩ <;>
    simp

/-- No member is tried in `t`. -/
theorem gens_append (a b : List (Ev M E)) : gens (a ++ b) = gens a + gens b := by simp [gens]

theorem pick_gens_memberStep {env : Env W M E} {fuel n k : Nat} {s s' : St W M E} {f : Bool}
    (hr : memberStep env fuel n k s = .ok (s', f)) : gens s'.trace = gens s.trace := by
  unfold memberStep at hr
  split at hr
  · cases hr
  · split at hr
    · cases hr
    · split at hr
      · cases hr
      · split at hr
        · simp only [Except.ok.injEq] at hr
          unfold compete at hr
          simp only at hr
          split_ifs at hr <;> cases hr <;> simp [gens, List.countP_append, List.countP_cons]
        · cases hr

theorem pick_gens_memberLoop {env : Env W M E} {fuel n : Nat} : ∀ (rem k : Nat) (s s' : St W M E),
    memberLoop env fuel n rem k s = .ok s' → gens s'.trace = gens s.trace := by
  intro rem
  induction rem with
  | zero => intro k s s' hr; cases hr; rfl
  | succ rem ih =>
    intro k s s' hr
    rw [memberLoop] at hr
    cases hm : memberStep env fuel n k s with
    | error e => rw [hm] at hr; cases hr
    | ok a =>
      obtain ⟨s1, f⟩ := a
      rw [hm] at hr
      cases f
      · rw [ih _ _ _ hr, pick_gens_memberStep hm]
      · cases hr; exact pick_gens_memberStep hm

theorem genLoop_stop {env : Env W M E} {fuel n : Nat} : ∀ (rem : Nat) (s s' : St W M E) (tol : Bool),
    Calm s ∨ Asked s Late' → genLoop env fuel n rem s = .ok (s', tol) →
    (Calm s' ∨ Asked s' Late') ∧ gens s'.trace ≤ gens s.trace + rem ∧
      (tol = false → s'.terminate = false → gens s'.trace = gens s.trace + rem) := by
  intro rem
  induction rem with
  | zero => intro s s' tol h hr; cases hr; exact ⟨h, le_refl _, fun _ _ => rfl⟩
  | succ rem ih =>
    intro s s' tol h hr
    rw [genLoop] at hr
    by_cases ht : s.terminate = true
    · rw [if_pos ht] at hr
      cases hr
      exact ⟨h, by omega, fun _ h' => by rw [ht] at h'; cases h'⟩
    · rw [if_neg ht] at hr
      have hcalm : Calm s := h.resolve_right fun h => ht h.1
      cases hm : memberLoop env fuel n n 0 s with
      | error e => rw [hm] at hr; cases hr
      | ok s1 =>
        rw [hm] at hr
        simp only at hr
        have h1 := memberLoop_stop _ _ _ _ (.inl hcalm) hm
        have hg := pick_gens_memberLoop _ _ _ _ hm
        have hg1 : gens (s1.trace ++ [.gen s1.pop s1.fit]) = gens s.trace + 1 := by rw [gens_append, hg]; rfl
        have h2 : ∀ l b, Calm ({ s1 with trace := s1.trace ++ [.gen s1.pop s1.fit], last := l, best := b } : St W M E) ∨
            Asked ({ s1 with trace := s1.trace ++ [.gen s1.pop s1.fit], last := l, best := b } : St W M E) Late' := by
          intro l b
          rcases h1 with h1 | h1
          · exact .inl ⟨h1.1, by simp only [List.any_append, h1.2]; rfl⟩
          · refine .inr ⟨h1.1, by simp only [List.any_append, h1.2.1]; rfl, ?_⟩
            simp only
            rw [behind_of_some h1.2.1]
            exact h1.2.2.late' _ _
        split_ifs at hr
        · cases hr
          refine ⟨h2 s1.last s1.best, by simp only [hg1]; omega, fun h => by cases h⟩
        · obtain ⟨h3, h4, h5⟩ := ih _ _ _ (h2 _ _) hr
          rw [hg1] at h4 h5
          exact ⟨h3, by omega, fun a b => by rw [h5 a b]; omega⟩

theorem initLoop_stop {env : Env W M E} {x₀ : M} : ∀ (n : Nat) (s : St W M E), s.terminate = s.trace.any isStop →
    (∀ e ∈ s.trace, ∃ b, e = .cb b) →
    (initLoop env x₀ n s).terminate = (initLoop env x₀ n s).trace.any isStop ∧
    ∀ e ∈ (initLoop env x₀ n s).trace, ∃ b, e = .cb b := by
  intro n
  induction n with
  | zero => intro s h h'; exact ⟨h, h'⟩
  | succ n ih =>
    intro s h h'
    refine ih _ ?_ ?_
    · simp [initStep, h, isStop]
    · intro e he
      rcases List.mem_append.1 he with he | he
      · exact h' e he
      · exact ⟨_, List.mem_singleton.1 he⟩

theorem mem_behind {α : Type} {p : α → Bool} {t : List α} {e : α} (h : e ∈ behind p t) : e ∈ t := by
  induction t with
  | nil => exact h
  | cons a t ih =>
    rw [behind] at h
    split_ifs at h
    · exact List.mem_cons_of_mem _ h
    · exact List.mem_cons_of_mem _ (ih h)

/-- **C157** DE, any objective and callbacks.  After the first stop request: if it came while the initial population was
evaluated, no generation is started; otherwise at most one more member is tried, no member is replaced after the one whose
`StepTaken` asked (a further callback can be notified only twice), and the current generation is the last.  Without a request
and without a tolerance exit exactly `maxGenerations` generations are run. -/
theorem C157_de_stop {env : Env W M E} {n maxGen fuel : Nat} {w : W} {x : M} {r : Result M E}
    (h : optimize env n maxGen fuel w x = .ok r) :
    (r.trace.any isStop = true →
      (∃ pop fit, .init pop fit ∈ behind isStop r.trace ∧ tries r.trace = 0 ∧ gens r.trace = 0 ∧ r.pop = pop) ∨
      (tries (behind isStop r.trace) ≤ 1 ∧ gens (behind isStop r.trace) ≤ 1 ∧ cbs (behind isStop r.trace) ≤ 2)) ∧
    gens r.trace ≤ maxGen ∧
    (r.trace.any isStop = false → r.tol = false → gens r.trace = maxGen) := by
  unfold optimize at h
  split_ifs at h with hn
  cases hg : genLoop env fuel n maxGen (start env n w x) with
  | error e => rw [hg] at h; cases h
  | ok a =>
    obtain ⟨s, tol⟩ := a
    rw [hg] at h
    simp only [Except.ok.injEq] at h
    obtain ⟨hi1, hi2⟩ := initLoop_stop (env := env) (x₀ := x) n (start0 env w) rfl (by simp [start0])
    have hbest : ∃ u : List (Ev M E), r.trace = s.trace ++ u ∧ u.any isStop = false ∧ tries u = 0 ∧ gens u = 0 ∧ cbs u = 0 := by
      rw [← h]
      cases s.best with
      | none => exact ⟨[], rfl, rfl, rfl, rfl, rfl⟩
      | some b => exact ⟨[.endOpt b], rfl, rfl, rfl, rfl, rfl⟩
    obtain ⟨u, hu, hu1, hu2, hu3, hu4⟩ := hbest
    have htol : r.tol = tol := by rw [← h]
    have hpop : r.pop = s.pop := by rw [← h]
    clear h
    have hgi : gens (initLoop env x n (start0 env w)).trace = 0 := by
      rw [gens, List.countP_eq_zero]
      intro e he
      obtain ⟨b, rfl⟩ := hi2 e he
      simp
    have hpi : tries (initLoop env x n (start0 env w)).trace = 0 := by
      rw [tries, picks, List.length_eq_zero_iff, List.filterMap_eq_nil_iff]
      intro e he
      obtain ⟨b, rfl⟩ := hi2 e he
      rfl
    generalize hs0 : initLoop env x n (start0 env w) = s0 at hi1 hi2 hgi hpi
    have hst : start env n w x = { s0 with w := (env.cbBegin s0.w x).1, trace := s0.trace ++ [.init s0.pop s0.fit] } := by
      unfold start; rw [hs0]
    have hgst : gens (start env n w x).trace = 0 := by rw [hst, gens_append, hgi]; rfl
    have hpst : tries (start env n w x).trace = 0 := by
      rw [hst, tries, picks_append, List.length_append]
      rw [tries] at hpi
      rw [hpi]; rfl
    have hany : (start env n w x).trace.any isStop = s0.trace.any isStop := by
      rw [hst, List.any_append]; simp [isStop]
    by_cases ht : s0.terminate = true
    · have hloop : genLoop env fuel n maxGen (start env n w x) = .ok (start env n w x, false) := by
        cases maxGen with
        | zero => rfl
        | succ k =>
          rw [genLoop, if_pos (by rw [hst]; exact ht)]
      rw [hloop] at hg
      cases hg
      have hany' : s0.trace.any isStop = true := by rw [← hi1, ht]
      refine ⟨fun _ => .inl ⟨s0.pop, s0.fit, ?_, ?_, ?_, by rw [hpop, hst]⟩, ?_, ?_⟩
      · rw [hu, hst, List.append_assoc, behind_of_some hany']
        simp
      · rw [hu, tries, picks_append, List.length_append]
        rw [tries] at hpst hu2
        rw [hpst, hu2]
      · rw [hu, gens_append, hgst, hu3]
      · rw [hu, gens_append, hgst, hu3]; omega
      · intro h'
        rw [hu, List.any_append, hany, hany'] at h'
        cases h'
    · have ht' : s0.terminate = false := by simpa using ht
      have hcalm : Calm (start env n w x) := ⟨by rw [hst]; exact ht', by rw [hany, ← hi1, ht']⟩
      obtain ⟨h1, h2, h3⟩ := genLoop_stop _ _ _ _ (.inl hcalm) hg
      rw [hgst] at h2 h3
      have hgr : gens r.trace = gens s.trace := by rw [hu, gens_append, hu3]; rfl
      refine ⟨fun hr => .inr ?_, by omega, fun hr hr' => ?_⟩
      · rcases h1 with h1 | h1
        · rw [hu, List.any_append, h1.2, hu1] at hr; cases hr
        · rw [hu, behind_of_some h1.2.1]
          obtain ⟨a, b, c, _⟩ := h1.2.2
          refine ⟨?_, by rw [gens_append, hu3]; omega, ?_⟩
          · rw [tries, picks_append, List.length_append]
            rw [tries] at a hu2
            omega
          · rw [cbs, List.countP_append]
            rw [cbs] at c hu4
            omega
      · rcases h1 with h1 | h1
        · rw [hgr, h3 (htol ▸ hr') h1.1]; omega
        · rw [hu, List.any_append, h1.2.1] at hr; cases hr

/-- Non-vacuity: the evaluation of the second mutant asks to stop (draws are counted by the world). -/
example : ∃ r, optimize { demo 0 with cbEvaluate := fun w x _ => (w, decide (x = -2)) } 3 7 9 0 0 = .ok r ∧
    r.trace.any isStop = true ∧ tries r.trace = 2 ∧ gens r.trace = 1 ∧ r.pop = [-1, 1, 2] := ⟨_, rfl, rfl, rfl, rfl, rfl⟩

end Ens.De
