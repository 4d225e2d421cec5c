import Verif.Stop
import Verif.Pso.Props

/-
C160, C157: particle swarm optimisation computes the textbook iteration; stop requests.
-/

namespace Ens.Pso

variable {W M E : Type} [LT E] [DecidableLT E]

/-- A pure objective `F` and callbacks that only watch; random numbers are drawn by the velocity update alone, which returns
one velocity per particle. -/
structure Quiet (env : Env W M E) (F : M → E) : Prop where
  evaluate : ∀ w x, env.evaluate w x = (w, F x)
  cbEvaluate : ∀ w x e, env.cbEvaluate w x e = (w, false)
  cbStep : ∀ w x, env.cbStep w x = (w, x, false)
  velocity : ∀ w ps, (env.velocity w ps).2.length = ps.length

/-- Textbook step: record personal bests, compute velocities from the swarm with its personal bests, move by the new
velocities. -/
def tbStep (env : Env W M E) (F : M → E) (s : W × List (Particle M E)) : W × List (Particle M E) :=
  let ps := s.2.map fun p => if F p.pos < p.bestFit then ⟨p.pos, p.vel, p.pos, F p.pos⟩ else p
  let u := env.velocity s.1 ps
  (u.1, List.zipWith (fun p v => ⟨env.add p.pos v, v, p.bestPos, p.bestFit⟩) ps u.2)

/-- The swarm after `k` textbook iterations. -/
def tb (env : Env W M E) (F : M → E) (s : W × List (Particle M E)) : Nat → W × List (Particle M E)
  | 0 => s
  | k + 1 => tbStep env F (tb env F s k)

/-- The swarm at the start: personal bests are the initial positions. -/
def tbInit (F : M → E) (swarm : List (Particle M E)) : List (Particle M E) :=
  swarm.map fun p => ⟨p.pos, p.vel, p.bestPos, F p.pos⟩

theorem evalInit_quiet {env : Env W M E} {F : M → E} (hq : Quiet env F) (w : W) (ps : List (Particle M E)) :
    evalInit env ps w = (w, tbInit F ps, false, ps.map fun p => .eval p.pos (F p.pos) false) := by
  induction ps with
  | nil => rfl
  | cons p ps ih =>
    simp only [evalInit, hq.evaluate, hq.cbEvaluate, ih, tbInit, List.map_cons]
    rfl

theorem evalSwarm_quiet {env : Env W M E} {F : M → E} (hq : Quiet env F) (l : Bool) (w : W) (ps : List (Particle M E)) :
    evalSwarm env l ps w = (w, ps.map (fun p => if F p.pos < p.bestFit then ⟨p.pos, p.vel, p.pos, F p.pos⟩ else p), false,
      ps.map fun p => .eval p.pos (F p.pos) false) := by
  induction ps with
  | nil => rfl
  | cons p ps ih =>
    simp only [evalSwarm, hq.evaluate, hq.cbEvaluate, ih, List.map_cons, improve]
    rfl

theorem move_eq (add : M → M → M) : ∀ (ps : List (Particle M E)) (vs : List M), vs.length = ps.length →
    move add ps vs = List.zipWith (fun p v => ⟨add p.pos v, v, p.bestPos, p.bestFit⟩) ps vs := by
  intro ps
  induction ps with
  | nil => intro vs h; simp at h; subst h; rfl
  | cons p ps ih =>
    intro vs h
    cases vs with
    | nil => simp at h
    | cons v vs => rw [move, ih vs (by simpa using h)]; rfl

theorem pass_quiet {env : Env W M E} {F : M → E} (hq : Quiet env F) (l : Bool) {s s' : St W M E}
    (h : pass env l s = .ok s') :
    (s'.w, s'.swarm) = tbStep env F (s.w, s.swarm) ∧ s'.terminate = false ∧
    evals s'.trace = evals s.trace ++ s.swarm.map (fun p => (p.pos, F p.pos, false)) ∧
    (iters s'.trace).map Prod.fst = (iters s.trace).map Prod.fst ++ [s'.swarm.map (·.bestFit)] := by
  unfold pass at h
  simp only [evalSwarm_quiet hq] at h
  rw [move_eq _ _ _ (hq.velocity _ _)] at h
  split at h
  · cases h
  · rename_i p hp
    simp only [hq.cbStep, Except.ok.injEq] at h
    subst h
    have hset : ∀ {l : List (Particle M E)} {i : Nat} {p : Particle M E}, l[i]? = some p → l.set i p = l := by
      intro l i p hl
      apply List.ext_getElem?
      intro k
      by_cases hk : k = i
      · subst hk
        have : k < l.length := by
          by_contra hc; rw [List.getElem?_eq_none (by omega)] at hl; cases hl
        rw [List.getElem?_set_self this, hl]
      · rw [List.getElem?_set_ne (Ne.symm hk)]
    refine ⟨?_, rfl, ?_, ?_⟩
    · simp only [tbStep]
      rw [hset hp]
    · simp only [evals, List.filterMap_append, List.append_assoc]
      congr 1
      generalize s.swarm = ps
      simp [List.filterMap_map, Function.comp_def]
    · simp only [iters, List.filterMap_append, List.map_append, List.append_assoc]
      congr 1
      rw [hset hp]
      generalize s.swarm = ps
      simp [List.filterMap_map, Function.comp_def]

/-- What is known after `k` iterations. -/
structure TbInv (env : Env W M E) (F : M → E) (s₀ : W × List (Particle M E)) (ev₀ : List (M × E × Bool)) (k : Nat)
    (s : St W M E) : Prop where
  state : (s.w, s.swarm) = tb env F s₀ k
  go : s.terminate = false
  evals : evals s.trace = ev₀ ++ (List.range k).flatMap fun i => (tb env F s₀ i).2.map fun p => (p.pos, F p.pos, false)
  iters : (iters s.trace).map Prod.fst = (List.range k).map fun i => (tb env F s₀ (i + 1)).2.map (·.bestFit)

theorem TbInv.pass {env : Env W M E} {F : M → E} (hq : Quiet env F) {s₀ : W × List (Particle M E)}
    {ev₀ : List (M × E × Bool)} {k : Nat} {s s' : St W M E} (h : TbInv env F s₀ ev₀ k s) {l : Bool}
    (hp : pass env l s = .ok s') (q : List E) : TbInv env F s₀ ev₀ (k + 1) { s' with queue := q } := by
  obtain ⟨h1, h2, h3, h4⟩ := pass_quiet hq l hp
  have hs : s.swarm = (tb env F s₀ k).2 := by rw [← h.state]
  refine ⟨?_, h2, ?_, ?_⟩
  · show (s'.w, s'.swarm) = _
    rw [h1, h.state]; rfl
  · show Pso.evals s'.trace = _
    rw [h3, h.evals, List.range_succ, List.flatMap_append, hs]
    simp
  · show (Pso.iters s'.trace).map _ = _
    have hs' : s'.swarm = (tb env F s₀ (k + 1)).2 := by
      have : (s'.w, s'.swarm) = tb env F s₀ (k + 1) := by rw [h1, h.state]; rfl
      rw [← this]
    rw [h4, h.iters, List.range_succ, List.map_append, hs']
    rfl

theorem phase1_tb {env : Env W M E} {F : M → E} (hq : Quiet env F) {s₀ : W × List (Particle M E)}
    {ev₀ : List (M × E × Bool)} : ∀ (rem k : Nat) (s s' : St W M E), TbInv env F s₀ ev₀ k s → phase1 env rem s = .ok s' →
    TbInv env F s₀ ev₀ (k + rem) s' := by
  intro rem
  induction rem with
  | zero => intro k s s' h hr; cases hr; exact h
  | succ rem ih =>
    intro k s s' h hr
    rw [phase1, if_neg (by rw [h.go]; simp)] at hr
    cases hp : pass env false s with
    | error e => rw [hp] at hr; cases hr
    | ok s1 =>
      rw [hp] at hr
      have := ih (k + 1) _ _ (h.pass hq hp _) hr
      rwa [Nat.add_assoc, Nat.add_comm 1 rem] at this

theorem phase2_tb {env : Env W M E} {F : M → E} (hq : Quiet env F) {s₀ : W × List (Particle M E)}
    {ev₀ : List (M × E × Bool)} : ∀ (rem k : Nat) (s s' : St W M E), TbInv env F s₀ ev₀ k s → phase2 env rem s = .ok s' →
    ∃ k', k ≤ k' ∧ k' ≤ k + rem ∧ TbInv env F s₀ ev₀ k' s' := by
  intro rem
  induction rem with
  | zero => intro k s s' h hr; cases hr; exact ⟨k, le_refl _, le_refl _, h⟩
  | succ rem ih =>
    intro k s s' h hr
    rw [phase2, if_neg (by rw [h.go]; simp)] at hr
    split at hr
    · split_ifs at hr
      · cases hr; exact ⟨k, le_refl _, by omega, h⟩
      · cases hp : pass env true s with
        | error e => rw [hp] at hr; cases hr
        | ok s1 =>
          rw [hp] at hr
          obtain ⟨k', a, b, c⟩ := ih (k + 1) _ _ (h.pass hq hp _) hr
          exact ⟨k', by omega, by omega, c⟩
    · cases hr

/-- **C160** With watching callbacks, a run of PSO is `k` textbook iterations for some `horizonSize ≤ k ≤ maxIterations`: the
positions evaluated are the initial ones and then, for each iteration, those of the textbook swarm (positions moved by the new
velocities, velocities computed from the swarm with up-to-date personal bests), the personal bests recorded in each iteration
are those of the textbook swarm, and the coordinates returned are the personal best of one of its particles. -/
theorem C160_pso_is_textbook {env : Env W M E} {F : M → E} (hq : Quiet env F) {horizon maxIter : Nat} {w : W}
    {swarm : List (Particle M E)} {r : Result M E} (h : optimize env horizon maxIter w swarm = .ok r) :
    ∃ k, horizon ≤ k ∧ k ≤ maxIter ∧
      evals r.trace = swarm.map (fun p => (p.pos, F p.pos, false)) ++ (List.range k).flatMap (fun i =>
        (tb env F (w, tbInit F swarm) i).2.map fun p => (p.pos, F p.pos, false)) ∧
      (iters r.trace).map Prod.fst = (List.range k).map (fun i =>
        (tb env F (w, tbInit F swarm) (i + 1)).2.map (·.bestFit)) ∧
      ∃ p ∈ (tb env F (w, tbInit F swarm) k).2, r.x = p.bestPos := by
  unfold optimize at h
  split_ifs at h with hh
  have hst : TbInv env F (w, tbInit F swarm) (swarm.map fun p => (p.pos, F p.pos, false)) 0 (start env w swarm) := by
    unfold start
    rw [evalInit_quiet hq]
    refine ⟨rfl, rfl, ?_, ?_⟩
    · simp [evals, List.filterMap_map, Function.comp_def]
    · simp [iters, List.filterMap_map, Function.comp_def]
  cases h1 : phase1 env horizon (start env w swarm) with
  | error e => rw [h1] at h; cases h
  | ok s1 =>
    rw [h1] at h
    simp only at h
    have hs1 := phase1_tb hq _ _ _ _ hst h1
    rw [Nat.zero_add] at hs1
    cases h2 : phase2 env (maxIter - horizon) s1 with
    | error e => rw [h2] at h; cases h
    | ok s =>
      rw [h2] at h
      simp only at h
      obtain ⟨k, a, b, c⟩ := phase2_tb hq _ _ _ _ hs1 h2
      cases hb : s.swarm[s.best]? with
      | none => rw [hb] at h; cases h
      | some p =>
        rw [hb] at h
        cases h
        refine ⟨k, a, by omega, c.evals, c.iters, p, ?_, rfl⟩
        rw [← c.state]
        exact List.mem_of_getElem? hb

/-- **C160** A horizon longer than the iteration limit is rejected, and nothing else is rejected for its horizon. -/
theorem C160_pso_horizon_guard (env : Env W M E) (horizon maxIter : Nat) (w : W) (swarm : List (Particle M E)) :
    optimize env horizon maxIter w swarm = .error .horizonTooLong ↔ maxIter < horizon := by
  have hpass : ∀ l s, pass env l s ≠ .error .horizonTooLong := by
    intro l s h
    unfold pass at h
    simp only at h
    split at h <;> cases h
  have hp1 : ∀ n s, phase1 env n s ≠ .error .horizonTooLong := by
    intro n
    induction n with
    | zero => intro s h; cases h
    | succ n ih =>
      intro s h
      rw [phase1] at h
      split_ifs at h
      cases hp : pass env false s with
      | error e => rw [hp] at h; cases h; exact hpass _ _ hp
      | ok s1 => rw [hp] at h; exact ih _ h
  have hp2 : ∀ n s, phase2 env n s ≠ .error .horizonTooLong := by
    intro n
    induction n with
    | zero => intro s h; cases h
    | succ n ih =>
      intro s h
      rw [phase2] at h
      split_ifs at h
      split at h
      · split_ifs at h
        cases hp : pass env true s with
        | error e => rw [hp] at h; cases h; exact hpass _ _ hp
        | ok s1 => rw [hp] at h; exact ih _ h
      · cases h
  constructor
  · intro h
    by_contra hc
    unfold optimize at h
    rw [if_neg hc] at h
    cases h1 : phase1 env horizon (start env w swarm) with
    | error e => rw [h1] at h; cases h; exact hp1 _ _ h1
    | ok s1 =>
      rw [h1] at h
      simp only at h
      cases h2 : phase2 env (maxIter - horizon) s1 with
      | error e => rw [h2] at h; cases h; exact hp2 _ _ h2
      | ok s =>
        rw [h2] at h
        simp only at h
        split at h <;> cases h
  · intro h
    unfold optimize
    rw [if_pos h]

/-- Non-vacuity: two accelerating particles. -/
def demoQ : Env Nat Int Int :=
  { demo false 0 with velocity := fun w ps => (w + 1, ps.map fun p => p.vel - p.bestPos + w) }

example : Quiet demoQ id ∧ ∃ r, optimize demoQ 1 3 0 [⟨7, 0, 7, 1000⟩, ⟨9, -1, 9, 1000⟩] = .ok r ∧
    (evals r.trace).map Prod.fst = [7, 9, 7, 9, 0, -1, -6, -9] :=
  ⟨⟨fun _ _ => rfl, fun _ _ _ => rfl, fun _ _ => rfl, fun w ps => by simp [demoQ]⟩, _, rfl, rfl⟩

/-! ### Stop requests -/

def isStop : Ev M E → Bool
  | .eval _ _ b => b
  | .step b => b
  | _ => false

/-- Nobody has asked to stop. -/
def Calm (s : St W M E) : Prop := s.terminate = false ∧ s.trace.any isStop = false

/-- Somebody has, nothing was evaluated since, and at most one iteration was finished. -/
def Asked (s : St W M E) : Prop :=
  s.terminate = true ∧ s.trace.any isStop = true ∧ evals (behind isStop s.trace) = [] ∧
    (iters (behind isStop s.trace)).length ≤ 1

theorem evalSwarm_stop (env : Env W M E) (l : Bool) : ∀ (ps : List (Particle M E)) (w : W),
    ((evalSwarm env l ps w).2.2.1 = false ∧ (evalSwarm env l ps w).2.2.2.any isStop = false) ∨
    ((evalSwarm env l ps w).2.2.1 = true ∧ (evalSwarm env l ps w).2.2.2.any isStop = true ∧
      behind isStop (evalSwarm env l ps w).2.2.2 = []) := by
  intro ps
  induction ps with
  | nil => intro w; exact .inl ⟨rfl, rfl⟩
  | cons p ps ih =>
    intro w
    simp only [evalSwarm]
    split_ifs with hc
    all_goals first
      | exact .inr ⟨rfl, rfl, rfl⟩
      | (rcases ih (env.cbEvaluate (env.evaluate w p.pos).1 p.pos (env.evaluate w p.pos).2).1 with ⟨h1, h2⟩ | ⟨h1, h2, h3⟩
         · exact .inl ⟨h1, by simpa [isStop] using h2⟩
         · exact .inr ⟨h1, by simpa [isStop] using h2, by simpa [behind, isStop] using h3⟩)

theorem evalInit_stop (env : Env W M E) : ∀ (ps : List (Particle M E)) (w : W),
    ((evalInit env ps w).2.2.1 = false ∧ (evalInit env ps w).2.2.2.any isStop = false) ∨
    ((evalInit env ps w).2.2.1 = true ∧ (evalInit env ps w).2.2.2.any isStop = true ∧
      behind isStop (evalInit env ps w).2.2.2 = []) := by
  intro ps
  induction ps with
  | nil => intro w; exact .inl ⟨rfl, rfl⟩
  | cons p ps ih =>
    intro w
    simp only [evalInit]
    split_ifs with hc
    · exact .inr ⟨rfl, rfl, rfl⟩
    · rcases ih (env.cbEvaluate (env.evaluate w p.pos).1 p.pos (env.evaluate w p.pos).2).1 with ⟨h1, h2⟩ | ⟨h1, h2, h3⟩
      · exact .inl ⟨h1, by simpa [isStop] using h2⟩
      · exact .inr ⟨h1, by simpa [isStop] using h2, by simpa [behind, isStop] using h3⟩

theorem pass_stop {env : Env W M E} {l : Bool} {s s' : St W M E} (h : Calm s) (hp : pass env l s = .ok s') (q : List E) :
    Calm { s' with queue := q } ∨ Asked { s' with queue := q } := by
  unfold pass at hp
  simp only at hp
  have hv := evalSwarm_stop env l s.swarm s.w
  generalize evalSwarm env l s.swarm s.w = v at hp hv
  split at hp
  · cases hp
  · rename_i p _
    simp only [Except.ok.injEq] at hp
    subst hp
    unfold Calm Asked
    simp only
    rcases hv with ⟨h1, h2⟩ | ⟨h1, h2, h3⟩
    · have h4 : (s.trace ++ v.2.2.2).any isStop = false := by rw [List.any_append, h.2, h2]; rfl
      cases hk : (env.cbStep (env.velocity v.1 v.2.1).1 p.bestPos).2.2
      · left
        exact ⟨by rw [h1]; rfl, by rw [List.any_append, h4]; rfl⟩
      · right
        refine ⟨by simp, by rw [List.any_append, h4]; rfl, ?_⟩
        rw [behind_of_none h4]
        exact ⟨rfl, Nat.zero_le _⟩
    · right
      have h4 : (s.trace ++ v.2.2.2).any isStop = true := by rw [List.any_append, h2]; simp
      refine ⟨by rw [h1]; rfl, by rw [List.any_append, h4]; rfl, ?_⟩
      rw [behind_of_some h4, behind_of_none h.2, h3]
      exact ⟨rfl, le_refl 1⟩

theorem phase1_stop {env : Env W M E} : ∀ (n : Nat) (s s' : St W M E), Calm s ∨ Asked s → phase1 env n s = .ok s' →
    Calm s' ∨ Asked s' := by
  intro n
  induction n with
  | zero => intro s s' h hr; cases hr; exact h
  | succ n ih =>
    intro s s' h hr
    rw [phase1] at hr
    split_ifs at hr with ht
    · cases hr; exact h
    · cases hp : pass env false s with
      | error e => rw [hp] at hr; cases hr
      | ok s1 =>
        rw [hp] at hr
        exact ih _ _ (pass_stop (h.resolve_right fun h => ht h.1) hp _) hr

theorem phase2_stop {env : Env W M E} : ∀ (n : Nat) (s s' : St W M E), Calm s ∨ Asked s → phase2 env n s = .ok s' →
    Calm s' ∨ Asked s' := by
  intro n
  induction n with
  | zero => intro s s' h hr; cases hr; exact h
  | succ n ih =>
    intro s s' h hr
    rw [phase2] at hr
    split_ifs at hr with ht
    · cases hr; exact h
    · split at hr
      · split_ifs at hr
        · cases hr; exact h
        · cases hp : pass env true s with
          | error e => rw [hp] at hr; cases hr
          | ok s1 =>
            rw [hp] at hr
            exact ih _ _ (pass_stop (h.resolve_right fun h => ht h.1) hp _) hr
      · cases hr

/-- **C157** PSO, any objective, callbacks and policies: after a stop request nothing is evaluated any more and at most the
current iteration is finished. -/
theorem C157_pso_stop {env : Env W M E} {horizon maxIter : Nat} {w : W} {swarm : List (Particle M E)} {r : Result M E}
    (h : optimize env horizon maxIter w swarm = .ok r) (hs : r.trace.any isStop = true) :
    evals (behind isStop r.trace) = [] ∧ (iters (behind isStop r.trace)).length ≤ 1 := by
  unfold optimize at h
  split_ifs at h
  have hst : Calm (start env w swarm) ∨ Asked (start env w swarm) := by
    rcases evalInit_stop env swarm w with h' | ⟨h1, h2, h3⟩
    · exact .inl h'
    · refine .inr ⟨h1, h2, ?_⟩
      show evals (behind isStop (evalInit env swarm w).2.2.2) = [] ∧ (iters (behind isStop (evalInit env swarm w).2.2.2)).length ≤ 1
      rw [h3]
      exact ⟨rfl, Nat.zero_le _⟩
  cases h1 : phase1 env horizon (start env w swarm) with
  | error e => rw [h1] at h; cases h
  | ok s1 =>
    rw [h1] at h
    simp only at h
    cases h2 : phase2 env (maxIter - horizon) s1 with
    | error e => rw [h2] at h; cases h
    | ok s =>
      rw [h2] at h
      simp only at h
      have hfin := phase2_stop _ _ _ (phase1_stop _ _ _ hst h1) h2
      cases hb : s.swarm[s.best]? with
      | none => rw [hb] at h; cases h
      | some p =>
        rw [hb] at h
        cases h
        rcases hfin with hf | hf
        · rw [hf.2] at hs; cases hs
        · exact hf.2.2

/-- Non-vacuity: the evaluation of -1 asks to stop. -/
example : ∃ r, optimize { demoQ with cbEvaluate := fun w x _ => (w, decide (x = -1)) } 1 9 0
      [⟨7, 0, 7, 1000⟩, ⟨9, -1, 9, 1000⟩] = .ok r ∧ r.trace.any isStop = true ∧
    (evals r.trace).map Prod.fst = [7, 9, 7, 9, 0, -1] := ⟨_, rfl, rfl, rfl⟩

end Ens.Pso
