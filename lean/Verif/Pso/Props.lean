import Mathlib.Data.List.Forall2
import Mathlib.Data.List.Chain
import Mathlib.Tactic.SplitIfs
import Verif.Common
import Verif.Pso.Model

/-
C23, C79, C80: the main loop of the particle swarm optimizer.
-/

namespace Ens.Pso

variable {W M E : Type} [LT E] [DecidableLT E]

/-- Deterministic objective; `StepTaken` callbacks leave the coordinates alone. -/
structure Sane (env : Env W M E) (F : M → E) : Prop where
  evaluate : ∀ w x, (env.evaluate w x).2 = F x
  cbStep : ∀ w x, (env.cbStep w x).2.1 = x

/-- Finished iterations of a run: personal best fitnesses and global best. -/
def iters (t : List (Ev M E)) : List (List E × E) :=
  t.filterMap fun e => match e with | .iter f b => some (f, b) | _ => none

@[simp] theorem iters_append (a b : List (Ev M E)) : iters (a ++ b) = iters a ++ iters b := by
  simp [iters]

/-- Evaluations of a run. -/
def evals (t : List (Ev M E)) : List (M × E × Bool) :=
  t.filterMap fun e => match e with | .eval x v b => some (x, v, b) | _ => none

@[simp] theorem evals_append (a b : List (Ev M E)) : evals (a ++ b) = evals a ++ evals b := by
  simp [evals]

/-- Some callback asked to stop. -/
def Stopped (t : List (Ev M E)) : Prop := (∃ x v, .eval x v true ∈ t) ∨ .step true ∈ t

theorem Stopped.mono {a b : List (Ev M E)} (h : ∀ e ∈ a, e ∈ b) (hs : Stopped a) : Stopped b := by
  rcases hs with ⟨x, v, hx⟩ | hx
  · exact .inl ⟨x, v, h _ hx⟩
  · exact .inr (h _ hx)

/-- A value not worse than another one: the same or strictly smaller. -/
def NW (a b : E) : Prop := b = a ∨ b < a

theorem NW.rfl {a : E} : NW a a := .inl (Eq.refl _)

theorem NW.trans [StrictPO E] {a b c : E} (h : NW a b) (h' : NW b c) : NW a c := by
  rcases h with rfl | h
  · exact h'
  · rcases h' with rfl | h'
    · exact .inr h
    · exact .inr (StrictPO.trans _ _ _ h' h)

/-! ### Pieces of an iteration -/

/-- `q` is what an evaluation of the swarm may make of `p`. -/
def Upd (F : M → E) (p q : Particle M E) : Prop := q = p ∨ q = improve p (F p.pos)

theorem Upd.nw {F : M → E} {p q : Particle M E} (h : Upd F p q) : NW p.bestFit q.bestFit := by
  rcases h with rfl | rfl
  · exact NW.rfl
  · unfold improve; split_ifs with h
    · exact .inr h
    · exact NW.rfl

theorem Upd.good {F : M → E} {p q : Particle M E} (h : Upd F p q) (hp : p.bestFit = F p.bestPos) :
    q.bestFit = F q.bestPos := by
  rcases h with rfl | rfl
  · exact hp
  · unfold improve; split_ifs <;> simp [hp]

theorem forall₂_rfl {α : Type} {R : α → α → Prop} (h : ∀ a, R a a) : ∀ l : List α, List.Forall₂ R l l
  | [] => .nil
  | a :: l => .cons (h a) (forall₂_rfl h l)

/-- What an evaluation of the swarm does. -/
structure EvalSpec (F : M → E) (lastToo : Bool) (ps qs : List (Particle M E)) (stop : Bool)
    (t : List (Ev M E)) : Prop where
  upd : List.Forall₂ (Upd F) ps qs
  stop_iff : stop = true ↔ Stopped t
  iters : iters t = []
  val : ∀ e ∈ evals t, e.2.1 = F e.1
  seen : ∀ e ∈ evals t, e.2.2 = false ∨ lastToo = true → ∃ (i : Nat) (p : Particle M E), ps[i]? = some p ∧ p.pos = e.1 ∧
    qs[i]? = some (improve p e.2.1)
  count : stop = false → t.length = ps.length

theorem not_stopped_nil : ¬ Stopped ([] : List (Ev M E)) := by simp [Stopped]

theorem stopped_cons_false {x : M} {v : E} {t : List (Ev M E)} :
    Stopped (Ev.eval x v false :: t) ↔ Stopped t := by simp [Stopped]

theorem evalSwarm_spec {env : Env W M E} {F : M → E} (hs : Sane env F) (lastToo : Bool) :
    ∀ (ps : List (Particle M E)) (w : W), EvalSpec F lastToo ps (evalSwarm env lastToo ps w).2.1
      (evalSwarm env lastToo ps w).2.2.1 (evalSwarm env lastToo ps w).2.2.2 := by
  intro ps
  induction ps with
  | nil =>
    intro w
    exact ⟨.nil, by simp [evalSwarm, Stopped], rfl, by simp [evalSwarm, evals],
      by simp [evalSwarm, evals], fun _ => rfl⟩
  | cons p ps ih =>
    intro w
    simp only [evalSwarm, hs.evaluate]
    generalize (env.evaluate w p.pos).1 = w1
    by_cases hc : (env.cbEvaluate w1 p.pos (F p.pos)).2 = true
    · simp only [hc, if_true]
      refine ⟨.cons ?_ (forall₂_rfl (fun _ => .inl rfl) _), ?_, rfl, ?_, ?_, by simp⟩
      · cases lastToo
        · exact .inl rfl
        · exact .inr rfl
      · simp [Stopped]
      · simp [evals]
      · intro e he hl
        simp only [evals, List.filterMap_cons, List.filterMap_nil, List.mem_singleton] at he
        subst he
        refine ⟨0, p, rfl, rfl, ?_⟩
        rcases hl with hl | hl
        · cases hl
        · simp [hl]
    · simp only [hc, Bool.false_eq_true, if_false]
      have h := ih (env.cbEvaluate w1 p.pos (F p.pos)).1
      generalize evalSwarm env lastToo ps (env.cbEvaluate w1 p.pos (F p.pos)).1 = r at h ⊢
      refine ⟨.cons (.inr rfl) h.upd, ?_, ?_, ?_, ?_, ?_⟩
      · rw [stopped_cons_false]; exact h.stop_iff
      · have := h.iters; simpa [Pso.iters] using this
      · intro e he
        rcases List.mem_cons.1 (show e ∈ (p.pos, F p.pos, false) :: evals r.2.2.2 from he) with
          rfl | he
        · rfl
        · exact h.val e he
      · intro e he hl
        rcases List.mem_cons.1 (show e ∈ (p.pos, F p.pos, false) :: evals r.2.2.2 from he) with
          rfl | he
        · exact ⟨0, p, rfl, rfl, rfl⟩
        · obtain ⟨i, q, h1, h2, h3⟩ := h.seen e he hl
          exact ⟨i + 1, q, h1, h2, h3⟩
      · intro hf; simp [h.count hf]

theorem move_fit (add : M → M → M) : ∀ (ps : List (Particle M E)) (vs : List M),
    (move add ps vs).map (fun p => (p.bestPos, p.bestFit)) = ps.map fun p => (p.bestPos, p.bestFit) := by
  intro ps
  induction ps with
  | nil => intro vs; cases vs <;> rfl
  | cons p ps ih =>
    intro vs
    cases vs with
    | nil => rfl
    | cons v vs => simp [move, ih]

theorem findBest_spec [StrictPO E] : ∀ (ps : List (Particle M E)) (j : Nat) (b : Nat × E),
    (findBest ps j b = b ∧ ∀ p ∈ ps, ¬ p.bestFit < b.2) ∨
    ((findBest ps j b).2 < b.2 ∧ (∀ p ∈ ps, ¬ p.bestFit < (findBest ps j b).2) ∧
      ∃ (i : Nat) (p : Particle M E), ps[i]? = some p ∧ (findBest ps j b).1 = j + i ∧ p.bestFit = (findBest ps j b).2) := by
  intro ps
  induction ps with
  | nil => intro j b; exact .inl ⟨rfl, by simp⟩
  | cons p ps ih =>
    intro j b
    simp only [findBest]
    by_cases hlt : p.bestFit < b.2
    · simp only [hlt, if_true]
      right
      rcases ih (j + 1) (j, p.bestFit) with ⟨h1, h2⟩ | ⟨h1, h2, i, q, h3, h4, h5⟩
      · rw [h1]
        refine ⟨hlt, ?_, 0, p, rfl, rfl, rfl⟩
        intro q hq
        rcases List.mem_cons.1 hq with rfl | hq
        · exact StrictPO.irrefl _
        · exact h2 q hq
      · refine ⟨StrictPO.trans _ _ _ h1 hlt, ?_, i + 1, q, h3, by omega, h5⟩
        intro q hq
        rcases List.mem_cons.1 hq with rfl | hq
        · exact StrictPO.asymm h1
        · exact h2 q hq
    · simp only [hlt, if_false]
      rcases ih (j + 1) b with ⟨h1, h2⟩ | ⟨h1, h2, i, q, h3, h4, h5⟩
      · left
        refine ⟨h1, ?_⟩
        intro q hq
        rcases List.mem_cons.1 hq with rfl | hq
        · exact hlt
        · exact h2 q hq
      · right
        refine ⟨h1, ?_, i + 1, q, h3, by omega, h5⟩
        intro q hq
        rcases List.mem_cons.1 hq with rfl | hq
        · intro h; exact hlt (StrictPO.trans _ _ _ h h1)
        · exact h2 q hq

/-! ### One iteration -/

/-- State of the swarm as far as the result is concerned. -/
structure Inv (F : M → E) (maxVal : E) (n : Nat) (s : St W M E) : Prop where
  len : s.swarm.length = n
  good : ∀ p ∈ s.swarm, p.bestFit = F p.bestPos
  best : s.bestFit = maxVal ∧ s.best = 0 ∨
    s.bestFit < maxVal ∧ ∃ p, s.swarm[s.best]? = some p ∧ p.bestFit = s.bestFit
  lastEq : iters s.trace ≠ [] → (iters s.trace).getLast? = some (s.swarm.map (·.bestFit), s.bestFit)
  mono : (iters s.trace).Pairwise fun a b => List.Forall₂ NW a.1 b.1 ∧ NW a.2 b.2
  last : ∀ a ∈ iters s.trace, List.Forall₂ NW a.1 (s.swarm.map (·.bestFit)) ∧ NW a.2 s.bestFit
  min : ∀ a ∈ iters s.trace, ∀ f ∈ a.1, ¬ f < a.2
  val : ∀ e ∈ evals s.trace, e.2.1 = F e.1
  seen : ∀ e ∈ evals s.trace, e.2.2 = false → ∃ p ∈ s.swarm, ¬ e.2.1 < p.bestFit
  stop : s.terminate = true ↔ Stopped s.trace

theorem forall₂_nw_trans [StrictPO E] {a b c : List E} (h : List.Forall₂ NW a b)
    (h' : List.Forall₂ NW b c) : List.Forall₂ NW a c := by
  induction h generalizing c with
  | nil => cases h'; exact .nil
  | cons h1 _ ih =>
    cases h' with
    | cons h2 h3 => exact .cons (h1.trans h2) (ih h3)

theorem forall₂_map_fit {F : M → E} {ps qs : List (Particle M E)} (h : List.Forall₂ (Upd F) ps qs) :
    List.Forall₂ NW (ps.map (·.bestFit)) (qs.map (·.bestFit)) := by
  induction h with
  | nil => exact .nil
  | cons h _ ih => exact .cons h.nw ih

theorem forall₂_good {F : M → E} {ps qs : List (Particle M E)} (h : List.Forall₂ (Upd F) ps qs)
    (hp : ∀ p ∈ ps, p.bestFit = F p.bestPos) : ∀ q ∈ qs, q.bestFit = F q.bestPos := by
  induction h with
  | nil => simp
  | cons h _ ih =>
    intro q hq
    rcases List.mem_cons.1 hq with rfl | hq
    · exact h.good (hp _ (by simp))
    · exact ih (fun p hp' => hp p (by simp [hp'])) q hq

theorem forall₂_get {α : Type} {R : α → α → Prop} {ps qs : List α} (h : List.Forall₂ R ps qs) :
    ∀ (i : Nat) (p : α), ps[i]? = some p → ∃ q, qs[i]? = some q ∧ R p q := by
  induction h with
  | nil => intro i p h; simp at h
  | cons h _ ih =>
    intro i p hp
    cases i with
    | zero => simp only [List.getElem?_cons_zero, Option.some.injEq] at hp; subst hp; exact ⟨_, rfl, h⟩
    | succ i => exact ih i p hp

/-- Membership of fitness pairs carries over through `map`. -/
theorem map_fit_mem {ps qs : List (Particle M E)}
    (h : qs.map (fun p => (p.bestPos, p.bestFit)) = ps.map fun p => (p.bestPos, p.bestFit)) :
    ∀ (i : Nat) (q : Particle M E), qs[i]? = some q →
      ∃ p, ps[i]? = some p ∧ p.bestPos = q.bestPos ∧ p.bestFit = q.bestFit := by
  intro i q hq
  have h1 := congrArg (fun l => l[i]?) h
  simp only [List.getElem?_map, hq, Option.map_some] at h1
  cases hp : ps[i]? with
  | none => rw [hp] at h1; cases h1
  | some p =>
    rw [hp] at h1
    simp only [Option.map_some, Option.some.injEq, Prod.mk.injEq] at h1
    exact ⟨p, rfl, h1.1.symm, h1.2.symm⟩

theorem map_fit_eq {ps qs : List (Particle M E)}
    (h : qs.map (fun p => (p.bestPos, p.bestFit)) = ps.map fun p => (p.bestPos, p.bestFit)) :
    qs.map (·.bestFit) = ps.map (·.bestFit) := by
  have := congrArg (List.map Prod.snd) h
  simpa [List.map_map, Function.comp_def] using this

theorem set_same {α : Type} {l : List α} {i : Nat} {a : α} (h : l[i]? = some a) : l.set i a = l := by
  apply List.ext_getElem?
  intro j
  rw [List.getElem?_set]
  split_ifs with h1 h2
  · subst h1; exact h.symm
  · subst h1; rw [List.getElem?_eq_none (by omega)] at h; cases h
  · rfl

theorem not_lt_trans_nw [StrictPO E] {v a b : E} (h : NW a b) (hv : ¬ v < a) : ¬ v < b := by
  rcases h with rfl | h
  · exact hv
  · intro hlt; exact hv (StrictPO.trans _ _ _ hlt h)

theorem improve_not_lt [StrictPO E] (p : Particle M E) (v : E) : ¬ v < (improve p v).bestFit := by
  unfold improve
  split_ifs with h
  · exact StrictPO.irrefl _
  · exact h

theorem stopped_append {a b : List (Ev M E)} : Stopped (a ++ b) ↔ Stopped a ∨ Stopped b := by
  simp only [Stopped, List.mem_append]
  constructor
  · rintro (⟨x, v, h | h⟩ | h | h)
    · exact .inl (.inl ⟨x, v, h⟩)
    · exact .inr (.inl ⟨x, v, h⟩)
    · exact .inl (.inr h)
    · exact .inr (.inr h)
  · rintro ((⟨x, v, h⟩ | h) | (⟨x, v, h⟩ | h))
    · exact .inl ⟨x, v, .inl h⟩
    · exact .inr (.inl h)
    · exact .inl ⟨x, v, .inr h⟩
    · exact .inr (.inr h)

theorem pass_spec [StrictPO E] {env : Env W M E} {F : M → E} (hs : Sane env F) (lastToo : Bool)
    {n : Nat} {s : St W M E} (h : Inv F env.maxVal n s) (ht : s.terminate = false) (hn : n ≠ 0) :
    ∃ s', pass env lastToo s = .ok s' ∧ Inv F env.maxVal n s' ∧ s'.queue = s.queue ∧
      (∃ f, iters s'.trace = iters s.trace ++ [(f, s'.bestFit)]) := by
  have he := evalSwarm_spec hs lastToo s.swarm s.w
  unfold pass
  generalize evalSwarm env lastToo s.swarm s.w = v at he ⊢
  simp only
  generalize env.velocity v.1 v.2.1 = u
  have hm := move_fit env.add v.2.1 u.2
  generalize hsw : move env.add v.2.1 u.2 = sw at hm ⊢
  have hlen : sw.length = n := by
    have := congrArg List.length hm
    simp only [List.length_map] at this
    rw [this, ← he.upd.length_eq, h.len]
  have hgood : ∀ p ∈ sw, p.bestFit = F p.bestPos := by
    intro p hp
    obtain ⟨i, hi⟩ := List.mem_iff_getElem?.1 hp
    obtain ⟨q, h1, h2, h3⟩ := map_fit_mem hm i p hi
    rw [← h2, ← h3]
    exact forall₂_good he.upd h.good q (List.mem_of_getElem? h1)
  have hnw : List.Forall₂ NW (s.swarm.map (·.bestFit)) (sw.map (·.bestFit)) := by
    rw [map_fit_eq hm]; exact forall₂_map_fit he.upd
  have hget : ∀ (i : Nat) (p : Particle M E), s.swarm[i]? = some p →
      ∃ q, sw[i]? = some q ∧ NW p.bestFit q.bestFit := by
    intro i p hp
    obtain ⟨q, h1, h2⟩ := forall₂_get he.upd i p hp
    obtain ⟨q', h3, _, h5⟩ := map_fit_mem hm.symm i q h1
    exact ⟨q', h3, by rw [h5]; exact h2.nw⟩
  have hb := findBest_spec sw 0 (s.best, s.bestFit)
  -- the recorded best particle after the search
  have hbest : ((findBest sw 0 (s.best, s.bestFit)).2 = env.maxVal ∧
        (findBest sw 0 (s.best, s.bestFit)).1 = 0 ∨
      (findBest sw 0 (s.best, s.bestFit)).2 < env.maxVal ∧
      ∃ p, sw[(findBest sw 0 (s.best, s.bestFit)).1]? = some p ∧
        p.bestFit = (findBest sw 0 (s.best, s.bestFit)).2) ∧
      (∀ p ∈ sw, ¬ p.bestFit < (findBest sw 0 (s.best, s.bestFit)).2) ∧
      NW s.bestFit (findBest sw 0 (s.best, s.bestFit)).2 := by
    rcases hb with ⟨h1, h2⟩ | ⟨h1, h2, i, p, h3, h4, h5⟩
    · rw [h1]
      refine ⟨?_, h2, NW.rfl⟩
      rcases h.best with hb0 | ⟨hb1, p, hp, hpf⟩
      · exact .inl hb0
      · right
        refine ⟨hb1, ?_⟩
        obtain ⟨q, hq, hqn⟩ := hget _ _ hp
        refine ⟨q, hq, ?_⟩
        rcases hqn with hqn | hqn
        · rw [hqn, hpf]
        · exact absurd (hpf ▸ hqn) (h2 q (List.mem_of_getElem? hq))
    · refine ⟨.inr ⟨?_, p, by rw [h4, Nat.zero_add]; exact h3, h5⟩, h2, .inr h1⟩
      rcases h.best with hb0 | ⟨hb1, _⟩
      · rw [← hb0.1]; exact h1
      · exact StrictPO.trans _ _ _ h1 hb1
  generalize findBest sw 0 (s.best, s.bestFit) = b at hbest ⊢
  obtain ⟨hb1, hb2, hb3⟩ := hbest
  have hsome : ∃ p, sw[b.1]? = some p := by
    rcases hb1 with hb0 | ⟨_, p, hp, _⟩
    · rw [hb0.2, List.getElem?_eq_getElem (by omega)]; exact ⟨_, rfl⟩
    · exact ⟨p, hp⟩
  obtain ⟨p, hp⟩ := hsome
  simp only [hp, hs.cbStep]
  rw [set_same (show sw[b.1]? = some { p with bestPos := p.bestPos } from hp)]
  generalize env.cbStep u.1 p.bestPos = k
  have hit : iters (s.trace ++ v.2.2.2 ++ [Ev.iter (sw.map (·.bestFit)) b.2, .step k.2.2]) =
      iters s.trace ++ [(sw.map (·.bestFit), b.2)] := by
    rw [iters_append, iters_append, he.iters, List.append_nil]; rfl
  have hev : evals (s.trace ++ v.2.2.2 ++ [Ev.iter (sw.map (·.bestFit)) b.2, .step k.2.2]) =
      evals s.trace ++ evals v.2.2.2 := by
    rw [evals_append, evals_append]; exact List.append_nil _
  refine ⟨_, rfl, ⟨hlen, hgood, hb1, fun _ => by rw [hit]; simp, ?_, ?_, ?_, ?_, ?_, ?_⟩, rfl, ⟨_, hit⟩⟩
  · rw [hit, List.pairwise_append]
    refine ⟨h.mono, by simp, ?_⟩
    intro a ha c hc
    rw [List.mem_singleton] at hc
    subst hc
    exact ⟨forall₂_nw_trans (h.last a ha).1 hnw, (h.last a ha).2.trans hb3⟩
  · intro a ha
    rw [hit, List.mem_append, List.mem_singleton] at ha
    rcases ha with ha | rfl
    · exact ⟨forall₂_nw_trans (h.last a ha).1 hnw, (h.last a ha).2.trans hb3⟩
    · exact ⟨forall₂_rfl (fun _ => NW.rfl) _, NW.rfl⟩
  · intro a ha f hf
    rw [hit, List.mem_append, List.mem_singleton] at ha
    rcases ha with ha | rfl
    · exact h.min a ha f hf
    · obtain ⟨q, hq, rfl⟩ := List.mem_map.1 hf
      exact hb2 q hq
  · intro e hee
    rw [hev, List.mem_append] at hee
    rcases hee with hee | hee
    · exact h.val e hee
    · exact he.val e hee
  · intro e hee hf
    rw [hev, List.mem_append] at hee
    rcases hee with hee | hee
    · obtain ⟨q, hq, hq2⟩ := h.seen e hee hf
      obtain ⟨i, hi⟩ := List.mem_iff_getElem?.1 hq
      obtain ⟨q', hq', hnw'⟩ := hget i q hi
      exact ⟨q', List.mem_of_getElem? hq', not_lt_trans_nw hnw' hq2⟩
    · obtain ⟨i, q, h1, h2, h3⟩ := he.seen e hee (.inl hf)
      obtain ⟨q', h4, _, h6⟩ := map_fit_mem hm.symm i _ h3
      exact ⟨q', List.mem_of_getElem? h4, by rw [h6]; exact improve_not_lt _ _⟩
  · rw [stopped_append, stopped_append, Bool.or_eq_true, he.stop_iff]
    have : ¬ Stopped s.trace := by rw [← h.stop, ht]; simp
    constructor
    · rintro (h1 | h1)
      · exact .inl (.inr h1)
      · exact .inr (.inr (by simp [h1]))
    · rintro ((h1 | h1) | h1)
      · exact absurd h1 this
      · exact .inl h1
      · rcases h1 with ⟨x, y, h1⟩ | h1
        · simp at h1
        · simp only [List.mem_cons, reduceCtorEq, false_or, Ev.step.injEq, List.not_mem_nil, or_false] at h1; exact .inr h1.symm

/-! ### The loops -/

/-- `s'` was reached from `s` by complete iterations. -/
structure Reach (s s' : St W M E) : Prop where
  pre : iters s.trace <+: iters s'.trace

theorem phase1_spec [StrictPO E] {env : Env W M E} {F : M → E} (hs : Sane env F) {n : Nat}
    (hn : n ≠ 0) : ∀ (rem : Nat) (s : St W M E), Inv F env.maxVal n s →
    s.queue = (iters s.trace).map (·.2) →
    ∃ s', phase1 env rem s = .ok s' ∧ Inv F env.maxVal n s' ∧ s'.queue = (iters s'.trace).map (·.2) ∧
      (iters s'.trace).length ≤ (iters s.trace).length + rem ∧
      (s'.terminate = false → (iters s'.trace).length = (iters s.trace).length + rem) ∧
      (rem ≠ 0 → s.terminate = false → iters s'.trace ≠ []) := by
  intro rem
  induction rem with
  | zero => intro s h hq; exact ⟨s, rfl, h, hq, by omega, by omega, by omega⟩
  | succ rem ih =>
    intro s h hq
    rw [phase1]
    by_cases ht : s.terminate = true
    · simp only [ht, if_true]
      exact ⟨s, rfl, h, hq, by omega, by simp [ht], by simp⟩
    · simp only [ht, Bool.false_eq_true, if_false]
      obtain ⟨s1, h1, h2, h3, f, h4⟩ := pass_spec hs false h (by simpa using ht) hn
      simp only [h1]
      obtain ⟨s2, h5, h6, h7, h8, h9, h10⟩ := ih { s1 with queue := s1.queue ++ [s1.bestFit] }
        ⟨h2.len, h2.good, h2.best, h2.lastEq, h2.mono, h2.last, h2.min, h2.val, h2.seen, h2.stop⟩
        (by simp only [h3, hq, h4, List.map_append, List.map_cons, List.map_nil])
      simp only [h4, List.length_append, List.length_singleton] at h8 h9
      refine ⟨s2, h5, h6, h7, by omega, fun h => by have := h9 h; omega, ?_⟩
      intro _ _ h0
      by_cases ht2 : s2.terminate = false
      · have := h9 ht2; rw [h0, List.length_nil] at this; omega
      · by_cases hr : rem = 0
        · subst hr
          simp only [phase1, Except.ok.injEq] at h5
          subst h5
          simp only [h4] at h0
          simp at h0
        · by_cases ht1 : s1.terminate = false
          · exact h10 hr ht1 h0
          · obtain ⟨r, rfl⟩ : ∃ r, rem = r + 1 := ⟨rem - 1, by omega⟩
            rw [phase1] at h5
            have ht1' : s1.terminate = true := by simpa using ht1
            simp only [ht1', if_true, Except.ok.injEq] at h5
            subst h5
            simp only [h4] at h0
            simp at h0

/-- The queue holds the global bests of the last `horizon` iterations. -/
def QueueOk (horizon : Nat) (s : St W M E) : Prop :=
  horizon ≤ (iters s.trace).length ∧
  s.queue = ((iters s.trace).map (·.2)).drop ((iters s.trace).length - horizon)

theorem phase2_spec [StrictPO E] {env : Env W M E} {F : M → E} (hs : Sane env F) {n horizon : Nat}
    (hn : n ≠ 0) (hh : horizon ≠ 0) : ∀ (rem : Nat) (s : St W M E), Inv F env.maxVal n s →
    (s.terminate = false → QueueOk horizon s) → iters s.trace ≠ [] →
    ∃ s', phase2 env rem s = .ok s' ∧ Inv F env.maxVal n s' ∧ iters s'.trace ≠ [] ∧
      (iters s'.trace).length ≤ (iters s.trace).length + rem ∧
      (s'.terminate = false → QueueOk horizon s' ∧
        ((iters s'.trace).length = (iters s.trace).length + rem ∨
          ∃ f b, s'.queue.head? = some f ∧ s'.queue.getLast? = some b ∧
            env.noImprovement f b = true)) := by
  intro rem
  induction rem with
  | zero => intro s h hq h0; exact ⟨s, rfl, h, h0, by omega, fun ht => ⟨hq ht, .inl (by omega)⟩⟩
  | succ rem ih =>
    intro s h hq h0
    rw [phase2]
    by_cases ht : s.terminate = true
    · simp only [ht, if_true]
      exact ⟨s, rfl, h, h0, by omega, by simp [ht]⟩
    · simp only [ht, Bool.false_eq_true, if_false]
      have htf : s.terminate = false := by simpa using ht
      obtain ⟨hq1, hq2⟩ := hq htf
      have hql : s.queue.length = horizon := by
        rw [hq2, List.length_drop, List.length_map]; omega
      have hqne : s.queue ≠ [] := by intro h; rw [h] at hql; simp at hql; omega
      obtain ⟨q0, qs, hqc⟩ := List.exists_cons_of_ne_nil hqne
      have hhead : s.queue.head? = some q0 := by rw [hqc]; rfl
      obtain ⟨b, hlast⟩ : ∃ b, s.queue.getLast? = some b :=
        ⟨_, List.getLast?_eq_some_getLast hqne⟩
      simp only [hhead, hlast]
      by_cases hni : env.noImprovement q0 b = true
      · simp only [hni, if_true]
        exact ⟨s, rfl, h, h0, by omega, fun _ => ⟨⟨hq1, hq2⟩, .inr ⟨q0, b, hhead, hlast, hni⟩⟩⟩
      · simp only [hni, Bool.false_eq_true, if_false]
        obtain ⟨s1, h1, h2, h3, f, h4⟩ := pass_spec hs true h htf hn
        simp only [h1]
        obtain ⟨s2, h5, h6, h6', h7, h8⟩ := ih { s1 with queue := s1.queue.drop 1 ++ [s1.bestFit] }
          ⟨h2.len, h2.good, h2.best, h2.lastEq, h2.mono, h2.last, h2.min, h2.val, h2.seen, h2.stop⟩
          (by
            intro _
            refine ⟨by simp only [h4, List.length_append, List.length_singleton]; omega, ?_⟩
            simp only [h3, h4, hq2, List.length_append, List.length_singleton, List.map_append,
              List.map_cons, List.map_nil, List.drop_drop]
            rw [List.drop_append_of_le_length (by simp; omega)]
            congr 2
            omega)
          (by simp only [h4]; simp)
        simp only [h4, List.length_append, List.length_singleton] at h7 h8
        refine ⟨s2, h5, h6, h6', by omega, ?_⟩
        intro ht2
        obtain ⟨h9, h10⟩ := h8 ht2
        refine ⟨h9, ?_⟩
        rcases h10 with h10 | h10
        · left; omega
        · exact .inr h10

/-! ### The initial evaluation -/

theorem evalInit_spec {env : Env W M E} {F : M → E} (hs : Sane env F) :
    ∀ (ps : List (Particle M E)) (w : W),
    (evalInit env ps w).2.1.length = ps.length ∧ iters (evalInit env ps w).2.2.2 = [] ∧
    ((evalInit env ps w).2.2.1 = true ↔ Stopped (evalInit env ps w).2.2.2) ∧
    ((∀ p ∈ ps, p.bestPos = p.pos) → (evalInit env ps w).2.2.1 = false →
      ∀ p ∈ (evalInit env ps w).2.1, p.bestFit = F p.bestPos) ∧
    (∀ e ∈ evals (evalInit env ps w).2.2.2, e.2.1 = F e.1 ∧
      ∃ p ∈ (evalInit env ps w).2.1, p.bestFit = e.2.1) := by
  intro ps
  induction ps with
  | nil => intro w; simp [evalInit, iters, Stopped, evals]
  | cons p ps ih =>
    intro w
    simp only [evalInit, hs.evaluate]
    generalize (env.evaluate w p.pos).1 = w1
    by_cases hc : (env.cbEvaluate w1 p.pos (F p.pos)).2 = true
    · simp only [hc, if_true]
      refine ⟨by simp, rfl, by simp [Stopped], by simp, ?_⟩
      intro e he
      simp only [evals, List.filterMap_cons, List.filterMap_nil, List.mem_singleton] at he
      subst he
      exact ⟨rfl, _, List.mem_cons_self, rfl⟩
    · simp only [hc, Bool.false_eq_true, if_false]
      obtain ⟨h1, h2, h3, h4, h5⟩ := ih (env.cbEvaluate w1 p.pos (F p.pos)).1
      generalize evalInit env ps (env.cbEvaluate w1 p.pos (F p.pos)).1 = r at *
      refine ⟨by simp [h1], ?_, ?_, ?_, ?_⟩
      · simpa [iters] using h2
      · rw [stopped_cons_false]; exact h3
      · intro hp hf q hq
        rcases List.mem_cons.1 hq with rfl | hq
        · simp [hp p (by simp)]
        · exact h4 (fun q hq' => hp q (by simp [hq'])) hf q hq
      · intro e he
        rcases List.mem_cons.1 (show e ∈ (p.pos, F p.pos, false) :: evals r.2.2.2 from he) with
          rfl | he
        · exact ⟨rfl, _, List.mem_cons_self, rfl⟩
        · obtain ⟨ha, q, hq, hb⟩ := h5 e he
          exact ⟨ha, q, by simp [hq], hb⟩

theorem start_inv [StrictPO E] {env : Env W M E} {F : M → E} (hs : Sane env F) (w : W)
    {swarm : List (Particle M E)} (hp : ∀ p ∈ swarm, p.bestPos = p.pos)
    (ht : (start env w swarm).terminate = false) :
    Inv F env.maxVal swarm.length (start env w swarm) ∧ iters (start env w swarm).trace = [] := by
  obtain ⟨h1, h2, h3, h4, h5⟩ := evalInit_spec hs swarm w
  have h0 : iters (start env w swarm).trace = [] := h2
  refine ⟨⟨h1, h4 hp ht, .inl ⟨rfl, rfl⟩, fun h => absurd h0 h, by rw [h0]; exact .nil,
    by simp [h0], by simp [h0], fun e he => (h5 e he).1, ?_, h3⟩, h0⟩
  intro e he _
  obtain ⟨_, p, hp, hpe⟩ := h5 e he
  exact ⟨p, hp, by rw [hpe]; exact StrictPO.irrefl _⟩

/-! ### C23, C79, C80 -/

/-- All facts about a run that gets past its initial evaluation. -/
theorem run_spec [StrictPO E] {env : Env W M E} {F : M → E} (hs : Sane env F) {w : W}
    {swarm : List (Particle M E)} (hp : ∀ p ∈ swarm, p.bestPos = p.pos) (hne : swarm ≠ [])
    (ht : (start env w swarm).terminate = false) {horizon maxIter : Nat} (hh : horizon ≠ 0)
    (hm : horizon ≤ maxIter) :
    ∃ (s : St W M E) (p : Particle M E),
      optimize env horizon maxIter w swarm = .ok ⟨s.bestFit, p.bestPos, s.trace⟩ ∧
      s.swarm[s.best]? = some p ∧ Inv F env.maxVal swarm.length s ∧ iters s.trace ≠ [] ∧
      (iters s.trace).length ≤ maxIter ∧
      (s.terminate = false → QueueOk horizon s ∧ ((iters s.trace).length = maxIter ∨
        ∃ f b, s.queue.head? = some f ∧ s.queue.getLast? = some b ∧
            env.noImprovement f b = true)) := by
  have hn : swarm.length ≠ 0 := by
    intro h; exact hne (List.length_eq_zero_iff.1 h)
  obtain ⟨hi, h0⟩ := start_inv hs w hp ht
  obtain ⟨s1, h1, h2, h3, h4, h5, h6⟩ := phase1_spec hs hn horizon _ hi (by rw [h0]; rfl)
  rw [h0] at h4 h5
  simp only [List.length_nil, Nat.zero_add] at h4 h5
  have hne1 := h6 hh ht
  obtain ⟨s2, g1, g2, g2', g3, g4⟩ := phase2_spec hs hn hh (maxIter - horizon) s1 h2 (by
    intro ht1
    have := h5 ht1
    exact ⟨by omega, by rw [h3, this]; simp⟩) hne1
  have hs2 : ∃ p, s2.swarm[s2.best]? = some p := by
    rcases g2.best with hb | ⟨_, p, hp, _⟩
    · rw [hb.2, List.getElem?_eq_getElem (by rw [g2.len]; omega)]; exact ⟨_, rfl⟩
    · exact ⟨p, hp⟩
  obtain ⟨p, hp2⟩ := hs2
  refine ⟨s2, p, ?_, hp2, g2, g2', by omega, ?_⟩
  · unfold optimize
    rw [if_neg (by omega)]
    simp only [h1, g1, hp2]
  · intro ht2
    obtain ⟨g5, g6⟩ := g4 ht2
    refine ⟨g5, ?_⟩
    by_cases ht1 : s1.terminate = false
    · have := h5 ht1
      rcases g6 with g6 | g6
      · left; omega
      · exact .inr g6
    · -- a stopped first phase stays stopped
      exfalso
      have ht1' : s1.terminate = true := by simpa using ht1
      cases hr : maxIter - horizon with
      | zero => rw [hr] at g1; simp only [phase2, Except.ok.injEq] at g1; subst g1; exact ht1 ht2
      | succ r =>
        rw [hr] at g1
        rw [phase2, if_pos ht1'] at g1
        simp only [Except.ok.injEq] at g1; subst g1; exact ht1 ht2

/-- **C23** A run that gets past its initial evaluation (with at least one particle, and
`0 < horizonSize <= maxIterations`) returns; at every iteration the recorded personal bests do not
worsen, and neither does the global best, which is not above any personal best.  The returned value
is the final global best, and it is the objective at the returned coordinates unless no personal best
is below the largest representable value. -/
theorem C23_pso_result [StrictPO E] {env : Env W M E} {F : M → E} (hs : Sane env F) {w : W}
    {swarm : List (Particle M E)} (hp : ∀ p ∈ swarm, p.bestPos = p.pos) (hne : swarm ≠ [])
    (ht : (start env w swarm).terminate = false) {horizon maxIter : Nat} (hh : horizon ≠ 0)
    (hm : horizon ≤ maxIter) :
    ∃ r, optimize env horizon maxIter w swarm = .ok r ∧
      (iters r.trace).Pairwise (fun a b => List.Forall₂ NW a.1 b.1 ∧ NW a.2 b.2) ∧
      (∀ a ∈ iters r.trace, ∀ f ∈ a.1, ¬ f < a.2) ∧
      (∃ f, (iters r.trace).getLast? = some (f, r.obj) ∧
        (r.obj = F r.x ∧ r.obj < env.maxVal ∧ r.obj ∈ f ∨
         r.obj = env.maxVal ∧ ∀ v ∈ f, ¬ v < env.maxVal)) ∧
      (∀ e ∈ evals r.trace, e.2.1 = F e.1) := by
  obtain ⟨s, p, h1, h2, h3, h4, h5, h6⟩ := run_spec hs hp hne ht hh hm
  refine ⟨_, h1, h3.mono, h3.min, ?_, h3.val⟩
  refine ⟨_, h3.lastEq h4, ?_⟩
  have hmin := h3.min _ (List.mem_of_getLast? (h3.lastEq h4))
  rcases h3.best with ⟨hb, _⟩ | ⟨hb, q, hq, hqf⟩
  · right
    refine ⟨hb, fun v hv => ?_⟩
    rw [← hb]; exact hmin v hv
  · left
    rw [h2] at hq
    cases hq
    have hpm := List.mem_of_getElem? h2
    exact ⟨by rw [← h3.good p hpm, hqf], hb, List.mem_map.2 ⟨p, hpm, hqf⟩⟩

/-- **C23** Without NaN (incomparability is transitive), no evaluation other than the one at which a
callback asked to stop gave a smaller value than the returned one. -/
theorem C23_pso_best_seen [StrictPO E] (hnt : ∀ a b c : E, ¬ a < b → ¬ b < c → ¬ a < c)
    {env : Env W M E} {F : M → E} (hs : Sane env F) {w : W}
    {swarm : List (Particle M E)} (hp : ∀ p ∈ swarm, p.bestPos = p.pos) (hne : swarm ≠ [])
    (ht : (start env w swarm).terminate = false) {horizon maxIter : Nat} (hh : horizon ≠ 0)
    (hm : horizon ≤ maxIter) {r : Result M E} (h : optimize env horizon maxIter w swarm = .ok r) :
    ∀ e ∈ evals r.trace, e.2.2 = false → ¬ e.2.1 < r.obj := by
  obtain ⟨s, p, h1, h2, h3, h4, h5, h6⟩ := run_spec hs hp hne ht hh hm
  rw [h1] at h
  cases h
  intro e he hf
  obtain ⟨q, hq, hqe⟩ := h3.seen e he hf
  exact hnt _ _ _ hqe (h3.min _ (List.mem_of_getLast? (h3.lastEq h4)) _ (List.mem_map.2 ⟨q, hq, rfl⟩))

/-- **C80** Number of iterations and reason for stopping: never more than `maxIterations` iterations;
without a stop request at least `horizonSize`, and fewer than `maxIterations` only if the
improvement test failed for the global bests of the last iteration and of the iteration
`horizonSize - 1` before it. -/
theorem C80_pso_iterations [StrictPO E] {env : Env W M E} {F : M → E} (hs : Sane env F) {w : W}
    {swarm : List (Particle M E)} (hp : ∀ p ∈ swarm, p.bestPos = p.pos) (hne : swarm ≠ [])
    (ht : (start env w swarm).terminate = false) {horizon maxIter : Nat} (hh : horizon ≠ 0)
    (hm : horizon ≤ maxIter) {r : Result M E} (h : optimize env horizon maxIter w swarm = .ok r) :
    (iters r.trace).length ≤ maxIter ∧
    (¬ Stopped r.trace → horizon ≤ (iters r.trace).length ∧
      ((iters r.trace).length = maxIter ∨
       ∃ f b, (iters r.trace)[(iters r.trace).length - horizon]? = some f ∧
         (iters r.trace).getLast? = some b ∧ env.noImprovement f.2 b.2 = true)) := by
  obtain ⟨s, p, h1, h2, h3, h4, h5, h6⟩ := run_spec hs hp hne ht hh hm
  rw [h1] at h
  cases h
  refine ⟨h5, ?_⟩
  intro hst
  obtain ⟨⟨hq1, hq2⟩, h7⟩ := h6 (by
    cases hter : s.terminate with
    | false => rfl
    | true => exact absurd (h3.stop.1 hter) hst)
  refine ⟨hq1, ?_⟩
  rcases h7 with h7 | ⟨f, b, hf, hb, hni⟩
  · exact .inl h7
  · right
    rw [hq2, List.head?_drop, List.getElem?_map] at hf
    rw [hq2, List.getLast?_drop, if_neg (by simp; omega), List.getLast?_map] at hb
    obtain ⟨f', hf1, hf2⟩ := Option.map_eq_some_iff.1 hf
    obtain ⟨b', hb1, hb2⟩ := Option.map_eq_some_iff.1 hb
    exact ⟨f', b', hf1, hb1, by rw [hf2, hb2]; exact hni⟩

/-- **C80** With a tolerance that no non-worsening sequence can miss (`impTolerance <= 0`), a run
without stop requests makes exactly `maxIterations` iterations. -/
theorem C80_pso_negative_tolerance [StrictPO E] {env : Env W M E} {F : M → E} (hs : Sane env F) {w : W}
    {swarm : List (Particle M E)} (hp : ∀ p ∈ swarm, p.bestPos = p.pos) (hne : swarm ≠ [])
    (ht : (start env w swarm).terminate = false) {horizon maxIter : Nat} (hh : horizon ≠ 0)
    (hm : horizon ≤ maxIter) (htol : ∀ f b, NW f b → env.noImprovement f b = false) {r : Result M E}
    (h : optimize env horizon maxIter w swarm = .ok r) (hst : ¬ Stopped r.trace) :
    (iters r.trace).length = maxIter := by
  obtain ⟨h1, h2⟩ := C80_pso_iterations hs hp hne ht hh hm h
  obtain ⟨h3, h4 | ⟨f, b, hf, hb, hni⟩⟩ := h2 hst
  · exact h4
  · exfalso
    obtain ⟨s, p, g1, _, g3, g4, _, _⟩ := run_spec hs hp hne ht hh hm
    rw [g1] at h
    cases h
    have hl := g3.last f (List.mem_of_getElem? hf)
    rw [g3.lastEq g4] at hb
    cases hb
    rw [htol _ _ hl.2] at hni
    cases hni

/-- Integer example: objective the coordinate itself, every particle moves by its velocity. -/
def demo (stop : Bool) (tol : Int) : Env Nat Int Int where
  evaluate := fun w x => (w, x)
  cbEvaluate := fun w _ _ => (w, stop)
  cbStep := fun w x => (w, x, false)
  velocity := fun w ps => (w, ps.map (·.vel))
  add := (· + ·)
  noImprovement := fun f b => f - b < tol
  maxVal := 1000

theorem demo_sane (stop : Bool) (tol : Int) : Sane (demo stop tol) id := ⟨fun _ _ => rfl, fun _ _ => rfl⟩

/-- Non-vacuity: two particles, one descending. -/
example : ∃ r, optimize (demo false 0) 2 5 0 [⟨7, 0, 7, 1000⟩, ⟨9, -1, 9, 1000⟩] = .ok r ∧
    r.obj = 5 ∧ r.x = 5 ∧ (iters r.trace).length = 5 ∧
    (start (demo false 0) 0 [⟨7, 0, 7, 1000⟩, ⟨9, -1, 9, 1000⟩]).terminate = false :=
  ⟨_, rfl, rfl, rfl, rfl, rfl⟩

/-- Non-vacuity of the tolerance condition. -/
example : ∀ f b, NW f b → (demo false 0).noImprovement f b = false := by
  intro f b h
  simp only [demo, decide_eq_false_iff_not]
  rcases h with h | h <;> omega

/-- And of the improvement exit: a swarm at rest stops after `horizonSize` iterations. -/
example : ∃ r, optimize (demo false 1) 2 5 0 [⟨7, 0, 7, 1000⟩] = .ok r ∧ (iters r.trace).length = 2 :=
  ⟨_, rfl, rfl⟩

/-- **C79** (refuted) "The returned value is the objective of the returned coordinates": not when a
callback stops the run during the initial evaluation. -/
theorem C79_pso_consistent_refuted :
    ¬ ∀ (env : Env Nat Int Int) (F : Int → Int) (horizon maxIter w : Nat)
      (swarm : List (Particle Int Int)) (r : Result Int Int), Sane env F → horizon ≠ 0 →
      (∀ p ∈ swarm, p.bestPos = p.pos) → (∀ x, F x < env.maxVal) ∨ (∀ e ∈ evals r.trace, e.2.1 < env.maxVal) →
      optimize env horizon maxIter w swarm = .ok r → r.obj = F r.x := by
  intro h
  have := h (demo true 0) id 2 5 0 [⟨7, 0, 7, 1000⟩] ⟨1000, 7, [.eval 7 7 true]⟩ (demo_sane _ _)
    (by decide) (by simp) (.inr (by simp [evals, demo])) rfl
  revert this; decide

/-- **C79** (refuted) "Every accepted configuration gives a result": `horizonSize = 0` reads the front of an
empty queue. -/
theorem C79_pso_zero_horizon_refuted :
    ¬ ∀ (env : Env Nat Int Int) (F : Int → Int) (horizon maxIter w : Nat)
      (swarm : List (Particle Int Int)), Sane env F → horizon ≤ maxIter → swarm ≠ [] →
      (∀ p ∈ swarm, p.bestPos = p.pos) → ∃ r, optimize env horizon maxIter w swarm = .ok r := by
  intro h
  obtain ⟨r, hr⟩ := h (demo false 0) id 0 5 0 [⟨7, 0, 7, 1000⟩] (demo_sane _ _) (by decide) (by simp)
    (by simp)
  cases hr

/-- **C79** (refuted) "The returned value is not above any evaluated objective": a particle whose initial
objective is NaN never improves. -/
theorem C79_pso_nan_refuted :
    ¬ ∀ (env : Env Nat Int Dbl) (F : Int → Dbl) (horizon maxIter w : Nat)
      (swarm : List (Particle Int Dbl)) (r : Result Int Dbl), Sane env F → horizon ≠ 0 →
      (∀ p ∈ swarm, p.bestPos = p.pos) → (start env w swarm).terminate = false →
      optimize env horizon maxIter w swarm = .ok r →
      ∀ e ∈ evals r.trace, e.2.2 = false → ¬ e.2.1 < r.obj := by
  intro h
  let env : Env Nat Int Dbl :=
    { evaluate := fun w x => (w, if x = 7 then .nan else .fin x)
      cbEvaluate := fun w _ _ => (w, false)
      cbStep := fun w x => (w, x, false)
      velocity := fun w ps => (w, ps.map (·.vel))
      add := (· + ·)
      noImprovement := fun _ _ => false
      maxVal := .fin 1000 }
  have := h env (fun x => if x = 7 then .nan else .fin x) 2 2 0 [⟨7, 1, 7, .fin 1000⟩] _
    ⟨fun _ _ => rfl, fun _ _ => rfl⟩ (by decide) (by simp) rfl rfl (8, .fin 8, false)
    (.tail _ (.tail _ (.head _))) rfl
  exact this (by decide)

end Ens.Pso
