import Mathlib.Data.EReal.Operations
import Verif.Pso.Policy

/-
C274: a run of LBestPSO depends on the objective only through the order of its values, and moves along with the origin
of the coordinate system.
-/

namespace Ens.Pso

section generic
variable {W M E : Type} [LinearOrder E]

/-- A particle in other coordinates (`φ`) and with other values of the objective (`g`); velocities stay. -/
def Particle.map (φ : M → M) (g : E → E) (p : Particle M E) : Particle M E := ⟨φ p.pos, p.vel, φ p.bestPos, g p.bestFit⟩

def Ev.map (φ : M → M) (g : E → E) : Ev M E → Ev M E
  | .eval x v s => .eval (φ x) (g v) s
  | .iter fs b => .iter (fs.map g) (g b)
  | .step s => .step s

def Result.map (φ : M → M) (g : E → E) (r : Result M E) : Result M E := ⟨g r.obj, φ r.x, r.trace.map (Ev.map φ g)⟩

/-- `env'` is `env` in other coordinates and with other values of the objective; the callbacks do not stop the
evaluation of the swarm. -/
structure Sim (env env' : Env W M E) (φ : M → M) (g : E → E) : Prop where
  mono : StrictMono g
  evaluate : ∀ w x, env'.evaluate w (φ x) = ((env.evaluate w x).1, g (env.evaluate w x).2)
  cbEvaluate : ∀ w x v, env'.cbEvaluate w (φ x) (g v) = env.cbEvaluate w x v
  quiet : ∀ w x v, (env.cbEvaluate w x v).2 = false
  cbStep : ∀ w x, env'.cbStep w (φ x) = ((env.cbStep w x).1, φ (env.cbStep w x).2.1, (env.cbStep w x).2.2)
  velocity : ∀ w ps, env'.velocity w (ps.map (Particle.map φ g)) = env.velocity w ps
  add : ∀ x v, env'.add (φ x) v = φ (env.add x v)
  noImprovement : ∀ a b, b ≤ a → env'.noImprovement (g a) (g b) = env.noImprovement a b
  below : ∀ w x, (env.evaluate w x).2 < env.maxVal
  below' : ∀ w x, g (env.evaluate w x).2 < env'.maxVal

variable {env env' : Env W M E} {φ : M → M} {g : E → E}

theorem evalInit_map (h : Sim env env' φ g) (ps : List (Particle M E)) : ∀ w,
    evalInit env' (ps.map (Particle.map φ id)) w
      = ((evalInit env ps w).1, (evalInit env ps w).2.1.map (Particle.map φ g), (evalInit env ps w).2.2.1,
        (evalInit env ps w).2.2.2.map (Ev.map φ g)) := by
  induction ps with
  | nil => intro w; rfl
  | cons p ps ih =>
    intro w
    have hp : (p.map φ id).pos = φ p.pos := rfl
    simp only [List.map_cons, evalInit, hp, h.evaluate, h.cbEvaluate, h.quiet, Bool.false_eq_true, if_false, ih, Ev.map]
    rfl

theorem improve_map (hg : StrictMono g) (p : Particle M E) (v : E) :
    improve (p.map φ g) (g v) = (improve p v).map φ g := by
  unfold improve Particle.map
  simp only [hg.lt_iff_lt]
  split_ifs <;> rfl

theorem evalSwarm_map (h : Sim env env' φ g) (l : Bool) (ps : List (Particle M E)) : ∀ w,
    evalSwarm env' l (ps.map (Particle.map φ g)) w
      = ((evalSwarm env l ps w).1, (evalSwarm env l ps w).2.1.map (Particle.map φ g), (evalSwarm env l ps w).2.2.1,
        (evalSwarm env l ps w).2.2.2.map (Ev.map φ g)) := by
  induction ps with
  | nil => intro w; rfl
  | cons p ps ih =>
    intro w
    have hp : (p.map φ g).pos = φ p.pos := rfl
    simp only [List.map_cons, evalSwarm, hp, h.evaluate, h.cbEvaluate, h.quiet, Bool.false_eq_true, if_false, ih,
      improve_map h.mono, Ev.map]

theorem move_map (h : Sim env env' φ g) : ∀ (ps : List (Particle M E)) (vs : List M),
    move env'.add (ps.map (Particle.map φ g)) vs = (move env.add ps vs).map (Particle.map φ g) := by
  intro ps
  induction ps with
  | nil => intro vs; rfl
  | cons p ps ih =>
    intro vs
    cases vs with
    | nil => rfl
    | cons v vs => simp only [List.map_cons, move, ih, Particle.map, h.add]

theorem findBest_map (hg : StrictMono g) : ∀ (ps : List (Particle M E)) (j : Nat) (b : Nat × E),
    findBest (ps.map (Particle.map φ g)) j (b.1, g b.2) = ((findBest ps j b).1, g (findBest ps j b).2) := by
  intro ps
  induction ps with
  | nil => intro j b; rfl
  | cons p ps ih =>
    intro j b
    have hp : (p.map φ g).bestFit = g p.bestFit := rfl
    simp only [List.map_cons, findBest, hp, hg.lt_iff_lt]
    split_ifs with hc
    · exact ih (j + 1) (j, p.bestFit)
    · exact ih (j + 1) b

theorem findBest_le : ∀ (ps : List (Particle M E)) (j : Nat) (b : Nat × E), (findBest ps j b).2 ≤ b.2 := by
  intro ps
  induction ps with
  | nil => intro j b; exact le_rfl
  | cons p ps ih =>
    intro j b
    rw [findBest]
    split_ifs with hc
    · exact (ih _ _).trans hc.le
    · exact ih _ _

def St.map (φ : M → M) (g : E → E) (s : St W M E) : St W M E :=
  ⟨s.w, s.swarm.map (Particle.map φ g), s.best, g s.bestFit, s.queue.map g, s.terminate, s.trace.map (Ev.map φ g)⟩

/-- Either the best values correspond, or both are still the initial ones and every particle is below. -/
def BestRel (env env' : Env W M E) (g : E → E) (s : St W M E) (b' : E) : Prop :=
  b' = g s.bestFit ∨ (s.bestFit = env.maxVal ∧ b' = env'.maxVal ∧
    ∀ p ∈ s.swarm, p.bestFit < env.maxVal ∧ g p.bestFit < env'.maxVal)

theorem evalSwarm_below (h : Sim env env' φ g) (l : Bool) : ∀ (ps : List (Particle M E)) (w : W),
    (∀ p ∈ ps, p.bestFit < env.maxVal ∧ g p.bestFit < env'.maxVal) →
    ∀ p ∈ (evalSwarm env l ps w).2.1, p.bestFit < env.maxVal ∧ g p.bestFit < env'.maxVal := by
  intro ps
  induction ps with
  | nil => intro w _ p hp; cases hp
  | cons q ps ih =>
    intro w hall p hp
    simp only [evalSwarm, h.quiet, Bool.false_eq_true, if_false, List.mem_cons] at hp
    rcases hp with rfl | hp
    · unfold improve
      split_ifs
      · exact ⟨h.below _ _, h.below' _ _⟩
      · exact hall _ (List.mem_cons_self ..)
    · exact ih _ (fun r hr => hall r (List.mem_cons_of_mem _ hr)) p hp

theorem move_below (P : E → Prop) (add : M → M → M) : ∀ (ps : List (Particle M E)) (vs : List M),
    (∀ p ∈ ps, P p.bestFit) → ∀ p ∈ move add ps vs, P p.bestFit := by
  intro ps
  induction ps with
  | nil => intro vs _ p hp; cases hp
  | cons q ps ih =>
    intro vs hall p hp
    cases vs with
    | nil => exact hall p hp
    | cons v vs =>
      rw [move, List.mem_cons] at hp
      rcases hp with rfl | hp
      · exact hall q (List.mem_cons_self ..)
      · exact ih vs (fun r hr => hall r (List.mem_cons_of_mem _ hr)) p hp

theorem findBest_start (hg : StrictMono g) {ps : List (Particle M E)} {m m' : E}
    (hall : ∀ p ∈ ps, p.bestFit < m ∧ g p.bestFit < m') (hne : ps ≠ []) (i : Nat) :
    findBest (ps.map (Particle.map φ g)) 0 (i, m') = ((findBest ps 0 (i, m)).1, g (findBest ps 0 (i, m)).2) := by
  cases ps with
  | nil => exact absurd rfl hne
  | cons p ps =>
    have h := hall p (List.mem_cons_self ..)
    have hp : (p.map φ g).bestFit = g p.bestFit := rfl
    rw [List.map_cons, findBest, findBest, hp, if_pos h.2, if_pos h.1]
    exact findBest_map hg ps 1 (0, p.bestFit)

theorem pass_map (h : Sim env env' φ g) (l : Bool) (s : St W M E) (b' : E) (hb : BestRel env env' g s b') :
    pass env' l { s.map φ g with bestFit := b' } = (pass env l s).map (St.map φ g) := by
  unfold pass
  have hsw : ({ s.map φ g with bestFit := b' } : St W M E).swarm = s.swarm.map (Particle.map φ g) := rfl
  have hw : ({ s.map φ g with bestFit := b' } : St W M E).w = s.w := rfl
  rw [hsw, hw, evalSwarm_map h]
  dsimp only
  rw [h.velocity, move_map h]
  set v := evalSwarm env l s.swarm s.w with hv
  set u := env.velocity v.1 v.2.1 with hu
  set sw := move env.add v.2.1 u.2 with hsw'
  by_cases hne : sw = []
  · rw [hne]; simp [findBest]; rfl
  have hfb : findBest (sw.map (Particle.map φ g)) 0 ((s.map φ g).best, b')
      = ((findBest sw 0 (s.best, s.bestFit)).1, g (findBest sw 0 (s.best, s.bestFit)).2) := by
    rcases hb with rfl | ⟨h1, h2, h3⟩
    · exact findBest_map h.mono sw 0 (s.best, s.bestFit)
    · rw [h1, h2]
      exact findBest_start h.mono (move_below (fun e => e < env.maxVal ∧ g e < env'.maxVal) _ _ _
        (evalSwarm_below h l _ _ h3)) hne _
  rw [hfb]
  dsimp only
  rw [List.getElem?_map]
  cases sw[(findBest sw 0 (s.best, s.bestFit)).1]? with
  | none => rfl
  | some p =>
    have hp : (p.map φ g).bestPos = φ p.bestPos := rfl
    simp only [Option.map_some, hp, h.cbStep, Except.map, St.map, List.map_set, List.map_append, List.map_cons,
      List.map_nil, Ev.map, List.map_map, Function.comp_def]
    rfl

/-- What the horizon queue holds: earlier best values, the present one last. -/
def Queue (s : St W M E) : Prop := (∀ q ∈ s.queue, s.bestFit ≤ q) ∧ (∀ q, s.queue.getLast? = some q → q = s.bestFit)

theorem pass_queue {l : Bool} {s s' : St W M E} (hp : pass env l s = .ok s') :
    s'.queue = s.queue ∧ s'.bestFit ≤ s.bestFit := by
  unfold pass at hp
  dsimp only at hp
  split at hp
  · cases hp
  · cases hp
    exact ⟨rfl, findBest_le _ _ _⟩

theorem Queue.push {s s' : St W M E} (hq : Queue s) (h : s'.queue = s.queue ∧ s'.bestFit ≤ s.bestFit) (k : Nat) :
    Queue { s' with queue := s'.queue.drop k ++ [s'.bestFit] } := by
  refine ⟨?_, ?_⟩
  · intro q hmem
    rw [h.1, List.mem_append] at hmem
    rcases hmem with hmem | hmem
    · exact h.2.trans (hq.1 q (List.mem_of_mem_drop hmem))
    · rw [List.mem_singleton] at hmem
      rw [hmem]
  · intro q hmem
    simp at hmem
    exact hmem.symm

theorem phase1_map (h : Sim env env' φ g) (rem : Nat) : ∀ s : St W M E, Queue s →
    phase1 env' rem (s.map φ g) = (phase1 env rem s).map (St.map φ g) ∧
    ∀ r, phase1 env rem s = .ok r → Queue r := by
  induction rem with
  | zero => intro s hq; exact ⟨rfl, fun r hr => by cases hr; exact hq⟩
  | succ rem ih =>
    intro s hq
    rw [phase1, phase1]
    have ht : (s.map φ g).terminate = s.terminate := rfl
    rw [ht]
    by_cases hterm : s.terminate = true
    · rw [if_pos hterm, if_pos hterm]; exact ⟨rfl, fun r hr => by cases hr; exact hq⟩
    rw [if_neg hterm, if_neg hterm]
    have hp := pass_map h false s (g s.bestFit) (.inl rfl)
    rw [show ({ s.map φ g with bestFit := g s.bestFit } : St W M E) = s.map φ g from rfl] at hp
    rw [hp]
    cases hpass : pass env false s with
    | error e => exact ⟨rfl, fun r hr => by cases hr⟩
    | ok s' =>
      have hq' := hq.push (pass_queue hpass) 0
      rw [List.drop_zero] at hq'
      have := ih _ hq'
      refine ⟨?_, this.2⟩
      simp only [Except.map]
      refine Eq.trans ?_ this.1
      congr 1
      simp [St.map]

theorem phase2_map (h : Sim env env' φ g) (rem : Nat) : ∀ s : St W M E, Queue s →
    phase2 env' rem (s.map φ g) = (phase2 env rem s).map (St.map φ g) := by
  induction rem with
  | zero => intro s hq; rfl
  | succ rem ih =>
    intro s hq
    rw [phase2, phase2]
    have ht : (s.map φ g).terminate = s.terminate := rfl
    rw [ht]
    by_cases hterm : s.terminate = true
    · rw [if_pos hterm, if_pos hterm]; rfl
    rw [if_neg hterm, if_neg hterm]
    have hqm : (s.map φ g).queue = s.queue.map g := rfl
    rw [hqm, List.head?_map, List.getLast?_map]
    cases hf : s.queue.head? with
    | none => rfl
    | some f =>
      cases hl : s.queue.getLast? with
      | none => rfl
      | some b =>
        simp only [Option.map_some]
        have hle : b ≤ f := by
          rw [hq.2 b hl]
          exact hq.1 f (List.mem_of_mem_head? hf)
        rw [h.noImprovement f b hle]
        by_cases hni : env.noImprovement f b = true
        · rw [if_pos hni, if_pos hni]; rfl
        rw [if_neg hni, if_neg hni]
        have hp := pass_map h true s (g s.bestFit) (.inl rfl)
        rw [show ({ s.map φ g with bestFit := g s.bestFit } : St W M E) = s.map φ g from rfl] at hp
        rw [hp]
        cases hpass : pass env true s with
        | error e => rfl
        | ok s' =>
          have := ih _ (hq.push (pass_queue hpass) 1)
          simp only [Except.map]
          refine Eq.trans ?_ this
          congr 1
          simp [St.map]

theorem evalInit_below (h : Sim env env' φ g) : ∀ (ps : List (Particle M E)) (w : W),
    ∀ p ∈ (evalInit env ps w).2.1, p.bestFit < env.maxVal ∧ g p.bestFit < env'.maxVal := by
  intro ps
  induction ps with
  | nil => intro w p hp; cases hp
  | cons q ps ih =>
    intro w p hp
    simp only [evalInit, h.quiet, Bool.false_eq_true, if_false, List.mem_cons] at hp
    rcases hp with rfl | hp
    · exact ⟨h.below _ _, h.below' _ _⟩
    · exact ih _ p hp

theorem evalInit_quiet' (h : Sim env env' φ g) : ∀ (ps : List (Particle M E)) (w : W),
    (evalInit env ps w).2.2.1 = false := by
  intro ps
  induction ps with
  | nil => intro w; rfl
  | cons q ps ih =>
    intro w
    simp only [evalInit, h.quiet, Bool.false_eq_true, if_false]
    exact ih _

theorem optimize_map (h : Sim env env' φ g) (horizon maxIter : Nat) (hh : 0 < horizon) (w : W)
    (swarm : List (Particle M E)) :
    optimize env' horizon maxIter w (swarm.map (Particle.map φ id))
      = (optimize env horizon maxIter w swarm).map (Result.map φ g) := by
  unfold optimize
  by_cases hm : maxIter < horizon
  · rw [if_pos hm, if_pos hm]; rfl
  rw [if_neg hm, if_neg hm]
  obtain ⟨k, rfl⟩ : ∃ k, horizon = k + 1 := ⟨horizon - 1, by omega⟩
  have hs : start env' w (swarm.map (Particle.map φ id))
      = { (start env w swarm).map φ g with bestFit := env'.maxVal } := by
    unfold start St.map
    rw [evalInit_map h]
    rfl
  have ht : (start env w swarm).terminate = false := evalInit_quiet' h swarm w
  have hq : Queue (start env w swarm) := ⟨fun q hq => (List.not_mem_nil hq).elim, fun q hq => nomatch hq⟩
  have hp := pass_map h false (start env w swarm) env'.maxVal (.inr ⟨rfl, rfl, evalInit_below h swarm w⟩)
  have h1 : phase1 env' (k + 1) (start env' w (swarm.map (Particle.map φ id)))
        = (phase1 env (k + 1) (start env w swarm)).map (St.map φ g) ∧
      ∀ r, phase1 env (k + 1) (start env w swarm) = .ok r → Queue r := by
    rw [phase1, phase1, hs, if_neg (by rw [show (({ (start env w swarm).map φ g with bestFit := env'.maxVal } : St W M E)).terminate
      = (start env w swarm).terminate from rfl, ht]; decide), if_neg (by rw [ht]; decide), hp]
    cases hpass : pass env false (start env w swarm) with
    | error e => exact ⟨rfl, fun r hr => by cases hr⟩
    | ok s' =>
      have hq' := hq.push (pass_queue hpass) 0
      rw [List.drop_zero] at hq'
      have := phase1_map h k _ hq'
      refine ⟨?_, this.2⟩
      simp only [Except.map]
      refine Eq.trans ?_ this.1
      congr 1
      simp [St.map]
  rw [h1.1]
  cases hph : phase1 env (k + 1) (start env w swarm) with
  | error e => rfl
  | ok s1 =>
    simp only [Except.map]
    rw [phase2_map h _ s1 (h1.2 s1 hph)]
    cases phase2 env (maxIter - (k + 1)) s1 with
    | error e => rfl
    | ok s =>
      simp only [Except.map]
      have hsw : (s.map φ g).swarm[(s.map φ g).best]? = (s.swarm[s.best]?).map (Particle.map φ g) := by
        show (s.swarm.map (Particle.map φ g))[s.best]? = _
        rw [List.getElem?_map]
      rw [hsw]
      cases s.swarm[s.best]? with
      | none => rfl
      | some p => rfl

end generic

/-! ### Over the reals -/

variable {W : Type} {d : Nat}

/-- The velocities of the particles `i, i+1, ...` (lbest_update.hpp:145-155), `sw` the whole swarm, `draw` the vectors
`r1` and `r2`. -/
noncomputable def lbest (draw : W → W × (Fin d → ℝ) × (Fin d → ℝ)) (c1 c2 chi : ℝ)
    (sw : List (Particle (Fin d → ℝ) EReal)) : Nat → List (Particle (Fin d → ℝ) EReal) → W → W × List (Fin d → ℝ)
  | _, [], w => (w, [])
  | i, p :: ps, w =>
    let r := draw w
    let j := localBest sw.length (fun k => (sw[k]?.map (·.bestFit)).getD ⊤) i
    let nb := (sw[j]?.map (·.bestPos)).getD p.bestPos
    let v : Fin d → ℝ := fun a =>
      chi * (p.vel a + c1 * r.2.1 a * (p.bestPos a - p.pos a) + c2 * r.2.2 a * (nb a - p.pos a))
    let t := lbest draw c1 c2 chi sw (i + 1) ps r.1
    (t.1, v :: t.2)

open scoped Classical in
/-- LBestPSO on column vectors with `d` elements, without callbacks. Objective values are extended reals (the
difference of equal infinities is not a number and not below anything); `maxVal` is
`std::numeric_limits<ElemType>::max()`. -/
noncomputable def realEnv (draw : W → W × (Fin d → ℝ) × (Fin d → ℝ)) (c1 c2 chi impTol : ℝ) (maxVal : EReal)
    (f : (Fin d → ℝ) → EReal) : Env W (Fin d → ℝ) EReal where
  evaluate w x := (w, f x)
  cbEvaluate w _ _ := (w, false)
  cbStep w x := (w, x, false)
  velocity w sw := lbest draw c1 c2 chi sw 0 sw w
  add := (· + ·)
  noImprovement a b := decide (¬ (a = b ∧ (a = ⊤ ∨ a = ⊥)) ∧ a - b < (impTol : EReal))
  maxVal := maxVal

/-- The swarm of `DefaultInit` (default_init.hpp:96-115) with bounds of the shape of the iterate, which has at least two
rows; `us`, `vs` are the random positions and velocities. -/
def initSwarm (lo hi : Fin d → ℝ) (maxVal : EReal) (us vs : List (Fin d → ℝ)) : List (Particle (Fin d → ℝ) EReal) :=
  List.zipWith (fun u v => ⟨fun a => place (u a) (lo a) (hi a), v, fun a => place (u a) (lo a) (hi a), maxVal⟩) us vs

theorem lbest_map (draw : W → W × (Fin d → ℝ) × (Fin d → ℝ)) (c1 c2 chi : ℝ) {g : EReal → EReal} (hg : StrictMono g)
    (htop : g ⊤ = ⊤) (t : Fin d → ℝ) (sw : List (Particle (Fin d → ℝ) EReal)) :
    ∀ (ps : List (Particle (Fin d → ℝ) EReal)) (i : Nat) (w : W),
      lbest draw c1 c2 chi (sw.map (Particle.map (· + t) g)) i (ps.map (Particle.map (· + t) g)) w
        = lbest draw c1 c2 chi sw i ps w := by
  intro ps
  induction ps with
  | nil => intro i w; rfl
  | cons p ps ih =>
    intro i w
    rw [List.map_cons, lbest, lbest, ih]
    have hfit : (fun k : Nat => (((sw.map (Particle.map (· + t) g))[k]?).map
          fun q : Particle (Fin d → ℝ) EReal => q.bestFit).getD (⊤ : EReal))
        = fun k : Nat => g ((sw[k]?.map fun q : Particle (Fin d → ℝ) EReal => q.bestFit).getD ⊤) := by
      funext k
      rw [List.getElem?_map]
      cases sw[k]? with
      | none => exact htop.symm
      | some q => rfl
    have hloc : ∀ (n : Nat) (fit : Nat → EReal), localBest n (fun k => g (fit k)) i = localBest n fit i := by
      intro n fit
      simp only [localBest, hg.lt_iff_lt]
    simp only [List.length_map, hfit, hloc]
    simp only [List.getElem?_map]
    generalize localBest sw.length (fun k : Nat => (sw[k]?.map fun q : Particle (Fin d → ℝ) EReal => q.bestFit).getD ⊤) i = j
    cases sw[j]? with
    | none => simp [Particle.map]
    | some q => simp [Particle.map]

/-- **C274** Order. Replace the objective `f` by `g ∘ f` with a strictly increasing `g` that keeps infinity, all values
staying below the largest number, in a run with `impTolerance <= 0`: with the same random numbers every particle
moves as before, the same decisions are taken and the same coordinates returned; the values of the objective are those
of `g ∘ f`. -/
theorem C274_order (draw : W → W × (Fin d → ℝ) × (Fin d → ℝ)) (c1 c2 chi impTol : ℝ) (htol : impTol ≤ 0)
    (maxVal : EReal) (f : (Fin d → ℝ) → EReal) (g : EReal → EReal) (hg : StrictMono g) (htop : g ⊤ = ⊤)
    (hf : ∀ x, f x < maxVal) (hgf : ∀ x, g (f x) < maxVal)
    (horizon maxIter : Nat) (hh : 0 < horizon) (w : W) (lo hi : Fin d → ℝ) (us vs : List (Fin d → ℝ)) :
    optimize (realEnv draw c1 c2 chi impTol maxVal (g ∘ f)) horizon maxIter w (initSwarm lo hi maxVal us vs)
      = (optimize (realEnv draw c1 c2 chi impTol maxVal f) horizon maxIter w
          (initSwarm lo hi maxVal us vs)).map (Result.map id g) := by
  have hno : ∀ a b : EReal, b ≤ a → ¬ (¬ (a = b ∧ (a = ⊤ ∨ a = ⊥)) ∧ a - b < (impTol : EReal)) := by
    rintro a b hba ⟨h1, h2⟩
    have h3 : a - b < 0 := lt_of_lt_of_le h2 (by exact_mod_cast htol)
    have h4 : (0 : EReal) ≤ a - b := by
      by_cases hb : b = ⊤
      · have ha : a = ⊤ := top_le_iff.1 (hb ▸ hba)
        exact absurd ⟨ha.trans hb.symm, .inl ha⟩ h1
      by_cases hb' : b = ⊥
      · by_cases ha' : a = ⊥
        · exact absurd ⟨ha'.trans hb'.symm, .inr ha'⟩ h1
        · rw [hb', EReal.sub_bot ha']; exact le_top
      · exact (EReal.sub_nonneg (.inr hb) (.inr hb')).2 hba
    exact absurd h3 (not_lt.2 h4)
  have hid : (fun x : Fin d → ℝ => x + 0) = id := by funext x; simp
  have hmap : ∀ l : List (Particle (Fin d → ℝ) EReal), l.map (Particle.map id id) = l := by
    intro l
    have : (Particle.map id id : Particle (Fin d → ℝ) EReal → Particle (Fin d → ℝ) EReal) = id := rfl
    rw [this, List.map_id]
  have hsim : Sim (realEnv draw c1 c2 chi impTol maxVal f) (realEnv draw c1 c2 chi impTol maxVal (g ∘ f)) id g := by
    refine ⟨hg, fun _ _ => rfl, fun _ _ _ => rfl, fun _ _ _ => rfl, fun _ _ => rfl, ?_, fun _ _ => rfl, ?_,
      fun _ x => hf x, fun _ x => hgf x⟩
    · intro w ps
      have := lbest_map draw c1 c2 chi hg htop 0 ps ps 0 w
      rw [hid] at this
      exact this
    · intro a b hba
      have h1 := hno a b hba
      have h2 := hno (g a) (g b) (hg.monotone hba)
      simp only [realEnv, h1, h2, decide_false]
  have := optimize_map hsim horizon maxIter hh w (initSwarm lo hi maxVal us vs)
  rwa [hmap] at this

/-- **C274** Origin. Move the bounds by `t` and evaluate the objective `t` further back: with the same random numbers
all particles and the returned coordinates are moved by `t`, values and decisions are the same. -/
theorem C274_translation (draw : W → W × (Fin d → ℝ) × (Fin d → ℝ)) (c1 c2 chi impTol : ℝ)
    (maxVal : EReal) (f : (Fin d → ℝ) → EReal) (hf : ∀ x, f x < maxVal) (t : Fin d → ℝ)
    (horizon maxIter : Nat) (hh : 0 < horizon) (w : W) (lo hi : Fin d → ℝ) (us vs : List (Fin d → ℝ)) :
    optimize (realEnv draw c1 c2 chi impTol maxVal fun y => f (y - t)) horizon maxIter w
        (initSwarm (lo + t) (hi + t) maxVal us vs)
      = (optimize (realEnv draw c1 c2 chi impTol maxVal f) horizon maxIter w
          (initSwarm lo hi maxVal us vs)).map (Result.map (· + t) id) := by
  have hsim : Sim (realEnv draw c1 c2 chi impTol maxVal f) (realEnv draw c1 c2 chi impTol maxVal fun y => f (y - t))
      (· + t) id := by
    refine ⟨strictMono_id, ?_, fun _ _ _ => rfl, fun _ _ _ => rfl, fun _ _ => rfl, ?_, ?_, fun _ _ _ => rfl,
      fun _ x => hf x, fun _ x => hf x⟩
    · intro w x; simp [realEnv]
    · intro w ps
      exact lbest_map draw c1 c2 chi strictMono_id rfl t ps ps 0 w
    · intro x v
      show x + t + v = x + v + t
      rw [add_right_comm]
  have := optimize_map hsim horizon maxIter hh w (initSwarm lo hi maxVal us vs)
  rw [← this]
  congr 1
  unfold initSwarm
  rw [List.map_zipWith]
  congr 1
  funext u v
  have hp : (fun a => place (u a) ((lo + t) a) ((hi + t) a)) = (fun a => place (u a) (lo a) (hi a)) + t := by
    funext a
    simp only [place, Pi.add_apply]
    ring
  simp only [Particle.map, hp, id]

open scoped Classical in
/-- Non-vacuity: an objective with two values and an increasing map that changes them. -/
example : ∃ (f : (Fin 2 → ℝ) → EReal) (g : EReal → EReal) (maxVal : EReal),
    StrictMono g ∧ g ⊤ = ⊤ ∧ (∀ x, f x < maxVal) ∧ (∀ x, g (f x) < maxVal) ∧ f 0 ≠ f 1 ∧ g (f 0) ≠ f 0 := by
  refine ⟨fun x => ((if x 0 < 1 then 0 else 1 : ℝ) : EReal), fun v => v + ((1 : ℝ) : EReal), ((3 : ℝ) : EReal), ?_, rfl,
    fun x => ?_, fun x => ?_, ?_, ?_⟩
  · intro a b hab
    exact EReal.add_lt_add_right_coe hab 1
  · exact EReal.coe_lt_coe_iff.2 (by split_ifs <;> norm_num)
  · show ((_ : ℝ) : EReal) + ((1 : ℝ) : EReal) < _
    rw [← EReal.coe_add]
    exact EReal.coe_lt_coe_iff.2 (by split_ifs <;> norm_num)
  · intro h
    rw [EReal.coe_eq_coe_iff] at h
    norm_num at h
  · intro h
    dsimp only at h
    rw [← EReal.coe_add, EReal.coe_eq_coe_iff] at h
    norm_num at h

end Ens.Pso
