import Verif.Trace
import Verif.Cmaes.Stop

/-
C182: the stopping rule of CMA-ES, and the batches it evaluates.
-/

namespace Ens.Cmaes

variable {W M E C : Type}

/-! ### Batches -/

theorem batches_flat (b : Nat) (hb : 0 < b) (N : Nat) : ∀ n, n ≤ N →
    ((List.range n).filter (· % b = 0)).flatMap (fun f => List.range' f (min b (N - f))) =
      List.range (min N (b * ((n + b - 1) / b))) := by
  intro n
  induction n with
  | zero =>
    intro _
    have : (b - 1) / b = 0 := Nat.div_eq_of_lt (by omega)
    simp [this]
  | succ n ih =>
    intro hn
    rw [List.range_succ, List.filter_append, List.flatMap_append, ih (by omega)]
    by_cases hd : n % b = 0
    · have hq : (n + b - 1) / b = n / b := by
        have h0 := Nat.div_add_mod n b
        rw [show n + b - 1 = b * (n / b) + (b - 1) by omega, Nat.mul_add_div hb,
          Nat.div_eq_of_lt (show b - 1 < b by omega), Nat.add_zero]
      have hq' : (n + 1 + b - 1) / b = n / b + 1 := by
        rw [show n + 1 + b - 1 = n + b by omega, Nat.add_div_right _ hb]
      have hm : b * (n / b) = n := by have h0 := Nat.div_add_mod n b; omega
      rw [hq, hq', hm, Nat.mul_add, hm, Nat.mul_one, Nat.min_eq_right (by omega)]
      have : ([n].filter (· % b = 0)) = [n] := by simp [hd]
      rw [this]
      simp only [List.flatMap_cons, List.flatMap_nil, List.append_nil]
      rw [List.range_eq_range', List.range_eq_range',
        show min N (n + b) = n + min b (N - n) by omega, ← List.range'_append_1, Nat.zero_add]
    · have : ([n].filter (· % b = 0)) = [] := by simp [hd]
      rw [this]
      simp only [List.flatMap_nil, List.append_nil]
      congr 2
      have h0 := Nat.div_add_mod n b
      have hlt := Nat.mod_lt n hb
      congr 1
      rw [show n + b - 1 = b * (n / b) + (b + (n % b - 1)) by omega, show n + 1 + b - 1 = b * (n / b) + (b + n % b) by omega,
        Nat.mul_add_div hb, Nat.mul_add_div hb, Nat.add_div_left _ hb, Nat.add_div_left _ hb,
        Nat.div_eq_of_lt (show n % b - 1 < b by omega), Nat.div_eq_of_lt hlt]

/-- **C182** The batches are non-empty, not larger than `batchSize`, and cover the functions once, in order. -/
theorem C182_batches (n b : Nat) (hb : 0 < b) :
    (batches n b).flatMap (fun c => List.range' c.1 c.2) = List.range n ∧
    ∀ c ∈ batches n b, 1 ≤ c.2 ∧ c.2 ≤ b ∧ c.1 + c.2 ≤ n := by
  constructor
  · unfold batches
    rw [List.flatMap_map]
    refine (batches_flat b hb n n (Nat.le_refl n)).trans ?_
    congr 1
    have h0 := Nat.div_add_mod (n + b - 1) b
    have hlt := Nat.mod_lt (n + b - 1) hb
    omega
  · intro c hc
    unfold batches at hc
    obtain ⟨f, hf, rfl⟩ := List.mem_map.1 hc
    have := List.mem_range.1 (List.mem_filter.1 hf).1
    dsimp only
    omega

/-! ### The stopping rule -/

/-- Best objective of the last generation (`maxVal` at first), and for how many generations in a row it has not changed
(one after a change, none at first). -/
def counter (env : Env W M E C) (vs : List E) : E × Nat :=
  vs.foldl (fun a v => if env.close a.1 v then (v, a.2 + 1) else (v, 1)) (env.maxVal, 0)

theorem counter_snoc (env : Env W M E C) (vs : List E) (v : E) :
    counter env (vs ++ [v]) = if env.close (counter env vs).1 v then (v, (counter env vs).2 + 1) else (v, 1) := by
  unfold counter; rw [List.foldl_append]; rfl

/-- The patience is used up when the best objective `v` follows those in `pre`. -/
def Stale (env : Env W M E C) (patience : Nat) (pre : List E) (v : E) : Prop :=
  env.close (counter env pre).1 v = true ∧ patience < (counter env pre).2

/-- Best objectives after each generation. -/
def best (t : List (Ev M E)) : List E := (gens t).map (·.2)

/-- A generation after which the run goes on. -/
def Goes (env : Env W M E C) (patience : Nat) (pre : List E) (v : E) : Prop :=
  env.isNanInf v = false ∧ ¬ Stale env patience pre v

structure Track (env : Env W M E C) (patience : Nat) (s : St W M E C) : Prop where
  last : s.last = (counter env (best s.trace)).1
  steps : s.steps = (counter env (best s.trace)).2
  goes : Along (Goes env patience) (best s.trace)
  stop : s.terminate = s.trace.any isStop

theorem genLoop_rule {env : Env W M E C} [LT E] [DecidableLT E] {sel : Select W M E} (hsel : Honest sel)
    {lambda patience : Nat} : ∀ (rem : Nat) (s : St W M E C) (r : Exit × St W M E C), Track env patience s →
    genLoop env sel lambda patience rem s = some r →
    (r.1 = .limitOrStop → Along (Goes env patience) (best r.2.trace) ∧
      (r.2.trace.any isStop = true ∨ (best r.2.trace).length = (best s.trace).length + rem)) ∧
    (r.1 ≠ .limitOrStop → ∃ vs, best r.2.trace = vs ++ [r.2.overall] ∧ Along (Goes env patience) vs ∧
      (r.1 = .nanInf → env.isNanInf r.2.overall = true) ∧
      (r.1 = .tolerance → env.isNanInf r.2.overall = false ∧ Stale env patience vs r.2.overall)) := by
  intro rem
  induction rem with
  | zero =>
    intro s r h hr
    simp only [genLoop, Option.some.injEq] at hr
    subst hr
    exact ⟨fun _ => ⟨h.goes, Or.inr rfl⟩, fun h => absurd rfl h⟩
  | succ rem ih =>
    intro s r h hr
    rw [genLoop] at hr
    by_cases ht : s.terminate = true
    · simp only [ht, if_true, Option.some.injEq] at hr
      subst hr
      exact ⟨fun _ => ⟨h.goes, Or.inl (h.stop ▸ ht)⟩, fun h => absurd rfl h⟩
    · simp only [ht, Bool.false_eq_true, if_false] at hr
      have hst : s.trace.any isStop = false := by rw [← h.stop]; simpa using ht
      have hev : ∀ t : List (Ev M E), (∀ e ∈ t, ∃ y v b, e = Ev.eval y v b) → gens t = [] := by
        intro t
        induction t with
        | nil => intro _; rfl
        | cons e t ih =>
          intro h
          obtain ⟨y, v, b, rfl⟩ := h e List.mem_cons_self
          show gens ([_] ++ t) = []
          rw [gens_append, ih fun e he => h e (List.mem_cons_of_mem _ he)]; rfl
      obtain ⟨ho1, ho2⟩ := offspring_honest env hsel s.cov lambda 0 s.w
      generalize offspring env sel s.cov lambda 0 s.w = o at hr ho1 ho2
      cases hrec : env.recombine s.cov o.2.1 with
      | none => rw [hrec] at hr; cases hr
      | some mean =>
        rw [hrec] at hr
        simp only at hr
        obtain ⟨hv1, hv2⟩ := hsel o.1 (env.transform mean)
        generalize sel o.1 (env.transform mean) = v at hr hv1 hv2
        have hbt := takeBest_gens env v.1 mean v.2.1 s
        have hbs : (takeBest env v.1 mean v.2.1 s).2.2.2.1 = (takeBest env v.1 mean v.2.1 s).2.2.2.2.any isStop := by
          unfold takeBest; split_ifs <;> simp [isStop]
        generalize takeBest env v.1 mean v.2.1 s = t at hr hbt hbs
        have hbest : best (s.trace ++ o.2.2.2 ++ v.2.2.2 ++ t.2.2.2.2 ++ [Ev.gen v.2.1 t.2.2.1]) = best s.trace ++ [t.2.2.1] := by
          simp only [best, gens_append, hev _ ho2, hev _ hv2, hbt, List.append_nil, List.map_append]; rfl
        have hstop : (o.2.2.1 || v.2.2.1 || t.2.2.2.1) =
            (s.trace ++ o.2.2.2 ++ v.2.2.2 ++ t.2.2.2.2 ++ [Ev.gen v.2.1 t.2.2.1]).any isStop := by
          simp only [List.any_append, hst, ho1, hv1, hbs]
          simp [isStop]
        generalize s.trace ++ o.2.2.2 ++ v.2.2.2 ++ t.2.2.2.2 ++ [Ev.gen v.2.1 t.2.2.1] = u at hr hbest hstop
        have hgo : env.isNanInf t.2.2.1 = false → (env.close s.last t.2.2.1 = true → ¬ patience < s.steps) →
            Along (Goes env patience) (best u) := by
          intro h1 h2
          rw [hbest, along_snoc]
          refine ⟨h.goes, h1, fun hs => ?_⟩
          obtain ⟨q1, q2⟩ := hs
          rw [← h.last] at q1
          rw [← h.steps] at q2
          exact h2 q1 q2
        have hlen : (best u).length = (best s.trace).length + 1 := by rw [hbest]; simp
        by_cases h1 : env.diverged (env.adapt s.cov o.2.1) = true
        · rw [if_pos h1] at hr
          cases hr
          exact ⟨(fun h => by cases h), fun _ => ⟨_, hbest, h.goes, (fun h => by cases h), (fun h => by cases h)⟩⟩
        rw [if_neg h1] at hr
        by_cases h2 : env.isNanInf t.2.2.1 = true
        · rw [if_pos h2] at hr
          cases hr
          exact ⟨(fun h => by cases h), fun _ => ⟨_, hbest, h.goes, fun _ => h2, (fun h => by cases h)⟩⟩
        rw [if_neg h2] at hr
        have h2' : env.isNanInf t.2.2.1 = false := by simpa using h2
        by_cases h3 : env.close s.last t.2.2.1 = true
        · rw [if_pos h3] at hr
          by_cases h4 : patience < s.steps
          · rw [if_pos h4] at hr
            cases hr
            refine ⟨(fun h => by cases h), fun _ => ⟨_, hbest, h.goes, (fun h => by cases h), fun _ => ⟨h2', ?_, ?_⟩⟩⟩
            · rw [← h.last]; exact h3
            · rw [← h.steps]; exact h4
          · rw [if_neg h4] at hr
            obtain ⟨g1, g2⟩ := ih _ r ⟨by simp only [hbest, counter_snoc, ← h.last, h3, if_true],
              by simp only [hbest, counter_snoc, ← h.last, h3, if_true, h.steps], hgo h2' fun _ => h4, hstop⟩ hr
            refine ⟨fun he => ⟨(g1 he).1, (g1 he).2.imp id fun hl => ?_⟩, g2⟩
            simp only [hlen] at hl; omega
        · rw [if_neg h3] at hr
          obtain ⟨g1, g2⟩ := ih _ r ⟨by simp only [hbest, counter_snoc, ← h.last, h3, if_false]; rfl,
            by simp only [hbest, counter_snoc, ← h.last, h3, if_false]; rfl, hgo h2' fun h => absurd h h3, hstop⟩ hr
          refine ⟨fun he => ⟨(g1 he).1, (g1 he).2.imp id fun hl => ?_⟩, g2⟩
          simp only [hlen] at hl; omega

/-- **C182** (stopping rule of CMA-ES). A run reports convergence at the first generation whose best objective is within the tolerance of
that of the generation before, after more than `patience` generations in a row counted since it last was not; it reports failure at the
first generation whose best objective is NaN or infinite. A run that ends for neither of these reasons, nor because the step size
diverged, made all its generations or a callback asked to stop. -/
theorem C182_stopping {env : Env W M E C} [LT E] [DecidableLT E] {sel : Select W M E} (hsel : Honest sel)
    {n b lambda patience maxIterations : Nat} {c₀ : C} {w : W} {x : M} {r : Result M E}
    (h : optimize env sel n b lambda patience maxIterations c₀ w x = some r) :
    (r.why = .limitOrStop → Along (Goes env patience) (best r.trace) ∧
      (r.trace.any isStop = true ∨ (best r.trace).length = generations maxIterations)) ∧
    (r.why ≠ .limitOrStop → ∃ vs, best r.trace = vs ++ [r.obj] ∧ Along (Goes env patience) vs ∧
      (r.why = .nanInf → env.isNanInf r.obj = true) ∧
      (r.why = .tolerance → env.isNanInf r.obj = false ∧ Stale env patience vs r.obj)) := by
  unfold optimize at h
  obtain ⟨q, hq, rfl⟩ := Option.map_eq_some_iff.1 h
  have h0 : best (start env n b c₀ w x).trace = [] := by rw [best, start_gens]; rfl
  obtain ⟨g1, g2⟩ := genLoop_rule hsel _ _ q
    ⟨by rw [h0]; rfl, by rw [h0]; rfl, by rw [h0]; exact along_nil _, (initialLoop_honest env _ _ w _).1⟩ hq
  have hb : best (q.2.trace ++ [.endOpt (env.transform q.2.iterate)]) = best q.2.trace := by unfold best; rw [gens_end]
  have hs : (q.2.trace ++ [Ev.endOpt (env.transform q.2.iterate)]).any isStop = q.2.trace.any isStop := by simp [isStop]
  simp only [hb, hs]
  rw [h0] at g1
  simp only [List.length_nil, Nat.zero_add] at g1
  exact ⟨g1, g2⟩

/-- Non-vacuity: a run that converges. -/
example : ∃ r, optimize { demo with close := fun a b => a - b < 3 } (fullSelection demo 2 1) 2 1 4 1 9 10 0 10 = some r ∧
    r.why = .tolerance ∧ counter { demo with close := fun a b => a - b < 3 } (best r.trace) = (14, 3) :=
  ⟨_, rfl, rfl, rfl⟩

end Ens.Cmaes
