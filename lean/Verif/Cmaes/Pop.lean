import Verif.Cmaes.Props

/-
C28, C85-C87: the restart strategy `POP_CMAES`.
-/

namespace Ens.Cmaes

open Callbacks (StoreBest)

variable {W M E C : Type} [LT E] [DecidableLT E]

theorem storeBest_run_spec [StrictPO E] : ∀ (l : List (M × E)) (c : StoreBest M E),
    NW c.bestObjective (c.run l).bestObjective ∧ (∀ p ∈ l, ¬ p.2 < (c.run l).bestObjective) ∧
    (c.run l = c ∨ ∃ p ∈ l, c.run l = ⟨p.2, some p.1⟩) := by
  intro l
  induction l with
  | nil => intro c; exact ⟨NW.rfl, by simp, .inl rfl⟩
  | cons p l ih =>
    intro c
    obtain ⟨h1, h2, h3⟩ := ih (c.evaluate p.1 p.2).1
    have hr : c.run (p :: l) = ((c.evaluate p.1 p.2).1).run l := rfl
    rw [hr]
    have hev : NW c.bestObjective (c.evaluate p.1 p.2).1.bestObjective ∧
        ¬ p.2 < (c.evaluate p.1 p.2).1.bestObjective := by
      unfold StoreBest.evaluate
      by_cases h : p.2 < c.bestObjective
      · simp only [h, if_true]; exact ⟨.inr h, StrictPO.irrefl _⟩
      · rw [if_neg h]; exact ⟨NW.rfl, h⟩
    refine ⟨hev.1.trans h1, ?_, ?_⟩
    · intro q hq
      rcases List.mem_cons.1 hq with rfl | hq
      · rcases h1 with h1 | h1
        · rw [h1]; exact hev.2
        · intro hlt; exact hev.2 (StrictPO.trans _ _ _ hlt h1)
      · exact h2 q hq
    · rcases h3 with h3 | ⟨q, hq, h3⟩
      · rw [h3]
        unfold StoreBest.evaluate
        by_cases h : p.2 < c.bestObjective
        · simp only [h, if_true]; exact .inr ⟨p, by simp, rfl⟩
        · simp only [h, if_false]; exact .inl trivial
      · exact .inr ⟨q, by simp [hq], h3⟩

/-- An inner run whose notifications are true objective values and which returns one of the notified
points. -/
structure Faithful (F : M → E) (maxVal : E) (r : Inner M E) : Prop where
  val : ∀ p ∈ r.notes, p.2 = F p.1
  result : (r.x, r.obj) ∈ r.notes
  finite : r.obj < maxVal

/-- A callback holding a point with its objective. -/
def Holds (F : M → E) (notes : List (M × E)) (c : StoreBest M E) : Prop :=
  ∃ x, c = ⟨F x, some x⟩ ∧ (x, F x) ∈ notes

structure PopInv (F : M → E) (s : PopSt M E) : Prop where
  sbc : Holds F (s.runs.flatMap (·.notes)) s.sbc
  all : ∀ r ∈ s.runs, ∀ p ∈ r.notes, ¬ p.2 < s.sbc.bestObjective
  overallSbc : Holds F (s.runs.flatMap (·.notes)) s.overallSbc
  le : ¬ s.overall < s.overallSbc.bestObjective
  runs : ∀ r ∈ s.runs, ¬ r.obj < s.overallSbc.bestObjective

theorem popRestart_inv [StrictPO E] (hnt : ∀ a b c : E, ¬ a < b → ¬ b < c → ¬ a < c) {F : M → E}
    {maxVal : E} {s : PopSt M E} (h : PopInv F s) {r : Inner M E} (hr : Faithful F maxVal r) :
    PopInv F (popRestart s r) := by
  obtain ⟨h1, h2, h3⟩ := storeBest_run_spec r.notes s.sbc
  have hmono : ∀ c, Holds F (s.runs.flatMap (·.notes)) c →
      Holds F ((s.runs ++ [r]).flatMap (·.notes)) c := by
    rintro c ⟨x, hx, hm⟩
    exact ⟨x, hx, by rw [List.flatMap_append]; exact List.mem_append_left _ hm⟩
  have hsbc : Holds F ((s.runs ++ [r]).flatMap (·.notes)) (s.sbc.run r.notes) := by
    rcases h3 with h3 | ⟨p, hp, h3⟩
    · rw [h3]; exact hmono _ h.sbc
    · refine ⟨p.1, by rw [h3, hr.val p hp], ?_⟩
      rw [List.flatMap_append]
      refine List.mem_append_right _ ?_
      rw [← hr.val p hp]
      simpa using hp
  have hall : ∀ q ∈ s.runs ++ [r], ∀ p ∈ q.notes, ¬ p.2 < (s.sbc.run r.notes).bestObjective := by
    intro q hq p hp
    rcases List.mem_append.1 hq with hq | hq
    · have := h.all q hq p hp
      rcases h1 with h1 | h1
      · rw [h1]; exact this
      · intro hlt; exact this (StrictPO.trans _ _ _ hlt h1)
    · rw [List.mem_singleton] at hq; subst hq; exact h2 p hp
  unfold popRestart
  by_cases hb : r.obj < s.overall
  · simp only [hb, if_true]
    have hr' : ¬ r.obj < (s.sbc.run r.notes).bestObjective := h2 _ hr.result
    refine ⟨hsbc, hall, hsbc, hr', ?_⟩
    intro q hq
    rcases List.mem_append.1 hq with hq | hq
    · -- an earlier run: the callback's best is below the old best, which was below that run
      have hq' := h.runs q hq
      refine hnt _ _ _ hq' ?_
      obtain ⟨x, hx, hxm⟩ := h.overallSbc
      obtain ⟨q', hq'm, hxq⟩ := List.mem_flatMap.1 hxm
      have := hall q' (List.mem_append_left _ hq'm) _ hxq
      rw [hx]; exact this
    · rw [List.mem_singleton] at hq; subst hq; exact hr'
  · simp only [hb, if_false]
    refine ⟨hsbc, hall, hmono _ h.overallSbc, h.le, ?_⟩
    intro q hq
    rcases List.mem_append.1 hq with hq | hq
    · exact h.runs q hq
    · rw [List.mem_singleton] at hq; subst hq
      exact hnt _ _ _ hb h.le

theorem popStart_inv [StrictPO E] {F : M → E} {maxVal : E} {r : Inner M E} (hr : Faithful F maxVal r)
    (counter : Nat) : PopInv F (popStart maxVal counter r) := by
  obtain ⟨h1, h2, h3⟩ := storeBest_run_spec r.notes (StoreBest.init maxVal)
  have hres := h2 _ hr.result
  have hh : Holds F (List.flatMap (·.notes) [r]) ((StoreBest.init maxVal).run r.notes) := by
    rcases h3 with h3 | ⟨p, hp, h3⟩
    · rw [h3] at hres; exact absurd hr.finite hres
    · refine ⟨p.1, by rw [h3, hr.val p hp], ?_⟩
      rw [← hr.val p hp]; simpa using hp
  unfold popStart
  refine ⟨hh, ?_, hh, hres, ?_⟩
  · intro q hq; rw [List.mem_singleton] at hq; subst hq; exact h2
  · intro q hq; rw [List.mem_singleton] at hq; subst hq; exact hres

theorem popLoop_inv [StrictPO E] (hnt : ∀ a b c : E, ¬ a < b → ¬ b < c → ¬ a < c) {F : M → E}
    {maxVal : E} {inner : PopSt M E → Inner M E} (hi : ∀ s, Faithful F maxVal (inner s))
    (budget : Nat) : ∀ (rem : Nat) (s : PopSt M E), PopInv F s →
    PopInv F (popLoop inner budget rem s) ∧
    (popLoop inner budget rem s).runs.length ≤ s.runs.length + rem := by
  intro rem
  induction rem with
  | zero => intro s h; exact ⟨h, by simp [popLoop]⟩
  | succ rem ih =>
    intro s h
    have h' := popRestart_inv hnt h (hi s)
    have hl : (popRestart s (inner s)).runs.length = s.runs.length + 1 := by simp [popRestart]
    simp only [popLoop]
    split_ifs
    · exact ⟨h', by omega⟩
    · obtain ⟨h1, h2⟩ := ih _ h'
      exact ⟨h1, by omega⟩

/-- **C28** If the inner runs report true objective values (see `C28_one_batch_faithful`), POP-CMA-ES
makes at most `maxRestarts + 1` inner runs, hands back coordinates some inner run evaluated together with
their objective, and this objective is not above the value returned by any inner run. -/
theorem C28_pop_result [StrictPO E] (hnt : ∀ a b c : E, ¬ a < b → ¬ b < c → ¬ a < c) {F : M → E}
    {maxVal : E} {first : Inner M E} {inner : PopSt M E → Inner M E} (hf : Faithful F maxVal first)
    (hi : ∀ s, Faithful F maxVal (inner s)) (counter maxRestarts budget : Nat) :
    let s := popOptimize maxVal counter first inner maxRestarts budget
    (∃ x, s.overallSbc.coords = some x ∧ s.overallSbc.bestObjective = F x ∧
      ∃ r ∈ s.runs, (x, F x) ∈ r.notes) ∧
    (∀ r ∈ s.runs, ¬ r.obj < s.overallSbc.bestObjective) ∧ s.runs.length ≤ maxRestarts + 1 := by
  obtain ⟨h1, h2⟩ := popLoop_inv hnt hi budget maxRestarts _ (popStart_inv hf counter)
  refine ⟨?_, h1.runs, ?_⟩
  · obtain ⟨x, hx, hm⟩ := h1.overallSbc
    obtain ⟨r, hr, hxr⟩ := List.mem_flatMap.1 hm
    refine ⟨x, ?_, ?_, r, hr, hxr⟩
    · show (popLoop inner budget maxRestarts (popStart maxVal counter first)).overallSbc.coords = _
      rw [hx]
    · show (popLoop inner budget maxRestarts (popStart maxVal counter first)).overallSbc.bestObjective = _
      rw [hx]
  · have : (popStart maxVal counter first).runs.length = 1 := rfl
    rw [this] at h2
    show (popLoop inner budget maxRestarts (popStart maxVal counter first)).runs.length ≤ _
    omega

/-! ### Inner runs of the CMA-ES model -/

/-- An inner run as POP-CMA-ES sees it. -/
def innerOf (evals : Nat) (stopped : Bool) (r : Result M E) : Inner M E :=
  ⟨r.obj, r.x, notes r.trace, evals, stopped⟩

omit [LT E] [DecidableLT E] in
theorem offspring_notes {env : Env W M E C} {sel : Select W M E} {F : M → E}
    (h : ∀ w x, notes (sel w x).2.2.2 = [(x, F x)])
    (c : C) : ∀ (rem j : Nat) (w : W), ∀ p ∈ notes (offspring env sel c rem j w).2.2.2, p.2 = F p.1 := by
  intro rem
  induction rem with
  | zero => intro j w p hp; simp [offspring, notes] at hp
  | succ rem ih =>
    intro j w p hp
    simp only [offspring, notes_append, h, List.mem_append, List.mem_singleton] at hp
    rcases hp with rfl | hp
    · rfl
    · exact ih _ _ p hp

theorem takeBest_notes (env : Env W M E C) (w : W) (m : M) (v : E) (s : St W M E C) :
    notes (takeBest env w m v s).2.2.2.2 = [] := by
  unfold takeBest; split_ifs <;> rfl

theorem genLoop_notes {env : Env W M E C} {sel : Select W M E} {F : M → E}
    (h : ∀ w x, notes (sel w x).2.2.2 = [(x, F x)]) (hv : ∀ w x, (sel w x).2.1 = F x)
    {lambda patience : Nat} : ∀ (rem : Nat) (s : St W M E C) (r : Exit × St W M E C),
    (∀ p ∈ notes s.trace, p.2 = F p.1) → (env.transform s.iterate, s.overall) ∈ notes s.trace →
    genLoop env sel lambda patience rem s = some r →
    (∀ p ∈ notes r.2.trace, p.2 = F p.1) ∧
    (env.transform r.2.iterate, r.2.overall) ∈ notes r.2.trace := by
  intro rem
  induction rem with
  | zero =>
    intro s r h1 h2 hr
    simp only [genLoop, Option.some.injEq] at hr; subst hr; exact ⟨h1, h2⟩
  | succ rem ih =>
    intro s r h1 h2 hr
    rw [genLoop] at hr
    by_cases ht : s.terminate = true
    · simp only [ht, if_true, Option.some.injEq] at hr; subst hr; exact ⟨h1, h2⟩
    · simp only [ht, Bool.false_eq_true, if_false] at hr
      have ho := offspring_notes (env := env) h s.cov lambda 0 s.w
      generalize offspring env sel s.cov lambda 0 s.w = o at hr ho
      cases hrec : env.recombine s.cov o.2.1 with
      | none => rw [hrec] at hr; cases hr
      | some mean =>
        rw [hrec] at hr
        simp only at hr
        have hvv := hv o.1 (env.transform mean)
        have hvt := h o.1 (env.transform mean)
        generalize sel o.1 (env.transform mean) = v at hr hvv hvt
        have hbt := takeBest_notes env v.1 mean v.2.1 s
        have hbr : (env.transform (takeBest env v.1 mean v.2.1 s).2.1,
              (takeBest env v.1 mean v.2.1 s).2.2.1) = (env.transform s.iterate, s.overall) ∨
            (env.transform (takeBest env v.1 mean v.2.1 s).2.1,
              (takeBest env v.1 mean v.2.1 s).2.2.1) = (env.transform mean, F (env.transform mean)) := by
          unfold takeBest
          split_ifs
          · right; simp [hvv]
          · left; rfl
        generalize takeBest env v.1 mean v.2.1 s = t at hr hbt hbr
        have hn : notes (s.trace ++ o.2.2.2 ++ v.2.2.2 ++ t.2.2.2.2 ++ [Ev.gen v.2.1 t.2.2.1]) =
            notes s.trace ++ notes o.2.2.2 ++ [(env.transform mean, F (env.transform mean))] := by
          simp only [notes_append, hvt, hbt, List.append_nil]
          exact List.append_nil _
        generalize s.trace ++ o.2.2.2 ++ v.2.2.2 ++ t.2.2.2.2 ++ [Ev.gen v.2.1 t.2.2.1] = tr at hr hn
        have k1 : ∀ p ∈ notes tr, p.2 = F p.1 := by
          intro p hp
          rw [hn, List.mem_append, List.mem_append, List.mem_singleton] at hp
          rcases hp with (hp | hp) | rfl
          · exact h1 p hp
          · exact ho p hp
          · rfl
        have k2 : (env.transform t.2.1, t.2.2.1) ∈ notes tr := by
          rw [hn]
          rcases hbr with hbr | hbr
          · rw [hbr]; simp [h2]
          · rw [hbr]; simp
        split_ifs at hr
        · cases hr; exact ⟨k1, k2⟩
        · cases hr; exact ⟨k1, k2⟩
        · cases hr; exact ⟨k1, k2⟩
        · exact ih _ r k1 k2 hr
        · exact ih _ r k1 k2 hr

theorem batches_one {n b : Nat} (hn : n ≠ 0) (hb : n ≤ b) : batches n b = [(0, n)] := by
  obtain ⟨m, rfl⟩ : ∃ m, n = m + 1 := ⟨n - 1, by omega⟩
  have hf : (List.range (m + 1)).filter (fun f => decide (f % b = 0)) = [0] := by
    rw [List.range_succ_eq_map, List.filter_cons_of_pos (by simp)]
    congr 1
    rw [List.filter_eq_nil_iff]
    intro a ha
    obtain ⟨c, hc, rfl⟩ := List.mem_map.1 ha
    rw [List.mem_range] at hc
    rw [Nat.mod_eq_of_lt (by simp; omega)]
    simp
  unfold batches
  rw [hf]
  simp [Nat.min_eq_right hb]

/-- **C28** With a deterministic objective evaluated in one batch, an inner CMA-ES run with
`FullSelection` reports true objective values and returns a point it has reported. -/
theorem C28_one_batch_faithful {env : Env W M E C} {n b : Nat} (hn : n ≠ 0) (hb : n ≤ b)
    {F : M → E} (hF : ∀ w x, (env.evaluate w x 0 n).2 = F x) (h0 : ∀ v, env.add env.zero v = v)
    {lambda patience maxIterations : Nat} {c₀ : C} {w : W} {x : M} {r : Result M E}
    (h : optimize env (fullSelection env n b) n b lambda patience maxIterations c₀ w x = some r)
    (hfin : r.obj < env.maxVal) (evals : Nat) (stopped : Bool) :
    Faithful F env.maxVal (innerOf evals stopped r) := by
  unfold optimize at h
  obtain ⟨q, hq, rfl⟩ := Option.map_eq_some_iff.1 h
  have hsel : ∀ w x, notes (fullSelection env n b w x).2.2.2 = [(x, F x)] := by
    intro w x
    simp [fullSelection, batches_one hn hb, fullLoop, notes, hF, h0]
  have hval : ∀ w x, (fullSelection env n b w x).2.1 = F x := by
    intro w x
    simp [fullSelection, batches_one hn hb, fullLoop, hF, h0]
  have hst : notes (start env n b c₀ w x).trace = [(env.transform x, F (env.transform x))] ∧
      (start env n b c₀ w x).overall = F (env.transform x) := by
    simp [start, batches_one hn hb, initialLoop, notes, hF, h0]
  obtain ⟨h1, h2⟩ := genLoop_notes hsel hval _ _ q
    (by rw [hst.1]; intro p hp; rw [List.mem_singleton] at hp; subst hp; rfl)
    (by rw [hst.1, hst.2]; exact List.mem_singleton.2 rfl) hq
  have hn2 : notes (q.2.trace ++ [.endOpt (env.transform q.2.iterate)]) = notes q.2.trace := by
    rw [notes_append]; exact List.append_nil _
  refine ⟨?_, ?_, hfin⟩
  · intro p hp
    simp only [innerOf, hn2] at hp
    exact h1 p hp
  · simp only [innerOf, hn2]; exact h2

/-- Non-vacuity: an inner run of the demo with one batch. -/
example : ∃ r, optimize demo (fullSelection demo 2 2) 2 2 4 1 4 10 0 10 = some r ∧ r.obj < demo.maxVal ∧
    (innerOf 0 false r).notes.length = 16 := ⟨_, rfl, by decide, rfl⟩

/-- **C28** (refuted) "The returned objective is the objective of the returned coordinates", if the objective is
evaluated in more than one batch: `StoreBestCoordinates` is notified of partial sums. -/
theorem C28_pop_batches_refuted :
    ¬ ∀ (env : Env Nat Int Int Int) (n b lambda patience maxIt w : Nat) (c₀ x : Int)
      (G : Int → Nat → Nat → Int) (r : Result Int Int),
      (∀ w x f k, (env.evaluate w x f k).2 = G x f k) → b ≠ 0 →
      optimize env (fullSelection env n b) n b lambda patience maxIt c₀ w x = some r →
      ∀ y, (popOptimize env.maxVal 0 (innerOf 0 false r) (fun _ => innerOf 0 false r) 0 100).overallSbc.coords
          = some y →
      (popOptimize env.maxVal 0 (innerOf 0 false r) (fun _ => innerOf 0 false r) 0 100).overallSbc.bestObjective
        = (batches n b).foldl (fun a p => env.add a (G y p.1 p.2)) env.zero := by
  intro h
  have := h demo 2 1 1 1 2 0 10 10 (fun x _ k => x * k) _ (fun _ _ _ _ => rfl) (by decide) rfl 9 rfl
  revert this
  decide

/-! ### Budget, stop requests, candidates -/

/-- **C85** (refuted) "`maxFunctionEvaluations` limits the evaluations made by the restarts": the counter of the
inner optimizer is never reset and is added up again after every restart. -/
theorem C85_pop_budget_refuted :
    ¬ ∀ (first : Inner Int Int) (inner : PopSt Int Int → Inner Int Int) (maxRestarts budget : Nat),
      let s := popOptimize 1000 0 first inner maxRestarts budget
      s.runs.length < maxRestarts + 1 → budget ≤ (s.runs.map (·.evals)).sum := by
  intro h
  have := h ⟨5, 5, [(5, 5)], 10, false⟩ (fun _ => ⟨5, 5, [(5, 5)], 10, false⟩) 9 45 (by decide)
  revert this
  decide

/-- Sum of the evaluations of the first `k + 1` runs, for every `k` from 1 on, added up. -/
def overcount : Nat → List Nat → Nat
  | _, [] => 0
  | before, e :: es => (before + e) + overcount (before + e) es

theorem overcount_append : ∀ (l : List Nat) (b e : Nat),
    overcount b (l ++ [e]) = overcount b l + (b + l.sum + e) := by
  intro l
  induction l with
  | nil => intro b e; simp [overcount]
  | cons a l ih => intro b e; simp only [List.cons_append, overcount, ih, List.sum_cons]; omega

/-- **C85** (partial) What is compared with the budget: after restarts with `e₁, e₂, ...` evaluations following a
first run with `e₀`, the sum of `e₀ + e₁`, `e₀ + e₁ + e₂`, ... (plus the counter of earlier calls in each
term). -/
theorem C85_pop_budget_partial (maxVal : E) (counter : Nat) (first : Inner M E)
    (inner : PopSt M E → Inner M E) (maxRestarts budget : Nat) :
    let s := popOptimize maxVal counter first inner maxRestarts budget
    ∃ rs, s.runs = first :: rs ∧ s.total = overcount (counter + first.evals) (rs.map (·.evals)) ∧
      s.counter = counter + first.evals + (rs.map (·.evals)).sum ∧
      (rs.length < maxRestarts → budget ≤ s.total) := by
  have key : ∀ (rem : Nat) (s : PopSt M E) (rs : List (Inner M E)), s.runs = first :: rs →
      s.total = overcount (counter + first.evals) (rs.map (·.evals)) →
      s.counter = counter + first.evals + (rs.map (·.evals)).sum →
      ∃ rs', (popLoop inner budget rem s).runs = first :: rs' ∧
        (popLoop inner budget rem s).total = overcount (counter + first.evals) (rs'.map (·.evals)) ∧
        (popLoop inner budget rem s).counter = counter + first.evals + (rs'.map (·.evals)).sum ∧
        (rs'.length < rs.length + rem → budget ≤ (popLoop inner budget rem s).total) := by
    intro rem
    induction rem with
    | zero => intro s rs h1 h2 h3; exact ⟨rs, h1, h2, h3, by omega⟩
    | succ rem ih =>
      intro s rs h1 h2 h3
      have a1 : (popRestart s (inner s)).runs = first :: (rs ++ [inner s]) := by
        simp [popRestart, h1]
      have a2 : (popRestart s (inner s)).total =
          overcount (counter + first.evals) ((rs ++ [inner s]).map (·.evals)) := by
        simp only [popRestart, h2, h3, List.map_append, List.map_cons, List.map_nil, overcount_append]
      have a3 : (popRestart s (inner s)).counter =
          counter + first.evals + ((rs ++ [inner s]).map (·.evals)).sum := by
        simp only [popRestart, h3, List.map_append, List.map_cons, List.map_nil, List.sum_append,
          List.sum_cons, List.sum_nil]
        omega
      simp only [popLoop]
      split_ifs with hb
      · exact ⟨_, a1, a2, a3, fun _ => hb⟩
      · obtain ⟨rs', b1, b2, b3, b4⟩ := ih _ _ a1 a2 a3
        refine ⟨rs', b1, b2, b3, ?_⟩
        intro hl
        simp only [List.length_append, List.length_singleton] at b4
        exact b4 (by omega)
  obtain ⟨rs, h1, h2, h3, h4⟩ := key maxRestarts (popStart maxVal counter first) [] rfl rfl rfl
  exact ⟨rs, h1, h2, h3, fun hl => h4 (by simpa using hl)⟩

example : (popOptimize (1000 : Int) 0 (⟨5, 5, [(5, 5)], 10, false⟩ : Inner Int Int)
    (fun _ => ⟨5, 5, [(5, 5)], 10, false⟩) 2 1000).total = 50 := by decide

/-- **C86** (refuted) "A stop request by a callback ends the optimization": it only ends the inner run. -/
theorem C86_pop_stop_refuted :
    ¬ ∀ (F : Int → Int) (first : Inner Int Int) (inner : PopSt Int Int → Inner Int Int)
      (maxRestarts budget : Nat), Faithful F 1000 first → (∀ s, Faithful F 1000 (inner s)) →
      ∀ pre r post, (popOptimize 1000 0 first inner maxRestarts budget).runs = pre ++ r :: post →
        r.stopped = true → post = [] := by
  intro h
  have hf : Faithful id 1000 (⟨5, 5, [(5, 5)], 10, true⟩ : Inner Int Int) :=
    ⟨by simp, by simp, by decide⟩
  have := h id ⟨5, 5, [(5, 5)], 10, true⟩ (fun _ => ⟨5, 5, [(5, 5)], 10, true⟩) 1 100 hf (fun _ => hf) []
    ⟨5, 5, [(5, 5)], 10, true⟩ [⟨5, 5, [(5, 5)], 10, true⟩] rfl rfl
  cases this

/-- **C87** (refuted) "POP-CMA-ES returns the best candidate it evaluated": a candidate found by a run whose
returned value is not a new best is forgotten. -/
theorem C87_pop_best_candidate_refuted :
    ¬ ∀ (F : Int → Int) (first : Inner Int Int) (inner : PopSt Int Int → Inner Int Int)
      (maxRestarts budget : Nat), Faithful F 1000 first → (∀ s, Faithful F 1000 (inner s)) →
      ∀ r ∈ (popOptimize 1000 0 first inner maxRestarts budget).runs, ∀ p ∈ r.notes,
        (popOptimize 1000 0 first inner maxRestarts budget).overallSbc.bestObjective ≤ p.2 := by
  intro h
  have := h id ⟨5, 5, [(5, 5)], 10, false⟩ (fun _ => ⟨6, 6, [(3, 3), (6, 6)], 10, false⟩) 1 100
    ⟨by simp, by simp, by decide⟩ (fun _ => ⟨by simp, by simp, by decide⟩)
    ⟨6, 6, [(3, 3), (6, 6)], 10, false⟩ (.tail _ (.head _)) (3, 3) (by simp)
  revert this
  decide

end Ens.Cmaes
