import Verif.Moo.Nsga2Props
import Verif.Moo.Agemoea
import Verif.Moo.MoeadProps

/-
The observable events of whole runs of NSGA2, AGEMOEA and MOEA/D: calls of the objectives, BeginOptimization,
GenerationalStepTaken and its answer (C310).
-/

namespace Ens.Moo.Events

open Ens.Moo

variable {W I R : Type}

/-- What user code sees: `BeginOptimization`, a call of objective `k`, `GenerationalStepTaken` with the answer of the
callbacks (`true`: stop). -/
inductive Ev where
  | begin
  | eval (k : Nat)
  | gen (stop : Bool)
  deriving DecidableEq

/-- The events of one `EvaluateObjectives` on `n` individuals, `rem` objectives from `k` on. -/
def evalLog (n : Nat) : (rem k : Nat) → List Ev
  | 0, _ => []
  | rem + 1, k => (List.replicate n (.eval k :: evalLog n rem (k + 1))).flatten

/-- `stops` are the answers of a run of at most `G` generations that ends as soon as the answer is `true`. -/
def Answers (G : Nat) (stops : List Bool) : Prop :=
  stops = List.replicate G false ∨ ∃ k < G, stops = List.replicate k false ++ [true]

theorem answers_cons_false {G : Nat} {l : List Bool} (h : Answers G l) : Answers (G + 1) (false :: l) := by
  rcases h with rfl | ⟨k, hk, rfl⟩
  · exact Or.inl rfl
  · exact Or.inr ⟨k + 1, by omega, rfl⟩

theorem evaluateObjectives_log {evaluate : W → Nat → I → W × R} {log : W → List Ev}
    (h : ∀ w k x, log (evaluate w k x).1 = log w ++ [.eval k]) (pop : List I) :
    ∀ (rem k : Nat) (s : W × (Nat → Nat → R)),
      log (evaluateObjectives evaluate pop rem k s).1 = log s.1 ++ evalLog pop.length rem k := by
  intro rem
  induction rem with
  | zero => intro k s; simp [evaluateObjectives, evalLog]
  | succ rem ih =>
    intro k s
    have key : ∀ (l : List (I × Nat)) (s : W × (Nat → Nat → R)),
        log (l.foldl (fun s p => evaluateObjectives evaluate pop rem (k + 1)
          ((evaluate s.1 k p.1).1, setObj s.2 p.2 k (evaluate s.1 k p.1).2)) s).1 =
        log s.1 ++ (List.replicate l.length (Ev.eval k :: evalLog pop.length rem (k + 1))).flatten := by
      intro l
      induction l with
      | nil => intro s; simp
      | cons p l ih2 =>
        intro s
        rw [List.foldl_cons, ih2, ih, h, List.length_cons, List.replicate_succ, List.flatten_cons]
        simp
    rw [evaluateObjectives, key, evalLog, List.length_zipIdx]

theorem count_replicate_flatten (a : Ev) (l : List Ev) (n : Nat) :
    ((List.replicate n l).flatten).count a = n * l.count a := by
  induction n with
  | zero => simp
  | succ n ih => rw [List.replicate_succ, List.flatten_cons, List.count_append, ih]; ring

/-- Calls of objective `j` in one `EvaluateObjectives`. -/
theorem count_evalLog (n : Nat) : ∀ (rem k j : Nat),
    (evalLog n rem k).count (.eval j) = if k ≤ j ∧ j < k + rem then n ^ (j - k + 1) else 0 := by
  intro rem
  induction rem with
  | zero =>
    intro k j
    rw [if_neg (by omega)]
    rfl
  | succ rem ih =>
    intro k j
    rw [evalLog, count_replicate_flatten, List.count_cons, ih]
    by_cases hj : j = k
    · subst hj
      rw [if_neg (by omega), if_pos (by simp), if_pos (by omega)]
      simp
    · by_cases h : k + 1 ≤ j ∧ j < k + 1 + rem
      · rw [if_pos h, if_neg (by simpa using fun h => hj h.symm), if_pos (by omega),
          show j - k + 1 = (j - (k + 1) + 1) + 1 by omega, pow_succ]
        ring
      · rw [if_neg h, if_neg (by simpa using fun h => hj h.symm), if_neg (by omega)]
        simp

/-! ### NSGA2 and AGEMOEA -/

/-- `log` is a record of the events: every call of user code adds its event, nothing else does. -/
structure Watched (env : Moo.Env W I R) (log : W → List Ev) : Prop where
  evaluate : ∀ w k x, log (env.evaluate w k x).1 = log w ++ [.eval k]
  initial : ∀ w x, log (env.initial w x).1 = log w
  pick : ∀ w, log (env.pick w).1 = log w
  cross : ∀ w a b, log (env.cross w a b).1 = log w
  perturb : ∀ w x, log (env.perturb w x).1 = log w
  cbBegin : ∀ w x, log (env.cbBegin w x) = log w ++ [.begin]
  cbGen : ∀ w p o f, log (env.cbGen w p o f).1 = log w ++ [.gen (env.cbGen w p o f).2]

/-- Any user code together with a record of its calls. -/
def recording (env : Moo.Env W I R) : Moo.Env (W × List Ev) I R where
  evaluate w k x := let e := env.evaluate w.1 k x; ((e.1, w.2 ++ [.eval k]), e.2)
  initial w x := let d := env.initial w.1 x; ((d.1, w.2), d.2)
  clamp := env.clamp
  pick w := let d := env.pick w.1; ((d.1, w.2), d.2)
  cross w a b := let d := env.cross w.1 a b; ((d.1, w.2), d.2)
  perturb w x := let d := env.perturb w.1 x; ((d.1, w.2), d.2)
  approx := env.approx
  sort := env.sort
  sortIdx := env.sortIdx
  cbBegin w x := (env.cbBegin w.1 x, w.2 ++ [.begin])
  cbGen w p o f := let c := env.cbGen w.1 p o f; ((c.1, w.2 ++ [.gen c.2]), c.2)
  maxVal := env.maxVal

/-- The hypothesis of the theorems below is met by every user code. -/
theorem recording_watched (env : Moo.Env W I R) : Watched (recording env) Prod.snd where
  evaluate _ _ _ := rfl
  initial _ _ := rfl
  pick _ := rfl
  cross _ _ _ := rfl
  perturb _ _ := rfl
  cbBegin _ _ := rfl
  cbGen _ _ _ _ := rfl

theorem initialPopulation_log {env : Moo.Env W I R} {log : W → List Ev} (h : Watched env log) (x : I) :
    ∀ (n : Nat) (w : W), log (initialPopulation env x n w).1 = log w
  | 0, _ => rfl
  | n + 1, w => (initialPopulation_log h x n _).trans (h.initial w x)

theorem breed_log {env : Moo.Env W I R} {log : W → List Ev} (h : Watched env log) (N : Nat) (pop : List I) :
    ∀ (n : Nat) (w : W) (r : W × List I), breed env N pop n w = some r → log r.1 = log w
  | 0, w, r, hr => by cases hr; rfl
  | n + 1, w, r, hr => by
    simp only [breed, Option.bind_eq_bind, Option.bind_eq_some_iff, Option.some.injEq] at hr
    obtain ⟨b, hb, c, hc, rfl⟩ := hr
    rw [breed_log h N pop n b.1 c hc]
    simp only [breedTwo, Option.bind_eq_bind, Option.bind_eq_some_iff, Option.some.injEq] at hb
    obtain ⟨_, _, _, _, rfl⟩ := hb
    rw [h.perturb, h.perturb, h.cross]
    exact (h.pick _).trans (h.pick _)

theorem start_log [Zero R] {env : Moo.Env W I R} {log : W → List Ev} (h : Watched env log) (N : Nat) (w : W)
    (x : I) : log (start env N w x).w = log w ++ [.begin] := by
  rw [← initialPopulation_log h x N w]
  exact h.cbBegin _ _

theorem start_length [Zero R] (env : Moo.Env W I R) (N : Nat) (w : W) (x : I) :
    (start env N w x).pop.length = N :=
  (initialPopulation_spec (env := env) (B := fun _ => True) (fun _ => trivial) x N w).1

theorem genLoop_log [Field R] [LinearOrder R] {env : Moo.Env W I R} {log : W → List Ev} (h : Watched env log)
    (hs : ∀ c l, (env.sort c l).Perm l) {N m : Nat} : ∀ (G : Nat) (s s' : Moo.St W I R), s.pop.length = N →
      s.terminate = false → Moo.genLoop env N m G s = some s' →
      ∃ stops, Answers G stops ∧ s'.history.length = s.history.length + stops.length ∧
        log s'.w = log s.w ++ (stops.map fun b => evalLog N m 0 ++ [.gen b]).flatten := by
  intro G
  induction G with
  | zero =>
    intro s s' hl ht hg
    cases hg
    exact ⟨[], Or.inl rfl, by simp, by simp⟩
  | succ G ih =>
    intro s s' hl ht hg
    rw [Moo.genLoop, if_neg (by rw [ht]; decide), Option.bind_eq_some_iff] at hg
    obtain ⟨t, hgen, hg⟩ := hg
    have hgen' := hgen
    simp only [Moo.generation, Option.bind_eq_bind, Option.bind_eq_some_iff, Option.some.injEq] at hgen'
    obtain ⟨b, hb, f, hf, rfl⟩ := hgen'
    have hb2 := (breed_spec (env := env) (B := fun _ => True) (fun _ => trivial) _ _ _ hb).1
    have hlog := breed_log h _ _ _ _ _ hb
    have htake : ((s.pop ++ b.2).take N).length = N := by
      rw [List.length_take, List.length_append]; omega
    have hpl : ∀ c, ((env.sort c (s.pop ++ b.2)).take N).length = N := by
      intro c
      rw [List.length_take, (hs c _).length_eq, List.length_append]; omega
    have he : log (evaluateObjectives env.evaluate ((s.pop ++ b.2).take N) m 0 (b.1, fun _ _ => 0)).1 =
        log s.w ++ evalLog N m 0 := by
      rw [evaluateObjectives_log h.evaluate, htake, hlog]
    generalize evaluateObjectives env.evaluate ((s.pop ++ b.2).take N) m 0 (b.1, fun _ _ => 0) = e at *
    set t := (⟨_, _, _, _, _, _, _, _⟩ : Moo.St W I R) with htdef
    have hw : log t.w = log s.w ++ evalLog N m 0 ++ [.gen t.terminate] := by
      rw [← he]; exact h.cbGen _ _ _ _
    have hpt : t.pop.length = N := hpl _
    have hh : t.history.length = s.history.length + 1 := by rw [htdef]; simp
    clear_value t
    cases htt : t.terminate with
    | true =>
      have : s' = t := by
        cases G with
        | zero => cases hg; rfl
        | succ G => rw [Moo.genLoop, if_pos htt] at hg; cases hg; rfl
      subst this
      refine ⟨[true], Or.inr ⟨0, by omega, rfl⟩, by simpa using hh, ?_⟩
      rw [hw, htt]; simp
    | false =>
      obtain ⟨stops, h1, h2, h3⟩ := ih t s' hpt htt hg
      refine ⟨false :: stops, answers_cons_false h1, by rw [h2, hh, List.length_cons]; omega, ?_⟩
      rw [h3, hw, htt]
      simp

theorem optimize_ok [Field R] [LinearOrder R] {env : Moo.Env W I R} {N G m : Nat} {w : W} {x : I}
    {s : Moo.St W I R} {r : Moo.Result I R} (h : Moo.optimize env N G m w x = .ok (s, r)) :
    Moo.genLoop env N m G (start env N w x) = some s := by
  unfold Moo.optimize at h
  by_cases hg : guardThrows N = true
  · rw [if_pos hg] at h; cases h
  · rw [if_neg hg] at h
    cases hl : Moo.genLoop env N m G (start env N w x) with
    | none => rw [hl] at h; cases h
    | some t =>
      rw [hl] at h
      simp only at h
      cases hf : Moo.finish env m t with
      | none => rw [hf] at h; cases h
      | some q => rw [hf] at h; cases h; rfl

/-- **C310** NSGA2: a run that returns consists of BeginOptimization and generations, each of which evaluates the
objectives of `N` individuals and then reports to the callbacks once. The run makes all `G` generations if no callback
asks to stop, and otherwise ends with the first generation after which one does. -/
theorem C310_nsga2 [Field R] [LinearOrder R] {env : Moo.Env W I R} {log : W → List Ev} (h : Watched env log)
    (hs : ∀ c l, (env.sort c l).Perm l) {N G m : Nat} {w : W} {x : I} {s : Moo.St W I R} {r : Moo.Result I R}
    (hrun : Moo.optimize env N G m w x = .ok (s, r)) :
    ∃ stops, Answers G stops ∧ s.history.length = stops.length + 1 ∧
      log s.w = log w ++ [.begin] ++ (stops.map fun b => evalLog N m 0 ++ [.gen b]).flatten := by
  obtain ⟨stops, h1, h2, h3⟩ := genLoop_log h hs G _ s (start_length env N w x) rfl (optimize_ok hrun)
  refine ⟨stops, h1, ?_, ?_⟩
  · rw [h2]
    show 1 + _ = _
    omega
  · rw [h3, start_log h]

theorem count_map_flatten (a : Ev) (f : Bool → List Ev) (c : Nat) (hf : ∀ b, (f b).count a = c) :
    ∀ l : List Bool, ((l.map f).flatten).count a = l.length * c
  | [] => by simp
  | b :: l => by
    rw [List.map_cons, List.flatten_cons, List.count_append, hf, count_map_flatten a f c hf l, List.length_cons]
    ring

/-- **C310** NSGA2, the cost of a run: objective `j` is called `N ^ (j + 1)` times in each generation. -/
theorem C310_nsga2_cost [Field R] [LinearOrder R] {env : Moo.Env W I R} {log : W → List Ev} (h : Watched env log)
    (hs : ∀ c l, (env.sort c l).Perm l) {N G m : Nat} {w : W} {x : I} {s : Moo.St W I R} {r : Moo.Result I R}
    (hw : log w = []) (hrun : Moo.optimize env N G m w x = .ok (s, r)) (j : Nat) (hj : j < m) :
    (log s.w).count (.eval j) = (s.history.length - 1) * N ^ (j + 1) := by
  obtain ⟨stops, h1, h2, h3⟩ := C310_nsga2 h hs hrun
  rw [h3, hw, List.nil_append, List.count_append,
    count_map_flatten (.eval j) (fun b => evalLog N m 0 ++ [Ev.gen b]) (N ^ (j + 1)) ?_ stops, h2]
  · simp
  · intro b
    rw [List.count_append, count_evalLog, if_pos (by omega)]
    simp

theorem agemoea_genLoop_log [Field R] [LinearOrder R] {env : Agemoea.Env W I R} {log : W → List Ev}
    (h : Watched env.toEnv log) (hs : ∀ c l, (env.sort c l).Perm l) {N m : Nat} :
    ∀ (G : Nat) (s s' : Moo.St W I R), s.pop.length = N →
      s.terminate = false → Agemoea.genLoop env N m G s = some s' →
      ∃ stops, Answers G stops ∧ s'.pop.length = N ∧ s'.history.length = s.history.length + stops.length ∧
        log s'.w = log s.w ++
          (stops.map fun b => evalLog (N + 2 * ((N + 1) / 2)) m 0 ++ [.gen b]).flatten := by
  intro G
  induction G with
  | zero =>
    intro s s' hl ht hg
    cases hg
    exact ⟨[], Or.inl rfl, hl, by simp, by simp⟩
  | succ G ih =>
    intro s s' hl ht hg
    rw [Agemoea.genLoop, if_neg (by rw [ht]; decide), Option.bind_eq_some_iff] at hg
    obtain ⟨t, hgen, hg⟩ := hg
    have hgen' := hgen
    simp only [Agemoea.generation, Option.bind_eq_bind, Option.bind_eq_some_iff, Option.some.injEq] at hgen'
    obtain ⟨b, hb, f, hf, rfl⟩ := hgen'
    have hb2 := (breed_spec (env := env.toEnv) (B := fun _ => True) (fun _ => trivial) _ _ _ hb).1
    have hlog := breed_log h _ _ _ _ _ hb
    have hlen : (s.pop ++ b.2).length = N + 2 * ((N + 1) / 2) := by
      rw [List.length_append, hb2, hl]
    have hpl : ∀ c, ((env.sort c (s.pop ++ b.2)).take N).length = N := by
      intro c
      rw [List.length_take, (hs c _).length_eq, List.length_append]; omega
    have he : log (evaluateObjectives env.evaluate (s.pop ++ b.2) m 0 (b.1, fun _ _ => 0)).1 =
        log s.w ++ evalLog (N + 2 * ((N + 1) / 2)) m 0 := by
      rw [evaluateObjectives_log h.evaluate, hlen, hlog]
    generalize evaluateObjectives env.evaluate (s.pop ++ b.2) m 0 (b.1, fun _ _ => 0) = e at *
    set t := (⟨_, _, _, _, _, _, _, _⟩ : Moo.St W I R) with htdef
    have hw : log t.w = log s.w ++ evalLog (N + 2 * ((N + 1) / 2)) m 0 ++ [.gen t.terminate] := by
      rw [← he]; exact h.cbGen _ _ _ _
    have hpt : t.pop.length = N := hpl _
    have hh : t.history.length = s.history.length + 1 := by rw [htdef]; simp
    clear_value t
    cases htt : t.terminate with
    | true =>
      have : s' = t := by
        cases G with
        | zero => cases hg; rfl
        | succ G => rw [Agemoea.genLoop, if_pos htt] at hg; cases hg; rfl
      subst this
      refine ⟨[true], Or.inr ⟨0, by omega, rfl⟩, hpt, by simpa using hh, ?_⟩
      rw [hw, htt]; simp
    | false =>
      obtain ⟨stops, h1, h1', h2, h3⟩ := ih t s' hpt htt hg
      refine ⟨false :: stops, answers_cons_false h1, h1', by rw [h2, hh, List.length_cons]; omega, ?_⟩
      rw [h3, hw, htt]
      simp

/-- **C310** AGEMOEA: as NSGA2, but parents and children are all evaluated in every generation, and the final
population once more after the last callback (the state `s` is that before this evaluation). -/
theorem C310_agemoea [Field R] [LinearOrder R] {env : Agemoea.Env W I R} {log : W → List Ev}
    (h : Watched env.toEnv log) (hs : ∀ c l, (env.sort c l).Perm l) {N G m : Nat} {w : W} {x : I}
    {s : Moo.St W I R} {r : Moo.Result I R} (hrun : Agemoea.optimize env N G m w x = .ok (s, r)) :
    ∃ stops, Answers G stops ∧ s.history.length = stops.length + 1 ∧
      log s.w = log w ++ [.begin] ++
        (stops.map fun b => evalLog (N + 2 * ((N + 1) / 2)) m 0 ++ [.gen b]).flatten ∧
      log (evaluateObjectives env.evaluate s.pop m 0 (s.w, s.objs)).1 = log s.w ++ evalLog N m 0 := by
  obtain ⟨stops, h1, h1', h2, h3⟩ := agemoea_genLoop_log h hs G _ s (start_length env.toEnv N w x) rfl
    (Agemoea.optimize_ok hrun).1
  refine ⟨stops, h1, ?_, ?_, ?_⟩
  · rw [h2]
    show 1 + _ = _
    omega
  · rw [h3, start_log h]
  · rw [evaluateObjectives_log h.evaluate, h1']

/-- **C310** AGEMOEA, the cost of a run with an even population: objective `j` is called `(2 N) ^ (j + 1)` times in
each generation. -/
theorem C310_agemoea_cost [Field R] [LinearOrder R] {env : Agemoea.Env W I R} {log : W → List Ev}
    (h : Watched env.toEnv log) (hs : ∀ c l, (env.sort c l).Perm l) {N G m : Nat} {w : W} {x : I}
    {s : Moo.St W I R} {r : Moo.Result I R} (hw : log w = []) (hN : N % 2 = 0)
    (hrun : Agemoea.optimize env N G m w x = .ok (s, r)) (j : Nat) (hj : j < m) :
    (log s.w).count (.eval j) = (s.history.length - 1) * (2 * N) ^ (j + 1) := by
  obtain ⟨stops, h1, h2, h3, -⟩ := C310_agemoea h hs hrun
  have hN2 : N + 2 * ((N + 1) / 2) = 2 * N := by omega
  rw [hN2] at h3
  rw [h3, hw, List.nil_append, List.count_append,
    count_map_flatten (.eval j) (fun b => evalLog (2 * N) m 0 ++ [Ev.gen b]) ((2 * N) ^ (j + 1)) ?_ stops, h2]
  · simp
  · intro b
    rw [List.count_append, count_evalLog, if_pos (by omega)]
    simp

/-! ### MOEA/D -/

/-- As `Watched`, for MOEA/D. -/
structure MWatched (env : Moead.Env W I R) (log : W → List Ev) : Prop where
  evaluate : ∀ w k x, log (env.evaluate w k x).1 = log w ++ [.eval k]
  initial : ∀ w x, log (env.initial w x).1 = log w
  shuffle : ∀ w n, log (env.shuffle w n).1 = log w
  coin : ∀ w, log (env.coin w).1 = log w
  randi : ∀ w n, log (env.randi w n).1 = log w
  make : ∀ w a b c, log (env.make w a b c).1 = log w
  cbBegin : ∀ w x, log (env.cbBegin w x) = log w ++ [.begin]
  cbGen : ∀ w f, log (env.cbGen w f).1 = log w ++ [.gen (env.cbGen w f).2]
  cbEnd : ∀ w x, log (env.cbEnd w x) = log w

def mrecording (env : Moead.Env W I R) : Moead.Env (W × List Ev) I R where
  evaluate w k x := let e := env.evaluate w.1 k x; ((e.1, w.2 ++ [.eval k]), e.2)
  initial w x := let d := env.initial w.1 x; ((d.1, w.2), d.2)
  clamp := env.clamp
  sorted := env.sorted
  shuffle w n := let d := env.shuffle w.1 n; ((d.1, w.2), d.2)
  coin w := let d := env.coin w.1; ((d.1, w.2), d.2)
  randi w n := let d := env.randi w.1 n; ((d.1, w.2), d.2)
  make w a b c := let d := env.make w.1 a b c; ((d.1, w.2), d.2)
  apply := env.apply
  cbBegin w x := (env.cbBegin w.1 x, w.2 ++ [.begin])
  cbGen w f := let c := env.cbGen w.1 f; ((c.1, w.2 ++ [.gen c.2]), c.2)
  cbEnd w x := (env.cbEnd w.1 x, w.2)
  maxVal := env.maxVal

theorem mrecording_watched (env : Moead.Env W I R) : MWatched (mrecording env) Prod.snd where
  evaluate _ _ _ := rfl
  initial _ _ := rfl
  shuffle _ _ := rfl
  coin _ := rfl
  randi _ _ := rfl
  make _ _ _ _ := rfl
  cbBegin _ _ := rfl
  cbGen _ _ := rfl
  cbEnd _ _ := rfl

theorem minitial_log {env : Moead.Env W I R} {log : W → List Ev} (h : MWatched env log) (x : I) :
    ∀ (n : Nat) (w : W), log (Moead.initialPopulation env x n w).1 = log w ∧
      (Moead.initialPopulation env x n w).2.length = n
  | 0, _ => ⟨rfl, rfl⟩
  | n + 1, w => ⟨(minitial_log h x n _).1.trans (h.initial w x), by
      rw [Moead.initialPopulation, List.length_cons, (minitial_log h x n _).2]⟩

theorem draw_log {env : Moead.Env W I R} {log : W → List Ev} (h : MWatched env log) {N K sub : Nat} {b : Bool}
    {w : W} {r : W × Nat} (hr : Moead.draw env N K sub b w = some r) : log r.1 = log w := by
  unfold Moead.draw at hr
  cases b with
  | true =>
    simp only [if_true, Option.map_eq_some_iff] at hr
    obtain ⟨p, -, rfl⟩ := hr
    exact h.randi _ _
  | false =>
    simp only [Bool.false_eq_true, if_false, Option.some.injEq] at hr
    subst hr
    exact h.randi _ _

theorem subproblem_log [Zero R] [LinearOrder R] {env : Moead.Env W I R} {log : W → List Ev} (h : MWatched env log)
    {N K maxReplace m sub : Nat} {s s' : Moead.St W I R}
    (hs : Moead.subproblem env N K maxReplace m s sub = some s') :
    log s'.w = log s.w ++ evalLog 1 m 0 ∧ s'.terminate = s.terminate ∧ s'.history = s.history := by
  simp only [Moead.subproblem, Option.bind_eq_bind, Option.bind_eq_some_iff, Option.some.injEq] at hs
  obtain ⟨r, hr, _, _, _, _, _, _, _, _, rfl⟩ := hs
  refine ⟨?_, rfl, rfl⟩
  simp only [Moead.mating, Option.bind_eq_bind, Option.bind_eq_some_iff, Option.some.injEq] at hr
  obtain ⟨a, ha, b, hb, rfl⟩ := hr
  show log (env.shuffle _ _).1 = _
  rw [h.shuffle, evaluateObjectives_log h.evaluate]
  show log (env.make _ _ _ _).1 ++ _ = _
  rw [h.make]
  show log b.1 ++ _ = _
  rw [draw_log h hb, draw_log h ha, h.coin]
  rfl

theorem foldlM_log [Zero R] [LinearOrder R] {env : Moead.Env W I R} {log : W → List Ev} (h : MWatched env log)
    {N K maxReplace m : Nat} : ∀ (l : List Nat) (s s' : Moead.St W I R),
    l.foldlM (Moead.subproblem env N K maxReplace m) s = some s' →
    log s'.w = log s.w ++ (List.replicate l.length (evalLog 1 m 0)).flatten ∧ s'.terminate = s.terminate ∧
      s'.history = s.history
  | [], s, s', hs => by cases hs; simp
  | i :: l, s, s', hs => by
    rw [List.foldlM_cons, Option.bind_eq_bind, Option.bind_eq_some_iff] at hs
    obtain ⟨t, ht, hs⟩ := hs
    obtain ⟨h1, h2, h3⟩ := subproblem_log h ht
    obtain ⟨k1, k2, k3⟩ := foldlM_log h l t s' hs
    refine ⟨?_, k2.trans h2, k3.trans h3⟩
    rw [k1, h1, List.length_cons, List.replicate_succ, List.flatten_cons, List.append_assoc]

/-- The events of one generation of MOEA/D before its callback: one candidate per subproblem. -/
def moeadGen (N m : Nat) : List Ev := (List.replicate N (evalLog 1 m 0)).flatten

theorem moead_genLoop_log [Zero R] [LinearOrder R] {env : Moead.Env W I R} {log : W → List Ev}
    (h : MWatched env log) {N K maxReplace m : Nat} (hsh : ∀ w, (env.shuffle w N).2.length = N) :
    ∀ (G : Nat) (s s' : Moead.St W I R),
      s.terminate = false → Moead.genLoop env N K maxReplace m G s = some s' →
      ∃ stops, Answers G stops ∧ s'.history.length = s.history.length + stops.length ∧
        log s'.w = log s.w ++ (stops.map fun b => moeadGen N m ++ [.gen b]).flatten := by
  intro G
  induction G with
  | zero =>
    intro s s' ht hg
    cases hg
    exact ⟨[], Or.inl rfl, by simp, by simp⟩
  | succ G ih =>
    intro s s' ht hg
    rw [Moead.genLoop, if_neg (by rw [ht]; decide), Option.bind_eq_some_iff] at hg
    obtain ⟨t, hgen, hg⟩ := hg
    have hgen' := hgen
    simp only [Moead.generation, Option.bind_eq_bind, Option.bind_eq_some_iff, Option.some.injEq] at hgen'
    obtain ⟨u, hu, rfl⟩ := hgen'
    obtain ⟨h1, -, h3⟩ := foldlM_log h _ _ _ hu
    rw [hsh] at h1
    have h1 : log u.w = log s.w ++ moeadGen N m := by
      rw [h1]
      show log (env.shuffle s.w N).1 ++ _ = _
      rw [h.shuffle]; rfl
    set t := ({ u with w := _, terminate := _, history := _ } : Moead.St W I R) with htdef
    have hw : log t.w = log s.w ++ moeadGen N m ++ [.gen t.terminate] := by
      refine (h.cbGen _ _).trans ?_
      rw [h.shuffle, h1]
    have hh : t.history.length = s.history.length + 1 := by
      rw [htdef]
      simp [h3]
    clear_value t
    cases htt : t.terminate with
    | true =>
      have : s' = t := by
        cases G with
        | zero => cases hg; rfl
        | succ G => rw [Moead.genLoop, if_pos htt] at hg; cases hg; rfl
      subst this
      refine ⟨[true], Or.inr ⟨0, by omega, rfl⟩, by simpa using hh, ?_⟩
      rw [hw, htt]; simp
    | false =>
      obtain ⟨stops, k1, k2, k3⟩ := ih t s' htt hg
      refine ⟨false :: stops, answers_cons_false k1, by rw [k2, hh, List.length_cons]; omega, ?_⟩
      rw [k3, hw, htt]
      simp

theorem moead_optimize_ok [AddMonoid R] [LinearOrder R] {env : Moead.Env W I R} {N K maxReplace G m : Nat} {w : W}
    {x : I} {s : Moead.St W I R} {r : Moo.Result I R}
    (h : Moead.optimize env N K maxReplace G m w x = .ok (s, r)) :
    ∃ t, Moead.genLoop env N K maxReplace m G (Moead.start env N m w x) = some t ∧
      s = { t with w := env.cbEnd t.w r.iterate } := by
  unfold Moead.optimize at h
  split_ifs at h
  cases hl : Moead.genLoop env N K maxReplace m G (Moead.start env N m w x) with
  | none => rw [hl] at h; cases h
  | some t =>
    rw [hl] at h
    simp only at h
    cases hf : Moead.finish env m t with
    | none => rw [hf] at h; cases h
    | some q => rw [hf] at h; cases h; exact ⟨t, rfl, rfl⟩

/-- **C310** MOEA/D: the initial population is evaluated before BeginOptimization; then generations as in NSGA2, each
of which evaluates every objective once for each of `N` candidates. -/
theorem C310_moead [AddMonoid R] [LinearOrder R] {env : Moead.Env W I R} {log : W → List Ev} (h : MWatched env log)
    {N K maxReplace G m : Nat} (hsh : ∀ w, (env.shuffle w N).2.length = N) {w : W} {x : I} {s : Moead.St W I R}
    {r : Moo.Result I R} (hrun : Moead.optimize env N K maxReplace G m w x = .ok (s, r)) :
    ∃ stops, Answers G stops ∧ s.history.length = stops.length ∧
      log s.w = log w ++ evalLog N m 0 ++ [.begin] ++ (stops.map fun b => moeadGen N m ++ [.gen b]).flatten := by
  obtain ⟨t, hl, rfl⟩ := moead_optimize_ok hrun
  obtain ⟨stops, h1, h2, h3⟩ := moead_genLoop_log h hsh G _ t rfl hl
  refine ⟨stops, h1, ?_, ?_⟩
  · rw [h2]
    show 0 + _ = _
    omega
  · show log (env.cbEnd t.w _) = _
    rw [h.cbEnd, h3]
    congr 1
    refine (h.cbBegin _ _).trans ?_
    rw [evaluateObjectives_log h.evaluate, (minitial_log h x N w).1, (minitial_log h x N w).2]

/-- **C310** MOEA/D, the cost of a run: objective `j` is called `N ^ (j + 1)` times for the initial population and
`N` times in each generation. -/
theorem C310_moead_cost [AddMonoid R] [LinearOrder R] {env : Moead.Env W I R} {log : W → List Ev}
    (h : MWatched env log) {N K maxReplace G m : Nat} (hsh : ∀ w, (env.shuffle w N).2.length = N) {w : W} {x : I}
    {s : Moead.St W I R} {r : Moo.Result I R} (hw : log w = [])
    (hrun : Moead.optimize env N K maxReplace G m w x = .ok (s, r)) (j : Nat) (hj : j < m) :
    (log s.w).count (.eval j) = N ^ (j + 1) + s.history.length * N := by
  obtain ⟨stops, h1, h2, h3⟩ := C310_moead h hsh hrun
  rw [h3, hw, List.nil_append, List.count_append, List.count_append, count_evalLog, if_pos (by omega),
    count_map_flatten (.eval j) (fun b => moeadGen N m ++ [Ev.gen b]) N ?_ stops, h2]
  · simp
  · intro b
    rw [List.count_append, moeadGen, count_replicate_flatten, count_evalLog, if_pos (by omega)]
    simp

/-! ### Concrete runs -/

/-- NSGA2 with a callback that stops after the second of at most nine generations. -/
example : (match Moo.optimize (recording { Moo.demo with cbGen := fun w _ _ _ => (w, decide (8 < w)) }) 4 9 1 (0, []) 0 with
    | .ok (s, _) => some (s.w.2.filter fun e => decide (e = .gen true ∨ e = .gen false))
    | _ => none) = some [.gen false, .gen true] := by decide +kernel

/-- MOEA/D, one generation. -/
example : (match Moead.optimize (mrecording Moead.demo) 3 2 1 1 1 (0, []) 0 with
    | .ok (s, _) => some s.w.2
    | _ => none) = some [.eval 0, .eval 0, .eval 0, .begin, .eval 0, .eval 0, .eval 0, .gen false] := by
  decide +kernel

end Ens.Moo.Events
