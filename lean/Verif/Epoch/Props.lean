import Mathlib.Algebra.BigOperators.Group.List.Basic
import Verif.Trace
import Verif.Epoch.Model

/-
C168-C171: whole runs of Eve and SPALeRASGD.
-/

namespace Ens.Epoch

variable {W M G E : Type}

/-! ### Reading a trace -/

def Ev.stops : Ev M E → Bool
  | .evaluate _ _ _ _ s => s
  | .beginEpoch _ _ s => s
  | .evalGrad _ _ _ _ s => s
  | .stepTaken _ s => s
  | .endEpoch _ _ s => s
  | _ => false

/-- Did some callback ask to stop in this trace? -/
def anyStop (t : List (Ev M E)) : Bool := t.any Ev.stops

/-- Positions of the functions differentiated, in order. -/
def visits (t : List (Ev M E)) : List Nat :=
  t.flatMap fun e => match e with
    | .evalGrad _ b k _ _ => List.range' b k
    | _ => []

def Ev.isEndEpoch : Ev M E → Bool
  | .endEpoch .. => true
  | _ => false

/-- Number of finished epochs. -/
def epochs (t : List (Ev M E)) : Nat := t.countP Ev.isEndEpoch

/-- Coordinates after an event, given those before it. -/
def Ev.coords (x : M) : Ev M E → M
  | .beginOpt _ x' => x'
  | .update _ y _ => y
  | .stepTaken y _ => y
  | .decay y => y
  | _ => x

/-- Coordinates after a trace that starts at `x₀`. -/
def current (x₀ : M) (t : List (Ev M E)) : M := t.foldl Ev.coords x₀

/-- Sum of all objective values computed since the last epoch ended (or since the beginning). -/
def epochSum (env : Env W M G E) (t : List (Ev M E)) : E :=
  t.foldl (fun a e => match e with
    | .evaluate _ _ _ o _ => env.add a o
    | .evalGrad _ _ _ o _ => env.add a o
    | .endEpoch .. => env.zero
    | _ => a) env.zero

/-- Sum of the objective values of the batches stepped on since the last epoch ended. -/
def gradSum (env : Env W M G E) (t : List (Ev M E)) : E :=
  t.foldl (fun a e => match e with
    | .evalGrad _ _ _ o _ => env.add a o
    | .endEpoch .. => env.zero
    | _ => a) env.zero

/-- The sums of the finished epochs, in order. -/
def finished (env : Env W M G E) (t : List (Ev M E)) : List E :=
  (t.foldl (fun (a : List (Ev M E) × List E) e =>
    (a.1 ++ [e], match e with | .endEpoch .. => a.2 ++ [epochSum env a.1] | _ => a.2)) ([], [])).2

/-- The tests at the end of an epoch let each of these sums pass: none is NaN or infinite, and each differs from the one
before it (the first from `l`) by at least the tolerance. -/
def Passes (env : Env W M G E) : E → List E → Prop
  | _, [] => True
  | l, v :: vs => env.isBad v = false ∧ env.isClose l v = false ∧ Passes env v vs

@[simp] theorem anyStop_append (a b : List (Ev M E)) : anyStop (a ++ b) = (anyStop a || anyStop b) := by
  simp [anyStop]
@[simp] theorem visits_append (a b : List (Ev M E)) : visits (a ++ b) = visits a ++ visits b := by
  simp [visits]
@[simp] theorem epochs_append (a b : List (Ev M E)) : epochs (a ++ b) = epochs a + epochs b := by
  simp [epochs]
@[simp] theorem current_append (x₀ : M) (a b : List (Ev M E)) :
    current x₀ (a ++ b) = current (current x₀ a) b := by simp [current]

def Ev.isEndOpt : Ev M E → Bool
  | .endOpt _ => true
  | _ => false

/-- Only the batches stepped on count: always for Eve, and for SPALeRA after its first epoch. -/
def Own (env : Env W M G E) (p : Params) (t : List (Ev M E)) : Prop :=
  p.kind = .eve ∨ epochs t ≠ 0 → epochSum env t = gradSum env t

/-- The law of every trace. -/
def Law (env : Env W M G E) (p : Params) (x₀ : M) (pre : List (Ev M E)) : Ev M E → Prop
  | .beginOpt x _ => pre = [] ∧ x = x₀
  | .evaluate x b k _ _ => x = current x₀ pre ∧ 1 ≤ k ∧ b + k ≤ p.numFunctions
  | .evalGrad x b k _ _ =>
      anyStop pre = false ∧ x = current x₀ pre ∧ 1 ≤ k ∧ k ≤ p.batchSize ∧ b + k ≤ p.numFunctions ∧
      b = (visits pre).length % p.numFunctions ∧ (visits pre).length + k ≤ p.actualMax ∧
      epochs pre = (visits pre).length / p.numFunctions
  | .update x _ _ => x = current x₀ pre ∧ anyStop pre = false ∧
      ∃ pre' b k o, pre = pre' ++ [.evalGrad x b k o false]
  | .stepTaken _ _ => ∃ pre' x y, pre = pre' ++ [.update x y true]
  | .decay _ => ∃ pre' x b, pre = pre' ++ [.stepTaken x b]
  | .endEpoch e o _ => (visits pre).length = e * p.numFunctions ∧ e = epochs pre + 1 ∧
      o = env.divN (epochSum env pre) p.numFunctions ∧ Own env p pre
  | .beginEpoch e _ _ => e = epochs pre + 1 ∧ (visits pre).length = epochs pre * p.numFunctions
  | .shuffle => p.shuffle = true ∧ ∃ pre' e o b, pre = pre' ++ [.beginEpoch e o b]
  | .endOpt x => x = current x₀ pre

/-- Kinds of events, telling apart evaluations and steps by their answers. -/
inductive Tag where
  | beginOpt | evaluate | beginEpoch | gradGo | gradStop | updOk | updFail | stepTaken | decay | endEpoch | shuffle | endOpt
  deriving DecidableEq

def Ev.tag : Ev M E → Tag
  | .beginOpt .. => .beginOpt
  | .evaluate .. => .evaluate
  | .beginEpoch .. => .beginEpoch
  | .evalGrad _ _ _ _ s => if s then .gradStop else .gradGo
  | .update _ _ ok => if ok then .updOk else .updFail
  | .stepTaken .. => .stepTaken
  | .decay _ => .decay
  | .endEpoch .. => .endEpoch
  | .shuffle => .shuffle
  | .endOpt _ => .endOpt

/-- Which event may come right after which: an evaluated batch is followed by its step unless a callback asked to stop, a
successful step by its notification and the decay policy, an epoch that ends by the next one or by the end of the run. -/
def Tag.then : Tag → Tag → Bool
  | .beginOpt, e => e == .evaluate || e == .beginEpoch || e == .gradGo || e == .gradStop || e == .endOpt
  | .evaluate, e => e == .evaluate || e == .beginEpoch || e == .endOpt
  | .beginEpoch, e => e == .shuffle || e == .gradGo || e == .gradStop || e == .evaluate || e == .endOpt
  | .gradGo, e => e == .updOk || e == .updFail
  | .gradStop, e => e == .evaluate || e == .endOpt
  | .updOk, e => e == .stepTaken
  | .updFail, e => e == .endOpt
  | .stepTaken, e => e == .decay
  | .decay, e => e == .endEpoch || e == .gradGo || e == .gradStop || e == .evaluate || e == .endOpt
  | .endEpoch, e => e == .beginEpoch || e == .endOpt
  | .shuffle, e => e == .gradGo || e == .gradStop || e == .evaluate || e == .endOpt
  | .endOpt, _ => false

def lastTag (t : List (Ev M E)) : Option Tag := t.getLast?.map Ev.tag

/-- The event may come after what has happened. -/
def Adjacent (pre : List (Ev M E)) (e : Ev M E) : Prop := ∀ t, lastTag pre = some t → t.then e.tag = true

@[simp] theorem lastTag_snoc (t : List (Ev M E)) (e : Ev M E) : lastTag (t ++ [e]) = some e.tag := by
  simp [lastTag]

theorem lastTag_snoc₂ (t : List (Ev M E)) (e e' : Ev M E) : lastTag (t ++ [e, e']) = some e'.tag := by
  rw [show t ++ [e, e'] = (t ++ [e]) ++ [e'] by simp, lastTag_snoc]

/-- The trace begins with `BeginOptimization` at the given coordinates. -/
def Begins (x₀ : M) (t : List (Ev M E)) : Prop := ∃ x' u, t = .beginOpt x₀ x' :: u

theorem Begins.app {x₀ : M} {t : List (Ev M E)} (h : Begins x₀ t) (a : List (Ev M E)) : Begins x₀ (t ++ a) := by
  obtain ⟨x', u, h⟩ := h
  exact ⟨x', u ++ a, by rw [h]; rfl⟩

/-- Where the loop condition is tested. -/
def AtHead (t : List (Ev M E)) : Prop :=
  lastTag t = some .beginOpt ∨ lastTag t = some .beginEpoch ∨ lastTag t = some .decay ∨ lastTag t = some .shuffle

/-- Where the whole objective is evaluated before the loop. -/
def Opens (t : List (Ev M E)) : Prop := lastTag t = some .beginOpt ∨ lastTag t = some .evaluate

/-! ### Invariants -/

/-- Between any two calls. -/
structure Core (env : Env W M G E) (p : Params) (x₀ : M) (s : St W M E) : Prop where
  law : Along (Law env p x₀) s.trace
  cur : s.x = current x₀ s.trace
  stop : s.terminate = anyStop s.trace
  noEnd : ∀ e ∈ s.trace, e.isEndOpt = false
  order : visits s.trace = (List.range s.i).map (· % p.numFunctions)
  le : s.i ≤ p.actualMax
  ne : Begins x₀ s.trace
  adj : Along Adjacent s.trace

theorem Core.len {env : Env W M G E} {p : Params} {x₀ : M} {s : St W M E} (h : Core env p x₀ s) :
    (visits s.trace).length = s.i := by rw [h.order]; simp

/-- At the loop condition. -/
structure Inv (env : Env W M G E) (p : Params) (x₀ : M) (s : St W M E) : Prop extends Core env p x₀ s where
  pos : s.i < p.actualMax → s.cur = s.i % p.numFunctions
  epoch : s.epoch = epochs s.trace + 1
  num : epochs s.trace = s.i / p.numFunctions
  sum : s.i < p.actualMax → s.overall = epochSum env s.trace
  last : s.i < p.actualMax → s.last = (finished env s.trace).getLast?.getD env.dblMax
  pass : Passes env env.dblMax (finished env s.trace)
  head : AtHead s.trace
  own : Own env p s.trace

/-- One evaluation outside the loop. -/
theorem evalOne_core {env : Env W M G E} {p : Params} {x₀ : M} {s : St W M E} (h : Core env p x₀ s)
    (ho : Opens s.trace) {c : Nat × Nat} (hc : 1 ≤ c.2 ∧ c.1 + c.2 ≤ p.numFunctions) :
    Core env p x₀ (evalOne env s c) where
  law := by
    simp only [evalOne, along_snoc]
    exact ⟨h.law, h.cur, hc⟩
  cur := by simp only [evalOne, current_append]; exact h.cur
  stop := by simp only [evalOne, anyStop_append, h.stop]; simp [anyStop, Ev.stops]
  noEnd := by
    intro e he
    rcases List.mem_append.1 he with he | he
    · exact h.noEnd e he
    · rw [List.mem_singleton] at he; rw [he]; rfl
  order := by simp only [evalOne, visits_append]; simpa [visits] using h.order
  le := h.le
  ne := h.ne.app _
  adj := by
    simp only [evalOne, along_snoc]
    refine ⟨h.adj, fun t ht => ?_⟩
    rcases ho with ho | ho <;> rw [ho] at ht <;> cases ht <;> rfl

theorem epochSum_snoc (env : Env W M G E) (t : List (Ev M E)) (e : Ev M E) :
    epochSum env (t ++ [e]) = match e with
      | .evaluate _ _ _ o _ => env.add (epochSum env t) o
      | .evalGrad _ _ _ o _ => env.add (epochSum env t) o
      | .endEpoch .. => env.zero
      | _ => epochSum env t := by
  unfold epochSum
  rw [List.foldl_append]
  cases e <;> rfl

theorem gradSum_snoc (env : Env W M G E) (t : List (Ev M E)) (e : Ev M E) :
    gradSum env (t ++ [e]) = match e with
      | .evalGrad _ _ _ o _ => env.add (gradSum env t) o
      | .endEpoch .. => env.zero
      | _ => gradSum env t := by
  unfold gradSum
  rw [List.foldl_append]
  cases e <;> rfl

theorem finished_fst (env : Env W M G E) (t : List (Ev M E)) :
    (t.foldl (fun (a : List (Ev M E) × List E) e =>
      (a.1 ++ [e], match e with | .endEpoch .. => a.2 ++ [epochSum env a.1] | _ => a.2)) ([], [])).1 = t := by
  have : ∀ (t : List (Ev M E)) (a : List (Ev M E) × List E), (t.foldl (fun (a : List (Ev M E) × List E) e =>
      (a.1 ++ [e], match e with | .endEpoch .. => a.2 ++ [epochSum env a.1] | _ => a.2)) a).1 = a.1 ++ t := by
    intro t
    induction t with
    | nil => intro a; simp
    | cons e t ih => intro a; rw [List.foldl_cons, ih]; simp
  simpa using this t ([], [])

theorem finished_snoc (env : Env W M G E) (t : List (Ev M E)) (e : Ev M E) :
    finished env (t ++ [e]) = match e with
      | .endEpoch .. => finished env t ++ [epochSum env t]
      | _ => finished env t := by
  unfold finished
  rw [List.foldl_append, List.foldl_cons, List.foldl_nil]
  cases e <;> simp [finished_fst]

theorem passes_snoc {env : Env W M G E} : ∀ {l : E} {vs : List E} {v : E}, Passes env l vs →
    env.isBad v = false → env.isClose (vs.getLast?.getD l) v = false → Passes env l (vs ++ [v])
  | _, [], _, _, h1, h2 => ⟨h1, h2, trivial⟩
  | l, a :: vs, v, h, h1, h2 => by
    refine ⟨h.1, h.2.1, passes_snoc h.2.2 h1 ?_⟩
    rw [List.getLast?_cons] at h2
    exact h2

theorem chunks_legal {n b : Nat} (hb : 0 < b) (fuel i : Nat) :
    ∀ c ∈ Sgd.chunks n b fuel i, 1 ≤ c.2 ∧ c.1 + c.2 ≤ n := by
  induction fuel generalizing i with
  | zero => intro c hc; simp [Sgd.chunks] at hc
  | succ fuel ih =>
    intro c hc
    rw [Sgd.chunks] at hc
    split at hc
    · rcases List.mem_cons.1 hc with hc | hc
      · subst hc; dsimp only; omega
      · exact ih _ c hc
    · simp at hc

/-- What the evaluation of the whole objective does. -/
theorem evalList_spec {env : Env W M G E} {p : Params} {x₀ : M} :
    ∀ (l : List (Nat × Nat)) (s : St W M E), Core env p x₀ s → Opens s.trace →
      (∀ c ∈ l, 1 ≤ c.2 ∧ c.1 + c.2 ≤ p.numFunctions) →
      (Core env p x₀ (l.foldl (evalOne env) s) ∧ Opens (l.foldl (evalOne env) s).trace) ∧
      (l.foldl (evalOne env) s).x = s.x ∧
      (l.foldl (evalOne env) s).i = s.i ∧ (l.foldl (evalOne env) s).cur = s.cur ∧
      (l.foldl (evalOne env) s).epoch = s.epoch ∧
      epochs (l.foldl (evalOne env) s).trace = epochs s.trace ∧
      finished env (l.foldl (evalOne env) s).trace = finished env s.trace ∧
      (l.foldl (evalOne env) s).last = s.last ∧
      (s.overall = epochSum env s.trace →
        (l.foldl (evalOne env) s).overall = epochSum env (l.foldl (evalOne env) s).trace) ∧
      (∀ F : M → Nat → Nat → E, (∀ w y b k, (env.evaluate w y b k).2 = F y b k) →
        (l.foldl (evalOne env) s).overall = (l.map fun c => F s.x c.1 c.2).foldl env.add s.overall)
  | [], s, h, ho, _ => ⟨⟨h, ho⟩, rfl, rfl, rfl, rfl, rfl, rfl, rfl, fun h => h, fun _ _ => rfl⟩
  | c :: l, s, h, ho, hl => by
    have h1 := evalOne_core h ho (hl c List.mem_cons_self)
    obtain ⟨a1, a2, a3, a4, a5, a6, f1, f2, a7, a8⟩ :=
      evalList_spec l (evalOne env s c) h1 (Or.inr (lastTag_snoc _ _)) (fun d hd => hl d (List.mem_cons_of_mem _ hd))
    refine ⟨a1, a2, a3, a4, a5, ?_, ?_, f2, fun hs => a7 ?_, fun F hF => ?_⟩
    · rw [List.foldl_cons, a6]; simp [evalOne, epochs, Ev.isEndEpoch]
    · rw [List.foldl_cons, f1]; simp only [evalOne, finished_snoc]
    · simp only [evalOne, epochSum_snoc, hs]
    · rw [List.foldl_cons, a8 F hF, List.map_cons, List.foldl_cons]
      simp only [evalOne, hF]

theorem beginEpoch_core {env : Env W M G E} {p : Params} {x₀ : M} {s : St W M E} (h : Core env p x₀ s)
    (he : s.epoch = epochs s.trace + 1) (hv : s.i = epochs s.trace * p.numFunctions)
    (ho : Opens s.trace ∨ lastTag s.trace = some .endEpoch) :
    Core env p x₀ (beginEpoch env s) where
  law := by
    simp only [beginEpoch, along_snoc]
    exact ⟨h.law, he, by rw [h.len]; exact hv⟩
  cur := by simp only [beginEpoch, current_append]; exact h.cur
  stop := by simp only [beginEpoch, anyStop_append, h.stop]; simp [anyStop, Ev.stops]
  noEnd := by
    intro e he
    rcases List.mem_append.1 he with he | he
    · exact h.noEnd e he
    · rw [List.mem_singleton] at he; rw [he]; rfl
  order := by simp only [beginEpoch, visits_append]; simpa [visits] using h.order
  le := h.le
  ne := h.ne.app _
  adj := by
    simp only [beginEpoch, along_snoc]
    refine ⟨h.adj, fun t ht => ?_⟩
    rcases ho with (ho | ho) | ho <;> rw [ho] at ht <;> cases ht <;> rfl

theorem start_inv (env : Env W M G E) (p : Params) (hb : 0 < p.batchSize) (w : W) (x : M) :
    Inv env p x (start env p w x) := by
  have h0 : Core env p x (⟨(env.cbBegin w x).1, (env.cbBegin w x).2, 0, 0, 1, env.zero, env.dblMax, false,
      [.beginOpt x (env.cbBegin w x).2]⟩ : St W M E) :=
    { law := by
        show Along _ ([] ++ [_])
        rw [along_snoc]; exact ⟨along_nil _, rfl, rfl⟩
      cur := rfl
      stop := rfl
      noEnd := by simp [Ev.isEndOpt]
      order := rfl
      le := Nat.zero_le _
      ne := ⟨_, _, rfl⟩
      adj := by
        show Along _ ([] ++ [_])
        rw [along_snoc]; exact ⟨along_nil _, fun t ht => by cases ht⟩ }
  unfold start
  cases hk : p.kind with
  | eve =>
    exact ⟨h0, fun _ => (Nat.zero_mod _).symm, rfl, (Nat.zero_div _).symm, fun _ => rfl, fun _ => rfl, trivial,
      Or.inl rfl, fun _ => rfl⟩
  | spalera =>
    obtain ⟨⟨a1, ao⟩, a2, a3, a4, a5, a6, f1, f2, a7, _⟩ := evalList_spec _ _ h0 (Or.inl rfl) (chunks_legal hb p.numFunctions 0)
    have hs := a7 rfl
    simp only
    change Inv env p x (beginEpoch env (List.foldl (evalOne env) _ _))
    have e0 : epochs (Ev.beginOpt x (env.cbBegin w x).2 :: [] : List (Ev M E)) = 0 := rfl
    have hb' := beginEpoch_core a1 (by rw [a5, a6]; rfl) (by rw [a3, a6, e0, Nat.zero_mul]) (Or.inl ao)
    refine ⟨hb', ?_, ?_, ?_, ?_, ?_, ?_, Or.inr (Or.inl (lastTag_snoc _ _)), ?_⟩
    · intro _
      show (List.foldl (evalOne env) _ _).cur = (List.foldl (evalOne env) _ _).i % _
      rw [a3, a4]; exact (Nat.zero_mod _).symm
    · simp only [beginEpoch, epochs_append]
      rw [a5, a6]; rfl
    · simp only [beginEpoch, epochs_append]
      rw [a3, a6]; exact (Nat.zero_div _).symm
    · intro _
      simp only [beginEpoch, epochSum_snoc]
      exact hs
    · intro _
      simp only [beginEpoch, finished_snoc]
      rw [f1, f2]; rfl
    · simp only [beginEpoch, finished_snoc]
      rw [f1]; exact trivial
    · rintro (h | h)
      · rw [hk] at h; cases h
      · refine absurd ?_ h
        simp only [beginEpoch, epochs_append]
        rw [a6]; rfl

theorem effBatch_facts {p : Params} (hn : p.numFunctions ≠ 0) (hb : 0 < p.batchSize) {s : St W M E}
    (hlt : s.i < p.actualMax) (hc : s.cur = s.i % p.numFunctions) :
    1 ≤ effBatch p s ∧ effBatch p s ≤ p.batchSize ∧ s.i + effBatch p s ≤ p.actualMax ∧
      s.i % p.numFunctions + effBatch p s ≤ p.numFunctions := by
  have : s.i % p.numFunctions < p.numFunctions := Nat.mod_lt _ (Nat.pos_of_ne_zero hn)
  unfold effBatch
  rw [hc]
  omega

/-- After the batch has been evaluated: the positions are already those after the pass. -/
structure Mid (env : Env W M G E) (p : Params) (x₀ : M) (k : Nat) (s : St W M E) : Prop where
  law : Along (Law env p x₀) s.trace
  cur : s.x = current x₀ s.trace
  stop : s.terminate = anyStop s.trace
  noEnd : ∀ e ∈ s.trace, e.isEndOpt = false
  order : visits s.trace = (List.range (s.i + k)).map (· % p.numFunctions)
  le : s.i + k ≤ p.actualMax
  ne : Begins x₀ s.trace
  adj : Along Adjacent s.trace
  epoch : s.epoch = epochs s.trace + 1
  num : epochs s.trace = s.i / p.numFunctions
  last : s.last = (finished env s.trace).getLast?.getD env.dblMax
  pass : Passes env env.dblMax (finished env s.trace)
  own : Own env p s.trace

theorem gradPart_mid {env : Env W M G E} {p : Params} {x₀ : M} (hn : p.numFunctions ≠ 0) (hb : 0 < p.batchSize)
    {s : St W M E} (h : Inv env p x₀ s) (hlt : s.i < p.actualMax) (ht : s.terminate = false) :
    Mid env p x₀ (effBatch p s) (gradPart env p s).1 where
  law := by
    obtain ⟨e1, e2, e3, e4⟩ := effBatch_facts hn hb hlt (h.pos hlt)
    simp only [gradPart, along_snoc]
    refine ⟨h.law, by rw [← h.stop, ht], h.cur, e1, e2, ?_, ?_, ?_, ?_⟩
    · rw [h.pos hlt]; exact e4
    · rw [h.len, h.pos hlt]
    · rw [h.len]; exact e3
    · rw [h.len, h.num]
  cur := by simp only [gradPart, current_append]; exact h.cur
  stop := by simp only [gradPart, anyStop_append, h.stop]; simp [anyStop, Ev.stops]
  noEnd := by
    intro e he
    rcases List.mem_append.1 he with he | he
    · exact h.noEnd e he
    · rw [List.mem_singleton] at he; rw [he]; rfl
  order := by
    obtain ⟨_, _, _, e4⟩ := effBatch_facts hn hb hlt (h.pos hlt)
    simp only [gradPart, visits_append, h.order]
    rw [← Sgd.visits_step e4, ← h.pos hlt]
    simp [visits]
  le := (effBatch_facts hn hb hlt (h.pos hlt)).2.2.1
  ne := h.ne.app _
  adj := by
    simp only [gradPart, along_snoc]
    refine ⟨h.adj, fun t ht => ?_⟩
    simp only [Ev.tag]
    rcases h.head with ho | ho | ho | ho <;> rw [ho] at ht <;> cases ht <;> split <;> rfl
  epoch := by simp only [gradPart, epochs_append, h.epoch]; rfl
  num := by simp only [gradPart, epochs_append, h.num]; rfl
  last := by simp only [gradPart, finished_snoc]; exact h.last hlt
  pass := by simp only [gradPart, finished_snoc]; exact h.pass
  own := by
    intro hk
    simp only [gradPart, epochs_append, epochSum_snoc, gradSum_snoc] at hk ⊢
    rw [h.own hk]

/-- Sum of the epoch after the evaluation: what `overall` will be after the step. -/
theorem gradPart_sum {env : Env W M G E} {p : Params} {x₀ : M} {s : St W M E} (h : Inv env p x₀ s)
    (hlt : s.i < p.actualMax) :
    epochSum env (gradPart env p s).1.trace = env.add s.overall (gradPart env p s).2.1 := by
  simp only [gradPart, epochSum_snoc, h.sum hlt]

theorem gradPart_last {env : Env W M G E} {p : Params} {s : St W M E}
    (ht : (gradPart env p s).1.terminate = false) :
    ∃ pre b k o, (gradPart env p s).1.trace = pre ++ [.evalGrad s.x b k o false] := by
  have : (env.cbEvalGrad (env.evalGrad s.w s.x s.cur (effBatch p s)).1 s.x
      (env.evalGrad s.w s.x s.cur (effBatch p s)).2.1 (env.evalGrad s.w s.x s.cur (effBatch p s)).2.2).2.2 =
      false := by
    simp only [gradPart, Bool.or_eq_false_iff] at ht
    exact ht.2
  exact ⟨s.trace, s.cur, effBatch p s, (env.evalGrad s.w s.x s.cur (effBatch p s)).2.1, by
    simp only [gradPart, this]⟩

theorem gradPart_stop {env : Env W M G E} {p : Params} {s : St W M E} (h0 : s.terminate = false)
    (ht : (gradPart env p s).1.terminate = true) : lastTag (gradPart env p s).1.trace = some .gradStop := by
  simp only [gradPart, h0, Bool.false_or] at ht
  simp only [gradPart, lastTag_snoc, Ev.tag, ht, if_true]

theorem stepPart_mid {env : Env W M G E} {p : Params} {x₀ : M} {k : Nat} {s : St W M E}
    (h : Mid env p x₀ k s) (ht : s.terminate = false)
    (hl : ∃ pre b k o, s.trace = pre ++ [.evalGrad s.x b k o false]) (obj : E) (g : G) (eff : Nat) :
    Mid env p x₀ k (stepPart env s obj g eff).1 where
  law := by
    simp only [stepPart, along_snoc]
    exact ⟨h.law, h.cur, by rw [← h.stop, ht], hl⟩
  cur := by simp [stepPart, current, Ev.coords]
  stop := by simp only [stepPart, anyStop_append, h.stop]; simp [anyStop, Ev.stops]
  noEnd := by
    intro e he
    rcases List.mem_append.1 he with he | he
    · exact h.noEnd e he
    · rw [List.mem_singleton] at he; rw [he]; rfl
  order := by simp only [stepPart, visits_append, h.order]; simp [visits]
  le := h.le
  ne := h.ne.app _
  adj := by
    obtain ⟨pre, b, k, o, hl⟩ := hl
    simp only [stepPart, along_snoc]
    refine ⟨h.adj, fun t ht => ?_⟩
    rw [hl, lastTag_snoc] at ht
    simp only [Ev.tag] at ht ⊢
    simp only [Bool.false_eq_true, if_false, Option.some.injEq] at ht
    subst ht
    split <;> rfl
  epoch := by simp only [stepPart, epochs_append, h.epoch]; rfl
  num := by simp only [stepPart, epochs_append, h.num]; rfl
  last := by simp only [stepPart, finished_snoc]; exact h.last
  pass := by simp only [stepPart, finished_snoc]; exact h.pass
  own := by
    intro hk
    simp only [stepPart, epochs_append, epochSum_snoc, gradSum_snoc] at hk ⊢
    rw [h.own hk]

/-- After the step and its notification. -/
theorem afterStep_core {env : Env W M G E} {p : Params} {x₀ : M} {k : Nat} {s : St W M E}
    (h : Mid env p x₀ k s) (hl : ∃ pre x y, s.trace = pre ++ [.update x y true]) (obj : E) (g : G) :
    Core env p x₀ (afterStep env p k obj g s) where
  law := by
    simp only [afterStep, along_snoc₂]
    exact ⟨h.law, hl, s.trace, _, _, rfl⟩
  cur := by simp [afterStep, current, Ev.coords]
  stop := by simp only [afterStep, anyStop_append, h.stop]; simp [anyStop, Ev.stops]
  noEnd := by
    intro e he
    rcases List.mem_append.1 he with he | he
    · exact h.noEnd e he
    · simp only [List.mem_cons, List.not_mem_nil, or_false] at he
      rcases he with he | he <;> rw [he] <;> rfl
  order := by simp only [afterStep, visits_append, h.order]; simp [visits]
  le := h.le
  ne := h.ne.app _
  adj := by
    obtain ⟨pre, x, y, hl⟩ := hl
    simp only [afterStep, along_snoc₂]
    refine ⟨h.adj, fun t ht => ?_, fun t ht => ?_⟩
    · rw [hl, lastTag_snoc] at ht
      cases ht; rfl
    · rw [lastTag_snoc] at ht
      cases ht; rfl

/-- How a run stands when it leaves the loop. -/
structure Done (env : Env W M G E) (p : Params) (x₀ : M) (e : Exit) (s : St W M E) : Prop where
  law : Along (Law env p x₀) s.trace
  cur : s.x = current x₀ s.trace
  noEnd : ∀ e ∈ s.trace, e.isEndOpt = false
  ne : Begins x₀ s.trace
  adj : Along Adjacent s.trace
  tail : ∃ t, lastTag s.trace = some t ∧ t.then .endOpt = true ∧ (e = .loop → t.then .evaluate = true)
  order : ∃ N ≤ p.actualMax, visits s.trace = (List.range N).map (· % p.numFunctions) ∧
    (e = .loop → anyStop s.trace = false → N = p.actualMax)
  early : e = .bad ∨ e = .tol → ∃ pre n o b, s.trace = pre ++ [.endEpoch n o b] ∧
    s.overall = epochSum env pre ∧ Passes env env.dblMax (finished env pre) ∧
    (e = .bad → env.isBad s.overall = true) ∧
    (e = .tol → env.isBad s.overall = false ∧
      env.isClose ((finished env pre).getLast?.getD env.dblMax) s.overall = true)
  fail : e = .fail → ∃ pre x y, s.trace = pre ++ [.update x y false]
  pass : e = .loop ∨ e = .fail → Passes env env.dblMax (finished env s.trace)

def DoneR (env : Env W M G E) (p : Params) (x₀ : M) : Res W M E → Prop
  | .ub => p.numFunctions = 0
  | .ret e s => Done env p x₀ e s

theorem mod_facts {n i k : Nat} (hn : n ≠ 0) (hk : 1 ≤ k) (h : i % n + k ≤ n) :
    ((i % n + k) % n = 0 → i + k = (i / n + 1) * n ∧ (i + k) / n = i / n + 1) ∧
    ((i % n + k) % n ≠ 0 → (i + k) % n = i % n + k ∧ (i + k) / n = i / n) := by
  have h0 := Nat.div_add_mod i n
  refine ⟨fun h1 => ?_, fun h1 => ?_⟩
  · have h2 : i % n + k = n := by
      by_contra hc
      rw [Nat.mod_eq_of_lt (by omega)] at h1; omega
    have h3 : i + k = (i / n + 1) * n := by
      have : i + k = n * (i / n) + n := by omega
      rw [this, Nat.add_mul, Nat.one_mul, Nat.mul_comm]
    exact ⟨h3, by rw [h3]; exact Nat.mul_div_cancel _ (Nat.pos_of_ne_zero hn)⟩
  · have h2 : i % n + k < n := by
      rcases Nat.lt_or_eq_of_le h with h2 | h2
      · exact h2
      · rw [h2, Nat.mod_self] at h1; exact absurd rfl h1
    have e : i + k = n * (i / n) + (i % n + k) := by omega
    refine ⟨?_, ?_⟩
    · rw [e, Nat.mul_add_mod, Nat.mod_eq_of_lt h2]
    · rw [e, Nat.mul_add_div (Nat.pos_of_ne_zero hn), Nat.div_eq_of_lt h2, Nat.add_zero]

/-- State after the step of a pass, at the epoch test. -/
structure AtTest (env : Env W M G E) (p : Params) (x₀ : M) (s : St W M E) : Prop extends Core env p x₀ s where
  epoch : s.epoch = epochs s.trace + 1
  sum : s.overall = epochSum env s.trace
  last : s.last = (finished env s.trace).getLast?.getD env.dblMax
  pass : Passes env env.dblMax (finished env s.trace)
  own : Own env p s.trace

theorem resetCounters_core {env : Env W M G E} {p : Params} {x₀ : M} {s : St W M E} (h : Core env p x₀ s) :
    Core env p x₀ (resetCounters env p s) := by
  unfold resetCounters
  split
  · exact ⟨h.law, h.cur, h.stop, h.noEnd, h.order, h.le, h.ne, h.adj⟩
  · exact h

theorem epochEnd_ok {env : Env W M G E} {p : Params} {x₀ : M} {s : St W M E} (hn : p.numFunctions ≠ 0)
    (h : AtTest env p x₀ s) (hi : s.i = (epochs s.trace + 1) * p.numFunctions)
    (hd : lastTag s.trace = some .decay) :
    (∀ s', epochEnd env p s = .inl s' → Inv env p x₀ s' ∧ s'.i = s.i) ∧
    (∀ r, epochEnd env p s = .inr r → DoneR env p x₀ r) := by
  unfold epochEnd
  simp only
  generalize hce : env.cbEndEpoch s.w s.x s.epoch (env.divN s.overall p.numFunctions) = e
  have hcore : Core env p x₀ (⟨e.1, s.x, s.i, s.cur, s.epoch + 1, s.overall, s.last, s.terminate || e.2,
      s.trace ++ [.endEpoch s.epoch (env.divN s.overall p.numFunctions) e.2]⟩ : St W M E) :=
    { law := by
        simp only [along_snoc]
        refine ⟨h.law, ?_, h.epoch, by rw [h.sum], h.own⟩
        rw [h.len, h.epoch]; exact hi
      cur := by simp only [current_append]; exact h.cur
      stop := by simp only [anyStop_append, h.stop]; simp [anyStop, Ev.stops]
      noEnd := by
        intro a ha
        rcases List.mem_append.1 ha with ha | ha
        · exact h.noEnd a ha
        · rw [List.mem_singleton] at ha; rw [ha]; rfl
      order := by simp only [visits_append]; simpa [visits] using h.order
      le := h.le
      ne := h.ne.app _
      adj := by
        simp only [along_snoc]
        refine ⟨h.adj, fun t ht => ?_⟩
        rw [hd] at ht; cases ht; rfl }
  have hep : epochs (s.trace ++ [.endEpoch s.epoch (env.divN s.overall p.numFunctions) e.2]) =
      epochs s.trace + 1 := by rw [epochs_append]; rfl
  have hfin : finished env (s.trace ++ [.endEpoch s.epoch (env.divN s.overall p.numFunctions) e.2]) =
      finished env s.trace ++ [s.overall] := by rw [finished_snoc, h.sum]
  have hsum : epochSum env (s.trace ++ [.endEpoch s.epoch (env.divN s.overall p.numFunctions) e.2]) =
      env.zero := by rw [epochSum_snoc]
  by_cases hb : env.isBad s.overall = true
  · rw [if_pos hb]
    refine ⟨by simp, ?_⟩
    rintro r hr; cases hr
    exact ⟨hcore.law, hcore.cur, hcore.noEnd, hcore.ne, hcore.adj,
      ⟨.endEpoch, lastTag_snoc _ _, rfl, by simp⟩, ⟨s.i, h.le, hcore.order, by simp⟩,
      fun _ => ⟨s.trace, _, _, _, rfl, h.sum, h.pass, fun _ => hb, by simp⟩, by simp, by simp⟩
  · rw [if_neg hb]
    rw [Bool.not_eq_true] at hb
    by_cases hc : env.isClose s.last s.overall = true
    · rw [if_pos hc]
      refine ⟨by simp, ?_⟩
      rintro r hr; cases hr
      refine ⟨hcore.law, hcore.cur, hcore.noEnd, hcore.ne, hcore.adj,
      ⟨.endEpoch, lastTag_snoc _ _, rfl, by simp⟩, ⟨s.i, h.le, hcore.order, by simp⟩,
        fun _ => ⟨s.trace, _, _, _, rfl, h.sum, h.pass, by simp, fun _ => ⟨hb, ?_⟩⟩, by simp, by simp⟩
      rw [← h.last]; exact hc
    · rw [if_neg hc]
      rw [Bool.not_eq_true] at hc
      refine ⟨?_, by simp⟩
      have hpass : Passes env env.dblMax (finished env s.trace ++ [s.overall]) :=
        passes_snoc h.pass hb (by rw [← h.last]; exact hc)
      generalize hs1 : (⟨e.1, s.x, s.i, s.cur, s.epoch + 1, s.overall, s.last, s.terminate || e.2,
        s.trace ++ [.endEpoch s.epoch (env.divN s.overall p.numFunctions) e.2]⟩ : St W M E) = s1 at hcore ⊢
      have t1 : s1.trace = s.trace ++ [.endEpoch s.epoch (env.divN s.overall p.numFunctions) e.2] := by
        rw [← hs1]
      have t2 : s1.epoch = s.epoch + 1 := by rw [← hs1]
      have hlt1 : lastTag s1.trace = some .endEpoch := by rw [t1]; exact lastTag_snoc _ _
      have t3 : s1.i = s.i := by rw [← hs1]
      have t4 : s1.overall = s.overall := by rw [← hs1]
      rw [← t1] at hep hfin hsum
      have hep' : s1.epoch = epochs s1.trace + 1 := by rw [t2, hep, h.epoch]
      have hi' : s1.i = epochs s1.trace * p.numFunctions := by rw [t3, hep]; exact hi
      -- the state after reset and announcement, in either order
      have key : ∀ s2, (if p.kind = .eve then resetCounters env p (beginEpoch env s1)
          else beginEpoch env (resetCounters env p s1)) = s2 →
          (∃ o b, s2.trace = s1.trace ++ [.beginEpoch s1.epoch o b]) ∧ Core env p x₀ s2 ∧ s2.i = s1.i ∧
          s2.epoch = s1.epoch ∧ (s2.i < p.actualMax → s2.cur = 0 ∧ s2.overall = env.zero ∧
            s2.last = s1.overall) := by
        intro s2 hs2
        by_cases hk : p.kind = .eve
        · rw [if_pos hk] at hs2
          have hc2 := resetCounters_core (beginEpoch_core hcore hep' hi' (Or.inr hlt1))
          rw [hs2] at hc2
          subst hs2
          refine ⟨?_, hc2, ?_, ?_, ?_⟩
          · unfold resetCounters
            split <;> exact ⟨_, _, rfl⟩
          · unfold resetCounters; split <;> rfl
          · unfold resetCounters; split <;> rfl
          · intro hlt
            unfold resetCounters at hlt ⊢
            split at hlt
            · rename_i hne
              rw [if_pos hne]
              exact ⟨rfl, rfl, rfl⟩
            · rename_i hne
              exact absurd (Nat.ne_of_lt hlt) hne
        · rw [if_neg hk] at hs2
          have hr := resetCounters_core hcore
          have r1 : (resetCounters env p s1).trace = s1.trace := by unfold resetCounters; split <;> rfl
          have r2 : (resetCounters env p s1).epoch = s1.epoch := by unfold resetCounters; split <;> rfl
          have r3 : (resetCounters env p s1).i = s1.i := by unfold resetCounters; split <;> rfl
          have hc2 := beginEpoch_core hr (by rw [r1, r2]; exact hep') (by rw [r1, r3]; exact hi') (Or.inr (by rw [r1]; exact hlt1))
          rw [hs2] at hc2
          subst hs2
          refine ⟨⟨(resetCounters env p s1).overall, (env.cbBeginEpoch (resetCounters env p s1).w
            (resetCounters env p s1).x (resetCounters env p s1).epoch (resetCounters env p s1).overall).2, ?_⟩,
            hc2, r3, r2, ?_⟩
          · simp only [beginEpoch, r1, r2]
          · intro hlt
            have hlt' : s1.i < p.actualMax := by rw [← r3]; exact hlt
            simp only [beginEpoch, resetCounters]
            rw [if_pos (Nat.ne_of_lt hlt')]
            exact ⟨rfl, rfl, rfl⟩
      generalize hs2 : (if p.kind = .eve then resetCounters env p (beginEpoch env s1)
          else beginEpoch env (resetCounters env p s1)) = s2
      obtain ⟨⟨o, b, k1⟩, k2, k3, k4, k5⟩ := key s2 hs2
      have hinv : Inv env p x₀ s2 := by
        refine ⟨k2, ?_, ?_, ?_, ?_, ?_, ?_, Or.inr (Or.inl (by rw [k1]; exact lastTag_snoc _ _)), fun _ => ?_⟩
        · intro hlt
          rw [(k5 hlt).1, k3, hi', Nat.mul_mod_left]
        · rw [k4, k1, epochs_append, hep']; rfl
        · rw [k1, epochs_append, k3, hi', Nat.mul_div_cancel _ (Nat.pos_of_ne_zero hn)]; rfl
        · intro hlt
          rw [(k5 hlt).2.1, k1, epochSum_snoc]; exact hsum.symm
        · intro hlt
          rw [(k5 hlt).2.2, k1, finished_snoc, t4, hfin]; simp
        · rw [k1, finished_snoc, hfin]; exact hpass
        · rw [k1, epochSum_snoc, gradSum_snoc]
          show epochSum env s1.trace = gradSum env s1.trace
          rw [t1, epochSum_snoc, gradSum_snoc]
      intro s' hs'
      cases hs'
      by_cases hsh : p.shuffle = true
      · rw [if_pos hsh]
        refine ⟨⟨⟨?_, ?_, ?_, ?_, ?_, k2.le, k2.ne.app _, ?_⟩, hinv.pos, ?_, ?_, ?_, ?_, ?_,
          Or.inr (Or.inr (Or.inr (lastTag_snoc _ _))), ?_⟩, by rw [← t3, ← k3]⟩
        · simp only [along_snoc]
          exact ⟨k2.law, hsh, s1.trace, _, _, _, k1⟩
        · simp only [current_append]; exact k2.cur
        · simp only [anyStop_append, ← k2.stop]; simp [anyStop, Ev.stops]
        · intro a ha
          rcases List.mem_append.1 ha with ha | ha
          · exact k2.noEnd a ha
          · rw [List.mem_singleton] at ha; rw [ha]; rfl
        · simp only [visits_append]; simpa [visits] using k2.order
        · simp only [along_snoc]
          refine ⟨k2.adj, fun t ht => ?_⟩
          rw [k1, lastTag_snoc] at ht; cases ht; rfl
        · simp only [epochs_append]; exact hinv.epoch
        · simp only [epochs_append]; exact hinv.num
        · intro hlt; simp only [epochSum_snoc]; exact hinv.sum hlt
        · intro hlt; simp only [finished_snoc]; exact hinv.last hlt
        · simp only [finished_snoc]; exact hinv.pass
        · intro hk
          simp only [epochs_append, epochSum_snoc, gradSum_snoc] at hk ⊢
          exact hinv.own hk
      · rw [if_neg hsh]
        exact ⟨hinv, by rw [k3, t3]⟩

theorem step_ok {env : Env W M G E} {p : Params} {x₀ : M} (hb : 0 < p.batchSize) (s : St W M E)
    (h : Inv env p x₀ s) :
    (∀ s', step env p s = .inl s' → Inv env p x₀ s' ∧ p.actualMax - s'.i < p.actualMax - s.i) ∧
    (∀ r, step env p s = .inr r → DoneR env p x₀ r) := by
  unfold step
  by_cases hc : s.i < p.actualMax ∧ s.terminate = false
  · rw [if_pos hc]
    by_cases hn : p.numFunctions = 0
    · rw [if_pos hn]
      exact ⟨by simp, by rintro r hr; cases hr; exact hn⟩
    · rw [if_neg hn]
      simp only
      have hm := gradPart_mid hn hb h hc.1 hc.2
      have hsum := gradPart_sum h hc.1
      have hov : (gradPart env p s).1.overall =
          if p.kind = .eve then env.add s.overall (gradPart env p s).2.1 else s.overall := rfl
      have hgi : (gradPart env p s).1.i = s.i := rfl
      have hgc : (gradPart env p s).1.cur = s.cur := rfl
      have hgx : (gradPart env p s).1.x = s.x := rfl
      obtain ⟨e1, e2, e3, e4⟩ := effBatch_facts hn hb hc.1 (h.pos hc.1)
      by_cases ht : (gradPart env p s).1.terminate = true
      · rw [if_pos ht]
        refine ⟨by simp, ?_⟩
        rintro r hr; cases hr
        refine ⟨hm.law, hm.cur, hm.noEnd, hm.ne, hm.adj, ⟨.gradStop, gradPart_stop hc.2 ht, rfl, fun _ => rfl⟩, ⟨_, hm.le, hm.order, ?_⟩, by simp, by simp, fun _ => hm.pass⟩
        intro _ hst
        rw [← hm.stop, ht] at hst; cases hst
      · rw [if_neg ht]
        rw [Bool.not_eq_true] at ht
        have hlast := gradPart_last ht
        rw [← hgx] at hlast
        generalize gradPart env p s = r at *
        have hm2 := stepPart_mid hm ht hlast r.2.1 r.2.2 (effBatch p s)
        have hu : (stepPart env r.1 r.2.1 r.2.2 (effBatch p s)).1.trace =
          r.1.trace ++ [.update r.1.x (stepPart env r.1 r.2.1 r.2.2 (effBatch p s)).1.x
            (stepPart env r.1 r.2.1 r.2.2 (effBatch p s)).2] := rfl
        have hui : (stepPart env r.1 r.2.1 r.2.2 (effBatch p s)).1.i = r.1.i := rfl
        have huc : (stepPart env r.1 r.2.1 r.2.2 (effBatch p s)).1.cur = r.1.cur := rfl
        have huo : (stepPart env r.1 r.2.1 r.2.2 (effBatch p s)).1.overall = r.1.overall := rfl
        generalize stepPart env r.1 r.2.1 r.2.2 (effBatch p s) = u at *
        by_cases hok : u.2 = false
        · rw [if_pos hok]
          refine ⟨by simp, ?_⟩
          rintro r hr; cases hr
          exact ⟨hm2.law, hm2.cur, hm2.noEnd, hm2.ne, hm2.adj,
            ⟨.updFail, by rw [hu, hok]; exact lastTag_snoc _ _, rfl, by simp⟩, ⟨_, hm2.le, hm2.order, by simp⟩, by simp,
            fun _ => ⟨_, _, _, by rw [hu, hok]⟩, fun _ => hm2.pass⟩
        · rw [if_neg hok]
          rw [Bool.not_eq_false] at hok
          have hcore := afterStep_core hm2 ⟨_, _, _, by rw [hu, hok]⟩ r.2.1 r.2.2
          have g1 : (afterStep env p (effBatch p s) r.2.1 r.2.2 u.1).i = s.i + effBatch p s := by
            rw [← hgi, ← hui]; rfl
          have g2 : (afterStep env p (effBatch p s) r.2.1 r.2.2 u.1).cur =
              s.i % p.numFunctions + effBatch p s := by
            rw [← h.pos hc.1, ← hgc, ← huc]; rfl
          have g3 : epochs (afterStep env p (effBatch p s) r.2.1 r.2.2 u.1).trace = s.i / p.numFunctions := by
            simp only [afterStep, epochs_append]
            rw [hm2.num, hui, hgi]; rfl
          have hdec : lastTag (afterStep env p (effBatch p s) r.2.1 r.2.2 u.1).trace = some .decay :=
            lastTag_snoc₂ _ _ _
          have htest : AtTest env p x₀ (afterStep env p (effBatch p s) r.2.1 r.2.2 u.1) := by
            refine ⟨hcore, ?_, ?_, ?_, ?_, ?_⟩
            · rw [g3]
              show u.1.epoch = _
              rw [hm2.epoch, hm2.num, hui, hgi]
            · have : epochSum env (afterStep env p (effBatch p s) r.2.1 r.2.2 u.1).trace =
                  env.add s.overall r.2.1 := by
                simp only [afterStep]
                rw [show u.1.trace ++ [Ev.stepTaken (env.cbStep u.1.w u.1.x).2.1 (env.cbStep u.1.w u.1.x).2.2,
                  Ev.decay (env.decay (env.cbStep u.1.w u.1.x).1 (env.cbStep u.1.w u.1.x).2.1 r.2.2).2] =
                  (u.1.trace ++ [Ev.stepTaken (env.cbStep u.1.w u.1.x).2.1 (env.cbStep u.1.w u.1.x).2.2]) ++
                  [Ev.decay (env.decay (env.cbStep u.1.w u.1.x).1 (env.cbStep u.1.w u.1.x).2.1 r.2.2).2]
                  by simp, epochSum_snoc, epochSum_snoc, hu, epochSum_snoc]
                exact hsum
              rw [this]
              show (if p.kind = .eve then u.1.overall else env.add u.1.overall r.2.1) = _
              rw [huo, hov]
              split <;> rfl
            · have : (afterStep env p (effBatch p s) r.2.1 r.2.2 u.1).last = u.1.last := rfl
              rw [this, hm2.last]
              simp only [afterStep]
              rw [show u.1.trace ++ [Ev.stepTaken (env.cbStep u.1.w u.1.x).2.1 (env.cbStep u.1.w u.1.x).2.2,
                  Ev.decay (env.decay (env.cbStep u.1.w u.1.x).1 (env.cbStep u.1.w u.1.x).2.1 r.2.2).2] =
                  (u.1.trace ++ [Ev.stepTaken (env.cbStep u.1.w u.1.x).2.1 (env.cbStep u.1.w u.1.x).2.2]) ++
                  [Ev.decay (env.decay (env.cbStep u.1.w u.1.x).1 (env.cbStep u.1.w u.1.x).2.1 r.2.2).2]
                  by simp, finished_snoc, finished_snoc]
            · simp only [afterStep]
              rw [show u.1.trace ++ [Ev.stepTaken (env.cbStep u.1.w u.1.x).2.1 (env.cbStep u.1.w u.1.x).2.2,
                  Ev.decay (env.decay (env.cbStep u.1.w u.1.x).1 (env.cbStep u.1.w u.1.x).2.1 r.2.2).2] =
                  (u.1.trace ++ [Ev.stepTaken (env.cbStep u.1.w u.1.x).2.1 (env.cbStep u.1.w u.1.x).2.2]) ++
                  [Ev.decay (env.decay (env.cbStep u.1.w u.1.x).1 (env.cbStep u.1.w u.1.x).2.1 r.2.2).2]
                  by simp, finished_snoc, finished_snoc]
              exact hm2.pass
            · intro hk
              simp only [afterStep, epochs_append] at hk ⊢
              rw [show u.1.trace ++ [Ev.stepTaken (env.cbStep u.1.w u.1.x).2.1 (env.cbStep u.1.w u.1.x).2.2,
                  Ev.decay (env.decay (env.cbStep u.1.w u.1.x).1 (env.cbStep u.1.w u.1.x).2.1 r.2.2).2] =
                  (u.1.trace ++ [Ev.stepTaken (env.cbStep u.1.w u.1.x).2.1 (env.cbStep u.1.w u.1.x).2.2]) ++
                  [Ev.decay (env.decay (env.cbStep u.1.w u.1.x).1 (env.cbStep u.1.w u.1.x).2.1 r.2.2).2]
                  by simp, epochSum_snoc, epochSum_snoc, gradSum_snoc, gradSum_snoc]
              exact hm2.own hk
          generalize afterStep env p (effBatch p s) r.2.1 r.2.2 u.1 = s' at *
          obtain ⟨m1, m2⟩ := mod_facts hn e1 e4
          by_cases hmod : s'.cur % p.numFunctions = 0
          · rw [if_pos hmod]
            rw [g2] at hmod
            obtain ⟨m3, _⟩ := m1 hmod
            have hend := epochEnd_ok hn htest (by rw [g1, g3]; exact m3) hdec
            refine ⟨fun s'' hs'' => ⟨(hend.1 s'' hs'').1, ?_⟩, hend.2⟩
            rw [(hend.1 s'' hs'').2, g1]; omega
          · rw [if_neg hmod]
            rw [g2] at hmod
            obtain ⟨m3, m4⟩ := m2 hmod
            refine ⟨?_, by simp⟩
            rintro s'' hs''; cases hs''
            refine ⟨⟨hcore, ?_, htest.epoch, ?_, fun _ => htest.sum, fun _ => htest.last, htest.pass,
              Or.inr (Or.inr (Or.inl hdec)), htest.own⟩, ?_⟩
            · intro _; rw [g2, g1, m3]
            · rw [g3, g1, m4]
            · rw [g1]; omega
  · rw [if_neg hc]
    refine ⟨by simp, ?_⟩
    rintro r hr; cases hr
    refine ⟨h.law, h.cur, h.noEnd, h.ne, h.adj, ?_, ⟨s.i, h.le, h.order, ?_⟩, by simp, by simp, fun _ => h.pass⟩
    · rcases h.head with ho | ho | ho | ho <;> exact ⟨_, ho, rfl, fun _ => rfl⟩
    intro _ hst
    rw [← h.stop] at hst
    have := h.le
    by_contra hne
    exact hc ⟨by omega, hst⟩

theorem loop_done {env : Env W M G E} {p : Params} (hb : 0 < p.batchSize) {fuel : Nat} {w : W} {x : M}
    {r : Res W M E} (h : iterate (step env p) fuel (start env p w x) = some r) : DoneR env p x r :=
  iterate_inv (Inv env p x) (DoneR env p x) (fun s s' hi hs => ((step_ok hb s hi).1 s' hs).1)
    (fun s r hi hs => (step_ok hb s hi).2 r hs) fuel _ r (start_inv env p hb w x) h

/-- Facts about `evalAll` after the loop. -/
theorem final_spec {env : Env W M G E} {p : Params} (x : M) : ∀ (l : List (Nat × Nat)) (s : St W M E),
    s.x = current x s.trace → (∀ c ∈ l, 1 ≤ c.2 ∧ c.1 + c.2 ≤ p.numFunctions) →
    ∃ ex, (l.foldl (evalOne env) s).trace = s.trace ++ ex ∧ (l.foldl (evalOne env) s).x = s.x ∧
      (∀ a ∈ ex, ∃ b k o st, a = .evaluate s.x b k o st ∧ 1 ≤ k ∧ b + k ≤ p.numFunctions) ∧
      (∀ F : M → Nat → Nat → E, (∀ w y b k, (env.evaluate w y b k).2 = F y b k) →
        (l.foldl (evalOne env) s).overall = (l.map fun c => F s.x c.1 c.2).foldl env.add s.overall)
  | [], s, _, _ => ⟨[], by simp, rfl, by simp, fun _ _ => rfl⟩
  | c :: l, s, h, hl => by
    obtain ⟨ex, h1, h2, h3, h4⟩ := final_spec x l (evalOne env s c)
      (by simp only [evalOne, current_append]; exact h) (fun d hd => hl d (List.mem_cons_of_mem _ hd))
    refine ⟨.evaluate s.x c.1 c.2 (env.evaluate s.w s.x c.1 c.2).2 (env.cbEvaluate
      (env.evaluate s.w s.x c.1 c.2).1 s.x (env.evaluate s.w s.x c.1 c.2).2).2 :: ex, ?_, h2, ?_, ?_⟩
    · rw [List.foldl_cons, h1]; simp [evalOne]
    · intro a ha
      rcases List.mem_cons.1 ha with ha | ha
      · exact ⟨_, _, _, _, ha, hl c List.mem_cons_self⟩
      · exact h3 a ha
    · intro F hF
      rw [List.foldl_cons, h4 F hF, List.map_cons, List.foldl_cons]
      simp only [evalOne, hF]

/-- Everything known about a run that returns: the part of the trace up to the end of the loop, the final evaluations
(only when the loop ended normally and `exactObjective` is set), and `EndOptimization`. -/
theorem optimize_facts {env : Env W M G E} {p : Params} (hb : 0 < p.batchSize) {fuel : Nat} {w : W} {x : M}
    {r : Result M E} (h : optimize env p fuel w x = some (.returned r)) :
    ∃ s : St W M E, Done env p x r.exit s ∧ r.x = s.x ∧
      ∃ ex, r.trace = s.trace ++ ex ++ [.endOpt r.x] ∧
        (∀ a ∈ ex, ∃ b k o st, a = .evaluate r.x b k o st ∧ 1 ≤ k ∧ b + k ≤ p.numFunctions) ∧
        (r.exit ≠ .loop ∨ p.exactObjective = false → ex = [] ∧ r.obj = s.overall) ∧
        (r.exit = .loop → p.exactObjective = true → ∀ F : M → Nat → Nat → E,
          (∀ w y b k, (env.evaluate w y b k).2 = F y b k) →
          r.obj = ((Sgd.chunks p.numFunctions p.batchSize p.numFunctions 0).map
            fun c => F r.x c.1 c.2).foldl env.add env.zero) := by
  unfold optimize at h
  cases hr : iterate (step env p) fuel (start env p w x) with
  | none => rw [hr] at h; cases h
  | some q =>
    have hd := loop_done hb hr
    rw [hr, Option.map_some] at h
    have h := Option.some.inj h
    cases q with
    | ub => cases h
    | ret e s =>
      have hd : Done env p x e s := hd
      cases e with
      | loop =>
        by_cases hex : p.exactObjective = true
        · simp only [conclude, hex, if_true, finish] at h
          injection h with h
          obtain ⟨ex, f1, f2, f3, f4⟩ := final_spec (env := env) (p := p) x
            (Sgd.chunks p.numFunctions p.batchSize p.numFunctions 0) { s with overall := env.zero } hd.cur
            (chunks_legal hb _ _)
          subst h
          refine ⟨s, hd, f2, ex, ?_, ?_, ?_, ?_⟩
          · simp only [evalAll]; rw [f1]
          · simp only [evalAll]
            rw [f2]; exact f3
          · rintro (h | h)
            · exact absurd rfl h
            · rw [hex] at h; cases h
          · intro _ _ F hF
            simp only [evalAll]
            rw [f4 F hF, f2]
        · rw [Bool.not_eq_true] at hex
          simp only [conclude, hex, Bool.false_eq_true, if_false, finish] at h
          injection h with h
          subst h
          exact ⟨s, hd, rfl, [], by simp, by simp, fun _ => ⟨rfl, rfl⟩, fun _ h' => by rw [hex] at h'; cases h'⟩
      | bad =>
        simp only [conclude, finish] at h
        injection h with h
        subst h
        exact ⟨s, hd, rfl, [], by simp, by simp, fun _ => ⟨rfl, rfl⟩, fun h' => by cases h'⟩
      | tol =>
        simp only [conclude, finish] at h
        injection h with h
        subst h
        exact ⟨s, hd, rfl, [], by simp, by simp, fun _ => ⟨rfl, rfl⟩, fun h' => by cases h'⟩
      | fail =>
        simp only [conclude, finish] at h
        injection h with h
        subst h
        exact ⟨s, hd, rfl, [], by simp, by simp, fun _ => ⟨rfl, rfl⟩, fun h' => by cases h'⟩

/-- The law holds along the whole trace. -/
theorem law_whole {env : Env W M G E} {p : Params} {x : M} {t ex : List (Ev M E)} {y : M}
    (h : Along (Law env p x) t) (ha : Along Adjacent t) (hy : y = current x t)
    (hl : ∃ g, lastTag t = some g ∧ g.then .endOpt = true ∧ (ex ≠ [] → g.then .evaluate = true))
    (hex : ∀ a ∈ ex, ∃ b k o st, a = .evaluate y b k o st ∧ 1 ≤ k ∧ b + k ≤ p.numFunctions) :
    Along (Law env p x) (t ++ ex ++ [.endOpt y]) ∧ Along Adjacent (t ++ ex ++ [.endOpt y]) ∧
      current x (t ++ ex) = y ∧ visits (t ++ ex) = visits t := by
  have key : ∀ (ex t : List (Ev M E)), Along (Law env p x) t → Along Adjacent t → y = current x t →
      (∃ g, lastTag t = some g ∧ g.then .endOpt = true ∧ (ex ≠ [] → g.then .evaluate = true)) →
      (∀ a ∈ ex, ∃ b k o st, a = .evaluate y b k o st ∧ 1 ≤ k ∧ b + k ≤ p.numFunctions) →
      Along (Law env p x) (t ++ ex) ∧ Along Adjacent (t ++ ex ++ [.endOpt y]) ∧
      current x (t ++ ex) = y ∧ visits (t ++ ex) = visits t := by
    intro ex
    induction ex with
    | nil =>
      intro t h ha hy ⟨g, h1, h2, _⟩ _
      refine ⟨by simpa using h, ?_, by simpa using hy.symm, by simp⟩
      rw [List.append_nil, along_snoc]
      exact ⟨ha, fun t' ht' => by rw [h1] at ht'; cases ht'; exact h2⟩
    | cons a ex ih =>
      intro t h ha hy ⟨g, g1, g2, g3⟩ hex
      obtain ⟨b, k, o, st, ha', h1, h2⟩ := hex a List.mem_cons_self
      obtain ⟨i1, i4, i2, i3⟩ := ih (t ++ [a])
        (by rw [along_snoc]; subst ha'; exact ⟨h, hy, h1, h2⟩)
        (by
          rw [along_snoc]; subst ha'
          exact ⟨ha, fun t' ht' => by rw [g1] at ht'; cases ht'; exact g3 (by simp)⟩)
        (by rw [current_append]; subst ha'; exact hy)
        (by subst ha'; exact ⟨.evaluate, lastTag_snoc _ _, rfl, fun _ => rfl⟩)
        (fun c hc => hex c (List.mem_cons_of_mem _ hc))
      refine ⟨by simpa using i1, by simpa using i4, by simpa using i2, ?_⟩
      have : visits (t ++ [a]) = visits t := by subst ha'; simp [visits]
      rw [← this]; simpa using i3
  obtain ⟨k1, k4, k2, k3⟩ := key ex t h ha hy hl hex
  exact ⟨by rw [along_snoc]; exact ⟨k1, k2.symm⟩, k4, k2, k3⟩

/-- Facts about the whole trace. -/
theorem whole {env : Env W M G E} {p : Params} (hb : 0 < p.batchSize) {fuel : Nat} {w : W} {x : M}
    {r : Result M E} (h : optimize env p fuel w x = some (.returned r)) :
    Along (Law env p x) r.trace ∧ Along Adjacent r.trace ∧ current x r.trace = r.x ∧
      (∃ N ≤ (if p.maxIterations = 0 then 2 ^ 64 - 1 else p.maxIterations), visits r.trace = (List.range N).map (· % p.numFunctions) ∧
        (r.exit = .loop → anyStop r.trace = false → N = if p.maxIterations = 0 then 2 ^ 64 - 1 else p.maxIterations)) ∧
      ∃ x' t, r.trace = .beginOpt x x' :: (t ++ [.endOpt r.x]) ∧ ∀ e ∈ t, e.isEndOpt = false := by
  obtain ⟨s, hd, hx, ex, htr, hex, hno, _⟩ := optimize_facts hb h
  obtain ⟨g, g1, g2, g3⟩ := hd.tail
  obtain ⟨hlaw, hadj, hcur, hv⟩ := law_whole hd.law hd.adj (hx.trans hd.cur) ⟨g, g1, g2, fun hne => g3 (by
    by_contra hc
    exact hne (hno (Or.inl hc)).1)⟩ hex
  rw [← htr] at hlaw hadj
  refine ⟨hlaw, hadj, ?_, ?_, ?_⟩
  · rw [htr, current_append, hcur]; rfl
  · obtain ⟨N, h1, h2, h3⟩ := hd.order
    refine ⟨N, h1, ?_, fun he hs => h3 he ?_⟩
    · rw [htr, visits_append, hv, h2]; simp [visits]
    · rw [htr, anyStop_append, anyStop_append] at hs
      simp only [Bool.or_eq_false_iff] at hs
      exact hs.1.1
  · obtain ⟨x', t, ht⟩ := hd.ne
    refine ⟨x', t ++ ex, by rw [htr, ht]; simp, fun e he => ?_⟩
    rcases List.mem_append.1 he with he | he
    · exact hd.noEnd e (by rw [ht]; exact List.mem_cons_of_mem _ he)
    · obtain ⟨b, k, o, st, he, _⟩ := hex e he
      rw [he]; rfl

/-! ### C168: batches and budget -/

/-- **C168** Eve and SPALeRASGD always end (after at most `maxIterations` passes) when there is at least one function and
the batch size is positive. -/
theorem C168_terminates (env : Env W M G E) {p : Params} (hn : 0 < p.numFunctions) (hb : 0 < p.batchSize) (w : W) (x : M) :
    ∃ r, optimize env p (p.actualMax + 1) w x = some (.returned r) := by
  obtain ⟨q, hq⟩ := iterate_total (step := step env p) (Inv env p x) (fun s => p.actualMax - s.i)
    (fun s s' hi hs => (step_ok hb s hi).1 s' hs) (p.actualMax + 1) (start env p w x) (start_inv env p hb w x)
    (by omega)
  have hd := loop_done hb hq
  unfold optimize
  rw [hq, Option.map_some]
  cases q with
  | ub => exact absurd hd (by have : ¬ p.numFunctions = 0 := by omega
                              exact this)
  | ret e s => cases e <;> exact ⟨_, rfl⟩

/-- **C168** The functions are visited in the order `0, 1, ..., n-1, 0, 1, ...`, at most `maxIterations` of them, and exactly
that many when nobody asked to stop and no test ended the run; every batch (also of the final and, for SPALeRA, of the
initial evaluation) is a non-empty range inside `[0, n)`, those of the loop of at most `batchSize` functions. -/
theorem C168_visits {env : Env W M G E} {p : Params} (hb : 0 < p.batchSize) {fuel : Nat} {w : W} {x : M}
    {r : Result M E} (h : optimize env p fuel w x = some (.returned r)) :
    (∃ N ≤ (if p.maxIterations = 0 then 2 ^ 64 - 1 else p.maxIterations), visits r.trace = (List.range N).map (· % p.numFunctions) ∧
      (r.exit = .loop → anyStop r.trace = false → N = if p.maxIterations = 0 then 2 ^ 64 - 1 else p.maxIterations)) ∧
    (∀ y b k o st, .evalGrad y b k o st ∈ r.trace → 1 ≤ k ∧ k ≤ p.batchSize ∧ b + k ≤ p.numFunctions) ∧
    (∀ y b k o st, .evaluate y b k o st ∈ r.trace → 1 ≤ k ∧ b + k ≤ p.numFunctions) := by
  obtain ⟨hlaw, _, _, hv, _⟩ := whole hb h
  refine ⟨hv, ?_, ?_⟩
  · intro y b k o st hm
    obtain ⟨pre, post, he⟩ := List.append_of_mem hm
    obtain ⟨_, _, h1, h2, h3, _⟩ := hlaw _ _ _ he
    exact ⟨h1, h2, h3⟩
  · intro y b k o st hm
    obtain ⟨pre, post, he⟩ := List.append_of_mem hm
    exact (hlaw _ _ _ he).2

/-! ### C169: notifications and stop requests -/

/-- **C169** Notifications and steps come in the order `Tag.then` allows: in particular an evaluated batch is followed by
exactly one step, unless a callback asked to stop, and a step by `StepTaken`.  No batch is differentiated and no step made
after a stop request; evaluations and steps are at the current coordinates; a run begins with `BeginOptimization` and ends
with the only `EndOptimization`, with the coordinates it returns. -/
theorem C169_protocol {env : Env W M G E} {p : Params} (hb : 0 < p.batchSize) {fuel : Nat} {w : W} {x : M}
    {r : Result M E} (h : optimize env p fuel w x = some (.returned r)) :
    (∀ pre post a b, r.trace = pre ++ a :: b :: post → a.tag.then b.tag = true) ∧
    (∀ pre post y z ok, r.trace = pre ++ .update y z ok :: post → anyStop pre = false ∧ y = current x pre) ∧
    (∀ pre post y b k o st, r.trace = pre ++ .evalGrad y b k o st :: post → anyStop pre = false ∧
      y = current x pre) ∧
    (∀ pre post y b k o st, r.trace = pre ++ .evaluate y b k o st :: post → y = current x pre) ∧
    (∃ x' t, r.trace = .beginOpt x x' :: (t ++ [.endOpt r.x]) ∧ ∀ e ∈ t, e.isEndOpt = false) ∧
    r.x = current x r.trace := by
  obtain ⟨hlaw, hadj, hcur, _, hends⟩ := whole hb h
  refine ⟨?_, ?_, ?_, ?_, hends, hcur.symm⟩
  · intro pre post a b he
    exact hadj (pre ++ [a]) b post (by rw [he]; simp) _ (lastTag_snoc _ _)
  · intro pre post y z ok he
    obtain ⟨h1, h2, _⟩ := hlaw _ _ _ he
    exact ⟨h2, h1⟩
  · intro pre post y b k o st he
    obtain ⟨h1, h2, _⟩ := hlaw _ _ _ he
    exact ⟨h1, h2⟩
  · intro pre post y b k o st he
    exact (hlaw _ _ _ he).1

/-! ### C170: epochs, their averages, and the stopping tests -/

/-- **C170** Epochs are numbered `1, 2, ...`; `EndEpoch` comes exactly when all functions have been visited once more, and
reports the sum of the objective values computed since the last epoch ended, divided by the number of functions. -/
theorem C170_epochs {env : Env W M G E} {p : Params} (hb : 0 < p.batchSize) {fuel : Nat} {w : W} {x : M}
    {r : Result M E} (h : optimize env p fuel w x = some (.returned r)) :
    (∀ pre post e o b, r.trace = pre ++ .endEpoch e o b :: post → e = epochs pre + 1 ∧
      (visits pre).length = e * p.numFunctions ∧ o = env.divN (epochSum env pre) p.numFunctions) ∧
    (∀ pre post e o b, r.trace = pre ++ .beginEpoch e o b :: post → e = epochs pre + 1 ∧
      (visits pre).length = epochs pre * p.numFunctions) ∧
    (∀ pre post y b k o st, r.trace = pre ++ .evalGrad y b k o st :: post →
      epochs pre = (visits pre).length / p.numFunctions) := by
  obtain ⟨hlaw, _⟩ := whole hb h
  refine ⟨fun pre post e o b he => ?_, fun pre post e o b he => hlaw _ _ _ he, fun pre post y b k o st he => ?_⟩
  · obtain ⟨h1, h2, h3, _⟩ := hlaw _ _ _ he
    exact ⟨h2, h1, h3⟩
  · exact (hlaw _ _ _ he).2.2.2.2.2.2.2

/-- **C170** The run ends early exactly because of the tests at the end of an epoch (or, SPALeRA, a failure of the policy):
it ends `bad` after the first epoch whose sum is NaN or infinite, `tol` after the first one whose sum is within the tolerance of
the one before (of `DBL_MAX` for the first); otherwise every finished epoch passed both tests. -/
theorem C170_stopping {env : Env W M G E} {p : Params} (hb : 0 < p.batchSize) {fuel : Nat} {w : W} {x : M}
    {r : Result M E} (h : optimize env p fuel w x = some (.returned r)) :
    (r.exit = .bad ∨ r.exit = .tol → ∃ pre n o b, r.trace = pre ++ [.endEpoch n o b, .endOpt r.x] ∧
      r.obj = epochSum env pre ∧ Passes env env.dblMax (finished env pre) ∧
      (r.exit = .bad → env.isBad r.obj = true) ∧
      (r.exit = .tol → env.isBad r.obj = false ∧
        env.isClose ((finished env pre).getLast?.getD env.dblMax) r.obj = true)) ∧
    (r.exit = .fail → ∃ pre y, r.trace = pre ++ [.update y r.x false, .endOpt r.x]) ∧
    (r.exit = .loop ∨ r.exit = .fail → Passes env env.dblMax (finished env r.trace)) := by
  obtain ⟨s, hd, hx, ex, htr, hex, hno, _⟩ := optimize_facts hb h
  refine ⟨fun he => ?_, fun he => ?_, fun he => ?_⟩
  · obtain ⟨h1, h2⟩ := hno (Or.inl (by rcases he with he | he <;> rw [he] <;> simp))
    obtain ⟨pre, n, o, b, e1, e2, e3, e4, e5⟩ := hd.early he
    refine ⟨pre, n, o, b, ?_, by rw [h2, e2], e3, by rw [h2]; exact e4, by rw [h2]; exact e5⟩
    rw [htr, h1, e1]; simp
  · obtain ⟨h1, h2⟩ := hno (Or.inl (by rw [he]; simp))
    obtain ⟨pre, y, z, e1⟩ := hd.fail he
    have : r.x = z := by rw [hx, hd.cur, e1, current_append]; rfl
    exact ⟨pre, y, by rw [htr, h1, e1, this]; simp⟩
  · have hp := hd.pass he
    have : ∀ (ex t : List (Ev M E)), (∀ a ∈ ex, ∃ b k o st, a = .evaluate r.x b k o st ∧ 1 ≤ k ∧
        b + k ≤ p.numFunctions) → finished env (t ++ ex) = finished env t := by
      intro ex
      induction ex with
      | nil => intro t _; simp
      | cons a ex ih =>
        intro t ha
        obtain ⟨b, k, o, st, h1, _⟩ := ha a List.mem_cons_self
        have := ih (t ++ [a]) (fun c hc => ha c (List.mem_cons_of_mem _ hc))
        rw [List.append_assoc] at this
        rw [show t ++ a :: ex = t ++ ([a] ++ ex) by simp, this, finished_snoc, h1]
    rw [htr, finished_snoc, this ex s.trace hex]
    exact hp

/-- **C170** With `exactObjective`, a run that ends at the iteration limit or on a stop request returns the whole objective at
the coordinates it returns (for an objective whose `Evaluate` of a range is the sum over the range). -/
theorem C170_exact [AddCommMonoid E] {env : Env W M G E} {p : Params} (hb : 0 < p.batchSize) {fuel : Nat} {w : W} {x : M}
    {r : Result M E} (hadd : env.add = (· + ·)) (hzero : env.zero = 0) (f : M → Nat → E)
    (hf : ∀ w y b k, (env.evaluate w y b k).2 = ((List.range' b k).map (f y)).sum)
    (h : optimize env p fuel w x = some (.returned r)) (he : r.exit = .loop) (hex : p.exactObjective = true) :
    r.obj = ((List.range p.numFunctions).map (f r.x)).sum := by
  obtain ⟨s, hd, hx, ex, htr, _, _, hF⟩ := optimize_facts hb h
  rw [hF he hex (fun y b k => ((List.range' b k).map (f y)).sum) hf]
  have hc := Sgd.chunks_cover p.numFunctions p.batchSize hb p.numFunctions 0 (by omega)
  rw [Nat.sub_zero, ← List.range_eq_range'] at hc
  rw [← hc, hadd, hzero]
  generalize Sgd.chunks p.numFunctions p.batchSize p.numFunctions 0 = l
  have : ∀ (l : List (Nat × Nat)) (a : E), (l.map fun c => ((List.range' c.1 c.2).map (f r.x)).sum).foldl
      (fun a b => a + b) a = a + ((l.flatMap fun c => List.range' c.1 c.2).map (f r.x)).sum := by
    intro l
    induction l with
    | nil => intro a; simp
    | cons c l ih =>
      intro a
      rw [List.map_cons, List.foldl_cons, ih, List.flatMap_cons, List.map_append, List.sum_append, add_assoc]
  rw [this, zero_add]

/-! ### C171: what the average of an epoch is -/

/-- **C171** The objective `EndEpoch` reports is the average of the objectives of the batches of this epoch: for Eve always, for
SPALeRA from the second epoch on. -/
theorem C171_average_partial {env : Env W M G E} {p : Params} (hb : 0 < p.batchSize) {fuel : Nat} {w : W} {x : M}
    {r : Result M E} (h : optimize env p fuel w x = some (.returned r)) {pre post : List (Ev M E)} {e : Nat} {o : E}
    {b : Bool} (ht : r.trace = pre ++ .endEpoch e o b :: post) (he : p.kind = .eve ∨ 2 ≤ e) :
    o = env.divN (gradSum env pre) p.numFunctions := by
  obtain ⟨hlaw, _⟩ := whole hb h
  obtain ⟨_, h2, h3, h4⟩ := hlaw _ _ _ ht
  rw [h3, h4]
  rcases he with he | he
  · exact Or.inl he
  · exact Or.inr (by omega)

/-- A problem for examples: coordinates and objectives are integers; every function is worth its position plus the
coordinate, a step adds one to the coordinate, no callback stops. -/
def demo : Env Unit Int Unit Int where
  evalGrad := fun _ x b k => ((), ((List.range' b k).map fun j => (j : Int) + x).sum, ())
  evaluate := fun _ x b k => ((), ((List.range' b k).map fun j => (j : Int) + x).sum)
  shuffle := id
  update := fun _ x _ _ _ _ => ((), x + 1, true)
  decay := fun _ x _ => ((), x)
  cbBegin := fun _ x => ((), x)
  cbBeginEpoch := fun _ _ _ _ => ((), false)
  cbEvalGrad := fun _ _ _ g => ((), g, false)
  cbStep := fun _ x => ((), x, false)
  cbEndEpoch := fun _ _ _ _ => ((), false)
  cbEvaluate := fun _ _ _ => ((), false)
  add := (· + ·)
  zero := 0
  divN := fun a n => a / n
  dblMax := 1000000
  isBad := fun _ => false
  isClose := fun a b => decide (a = b)

def demoP (k : Kind) : Params := ⟨k, 4, 3, 9, true, true⟩

/-- What a returned run gives. -/
def Outcome.res : Outcome M E → Option (Result M E)
  | .returned r => some r
  | .ub => none

/-- The announcements of finished epochs, each with the sum of its batches. -/
def ends (t : List (Ev Int Int)) : List (Nat × Int × Int) :=
  (t.foldl (fun (a : List (Ev Int Int) × List (Nat × Int × Int)) e =>
    (a.1 ++ [e], match e with | .endEpoch n o _ => a.2 ++ [(n, o, gradSum demo a.1)] | _ => a.2)) ([], [])).2

theorem ends_mem : ∀ (t : List (Ev Int Int)) (n : Nat) (o g : Int), (n, o, g) ∈ ends t →
    ∃ pre b post, t = pre ++ .endEpoch n o b :: post ∧ g = gradSum demo pre := by
  have key : ∀ (t : List (Ev Int Int)) (a : List (Ev Int Int) × List (Nat × Int × Int)),
      (∀ n o g, (n, o, g) ∈ a.2 → ∃ pre b post, a.1 = pre ++ .endEpoch n o b :: post ∧ g = gradSum demo pre) →
      ∀ n o g, (n, o, g) ∈ (t.foldl (fun (a : List (Ev Int Int) × List (Nat × Int × Int)) e =>
        (a.1 ++ [e], match e with | .endEpoch n o _ => a.2 ++ [(n, o, gradSum demo a.1)] | _ => a.2)) a).2 →
      ∃ pre b post, a.1 ++ t = pre ++ .endEpoch n o b :: post ∧ g = gradSum demo pre := by
    intro t
    induction t with
    | nil => intro a h n o g hm; rw [List.append_nil]; exact h n o g hm
    | cons e t ih =>
      intro a h n o g hm
      rw [List.foldl_cons] at hm
      have := ih _ ?_ n o g hm
      · obtain ⟨pre, b, post, h1, h2⟩ := this
        exact ⟨pre, b, post, by rw [← h1]; simp, h2⟩
      · have old : ∀ n o g, (n, o, g) ∈ a.2 → ∃ pre b post, a.1 ++ [e] = pre ++ .endEpoch n o b :: post ∧
            g = gradSum demo pre := by
          intro n o g hm
          obtain ⟨pre, b, post, h1, h2⟩ := h n o g hm
          exact ⟨pre, b, post ++ [e], by rw [h1]; simp, h2⟩
        intro n o g hm
        cases e with
        | endEpoch n' o' b' =>
          rcases List.mem_append.1 hm with hm | hm
          · exact old n o g hm
          · rw [List.mem_singleton] at hm
            cases hm
            exact ⟨a.1, b', [], rfl, rfl⟩
        | _ => exact old n o g hm
  intro t n o g hm
  simpa using key t ([], []) (by simp) n o g hm

/-- **C171** SPALeRA's first `EndEpoch` does not report the average of the epoch: the objective computed before the loop is
still in the sum (spalera_sgd_impl.hpp 107-114, 184, 189-190). -/
theorem C171_spalera_average_refuted :
    ¬ ∀ (env : Env Unit Int Unit Int) (p : Params) (fuel : Nat) (x : Int) (r : Result Int Int)
      (pre post : List (Ev Int Int)) (e : Nat) (o : Int) (b : Bool), p.kind = .spalera → 0 < p.batchSize →
      optimize env p fuel () x = some (.returned r) → r.trace = pre ++ .endEpoch e o b :: post →
      o = env.divN (gradSum env pre) p.numFunctions := by
  intro h
  obtain ⟨r, hr⟩ := C168_terminates demo (p := demoP .spalera) (by decide) (by decide) () 0
  have he : ((optimize demo (demoP .spalera) ((demoP .spalera).actualMax + 1) () 0).bind Outcome.res).map
      (fun r => ends r.trace) = some [(1, 3, 7), (2, 3, 15)] := by decide +kernel
  rw [hr] at he
  have he : ends r.trace = [(1, 3, 7), (2, 3, 15)] := Option.some.inj he
  obtain ⟨pre, b, post, h1, h2⟩ := ends_mem r.trace 1 3 7 (by rw [he]; simp)
  have := h demo (demoP .spalera) _ 0 r pre post 1 3 b rfl (by decide) hr h1
  rw [← h2] at this
  revert this
  decide

/-- A stop request at the first step of the second epoch. -/
def demoStop : Env Unit Int Unit Int := { demo with cbStep := fun _ x => ((), x, decide (x = 3)) }

def summary (r : Result Int Int) : Exit × Int × Int × List Nat := (r.exit, r.obj, r.x, visits r.trace)

/-- The theorems apply to runs of both optimizers: two epochs of four functions in batches of three, then the limit of nine. -/
example : ((optimize demo (demoP .eve) 20 () 0).bind Outcome.res).map summary =
    some (.loop, 26, 5, [0, 1, 2, 3, 0, 1, 2, 3, 0]) := by decide +kernel
example : ((optimize demo (demoP .spalera) 20 () 0).bind Outcome.res).map summary =
    some (.loop, 26, 5, [0, 1, 2, 3, 0, 1, 2, 3, 0]) := by decide +kernel
example : ((optimize demo (demoP .eve) 20 () 0).bind Outcome.res).map (fun r => ends r.trace) =
    some [(1, 1, 7), (2, 3, 15)] := by decide +kernel
/-- Stopped, ended by the tolerance, and by a failing policy. -/
example : ((optimize demoStop (demoP .eve) 20 () 0).bind Outcome.res).map summary =
    some (.loop, 18, 3, [0, 1, 2, 3, 0, 1, 2]) := by decide +kernel
example : ((optimize { demo with isClose := fun a b => decide (a - b ≤ 8 ∧ b - a ≤ 8) } (demoP .eve) 20 () 0).bind
    Outcome.res).map summary = some (.tol, 15, 4, [0, 1, 2, 3, 0, 1, 2, 3]) := by decide +kernel
example : ((optimize { demo with update := fun _ x _ _ _ _ => ((), x + 1, decide (x < 2)) } (demoP .spalera) 20 () 0).bind
    Outcome.res).map summary = some (.fail, 0, 3, [0, 1, 2, 3, 0, 1, 2]) := by decide +kernel

end Ens.Epoch
