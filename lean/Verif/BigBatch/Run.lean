import Verif.Trace
import Verif.BigBatch.Props

/-
C179-C181: whole runs of BigBatchSGD, read off the trace alone.
-/

namespace Ens.BigBatch

variable {W M G E R : Type}

/-! ### Reading a trace -/

/-- Kinds of events. -/
inductive Tag where
  | none | beginOpt | gradient | cbGradient | policy | step | stepTaken | evaluate | cbEvaluate | endEpoch | beginEpoch | shuffle | endOpt
  deriving DecidableEq

def Ev.tag : Ev M E → Tag
  | .beginOpt .. => .beginOpt
  | .gradient .. => .gradient
  | .cbGradient .. => .cbGradient
  | .policy .. => .policy
  | .step .. => .step
  | .stepTaken .. => .stepTaken
  | .evaluate .. => .evaluate
  | .cbEvaluate .. => .cbEvaluate
  | .endEpoch .. => .endEpoch
  | .beginEpoch .. => .beginEpoch
  | .shuffle => .shuffle
  | .endOpt _ => .endOpt

/-- Which event may come right after which. -/
def Tag.then : Tag → Tag → Bool
  | .none, e => e == .beginOpt
  | .beginOpt, e => e == .gradient || e == .evaluate || e == .endOpt
  | .gradient, e => e == .cbGradient
  | .cbGradient, e => e == .gradient || e == .policy || e == .evaluate || e == .endOpt
  | .policy, e => e == .step
  | .step, e => e == .stepTaken
  | .stepTaken, e => e == .evaluate
  | .evaluate, e => e == .cbEvaluate
  | .cbEvaluate, e => e == .endEpoch || e == .gradient || e == .evaluate || e == .endOpt
  | .endEpoch, e => e == .beginEpoch || e == .endOpt
  | .beginEpoch, e => e == .shuffle || e == .gradient || e == .evaluate || e == .endOpt
  | .shuffle, e => e == .gradient || e == .evaluate || e == .endOpt
  | .endOpt, _ => false

/-- What an observer who only sees the events knows. -/
structure View (M E : Type) where
  /-- the coordinates -/
  x : M
  /-- some callback has asked to stop -/
  stop : Bool
  /-- functions stepped on so far -/
  moved : Nat
  /-- gradients asked for so far -/
  grads : Nat
  /-- batch size last passed to the step size policy, and the one before -/
  batch : Nat
  prev : Nat
  /-- range of the last step -/
  range : Nat × Nat
  /-- sum of the objectives since the last epoch ended -/
  sum : E
  /-- sums of the finished epochs -/
  finished : List E
  /-- kind of the last event -/
  tag : Tag

def View.next (env : Env W M G E R) (v : View M E) (e : Ev M E) : View M E :=
  let v := { v with tag := e.tag }
  match e with
  | .beginOpt _ y => { v with x := y }
  | .gradient .. => { v with grads := v.grads + 1 }
  | .cbGradient s => { v with stop := v.stop || s }
  | .policy _ y B => { v with x := y, prev := v.batch, batch := B }
  | .step _ y b k => { v with x := y, moved := v.moved + k, range := (b, k) }
  | .stepTaken y s => { v with x := y, stop := v.stop || s }
  | .evaluate _ _ _ o => { v with sum := env.add v.sum o }
  | .cbEvaluate s => { v with stop := v.stop || s }
  | .endEpoch _ _ s => { v with stop := v.stop || s, finished := v.finished ++ [v.sum], sum := env.zero }
  | .beginEpoch _ _ s => { v with stop := v.stop || s }
  | .shuffle => v
  | .endOpt _ => v

/-- View of a trace that starts at `x₀` with batch size `B₀`. -/
def view (env : Env W M G E R) (x₀ : M) (B₀ : Nat) (t : List (Ev M E)) : View M E :=
  t.foldl (View.next env) ⟨x₀, false, 0, 0, B₀, B₀, (0, 0), env.zero, [], .none⟩

/-- Sum of the last finished epoch; `DBL_MAX` if there is none. -/
def View.lastSum (env : Env W M G E R) (v : View M E) : E := v.finished.getLast?.getD env.dblMax

/-- The tests at the end of an epoch let each of these sums pass: none is NaN or infinite, and each differs from the one
before it (the first from `l`) by at least the tolerance. -/
def Passes (env : Env W M G E R) : E → List E → Prop
  | _, [] => True
  | l, v :: vs => env.isBad v = false ∧ env.isClose l v = false ∧ Passes env v vs

/-- What an event may be, given the view of the events before it. -/
def View.Allows (env : Env W M G E R) (p : Params) (v : View M E) : Ev M E → Prop
  | .beginOpt x _ => x = v.x
  | .gradient x j => x = v.x ∧ j < p.numFunctions ∧ v.moved < p.actualMax ∧ v.finished.length = v.moved / p.numFunctions
  | .policy x _ B => x = v.x ∧ v.stop = false ∧ v.batch ≤ B
  | .step x _ b k => x = v.x ∧ v.stop = false ∧ b = v.moved % p.numFunctions ∧ 1 ≤ k ∧ b + k ≤ p.numFunctions ∧
      v.grads = v.moved + k ∧
      (v.batch = v.prev → k = min (min v.batch (p.actualMax - v.moved)) (p.numFunctions - b)) ∧
      (v.batch ≠ v.prev → k = v.batch ∧ v.moved + v.prev ≤ p.actualMax ∧ b + k < p.numFunctions)
  | .evaluate x b k _ => x = v.x ∧ 1 ≤ k ∧ b + k ≤ p.numFunctions ∧
      (v.tag = .stepTaken ∧ v.range = (b, k) ∨ v.tag ≠ .stepTaken ∧ p.exactObjective = true)
  | .endEpoch e o _ => e = v.finished.length + 1 ∧ v.moved = e * p.numFunctions ∧ o = env.divN v.sum p.numFunctions
  | .beginEpoch e o _ => e = v.finished.length + 1 ∧ o = v.lastSum env
  | .shuffle => p.shuffle = true
  | .endOpt x => x = v.x
  | _ => True

/-- The law of every trace. -/
def Law (env : Env W M G E R) (p : Params) (x₀ : M) (B₀ : Nat) (pre : List (Ev M E)) (e : Ev M E) : Prop :=
  (view env x₀ B₀ pre).Allows env p e ∧ (view env x₀ B₀ pre).tag.then e.tag = true

/-- What the run returns when the loop condition ends it (and the objective is not evaluated afresh): the sum of the epoch under
way, except that a run which uses up exactly its iterations at the end of an epoch returns the sum of that epoch. -/
def View.returned (env : Env W M G E R) (p : Params) (v : View M E) : E :=
  if v.moved = p.actualMax ∧ v.moved % p.numFunctions = 0 then v.lastSum env else v.sum

/-- Events of a final pass over all functions, from function `i`, at `x`, with the sum of its values added to `a`. -/
inductive Final (env : Env W M G E R) (p : Params) (x : M) (B : Nat) : Nat → E → List (Ev M E) → E → Prop where
  | done {i a} (h : p.numFunctions ≤ i) : Final env p x B i a [] a
  | batch {i a t r} (o : E) (c : Bool) (h : i < p.numFunctions) (ht : Final env p x B (i + B) (env.add a o) t r) :
      Final env p x B i a (.evaluate x i (min B (p.numFunctions - i)) o :: .cbEvaluate c :: t) r

/-! ### Lemmas -/

theorem view_snoc (env : Env W M G E R) (x₀ : M) (B₀ : Nat) (t : List (Ev M E)) (e : Ev M E) :
    view env x₀ B₀ (t ++ [e]) = (view env x₀ B₀ t).next env e := by
  simp [view]

theorem passes_snoc {env : Env W M G E R} : ∀ {l : E} {vs : List E} {v : E}, Passes env l vs →
    env.isBad v = false → env.isClose (vs.getLast?.getD l) v = false → Passes env l (vs ++ [v])
  | _, [], _, _, h1, h2 => ⟨h1, h2, trivial⟩
  | l, a :: vs, v, h, h1, h2 => by
    refine ⟨h.1, h.2.1, passes_snoc h.2.2 h1 ?_⟩
    rw [List.getLast?_cons] at h2
    exact h2

theorem actualMax_ne (p : Params) : p.actualMax ≠ 0 := by
  unfold Params.actualMax
  split <;> simp_all

/-- The gradients of an estimation obey the law, and leave everything but the request to stop and the counter as it was. -/
theorem Grads.law {env : Env W M G E R} {p : Params} {x₀ : M} {B₀ : Nat} {x : M} {l t c} (h : Grads (E := E) x l t c)
    (pre : List (Ev M E)) (hp : Along (Law env p x₀ B₀) pre) (hx : (view env x₀ B₀ pre).x = x) (hl : ∀ j ∈ l, j < p.numFunctions)
    (hm : (view env x₀ B₀ pre).moved < p.actualMax)
    (hf : (view env x₀ B₀ pre).finished.length = (view env x₀ B₀ pre).moved / p.numFunctions)
    (ht : (view env x₀ B₀ pre).tag.then .gradient = true) :
    Along (Law env p x₀ B₀) (pre ++ t) ∧ ∃ tag, tag.then .gradient = true ∧ (l ≠ [] → tag = .cbGradient) ∧
      view env x₀ B₀ (pre ++ t) = { view env x₀ B₀ pre with
        grads := (view env x₀ B₀ pre).grads + l.length, stop := (view env x₀ B₀ pre).stop || c, tag := tag } := by
  induction h with
  | nil => exact ⟨by simpa using hp, _, ht, fun h => absurd rfl h, by simp⟩
  | @snoc l t b j c h ih =>
    obtain ⟨h1, tag, h2, _, h3⟩ := ih fun j hj => hl j (List.mem_append_left _ hj)
    rw [show pre ++ (t ++ [.gradient x j, .cbGradient c]) = (pre ++ t) ++ [.gradient x j, .cbGradient c] by simp]
    refine ⟨?_, .cbGradient, rfl, fun _ => rfl, ?_⟩
    · rw [along_snoc₂]
      refine ⟨h1, ⟨?_, ?_⟩, trivial, ?_⟩
      · rw [h3]; exact ⟨hx.symm, hl j (by simp), hm, hf⟩
      · rw [h3]; exact h2
      · rw [view_snoc, h3]; rfl
    · rw [show pre ++ t ++ [.gradient x j, .cbGradient c] = ((pre ++ t) ++ [.gradient x j]) ++ [.cbGradient c] by simp]
      rw [view_snoc, view_snoc, h3]
      simp [View.next, Ev.tag, Bool.or_assoc, Nat.add_assoc]

/-- At the loop condition. -/
structure RInv (env : Env W M G E R) (p : Params) (x₀ : M) (B₀ : Nat) (s : St W M E) : Prop where
  law : Along (Law env p x₀ B₀) s.trace
  x : (view env x₀ B₀ s.trace).x = s.x
  stop : (view env x₀ B₀ s.trace).stop = s.terminate
  moved : (view env x₀ B₀ s.trace).moved = s.i
  grads : (view env x₀ B₀ s.trace).grads = s.i
  batch : (view env x₀ B₀ s.trace).batch = s.batchSize
  pos : 0 < s.batchSize
  epoch : s.epoch = (view env x₀ B₀ s.trace).finished.length + 1
  num : (view env x₀ B₀ s.trace).finished.length = s.i / p.numFunctions
  cur : s.i < p.actualMax → s.cur = s.i % p.numFunctions
  sum : s.overall = (view env x₀ B₀ s.trace).returned env p
  last : s.i < p.actualMax → s.last = (view env x₀ B₀ s.trace).lastSum env
  pass : Passes env env.dblMax (view env x₀ B₀ s.trace).finished
  over : p.actualMax < s.i → s.i % p.numFunctions ≠ 0
  head : (view env x₀ B₀ s.trace).tag.then .gradient = true ∧ (view env x₀ B₀ s.trace).tag.then .evaluate = true ∧
    (view env x₀ B₀ s.trace).tag.then .endOpt = true ∧ (view env x₀ B₀ s.trace).tag ≠ .stepTaken

/-- How a run stands when it leaves the loop. -/
structure RDone (env : Env W M G E R) (p : Params) (x₀ : M) (B₀ : Nat) (e : Exit) (s : St W M E) : Prop where
  law : Along (Law env p x₀ B₀) s.trace
  x : (view env x₀ B₀ s.trace).x = s.x
  batch : (view env x₀ B₀ s.trace).batch ≤ s.batchSize
  pos : 0 < s.batchSize
  tail : (view env x₀ B₀ s.trace).tag.then .endOpt = true
  bad : e = .bad → ∃ vs, (view env x₀ B₀ s.trace).finished = vs ++ [s.overall] ∧ Passes env env.dblMax vs ∧
    env.isBad s.overall = true ∧ (view env x₀ B₀ s.trace).tag = .endEpoch
  tol : e = .tol → ∃ vs, (view env x₀ B₀ s.trace).finished = vs ++ [s.overall] ∧ Passes env env.dblMax vs ∧
    env.isBad s.overall = false ∧ env.isClose (vs.getLast?.getD env.dblMax) s.overall = true ∧
    (view env x₀ B₀ s.trace).tag = .endEpoch
  loop : e = .loop → Passes env env.dblMax (view env x₀ B₀ s.trace).finished ∧
    s.overall = (view env x₀ B₀ s.trace).returned env p ∧
    ((view env x₀ B₀ s.trace).stop = true ∨ p.actualMax ≤ (view env x₀ B₀ s.trace).moved) ∧
    (view env x₀ B₀ s.trace).tag.then .evaluate = true ∧ (view env x₀ B₀ s.trace).tag ≠ .stepTaken ∧
    (p.actualMax < (view env x₀ B₀ s.trace).moved → (view env x₀ B₀ s.trace).moved % p.numFunctions ≠ 0)

theorem start_rinv (env : Env W M G E R) (p : Params) (B₀ : Nat) (hB₀ : 0 < B₀) (w : W) (x : M) :
    RInv env p x B₀ (start env B₀ w x) where
  law := by
    show Along _ ([] ++ [_])
    rw [along_snoc]; exact ⟨along_nil _, rfl, rfl⟩
  x := rfl
  stop := rfl
  moved := rfl
  grads := rfl
  batch := rfl
  pos := hB₀
  epoch := rfl
  num := (Nat.zero_div _).symm
  cur := fun _ => (Nat.zero_mod _).symm
  sum := by
    unfold View.returned
    rw [if_neg fun h => actualMax_ne p h.1.symm]; rfl
  last := fun _ => rfl
  pass := trivial
  over := fun h => by cases h
  head := ⟨rfl, rfl, rfl, by show Tag.beginOpt ≠ _; decide⟩

/-- After the step, at the epoch test. -/
structure AtTest (env : Env W M G E R) (p : Params) (x₀ : M) (B₀ : Nat) (s : St W M E) : Prop where
  law : Along (Law env p x₀ B₀) s.trace
  x : (view env x₀ B₀ s.trace).x = s.x
  stop : (view env x₀ B₀ s.trace).stop = s.terminate
  moved : (view env x₀ B₀ s.trace).moved = s.i
  grads : (view env x₀ B₀ s.trace).grads = s.i
  batch : (view env x₀ B₀ s.trace).batch = s.batchSize
  pos : 0 < s.batchSize
  epoch : s.epoch = (view env x₀ B₀ s.trace).finished.length + 1
  sum : s.overall = (view env x₀ B₀ s.trace).sum
  last : s.last = (view env x₀ B₀ s.trace).lastSum env
  pass : Passes env env.dblMax (view env x₀ B₀ s.trace).finished
  over : p.actualMax < s.i → s.cur < p.numFunctions
  tag : (view env x₀ B₀ s.trace).tag = .cbEvaluate
  /-- the position before the step, and how far it went -/
  from_ : ∃ i k, 1 ≤ k ∧ s.i = i + k ∧ s.cur = i % p.numFunctions + k ∧ s.cur ≤ p.numFunctions ∧
    (view env x₀ B₀ s.trace).finished.length = i / p.numFunctions

theorem mod_facts {n i k : Nat} (hn : n ≠ 0) (hk : 1 ≤ k) (h : i % n + k ≤ n) :
    ((i % n + k) % n = 0 → i + k = (i / n + 1) * n ∧ (i + k) / n = i / n + 1 ∧ (i + k) % n = 0) ∧
    ((i % n + k) % n ≠ 0 → (i + k) % n = i % n + k ∧ (i + k) / n = i / n) := by
  have h0 := Nat.div_add_mod i n
  refine ⟨fun h1 => ?_, fun h1 => ?_⟩
  · have h2 : i % n + k = n := by
      by_contra hc
      rw [Nat.mod_eq_of_lt (by omega)] at h1; omega
    have h3 : i + k = (i / n + 1) * n := by
      have : i + k = n * (i / n) + n := by omega
      rw [this, Nat.add_mul, Nat.one_mul, Nat.mul_comm]
    exact ⟨h3, by rw [h3]; exact Nat.mul_div_cancel _ (Nat.pos_of_ne_zero hn), by rw [h3]; exact Nat.mul_mod_left _ _⟩
  · have h2 : i % n + k < n := by
      rcases Nat.lt_or_eq_of_le h with h2 | h2
      · exact h2
      · rw [h2, Nat.mod_self] at h1; exact absurd rfl h1
    have e : i + k = n * (i / n) + (i % n + k) := by omega
    refine ⟨?_, ?_⟩
    · rw [e, Nat.mul_add_mod, Nat.mod_eq_of_lt h2]
    · rw [e, Nat.mul_add_div (Nat.pos_of_ne_zero hn), Nat.div_eq_of_lt h2, Nat.add_zero]

/-- What the estimation leaves behind. -/
structure Estimated (env : Env W M G E R) (p : Params) (x₀ : M) (B₀ : Nat) (s : St W M E) (b : Batch W M G E R) : Prop where
  law : Along (Law env p x₀ B₀) b.trace
  view : view env x₀ B₀ b.trace = { view env x₀ B₀ s.trace with grads := s.i + b.eff, stop := b.terminate, tag := .cbGradient }
  eff : 1 ≤ b.eff ∧ s.cur + b.eff ≤ p.numFunctions
  size : s.batchSize ≤ b.batchSize
  same : b.batchSize = s.batchSize → b.eff = effBatch p s
  grown : b.batchSize ≠ s.batchSize → b.eff = b.batchSize ∧ s.i + s.batchSize ≤ p.actualMax ∧ s.cur + b.eff < p.numFunctions

theorem estimate_run {env : Env W M G E R} {p : Params} {x₀ : M} {B₀ : Nat} {s : St W M E} (hn : p.numFunctions ≠ 0)
    (h : RInv env p x₀ B₀ s) (hlt : s.i < p.actualMax) {b : Batch W M G E R} (hb : estimate env p s = some b) :
    Estimated env p x₀ B₀ s b := by
  obtain ⟨b', l, h1, h2, h3, h4, h5, t, c, h6, h7, h8⟩ := estimate_spec env p s h.pos
  rw [hb] at h1; cases h1
  obtain ⟨g1, g2, g3⟩ := h3.facts h.pos
  have hc : s.cur < p.numFunctions := by rw [h.cur hlt]; exact Nat.mod_lt _ (Nat.pos_of_ne_zero hn)
  have hpos := h.pos
  have he1 : 0 < effBatch p s := by unfold effBatch; omega
  have he2 : s.cur + effBatch p s ≤ p.numFunctions := by unfold effBatch; omega
  have he3 : s.i + effBatch p s ≤ p.actualMax := by unfold effBatch; omega
  have hl : ∀ j ∈ s.cur :: List.range' (s.cur + 1) (effBatch p s - 1) ++ l, j < p.numFunctions := by
    intro j hj
    simp only [List.cons_append, List.mem_cons, List.mem_append] at hj
    rcases hj with rfl | hj | hj
    · exact hc
    · have := List.mem_range'_1.1 hj; omega
    · exact g2 j hj
  obtain ⟨a1, tag, a2, a3, a4⟩ := h6.law s.trace h.law h.x hl (by rw [h.moved]; exact hlt) (by rw [h.num, h.moved]) h.head.1
  have htag : tag = .cbGradient := a3 (by simp)
  subst htag
  have hlen : (s.cur :: List.range' (s.cur + 1) (effBatch p s - 1) ++ l).length = b.eff := by
    simp; omega
  have hgr : b.batchSize ≠ s.batchSize → effBatch p s = s.batchSize ∧ l ≠ [] := by
    intro hne
    have hl0 : l ≠ [] := by rintro rfl; simp at g1; omega
    refine ⟨?_, hl0⟩
    by_contra hx
    exact hl0 (h2 hx).1
  refine ⟨by rw [h7]; exact a1, ?_, ?_, by omega, fun he => by omega, fun he => ?_⟩
  · rw [h7, a4, hlen, h.grads, h8, ← h.stop]
  · refine ⟨by omega, ?_⟩
    by_cases hne : b.batchSize = s.batchSize
    · omega
    · obtain ⟨e1, e2⟩ := hgr hne
      have := g3 e2
      omega
  · obtain ⟨e1, e2⟩ := hgr he
    have := g3 e2
    omega

theorem along_snoc₅ {α : Type} (P : List α → α → Prop) (t : List α) (a b c d e : α) :
    Along P (t ++ [a, b, c, d, e]) ↔
      Along P t ∧ P t a ∧ P (t ++ [a]) b ∧ P (t ++ [a] ++ [b]) c ∧ P (t ++ [a] ++ [b] ++ [c]) d ∧
        P (t ++ [a] ++ [b] ++ [c] ++ [d]) e := by
  rw [show t ++ [a, b, c, d, e] = ((((t ++ [a]) ++ [b]) ++ [c]) ++ [d]) ++ [e] by simp]
  rw [along_snoc, along_snoc, along_snoc, along_snoc, along_snoc]
  simp only [and_assoc]

theorem stepPart_test {env : Env W M G E R} {p : Params} {x₀ : M} {B₀ : Nat} {s : St W M E}
    (h : RInv env p x₀ B₀ s) (hlt : s.i < p.actualMax) {b : Batch W M G E R}
    (hb : Estimated env p x₀ B₀ s b) (ht : b.terminate = false) : AtTest env p x₀ B₀ (stepPart env s b) := by
  obtain ⟨e1, e2⟩ := hb.eff
  have hcur := h.cur hlt
  have hvs : view env x₀ B₀ (stepPart env s b).trace = { view env x₀ B₀ s.trace with
      x := (stepPart env s b).x, moved := s.i + b.eff, grads := s.i + b.eff, batch := b.batchSize, prev := s.batchSize,
      range := (s.cur, b.eff), sum := (stepPart env s b).overall, stop := (stepPart env s b).terminate, tag := .cbEvaluate } := by
    have hsum : s.overall = (view env x₀ B₀ s.trace).sum := by
      rw [h.sum]; unfold View.returned; rw [if_neg]
      rw [h.moved]; omega
    unfold stepPart
    dsimp only
    rw [show ∀ a b' c d e : Ev M E, b.trace ++ [a, b', c, d, e] = ((((b.trace ++ [a]) ++ [b']) ++ [c]) ++ [d]) ++ [e] by simp]
    simp only [view_snoc, hb.view, View.next, Ev.tag, h.moved, h.batch, hsum]
  refine ⟨?_, by rw [hvs], by rw [hvs], by rw [hvs]; rfl, by rw [hvs]; rfl, by rw [hvs]; rfl, ?_, ?_, by rw [hvs], ?_, ?_, ?_,
    by rw [hvs], ?_⟩
  · unfold stepPart
    dsimp only
    rw [along_snoc₅]
    simp only [Law, view_snoc, hb.view, View.next, Ev.tag, View.Allows, h.moved, h.batch, h.x]
    refine ⟨hb.law, ⟨⟨trivial, ht, hb.size⟩, rfl⟩, ⟨⟨trivial, ht, hcur, e1, e2, trivial, fun he => ?_, fun he => ?_⟩, rfl⟩,
      ⟨trivial, rfl⟩, ⟨⟨trivial, e1, e2, Or.inl ⟨trivial, trivial⟩⟩, rfl⟩, trivial, rfl⟩
    · rw [hb.same he, he]; rfl
    · exact hb.grown he
  · have := hb.size; have := h.pos; show 0 < b.batchSize; omega
  · rw [hvs]; exact h.epoch
  · rw [hvs]; exact h.last hlt
  · rw [hvs]; exact h.pass
  · intro hov
    have hov' : p.actualMax < s.i + b.eff := hov
    show s.cur + b.eff < _
    by_cases he : b.batchSize = s.batchSize
    · have := hb.same he
      unfold effBatch at this; omega
    · exact (hb.grown he).2.2
  · exact ⟨s.i, b.eff, e1, rfl, by rw [← hcur]; rfl, e2, by rw [hvs]; exact h.num⟩

theorem test_inv {env : Env W M G E R} {p : Params} {x₀ : M} {B₀ : Nat} {s : St W M E} (hn : p.numFunctions ≠ 0)
    (h : AtTest env p x₀ B₀ s) (hm : s.cur % p.numFunctions ≠ 0) : RInv env p x₀ B₀ s := by
  obtain ⟨i, k, h1, h2, h3, h4, h5⟩ := h.from_
  obtain ⟨a1, a2⟩ := (mod_facts (i := i) hn h1 (by omega)).2 (by rw [← h3]; exact hm)
  refine ⟨h.law, h.x, h.stop, h.moved, h.grads, h.batch, h.pos, h.epoch, by rw [h5, h2, a2], fun _ => by rw [h2, a1, h3], ?_,
    fun _ => h.last, h.pass, fun _ => ?_, ?_⟩
  · unfold View.returned
    rw [if_neg, h.sum]
    rw [h.moved, h2, a1, ← h3]
    intro hc
    rw [hc.2, Nat.zero_mod] at hm
    exact hm rfl
  · rw [h2, a1]; omega
  · rw [h.tag]; decide

theorem epochEnd_run {env : Env W M G E R} {p : Params} {x₀ : M} {B₀ : Nat} {s : St W M E} (hn : p.numFunctions ≠ 0)
    (h : AtTest env p x₀ B₀ s) (hm : s.cur % p.numFunctions = 0) :
    (∃ s', epochEnd env p s = .cont s' ∧ RInv env p x₀ B₀ s') ∨ (∃ e s', epochEnd env p s = .ret e s' ∧ RDone env p x₀ B₀ e s') := by
  obtain ⟨i, k, h1, h2, h3, h4, h5⟩ := h.from_
  obtain ⟨a1, a2, a3⟩ := (mod_facts (i := i) hn h1 (by omega)).1 (by rw [← h3]; exact hm)
  unfold epochEnd
  dsimp only
  generalize env.cbEndEpoch s.w s.x s.epoch (env.divN s.overall p.numFunctions) = e
  have hv : view env x₀ B₀ (s.trace ++ [.endEpoch s.epoch (env.divN s.overall p.numFunctions) e.2]) =
      { view env x₀ B₀ s.trace with
          stop := s.terminate || e.2, sum := env.zero,
          finished := (view env x₀ B₀ s.trace).finished ++ [s.overall], tag := .endEpoch } := by
    simp only [view_snoc, View.next, Ev.tag, h.stop, ← h.sum]
  have hlaw : Along (Law env p x₀ B₀) (s.trace ++ [.endEpoch s.epoch (env.divN s.overall p.numFunctions) e.2]) := by
    rw [along_snoc]
    refine ⟨h.law, ⟨h.epoch, ?_, by rw [h.sum]⟩, by rw [h.tag]; rfl⟩
    rw [h.moved, h.epoch, h5, h2, a1]
  by_cases hb : env.isBad s.overall = true
  · rw [if_pos hb]
    refine Or.inr ⟨_, _, rfl, hlaw, ?_, ?_, h.pos, ?_, fun _ => ⟨_, ?_, h.pass, hb, ?_⟩, (fun h => by cases h), (fun h => by cases h)⟩
    all_goals dsimp only; rw [hv]
    · exact h.x
    · exact Nat.le_of_eq h.batch
    · rfl
  rw [if_neg hb]
  have hb' : env.isBad s.overall = false := by simpa using hb
  by_cases hc : env.isClose s.last s.overall = true
  · rw [if_pos hc]
    refine Or.inr ⟨_, _, rfl, hlaw, ?_, ?_, h.pos, ?_, (fun h => by cases h), fun _ => ⟨_, ?_, h.pass, hb', ?_, ?_⟩,
      (fun h => by cases h)⟩
    all_goals dsimp only; try rw [hv]
    · exact h.x
    · exact Nat.le_of_eq h.batch
    · rfl
    · rw [h.last] at hc; exact hc
  rw [if_neg hc]
  have hc' : env.isClose ((view env x₀ B₀ s.trace).finished.getLast?.getD env.dblMax) s.overall = false := by
    rw [h.last] at hc; simpa [View.lastSum] using hc
  generalize env.cbBeginEpoch e.1 s.x (s.epoch + 1) s.overall = g
  have hv2 : view env x₀ B₀ (s.trace ++ [.endEpoch s.epoch (env.divN s.overall p.numFunctions) e.2] ++
      [.beginEpoch (s.epoch + 1) s.overall g.2]) = { view env x₀ B₀ s.trace with
          stop := s.terminate || e.2 || g.2, sum := env.zero,
          finished := (view env x₀ B₀ s.trace).finished ++ [s.overall], tag := .beginEpoch } := by
    rw [view_snoc, hv]; simp only [View.next, Ev.tag]
  have hlaw2 : Along (Law env p x₀ B₀) (s.trace ++ [.endEpoch s.epoch (env.divN s.overall p.numFunctions) e.2] ++
      [.beginEpoch (s.epoch + 1) s.overall g.2]) := by
    rw [along_snoc]
    refine ⟨hlaw, ⟨?_, ?_⟩, ?_⟩
    all_goals rw [hv]
    · simp [h.epoch]
    · simp [View.lastSum]
    · rfl
  have hpass : Passes env env.dblMax ((view env x₀ B₀ s.trace).finished ++ [s.overall]) := passes_snoc h.pass hb' hc'
  refine Or.inl ⟨_, rfl, ?_⟩
  have key : ∀ (s' : St W M E) (tag : Tag), Along (Law env p x₀ B₀) s'.trace →
      view env x₀ B₀ s'.trace = { view env x₀ B₀ s.trace with
          stop := s.terminate || e.2 || g.2, sum := env.zero,
          finished := (view env x₀ B₀ s.trace).finished ++ [s.overall], tag := tag } →
      (tag = .beginEpoch ∨ tag = .shuffle) → s'.x = s.x → s'.terminate = (s.terminate || e.2 || g.2) → s'.i = s.i →
      s'.batchSize = s.batchSize → s'.epoch = s.epoch + 1 →
      (s.i ≠ p.actualMax → s'.cur = 0 ∧ s'.overall = env.zero ∧ s'.last = s.overall) →
      (s.i = p.actualMax → s'.overall = s.overall) → RInv env p x₀ B₀ s' := by
    intro s' tag hl hvv ht e1 e2 e3 e4 e5 e6 e7
    refine ⟨hl, ?_, ?_, ?_, ?_, ?_, by rw [e4]; exact h.pos, ?_, ?_, fun hlt => ?_, ?_, fun hlt => ?_, ?_, ?_, ?_⟩
    · rw [hvv, e1]; exact h.x
    · rw [hvv, e2]
    · rw [hvv, e3]; exact h.moved
    · rw [hvv, e3]; exact h.grads
    · rw [hvv, e4]; exact h.batch
    · rw [hvv, e5, h.epoch]; simp
    · rw [hvv, e3, h2, a2, ← h5]; simp
    · rw [(e6 (by omega)).1, e3, h2, a3]
    · unfold View.returned View.lastSum
      rw [hvv]
      dsimp only
      rw [h.moved]
      by_cases hi : s.i = p.actualMax
      · rw [if_pos ⟨hi, by rw [h2, a3]⟩, e7 hi]; simp
      · rw [if_neg fun hh => hi hh.1, (e6 hi).2.1]
    · rw [(e6 (by omega)).2.2, hvv]; simp [View.lastSum]
    · rw [hvv]; exact hpass
    · rw [e3]
      intro hov
      have := h.over hov
      rw [Nat.mod_eq_of_lt this] at hm
      omega
    · rw [hvv]; rcases ht with rfl | rfl <;> simp [Tag.then]
  have hshuf : ∀ hs : p.shuffle = true, Along (Law env p x₀ B₀) (s.trace ++ [.endEpoch s.epoch (env.divN s.overall p.numFunctions) e.2] ++
      [.beginEpoch (s.epoch + 1) s.overall g.2] ++ [.shuffle]) ∧
      view env x₀ B₀ (s.trace ++ [.endEpoch s.epoch (env.divN s.overall p.numFunctions) e.2] ++
      [.beginEpoch (s.epoch + 1) s.overall g.2] ++ [.shuffle]) = { view env x₀ B₀ s.trace with
          stop := s.terminate || e.2 || g.2,
          sum := env.zero, finished := (view env x₀ B₀ s.trace).finished ++ [s.overall], tag := .shuffle } := by
    intro hs
    rw [along_snoc, view_snoc, hv2]
    exact ⟨⟨hlaw2, hs, by rw [hv2]; rfl⟩, rfl⟩
  by_cases hi : s.i = p.actualMax
  · rw [if_neg (show ¬ (s.i ≠ p.actualMax) by simp [hi])]
    by_cases hs : p.shuffle = true
    · rw [if_pos hs]
      exact key _ .shuffle (hshuf hs).1 (hshuf hs).2 (Or.inr rfl) rfl rfl rfl rfl rfl (fun h => absurd hi h) (fun _ => rfl)
    · rw [if_neg hs]
      exact key _ .beginEpoch hlaw2 hv2 (Or.inl rfl) rfl rfl rfl rfl rfl (fun h => absurd hi h) (fun _ => rfl)
  · rw [if_pos (show s.i ≠ p.actualMax from hi)]
    by_cases hs : p.shuffle = true
    · rw [if_pos hs]
      exact key _ .shuffle (hshuf hs).1 (hshuf hs).2 (Or.inr rfl) rfl rfl rfl rfl rfl (fun _ => ⟨rfl, rfl, rfl⟩) (fun h => absurd h hi)
    · rw [if_neg hs]
      exact key _ .beginEpoch hlaw2 hv2 (Or.inl rfl) rfl rfl rfl rfl rfl (fun _ => ⟨rfl, rfl, rfl⟩) (fun h => absurd h hi)

theorem loop_run {env : Env W M G E R} {p : Params} {x₀ : M} {B₀ : Nat} (hn : p.numFunctions ≠ 0) :
    ∀ (fuel : Nat) (s : St W M E), RInv env p x₀ B₀ s → ∀ e s', loop env p fuel s = .done e s' → RDone env p x₀ B₀ e s' := by
  intro fuel
  induction fuel with
  | zero => intro s _ e s' h; cases h
  | succ fuel ih =>
    intro s hs e s' h
    rw [loop] at h
    by_cases hc : s.i < p.actualMax ∧ s.terminate = false
    · rw [if_pos hc] at h
      unfold body at h
      cases hb : estimate env p s with
      | none => rw [hb] at h; cases h
      | some b =>
        rw [hb] at h
        have he := estimate_run hn hs hc.1 hb
        by_cases ht : b.terminate = true
        · simp only [ht, if_true] at h
          cases h
          refine ⟨he.law, ?_, ?_, ?_, ?_, (fun h => by cases h), (fun h => by cases h), fun _ => ⟨?_, ?_, ?_, ?_, ?_, ?_⟩⟩
          all_goals dsimp only; try rw [he.view]
          · exact hs.x
          · dsimp only; rw [hs.batch]; exact he.size
          · have := he.size; have := hs.pos; omega
          · rfl
          · exact hs.pass
          · rw [hs.sum]; rfl
          · exact Or.inl ht
          · rfl
          · simp
          · dsimp only; rw [hs.moved]; exact hs.over
        · have ht' : b.terminate = false := by simpa using ht
          have hT := stepPart_test hs hc.1 he ht'
          simp only [ht', Bool.false_eq_true, if_false, hn] at h
          by_cases hm : (stepPart env s b).cur % p.numFunctions = 0
          · rw [if_pos hm] at h
            rcases epochEnd_run hn hT hm with ⟨s1, h1, h2⟩ | ⟨e1, s1, h1, h2⟩
            · rw [h1] at h; exact ih s1 h2 e s' h
            · rw [h1] at h; cases h; exact h2
          · rw [if_neg hm] at h
            exact ih _ (test_inv hn hT hm) e s' h
    · rw [if_neg hc] at h
      cases h
      refine ⟨hs.law, hs.x, Nat.le_of_eq hs.batch, hs.pos, hs.head.2.2.1, (fun h => by cases h), (fun h => by cases h),
        fun _ => ⟨hs.pass, hs.sum, ?_, hs.head.2.1, hs.head.2.2.2, by rw [hs.moved]; exact hs.over⟩⟩
      rw [hs.stop, hs.moved]
      by_cases hi : s.i < p.actualMax
      · left; simpa using fun h => hc ⟨hi, h⟩
      · right; omega

theorem exactLoop_run {env : Env W M G E R} {p : Params} {x₀ : M} {B₀ : Nat} (hx : p.exactObjective = true) :
    ∀ (fuel i : Nat) (s s' : St W M E), exactLoop env p fuel i s = some s' → Along (Law env p x₀ B₀) s.trace →
      (view env x₀ B₀ s.trace).x = s.x → 0 < s.batchSize → (view env x₀ B₀ s.trace).tag.then .evaluate = true →
      (view env x₀ B₀ s.trace).tag.then .endOpt = true → (view env x₀ B₀ s.trace).tag ≠ .stepTaken →
      Along (Law env p x₀ B₀) s'.trace ∧ s'.x = s.x ∧ (view env x₀ B₀ s'.trace).x = s.x ∧ s'.batchSize = s.batchSize ∧
        (view env x₀ B₀ s'.trace).tag.then .endOpt = true ∧
        ∃ t, s'.trace = s.trace ++ t ∧ Final env p s.x s.batchSize i s.overall t s'.overall := by
  intro fuel
  induction fuel with
  | zero =>
    intro i s s' h h1 h2 h3 h4 h5 h6
    rw [exactLoop] at h
    split at h
    · cases h
    · cases h
      exact ⟨h1, rfl, h2, rfl, h5, [], by simp, .done (by omega)⟩
  | succ fuel ih =>
    intro i s s' h h1 h2 h3 h4 h5 h6
    rw [exactLoop] at h
    by_cases hi : i < p.numFunctions
    · rw [if_pos hi] at h
      dsimp only at h
      generalize env.evaluate s.w s.x i (min s.batchSize (p.numFunctions - i)) = o at h
      generalize env.cbEvaluate o.1 s.x o.2 = c at h
      have hv : view env x₀ B₀ (s.trace ++ [.evaluate s.x i (min s.batchSize (p.numFunctions - i)) o.2, .cbEvaluate c.2]) =
          { view env x₀ B₀ s.trace with
              sum := env.add (view env x₀ B₀ s.trace).sum o.2,
              stop := (view env x₀ B₀ s.trace).stop || c.2, tag := .cbEvaluate } := by
        rw [show ∀ a b : Ev M E, s.trace ++ [a, b] = (s.trace ++ [a]) ++ [b] by simp, view_snoc, view_snoc]; rfl
      have hl : Along (Law env p x₀ B₀)
          (s.trace ++ [.evaluate s.x i (min s.batchSize (p.numFunctions - i)) o.2, .cbEvaluate c.2]) := by
        rw [along_snoc₂]
        refine ⟨h1, ⟨⟨h2.symm, by omega, by omega, Or.inr ⟨h6, hx⟩⟩, h4⟩, trivial, ?_⟩
        rw [view_snoc]; rfl
      obtain ⟨b1, b2, b3, b4, b5, t, b6, b7⟩ := ih _ _ s' h hl (by dsimp only; rw [hv]; exact h2) h3 (by dsimp only; rw [hv]; rfl)
        (by dsimp only; rw [hv]; rfl) (by dsimp only; rw [hv]; simp)
      refine ⟨b1, b2, b3, b4, b5, _, ?_, .batch o.2 c.2 hi b7⟩
      rw [b6]; simp
    · rw [if_neg hi] at h
      cases h
      exact ⟨h1, rfl, h2, rfl, h5, [], by simp, .done (by omega)⟩

/-- A whole run, in terms of the view of the events before a final pass `ex`. -/
theorem optimize_run (env : Env W M G E R) (p : Params) (B₀ : Nat) (hB₀ : 0 < B₀) (fuel : Nat) (w : W) (x : M) (hn : p.numFunctions ≠ 0)
    (r : Result M E) (hr : optimize env p fuel B₀ w x = some r) :
    Along (Law env p x B₀) r.trace ∧ ∃ t ex, r.trace = t ++ ex ++ [.endOpt r.x] ∧ (view env x B₀ t).x = r.x ∧
      (view env x B₀ t).batch ≤ r.batchSize ∧
      (r.exit = .bad → ex = [] ∧ ∃ vs, (view env x B₀ t).finished = vs ++ [r.obj] ∧ Passes env env.dblMax vs ∧
        env.isBad r.obj = true ∧ (view env x B₀ t).tag = .endEpoch) ∧
      (r.exit = .tol → ex = [] ∧ ∃ vs, (view env x B₀ t).finished = vs ++ [r.obj] ∧ Passes env env.dblMax vs ∧
        env.isBad r.obj = false ∧ env.isClose (vs.getLast?.getD env.dblMax) r.obj = true ∧ (view env x B₀ t).tag = .endEpoch) ∧
      (r.exit = .loop → Passes env env.dblMax (view env x B₀ t).finished ∧
        ((view env x B₀ t).stop = true ∨ p.actualMax ≤ (view env x B₀ t).moved) ∧
        (p.actualMax < (view env x B₀ t).moved → (view env x B₀ t).moved % p.numFunctions ≠ 0) ∧
        (p.exactObjective = false → ex = [] ∧ r.obj = (view env x B₀ t).returned env p) ∧
        (p.exactObjective = true → Final env p r.x r.batchSize 0 env.zero ex r.obj)) := by
  unfold optimize at hr
  cases hl : loop env p fuel (start env B₀ w x) with
  | ub => rw [hl] at hr; cases hr
  | running s => rw [hl] at hr; cases hr
  | done e s =>
    have hd := loop_run hn fuel _ (start_rinv env p B₀ hB₀ w x) e s hl
    rw [hl] at hr
    have hplain : Along (Law env p x B₀) (s.trace ++ [.endOpt s.x]) := by
      rw [along_snoc]; exact ⟨hd.law, hd.x.symm, hd.tail⟩
    cases e with
    | bad =>
      cases hr
      exact ⟨hplain, s.trace, [], by simp [finish], hd.x, hd.batch, fun _ => ⟨rfl, hd.bad rfl⟩, (fun h => by cases h), (fun h => by cases h)⟩
    | tol =>
      cases hr
      exact ⟨hplain, s.trace, [], by simp [finish], hd.x, hd.batch, (fun h => by cases h), fun _ => ⟨rfl, hd.tol rfl⟩, (fun h => by cases h)⟩
    | loop =>
      obtain ⟨d1, d2, d3, d4, d5, d6⟩ := hd.loop rfl
      dsimp only at hr
      by_cases hx : p.exactObjective = true
      · rw [if_pos hx] at hr
        obtain ⟨s', hs', hr⟩ := Option.map_eq_some_iff.1 hr
        obtain ⟨b1, b2, b3, b4, b5, t, b6, b7⟩ := exactLoop_run (x₀ := x) (B₀ := B₀) hx _ _ _ _ hs' hd.law hd.x hd.pos d4 hd.tail d5
        subst hr
        refine ⟨?_, s.trace, t, ?_, ?_, ?_, (fun h => by cases h), (fun h => by cases h), fun _ => ⟨d1, d3, d6, ?_, fun _ => ?_⟩⟩
        · show Along _ (s'.trace ++ [.endOpt s'.x])
          rw [along_snoc]; exact ⟨b1, by show s'.x = _; rw [b3, b2], b5⟩
        · show s'.trace ++ _ = _
          rw [b6]; rfl
        · rw [hd.x]; exact b2.symm
        · show _ ≤ s'.batchSize
          rw [b4]; exact hd.batch
        · intro h; rw [hx] at h; cases h
        · show Final env p s'.x s'.batchSize 0 env.zero t s'.overall
          rw [b2, b4]; exact b7
      · rw [if_neg hx] at hr
        cases hr
        exact ⟨hplain, s.trace, [], by simp [finish], hd.x, hd.batch, (fun h => by cases h), (fun h => by cases h),
          fun _ => ⟨d1, d3, d6, fun _ => ⟨rfl, d2⟩, fun h => absurd h hx⟩⟩

/-- **C179** (shape of a run). In every run that ends, every event is one the law allows after the events before it: every gradient,
policy call, step and evaluation is at the coordinates the previous events left; a step is taken only while no callback has asked to
stop, starts at the function where the last one ended, has as many functions as gradients were computed for it, keeps within the
iteration limit unless the batch has just grown, and is followed by an evaluation of the same functions at the new coordinates; an epoch
ends exactly when all functions have been stepped on once more, with its number and the average of its objectives. -/
theorem C179_shape (env : Env W M G E R) (p : Params) (B₀ : Nat) (hB₀ : 0 < B₀) (fuel : Nat) (w : W) (x : M) (hn : p.numFunctions ≠ 0)
    (r : Result M E) (hr : optimize env p fuel B₀ w x = some r) :
    Along (Law env p x B₀) r.trace ∧ ∃ t, r.trace = t ++ [.endOpt r.x] ∧ ∀ e ∈ t, e.tag ≠ .endOpt := by
  obtain ⟨h1, t, ex, h2, _⟩ := optimize_run env p B₀ hB₀ fuel w x hn r hr
  refine ⟨h1, t ++ ex, h2, fun e he hne => ?_⟩
  obtain ⟨l1, l2, hl⟩ := List.append_of_mem he
  rw [hl] at h2
  rcases l2 with _ | ⟨a, l2⟩
  · have := (h1 (l1 ++ [e]) (.endOpt r.x) [] (by rw [h2])).2
    rw [view_snoc] at this
    simp only [View.next] at this
    cases e <;> simp_all [Ev.tag, Tag.then]
  · have := (h1 (l1 ++ [e]) a (l2 ++ [.endOpt r.x]) (by rw [h2]; simp)).2
    rw [view_snoc] at this
    simp only [View.next] at this
    cases e <;> simp_all [Ev.tag, Tag.then]

/-- **C180** (why a run ends). A run that reports failure ends at the first epoch whose sum is NaN or infinite, one that reports
convergence at the first epoch whose sum is within the tolerance of the sum of the epoch before, and both return that sum; any other run
ends because a callback asked for it or all iterations were used, having passed both tests at every epoch. -/
theorem C180_stopping (env : Env W M G E R) (p : Params) (B₀ : Nat) (hB₀ : 0 < B₀) (fuel : Nat) (w : W) (x : M) (hn : p.numFunctions ≠ 0)
    (r : Result M E) (hr : optimize env p fuel B₀ w x = some r) :
    ∃ t ex, r.trace = t ++ ex ++ [.endOpt r.x] ∧
      (r.exit = .bad → ex = [] ∧ ∃ vs, (view env x B₀ t).finished = vs ++ [r.obj] ∧ Passes env env.dblMax vs ∧
        env.isBad r.obj = true ∧ (view env x B₀ t).tag = .endEpoch) ∧
      (r.exit = .tol → ex = [] ∧ ∃ vs, (view env x B₀ t).finished = vs ++ [r.obj] ∧ Passes env env.dblMax vs ∧
        env.isBad r.obj = false ∧ env.isClose (vs.getLast?.getD env.dblMax) r.obj = true ∧ (view env x B₀ t).tag = .endEpoch) ∧
      (r.exit = .loop → Passes env env.dblMax (view env x B₀ t).finished ∧
        ((view env x B₀ t).stop = true ∨ p.actualMax ≤ (view env x B₀ t).moved) ∧
        (p.exactObjective = false → ex = [] ∧ r.obj = (view env x B₀ t).returned env p) ∧
        (p.exactObjective = true → Final env p r.x r.batchSize 0 env.zero ex r.obj)) := by
  obtain ⟨_, t, ex, h2, _, _, h5, h6, h7⟩ := optimize_run env p B₀ hB₀ fuel w x hn r hr
  exact ⟨t, ex, h2, h5, h6, fun h => ⟨(h7 h).1, (h7 h).2.1, (h7 h).2.2.2⟩⟩

/-- Sum of the objectives of the last epoch in which a step was taken, finished or not. -/
def View.recent (env : Env W M G E R) (p : Params) (v : View M E) : E :=
  if v.moved % p.numFunctions = 0 then v.lastSum env else v.sum

/-- **C181** (returned objective). Without `exactObjective`, a run which no callback stops, or which is stopped within an epoch, returns
the sum of the objectives of the last epoch. Missing: a run stopped by a callback at the end of an epoch, see `C181_returned_refuted`. -/
theorem C181_returned_partial (env : Env W M G E R) (p : Params) (B₀ : Nat) (hB₀ : 0 < B₀) (fuel : Nat) (w : W) (x : M)
    (hn : p.numFunctions ≠ 0) (hx : p.exactObjective = false) (r : Result M E) (hr : optimize env p fuel B₀ w x = some r) :
    ∃ t, r.trace = t ++ [.endOpt r.x] ∧
      ((view env x B₀ t).stop = false ∨ (view env x B₀ t).moved % p.numFunctions ≠ 0 → r.obj = (view env x B₀ t).recent env p) := by
  obtain ⟨hlaw, t, ex, h2, _, _, h5, h6, h7⟩ := optimize_run env p B₀ hB₀ fuel w x hn r hr
  have early : ∀ vs, ex = [] → (view env x B₀ t).finished = vs ++ [r.obj] → (view env x B₀ t).tag = .endEpoch →
      r.obj = (view env x B₀ t).recent env p := by
    intro vs hex hv ht
    subst hex
    rcases List.eq_nil_or_concat t with rfl | ⟨t', e, rfl⟩
    · cases ht
    · have hl := (hlaw t' e [.endOpt r.x] (by rw [h2]; simp)).1
      rw [List.concat_eq_append] at *
      rw [view_snoc] at ht hv ⊢
      cases e <;> simp only [View.next, Ev.tag, reduceCtorEq] at ht
      obtain ⟨_, l2, _⟩ := hl
      unfold View.recent
      rw [if_pos]
      · unfold View.lastSum; rw [hv]; simp
      · show (view env x B₀ t').moved % _ = 0
        rw [l2]; exact Nat.mul_mod_left _ _
  cases he : r.exit with
  | bad =>
    obtain ⟨rfl, vs, hv, _, _, ht⟩ := h5 he
    exact ⟨t, by simpa using h2, fun _ => early vs rfl hv ht⟩
  | tol =>
    obtain ⟨rfl, vs, hv, _, _, _, ht⟩ := h6 he
    exact ⟨t, by simpa using h2, fun _ => early vs rfl hv ht⟩
  | loop =>
    obtain ⟨_, h9, h10, h8, _⟩ := h7 he
    obtain ⟨rfl, h11⟩ := h8 hx
    refine ⟨t, by simpa using h2, fun h => ?_⟩
    rw [h11]; unfold View.returned View.recent
    by_cases hm : (view env x B₀ t).moved % p.numFunctions = 0
    · have hs : (view env x B₀ t).stop = false := by
        rcases h with h | h
        · exact h
        · exact absurd hm h
      have h12 : ¬ p.actualMax < (view env x B₀ t).moved := fun h => h10 h hm
      have h13 : (view env x B₀ t).moved = p.actualMax := by
        rw [hs] at h9
        rcases h9 with h9 | h9
        · cases h9
        · omega
      rw [if_pos hm, if_pos ⟨h13, hm⟩]
    · rw [if_neg hm, if_neg fun h' => hm h'.2]

/-- `demo`, whose callback asks to stop at the end of an epoch. -/
def demoStop : Env Unit Int Int Int Int := { demo with cbEndEpoch := fun _ _ _ _ => ((), true) }

/-- `demo` with a tolerance that is met at the second epoch. -/
def demoTol : Env Unit Int Int Int Int := { demo with isClose := fun a b => a == b }

/-- **C181** (refuted in general). A run that a callback stops at the end of an epoch returns 0, not the objective of that epoch (5). -/
theorem C181_returned_refuted :
    ¬ ∀ (env : Env Unit Int Int Int Int) (p : Params) (fuel B : Nat) (x : Int) (r : Result Int Int), 0 < B → p.numFunctions ≠ 0 →
      p.exactObjective = false → optimize env p fuel B () x = some r →
      ∃ t, r.trace = t ++ [.endOpt r.x] ∧ r.obj = (view env x B t).recent env p := by
  intro h
  cases hr : optimize demoStop ⟨5, 10, false, false⟩ 11 2 () 0 with
  | none => exact absurd (congrArg Option.isSome hr) (by decide +kernel)
  | some r =>
    obtain ⟨t, h1, h2⟩ := h demoStop ⟨5, 10, false, false⟩ 11 2 0 r (by decide) (by decide) (by decide) hr
    have h3 := congrArg List.dropLast h1
    rw [List.dropLast_concat] at h3
    rw [← h3] at h2
    have h4 : (optimize demoStop ⟨5, 10, false, false⟩ 11 2 () 0).map (fun r => decide (r.obj =
        (view demoStop 0 2 r.trace.dropLast).recent demoStop ⟨5, 10, false, false⟩)) = some false := by decide +kernel
    rw [hr] at h4
    simp only [Option.map_some, Option.some.injEq, decide_eq_false_iff_not] at h4
    exact h4 h2

/-- A run over two epochs with growth, which ends at the iteration limit. -/
example : (optimize demo ⟨5, 10, true, false⟩ 11 2 () 0).map (fun r => (r.exit, r.obj, r.batchSize,
    (view demo 0 2 r.trace).finished, (view demo 0 2 r.trace).moved, (view demo 0 2 r.trace).grads)) =
    some (.loop, 5, 3, [5, 5], 10, 10) := by decide +kernel

/-- A run which converges at its second epoch. -/
example : (optimize demoTol ⟨5, 100, true, true⟩ 101 2 () 0).map (fun r => (r.exit, r.obj, (view demoTol 0 2 r.trace).finished)) =
    some (.tol, 5, [5, 5]) := by decide +kernel

/-- A run with a final pass. -/
example : (optimize demoStop ⟨5, 100, true, true⟩ 101 2 () 0).map (fun r => (r.exit, r.obj, (view demoStop 0 2 r.trace).stop)) =
    some (.loop, 5, true) := by decide +kernel

end Ens.BigBatch
