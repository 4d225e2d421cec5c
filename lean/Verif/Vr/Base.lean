import Mathlib.Algebra.BigOperators.Group.List.Basic
import Verif.Trace
import Verif.Loop
import Verif.Sgd.Lemmas

/-
Shared parts of the variance-reduced optimizers SVRG, SARAH and Katyusha (`svrg/svrg_impl.hpp`, `sarah/sarah_impl.hpp`,
`katyusha/katyusha_impl.hpp`): user code as parameters, event trace, the loops over batches.
-/

namespace Ens.Vr

open Ens.Sgd (chunks chunks_cover)

/-- The separable function, the callbacks and the arithmetic. `X`: coordinates, `G`: gradients, `E`: numbers. -/
structure User (W X G E : Type) where
  n : Nat
  evaluate : W → X → Nat → Nat → W × E
  gradient : W → X → Nat → Nat → W × G
  shuffle : W → W
  cbBegin : W → X → W × X
  cbEval : W → X → E → W × Bool
  /-- may modify the gradient -/
  cbGrad : W → X → G → W × G × Bool
  /-- may modify the coordinates -/
  cbStep : W → X → W × X × Bool
  cbEnd : W → X → W × X
  addE : E → E → E
  zero : E
  /-- `isnan || isinf` -/
  isBad : E → Bool
  /-- `abs(last - overall) < tolerance` -/
  near : E → E → Bool
  dblMax : E
  addG : G → G → G
  divG : G → Nat → G

/-- Events of a run: evaluations and gradients of a batch (start, size), changes of the iterate, `StepTaken`
notifications, stop requests of callbacks. -/
inductive Ev where
  | eval (start size : Nat)
  | grad (start size : Nat)
  | step
  | told
  | stop
  deriving DecidableEq

/-- World, the local `terminate`, and the trace (ghost). -/
structure S (W : Type) where
  w : W
  term : Bool
  trace : List Ev

variable {W X G E : Type}

/-- Record an event and the answer of the callback. -/
def S.note (s : S W) (w : W) (e : Ev) (stop : Bool) : S W :=
  ⟨w, s.term || stop, s.trace ++ e :: (if stop then [.stop] else [])⟩

/-- `Evaluate` of a batch followed by `Callback::Evaluate` (`svrg_impl.hpp:139-144`). -/
def evalAt (u : User W X G E) (s : S W) (x : X) (p : Nat × Nat) : S W × E :=
  let r := u.evaluate s.w x p.1 p.2
  let c := u.cbEval r.1 x r.2
  (s.note c.1 (.eval p.1 p.2) c.2, r.2)

/-- `Gradient` of a batch followed by `Callback::Gradient` (`svrg_impl.hpp:184-186`). -/
def gradAt (u : User W X G E) (s : S W) (x : X) (p : Nat × Nat) : S W × G :=
  let r := u.gradient s.w x p.1 p.2
  let c := u.cbGrad r.1 x r.2
  (s.note c.1 (.grad p.1 p.2) c.2.2, c.2.1)

/-- `Gradient` of a batch without notification (`sarah_impl.hpp:143`). -/
def gradQuiet (u : User W X G E) (s : S W) (x : X) (p : Nat × Nat) : S W × G :=
  let r := u.gradient s.w x p.1 p.2
  (s.note r.1 (.grad p.1 p.2) false, r.2)

/-- `Gradient` of a batch whose value is used before `Callback::Gradient` is run (`katyusha_impl.hpp:163-167`): what the
callback makes of the gradient is dropped. -/
def gradLate (u : User W X G E) (s : S W) (x : X) (p : Nat × Nat) : S W × G :=
  ((gradAt u s x p).1, (u.gradient s.w x p.1 p.2).2)

/-- A step followed by `Callback::StepTaken`. -/
def stepAt (u : User W X G E) (s : S W) (x : X) : S W × X :=
  let c := u.cbStep s.w x
  ((s.note s.w .step false).note c.1 .told c.2.2, c.2.1)

/-- The batches of `for (f = 0; f < n; f += b)` with size `min(b, n - f)` (for `b > 0`). -/
def batchList (n b : Nat) : List (Nat × Nat) := chunks n b n 0

/-- The loop computing the objective (`svrg_impl.hpp:136-145, 251-263`). -/
def evalAll (u : User W X G E) (b : Nat) (s : S W) (x : X) : S W × E :=
  (batchList u.n b).foldl (fun a p => let r := evalAt u a.1 x p; (r.1, u.addE a.2 r.2)) (s, u.zero)

/-- The loop computing the full gradient (`svrg_impl.hpp:172-192`): the first batch at `x₁`, the others at `x₂`,
`rest` computes the gradient of a later batch. `none`: no functions (division by zero). -/
def fullGrad (u : User W X G E) (rest : S W → X → Nat × Nat → S W × G) (b : Nat) (s : S W) (x₁ x₂ : X) :
    Option (S W × G) :=
  match batchList u.n b with
  | [] => none
  | p :: ps =>
    let r := ps.foldl (fun a p => let r := rest a.1 x₂ p; (r.1, u.addG a.2 r.2)) (gradAt u s x₁ p)
    some (r.1, u.divG r.2 u.n)

/-! ### Traces -/

/-- Every batch is a legal non-empty range, and no step follows a stop request. -/
structure Sound (n : Nat) (s : S W) : Prop where
  stop : s.term = true ↔ Ev.stop ∈ s.trace
  law : Along (fun pre e => (e = .step → Ev.stop ∉ pre) ∧
    ∀ a k, e = .eval a k ∨ e = .grad a k → 1 ≤ k ∧ a + k ≤ n) s.trace

theorem note_sound {n : Nat} {s : S W} (h : Sound n s) (w : W) (e : Ev) (stop : Bool) (hne : e ≠ .stop)
    (hstep : e = .step → s.term = false)
    (hlegal : ∀ a k, e = .eval a k ∨ e = .grad a k → 1 ≤ k ∧ a + k ≤ n) : Sound n (s.note w e stop) := by
  have hs : e = .step → Ev.stop ∉ s.trace := fun he hm => by
    have := h.stop.2 hm; rw [hstep he] at this; cases this
  cases stop with
  | false =>
    refine ⟨?_, ?_⟩
    · simp only [S.note, Bool.or_false, Bool.false_eq_true, if_false, List.mem_append, List.mem_singleton]
      rw [h.stop]
      exact ⟨Or.inl, fun h => h.resolve_right (fun h => hne h.symm)⟩
    · simp only [S.note, Bool.false_eq_true, if_false]
      rw [along_snoc]
      exact ⟨h.law, hs, hlegal⟩
  | true =>
    refine ⟨?_, ?_⟩
    · simp [S.note]
    · simp only [S.note, if_true]
      rw [along_snoc₂]
      exact ⟨h.law, ⟨hs, hlegal⟩, by simp, by simp⟩

theorem batchList_legal {n b : Nat} (hb : 0 < b) : ∀ p ∈ batchList n b, 1 ≤ p.2 ∧ p.1 + p.2 ≤ n := by
  have : ∀ fuel i, ∀ p ∈ chunks n b fuel i, 1 ≤ p.2 ∧ p.1 + p.2 ≤ n := by
    intro fuel
    induction fuel with
    | zero => intro i p hp; simp [chunks] at hp
    | succ fuel ih =>
      intro i p hp
      rw [chunks] at hp
      split at hp
      · rcases List.mem_cons.1 hp with hp | hp
        · subst hp; dsimp only; omega
        · exact ih _ p hp
      · simp at hp
  exact this n 0

theorem evalAt_sound {u : User W X G E} {s : S W} (h : Sound u.n s) (x : X) {p : Nat × Nat}
    (hp : 1 ≤ p.2 ∧ p.1 + p.2 ≤ u.n) : Sound u.n (evalAt u s x p).1 := by
  apply note_sound h _ _ _ (by simp) (by simp)
  rintro a k (h | h)
  · cases h; exact hp
  · cases h

theorem gradAt_sound {u : User W X G E} {s : S W} (h : Sound u.n s) (x : X) {p : Nat × Nat}
    (hp : 1 ≤ p.2 ∧ p.1 + p.2 ≤ u.n) : Sound u.n (gradAt u s x p).1 := by
  apply note_sound h _ _ _ (by simp) (by simp)
  rintro a k (h | h)
  · cases h
  · cases h; exact hp

theorem gradQuiet_sound {u : User W X G E} {s : S W} (h : Sound u.n s) (x : X) {p : Nat × Nat}
    (hp : 1 ≤ p.2 ∧ p.1 + p.2 ≤ u.n) : Sound u.n (gradQuiet u s x p).1 := by
  apply note_sound h _ _ _ (by simp) (by simp)
  rintro a k (h | h)
  · cases h
  · cases h; exact hp

theorem stepAt_sound {u : User W X G E} {s : S W} (h : Sound u.n s) (ht : s.term = false) (x : X) :
    Sound u.n (stepAt u s x).1 :=
  note_sound (note_sound h _ _ _ (by simp) (fun _ => ht) (by rintro a k (h | h) <;> cases h)) _ _ _ (by simp)
    (by simp) (by rintro a k (h | h) <;> cases h)

theorem Sound.facts {n : Nat} {s : S W} (hs : Sound n s) :
    (∀ pre post, s.trace = pre ++ .step :: post → Ev.stop ∉ pre) ∧
    (∀ a k, (.eval a k ∈ s.trace ∨ .grad a k ∈ s.trace) → 1 ≤ k ∧ a + k ≤ n) := by
  refine ⟨fun pre post he => (hs.law pre .step post he).1 rfl, ?_⟩
  rintro a k (hm | hm)
  · obtain ⟨pre, post, he⟩ := List.append_of_mem hm
    exact (hs.law pre _ post he).2 a k (Or.inl rfl)
  · obtain ⟨pre, post, he⟩ := List.append_of_mem hm
    exact (hs.law pre _ post he).2 a k (Or.inr rfl)

theorem world_sound {n : Nat} {s : S W} (h : Sound n s) (w : W) : Sound n { s with w := w } := ⟨h.stop, h.law⟩

theorem evalAll_sound {u : User W X G E} {b : Nat} (hb : 0 < b) {s : S W} (h : Sound u.n s) (x : X) :
    Sound u.n (evalAll u b s x).1 := by
  unfold evalAll
  have : ∀ (l : List (Nat × Nat)) (a : S W × E), (∀ p ∈ l, 1 ≤ p.2 ∧ p.1 + p.2 ≤ u.n) → Sound u.n a.1 →
      Sound u.n (l.foldl (fun a p => let r := evalAt u a.1 x p; (r.1, u.addE a.2 r.2)) a).1 := by
    intro l
    induction l with
    | nil => intro a _ h; exact h
    | cons p ps ih =>
      intro a hl h
      rw [List.foldl_cons]
      exact ih _ (fun q hq => hl q (List.mem_cons_of_mem _ hq)) (evalAt_sound h x (hl p List.mem_cons_self))
  exact this _ _ (batchList_legal hb) h

theorem fullGrad_sound {u : User W X G E} {rest : S W → X → Nat × Nat → S W × G} {b : Nat} (hb : 0 < b)
    (hrest : ∀ s x p, Sound u.n s → 1 ≤ p.2 ∧ p.1 + p.2 ≤ u.n → Sound u.n (rest s x p).1) {s : S W}
    (h : Sound u.n s) (x₁ x₂ : X) {r : S W × G} (hr : fullGrad u rest b s x₁ x₂ = some r) : Sound u.n r.1 := by
  unfold fullGrad at hr
  have hl := batchList_legal (n := u.n) hb
  cases hbl : batchList u.n b with
  | nil => rw [hbl] at hr; cases hr
  | cons p ps =>
    rw [hbl] at hr hl
    have : ∀ (l : List (Nat × Nat)) (a : S W × G), (∀ p ∈ l, 1 ≤ p.2 ∧ p.1 + p.2 ≤ u.n) → Sound u.n a.1 →
        Sound u.n (l.foldl (fun a p => let r := rest a.1 x₂ p; (r.1, u.addG a.2 r.2)) a).1 := by
      intro l
      induction l with
      | nil => intro a _ h; exact h
      | cons p ps ih =>
        intro a hl h
        rw [List.foldl_cons]
        exact ih _ (fun q hq => hl q (List.mem_cons_of_mem _ hq)) (hrest _ _ _ h (hl p List.mem_cons_self))
    simp only [Option.some.injEq] at hr
    subst hr
    exact this ps _ (fun q hq => hl q (List.mem_cons_of_mem _ hq)) (gradAt_sound h x₁ (hl p List.mem_cons_self))

theorem fullGrad_some (u : User W X G E) (rest : S W → X → Nat × Nat → S W × G) {b : Nat} (hn : 0 < u.n) (s : S W)
    (x₁ x₂ : X) : ∃ r, fullGrad u rest b s x₁ x₂ = some r := by
  unfold fullGrad
  have : ∃ p ps, batchList u.n b = p :: ps := by
    unfold batchList
    obtain ⟨m, hm⟩ : ∃ m, u.n = m + 1 := ⟨u.n - 1, by omega⟩
    rw [hm, chunks, if_pos (by omega)]
    exact ⟨_, _, rfl⟩
  obtain ⟨p, ps, h⟩ := this
  rw [h]
  exact ⟨_, rfl⟩

/-! ### Values -/

/-- The user's function is a sum of `n` components visited in the order `perm w`, which evaluations do not change. -/
structure Separable [AddCommMonoid E] [AddCommMonoid G] (u : User W X G E) (φ : Nat → X → E) (γ : Nat → X → G)
    (perm : W → Nat → Nat) : Prop where
  addE : ∀ a b, u.addE a b = a + b
  zero : u.zero = 0
  addG : ∀ a b, u.addG a b = a + b
  eval : ∀ w x a k, (u.evaluate w x a k).2 = ((List.range' a k).map fun i => φ (perm w i) x).sum
  grad : ∀ w x a k, (u.gradient w x a k).2 = ((List.range' a k).map fun i => γ (perm w i) x).sum
  cbGrad : ∀ w x g, (u.cbGrad w x g).2.1 = g
  evalPerm : ∀ w x a k, perm (u.evaluate w x a k).1 = perm w
  gradPerm : ∀ w x a k, perm (u.gradient w x a k).1 = perm w
  cbEvalPerm : ∀ w x e, perm (u.cbEval w x e).1 = perm w
  cbGradPerm : ∀ w x g, perm (u.cbGrad w x g).1 = perm w
  isPerm : ∀ w, ((List.range u.n).map (perm w)).Perm (List.range u.n)

/-- The full objective. -/
def objective [AddCommMonoid E] (n : Nat) (φ : Nat → X → E) (x : X) : E := ((List.range n).map fun j => φ j x).sum

theorem sum_flatMap {M : Type} [AddCommMonoid M] (f : Nat → M) (l : List (Nat × Nat)) :
    (l.map fun p => ((List.range' p.1 p.2).map f).sum).sum = ((l.flatMap fun p => List.range' p.1 p.2).map f).sum := by
  induction l with
  | nil => simp
  | cons p ps ih => simp [ih]

theorem batch_sum {M : Type} [AddCommMonoid M] {n b : Nat} (hb : 0 < b) (f : Nat → M) :
    ((batchList n b).map fun p => ((List.range' p.1 p.2).map f).sum).sum = ((List.range n).map f).sum := by
  rw [sum_flatMap, batchList, chunks_cover n b hb n 0 (by omega), Nat.sub_zero, ← List.range_eq_range']

theorem perm_sum {M : Type} [AddCommMonoid M] {n : Nat} {perm : Nat → Nat}
    (h : ((List.range n).map perm).Perm (List.range n)) (f : Nat → M) :
    ((List.range n).map fun i => f (perm i)).sum = ((List.range n).map f).sum := by
  have := (h.map f).sum_eq
  rw [List.map_map] at this
  exact this

/-- The objective loop computes the full objective, for every batch size and visiting order. -/
theorem evalAll_value [AddCommMonoid E] [AddCommMonoid G] {u : User W X G E} {φ : Nat → X → E} {γ : Nat → X → G}
    {perm : W → Nat → Nat} (hu : Separable u φ γ perm) {b : Nat} (hb : 0 < b) (s : S W) (x : X) :
    (evalAll u b s x).2 = objective u.n φ x ∧ perm (evalAll u b s x).1.w = perm s.w := by
  have key : ∀ (l : List (Nat × Nat)) (a : S W × E),
      (l.foldl (fun a p => let r := evalAt u a.1 x p; (r.1, u.addE a.2 r.2)) a).2 =
        a.2 + (l.map fun p => ((List.range' p.1 p.2).map fun i => φ (perm a.1.w i) x).sum).sum ∧
      perm (l.foldl (fun a p => let r := evalAt u a.1 x p; (r.1, u.addE a.2 r.2)) a).1.w = perm a.1.w := by
    intro l
    induction l with
    | nil => intro a; simp
    | cons p ps ih =>
      intro a
      rw [List.foldl_cons]
      obtain ⟨h1, h2⟩ := ih ((evalAt u a.1 x p).1, u.addE a.2 (evalAt u a.1 x p).2)
      have hp : perm (evalAt u a.1 x p).1.w = perm a.1.w := by
        simp only [evalAt, S.note]
        rw [hu.cbEvalPerm, hu.evalPerm]
      refine ⟨?_, ?_⟩
      · have e : (evalAt u a.1 x p).2 = ((List.range' p.1 p.2).map fun i => φ (perm a.1.w i) x).sum := hu.eval _ _ _ _
        refine h1.trans ?_
        simp only [hp, e, hu.addE, List.map_cons, List.sum_cons, add_assoc]
      · exact h2.trans hp
  obtain ⟨h1, h2⟩ := key (batchList u.n b) (s, u.zero)
  refine ⟨?_, h2⟩
  refine h1.trans ?_
  simp only [hu.zero, zero_add]
  rw [batch_sum hb]
  exact perm_sum (hu.isPerm s.w) fun j => φ j x

/-- What `fullGrad` returns: the first batch at `x₁`, all others at `x₂`. -/
theorem fullGrad_value [AddCommMonoid E] [AddCommMonoid G] {u : User W X G E} {φ : Nat → X → E} {γ : Nat → X → G}
    {perm : W → Nat → Nat} (hu : Separable u φ γ perm) {rest : S W → X → Nat × Nat → S W × G} {b : Nat} (hb : 0 < b)
    (hrest : ∀ s x p, (rest s x p).2 = ((List.range' p.1 p.2).map fun i => γ (perm s.w i) x).sum ∧
      perm (rest s x p).1.w = perm s.w) {s : S W} {x₁ x₂ : X} {r : S W × G}
    (hr : fullGrad u rest b s x₁ x₂ = some r) :
    r.2 = u.divG (((List.range (min b u.n)).map fun i => γ (perm s.w i) x₁).sum +
      ((List.range' (min b u.n) (u.n - min b u.n)).map fun i => γ (perm s.w i) x₂).sum) u.n ∧
    perm r.1.w = perm s.w := by
  have key : ∀ (l : List (Nat × Nat)) (a : S W × G),
      (l.foldl (fun a p => let r := rest a.1 x₂ p; (r.1, u.addG a.2 r.2)) a).2 =
        a.2 + (l.map fun p => ((List.range' p.1 p.2).map fun i => γ (perm a.1.w i) x₂).sum).sum ∧
      perm (l.foldl (fun a p => let r := rest a.1 x₂ p; (r.1, u.addG a.2 r.2)) a).1.w = perm a.1.w := by
    intro l
    induction l with
    | nil => intro a; simp
    | cons p ps ih =>
      intro a
      rw [List.foldl_cons]
      obtain ⟨h1, h2⟩ := ih ((rest a.1 x₂ p).1, u.addG a.2 (rest a.1 x₂ p).2)
      obtain ⟨e, hp⟩ := hrest a.1 x₂ p
      refine ⟨?_, h2.trans hp⟩
      refine h1.trans ?_
      simp only [hp, e, hu.addG, List.map_cons, List.sum_cons, add_assoc]
  unfold fullGrad at hr
  by_cases hn : u.n = 0
  · have : batchList u.n b = [] := by rw [batchList, hn]; rfl
    rw [this] at hr; cases hr
  obtain ⟨m, hm⟩ : ∃ m, u.n = m + 1 := ⟨u.n - 1, by omega⟩
  have hbl : batchList u.n b = (0, min b u.n) :: chunks u.n b m b := by
    rw [batchList]
    conv_lhs => rw [show chunks u.n b u.n 0 = chunks u.n b (m + 1) 0 by rw [hm]]
    rw [chunks, if_pos (by omega), Nat.zero_add, Nat.sub_zero]
  rw [hbl] at hr
  simp only [Option.some.injEq] at hr
  subst hr
  obtain ⟨h1, h2⟩ := key (chunks u.n b m b) (gradAt u s x₁ (0, min b u.n))
  have hg : perm (gradAt u s x₁ (0, min b u.n)).1.w = perm s.w := by
    simp only [gradAt, S.note]
    rw [hu.cbGradPerm, hu.gradPerm]
  have e0 : (gradAt u s x₁ (0, min b u.n)).2 =
      ((List.range (min b u.n)).map fun i => γ (perm s.w i) x₁).sum := by
    simp only [gradAt]
    rw [hu.cbGrad, hu.grad, List.range_eq_range']
  refine ⟨?_, h2.trans hg⟩
  simp only
  refine congrArg (fun g => u.divG g u.n) (h1.trans ?_)
  rw [hg, e0, sum_flatMap, chunks_cover u.n b hb m b (by omega)]
  rcases Nat.le_total b u.n with h | h
  · rw [min_eq_left h]
  · rw [min_eq_right h, Nat.sub_self, Nat.sub_eq_zero_of_le h]
    rfl

theorem gradAt_rest [AddCommMonoid E] [AddCommMonoid G] {u : User W X G E} {φ : Nat → X → E} {γ : Nat → X → G}
    {perm : W → Nat → Nat} (hu : Separable u φ γ perm) (s : S W) (x : X) (p : Nat × Nat) :
    (gradAt u s x p).2 = ((List.range' p.1 p.2).map fun i => γ (perm s.w i) x).sum ∧
      perm (gradAt u s x p).1.w = perm s.w := by
  simp only [gradAt, S.note]
  rw [hu.cbGrad, hu.grad, hu.cbGradPerm, hu.gradPerm]
  exact ⟨rfl, rfl⟩

theorem gradLate_rest [AddCommMonoid E] [AddCommMonoid G] {u : User W X G E} {φ : Nat → X → E} {γ : Nat → X → G}
    {perm : W → Nat → Nat} (hu : Separable u φ γ perm) (s : S W) (x : X) (p : Nat × Nat) :
    (gradLate u s x p).2 = ((List.range' p.1 p.2).map fun i => γ (perm s.w i) x).sum ∧
      perm (gradLate u s x p).1.w = perm s.w :=
  ⟨hu.grad _ _ _ _, (gradAt_rest hu s x p).2⟩

theorem gradQuiet_rest [AddCommMonoid E] [AddCommMonoid G] {u : User W X G E} {φ : Nat → X → E} {γ : Nat → X → G}
    {perm : W → Nat → Nat} (hu : Separable u φ γ perm) (s : S W) (x : X) (p : Nat × Nat) :
    (gradQuiet u s x p).2 = ((List.range' p.1 p.2).map fun i => γ (perm s.w i) x).sum ∧
      perm (gradQuiet u s x p).1.w = perm s.w := by
  simp only [gradQuiet, S.note]
  rw [hu.grad, hu.gradPerm]
  exact ⟨rfl, rfl⟩

/-- With `x₁ = x₂` the full gradient is the average over all components, for every batch size and order. -/
theorem fullGrad_average [AddCommMonoid E] [AddCommMonoid G] {u : User W X G E} {φ : Nat → X → E} {γ : Nat → X → G}
    {perm : W → Nat → Nat} (hu : Separable u φ γ perm) {rest : S W → X → Nat × Nat → S W × G} {b : Nat} (hb : 0 < b)
    (hrest : ∀ s x p, (rest s x p).2 = ((List.range' p.1 p.2).map fun i => γ (perm s.w i) x).sum ∧
      perm (rest s x p).1.w = perm s.w) {s : S W} {x : X} {r : S W × G}
    (hr : fullGrad u rest b s x x = some r) : r.2 = u.divG (objective u.n γ x) u.n ∧ perm r.1.w = perm s.w := by
  obtain ⟨h1, h2⟩ := fullGrad_value hu hb hrest hr
  refine ⟨?_, h2⟩
  rw [h1, List.range_eq_range', ← List.sum_append, ← List.map_append]
  have : List.range' 0 (min b u.n) ++ List.range' (min b u.n) (u.n - min b u.n) = List.range u.n := by
    have := List.range'_append_1 (s := 0) (m := min b u.n) (n := u.n - min b u.n)
    rw [Nat.zero_add] at this
    rw [this, show min b u.n + (u.n - min b u.n) = u.n by omega, ← List.range_eq_range']
  rw [this, perm_sum (hu.isPerm s.w) fun j => γ j x]
  rfl

end Ens.Vr
