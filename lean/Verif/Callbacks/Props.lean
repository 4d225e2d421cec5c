import Mathlib.Analysis.Normed.Module.Basic
import Mathlib.Order.Lattice
import Mathlib.Data.List.Basic
import Verif.Common
import Verif.Callbacks.Model

/-
Properties C01-C07 (dispatch, EarlyStopAtMinLoss, StoreBestCoordinates, gradient clipping,
QueryFront).
-/

namespace Ens.Callbacks

variable {S : Type}

/-! ### Specification of a notification

The specification talks only about the individual handlers: the state the `k`-th callback sees is
the one left behind by callbacks `0 .. k-1`, and its answer is what its method returns there. -/

/-- State after the first `k` callbacks have all been run. -/
def stateBefore (cbs : List (Handler S)) (s : S) (k : Nat) : S :=
  (cbs.take k).foldl (fun s h => (h.call s).1) s

/-- The answer of callback `k` in that state (`false` if there is no such callback). -/
def answer (cbs : List (Handler S)) (s : S) (k : Nat) : Bool :=
  match cbs[k]? with
  | some h => (h.call (stateBefore cbs s k)).2
  | none => false

/-- Does callback `k` implement the method? -/
def hasMethod (cbs : List (Handler S)) (k : Nat) : Bool :=
  match cbs[k]? with
  | some h => h.exists?
  | none => false

/-- `r`/`s'`/`t` is the outcome of one notification: for some number `K` of callbacks reached, they
were run in order, all but possibly the last one answered "continue", and the notification stops iff
the last one asked to; if nobody asked to stop everybody was reached. -/
def NotifiedInOrder (cbs : List (Handler S)) (s s' : S) (r : Bool) (t : List Nat) : Prop :=
  ∃ K, K ≤ cbs.length ∧
    s' = stateBefore cbs s K ∧
    t = (List.range K).filter (hasMethod cbs) ∧
    (∀ k, k + 1 < K → answer cbs s k = false) ∧
    (r = true → 0 < K ∧ answer cbs s (K - 1) = true) ∧
    (r = false → K = cbs.length ∧ ∀ k, answer cbs s k = false)

theorem stateBefore_append (cbs : List (Handler S)) (h : Handler S) (s : S) {k : Nat}
    (hk : k ≤ cbs.length) : stateBefore (cbs ++ [h]) s k = stateBefore cbs s k := by
  simp [stateBefore, List.take_append_of_le_length hk]

theorem answer_append_lt (cbs : List (Handler S)) (h : Handler S) (s : S) {k : Nat}
    (hk : k < cbs.length) : answer (cbs ++ [h]) s k = answer cbs s k := by
  simp only [answer, List.getElem?_append_left hk, stateBefore_append _ _ _ (Nat.le_of_lt hk)]

theorem answer_append_eq (cbs : List (Handler S)) (h : Handler S) (s : S) :
    answer (cbs ++ [h]) s cbs.length = (h.call (stateBefore cbs s cbs.length)).2 := by
  simp [answer, stateBefore_append]

theorem answer_ge (cbs : List (Handler S)) (s : S) {k : Nat}
    (hk : cbs.length ≤ k) : answer cbs s k = false := by
  simp [answer, List.getElem?_eq_none hk]

theorem hasMethod_append_lt (cbs : List (Handler S)) (h : Handler S) {k : Nat}
    (hk : k < cbs.length) : hasMethod (cbs ++ [h]) k = hasMethod cbs k := by
  simp [hasMethod, List.getElem?_append_left hk]

theorem dispatch_snoc (cbs : List (Handler S)) (h : Handler S) (s : S) :
    dispatch (cbs ++ [h]) s = dispatchOne (dispatch cbs s) (h, cbs.length) := by
  simp [dispatch, List.zipIdx_append, List.foldl_append]

theorem filter_range_congr {K : Nat} {p q : Nat → Bool} (h : ∀ k < K, p k = q k) :
    (List.range K).filter p = (List.range K).filter q :=
  List.filter_congr (fun x hx => h x (List.mem_range.1 hx))

/-- **C01** (bool notifications).  Whatever the callbacks do, one notification runs them in order,
stops at the first that asks to stop, reports "stop" exactly in that case, and otherwise reaches all
of them. -/
theorem C01_dispatch_in_order (cbs : List (Handler S)) (s : S) :
    NotifiedInOrder cbs s (dispatch cbs s).st (dispatch cbs s).result (dispatch cbs s).trace := by
  induction cbs using List.reverseRecOn with
  | nil =>
    refine ⟨0, by simp, by simp [dispatch, stateBefore], by simp [dispatch], by simp, ?_, ?_⟩
    · simp [dispatch]
    · intro _; exact ⟨rfl, fun k => by simp [answer]⟩
  | append_singleton cbs h ih =>
    obtain ⟨K, hK, hst, htr, hno, hyes, hfalse⟩ := ih
    rw [dispatch_snoc]
    cases hr : (dispatch cbs s).result with
    | true =>
      have hone : dispatchOne (dispatch cbs s) (h, cbs.length) = dispatch cbs s := by
        simp [dispatchOne, hr]
      obtain ⟨hK0, hans⟩ := hyes hr
      refine ⟨K, by simp; omega, ?_, ?_, ?_, ?_, ?_⟩
      · rw [hone, hst, stateBefore_append _ _ _ hK]
      · rw [hone, htr]
        exact filter_range_congr (fun k hk => (hasMethod_append_lt _ _ (by omega)).symm)
      · intro k hk; rw [answer_append_lt _ _ _ (by omega)]; exact hno k hk
      · intro _; exact ⟨hK0, by rw [answer_append_lt _ _ _ (by omega)]; exact hans⟩
      · rw [hone, hr]; simp
    | false =>
      obtain ⟨hKl, hall⟩ := hfalse hr
      subst hKl
      have hst' : (dispatchOne (dispatch cbs s) (h, cbs.length)).st
          = (h.call (stateBefore cbs s cbs.length)).1 := by
        simp [dispatchOne, hr, hst]
      have hres' : (dispatchOne (dispatch cbs s) (h, cbs.length)).result
          = answer (cbs ++ [h]) s cbs.length := by
        simp [dispatchOne, hr, hst, answer_append_eq]
      refine ⟨cbs.length + 1, by simp, ?_, ?_, ?_, ?_, ?_⟩
      · rw [hst', stateBefore, stateBefore, List.take_length,
          List.take_of_length_le (by simp), List.foldl_append]; rfl
      · have hm : hasMethod (cbs ++ [h]) cbs.length = h.exists? := by simp [hasMethod]
        rw [List.range_succ, List.filter_append,
          filter_range_congr (fun k hk => hasMethod_append_lt cbs h hk), ← htr]
        simp only [dispatchOne, hr]
        cases he : h.exists? <;> simp [hm, he]
      · intro k hk
        rw [answer_append_lt _ _ _ (by omega)]; exact hall k
      · intro ht; exact ⟨by omega, by rw [hres'] at ht; simpa using ht⟩
      · intro hf
        refine ⟨by simp, fun k => ?_⟩
        rcases Nat.lt_trichotomy k cbs.length with hk | hk | hk
        · rw [answer_append_lt _ _ _ hk]; exact hall k
        · subst hk; rw [hres'] at hf; exact hf
        · exact answer_ge _ _ (by simp; omega)

/-- **C01** A notification reports "stop" iff some callback, run in the state left by its
predecessors, answers "stop". -/
theorem C01_stop_iff (cbs : List (Handler S)) (s : S) :
    (dispatch cbs s).result = true ↔ ∃ k, k < cbs.length ∧ answer cbs s k = true := by
  obtain ⟨K, hK, _, _, _, hyes, hfalse⟩ := C01_dispatch_in_order cbs s
  constructor
  · intro h
    obtain ⟨h0, h1⟩ := hyes h
    exact ⟨K - 1, by omega, h1⟩
  · rintro ⟨k, _, hk⟩
    cases hr : (dispatch cbs s).result with
    | true => rfl
    | false => rw [(hfalse hr).2 k] at hk; exact absurd hk (by simp)

/-- **C01** A callback whose method returns `void` or is missing never asks to stop. -/
theorem C01_void_or_missing_never_stops (cbs : List (Handler S)) (s : S) (k : Nat)
    (h : cbs[k]? = some .none ∨ ∃ f, cbs[k]? = some (.void f)) : answer cbs s k = false := by
  rcases h with h | ⟨f, h⟩ <;> simp [answer, h, Handler.call]

/-- **C01** (`BeginOptimization`/`EndOptimization`).  Every callback is notified exactly once, in
order, whatever the others do. -/
theorem C01_begin_end_reach_everybody (cbs : List (Handler S)) (s : S) :
    dispatchAll cbs 0 s =
      (stateBefore cbs s cbs.length, (List.range cbs.length).filter (hasMethod cbs)) := by
  have gen : ∀ (l : List (Handler S)) (i : Nat) (s : S),
      dispatchAll l i s = (l.foldl (fun s h => (h.call s).1) s,
        ((List.range l.length).filter (hasMethod l)).map (· + i)) := by
    intro l
    induction l with
    | nil => intro i s; simp [dispatchAll]
    | cons h hs ih =>
      intro i s
      rw [dispatchAll, ih]
      have hm0 : hasMethod (h :: hs) 0 = h.exists? := by simp [hasMethod]
      have hmS : (hasMethod (h :: hs)) ∘ Nat.succ = hasMethod hs := by
        funext k; simp [hasMethod]
      have hrange : (List.range (h :: hs).length).filter (hasMethod (h :: hs))
          = (if h.exists? then [0] else []) ++
            ((List.range hs.length).filter (hasMethod hs)).map Nat.succ := by
        rw [List.length_cons, List.range_succ_eq_map, List.filter_cons, List.filter_map, hm0, hmS]
        cases h.exists? <;> simp
      rw [hrange]
      simp only [List.foldl_cons, List.map_append, List.map_map]
      have hfun : (fun x => x + i) ∘ Nat.succ = fun x => x + (i + 1) := by
        funext k; simp; omega
      rw [hfun]
      cases h.exists? <;> simp
  rw [gen]; simp [stateBefore]

/-- The three callbacks `[continue, missing, stop, continue]`: reached `0` and `2` only. -/
example :
    let cbs : List (Handler Nat) :=
      [.bool (fun s => (s + 1, false)), .none, .bool (fun s => (s + 10, true)),
       .bool (fun s => (s + 100, false))]
    (dispatch cbs 0).st = 11 ∧ (dispatch cbs 0).result = true ∧ (dispatch cbs 0).trace = [0, 2] := by
  decide

/-! ### C02 -/

theorem foldl_dispatchOne_true (l : List (Handler S × Nat)) (d : DState S) (h : d.result = true) :
    l.foldl dispatchOne d = d := by
  induction l with
  | nil => rfl
  | cons x xs ih => simp only [List.foldl_cons]; rw [show dispatchOne d x = d by simp [dispatchOne, h]]; exact ih

/-- **C02** One `EvaluateWithGradient` notification is the `Evaluate` notification followed, only if
nobody asked to stop, by the `Gradient` notification: all evaluation handlers come before all
gradient handlers in the order of entry, and no gradient handler runs after a stop. -/
theorem C02_evaluate_then_gradient (cbs : List (Handler S × Handler S)) (s : S) :
    (∃ t, NotifiedInOrder (cbs.map Prod.fst) s (dispatchEvalGrad cbs s).1 true t ∧
        (dispatchEvalGrad cbs s).2.1 = true ∧
        (dispatchEvalGrad cbs s).2.2 = t.map (Prod.mk Kind.eval)) ∨
    (∃ s₁ t₁ t₂, NotifiedInOrder (cbs.map Prod.fst) s s₁ false t₁ ∧
        NotifiedInOrder (cbs.map Prod.snd) s₁ (dispatchEvalGrad cbs s).1
          (dispatchEvalGrad cbs s).2.1 t₂ ∧
        (dispatchEvalGrad cbs s).2.2 = t₁.map (Prod.mk Kind.eval) ++ t₂.map (Prod.mk Kind.grad)) := by
  have h1 := C01_dispatch_in_order (cbs.map Prod.fst) s
  cases hr : (dispatch (cbs.map Prod.fst) s).result with
  | true =>
    left
    refine ⟨(dispatch (cbs.map Prod.fst) s).trace, ?_⟩
    rw [hr] at h1
    simp only [dispatchEvalGrad, hr]
    rw [foldl_dispatchOne_true _ _ rfl]
    exact ⟨h1, rfl, by simp⟩
  | false =>
    right
    rw [hr] at h1
    refine ⟨_, _, (dispatch (cbs.map Prod.snd) (dispatch (cbs.map Prod.fst) s).st).trace, h1, ?_, ?_⟩
    · have h2 := C01_dispatch_in_order (cbs.map Prod.snd) (dispatch (cbs.map Prod.fst) s).st
      simp only [dispatchEvalGrad, hr]
      exact h2
    · simp only [dispatchEvalGrad, hr]
      rfl

/-- A stop from the second evaluation handler: its own gradient handler is never entered. -/
example :
    (dispatchEvalGrad (S := Nat)
      [(.void (· + 1), .void (· + 100)), (.bool (fun s => (s, true)), .void (· + 100))] 0).2
      = (true, [(.eval, 0), (.eval, 1)]) := by decide

/-! ### C03: EarlyStopAtMinLoss -/

section EarlyStopProps
variable {E : Type} [LT E]

/-- Epoch `t` is a *record*: its loss is strictly below the initial maximum and strictly below every
earlier record. -/
def IsRecord (maxVal : E) (o : Nat → E) (t : Nat) : Prop :=
  o t < maxVal ∧ ∀ j, j < t → IsRecord maxVal o j → o t < o j
termination_by t

theorem isRecord_iff (maxVal : E) (o : Nat → E) (t : Nat) :
    IsRecord maxVal o t ↔ o t < maxVal ∧ ∀ j, j < t → IsRecord maxVal o j → o t < o j := by
  constructor
  · intro h; rw [IsRecord] at h; exact h
  · intro h; rw [IsRecord]; exact h

/-- The documented behaviour: stop at epoch `t` iff epoch `t` brought no record and the last
`patience` epochs (there must be that many) brought none either. -/
def ShouldStop (maxVal : E) (patience : Nat) (o : Nat → E) (t : Nat) : Prop :=
  ¬ IsRecord maxVal o t ∧ patience ≤ t + 1 ∧
    ∀ j, j ≤ t → t < j + patience → ¬ IsRecord maxVal o j

variable [DecidableLT E]

theorem EarlyStop.run_append (c : EarlyStop E) (l : List E) (x : E) :
    c.run (l ++ [x]) =
      (((c.run l).1.endEpoch x).1, (c.run l).2 ++ [((c.run l).1.endEpoch x).2]) := by
  induction l generalizing c with
  | nil => simp [EarlyStop.run]
  | cons y ys ih => simp only [List.cons_append, EarlyStop.run, ih]

/-- Invariant after `n` epochs. -/
structure EarlyStop.Inv (maxVal : E) (patience : Nat) (o : Nat → E) (n : Nat) (c : EarlyStop E) :
    Prop where
  pat : c.patience = patience
  le : c.steps ≤ n
  norec : ∀ j, j < n → n ≤ j + c.steps → ¬ IsRecord maxVal o j
  best : (c.steps = n ∧ c.bestObjective = maxVal) ∨
    (c.steps < n ∧ IsRecord maxVal o (n - c.steps - 1) ∧ c.bestObjective = o (n - c.steps - 1))
  lt_iff : ∀ x, x < c.bestObjective ↔
    (x < maxVal ∧ ∀ j, j < n → IsRecord maxVal o j → x < o j)

variable [StrictPO E]

theorem EarlyStop.inv (maxVal : E) (patience : Nat) (o : Nat → E) (n : Nat) :
    EarlyStop.Inv maxVal patience o n
      ((EarlyStop.init maxVal patience).run ((List.range n).map o)).1 := by
  induction n with
  | zero =>
    refine ⟨rfl, Nat.le_refl _, by omega, Or.inl ⟨rfl, rfl⟩, ?_⟩
    intro x; simp [EarlyStop.run, EarlyStop.init]
  | succ n ih =>
    rw [List.range_succ, List.map_append, List.map_cons, List.map_nil, EarlyStop.run_append]
    generalize ((EarlyStop.init maxVal patience).run ((List.range n).map o)).1 = c at ih ⊢
    by_cases hlt : o n < c.bestObjective
    · have hrec : IsRecord maxVal o n := (isRecord_iff _ _ _).2 ((ih.lt_iff _).1 hlt)
      have hc : (c.endEpoch (o n)).1 = { c with steps := 0, bestObjective := o n } := by
        simp [EarlyStop.endEpoch, hlt]
      rw [hc]
      refine ⟨ih.pat, Nat.zero_le _, ?_, Or.inr ⟨by simp, by simpa using hrec, by simp⟩, ?_⟩
      · intro j hj hj2; simp at hj2; omega
      · intro x
        constructor
        · intro hx
          have hx' : x < c.bestObjective := StrictPO.trans _ _ _ hx hlt
          have := (ih.lt_iff x).1 hx'
          refine ⟨this.1, fun j hj hr => ?_⟩
          rcases Nat.lt_succ_iff_lt_or_eq.1 hj with h | h
          · exact this.2 j h hr
          · subst h; exact hx
        · intro hx; exact hx.2 n (Nat.lt_succ_self n) hrec
    · have hnrec : ¬ IsRecord maxVal o n := fun h =>
        hlt ((ih.lt_iff _).2 ((isRecord_iff _ _ _).1 h))
      have hc : (c.endEpoch (o n)).1 = { c with steps := c.steps + 1 } := by
        simp only [EarlyStop.endEpoch, hlt, if_false]; split <;> rfl
      rw [hc]
      have hle := ih.le
      refine ⟨ih.pat, by simpa using hle, ?_, ?_, ?_⟩
      · intro j hj hj2
        simp only at hj2
        rcases Nat.lt_succ_iff_lt_or_eq.1 hj with h | h
        · exact ih.norec j h (by omega)
        · subst h; exact hnrec
      · rcases ih.best with ⟨h1, h2⟩ | ⟨h1, h2, h3⟩
        · exact Or.inl ⟨by simp [h1], h2⟩
        · right
          have he : n + 1 - (c.steps + 1) - 1 = n - c.steps - 1 := by omega
          exact ⟨by simp; omega, by simpa only [he] using h2, by simpa only [he] using h3⟩
      · intro x
        simp only
        rw [ih.lt_iff x]
        refine and_congr Iff.rfl ⟨fun h j hj hr => ?_, fun h j hj hr => h j (by omega) hr⟩
        rcases Nat.lt_succ_iff_lt_or_eq.1 hj with h' | h'
        · exact h j h' hr
        · subst h'; exact absurd hr hnrec

/-- **C03** Over any sequence `o` of epoch losses the answer at epoch `t` is "stop" exactly when the
documented patience rule says so. -/
theorem C03_early_stop_patience (maxVal : E) (patience : Nat) (o : Nat → E) (n t : Nat) (ht : t < n) :
    ((EarlyStop.init maxVal patience).run ((List.range n).map o)).2[t]? = some true ↔
      ShouldStop maxVal patience o t := by
  have key : ∀ n, ((EarlyStop.init maxVal patience).run ((List.range n).map o)).2.length = n ∧
      ∀ t, t < n → (((EarlyStop.init maxVal patience).run ((List.range n).map o)).2[t]? = some true ↔
        ShouldStop maxVal patience o t) := by
    intro n
    induction n with
    | zero => simp [EarlyStop.run]
    | succ n ih =>
      obtain ⟨hlen, ih⟩ := ih
      have inv := EarlyStop.inv maxVal patience o n
      rw [List.range_succ, List.map_append, List.map_cons, List.map_nil, EarlyStop.run_append]
      refine ⟨by simp [hlen], fun t ht => ?_⟩
      rcases Nat.lt_succ_iff_lt_or_eq.1 ht with h | h
      · simp only; rw [List.getElem?_append_left (by omega)]; exact ih t h
      · subst h
        simp only; rw [List.getElem?_append_right (by omega)]
        generalize ((EarlyStop.init maxVal patience).run ((List.range t).map o)).1 = c at inv ⊢
        simp only [hlen, Nat.sub_self, List.getElem?_cons_zero, Option.some.injEq]
        by_cases hlt : o t < c.bestObjective
        · have hrec : IsRecord maxVal o t := (isRecord_iff _ _ _).2 ((inv.lt_iff _).1 hlt)
          simp [EarlyStop.endEpoch, hlt, ShouldStop, hrec]
        · have hnrec : ¬ IsRecord maxVal o t := fun h =>
            hlt ((inv.lt_iff _).2 ((isRecord_iff _ _ _).1 h))
          have hval : (c.endEpoch (o t)).2 = true ↔ patience ≤ c.steps + 1 := by
            simp only [EarlyStop.endEpoch, hlt, if_false, inv.pat]
            split <;> simp_all
          rw [hval]
          have hle := inv.le
          constructor
          · intro hp
            refine ⟨hnrec, by omega, fun j hj hj2 => ?_⟩
            rcases Nat.lt_or_ge j t with h | h
            · exact inv.norec j h (by omega)
            · have : j = t := by omega
              subst this; exact hnrec
          · rintro ⟨_, hp, hall⟩
            rcases inv.best with ⟨h1, _⟩ | ⟨h1, h2, _⟩
            · omega
            · by_contra hcon
              exact hall (t - c.steps - 1) (by omega) (by omega) h2
  exact (key n).2 t ht

omit [DecidableLT E] [StrictPO E] in
/-- For patience at least 1 an improving epoch never stops the run. -/
theorem C03_never_stops_at_record (maxVal : E) (patience : Nat) (o : Nat → E) (t : Nat)
    (h : IsRecord maxVal o t) : ¬ ShouldStop maxVal patience o t := fun hs => hs.1 h

end EarlyStopProps

/-- Losses `9, 5, NaN, 6, 4`, patience 2: stop exactly at epoch 3 (two epochs without record). -/
example :
    ((EarlyStop.init (Dbl.fin 100) 2).run [.fin 9, .fin 5, .nan, .fin 6, .fin 4]).2
      = [false, false, false, true, false] := by decide

/-! ### C04, C05: StoreBestCoordinates -/

section StoreBestProps
variable {M E : Type} [LT E] [DecidableLT E] [StrictPO E]

/-- `(x, obj)` at the end of `pre` in `l` is the first best notification. -/
def FirstBest (maxVal : E) (l : List (M × E)) (x : M) (obj : E) : Prop :=
  obj < maxVal ∧ (∀ p ∈ l, ¬ p.2 < obj) ∧
    ∃ pre post, l = pre ++ (x, obj) :: post ∧ ∀ p ∈ pre, p.2 ≠ obj

omit [StrictPO E] in
theorem StoreBest.run_append (c : StoreBest M E) (l₁ l₂ : List (M × E)) :
    c.run (l₁ ++ l₂) = (c.run l₁).run l₂ := by simp [StoreBest.run]

/-- **C04** After any notification history the callback stores the first best notification, or
nothing if no reported objective was below the initial maximum. -/
theorem C04_store_best_first_minimum (maxVal : E) (l : List (M × E)) :
    ((StoreBest.init maxVal).run l = ⟨maxVal, none⟩ ∧ ∀ p ∈ l, ¬ p.2 < maxVal) ∨
    ∃ x obj, (StoreBest.init maxVal).run l = ⟨obj, some x⟩ ∧ FirstBest maxVal l x obj := by
  induction l using List.reverseRecOn with
  | nil => left; exact ⟨rfl, by simp⟩
  | append_singleton l p ih =>
    rw [StoreBest.run_append]
    rcases ih with ⟨h1, h2⟩ | ⟨x, obj, h1, h2, h3, pre, post, h4, h5⟩
    · rw [h1]
      by_cases hlt : p.2 < maxVal
      · right
        refine ⟨p.1, p.2, by simp [StoreBest.run, StoreBest.evaluate, hlt], hlt, ?_, l, [], rfl, ?_⟩
        · intro q hq
          rcases List.mem_append.1 hq with hq | hq
          · intro hlt'; exact h2 q hq (StrictPO.trans _ _ _ hlt' hlt)
          · rw [List.mem_singleton.1 hq]; exact StrictPO.irrefl _
        · intro q hq he; exact h2 q hq (he ▸ hlt)
      · left
        refine ⟨by simp [StoreBest.run, StoreBest.evaluate, hlt], ?_⟩
        intro q hq
        rcases List.mem_append.1 hq with hq | hq
        · exact h2 q hq
        · rw [List.mem_singleton.1 hq]; exact hlt
    · rw [h1]
      right
      by_cases hlt : p.2 < obj
      · refine ⟨p.1, p.2, by simp [StoreBest.run, StoreBest.evaluate, hlt],
          StrictPO.trans _ _ _ hlt h2, ?_, l, [], rfl, ?_⟩
        · intro q hq
          rcases List.mem_append.1 hq with hq | hq
          · intro hlt'; exact h3 q hq (StrictPO.trans _ _ _ hlt' hlt)
          · rw [List.mem_singleton.1 hq]; exact StrictPO.irrefl _
        · intro q hq he; exact h3 q hq (he ▸ hlt)
      · refine ⟨x, obj, by simp [StoreBest.run, StoreBest.evaluate, hlt], h2, ?_,
          pre, post ++ [p], by simp [h4], h5⟩
        intro q hq
        rcases List.mem_append.1 hq with hq | hq
        · exact h3 q hq
        · rw [List.mem_singleton.1 hq]; exact hlt

/-- The stored point after a first run `l₁` and a second run `l₂` with the same callback object. -/
def afterTwoRuns (maxVal : E) (l₁ l₂ : List (M × E)) : Option M :=
  (((StoreBest.init maxVal).run l₁).run l₂).coords

end StoreBestProps

example : FirstBest (Dbl.fin 100) [(0, Dbl.fin 7), (1, .nan), (2, .fin 3), (3, .fin 3)] 2 (.fin 3) := by
  refine ⟨by decide, by decide, [(0, Dbl.fin 7), (1, .nan)], [(3, .fin 3)], rfl, by decide⟩

/-- **C05** is false: the best point of an earlier run survives a later run that is worse. -/
theorem C05_reused_store_best_refuted :
    ¬ ∀ (l₁ l₂ : List (Nat × Nat)), l₂ ≠ [] →
        (∀ p ∈ l₂, p.2 < 100) → ∃ p ∈ l₂, afterTwoRuns 100 l₁ l₂ = some p.1 := by
  intro h
  obtain ⟨p, hp, he⟩ := h [(7, 1)] [(8, 2)] (by simp) (by simp)
  simp only [List.mem_singleton] at hp
  subst hp
  revert he; decide

/-- **C05**, the part that holds: the second run's best point is reported whenever the second run
reaches an objective strictly below everything the callback had stored before. -/
theorem C05_reused_store_best_partial {M E : Type} [LT E] [DecidableLT E] [StrictPO E]
    (maxVal : E) (l₁ l₂ : List (M × E))
    (h : ∃ p ∈ l₂, p.2 < ((StoreBest.init maxVal).run l₁ : StoreBest M E).bestObjective) :
    ∃ x obj, (x, obj) ∈ l₂ ∧ afterTwoRuns maxVal l₁ l₂ = some x ∧ ∀ q ∈ l₂, ¬ q.2 < obj := by
  have h4 := C04_store_best_first_minimum
    (((StoreBest.init maxVal).run l₁ : StoreBest M E).bestObjective) l₂
  -- running from the stored state only differs from a fresh one in the initial coordinates
  have key : ∀ (c d : StoreBest M E), c.bestObjective = d.bestObjective → ∀ l : List (M × E),
      (c.run l).bestObjective = (d.run l).bestObjective ∧
      ((∃ p ∈ l, p.2 < c.bestObjective) → (c.run l).coords = (d.run l).coords) := by
    intro c d hcd l
    induction l generalizing c d with
    | nil => exact ⟨by simpa [StoreBest.run] using hcd, by simp⟩
    | cons p ps ih =>
      have hb : (c.evaluate p.1 p.2).1.bestObjective = (d.evaluate p.1 p.2).1.bestObjective := by
        simp only [StoreBest.evaluate, hcd]; split <;> simp [hcd]
      obtain ⟨i1, i2⟩ := ih _ _ hb
      refine ⟨by simpa [StoreBest.run] using i1, ?_⟩
      intro hex
      by_cases hp : p.2 < c.bestObjective
      · have hp' : p.2 < d.bestObjective := hcd ▸ hp
        simp [StoreBest.run, StoreBest.evaluate, hp, hp']
      · have hp' : ¬ p.2 < d.bestObjective := hcd ▸ hp
        have hc : (c.evaluate p.1 p.2).1 = c := by simp [StoreBest.evaluate, hp]
        have hd : (d.evaluate p.1 p.2).1 = d := by simp [StoreBest.evaluate, hp']
        obtain ⟨q, hq, hql⟩ := hex
        have hq' : q ∈ ps := by
          rcases List.mem_cons.1 hq with rfl | hq
          · exact absurd hql hp
          · exact hq
        have := i2 (by rw [hc]; exact ⟨q, hq', hql⟩)
        simpa [StoreBest.run] using this
  have hk := (key ((StoreBest.init maxVal).run l₁)
    (StoreBest.init (((StoreBest.init maxVal).run l₁ : StoreBest M E).bestObjective)) rfl l₂)
  rcases h4 with ⟨_, h2⟩ | ⟨x, obj, h1, _, h3, pre, post, h5, _⟩
  · obtain ⟨p, hp, hlt⟩ := h; exact absurd hlt (h2 p hp)
  · refine ⟨x, obj, by rw [h5]; simp, ?_, h3⟩
    rw [afterTwoRuns, hk.2 h, h1]

example : ∃ p ∈ [(8, 0)], p.2 < ((StoreBest.init 100).run [(7, 1)] : StoreBest Nat Nat).bestObjective :=
  ⟨(8, 0), by simp, by decide⟩

/-! ### C06: GradClipByNorm -/

section ClipNorm
variable {V : Type} [NormedAddCommGroup V] [NormedSpace ℝ V]

/-- `GradClipByNorm::Gradient`, grad_clip_by_norm.hpp:43-52: `if (norm > maxNorm)
gradient = maxNorm * gradient / norm`.  `‖·‖` is `arma::norm` (Euclidean for vectors, spectral for
matrices), exact real arithmetic. -/
noncomputable def clipByNorm (maxNorm : ℝ) (g : V) : V :=
  open Classical in if maxNorm < ‖g‖ then (maxNorm / ‖g‖) • g else g

/-- **C06** Clipping by norm bounds the norm by `maxNorm`, returns a non-negative multiple of the
gradient, and does nothing to a gradient already within the bound. -/
theorem C06_clip_by_norm (maxNorm : ℝ) (hm : 0 ≤ maxNorm) (g : V) :
    ‖clipByNorm maxNorm g‖ ≤ maxNorm ∧
    (∃ c : ℝ, 0 ≤ c ∧ c ≤ 1 ∧ clipByNorm maxNorm g = c • g) ∧
    (‖g‖ ≤ maxNorm → clipByNorm maxNorm g = g) ∧
    (maxNorm ≤ ‖g‖ → ‖clipByNorm maxNorm g‖ = maxNorm) := by
  unfold clipByNorm
  split
  · rename_i h
    have hpos : 0 < ‖g‖ := lt_of_le_of_lt hm h
    have hnorm : ‖(maxNorm / ‖g‖) • g‖ = maxNorm := by
      rw [norm_smul, Real.norm_eq_abs, abs_of_nonneg (div_nonneg hm hpos.le),
        div_mul_cancel₀ _ hpos.ne']
    refine ⟨hnorm.le, ⟨maxNorm / ‖g‖, div_nonneg hm hpos.le, ?_, rfl⟩, ?_, fun _ => hnorm⟩
    · rw [div_le_one hpos]; exact h.le
    · intro h'; exact absurd h (not_lt.2 h')
  · rename_i h
    rw [not_lt] at h
    exact ⟨h, ⟨1, zero_le_one, le_refl _, (one_smul _ _).symm⟩, fun _ => rfl,
      fun h' => le_antisymm h h'⟩

/-- Clipping is idempotent. -/
theorem C06_clip_by_norm_idem (maxNorm : ℝ) (hm : 0 ≤ maxNorm) (g : V) :
    clipByNorm maxNorm (clipByNorm maxNorm g) = clipByNorm maxNorm g :=
  (C06_clip_by_norm maxNorm hm (clipByNorm maxNorm g)).2.2.1 (C06_clip_by_norm maxNorm hm g).1

example : clipByNorm (V := ℝ) 2 (-6) = -2 := by
  have h : (2 : ℝ) < ‖(-6 : ℝ)‖ := by norm_num
  unfold clipByNorm; rw [if_pos h]; norm_num

end ClipNorm

/-! ### C07: clipping by value -/

section ClipValue
variable {α : Type} [LinearOrder α]

/-- `arma::clamp` on one element, as used in grad_clip_by_value.hpp:47 and
gradient_clipping.hpp:104-106. -/
def clamp (lo hi x : α) : α := if x < lo then lo else if hi < x then hi else x

/-- `GradClipByValue::Gradient`, grad_clip_by_value.hpp:42-49; also the first half of
`GradientClipping::Policy::Update`. -/
def clipByValue (lo hi : α) (g : List α) : List α := g.map (clamp lo hi)

theorem clamp_eq_max_min {lo hi : α} (h : lo ≤ hi) (x : α) : clamp lo hi x = max lo (min hi x) := by
  unfold clamp
  split
  · rename_i h1; rw [min_eq_right (h1.le.trans h), max_eq_left h1.le]
  · rename_i h1
    split
    · rename_i h2; rw [min_eq_left h2.le, max_eq_right h]
    · rename_i h2; rw [not_lt] at h1 h2; rw [min_eq_right h2, max_eq_right h1]

/-- **C07** Clipping by value: the result has the same length, lies in the interval, keeps
coordinates that were inside, moves those outside to the nearer end, and preserves the order of
values. -/
theorem C07_clip_by_value (lo hi : α) (h : lo ≤ hi) (g : List α) :
    (clipByValue lo hi g).length = g.length ∧
    (∀ x ∈ clipByValue lo hi g, lo ≤ x ∧ x ≤ hi) ∧
    (∀ i (hi' : i < g.length),
      (clipByValue lo hi g)[i]? = some (if g[i] < lo then lo else if hi < g[i] then hi else g[i])) ∧
    clipByValue lo hi (clipByValue lo hi g) = clipByValue lo hi g ∧
    (∀ x y : α, x ≤ y → clamp lo hi x ≤ clamp lo hi y) := by
  have hin : ∀ x, lo ≤ clamp lo hi x ∧ clamp lo hi x ≤ hi := by
    intro x; rw [clamp_eq_max_min h]
    exact ⟨le_max_left _ _, max_le h (min_le_left _ _)⟩
  refine ⟨by simp [clipByValue], ?_, ?_, ?_, ?_⟩
  · intro x hx
    obtain ⟨y, _, rfl⟩ := List.mem_map.1 hx
    exact hin y
  · intro i hi'
    simp [clipByValue, clamp, hi']
  · simp only [clipByValue, List.map_map]
    apply List.map_congr_left
    intro x _
    simp only [Function.comp]
    have := hin x
    rw [clamp, if_neg (not_lt.2 this.1), if_neg (not_lt.2 this.2)]
  · intro x y hxy
    rw [clamp_eq_max_min h, clamp_eq_max_min h]
    exact max_le_max le_rfl (min_le_min le_rfl hxy)

example : clipByValue (-1 : Int) 2 [-5, 0, 7, 2] = [-1, 0, 2, 2] := by decide

end ClipValue

/-! ### C71: QueryFront -/

/-- **C71** A `QueryFront(queryRate)` callback (rate ≥ 1) used in one run stores exactly the fronts
of generations `0, queryRate, 2*queryRate, ...`, in order. -/
theorem C71_query_front {F : Type} (rate : Nat) (hr : 0 < rate) (gen : Nat → F) (n : Nat) :
    ∃ c, QueryFront.run ⟨rate, 0, []⟩ ((List.range n).map gen) = some c ∧
      c.fronts = ((List.range n).filter (fun g => g % rate = 0)).map gen := by
  have app : ∀ (c : QueryFront F) (l : List F) (x : F),
      c.run (l ++ [x]) = (c.run l).bind (fun c' => c'.step x) := by
    intro c l x
    induction l generalizing c with
    | nil => simp only [List.nil_append, QueryFront.run, Option.bind_some]; cases c.step x <;> rfl
    | cons y ys ih =>
      simp only [List.cons_append, QueryFront.run]
      cases h : c.step y with
      | none => rfl
      | some c' => simp [ih]
  suffices h : ∃ c, QueryFront.run ⟨rate, 0, []⟩ ((List.range n).map gen) = some c ∧
      c.queryRate = rate ∧ c.genCounter = n ∧
      c.fronts = ((List.range n).filter (fun g => g % rate = 0)).map gen by
    obtain ⟨c, h1, _, _, h4⟩ := h; exact ⟨c, h1, h4⟩
  induction n with
  | zero => exact ⟨_, rfl, rfl, rfl, rfl⟩
  | succ n ih =>
    obtain ⟨c, h1, h2, h3, h4⟩ := ih
    rw [List.range_succ, List.map_append, List.map_cons, List.map_nil, app, h1]
    simp only [Option.bind_some, QueryFront.step, h2, Nat.pos_iff_ne_zero.1 hr, if_false]
    refine ⟨_, rfl, rfl, by simp [h3], ?_⟩
    simp only [h3, h4, List.filter_append, List.map_append]
    by_cases hm : n % rate = 0 <;> simp [hm]

/-- **C71** (reuse).  The generation counter survives a run: a callback that already saw `k`
generations stores, in the next run, the generations `g` with `(k + g) % rate = 0` instead of
starting with the first generation. -/
theorem C71_query_front_reuse {F : Type} (rate k : Nat) (hr : 0 < rate) (old : List F)
    (gen : Nat → F) (n : Nat) :
    ∃ c, QueryFront.run ⟨rate, k, old⟩ ((List.range n).map gen) = some c ∧
      c.fronts = old ++ ((List.range n).filter (fun g => (k + g) % rate = 0)).map gen := by
  have app : ∀ (c : QueryFront F) (l : List F) (x : F),
      c.run (l ++ [x]) = (c.run l).bind (fun c' => c'.step x) := by
    intro c l x
    induction l generalizing c with
    | nil => simp only [List.nil_append, QueryFront.run, Option.bind_some]; cases c.step x <;> rfl
    | cons y ys ih =>
      simp only [List.cons_append, QueryFront.run]
      cases h : c.step y with
      | none => rfl
      | some c' => simp [ih]
  suffices h : ∃ c, QueryFront.run ⟨rate, k, old⟩ ((List.range n).map gen) = some c ∧
      c.queryRate = rate ∧ c.genCounter = k + n ∧
      c.fronts = old ++ ((List.range n).filter (fun g => (k + g) % rate = 0)).map gen by
    obtain ⟨c, h1, _, _, h4⟩ := h; exact ⟨c, h1, h4⟩
  induction n with
  | zero => exact ⟨_, rfl, rfl, rfl, by simp⟩
  | succ n ih =>
    obtain ⟨c, h1, h2, h3, h4⟩ := ih
    rw [List.range_succ, List.map_append, List.map_cons, List.map_nil, app, h1]
    simp only [Option.bind_some, QueryFront.step, h2, Nat.pos_iff_ne_zero.1 hr, if_false]
    refine ⟨_, rfl, rfl, by simp [h3]; omega, ?_⟩
    simp only [h3, h4, List.filter_append, List.map_append]
    by_cases hm : (k + n) % rate = 0 <;> simp [hm]

example : (QueryFront.run ⟨2, 0, []⟩ [10, 11, 12, 13, 14]).map (·.fronts) = some [10, 12, 14] := by
  decide

end Ens.Callbacks
