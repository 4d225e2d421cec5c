import Verif.Vr.Svrg
import Verif.Vr.Sarah
import Verif.Vr.Katyusha

/-
SVRG, SARAH, Katyusha: the trace of the model is the sequence of calls of user code (C106).

The theorems on the protocol (`C106_*_protocol`) speak about the ghost trace. Here the user code itself keeps a record of
its calls and answers in its world, and the trace of every run is shown to be that record.
-/

namespace Ens.Vr

variable {W X G E : Type}

/-- `log` is a record that the user code keeps: every call of the function and of `StepTaken` adds an event, every answer
"stop" adds `Ev.stop`. -/
structure Records (u : User W X G E) (log : W → List Ev) : Prop where
  evaluate : ∀ w x a k, log (u.evaluate w x a k).1 = log w ++ [.eval a k]
  gradient : ∀ w x a k, log (u.gradient w x a k).1 = log w ++ [.grad a k]
  shuffle : ∀ w, log (u.shuffle w) = log w
  cbBegin : ∀ w x, log (u.cbBegin w x).1 = log w
  cbEval : ∀ w x e, log (u.cbEval w x e).1 = log w ++ if (u.cbEval w x e).2 then [.stop] else []
  cbGrad : ∀ w x g, log (u.cbGrad w x g).1 = log w ++ if (u.cbGrad w x g).2.2 then [.stop] else []
  cbStep : ∀ w x, log (u.cbStep w x).1 = log w ++ .told :: if (u.cbStep w x).2.2 then [.stop] else []
  cbEnd : ∀ w x, log (u.cbEnd w x).1 = log w

/-- Any user code together with a record. -/
def User.recording (u : User W X G E) : User (W × List Ev) X G E where
  n := u.n
  evaluate w x a k := let r := u.evaluate w.1 x a k; ((r.1, w.2 ++ [.eval a k]), r.2)
  gradient w x a k := let r := u.gradient w.1 x a k; ((r.1, w.2 ++ [.grad a k]), r.2)
  shuffle w := (u.shuffle w.1, w.2)
  cbBegin w x := let r := u.cbBegin w.1 x; ((r.1, w.2), r.2)
  cbEval w x e := let r := u.cbEval w.1 x e; ((r.1, w.2 ++ if r.2 then [.stop] else []), r.2)
  cbGrad w x g := let r := u.cbGrad w.1 x g; ((r.1, w.2 ++ if r.2.2 then [.stop] else []), r.2)
  cbStep w x := let r := u.cbStep w.1 x; ((r.1, w.2 ++ .told :: if r.2.2 then [.stop] else []), r.2)
  cbEnd w x := let r := u.cbEnd w.1 x; ((r.1, w.2), r.2)
  addE := u.addE
  zero := u.zero
  isBad := u.isBad
  near := u.near
  dblMax := u.dblMax
  addG := u.addG
  divG := u.divG

theorem recording_records (u : User W X G E) : Records u.recording Prod.snd where
  evaluate _ _ _ _ := rfl
  gradient _ _ _ _ := rfl
  shuffle _ := rfl
  cbBegin _ _ := rfl
  cbEval _ _ _ := rfl
  cbGrad _ _ _ := rfl
  cbStep _ _ := rfl
  cbEnd _ _ := rfl

/-- The events user code sees: all but the changes of the iterate. -/
def userEvents (t : List Ev) : List Ev := t.filter fun e => decide (e ≠ .step)

/-- The trace is the record (started at `pre`), and the flag says whether it contains a request. -/
def Faithful (log : W → List Ev) (pre : List Ev) (s : S W) : Prop :=
  log s.w = pre ++ userEvents s.trace ∧ (s.term = true ↔ Ev.stop ∈ s.trace)

variable {u : User W X G E} {log : W → List Ev} {pre : List Ev}

theorem evalAt_faithful (h : Records u log) {s : S W} (hs : Faithful log pre s) (x : X) (p : Nat × Nat) :
    Faithful log pre (evalAt u s x p).1 := by
  obtain ⟨h1, h2⟩ := hs
  simp only [evalAt, S.note, Faithful]
  rw [h.cbEval, h.evaluate, h1]
  cases (u.cbEval (u.evaluate s.w x p.1 p.2).1 x (u.evaluate s.w x p.1 p.2).2).2 <;>
    simp [userEvents, List.filter_append, h2]

theorem gradAt_faithful (h : Records u log) {s : S W} (hs : Faithful log pre s) (x : X) (p : Nat × Nat) :
    Faithful log pre (gradAt u s x p).1 := by
  obtain ⟨h1, h2⟩ := hs
  simp only [gradAt, S.note, Faithful]
  rw [h.cbGrad, h.gradient, h1]
  cases (u.cbGrad (u.gradient s.w x p.1 p.2).1 x (u.gradient s.w x p.1 p.2).2).2.2 <;>
    simp [userEvents, List.filter_append, h2]

theorem gradQuiet_faithful (h : Records u log) {s : S W} (hs : Faithful log pre s) (x : X) (p : Nat × Nat) :
    Faithful log pre (gradQuiet u s x p).1 := by
  obtain ⟨h1, h2⟩ := hs
  simp only [gradQuiet, S.note, Faithful]
  rw [h.gradient, h1]
  simp [userEvents, List.filter_append, h2]

theorem step_faithful {s : S W} (hs : Faithful log pre s) : Faithful log pre (s.note s.w .step false) := by
  obtain ⟨h1, h2⟩ := hs
  simp only [S.note, Faithful]
  rw [h1]
  simp [userEvents, List.filter_append, h2]

theorem stepAt_faithful (h : Records u log) {s : S W} (hs : Faithful log pre s) (x : X) :
    Faithful log pre (stepAt u s x).1 := by
  obtain ⟨h1, h2⟩ := hs
  simp only [stepAt, S.note, Faithful]
  rw [h.cbStep, h1]
  cases (u.cbStep s.w x).2.2 <;> simp [userEvents, List.filter_append, h2]

theorem world_faithful {s : S W} (hs : Faithful log pre s) {w : W} (hw : log w = log s.w) :
    Faithful log pre { s with w := w } := ⟨hw.trans hs.1, hs.2⟩

theorem foldl_faithful {A P : Type} (f : S W × A → P → S W × A) (hf : ∀ a p, Faithful log pre a.1 → Faithful log pre (f a p).1) :
    ∀ (l : List P) (a : S W × A), Faithful log pre a.1 → Faithful log pre (l.foldl f a).1
  | [], _, h => h
  | p :: l, a, h => foldl_faithful f hf l (f a p) (hf a p h)

theorem evalAll_faithful (h : Records u log) (b : Nat) {s : S W} (hs : Faithful log pre s) (x : X) :
    Faithful log pre (evalAll u b s x).1 :=
  foldl_faithful (fun a p => ((evalAt u a.1 x p).1, u.addE a.2 (evalAt u a.1 x p).2))
    (fun _ p ha => evalAt_faithful h ha x p) _ _ hs

theorem fullGrad_faithful (h : Records u log) {rest : S W → X → Nat × Nat → S W × G}
    (hrest : ∀ s x p, Faithful log pre s → Faithful log pre (rest s x p).1) {b : Nat} {s : S W}
    (hs : Faithful log pre s) {x₁ x₂ : X} {r : S W × G} (hr : fullGrad u rest b s x₁ x₂ = some r) :
    Faithful log pre r.1 := by
  unfold fullGrad at hr
  cases hbl : batchList u.n b with
  | nil => rw [hbl] at hr; cases hr
  | cons p ps =>
    rw [hbl] at hr
    simp only [Option.some.injEq] at hr
    subst hr
    exact foldl_faithful (fun a p => ((rest a.1 x₂ p).1, u.addG a.2 (rest a.1 x₂ p).2))
      (fun a q ha => hrest a.1 x₂ q ha) ps _ (gradAt_faithful h hs x₁ p)

/-! ### SVRG -/

namespace Svrg

theorem wrap_faithful (h : Records u log) (shuffle : Bool) {t : Inner W X} (ht : Faithful log pre t.s) :
    Faithful log pre (wrap u shuffle t).s := by
  unfold wrap
  by_cases hc : t.cur % u.n = 0
  · rw [if_pos hc]
    cases shuffle with
    | true => exact world_faithful ht (h.shuffle _)
    | false => exact ht
  · rw [if_neg hc]; exact ht

theorem inner_faithful (h : Records u log) {p : Params W X G E}
    (hup : ∀ w x f g g0 n e, log (p.update w x f g g0 n e).1 = log w) (inner : Nat) (x0 : X) (full : G) (step : E)
    (fuel : Nat) (t r : Inner W X) (ht : Faithful log pre t.s)
    (hr : iterate (innerStep u p inner x0 full step) fuel t = some r) : Faithful log pre r.s := by
  refine iterate_inv (step := innerStep u p inner x0 full step) (fun t => Faithful log pre t.s)
    (fun r => Faithful log pre r.s) ?_ ?_ fuel t r ht hr
  · intro t t' ht hst
    unfold innerStep at hst
    split_ifs at hst with h1
    simp only at hst
    split_ifs at hst with h2
    cases hst
    exact stepAt_faithful h (world_faithful
      (gradAt_faithful h (gradAt_faithful h (wrap_faithful h p.shuffle ht) _ _) _ _) (hup _ _ _ _ _ _ _)) _
  · intro t r ht hst
    unfold innerStep at hst
    split_ifs at hst with h1
    · simp only at hst
      split_ifs at hst with h2
      cases hst
      exact gradAt_faithful h (gradAt_faithful h (wrap_faithful h p.shuffle ht) _ _) _ _
    · cases hst; exact ht

theorem body_faithful (h : Records u log) {p : Params W X G E}
    (hup : ∀ w x f g g0 n e, log (p.update w x f g g0 n e).1 = log w)
    (hdec : ∀ w x x0 f g n e, log (p.decay w x x0 f g n e).1 = log w) {t : St W X E} (ht : Faithful log pre t.s) :
    (∀ t', body u p t = .inl t' → Faithful log pre t'.s) ∧
    (∀ e t', body u p t = .inr (.ret e t') → Faithful log pre t'.s) := by
  have ho := evalAll_faithful h p.batchSize ht t.x
  unfold body
  by_cases h0 : limitReached p t.i ∨ t.s.term = true
  · rw [if_pos h0]
    exact ⟨fun t' h => (by cases h), fun e t' h => by cases h; exact ht⟩
  rw [if_neg h0]
  simp only
  generalize evalAll u p.batchSize t.s t.x = o at *
  by_cases h1 : o.1.term = true
  · rw [if_pos h1]
    exact ⟨fun t' h => (by cases h), fun e t' h => by cases h; exact ho⟩
  rw [if_neg h1]
  by_cases h2 : u.isBad o.2 = true
  · rw [if_pos h2]
    exact ⟨fun t' h => (by cases h), fun e t' h => by cases h; exact ho⟩
  rw [if_neg h2]
  by_cases h3 : u.near t.last o.2 = true
  · rw [if_pos h3]
    exact ⟨fun t' h => (by cases h), fun e t' h => by cases h; exact ho⟩
  rw [if_neg h3]
  cases hg : fullGrad u (gradAt u) p.batchSize o.1 t.x t.x with
  | none => exact ⟨fun t' h => (by cases h), fun e t' h => by cases h⟩
  | some g =>
    have hgf := fullGrad_faithful h (fun s x p hs => gradAt_faithful h hs x p) ho hg
    simp only
    by_cases h4 : g.1.term = true
    · rw [if_pos h4]
      exact ⟨fun t' h => (by cases h), fun e t' h => by cases h; exact hgf⟩
    rw [if_neg h4]
    cases hi : iterate (innerStep u p (effInner u p) t.x g.2 t.step) (effInner u p + 1) ⟨g.1, t.x, 0, 0⟩ with
    | none => exact ⟨fun t' h => (by cases h), fun e t' h => by cases h⟩
    | some r =>
      refine ⟨fun t' h' => ?_, fun e t' h => by cases h⟩
      cases h'
      exact world_faithful (inner_faithful h hup _ _ _ _ _ _ r hgf hi) (hdec _ _ _ _ _ _ _)

/-- **C106** SVRG: the trace of a run is the record kept by the user code; with the protocol theorem, no step follows an
answer "stop" of a callback. The policies do not call user code. -/
theorem C106_svrg_record (h : Records u log) {p : Params W X G E}
    (hup : ∀ w x f g g0 n e, log (p.update w x f g g0 n e).1 = log w)
    (hdec : ∀ w x x0 f g n e, log (p.decay w x x0 f g n e).1 = log w) {step : E} {fuel : Nat} {w : W} {x : X}
    {e : Exit} {t : St W X E} (hr : optimize u p step fuel w x = some (.ret e t)) :
    log t.s.w = log w ++ userEvents t.s.trace ∧ (t.s.term = true ↔ Ev.stop ∈ t.s.trace) := by
  unfold optimize at hr
  rw [Option.map_eq_some_iff] at hr
  obtain ⟨r, hr, he⟩ := hr
  have h0 : Faithful log (log w) (⟨(u.cbBegin w x).1, false, []⟩ : S W) := ⟨by rw [h.cbBegin]; simp [userEvents], by simp⟩
  have := iterate_inv (step := body u p) (fun t => Faithful log (log w) t.s)
    (fun r => ∀ e t, r = .ret e t → Faithful log (log w) t.s)
    (fun t t' ht hst => (body_faithful h hup hdec ht).1 t' hst)
    (fun t r ht hst e t' hrt => (body_faithful h hup hdec ht).2 e t' (hrt ▸ hst)) fuel _ r h0 hr
  cases r with
  | stuck => cases he
  | ret e' t' =>
    cases he
    have hf := this _ _ rfl
    unfold finish
    by_cases hc : e = .loop ∧ p.exact = true
    · simp only [if_pos hc]
      exact world_faithful (evalAll_faithful h _ hf _) (h.cbEnd _ _)
    · simp only [if_neg hc]
      exact world_faithful hf (h.cbEnd _ _)

/-- The policies next to a record. -/
def Params.recording (p : Params W X G E) : Params (W × List Ev) X G E where
  batchSize := p.batchSize
  maxIterations := p.maxIterations
  innerIterations := p.innerIterations
  shuffle := p.shuffle
  exact := p.exact
  update w x f g g0 n e := let r := p.update w.1 x f g g0 n e; ((r.1, w.2), r.2)
  decay w x x0 f g n e := let r := p.decay w.1 x x0 f g n e; ((r.1, w.2), r.2)

/-- The hypotheses are met: two epochs on `x^2 / 2`, recorded. -/
example : Records (User.recording quadUser) Prod.snd ∧
    (∀ w x f g g0 n e, ((bbParams 2 true).recording.update w x f g g0 n e).1.2 = w.2) ∧
    (∀ w x x0 f g n e, ((bbParams 2 true).recording.decay w x x0 f g n e).1.2 = w.2) ∧
    (match optimize (User.recording quadUser) (bbParams 2 true).recording (3 / 2) 10 (none, []) 1 with
      | some (.ret _ t) => some (decide (t.s.w.2 ≠ []))
      | _ => none) = some true :=
  ⟨recording_records _, fun _ _ _ _ _ _ _ => rfl, fun _ _ _ _ _ _ _ => rfl, by decide +kernel⟩

end Svrg

/-! ### SARAH -/

namespace Sarah

theorem wrap_faithful (h : Records u log) (shuffle : Bool) {t : Inner W X G} (ht : Faithful log pre t.s) :
    Faithful log pre (wrap u shuffle t).s := by
  unfold wrap
  by_cases hc : t.cur % u.n = 0
  · rw [if_pos hc]
    cases shuffle with
    | true => exact world_faithful ht (h.shuffle _)
    | false => exact ht
  · rw [if_neg hc]; exact ht

theorem twoGrads_faithful (h : Records u log) {t : Inner W X G} (ht : Faithful log pre t.s) (q : Nat × Nat) :
    Faithful log pre (twoGrads u t q).1 := by
  unfold twoGrads
  by_cases hf : 0 < t.f
  · simp only [if_pos hf]
    exact gradAt_faithful h (gradAt_faithful h ht _ _) _ _
  · simp only [if_neg hf]
    exact gradAt_faithful h ht _ _

theorem inner_faithful (h : Records u log) {p : Params X G E} (inner : Nat) (vNorm : E)
    (fuel : Nat) (t r : Inner W X G) (ht : Faithful log pre t.s)
    (hr : iterate (innerStep u p inner vNorm) fuel t = some r) : Faithful log pre r.s := by
  refine iterate_inv (step := innerStep u p inner vNorm) (fun t => Faithful log pre t.s)
    (fun r => Faithful log pre r.s) ?_ ?_ fuel t r ht hr
  · intro t t' ht hst
    have h2g := twoGrads_faithful h (wrap_faithful h p.shuffle ht)
      ((wrap u p.shuffle t).cur, min p.batchSize (u.n - (wrap u p.shuffle t).cur))
    unfold innerStep at hst
    split_ifs at hst with h1
    simp only at hst
    split_ifs at hst with h2 h3
    cases hst
    exact stepAt_faithful h h2g _
  · intro t r ht hst
    have h2g := twoGrads_faithful h (wrap_faithful h p.shuffle ht)
      ((wrap u p.shuffle t).cur, min p.batchSize (u.n - (wrap u p.shuffle t).cur))
    unfold innerStep at hst
    split_ifs at hst with h1
    · simp only at hst
      split_ifs at hst with h2 h3
      · cases hst; exact h2g
      · cases hst; exact step_faithful h2g
    · cases hst; exact ht

theorem body_faithful (h : Records u log) {p : Params X G E} {t : St W X E} (ht : Faithful log pre t.s) :
    (∀ t', body u p t = .inl t' → Faithful log pre t'.s) ∧
    (∀ e t', body u p t = .inr (.ret e t') → Faithful log pre t'.s) := by
  have ho := evalAll_faithful h p.batchSize ht t.x
  unfold body
  by_cases h0 : limitReached p t.i ∨ t.s.term = true
  · rw [if_pos h0]
    exact ⟨fun t' h => (by cases h), fun e t' h => by cases h; exact ht⟩
  rw [if_neg h0]
  simp only
  generalize evalAll u p.batchSize t.s t.x = o at *
  by_cases h2 : u.isBad o.2 = true
  · rw [if_pos h2]
    exact ⟨fun t' h => (by cases h), fun e t' h => by cases h; exact ho⟩
  rw [if_neg h2]
  by_cases h3 : u.near t.last o.2 = true
  · rw [if_pos h3]
    exact ⟨fun t' h => (by cases h), fun e t' h => by cases h; exact ho⟩
  rw [if_neg h3]
  cases hg : fullGrad u (gradQuiet u) p.batchSize o.1 t.x t.x with
  | none => exact ⟨fun t' h => (by cases h), fun e t' h => by cases h⟩
  | some g =>
    have hgf := fullGrad_faithful h (fun s x p hs => gradQuiet_faithful h hs x p) ho hg
    simp only
    by_cases h4 : g.1.term = true
    · rw [if_pos h4]
      exact ⟨fun t' h => (by cases h), fun e t' h => by cases h; exact hgf⟩
    rw [if_neg h4]
    cases hi : iterate (innerStep u p (effInner u p) (p.norm g.2)) (effInner u p + 1)
        ⟨g.1.note g.1.w .step false, p.move t.x g.2, p.move t.x g.2, g.2, 0, 0⟩ with
    | none => exact ⟨fun t' h => (by cases h), fun e t' h => by cases h⟩
    | some r =>
      refine ⟨fun t' h' => ?_, fun e t' h => by cases h⟩
      cases h'
      exact inner_faithful h _ _ _ _ r (step_faithful hgf) hi

/-- **C106** SARAH: the trace of a run is the record kept by the user code. -/
theorem C106_sarah_record (h : Records u log) {p : Params X G E} {fuel : Nat} {w : W} {x : X}
    {e : Exit} {t : St W X E} (hr : optimize u p fuel w x = some (.ret e t)) :
    log t.s.w = log w ++ userEvents t.s.trace ∧ (t.s.term = true ↔ Ev.stop ∈ t.s.trace) := by
  unfold optimize at hr
  rw [Option.map_eq_some_iff] at hr
  obtain ⟨r, hr, he⟩ := hr
  have h0 : Faithful log (log w) (⟨(u.cbBegin w x).1, false, []⟩ : S W) := ⟨by rw [h.cbBegin]; simp [userEvents], by simp⟩
  have := iterate_inv (step := body u p) (fun t => Faithful log (log w) t.s)
    (fun r => ∀ e t, r = .ret e t → Faithful log (log w) t.s)
    (fun t t' ht hst => (body_faithful h ht).1 t' hst)
    (fun t r ht hst e t' hrt => (body_faithful h ht).2 e t' (hrt ▸ hst)) fuel _ r h0 hr
  cases r with
  | stuck => cases he
  | ret e' t' =>
    cases he
    have hf := this _ _ rfl
    unfold finish
    by_cases hc : e = .loop ∧ p.exact = true
    · simp only [if_pos hc]
      exact world_faithful (evalAll_faithful h _ hf _) (h.cbEnd _ _)
    · simp only [if_neg hc]
      exact world_faithful hf (h.cbEnd _ _)

/-- The hypotheses are met: one epoch of two steps on `x^2 / 2` with a record. -/
example : Records (User.recording Svrg.quadUser) Prod.snd ∧
    (match optimize (User.recording Svrg.quadUser) (quadParams 1 2 (1 / 2) (-1)) 5 (none, []) 1 with
      | some (.ret _ t) => some (decide (t.s.w.2 ≠ []))
      | _ => none) = some true :=
  ⟨recording_records _, by decide +kernel⟩

end Sarah

/-! ### Katyusha -/

namespace Katyusha

variable {K V : Type} [Field K] [LinearOrder K] [AddCommGroup V] [Module K V] {u : User W V V E}

omit [Field K] [LinearOrder K] [AddCommGroup V] [Module K V] in
theorem wrap_faithful (h : Records u log) (shuffle : Bool) {t : Inner W K V} (ht : Faithful log pre t.s) :
    Faithful log pre (wrap u shuffle t).s := by
  unfold wrap
  by_cases hc : t.cur % u.n = 0
  · rw [if_pos hc]
    cases shuffle with
    | true => exact world_faithful ht (h.shuffle _)
    | false => exact ht
  · rw [if_neg hc]; exact ht

theorem inner_faithful (h : Records u log) {p : Params K} (inner : Nat) (r : K) (x0 full : V)
    (fuel : Nat) (t q : Inner W K V) (ht : Faithful log pre t.s)
    (hr : iterate (innerStep u p inner r x0 full) fuel t = some q) : Faithful log pre q.s := by
  refine iterate_inv (step := innerStep u p inner r x0 full) (fun t => Faithful log pre t.s)
    (fun r => Faithful log pre r.s) ?_ ?_ fuel t q ht hr
  · intro t t' ht hst
    unfold innerStep at hst
    split_ifs at hst with h1
    cases hst
    exact gradAt_faithful h (gradAt_faithful h (stepAt_faithful h (wrap_faithful h p.shuffle ht) _) _ _) _ _
  · intro t r ht hst
    unfold innerStep at hst
    split_ifs at hst with h1
    cases hst; exact ht

theorem body_faithful (h : Records u log) {p : Params K} {t : St W E V} (ht : Faithful log pre t.s) :
    (∀ t', body u p t = .inl t' → Faithful log pre t'.s) ∧
    (∀ e t', body u p t = .inr (.ret e t') → Faithful log pre t'.s) := by
  have ho := evalAll_faithful h p.batchSize ht t.x0
  unfold body
  by_cases h0 : limitReached p t.i ∨ t.s.term = true
  · rw [if_pos h0]
    exact ⟨fun t' h => (by cases h), fun e t' h => by cases h; exact ht⟩
  rw [if_neg h0]
  simp only
  generalize evalAll u p.batchSize t.s t.x0 = o at *
  by_cases h2 : u.isBad o.2 = true
  · rw [if_pos h2]
    exact ⟨fun t' h => (by cases h), fun e t' h => by cases h; exact ho⟩
  rw [if_neg h2]
  by_cases h3 : u.near t.last o.2 = true
  · rw [if_pos h3]
    exact ⟨fun t' h => (by cases h), fun e t' h => by cases h; exact ho⟩
  rw [if_neg h3]
  cases hg : fullGrad u (gradLate u) p.batchSize o.1 t.x t.x0 with
  | none => exact ⟨fun t' h => (by cases h), fun e t' h => by cases h⟩
  | some g =>
    have hgf := fullGrad_faithful h (rest := gradLate u) (fun s x p hs => gradAt_faithful h hs x p) ho hg
    simp only
    cases hi : iterate (innerStep u p (effInner u.n p) (ratio u.n p) t.x0 g.2) (effInner u.n p + 1)
        ⟨g.1, t.x, t.y, t.z, 0, 1, 0, 0⟩ with
    | none => exact ⟨fun t' h => (by cases h), fun e t' h => by cases h⟩
    | some r =>
      refine ⟨fun t' h' => ?_, fun e t' h => by cases h⟩
      cases h'
      exact inner_faithful h _ _ _ _ _ _ r hgf hi

/-- **C106** Katyusha: the trace of a run is the record kept by the user code. -/
theorem C106_katyusha_record (h : Records u log) {p : Params K} {fuel : Nat} {w : W} {x : V}
    {e : Exit} {t : St W E V} (hr : optimize u p fuel w x = some (.ret e t)) :
    log t.s.w = log w ++ userEvents t.s.trace ∧ (t.s.term = true ↔ Ev.stop ∈ t.s.trace) := by
  unfold optimize at hr
  rw [Option.map_eq_some_iff] at hr
  obtain ⟨r, hr, he⟩ := hr
  have h0 : Faithful log (log w) (⟨(u.cbBegin w x).1, false, []⟩ : S W) := ⟨by rw [h.cbBegin]; simp [userEvents], by simp⟩
  have := iterate_inv (step := body u p) (fun t => Faithful log (log w) t.s)
    (fun r => ∀ e t, r = .ret e t → Faithful log (log w) t.s)
    (fun t t' ht hst => (body_faithful h ht).1 t' hst)
    (fun t r ht hst e t' hrt => (body_faithful h ht).2 e t' (hrt ▸ hst)) fuel _ r h0 hr
  cases r with
  | stuck => cases he
  | ret e' t' =>
    cases he
    have hf := this _ _ rfl
    unfold finish
    by_cases hc : e = .loop ∧ p.exact = true
    · simp only [if_pos hc]
      exact world_faithful (evalAll_faithful h _ hf _) (h.cbEnd _ _)
    · simp only [if_neg hc]
      exact world_faithful hf (h.cbEnd _ _)

/-- The hypotheses are met: the run on `(x - 1)^2 / 2` with a record, two epochs, and its outcome. -/
example : Records (User.recording shifted) Prod.snd ∧
    (outcome (optimize shifted (params 2 1 true) 5 () 1)).isSome = true ∧
    (match optimize (User.recording shifted) (params 2 1 true) 5 ((), []) 1 with
      | some (.ret _ t) => some t.s.w.2.length
      | _ => none) = some 11 :=
  ⟨recording_records _, by decide +kernel, by decide +kernel⟩

end Katyusha

end Ens.Vr
