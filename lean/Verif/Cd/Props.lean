import Mathlib.Data.List.Perm.Basic
import Mathlib.Data.List.Range
import Mathlib.Data.List.Induction
import Mathlib.Data.Int.ModEq
import Mathlib.Data.Nat.Count
import Mathlib.Tactic.Ring
import Verif.Trace
import Verif.Common
import Verif.Cd.Model

/-
C18: coordinate descent.
-/

namespace Ens.Cd

variable {W C E : Type}

/-! ### Reading a trace -/

def Ev.stops : Ev C E → Bool
  | .cbGradient _ s => s
  | .stepTaken _ s => s
  | .cbEvaluate s => s
  | _ => false

/-- Did some callback ask to stop in this trace? -/
def anyStop (t : List (Ev C E)) : Bool := t.any Ev.stops

@[simp] theorem anyStop_append (a b : List (Ev C E)) :
    anyStop (a ++ b) = (anyStop a || anyStop b) := by simp [anyStop]

def Ev.isStep : Ev C E → Bool
  | .step .. => true
  | _ => false

/-- Number of steps taken. -/
def steps (t : List (Ev C E)) : Nat := t.countP Ev.isStep

@[simp] theorem steps_append (a b : List (Ev C E)) : steps (a ++ b) = steps a + steps b := by
  simp [steps]

def Ev.isEndOpt : Ev C E → Bool
  | .endOpt _ => true
  | _ => false

/-- The coordinates after an event, given those before it. -/
def Ev.coords (x : List C) : Ev C E → List C
  | .beginOpt _ x' => x'
  | .step _ _ _ _ y => y
  | .stepTaken x' _ => x'
  | _ => x

/-- The coordinates after a trace that starts at `x₀`. -/
def current (x₀ : List C) (t : List (Ev C E)) : List C := t.foldl Ev.coords x₀

@[simp] theorem current_append (x₀ : List C) (a b : List (Ev C E)) :
    current x₀ (a ++ b) = current (current x₀ a) b := by simp [current]

/-- Law of every trace. -/
def EvLaw (env : Env W C E) (x₀ : List C) (pre : List (Ev C E)) (e : Ev C E) : Prop :=
  match e with
  | .beginOpt x _ => pre = [] ∧ x = x₀
  | .feature i j => anyStop pre = false ∧ i = 1 + steps pre ∧
      ∃ w, (env.feature w i (current x₀ pre)).2 = j
  | .partialGrad x j g => x = current x₀ pre ∧ ∃ w, (env.partialGrad w x j).2 = g
  | .step i j x g y =>
      x = current x₀ pre ∧
      (∃ pre' g₀, pre = pre' ++ [.feature i j, .partialGrad x j g₀, .cbGradient g false] ∧
        anyStop pre' = false) ∧
      ∃ xj gj, x[j]? = some xj ∧ g[j]? = some gj ∧ y = x.set j (env.moveCol xj gj)
  | .evaluate x o => x = current x₀ pre ∧ ∃ w, (env.evaluate w x).2 = o
  | .endOpt x => x = current x₀ pre ∧ ∃ pre' o b, pre = pre' ++ [.evaluate x o, .cbEvaluate b]
  | _ => True

/-! ### Invariant -/

/-- Largest number of passes: `maxIterations - 1`, or `2^64 - 1` for `maxIterations = 0`. -/
def limit (maxIterations : Nat) : Nat := if maxIterations = 0 then 2 ^ 64 - 1 else maxIterations - 1

/-- For coordinates with `n` columns: the descent policy names an existing column and gradients and
callbacks keep the shape. -/
structure WellShaped (env : Env W C E) (n : Nat) : Prop where
  feature : ∀ w i x, x.length = n → (env.feature w i x).2 < n
  partialGrad : ∀ w x j, x.length = n → (env.partialGrad w x j).2.length = n
  cbGradient : ∀ w x e g, (env.cbGradient w x e g).2.1.length = g.length
  cbStep : ∀ w x, (env.cbStep w x).2.1.length = x.length
  cbBegin : ∀ w x, (env.cbBegin w x).2.length = x.length

structure Base (env : Env W C E) (x₀ : List C) (s : St W C E) : Prop where
  law : Along (EvLaw env x₀) s.trace
  cur : s.x = current x₀ s.trace
  stop : s.terminate = anyStop s.trace
  noEnd : ∀ e ∈ s.trace, e.isEndOpt = false
  ne : s.trace ≠ []

structure Inv (env : Env W C E) (x₀ : List C) (m : Nat) (s : St W C E) : Prop
    extends Base env x₀ s where
  cnt : s.i = (1 + steps s.trace) % 2 ^ 64
  bound : steps s.trace ≤ limit m
  len : WellShaped env x₀.length → s.x.length = x₀.length

theorem Inv.index {env : Env W C E} {x₀ : List C} {m : Nat} (hm : m < 2 ^ 64) {s : St W C E}
    (h : Inv env x₀ m s) (hi : s.i ≠ m) : s.i = 1 + steps s.trace ∧ steps s.trace < limit m := by
  have h1 := h.cnt
  have h2 := h.bound
  unfold limit at *
  split_ifs at * <;> omega

theorem start_inv (env : Env W C E) (m : Nat) (w : W) (x : List C) :
    Inv env x m (start env w x) where
  law := by
    show Along _ ([] ++ [_])
    rw [along_snoc]; exact ⟨along_nil _, rfl, rfl⟩
  cur := rfl
  stop := rfl
  cnt := rfl
  noEnd := by simp [start, Ev.isEndOpt]
  ne := by simp [start]
  bound := Nat.zero_le _
  len := fun h => h.cbBegin _ _

theorem along_snoc₃ {α : Type} (P : List α → α → Prop) (t : List α) (a b c : α) :
    Along P (t ++ [a, b, c]) ↔ Along P t ∧ P t a ∧ P (t ++ [a]) b ∧ P (t ++ [a, b]) c := by
  rw [show t ++ [a, b, c] = ((t ++ [a]) ++ [b]) ++ [c] by simp, along_snoc, along_snoc, along_snoc]
  simp only [and_assoc, List.append_assoc, List.cons_append, List.nil_append]

theorem gradPart_base {env : Env W C E} {x₀ : List C} {s : St W C E} (h : Base env x₀ s)
    (ht : s.terminate = false) (hi : s.i = 1 + steps s.trace) :
    Base env x₀ (gradPart env s).1 where
  law := by
    have hs := h.stop.symm.trans ht
    simp only [gradPart]
    rw [along_snoc₃]
    refine ⟨h.law, ⟨hs, hi, s.w, by rw [← h.cur]⟩, ⟨?_, _, rfl⟩, trivial⟩
    rw [current_append, ← h.cur]; rfl
  cur := by simp only [gradPart]; rw [current_append, ← h.cur]; rfl
  stop := by simp [gradPart, h.stop, anyStop, Ev.stops]
  noEnd := by
    intro e he
    simp only [gradPart, List.mem_append, List.mem_cons, List.not_mem_nil, or_false] at he
    rcases he with he | rfl | rfl | rfl
    · exact h.noEnd e he
    all_goals rfl
  ne := by simp [gradPart]

theorem gradPart_last {env : Env W C E} {x₀ : List C} {s : St W C E} (h : Base env x₀ s)
    (ht : s.terminate = false) (ht' : (gradPart env s).1.terminate = false) :
    ∃ pre' g₀, (gradPart env s).1.trace = pre' ++ [.feature s.i (gradPart env s).2.1,
      .partialGrad s.x (gradPart env s).2.1 g₀, .cbGradient (gradPart env s).2.2 false] ∧
      anyStop pre' = false := by
  refine ⟨s.trace, (env.partialGrad (env.feature s.w s.i s.x).1 s.x (env.feature s.w s.i s.x).2).2, ?_,
    h.stop.symm.trans ht⟩
  simp only [gradPart, ht, Bool.false_or] at ht' ⊢
  rw [ht']

theorem movePart_base {env : Env W C E} {x₀ : List C} {s : St W C E} {j : Nat} {g : List C}
    (h : Base env x₀ s)
    (hl : ∃ pre' g₀, s.trace = pre' ++ [.feature s.i j, .partialGrad s.x j g₀, .cbGradient g false] ∧
      anyStop pre' = false) {xj gj : C} (hx : s.x[j]? = some xj)
    (hg : g[j]? = some gj) :
    Base env x₀ (movePart env s j g xj gj) ∧
    steps (movePart env s j g xj gj).trace = steps s.trace + 1 := by
  refine ⟨⟨?_, ?_, ?_, ?_, by simp [movePart]⟩, ?_⟩
  · simp only [movePart]
    rw [along_snoc₂]
    exact ⟨h.law, ⟨h.cur, hl, xj, gj, hx, hg, rfl⟩, trivial⟩
  · simp only [movePart]; rw [current_append]; rfl
  · simp [movePart, h.stop, anyStop, Ev.stops]
  · intro e he
    simp only [movePart, List.mem_append, List.mem_cons, List.not_mem_nil, or_false] at he
    rcases he with he | rfl | rfl
    · exact h.noEnd e he
    all_goals rfl
  · simp only [movePart, steps_append]; rfl

theorem evalPart_base {env : Env W C E} {x₀ : List C} {s : St W C E} (h : Base env x₀ s) :
    Base env x₀ (evalPart env s) ∧ steps (evalPart env s).trace = steps s.trace ∧
    ∃ pre b, (evalPart env s).trace = pre ++ [.evaluate (evalPart env s).x (evalPart env s).overall,
      .cbEvaluate b] := by
  refine ⟨⟨?_, ?_, ?_, ?_, by simp [evalPart]⟩, ?_, _, _, rfl⟩
  · simp only [evalPart]
    rw [along_snoc₂]
    exact ⟨h.law, ⟨h.cur, _, rfl⟩, trivial⟩
  · simp only [evalPart]; rw [current_append]; exact h.cur
  · simp [evalPart, h.stop, anyStop, Ev.stops]
  · intro e he
    simp only [evalPart, List.mem_append, List.mem_cons, List.not_mem_nil, or_false] at he
    rcases he with he | rfl | rfl
    · exact h.noEnd e he
    all_goals rfl
  · simp only [evalPart, steps_append]; rfl

/-- What a completed run looks like. -/
def Post (env : Env W C E) (x₀ : List C) (m : Nat) (r : Result W C E) : Prop :=
  ∃ pre b, r.trace = pre ++ [.evaluate r.x r.obj, .cbEvaluate b, .endOpt r.x] ∧
    Along (EvLaw env x₀) r.trace ∧ (∀ e ∈ pre, e.isEndOpt = false) ∧
    steps r.trace ≤ limit m ∧
    (r.exit = .loop → anyStop pre = false → steps r.trace = limit m) ∧
    (r.exit = .bad → env.isBad r.obj = true)

def PostO (env : Env W C E) (x₀ : List C) (m u : Nat) : Outcome W C E → Prop
  | .returned r => Post env x₀ m r
  | .divByZero => u = 0
  | .outOfBounds => ¬ WellShaped env x₀.length

theorem finish_post {env : Env W C E} {x₀ : List C} {m : Nat} {s : St W C E} {e : Exit} {o : E}
    (hlaw : Along (EvLaw env x₀) s.trace) (hcur : s.x = current x₀ s.trace)
    (hne : ∀ e ∈ s.trace, e.isEndOpt = false) (hs : steps s.trace ≤ limit m)
    (hl : ∃ pre b, s.trace = pre ++ [.evaluate s.x o, .cbEvaluate b] ∧
      (e = .loop → anyStop pre = false → steps s.trace = limit m))
    (he : e = .bad → env.isBad o = true) (u : Nat) : PostO env x₀ m u (finish env e o s) := by
  obtain ⟨pre, b, h1, h2⟩ := hl
  have hst : steps (s.trace ++ [.endOpt s.x]) = steps s.trace := by rw [steps_append]; rfl
  refine ⟨pre, b, ?_, ?_, ?_, ?_, ?_, he⟩
  · show s.trace ++ _ = _
    rw [h1]; simp
  · show Along _ (s.trace ++ [_])
    rw [along_snoc]
    exact ⟨hlaw, hcur, pre, o, b, h1⟩
  · intro e' he'
    exact hne e' (by rw [h1]; exact List.mem_append_left _ he')
  · exact hst ▸ hs
  · intro h3 h4
    exact hst.trans (h2 h3 h4)

theorem afterLoop_post {env : Env W C E} {x₀ : List C} {m : Nat} {s : St W C E}
    (hb : Base env x₀ s) (hs : steps s.trace ≤ limit m)
    (hl : anyStop s.trace = false → steps s.trace = limit m) (u : Nat) :
    PostO env x₀ m u (afterLoop env s) := by
  have h := evalPart_base hb
  unfold afterLoop
  refine finish_post h.1.law h.1.cur h.1.noEnd (by rw [← h.2.1] at hs; exact hs)
    ⟨s.trace, _, rfl, fun _ h' => ?_⟩ (by intro h; cases h) u
  rw [← h.2.1] at hl; exact hl h'

theorem step_ok {env : Env W C E} {x₀ : List C} {m u : Nat} (hm : m < 2 ^ 64) (s : St W C E)
    (h : Inv env x₀ m s) :
    (∀ s', step env m u s = .inl s' → Inv env x₀ m s' ∧
      limit m - steps s'.trace < limit m - steps s.trace) ∧
    (∀ r, step env m u s = .inr r → PostO env x₀ m u r) := by
  unfold step
  by_cases hc : s.i = m ∨ s.terminate = true
  · rw [if_pos hc]
    refine ⟨by simp, ?_⟩
    rintro r hr
    cases hr
    refine afterLoop_post h.toBase h.bound (fun hst => ?_) u
    have hi : s.i = m := hc.resolve_right (by rw [h.stop, hst]; simp)
    have h1 := h.cnt
    have h2 := h.bound
    unfold limit at *
    split_ifs at * <;> omega
  · rw [if_neg hc]
    rw [not_or, Bool.not_eq_true] at hc
    have hidx := h.index hm hc.1
    have hg := gradPart_base h.toBase hc.2 hidx.1
    have hgs : steps (gradPart env s).1.trace = steps s.trace := by
      simp only [gradPart, steps_append]; rfl
    have hgi : (gradPart env s).1.i = s.i := rfl
    have hgx : (gradPart env s).1.x = s.x := rfl
    have hlast := gradPart_last h.toBase hc.2
    by_cases ht : (gradPart env s).1.terminate = true
    · simp only [ht, if_true]
      refine ⟨by simp, ?_⟩
      rintro r hr
      cases hr
      refine afterLoop_post hg (by rw [hgs]; exact h.bound) (fun hst => ?_) u
      rw [hg.stop, hst] at ht; cases ht
    · rw [Bool.not_eq_true] at ht
      have hlast := hlast ht
      simp only [ht, Bool.false_eq_true, if_false]
      have hws : WellShaped env x₀.length → (gradPart env s).2.1 < (gradPart env s).1.x.length ∧
          (gradPart env s).2.1 < (gradPart env s).2.2.length := by
        intro hw
        have hl := h.len hw
        refine ⟨by rw [hgx, hl]; exact hw.feature _ _ _ hl, ?_⟩
        simp only [gradPart]
        rw [hw.cbGradient, hw.partialGrad _ _ _ hl]
        exact hw.feature _ _ _ hl
      generalize gradPart env s = p at *
      obtain ⟨p, j, g⟩ := p
      simp only at *
      cases hx : p.x[j]? with
      | none =>
        refine ⟨by simp, ?_⟩
        rintro r hr
        cases hr
        intro hw
        exact absurd (hws hw).1 (by simpa using hx)
      | some xj =>
        cases hgj : g[j]? with
        | none =>
          refine ⟨by simp, ?_⟩
          rintro r hr
          cases hr
          intro hw
          exact absurd (hws hw).2 (by simpa using hgj)
        | some gj =>
          simp only
          have hmv := movePart_base hg (by rw [hgi, hgx]; exact hlast) hx hgj
          have hmi : (movePart env p j g xj gj).i = p.i := rfl
          have hml : WellShaped env x₀.length → (movePart env p j g xj gj).x.length = x₀.length := by
            intro hw
            rw [show (movePart env p j g xj gj).x = (env.cbStep _ _).2.1 from rfl, hw.cbStep,
              List.length_set, hgx]
            exact h.len hw
          generalize movePart env p j g xj gj = q at *
          by_cases hu : u = 0
          · rw [if_pos hu]
            refine ⟨by simp, ?_⟩
            rintro r hr
            cases hr
            exact hu
          · rw [if_neg hu]
            by_cases hmod : s.i % u = 0
            · rw [if_pos hmod]
              have hev := evalPart_base hmv.1
              have hei : (evalPart env q).i = q.i := rfl
              have hex : (evalPart env q).x = q.x := rfl
              generalize evalPart env q = v at *
              have hvs : steps v.trace = steps s.trace + 1 := by omega
              by_cases hbad : env.isBad v.overall = true
              · simp only [hbad, if_true]
                refine ⟨by simp, ?_⟩
                rintro r hr
                cases hr
                obtain ⟨pre, b, h1⟩ := hev.2.2
                exact finish_post hev.1.law hev.1.cur hev.1.noEnd (by omega)
                  ⟨pre, b, h1, by intro h; cases h⟩ (fun _ => hbad) u
              · simp only [hbad, Bool.false_eq_true, if_false]
                by_cases hcl : env.isClose v.last v.overall = true
                · simp only [hcl, if_true]
                  refine ⟨by simp, ?_⟩
                  rintro r hr
                  cases hr
                  obtain ⟨pre, b, h1⟩ := hev.2.2
                  exact finish_post hev.1.law hev.1.cur hev.1.noEnd (by omega)
                    ⟨pre, b, h1, by intro h; cases h⟩ (by intro h; cases h) u
                · simp only [hcl, Bool.false_eq_true, if_false]
                  refine ⟨?_, by simp⟩
                  rintro s' hs'
                  cases hs'
                  refine ⟨⟨⟨hev.1.law, hev.1.cur, hev.1.stop, hev.1.noEnd, hev.1.ne⟩, ?_, ?_,
                    fun hw => hex ▸ hml hw⟩, ?_⟩
                  · simp only; omega
                  · simp only; omega
                  · simp only; omega
            · rw [if_neg hmod]
              refine ⟨?_, by simp⟩
              rintro s' hs'
              cases hs'
              refine ⟨⟨⟨hmv.1.law, hmv.1.cur, hmv.1.stop, hmv.1.noEnd, hmv.1.ne⟩, ?_, ?_, hml⟩, ?_⟩
              · simp only; omega
              · simp only; omega
              · simp only; omega

theorem optimize_post {env : Env W C E} {m u fuel : Nat} (hm : m < 2 ^ 64) {w : W} {x : List C}
    {o : Outcome W C E} (h : optimize env m u fuel w x = some o) : PostO env x m u o :=
  iterate_inv (Inv env x m) (PostO env x m u) (fun s s' hi hs => ((step_ok hm s hi).1 s' hs).1)
    (fun s r hi hs => (step_ok hm s hi).2 r hs) fuel _ o (start_inv env m w x) h

/-! ### C18 -/

/-- **C18** `Optimize` always ends: it returns a value unless `updateInterval` is 0 or the descent
policy / partial gradient names a column that does not exist. -/
theorem C18_cd_terminates (env : Env W C E) {m u : Nat} (hm : m < 2 ^ 64) (w : W) (x : List C) :
    (∃ o, optimize env m u (limit m + 1) w x = some o) ∧
    (u ≠ 0 → WellShaped env x.length → ∃ r, optimize env m u (limit m + 1) w x = some (.returned r)) := by
  obtain ⟨o, ho⟩ := iterate_total (step := step env m u) (Inv env x m)
    (fun s => limit m - steps s.trace) (fun s s' hi hs => (step_ok hm s hi).1 s' hs)
    (limit m + 1) (start env w x) (start_inv env m w x) (by omega)
  refine ⟨⟨o, ho⟩, fun hu hw => ?_⟩
  have hp := optimize_post hm ho
  cases o with
  | returned r => exact ⟨r, ho⟩
  | outOfBounds => exact absurd hw hp
  | divByZero => exact absurd hp hu

/-- **C18** Each step changes exactly one column, the one chosen by the descent policy for this
iteration, by moving it along the corresponding column of the partial gradient computed at the
current coordinates; all other columns keep their value.  No step follows a stop request. -/
theorem C18_cd_step_changes_one_column {env : Env W C E} {m u fuel : Nat} (hm : m < 2 ^ 64) {w : W}
    {x₀ : List C} {r : Result W C E} (h : optimize env m u fuel w x₀ = some (.returned r))
    {pre post : List (Ev C E)} {i j : Nat} {x g y : List C}
    (he : r.trace = pre ++ .step i j x g y :: post) :
    x = current x₀ pre ∧ i = 1 + steps pre ∧ anyStop pre = false ∧
    (∃ w', (env.feature w' i x).2 = j) ∧
    (∃ w' g₀, (env.partialGrad w' x j).2 = g₀ ∧
      .partialGrad x j g₀ ∈ pre ∧ pre.getLast? = some (.cbGradient g false)) ∧
    (∃ xj gj, x[j]? = some xj ∧ g[j]? = some gj ∧ y[j]? = some (env.moveCol xj gj)) ∧
    y.length = x.length ∧ ∀ k, k ≠ j → y[k]? = x[k]? := by
  obtain ⟨_, _, _, hlaw, _⟩ := optimize_post hm h
  obtain ⟨hx, ⟨pre', g₀, hpre, hns⟩, xj, gj, h1, h2, h3⟩ := hlaw _ _ _ he
  have hf := hlaw pre' (.feature i j) (.partialGrad x j g₀ :: .cbGradient g false :: .step i j x g y :: post)
    (by rw [he, hpre]; simp)
  have hp := hlaw (pre' ++ [.feature i j]) (.partialGrad x j g₀) (.cbGradient g false :: .step i j x g y :: post)
    (by rw [he, hpre]; simp)
  obtain ⟨_, hi, w1, hw1⟩ := hf
  obtain ⟨hxp, w2, hw2⟩ := hp
  have hcur : current x₀ pre' = x := by rw [hxp, current_append]; rfl
  have hj : j < x.length := by
    by_contra hc
    rw [List.getElem?_eq_none (by omega)] at h1; cases h1
  refine ⟨hx, ?_, ?_, ⟨w1, hcur ▸ hw1⟩, ⟨w2, g₀, hw2, ?_, ?_⟩, ⟨xj, gj, h1, h2, ?_⟩, ?_, ?_⟩
  · rw [hpre, steps_append]; exact hi
  · rw [hpre, anyStop_append, hns]; rfl
  · rw [hpre]; simp
  · rw [hpre]; simp
  · rw [h3]; simp [hj]
  · rw [h3]; simp
  · intro k hk
    rw [h3, List.getElem?_set_ne (Ne.symm hk)]

/-- **C18** The value returned is the objective computed at the coordinates returned, on every exit
path; the run is closed by exactly one `EndOptimization` with these coordinates; at most
`maxIterations - 1` steps are taken, and exactly that many when the limit ended the run. -/
theorem C18_cd_returned_value {env : Env W C E} {m u fuel : Nat} (hm : m < 2 ^ 64) {w : W}
    {x₀ : List C} {r : Result W C E} (h : optimize env m u fuel w x₀ = some (.returned r)) :
    (∃ pre b, r.trace = pre ++ [.evaluate r.x r.obj, .cbEvaluate b, .endOpt r.x] ∧
      (∀ e ∈ pre, e.isEndOpt = false) ∧ (r.exit = .loop → anyStop pre = false → steps r.trace = limit m)) ∧
    r.x = current x₀ r.trace ∧
    (∃ w', (env.evaluate w' r.x).2 = r.obj) ∧
    steps r.trace ≤ limit m := by
  obtain ⟨pre, b, htr, hlaw, hne, hs, hl, _⟩ := optimize_post hm h
  have h1 := hlaw pre (.evaluate r.x r.obj) [.cbEvaluate b, .endOpt r.x] htr
  refine ⟨⟨pre, b, htr, hne, hl⟩, ?_, h1.2, hs⟩
  rw [htr, current_append, ← h1.1]; rfl

/-! ### Descent policies -/

/-- `n` consecutive numbers taken modulo `n` are a permutation of `0, ..., n - 1`. -/
theorem range'_mod_perm (n : Nat) (hn : n ≠ 0) (i : Nat) :
    ((List.range' i n).map (· % n)).Perm (List.range n) := by
  induction i with
  | zero =>
    rw [← List.range_eq_range']
    have : (List.range n).map (· % n) = (List.range n).map id :=
      List.map_congr_left fun a ha => Nat.mod_eq_of_lt (List.mem_range.1 ha)
    rw [this, List.map_id]
  | succ i ih =>
    obtain ⟨k, rfl⟩ : ∃ k, n = k + 1 := ⟨n - 1, by omega⟩
    refine List.Perm.trans ?_ ih
    have : (i + 1 + k) % (k + 1) = i % (k + 1) := by
      rw [show i + 1 + k = i + (k + 1) by ring, Nat.add_mod_right]
    rw [show List.range' i (k + 1) = i :: List.range' (i + 1) k from List.range'_succ,
      List.range'_1_concat, List.map_cons, List.map_append, List.map_cons, List.map_nil, this]
    exact List.perm_append_singleton _ _

/-- **C18** The cyclic policy visits every coordinate exactly once in any `n` consecutive
iterations. -/
theorem C18_cyclic_descent_fair (n : Nat) (hn : n ≠ 0) (i : Nat) :
    ∃ l : List Nat, ((List.range' i n).map (cyclic · n)) = l.map some ∧ l.Perm (List.range n) := by
  refine ⟨(List.range' i n).map (· % n), ?_, range'_mod_perm n hn i⟩
  rw [List.map_map]
  exact List.map_congr_left fun a _ => by simp [cyclic, hn]

/-- **C18** Cyclic and random descent name an existing coordinate. -/
theorem C18_cyclic_random_in_range (n : Nat) (hn : n ≠ 0) (i : Nat) :
    (∃ j, cyclic i n = some j ∧ j < n) ∧ (∃ j, random i n = some j ∧ j < n) := by
  simp [cyclic, random, hn, Nat.mod_lt _ (Nat.pos_of_ne_zero hn)]

/-- **C18** (partial) What the greedy policy does: among the features whose partial gradient has a
positive element sum it returns the first one of largest sum; if there is none, feature 0.
Missing with respect to the claim: the sums are compared signed instead of by magnitude
(`C18_greedy_largest_magnitude_refuted`). -/
theorem C18_greedy_descent_partial [LT E] [DecidableLT E] [StrictPO E] (zero : E) (d : Nat → E)
    (n : Nat) :
    ((∀ i < n, ¬ zero < d i) → greedy zero d n = 0) ∧
    ((∃ i < n, zero < d i) → greedy zero d n < n ∧ zero < d (greedy zero d n) ∧
      (∀ i < n, ¬ d (greedy zero d n) < d i) ∧ ∀ i < greedy zero d n, d i ≠ d (greedy zero d n)) := by
  have key : ∀ n, ∃ b : Nat × E, (List.range n).foldl
      (fun (b : Nat × E) i => if b.2 < d i then (i, d i) else b) (0, zero) = b ∧
      ((b = (0, zero) ∧ ∀ i < n, ¬ zero < d i) ∨
       (b.1 < n ∧ b.2 = d b.1 ∧ zero < d b.1 ∧ (∀ i < n, ¬ d b.1 < d i) ∧
        ∀ i < b.1, d i ≠ d b.1)) := by
    intro n
    refine ⟨_, rfl, ?_⟩
    induction n with
    | zero => left; exact ⟨rfl, by simp⟩
    | succ n ih =>
      rw [List.range_succ, List.foldl_append, List.foldl_cons, List.foldl_nil]
      generalize (List.range n).foldl _ _ = b at ih ⊢
      obtain ⟨j, e⟩ := b
      rcases ih with ⟨hb, h1⟩ | ⟨h1, h2, h3, h4, h5⟩
      · cases hb
        by_cases hlt : zero < d n
        · right
          rw [if_pos hlt]
          refine ⟨by simp, rfl, hlt, ?_, ?_⟩
          · intro i hi h'
            rcases Nat.lt_succ_iff_lt_or_eq.1 hi with hi | rfl
            · exact h1 i hi (StrictPO.trans _ _ _ hlt h')
            · exact StrictPO.irrefl _ h'
          · intro i hi he
            exact h1 i hi (he ▸ hlt)
        · left
          rw [if_neg hlt]
          refine ⟨rfl, fun i hi => ?_⟩
          rcases Nat.lt_succ_iff_lt_or_eq.1 hi with hi | rfl
          · exact h1 i hi
          · exact hlt
      · right
        simp only at h1 h2 h3 h4 h5 ⊢
        subst h2
        by_cases hlt : d j < d n
        · rw [if_pos hlt]
          refine ⟨by simp, rfl, StrictPO.trans _ _ _ h3 hlt, ?_, ?_⟩
          · intro i hi h'
            rcases Nat.lt_succ_iff_lt_or_eq.1 hi with hi | rfl
            · exact h4 i hi (StrictPO.trans _ _ _ hlt h')
            · exact StrictPO.irrefl _ h'
          · intro i hi he
            exact h4 i hi (he ▸ hlt)
        · rw [if_neg hlt]
          refine ⟨by simp only; omega, rfl, h3, ?_, h5⟩
          intro i hi
          rcases Nat.lt_succ_iff_lt_or_eq.1 hi with hi | rfl
          · exact h4 i hi
          · exact hlt
  obtain ⟨b, hb, h⟩ := key n
  have hg : greedy zero d n = b.1 := by rw [greedy, hb]
  rw [hg]
  rcases h with ⟨h1, h2⟩ | ⟨h1, h2, h3, h4, h5⟩
  · exact ⟨fun _ => by rw [h1], fun ⟨i, hi, h⟩ => absurd h (h2 i hi)⟩
  · exact ⟨fun h => absurd h3 (h _ h1), fun _ => ⟨h1, h3, h4, h5⟩⟩

/-- **C18** (refuted part) The greedy policy does not select a coordinate of largest partial
derivative magnitude: with partial derivatives `(1, -100)` it picks the first. -/
theorem C18_greedy_largest_magnitude_refuted :
    ¬ ∀ (d : Nat → Int) (n : Nat), n ≠ 0 → ∀ i < n, (d i).natAbs ≤ (d (greedy 0 d n)).natAbs := by
  intro h
  have := h (fun i => if i = 0 then 1 else -100) 2 (by decide) 1 (by decide)
  revert this
  decide

/-- Integer example: two columns, objective `x₀² + x₁²` (each column one number), gradient `2x`,
step 1/2 written exactly as `x - g/2`. -/
def demo : Env Unit Int Int where
  feature := fun w i x => (w, i % x.length)
  partialGrad := fun w x j => (w, (x.map fun _ => 0).set j (2 * x.getD j 0))
  cbGradient := fun w _ _ g => (w, g, false)
  cbStep := fun w x => (w, x, false)
  evaluate := fun w x => (w, (x.map fun a => a * a).sum)
  cbEvaluate := fun w _ _ => (w, false)
  cbBegin := fun w x => (w, x)
  cbEnd := fun w x => (w, x)
  moveCol := fun c g => c - g / 2
  zero := 0
  maxVal := 1000
  isBad := fun _ => false
  isClose := fun a b => a == b

/-- Non-vacuity of `WellShaped`. -/
example : WellShaped demo 2 where
  feature := fun _ i x h => by simp only [demo, h]; omega
  partialGrad := fun _ x j h => by simp [demo, h]
  cbGradient := fun _ _ _ _ => rfl
  cbStep := fun _ _ => rfl
  cbBegin := fun _ _ => rfl

/-- Non-vacuity: three passes over two columns, ended by the limit. -/
example : ∃ r, optimize demo 4 2 10 () [3, 4] = some (.returned r) ∧ r.exit = .loop ∧
    r.x = [0, 0] ∧ r.obj = 0 ∧ steps r.trace = 3 := ⟨_, rfl, rfl, rfl, rfl, rfl⟩

/-- Non-vacuity: ended by the tolerance. -/
example : ∃ r, optimize demo 40 2 10 () [3, 4] = some (.returned r) ∧ r.exit = .tol ∧
    r.x = [0, 0] ∧ steps r.trace = 4 := ⟨_, rfl, rfl, rfl, rfl⟩

example : greedy 0 (fun i => [-5, 3, 7, 7].getD i (0 : Int)) 4 = 2 := by decide

end Ens.Cd
