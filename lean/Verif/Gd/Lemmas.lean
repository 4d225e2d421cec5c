import Verif.Trace
import Verif.Gd.Model

/-
Invariants of the gradient descent loop.
-/

namespace Ens.Gd

variable {W M G E : Type}

/-- Evaluated points with their objectives, in order. -/
def evals (t : List (Ev M E)) : List (M × E) :=
  t.filterMap (fun e => match e with
    | .eval x o => some (x, o)
    | _ => none)

def Ev.stops : Ev M E → Bool
  | .cbEval s => s
  | .stepTaken s => s
  | _ => false

def anyStop (t : List (Ev M E)) : Bool := t.any Ev.stops

@[simp] theorem evals_append (a b : List (Ev M E)) : evals (a ++ b) = evals a ++ evals b := by
  simp [evals]

@[simp] theorem anyStop_append (a b : List (Ev M E)) :
    anyStop (a ++ b) = (anyStop a || anyStop b) := by simp [anyStop]

/-- Trace law: no evaluation after a stop request; a step starts from the point just evaluated and
no request came before that evaluation; `beginOpt` comes first and only there. -/
def EvLaw (pre : List (Ev M E)) (e : Ev M E) : Prop :=
  match e with
  | .eval _ _ => anyStop pre = false ∧ pre ≠ []
  | .step x _ => ∃ pre' o st, pre = pre' ++ [.eval x o, .cbEval st] ∧ anyStop pre' = false
  | .beginOpt _ => pre = []
  | .endOpt _ => True
  | _ => pre ≠ []

def Ev.isEndOpt : Ev M E → Bool
  | .endOpt _ => true
  | _ => false

/-- Loop-head invariant with `k` completed passes. -/
structure Inv (env : Env W M G E) (k : Nat) (s : St W M E) : Prop where
  law : Along EvLaw s.trace
  ne : s.trace ≠ []
  stop : s.terminate = anyStop s.trace
  noEnd : ∀ e ∈ s.trace, e.isEndOpt = false
  cnt : (evals s.trace).length = k
  obj : s.overall = ((evals s.trace).getLast?.map Prod.snd).getD env.maxVal
  i : s.i = (1 + k) % 2 ^ 64

/-- After the first half of a pass. -/
structure Mid (env : Env W M G E) (k : Nat) (s : St W M E) : Prop where
  law : Along EvLaw s.trace
  ne : s.trace ≠ []
  stop : s.terminate = anyStop s.trace
  noEnd : ∀ e ∈ s.trace, e.isEndOpt = false
  cnt : (evals s.trace).length = k + 1
  obj : (evals s.trace).getLast? = some (s.x, s.overall)
  i : s.i = (1 + k) % 2 ^ 64
  last : ∃ t o st, s.trace = t ++ [.eval s.x o, .cbEval st] ∧ anyStop t = false

/-- The coordinates are those left by the step callback of the last pass, whose step started at the
last evaluated point. -/
def Moved (env : Env W M G E) (s : St W M E) : Prop :=
  ∃ x y st t w, (evals t).getLast? = some (x, s.overall) ∧ s.trace = t ++ [.step x y, .stepTaken st] ∧
    s.x = (env.cbStep w y).2.1

theorem start_inv (env : Env W M G E) (w : W) (x : M) : Inv env 0 (start env w x) := by
  refine ⟨?_, by simp [start], by simp [start, anyStop, Ev.stops], by simp [start, Ev.isEndOpt],
    by simp [start, evals], by simp [start, evals], by simp [start]⟩
  show Along _ ([] ++ [_])
  rw [along_snoc]
  exact ⟨along_nil _, rfl⟩

theorem evalPart_inv (env : Env W M G E) {k : Nat} {s : St W M E} (h : Inv env k s)
    (ht : s.terminate = false) :
    Mid env k (evalPart env s).1 ∧ (evalPart env s).1.x = s.x ∧ (evalPart env s).1.i = s.i := by
  have hstop : anyStop s.trace = false := by rw [← h.stop]; exact ht
  refine ⟨⟨?_, by simp [evalPart], ?_, ?_, ?_, ?_, h.i, ⟨s.trace, _, _, rfl, hstop⟩⟩, rfl, rfl⟩
  · simp only [evalPart]
    rw [along_snoc₂]
    exact ⟨h.law, ⟨hstop, h.ne⟩, by simp [EvLaw]⟩
  · simp only [evalPart, anyStop_append, h.stop]; simp [anyStop, Ev.stops]
  · intro e he
    simp only [evalPart, List.mem_append, List.mem_cons, List.not_mem_nil, or_false] at he
    rcases he with he | rfl | rfl
    · exact h.noEnd e he
    · rfl
    · rfl
  · simp only [evalPart, evals_append, List.length_append, h.cnt]; simp [evals]
  · simp only [evalPart, evals_append]; simp [evals]

theorem movePart_inv (env : Env W M G E) {k : Nat} {s : St W M E} (h : Mid env k s) (g : G) :
    Inv env (k + 1) (movePart env s g) ∧
      ∃ y st, (movePart env s g).trace = s.trace ++ [.step s.x y, .stepTaken st] ∧
        (movePart env s g).x = (env.cbStep s.w y).2.1 := by
  refine ⟨⟨?_, by simp [movePart], ?_, ?_, ?_, ?_, ?_⟩, _, _, rfl, rfl⟩
  · simp only [movePart]
    rw [along_snoc₂]
    obtain ⟨t, o, st, h1, h2⟩ := h.last
    exact ⟨h.law, ⟨t, o, st, h1, h2⟩, by simp [EvLaw]⟩
  · simp only [movePart, anyStop_append, h.stop]; simp [anyStop, Ev.stops]
  · intro e he
    simp only [movePart, List.mem_append, List.mem_cons, List.not_mem_nil, or_false] at he
    rcases he with he | rfl | rfl
    · exact h.noEnd e he
    · rfl
    · rfl
  · simp only [movePart, evals_append, List.length_append, h.cnt]; simp [evals]
  · have : evals [Ev.step s.x (env.move s.x g), .stepTaken (env.cbStep s.w (env.move s.x g)).2.2]
        = ([] : List (M × E)) := rfl
    simp only [movePart, evals_append, this, List.append_nil, h.obj]; rfl
  · simp only [movePart, incr, h.i]; omega

/-- Number of passes after which the counter, starting at 1, meets `maxIterations`. -/
def limit (maxIterations : Nat) : Nat :=
  if maxIterations = 0 then 2 ^ 64 - 1 else maxIterations - 1

theorem loop_inv (env : Env W M G E) {maxIterations : Nat} (hm : maxIterations < 2 ^ 64) :
    ∀ (fuel k : Nat) (s : St W M E), Inv env k s → k ≤ limit maxIterations →
    (loop env maxIterations fuel s = .outOfFuel ∧ fuel < limit maxIterations - k) ∨
    (∃ s' k', loop env maxIterations fuel s = .done .loop s' ∧ Inv env k' s' ∧
      k' ≤ limit maxIterations ∧ (s'.terminate = false → k' = limit maxIterations) ∧
      (s' = s ∨ Moved env s')) ∨
    (∃ e s' k', loop env maxIterations fuel s = .done e s' ∧ e ≠ .loop ∧ Mid env k' s' ∧
      k' < limit maxIterations ∧ (e = .bad ↔ env.isBad s'.overall = true)) := by
  have key : ∀ k, k ≤ limit maxIterations → ((1 + k) % 2 ^ 64 ≠ maxIterations ↔ k < limit maxIterations) := by
    intro k hk
    unfold limit at *
    split at hk
    · rename_i h0
      subst h0
      by_cases hk' : k = 2 ^ 64 - 1
      · subst hk'; simp
      · rw [Nat.mod_eq_of_lt (by omega)]; simp; omega
    · rw [Nat.mod_eq_of_lt (by omega), if_neg (by assumption)]; omega
  intro fuel
  induction fuel with
  | zero =>
    intro k s h hk
    rw [loop]
    by_cases hc : s.i ≠ maxIterations ∧ s.terminate = false
    · left
      rw [if_pos hc]
      have := (key k hk).1 (by rw [← h.i]; exact hc.1)
      exact ⟨rfl, by omega⟩
    · right; left
      rw [if_neg hc]
      refine ⟨s, k, rfl, h, hk, ?_, .inl rfl⟩
      intro ht
      by_contra hne
      exact hc ⟨by rw [h.i]; exact (key k hk).2 (by omega), ht⟩
  | succ fuel ih =>
    intro k s h hk
    rw [loop]
    by_cases hc : s.i ≠ maxIterations ∧ s.terminate = false
    · rw [if_pos hc]
      have hlt := (key k hk).1 (by rw [← h.i]; exact hc.1)
      obtain ⟨hmid, hx, _⟩ := evalPart_inv env h hc.2
      unfold body
      by_cases hb : env.isBad (evalPart env s).1.overall = true
      · simp only [hb, if_true]
        exact .inr (.inr ⟨.bad, _, k, rfl, by simp, hmid, hlt, by simp [hb]⟩)
      · by_cases hcl : env.isClose (evalPart env s).1.last (evalPart env s).1.overall = true
        · simp only [hb, hcl, if_true]
          exact .inr (.inr ⟨.tol, _, k, rfl, by simp, hmid, hlt, by simp [hb]⟩)
        · simp only [hb, hcl]
          obtain ⟨hinv, y, st, h1, h2⟩ := movePart_inv env hmid (evalPart env s).2
          have hmv : Moved env (movePart env (evalPart env s).1 (evalPart env s).2) :=
            ⟨_, _, _, _, _, hmid.obj, h1, h2⟩
          rcases ih (k + 1) _ hinv (by omega) with ⟨h1, h2⟩ | ⟨s', k', h1, h2, h3, h4, h5⟩ | h
          · exact .inl ⟨h1, by omega⟩
          · refine .inr (.inl ⟨s', k', h1, h2, h3, h4, ?_⟩)
            rcases h5 with rfl | h5
            · exact .inr hmv
            · exact .inr h5
          · exact .inr (.inr h)
    · right; left
      rw [if_neg hc]
      refine ⟨s, k, rfl, h, hk, ?_, .inl rfl⟩
      intro ht
      by_contra hne
      exact hc ⟨by rw [h.i]; exact (key k hk).2 (by omega), ht⟩

end Ens.Gd
