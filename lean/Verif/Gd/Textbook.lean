import Mathlib.Logic.Function.Iterate
import Verif.Gd.Lemmas

/-
C151: a `GradientDescent::Optimize` run computes the projected (clipped) gradient iteration, and stops
by its tolerance exactly when two successive objectives are close.
-/

namespace Ens.Gd

variable {W M G E : Type}

/-- User code with answers that depend on their arguments only; stop requests may be anything. -/
structure Steady (env : Env W M G E) (F : M → E) (g : M → G) (clip : G → G) (proj : M → M) : Prop where
  evalGrad : ∀ w x, (env.evalGrad w x).2 = (F x, g x)
  cbEvalGrad : ∀ w x e d, (env.cbEvalGrad w x e d).2.1 = clip d
  cbStep : ∀ w x, (env.cbStep w x).2.1 = proj x
  cbBegin : ∀ w x, (env.cbBegin w x).2 = x

/-- The iterates `y, step y, step (step y), ...`. -/
def path (env : Env W M G E) (g : M → G) (clip : G → G) (proj : M → M) (x : M) (j : Nat) : M :=
  (fun z => proj (env.move z (clip (g z))))^[j] x

/-- What the `j`-th objective is compared with. -/
def prevObj (env : Env W M G E) (F : M → E) (y : Nat → M) : Nat → E
  | 0 => env.maxVal
  | j + 1 => F (y j)

/-- The `j`-th objective lets the run continue. -/
def Goes (env : Env W M G E) (F : M → E) (y : Nat → M) (j : Nat) : Prop :=
  env.isBad (F (y j)) = false ∧ env.isClose (prevObj env F y j) (F (y j)) = false

variable {env : Env W M G E} {F : M → E} {g : M → G} {clip : G → G} {proj : M → M}

theorem steady_loop (h : Steady env F g clip proj) (mi : Nat) (x : M) (fuel : Nat) :
    let y := path env g clip proj x
    ∀ (k : Nat) (s : St W M E), s.x = y k → s.last = prevObj env F y k →
      evals s.trace = (List.range k).map (fun j => (y j, F (y j))) → (∀ j < k, Goes env F y j) →
      ∀ e s', loop env mi fuel s = .done e s' →
        ∃ k', evals s'.trace = (List.range k').map (fun j => (y j, F (y j))) ∧
          (e = .loop → s'.x = y k' ∧ ∀ j < k', Goes env F y j) ∧
          (e ≠ .loop → ∃ m, k' = m + 1 ∧ s'.x = y m ∧ (∀ j < m, Goes env F y j) ∧
            (e = .bad → env.isBad (F (y m)) = true) ∧
            (e = .tol → env.isBad (F (y m)) = false ∧
              env.isClose (prevObj env F y m) (F (y m)) = true)) := by
  intro y
  induction fuel with
  | zero =>
    intro k s hx _ hev hg e s' hl
    rw [loop] at hl
    split at hl
    · cases hl
    · cases hl
      exact ⟨k, hev, fun _ => ⟨hx, hg⟩, fun h => absurd rfl h⟩
  | succ fuel ih =>
    intro k s hx hlast hev hg e s' hl
    rw [loop] at hl
    split at hl
    · have ho : (evalPart env s).1.overall = F (y k) := by
        show (env.evalGrad s.w s.x).2.1 = _
        rw [h.evalGrad, hx]
      have hgr : (evalPart env s).2 = clip (g (y k)) := by
        show (env.cbEvalGrad _ _ _ _).2.1 = _
        rw [h.cbEvalGrad, h.evalGrad, hx]
      have hx1 : (evalPart env s).1.x = y k := hx
      have hl1 : (evalPart env s).1.last = prevObj env F y k := hlast
      have hev1 : evals (evalPart env s).1.trace
          = (List.range (k + 1)).map (fun j => (y j, F (y j))) := by
        have : evals (evalPart env s).1.trace = evals s.trace ++ [(s.x, (evalPart env s).1.overall)] := by
          simp only [evalPart, evals_append]; simp [evals]
        rw [this, hev, ho, hx, List.range_succ, List.map_append]; rfl
      have hbd : body env s = if env.isBad (evalPart env s).1.overall then .ret .bad (evalPart env s).1
          else if env.isClose (evalPart env s).1.last (evalPart env s).1.overall then
            .ret .tol (evalPart env s).1
          else .cont (movePart env (evalPart env s).1 (evalPart env s).2) := rfl
      generalize evalPart env s = q at *
      rw [hbd] at hl
      by_cases hb : env.isBad q.1.overall = true
      · rw [if_pos hb] at hl
        cases hl
        exact ⟨k + 1, hev1, (fun h => by cases h),
          fun _ => ⟨k, rfl, hx1, hg, fun _ => ho ▸ hb, (fun h => by cases h)⟩⟩
      · rw [if_neg hb] at hl
        by_cases hc : env.isClose q.1.last q.1.overall = true
        · rw [if_pos hc] at hl
          cases hl
          rw [hl1, ho] at hc
          rw [ho] at hb
          exact ⟨k + 1, hev1, (fun h => by cases h),
            fun _ => ⟨k, rfl, hx1, hg, (fun h => by cases h), fun _ => ⟨by simpa using hb, hc⟩⟩⟩
        · rw [if_neg hc] at hl
          rw [hl1, ho] at hc
          rw [ho] at hb
          refine ih (k + 1) _ ?_ ?_ ?_ ?_ e s' hl
          · show (env.cbStep _ (env.move q.1.x q.2)).2.1 = _
            rw [h.cbStep, hx1, hgr]
            exact (Function.iterate_succ_apply' (fun z => proj (env.move z (clip (g z)))) k x).symm
          · show q.1.overall = _
            rw [ho]; rfl
          · have : evals (movePart env q.1 q.2).trace = evals q.1.trace := by
              simp only [movePart, evals_append]; simp [evals]
            rw [this, hev1]
          · intro j hj
            rcases Nat.lt_succ_iff_lt_or_eq.1 hj with hj | rfl
            · exact hg j hj
            · exact ⟨by simpa using hb, by simpa using hc⟩
    · cases hl
      exact ⟨k, hev, fun _ => ⟨hx, hg⟩, fun h => absurd rfl h⟩

/-- **C151** Gradient descent computes the projected iteration of the textbook.  Let the objective be
`F` with gradient `g`, let the gradient callbacks transform gradients by `clip` and the step callbacks
transform coordinates by `proj`; stop requests may come at any time.  Then the evaluated points are
exactly the first iterates `y_0 = x, y_{j+1} = proj (y_j - stepSize * clip (g y_j))`; the run passes an
iterate only if its objective is finite and not within the tolerance of the preceding one; a tolerance
(NaN/Inf) return is at the first iterate that fails that test, and hands back that iterate; otherwise
the iterate after the last evaluated one is handed back. -/
theorem C151_gd_is_textbook (h : Steady env F g clip proj) {mi fuel : Nat} {w : W} {x : M}
    {r : Result W M E} (hr : optimize env mi fuel w x = some r) :
    let y := path env g clip proj x
    ∃ k, evals r.trace = (List.range k).map (fun j => (y j, F (y j))) ∧
      (r.exit = .loop → r.x = y k ∧ ∀ j < k, Goes env F y j) ∧
      (r.exit ≠ .loop → ∃ m, k = m + 1 ∧ r.x = y m ∧ (∀ j < m, Goes env F y j) ∧
        (r.exit = .bad → env.isBad (F (y m)) = true) ∧
        (r.exit = .tol → env.isBad (F (y m)) = false ∧
          env.isClose (prevObj env F y m) (F (y m)) = true)) := by
  intro y
  rw [optimize] at hr
  cases hl : loop env mi fuel (start env w x) with
  | outOfFuel => rw [hl] at hr; cases hr
  | done e s =>
    rw [hl] at hr
    cases hr
    obtain ⟨k, h1, h2, h3⟩ := steady_loop h mi x fuel 0 (start env w x) (h.cbBegin w x) rfl rfl
      (fun j hj => absurd hj (Nat.not_lt_zero j)) e s hl
    refine ⟨k, ?_, h2, h3⟩
    rw [← h1]
    show evals (_ ++ _) = _
    rw [evals_append]; simp [evals]

/-- Objective `x`, gradient `x` clipped at 10, projection on the even numbers, unit step. -/
def demoSteady : Env Unit Int Int Int where
  evalGrad := fun w x => (w, x, x)
  cbBegin := fun w x => (w, x)
  cbEvalGrad := fun w _ _ g => (w, min g 10, false)
  cbStep := fun w x => (w, x / 2 * 2, false)
  cbEnd := fun w x => (w, x)
  move := fun x g => x - g
  isBad := fun _ => false
  isClose := fun a b => decide ((a - b).natAbs < 1)
  maxVal := 1000

/-- Non-vacuity of C151: clipping and projection are active, and the run ends by its tolerance. -/
example : Steady demoSteady id id (fun g => min g 10) (fun x => x / 2 * 2) :=
  ⟨fun _ _ => rfl, fun _ _ _ _ => rfl, fun _ _ => rfl, fun _ _ => rfl⟩

example : ∃ r, optimize demoSteady 20 20 () 35 = some r ∧ r.exit = .tol ∧
    evals r.trace = [(35, 35), (24, 24), (14, 14), (4, 4), (0, 0), (0, 0)] :=
  ⟨_, rfl, rfl, rfl⟩

end Ens.Gd
