import Mathlib.Algebra.Order.Field.Rat
import Mathlib.Tactic.NormNum
import Verif.Best
import Verif.Lbfgs.Model
import Verif.Lbfgs.Direction

/-
L-BFGS runs: C99 (returned value), C100 (progress), C101 (reuse), C102 (line search).
-/

namespace Ens.Lbfgs

variable {W X G E Mem : Type} [Add E] [Mul E] [Neg E] [LT E] [DecidableLT E]

/-! ### C102: the line search -/

/-- What holds at every pass of the line-search loop. -/
structure LsInv (env : Env W X G E Mem) (F : X → E) (x : X) (dir : G) (s : LS W G E) : Prop where
  num : s.num = s.trials.length
  cap : s.num < max 1 env.maxLineSearchTrials
  val : ∀ p ∈ s.trials, p.2 = F (env.move x p.1 dir) ∧ env.isNaN p.2 = false
  best : (s.bestStep, s.bestObj) = s.trials.foldl bestStep (env.one, env.maxVal)

theorem ls_spec (env : Env W X G E Mem) {F : X → E} (hF : ∀ w x, (env.evalGrad w x).2.1 = F x) (x : X) (dir : G)
    (initF initDot lin : E) (w : W) (fv : E) (grad : G) (terminate : Bool) :
    ∃ e t, iterate (lsStep env x dir initF initDot lin) (lsFuel env) (lsStart env w fv grad terminate) = some (e, t) ∧
      t.trials.length ≤ max 1 env.maxLineSearchTrials ∧
      (∀ p ∈ t.trials, p.2 = F (env.move x p.1 dir) ∧ env.isNaN p.2 = false) ∧
      (e = .nan → env.isNaN t.fv = true ∧ t.trials.length < max 1 env.maxLineSearchTrials) ∧
      (e ≠ .nan → (t.bestStep, t.bestObj) = t.trials.foldl bestStep (env.one, env.maxVal) ∧
        ∃ pre, t.trials = pre ++ [(t.step, t.fv)]) ∧
      (e = .wolfe → ¬ initF + t.step * lin < t.fv ∧ ¬ env.dot t.grad dir < env.wolfe * initDot ∧
        ¬ -env.wolfe * initDot < env.dot t.grad dir) ∧
      (terminate = true → t.terminate = true) := by
  have hstart : LsInv env F x dir (lsStart env w fv grad terminate) ∧
      (terminate = true → (lsStart env w fv grad terminate).terminate = true) :=
    ⟨⟨rfl, by simp [lsStart], by simp [lsStart], rfl⟩, fun h => h⟩
  have hbody : ∀ s s', (LsInv env F x dir s ∧ (terminate = true → s.terminate = true)) →
      lsStep env x dir initF initDot lin s = .inl s' →
      (LsInv env F x dir s' ∧ (terminate = true → s'.terminate = true)) ∧
      max 1 env.maxLineSearchTrials - s'.num < max 1 env.maxLineSearchTrials - s.num := by
    intro s s' ⟨hi, ht⟩ h
    unfold lsStep at h
    simp only at h
    by_cases hn : env.isNaN (env.evalGrad s.w (env.move x s.step dir)).2.1 = true
    · rw [if_pos hn] at h; cases h
    · rw [if_neg hn] at h
      split at h
      · cases h
      · rename_i wd _
        split at h
        · cases h
        · rename_i hc
          cases h
          simp only [not_or] at hc
          have hcap := hi.cap
          refine ⟨⟨⟨by simp [hi.num], ?_, ?_, ?_⟩, ?_⟩, ?_⟩
          · dsimp only; omega
          · intro p hp
            rcases List.mem_append.1 hp with hp | hp
            · exact hi.val p hp
            · rw [List.mem_singleton] at hp; subst hp
              exact ⟨hF _ _, by simpa using hn⟩
          · dsimp only
            rw [List.foldl_append, ← hi.best, List.foldl_cons, List.foldl_nil, bestStep]
          · intro h; simp [ht h]
          · dsimp only; omega
  obtain ⟨⟨e, t⟩, hr⟩ := iterate_total
    (fun s => LsInv env F x dir s ∧ (terminate = true → s.terminate = true))
    (fun s => max 1 env.maxLineSearchTrials - s.num) hbody (lsFuel env + 1)
    (lsStart env w fv grad terminate) hstart (by simp only [lsStart, lsFuel]; omega)
  -- the measure argument gives one pass more than needed; redo it with the exact bound
  have hexact : ∀ (fuel : Nat) (s : LS W G E), (LsInv env F x dir s ∧ (terminate = true → s.terminate = true)) →
      max 1 env.maxLineSearchTrials - s.num ≤ fuel →
      ∃ r, iterate (lsStep env x dir initF initDot lin) fuel s = some r := by
    intro fuel
    induction fuel with
    | zero => intro s hs h; have := hs.1.cap; omega
    | succ fuel ih =>
      intro s hs h
      rw [iterate]
      cases hst : lsStep env x dir initF initDot lin s with
      | inl s' =>
        obtain ⟨h1, h2⟩ := hbody s s' hs hst
        exact ih s' h1 (by omega)
      | inr r => exact ⟨r, rfl⟩
  obtain ⟨⟨e, t⟩, hr⟩ := hexact (lsFuel env) (lsStart env w fv grad terminate) hstart
    (by simp only [lsStart, lsFuel]; omega)
  refine ⟨e, t, hr, ?_⟩
  refine iterate_inv (fun s => LsInv env F x dir s ∧ (terminate = true → s.terminate = true))
    (fun r : LsExit × LS W G E => r.2.trials.length ≤ max 1 env.maxLineSearchTrials ∧
      (∀ p ∈ r.2.trials, p.2 = F (env.move x p.1 dir) ∧ env.isNaN p.2 = false) ∧
      (r.1 = .nan → env.isNaN r.2.fv = true ∧ r.2.trials.length < max 1 env.maxLineSearchTrials) ∧
      (r.1 ≠ .nan → (r.2.bestStep, r.2.bestObj) = r.2.trials.foldl bestStep (env.one, env.maxVal) ∧
        ∃ pre, r.2.trials = pre ++ [(r.2.step, r.2.fv)]) ∧
      (r.1 = .wolfe → ¬ initF + r.2.step * lin < r.2.fv ∧ ¬ env.dot r.2.grad dir < env.wolfe * initDot ∧
        ¬ -env.wolfe * initDot < env.dot r.2.grad dir) ∧
      (terminate = true → r.2.terminate = true))
    (fun s s' hs h => (hbody s s' hs h).1) ?_ (lsFuel env) (lsStart env w fv grad terminate) (e, t) hstart hr
  intro s r ⟨hi, ht⟩ h
  have hcap := hi.cap
  have hnum := hi.num
  unfold lsStep at h
  simp only at h
  by_cases hn : env.isNaN (env.evalGrad s.w (env.move x s.step dir)).2.1 = true
  · rw [if_pos hn] at h
    cases h
    exact ⟨by dsimp only; omega, hi.val, fun _ => ⟨hn, by dsimp only; omega⟩, fun h => absurd rfl h,
      (fun h => by cases h), ht⟩
  · rw [if_neg hn] at h
    have hval : ∀ p ∈ s.trials ++ [(s.step, (env.evalGrad s.w (env.move x s.step dir)).2.1)],
        p.2 = F (env.move x p.1 dir) ∧ env.isNaN p.2 = false := by
      intro p hp
      rcases List.mem_append.1 hp with hp | hp
      · exact hi.val p hp
      · rw [List.mem_singleton] at hp; subst hp
        exact ⟨hF _ _, by simpa using hn⟩
    have hbest : (if (env.evalGrad s.w (env.move x s.step dir)).2.1 < s.bestObj then
        (s.step, (env.evalGrad s.w (env.move x s.step dir)).2.1) else (s.bestStep, s.bestObj)) =
        (s.trials ++ [(s.step, (env.evalGrad s.w (env.move x s.step dir)).2.1)]).foldl bestStep
          (env.one, env.maxVal) := by
      rw [List.foldl_append, ← hi.best, List.foldl_cons, List.foldl_nil, bestStep]
    split at h
    · rename_i hw
      cases h
      refine ⟨by simp only [List.length_append, List.length_singleton]; omega, hval,
        (fun h => by cases h), fun _ => ⟨hbest, _, rfl⟩, fun _ => ?_,
        fun h => by simp [ht h]⟩
      dsimp only
      unfold width at hw
      split at hw
      · cases hw
      · split at hw
        · cases hw
        · split at hw
          · cases hw
          · exact ⟨by assumption, by assumption, by assumption⟩
    · split at h
      · cases h
        exact ⟨by simp only [List.length_append, List.length_singleton]; omega, hval,
          (fun h => by cases h), fun _ => ⟨hbest, _, rfl⟩, (fun h => by cases h),
          fun h => by simp [ht h]⟩
      · cases h

/-- **C102** The line search always ends, after at most `max(1, maxLineSearchTrials)` evaluations. If it is left
because neither Wolfe test failed, the last trial satisfies the Armijo condition and both curvature conditions. -/
theorem C102_line_search (env : Env W X G E Mem) {F : X → E} (hF : ∀ w x, (env.evalGrad w x).2.1 = F x) (x : X)
    (dir : G) (initF initDot lin : E) (w : W) (fv : E) (grad : G) (terminate : Bool) :
    ∃ e t, iterate (lsStep env x dir initF initDot lin) (lsFuel env) (lsStart env w fv grad terminate) = some (e, t) ∧
      t.trials.length + (if e = .nan then 1 else 0) ≤ max 1 env.maxLineSearchTrials ∧
      (e = .wolfe → t.fv = F (env.move x t.step dir) ∧ ¬ initF + t.step * lin < t.fv ∧
        ¬ env.dot t.grad dir < env.wolfe * initDot ∧ ¬ -env.wolfe * initDot < env.dot t.grad dir) := by
  obtain ⟨e, t, h, h1, h2, h3, h4, h5, -⟩ := ls_spec env hF x dir initF initDot lin w fv grad terminate
  refine ⟨e, t, h, ?_, ?_⟩
  · by_cases he : e = .nan
    · rw [if_pos he]; have := (h3 he).2; omega
    · rw [if_neg he]; exact h1
  · intro he
    obtain ⟨pre, hp⟩ := (h4 (by rw [he]; decide)).2
    exact ⟨(h2 (t.step, t.fv) (by rw [hp]; simp)).1, h5 he⟩

/-! ### Runs -/

/-- `F x ≤ value` in the sense of the bookkeeping. -/
def NotBelow (v b : E) : Prop := b = v ∨ b < v

/-- Invariant of the main loop for a deterministic objective and callbacks that do not touch the coordinates. -/
structure Inv (env : Env W X G E Mem) (F : X → E) (f0 : E) (s : St W X G E Mem) : Prop where
  at_x : NotBelow s.fv (F s.x) ∨ env.isNaN s.fv = true
  evals : s.evals ≤ 1 + s.it * max 1 env.maxLineSearchTrials
  bound : env.maxIterations = 0 ∨ s.it ≤ env.maxIterations
  loglen : s.log.length = s.it
  down : (s.log ++ [s.fv]).Pairwise fun a b => b < a
  first : (s.log ++ [s.fv]).head? = some f0

/-- Result of a run. -/
structure Post (env : Env W X G E Mem) (F : X → E) (f0 : E) (e : Exit) (s : St W X G E Mem) : Prop where
  at_x : NotBelow s.fv (F s.x) ∨ env.isNaN s.fv = true
  evals : s.evals ≤ 1 + s.log.length * max 1 env.maxLineSearchTrials
  bound : env.maxIterations = 0 ∨ s.log.length ≤ env.maxIterations
  down : s.log.Pairwise fun a b => b < a
  first : (s.log ++ [s.fv]).head? = some f0

/-- `<` restricted to non-NaN values is total, NaN is below nothing and above nothing. -/
class IeeeLike (E : Type) [LT E] (isNaN : E → Bool) : Prop where
  total : ∀ a b : E, isNaN a = false → isNaN b = false → a < b ∨ a = b ∨ b < a

theorem best_notBelow [StrictPO E] {isNaN : E → Bool} [IeeeLike E isNaN] {maxVal one : E}
    {l : List (E × E)} (hl : ∀ p ∈ l, isNaN p.2 = false ∧ p.2 < maxVal) {q : E × E} (hq : q ∈ l) :
    (l.foldl bestStep (one, maxVal)) ∈ l ∧ NotBelow q.2 (l.foldl bestStep (one, maxVal)).2 := by
  rcases bestFold_spec (one, maxVal) l with ⟨-, h2⟩ | ⟨-, h3, pre, post, h4, -⟩
  · exact absurd (hl q hq).2 (h2 q hq)
  · have hmem : (l.foldl bestStep (one, maxVal)) ∈ l := by
      have : l.foldl bestStep (one, maxVal) ∈ pre ++ (l.foldl bestStep (one, maxVal)) :: post := by simp
      rwa [← h4] at this
    refine ⟨hmem, ?_⟩
    rcases IeeeLike.total (isNaN := isNaN) q.2 (l.foldl bestStep (one, maxVal)).2 (hl q hq).1 (hl _ hmem).1 with
      h | h | h
    · exact absurd h (h3 q hq)
    · exact Or.inl h.symm
    · exact Or.inr h

theorem step_spec [StrictPO E] (env : Env W X G E Mem) [IeeeLike E env.isNaN] {F : X → E}
    (hF : ∀ w x, (env.evalGrad w x).2.1 = F x) (hmax : ∀ x, env.isNaN (F x) = true ∨ F x < env.maxVal)
    (hcb : ∀ w x, (env.cbStep w x).2.1 = x)
    (hst : ∀ a b, env.isNaN a = false → env.isNaN b = false → env.stable a b = false → b < a) (f0 : E)
    (s : St W X G E Mem) (hi : Inv env F f0 s) :
    (∀ s', step env s = .inl s' → Inv env F f0 s' ∧ s'.it = s.it + 1) ∧
    (∀ r, step env s = .inr r → Post env F f0 r.1 r.2) := by
  have hdown : (s.log ++ [s.fv]).Pairwise fun a b => b < a := hi.down
  have hdown' : s.log.Pairwise fun a b => b < a := (List.pairwise_append.1 hdown).1
  have hfirst2 : ∀ v : E, (s.log ++ [s.fv] ++ [v]).head? = some f0 := by
    intro v
    have := hi.first
    cases hlog : s.log with
    | nil => rw [hlog] at this; simpa using this
    | cons a l => rw [hlog] at this; simpa using this
  have hev : s.evals ≤ 1 + (s.log ++ [s.fv]).length * max 1 env.maxLineSearchTrials := by
    have h1 := hi.evals
    have h2 := hi.loglen
    rw [List.length_append, h2]
    simp only [List.length_singleton]
    refine le_trans h1 ?_
    gcongr
    omega
  unfold step
  by_cases hloop : ¬ (env.maxIterations = 0 ∨ s.it ≠ env.maxIterations) ∨ s.terminate = true
  · rw [if_pos hloop]
    refine ⟨(fun s' h => by cases h), fun r h => ?_⟩
    cases h
    exact ⟨hi.at_x, by rw [hi.loglen]; exact hi.evals, by rw [hi.loglen]; exact hi.bound, hdown', hi.first⟩
  rw [if_neg hloop]
  rw [not_or, not_not] at hloop
  have hbound : env.maxIterations = 0 ∨ (s.log ++ [s.fv]).length ≤ env.maxIterations := by
    rcases hloop.1 with h | h
    · exact Or.inl h
    · rcases hi.bound with hb | hb
      · exact Or.inl hb
      · right; rw [List.length_append, hi.loglen]; simp only [List.length_singleton]; omega
  have hpost : ∀ e, Post env F f0 e { s with log := s.log ++ [s.fv] } := fun e =>
    ⟨hi.at_x, hev, hbound, hdown, hfirst2 s.fv⟩
  simp only
  by_cases h1 : env.gradSmall s.grad = true
  · rw [if_pos h1]
    exact ⟨(fun s' h => by cases h), fun r h => by cases h; exact hpost _⟩
  rw [if_neg h1]
  by_cases h2 : env.isNaN s.fv = true
  · rw [if_pos h2]
    exact ⟨(fun s' h => by cases h), fun r h => by cases h; exact hpost _⟩
  rw [if_neg h2]
  by_cases h3 : env.isZero (env.scaling s.it s.grad s.mem) = true
  · rw [if_pos h3]
    exact ⟨(fun s' h => by cases h), fun r h => by cases h; exact hpost _⟩
  rw [if_neg h3]
  by_cases h4 : ¬ env.isFinite (env.scaling s.it s.grad s.mem) = true
  · rw [if_pos h4]
    exact ⟨(fun s' h => by cases h), fun r h => by cases h; exact hpost _⟩
  rw [if_neg h4]
  generalize env.direction s.it s.grad (env.scaling s.it s.grad s.mem) s.mem = dir
  generalize hd0 : env.dot s.grad dir = d0
  by_cases h5 : env.zero < d0 ∨ ¬ env.isFinite d0 = true
  · rw [if_pos h5]
    exact ⟨(fun s' h => by cases h), fun r h => by cases h; exact hpost _⟩
  rw [if_neg h5]
  obtain ⟨e, t, hls, hlen, hval, hnan, hok, -, -⟩ := ls_spec env hF s.x dir s.fv d0 (env.armijoConstant * d0)
    s.w s.fv s.grad s.terminate
  rw [hls]
  have hev2 : s.evals + t.trials.length ≤ 1 + (s.it + 1) * max 1 env.maxLineSearchTrials := by
    have := hi.evals
    have e1 : (s.it + 1) * max 1 env.maxLineSearchTrials =
      s.it * max 1 env.maxLineSearchTrials + max 1 env.maxLineSearchTrials := by ring
    omega
  have hll : (s.log ++ [s.fv]).length = s.it + 1 := by rw [List.length_append, hi.loglen]; rfl
  simp only [afterSearch]
  by_cases he : e = .nan
  · rw [if_pos he]
    refine ⟨(fun s' h => by cases h), fun r h => ?_⟩
    cases h
    obtain ⟨hn1, hn2⟩ := hnan he
    refine ⟨Or.inr hn1, ?_, hbound, hdown, ?_⟩
    · dsimp only
      rw [hll]
      have := hi.evals
      have e1 : (s.it + 1) * max 1 env.maxLineSearchTrials =
        s.it * max 1 env.maxLineSearchTrials + max 1 env.maxLineSearchTrials := by ring
      omega
    · dsimp only; exact hfirst2 t.fv
  · obtain ⟨hbest, pre, hpre⟩ := hok he
    have hq : (t.step, t.fv) ∈ t.trials := by rw [hpre]; simp
    have hgood : ∀ p ∈ t.trials, env.isNaN p.2 = false ∧ p.2 < env.maxVal := by
      intro p hp
      obtain ⟨a, b⟩ := hval p hp
      refine ⟨b, ?_⟩
      rcases hmax (env.move s.x p.1 dir) with h | h
      · rw [← a, b] at h; cases h
      · rw [a]; exact h
    obtain ⟨hbm, hbn⟩ := best_notBelow (isNaN := env.isNaN) (one := env.one) hgood hq
    rw [← hbest] at hbm hbn
    have hatx : NotBelow t.fv (F (env.move s.x t.bestStep dir)) := by
      rw [← (hval _ hbm).1]; exact hbn
    rw [if_neg he]
    by_cases h6 : env.isZero t.bestStep = true
    · rw [if_pos h6]
      refine ⟨(fun s' h => by cases h), fun r h => ?_⟩
      cases h
      exact ⟨Or.inl hatx, by dsimp only; rw [hll]; exact hev2, hbound, hdown, hfirst2 t.fv⟩
    rw [if_neg h6]
    by_cases h7 : env.stable s.fv t.fv = true
    · rw [if_pos h7]
      refine ⟨(fun s' h => by cases h), fun r h => ?_⟩
      cases h
      exact ⟨Or.inl hatx, by dsimp only; rw [hll]; exact hev2, hbound, hdown, hfirst2 t.fv⟩
    rw [if_neg h7]
    refine ⟨fun s' h => ?_, fun r h => by cases h⟩
    cases h
    have hlt : t.fv < s.fv := hst s.fv t.fv (by simpa using h2) (hgood _ hq).1 (by simpa using h7)
    refine ⟨⟨?_, hev2, ?_, hll, ?_, hfirst2 t.fv⟩, rfl⟩
    · dsimp only; rw [hcb]; exact Or.inl hatx
    · dsimp only; rw [← hll]; exact hbound
    · dsimp only
      rw [List.pairwise_append]
      refine ⟨hdown, by simp, ?_⟩
      intro a ha b hb
      rw [List.mem_singleton] at hb; subst hb
      rcases List.mem_append.1 ha with ha | ha
      · have : s.fv < a := (List.pairwise_append.1 hdown).2.2 a ha s.fv (by simp)
        exact StrictPO.trans _ _ _ hlt this
      · rw [List.mem_singleton] at ha; subst ha; exact hlt

/-- **C99** (partial), **C100** (partial) For a deterministic objective and callbacks that leave the coordinates alone:
the objective at the final coordinates is not larger than the returned value (unless that is NaN); the values at
the starts of the iterations are strictly decreasing, beginning with the objective of the initial coordinates; the
number of iterations is at most `maxIterations` (if not 0) and each makes at most `max(1, maxLineSearchTrials)`
evaluations. -/
theorem run_spec [StrictPO E] (env : Env W X G E Mem) [IeeeLike E env.isNaN] {F : X → E}
    (hF : ∀ w x, (env.evalGrad w x).2.1 = F x) (hmax : ∀ x, env.isNaN (F x) = true ∨ F x < env.maxVal)
    (hcb : ∀ w x, (env.cbStep w x).2.1 = x) (hb : ∀ w x, (env.cbBegin w x).2 = x)
    (he : ∀ w x, (env.cbEnd w x).2 = x)
    (hst : ∀ a b, env.isNaN a = false → env.isNaN b = false → env.stable a b = false → b < a)
    {mem : Mem} {terminate : Bool} {fuel : Nat} {w : W} {x : X} {e : Exit} {s : St W X G E Mem}
    (h : optimize env mem terminate fuel w x = some (e, s)) : Post env F (F x) e s := by
  unfold optimize at h
  rw [Option.map_eq_some_iff] at h
  obtain ⟨r, hr, h⟩ := h
  simp only [Prod.mk.injEq] at h
  obtain ⟨rfl, rfl⟩ := h
  have hstart : Inv env F (F x) (start env mem terminate w x) := by
    refine ⟨?_, ?_, ?_, rfl, ?_, ?_⟩
    · left; left; simp only [start, hb, hF]
    · simp [start]
    · right; simp [start]
    · simp [start]
    · simp [start, hF]
  have hp := iterate_inv (Inv env F (F x)) (fun r => Post env F (F x) r.1 r.2)
    (fun s s' hi h => ((step_spec env hF hmax hcb hst (F x) s hi).1 s' h).1)
    (fun s r hi h => (step_spec env hF hmax hcb hst (F x) s hi).2 r h) fuel _ _ hstart hr
  exact ⟨by simp only [he]; exact hp.at_x, hp.evals, hp.bound, hp.down, hp.first⟩

/-- **C99** (partial) The objective at the coordinates L-BFGS hands back is at most the value it returns, unless that
value is NaN. -/
theorem C99_value_partial [StrictPO E] (env : Env W X G E Mem) [IeeeLike E env.isNaN] {F : X → E}
    (hF : ∀ w x, (env.evalGrad w x).2.1 = F x) (hmax : ∀ x, env.isNaN (F x) = true ∨ F x < env.maxVal)
    (hcb : ∀ w x, (env.cbStep w x).2.1 = x) (hb : ∀ w x, (env.cbBegin w x).2 = x)
    (he : ∀ w x, (env.cbEnd w x).2 = x)
    (hst : ∀ a b, env.isNaN a = false → env.isNaN b = false → env.stable a b = false → b < a)
    {mem : Mem} {terminate : Bool} {fuel : Nat} {w : W} {x : X} {e : Exit} {s : St W X G E Mem}
    (h : optimize env mem terminate fuel w x = some (e, s)) :
    F s.x = s.fv ∨ F s.x < s.fv ∨ env.isNaN s.fv = true := by
  rcases (run_spec env hF hmax hcb hb he hst h).at_x with (h | h) | h
  · exact Or.inl h
  · exact Or.inr (Or.inl h)
  · exact Or.inr (Or.inr h)

/-- **C100** (partial) The objective values at the starts of the iterations are strictly decreasing and begin with the
objective of the initial coordinates; a run makes at most `maxIterations` iterations (if that is not 0) and at
most `1 + iterations * max(1, maxLineSearchTrials)` evaluations. -/
theorem C100_progress_partial [StrictPO E] (env : Env W X G E Mem) [IeeeLike E env.isNaN] {F : X → E}
    (hF : ∀ w x, (env.evalGrad w x).2.1 = F x) (hmax : ∀ x, env.isNaN (F x) = true ∨ F x < env.maxVal)
    (hcb : ∀ w x, (env.cbStep w x).2.1 = x) (hb : ∀ w x, (env.cbBegin w x).2 = x)
    (he : ∀ w x, (env.cbEnd w x).2 = x)
    (hst : ∀ a b, env.isNaN a = false → env.isNaN b = false → env.stable a b = false → b < a)
    {mem : Mem} {terminate : Bool} {fuel : Nat} {w : W} {x : X} {e : Exit} {s : St W X G E Mem}
    (h : optimize env mem terminate fuel w x = some (e, s)) :
    s.log.Pairwise (fun a b => b < a) ∧ (∀ v l, s.log = v :: l → v = F x) ∧
    (env.maxIterations = 0 ∨ s.log.length ≤ env.maxIterations) ∧
    s.evals ≤ 1 + s.log.length * max 1 env.maxLineSearchTrials := by
  have hp := run_spec env hF hmax hcb hb he hst h
  refine ⟨hp.down, ?_, hp.bound, hp.evals⟩
  intro v l hl
  have := hp.first
  rw [hl] at this
  simpa using this

/-- **C101** (partial) If the object's `terminate` flag is still set from an earlier run, `Optimize` performs no
iteration at all: it evaluates the starting point and returns. -/
theorem C101_reuse_partial (env : Env W X G E Mem) (mem : Mem) (fuel : Nat) (w : W) (x : X) :
    ∃ s, optimize env mem true (fuel + 1) w x = some (.loop, s) ∧ s.it = 0 ∧ s.evals = 1 ∧
      s.fv = (env.evalGrad w x).2.1 := by
  have : step env (start env mem true w x) = .inr (.loop, start env mem true w x) := by
    unfold step
    rw [if_pos (Or.inr (by simp [start]))]
  refine ⟨{ start env mem true w x with
      w := (env.cbEnd (start env mem true w x).w (start env mem true w x).x).1,
      x := (env.cbEnd (start env mem true w x).w (start env mem true w x).x).2 }, ?_, rfl, rfl, rfl⟩
  unfold optimize
  rw [iterate, this]
  rfl

/-! ### C103: the gradient used for the next pair -/

theorem ls_grad (env : Env W X G E Mem) {D : X → G} (hD : ∀ w x, (env.evalGrad w x).2.2 = D x)
    (hcb : ∀ w x v g, (env.cbEvalGrad w x v g).2.1 = g) (x : X) (dir : G) (initF initDot lin : E) (fuel : Nat)
    (s₀ : LS W G E) {e : LsExit} {t : LS W G E}
    (h : iterate (lsStep env x dir initF initDot lin) fuel s₀ = some (e, t)) :
    t.grad = D (env.move x t.step dir) := by
  refine iterate_inv (fun _ => True) (fun r : LsExit × LS W G E => r.2.grad = D (env.move x r.2.step dir))
    (fun _ _ _ _ => trivial) ?_ fuel s₀ (e, t) trivial h
  intro s r _ h
  unfold lsStep at h
  simp only at h
  by_cases hn : env.isNaN (env.evalGrad s.w (env.move x s.step dir)).2.1 = true
  · rw [if_pos hn] at h
    cases h
    exact hD _ _
  · rw [if_neg hn] at h
    split at h
    · cases h
      dsimp only
      rw [hcb, hD]
    · split at h
      · cases h
        dsimp only
        rw [hcb, hD]
      · cases h

/-- **C103** (partial) After a successful line search whose last trial is also its best one, the gradient kept for the
next iteration (and for the new pair) is the gradient of the objective at the new coordinates, and the kept value is
the objective there. -/
theorem C103_gradient_partial (env : Env W X G E Mem) {F : X → E} {D : X → G}
    (hF : ∀ w x, (env.evalGrad w x).2.1 = F x) (hD : ∀ w x, (env.evalGrad w x).2.2 = D x)
    (hcb : ∀ w x v g, (env.cbEvalGrad w x v g).2.1 = g) (hst : ∀ w x, (env.cbStep w x).2.1 = x)
    (s s' : St W X G E Mem) (dir : G) (d0 lin : E) {e : LsExit} {t : LS W G E}
    (hls : iterate (lsStep env s.x dir s.fv d0 lin) (lsFuel env) (lsStart env s.w s.fv s.grad s.terminate) =
      some (e, t))
    (hlast : t.bestStep = t.step) (h : afterSearch env s dir e t = .inl s') :
    s'.grad = D s'.x ∧ s'.fv = F s'.x ∧ s'.mem = env.update s.it s'.x s.x (D s'.x) s.grad s.mem := by
  have hg := ls_grad env hD hcb s.x dir s.fv d0 lin (lsFuel env) _ hls
  obtain ⟨e', t', hls', -, hval, -, hok, -, -⟩ := ls_spec env hF s.x dir s.fv d0 lin s.w s.fv s.grad s.terminate
  rw [hls] at hls'
  simp only [Option.some.injEq, Prod.mk.injEq] at hls'
  obtain ⟨rfl, rfl⟩ := hls'
  unfold afterSearch at h
  simp only at h
  by_cases he : e = .nan
  · rw [if_pos he] at h; cases h
  · rw [if_neg he] at h
    obtain ⟨pre, hpre⟩ := (hok he).2
    have hfv := (hval (t.step, t.fv) (by rw [hpre]; simp)).1
    split at h
    · cases h
    · split at h
      · cases h
      · cases h
        dsimp only
        rw [hst, hlast, hg]
        exact ⟨rfl, hfv, rfl⟩

/-! ### Concrete runs -/

/-- L-BFGS with memory 5 on a scalar objective (default constants; the tolerance in `ChooseScalingFactor` is left out).
`stop`: a callback asks to stop after the first step. -/
def scalarEnv (F dF : ℚ → ℚ) (trials iterations : Nat) (stop : Bool) :
    Env Unit ℚ ℚ ℚ ((Nat → ℚ) × (Nat → ℚ)) where
  evalGrad := fun w x => (w, F x, dF x)
  cbEvalGrad := fun w _ _ g => (w, g, false)
  cbBegin := fun w x => (w, x)
  cbStep := fun w x => (w, x, stop)
  cbEnd := fun w x => (w, x)
  move := fun x t d => x + t * d
  dot := fun a b => a * b
  isNaN := fun _ => false
  isFinite := fun _ => true
  isZero := fun v => v == 0
  gradSmall := fun g => |g| < 1 / 10 ^ 6
  scaling := fun it g m => if it = 0 then 1 / |g| else
    m.1 ((it - 1) % 5) * m.2 ((it - 1) % 5) / (m.2 ((it - 1) % 5) * m.2 ((it - 1) % 5))
  direction := fun it g sc m => searchDirection (fun a b => a * b) 5 g it sc m.1 m.2
  update := fun it x x' g g' m => (updateBasis 5 it m.1 (x - x'), updateBasis 5 it m.2 (g - g'))
  stable := fun a b => decide ((a - b) / max (max |a| |b|) 1 ≤ 1 / 10 ^ 15)
  armijoConstant := 1 / 10 ^ 4
  wolfe := 9 / 10
  minStep := 1 / 10 ^ 20
  maxStep := 10 ^ 20
  zero := 0
  one := 1
  inc := 21 / 10
  dec := 1 / 2
  maxVal := 10 ^ 300
  maxLineSearchTrials := trials
  maxIterations := iterations

def mem0 : (Nat → ℚ) × (Nat → ℚ) := (fun _ => 0, fun _ => 0)

/-- **C99** (refuted) "The value L-BFGS returns is the objective at the coordinates it hands back": the line search
moves to the best trial but returns the value of the last one. Here `f(x) = x + x^8/100` from 0 with two trials: the
coordinates become -1, the returned value is `f(-2.1)`. -/
theorem C99_value_refuted :
    ¬ ∀ (trials iterations fuel : Nat) (x : ℚ) (e : Exit) (s : St Unit ℚ ℚ ℚ ((Nat → ℚ) × (Nat → ℚ))),
      optimize (scalarEnv (fun x => x + x ^ 8 / 100) (fun x => 1 + 8 * x ^ 7 / 100) trials iterations false) mem0 false
        fuel () x = some (e, s) → s.fv = s.x + s.x ^ 8 / 100 := by
  intro h
  have hv : ((optimize (scalarEnv (fun x => x + x ^ 8 / 100) (fun x => 1 + 8 * x ^ 7 / 100) 2 0 false) mem0 false 5 ()
      0).map fun r => (r.2.x, decide (r.2.fv = r.2.x + r.2.x ^ 8 / 100))) = some (-1, false) := by decide +kernel
  rw [Option.map_eq_some_iff] at hv
  obtain ⟨⟨e, s⟩, hs, hv⟩ := hv
  have := h 2 0 5 0 e s hs
  simp only [Prod.mk.injEq, decide_eq_false_iff_not] at hv
  exact hv.2 this

/-- **C103** (refuted) "The gradient L-BFGS continues with is the gradient at its coordinates": with two trials on
`f(x) = x + x^8/200` from 0 the first iteration moves to -1 and keeps the gradient of -2.1. -/
theorem C103_gradient_refuted :
    ¬ ∀ (trials iterations fuel : Nat) (x : ℚ) (e : Exit) (s : St Unit ℚ ℚ ℚ ((Nat → ℚ) × (Nat → ℚ))),
      optimize (scalarEnv (fun x => x + x ^ 8 / 200) (fun x => 1 + 8 * x ^ 7 / 200) trials iterations false) mem0 false
        fuel () x = some (e, s) → e = .loop → s.grad = 1 + 8 * s.x ^ 7 / 200 := by
  intro h
  have hv : ((optimize (scalarEnv (fun x => x + x ^ 8 / 200) (fun x => 1 + 8 * x ^ 7 / 200) 2 1 false) mem0 false 5 ()
      0).map fun r => (r.1, r.2.x, decide (r.2.grad = 1 + 8 * r.2.x ^ 7 / 200))) = some (.loop, -1, false) := by
    decide +kernel
  rw [Option.map_eq_some_iff] at hv
  obtain ⟨⟨e, s⟩, hs, hv⟩ := hv
  simp only [Prod.mk.injEq, decide_eq_false_iff_not] at hv
  exact hv.2.2 (h 2 1 5 0 e s hs hv.1)

/-- **C100** (refuted) "L-BFGS never ends at a worse point than it started from": with one line-search trial on
`f(x) = x + 2 x^2` from 0 it moves to -1. -/
theorem C100_progress_refuted :
    ¬ ∀ (trials iterations fuel : Nat) (x : ℚ) (e : Exit) (s : St Unit ℚ ℚ ℚ ((Nat → ℚ) × (Nat → ℚ))),
      optimize (scalarEnv (fun x => x + 2 * x ^ 2) (fun x => 1 + 4 * x) trials iterations false) mem0 false fuel () x =
        some (e, s) → s.x + 2 * s.x ^ 2 ≤ x + 2 * x ^ 2 := by
  intro h
  have hv : ((optimize (scalarEnv (fun x => x + 2 * x ^ 2) (fun x => 1 + 4 * x) 1 0 false) mem0 false 5 () 0).map
      fun r => r.2.x) = some (-1) := by decide +kernel
  rw [Option.map_eq_some_iff] at hv
  obtain ⟨⟨e, s⟩, hs, hv⟩ := hv
  have := h 1 0 5 0 e s hs
  simp only at hv
  rw [hv] at this
  norm_num at this

/-- **C101** (refuted) "An L_BFGS object can be used again after a callback stopped it": the second call returns the
starting point although the same call on a fresh object reaches the minimum of `(x - 3)^2`. -/
theorem C101_reuse_refuted :
    ¬ ∀ (x₁ x₂ : ℚ) (e₁ : Exit) (s₁ : St Unit ℚ ℚ ℚ ((Nat → ℚ) × (Nat → ℚ))),
      optimize (scalarEnv (fun x => (x - 3) ^ 2) (fun x => 2 * (x - 3)) 50 0 true) mem0 false
        20 () x₁ = some (e₁, s₁) →
      (optimize (scalarEnv (fun x => (x - 3) ^ 2) (fun x => 2 * (x - 3)) 50 0 false) mem0
        s₁.terminate 20 () x₂).map (fun r => r.2.x) =
        (optimize (scalarEnv (fun x => (x - 3) ^ 2) (fun x => 2 * (x - 3)) 50 0 false) mem0 false 20 ()
        x₂).map (fun r => r.2.x) := by
  intro h
  have hv : ((optimize (scalarEnv (fun x => (x - 3) ^ 2) (fun x => 2 * (x - 3)) 50 0 true) mem0 false 20 () 0).map
      fun r => r.2.terminate) = some true := by decide +kernel
  rw [Option.map_eq_some_iff] at hv
  obtain ⟨⟨e, s⟩, hs, hv⟩ := hv
  have := h 0 1 e s hs
  simp only at hv
  rw [hv] at this
  revert this
  decide +kernel

instance : StrictPO ℚ := ⟨lt_irrefl, fun _ _ _ => lt_trans⟩

instance : IeeeLike ℚ (fun _ => false) := ⟨fun a b _ _ => lt_trichotomy a b⟩

/-- Non-vacuity of the run theorems: on `(x - 3)^2` from 0 the hypotheses hold and the run reaches the minimum. -/
example : (∀ a b : ℚ, (scalarEnv (fun x => (x - 3) ^ 2) (fun x => 2 * (x - 3)) 50 0 false).stable a b = false →
      b < a) ∧
    ((optimize (scalarEnv (fun x => (x - 3) ^ 2) (fun x => 2 * (x - 3)) 50 0 false) mem0 false 20 () 0).map
      fun r => (r.1, r.2.x, decide (2 ≤ r.2.log.length))) = some (.gradient, 3, true) := by
  refine ⟨?_, by decide +kernel⟩
  intro a b h
  simp only [scalarEnv, decide_eq_false_iff_not, not_le] at h
  by_contra hc
  have hd : 0 < max (max |a| |b|) (1 : ℚ) := lt_of_lt_of_le one_pos (le_max_right _ _)
  have : (a - b) / max (max |a| |b|) 1 ≤ 0 := div_nonpos_of_nonpos_of_nonneg (by linarith) hd.le
  have h0 : (0 : ℚ) < 1 / 10 ^ 15 := by positivity
  linarith

end Ens.Lbfgs
