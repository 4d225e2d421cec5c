import Mathlib.Algebra.Order.BigOperators.Group.Finset
import Verif.Analysis.Smooth
import Verif.Gd.Lemmas

/-
Properties C14-C16 of `GradientDescent::Optimize`.

Vocabulary: `evals` (evaluated points with their objectives, in order), `anyStop` (did a callback
ask to stop), `limit m` (`m - 1`, or `2^64 - 1` for `m = 0`).
-/

namespace Ens.Gd

variable {W M G E : Type} {env : Env W M G E} {maxIterations : Nat}

/-- Facts of a completed run (helper). -/
theorem optimize_facts (hm : maxIterations < 2 ^ 64) {fuel : Nat} {w : W} {x : M}
    {r : Result W M E} (h : optimize env maxIterations fuel w x = some r) :
    ∃ s k, r.trace = s.trace ++ [.endOpt r.x] ∧ r.obj = s.overall ∧ r.x = s.x ∧
      ((r.exit = .loop ∧ Inv env k s ∧ k ≤ limit maxIterations ∧
        (s.terminate = false → k = limit maxIterations) ∧ (s = start env w x ∨ Moved env s)) ∨
       (r.exit ≠ .loop ∧ Mid env k s ∧ k < limit maxIterations ∧
        (r.exit = .bad ↔ env.isBad s.overall = true))) := by
  unfold optimize at h
  rcases loop_inv env hm fuel 0 (start env w x) (start_inv env w x) (Nat.zero_le _) with
    ⟨h1, _⟩ | ⟨s, k, h1, h2, h3, h4, h5⟩ | ⟨e, s, k, h1, h2, h3, h4, h5⟩
  · rw [h1] at h; simp at h
  · rw [h1] at h
    simp only [Option.some.injEq] at h
    subst h
    exact ⟨s, k, rfl, rfl, rfl, .inl ⟨rfl, h2, h3, h4, h5⟩⟩
  · rw [h1] at h
    simp only [Option.some.injEq] at h
    subst h
    exact ⟨s, k, rfl, rfl, rfl, .inr ⟨h2, h3, h4, h5⟩⟩

theorem evals_end (t : List (Ev M E)) (y : M) : evals (t ++ [.endOpt y]) = evals t := by
  rw [evals_append]; simp [evals]

theorem anyStop_end (t : List (Ev M E)) (y : M) : anyStop (t ++ [.endOpt y]) = anyStop t := by
  rw [anyStop_append]; simp [anyStop, Ev.stops]

/-! ### C14 -/

/-- **C14** At most `maxIterations - 1` evaluations; exactly that many if the run was ended by the
iteration limit; the returned objective is that of the last evaluated point (the numeric maximum if
nothing was evaluated). -/
theorem C14_gd_count_and_objective (hm : maxIterations < 2 ^ 64) {fuel : Nat} {w : W} {x : M}
    {r : Result W M E} (h : optimize env maxIterations fuel w x = some r) :
    (evals r.trace).length ≤ limit maxIterations ∧
    (r.exit = .loop → anyStop r.trace = false → (evals r.trace).length = limit maxIterations) ∧
    r.obj = ((evals r.trace).getLast?.map Prod.snd).getD env.maxVal := by
  obtain ⟨s, k, htr, hobj, hx, ⟨he, hinv, hk, hlim, _⟩ | ⟨he, hmid, hk, _⟩⟩ := optimize_facts hm h
  · rw [htr, evals_end, anyStop_end, hinv.cnt]
    refine ⟨hk, fun _ hs => hlim (by rw [hinv.stop]; exact hs), by rw [hobj, hinv.obj]⟩
  · rw [htr, evals_end, hmid.cnt, hmid.obj]
    exact ⟨by omega, fun h' => absurd h' he, by rw [hobj]; rfl⟩

/-- **C14** On a tolerance or NaN/Inf exit the coordinates handed back are the last evaluated point
and the returned value is the objective computed there. -/
theorem C14_gd_early_exit_point (hm : maxIterations < 2 ^ 64) {fuel : Nat} {w : W} {x : M}
    {r : Result W M E} (h : optimize env maxIterations fuel w x = some r) (he : r.exit ≠ .loop) :
    (evals r.trace).getLast? = some (r.x, r.obj) ∧ (r.exit = .bad ↔ env.isBad r.obj = true) := by
  obtain ⟨s, k, htr, hobj, hx, ⟨he', _⟩ | ⟨_, hmid, _, hb⟩⟩ := optimize_facts hm h
  · exact absurd he' he
  · rw [htr, evals_end, hmid.obj, hobj, hx]; exact ⟨rfl, hb⟩

/-- **C14** `Optimize` always returns. -/
theorem C14_gd_terminates (env : Env W M G E) (hm : maxIterations < 2 ^ 64) (w : W) (x : M) :
    ∃ r, optimize env maxIterations (limit maxIterations) w x = some r := by
  unfold optimize
  rcases loop_inv env hm (limit maxIterations) 0 (start env w x) (start_inv env w x) (Nat.zero_le _)
    with ⟨_, h1⟩ | ⟨s, k, h1, _⟩ | ⟨e, s, k, h1, _⟩
  · omega
  · rw [h1]; exact ⟨_, rfl⟩
  · rw [h1]; exact ⟨_, rfl⟩

/-- **C14** Protocol: `BeginOptimization` first, `EndOptimization` (with the final coordinates) last,
neither anywhere else; no evaluation follows a stop request; every step starts at the point just
evaluated. -/
theorem C14_gd_protocol (hm : maxIterations < 2 ^ 64) {fuel : Nat} {w : W} {x : M}
    {r : Result W M E} (h : optimize env maxIterations fuel w x = some r) :
    (∃ mid, r.trace = mid ++ [.endOpt r.x] ∧ ∀ e ∈ mid, e.isEndOpt = false) ∧
    (∀ pre post y, r.trace = pre ++ .beginOpt y :: post → pre = []) ∧
    (∀ pre post y o, r.trace = pre ++ .eval y o :: post → anyStop pre = false) ∧
    (∀ pre post y z, r.trace = pre ++ .step y z :: post →
      ∃ pre' o st, pre = pre' ++ [.eval y o, .cbEval st] ∧ anyStop pre' = false) := by
  obtain ⟨s, k, htr, hobj, hx, hcase⟩ := optimize_facts hm h
  have hlaw : Along EvLaw s.trace ∧ ∀ e ∈ s.trace, e.isEndOpt = false := by
    rcases hcase with ⟨_, hinv, _⟩ | ⟨_, hmid, _⟩
    · exact ⟨hinv.law, hinv.noEnd⟩
    · exact ⟨hmid.law, hmid.noEnd⟩
  have hall : Along EvLaw r.trace := by rw [htr, along_snoc]; exact ⟨hlaw.1, trivial⟩
  refine ⟨⟨s.trace, htr, hlaw.2⟩, ?_, ?_, ?_⟩
  · intro pre post y he; exact hall _ _ _ he
  · intro pre post y o he; exact (hall _ _ _ he).1
  · intro pre post y z he; exact hall _ _ _ he

/-! ### C15 -/

/-- Integer example: objective `x`, gradient 1, step 1, stop request of the evaluation callback
configurable. -/
def demo (stop : Bool) : Env Unit Int Int Int where
  evalGrad := fun w x => (w, x, 1)
  cbBegin := fun w x => (w, x)
  cbEvalGrad := fun w _ _ g => (w, g, stop)
  cbStep := fun w x => (w, x, false)
  cbEnd := fun w x => (w, x)
  move := fun x g => x - g
  isBad := fun _ => false
  isClose := fun a b => decide (a - b < 1 ∧ b - a < 1)
  maxVal := 1000

/-- Non-vacuity of C14: four iterations allowed means three evaluations. -/
example : ∃ r, optimize (demo false) 4 10 () 100 = some r ∧ r.exit = .loop ∧
    evals r.trace = [(100, 100), (99, 99), (98, 98)] := ⟨_, rfl, rfl, rfl⟩

/-- Non-vacuity of the early-exit case. -/
example : ∃ r, optimize { demo false with move := fun x _ => x } 9 10 () 100 = some r ∧
    r.exit = .tol ∧ r.x = 100 ∧ r.obj = 100 := ⟨_, rfl, rfl, rfl, rfl⟩

/-- **C15** is false: the value returned is not the objective of the coordinates handed back when the
iteration limit ends the run (objective `x`, one step: returned 100 for coordinates 99). -/
theorem C15_gd_objective_of_result_refuted :
    ¬ ∀ (env : Env Unit Int Int Int) (F : Int → Int) (maxIterations fuel : Nat) (w : Unit) (x : Int)
        (r : Result Unit Int Int), (∀ w y, (env.evalGrad w y).2.1 = F y) → 2 ≤ maxIterations →
        maxIterations < 2 ^ 64 → optimize env maxIterations fuel w x = some r → r.obj = F r.x := by
  intro h
  have := h (demo false) id 2 10 () 100 _ (fun _ _ => rfl) (by norm_num) (by norm_num) rfl
  revert this
  decide

/-- **C15** is also false for `maxIterations = 1`: nothing is evaluated at all and the numeric maximum
is returned. -/
theorem C15_gd_one_iteration_refuted :
    ∃ r, optimize (demo false) 1 10 () 100 = some r ∧ evals r.trace = [] ∧ r.obj = 1000 :=
  ⟨_, rfl, rfl, rfl⟩

/-- **C15**, the part that holds: for a deterministic objective the returned value is the objective
at the last evaluated point, which is the point handed back unless the run was ended by the
iteration limit or a stop request.  In the latter case the point handed back is what the step
callback left of one step from that point. -/
theorem C15_gd_objective_of_result_partial (hm : maxIterations < 2 ^ 64) {fuel : Nat} {w : W} {x : M}
    {r : Result W M E} (h : optimize env maxIterations fuel w x = some r)
    (hne : evals r.trace ≠ []) :
    ∃ y, (evals r.trace).getLast? = some (y, r.obj) ∧
      (r.x = y ∨ (r.exit = .loop ∧ ∃ z w', Ev.step y z ∈ r.trace ∧ r.x = (env.cbStep w' z).2.1)) := by
  obtain ⟨s, k, htr, hobj, hx, ⟨he, hinv, _, _, hs⟩ | ⟨_, hmid, _, hb⟩⟩ := optimize_facts hm h
  · rw [htr, evals_end] at hne ⊢
    rcases hs with rfl | ⟨y, z, st, t, w', h1, h2, h3⟩
    · simp [start, evals] at hne
    · refine ⟨y, ?_, .inr ⟨he, z, w', by simp [h2], by rw [hx, h3]⟩⟩
      rw [h2, evals_append, hobj]
      have : evals [Ev.step y z, .stepTaken st] = ([] : List (M × E)) := rfl
      rw [this, List.append_nil, h1]
  · refine ⟨s.x, ?_, .inl hx⟩
    rw [htr, evals_end, hmid.obj, hobj]

/-! ### C16 -/

/-- Gradient descent on a real function: the objective and gradient are `f` and `g`, the callbacks
are silent, no NaN occurs; the tolerance test is arbitrary. -/
def realEnv {V : Type} [NormedAddCommGroup V] [InnerProductSpace ℝ V] (f : V → ℝ) (g : V → V)
    (η : ℝ) (close : ℝ → ℝ → Bool) (maxVal : ℝ) : Env Unit V V ℝ where
  evalGrad := fun w x => (w, f x, g x)
  cbBegin := fun w x => (w, x)
  cbEvalGrad := fun w _ _ g => (w, g, false)
  cbStep := fun w x => (w, x, false)
  cbEnd := fun w x => (w, x)
  move := fun x g => x - η • g
  isBad := fun _ => false
  isClose := close
  maxVal := maxVal

section Real

variable {V : Type} [NormedAddCommGroup V] [InnerProductSpace ℝ V]

/-- The mathematical iteration `x_{k+1} = x_k - η ∇f(x_k)`. -/
def iter (g : V → V) (η : ℝ) (x : V) : Nat → V
  | 0 => x
  | k + 1 => iter g η x k - η • g (iter g η x k)

theorem real_loop (f : V → ℝ) (g : V → V) (η : ℝ) (close : ℝ → ℝ → Bool) (mv : ℝ) (mi : Nat) (x : V) :
    ∀ (fuel k : Nat) (s : St Unit V ℝ), s.x = iter g η x k →
      evals s.trace = (List.range k).map (fun j => (iter g η x j, f (iter g η x j))) →
      ∀ e s', loop (realEnv f g η close mv) mi fuel s = .done e s' →
        ∃ k', evals s'.trace = (List.range k').map (fun j => (iter g η x j, f (iter g η x j))) ∧
          (e = .loop → s'.x = iter g η x k') := by
  intro fuel
  induction fuel with
  | zero =>
    intro k s hx hev e s' hl
    rw [loop] at hl
    split at hl
    · simp at hl
    · simp only [LoopRes.done.injEq] at hl
      rw [← hl.2]; exact ⟨k, hev, fun _ => hx⟩
  | succ fuel ih =>
    intro k s hx hev e s' hl
    rw [loop] at hl
    split at hl
    · have hev1 : evals (evalPart (realEnv f g η close mv) s).1.trace
          = (List.range (k + 1)).map (fun j => (iter g η x j, f (iter g η x j))) := by
        simp only [evalPart, evals_append, hev, List.range_succ, List.map_append]
        rw [hx]; rfl
      have hb : (realEnv f g η close mv).isBad (evalPart (realEnv f g η close mv) s).1.overall
          = false := rfl
      by_cases hcl : (realEnv f g η close mv).isClose (evalPart (realEnv f g η close mv) s).1.last
          (evalPart (realEnv f g η close mv) s).1.overall = true
      · simp only [body, hb, hcl, if_true, Bool.false_eq_true, if_false, LoopRes.done.injEq] at hl
        obtain ⟨rfl, rfl⟩ := hl
        exact ⟨k + 1, hev1, by simp⟩
      · simp only [body, hb, hcl, Bool.false_eq_true, if_false] at hl
        refine ih (k + 1) _ ?_ ?_ e s' hl
        · show s.x - η • g s.x = _
          rw [hx]; rfl
        · simp only [movePart, evals_append, hev1]
          simp [evals]
    · simp only [LoopRes.done.injEq] at hl
      rw [← hl.2]; exact ⟨k, hev, fun _ => hx⟩

/-- The points evaluated by the optimizer are the first iterates of gradient descent (helper). -/
theorem real_evals (f : V → ℝ) (g : V → V) (η : ℝ) (close : ℝ → ℝ → Bool) (mv : ℝ) (mi fuel : Nat)
    (x : V) (r : Result Unit V ℝ)
    (h : optimize (realEnv f g η close mv) mi fuel () x = some r) :
    ∃ k, evals r.trace = (List.range k).map (fun j => (iter g η x j, f (iter g η x j))) := by
  unfold optimize at h
  cases hl : loop (realEnv f g η close mv) mi fuel (start (realEnv f g η close mv) () x) with
  | outOfFuel => rw [hl] at h; simp at h
  | done e s =>
    rw [hl] at h
    simp only [Option.some.injEq] at h
    obtain ⟨k, hk, _⟩ := real_loop f g η close mv mi x fuel 0 _ (by rfl) (by simp [start, evals]) e s hl
    refine ⟨k, ?_⟩
    rw [← h]
    simp only [evals_end, hk]

theorem iter_decrease {f : V → ℝ} {g : V → V} {L η : ℝ} (hs : LSmooth f g L) (hη : 0 < η)
    (hL : L * η ≤ 1) (x : V) : f (x - η • g x) ≤ f x - η / 2 * ‖g x‖ ^ 2 := by
  have h := hs.descent x (x - η • g x)
  rw [sub_sub_cancel_left, inner_neg_right, inner_smul_right, norm_neg, norm_smul,
    real_inner_self_eq_norm_sq, Real.norm_of_nonneg hη.le, mul_pow] at h
  have hn : 0 ≤ ‖g x‖ ^ 2 := by positivity
  nlinarith [mul_nonneg hη.le (mul_nonneg (sub_nonneg.2 hL) hn)]

/-- **C16** (descent) On an `L`-smooth function with `0 < stepSize ≤ 1/L` every evaluated objective
is at most the previous one minus `stepSize/2 ‖∇f‖²`: the objective never increases. -/
theorem C16_gd_descent {f : V → ℝ} {g : V → V} {L η : ℝ} (hs : LSmooth f g L) (hη : 0 < η)
    (hL : L * η ≤ 1) (close : ℝ → ℝ → Bool) (mv : ℝ) (mi fuel : Nat) (x : V) (r : Result Unit V ℝ)
    (h : optimize (realEnv f g η close mv) mi fuel () x = some r)
    (k : Nat) (p q : V × ℝ) (hp : (evals r.trace)[k]? = some p) (hq : (evals r.trace)[k + 1]? = some q) :
    p.2 = f p.1 ∧ q.2 = f q.1 ∧ q.2 ≤ p.2 - η / 2 * ‖g p.1‖ ^ 2 := by
  obtain ⟨n, hn⟩ := real_evals f g η close mv mi fuel x r h
  rw [hn, List.getElem?_map] at hp hq
  simp only [Option.map_eq_some_iff] at hp hq
  obtain ⟨j, hj, rfl⟩ := hp
  obtain ⟨j', hj', rfl⟩ := hq
  obtain ⟨hlt, rfl⟩ := List.getElem?_eq_some_iff.1 hj
  obtain ⟨hlt', rfl⟩ := List.getElem?_eq_some_iff.1 hj'
  simp only [List.getElem_range]
  exact ⟨trivial, trivial, iter_decrease hs hη hL _⟩

theorem iter_sum {f : V → ℝ} {g : V → V} {L η : ℝ} (hs : LSmooth f g L) (hη : 0 < η)
    (hL : L * η ≤ 1) (x : V) (k : Nat) :
    ∑ j ∈ Finset.range k, η / 2 * ‖g (iter g η x j)‖ ^ 2 ≤ f x - f (iter g η x k) := by
  induction k with
  | zero => simp [iter]
  | succ k ih =>
    rw [Finset.sum_range_succ]
    have := iter_decrease hs hη hL (iter g η x k)
    simp only [iter]
    linarith

/-- **C16** (stationarity) Among the first `k` evaluated points, some gradient satisfies
`‖∇f‖² ≤ 2 (f(x₀) - inf f) / (stepSize k)`. -/
theorem C16_gd_stationarity_rate {f : V → ℝ} {g : V → V} {L η m : ℝ} (hs : LSmooth f g L) (hη : 0 < η)
    (hL : L * η ≤ 1) (hm : ∀ y, m ≤ f y) (close : ℝ → ℝ → Bool) (mv : ℝ) (mi fuel : Nat) (x : V)
    (r : Result Unit V ℝ) (h : optimize (realEnv f g η close mv) mi fuel () x = some r)
    (hk : 0 < (evals r.trace).length) :
    ∃ p ∈ evals r.trace, ‖g p.1‖ ^ 2 ≤ 2 * (f x - m) / (η * (evals r.trace).length) := by
  obtain ⟨n, hn⟩ := real_evals f g η close mv mi fuel x r h
  have hlen : (evals r.trace).length = n := by rw [hn]; simp
  rw [hlen] at hk ⊢
  have hnpos : (0 : ℝ) < n := by exact_mod_cast hk
  have hsum := iter_sum hs hη hL x n
  have hm' := hm (iter g η x n)
  by_contra hcon
  push Not at hcon
  have hall : ∀ j ∈ Finset.range n, (f x - m) / n < η / 2 * ‖g (iter g η x j)‖ ^ 2 := by
    intro j hj
    have := hcon (iter g η x j, f (iter g η x j)) (by rw [hn]; simp; exact ⟨j, by simpa using hj, rfl, rfl⟩)
    simp only at this
    rw [div_lt_iff₀ (by positivity)] at this
    rw [div_lt_iff₀ hnpos]
    nlinarith
  have := Finset.sum_lt_sum_of_nonempty (by simpa using hk.ne') hall
  rw [Finset.sum_const, Finset.card_range, nsmul_eq_mul, mul_div_cancel₀ _ hnpos.ne'] at this
  linarith

/-- **C16** (convex rate) If `f` is moreover convex, then `f(x_k) - f(x*) ≤ ‖x₀ - x*‖² / (2 stepSize k)`
for every comparison point `x*`, where `x_k` is the `k`-th evaluated point (counted from 0). -/
theorem C16_gd_convex_rate {f : V → ℝ} {g : V → V} {L η : ℝ} (hs : LSmooth f g L) (hη : 0 < η)
    (hL : L * η ≤ 1) (hc : ConvexOn ℝ Set.univ f) (z : V) (close : ℝ → ℝ → Bool) (mv : ℝ)
    (mi fuel : Nat) (x : V) (r : Result Unit V ℝ)
    (h : optimize (realEnv f g η close mv) mi fuel () x = some r)
    (k : Nat) (hk : 0 < k) (p : V × ℝ) (hp : (evals r.trace)[k]? = some p) :
    p.2 = f p.1 ∧ p.2 - f z ≤ ‖x - z‖ ^ 2 / (2 * η * k) := by
  obtain ⟨n, hn⟩ := real_evals f g η close mv mi fuel x r h
  rw [hn, List.getElem?_map] at hp
  simp only [Option.map_eq_some_iff] at hp
  obtain ⟨j, hj, rfl⟩ := hp
  obtain ⟨hlt, rfl⟩ := List.getElem?_eq_some_iff.1 hj
  simp only [List.getElem_range]
  refine ⟨trivial, ?_⟩
  have step : ∀ y : V, 2 * η * (f (y - η • g y) - f z) ≤ ‖y - z‖ ^ 2 - ‖y - η • g y - z‖ ^ 2 := by
    intro y
    have h1 := iter_decrease hs hη hL y
    have h2 := convex_first_order hs.grad hc y z
    have h3 : ‖y - η • g y - z‖ ^ 2 = ‖y - z‖ ^ 2 - 2 * η * inner ℝ (g y) (y - z) + η ^ 2 * ‖g y‖ ^ 2 := by
      rw [sub_right_comm, norm_sub_sq_real, inner_smul_right, norm_smul, Real.norm_of_nonneg hη.le,
        real_inner_comm]
      ring
    have h4 : inner ℝ (g y) (y - z) = - inner ℝ (g y) (z - y) := by rw [← inner_neg_right, neg_sub]
    rw [h3, h4]
    nlinarith
  have mono : ∀ m, f (iter g η x (m + 1)) ≤ f (iter g η x m) := by
    intro m
    have := iter_decrease hs hη hL (iter g η x m)
    have hn : 0 ≤ η / 2 * ‖g (iter g η x m)‖ ^ 2 := by positivity
    simp only [iter]; linarith
  have main : ∀ m : Nat, 2 * η * m * (f (iter g η x m) - f z) ≤ ‖x - z‖ ^ 2 - ‖iter g η x m - z‖ ^ 2 := by
    intro m
    induction m with
    | zero => simp [iter]
    | succ m ih =>
      have h1 := step (iter g η x m)
      have h2 := mono m
      simp only [iter] at h2 ⊢
      push_cast
      have h3 : 2 * η * m * (f (iter g η x m - η • g (iter g η x m)) - f z)
          ≤ 2 * η * m * (f (iter g η x m) - f z) := by
        apply mul_le_mul_of_nonneg_left (by linarith) (by positivity)
      nlinarith
  have hk' : (0 : ℝ) < k := by exact_mod_cast hk
  rw [le_div_iff₀ (by positivity)]
  have := main k
  have hsq : 0 ≤ ‖iter g η x k - z‖ ^ 2 := by positivity
  linarith

end Real

/-- Non-vacuity of C16: `f(x) = x²/2` on `ℝ` is 1-smooth. -/
example : LSmooth (fun x : ℝ => x ^ 2 / 2) (fun x => x) 1 := by
  refine ⟨fun x => ?_, fun x y => by simp⟩
  have : HasDerivAt (fun x : ℝ => x ^ 2 / 2) x x := by
    have := ((hasDerivAt_id x).pow 2).div_const 2
    refine this.congr_deriv ?_
    simp
  rw [hasDerivAt_iff_hasFDerivAt] at this
  refine this.congr_fderiv ?_
  ext
  simp

/-- ... and the run on it with step size 1/2 from 8 evaluates 8, 4, 2. -/
example : ∃ r, optimize (realEnv (fun x : ℝ => x ^ 2 / 2) (fun x => x) (1 / 2) (fun _ _ => false) 0)
    4 10 () 8 = some r ∧ (evals r.trace).map Prod.fst = [8, 4, 2] := by
  refine ⟨_, rfl, ?_⟩
  simp [evals, evalPart, movePart, realEnv, start]
  norm_num

/-- The overload taking category information runs exactly on well-formed all-numeric input. -/
theorem C14_gd_categorical_overload {α : Type} (nRows : Nat) (cat : List Bool) (num : List Nat)
    (run : Unit → α) :
    (∃ a, optimizeCategorical nRows cat num run = .ok a) ↔
      cat.length = nRows ∧ num.length = nRows ∧ ∀ b ∈ cat, b = false := by
  unfold optimizeCategorical
  split
  · simp_all
  · split
    · simp_all
    · split <;> simp_all

end Ens.Gd
