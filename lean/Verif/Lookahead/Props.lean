import Verif.Lookahead.Model
import Mathlib.Analysis.Convex.Segment
import Mathlib.Data.Real.Basic
import Mathlib.Tactic.Ring
import Mathlib.Tactic.Linarith
import Mathlib.Tactic.Module

namespace Ens.Lookahead

variable {W M E S : Type}

/-- `Rounds env x₀ s₀ n t x s last b`: `t` consists of `n` complete rounds, starting from coordinates `x₀` and step size `s₀`.
A round is an inner run from the current coordinates, the decay policy, the synchronisation and `StepTaken`. It happens only
if no earlier `StepTaken` asked to stop, and only if the inner objective is finite and not close to the one before. At the end
coordinates are `x`, step size `s`, last inner objective `last`, and `b` tells whether the last `StepTaken` asked to stop. -/
inductive Rounds (env : Env W M E S) (x₀ : M) (s₀ : S) :
    Nat → List (Ev M E S) → M → S → E → Bool → Prop where
  | nil : Rounds env x₀ s₀ 0 [] x₀ s₀ env.dblMax false
  | snoc {n t x s last} (w w' w'' : W) {obj m cbs x₁ s₁ x₂ b} (prev : Rounds env x₀ s₀ n t x s last false)
      (hin : (env.inner w x).2 = (obj, m, cbs)) (hdec : (env.decay w' x s m).2 = (x₁, s₁))
      (hbad : env.isBad obj = false) (hclose : env.isClose last obj = false)
      (hst : (env.cbStep w'' (env.lerp s₁ x₁ m)).2 = (x₂, b)) :
      Rounds env x₀ s₀ (n + 1)
        (t ++ [.inner x obj m cbs, .decay x₁ s₁, .sync x₁ s₁ m (env.lerp s₁ x₁ m), .stepTaken x₂ b]) x₂ s₁ obj b

/-- Result of the loop. -/
theorem loop_spec (env : Env W M E S) (x₀ : M) (s₀ : S) (pre : List (Ev M E S)) :
    ∀ (n k : Nat) (s : St W M E S) (t : List (Ev M E S)),
      s.trace = pre ++ t → Rounds env x₀ s₀ k t s.x s.step s.last s.terminate →
      s.overall = (if k = 0 then env.zero else s.last) →
      ∃ k' t' y sy last b, Rounds env x₀ s₀ k' t' y sy last b ∧ k' ≤ n + k ∧
        (((loop env n s).1 = .loop ∧ (loop env n s).2.x = y ∧ (loop env n s).2.trace = pre ++ t' ∧
            (k' = n + k ∨ b = true) ∧ (loop env n s).2.overall = if k' = 0 then env.zero else last) ∨
         (b = false ∧ k' < n + k ∧ ∃ (w w' : W) (obj : E) (m : M) (cbs : List Cb) (x₁ : M) (s₁ : S),
            (env.inner w y).2 = (obj, m, cbs) ∧ (env.decay w' y sy m).2 = (x₁, s₁) ∧
            (loop env n s).2.x = m ∧ (loop env n s).2.overall = obj ∧
            (loop env n s).2.trace = pre ++ t' ++ [.inner y obj m cbs, .decay x₁ s₁] ∧
            (((loop env n s).1 = .bad ∧ env.isBad obj = true) ∨
             ((loop env n s).1 = .tol ∧ env.isBad obj = false ∧ env.isClose last obj = true)))) := by
  intro n
  induction n with
  | zero =>
    intro k s t ht hr hov
    exact ⟨k, t, _, _, _, _, hr, by omega, Or.inl ⟨rfl, rfl, ht, Or.inl (by omega), hov⟩⟩
  | succ n ih =>
    intro k s t ht hr hov
    rw [loop]
    by_cases hterm : s.terminate = true
    · rw [if_pos hterm]
      exact ⟨k, t, _, _, _, _, hr, by omega, Or.inl ⟨rfl, rfl, ht, Or.inr hterm, hov⟩⟩
    · rw [if_neg hterm]
      have hf : s.terminate = false := by simpa using hterm
      rw [hf] at hr
      dsimp only
      by_cases hbad : env.isBad (innerPart env s).1.overall = true
      · rw [if_pos hbad]
        refine ⟨k, t, _, _, _, _, hr, by omega, Or.inr ⟨rfl, by omega, s.w, (env.inner s.w s.x).1, _, _, _, _, _, rfl, rfl, rfl, rfl, ?_,
          Or.inl ⟨rfl, hbad⟩⟩⟩
        show s.trace ++ _ = _
        rw [ht]
      · rw [if_neg hbad]
        have hb : env.isBad (innerPart env s).1.overall = false := by simpa using hbad
        by_cases hcl : env.isClose (innerPart env s).1.last (innerPart env s).1.overall = true
        · rw [if_pos hcl]
          refine ⟨k, t, _, _, _, _, hr, by omega, Or.inr ⟨rfl, by omega, s.w, (env.inner s.w s.x).1, _, _, _, _, _, rfl, rfl, rfl, rfl, ?_,
            Or.inr ⟨rfl, hb, hcl⟩⟩⟩
          show s.trace ++ _ = _
          rw [ht]
        · rw [if_neg hcl]
          have hc : env.isClose (innerPart env s).1.last (innerPart env s).1.overall = false := by simpa using hcl
          have hrec := ih (k + 1) (syncPart env (innerPart env s).1 (innerPart env s).2)
            (t ++ [.inner s.x (env.inner s.w s.x).2.1 (env.inner s.w s.x).2.2.1 (env.inner s.w s.x).2.2.2,
              .decay (innerPart env s).1.x (innerPart env s).1.step,
              .sync (innerPart env s).1.x (innerPart env s).1.step (innerPart env s).2
                (env.lerp (innerPart env s).1.step (innerPart env s).1.x (innerPart env s).2),
              .stepTaken (syncPart env (innerPart env s).1 (innerPart env s).2).x
                (env.cbStep (innerPart env s).1.w
                  (env.lerp (innerPart env s).1.step (innerPart env s).1.x (innerPart env s).2)).2.2])
            ?_ ?_ ?_
          · obtain ⟨k', t', y, sy, last, b, h1, h2, h3⟩ := hrec
            refine ⟨k', t', y, sy, last, b, h1, by omega, ?_⟩
            rcases h3 with ⟨a1, a2, a3, a4, a5⟩ | ⟨a1, a2, a3⟩
            · refine Or.inl ⟨a1, a2, a3, ?_, a5⟩
              rcases a4 with a4 | a4
              · exact Or.inl (by omega)
              · exact Or.inr a4
            · exact Or.inr ⟨a1, by omega, a3⟩
          · show (s.trace ++ _) ++ _ = _
            rw [ht]; simp only [List.append_assoc]; rfl
          · have hs : (syncPart env (innerPart env s).1 (innerPart env s).2).terminate =
                (env.cbStep (innerPart env s).1.w
                  (env.lerp (innerPart env s).1.step (innerPart env s).1.x (innerPart env s).2)).2.2 := by
              show (s.terminate || _) = _
              rw [hf]; rfl
            rw [hs]
            exact Rounds.snoc s.w (env.inner s.w s.x).1 (innerPart env s).1.w hr rfl rfl hb hc rfl
          · rw [if_neg (Nat.add_one_ne_zero k)]; rfl

/-- The final pass over the functions: starts, sizes and values; it begins at `i` and ends beyond the last function. -/
inductive Pass (env : Env W M E S) (p : Params) (x : M) : Nat → E → List (Ev M E S) → E → Prop where
  | done {i o} (h : p.numFunctions ≤ i) : Pass env p x i o [] o
  | batch {i o t o'} (w : W) (h : i < p.numFunctions)
      (rest : Pass env p x (i + p.batchSize)
        (env.add o (env.evaluate w x i (min p.batchSize (p.numFunctions - i))).2) t o') :
      Pass env p x i o
        (.evaluate x i (min p.batchSize (p.numFunctions - i))
          (env.evaluate w x i (min p.batchSize (p.numFunctions - i))).2 :: t) o'

theorem exactLoop_spec (env : Env W M E S) (p : Params) :
    ∀ (fuel i : Nat) (s s' : St W M E S), exactLoop env p fuel i s = some s' →
      ∃ t, s'.trace = s.trace ++ t ∧ s'.x = s.x ∧ Pass env p s.x i s.overall t s'.overall := by
  intro fuel
  induction fuel with
  | zero =>
    intro i s s' h
    rw [exactLoop] at h
    split at h
    · cases h
    · cases h; exact ⟨[], by simp, rfl, .done (by omega)⟩
  | succ fuel ih =>
    intro i s s' h
    rw [exactLoop] at h
    by_cases hi : i < p.numFunctions
    · rw [if_pos hi] at h
      obtain ⟨t, h1, h2, h3⟩ := ih _ _ _ h
      refine ⟨_, ?_, h2, .batch s.w hi h3⟩
      rw [h1]; simp
    · rw [if_neg hi] at h
      cases h; exact ⟨[], by simp, rfl, .done (by omega)⟩

/-- With a positive batch size the final pass ends. -/
theorem exactLoop_isSome (env : Env W M E S) (p : Params) (hb : 0 < p.batchSize) :
    ∀ (fuel i : Nat) (s : St W M E S), p.numFunctions ≤ i + fuel → (exactLoop env p fuel i s).isSome := by
  intro fuel
  induction fuel with
  | zero => intro i s h; rw [exactLoop, if_neg (by omega)]; rfl
  | succ fuel ih =>
    intro i s h
    rw [exactLoop]
    split
    · exact ih _ _ (by omega)
    · rfl

/-- **C61** (what a run does). After `BeginOptimization` a run is a sequence of at most `maxIterations` complete rounds (no
limit but that of `size_t` when `maxIterations = 0`), followed either by the optional final pass over the functions, or by one
more inner run that ended the optimization because its objective is not finite or close to the one before. In the latter case
coordinates and objective are those of that inner run. -/
theorem C61_run_shape (env : Env W M E S) (p : Params) (step : S) (w : W) (x : M) (r : Result M E S)
    (hr : optimize env p step w x = some r) :
    ∃ n t y sy last b, Rounds env (env.cbBegin w x).2 step n t y sy last b ∧ n ≤ p.actualMax ∧
      ((r.exit = .loop ∧ r.x = y ∧ (n = p.actualMax ∨ b = true) ∧
          ((p.exactObjective = false ∧ r.obj = (if n = 0 then env.zero else last) ∧
              r.trace = [.beginOpt x (env.cbBegin w x).2] ++ t ++ [.endOpt y]) ∨
           (p.exactObjective = true ∧ ∃ t', Pass env p y 0 env.zero t' r.obj ∧
              r.trace = [.beginOpt x (env.cbBegin w x).2] ++ t ++ t' ++ [.endOpt y]))) ∨
       (b = false ∧ n < p.actualMax ∧ ∃ (w₁ w₂ : W) (cbs : List Cb) (x₁ : M) (s₁ : S),
          (env.inner w₁ y).2 = (r.obj, r.x, cbs) ∧ (env.decay w₂ y sy r.x).2 = (x₁, s₁) ∧
          r.trace = [.beginOpt x (env.cbBegin w x).2] ++ t ++ [.inner y r.obj r.x cbs, .decay x₁ s₁, .endOpt r.x] ∧
          ((r.exit = .bad ∧ env.isBad r.obj = true) ∨
           (r.exit = .tol ∧ env.isBad r.obj = false ∧ env.isClose last r.obj = true)))) := by
  obtain ⟨n, t, y, sy, last, b, h1, h2, h3⟩ := loop_spec env (env.cbBegin w x).2 step
    [.beginOpt x (env.cbBegin w x).2] p.actualMax 0 (start env step w x) [] rfl .nil rfl
  refine ⟨n, t, y, sy, last, b, h1, h2, ?_⟩
  unfold optimize at hr
  generalize loop env p.actualMax (start env step w x) = q at *
  obtain ⟨e, s⟩ := q
  rcases h3 with ⟨a1, a2, a3, a4, a5⟩ | ⟨a1, a2, w₁, w₂, obj, m, cbs, x₁, s₁, a3, a4, a5, a6, a7, a8⟩
  · dsimp only at a1 a2 a3 a5
    subst a1
    dsimp only at hr
    by_cases hx : p.exactObjective = true
    · rw [if_pos hx] at hr
      obtain ⟨s', hs', hs''⟩ := Option.map_eq_some_iff.1 hr
      obtain ⟨t', b1, b2, b3⟩ := exactLoop_spec env p _ _ _ _ hs'
      subst hs''
      refine Or.inl ⟨rfl, b2.trans a2, a4, Or.inr ⟨hx, t', ?_, ?_⟩⟩
      · rw [← a2]; exact b3
      · show s'.trace ++ [.endOpt s'.x] = _
        rw [b1, b2]
        show s.trace ++ t' ++ [.endOpt s.x] = _
        rw [a2, a3]
    · rw [if_neg hx] at hr
      cases hr
      refine Or.inl ⟨rfl, a2, a4, Or.inl ⟨by simpa using hx, a5, ?_⟩⟩
      show s.trace ++ [.endOpt s.x] = _
      rw [a2, a3]
  · dsimp only at a5 a6 a7 a8
    have key : some (finish e s) = some r := by
      rcases a8 with ⟨a8, _⟩ | ⟨a8, _⟩ <;> (subst a8; exact hr)
    cases key
    subst a5 a6
    refine Or.inr ⟨a1, by omega, w₁, w₂, cbs, x₁, s₁, a3, a4, ?_, a8⟩
    show s.trace ++ [.endOpt s.x] = _
    rw [a7]; simp only [List.append_assoc, List.cons_append, List.nil_append]; rfl

/-- **C61** (the run ends). It ends unless the exact objective is wanted and the base optimizer's batch size is 0. -/
theorem C61_ends (env : Env W M E S) (p : Params) (step : S) (w : W) (x : M)
    (hb : p.exactObjective = true → 0 < p.batchSize) : (optimize env p step w x).isSome := by
  unfold optimize
  generalize loop env p.actualMax (start env step w x) = q
  obtain ⟨e, s⟩ := q
  cases e
  · rfl
  · rfl
  · dsimp only
    by_cases hx : p.exactObjective = true
    · rw [if_pos hx, Option.isSome_map]
      exact exactLoop_isSome env p (hb hx) _ _ _ (by omega)
    · rw [if_neg hx]; rfl

/-- Number of synchronisations. -/
def syncs (t : List (Ev M E S)) : Nat := t.countP fun | .sync .. => true | _ => false
/-- Number of inner runs. -/
def inners (t : List (Ev M E S)) : Nat := t.countP fun | .inner .. => true | _ => false

theorem Rounds.counts {env : Env W M E S} {x₀ s₀ n t x s last b} (h : Rounds env x₀ s₀ n t x s last b) :
    syncs t = n ∧ inners t = n := by
  induction h with
  | nil => exact ⟨rfl, rfl⟩
  | snoc w w' w'' prev hin hdec hbad hclose hst ih =>
    obtain ⟨h1, h2⟩ := ih
    simp only [syncs, inners, List.countP_append] at *
    rw [h1, h2]; exact ⟨rfl, rfl⟩

theorem Pass.counts {env : Env W M E S} {p : Params} {x : M} {i o t o'} (h : Pass env p x i o t o') :
    syncs t = 0 ∧ inners t = 0 := by
  induction h with
  | done => exact ⟨rfl, rfl⟩
  | batch w h rest ih =>
    obtain ⟨h1, h2⟩ := ih
    simp only [syncs, inners, List.countP_cons] at *
    rw [h1, h2]; exact ⟨rfl, rfl⟩

/-- **C61** (iteration limit). A positive `maxIterations` bounds both the synchronisations and the inner runs. -/
theorem C61_iteration_limit (env : Env W M E S) (p : Params) (step : S) (w : W) (x : M) (r : Result M E S)
    (hr : optimize env p step w x = some r) (hp : p.maxIterations ≠ 0) :
    syncs r.trace ≤ inners r.trace ∧ inners r.trace ≤ p.maxIterations := by
  have hm : p.actualMax = p.maxIterations := if_neg hp
  obtain ⟨n, t, y, sy, last, b, h1, h2, h3⟩ := C61_run_shape env p step w x r hr
  obtain ⟨c1, c2⟩ := h1.counts
  rcases h3 with ⟨_, _, _, ⟨_, _, ht⟩ | ⟨_, t', hp', ht⟩⟩ | ⟨_, hlt, w₁, w₂, cbs, x₁, s₁, _, _, ht, _⟩
  · rw [ht]
    simp only [syncs, inners, List.countP_append] at *
    rw [c1, c2]; simp; omega
  · obtain ⟨d1, d2⟩ := hp'.counts
    rw [ht]
    simp only [syncs, inners, List.countP_append] at *
    rw [c1, c2, d1, d2]; simp; omega
  · rw [ht]
    simp only [syncs, inners, List.countP_append] at *
    rw [c1, c2]; simp; omega

/-- Every synchronisation has the form of line 172, and starts where decay policy and inner run left off. -/
theorem Rounds.sync_mem {env : Env W M E S} {x₀ s₀ n t x s last b} (h : Rounds env x₀ s₀ n t x s last b)
    {xa sa m y} (hm : Ev.sync xa sa m y ∈ t) : y = env.lerp sa xa m ∧
      ∃ (w w' : W) (xb : M) (sb : S), (env.inner w xb).2.2.1 = m ∧ (env.decay w' xb sb m).2 = (xa, sa) := by
  induction h with
  | nil => cases hm
  | snoc w w' w'' prev hin hdec hbad hclose hst ih =>
    rcases List.mem_append.1 hm with hm | hm
    · exact ih hm
    · simp only [List.mem_cons, List.mem_nil_iff, or_false, reduceCtorEq, false_or] at hm
      injection hm with e1 e2 e3 e4
      subst e1 e2 e3 e4
      exact ⟨rfl, w, w', _, _, by rw [hin], hdec⟩

theorem Pass.no_sync {env : Env W M E S} {p : Params} {x : M} {i o t o'} (h : Pass env p x i o t o')
    {xa sa m y} : Ev.sync xa sa m y ∉ t := by
  induction h with
  | done => simp
  | batch w h rest ih => simpa using ih

theorem sync_mem_run {env : Env W M E S} {p : Params} {step : S} {w : W} {x : M} {r : Result M E S}
    (hr : optimize env p step w x = some r) {xa sa m y} (hm : Ev.sync xa sa m y ∈ r.trace) :
    ∃ n t z sz last b, Rounds env (env.cbBegin w x).2 step n t z sz last b ∧ Ev.sync xa sa m y ∈ t := by
  obtain ⟨n, t, z, sz, last, b, h1, h2, h3⟩ := C61_run_shape env p step w x r hr
  refine ⟨n, t, z, sz, last, b, h1, ?_⟩
  rcases h3 with ⟨_, _, _, ⟨_, _, ht⟩ | ⟨_, t', hp', ht⟩⟩ | ⟨_, hlt, w₁, w₂, cbs, x₁, s₁, _, _, ht, _⟩
  · rw [ht] at hm; simpa using hm
  · rw [ht] at hm
    simp only [List.mem_append, List.mem_cons, List.mem_nil_iff, or_false, reduceCtorEq, false_or] at hm
    exact hm.resolve_right hp'.no_sync
  · rw [ht] at hm; simpa using hm

/-- **C61** (convex combination). With the arithmetic of a real vector space, a synchronisation with a step size in [0, 1] puts
the coordinates on the segment between the old coordinates and the inner result. -/
theorem C61_segment {V : Type} [AddCommGroup V] [Module ℝ V] (env : Env W V E ℝ)
    (hlerp : ∀ s x m, env.lerp s x m = x + s • (m - x)) (p : Params) (step : ℝ) (w : W) (x : V) (r : Result V E ℝ)
    (hr : optimize env p step w x = some r) (xa m y : V) (sa : ℝ) (hs : 0 ≤ sa) (hs' : sa ≤ 1)
    (hm : Ev.sync xa sa m y ∈ r.trace) : y ∈ segment ℝ xa m := by
  obtain ⟨n, t, z, sz, last, b, h1, h2⟩ := sync_mem_run hr hm
  obtain ⟨h3, _⟩ := h1.sync_mem h2
  rw [h3, hlerp]
  refine ⟨1 - sa, sa, by linarith, hs, by ring, ?_⟩
  module

/-- With a decay policy that leaves coordinates and step size alone (`NoDecay`), all steps are the given one and every
synchronisation starts from the coordinates the inner run started from. -/
theorem Rounds.noDecay {env : Env W M E S} (hd : ∀ w x s m, (env.decay w x s m).2 = (x, s))
    {x₀ s₀ n t x s last b} (h : Rounds env x₀ s₀ n t x s last b) :
    s = s₀ ∧ ∀ xa sa m y, Ev.sync xa sa m y ∈ t → sa = s₀ ∧ ∃ w, (env.inner w xa).2.2.1 = m := by
  induction h with
  | nil => exact ⟨rfl, fun _ _ _ _ h => by cases h⟩
  | snoc w w' w'' prev hin hdec hbad hclose hst ih =>
    obtain ⟨h1, h2⟩ := ih
    rw [hd] at hdec
    injection hdec with e1 e2
    subst e1 e2
    refine ⟨h1, fun xa sa m y hm => ?_⟩
    rcases List.mem_append.1 hm with hm | hm
    · exact h2 _ _ _ _ hm
    · simp only [List.mem_cons, List.mem_nil_iff, or_false, reduceCtorEq, false_or] at hm
      injection hm with e1 e2 e3 e4
      subst e1 e2 e3 e4
      exact ⟨h1, w, by rw [hin]⟩

/-- **C61** (without decay). Every synchronisation goes from the start of an inner run towards its result, by the fraction
`stepSize` of the way. -/
theorem C61_noDecay (env : Env W M E S) (hd : ∀ w x s m, (env.decay w x s m).2 = (x, s)) (p : Params) (step : S)
    (w : W) (x : M) (r : Result M E S) (hr : optimize env p step w x = some r) (xa : M) (sa : S) (m y : M)
    (hm : Ev.sync xa sa m y ∈ r.trace) : y = env.lerp step xa m ∧ ∃ w', (env.inner w' xa).2.2.1 = m := by
  obtain ⟨n, t, z, sz, last, b, h1, h2⟩ := sync_mem_run hr hm
  obtain ⟨h3, _⟩ := h1.sync_mem h2
  obtain ⟨_, h4⟩ := h1.noDecay hd
  obtain ⟨rfl, h5⟩ := h4 _ _ _ _ h2
  exact ⟨h3, h5⟩

/-! ### The returned objective -/

/-- Sum of `f` over the batches of a final pass. -/
theorem Pass.sum {env : Env W M ℚ S} {p : Params} {x : M} {i o t o'} (h : Pass env p x i o t o')
    (g : M → Nat → ℚ) (hadd : ∀ a b, env.add a b = a + b)
    (hev : ∀ w x i k, (env.evaluate w x i k).2 = ((List.range' i k).map (g x)).sum) :
    o' = o + ((List.range' i (p.numFunctions - i)).map (g x)).sum := by
  induction h with
  | @done i o h => rw [Nat.sub_eq_zero_of_le h]; simp
  | @batch i o t o' w h rest ih =>
    rw [ih, hadd, hev, add_assoc, ← List.sum_append, ← List.map_append]
    congr 3
    rcases Nat.le_total p.batchSize (p.numFunctions - i) with hle | hle
    · rw [Nat.min_eq_left hle]
      rw [show p.numFunctions - i = p.batchSize + (p.numFunctions - (i + p.batchSize)) by omega,
        ← List.range'_append_1]
    · rw [Nat.min_eq_right hle, Nat.sub_eq_zero_of_le (show p.numFunctions ≤ i + p.batchSize by omega)]; simp

/-- **C140** (exact objective). With exact arithmetic, a separable deterministic objective and `exactObjective`, a run that ends
by iteration limit or stop request returns the full objective of the returned coordinates. -/
theorem C140_exact_objective (env : Env W M ℚ S) (g : M → Nat → ℚ) (hadd : ∀ a b, env.add a b = a + b)
    (hzero : env.zero = 0) (hev : ∀ w x i k, (env.evaluate w x i k).2 = ((List.range' i k).map (g x)).sum)
    (p : Params) (hp : p.exactObjective = true) (step : S) (w : W) (x : M) (r : Result M ℚ S)
    (hr : optimize env p step w x = some r) (he : r.exit = .loop) :
    r.obj = ((List.range p.numFunctions).map (g r.x)).sum := by
  obtain ⟨n, t, y, sy, last, b, h1, h2, h3⟩ := C61_run_shape env p step w x r hr
  rcases h3 with ⟨_, hx, _, ⟨h, _⟩ | ⟨_, t', hp', _⟩⟩ | ⟨_, _, _, _, _, _, _, _, _, _, ⟨h, _⟩ | ⟨h, _⟩⟩
  · rw [hp] at h; cases h
  · rw [hp'.sum g hadd hev, hzero, hx, zero_add, Nat.sub_zero, List.range_eq_range']
  · rw [he] at h; cases h
  · rw [he] at h; cases h

/-- **C140** (convergence and failure exits). If the inner optimizer returns the objective of its final coordinates, then so does
a run that ends by tolerance or because of a non-finite objective, with or without `exactObjective`. -/
theorem C140_inner_exit (env : Env W M E S) (f : M → E)
    (hin : ∀ w x, (env.inner w x).2.1 = f (env.inner w x).2.2.1) (p : Params) (step : S) (w : W) (x : M)
    (r : Result M E S) (hr : optimize env p step w x = some r) (he : r.exit ≠ .loop) : r.obj = f r.x := by
  obtain ⟨n, t, y, sy, last, b, h1, h2, h3⟩ := C61_run_shape env p step w x r hr
  rcases h3 with ⟨h, _⟩ | ⟨_, _, w₁, w₂, cbs, x₁, s₁, h, _⟩
  · exact absurd h he
  · have := hin w₁ y
    rw [h] at this; exact this

/-- A run on `f x = |x|` over ℚ: the inner optimizer goes to the minimiser 0 and returns its objective; the step size is 1/2. -/
def demo : Env Unit ℚ ℚ ℚ where
  inner := fun _ _ => ((), 0, 0, [.beginOpt, .other true, .endOpt])
  decay := fun _ x s _ => ((), x, s)
  lerp := fun s x m => x + s * (m - x)
  cbBegin := fun _ x => ((), x)
  cbStep := fun _ x => ((), x, false)
  evaluate := fun _ x i k => ((), ((List.range' i k).map (fun _ => |x|)).sum)
  cbEvaluate := fun _ _ _ => ((), false)
  add := fun a b => a + b
  zero := 0
  dblMax := 1000
  isBad := fun _ => false
  isClose := fun a b => decide (|a - b| < 1 / 100)

/-- The demo run with a callback that, inside the inner run, asks to stop, and a tolerance test that never holds. -/
def demoStop : Env Unit ℚ ℚ ℚ := { demo with isClose := fun _ _ => false }

/-- **C140** (refuted in general). Without `exactObjective`, a run ended by the iteration limit returns the objective of the inner
optimizer's coordinates, which are not the returned ones: here objective 0 is returned with coordinates 4. -/
theorem C140_objective_of_coordinates_refuted :
    ¬ ∀ (env : Env Unit ℚ ℚ ℚ) (f : ℚ → ℚ) (p : Params) (step : ℚ) (x : ℚ) (r : Result ℚ ℚ ℚ),
      (∀ w x, (env.inner w x).2.1 = f (env.inner w x).2.2.1) → 0 ≤ step → step ≤ 1 →
      optimize env p step () x = some r → r.obj = f r.x := by
  intro h
  have h1 := h demoStop (fun x => |x|) ⟨1, false, 1, 1⟩ (1 / 2) 8
    ⟨.loop, 0, 4, [.beginOpt 8 8, .inner 8 0 0 [.beginOpt, .other true, .endOpt], .decay 8 (1 / 2), .sync 8 (1 / 2) 0 4,
      .stepTaken 4 false, .endOpt 4]⟩ (fun _ _ => by simp [demoStop, demo]) (by norm_num) (by norm_num)
    (by
      simp [optimize, Params.actualMax, loop, start, innerPart, syncPart, finish, demo, demoStop]
      norm_num)
  norm_num at h1

/-! ### The notifications -/

/-- What the user's callbacks receive during a run, in order. -/
def notified (t : List (Ev M E S)) : List Cb := t.flatMap Ev.cbs

theorem Rounds.beginOpt_count {env : Env W M E S}
    (hin : ∀ w x, (env.inner w x).2.2.2.countP (fun | .beginOpt => true | _ => false) = 1)
    {x₀ s₀ n t x s last b} (h : Rounds env x₀ s₀ n t x s last b) :
    (notified t).countP (fun | .beginOpt => true | _ => false) = n := by
  induction h with
  | nil => rfl
  | @snoc n t x s last w w' w'' obj m cbs x₁ s₁ x₂ b prev h1 h2 hbad hclose hst ih =>
    have h3 := hin w x
    rw [h1] at h3
    simp only [notified, List.flatMap_append, List.countP_append] at *
    rw [ih]
    simp only [List.flatMap_cons, List.flatMap_nil, Ev.cbs, List.countP_append, List.append_nil]
    rw [h3]; rfl

theorem Pass.beginOpt_count {env : Env W M E S} {p : Params} {x : M} {i o t o'} (h : Pass env p x i o t o') :
    (notified t).countP (fun | .beginOpt => true | _ => false) = 0 := by
  induction h with
  | done => rfl
  | batch w h rest ih =>
    simp only [notified, List.flatMap_cons, List.countP_append] at *
    rw [ih]; rfl

/-- **C141** (how often the start is announced). If every run of the inner optimizer announces its start once, the user's callbacks
are told of the beginning of an optimization once for Lookahead itself and once for each inner run. -/
theorem C141_begin_count_partial (env : Env W M E S) (p : Params) (step : S) (w : W) (x : M) (r : Result M E S)
    (hin : ∀ w x, (env.inner w x).2.2.2.countP (fun | .beginOpt => true | _ => false) = 1)
    (hr : optimize env p step w x = some r) :
    (notified r.trace).countP (fun | .beginOpt => true | _ => false) = 1 + inners r.trace := by
  obtain ⟨n, t, y, sy, last, b, h1, h2, h3⟩ := C61_run_shape env p step w x r hr
  have hc := h1.beginOpt_count hin
  obtain ⟨_, c2⟩ := h1.counts
  rcases h3 with ⟨_, _, _, ⟨_, _, ht⟩ | ⟨_, t', hp', ht⟩⟩ | ⟨_, hlt, w₁, w₂, cbs, x₁, s₁, h4, _, ht, _⟩
  · rw [ht]
    simp only [notified, inners, List.flatMap_append, List.countP_append] at *
    rw [hc, c2]; simp [Ev.cbs]
  · have hq := hp'.beginOpt_count
    obtain ⟨_, d2⟩ := hp'.counts
    rw [ht]
    simp only [notified, inners, List.flatMap_append, List.countP_append] at *
    rw [hc, c2, hq, d2]; simp [Ev.cbs]
  · have h5 := hin w₁ y
    rw [h4] at h5
    dsimp only at h5
    rw [ht]
    simp only [notified, inners, List.flatMap_append, List.countP_append] at *
    rw [hc, c2]
    simp only [List.flatMap_cons, List.flatMap_nil, Ev.cbs, List.countP_append, List.append_nil, h5]
    simp; omega

/-- **C141** (refuted). A stop request made while the inner optimizer runs ends that inner run only: Lookahead goes on with
further inner runs, as if nothing had been asked. -/
theorem C141_stop_request_honoured_refuted :
    ¬ ∀ (env : Env Unit ℚ ℚ ℚ) (p : Params) (step : ℚ) (x : ℚ) (r : Result ℚ ℚ ℚ) (pre post : List Cb),
      optimize env p step () x = some r → notified r.trace = pre ++ Cb.other true :: post → Cb.beginOpt ∉ post := by
  intro h
  obtain ⟨r, hr⟩ := Option.isSome_iff_exists.1 (C61_ends demoStop ⟨2, false, 1, 1⟩ (1 / 2) () 8 (by simp))
  have hn : notified r.trace = [.beginOpt, .beginOpt, .other true, .endOpt, .other false, .beginOpt, .other true, .endOpt,
      .other false, .endOpt] := by
    simp [optimize, Params.actualMax, loop, start, innerPart, syncPart, finish, demo, demoStop] at hr
    subst hr
    rfl
  exact h demoStop ⟨2, false, 1, 1⟩ (1 / 2) 8 r [.beginOpt, .beginOpt]
    [.endOpt, .other false, .beginOpt, .other true, .endOpt, .other false, .endOpt] hr hn (by decide)

/-! ### Concrete runs satisfying the hypotheses -/

/-- Hypotheses of `C61_run_shape`, `C61_iteration_limit`, `C61_noDecay`, `C140_exact_objective`, `C141_begin_count_partial`. -/
example : ∃ r, optimize demoStop ⟨3, true, 2, 1⟩ (1 / 2) () 8 = some r ∧ r.exit = .loop ∧ r.obj = 2 ∧ r.x = 1 ∧
    (∀ w x s m, (demoStop.decay w x s m).2 = (x, s)) ∧ (∀ a b, demoStop.add a b = a + b) ∧ demoStop.zero = 0 ∧
    (∀ w x i k, (demoStop.evaluate w x i k).2 = ((List.range' i k).map (fun _ => |x|)).sum) ∧
    (∀ w x, (demoStop.inner w x).2.2.2.countP (fun | .beginOpt => true | _ => false) = 1) := by
  refine ⟨_, rfl, ?_, ?_, ?_, fun _ _ _ _ => rfl, fun _ _ => rfl, rfl, fun _ _ _ _ => rfl, fun _ _ => rfl⟩
  · rfl
  · show ((0 : ℚ) + _) + _ = 2
    simp [syncPart, innerPart, start, demoStop, demo]; norm_num
  · show (_ : ℚ) = 1
    simp [syncPart, innerPart, start, demoStop, demo]; norm_num; rfl

/-- Hypotheses of `C61_segment`: the same on ℝ. -/
example : ∃ (env : Env Unit ℝ ℝ ℝ), (∀ s x m, env.lerp s x m = x + s • (m - x)) ∧
    ∃ r, optimize env ⟨1, false, 1, 1⟩ (1 / 2) () 8 = some r ∧ Ev.sync 8 (1 / 2) 0 (8 + (1 / 2) * (0 - 8)) ∈ r.trace :=
  ⟨{ inner := fun _ _ => ((), 0, 0, []), decay := fun _ x s _ => ((), x, s), lerp := fun s x m => x + s * (m - x),
     cbBegin := fun _ x => ((), x), cbStep := fun _ x => ((), x, false), evaluate := fun _ _ _ _ => ((), 0),
     cbEvaluate := fun _ _ _ => ((), false), add := fun a b => a + b, zero := 0, dblMax := 1,
     isBad := fun _ => false, isClose := fun _ _ => false }, fun _ _ _ => rfl, _, rfl,
   by simp [start, innerPart, syncPart, finish]⟩

/-- Hypotheses of `C140_inner_exit`: the second inner run brings no change. -/
example : ∃ r, optimize demo ⟨5, false, 1, 1⟩ (1 / 2) () 8 = some r ∧ r.exit ≠ .loop ∧
    (∀ w x, (demo.inner w x).2.1 = |(demo.inner w x).2.2.1|) := by
  obtain ⟨r, hr⟩ := Option.isSome_iff_exists.1 (C61_ends demo ⟨5, false, 1, 1⟩ (1 / 2) () 8 (by simp))
  refine ⟨r, hr, ?_, fun _ _ => by simp [demo]⟩
  simp [optimize, Params.actualMax, loop, start, innerPart, syncPart, finish, demo] at hr
  norm_num at hr
  rw [← hr]
  simp

end Ens.Lookahead
