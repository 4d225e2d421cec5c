import Verif.Sgd.Lemmas
import Verif.Sgd.Object

/-
A property of the world and of the list of coordinates the update policy has produced, which one
batch extends by one element, and which everything else keeps, holds after a run.
-/

namespace Ens.Sgd

variable {W M G E : Type}

/-- The coordinates produced by the update policy, in order. -/
def updates (t : List (Ev M E)) : List M :=
  t.filterMap fun | .update _ x => some x | _ => none

/-- What the update policy makes of the coordinates in the next batch. -/
def moved (env : Env W M G E) (p : Params) (s : St W M E) : M :=
  let r := env.evalGrad s.w s.x s.cur (effBatch p s)
  let c := env.cbEvalGrad r.1 s.x r.2.1 r.2.2
  (env.update c.1 s.x c.2.1).2

/-- `Q w ys`: the world when the update policy has produced the coordinates `ys`. -/
structure Batchwise (env : Env W M G E) (p : Params) (Q : W → List M → Prop) : Prop where
  batch : ∀ s k, Q s.w k → Q (stepBatch env p s).w (k ++ [moved env p s])
  evaluate : ∀ w x b m k, Q w k → Q (env.evaluate w x b m).1 k
  shuffle : ∀ w k, Q w k → Q (env.shuffle w) k
  cbBegin : ∀ w x k, Q w k → Q (env.cbBegin w x).1 k
  cbBeginEpoch : ∀ w x n e k, Q w k → Q (env.cbBeginEpoch w x n e).1 k
  cbEndEpoch : ∀ w x n e k, Q w k → Q (env.cbEndEpoch w x n e).1 k
  cbEvaluate : ∀ w x e k, Q w k → Q (env.cbEvaluate w x e).1 k
  cbEnd : ∀ w x k, Q w k → Q (env.cbEnd w x).1 k

variable {env : Env W M G E} {Q : W → List M → Prop} {p : Params}

theorem body_batch (h : Batchwise env p Q) (hn : 0 < p.numFunctions) (s : St W M E)
    (hs : Q s.w (updates s.trace)) :
    match body env p s with
    | .cont s' => Q s'.w (updates s'.trace) ∧ s'.i = s.i + effBatch p s ∧
        (updates s'.trace).length = (updates s.trace).length + 1
    | .ret _ s' => Q s'.w (updates s'.trace) ∧ s'.i = s.i + effBatch p s ∧
        (updates s'.trace).length = (updates s.trace).length + 1
    | .ub => True := by
  have hu : updates (stepBatch env p s).trace = updates s.trace ++ [moved env p s] := by
    simp [stepBatch, updates, moved]
  have h1 : Q (stepBatch env p s).w (updates (stepBatch env p s).trace) := by
    rw [hu]; exact h.batch s _ hs
  have hi : (stepBatch env p s).i = s.i + effBatch p s := rfl
  have hlen : (updates (stepBatch env p s).trace).length = (updates s.trace).length + 1 := by
    rw [hu]; simp
  have up1 : ∀ (t : List (Ev M E)) n o b, updates (t ++ [.endEpoch n o b]) = updates t := by
    intro t n o b; simp [updates]
  have up2 : ∀ (t : List (Ev M E)) n o b, updates (t ++ [.beginEpoch n o b]) = updates t := by
    intro t n o b; simp [updates]
  have up3 : ∀ (t : List (Ev M E)), updates (t ++ [.shuffle]) = updates t := by
    intro t; simp [updates]
  unfold body
  rw [if_neg (by omega)]
  simp only
  rw [← hi, ← hlen]
  generalize stepBatch env p s = t at h1
  by_cases hm : t.cur % p.numFunctions = 0
  · simp only [hm, if_true]
    unfold epochEnd
    have he := h.cbEndEpoch _ t.x t.epoch (env.divN t.overall p.numFunctions) _ h1
    by_cases hb : env.isBad t.overall = true
    · simp only [hb, if_true, up1]; exact ⟨he, trivial, trivial⟩
    · by_cases hc : env.isClose t.last t.overall = true
      · simp only [hb, hc, if_true]
        simp only [Bool.false_eq_true, if_false, up1]; exact ⟨he, trivial, trivial⟩
      · simp only [hb, hc]
        have hbe := h.cbBeginEpoch _ t.x (t.epoch + 1) t.overall _ he
        by_cases hsh : p.shuffle = true
        · simp only [hsh, if_true, Bool.false_eq_true, if_false]
          split
          · simp only [up1, up2, up3]; exact ⟨h.shuffle _ _ hbe, trivial, trivial⟩
          · simp only [up1, up2, up3]; exact ⟨h.shuffle _ _ hbe, trivial, trivial⟩
        · simp only [hsh, Bool.false_eq_true, if_false]
          split
          · simp only [up1, up2]; exact ⟨hbe, trivial, trivial⟩
          · simp only [up1, up2]; exact ⟨hbe, trivial, trivial⟩
  · simp only [hm, if_false]; exact ⟨h1, trivial, trivial⟩

theorem effBatch_le (s : St W M E) : effBatch p s ≤ p.batchSize := by unfold effBatch; omega

theorem loop_batches (h : Batchwise env p Q) (hn : 0 < p.numFunctions) (hb : 0 < p.batchSize) :
    ∀ (fuel : Nat) (s : St W M E), Inv env p s → Q s.w (updates s.trace) →
    (updates s.trace).length ≤ s.i → s.i ≤ (updates s.trace).length * p.batchSize →
    ∀ e s', loop env p fuel s = .done e s' →
      Q s'.w (updates s'.trace) ∧ (updates s'.trace).length ≤ s'.i ∧
        s'.i ≤ (updates s'.trace).length * p.batchSize := by
  intro fuel
  induction fuel with
  | zero =>
    intro s _ hs h1 h2 e s' hl
    rw [loop] at hl
    split at hl
    · simp at hl
    · simp only [LoopRes.done.injEq] at hl; rw [← hl.2]; exact ⟨hs, h1, h2⟩
  | succ f ih =>
    intro s hinv hs h1 h2 e s' hl
    rw [loop] at hl
    split at hl
    · rename_i hc
      have hbd := body_batch h hn s hs
      obtain ⟨e1, -, -⟩ := effBatch_facts hn hb hinv hc.1
      have e2 := effBatch_le (p := p) s
      have e3 : ((updates s.trace).length + 1) * p.batchSize
          = (updates s.trace).length * p.batchSize + p.batchSize := Nat.succ_mul _ _
      rcases body_inv hn hb hinv hc.1 hc.2 with ⟨t, ht, hti, -⟩ | ⟨e', t, ht, -, -, -⟩
      · rw [ht] at hl hbd
        exact ih t hti hbd.1 (by omega) (by rw [hbd.2.2, e3]; omega) e s' hl
      · rw [ht] at hl hbd
        simp only [LoopRes.done.injEq] at hl
        rw [← hl.2]
        exact ⟨hbd.1, by omega, by rw [hbd.2.2, e3]; omega⟩
    · simp only [LoopRes.done.injEq] at hl; rw [← hl.2]; exact ⟨hs, h1, h2⟩

theorem exactLoop_batches (h : Batchwise env p Q) : ∀ (fuel i : Nat) (s s' : St W M E) (k : List M),
    Q s.w k → exactLoop env p fuel i s = some s' →
    Q s'.w k ∧ s'.i = s.i ∧ visits s'.trace = visits s.trace ∧ updates s'.trace = updates s.trace := by
  intro fuel
  induction fuel with
  | zero =>
    intro i s s' k hs he
    rw [exactLoop] at he
    split at he
    · simp at he
    · simp only [Option.some.injEq] at he; rw [← he]; exact ⟨hs, rfl, rfl, rfl⟩
  | succ f ih =>
    intro i s s' k hs he
    rw [exactLoop] at he
    split at he
    · obtain ⟨a, b, c, d⟩ := ih _ _ s' k (h.cbEvaluate _ _ _ _ (h.evaluate _ _ _ _ _ hs)) he
      exact ⟨a, b, c.trans (by simp [visits]), d.trans (by simp [updates])⟩
    · simp only [Option.some.injEq] at he; rw [← he]; exact ⟨hs, rfl, rfl, rfl⟩

/-- After a run `Q` holds of the coordinates the update policy produced; their number is at most the
number of functions visited, which is at most their number times the batch size. -/
theorem optimize_batches (h : Batchwise env p Q) (hn : 0 < p.numFunctions) (hb : 0 < p.batchSize)
    {fuel : Nat} {w : W} {x : M} {r : Result W M E}
    (hw : Q w []) (hr : optimize env p fuel w x = .returned r) :
    Q r.w (updates r.trace) ∧ (updates r.trace).length ≤ (visits r.trace).length ∧
      (visits r.trace).length ≤ (updates r.trace).length * p.batchSize ∧
      (visits r.trace).length ≤ p.actualMax := by
  have hs : Q (start env w x).w [] := h.cbBeginEpoch _ _ _ _ _ (h.cbBegin _ _ _ hw)
  have hfin : ∀ (e : Exit) (s : St W M E), Q s.w (updates s.trace) → (updates s.trace).length ≤ s.i →
      s.i ≤ (updates s.trace).length * p.batchSize →
      (visits s.trace).length = s.i → s.i ≤ p.actualMax → r = finish env e s →
      Q r.w (updates r.trace) ∧ (updates r.trace).length ≤ (visits r.trace).length ∧
      (visits r.trace).length ≤ (updates r.trace).length * p.batchSize ∧
      (visits r.trace).length ≤ p.actualMax := by
    intro e s hq h1 h2 h3 h4 hr
    subst hr
    have e1 : (visits (finish env e s).trace).length = s.i := by rw [← h3]; simp [finish, visits]
    have e2 : updates (finish env e s).trace = updates s.trace := by simp [finish, updates]
    rw [e1, e2]
    exact ⟨h.cbEnd _ _ _ hq, h1, h2, h4⟩
  unfold optimize at hr
  cases hl : loop env p fuel (start env w x) with
  | ub => rw [hl] at hr; simp at hr
  | outOfFuel => rw [hl] at hr; simp at hr
  | done e s =>
    obtain ⟨hq, k1, k2⟩ := loop_batches h hn hb fuel _ (start_inv w x) (by simpa [start, updates] using hs)
      (Nat.zero_le _) (by simp [start]) e s hl
    have hv : (visits s.trace).length = s.i ∧ s.i ≤ p.actualMax := by
      rcases loop_inv hn hb fuel _ (start_inv w x : Inv env p (start env w x)) with
        ⟨h1, -⟩ | ⟨s', h1, h2, -⟩ | ⟨e', s', h1, -, h2, -⟩
      · rw [h1] at hl; cases hl
      · rw [h1] at hl; cases hl; exact ⟨by rw [h2.visits]; simp, h2.le⟩
      · rw [h1] at hl; cases hl; exact ⟨by rw [h2.visits]; simp, h2.le⟩
    rw [hl] at hr
    cases e with
    | bad => simp only [Outcome.returned.injEq] at hr; exact hfin _ s hq k1 k2 hv.1 hv.2 hr.symm
    | tol => simp only [Outcome.returned.injEq] at hr; exact hfin _ s hq k1 k2 hv.1 hv.2 hr.symm
    | loop =>
      simp only at hr
      split at hr
      · split at hr
        · rename_i s' he
          simp only [Outcome.returned.injEq] at hr
          obtain ⟨a, b, c, d⟩ := exactLoop_batches h _ _ { s with overall := env.zero } s' _ hq he
          simp only at b c d
          refine hfin _ s' ?_ ?_ ?_ ?_ ?_ hr.symm
          · rw [d]; exact a
          · rw [b, d]; exact k1
          · rw [b, d]; exact k2
          · rw [b, c]; exact hv.1
          · rw [b]; exact hv.2
        · simp at hr
      · simp only [Outcome.returned.injEq] at hr; exact hfin _ s hq k1 k2 hv.1 hv.2 hr.symm

end Ens.Sgd
