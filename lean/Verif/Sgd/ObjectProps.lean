import Mathlib.Analysis.SpecialFunctions.Trigonometric.Basic
import Verif.Sgd.Object

/-
C13: reuse of SGD objects, and C72: the cyclical step size schedule of SGDR
(/repo/include/ensmallen_bits/sgdr).
-/

namespace Ens.Sgd

variable {U P D S V M G E W : Type}

/-! ### A property of the world kept by every outside call is kept by a run -/

structure Preserves (env : Env W M G E) (Q : W → Prop) : Prop where
  evalGrad : ∀ w x b k, Q w → Q (env.evalGrad w x b k).1
  evaluate : ∀ w x b k, Q w → Q (env.evaluate w x b k).1
  shuffle : ∀ w, Q w → Q (env.shuffle w)
  update : ∀ w x g, Q w → Q (env.update w x g).1
  decay : ∀ w x g, Q w → Q (env.decay w x g).1
  cbBegin : ∀ w x, Q w → Q (env.cbBegin w x).1
  cbBeginEpoch : ∀ w x n e, Q w → Q (env.cbBeginEpoch w x n e).1
  cbEvalGrad : ∀ w x e g, Q w → Q (env.cbEvalGrad w x e g).1
  cbStep : ∀ w x, Q w → Q (env.cbStep w x).1
  cbEndEpoch : ∀ w x n e, Q w → Q (env.cbEndEpoch w x n e).1
  cbEvaluate : ∀ w x e, Q w → Q (env.cbEvaluate w x e).1
  cbEnd : ∀ w x, Q w → Q (env.cbEnd w x).1

variable {env : Env W M G E} {Q : W → Prop} {p : Params}

theorem body_preserves (h : Preserves env Q) (s : St W M E) (hs : Q s.w) :
    match body env p s with
    | .cont s' => Q s'.w
    | .ret _ s' => Q s'.w
    | .ub => True := by
  have h1 : Q (stepBatch env p s).w := by
    simp only [stepBatch]
    exact h.decay _ _ _ (h.cbStep _ _ (h.update _ _ _ (h.cbEvalGrad _ _ _ _ (h.evalGrad _ _ _ _ hs))))
  unfold body
  by_cases hn : p.numFunctions = 0
  · simp [hn]
  · simp only [hn, if_false]
    generalize stepBatch env p s = t at h1
    by_cases hm : t.cur % p.numFunctions = 0
    · simp only [hm, if_true]
      unfold epochEnd
      have he := h.cbEndEpoch _ t.x t.epoch (env.divN t.overall p.numFunctions) h1
      by_cases hb : env.isBad t.overall = true
      · simp only [hb, if_true]; exact he
      · by_cases hc : env.isClose t.last t.overall = true
        · simp only [hb, hc, if_true]; exact he
        · simp only [hb, hc]
          have hbe := h.cbBeginEpoch _ t.x (t.epoch + 1) t.overall he
          by_cases hsh : p.shuffle = true
          · simp only [hsh, if_true]
            simp only [Bool.false_eq_true, if_false]
            split
            · exact h.shuffle _ hbe
            · exact h.shuffle _ hbe
          · simp only [hsh]
            simp only [Bool.false_eq_true, if_false]
            split
            · exact hbe
            · exact hbe
    · simp only [hm, if_false]; exact h1

theorem loop_preserves (h : Preserves env Q) : ∀ (fuel : Nat) (s : St W M E), Q s.w →
    ∀ e s', loop env p fuel s = .done e s' → Q s'.w := by
  intro fuel
  induction fuel with
  | zero =>
    intro s hs e s' hl
    rw [loop] at hl
    split at hl
    · simp at hl
    · simp only [LoopRes.done.injEq] at hl; rw [← hl.2]; exact hs
  | succ k ih =>
    intro s hs e s' hl
    rw [loop] at hl
    split at hl
    · have hb := body_preserves (p := p) h s hs
      cases hbd : body env p s with
      | cont t => rw [hbd] at hl hb; exact ih t hb e s' hl
      | ret e' t => rw [hbd] at hl hb; simp only [LoopRes.done.injEq] at hl; rw [← hl.2]; exact hb
      | ub => rw [hbd] at hl; simp at hl
    · simp only [LoopRes.done.injEq] at hl; rw [← hl.2]; exact hs

theorem exactLoop_preserves (h : Preserves env Q) : ∀ (fuel i : Nat) (s s' : St W M E), Q s.w →
    exactLoop env p fuel i s = some s' → Q s'.w := by
  intro fuel
  induction fuel with
  | zero =>
    intro i s s' hs he
    rw [exactLoop] at he
    split at he
    · simp at he
    · simp only [Option.some.injEq] at he; rw [← he]; exact hs
  | succ k ih =>
    intro i s s' hs he
    rw [exactLoop] at he
    split at he
    · exact ih _ _ s' (h.cbEvaluate _ _ _ (h.evaluate _ _ _ _ hs)) he
    · simp only [Option.some.injEq] at he; rw [← he]; exact hs

theorem optimize_preserves (h : Preserves env Q) {fuel : Nat} {w : W} {x : M} {r : Result W M E}
    (hw : Q w) (hr : optimize env p fuel w x = .returned r) : Q r.w := by
  have hs : Q (start env w x).w := h.cbBeginEpoch _ _ _ _ (h.cbBegin _ _ hw)
  have hfin : ∀ (e : Exit) (s : St W M E), Q s.w → Q (finish env e s).w := fun e s hq =>
    h.cbEnd _ _ hq
  unfold optimize at hr
  cases hl : loop env p fuel (start env w x) with
  | ub => rw [hl] at hr; simp at hr
  | outOfFuel => rw [hl] at hr; simp at hr
  | done e s =>
    have hq := loop_preserves h fuel _ hs e s hl
    rw [hl] at hr
    cases e with
    | bad => simp only [Outcome.returned.injEq] at hr; rw [← hr]; exact hfin _ _ hq
    | tol => simp only [Outcome.returned.injEq] at hr; rw [← hr]; exact hfin _ _ hq
    | loop =>
      simp only at hr
      split at hr
      · split at hr
        · rename_i s' he
          simp only [Outcome.returned.injEq] at hr; rw [← hr]
          exact hfin _ _ (exactLoop_preserves h _ _ { s with overall := env.zero } s' hq he)
        · simp at hr
      · simp only [Outcome.returned.injEq] at hr; rw [← hr]; exact hfin _ _ hq

/-! ### C13 -/

variable {up : UpdPol U S M G} {dp : DecPol P D S M G}

/-- A decay policy without memory and without effect on the step size, such as `NoDecay`
(sgd/decay_policies/no_decay.hpp:54-59).  It may still move the coordinates. -/
def DecPol.Stateless (dp : DecPol P D S M G) : Prop :=
  ∀ a d s x g, (dp.upd a d s x g).1 = a ∧ (dp.upd a d s x g).2.1 = d ∧ (dp.upd a d s x g).2.2.1 = s

/-- **C13**, the part that holds: with a stateless decay policy (`NoDecay`, i.e. every optimizer
except SGDR) and `resetPolicy = true`, `Optimize` on an object with any history of previous calls
does exactly what it does on a newly constructed object. -/
theorem C13_reset_policy_like_new_partial (hdp : dp.Stateless) {step : S} {parent : P}
    {o : Obj U P D S} (ho : Reach up dp E step parent o) (u : User V M G E) (p : Params) (fuel : Nat)
    (v : V) (x : M) :
    optimizeObj up dp u p true fuel o v x
      = optimizeObj up dp u p true fuel (Obj.new step parent) v x := by
  have key : o.step = step ∧ o.parent = parent ∧ (o.isInit = true → o.dec = some dp.fresh) := by
    clear v x fuel p u
    induction ho with
    | new => exact ⟨rfl, rfl, by simp [Obj.new]⟩
    | call u p reset fuel v x r _ hr ih =>
      rename_i V' o' hreach
      obtain ⟨i1, i2, i3⟩ := ih
      have hQ : Preserves (mkEnv up dp u)
          (fun w => w.1.step = step ∧ w.1.parent = parent ∧ w.1.dec = dp.fresh) := by
        constructor <;> intros <;> rename_i hq <;> simp only [mkEnv] <;> try exact hq
        rename_i w x g
        obtain ⟨h1, h2, h3⟩ := hdp w.1.parent w.1.dec w.1.step x g
        exact ⟨by rw [h3]; exact hq.1, by rw [h1]; exact hq.2.1, by rw [h2]; exact hq.2.2⟩
      have := optimize_preserves hQ (w := (prologue up dp reset x o', v)) ?_ hr
      · exact ⟨this.1, this.2.1, fun _ => by simp [Live.close, this.2.2]⟩
      · refine ⟨i1, i2, ?_⟩
        simp only [prologue]
        cases hi : o'.isInit with
        | false => rfl
        | true => rw [i3 hi]
  obtain ⟨k1, k2, k3⟩ := key
  have : prologue up dp true x o = prologue up dp true x (Obj.new step parent) := by
    simp only [prologue, Obj.new, k1, k2, Live.mk.injEq, true_and, and_true]
    cases hi : o.isInit with
    | false => rfl
    | true => rw [k3 hi]
  unfold optimizeObj
  rw [this]

/-! ### SGDR -/

/-- `CyclicalDecay` members (sgdr/cyclical_decay.hpp:155-175); `epochRestart`, `nextRestart` are
`size_t` updated by `*= double`, here real-valued truncation is a parameter of `cyclicUpd`. -/
structure Cyclic where
  epochRestart : Nat
  multFactor : ℝ
  constStepSize : ℝ
  nextRestart : Nat
  batchRestart : Nat
  epochBatches : ℝ
  epoch : Nat

/-- Constructor, sgdr/cyclical_decay.hpp:53-63. -/
def Cyclic.new (epochRestart : Nat) (multFactor step : ℝ) : Cyclic :=
  ⟨epochRestart, multFactor, step, epochRestart, 0, 0, 0⟩

/-- The schedule at the start of a run on a new SGDR object: constructor, then
`EpochBatches() = NumFunctions() / double(BatchSize())` (sgdr/sgdr_impl.hpp:66-67). -/
def Cyclic.start (epochRestart : Nat) (multFactor step epochBatches : ℝ) : Cyclic :=
  { Cyclic.new epochRestart multFactor step with epochBatches := epochBatches }

/-- `CyclicalDecay::Policy::Update`, sgdr/cyclical_decay.hpp:117-146, on the schedule and the step
size.  `epochRestart *= multFactor` is the truncated product. -/
noncomputable def Cyclic.update (c : Cyclic) (step : ℝ) : Cyclic × ℝ :=
  let r : Cyclic × ℝ :=
    if c.epoch ≥ c.epochRestart then
      ({ c with batchRestart := c.batchRestart + 1 },
        0.5 * c.constStepSize * (1 + Real.cos ((c.batchRestart / c.epochBatches) * Real.pi)))
    else (c, step)
  let c' : Cyclic :=
    if r.1.epoch > r.1.nextRestart then
      let er := ⌊(r.1.epochRestart : ℝ) * r.1.multFactor⌋₊
      { r.1 with batchRestart := 0, epochRestart := er, nextRestart := r.1.nextRestart + er }
    else r.1
  ({ c' with epoch := c'.epoch + 1 }, r.2)

/-- `CyclicalDecay` as a decay policy; the nested `Policy` has no members of its own. -/
noncomputable def cyclicalDecay (M G : Type) : DecPol Cyclic Unit ℝ M G where
  fresh := ()
  upd := fun c _ s x _ => let r := c.update s; (r.1, (), r.2, x)

/-- What `SGDR::Optimize` does to its SGD object before delegating to it
(sgdr/sgdr_impl.hpp:59-74): a step size different from the schedule's is taken for a change by the
user, and the number of batches per epoch is set. -/
noncomputable def sgdrPrepare (numFunctions batchSize : Nat) (o : Obj U Cyclic D ℝ) :
    Obj U Cyclic D ℝ :=
  { o with parent :=
      { o.parent with
        constStepSize := if o.step ≠ o.parent.constStepSize then o.step else o.parent.constStepSize
        epochBatches := (numFunctions : ℝ) / (batchSize : ℝ) } }

/-- `SGDR::Optimize` (sgdr/sgdr_impl.hpp:50-77). -/
noncomputable def sgdrOptimize (up : UpdPol U ℝ M G) (u : User V M G E) (p : Params)
    (resetPolicy : Bool) (fuel : Nat) (o : Obj U Cyclic Unit ℝ) (v : V) (x : M) :
    Outcome (Live U Cyclic Unit ℝ × V) M E :=
  optimizeObj up (cyclicalDecay M G) u p resetPolicy fuel
    (sgdrPrepare p.numFunctions p.batchSize o) v x

/-- Plain update `x - step * g` (sgd/update_policies/vanilla_update.hpp:61-67). -/
def vanilla : UpdPol Unit ℝ ℝ ℝ where
  fresh := fun _ => ()
  upd := fun _ x s g => ((), x - s * g)

/-- One function with gradient 1 everywhere, silent callbacks, no NaN, no convergence. -/
def slope : User Unit ℝ ℝ Unit where
  evalGrad := fun v _ _ _ => (v, (), 1)
  evaluate := fun v _ _ _ => (v, ())
  shuffle := fun v => v
  cbBegin := fun v x => (v, x)
  cbBeginEpoch := fun v _ _ _ => (v, false)
  cbEvalGrad := fun v _ _ g => (v, g, false)
  cbStep := fun v x => (v, x, false)
  cbEndEpoch := fun v _ _ _ => (v, false)
  cbEvaluate := fun v _ _ => (v, false)
  cbEnd := fun v x => (v, x)
  add := fun _ _ => ()
  zero := ()
  divN := fun _ _ => ()
  dblMax := ()
  isBad := fun _ => false
  isClose := fun _ _ => false

def threeSteps : Params := ⟨1, 1, 3, false, false⟩

/-- Non-vacuity of `C13_reset_policy_like_new_partial`: an object with a history. -/
example : ∃ (o : Obj Unit Unit Unit ℝ) (dp : DecPol Unit Unit ℝ ℝ ℝ), dp.Stateless ∧
    Reach vanilla dp Unit (1 : ℝ) () o ∧ o.isInit = true := by
  refine ⟨_, ⟨(), fun _ _ s x _ => ((), (), s, x)⟩, fun _ _ _ _ _ => ⟨rfl, rfl, rfl⟩,
    .call slope threeSteps true 3 () 0 _ .new rfl, rfl⟩

/-- Step size and schedule after `k` batches. -/
noncomputable def Cyclic.run (c : Cyclic) (step : ℝ) : Nat → Cyclic × ℝ
  | 0 => (c, step)
  | k + 1 => let r := c.run step k; r.1.update r.2

theorem threeRun (c : Cyclic) (s : ℝ) :
    ∃ r, optimize (mkEnv vanilla (cyclicalDecay ℝ ℝ) slope) threeSteps 3 (⟨s, c, (), ()⟩, ()) 0
        = .returned r ∧
      r.x = 0 - s * 1 - (c.run s 1).2 * 1 - (c.run s 2).2 * 1 ∧
      r.w.1.step = (c.run s 3).2 ∧ r.w.1.parent = (c.run s 3).1 := by
  simp [optimize, loop, start, body, stepBatch, epochEnd, mkEnv, slope, threeSteps, effBatch,
    Params.actualMax, cyclicalDecay, vanilla, finish, Cyclic.run]

/-- **C13** is false for SGDR: with `resetPolicy = true` the second of two identical calls on one
object (epochRestart 1, step size 1, three iterations, both from 0) does not repeat the first: the
step size that the schedule decayed to 0 is taken for a user setting and the second call never
moves. -/
theorem C13_sgdr_reuse_refuted :
    ∃ r₁ r₂, sgdrOptimize vanilla slope threeSteps true 3 (Obj.new 1 (Cyclic.new 1 2 1)) () 0
        = .returned r₁ ∧
      sgdrOptimize vanilla slope threeSteps true 3 r₁.w.1.close () 0 = .returned r₂ ∧
      r₁.x = -3 ∧ r₂.x = 0 := by
  have u0 : Cyclic.update ⟨1, 2, 1, 1, 0, 1, 0⟩ 1 = (⟨1, 2, 1, 1, 0, 1, 1⟩, 1) := by
    simp [Cyclic.update]
  have u1 : Cyclic.update ⟨1, 2, 1, 1, 0, 1, 1⟩ 1 = (⟨1, 2, 1, 1, 1, 1, 2⟩, 1) := by
    simp [Cyclic.update]; norm_num
  have u2 : Cyclic.update ⟨1, 2, 1, 1, 1, 1, 2⟩ 1 = (⟨2, 2, 1, 3, 0, 1, 3⟩, 0) := by
    simp [Cyclic.update]
  have z : ∀ c : Cyclic, c.constStepSize = 0 →
      (c.update 0).2 = 0 ∧ (c.update 0).1.constStepSize = 0 := by
    intro c hc
    unfold Cyclic.update
    split <;> simp only [hc, mul_zero, zero_mul] <;> split <;> simp [hc]
  obtain ⟨r₁, h1, hx, hs, hp⟩ := threeRun ⟨1, 2, 1, 1, 0, 1, 0⟩ 1
  simp only [Cyclic.run, u0, u1, u2] at hx hs hp
  have hc1 : (sgdrPrepare threeSteps.numFunctions threeSteps.batchSize r₁.w.1.close).parent.constStepSize
      = 0 := by
    show (if r₁.w.1.step ≠ r₁.w.1.parent.constStepSize then r₁.w.1.step
      else r₁.w.1.parent.constStepSize) = 0
    rw [hs, hp]; simp
  obtain ⟨r₂, h2, hx2, -, -⟩ := threeRun
    (sgdrPrepare threeSteps.numFunctions threeSteps.batchSize r₁.w.1.close).parent 0
  refine ⟨r₁, r₂, ?_, ?_, by rw [hx]; norm_num, ?_⟩
  · rw [← h1]
    simp [sgdrOptimize, optimizeObj, prologue, sgdrPrepare, Obj.new, Cyclic.new, threeSteps,
      vanilla, cyclicalDecay]
  · rw [← h2]
    unfold sgdrOptimize optimizeObj
    congr 1
    rw [Prod.mk.injEq]
    refine ⟨?_, rfl⟩
    show (⟨r₁.w.1.step, _, (), _⟩ : Live Unit Cyclic Unit ℝ) = _
    rw [hs]
  · rw [hx2]
    simp only [Cyclic.run]
    have g1 := z _ hc1
    rw [g1.1]
    rw [(z _ g1.2).1]
    norm_num

/-! ### C72 -/

theorem update_const (c : Cyclic) (s : ℝ) : (c.update s).1.constStepSize = c.constStepSize := by
  unfold Cyclic.update
  split <;> simp only <;> split <;> rfl

/-- **C72** Whatever the restart parameters, the step size of SGDR always lies between 0 and the
user's step size. -/
theorem C72_sgdr_step_in_range (c : Cyclic) (hc : 0 ≤ c.constStepSize) (k : Nat) :
    0 ≤ (c.run c.constStepSize k).2 ∧ (c.run c.constStepSize k).2 ≤ c.constStepSize := by
  have : (c.run c.constStepSize k).1.constStepSize = c.constStepSize ∧
      0 ≤ (c.run c.constStepSize k).2 ∧ (c.run c.constStepSize k).2 ≤ c.constStepSize := by
    induction k with
    | zero => exact ⟨rfl, hc, le_refl _⟩
    | succ k ih =>
      obtain ⟨h1, h2, h3⟩ := ih
      refine ⟨by rw [Cyclic.run, update_const, h1], ?_⟩
      rw [Cyclic.run]
      generalize c.run c.constStepSize k = r at *
      obtain ⟨r1, r2⟩ := r
      simp only at h1 h2 h3 ⊢
      have hcos := Real.neg_one_le_cos (((r1.batchRestart : ℝ) / r1.epochBatches) * Real.pi)
      have hcos' := Real.cos_le_one (((r1.batchRestart : ℝ) / r1.epochBatches) * Real.pi)
      unfold Cyclic.update
      split
      · simp only [h1]
        constructor
        · have : 0 ≤ 1 + Real.cos (((r1.batchRestart : ℝ) / r1.epochBatches) * Real.pi) := by linarith
          positivity
        · nlinarith
      · exact ⟨h2, h3⟩
  exact this.2

/-- **C72** The first adjusted batch after a restart uses the full step size again. -/
theorem C72_sgdr_restart_full_step (c : Cyclic) (s : ℝ) (h0 : c.batchRestart = 0)
    (he : c.epochRestart ≤ c.epoch) : (c.update s).2 = c.constStepSize := by
  unfold Cyclic.update
  rw [if_pos he]
  simp [h0]
  ring

/-- **C72** Before `epochRestart` batches the step size is not touched (the schedule counts batches:
`epoch` is incremented by every update). -/
theorem C72_sgdr_no_decay_before_start (er : Nat) (mult s eb : ℝ) (k : Nat) (hk : k ≤ er) :
    ((Cyclic.start er mult s eb).run s k).2 = s := by
  have : ∀ k ≤ er, ((Cyclic.start er mult s eb).run s k)
      = (⟨er, mult, s, er, 0, eb, k⟩, s) := by
    intro k
    induction k with
    | zero => intro _; rfl
    | succ k ih =>
      intro hk
      rw [Cyclic.run, ih (by omega)]
      have h1 : ¬ (k ≥ er) := by omega
      have h2 : ¬ (k > er) := by omega
      simp only [Cyclic.update, h1, h2, if_false]
  rw [this k hk]

/-- Non-vacuity: a schedule that has really decayed (half the step size) and restarted. -/
example : ((Cyclic.start 1 2 1 2).run 1 3).2 = 1 / 2 := by
  have hcos : Real.cos (2⁻¹ * Real.pi) = 0 := by
    rw [show 2⁻¹ * Real.pi = Real.pi / 2 by ring]; exact Real.cos_pi_div_two
  simp [Cyclic.run, Cyclic.update, Cyclic.new, Cyclic.start, hcos]
  norm_num

/-- **C73** The documentation counts `epochRestart` in epochs ("initial epoch where decay is
applied"); the code counts batches.  With 4 functions, batch size 1 and `epochRestart = 1` the step
size has changed before the first epoch is over. -/
theorem C73_sgdr_decay_starts_after_epochs_refuted :
    ¬ ∀ (er numFunctions batchSize : Nat) (mult s : ℝ), 0 < batchSize → ∀ k,
        k * batchSize ≤ er * numFunctions →
        ((Cyclic.start er mult s ((numFunctions : ℝ) / (batchSize : ℝ))).run s k).2 = s := by
  intro h
  have := h 1 4 1 2 1 (by norm_num) 3 (by norm_num)
  have hcos : Real.cos (Real.pi / 2) = 0 := Real.cos_pi_div_two
  have hcos4 : Real.cos (4⁻¹ * Real.pi) ≠ 1 := by
    intro h1
    have h2 := Real.cos_two_mul (4⁻¹ * Real.pi)
    rw [h1, show 2 * (4⁻¹ * Real.pi) = Real.pi / 2 by ring, hcos] at h2
    norm_num at h2
  simp [Cyclic.run, Cyclic.update, Cyclic.new, Cyclic.start] at this
  exact hcos4 (by norm_num at this; linarith)

end Ens.Sgd
