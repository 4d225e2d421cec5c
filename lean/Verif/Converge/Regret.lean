import Mathlib.Algebra.BigOperators.Group.List.Basic
import Verif.Converge.Base

/-
The regret of `SGD::Optimize` on a sum of functions: what the mean losses reported to the `EndEpoch` callbacks add up to,
compared with any fixed point `z` (C253, C254).  This file has the bookkeeping over the batches and epochs of a run.
-/

namespace Ens.Converge

open Ens.Sgd

variable {W M G : Type}

/-- The mean losses handed to the `EndEpoch` callbacks, in order. -/
def epochMeans (t : List (Ev M ℝ)) : List ℝ :=
  t.filterMap fun | .endEpoch _ a _ => some a | _ => none

@[simp] theorem epochMeans_append (a b : List (Ev M ℝ)) : epochMeans (a ++ b) = epochMeans a ++ epochMeans b := by
  simp [epochMeans]

/-- Loss of the point `z` on the functions `b, …, b + k - 1` in their order in the world `w`. -/
def batchLoss (loss : W → Nat → M → ℝ) (w : W) (z : M) (b k : Nat) : ℝ := ∑ j ∈ Finset.range k, loss w (b + j) z

/-- What a bookkeeping predicate `Ok i w x ρ` ("after `i` visited functions, in world `w` at `x`, the regret `ρ` is possible")
has to satisfy to hold along a run. -/
structure Books (env : Env W M G ℝ) (p : Params) (loss : W → Nat → M → ℝ) (z : M) (Ok : Nat → W → M → ℝ → Prop) : Prop where
  add : ∀ a b, env.add a b = a + b
  zero : env.zero = 0
  divN : ∀ a n, env.divN a n = a / n
  begin_ : ∀ w x, Ok 0 w x 0 → Ok 0 (env.cbBegin w x).1 (env.cbBegin w x).2 0
  beginEpoch : ∀ i w x ρ n e, Ok i w x ρ → Ok i (env.cbBeginEpoch w x n e).1 x ρ
  endEpoch : ∀ i w x ρ n e, Ok i w x ρ → Ok i (env.cbEndEpoch w x n e).1 x ρ
  shuffle : ∀ i w x ρ, Ok i w x ρ → Ok i (env.shuffle w) x ρ
  batch : ∀ i w x ρ b k, 0 < k → k ≤ p.batchSize → b + k ≤ p.numFunctions → b = i % p.numFunctions → Ok i w x ρ →
    let r := env.evalGrad w x b k
    let c := env.cbEvalGrad r.1 x r.2.1 r.2.2
    let u := env.update c.1 x c.2.1
    let s := env.cbStep u.1 u.2
    let d := env.decay s.1 s.2.1 c.2.1
    Ok (i + k) d.1 d.2 (ρ + r.2.1 - batchLoss loss w z b k) ∧ loss d.1 = loss w

/-- State at the head of the loop. -/
structure RInv (env : Env W M G ℝ) (p : Params) (loss : W → Nat → M → ℝ) (z : M) (F : ℝ) (Ok : Nat → W → M → ℝ → Prop)
    (s : St W M ℝ) : Prop where
  curLt : s.i < p.actualMax → s.cur < p.numFunctions
  idx : s.i < p.actualMax → s.i = (epochMeans s.trace).length * p.numFunctions + s.cur
  le : s.i ≤ p.actualMax
  cnt : s.i / p.numFunctions = (epochMeans s.trace).length
  now : s.i < p.actualMax → Ok s.i s.w s.x (p.numFunctions * (epochMeans s.trace).sum + s.overall -
    (epochMeans s.trace).length * F - batchLoss loss s.w z 0 s.cur)
  past : ∃ w x, Ok ((epochMeans s.trace).length * p.numFunctions) w x
    (p.numFunctions * (epochMeans s.trace).sum - (epochMeans s.trace).length * F)

variable {env : Env W M G ℝ} {p : Params} {loss : W → Nat → M → ℝ} {z : M} {F : ℝ} {Ok : Nat → W → M → ℝ → Prop}

theorem batchLoss_add (w : W) (b k : Nat) :
    batchLoss loss w z 0 b + batchLoss loss w z b k = batchLoss loss w z 0 (b + k) := by
  simp [batchLoss, Finset.sum_range_add]

theorem start_rinv (hB : Books env p loss z Ok) (hn : 0 < p.numFunctions) {w : W} {x : M} (h0 : Ok 0 w x 0) :
    RInv env p loss z F Ok (start env w x) := by
  have h1 := hB.beginEpoch _ _ _ _ 1 env.zero (hB.begin_ w x h0)
  refine ⟨fun _ => hn, fun _ => by simp [start, epochMeans], Nat.zero_le _, by simp [start, epochMeans], fun _ => ?_,
    ⟨(start env w x).w, (start env w x).x, ?_⟩⟩
  · simpa [start, epochMeans, hB.zero, batchLoss] using h1
  · simpa [start, epochMeans] using h1

/-- What holds when the loop is left. -/
def RPast (p : Params) (F : ℝ) (Ok : Nat → W → M → ℝ → Prop) (t : List (Ev M ℝ)) : Prop :=
  ∃ w x, Ok ((epochMeans t).length * p.numFunctions) w x (p.numFunctions * (epochMeans t).sum - (epochMeans t).length * F)

theorem body_rinv (hB : Books env p loss z Ok) (hn : 0 < p.numFunctions) (hb : 0 < p.batchSize)
    (hF : ∀ w, batchLoss loss w z 0 p.numFunctions = F) {s : St W M ℝ} (h : RInv env p loss z F Ok s)
    (hlt : s.i < p.actualMax) :
    (∀ s', body env p s = .cont s' → RInv env p loss z F Ok s') ∧
      ∀ e s', body env p s = .ret e s' → RPast p F Ok s'.trace ∧ s'.i / p.numFunctions = (epochMeans s'.trace).length := by
  have hcl := h.curLt hlt
  have heff : 0 < effBatch p s := by unfold effBatch; omega
  have heb : effBatch p s ≤ p.batchSize := by unfold effBatch; omega
  have hec : s.cur + effBatch p s ≤ p.numFunctions := by unfold effBatch; omega
  have hei : s.i + effBatch p s ≤ p.actualMax := by unfold effBatch; omega
  have hmod : s.cur = s.i % p.numFunctions := by
    rw [h.idx hlt, Nat.mul_add_mod_self_right, Nat.mod_eq_of_lt hcl]
  obtain ⟨ho, hl⟩ := hB.batch _ _ _ _ s.cur (effBatch p s) heff heb hec hmod (h.now hlt)
  set q := stepBatch env p s with hq
  have hqi : q.i = s.i + effBatch p s := rfl
  have hqc : q.cur = s.cur + effBatch p s := rfl
  have hqm : epochMeans q.trace = epochMeans s.trace := by
    rw [hq]; simp [stepBatch, epochMeans]
  have hql : loss q.w = loss s.w := hl
  have hqo : Ok q.i q.w q.x (p.numFunctions * (epochMeans q.trace).sum + q.overall -
      (epochMeans q.trace).length * F - batchLoss loss q.w z 0 q.cur) := by
    rw [hqm, hqi]
    have e1 : batchLoss loss q.w z 0 q.cur = batchLoss loss s.w z 0 s.cur + batchLoss loss s.w z s.cur (effBatch p s) := by
      rw [batchLoss_add, hqc, batchLoss, batchLoss, hql]
    have e2 : q.overall = s.overall + (env.evalGrad s.w s.x s.cur (effBatch p s)).2.1 := hB.add _ _
    rw [e1, e2]
    refine cast (congrArg (Ok _ _ _) ?_) ho
    ring
  have hbody : body env p s = if q.cur % p.numFunctions = 0 then epochEnd env p q else .cont q := by
    rw [body, if_neg hn.ne']
  by_cases hend : q.cur % p.numFunctions = 0
  · rw [if_pos hend] at hbody
    have hcn : q.cur = p.numFunctions := by
      rw [hqc] at hend ⊢
      obtain ⟨t, ht⟩ := Nat.dvd_of_mod_eq_zero hend
      rcases Nat.lt_trichotomy t 1 with h1 | h1 | h1
      · have : t = 0 := by omega
        subst this; omega
      · subst h1; omega
      · have : p.numFunctions * 2 ≤ p.numFunctions * t := Nat.mul_le_mul_left _ h1
        omega
    have hqn : q.i = ((epochMeans s.trace).length + 1) * p.numFunctions := by
      have := h.idx hlt
      rw [Nat.add_mul, Nat.one_mul]; omega
    set avg := env.divN q.overall p.numFunctions with havg
    have havg' : (p.numFunctions : ℝ) * avg = q.overall := by
      rw [havg, hB.divN]
      field_simp
    have hep : ∀ b, epochMeans (q.trace ++ [.endEpoch q.epoch avg b]) = epochMeans s.trace ++ [avg] := by
      intro b
      rw [epochMeans_append, hqm]; rfl
    have hdone : Ok q.i q.w q.x (p.numFunctions * (epochMeans s.trace ++ [avg]).sum -
        (epochMeans s.trace ++ [avg]).length * F) := by
      rw [hqm, hcn, hF] at hqo
      refine cast (congrArg (Ok _ _ _) ?_) hqo
      rw [List.sum_append, List.sum_singleton, mul_add, havg', List.length_append, List.length_singleton]
      push_cast
      ring
    have hpast : ∀ b, RPast p F Ok (q.trace ++ [.endEpoch q.epoch avg b]) := by
      intro b
      refine ⟨q.w, q.x, ?_⟩
      rw [hep, List.length_append, List.length_singleton, ← hqn]
      rw [List.length_append, List.length_singleton] at hdone
      exact hdone
    have mid : ∀ s' : St W M ℝ, s'.i = q.i → epochMeans s'.trace = epochMeans s.trace ++ [avg] →
        (s'.i < p.actualMax → s'.cur = 0 ∧ s'.overall = 0) →
        (∀ ρ, Ok q.i q.w q.x ρ → Ok q.i s'.w s'.x ρ) → RInv env p loss z F Ok s' := by
      intro s' e1 e2 e3 e4
      refine ⟨fun hl => (e3 hl).1 ▸ hn, fun hl => ?_, by omega, ?_, fun hl => ?_, ⟨q.w, q.x, ?_⟩⟩
      · rw [(e3 hl).1, e1, e2, List.length_append, List.length_singleton, hqn]; rfl
      · rw [e1, e2, List.length_append, List.length_singleton, hqn, Nat.mul_div_cancel _ hn]
      · rw [(e3 hl).1, (e3 hl).2, e1, e2]
        have := e4 _ hdone
        simpa [batchLoss] using this
      · rw [e2]
        rw [List.length_append, List.length_singleton, ← hqn]
        rw [List.length_append, List.length_singleton] at hdone
        exact hdone
    rw [hbody]
    unfold epochEnd
    simp only
    refine ⟨fun s' hs' => ?_, fun e s' hs' => ?_⟩
    · split_ifs at hs' with h1 h2 h3 h4 <;> first | (cases hs'; done) | skip
      all_goals
        simp only [BodyRes.cont.injEq] at hs'
        subst hs'
        refine mid _ rfl ?_ ?_ ?_
        · simp only [epochMeans_append, hqm]
          simp [epochMeans, havg]
        · intro hl
          first
            | exact ⟨rfl, hB.zero⟩
            | exact absurd (not_not.1 ‹¬q.i ≠ _›) (Nat.ne_of_lt hl)
        · intro ρ hρ
          first
            | exact hB.shuffle _ _ _ _ (hB.beginEpoch _ _ _ _ _ _ (hB.endEpoch _ _ _ _ _ _ hρ))
            | exact hB.beginEpoch _ _ _ _ _ _ (hB.endEpoch _ _ _ _ _ _ hρ)
    · split_ifs at hs' with h1 h2
      all_goals
        first
          | (simp only [BodyRes.ret.injEq] at hs'
             obtain ⟨-, rfl⟩ := hs'
             refine ⟨hpast _, ?_⟩
             show q.i / _ = _
             rw [hep, List.length_append, List.length_singleton, hqn, Nat.mul_div_cancel _ hn])
          | (exact absurd hs' (by simp))
  · rw [if_neg hend] at hbody
    rw [hbody]
    refine ⟨fun s' hs' => ?_, fun e s' hs' => by cases hs'⟩
    simp only [BodyRes.cont.injEq] at hs'
    subst hs'
    have hlt' : q.cur < p.numFunctions := by
      rcases Nat.lt_or_ge q.cur p.numFunctions with h1 | h1
      · exact h1
      · exact absurd (by rw [show q.cur = p.numFunctions by omega, Nat.mod_self]) hend
    refine ⟨fun _ => hlt', fun _ => ?_, by omega, ?_, fun _ => hqo, ?_⟩
    · rw [hqm, hqi, hqc, h.idx hlt]; omega
    · have : q.i = q.cur + p.numFunctions * (epochMeans s.trace).length := by
        rw [hqi, hqc, h.idx hlt, Nat.mul_comm]; omega
      rw [hqm, this, Nat.add_mul_div_left _ _ hn, Nat.div_eq_of_lt hlt', Nat.zero_add]
    · rw [hqm]; exact h.past

theorem loop_rinv (hB : Books env p loss z Ok) (hn : 0 < p.numFunctions) (hb : 0 < p.batchSize)
    (hF : ∀ w, batchLoss loss w z 0 p.numFunctions = F) : ∀ (fuel : Nat) (s : St W M ℝ) (e : Exit) (s' : St W M ℝ),
      RInv env p loss z F Ok s → loop env p fuel s = .done e s' →
        RPast p F Ok s'.trace ∧ s'.i / p.numFunctions = (epochMeans s'.trace).length := by
  intro fuel
  induction fuel with
  | zero =>
    intro s e s' h hl
    rw [loop] at hl
    split at hl
    · cases hl
    · cases hl; exact ⟨h.past, h.cnt⟩
  | succ fuel ih =>
    intro s e s' h hl
    rw [loop] at hl
    split at hl
    · rename_i hc
      obtain ⟨b1, b2⟩ := body_rinv hB hn hb hF h hc.1
      split at hl
      · rename_i s1 hs1
        exact ih s1 e s' (b1 _ hs1) hl
      · rename_i e1 s1 hs1
        cases hl
        exact b2 _ _ hs1
      · cases hl
    · cases hl; exact ⟨h.past, h.cnt⟩

theorem exactLoop_means (env : Env W M G ℝ) (p : Params) : ∀ (fuel i : Nat) (s s' : St W M ℝ),
    exactLoop env p fuel i s = some s' → epochMeans s'.trace = epochMeans s.trace := by
  intro fuel
  induction fuel with
  | zero =>
    intro i s s' h
    rw [exactLoop] at h
    split at h
    · cases h
    · cases h; rfl
  | succ fuel ih =>
    intro i s s' h
    rw [exactLoop] at h
    split at h
    · rw [ih _ _ _ h]
      simp [epochMeans]
    · cases h; rfl

/-- The bookkeeping predicate holds for the losses reported to `EndEpoch` in any run that returns, however it ends. -/
theorem optimize_books (hB : Books env p loss z Ok) (hn : 0 < p.numFunctions) (hb : 0 < p.batchSize)
    (hF : ∀ w, batchLoss loss w z 0 p.numFunctions = F) {fuel : Nat} {w : W} {x : M} (h0 : Ok 0 w x 0) {r : Result W M ℝ}
    (h : optimize env p fuel w x = .returned r) : RPast p F Ok r.trace := by
  have hs := start_rinv (F := F) hB hn h0
  have hfin : ∀ e (s : St W M ℝ), RPast p F Ok s.trace → RPast p F Ok (finish env e s).trace := by
    intro e s hp
    have : epochMeans (finish env e s).trace = epochMeans s.trace := by simp [finish, epochMeans]
    unfold RPast
    rw [this]
    exact hp
  rw [optimize] at h
  cases hl : loop env p fuel (start env w x) with
  | ub => rw [hl] at h; cases h
  | outOfFuel => rw [hl] at h; cases h
  | done e s =>
    have hp := (loop_rinv hB hn hb hF fuel _ e s hs hl).1
    rw [hl] at h
    cases e with
    | bad => cases h; exact hfin _ _ hp
    | tol => cases h; exact hfin _ _ hp
    | loop =>
      simp only at h
      split at h
      · split at h
        · rename_i s' hs'
          cases h
          refine hfin _ _ ?_
          have := exactLoop_means _ _ _ _ _ _ hs'
          unfold RPast
          rw [this]
          exact hp
        · cases h
      · cases h; exact hfin _ _ hp

/-- Number of epochs that a run reports if nothing stops it early. -/
theorem quiet_epochs {U V : Type} {up : UpdPol U ℝ M G} {u : User V M G ℝ} {grad : M → Nat → Nat → G} {clip : G → G}
    {proj : M → M} (hq : Quiet u grad clip proj) (hadd : ∀ a b, u.add a b = a + b) (hzero : u.zero = 0)
    (hdiv : ∀ a k, u.divN a k = a / k) (hn : 0 < p.numFunctions) (hb : 0 < p.batchSize) {a : ℝ} {fuel : Nat} {v : V} {x : M}
    {r : Result (Live U Unit Unit ℝ × V) M ℝ}
    (h : optimizeObj up (noDecay M G) u p true fuel (Obj.new a ()) v x = .returned r) :
    (epochMeans r.trace).length = p.actualMax / p.numFunctions := by
  set env := mkEnv up (noDecay M G) u with henv
  set l := prologue up (noDecay M G) true x (Obj.new a () : Obj U Unit Unit ℝ) with hl
  have hB : Books env p (fun _ _ _ => 0) x (fun _ _ _ _ => True) :=
    ⟨hadd, hzero, hdiv, fun _ _ _ => trivial, fun _ _ _ _ _ _ _ => trivial, fun _ _ _ _ _ _ _ => trivial,
      fun _ _ _ _ _ => trivial, fun _ _ _ _ _ _ _ _ _ _ _ => ⟨trivial, rfl⟩⟩
  have hag : Agree p (start env (l, v) x) ⟨0, l.step, l.parent, l.upd, l.dec, x⟩ := by
    refine ⟨rfl, ?_, rfl, ?_, ?_, Nat.zero_le _⟩
    · show (u.cbBegin v x).2 = x
      exact hq.cbBegin v x
    · exact hq.cbBeginEpoch _ _ _ _
    · intro _; simp [start]
  rw [optimizeObj, optimize] at h
  cases hlp : loop env p fuel (start env (l, v) x) with
  | ub => rw [hlp] at h; cases h
  | outOfFuel => rw [hlp] at h; cases h
  | done e s =>
    obtain ⟨he, k, hk, hm, -⟩ := agree_loop hq hn fuel hag hlp
    have hc := (loop_rinv (F := 0) hB hn hb (fun w => by simp [batchLoss]) fuel _ e s
      (start_rinv hB hn trivial) hlp).2
    rw [hm] at hc
    have hfin : ∀ e (s : St (Live U Unit Unit ℝ × V) M ℝ), epochMeans (finish env e s).trace = epochMeans s.trace := by
      intro e s; simp [finish, epochMeans]
    subst he
    rw [hlp] at h
    simp only at h
    split at h
    · split at h
      · rename_i s' hs'
        cases h
        rw [hfin, exactLoop_means _ _ _ _ _ _ hs', hc]
      · cases h
    · cases h
      rw [hfin, hc]

end Ens.Converge
