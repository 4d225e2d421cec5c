import Mathlib.Data.List.Basic
import Mathlib.Logic.Function.Iterate
import Verif.Sgd.Object

/-
C149: a whole `SGD::Optimize` run computes the textbook recursion, and C150: its tests at the end of
an epoch.
-/

namespace Ens.Sgd

variable {U P D S V M G E : Type}

/-! ### The recursion a user expects -/

/-- Where the recursion stands: number of functions visited, policy objects and step size,
coordinates. -/
structure Tb (U P D S M : Type) where
  i : Nat
  step : S
  parent : P
  upd : U
  dec : D
  x : M

/-- Configuration and user functions of the recursion: `n` separable functions with batch gradient
`grad x begin size`, batches of `b`, at most `limit` visits, what the gradient callbacks do to a
gradient (`clip`) and what the step callbacks do to the coordinates (`proj`). -/
structure Recipe (M G : Type) where
  n : Nat
  b : Nat
  limit : Nat
  grad : M → Nat → Nat → G
  clip : G → G
  proj : M → M

/-- One iteration: the next batch, the (clipped) gradient there, the update policy, the projection,
the decay policy. -/
def Tb.next (up : UpdPol U S M G) (dp : DecPol P D S M G) (c : Recipe M G) (t : Tb U P D S M) :
    Tb U P D S M :=
  let size := min (min c.b (c.limit - t.i)) (c.n - t.i % c.n)
  let g := c.clip (c.grad t.x (t.i % c.n) size)
  let r := up.upd t.upd t.x t.step g
  let d := dp.upd t.parent t.dec t.step (c.proj r.2) g
  { i := t.i + size, step := d.2.2.1, parent := d.1, upd := r.1, dec := d.2.1, x := d.2.2.2 }

/-- User code whose answers do not depend on its state, callbacks that never ask to stop, and a
stopping test that never fires. -/
structure Quiet (u : User V M G E) (grad : M → Nat → Nat → G) (clip : G → G) (proj : M → M) : Prop where
  evalGrad : ∀ v x b k, (u.evalGrad v x b k).2.2 = grad x b k
  cbEvalGrad : ∀ v x e g, (u.cbEvalGrad v x e g).2 = (clip g, false)
  cbStep : ∀ v x, (u.cbStep v x).2 = (proj x, false)
  cbBegin : ∀ v x, (u.cbBegin v x).2 = x
  cbBeginEpoch : ∀ v x n e, (u.cbBeginEpoch v x n e).2 = false
  cbEndEpoch : ∀ v x n e, (u.cbEndEpoch v x n e).2 = false
  isBad : ∀ e, u.isBad e = false
  isClose : ∀ a b, u.isClose a b = false

variable {up : UpdPol U S M G} {dp : DecPol P D S M G} {u : User V M G E}
  {grad : M → Nat → Nat → G} {clip : G → G} {proj : M → M}

/-- The loop-head state of the program agrees with a state of the recursion. -/
structure Agree (p : Params) (s : St (Live U P D S × V) M E) (t : Tb U P D S M) : Prop where
  i : s.i = t.i
  x : s.x = t.x
  live : s.w.1 = ⟨t.step, t.parent, t.upd, t.dec⟩
  run : s.terminate = false
  cur : s.i < p.actualMax → s.cur = s.i % p.numFunctions
  le : s.i ≤ p.actualMax

theorem agree_body (hq : Quiet u grad clip proj) {p : Params} (hn : 0 < p.numFunctions)
    {s : St (Live U P D S × V) M E} {t : Tb U P D S M} (h : Agree p s t) (hlt : s.i < p.actualMax) :
    ∃ s', body (mkEnv up dp u) p s = .cont s' ∧
      Agree p s' (t.next up dp ⟨p.numFunctions, p.batchSize, p.actualMax, grad, clip, proj⟩) := by
  have hc := h.cur hlt
  have hml := Nat.mod_lt s.i hn
  have hsi := h.i
  set q := stepBatch (mkEnv up dp u) p s with hqd
  set t' := t.next up dp ⟨p.numFunctions, p.batchSize, p.actualMax, grad, clip, proj⟩ with ht'
  have eff : effBatch p s =
      min (min p.batchSize (p.actualMax - t.i)) (p.numFunctions - t.i % p.numFunctions) := by
    rw [effBatch, hc, h.i]
  have q1 : q.i = t'.i := by
    show s.i + effBatch p s = _
    rw [eff, h.i]; rfl
  have hlive := h.live
  have hgrad : ∀ v x b k, (u.evalGrad v x b k).2.2 = grad x b k := hq.evalGrad
  have q2 : q.x = t'.x ∧ q.w.1 = ⟨t'.step, t'.parent, t'.upd, t'.dec⟩ := by
    simp only [hqd, ht', stepBatch, Tb.next, mkEnv, hq.cbEvalGrad, hq.cbStep, hgrad, hlive, h.x, hc,
      h.i, eff, and_self]
  have q3 : q.terminate = false := by
    show (s.terminate || _ || _) = false
    simp [h.run, mkEnv, hq.cbEvalGrad, hq.cbStep]
  have q4 : q.cur = s.i % p.numFunctions + effBatch p s := by
    show s.cur + effBatch p s = _
    rw [hc]
  have q5 : q.i = s.i + effBatch p s := rfl
  have b1 : effBatch p s ≤ p.actualMax - s.i := by rw [eff, h.i]; omega
  have b2 : effBatch p s ≤ p.numFunctions - s.i % p.numFunctions := by rw [eff, h.i]; omega
  have hdm := Nat.div_add_mod s.i p.numFunctions
  have hbody : Ens.Sgd.body (mkEnv up dp u) p s =
      if q.cur % p.numFunctions = 0 then epochEnd (mkEnv up dp u) p q else .cont q := by
    rw [Ens.Sgd.body, if_neg (by omega)]
  rw [hbody]
  have mid : ∀ s' : St (Live U P D S × V) M E, s'.i = q.i → s'.x = q.x → s'.w.1 = q.w.1 →
      s'.terminate = false → (s'.i < p.actualMax → s'.cur = s'.i % p.numFunctions) → Agree p s' t' := by
    intro s' e1 e2 e3 e4 e5
    exact ⟨e1.trans q1, e2.trans q2.1, e3.trans q2.2, e4, e5, by rw [e1, q5]; omega⟩
  by_cases hend : q.cur % p.numFunctions = 0
  · rw [if_pos hend]
    have hqm : q.i % p.numFunctions = 0 := by
      rw [q4] at hend
      rw [q5, ← hdm, Nat.add_assoc, Nat.mul_add_mod]; exact hend
    clear_value q
    refine ⟨_, by rw [epochEnd]; simp only [mkEnv, hq.isBad, hq.isClose]; rfl, mid _ ?_ ?_ ?_ ?_ ?_⟩
    · split <;> split <;> rfl
    · split <;> split <;> rfl
    · split <;> split <;> rfl
    · split <;> split <;> simp [q3, hq.cbEndEpoch, hq.cbBeginEpoch]
    · split <;> split
      · intro _; exact hqm.symm
      · rename_i h1 h2
        intro h3
        exact absurd (not_not.1 h2) (Nat.ne_of_lt h3)
      · intro _; exact hqm.symm
      · rename_i h1 h2
        intro h3
        exact absurd (not_not.1 h2) (Nat.ne_of_lt h3)
  · rw [if_neg hend]
    refine ⟨q, rfl, mid q rfl rfl rfl q3 ?_⟩
    intro _
    rw [q4, q5]
    rw [q4] at hend
    conv_rhs => rw [← hdm, Nat.add_assoc, Nat.mul_add_mod]
    refine (Nat.mod_eq_of_lt ?_).symm
    by_contra hge
    exact hend (by rw [show s.i % p.numFunctions + effBatch p s = p.numFunctions by omega, Nat.mod_self])

theorem agree_loop (hq : Quiet u grad clip proj) {p : Params} (hn : 0 < p.numFunctions) (fuel : Nat)
    {s : St (Live U P D S × V) M E} {t : Tb U P D S M} (h : Agree p s t) {e : Exit}
    {s' : St (Live U P D S × V) M E} (hl : loop (mkEnv up dp u) p fuel s = .done e s') :
    e = .loop ∧ ∃ k,
      let c : Recipe M G := ⟨p.numFunctions, p.batchSize, p.actualMax, grad, clip, proj⟩
      Agree p s' ((Tb.next up dp c)^[k] t) ∧ s'.i = p.actualMax ∧
        ∀ j < k, ((Tb.next up dp c)^[j] t).i < p.actualMax := by
  induction fuel generalizing s t with
  | zero =>
    rw [Ens.Sgd.loop] at hl
    split at hl
    · cases hl
    · rename_i hc
      cases hl
      exact ⟨rfl, 0, h, Nat.le_antisymm h.le (Nat.le_of_not_lt fun hlt => hc ⟨hlt, h.run⟩),
        fun j hj => absurd hj (Nat.not_lt_zero j)⟩
  | succ fuel ih =>
    rw [Ens.Sgd.loop] at hl
    split at hl
    · rename_i hc
      obtain ⟨s₁, hb, h₁⟩ := agree_body (up := up) (dp := dp) hq hn h hc.1
      rw [hb] at hl
      obtain ⟨he, k, hk, hm, hj⟩ := ih h₁ hl
      refine ⟨he, k + 1, hk, hm, ?_⟩
      intro j hj'
      cases j with
      | zero => exact h.i ▸ hc.1
      | succ j => exact hj j (Nat.lt_of_succ_lt_succ hj')
    · rename_i hc
      cases hl
      exact ⟨rfl, 0, h, Nat.le_antisymm h.le (Nat.le_of_not_lt fun hlt => hc ⟨hlt, h.run⟩),
        fun j hj => absurd hj (Nat.not_lt_zero j)⟩

theorem exactLoop_keeps (env : Env (Live U P D S × V) M G E) (hev : ∀ w x b k, (env.evaluate w x b k).1.1 = w.1)
    (hcb : ∀ w x e, (env.cbEvaluate w x e).1.1 = w.1) (p : Params) (fuel i : Nat)
    (s s' : St (Live U P D S × V) M E) (h : exactLoop env p fuel i s = some s') :
    s'.x = s.x ∧ s'.w.1 = s.w.1 := by
  induction fuel generalizing i s with
  | zero =>
    rw [exactLoop] at h
    split at h
    · cases h
    · cases h; exact ⟨rfl, rfl⟩
  | succ fuel ih =>
    rw [exactLoop] at h
    split at h
    · have := ih _ _ h
      exact ⟨this.1, this.2.trans ((hcb _ _ _).trans (hev _ _ _ _))⟩
    · cases h; exact ⟨rfl, rfl⟩

/-- **C149** `SGD<UpdatePolicy, DecayPolicy>::Optimize` computes the recursion of the textbook.  Let the
gradient callbacks transform gradients by `clip`, the step callbacks transform coordinates by `proj`,
and let nothing stop the run early.  Then after the run the coordinates, the step size and both
policy objects are those of `k` iterations of: take the next batch (at most `b` functions, not beyond
the end of the data, not beyond the limit), evaluate its gradient at the current coordinates, clip it,
apply the update policy, project, apply the decay policy — where `k` is the first number of
iterations at which `limit` functions were visited, and `maxIterations = 0` means the limit
`2^64 - 1`. -/
theorem C149_sgd_is_textbook (hq : Quiet u grad clip proj) {p : Params} (hn : 0 < p.numFunctions)
    {reset : Bool} {fuel : Nat} {o : Obj U P D S} {v : V} {x : M} {r : Result (Live U P D S × V) M E}
    (h : optimizeObj up dp u p reset fuel o v x = .returned r) :
    let limit := if p.maxIterations = 0 then 2 ^ 64 - 1 else p.maxIterations
    let c : Recipe M G := ⟨p.numFunctions, p.batchSize, limit, grad, clip, proj⟩
    let l := prologue up dp reset x o
    let run := fun k => (Tb.next up dp c)^[k] ⟨0, l.step, l.parent, l.upd, l.dec, x⟩
    r.exit = .loop ∧ ∃ k, (run k).i = limit ∧ (∀ j < k, (run j).i < limit) ∧
      r.x = (run k).x ∧ r.w.1 = ⟨(run k).step, (run k).parent, (run k).upd, (run k).dec⟩ := by
  have hlim : (if p.maxIterations = 0 then 2 ^ 64 - 1 else p.maxIterations) = p.actualMax := by
    rw [Params.actualMax, sizeMax]
  rw [hlim]
  intro limit c l run
  have hag : Agree p (start (mkEnv up dp u) (l, v) x) ⟨0, l.step, l.parent, l.upd, l.dec, x⟩ := by
    refine ⟨rfl, ?_, rfl, ?_, ?_, Nat.zero_le _⟩
    · show (u.cbBegin v x).2 = x
      exact hq.cbBegin v x
    · exact hq.cbBeginEpoch _ _ _ _
    · intro _; simp [start]
  rw [optimizeObj, optimize] at h
  cases hl : loop (mkEnv up dp u) p fuel (start (mkEnv up dp u) (l, v) x) with
  | ub => rw [hl] at h; cases h
  | outOfFuel => rw [hl] at h; cases h
  | done e s =>
    obtain ⟨he, k, hk, hm, hj⟩ := agree_loop hq hn fuel hag hl
    subst he
    rw [hl] at h
    have fin : ∀ s' : St (Live U P D S × V) M E, s'.x = s.x → s'.w.1 = s.w.1 →
        r = finish (mkEnv up dp u) .loop s' →
        r.exit = .loop ∧ ∃ k, (run k).i = limit ∧ (∀ j < k, (run j).i < limit) ∧
      r.x = (run k).x ∧ r.w.1 = ⟨(run k).step, (run k).parent, (run k).upd, (run k).dec⟩ := by
      intro s' hx hw hr
      subst hr
      exact ⟨rfl, k, hk.i.symm.trans hm, hj, hx.trans hk.x, hw.trans hk.live⟩
    simp only at h
    split at h
    · cases hx : exactLoop (mkEnv up dp u) p p.numFunctions 0
          { s with overall := (mkEnv up dp u).zero } with
      | none => rw [hx] at h; cases h
      | some s' =>
        rw [hx] at h
        cases h
        have := exactLoop_keeps (mkEnv up dp u) (fun _ _ _ _ => rfl) (fun _ _ _ => rfl) p _ _ _ _ hx
        exact fin s' this.1 this.2 rfl
    · cases h
      exact fin s rfl rfl rfl

/-- A momentum policy on the integers, the gradient of `k ↦ 3 x`, clipping at 5, projecting on
`x ≥ 0`. -/
def demoMom : UpdPol Int Int Int Int where
  fresh := fun _ => 0
  upd := fun m x s g => let m' := m - s * g; (m', x + m')

def demoHalf : DecPol Unit Nat Int Int Int where
  fresh := 0
  upd := fun _ d s x _ => ((), d + 1, s + 1, x)

def demoQuiet : User Unit Int Int Int where
  evalGrad := fun _ x b k => ((), x, x + b + k)
  evaluate := fun _ x _ _ => ((), x)
  shuffle := fun v => v
  cbBegin := fun _ x => ((), x)
  cbBeginEpoch := fun _ _ _ _ => ((), false)
  cbEvalGrad := fun _ _ _ g => ((), min g 5, false)
  cbStep := fun _ x => ((), max x 0, false)
  cbEndEpoch := fun _ _ _ _ => ((), false)
  cbEvaluate := fun _ _ _ => ((), false)
  cbEnd := fun _ x => ((), x)
  add := (· + ·)
  zero := 0
  divN := fun e _ => e
  dblMax := 1000
  isBad := fun _ => false
  isClose := fun _ _ => false

/-- Non-vacuity of C149: the hypotheses hold, and the run returns (momentum, decay, clipping and
projection are all active). -/
example : Quiet demoQuiet (fun x b k => x + b + k) (fun g => min g 5) (fun x => max x 0) :=
  ⟨fun _ _ _ _ => rfl, fun _ _ _ _ => rfl, fun _ _ => rfl, fun _ _ => rfl, fun _ _ _ _ => rfl,
   fun _ _ _ _ => rfl, fun _ => rfl, fun _ _ => rfl⟩

example : ∃ r, optimizeObj demoMom demoHalf demoQuiet ⟨3, 2, 7, false, false⟩ true 10
    (Obj.new 1 ()) () 40 = .returned r ∧ r.x = 0 ∧ r.w.1.step = 6 :=
  ⟨_, rfl, by decide, by decide⟩

end Ens.Sgd
