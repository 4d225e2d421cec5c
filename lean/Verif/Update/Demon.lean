import Verif.Update.Model
import Verif.Sgd.Textbook
import Verif.Sgd.Props
import Verif.Sgd.ObjectProps
import Mathlib.Tactic.Linarith
import Mathlib.Tactic.Positivity
import Mathlib.Tactic.FieldSimp

/-
C239: the momentum schedule of DemonSGD and DemonAdam over an optimisation.
-/

namespace Ens.Update

open Ens.Sgd

/-- The constructors of `DemonSGD` (`demon_sgd/demon_sgd.hpp:63-80`) and `DemonAdamType`
(`demon_adam/demon_adam.hpp:76-97`): the update policy is made with `momentumIterations =
maxIterations * batchSize`, and asserts that it is not zero (`demon_sgd/demon_sgd_update.hpp:49-53`,
`demon_adam/demon_adam_update.hpp:58-62`).  `none`: the assertion fails.  The product is not reduced
modulo `2^64`. -/
def demonIterations (maxIterations batchSize : Nat) : Option Nat :=
  if maxIterations * batchSize = 0 then none else some (maxIterations * batchSize)

/-- The DemonSGD update policy as the SGD model takes it (`demon_sgd/demon_sgd_update.hpp:89-119`).
The counter is a member of the parent, which `Optimize` does not reset; `t0` is its value when
`Optimize` is called, 0 for a new object. -/
noncomputable def demonPol (betaInit : ℝ) (T t0 : Nat) : UpdPol Nat ℝ ℝ ℝ where
  fresh := fun _ => (demonSgd betaInit T t0).init
  upd := fun t x a g => (demonSgd betaInit T t0).update t a g x

/-- The DemonAdam update policy over any inner rule (`demon_adam/demon_adam_update.hpp:102-143`). -/
noncomputable def demonAdamPol {R : Type} (Q : Policy R) (betaInit : ℝ) (T t0 : Nat) :
    UpdPol (R × Nat) ℝ ℝ ℝ where
  fresh := fun _ => (demonAdam Q betaInit T t0).init
  upd := fun t x a g => (demonAdam Q betaInit T t0).update t a g x

/-- A policy that counts its updates from `t0`. -/
structure Counts {U : Type} (up : UpdPol U ℝ ℝ ℝ) (cnt : U → Nat) (t0 : Nat) : Prop where
  fresh : ∀ x, cnt (up.fresh x) = t0
  upd : ∀ t x a g, cnt (up.upd t x a g).1 = cnt t + 1

theorem demonPol_counts (betaInit : ℝ) (T t0 : Nat) : Counts (demonPol betaInit T t0) id t0 :=
  ⟨fun _ => rfl, fun _ _ _ _ => rfl⟩

theorem demonAdamPol_counts {R : Type} (Q : Policy R) (betaInit : ℝ) (T t0 : Nat) :
    Counts (demonAdamPol Q betaInit T t0) Prod.snd t0 :=
  ⟨fun _ => rfl, fun _ _ _ _ => rfl⟩

theorem demonBeta_eq {b : ℝ} {T : Nat} (t : Nat) :
    demonBeta b T t = b * (1 - t / T) / (1 - b * (t / T)) := by
  unfold demonBeta
  rcases Nat.eq_zero_or_pos t with h | h
  · subst h; simp
  · simp only [if_pos h]
    congr 1
    ring

/-- **C239** The schedule: it starts at the given momentum, falls strictly, stays in `[0, betaInit]`
and is zero after `T` updates. -/
theorem C239_schedule {b : ℝ} {T : Nat} (hb : 0 < b) (hb1 : b < 1) (hT : 0 < T) :
    demonBeta b T 0 = b ∧ demonBeta b T T = 0 ∧
      (∀ t t', t < t' → t' ≤ T → demonBeta b T t' < demonBeta b T t) ∧
      ∀ t ≤ T, 0 ≤ demonBeta b T t ∧ demonBeta b T t ≤ b := by
  have hT' : (0 : ℝ) < T := by exact_mod_cast hT
  have hr : ∀ t, t ≤ T → (t : ℝ) / T ≤ 1 := fun t ht => by
    rw [div_le_one hT']; exact_mod_cast ht
  have hr0 : ∀ t : Nat, (0 : ℝ) ≤ t / T := fun t => by positivity
  have hden : ∀ t, t ≤ T → 0 < 1 - b * ((t : ℝ) / T) := fun t ht => by
    nlinarith [hr t ht, hr0 t]
  have hlt : ∀ t t', t < t' → t' ≤ T → demonBeta b T t' < demonBeta b T t := by
    intro t t' h h'
    rw [demonBeta_eq, demonBeta_eq, div_lt_div_iff₀ (hden t' h') (hden t (by omega))]
    have : (t : ℝ) / T < t' / T := by
      apply div_lt_div_of_pos_right _ hT'
      exact_mod_cast h
    generalize (t : ℝ) / T = u at *
    generalize (t' : ℝ) / T = v at *
    have h1 : 0 < b * (1 - b) * (v - u) := by
      apply mul_pos (mul_pos hb (by linarith)) (by linarith)
    nlinarith
  have h0 : demonBeta b T 0 = b := by rw [demonBeta_eq]; simp
  have hTT : demonBeta b T T = 0 := by rw [demonBeta_eq, div_self hT'.ne']; simp
  refine ⟨h0, hTT, hlt, ?_⟩
  intro t ht
  constructor
  · rw [demonBeta_eq]
    exact div_nonneg (mul_nonneg hb.le (by linarith [hr t ht])) (hden t ht).le
  · rcases Nat.eq_zero_or_pos t with h | h
    · rw [h, h0]
    · exact (hlt 0 t h ht).le.trans_eq h0

example : (0 : ℝ) < 0.9 ∧ (0.9 : ℝ) < 1 ∧ 0 < 100 := by norm_num

/-- **C239** After the schedule has ended (a second `Optimize()`: the counter is not reset, C133) the
momentum is negative until `t = T / betaInit`, where its denominator is zero. -/
theorem C239_after {b : ℝ} {T t : Nat} (hb : 0 < b) (hT : 0 < T) (ht : T < t)
    (ht' : b * t < T) : demonBeta b T t < 0 := by
  have hT' : (0 : ℝ) < T := by exact_mod_cast hT
  rw [demonBeta_eq]
  apply div_neg_of_neg_of_pos
  · apply mul_neg_of_pos_of_neg hb
    have : (1 : ℝ) < t / T := by rw [one_lt_div hT']; exact_mod_cast ht
    linarith
  · have : b * (t / T) < 1 := by rw [← mul_div_assoc, div_lt_one hT']; exact ht'
    linarith

example : (0 : ℝ) < 0.9 ∧ 0 < 100 ∧ 100 < 105 ∧ (0.9 : ℝ) * (105 : Nat) < (100 : Nat) := by norm_num

/-- One iteration counts one update and visits at least one function, at most `b`. -/
theorem demon_next {U D P : Type} {up : UpdPol U ℝ ℝ ℝ} {cnt : U → Nat} {t0 : Nat}
    (hc : Counts up cnt t0) (dp : DecPol P D ℝ ℝ ℝ) (c : Recipe ℝ ℝ)
    (hb : 0 < c.b) (hn : 0 < c.n) (t : Tb U P D ℝ ℝ) (ht : t.i < c.limit) :
    cnt (Tb.next up dp c t).upd = cnt t.upd + 1 ∧
      t.i + 1 ≤ (Tb.next up dp c t).i ∧ (Tb.next up dp c t).i ≤ t.i + c.b := by
  have := Nat.mod_lt t.i hn
  refine ⟨hc.upd _ _ _ _, ?_, ?_⟩
  · show t.i + 1 ≤ t.i + min (min c.b (c.limit - t.i)) (c.n - t.i % c.n)
    omega
  · show t.i + min (min c.b (c.limit - t.i)) (c.n - t.i % c.n) ≤ t.i + c.b
    omega

theorem demon_count {U D P : Type} {up : UpdPol U ℝ ℝ ℝ} {cnt : U → Nat} {t0 : Nat}
    (hc : Counts up cnt t0) (dp : DecPol P D ℝ ℝ ℝ) (c : Recipe ℝ ℝ)
    (hb : 0 < c.b) (hn : 0 < c.n) (t : Tb U P D ℝ ℝ) (h0 : t.i = 0) (hu : cnt t.upd = t0) :
    ∀ k, (∀ j < k, ((Tb.next up dp c)^[j] t).i < c.limit) →
      cnt ((Tb.next up dp c)^[k] t).upd = t0 + k ∧
        k ≤ ((Tb.next up dp c)^[k] t).i ∧ ((Tb.next up dp c)^[k] t).i ≤ k * c.b := by
  intro k
  induction k with
  | zero => intro _; simp [h0, hu]
  | succ k ih =>
    intro h
    obtain ⟨h1, h2, h3⟩ := ih fun j hj => h j (by omega)
    obtain ⟨e1, e2, e3⟩ := demon_next hc dp c hb hn _ (h k (by omega))
    rw [Function.iterate_succ_apply', e1, h1]
    refine ⟨rfl, by omega, ?_⟩
    rw [Nat.succ_mul]; omega

variable {U P D V E : Type} {up : UpdPol U ℝ ℝ ℝ} {cnt : U → Nat} {t0 : Nat}
  {dp : DecPol P D ℝ ℝ ℝ} {u : User V ℝ ℝ E} {grad : ℝ → Nat → Nat → ℝ}
  {clip : ℝ → ℝ} {proj : ℝ → ℝ}

/-- **C239** A whole `Optimize` that is not stopped early makes `k` updates, between
`maxIterations / batchSize` and `maxIterations`, and the counter that the schedule reads is `t0`,
`t0 + 1`, ... at them. -/
theorem C239_updates (hc : Counts up cnt t0) (hq : Quiet u grad clip proj) {p : Params}
    (hn : 0 < p.numFunctions) (hb : 0 < p.batchSize) (hm : 0 < p.maxIterations) {fuel : Nat}
    {step : ℝ} {parent : P} {v : V} {x : ℝ} {r : Result (Live U P D ℝ × V) ℝ E}
    (h : optimizeObj up dp u p true fuel (Obj.new step parent) v x = .returned r) :
    let c : Recipe ℝ ℝ := ⟨p.numFunctions, p.batchSize, p.maxIterations, grad, clip, proj⟩
    let run := fun k => (Tb.next up dp c)^[k] ⟨0, step, parent, up.fresh x, dp.fresh, x⟩
    ∃ k, r.x = (run k).x ∧ cnt r.w.1.upd = t0 + k ∧ k ≤ p.maxIterations ∧
      p.maxIterations ≤ k * p.batchSize ∧ ∀ j ≤ k, cnt (run j).upd = t0 + j := by
  obtain ⟨-, k, hk, hj, hx, hw⟩ := C149_sgd_is_textbook hq hn h
  rw [if_neg hm.ne'] at hk hj hx hw
  intro c run
  have hcount := demon_count hc dp c hb hn ⟨0, step, parent, up.fresh x, dp.fresh, x⟩ rfl (hc.fresh x)
  obtain ⟨a1, a2, a3⟩ := hcount k hj
  refine ⟨k, hx, ?_, ?_, ?_, ?_⟩
  · rw [hw]; exact a1
  · rw [← hk]; exact a2
  · rw [← hk]; exact a3
  · intro j hjk
    exact (hcount j fun i hi => hj i (by omega)).1

/-- **C239** In such a run of a new object the schedule never gets beyond the fraction
`1 / batchSize` of its length: at every update, and at the end, the momentum is at least
`betaInit (1 - 1/b) / (1 - betaInit/b)`. -/
theorem C239_floor (hc : Counts up cnt 0) (hq : Quiet u grad clip proj) {p : Params}
    (hn : 0 < p.numFunctions) (hb : 0 < p.batchSize) (hm : 0 < p.maxIterations) {betaInit : ℝ}
    (hβ : 0 < betaInit) (hβ1 : betaInit < 1) {T : Nat}
    (hT : demonIterations p.maxIterations p.batchSize = some T) {fuel : Nat}
    {step : ℝ} {parent : P} {v : V} {x : ℝ} {r : Result (Live U P D ℝ × V) ℝ E}
    (h : optimizeObj up dp u p true fuel (Obj.new step parent) v x = .returned r) :
    ∀ j ≤ cnt r.w.1.upd,
      betaInit * (1 - 1 / (p.batchSize : ℝ)) / (1 - betaInit * (1 / (p.batchSize : ℝ))) ≤
        demonBeta betaInit T j := by
  have hT' : T = p.maxIterations * p.batchSize := by
    unfold demonIterations at hT
    split at hT
    · cases hT
    · exact (Option.some.inj hT).symm
  obtain ⟨k, -, hk, hkm, -, -⟩ := C239_updates hc hq hn hb hm h
  intro j hj
  have hjm : j ≤ p.maxIterations := by omega
  have hB : (1 : ℝ) ≤ p.batchSize := by exact_mod_cast hb
  have hM : (0 : ℝ) < p.maxIterations := by exact_mod_cast hm
  have hfrac : (j : ℝ) / T ≤ 1 / p.batchSize := by
    rw [hT']
    push_cast
    rw [div_le_div_iff₀ (by positivity) (by linarith), one_mul]
    apply mul_le_mul_of_nonneg_right _ (by linarith)
    exact_mod_cast hjm
  have hf1 : (1 : ℝ) / p.batchSize ≤ 1 := by rw [div_le_one (by linarith)]; exact hB
  have hf0 : (0 : ℝ) ≤ j / T := by positivity
  rw [demonBeta_eq]
  generalize (j : ℝ) / T = s at *
  generalize (1 : ℝ) / p.batchSize = q at *
  rw [div_le_div_iff₀ (by nlinarith) (by nlinarith)]
  have h1 : 0 ≤ betaInit * (1 - betaInit) * (q - s) :=
    mul_nonneg (mul_nonneg hβ.le (by linarith)) (by linarith)
  nlinarith

/-- **C239** The part that holds: with batch size 1 the schedule of a new object ends exactly with the
optimisation. -/
theorem C239_batch_one_partial (hc : Counts up cnt 0) (hq : Quiet u grad clip proj) {p : Params}
    (hn : 0 < p.numFunctions) (hb : p.batchSize = 1) (hm : 0 < p.maxIterations) {betaInit : ℝ}
    (hβ : 0 < betaInit) (hβ1 : betaInit < 1) {T : Nat}
    (hT : demonIterations p.maxIterations p.batchSize = some T) {fuel : Nat}
    {step : ℝ} {parent : P} {v : V} {x : ℝ} {r : Result (Live U P D ℝ × V) ℝ E}
    (h : optimizeObj up dp u p true fuel (Obj.new step parent) v x = .returned r) :
    cnt r.w.1.upd = T ∧ demonBeta betaInit T (cnt r.w.1.upd) = 0 := by
  have hT' : T = p.maxIterations * p.batchSize := by
    unfold demonIterations at hT
    split at hT
    · cases hT
    · exact (Option.some.inj hT).symm
  obtain ⟨k, -, hk, hkm, hkm', -⟩ := C239_updates hc hq hn (by omega) hm h
  rw [hb, Nat.mul_one] at hT' hkm'
  have : cnt r.w.1.upd = T := by omega
  refine ⟨this, ?_⟩
  rw [this]
  exact (C239_schedule hβ hβ1 (by omega)).2.1

/-- `NoDecay` (`sgd/decay_policies/no_decay.hpp:54-59`). -/
def keepStep : DecPol Unit Unit ℝ ℝ ℝ := ⟨(), fun _ _ a x _ => ((), (), a, x)⟩

/-- Every such run returns, so the theorems above are not vacuous. -/
theorem demon_returns (up : UpdPol U ℝ ℝ ℝ) (p : Params) (hn : 0 < p.numFunctions)
    (hb : 0 < p.batchSize) (x : ℝ) :
    ∃ r, optimizeObj up keepStep slope p true p.actualMax (Obj.new 1 ()) () x = .returned r :=
  C09_sgd_terminates _ p hn hb _ x

theorem slope_quiet : Quiet slope (fun _ _ _ => (1 : ℝ)) id id :=
  ⟨fun _ _ _ _ => rfl, fun _ _ _ _ => rfl, fun _ _ => rfl, fun _ _ => rfl, fun _ _ _ _ => rfl,
    fun _ _ _ _ => rfl, fun _ => rfl, fun _ _ => rfl⟩

/-- With `NoDecay` the step size never changes. -/
theorem keepStep_step (up : UpdPol U ℝ ℝ ℝ) (c : Recipe ℝ ℝ) (t : Tb U Unit Unit ℝ ℝ) :
    ∀ j, ((Tb.next up keepStep c)^[j] t).step = t.step := by
  intro j
  induction j with
  | zero => rfl
  | succ j ih => rw [Function.iterate_succ_apply']; exact ih

/-- **C239** A whole `DemonSGD::Optimize` that is not stopped early, starting with the counter at
`t0`: update `j` scales the coordinates by the momentum of the schedule at `t0 + j`, written out, and
takes a step with the constant step size against the gradient of a batch that is not empty. -/
theorem C239_demon_sgd (hq : Quiet u grad clip proj) {p : Params} (hn : 0 < p.numFunctions)
    (hb : 0 < p.batchSize) (hm : 0 < p.maxIterations) {betaInit : ℝ} {T t0 : Nat} {fuel : Nat}
    {step : ℝ} {v : V} {x : ℝ} {r : Result (Live Nat Unit Unit ℝ × V) ℝ E}
    (h : optimizeObj (demonPol betaInit T t0) keepStep u p true fuel (Obj.new step ()) v x
      = .returned r) :
    ∃ (k : Nat) (X : Nat → ℝ), X 0 = x ∧ r.x = X k ∧ r.w.1.upd = t0 + k ∧ k ≤ p.maxIterations ∧
      p.maxIterations ≤ k * p.batchSize ∧
      ∀ j < k, ∃ first size, 0 < size ∧ size ≤ p.batchSize ∧ first + size ≤ p.numFunctions ∧
        X (j + 1) = proj (X j * (betaInit * (1 - (t0 + j : Nat) / T) /
          (1 - betaInit * ((t0 + j : Nat) / T))) - step * clip (grad (X j) first size)) := by
  have hc := demonPol_counts betaInit T t0
  obtain ⟨-, K, hK, hlt, hx, hw⟩ := C149_sgd_is_textbook hq hn h
  rw [if_neg hm.ne'] at hK hlt hx hw
  set c : Recipe ℝ ℝ := ⟨p.numFunctions, p.batchSize, p.maxIterations, grad, clip, proj⟩ with hcd
  set t : Tb Nat Unit Unit ℝ ℝ := ⟨0, step, (), t0, (), x⟩ with htd
  have hcount := demon_count hc keepStep c hb hn t rfl rfl
  obtain ⟨a1, a2, a3⟩ := hcount K hlt
  refine ⟨K, fun j => ((Tb.next (demonPol betaInit T t0) keepStep c)^[j] t).x, rfl, hx, ?_,
    hK ▸ a2, hK ▸ a3, ?_⟩
  · rw [hw]; exact a1
  · intro j hj
    have b1 := (hcount j fun i hi => hlt i (by omega)).1
    have hi := hlt j hj
    have hs := keepStep_step (demonPol betaInit T t0) c t j
    simp only [Function.iterate_succ_apply']
    set w := (Tb.next (demonPol betaInit T t0) keepStep c)^[j] t with hwd
    have hmod := Nat.mod_lt w.i hn
    refine ⟨w.i % p.numFunctions,
      min (min p.batchSize (p.maxIterations - w.i)) (p.numFunctions - w.i % p.numFunctions),
      ?_, ?_, ?_, ?_⟩
    · have : w.i < p.maxIterations := hi
      omega
    · omega
    · omega
    · have hst : w.step = step := hs
      rw [← demonBeta_eq, ← b1, ← hst]
      rfl

/-- **C239** The same for DemonAdam over any inner rule: update `j` hands the coordinates, scaled by the
momentum of the schedule at `t0 + j`, to the inner rule. -/
theorem C239_demon_adam {R : Type} {Q : Policy R} (hq : Quiet u grad clip proj) {p : Params}
    (hn : 0 < p.numFunctions) (hb : 0 < p.batchSize) (hm : 0 < p.maxIterations) {betaInit : ℝ}
    {T t0 : Nat} {fuel : Nat} {step : ℝ} {v : V} {x : ℝ}
    {r : Result (Live (R × Nat) Unit Unit ℝ × V) ℝ E}
    (h : optimizeObj (demonAdamPol Q betaInit T t0) keepStep u p true fuel (Obj.new step ()) v x
      = .returned r) :
    ∃ (k : Nat) (X : Nat → ℝ) (S : Nat → R), X 0 = x ∧ S 0 = Q.init ∧ r.x = X k ∧
      r.w.1.upd = (S k, t0 + k) ∧ k ≤ p.maxIterations ∧ p.maxIterations ≤ k * p.batchSize ∧
      ∀ j < k, ∃ first size, 0 < size ∧ size ≤ p.batchSize ∧ first + size ≤ p.numFunctions ∧
        let y := Q.update (S j) step (clip (grad (X j) first size))
          (X j * (betaInit * (1 - (t0 + j : Nat) / T) / (1 - betaInit * ((t0 + j : Nat) / T))))
        S (j + 1) = y.1 ∧ X (j + 1) = proj y.2 := by
  have hc := demonAdamPol_counts Q betaInit T t0
  obtain ⟨-, K, hK, hlt, hx, hw⟩ := C149_sgd_is_textbook hq hn h
  rw [if_neg hm.ne'] at hK hlt hx hw
  set c : Recipe ℝ ℝ := ⟨p.numFunctions, p.batchSize, p.maxIterations, grad, clip, proj⟩ with hcd
  set t : Tb (R × Nat) Unit Unit ℝ ℝ := ⟨0, step, (), (Q.init, t0), (), x⟩ with htd
  have hcount := demon_count hc keepStep c hb hn t rfl rfl
  obtain ⟨a1, a2, a3⟩ := hcount K hlt
  refine ⟨K, fun j => ((Tb.next (demonAdamPol Q betaInit T t0) keepStep c)^[j] t).x,
    fun j => ((Tb.next (demonAdamPol Q betaInit T t0) keepStep c)^[j] t).upd.1, rfl, rfl, hx, ?_,
    hK ▸ a2, hK ▸ a3, ?_⟩
  · rw [hw]; exact Prod.ext rfl a1
  · intro j hj
    have b1 := (hcount j fun i hi => hlt i (by omega)).1
    have hi := hlt j hj
    have hs := keepStep_step (demonAdamPol Q betaInit T t0) c t j
    simp only [Function.iterate_succ_apply']
    set w := (Tb.next (demonAdamPol Q betaInit T t0) keepStep c)^[j] t with hwd
    have hmod := Nat.mod_lt w.i hn
    refine ⟨w.i % p.numFunctions,
      min (min p.batchSize (p.maxIterations - w.i)) (p.numFunctions - w.i % p.numFunctions),
      ?_, ?_, ?_, ?_⟩
    · have : w.i < p.maxIterations := hi
      omega
    · omega
    · omega
    · have hst : w.step = step := hs
      rw [← demonBeta_eq, ← b1, ← hst]
      exact ⟨rfl, rfl⟩

/-- The hypotheses of `C239_floor` and `C239_batch_one_partial` hold, also for DemonAdam. -/
example : ∃ r, optimizeObj (demonAdamPol (demonSgd 0.5 3 0) 0.9 640 0) keepStep slope
    ⟨10, 32, 20, false, false⟩ true 20 (Obj.new 1 ()) () 4 = .returned r ∧
    demonIterations 20 32 = some 640 := by
  obtain ⟨r, hr⟩ := demon_returns (demonAdamPol (demonSgd 0.5 3 0) 0.9 640 0)
    ⟨10, 32, 20, false, false⟩ (by norm_num) (by norm_num) 4
  exact ⟨r, hr, by simp [demonIterations]⟩

/-- **C239** "The number of iterations before the momentum will decay to zero" is not reached by an
undisturbed optimisation of a new object: two functions, batch size 2. -/
theorem C239_decay_refuted : ¬ ∀ (p : Params) (betaInit : ℝ) (T : Nat)
    (r : Result (Live Nat Unit Unit ℝ × Unit) ℝ Unit), 0 < p.numFunctions → 0 < p.batchSize →
    0 < p.maxIterations → 0 < betaInit → betaInit < 1 →
    demonIterations p.maxIterations p.batchSize = some T →
    optimizeObj (demonPol betaInit T 0) keepStep slope p true p.actualMax (Obj.new 1 ()) () 0
      = .returned r →
    demonBeta betaInit T r.w.1.upd = 0 := by
  intro h
  obtain ⟨r, hr⟩ := demon_returns (demonPol 0.5 4 0) ⟨2, 2, 2, false, false⟩ (by norm_num)
    (by norm_num) 0
  have hT : demonIterations 2 2 = some 4 := by simp [demonIterations]
  have h0 := h ⟨2, 2, 2, false, false⟩ 0.5 4 r (by norm_num) (by norm_num) (by norm_num)
    (by norm_num) (by norm_num) hT hr
  have h1 := C239_floor (demonPol_counts 0.5 4 0) slope_quiet (p := ⟨2, 2, 2, false, false⟩)
    (by norm_num) (by norm_num) (by norm_num) (betaInit := 0.5) (by norm_num) (by norm_num) hT hr _
    (le_refl _)
  simp only [id] at h1
  rw [h0] at h1
  norm_num at h1

/-- **C239** A second `Optimize` of an object whose schedule has ended (`t0 = T`) uses a negative
momentum from its second update on, until `betaInit * t` reaches `T`. -/
theorem C239_second_call_refuted (hc : Counts up cnt T) (hq : Quiet u grad clip proj) {p : Params}
    (hn : 0 < p.numFunctions) (hb : 0 < p.batchSize) (hm : 0 < p.maxIterations) {betaInit : ℝ}
    (hβ : 0 < betaInit) (hT : 0 < T) {fuel : Nat}
    {step : ℝ} {parent : P} {v : V} {x : ℝ} {r : Result (Live U P D ℝ × V) ℝ E}
    (h : optimizeObj up dp u p true fuel (Obj.new step parent) v x = .returned r) :
    let c : Recipe ℝ ℝ := ⟨p.numFunctions, p.batchSize, p.maxIterations, grad, clip, proj⟩
    let run := fun k => (Tb.next up dp c)^[k] ⟨0, step, parent, up.fresh x, dp.fresh, x⟩
    ∃ k, r.x = (run k).x ∧ p.maxIterations ≤ k * p.batchSize ∧
      ∀ j ≤ k, 0 < j → betaInit * (T + j : Nat) < T →
        demonBeta betaInit T (cnt (run j).upd) < 0 := by
  obtain ⟨k, hx, -, -, hk, hj⟩ := C239_updates hc hq hn hb hm h
  refine ⟨k, hx, hk, fun j hjk h0 hlt => ?_⟩
  rw [hj j hjk]
  exact C239_after hβ hT (by omega) hlt

/-- **C239** `maxIterations = 0` (documented: no limit) fails the assertion of the constructor. -/
theorem C239_no_limit_refuted : ¬ ∀ m b : Nat, 0 < b → (demonIterations m b).isSome := by
  intro h
  have := h 0 32 (by norm_num)
  simp [demonIterations] at this

/-- **C239** The message of DemonAdam's assertion names the default `maxIterations / batchSize`
(`demon_adam/demon_adam_update.hpp:62`; that of DemonSGD names the product): not what is passed. -/
theorem C239_adam_default_refuted :
    ¬ ∀ m b : Nat, 0 < m → 0 < b → demonIterations m b = some (m / b) := by
  intro h
  have := h 100000 32 (by norm_num) (by norm_num)
  simp [demonIterations] at this

end Ens.Update
