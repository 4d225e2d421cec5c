import Mathlib.Algebra.Order.Field.Rat
import Mathlib.Algebra.Module.Basic
import Mathlib.Algebra.Module.BigOperators
import Mathlib.Analysis.InnerProductSpace.Basic
import Mathlib.Tactic.Module
import Mathlib.Tactic.Linarith
import Mathlib.Tactic.NormNum
import Verif.Vr.Base

/-
SVRG (`svrg/svrg_impl.hpp`, `svrg/svrg_update.hpp`, `svrg/barzilai_borwein_decay.hpp`): model and properties
C43, C106, C107.
-/

namespace Ens.Vr.Svrg

open Ens.Vr

variable {W X G E : Type}

/-- Members of `SVRGType` and the two policies. -/
structure Params (W X G E : Type) where
  batchSize : Nat
  maxIterations : Nat
  innerIterations : Nat
  shuffle : Bool
  exact : Bool
  /-- `updatePolicy.Update(iterate, fullGradient, gradient, gradient0, batchSize, stepSize)` -/
  update : W → X → G → G → G → Nat → E → W × X
  /-- `decayPolicy.Update(iterate, iterate0, gradient, fullGradient, numBatches, stepSize)` -/
  decay : W → X → X → G → G → Nat → E → W × E

/-- Local state of the inner loop (lines 200-238). -/
structure Inner (W X : Type) where
  s : S W
  x : X
  f : Nat
  cur : Nat

/-- Start of a sequence: reset and shuffle (lines 204-211). -/
def wrap (u : User W X G E) (shuffle : Bool) (t : Inner W X) : Inner W X :=
  if t.cur % u.n = 0 then
    { t with cur := 0, s := if shuffle then { t.s with w := u.shuffle t.s.w } else t.s }
  else t

/-- Body of the inner loop with its condition (lines 200-238). -/
def innerStep (u : User W X G E) (p : Params W X G E) (inner : Nat) (x0 : X) (full : G) (step : E) (t : Inner W X) :
    Inner W X ⊕ Inner W X :=
  if t.f < inner then
    let t := wrap u p.shuffle t
    let eff := min p.batchSize (u.n - t.cur)
    let g := gradAt u t.s t.x (t.cur, eff)
    let g0 := gradAt u g.1 x0 (t.cur, eff)
    if g0.1.term then .inr { t with s := g0.1 }
    else
      let x' := p.update g0.1.w t.x full g.2 g0.2 eff step
      let c := stepAt u { g0.1 with w := x'.1 } x'.2
      .inl ⟨c.1, c.2, t.f + eff, t.cur + eff⟩
  else .inr t

/-- Local state of the outer loop. -/
structure St (W X E : Type) where
  s : S W
  x : X
  step : E
  last : E
  overall : E
  i : Nat

inductive Exit where
  | loop | bad | near
  deriving DecidableEq

/-- Result of one pass of the outer loop; `stuck` stands for division by zero. -/
inductive Res (W X E : Type) where
  | ret (e : Exit) (t : St W X E)
  | stuck

/-- `innerIterations == 0` means the number of functions (lines 98-99; the member itself is overwritten). -/
def effInner (u : User W X G E) (p : Params W X G E) : Nat :=
  if p.innerIterations = 0 then u.n else p.innerIterations

/-- `actualMaxIterations` (lines 130-131); `none`: no limit. -/
def limitReached (p : Params W X G E) (i : Nat) : Bool := p.maxIterations ≠ 0 && p.maxIterations ≤ i

/-- Body of the outer loop with its condition (lines 133-243). The decay policy is given the last gradient of the inner
loop, which the model does not keep (no decay policy uses it); it gets the full gradient twice. -/
def body (u : User W X G E) (p : Params W X G E) (t : St W X E) : St W X E ⊕ Res W X E :=
  if limitReached p t.i ∨ t.s.term = true then .inr (.ret .loop t)
  else
    let o := evalAll u p.batchSize t.s t.x
    let t := { t with s := o.1, overall := o.2 }
    if t.s.term then .inr (.ret .loop t)
    else if u.isBad t.overall then .inr (.ret .bad t)
    else if u.near t.last t.overall then .inr (.ret .near t)
    else
      match fullGrad u (gradAt u) p.batchSize t.s t.x t.x with
      | none => .inr .stuck
      | some g =>
        let t := { t with s := g.1, last := t.overall }
        if t.s.term then .inr (.ret .loop t)
        else
          match iterate (innerStep u p (effInner u p) t.x g.2 t.step) (effInner u p + 1) ⟨t.s, t.x, 0, 0⟩ with
          | none => .inr .stuck
          | some r =>
            let d := p.decay r.s.w r.x t.x g.2 g.2 ((u.n + p.batchSize - 1) / p.batchSize) t.step
            .inl { t with s := { r.s with w := d.1 }, x := r.x, step := d.2, i := t.i + 1 }

/-- The final objective (lines 249-264) and `EndOptimization`. -/
def finish (u : User W X G E) (p : Params W X G E) (e : Exit) (t : St W X E) : St W X E :=
  let t := if e = .loop ∧ p.exact = true then
      let o := evalAll u p.batchSize t.s t.x
      { t with s := o.1, overall := o.2 }
    else t
  let c := u.cbEnd t.s.w t.x
  { t with s := { t.s with w := c.1 }, x := c.2 }

/-- `Optimize` (lines 85-268). `overall` of the result is the returned value. -/
def optimize (u : User W X G E) (p : Params W X G E) (step : E) (fuel : Nat) (w : W) (x : X) :
    Option (Res W X E) :=
  let c := u.cbBegin w x
  (iterate (body u p) fuel ⟨⟨c.1, false, []⟩, c.2, step, u.dblMax, u.zero, 0⟩).map fun r =>
    match r with
    | .stuck => .stuck
    | .ret e t => .ret e (finish u p e t)

/-! ### The inner loop -/

theorem wrap_spec {u : User W X G E} (hn : 0 < u.n) (shuffle : Bool) {t : Inner W X} (h : Sound u.n t.s)
    (hc : t.cur ≤ u.n) : Sound u.n (wrap u shuffle t).s ∧ (wrap u shuffle t).cur < u.n ∧ (wrap u shuffle t).f = t.f ∧
      (wrap u shuffle t).x = t.x := by
  unfold wrap
  split
  · refine ⟨?_, hn, rfl, rfl⟩
    dsimp only
    split
    · exact world_sound h _
    · exact h
  · rename_i hm
    refine ⟨h, ?_, rfl, rfl⟩
    rcases Nat.lt_or_ge t.cur u.n with h | h
    · exact h
    · exact absurd (by rw [show t.cur = u.n by omega, Nat.mod_self]) hm

theorem inner_spec {u : User W X G E} {p : Params W X G E} (hn : 0 < u.n) (hb : 0 < p.batchSize) (inner : Nat)
    (x0 : X) (full : G) (step : E) {s : S W} (h : Sound u.n s) (x : X) :
    ∃ r, iterate (innerStep u p inner x0 full step) (inner + 1) ⟨s, x, 0, 0⟩ = some r ∧ Sound u.n r.s ∧
      r.f < inner + p.batchSize ∧ (r.s.term = false → inner ≤ r.f) := by
  let I : Inner W X → Prop := fun t => Sound u.n t.s ∧ t.cur ≤ u.n ∧ t.f < inner + p.batchSize
  have hbody : ∀ t t', I t → innerStep u p inner x0 full step t = .inl t' → I t' ∧ inner - t'.f < inner - t.f := by
    intro t t' ⟨h1, h2, h3⟩ ht
    unfold innerStep at ht
    split at ht
    · rename_i hlt
      obtain ⟨w1, w2, w3, -⟩ := wrap_spec hn p.shuffle h1 h2
      simp only at ht
      have hleg : 1 ≤ min p.batchSize (u.n - (wrap u p.shuffle t).cur) ∧ (wrap u p.shuffle t).cur +
          min p.batchSize (u.n - (wrap u p.shuffle t).cur) ≤ u.n := by omega
      split at ht
      · cases ht
      · rename_i hterm
        cases ht
        have hs := gradAt_sound (gradAt_sound w1 (wrap u p.shuffle t).x
          (p := ((wrap u p.shuffle t).cur, min p.batchSize (u.n - (wrap u p.shuffle t).cur))) hleg) x0
          (p := ((wrap u p.shuffle t).cur, min p.batchSize (u.n - (wrap u p.shuffle t).cur))) hleg
        refine ⟨⟨stepAt_sound (world_sound hs _) (by simpa using hterm) _, hleg.2, ?_⟩, ?_⟩
        · dsimp only; rw [w3]; omega
        · dsimp only; rw [w3]; omega
    · cases ht
  have h0 : I ⟨s, x, 0, 0⟩ := ⟨h, by simp, by dsimp only; omega⟩
  obtain ⟨r, hr⟩ := iterate_total I (fun t => inner - t.f) hbody (inner + 1) ⟨s, x, 0, 0⟩ h0 (by dsimp only; omega)
  refine ⟨r, hr, ?_⟩
  refine iterate_inv I (fun r => Sound u.n r.s ∧ r.f < inner + p.batchSize ∧ (r.s.term = false → inner ≤ r.f))
    (fun t t' h h' => (hbody t t' h h').1) ?_ (inner + 1) _ r h0 hr
  intro t r ⟨h1, h2, h3⟩ ht
  unfold innerStep at ht
  split at ht
  · obtain ⟨w1, w2, w3, -⟩ := wrap_spec hn p.shuffle h1 h2
    simp only at ht
    have hleg : 1 ≤ min p.batchSize (u.n - (wrap u p.shuffle t).cur) ∧ (wrap u p.shuffle t).cur +
        min p.batchSize (u.n - (wrap u p.shuffle t).cur) ≤ u.n := by omega
    split at ht
    · rename_i hterm
      cases ht
      have hs := gradAt_sound (gradAt_sound w1 (wrap u p.shuffle t).x
        (p := ((wrap u p.shuffle t).cur, min p.batchSize (u.n - (wrap u p.shuffle t).cur))) hleg) x0
        (p := ((wrap u p.shuffle t).cur, min p.batchSize (u.n - (wrap u p.shuffle t).cur))) hleg
      refine ⟨hs, by dsimp only; rw [w3]; exact h3, fun hf => ?_⟩
      dsimp only at hf
      rw [hf] at hterm; cases hterm
    · cases ht
  · rename_i hlt
    cases ht
    exact ⟨h1, h3, fun _ => by omega⟩

/-! ### C106: protocol and value -/

/-- What is known about a pass of the outer loop. -/
theorem body_spec {u : User W X G E} {p : Params W X G E} (hn : 0 < u.n) (hb : 0 < p.batchSize) {t : St W X E}
    (h : Sound u.n t.s) :
    (∀ t', body u p t = .inl t' → Sound u.n t'.s ∧ t'.i = t.i + 1 ∧ limitReached p t.i = false) ∧
    (∀ r, body u p t = .inr r → ∃ e t', r = .ret e t' ∧ Sound u.n t'.s ∧
      (e ≠ .loop → ∃ s, t'.overall = (evalAll u p.batchSize s t'.x).2)) := by
  unfold body
  split
  · exact ⟨(fun t' h => by cases h), fun r hr => by cases hr; exact ⟨.loop, t, rfl, h, fun h => absurd rfl h⟩⟩
  · rename_i hlim
    have ho := evalAll_sound (b := p.batchSize) hb h t.x
    simp only
    split
    · exact ⟨(fun t' h => by cases h), fun r hr => by cases hr; exact ⟨.loop, _, rfl, ho, fun h => absurd rfl h⟩⟩
    split
    · exact ⟨(fun t' h => by cases h), fun r hr => by cases hr; exact ⟨.bad, _, rfl, ho, fun _ => ⟨t.s, rfl⟩⟩⟩
    split
    · exact ⟨(fun t' h => by cases h), fun r hr => by cases hr; exact ⟨.near, _, rfl, ho, fun _ => ⟨t.s, rfl⟩⟩⟩
    obtain ⟨g, hg⟩ := fullGrad_some u (gradAt u) (b := p.batchSize) hn (evalAll u p.batchSize t.s t.x).1 t.x t.x
    rw [hg]
    have hgs := fullGrad_sound hb (fun s x p h hp => gradAt_sound h x hp) ho t.x t.x hg
    simp only
    split
    · exact ⟨(fun t' h => by cases h), fun r hr => by cases hr; exact ⟨.loop, _, rfl, hgs, fun h => absurd rfl h⟩⟩
    obtain ⟨r, hr, hrs, -⟩ := inner_spec (p := p) hn hb (effInner u p) t.x g.2 t.step hgs t.x
    rw [hr]
    refine ⟨fun t' h => ?_, fun r hr => by cases hr⟩
    cases h
    simp only [not_or, Bool.not_eq_true] at hlim
    exact ⟨world_sound hrs _, rfl, hlim.1⟩

/-- **C106** SVRG always returns (for positive batch size and at least one function) after at most `maxIterations`
passes; every batch it evaluates or differentiates is a non-empty legal range, and no step follows a stop request. -/
theorem C106_svrg_protocol {u : User W X G E} {p : Params W X G E} (hn : 0 < u.n) (hb : 0 < p.batchSize)
    (hm : 0 < p.maxIterations) (step : E) (w : W) (x : X) :
    ∃ e t, optimize u p step (p.maxIterations + 1) w x = some (.ret e t) ∧ t.i ≤ p.maxIterations ∧
      (∀ pre post, t.s.trace = pre ++ .step :: post → Ev.stop ∉ pre) ∧
      (∀ a k, (.eval a k ∈ t.s.trace ∨ .grad a k ∈ t.s.trace) → 1 ≤ k ∧ a + k ≤ u.n) := by
  have h0 : Sound u.n (⟨(u.cbBegin w x).1, false, []⟩ : S W) := ⟨by simp, along_nil _⟩
  obtain ⟨r, hr⟩ := iterate_total (step := body u p) (fun t => Sound u.n t.s) (fun t => p.maxIterations - t.i)
    (by
      intro t t' h ht
      obtain ⟨h1, h2, h3⟩ := (body_spec hn hb h).1 t' ht
      refine ⟨h1, ?_⟩
      have : ¬ p.maxIterations ≤ t.i := by
        intro hc
        simp [limitReached, hc] at h3
        omega
      omega) (p.maxIterations + 1) ⟨⟨(u.cbBegin w x).1, false, []⟩, (u.cbBegin w x).2, step, u.dblMax, u.zero, 0⟩ h0
    (by dsimp only; omega)
  have hp := iterate_inv (step := body u p) (fun t => Sound u.n t.s ∧ t.i ≤ p.maxIterations)
    (fun r => ∃ e t', r = .ret e t' ∧ Sound u.n t'.s ∧ t'.i ≤ p.maxIterations)
    (by
      intro t t' ⟨h, hi⟩ ht
      obtain ⟨h1, h2, h3⟩ := (body_spec hn hb h).1 t' ht
      refine ⟨h1, ?_⟩
      have : ¬ p.maxIterations ≤ t.i := by
        intro hc
        simp [limitReached, hc] at h3
        omega
      omega)
    (by
      intro t r ⟨h, hi⟩ ht
      obtain ⟨e, t', h1, h2, -⟩ := (body_spec hn hb h).2 r ht
      refine ⟨e, t', h1, h2, ?_⟩
      subst h1
      unfold body at ht
      split at ht
      · cases ht; exact hi
      · simp only at ht
        split at ht
        · cases ht; exact hi
        split at ht
        · cases ht; exact hi
        split at ht
        · cases ht; exact hi
        split at ht
        · cases ht
        split at ht
        · cases ht; exact hi
        split at ht
        · cases ht
        · cases ht)
    (p.maxIterations + 1) _ r ⟨h0, Nat.zero_le _⟩ hr
  obtain ⟨e, t, rfl, hs, hi⟩ := hp
  refine ⟨e, finish u p e t, ?_, ?_, Sound.facts ?_⟩
  · unfold optimize
    simp only [hr, Option.map_some]
  · unfold finish
    by_cases hc : e = .loop ∧ p.exact = true
    · simp only [if_pos hc]; exact hi
    · simp only [if_neg hc]; exact hi
  · unfold finish
    by_cases hc : e = .loop ∧ p.exact = true
    · simp only [if_pos hc]; exact world_sound (evalAll_sound hb hs t.x) _
    · simp only [if_neg hc]; exact world_sound hs _

/-- **C106** The returned value: with `exactObjective`, or when the run ends because the objective is not finite or
within tolerance, it is the full objective at the returned coordinates. -/
theorem C106_svrg_value [AddCommMonoid E] [AddCommMonoid G] {u : User W X G E} {p : Params W X G E} {φ : Nat → X → E}
    {γ : Nat → X → G} {perm : W → Nat → Nat} (hu : Separable u φ γ perm) (hn : 0 < u.n) (hb : 0 < p.batchSize)
    (hend : ∀ w x, (u.cbEnd w x).2 = x) {step : E} {fuel : Nat} {w : W} {x : X} {e : Exit} {t : St W X E}
    (h : optimize u p step fuel w x = some (.ret e t)) (hx : p.exact = true ∨ e ≠ .loop) :
    t.overall = objective u.n φ t.x := by
  unfold optimize at h
  simp only [Option.map_eq_some_iff] at h
  obtain ⟨r, hr, h⟩ := h
  have h0 : Sound u.n (⟨(u.cbBegin w x).1, false, []⟩ : S W) := ⟨by simp, along_nil _⟩
  obtain ⟨e', t', rfl, hs, hv⟩ := iterate_inv (step := body u p) (fun t => Sound u.n t.s)
    (fun r => ∃ e t', r = .ret e t' ∧ Sound u.n t'.s ∧
      (e ≠ .loop → ∃ s, t'.overall = (evalAll u p.batchSize s t'.x).2))
    (fun t t' h ht => ((body_spec hn hb h).1 t' ht).1) (fun t r h ht => (body_spec hn hb h).2 r ht) fuel _ r h0 hr
  simp only at h
  cases h
  unfold finish
  by_cases hc : e = .loop ∧ p.exact = true
  · simp only [if_pos hc, hend]
    exact (evalAll_value hu hb _ _).1
  · simp only [if_neg hc, hend]
    have he : e ≠ .loop := by
      rcases hx with hx | hx
      · exact fun he => hc ⟨he, hx⟩
      · exact hx
    obtain ⟨s, hs⟩ := hv he
    rw [hs]
    exact (evalAll_value hu hb _ _).1

/-! ### C43: the direction -/

section Direction

variable {V : Type} [AddCommGroup V] [Module ℝ V]

/-- `fullGradient + (gradient - gradient0) / batchSize` (`svrg_update.hpp:65-66`). -/
noncomputable def direction (full g g0 : V) (size : Nat) : V := full + (size : ℝ)⁻¹ • (g - g0)

/-- Sum of the components in a batch. -/
def batchGrad (γ : Nat → V → V) (x : V) (p : Nat × Nat) : V := ((List.range' p.1 p.2).map fun i => γ i x).sum

/-- The full gradient, as an average. -/
noncomputable def average (n : Nat) (γ : Nat → V → V) (x : V) : V := (n : ℝ)⁻¹ • objective n γ x

/-- **C43** What the loop of `svrg_impl.hpp:172-192` computes is the average of all component gradients, for every
batch size and visiting order. -/
theorem C43_full_gradient {W E : Type} [AddCommMonoid E] {u : User W V V E} {φ : Nat → V → E} {γ : Nat → V → V}
    {perm : W → Nat → Nat} (hu : Separable u φ γ perm) (hdiv : ∀ g n, u.divG g n = (n : ℝ)⁻¹ • g) {b : Nat}
    (hb : 0 < b) {s : S W} {x : V} {r : S W × V} (hr : fullGrad u (gradAt u) b s x x = some r) :
    r.2 = average u.n γ x := by
  rw [(fullGrad_average hu hb (gradAt_rest hu) hr).1, hdiv]
  rfl

/-- **C43** At the snapshot the direction is the full gradient, whatever the batch. -/
theorem C43_exact_at_snapshot (n : Nat) (γ : Nat → V → V) (x : V) (p : Nat × Nat) :
    direction (average n γ x) (batchGrad γ x p) (batchGrad γ x p) p.2 = average n γ x := by
  simp [direction]

theorem batches_size {n b : Nat} (hb : 0 < b) : ((batchList n b).map Prod.snd).sum = n := by
  have := batch_sum (M := Nat) (n := n) hb fun _ => 1
  simpa using this

/-- **C43** Unbiased: averaging the directions of all batches of an epoch, weighted with the batch sizes, gives the full
gradient at the current point, for every snapshot. -/
theorem C43_unbiased {n b : Nat} (hn : 0 < n) (hb : 0 < b) (γ : Nat → V → V) (x x₀ : V) :
    (n : ℝ)⁻¹ • ((batchList n b).map fun p =>
      (p.2 : ℝ) • direction (average n γ x₀) (batchGrad γ x p) (batchGrad γ x₀ p) p.2).sum = average n γ x := by
  have h1 : ∀ p ∈ batchList n b, (p.2 : ℝ) • direction (average n γ x₀) (batchGrad γ x p) (batchGrad γ x₀ p) p.2 =
      (p.2 : ℝ) • average n γ x₀ + (batchGrad γ x p - batchGrad γ x₀ p) := by
    intro p hp
    have := (batchList_legal (n := n) hb p hp).1
    have h2 : (p.2 : ℝ) ≠ 0 := by
      have : 0 < p.2 := this
      exact_mod_cast this.ne'
    rw [direction, smul_add, smul_smul, mul_inv_cancel₀ h2, one_smul]
  rw [List.map_congr_left h1]
  have h3 : ∀ l : List (Nat × Nat), (l.map fun p => (p.2 : ℝ) • average n γ x₀ +
      (batchGrad γ x p - batchGrad γ x₀ p)).sum =
      (((l.map Prod.snd).sum : Nat) : ℝ) • average n γ x₀ + ((l.map (batchGrad γ x)).sum -
        (l.map (batchGrad γ x₀)).sum) := by
    intro l
    induction l with
    | nil => simp
    | cons p ps ih =>
      simp only [List.map_cons, List.sum_cons, ih, Nat.cast_add]
      module
  rw [h3, batches_size hb]
  have e1 : ((batchList n b).map (batchGrad γ x)).sum = objective n γ x := batch_sum hb fun i => γ i x
  have e2 : ((batchList n b).map (batchGrad γ x₀)).sum = objective n γ x₀ := batch_sum hb fun i => γ i x₀
  have hn' : (n : ℝ) ≠ 0 := by exact_mod_cast hn.ne'
  rw [e1, e2, average, smul_smul, mul_inv_cancel₀ hn', one_smul, average]
  congr 1
  abel

/-- **C43** With batches of one function, the plain average of the directions is the full gradient. -/
theorem C43_unbiased_single {n : Nat} (hn : 0 < n) (γ : Nat → V → V) (x x₀ : V) :
    (n : ℝ)⁻¹ • ((List.range n).map fun i => direction (average n γ x₀) (γ i x) (γ i x₀) 1).sum = average n γ x := by
  have h3 : ∀ l : List Nat, (l.map fun i => direction (average n γ x₀) (γ i x) (γ i x₀) 1).sum =
      (l.length : ℝ) • average n γ x₀ + ((l.map fun i => γ i x).sum - (l.map fun i => γ i x₀).sum) := by
    intro l
    simp only [direction, Nat.cast_one, inv_one, one_smul]
    induction l with
    | nil => simp
    | cons p ps ih =>
      simp only [List.map_cons, List.sum_cons, ih, List.length_cons, Nat.cast_add, Nat.cast_one]
      module
  have hn' : (n : ℝ) ≠ 0 := by exact_mod_cast hn.ne'
  rw [h3, List.length_range, average, smul_smul, mul_inv_cancel₀ hn', one_smul, average]
  congr 1
  simp only [objective]
  abel

/-- **C43** (limit of the claim) With a smaller last batch, the plain average over the batches is not the full
gradient: three functions with gradients `0, 0, x` in batches of two. -/
theorem C43_unbiased_batches_refuted :
    ¬ ∀ (n b : Nat) (γ : Nat → ℝ → ℝ) (x x₀ : ℝ), 0 < n → 0 < b →
      ((batchList n b).length : ℝ)⁻¹ • ((batchList n b).map fun p =>
        direction (average n γ x₀) (batchGrad γ x p) (batchGrad γ x₀ p) p.2).sum = average n γ x := by
  intro h
  have := h 3 2 (fun i x => if i = 2 then x else 0) 1 0 (by norm_num) (by norm_num)
  rw [show batchList 3 2 = [(0, 2), (2, 1)] by decide] at this
  simp [direction, average, batchGrad, objective, List.range'_succ, List.range_succ] at this

end Direction

/-! ### C107: Barzilai-Borwein step sizes -/

section BB

/-- `BarzilaiBorweinDecay::Policy::Update` (lines 89-107) for scalars; the state is `fullGradient0`. -/
def bb (epsilon maxStep : ℚ) (g0 : Option ℚ) (x x0 full : ℚ) (numBatches : Nat) (step : ℚ) : Option ℚ × ℚ :=
  match g0 with
  | none => (some full, step)
  | some g => (some full, min ((x - x0) ^ 2 / ((x - x0) * (full - g) + epsilon) / numBatches) maxStep)

/-- The same with vectors. -/
noncomputable def bbVec {V : Type} [NormedAddCommGroup V] [InnerProductSpace ℝ V] (epsilon maxStep : ℝ) (g0 : Option V)
    (x x0 full : V) (numBatches : Nat) (step : ℝ) : Option V × ℝ :=
  match g0 with
  | none => (some full, step)
  | some g => (some full, min (‖x - x0‖ ^ 2 / (inner ℝ (x - x0) (full - g) + epsilon) / numBatches) maxStep)

/-- **C107** (partial) The first epoch keeps the step size; later step sizes never exceed `maxStepSize`, and are
non-negative if the displacement of the epoch and the difference of the last two full gradients do not point in
opposite directions. -/
theorem C107_bb_partial {V : Type} [NormedAddCommGroup V] [InnerProductSpace ℝ V] {epsilon maxStep : ℝ}
    (he : 0 ≤ epsilon) (hm : 0 ≤ maxStep) (x x0 full : V) (numBatches : Nat) (step : ℝ) :
    (bbVec epsilon maxStep none x x0 full numBatches step).2 = step ∧
    ∀ g : V, (bbVec epsilon maxStep (some g) x x0 full numBatches step).2 ≤ maxStep ∧
      (0 ≤ (inner ℝ (x - x0) (full - g) : ℝ) →
        0 ≤ (bbVec epsilon maxStep (some g) x x0 full numBatches step).2) := by
  refine ⟨rfl, fun g => ⟨min_le_right _ _, fun h => le_min ?_ hm⟩⟩
  exact div_nonneg (div_nonneg (sq_nonneg _) (add_nonneg h he)) (Nat.cast_nonneg _)

/-- **C107** (value) If the gradient difference the policy uses is `lam` times the displacement, then (with `epsilon = 0`) the new step size
is the inverse of `lam`, divided by the number of batches, but at most `maxStepSize`; `epsilon` only makes it smaller. -/
theorem C107_bb_curvature {V : Type} [NormedAddCommGroup V] [InnerProductSpace ℝ V] {epsilon maxStep lam : ℝ} (he : 0 ≤ epsilon)
    (hl : 0 < lam) {x x0 full g : V} (hne : x ≠ x0) (hq : full - g = lam • (x - x0)) (numBatches : Nat) (step : ℝ) :
    (bbVec 0 maxStep (some g) x x0 full numBatches step).2 = min (1 / lam / numBatches) maxStep ∧
    (bbVec epsilon maxStep (some g) x x0 full numBatches step).2 ≤ (bbVec 0 maxStep (some g) x x0 full numBatches step).2 ∧
    (bbVec epsilon maxStep (some g) x x0 full numBatches step).1 = some full := by
  have hp : 0 < ‖x - x0‖ ^ 2 := by have := norm_pos_iff.2 (sub_ne_zero.2 hne); positivity
  have e : ∀ ε, (bbVec ε maxStep (some g) x x0 full numBatches step).2 =
      min (‖x - x0‖ ^ 2 / (lam * ‖x - x0‖ ^ 2 + ε) / numBatches) maxStep := by
    intro ε
    simp only [bbVec, hq, inner_smul_right, real_inner_self_eq_norm_sq]
  have e0 : ‖x - x0‖ ^ 2 / (lam * ‖x - x0‖ ^ 2 + 0) = 1 / lam := by
    rw [add_zero]
    generalize ‖x - x0‖ ^ 2 = n at hp
    field_simp
  refine ⟨by rw [e, e0], ?_, rfl⟩
  rw [e, e]
  refine min_le_min_right _ (div_le_div_of_nonneg_right ?_ (Nat.cast_nonneg _))
  exact div_le_div_of_nonneg_left hp.le (by positivity) (by linarith)

/-- The hypotheses are met: a displacement of 2, curvature 4. -/
example : (bbVec (V := ℝ) 0 10 (some 1) 3 1 9 5 0.5).2 = min (1 / 4 / ((5 : ℕ) : ℝ)) 10 :=
  (C107_bb_curvature (epsilon := 0) (maxStep := 10) (lam := 4) (x := (3 : ℝ)) (x0 := 1) (full := 9) (g := 1) le_rfl (by norm_num) (by norm_num)
    (by norm_num) 5 0.5).1

/-- The two forms of the update agree. -/
theorem C107_bb_scalar (epsilon maxStep : ℚ) (g x x0 full : ℚ) (numBatches : Nat) (step : ℚ) :
    (((bb epsilon maxStep (some g) x x0 full numBatches step).2 : ℚ) : ℝ) =
      (bbVec (V := ℝ) epsilon maxStep (some (g : ℝ)) x x0 full numBatches step).2 := by
  have e : (inner ℝ ((x : ℝ) - x0) ((full : ℝ) - g) : ℝ) = (x - x0) * (full - g) := by
    simp [mul_comm]
  have e2 : ‖(x : ℝ) - x0‖ ^ 2 = ((x : ℝ) - x0) ^ 2 := by simp
  simp only [bb, bbVec]
  rw [e, e2]
  push_cast
  rfl

/-- SVRG with one function `x^2 / 2`, one inner step per epoch, Barzilai-Borwein decay with default parameters. The
world holds the policy's gradient. -/
def quadUser : User (Option ℚ) ℚ ℚ ℚ where
  n := 1
  evaluate := fun w x _ k => (w, k * (x ^ 2 / 2))
  gradient := fun w x _ k => (w, k * x)
  shuffle := fun w => w
  cbBegin := fun w x => (w, x)
  cbEval := fun w _ _ => (w, false)
  cbGrad := fun w _ g => (w, g, false)
  cbStep := fun w x => (w, x, false)
  cbEnd := fun w x => (w, x)
  addE := fun a b => a + b
  zero := 0
  isBad := fun _ => false
  near := fun _ _ => false
  dblMax := 10 ^ 308
  addG := fun a b => a + b
  divG := fun g n => g / n

def bbParams (maxIterations : Nat) (exact : Bool) : Params (Option ℚ) ℚ ℚ ℚ where
  batchSize := 1
  maxIterations := maxIterations
  innerIterations := 1
  shuffle := true
  exact := exact
  update := fun w x full g g0 b step => (w, x - step * (full + (g - g0) / b))
  decay := fun w x x0 _ full nb step => bb (1 / 10 ^ 7) (10 ^ 308) w x x0 full nb step

/-- Final coordinates, step size and returned value. -/
def outcome {W X E : Type} : Option (Res W X E) → Option (X × E × E)
  | some (.ret _ t) => some (t.x, t.step, t.overall)
  | _ => none

/-- **C107** (refuted) "On a convex objective Barzilai-Borwein step sizes stay positive": the policy pairs the
displacement of the current epoch with the gradient difference of the previous one. On `x^2 / 2` from 1 with initial
step 3/2 the step size after two epochs is negative, and the third epoch moves away from the minimum. -/
theorem C107_bb_refuted :
    ¬ ∀ (m : Nat) (step x : ℚ), 0 < step → step < 2 → ∀ r, outcome (optimize quadUser (bbParams m true) step 10 none x) =
      some r → 0 ≤ r.2.1 := by
  intro h
  have hv : ((outcome (optimize quadUser (bbParams 2 true) (3 / 2) 10 none 1)).map fun r => decide (r.2.1 < 0)) =
      some true := by decide +kernel
  rw [Option.map_eq_some_iff] at hv
  obtain ⟨r, hr, hv⟩ := hv
  have := h 2 (3 / 2) 1 (by norm_num) (by norm_num) r hr
  exact absurd (of_decide_eq_true hv) (not_lt.2 this)

/-- The third epoch of that run moves away from the minimum at 0. -/
theorem C107_bb_diverges_refuted :
    ((outcome (optimize quadUser (bbParams 2 true) (3 / 2) 10 none 1)).bind fun r2 =>
      (outcome (optimize quadUser (bbParams 3 true) (3 / 2) 10 none 1)).map fun r3 => decide (|r2.1| < |r3.1|)) =
      some true := by decide +kernel

/-- **C106** (limit) Without `exactObjective` the value returned at the iteration limit is the objective before the last
epoch: on `x^2 / 2` from 1 with step 1/2 and one epoch it returns 1/2 although the result is 1/2 with objective 1/8. -/
theorem C106_svrg_stale_value_refuted :
    ¬ ∀ (m : Nat) (step x : ℚ) (r : ℚ × ℚ × ℚ),
      outcome (optimize quadUser (bbParams m false) step 10 none x) = some r → r.2.2 = r.1 ^ 2 / 2 := by
  intro h
  have hv : outcome (optimize quadUser (bbParams 1 false) (1 / 2) 10 none 1) = some (1 / 2, 1 / 2, 1 / 2) := by
    decide +kernel
  have := h 1 (1 / 2) 1 _ hv
  norm_num at this

/-- Non-vacuity: the quadratic is separable in the sense of `C106_svrg_value`. -/
example : Separable quadUser (fun _ x => x ^ 2 / 2) (fun _ x => x) (fun _ i => i) := by
  refine ⟨fun _ _ => rfl, rfl, fun _ _ => rfl, ?_, ?_, fun _ _ _ => rfl, fun _ _ _ _ => rfl, fun _ _ _ _ => rfl,
    fun _ _ _ => rfl, fun _ _ _ => rfl, fun _ => by simp⟩ <;> intro w x a k <;> simp [quadUser]

end BB

end Ens.Vr.Svrg
