import Mathlib.Algebra.Order.Field.Rat
import Mathlib.Analysis.Normed.Module.Basic
import Mathlib.Tactic.Module
import Mathlib.Tactic.Linarith
import Mathlib.Tactic.NormNum
import Verif.Vr.Base
import Verif.Vr.Svrg

/-
SARAH (`sarah/sarah_impl.hpp`, `sarah/sarah_update.hpp`, `sarah/sarah_plus_update.hpp`): model and properties C108, C109.
-/

namespace Ens.Vr.Sarah

open Ens.Vr

variable {W X G E : Type}

/-- Members of `SARAHType`; `step` is `stepSize`. -/
structure Params (X G E : Type) where
  batchSize : Nat
  maxIterations : Nat
  innerIterations : Nat
  shuffle : Bool
  exact : Bool
  /-- `iterate - stepSize * v` (line 154) -/
  move : X → G → X
  norm : G → E
  /-- `updatePolicy.Update(iterate, v, gradient, gradient0, batchSize, stepSize, vNorm)`: new iterate, new `v`, result -/
  update : X → G → G → G → Nat → E → X × G × Bool

/-- Local state of the inner loop (lines 158-218). -/
structure Inner (W X G : Type) where
  s : S W
  x : X
  x0 : X
  v : G
  f : Nat
  cur : Nat

/-- Start of a sequence: reset and shuffle (lines 162-169). -/
def wrap (u : User W X G E) (shuffle : Bool) (t : Inner W X G) : Inner W X G :=
  if t.cur % u.n = 0 then
    { t with cur := 0, s := if shuffle then { t.s with w := u.shuffle t.s.w } else t.s }
  else t

/-- The gradients of lines 174-189: at the iterate, and at the previous iterate except in the first pass. -/
def twoGrads (u : User W X G E) (t : Inner W X G) (q : Nat × Nat) : S W × G × G :=
  let g := gradAt u t.s t.x q
  if 0 < t.f then
    let g0 := gradAt u g.1 t.x0 q
    (g0.1, g.2, g0.2)
  else (g.1, g.2, g.2)

/-- Body of the inner loop with its condition (lines 158-218). A step that ends the loop is not notified. -/
def innerStep (u : User W X G E) (p : Params X G E) (inner : Nat) (vNorm : E) (t : Inner W X G) :
    Inner W X G ⊕ Inner W X G :=
  if t.f < inner then
    let t := wrap u p.shuffle t
    let eff := min p.batchSize (u.n - t.cur)
    let g := twoGrads u t (t.cur, eff)
    if g.1.term then .inr { t with s := g.1, x0 := t.x }
    else
      let r := p.update t.x t.v g.2.1 g.2.2 eff vNorm
      if r.2.2 then .inr { t with s := g.1.note g.1.w .step false, x := r.1, x0 := t.x, v := r.2.1 }
      else
        let c := stepAt u g.1 r.1
        .inl ⟨c.1, c.2, t.x, r.2.1, t.f + eff, t.cur + eff⟩
  else .inr t

/-- Local state of the outer loop. -/
structure St (W X E : Type) where
  s : S W
  x : X
  last : E
  overall : E
  i : Nat

inductive Exit where
  | loop | bad | near
  deriving DecidableEq

inductive Res (W X E : Type) where
  | ret (e : Exit) (t : St W X E)
  | stuck

/-- Lines 83-84. -/
def effInner (u : User W X G E) (p : Params X G E) : Nat :=
  if p.innerIterations = 0 then u.n else p.innerIterations

/-- Lines 92-93. -/
def limitReached (p : Params X G E) (i : Nat) : Bool := p.maxIterations ≠ 0 && p.maxIterations ≤ i

/-- Body of the outer loop with its condition (lines 95-219). -/
def body (u : User W X G E) (p : Params X G E) (t : St W X E) : St W X E ⊕ Res W X E :=
  if limitReached p t.i ∨ t.s.term = true then .inr (.ret .loop t)
  else
    let o := evalAll u p.batchSize t.s t.x
    let t := { t with s := o.1, overall := o.2 }
    if u.isBad t.overall then .inr (.ret .bad t)
    else if u.near t.last t.overall then .inr (.ret .near t)
    else
      match fullGrad u (gradQuiet u) p.batchSize t.s t.x t.x with
      | none => .inr .stuck
      | some g =>
        let t := { t with s := g.1, last := t.overall }
        if t.s.term then .inr (.ret .loop t)
        else
          let x1 := p.move t.x g.2
          match iterate (innerStep u p (effInner u p) (p.norm g.2)) (effInner u p + 1)
              ⟨t.s.note t.s.w .step false, x1, x1, g.2, 0, 0⟩ with
          | none => .inr .stuck
          | some r => .inl { t with s := r.s, x := r.x, i := t.i + 1 }

/-- The final objective (lines 225-239) and `EndOptimization`. -/
def finish (u : User W X G E) (p : Params X G E) (e : Exit) (t : St W X E) : St W X E :=
  let t := if e = .loop ∧ p.exact = true then
      let o := evalAll u p.batchSize t.s t.x
      { t with s := o.1, overall := o.2 }
    else t
  let c := u.cbEnd t.s.w t.x
  { t with s := { t.s with w := c.1 }, x := c.2 }

/-- `Optimize` (lines 70-243). -/
def optimize (u : User W X G E) (p : Params X G E) (fuel : Nat) (w : W) (x : X) : Option (Res W X E) :=
  let c := u.cbBegin w x
  (iterate (body u p) fuel ⟨⟨c.1, false, []⟩, c.2, u.dblMax, u.zero, 0⟩).map fun r =>
    match r with
    | .stuck => .stuck
    | .ret e t => .ret e (finish u p e t)

/-! ### The inner loop -/

theorem wrap_spec {u : User W X G E} (hn : 0 < u.n) (shuffle : Bool) {t : Inner W X G} (h : Sound u.n t.s)
    (hc : t.cur ≤ u.n) : Sound u.n (wrap u shuffle t).s ∧ (wrap u shuffle t).cur < u.n ∧ (wrap u shuffle t).f = t.f ∧
      (wrap u shuffle t).s.term = t.s.term := by
  unfold wrap
  split
  · refine ⟨?_, hn, rfl, ?_⟩
    · dsimp only
      split
      · exact world_sound h _
      · exact h
    · dsimp only
      split <;> rfl
  · rename_i hm
    refine ⟨h, ?_, rfl, rfl⟩
    rcases Nat.lt_or_ge t.cur u.n with h | h
    · exact h
    · exact absurd (by rw [show t.cur = u.n by omega, Nat.mod_self]) hm

theorem twoGrads_sound {u : User W X G E} {t : Inner W X G} (h : Sound u.n t.s) {q : Nat × Nat}
    (hq : 1 ≤ q.2 ∧ q.1 + q.2 ≤ u.n) : Sound u.n (twoGrads u t q).1 := by
  unfold twoGrads
  simp only
  split
  · exact gradAt_sound (gradAt_sound h _ hq) _ hq
  · exact gradAt_sound h _ hq

theorem inner_spec {u : User W X G E} {p : Params X G E} (hn : 0 < u.n) (hb : 0 < p.batchSize) (inner : Nat)
    (vNorm : E) {t₀ : Inner W X G} (h : Sound u.n t₀.s) (hf : t₀.f = 0) (hc : t₀.cur = 0) :
    ∃ r, iterate (innerStep u p inner vNorm) (inner + 1) t₀ = some r ∧ Sound u.n r.s := by
  let I : Inner W X G → Prop := fun t => Sound u.n t.s ∧ t.cur ≤ u.n
  have hleg : ∀ c, c < u.n → 1 ≤ min p.batchSize (u.n - c) ∧ c + min p.batchSize (u.n - c) ≤ u.n := by
    intro c hc; omega
  have hbody : ∀ t t', I t → innerStep u p inner vNorm t = .inl t' → I t' ∧ inner - t'.f < inner - t.f := by
    intro t t' ⟨h1, h2⟩ ht
    unfold innerStep at ht
    split at ht
    · rename_i hlt
      obtain ⟨w1, w2, w3, -⟩ := wrap_spec hn p.shuffle h1 h2
      simp only at ht
      split at ht
      · cases ht
      · rename_i hterm
        split at ht
        · cases ht
        · cases ht
          have hl := hleg _ w2
          refine ⟨⟨stepAt_sound (twoGrads_sound w1 hl) (by simpa using hterm) _, hl.2⟩, ?_⟩
          dsimp only; rw [w3]; omega
    · cases ht
  have h0 : I t₀ := ⟨h, by omega⟩
  obtain ⟨r, hr⟩ := iterate_total I (fun t => inner - t.f) hbody (inner + 1) t₀ h0 (by omega)
  refine ⟨r, hr, ?_⟩
  refine iterate_inv I (fun r => Sound u.n r.s) (fun t t' h h' => (hbody t t' h h').1) ?_ (inner + 1) t₀ r h0 hr
  intro t r ⟨h1, h2⟩ ht
  unfold innerStep at ht
  split at ht
  · obtain ⟨w1, w2, w3, -⟩ := wrap_spec hn p.shuffle h1 h2
    have hl := hleg _ w2
    simp only at ht
    split at ht
    · cases ht
      exact twoGrads_sound w1 hl
    · rename_i hterm
      split at ht
      · cases ht
        exact note_sound (twoGrads_sound w1 hl) _ _ _ (by simp) (fun _ => by simpa using hterm)
          (by rintro a k (h | h) <;> cases h)
      · cases ht
  · cases ht
    exact h1

theorem body_spec {u : User W X G E} {p : Params X G E} (hn : 0 < u.n) (hb : 0 < p.batchSize) {t : St W X E}
    (h : Sound u.n t.s) :
    (∀ t', body u p t = .inl t' → Sound u.n t'.s ∧ t'.i = t.i + 1 ∧ limitReached p t.i = false) ∧
    (∀ r, body u p t = .inr r → ∃ e t', r = .ret e t' ∧ Sound u.n t'.s ∧ t'.i = t.i ∧
      (e ≠ .loop → ∃ s, t'.overall = (evalAll u p.batchSize s t'.x).2)) := by
  unfold body
  split
  · exact ⟨(fun t' h => by cases h), fun r hr => by cases hr; exact ⟨.loop, t, rfl, h, rfl, fun h => absurd rfl h⟩⟩
  · rename_i hlim
    have ho := evalAll_sound (b := p.batchSize) hb h t.x
    simp only
    split
    · exact ⟨(fun t' h => by cases h), fun r hr => by cases hr; exact ⟨.bad, _, rfl, ho, rfl, fun _ => ⟨t.s, rfl⟩⟩⟩
    split
    · exact ⟨(fun t' h => by cases h), fun r hr => by cases hr; exact ⟨.near, _, rfl, ho, rfl, fun _ => ⟨t.s, rfl⟩⟩⟩
    obtain ⟨g, hg⟩ := fullGrad_some u (gradQuiet u) (b := p.batchSize) hn (evalAll u p.batchSize t.s t.x).1 t.x t.x
    rw [hg]
    have hgs := fullGrad_sound hb (fun s x p h hp => gradQuiet_sound h x hp) ho t.x t.x hg
    simp only
    split
    · exact ⟨(fun t' h => by cases h), fun r hr => by
        cases hr; exact ⟨.loop, _, rfl, hgs, rfl, fun h => absurd rfl h⟩⟩
    rename_i hterm
    have h1 : Sound u.n (g.1.note g.1.w .step false) :=
      note_sound hgs _ _ _ (by simp) (fun _ => by simpa using hterm) (by rintro a k (h | h) <;> cases h)
    obtain ⟨r, hr, hrs⟩ := inner_spec (p := p) hn hb (effInner u p) (p.norm g.2)
      (t₀ := ⟨g.1.note g.1.w .step false, p.move t.x g.2, p.move t.x g.2, g.2, 0, 0⟩) h1 rfl rfl
    rw [hr]
    refine ⟨fun t' h => ?_, fun r hr => by cases hr⟩
    cases h
    simp only [not_or, Bool.not_eq_true] at hlim
    exact ⟨hrs, rfl, hlim.1⟩

theorem finish_sound {u : User W X G E} {p : Params X G E} (hb : 0 < p.batchSize) {t : St W X E} (e : Exit)
    (hs : Sound u.n t.s) : Sound u.n (finish u p e t).s ∧ (finish u p e t).i = t.i := by
  unfold finish
  by_cases hc : e = .loop ∧ p.exact = true
  · simp only [if_pos hc]; exact ⟨world_sound (evalAll_sound hb hs t.x) _, trivial⟩
  · simp only [if_neg hc]; exact ⟨world_sound hs _, trivial⟩

/-- **C106** SARAH always returns (for positive batch size and at least one function) after at most `maxIterations`
passes; every batch is a non-empty legal range, and no step follows a stop request. -/
theorem C106_sarah_protocol {u : User W X G E} {p : Params X G E} (hn : 0 < u.n) (hb : 0 < p.batchSize)
    (hm : 0 < p.maxIterations) (w : W) (x : X) :
    ∃ e t, optimize u p (p.maxIterations + 1) w x = some (.ret e t) ∧ t.i ≤ p.maxIterations ∧
      (∀ pre post, t.s.trace = pre ++ .step :: post → Ev.stop ∉ pre) ∧
      (∀ a k, (.eval a k ∈ t.s.trace ∨ .grad a k ∈ t.s.trace) → 1 ≤ k ∧ a + k ≤ u.n) := by
  have h0 : Sound u.n (⟨(u.cbBegin w x).1, false, []⟩ : S W) := ⟨by simp, along_nil _⟩
  have hlim : ∀ i, limitReached p i = false → i < p.maxIterations := by
    intro i h
    by_contra hc
    simp [limitReached] at h
    omega
  obtain ⟨r, hr⟩ := iterate_total (step := body u p) (fun t => Sound u.n t.s) (fun t => p.maxIterations - t.i)
    (by
      intro t t' h ht
      obtain ⟨h1, h2, h3⟩ := (body_spec hn hb h).1 t' ht
      have := hlim _ h3
      exact ⟨h1, by omega⟩) (p.maxIterations + 1)
    ⟨⟨(u.cbBegin w x).1, false, []⟩, (u.cbBegin w x).2, u.dblMax, u.zero, 0⟩ h0 (by dsimp only; omega)
  obtain ⟨e, t, rfl, hs, hi⟩ := iterate_inv (step := body u p) (fun t => Sound u.n t.s ∧ t.i ≤ p.maxIterations)
    (fun r => ∃ e t', r = .ret e t' ∧ Sound u.n t'.s ∧ t'.i ≤ p.maxIterations)
    (by
      intro t t' ⟨h, hi⟩ ht
      obtain ⟨h1, h2, h3⟩ := (body_spec hn hb h).1 t' ht
      have := hlim _ h3
      exact ⟨h1, by omega⟩)
    (by
      intro t r ⟨h, hi⟩ ht
      obtain ⟨e, t', h1, h2, h3, -⟩ := (body_spec hn hb h).2 r ht
      exact ⟨e, t', h1, h2, by omega⟩)
    (p.maxIterations + 1) _ r ⟨h0, Nat.zero_le _⟩ hr
  obtain ⟨f1, f2⟩ := finish_sound (u := u) (p := p) hb e hs
  refine ⟨e, finish u p e t, ?_, by omega, f1.facts⟩
  unfold optimize
  simp only [hr, Option.map_some]

/-- **C106** The value SARAH returns: with `exactObjective`, or when the run ends because the objective is not finite or
within tolerance, it is the full objective at the returned coordinates. -/
theorem C106_sarah_value [AddCommMonoid E] [AddCommMonoid G] {u : User W X G E} {p : Params X G E} {φ : Nat → X → E}
    {γ : Nat → X → G} {perm : W → Nat → Nat} (hu : Separable u φ γ perm) (hn : 0 < u.n) (hb : 0 < p.batchSize)
    (hend : ∀ w x, (u.cbEnd w x).2 = x) {fuel : Nat} {w : W} {x : X} {e : Exit} {t : St W X E}
    (h : optimize u p fuel w x = some (.ret e t)) (hx : p.exact = true ∨ e ≠ .loop) :
    t.overall = objective u.n φ t.x := by
  unfold optimize at h
  simp only [Option.map_eq_some_iff] at h
  obtain ⟨r, hr, h⟩ := h
  have h0 : Sound u.n (⟨(u.cbBegin w x).1, false, []⟩ : S W) := ⟨by simp, along_nil _⟩
  obtain ⟨e', t', rfl, hs, hv⟩ := iterate_inv (step := body u p) (fun t => Sound u.n t.s)
    (fun r => ∃ e t', r = .ret e t' ∧ Sound u.n t'.s ∧
      (e ≠ .loop → ∃ s, t'.overall = (evalAll u p.batchSize s t'.x).2))
    (fun t t' h ht => ((body_spec hn hb h).1 t' ht).1)
    (fun t r h ht => by
      obtain ⟨e, t', h1, h2, -, h3⟩ := (body_spec hn hb h).2 r ht
      exact ⟨e, t', h1, h2, h3⟩) fuel _ r h0 hr
  simp only at h
  cases h
  unfold finish
  by_cases hc : e = .loop ∧ p.exact = true
  · simp only [if_pos hc, hend]
    exact (evalAll_value hu hb _ _).1
  · simp only [if_neg hc, hend]
    have he : e ≠ .loop := by
      rcases hx with hx | hx
      · exact fun he => hc ⟨he, hx⟩
      · exact hx
    obtain ⟨s, hs⟩ := hv he
    rw [hs]
    exact (evalAll_value hu hb _ _).1

/-! ### C108: the recursive gradient estimator -/

section Estimator

variable {V : Type} [AddCommGroup V] [Module ℝ V]

/-- `SARAHUpdate::Update` (`sarah_update.hpp:36-47`). -/
noncomputable def plainUpdate (step : ℝ) (x v g g0 : V) (size : Nat) (_ : E) : V × V × Bool :=
  let v' := v + (size : ℝ)⁻¹ • (g - g0)
  (x - step • v', v', false)

open Ens.Vr.Svrg (average)

theorem batch_all [AddCommMonoid E] {u : User W V V E} {φ : Nat → V → E} {γ : Nat → V → V} {perm : W → Nat → Nat}
    (hu : Separable u φ γ perm) (hn : 0 < u.n) (s : S W) (x : V) :
    (u.n : ℝ)⁻¹ • (gradAt u s x (0, u.n)).2 = average u.n γ x := by
  rw [(gradAt_rest hu s x (0, u.n)).1, average, objective, ← perm_sum (hu.isPerm s.w) fun j => γ j x,
    List.range_eq_range']

/-- **C108** (partial) With full batches (`batchSize` at least the number of functions) the direction `v` of every step of
the inner loop is the full gradient at the point the step starts from plus a constant error, the difference of the full
gradients at the snapshot and at the first inner point: the first inner pass does not update `v`. -/
theorem C108_estimator_partial [AddCommMonoid E] {u : User W V V E} {φ : Nat → V → E} {γ : Nat → V → V}
    {perm : W → Nat → Nat} (hu : Separable u φ γ perm) (hn : 0 < u.n) {p : Params V V E} (hb : u.n ≤ p.batchSize)
    {step : ℝ} (hup : p.update = plainUpdate step) (hstep : ∀ w x, (u.cbStep w x).2.1 = x) (inner fuel : Nat) (vNorm : E)
    (s : S W) (xs x1 : V) {r : Inner W V V}
    (hr : iterate (innerStep u p inner vNorm) fuel ⟨s, x1, x1, average u.n γ xs, 0, 0⟩ = some r) (ht : r.s.term = false) :
    (r.f = 0 ∧ r.x = x1) ∨
    (r.v = average u.n γ r.x0 + (average u.n γ xs - average u.n γ x1) ∧ r.x = r.x0 - step • r.v) := by
  let I : Inner W V V → Prop := fun t => (t.cur = 0 ∨ t.cur = u.n) ∧
    ((t.f = 0 ∧ t.x = x1 ∧ t.v = average u.n γ xs) ∨ (0 < t.f ∧
      t.v = average u.n γ t.x0 + (average u.n γ xs - average u.n γ x1) ∧ t.x = t.x0 - step • t.v))
  have hwrap : ∀ t : Inner W V V, I t → (wrap u p.shuffle t).cur = 0 ∧ (wrap u p.shuffle t).x = t.x ∧
      (wrap u p.shuffle t).x0 = t.x0 ∧ (wrap u p.shuffle t).v = t.v ∧ (wrap u p.shuffle t).f = t.f := by
    rintro t ⟨hc, -⟩
    unfold wrap
    rw [if_pos (by rcases hc with h | h <;> rw [h] <;> simp)]
    exact ⟨rfl, rfl, rfl, rfl, rfl⟩
  refine iterate_inv I (fun r => r.s.term = false → (r.f = 0 ∧ r.x = x1) ∨
    (r.v = average u.n γ r.x0 + (average u.n γ xs - average u.n γ x1) ∧ r.x = r.x0 - step • r.v)) ?_ ?_ fuel _ r ?_ hr ht
  · intro t t' hI h
    obtain ⟨w1, w2, w3, w4, w5⟩ := hwrap t hI
    unfold innerStep at h
    split at h
    · rename_i hlt
      simp only at h
      rw [w1, Nat.sub_zero, min_eq_right hb] at h
      split at h
      · cases h
      · rw [hup] at h
        simp only [plainUpdate, Bool.false_eq_true, if_false] at h
        cases h
        refine ⟨Or.inr (by dsimp only; omega), Or.inr ⟨by dsimp only; omega, ?_⟩⟩
        dsimp only
        have hx : (stepAt u (twoGrads u (wrap u p.shuffle t) (0, u.n)).1
            ((wrap u p.shuffle t).x - step • ((wrap u p.shuffle t).v + (u.n : ℝ)⁻¹ •
              ((twoGrads u (wrap u p.shuffle t) (0, u.n)).2.1 - (twoGrads u (wrap u p.shuffle t) (0, u.n)).2.2)))).2 =
            (wrap u p.shuffle t).x - step • ((wrap u p.shuffle t).v + (u.n : ℝ)⁻¹ •
              ((twoGrads u (wrap u p.shuffle t) (0, u.n)).2.1 - (twoGrads u (wrap u p.shuffle t) (0, u.n)).2.2)) :=
          hstep _ _
        rw [hx]
        refine ⟨?_, rfl⟩
        rw [smul_sub]
        unfold twoGrads
        rcases hI.2 with ⟨f0, fx, fv⟩ | ⟨f0, fv, fx⟩
        · rw [w5, if_neg (by omega)]
          simp only
          rw [w2, w4, fv, fx]
          abel
        · rw [w5, if_pos f0]
          simp only
          rw [batch_all hu hn, batch_all hu hn, w2, w3, w4, fv]
          abel
    · cases h
  · intro t r hI h hterm
    obtain ⟨w1, w2, w3, w4, w5⟩ := hwrap t hI
    unfold innerStep at h
    split at h
    · simp only at h
      split at h
      · rename_i ht'
        cases h
        dsimp only at hterm
        rw [hterm] at ht'; cases ht'
      · rw [hup] at h
        simp only [plainUpdate, Bool.false_eq_true, if_false] at h
        cases h
    · cases h
      rcases hI.2 with ⟨f0, fx, -⟩ | ⟨-, fv, fx⟩
      · exact Or.inl ⟨f0, fx⟩
      · exact Or.inr ⟨fv, fx⟩
  · exact ⟨Or.inl rfl, Or.inl ⟨rfl, rfl, rfl⟩⟩

/-- The hypotheses of the theorem are met: two functions `x^2 / 2` and `(x - 2)^2 / 2`, full batches. -/
noncomputable def pairR : User Unit ℝ ℝ ℝ where
  n := 2
  evaluate := fun w x a k => (w, ((List.range' a k).map fun i : Nat => (x - 2 * i) ^ 2 / 2).sum)
  gradient := fun w x a k => (w, ((List.range' a k).map fun i : Nat => x - 2 * i).sum)
  shuffle := fun w => w
  cbBegin := fun w x => (w, x)
  cbEval := fun w _ _ => (w, false)
  cbGrad := fun w _ g => (w, g, false)
  cbStep := fun w x => (w, x, false)
  cbEnd := fun w x => (w, x)
  addE := fun a b => a + b
  zero := 0
  isBad := fun _ => false
  near := fun _ _ => false
  dblMax := 10 ^ 308
  addG := fun a b => a + b
  divG := fun g n => g / n

example : Separable pairR (fun i x => (x - 2 * i) ^ 2 / 2) (fun i x => x - 2 * i) (fun _ i => i) ∧ 0 < pairR.n ∧
    ∀ w x, (pairR.cbStep w x).2.1 = x :=
  ⟨⟨fun _ _ => rfl, rfl, fun _ _ => rfl, by intros; simp [pairR], by intros; simp [pairR], fun _ _ _ => rfl, fun _ _ _ _ => rfl,
    fun _ _ _ _ => rfl, fun _ _ _ => rfl, fun _ _ _ => rfl, fun _ => by simp⟩, by decide, fun _ _ => rfl⟩

end Estimator

/-! ### Concrete runs -/

/-- SARAH on one function `x^2 / 2`. -/
def quadParams (maxIterations inner : Nat) (step gamma : ℚ) : Params ℚ ℚ ℚ where
  batchSize := 1
  maxIterations := maxIterations
  innerIterations := inner
  shuffle := true
  exact := true
  move := fun x v => x - step * v
  norm := fun v => |v|
  update := fun x v g g0 b vn =>
    let v' := v + (g - g0) / b
    (x - step * v', v', decide (|v'| ≤ gamma * vn))

def outcome {W X E : Type} : Option (Res W X E) → Option (X × List Ev)
  | some (.ret _ t) => some (t.x, t.s.trace)
  | _ => none

/-- **C108** (refuted) "With full batches SARAH is gradient descent": on `x^2 / 2` from 1 with step 1/2 and two inner
passes, three gradient steps give 1/8; SARAH gives -1/4. -/
theorem C108_estimator_refuted :
    ((outcome (optimize Svrg.quadUser (quadParams 1 2 (1 / 2) (-1)) 5 none 1)).map Prod.fst) = some (-1 / 4) ∧
    (fun x : ℚ => x - 1 / 2 * x)^[3] 1 = 1 / 8 := by
  constructor <;> decide +kernel

/-- **C109** (refuted) "Every change of the iterate is followed by `StepTaken`": the full-gradient step (line 154) and the
step that makes SARAH+ leave the inner loop are not notified. One epoch of SARAH+ with `gamma = 1` makes two steps and
no notification. -/
theorem C109_notified_refuted :
    ((outcome (optimize Svrg.quadUser (quadParams 1 5 (1 / 2) 1) 5 none 1)).map fun r =>
      (r.2.count .step, r.2.count .told)) = some (2, 0) := by
  decide +kernel

end Ens.Vr.Sarah
