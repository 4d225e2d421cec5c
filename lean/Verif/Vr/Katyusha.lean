import Mathlib.Algebra.Order.Field.Rat
import Mathlib.Algebra.Field.GeomSum
import Mathlib.Tactic.Module
import Mathlib.Tactic.Linarith
import Mathlib.Tactic.NormNum
import Mathlib.Tactic.Ring
import Mathlib.Tactic.Positivity
import Mathlib.Tactic.FieldSimp
import Verif.Vr.Base
import Verif.Vr.Svrg

/-
Katyusha (`katyusha/katyusha_impl.hpp`): model and properties C106, C110, C111.

The numbers are elements of a linearly ordered field `K` and points are vectors over it; `tau1` (line 83, a square root) is
a parameter. `Begin`/`StepTaken`/`End` callbacks may change the iterate.
-/

namespace Ens.Vr.Katyusha

open Ens.Vr

variable {W E K V : Type} [Field K] [LinearOrder K] [AddCommGroup V] [Module K V]

/-- Members of `KatyushaType`. -/
structure Params (K : Type) where
  convexity : K
  lipschitz : K
  batchSize : Nat
  maxIterations : Nat
  innerIterations : Nat
  shuffle : Bool
  exact : Bool
  proximal : Bool
  tau1 : K

/-- Lines 75-76. -/
def effInner (n : Nat) (p : Params K) : Nat := if p.innerIterations = 0 then n else p.innerIterations

/-- Lines 79-81. -/
def numBatches (n : Nat) (p : Params K) : Nat :=
  effInner n p / p.batchSize + (if n % p.batchSize ≠ 0 then 1 else 0)

/-- Line 86. -/
def alpha (p : Params K) : K := 1 / (3 * p.tau1 * p.lipschitz)

/-- Lines 87-88. -/
def ratio (n : Nat) (p : Params K) : K := 1 + min (alpha p * p.convexity) (1 / (4 / (effInner n p : K)))

/-- The loop of lines 91-95. -/
def normLoop (r : K) : Nat → K
  | 0 => 1
  | k + 1 => r * (normLoop r k + 1)

/-- Line 96. -/
def normalizer (n : Nat) (p : Params K) : K := 1 / normLoop (ratio n p) (numBatches n p)

/-- Local state of the inner loop (lines 174-239). -/
structure Inner (W K V : Type) where
  s : S W
  x : V
  y : V
  z : V
  w : V
  cw : K
  f : Nat
  cur : Nat

/-- Lines 181-188. -/
def wrap (u : User W V V E) (shuffle : Bool) (t : Inner W K V) : Inner W K V :=
  if t.cur % u.n = 0 then
    { t with cur := 0, s := if shuffle then { t.s with w := u.shuffle t.s.w } else t.s }
  else t

/-- Lines 210-231: `zNew` and the new `y`. -/
def mirror (p : Params K) (t : Inner W K V) (x full g g0 : V) : V × V :=
  let zNew := t.z - alpha p • (full + (1 / (p.batchSize : K)) • (g - g0))
  (zNew, if p.proximal then x + (1 / (3 * p.lipschitz)) • t.w else x + p.tau1 • (zNew - t.z))

/-- Body of the inner loop with its condition (lines 177-239). -/
def innerStep (u : User W V V E) (p : Params K) (inner : Nat) (r : K) (x0 full : V) (t : Inner W K V) :
    Inner W K V ⊕ Inner W K V :=
  if t.f < inner ∧ t.s.term = false then
    let t := wrap u p.shuffle t
    let eff := min p.batchSize (u.n - t.cur)
    let c := stepAt u t.s (p.tau1 • t.z + (1 / 2 : K) • x0 + (1 - p.tau1 - 1 / 2) • t.y)
    let g := gradAt u c.1 c.2 (t.cur, eff)
    let g0 := gradAt u g.1 x0 (t.cur, eff)
    let m := mirror p t c.2 full g.2 g0.2
    .inl ⟨g0.1, c.2, m.2, m.1, t.w + t.cw • c.2, t.cw * r, t.f + eff, t.cur + eff⟩
  else .inr t

/-- Local state of the outer loop. -/
structure St (W E V : Type) where
  s : S W
  x : V
  x0 : V
  y : V
  z : V
  last : E
  overall : E
  i : Nat

inductive Exit where
  | loop | bad | near
  deriving DecidableEq

inductive Res (W E V : Type) where
  | ret (e : Exit) (t : St W E V)
  | stuck

def limitReached (p : Params K) (i : Nat) : Bool := p.maxIterations ≠ 0 && p.maxIterations ≤ i

/-- Body of the outer loop with its condition (lines 116-241). The full gradient takes its first batch at the iterate and
the others at `iterate0`; these others are added before `Callback::Gradient` sees them (lines 163-167). -/
def body (u : User W V V E) (p : Params K) (t : St W E V) : St W E V ⊕ Res W E V :=
  if limitReached p t.i ∨ t.s.term = true then .inr (.ret .loop t)
  else
    let o := evalAll u p.batchSize t.s t.x0
    let t := { t with s := o.1, overall := o.2 }
    if u.isBad t.overall then .inr (.ret .bad t)
    else if u.near t.last t.overall then .inr (.ret .near t)
    else
      match fullGrad u (gradLate u) p.batchSize t.s t.x t.x0 with
      | none => .inr .stuck
      | some g =>
        match iterate (innerStep u p (effInner u.n p) (ratio u.n p) t.x0 g.2) (effInner u.n p + 1)
            ⟨g.1, t.x, t.y, t.z, 0, 1, 0, 0⟩ with
        | none => .inr .stuck
        | some q => .inl { t with s := q.s, x := q.x, y := q.y, z := q.z, x0 := normalizer u.n p • q.w,
                                  last := t.overall, i := t.i + 1 }

/-- Lines 247-265. -/
def finish (u : User W V V E) (p : Params K) (e : Exit) (t : St W E V) : St W E V :=
  let t := if e = .loop ∧ p.exact = true then
      let o := evalAll u p.batchSize t.s t.x
      { t with s := o.1, overall := o.2 }
    else t
  let c := u.cbEnd t.s.w t.x
  { t with s := { t.s with w := c.1 }, x := c.2 }

/-- `Optimize` (lines 50-266). -/
def optimize (u : User W V V E) (p : Params K) (fuel : Nat) (w : W) (x : V) : Option (Res W E V) :=
  let c := u.cbBegin w x
  (iterate (body u p) fuel ⟨⟨c.1, false, []⟩, c.2, x, x, x, u.dblMax, u.zero, 0⟩).map fun r =>
    match r with
    | .stuck => .stuck
    | .ret e t => .ret e (finish u p e t)

/-! ### Control flow -/

theorem wrap_spec {u : User W V V E} (hn : 0 < u.n) (shuffle : Bool) {t : Inner W K V} (h : Sound u.n t.s)
    (hc : t.cur ≤ u.n) : Sound u.n (wrap u shuffle t).s ∧ (wrap u shuffle t).cur < u.n ∧ (wrap u shuffle t).f = t.f ∧
      (wrap u shuffle t).s.term = t.s.term := by
  unfold wrap
  split
  · refine ⟨?_, hn, rfl, ?_⟩
    · dsimp only
      split
      · exact world_sound h _
      · exact h
    · dsimp only
      split <;> rfl
  · rename_i hm
    refine ⟨h, ?_, rfl, rfl⟩
    rcases Nat.lt_or_ge t.cur u.n with h | h
    · exact h
    · exact absurd (by rw [show t.cur = u.n by omega, Nat.mod_self]) hm

theorem inner_spec {u : User W V V E} {p : Params K} (hn : 0 < u.n) (hb : 0 < p.batchSize) (inner : Nat) (r : K)
    (x0 full : V) {t₀ : Inner W K V} (h : Sound u.n t₀.s) (hf : t₀.f = 0) (hc : t₀.cur = 0) :
    ∃ q, iterate (innerStep u p inner r x0 full) (inner + 1) t₀ = some q ∧ Sound u.n q.s := by
  let I : Inner W K V → Prop := fun t => Sound u.n t.s ∧ t.cur ≤ u.n
  have hleg : ∀ c, c < u.n → 1 ≤ min p.batchSize (u.n - c) ∧ c + min p.batchSize (u.n - c) ≤ u.n := by
    intro c hc; omega
  have hbody : ∀ t t', I t → innerStep u p inner r x0 full t = .inl t' → I t' ∧ inner - t'.f < inner - t.f := by
    intro t t' ⟨h1, h2⟩ ht
    unfold innerStep at ht
    split at ht
    · rename_i hlt
      obtain ⟨w1, w2, w3, w4⟩ := wrap_spec hn p.shuffle h1 h2
      have hl := hleg _ w2
      cases ht
      refine ⟨⟨gradAt_sound (gradAt_sound (stepAt_sound w1 (by rw [w4]; exact hlt.2) _) _ hl) _ hl, hl.2⟩, ?_⟩
      dsimp only; rw [w3]; omega
    · cases ht
  have h0 : I t₀ := ⟨h, by omega⟩
  obtain ⟨q, hr⟩ := iterate_total I (fun t => inner - t.f) hbody (inner + 1) t₀ h0 (by omega)
  refine ⟨q, hr, ?_⟩
  refine iterate_inv I (fun r => Sound u.n r.s) (fun t t' h h' => (hbody t t' h h').1) ?_ (inner + 1) t₀ q h0 hr
  intro t q ⟨h1, h2⟩ ht
  unfold innerStep at ht
  split at ht
  · cases ht
  · cases ht
    exact h1

theorem body_spec {u : User W V V E} {p : Params K} (hn : 0 < u.n) (hb : 0 < p.batchSize) {t : St W E V}
    (h : Sound u.n t.s) :
    (∀ t', body u p t = .inl t' → Sound u.n t'.s ∧ t'.i = t.i + 1 ∧ limitReached p t.i = false) ∧
    (∀ r, body u p t = .inr r → ∃ e t', r = .ret e t' ∧ Sound u.n t'.s ∧ t'.i = t.i ∧
      (e ≠ .loop → ∃ s, t'.overall = (evalAll u p.batchSize s t'.x0).2)) := by
  unfold body
  split
  · exact ⟨(fun t' h => by cases h), fun r hr => by cases hr; exact ⟨.loop, t, rfl, h, rfl, fun h => absurd rfl h⟩⟩
  · rename_i hlim
    have ho := evalAll_sound (b := p.batchSize) hb h t.x0
    simp only
    split
    · exact ⟨(fun t' h => by cases h), fun r hr => by cases hr; exact ⟨.bad, _, rfl, ho, rfl, fun _ => ⟨t.s, rfl⟩⟩⟩
    split
    · exact ⟨(fun t' h => by cases h), fun r hr => by cases hr; exact ⟨.near, _, rfl, ho, rfl, fun _ => ⟨t.s, rfl⟩⟩⟩
    obtain ⟨g, hg⟩ := fullGrad_some u (gradLate u) (b := p.batchSize) hn (evalAll u p.batchSize t.s t.x0).1 t.x t.x0
    rw [hg]
    have hgs := fullGrad_sound (rest := gradLate u) hb (fun s x p h hp => gradAt_sound h x hp) ho t.x t.x0 hg
    simp only
    obtain ⟨q, hr, hrs⟩ := inner_spec (p := p) hn hb (effInner u.n p) (ratio u.n p) t.x0 g.2
      (t₀ := ⟨g.1, t.x, t.y, t.z, 0, 1, 0, 0⟩) hgs rfl rfl
    rw [hr]
    refine ⟨fun t' h => ?_, fun r hr => by cases hr⟩
    cases h
    simp only [not_or, Bool.not_eq_true] at hlim
    exact ⟨hrs, rfl, hlim.1⟩

theorem finish_sound {u : User W V V E} {p : Params K} (hb : 0 < p.batchSize) {t : St W E V} (e : Exit)
    (hs : Sound u.n t.s) : Sound u.n (finish u p e t).s ∧ (finish u p e t).i = t.i := by
  unfold finish
  by_cases hc : e = .loop ∧ p.exact = true
  · simp only [if_pos hc]; exact ⟨world_sound (evalAll_sound hb hs t.x) _, trivial⟩
  · simp only [if_neg hc]; exact ⟨world_sound hs _, trivial⟩

/-- **C106** Katyusha always returns (for positive batch size and at least one function) after at most `maxIterations`
epochs; every batch is a non-empty legal range, and no step follows a stop request. -/
theorem C106_katyusha_protocol {u : User W V V E} {p : Params K} (hn : 0 < u.n) (hb : 0 < p.batchSize)
    (hm : 0 < p.maxIterations) (w : W) (x : V) :
    ∃ e t, optimize u p (p.maxIterations + 1) w x = some (.ret e t) ∧ t.i ≤ p.maxIterations ∧
      (∀ pre post, t.s.trace = pre ++ .step :: post → Ev.stop ∉ pre) ∧
      (∀ a k, (.eval a k ∈ t.s.trace ∨ .grad a k ∈ t.s.trace) → 1 ≤ k ∧ a + k ≤ u.n) := by
  have h0 : Sound u.n (⟨(u.cbBegin w x).1, false, []⟩ : S W) := ⟨by simp, along_nil _⟩
  have hlim : ∀ i, limitReached p i = false → i < p.maxIterations := by
    intro i h
    by_contra hc
    simp [limitReached] at h
    omega
  obtain ⟨r, hr⟩ := iterate_total (step := body u p) (fun t => Sound u.n t.s) (fun t => p.maxIterations - t.i)
    (by
      intro t t' h ht
      obtain ⟨h1, h2, h3⟩ := (body_spec hn hb h).1 t' ht
      have := hlim _ h3
      exact ⟨h1, by omega⟩) (p.maxIterations + 1)
    ⟨⟨(u.cbBegin w x).1, false, []⟩, (u.cbBegin w x).2, x, x, x, u.dblMax, u.zero, 0⟩ h0 (by dsimp only; omega)
  obtain ⟨e, t, rfl, hs, hi⟩ := iterate_inv (step := body u p) (fun t => Sound u.n t.s ∧ t.i ≤ p.maxIterations)
    (fun r => ∃ e t', r = .ret e t' ∧ Sound u.n t'.s ∧ t'.i ≤ p.maxIterations)
    (by
      intro t t' ⟨h, hi⟩ ht
      obtain ⟨h1, h2, h3⟩ := (body_spec hn hb h).1 t' ht
      have := hlim _ h3
      exact ⟨h1, by omega⟩)
    (by
      intro t r ⟨h, hi⟩ ht
      obtain ⟨e, t', h1, h2, h3, -⟩ := (body_spec hn hb h).2 r ht
      exact ⟨e, t', h1, h2, by omega⟩)
    (p.maxIterations + 1) _ r ⟨h0, Nat.zero_le _⟩ hr
  obtain ⟨f1, f2⟩ := finish_sound (u := u) (p := p) hb e hs
  refine ⟨e, finish u p e t, ?_, by omega, f1.facts⟩
  unfold optimize
  simp only [hr, Option.map_some]

/-- **C106** (partial) The value Katyusha returns: at the iteration limit or on a stop request with `exactObjective`, the
full objective at the returned coordinates; on the other two exits the full objective at the internal snapshot
`iterate0`, not at the coordinates handed back. -/
theorem C106_katyusha_value_partial [AddCommMonoid E] {u : User W V V E} {p : Params K} {φ : Nat → V → E}
    {γ : Nat → V → V} {perm : W → Nat → Nat} (hu : Separable u φ γ perm) (hn : 0 < u.n) (hb : 0 < p.batchSize)
    (hend : ∀ w x, (u.cbEnd w x).2 = x) {fuel : Nat} {w : W} {x : V} {e : Exit} {t : St W E V}
    (h : optimize u p fuel w x = some (.ret e t)) :
    (e = .loop → p.exact = true → t.overall = objective u.n φ t.x) ∧
    (e ≠ .loop → t.overall = objective u.n φ t.x0) := by
  unfold optimize at h
  simp only [Option.map_eq_some_iff] at h
  obtain ⟨r, hr, h⟩ := h
  have h0 : Sound u.n (⟨(u.cbBegin w x).1, false, []⟩ : S W) := ⟨by simp, along_nil _⟩
  obtain ⟨e', t', rfl, hs, hv⟩ := iterate_inv (step := body u p) (fun t => Sound u.n t.s)
    (fun r => ∃ e t', r = .ret e t' ∧ Sound u.n t'.s ∧
      (e ≠ .loop → ∃ s, t'.overall = (evalAll u p.batchSize s t'.x0).2))
    (fun t t' h ht => ((body_spec hn hb h).1 t' ht).1)
    (fun t r h ht => by
      obtain ⟨e, t', h1, h2, -, h3⟩ := (body_spec hn hb h).2 r ht
      exact ⟨e, t', h1, h2, h3⟩) fuel _ r h0 hr
  simp only at h
  cases h
  unfold finish
  constructor
  · intro h1 h2
    simp only [if_pos (And.intro h1 h2), hend]
    exact (evalAll_value hu hb _ _).1
  · intro h1
    have hc : ¬ (e = .loop ∧ p.exact = true) := fun h => h1 h.1
    simp only [if_neg hc, hend]
    obtain ⟨s, hs⟩ := hv h1
    rw [hs]
    exact (evalAll_value hu hb _ _).1

/-! ### C110: the weighted average -/

/-- The loop of lines 91-95 in closed form: `r^k` plus `r + ... + r^k`. -/
theorem normLoop_eq (r : K) (k : Nat) : normLoop r k = r ^ k + r * ((List.range k).map fun j => r ^ j).sum := by
  induction k with
  | zero => simp [normLoop]
  | succ k ih =>
    have hs : ((List.range (k + 1)).map fun j => r ^ j).sum = 1 + r * ((List.range k).map fun j => r ^ j).sum := by
      rw [List.range_succ_eq_map, List.map_cons, List.map_map, List.sum_cons, pow_zero]
      congr 1
      rw [← List.sum_map_mul_left]
      congr 1
      apply List.map_congr_left
      intro a _
      simp only [Function.comp, pow_succ, Nat.succ_eq_add_one]; ring
    rw [normLoop, ih, hs]
    ring

/-- What one epoch leaves in `w` when every inner iterate is the same point `x`: `(1 + r + ... + r^(m-1)) x`. -/
def weights (r : K) (m : Nat) : K := ((List.range m).map fun j => r ^ j).sum

/-- **C110** (refuted) "The weights of the average that becomes the next snapshot sum to one." They do not for any number of
passes and any ratio `r ≥ 1`: the normalising constant is the sum of one power more and one power twice. -/
theorem C110_weights_refuted [IsStrictOrderedRing K] (r : K) (hr : 1 ≤ r) (m : Nat) :
    1 / normLoop r m * weights r m < 1 := by
  have hw : ∀ m, 0 ≤ weights r m := by
    intro m
    unfold weights
    apply List.sum_nonneg
    intro x hx
    simp only [List.mem_map] at hx
    obtain ⟨j, -, rfl⟩ := hx
    positivity
  have h1 : weights r m ≤ r * weights r m := le_mul_of_one_le_left (hw m) hr
  have h2 : 0 < r ^ m := by positivity
  have h3 : normLoop r m = r ^ m + r * weights r m := normLoop_eq r m
  rw [one_div, inv_mul_lt_one₀ (by rw [h3]; linarith [hw m])]
  rw [h3]; linarith

/-- **C110** (refuted) The consequence: an epoch that starts at a minimiser of every component (snapshot, `y`, `z` and
iterate all at a point where all gradients vanish) stays there, yet replaces the snapshot by the smaller multiple
`(weights / normaliser) * x`: the minimiser is not a fixed point unless it is the origin. Here `passes` is the
number of inner passes. -/
theorem C110_fixed_point_partial [AddCommMonoid E] {u : User W V V E} {p : Params K} {φ : Nat → V → E} {γ : Nat → V → V}
    {perm : W → Nat → Nat} (hu : Separable u φ γ perm) (hp : p.proximal = false)
    (hstep : ∀ w x, (u.cbStep w x).2.1 = x) {xs : V} (hg : ∀ j, γ j xs = 0) (inner fuel : Nat) (r : K) (s : S W)
    {q : Inner W K V} (hr : iterate (innerStep u p inner r xs 0) fuel ⟨s, xs, xs, xs, 0, 1, 0, 0⟩ = some q) :
    q.x = xs ∧ ∃ passes, q.w = weights r passes • xs ∧ (q.s.term = false → inner ≤ q.f) := by
  let I : Inner W K V → Prop := fun t => t.x = xs ∧ t.y = xs ∧ t.z = xs ∧ ∃ m, t.w = weights r m • xs ∧ t.cw = r ^ m
  have hwrap : ∀ t : Inner W K V, (wrap u p.shuffle t).y = t.y ∧ (wrap u p.shuffle t).z = t.z ∧
      (wrap u p.shuffle t).w = t.w ∧ (wrap u p.shuffle t).cw = t.cw := by
    intro t
    unfold wrap
    split <;> exact ⟨rfl, rfl, rfl, rfl⟩
  have hgr : ∀ s q, (gradAt u s xs q).2 = 0 := by
    intro s q
    rw [(gradAt_rest hu s xs q).1]
    simp [hg]
  refine iterate_inv I (fun q => q.x = xs ∧ ∃ m, q.w = weights r m • xs ∧ (q.s.term = false → inner ≤ q.f)) ?_ ?_ fuel _ q ?_ hr
  · rintro t t' ⟨i1, i2, i3, m, i4, i5⟩ h
    unfold innerStep at h
    split at h
    · obtain ⟨w1, w2, w3, w4⟩ := hwrap t
      have hx : ∀ s : S W, (stepAt u s (p.tau1 • (wrap u p.shuffle t).z + (1 / 2 : K) • xs +
          (1 - p.tau1 - 1 / 2) • (wrap u p.shuffle t).y)).2 = xs := by
        intro s
        have : (stepAt u s (p.tau1 • (wrap u p.shuffle t).z + (1 / 2 : K) • xs +
          (1 - p.tau1 - 1 / 2) • (wrap u p.shuffle t).y)).2 = p.tau1 • (wrap u p.shuffle t).z + (1 / 2 : K) • xs +
          (1 - p.tau1 - 1 / 2) • (wrap u p.shuffle t).y := hstep _ _
        rw [this, w1, w2, i2, i3, ← add_smul, ← add_smul]
        rw [show p.tau1 + 1 / 2 + (1 - p.tau1 - 1 / 2) = 1 by ring, one_smul]
      cases h
      refine ⟨hx _, ?_, ?_, m + 1, ?_, ?_⟩
      · simp only [mirror, hx, hgr, hp]
        simp [w2, i3]
      · simp only [mirror, hx, hgr, hp]
        simp [w2, i3]
      · simp only [hx, w3, w4, i4, i5]
        rw [← add_smul]
        congr 1
        rw [weights, weights, List.range_succ, List.map_append, List.sum_append]
        simp
      · simp only [w4, i5, pow_succ]
    · cases h
  · rintro t q ⟨i1, i2, i3, m, i4, i5⟩ h
    unfold innerStep at h
    split at h
    · cases h
    · rename_i hc
      cases h
      refine ⟨i1, m, i4, fun ht => ?_⟩
      by_contra hcc
      exact hc ⟨by omega, ht⟩
  · exact ⟨rfl, rfl, rfl, 0, by simp [weights], by simp⟩

/-! ### Concrete runs -/

/-- One function `(x - 1)^2 / 2`, gradient `x - 1`. -/
def shifted : User Unit ℚ ℚ ℚ where
  n := 1
  evaluate := fun w x _ k => (w, k * ((x - 1) ^ 2 / 2))
  gradient := fun w x _ k => (w, k * (x - 1))
  shuffle := fun w => w
  cbBegin := fun w x => (w, x)
  cbEval := fun w _ _ => (w, false)
  cbGrad := fun w _ g => (w, g, false)
  cbStep := fun w x => (w, x, false)
  cbEnd := fun w x => (w, x)
  addE := fun a b => a + b
  zero := 0
  isBad := fun _ => false
  near := fun a b => decide (|a - b| < 1 / 100000)
  dblMax := 10 ^ 308
  addG := fun a b => a + b
  divG := fun g n => g / n

theorem shiftedSep : Separable shifted (fun _ x => (x - 1) ^ 2 / 2) (fun _ x => x - 1) (fun _ i => i) := by
  refine ⟨fun _ _ => rfl, rfl, fun _ _ => rfl, ?_, ?_, fun _ _ _ => rfl, fun _ _ _ _ => rfl, fun _ _ _ _ => rfl,
    fun _ _ _ => rfl, fun _ _ _ => rfl, fun _ => by simp⟩ <;> intro w x a k <;> simp [shifted]

/-- `convexity = 1`, `lipschitz = 1`, so `tau1 = min(1/2, sqrt(1/3)) = 1/2`. -/
def params (maxIterations inner : Nat) (exact : Bool) : Params ℚ where
  convexity := 1
  lipschitz := 1
  batchSize := 1
  maxIterations := maxIterations
  innerIterations := inner
  shuffle := true
  exact := exact
  proximal := false
  tau1 := 1 / 2

def outcome : Option (Res Unit ℚ ℚ) → Option (Exit × ℚ × ℚ)
  | some (.ret e t) => some (e, t.x, t.overall)
  | _ => none

/-- the hypotheses of the C106 and C110 theorems are met by this run -/
example : (iterate (innerStep shifted (params 2 1 true) 1 (ratio 1 (params 2 1 true)) 1 0) 5
    ⟨⟨(), false, []⟩, 1, 1, 1, 0, 1, 0, 0⟩).isSome = true ∧ (outcome (optimize shifted (params 2 1 true) 5 () 1)).isSome := by
  constructor <;> decide +kernel

/-- **C110** (refuted) "Started at the minimiser, Katyusha stays there": after two epochs from the minimiser 1 of
`(x - 1)^2 / 2` the coordinates returned differ from 1. -/
theorem C110_minimiser_not_fixed_refuted :
    ¬ ∀ m inner, ∀ r, outcome (optimize shifted (params m inner true) 5 () 1) = some r → r.2.1 = 1 := by
  intro h
  have hv : ((outcome (optimize shifted (params 2 1 true) 5 () 1)).map fun r => decide (r.2.1 = 1)) = some false := by
    decide +kernel
  rw [Option.map_eq_some_iff] at hv
  obtain ⟨r, hr, hv⟩ := hv
  have := h 2 1 r hr
  simp [this] at hv

/-- **C106** (refuted) "The value returned is the objective at the coordinates returned", on the tolerance exit: `near`
ends the run with the objective of the snapshot. -/
theorem C106_katyusha_value_refuted :
    ¬ ∀ (u : User Unit ℚ ℚ ℚ), u = { shifted with near := fun a b => decide (|a - b| < 1) } →
      ∀ m inner x, ∀ r, outcome (optimize u (params m inner true) 5 () x) = some r →
        r.2.2 = (r.2.1 - 1) ^ 2 / 2 := by
  intro h
  have hv : ((outcome (optimize { shifted with near := fun a b => decide (|a - b| < 1) } (params 2 3 true) 5 () 0)).map
      fun r => decide (r.2.2 = (r.2.1 - 1) ^ 2 / 2)) = some false := by decide +kernel
  rw [Option.map_eq_some_iff] at hv
  obtain ⟨r, hr, hv⟩ := hv
  have := h _ rfl 2 3 0 r hr
  simp [this] at hv

/-! ### C111: the full gradient -/

/-- **C111** (partial) In an epoch that starts with the iterate equal to the snapshot (the first one when
`BeginOptimization` leaves the iterate alone) the full gradient is the average of all gradients at the snapshot,
whatever the batch size; so it is when the batch covers all functions and the iterate is the snapshot. -/
theorem C111_full_gradient_partial [AddCommMonoid E] {u : User W V V E} {φ : Nat → V → E} {γ : Nat → V → V}
    {perm : W → Nat → Nat} (hu : Separable u φ γ perm) {b : Nat} (hb : 0 < b) (s : S W) (x0 : V)
    {g : S W × V} (hg : fullGrad u (gradLate u) b s x0 x0 = some g) :
    g.2 = u.divG (objective u.n γ x0) u.n :=
  (fullGrad_average hu hb (gradLate_rest hu) hg).1

/-- Two functions `x^2 / 2` and `(x - 2)^2 / 2`. -/
def pair : User Unit ℚ ℚ ℚ :=
  { shifted with
    n := 2
    evaluate := fun w x a k => (w, ((List.range' a k).map fun i : Nat => (x - 2 * i) ^ 2 / 2).sum)
    gradient := fun w x a k => (w, ((List.range' a k).map fun i : Nat => x - 2 * i).sum) }

example : (fullGrad pair (gradLate pair) 1 ⟨(), false, []⟩ 3 3).map Prod.snd = some 2 := by decide +kernel

/-- **C111** (refuted) "Every epoch uses the full gradient at the snapshot": in the second epoch the iterate differs from
the snapshot and the first batch's gradient is taken at the iterate. -/
theorem C111_full_gradient_refuted :
    ¬ ∀ (t₁ : St Unit ℚ ℚ), body pair (params 5 2 true) ⟨⟨(), false, []⟩, 0, 0, 0, 0, 10 ^ 308, 0, 0⟩ = .inl t₁ →
      ∀ g, fullGrad pair (gradLate pair) 1 t₁.s t₁.x t₁.x0 = some g →
        g.2 = (t₁.x0 + (t₁.x0 - 2)) / 2 := by
  intro h
  have hv : (match body pair (params 5 2 true) ⟨⟨(), false, []⟩, 0, 0, 0, 0, 10 ^ 308, 0, 0⟩ with
    | .inl t₁ => (fullGrad pair (gradLate pair) 1 t₁.s t₁.x t₁.x0).map fun g => decide (g.2 = (t₁.x0 + (t₁.x0 - 2)) / 2)
    | .inr _ => none) = some false := by decide +kernel
  split at hv
  · rename_i t₁ h1
    rw [Option.map_eq_some_iff] at hv
    obtain ⟨g, hg, hv⟩ := hv
    have := h t₁ h1 g hg
    simp [this] at hv
  · cases hv

end Ens.Vr.Katyusha
