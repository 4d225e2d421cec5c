import Verif.BigBatch.Props
import Verif.Analysis.Smooth
import Mathlib.Analysis.SpecificLimits.Basic
import Mathlib.Tactic.NormNum
import Mathlib.Tactic.Positivity
import Mathlib.Tactic.FieldSimp

/-
The step size policies of big-batch SGD over the reals:
`BacktrackingLineSearch::Policy::Update` (/repo/include/ensmallen_bits/bigbatch_sgd/backtracking_line_search.hpp, lines 83-116) and
`AdaptiveStepsize::Policy` (/repo/include/ensmallen_bits/bigbatch_sgd/adaptive_stepsize.hpp, lines 92-227), and the variance estimate of
`BigBatchSGD::Optimize` (bigbatch_sgd_impl.hpp, lines 129-145). Rounding is not modelled: in particular a step size never underflows
to 0, which in the code eventually ends every search.
-/

namespace Ens.BigBatch

variable {V : Type} [NormedAddCommGroup V] [InnerProductSpace ℝ V]

/-- The loop of both searches (backtracking_line_search.hpp:106-115, adaptive_stepsize.hpp:217-226): `F` is the objective on the batch,
`c` the search parameter, `shrink` the factor (1/2, or `backtrackStepSize`), `gB` the value passed as `gradientNorm`. `none`: the fuel
does not suffice. -/
noncomputable def backtrack (F : V → ℝ) (c shrink : ℝ) (x g : V) (gB : ℝ) : Nat → ℝ → Option ℝ
  | 0, _ => none
  | fuel + 1, s =>
    open Classical in
    if F (x - s • g) > F x - c * s * gB then backtrack F c shrink x g gB fuel (s * shrink) else some s

/-- `BacktrackingLineSearch::Policy::Update` (lines 94-115). -/
noncomputable def lineSearch (F : V → ℝ) (c : ℝ) (x g : V) (gB : ℝ) (reset : Bool) (fuel : Nat) (s : ℝ) : Option ℝ :=
  backtrack F c (1 / 2) x g gB fuel (if reset then s * 2 else s)

theorem backtrack_spec (F : V → ℝ) (c shrink : ℝ) (x g : V) (gB : ℝ) :
    ∀ (fuel : Nat) (s s' : ℝ), backtrack F c shrink x g gB fuel s = some s' →
      F (x - s' • g) ≤ F x - c * s' * gB ∧
      ∃ k, s' = s * shrink ^ k ∧ ∀ j < k, F x - c * (s * shrink ^ j) * gB < F (x - (s * shrink ^ j) • g) := by
  intro fuel
  induction fuel with
  | zero => intro s s' h; cases h
  | succ fuel ih =>
    intro s s' h
    rw [backtrack] at h
    split at h
    · rename_i hgt
      obtain ⟨h1, k, h2, h3⟩ := ih _ _ h
      refine ⟨h1, k + 1, by rw [h2, pow_succ]; ring, fun j hj => ?_⟩
      cases j with
      | zero => simpa using hgt
      | succ j =>
        have := h3 j (by omega)
        rw [show s * shrink ^ (j + 1) = s * shrink * shrink ^ j by rw [pow_succ]; ring]
        exact this
    · rename_i hgt
      cases h
      exact ⟨not_lt.1 hgt, 0, by simp, fun j hj => by omega⟩

/-- **C63** (Armijo). Whenever the line search returns, the step size satisfies the sufficient decrease condition on the batch, is the
starting one (doubled if the batch has just been enlarged) divided by a power of two, and all larger step sizes tried violate the condition. -/
theorem C63_armijo (F : V → ℝ) (c : ℝ) (x g : V) (gB : ℝ) (reset : Bool) (fuel : Nat) (s s' : ℝ)
    (h : lineSearch F c x g gB reset fuel s = some s') :
    F (x - s' • g) ≤ F x - c * s' * gB ∧
    ∃ k : ℕ, s' = (if reset then s * 2 else s) / 2 ^ k ∧
      ∀ j < k, F x - c * ((if reset then s * 2 else s) / 2 ^ j) * gB < F (x - ((if reset then s * 2 else s) / 2 ^ j) • g) := by
  obtain ⟨h1, k, h2, h3⟩ := backtrack_spec F c (1 / 2) x g gB fuel _ s' h
  have e : ∀ (a : ℝ) (j : ℕ), a * (1 / 2) ^ j = a / 2 ^ j := fun a j => by rw [div_pow, one_pow, mul_one_div]
  refine ⟨h1, k, by rw [h2, e], fun j hj => ?_⟩
  have := h3 j hj
  rwa [e] at this

/-- A step size that is small enough is accepted. -/
theorem accepts {F : V → ℝ} {G : V → V} {L : ℝ} (hF : LSmooth F G L) (hL : 0 < L) {c : ℝ} (hc : 0 ≤ c) (x : V) {gB : ℝ}
    (hgB : gB ≤ ‖G x‖ ^ 2) {s : ℝ} (hs : 0 ≤ s) (hsL : s ≤ 2 * (1 - c) / L) :
    F (x - s • G x) ≤ F x - c * s * gB := by
  have h := hF.descent x (x - s • G x)
  rw [sub_sub_cancel_left, inner_neg_right, inner_smul_right, real_inner_self_eq_norm_sq, norm_neg, norm_smul, Real.norm_of_nonneg hs,
    mul_pow] at h
  have h1 : L * s ≤ 2 * (1 - c) := by rw [le_div_iff₀ hL] at hsL; linarith
  have h2 : s * ‖G x‖ ^ 2 * (L * s) ≤ s * ‖G x‖ ^ 2 * (2 * (1 - c)) := mul_le_mul_of_nonneg_left h1 (by positivity)
  have h3 : c * s * gB ≤ c * s * ‖G x‖ ^ 2 := mul_le_mul_of_nonneg_left hgB (by positivity)
  nlinarith

/-- **C63** (the search ends). If the batch objective has an `L`-Lipschitz gradient and the direction is that gradient (as for a batch that
has not been enlarged, `C146_batch_gradient_partial`), then a search with parameter `0 ≤ c < 1` and a positive starting step ends, and the
step size it finds is the starting one or larger than `shrink * 2 (1 - c) / L`. -/
theorem C63_search_ends {F : V → ℝ} {G : V → V} {L : ℝ} (hF : LSmooth F G L) (hL : 0 < L) (c : ℝ) (hc : 0 ≤ c) (hc1 : c < 1)
    (shrink : ℝ) (hsh : 0 < shrink) (hsh1 : shrink < 1) (x : V) (gB : ℝ) (hgB : gB ≤ ‖G x‖ ^ 2) (s : ℝ) (hs : 0 < s) :
    ∃ fuel s', backtrack F c shrink x (G x) gB fuel s = some s' ∧ 0 < s' ∧ (s' = s ∨ shrink * (2 * (1 - c) / L) < s') := by
  have hpos : 0 < 2 * (1 - c) / L := div_pos (by linarith) hL
  obtain ⟨n, hn⟩ := exists_pow_lt_of_lt_one (div_pos hpos hs) hsh1
  have hn' : s * shrink ^ n ≤ 2 * (1 - c) / L := by
    rw [lt_div_iff₀ hs] at hn; linarith
  have key : ∀ (n : ℕ) (s : ℝ), 0 < s → s * shrink ^ n ≤ 2 * (1 - c) / L →
      ∃ s', backtrack F c shrink x (G x) gB (n + 1) s = some s' ∧ 0 < s' ∧ (s' = s ∨ shrink * (2 * (1 - c) / L) < s') := by
    intro n
    induction n with
    | zero =>
      intro s hs h
      rw [pow_zero, mul_one] at h
      rw [backtrack, if_neg (not_lt.2 (accepts hF hL hc x hgB hs.le h))]
      exact ⟨s, rfl, hs, Or.inl rfl⟩
    | succ n ih =>
      intro s hs h
      rw [backtrack]
      split
      · rename_i hgt
        obtain ⟨s', h1, h2, h3⟩ := ih (s * shrink) (mul_pos hs hsh) (by rw [pow_succ] at h; linarith [h])
        refine ⟨s', h1, h2, Or.inr ?_⟩
        rcases h3 with rfl | h3
        · have hlarge : 2 * (1 - c) / L < s := by
            by_contra hle
            exact absurd hgt (not_lt.2 (accepts hF hL hc x hgB hs.le (not_lt.1 hle)))
          nlinarith
        · exact h3
      · exact ⟨s, rfl, hs, Or.inl rfl⟩
  obtain ⟨s', h⟩ := key n s hs hn'
  exact ⟨n + 1, s', h⟩

/-! ### Moves of a run decrease the batch objective -/

section Run
variable {W : Type}

/-- The step size policy ends with one of the searches: the move of line 202 uses the step size found, at the coordinates and with the
gradient the policy leaves (for `BacktrackingLineSearch` those given to it, for `AdaptiveStepsize` new ones, lines 107 and 124-144). -/
def EndsWithSearch (env : Env W V V ℝ ℝ) (F : Nat → Nat → V → ℝ) (c : ℝ) : Prop :=
  ∀ w x g gB vB cur B eff reset, ∃ (s s₀ shrink gB' : ℝ) (fuel : Nat), 0 ≤ s ∧ 0 ≤ gB' ∧
    backtrack (F cur eff) c shrink (env.policy w x g gB vB cur B eff reset).2.1 (env.policy w x g gB vB cur B eff reset).2.2 gB' fuel s₀ =
      some s ∧
    env.step (env.policy w x g gB vB cur B eff reset).1 (env.policy w x g gB vB cur B eff reset).2.1
      (env.policy w x g gB vB cur B eff reset).2.2 =
      (env.policy w x g gB vB cur B eff reset).2.1 - s • (env.policy w x g gB vB cur B eff reset).2.2

/-- A move does not increase the objective of the functions it is based on. -/
def _root_.Ens.BigBatch.Ev.decr (F : Nat → Nat → V → ℝ) : Ev V ℝ → Prop
  | .step x y b n => F b n y ≤ F b n x
  | _ => True

theorem Grads.decr {x : V} {l t b} (h : Grads (E := ℝ) x l t b) (F : Nat → Nat → V → ℝ) : ∀ ev ∈ t, ev.decr F := by
  induction h with
  | nil => intro ev h; cases h
  | snoc j c h ih =>
    intro ev hev
    rcases List.mem_append.1 hev with hev | hev
    · exact ih ev hev
    · simp only [List.mem_cons, List.mem_nil_iff, or_false] at hev
      rcases hev with rfl | rfl <;> exact trivial

theorem decr_append {F : Nat → Nat → V → ℝ} {t t' : List (Ev V ℝ)} (h : ∀ ev ∈ t, ev.decr F) (h' : ∀ ev ∈ t', ev.decr F) :
    ∀ ev ∈ t ++ t', ev.decr F := fun ev hev => (List.mem_append.1 hev).elim (h ev) (h' ev)

theorem decr_one {F : Nat → Nat → V → ℝ} {t : List (Ev V ℝ)} {e : Ev V ℝ} (h : ∀ ev ∈ t, ev.decr F) (he : e.decr F) :
    ∀ ev ∈ t ++ [e], ev.decr F := decr_append h fun ev hev => by rw [List.mem_singleton.1 hev]; exact he

theorem epochEnd_decr (env : Env W V V ℝ ℝ) (F : Nat → Nat → V → ℝ) (p : Params) (s : St W V ℝ) (h : ∀ ev ∈ s.trace, ev.decr F) :
    (∃ s', epochEnd env p s = .cont s' ∧ (∀ ev ∈ s'.trace, ev.decr F) ∧ s'.batchSize = s.batchSize) ∨
    (∃ e s', epochEnd env p s = .ret e s' ∧ ∀ ev ∈ s'.trace, ev.decr F) := by
  unfold epochEnd
  dsimp only
  split
  · exact Or.inr ⟨_, _, rfl, decr_one h trivial⟩
  split
  · exact Or.inr ⟨_, _, rfl, decr_one h trivial⟩
  refine Or.inl ⟨_, rfl, ?_, by split <;> split <;> rfl⟩
  split <;> split
  · exact decr_one (decr_one (decr_one h trivial) trivial) trivial
  · exact decr_one (decr_one (decr_one h trivial) trivial) trivial
  · exact decr_one (decr_one h trivial) trivial
  · exact decr_one (decr_one h trivial) trivial

theorem body_decr (env : Env W V V ℝ ℝ) (F : Nat → Nat → V → ℝ) (c : ℝ) (hc : 0 ≤ c) (hE : EndsWithSearch env F c) (p : Params)
    (s : St W V ℝ) (hB : 0 < s.batchSize) (h : ∀ ev ∈ s.trace, ev.decr F) (r : Bool × BodyRes W V ℝ) (hr : body env p s = some r) :
    (∃ s', r.2 = .cont s' ∧ (∀ ev ∈ s'.trace, ev.decr F) ∧ 0 < s'.batchSize) ∨
    (∃ e s', r.2 = .ret e s' ∧ ∀ ev ∈ s'.trace, ev.decr F) ∨ r.2 = .ub := by
  obtain ⟨b, l, h1, _, h3, _, _, t, c', h6, h7, _⟩ := estimate_spec env p s hB
  have hBb : 0 < b.batchSize := by have := (h3.facts hB).1; omega
  have ht : ∀ ev ∈ b.trace, ev.decr F := by rw [h7]; exact decr_append h (h6.decr F)
  have hstep : ∀ ev ∈ (stepPart env s b).trace, ev.decr F := by
    refine decr_append ht fun ev hev => ?_
    simp only [List.mem_cons, List.mem_nil_iff, or_false] at hev
    rcases hev with rfl | rfl | rfl | rfl | rfl
    · exact trivial
    · obtain ⟨st, s₀, shrink, gB', fuel, e1, e2, e3, e4⟩ := hE b.w s.x b.grad b.gB b.vB s.cur b.batchSize b.eff b.reset
      show F s.cur b.eff (env.step _ _ _) ≤ F s.cur b.eff _
      rw [e4]
      have := (backtrack_spec _ _ _ _ _ _ _ _ _ e3).1
      have : 0 ≤ c * st * gB' := by positivity
      linarith
    · exact trivial
    · exact trivial
    · exact trivial
  unfold body at hr
  rw [h1] at hr
  dsimp only at hr
  split at hr
  · cases hr
    exact Or.inl ⟨_, rfl, ht, hBb⟩
  split at hr
  · cases hr; exact Or.inr (Or.inr rfl)
  split at hr
  · cases hr
    rcases epochEnd_decr env F p (stepPart env s b) hstep with ⟨s', g1, g2, g3⟩ | ⟨e, s', g1, g2⟩
    · exact Or.inl ⟨s', g1, g2, by rw [g3]; exact hBb⟩
    · exact Or.inr (Or.inl ⟨e, s', g1, g2⟩)
  · cases hr
    exact Or.inl ⟨_, rfl, hstep, hBb⟩

theorem loop_decr (env : Env W V V ℝ ℝ) (F : Nat → Nat → V → ℝ) (c : ℝ) (hc : 0 ≤ c) (hE : EndsWithSearch env F c) (p : Params) :
    ∀ (fuel : Nat) (s : St W V ℝ), 0 < s.batchSize → (∀ ev ∈ s.trace, ev.decr F) → ∀ e s', loop env p fuel s = .done e s' →
      ∀ ev ∈ s'.trace, ev.decr F := by
  intro fuel
  induction fuel with
  | zero => intro s _ _ e s' h; cases h
  | succ fuel ih =>
    intro s hB hs e s' h
    rw [loop] at h
    split at h
    · cases hb : body env p s with
      | none => rw [hb] at h; cases h
      | some r =>
        rw [hb] at h
        have hf := body_decr env F c hc hE p s hB hs r hb
        obtain ⟨br, res⟩ := r
        rcases hf with ⟨s₁, g1, g2, g3⟩ | ⟨e₁, s₁, g1, g2⟩ | g1
        · dsimp only at g1; subst g1
          cases br
          · exact ih s₁ g3 g2 e s' h
          · cases h; exact g2
        · dsimp only at g1; subst g1
          cases br <;> (cases h; exact g2)
        · dsimp only at g1; subst g1
          cases br <;> cases h
    · cases h; exact hs

theorem exactLoop_decr (env : Env W V V ℝ ℝ) (F : Nat → Nat → V → ℝ) (p : Params) :
    ∀ (fuel i : Nat) (s s' : St W V ℝ), (∀ ev ∈ s.trace, ev.decr F) → exactLoop env p fuel i s = some s' → ∀ ev ∈ s'.trace, ev.decr F := by
  intro fuel
  induction fuel with
  | zero =>
    intro i s s' hs h
    rw [exactLoop] at h
    split at h
    · cases h
    · cases h; exact hs
  | succ fuel ih =>
    intro i s s' hs h
    rw [exactLoop] at h
    split at h
    · refine ih _ _ _ ?_ h
      refine decr_append hs fun ev hev => ?_
      simp only [List.mem_cons, List.mem_nil_iff, or_false] at hev
      rcases hev with rfl | rfl <;> exact trivial
    · cases h; exact hs

/-- **C63** (run). In a run of big-batch SGD whose policy ends with a search, no move (line 202) increases the objective of the functions
it is based on. -/
theorem C63_moves_decrease (env : Env W V V ℝ ℝ) (F : Nat → Nat → V → ℝ) (c : ℝ) (hc : 0 ≤ c) (hE : EndsWithSearch env F c) (p : Params)
    (fuel B : Nat) (hB : 0 < B) (w : W) (x : V) (r : Result V ℝ) (hr : optimize env p fuel B w x = some r)
    (xa y : V) (b n : Nat) (hm : Ev.step xa y b n ∈ r.trace) : F b n y ≤ F b n xa := by
  have hstart : ∀ ev ∈ (start env B w x).trace, ev.decr F := fun ev hev => by rw [List.mem_singleton.1 hev]; exact trivial
  have hl := loop_decr env F c hc hE p fuel (start env B w x) hB hstart
  have key : ∃ (e : Exit) (s : St W V ℝ), r = finish e s ∧ ∀ ev ∈ s.trace, ev.decr F := by
    unfold optimize at hr
    generalize hq : loop env p fuel (start env B w x) = q at hr hl
    cases q with
    | ub => cases hr
    | running s => cases hr
    | done e s =>
      have hs := hl e s rfl
      cases e with
      | bad => cases hr; exact ⟨_, _, rfl, hs⟩
      | tol => cases hr; exact ⟨_, _, rfl, hs⟩
      | loop =>
        dsimp only at hr
        split at hr
        · obtain ⟨s', h1, h2⟩ := Option.map_eq_some_iff.1 hr
          exact ⟨_, s', h2.symm, exactLoop_decr env F p _ _ { s with overall := env.zero } _ hs h1⟩
        · cases hr; exact ⟨_, _, rfl, hs⟩
  obtain ⟨e, s, rfl, hs⟩ := key
  exact decr_one hs (e := .endOpt s.x) trivial _ hm

end Run

/-! ### The variance estimate -/

/-- **C147** (batches of two). With the arithmetic of the code over the reals, the variance estimate of a batch of at most two functions
is 0, whatever the gradients are: the running mean is divided by the number of samples BEFORE the new one (line 137), so for the second
sample it is that sample itself. -/
theorem C147_two_samples {W M : Type} (env : Env W M V ℝ ℝ) (hmean : ∀ d g k, env.mean d g k = d + (1 / (k : ℝ)) • (g - d))
    (hvar : ∀ v g d d', env.addVar v g d d' = v + ‖g - d‖ * ‖g - d'‖) (hzero : env.zeroR = 0) (p : Params) (s : St W M ℝ)
    (he : effBatch p s ≤ 2) (hn : ∀ gB vB n, env.noisy gB vB n = false) (b : Batch W M V ℝ ℝ) (hb : estimate env p s = some b) :
    b.vB = 0 := by
  have key : ∀ b₀ : Batch W M V ℝ ℝ, b₀.k = 1 → b₀.vB = 0 →
      (firstLoop env s.x (effBatch p s - 1) (s.cur + 1) b₀).vB = 0 := by
    intro b₀ hk hv
    have : effBatch p s - 1 = 0 ∨ effBatch p s - 1 = 1 := by omega
    rcases this with h | h
    · rw [h]; exact hv
    · rw [h]
      show env.addVar b₀.vB _ b₀.delta1 (env.mean b₀.delta1 _ b₀.k) = 0
      rw [hvar, hmean, hk, hv]
      simp
  unfold estimate at hb
  dsimp only at hb
  split at hb
  · rw [grow, hn] at hb
    simp only [Bool.false_eq_true, if_false] at hb
    injection hb with hb
    rw [← hb]
    exact key _ rfl hzero
  · injection hb with hb
    rw [← hb]
    exact key _ rfl hzero

/-- Two functions on ℝ with gradients 0 and 1. -/
noncomputable def twoEnv : Env Unit ℝ ℝ ℝ ℝ where
  gradient := fun _ _ j => ((), j)
  cbGradient := fun _ _ g => ((), g, false)
  policy := fun _ x g _ _ _ _ _ _ => ((), x, g)
  step := fun _ x g => x - g
  evaluate := fun _ _ _ _ => ((), 0)
  cbBegin := fun _ x => ((), x)
  cbStep := fun _ x => ((), x, false)
  cbEvaluate := fun _ _ _ => ((), false)
  cbEndEpoch := fun _ _ _ _ => ((), false)
  cbBeginEpoch := fun _ _ _ _ => ((), false)
  shuffle := id
  addG := fun a b => a + b
  mean := fun d g k => d + (1 / (k : ℝ)) • (g - d)
  addVar := fun v g d d' => v + ‖g - d‖ * ‖g - d'‖
  zeroR := 0
  sqNorm := fun g n => ‖g / n‖ ^ 2
  noisy := fun _ _ _ => false
  delta := fun _ => 0
  add := fun a b => a + b
  zero := 0
  divN := fun a _ => a
  dblMax := 1000
  isBad := fun _ => false
  isClose := fun _ _ => false

/-- **C147** (refuted). `vB` is not the sum of the squared distances of the gradients from their mean, that is `batchSize - 1` times
the sample variance: for the gradients 0 and 1 that sum is 1/2, `vB` is 0. -/
theorem C147_variance_refuted :
    ¬ ∀ (env : Env Unit ℝ ℝ ℝ ℝ) (g : ℕ → ℝ), (∀ w x j, (env.gradient w x j).2 = g j) → (∀ w x v, (env.cbGradient w x v).2.1 = v) →
      (∀ d g k, env.mean d g k = d + (1 / (k : ℝ)) • (g - d)) → (∀ v g d d', env.addVar v g d d' = v + ‖g - d‖ * ‖g - d'‖) →
      env.zeroR = 0 → (∀ gB vB n, env.noisy gB vB n = false) →
      ∀ (p : Params) (s : St Unit ℝ ℝ) (b : Batch Unit ℝ ℝ ℝ ℝ), estimate env p s = some b → 0 < b.eff →
        b.vB = ∑ j ∈ Finset.range b.eff, (g (s.cur + j) - (∑ i ∈ Finset.range b.eff, g (s.cur + i)) / b.eff) ^ 2 := by
  intro h
  obtain ⟨b, l, h1, h2, _, h4, _⟩ := estimate_spec twoEnv ⟨2, 10, false, false⟩ (start twoEnv 2 () (0 : ℝ)) (by decide)
  have hv := C147_two_samples twoEnv (fun _ _ _ => rfl) (fun _ _ _ _ => rfl) rfl _ _ (by decide) (fun _ _ _ => rfl) b h1
  have heff : effBatch ⟨2, 10, false, false⟩ (start twoEnv 2 () (0 : ℝ)) = 2 := by rfl
  have hbs : b.batchSize = 2 ∧ b.eff = 2 := by
    unfold estimate at h1
    dsimp only at h1
    rw [heff, if_pos (by rfl), grow] at h1
    simp only [show ∀ gB vB n, twoEnv.noisy gB vB n = false from fun _ _ _ => rfl, Bool.false_eq_true, if_false] at h1
    injection h1 with h1
    rw [← h1]
    exact ⟨rfl, rfl⟩
  have := h twoEnv (fun j => j) (fun _ _ _ => rfl) (fun _ _ _ => rfl) (fun _ _ _ => rfl) (fun _ _ _ _ => rfl) rfl (fun _ _ _ => rfl) _ _ b h1
    (by omega)
  rw [hv, hbs.2] at this
  simp [Finset.sum_range_succ, start] at this
  norm_num at this

/-! ### The adaptive step size -/

/-- Gradients of a batch added up (adaptive_stepsize.hpp:124, 131, 139), `n ≥ 1`. -/
def sumGrad (G : ℕ → V → V) (off n : ℕ) (x : V) : V := ((List.range' off n).map fun j => G j x).sum

/-- The variance estimate (adaptive_stepsize.hpp:127-143) from the gradients of a batch. -/
noncomputable def varLoop : List V → ℕ → V → ℝ → ℝ
  | [], _, _, v => v
  | g :: rest, k, d, v =>
    let d' := d + (1 / (k : ℝ)) • (g - d)
    varLoop rest (k + 1) d' (v + ‖g - d‖ * ‖g - d'‖)

noncomputable def batchVar (G : ℕ → V → V) (off n : ℕ) (x : V) : ℝ :=
  varLoop ((List.range' (off + 1) (n - 1)).map fun j => G j x) 1 (G off x) 0

/-- `AdaptiveStepsize::Policy::Update` (adaptive_stepsize.hpp:92-182) on column vectors, for `n = backtrackingBatchSize ≥ 1`, batch size `B`,
`N` functions with gradients `G`, batch objective `F`, previous coordinates `prev` (absent before the first call). Result: step size,
coordinates, gradient, its norm, previous coordinates. `none`: a search has not ended. -/
noncomputable def adaptive (F : V → ℝ) (G : ℕ → V → V) (N : ℕ) (c shrink : ℝ) (off B n fuel : ℕ) (s : ℝ) (x g : V) (gB : ℝ)
    (prev : Option V) : Option (ℝ × V × V × ℝ × Option V) :=
  match backtrack F c shrink x g gB fuel s with
  | none => none
  | some s₁ =>
    let x₁ := x - s₁ • g
    let prev₀ := prev.getD 0
    let g₁ := sumGrad G off n x₁
    let gp := sumGrad G off n prev₀
    let vB := batchVar G off n x₁
    let gB₁ := ‖(1 / (n : ℝ)) • g₁‖ ^ 2
    let v := inner ℝ (x₁ - prev₀) (g₁ - gp) / ‖x₁ - prev₀‖ ^ 2
    open Classical in
    let decay : ℝ :=
      if gB₁ ≠ 0 ∧ vB ≠ 0 ∧ B ≠ 0 then
        if B < N then (1 - (1 / ((B : ℝ) - 1) * vB) / (B * gB₁)) / v else 1 / v
      else 0
    let s₂ := s₁ * (1 - (B : ℝ) / N) + decay * ((B : ℝ) / N)
    match backtrack F c shrink x₁ g₁ gB₁ fuel s₂ with
    | none => none
    | some s₃ => some (s₃, x₁, g₁, gB₁, some x₁)

/-- **C148** (what the adaptive policy leaves). When it returns, the coordinates have already been moved once (line 107), by a step size that
satisfies the sufficient decrease condition; the step size left satisfies the condition at the new coordinates with the new gradient. -/
theorem C148_two_moves (F : V → ℝ) (G : ℕ → V → V) (N : ℕ) (c shrink : ℝ) (off B n fuel : ℕ) (s : ℝ) (x g : V) (gB : ℝ) (prev : Option V)
    (s₃ : ℝ) (x₁ g₁ : V) (gB₁ : ℝ) (prev' : Option V)
    (h : adaptive F G N c shrink off B n fuel s x g gB prev = some (s₃, x₁, g₁, gB₁, prev')) :
    prev' = some x₁ ∧ g₁ = sumGrad G off n x₁ ∧ gB₁ = ‖(1 / (n : ℝ)) • g₁‖ ^ 2 ∧
      (∃ s₁ k, x₁ = x - s₁ • g ∧ s₁ = s * shrink ^ k ∧ F x₁ ≤ F x - c * s₁ * gB) ∧
      F (x₁ - s₃ • g₁) ≤ F x₁ - c * s₃ * gB₁ := by
  unfold adaptive at h
  cases h1 : backtrack F c shrink x g gB fuel s with
  | none => rw [h1] at h; cases h
  | some s₁ =>
    rw [h1] at h
    dsimp only at h
    split at h
    · cases h
    · rename_i s₃' h3
      simp only [Option.some.injEq, Prod.mk.injEq] at h
      obtain ⟨rfl, rfl, rfl, rfl, rfl⟩ := h
      obtain ⟨a1, k, a2, _⟩ := backtrack_spec _ _ _ _ _ _ _ _ _ h1
      exact ⟨rfl, rfl, rfl, ⟨s₁, k, rfl, a2, a1⟩, (backtrack_spec _ _ _ _ _ _ _ _ _ h3).1⟩

/-- If no step size tried is accepted, the search never ends. -/
theorem backtrack_none (F : V → ℝ) (c shrink : ℝ) (x g : V) (gB : ℝ) (P : ℝ → Prop) (hP : ∀ s, P s → P (s * shrink))
    (h : ∀ s, P s → F x - c * s * gB < F (x - s • g)) : ∀ (fuel : ℕ) (s : ℝ), P s → backtrack F c shrink x g gB fuel s = none := by
  intro fuel
  induction fuel with
  | zero => intro s _; rfl
  | succ fuel ih => intro s hs; rw [backtrack, if_pos (h s hs)]; exact ih _ (hP s hs)

/-- Three concave functions on ℝ: `-x²/2 + e_j x` with `e = (0, 0, 3)`; their sum. -/
noncomputable def concG (j : ℕ) (x : ℝ) : ℝ := -x + if j = 2 then 3 else 0
noncomputable def concF (x : ℝ) : ℝ := -(3 / 2) * x ^ 2 + 3 * x

theorem concG_sum (x : ℝ) : sumGrad concG 0 3 x = -3 * x + 3 := by
  simp [sumGrad, concG, List.range']
  ring

/-- **C148** (refuted: the policy returns). Nothing keeps the adaptive step size positive: for a concave batch objective the estimated curvature
is negative, the smoothed step size becomes negative, and the second search then tries ever smaller negative step sizes, all of which go
uphill: it does not end. (In floating-point arithmetic it ends when the step size has underflowed to 0.) -/
theorem C148_search_ends_refuted :
    ¬ ∀ (F : ℝ → ℝ) (G : ℕ → ℝ → ℝ) (n : ℕ) (c shrink s x : ℝ), 0 < n → 0 < c → c < 1 → 0 < shrink → shrink < 1 → 0 < s →
      LSmooth F (fun x => sumGrad G 0 n x) n → ∃ fuel, (adaptive F G n c shrink 0 n n fuel s x (sumGrad G 0 n x)
        (‖(1 / (n : ℝ)) • sumGrad G 0 n x‖ ^ 2) none).isSome := by
  intro h
  have hsm : LSmooth concF (fun x => sumGrad concG 0 3 x) ((3 : ℕ) : ℝ) := by
    constructor
    · intro x
      have h1 : HasDerivAt concF (-3 * x + 3) x := by
        have := (((hasDerivAt_id x).pow 2).const_mul (-(3 / 2) : ℝ)).add ((hasDerivAt_id x).const_mul (3 : ℝ))
        refine this.congr_deriv ?_
        simp
        ring
      have h2 := h1.hasFDerivAt
      show HasFDerivAt concF ((innerSL ℝ) (sumGrad concG 0 3 x)) x
      rw [concG_sum]
      refine h2.congr_fderiv ?_
      ext
      simp
    · intro x y
      rw [concG_sum, concG_sum, show -3 * x + 3 - (-3 * y + 3) = (-3 : ℝ) * (x - y) by ring, norm_mul]
      norm_num
  obtain ⟨fuel, hf⟩ := h concF concG 3 (1 / 10) (1 / 2) 1 2 (by norm_num) (by norm_num) (by norm_num) (by norm_num) (by norm_num) (by norm_num) hsm
  revert hf
  cases fuel with
  | zero => simp [adaptive, backtrack]
  | succ fuel =>
    have h1 : backtrack concF (1 / 10) (1 / 2) 2 (sumGrad concG 0 3 2) (‖(1 / ((3 : ℕ) : ℝ)) • sumGrad concG 0 3 2‖ ^ 2) (fuel + 1) 1 = some 1 := by
      rw [backtrack, if_neg]
      rw [concG_sum]
      norm_num [concF]
    have hx1 : (2 : ℝ) - (1 : ℝ) • sumGrad concG 0 3 2 = 5 := by rw [concG_sum]; norm_num
    have hg1 : sumGrad concG 0 3 5 = -12 := by rw [concG_sum]; norm_num
    have hg0 : sumGrad concG 0 3 0 = 3 := by rw [concG_sum]; norm_num
    have hv : batchVar concG 0 3 5 = 9 / 2 := by
      simp [batchVar, varLoop, concG, List.range']
      norm_num
    have hgB : ‖(1 / ((3 : ℕ) : ℝ)) • (-12 : ℝ)‖ ^ 2 = 16 := by norm_num
    have h2 : ∀ fuel, backtrack concF (1 / 10) (1 / 2) 5 (-12 : ℝ) 16 fuel (-(1 / 3)) = none := by
      intro fuel
      refine backtrack_none concF (1 / 10) (1 / 2) 5 (-12 : ℝ) 16 (fun s => s < 0 ∧ -(1 / 3) ≤ s) ?_ ?_ fuel _ ?_
      · rintro s ⟨a, b⟩; constructor <;> linarith
      · rintro s ⟨a, b⟩
        show concF 5 - 1 / 10 * s * 16 < concF (5 - s * -12)
        unfold concF
        nlinarith
      · constructor <;> norm_num
    unfold adaptive
    rw [h1]
    dsimp only [Option.getD_none]
    rw [hx1, hg1, hg0, hv, hgB]
    have hs2 : ((1 : ℝ) * (1 - ((3 : ℕ) : ℝ) / ((3 : ℕ) : ℝ)) + (if (16 : ℝ) ≠ 0 ∧ (9 / 2 : ℝ) ≠ 0 ∧ (3 : ℕ) ≠ 0 then
        if (3 : ℕ) < 3 then (1 - (1 / (((3 : ℕ) : ℝ) - 1) * (9 / 2)) / (((3 : ℕ) : ℝ) * 16)) / (inner ℝ ((5 : ℝ) - 0) (-12 - 3) / ‖(5 : ℝ) - 0‖ ^ 2)
        else 1 / (inner ℝ ((5 : ℝ) - 0) (-12 - 3) / ‖(5 : ℝ) - 0‖ ^ 2) else 0) * (((3 : ℕ) : ℝ) / ((3 : ℕ) : ℝ))) = -(1 / 3) := by
      norm_num
    rw [hs2, h2]
    simp

/-! ### Concrete cases of the hypotheses -/

/-- `C63_armijo`, `C63_search_ends`: `F x = x²/2` on ℝ is 1-smooth; from 2 with step 4 two halvings are needed. -/
example : LSmooth (fun x : ℝ => x ^ 2 / 2) id 1 ∧
    lineSearch (fun x : ℝ => x ^ 2 / 2) (1 / 10) 2 (2 : ℝ) 4 false 3 4 = some 1 := by
  constructor
  · constructor
    · intro x
      have h1 : HasDerivAt (fun x : ℝ => x ^ 2 / 2) x x := by
        refine (((hasDerivAt_id x).pow 2).div_const 2).congr_deriv ?_
        simp
      refine h1.hasFDerivAt.congr_fderiv ?_
      ext
      simp
    · intro x y; simp
  · unfold lineSearch
    rw [backtrack, if_pos, backtrack, if_pos, backtrack, if_neg]
    · norm_num
    · norm_num
    · norm_num
    · norm_num

/-- `C63_moves_decrease`: functions `x²/2`, a policy that remembers the size of the batch in the world and a step of `1 / (size + 1)`. -/
noncomputable def sqEnv : Env ℕ ℝ ℝ ℝ ℝ where
  gradient := fun w x _ => (w, x)
  cbGradient := fun w _ g => (w, g, false)
  policy := fun _ x _ _ _ _ _ eff _ => (eff, x, eff * x)
  step := fun w x g => x - (1 / ((w : ℝ) + 1)) • g
  evaluate := fun w x _ n => (w, n * x ^ 2 / 2)
  cbBegin := fun w x => (w, x)
  cbStep := fun w x => (w, x, false)
  cbEvaluate := fun w _ _ => (w, false)
  cbEndEpoch := fun w _ _ _ => (w, false)
  cbBeginEpoch := fun w _ _ _ => (w, false)
  shuffle := id
  addG := fun a b => a + b
  mean := fun d g k => d + (1 / (k : ℝ)) • (g - d)
  addVar := fun v g d d' => v + ‖g - d‖ * ‖g - d'‖
  zeroR := 0
  sqNorm := fun g n => ‖g / n‖ ^ 2
  noisy := fun _ _ _ => false
  delta := fun _ => 0
  add := fun a b => a + b
  zero := 0
  divN := fun a _ => a
  dblMax := 1000
  isBad := fun _ => false
  isClose := fun _ _ => false

example : EndsWithSearch sqEnv (fun _ n x => n * x ^ 2 / 2) (1 / 10) ∧
    ∃ r, optimize sqEnv ⟨2, 2, false, false⟩ 3 2 0 3 = some r ∧ ∃ y, Ev.step 3 y 0 2 ∈ r.trace := by
  constructor
  · intro w x g gB vB cur B eff reset
    refine ⟨1 / ((eff : ℝ) + 1), 1 / ((eff : ℝ) + 1), 1 / 2, 0, 1, by positivity, le_refl _, ?_, rfl⟩
    rw [backtrack, if_neg]
    show ¬ ((eff : ℝ) * x ^ 2 / 2 - 1 / 10 * (1 / ((eff : ℝ) + 1)) * 0 < eff * (x - (1 / ((eff : ℝ) + 1)) • (eff * x)) ^ 2 / 2)
    rw [not_lt, mul_zero, sub_zero, smul_eq_mul]
    have he : (0 : ℝ) < (eff : ℝ) + 1 := by positivity
    have h1 : x - 1 / ((eff : ℝ) + 1) * (eff * x) = x / ((eff : ℝ) + 1) := by field_simp; ring
    have h2 : (x / ((eff : ℝ) + 1)) ^ 2 ≤ x ^ 2 := by
      rw [div_pow]
      refine div_le_self (sq_nonneg x) ?_
      have : (1 : ℝ) ≤ (eff : ℝ) + 1 := by simp
      nlinarith
    rw [h1]
    have h3 : (0 : ℝ) ≤ eff := by positivity
    nlinarith [mul_le_mul_of_nonneg_left h2 h3]
  · obtain ⟨r, hr, _⟩ := C143_ends_in_bounds sqEnv ⟨2, 2, false, false⟩ 2 (by decide) (by decide) 3 (by decide) 0 (3 : ℝ)
    refine ⟨r, hr, ?_⟩
    have : optimize sqEnv ⟨2, 2, false, false⟩ 3 2 0 3 = some _ := rfl
    rw [this] at hr
    injection hr with hr
    rw [← hr]
    exact ⟨_, List.mem_append_left _ (List.mem_append_left _ (List.mem_append_left _ (List.mem_append_right _
      (List.mem_cons_of_mem _ List.mem_cons_self))))⟩

end Ens.BigBatch
