import Mathlib.Algebra.Order.BigOperators.Ring.Finset
import Mathlib.Analysis.InnerProductSpace.Basic
import Mathlib.Analysis.Real.Sqrt
import Mathlib.Tactic.FieldSimp
import Mathlib.Tactic.Positivity
import Verif.AugLag.Function
import Verif.AugLag.Props

/-
C279: what AugLagrangian finds if its inner runs (nearly) minimise the augmented Lagrangian and the constrained problem has
Lagrange multipliers: bounds on the multipliers, the violation of the constraints and the error of the objective.
-/

namespace Ens.AugLag

variable {V W : Type} [NormedAddCommGroup V] [InnerProductSpace ℝ V]

/-- Real arithmetic with `penaltyThresholdFactor = τ` and `sigmaUpdateFactor = γ`. -/
structure RealOps (o : Ops ℝ) (τ γ : ℝ) : Prop where
  zero : o.zero = 0
  add : ∀ a b, o.add a b = a + b
  sq : ∀ c, o.sq c = c ^ 2
  lamUpd : ∀ l s c, o.lamUpd l s c = l - s * c
  scale : ∀ p, o.scale p = τ * p
  grow : ∀ s, o.grow s = s * γ
  below : ∀ a b, o.below a b = true ↔ a < b
  big : ∀ s, o.big s = true → 500000 < s

/-- The user code evaluates the problem `p`, and every inner run returns a point at which the augmented Lagrangian
(`AugLagrangianFunction::Evaluate`, C50) is within `δ / sigma` of its infimum.  Callbacks may move the coordinates between
inner runs and ask to stop. -/
structure Solves (u : User W V ℝ) (p : Fn V) (δ : ℝ) : Prop where
  num : u.numConstraints = p.numConstraints
  eval : ∀ w x, (u.eval w x).2 = p.f x
  cons : ∀ w i x, (u.cons w i x).2 = p.c i x
  solve : ∀ w x lam σ, 0 < σ → lam.length = p.numConstraints → ∀ y,
    evaluate p (fun i => lam.getD i 0) σ (u.solve w x lam σ).2 ≤ evaluate p (fun i => lam.getD i 0) σ y + δ / σ

/-- `xs` is feasible, and a minimiser of the Lagrangian with the multipliers `ls`. -/
structure Saddle (p : Fn V) (xs : V) (ls : Nat → ℝ) : Prop where
  feas : ∀ i < p.numConstraints, p.c i xs = 0
  dual : ∀ x, p.f xs ≤ p.f x - ∑ i ∈ Finset.range p.numConstraints, ls i * p.c i x

/-- Violation of the constraints: the sum of their squares. -/
noncomputable def pen (p : Fn V) (x : V) : ℝ := ∑ i ∈ Finset.range p.numConstraints, p.c i x ^ 2

/-- Squared distance of multipliers. -/
noncomputable def gap (p : Fn V) (lam : List ℝ) (ls : Nat → ℝ) : ℝ := ∑ i ∈ Finset.range p.numConstraints, (lam.getD i 0 - ls i) ^ 2

theorem pen_nonneg (p : Fn V) (x : V) : 0 ≤ pen p x := Finset.sum_nonneg fun _ _ => sq_nonneg _
theorem gap_nonneg (p : Fn V) (lam : List ℝ) (ls : Nat → ℝ) : 0 ≤ gap p lam ls := Finset.sum_nonneg fun _ _ => sq_nonneg _

theorem foldl_range_sum (f : Nat → ℝ) (a : ℝ) : ∀ n : Nat, (List.range n).foldl (fun o i => o + f i) a = a + ∑ i ∈ Finset.range n, f i
  | 0 => by simp
  | n + 1 => by
    rw [List.range_succ, List.foldl_append, foldl_range_sum f a n, Finset.sum_range_succ]
    simp [add_assoc]

theorem evaluate_sum (p : Fn V) (lam : Nat → ℝ) (σ : ℝ) (x : V) :
    evaluate p lam σ x = p.f x - ∑ i ∈ Finset.range p.numConstraints, lam i * p.c i x + σ / 2 * pen p x := by
  rw [evaluate, foldl_range_sum, Finset.sum_add_distrib, pen, Finset.mul_sum, sub_eq_add_neg, ← Finset.sum_neg_distrib, add_assoc]
  congr 2
  · exact Finset.sum_congr rfl fun i _ => by ring
  · exact Finset.sum_congr rfl fun i _ => by ring

theorem cauchy (s : Finset Nat) (f g : Nat → ℝ) : ∑ i ∈ s, f i * g i ≤ √(∑ i ∈ s, f i ^ 2) * √(∑ i ∈ s, g i ^ 2) := by
  rw [← Real.sqrt_mul (Finset.sum_nonneg fun _ _ => sq_nonneg _)]
  exact Real.le_sqrt_of_sq_le (Finset.sum_mul_sq_le_sq_mul_sq s f g)

section core

variable {p : Fn V} {xs : V} {ls : Nat → ℝ} {lam : List ℝ} {σ δ : ℝ} {y : V}

theorem near_value (hs : Saddle p xs ls)
    (h : evaluate p (fun i => lam.getD i 0) σ y ≤ evaluate p (fun i => lam.getD i 0) σ xs + δ / σ) :
    p.f y - ∑ i ∈ Finset.range p.numConstraints, lam.getD i 0 * p.c i y + σ / 2 * pen p y ≤ p.f xs + δ / σ := by
  rw [evaluate_sum, evaluate_sum] at h
  have h1 : ∑ i ∈ Finset.range p.numConstraints, lam.getD i 0 * p.c i xs = 0 :=
    Finset.sum_eq_zero fun i hi => by rw [hs.feas i (Finset.mem_range.1 hi), mul_zero]
  have h2 : pen p xs = 0 := Finset.sum_eq_zero fun i hi => by rw [hs.feas i (Finset.mem_range.1 hi)]; ring
  rw [h1, h2] at h
  linarith

theorem near_cross (hs : Saddle p xs ls)
    (h : evaluate p (fun i => lam.getD i 0) σ y ≤ evaluate p (fun i => lam.getD i 0) σ xs + δ / σ) :
    σ / 2 * pen p y ≤ δ / σ + ∑ i ∈ Finset.range p.numConstraints, (lam.getD i 0 - ls i) * p.c i y := by
  have h1 := near_value hs h
  have h2 := hs.dual y
  simp only [sub_mul]
  rw [Finset.sum_sub_distrib]
  linarith

/-- The multipliers do not move away. -/
theorem near_gap (hs : Saddle p xs ls) (hσ : 0 < σ)
    (h : evaluate p (fun i => lam.getD i 0) σ y ≤ evaluate p (fun i => lam.getD i 0) σ xs + δ / σ) :
    ∑ i ∈ Finset.range p.numConstraints, (lam.getD i 0 - σ * p.c i y - ls i) ^ 2 ≤ gap p lam ls + 2 * δ := by
  have h1 := near_cross hs h
  have e : ∑ i ∈ Finset.range p.numConstraints, (lam.getD i 0 - σ * p.c i y - ls i) ^ 2 =
      gap p lam ls - 2 * σ * ∑ i ∈ Finset.range p.numConstraints, (lam.getD i 0 - ls i) * p.c i y + σ ^ 2 * pen p y := by
    rw [gap, pen, Finset.mul_sum, Finset.mul_sum, ← Finset.sum_sub_distrib, ← Finset.sum_add_distrib]
    exact Finset.sum_congr rfl fun i _ => by ring
  rw [e]
  have h2 := mul_le_mul_of_nonneg_left h1 (by positivity : 0 ≤ 2 * σ)
  have e1 : 2 * σ * (σ / 2 * pen p y) = σ ^ 2 * pen p y := by ring
  have e2 : 2 * σ * (δ / σ + ∑ i ∈ Finset.range p.numConstraints, (lam.getD i 0 - ls i) * p.c i y) =
      2 * δ + 2 * σ * ∑ i ∈ Finset.range p.numConstraints, (lam.getD i 0 - ls i) * p.c i y := by
    field_simp
  rw [e1, e2] at h2
  linarith

/-- The violation is small for large `σ`. -/
theorem near_pen (hs : Saddle p xs ls) (hσ : 0 < σ) (hδ : 0 ≤ δ)
    (h : evaluate p (fun i => lam.getD i 0) σ y ≤ evaluate p (fun i => lam.getD i 0) σ xs + δ / σ) {D : ℝ} (hD : gap p lam ls ≤ D) :
    √(pen p y) ≤ (√D + √(D + 2 * δ)) / σ := by
  have hD0 : 0 ≤ D := (gap_nonneg _ _ _).trans hD
  have h1 := near_cross hs h
  have h2 := cauchy (Finset.range p.numConstraints) (fun i => lam.getD i 0 - ls i) (fun i => p.c i y)
  change _ ≤ √(gap p lam ls) * √(pen p y) at h2
  have h3 := mul_le_mul_of_nonneg_right (Real.sqrt_le_sqrt hD) (Real.sqrt_nonneg (pen p y))
  set s := √(pen p y) with hsq
  have hs2 : pen p y = s ^ 2 := (Real.sq_sqrt (pen_nonneg p y)).symm
  have hs0 : 0 ≤ s := Real.sqrt_nonneg _
  rw [hs2] at h1
  rw [le_div_iff₀ hσ]
  have h4 : σ / 2 * s ^ 2 ≤ δ / σ + √D * s := by linarith
  have h5 : (s * σ) ^ 2 ≤ 2 * δ + 2 * √D * (s * σ) := by
    have := mul_le_mul_of_nonneg_left h4 (by positivity : 0 ≤ 2 * σ)
    have e : 2 * σ * (δ / σ + √D * s) = 2 * δ + 2 * √D * (s * σ) := by field_simp
    rw [e] at this
    calc (s * σ) ^ 2 = 2 * σ * (σ / 2 * s ^ 2) := by ring
      _ ≤ _ := this
  have h6 : (s * σ - √D) ^ 2 ≤ D + 2 * δ := by
    have := Real.sq_sqrt hD0
    nlinarith
  have h7 : s * σ - √D ≤ √(D + 2 * δ) := Real.le_sqrt_of_sq_le h6
  linarith

/-- The objective is not much above the optimum ... -/
theorem near_upper (hs : Saddle p xs ls) (hσ : 0 < σ)
    (h : evaluate p (fun i => lam.getD i 0) σ y ≤ evaluate p (fun i => lam.getD i 0) σ xs + δ / σ) {D : ℝ} (hD : gap p lam ls ≤ D) :
    p.f y ≤ p.f xs + (δ + (√(∑ i ∈ Finset.range p.numConstraints, ls i ^ 2) + √D) ^ 2 / 2) / σ := by
  have hD0 : 0 ≤ D := (gap_nonneg _ _ _).trans hD
  have h1 := near_value hs h
  have h2 := cauchy (Finset.range p.numConstraints) (fun i => lam.getD i 0 - ls i) (fun i => p.c i y)
  change _ ≤ √(gap p lam ls) * √(pen p y) at h2
  have h3 := mul_le_mul_of_nonneg_right (Real.sqrt_le_sqrt hD) (Real.sqrt_nonneg (pen p y))
  have h4 := cauchy (Finset.range p.numConstraints) ls (fun i => p.c i y)
  change _ ≤ _ * √(pen p y) at h4
  set s := √(pen p y) with hsq
  set q := √(∑ i ∈ Finset.range p.numConstraints, ls i ^ 2)
  have hs2 : pen p y = s ^ 2 := (Real.sq_sqrt (pen_nonneg p y)).symm
  rw [hs2] at h1
  have e : ∑ i ∈ Finset.range p.numConstraints, lam.getD i 0 * p.c i y =
      ∑ i ∈ Finset.range p.numConstraints, (lam.getD i 0 - ls i) * p.c i y + ∑ i ∈ Finset.range p.numConstraints, ls i * p.c i y := by
    rw [← Finset.sum_add_distrib]
    exact Finset.sum_congr rfl fun i _ => by ring
  rw [e] at h1
  have h5 : (q + √D) * s - σ / 2 * s ^ 2 ≤ (q + √D) ^ 2 / 2 / σ := by
    rw [le_div_iff₀ hσ]
    nlinarith [sq_nonneg (σ * s - (q + √D))]
  rw [add_div]
  linarith

/-- ... and not much below. -/
theorem near_lower (hs : Saddle p xs ls) (y : V) :
    p.f xs - √(∑ i ∈ Finset.range p.numConstraints, ls i ^ 2) * √(pen p y) ≤ p.f y := by
  have h1 := hs.dual y
  have h2 := cauchy (Finset.range p.numConstraints) (fun i => -ls i) (fun i => p.c i y)
  simp only [neg_mul, neg_sq, Finset.sum_neg_distrib] at h2
  change _ ≤ _ * √(pen p y) at h2
  linarith

end core

/-! ### The loop -/

section loop

variable {o : Ops ℝ} {τ γ δ : ℝ} {u : User W V ℝ} {p : Fn V} {m : Nat}

theorem quiet_update {l : List (Ev V ℝ)} (h : Quiet l) (q : Upd V ℝ) : .update q ∉ l := fun hq => by cases (h _ hq).2

theorem range_pen (ho : RealOps o τ γ) (hu : Solves u p δ) (x : V) :
    (List.range u.numConstraints).foldl (fun a i => o.add a (o.sq (p.c i x))) o.zero = pen p x := by
  simp only [ho.add, ho.sq, ho.zero, hu.num]
  rw [foldl_range_sum, zero_add]
  rfl

/-- The multipliers after an update. -/
theorem lambda_gap (ho : RealOps o τ γ) (hu : Solves u p δ) {x : V} {σ : ℝ} {w : W} {lam : List ℝ} {term : Bool}
    (hlen : lam.length = p.numConstraints) (ls : Nat → ℝ) :
    (lambdaOf o u x σ w lam term).2.1.length = p.numConstraints ∧
      gap p (lambdaOf o u x σ w lam term).2.1 ls =
        ∑ i ∈ Finset.range p.numConstraints, (lam.getD i 0 - σ * p.c i x - ls i) ^ 2 := by
  obtain ⟨-, -, -, h1, h2⟩ := lambdaOf_spec o u (C := p.c) hu.cons x σ w lam term
  refine ⟨h1.trans hlen, Finset.sum_congr rfl fun i hi => ?_⟩
  have hi' := Finset.mem_range.1 hi
  have := h2 i (by omega)
  rw [if_pos (by rw [hu.num]; exact hi'), ho.lamUpd, ho.zero] at this
  rw [this]

/-- One pass of the loop. -/
structure Pass (u : User W V ℝ) (p : Fn V) (ls : Nat → ℝ) (τ γ : ℝ) (t : St W V ℝ) (q : Upd V ℝ) (thr : ℝ) : Prop where
  solved : q.x = (u.solve t.w t.x t.lam t.sigma).2
  lam : q.lam = t.lam
  sigma : q.sigma = t.sigma
  penalty : q.penalty = pen p q.x
  len : q.lam'.length = p.numConstraints
  step : (pen p q.x < t.threshold ∧ thr = τ * pen p q.x ∧ q.sigma' = t.sigma ∧
      gap p q.lam' ls = ∑ i ∈ Finset.range p.numConstraints, (t.lam.getD i 0 - t.sigma * p.c i q.x - ls i) ^ 2) ∨
    (thr = t.threshold ∧ q.lam' = t.lam ∧ q.sigma' = t.sigma * γ)

theorem body_pass (ho : RealOps o τ γ) (hu : Solves u p δ) (ls : Nat → ℝ) {t : St W V ℝ} (hlen : t.lam.length = p.numConstraints) :
    (∀ t', body o u m t = .inl t' → t'.it = t.it + 1 ∧ ∃ q l₁ l₂, Pass u p ls τ γ t q t'.threshold ∧ t'.lam = q.lam' ∧
      t'.sigma = q.sigma' ∧ Quiet l₁ ∧ Quiet l₂ ∧ t'.trace = t.trace ++ (.solved q.x :: l₁) ++ (.update q :: l₂)) ∧
    (∀ e t', body o u m t = .inr (e, t') →
      (e = .converged ∧ t'.x = (u.solve t.w t.x t.lam t.sigma).2 ∧ t'.lam = t.lam ∧ t'.sigma = t.sigma ∧ 500000 < t.sigma ∧
        t'.it = t.it ∧ ∃ l, Quiet l ∧ t'.trace = t.trace ++ .solved t'.x :: l) ∨
      (e = .sigmaLarge ∧ t'.it = t.it ∧ ∃ q l, Pass u p ls τ γ t q t'.threshold ∧ Quiet l ∧
        t'.trace = t.trace ++ (.solved q.x :: l) ++ [.update q]) ∨
      (e = .loop ∧ t'.it = t.it ∧ ((t'.trace = t.trace) ∨ ∃ x l, Quiet l ∧ t'.trace = t.trace ++ .solved x :: l))) := by
  unfold body
  by_cases hc : (m = 0 ∨ t.it ≠ m - 1) ∧ t.term = false
  swap
  · rw [if_neg hc]
    refine ⟨(fun t' h => by cases h), fun e t' h => ?_⟩
    cases h
    exact .inr (.inr ⟨rfl, rfl, .inl rfl⟩)
  rw [if_pos hc, if_neg (by rw [hlen, hu.num]; omega)]
  unfold afterInner inner
  simp only []
  set y := (u.solve t.w t.x t.lam t.sigma).2 with hy
  by_cases hcv : (o.close t.last (u.eval (u.solve t.w t.x t.lam t.sigma).1 y).2 && o.big t.sigma) = true
  · rw [if_pos hcv]
    refine ⟨(fun t' h => by cases h), fun e t' h => ?_⟩
    cases h
    rw [Bool.and_eq_true] at hcv
    exact .inl ⟨rfl, rfl, rfl, rfl, ho.big _ hcv.2, rfl, _, quiet_flag _, rfl⟩
  rw [if_neg hcv]
  generalize hw : u.cbEval (u.eval (u.solve t.w t.x t.lam t.sigma).1 y).1 y (u.eval (u.solve t.w t.x t.lam t.sigma).1 y).2 = cb
  obtain ⟨p1, -, -, p4⟩ := penaltyOf_spec o u (C := p.c) hu.cons y cb.1 (t.term || cb.2)
  rw [range_pen ho hu] at p4
  by_cases ht : (penaltyOf o u y cb.1 (t.term || cb.2)).2.2.1 = true
  · rw [if_pos ht]
    refine ⟨(fun t' h => by cases h), fun e t' h => ?_⟩
    cases h
    refine .inr (.inr ⟨rfl, rfl, .inr ⟨y, _, (quiet_flag cb.2).append p1, ?_⟩⟩)
    simp
  rw [if_neg ht, p4]
  unfold updateStep
  simp only []
  by_cases hb : o.below (pen p y) t.threshold = true
  · rw [if_pos hb]
    refine ⟨fun t' h => ?_, fun e t' h => by cases h⟩
    cases h
    obtain ⟨g1, g2⟩ := lambda_gap ho hu (x := y) (σ := t.sigma) (w := (penaltyOf o u y cb.1 (t.term || cb.2)).1)
      (term := (penaltyOf o u y cb.1 (t.term || cb.2)).2.2.1) hlen ls
    obtain ⟨r1, -⟩ := lambdaOf_spec o u (C := p.c) hu.cons y t.sigma (penaltyOf o u y cb.1 (t.term || cb.2)).1 t.lam
      (penaltyOf o u y cb.1 (t.term || cb.2)).2.2.1
    generalize lambdaOf o u y t.sigma (penaltyOf o u y cb.1 (t.term || cb.2)).1 t.lam
      (penaltyOf o u y cb.1 (t.term || cb.2)).2.2.1 = L at g1 g2 r1 ⊢
    refine ⟨rfl, ⟨y, pen p y, t.threshold, t.lam, t.sigma, L.2.1, t.sigma⟩, _, _,
      ⟨rfl, rfl, rfl, rfl, g1, .inl ⟨(ho.below _ _).1 hb, ho.scale _, rfl, g2⟩⟩, rfl, rfl,
      ((quiet_flag cb.2).append p1).append r1, quiet_flag (u.cbStep L.1 y).2.2, ?_⟩
    simp
  · rw [if_neg hb]
    by_cases hh : o.huge (o.grow t.sigma) = true
    · rw [if_pos hh]
      refine ⟨(fun t' h => by cases h), fun e t' h => ?_⟩
      cases h
      refine .inr (.inl ⟨rfl, rfl, ⟨y, pen p y, t.threshold, t.lam, t.sigma, t.lam, o.grow t.sigma⟩, _,
        ⟨rfl, rfl, rfl, rfl, hlen, .inr ⟨rfl, rfl, ho.grow _⟩⟩, (quiet_flag cb.2).append p1, ?_⟩)
      simp
    · rw [if_neg hh]
      refine ⟨fun t' h => ?_, fun e t' h => by cases h⟩
      cases h
      refine ⟨rfl, ⟨y, pen p y, t.threshold, t.lam, t.sigma, t.lam, o.grow t.sigma⟩, _, _,
        ⟨rfl, rfl, rfl, rfl, hlen, .inr ⟨rfl, rfl, ho.grow _⟩⟩, rfl, rfl,
        (quiet_flag cb.2).append p1, quiet_flag (u.cbStep (penaltyOf o u y cb.1 (t.term || cb.2)).1 y).2.2, ?_⟩
      simp

variable {xs : V} {ls : Nat → ℝ} {σ₀ D : ℝ}

/-- What is known of an update after `n` inner runs. -/
structure GoodPt (p : Fn V) (xs : V) (ls : Nat → ℝ) (δ σ₀ D : ℝ) (n : Nat) (q : Upd V ℝ) : Prop where
  penalty : q.penalty = pen p q.x
  sigma : σ₀ ≤ q.sigma
  gap : gap p q.lam ls ≤ D + 2 * δ * n
  near : evaluate p (fun i => q.lam.getD i 0) q.sigma q.x ≤ evaluate p (fun i => q.lam.getD i 0) q.sigma xs + δ / q.sigma

theorem GoodPt.mono (hδ : 0 ≤ δ) {n n' : Nat} (hn : n ≤ n') {q : Upd V ℝ} (h : GoodPt p xs ls δ σ₀ D n q) :
    GoodPt p xs ls δ σ₀ D n' q := by
  refine ⟨h.penalty, h.sigma, h.gap.trans ?_, h.near⟩
  have : (n : ℝ) ≤ n' := by exact_mod_cast hn
  have := mul_le_mul_of_nonneg_left this (by positivity : 0 ≤ 2 * δ)
  linarith

structure SInv (p : Fn V) (xs : V) (ls : Nat → ℝ) (δ σ₀ D : ℝ) (t : St W V ℝ) : Prop where
  len : t.lam.length = p.numConstraints
  sigma : σ₀ ≤ t.sigma
  gap : gap p t.lam ls ≤ D + 2 * δ * t.it
  upd : ∀ q, .update q ∈ t.trace → GoodPt p xs ls δ σ₀ D t.it q
  count : (t.trace.filter isSolved).length = t.it

theorem Pass.good (hu : Solves u p δ) (hσ₀ : 0 < σ₀) {t : St W V ℝ} (h : SInv p xs ls δ σ₀ D t)
    {q : Upd V ℝ} {thr : ℝ} (hq : Pass u p ls τ γ t q thr) : GoodPt p xs ls δ σ₀ D t.it q := by
  refine ⟨hq.penalty, by rw [hq.sigma]; exact h.sigma, by rw [hq.lam]; exact h.gap, ?_⟩
  rw [hq.solved, hq.lam, hq.sigma]
  exact hu.solve _ _ _ _ (hσ₀.trans_le h.sigma) h.len xs

theorem mem_pass {l l₁ l₂ : List (Ev V ℝ)} {y : V} {q r : Upd V ℝ} (h₁ : Quiet l₁) (h₂ : Quiet l₂)
    (h : .update r ∈ l ++ (.solved y :: l₁) ++ (.update q :: l₂)) : .update r ∈ l ∨ r = q := by
  simp only [List.append_assoc, List.mem_append, List.mem_cons, reduceCtorEq, false_or, Ev.update.injEq] at h
  rcases h with h | h | h | h
  · exact .inl h
  · exact absurd h (quiet_update h₁ r)
  · exact .inr h
  · exact absurd h (quiet_update h₂ r)

theorem count_pass {l l₁ l₂ : List (Ev V ℝ)} {y : V} {q : Upd V ℝ} (h₁ : Quiet l₁) (h₂ : Quiet l₂) :
    ((l ++ (.solved y :: l₁) ++ (.update q :: l₂)).filter isSolved).length = (l.filter isSolved).length + 1 := by
  rw [List.filter_append, List.filter_append, List.filter_cons_of_pos (by rfl), filter_quiet fun e he => (h₁ e he).1,
    List.filter_cons_of_neg (by simp [isSolved]), filter_quiet fun e he => (h₂ e he).1]
  simp

theorem body_sinv (ho : RealOps o τ γ) (hγ : 1 ≤ γ) (hu : Solves u p δ) (hδ : 0 ≤ δ) (hs : Saddle p xs ls) (hσ₀ : 0 < σ₀)
    {t t' : St W V ℝ} (h : SInv p xs ls δ σ₀ D t) (hb : body o u m t = .inl t') : SInv p xs ls δ σ₀ D t' := by
  obtain ⟨hit, q, l₁, l₂, hq, hlam, hsig, hq₁, hq₂, htr⟩ := (body_pass (m := m) ho hu ls h.len).1 t' hb
  have hg := hq.good hu hσ₀ h
  have hσ : 0 < t.sigma := hσ₀.trans_le h.sigma
  have hmono : D + 2 * δ * t.it + 2 * δ = D + 2 * δ * t'.it := by rw [hit]; push_cast; ring
  refine ⟨by rw [hlam]; exact hq.len, ?_, ?_, fun r hr => ?_, ?_⟩
  · rw [hsig]
    rcases hq.step with ⟨-, -, h1, -⟩ | ⟨-, -, h1⟩
    · rw [h1]; exact h.sigma
    · rw [h1]; nlinarith [h.sigma]
  · rw [hlam, ← hmono]
    rcases hq.step with ⟨-, -, -, h1⟩ | ⟨-, h1, -⟩
    · rw [h1]
      have := near_gap (y := q.x) hs hσ (by
        have := hg.near
        rw [hq.lam, hq.sigma] at this
        exact this)
      linarith [h.gap]
    · rw [h1]; linarith [h.gap]
  · rw [htr] at hr
    rcases mem_pass hq₁ hq₂ hr with hr | rfl
    · exact (h.upd r hr).mono hδ (by omega)
    · exact hg.mono hδ (by omega)
  · rw [htr, count_pass hq₁ hq₂, h.count, hit]

theorem start_sinv (hu : Solves u p δ) {term : Bool} {lam : List ℝ} (hlen : lam.length = p.numConstraints) (w : W) (x : V) :
    SInv p xs ls δ σ₀ (gap p lam ls) (start o u term lam σ₀ w x) := by
  obtain ⟨p1, -, -, -⟩ := penaltyOf_spec o u (C := p.c) hu.cons x (u.eval w x).1 term
  refine ⟨hlen, le_rfl, by simp [start], fun q hq => absurd hq (quiet_update p1 q), ?_⟩
  simp only [start]
  rw [filter_quiet fun e he => (p1 e he).1]
  rfl

/-- What holds when the loop is left. -/
theorem run_sinv (ho : RealOps o τ γ) (hγ : 1 ≤ γ) (hu : Solves u p δ) (hδ : 0 ≤ δ) (hs : Saddle p xs ls) (hσ₀ : 0 < σ₀)
    {lam : List ℝ} (hlen : lam.length = p.numConstraints) {fuel : Nat} {ob ob' : Obj ℝ} {w : W} {x : V} {e : Exit} {t : St W V ℝ}
    (h : run o u m fuel ob lam σ₀ w x = some (ob', e, t)) (P : St W V ℝ → Prop) (h0 : P (start o u ob.terminate lam σ₀ w x))
    (hP : ∀ s s', SInv p xs ls δ σ₀ (gap p lam ls) s → P s → body o u m s = .inl s' → P s') :
    ∃ s t₀, SInv p xs ls δ σ₀ (gap p lam ls) s ∧ P s ∧ body o u m s = .inr (e, t₀) ∧ t = finish u t₀ := by
  unfold run at h
  rw [Option.map_eq_some_iff] at h
  obtain ⟨r, hr, he⟩ := h
  cases he
  obtain ⟨s, ⟨h1, h2⟩, h3⟩ := iterate_inv (step := body o u m) (fun s => SInv p xs ls δ σ₀ (gap p lam ls) s ∧ P s)
    (fun r => ∃ s, (SInv p xs ls δ σ₀ (gap p lam ls) s ∧ P s) ∧ body o u m s = .inr r)
    (fun s s' hs' hst => ⟨body_sinv ho hγ hu hδ hs hσ₀ hs'.1 hst, hP s s' hs'.1 hs'.2 hst⟩) (fun s r hs' hst => ⟨s, hs', hst⟩)
    fuel _ _ ⟨start_sinv hu hlen w x, h0⟩ hr
  exact ⟨s, r.2, h1, h2, h3, rfl⟩

/-- **C279** Suppose the constrained problem has Lagrange multipliers `ls` (with the minimiser `xs`) and every inner run
returns a minimiser of the augmented Lagrangian, up to `δ / sigma`.  Then whatever the callbacks do and however the run ends,
at every update of the outer loop the multipliers are not further from `ls` than initially (up to `2 δ` per inner run), the
constraints are violated by at most `2 ‖lambda₀ - ls‖ / sigma` (for `δ = 0`), and the objective is within
`(‖ls‖ + ‖lambda₀ - ls‖)² / (2 sigma)` above and `‖ls‖` times the violation below the optimum. -/
theorem C279_updates (ho : RealOps o τ γ) (hγ : 1 ≤ γ) (hu : Solves u p δ) (hδ : 0 ≤ δ) (hs : Saddle p xs ls) (hσ₀ : 0 < σ₀)
    {lam : List ℝ} (hlen : lam.length = p.numConstraints) {fuel : Nat} {ob ob' : Obj ℝ} {w : W} {x : V} {e : Exit} {t : St W V ℝ}
    (h : run o u m fuel ob lam σ₀ w x = some (ob', e, t)) {R Λ : ℝ}
    (hR : R = ∑ i ∈ Finset.range p.numConstraints, (lam.getD i 0 - ls i) ^ 2 + 2 * δ * (t.trace.filter isSolved).length)
    (hΛ : Λ = √(∑ i ∈ Finset.range p.numConstraints, ls i ^ 2)) (q : Upd V ℝ) (hq : .update q ∈ t.trace) :
    q.penalty = ∑ i ∈ Finset.range p.numConstraints, p.c i q.x ^ 2 ∧ σ₀ ≤ q.sigma ∧
    ∑ i ∈ Finset.range p.numConstraints, (q.lam.getD i 0 - ls i) ^ 2 ≤ R ∧
    √q.penalty ≤ (√R + √(R + 2 * δ)) / q.sigma ∧
    p.f q.x ≤ p.f xs + (δ + (Λ + √R) ^ 2 / 2) / q.sigma ∧ p.f xs - Λ * √q.penalty ≤ p.f q.x := by
  obtain ⟨s, t₀, h1, -, h2, rfl⟩ := run_sinv ho hγ hu hδ hs hσ₀ hlen h (fun _ => True) trivial (fun _ _ _ _ _ => trivial)
  change .update q ∈ t₀.trace at hq
  change R = gap p lam ls + 2 * δ * (t₀.trace.filter isSolved).length at hR
  have key : GoodPt p xs ls δ σ₀ (gap p lam ls) (t₀.trace.filter isSolved).length q := by
    rcases (body_pass (m := m) ho hu ls h1.len).2 e t₀ h2 with ⟨-, -, -, -, -, -, l, hl, htr⟩ | ⟨-, -, r, l, hr, hl, htr⟩ | ⟨-, -, htr⟩
    · rw [htr] at hq ⊢
      simp only [List.mem_append, List.mem_cons, reduceCtorEq, false_or] at hq
      refine (h1.upd q (hq.resolve_right (quiet_update hl q))).mono hδ ?_
      rw [← h1.count, List.filter_append, List.length_append]
      omega
    · rw [htr] at hq ⊢
      rw [count_pass hl (by intro e he; cases he), h1.count]
      rcases mem_pass hl (by intro e he; cases he) hq with hq | rfl
      · exact (h1.upd q hq).mono hδ (by omega)
      · exact (hr.good hu hσ₀ h1).mono hδ (by omega)
    · rcases htr with htr | ⟨y, l, hl, htr⟩
      · rw [htr] at hq ⊢
        rw [h1.count]
        exact h1.upd q hq
      · rw [htr] at hq ⊢
        simp only [List.mem_append, List.mem_cons, reduceCtorEq, false_or] at hq
        refine (h1.upd q (hq.resolve_right (quiet_update hl q))).mono hδ ?_
        rw [← h1.count, List.filter_append, List.length_append]
        omega
  have hσ := hσ₀.trans_le key.sigma
  have hg := key.gap
  rw [← hR] at hg
  refine ⟨key.penalty, key.sigma, hg, ?_, ?_, ?_⟩
  · rw [key.penalty]; exact near_pen hs hσ hδ key.near hg
  · rw [hΛ]; exact near_upper hs hσ key.near hg
  · rw [hΛ, key.penalty]; exact near_lower hs q.x

/-- **C279** When it returns `true` (so that `sigma > 500000`), the coordinates nearly satisfy the constraints and are nearly
optimal. -/
theorem C279_converged (ho : RealOps o τ γ) (hγ : 1 ≤ γ) (hu : Solves u p δ) (hδ : 0 ≤ δ) (hs : Saddle p xs ls) (hσ₀ : 0 < σ₀)
    (hend : ∀ w x, (u.cbEnd w x).2 = x)
    {lam : List ℝ} (hlen : lam.length = p.numConstraints) {fuel : Nat} {ob ob' : Obj ℝ} {w : W} {x : V} {t : St W V ℝ}
    (h : run o u m fuel ob lam σ₀ w x = some (ob', .converged, t)) {R Λ v : ℝ}
    (hR : R = ∑ i ∈ Finset.range p.numConstraints, (lam.getD i 0 - ls i) ^ 2 + 2 * δ * (t.trace.filter isSolved).length)
    (hΛ : Λ = √(∑ i ∈ Finset.range p.numConstraints, ls i ^ 2)) (hv : v = √(∑ i ∈ Finset.range p.numConstraints, p.c i t.x ^ 2)) :
    v ≤ (√R + √(R + 2 * δ)) / 500000 ∧ p.f t.x ≤ p.f xs + (δ + (Λ + √R) ^ 2 / 2) / 500000 ∧ p.f xs - Λ * v ≤ p.f t.x ∧
      ∑ i ∈ Finset.range p.numConstraints, (t.lam.getD i 0 - ls i) ^ 2 ≤ R := by
  obtain ⟨s, t₀, h1, -, h2, rfl⟩ := run_sinv ho hγ hu hδ hs hσ₀ hlen h (fun _ => True) trivial (fun _ _ _ _ _ => trivial)
  have hx : (finish u t₀).x = t₀.x := hend _ _
  rw [hx] at hv ⊢
  change R = gap p lam ls + 2 * δ * (t₀.trace.filter isSolved).length at hR
  change v = √(pen p t₀.x) at hv
  rcases (body_pass (m := m) ho hu ls h1.len).2 _ t₀ h2 with ⟨-, hy, hl, -, hbig, -, l, hql, htr⟩ | ⟨h3, -⟩ | ⟨h3, -⟩
  rotate_left
  · cases h3
  · cases h3
  have hσ := hσ₀.trans_le h1.sigma
  have hn : (s.it : ℝ) ≤ (t₀.trace.filter isSolved).length := by
    rw [htr, List.filter_append, List.length_append, h1.count]
    push_cast
    linarith [Nat.cast_nonneg (α := ℝ) (List.filter isSolved (Ev.solved t₀.x :: l)).length]
  have hg : gap p s.lam ls ≤ R := by
    have := mul_le_mul_of_nonneg_left hn (by positivity : 0 ≤ 2 * δ)
    linarith [h1.gap]
  have hR0 : 0 ≤ R := (gap_nonneg _ _ _).trans hg
  have hnear := hu.solve s.w s.x s.lam s.sigma hσ h1.len xs
  rw [← hy] at hnear
  have a1 := near_pen hs hσ hδ hnear hg
  have a2 := near_upper hs hσ hnear hg
  have a3 := near_lower hs t₀.x
  rw [← hv] at a1 a3
  rw [← hΛ] at a2 a3
  refine ⟨a1.trans (div_le_div_of_nonneg_left (by positivity) (by norm_num) hbig.le), a2.trans ?_, a3, ?_⟩
  · have := div_le_div_of_nonneg_left (by positivity : 0 ≤ δ + (Λ + √R) ^ 2 / 2) (by norm_num) hbig.le
    linarith
  · show gap p t₀.lam ls ≤ R
    rw [hl]
    exact hg

/-- Counting the two kinds of updates. -/
def Progress (σ₀ τ γ Q : ℝ) (t : St W V ℝ) : Prop :=
  ∃ a b : Nat, a + b = t.it ∧ t.sigma = σ₀ * γ ^ b ∧ (0 < a → t.threshold ≤ τ ^ a * (Q / σ₀) ^ 2) ∧
    (∀ j < a, ∃ q, .update q ∈ t.trace ∧ q.penalty ≤ τ ^ j * (Q / σ₀) ^ 2) ∧
    (∀ j < b, ∃ q, .update q ∈ t.trace ∧ q.penalty ≤ (Q / (σ₀ * γ ^ j)) ^ 2)

theorem body_progress (ho : RealOps o τ γ) (hγ : 1 ≤ γ) (hτ : 0 ≤ τ) (hu : Solves u p 0) (hs : Saddle p xs ls) (hσ₀ : 0 < σ₀)
    {t t' : St W V ℝ} (h : SInv p xs ls 0 σ₀ D t) (hp : Progress σ₀ τ γ (2 * √D) t) (hb : body o u m t = .inl t') :
    Progress σ₀ τ γ (2 * √D) t' := by
  obtain ⟨a, b, hab, hsg, hth, hA, hB⟩ := hp
  obtain ⟨hit, q, l₁, l₂, hq, -, hsig, hq₁, hq₂, htr⟩ := (body_pass (m := m) ho hu ls h.len).1 t' hb
  have hg := hq.good hu hσ₀ h
  have hσ := hσ₀.trans_le h.sigma
  have hpen : pen p q.x ≤ (2 * √D / t.sigma) ^ 2 := by
    have hn := near_pen hs (hσ₀.trans_le hg.sigma) le_rfl hg.near hg.gap
    simp only [mul_zero, zero_mul, add_zero] at hn
    rw [← two_mul, hq.sigma] at hn
    calc pen p q.x = √(pen p q.x) ^ 2 := (Real.sq_sqrt (pen_nonneg _ _)).symm
      _ ≤ _ := pow_le_pow_left₀ (Real.sqrt_nonneg _) hn 2
  have hpen0 : pen p q.x ≤ (2 * √D / σ₀) ^ 2 :=
    hpen.trans (pow_le_pow_left₀ (by positivity) (div_le_div_of_nonneg_left (by positivity) hσ₀ h.sigma) 2)
  have old : ∀ {r}, .update r ∈ t.trace → .update r ∈ t'.trace := by
    intro r hr
    rw [htr]
    simp [hr]
  have new : .update q ∈ t'.trace := by rw [htr]; simp
  have hqp := hq.penalty
  rcases hq.step with ⟨h1, h2, h3, -⟩ | ⟨h2, -, h3⟩
  · have hbnd : pen p q.x ≤ τ ^ a * (2 * √D / σ₀) ^ 2 := by
      rcases Nat.eq_zero_or_pos a with rfl | ha
      · simpa using hpen0
      · exact h1.le.trans (hth ha)
    refine ⟨a + 1, b, by omega, by rw [hsig, h3, hsg], fun _ => ?_, fun j hj => ?_, fun j hj => ?_⟩
    · rw [h2, pow_succ', mul_assoc]
      exact mul_le_mul_of_nonneg_left hbnd hτ
    · rcases Nat.lt_succ_iff_lt_or_eq.1 hj with hj | rfl
      · obtain ⟨r, r1, r2⟩ := hA j hj
        exact ⟨r, old r1, r2⟩
      · exact ⟨q, new, by rw [hqp]; exact hbnd⟩
    · obtain ⟨r, r1, r2⟩ := hB j hj
      exact ⟨r, old r1, r2⟩
  · refine ⟨a, b + 1, by omega, by rw [hsig, h3, hsg]; ring, fun ha => by rw [h2]; exact hth ha, fun j hj => ?_, fun j hj => ?_⟩
    · obtain ⟨r, r1, r2⟩ := hA j hj
      exact ⟨r, old r1, r2⟩
    · rcases Nat.lt_succ_iff_lt_or_eq.1 hj with hj | rfl
      · obtain ⟨r, r1, r2⟩ := hB j hj
        exact ⟨r, old r1, r2⟩
      · exact ⟨q, new, by rw [hqp, ← hsg]; exact hpen⟩

/-- **C279** With exact inner runs the violation becomes as small as wanted: among any `A + B + 2` inner runs there is one whose
result violates the constraints by at most `2 ‖lambda₀ - ls‖ / sigma₀` times the larger of `sqrt(penaltyThresholdFactor) ^ A`
and `sigmaUpdateFactor ^ -B`. -/
theorem C279_progress (ho : RealOps o τ γ) (hγ : 1 ≤ γ) (hτ : 0 ≤ τ) (hu : Solves u p 0) (hs : Saddle p xs ls) (hσ₀ : 0 < σ₀)
    {lam : List ℝ} (hlen : lam.length = p.numConstraints) {fuel : Nat} {ob ob' : Obj ℝ} {w : W} {x : V} {e : Exit} {t : St W V ℝ}
    (h : run o u m fuel ob lam σ₀ w x = some (ob', e, t)) {A B : Nat} (hAB : A + B + 2 ≤ (t.trace.filter isSolved).length) :
    ∃ y, .solved y ∈ t.trace ∧ ∑ i ∈ Finset.range p.numConstraints, p.c i y ^ 2 ≤
      max (τ ^ A) ((1 / γ) ^ (2 * B)) * (4 * (∑ i ∈ Finset.range p.numConstraints, (lam.getD i 0 - ls i) ^ 2) / σ₀ ^ 2) := by
  set D := gap p lam ls with hD
  have hD0 : 0 ≤ D := gap_nonneg _ _ _
  change ∃ y, .solved y ∈ t.trace ∧ pen p y ≤ max (τ ^ A) ((1 / γ) ^ (2 * B)) * (4 * D / σ₀ ^ 2)
  have hQ : (2 * √D / σ₀) ^ 2 = 4 * D / σ₀ ^ 2 := by
    rw [div_pow, mul_pow, Real.sq_sqrt hD0]; norm_num
  let P : St W V ℝ → Prop := fun s => Progress σ₀ τ γ (2 * √D) s ∧ ∀ q, .update q ∈ s.trace → .solved q.x ∈ s.trace
  obtain ⟨s, t₀, h1, ⟨hp, hsol⟩, h2, rfl⟩ := run_sinv ho hγ hu le_rfl hs hσ₀ hlen h P
    ⟨⟨0, 0, rfl, by simp [start], by simp, by simp, by simp⟩, fun q hq => by
      obtain ⟨p1, -, -, -⟩ := penaltyOf_spec o u (C := p.c) hu.cons x (u.eval w x).1 ob.terminate
      exact absurd hq (quiet_update p1 q)⟩ (by
      rintro s s' i1 ⟨i2, i3⟩ i4
      refine ⟨body_progress ho hγ hτ hu hs hσ₀ i1 i2 i4, ?_⟩
      obtain ⟨-, q, l₁, l₂, -, -, -, hq₁, hq₂, htr⟩ := (body_pass (m := m) ho hu ls i1.len).1 s' i4
      intro r hr
      rw [htr] at hr ⊢
      rcases mem_pass hq₁ hq₂ hr with hr | rfl
      · simp [i3 r hr]
      · simp)
  obtain ⟨a, b, hab, -, -, hA, hB⟩ := hp
  have hsub : ∀ q, .update q ∈ s.trace → .solved q.x ∈ (finish u t₀).trace := by
    intro q hq
    show .solved q.x ∈ t₀.trace
    have := hsol q hq
    rcases (body_pass (m := m) ho hu ls h1.len).2 e t₀ h2 with ⟨-, -, -, -, -, -, l, -, htr⟩ | ⟨-, -, r, l, -, -, htr⟩ | ⟨-, -, htr | ⟨_, l, -, htr⟩⟩ <;>
      rw [htr] <;> simp [this]
  have hit : A + B + 1 ≤ s.it := by
    change A + B + 2 ≤ (t₀.trace.filter isSolved).length at hAB
    rcases (body_pass (m := m) ho hu ls h1.len).2 e t₀ h2 with ⟨-, -, -, -, -, -, l, hl, htr⟩ | ⟨-, -, r, l, -, hl, htr⟩ | ⟨-, -, htr | ⟨_, l, hl, htr⟩⟩
    · rw [htr, List.filter_append, List.filter_cons_of_pos (by rfl), filter_quiet fun e he => (hl e he).1, List.length_append, h1.count] at hAB
      simp at hAB
      omega
    · rw [htr, count_pass hl (by intro e he; cases he), h1.count] at hAB
      omega
    · rw [htr, h1.count] at hAB
      omega
    · rw [htr, List.filter_append, List.filter_cons_of_pos (by rfl), filter_quiet fun e he => (hl e he).1, List.length_append, h1.count] at hAB
      simp at hAB
      omega
  have hpos : 0 ≤ 4 * D / σ₀ ^ 2 := by positivity
  rcases (by omega : A < a ∨ B < b) with h3 | h3
  · obtain ⟨q, q1, q2⟩ := hA A h3
    refine ⟨q.x, hsub q q1, ?_⟩
    rw [(h1.upd q q1).penalty, hQ] at q2
    exact q2.trans (mul_le_mul_of_nonneg_right (le_max_left _ _) hpos)
  · obtain ⟨q, q1, q2⟩ := hB B h3
    refine ⟨q.x, hsub q q1, ?_⟩
    rw [(h1.upd q q1).penalty] at q2
    have hγ' : (0 : ℝ) < γ := by linarith
    have e : (2 * √D / (σ₀ * γ ^ B)) ^ 2 = (1 / γ) ^ (2 * B) * (4 * D / σ₀ ^ 2) := by
      rw [← hQ, pow_mul', one_div, inv_pow]
      field_simp
    rw [e] at q2
    exact q2.trans (mul_le_mul_of_nonneg_right (le_max_right _ _) hpos)

end loop

/-! ### A problem with one constraint -/

open scoped Classical in
/-- Exact arithmetic with the constants of the code. -/
noncomputable def realOps : Ops ℝ where
  zero := 0
  add a b := a + b
  sq c := c ^ 2
  lamUpd l s c := l - s * c
  scale p := 1 / 4 * p
  grow s := s * 10
  close a b := decide (|a - b| < 1000 * (1 / 2 ^ 52))
  big s := decide (500000 < s)
  huge s := decide (2 ^ 1023 ≤ s)
  below p t := decide (p < t)
  maxE := 2 ^ 1024
  ten := 10

theorem realOps_real : RealOps realOps (1 / 4) 10 := by
  refine ⟨rfl, fun _ _ => rfl, fun _ => rfl, fun _ _ _ => rfl, fun _ => rfl, fun _ => rfl, fun _ _ => ?_, fun s h => ?_⟩
  · simp [realOps]
  · simpa [realOps] using h

/-- Minimise `x² / 2` subject to `x = 1`. -/
noncomputable def toyFn : Fn ℝ where
  numConstraints := 1
  f x := x ^ 2 / 2
  g x := x
  c _ x := x - 1
  gc _ _ := 1

/-- With the exact minimiser of the augmented Lagrangian. -/
noncomputable def toy : User Unit ℝ ℝ where
  numConstraints := 1
  eval w x := (w, x ^ 2 / 2)
  cons w _ x := (w, x - 1)
  solve w _ lam σ := (w, (lam.getD 0 0 + σ) / (1 + σ))
  cbBegin w x := (w, x)
  cbCons w _ _ _ := (w, false)
  cbEval w _ _ := (w, false)
  cbStep w x := (w, x, false)
  cbEnd w x := (w, x)

theorem toy_solves : Solves toy toyFn 0 where
  num := rfl
  eval _ _ := rfl
  cons _ _ _ := rfl
  solve w x lam σ hσ _ y := by
    rw [evaluate_sum, evaluate_sum, pen, pen]
    simp only [toyFn, toy, Finset.sum_range_one, zero_div, add_zero]
    have h : (1 + σ) ≠ 0 := by positivity
    have key : y ^ 2 / 2 - lam.getD 0 0 * (y - 1) + σ / 2 * (y - 1) ^ 2 -
        (((lam.getD 0 0 + σ) / (1 + σ)) ^ 2 / 2 - lam.getD 0 0 * ((lam.getD 0 0 + σ) / (1 + σ) - 1) +
          σ / 2 * ((lam.getD 0 0 + σ) / (1 + σ) - 1) ^ 2) =
        (1 + σ) / 2 * (y - (lam.getD 0 0 + σ) / (1 + σ)) ^ 2 := by
      field_simp
      ring
    have : 0 ≤ (1 + σ) / 2 * (y - (lam.getD 0 0 + σ) / (1 + σ)) ^ 2 := by positivity
    linarith

theorem toy_saddle : Saddle toyFn 1 (fun _ => 1) where
  feas _ _ := by simp [toyFn]
  dual x := by
    simp only [toyFn, Finset.sum_range_one]
    nlinarith [sq_nonneg (x - 1)]

/-- Whatever the limit on the iterations, the bounds hold for the run from `lambda = 0`, `sigma = 10`. -/
example (m : Nat) (hm : 0 < m) (x : ℝ) : ∃ ob' e t, run realOps toy m m ⟨[], 0, false⟩ [0] 10 () x = some (ob', e, t) ∧
    ∀ q, .update q ∈ t.trace → √q.penalty ≤ 2 / q.sigma := by
  obtain ⟨ob', e, t, h1, -⟩ := C51_outer_loop (o := realOps) (u := toy) (F := fun x => x ^ 2 / 2)
    (C := fun _ x => x - 1) (le := fun _ _ => True) (m := m) (σ₀ := 10) (fun _ _ => rfl) (fun _ _ _ => rfl)
    (fun _ _ _ => trivial) trivial (fun _ _ => rfl) (lam := [0]) rfl hm ⟨[], 0, false⟩ () x
  refine ⟨ob', e, t, h1, fun q hq => ?_⟩
  obtain ⟨-, -, -, h, -⟩ := C279_updates realOps_real (by norm_num) toy_solves le_rfl toy_saddle (by norm_num : (0 : ℝ) < 10) rfl h1 rfl
    rfl q hq
  simpa [toyFn, one_add_one_eq_two] using h

/-- A run that returns `true`. -/
example : ∃ ob' t, run realOps toy 0 1 ⟨[], 0, false⟩ [1] (10 ^ 6) () 1 = some (ob', .converged, t) := by
  have h1 : realOps.close ((1 : ℝ) ^ 2 / 2) (((1 + 10 ^ 6) / (1 + 10 ^ 6)) ^ 2 / 2) = true := by norm_num [realOps]
  have h2 : realOps.big (10 ^ 6) = true := by norm_num [realOps]
  unfold run iterate body
  rw [if_pos ⟨.inl rfl, rfl⟩, if_neg (by simp [start, toy])]
  unfold afterInner
  rw [if_pos]
  · exact ⟨_, _, rfl⟩
  · rw [Bool.and_eq_true]
    exact ⟨h1, h2⟩

/-- The states of the run below. -/
structure Endless (t : St Unit ℝ ℝ) (l : ℝ) : Prop where
  lam : t.lam = [l]
  sigma : t.sigma = 10
  thr : ((l - 1) / 11) ^ 2 < t.threshold
  term : t.term = false
  ne : l ≠ 1

theorem endless_step {t : St Unit ℝ ℝ} {l : ℝ} (h : Endless t l) {m : Nat} (hm : m = 0 ∨ t.it ≠ m - 1) :
    ∃ t', body realOps toy m t = .inl t' ∧ Endless t' (1 + (l - 1) / 11) := by
  have h1 : t.lam = [l] := h.lam
  have hx : (l + 10) / (1 + 10) - 1 = (l - 1) / 11 := by ring
  have hb : realOps.below (0 + ((l + 10) / (1 + 10) - 1) ^ 2) t.threshold = true := by
    simp only [realOps, decide_eq_true_eq, zero_add, hx]
    exact h.thr
  have hbig : realOps.big 10 = false := by norm_num [realOps]
  have hb' : realOps.below ((penaltyOf realOps toy ((l + 10) / (1 + 10)) () false).2.1) t.threshold = true := hb
  unfold body
  rw [if_pos ⟨hm, h.term⟩, if_neg (by rw [h1]; simp [toy])]
  unfold afterInner
  rw [if_neg (by
    rw [show (inner toy t).1.sigma = 10 from h.sigma, hbig, Bool.and_false]
    decide)]
  have ei : (inner toy t).1.x = (l + 10) / (1 + 10) := by
    show (t.lam.getD 0 0 + t.sigma) / (1 + t.sigma) = _
    rw [h1, h.sigma]
    rfl
  have et : (inner toy t).1.term = false := by
    show (t.term || false) = false
    rw [h.term]; rfl
  have ew : (inner toy t).1.w = () := rfl
  rw [ei, et, ew]
  simp only []
  rw [if_neg (by
    show ¬ (penaltyOf realOps toy ((l + 10) / (1 + 10)) () false).2.2.1 = true
    simp [penaltyOf, penaltyLoop, toy])]
  unfold updateStep
  rw [if_pos (show realOps.below _ (inner toy t).1.threshold = true from hb')]
  refine ⟨_, rfl, ?_, ?_, ?_, ?_, ?_⟩
  · show ((inner toy t).1.lam.set 0 ((inner toy t).1.lam.getD 0 0 - (inner toy t).1.sigma * ((l + 10) / (1 + 10) - 1))) = _
    rw [show (inner toy t).1.lam = [l] from h1, show (inner toy t).1.sigma = 10 from h.sigma]
    simp only [List.set_cons_zero, List.getD_cons_zero, List.cons.injEq, and_true]
    ring
  · exact h.sigma
  · show _ < 1 / 4 * (0 + ((l + 10) / (1 + 10) - 1) ^ 2)
    rw [hx]
    have : 0 < (l - 1) ^ 2 := by
      have := sub_ne_zero.2 h.ne
      positivity
    nlinarith
  · simp [lambdaOf, lambdaLoop, penaltyOf, penaltyLoop, toy]
  · intro hc
    have := sub_ne_zero.2 h.ne
    apply this
    linarith

theorem endless_start (x : ℝ) : Endless (start realOps toy false [0] 10 () x) 0 := by
  refine ⟨rfl, rfl, ?_, ?_, by norm_num⟩
  · show _ < (2 : ℝ) ^ 1024
    have : (1 : ℝ) < 2 ^ 1024 := one_lt_pow₀ (by norm_num) (by norm_num)
    refine lt_trans ?_ this
    norm_num
  · simp [start, penaltyOf, penaltyLoop, toy]

/-- **C279** (refuted) "The optimization converges, so no limit on the iterations is needed": with `maxIterations = 0`, exact
inner runs, exact arithmetic and the default parameters the outer loop never ends on `x² / 2` subject to `x = 1`.  The
violation falls by the factor 121 each time, so that only the multipliers are updated and `sigma` stays 10, but `true` is
returned only for `sigma > 500000`.  (With floating point numbers rounding ends this at some time.) -/
theorem C279_unlimited_refuted : ¬ ∀ (u : User Unit ℝ ℝ) (p : Fn ℝ) (xs : ℝ) (ls : Nat → ℝ), Solves u p 0 → Saddle p xs ls →
    ∀ x, ∃ fuel, (run realOps u 0 fuel ⟨[], 0, false⟩ (List.replicate p.numConstraints 0) 10 () x).isSome := by
  intro h
  obtain ⟨fuel, hf⟩ := h toy toyFn 1 (fun _ => 1) toy_solves toy_saddle 0
  have key : ∀ (fuel : Nat) (t : St Unit ℝ ℝ) (l : ℝ), Endless t l → iterate (body realOps toy 0) fuel t = none := by
    intro fuel
    induction fuel with
    | zero => intros; rfl
    | succ n ih =>
      intro t l ht
      obtain ⟨t', h1, h2⟩ := endless_step ht (.inl rfl)
      rw [iterate, h1]
      exact ih t' _ h2
  rw [run, show List.replicate toyFn.numConstraints (0 : ℝ) = [0] from rfl, key fuel _ 0 (endless_start 0)] at hf
  cases hf

/-- Two inner runs with `maxIterations = 3`; one of the points violates the constraint by at most `1 / 5`. -/
example : ∃ ob' e t, run realOps toy 3 3 ⟨[], 0, false⟩ [0] 10 () 0 = some (ob', e, t) ∧
    ∃ y, .solved y ∈ t.trace ∧ (y - 1) ^ 2 ≤ 1 / 25 := by
  obtain ⟨t₁, a1, a2⟩ := endless_step (endless_start 0) (m := 3) (.inr (by simp [start]))
  obtain ⟨i1, -⟩ := (body_pass (m := 3) realOps_real toy_solves (fun _ => 1) (by rw [(endless_start 0).lam]; rfl)).1 t₁ a1
  have i0 : (start realOps toy false [0] 10 () 0).it = 0 := rfl
  obtain ⟨t₂, b1, b2⟩ := endless_step a2 (m := 3) (.inr (by rw [i1, i0]; decide))
  obtain ⟨i2, -⟩ := (body_pass (m := 3) realOps_real toy_solves (fun _ => 1) (by rw [a2.lam]; rfl)).1 t₂ b1
  have c1 : body realOps toy 3 t₂ = .inr (.loop, t₂) := by
    unfold body
    rw [if_neg]
    rw [i2, i1, i0]
    simp
  have s0 : SInv toyFn 1 (fun _ => 1) 0 10 (gap toyFn [0] fun _ => 1) (start realOps toy false [0] 10 () 0) :=
    start_sinv toy_solves rfl () 0
  have s2 := body_sinv realOps_real (by norm_num) toy_solves le_rfl toy_saddle (by norm_num)
    (body_sinv realOps_real (by norm_num) toy_solves le_rfl toy_saddle (by norm_num) s0 a1) b1
  have hrun : run realOps toy 3 3 ⟨[], 0, false⟩ [0] 10 () 0 =
      some (store ⟨[], 0, false⟩ (.loop, t₂), .loop, finish toy t₂) := by
    unfold run
    simp only [iterate, a1, b1, c1]
    rfl
  obtain ⟨y, h1, h2⟩ := C279_progress realOps_real (by norm_num) (by norm_num) toy_solves toy_saddle (by norm_num) rfl hrun
    (A := 0) (B := 0) (by
      show 2 ≤ (t₂.trace.filter isSolved).length
      rw [s2.count, i2, i1, i0])
  refine ⟨_, _, _, hrun, y, h1, ?_⟩
  simp only [toyFn, Finset.sum_range_one, pow_zero, mul_zero, max_self, List.getD_cons_zero] at h2
  norm_num at h2
  linarith

end Ens.AugLag
