import Mathlib.Analysis.InnerProductSpace.LinearMap
import Mathlib.Tactic.Linarith
import Mathlib.Tactic.Module
import Mathlib.Tactic.FieldSimp

/-
C39, C40: the search direction of L-BFGS (`lbfgs/lbfgs_impl.hpp`).
-/

namespace Ens.Lbfgs

/-! ### Model -/

section Model

variable {R V : Type} [Field R] [DecidableEq R] [AddCommGroup V] [Module R V]

/-- `searchDirection`, `rho`, `alpha` (lbfgs_impl.hpp:126, 133-134). -/
structure Dir (R V : Type) where
  dir : V
  rho : Nat → R
  alpha : Nat → R

/-- Body of the first loop (lbfgs_impl.hpp:138-154). `dot` is `arma::dot`. -/
def firstStep (dot : V → V → R) (numBasis it : Nat) (s y : Nat → V) (st : Dir R V) (i : Nat) : Dir R V :=
  let pos := (i + (numBasis - 1)) % numBasis
  let tmp := dot (y pos) (s pos)
  let r := if tmp ≠ 0 then 1 / tmp else 1
  let a := r * dot (s pos) st.dir
  ⟨st.dir - a • y pos, Function.update st.rho (it - i) r, Function.update st.alpha (it - i) a⟩

/-- Body of the second loop (lbfgs_impl.hpp:159-166). -/
def secondStep (dot : V → V → R) (numBasis it : Nat) (s y : Nat → V) (rho alpha : Nat → R) (dir : V) (i : Nat) : V :=
  let pos := i % numBasis
  let beta := rho (it - i - 1) * dot (y pos) dir
  dir + (alpha (it - i - 1) - beta) • s pos

/-- `limit` (lbfgs_impl.hpp:136). -/
def limit (numBasis it : Nat) : Nat := if it < numBasis then 0 else it - numBasis

/-- `SearchDirection` (lbfgs_impl.hpp:117-170). The initial contents of `rho` and `alpha` are never read. -/
def searchDirection (dot : V → V → R) (numBasis : Nat) (gradient : V) (it : Nat) (scalingFactor : R)
    (s y : Nat → V) : V :=
  let l := limit numBasis it
  let st := ((List.range' (l + 1) (it - l)).reverse).foldl (firstStep dot numBasis it s y)
    ⟨gradient, fun _ => 0, fun _ => 0⟩
  let d := (List.range' l (it - l)).foldl (secondStep dot numBasis it s y st.rho st.alpha)
    (scalingFactor • st.dir)
  (-1 : R) • d

/-- `UpdateBasisSet` for one of the two cubes (lbfgs_impl.hpp:184-197). -/
def updateBasis (numBasis it : Nat) (ring : Nat → V) (v : V) : Nat → V :=
  Function.update ring (it % numBasis) v

/-- The cube after the updates of iterations `0 .. it-1` with values `hist`. -/
def ringAfter (numBasis : Nat) (init : Nat → V) (hist : Nat → V) : Nat → Nat → V
  | 0 => init
  | it + 1 => updateBasis numBasis it (ringAfter numBasis init hist it) (hist it)

end Model

/-! ### C40 -/

theorem ringAfter_get {V : Type} (nb : Nat) (hnb : 0 < nb) (init hist : Nat → V) : ∀ (it k : Nat), k < it →
    it ≤ k + nb → ringAfter nb init hist it (k % nb) = hist k := by
  intro it
  induction it with
  | zero => intro k h; omega
  | succ it ih =>
    intro k hk hk2
    rw [ringAfter, updateBasis]
    rcases Nat.lt_or_eq_of_le (Nat.lt_succ_iff.1 hk) with h | rfl
    · rw [Function.update_of_ne, ih k h (by omega)]
      intro heq
      have h1 := Nat.div_add_mod k nb
      have h2 := Nat.div_add_mod it nb
      rw [heq] at h1
      have h3 : nb * (it / nb) = nb * (k / nb) + (it - k) := by omega
      have h4 : nb ∣ it - k := by
        have : it - k = nb * (it / nb) - nb * (k / nb) := by omega
        rw [this, ← Nat.mul_sub]
        exact Nat.dvd_mul_right _ _
      exact absurd (Nat.le_of_dvd (by omega) h4) (by omega)
    · rw [Function.update_self]

/-- The pairs of iterations `lo .. lo+n-1`, newest first. -/
def pairs {V : Type} (s y : Nat → V) (lo n : Nat) : List (V × V) :=
  (List.range' lo n).reverse.map fun k => (s k, y k)

section Rec

variable {R V : Type} [Field R] [DecidableEq R] [AddCommGroup V] [Module R V]

/-- The factor used for a pair. -/
def rhoOf (dot : V → V → R) (p : V × V) : R := if dot p.2 p.1 ≠ 0 then 1 / dot p.2 p.1 else 1

/-- "A recursive formula to compute H * g" for the pairs (newest first). -/
def recH (dot : V → V → R) (scale : R) : List (V × V) → V → V
  | [], g => scale • g
  | p :: rest, g =>
    let a := rhoOf dot p * dot p.1 g
    let r := recH dot scale rest (g - a • p.2)
    r + (a - rhoOf dot p * dot p.2 r) • p.1

theorem loops_eq (dot : V → V → R) (nb : Nat) (hnb : 0 < nb) (it lo : Nat) (scale : R)
    (s y S Y : Nat → V) : ∀ (n : Nat), lo + n ≤ it → (∀ k, lo ≤ k → k < lo + n → s (k % nb) = S k ∧ y (k % nb) = Y k) →
    ∀ (st0 : Dir R V) (rho alpha : Nat → R),
    let st := ((List.range' (lo + 1) n).reverse).foldl (firstStep dot nb it s y) st0
    (∀ i, lo < i → i ≤ lo + n → rho (it - i) = st.rho (it - i) ∧ alpha (it - i) = st.alpha (it - i)) →
    (List.range' lo n).foldl (secondStep dot nb it s y rho alpha) (scale • st.dir) =
      recH dot scale (pairs S Y lo n) st0.dir ∧
    (∀ j, it - (lo + n) > j → st.rho j = st0.rho j ∧ st.alpha j = st0.alpha j) := by
  intro n
  induction n with
  | zero => intro _ _ st0 rho alpha; simp [pairs, recH]
  | succ n ih =>
    intro hle hring st0 rho alpha st hagree
    have hrev : (List.range' (lo + 1) (n + 1)).reverse =
        (lo + n + 1) :: (List.range' (lo + 1) n).reverse := by
      rw [List.range'_concat, List.reverse_append]
      simp; omega
    have hst : st = ((List.range' (lo + 1) n).reverse).foldl (firstStep dot nb it s y)
        (firstStep dot nb it s y st0 (lo + n + 1)) := by
      show List.foldl _ _ _ = _
      rw [hrev, List.foldl_cons]
    have hpos : (lo + n + 1 + (nb - 1)) % nb = (lo + n) % nb := by
      rw [show lo + n + 1 + (nb - 1) = lo + n + nb by omega, Nat.add_mod_right]
    obtain ⟨hs, hy⟩ := hring (lo + n) (by omega) (by omega)
    obtain ⟨h1, h2⟩ := ih (by omega) (fun k a b => hring k a (by omega))
      (firstStep dot nb it s y st0 (lo + n + 1)) rho alpha
      (by rw [← hst]; intro i a b; exact hagree i a (by omega))
    rw [← hst] at h1 h2
    obtain ⟨h3, h4⟩ := h2 (it - (lo + n + 1)) (by omega)
    obtain ⟨h5, h6⟩ := hagree (lo + n + 1) (by omega) (by omega)
    refine ⟨?_, ?_⟩
    · rw [List.range'_concat, List.foldl_append, h1]
      simp only [Nat.one_mul, List.foldl_cons, List.foldl_nil, secondStep]
      have hp : pairs S Y lo (n + 1) = (S (lo + n), Y (lo + n)) :: pairs S Y lo n := by
        unfold pairs
        rw [List.range'_concat, List.reverse_append]
        simp
      rw [show it - (lo + n) - 1 = it - (lo + n + 1) by omega, h5, h6, h3, h4, hp]
      simp only [firstStep, Function.update_self, recH, hpos, hs, hy, rhoOf]
    · intro j hj
      obtain ⟨a, b⟩ := h2 j (by omega)
      rw [a, b]
      simp only [firstStep]
      rw [Function.update_of_ne (by omega), Function.update_of_ne (by omega)]
      exact ⟨rfl, rfl⟩

/-- **C40** At iteration `it`, with the cubes filled by the previous iterations, `SearchDirection` uses exactly the
pairs of the last `min(it, numBasis)` iterations, newest first. -/
theorem C40_memory (dot : V → V → R) (numBasis : Nat) (hnb : 0 < numBasis) (g : V) (it : Nat) (scale : R)
    (s₀ y₀ S Y : Nat → V) :
    searchDirection dot numBasis g it scale (ringAfter numBasis s₀ S it) (ringAfter numBasis y₀ Y it) =
      -recH dot scale (((List.range (min it numBasis)).map fun k => (S (it - 1 - k), Y (it - 1 - k)))) g := by
  unfold searchDirection
  simp only
  set l := limit numBasis it with hl
  have hlit : l ≤ it ∧ it ≤ l + numBasis ∧ it - l = min it numBasis := by
    rw [hl, limit]; split_ifs <;> omega
  obtain ⟨h1, -⟩ := loops_eq dot numBasis hnb it l scale (ringAfter numBasis s₀ S it) (ringAfter numBasis y₀ Y it) S Y
    (it - l) (by omega) (fun k a b => ⟨ringAfter_get numBasis hnb s₀ S it k (by omega) (by omega),
      ringAfter_get numBasis hnb y₀ Y it k (by omega) (by omega)⟩) ⟨g, fun _ => 0, fun _ => 0⟩ _ _
      (fun i _ _ => ⟨rfl, rfl⟩)
  rw [h1]
  have hp : pairs S Y l (it - l) =
      (List.range (min it numBasis)).map fun k => (S (it - 1 - k), Y (it - 1 - k)) := by
    unfold pairs
    apply List.ext_getElem
    · simp; omega
    · intro i h1 h2
      simp only [List.length_map, List.length_reverse, List.length_range'] at h1
      simp only [List.getElem_map, List.getElem_reverse, List.getElem_range', List.getElem_range,
        List.length_range', Nat.one_mul]
      rw [show l + (it - l - 1 - i) = it - 1 - i by omega]
  rw [hp, neg_one_smul]

end Rec

/-! ### C39 -/

section Bfgs

variable {V : Type} [NormedAddCommGroup V] [InnerProductSpace ℝ V]

open scoped InnerProductSpace

/-- The linear map `v ↦ ⟪b, v⟫ a`. -/
noncomputable def rankOne (a b : V) : V →ₗ[ℝ] V := (innerₛₗ ℝ b).smulRight a

@[simp] theorem rankOne_apply (a b v : V) : rankOne a b v = ⟪b, v⟫_ℝ • a := by
  simp [rankOne]

/-- The BFGS update of the inverse Hessian approximation:
`(I - ρ s yᵀ) H (I - ρ y sᵀ) + ρ s sᵀ`. -/
noncomputable def bfgsUpdate (H : V →ₗ[ℝ] V) (ρ : ℝ) (s y : V) : V →ₗ[ℝ] V :=
  (LinearMap.id - ρ • rankOne s y) ∘ₗ H ∘ₗ (LinearMap.id - ρ • rankOne y s) + ρ • rankOne s s

/-- The approximation after updating `scale * I` with the pairs, oldest pair first. -/
noncomputable def bfgsInverse (scale : ℝ) (oldestFirst : List (V × V)) : V →ₗ[ℝ] V :=
  oldestFirst.foldl (fun H p => bfgsUpdate H (1 / ⟪p.2, p.1⟫_ℝ) p.1 p.2) (scale • LinearMap.id)

theorem recH_eq_bfgs (scale : ℝ) : ∀ (l : List (V × V)), (∀ p ∈ l, ⟪p.2, p.1⟫_ℝ ≠ 0) → ∀ g : V,
    recH (fun a b : V => ⟪a, b⟫_ℝ) scale l g = bfgsInverse scale l.reverse g := by
  intro l
  induction l with
  | nil => intro _ g; simp [recH, bfgsInverse]
  | cons p l ih =>
    intro h g
    have hp := h p (by simp)
    have hrho : rhoOf (fun a b : V => ⟪a, b⟫_ℝ) p = 1 / ⟪p.2, p.1⟫_ℝ := by
      unfold rhoOf; rw [if_pos hp]
    unfold bfgsInverse at ih ⊢
    rw [recH, List.reverse_cons, List.foldl_append, List.foldl_cons, List.foldl_nil]
    simp only [ih (fun q hq => h q (by simp [hq])), hrho]
    generalize List.foldl (fun H (p : V × V) => bfgsUpdate H (1 / ⟪p.2, p.1⟫_ℝ) p.1 p.2)
      (scale • LinearMap.id) l.reverse = H
    simp only [bfgsUpdate, LinearMap.add_apply, LinearMap.comp_apply, LinearMap.sub_apply,
      LinearMap.id_apply, LinearMap.smul_apply, rankOne_apply, smul_smul]
    module

/-- Symmetric and positive definite. -/
def SPD (H : V →ₗ[ℝ] V) : Prop := (∀ u v, ⟪H u, v⟫_ℝ = ⟪u, H v⟫_ℝ) ∧ ∀ u, u ≠ 0 → 0 < ⟪u, H u⟫_ℝ

theorem SPD.nonneg {H : V →ₗ[ℝ] V} (h : SPD H) (u : V) : 0 ≤ ⟪u, H u⟫_ℝ := by
  by_cases hu : u = 0
  · simp [hu]
  · exact (h.2 u hu).le

theorem SPD.update {H : V →ₗ[ℝ] V} (h : SPD H) {s y : V} (hsy : 0 < ⟪y, s⟫_ℝ) :
    SPD (bfgsUpdate H (1 / ⟪y, s⟫_ℝ) s y) := by
  set ρ := 1 / ⟪y, s⟫_ℝ with hρ
  have hρ0 : 0 < ρ := one_div_pos.2 hsy
  have key : ∀ u v, ⟪u, bfgsUpdate H ρ s y v⟫_ℝ =
      ⟪u - (ρ * ⟪s, u⟫_ℝ) • y, H (v - (ρ * ⟪s, v⟫_ℝ) • y)⟫_ℝ + ρ * ⟪s, u⟫_ℝ * ⟪s, v⟫_ℝ := by
    intro u v
    simp only [bfgsUpdate, LinearMap.add_apply, LinearMap.comp_apply, LinearMap.sub_apply,
      LinearMap.id_apply, LinearMap.smul_apply, rankOne_apply, smul_smul, inner_add_right,
      inner_sub_right, inner_sub_left, inner_smul_right, inner_smul_left, RCLike.conj_to_real,
      map_sub, map_smul]
    rw [real_inner_comm u s]
    ring
  constructor
  · intro u v
    rw [real_inner_comm, key, key, real_inner_comm _ (v - _), h.1]
    ring
  · intro u hu
    rw [key]
    by_cases hsu : ⟪s, u⟫_ℝ = 0
    · simp only [hsu, mul_zero, zero_smul, sub_zero, add_zero]
      exact h.2 u hu
    · have h1 := h.nonneg (u - (ρ * ⟪s, u⟫_ℝ) • y)
      have h2 : 0 < ρ * ⟪s, u⟫_ℝ * ⟪s, u⟫_ℝ := by
        rw [mul_assoc]; exact mul_pos hρ0 (mul_self_pos.2 hsu)
      linarith

theorem bfgsInverse_spd {scale : ℝ} (hs : 0 < scale) : ∀ (l : List (V × V)), (∀ p ∈ l, 0 < ⟪p.2, p.1⟫_ℝ) →
    ∀ H : V →ₗ[ℝ] V, SPD H →
    SPD (l.foldl (fun H p => bfgsUpdate H (1 / ⟪p.2, p.1⟫_ℝ) p.1 p.2) H) := by
  intro l
  induction l with
  | nil => intro _ H h; exact h
  | cons p l ih =>
    intro h H hH
    rw [List.foldl_cons]
    exact ih (fun q hq => h q (by simp [hq])) _ (hH.update (h p (by simp)))

theorem spd_smul_id {scale : ℝ} (hs : 0 < scale) : SPD (scale • (LinearMap.id : V →ₗ[ℝ] V)) := by
  constructor
  · intro u v; simp [inner_smul_left, inner_smul_right]
  · intro u hu
    simp only [LinearMap.smul_apply, LinearMap.id_apply, inner_smul_right]
    exact mul_pos hs (real_inner_self_pos.2 hu)

/-- The last `min it numBasis` pairs, oldest first. -/
def lastPairs {V : Type} (S Y : Nat → V) (numBasis it : Nat) : List (V × V) :=
  (List.range' (it - min it numBasis) (min it numBasis)).map fun k => (S k, Y k)

theorem lastPairs_reverse {V : Type} (S Y : Nat → V) (numBasis it : Nat) :
    ((List.range (min it numBasis)).map fun k => (S (it - 1 - k), Y (it - 1 - k))).reverse =
      lastPairs S Y numBasis it := by
  unfold lastPairs
  apply List.ext_getElem
  · simp
  · intro i h1 h2
    simp only [List.length_map, List.length_range'] at h2
    simp only [List.getElem_reverse, List.getElem_map, List.getElem_range, List.getElem_range',
      List.length_map, List.length_range, Nat.one_mul]
    rw [show it - 1 - (min it numBasis - 1 - i) = it - min it numBasis + i by omega]

/-- **C39** If no stored pair has `s·y = 0`, the search direction is `-H g` where `H` is the BFGS inverse-Hessian
approximation obtained from `scale * I` by the pairs of the last `min(it, numBasis)` iterations, oldest first. -/
theorem C39_bfgs_direction (numBasis : Nat) (hnb : 0 < numBasis) (g : V) (it : Nat) (scale : ℝ)
    (s₀ y₀ S Y : Nat → V) (hpairs : ∀ p ∈ lastPairs S Y numBasis it, ⟪p.2, p.1⟫_ℝ ≠ 0) :
    searchDirection (fun a b : V => ⟪a, b⟫_ℝ) numBasis g it scale (ringAfter numBasis s₀ S it)
      (ringAfter numBasis y₀ Y it) = -bfgsInverse scale (lastPairs S Y numBasis it) g := by
  rw [C40_memory _ numBasis hnb, recH_eq_bfgs, lastPairs_reverse]
  intro p hp
  exact hpairs p (by rw [← lastPairs_reverse]; simpa using hp)

/-- **C39** If all stored pairs have positive curvature and the scaling factor is positive, the direction is a descent
direction wherever the gradient is not zero. -/
theorem C39_descent_direction (numBasis : Nat) (hnb : 0 < numBasis) (g : V) (hg : g ≠ 0) (it : Nat) {scale : ℝ}
    (hs : 0 < scale) (s₀ y₀ S Y : Nat → V) (hpairs : ∀ p ∈ lastPairs S Y numBasis it, 0 < ⟪p.2, p.1⟫_ℝ) :
    ⟪g, searchDirection (fun a b : V => ⟪a, b⟫_ℝ) numBasis g it scale (ringAfter numBasis s₀ S it)
      (ringAfter numBasis y₀ Y it)⟫_ℝ < 0 := by
  rw [C39_bfgs_direction numBasis hnb g it scale s₀ y₀ S Y (fun p hp => (hpairs p hp).ne'), inner_neg_right]
  have := (bfgsInverse_spd hs _ hpairs _ (spd_smul_id hs)).2 g hg
  unfold bfgsInverse
  linarith

/-- **C39** The approximation satisfies the secant equation for the newest pair: a gradient equal to the newest `y`
gives the direction `-s`. -/
theorem C39_secant (numBasis : Nat) (hnb : 0 < numBasis) (it : Nat) (hit : 0 < it) (scale : ℝ)
    (s₀ y₀ S Y : Nat → V) (hpairs : ∀ p ∈ lastPairs S Y numBasis it, ⟪p.2, p.1⟫_ℝ ≠ 0) :
    searchDirection (fun a b : V => ⟪a, b⟫_ℝ) numBasis (Y (it - 1)) it scale (ringAfter numBasis s₀ S it)
      (ringAfter numBasis y₀ Y it) = -S (it - 1) := by
  rw [C39_bfgs_direction numBasis hnb _ it scale s₀ y₀ S Y hpairs]
  obtain ⟨n, hn⟩ : ∃ n, min it numBasis = n + 1 := ⟨min it numBasis - 1, by omega⟩
  have hl : lastPairs S Y numBasis it =
      (List.range' (it - (n + 1)) n).map (fun k => (S k, Y k)) ++ [(S (it - 1), Y (it - 1))] := by
    unfold lastPairs
    rw [hn, List.range'_concat, List.map_append]
    simp only [Nat.one_mul, List.map_cons, List.map_nil]
    rw [show it - (n + 1) + n = it - 1 by omega]
  have hp := hpairs (S (it - 1), Y (it - 1)) (by rw [hl]; simp)
  simp only at hp
  rw [hl]
  unfold bfgsInverse
  rw [List.foldl_append, List.foldl_cons, List.foldl_nil]
  generalize List.foldl _ _ _ = H
  simp only [bfgsUpdate, LinearMap.add_apply, LinearMap.comp_apply, LinearMap.sub_apply,
    LinearMap.id_apply, LinearMap.smul_apply, rankOne_apply, smul_smul]
  rw [real_inner_comm (Y (it - 1)) (S (it - 1)), one_div, inv_mul_cancel₀ hp]
  simp

/-- Non-vacuity: one-dimensional pairs with positive curvature, memory 2, iteration 3. -/
example : (∀ p ∈ lastPairs (fun k : Nat => (k + 1 : ℝ)) (fun k => 2 * (k + 1 : ℝ)) 2 3, 0 < ⟪p.2, p.1⟫_ℝ) ∧
    (lastPairs (fun k : Nat => (k + 1 : ℝ)) (fun k => 2 * (k + 1 : ℝ)) 2 3).length = 2 := by
  refine ⟨?_, rfl⟩
  intro p hp
  obtain ⟨k, -, rfl⟩ := List.mem_map.1 hp
  simp only [RCLike.inner_apply, conj_trivial]
  positivity

end Bfgs

end Ens.Lbfgs
