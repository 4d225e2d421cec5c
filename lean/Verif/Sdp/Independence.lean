import Verif.Sdp.Svec
import Verif.Sdp.PrimalDualSolvable

/-
`SDP::HasLinearlyIndependentConstraints` (`sdp/sdp_impl.hpp:56-87`) over the reals. `arma::svd` is a parameter with the
specification `Svd.Spec`. Property C249.
-/

namespace Ens.Independence

open Matrix Ens.Lrsdp Ens.Sdp
open Ens.PrimalDual (Mat Independent)

variable {n : Nat}

/-- `arma::svd(A)` (line 85): the list of singular values. -/
abbrev Svd := ∀ {m k : Nat}, Matrix (Fin m) (Fin k) ℝ → List ℝ

/-- What is used of the decomposition: the number of values, and that the last one is the smallest. -/
structure Svd.Spec (svd : Svd) : Prop where
  length : ∀ {m k : Nat} (A : Matrix (Fin m) (Fin k) ℝ), (svd A).length = min m k
  nonneg : ∀ {m k : Nat} (A : Matrix (Fin m) (Fin k) ℝ) s, (svd A).getLast? = some s → 0 ≤ s
  least : ∀ {m k : Nat} (A : Matrix (Fin m) (Fin k) ℝ) s, m ≤ k → (svd A).getLast? = some s →
    ∀ y, s ^ 2 * (y ⬝ᵥ y) ≤ (y ᵥ* A) ⬝ᵥ (y ᵥ* A)
  attained : ∀ {m k : Nat} (A : Matrix (Fin m) (Fin k) ℝ) s, m ≤ k → (svd A).getLast? = some s →
    ∃ y, y ≠ 0 ∧ (y ᵥ* A) ⬝ᵥ (y ᵥ* A) = s ^ 2 * (y ⬝ᵥ y)

/-- A square matrix as a function of two numbers. -/
def entry (A : Mat n ℝ) (i j : Nat) : ℝ := if h : i < n ∧ j < n then A ⟨i, h.1⟩ ⟨j, h.2⟩ else 0

/-- Lines 73-83: the matrix whose rows are the `Svec`s of the constraint matrices, sparse ones first. -/
noncomputable def rows (p : Sdp (Fin n) ℝ) : Matrix (Fin p.all.length) (Fin (n * (n + 1) / 2)) ℝ :=
  fun i k => (svec n (entry p.all[i].1)).getD k 0

/-- `HasLinearlyIndependentConstraints()` (lines 60-87). `none`: the element access in line 86 is out of bounds (Armadillo
throws `std::logic_error`; undefined if its checks are disabled). -/
noncomputable def check (svd : Svd) (p : Sdp (Fin n) ℝ) : Option Bool :=
  if p.all.length > n * (n + 1) / 2 then some false
  else match (svd (rows p)).getLast? with
    | none => none
    | some s => some (decide (s > 1 / 100000))

/-! ### Lemmas -/

theorem entry_fin (A : Mat n ℝ) (i j : Fin n) : entry A i j = A i j := by
  simp [entry, i.2, j.2]

theorem rows_at (p : Sdp (Fin n) ℝ) (y : Fin p.all.length → ℝ) (i j : Fin n) (hij : i ≤ j) (k : Fin (n * (n + 1) / 2))
    (hk : k.1 = svecIndex i j n) : (y ᵥ* rows p) k = up i j ((∑ l, y l • p.all[l].1) i j) := by
  simp only [vecMul, dotProduct, rows, hk]
  have : ∀ A : Mat n ℝ, (svec n (entry A)).getD (svecIndex i j n) 0 = up i j (A i j) := fun A => by
    rw [svec_get (entry A) hij j.2, entry_fin]
  simp only [this]
  rw [Matrix.sum_apply]
  unfold up
  split_ifs
  · rfl
  · rw [Finset.mul_sum]
    refine Finset.sum_congr rfl fun l _ => ?_
    simp only [Matrix.smul_apply, smul_eq_mul]
    ring

theorem index_exists (k : Fin (n * (n + 1) / 2)) : ∃ i j : Fin n, i ≤ j ∧ k.1 = svecIndex i j n := by
  have hk : k.1 < (pairs n).length := by rw [pairs_length]; exact k.2
  have hm := mem_pairs.1 (List.getElem_mem hk)
  refine ⟨⟨(pairs n)[k.1].1, by omega⟩, ⟨(pairs n)[k.1].2, hm.2⟩, hm.1, ?_⟩
  have h := pairs_get hm.1 hm.2
  have hlt : svecIndex (pairs n)[k.1].1 (pairs n)[k.1].2 n < (pairs n).length := by
    by_contra hc
    rw [List.getElem?_eq_none (by omega)] at h
    simp at h
  rw [List.getElem?_eq_getElem hlt] at h
  exact ((pairs_nodup n).getElem_inj_iff.1 (Option.some.inj h)).symm

theorem up_eq_zero {i j : Nat} {x : ℝ} : up i j x = 0 ↔ x = 0 := by
  unfold up
  split_ifs
  · rfl
  · simp

theorem comb_symm {p : Sdp (Fin n) ℝ} (hA : ∀ a ∈ p.all, a.1.IsSymm) (y : Fin p.all.length → ℝ) :
    (∑ l, y l • p.all[l].1).IsSymm := by
  unfold Matrix.IsSymm
  rw [transpose_sum]
  exact Finset.sum_congr rfl fun k _ => by rw [transpose_smul, (hA _ (List.getElem_mem _) : (p.all[k].1).IsSymm).eq]

theorem rows_zero {p : Sdp (Fin n) ℝ} (hA : ∀ a ∈ p.all, a.1.IsSymm) (y : Fin p.all.length → ℝ) :
    y ᵥ* rows p = 0 ↔ ∑ l, y l • p.all[l].1 = 0 := by
  constructor
  · intro h
    have key : ∀ i j : Fin n, i ≤ j → (∑ l, y l • p.all[l].1) i j = 0 := by
      intro i j hij
      have hlt : svecIndex i j n < n * (n + 1) / 2 := by
        have := pairs_get (show i.1 ≤ j.1 from hij) j.2
        by_contra hc
        rw [List.getElem?_eq_none (by rw [pairs_length]; omega)] at this
        simp at this
      have e := rows_at p y i j hij ⟨_, hlt⟩ rfl
      rw [h] at e
      exact up_eq_zero.1 e.symm
    ext i j
    rcases le_total i j with hij | hij
    · exact key i j hij
    · rw [← (comb_symm hA y).apply]; exact key j i hij
  · intro h
    funext k
    obtain ⟨i, j, hij, hk⟩ := index_exists k
    rw [rows_at p y i j hij k hk, h]
    exact up_eq_zero.2 rfl

theorem dot_self_pos {m : Nat} {y : Fin m → ℝ} (h : y ≠ 0) : 0 < y ⬝ᵥ y := by
  have h0 : 0 ≤ y ⬝ᵥ y := Finset.sum_nonneg fun i _ => mul_self_nonneg (y i)
  exact lt_of_le_of_ne h0 fun e => h (dotProduct_self_eq_zero.1 e.symm)

/-! ### C249 -/

/-- **C249** A reported independence is right. -/
theorem C249_true_sound {svd : Svd} (h : svd.Spec) {p : Sdp (Fin n) ℝ} (hA : ∀ a ∈ p.all, a.1.IsSymm)
    (hc : check svd p = some true) : Independent p := by
  unfold check at hc
  split_ifs at hc with hm
  · simp at hc
  · split at hc
    · simp at hc
    · rename_i s hs
      intro y hy
      by_contra hne
      have hl := h.least (rows p) s (by omega) hs y
      rw [(rows_zero hA y).2 hy, dotProduct_zero] at hl
      have hp := dot_self_pos hne
      have hs' : s > 1 / 100000 := by simpa using hc
      have : 0 < s ^ 2 := by positivity
      nlinarith [mul_pos this hp]

/-- **C249** The exact meaning of the answer for a program with constraints: `true` if and only if there are at most `n(n+1)/2`
constraints and every combination `y` of norm one of the rows has norm above `1e-5`. -/
theorem C249_meaning {svd : Svd} (h : svd.Spec) {p : Sdp (Fin (n + 1)) ℝ} (h0 : p.all ≠ []) :
    ∃ r, check svd p = some r ∧ (r = true ↔ p.all.length ≤ (n + 1) * (n + 2) / 2 ∧
      ∀ y, y ≠ 0 → (1 / 100000) ^ 2 * (y ⬝ᵥ y) < (y ᵥ* rows p) ⬝ᵥ (y ᵥ* rows p)) := by
  unfold check
  by_cases hm : p.all.length > (n + 1) * (n + 1 + 1) / 2
  · refine ⟨false, if_pos hm, ?_⟩
    simp only [Bool.false_eq_true, false_iff, not_and]
    intro hle
    have : (n + 1) * (n + 1 + 1) / 2 = (n + 1) * (n + 2) / 2 := rfl
    omega
  · rw [if_neg hm]
    have hlen := h.length (rows p)
    have hpos : 0 < p.all.length := List.length_pos_of_ne_nil h0
    obtain ⟨s, hs⟩ : ∃ s, (svd (rows p)).getLast? = some s := by
      cases e : (svd (rows p)).getLast? with
      | none =>
        rw [List.getLast?_eq_none_iff] at e
        rw [e] at hlen
        simp only [List.length_nil] at hlen
        omega
      | some s => exact ⟨s, rfl⟩
    rw [hs]
    refine ⟨_, rfl, ?_⟩
    have hle : p.all.length ≤ (n + 1) * (n + 1 + 1) / 2 := by omega
    have hn := h.nonneg _ s hs
    rw [decide_eq_true_iff]
    constructor
    · intro hgt
      refine ⟨hle, fun y hy => lt_of_lt_of_le ?_ (h.least _ s hle hs y)⟩
      exact mul_lt_mul_of_pos_right (by nlinarith) (dot_self_pos hy)
    · rintro ⟨-, hall⟩
      obtain ⟨y, hy, he⟩ := h.attained _ s hle hs
      have h1 := hall y hy
      rw [he] at h1
      have h2 := lt_of_mul_lt_mul_right h1 (dot_self_pos hy).le
      by_contra hc
      push Not at hc
      nlinarith

/-- **C249** Dependent constraints are reported as such. -/
theorem C249_dependent {svd : Svd} (h : svd.Spec) {p : Sdp (Fin (n + 1)) ℝ} (hA : ∀ a ∈ p.all, a.1.IsSymm)
    (hd : ¬ Independent p) : check svd p = some false := by
  have h0 : p.all ≠ [] := by
    intro h0
    refine hd fun y _ => funext fun k => ?_
    have hk := k.2
    have hl : p.all.length = 0 := by rw [h0]; rfl
    omega
  obtain ⟨r, hr, -⟩ := C249_meaning h h0
  cases r with
  | false => exact hr
  | true => exact absurd (C249_true_sound h hA hr) hd

/-- **C249** The shortcut of lines 69-70 is right: more than `n(n+1)/2` symmetric matrices are dependent. -/
theorem C249_too_many {p : Sdp (Fin n) ℝ} (hA : ∀ a ∈ p.all, a.1.IsSymm) (hm : n * (n + 1) / 2 < p.all.length) :
    ¬ Independent p := by
  intro hi
  have hlt : Module.finrank ℝ (Fin (n * (n + 1) / 2) → ℝ) < Module.finrank ℝ (Fin p.all.length → ℝ) := by
    simpa using hm
  have hk := LinearMap.ker_ne_bot_of_finrank_lt (f := (rows p).vecMulLinear) hlt
  apply hk
  rw [LinearMap.ker_eq_bot']
  intro y hy
  exact hi y ((rows_zero hA y).1 hy)

/-- **C249** If `false` is reported the constraints are dependent or a combination of norm one is at most `1e-5` long. What is
missing: the second case is not dependence (see `C249_small_refuted`). -/
theorem C249_false_partial {svd : Svd} (h : svd.Spec) {p : Sdp (Fin (n + 1)) ℝ} (hA : ∀ a ∈ p.all, a.1.IsSymm)
    (h0 : p.all ≠ []) (hc : check svd p = some false) : ¬ Independent p ∨
      ∃ y, y ≠ 0 ∧ (y ᵥ* rows p) ⬝ᵥ (y ᵥ* rows p) ≤ (1 / 100000) ^ 2 * (y ⬝ᵥ y) := by
  obtain ⟨r, hr, hiff⟩ := C249_meaning h h0
  rw [hc] at hr
  obtain rfl := Option.some.inj hr
  simp only [Bool.false_eq_true, false_iff, not_and, not_forall, not_lt] at hiff
  by_cases hm : p.all.length ≤ (n + 1) * (n + 2) / 2
  · obtain ⟨y, hy, hle⟩ := hiff hm
    exact .inr ⟨y, hy, hle⟩
  · exact .inl (C249_too_many hA (by have : (n + 1) * (n + 1 + 1) / 2 = (n + 1) * (n + 2) / 2 := rfl; omega))

/-- One constraint `1e-6 x = b`. -/
noncomputable def small : Sdp (Fin 1) ℝ := ⟨0, [], [(!![1 / 1000000], 1)]⟩

theorem small_get (k : Fin small.all.length) : small.all[k] = (!![1 / 1000000], 1) := by
  have h : ∀ a ∈ small.all, a = (!![1 / 1000000], 1) := by
    intro a ha
    simpa [Sdp.all, small] using ha
  exact h _ (List.getElem_mem _)

theorem small_indep : Independent small := by
  intro y hy
  have hl : small.all.length = 1 := rfl
  funext k
  have hsum : ∑ j, y j • small.all[j].1 = y k • (!![1 / 1000000] : Mat 1 ℝ) := by
    rw [Finset.sum_eq_single k]
    · rw [small_get]
    · intro j _ hj
      exact absurd (Fin.ext (by omega)) hj
    · intro h; exact absurd (Finset.mem_univ k) h
  rw [hsum] at hy
  have := congrFun (congrFun hy 0) 0
  simpa using this

/-- **C249** (refuted) "Independent constraints are reported as independent": the threshold `1e-5` is absolute. -/
theorem C249_small_refuted {svd : Svd} (h : svd.Spec) : ¬ ∀ p : Sdp (Fin 1) ℝ, (∀ a ∈ p.all, a.1.IsSymm) → p.all ≠ [] →
    Independent p → check svd p = some true := by
  intro hall
  have hA : ∀ a ∈ small.all, a.1.IsSymm := by
    intro a ha
    have : a = (!![1 / 1000000], 1) := by simpa [Sdp.all, small] using ha
    rw [this]
    ext i j
    fin_cases i; fin_cases j; rfl
  have ht := hall small hA (by simp [Sdp.all, small]) small_indep
  obtain ⟨r, hr, hiff⟩ := C249_meaning (n := 0) h (p := small) (by simp [Sdp.all, small])
  rw [ht] at hr
  obtain rfl := Option.some.inj hr
  have h1 := (hiff.1 rfl).2 (fun _ => 1) (fun h => by simpa using congrFun h ⟨0, by decide⟩)
  have e : ∀ k, ((fun _ => 1) ᵥ* rows small) k = 1 / 1000000 := by
    intro k
    rw [rows_at small (fun _ => 1) 0 0 le_rfl k (by have := k.2; simp [svecIndex])]
    have hl : small.all.length = 1 := rfl
    have hsum : ∑ j : Fin small.all.length, (1 : ℝ) • small.all[j].1 = (!![1 / 1000000] : Mat 1 ℝ) := by
      rw [Finset.sum_eq_single ⟨0, by decide⟩]
      · rw [small_get, one_smul]
      · intro j _ hj
        exact absurd (Fin.ext (by simp; omega)) hj
      · intro h; exact absurd (Finset.mem_univ _) h
    rw [hsum]
    simp [up]
  rw [show ((fun _ => 1) ᵥ* rows small) = fun _ => 1 / 1000000 from funext e] at h1
  have l1 : small.all.length = 1 := rfl
  simp only [dotProduct, Finset.sum_const, Finset.card_univ, Fintype.card_fin, l1] at h1
  norm_num at h1

/-- **C249** The call does not return exactly for a program without constraints. -/
theorem C249_returns {svd : Svd} (h : svd.Spec) (p : Sdp (Fin (n + 1)) ℝ) : check svd p = none ↔ p.all = [] := by
  constructor
  · intro hn
    by_contra h0
    obtain ⟨r, hr, -⟩ := C249_meaning h h0
    rw [hn] at hr
    simp at hr
  · intro h0
    have hl := h.length (rows p)
    have e : svd (rows p) = [] := by
      apply List.length_eq_zero_iff.1
      rw [hl, h0]
      simp
    unfold check
    rw [if_neg (by rw [h0]; simp)]
    beta_reduce
    rw [e]
    rfl

/-- **C249** (refuted) "The check returns for every program": without constraints the last element of an empty vector is read. -/
theorem C249_empty_refuted {svd : Svd} (h : svd.Spec) :
    ¬ ∀ (n : Nat) (p : Sdp (Fin n) ℝ), ∃ r, check svd p = some r := by
  intro hall
  obtain ⟨r, hr⟩ := hall 1 ⟨0, [], []⟩
  rw [(C249_returns h (n := 0) ⟨0, [], []⟩).2 rfl] at hr
  simp at hr

/-! ### The specification is met by the decomposition -/

theorem exists_least {m k : Nat} (A : Matrix (Fin (m + 1)) (Fin k) ℝ) : ∃ s : ℝ, 0 ≤ s ∧
    (∀ y, s ^ 2 * (y ⬝ᵥ y) ≤ (y ᵥ* A) ⬝ᵥ (y ᵥ* A)) ∧ ∃ y, y ≠ 0 ∧ (y ᵥ* A) ⬝ᵥ (y ᵥ* A) = s ^ 2 * (y ⬝ᵥ y) := by
  have hs : (-(A * Aᵀ)).IsSymm := by
    unfold Matrix.IsSymm
    rw [transpose_neg, transpose_mul, transpose_transpose]
  have hq : ∀ y, y ⬝ᵥ (-(A * Aᵀ)) *ᵥ y = -((y ᵥ* A) ⬝ᵥ (y ᵥ* A)) := by
    intro y
    rw [neg_mulVec, dotProduct_neg, ← mulVec_mulVec, mulVec_transpose, dotProduct_mulVec]
  obtain ⟨lam, h1, v, hv, h2⟩ := PrimalDual.exists_top hs
  have h3 : (v ᵥ* A) ⬝ᵥ (v ᵥ* A) = -lam * (v ⬝ᵥ v) := by
    have := hq v
    rw [h2, dotProduct_smul, smul_eq_mul] at this
    linarith
  have hl : 0 ≤ -lam := by
    have h4 : 0 ≤ (v ᵥ* A) ⬝ᵥ (v ᵥ* A) := Finset.sum_nonneg fun i _ => mul_self_nonneg _
    rw [h3] at h4
    exact nonneg_of_mul_nonneg_left h4 (dot_self_pos hv)
  refine ⟨√(-lam), Real.sqrt_nonneg _, fun y => ?_, v, hv, ?_⟩
  · rw [Real.sq_sqrt hl]
    have := h1 y
    rw [hq y] at this
    linarith
  · rw [Real.sq_sqrt hl, h3]

theorem exists_svd : ∃ svd : Svd, svd.Spec := by
  classical
  let f : Svd := fun {m k} A => match m, A with
    | 0, _ => []
    | m + 1, A => List.replicate (min (m + 1) k) (exists_least A).choose
  have key : ∀ {m k : Nat} (A : Matrix (Fin m) (Fin k) ℝ) s, (f A).getLast? = some s → 0 ≤ s ∧
      (∀ y, s ^ 2 * (y ⬝ᵥ y) ≤ (y ᵥ* A) ⬝ᵥ (y ᵥ* A)) ∧ ∃ y, y ≠ 0 ∧ (y ᵥ* A) ⬝ᵥ (y ᵥ* A) = s ^ 2 * (y ⬝ᵥ y) := by
    intro m k A s hs
    cases m with
    | zero => simp [f] at hs
    | succ m =>
      have hm : s = (exists_least A).choose := by
        have := List.mem_of_getLast? hs
        exact (List.mem_replicate.1 this).2
      rw [hm]
      exact (exists_least A).choose_spec
  refine ⟨f, ?_, fun A s h => (key A s h).1, fun A s _ h => (key A s h).2.1, fun A s _ h => (key A s h).2.2⟩
  intro m k A
  cases m with
  | zero => simp [f]
  | succ m => simp [f]

/-- The hypotheses are met: symmetric, independent constraints; three symmetric matrices of order one are too many. -/
example : (∃ svd : Svd, svd.Spec) ∧ Independent (PrimalDual.badP 1) ∧ (PrimalDual.badP 1).all ≠ [] ∧
    1 * (1 + 1) / 2 < (⟨0, [], [(1, 0), (1, 1), (1, 2)]⟩ : Sdp (Fin 1) ℝ).all.length :=
  ⟨exists_svd, PrimalDual.badP_indep 1, by simp [Sdp.all, PrimalDual.badP], by simp [Sdp.all]⟩

end Ens.Independence
