import Mathlib.Probability.ProbabilityMassFunction.Constructions

/-
Sequences of independent random draws.

`draws μ n` is the distribution of `n` independent draws from the discrete distribution `μ` (random
number generators deliver values from a discrete set).  Nothing here models code of the library: it is
the probability space on which runs with random draws are judged.
-/

namespace Ens.Prob

open scoped ENNReal

variable {D : Type}

/-- `n` independent draws from `μ`. -/
noncomputable def draws (μ : PMF D) : Nat → PMF (List D)
  | 0 => PMF.pure []
  | n + 1 => μ.bind fun d => (draws μ n).map (d :: ·)

/-- Probability of an event. -/
noncomputable def pr {α : Type} (p : PMF α) (A : Set α) : ℝ≥0∞ := p.toOuterMeasure A

theorem pr_eq {α : Type} (p : PMF α) (A : Set α) : pr p A = ∑' a, A.indicator p a :=
  PMF.toOuterMeasure_apply _ _

theorem pr_mono {α : Type} (p : PMF α) {A B : Set α} (h : A ⊆ B) : pr p A ≤ pr p B :=
  p.toOuterMeasure.mono h

theorem pr_add_compl {α : Type} (p : PMF α) (A : Set α) : pr p A + pr p Aᶜ = 1 := by
  rw [pr_eq, pr_eq, ← ENNReal.tsum_add, ← p.tsum_coe]
  refine tsum_congr fun a => ?_
  have := congrFun (Set.indicator_self_add_compl A (p : α → ℝ≥0∞)) a
  simpa using this

theorem pr_univ {α : Type} (p : PMF α) : pr p Set.univ = 1 := by
  rw [pr_eq, ← p.tsum_coe]
  simp

theorem pr_le_one {α : Type} (p : PMF α) (A : Set α) : pr p A ≤ 1 := by
  rw [← pr_univ p]; exact pr_mono p (Set.subset_univ _)

/-- Draws come one after the other. -/
theorem draws_add (μ : PMF D) (n m : Nat) :
    draws μ (n + m) = (draws μ n).bind fun l => (draws μ m).map (l ++ ·) := by
  induction n with
  | zero =>
    simp only [Nat.zero_add, draws, PMF.pure_bind, List.nil_append]
    exact (PMF.map_id _).symm
  | succ n ih =>
    have h : n + 1 + m = (n + m) + 1 := by omega
    rw [h, draws, ih, draws, PMF.bind_bind]
    congr 1
    funext d
    rw [PMF.map_bind, PMF.bind_map]
    congr 1
    funext l
    rw [PMF.map_comp]
    rfl

theorem pr_draws_add (μ : PMF D) (n m : Nat) (A : Set (List D)) :
    pr (draws μ (n + m)) A = ∑' l, draws μ n l * pr (draws μ m) {r | l ++ r ∈ A} := by
  unfold pr
  rw [draws_add, PMF.toOuterMeasure_bind_apply]
  refine tsum_congr fun l => ?_
  rw [PMF.toOuterMeasure_map_apply]
  rfl

theorem pr_draws_succ (μ : PMF D) (n : Nat) (A : Set (List D)) :
    pr (draws μ (n + 1)) A = ∑' d, μ d * pr (draws μ n) {r | d :: r ∈ A} := by
  unfold pr
  rw [draws, PMF.toOuterMeasure_bind_apply]
  refine tsum_congr fun l => ?_
  rw [PMF.toOuterMeasure_map_apply]
  rfl

theorem draws_length (μ : PMF D) : ∀ (n : Nat) (l : List D), draws μ n l ≠ 0 → l.length = n := by
  intro n
  induction n with
  | zero =>
    intro l h
    have : l ∈ (PMF.pure ([] : List D)).support := h
    rw [PMF.mem_support_pure_iff] at this
    simp [this]
  | succ n ih =>
    intro l h
    have h1 : l ∈ (draws μ (n + 1)).support := h
    rw [draws, PMF.mem_support_bind_iff] at h1
    obtain ⟨d, _, h2⟩ := h1
    rw [PMF.mem_support_map_iff] at h2
    obtain ⟨r, hr, rfl⟩ := h2
    simp [ih r hr]

theorem pr_congr_length (μ : PMF D) (n : Nat) {A B : Set (List D)}
    (h : ∀ l, l.length = n → l ∈ A → l ∈ B) : pr (draws μ n) A ≤ pr (draws μ n) B := by
  rw [pr_eq, pr_eq]
  refine ENNReal.tsum_le_tsum fun l => ?_
  classical
  by_cases h0 : draws μ n l = 0
  · simp [Set.indicator, h0]
  · have hl := draws_length μ n l h0
    by_cases hA : l ∈ A
    · rw [Set.indicator_of_mem hA, Set.indicator_of_mem (h l hl hA)]
    · rw [Set.indicator_of_notMem hA]; exact zero_le

theorem pr_length (μ : PMF D) (n : Nat) : pr (draws μ n) {l | l.length = n} = 1 := by
  refine le_antisymm (pr_le_one _ _) ?_
  rw [← pr_univ (draws μ n)]
  exact pr_congr_length μ n fun l hl _ => hl

theorem pr_append (μ : PMF D) {n m : Nat} (S T : Set (List D)) :
    pr (draws μ n) S * pr (draws μ m) T ≤
      pr (draws μ (n + m)) {l | ∃ a b, l = a ++ b ∧ a ∈ S ∧ b ∈ T} := by
  rw [pr_draws_add, pr_eq (draws μ n), ← ENNReal.tsum_mul_right]
  refine ENNReal.tsum_le_tsum fun l => ?_
  classical
  by_cases hl : l ∈ S
  · rw [Set.indicator_of_mem hl]
    gcongr
    exact pr_mono _ fun r hr => ⟨l, r, rfl, hl, hr⟩
  · rw [Set.indicator_of_notMem hl, zero_mul]; exact zero_le

theorem pr_one (μ : PMF D) (A : Set D) :
    pr μ A ≤ pr (draws μ 1) {l | ∃ d, l = [d] ∧ d ∈ A} := by
  rw [pr_draws_succ, pr_eq]
  refine ENNReal.tsum_le_tsum fun d => ?_
  classical
  by_cases hd : d ∈ A
  · rw [Set.indicator_of_mem hd]
    have : pr (draws μ 0) {r | d :: r ∈ {l | ∃ d, l = [d] ∧ d ∈ A}} = 1 := by
      refine le_antisymm (pr_le_one _ _) ?_
      rw [← pr_univ (draws μ 0)]
      refine pr_congr_length μ 0 fun l hl _ => ?_
      rw [List.length_eq_zero_iff] at hl
      subst hl
      exact ⟨d, rfl, hd⟩
    rw [this, mul_one]
  · rw [Set.indicator_of_notMem hd]; exact zero_le

theorem pr_all (μ : PMF D) (C : Set D) : ∀ k : Nat,
    pr μ C ^ k ≤ pr (draws μ k) {l | l.length = k ∧ ∀ c ∈ l, c ∈ C} := by
  intro k
  induction k with
  | zero =>
    rw [pow_zero, ← pr_univ (draws μ 0)]
    refine pr_congr_length μ 0 fun l hl _ => ?_
    rw [List.length_eq_zero_iff] at hl
    subst hl
    exact ⟨rfl, by simp⟩
  | succ k ih =>
    rw [pow_succ]
    refine le_trans (mul_le_mul' ih (pr_one μ C)) (le_trans (pr_append μ _ _) ?_)
    refine pr_mono _ ?_
    rintro l ⟨a, b, rfl, ⟨ha, ha2⟩, d, rfl, hd⟩
    refine ⟨by simp [ha], fun c hc => ?_⟩
    rcases List.mem_append.1 hc with h | h
    · exact ha2 c h
    · rw [List.mem_singleton] at h; subst h; exact hd

/-- One round of draws that succeeds with probability at least `δ`, after which nothing can go wrong,
followed by rounds that fail with probability at most `c`. -/
theorem pr_round (μ : PMF D) {n m : Nat} (A H : Set (List D)) {δ c : ℝ≥0∞}
    (hδ : δ ≤ pr (draws μ n) H)
    (h1 : ∀ l, l.length = n → l ∈ H → pr (draws μ m) {r | l ++ r ∈ A} = 0)
    (h2 : ∀ l, l.length = n → pr (draws μ m) {r | l ++ r ∈ A} ≤ c) :
    pr (draws μ (n + m)) A ≤ (1 - δ) * c := by
  have h3 : pr (draws μ n) Hᶜ ≤ 1 - δ := by
    have h := pr_add_compl (draws μ n) H
    have hne : pr (draws μ n) H ≠ ∞ := ne_top_of_le_ne_top ENNReal.one_ne_top (pr_le_one _ _)
    have : pr (draws μ n) Hᶜ = 1 - pr (draws μ n) H := by
      rw [← h, ENNReal.add_sub_cancel_left hne]
    rw [this]
    exact tsub_le_tsub_left hδ 1
  refine le_trans ?_ (mul_le_mul' h3 (le_refl c))
  rw [pr_draws_add, pr_eq (draws μ n), ← ENNReal.tsum_mul_right]
  refine ENNReal.tsum_le_tsum fun l => ?_
  classical
  by_cases h0 : draws μ n l = 0
  · rw [h0, zero_mul]; exact zero_le
  · have hl := draws_length μ n l h0
    by_cases hH : l ∈ H
    · rw [h1 l hl hH, mul_zero]; exact zero_le
    · rw [Set.indicator_of_mem (show l ∈ Hᶜ from hH)]
      gcongr
      exact h2 l hl

end Ens.Prob
