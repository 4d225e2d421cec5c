import Verif.Converge.Cd
import Mathlib.Algebra.BigOperators.Fin
import Mathlib.Logic.Equiv.Fin.Basic

/-
C296: coordinate descent with `RandomDescent` on average over all draws.
-/

namespace Ens.Converge

open Ens.Cd Filter

variable {W H E : Type} [NormedAddCommGroup H] [InnerProductSpace ℝ H] {n : Nat}

/-- `f` is smooth along each column separately, with constant `L` (weaker than `LSmooth f g L`: the constant of the
worst column is often far smaller than that of the whole function). -/
structure ColSmooth (f : Cols n H → ℝ) (g : Cols n H → Cols n H) (L : ℝ) : Prop where
  descent : ∀ (y : Cols n H) (j : Fin n) (v : H),
    f (WithLp.toLp 2 (Function.update (WithLp.ofLp y) j (y j + v))) ≤ f y + inner ℝ (g y j) v + L / 2 * ‖v‖ ^ 2

theorem LSmooth.colSmooth {f : Cols n H → ℝ} {g : Cols n H → Cols n H} {L : ℝ} (hs : LSmooth f g L) :
    ColSmooth f g L := by
  refine ⟨fun y j v => ?_⟩
  have hd := hs.descent y (WithLp.toLp 2 (Function.update (WithLp.ofLp y) j (y j - -v)))
  rw [update_sub, neg_neg] at hd
  rw [show y j + v = y j - -v by rw [sub_neg_eq_add]]
  refine hd.trans (le_of_eq ?_)
  have hin : inner ℝ (g y) (PiLp.single 2 j v : Cols n H) = inner ℝ (g y j) v := by
    rw [PiLp.inner_apply, Finset.sum_eq_single j]
    · simp
    · intro i _ hi
      simp [hi]
    · simp
  rw [hin, PiLp.norm_single]

/-- `RandomDescent` (random_descent.hpp:50-57) with the draws `ω`: iteration `i + 1` gets draw number `i`. -/
def drawn [NeZero n] {K : Nat} (ω : Fin K → Fin n) (i : Nat) (_ : Cols n H) : Fin n :=
  if h : i - 1 < K then ω ⟨i - 1, h⟩ else 0

/-- Mean over all `n ^ K` sequences of draws: the expectation for independent uniform draws. -/
noncomputable def mean (n K : Nat) (F : (Fin K → Fin n) → ℝ) : ℝ := (∑ ω, F ω) / (n : ℝ) ^ K

section
variable [NeZero n] {f : Cols n H → ℝ} {g : Cols n H → Cols n H} {L b α mu : ℝ}

theorem cdSeq_congr {p q : Nat → Cols n H → Fin n} (x : Cols n H) : ∀ k : Nat,
    (∀ i y, i ≤ k → p i y = q i y) → cdSeq g α p x k = cdSeq g α q x k := by
  intro k
  induction k with
  | zero => intro _; rfl
  | succ k ih =>
    intro h
    rw [cdSeq, cdSeq, ih fun i y hi => h i y (by omega), h (k + 1) _ le_rfl]

/-- The point after the draws `ω`. -/
noncomputable def after (g : Cols n H → Cols n H) (α : ℝ) (x : Cols n H) {K : Nat} (ω : Fin K → Fin n) : Cols n H :=
  cdSeq g α (drawn ω) x K

/-- One move of column `j`. -/
noncomputable def moveOne (g : Cols n H → Cols n H) (α : ℝ) (y : Cols n H) (j : Fin n) : Cols n H :=
  WithLp.toLp 2 (Function.update (WithLp.ofLp y) j (y j - α • g y j))

theorem after_snoc (x : Cols n H) {K : Nat} (ω : Fin K → Fin n) (j : Fin n) :
    after g α x (Fin.snoc ω j : Fin (K + 1) → Fin n) = moveOne g α (after g α x ω) j := by
  unfold after
  rw [cdSeq]
  have h1 : cdSeq g α (drawn (Fin.snoc ω j : Fin (K + 1) → Fin n)) x K = cdSeq g α (drawn ω) x K := by
    cases K with
    | zero => rfl
    | succ K =>
      refine cdSeq_congr x _ fun i y hi => ?_
      have h2 : i - 1 < K + 1 := by omega
      unfold drawn
      rw [dif_pos (by omega), dif_pos h2]
      have : (⟨i - 1, by omega⟩ : Fin (K + 1 + 1)) = Fin.castSucc ⟨i - 1, h2⟩ := rfl
      rw [this, Fin.snoc_castSucc]
  have h3 : ∀ y : Cols n H, drawn (Fin.snoc ω j : Fin (K + 1) → Fin n) (K + 1) y = j := by
    intro y
    unfold drawn
    rw [dif_pos (by omega)]
    have : (⟨K + 1 - 1, by omega⟩ : Fin (K + 1)) = Fin.last K := rfl
    rw [this, Fin.snoc_last]
  simp only [h1, h3]
  rfl

theorem mean_succ (K : Nat) (F : (Fin (K + 1) → Fin n) → ℝ) :
    mean n (K + 1) F = mean n K fun ω => (∑ j, F (Fin.snoc ω j)) / n := by
  unfold mean
  have h := (Fin.snocEquiv fun _ : Fin (K + 1) => Fin n).sum_comp F
  rw [← h, Fintype.sum_prod_type_right, Finset.sum_div, Finset.sum_div]
  refine Finset.sum_congr rfl fun ω _ => ?_
  rw [pow_succ, div_div, mul_comm (n : ℝ)]
  rfl

theorem mean_le {K : Nat} {F G : (Fin K → Fin n) → ℝ} (h : ∀ ω, F ω ≤ G ω) : mean n K F ≤ mean n K G := by
  unfold mean
  gcongr
  exact h _

theorem mean_add {K : Nat} (F G : (Fin K → Fin n) → ℝ) : mean n K (fun ω => F ω + G ω) = mean n K F + mean n K G := by
  unfold mean
  rw [Finset.sum_add_distrib, add_div]

theorem mean_mul {K : Nat} (c : ℝ) (F : (Fin K → Fin n) → ℝ) : mean n K (fun ω => c * F ω) = c * mean n K F := by
  unfold mean
  rw [← Finset.mul_sum, mul_div_assoc]

theorem mean_const {K : Nat} (c : ℝ) : mean n K (fun _ => c) = c := by
  unfold mean
  have : (n : ℝ) ≠ 0 := by exact_mod_cast NeZero.ne n
  simp [Finset.sum_const, Finset.card_univ, Fintype.card_pi]
  field_simp

/-- One random step on average. -/
theorem random_step (hs : ColSmooth f g L) (y : Cols n H) :
    (∑ j, f (moveOne g α y j)) / n ≤ f y - α * (1 - L * α / 2) / n * ‖g y‖ ^ 2 := by
  have hn : (0 : ℝ) < n := by exact_mod_cast Nat.pos_of_ne_zero (NeZero.ne n)
  have h1 : ∀ j, f (moveOne g α y j) ≤ f y - α * (1 - L * α / 2) * ‖g y j‖ ^ 2 := by
    intro j
    have := hs.descent y j (-(α • g y j))
    rw [← sub_eq_add_neg] at this
    refine this.trans (le_of_eq ?_)
    rw [inner_neg_right, real_inner_smul_right, real_inner_self_eq_norm_sq, norm_neg, norm_smul, mul_pow,
      Real.norm_eq_abs, sq_abs]
    ring
  have h2 : ∑ j, f (moveOne g α y j) ≤ n * f y - α * (1 - L * α / 2) * ‖g y‖ ^ 2 := by
    refine (Finset.sum_le_sum fun j _ => h1 j).trans (le_of_eq ?_)
    rw [Finset.sum_sub_distrib, ← Finset.mul_sum, PiLp.norm_sq_eq_of_L2]
    simp
  rw [div_le_iff₀ hn]
  refine h2.trans (le_of_eq ?_)
  field_simp

/-- On average over the draws the excess shrinks by a constant factor in each iteration. -/
theorem random_linear (hs : ColSmooth f g L) (hα : 0 < α) (hα2 : α * L < 2)
    (hmu : ∀ y, 2 * mu * (f y - b) ≤ ‖g y‖ ^ 2)
    (hρ : 0 ≤ 1 - 2 * mu * (α * (1 - L * α / 2)) / n) (x : Cols n H) : ∀ K : Nat,
    mean n K (fun ω => f (after g α x ω) - b) ≤ (1 - 2 * mu * (α * (1 - L * α / 2)) / n) ^ K * (f x - b) := by
  have hn : (0 : ℝ) < n := by exact_mod_cast Nat.pos_of_ne_zero (NeZero.ne n)
  have hc : 0 < α * (1 - L * α / 2) := mul_pos hα (by linarith [mul_comm α L])
  intro K
  induction K with
  | zero => simp [mean, after, cdSeq]
  | succ K ih =>
    rw [mean_succ, pow_succ, mul_right_comm]
    refine le_trans ?_ (mul_le_mul_of_nonneg_right ih hρ)
    rw [mul_comm, ← mean_mul]
    refine mean_le fun ω => ?_
    have h1 := random_step (α := α) hs (after g α x ω)
    have h2 := mul_le_mul_of_nonneg_left (hmu (after g α x ω)) (div_pos hc hn).le
    simp only [after_snoc, Finset.sum_sub_distrib, sub_div]
    have h3 : (∑ _j : Fin n, b) / n = b := by simp [Finset.sum_const, hn.ne']
    rw [h3]
    have h4 : (1 - 2 * mu * (α * (1 - L * α / 2)) / n) * (f (after g α x ω) - b) =
        f (after g α x ω) - b - α * (1 - L * α / 2) / n * (2 * mu * (f (after g α x ω) - b)) := by ring
    rw [h4]
    linarith

/-- The squared gradients along the run, on average. -/
theorem random_sum (hs : ColSmooth f g L) (x : Cols n H) : ∀ K : Nat,
    α * (1 - L * α / 2) / n * ∑ k ∈ Finset.range K, mean n k (fun ω => ‖g (after g α x ω)‖ ^ 2) ≤
      f x - mean n K (fun ω => f (after g α x ω)) := by
  intro K
  induction K with
  | zero => simp [mean, after, cdSeq]
  | succ K ih =>
    rw [Finset.sum_range_succ, mul_add, mean_succ]
    have h1 : mean n K (fun ω => (∑ j, f (after g α x (Fin.snoc ω j : Fin (K + 1) → Fin n))) / n) ≤
        mean n K (fun ω => f (after g α x ω)) -
          α * (1 - L * α / 2) / n * mean n K (fun ω => ‖g (after g α x ω)‖ ^ 2) := by
      rw [← mean_mul, sub_eq_add_neg]
      have : -(mean n K fun ω => α * (1 - L * α / 2) / n * ‖g (after g α x ω)‖ ^ 2) =
          mean n K fun ω => -(α * (1 - L * α / 2) / n * ‖g (after g α x ω)‖ ^ 2) := by
        unfold mean
        rw [Finset.sum_neg_distrib, neg_div]
      rw [this, ← mean_add]
      refine mean_le fun ω => ?_
      simp only [after_snoc]
      have := random_step (α := α) hs (after g α x ω)
      linarith
    linarith

/-- What `Optimize` hands back with the draws `ω`. -/
theorem optimize_after {K u fuel : Nat} (hK : K + 1 < 2 ^ 64) (hu : 0 < u) {w : W} {x : List H} (hx : x.length = n)
    (ω : Fin K → Fin n) {env : Env W H E} (hq : QuietCd env g α (drawn ω)) {r : Result W H E}
    (h : optimize env (K + 1) u fuel w x = some (.returned r)) : ofList r.x = after g α (ofList x) ω := by
  obtain ⟨r', hr, -, -, he⟩ := C252_textbook hq hK hu hx h
  cases hr
  rw [he, limit, if_neg (by omega), Nat.add_sub_cancel]
  rfl

/-- **C296** `Optimize` with `RandomDescent` and `K` iterations, on a function that is smooth along each column and has
`2 μ (f y - b) ≤ ‖g y‖²` (e.g. a strongly convex one with infimum `b`): over all sequences of draws, the mean excess of
the value handed back is at most `(1 - 2 μ α (1 - L α / 2) / n) ^ K` times that of the start. -/
theorem C296_mean (hs : ColSmooth f g L) (hα : 0 < α) (hα2 : α * L < 2) (hmu : ∀ y, 2 * mu * (f y - b) ≤ ‖g y‖ ^ 2)
    (hρ : 0 ≤ 1 - 2 * mu * (α * (1 - L * α / 2)) / n) {K u fuel : Nat} (hK : K + 1 < 2 ^ 64) (hu : 0 < u) {w : W}
    {x : List H} (hx : x.length = n) (env : (Fin K → Fin n) → Env W H E) (hq : ∀ ω, QuietCd (env ω) g α (drawn ω))
    (r : (Fin K → Fin n) → Result W H E) (h : ∀ ω, optimize (env ω) (K + 1) u fuel w x = some (.returned (r ω))) :
    (∑ ω, (f (ofList (r ω).x) - b)) / (n : ℝ) ^ K ≤
      (1 - 2 * mu * (α * (1 - L * α / 2)) / n) ^ K * (f (ofList x) - b) := by
  have := random_linear hs hα hα2 hmu hρ (ofList x) K
  simpa only [mean, optimize_after hK hu hx _ (hq _) (h _)] using this

/-- **C296** Hence the share of the sequences of draws after which the excess is still `ε` or more is at most
`(1 - 2 μ α (1 - L α / 2) / n) ^ K (f(start) - b) / ε`. -/
theorem C296_share (hs : ColSmooth f g L) (hα : 0 < α) (hα2 : α * L < 2) (hmu : ∀ y, 2 * mu * (f y - b) ≤ ‖g y‖ ^ 2)
    (hb : ∀ y, b ≤ f y)
    (hρ : 0 ≤ 1 - 2 * mu * (α * (1 - L * α / 2)) / n) {K u fuel : Nat} (hK : K + 1 < 2 ^ 64) (hu : 0 < u) {w : W}
    {x : List H} (hx : x.length = n) (env : (Fin K → Fin n) → Env W H E) (hq : ∀ ω, QuietCd (env ω) g α (drawn ω))
    (r : (Fin K → Fin n) → Result W H E) (h : ∀ ω, optimize (env ω) (K + 1) u fuel w x = some (.returned (r ω)))
    (S : Finset (Fin K → Fin n)) {ε : ℝ} (hε : 0 < ε) (hS : ∀ ω ∈ S, ε ≤ f (ofList (r ω).x) - b) :
    (S.card : ℝ) / (n : ℝ) ^ K ≤ (1 - 2 * mu * (α * (1 - L * α / 2)) / n) ^ K * (f (ofList x) - b) / ε := by
  have h1 := C296_mean hs hα hα2 hmu hρ hK hu hx env hq r h
  have hn : (0 : ℝ) < (n : ℝ) ^ K := by
    have : (0 : ℝ) < n := by exact_mod_cast Nat.pos_of_ne_zero (NeZero.ne n)
    positivity
  rw [le_div_iff₀ hε]
  refine le_trans ?_ h1
  rw [div_mul_eq_mul_div]
  gcongr
  calc (S.card : ℝ) * ε = ∑ _ω ∈ S, ε := by simp
    _ ≤ ∑ ω ∈ S, (f (ofList (r ω).x) - b) := Finset.sum_le_sum hS
    _ ≤ ∑ ω, (f (ofList (r ω).x) - b) :=
      Finset.sum_le_sum_of_subset_of_nonneg (Finset.subset_univ _) fun ω _ _ => sub_nonneg.2 (hb _)

/-- **C296** On any function smooth along each column and bounded below by `b`: with `K` iterations or fewer, for some
number `k` of iterations the mean squared gradient at the point handed back is at most
`n (f(start) - b) / (α (1 - L α / 2) K)`. -/
theorem C296_gradient (hs : ColSmooth f g L) (hb : ∀ y, b ≤ f y) (hα : 0 < α) (hα2 : α * L < 2) {K u fuel : Nat}
    (hK0 : 0 < K) (hK : K + 1 < 2 ^ 64) (hu : 0 < u) {w : W} {x : List H} (hx : x.length = n)
    (env : ∀ k, (Fin k → Fin n) → Env W H E) (hq : ∀ k ω, QuietCd (env k ω) g α (drawn ω))
    (r : ∀ k, (Fin k → Fin n) → Result W H E)
    (h : ∀ k, k < K → ∀ ω, optimize (env k ω) (k + 1) u fuel w x = some (.returned (r k ω))) :
    ∃ k < K, (∑ ω, ‖g (ofList (r k ω).x)‖ ^ 2) / (n : ℝ) ^ k ≤
      n * (f (ofList x) - b) / (α * (1 - L * α / 2) * K) := by
  have hn : (0 : ℝ) < n := by exact_mod_cast Nat.pos_of_ne_zero (NeZero.ne n)
  have hc : 0 < α * (1 - L * α / 2) := mul_pos hα (by linarith [mul_comm α L])
  have h1 := random_sum (α := α) hs (ofList x) K
  have h2 : b ≤ mean n K (fun ω => f (after g α (ofList x) ω)) := by
    rw [← mean_const (n := n) (K := K) b]
    exact mean_le fun ω => hb _
  by_contra hcon
  push Not at hcon
  have h3 : ∀ k ∈ Finset.range K, n * (f (ofList x) - b) / (α * (1 - L * α / 2) * K) <
      mean n k (fun ω => ‖g (after g α (ofList x) ω)‖ ^ 2) := by
    intro k hk
    have hk' := Finset.mem_range.1 hk
    have := hcon k hk'
    simpa only [mean, optimize_after (show k + 1 < 2 ^ 64 by omega) hu hx _ (hq k _) (h k hk' _)] using this
  have h4 := Finset.sum_lt_sum_of_nonempty ⟨0, Finset.mem_range.2 hK0⟩ h3
  rw [Finset.sum_const, Finset.card_range, nsmul_eq_mul] at h4
  have hK' : (0 : ℝ) < K := by exact_mod_cast hK0
  have h5 := mul_lt_mul_of_pos_left h4 (div_pos hc hn)
  have h6 : α * (1 - L * α / 2) / n * (K * (n * (f (ofList x) - b) / (α * (1 - L * α / 2) * K))) = f (ofList x) - b := by
    have hc' := hc.ne'
    generalize α * (1 - L * α / 2) = c at hc' ⊢
    field_simp
  linarith

end

/-- Non-trivial case: `‖x‖² / 2` on two coordinates with step size 1: each iteration halves the mean excess. -/
example (K : Nat) (hK : K + 1 < 2 ^ 64) (r : (Fin K → Fin 2) → Result Unit ℝ Unit)
    (h : ∀ ω, optimize (plainCd id 1 (drawn ω)) (K + 1) 1 (K + 2) () [3, 4] = some (.returned (r ω))) :
    (∑ ω, (half (ofList (r ω).x : Cols 2 ℝ) - 0)) / (2 : ℝ) ^ K ≤ (1 / 2) ^ K * (half (ofList [3, 4] : Cols 2 ℝ) - 0) := by
  have := C296_mean (n := 2) (x := [3, 4]) (mu := 1) (LSmooth.colSmooth half_smooth) one_pos (by norm_num) (b := 0) (fun y => by simp [half])
    (by norm_num) hK one_pos rfl (fun ω => plainCd id 1 (drawn ω)) (fun ω => plainCd_quiet id 1 _) r h
  norm_num at this ⊢
  exact this

/-- Non-trivial case of the share and of the gradient bound: the same function. -/
example (K : Nat) (hK0 : 0 < K) (hK : K + 1 < 2 ^ 64) (r : ∀ k, (Fin k → Fin 2) → Result Unit ℝ Unit)
    (h : ∀ k, k < K + 1 → ∀ ω,
      optimize (plainCd id 1 (drawn ω)) (k + 1) 1 (K + 2) () [3, 4] = some (.returned (r k ω)))
    (S : Finset (Fin K → Fin 2)) (hS : ∀ ω ∈ S, 1 ≤ half (ofList (r K ω).x : Cols 2 ℝ) - 0) :
    (S.card : ℝ) / 2 ^ K ≤ (1 / 2) ^ K * (half (ofList [3, 4] : Cols 2 ℝ) - 0) / 1 ∧
      ∃ k < K, (∑ ω, ‖(ofList (r k ω).x : Cols 2 ℝ)‖ ^ 2) / (2 : ℝ) ^ k ≤
        2 * (half (ofList [3, 4] : Cols 2 ℝ) - 0) / (1 * (1 - 1 * 1 / 2) * K) := by
  refine ⟨?_, ?_⟩
  · have := C296_share (n := 2) (x := [3, 4]) (mu := 1) (LSmooth.colSmooth half_smooth) one_pos (by norm_num) (b := 0)
      (fun y => by simp [half]) half_nonneg (by norm_num) hK one_pos rfl (fun ω => plainCd id 1 (drawn ω))
      (fun ω => plainCd_quiet id 1 _) (r K) (h K (by omega)) S one_pos hS
    norm_num at this ⊢
    exact this
  · exact C296_gradient (n := 2) (x := [3, 4]) (LSmooth.colSmooth half_smooth) half_nonneg one_pos (by norm_num) hK0 hK
      one_pos rfl (fun k ω => plainCd id 1 (drawn ω)) (fun k ω => plainCd_quiet id 1 _) r fun k hk => h k (by omega)

end Ens.Converge
