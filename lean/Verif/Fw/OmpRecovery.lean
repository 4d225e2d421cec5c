import Mathlib.Analysis.InnerProductSpace.PiL2
import Mathlib.LinearAlgebra.Dimension.StrongRankCondition
import Mathlib.Data.Fin.VecNotation
import Mathlib.Data.Fintype.Basic
import Mathlib.Tactic.FinCases
import Verif.Fw.OmpProps
import Verif.Fw.Lp

/-
Orthogonal matching pursuit (`OMP`, fw/frank_wolfe.hpp:190) with the solver of the ℓ1 ball (fw/constr_lpball.hpp:113-129) on
`FuncSq`: recovery of sparse vectors from incoherent dictionaries, property C280.
-/

namespace Ens.Fw

open scoped RealInnerProductSpace

variable {n : Nat} {V Y : Type} [NormedAddCommGroup Y] [InnerProductSpace ℝ Y]

/-- Coordinates and gradients: one column of `n + 1` entries. -/
abbrev Col (n : Nat) := EuclideanSpace ℝ (Fin (n + 1))

/-- `ConstrLpBallSolver(1)` without `lambda` (fw/constr_lpball.hpp:113-129); `s0` is the old content of `s`. -/
noncomputable def l1 (s0 : Fin (n + 1) → ℝ) (g : Col n) : Col n := WithLp.toLp 2 (Lp.oracle (.fin 1) none g.ofLp s0)

/-- The `j`-th column of `MatrixA()`. -/
noncomputable def col (f : FuncSq (Col n) Y) (j : Fin (n + 1)) : Y := f.A (EuclideanSpace.single j 1)

/-- The columns of `MatrixA()` have norm 1 and the inner products of different columns are at most `mu` in absolute value. -/
structure Dictionary (f : FuncSq (Col n) Y) (mu : ℝ) : Prop where
  unit : ∀ j, ‖col f j‖ = 1
  coherence : ∀ i j, i ≠ j → |⟪col f i, col f j⟫| ≤ mu

/-- The entries of `x` outside `S` are zero. -/
def On (S : Finset (Fin (n + 1))) (x : Col n) : Prop := ∀ i, i ∉ S → x i = 0

/-- `Vectorb()` is the image of `z`, up to an error that is correlated with no column by more than `eps`. -/
def Observes (f : FuncSq (Col n) Y) (z : Col n) (eps : ℝ) : Prop := ∀ j, |⟪col f j, f.A z - f.b⟫| ≤ eps

/-! ### The solver -/

theorem l1_spec (s0 : Fin (n + 1) → ℝ) (g : Col n) : ∃ k, l1 s0 g = EuclideanSpace.single k (-Lp.sgn (g k)) ∧ ∀ i, |g i| ≤ |g k| := by
  refine ⟨Lp.indexMax fun i => |g i|, ?_, Lp.le_indexMax _⟩
  ext i
  simp only [l1, Lp.oracle, Lp.divLam]
  by_cases h : i = Lp.indexMax fun i => |g i|
  · simp [Lp.divLam, h]
  · simp [Lp.divLam, h]

theorem inner_single (k : Fin (n + 1)) (c : ℝ) (g : Col n) : ⟪(EuclideanSpace.single k c : Col n), g⟫ = c * g k := by
  simp [EuclideanSpace.inner_single_left]

theorem l1_inner (s0 : Fin (n + 1) → ℝ) (g : Col n) : ∃ k, l1 s0 g = EuclideanSpace.single k (-Lp.sgn (g k)) ∧
    (∀ i, |g i| ≤ |g k|) ∧ ⟪l1 s0 g, g⟫ = -|g k| := by
  obtain ⟨k, h1, h2⟩ := l1_spec s0 g
  refine ⟨k, h1, h2, ?_⟩
  rw [h1, inner_single, ← Lp.sgn_mul]
  ring

/-! ### Gradients and coherence -/

theorem A_eq (f : FuncSq (Col n) Y) (u : Col n) : f.A u = ∑ j, u j • col f j := by
  have h : u = ∑ j, u j • (EuclideanSpace.single j 1 : Col n) := by
    ext i
    simp [Pi.single_apply]
  conv_lhs => rw [h]
  rw [map_sum]
  simp [col]

theorem grad_apply {f : FuncSq (Col n) Y} (hf : f.Adj) (x : Col n) (i : Fin (n + 1)) : f.grad x i = ⟪col f i, f.A x - f.b⟫ := by
  have h := hf (EuclideanSpace.single i 1) (f.A x - f.b)
  rw [inner_single, one_mul] at h
  exact h.symm

/-- A gradient entry in terms of the distance `u = x - z`. -/
theorem grad_split {f : FuncSq (Col n) Y} (hf : f.Adj) (x z : Col n) (i : Fin (n + 1)) :
    f.grad x i = (∑ j, (x - z) j * ⟪col f i, col f j⟫) + ⟪col f i, f.A z - f.b⟫ := by
  have h : f.A x - f.b = f.A (x - z) + (f.A z - f.b) := by rw [map_sub]; abel
  rw [grad_apply hf, h, inner_add_right, A_eq f (x - z), inner_sum]
  congr 1
  refine Finset.sum_congr rfl fun j _ => ?_
  rw [real_inner_smul_right]

section bounds

variable {f : FuncSq (Col n) Y} {mu : ℝ} {S : Finset (Fin (n + 1))} {u : Col n} {M : ℝ}

/-- The part of a gradient entry that comes from the other columns. -/
theorem cross (hd : Dictionary f mu) (hmu : 0 ≤ mu) (hu : On S u) (hM : ∀ j, |u j| ≤ M) (i : Fin (n + 1)) :
    |∑ j ∈ Finset.univ.erase i, u j * ⟪col f i, col f j⟫| ≤ (S.erase i).card * (mu * M) := by
  have hs : ∑ j ∈ Finset.univ.erase i, u j * ⟪col f i, col f j⟫ = ∑ j ∈ S.erase i, u j * ⟪col f i, col f j⟫ := by
    symm
    apply Finset.sum_subset
    · exact Finset.erase_subset_erase _ (Finset.subset_univ _)
    · intro j hj hj'
      have : j ∉ S := fun h => hj' (Finset.mem_erase.2 ⟨Finset.ne_of_mem_erase hj, h⟩)
      rw [hu j this, zero_mul]
  rw [hs]
  refine le_trans (Finset.abs_sum_le_sum_abs _ _) ?_
  rw [← nsmul_eq_mul, ← Finset.sum_const]
  refine Finset.sum_le_sum fun j hj => ?_
  rw [abs_mul, mul_comm]
  exact mul_le_mul (hd.coherence i j (Finset.ne_of_mem_erase hj).symm) (hM j) (abs_nonneg _) hmu

theorem whole (hd : Dictionary f mu) (u : Col n) (i : Fin (n + 1)) : ∑ j, u j * ⟪col f i, col f j⟫ =
    u i + ∑ j ∈ Finset.univ.erase i, u j * ⟪col f i, col f j⟫ := by
  rw [← Finset.add_sum_erase _ _ (Finset.mem_univ i), real_inner_self_eq_norm_sq, hd.unit i]
  ring

end bounds

/-- The largest entry of a vector on `S`. -/
theorem exists_top (u : Col n) : ∃ k, ∀ i, |u i| ≤ |u k| := by
  obtain ⟨k, -, h⟩ := Finset.exists_max_image Finset.univ (fun i => |u i|) Finset.univ_nonempty
  exact ⟨k, fun i => h i (Finset.mem_univ i)⟩

section recovery

variable {f : FuncSq (Col n) Y} {mu eps tol : ℝ} {S : Finset (Fin (n + 1))} {z x : Col n}

/-- The distance to `z` in terms of the gradient. -/
theorem dist_le (hf : f.Adj) (hd : Dictionary f mu) (hmu : 0 ≤ mu) (hz : On S z) (ho : Observes f z eps) (hx : On S x) {G : ℝ}
    (hG : ∀ i ∈ S, |f.grad x i| ≤ G) (hG0 : 0 ≤ G) (he : 0 ≤ eps) (i : Fin (n + 1)) : (1 - (S.card - 1) * mu) * |x i - z i| ≤ G + eps ∨ x i = z i := by
  obtain ⟨k, hk⟩ := exists_top (x - z)
  have hu : On S (x - z) := fun i hi => by simp [hx i hi, hz i hi]
  by_cases h0 : (x - z) k = 0
  · right
    have := hk i
    rw [h0, abs_zero] at this
    have := abs_eq_zero.1 (le_antisymm this (abs_nonneg _))
    simpa [sub_eq_zero] using this
  left
  have hkS : k ∈ S := by
    by_contra h
    exact h0 (hu k h)
  have h1 := grad_split hf x z k
  rw [whole hd] at h1
  have h2 := cross hd hmu hu hk k
  rw [Finset.card_erase_of_mem hkS] at h2
  have hc : ((S.card - 1 : ℕ) : ℝ) = S.card - 1 := by
    rw [Nat.cast_sub (Finset.card_pos.2 ⟨k, hkS⟩)]
    simp
  rw [hc] at h2
  have h3 := ho k
  have h4 := hG k hkS
  have h5 : |(x - z) k| ≤ G + eps + (S.card - 1) * (mu * |(x - z) k|) := by
    have : (x - z) k = f.grad x k - ⟪col f k, f.A z - f.b⟫ -
        ∑ j ∈ Finset.univ.erase k, (x - z) j * ⟪col f k, col f j⟫ := by linarith
    calc |(x - z) k| = |f.grad x k - ⟪col f k, f.A z - f.b⟫ -
        ∑ j ∈ Finset.univ.erase k, (x - z) j * ⟪col f k, col f j⟫| := by rw [← this]
      _ ≤ |f.grad x k - ⟪col f k, f.A z - f.b⟫| + |∑ j ∈ Finset.univ.erase k, (x - z) j * ⟪col f k, col f j⟫| := abs_sub _ _
      _ ≤ |f.grad x k| + |⟪col f k, f.A z - f.b⟫| + |∑ j ∈ Finset.univ.erase k, (x - z) j * ⟪col f k, col f j⟫| := by
          have := abs_sub (f.grad x k) ⟪col f k, f.A z - f.b⟫
          linarith
      _ ≤ _ := by linarith
  have h6 : |x i - z i| ≤ |(x - z) k| := by simpa using hk i
  by_cases hp : 0 ≤ 1 - (S.card - 1) * mu
  · have := mul_le_mul_of_nonneg_left h6 hp
    linarith
  · have : (1 - (S.card - 1) * mu) * |x i - z i| ≤ 0 :=
      mul_nonpos_of_nonpos_of_nonneg (by linarith) (abs_nonneg _)
    linarith

/-- While the largest gradient entry is at least the tolerance, it belongs to the support. -/
theorem pick (hf : f.Adj) (hd : Dictionary f mu) (hmu : 0 ≤ mu) (hz : On S z) (ho : Observes f z eps) (hx : On S x)
    (hS : (2 * S.card - 1) * mu < 1) (ht : eps * (1 + mu) < tol * (1 - (2 * S.card - 1) * mu)) {k : Fin (n + 1)}
    (hk : ∀ i, |f.grad x i| ≤ |f.grad x k|) (hkt : tol ≤ |f.grad x k|) : k ∈ S := by
  by_contra hkS
  obtain ⟨p, hp⟩ := exists_top (x - z)
  have hu : On S (x - z) := fun i hi => by simp [hx i hi, hz i hi]
  -- the chosen entry
  have h1 := grad_split hf x z k
  rw [whole hd, hu k hkS, zero_add] at h1
  have h2 := cross hd hmu hu hp k
  rw [Finset.erase_eq_of_notMem hkS] at h2
  have h3 : |f.grad x k| ≤ S.card * (mu * |(x - z) p|) + eps := by
    rw [h1]
    refine le_trans (abs_add_le _ _) ?_
    linarith [ho k]
  have heps : 0 ≤ eps := le_trans (abs_nonneg _) (ho k)
  -- the largest entry of the distance
  have h4 : |(x - z) p| * (1 - (2 * S.card - 1) * mu) ≤ 2 * eps := by
    by_cases h0 : (x - z) p = 0
    · rw [h0, abs_zero]
      linarith
    have hpS : p ∈ S := by
      by_contra h
      exact h0 (hu p h)
    have h5 := grad_split hf x z p
    rw [whole hd] at h5
    have h6 := cross hd hmu hu hp p
    have hc : ((S.card - 1 : ℕ) : ℝ) = S.card - 1 := by
      rw [Nat.cast_sub (Finset.card_pos.2 ⟨p, hpS⟩)]
      simp
    rw [Finset.card_erase_of_mem hpS, hc] at h6
    have h7 : |(x - z) p| ≤ |f.grad x p| + eps + (S.card - 1) * (mu * |(x - z) p|) := by
      have : (x - z) p = f.grad x p - ⟪col f p, f.A z - f.b⟫ -
          ∑ j ∈ Finset.univ.erase p, (x - z) j * ⟪col f p, col f j⟫ := by linarith
      have e1 := abs_sub (f.grad x p - ⟪col f p, f.A z - f.b⟫) (∑ j ∈ Finset.univ.erase p, (x - z) j * ⟪col f p, col f j⟫)
      have e2 := abs_sub (f.grad x p) ⟪col f p, f.A z - f.b⟫
      rw [← this] at e1
      linarith [ho p]
    have := hk p
    nlinarith
  have hq : 0 < 1 - (2 * S.card - 1) * mu := by linarith
  have hm0 : 0 ≤ S.card * mu := by positivity
  have h8 : tol * (1 - (2 * S.card - 1) * mu) ≤ (S.card * (mu * |(x - z) p|) + eps) * (1 - (2 * S.card - 1) * mu) :=
    mul_le_mul_of_nonneg_right (le_trans hkt h3) hq.le
  have h9 := mul_le_mul_of_nonneg_left h4 hm0
  nlinarith

end recovery

/-! ### Runs -/

theorem on_span {S : Finset (Fin (n + 1))} {l : List (Col n)} (h : ∀ a ∈ l, On S a) {x : Col n} (hx : x ∈ spanOf l) : On S x := by
  unfold spanOf at hx
  induction hx using Submodule.span_induction with
  | mem x hx => exact h x hx
  | zero => intro i _; rfl
  | add x y _ _ hx hy => intro i hi; simp [hx i hi, hy i hi]
  | smul c x _ hx => intro i hi; simp [hx i hi]

/-- Independent vectors on `S` are at most as many as `S` has elements. -/
theorem indep_on {S : Finset (Fin (n + 1))} (f : FuncSq (Col n) Y) {l : List (Col n)} (h : ∀ a ∈ l, On S a) (hi : Indep (l.map f.A)) :
    l.length ≤ S.card := by
  classical
  have h1 : LinearIndependent ℝ l.get := by
    have : LinearIndependent ℝ (f.A ∘ l.get) := by
      have e : f.A ∘ l.get = (l.map f.A).get ∘ Fin.cast (by simp) := by
        funext i
        simp
      rw [e]
      exact LinearIndependent.comp hi _ (Fin.cast_injective _)
    exact this.of_comp
  let w : Finset (Col n) := S.image fun j => EuclideanSpace.single j 1
  have h2 := linearIndependent_le_span_aux' l.get h1 (w : Set (Col n)) (by
    rintro _ ⟨i, rfl⟩
    have ha := h _ (l.get_mem i)
    have e : l.get i = ∑ j ∈ S, (l.get i) j • (EuclideanSpace.single j 1 : Col n) := by
      ext m
      by_cases hm : m ∈ S
      · simp [Pi.single_apply, hm]
      · rw [ha m hm]
        simp [Pi.single_apply, hm]
    rw [e]
    refine Submodule.sum_mem _ fun j hj => Submodule.smul_mem _ _ (Submodule.subset_span ?_)
    simp only [w, Finset.coe_image, Set.mem_image]
    exact ⟨j, hj, rfl⟩)
  simp only [Fintype.card_fin] at h2
  refine le_trans h2 ?_
  simp only [Finset.coe_sort_coe, Fintype.card_coe]
  exact Finset.card_image_le

variable {f : FuncSq (Col n) Y} {solve : List Y → Y → List ℝ} {isPrune : Bool} {tol mu eps : ℝ} {cb : Quiet V (Col n)}
  {S : Finset (Fin (n + 1))} {z : Col n} {s0 : Fin (n + 1) → ℝ}

/-- What holds between two passes: the invariant of C209, and all atoms lie on the support. -/
structure RInv (f : FuncSq (Col n) Y) (s0 : Fin (n + 1) → ℝ) (isPrune : Bool) (S : Finset (Fin (n + 1)))
    (t : St (Atoms (Col n) × V) (Col n) ℝ) : Prop where
  omp : OmpInv f (l1 s0) isPrune 0 0 0 t
  atoms : ∀ a ∈ t.w.1.atoms, ∃ k ∈ S, ∃ c : ℝ, c ≠ 0 ∧ a = EuclideanSpace.single k c
  steps : ∀ y ∈ stepsOf t.trace, On S y

/-- The assumptions of C280. -/
structure Sparse (f : FuncSq (Col n) Y) (mu eps tol : ℝ) (S : Finset (Fin (n + 1))) (z : Col n) : Prop where
  adj : f.Adj
  dict : Dictionary f mu
  mu0 : 0 ≤ mu
  on : On S z
  obs : Observes f z eps
  few : (2 * S.card - 1) * mu < 1
  big : eps * (1 + mu) < tol * (1 - (2 * S.card - 1) * mu)

theorem Sparse.eps0 (h : Sparse f mu eps tol S z) : 0 ≤ eps := le_trans (abs_nonneg _) (h.obs 0)

theorem Sparse.tol0 (h : Sparse f mu eps tol S z) : 0 < tol := by
  have h1 : 0 ≤ eps * (1 + mu) := mul_nonneg h.eps0 (by linarith [h.mu0])
  have h2 := h.big
  have h3 : 0 < 1 - (2 * S.card - 1) * mu := by linarith [h.few]
  by_contra h4
  have := mul_nonneg (show 0 ≤ -tol by linarith) h3.le
  linarith

theorem on_single {k : Fin (n + 1)} (hk : k ∈ S) (c : ℝ) : On S (EuclideanSpace.single k c) := by
  intro i hi
  have : i ≠ k := fun e => hi (e ▸ hk)
  simp [this]

theorem on_atoms {l : List (Col n)} (h : ∀ a ∈ l, ∃ k ∈ S, ∃ c : ℝ, c ≠ 0 ∧ a = EuclideanSpace.single k c) : ∀ a ∈ l, On S a := by
  intro a ha
  obtain ⟨k, hk, c, -, rfl⟩ := h a ha
  exact on_single hk c

theorem RInv.onx {t : St (Atoms (Col n) × V) (Col n) ℝ} (h : RInv f s0 isPrune S t) : On S t.x :=
  on_span (on_atoms h.atoms) h.omp.good.mem

/-- The gradient vanishes where the coordinates do not. -/
theorem RInv.flat (hf : f.Adj) {t : St (Atoms (Col n) × V) (Col n) ℝ} (h : RInv f s0 isPrune S t) {i : Fin (n + 1)} (hi : t.x i ≠ 0) :
    f.grad t.x i = 0 := by
  by_cases hex : ∃ c : ℝ, c ≠ 0 ∧ (EuclideanSpace.single i c : Col n) ∈ t.w.1.atoms
  · obtain ⟨c, hc, hm⟩ := hex
    have := h.omp.good.orth hf (v := EuclideanSpace.single i c) (Submodule.subset_span hm)
    rw [inner_single] at this
    exact (mul_eq_zero.1 this).resolve_left hc
  · exfalso
    apply hi
    refine on_span (S := Finset.univ.erase i) ?_ h.omp.good.mem i (Finset.notMem_erase i _)
    intro a ha
    obtain ⟨k, hk, c, hc, rfl⟩ := h.atoms a ha
    refine on_single (Finset.mem_erase.2 ⟨?_, Finset.mem_univ _⟩) c
    rintro rfl
    exact hex ⟨c, hc, ha⟩

theorem rinv_next (h : Sparse f mu eps tol S z) (hs : LeastSquares solve) {m : Nat} {t t' : St (Atoms (Col n) × V) (Col n) ℝ}
    (hI : RInv f s0 isPrune S t) (hb : body (ompUser f solve isPrune (l1 s0) tol cb) m t = .inl t') :
    RInv f s0 isPrune S t' ∧ t'.i = t.i + 1 := by
  obtain ⟨hn, hi⟩ := omp_next h.adj hs h.tol0 (leastDrop_zero f (l1 s0) tol) hI.omp hb
  refine ⟨?_, hi⟩
  have hx := hI.onx
  rcases omp_body (f := f) (solve := solve) (isPrune := isPrune) (oracle := l1 s0) (tol := tol) (cb := cb) (m := m) t with
    ⟨h', -⟩ | ⟨-, -, v, stop, ⟨-, h'⟩ | ⟨hgap, -, st, h'⟩⟩
  · rw [h'] at hb; cases hb
  · rw [h'] at hb; cases hb
  have hx0 := hI.omp.good.orth h.adj hI.omp.good.mem
  obtain ⟨k, hk1, hk2, hk3⟩ := l1_inner s0 (f.grad t.x)
  rw [inner_sub_left, hx0, zero_sub, abs_neg, hk3, abs_neg, abs_abs] at hgap
  have hkS := pick h.adj h.dict h.mu0 h.on h.obs hx h.few h.big hk2 hgap
  have hsg : -Lp.sgn (f.grad t.x k) ≠ 0 := by
    have h0 : f.grad t.x k ≠ 0 := by
      intro e
      rw [e, abs_zero] at hgap
      linarith [h.tol0]
    have := Lp.abs_sgn h0
    intro e
    rw [neg_eq_zero.1 e, abs_zero] at this
    exact zero_ne_one this
  have hne : ⟪l1 s0 (f.grad t.x), f.grad t.x⟫ ≠ 0 := by
    rw [hk3]
    have := h.tol0
    intro e
    linarith
  obtain ⟨a', x', hu, hg, -, -, hsub, -⟩ := span_core hs isPrune t.x (hI.omp.good.add h.adj hne) hI.omp.sq
  obtain ⟨v', hb'⟩ := h' a' x' hu
  rw [hb'] at hb
  cases hb
  have hat : ∀ a ∈ a'.atoms, ∃ k ∈ S, ∃ c : ℝ, c ≠ 0 ∧ a = EuclideanSpace.single k c := by
    intro a ha
    rcases List.mem_cons.1 (hsub.subset ha) with rfl | ha
    · exact ⟨k, hkS, _, hsg, hk1⟩
    · exact hI.atoms a ha
  refine ⟨hn, hat, ?_⟩
  intro y hy
  dsimp only at hy
  rw [List.append_assoc, stepsOf_append] at hy
  have hp := (passEvents_spec f (l1 s0) t.x x' (f.eval t.x) stop st 0).2.2.2
  rw [passEvents] at hp
  rw [hp, List.mem_append, List.mem_singleton] at hy
  rcases hy with hy | rfl
  · exact hI.steps y hy
  · exact on_span (on_atoms hat) hg.mem

theorem rinv_zero (v : V) : RInv f s0 isPrune S (start (ompUser f solve isPrune (l1 s0) tol cb) (Atoms.empty, v) 0) :=
  ⟨omp_zero v 0 isPrune, by intro a ha; simp [start, ompUser, Atoms.empty] at ha, by intro y hy; simp [start, stepsOf] at hy⟩

/-- What a run guarantees. -/
structure RPost (f : FuncSq (Col n) Y) (isPrune : Bool) (S : Finset (Fin (n + 1))) (tol : ℝ) (m : Nat) (e : Exit)
    (t : St (Atoms (Col n) × V) (Col n) ℝ) : Prop where
  on : On S t.x
  steps : ∀ y ∈ stepsOf t.trace, On S y
  len : isPrune = false → (stepsOf t.trace).length ≤ S.card
  flat : ∀ i, t.x i ≠ 0 → f.grad t.x i = 0
  gap : e = .gap → ∀ i, |f.grad t.x i| < tol
  loop : e = .loop → t.i = m ∨ t.term = true
  pos : 1 ≤ t.i

theorem rpost (h : Sparse f mu eps tol S z) (hs : LeastSquares solve) {m fuel : Nat} {v : V} {e : Exit}
    {t : St (Atoms (Col n) × V) (Col n) ℝ}
    (hr : optimize (ompUser f solve isPrune (l1 s0) tol cb) m fuel (Atoms.empty, v) 0 = some (e, t)) :
    RPost f isPrune S tol m e t := by
  have hpost : ∀ (t : St (Atoms (Col n) × V) (Col n) ℝ) (r : Exit × St (Atoms (Col n) × V) (Col n) ℝ), RInv f s0 isPrune S t →
      body (ompUser f solve isPrune (l1 s0) tol cb) m t = .inr r → RPost f isPrune S tol m r.1 r.2 := by
    intro t r hI hb
    have hlen : isPrune = false → (stepsOf t.trace).length ≤ S.card := by
      intro hp
      have h1 := indep_on f (on_atoms hI.atoms) hI.omp.good.indep
      have h2 := (hI.omp.all hp).2
      have h3 := hI.omp.num
      omega
    have hflat : ∀ i, t.x i ≠ 0 → f.grad t.x i = 0 := fun i hi => hI.flat h.adj hi
    rcases omp_body (f := f) (solve := solve) (isPrune := isPrune) (oracle := l1 s0) (tol := tol) (cb := cb) (m := m) t with
      ⟨h', h''⟩ | ⟨-, -, v, stop, ⟨hgap, h'⟩ | ⟨-, ⟨b, h'⟩, -⟩⟩
    · rw [h'] at hb; cases hb
      exact ⟨hI.onx, hI.steps, hlen, hflat, (fun e => by cases e), fun _ => h'', hI.omp.pos⟩
    · rw [h'] at hb; cases hb
      have e : stepsOf (t.trace ++ .eval t.x (f.eval t.x) :: if stop then [.stop] else []) = stepsOf t.trace := by
        rw [stepsOf_append]
        simp [stepsOf, stepsOf_stop]
      have hx0 := hI.omp.good.orth h.adj hI.omp.good.mem
      obtain ⟨k, hk1, hk2, hk3⟩ := l1_inner s0 (f.grad t.x)
      rw [inner_sub_left, hx0, zero_sub, abs_neg, hk3, abs_neg, abs_abs] at hgap
      refine ⟨hI.onx, ?_, ?_, hflat, fun _ i => lt_of_le_of_lt (hk2 i) hgap, (fun e => by cases e), hI.omp.pos⟩
      · dsimp only
        rw [e]
        exact hI.steps
      · dsimp only
        rw [e]
        exact hlen
    · rw [h'] at hb; cases hb
  unfold optimize at hr
  obtain ⟨r, hit, hr⟩ := Option.map_eq_some_iff.1 hr
  have := iterate_inv (step := body (ompUser f solve isPrune (l1 s0) tol cb) m) (RInv f s0 isPrune S) _
    (fun t t' hI hb => (rinv_next h hs hI hb).1) hpost fuel _ _ (rinv_zero v) hit
  cases hr
  obtain ⟨h1, h2, h3, h4, h5, h6, h7⟩ := this
  exact ⟨h1, h2, h3, h4, h5, h6, h7⟩

/-- **C280** A run from 0 on a dictionary whose coherence `mu` satisfies `(2 k - 1) mu < 1`, with `b` the image of a vector with
`k` nonzero entries up to a small error: no step, with or without pruning, puts a nonzero entry outside these `k` places.
Without pruning there are at most `k` steps. -/
theorem C280_support (h : Sparse f mu eps tol S z) (hs : LeastSquares solve) {m fuel : Nat} {v : V} {e : Exit}
    {t : St (Atoms (Col n) × V) (Col n) ℝ}
    (hr : optimize (ompUser f solve isPrune (l1 s0) tol cb) m fuel (Atoms.empty, v) 0 = some (e, t)) :
    (∀ i ∉ S, t.x i = 0) ∧ (∀ y ∈ stepsOf t.trace, ∀ i ∉ S, y i = 0) ∧
      (isPrune = false → (stepsOf t.trace).length ≤ S.card) := by
  have := rpost h hs hr
  exact ⟨this.on, this.steps, this.len⟩

/-- The bound on the number of columns also bounds the denominator. -/
theorem Sparse.den (h : Sparse f mu eps tol S z) : 0 < 1 - (S.card - 1) * mu := by
  have h1 := h.few
  have h2 := h.mu0
  have h3 : (0 : ℝ) ≤ S.card := Nat.cast_nonneg _
  have := mul_nonneg h3 h2
  linarith

/-- **C280** A run that ends with the test of the tolerance, with or without pruning, returns coordinates whose entries differ
from those of `z` by less than `(tol + eps) / (1 - (k - 1) mu)`. -/
theorem C280_accuracy (h : Sparse f mu eps tol S z) (hs : LeastSquares solve) {m fuel : Nat} {v : V}
    {t : St (Atoms (Col n) × V) (Col n) ℝ}
    (hr : optimize (ompUser f solve isPrune (l1 s0) tol cb) m fuel (Atoms.empty, v) 0 = some (.gap, t)) (i : Fin (n + 1)) :
    |t.x i - z i| < (tol + eps) / (1 - (S.card - 1) * mu) := by
  have hp := rpost h hs hr
  have hg := hp.gap rfl
  obtain ⟨k, hk⟩ := exists_top (f.grad t.x)
  rw [lt_div_iff₀ h.den, mul_comm]
  rcases dist_le h.adj h.dict h.mu0 h.on h.obs hp.on (fun i _ => hk i) (abs_nonneg _) h.eps0 i with h1 | h1
  · linarith [hg k]
  · rw [h1, sub_self, abs_zero, mul_zero]
    linarith [h.tol0, h.eps0]

/-- **C280** If moreover the entries of `z` on `S` are not smaller than that bound, a run that ends with the test of the tolerance
returns coordinates with exactly the places of `S` nonzero, within `eps / (1 - (k - 1) mu)` of `z`: without error in `b` the
coordinates are `z`. -/
theorem C280_exact (h : Sparse f mu eps tol S z) (hs : LeastSquares solve)
    (hz : ∀ i ∈ S, (tol + eps) / (1 - (S.card - 1) * mu) ≤ |z i|) {m fuel : Nat} {v : V} {t : St (Atoms (Col n) × V) (Col n) ℝ}
    (hr : optimize (ompUser f solve isPrune (l1 s0) tol cb) m fuel (Atoms.empty, v) 0 = some (.gap, t)) :
    (∀ i, t.x i ≠ 0 ↔ i ∈ S) ∧ (∀ i, |t.x i - z i| ≤ eps / (1 - (S.card - 1) * mu)) ∧ (eps = 0 → t.x = z) := by
  have hp := rpost h hs hr
  have hne : ∀ i ∈ S, t.x i ≠ 0 := by
    intro i hi h0
    have := C280_accuracy h hs hr i
    rw [h0, zero_sub, abs_neg] at this
    linarith [hz i hi]
  have hd : ∀ i, |t.x i - z i| ≤ eps / (1 - (S.card - 1) * mu) := by
    intro i
    rw [le_div_iff₀ h.den, mul_comm]
    rcases dist_le h.adj h.dict h.mu0 h.on h.obs hp.on (G := 0)
      (fun i hi => by rw [hp.flat i (hne i hi), abs_zero]) (le_refl _) h.eps0 i with h1 | h1
    · linarith
    · rw [h1, sub_self, abs_zero, mul_zero]
      exact h.eps0
  refine ⟨fun i => ⟨fun h0 => ?_, hne i⟩, hd, ?_⟩
  · by_contra hi
    exact h0 (hp.on i hi)
  · rintro rfl
    ext i
    have := hd i
    rw [zero_div] at this
    have := abs_eq_zero.1 (le_antisymm this (abs_nonneg _))
    linarith

/-- **C280** Without pruning and without an iteration limit the run ends after at most `k` steps; unless a callback asked to
stop, it ends with the test of the tolerance. -/
theorem C280_ends (h : Sparse f mu eps tol S z) (hs : LeastSquares solve) (v : V) :
    ∃ e t, optimize (ompUser f solve false (l1 s0) tol cb) 0 (S.card + 2) (Atoms.empty, v) 0 = some (e, t) ∧
      (stepsOf t.trace).length ≤ S.card ∧ (t.term = false → e = .gap) := by
  obtain ⟨r, hit⟩ := iterate_total (step := body (ompUser f solve false (l1 s0) tol cb) 0)
    (RInv f s0 false S) (fun t => S.card + 1 - t.i) (by
      intro t t' hI hb
      obtain ⟨h1, h2⟩ := rinv_next h hs hI hb
      have h3 := indep_on f (on_atoms h1.atoms) h1.omp.good.indep
      have h4 := (h1.omp.all rfl).2
      exact ⟨h1, by omega⟩) (S.card + 2) _ (rinv_zero (f := f) (solve := solve) (tol := tol) (cb := cb) v)
    (by omega)
  have hr : optimize (ompUser f solve false (l1 s0) tol cb) 0 (S.card + 2) (Atoms.empty, v) 0 =
      some (r.1, finish (ompUser f solve false (l1 s0) tol cb) r.2) := by
    unfold optimize
    rw [hit]
    rfl
  have hp := rpost h hs hr
  refine ⟨_, _, hr, hp.len rfl, ?_⟩
  intro hterm
  cases he : r.1 with
  | gap => rfl
  | loop =>
    rcases hp.loop he with h0 | h0
    · have := hp.pos
      omega
    · rw [hterm] at h0
      cases h0

/-! ### A case -/

/-- Two columns `(1, 0)` and `(3/5, 4/5)`, `b = A (2, 0)`. -/
noncomputable def skewSq : FuncSq (Col 1) (Col 1) where
  A :=
    { toFun := fun x => WithLp.toLp 2 ![x 0 + 3 / 5 * x 1, 4 / 5 * x 1]
      map_add' := by
        intro x y
        ext i
        fin_cases i <;> simp <;> ring
      map_smul' := by
        intro c x
        ext i
        fin_cases i <;> simp <;> ring }
  At :=
    { toFun := fun y => WithLp.toLp 2 ![y 0, 3 / 5 * y 0 + 4 / 5 * y 1]
      map_add' := by
        intro x y
        ext i
        fin_cases i <;> simp <;> ring
      map_smul' := by
        intro c x
        ext i
        fin_cases i <;> simp <;> ring }
  b := WithLp.toLp 2 ![2, 0]

theorem skew_sparse : Sparse skewSq (3 / 5) (1 / 100) 1 {0} (EuclideanSpace.single 0 2) := by
  have hc0 : col skewSq 0 = WithLp.toLp 2 ![1, 0] := by
    ext i
    fin_cases i <;> simp [col, skewSq]
  have hc1 : col skewSq 1 = WithLp.toLp 2 ![3 / 5, 4 / 5] := by
    ext i
    fin_cases i <;> simp [col, skewSq]
  have hb : skewSq.A (EuclideanSpace.single 0 2) - skewSq.b = 0 := by
    ext i
    fin_cases i <;> simp [skewSq]
  refine ⟨?_, ⟨?_, ?_⟩, by norm_num, ?_, ?_, ?_, ?_⟩
  · intro x y
    simp [skewSq, PiLp.inner_apply, Fin.sum_univ_two]
    ring
  · intro j
    fin_cases j
    · show ‖col skewSq 0‖ = 1
      rw [hc0, EuclideanSpace.norm_eq]
      simp [Fin.sum_univ_two]
    · show ‖col skewSq 1‖ = 1
      rw [hc1, EuclideanSpace.norm_eq]
      simp [Fin.sum_univ_two]
      norm_num
  · have h01 : ⟪col skewSq 0, col skewSq 1⟫ = 3 / 5 := by
      rw [hc0, hc1]
      simp [PiLp.inner_apply, Fin.sum_univ_two]
    intro i j hij
    fin_cases i <;> fin_cases j <;> simp at hij
    · show |⟪col skewSq 0, col skewSq 1⟫| ≤ 3 / 5
      rw [h01]
      norm_num
    · show |⟪col skewSq 1, col skewSq 0⟫| ≤ 3 / 5
      rw [real_inner_comm, h01]
      norm_num
  · exact on_single (by simp) 2
  · intro j
    rw [hb, inner_zero_right, abs_zero]
    norm_num
  · norm_num
  · norm_num

/-- The hypotheses of `C280_support`, `C280_accuracy`, `C280_exact` and `C280_ends` hold for two columns at an angle: the run
ends with the test of the tolerance and finds the one nonzero place. -/
example (cb : Quiet V (Col 1)) (v : V) (s0 : Fin 2 → ℝ) : ∃ solve : List (Col 1) → Col 1 → List ℝ, LeastSquares solve ∧
    ∃ e t, optimize (ompUser skewSq solve false (l1 s0) 1 cb) 0 3 (Atoms.empty, v) 0 = some (e, t) ∧
      (stepsOf t.trace).length ≤ 1 ∧ (t.term = false → ∀ i, t.x i ≠ 0 ↔ i = 0) := by
  obtain ⟨solve, hs⟩ := exists_leastSquares (Y := Col 1)
  obtain ⟨e, t, h1, h2, h3⟩ := C280_ends skew_sparse hs (cb := cb) (s0 := s0) v
  refine ⟨solve, hs, e, t, h1, by simpa using h2, fun ht i => ?_⟩
  have he := h3 ht
  subst he
  have := (C280_exact skew_sparse hs (by
    intro i hi
    rw [Finset.mem_singleton.1 hi]
    norm_num) h1).1 i
  rwa [Finset.mem_singleton] at this

end Ens.Fw
