import Mathlib.LinearAlgebra.LinearIndependent.Lemmas
import Mathlib.LinearAlgebra.Dimension.Constructions
import Mathlib.LinearAlgebra.FiniteDimensional.Basic
import Mathlib.Tactic.Module
import Mathlib.Tactic.Linarith
import Mathlib.Tactic.FieldSimp
import Verif.Fw.Atoms

/-
Lemmas on combinations of atoms, exact least squares and pruning.
-/

namespace Ens.Fw

open scoped RealInnerProductSpace

variable {X Y : Type} [NormedAddCommGroup X] [InnerProductSpace ℝ X] [NormedAddCommGroup Y] [InnerProductSpace ℝ Y]

/-- `At` is the transpose of `A`. -/
def FuncSq.Adj (f : FuncSq X Y) : Prop := ∀ x y, ⟪f.A x, y⟫ = ⟪x, f.At y⟫

/-- The span of the vectors of a list. -/
def spanOf {Z : Type} [NormedAddCommGroup Z] [InnerProductSpace ℝ Z] (l : List Z) : Submodule ℝ Z := Submodule.span ℝ {z | z ∈ l}

/-- The vectors of a list are linearly independent. -/
def Indep {Z : Type} [NormedAddCommGroup Z] [InnerProductSpace ℝ Z] (l : List Z) : Prop := LinearIndependent ℝ l.get

/-- `arma::solve` returns a least squares solution for linearly independent columns. -/
def LeastSquares (solve : List Y → Y → List ℝ) : Prop :=
  ∀ cols b, Indep cols → (solve cols b).length = cols.length ∧
    ∀ c : List ℝ, c.length = cols.length → ‖comb (solve cols b) cols - b‖ ≤ ‖comb c cols - b‖

section
variable {Z : Type} [NormedAddCommGroup Z] [InnerProductSpace ℝ Z]

theorem comb_cons (c : ℝ) (cs : List ℝ) (v : Z) (l : List Z) : comb (c :: cs) (v :: l) = c • v + comb cs l := by
  simp [comb]

theorem comb_mem : ∀ (c : List ℝ) (l : List Z), comb c l ∈ spanOf l
  | [], l => by simp [comb]
  | _ :: _, [] => by simp [comb]
  | c :: cs, v :: l => by
    rw [comb_cons]
    refine Submodule.add_mem _ (Submodule.smul_mem _ _ (Submodule.subset_span (by simp))) ?_
    exact Submodule.span_mono (fun z hz => List.mem_cons_of_mem _ hz) (comb_mem cs l)

theorem spanOf_cons (v : Z) (l : List Z) : spanOf (v :: l) = Submodule.span ℝ (insert v {z | z ∈ l}) := by
  unfold spanOf
  congr 1
  ext z
  simp

theorem exists_comb : ∀ (l : List Z) (y : Z), y ∈ spanOf l → ∃ c : List ℝ, c.length = l.length ∧ y = comb c l
  | [], y, h => by
    refine ⟨[], rfl, ?_⟩
    simpa [spanOf, comb] using h
  | v :: l, y, h => by
    rw [spanOf_cons, Submodule.mem_span_insert] at h
    obtain ⟨a, z, hz, rfl⟩ := h
    obtain ⟨c, hc, rfl⟩ := exists_comb l z hz
    exact ⟨a :: c, by simp [hc], by rw [comb_cons]⟩

theorem indep_cons {v : Z} {l : List Z} (hl : Indep l) (hv : v ∉ spanOf l) : Indep (v :: l) := by
  unfold Indep at hl ⊢
  have e : (v :: l).get = Fin.cons v l.get := by
    funext i
    refine Fin.cases rfl (fun j => rfl) i
  rw [e, linearIndependent_finCons]
  refine ⟨hl, ?_⟩
  have : Set.range l.get = {z | z ∈ l} := by
    ext z
    simp [List.mem_iff_get]
  rw [this]
  exact hv

theorem indep_sublist {l l' : List Z} (h : l'.Sublist l) (hl : Indep l) : Indep l' := by
  obtain ⟨g, hg⟩ := List.sublist_iff_exists_fin_orderEmbedding_get_eq.1 h
  unfold Indep at hl ⊢
  have : l'.get = l.get ∘ g := funext hg
  rw [this]
  exact hl.comp _ g.injective

theorem indep_nil : Indep ([] : List Z) := by
  unfold Indep
  haveI : IsEmpty (Fin ([] : List Z).length) := inferInstanceAs (IsEmpty (Fin 0))
  exact linearIndependent_empty_type

theorem indep_length [FiniteDimensional ℝ Z] {l : List Z} (hl : Indep l) : l.length ≤ Module.finrank ℝ Z := by
  have := hl.fintype_card_le_finrank
  simpa using this

end

theorem map_comb (A : X →ₗ[ℝ] Y) : ∀ (c : List ℝ) (l : List X), A (comb c l) = comb c (l.map A)
  | [], l => by simp [comb]
  | _ :: _, [] => by simp [comb]
  | c :: cs, v :: l => by rw [List.map_cons, comb_cons, comb_cons, map_add, map_smul, map_comb]

theorem spanOf_map (A : X →ₗ[ℝ] Y) (l : List X) : spanOf (l.map A) = (spanOf l).map A := by
  unfold spanOf
  rw [Submodule.map_span]
  congr 1
  ext z
  simp

theorem eval_eq (f : FuncSq X Y) (x : X) : f.eval x = ‖f.A x - f.b‖ ^ 2 / 2 := by
  unfold FuncSq.eval
  rw [real_inner_self_eq_norm_sq]
  ring

theorem eval_nonneg (f : FuncSq X Y) (x : X) : 0 ≤ f.eval x := by
  rw [eval_eq]
  positivity

/-- The square loss along a direction. -/
theorem eval_add {f : FuncSq X Y} (hf : f.Adj) (x v : X) (e : ℝ) :
    f.eval (x + e • v) = f.eval x + e * ⟪v, f.grad x⟫ + e ^ 2 / 2 * ‖f.A v‖ ^ 2 := by
  unfold FuncSq.eval FuncSq.grad
  rw [← hf, map_add, map_smul, show f.A x + e • f.A v - f.b = (f.A x - f.b) + e • f.A v by abel, inner_add_add_self,
    real_inner_smul_left, real_inner_smul_right, real_inner_smul_left, real_inner_smul_right,
    real_inner_self_eq_norm_sq (f.A v), real_inner_comm (f.A x - f.b) (f.A v)]
  ring

/-- The coordinates are the given combination of the atoms, whose images are independent, and the least value of the
objective over the span of the atoms. -/
structure Good (f : FuncSq X Y) (a : Atoms X) (x : X) : Prop where
  len : a.coeffs.length = a.atoms.length
  eq : x = a.recover
  indep : Indep (a.atoms.map f.A)
  best : ∀ y ∈ spanOf a.atoms, f.eval x ≤ f.eval y

theorem Good.mem {f : FuncSq X Y} {a : Atoms X} {x : X} (h : Good f a x) : x ∈ spanOf a.atoms := by
  rw [h.eq]
  exact comb_mem _ _

/-- The gradient is orthogonal to the span of the atoms. -/
theorem Good.orth {f : FuncSq X Y} (hf : f.Adj) {a : Atoms X} {x : X} (h : Good f a x) {v : X}
    (hv : v ∈ spanOf a.atoms) : ⟪v, f.grad x⟫ = 0 := by
  have key : ∀ e : ℝ, 0 ≤ e * ⟪v, f.grad x⟫ + e ^ 2 / 2 * ‖f.A v‖ ^ 2 := by
    intro e
    have := h.best (x + e • v) (Submodule.add_mem _ h.mem (Submodule.smul_mem _ _ hv))
    rw [eval_add hf] at this
    linarith
  by_cases hz : ‖f.A v‖ ^ 2 = 0
  · have h1 := key 1
    have h2 := key (-1)
    rw [hz] at h1 h2
    linarith
  · have hp : 0 < ‖f.A v‖ ^ 2 := lt_of_le_of_ne (by positivity) (Ne.symm hz)
    have h1 := key (-⟪v, f.grad x⟫ / ‖f.A v‖ ^ 2)
    have : -⟪v, f.grad x⟫ / ‖f.A v‖ ^ 2 * ⟪v, f.grad x⟫ + (-⟪v, f.grad x⟫ / ‖f.A v‖ ^ 2) ^ 2 / 2 * ‖f.A v‖ ^ 2 =
        -(⟪v, f.grad x⟫ ^ 2 / (2 * ‖f.A v‖ ^ 2)) := by
      field_simp
      ring
    rw [this] at h1
    have h2 : 0 ≤ ⟪v, f.grad x⟫ ^ 2 / (2 * ‖f.A v‖ ^ 2) := by positivity
    have h3 : ⟪v, f.grad x⟫ ^ 2 / (2 * ‖f.A v‖ ^ 2) = 0 := by linarith
    rw [div_eq_zero_iff] at h3
    rcases h3 with h3 | h3
    · exact pow_eq_zero_iff (two_ne_zero) |>.1 h3
    · linarith

/-- Coefficients from least squares are good. -/
theorem good_solve {f : FuncSq X Y} {solve : List Y → Y → List ℝ} (hs : LeastSquares solve) {l : List X}
    (hl : Indep (l.map f.A)) (q : List ℝ) :
    Good f ⟨l, solve (l.map f.A) f.b, q⟩ (comb (solve (l.map f.A) f.b) l) := by
  obtain ⟨h1, h2⟩ := hs _ f.b hl
  refine ⟨by simpa using h1, rfl, hl, ?_⟩
  intro y hy
  obtain ⟨c, hc, rfl⟩ := exists_comb _ _ hy
  have := h2 c (by simpa using hc)
  rw [eval_eq, eval_eq, map_comb, map_comb]
  have h0 := norm_nonneg (comb (solve (l.map f.A) f.b) (l.map f.A) - f.b)
  nlinarith

/-- Adding an atom the gradient is not orthogonal to keeps the images independent. -/
theorem Good.add {f : FuncSq X Y} (hf : f.Adj) {a : Atoms X} {x s : X} (h : Good f a x) (hs : ⟪s, f.grad x⟫ ≠ 0) :
    Indep ((s :: a.atoms).map f.A) := by
  rw [List.map_cons]
  refine indep_cons h.indep ?_
  rw [spanOf_map]
  rintro ⟨v, hv, e⟩
  apply hs
  have := h.orth hf hv
  unfold FuncSq.grad at this ⊢
  rw [← hf] at this ⊢
  rw [← e]
  exact this

/-- The best point of the span with `s` added lowers the objective. -/
theorem drop_of_best {f : FuncSq X Y} (hf : f.Adj) {l : List X} {x y s : X} (hx : x ∈ spanOf l) (hsA : f.A s ≠ 0)
    (hy : ∀ z ∈ spanOf (s :: l), f.eval y ≤ f.eval z) :
    f.eval y ≤ f.eval x - ⟪s, f.grad x⟫ ^ 2 / (2 * ‖f.A s‖ ^ 2) := by
  have hm : spanOf l ≤ spanOf (s :: l) := Submodule.span_mono fun z hz => List.mem_cons_of_mem _ hz
  have hss : s ∈ spanOf (s :: l) := Submodule.subset_span (by simp)
  have hp : 0 < ‖f.A s‖ ^ 2 := by positivity
  refine le_trans (hy (x + (-⟪s, f.grad x⟫ / ‖f.A s‖ ^ 2) • s)
    (Submodule.add_mem _ (hm hx) (Submodule.smul_mem _ _ hss))) (le_of_eq ?_)
  rw [eval_add hf]
  field_simp
  ring

theorem add_atoms (f : FuncSq X Y) (a : Atoms X) (v : X) (c : ℝ) : (a.add f v c).atoms = v :: a.atoms := by
  unfold Atoms.add
  split
  · rename_i h
    rw [List.isEmpty_iff.1 h]
  · rfl

/-! ### Pruning -/

theorem indexMin_spec {l : List ℝ} (h : l ≠ []) :
    ∃ hi : indexMin l < l.length, ∀ y ∈ l, l[indexMin l] ≤ y := by
  classical
  obtain ⟨m, hm, hle⟩ : ∃ m ∈ l, ∀ y ∈ l, m ≤ y := by
    obtain ⟨m, hm, hle⟩ := l.toFinset.exists_min_image id (by simpa [Finset.nonempty_iff_ne_empty] using h)
    exact ⟨m, by simpa using hm, fun y hy => hle y (by simpa using hy)⟩
  have hi : indexMin l < l.length := by
    unfold indexMin
    rw [List.findIdx_lt_length]
    exact ⟨m, hm, by simpa using hle⟩
  refine ⟨hi, ?_⟩
  have := List.findIdx_getElem (w := hi)
  exact @of_decide_eq_true _ _ this

theorem comb_eraseIdx {Z : Type} [NormedAddCommGroup Z] [InnerProductSpace ℝ Z] : ∀ (c : List ℝ) (l : List Z) (i : Nat)
    (h1 : i < c.length) (h2 : i < l.length), comb (c.eraseIdx i) (l.eraseIdx i) = comb c l - c[i] • l[i]
  | [], _, _, h, _ => absurd h (by simp)
  | _ :: _, [], _, _, h => absurd h (by simp)
  | a :: c, v :: l, 0, _, _ => by simp [comb_cons]
  | a :: c, v :: l, i + 1, h1, h2 => by
    simp only [List.eraseIdx_cons_succ, comb_cons, List.getElem_cons_succ]
    rw [comb_eraseIdx c l i (by simpa using h1) (by simpa using h2)]
    abel

theorem gaps_length {f : FuncSq X Y} {a : Atoms X} {q : List ℝ} (h1 : a.coeffs.length = a.atoms.length)
    (h2 : q.length = a.atoms.length) : (gaps f a q).length = a.atoms.length := by
  simp [gaps, h1, h2]

/-- What pruning guarantees. -/
theorem prune_spec {f : FuncSq X Y} {solve : List Y → Y → List ℝ} (hs : LeastSquares solve) {F : ℝ} {a : Atoms X}
    (hg : Good f a a.recover) (hq : a.sq = a.atoms.map fun v => ‖f.A v‖ ^ 2) (hne : a.atoms ≠ []) :
    ∃ a', a.prune f solve F = some a' ∧ Good f a' a'.recover ∧ f.eval a'.recover ≤ max F (f.eval a.recover) ∧ a'.atoms.Sublist a.atoms ∧
      (a'.sq = a'.atoms.map fun v => ‖f.A v‖ ^ 2) ∧ a'.atoms ≠ [] ∧
      (a'.atoms.length = 1 ∨ ∃ i < a'.atoms.length, ∀ y ∈ spanOf (a'.atoms.eraseIdx i), F < f.eval y) := by
  let I : Atoms X × List ℝ → Prop := fun t => Good f t.1 t.1.recover ∧
    f.eval t.1.recover ≤ max F (f.eval a.recover) ∧ t.1.atoms.Sublist a.atoms ∧
    (t.1.sq = t.1.atoms.map fun v => ‖f.A v‖ ^ 2) ∧ t.1.atoms ≠ [] ∧ t.2.length = t.1.atoms.length
  have hI0 : I (a, List.zipWith (fun q c => 0.5 * q * c ^ 2) a.sq a.coeffs) := by
    refine ⟨hg, le_max_right _ _, List.Sublist.refl _, hq, hne, ?_⟩
    simp [hq, hg.len]
  have hidx : ∀ t : Atoms X × List ℝ, I t → indexMin (gaps f t.1 t.2) < t.1.atoms.length := by
    rintro t ⟨g, -, -, -, n, l⟩
    have hl := gaps_length (f := f) g.len l
    obtain ⟨h, -⟩ := indexMin_spec (l := gaps f t.1 t.2) (by
      intro e; rw [e] at hl; exact n (List.length_eq_zero_iff.1 hl.symm))
    rw [hl] at h
    exact h
  have hgood : ∀ t : Atoms X × List ℝ, ∀ i, I t → Good f ⟨t.1.atoms.eraseIdx i, solve ((t.1.atoms.eraseIdx i).map f.A) f.b,
      t.1.sq.eraseIdx i⟩ (comb (solve ((t.1.atoms.eraseIdx i).map f.A) f.b) (t.1.atoms.eraseIdx i)) := by
    rintro t i ⟨g, -⟩
    exact good_solve hs (indep_sublist ((List.eraseIdx_sublist _ _).map f.A) g.indep) _
  have hl : ∀ t t', I t → pruneBody f solve F t = .inl t' → I t' ∧ t'.1.atoms.length < t.1.atoms.length := by
    intro t t' hI h
    have hi := hidx t hI
    have hG := hgood t (indexMin (gaps f t.1 t.2)) hI
    obtain ⟨g, -, s, q, n, l⟩ := hI
    unfold pruneBody at h
    split at h
    · rename_i hlen
      dsimp only at h
      split at h
      · cases h
      · rename_i hle
        cases h
        refine ⟨⟨hG, le_trans (not_lt.1 hle) (le_max_left _ _), (List.eraseIdx_sublist _ _).trans s, ?_, ?_, ?_⟩, ?_⟩
        · dsimp only
          rw [q, List.eraseIdx_map]
        · intro e
          have := congrArg List.length e
          simp only [List.length_eraseIdx_of_lt hi, List.length_nil] at this
          omega
        · dsimp only
          rw [List.length_eraseIdx_of_lt hi, List.length_eraseIdx_of_lt (by omega)]
          omega
        · dsimp only
          rw [List.length_eraseIdx_of_lt hi]
          omega
    · cases h
  have hr : ∀ t r, I t → pruneBody f solve F t = .inr r → Good f r r.recover ∧ f.eval r.recover ≤ max F (f.eval a.recover) ∧
      r.atoms.Sublist a.atoms ∧ (r.sq = r.atoms.map fun v => ‖f.A v‖ ^ 2) ∧ r.atoms ≠ [] ∧
      (r.atoms.length = 1 ∨ ∃ i < r.atoms.length, ∀ y ∈ spanOf (r.atoms.eraseIdx i), F < f.eval y) := by
    intro t r hI h
    have hi := hidx t hI
    have hG := hgood t (indexMin (gaps f t.1 t.2)) hI
    obtain ⟨g, e, s, q, n, l⟩ := hI
    unfold pruneBody at h
    split at h
    · dsimp only at h
      split at h
      · rename_i hlt
        cases h
        refine ⟨g, e, s, q, n, .inr ⟨_, hi, fun y hy => lt_of_lt_of_le hlt (hG.best y hy)⟩⟩
      · cases h
    · rename_i hlen
      cases h
      refine ⟨g, e, s, q, n, .inl ?_⟩
      have := List.length_pos_iff.2 n
      omega
  obtain ⟨r, h⟩ := iterate_total I (fun t => t.1.atoms.length) hl (a.atoms.length + 1) _ hI0 (Nat.lt_succ_self _)
  exact ⟨r, h, iterate_inv I _ (fun t t' h h' => (hl t t' h h').1) hr _ _ r hI0 h⟩

/-- **C211** The first atom tried for deletion is the one whose deletion, the other coefficients kept, raises the
objective least. -/
theorem C211_first_choice_partial {f : FuncSq X Y} (hf : f.Adj) (solve : List Y → Y → List ℝ) (F : ℝ) {a : Atoms X}
    (hlen : a.coeffs.length = a.atoms.length) (hq : a.sq = a.atoms.map fun v => ‖f.A v‖ ^ 2) {t : Atoms X × List ℝ}
    (h : pruneBody f solve F (a, List.zipWith (fun q c => 0.5 * q * c ^ 2) a.sq a.coeffs) = .inl t) :
    ∃ i < a.atoms.length, t.1.atoms = a.atoms.eraseIdx i ∧
      ∀ j < a.atoms.length, f.eval (comb (a.coeffs.eraseIdx i) (a.atoms.eraseIdx i)) ≤
        f.eval (comb (a.coeffs.eraseIdx j) (a.atoms.eraseIdx j)) := by
  set q := List.zipWith (fun q c => 0.5 * q * c ^ 2) a.sq a.coeffs with hqd
  have hl : (gaps f a q).length = a.atoms.length := gaps_length hlen (by simp [hqd, hq, hlen])
  unfold pruneBody at h
  split at h
  swap
  · cases h
  rename_i h1
  dsimp only at h h1
  split at h
  · cases h
  cases h
  obtain ⟨hi, hmin⟩ := indexMin_spec (l := gaps f a q) (by intro e; rw [e] at hl; simp at hl; omega)
  have hi' := hi
  rw [hl] at hi'
  refine ⟨_, hi', rfl, ?_⟩
  have key : ∀ j (hj : j < a.atoms.length), f.eval (comb (a.coeffs.eraseIdx j) (a.atoms.eraseIdx j)) =
      f.eval a.recover + (gaps f a q)[j]'(by omega) := by
    intro j hj
    rw [comb_eraseIdx _ _ _ (by omega) hj, sub_eq_add_neg, ← neg_smul, show comb a.coeffs a.atoms = a.recover from rfl,
      eval_add hf]
    simp only [gaps, hqd, hq, List.getElem_zipWith, List.getElem_map, real_inner_comm]
    ring
  intro j hj
  rw [key _ hi', key j hj]
  have := hmin _ (List.getElem_mem (l := gaps f a q) (n := j) (by omega))
  linarith

end Ens.Fw
