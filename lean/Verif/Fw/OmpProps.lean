import Mathlib.Analysis.InnerProductSpace.PiL2
import Mathlib.Analysis.InnerProductSpace.Projection.Minimal
import Mathlib.Topology.Algebra.Module.FiniteDimension
import Mathlib.Analysis.Complex.Basic
import Verif.Fw.Omp

/-
Orthogonal matching pursuit: the properties C209, C210, C211, C213.
-/

namespace Ens.Fw

open scoped RealInnerProductSpace

variable {V X Y : Type} [NormedAddCommGroup X] [InnerProductSpace ℝ X] [NormedAddCommGroup Y] [InnerProductSpace ℝ Y]

variable {f : FuncSq X Y} {solve : List Y → Y → List ℝ} {isPrune : Bool} {oracle : X → X} {tol δ : ℝ} {cb : Quiet V X}

/-- **C209** Without pruning a run is one of textbook orthogonal matching pursuit: the objective is evaluated at the current
coordinates, the solver's answer to the gradient there joins the atoms, and each step goes to the minimiser of the objective over
the span of all atoms chosen so far. -/
theorem C209_textbook (hf : f.Adj) (hs : LeastSquares solve) (ht : 0 < tol) {x₀ : X} {m fuel : Nat}
    (hor : x₀ = 0 ∨ ∀ g, g ≠ 0 → ⟪oracle g, g⟫ ≠ 0) {v : V} {e : Exit} {t : St (Atoms X × V) X ℝ}
    (h : optimize (ompUser f solve false oracle tol cb) m fuel (Atoms.empty, v) x₀ = some (e, t)) :
    OmpRun f oracle [] x₀ t.trace ∧ t.x = lastX x₀ t.trace := by
  rcases hor with hor | hor
  · have := omp_run hf hs ht (leastDrop_zero f oracle tol) (d := 0) (.inl ⟨hor, rfl⟩) h
    exact ⟨this.run rfl, this.last⟩
  · have := omp_run hf hs ht (leastDrop_zero f oracle tol) (d := 1) (.inr ⟨rfl, hor⟩) h
    exact ⟨this.run rfl, this.last⟩

/-- **C209** From 0, with or without pruning, every step strictly lowers the objective. -/
theorem C209_descent (hf : f.Adj) (hs : LeastSquares solve) (ht : 0 < tol) {m fuel : Nat} {v : V} {e : Exit}
    {t : St (Atoms X × V) X ℝ}
    (h : optimize (ompUser f solve isPrune oracle tol cb) m fuel (Atoms.empty, v) 0 = some (e, t)) :
    ((0 :: stepsOf t.trace).map f.eval).Pairwise (· > ·) :=
  (omp_run hf hs ht (leastDrop_zero f oracle tol) (d := 0) (.inl ⟨rfl, rfl⟩) h).dec

/-- **C209** (partial) From any start every step but the first strictly lowers the objective. -/
theorem C209_descent_partial (hf : f.Adj) (hs : LeastSquares solve) (ht : 0 < tol)
    (hor : ∀ g, g ≠ 0 → ⟪oracle g, g⟫ ≠ 0) {x₀ : X} {m fuel : Nat} {v : V} {e : Exit} {t : St (Atoms X × V) X ℝ}
    (h : optimize (ompUser f solve isPrune oracle tol cb) m fuel (Atoms.empty, v) x₀ = some (e, t)) :
    ((stepsOf t.trace).map f.eval).Pairwise (· > ·) :=
  (omp_run hf hs ht (leastDrop_zero f oracle tol) (d := 1) (.inr ⟨rfl, hor⟩) h).dec

/-! ### C210 -/

/-- Runs return if the number of passes is bounded. -/
theorem omp_returns (hf : f.Adj) (hs : LeastSquares solve) (ht : 0 < tol) (hδ : LeastDrop f oracle tol δ) {N m : Nat}
    (hN : ∀ t : St (Atoms X × V) X ℝ, OmpInv f oracle isPrune 0 0 δ t → t.i ≤ N) (v : V) :
    ∃ r, optimize (ompUser f solve isPrune oracle tol cb) m (N + 1) (Atoms.empty, v) 0 = some r := by
  obtain ⟨r, hr⟩ := iterate_total (step := body (ompUser f solve isPrune oracle tol cb) m)
    (OmpInv f oracle isPrune 0 0 δ) (fun t => N - t.i) (by
      intro t t' hI h
      obtain ⟨h1, h2⟩ := omp_next hf hs ht hδ hI h
      have := hN t' h1
      exact ⟨h1, by omega⟩) (N + 1) _ (omp_zero (f := f) (solve := solve) (oracle := oracle) (tol := tol) (cb := cb) v δ isPrune)
    (by omega)
  exact ⟨_, by unfold optimize; rw [hr]; rfl⟩

/-- **C210** Without pruning and without an iteration limit, from 0, the run ends after at most as many steps as the
image space has dimensions; unless a callback asked to stop, the gradient at the coordinates returned is orthogonal to the
solver's answer up to the tolerance, and the value returned is the objective there. -/
theorem C210_ends [FiniteDimensional ℝ Y] (hf : f.Adj) (hs : LeastSquares solve) (ht : 0 < tol) (v : V) :
    ∃ e t, optimize (ompUser f solve false oracle tol cb) 0 (Module.finrank ℝ Y + 2) (Atoms.empty, v) 0 = some (e, t) ∧
      (stepsOf t.trace).length ≤ Module.finrank ℝ Y ∧
      (t.term = false → e = .gap ∧ |⟪oracle (f.grad t.x), f.grad t.x⟫| < tol ∧ t.obj = f.eval t.x) := by
  have hdim : ∀ l : List Y, Indep l → l.length ≤ Module.finrank ℝ Y := fun l hl => indep_length hl
  obtain ⟨⟨e, t⟩, hr⟩ := omp_returns (cb := cb) (m := 0) (isPrune := false) (N := Module.finrank ℝ Y + 1) hf hs ht
    (leastDrop_zero f oracle tol) (by
      intro t hI
      have h1 := hdim _ hI.good.indep
      rw [List.length_map] at h1
      have := (hI.all rfl).2
      omega) v
  have hres := omp_run hf hs ht (leastDrop_zero f oracle tol) (d := 0) (.inl ⟨rfl, rfl⟩) hr
  refine ⟨e, t, hr, ?_, ?_⟩
  · have := hres.steps rfl _ hdim
    have := hres.num
    omega
  · intro hterm
    cases e with
    | gap =>
      obtain ⟨-, h1, h2⟩ := hres.gap rfl
      exact ⟨rfl, h1 (.inl rfl), h2⟩
    | loop =>
      rcases hres.loop rfl with h | h
      · rw [hterm] at h
        cases h
      · have := hres.num
        omega

/-- **C210** With or without pruning, if the images of the solver's answers are bounded by `L`, the run from 0 ends and the
number of steps is at most `1 + 4 L² ‖b‖² / (3 tol²)`. -/
theorem C210_ends_pruned (hf : f.Adj) (hs : LeastSquares solve) (ht : 0 < tol) {L : ℝ} (hLp : 0 < L)
    (hL : ∀ g, ‖f.A (oracle g)‖ ≤ L) (v : V) :
    ∃ fuel e t, optimize (ompUser f solve isPrune oracle tol cb) 0 fuel (Atoms.empty, v) 0 = some (e, t) ∧
      ((stepsOf t.trace).length : ℝ) ≤ 1 + 4 * L ^ 2 * ‖f.b‖ ^ 2 / (3 * tol ^ 2) ∧
      (t.term = false → e = .gap ∧ |⟪oracle (f.grad t.x), f.grad t.x⟫| < tol ∧ t.obj = f.eval t.x) := by
  have hδ := leastDrop_bound hf ht hL
  have hpos : 0 < 3 / 4 * (tol ^ 2 / (2 * L ^ 2)) := by positivity
  have h0 : f.eval 0 = ‖f.b‖ ^ 2 / 2 := by rw [eval_eq, map_zero, zero_sub, norm_neg]
  have hcount : ∀ i : Nat, (2 ≤ i → ((i : ℝ) - 2) * (3 / 4 * (tol ^ 2 / (2 * L ^ 2))) ≤ f.eval 0) → 1 ≤ i →
      ((i : ℝ) - 1) ≤ 1 + 4 * L ^ 2 * ‖f.b‖ ^ 2 / (3 * tol ^ 2) := by
    intro i hi h1
    have hq : 0 ≤ 4 * L ^ 2 * ‖f.b‖ ^ 2 / (3 * tol ^ 2) := by positivity
    rcases Nat.lt_or_ge i 2 with h | h
    · have : i = 1 := by omega
      rw [this]
      push_cast
      linarith
    · have h2 := hi h
      rw [h0, ← le_div_iff₀ hpos] at h2
      have : ‖f.b‖ ^ 2 / 2 / (3 / 4 * (tol ^ 2 / (2 * L ^ 2))) = 4 * L ^ 2 * ‖f.b‖ ^ 2 / (3 * tol ^ 2) := by
        field_simp
      rw [this] at h2
      linarith
  obtain ⟨N, hN⟩ := exists_nat_ge (2 + 4 * L ^ 2 * ‖f.b‖ ^ 2 / (3 * tol ^ 2))
  obtain ⟨⟨e, t⟩, hr⟩ := omp_returns (cb := cb) (m := 0) (isPrune := isPrune) (N := N) hf hs ht hδ (by
      intro t hI
      have := hcount t.i (fun h => by
        have := hI.low h
        have := eval_nonneg f t.x
        linarith) hI.pos
      have h2 : (t.i : ℝ) ≤ N := by linarith
      exact_mod_cast h2) v
  have hres := omp_run hf hs ht hδ (d := 0) (.inl ⟨rfl, rfl⟩) hr
  refine ⟨N + 1, e, t, hr, ?_, ?_⟩
  · have hn := hres.num
    have := hcount t.i hres.low (by omega)
    rw [← hn] at this
    push_cast at this
    linarith
  · intro hterm
    cases e with
    | gap =>
      obtain ⟨-, h1, h2⟩ := hres.gap rfl
      exact ⟨rfl, h1 (.inl rfl), h2⟩
    | loop =>
      rcases hres.loop rfl with h | h
      · rw [hterm] at h
        cases h
      · have := hres.num
        omega

/-! ### C211 -/

/-- **C211** Pruning ends; the coordinates after it are the minimiser over the span of the atoms kept, the objective does not exceed
the threshold, at least one atom is kept, and it ends because one atom is left or because the objective without the atom
tried last exceeds the threshold. -/
theorem C211_prune (hs : LeastSquares solve) {F : ℝ} {a : Atoms X}
    (hg : Good f a a.recover) (hq : a.sq = a.atoms.map fun v => ‖f.A v‖ ^ 2) (hne : a.atoms ≠ [])
    (hF : f.eval a.recover ≤ F) :
    ∃ a', a.prune f solve F = some a' ∧ a'.atoms.Sublist a.atoms ∧ a'.atoms ≠ [] ∧
      a'.recover ∈ spanOf a'.atoms ∧ (∀ y ∈ spanOf a'.atoms, f.eval a'.recover ≤ f.eval y) ∧ f.eval a'.recover ≤ F ∧
      (a'.atoms.length = 1 ∨ ∃ i < a'.atoms.length, ∀ y ∈ spanOf (a'.atoms.eraseIdx i), F < f.eval y) := by
  obtain ⟨a', h1, h2, h3, h4, -, h6, h7⟩ := prune_spec hs (F := F) hg hq hne
  rw [max_eq_left hF] at h3
  exact ⟨a', h1, h4, h6, h2.mem, h2.best, h3, h7⟩

/-! ### Least squares exists -/

theorem exists_leastSquares : ∃ solve : List Y → Y → List ℝ, LeastSquares solve := by
  have key : ∀ (cols : List Y) (b : Y), ∃ c : List ℝ, c.length = cols.length ∧
      ∀ c' : List ℝ, c'.length = cols.length → ‖comb c cols - b‖ ≤ ‖comb c' cols - b‖ := by
    intro cols b
    haveI : FiniteDimensional ℝ (spanOf cols) := by
      have : {z | z ∈ cols}.Finite := cols.finite_toSet
      exact FiniteDimensional.span_of_finite ℝ this
    obtain ⟨v, hv, hmin⟩ := Submodule.exists_norm_eq_iInf_of_complete_subspace (spanOf cols)
      (Submodule.complete_of_finiteDimensional _) b
    obtain ⟨c, hc, rfl⟩ := exists_comb _ _ hv
    refine ⟨c, hc, ?_⟩
    intro c' _
    rw [norm_sub_rev, norm_sub_rev (comb c' cols), hmin]
    exact ciInf_le ⟨0, by rintro _ ⟨w, rfl⟩; exact norm_nonneg _⟩ (⟨comb c' cols, comb_mem _ _⟩ : spanOf cols)
  choose solve hsolve using key
  exact ⟨solve, fun cols b _ => hsolve cols b⟩

end Ens.Fw
