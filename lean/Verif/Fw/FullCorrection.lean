import Verif.Fw.OmpCases

/-
`UpdateFullCorrection`: property C212.
-/

namespace Ens.Fw

open scoped RealInnerProductSpace

variable {X Y : Type} [NormedAddCommGroup X] [InnerProductSpace ℝ X] [NormedAddCommGroup Y] [InnerProductSpace ℝ Y]

theorem numbers_map : ∀ w : List ℝ, numbers (w.map .fin) = some w
  | [] => rfl
  | x :: w => by simp [numbers, numbers_map w]

/-- The enhancement with at least one pass keeps the atoms and returns coefficients of 1-norm at most `tau`. -/
theorem enhanceLoop_spec (f : FuncSq X Y) {tau : ℝ} (ht : 0 ≤ tau) (step tol : ℝ) : ∀ (k : Nat) (a : Atoms X) (value : ℝ),
    a.coeffs.length = a.atoms.length →
    ∃ a', enhanceLoop f tau step tol k a value = some a' ∧ a'.atoms = a.atoms ∧ a'.coeffs.length = a'.atoms.length ∧
      (k ≠ 0 ∨ Proximal.l1 a.coeffs ≤ tau → Proximal.l1 a'.coeffs ≤ tau)
  | 0, a, _, hl => ⟨a, rfl, rfl, hl, fun h => h.resolve_left (fun h => h rfl)⟩
  | k + 1, a, value, hl => by
    obtain ⟨w, h1, h2, h3, -, -⟩ := Proximal.C48_projection_partial
      (List.zipWith (fun c v => c - step * ⟪v, f.grad a.recover⟫) a.coeffs a.atoms) ht
    have hlw : w.length = a.atoms.length := by rw [h2]; simp [hl]
    unfold enhanceLoop
    simp only [h1, numbers_map]
    split
    · exact ⟨_, rfl, rfl, hlw, fun _ => h3⟩
    · obtain ⟨a', e1, e2, e3, e4⟩ := enhanceLoop_spec f ht step tol k { a with coeffs := w } _ hlw
      exact ⟨a', e1, e2, e3, fun _ => e4 (.inr h3)⟩

/-- **C212** `UpdateFullCorrection` adds the new atom in front and returns a combination of the atoms whose coefficients have 1-norm at
most `tau`: the new coordinates satisfy the atom norm constraint, whatever the step size and the line search gave. It fails
(0/0) exactly if the search direction is mapped to 0. -/
theorem C212_feasible (f : FuncSq X Y) {tau : ℝ} (ht : 0 ≤ tau) (step : ℝ) (a : Atoms X) (hl : a.coeffs.length = a.atoms.length)
    (x s : X) (hv : f.A (tau • s - x) ≠ 0) :
    ∃ a' x', updateFullCorrection f tau step a x s = some (a', x') ∧ a'.atoms = s :: a.atoms ∧
      a'.coeffs.length = a'.atoms.length ∧ Proximal.l1 a'.coeffs ≤ tau ∧ x' = comb a'.coeffs a'.atoms := by
  unfold updateFullCorrection fcGamma
  simp only [if_neg hv]
  set g := min (⟪f.b - f.A x, f.A (tau • s - x)⟫ / ‖f.A (tau • s - x)‖ ^ 2) 1
  set a2 := ({ a with coeffs := a.coeffs.map fun c => (1 - g) * c } : Atoms X).add f s (g * tau) with ha2
  have hlen : a2.coeffs.length = a2.atoms.length := by
    rw [ha2]
    unfold Atoms.add
    split
    · rfl
    · simp [hl]
  obtain ⟨a', h1, h2, h3, h4⟩ := enhanceLoop_spec f ht step 0.001 99 a2 (f.eval a2.recover) hlen
  refine ⟨a', a'.recover, ?_, ?_, h3, h4 (.inl (by norm_num)), rfl⟩
  · unfold Atoms.enhance
    rw [show 100 - 1 = 99 from rfl, h1]
    rfl
  · rw [h2, ha2, add_atoms]

theorem C212_undefined (f : FuncSq X Y) (tau step : ℝ) (a : Atoms X) (x s : X) (hv : f.A (tau • s - x) = 0) :
    updateFullCorrection f tau step a x s = none := by
  unfold updateFullCorrection fcGamma
  simp only [if_pos hv]

/-- **C212** The line search is exact: among the points `x + γ (tau s - x)` with `γ ≤ 1` the objective is least at the
`γ` computed; it is nonnegative if `tau s` is no worse than `x` for the gradient. -/
theorem C212_line_search {f : FuncSq X Y} (hf : f.Adj) {tau : ℝ} {x s : X} {γ : ℝ} (h : fcGamma f tau x s = some γ) :
    γ ≤ 1 ∧ (∀ γ' : ℝ, γ' ≤ 1 → f.eval (x + γ • (tau • s - x)) ≤ f.eval (x + γ' • (tau • s - x))) ∧
      (⟪tau • s - x, f.grad x⟫ ≤ 0 → 0 ≤ γ) := by
  unfold fcGamma at h
  dsimp only at h
  split at h
  · cases h
  rename_i hv
  set v := tau • s - x
  have hn : 0 < ‖f.A v‖ ^ 2 := by positivity
  have hin : ⟪f.b - f.A x, f.A v⟫ = -⟪v, f.grad x⟫ := by
    unfold FuncSq.grad
    rw [← hf, ← neg_sub (f.A x) f.b, inner_neg_left, real_inner_comm]
  rw [hin] at h
  set d := ⟪v, f.grad x⟫
  have hγ : γ = min (-d / ‖f.A v‖ ^ 2) 1 := by
    cases h
    rfl
  have hd : d = -(-d / ‖f.A v‖ ^ 2) * ‖f.A v‖ ^ 2 := by field_simp
  set z := -d / ‖f.A v‖ ^ 2
  refine ⟨hγ ▸ min_le_right _ _, ?_, ?_⟩
  · intro γ' h1
    rw [eval_add hf, eval_add hf]
    change _ + γ * d + _ ≤ _ + γ' * d + _
    rw [hd]
    have key : (γ - z) ^ 2 ≤ (γ' - z) ^ 2 := by
      rw [hγ]
      rcases le_total z 1 with hz | hz
      · rw [min_eq_left hz]
        nlinarith [sq_nonneg (γ' - z)]
      · rw [min_eq_right hz]
        nlinarith
    nlinarith
  · intro h0
    rw [hγ]
    refine le_min ?_ zero_le_one
    exact div_nonneg (by linarith) hn.le

/-- **C212** (partial) Before the enhancement the coefficients describe the point found by the line search, if they described
the coordinates before. -/
theorem C212_start_partial {f : FuncSq X Y} (a : Atoms X) (hl : a.coeffs.length = a.atoms.length) (g tau : ℝ) (s : X) :
    (({ a with coeffs := a.coeffs.map fun c => (1 - g) * c } : Atoms X).add f s (g * tau)).recover =
      a.recover + g • (tau • s - a.recover) := by
  have hs : ∀ (c : List ℝ) (l : List X), comb (c.map fun c => (1 - g) * c) l = (1 - g) • comb c l := by
    intro c
    induction c with
    | nil => intro l; simp [comb]
    | cons y c ih =>
      intro l
      cases l with
      | nil => simp [comb]
      | cons v l => rw [List.map_cons, comb_cons, comb_cons, ih, smul_add, smul_smul]
  have hadd : (({ a with coeffs := a.coeffs.map fun c => (1 - g) * c } : Atoms X).add f s (g * tau)).recover =
      (g * tau) • s + comb (a.coeffs.map fun c => (1 - g) * c) a.atoms := by
    unfold Atoms.add
    split
    · rename_i h
      have : a.atoms = [] := List.isEmpty_iff.1 h
      simp [Atoms.recover, comb, this]
    · simp only [Atoms.recover, comb_cons]
  rw [hadd, hs]
  unfold Atoms.recover
  module

/-- The line search point is not used if the coordinates are not the combination of the atoms, as in the first update of a
run from a start other than 0: the start is forgotten. -/
example : (({ (Atoms.empty : Atoms ℂ) with coeffs := [] } : Atoms ℂ).add (plane 0) 1 (1 / 2 * 1)).recover = 1 / 2 := by
  simp [Atoms.empty, Atoms.add, Atoms.recover, comb]

/-- **C212** An update can raise the objective: the projected gradient step is kept even if it is worse. -/
theorem C212_descent_refuted :
    ¬ ∀ (f : FuncSq ℂ ℂ) (tau step : ℝ) (a a' : Atoms ℂ) (x s x' : ℂ), f.Adj → 0 < tau → 0 < step →
      a.coeffs.length = a.atoms.length → Proximal.l1 a.coeffs ≤ tau → x = a.recover →
      (∀ y ∈ [1, -1, Complex.I, -Complex.I], (⟪s, f.grad x⟫ : ℝ) ≤ ⟪y, f.grad x⟫) →
      updateFullCorrection f tau step a x s = some (a', x') → f.eval x' ≤ f.eval x := by
  intro h
  have hA : ∀ z : ℂ, (plane ⟨1 / 10, 1 / 10⟩).A z = z := fun z => rfl
  have hg : fcGamma (plane ⟨1 / 10, 1 / 10⟩) 1 0 Complex.I = some (1 / 10) := by
    unfold fcGamma
    simp only [hA, one_smul, sub_zero, Complex.I_ne_zero, if_false, cinner]
    simp [plane]
    norm_num
  have hproj : Proximal.projectL1 [(1 / 10 : ℝ), 3 / 10] 1 = [.fin (1 / 10), .fin (3 / 10)] := by
    unfold Proximal.projectL1
    rw [if_pos]
    · rfl
    · norm_num [abs_of_pos]
  have hu : updateFullCorrection (plane ⟨1 / 10, 1 / 10⟩) 1 3 ⟨[1], [0], [1]⟩ 0 Complex.I =
      some (⟨[Complex.I, 1], [1 / 10, 3 / 10], [1, 1]⟩, ⟨3 / 10, 1 / 10⟩) := by
    have hrec : (⟨[Complex.I, 1], [1 / 10, 0], [1, 1]⟩ : Atoms ℂ).recover = ⟨0, 1 / 10⟩ := by
      apply Complex.ext <;> simp [Atoms.recover, comb]
    have hrec' : (⟨[Complex.I, 1], [1 / 10, 3 / 10], [1, 1]⟩ : Atoms ℂ).recover = ⟨3 / 10, 1 / 10⟩ := by
      apply Complex.ext <;> simp [Atoms.recover, comb]
    have hadd : (⟨[1], ([0] : List ℝ).map fun c => (1 - 1 / 10) * c, [1]⟩ : Atoms ℂ).add (plane ⟨1 / 10, 1 / 10⟩) Complex.I (1 / 10 * 1) =
        ⟨[Complex.I, 1], [1 / 10, 0], [1, 1]⟩ := by
      simp only [Atoms.add, hA]
      simp
    have hc : List.zipWith (fun c v => c - 3 * (⟪v, (plane ⟨1 / 10, 1 / 10⟩).grad ⟨0, 1 / 10⟩⟫ : ℝ)) [1 / 10, 0] [Complex.I, 1] =
        [1 / 10, 3 / 10] := by
      simp only [plane_grad, List.zipWith_cons_cons, List.zipWith_nil_right, cinner]
      norm_num
    have hn : numbers [.fin (1 / 10 : ℝ), .fin (3 / 10)] = some [1 / 10, 3 / 10] := rfl
    have hle : (plane ⟨1 / 10, 1 / 10⟩).eval ⟨0, 1 / 10⟩ - (plane ⟨1 / 10, 1 / 10⟩).eval ⟨3 / 10, 1 / 10⟩ < 0.001 := by
      rw [plane_eval, plane_eval]
      norm_num
    unfold updateFullCorrection
    have he : ∀ v, enhanceLoop (plane ⟨1 / 10, 1 / 10⟩) 1 3 0.001 (98 + 1) ⟨[Complex.I, 1], [1 / 10, 0], [1, 1]⟩ v =
        if v - (plane ⟨1 / 10, 1 / 10⟩).eval ⟨3 / 10, 1 / 10⟩ < 0.001 then some ⟨[Complex.I, 1], [1 / 10, 3 / 10], [1, 1]⟩
        else enhanceLoop (plane ⟨1 / 10, 1 / 10⟩) 1 3 0.001 98 ⟨[Complex.I, 1], [1 / 10, 3 / 10], [1, 1]⟩
          ((plane ⟨1 / 10, 1 / 10⟩).eval ⟨3 / 10, 1 / 10⟩) := by
      intro v
      rw [enhanceLoop]
      simp only [hrec, hc, hproj, hn, hrec']
    simp only [hg, hadd, Atoms.enhance, hrec]
    rw [show 100 - 1 = 98 + 1 from rfl, he, if_pos hle, Option.map_some, hrec']
  have := h (plane ⟨1 / 10, 1 / 10⟩) 1 3 ⟨[1], [0], [1]⟩ _ 0 Complex.I _ (plane_adj _) (by norm_num) (by norm_num) rfl
    (by simp [Proximal.l1]) (by simp [Atoms.recover, comb]) (by
      intro y hy
      simp only [List.mem_cons, List.not_mem_nil, or_false] at hy
      rcases hy with rfl | rfl | rfl | rfl <;> simp only [plane_grad, cinner] <;> norm_num) hu
  rw [plane_eval, plane_eval] at this
  norm_num at this

/-- The hypotheses of `C212_feasible` are met by the first update from 0. -/
example : ∃ a' x', updateFullCorrection (plane 3) 1 (1 / 2) Atoms.empty 0 1 = some (a', x') ∧ a'.atoms = [1] ∧
    Proximal.l1 a'.coeffs ≤ 1 := by
  obtain ⟨a', x', h1, h2, -, h4, -⟩ := C212_feasible (plane 3) (zero_le_one' ℝ) (1 / 2) Atoms.empty rfl 0 1
    (by simp [plane])
  exact ⟨a', x', h1, h2, h4⟩

example : ∃ γ, fcGamma (plane 3) 1 0 1 = some γ ∧ 0 ≤ γ := by
  have h : fcGamma (plane 3) 1 0 1 ≠ none := by
    unfold fcGamma
    simp [plane]
  obtain ⟨γ, hγ⟩ := Option.ne_none_iff_exists'.1 h
  refine ⟨γ, hγ, (C212_line_search (plane_adj 3) hγ).2.2 ?_⟩
  rw [plane_grad, cinner]
  simp

end Ens.Fw
