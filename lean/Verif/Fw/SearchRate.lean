import Mathlib.Analysis.Convex.Mul
import Verif.Fw.Props

/-
Frank-Wolfe with `UpdateLineSearch` (`fw/update_linesearch.hpp:66-79`) on convex functions whose gradient is affine along
lines (quadratics): property C298.
-/

namespace Ens.Fw

variable {W : Type} {V : Type} [NormedAddCommGroup V] [InnerProductSpace ℝ V]

/-- `LineSearch::Derivative` (`fw/line_search/line_search_impl.hpp:102-110`) with `x0 = x` and `deltaX = s - x`. -/
noncomputable def along (g : V → V) (x s : V) (γ : ℝ) : ℝ := inner ℝ (g (x + γ • (s - x))) (s - x)

/-- The derivative along every line is affine, as it is for quadratic functions. -/
def Quadratic (g : V → V) : Prop :=
  ∀ x d : V, ∀ γ : ℝ, inner ℝ (g (x + γ • d)) d = inner ℝ (g x) d + γ * (inner ℝ (g (x + d)) d - inner ℝ (g x) d)

/-- With an affine derivative that is negative enough on the left the search finds the exact minimiser of the segment. -/
theorem search_exact {p : LsParams ℝ} (ht : 0 < p.tolerance) (hm : 1 ≤ p.maxIterations) {D : ℝ → ℝ}
    (ha : ∀ γ, D γ = D 0 + γ * (D 1 - D 0)) (h0 : D 0 ≤ -p.tolerance) :
    ∃ e γ, lineSearch p D = some (.at e γ) ∧ ((e = .right ∧ γ = 1 ∧ D 1 ≤ 0) ∨ (e = .within ∧ 0 ≤ γ ∧ γ ≤ 1 ∧ D γ = 0)) := by
  unfold lineSearch
  rw [if_neg (by linarith)]
  by_cases h1 : D 1 ≤ 0
  · rw [if_pos h1]
    exact ⟨_, _, rfl, Or.inl ⟨rfl, rfl, h1⟩⟩
  rw [if_neg h1, if_neg (by linarith)]
  rw [not_le] at h1
  have hs : 0 < D 1 - D 0 := by linarith
  have hg0 : 0 < 0 - D 0 / ((D 1 - D 0) / 1) := by
    rw [div_one, zero_sub, ← neg_div]
    apply div_pos _ hs
    linarith
  have hg1 : 0 - D 0 / ((D 1 - D 0) / 1) ≤ 1 := by
    rw [div_one, zero_sub, ← neg_div, div_le_one hs]
    linarith
  have hz : D (0 - D 0 / ((D 1 - D 0) / 1)) = 0 := by
    rw [ha, div_one]
    field_simp
    ring
  generalize hγ : 0 - D 0 / ((D 1 - D 0) / 1) = γ at hg0 hg1 hz
  refine ⟨.within, γ, ?_, Or.inr ⟨rfl, hg0.le, hg1, hz⟩⟩
  have hstep : lsStep p D ⟨0, 0, D 0, D 1 - D 0, 1⟩ = .inr (.at .within γ) := by
    have hn : newGamma (⟨0, 0, D 0, D 1 - D 0, 1⟩ : LsSt ℝ) = some γ := by
      unfold newGamma
      dsimp only
      rw [if_neg hs.ne', hγ]
      unfold clamp01
      rw [max_eq_left hg0.le, min_eq_left hg1]
    unfold lsStep
    dsimp only
    rw [if_pos (by omega), if_neg (by rw [div_one]; linarith), hn]
    dsimp only
    rw [if_neg hg0.ne', if_pos (by rw [hz, abs_zero]; exact ht)]
  simp only [iterate, hstep]

/-- The point `UpdateLineSearch` moves to is at least as good as every point of the segment. -/
theorem search_best {p : LsParams ℝ} (ht : 0 < p.tolerance) (hm : 1 ≤ p.maxIterations) {f : V → ℝ} {g : V → V}
    (hg : IsGrad f g) (hc : ConvexOn ℝ Set.univ f) (hq : Quadratic g) {x s z : V}
    (h0 : inner ℝ (g x) (s - x) ≤ -p.tolerance) (hz : viaSearch p (along g) x s = some z) :
    (∃ γ : ℝ, 0 ≤ γ ∧ γ ≤ 1 ∧ z = (1 - γ) • x + γ • s) ∧
      ∀ γ : ℝ, 0 ≤ γ → γ ≤ 1 → f z ≤ f (x + γ • (s - x)) := by
  have e0 : along g x s 0 = inner ℝ (g x) (s - x) := by unfold along; rw [zero_smul, add_zero]
  have e1 : along g x s 1 = inner ℝ (g (x + (s - x))) (s - x) := by unfold along; rw [one_smul]
  obtain ⟨e, γ, hr, hcase⟩ := search_exact (D := along g x s) ht hm
    (fun γ => by rw [e0, e1]; exact hq x (s - x) γ) (by rw [e0]; exact h0)
  unfold viaSearch at hz
  rw [hr, Option.bind_some] at hz
  have key : ∀ δ : ℝ, 0 ≤ δ → δ ≤ 1 → 0 ≤ (δ - γ) * along g x s γ →
      f (x + γ • (s - x)) ≤ f (x + δ • (s - x)) := by
    intro δ _ _ h
    have h1 := convex_first_order hg hc (x + γ • (s - x)) (x + δ • (s - x))
    have h2 : x + δ • (s - x) - (x + γ • (s - x)) = (δ - γ) • (s - x) := by module
    rw [h2, inner_smul_right] at h1
    unfold along at h
    linarith
  rcases hcase with ⟨rfl, rfl, h1⟩ | ⟨rfl, g0, g1, h1⟩
  · simp only [lsPoint, Option.some.injEq] at hz
    subst hz
    refine ⟨⟨1, zero_le_one, le_refl 1, by simp⟩, fun δ d0 d1 => ?_⟩
    have := key δ d0 d1 (by nlinarith)
    rwa [one_smul, add_sub_cancel] at this
  · simp only [lsPoint, Option.some.injEq] at hz
    subst hz
    refine ⟨⟨γ, g0, g1, rfl⟩, fun δ d0 d1 => ?_⟩
    have := key δ d0 d1 (by rw [h1, mul_zero])
    have h2 : (1 - γ) • x + γ • s = x + γ • (s - x) := by module
    rwa [h2]

/-- What a pass that moves does: the new point is in the set, no worse than any point of the segment towards the
solution of the linear problem, and the gap was at least the tolerance. -/
theorem search_pass {u : User W V V ℝ} {f : V → ℝ} {g : V → V} {C : Set V} {tol : ℝ} {p : LsParams ℝ}
    (hu : Classic u f g C tol) (hupd : ∀ w x s i, some (u.update w x s i).2 = viaSearch p (along g) x s)
    (hp : 0 < p.tolerance) (hm : 1 ≤ p.maxIterations) (htol : p.tolerance ≤ tol) (hC : Convex ℝ C) (hg : IsGrad f g)
    (hc : ConvexOn ℝ Set.univ f) (hq : Quadratic g) {m : Nat} {t t' : St W V ℝ} (hx : t.x ∈ C)
    (h : body u m t = .inl t') :
    t'.i = t.i + 1 ∧ t'.x ∈ C ∧ ∃ s ∈ C, (∀ y ∈ C, inner ℝ (g t.x) s ≤ inner ℝ (g t.x) y) ∧
      inner ℝ (g t.x) (s - t.x) ≤ -tol ∧ ∀ γ : ℝ, 0 ≤ γ → γ ≤ 1 → f t'.x ≤ f (t.x + γ • (s - t.x)) := by
  rcases body_cases (u := u) (m := m) t with ⟨h', -⟩ | ⟨-, -, w, o, v, stop, ⟨w₀, ho, -, hcb⟩, ⟨hw, h'⟩ | ⟨hw, w', z, st, hz, h'⟩⟩
  · rw [h'] at h; cases h
  · rw [h'] at h; cases h
  · rw [h'] at h
    cases h
    have hv : v = g t.x := by
      have := hu.cbEval w₀ t.x o (u.evalGrad t.w t.x).2.2
      rw [hcb] at this
      dsimp only at this
      rw [this, hu.grad]
    subst hv
    obtain ⟨l1, l2⟩ := hu.lmo w (g t.x)
    have hgap : inner ℝ (g t.x) ((u.lmo w (g t.x)).2 - t.x) ≤ -tol := by
      have h1 : ¬ |inner ℝ (t.x - (u.lmo w (g t.x)).2) (g t.x)| < tol := by
        rw [← hu.within, hw]
        exact Bool.false_ne_true
      have h2 := l2 t.x hx
      rw [real_inner_comm, inner_sub_right, abs_of_nonneg (by linarith)] at h1
      rw [inner_sub_right]
      linarith
    have hz' : viaSearch p (along g) t.x (u.lmo w (g t.x)).2 = some z := by
      have h1 := hu.cbStep (u.update (u.lmo w (g t.x)).1 t.x (u.lmo w (g t.x)).2 t.i).1
        (u.update (u.lmo w (g t.x)).1 t.x (u.lmo w (g t.x)).2 t.i).2
      rw [hz] at h1
      dsimp only at h1
      rw [← hupd (u.lmo w (g t.x)).1 t.x (u.lmo w (g t.x)).2 t.i, h1]
    obtain ⟨⟨γ, g0, g1, he⟩, hbest⟩ := search_best hp hm hg hc hq (by linarith) hz'
    refine ⟨rfl, ?_, _, l1, l2, hgap, hbest⟩
    dsimp only
    rw [he]
    exact hC hx l1 (by linarith) g0 (by linarith)

/-- **C298** On a convex quadratic the line-search rule has the textbook rate, which the classic rule has not
(`C47_textbook_rate_refuted`): after `k ≥ 1` steps `f(x) - f(y) ≤ 2 L D² / (k + 2)` for every feasible `y`, wherever the run
started. -/
theorem C298_rate {u : User W V V ℝ} {f : V → ℝ} {g : V → V} {C : Set V} {tol L D : ℝ} {p : LsParams ℝ}
    (hu : Classic u f g C tol) (hupd : ∀ w x s i, some (u.update w x s i).2 = viaSearch p (along g) x s)
    (hp : 0 < p.tolerance) (hm : 1 ≤ p.maxIterations) (htol : p.tolerance ≤ tol) (hC : Convex ℝ C) (hs : LSmooth f g L)
    (hL : 0 ≤ L) (hc : ConvexOn ℝ Set.univ f) (hq : Quadratic g) (hD : ∀ x ∈ C, ∀ y ∈ C, ‖x - y‖ ≤ D) {m fuel : Nat}
    {w : W} {x : V} (hx : x ∈ C) {e : Exit} {t : St W V ℝ} (h : optimize u m fuel w x = some (e, t)) :
    ∀ y ∈ C, ∃ k : Nat, t.i = k + 1 ∧ t.x ∈ C ∧ (1 ≤ k → f t.x - f y ≤ 2 * (L * D ^ 2) / ((k : ℝ) + 2)) := by
  intro y hy
  let I : St W V ℝ → Prop := fun t => ∃ k : Nat, t.i = k + 1 ∧ t.x ∈ C ∧
    (1 ≤ k → f t.x - f y ≤ 2 * (L * D ^ 2) / ((k : ℝ) + 2))
  have hM : 0 ≤ L * D ^ 2 := by positivity
  have h0 : I (start u w x) :=
    ⟨0, rfl, by simp only [start, hu.begin_]; exact hx, fun h => absurd h (by decide)⟩
  have hrun := run_inv I (fun r => I r.2) ?_ ?_ h0 h
  · obtain ⟨t₀, p, rfl⟩ := hrun
    simp only [finish, hu.end_]; exact p
  · rintro t t' ⟨k, i1, i2, i3⟩ ht
    obtain ⟨n1, n2, s, l1, l2, -, hbest⟩ := search_pass hu hupd hp hm htol hC hs.grad hc hq i2 ht
    refine ⟨k + 1, by omega, n2, fun _ => ?_⟩
    have hstep := classic_step (D := D) hs hL hc (l2 y hy) (hD _ l1 _ i2) k
    have hk : (0 : ℝ) ≤ k := Nat.cast_nonneg k
    have hγ : (2 : ℝ) / ((k : ℝ) + 2) ≤ 1 := by rw [div_le_one (by positivity)]; linarith
    have hb := hbest (2 / ((k : ℝ) + 2)) (by positivity) hγ
    have he : t.x + ((2 : ℝ) / ((k : ℝ) + 2)) • (s - t.x) = classic (K := ℝ) t.x s k := by
      unfold classic
      module
    rw [he] at hb
    generalize f (classic (K := ℝ) t.x s k) = fn at hstep hb
    push_cast
    generalize L * D ^ 2 = M at hstep i3 hM ⊢
    rcases Nat.eq_zero_or_pos k with rfl | hpos
    · norm_num at hstep ⊢
      linarith
    · have h3 := i3 hpos
      generalize (k : ℝ) = κ at hstep h3 hk hγ ⊢
      have e1 : 1 - 2 / (κ + 2) = κ / (κ + 2) := by field_simp; ring
      rw [e1] at hstep
      have h4 := mul_le_mul_of_nonneg_left h3 (show 0 ≤ κ / (κ + 2) by positivity)
      have e2 : κ / (κ + 2) * (2 * M / (κ + 2)) + (2 / (κ + 2)) ^ 2 * M / 2 =
          2 * M / (κ + 1 + 2) - 2 * M / ((κ + 1 + 2) * (κ + 2) ^ 2) := by
        field_simp
        ring
      have h5 : 0 ≤ 2 * M / ((κ + 1 + 2) * (κ + 2) ^ 2) := by positivity
      linarith
  · intro t r hI ht
    rcases body_cases (u := u) (m := m) t with ⟨h, -⟩ | ⟨-, -, w, o, v, stop, -, ⟨hw, h⟩ | ⟨-, w', z, st, hz, h⟩⟩
    · rw [h] at ht; cases ht; exact hI
    · rw [h] at ht; cases ht; exact hI
    · rw [h] at ht; cases ht

/-- A pass that moves decreases the objective by a fixed amount. -/
theorem search_decrease {u : User W V V ℝ} {f : V → ℝ} {g : V → V} {C : Set V} {tol L D : ℝ} {p : LsParams ℝ}
    (hu : Classic u f g C tol) (hupd : ∀ w x s i, some (u.update w x s i).2 = viaSearch p (along g) x s)
    (hp : 0 < p.tolerance) (hm : 1 ≤ p.maxIterations) (htol : p.tolerance ≤ tol) (hC : Convex ℝ C) (hs : LSmooth f g L)
    (hL : 0 ≤ L) (hc : ConvexOn ℝ Set.univ f) (hq : Quadratic g) (hD : ∀ x ∈ C, ∀ y ∈ C, ‖x - y‖ ≤ D) {m : Nat}
    {t t' : St W V ℝ} (hx : t.x ∈ C) (h : body u m t = .inl t') :
    f t'.x ≤ f t.x - tol ^ 2 / (2 * (L * D ^ 2 + tol)) := by
  obtain ⟨-, -, s, l1, -, hgap, hbest⟩ := search_pass hu hupd hp hm htol hC hs.grad hc hq hx h
  have hM : 0 ≤ L * D ^ 2 := by positivity
  have ht : 0 < tol := by linarith
  have hdist : ‖s - t.x‖ ^ 2 ≤ D ^ 2 := by
    have := norm_nonneg (s - t.x)
    have := hD _ l1 _ hx
    nlinarith
  have hMd : L * ‖s - t.x‖ ^ 2 ≤ L * D ^ 2 := mul_le_mul_of_nonneg_left hdist hL
  generalize hγ : tol / (L * D ^ 2 + tol) = γ
  have g0 : 0 ≤ γ := by rw [← hγ]; positivity
  have g1 : γ ≤ 1 := by rw [← hγ, div_le_one (by positivity)]; linarith
  have hb := hbest γ g0 g1
  have hd := hs.descent t.x (t.x + γ • (s - t.x))
  rw [add_sub_cancel_left, inner_smul_right, norm_smul, Real.norm_of_nonneg g0, mul_pow] at hd
  have hkey : γ * (L * D ^ 2 + tol) = tol := by rw [← hγ]; field_simp
  have hres : tol ^ 2 / (2 * (L * D ^ 2 + tol)) = γ * tol / 2 := by rw [← hγ]; field_simp
  rw [hres]
  have h1 : γ * inner ℝ (g t.x) (s - t.x) ≤ γ * -tol := mul_le_mul_of_nonneg_left hgap g0
  have h2 : L / 2 * (γ ^ 2 * ‖s - t.x‖ ^ 2) ≤ γ ^ 2 * (L * D ^ 2) / 2 := by
    have := mul_le_mul_of_nonneg_left hMd (show 0 ≤ γ ^ 2 / 2 by positivity)
    linarith
  have h3 : γ ^ 2 * (L * D ^ 2) ≤ γ * tol := by
    have : γ * (γ * (L * D ^ 2)) ≤ γ * tol := mul_le_mul_of_nonneg_left (by nlinarith) g0
    nlinarith
  linarith

/-- **C298** Without an iteration limit (`maxIterations = 0`) and without stop requests the run ends, by the gap test, and
the point is optimal up to the tolerance; the number of steps is at most `2 (f(x) - f(y)) (L D² + tol) / tol²` for
the point `y` returned. -/
theorem C298_ends {u : User W V V ℝ} {f : V → ℝ} {g : V → V} {C : Set V} {tol L D : ℝ} {p : LsParams ℝ}
    (hu : Classic u f g C tol) (hupd : ∀ w x s i, some (u.update w x s i).2 = viaSearch p (along g) x s)
    (hE : ∀ w x o v, (u.cbEval w x o v).2.2 = false) (hS : ∀ w x, (u.cbStep w x).2.2 = false)
    (hp : 0 < p.tolerance) (hm : 1 ≤ p.maxIterations) (htol : p.tolerance ≤ tol) (hC : Convex ℝ C) (hs : LSmooth f g L)
    (hL : 0 ≤ L) (hc : ConvexOn ℝ Set.univ f) (hq : Quadratic g) (hD : ∀ x ∈ C, ∀ y ∈ C, ‖x - y‖ ≤ D) (w : W) {x : V}
    (hx : x ∈ C) :
    ∃ N t, (∀ fuel, N ≤ fuel → optimize u 0 fuel w x = some (.gap, t)) ∧ (∀ y ∈ C, f t.x ≤ f y + tol) ∧
      ((t.i : ℝ) - 1) * (tol ^ 2 / (2 * (L * D ^ 2 + tol))) ≤ f x - f t.x := by
  have hM : 0 ≤ L * D ^ 2 := by positivity
  have ht : 0 < tol := by linarith
  set δ := tol ^ 2 / (2 * (L * D ^ 2 + tol)) with hδ
  have hδp : 0 < δ := by rw [hδ]; positivity
  let I : St W V ℝ → Prop := fun t => 1 ≤ t.i ∧ t.x ∈ C ∧ t.term = false ∧ ((t.i : ℝ) - 1) * δ ≤ f x - f t.x
  obtain ⟨K, hK⟩ := exists_nat_gt (‖g x‖ * D / δ)
  have hlow : ∀ z ∈ C, f x - f z ≤ ‖g x‖ * D := by
    intro z hz
    have h1 := convex_first_order hs.grad hc x z
    have h2 := abs_le.1 (abs_real_inner_le_norm (g x) (z - x))
    have h3 := mul_le_mul_of_nonneg_left (hD z hz x hx) (norm_nonneg (g x))
    linarith
  have hI : ∀ t t', I t → body u 0 t = .inl t' → I t' := by
    rintro t t' ⟨i0, i1, i2, i3⟩ hb
    obtain ⟨n1, n2, -⟩ := search_pass hu hupd hp hm htol hC hs.grad hc hq i1 hb
    have hdec := search_decrease hu hupd hp hm htol hC hs hL hc hq hD i1 hb
    refine ⟨by omega, n2, ?_, ?_⟩
    · rcases body_cases (u := u) (m := 0) t with ⟨h, -⟩ | ⟨-, -, w, o, v, stop, ⟨w₀, -, -, hcb⟩, ⟨hw, h⟩ | ⟨-, w', z, st, hz, h⟩⟩
      · rw [h] at hb; cases hb
      · rw [h] at hb; cases hb
      · rw [h] at hb
        cases hb
        have h1 := hE w₀ t.x o (u.evalGrad t.w t.x).2.2
        have h2 := hS (u.update (u.lmo w v).1 t.x (u.lmo w v).2 t.i).1 (u.update (u.lmo w v).1 t.x (u.lmo w v).2 t.i).2
        rw [hcb] at h1
        rw [hz] at h2
        dsimp only at h1 h2 ⊢
        rw [h1, h2]; rfl
    · rw [n1]
      push_cast
      rw [← hδ] at hdec
      linarith
  have hbound : ∀ t, I t → t.i ≤ K + 1 := by
    rintro t ⟨i0, i1, i2, i3⟩
    have h1 := i3.trans (hlow _ i1)
    rw [← le_div_iff₀ hδp] at h1
    have h2 : (t.i : ℝ) < (K + 1 : ℕ) := by push_cast; linarith
    exact (Nat.cast_lt.1 h2).le
  have h0 : I (start u w x) := by
    refine ⟨le_refl _, by simp only [start, hu.begin_]; exact hx, rfl, ?_⟩
    simp only [start, hu.begin_]
    norm_num
  obtain ⟨r, hr⟩ := iterate_total (step := body u 0) I (fun t => K + 1 - t.i) (fun t t' h h' => by
    have h1 := hI t t' h h'
    refine ⟨h1, ?_⟩
    have h2 := hbound _ h1
    have h3 := (search_pass hu hupd hp hm htol hC hs.grad hc hq h.2.1 h').1
    omega) (K + 2) (start u w x) h0 (by omega)
  have hgapx : r.1 = .gap ∧ I { r.2 with term := false } := by
    refine iterate_inv I (fun r => r.1 = .gap ∧ I { r.2 with term := false }) hI ?_ _ _ r h0 hr
    rintro t r ⟨i0, i1, i2, i3⟩ hb
    rcases body_cases (u := u) (m := 0) t with ⟨h, hor⟩ | ⟨-, -, w, o, v, stop, -, ⟨hw, h⟩ | ⟨-, w', z, st, hz, h⟩⟩
    · rcases hor with hor | hor
      · omega
      · rw [i2] at hor; cases hor
    · rw [h] at hb; cases hb; exact ⟨rfl, i0, i1, rfl, i3⟩
    · rw [h] at hb; cases hb
  obtain ⟨rg, -, -, -, r3⟩ := hgapx
  have hopt : ∀ fuel, K + 2 ≤ fuel → optimize u 0 fuel w x = some (.gap, finish u r.2) := by
    intro fuel hf
    unfold optimize
    rw [iterate_mono _ _ _ _ hf hr, Option.map_some, rg]
  refine ⟨K + 2, finish u r.2, hopt, fun y hy => (C47_gap hu hs.grad hc (hopt _ le_rfl) y hy).2, ?_⟩
  simp only [finish, hu.end_]
  exact r3

/-! ### Runs -/

/-- `f(x) = ε x² / 2` on `[-1, 1]` with the line-search rule. -/
noncomputable def bowl (ε : ℝ) (p : LsParams ℝ) (tol : ℝ) : User Unit ℝ ℝ ℝ where
  evalGrad := fun w x => (w, ε / 2 * x ^ 2, ε * x)
  lmo := fun w g => (w, if 0 < g then -1 else 1)
  update := fun w x s _ => (w, (viaSearch p (along fun x => ε * x) x s).getD x)
  within := fun x s g => decide (|inner ℝ (x - s) g| < tol)
  cbBegin := fun w x => (w, x)
  cbEval := fun w _ _ g => (w, g, false)
  cbStep := fun w x => (w, x, false)
  cbEnd := fun w x => (w, x)
  maxE := 0

theorem bowl_classic (ε : ℝ) (p : LsParams ℝ) (tol : ℝ) :
    Classic (bowl ε p tol) (fun x => ε / 2 * x ^ 2) (fun x => ε * x) (Set.Icc (-1) 1) tol where
  val := fun _ _ => rfl
  grad := fun _ _ => rfl
  lmo := by
    intro w v
    have e : ∀ a b : ℝ, inner ℝ a b = a * b := fun a b => by simp [mul_comm]
    simp only [bowl, e]
    split
    · refine ⟨by simp, fun y hy => ?_⟩
      have := hy.1
      nlinarith
    · refine ⟨by simp, fun y hy => ?_⟩
      have := hy.2
      nlinarith
  within := fun x s v => by simp [bowl]
  begin_ := fun _ _ => rfl
  cbEval := fun _ _ _ _ => rfl
  cbStep := fun _ _ => rfl
  end_ := fun _ _ => rfl

theorem bowl_update (ε : ℝ) {p : LsParams ℝ} (hp : 0 < p.tolerance) (tol : ℝ) (w : Unit) (x s : ℝ) (i : Nat) :
    some ((bowl ε p tol).update w x s i).2 = viaSearch p (along fun x => ε * x) x s := by
  obtain ⟨y, h, -⟩ := C45_linesearch hp (along fun x : ℝ => ε * x) x s
  simp only [bowl, h, Option.getD_some]

theorem bowl_smooth {ε : ℝ} (hε : 0 ≤ ε) : LSmooth (fun x : ℝ => ε / 2 * x ^ 2) (fun x => ε * x) ε where
  grad := by
    intro x
    have h := ((hasDerivAt_pow 2 x).const_mul (ε / 2)).hasFDerivAt
    convert! h using 1
    ext
    simp
    ring
  lip := by
    intro x y
    rw [← mul_sub, norm_mul, Real.norm_of_nonneg hε]

theorem bowl_quadratic (ε : ℝ) : Quadratic fun x : ℝ => ε * x := by
  intro x d γ
  have e : ∀ a b : ℝ, inner ℝ a b = a * b := fun a b => by simp [mul_comm]
  simp only [e, smul_eq_mul]
  ring

theorem bowl_convex {ε : ℝ} (hε : 0 ≤ ε) : ConvexOn ℝ Set.univ fun x : ℝ => ε / 2 * x ^ 2 := by
  have := (even_two.convexOn_pow (𝕜 := ℝ)).smul (show 0 ≤ ε / 2 by positivity)
  simpa [smul_eq_mul] using this

theorem bowl_diam : ∀ x ∈ Set.Icc (-1 : ℝ) 1, ∀ y ∈ Set.Icc (-1 : ℝ) 1, ‖x - y‖ ≤ 2 := by
  intro x hx y hy
  rw [Real.norm_eq_abs, abs_le]
  constructor <;> linarith [hx.1, hx.2, hy.1, hy.2]

/-- The hypotheses of `C298_ends` are met by a run that moves away from its starting point. -/
example : ∃ N t, (∀ fuel, N ≤ fuel → optimize (bowl 1 ⟨100000, 1e-5⟩ 1e-5) 0 fuel () 1 = some (.gap, t)) ∧ t.x ≠ 1 := by
  obtain ⟨N, t, h1, h2, -⟩ := C298_ends (bowl_classic 1 ⟨100000, 1e-5⟩ 1e-5)
    (bowl_update 1 (by norm_num) _) (fun _ _ _ _ => rfl) (fun _ _ => rfl) (by norm_num) (by norm_num) (le_refl _)
    (convex_Icc _ _) (bowl_smooth zero_le_one) zero_le_one (bowl_convex zero_le_one) (bowl_quadratic 1) bowl_diam ()
    (x := 1) (by simp)
  refine ⟨N, t, h1, fun h => ?_⟩
  have := h2 0 (by simp)
  rw [h] at this
  norm_num at this

/-- The hypotheses of `C298_rate` are met by the same run. -/
example {fuel : Nat} {e : Exit} {t : St Unit ℝ ℝ} (h : optimize (bowl 1 ⟨100000, 1e-5⟩ 1e-5) 5 fuel () 1 = some (e, t)) :
    ∀ y ∈ Set.Icc (-1 : ℝ) 1, ∃ k : Nat, t.i = k + 1 ∧ t.x ∈ Set.Icc (-1 : ℝ) 1 ∧
      (1 ≤ k → 1 / 2 * t.x ^ 2 - 1 / 2 * y ^ 2 ≤ 2 * (1 * 2 ^ 2) / ((k : ℝ) + 2)) :=
  C298_rate (bowl_classic 1 ⟨100000, 1e-5⟩ 1e-5) (bowl_update 1 (by norm_num) _) (by norm_num) (by norm_num) (le_refl _)
    (convex_Icc _ _) (bowl_smooth zero_le_one) zero_le_one (bowl_convex zero_le_one) (bowl_quadratic 1) bowl_diam
    (by simp) h

/-- On a flat bowl every step leaves the point where it is. -/
theorem flat_pass {m : Nat} {t : St Unit ℝ ℝ} (hx : t.x = 1) :
    (body (bowl 1e-6 ⟨100000, 1e-5⟩ 1e-10) m t = .inr (.loop, t) ∧ (t.i = m ∨ t.term = true)) ∨
      ∃ t', body (bowl 1e-6 ⟨100000, 1e-5⟩ 1e-10) m t = .inl t' ∧ t'.x = 1 ∧ t'.i = t.i + 1 ∧ t'.term = false := by
  have e : ∀ a b : ℝ, inner ℝ a b = a * b := fun a b => by simp [mul_comm]
  have hv : viaSearch ⟨100000, 1e-5⟩ (along fun x : ℝ => 1e-6 * x) 1 (-1) = some 1 := by
    unfold viaSearch lineSearch along
    simp only [e, smul_eq_mul]
    rw [if_neg (by norm_num), if_neg (by norm_num), if_pos (by norm_num)]
    rfl
  by_cases hc : t.i ≠ m ∧ t.term = false
  · right
    unfold body
    rw [if_pos hc]
    have hl : (if (0 : ℝ) < 1e-6 * 1 then (-1 : ℝ) else 1) = -1 := if_pos (by norm_num)
    have hw : ¬ |((1 : ℝ) - -1) * (1e-6 * 1)| < 1e-10 := by
      rw [abs_of_nonneg (by norm_num)]
      norm_num
    simp only [bowl, hx, hl, e, hv, decide_eq_true_eq, if_neg hw, Option.getD_some]
    exact ⟨_, rfl, rfl, rfl, rfl⟩
  · left
    refine ⟨by unfold body; rw [if_neg hc], ?_⟩
    by_contra h
    push Not at h
    exact hc ⟨h.1, by simpa using h.2⟩

/-- **C298** A run with `UpdateLineSearch` on a convex quadratic need not make progress until the gap test of
`FrankWolfe` is met: with the default tolerances (`1e-5` of the search, `1e-10` of `FrankWolfe`) it can stay at its starting point
in every step, because the search keeps the left endpoint whenever the derivative rises by less than its tolerance; without
an iteration limit it never ends. Here `f(x) = 5e-7 x²` on `[-1, 1]` from 1. -/
theorem C298_stalls :
    (∀ fuel, optimize (bowl 1e-6 ⟨100000, 1e-5⟩ 1e-10) 0 fuel () 1 = none) ∧
      ∀ m, 1 ≤ m → ∀ fuel e t, optimize (bowl 1e-6 ⟨100000, 1e-5⟩ 1e-10) m fuel () 1 = some (e, t) →
        e = .loop ∧ t.x = 1 ∧ t.i = m := by
  constructor
  · intro fuel
    have key : ∀ fuel (t : St Unit ℝ ℝ), t.x = 1 → 1 ≤ t.i → t.term = false →
        iterate (body (bowl 1e-6 ⟨100000, 1e-5⟩ 1e-10) 0) fuel t = none := by
      intro fuel
      induction fuel with
      | zero => intro t _ _ _; rfl
      | succ n ih =>
        intro t h1 h2 h3
        rcases flat_pass (m := 0) h1 with ⟨-, h | h⟩ | ⟨t', h, x1, x2, x3⟩
        · omega
        · rw [h3] at h; cases h
        · simp only [iterate, h]
          exact ih t' x1 (by omega) x3
    unfold optimize
    rw [key fuel _ rfl (le_refl _) rfl]
    rfl
  · intro m hm fuel e t h
    have hrun := run_inv (fun t : St Unit ℝ ℝ => t.x = 1 ∧ t.term = false)
      (fun r => r.1 = .loop ∧ r.2.x = 1 ∧ r.2.i = m) ?_ ?_ ⟨rfl, rfl⟩ h
    · obtain ⟨t₀, p, rfl⟩ := hrun
      exact p
    · rintro t t' ⟨h1, h2⟩ hb
      rcases flat_pass (m := m) h1 with ⟨h, -⟩ | ⟨t'', h, x1, x2, x3⟩
      · rw [h] at hb; cases hb
      · rw [h] at hb; cases hb; exact ⟨x1, x3⟩
    · rintro t r ⟨h1, h2⟩ hb
      rcases flat_pass (m := m) h1 with ⟨h, hor⟩ | ⟨t'', h, x1, x2, x3⟩
      · rw [h] at hb; cases hb
        refine ⟨rfl, h1, hor.resolve_right (by rw [h2]; decide)⟩
      · rw [h] at hb; cases hb

end Ens.Fw
