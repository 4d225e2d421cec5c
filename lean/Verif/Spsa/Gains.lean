import Verif.Spsa.Props
import Mathlib.Analysis.PSeries
import Mathlib.Analysis.SpecialFunctions.Pow.Asymptotics

/-
C178: the gain sequences of SPSA (spsa_impl.hpp:24-37 and 93-94).
-/

namespace Ens.Spsa

variable {W ι : Type}

theorem Rounds.step_at {env : Env W ι} {f : (ι → ℝ) → ℝ} (hf : ∀ w x, (env.evaluate w x).2 = f x)
    {p : Params} {x₀ n t x ov last b} (h : Rounds env p x₀ n t x ov last b) {l₁ l₂ xa y} (hm : t = l₁ ++ Ev.step xa y :: l₂) :
    ∃ d : ι → ℝ, (∀ i, d i = 1 ∨ d i = -1) ∧ y = xa - p.gain (moves l₁) • estimate f xa (p.probe (moves l₁)) d := by
  induction h generalizing l₂ with
  | nil => simp at hm
  | @snoc k t x ov last d fp fm y' x' b v c w₁ w₂ w₃ w₄ prev hbad hclose hd hfp hfm hy hst hv ih =>
    rcases List.append_eq_append_iff.1 hm with ⟨m, h1, h2⟩ | ⟨m, h1, h2⟩
    · -- the move is in the last round
      have hk := prev.moves_eq
      rcases m with _ | ⟨e1, _ | ⟨e2, _ | ⟨e3, _ | ⟨e4, _ | ⟨e5, m⟩⟩⟩⟩⟩
      · simp at h2
      · simp at h2
      · simp at h2
      · simp at h2
      · simp only [List.cons_append, List.nil_append, List.cons.injEq] at h2
        obtain ⟨rfl, rfl, rfl, rfl, h2, -⟩ := h2
        injection h2 with e1 e2
        subst e1 e2
        have hm1 : moves l₁ = k := by
          rw [h1, ← hk]
          simp [moves]
        rw [hm1]
        refine ⟨d, hd, funext fun i => ?_⟩
        rw [hy i, ← hfp, ← hfm, hf, hf]
        rfl
      · simp only [List.cons_append, List.nil_append, List.cons.injEq] at h2
        obtain ⟨-, -, -, -, -, h2⟩ := h2
        have : Ev.step xa y ∈ [Ev.stepTaken x' b, .eval x' v, .cbEval c] := by rw [h2]; simp
        simp at this
    · rcases m with _ | ⟨e, m⟩
      · simp at h2
      · simp only [List.cons_append, List.cons.injEq] at h2
        obtain ⟨rfl, -⟩ := h2
        exact ih h1

/-- **C178** The `k`-th move of a run (counted from 0) of an optimizer as constructed is the published SPSA step: from `x`, with
`a = stepSize / (k + 1 + maxIterations / 1000)^alpha`, `c = evaluationStepSize / (k + 1)^gamma` and a vector `d` of signs, to
`x - a (f (x + c d) - f (x - c d)) / (2 c d)`. -/
theorem C178_moves (env : Env W ι) (f : (ι → ℝ) → ℝ) (hf : ∀ w x, (env.evaluate w x).2 = f x)
    (alpha gamma stepSize evalStep : ℝ) (n : Nat) (w : W) (x : ι → ℝ) {l₁ l₂ xa y}
    (hm : (optimize env (Params.new alpha gamma stepSize evalStep n) w x).trace = l₁ ++ Ev.step xa y :: l₂) :
    ∃ (k : Nat) (a c : ℝ) (d : ι → ℝ), k = moves l₁ ∧ k < n ∧ a = stepSize / (k + 1 + n / 1000) ^ alpha ∧
      c = evalStep / (k + 1) ^ gamma ∧ (∀ i, d i = 1 ∨ d i = -1) ∧
      ∀ i, y i = xa i - a * ((f (fun j => xa j + c * d j) - f (fun j => xa j - c * d j)) / (2 * c * d i)) := by
  set p := Params.new alpha gamma stepSize evalStep n with hp
  obtain ⟨t, ht, h⟩ := C62_run_shape env p w x
  generalize optimize env p w x = r at *
  rw [ht] at hm
  rcases l₁ with _ | ⟨e, l₁⟩
  · simp at hm
  simp only [List.cons_append, List.cons.injEq] at hm
  obtain ⟨rfl, hm⟩ := hm
  have hn : p.maxIterations = n := rfl
  have hmv : moves (Ev.beginOpt x (env.cbBegin w x).2 :: l₁) = moves l₁ := by simp [moves]
  rw [hmv]
  have key : ∀ {k t' tl ov last b}, Rounds env p (env.cbBegin w x).2 k t' r.x ov last b → k ≤ n → t = t' ++ tl →
      (∀ a b, Ev.step a b ∉ tl) → ∃ l₂, t' = l₁ ++ Ev.step xa y :: l₂ ∧ moves l₁ < n := by
    intro k t' tl ov last b hr hk htl hno
    rw [htl] at hm
    rcases List.append_eq_append_iff.1 hm with ⟨m, h1, h2⟩ | ⟨m, h1, h2⟩
    · exact absurd (by rw [h2]; simp) (hno xa y)
    · rcases m with _ | ⟨e, m⟩
      · simp only [List.nil_append] at h2
        exact absurd (by rw [← h2]; simp) (hno xa y)
      · simp only [List.cons_append, List.cons.injEq] at h2
        obtain ⟨rfl, -⟩ := h2
        refine ⟨m, h1, ?_⟩
        have := hr.moves_eq
        rw [h1] at this
        simp only [moves, List.countP_append, List.countP_cons, if_true] at this
        unfold moves
        omega
  have fin : ∀ {k t' l₂ ov last b}, Rounds env p (env.cbBegin w x).2 k t' r.x ov last b → t' = l₁ ++ Ev.step xa y :: l₂ →
      moves l₁ < n → ∃ (k : Nat) (a c : ℝ) (d : ι → ℝ), k = moves l₁ ∧ k < n ∧ a = stepSize / (k + 1 + n / 1000) ^ alpha ∧
      c = evalStep / (k + 1) ^ gamma ∧ (∀ i, d i = 1 ∨ d i = -1) ∧
      ∀ i, y i = xa i - a * ((f (fun j => xa j + c * d j) - f (fun j => xa j - c * d j)) / (2 * c * d i)) := by
    intro k t' l₂ ov last b hr ht' hlt
    obtain ⟨d, hd, hy⟩ := hr.step_at hf ht'
    refine ⟨moves l₁, _, _, d, rfl, hlt, rfl, rfl, hd, fun i => ?_⟩
    rw [hy]
    have hg : p.gain (moves l₁) = stepSize / ((moves l₁ : ℝ) + 1 + n / 1000) ^ alpha := by
      rw [hp, Params.gain, Params.new]
      dsimp only
      rw [show (0.001 : ℝ) * n = n / 1000 by ring]
    rw [← hg]
    rfl
  cases h with
  | full w h hk hkn he ho =>
    obtain ⟨l, h1, h2⟩ := key h hkn rfl (by simp)
    exact fin h h1 h2
  | probing w w₁ w₂ h hkn hbad hclose he hd hc hfp hfm ho =>
    obtain ⟨l, h1, h2⟩ := key h (by rw [← hn]; omega) rfl (by simp)
    exact fin h h1 h2
  | bad h hkn he hbad =>
    obtain ⟨l, h1, h2⟩ := key h (by rw [← hn]; omega) rfl (by simp)
    exact fin h h1 h2
  | tol h hkn he hbad hclose =>
    obtain ⟨l, h1, h2⟩ := key h (by rw [← hn]; omega) rfl (by simp)
    exact fin h h1 h2

theorem tendsto_gain {s A : ℝ} (hA : 0 ≤ A) {al : ℝ} (hal : 0 < al) :
    Filter.Tendsto (fun k : ℕ => s / ((k : ℝ) + 1 + A) ^ al) Filter.atTop (nhds 0) := by
  refine Filter.Tendsto.div_atTop tendsto_const_nhds ?_
  refine (tendsto_rpow_atTop hal).comp ?_
  have : Filter.Tendsto (fun k : ℕ => (k : ℝ) + (1 + A)) Filter.atTop Filter.atTop :=
    Filter.tendsto_atTop_add_const_right _ _ tendsto_natCast_atTop_atTop
  simpa only [add_assoc] using this

/-- **C178** (conditions of Spall's convergence theorem). For `0 < alpha ≤ 1`, `0 < gamma` and `alpha - gamma > 1/2`, which the
default arguments 0.602 and 0.101 meet, the two gain sequences are positive and tend to zero, the steps sum to infinity, and the
squares of the quotients have a finite sum. -/
theorem C178_gains (alpha gamma stepSize evalStep : ℝ) (n : Nat) (ha : 0 < alpha) (ha1 : alpha ≤ 1) (hg : 0 < gamma)
    (hd : 1 / 2 < alpha - gamma) (hs : 0 < stepSize) (he : 0 < evalStep) :
    let p := Params.new alpha gamma stepSize evalStep n
    (∀ k, 0 < p.gain k ∧ 0 < p.probe k ∧ p.gain (k + 1) < p.gain k ∧ p.probe (k + 1) < p.probe k) ∧
    Filter.Tendsto p.gain Filter.atTop (nhds 0) ∧ Filter.Tendsto p.probe Filter.atTop (nhds 0) ∧
    ¬ Summable p.gain ∧ Summable fun k => (p.gain k / p.probe k) ^ 2 := by
  intro p
  obtain ⟨A, hA⟩ : ∃ A : ℝ, A = 0.001 * (n : ℝ) := ⟨_, rfl⟩
  have hA0 : 0 ≤ A := by rw [hA]; positivity
  have hgain : p.gain = fun k : ℕ => stepSize / ((k : ℝ) + 1 + A) ^ alpha := by rw [hA]; rfl
  have hprobe : p.probe = fun k : ℕ => evalStep / ((k : ℝ) + 1) ^ gamma := rfl
  have hpos : ∀ k : ℕ, (0 : ℝ) < (k : ℝ) + 1 + A := fun k => by positivity
  have hpos' : ∀ k : ℕ, (0 : ℝ) < (k : ℝ) + 1 := fun k => by positivity
  rw [hgain, hprobe]
  refine ⟨fun k => ⟨?_, ?_, ?_, ?_⟩, tendsto_gain hA0 ha, ?_, ?_, ?_⟩
  · exact div_pos hs (Real.rpow_pos_of_pos (hpos k) _)
  · exact div_pos he (Real.rpow_pos_of_pos (hpos' k) _)
  · refine div_lt_div_of_pos_left hs (Real.rpow_pos_of_pos (hpos k) _) (Real.rpow_lt_rpow (hpos k).le ?_ ha)
    push_cast; linarith
  · refine div_lt_div_of_pos_left he (Real.rpow_pos_of_pos (hpos' k) _) (Real.rpow_lt_rpow (hpos' k).le ?_ hg)
    push_cast; linarith
  · simpa using tendsto_gain (s := evalStep) (le_refl 0) hg
  · intro h
    have h2 := h.mul_left (1 / stepSize)
    have h3 : Summable fun k : ℕ => 1 / |(k : ℝ) + (1 + A)| ^ alpha := by
      refine h2.congr fun k => ?_
      rw [← add_assoc, abs_of_pos (hpos k)]
      field_simp
    rw [Real.summable_one_div_nat_add_rpow] at h3
    linarith
  · have h1 : Summable fun k : ℕ => 1 / |(k : ℝ) + 1| ^ (2 * (alpha - gamma)) :=
      (Real.summable_one_div_nat_add_rpow 1 _).2 (by linarith)
    refine Summable.of_nonneg_of_le (fun k => sq_nonneg _) (fun k => ?_) (h1.mul_left ((stepSize / evalStep) ^ 2))
    have hk := hpos k
    have hk' := hpos' k
    rw [abs_of_pos hk', mul_comm 2 (alpha - gamma), Real.rpow_mul hk'.le, Real.rpow_sub hk', show (2 : ℝ) = ((2 : ℕ) : ℝ) by norm_num,
      Real.rpow_natCast]
    have e1 : (stepSize / evalStep) ^ 2 * (1 / (((k : ℝ) + 1) ^ alpha / ((k : ℝ) + 1) ^ gamma) ^ 2) =
        (stepSize / ((k : ℝ) + 1) ^ alpha / (evalStep / ((k : ℝ) + 1) ^ gamma)) ^ 2 := by
      have := Real.rpow_pos_of_pos hk' alpha
      have := Real.rpow_pos_of_pos hk' gamma
      field_simp
    rw [e1]
    refine pow_le_pow_left₀ (div_nonneg (div_pos hs (Real.rpow_pos_of_pos hk _)).le
      (div_pos he (Real.rpow_pos_of_pos hk' _)).le) ?_ 2
    refine div_le_div_of_nonneg_right ?_ (div_pos he (Real.rpow_pos_of_pos hk' _)).le
    exact div_le_div_of_nonneg_left hs.le (Real.rpow_pos_of_pos hk' _) (Real.rpow_le_rpow hk'.le (by linarith) ha.le)

/-- The default arguments of the constructor. -/
example : (0 : ℝ) < 0.602 ∧ (0.602 : ℝ) ≤ 1 ∧ (0 : ℝ) < 0.101 ∧ (1 : ℝ) / 2 < 0.602 - 0.101 := by norm_num

/-- A run that moves. -/
example : ∃ l₁ l₂, (optimize demo (demoP 5) () (fun _ => 1)).trace = l₁ ++ Ev.step (fun _ => 1) (fun _ => 0) :: l₂ := by
  have : Ev.step (fun _ => 1) (fun _ => 0) ∈ (optimize demo (demoP 5) () (fun _ => 1)).trace := by
    rw [demo_run]; simp
  exact List.append_of_mem this

end Ens.Spsa
