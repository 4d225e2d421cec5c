import Verif.Update.Demon

/-
C323: `MaxIterations()` and `BatchSize()` of DemonSGD after construction (demon_sgd/demon_sgd.hpp:127-130, 145-147). The constructor derives
the length of the momentum schedule from both (demon_sgd.hpp:76); the accessors return the members of the inner SGD object only.
-/

namespace Ens.Update

open Ens.Sgd

variable {V E : Type}

/-- A DemonSGD object constructed with the limit `m₀` and the batch size `b₀`: SGD with the policy of length `T = m₀ b₀`
(demon_sgd.hpp:63-80). `p` holds the settings of the inner SGD object at the time of the call, which the accessors assign. -/
noncomputable def demonRun (m₀ b₀ : Nat) (betaInit step : ℝ) (u : User V ℝ ℝ E) (p : Params) (fuel : Nat) (v : V) (x : ℝ) :=
  optimizeObj (demonPol betaInit (m₀ * b₀) 0) keepStep u p true fuel (Obj.new step ()) v x

/-- **C323** What the accessors do: the run goes on for as long as the new limit says, but the schedule keeps the length `m₀ b₀` it got
at construction. If the limit is raised above `m₀ b₀` batches, one update starts from zero instead of the coordinates reached
(everything before is forgotten), and those after it use a negative momentum until `betaInit t` reaches `m₀ b₀`. -/
theorem C323_raised_limit {u : User V ℝ ℝ E} {grad : ℝ → Nat → Nat → ℝ} {clip proj : ℝ → ℝ} (hq : Quiet u grad clip proj)
    {p : Params} (hn : 0 < p.numFunctions) (hb : 0 < p.batchSize) {m₀ b₀ : Nat} (h0 : 0 < m₀ * b₀)
    (hm : m₀ * b₀ * p.batchSize < p.maxIterations) {betaInit step : ℝ} (hβ : 0 < betaInit) {fuel : Nat} {v : V} {x : ℝ}
    {r : Result (Live Nat Unit Unit ℝ × V) ℝ E} (h : demonRun m₀ b₀ betaInit step u p fuel v x = .returned r) :
    ∃ (k : Nat) (X : Nat → ℝ), X 0 = x ∧ r.x = X k ∧ m₀ * b₀ < k ∧ p.maxIterations ≤ k * p.batchSize ∧
      (∃ first size, 0 < size ∧ first + size ≤ p.numFunctions ∧
        X (m₀ * b₀ + 1) = proj (0 - step * clip (grad (X (m₀ * b₀)) first size))) ∧
      ∀ j < k, m₀ * b₀ < j → betaInit * j < (m₀ * b₀ : Nat) → ∃ c < 0, ∃ first size, 0 < size ∧ first + size ≤ p.numFunctions ∧
        X (j + 1) = proj (X j * c - step * clip (grad (X j) first size)) := by
  obtain ⟨k, X, hX0, hr, -, -, hk, hj⟩ := C239_demon_sgd hq hn hb (by omega) h
  have hT : m₀ * b₀ < k := by
    by_contra hc
    have : k * p.batchSize ≤ m₀ * b₀ * p.batchSize := Nat.mul_le_mul_right _ (by omega)
    omega
  refine ⟨k, X, hX0, hr, hT, hk, ?_, ?_⟩
  · obtain ⟨first, size, h1, -, h2, h3⟩ := hj _ hT
    refine ⟨first, size, h1, h2, ?_⟩
    have hne : ((m₀ * b₀ : Nat) : ℝ) ≠ 0 := by exact_mod_cast h0.ne'
    rw [h3, Nat.zero_add, div_self hne]
    simp
  · intro j hjk hTj hlt
    obtain ⟨first, size, h1, -, h2, h3⟩ := hj j hjk
    refine ⟨_, ?_, first, size, h1, h2, h3⟩
    rw [← demonBeta_eq, Nat.zero_add]
    exact C239_after hβ h0 hTj hlt

/-- **C323** The same for DemonAdam over any inner rule (demon_adam/demon_adam.hpp:76-97, accessors 145-147 and 162-164): the
inner rule is handed zero instead of the coordinates at update `m₀ b₀`, and the coordinates times a negative number after it. -/
theorem C323_raised_limit_adam {R : Type} {Q : Policy R} {u : User V ℝ ℝ E} {grad : ℝ → Nat → Nat → ℝ} {clip proj : ℝ → ℝ}
    (hq : Quiet u grad clip proj) {p : Params} (hn : 0 < p.numFunctions) (hb : 0 < p.batchSize) {m₀ b₀ : Nat} (h0 : 0 < m₀ * b₀)
    (hm : m₀ * b₀ * p.batchSize < p.maxIterations) {betaInit step : ℝ} (hβ : 0 < betaInit) {fuel : Nat} {v : V} {x : ℝ}
    {r : Result (Live (R × Nat) Unit Unit ℝ × V) ℝ E}
    (h : optimizeObj (demonAdamPol Q betaInit (m₀ * b₀) 0) keepStep u p true fuel (Obj.new step ()) v x = .returned r) :
    ∃ (k : Nat) (X : Nat → ℝ) (S : Nat → R), X 0 = x ∧ S 0 = Q.init ∧ r.x = X k ∧ m₀ * b₀ < k ∧ p.maxIterations ≤ k * p.batchSize ∧
      (∃ first size, 0 < size ∧ first + size ≤ p.numFunctions ∧
        X (m₀ * b₀ + 1) = proj (Q.update (S (m₀ * b₀)) step (clip (grad (X (m₀ * b₀)) first size)) 0).2) ∧
      ∀ j < k, m₀ * b₀ < j → betaInit * j < (m₀ * b₀ : Nat) → ∃ c < 0, ∃ first size, 0 < size ∧ first + size ≤ p.numFunctions ∧
        X (j + 1) = proj (Q.update (S j) step (clip (grad (X j) first size)) (X j * c)).2 := by
  obtain ⟨k, X, S, hX0, hS0, hr, -, -, hk, hj⟩ := C239_demon_adam hq hn hb (by omega) h
  have hT : m₀ * b₀ < k := by
    by_contra hc
    have : k * p.batchSize ≤ m₀ * b₀ * p.batchSize := Nat.mul_le_mul_right _ (by omega)
    omega
  refine ⟨k, X, S, hX0, hS0, hr, hT, hk, ?_, ?_⟩
  · obtain ⟨first, size, h1, -, h2, -, h3⟩ := hj _ hT
    refine ⟨first, size, h1, h2, ?_⟩
    have hne : ((m₀ * b₀ : Nat) : ℝ) ≠ 0 := by exact_mod_cast h0.ne'
    rw [h3, Nat.zero_add, div_self hne]
    simp
  · intro j hjk hTj hlt
    obtain ⟨first, size, h1, -, h2, -, h3⟩ := hj j hjk
    refine ⟨_, ?_, first, size, h1, h2, h3⟩
    rw [← demonBeta_eq, Nat.zero_add]
    exact C239_after hβ h0 hTj hlt

/-- Two updates on the objective of slope one, from zero with step size one. -/
theorem two_updates {m₀ b₀ : Nat} {betaInit : ℝ} {fuel : Nat} {r : Result (Live Nat Unit Unit ℝ × Unit) ℝ Unit}
    (h : demonRun m₀ b₀ betaInit 1 slope ⟨1, 1, 2, false, false⟩ fuel () 0 = .returned r) :
    r.x = -demonBeta betaInit (m₀ * b₀) 1 - 1 := by
  obtain ⟨k, X, hX0, hr, -, hk2, hk, hj⟩ := C239_demon_sgd slope_quiet (p := ⟨1, 1, 2, false, false⟩) (by norm_num) (by norm_num)
    (by norm_num) h
  have : k = 2 := by simp at hk2 hk; omega
  subst this
  obtain ⟨-, -, -, -, -, e1⟩ := hj 0 (by norm_num)
  obtain ⟨-, -, -, -, -, e2⟩ := hj 1 (by norm_num)
  rw [hr]
  norm_num [hX0] at e1 e2
  rw [e2, e1, demonBeta_eq]
  norm_num

/-- **C323** (refuted) "Giving an existing DemonSGD object another limit amounts to constructing it with that limit." Whatever the
initial momentum, and whatever limit and batch size the object was constructed with unless their product happens to be the same, the
runs with `MaxIterations() = 2` and `BatchSize() = 1` end at other coordinates. -/
theorem C323_setter_is_constructor_refuted {betaInit : ℝ} (hβ : 0 < betaInit) (hβ1 : betaInit < 1) {m₀ b₀ : Nat}
    (h0 : 0 < m₀ * b₀) (h2 : m₀ * b₀ ≠ 2) :
    ∃ r r', demonRun m₀ b₀ betaInit 1 slope ⟨1, 1, 2, false, false⟩ 2 () 0 = .returned r ∧
      demonRun 2 1 betaInit 1 slope ⟨1, 1, 2, false, false⟩ 2 () 0 = .returned r' ∧ r.x ≠ r'.x := by
  obtain ⟨r, hr⟩ := demon_returns (demonPol betaInit (m₀ * b₀) 0) ⟨1, 1, 2, false, false⟩ (by norm_num) (by norm_num) 0
  obtain ⟨r', hr'⟩ := demon_returns (demonPol betaInit (2 * 1) 0) ⟨1, 1, 2, false, false⟩ (by norm_num) (by norm_num) 0
  refine ⟨r, r', hr, hr', ?_⟩
  rw [two_updates hr, two_updates hr']
  intro he
  have he : demonBeta betaInit (m₀ * b₀) 1 = demonBeta betaInit (2 * 1) 1 := by linarith
  rw [demonBeta_eq, demonBeta_eq] at he
  generalize m₀ * b₀ = T at *
  have hT : (0 : ℝ) < T := by exact_mod_cast h0
  have hT1 : (1 : ℝ) ≤ T := by exact_mod_cast h0
  have hd : 0 < (T : ℝ) - betaInit := by linarith
  have hd2 : 0 < 2 - betaInit := by linarith
  have e1 : betaInit * (1 - ((1 : ℕ) : ℝ) / T) / (1 - betaInit * (((1 : ℕ) : ℝ) / T)) = betaInit * (T - 1) / (T - betaInit) := by
    have : (1 : ℝ) - betaInit * (((1 : ℕ) : ℝ) / T) = (T - betaInit) / T := by field_simp; simp
    rw [this]
    field_simp
    simp
  have e2 : betaInit * (1 - ((1 : ℕ) : ℝ) / ((2 * 1 : ℕ) : ℝ)) / (1 - betaInit * (((1 : ℕ) : ℝ) / ((2 * 1 : ℕ) : ℝ))) =
      betaInit / (2 - betaInit) := by
    have : (1 : ℝ) - betaInit * (((1 : ℕ) : ℝ) / ((2 * 1 : ℕ) : ℝ)) = (2 - betaInit) / 2 := by norm_num; ring
    rw [this]
    norm_num
    field_simp
  rw [e1, e2, div_eq_div_iff hd.ne' hd2.ne'] at he
  have h3 : ((T : ℝ) - 1) * (2 - betaInit) = T - betaInit := by
    apply mul_left_cancel₀ hβ.ne'
    linarith
  have h4 : ((T : ℝ) - 2) * (1 - betaInit) = 0 := by linarith
  rcases mul_eq_zero.1 h4 with h5 | h5
  · exact h2 (by exact_mod_cast (by linarith : (T : ℝ) = 2))
  · linarith

/-- **C323** The part that holds: the accessors amount to the constructor if they leave the product of limit and batch size as it
was. -/
theorem C323_same_product_partial {m₀ b₀ m b : Nat} (h : m₀ * b₀ = m * b) (betaInit step : ℝ) (u : User V ℝ ℝ E) (p : Params)
    (fuel : Nat) (v : V) (x : ℝ) :
    demonRun m₀ b₀ betaInit step u p fuel v x = demonRun m b betaInit step u p fuel v x := by
  unfold demonRun
  rw [h]

/-! ### Concrete cases of the hypotheses -/

/-- `C323_raised_limit`: constructed with limit 10 and batch size 1, raised to 20; two updates after the tenth use a negative
momentum. -/
example : ∃ r, demonRun 10 1 0.8 1 slope ⟨1, 1, 20, false, false⟩ 20 () 0 = .returned r ∧ 0 < 10 * 1 ∧ 10 * 1 * 1 < 20 ∧
    (0.8 : ℝ) * (12 : Nat) < (10 * 1 : Nat) := by
  obtain ⟨r, hr⟩ := demon_returns (demonPol 0.8 (10 * 1) 0) ⟨1, 1, 20, false, false⟩ (by norm_num) (by norm_num) 0
  exact ⟨r, hr, by norm_num⟩

/-- `C323_raised_limit_adam`: the same settings over Adam. -/
example : ∃ r, optimizeObj (demonAdamPol (adam ⟨9 / 10, 999 / 1000, 1 / 10 ^ 8⟩) 0.8 (10 * 1) 0) keepStep slope
    ⟨1, 1, 20, false, false⟩ true 20 (Obj.new 1 ()) () 0 = .returned r := by
  obtain ⟨r, hr⟩ := demon_returns (demonAdamPol (adam ⟨9 / 10, 999 / 1000, 1 / 10 ^ 8⟩) 0.8 (10 * 1) 0)
    ⟨1, 1, 20, false, false⟩ (by norm_num) (by norm_num) 0
  exact ⟨r, hr⟩

/-- `C323_setter_is_constructor_refuted`: the default parameters. -/
example : (0 : ℝ) < 0.9 ∧ (0.9 : ℝ) < 1 ∧ 0 < 100000 * 32 ∧ 100000 * 32 ≠ 2 := by norm_num

/-- `C323_same_product_partial`: half the batch size, twice the limit. -/
example : 100 * 32 = 200 * 16 := by norm_num

end Ens.Update
