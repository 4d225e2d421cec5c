import Mathlib.Analysis.SpecialFunctions.Log.Basic
import Mathlib.Tactic.Linarith
import Mathlib.Tactic.NormNum
import Mathlib.Tactic.FieldSimp
import Verif.Sa.Props
import Verif.De.Props
import Verif.Cne.Props

/-
C314: what is returned compared with the point the user started from (sa_impl.hpp:62-129, de_impl.hpp:74-88
and 172-175, cne_impl.hpp:93-118 and 152-163).  Simulated annealing accepts worsening moves; differential
evolution and CNE draw the first population around the starting point, which is not one of its members.
-/

namespace Ens.Sa

variable {W R : Type}

/-! ### Moves that never worsen -/

section Cold

variable {E : Type} [Preorder E]

theorem tryMove_cold {env : Env W E R} (ha : ∀ a b T ξ, env.accepts a b T ξ = true → b ≤ a)
    (s : St W E R) (v : E) (m : R) : (tryMove env s v m).energy ≤ s.energy := by
  simp only [tryMove]
  split_ifs with h
  · exact ha _ _ _ _ h
  · exact le_refl _

theorem generateMove_cold {env : Env W E R} (ha : ∀ a b T ξ, env.accepts a b T ξ = true → b ≤ a)
    (p : Params R) {s s' : St W E R} (h : generateMove env p s = some s') : s'.energy ≤ s.energy := by
  unfold generateMove at h
  split at h
  · cases h
    rw [(advance_same env p _).2.1]
    exact tryMove_cold ha _ _ _
  · cases h

theorem initLoop_cold {env : Env W E R} (ha : ∀ a b T ξ, env.accepts a b T ξ = true → b ≤ a)
    (p : Params R) : ∀ (k : Nat) (s s' : St W E R), initLoop env p k s = some s' →
    s'.energy ≤ s.energy := by
  intro k
  induction k with
  | zero => intro s s' h; cases h; exact le_refl _
  | succ k ih =>
    intro s s' h
    simp only [initLoop] at h
    cases hg : generateMove env p s with
    | none => rw [hg] at h; cases h
    | some s1 =>
      rw [hg] at h
      simp only at h
      split_ifs at h
      · cases h; exact generateMove_cold ha p hg
      · exact (ih _ _ h).trans (generateMove_cold ha p hg)

theorem mainLoop_cold {env : Env W E R} (ha : ∀ a b T ξ, env.accepts a b T ξ = true → b ≤ a)
    (p : Params R) : ∀ (k : Nat) (s s' : St W E R) (f : Bool), mainLoop env p k s = some (s', f) →
    s'.energy ≤ s.energy := by
  intro k
  induction k with
  | zero => intro s s' f h; cases h; exact le_refl _
  | succ k ih =>
    intro s s' f h
    simp only [mainLoop] at h
    split_ifs at h
    · cases h; exact le_refl _
    cases hg : generateMove env p s with
    | none => rw [hg] at h; cases h
    | some s1 =>
      rw [hg] at h
      simp only at h
      have h1 := generateMove_cold ha p hg
      split_ifs at h
      · cases h; exact h1
      · cases h; exact h1
      · exact (ih _ _ _ h).trans h1

/-- **C314** (partial: an acceptance rule that never accepts a worse energy, as simulated annealing has at
temperature zero) The result is not worse than the starting point.  Callbacks may do anything to the
coordinates here; the comparison is between energies. -/
theorem C314_sa_cold_partial {env : Env W E R} {F : List E → E}
    (hF : ∀ w x, (env.evaluate w x).2 = F x)
    (ha : ∀ a b T ξ, env.accepts a b T ξ = true → b ≤ a) {p : Params R} {T₀ : R} {w : W} {x₀ : List E}
    {r : Result W E R} (h : optimize env p T₀ w x₀ = some r) : r.energy ≤ F x₀ := by
  unfold optimize at h
  cases hi : initLoop env p p.initMoves (start env p T₀ w x₀) with
  | none => rw [hi] at h; cases h
  | some s =>
    rw [hi] at h
    simp only at h
    cases hm : mainLoop env p p.maxIterations s with
    | none => rw [hm] at h; cases h
    | some q =>
      obtain ⟨s', f⟩ := q
      rw [hm] at h
      cases h
      calc s'.energy ≤ s.energy := mainLoop_cold ha p _ _ _ _ hm
        _ ≤ (start env p T₀ w x₀).energy := initLoop_cold ha p _ _ _ hi
        _ = F x₀ := by simp only [start]; exact hF _ _

end Cold

/-! ### The acceptance rule of the code: worsening is paid for by temperature -/

/-- The acceptance rule and exponential cooling over the reals, the draws kept away from zero by `ξ₀`. -/
structure Metropolis (env : Env W ℝ ℝ) (lam ξ₀ : ℝ) : Prop where
  accepts : ∀ a b T ξ, env.accepts a b T ξ = acceptsR a b T ξ
  cool : ∀ T e, env.cool T e = coolR lam T e
  draw : ∀ w, ξ₀ ≤ (env.randu w).2

theorem acceptsR_le {a b T ξ ξ₀ : ℝ} (hT : 0 < T) (h0 : 0 < ξ₀) (h1 : ξ₀ ≤ 1) (hξ : ξ₀ ≤ ξ)
    (h : acceptsR a b T ξ = true) : b ≤ a + Real.log (1 / ξ₀) * T := by
  have hl : 0 ≤ Real.log (1 / ξ₀) := Real.log_nonneg (by rw [le_div_iff₀ h0]; linarith)
  simp only [acceptsR, decide_eq_true_eq] at h
  rcases h with h | h
  · have := mul_nonneg hl hT.le
    linarith
  · have h2 : ξ₀ < Real.exp (-(b - a) / T) := lt_of_le_of_lt hξ h
    have h3 : Real.log ξ₀ < -(b - a) / T := (Real.log_lt_iff_lt_exp h0).2 h2
    rw [lt_div_iff₀ hT] at h3
    rw [one_div, Real.log_inv]
    linarith

variable {env : Env W ℝ ℝ} {lam ξ₀ : ℝ}

theorem generateMove_paid (hm : Metropolis env lam ξ₀) (h0 : 0 < ξ₀) (h1 : ξ₀ ≤ 1) (p : Params ℝ)
    {s s' : St W ℝ ℝ} (hT : 0 < s.temp) (h : generateMove env p s = some s') :
    s'.energy ≤ s.energy + Real.log (1 / ξ₀) * s.temp ∧ s'.temp = s.temp := by
  have hl : 0 ≤ Real.log (1 / ξ₀) := Real.log_nonneg (by rw [le_div_iff₀ h0]; linarith)
  unfold generateMove at h
  split at h
  · cases h
    rw [(advance_same env p _).2.1, (advance_same env p _).2.2.1]
    refine ⟨?_, rfl⟩
    simp only [tryMove]
    split_ifs with hacc
    · rw [hm.accepts] at hacc
      exact acceptsR_le hT h0 h1 (hm.draw _) hacc
    · have := mul_nonneg hl hT.le
      linarith
  · cases h

theorem initLoop_paid (hm : Metropolis env lam ξ₀) (h0 : 0 < ξ₀) (h1 : ξ₀ ≤ 1) (p : Params ℝ) :
    ∀ (k : Nat) (s s' : St W ℝ ℝ), 0 < s.temp → initLoop env p k s = some s' →
    s'.energy ≤ s.energy + Real.log (1 / ξ₀) * (k * s.temp) ∧ s'.temp = s.temp := by
  have hl : 0 ≤ Real.log (1 / ξ₀) := Real.log_nonneg (by rw [le_div_iff₀ h0]; linarith)
  intro k
  induction k with
  | zero => intro s s' _ h; cases h; simp
  | succ k ih =>
    intro s s' hT h
    simp only [initLoop] at h
    cases hg : generateMove env p s with
    | none => rw [hg] at h; cases h
    | some s1 =>
      rw [hg] at h
      simp only at h
      obtain ⟨h2, h3⟩ := generateMove_paid hm h0 h1 p hT hg
      have hk : 0 ≤ Real.log (1 / ξ₀) * (k * s.temp) := by positivity
      split_ifs at h
      · cases h
        refine ⟨?_, h3⟩
        push_cast
        linarith
      · obtain ⟨h4, h5⟩ := ih _ _ (by rw [h3]; exact hT) h
        rw [h3] at h4 h5
        refine ⟨?_, h5⟩
        push_cast
        linarith

theorem mainLoop_paid (hm : Metropolis env lam ξ₀) (h0 : 0 < ξ₀) (h1 : ξ₀ ≤ 1) (hl0 : 0 < lam)
    (hl1 : lam < 1) (p : Params ℝ) : ∀ (k : Nat) (s s' : St W ℝ ℝ) (f : Bool), 0 < s.temp →
    mainLoop env p k s = some (s', f) →
    s'.energy ≤ s.energy + Real.log (1 / ξ₀) * (s.temp / lam) := by
  have hl : 0 ≤ Real.log (1 / ξ₀) := Real.log_nonneg (by rw [le_div_iff₀ h0]; linarith)
  intro k
  induction k with
  | zero =>
    intro s s' f hT h; cases h
    have : 0 ≤ Real.log (1 / ξ₀) * (s.temp / lam) := by positivity
    linarith
  | succ k ih =>
    intro s s' f hT h
    have hnn : 0 ≤ Real.log (1 / ξ₀) * (s.temp / lam) := by positivity
    simp only [mainLoop] at h
    split_ifs at h
    · cases h; linarith
    cases hg : generateMove env p s with
    | none => rw [hg] at h; cases h
    | some s1 =>
      rw [hg] at h
      simp only at h
      obtain ⟨h2, h3⟩ := generateMove_paid hm h0 h1 p hT hg
      have hdiv : s.temp ≤ s.temp / lam := by
        rw [le_div_iff₀ hl0]
        have := mul_le_mul_of_nonneg_left hl1.le hT.le
        linarith
      have h4 : s1.energy ≤ s.energy + Real.log (1 / ξ₀) * (s.temp / lam) :=
        h2.trans (by have := mul_le_mul_of_nonneg_left hdiv hl; linarith)
      split_ifs at h
      · cases h; exact h4
      · cases h; exact h4
      · have ht : (afterMove env s.energy s1).temp = (1 - lam) * s.temp := by
          show env.cool s1.temp s1.energy = _
          rw [hm.cool, h3]; rfl
        have h5 := ih _ _ _ (by rw [ht]; exact mul_pos (by linarith) hT) h
        rw [ht] at h5
        have he : (afterMove env s.energy s1).energy = s1.energy := rfl
        rw [he] at h5
        have hsplit : s.temp / lam = s.temp + (1 - lam) * s.temp / lam := by
          field_simp
          ring
        rw [hsplit, mul_add]
        linarith

/-- **C314** (partial) With the code's acceptance rule, exponential cooling with `0 < lambda < 1`, a positive
temperature and acceptance draws at least `ξ₀`, the energy returned exceeds that of the starting point by at
most `T₀ (initMoves + 1/lambda) log(1/ξ₀)`: whatever the objective, the number of iterations and the moves, a
good start is lost only as far as the temperature pays for it.  In particular re-running a cold object from
a good point keeps it nearly as good. -/
theorem C314_sa_budget_partial {F : List ℝ → ℝ} (hF : ∀ w x, (env.evaluate w x).2 = F x)
    (hm : Metropolis env lam ξ₀) (h0 : 0 < ξ₀) (h1 : ξ₀ ≤ 1) (hl0 : 0 < lam) (hl1 : lam < 1)
    {p : Params ℝ} {T₀ : ℝ} (hT : 0 < T₀) {w : W} {x₀ : List ℝ} {r : Result W ℝ ℝ}
    (h : optimize env p T₀ w x₀ = some r) :
    r.energy ≤ F x₀ + T₀ * (p.initMoves + 1 / lam) * Real.log (1 / ξ₀) := by
  unfold optimize at h
  cases hi : initLoop env p p.initMoves (start env p T₀ w x₀) with
  | none => rw [hi] at h; cases h
  | some s =>
    rw [hi] at h
    simp only at h
    cases hmn : mainLoop env p p.maxIterations s with
    | none => rw [hmn] at h; cases h
    | some q =>
      obtain ⟨s', f⟩ := q
      rw [hmn] at h
      cases h
      have ht0 : (start env p T₀ w x₀).temp = T₀ := rfl
      have he0 : (start env p T₀ w x₀).energy = F x₀ := by simp only [start]; exact hF _ _
      obtain ⟨h2, h3⟩ := initLoop_paid hm h0 h1 p _ _ _ (by rw [ht0]; exact hT) hi
      have h4 := mainLoop_paid hm h0 h1 hl0 hl1 p _ _ _ _ (by rw [h3, ht0]; exact hT) hmn
      rw [he0, ht0] at h2
      rw [h3, ht0] at h4
      show s'.energy ≤ _
      have : Real.log (1 / ξ₀) * (T₀ / lam) = T₀ * (1 / lam) * Real.log (1 / ξ₀) := by ring
      nlinarith [this]

/-- **C314** (partial) The same about the coordinates handed back, when callbacks leave them alone. -/
theorem C314_sa_budget_coordinates_partial {F : List ℝ → ℝ} (hF : ∀ w x, (env.evaluate w x).2 = F x)
    (hp : Passive env) (hm : Metropolis env lam ξ₀) (h0 : 0 < ξ₀) (h1 : ξ₀ ≤ 1) (hl0 : 0 < lam)
    (hl1 : lam < 1) (p : Params ℝ) {T₀ : ℝ} (hT : 0 < T₀) (w : W) {x₀ : List ℝ} (hx : x₀ ≠ []) :
    ∃ r, optimize env p T₀ w x₀ = some r ∧
      F r.x ≤ F x₀ + T₀ * (p.initMoves + 1 / lam) * Real.log (1 / ξ₀) := by
  obtain ⟨r, hr, _, h2, _⟩ := C19_sa_returned_energy hp p T₀ w hx
  exact ⟨r, hr, by rw [← h2 F hF]; exact C314_sa_budget_partial hF hm h0 h1 hl0 hl1 hT hr⟩

/-- **C314** (refuted) "What simulated annealing returns is not worse than the starting point." -/
theorem C314_sa_refuted :
    ¬ ∀ (env : Env Unit Int Int) (F : List Int → Int) (p : Params Int) (T₀ : Int) (x : List Int)
      (r : Result Unit Int Int), Passive env → (∀ w x, (env.evaluate w x).2 = F x) →
      optimize env p T₀ () x = some r → F r.x ≤ F x := by
  intro h
  have := h demo (fun x => (x.map fun a => if a < 0 then -a else a).sum) (demoParams 1) 5 [0] _ demo_passive
    (fun _ _ => rfl) rfl
  revert this
  decide

/-- A problem for the examples: objective `x`, one coordinate, every draw 1/2. -/
noncomputable def halfEnv : Env Unit ℝ ℝ where
  evaluate := fun w x => (w, x.sum)
  cbEvaluate := fun w _ _ => (w, false)
  cbBegin := fun w x => (w, x)
  cbStep := fun w x => (w, x, false)
  randu := fun w => (w, 1 / 2)
  propose := fun v m _ => v + m
  accepts := acceptsR
  control := fun m _ => m
  cool := coolR (1 / 2)
  isClose := fun _ _ => false

/-- Non-vacuity: the hypotheses hold, and the run does worsen the start: from 0 to 1 at temperature 2,
within the budget. -/
example : Metropolis halfEnv (1 / 2) (1 / 2) ∧ Passive halfEnv ∧
    ∃ r, optimize halfEnv ⟨1, 0, 100, 3, 1⟩ 2 () [0] = some r ∧ r.energy = 1 := by
  have hacc : acceptsR 0 1 2 2⁻¹ = true := by
    simp only [acceptsR, decide_eq_true_eq]
    right
    have := Real.add_one_lt_exp (show (-(1 - 0) / 2 : ℝ) ≠ 0 by norm_num)
    norm_num at this ⊢
    linarith
  refine ⟨⟨fun _ _ _ _ => rfl, fun _ _ => rfl, fun _ => le_refl _⟩, ⟨fun _ _ => rfl, fun _ _ => rfl⟩, ?_⟩
  simp [optimize, initLoop, mainLoop, start, generateMove, tryMove, halfEnv, hacc, advance, afterMove]

/-- Non-vacuity of the cold case: the acceptance rule `b ≤ a`. -/
example : ∃ r, optimize { demo with accepts := fun a b _ _ => decide (b ≤ a) } (demoParams 3) 0 () [1, 5] = some r ∧
    r.energy = 4 := ⟨_, rfl, rfl⟩

end Ens.Sa

namespace Ens.De

/-- **C314** (refuted) "What differential evolution returns is not worse than the starting point": the first
population is drawn around the starting point, which is never evaluated.  (Not worse than any member of the
first population is C20.) -/
theorem C314_de_refuted :
    ¬ ∀ (env : Env Nat Int Int) (F : Int → Int) (n maxGen fuel w : Nat) (x : Int) (r : Result Int Int),
      Sane env F → optimize env n maxGen fuel w x = .ok r → r.obj ≤ F x := by
  intro h
  have := h (demo 100) id 3 1 9 1 0 _ (demo_sane 100) rfl
  revert this
  decide

end Ens.De

namespace Ens.Cne

/-- **C314** (refuted) "What CNE returns is not worse than the starting point": the starting point is
evaluated, but not a member of the first population.  (Not worse than any candidate of any generation is
C68.) -/
theorem C314_cne_refuted :
    ¬ ∀ (env : Env Nat Int Int) (F : List Int → Int) (n elite0 maxGen w : Nat) (x : List Int)
      (r : Result Int Int), Sane env F → optimize env n elite0 maxGen w x = .ok r → r.obj ≤ F x := by
  intro h
  have := h (demo false) List.sum 4 2 2 1 [5] _ (demo_sane false) rfl
  revert this
  decide

end Ens.Cne
