import Verif.Sgd.Equivariance
import Verif.Update.Model
import Verif.Converge.Base
import Mathlib.Tactic.Ring
import Mathlib.Tactic.Linarith
import Mathlib.Data.Fin.VecNotation

/-
C283: SGD with the coordinatewise update policies under reflections, relabellings and translations of the coordinates.
-/

namespace Ens.Converge

open Ens.Sgd Ens.Update

variable {R : Type} {d d' : Nat}

/-- One coordinate of an update policy commutes with `x ↦ ε x + t`; `τ` maps its state. -/
structure Equi (P : Policy R) (ε t : ℝ) (τ : R → R) : Prop where
  init : τ P.init = P.init
  update : ∀ s a g x, P.update (τ s) a (ε * g) (ε * x + t) = (τ (P.update s a g x).1, ε * (P.update s a g x).2 + t)

/-- The coordinates `i ↦ ε i * x (σ i) + t i`: relabelled by `σ`, reflected by `ε`, translated by `t`. -/
noncomputable def relabel (σ : Fin d' → Fin d) (ε t : Fin d' → ℝ) (x : Vec d) : Vec d' := WithLp.toLp 2 fun i => ε i * x (σ i) + t i

theorem lift_equi {P : Policy R} {σ : Fin d' → Fin d} {ε t : Fin d' → ℝ} {τ : Fin d' → R → R} (h : ∀ i, Equi P (ε i) (t i) (τ i)) :
    UpdSim (lift P : UpdPol (Fin d → R) ℝ (Vec d) (Vec d)) (lift P) (fun s i => τ i (s (σ i))) (relabel σ ε t)
      (relabel σ ε fun _ => 0) := by
  constructor
  · intro x
    funext i
    exact ((h i).init).symm
  · intro s x a g
    have e : ∀ i, P.update (τ i (s (σ i))) a (relabel σ ε (fun _ => 0) g i) (relabel σ ε t x i) =
        (τ i (P.update (s (σ i)) a (g (σ i)) (x (σ i))).1, ε i * (P.update (s (σ i)) a (g (σ i)) (x (σ i))).2 + t i) := by
      intro i
      rw [← (h i).update]
      simp [relabel]
    refine Prod.ext ?_ ?_
    · funext i
      exact congrArg Prod.fst (e i)
    · ext i
      exact congrArg Prod.snd (e i)

theorem noDecay_sim {M M' G G' : Type} (φ : M → M') (γ : G → G') : DecSim (noDecay M G) (noDecay M' G') φ γ :=
  ⟨rfl, fun _ _ _ _ _ => rfl⟩

/-! ### The policies -/

variable {ε t : ℝ}

theorem sq_of_sign (hε : ε = 1 ∨ ε = -1) : ε * ε = 1 := by rcases hε with rfl | rfl <;> norm_num

theorem mul_sq_of_sign (hε : ε = 1 ∨ ε = -1) (g : ℝ) : ε * g * (ε * g) = g * g := by
  rcases hε with rfl | rfl <;> ring

theorem abs_of_sign (hε : ε = 1 ∨ ε = -1) (g : ℝ) : |ε * g| = |g| := by
  rcases hε with rfl | rfl <;> simp

theorem equi_vanilla : Equi vanilla ε t id := by
  refine ⟨rfl, fun s a g x => ?_⟩
  simp only [vanilla, id, Prod.mk.injEq, true_and]
  ring

theorem equi_momentum (mu : ℝ) : Equi (momentum mu) ε t fun v => ε * v := by
  refine ⟨by simp [momentum], fun s a g x => ?_⟩
  simp only [momentum, Prod.mk.injEq]
  exact ⟨by ring, by ring⟩

theorem equi_nesterov (mu : ℝ) : Equi (nesterov mu) ε t fun v => ε * v := by
  refine ⟨by simp [nesterov], fun s a g x => ?_⟩
  simp only [nesterov, Prod.mk.injEq]
  exact ⟨by ring, by ring⟩

theorem equi_qh (nu mu : ℝ) : Equi (qh nu mu) ε t fun v => ε * v := by
  refine ⟨by simp [qh], fun s a g x => ?_⟩
  simp only [qh, Prod.mk.injEq]
  exact ⟨by ring, by ring⟩

theorem equi_clipping (hε : ε = 1 ∨ ε = -1) {P : Policy R} {τ : R → R} (h : Equi P ε t τ) {hi : ℝ} (hhi : 0 ≤ hi) :
    Equi (clipping (-hi) hi P) ε t τ := by
  refine ⟨h.init, fun s a g x => ?_⟩
  simp only [clipping]
  rw [← h.update]
  congr 1
  rcases hε with rfl | rfl
  · simp
  · rw [neg_one_mul, neg_one_mul]
    rcases le_total g hi with h1 | h1 <;> rcases le_total (-hi) g with h2 | h2 <;>
      simp only [max_def, min_def] <;> split_ifs <;> linarith

theorem equi_adam (hε : ε = 1 ∨ ε = -1) (b : Betas) : Equi (adam b) ε t fun s => ⟨ε * s.m, s.v, s.t⟩ := by
  refine ⟨by simp [adam], fun s a g x => ?_⟩
  simp only [adam, mul_sq_of_sign hε, Prod.mk.injEq, Mom.mk.injEq, and_true, true_and]
  exact ⟨by ring, by ring⟩

theorem equi_adaMax (hε : ε = 1 ∨ ε = -1) (b : Betas) : Equi (adaMax b) ε t fun s => ⟨ε * s.m, s.v, s.t⟩ := by
  refine ⟨by simp [adaMax], fun s a g x => ?_⟩
  simp only [adaMax, abs_of_sign hε, Prod.mk.injEq, Mom.mk.injEq, and_true, true_and]
  refine ⟨by ring, ?_⟩
  split_ifs
  · ring
  · rfl

theorem equi_amsGrad (hε : ε = 1 ∨ ε = -1) (b : Betas) : Equi (amsGrad b) ε t fun s => ⟨ε * s.m, s.v, s.vi, s.t⟩ := by
  refine ⟨by simp [amsGrad], fun s a g x => ?_⟩
  simp only [amsGrad, mul_sq_of_sign hε, Prod.mk.injEq, MomMax.mk.injEq, and_true, true_and]
  exact ⟨by ring, by ring⟩

theorem equi_padam (hε : ε = 1 ∨ ε = -1) (b : Betas) (part : ℝ) : Equi (padam b part) ε t fun s => ⟨ε * s.m, s.v, s.vi, s.t⟩ := by
  refine ⟨by simp [padam], fun s a g x => ?_⟩
  simp only [padam, mul_sq_of_sign hε, Prod.mk.injEq, MomMax.mk.injEq, and_true, true_and]
  exact ⟨by ring, by ring⟩

theorem equi_nadam (hε : ε = 1 ∨ ε = -1) (b : Betas) (decay : ℝ) : Equi (nadam b decay) ε t fun s => ⟨ε * s.m, s.v, s.cum, s.t⟩ := by
  refine ⟨by simp [nadam], fun s a g x => ?_⟩
  have h2 : (1 - b.b2) * (ε * g) * (ε * g) = (1 - b.b2) * g * g := by
    rw [mul_assoc, mul_sq_of_sign hε, ← mul_assoc]
  simp only [nadam, h2, Prod.mk.injEq, NMom.mk.injEq, and_true, true_and]
  exact ⟨by ring, by ring⟩

theorem equi_nadaMax (hε : ε = 1 ∨ ε = -1) (b : Betas) (decay : ℝ) :
    Equi (nadaMax b decay) ε t fun s => ⟨ε * s.m, s.v, s.cum, s.t⟩ := by
  refine ⟨by simp [nadaMax], fun s a g x => ?_⟩
  simp only [nadaMax, abs_of_sign hε, Prod.mk.injEq, NMom.mk.injEq, and_true, true_and]
  refine ⟨by ring, ?_⟩
  split_ifs
  · ring
  · rfl

theorem equi_optimisticAdam (hε : ε = 1 ∨ ε = -1) (b : Betas) :
    Equi (optimisticAdam b) ε t fun s => ⟨ε * s.m, s.v, ε * s.g, s.t⟩ := by
  refine ⟨by simp [optimisticAdam], fun s a g x => ?_⟩
  simp only [optimisticAdam, mul_sq_of_sign hε, Prod.mk.injEq, OMom.mk.injEq, and_true, true_and]
  exact ⟨⟨by ring, by ring⟩, by ring⟩

theorem equi_adaBelief (hε : ε = 1 ∨ ε = -1) (b : Betas) : Equi (adaBelief b) ε t fun s => ⟨ε * s.m, s.v, s.t⟩ := by
  refine ⟨by simp [adaBelief], fun s a g x => ?_⟩
  have h2 : (ε * g - (ε * s.m * b.b1 + (1 - b.b1) * (ε * g))) ^ 2 = (g - (s.m * b.b1 + (1 - b.b1) * g)) ^ 2 := by
    rcases hε with rfl | rfl <;> ring
  simp only [adaBelief, h2, Prod.mk.injEq, Mom.mk.injEq, and_true, true_and]
  exact ⟨by ring, by ring⟩

theorem equi_adaBound (hε : ε = 1 ∨ ε = -1) (ams : Bool) (b : Betas) (fl gamma : ℝ) :
    Equi (adaBound ams b fl gamma) ε t fun s => ⟨ε * s.m, s.v, s.vi, s.t, s.first, s.a0⟩ := by
  refine ⟨by simp [adaBound], fun s a g x => ?_⟩
  simp only [adaBound, mul_sq_of_sign hε, Prod.mk.injEq, BMom.mk.injEq, and_true, true_and]
  exact ⟨by ring, by ring⟩

theorem equi_adaDelta (hε : ε = 1 ∨ ε = -1) (rho eps : ℝ) : Equi (adaDelta rho eps) ε t id := by
  refine ⟨rfl, fun s a g x => ?_⟩
  have h2 : ∀ r : ℝ, r * (ε * g) * (r * (ε * g)) = r * g * (r * g) := by
    intro r
    rcases hε with rfl | rfl <;> ring
  simp only [adaDelta, id, mul_sq_of_sign hε, h2, Prod.mk.injEq, true_and]
  ring

theorem equi_adaGrad (hε : ε = 1 ∨ ε = -1) (eps : ℝ) : Equi (adaGrad eps) ε t id := by
  refine ⟨rfl, fun s a g x => ?_⟩
  simp only [adaGrad, id, mul_sq_of_sign hε, Prod.mk.injEq, true_and]
  ring

theorem equi_adaSqrt (hε : ε = 1 ∨ ε = -1) (eps : ℝ) : Equi (adaSqrt eps) ε t id := by
  refine ⟨rfl, fun s a g x => ?_⟩
  simp only [adaSqrt, id, mul_sq_of_sign hε, Prod.mk.injEq, true_and]
  ring

theorem equi_rmsProp (hε : ε = 1 ∨ ε = -1) (alpha eps : ℝ) : Equi (rmsProp alpha eps) ε t id := by
  refine ⟨rfl, fun s a g x => ?_⟩
  simp only [rmsProp, id, mul_sq_of_sign hε, Prod.mk.injEq, true_and]
  ring

theorem equi_smorms3 (hε : ε = 1 ∨ ε = -1) (eps : ℝ) : Equi (smorms3 eps) ε t fun s => ⟨s.mem, ε * s.g, s.g2⟩ := by
  refine ⟨by simp [smorms3], fun s a g x => ?_⟩
  have h1 : (1 - 1 / (s.mem + 1)) * (ε * s.g) + 1 / (s.mem + 1) * (ε * g) = ε * ((1 - 1 / (s.mem + 1)) * s.g + 1 / (s.mem + 1) * g) := by
    ring
  simp only [smorms3, h1, mul_sq_of_sign hε, Prod.mk.injEq, true_and]
  ring

theorem equi_yogi (hε : ε = 1 ∨ ε = -1) (b : Betas) : Equi (yogi b) ε t fun s => ⟨ε * s.m, s.v, s.t⟩ := by
  refine ⟨by simp [yogi], fun s a g x => ?_⟩
  have h2 : (ε * g) ^ 2 = g ^ 2 := by rcases hε with rfl | rfl <;> ring
  simp only [yogi, h2, Prod.mk.injEq, Mom.mk.injEq, and_true, true_and]
  exact ⟨by ring, by ring⟩

theorem equi_qhAdam (hε : ε = 1 ∨ ε = -1) (b : Betas) (nu1 nu2 : ℝ) : Equi (qhAdam b nu1 nu2) ε t fun s => ⟨ε * s.m, s.v, s.t⟩ := by
  refine ⟨by simp [qhAdam], fun s a g x => ?_⟩
  simp only [qhAdam, mul_sq_of_sign hε, Prod.mk.injEq, Mom.mk.injEq, and_true, true_and]
  exact ⟨by ring, by ring⟩

/-- FTML: reflections only. -/
theorem equi_ftml (hε : ε = 1 ∨ ε = -1) (b : Betas) (t0 : Nat) : Equi (ftml b t0) ε 0 fun s => ⟨s.v, ε * s.z, s.d, s.t⟩ := by
  refine ⟨by simp [ftml], fun s a g x => ?_⟩
  simp only [ftml, mul_sq_of_sign hε, Prod.mk.injEq, Ftml.mk.injEq, and_true, true_and]
  exact ⟨by ring, by ring⟩

/-- DemonSGD: reflections only. -/
theorem equi_demonSgd (betaInit : ℝ) (T t0 : Nat) : Equi (demonSgd betaInit T t0) ε 0 id := by
  refine ⟨rfl, fun s a g x => ?_⟩
  simp only [demonSgd, id, Prod.mk.injEq, true_and]
  ring

/-- DemonAdam over a policy: reflections only. -/
theorem equi_demonAdam {P : Policy R} {τ : R → R} (h : Equi P ε 0 τ) (betaInit : ℝ) (T t0 : Nat) :
    Equi (demonAdam P betaInit T t0) ε 0 fun s => (τ s.1, s.2) := by
  refine ⟨by simp [demonAdam, h.init], fun s a g x => ?_⟩
  simp only [demonAdam]
  have := h.update s.1 a g (x * demonBeta betaInit T s.2)
  rw [show (ε * x + 0) * demonBeta betaInit T s.2 = ε * (x * demonBeta betaInit T s.2) + 0 by ring, this]

/-! ### Runs -/

/-- Runs of new objects correspond: whenever the functions and callbacks are the same up to the change of coordinates `φ` (and `γ`
on gradients), the run started at the image of `x` is the image of the run started at `x`, event by event, and the objective
returned, the reason of the return and what the user's code has seen are the same. -/
def Commutes {U U' P D M M' G G' : Type} (up : UpdPol U ℝ M G) (up' : UpdPol U' ℝ M' G') (dp : DecPol P D ℝ M G)
    (dp' : DecPol P D ℝ M' G') (φ : M → M') (γ : G → G') : Prop :=
  ∀ (V E : Type) (u : User V M G E) (u' : User V M' G' E), UserSim u u' φ γ →
    ∀ (p : Params) (reset : Bool) (fuel : Nat) (a : ℝ) (q : P) (v : V) (x : M), ∃ ν : U → U',
      optimizeObj up' dp' u' p reset fuel (Obj.new a q) v (φ x) =
        (optimizeObj up dp u p reset fuel (Obj.new a q) v x).map (fun w => (w.1.map ν, w.2)) φ

theorem commutes_of_sim {U U' P D M M' G G' : Type} {up : UpdPol U ℝ M G} {up' : UpdPol U' ℝ M' G'} {dp : DecPol P D ℝ M G}
    {dp' : DecPol P D ℝ M' G'} {φ : M → M'} {γ : G → G'} {ν : U → U'} (h : UpdSim up up' ν φ γ) (hd : DecSim dp dp' φ γ) :
    Commutes up up' dp dp' φ γ := fun _ _ _ _ hu p reset fuel a q v x =>
  ⟨ν, optimizeObj_map h hd hu p reset fuel (Obj.new a q) v x⟩

/-- The policies that commute with reflections and translations of single coordinates. -/
inductive Translated : (R : Type) → Policy R → Prop where
  | vanilla : Translated Unit vanilla
  | momentum (mu : ℝ) : Translated ℝ (momentum mu)
  | nesterov (mu : ℝ) : Translated ℝ (nesterov mu)
  | qh (nu mu : ℝ) : Translated ℝ (qh nu mu)
  | clipping (R : Type) (P : Policy R) (hi : ℝ) : 0 ≤ hi → Translated R P → Translated R (clipping (-hi) hi P)
  | adam (b : Betas) : Translated Mom (adam b)
  | adaMax (b : Betas) : Translated Mom (adaMax b)
  | amsGrad (b : Betas) : Translated MomMax (amsGrad b)
  | padam (b : Betas) (part : ℝ) : Translated MomMax (padam b part)
  | nadam (b : Betas) (decay : ℝ) : Translated NMom (nadam b decay)
  | nadaMax (b : Betas) (decay : ℝ) : Translated NMom (nadaMax b decay)
  | optimisticAdam (b : Betas) : Translated OMom (optimisticAdam b)
  | adaBelief (b : Betas) : Translated Mom (adaBelief b)
  | adaBound (ams : Bool) (b : Betas) (fl gamma : ℝ) : Translated BMom (adaBound ams b fl gamma)
  | adaDelta (rho eps : ℝ) : Translated (ℝ × ℝ) (adaDelta rho eps)
  | adaGrad (eps : ℝ) : Translated ℝ (adaGrad eps)
  | adaSqrt (eps : ℝ) : Translated (ℝ × Nat) (adaSqrt eps)
  | rmsProp (alpha eps : ℝ) : Translated ℝ (rmsProp alpha eps)
  | smorms3 (eps : ℝ) : Translated Smorms (smorms3 eps)
  | yogi (b : Betas) : Translated Mom (yogi b)
  | qhAdam (b : Betas) (nu1 nu2 : ℝ) : Translated Mom (qhAdam b nu1 nu2)

theorem Translated.equi {P : Policy R} (h : Translated R P) (hε : ε = 1 ∨ ε = -1) (t : ℝ) : ∃ τ, Equi P ε t τ := by
  induction h with
  | vanilla => exact ⟨_, equi_vanilla⟩
  | momentum mu => exact ⟨_, equi_momentum mu⟩
  | nesterov mu => exact ⟨_, equi_nesterov mu⟩
  | qh nu mu => exact ⟨_, equi_qh nu mu⟩
  | clipping R P hi hhi _ ih =>
    obtain ⟨τ, h⟩ := ih
    exact ⟨τ, equi_clipping hε h hhi⟩
  | adam b => exact ⟨_, equi_adam hε b⟩
  | adaMax b => exact ⟨_, equi_adaMax hε b⟩
  | amsGrad b => exact ⟨_, equi_amsGrad hε b⟩
  | padam b part => exact ⟨_, equi_padam hε b part⟩
  | nadam b decay => exact ⟨_, equi_nadam hε b decay⟩
  | nadaMax b decay => exact ⟨_, equi_nadaMax hε b decay⟩
  | optimisticAdam b => exact ⟨_, equi_optimisticAdam hε b⟩
  | adaBelief b => exact ⟨_, equi_adaBelief hε b⟩
  | adaBound ams b fl gamma => exact ⟨_, equi_adaBound hε ams b fl gamma⟩
  | adaDelta rho eps => exact ⟨_, equi_adaDelta hε rho eps⟩
  | adaGrad eps => exact ⟨_, equi_adaGrad hε eps⟩
  | adaSqrt eps => exact ⟨_, equi_adaSqrt hε eps⟩
  | rmsProp alpha eps => exact ⟨_, equi_rmsProp hε alpha eps⟩
  | smorms3 eps => exact ⟨_, equi_smorms3 hε eps⟩
  | yogi b => exact ⟨_, equi_yogi hε b⟩
  | qhAdam b nu1 nu2 => exact ⟨_, equi_qhAdam hε b nu1 nu2⟩

/-- **C283** With each of these policies, SGD does not depend on how the coordinates are numbered, on the sign of a coordinate or
on where its origin is: a run in other coordinates `ε i * x (σ i) + t i` is the image of the run in the old ones. -/
theorem C283_coordinates_partial {P : Policy R} (h : Translated R P) (σ : Fin d' → Fin d) (ε t : Fin d' → ℝ) (hε : ∀ i, ε i = 1 ∨ ε i = -1) :
    Commutes (lift P : UpdPol (Fin d → R) ℝ (Vec d) (Vec d)) (lift P) (noDecay _ _) (noDecay _ _) (relabel σ ε t)
      (relabel σ ε fun _ => 0) := by
  choose τ hτ using fun i => h.equi (hε i) (t i)
  exact commutes_of_sim (lift_equi hτ) (noDecay_sim _ _)

/-- The policies that commute with reflections, but whose update also depends on the distance to the origin of the coordinates
(DEMON), or may divide by zero (FTML). -/
inductive Reflected : (R : Type) → Policy R → Prop where
  | translated (R : Type) (P : Policy R) : Translated R P → Reflected R P
  | ftml (b : Betas) (t0 : Nat) : Reflected Ftml (ftml b t0)
  | demonSgd (betaInit : ℝ) (T t0 : Nat) : Reflected Nat (demonSgd betaInit T t0)
  | demonAdam (R : Type) (P : Policy R) (betaInit : ℝ) (T t0 : Nat) : Reflected R P → Reflected (R × Nat) (demonAdam P betaInit T t0)

theorem Reflected.equi {P : Policy R} (h : Reflected R P) (hε : ε = 1 ∨ ε = -1) : ∃ τ, Equi P ε 0 τ := by
  induction h with
  | translated R P h => exact h.equi hε 0
  | ftml b t0 => exact ⟨_, equi_ftml hε b t0⟩
  | demonSgd be T t0 => exact ⟨_, equi_demonSgd be T t0⟩
  | demonAdam R P be T t0 _ ih =>
    obtain ⟨τ, h⟩ := ih
    exact ⟨_, equi_demonAdam h be T t0⟩

/-- **C283** For FTML, DemonSGD and DemonAdam in addition: the numbering of the coordinates and their signs. -/
theorem C283_reflections {P : Policy R} (h : Reflected R P) (σ : Fin d' → Fin d) (ε : Fin d' → ℝ) (hε : ∀ i, ε i = 1 ∨ ε i = -1) :
    Commutes (lift P : UpdPol (Fin d → R) ℝ (Vec d) (Vec d)) (lift P) (noDecay _ _) (noDecay _ _) (relabel σ ε fun _ => 0)
      (relabel σ ε fun _ => 0) := by
  choose τ hτ using fun i => h.equi (hε i)
  exact commutes_of_sim (lift_equi hτ) (noDecay_sim _ _)

end Ens.Converge
