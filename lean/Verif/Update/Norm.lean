import Verif.Update.Invariance
import Mathlib.Analysis.Normed.Module.Basic
import Mathlib.Data.Matrix.Mul

/-
WNGrad and SWATS, whose updates use a norm or inner products of the whole gradient, and the effect of `resetPolicy`.
Both keep state in the parent object (`SGD::updatePolicy`), not in the `Policy` that `resetPolicy` recreates.
-/

namespace Ens.Update

/-- A policy with the part of its state that lives in the parent object: `update parent policy stepSize gradient iterate`. -/
structure Owned (Par S X : Type) where
  init : S
  update : Par → S → ℝ → X → X → Par × S × X

/-- The updates of one run. -/
def Owned.run {Par S X : Type} (P : Owned Par S X) : Par → S → X → List (ℝ × X) → Par × S × X
  | par, s, x, [] => (par, s, x)
  | par, s, x, (a, g) :: l => Owned.run P (P.update par s a g x).1 (P.update par s a g x).2.1 (P.update par s a g x).2.2 l

/-- The updates of one `Optimize()` with `resetPolicy = true`: the policy is constructed anew, the parent is kept
(`sgd/sgd_impl.hpp:113-121`). -/
def Owned.optimize {Par S X : Type} (P : Owned Par S X) (par : Par) (x : X) (l : List (ℝ × X)) : Par × X :=
  ((P.run par P.init x l).1, (P.run par P.init x l).2.2)

/-- What the documentation promises for `resetPolicy`: "parameters are reset before every Optimize call" - an `Optimize()`
after another one gives what it would have given on the fresh object. -/
def Resets {Par S X : Type} (P : Owned Par S X) (fresh : Par) : Prop :=
  ∀ (x0 x : X) (l0 l : List (ℝ × X)), (P.optimize (P.optimize fresh x0 l0).1 x l).2 = (P.optimize fresh x l).2

/-- `wn_grad/wn_grad_update.hpp:67-89`; the norm of the space stands for `arma::norm` (the Euclidean norm of a vector, the
spectral norm of a matrix). -/
noncomputable def wnGrad {E : Type} [NormedAddCommGroup E] [NormedSpace ℝ E] : Owned ℝ Unit E :=
  ⟨(), fun b _ a g x => let b := b + a ^ 2 / b * ‖g‖ ^ 2; (b, (), x - (a / b) • g)⟩

section wn
variable {E : Type} [NormedAddCommGroup E] [NormedSpace ℝ E]

theorem Owned.run_append {Par S X : Type} (P : Owned Par S X) (par : Par) (s : S) (x : X) (l l' : List (ℝ × X)) :
    P.run par s x (l ++ l') = P.run (P.run par s x l).1 (P.run par s x l).2.1 (P.run par s x l).2.2 l' := by
  induction l generalizing par s x with
  | nil => rfl
  | cons p l ih => exact ih _ _ _

/-- **C132** WNGrad: the denominator stays positive and its square grows at least by twice the squared lengths of all scaled
gradients; in particular it never decreases. -/
theorem C132_growth {b0 : ℝ} (hb : 0 < b0) (x0 : E) (l : List (ℝ × E)) :
    0 < (wnGrad.run b0 () x0 l).1 ∧ b0 ≤ (wnGrad.run b0 () x0 l).1 ∧
      b0 ^ 2 + 2 * (l.map fun p => p.1 ^ 2 * ‖p.2‖ ^ 2).sum ≤ (wnGrad.run b0 () x0 l).1 ^ 2 := by
  induction l generalizing b0 x0 with
  | nil => simp [Owned.run, hb]
  | cons p l ih =>
    obtain ⟨a, g⟩ := p
    have hinc : 0 ≤ a ^ 2 / b0 * ‖g‖ ^ 2 := by positivity
    have hb' : 0 < b0 + a ^ 2 / b0 * ‖g‖ ^ 2 := by linarith
    obtain ⟨h1, h2, h3⟩ := ih hb' (x0 - (a / (b0 + a ^ 2 / b0 * ‖g‖ ^ 2)) • g)
    refine ⟨h1, le_trans (by linarith) h2, le_trans ?_ h3⟩
    have e : b0 * (a ^ 2 / b0 * ‖g‖ ^ 2) = a ^ 2 * ‖g‖ ^ 2 := by field_simp
    simp only [List.map_cons, List.sum_cons]
    nlinarith [mul_self_nonneg (a ^ 2 / b0 * ‖g‖ ^ 2)]

/-- **C132** WNGrad never makes a step longer than `1/2`, whatever the step size and the gradients. -/
theorem C132_step {b0 : ℝ} (hb : 0 < b0) (x0 : E) (l : List (ℝ × E)) (a : ℝ) (g : E) :
    ‖(wnGrad.run b0 () x0 (l ++ [(a, g)])).2.2 - (wnGrad.run b0 () x0 l).2.2‖ ≤ 1 / 2 := by
  rw [Owned.run_append]
  obtain ⟨hpos, -, -⟩ := C132_growth hb x0 l
  generalize wnGrad.run b0 () x0 l = r at *
  show ‖r.2.2 - (a / (r.1 + a ^ 2 / r.1 * ‖g‖ ^ 2)) • g - r.2.2‖ ≤ 1 / 2
  rw [sub_sub_cancel_left, norm_neg, norm_smul, Real.norm_eq_abs, abs_div]
  have hinc : 0 ≤ a ^ 2 / r.1 * ‖g‖ ^ 2 := by positivity
  have hd : 0 < r.1 + a ^ 2 / r.1 * ‖g‖ ^ 2 := by linarith
  rw [abs_of_pos hd, div_mul_eq_mul_div, div_le_iff₀ hd]
  have e : r.1 * (a ^ 2 / r.1 * ‖g‖ ^ 2) = (|a| * ‖g‖) ^ 2 := by rw [mul_pow, sq_abs]; field_simp
  generalize a ^ 2 / r.1 * ‖g‖ ^ 2 = c at *
  generalize |a| * ‖g‖ = y at *
  by_contra hcon
  have : (r.1 + c) ^ 2 < (2 * y) ^ 2 := by nlinarith
  nlinarith [sq_nonneg (r.1 - c)]

/-- The constructor's `b = 1` meets the hypothesis. -/
example : (0 : ℝ) < 1 := one_pos

/-- **C133** WNGrad is not reset by `resetPolicy`. -/
theorem C133_wnGrad_refuted : ¬ Resets (wnGrad (E := ℝ)) 1 := by
  intro h
  have := h 0 0 [(1, 1)] [(1, 1)]
  norm_num [Owned.optimize, Owned.run, wnGrad] at this

end wn

/-- `demonSgd` with its counter in the parent. -/
noncomputable def demonSgdOwned (betaInit : ℝ) (T : Nat) : Owned Nat Unit ℝ :=
  ⟨(), fun t _ a g x => (t + 1, (), x * demonBeta betaInit T t - a * g)⟩

/-- **C133** DemonSGD is not reset by `resetPolicy`: the decay goes on where the last call stopped. -/
theorem C133_demonSgd_refuted : ¬ ∀ (betaInit : ℝ) (T : Nat), 0 < betaInit → betaInit < 1 → 0 < T →
    Resets (demonSgdOwned betaInit T) 0 := by
  intro h
  have := h (1 / 2) 2 (by norm_num) (by norm_num) (by norm_num) 0 1 [(1, 1)] [(1, 1)]
  norm_num [Owned.optimize, Owned.run, demonSgdOwned, demonBeta] at this

/-- A policy that keeps nothing in the parent is reset: all other update policies (their parent holds parameters only). -/
def stateless {S : Type} (P : Policy S) : Owned Unit S ℝ := ⟨P.init, fun _ s a g x => ((), P.update s a g x)⟩

/-- **C133** For the policies whose parent holds parameters only, `resetPolicy` does what is documented. -/
theorem C133_stateless {S : Type} (P : Policy S) : Resets (stateless P) () := fun _ _ _ _ => rfl

/-- **C133** And one `Optimize()` is exactly a run of the policy from its initial state. -/
theorem C133_stateless_run {S : Type} (P : Policy S) (x : ℝ) (l : List (ℝ × ℝ)) :
    ((stateless P).optimize () x l).2 = (run P P.init x l).2 := by
  have : ∀ (l : List (ℝ × ℝ)) (s : S) (x : ℝ), ((stateless P).run () s x l).2.2 = (run P s x l).2 := by
    intro l
    induction l with
    | nil => intro s x; rfl
    | cons p l ih => intro s x; exact ih _ _
  exact this l _ x

/-! ### SWATS -/

/-- `phaseSGD`, `sgdRate`, `sgdLambda` of the parent (`swats/swats_update.hpp:47-58`). -/
structure SwatsParent where
  sgd : Bool
  rate : ℝ
  lambda : ℝ

/-- `m`, `v`, `iteration` of the policy. -/
structure Swats (ι : Type) where
  m : ι → ℝ
  v : ι → ℝ
  t : Nat

section swats
variable {ι : Type} [Fintype ι]

/-- The step of the Adam phase (`swats/swats_update.hpp:151-152`). -/
noncomputable def swatsDelta (b : Betas) (t : Nat) (a : ℝ) (m v : ι → ℝ) : ι → ℝ :=
  fun i => a * m i / (1 - b.b1 ^ t) / (√(v i / (1 - b.b2 ^ t)) + b.eps)

open Classical in
/-- `swats/swats_update.hpp:107-169`. -/
noncomputable def swats (b : Betas) : Owned SwatsParent (Swats ι) (ι → ℝ) :=
  ⟨⟨fun _ => 0, fun _ => 0, 0⟩, fun par s a g x =>
    let t := s.t + 1
    if par.sgd then
      let v := fun i => s.v i * b.b1 + g i
      (par, ⟨s.m, v, t⟩, fun i => x i - (1 - b.b1) * par.rate * v i)
    else
      let m := fun i => s.m i * b.b1 + (1 - b.b1) * g i
      let v := fun i => s.v i * b.b2 + (1 - b.b2) * (g i * g i)
      let delta := swatsDelta b t a m v
      let x' := fun i => x i - delta i
      let dg := delta ⬝ᵥ g
      if dg ≠ 0 then
        let r := delta ⬝ᵥ delta / dg
        let lambda := b.b2 * par.lambda + (1 - b.b2) * r
        let rate := lambda / (1 - b.b2 ^ t)
        if |rate - r| < b.eps ∧ 1 < t then (⟨true, rate, lambda⟩, ⟨m, fun _ => 0, t⟩, x')
        else (⟨false, rate, lambda⟩, ⟨m, v, t⟩, x')
      else (par, ⟨m, v, t⟩, x')⟩

/-- **C138** Once in the SGD phase SWATS stays there, with the rate it had, and moves along the discounted sum of the
gradients seen since; the step sizes passed to it have no effect. -/
theorem C138_latch (b : Betas) (par : SwatsParent) (h : par.sgd = true) (m : ι → ℝ) (t : Nat) (x0 : ι → ℝ) (l : List (ℝ × (ι → ℝ))) :
    ((swats b).run par ⟨m, fun _ => 0, t⟩ x0 l).1 = par ∧
    ∀ i, ((swats b).run par ⟨m, fun _ => 0, t⟩ x0 l).2.2 i =
      x0 i - (1 - b.b1) * par.rate * conv (fun k => ∑ j ∈ Finset.range (k + 1), b.b1 ^ j) (l.map fun p => p.2 i) := by
  have key : ((swats b).run par ⟨m, fun _ => 0, t⟩ x0 l).1 = par ∧
    (∀ i, ((swats b).run par ⟨m, fun _ => 0, t⟩ x0 l).2.1.v i = conv (fun k => b.b1 ^ k) (l.map fun p => p.2 i)) ∧
    ∀ i, ((swats b).run par ⟨m, fun _ => 0, t⟩ x0 l).2.2 i =
      x0 i - (1 - b.b1) * par.rate * conv (fun k => ∑ j ∈ Finset.range (k + 1), b.b1 ^ j) (l.map fun p => p.2 i) := by
    induction l using List.reverseRecOn with
    | nil => simp [Owned.run, conv_nil]
    | append_singleton l p ih =>
      obtain ⟨a, g⟩ := p
      rw [Owned.run_append]
      obtain ⟨h1, h2, h3⟩ := ih
      generalize (swats b).run par ⟨m, fun _ => 0, t⟩ x0 l = r at *
      have hu : (swats b).run r.1 r.2.1 r.2.2 [(a, g)] = (par, ⟨r.2.1.m, fun i => r.2.1.v i * b.b1 + g i, r.2.1.t + 1⟩,
          fun i => r.2.2 i - (1 - b.b1) * par.rate * (r.2.1.v i * b.b1 + g i)) := by
        simp only [Owned.run, swats, h1, h, if_true]
      rw [hu]
      have hv : ∀ i, conv (fun k => b.b1 ^ k) ((l ++ [(a, g)]).map fun p => p.2 i) =
          conv (fun k => b.b1 ^ k) (l.map fun p => p.2 i) * b.b1 + g i := by
        intro i
        rw [List.map_append, List.map_singleton, conv_append, mul_comm (conv _ _) b.b1, ← conv_mul]
        simp only [pow_zero, one_mul]
        congr 2
        funext k; ring
      refine ⟨rfl, fun i => ?_, fun i => ?_⟩
      · show _ * b.b1 + g i = _
        rw [hv, h2]
      · show _ - (1 - b.b1) * par.rate * (_ * b.b1 + g i) = _
        rw [h2, ← hv, h3]
        have e : conv (fun k => ∑ j ∈ Finset.range (k + 1), b.b1 ^ j) ((l ++ [(a, g)]).map fun p => p.2 i) =
            conv (fun k => ∑ j ∈ Finset.range (k + 1), b.b1 ^ j) (l.map fun p => p.2 i) +
              conv (fun k => b.b1 ^ k) ((l ++ [(a, g)]).map fun p => p.2 i) := by
          rw [List.map_append, List.map_singleton, conv_append, conv_append, ← add_assoc, ← conv_add]
          simp [Finset.sum_range_succ _ (_ + 1)]
        rw [e]; ring
  exact ⟨key.1, key.2.2⟩

/-- Over a single coordinate, as used in the witnesses. -/
theorem dot_unit (f g : Unit → ℝ) : f ⬝ᵥ g = f () * g () := by simp [dotProduct]

/-- The witness: `beta1 = beta2 = 1/2`, `epsilon = 1`, gradients `1` and `-1/5`. -/
theorem swats_witness (x : Unit → ℝ) :
    ((swats ⟨1 / 2, 1 / 2, 1⟩ : Owned SwatsParent (Swats Unit) (Unit → ℝ)).run ⟨false, 0, 0⟩ (swats ⟨1 / 2, 1 / 2, 1⟩).init x
      [(1, fun _ => 1), (1, fun _ => -1 / 5)]).1 = ⟨true, -1 / 4, -3 / 16⟩ := by
  have h4 : √(9 / 25 : ℝ) = 3 / 5 := by
    rw [show (9 / 25 : ℝ) = (3 / 5) ^ 2 by norm_num, Real.sqrt_sq (by norm_num)]
  have ha : |-(1 / 4 : ℝ) + 5 / 8| < 1 := by rw [abs_of_pos (by norm_num)]; norm_num
  norm_num [Owned.run, swats, swatsDelta, dot_unit, h4, abs_of_pos]

/-- **C138** The rate SWATS switches to can be negative, for admissible parameters: the SGD phase then ascends. -/
theorem C138_rate_refuted : ¬ ∀ (b : Betas), b.Ok → ∀ (x0 : Unit → ℝ) (l : List (ℝ × (Unit → ℝ))), (∀ p ∈ l, 0 < p.1) →
    ((swats b).run ⟨false, 0, 0⟩ (swats b).init x0 l).1.sgd = true → 0 ≤ ((swats b).run ⟨false, 0, 0⟩ (swats b).init x0 l).1.rate := by
  intro h
  have h1 := h ⟨1 / 2, 1 / 2, 1⟩ ⟨by norm_num, by norm_num, by norm_num, by norm_num, by norm_num⟩ (fun _ => 0)
    [(1, fun _ => 1), (1, fun _ => -1 / 5)] (by simp)
  rw [swats_witness] at h1
  have := h1 rfl
  norm_num at this

/-- **C133** SWATS is not reset by `resetPolicy`: an object that has switched never runs Adam again. -/
theorem C133_swats_refuted : ¬ ∀ (b : Betas), b.Ok → Resets (swats b : Owned SwatsParent (Swats Unit) (Unit → ℝ)) ⟨false, 0, 0⟩ := by
  intro h
  have h1 := h ⟨1 / 2, 1 / 2, 1⟩ ⟨by norm_num, by norm_num, by norm_num, by norm_num, by norm_num⟩ (fun _ => 0) (fun _ => 0)
    [(1, fun _ => 1), (1, fun _ => -1 / 5)] [(1, fun _ => 1)]
  have hw := swats_witness (fun _ => 0)
  have e : ((swats ⟨1 / 2, 1 / 2, 1⟩ : Owned SwatsParent (Swats Unit) (Unit → ℝ)).optimize ⟨false, 0, 0⟩ (fun _ => 0)
      [(1, fun _ => 1), (1, fun _ => -1 / 5)]).1 = ⟨true, -1 / 4, -3 / 16⟩ := hw
  rw [e] at h1
  have h2 := congrFun h1 ()
  norm_num [Owned.optimize, Owned.run, swats, swatsDelta, dot_unit] at h2

end swats

end Ens.Update
