import Mathlib.Analysis.InnerProductSpace.PiL2
import Mathlib.Topology.Algebra.InfiniteSum.Real
import Mathlib.Topology.Algebra.InfiniteSum.Order
import Mathlib.Analysis.Convex.Mul
import Verif.Analysis.Smooth
import Verif.Update.Model
import Verif.Sgd.Textbook
import Verif.Sgd.Props

/-
Runs of `SGD<UpdatePolicyType, NoDecay>::Optimize` in which every batch is the whole sum, so that the update policy is fed with
the gradient of the objective: the setting of the convergence properties C250-C253.
-/

namespace Ens.Converge

open Ens.Sgd Ens.Update Filter

/-- Coordinates: `d` real numbers with the Euclidean norm. -/
abbrev Vec (d : Nat) := EuclideanSpace ℝ (Fin d)

variable {U V M G E R : Type} {d : Nat}

/-- A policy that treats all coordinates alike (`ens::MomentumUpdate`, `ens::AdaGradUpdate`, ...), on vectors. -/
noncomputable def lift (P : Policy R) : UpdPol (Fin d → R) ℝ (Vec d) (Vec d) where
  fresh := fun _ _ => P.init
  upd := fun s x a g =>
    (fun i => (P.update (s i) a (g i) (x i)).1, WithLp.toLp 2 fun i => (P.update (s i) a (g i) (x i)).2)

/-- `NoDecay` (`sgd/decay_policies/no_decay.hpp:54-59`). -/
def noDecay (M G : Type) : DecPol Unit Unit ℝ M G := ⟨(), fun _ _ a x _ => ((), (), a, x)⟩

/-- State of the policy and coordinates after `k` updates with the gradient `g` and the step size `a`. -/
def iter (up : UpdPol U ℝ M G) (g : M → G) (a : ℝ) (x : M) : Nat → U × M
  | 0 => (up.fresh x, x)
  | k + 1 => up.upd (iter up g a x k).1 (iter up g a x k).2 a (g (iter up g a x k).2)

theorem next_iter {up : UpdPol U ℝ M G} {grad : M → Nat → Nat → G} {g : M → G} {n b K : Nat} (hn : 0 < n) (hb : n ≤ b)
    (hg : ∀ x, grad x 0 n = g x) (a : ℝ) (x : M) : ∀ k ≤ K,
      (Tb.next up (noDecay M G) ⟨n, b, K * n, grad, id, id⟩)^[k] ⟨0, a, (), up.fresh x, (), x⟩ =
        ⟨k * n, a, (), (iter up g a x k).1, (), (iter up g a x k).2⟩ := by
  intro k
  induction k with
  | zero => intro _; simp [iter]
  | succ k ih =>
    intro hk
    rw [Function.iterate_succ_apply', ih (by omega)]
    have hm : k * n % n = 0 := Nat.mul_mod_left k n
    have hle : (k + 1) * n ≤ K * n := Nat.mul_le_mul_right n hk
    have hsz : min (min b (K * n - k * n)) (n - k * n % n) = n := by
      rw [hm]
      rw [Nat.add_mul, Nat.one_mul] at hle
      omega
    rw [hm] at hsz
    simp only [Tb.next, hm, hsz, noDecay, id, hg, iter]
    rw [Nat.add_mul, Nat.one_mul]

/-- What `Optimize` of a new object returns when every batch is the whole sum and nothing stops the run early: the coordinates
after `K` updates, where `maxIterations` is `K` times the number of functions. -/
theorem run_iter {up : UpdPol U ℝ M G} {u : User V M G E} {grad : M → Nat → Nat → G} {g : M → G}
    (hq : Quiet u grad id id) {p : Params} (hn : 0 < p.numFunctions) (hb : p.numFunctions ≤ p.batchSize)
    (hg : ∀ x, grad x 0 p.numFunctions = g x) {K : Nat} (hK : 0 < K) (hm : p.maxIterations = K * p.numFunctions) {fuel : Nat}
    {a : ℝ} {v : V} {x : M} {r : Result (Live U Unit Unit ℝ × V) M E}
    (h : optimizeObj up (noDecay M G) u p true fuel (Obj.new a ()) v x = .returned r) : r.x = (iter up g a x K).2 := by
  obtain ⟨-, k, hk, hlt, hx, -⟩ := C149_sgd_is_textbook hq hn h
  have hpos : 0 < K * p.numFunctions := Nat.mul_pos hK hn
  rw [if_neg (by omega), hm] at hk hlt hx
  have hpro : prologue up (noDecay M G) true x (Obj.new a () : Obj U Unit Unit ℝ) = ⟨a, (), up.fresh x, ()⟩ := rfl
  rw [hpro] at hk hlt hx
  have hit := next_iter (K := K) hn hb hg (up := up) a x
  have hkK : k = K := by
    rcases Nat.lt_trichotomy k K with h1 | h1 | h1
    · have e := hit k h1.le
      simp only at hk
      rw [e] at hk
      exact absurd (Nat.eq_of_mul_eq_mul_right hn hk) (by omega)
    · exact h1
    · have e := hlt K h1
      simp only at e
      rw [hit K le_rfl] at e
      exact absurd e (by simp)
  subst hkK
  rw [hx]
  simp only
  rw [hit k le_rfl]

/-- Every such run returns. -/
theorem run_returns (up : UpdPol U ℝ M G) (u : User V M G E) {p : Params} (hn : 0 < p.numFunctions) (hb : 0 < p.batchSize)
    (a : ℝ) (v : V) (x : M) :
    ∃ r, optimizeObj up (noDecay M G) u p true p.actualMax (Obj.new a ()) v x = .returned r :=
  C09_sgd_terminates _ p hn hb _ x

/-- `Optimize` with the update policy `up` and the step size `a`, started at `x`, drives the gradient `g` to zero: for every
`δ` there is a number `K₀` of epochs such that every run with at least `K₀` epochs over the whole sum, which nothing stops
early, ends where the gradient is shorter than `δ`. -/
def DrivesToZero [Norm G] (up : UpdPol U ℝ M G) (g : M → G) (a : ℝ) (x : M) : Prop :=
  ∀ δ > 0, ∃ K₀ : Nat, ∀ (V E : Type) (u : User V M G E) (grad : M → Nat → Nat → G) (p : Params) (fuel : Nat) (v : V)
    (r : Result (Live U Unit Unit ℝ × V) M E), Quiet u grad id id → 0 < p.numFunctions → p.numFunctions ≤ p.batchSize →
    (∀ x, grad x 0 p.numFunctions = g x) → (∃ K ≥ K₀, p.maxIterations = K * p.numFunctions) →
    optimizeObj up (noDecay M G) u p true fuel (Obj.new a ()) v x = .returned r → ‖g r.x‖ < δ

theorem drives_of_tendsto [SeminormedAddCommGroup G] {up : UpdPol U ℝ M G} {g : M → G} {a : ℝ} {x : M}
    (h : Tendsto (fun k => g (iter up g a x k).2) atTop (nhds 0)) : DrivesToZero up g a x := by
  intro δ hδ
  rw [Metric.tendsto_atTop] at h
  obtain ⟨N, hN⟩ := h δ hδ
  refine ⟨N + 1, fun V E u grad p fuel v r hq hn hb hg ⟨K, hK, hm⟩ hr => ?_⟩
  rw [run_iter hq hn hb hg (by omega) hm hr]
  have := hN K (by omega)
  rwa [dist_zero_right] at this

/-- A bounded energy that loses `q k` in step `k` makes `q` tend to zero. -/
theorem tendsto_of_energy {e q : Nat → ℝ} {m : ℝ} (hq : ∀ k, 0 ≤ q k) (he : ∀ k, e (k + 1) ≤ e k - q k) (hm : ∀ k, m ≤ e k) :
    Tendsto q atTop (nhds 0) := by
  have hs : ∀ n, ∑ k ∈ Finset.range n, q k ≤ e 0 - m := by
    intro n
    have : ∑ k ∈ Finset.range n, q k ≤ e 0 - e n := by
      induction n with
      | zero => simp
      | succ n ih => rw [Finset.sum_range_succ]; linarith [he n]
    linarith [hm n]
  exact (summable_of_sum_range_le hq hs).tendsto_atTop_zero

theorem tendsto_of_norm_sq {X : Type*} [SeminormedAddCommGroup X] {q : Nat → X} {c : ℝ} (hc : 0 < c)
    (h : Tendsto (fun k => c * ‖q k‖ ^ 2) atTop (nhds 0)) : Tendsto q atTop (nhds 0) := by
  rw [tendsto_zero_iff_norm_tendsto_zero]
  have h1 : Tendsto (fun k => ‖q k‖ ^ 2) atTop (nhds 0) := by
    have := h.const_mul (1 / c)
    simp only [mul_zero] at this
    refine this.congr fun k => ?_
    field_simp
  have h2 := (Real.continuous_sqrt.tendsto 0).comp h1
  rw [Real.sqrt_zero] at h2
  refine h2.congr fun k => ?_
  simp [Real.sqrt_sq (norm_nonneg _)]

/-! ### The squared norm -/

/-- `x ↦ ‖x‖² / 2`. -/
noncomputable def half (x : Vec d) : ℝ := 1 / 2 * ‖x‖ ^ 2

theorem half_smooth : LSmooth (half (d := d)) id 1 := by
  refine ⟨fun x => ?_, fun x y => by simp⟩
  have h := ((hasStrictFDerivAt_norm_sq x).hasFDerivAt).const_mul (1 / 2 : ℝ)
  refine h.congr_fderiv ?_
  ext y
  simp

theorem half_convex : ConvexOn ℝ Set.univ (half (d := d)) := by
  have h : ConvexOn ℝ Set.univ (fun x : Vec d => ‖x‖ ^ 2) := convexOn_univ_norm.pow (fun _ _ => norm_nonneg _) 2
  exact (h.smul (by norm_num : (0 : ℝ) ≤ 1 / 2)).congr fun x _ => by simp [half]

theorem half_nonneg (x : Vec d) : 0 ≤ half x := by unfold half; positivity

/-- A sum of one function with the given gradient; callbacks that do nothing; the objective is not used by the iteration. -/
def plainUser (g : Vec d → Vec d) : User Unit (Vec d) (Vec d) Unit where
  evalGrad := fun _ x _ _ => ((), (), g x)
  evaluate := fun _ _ _ _ => ((), ())
  shuffle := fun v => v
  cbBegin := fun _ x => ((), x)
  cbBeginEpoch := fun _ _ _ _ => ((), false)
  cbEvalGrad := fun _ _ _ g => ((), g, false)
  cbStep := fun _ x => ((), x, false)
  cbEndEpoch := fun _ _ _ _ => ((), false)
  cbEvaluate := fun _ _ _ => ((), false)
  cbEnd := fun _ x => ((), x)
  add := fun _ _ => ()
  zero := ()
  divN := fun _ _ => ()
  dblMax := ()
  isBad := fun _ => false
  isClose := fun _ _ => false

theorem plainUser_quiet (g : Vec d → Vec d) : Quiet (plainUser g) (fun x _ _ => g x) id id :=
  ⟨fun _ _ _ _ => rfl, fun _ _ _ _ => rfl, fun _ _ => rfl, fun _ _ => rfl, fun _ _ _ _ => rfl,
    fun _ _ _ _ => rfl, fun _ => rfl, fun _ _ => rfl⟩

/-- If the gradient is driven to zero then along the whole sequence of iterates. -/
theorem DrivesToZero.small {up : UpdPol U ℝ (Vec d) (Vec d)} {g : Vec d → Vec d} {a : ℝ} {x : Vec d}
    (h : DrivesToZero up g a x) : Tendsto (fun k => g (iter up g a x k).2) atTop (nhds 0) := by
  rw [Metric.tendsto_atTop]
  intro δ hδ
  obtain ⟨K₀, hK⟩ := h δ hδ
  refine ⟨K₀ + 1, fun k hk => ?_⟩
  obtain ⟨r, hr⟩ := run_returns up (plainUser g) (p := ⟨1, 1, k, false, false⟩) one_pos one_pos a () x
  have h1 := hK Unit Unit (plainUser g) (fun x _ _ => g x) ⟨1, 1, k, false, false⟩ _ () r (plainUser_quiet g) one_pos le_rfl
    (fun _ => rfl) ⟨k, by omega, (Nat.mul_one k).symm⟩ hr
  rw [run_iter (plainUser_quiet g) (p := ⟨1, 1, k, false, false⟩) one_pos le_rfl (fun _ => rfl) (K := k) (by omega)
    (Nat.mul_one k).symm hr] at h1
  rwa [dist_zero_right]

end Ens.Converge
