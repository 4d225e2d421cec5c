import Verif.Converge.Mirror
import Mathlib.Analysis.Calculus.Gradient.Basic

/-
C284: SGD with the momentum methods under rotations and translations of the whole space, and the policies for which that fails.
-/

namespace Ens.Converge

open Ens.Sgd Ens.Update

variable {d d' : Nat}

/-- `x ↦ L x + t`. -/
noncomputable def affine (L : Vec d →ₗ[ℝ] Vec d') (t : Vec d') (x : Vec d) : Vec d' := L x + t

/-- The update on vectors: the new state of the policy is `A v + B a g`-shaped in all of these, so linear maps commute with it. -/
theorem lift_linear {P : Policy ℝ} (h0 : P.init = 0) (f1 f2 f3 f4 : ℝ → ℝ)
    (hP : ∀ s a g x, P.update s a g x = (f1 a * s + f2 a * g, x + (f3 a * s + f4 a * g))) (L : Vec d →ₗ[ℝ] Vec d') (t : Vec d') :
    UpdSim (lift P : UpdPol (Fin d → ℝ) ℝ (Vec d) (Vec d)) (lift P) (fun s => (L (WithLp.toLp 2 s)).ofLp) (affine L t) L := by
  have hu : ∀ (n : Nat) (s : Fin n → ℝ) (x : Vec n) (a : ℝ) (g : Vec n), (lift P : UpdPol (Fin n → ℝ) ℝ (Vec n) (Vec n)).upd s x a g =
      ((f1 a • (WithLp.toLp 2 s) + f2 a • g : Vec n).ofLp, x + (f3 a • (WithLp.toLp 2 s) + f4 a • g)) := by
    intro n s x a g
    refine Prod.ext ?_ ?_
    · funext i
      simp [lift, hP]
    · ext i
      simp [lift, hP]
  constructor
  · intro x
    have : (WithLp.toLp 2 fun _ : Fin d => P.init) = (0 : Vec d) := by ext i; simp [h0]
    change (fun _ => P.init) = (L (WithLp.toLp 2 fun _ => P.init)).ofLp
    rw [this, map_zero]
    funext i
    simp [h0]
  · intro s x a g
    rw [hu, hu]
    refine Prod.ext ?_ ?_
    · simp
    · simp only [affine, map_add, map_smul, WithLp.toLp_ofLp]
      abel

/-- The vanilla update keeps no state. -/
theorem vanilla_linear (L : Vec d →ₗ[ℝ] Vec d') (t : Vec d') :
    UpdSim (lift vanilla : UpdPol (Fin d → Unit) ℝ (Vec d) (Vec d)) (lift vanilla) (fun _ _ => ()) (affine L t) L := by
  have hu : ∀ (n : Nat) (s : Fin n → Unit) (x : Vec n) (a : ℝ) (g : Vec n),
      ((lift vanilla : UpdPol (Fin n → Unit) ℝ (Vec n) (Vec n)).upd s x a g).2 = x - a • g := by
    intro n s x a g
    ext i
    simp [lift, vanilla]
  constructor
  · intro x; rfl
  · intro s x a g
    refine Prod.ext rfl ?_
    rw [hu, hu]
    simp only [affine, map_sub, map_smul]
    abel

/-- **C284** With the vanilla, momentum, Nesterov and quasi-hyperbolic updates a run in coordinates `Q x + t` is the image of the
run in the coordinates `x`. For a rotation or reflection `Q` of the whole space, `Q (∇ f x)` is the gradient of the transported
function (`gradient_transport`). -/
theorem C284_vanilla (L : Vec d →ₗ[ℝ] Vec d') (t : Vec d') :
    Commutes (lift vanilla : UpdPol (Fin d → Unit) ℝ (Vec d) (Vec d)) (lift vanilla) (noDecay _ _) (noDecay _ _) (affine L t) L :=
  commutes_of_sim (vanilla_linear L t) (noDecay_sim _ _)

theorem C284_momentum (mu : ℝ) (L : Vec d →ₗ[ℝ] Vec d') (t : Vec d') :
    Commutes (lift (momentum mu) : UpdPol (Fin d → ℝ) ℝ (Vec d) (Vec d)) (lift (momentum mu)) (noDecay _ _) (noDecay _ _)
      (affine L t) L := by
  refine commutes_of_sim (lift_linear rfl (fun _ => mu) (fun a => -a) (fun _ => mu) (fun a => -a) (fun s a g x => ?_) L t)
    (noDecay_sim _ _)
  simp only [momentum, Prod.mk.injEq]
  exact ⟨by ring, by ring⟩

theorem C284_nesterov (mu : ℝ) (L : Vec d →ₗ[ℝ] Vec d') (t : Vec d') :
    Commutes (lift (nesterov mu) : UpdPol (Fin d → ℝ) ℝ (Vec d) (Vec d)) (lift (nesterov mu)) (noDecay _ _) (noDecay _ _)
      (affine L t) L := by
  refine commutes_of_sim (lift_linear rfl (fun _ => mu) (fun a => -a) (fun _ => mu * mu) (fun a => -(mu * a) - a)
    (fun s a g x => ?_) L t) (noDecay_sim _ _)
  simp only [nesterov, Prod.mk.injEq]
  exact ⟨by ring, by ring⟩

theorem C284_qh (nu mu : ℝ) (L : Vec d →ₗ[ℝ] Vec d') (t : Vec d') :
    Commutes (lift (qh nu mu) : UpdPol (Fin d → ℝ) ℝ (Vec d) (Vec d)) (lift (qh nu mu)) (noDecay _ _) (noDecay _ _)
      (affine L t) L := by
  refine commutes_of_sim (lift_linear rfl (fun _ => mu) (fun _ => 1 - mu) (fun a => -(a * nu * mu)) (fun a => -(a * (1 - nu)) - a * nu * (1 - mu))
    (fun s a g x => ?_) L t) (noDecay_sim _ _)
  refine Prod.ext rfl ?_
  simp only [qh]
  ring

/-- The gradient of `f` transported by `x ↦ Q x + t`, where `Q` preserves distances. -/
theorem gradient_transport {f : Vec d → ℝ} {g x : Vec d} (Q : Vec d ≃ₗᵢ[ℝ] Vec d) (t : Vec d) (h : HasGradientAt f g x) :
    HasGradientAt (fun y => f (Q.symm (y - t))) (Q g) (affine Q.toLinearEquiv.toLinearMap t x) := by
  rw [hasGradientAt_iff_hasFDerivAt] at h ⊢
  have e : Q.symm (affine Q.toLinearEquiv.toLinearMap t x - t) = x := by simp [affine]
  have h1 : HasFDerivAt (fun y : Vec d => Q.symm (y - t)) (Q.symm.toContinuousLinearEquiv : Vec d →L[ℝ] Vec d)
      (affine Q.toLinearEquiv.toLinearMap t x) :=
    ((Q.symm.toContinuousLinearEquiv : Vec d →L[ℝ] Vec d).hasFDerivAt).comp _ ((hasFDerivAt_id _).sub_const t)
  rw [← e] at h
  have h2 := HasFDerivAt.comp (g := f) (f := fun y : Vec d => Q.symm (y - t)) (affine Q.toLinearEquiv.toLinearMap t x) h h1
  refine h2.congr_fderiv ?_
  ext v
  simp only [ContinuousLinearMap.comp_apply, InnerProductSpace.toDual_apply_apply]
  have := Q.inner_map_map g (Q.symm v)
  rw [Q.apply_symm_apply] at this
  exact this.symm

/-! ### What fails -/

/-- Corresponding runs of the two policies have corresponding iterates. -/
theorem Commutes.iter {U U' : Type} {up : UpdPol U ℝ (Vec d) (Vec d)} {up' : UpdPol U' ℝ (Vec d') (Vec d')} {φ : Vec d → Vec d'}
    {γ : Vec d → Vec d'} (h : Commutes up up' (noDecay _ _) (noDecay _ _) φ γ) {g : Vec d → Vec d} {g' : Vec d' → Vec d'}
    (hg : ∀ x, g' (φ x) = γ (g x)) (a : ℝ) (x : Vec d) {k : Nat} (hk : 0 < k) :
    (iter up' g' a (φ x) k).2 = φ (iter up g a x k).2 := by
  obtain ⟨ν, e⟩ := h Unit Unit (plainUser g) (plainUser g')
    ⟨fun _ x _ _ => by simp [plainUser, hg], fun _ _ _ _ => rfl, rfl, fun _ _ => rfl, fun _ _ _ _ => rfl, fun _ _ _ _ => rfl,
      fun _ _ => rfl, fun _ _ _ _ => rfl, fun _ _ _ => rfl, fun _ _ => rfl, rfl, rfl, rfl, rfl, rfl, rfl⟩
    ⟨1, 1, k, false, false⟩ true _ a () () x
  obtain ⟨r, hr⟩ := run_returns up (plainUser g) (p := ⟨1, 1, k, false, false⟩) one_pos one_pos a () x
  rw [hr] at e
  have h1 := run_iter (plainUser_quiet g) (p := ⟨1, 1, k, false, false⟩) one_pos le_rfl (fun _ => rfl) hk (Nat.mul_one k).symm hr
  have h2 := run_iter (plainUser_quiet g') (p := ⟨1, 1, k, false, false⟩) one_pos le_rfl (fun _ => rfl) hk (Nat.mul_one k).symm e
  rw [← h1, ← h2]
  rfl

/-- The rotation with cosine 3/5 and sine 4/5. -/
noncomputable def rot : Vec 2 →ₗ[ℝ] Vec 2 where
  toFun x := WithLp.toLp 2 ![3 / 5 * x 0 - 4 / 5 * x 1, 4 / 5 * x 0 + 3 / 5 * x 1]
  map_add' x y := by
    ext i
    fin_cases i <;> simp <;> ring
  map_smul' c x := by
    ext i
    fin_cases i <;> simp <;> ring

theorem rot_norm (x : Vec 2) : ‖rot x‖ = ‖x‖ := by
  rw [EuclideanSpace.norm_eq, EuclideanSpace.norm_eq]
  congr 1
  simp only [Fin.sum_univ_two, Real.norm_eq_abs, sq_abs, rot]
  simp
  ring

/-- A policy whose first step divides by the size of the partial derivative does not commute with `rot`. -/
theorem not_rot {R : Type} {P : Policy R} {c s e a : ℝ} (hc : c ≠ 0) (hs : 0 < s) (he : 0 < e)
    (hP : ∀ g, (P.update P.init a g 0).2 = -(c * g / (s * |g| + e))) :
    ¬ Commutes (lift P : UpdPol (Fin 2 → R) ℝ (Vec 2) (Vec 2)) (lift P) (noDecay _ _) (noDecay _ _) (affine rot 0) rot := by
  intro h
  have h1 := h.iter (g := fun _ => WithLp.toLp 2 ![1, 0]) (g' := fun _ => rot (WithLp.toLp 2 ![1, 0])) (fun _ => rfl) a 0 one_pos
  have h2 := congrArg (fun x : Vec 2 => x 0) h1
  simp only [iter, lift, affine, add_zero, map_zero] at h2
  simp only [rot, LinearMap.coe_mk, AddHom.coe_mk, PiLp.zero_apply, hP] at h2
  simp [hP] at h2
  rw [abs_of_pos (by norm_num : (0 : ℝ) < 3 / 5)] at h2
  have p1 : s * (3 / 5) + e ≠ 0 := by positivity
  have p2 : s + e ≠ 0 := by positivity
  field_simp at h2
  nlinarith

theorem C284_adaGrad_refuted {eps : ℝ} (he : 0 < eps) :
    ¬ Commutes (lift (adaGrad eps) : UpdPol (Fin 2 → ℝ) ℝ (Vec 2) (Vec 2)) (lift (adaGrad eps)) (noDecay _ _) (noDecay _ _)
      (affine rot 0) rot :=
  not_rot (c := 1) (s := 1) (a := 1) one_ne_zero one_pos he fun g => by
    simp [adaGrad, Real.sqrt_mul_self_eq_abs]

theorem C284_rmsProp_refuted {al eps : ℝ} (ha : al < 1) (he : 0 < eps) :
    ¬ Commutes (lift (rmsProp al eps) : UpdPol (Fin 2 → ℝ) ℝ (Vec 2) (Vec 2)) (lift (rmsProp al eps)) (noDecay _ _) (noDecay _ _)
      (affine rot 0) rot :=
  not_rot (c := 1) (s := √(1 - al)) (a := 1) one_ne_zero (Real.sqrt_pos.2 (by linarith)) he fun g => by
    simp [rmsProp, Real.sqrt_mul (by linarith : (0 : ℝ) ≤ 1 - al), Real.sqrt_mul_self_eq_abs]

theorem C284_adam_refuted {b : Betas} (h1 : b.b1 < 1) (h2 : b.b2 < 1) (he : 0 < b.eps) :
    ¬ Commutes (lift (adam b) : UpdPol (Fin 2 → Mom) ℝ (Vec 2) (Vec 2)) (lift (adam b)) (noDecay _ _) (noDecay _ _)
      (affine rot 0) rot := by
  have hs : 0 < √(1 - b.b2) := Real.sqrt_pos.2 (by linarith)
  refine not_rot (c := √(1 - b.b2)) (s := √(1 - b.b2)) (a := 1) hs.ne' hs he fun g => ?_
  have : 1 - b.b1 ≠ 0 := by linarith
  simp [adam, Real.sqrt_mul (by linarith : (0 : ℝ) ≤ 1 - b.b2), Real.sqrt_mul_self_eq_abs]
  field_simp

/-- **C283** (refuted) "DemonSGD does not depend on where the origin of the coordinates is." Where the objective is constant
the iterate of DemonSGD is multiplied by the momentum instead of staying where it is. -/
theorem C283_demonSgd_refuted {β : ℝ} (hβ : β ≠ 1) (T : Nat) {t : ℝ} (ht : t ≠ 0) :
    ¬ Commutes (lift (demonSgd β T 0) : UpdPol (Fin 1 → Nat) ℝ (Vec 1) (Vec 1)) (lift (demonSgd β T 0)) (noDecay _ _) (noDecay _ _)
      (relabel id (fun _ => 1) fun _ => t) (relabel id (fun _ => 1) fun _ => 0) := by
  intro h
  have h1 := h.iter (g := fun _ => 0) (g' := fun _ => 0) (fun _ => by ext i; simp [relabel]) 1 0 one_pos
  have h2 := congrArg (fun x : Vec 1 => x 0) h1
  simp [iter, lift, relabel, demonSgd, demonBeta] at h2
  exact hβ (mul_left_cancel₀ ht (by linarith))

/-- Non-vacuity: users that correspond exist for every change of coordinates that has an inverse. -/
theorem plainUser_sim (g : Vec d → Vec d) {φ γ : Vec d → Vec d} {ψ : Vec d → Vec d} (hψ : ∀ x, ψ (φ x) = x) :
    UserSim (plainUser g) (plainUser fun y => γ (g (ψ y))) φ γ :=
  ⟨fun _ x _ _ => by simp [plainUser, hψ], fun _ _ _ _ => rfl, rfl, fun _ _ => rfl, fun _ _ _ _ => rfl, fun _ _ _ _ => rfl,
      fun _ _ => rfl, fun _ _ _ _ => rfl, fun _ _ _ => rfl, fun _ _ => rfl, rfl, rfl, rfl, rfl, rfl, rfl⟩

/-- Adam on two exchanged coordinates, one of them reflected and moved. -/
example (b : Betas) (p : Params) (g : Vec 2 → Vec 2) (a : ℝ) (x : Vec 2) : ∃ ν,
    optimizeObj (lift (adam b)) (noDecay _ _)
      (plainUser fun y => relabel ![1, 0] ![1, -1] (fun _ => 0) (g (relabel ![1, 0] ![-1, 1] ![5, 0] y))) p true p.actualMax (Obj.new a ()) ()
      (relabel ![1, 0] ![1, -1] ![0, 5] x) =
      (optimizeObj (lift (adam b)) (noDecay _ _) (plainUser g) p true p.actualMax (Obj.new a ()) () x).map (fun w => (w.1.map ν, w.2))
        (relabel ![1, 0] ![1, -1] ![0, 5]) :=
  C283_coordinates_partial (.adam b) _ _ _ (by intro i; fin_cases i <;> simp) _ _ _ _
    (plainUser_sim g fun y => by ext i; fin_cases i <;> simp [relabel]) p true _ a () () x

example (p : Params) (g : Vec 2 → Vec 2) (a : ℝ) (x : Vec 2) : ∃ ν,
    optimizeObj (lift (demonAdam (adam ⟨9 / 10, 999 / 1000, 1 / 10 ^ 8⟩) (9 / 10) 10 0)) (noDecay _ _)
      (plainUser fun y => relabel id ![1, -1] (fun _ => 0) (g (relabel id ![1, -1] (fun _ => 0) y))) p true p.actualMax (Obj.new a ()) ()
      (relabel id ![1, -1] (fun _ => 0) x) =
      (optimizeObj (lift (demonAdam (adam ⟨9 / 10, 999 / 1000, 1 / 10 ^ 8⟩) (9 / 10) 10 0)) (noDecay _ _) (plainUser g) p true
        p.actualMax (Obj.new a ()) () x).map (fun w => (w.1.map ν, w.2)) (relabel id ![1, -1] fun _ => 0) :=
  C283_reflections (.demonAdam _ _ _ _ _ (.translated _ _ (.adam _))) _ _ (by intro i; fin_cases i <;> simp) _ _ _ _
    (plainUser_sim g fun y => by ext i; fin_cases i <;> simp [relabel]) p true _ a () () x

/-- The rotation back. -/
noncomputable def unrot : Vec 2 → Vec 2 := fun x => WithLp.toLp 2 ![3 / 5 * x 0 + 4 / 5 * x 1, -(4 / 5) * x 0 + 3 / 5 * x 1]

/-- Momentum on the rotated function. -/
example (p : Params) (g : Vec 2 → Vec 2) (a : ℝ) (x : Vec 2) : ∃ ν,
    optimizeObj (lift (momentum (1 / 2))) (noDecay _ _) (plainUser fun y => rot (g (unrot y))) p true p.actualMax (Obj.new a ()) ()
      (affine rot 0 x) =
      (optimizeObj (lift (momentum (1 / 2))) (noDecay _ _) (plainUser g) p true p.actualMax (Obj.new a ()) () x).map
        (fun w => (w.1.map ν, w.2)) (affine rot 0) :=
  C284_momentum _ rot 0 _ _ _ _ (plainUser_sim g fun y => by ext i; fin_cases i <;> simp [affine, rot, unrot] <;> ring) p true _ a () () x

example : ¬ Commutes (lift (adam ⟨9 / 10, 999 / 1000, 1 / 10 ^ 8⟩) : UpdPol (Fin 2 → Mom) ℝ (Vec 2) (Vec 2)) (lift (adam ⟨9 / 10, 999 / 1000, 1 / 10 ^ 8⟩))
    (noDecay _ _) (noDecay _ _) (affine rot 0) rot :=
  C284_adam_refuted (by norm_num) (by norm_num) (by norm_num)

end Ens.Converge
