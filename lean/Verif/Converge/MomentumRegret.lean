import Verif.Converge.Average

/-
C260: MomentumSGD, NesterovMomentumSGD and QHSGD on a sum of convex functions: the mean losses reported to the callbacks at the
ends of the epochs, compared with the loss of any point `z`.
-/

namespace Ens.Converge

open Ens.Sgd Ens.Update

variable {V : Type} {d : Nat}

/-- A policy with a velocity `σ v` that remembers the share `μ` of the old velocity: `v' = μ v - s g`, and moves by `e v' - f g`
(`s`, `e`, `f` may depend on the step size `a`). -/
structure Velocity (P : Policy ℝ) (a σ μ s e f : ℝ) : Prop where
  init : P.init = 0
  vel : ∀ v g x, σ * (P.update v a g x).1 = μ * (σ * v) - s * g
  move : ∀ v g x, (P.update v a g x).2 = x + (e * (μ * (σ * v) - s * g) - f * g)

theorem momentum_velocity (a μ : ℝ) : Velocity (momentum μ) a 1 μ a 1 0 :=
  ⟨rfl, fun v g x => by simp [momentum], fun v g x => by simp [momentum]⟩

theorem nesterov_velocity (a μ : ℝ) : Velocity (nesterov μ) a 1 μ a μ a :=
  ⟨rfl, fun v g x => by simp [nesterov], fun v g x => by simp [nesterov]⟩

theorem qh_velocity (a ν μ : ℝ) : Velocity (qh ν μ) a (-1) μ (1 - μ) (a * ν) (a * (1 - ν)) :=
  ⟨rfl, fun v g x => by simp only [qh]; ring, fun v g x => by simp only [qh]; ring⟩

section Step

variable {E : Type} [NormedAddCommGroup E] [InnerProductSpace ℝ E]

/-- One step; `y` is what a callback makes of the new coordinates. -/
theorem velocity_step {v g x z y : E} {μ s e f Vm Gm : ℝ} (h0 : 0 ≤ μ) (h1 : μ < 1) (hs : 0 ≤ s) (he : 0 ≤ e) (hf : 0 ≤ f)
    (hv : ‖v‖ ≤ Vm) (hg : ‖g‖ ≤ Gm) (hV : μ * Vm + s * Gm ≤ Vm)
    (hy : ‖y - z‖ ≤ ‖x + (e • (μ • v - s • g) - f • g) - z‖) (hy' : ‖y - x‖ ≤ ‖x + (e • (μ • v - s • g) - f • g) - x‖) :
    ‖μ • v - s • g‖ ≤ Vm ∧
    2 * (e * s + f * (1 - μ)) * inner ℝ g (x - z) + (1 - μ) * ‖y - z‖ ^ 2 + 2 * e * μ * inner ℝ (μ • v - s • g) (y - z) ≤
      (1 - μ) * ‖x - z‖ ^ 2 + 2 * e * μ * inner ℝ v (x - z) +
        ((1 - μ) * (e * Vm + f * Gm) ^ 2 + 2 * e * μ * (Vm * (e * Vm + f * Gm))) := by
  set v' := μ • v - s • g with hv'
  set q := e • v' - f • g with hq
  have hvn : ‖v'‖ ≤ Vm := by
    refine (norm_sub_le _ _).trans (le_trans (add_le_add ?_ ?_) hV)
    · rw [norm_smul, Real.norm_of_nonneg h0]; exact mul_le_mul_of_nonneg_left hv h0
    · rw [norm_smul, Real.norm_of_nonneg hs]; exact mul_le_mul_of_nonneg_left hg hs
  have hqn : ‖q‖ ≤ e * Vm + f * Gm := by
    refine (norm_sub_le _ _).trans (add_le_add ?_ ?_)
    · rw [norm_smul, Real.norm_of_nonneg he]; exact mul_le_mul_of_nonneg_left hvn he
    · rw [norm_smul, Real.norm_of_nonneg hf]; exact mul_le_mul_of_nonneg_left hg hf
  refine ⟨hvn, ?_⟩
  set Q := e * Vm + f * Gm
  have hQ : 0 ≤ Q := (norm_nonneg _).trans hqn
  rw [add_sub_cancel_left] at hy'
  have c1 : ‖y - z‖ ^ 2 ≤ ‖x - z‖ ^ 2 + 2 * inner ℝ q (x - z) + Q ^ 2 := by
    have k := pow_le_pow_left₀ (norm_nonneg _) hy 2
    rw [show x + q - z = (x - z) + q by abel, norm_add_sq_real, real_inner_comm] at k
    have := pow_le_pow_left₀ (norm_nonneg _) hqn 2
    linarith
  have c2 : inner ℝ v' (y - z) ≤ inner ℝ v' (x - z) + Vm * Q := by
    rw [show y - z = (x - z) + (y - x) by abel, inner_add_right]
    have : inner ℝ v' (y - x) ≤ Vm * Q := (real_inner_le_norm _ _).trans
      (mul_le_mul hvn (hy'.trans hqn) (norm_nonneg _) ((norm_nonneg _).trans hv))
    linarith
  have c3 : inner ℝ q (x - z) = e * inner ℝ v' (x - z) - f * inner ℝ g (x - z) := by
    rw [hq, inner_sub_left, real_inner_smul_left, real_inner_smul_left]
  have c4 : inner ℝ v' (x - z) = μ * inner ℝ v (x - z) - s * inner ℝ g (x - z) := by
    rw [hv', inner_sub_left, real_inner_smul_left, real_inner_smul_left]
  have k1 := mul_le_mul_of_nonneg_left c1 (by linarith : 0 ≤ 1 - μ)
  have k2 := mul_le_mul_of_nonneg_left c2 (by positivity : 0 ≤ 2 * e * μ)
  rw [c3] at k1
  rw [c4] at k1 k2
  linarith

end Step

variable {u : User V (Vec d) (Vec d) ℝ} {n : Nat} {loss : V → Nat → Vec d → ℝ} {gr : V → Nat → Vec d → Vec d} {Γ : ℝ}
variable {P : Policy ℝ} {a σ μ s e f : ℝ}

/-- What a callback may do with the coordinates after a step: leave them alone, or project them onto a convex set `C`. -/
def Projects (u : User V (Vec d) (Vec d) ℝ) (C : Set (Vec d)) : Prop :=
  ∀ v y, (u.cbStep v y).2.1 ∈ C ∧ ∀ c ∈ C, ‖(u.cbStep v y).2.1 - c‖ ≤ ‖y - c‖

theorem ConvexSum.batch_le (hu : ConvexSum u n loss gr Γ) (v : V) (x : Vec d) {b k B : Nat} (hk : k ≤ B) :
    ‖(u.evalGrad v x b k).2.2‖ ≤ B * Γ := by
  have hΓ : 0 ≤ Γ := (norm_nonneg _).trans (hu.lip v 0 x)
  rw [hu.grad]
  refine (norm_sum_le _ _).trans ((Finset.sum_le_card_nsmul _ _ Γ fun j _ => hu.lip _ _ _).trans ?_)
  have : (k : ℝ) ≤ B := by exact_mod_cast hk
  simpa using mul_le_mul_of_nonneg_right this hΓ

/-- The velocity in the state of the policy. -/
def velOf (σ : ℝ) (w : Live (Fin d → ℝ) Unit Unit ℝ × V) : Vec d := WithLp.toLp 2 fun c => σ * w.1.upd c

theorem velocity_books (hP : Velocity P a σ μ s e f) (hu : ConvexSum u n loss gr Γ) {p : Params} {C : Set (Vec d)}
    (hC : Projects u C) {z : Vec d} (hz : z ∈ C) (h0 : 0 ≤ μ) (h1 : μ < 1) (hs : 0 ≤ s) (he : 0 ≤ e) (hf : 0 ≤ f) {Vm N : ℝ}
    (hV : μ * Vm + s * (p.batchSize * Γ) ≤ Vm)
    (hN : N = (1 - μ) * (e * Vm + f * (p.batchSize * Γ)) ^ 2 + 2 * e * μ * (Vm * (e * Vm + f * (p.batchSize * Γ))))
    (D : ℝ) :
    Books (mkEnv (lift P) (noDecay (Vec d) (Vec d)) u) p (fun w => loss w.2) z
      (fun i w x ρ => w.1.step = a ∧ x ∈ C ∧ ‖velOf σ w‖ ≤ Vm ∧
        2 * (e * s + f * (1 - μ)) * ρ + (1 - μ) * ‖x - z‖ ^ 2 + 2 * e * μ * inner ℝ (velOf σ w) (x - z) ≤ D + N * i) where
  add := hu.add
  zero := hu.zero
  divN := hu.divN
  begin_ := fun w x h => by
    simp only [mkEnv, hu.cbBegin]
    exact h
  beginEpoch := fun _ _ _ _ _ _ h => h
  endEpoch := fun _ _ _ _ _ _ h => h
  shuffle := fun _ _ _ _ h => h
  batch := by
    intro i w x ρ b k hk0 hk _ _ ⟨e1, e2, e3, e4⟩
    simp only [mkEnv, noDecay]
    rw [hu.cbEvalGrad_grad, e1]
    set g := (u.evalGrad w.2 x b k).2.2 with hg
    have f1 : WithLp.toLp 2 (fun c => σ * ((lift P : UpdPol (Fin d → ℝ) ℝ (Vec d) (Vec d)).upd w.1.upd x a g).1 c) =
        μ • velOf σ w - s • g := by
      ext c
      simpa [lift, velOf] using hP.vel _ _ _
    have f2 : ((lift P : UpdPol (Fin d → ℝ) ℝ (Vec d) (Vec d)).upd w.1.upd x a g).2 =
        x + (e • (μ • velOf σ w - s • g) - f • g) := by
      ext c
      simpa [lift, velOf] using hP.move _ _ _
    rw [f2]
    set v₁ := (u.cbEvalGrad (u.evalGrad w.2 x b k).1 x (u.evalGrad w.2 x b k).2.1 g).1
    obtain ⟨k1, k2⟩ := hC v₁ (x + (e • (μ • velOf σ w - s • g) - f • g))
    obtain ⟨k3, k4⟩ := velocity_step h0 h1 hs he hf e3 (hu.batch_le w.2 x (b := b) hk) hV (k2 z hz) (k2 x e2)
    set y := (u.cbStep v₁ (x + (e • (μ • velOf σ w - s • g) - f • g))).2.1 with hy
    refine ⟨⟨rfl, k1, ?_, ?_⟩, ?_⟩
    · simp only [velOf]
      rw [f1]
      exact k3
    · simp only [velOf]
      rw [f1]
      have c3 := hu.batch_sub w.2 x z b k
      rw [← hg] at c3
      have c5 := mul_le_mul_of_nonneg_left c3 (by
        have : 0 ≤ 1 - μ := by linarith
        positivity : 0 ≤ 2 * (e * s + f * (1 - μ)))
      have e6 : batchLoss (fun w : Live (Fin d → ℝ) Unit Unit ℝ × V => loss w.2) w z b k = batchLoss loss w.2 z b k := rfl
      rw [e6]
      have hVm : 0 ≤ Vm := (norm_nonneg _).trans e3
      have hG : 0 ≤ p.batchSize * Γ := (norm_nonneg _).trans (hu.batch_le w.2 x (b := b) hk)
      have hN0 : 0 ≤ N := by
        have : 0 ≤ 1 - μ := by linarith
        rw [hN]; positivity
      have hk' : (1 : ℝ) ≤ k := by exact_mod_cast hk0
      have c6 := mul_le_mul_of_nonneg_left hk' hN0
      rw [← hN] at k4
      push_cast
      linarith
    · show loss (u.cbStep _ _).1 = loss w.2
      rw [hu.cbStep_keeps, hu.cbEvalGrad_keeps, hu.evalGrad_keeps]

theorem velocity_regret {p : Params} (hP : Velocity P a σ μ s e f) (hu : ConvexSum u p.numFunctions loss gr Γ)
    (hn : 0 < p.numFunctions) (hb : 0 < p.batchSize) {C : Set (Vec d)} (hC : Projects u C) {z : Vec d} (hz : z ∈ C)
    (h0 : 0 ≤ μ) (h1 : μ < 1) (hs : 0 ≤ s) (he : 0 ≤ e) (hf : 0 ≤ f) {K Vm N : ℝ} (hK : K = 2 * (e * s + f * (1 - μ)))
    (hK0 : 0 < K) (hVm : Vm = s * (p.batchSize * Γ) / (1 - μ))
    (hN : N = (1 - μ) * (e * Vm + f * (p.batchSize * Γ)) ^ 2 + 2 * e * μ * (Vm * (e * Vm + f * (p.batchSize * Γ))))
    {fuel : Nat} {v : V} {x : Vec d} (hx : x ∈ C) {r : Result (Live (Fin d → ℝ) Unit Unit ℝ × V) (Vec d) ℝ}
    (h : optimizeObj (lift P) (noDecay (Vec d) (Vec d)) u p true fuel (Obj.new a ()) v x = .returned r)
    (hE : epochMeans r.trace ≠ []) :
    (epochMeans r.trace).sum / (epochMeans r.trace).length ≤
      (∑ j ∈ Finset.range p.numFunctions, loss v j z) / p.numFunctions +
        ((1 - μ) * ‖x - z‖ ^ 2 + (e * μ * Vm) ^ 2 / (1 - μ)) / K / (p.numFunctions * (epochMeans r.trace).length) + N / K := by
  have hm : 0 < 1 - μ := by linarith
  have hΓ : 0 ≤ Γ := (norm_nonneg _).trans (hu.lip v 0 x)
  have hVm0 : 0 ≤ Vm := by rw [hVm]; positivity
  have hV : μ * Vm + s * (p.batchSize * Γ) ≤ Vm := by
    rw [hVm]
    refine le_of_eq ?_
    field_simp
    ring
  have hv0 : velOf (V := V) σ (prologue (lift P : UpdPol (Fin d → ℝ) ℝ (Vec d) (Vec d)) (noDecay (Vec d) (Vec d)) true
      x (Obj.new a ()), v) = 0 := by
    ext c
    simp [velOf, prologue, lift, hP.init]
  obtain ⟨w, y, -, -, hw, hR⟩ := optimize_books (F := ∑ j ∈ Finset.range p.numFunctions, loss v j z)
    (velocity_books hP hu hC hz h0 h1 hs he hf hV hN ((1 - μ) * ‖x - z‖ ^ 2)) hn hb
    (fun w => by simp only [batchLoss, Nat.zero_add]; exact hu.order _ _ _)
    ⟨rfl, hx, by rw [hv0, norm_zero]; exact hVm0, by rw [hv0]; simp⟩ h
  rw [← hK] at hR
  set L := epochMeans r.trace with hL
  set F := ∑ j ∈ Finset.range p.numFunctions, loss v j z
  have hl : (0 : ℝ) < L.length := by
    have : 0 < L.length := List.length_pos_iff.2 hE
    exact_mod_cast this
  have hn' : (0 : ℝ) < p.numFunctions := by exact_mod_cast hn
  have c1 : -((1 - μ) * ‖y - z‖ ^ 2 + 2 * e * μ * inner ℝ (velOf σ w) (y - z)) ≤ (e * μ * Vm) ^ 2 / (1 - μ) := by
    have k1 : -(inner ℝ (velOf σ w) (y - z)) ≤ Vm * ‖y - z‖ := by
      have := (neg_le_abs _).trans (abs_real_inner_le_norm (velOf σ w) (y - z))
      exact this.trans (mul_le_mul_of_nonneg_right hw (norm_nonneg _))
    have k2 := mul_le_mul_of_nonneg_left k1 (by positivity : 0 ≤ 2 * e * μ)
    rw [le_div_iff₀ hm]
    have k3 := mul_le_mul_of_nonneg_right k2 hm.le
    nlinarith [sq_nonneg ((1 - μ) * ‖y - z‖ - e * μ * Vm)]
  push_cast at hR
  set T := (1 - μ) * ‖x - z‖ ^ 2 + (e * μ * Vm) ^ 2 / (1 - μ) with hT
  have h2 : K * (p.numFunctions * L.sum - L.length * F) ≤ T + N * (L.length * p.numFunctions) := by linarith
  rw [div_le_iff₀ hl]
  have e' : (F / p.numFunctions + T / K / (p.numFunctions * L.length) + N / K) * L.length =
      (K * (L.length * F) + T + N * (L.length * p.numFunctions)) / (K * p.numFunctions) := by
    field_simp
  rw [e', le_div_iff₀ (by positivity)]
  linarith

/-- MomentumSGD on a sum of `n` convex functions with `Γ`-bounded (sub)gradients, with or without shuffling, however the run
ends: for every point `z`, the mean losses reported at the ends of the `E` epochs exceed the mean loss of `z` on average by at
most `((1 - μ) ‖x - z‖² / (2 α) + α μ² G² / (2 (1 - μ)³)) / (n E) + α G² (1 + μ) / (2 (1 - μ)²)`, where `G = b Γ` for batches of
`b`.  Callbacks may project the coordinates onto a convex set that contains `z` after every step (the velocity is kept). -/
theorem C260_momentum_regret {p : Params} (hu : ConvexSum u p.numFunctions loss gr Γ) (hn : 0 < p.numFunctions)
    (hb : 0 < p.batchSize) {C : Set (Vec d)} (hC : Projects u C) {z : Vec d} (hz : z ∈ C) (h0 : 0 ≤ μ) (h1 : μ < 1) (ha : 0 < a)
    {fuel : Nat} {v : V} {x : Vec d} (hx : x ∈ C) {r : Result (Live (Fin d → ℝ) Unit Unit ℝ × V) (Vec d) ℝ}
    (h : optimizeObj (lift (momentum μ)) (noDecay (Vec d) (Vec d)) u p true fuel (Obj.new a ()) v x = .returned r)
    (hE : epochMeans r.trace ≠ []) :
    (epochMeans r.trace).sum / (epochMeans r.trace).length ≤
      (∑ j ∈ Finset.range p.numFunctions, loss v j z) / p.numFunctions +
        ((1 - μ) * ‖x - z‖ ^ 2 / (2 * a) + a * μ ^ 2 * (p.batchSize * Γ) ^ 2 / (2 * (1 - μ) ^ 3)) /
          (p.numFunctions * (epochMeans r.trace).length) +
        a * ((1 + μ) / (2 * (1 - μ) ^ 2) * (p.batchSize * Γ) ^ 2) := by
  have hm : 0 < 1 - μ := by linarith
  have k := velocity_regret (momentum_velocity a μ) hu hn hb hC hz h0 h1 ha.le zero_le_one le_rfl rfl (by linarith) rfl rfl hx h hE
  refine k.trans (le_of_eq ?_)
  congr 2
  · congr 1
    congr 1
    field_simp
    ring
  · field_simp
    ring

/-- The same for NesterovMomentumSGD. -/
theorem C260_nesterov_regret {p : Params} (hu : ConvexSum u p.numFunctions loss gr Γ) (hn : 0 < p.numFunctions)
    (hb : 0 < p.batchSize) {C : Set (Vec d)} (hC : Projects u C) {z : Vec d} (hz : z ∈ C) (h0 : 0 ≤ μ) (h1 : μ < 1) (ha : 0 < a)
    {fuel : Nat} {v : V} {x : Vec d} (hx : x ∈ C) {r : Result (Live (Fin d → ℝ) Unit Unit ℝ × V) (Vec d) ℝ}
    (h : optimizeObj (lift (nesterov μ)) (noDecay (Vec d) (Vec d)) u p true fuel (Obj.new a ()) v x = .returned r)
    (hE : epochMeans r.trace ≠ []) :
    (epochMeans r.trace).sum / (epochMeans r.trace).length ≤
      (∑ j ∈ Finset.range p.numFunctions, loss v j z) / p.numFunctions +
        ((1 - μ) * ‖x - z‖ ^ 2 / (2 * a) + a * μ ^ 4 * (p.batchSize * Γ) ^ 2 / (2 * (1 - μ) ^ 3)) /
          (p.numFunctions * (epochMeans r.trace).length) +
        a * ((1 - μ + 2 * μ ^ 2) / (2 * (1 - μ) ^ 2) * (p.batchSize * Γ) ^ 2) := by
  have hm : 0 < 1 - μ := by linarith
  have k := velocity_regret (nesterov_velocity a μ) hu hn hb hC hz h0 h1 ha.le h0 ha.le rfl (by nlinarith) rfl rfl hx h hE
  refine k.trans (le_of_eq ?_)
  have e1 : 2 * (μ * a + a * (1 - μ)) = 2 * a := by ring
  have e2 : μ * (a * (p.batchSize * Γ) / (1 - μ)) + a * (p.batchSize * Γ) = a * (p.batchSize * Γ) / (1 - μ) := by
    field_simp
    ring
  rw [e1, e2]
  congr 2
  · congr 1
    congr 1
    field_simp
  · field_simp

/-- The same for QHSGD, the average of SGD (share `1 - ν`) and momentum with damping (share `ν`). -/
theorem C260_qh_regret {p : Params} {ν : ℝ} (hu : ConvexSum u p.numFunctions loss gr Γ) (hn : 0 < p.numFunctions)
    (hb : 0 < p.batchSize) {C : Set (Vec d)} (hC : Projects u C) {z : Vec d} (hz : z ∈ C) (h0 : 0 ≤ μ) (h1 : μ < 1) (hv : 0 ≤ ν)
    (hv' : ν ≤ 1) (ha : 0 < a)
    {fuel : Nat} {v : V} {x : Vec d} (hx : x ∈ C) {r : Result (Live (Fin d → ℝ) Unit Unit ℝ × V) (Vec d) ℝ}
    (h : optimizeObj (lift (qh ν μ)) (noDecay (Vec d) (Vec d)) u p true fuel (Obj.new a ()) v x = .returned r)
    (hE : epochMeans r.trace ≠ []) :
    (epochMeans r.trace).sum / (epochMeans r.trace).length ≤
      (∑ j ∈ Finset.range p.numFunctions, loss v j z) / p.numFunctions +
        (‖x - z‖ ^ 2 / (2 * a) + a * (ν * μ * (p.batchSize * Γ)) ^ 2 / (2 * (1 - μ) ^ 2)) /
          (p.numFunctions * (epochMeans r.trace).length) +
        a * ((1 - μ + 2 * ν * μ) / (2 * (1 - μ)) * (p.batchSize * Γ) ^ 2) := by
  have hm : 0 < 1 - μ := by linarith
  have hν : 0 ≤ 1 - ν := by linarith
  have e1 : 2 * (a * ν * (1 - μ) + a * (1 - ν) * (1 - μ)) = 2 * a * (1 - μ) := by ring
  have e2 : (1 - μ) * (p.batchSize * Γ) / (1 - μ) = p.batchSize * Γ := by field_simp
  have k := velocity_regret (qh_velocity a ν μ) hu hn hb hC hz h0 h1 hm.le (by positivity) (by positivity) e1.symm
    (by positivity) e2.symm rfl hx h hE
  refine k.trans (le_of_eq ?_)
  have e3 : a * ν * (p.batchSize * Γ) + a * (1 - ν) * (p.batchSize * Γ) = a * (p.batchSize * Γ) := by ring
  rw [e3]
  congr 2
  · congr 1
    congr 1
    field_simp
  · field_simp

/-! ### Small step sizes -/

/-- Clipping to a box is the projection onto the box. -/
theorem clip_projects {lo hi : Vec d} (hle : ∀ i, lo i ≤ hi i)
    (hclip : ∀ v y i, (u.cbStep v y).2.1 i = max (lo i) (min (hi i) (y i))) :
    Projects u {y | ∀ i, lo i ≤ y i ∧ y i ≤ hi i} := by
  intro v y
  refine ⟨fun i => ?_, fun c hc => ?_⟩
  · rw [hclip]
    exact ⟨le_max_left _ _, max_le (hle i) (min_le_left _ _)⟩
  · rw [EuclideanSpace.norm_eq, EuclideanSpace.norm_eq]
    refine Real.sqrt_le_sqrt (Finset.sum_le_sum fun i _ => pow_le_pow_left₀ (norm_nonneg _) ?_ 2)
    rw [Real.norm_eq_abs, Real.norm_eq_abs, PiLp.sub_apply, PiLp.sub_apply, hclip]
    exact clip_near (hc i).1 (hc i).2

/-- A policy for which the average excess is bounded by `T(α) / E + α B`. -/
theorem close_of_regret {U : Type} {up : UpdPol U ℝ (Vec d) (Vec d)}
    (H : ∀ (V : Type) (u : User V (Vec d) (Vec d) ℝ) (n b : Nat) (loss : V → Nat → Vec d → ℝ) (gr : V → Nat → Vec d → Vec d)
      (Γ : ℝ) (lo hi z x : Vec d) (v : V), ConvexSum u n loss gr Γ → 0 < n → 0 < b →
      Projects u {y | ∀ i, lo i ≤ y i ∧ y i ≤ hi i} → (∀ i, lo i ≤ z i ∧ z i ≤ hi i) → (∀ i, lo i ≤ x i ∧ x i ≤ hi i) →
      ∃ B, 0 ≤ B ∧ ∀ a, 0 < a → ∃ T, 0 ≤ T ∧ ∀ (p : Params) (fuel : Nat)
        (r : Result (Live U Unit Unit ℝ × V) (Vec d) ℝ), p.numFunctions = n → p.batchSize = b →
        optimizeObj up (noDecay (Vec d) (Vec d)) u p true fuel (Obj.new a ()) v x = .returned r →
        epochMeans r.trace ≠ [] → (epochMeans r.trace).sum / (epochMeans r.trace).length ≤
          (∑ j ∈ Finset.range n, loss v j z) / n + T / (epochMeans r.trace).length + a * B) : CloseOnAverage up := by
  intro V u n b loss gr Γ lo hi z x v hu hn hb hclip hz hx δ hδ
  obtain ⟨B, hB, H⟩ := H V u n b loss gr Γ lo hi z x v hu hn hb
    (clip_projects (fun i => (hz i).1.trans (hz i).2) hclip) hz hx
  refine ⟨δ / (2 * (B + 1)), by positivity, fun a ha ha₀ => ?_⟩
  obtain ⟨T, hT, H⟩ := H a ha
  exact ⟨Nat.ceil (2 * T / δ) + 1, fun p fuel r hpn hpb h hE =>
    small_of_bound hB hδ ha ha₀ hT hE (H p fuel r hpn hpb h (not_nil hE))⟩

/-- MomentumSGD comes close. -/
theorem C260_momentum_close (h0 : 0 ≤ μ) (h1 : μ < 1) :
    CloseOnAverage (lift (momentum μ) : UpdPol (Fin d → ℝ) ℝ (Vec d) (Vec d)) := by
  have hm : 0 < 1 - μ := by linarith
  refine close_of_regret fun V u n b loss gr Γ lo hi z x v hu hn hb hC hz hx => ⟨(1 + μ) / (2 * (1 - μ) ^ 2) * (b * Γ) ^ 2,
    by positivity, fun a ha => ⟨((1 - μ) * ‖x - z‖ ^ 2 / (2 * a) + a * μ ^ 2 * (b * Γ) ^ 2 / (2 * (1 - μ) ^ 3)) / n, by positivity,
    fun p fuel r hpn hpb h hE => ?_⟩⟩
  · subst hpn hpb
    have k := C260_momentum_regret hu hn hb hC hz h0 h1 ha hx h hE
    rw [← div_div] at k
    exact k

/-- NesterovMomentumSGD comes close. -/
theorem C260_nesterov_close (h0 : 0 ≤ μ) (h1 : μ < 1) :
    CloseOnAverage (lift (nesterov μ) : UpdPol (Fin d → ℝ) ℝ (Vec d) (Vec d)) := by
  have hm : 0 < 1 - μ := by linarith
  refine close_of_regret fun V u n b loss gr Γ lo hi z x v hu hn hb hC hz hx => ⟨(1 - μ + 2 * μ ^ 2) / (2 * (1 - μ) ^ 2) * (b * Γ) ^ 2,
    by positivity, fun a ha => ⟨((1 - μ) * ‖x - z‖ ^ 2 / (2 * a) + a * μ ^ 4 * (b * Γ) ^ 2 / (2 * (1 - μ) ^ 3)) / n, by positivity,
    fun p fuel r hpn hpb h hE => ?_⟩⟩
  · subst hpn hpb
    have k := C260_nesterov_regret hu hn hb hC hz h0 h1 ha hx h hE
    rw [← div_div] at k
    exact k

/-- QHSGD comes close. -/
theorem C260_qh_close {ν : ℝ} (h0 : 0 ≤ μ) (h1 : μ < 1) (hv : 0 ≤ ν) (hv' : ν ≤ 1) :
    CloseOnAverage (lift (qh ν μ) : UpdPol (Fin d → ℝ) ℝ (Vec d) (Vec d)) := by
  have hm : 0 < 1 - μ := by linarith
  refine close_of_regret fun V u n b loss gr Γ lo hi z x v hu hn hb hC hz hx => ⟨(1 - μ + 2 * ν * μ) / (2 * (1 - μ)) * (b * Γ) ^ 2,
    by positivity, fun a ha => ⟨(‖x - z‖ ^ 2 / (2 * a) + a * (ν * μ * (b * Γ)) ^ 2 / (2 * (1 - μ) ^ 2)) / n, by positivity,
    fun p fuel r hpn hpb h hE => ?_⟩⟩
  · subst hpn hpb
    have k := C260_qh_regret hu hn hb hC hz h0 h1 hv hv' ha hx h hE
    rw [← div_div] at k
    exact k

/-! ### A case -/

theorem normUser_projects : Projects (normUser (d := 1)) {y | ∀ i, (WithLp.toLp 2 fun _ => -1 : Vec 1) i ≤ y i ∧
    y i ≤ (WithLp.toLp 2 fun _ => 1 : Vec 1) i} := clip_projects (by intro i; simp) normUser_clip

/-- A run with two epochs of batches of 2 and 1 functions. -/
noncomputable def velRun (P : Policy ℝ) : Outcome (Live (Fin 1 → ℝ) Unit Unit ℝ × Unit) (Vec 1) ℝ :=
  optimizeObj (lift P) (noDecay (Vec 1) (Vec 1)) normUser ⟨3, 2, 6, false, false⟩ true 6 (Obj.new 1 ())
    () (WithLp.toLp 2 fun _ => 1)

theorem velRun_momentum : epochsOf (velRun (momentum (1 / 2))) = 2 := by decide +kernel

/-- The theorem applies to that run. -/
example : ∃ r, velRun (momentum (1 / 2)) = .returned r ∧ (epochMeans r.trace).length = 2 ∧
    (epochMeans r.trace).sum / 2 ≤ (1 / 4 + 4) / (3 * 2) + 3 * 4 := by
  have hE := velRun_momentum
  cases hr : velRun (momentum (1 / 2)) with
  | ub => rw [hr] at hE; cases hE
  | diverges => rw [hr] at hE; cases hE
  | returned r =>
    rw [hr] at hE
    have hE' : (epochMeans r.trace).length = 2 := hE
    refine ⟨r, rfl, hE', ?_⟩
    have h := C260_momentum_regret (p := ⟨3, 2, 6, false, false⟩) (normUser_convex (d := 1)) (by norm_num) (by norm_num)
      normUser_projects (z := 0) (by intro i; simp) (by norm_num) (by norm_num) one_pos (fuel := 6) (v := ())
      (x := WithLp.toLp 2 fun _ => 1) (by intro i; simp) hr (by intro h; rw [h] at hE'; cases hE')
    rw [hE'] at h
    have h1 : ‖(WithLp.toLp 2 fun _ => 1 : Vec 1) - 0‖ ^ 2 = 1 := by rw [EuclideanSpace.norm_sq_eq]; simp
    rw [h1] at h
    norm_num at h ⊢
    linarith

theorem velRun_nesterov : epochsOf (velRun (nesterov (1 / 2))) = 2 := by decide +kernel

/-- The theorem applies to that run. -/
example : ∃ r, velRun (nesterov (1 / 2)) = .returned r ∧ (epochMeans r.trace).length = 2 ∧
    (epochMeans r.trace).sum / 2 ≤ (1 / 4 + 1) / (3 * 2) + 2 * 4 := by
  have hE := velRun_nesterov
  cases hr : velRun (nesterov (1 / 2)) with
  | ub => rw [hr] at hE; cases hE
  | diverges => rw [hr] at hE; cases hE
  | returned r =>
    rw [hr] at hE
    have hE' : (epochMeans r.trace).length = 2 := hE
    refine ⟨r, rfl, hE', ?_⟩
    have h := C260_nesterov_regret (p := ⟨3, 2, 6, false, false⟩) (normUser_convex (d := 1)) (by norm_num) (by norm_num)
      normUser_projects (z := 0) (by intro i; simp) (by norm_num) (by norm_num) one_pos (fuel := 6) (v := ())
      (x := WithLp.toLp 2 fun _ => 1) (by intro i; simp) hr (by intro h; rw [h] at hE'; cases hE')
    rw [hE'] at h
    have h1 : ‖(WithLp.toLp 2 fun _ => 1 : Vec 1) - 0‖ ^ 2 = 1 := by rw [EuclideanSpace.norm_sq_eq]; simp
    rw [h1] at h
    norm_num at h ⊢
    linarith

theorem velRun_qh : epochsOf (velRun (qh (1 / 2) (1 / 2))) = 2 := by decide +kernel

/-- The theorem applies to that run. -/
example : ∃ r, velRun (qh (1 / 2) (1 / 2)) = .returned r ∧ (epochMeans r.trace).length = 2 ∧
    (epochMeans r.trace).sum / 2 ≤ (1 / 2 + 1 / 2) / (3 * 2) + 4 := by
  have hE := velRun_qh
  cases hr : velRun (qh (1 / 2) (1 / 2)) with
  | ub => rw [hr] at hE; cases hE
  | diverges => rw [hr] at hE; cases hE
  | returned r =>
    rw [hr] at hE
    have hE' : (epochMeans r.trace).length = 2 := hE
    refine ⟨r, rfl, hE', ?_⟩
    have h := C260_qh_regret (p := ⟨3, 2, 6, false, false⟩) (normUser_convex (d := 1)) (by norm_num) (by norm_num)
      normUser_projects (z := 0) (by intro i; simp) (by norm_num) (by norm_num) (by norm_num) (by norm_num) one_pos (fuel := 6) (v := ())
      (x := WithLp.toLp 2 fun _ => 1) (by intro i; simp) hr (by intro h; rw [h] at hE'; cases hE')
    rw [hE'] at h
    have h1 : ‖(WithLp.toLp 2 fun _ => 1 : Vec 1) - 0‖ ^ 2 = 1 := by rw [EuclideanSpace.norm_sq_eq]; simp
    rw [h1] at h
    norm_num at h ⊢
    linarith

/-- The default parameters of MomentumSGD. -/
example : CloseOnAverage (lift (momentum 0.5) : UpdPol (Fin 3 → ℝ) ℝ (Vec 3) (Vec 3)) :=
  C260_momentum_close (by norm_num) (by norm_num)

end Ens.Converge
