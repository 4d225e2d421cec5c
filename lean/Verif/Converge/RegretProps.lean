import Verif.Converge.Regret

/-
C253: StandardSGD, C254: AdaGrad on a sum of convex functions: the mean losses reported to the callbacks at the ends of the
epochs, compared with the loss of any point `z` (e.g. the minimiser).
-/

namespace Ens.Converge

open Ens.Sgd Ens.Update

variable {U V : Type} {d : Nat}

/-- A sum of functions that the user implements as documented.  `loss v j` is function `j` in the order that belongs to the
state `v` of the user code (`Shuffle` changes the order), `gr v j` a (sub)gradient of it, of length at most `Γ`.  Callbacks
neither change gradients nor the functions; what they do with the coordinates after a step is in `C253`, `C254`. -/
structure ConvexSum (u : User V (Vec d) (Vec d) ℝ) (n : Nat) (loss : V → Nat → Vec d → ℝ) (gr : V → Nat → Vec d → Vec d)
    (Γ : ℝ) : Prop where
  value : ∀ v x b k, (u.evalGrad v x b k).2.1 = ∑ j ∈ Finset.range k, loss v (b + j) x
  grad : ∀ v x b k, (u.evalGrad v x b k).2.2 = ∑ j ∈ Finset.range k, gr v (b + j) x
  sub : ∀ v j x y, loss v j x + inner ℝ (gr v j x) (y - x) ≤ loss v j y
  lip : ∀ v j x, ‖gr v j x‖ ≤ Γ
  order : ∀ v v' x, ∑ j ∈ Finset.range n, loss v j x = ∑ j ∈ Finset.range n, loss v' j x
  evalGrad_keeps : ∀ v x b k, loss (u.evalGrad v x b k).1 = loss v
  cbEvalGrad_keeps : ∀ v x e g, loss (u.cbEvalGrad v x e g).1 = loss v
  cbEvalGrad_grad : ∀ v x e g, (u.cbEvalGrad v x e g).2.1 = g
  cbStep_keeps : ∀ v x, loss (u.cbStep v x).1 = loss v
  cbBegin : ∀ v x, (u.cbBegin v x).2 = x
  add : ∀ a b, u.add a b = a + b
  zero : u.zero = 0
  divN : ∀ a k, u.divN a k = a / k

variable {u : User V (Vec d) (Vec d) ℝ} {n : Nat} {loss : V → Nat → Vec d → ℝ} {gr : V → Nat → Vec d → Vec d} {Γ : ℝ}

theorem ConvexSum.batch_sub (hu : ConvexSum u n loss gr Γ) (v : V) (x z : Vec d) (b k : Nat) :
    (u.evalGrad v x b k).2.1 - batchLoss loss v z b k ≤ inner ℝ (u.evalGrad v x b k).2.2 (x - z) := by
  rw [hu.value, hu.grad, batchLoss, ← Finset.sum_sub_distrib, sum_inner]
  refine Finset.sum_le_sum fun j _ => ?_
  have := hu.sub v (b + j) x z
  rw [← neg_sub x z, inner_neg_right] at this
  linarith

theorem ConvexSum.batch_norm (hu : ConvexSum u n loss gr Γ) (v : V) (x : Vec d) {b k B : Nat} (hk : k ≤ B) :
    ‖(u.evalGrad v x b k).2.2‖ ^ 2 ≤ B * Γ ^ 2 * k := by
  have h1 : ‖(u.evalGrad v x b k).2.2‖ ≤ k * Γ := by
    rw [hu.grad]
    refine (norm_sum_le _ _).trans ((Finset.sum_le_card_nsmul _ _ Γ fun j _ => hu.lip _ _ _).trans (le_of_eq ?_))
    simp
  have h2 := pow_le_pow_left₀ (norm_nonneg _) h1 2
  refine h2.trans ?_
  have : (k : ℝ) ≤ B := by exact_mod_cast hk
  have h3 : (0 : ℝ) ≤ k := by positivity
  nlinarith [mul_le_mul_of_nonneg_right this (mul_nonneg (sq_nonneg Γ) h3)]

/-! ### Vanilla updates -/

theorem vanilla_books (hu : ConvexSum u n loss gr Γ) {p : Params} (hp : p.numFunctions = n) {z : Vec d}
    (hstep : ∀ v y, ‖(u.cbStep v y).2.1 - z‖ ≤ ‖y - z‖) {a : ℝ} (D : ℝ) :
    Books (mkEnv (lift vanilla) (noDecay (Vec d) (Vec d)) u) p (fun w => loss w.2) z
      (fun i w x ρ => w.1.step = a ∧ 2 * a * ρ + ‖x - z‖ ^ 2 ≤ D + a ^ 2 * (p.batchSize * Γ ^ 2) * i ∧ 0 ≤ a) where
  add := hu.add
  zero := hu.zero
  divN := hu.divN
  begin_ := fun w x h => by
    show w.1.step = a ∧ 2 * a * 0 + ‖(u.cbBegin w.2 x).2 - z‖ ^ 2 ≤ _ ∧ _
    rw [hu.cbBegin]; exact h
  beginEpoch := fun _ _ _ _ _ _ h => h
  endEpoch := fun _ _ _ _ _ _ h => h
  shuffle := fun _ _ _ _ h => h
  batch := by
    intro i w x ρ b k _ hk _ _ ⟨h1, h2, h3⟩
    simp only [mkEnv, noDecay]
    refine ⟨⟨h1, ?_, h3⟩, ?_⟩
    · rw [hu.cbEvalGrad_grad, h1]
      set g := (u.evalGrad w.2 x b k).2.2 with hg
      have e1 : ((lift vanilla : UpdPol (Fin d → Unit) ℝ (Vec d) (Vec d)).upd w.1.upd x a g).2 = x - a • g := by
        ext i
        simp [lift, vanilla]
      rw [e1]
      have c1 := pow_le_pow_left₀ (norm_nonneg _) (hstep (u.cbEvalGrad (u.evalGrad w.2 x b k).1 x
        (u.evalGrad w.2 x b k).2.1 g).1 (x - a • g)) 2
      have c2 : ‖x - a • g - z‖ ^ 2 = ‖x - z‖ ^ 2 - 2 * a * inner ℝ g (x - z) + a ^ 2 * ‖g‖ ^ 2 := by
        rw [show x - a • g - z = (x - z) - a • g by abel, norm_sub_sq_real, real_inner_smul_right, norm_smul, mul_pow,
          Real.norm_eq_abs, sq_abs, real_inner_comm]
        ring
      have c3 := hu.batch_sub w.2 x z b k
      have c4 := hu.batch_norm w.2 x (b := b) hk
      rw [← hg] at c3 c4
      have c5 := mul_le_mul_of_nonneg_left c3 (by linarith : 0 ≤ 2 * a)
      have c6 := mul_le_mul_of_nonneg_left c4 (sq_nonneg a)
      have e2 : batchLoss (fun w : Live (Fin d → Unit) Unit Unit ℝ × V => loss w.2) w z b k = batchLoss loss w.2 z b k := rfl
      rw [e2]
      push_cast
      linarith
    · show loss (u.cbStep _ _).1 = loss w.2
      rw [hu.cbStep_keeps, hu.cbEvalGrad_keeps, hu.evalGrad_keeps]

/-- StandardSGD on a sum of `n` convex functions with `Γ`-bounded (sub)gradients, with or without shuffling, however the run
ends: for every point `z`, the mean losses reported at the ends of the epochs exceed the mean loss of `z` on average by at most
`‖x - z‖² / (2 α n E) + α b Γ² / 2`, where `E` is the number of epochs and `b` the batch size.  Callbacks may change the
coordinates after a step if that does not take them away from `z` (e.g. project them onto a convex set that contains `z`). -/
theorem C253_sgd_regret {p : Params} (hu : ConvexSum u p.numFunctions loss gr Γ) (hn : 0 < p.numFunctions)
    (hb : 0 < p.batchSize) {z : Vec d} (hstep : ∀ v y, ‖(u.cbStep v y).2.1 - z‖ ≤ ‖y - z‖)
    {o : Obj (Fin d → Unit) Unit Unit ℝ} (ha : 0 < o.step) {reset : Bool} {fuel : Nat} {v : V} {x : Vec d}
    {r : Result (Live (Fin d → Unit) Unit Unit ℝ × V) (Vec d) ℝ}
    (h : optimizeObj (lift vanilla) (noDecay (Vec d) (Vec d)) u p reset fuel o v x = .returned r)
    (hE : epochMeans r.trace ≠ []) :
    (epochMeans r.trace).sum / (epochMeans r.trace).length ≤
      (∑ j ∈ Finset.range p.numFunctions, loss v j z) / p.numFunctions +
        ‖x - z‖ ^ 2 / (2 * o.step * (p.numFunctions * (epochMeans r.trace).length)) + o.step * p.batchSize * Γ ^ 2 / 2 := by
  obtain ⟨w, y, -, hR, -⟩ := optimize_books (F := ∑ j ∈ Finset.range p.numFunctions, loss v j z)
    (vanilla_books hu rfl hstep (a := o.step) (‖x - z‖ ^ 2)) hn hb
    (fun w => by simp only [batchLoss, Nat.zero_add]; exact hu.order _ _ _)
    ⟨rfl, by simp, ha.le⟩ h
  set L := epochMeans r.trace with hL
  set F := ∑ j ∈ Finset.range p.numFunctions, loss v j z
  have hl : (0 : ℝ) < L.length := by
    have : 0 < L.length := List.length_pos_iff.2 hE
    exact_mod_cast this
  have hn' : (0 : ℝ) < p.numFunctions := by exact_mod_cast hn
  have h1 : 2 * o.step * (p.numFunctions * L.sum - L.length * F) ≤
      ‖x - z‖ ^ 2 + o.step ^ 2 * (p.batchSize * Γ ^ 2) * (L.length * p.numFunctions) := by
    have := sq_nonneg ‖y - z‖
    push_cast at hR
    linarith
  rw [div_le_iff₀ hl]
  have e : (F / p.numFunctions + ‖x - z‖ ^ 2 / (2 * o.step * (p.numFunctions * L.length)) +
      o.step * p.batchSize * Γ ^ 2 / 2) * L.length =
      (2 * o.step * (L.length * F) + ‖x - z‖ ^ 2 + o.step ^ 2 * (p.batchSize * Γ ^ 2) * (L.length * p.numFunctions)) /
        (2 * o.step * p.numFunctions) := by
    field_simp
  rw [e, le_div_iff₀ (by positivity)]
  linarith

/-! ### AdaGrad -/

/-- One coordinate of an AdaGrad step. -/
theorem ada_coord {s g x z D a ε : ℝ} (hs : 0 ≤ s) (ha : 0 < a) (hε : 0 < ε) (hx : (x - z) ^ 2 ≤ D ^ 2) :
    g * (x - z) ≤ ((√(s + g * g) + ε) * (D ^ 2 - (x - a * g / (√(s + g * g) + ε) - z) ^ 2) / (2 * a) + a * √(s + g * g)) -
      ((√s + ε) * (D ^ 2 - (x - z) ^ 2) / (2 * a) + a * √s) := by
  have hgg := mul_self_nonneg g
  set t := √s with ht
  set t' := √(s + g * g) with ht'
  have h1 : t' ^ 2 = s + g * g := Real.sq_sqrt (by linarith)
  have h2 : t ^ 2 = s := Real.sq_sqrt hs
  have h3 : 0 ≤ t := Real.sqrt_nonneg s
  have h4 : t ≤ t' := Real.sqrt_le_sqrt (by linarith)
  have hh : 0 < t' + ε := by linarith
  have e : (t' + ε) * (D ^ 2 - (x - a * g / (t' + ε) - z) ^ 2) / (2 * a) =
      (t' + ε) * (D ^ 2 - (x - z) ^ 2) / (2 * a) + g * (x - z) - a * (g * g) / (2 * (t' + ε)) := by
    field_simp
    ring
  rw [e]
  have k1 : (t + ε) * (D ^ 2 - (x - z) ^ 2) / (2 * a) ≤ (t' + ε) * (D ^ 2 - (x - z) ^ 2) / (2 * a) := by
    apply div_le_div_of_nonneg_right _ (by linarith)
    exact mul_le_mul_of_nonneg_right (by linarith) (by linarith)
  have k2 : a * (g * g) / (2 * (t' + ε)) ≤ a * t' - a * t := by
    rw [div_le_iff₀ (by linarith)]
    have : g * g = (t' - t) * (t' + t) := by nlinarith
    rw [this]
    have k3 : (t' - t) * (t' + t) ≤ (t' - t) * (2 * (t' + ε)) := mul_le_mul_of_nonneg_left (by linarith) (by linarith)
    nlinarith
  linarith

theorem adaGrad_books (hu : ConvexSum u n loss gr Γ) {p : Params} {z : Vec d} {D : ℝ}
    (hstep : ∀ v y i, |(u.cbStep v y).2.1 i - z i| ≤ |y i - z i|) (hbox : ∀ v y i, |(u.cbStep v y).2.1 i - z i| ≤ D)
    {a ε : ℝ} (ha : 0 < a) (hε : 0 < ε) :
    Books (mkEnv (lift (adaGrad ε)) (noDecay (Vec d) (Vec d)) u) p (fun w => loss w.2) z
      (fun i w x ρ => w.1.step = a ∧ (∀ c, 0 ≤ w.1.upd c) ∧ ∑ c, w.1.upd c ≤ p.batchSize * Γ ^ 2 * i ∧
        (∀ c, |x c - z c| ≤ D) ∧
        ρ ≤ ∑ c, ((√(w.1.upd c) + ε) * (D ^ 2 - (x c - z c) ^ 2) / (2 * a) + a * √(w.1.upd c))) where
  add := hu.add
  zero := hu.zero
  divN := hu.divN
  begin_ := fun w x h => by
    simp only [mkEnv, hu.cbBegin]
    exact h
  beginEpoch := fun _ _ _ _ _ _ h => h
  endEpoch := fun _ _ _ _ _ _ h => h
  shuffle := fun _ _ _ _ h => h
  batch := by
    intro i w x ρ b k _ hk _ _ ⟨h1, h2, h3, h4, h5⟩
    simp only [mkEnv, noDecay]
    rw [hu.cbEvalGrad_grad, h1]
    set g := (u.evalGrad w.2 x b k).2.2 with hg
    have e0 : ∀ c, ((lift (adaGrad ε) : UpdPol (Fin d → ℝ) ℝ (Vec d) (Vec d)).upd w.1.upd x a g).1 c = w.1.upd c + g c * g c := by
      intro c; simp [lift, adaGrad]
    have e1 : ∀ c, ((lift (adaGrad ε) : UpdPol (Fin d → ℝ) ℝ (Vec d) (Vec d)).upd w.1.upd x a g).2 c =
        x c - a * g c / (√(w.1.upd c + g c * g c) + ε) := by
      intro c; simp [lift, adaGrad]
    have c4 := hu.batch_norm w.2 x (b := b) hk
    rw [← hg, EuclideanSpace.norm_sq_eq] at c4
    refine ⟨⟨rfl, ?_, ?_, ?_, ?_⟩, ?_⟩
    · intro c
      rw [e0]
      have := h2 c
      have := mul_self_nonneg (g c)
      linarith
    · simp only [e0]
      rw [Finset.sum_add_distrib]
      have : ∑ c, g c * g c = ∑ c, ‖g c‖ ^ 2 := Finset.sum_congr rfl fun c _ => by rw [Real.norm_eq_abs, sq_abs, sq]
      rw [this]
      push_cast
      linarith
    · intro c
      exact hbox _ _ c
    · have c3 := hu.batch_sub w.2 x z b k
      rw [← hg, PiLp.inner_apply] at c3
      have e2 : batchLoss (fun w : Live (Fin d → ℝ) Unit Unit ℝ × V => loss w.2) w z b k = batchLoss loss w.2 z b k := rfl
      rw [e2]
      refine (by linarith : ρ + (u.evalGrad w.2 x b k).2.1 - batchLoss loss w.2 z b k ≤
        ∑ c, ((√(w.1.upd c) + ε) * (D ^ 2 - (x c - z c) ^ 2) / (2 * a) + a * √(w.1.upd c)) +
          ∑ c, inner ℝ (g c) ((x - z) c)).trans ?_
      rw [← Finset.sum_add_distrib]
      refine Finset.sum_le_sum fun c _ => ?_
      rw [e0]
      have hD : (x c - z c) ^ 2 ≤ D ^ 2 := by
        rw [← sq_abs]
        exact pow_le_pow_left₀ (abs_nonneg _) (h4 c) 2
      have k1 := ada_coord (g := g c) (h2 c) ha hε hD
      have k2 := hstep (u.cbEvalGrad (u.evalGrad w.2 x b k).1 x (u.evalGrad w.2 x b k).2.1 g).1
        ((lift (adaGrad ε) : UpdPol (Fin d → ℝ) ℝ (Vec d) (Vec d)).upd w.1.upd x a g).2 c
      rw [e1] at k2
      have k3 := pow_le_pow_left₀ (abs_nonneg _) k2 2
      rw [sq_abs, sq_abs] at k3
      have k4 : inner ℝ (g c) ((x - z) c) = g c * (x c - z c) := by
        simp [mul_comm]
      rw [k4]
      have k5 : (√(w.1.upd c + g c * g c) + ε) * (D ^ 2 - (x c - a * g c / (√(w.1.upd c + g c * g c) + ε) - z c) ^ 2) / (2 * a) ≤
          (√(w.1.upd c + g c * g c) + ε) * (D ^ 2 - ((u.cbStep (u.cbEvalGrad (u.evalGrad w.2 x b k).1 x
            (u.evalGrad w.2 x b k).2.1 g).1 ((lift (adaGrad ε) : UpdPol (Fin d → ℝ) ℝ (Vec d) (Vec d)).upd w.1.upd x a g).2).2.1 c -
              z c) ^ 2) / (2 * a) := by
        apply div_le_div_of_nonneg_right _ (by linarith)
        have : 0 ≤ √(w.1.upd c + g c * g c) + ε := by positivity
        exact mul_le_mul_of_nonneg_left (by linarith) this
      linarith
    · show loss (u.cbStep _ _).1 = loss w.2
      rw [hu.cbStep_keeps, hu.cbEvalGrad_keeps, hu.evalGrad_keeps]

/-- AdaGrad on a sum of `n` convex functions with `Γ`-bounded (sub)gradients, with or without shuffling, however the run ends,
with callbacks that keep the coordinates within a box around `z` (e.g. clip them to bounds between which `z` lies): the mean
losses reported at the ends of the epochs exceed the mean loss of `z` on average by at most
`d (D² (√S + ε) / (2 α) + α √S) / (n E)` with `S = b Γ² n E`, whatever the step size `α`; this tends to zero with the number of
epochs `E`. -/
theorem C254_adaGrad_regret {p : Params} (hu : ConvexSum u p.numFunctions loss gr Γ) (hn : 0 < p.numFunctions)
    (hb : 0 < p.batchSize) {z : Vec d} {D : ℝ} (hstep : ∀ v y i, |(u.cbStep v y).2.1 i - z i| ≤ |y i - z i|)
    (hbox : ∀ v y i, |(u.cbStep v y).2.1 i - z i| ≤ D) {a ε : ℝ} (ha : 0 < a) (hε : 0 < ε) {fuel : Nat} {v : V}
    {x : Vec d} (hx : ∀ i, |x i - z i| ≤ D) {r : Result (Live (Fin d → ℝ) Unit Unit ℝ × V) (Vec d) ℝ}
    (h : optimizeObj (lift (adaGrad ε)) (noDecay (Vec d) (Vec d)) u p true fuel (Obj.new a ()) v x = .returned r)
    (hE : epochMeans r.trace ≠ []) :
    (epochMeans r.trace).sum / (epochMeans r.trace).length ≤
      (∑ j ∈ Finset.range p.numFunctions, loss v j z) / p.numFunctions +
        d * (D ^ 2 * (√(p.batchSize * Γ ^ 2 * (p.numFunctions * (epochMeans r.trace).length)) + ε) / (2 * a) +
          a * √(p.batchSize * Γ ^ 2 * (p.numFunctions * (epochMeans r.trace).length))) /
            (p.numFunctions * (epochMeans r.trace).length) := by
  have h0 : (0 : ℝ) ≤ ∑ c : Fin d, ((√(0 : ℝ) + ε) * (D ^ 2 - (x c - z c) ^ 2) / (2 * a) + a * √(0 : ℝ)) := by
    refine Finset.sum_nonneg fun c _ => ?_
    have hD : (x c - z c) ^ 2 ≤ D ^ 2 := by
      rw [← sq_abs]
      exact pow_le_pow_left₀ (abs_nonneg _) (hx c) 2
    have : 0 ≤ D ^ 2 - (x c - z c) ^ 2 := by linarith
    positivity
  obtain ⟨w, y, -, hw, hS, -, hR⟩ := optimize_books (F := ∑ j ∈ Finset.range p.numFunctions, loss v j z)
    (adaGrad_books hu hstep hbox ha hε) hn hb
    (fun w => by simp only [batchLoss, Nat.zero_add]; exact hu.order _ _ _)
    ⟨rfl, fun c => le_rfl, by simp [prologue, Obj.new, lift, adaGrad], hx, h0⟩ h
  set L := epochMeans r.trace with hL
  set F := ∑ j ∈ Finset.range p.numFunctions, loss v j z
  have hl : (0 : ℝ) < L.length := by
    have : 0 < L.length := List.length_pos_iff.2 hE
    exact_mod_cast this
  have hn' : (0 : ℝ) < p.numFunctions := by exact_mod_cast hn
  push_cast at hS
  rw [mul_comm (L.length : ℝ)] at hS
  set S := (p.batchSize : ℝ) * Γ ^ 2 * (p.numFunctions * L.length) with hSd
  have h1 : p.numFunctions * L.sum - L.length * F ≤ d * (D ^ 2 * (√S + ε) / (2 * a) + a * √S) := by
    refine hR.trans ((Finset.sum_le_card_nsmul _ _ (D ^ 2 * (√S + ε) / (2 * a) + a * √S) fun c _ => ?_).trans (le_of_eq ?_))
    · have hc : w.1.upd c ≤ S :=
        (Finset.single_le_sum (f := fun c => w.1.upd c) (fun c _ => hw c) (Finset.mem_univ c)).trans hS
      have hr : √(w.1.upd c) ≤ √S := Real.sqrt_le_sqrt hc
      have hq := Real.sqrt_nonneg (w.1.upd c)
      have k1 : (√(w.1.upd c) + ε) * (D ^ 2 - (y c - z c) ^ 2) ≤ D ^ 2 * (√S + ε) := by
        nlinarith [mul_nonneg (by linarith : 0 ≤ √(w.1.upd c) + ε) (sq_nonneg (y c - z c)),
          mul_nonneg (sub_nonneg.2 hr) (sq_nonneg D)]
      have k2 := div_le_div_of_nonneg_right k1 (by linarith : 0 ≤ 2 * a)
      have k3 := mul_le_mul_of_nonneg_left hr ha.le
      linarith
    · rw [Finset.card_univ, Fintype.card_fin, nsmul_eq_mul]
  set T := (d : ℝ) * (D ^ 2 * (√S + ε) / (2 * a) + a * √S)
  rw [div_le_iff₀ hl]
  have e : (F / p.numFunctions + T / (p.numFunctions * L.length)) * L.length = (L.length * F + T) / p.numFunctions := by
    field_simp
  rw [e, le_div_iff₀ hn']
  linarith

/-- The bound of `C254_adaGrad_regret` tends to zero. -/
theorem C254_adaGrad_limit (d : Nat) (D Γ a ε : ℝ) {b n : Nat} (hn : 0 < n) : Filter.Tendsto (fun E : Nat =>
    d * (D ^ 2 * (√(b * Γ ^ 2 * (n * E)) + ε) / (2 * a) + a * √(b * Γ ^ 2 * (n * E))) / (n * E)) Filter.atTop (nhds 0) := by
  have hn' : (n : ℝ) ≠ 0 := by exact_mod_cast hn.ne'
  have h1 : Filter.Tendsto (fun E : Nat => (1 : ℝ) / √(E : ℝ)) Filter.atTop (nhds 0) := by
    have := (Real.tendsto_sqrt_atTop.comp tendsto_natCast_atTop_atTop).inv_tendsto_atTop (α := Nat) (𝕜 := ℝ)
    refine this.congr fun E => ?_
    simp
  have h2 : Filter.Tendsto (fun E : Nat => (1 : ℝ) / (E : ℝ)) Filter.atTop (nhds 0) := tendsto_one_div_atTop_nhds_zero_nat
  have h3 := ((h1.const_mul (d * (D ^ 2 / (2 * a) + a) * √(b * Γ ^ 2 * n) / n)).add
    (h2.const_mul (d * D ^ 2 * ε / (2 * a) / n)))
  rw [mul_zero, mul_zero, add_zero] at h3
  refine h3.congr fun E => ?_
  have hq : √((b : ℝ) * Γ ^ 2 * (n * E)) = √(b * Γ ^ 2 * n) * √(E : ℝ) := by
    rw [← Real.sqrt_mul (by positivity)]
    congr 1
    ring
  rw [hq]
  rcases Nat.eq_zero_or_pos E with h | h
  · subst h; simp
  · have hE : (0 : ℝ) < E := by exact_mod_cast h
    have hs : √(E : ℝ) * √(E : ℝ) = E := Real.mul_self_sqrt hE.le
    have hsp : 0 < √(E : ℝ) := Real.sqrt_pos.2 hE
    have e : (1 : ℝ) / √(E : ℝ) = √(E : ℝ) / E := by
      rw [div_eq_div_iff hsp.ne' hE.ne', one_mul, hs]
    rw [e]
    ring

/-- In some epoch the mean loss is at most the average one, so the bounds also hold for the best epoch. -/
theorem best_epoch {L : List ℝ} (hL : L ≠ []) : ∃ m ∈ L, m ≤ L.sum / L.length := by
  by_contra hcon
  push Not at hcon
  have h : ∀ (L : List ℝ) (c : ℝ), L ≠ [] → (∀ m ∈ L, c < m) → c * L.length < L.sum := by
    intro L c hne h
    induction L with
    | nil => exact absurd rfl hne
    | cons a t ih =>
      rw [List.sum_cons, List.length_cons]
      push_cast
      have h1 := h a (by simp)
      by_cases ht : t = []
      · subst ht; simpa using h1
      · have := ih ht fun m hm => h m (by simp [hm])
        linarith
  have h1 := h L _ hL hcon
  have hl : (0 : ℝ) < L.length := by
    have : 0 < L.length := List.length_pos_iff.2 hL
    exact_mod_cast this
  rw [div_mul_cancel₀ _ hl.ne'] at h1
  exact lt_irrefl _ h1

/-! ### A case -/

/-- A sum of three times the Euclidean norm; coordinates are clipped to [-1, 1] after every step. -/
noncomputable def normUser : User Unit (Vec d) (Vec d) ℝ where
  evalGrad := fun _ x _ k => ((), ∑ _j ∈ Finset.range k, ‖x‖, ∑ _j ∈ Finset.range k, ‖x‖⁻¹ • x)
  evaluate := fun _ x _ k => ((), ∑ _j ∈ Finset.range k, ‖x‖)
  shuffle := fun v => v
  cbBegin := fun _ x => ((), x)
  cbBeginEpoch := fun _ _ _ _ => ((), false)
  cbEvalGrad := fun _ _ _ g => ((), g, false)
  cbStep := fun _ x => ((), WithLp.toLp 2 fun i => max (-1) (min 1 (x i)), false)
  cbEndEpoch := fun _ _ _ _ => ((), false)
  cbEvaluate := fun _ _ _ => ((), false)
  cbEnd := fun _ x => ((), x)
  add := fun a b => a + b
  zero := 0
  divN := fun a k => a / k
  dblMax := 10 ^ 300
  isBad := fun _ => false
  isClose := fun _ _ => false

theorem normUser_convex : ConvexSum (normUser (d := d)) 3 (fun _ _ x => ‖x‖) (fun _ _ x => ‖x‖⁻¹ • x) 1 where
  value := fun _ _ _ _ => rfl
  grad := fun _ _ _ _ => rfl
  sub := by
    intro _ _ x y
    rcases eq_or_ne x 0 with h | h
    · subst h; simp
    · have hx : 0 < ‖x‖ := norm_pos_iff.2 h
      rw [inner_sub_right, real_inner_smul_left, real_inner_smul_left, real_inner_self_eq_norm_sq]
      have h1 := real_inner_le_norm x y
      have h2 : ‖x‖⁻¹ * inner ℝ x y ≤ ‖y‖ := by
        rw [inv_mul_le_iff₀ hx]; exact h1
      have h3 : ‖x‖⁻¹ * ‖x‖ ^ 2 = ‖x‖ := by field_simp
      linarith
  lip := by
    intro _ _ x
    rw [norm_smul, norm_inv, norm_norm]
    rcases eq_or_ne x 0 with h | h
    · subst h; simp
    · rw [inv_mul_cancel₀ (norm_ne_zero_iff.2 h)]
  order := fun _ _ _ => rfl
  evalGrad_keeps := fun _ _ _ _ => rfl
  cbEvalGrad_keeps := fun _ _ _ _ => rfl
  cbEvalGrad_grad := fun _ _ _ _ => rfl
  cbStep_keeps := fun _ _ => rfl
  cbBegin := fun _ _ => rfl
  add := fun _ _ => rfl
  zero := rfl
  divN := fun _ _ => rfl

theorem normUser_step (v : Unit) (y : Vec d) (i : Fin d) : |(normUser.cbStep v y).2.1 i - (0 : Vec d) i| ≤ |y i - (0 : Vec d) i| ∧
    |(normUser.cbStep v y).2.1 i - (0 : Vec d) i| ≤ 1 := by
  simp only [normUser, PiLp.zero_apply, sub_zero]
  constructor
  · rcases le_total 0 (y i) with h | h
    · have : 0 ≤ max (-1) (min 1 (y i)) := le_max_of_le_right (le_min zero_le_one h)
      rw [abs_of_nonneg this, abs_of_nonneg h]
      exact max_le (by linarith) (min_le_right _ _)
    · have : max (-1) (min 1 (y i)) ≤ 0 := max_le (by norm_num) (min_le_of_right_le h)
      rw [abs_of_nonpos this, abs_of_nonpos h]
      have : min 1 (y i) = y i := min_eq_right (by linarith)
      rw [this]
      have := le_max_right (-1) (y i)
      linarith
  · rw [abs_le]
    exact ⟨le_max_left _ _, max_le (by norm_num) (min_le_left _ _)⟩

/-- Number of epochs that a run reported. -/
def epochsOf {W M : Type} : Outcome W M ℝ → Nat
  | .returned r => (epochMeans r.trace).length
  | _ => 0

/-- A run with two epochs of batches of 2 and 1 functions. -/
noncomputable def normRun : Outcome (Live (Fin 1 → ℝ) Unit Unit ℝ × Unit) (Vec 1) ℝ :=
  optimizeObj (lift (adaGrad 1)) (noDecay (Vec 1) (Vec 1)) normUser ⟨3, 2, 6, false, false⟩ true 6 (Obj.new 1 ()) ()
    (WithLp.toLp 2 fun _ => 1)

theorem normRun_epochs : epochsOf normRun = 2 := by decide +kernel

/-- The theorem applies to that run. -/
example : ∃ r, normRun = .returned r ∧ (epochMeans r.trace).length = 2 ∧
    (epochMeans r.trace).sum / 2 ≤ 1 * (1 ^ 2 * (√(2 * 1 ^ 2 * (3 * 2)) + 1) / (2 * 1) + 1 * √(2 * 1 ^ 2 * (3 * 2))) / (3 * 2) := by
  have hE := normRun_epochs
  cases hr : normRun with
  | ub => rw [hr] at hE; cases hE
  | diverges => rw [hr] at hE; cases hE
  | returned r =>
    rw [hr] at hE
    have hE' : (epochMeans r.trace).length = 2 := hE
    refine ⟨r, rfl, hE', ?_⟩
    have h := C254_adaGrad_regret (p := ⟨3, 2, 6, false, false⟩) (normUser_convex (d := 1)) (by norm_num) (by norm_num) (z := 0)
      (D := 1) (fun v y i => (normUser_step v y i).1) (fun v y i => (normUser_step v y i).2) (a := 1) (ε := 1) one_pos one_pos
      (fuel := 6) (v := ()) (x := WithLp.toLp 2 fun _ => 1) (by simp) hr
      (by intro h; rw [h] at hE'; cases hE')
    rw [hE'] at h
    simpa using h

end Ens.Converge
