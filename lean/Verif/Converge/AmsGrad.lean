import Mathlib.Analysis.SpecialFunctions.Pow.Real
import Verif.Converge.RegretProps

/-
C258: AMSGrad and Padam on a sum of convex functions: the mean losses reported at the ends of the epochs, compared with the
loss of any point `z` between the bounds to which a callback clips the coordinates.
-/

namespace Ens.Converge

open Ens.Sgd Ens.Update

variable {V : Type} {d : Nat}

/-- The common form of AMSGrad and Padam (`adam/amsgrad_update.hpp:87-126`, `padam/padam_update.hpp:96-134`): the running
maximum of the second moments enters the denominator through `den`. -/
noncomputable def maxMom (b1 b2 : ℝ) (den : ℝ → ℝ) : Policy MomMax :=
  ⟨⟨0, 0, 0, 0⟩, fun s a g x =>
    let t := s.t + 1
    let m := s.m * b1 + (1 - b1) * g
    let v := s.v * b2 + (1 - b2) * (g * g)
    let vi := max s.vi v
    (⟨m, v, vi, t⟩, x - a * √(1 - b2 ^ t) / (1 - b1 ^ t) * m / den vi)⟩

theorem amsGrad_eq (b : Betas) : amsGrad b = maxMom b.b1 b.b2 (fun v => √v + b.eps) := rfl

theorem padam_eq (b : Betas) (part : ℝ) : padam b part = maxMom b.b1 b.b2 (fun v => (v + b.eps) ^ part) := rfl

/-- What holds of the moments as long as the gradients are at most `G`. -/
structure MomOk (b2 G : ℝ) (s : MomMax) : Prop where
  m : |s.m| ≤ G
  v0 : 0 ≤ s.v
  vi0 : 0 ≤ s.vi
  vi : s.vi ≤ G ^ 2
  v : s.v ≤ G ^ 2
  mv : (1 - b2) * s.m ^ 2 ≤ s.vi

/-- Requirements on the denominator. -/
structure DenOk (den : ℝ → ℝ) (G K : ℝ) : Prop where
  mono : ∀ s t, 0 ≤ s → s ≤ t → den s ≤ den t
  pos : ∀ s, 0 ≤ s → 0 < den s
  sqrt : ∀ s, 0 ≤ s → s ≤ G ^ 2 → √s ≤ K * den s

variable {b1 b2 a G K D : ℝ} {den : ℝ → ℝ}

theorem momOk_step (h1 : 0 ≤ b1) (h1' : b1 < 1) (h2 : 0 ≤ b2) (h2' : b2 < 1) {s : MomMax} (hs : MomOk b2 G s) {g : ℝ}
    (hg : |g| ≤ G) (x : ℝ) : MomOk b2 G ((maxMom b1 b2 den).update s a g x).1 := by
  have hG : 0 ≤ G := (abs_nonneg g).trans hg
  have hgg : g * g ≤ G ^ 2 := by
    rw [← sq, ← sq_abs]; exact pow_le_pow_left₀ (abs_nonneg _) hg 2
  have hg0 := mul_self_nonneg g
  have hv : s.v * b2 + (1 - b2) * (g * g) ≤ G ^ 2 := by nlinarith [hs.v, hs.v0]
  have hv0 : 0 ≤ s.v * b2 + (1 - b2) * (g * g) := by nlinarith [hs.v0, mul_nonneg hs.v0 h2]
  refine ⟨?_, hv0, le_max_of_le_left hs.vi0, max_le hs.vi hv, hv, ?_⟩
  · show |s.m * b1 + (1 - b1) * g| ≤ G
    refine (abs_add_le _ _).trans ?_
    rw [abs_mul, abs_mul, abs_of_nonneg h1, abs_of_nonneg (by linarith : 0 ≤ 1 - b1)]
    nlinarith [hs.m]
  · show (1 - b2) * (s.m * b1 + (1 - b1) * g) ^ 2 ≤ max s.vi (s.v * b2 + (1 - b2) * (g * g))
    have c1 : (s.m * b1 + (1 - b1) * g) ^ 2 ≤ b1 * s.m ^ 2 + (1 - b1) * (g * g) := by
      nlinarith [mul_nonneg (mul_nonneg h1 (by linarith : 0 ≤ 1 - b1)) (sq_nonneg (s.m - g))]
    have c2 : (1 - b2) * (g * g) ≤ max s.vi (s.v * b2 + (1 - b2) * (g * g)) :=
      le_max_of_le_right (by linarith [mul_nonneg hs.v0 h2])
    have c3 : (1 - b2) * s.m ^ 2 ≤ max s.vi (s.v * b2 + (1 - b2) * (g * g)) := hs.mv.trans (le_max_left _ _)
    have c4 := mul_le_mul_of_nonneg_left c1 (by linarith : 0 ≤ 1 - b2)
    nlinarith [mul_le_mul_of_nonneg_left c3 h1, mul_le_mul_of_nonneg_left c2 (by linarith : 0 ≤ 1 - b1)]

/-- Half the inverse step of a coordinate, without the correction of the second moment. -/
noncomputable def halfInv (b1 a : ℝ) (den : ℝ → ℝ) (s : MomMax) : ℝ := den s.vi * (1 - b1 ^ s.t) / (2 * a)

/-- Regret per step in the limit. -/
noncomputable def stepLoss (b1 b2 a K G : ℝ) : ℝ := (1 + b1) / (2 * (1 - b1)) * (a * K * G / ((1 - b1) * √(1 - b2)))

/-- The potential of one coordinate. -/
noncomputable def maxPot (b1 b2 a K G D z : ℝ) (den : ℝ → ℝ) (s : MomMax) (x : ℝ) : ℝ :=
  b1 / (1 - b1) * (s.m * (x - z)) +
    halfInv b1 a den s * (D ^ 2 / √(1 - b2) - (x - z) ^ 2 / √(1 - b2 ^ s.t)) + s.t * stepLoss b1 b2 a K G

/-- One coordinate of a step. -/
theorem max_coord (h1 : 0 ≤ b1) (h1' : b1 < 1) (h2 : 0 ≤ b2) (h2' : b2 < 1) (ha : 0 < a) (hd : DenOk den G K) {s : MomMax}
    (hs : MomOk b2 G s) {g x y z : ℝ} (hg : |g| ≤ G) (hx : |x - z| ≤ D)
    (hyz : |y - z| ≤ |((maxMom b1 b2 den).update s a g x).2 - z|)
    (hyx : |y - x| ≤ |((maxMom b1 b2 den).update s a g x).2 - x|) :
    g * (x - z) ≤ maxPot b1 b2 a K G D z den ((maxMom b1 b2 den).update s a g x).1 y - maxPot b1 b2 a K G D z den s x := by
  have hs' := momOk_step (a := a) (den := den) h1 h1' h2 h2' hs hg x
  set s' := ((maxMom b1 b2 den).update s a g x).1 with hs'd
  have ht : s'.t = s.t + 1 := rfl
  have hm : s'.m = s.m * b1 + (1 - b1) * g := rfl
  have hvi : s.vi ≤ s'.vi := le_max_left _ _
  set S := √(1 - b2 ^ s'.t) with hS
  set B := 1 - b1 ^ s'.t with hB
  set h := den s'.vi with hh
  have hxn : ((maxMom b1 b2 den).update s a g x).2 = x - a * S / B * s'.m / h := rfl
  rw [hxn] at hyz hyx
  have hb1 : 0 < 1 - b1 := by linarith
  have hb2 : 0 < 1 - b2 := by linarith
  have hB1 : 1 - b1 ≤ B := by
    have : b1 ^ s'.t ≤ b1 := by rw [ht]; exact pow_le_of_le_one h1 h1'.le (Nat.succ_ne_zero _)
    rw [hB]; linarith
  have hBp : 0 < B := by linarith
  have hS1 : √(1 - b2) ≤ S := by
    apply Real.sqrt_le_sqrt
    have : b2 ^ s'.t ≤ b2 := by rw [ht]; exact pow_le_of_le_one h2 h2'.le (Nat.succ_ne_zero _)
    linarith
  have hq : 0 < √(1 - b2) := Real.sqrt_pos.2 hb2
  have hSp : 0 < S := hq.trans_le hS1
  have hSle : S ≤ 1 := by
    rw [hS]
    refine Real.sqrt_le_one.2 ?_
    have := pow_nonneg h2 s'.t
    linarith
  have hhp : 0 < h := hd.pos _ hs'.vi0
  have hG : 0 ≤ G := (abs_nonneg g).trans hg
  set η := a * S / B / h with hη
  have hηp : 0 < η := by positivity
  have e1 : a * S / B * s'.m / h = η * s'.m := by rw [hη]; ring
  rw [e1] at hyz hyx
  -- the moments
  have k1 : g * (x - z) = s'.m * (x - z) + b1 / (1 - b1) * (s'.m * (y - z) - s.m * (x - z)) +
      b1 / (1 - b1) * (s'.m * (x - y)) := by
    rw [hm]
    field_simp
    ring
  -- the movement
  have k2 : s'.m * (x - y) ≤ η * s'.m ^ 2 := by
    have : |x - y| ≤ η * |s'.m| := by
      rw [abs_sub_comm]
      refine hyx.trans (le_of_eq ?_)
      rw [show x - η * s'.m - x = -(η * s'.m) by ring, abs_neg, abs_mul, abs_of_pos hηp]
    calc s'.m * (x - y) ≤ |s'.m * (x - y)| := le_abs_self _
      _ = |s'.m| * |x - y| := abs_mul _ _
      _ ≤ |s'.m| * (η * |s'.m|) := mul_le_mul_of_nonneg_left this (abs_nonneg _)
      _ = η * |s'.m| ^ 2 := by ring
      _ = η * s'.m ^ 2 := by rw [sq_abs]
  have k3 : s'.m * (x - z) ≤ 1 / (2 * η) * ((x - z) ^ 2 - (y - z) ^ 2) + η * s'.m ^ 2 / 2 := by
    have c1 := pow_le_pow_left₀ (abs_nonneg _) hyz 2
    rw [sq_abs, sq_abs] at c1
    have c2 : (x - η * s'.m - z) ^ 2 = (x - z) ^ 2 - 2 * η * (s'.m * (x - z)) + η ^ 2 * s'.m ^ 2 := by ring
    have c3 : s'.m * (x - z) = 1 / (2 * η) * (2 * η * (s'.m * (x - z))) := by field_simp
    have c4 : 1 / (2 * η) * ((x - z) ^ 2 - (y - z) ^ 2) + η * s'.m ^ 2 / 2 =
        1 / (2 * η) * ((x - z) ^ 2 - (y - z) ^ 2 + η ^ 2 * s'.m ^ 2) := by field_simp
    rw [c3, c4]
    exact mul_le_mul_of_nonneg_left (by linarith) (by positivity)
  -- the square of the step
  have k4 : η * s'.m ^ 2 ≤ a * K * G / ((1 - b1) * √(1 - b2)) := by
    have c1 : √(1 - b2) * |s'.m| ≤ K * h := by
      refine le_trans ?_ (hd.sqrt _ hs'.vi0 hs'.vi)
      refine Real.le_sqrt_of_sq_le ?_
      rw [mul_pow, Real.sq_sqrt hb2.le, sq_abs]
      exact hs'.mv
    have c2 : √(1 - b2) * s'.m ^ 2 ≤ K * h * G := by
      rw [← sq_abs]
      calc √(1 - b2) * |s'.m| ^ 2 = √(1 - b2) * |s'.m| * |s'.m| := by ring
        _ ≤ K * h * G := mul_le_mul c1 hs'.m (abs_nonneg _) ((mul_nonneg hq.le (abs_nonneg _)).trans c1)
    have hKh : 0 ≤ K * h := (mul_nonneg hq.le (abs_nonneg _)).trans c1
    rw [le_div_iff₀ (by positivity)]
    have c3 : η * s'.m ^ 2 * ((1 - b1) * √(1 - b2)) = a / h * (S * (√(1 - b2) * s'.m ^ 2)) * ((1 - b1) / B) := by
      rw [hη]; ring
    have c4 : (1 - b1) / B ≤ 1 := (div_le_one hBp).2 hB1
    have c5 : S * (√(1 - b2) * s'.m ^ 2) ≤ K * h * G := by
      have : 0 ≤ √(1 - b2) * s'.m ^ 2 := by positivity
      nlinarith
    have c6 : a / h * (S * (√(1 - b2) * s'.m ^ 2)) ≤ a / h * (K * h * G) := mul_le_mul_of_nonneg_left c5 (by positivity)
    rw [c3]
    calc a / h * (S * (√(1 - b2) * s'.m ^ 2)) * ((1 - b1) / B) ≤ a / h * (S * (√(1 - b2) * s'.m ^ 2)) * 1 :=
          mul_le_mul_of_nonneg_left c4 (by positivity)
      _ ≤ a / h * (K * h * G) := by rw [mul_one]; exact c6
      _ = a * K * G := by field_simp
  -- the weights
  have hu' : halfInv b1 a den s' = h * B / (2 * a) := rfl
  have k5 : 1 / (2 * η) = halfInv b1 a den s' / S := by
    rw [hu', hη]; field_simp
  have hu : halfInv b1 a den s ≤ halfInv b1 a den s' := by
    unfold halfInv
    apply div_le_div_of_nonneg_right _ (by linarith)
    have c1 : b1 ^ s'.t ≤ b1 ^ s.t := by rw [ht]; exact pow_le_pow_of_le_one h1 h1'.le (Nat.le_succ _)
    have c2 : b1 ^ s.t ≤ 1 := pow_le_one₀ h1 h1'.le
    exact mul_le_mul (hd.mono _ _ hs.vi0 hvi) (by linarith) (by linarith) hhp.le
  have hu0 : 0 ≤ halfInv b1 a den s := by
    unfold halfInv
    have c2 : b1 ^ s.t ≤ 1 := pow_le_one₀ h1 h1'.le
    have := hd.pos _ hs.vi0
    have : 0 ≤ 1 - b1 ^ s.t := by linarith
    positivity
  have hxD : (x - z) ^ 2 ≤ D ^ 2 := by
    rw [← sq_abs]; exact pow_le_pow_left₀ (abs_nonneg _) hx 2
  have k6 : halfInv b1 a den s' / S * (x - z) ^ 2 - halfInv b1 a den s / √(1 - b2 ^ s.t) * (x - z) ^ 2 ≤
      (halfInv b1 a den s' - halfInv b1 a den s) * (D ^ 2 / √(1 - b2)) := by
    have c1 : halfInv b1 a den s / S ≤ halfInv b1 a den s / √(1 - b2 ^ s.t) := by
      rcases Nat.eq_zero_or_pos s.t with h0 | h0
      · have : halfInv b1 a den s = 0 := by simp [halfInv, h0]
        rw [this]; simp
      · have hlt : b2 ^ s.t < 1 := pow_lt_one₀ h2 h2' h0.ne'
        apply div_le_div_of_nonneg_left hu0 (Real.sqrt_pos.2 (by linarith))
        apply Real.sqrt_le_sqrt
        have : b2 ^ s'.t ≤ b2 ^ s.t := by rw [ht]; exact pow_le_pow_of_le_one h2 h2'.le (Nat.le_succ _)
        linarith
    have c2 := mul_le_mul_of_nonneg_right c1 (sq_nonneg (x - z))
    have c3 : (x - z) ^ 2 / S ≤ D ^ 2 / √(1 - b2) := div_le_div₀ (sq_nonneg _) hxD hq hS1
    have c4 := mul_le_mul_of_nonneg_left c3 (by linarith : 0 ≤ halfInv b1 a den s' - halfInv b1 a den s)
    have c5 : (halfInv b1 a den s' - halfInv b1 a den s) * ((x - z) ^ 2 / S) =
        halfInv b1 a den s' / S * (x - z) ^ 2 - halfInv b1 a den s / S * (x - z) ^ 2 := by ring
    linarith
  rw [k5] at k3
  have hκ : 0 ≤ b1 / (1 - b1) := by positivity
  have k7 := mul_le_mul_of_nonneg_left k2 hκ
  have k8 : η * s'.m ^ 2 / 2 + b1 / (1 - b1) * (η * s'.m ^ 2) ≤ stepLoss b1 b2 a K G := by
    have : η * s'.m ^ 2 / 2 + b1 / (1 - b1) * (η * s'.m ^ 2) = (1 + b1) / (2 * (1 - b1)) * (η * s'.m ^ 2) := by
      field_simp; ring
    rw [this]
    exact mul_le_mul_of_nonneg_left k4 (by positivity)
  have e3 : maxPot b1 b2 a K G D z den s' y - maxPot b1 b2 a K G D z den s x =
      b1 / (1 - b1) * (s'.m * (y - z) - s.m * (x - z)) + (halfInv b1 a den s' - halfInv b1 a den s) * (D ^ 2 / √(1 - b2)) -
        halfInv b1 a den s' / S * (y - z) ^ 2 + halfInv b1 a den s / √(1 - b2 ^ s.t) * (x - z) ^ 2 +
          stepLoss b1 b2 a K G := by
    unfold maxPot
    rw [ht]
    push_cast
    rw [← ht, ← hS]
    ring
  rw [e3, k1]
  linarith

/-! ### Runs -/

/-- Clipping between `lo` and `hi` is not expansive towards a point in between. -/
theorem clip_near {lo hi y w : ℝ} (h1 : lo ≤ w) (h2 : w ≤ hi) : |max lo (min hi y) - w| ≤ |y - w| := by
  rcases le_total y hi with h | h
  · rw [min_eq_right h]
    rcases le_total lo y with h' | h'
    · rw [max_eq_right h']
    · rw [max_eq_left h', abs_of_nonpos (by linarith), abs_of_nonpos (by linarith)]; linarith
  · rw [min_eq_left h, max_eq_right (h1.trans h2), abs_of_nonneg (by linarith), abs_of_nonneg (by linarith)]; linarith

variable {u : User V (Vec d) (Vec d) ℝ} {n : Nat} {loss : V → Nat → Vec d → ℝ} {gr : V → Nat → Vec d → Vec d} {Γ : ℝ}

theorem ConvexSum.coord_le (hu : ConvexSum u n loss gr Γ) (v : V) (x : Vec d) {b k B : Nat} (hk : k ≤ B) (c : Fin d) :
    |(u.evalGrad v x b k).2.2 c| ≤ B * Γ := by
  have h0 : 0 ≤ Γ := (norm_nonneg _).trans (hu.lip v 0 x)
  have h1 : ‖(u.evalGrad v x b k).2.2‖ ≤ k * Γ := by
    rw [hu.grad]
    refine (norm_sum_le _ _).trans ((Finset.sum_le_card_nsmul _ _ Γ fun j _ => hu.lip _ _ _).trans (le_of_eq ?_))
    simp
  have h2 := PiLp.norm_apply_le (u.evalGrad v x b k).2.2 c
  rw [Real.norm_eq_abs] at h2
  have h3 : (k : ℝ) ≤ B := by exact_mod_cast hk
  nlinarith

theorem maxMom_books (hu : ConvexSum u n loss gr Γ) {p : Params} {lo hi z : Vec d} {D : ℝ}
    (hclip : ∀ v y i, (u.cbStep v y).2.1 i = max (lo i) (min (hi i) (y i))) (hz : ∀ i, lo i ≤ z i ∧ z i ≤ hi i)
    (hD : ∀ i, hi i - lo i ≤ D) (h1 : 0 ≤ b1) (h1' : b1 < 1) (h2 : 0 ≤ b2) (h2' : b2 < 1) (ha : 0 < a)
    (hd : DenOk den (p.batchSize * Γ) K) :
    Books (mkEnv (lift (maxMom b1 b2 den)) (noDecay (Vec d) (Vec d)) u) p (fun w => loss w.2) z
      (fun i w x ρ => w.1.step = a ∧ (∀ c, MomOk b2 (p.batchSize * Γ) (w.1.upd c)) ∧ (∀ c, (w.1.upd c).t ≤ i) ∧
        (∀ c, lo c ≤ x c ∧ x c ≤ hi c) ∧
        ρ ≤ ∑ c, maxPot b1 b2 a K (p.batchSize * Γ) D (z c) den (w.1.upd c) (x c)) where
  add := hu.add
  zero := hu.zero
  divN := hu.divN
  begin_ := fun w x h => by
    simp only [mkEnv, hu.cbBegin]
    exact h
  beginEpoch := fun _ _ _ _ _ _ h => h
  endEpoch := fun _ _ _ _ _ _ h => h
  shuffle := fun _ _ _ _ h => h
  batch := by
    intro i w x ρ b k hk0 hk _ _ ⟨e1, e2, e3, e4, e5⟩
    simp only [mkEnv, noDecay]
    rw [hu.cbEvalGrad_grad, e1]
    set g := (u.evalGrad w.2 x b k).2.2 with hg
    have hgc : ∀ c, |g c| ≤ p.batchSize * Γ := fun c => hu.coord_le _ _ hk c
    set q := (lift (maxMom b1 b2 den) : UpdPol (Fin d → MomMax) ℝ (Vec d) (Vec d)).upd w.1.upd x a g with hq
    have f1 : ∀ c, q.1 c = ((maxMom b1 b2 den).update (w.1.upd c) a (g c) (x c)).1 := fun c => rfl
    have f2 : ∀ c, q.2 c = ((maxMom b1 b2 den).update (w.1.upd c) a (g c) (x c)).2 := fun c => rfl
    refine ⟨⟨rfl, fun c => ?_, fun c => ?_, fun c => ?_, ?_⟩, ?_⟩
    · rw [f1]; exact momOk_step h1 h1' h2 h2' (e2 c) (hgc c) _
    · rw [f1]
      show (w.1.upd c).t + 1 ≤ i + k
      have := e3 c
      omega
    · rw [hclip]
      exact ⟨le_max_left _ _, max_le ((hz c).1.trans (hz c).2) (min_le_left _ _)⟩
    · have c3 := hu.batch_sub w.2 x z b k
      rw [← hg, PiLp.inner_apply] at c3
      have e6 : batchLoss (fun w : Live (Fin d → MomMax) Unit Unit ℝ × V => loss w.2) w z b k = batchLoss loss w.2 z b k := rfl
      rw [e6]
      refine (by linarith : ρ + (u.evalGrad w.2 x b k).2.1 - batchLoss loss w.2 z b k ≤
        ∑ c, maxPot b1 b2 a K (p.batchSize * Γ) D (z c) den (w.1.upd c) (x c) +
          ∑ c, inner ℝ (g c) ((x - z) c)).trans ?_
      rw [← Finset.sum_add_distrib]
      refine Finset.sum_le_sum fun c _ => ?_
      have k4 : inner ℝ (g c) ((x - z) c) = g c * (x c - z c) := by
        simp [mul_comm]
      rw [k4, f1, hclip, f2]
      have hxD : |x c - z c| ≤ D := by
        have := hD c; have := e4 c; have := hz c
        rw [abs_le]; constructor <;> linarith
      have := max_coord h1 h1' h2 h2' ha hd (e2 c) (hgc c) hxD (clip_near (hz c).1 (hz c).2) (clip_near (e4 c).1 (e4 c).2)
      linarith
    · show loss (u.cbStep _ _).1 = loss w.2
      rw [hu.cbStep_keeps, hu.cbEvalGrad_keeps, hu.evalGrad_keeps]

/-- Both policies at once. -/
theorem maxMom_regret {p : Params} (hu : ConvexSum u p.numFunctions loss gr Γ) (hn : 0 < p.numFunctions)
    (hb : 0 < p.batchSize) {lo hi z : Vec d} {D : ℝ}
    (hclip : ∀ v y i, (u.cbStep v y).2.1 i = max (lo i) (min (hi i) (y i))) (hz : ∀ i, lo i ≤ z i ∧ z i ≤ hi i)
    (hD : ∀ i, hi i - lo i ≤ D) (h1 : 0 ≤ b1) (h1' : b1 < 1) (h2 : 0 ≤ b2) (h2' : b2 < 1) (ha : 0 < a)
    (hd : DenOk den (p.batchSize * Γ) K) {fuel : Nat} {v : V} {x : Vec d} (hx : ∀ i, lo i ≤ x i ∧ x i ≤ hi i)
    {r : Result (Live (Fin d → MomMax) Unit Unit ℝ × V) (Vec d) ℝ}
    (h : optimizeObj (lift (maxMom b1 b2 den)) (noDecay (Vec d) (Vec d)) u p true fuel (Obj.new a ()) v x = .returned r)
    (hE : epochMeans r.trace ≠ []) :
    (epochMeans r.trace).sum / (epochMeans r.trace).length ≤
      (∑ j ∈ Finset.range p.numFunctions, loss v j z) / p.numFunctions +
        d * (b1 / (1 - b1) * (p.batchSize * Γ * D) + den ((p.batchSize * Γ) ^ 2) * D ^ 2 / (2 * a * √(1 - b2))) /
          (p.numFunctions * (epochMeans r.trace).length) +
        d * ((1 + b1) / (2 * (1 - b1)) * (a * K * (p.batchSize * Γ) / ((1 - b1) * √(1 - b2)))) := by
  have hG : 0 ≤ p.batchSize * Γ := by
    have : 0 ≤ Γ := (norm_nonneg _).trans (hu.lip v 0 x)
    positivity
  have hb1 : 0 < 1 - b1 := by linarith
  have hq : 0 < √(1 - b2) := Real.sqrt_pos.2 (by linarith)
  have hK : 0 ≤ K := by
    have := hd.sqrt 0 le_rfl (sq_nonneg _)
    rw [Real.sqrt_zero] at this
    exact nonneg_of_mul_nonneg_left this (hd.pos 0 le_rfl)
  obtain ⟨w, y, -, hw, ht, hy, hR⟩ := optimize_books (F := ∑ j ∈ Finset.range p.numFunctions, loss v j z)
    (maxMom_books hu hclip hz hD h1 h1' h2 h2' ha hd) hn hb
    (fun w => by simp only [batchLoss, Nat.zero_add]; exact hu.order _ _ _)
    ⟨rfl, fun c => ⟨by simpa [prologue, lift, maxMom] using hG, le_rfl, le_rfl, sq_nonneg _, sq_nonneg _,
      by simp [prologue, lift, maxMom]⟩, fun c => le_rfl, hx, by simp [prologue, lift, maxMom, maxPot, halfInv]⟩ h
  set L := epochMeans r.trace with hL
  set F := ∑ j ∈ Finset.range p.numFunctions, loss v j z
  set G := (p.batchSize : ℝ) * Γ with hGd
  have hl : (0 : ℝ) < L.length := by
    have : 0 < L.length := List.length_pos_iff.2 hE
    exact_mod_cast this
  have hn' : (0 : ℝ) < p.numFunctions := by exact_mod_cast hn
  set T := b1 / (1 - b1) * (G * D) + den (G ^ 2) * D ^ 2 / (2 * a * √(1 - b2)) with hT
  have hsl : 0 ≤ stepLoss b1 b2 a K G := by unfold stepLoss; positivity
  have hone : ∀ c, maxPot b1 b2 a K G D (z c) den (w.1.upd c) (y c) ≤
      T + L.length * p.numFunctions * stepLoss b1 b2 a K G := by
    intro c
    have hm := hw c
    have hxD : |y c - z c| ≤ D := by
      have := hD c; have := hy c; have := hz c
      rw [abs_le]; constructor <;> linarith
    have c1 : (w.1.upd c).m * (y c - z c) ≤ G * D :=
      (le_abs_self _).trans ((abs_mul _ _).le.trans (mul_le_mul hm.m hxD (abs_nonneg _) hG))
    have c2 : b1 ^ (w.1.upd c).t ≤ 1 := pow_le_one₀ h1 h1'.le
    have c3 : 0 ≤ b1 ^ (w.1.upd c).t := pow_nonneg h1 _
    have hdp := hd.pos _ hm.vi0
    have hdG := hd.mono _ _ hm.vi0 hm.vi
    have c4 : halfInv b1 a den (w.1.upd c) ≤ den (G ^ 2) / (2 * a) := by
      unfold halfInv
      apply div_le_div_of_nonneg_right _ (by linarith)
      nlinarith
    have c5 : 0 ≤ halfInv b1 a den (w.1.upd c) := by
      unfold halfInv
      have : 0 ≤ 1 - b1 ^ (w.1.upd c).t := by linarith
      positivity
    have c6 : halfInv b1 a den (w.1.upd c) * (D ^ 2 / √(1 - b2) - (y c - z c) ^ 2 / √(1 - b2 ^ (w.1.upd c).t)) ≤
        den (G ^ 2) * D ^ 2 / (2 * a * √(1 - b2)) := by
      calc _ ≤ halfInv b1 a den (w.1.upd c) * (D ^ 2 / √(1 - b2)) :=
            mul_le_mul_of_nonneg_left (sub_le_self _ (by positivity)) c5
        _ ≤ den (G ^ 2) / (2 * a) * (D ^ 2 / √(1 - b2)) := mul_le_mul_of_nonneg_right c4 (by positivity)
        _ = _ := by rw [div_mul_div_comm]
    have c7 : ((w.1.upd c).t : ℝ) ≤ L.length * p.numFunctions := by exact_mod_cast ht c
    have c8 := mul_le_mul_of_nonneg_right c7 hsl
    have c9 := mul_le_mul_of_nonneg_left c1 (by positivity : 0 ≤ b1 / (1 - b1))
    unfold maxPot
    linarith
  have h3 : p.numFunctions * L.sum - L.length * F ≤ d * (T + L.length * p.numFunctions * stepLoss b1 b2 a K G) := by
    refine hR.trans ((Finset.sum_le_card_nsmul _ _ _ fun c _ => hone c).trans (le_of_eq ?_))
    rw [Finset.card_univ, Fintype.card_fin, nsmul_eq_mul]
  have hsd : (1 + b1) / (2 * (1 - b1)) * (a * K * G / ((1 - b1) * √(1 - b2))) = stepLoss b1 b2 a K G := rfl
  rw [hsd, div_le_iff₀ hl]
  have e : (F / p.numFunctions + d * T / (p.numFunctions * L.length) + d * stepLoss b1 b2 a K G) * L.length =
      (L.length * F + d * (T + L.length * p.numFunctions * stepLoss b1 b2 a K G)) / p.numFunctions := by
    field_simp
    ring
  rw [e, le_div_iff₀ hn']
  linarith

/-- AMSGrad on a sum of `n` convex functions with `Γ`-bounded (sub)gradients, with or without shuffling, however the run ends,
with a callback that clips the coordinates to a box of side `D` in which `z` lies: the mean losses reported at the ends of the
epochs exceed the mean loss of `z` on average by at most a term that tends to zero with the number of epochs plus one that is
proportional to the step size `α`.  `β₁`, `β₂` in `[0, 1)`, any `ε > 0`; `G = b Γ`. -/
theorem C258_amsGrad_regret {p : Params} (hu : ConvexSum u p.numFunctions loss gr Γ) (hn : 0 < p.numFunctions)
    (hb : 0 < p.batchSize) {lo hi z : Vec d} {D : ℝ}
    (hclip : ∀ v y i, (u.cbStep v y).2.1 i = max (lo i) (min (hi i) (y i))) (hz : ∀ i, lo i ≤ z i ∧ z i ≤ hi i)
    (hD : ∀ i, hi i - lo i ≤ D) {b : Betas} (h1 : 0 ≤ b.b1) (h1' : b.b1 < 1) (h2 : 0 ≤ b.b2) (h2' : b.b2 < 1)
    (he : 0 < b.eps) (ha : 0 < a) {fuel : Nat} {v : V} {x : Vec d} (hx : ∀ i, lo i ≤ x i ∧ x i ≤ hi i)
    {r : Result (Live (Fin d → MomMax) Unit Unit ℝ × V) (Vec d) ℝ}
    (h : optimizeObj (lift (amsGrad b)) (noDecay (Vec d) (Vec d)) u p true fuel (Obj.new a ()) v x = .returned r)
    (hE : epochMeans r.trace ≠ []) :
    (epochMeans r.trace).sum / (epochMeans r.trace).length ≤
      (∑ j ∈ Finset.range p.numFunctions, loss v j z) / p.numFunctions +
        d * (b.b1 / (1 - b.b1) * (p.batchSize * Γ * D) + (p.batchSize * Γ + b.eps) * D ^ 2 / (2 * a * √(1 - b.b2))) /
          (p.numFunctions * (epochMeans r.trace).length) +
        a * (d * ((1 + b.b1) / (2 * (1 - b.b1) ^ 2) * (p.batchSize * Γ / √(1 - b.b2)))) := by
  rw [amsGrad_eq] at h
  have hG : 0 ≤ p.batchSize * Γ := by
    have : 0 ≤ Γ := (norm_nonneg _).trans (hu.lip v 0 x)
    positivity
  have hden : DenOk (fun v => √v + b.eps) (p.batchSize * Γ) 1 :=
    ⟨fun s t _ hst => by have := Real.sqrt_le_sqrt hst; linarith, fun s _ => by positivity,
      fun s _ _ => by linarith⟩
  have hm := maxMom_regret hu hn hb hclip hz hD h1 h1' h2 h2' ha hden hx h hE
  rw [Real.sqrt_sq hG] at hm
  refine hm.trans (le_of_eq ?_)
  have : 0 < 1 - b.b1 := by linarith
  have : 0 < √(1 - b.b2) := Real.sqrt_pos.2 (by linarith)
  congr 1
  field_simp

/-- The same for Padam with exponent `q` (member `partial`) in `[0, 1/2]` of the running maximum; for `q = 1/2` the bound is that
of AMSGrad up to `ε`, smaller exponents let the steps depend on the size `G = b Γ` of the gradients. -/
theorem C258_padam_regret {p : Params} (hu : ConvexSum u p.numFunctions loss gr Γ) (hn : 0 < p.numFunctions)
    (hb : 0 < p.batchSize) {lo hi z : Vec d} {D : ℝ}
    (hclip : ∀ v y i, (u.cbStep v y).2.1 i = max (lo i) (min (hi i) (y i))) (hz : ∀ i, lo i ≤ z i ∧ z i ≤ hi i)
    (hD : ∀ i, hi i - lo i ≤ D) {b : Betas} {q : ℝ} (hq0 : 0 ≤ q) (hq : q ≤ 1 / 2) (h1 : 0 ≤ b.b1) (h1' : b.b1 < 1)
    (h2 : 0 ≤ b.b2) (h2' : b.b2 < 1) (he : 0 < b.eps) (ha : 0 < a) {fuel : Nat} {v : V} {x : Vec d}
    (hx : ∀ i, lo i ≤ x i ∧ x i ≤ hi i) {r : Result (Live (Fin d → MomMax) Unit Unit ℝ × V) (Vec d) ℝ}
    (h : optimizeObj (lift (padam b q)) (noDecay (Vec d) (Vec d)) u p true fuel (Obj.new a ()) v x = .returned r)
    (hE : epochMeans r.trace ≠ []) :
    (epochMeans r.trace).sum / (epochMeans r.trace).length ≤
      (∑ j ∈ Finset.range p.numFunctions, loss v j z) / p.numFunctions +
        d * (b.b1 / (1 - b.b1) * (p.batchSize * Γ * D) +
            ((p.batchSize * Γ) ^ 2 + b.eps) ^ q * D ^ 2 / (2 * a * √(1 - b.b2))) /
          (p.numFunctions * (epochMeans r.trace).length) +
        a * (d * ((1 + b.b1) / (2 * (1 - b.b1) ^ 2) * (((p.batchSize * Γ) ^ 2 + b.eps) ^ (1 / 2 - q) *
          (p.batchSize * Γ) / √(1 - b.b2)))) := by
  rw [padam_eq] at h
  have hden : DenOk (fun v => (v + b.eps) ^ q) (p.batchSize * Γ) (((p.batchSize * Γ) ^ 2 + b.eps) ^ (1 / 2 - q)) := by
    refine ⟨fun s t hs hst => Real.rpow_le_rpow (by linarith) (by linarith) hq0, fun s hs => Real.rpow_pos_of_pos (by linarith) _,
      fun s hs hsG => ?_⟩
    calc √s ≤ √(s + b.eps) := Real.sqrt_le_sqrt (by linarith)
      _ = (s + b.eps) ^ ((1 / 2 - q) + q) := by rw [Real.sqrt_eq_rpow]; congr 1; ring
      _ = (s + b.eps) ^ (1 / 2 - q) * (s + b.eps) ^ q := Real.rpow_add (by linarith) _ _
      _ ≤ _ := mul_le_mul_of_nonneg_right (Real.rpow_le_rpow (by linarith) (by linarith) (by linarith))
        (Real.rpow_nonneg (by linarith) _)
  have hm := maxMom_regret hu hn hb hclip hz hD h1 h1' h2 h2' ha hden hx h hE
  refine hm.trans (le_of_eq ?_)
  have : 0 < 1 - b.b1 := by linarith
  have : 0 < √(1 - b.b2) := Real.sqrt_pos.2 (by linarith)
  congr 1
  field_simp

/-! ### A case -/

theorem normUser_clip (v : Unit) (y : Vec d) (i : Fin d) : ((normUser (d := d)).cbStep v y).2.1 i =
    max ((WithLp.toLp 2 fun _ => -1 : Vec d) i) (min ((WithLp.toLp 2 fun _ => 1 : Vec d) i) (y i)) := rfl

/-- A run with two epochs of batches of 2 and 1 functions. -/
noncomputable def amsRun : Outcome (Live (Fin 1 → MomMax) Unit Unit ℝ × Unit) (Vec 1) ℝ :=
  optimizeObj (lift (amsGrad ⟨1 / 2, 1 / 2, 1⟩)) (noDecay (Vec 1) (Vec 1)) normUser ⟨3, 2, 6, false, false⟩ true 6 (Obj.new 1 ())
    () (WithLp.toLp 2 fun _ => 1)

theorem amsRun_epochs : epochsOf amsRun = 2 := by decide +kernel

/-- The theorem applies to that run. -/
example : ∃ r, amsRun = .returned r ∧ (epochMeans r.trace).length = 2 ∧
    (epochMeans r.trace).sum / 2 ≤ (4 + 3 * 4 / (2 * √(1 / 2))) / (3 * 2) + 3 * (2 / √(1 / 2)) := by
  have hE := amsRun_epochs
  cases hr : amsRun with
  | ub => rw [hr] at hE; cases hE
  | diverges => rw [hr] at hE; cases hE
  | returned r =>
    rw [hr] at hE
    have hE' : (epochMeans r.trace).length = 2 := hE
    refine ⟨r, rfl, hE', ?_⟩
    have h := C258_amsGrad_regret (p := ⟨3, 2, 6, false, false⟩) (normUser_convex (d := 1)) (by norm_num) (by norm_num) (z := 0)
      (D := 2) normUser_clip (by simp) (by intro i; simp; norm_num) (b := ⟨1 / 2, 1 / 2, 1⟩) (by norm_num) (by norm_num)
      (by norm_num) (by norm_num) one_pos one_pos (fuel := 6) (v := ()) (x := WithLp.toLp 2 fun _ => 1) (by simp) hr
      (by intro h; rw [h] at hE'; cases hE')
    rw [hE'] at h
    norm_num at h ⊢
    linarith

/-- The same run with Padam, exponent 1/4. -/
noncomputable def padamRun : Outcome (Live (Fin 1 → MomMax) Unit Unit ℝ × Unit) (Vec 1) ℝ :=
  optimizeObj (lift (padam ⟨1 / 2, 1 / 2, 1⟩ (1 / 4))) (noDecay (Vec 1) (Vec 1)) normUser ⟨3, 2, 6, false, false⟩ true 6
    (Obj.new 1 ()) () (WithLp.toLp 2 fun _ => 1)

theorem padamRun_epochs : epochsOf padamRun = 2 := by decide +kernel

/-- The theorem applies to that run. -/
example : ∃ r, padamRun = .returned r ∧ (epochMeans r.trace).length = 2 ∧
    (epochMeans r.trace).sum / 2 ≤ (4 + 5 ^ (1 / 4 : ℝ) * 4 / (2 * √(1 / 2))) / (3 * 2) +
      3 * (5 ^ (1 / 2 - 1 / 4 : ℝ) * 2 / √(1 / 2)) := by
  have hE := padamRun_epochs
  cases hr : padamRun with
  | ub => rw [hr] at hE; cases hE
  | diverges => rw [hr] at hE; cases hE
  | returned r =>
    rw [hr] at hE
    have hE' : (epochMeans r.trace).length = 2 := hE
    refine ⟨r, rfl, hE', ?_⟩
    have h := C258_padam_regret (p := ⟨3, 2, 6, false, false⟩) (normUser_convex (d := 1)) (by norm_num) (by norm_num) (z := 0)
      (D := 2) normUser_clip (by simp) (by intro i; simp; norm_num) (b := ⟨1 / 2, 1 / 2, 1⟩) (q := 1 / 4) (by norm_num)
      (by norm_num) (by norm_num) (by norm_num) (by norm_num) (by norm_num) one_pos one_pos (fuel := 6) (v := ())
      (x := WithLp.toLp 2 fun _ => 1) (by simp) hr (by intro h; rw [h] at hE'; cases hE')
    rw [hE'] at h
    norm_num at h ⊢
    linarith

end Ens.Converge
