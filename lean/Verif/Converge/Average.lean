import Verif.Converge.Sawtooth

/-
C259: do small step sizes bring the losses that are reported at the ends of the epochs close to the minimum, on average?  For
sums of convex functions with bounded gradients, a callback that clips the coordinates to a box: yes for StandardSGD, AdaGrad,
AMSGrad and Padam, no for Adam and RMSProp, whatever their parameters.
-/

namespace Ens.Converge

open Ens.Sgd Ens.Update Filter

variable {U V : Type} {d : Nat}

/-- With small step sizes and after enough epochs, the mean losses reported at the ends of the epochs exceed the mean loss of
any point `z` of the box by little, on average.  `n` functions, batches of `b`, any order, coordinates clipped to the box from
`lo` to `hi`. -/
def CloseOnAverage (up : UpdPol U ℝ (Vec d) (Vec d)) : Prop :=
  ∀ (V : Type) (u : User V (Vec d) (Vec d) ℝ) (n b : Nat) (loss : V → Nat → Vec d → ℝ) (gr : V → Nat → Vec d → Vec d) (Γ : ℝ)
    (lo hi z x : Vec d) (v : V), ConvexSum u n loss gr Γ → 0 < n → 0 < b →
    (∀ v y i, (u.cbStep v y).2.1 i = max (lo i) (min (hi i) (y i))) → (∀ i, lo i ≤ z i ∧ z i ≤ hi i) →
    (∀ i, lo i ≤ x i ∧ x i ≤ hi i) →
    ∀ δ > 0, ∃ a₀ > 0, ∀ a, 0 < a → a ≤ a₀ → ∃ E₀ : Nat, ∀ (p : Params) (fuel : Nat)
      (r : Result (Live U Unit Unit ℝ × V) (Vec d) ℝ), p.numFunctions = n → p.batchSize = b →
      optimizeObj up (noDecay (Vec d) (Vec d)) u p true fuel (Obj.new a ()) v x = .returned r →
      E₀ ≤ (epochMeans r.trace).length →
      (epochMeans r.trace).sum / (epochMeans r.trace).length ≤ (∑ j ∈ Finset.range n, loss v j z) / n + δ

/-- Bounds of the form (something that depends on the step size) / (epochs) + (constant) (step size). -/
theorem small_of_bound {A B T δ a : ℝ} {E : Nat} (hB : 0 ≤ B) (hδ : 0 < δ) (ha : 0 < a) (ha₀ : a ≤ δ / (2 * (B + 1)))
    (hT : 0 ≤ T) (hE : Nat.ceil (2 * T / δ) + 1 ≤ E) {y : ℝ} (h : y ≤ A + T / E + a * B) : y ≤ A + δ := by
  have hE' : (0 : ℝ) < E := by exact_mod_cast (by omega : 0 < E)
  have h1 : T / E ≤ δ / 2 := by
    rw [div_le_iff₀ hE']
    have h2 : 2 * T / δ ≤ E := (Nat.le_ceil _).trans (by exact_mod_cast (by omega : Nat.ceil (2 * T / δ) ≤ E))
    rw [div_le_iff₀ hδ] at h2
    linarith
  have h3 : a * B ≤ δ / 2 := by
    calc a * B ≤ δ / (2 * (B + 1)) * B := mul_le_mul_of_nonneg_right ha₀ hB
      _ = δ / 2 * (B / (B + 1)) := by field_simp
      _ ≤ δ / 2 * 1 := mul_le_mul_of_nonneg_left ((div_le_one (by linarith)).2 (by linarith)) (by linarith)
      _ = δ / 2 := mul_one _
  linarith

theorem not_nil {α : Type} {L : List α} {k : Nat} (h : k + 1 ≤ L.length) : L ≠ [] := by
  intro e; rw [e] at h; simp at h

/-- Sides of the box. -/
theorem box_side (lo hi : Vec d) (hle : ∀ i, lo i ≤ hi i) : ∃ D, 0 ≤ D ∧ ∀ i, hi i - lo i ≤ D :=
  ⟨∑ i, (hi i - lo i), Finset.sum_nonneg fun i _ => by linarith [hle i],
    fun i => Finset.single_le_sum (f := fun i => hi i - lo i) (fun i _ => by linarith [hle i]) (Finset.mem_univ i)⟩

/-- StandardSGD comes close. -/
theorem C259_sgd : CloseOnAverage (lift vanilla : UpdPol (Fin d → Unit) ℝ (Vec d) (Vec d)) := by
  intro V u n b loss gr Γ lo hi z x v hu hn hb hclip hz hx δ hδ
  have hB : 0 ≤ (b : ℝ) * Γ ^ 2 / 2 := by positivity
  refine ⟨δ / (2 * ((b : ℝ) * Γ ^ 2 / 2 + 1)), by positivity, fun a ha ha₀ => ?_⟩
  have hn' : (0 : ℝ) < n := by exact_mod_cast hn
  have hT : 0 ≤ ‖x - z‖ ^ 2 / (2 * a * n) := by positivity
  refine ⟨Nat.ceil (2 * (‖x - z‖ ^ 2 / (2 * a * n)) / δ) + 1, fun p fuel r hpn hpb h hE => ?_⟩
  subst hpn hpb
  have hstep : ∀ v y, ‖(u.cbStep v y).2.1 - z‖ ≤ ‖y - z‖ := by
    intro v y
    rw [EuclideanSpace.norm_eq, EuclideanSpace.norm_eq]
    refine Real.sqrt_le_sqrt (Finset.sum_le_sum fun i _ => pow_le_pow_left₀ (norm_nonneg _) ?_ 2)
    rw [Real.norm_eq_abs, Real.norm_eq_abs, PiLp.sub_apply, PiLp.sub_apply, hclip]
    exact clip_near (hz i).1 (hz i).2
  have hb' := C253_sgd_regret hu hn hb hstep ha h (not_nil hE)
  refine small_of_bound hB hδ ha ha₀ hT hE (hb'.trans (le_of_eq ?_))
  show _ + ‖x - z‖ ^ 2 / (2 * a * _) + a * _ * _ / 2 = _
  rw [div_div, mul_assoc (2 * a)]
  ring

/-- AdaGrad comes close, even with any step size. -/
theorem C259_adaGrad {ε : ℝ} (hε : 0 < ε) : CloseOnAverage (lift (adaGrad ε) : UpdPol (Fin d → ℝ) ℝ (Vec d) (Vec d)) := by
  intro V u n b loss gr Γ lo hi z x v hu hn hb hclip hz hx δ hδ
  obtain ⟨D, hD0, hD⟩ := box_side lo hi fun i => (hz i).1.trans (hz i).2
  refine ⟨1, one_pos, fun a ha _ => ?_⟩
  obtain ⟨N, hN⟩ := (Metric.tendsto_atTop.1 (C254_adaGrad_limit d D Γ a ε (b := b) hn)) δ hδ
  refine ⟨N + 1, fun p fuel r hpn hpb h hE => ?_⟩
  subst hpn hpb
  have near : ∀ {y w : Vec d} (i), lo i ≤ y i → y i ≤ hi i → lo i ≤ w i → w i ≤ hi i → |y i - w i| ≤ D := by
    intro y w i h1 h2 h3 h4
    have := hD i
    rw [abs_le]; constructor <;> linarith
  have hb' := C254_adaGrad_regret hu hn hb (z := z) (D := D)
    (fun v y i => by rw [hclip]; exact clip_near (hz i).1 (hz i).2)
    (fun v y i => near i (by rw [hclip]; exact le_max_left _ _)
      (by rw [hclip]; exact max_le ((hz i).1.trans (hz i).2) (min_le_left _ _)) (hz i).1 (hz i).2)
    ha hε (fun i => near i (hx i).1 (hx i).2 (hz i).1 (hz i).2) h (not_nil hE)
  have h1 := hN (epochMeans r.trace).length (by omega)
  rw [Real.dist_eq, sub_zero] at h1
  have := (le_abs_self _).trans h1.le
  linarith

/-- AMSGrad comes close. -/
theorem C259_amsGrad {b : Betas} (h1 : 0 ≤ b.b1) (h1' : b.b1 < 1) (h2 : 0 ≤ b.b2) (h2' : b.b2 < 1) (he : 0 < b.eps) :
    CloseOnAverage (lift (amsGrad b) : UpdPol (Fin d → MomMax) ℝ (Vec d) (Vec d)) := by
  intro V u n bs loss gr Γ lo hi z x v hu hn hb hclip hz hx δ hδ
  obtain ⟨D, hD0, hD⟩ := box_side lo hi fun i => (hz i).1.trans (hz i).2
  have hΓ : 0 ≤ Γ := (norm_nonneg _).trans (hu.lip v 0 x)
  have hb1 : 0 < 1 - b.b1 := by linarith
  have hq : 0 < √(1 - b.b2) := Real.sqrt_pos.2 (by linarith)
  set B := (d : ℝ) * ((1 + b.b1) / (2 * (1 - b.b1) ^ 2) * (bs * Γ / √(1 - b.b2))) with hBd
  have hB : 0 ≤ B := by rw [hBd]; positivity
  refine ⟨δ / (2 * (B + 1)), by positivity, fun a ha ha₀ => ?_⟩
  have hn' : (0 : ℝ) < n := by exact_mod_cast hn
  set T := d * (b.b1 / (1 - b.b1) * (bs * Γ * D) + (bs * Γ + b.eps) * D ^ 2 / (2 * a * √(1 - b.b2))) / n with hTd
  have hT : 0 ≤ T := by rw [hTd]; positivity
  refine ⟨Nat.ceil (2 * T / δ) + 1, fun p fuel r hpn hpb h hE => ?_⟩
  subst hpn hpb
  have hb' := C258_amsGrad_regret hu hn hb hclip hz hD h1 h1' h2 h2' he ha hx h (not_nil hE)
  refine small_of_bound hB hδ ha ha₀ hT hE (hb'.trans (le_of_eq ?_))
  rw [hTd, div_div]

/-- Padam comes close. -/
theorem C259_padam {b : Betas} {q : ℝ} (hq0 : 0 ≤ q) (hq' : q ≤ 1 / 2) (h1 : 0 ≤ b.b1) (h1' : b.b1 < 1) (h2 : 0 ≤ b.b2)
    (h2' : b.b2 < 1) (he : 0 < b.eps) : CloseOnAverage (lift (padam b q) : UpdPol (Fin d → MomMax) ℝ (Vec d) (Vec d)) := by
  intro V u n bs loss gr Γ lo hi z x v hu hn hb hclip hz hx δ hδ
  obtain ⟨D, hD0, hD⟩ := box_side lo hi fun i => (hz i).1.trans (hz i).2
  have hΓ : 0 ≤ Γ := (norm_nonneg _).trans (hu.lip v 0 x)
  have hb1 : 0 < 1 - b.b1 := by linarith
  have hq : 0 < √(1 - b.b2) := Real.sqrt_pos.2 (by linarith)
  have hr : ∀ e : ℝ, 0 ≤ (((bs : ℝ) * Γ) ^ 2 + b.eps) ^ e := fun e => Real.rpow_nonneg (add_nonneg (sq_nonneg _) he.le) e
  have hr1 := hr (1 / 2 - q)
  have hr2 := hr q
  set B := (d : ℝ) * ((1 + b.b1) / (2 * (1 - b.b1) ^ 2) * (((bs * Γ) ^ 2 + b.eps) ^ (1 / 2 - q) *
    (bs * Γ) / √(1 - b.b2))) with hBd
  have hB : 0 ≤ B := by rw [hBd]; positivity
  refine ⟨δ / (2 * (B + 1)), by positivity, fun a ha ha₀ => ?_⟩
  have hn' : (0 : ℝ) < n := by exact_mod_cast hn
  set T := d * (b.b1 / (1 - b.b1) * (bs * Γ * D) +
    ((bs * Γ) ^ 2 + b.eps) ^ q * D ^ 2 / (2 * a * √(1 - b.b2))) / n with hTd
  have hT : 0 ≤ T := by rw [hTd]; positivity
  refine ⟨Nat.ceil (2 * T / δ) + 1, fun p fuel r hpn hpb h hE => ?_⟩
  subst hpn hpb
  have hb' := C258_padam_regret hu hn hb hclip hz hD hq0 hq' h1 h1' h2 h2' he ha hx h (not_nil hE)
  refine small_of_bound hB hδ ha ha₀ hT hE (hb'.trans (le_of_eq ?_))
  rw [hTd, div_div]

/-! ### Adam and RMSProp -/

/-- The functions `n x, -x, ..., -x`, never reordered; coordinates are clipped to [0, 4] after every step. -/
noncomputable def sawUser (n : Nat) : User Unit (Vec 1) (Vec 1) ℝ where
  evalGrad := fun _ x b k => ((), ∑ j ∈ Finset.range k, saw n (b + j) * x 0,
    ∑ j ∈ Finset.range k, WithLp.toLp 2 fun _ => saw n (b + j))
  evaluate := fun _ x b k => ((), ∑ j ∈ Finset.range k, saw n (b + j) * x 0)
  shuffle := fun v => v
  cbBegin := fun _ x => ((), x)
  cbBeginEpoch := fun _ _ _ _ => ((), false)
  cbEvalGrad := fun _ _ _ g => ((), g, false)
  cbStep := fun _ x => ((), WithLp.toLp 2 fun i => max 0 (min 4 (x i)), false)
  cbEndEpoch := fun _ _ _ _ => ((), false)
  cbEvaluate := fun _ _ _ => ((), false)
  cbEnd := fun _ x => ((), x)
  add := fun a b => a + b
  zero := 0
  divN := fun a k => a / k
  dblMax := 10 ^ 300
  isBad := fun _ => false
  isClose := fun _ _ => false

theorem sawUser_quiet (n : Nat) : Quiet (sawUser n)
    (fun _ b k => ∑ j ∈ Finset.range k, WithLp.toLp 2 fun _ => saw n (b + j)) id
    (fun x => WithLp.toLp 2 fun i => max 0 (min 4 (x i))) :=
  ⟨fun _ _ _ _ => rfl, fun _ _ _ _ => rfl, fun _ _ => rfl, fun _ _ => rfl, fun _ _ _ _ => rfl,
    fun _ _ _ _ => rfl, fun _ => rfl, fun _ _ => rfl⟩

theorem sawUser_convex {n : Nat} (hn : 0 < n) : ConvexSum (sawUser n) n (fun _ j x => saw n j * x 0)
    (fun _ j _ => WithLp.toLp 2 fun _ => saw n j) n where
  value := fun _ _ _ _ => rfl
  grad := fun _ _ _ _ => rfl
  sub := by
    intro _ j x y
    rw [PiLp.inner_apply]
    simp
    linarith
  lip := by
    intro _ j x
    rw [EuclideanSpace.norm_eq]
    simp only [Finset.univ_unique, Finset.sum_singleton, Real.norm_eq_abs, sq_abs]
    rw [Real.sqrt_le_left (by positivity), sq]
    exact (saw_abs hn j).2.2.1
  order := fun _ _ _ => rfl
  evalGrad_keeps := fun _ _ _ _ => rfl
  cbEvalGrad_keeps := fun _ _ _ _ => rfl
  cbEvalGrad_grad := fun _ _ _ _ => rfl
  cbStep_keeps := fun _ _ => rfl
  cbBegin := fun _ _ => rfl
  add := fun _ _ => rfl
  zero := rfl
  divN := fun _ _ => rfl

section
variable {S : Type} {P : Policy S}

theorem saw_books (a : ℝ) {p : Params} (hb1 : p.batchSize = 1) :
    Books (mkEnv (lift P) (noDecay (Vec 1) (Vec 1)) (sawUser p.numFunctions)) p
      (fun _ j x => saw p.numFunctions j * x 0) 0
      (fun i w x ρ => w.1.step = a ∧ w.1.upd 0 = (sawRun P a p.numFunctions i).1 ∧
        x 0 = (sawRun P a p.numFunctions i).2 ∧
        ρ = ∑ t ∈ Finset.range i, saw p.numFunctions (t % p.numFunctions) * (sawRun P a p.numFunctions t).2) where
  add := fun _ _ => rfl
  zero := rfl
  divN := fun _ _ => rfl
  begin_ := fun _ _ h => h
  beginEpoch := fun _ _ _ _ _ _ h => h
  endEpoch := fun _ _ _ _ _ _ h => h
  shuffle := fun _ _ _ _ h => h
  batch := by
    intro i w x ρ j k hk0 hk _ hj ⟨e1, e2, e3, e4⟩
    have hk1 : k = 1 := by omega
    subst hk1
    simp only [mkEnv, noDecay, sawUser]
    rw [e1]
    refine ⟨⟨rfl, ?_, ?_, ?_⟩, trivial⟩
    · simp only [lift, sawRun, e2, ← e3, Finset.sum_range_one, Nat.add_zero, ← hj]
    · simp only [lift, sawRun, e2, ← e3, Finset.sum_range_one, Nat.add_zero, ← hj]
    · rw [Finset.sum_range_succ _ i, ← hj, ← e3, ← e4]
      simp [batchLoss]

/-- There are `n` linear functions on [0, 4] with sum `x` (so the minimum is 0 at 0), such that for all small step sizes and any
number of epochs, the mean losses reported at the ends of the epochs of a run from 4 are at least `2 / n` on average. -/
def StaysAway {S : Type} (P : Policy S) : Prop :=
  ∃ n : Nat, 0 < n ∧ (∀ x : Vec 1, ∑ j ∈ Finset.range n, saw n j * x 0 = x 0) ∧ ∃ a₀ > 0, ∀ a, 0 < a → a ≤ a₀ →
    ∀ (p : Params) (fuel : Nat) (r : Result (Live (Fin 1 → S) Unit Unit ℝ × Unit) (Vec 1) ℝ), p.numFunctions = n →
      p.batchSize = 1 →
      optimizeObj (lift P) (noDecay (Vec 1) (Vec 1)) (sawUser n) p true fuel (Obj.new a ()) ()
        (WithLp.toLp 2 fun _ => 4) = .returned r →
      (epochMeans r.trace).length = p.actualMax / n ∧
        (epochMeans r.trace ≠ [] → 2 / (n : ℝ) ≤ (epochMeans r.trace).sum / (epochMeans r.trace).length)

theorem stays_of_sawtooth {n : Nat} {drop rise : Nat → ℝ} {U : ℝ} (hs : Sawtooth P n drop rise U) : StaysAway P := by
  have hn := hs.pos
  have hn' : (0 : ℝ) < n := by exact_mod_cast hn
  have hU := hs.up0
  set S := ∑ j ∈ Finset.range n, drop j with hS
  have hS0 : 0 ≤ S := Finset.sum_nonneg fun j _ => hs.drop0 j
  refine ⟨n, hn, fun x => ?_, min (1 / (S + 1)) (1 / ((U + 1) * (n : ℝ) ^ 2)), lt_min (by positivity) (by positivity),
    fun a ha ha₀ p fuel r hpn hpb hr => ?_⟩
  · obtain ⟨l, rfl⟩ : ∃ l, n = l + 1 := ⟨n - 1, by omega⟩
    rw [Finset.sum_range_succ']
    have : ∀ j, saw (l + 1) (j + 1) = -1 := fun j => by simp [saw]
    simp only [this]
    simp [saw]
    ring
  have hd : a * S ≤ 1 := by
    have h3 := mul_le_mul_of_nonneg_right (ha₀.trans (min_le_left _ _)) (by linarith : 0 ≤ S + 1)
    rw [div_mul_cancel₀ _ (by linarith)] at h3
    linarith
  have hu : (n : ℝ) ^ 2 * (a * U) ≤ 1 := by
    have h3 := ha₀.trans (min_le_right _ _)
    rw [le_div_iff₀ (by positivity)] at h3
    have : 0 ≤ a * (n : ℝ) ^ 2 := by positivity
    linarith
  subst hpn
  have hcnt := quiet_epochs (sawUser_quiet _) (fun _ _ => rfl) rfl (fun _ _ => rfl) hn (by omega : 0 < p.batchSize) hr
  refine ⟨hcnt, fun hE => ?_⟩
  obtain ⟨w, y, -, -, -, hR⟩ := optimize_books (F := 0) (saw_books (P := P) a hpb) hn (by omega : 0 < p.batchSize)
    (fun w => by simp [batchLoss]) ⟨rfl, rfl, rfl, by simp⟩ hr
  have ht := saw_total hs ha hd hu (epochMeans r.trace).length
  rw [← hR, mul_zero, sub_zero] at ht
  have hlen : (0 : ℝ) < (epochMeans r.trace).length := by
    have : 0 < (epochMeans r.trace).length := List.length_pos_iff.2 hE
    exact_mod_cast this
  rw [div_le_div_iff₀ hn' hlen]
  linarith

theorem stays_of_quotient {β κ A c ε q Dm B : ℝ} {num den : Nat → Nat → ℝ} (H : Quotient P β κ A c ε q Dm B num den) :
    StaysAway P := by
  obtain ⟨n, drop, rise, U, hs⟩ := sawtooth_of_quotient H
  exact stays_of_sawtooth hs

theorem not_close (hst : StaysAway P) : ¬ CloseOnAverage (lift P : UpdPol (Fin 1 → S) ℝ (Vec 1) (Vec 1)) := by
  intro hcl
  obtain ⟨n, hn, -, a₀, ha₀, hst⟩ := hst
  have hn' : (0 : ℝ) < n := by exact_mod_cast hn
  obtain ⟨a₁, ha₁, hcl⟩ := hcl Unit (sawUser n) n 1 _ _ _ (WithLp.toLp 2 fun _ => 0) (WithLp.toLp 2 fun _ => 4) 0
    (WithLp.toLp 2 fun _ => 4) () (sawUser_convex hn) hn one_pos (fun _ _ _ => rfl) (by simp) (by simp) (1 / n) (by positivity)
  obtain ⟨E₀, hE⟩ := hcl (min a₀ a₁) (lt_min ha₀ ha₁) (min_le_right _ _)
  have hm : 0 < (E₀ + 1) * n := by positivity
  obtain ⟨r, hr⟩ := run_returns (lift P) (sawUser n) (p := ⟨n, 1, (E₀ + 1) * n, false, false⟩) hn one_pos (min a₀ a₁) ()
    (WithLp.toLp 2 fun _ => 4)
  obtain ⟨hlen, hlow⟩ := hst (min a₀ a₁) (lt_min ha₀ ha₁) (min_le_left _ _) _ _ r rfl rfl hr
  have hmax : (⟨n, 1, (E₀ + 1) * n, false, false⟩ : Params).actualMax = (E₀ + 1) * n := by
    rw [Params.actualMax]; exact if_neg hm.ne'
  rw [hmax, Nat.mul_div_cancel _ hn] at hlen
  have hup := hE _ _ r rfl rfl hr (by omega)
  have hlo := hlow (by intro e; rw [e] at hlen; simp at hlen)
  simp only [PiLp.zero_apply, mul_zero, Finset.sum_const_zero, zero_div, zero_add] at hup
  have : (1 : ℝ) / n < 2 / n := div_lt_div_of_pos_right (by norm_num) hn'
  linarith

end

/-- Parameters in their ranges. -/
structure BetasOk (b : Betas) : Prop where
  b1 : 0 ≤ b.b1
  b1' : b.b1 < 1
  b2 : 0 < b.b2
  b2' : b.b2 < 1
  eps : 0 < b.eps

/-- Bounds of the correction. -/
structure CorrOk (b : Betas) (corr : Nat → ℝ) : Prop where
  lo : ∀ t, √(1 - b.b2) ≤ corr (t + 1)
  hi : ∀ t, corr (t + 1) ≤ 1 / (1 - b.b1)

theorem adam_corrOk (hb : BetasOk b) : CorrOk b (fun t => √(1 - b.b2 ^ t) / (1 - b.b1 ^ t)) := by
  have hb1 : 0 < 1 - b.b1 := by linarith [hb.b1']
  have hB : ∀ t, 1 - b.b1 ≤ 1 - b.b1 ^ (t + 1) := by
    intro t
    have : b.b1 ^ (t + 1) ≤ b.b1 := pow_le_of_le_one hb.b1 hb.b1'.le (Nat.succ_ne_zero _)
    linarith
  refine ⟨fun t => ?_, fun t => ?_⟩
  · have hBp : 0 < 1 - b.b1 ^ (t + 1) := by linarith [hB t]
    have hB1 : 1 - b.b1 ^ (t + 1) ≤ 1 := by have := pow_nonneg hb.b1 (t + 1); linarith
    have hS : √(1 - b.b2) ≤ √(1 - b.b2 ^ (t + 1)) := by
      apply Real.sqrt_le_sqrt
      have : b.b2 ^ (t + 1) ≤ b.b2 := pow_le_of_le_one hb.b2.le hb.b2'.le (Nat.succ_ne_zero _)
      linarith
    rw [le_div_iff₀ hBp]
    calc √(1 - b.b2) * (1 - b.b1 ^ (t + 1)) ≤ √(1 - b.b2) * 1 := mul_le_mul_of_nonneg_left hB1 (Real.sqrt_nonneg _)
      _ ≤ _ := by rw [mul_one]; exact hS
  · have hS1 : √(1 - b.b2 ^ (t + 1)) ≤ 1 := by
      refine Real.sqrt_le_one.2 ?_
      have := pow_nonneg hb.b2.le (t + 1)
      linarith
    exact div_le_div₀ zero_le_one hS1 hb1 (hB t)

/-- Adam with any bounded correction of the step size; RMSProp is the case without correction and without momentum. -/
theorem quotient_of_corr {S : Type} {P : Policy S} {b : Betas} {corr : Nat → ℝ} (hb : BetasOk b) (hc : CorrOk b corr)
    (hupd : ∀ n a t, (P.update (sawRun P a n t).1 a (saw n (t % n)) (sawRun P a n t).2).2 = (sawRun P a n t).2 -
      a * (corr (t + 1) * emaSaw b.b1 n (t + 1) / (√(sqSaw b.b2 n (t + 1)) + b.eps))) :
    Quotient P b.b1 √b.b2 (2 / (1 - b.b1)) √(1 - b.b2) b.eps (√(1 - b.b2) / 2) (2 + b.eps) (1 / (1 - b.b1))
      (fun n t => corr (t + 1) * emaSaw b.b1 n (t + 1)) (fun n t => √(sqSaw b.b2 n (t + 1)) + b.eps) := by
  have h1 : 0 < 1 - b.b1 := by linarith [hb.b1']
  have h2 : 0 < √(1 - b.b2) := Real.sqrt_pos.2 (by linarith [hb.b2'])
  have he := hb.eps
  have hc0 : ∀ t, 0 ≤ corr (t + 1) := fun t => h2.le.trans (hc.lo t)
  refine ⟨hb.b1, hb.b1', Real.sqrt_pos.2 hb.b2, Real.sqrt_le_one.2 hb.b2'.le, by positivity, h2, he, by positivity, by positivity,
    by positivity, hupd, Eventually.of_forall fun h p i hi => ?_, Eventually.of_forall fun h p i hi => ?_,
    Eventually.of_forall fun h p i hi => ?_, ?_⟩
  · have k := (ema_early hb.b1 hb.b1' p hi).1
    have hX : 0 ≤ b.b1 ^ i * ((4 * h : Nat) : ℝ) := mul_nonneg (pow_nonneg hb.b1 i) (by positivity)
    calc _ ≤ corr (p * (4 * h) + i + 1) * (2 * (b.b1 ^ i * (4 * h : Nat))) := mul_le_mul_of_nonneg_left k (hc0 _)
      _ ≤ 1 / (1 - b.b1) * (2 * (b.b1 ^ i * (4 * h : Nat))) := mul_le_mul_of_nonneg_right (hc.hi _) (by positivity)
      _ = _ := by ring
  · have k := (ema_early hb.b1 hb.b1' p hi).2
    have := mul_le_mul_of_nonneg_left k (hc0 (p * (4 * h) + i))
    have := hc.hi (p * (4 * h) + i)
    linarith
  · have k := sq_early hb.b2.le hb.b2' p hi
    have := Real.sqrt_nonneg (sqSaw b.b2 (4 * h) (p * (4 * h) + i + 1))
    exact max_le (by linarith) (by linarith)
  · refine ((ema_late hb.b1 hb.b1' (by norm_num : (0 : ℝ) < 1 / 2)).and (sq_late hb.b2.le hb.b2' (by norm_num : (0 : ℝ) < 3))).mono
      fun h ⟨k1, k2⟩ p i hi hhi => ?_
    have k3 := (k1 p i hi hhi).1
    have k4 := (k2 p i hi hhi).1
    have k5 := hc.lo (p * (4 * h) + i)
    constructor
    · nlinarith
    · have : √(sqSaw b.b2 (4 * h) (p * (4 * h) + i + 1)) ≤ 2 := by
        rw [Real.sqrt_le_left (by norm_num)]
        linarith
      linarith

theorem adam_state (b : Betas) (a : ℝ) (n t : Nat) : (sawRun (adam b) a n t).1 = ⟨emaSaw b.b1 n t, sqSaw b.b2 n t, t⟩ := by
  induction t with
  | zero => rfl
  | succ t ih => simp only [sawRun, adam, emaSaw, sqSaw] at ih ⊢; rw [ih]

theorem rmsProp_state (al eps a : ℝ) (n t : Nat) : (sawRun (rmsProp al eps) a n t).1 = sqSaw al n t := by
  induction t with
  | zero => rfl
  | succ t ih => simp only [sawRun, rmsProp, sqSaw] at ih ⊢; rw [ih]

/-- Adam stays away, whatever its parameters. -/
theorem C259_adam_stays {b : Betas} (h1 : 0 ≤ b.b1) (h1' : b.b1 < 1) (h2 : 0 < b.b2) (h2' : b.b2 < 1) (he : 0 < b.eps) :
    StaysAway (adam b) := by
  refine stays_of_quotient (quotient_of_corr ⟨h1, h1', h2, h2', he⟩ (adam_corrOk ⟨h1, h1', h2, h2', he⟩) fun n a t => ?_)
  rw [adam_state]
  simp only [adam, emaSaw, sqSaw]
  ring

/-- RMSProp stays away, whatever its parameters. -/
theorem C259_rmsProp_stays {al eps : ℝ} (h : 0 < al) (h' : al < 1) (he : 0 < eps) : StaysAway (rmsProp al eps) := by
  refine stays_of_quotient (quotient_of_corr (b := ⟨0, al, eps⟩) (corr := fun _ => 1) ⟨le_rfl, one_pos, h, h', he⟩
    ⟨fun _ => Real.sqrt_le_one.2 (by show 1 - al ≤ 1; linarith), fun _ => by norm_num⟩ fun n a t => ?_)
  rw [rmsProp_state]
  simp only [rmsProp, emaSaw, sqSaw]
  ring

/-- Adam does not come close, whatever its parameters. -/
theorem C259_adam_refuted {b : Betas} (h1 : 0 ≤ b.b1) (h1' : b.b1 < 1) (h2 : 0 < b.b2) (h2' : b.b2 < 1) (he : 0 < b.eps) :
    ¬ CloseOnAverage (lift (adam b) : UpdPol (Fin 1 → Mom) ℝ (Vec 1) (Vec 1)) :=
  not_close (C259_adam_stays h1 h1' h2 h2' he)

/-- RMSProp does not come close, whatever its parameters. -/
theorem C259_rmsProp_refuted {al eps : ℝ} (h : 0 < al) (h' : al < 1) (he : 0 < eps) :
    ¬ CloseOnAverage (lift (rmsProp al eps) : UpdPol (Fin 1 → ℝ) ℝ (Vec 1) (Vec 1)) :=
  not_close (C259_rmsProp_stays h h' he)

/-- The default parameters of Adam. -/
example : ¬ CloseOnAverage (lift (adam ⟨0.9, 0.999, 1e-8⟩) : UpdPol (Fin 1 → Mom) ℝ (Vec 1) (Vec 1)) :=
  C259_adam_refuted (by norm_num) (by norm_num) (by norm_num) (by norm_num) (by norm_num)

/-- The default parameters of RMSProp. -/
example : ¬ CloseOnAverage (lift (rmsProp 0.99 1e-8) : UpdPol (Fin 1 → ℝ) ℝ (Vec 1) (Vec 1)) :=
  C259_rmsProp_refuted (by norm_num) (by norm_num) (by norm_num)

/-- The default parameters of AMSGrad. -/
example : CloseOnAverage (lift (amsGrad ⟨0.9, 0.999, 1e-8⟩) : UpdPol (Fin 1 → MomMax) ℝ (Vec 1) (Vec 1)) :=
  C259_amsGrad (by norm_num) (by norm_num) (by norm_num) (by norm_num) (by norm_num)

/-- Padam with exponent 1/4. -/
example : CloseOnAverage (lift (padam ⟨0.9, 0.999, 1e-8⟩ (1 / 4)) : UpdPol (Fin 1 → MomMax) ℝ (Vec 1) (Vec 1)) :=
  C259_padam (by norm_num) (by norm_num) (by norm_num) (by norm_num) (by norm_num) (by norm_num) (by norm_num)

end Ens.Converge
