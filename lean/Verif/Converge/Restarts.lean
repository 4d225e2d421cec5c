import Verif.Converge.Base
import Verif.Sgd.ObjectProps

/-
Property C305: SGDR (`sgdr/sgdr_impl.hpp`, `sgdr/cyclical_decay.hpp`) with plain steps when every batch is the whole sum.
-/

namespace Ens.Converge

open Ens.Sgd Ens.Update Filter

variable {V E : Type} {d : Nat}

/-! ### Gradient steps of changing length -/

section Steps

variable {X : Type*} [NormedAddCommGroup X] [InnerProductSpace ℝ X]

/-- Gradient steps of lengths `a 0, a 1, ...`. -/
def gradSteps (g : X → X) (a : Nat → ℝ) (x : X) : Nat → X
  | 0 => x
  | k + 1 => gradSteps g a x k - a k • g (gradSteps g a x k)

theorem gradSteps_descent {f : X → ℝ} {g : X → X} {L : ℝ} (hs : LSmooth f g L) {a : ℝ} (h0 : 0 ≤ a) (hL : a * L ≤ 1) (x : X) :
    f (x - a • g x) ≤ f x - a / 2 * ‖g x‖ ^ 2 := by
  have h := hs.descent x (x - a • g x)
  rw [show x - a • g x - x = -(a • g x) by abel, inner_neg_right, norm_neg, inner_smul_right, real_inner_self_eq_norm_sq,
    norm_smul, Real.norm_of_nonneg h0] at h
  nlinarith [sq_nonneg ‖g x‖, mul_nonneg h0 (sub_nonneg.2 hL), mul_nonneg (mul_nonneg h0 (sub_nonneg.2 hL)) (sq_nonneg ‖g x‖)]

theorem gradSteps_rate {f : X → ℝ} {g : X → X} {L : ℝ} (hs : LSmooth f g L) (hc : ConvexOn ℝ Set.univ f) {a : Nat → ℝ}
    (h0 : ∀ k, 0 ≤ a k) (hL : ∀ k, a k * L ≤ 1) (x z : X) : ∀ K,
    2 * (∑ k ∈ Finset.range K, a k) * (f (gradSteps g a x K) - f z) + ‖gradSteps g a x K - z‖ ^ 2 ≤ ‖x - z‖ ^ 2 := by
  intro K
  induction K with
  | zero => simp [gradSteps]
  | succ K ih =>
    set y := gradSteps g a x K with hy
    have hd := gradSteps_descent hs (h0 K) (hL K) y
    have hf := convex_first_order hs.grad hc y z
    have hn : ‖y - a K • g y - z‖ ^ 2 = ‖y - z‖ ^ 2 - 2 * a K * inner ℝ (g y) (y - z) + a K ^ 2 * ‖g y‖ ^ 2 := by
      rw [show y - a K • g y - z = (y - z) - a K • g y by abel, norm_sub_sq_real, inner_smul_right, norm_smul,
        Real.norm_of_nonneg (h0 K), real_inner_comm]
      ring
    have hi : inner ℝ (g y) (z - y) = - inner ℝ (g y) (y - z) := by rw [← inner_neg_right]; congr 1; abel
    rw [gradSteps, Finset.sum_range_succ, ← hy, hn]
    have hS : 0 ≤ ∑ k ∈ Finset.range K, a k := Finset.sum_nonneg fun k _ => h0 k
    have ha := h0 K
    have hg := sq_nonneg ‖g y‖
    rw [hi] at hf
    have hdec : f (y - a K • g y) ≤ f y := by nlinarith
    have e1 : 2 * (∑ k ∈ Finset.range K, a k) * (f (y - a K • g y) - f z) ≤ 2 * (∑ k ∈ Finset.range K, a k) * (f y - f z) :=
      mul_le_mul_of_nonneg_left (by linarith) (by linarith)
    have e2 : 2 * a K * (f (y - a K • g y) - f z) ≤ 2 * a K * (inner ℝ (g y) (y - z) - a K / 2 * ‖g y‖ ^ 2) :=
      mul_le_mul_of_nonneg_left (by linarith) (by linarith)
    nlinarith

end Steps

/-! ### The schedule -/

theorem Cyclic.run_succ (c : Cyclic) (s : ℝ) (k : Nat) : c.run s (k + 1) = (c.run s k).1.update (c.run s k).2 := rfl

theorem Cyclic.run_add (c : Cyclic) (s : ℝ) (i : Nat) : ∀ j, c.run s (i + j) = (c.run s i).1.run (c.run s i).2 j := by
  intro j
  induction j with
  | zero => rfl
  | succ j ih => rw [← Nat.add_assoc, Cyclic.run_succ, ih]; rfl

theorem Cyclic.run_const (c : Cyclic) (s : ℝ) : ∀ k, (c.run s k).1.constStepSize = c.constStepSize := by
  intro k
  induction k with
  | zero => rfl
  | succ k ih => rw [Cyclic.run_succ, update_const, ih]

theorem update_next {c : Cyclic} (h : c.epochRestart ≤ c.nextRestart) (s : ℝ) :
    (c.update s).1.epochRestart ≤ (c.update s).1.nextRestart := by
  by_cases h1 : c.epochRestart ≤ c.epoch <;> by_cases h2 : c.nextRestart < c.epoch <;> simp [Cyclic.update, h1, h2, h]

theorem run_next {c : Cyclic} (h : c.epochRestart ≤ c.nextRestart) (s : ℝ) : ∀ k,
    (c.run s k).1.epochRestart ≤ (c.run s k).1.nextRestart := by
  intro k
  induction k with
  | zero => exact h
  | succ k ih => rw [Cyclic.run_succ]; exact update_next ih _

/-- A restart comes. -/
theorem restart_comes (c : Cyclic) (s : ℝ) : ∃ j, (c.run s j).1.batchRestart = 0 := by
  have key : ∀ (m : Nat) (c : Cyclic) (s : ℝ), c.nextRestart + 1 - c.epoch ≤ m → ∃ j, (c.run s j).1.batchRestart = 0 := by
    intro m
    induction m with
    | zero =>
      intro c s h
      refine ⟨1, ?_⟩
      rw [Cyclic.run, Cyclic.run]
      have h2 : c.nextRestart < c.epoch := by omega
      by_cases h1 : c.epochRestart ≤ c.epoch <;> simp [Cyclic.update, h1, h2]
    | succ m ih =>
      intro c s h
      by_cases hlt : c.nextRestart < c.epoch
      · exact ih c s (by omega)
      · obtain ⟨j, hj⟩ := ih (c.update s).1 (c.update s).2 (by
          by_cases h1 : c.epochRestart ≤ c.epoch <;> simp [Cyclic.update, h1, hlt] <;> omega)
        refine ⟨1 + j, ?_⟩
        rw [Cyclic.run_add]
        exact hj
  exact key _ c s le_rfl

/-- After a restart the full step size comes. -/
theorem full_comes (c : Cyclic) (s : ℝ) (h0 : c.batchRestart = 0) (hn : c.epochRestart ≤ c.nextRestart) :
    ∃ j, 0 < j ∧ (c.run s j).2 = c.constStepSize := by
  have key : ∀ (m : Nat) (c : Cyclic) (s : ℝ), c.batchRestart = 0 → c.epochRestart ≤ c.nextRestart → c.epochRestart - c.epoch ≤ m →
      ∃ j, 0 < j ∧ (c.run s j).2 = c.constStepSize := by
    intro m
    induction m with
    | zero =>
      intro c s h0 _ h
      exact ⟨1, one_pos, C72_sgdr_restart_full_step c s h0 (by omega)⟩
    | succ m ih =>
      intro c s h0 hn h
      by_cases he : c.epochRestart ≤ c.epoch
      · exact ⟨1, one_pos, C72_sgdr_restart_full_step c s h0 he⟩
      · have hu : c.update s = ({ c with epoch := c.epoch + 1 }, s) := by
          unfold Cyclic.update
          simp only [ge_iff_le, he, if_false, gt_iff_lt, show ¬ c.nextRestart < c.epoch by omega]
        obtain ⟨j, hj, hj'⟩ := ih { c with epoch := c.epoch + 1 } s h0 hn (by simp only; omega)
        refine ⟨1 + j, by omega, ?_⟩
        rw [Cyclic.run_add]
        show ((c.update s).1.run (c.update s).2 j).2 = _
        rw [hu]
        exact hj'
  exact key _ c s h0 hn le_rfl

/-- **C305** The full step size comes back again and again, whatever the restart parameters. -/
theorem C305_full_again (er : Nat) (mult α eb : ℝ) (k : Nat) :
    ∃ j ≥ k, ((Cyclic.start er mult α eb).run α j).2 = α := by
  set c := Cyclic.start er mult α eb
  have hn := run_next (c := c) (show c.epochRestart ≤ c.nextRestart from le_rfl) α
  obtain ⟨i, hi⟩ := restart_comes (c.run α k).1 (c.run α k).2
  rw [← Cyclic.run_add] at hi
  obtain ⟨j, -, hj⟩ := full_comes (c.run α (k + i)).1 (c.run α (k + i)).2 hi (hn _)
  rw [← Cyclic.run_add, Cyclic.run_const] at hj
  exact ⟨k + i + j, by omega, hj⟩

/-- **C305** So the sum of the step sizes exceeds every bound. -/
theorem C305_sum_unbounded (er : Nat) (mult eb : ℝ) {α : ℝ} (hα : 0 < α) :
    Tendsto (fun K => ∑ k ∈ Finset.range K, ((Cyclic.start er mult α eb).run α k).2) atTop atTop := by
  have h0 : ∀ k, 0 ≤ ((Cyclic.start er mult α eb).run α k).2 := fun k =>
    (C72_sgdr_step_in_range (Cyclic.start er mult α eb) hα.le k).1
  refine tendsto_atTop_atTop_of_monotone ?_ ?_
  · exact monotone_nat_of_le_succ fun K => by rw [Finset.sum_range_succ]; linarith [h0 K]
  · intro b
    have key : ∀ m : Nat, ∃ K, (m : ℝ) * α ≤ ∑ k ∈ Finset.range K, ((Cyclic.start er mult α eb).run α k).2 := by
      intro m
      induction m with
      | zero => exact ⟨0, by simp⟩
      | succ m ih =>
        obtain ⟨K, hK⟩ := ih
        obtain ⟨j, hj, hj'⟩ := C305_full_again er mult α eb K
        refine ⟨j + 1, ?_⟩
        rw [Finset.sum_range_succ, hj']
        have : ∑ k ∈ Finset.range K, ((Cyclic.start er mult α eb).run α k).2 ≤
            ∑ k ∈ Finset.range j, ((Cyclic.start er mult α eb).run α k).2 :=
          Finset.sum_le_sum_of_subset_of_nonneg (Finset.range_mono hj) fun k _ _ => h0 k
        push_cast
        linarith
    obtain ⟨m, hm⟩ := exists_nat_ge (b / α)
    obtain ⟨K, hK⟩ := key m
    refine ⟨K, le_trans ?_ hK⟩
    rwa [div_le_iff₀ hα] at hm

/-! ### Runs -/

theorem next_sgdr {grad : Vec d → Nat → Nat → Vec d} {g : Vec d → Vec d} {n b K : Nat} (hn : 0 < n) (hb : n ≤ b)
    (hg : ∀ x, grad x 0 n = g x) (c : Cyclic) (α : ℝ) (x : Vec d) : ∀ k ≤ K,
      (Tb.next (lift Update.vanilla) (cyclicalDecay (Vec d) (Vec d)) ⟨n, b, K * n, grad, id, id⟩)^[k] ⟨0, α, c, fun _ => (), (), x⟩ =
        ⟨k * n, (c.run α k).2, (c.run α k).1, fun _ => (), (), gradSteps g (fun j => (c.run α j).2) x k⟩ := by
  intro k
  induction k with
  | zero => intro _; simp [gradSteps, Cyclic.run]
  | succ k ih =>
    intro hk
    rw [Function.iterate_succ_apply', ih (by omega)]
    have hm : k * n % n = 0 := Nat.mul_mod_left k n
    have hle : (k + 1) * n ≤ K * n := Nat.mul_le_mul_right n hk
    have hsz : min (min b (K * n - k * n)) (n - k * n % n) = n := by
      rw [hm]
      rw [Nat.add_mul, Nat.one_mul] at hle
      omega
    rw [hm] at hsz
    simp only [Tb.next, hm, hsz, cyclicalDecay, id, hg, gradSteps, Cyclic.run, lift, Update.vanilla]
    rw [Nat.add_mul, Nat.one_mul]
    congr 1

/-- What `Optimize` of a new `SGDR<VanillaUpdate>` returns when every batch is the whole sum and nothing stops the run early. -/
theorem run_sgdr {u : User V (Vec d) (Vec d) E} {grad : Vec d → Nat → Nat → Vec d} {g : Vec d → Vec d}
    (hq : Quiet u grad id id) {p : Params} (hn : 0 < p.numFunctions) (hb : p.numFunctions ≤ p.batchSize)
    (hg : ∀ x, grad x 0 p.numFunctions = g x) {K : Nat} (hK : 0 < K) (hm : p.maxIterations = K * p.numFunctions) {fuel er : Nat}
    {mult α : ℝ} {v : V} {x : Vec d} {r : Result (Live (Fin d → Unit) Cyclic Unit ℝ × V) (Vec d) E}
    (h : sgdrOptimize (lift Update.vanilla) u p true fuel (Obj.new α (Cyclic.new er mult α)) v x = .returned r) :
    r.x = gradSteps g (fun j => ((Cyclic.start er mult α (p.numFunctions / p.batchSize)).run α j).2) x K := by
  unfold sgdrOptimize at h
  obtain ⟨-, k, hk, hlt, hx, -⟩ := C149_sgd_is_textbook hq hn h
  have hpos : 0 < K * p.numFunctions := Nat.mul_pos hK hn
  rw [if_neg (by omega), hm] at hk hlt hx
  have hpro : prologue (lift Update.vanilla) (cyclicalDecay (Vec d) (Vec d)) true x
      (sgdrPrepare p.numFunctions p.batchSize (Obj.new α (Cyclic.new er mult α) : Obj (Fin d → Unit) Cyclic Unit ℝ)) =
      ⟨α, Cyclic.start er mult α (p.numFunctions / p.batchSize), fun _ => (), ()⟩ := by
    simp [prologue, sgdrPrepare, Obj.new, Cyclic.new, Cyclic.start, lift, Update.vanilla, cyclicalDecay]
  rw [hpro] at hk hlt hx
  have hit := next_sgdr (K := K) hn hb hg (Cyclic.start er mult α (p.numFunctions / p.batchSize)) α x
  have hkK : k = K := by
    rcases Nat.lt_trichotomy k K with h1 | h1 | h1
    · have e := hit k h1.le
      simp only at hk
      rw [e] at hk
      exact absurd (Nat.eq_of_mul_eq_mul_right hn hk) (by omega)
    · exact h1
    · have e := hlt K h1
      simp only at e
      rw [hit K le_rfl] at e
      exact absurd e (by simp)
  subst hkK
  rw [hx]
  simp only
  rw [hit k le_rfl]

/-- **C305** Rate of `SGDR<VanillaUpdate>` on a convex `L`-smooth sum when every batch is the whole sum, `α ≤ 1 / L`: the value is at most
the one of any other point `z` plus the squared distance of the start from `z` over twice the sum of the step sizes used; and it is at
most the value of the start. -/
theorem C305_rate {f : Vec d → ℝ} {g : Vec d → Vec d} {L : ℝ} (hs : LSmooth f g L) (hc : ConvexOn ℝ Set.univ f)
    {u : User V (Vec d) (Vec d) E} {grad : Vec d → Nat → Nat → Vec d}
    (hq : Quiet u grad id id) {p : Params} (hn : 0 < p.numFunctions) (hb : p.numFunctions ≤ p.batchSize)
    (hg : ∀ x, grad x 0 p.numFunctions = g x) {K : Nat} (hK : 0 < K) (hm : p.maxIterations = K * p.numFunctions) {fuel er : Nat}
    {mult α : ℝ} (hα : 0 < α) (hαL : α * L ≤ 1) {v : V} {x : Vec d}
    {r : Result (Live (Fin d → Unit) Cyclic Unit ℝ × V) (Vec d) E}
    (h : sgdrOptimize (lift Update.vanilla) u p true fuel (Obj.new α (Cyclic.new er mult α)) v x = .returned r) (z : Vec d) :
    f r.x - f z ≤ ‖x - z‖ ^ 2 /
        (2 * ∑ k ∈ Finset.range K, ((Cyclic.start er mult α (p.numFunctions / p.batchSize)).run α k).2) ∧
      f r.x ≤ f x := by
  rw [run_sgdr hq hn hb hg hK hm h]
  set a : Nat → ℝ := fun j => ((Cyclic.start er mult α (p.numFunctions / p.batchSize)).run α j).2 with ha
  have hr : ∀ k, 0 ≤ a k ∧ a k ≤ α := fun k => C72_sgdr_step_in_range (Cyclic.start er mult α _) hα.le k
  have hL : ∀ k, a k * L ≤ 1 := by
    intro k
    by_cases h : 0 ≤ L
    · exact (mul_le_mul_of_nonneg_right (hr k).2 h).trans hαL
    · have := mul_nonneg (hr k).1 (show 0 ≤ -L by linarith)
      linarith
  constructor
  · have h1 := gradSteps_rate hs hc (fun k => (hr k).1) hL x z K
    have hS : 0 < ∑ k ∈ Finset.range K, a k := by
      refine Finset.sum_pos' (fun k _ => (hr k).1) ⟨0, Finset.mem_range.2 hK, ?_⟩
      show 0 < α
      exact hα
    rw [le_div_iff₀ (by linarith)]
    nlinarith [sq_nonneg ‖gradSteps g a x K - z‖]
  · have : ∀ k, f (gradSteps g a x k) ≤ f x := by
      intro k
      induction k with
      | zero => exact le_rfl
      | succ k ih =>
        refine le_trans ?_ ih
        have := gradSteps_descent hs (hr k).1 (hL k) (gradSteps g a x k)
        rw [gradSteps]
        nlinarith [sq_nonneg ‖g (gradSteps g a x k)‖, (hr k).1]
    exact this K

/-- **C305** Whatever the restart parameters, for every `δ > 0` all sufficiently long runs end within `δ` of the smallest value. -/
theorem C305_converges {f : Vec d → ℝ} {g : Vec d → Vec d} {L : ℝ} (hs : LSmooth f g L) (hc : ConvexOn ℝ Set.univ f)
    (er n b : Nat) (mult : ℝ) {α : ℝ} (hα : 0 < α) (hαL : α * L ≤ 1) (hn : 0 < n) (hb : n ≤ b) (x z : Vec d) {δ : ℝ} (hδ : 0 < δ) :
    ∃ K₀ : Nat, ∀ (V E : Type) (u : User V (Vec d) (Vec d) E) (grad : Vec d → Nat → Nat → Vec d) (p : Params) (fuel : Nat) (v : V)
      (r : Result (Live (Fin d → Unit) Cyclic Unit ℝ × V) (Vec d) E), Quiet u grad id id → p.numFunctions = n → p.batchSize = b →
      (∀ x, grad x 0 n = g x) → (∃ K ≥ K₀, p.maxIterations = K * n) →
      sgdrOptimize (lift Update.vanilla) u p true fuel (Obj.new α (Cyclic.new er mult α)) v x = .returned r → f r.x < f z + δ := by
  have ht := C305_sum_unbounded er mult ((n : ℝ) / b) hα
  obtain ⟨K₁, hK₁⟩ := (tendsto_atTop_atTop.1 ht) (‖x - z‖ ^ 2 / δ + 1)
  refine ⟨K₁ + 1, ?_⟩
  rintro V E u grad p fuel v r hq rfl rfl hg ⟨K, hK, hm⟩ h
  have h1 := (C305_rate hs hc hq hn hb hg (by omega) hm hα hαL h z).1
  have h2 := hK₁ K (by omega)
  have hN : 0 ≤ ‖x - z‖ ^ 2 / δ := by positivity
  set S := ∑ k ∈ Finset.range K, ((Cyclic.start er mult α ((p.numFunctions : ℝ) / p.batchSize)).run α k).2
  have hS : 0 < S := by linarith
  have h3 : ‖x - z‖ ^ 2 / (2 * S) < δ := by
    rw [div_lt_iff₀ (by linarith)]
    have : ‖x - z‖ ^ 2 = ‖x - z‖ ^ 2 / δ * δ := by field_simp
    nlinarith
  linarith

/-- **C305** If the batch size is the number of functions, every step size is the full one or zero: the epochs with step size zero are
wasted. -/
theorem C305_all_or_nothing (er : Nat) (mult α : ℝ) (k : Nat) :
    ((Cyclic.start er mult α 1).run α k).2 = α ∨ ((Cyclic.start er mult α 1).run α k).2 = 0 := by
  have key : ∀ k, ((Cyclic.start er mult α 1).run α k).1.epochBatches = 1 ∧
      (((Cyclic.start er mult α 1).run α k).2 = α ∨ ((Cyclic.start er mult α 1).run α k).2 = 0) := by
    intro k
    induction k with
    | zero => exact ⟨rfl, .inl rfl⟩
    | succ k ih =>
      have hc : ((Cyclic.start er mult α 1).run α k).1.constStepSize = α := Cyclic.run_const _ _ _
      rw [Cyclic.run_succ]
      obtain ⟨h1, h2⟩ := ih
      generalize (Cyclic.start er mult α 1).run α k = q at *
      obtain ⟨c, s⟩ := q
      simp only at h1 h2 hc ⊢
      refine ⟨by
        by_cases g1 : c.epochRestart ≤ c.epoch <;> by_cases g2 : c.nextRestart < c.epoch <;> simp [Cyclic.update, g1, g2, h1], ?_⟩
      unfold Cyclic.update
      split_ifs with he
      · simp only [h1, hc, div_one, Real.cos_nat_mul_pi]
        rcases Nat.even_or_odd c.batchRestart with h | h
        · left; rw [h.neg_one_pow]; ring
        · right; rw [h.neg_one_pow]; ring
      · exact h2
  exact (key k).2

/-- A run that meets the hypotheses: half the squared norm, two functions in one batch. -/
example (x : Vec 3) : LSmooth (half (d := 3)) id 1 ∧ ConvexOn ℝ Set.univ (half (d := 3)) ∧
    Quiet (plainUser (id : Vec 3 → Vec 3)) (fun x _ _ => x) id id ∧ ∃ r,
      sgdrOptimize (lift Update.vanilla) (plainUser (id : Vec 3 → Vec 3)) ⟨2, 2, 20, false, false⟩ true 20
        (Obj.new 1 (Cyclic.new 3 2 1)) () x = .returned r := by
  refine ⟨half_smooth, half_convex, plainUser_quiet _, ?_⟩
  exact C09_sgd_terminates _ ⟨2, 2, 20, false, false⟩ (by decide) (by decide) _ x

end Ens.Converge
