import Verif.Update.Bounds
import Mathlib.Tactic.NormNum

/-
The step of Eve (/repo/include/ensmallen_bits/eve/eve_impl.hpp 129-151): C172 and C173.

As in `Verif/Update/Model.lean` one coordinate is modelled, over ℝ: all operations are elementwise, and the objective, the
iteration counter and `dt` do not depend on the coordinate.
-/

namespace Ens.Epoch.Eve

open Ens.Update

/-- Parameters (eve.hpp 78-92). -/
structure Par where
  b : Betas
  b3 : ℝ
  clip : ℝ
  stepSize : ℝ

/-- `m`, `v`, `dt`, `lastObjective` (eve_impl.hpp 86-98). -/
structure St where
  m : ℝ
  v : ℝ
  dt : ℝ
  last : ℝ

/-- eve_impl.hpp 86-98 -/
def St.init : St := ⟨0, 0, 1, 0⟩

/-- What one step is made from: the loop counter `i`, objective and gradient of the batch. -/
structure In where
  i : Nat
  obj : ℝ
  g : ℝ

/-- eve_impl.hpp 138-146 -/
noncomputable def newDt (p : Par) (s : St) (c : In) : ℝ :=
  if 0 < c.i then
    let d := |c.obj - s.last| / (min c.obj s.last + p.b.eps)
    s.dt * p.b3 + (1 - p.b3) * min (max d (1 / p.clip)) p.clip
  else s.dt

/-- eve_impl.hpp 129-151 -/
noncomputable def step (p : Par) (s : St) (x : ℝ) (c : In) : St × ℝ :=
  let m := s.m * p.b.b1 + (1 - p.b.b1) * c.g
  let v := s.v * p.b.b2 + (1 - p.b.b2) * (c.g * c.g)
  let c1 := 1 - p.b.b1 ^ (c.i + 1)
  let c2 := 1 - p.b.b2 ^ (c.i + 1)
  let dt := newDt p s c
  (⟨m, v, dt, c.obj⟩, x - p.stepSize / dt * (m / c1) / (√(v / c2) + p.b.eps))

/-- A sequence of steps. -/
noncomputable def run (p : Par) : St → ℝ → List In → St × ℝ
  | s, x, [] => (s, x)
  | s, x, c :: l => run p (step p s x c).1 (step p s x c).2 l

theorem run_snoc (p : Par) (l : List In) (c : In) : ∀ s x,
    run p s x (l ++ [c]) = step p (run p s x l).1 (run p s x l).2 c := by
  induction l with
  | nil => intro s x; rfl
  | cons d l ih => intro s x; exact ih _ _

theorem run_inv {p : Par} (I : St → Prop) (h : ∀ s x c, I s → I (step p s x c).1) (l : List In) :
    ∀ s x, I s → I (run p s x l).1 := by
  induction l with
  | nil => intro s x hs; exact hs
  | cons c l ih => intro s x hs; exact ih _ _ (h s x c hs)

/-- Sensible parameters: those of Adam, `0 ≤ beta3 ≤ 1` and `clip ≥ 1`. -/
structure Par.Ok (p : Par) : Prop where
  b : p.b.Ok
  b3 : 0 ≤ p.b3
  b3' : p.b3 ≤ 1
  clip : 1 ≤ p.clip

theorem newDt_mem {p : Par} (hp : p.Ok) {s : St} (c : In) (h : 1 / p.clip ≤ s.dt ∧ s.dt ≤ p.clip) :
    1 / p.clip ≤ newDt p s c ∧ newDt p s c ≤ p.clip := by
  unfold newDt
  split
  · simp only
    generalize |c.obj - s.last| / (min c.obj s.last + p.b.eps) = d
    have hc : 1 / p.clip ≤ p.clip := by
      have h1 : 0 < p.clip := lt_of_lt_of_le one_pos hp.clip
      rw [div_le_iff₀ h1]
      nlinarith [hp.clip]
    have h1 : 1 / p.clip ≤ min (max d (1 / p.clip)) p.clip := le_min (le_max_right _ _) hc
    have h2 : min (max d (1 / p.clip)) p.clip ≤ p.clip := min_le_right _ _
    generalize min (max d (1 / p.clip)) p.clip = q at h1 h2
    have e1 : 0 ≤ 1 - p.b3 := by linarith [hp.b3']
    constructor
    · nlinarith [mul_le_mul_of_nonneg_left h.1 hp.b3, mul_le_mul_of_nonneg_left h1 e1]
    · nlinarith [mul_le_mul_of_nonneg_left h.2 hp.b3, mul_le_mul_of_nonneg_left h2 e1]
  · exact h

/-- **C172** Whatever objectives were seen (negative ones included), the feedback term `dt` by which Eve divides its step size is
within `[1 / clip, clip]`. -/
theorem C172_dt {p : Par} (hp : p.Ok) (l : List In) (x : ℝ) :
    1 / p.clip ≤ (run p St.init x l).1.dt ∧ (run p St.init x l).1.dt ≤ p.clip := by
  refine run_inv (p := p) (fun s => 1 / p.clip ≤ s.dt ∧ s.dt ≤ p.clip) (fun s x c hs => newDt_mem hp c hs) l _ _ ?_
  refine ⟨?_, hp.clip⟩
  rw [div_le_iff₀ (lt_of_lt_of_le one_pos hp.clip)]
  show 1 ≤ 1 * p.clip
  linarith [hp.clip]

/-- **C172** For `beta1² < beta2` no step of Eve moves a coordinate by more than
`stepSize * clip / sqrt((1 - beta2) (1 - beta1² / beta2))`, whatever the gradients, objectives and batch sizes were. -/
theorem C172_bound {p : Par} (hp : p.Ok) (h : p.b.b1 ^ 2 < p.b.b2) (ha : 0 ≤ p.stepSize) (l : List In) (x : ℝ) (c : In) :
    |(run p St.init x (l ++ [c])).2 - (run p St.init x l).2| ≤
      p.stepSize * p.clip / √((1 - p.b.b2) * (1 - p.b.b1 ^ 2 / p.b.b2)) := by
  have hdt := C172_dt hp (l ++ [c]) x
  rw [run_snoc] at hdt ⊢
  have hI := run_inv (p := p) (fun s => 0 ≤ s.v ∧ s.m ^ 2 ≤ (1 - p.b.b1) ^ 2 / adamK p.b * s.v)
    (fun s x c hs => ⟨ema_nonneg hs.1 hp.b.b2 hp.b.b2', cauchy_step hp.b h hs.1 hs.2⟩) l St.init x
    ⟨le_refl _, by simp [St.init]⟩
  generalize run p St.init x l = r at hI hdt ⊢
  have hv := ema_nonneg (g := c.g) hI.1 hp.b.b2 hp.b.b2'
  have hm := cauchy_step (g := c.g) hp.b h hI.1 hI.2
  have hK := adamK_pos hp.b h
  have hq := Real.sqrt_pos.2 hK
  have h1 : 0 < 1 - p.b.b1 := by linarith [hp.b.b1']
  have hcl : 0 < p.clip := lt_of_lt_of_le one_pos hp.clip
  change 1 / p.clip ≤ newDt p r.1 c ∧ newDt p r.1 c ≤ p.clip at hdt
  show |r.2 - p.stepSize / newDt p r.1 c * ((r.1.m * p.b.b1 + (1 - p.b.b1) * c.g) / (1 - p.b.b1 ^ (c.i + 1))) /
    (√((r.1.v * p.b.b2 + (1 - p.b.b2) * (c.g * c.g)) / (1 - p.b.b2 ^ (c.i + 1))) + p.b.eps) - r.2| ≤
    p.stepSize * p.clip / √(adamK p.b)
  rw [sub_sub_cancel_left, abs_neg]
  generalize r.1.m * p.b.b1 + (1 - p.b.b1) * c.g = m at hm ⊢
  generalize r.1.v * p.b.b2 + (1 - p.b.b2) * (c.g * c.g) = v at hv hm ⊢
  generalize newDt p r.1 c = dt at hdt ⊢
  have hdt0 : 0 < dt := lt_of_lt_of_le (by positivity) hdt.1
  have hbc := bias_pos hp.b.b1 hp.b.b1' c.i
  have hbc2 := bias_pos hp.b.b2 hp.b.b2' c.i
  have hbc' : 1 - p.b.b1 ≤ 1 - p.b.b1 ^ (c.i + 1) := by
    have : p.b.b1 ^ (c.i + 1) ≤ p.b.b1 := by
      rw [pow_succ]
      calc p.b.b1 ^ c.i * p.b.b1 ≤ 1 * p.b.b1 :=
            mul_le_mul_of_nonneg_right (pow_le_one₀ hp.b.b1 hp.b.b1'.le) hp.b.b1
        _ = p.b.b1 := one_mul _
    linarith
  have hmabs : |m| ≤ (1 - p.b.b1) / √(adamK p.b) * √v := by
    have : m ^ 2 ≤ ((1 - p.b.b1) / √(adamK p.b) * √v) ^ 2 := by
      rw [mul_pow, div_pow, Real.sq_sqrt hK.le, Real.sq_sqrt hv]
      exact hm
    exact abs_le_of_sq_le_sq this (by positivity)
  have hsq : √v ≤ √(v / (1 - p.b.b2 ^ (c.i + 1))) := by
    apply Real.sqrt_le_sqrt
    rw [le_div_iff₀ hbc2]
    have := bias_le hp.b.b2 (c.i + 1)
    nlinarith
  have hd : 0 < √(v / (1 - p.b.b2 ^ (c.i + 1))) + p.b.eps := by
    have := hp.b.eps
    positivity
  rw [abs_div, abs_mul, abs_div, abs_div, abs_of_nonneg ha, abs_of_pos hdt0, abs_of_pos hbc, abs_of_pos hd]
  rw [div_le_iff₀ hd]
  have e1 : p.stepSize / dt ≤ p.stepSize * p.clip := by
    rw [div_le_iff₀ hdt0]
    have : 1 ≤ p.clip * dt := by
      have := (div_le_iff₀ hcl).1 hdt.1
      linarith
    nlinarith
  have e2 : |m| / (1 - p.b.b1 ^ (c.i + 1)) ≤ 1 / √(adamK p.b) * √v := by
    rw [div_le_iff₀ hbc]
    calc |m| ≤ (1 - p.b.b1) / √(adamK p.b) * √v := hmabs
      _ = 1 / √(adamK p.b) * √v * (1 - p.b.b1) := by ring
      _ ≤ _ := mul_le_mul_of_nonneg_left hbc' (by positivity)
  calc p.stepSize / dt * (|m| / (1 - p.b.b1 ^ (c.i + 1)))
      ≤ p.stepSize * p.clip * (1 / √(adamK p.b) * √v) :=
        mul_le_mul e1 e2 (by positivity) (by positivity)
    _ = p.stepSize * p.clip / √(adamK p.b) * √v := by ring
    _ ≤ p.stepSize * p.clip / √(adamK p.b) * (√(v / (1 - p.b.b2 ^ (c.i + 1))) + p.b.eps) := by
        refine mul_le_mul_of_nonneg_left ?_ (by positivity)
        linarith [hp.b.eps]

/-- The defaults (eve.hpp 78-92) meet the hypotheses. -/
example : (⟨⟨0.9, 0.999, 1e-8⟩, 0.999, 10, 0.001⟩ : Par).Ok ∧ (0.9 : ℝ) ^ 2 < 0.999 :=
  ⟨⟨⟨by norm_num, by norm_num, by norm_num, by norm_num, by norm_num⟩, by norm_num, by norm_num, by norm_num⟩, by norm_num⟩

/-! ### C173: bias correction -/

/-- `n` batches of size `k` with the same gradient: the counter before batch `j` is `j * k`. -/
def batches (k : Nat) (g : ℝ) (obj : Nat → ℝ) (n : Nat) : List In := (List.range n).map fun j => ⟨j * k, obj j, g⟩

theorem batches_succ (k : Nat) (g : ℝ) (obj : Nat → ℝ) (n : Nat) :
    batches k g obj (n + 1) = batches k g obj n ++ [⟨n * k, obj n, g⟩] := by
  simp [batches, List.range_succ]

theorem moments {p : Par} (k : Nat) (g : ℝ) (obj : Nat → ℝ) (x : ℝ) (n : Nat) :
    (run p St.init x (batches k g obj n)).1.m = (1 - p.b.b1 ^ n) * g ∧
    (run p St.init x (batches k g obj n)).1.v = (1 - p.b.b2 ^ n) * (g * g) := by
  induction n with
  | zero => simp [batches, run, St.init]
  | succ n ih =>
    rw [batches_succ, run_snoc]
    constructor
    · show _ * p.b.b1 + _ = _
      rw [ih.1]; ring
    · show _ * p.b.b2 + _ = _
      rw [ih.2]; ring

/-- **C173** With `batchSize = 1` the bias correction of Eve is exact on a constant gradient `g`: every step is
`stepSize / dt * g / (|g| + epsilon)`.  (Partial: `batchSize = 1` only, see `C173_bias_correction_refuted`.) -/
theorem C173_bias_correction_partial {p : Par} (hp : p.Ok) (g : ℝ) (obj : Nat → ℝ) (x : ℝ) (n : Nat) :
    (run p St.init x (batches 1 g obj (n + 1))).2 = (run p St.init x (batches 1 g obj n)).2 -
      p.stepSize / (run p St.init x (batches 1 g obj (n + 1))).1.dt * g / (|g| + p.b.eps) := by
  obtain ⟨hm, hv⟩ := moments (p := p) 1 g obj x (n + 1)
  rw [batches_succ, run_snoc] at hm hv ⊢
  have h1 := bias_pos hp.b.b1 hp.b.b1' n
  have h2 := bias_pos hp.b.b2 hp.b.b2' n
  show (run p St.init x (batches 1 g obj n)).2 - p.stepSize / _ *
    ((step p (run p St.init x (batches 1 g obj n)).1 (run p St.init x (batches 1 g obj n)).2 ⟨n * 1, obj n, g⟩).1.m /
      (1 - p.b.b1 ^ (n * 1 + 1))) /
    (√((step p (run p St.init x (batches 1 g obj n)).1 (run p St.init x (batches 1 g obj n)).2 ⟨n * 1, obj n, g⟩).1.v /
      (1 - p.b.b2 ^ (n * 1 + 1))) + p.b.eps) = _
  rw [hm, hv, Nat.mul_one, mul_div_cancel_left₀ _ h1.ne', mul_div_cancel_left₀ _ h2.ne', Real.sqrt_mul_self_eq_abs]
  rfl

/-- **C173** With larger batches it is not: the exponent of the correction counts functions, the moments count steps
(eve_impl.hpp 135-136, 155). -/
theorem C173_bias_correction_refuted :
    ¬ ∀ (p : Par) (k : Nat) (g : ℝ) (obj : Nat → ℝ) (x : ℝ) (n : Nat), p.Ok → 0 < k →
      (run p St.init x (batches k g obj (n + 1))).2 = (run p St.init x (batches k g obj n)).2 -
        p.stepSize / (run p St.init x (batches k g obj (n + 1))).1.dt * g / (|g| + p.b.eps) := by
  intro h
  have hp : (⟨⟨1 / 2, 0, 1⟩, 1, 1, 1⟩ : Par).Ok :=
    ⟨⟨by norm_num, by norm_num, by norm_num, by norm_num, by norm_num⟩, by norm_num, by norm_num, by norm_num⟩
  have := h ⟨⟨1 / 2, 0, 1⟩, 1, 1, 1⟩ 2 1 (fun _ => 0) 0 1 hp (by norm_num)
  have e : batches 2 1 (fun _ => 0) (1 + 1) = [⟨0, 0, 1⟩, ⟨2, 0, 1⟩] := by
    simp [batches, List.range_succ]
  have e' : batches 2 1 (fun _ => 0) 1 = [⟨0, 0, 1⟩] := by simp [batches, List.range_succ]
  rw [e, e'] at this
  simp only [run, step, newDt, St.init] at this
  norm_num at this

end Ens.Epoch.Eve
