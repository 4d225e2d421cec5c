import Mathlib.Analysis.Convex.Function
import Verif.Lookahead.Props

/-
C277: on convex objectives Lookahead inherits descent and linear convergence from its base optimizer.
-/

namespace Ens.Lookahead

variable {W E V : Type} [AddCommGroup V] [Module ℝ V]

/-- Line 172 with a step size between 0 and 1 on a convex function. -/
theorem convex_step {f : V → ℝ} (hf : ConvexOn ℝ Set.univ f) {s : ℝ} (h0 : 0 ≤ s) (h1 : s ≤ 1) (x m : V) :
    f (x + s • (m - x)) ≤ (1 - s) * f x + s * f m := by
  have h := hf.2 (Set.mem_univ x) (Set.mem_univ m) (sub_nonneg.2 h1) h0 (by ring)
  have he : (1 - s) • x + s • m = x + s • (m - x) := by module
  rw [he] at h
  simpa using h

/-- All coordinates a run passes through satisfy `P`, if the start does and an inner run with synchronisation keeps it. -/
theorem Rounds.keep {env : Env W V E ℝ} {x₀ : V} {s₀ : ℝ} {n t x s last b} (h : Rounds env x₀ s₀ n t x s last b)
    (hstep : ∀ w y, (env.cbStep w y).2.1 = y) (hdec : ∀ w y s m, (env.decay w y s m).2 = (y, s))
    (P : Nat → V → Prop) (h0 : P 0 x₀)
    (hP : ∀ n y w, P n y → P (n + 1) (env.lerp s₀ y (env.inner w y).2.2.1)) : P n x ∧ s = s₀ := by
  induction h with
  | nil => exact ⟨h0, rfl⟩
  | @snoc n t x s last w w' w'' obj m cbs x₁ s₁ x₂ b prev hin hde hbad hclose hst ih =>
    obtain ⟨ih1, ih2⟩ := ih
    rw [hdec] at hde
    cases hde
    have hx : x₂ = env.lerp s x m := by
      have := hstep w'' (env.lerp s x m)
      rw [hst] at this
      exact this
    rw [hx, ih2]
    have hm : m = (env.inner w x).2.2.1 := by rw [hin]
    rw [hm]
    exact ⟨hP _ _ _ ih1, rfl⟩

/-- **C277** Let the objective be convex, the step size between 0 and 1, without decay, the callbacks leave the
coordinates alone, and let every inner run bring the objective closer to its infimum `fmin` by a factor `q`
(`q = 1`: it does not increase it). Then after `n` synchronisations the objective is closer by the factor
`(1 - step + step * q) ^ n`, both for a run that ends at its limit or by a stop request and for one that ends with the
coordinates of an inner run, which brings a further factor `q`. -/
theorem C277_rate (env : Env W V E ℝ) (f : V → ℝ) (hf : ConvexOn ℝ Set.univ f)
    (hlerp : ∀ s x m, env.lerp s x m = x + s • (m - x)) (hdec : ∀ w y s m, (env.decay w y s m).2 = (y, s))
    (hbegin : ∀ w y, (env.cbBegin w y).2 = y) (hstep : ∀ w y, (env.cbStep w y).2.1 = y) (fmin q : ℝ) (hq : 0 ≤ q)
    (hin : ∀ w y, f (env.inner w y).2.2.1 - fmin ≤ q * (f y - fmin))
    (p : Params) (step : ℝ) (h0 : 0 ≤ step) (h1 : step ≤ 1) (w : W) (x : V) (r : Result V E ℝ)
    (hr : optimize env p step w x = some r) :
    ∃ n, n = syncs r.trace ∧
      f r.x - fmin ≤ (if r.exit = .loop then 1 else q) * ((1 - step + step * q) ^ n * (f x - fmin)) := by
  obtain ⟨n, t, y, sy, last, b, h2, h3, h4⟩ := C61_run_shape env p step w x r hr
  have hsync : syncs r.trace = n := by
    obtain ⟨c1, _⟩ := h2.counts
    rcases h4 with ⟨_, _, _, ⟨_, _, ht⟩ | ⟨_, t', hp', ht⟩⟩ | ⟨_, _, w₁, w₂, cbs, x₁, s₁, _, _, ht, _⟩
    · rw [ht]; simp only [syncs, List.countP_append] at *; rw [c1]; simp
    · obtain ⟨d1, _⟩ := hp'.counts
      rw [ht]; simp only [syncs, List.countP_append] at *; rw [c1, d1]; simp
    · rw [ht]; simp only [syncs, List.countP_append] at *; rw [c1]; simp
  have hρ : 0 ≤ 1 - step + step * q := add_nonneg (sub_nonneg.2 h1) (mul_nonneg h0 hq)
  have hk := h2.keep hstep hdec (fun n y => f y - fmin ≤ (1 - step + step * q) ^ n * (f x - fmin))
    (by rw [hbegin, pow_zero, one_mul]) (by
      intro n y w' hy
      have hc := convex_step hf h0 h1 y (env.inner w' y).2.2.1
      rw [← hlerp] at hc
      have hi := mul_le_mul_of_nonneg_left (hin w' y) h0
      have hm := mul_le_mul_of_nonneg_left hy hρ
      have e1 : (1 - step + step * q) * (f y - fmin) = (1 - step) * f y + step * (q * (f y - fmin)) - fmin + step * fmin := by
        ring
      rw [pow_succ]
      have e2 : (1 - step + step * q) * ((1 - step + step * q) ^ n * (f x - fmin))
          = (1 - step + step * q) ^ n * (1 - step + step * q) * (f x - fmin) := by ring
      rw [e2] at hm
      rw [e1] at hm
      linarith)
  refine ⟨n, hsync.symm, ?_⟩
  rcases h4 with ⟨he, hx, _⟩ | ⟨_, _, w₁, w₂, cbs, x₁, s₁, hi, _, _, he⟩
  · rw [if_pos he, one_mul, hx]; exact hk.1
  · have hne : r.exit ≠ .loop := by rcases he with ⟨he, _⟩ | ⟨he, _⟩ <;> rw [he] <;> decide
    rw [if_neg hne]
    have := hin w₁ y
    rw [hi] at this
    exact this.trans (mul_le_mul_of_nonneg_left hk.1 hq)

/-- **C277** With an inner optimizer that never increases the convex objective, the objective at the returned
coordinates is at most that at the starting point. -/
theorem C277_descent (env : Env W V E ℝ) (f : V → ℝ) (hf : ConvexOn ℝ Set.univ f)
    (hlerp : ∀ s x m, env.lerp s x m = x + s • (m - x)) (hdec : ∀ w y s m, (env.decay w y s m).2 = (y, s))
    (hbegin : ∀ w y, (env.cbBegin w y).2 = y) (hstep : ∀ w y, (env.cbStep w y).2.1 = y)
    (hin : ∀ w y, f (env.inner w y).2.2.1 ≤ f y)
    (p : Params) (step : ℝ) (h0 : 0 ≤ step) (h1 : step ≤ 1) (w : W) (x : V) (r : Result V E ℝ)
    (hr : optimize env p step w x = some r) : f r.x ≤ f x := by
  obtain ⟨n, _, h⟩ := C277_rate env f hf hlerp hdec hbegin hstep 0 1 zero_le_one
    (fun w y => by simpa using hin w y) p step h0 h1 w x r hr
  simp only [ite_self, mul_one, one_mul, sub_zero] at h
  rwa [sub_add_cancel, one_pow, one_mul] at h

/-- **C277** The convexity is needed: without it the objective may increase: an inner run from -1 to 1 lowers the value of a
function with a hill at 0, the synchronisation half-way ends on the hill. -/
theorem C277_convexity_needed :
    ¬ ∀ (env : Env Unit ℝ ℝ ℝ) (f : ℝ → ℝ), (∀ s x m, env.lerp s x m = x + s • (m - x)) →
      (∀ w y s m, (env.decay w y s m).2 = (y, s)) → (∀ w y, (env.cbBegin w y).2 = y) →
      (∀ w y, (env.cbStep w y).2.1 = y) → (∀ w y, f (env.inner w y).2.2.1 ≤ f y) →
      ∀ (p : Params) (w : Unit) (x : ℝ) (r : Result ℝ ℝ ℝ), optimize env p 0.5 w x = some r → f r.x ≤ f x := by
  classical
  intro h
  let f : ℝ → ℝ := fun x => if x = 0 then 1 else if x = 1 then 0 else 0.5
  let env : Env Unit ℝ ℝ ℝ :=
    { inner := fun w y => (w, f 1, if y = -1 then 1 else y, []), decay := fun w y s _ => (w, y, s),
      lerp := fun s x m => x + s • (m - x), cbBegin := fun w y => (w, y), cbStep := fun w y => (w, y, false),
      evaluate := fun w y _ _ => (w, f y), cbEvaluate := fun w _ _ => (w, false), add := (· + ·), zero := 0, dblMax := 9,
      isBad := fun _ => false, isClose := fun _ _ => false }
  have hr : optimize env ⟨1, false, 1, 1⟩ 0.5 () (-1)
      = some ⟨.loop, f 1, (-1 : ℝ) + (0.5 : ℝ) • ((if (-1 : ℝ) = -1 then (1 : ℝ) else -1) - (-1)), _⟩ := rfl
  have := h env f (fun _ _ _ => rfl) (fun _ _ _ _ => rfl) (fun _ _ => rfl) (fun _ _ => rfl) (by
    intro w y
    show f (if y = -1 then 1 else y) ≤ f y
    split_ifs with hy
    · subst hy; simp only [f]; norm_num
    · exact le_rfl) ⟨1, false, 1, 1⟩ () (-1) _ hr
  simp only [f, if_true, smul_eq_mul] at this
  norm_num at this

/-- Non-vacuity: halving steps towards 0 on the square. -/
example : ∃ (env : Env Unit ℝ ℝ ℝ) (q : ℝ), 0 ≤ q ∧ q < 1 ∧ (∀ s x m, env.lerp s x m = x + s • (m - x)) ∧
    (∀ w y s m, (env.decay w y s m).2 = (y, s)) ∧ (∀ w y, (env.cbBegin w y).2 = y) ∧ (∀ w y, (env.cbStep w y).2.1 = y) ∧
    (∀ w y, (env.inner w y).2.2.1 ^ 2 - 0 ≤ q * (y ^ 2 - 0)) ∧
    ∃ r, optimize env ⟨2, false, 1, 1⟩ 0.5 () 1 = some r := by
  let env : Env Unit ℝ ℝ ℝ :=
    { inner := fun w y => (w, 0, y / 2, []), decay := fun w y s _ => (w, y, s),
      lerp := fun s x m => x + s • (m - x), cbBegin := fun w y => (w, y), cbStep := fun w y => (w, y, false),
      evaluate := fun w y _ _ => (w, y ^ 2), cbEvaluate := fun w _ _ => (w, false), add := (· + ·), zero := 0,
      dblMax := 9, isBad := fun _ => false, isClose := fun _ _ => false }
  refine ⟨env, 1 / 4, by norm_num, by norm_num, fun _ _ _ => rfl, fun _ _ _ _ => rfl, fun _ _ => rfl, fun _ _ => rfl,
    fun w y => ?_, ⟨_, rfl⟩⟩
  show (y / 2) ^ 2 - 0 ≤ _
  apply le_of_eq
  ring

end Ens.Lookahead
