import Mathlib.Analysis.SpecialFunctions.Exp
import Mathlib.Analysis.SpecialFunctions.Pow.NNReal
import Mathlib.Analysis.InnerProductSpace.PiL2
import Mathlib.Tactic.NormNum

/-
The step of SPALeRASGD (/repo/include/ensmallen_bits/spalera_sgd/spalera_stepsize.hpp 87-245): C174, C175 and C221.

Over ℝ; `ι` indexes the elements of the matrix.  `previousIterate` is an empty matrix until the first step
(`none`), and assigning it makes the coordinates an empty matrix, so these are an `Option` too.
-/

namespace Ens.Epoch.Spalera

variable {ι : Type} [Fintype ι]

/-- `alpha`, `epsilon`, `adaptRate`, `lambda` (spalera_stepsize.hpp 249-259). -/
structure Par where
  alpha : ℝ
  eps : ℝ
  rate : ℝ
  lambda : ℝ

/-- spalera_stepsize.hpp 219-244 -/
structure St (ι : Type) where
  mu0 : ℝ
  un : ℝ
  mn : ℝ
  relaxed : ℝ
  ph : Nat
  eve : Nat
  lr : ι → ℝ
  sums : EuclideanSpace ℝ ι
  prev : Option (ι → ℝ)

/-- spalera_stepsize.hpp 99-115 -/
def St.init : St ι := ⟨0, 0, 0, 0, 0, 0, fun _ => 1, 0, none⟩

/-- One call: the step size, objective, batch size, number of functions, gradient. -/
structure In (ι : Type) where
  stepSize : ℝ
  obj : ℝ
  batch : Nat
  n : Nat
  g : EuclideanSpace ℝ ι

/-- Page-Hinkley part (138-162): `relaxedObjective`, `mu0`, `un`, `mn`. -/
noncomputable def pageHinkley (s : St ι) (c : In ι) : St ι :=
  let mb : ℝ := c.batch / c.n
  let relaxed := if (s.ph : ℝ) > 1 / mb then (1 - mb) * s.relaxed + mb * c.obj else (s.ph * s.relaxed + c.obj) / (s.ph + 1)
  let mu0 := (s.ph * s.mu0 + relaxed) / (s.ph + 1)
  let un := s.un + (relaxed - mu0)
  { s with relaxed := relaxed, mu0 := mu0, un := un, mn := if un < s.mn then un else s.mn }

/-- 186-188 -/
noncomputable def paramMean (p : Par) (ι : Type) [Fintype ι] (k : Nat) : ℝ :=
  p.alpha / (2 - p.alpha) * (1 - (1 - p.alpha) ^ (2 * (k + 1))) / Fintype.card ι

/-- 190-191 -/
noncomputable def paramStd (p : Par) (ι : Type) [Fintype ι] : ℝ :=
  p.alpha / √(Fintype.card ι) / √(Fintype.card ι)

/-- 196-198 -/
noncomputable def newSums (p : Par) (s : St ι) (g : EuclideanSpace ℝ ι) : EuclideanSpace ℝ ι :=
  (1 - p.alpha) • s.sums + (if ‖g‖ > p.eps then (p.alpha / ‖g‖) • g else 0)

/-- 129-213: the new state, the coordinates, and the answer. -/
noncomputable def update (p : Par) (s : St ι) (x : ι → ℝ) (c : In ι) : St ι × Option (ι → ℝ) × Bool :=
  let s := pageHinkley s c
  if s.un - s.mn > p.lambda then
    let lr := fun j => s.lr j / 2
    open Classical in
    if ∃ j, lr j ≤ 1e-15 then ({ s with lr := lr }, s.prev, false)
    else (⟨0, 0, 0, 0, 0, 0, lr, s.sums, s.prev⟩, s.prev, true)
  else
    let sums := newSums p s c.g
    let lr := fun j => s.lr j * Real.exp ((sums j ^ 2 - paramMean p ι s.eve) * (p.rate / paramStd p ι))
    (⟨s.mu0, s.un, s.mn, s.relaxed, s.ph + 1, s.eve + 1, lr, sums, some x⟩,
      some fun j => x j - c.stepSize * (lr j * c.g j), true)

/-- The policy object after some calls, each with its own coordinates (between two calls the callbacks and the decay
policy of the optimizer may change them). -/
noncomputable def run (p : Par) : St ι → List ((ι → ℝ) × In ι) → St ι
  | s, [] => s
  | s, (x, c) :: l => run p (update p s x c).1 l

theorem run_snoc (p : Par) (l : List ((ι → ℝ) × In ι)) (x : ι → ℝ) (c : In ι) : ∀ s,
    run p s (l ++ [(x, c)]) = (update p (run p s l) x c).1 := by
  induction l with
  | nil => intro s; rfl
  | cons d l ih => intro s; exact ih _

/-- The calls the optimizer makes: non-empty batches. -/
def In.Ok (c : In ι) : Prop := 0 < c.batch ∧ 0 < c.n

/-- A reset: the objective has risen too much. -/
def Triggers (p : Par) (s : St ι) (c : In ι) : Prop := (pageHinkley s c).un - (pageHinkley s c).mn > p.lambda

/-- First call after a reset, or first call at all. -/
theorem fresh_quiet {p : Par} (hl : 0 ≤ p.lambda) {s : St ι} (h1 : s.ph = 0) (h2 : s.un = 0) (h3 : s.mn = 0) {c : In ι}
    (hc : c.Ok) : ¬ Triggers p s c := by
  have hn : ¬ ((s.ph : ℝ) > 1 / ((c.batch : ℝ) / c.n)) := by
    rw [h1, not_lt, Nat.cast_zero]
    positivity
  unfold Triggers pageHinkley
  simp only [hn, if_false, h1, h2, h3]
  simp
  exact hl

theorem update_quiet {p : Par} {s : St ι} {x : ι → ℝ} {c : In ι} (h : ¬ Triggers p s c) :
    (update p s x c).2.2 = true ∧ (update p s x c).1.prev = some x ∧ (update p s x c).1.ph = s.ph + 1 ∧
    (update p s x c).1.eve = s.eve + 1 ∧ (update p s x c).1.sums = newSums p s c.g ∧
    (∀ j, (update p s x c).1.lr j =
      s.lr j * Real.exp ((newSums p s c.g j ^ 2 - paramMean p ι s.eve) * (p.rate / paramStd p ι))) ∧
    (update p s x c).2.1 = some fun j => x j - c.stepSize * ((update p s x c).1.lr j * c.g j) := by
  unfold Triggers at h
  simp only [update, if_neg h]
  refine ⟨trivial, trivial, rfl, rfl, rfl, fun j => rfl, trivial⟩

theorem update_trigger {p : Par} {s : St ι} {x : ι → ℝ} {c : In ι} (h : Triggers p s c) :
    (update p s x c).2.1 = s.prev ∧ (update p s x c).1.prev = s.prev ∧ (update p s x c).1.sums = s.sums ∧
    (∀ j, (update p s x c).1.lr j = s.lr j / 2) ∧
    ((update p s x c).2.2 = true → (update p s x c).1.ph = 0 ∧ (update p s x c).1.un = 0 ∧ (update p s x c).1.mn = 0 ∧
      ∀ j, 1e-15 < (update p s x c).1.lr j) := by
  unfold Triggers at h
  simp only [update, if_pos h]
  split
  · exact ⟨rfl, rfl, rfl, fun j => rfl, by simp⟩
  · rename_i hn
    refine ⟨rfl, rfl, rfl, fun j => rfl, fun _ => ⟨rfl, rfl, rfl, fun j => ?_⟩⟩
    exact not_le.1 (fun hj => hn ⟨j, hj⟩)

/-! ### C174: the coordinates keep their shape -/

/-- **C174** If `lambda ≥ 0` (the objective at the start is not negative, for the usual positive factor) no call of `Update`
empties the coordinates.  (Partial: see `C174_shape_refuted`.) -/
theorem C174_shape_partial {p : Par} (hl : 0 ≤ p.lambda) (l : List ((ι → ℝ) × In ι)) (hc : ∀ y ∈ l, y.2.Ok) (x : ι → ℝ)
    {c : In ι} (hc' : c.Ok) : (update p (run p St.init l) x c).2.1 ≠ none := by
  have key : ∀ (l : List ((ι → ℝ) × In ι)) (s : St ι), (∀ y ∈ l, y.2.Ok) →
      (s.prev = none → s.ph = 0 ∧ s.un = 0 ∧ s.mn = 0) →
      ((run p s l).prev = none → (run p s l).ph = 0 ∧ (run p s l).un = 0 ∧ (run p s l).mn = 0) := by
    intro l
    induction l with
    | nil => intro s _ h; exact h
    | cons d l ih =>
      intro s hc h
      refine ih _ (fun y hy => hc y (List.mem_cons_of_mem _ hy)) fun hp => ?_
      by_cases ht : Triggers p s d.2
      · rw [(update_trigger ht).2.1] at hp
        obtain ⟨a, b, c⟩ := h hp
        exact absurd ht (fresh_quiet hl a b c (hc d List.mem_cons_self))
      · rw [(update_quiet ht).2.1] at hp; cases hp
  have h := key l St.init hc (fun _ => ⟨rfl, rfl, rfl⟩)
  by_cases ht : Triggers p (run p St.init l) c
  · rw [(update_trigger ht).1]
    intro hp
    obtain ⟨a, b, d⟩ := h hp
    exact fresh_quiet hl a b d hc' ht
  · rw [(update_quiet ht).2.2.2.2.2.2]; simp

/-- **C174** With a negative initial objective (`lambda` is set to that objective times the factor,
spalera_sgd_impl.hpp 116, 132-133) the very first step replaces the coordinates by an empty matrix, and reports success. -/
theorem C174_shape_refuted :
    ¬ ∀ (p : Par) (factor obj : ℝ) (x : Fin 2 → ℝ) (c : In (Fin 2)), 0 < factor → p.lambda = obj * factor → c.Ok →
      (update p St.init x c).2.1 ≠ none := by
  intro h
  refine h ⟨0.001, 1e-6, 3.1e-8, -1 * 0.01⟩ 0.01 (-1) 0 ⟨1, 0, 1, 1, 0⟩ (by norm_num) rfl ⟨by norm_num, by norm_num⟩ ?_
  have ht : Triggers ⟨0.001, 1e-6, 3.1e-8, -1 * 0.01⟩ (St.init : St (Fin 2)) ⟨1, 0, 1, 1, 0⟩ := by
    simp only [Triggers, pageHinkley, St.init]
    norm_num
  rw [(update_trigger ht).1]
  rfl

/-- Both kinds of calls occur: a first step, and a reset after the objective has risen from 0 to 4. -/
example : ¬ Triggers ⟨0.001, 1e-6, 3.1e-8, 0.01⟩ (St.init : St (Fin 2)) ⟨1, 0, 1, 1, 0⟩ :=
  fresh_quiet (by norm_num) rfl rfl rfl ⟨by norm_num, by norm_num⟩
example : Triggers ⟨0.001, 1e-6, 3.1e-8, 0.01⟩ (⟨0, 0, 0, 0, 1, 1, fun _ => 1, 0, some 0⟩ : St (Fin 2)) ⟨1, 4, 1, 1, 0⟩ := by
  simp only [Triggers, pageHinkley]
  norm_num

/-! ### C175: backtracking and learning rates -/

/-- **C175** When a call resets, the coordinates become exactly those handed to the call before it (which made a step), all
learning rates are halved, and the call after a reset makes a step. -/
theorem C175_backtrack {p : Par} (hl : 0 ≤ p.lambda) {s : St ι} {x₀ x : ι → ℝ} {c₀ c : In ι} (hc : c.Ok)
    (hok : (update p s x₀ c₀).2.2 = true) (ht : Triggers p (update p s x₀ c₀).1 c) :
    (update p (update p s x₀ c₀).1 x c).2.1 = some x₀ ∧ ¬ Triggers p s c₀ ∧
    (∀ j, (update p (update p s x₀ c₀).1 x c).1.lr j = (update p s x₀ c₀).1.lr j / 2) ∧
    ((update p (update p s x₀ c₀).1 x c).2.2 = true → ∀ c', c'.Ok →
      ¬ Triggers p (update p (update p s x₀ c₀).1 x c).1 c') := by
  have h0 : ¬ Triggers p s c₀ := by
    intro h
    obtain ⟨a, b, d, _⟩ := (update_trigger (x := x₀) h).2.2.2.2 hok
    exact fresh_quiet hl a b d hc ht
  obtain ⟨t1, _, _, t4, t5⟩ := update_trigger (x := x) ht
  refine ⟨by rw [t1, (update_quiet h0).2.1], h0, t4, fun hok' c' hc' => ?_⟩
  obtain ⟨a, b, d, _⟩ := t5 hok'
  exact fresh_quiet hl a b d hc'

theorem newSums_norm {p : Par} (ha : 0 ≤ p.alpha) (ha' : p.alpha ≤ 1) {s : St ι} (h : ‖s.sums‖ ≤ 1)
    (g : EuclideanSpace ℝ ι) : ‖newSums p s g‖ ≤ 1 := by
  have h2 : ‖(if ‖g‖ > p.eps then (p.alpha / ‖g‖) • g else 0)‖ ≤ p.alpha := by
    split
    · rw [norm_smul, Real.norm_of_nonneg (by positivity)]
      by_cases hg : ‖g‖ = 0
      · rw [hg]; simpa using ha
      · rw [div_mul_cancel₀ _ hg]
    · simpa using ha
  unfold newSums
  refine le_trans (norm_add_le _ _) ?_
  rw [norm_smul, Real.norm_of_nonneg (by linarith)]
  have : (1 - p.alpha) * ‖s.sums‖ ≤ (1 - p.alpha) * 1 := mul_le_mul_of_nonneg_left h (by linarith)
  linarith

/-- **C175** Learning rates stay positive, and after any `n` calls none exceeds `exp(n * adaptRate / paramStd)`, which is
`exp(n * adaptRate * elements / alpha)`; the relaxed sums stay in the unit ball. -/
theorem C175_rates {p : Par} (ha : 0 < p.alpha) (ha' : p.alpha ≤ 1) (hr : 0 ≤ p.rate)
    (l : List ((ι → ℝ) × In ι)) :
    ‖(run p St.init l).sums‖ ≤ 1 ∧ ∀ j, 0 < (run p St.init l).lr j ∧
      (run p St.init l).lr j ≤ Real.exp (l.length * (p.rate * Fintype.card ι / p.alpha)) := by
  induction l using List.reverseRecOn with
  | nil => exact ⟨by simp [run, St.init], fun j => by simp [run, St.init]⟩
  | append_singleton l d ih =>
    obtain ⟨x, c⟩ := d
    rw [run_snoc]
    have hC : 0 ≤ p.rate * Fintype.card ι / p.alpha := by positivity
    have hlen : ((l ++ [(x, c)]).length : ℝ) * (p.rate * Fintype.card ι / p.alpha) =
        l.length * (p.rate * Fintype.card ι / p.alpha) + p.rate * Fintype.card ι / p.alpha := by
      rw [List.length_append]; push_cast; simp; ring
    by_cases ht : Triggers p (run p St.init l) c
    · obtain ⟨_, _, h3, h4, _⟩ := update_trigger (x := x) ht
      refine ⟨by rw [h3]; exact ih.1, fun j => ?_⟩
      rw [h4, hlen, Real.exp_add]
      obtain ⟨i1, i2⟩ := ih.2 j
      refine ⟨by linarith, ?_⟩
      have : 1 ≤ Real.exp (p.rate * Fintype.card ι / p.alpha) := Real.one_le_exp hC
      nlinarith [Real.exp_pos (l.length * (p.rate * Fintype.card ι / p.alpha))]
    · obtain ⟨_, _, _, _, h5, h6, _⟩ := update_quiet (x := x) ht
      have hs := newSums_norm ha.le ha' ih.1 c.g
      refine ⟨by rw [h5]; exact hs, fun j => ?_⟩
      obtain ⟨i1, i2⟩ := ih.2 j
      rw [h6, hlen, Real.exp_add]
      refine ⟨mul_pos i1 (Real.exp_pos _), mul_le_mul i2 (Real.exp_le_exp.2 ?_) (Real.exp_pos _).le (Real.exp_pos _).le⟩
      have hcard : (0 : ℝ) < Fintype.card ι := by
        have : 0 < Fintype.card ι := Fintype.card_pos_iff.2 ⟨j⟩
        exact_mod_cast this
      have hstd : p.rate / paramStd p ι = p.rate * Fintype.card ι / p.alpha := by
        unfold paramStd
        rw [div_div, Real.mul_self_sqrt hcard.le]
        field_simp
      have hmean : 0 ≤ paramMean p ι (run p St.init l).eve := by
        unfold paramMean
        have : (1 - p.alpha) ^ (2 * ((run p (St.init : St ι) l).eve + 1)) ≤ 1 :=
          pow_le_one₀ (by linarith) (by linarith)
        have h1 : 0 ≤ 1 - (1 - p.alpha) ^ (2 * ((run p (St.init : St ι) l).eve + 1)) := by linarith
        have h2 : 0 < 2 - p.alpha := by linarith
        positivity
      have hsj : newSums p (run p St.init l) c.g j ^ 2 ≤ 1 := by
        have h1 := EuclideanSpace.norm_sq_eq (newSums p (run p St.init l) c.g)
        have h2 : ‖newSums p (run p St.init l) c.g j‖ ^ 2 ≤ ∑ k, ‖newSums p (run p St.init l) c.g k‖ ^ 2 :=
          Finset.single_le_sum (f := fun k => ‖newSums p (run p St.init l) c.g k‖ ^ 2) (fun k _ => by positivity)
            (Finset.mem_univ j)
        rw [← h1, Real.norm_eq_abs, sq_abs] at h2
        nlinarith [norm_nonneg (newSums p (run p St.init l) c.g)]
      rw [hstd]
      calc _ ≤ 1 * (p.rate * Fintype.card ι / p.alpha) := mul_le_mul_of_nonneg_right (by linarith) hC
        _ = _ := one_mul _

/-- The defaults (spalera_stepsize.hpp 50-52). -/
example : (0 : ℝ) < 0.001 ∧ (0.001 : ℝ) ≤ 1 ∧ (0 : ℝ) ≤ 3.10e-8 := by norm_num

/-! ### C221: the Page-Hinkley test -/

/-- `r` is the relaxed objective of the calls `c 0, c 1, …` since the last reset: the running mean as long as no more calls
were made than there are batches in an epoch, an exponential average with weight `batch / n` afterwards. -/
def Relaxed (c : Nat → In ι) (r : Nat → ℝ) : Prop :=
  r 0 = (c 0).obj ∧ ∀ i, r (i + 1) =
    if ((i + 1 : ℕ) : ℝ) > (c (i + 1)).n / (c (i + 1)).batch then
      (1 - ((c (i + 1)).batch : ℝ) / (c (i + 1)).n) * r i + ((c (i + 1)).batch : ℝ) / (c (i + 1)).n * (c (i + 1)).obj
    else (((i + 1 : ℕ) : ℝ) * r i + (c (i + 1)).obj) / ((i + 1 : ℕ) + 1)

/-- The cumulated deviations of the first `k` relaxed objectives from their running means. -/
noncomputable def deviation (r : Nat → ℝ) (k : Nat) : ℝ :=
  ∑ i ∈ Finset.range k, (r i - (∑ j ∈ Finset.range (i + 1), r j) / (i + 1))

/-- The state of the test after `k` calls that made a step. -/
def Tests (r : Nat → ℝ) (k : Nat) (s : St ι) : Prop :=
  s.ph = k ∧ (0 < k → s.relaxed = r (k - 1)) ∧ s.mu0 * k = ∑ j ∈ Finset.range k, r j ∧ s.un = deviation r k ∧
    (∀ i ≤ k, s.mn ≤ deviation r i) ∧ ∃ i ≤ k, s.mn = deviation r i

theorem tests_next {c : Nat → In ι} (hc : ∀ i, (c i).Ok) {r : Nat → ℝ} (hr : Relaxed c r) {k : Nat} {s : St ι}
    (h : Tests r k s) :
    (pageHinkley s (c k)).relaxed = r k ∧ (pageHinkley s (c k)).mu0 * (k + 1) = ∑ j ∈ Finset.range (k + 1), r j ∧
      (pageHinkley s (c k)).un = deviation r (k + 1) ∧ (∀ i ≤ k + 1, (pageHinkley s (c k)).mn ≤ deviation r i) ∧
      ∃ i ≤ k + 1, (pageHinkley s (c k)).mn = deviation r i := by
  obtain ⟨h1, h2, h3, h4, h5, i0, hi0, h6⟩ := h
  have e1 : (pageHinkley s (c k)).relaxed = r k := by
    simp only [pageHinkley, h1, one_div_div]
    rcases k with _ | k
    · have : ¬ ((0 : ℝ) > (c 0).n / (c 0).batch) := not_lt.2 (by positivity)
      simp [this, hr.1]
    · rw [hr.2 k, h2 (by omega)]
      rfl
  have hk : (k : ℝ) + 1 ≠ 0 := by positivity
  have e2 : (pageHinkley s (c k)).mu0 * (k + 1) = ∑ j ∈ Finset.range (k + 1), r j := by
    have : (pageHinkley s (c k)).mu0 = (s.ph * s.mu0 + (pageHinkley s (c k)).relaxed) / (s.ph + 1) := rfl
    rw [this, e1, h1, div_mul_cancel₀ _ hk, Finset.sum_range_succ, ← h3]
    ring
  have e3 : (pageHinkley s (c k)).un = deviation r (k + 1) := by
    have : (pageHinkley s (c k)).un = s.un + ((pageHinkley s (c k)).relaxed - (pageHinkley s (c k)).mu0) := rfl
    rw [this, e1, h4, deviation, deviation, Finset.sum_range_succ _ k, ← e2, mul_div_cancel_right₀ _ hk]
  refine ⟨e1, e2, e3, ?_, ?_⟩
  · have e4 : (pageHinkley s (c k)).mn = if (pageHinkley s (c k)).un < s.mn then (pageHinkley s (c k)).un else s.mn := rfl
    rw [e4, e3]
    intro i hi
    rcases Nat.lt_or_ge k i with h | h
    · obtain rfl : i = k + 1 := by omega
      split <;> linarith
    · have := h5 i h
      split <;> linarith
  · have e4 : (pageHinkley s (c k)).mn = if (pageHinkley s (c k)).un < s.mn then (pageHinkley s (c k)).un else s.mn := rfl
    rw [e4, e3]
    split
    · exact ⟨k + 1, le_refl _, rfl⟩
    · exact ⟨i0, by omega, h6⟩

/-- The states of the policy from `s` on, call `i` made at `x i`. -/
noncomputable def after (p : Par) (x : Nat → ι → ℝ) (c : Nat → In ι) (s : St ι) : Nat → St ι
  | 0 => s
  | k + 1 => (update p (after p x c s k) (x k) (c k)).1

theorem tests_after {p : Par} {x : Nat → ι → ℝ} {c : Nat → In ι} (hc : ∀ i, (c i).Ok) {r : Nat → ℝ} (hr : Relaxed c r)
    {s : St ι} (h1 : s.ph = 0) (h2 : s.un = 0) (h3 : s.mn = 0) (k : Nat)
    (hq : ∀ i < k, ¬ Triggers p (after p x c s i) (c i)) : Tests r k (after p x c s k) := by
  induction k with
  | zero => exact ⟨h1, fun h => absurd h (by omega), by simp, by simpa [deviation, after] using h2,
      fun i hi => by obtain rfl : i = 0 := by omega
                     simp [deviation, after, h3],
      0, le_refl _, by simp [deviation, after, h3]⟩
  | succ k ih =>
    have ht := ih fun i hi => hq i (by omega)
    obtain ⟨e1, e2, e3, e4, e5⟩ := tests_next hc hr ht
    have hk := hq k (by omega)
    have hu : ∀ s : St ι, ¬ Triggers p s (c k) →
        (update p s (x k) (c k)).1.relaxed = (pageHinkley s (c k)).relaxed ∧
        (update p s (x k) (c k)).1.mu0 = (pageHinkley s (c k)).mu0 ∧
        (update p s (x k) (c k)).1.un = (pageHinkley s (c k)).un ∧
        (update p s (x k) (c k)).1.mn = (pageHinkley s (c k)).mn := by
      intro s h
      unfold Triggers at h
      simp only [update, if_neg h]
      exact ⟨trivial, trivial, trivial, trivial⟩
    obtain ⟨u1, u2, u3, u4⟩ := hu _ hk
    rw [after]
    refine ⟨?_, fun _ => ?_, ?_, ?_, ?_, ?_⟩
    · rw [(update_quiet hk).2.2.1, ht.1]
    · rw [u1, e1]; rfl
    · rw [u2]; push_cast; exact e2
    · rw [u3, e3]
    · rw [u4]; exact e4
    · rw [u4]; exact e5

/-- **C221** From a reset (or the first call) on, as long as every call makes a step, call `k` resets exactly if the
cumulated deviation of the relaxed objective from its running mean has risen by more than `lambda` above one of its earlier
values (0 at the start). -/
theorem C221_test {p : Par} {x : Nat → ι → ℝ} {c : Nat → In ι} (hc : ∀ i, (c i).Ok) {r : Nat → ℝ} (hr : Relaxed c r)
    {s : St ι} (h1 : s.ph = 0) (h2 : s.un = 0) (h3 : s.mn = 0) (k : Nat)
    (hq : ∀ i < k, ¬ Triggers p (after p x c s i) (c i)) :
    (Triggers p (after p x c s k) (c k) ↔ ∃ i ≤ k + 1, deviation r (k + 1) - deviation r i > p.lambda) ∧
    ((update p (after p x c s k) (x k) (c k)).2.1 = some (fun j =>
        x k j - (c k).stepSize * ((update p (after p x c s k) (x k) (c k)).1.lr j * (c k).g j)) ∨
      ∃ i ≤ k + 1, deviation r (k + 1) - deviation r i > p.lambda) := by
  have key : Triggers p (after p x c s k) (c k) ↔ ∃ i ≤ k + 1, deviation r (k + 1) - deviation r i > p.lambda := by
    obtain ⟨e1, e2, e3, e4, i0, hi0, e5⟩ := tests_next hc hr (tests_after hc hr h1 h2 h3 k hq)
    unfold Triggers
    rw [e3]
    constructor
    · intro h; exact ⟨i0, hi0, by rwa [← e5]⟩
    · rintro ⟨i, hi, h⟩
      have := e4 i hi
      linarith
  refine ⟨key, ?_⟩
  by_cases ht : Triggers p (after p x c s k) (c k)
  · exact Or.inr (key.1 ht)
  · exact Or.inl (update_quiet ht).2.2.2.2.2.2

/-- **C221** In the first epoch after a reset — as long as no more calls were made than there are batches — the relaxed
objective is the plain mean of the objectives seen. -/
theorem C221_mean {c : Nat → In ι} {r : Nat → ℝ} (hr : Relaxed c r) (k : Nat)
    (he : ∀ i ≤ k, (i : ℝ) ≤ (c i).n / (c i).batch) : r k * (k + 1) = ∑ i ∈ Finset.range (k + 1), (c i).obj := by
  induction k with
  | zero => simp [hr.1]
  | succ k ih =>
    rw [hr.2 k, if_neg (not_lt.2 (he (k + 1) (le_refl _))), div_mul_cancel₀ _ (by positivity), Finset.sum_range_succ,
      ← ih fun i hi => he i (by omega)]
    push_cast
    ring

/-- Every sequence of calls has its relaxed objective. -/
theorem exists_relaxed (c : Nat → In ι) : ∃ r, Relaxed c r := by
  refine ⟨fun k => Nat.rec (c 0).obj (fun i ri =>
    if ((i + 1 : ℕ) : ℝ) > (c (i + 1)).n / (c (i + 1)).batch then
      (1 - ((c (i + 1)).batch : ℝ) / (c (i + 1)).n) * ri + ((c (i + 1)).batch : ℝ) / (c (i + 1)).n * (c (i + 1)).obj
    else (((i + 1 : ℕ) : ℝ) * ri + (c (i + 1)).obj) / ((i + 1 : ℕ) + 1)) k, rfl, fun i => rfl⟩

/-- Two calls with objectives 0 and 4 from the start: the second one resets. -/
example : ∃ (c : Nat → In (Fin 1)) (r : Nat → ℝ), (∀ i, (c i).Ok) ∧ Relaxed c r ∧ deviation r 2 - deviation r 0 > 0.01 := by
  obtain ⟨r, hr⟩ := exists_relaxed fun i : Nat => (⟨1, if i = 0 then 0 else 4, 1, 2, 0⟩ : In (Fin 1))
  refine ⟨_, r, fun i => ⟨by norm_num, by norm_num⟩, hr, ?_⟩
  have h0 : r 0 = 0 := hr.1
  have h1 := hr.2 0
  norm_num [h0] at h1
  simp [deviation, Finset.sum_range_succ, h0, h1]
  norm_num

end Ens.Epoch.Spalera
