import Verif.Gd.Props
import Verif.Gd.Textbook
import Verif.Converge.LbfgsDir

/-
C257: what the tolerance test of gradient descent says about the objective.
-/

namespace Ens.Converge

open Ens.Gd
open scoped InnerProductSpace

variable {V W : Type} [NormedAddCommGroup V] [InnerProductSpace ℝ V]

/-- Gradient descent in exact arithmetic on `f` with gradient `g`: callbacks may ask to stop at any time, but leave
gradient and coordinates as they are (gradient_descent/gradient_descent_impl.hpp:71-105). -/
structure GdExact (env : Gd.Env W V V ℝ) (f : V → ℝ) (g : V → V) (η tol : ℝ) : Prop where
  steady : Steady env f g id id
  move : ∀ x d, env.move x d = x - η • d
  isBad : ∀ v, env.isBad v = false
  isClose : ∀ a b, env.isClose a b = true ↔ |a - b| < tol

variable {env : Gd.Env W V V ℝ} {f : V → ℝ} {g : V → V} {η tol : ℝ}

theorem GdExact.path_succ (h : GdExact env f g η tol) (x : V) (j : Nat) :
    path env g id id x (j + 1) = path env g id id x j - η • g (path env g id id x j) := by
  unfold path
  rw [Function.iterate_succ_apply']
  exact h.move _ _

theorem GdExact.decrease (h : GdExact env f g η tol) {L : ℝ} (hs : LSmooth f g L) (hη : 0 < η) (hL : L * η ≤ 1) (x : V)
    (j : Nat) : f (path env g id id x (j + 1)) ≤ f (path env g id id x j) - η / 2 * ‖g (path env g id id x j)‖ ^ 2 := by
  rw [h.path_succ]
  exact iter_decrease hs hη hL _

/-- **C257** On a `μ`-strongly convex function with `L`-Lipschitz gradient and a step size of at most `1 / L`, a return by
the tolerance test means that the objective at the returned coordinates is within `tolerance / (stepSize μ)` of every other
value. (The first objective is compared with the largest number: `hfar`.) -/
theorem C257_tolerance (h : GdExact env f g η tol) {μ L : ℝ} (hμ : 0 < μ) (hsc : StronglyConvex f g μ)
    (hs : LSmooth f g L) (hη : 0 < η) (hL : L * η ≤ 1) {mi fuel : Nat} {w : W} {x : V}
    (hfar : tol ≤ |env.maxVal - f x|) {r : Gd.Result W V ℝ} (hr : optimize env mi fuel w x = some r)
    (he : r.exit = .tol) (z : V) : f r.x - f z < tol / (η * μ) := by
  obtain ⟨k, -, -, h2⟩ := C151_gd_is_textbook h.steady hr
  obtain ⟨m, -, hx, -, -, h3⟩ := h2 (by rw [he]; simp)
  have hc := (h.isClose _ _).1 (h3 he).2
  rw [hx]
  cases m with
  | zero => exact absurd hc (not_lt.2 hfar)
  | succ m =>
    simp only [prevObj] at hc
    set y := path env g id id x with hy
    have hd := h.decrease hs hη hL x m
    rw [← hy] at hd
    have h4 : f (y m) - f (y (m + 1)) < tol := (le_abs_self _).trans_lt hc
    have hg := hsc.gap hμ (y m) z
    rw [le_div_iff₀ (by positivity)] at hg
    rw [lt_div_iff₀ (by positivity)]
    have hn : 0 ≤ ‖g (y m)‖ ^ 2 := by positivity
    have h5 : η * ((f (y m) - f z) * (2 * μ)) ≤ η * ‖g (y m)‖ ^ 2 := mul_le_mul_of_nonneg_left hg hη.le
    have h6 : f (y (m + 1)) ≤ f (y m) := by
      have : 0 ≤ η / 2 * ‖g (y m)‖ ^ 2 := by positivity
      linarith
    have h7 : (f (y (m + 1)) - f z) * (η * μ) ≤ (f (y m) - f z) * (η * μ) :=
      mul_le_mul_of_nonneg_right (by linarith) (by positivity)
    linarith

/-- **C257** On a function with `L`-Lipschitz gradient that is bounded below by `lb`, with a step size of at most `1 / L`,
the tolerance test ends the run after at most `(f(x₀) - lb) / tolerance + 2` evaluations. -/
theorem C257_evaluations (h : GdExact env f g η tol) {L lb : ℝ} (hs : LSmooth f g L) (hη : 0 < η) (hL : L * η ≤ 1)
    (htol : 0 < tol) (hlb : ∀ y, lb ≤ f y) {mi fuel : Nat} {w : W} {x : V} {r : Gd.Result W V ℝ}
    (hr : optimize env mi fuel w x = some r) : ((evals r.trace).length : ℝ) ≤ (f x - lb) / tol + 2 := by
  obtain ⟨k, h0, h1, h2⟩ := C151_gd_is_textbook h.steady hr
  set y := path env g id id x with hy
  have hy0 : y 0 = x := rfl
  have key : ∀ m, (∀ j < m + 1, Goes env f y j) → m * tol ≤ f x - f (y m) := by
    intro m
    induction m with
    | zero => intro _; rw [hy0]; simp
    | succ m ih =>
      intro hg
      have h3 := ih (fun j hj => hg j (by omega))
      have h4 := (hg (m + 1) (by omega)).2
      simp only [prevObj] at h4
      have h5 : tol ≤ |f (y m) - f (y (m + 1))| := by
        by_contra hc
        rw [(h.isClose _ _).2 (not_le.1 hc)] at h4
        cases h4
      have hd := h.decrease hs hη hL x m
      rw [← hy] at hd
      have hn : 0 ≤ η / 2 * ‖g (y m)‖ ^ 2 := by positivity
      rw [abs_of_nonneg (by linarith)] at h5
      push_cast
      linarith
  have hfx : 0 ≤ (f x - lb) / tol := div_nonneg (by linarith [hlb x]) htol.le
  have bound : ∀ m, (∀ j < m, Goes env f y j) → (m : ℝ) ≤ (f x - lb) / tol + 1 := by
    intro m hg
    cases m with
    | zero => push_cast; linarith
    | succ m =>
      have h6 := key m hg
      have h7 : (m : ℝ) ≤ (f x - lb) / tol := by
        rw [le_div_iff₀ htol]; linarith [hlb (y m)]
      push_cast; linarith
  rw [h0]
  simp only [List.length_map, List.length_range]
  by_cases he : r.exit = .loop
  · have := bound k (h1 he).2; linarith
  · obtain ⟨m, rfl, -, hg, -⟩ := h2 he
    have := bound m hg
    push_cast; linarith

/-- **C257** Under the assumptions of `C257_tolerance` the `k`-th evaluated objective has approached every other value by
the factor `(1 - stepSize μ)^k`. -/
theorem C257_linear (h : GdExact env f g η tol) {μ L : ℝ} (hμ : 0 < μ) (hμL : μ ≤ L) (hsc : StronglyConvex f g μ)
    (hs : LSmooth f g L) (hη : 0 < η) (hL : L * η ≤ 1) {mi fuel : Nat} {w : W} {x : V} {r : Gd.Result W V ℝ}
    (hr : optimize env mi fuel w x = some r) (k : Nat) (p : V × ℝ) (hp : (evals r.trace)[k]? = some p) (z : V) :
    p.2 = f p.1 ∧ p.2 - f z ≤ (1 - η * μ) ^ k * (f x - f z) := by
  obtain ⟨n, h0, -⟩ := C151_gd_is_textbook h.steady hr
  rw [h0, List.getElem?_map] at hp
  simp only [Option.map_eq_some_iff] at hp
  obtain ⟨j, hj, rfl⟩ := hp
  obtain ⟨hlt, rfl⟩ := List.getElem?_eq_some_iff.1 hj
  simp only [List.getElem_range]
  refine ⟨trivial, ?_⟩
  have hημ : η * μ ≤ 1 := by nlinarith
  clear hlt hj
  induction k with
  | zero => show f x - f z ≤ _; simp
  | succ k ih =>
    have hd := h.decrease hs hη hL x k
    have hg := hsc.gap hμ (path env g id id x k) z
    rw [le_div_iff₀ (by positivity)] at hg
    have h5 := mul_le_mul_of_nonneg_left hg hη.le
    calc f (path env g id id x (k + 1)) - f z ≤ (1 - η * μ) * (f (path env g id id x k) - f z) := by linarith
      _ ≤ (1 - η * μ) * ((1 - η * μ) ^ k * (f x - f z)) := mul_le_mul_of_nonneg_left ih (by linarith)
      _ = _ := by rw [pow_succ]; ring

/-! ### Without strong convexity -/

/-- `a x² / 2`. -/
noncomputable def quad (a x : ℝ) : ℝ := a * x ^ 2 / 2

theorem quad_smooth {a L : ℝ} (ha : 0 ≤ a) (hL : a ≤ L) : LSmooth (quad a) (fun x => a * x) L := by
  refine ⟨fun x => ?_, fun x y => ?_⟩
  · have : HasDerivAt (fun x : ℝ => a * x ^ 2 / 2) (a * x) x := by
      have := (((hasDerivAt_id x).pow 2).const_mul a).div_const 2
      refine this.congr_deriv ?_
      simp; ring
    rw [hasDerivAt_iff_hasFDerivAt] at this
    refine this.congr_fderiv ?_
    ext
    simp
  · rw [← mul_sub, Real.norm_eq_abs, abs_mul, abs_of_nonneg ha, Real.norm_eq_abs]
    exact mul_le_mul_of_nonneg_right hL (abs_nonneg _)

theorem quad_strong (a : ℝ) : StronglyConvex (quad a) (fun x => a * x) a := by
  intro x y
  simp only [quad, RCLike.inner_apply, conj_trivial, Real.norm_eq_abs, sq_abs]
  apply le_of_eq
  ring

open scoped Classical in
/-- `|last - current| < tol` (gradient_descent/gradient_descent_impl.hpp:90). -/
noncomputable def closeTo (tol a b : ℝ) : Bool := decide (|a - b| < tol)

theorem realEnv_exact (f : V → ℝ) (g : V → V) (η tol mv : ℝ) : GdExact (realEnv f g η (closeTo tol) mv) f g η tol :=
  ⟨⟨fun _ _ => rfl, fun _ _ _ _ => rfl, fun _ _ => rfl, fun _ _ => rfl⟩, fun _ _ => rfl, fun _ => rfl,
    fun a b => by simp [realEnv, closeTo]⟩

/-- **C257** (refuted) "A return by the tolerance test means that the objective is within a fixed multiple of the tolerance
of the minimum": for every step size and tolerance, on quadratics with curvature as large as the step size allows or less
the returned objective can be arbitrarily far from the minimum. -/
theorem C257_tolerance_refuted (η tol mv : ℝ) (hη : 0 < η) (htol : 0 < tol) :
    ¬ ∃ B : ℝ, ∀ (f : ℝ → ℝ) (g : ℝ → ℝ) (μ x : ℝ) (mi fuel : Nat) (r : Gd.Result Unit ℝ ℝ),
      LSmooth f g (1 / η) → 0 < μ → StronglyConvex f g μ →
      optimize (realEnv f g η (closeTo tol) mv) mi fuel () x = some r → r.exit = .tol → ∀ z, f r.x - f z ≤ B := by
  rintro ⟨B, hB⟩
  obtain ⟨c, hc0, hc1⟩ : ∃ c : ℝ, 0 < c ∧ c ^ 2 * η < tol := by
    refine ⟨min 1 (tol / (2 * η)), by positivity, ?_⟩
    have h1 : min 1 (tol / (2 * η)) ≤ 1 := min_le_left _ _
    have h2 : min 1 (tol / (2 * η)) ≤ tol / (2 * η) := min_le_right _ _
    have h0 : 0 < min 1 (tol / (2 * η)) := by positivity
    have h3 : min 1 (tol / (2 * η)) ^ 2 ≤ tol / (2 * η) := by nlinarith
    calc min 1 (tol / (2 * η)) ^ 2 * η ≤ tol / (2 * η) * η := mul_le_mul_of_nonneg_right h3 hη.le
      _ = tol / 2 := by field_simp
      _ < tol := by linarith
  obtain ⟨a, ha0, ha1, ha2⟩ : ∃ a : ℝ, 0 < a ∧ η * a ≤ 1 / 2 ∧ B < c ^ 2 / (8 * a) := by
    refine ⟨min (1 / (2 * η)) (c ^ 2 / (8 * (|B| + 1))), by positivity, ?_, ?_⟩
    · calc η * min (1 / (2 * η)) (c ^ 2 / (8 * (|B| + 1))) ≤ η * (1 / (2 * η)) :=
          mul_le_mul_of_nonneg_left (min_le_left _ _) hη.le
        _ = 1 / 2 := by field_simp
    · have h0 : 0 < min (1 / (2 * η)) (c ^ 2 / (8 * (|B| + 1))) := by positivity
      rw [lt_div_iff₀ (by positivity)]
      have h1 : min (1 / (2 * η)) (c ^ 2 / (8 * (|B| + 1))) ≤ c ^ 2 / (8 * (|B| + 1)) := min_le_right _ _
      rw [le_div_iff₀ (by positivity)] at h1
      nlinarith [le_abs_self B]
  have hx1 : c / a - η • (a * (c / a)) = c / a * (1 - η * a) := by rw [smul_eq_mul]; ring
  have hgap1 : B < quad a (c / a * (1 - η * a)) := by
    have e : quad a (c / a * (1 - η * a)) = c ^ 2 / (2 * a) * (1 - η * a) ^ 2 := by
      unfold quad; field_simp
    rw [e]
    have h1 : (1 / 2 : ℝ) ^ 2 ≤ (1 - η * a) ^ 2 := pow_le_pow_left₀ (by norm_num) (by linarith) 2
    calc B < c ^ 2 / (8 * a) := ha2
      _ = c ^ 2 / (2 * a) * (1 / 2) ^ 2 := by field_simp; norm_num
      _ ≤ _ := mul_le_mul_of_nonneg_left h1 (by positivity)
  have hle : quad a (c / a * (1 - η * a)) ≤ quad a (c / a) := by
    have h1 : (1 - η * a) ^ 2 ≤ 1 := pow_le_one₀ (by linarith) (by nlinarith)
    have e : quad a (c / a * (1 - η * a)) = quad a (c / a) * (1 - η * a) ^ 2 := by unfold quad; ring
    have h2 : 0 ≤ quad a (c / a) := by unfold quad; positivity
    rw [e]; nlinarith
  have hz : quad a 0 = 0 := by simp [quad]
  have hsm : LSmooth (quad a) (fun x => a * x) (1 / η) := quad_smooth ha0.le (by
    rw [le_div_iff₀ hη]; linarith)
  have happ := hB (quad a) (fun x => a * x) a (c / a) 0 3
  by_cases hf : |mv - quad a (c / a)| < tol
  · have := happ _ hsm ha0 (quad_strong a) (by
      rw [optimize, loop, if_pos (by simp [start, realEnv])]
      simp only [body, evalPart, realEnv, start, closeTo, hf, decide_true, if_true, Bool.false_eq_true, if_false]
      rfl) rfl 0
    rw [hz, sub_zero] at this
    change quad a (c / a) ≤ B at this
    linarith
  · have hclose : |quad a (c / a) - quad a (c / a - η • (a * (c / a)))| < tol := by
      rw [hx1, abs_of_nonneg (by linarith)]
      have e : quad a (c / a) - quad a (c / a * (1 - η * a)) = c ^ 2 * η * (1 - η * a / 2) := by
        unfold quad; field_simp; ring
      rw [e]
      have : 0 ≤ c ^ 2 * η := by positivity
      have : 0 < η * a := by positivity
      nlinarith
    have := happ _ hsm ha0 (quad_strong a) (by
      rw [optimize, loop, if_pos (by simp [start, realEnv])]
      simp only [body, evalPart, movePart, realEnv, start, closeTo, hf, decide_false, Bool.false_eq_true, if_false]
      rw [loop, if_pos (by simp [incr])]
      simp only [body, evalPart, movePart, closeTo, hclose, decide_true, if_true, Bool.false_eq_true, if_false]
      rfl) rfl 0
    rw [hz, sub_zero] at this
    change quad a (c / a - η • (a * (c / a))) ≤ B at this
    rw [hx1] at this
    linarith

/-- Non-vacuity of C257: on `x²/2` with step size 1/2 and tolerance 2 the run from 2 evaluates 2 and 1 and then
stops by the tolerance test. -/
example : ∃ r, optimize (realEnv (quad 1) (fun x => 1 * x) (1 / 2) (closeTo 2) 100) 0 5 () 2 = some r ∧ r.exit = .tol ∧
    r.x = 1 ∧ 2 ≤ |(100 : ℝ) - quad 1 2| := by
  have h1 : ¬ |(100 : ℝ) - quad 1 2| < 2 := by unfold quad; norm_num
  have h2 : |quad 1 2 - quad 1 (2 - (1 / 2 : ℝ) • (1 * 2))| < 2 := by unfold quad; norm_num
  refine ⟨_, by
      rw [optimize, loop, if_pos (by simp [start, realEnv])]
      simp only [body, evalPart, movePart, realEnv, start, closeTo, h1, decide_false, Bool.false_eq_true, if_false]
      rw [loop, if_pos (by simp [incr])]
      simp only [body, evalPart, movePart, closeTo, h2, decide_true, if_true, Bool.false_eq_true, if_false]
      rfl, rfl, ?_, not_lt.1 h1⟩
  show (2 : ℝ) - (1 / 2 : ℝ) • (1 * 2) = 1
  norm_num

end Ens.Converge
