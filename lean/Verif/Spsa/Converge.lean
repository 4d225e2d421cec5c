import Verif.Spsa.Gains
import Verif.Analysis.Smooth
import Mathlib.Analysis.InnerProductSpace.PiL2
import Mathlib.Analysis.Asymptotics.Lemmas
import Mathlib.Analysis.Asymptotics.SpecificAsymptotics

/-
C286: SPSA on smooth functions.
-/

namespace Ens.Spsa

open Filter
open scoped InnerProductSpace

variable {ι : Type}

/-- Exact evaluations, callbacks that do nothing, tolerance 0 and the given random bits; the world is the rest of the bits. -/
def bitEnv (f : (ι → ℝ) → ℝ) (dblMax : ℝ) : Env (Nat → ι → Bool) ι where
  evaluate := fun w x => (w, f x)
  cbEvaluate := fun w _ _ => (w, false)
  cbBegin := fun w x => (w, x)
  cbStep := fun w x => (w, x, false)
  bits := fun w => (fun n => w (n + 1), w 0)
  isBad := fun _ => false
  isClose := fun _ _ => false
  dblMax := dblMax

/-- The coordinates from which a run moved, in order. -/
def points : List (Ev ι) → List (ι → ℝ)
  | [] => []
  | .step x _ :: t => x :: points t
  | _ :: t => points t

theorem points_append (l l' : List (Ev ι)) : points (l ++ l') = points l ++ points l' := by
  induction l with
  | nil => rfl
  | cons e l ih => cases e <;> simp [points, ih]

/-- The iterates of the published algorithm. -/
noncomputable def path (f : (ι → ℝ) → ℝ) (p : Params) : Nat → Nat → (ι → ℝ) → (Nat → ι → Bool) → List (ι → ℝ)
  | 0, _, _, _ => []
  | n + 1, k, x, w =>
    x :: path f p n (k + 1) (x - p.gain k • estimate f x (p.probe k) (direction (w 0))) fun n => w (n + 1)

theorem loop_path (f : (ι → ℝ) → ℝ) (dblMax : ℝ) (p : Params) : ∀ (n k : Nat) (s : St (Nat → ι → Bool) ι), s.terminate = false →
    (loop (bitEnv f dblMax) p n k s).1 = .loop ∧
      points (loop (bitEnv f dblMax) p n k s).2.trace = points s.trace ++ path f p n k s.x s.w
  | 0, k, s, _ => by simp [loop, path]
  | n + 1, k, s, hs => by
    obtain ⟨w, x, ov, last, tm, tr⟩ := s
    simp only at hs
    subst hs
    rw [loop, if_neg (by simp), if_neg (by simp [bitEnv]), if_neg (by simp [bitEnv])]
    rw [if_neg (by simp [probes, evalAt, bitEnv])]
    have ih := loop_path f dblMax p n (k + 1)
    have e : stepPart (bitEnv f dblMax) p k (probes (bitEnv f dblMax) p k ⟨w, x, ov, ov, false, tr⟩).1
        (probes (bitEnv f dblMax) p k ⟨w, x, ov, ov, false, tr⟩).2.1 (probes (bitEnv f dblMax) p k ⟨w, x, ov, ov, false, tr⟩).2.2.1
        (probes (bitEnv f dblMax) p k ⟨w, x, ov, ov, false, tr⟩).2.2.2 =
        ⟨fun n => w (n + 1), x - p.gain k • estimate f x (p.probe k) (direction (w 0)),
          f (x - p.gain k • estimate f x (p.probe k) (direction (w 0))), ov, false,
          (tr ++ [.eval (x + p.probe k • direction (w 0)) (f (x + p.probe k • direction (w 0))), .cbEval false] ++
            [.eval (x - p.probe k • direction (w 0)) (f (x - p.probe k • direction (w 0))), .cbEval false]) ++
            [.step x (x - p.gain k • estimate f x (p.probe k) (direction (w 0))),
              .stepTaken (x - p.gain k • estimate f x (p.probe k) (direction (w 0))) false] ++
            [.eval (x - p.gain k • estimate f x (p.probe k) (direction (w 0)))
              (f (x - p.gain k • estimate f x (p.probe k) (direction (w 0)))), .cbEval false]⟩ := by
      have h1 : x + p.probe k • direction (w 0) - (2 * p.probe k) • direction (w 0) = x - p.probe k • direction (w 0) := by
        rw [two_mul, add_smul]; abel
      have h2 : x - p.probe k • direction (w 0) + p.probe k • direction (w 0) = x := by abel
      have h3 : (fun i => (f (x + p.probe k • direction (w 0)) - f (x - p.probe k • direction (w 0))) *
          (1 / (2 * p.probe k * direction (w 0) i))) = estimate f x (p.probe k) (direction (w 0)) := by
        funext i
        rw [estimate]
        ring
      simp only [stepPart, probes, evalAt, bitEnv, h1, h2, h3, Bool.or_false]
    rw [e]
    refine ⟨(ih _ rfl).1, (ih _ rfl).2.trans ?_⟩
    simp [points_append, points, path]

/-- Every run makes all its moves, from the points of the algorithm. -/
theorem run_path (f : (ι → ℝ) → ℝ) (dblMax : ℝ) (p : Params) (w : Nat → ι → Bool) (x : ι → ℝ) :
    points (optimize (bitEnv f dblMax) p w x).trace = path f p p.maxIterations 0 x w := by
  obtain ⟨h1, h2⟩ := loop_path f dblMax p p.maxIterations 0 (start (bitEnv f dblMax) w x) rfl
  unfold optimize
  generalize loop (bitEnv f dblMax) p p.maxIterations 0 (start (bitEnv f dblMax) w x) = r at *
  obtain ⟨e, s⟩ := r
  simp only at h1 h2
  subst h1
  simp only [evalAt, points_append, h2]
  simp [points, start, bitEnv]

theorem path_length (f : (ι → ℝ) → ℝ) (p : Params) : ∀ n k x w, (path f p n k x w).length = n
  | 0, _, _, _ => rfl
  | n + 1, _, _, _ => by simp [path, path_length f p n]

variable [Fintype ι]

abbrev Vec (ι : Type) [Fintype ι] := EuclideanSpace ℝ ι

/-- The direction as a vector. -/
noncomputable def dirV (b : ι → Bool) : Vec ι := WithLp.toLp 2 (direction b)

theorem dirV_norm (b : ι → Bool) : ‖dirV b‖ ^ 2 = Fintype.card ι := by
  rw [EuclideanSpace.norm_sq_eq]
  have : ∀ i, ‖dirV b i‖ ^ 2 = 1 := by
    intro i
    rcases direction_sign b i with h | h <;> simp [dirV, h]
  rw [Finset.sum_congr rfl fun i _ => this i]
  simp

/-- The average over the directions of the squared slope is the squared length of the gradient. -/
theorem sum_slope [DecidableEq ι] (g : Vec ι) : ∑ b : ι → Bool, ⟪g, dirV b⟫_ℝ ^ 2 = (Fintype.card (ι → Bool) : ℝ) * ‖g‖ ^ 2 := by
  have h1 : ∀ b : ι → Bool, ⟪g, dirV b⟫_ℝ ^ 2 = ∑ i, ∑ j, g i * g j * (direction b i * direction b j) := by
    intro b
    rw [PiLp.inner_apply, sq, Finset.sum_mul_sum]
    refine Finset.sum_congr rfl fun i _ => Finset.sum_congr rfl fun j _ => ?_
    simp only [dirV, RCLike.inner_apply, conj_trivial]
    ring
  simp only [h1]
  rw [Finset.sum_comm]
  have h2 : ∀ i, ∑ b : ι → Bool, ∑ j, g i * g j * (direction b i * direction b j) = 2 ^ Fintype.card ι * g i ^ 2 := by
    intro i
    rw [Finset.sum_comm]
    simp only [← Finset.mul_sum, sum_direction_mul, mul_ite, mul_zero, Finset.sum_ite_eq, Finset.mem_univ, if_true]
    ring
  simp only [h2, ← Finset.mul_sum]
  rw [EuclideanSpace.norm_sq_eq, Fintype.card_fun, Fintype.card_bool]
  simp

variable {f : Vec ι → ℝ} {g : Vec ι → Vec ι} {L : ℝ}

theorem lower (h : LSmooth f g L) (x y : Vec ι) : f x + ⟪g x, y - x⟫_ℝ - L / 2 * ‖y - x‖ ^ 2 ≤ f y := by
  have hn : LSmooth (fun x => -f x) (fun x => -g x) L := by
    refine ⟨fun x => ?_, fun x y => ?_⟩
    · have := (h.grad x).neg
      refine this.congr_fderiv ?_
      simp
    · rw [neg_sub_neg, ← norm_neg, neg_sub]
      exact h.lip x y
  have := hn.descent x y
  rw [inner_neg_left] at this
  linarith

/-- The objective as a function of the coordinates of the model. -/
def onCoords (f : Vec ι → ℝ) : (ι → ℝ) → ℝ := fun x => f (WithLp.toLp 2 x)

/-- One move, whatever the direction: the slope along the direction is used up except for the error of the difference. -/
theorem move_descent (h : LSmooth f g L) (hL : 0 < L) {a c : ℝ} (hc : 0 < c) (ha : 0 < a) (hal : 4 * (L * Fintype.card ι) * a ≤ 1)
    (x : ι → ℝ) (b : ι → Bool) :
    onCoords f (x - a • estimate (onCoords f) x c (direction b)) ≤
      onCoords f x - a / 4 * ⟪g (WithLp.toLp 2 x), dirV b⟫_ℝ ^ 2 + 3 / 16 * a * (L * Fintype.card ι) ^ 2 * c ^ 2 := by
  set X : Vec ι := WithLp.toLp 2 x with hX
  set q := (f (X + c • dirV b) - f (X - c • dirV b)) / (2 * c) with hq
  set u := ⟪g X, dirV b⟫_ℝ with hu
  have hest : WithLp.toLp 2 (x - a • estimate (onCoords f) x c (direction b)) = X - (a * q) • dirV b := by
    ext i
    have e1 : onCoords f (x + c • direction b) = f (X + c • dirV b) := rfl
    have e2 : onCoords f (x - c • direction b) = f (X - c • dirV b) := rfl
    simp only [estimate, e1, e2, hX, PiLp.sub_apply, PiLp.smul_apply, Pi.sub_apply, Pi.smul_apply, smul_eq_mul, dirV, hq]
    rcases direction_sign b i with hi | hi <;> rw [hi] <;> field_simp
  have hup1 := h.descent X (X + c • dirV b)
  have hup2 := h.descent X (X - c • dirV b)
  have hlo1 := lower h X (X + c • dirV b)
  have hlo2 := lower h X (X - c • dirV b)
  have s1 : X + c • dirV b - X = c • dirV b := by abel
  have s2 : X - c • dirV b - X = -(c • dirV b) := by abel
  rw [s1, norm_smul, inner_smul_right, mul_pow, dirV_norm, Real.norm_eq_abs, sq_abs, ← hu] at hup1 hlo1
  rw [s2, norm_neg, norm_smul, inner_neg_right, inner_smul_right, mul_pow, dirV_norm, Real.norm_eq_abs, sq_abs, ← hu] at hup2 hlo2
  set D : ℝ := ((Fintype.card ι : ℕ) : ℝ) with hD
  have hD0 : 0 ≤ D := by positivity
  have hqc : q * (2 * c) = f (X + c • dirV b) - f (X - c • dirV b) := by rw [hq]; field_simp
  have q1 : q - u ≤ L * D * c / 2 := by
    have : (q - u) * (2 * c) ≤ (L * D * c / 2) * (2 * c) := by nlinarith
    exact le_of_mul_le_mul_right this (by linarith)
  have q2 : -(L * D * c / 2) ≤ q - u := by
    have : -(L * D * c / 2) * (2 * c) ≤ (q - u) * (2 * c) := by nlinarith
    exact le_of_mul_le_mul_right this (by linarith)
  have he : (q - u) ^ 2 ≤ (L * D * c / 2) ^ 2 := sq_le_sq' q2 q1
  have hstep := h.descent X (X - (a * q) • dirV b)
  have s3 : X - (a * q) • dirV b - X = -((a * q) • dirV b) := by abel
  rw [s3, norm_neg, norm_smul, inner_neg_right, inner_smul_right, mul_pow, dirV_norm, Real.norm_eq_abs, sq_abs, ← hu, ← hD] at hstep
  have hfin : onCoords f (x - a • estimate (onCoords f) x c (direction b)) = f (X - (a * q) • dirV b) := by
    rw [onCoords, hest]
  rw [hfin]
  have hx0 : onCoords f x = f X := rfl
  rw [hx0]
  refine hstep.trans ?_
  set e := q - u with hedef
  have hqe : q = u + e := by rw [hedef]; ring
  have t1 : L / 2 * ((a * q) ^ 2 * D) ≤ a / 8 * q ^ 2 := by
    have : L / 2 * ((a * q) ^ 2 * D) = (4 * (L * D) * a) * (a / 8 * q ^ 2) := by ring
    rw [this]
    exact mul_le_of_le_one_left (by positivity) hal
  have t2 : a / 8 * q ^ 2 - a * q * u ≤ -(a / 4 * u ^ 2) + 3 / 4 * a * e ^ 2 := by
    rw [hqe]
    nlinarith [mul_nonneg ha.le (sq_nonneg (u + e)), mul_nonneg ha.le (sq_nonneg (u - e)), mul_nonneg ha.le (sq_nonneg u), mul_nonneg ha.le (sq_nonneg e), mul_nonneg ha.le (sq_nonneg (u + 2 * e))]
  have t3 : 3 / 4 * a * e ^ 2 ≤ 3 / 16 * a * (L * D) ^ 2 * c ^ 2 := by
    have := mul_le_mul_of_nonneg_left he (by positivity : (0 : ℝ) ≤ 3 / 4 * a)
    nlinarith
  linarith

/-! ### Averages over the random bits -/

/-- The first `n` random vectors; the others are not used. -/
def ext {n : Nat} (β : Fin n → ι → Bool) : Nat → ι → Bool := fun i => if h : i < n then β ⟨i, h⟩ else fun _ => false

omit [Fintype ι] in
theorem ext_cons {n : Nat} (b : ι → Bool) (β : Fin n → ι → Bool) : ext (Fin.cons b β : Fin (n + 1) → ι → Bool) 0 = b ∧
    (fun i => ext (Fin.cons b β : Fin (n + 1) → ι → Bool) (i + 1)) = ext β := by
  constructor
  · simp [ext]
  · funext i
    simp only [ext]
    by_cases h : i < n
    · rw [dif_pos h, dif_pos (by omega)]
      rfl
    · rw [dif_neg h, dif_neg (by omega)]

/-- The weighted sum of the squared gradient norms along a list of points. -/
noncomputable def wsum (g : Vec ι → Vec ι) (a : Nat → ℝ) : Nat → List (ι → ℝ) → ℝ
  | _, [] => 0
  | k, x :: l => a k * ‖g (WithLp.toLp 2 x)‖ ^ 2 + wsum g a (k + 1) l

/-- The average over all sequences of `n` random vectors. -/
noncomputable def mean {n : Nat} [DecidableEq ι] (F : (Fin n → ι → Bool) → ℝ) : ℝ :=
  (∑ β : Fin n → ι → Bool, F β) / (Fintype.card (Fin n → ι → Bool) : ℝ)

theorem mean_cons {n : Nat} [DecidableEq ι] (F : (Fin (n + 1) → ι → Bool) → ℝ) :
    mean F = (∑ b : ι → Bool, mean fun β => F (Fin.cons b β)) / (Fintype.card (ι → Bool) : ℝ) := by
  unfold mean
  have e : ∑ β : Fin (n + 1) → ι → Bool, F β = ∑ b : ι → Bool, ∑ β : Fin n → ι → Bool, F (Fin.cons b β) := by
    rw [← Fintype.sum_prod_type' (f := fun b β => F (Fin.cons b β))]
    refine (Fintype.sum_equiv (Fin.consEquiv fun _ : Fin (n + 1) => ι → Bool) _ _ fun q => ?_).symm
    rfl
  have c : (Fintype.card (Fin (n + 1) → ι → Bool) : ℝ) = Fintype.card (ι → Bool) * Fintype.card (Fin n → ι → Bool) := by
    rw [Fintype.card_fun, Fintype.card_fun (α := Fin n)]
    push_cast
    simp [pow_succ, mul_comm]
  rw [e, c, ← Finset.sum_div, div_div, mul_comm]

theorem mean_add {n : Nat} [DecidableEq ι] (c : ℝ) (F : (Fin n → ι → Bool) → ℝ) : (mean fun β => c + F β) = c + mean F := by
  unfold mean
  have : (0 : ℝ) < Fintype.card (Fin n → ι → Bool) := by exact_mod_cast Fintype.card_pos
  rw [Finset.sum_add_distrib]
  simp only [Finset.sum_const, Finset.card_univ, nsmul_eq_mul]
  field_simp

theorem mean_mono {n : Nat} [DecidableEq ι] {F G : (Fin n → ι → Bool) → ℝ} (h : ∀ β, F β ≤ G β) : mean F ≤ mean G :=
  div_le_div_of_nonneg_right (Finset.sum_le_sum fun β _ => h β) (by positivity)

theorem mean_mul {n : Nat} [DecidableEq ι] (c : ℝ) (F : (Fin n → ι → Bool) → ℝ) : (mean fun β => c * F β) = c * mean F := by
  unfold mean
  rw [← Finset.mul_sum, mul_div_assoc]

/-- The bound for `n` moves from iteration `k` on. -/
theorem mean_wsum [DecidableEq ι] (h : LSmooth f g L) (hL : 0 < L) {m : ℝ} (hm : ∀ x, m ≤ f x) (p : Params) (hc : ∀ k, 0 < p.probe k)
    (ha : ∀ k, 0 < p.gain k) (hal : ∀ k, 4 * (L * Fintype.card ι) * p.gain k ≤ 1) : ∀ (n k : Nat) (x : ι → ℝ),
    (mean fun β : Fin n → ι → Bool => wsum g p.gain k (path (onCoords f) p n k x (ext β))) ≤
      4 * (onCoords f x - m) + 3 / 4 * (L * Fintype.card ι) ^ 2 * ∑ j ∈ Finset.range n, p.gain (k + j) * p.probe (k + j) ^ 2
  | 0, k, x => by
    have : m ≤ onCoords f x := hm _
    simp only [path, wsum, mean, Finset.sum_const_zero, zero_div, Finset.range_zero, Finset.sum_empty, mul_zero, add_zero]
    linarith
  | n + 1, k, x => by
    have ih := mean_wsum h hL hm p hc ha hal n (k + 1)
    have hN : (0 : ℝ) < Fintype.card (ι → Bool) := by exact_mod_cast Fintype.card_pos
    set G2 := ‖g (WithLp.toLp 2 x)‖ ^ 2 with hG2
    set K := 3 / 4 * (L * (Fintype.card ι : ℝ)) ^ 2 with hK
    set R := ∑ j ∈ Finset.range n, p.gain (k + 1 + j) * p.probe (k + 1 + j) ^ 2 with hR
    rw [mean_cons]
    have e : ∀ b : ι → Bool, (mean fun β : Fin n → ι → Bool =>
        wsum g p.gain k (path (onCoords f) p (n + 1) k x (ext (Fin.cons b β : Fin (n + 1) → ι → Bool)))) ≤
        p.gain k * G2 + (4 * (onCoords f x - m) - p.gain k * ⟪g (WithLp.toLp 2 x), dirV b⟫_ℝ ^ 2 + K * (p.gain k * p.probe k ^ 2) + K * R) := by
      intro b
      have e1 : (fun β : Fin n → ι → Bool =>
        wsum g p.gain k (path (onCoords f) p (n + 1) k x (ext (Fin.cons b β : Fin (n + 1) → ι → Bool)))) =
        fun β => p.gain k * G2 + wsum g p.gain (k + 1) (path (onCoords f) p n (k + 1)
          (x - p.gain k • estimate (onCoords f) x (p.probe k) (direction b)) (ext β)) := by
        funext β
        rw [path, wsum, (ext_cons b β).1, (ext_cons b β).2]
      rw [e1, mean_add]
      have h1 := ih (x - p.gain k • estimate (onCoords f) x (p.probe k) (direction b))
      have h2 := move_descent h hL (hc k) (ha k) (hal k) x b
      have h3 : 4 * (3 / 16 * p.gain k * (L * (Fintype.card ι : ℝ)) ^ 2 * p.probe k ^ 2) = K * (p.gain k * p.probe k ^ 2) := by
        rw [hK]; ring
      linarith
    rw [div_le_iff₀ hN]
    refine (Finset.sum_le_sum fun b _ => e b).trans (le_of_eq ?_)
    have hsl := sum_slope (g (WithLp.toLp 2 x))
    rw [← hG2] at hsl
    have hR' : ∑ j ∈ Finset.range (n + 1), p.gain (k + j) * p.probe (k + j) ^ 2 = p.gain k * p.probe k ^ 2 + R := by
      rw [Finset.sum_range_succ', add_comm, hR]
      simp only [add_zero, add_assoc, add_comm 1]
    rw [hR']
    simp only [Finset.sum_add_distrib, Finset.sum_sub_distrib, ← Finset.mul_sum, hsl, Finset.sum_const, Finset.card_univ, nsmul_eq_mul]
    ring

theorem wsum_ge (g : Vec ι → Vec ι) {a : Nat → ℝ} {A : ℝ} : ∀ (l : List (ι → ℝ)) (k : Nat), (∀ j, k ≤ j → j < k + l.length → A ≤ a j) →
    A * (l.map fun y => ‖g (WithLp.toLp 2 y)‖ ^ 2).sum ≤ wsum g a k l
  | [], _, _ => by simp [wsum]
  | x :: l, k, h => by
    have h1 := wsum_ge g l (k + 1) fun j hj hj' => h j (by omega) (by simp only [List.length_cons]; omega)
    have h2 : A ≤ a k := h k le_rfl (by simp)
    have h3 := mul_le_mul_of_nonneg_right h2 (sq_nonneg ‖g (WithLp.toLp 2 x)‖)
    simp only [List.map_cons, List.sum_cons, wsum, mul_add]
    linarith

/-- The mean, over all outcomes of the random bits, of the squared gradient norms averaged over the points of a run of `N`
iterations of SPSA, constructed with these parameters. -/
noncomputable def meanSquare [DecidableEq ι] (f : Vec ι → ℝ) (g : Vec ι → Vec ι) (dblMax alpha gamma stepSize evalStep : ℝ) (x : ι → ℝ) (N : Nat) : ℝ :=
  (mean fun β : Fin N → ι → Bool =>
    ((points (optimize (bitEnv (onCoords f) dblMax) (Params.new alpha gamma stepSize evalStep N) (ext β) x).trace).map
      fun y => ‖g (WithLp.toLp 2 y)‖ ^ 2).sum) / N

theorem meanSquare_le [DecidableEq ι] (h : LSmooth f g L) (hL : 0 < L) {m : ℝ} (hm : ∀ x, m ≤ f x) {al ga s e : ℝ}
    (ha : 0 < al) (hs : 0 < s) (he : 0 < e) (dblMax : ℝ) (x : ι → ℝ) {N : Nat} (hN : 0 < N)
    (hb : 4 * (L * Fintype.card ι) * (s / (0.001 * (N : ℝ)) ^ al) ≤ 1) :
    meanSquare f g dblMax al ga s e x N ≤ 4 * (onCoords f x - m) * (1.001 ^ al / s) * ((N : ℝ) ^ (1 - al))⁻¹ +
      3 / 4 * (L * Fintype.card ι) ^ 2 * 1001 ^ al * ((N : ℝ)⁻¹ * ∑ k ∈ Finset.range N, (e / ((k : ℝ) + 1) ^ ga) ^ 2) := by
  have hNr : (0 : ℝ) < N := by exact_mod_cast hN
  set p := Params.new al ga s e N with hp
  have hgain : ∀ k : Nat, p.gain k = s / ((k : ℝ) + 1 + 0.001 * N) ^ al := fun k => rfl
  have hprobe : ∀ k : Nat, p.probe k = e / ((k : ℝ) + 1) ^ ga := fun k => rfl
  have hgp : ∀ k, 0 < p.gain k := fun k => by
    rw [hgain]; exact div_pos hs (Real.rpow_pos_of_pos (by positivity) _)
  have hpp : ∀ k, 0 < p.probe k := fun k => by
    rw [hprobe]; exact div_pos he (Real.rpow_pos_of_pos (by positivity) _)
  have hmax : ∀ k, p.gain k ≤ s / (0.001 * (N : ℝ)) ^ al := fun k => by
    rw [hgain]
    refine div_le_div_of_nonneg_left hs.le (Real.rpow_pos_of_pos (by positivity) _) (Real.rpow_le_rpow (by positivity) ?_ ha.le)
    have : (0 : ℝ) ≤ k := by positivity
    linarith
  have hmin : ∀ k < N, s / (1.001 * (N : ℝ)) ^ al ≤ p.gain k := fun k hk => by
    rw [hgain]
    refine div_le_div_of_nonneg_left hs.le (Real.rpow_pos_of_pos (by positivity) _) (Real.rpow_le_rpow (by positivity) ?_ ha.le)
    have : (k : ℝ) + 1 ≤ N := by exact_mod_cast hk
    linarith
  have hal' : ∀ k, 4 * (L * Fintype.card ι) * p.gain k ≤ 1 := fun k =>
    (mul_le_mul_of_nonneg_left (hmax k) (by positivity)).trans hb
  have hmain := mean_wsum h hL hm p hpp hgp hal' N 0 x
  simp only [zero_add] at hmain
  set A := s / (1.001 * (N : ℝ)) ^ al with hA
  have hApos : 0 < A := div_pos hs (Real.rpow_pos_of_pos (by positivity) _)
  have hlow : A * (mean fun β : Fin N → ι → Bool =>
      ((points (optimize (bitEnv (onCoords f) dblMax) p (ext β) x).trace).map fun y => ‖g (WithLp.toLp 2 y)‖ ^ 2).sum) ≤
      mean fun β : Fin N → ι → Bool => wsum g p.gain 0 (path (onCoords f) p N 0 x (ext β)) := by
    rw [← mean_mul]
    refine mean_mono fun β => ?_
    rw [run_path]
    refine wsum_ge g _ 0 fun j _ hj => hmin j ?_
    rw [path_length] at hj
    have : p.maxIterations = N := rfl
    omega
  have hsum : ∑ j ∈ Finset.range N, p.gain j * p.probe j ^ 2 ≤
      s / (0.001 * (N : ℝ)) ^ al * ∑ k ∈ Finset.range N, (e / ((k : ℝ) + 1) ^ ga) ^ 2 := by
    rw [Finset.mul_sum]
    refine Finset.sum_le_sum fun k _ => ?_
    rw [hprobe]
    exact mul_le_mul_of_nonneg_right (hmax k) (sq_nonneg _)
  set C := ∑ k ∈ Finset.range N, (e / ((k : ℝ) + 1) ^ ga) ^ 2 with hC
  have hle : A * (meanSquare f g dblMax al ga s e x N * N) ≤ 4 * (onCoords f x - m) +
      3 / 4 * (L * Fintype.card ι) ^ 2 * (s / (0.001 * (N : ℝ)) ^ al * C) := by
    have : meanSquare f g dblMax al ga s e x N * N = mean fun β : Fin N → ι → Bool =>
      ((points (optimize (bitEnv (onCoords f) dblMax) p (ext β) x).trace).map fun y => ‖g (WithLp.toLp 2 y)‖ ^ 2).sum := by
      rw [meanSquare, div_mul_cancel₀ _ hNr.ne']
    rw [this]
    refine hlow.trans (hmain.trans ?_)
    have := mul_le_mul_of_nonneg_left hsum (by positivity : (0 : ℝ) ≤ 3 / 4 * (L * Fintype.card ι) ^ 2)
    linarith
  have hq : meanSquare f g dblMax al ga s e x N ≤ (4 * (onCoords f x - m) +
      3 / 4 * (L * Fintype.card ι) ^ 2 * (s / (0.001 * (N : ℝ)) ^ al * C)) / (A * N) := by
    rw [le_div_iff₀ (by positivity)]
    linarith
  refine hq.trans (le_of_eq ?_)
  have r1 : (1.001 * (N : ℝ)) ^ al = 1.001 ^ al * (N : ℝ) ^ al := Real.mul_rpow (by norm_num) hNr.le
  have r2 : (0.001 * (N : ℝ)) ^ al = 0.001 ^ al * (N : ℝ) ^ al := Real.mul_rpow (by norm_num) hNr.le
  have r3 : (N : ℝ) ^ (1 - al) = N / (N : ℝ) ^ al := by rw [Real.rpow_sub hNr, Real.rpow_one]
  have r4 : (1.001 : ℝ) ^ al = 1001 ^ al * 0.001 ^ al := by
    rw [← Real.mul_rpow (by norm_num) (by norm_num)]; norm_num
  have p1 : (0 : ℝ) < (N : ℝ) ^ al := Real.rpow_pos_of_pos hNr _
  have p2 : (0 : ℝ) < (0.001 : ℝ) ^ al := Real.rpow_pos_of_pos (by norm_num) _
  have p3 : (0 : ℝ) < (1001 : ℝ) ^ al := Real.rpow_pos_of_pos (by norm_num) _
  rw [hA, r1, r2, r3, r4]
  field_simp

/-- **C286** On every smooth function that is bounded below, SPSA with exact evaluations converges on average: as `maxIterations`
grows, the squared length of the gradient, averaged over the points of the run and over all outcomes of the random bits, tends to
zero. This holds for every positive step size and evaluation step size and every `0 < alpha < 1`, `0 < gamma`, among them the
defaults. -/
theorem C286_spsa_converges [DecidableEq ι] (h : LSmooth f g L) (hL : 0 < L) {m : ℝ} (hm : ∀ x, m ≤ f x) {al ga s e : ℝ}
    (ha : 0 < al) (ha1 : al < 1) (hg : 0 < ga) (hs : 0 < s) (he : 0 < e) (dblMax : ℝ) (x : ι → ℝ) :
    Tendsto (meanSquare f g dblMax al ga s e x) atTop (nhds 0) := by
  have hcast : Tendsto (fun N : Nat => (N : ℝ)) atTop atTop := tendsto_natCast_atTop_atTop
  have h1 : Tendsto (fun N : Nat => ((N : ℝ) ^ (1 - al))⁻¹) atTop (nhds 0) :=
    tendsto_inv_atTop_zero.comp ((tendsto_rpow_atTop (by linarith)).comp hcast)
  have h2 : Tendsto (fun k : Nat => (e / ((k : ℝ) + 1) ^ ga) ^ 2) atTop (nhds 0) := by
    have := (tendsto_gain (s := e) (le_refl 0) hg).pow 2
    simpa using this
  have h3 := h2.cesaro
  have h4 : Tendsto (fun N : Nat => 4 * (L * Fintype.card ι) * (s / (0.001 * (N : ℝ)) ^ al)) atTop (nhds 0) := by
    have : Tendsto (fun N : Nat => (0.001 * (N : ℝ)) ^ al) atTop atTop :=
      (tendsto_rpow_atTop ha).comp (hcast.const_mul_atTop (by norm_num : (0 : ℝ) < 0.001))
    have := (tendsto_const_nhds (x := s)).div_atTop this
    simpa using this.const_mul (4 * (L * Fintype.card ι))
  have h5 : Tendsto (fun N : Nat => 4 * (onCoords f x - m) * (1.001 ^ al / s) * ((N : ℝ) ^ (1 - al))⁻¹ +
      3 / 4 * (L * Fintype.card ι) ^ 2 * 1001 ^ al * ((N : ℝ)⁻¹ * ∑ k ∈ Finset.range N, (e / ((k : ℝ) + 1) ^ ga) ^ 2)) atTop (nhds 0) := by
    have := (h1.const_mul (4 * (onCoords f x - m) * (1.001 ^ al / s))).add
      (h3.const_mul (3 / 4 * (L * (Fintype.card ι : ℝ)) ^ 2 * 1001 ^ al))
    simpa using this
  refine tendsto_of_tendsto_of_tendsto_of_le_of_le' tendsto_const_nhds h5 (Eventually.of_forall fun N => ?_) ?_
  · refine div_nonneg (div_nonneg (Finset.sum_nonneg fun β _ => List.sum_nonneg fun y hy => ?_) (by positivity)) (by positivity)
    obtain ⟨z, -, rfl⟩ := List.mem_map.1 hy
    positivity
  · filter_upwards [h4.eventually (gt_mem_nhds one_pos), eventually_gt_atTop 0] with N hN hN0
    exact meanSquare_le h hL hm ha hs he dblMax x hN0 hN.le

/-- **C286** In particular long runs almost surely meet a point where the gradient is short: the share of the outcomes of the
random bits for which it is at least `δ` long at all points of the run tends to zero. -/
theorem C286_spsa_probability [DecidableEq ι] (h : LSmooth f g L) (hL : 0 < L) {m : ℝ} (hm : ∀ x, m ≤ f x) {al ga s e : ℝ}
    (ha : 0 < al) (ha1 : al < 1) (hg : 0 < ga) (hs : 0 < s) (he : 0 < e) (dblMax : ℝ) (x : ι → ℝ) {δ ε : ℝ} (hδ : 0 < δ) (hε : 0 < ε) :
    ∃ N₀ : Nat, ∀ N ≥ N₀, ∀ S : Finset (Fin N → ι → Bool), (∀ β ∈ S, ∀ y ∈
      points (optimize (bitEnv (onCoords f) dblMax) (Params.new al ga s e N) (ext β) x).trace, δ ≤ ‖g (WithLp.toLp 2 y)‖) →
      (S.card : ℝ) ≤ ε * Fintype.card (Fin N → ι → Bool) := by
  have := (C286_spsa_converges h hL hm ha ha1 hg hs he dblMax x).eventually (gt_mem_nhds (by positivity : (0 : ℝ) < ε * δ ^ 2))
  obtain ⟨N₀, hN⟩ := eventually_atTop.1 this
  refine ⟨N₀ + 1, fun N hge S hS => ?_⟩
  have h1 := hN N (by omega)
  have hNr : (0 : ℝ) < N := by exact_mod_cast (by omega : 0 < N)
  have hcard : (0 : ℝ) < Fintype.card (Fin N → ι → Bool) := by exact_mod_cast Fintype.card_pos
  rw [meanSquare, div_lt_iff₀ hNr, mean, div_lt_iff₀ hcard] at h1
  have hnn : ∀ l : List (ι → ℝ), 0 ≤ (l.map fun y => ‖g (WithLp.toLp 2 y)‖ ^ 2).sum := fun l => List.sum_nonneg fun y hy => by
    obtain ⟨z, -, rfl⟩ := List.mem_map.1 hy
    positivity
  have hbad : ∀ β ∈ S, δ ^ 2 * N ≤ ((points (optimize (bitEnv (onCoords f) dblMax) (Params.new al ga s e N) (ext β) x).trace).map
      fun y => ‖g (WithLp.toLp 2 y)‖ ^ 2).sum := by
    intro β hβ
    have hb := hS β hβ
    have hl : (points (optimize (bitEnv (onCoords f) dblMax) (Params.new al ga s e N) (ext β) x).trace).length = N := by
      rw [run_path, path_length]
      rfl
    generalize points (optimize (bitEnv (onCoords f) dblMax) (Params.new al ga s e N) (ext β) x).trace = l at hb hl
    rw [← hl]
    clear hl
    induction l with
    | nil => simp
    | cons y l ih =>
      have i1 := ih fun z hz => hb z (List.mem_cons_of_mem _ hz)
      have i2 := pow_le_pow_left₀ hδ.le (hb y List.mem_cons_self) 2
      simp only [List.length_cons, List.map_cons, List.sum_cons]
      push_cast
      linarith
  have h2 : (S.card : ℝ) * (δ ^ 2 * N) ≤ ε * δ ^ 2 * N * Fintype.card (Fin N → ι → Bool) := by
    calc (S.card : ℝ) * (δ ^ 2 * N) = ∑ _β ∈ S, δ ^ 2 * (N : ℝ) := by rw [Finset.sum_const, nsmul_eq_mul]
      _ ≤ ∑ β ∈ S, _ := Finset.sum_le_sum hbad
      _ ≤ ∑ β : Fin N → ι → Bool, _ := Finset.sum_le_univ_sum_of_nonneg fun β => hnn _
      _ ≤ _ := h1.le
  have hpos : 0 < δ ^ 2 * (N : ℝ) := by positivity
  refine le_of_mul_le_mul_right ?_ hpos
  linarith

/-- Non-vacuity: half the squared distance to the origin, default parameters. -/
example (x : Fin 2 → ℝ) : Tendsto (meanSquare (fun x : Vec (Fin 2) => ‖x‖ ^ 2 / 2) (fun x => x) (10 ^ 300) 0.602 0.101 0.16 0.3 x)
    atTop (nhds 0) := by
  refine C286_spsa_converges (L := 1) (m := 0) ⟨fun x => ?_, fun x y => by simp⟩ one_pos (fun x => by positivity) (by norm_num)
    (by norm_num) (by norm_num) (by norm_num) (by norm_num) _ x
  have h1 := (hasStrictFDerivAt_norm_sq x).hasFDerivAt.const_mul (1 / 2 : ℝ)
  have e : (fun x : Vec (Fin 2) => ‖x‖ ^ 2 / 2) = fun x => 1 / 2 * ‖x‖ ^ 2 := by funext x; ring
  rw [e]
  refine h1.congr_fderiv ?_
  ext y
  simp

end Ens.Spsa
