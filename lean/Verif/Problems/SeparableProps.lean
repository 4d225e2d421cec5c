import Mathlib.Analysis.SpecialFunctions.Trigonometric.Deriv
import Mathlib.Analysis.SpecialFunctions.ExpDeriv
import Mathlib.Analysis.Calculus.Deriv.Pow
import Mathlib.Algebra.BigOperators.Fin
import Mathlib.Tactic.FinCases
import Mathlib.Tactic.Ring
import Mathlib.Tactic.NormNum
import Mathlib.Tactic.Linarith
import Mathlib.Tactic.Positivity
import Verif.Problems.Separable
import Verif.Problems.Gradients

/-
C65, C66, C67 for the separable problems.
-/

namespace Ens.Problems

open Real Function

variable {n m : Nat}

/-- The sum of `F` over the consecutive batches of sizes `ks`, the first beginning at `b`. -/
def splitSum {M : Type} [Add M] [Zero M] (F : Nat → Nat → M) : Nat → List Nat → M
  | _, [] => 0
  | b, k :: ks => F b k + splitSum F (b + k) ks

/-- `visitationOrder` is a permutation of the `n` functions. -/
def IsOrder (ord : Nat → Fin n) : Prop := Bijective fun j : Fin n => ord j

/-! ### Helpers -/

theorem splitSum_eq {M : Type} [AddMonoid M] {F : Nat → Nat → M} (h0 : ∀ b, F b 0 = 0)
    (hs : ∀ b k l, F b (k + l) = F b k + F (b + k) l) (b : Nat) (ks : List Nat) :
    splitSum F b ks = F b ks.sum := by
  induction ks generalizing b with
  | nil => simp [splitSum, h0]
  | cons k ks ih => rw [splitSum, ih, List.sum_cons, hs]

theorem foldl_add_start {X : Type} (f : X → ℝ) (l : List X) (c : ℝ) :
    l.foldl (fun s j => s + f j) c = c + l.foldl (fun s j => s + f j) 0 := by
  induction l generalizing c with
  | nil => simp
  | cons a l ih => rw [List.foldl_cons, List.foldl_cons, ih, ih (0 + f a)]; ring

theorem foldl_range_add (f : Nat → ℝ) (b k l : Nat) :
    (List.range' b (k + l)).foldl (fun s j => s + f j) 0 =
      (List.range' b k).foldl (fun s j => s + f j) 0 + (List.range' (b + k) l).foldl (fun s j => s + f j) 0 := by
  rw [show List.range' b (k + l) = List.range' b k ++ List.range' (b + k) l by
    rw [List.range'_append_1], List.foldl_append, foldl_add_start]

theorem evalLoop_add (term : Fin n → ℝ → ℝ) (ord : Nat → Fin n) (x : Fin n → ℝ) (b k l : Nat) :
    evalLoop term ord b (k + l) x = evalLoop term ord b k x + evalLoop term ord (b + k) l x :=
  foldl_range_add _ b k l

theorem evalLoop_zero (term : Fin n → ℝ → ℝ) (ord : Nat → Fin n) (x : Fin n → ℝ) (b : Nat) :
    evalLoop term ord b 0 x = 0 := rfl

theorem evalLoop_succ (term : Fin n → ℝ → ℝ) (ord : Nat → Fin n) (x : Fin n → ℝ) (b k : Nat) :
    evalLoop term ord b (k + 1) x = evalLoop term ord b k x + term (ord (b + k)) (x (ord (b + k))) := by
  rw [evalLoop_add]; simp [evalLoop]

theorem gradLoop_apply (dterm : Fin n → ℝ → ℝ) (ord : Nat → Fin n) (x : Fin n → ℝ) (b k : Nat) (i : Fin n) :
    gradLoop dterm ord b k x i =
      (List.range' b k).foldl (fun s j => s + if ord j = i then dterm (ord j) (x (ord j)) else 0) 0 := by
  have key : ∀ (l : List Nat) (g : Fin n → ℝ),
      l.foldl (fun g j => update g (ord j) (g (ord j) + dterm (ord j) (x (ord j)))) g i =
        l.foldl (fun s j => s + if ord j = i then dterm (ord j) (x (ord j)) else 0) (g i) := by
    intro l
    induction l with
    | nil => intro g; rfl
    | cons j l ih =>
      intro g
      rw [List.foldl_cons, List.foldl_cons, ih]
      congr 1
      rw [update_apply]
      by_cases h : i = ord j
      · rw [if_pos h, if_pos h.symm, h]
      · rw [if_neg h, if_neg (Ne.symm h), add_zero]
  rw [gradLoop, key]
  rfl

theorem gradLoop_add (dterm : Fin n → ℝ → ℝ) (ord : Nat → Fin n) (x : Fin n → ℝ) (b k l : Nat) :
    gradLoop dterm ord b (k + l) x = gradLoop dterm ord b k x + gradLoop dterm ord (b + k) l x := by
  funext i
  rw [Pi.add_apply, gradLoop_apply, gradLoop_apply, gradLoop_apply, foldl_range_add]

theorem gradLoop_zero (dterm : Fin n → ℝ → ℝ) (ord : Nat → Fin n) (x : Fin n → ℝ) (b : Nat) :
    gradLoop dterm ord b 0 x = 0 := rfl

theorem GradAt.add {f f' : (Fin n → ℝ) → ℝ} {g g' x : Fin n → ℝ} (h : GradAt f g x) (h' : GradAt f' g' x) :
    GradAt (fun y => f y + f' y) (g + g') x := by
  have := HasFDerivAt.fun_add (show HasFDerivAt _ _ _ from h) (show HasFDerivAt _ _ _ from h')
  refine HasFDerivAt.congr_fderiv this ?_
  simp [add_smul, Finset.sum_add_distrib]

theorem GradAt.const_mul {f : (Fin n → ℝ) → ℝ} {g x : Fin n → ℝ} (c : ℝ) (h : GradAt f g x) :
    GradAt (fun y => c * f y) (c • g) x := by
  have := HasFDerivAt.const_mul (show HasFDerivAt _ _ _ from h) c
  refine HasFDerivAt.congr_fderiv this ?_
  simp [Finset.smul_sum, smul_smul]

theorem GradAt.add_const {f : (Fin n → ℝ) → ℝ} {g x : Fin n → ℝ} (c : ℝ) (h : GradAt f g x) :
    GradAt (fun y => f y + c) g x := HasFDerivAt.add_const c (show HasFDerivAt _ _ _ from h)

theorem GradAt.zero (x : Fin n → ℝ) : GradAt (fun _ => 0) 0 x := by
  have := hasFDerivAt_const (𝕜 := ℝ) (0 : ℝ) x
  refine HasFDerivAt.congr_fderiv this ?_
  simp

theorem GradAt.coord {φ : ℝ → ℝ} {d : ℝ} {x : Fin n → ℝ} {i : Fin n} (h : HasDerivAt φ d (x i)) :
    GradAt (fun y => φ (y i)) (Pi.single i d) x := by
  have h1 : HasFDerivAt (fun y : Fin n → ℝ => y i) (ContinuousLinearMap.proj i) x := hasFDerivAt_apply (𝕜 := ℝ) i x
  have := h.comp_hasFDerivAt x h1
  refine HasFDerivAt.congr_fderiv this ?_
  ext v
  simp [Pi.single_apply]

/-- The loop over the derivatives is the gradient of the loop over the terms. -/
theorem gradLoop_grad {term dterm : Fin n → ℝ → ℝ} (ord : Nat → Fin n) (b k : Nat) (x : Fin n → ℝ)
    (h : ∀ j, b ≤ j → j < b + k → HasDerivAt (term (ord j)) (dterm (ord j) (x (ord j))) (x (ord j))) :
    GradAt (evalLoop term ord b k) (gradLoop dterm ord b k x) x := by
  induction k with
  | zero => exact GradAt.zero x
  | succ k ih =>
    have h1 := (ih fun j hj hk => h j hj (by omega)).add (GradAt.coord (h (b + k) (by omega) (by omega)))
    have e1 : evalLoop term ord b (k + 1) =
        fun y => evalLoop term ord b k y + term (ord (b + k)) (y (ord (b + k))) := by
      funext y; exact evalLoop_succ term ord y b k
    have e2 : gradLoop dterm ord b (k + 1) x =
        gradLoop dterm ord b k x + Pi.single (ord (b + k)) (dterm (ord (b + k)) (x (ord (b + k)))) := by
      rw [gradLoop_add]
      congr 1
      funext i
      rw [gradLoop_apply]
      simp [Pi.single_apply, eq_comm]
    rw [e1, e2]
    exact h1

theorem foldl_range_sum (f : Nat → ℝ) (k : Nat) :
    (List.range' 0 k).foldl (fun s j => s + f j) 0 = ∑ j : Fin k, f j := by
  induction k with
  | zero => rfl
  | succ k ih =>
    rw [foldl_range_add, ih, Fin.sum_univ_castSucc]
    simp

/-- The whole sum does not depend on the order of visitation. -/
theorem evalLoop_all (term : Fin n → ℝ → ℝ) {ord : Nat → Fin n} (ho : IsOrder ord) (x : Fin n → ℝ) :
    evalLoop term ord 0 n x = ∑ i, term i (x i) := by
  rw [evalLoop, foldl_range_sum]
  exact Fintype.sum_bijective _ ho _ _ fun _ => rfl

/-! ### C66: batches add up -/

/-- **C66** Sphere: objective and gradient. -/
theorem C66_sphere (ord : Nat → Fin n) (x : Fin n → ℝ) (b : Nat) (ks : List Nat) :
    splitSum (fun b k => sphere ord b k x) b ks = sphere ord b ks.sum x ∧
    splitSum (fun b k => sphereGrad ord b k x) b ks = sphereGrad ord b ks.sum x :=
  ⟨splitSum_eq (fun _ => rfl) (evalLoop_add _ ord x) b ks, splitSum_eq (fun _ => rfl) (gradLoop_add _ ord x) b ks⟩

/-- **C66** Styblinski-Tang: objective and gradient. -/
theorem C66_styblinski (ord : Nat → Fin n) (x : Fin n → ℝ) (b : Nat) (ks : List Nat) :
    splitSum (fun b k => styblinski ord b k x) b ks = styblinski ord b ks.sum x ∧
    splitSum (fun b k => styblinskiGrad ord b k x) b ks = styblinskiGrad ord b ks.sum x :=
  ⟨splitSum_eq (fun _ => by simp [styblinski, evalLoop_zero])
    (fun b k l => by simp only [styblinski]; rw [evalLoop_add]; ring) b ks,
    splitSum_eq (fun _ => rfl) (gradLoop_add _ ord x) b ks⟩

/-- **C66** Schwefel: objective and gradient. -/
theorem C66_schwefel (ord : Nat → Fin n) (x : Fin n → ℝ) (b : Nat) (ks : List Nat) :
    splitSum (fun b k => schwefel ord b k x) b ks = schwefel ord b ks.sum x ∧
    splitSum (fun b k => schwefelGrad ord b k x) b ks = schwefelGrad ord b ks.sum x :=
  ⟨splitSum_eq (fun _ => by simp [schwefel, evalLoop_zero])
    (fun b k l => by simp only [schwefel]; rw [evalLoop_add]; push_cast; ring) b ks,
    splitSum_eq (fun _ => rfl) (gradLoop_add _ ord x) b ks⟩

/-- **C66** `SGDTestFunction`: objective and gradient. -/
theorem C66_sgdTest (ord : Nat → Fin 3) (x : Fin 3 → ℝ) (b : Nat) (ks : List Nat) :
    splitSum (fun b k => sgdTest ord b k x) b ks = sgdTest ord b ks.sum x ∧
    splitSum (fun b k => sgdTestGrad ord b k x) b ks = sgdTestGrad ord b ks.sum x :=
  ⟨splitSum_eq (fun _ => rfl) (evalLoop_add _ ord x) b ks, splitSum_eq (fun _ => rfl) (gradLoop_add _ ord x) b ks⟩

/-- **C66** `SparseTestFunction`, objective. -/
theorem C66_sparseTest (x : Fin 4 → ℝ) (b : Nat) (ks : List Nat) :
    splitSum (fun b k => sparseTest b k x) b ks = sparseTest b ks.sum x :=
  splitSum_eq (fun _ => rfl) (evalLoop_add _ _ x) b ks

/-- **C66** Generalized Rosenbrock, objective; and the batch of all functions in any order is `Evaluate(coordinates)`. -/
theorem C66_genRosen (ord : Nat → Fin m) (x : Fin (m + 1) → ℝ) :
    (∀ b ks, splitSum (fun b k => genRosenBatch ord b k x) b ks = genRosenBatch ord b ks.sum x) ∧
    (IsOrder ord → genRosenBatch ord 0 m x = genRosen x) := by
  refine ⟨fun b ks => splitSum_eq (fun _ => rfl) (foldl_range_add _) b ks, fun ho => ?_⟩
  rw [genRosenBatch, foldl_range_sum]
  have h1 : ∀ (l : List (Fin m)) (c : ℝ), l.foldl (fun s p => s + grTerm x p) c = c + (l.map (grTerm x)).sum := by
    intro l
    induction l with
    | nil => intro c; simp
    | cons a l ih => intro c; rw [List.foldl_cons, ih, List.map_cons, List.sum_cons]; ring
  rw [genRosen, h1, zero_add, ← List.ofFn_eq_map, List.sum_ofFn]
  exact Fintype.sum_bijective _ ho _ _ fun _ => rfl

/-- **C155** Rastrigin, the part that holds: the gradients add up, and the objectives of `ks.length` batches add up to the
objective of the whole plus `10 n` for each further batch. -/
theorem C155_rastrigin_partial (ord : Nat → Fin n) (x : Fin n → ℝ) (b : Nat) (ks : List Nat) :
    splitSum (fun b k => rastrigin ord b k x) b ks = rastrigin ord b ks.sum x + 10 * n * (ks.length - 1) ∧
    splitSum (fun b k => rastriginGrad ord b k x) b ks = rastriginGrad ord b ks.sum x := by
  refine ⟨?_, splitSum_eq (fun _ => rfl) (gradLoop_add _ ord x) b ks⟩
  induction ks generalizing b with
  | nil => simp [splitSum, rastrigin, evalLoop_zero]
  | cons k ks ih =>
    rw [splitSum, ih]
    simp only [rastrigin, List.sum_cons, List.length_cons]
    rw [evalLoop_add]
    push_cast; ring

/-- **C155 is false for Rastrigin.** -/
theorem C155_rastrigin_refuted : ¬ ∀ (ord : Nat → Fin 2) (x : Fin 2 → ℝ) (ks : List Nat), ks.sum = 2 →
    splitSum (fun b k => rastrigin ord b k x) 0 ks = rastrigin ord 0 2 x := by
  intro h
  have h1 := h (Fin.ofNat 2) 0 [1, 1] rfl
  rw [(C155_rastrigin_partial _ _ _ _).1] at h1
  norm_num at h1

/-! ### C65: gradients -/

/-- **C65** Sphere, every batch. -/
theorem C65_sphere (ord : Nat → Fin n) (b k : Nat) (x : Fin n → ℝ) : GradAt (sphere ord b k) (sphereGrad ord b k x) x :=
  gradLoop_grad (term := fun _ t => t ^ 2) (dterm := fun _ t => 2 * t) ord b k x fun j _ _ => by
    simpa using hasDerivAt_pow 2 (x (ord j))

/-- **C65** Styblinski-Tang, every batch. -/
theorem C65_styblinski (ord : Nat → Fin n) (b k : Nat) (x : Fin n → ℝ) :
    GradAt (styblinski ord b k) (styblinskiGrad ord b k x) x := by
  have h := gradLoop_grad (term := fun _ t => (1 / 2) * (t ^ 4 - 16 * t ^ 2 + 5 * t))
    (dterm := fun _ t => 0.5 * (4 * t ^ 3 - 32 * t + 5)) ord b k x fun j _ _ => by
      have := ((((hasDerivAt_pow 4 (x (ord j))).fun_sub ((hasDerivAt_pow 2 (x (ord j))).const_mul 16)).fun_add
        ((hasDerivAt_id' (x (ord j))).const_mul 5)).const_mul (1 / 2))
      refine this.congr_deriv ?_
      norm_num; ring
  have e : styblinski ord b k = evalLoop (fun _ t => (1 / 2) * (t ^ 4 - 16 * t ^ 2 + 5 * t)) ord b k := by
    funext y
    have key : ∀ k, styblinski ord b k y = evalLoop (fun _ t => (1 / 2) * (t ^ 4 - 16 * t ^ 2 + 5 * t)) ord b k y := by
      intro k
      induction k with
      | zero => simp [styblinski, evalLoop]
      | succ k ih =>
        rw [evalLoop_succ, ← ih]
        simp only [styblinski]
        rw [evalLoop_succ]; ring
    exact key k
  rw [e]
  exact h

/-- **C154** Schwefel, every batch, where no visited coordinate is 0 (at 0 the code computes 0 / 0). -/
theorem C154_schwefel_partial (ord : Nat → Fin n) (b k : Nat) (x : Fin n → ℝ)
    (hx : ∀ j, b ≤ j → j < b + k → x (ord j) ≠ 0) : GradAt (schwefel ord b k) (schwefelGrad ord b k x) x := by
  have h := gradLoop_grad (term := fun _ t => t * sin √|t|)
    (dterm := fun _ t => t ^ 2 * cos √|t| / (2 * |t| ^ (1.5 : ℝ)) + sin √|t|) ord b k x fun j hj hk => by
      have h1 := hasDerivAt_sqrt_abs (hasDerivAt_id' (x (ord j))) (hx j hj hk)
      have := (hasDerivAt_id' (x (ord j))).fun_mul h1.sin
      refine this.congr_deriv ?_
      ring
  exact h.add_const (-(418.9829 * (k : ℝ)))

/-- **C154** Rastrigin, exactly: what the code returns is the gradient multiplied by `10 n`. -/
theorem C154_rastrigin_scaled (ord : Nat → Fin n) (b k : Nat) (x : Fin n → ℝ) :
    GradAt (fun y => 10 * n * rastrigin ord b k y) (rastriginGrad ord b k x) x := by
  have h := gradLoop_grad (term := fun _ t => 10 * n * (t ^ 2 - 10 * cos (2 * π * t)))
    (dterm := fun _ t => 10 * n * (2 * (t + 10 * π * sin (2 * π * t)))) ord b k x fun j _ _ => by
      have := ((hasDerivAt_pow 2 (x (ord j))).fun_sub
        ((((hasDerivAt_id' (x (ord j))).const_mul (2 * π)).cos).const_mul 10)).const_mul (10 * (n : ℝ))
      refine this.congr_deriv ?_
      norm_num; left; ring
  have e : (fun y => 10 * n * rastrigin ord b k y) =
      fun y => evalLoop (fun _ t => 10 * n * (t ^ 2 - 10 * cos (2 * π * t))) ord b k y + 10 * n * (10 * n) := by
    funext y
    have key : ∀ k, 10 * n * rastrigin ord b k y =
        evalLoop (fun _ t => 10 * n * (t ^ 2 - 10 * cos (2 * π * t))) ord b k y + 10 * n * (10 * n) := by
      intro k
      induction k with
      | zero => simp [rastrigin, evalLoop]
      | succ k ih =>
        rw [evalLoop_succ]
        simp only [rastrigin] at ih ⊢
        rw [evalLoop_succ]
        linear_combination ih
    exact key k
  rw [e]
  exact h.add_const _

/-- **C154 is false for Rastrigin.** -/
theorem C154_rastrigin_refuted : ¬ ∀ (ord : Nat → Fin 1) (x : Fin 1 → ℝ), GradAt (rastrigin ord 0 1) (rastriginGrad ord 0 1 x) x := by
  intro h
  have h1 := (h (fun _ => 0) ![1]).const_mul 10
  have h2 := C154_rastrigin_scaled (n := 1) (fun _ => 0) 0 1 ![1]
  have e : (fun y : Fin 1 → ℝ => 10 * ((1 : Nat) : ℝ) * rastrigin (fun _ => 0) 0 1 y) =
      fun y => 10 * rastrigin (fun _ => 0) 0 1 y := by funext y; simp
  rw [e] at h2
  have h3 := congrFun (h1.unique h2) 0
  simp [rastriginGrad, gradLoop] at h3

/-- **C154** `SGDTestFunction`, every batch, away from its kink (the first coordinate is not 0). -/
theorem C154_sgdTest_partial (ord : Nat → Fin 3) (b k : Nat) (x : Fin 3 → ℝ) (hx : x 0 ≠ 0) :
    GradAt (sgdTest ord b k) (sgdTestGrad ord b k x) x := by
  refine gradLoop_grad ord b k x fun j _ _ => ?_
  generalize ord j = i
  fin_cases i
  · show HasDerivAt (sgdTerm 0) (sgdDTerm 0 (x 0)) (x 0)
    have e : sgdTerm 0 = fun t => -exp (-|t|) := by funext t; simp [sgdTerm]
    rw [e]
    rcases lt_or_gt_of_ne hx with h | h
    · refine ((hasDerivAt_abs_neg h).fun_neg.exp.fun_neg).congr_deriv ?_
      simp [sgdDTerm, not_le.2 h, abs_of_neg h]
    · refine ((hasDerivAt_abs_pos h).fun_neg.exp.fun_neg).congr_deriv ?_
      simp [sgdDTerm, h.le, abs_of_pos h]
  · show HasDerivAt (sgdTerm 1) (sgdDTerm 1 (x 1)) (x 1)
    have e : sgdTerm 1 = fun t => t ^ 2 := by funext t; simp [sgdTerm]
    rw [e]
    refine (hasDerivAt_pow 2 (x 1)).congr_deriv ?_
    simp [sgdDTerm]
  · show HasDerivAt (sgdTerm 2) (sgdDTerm 2 (x 2)) (x 2)
    have e : sgdTerm 2 = fun t => t ^ 4 + 3 * t ^ 2 := by funext t; simp [sgdTerm]
    rw [e]
    refine ((hasDerivAt_pow 4 (x 2)).fun_add ((hasDerivAt_pow 2 (x 2)).const_mul 3)).congr_deriv ?_
    simp [sgdDTerm]
    ring

/-- The gradient loop of `SparseTestFunction` within bounds. -/
theorem sparseTestGrad_eq {b k : Nat} (h : b + k ≤ 4) (x : Fin 4 → ℝ) :
    sparseTestGrad b k x = gradLoop (fun i t => 2 * t + ![-4, -2, -3, -8] i) (Fin.ofNat 4) b k x := by
  have key : ∀ (l : List Nat), l.Nodup → (∀ j ∈ l, j < 4) → ∀ g : Fin 4 → ℝ, (∀ j ∈ l, g (Fin.ofNat 4 j) = 0) →
      l.foldl (fun g j => update g (Fin.ofNat 4 j) (2 * x (Fin.ofNat 4 j) + ![-4, -2, -3, -8] (Fin.ofNat 4 j))) g =
      l.foldl (fun g j => update g (Fin.ofNat 4 j)
        (g (Fin.ofNat 4 j) + (2 * x (Fin.ofNat 4 j) + ![-4, -2, -3, -8] (Fin.ofNat 4 j)))) g := by
    intro l
    induction l with
    | nil => intros; rfl
    | cons a l ih =>
      intro hn hl g hg
      rw [List.nodup_cons] at hn
      rw [List.foldl_cons, List.foldl_cons, hg a List.mem_cons_self, zero_add]
      apply ih hn.2 fun j hj => hl j (List.mem_cons_of_mem _ hj)
      intro j hj
      rw [update_apply, if_neg, hg j (List.mem_cons_of_mem _ hj)]
      intro e
      apply hn.1
      have h1 := hl j (List.mem_cons_of_mem _ hj)
      have h2 := hl a List.mem_cons_self
      have e' := congrArg Fin.val e
      simp only [Fin.ofNat, Nat.mod_eq_of_lt h1, Nat.mod_eq_of_lt h2] at e'
      rw [← e']; exact hj
  exact key _ (List.nodup_range' ..) (fun j hj => by simp [List.mem_range'] at hj; omega) 0 fun _ _ => rfl

/-- **C65** `SparseTestFunction`, every batch within bounds, and its partial gradients. -/
theorem C65_sparseTest {b k : Nat} (h : b + k ≤ 4) (x : Fin 4 → ℝ) :
    GradAt (sparseTest b k) (sparseTestGrad b k x) x := by
  rw [sparseTestGrad_eq h]
  refine gradLoop_grad (term := fun i t => t * t + ![-4, -2, -3, -8] i * t + ![20, 12, 15, 100] i)
    (dterm := fun i t => 2 * t + ![-4, -2, -3, -8] i) _ b k x fun j _ _ => ?_
  have h1 := hasDerivAt_id' (x (Fin.ofNat 4 j))
  refine ((h1.fun_mul h1).fun_add (h1.const_mul (![-4, -2, -3, -8] (Fin.ofNat 4 j)))).add_const
    (![20, 12, 15, 100] (Fin.ofNat 4 j)) |>.congr_deriv ?_
  ring

/-- **C65** `SparseTestFunction::PartialGradient` holds exactly the `j`-th component of the full gradient. -/
theorem C65_sparseTestPartial (x : Fin 4 → ℝ) (j i : Fin 4) :
    sparseTestPartial x j i = if i = j then sparseTestGrad 0 4 x i else 0 := by
  fin_cases i <;> fin_cases j <;> simp [sparseTestPartial, sparseTestGrad, update_apply, List.range', Fin.ofNat]

/-- **C66** `SparseTestFunction`, gradients. -/
theorem C66_sparseTestGrad (x : Fin 4 → ℝ) (b : Nat) (ks : List Nat) (h : b + ks.sum ≤ 4) :
    splitSum (fun b k => sparseTestGrad b k x) b ks = sparseTestGrad b ks.sum x := by
  have key : ∀ (ks : List Nat) (b : Nat), b + ks.sum ≤ 4 → splitSum (fun b k => sparseTestGrad b k x) b ks =
      splitSum (fun b k => gradLoop (fun i t => 2 * t + ![-4, -2, -3, -8] i) (Fin.ofNat 4) b k x) b ks := by
    intro ks
    induction ks with
    | nil => intros; rfl
    | cons k ks ih =>
      intro b hb
      rw [List.sum_cons] at hb
      simp only [splitSum]
      rw [sparseTestGrad_eq (by omega), ih _ (by omega)]
  rw [key ks b h, sparseTestGrad_eq h]
  exact splitSum_eq (fun _ => rfl) (gradLoop_add _ _ x) b ks

/-! ### Generalized Rosenbrock -/

/-- The gradient of one term. -/
noncomputable def grG (x : Fin (m + 1) → ℝ) (p : Fin m) : Fin (m + 1) → ℝ := fun i =>
  (if i = p.castSucc then 400 * (x p.castSucc ^ 3 - x p.castSucc * x p.succ) + 2 * (x p.castSucc - 1) else 0) +
    (if i = p.succ then 200 * (x p.succ - x p.castSucc ^ 2) else 0)

theorem grTerm_grad (x : Fin (m + 1) → ℝ) (p : Fin m) : GradAt (fun y => grTerm y p) (grG x p) x := by
  have h1 : HasFDerivAt (fun y : Fin (m + 1) → ℝ => y p.castSucc) (ContinuousLinearMap.proj p.castSucc) x :=
    hasFDerivAt_apply (𝕜 := ℝ) p.castSucc x
  have h2 : HasFDerivAt (fun y : Fin (m + 1) → ℝ => y p.succ) (ContinuousLinearMap.proj p.succ) x :=
    hasFDerivAt_apply (𝕜 := ℝ) p.succ x
  have h3 := ((((h1.pow 2).sub h2).pow 2).const_mul 100).add ((h1.const_sub 1).pow 2)
  refine HasFDerivAt.congr_fderiv (f := fun y => grTerm y p) h3 ?_
  ext v
  simp [grG, add_mul, Finset.sum_add_distrib, ite_mul]
  ring

/-- **C154** Generalized Rosenbrock, a batch of one function. Missing: larger batches (refuted below). -/
theorem C154_genRosenBatch_partial (ord : Nat → Fin m) (b : Nat) (x : Fin (m + 1) → ℝ) :
    GradAt (genRosenBatch ord b 1) (genRosenBatchGrad ord b 1 x) x := by
  have e1 : genRosenBatch ord b 1 = fun y => grTerm y (ord b) := by funext y; simp [genRosenBatch]
  have e2 : genRosenBatchGrad ord b 1 x = grG x (ord b) := by
    have hne : (ord b).succ ≠ (ord b).castSucc := (Fin.castSucc_lt_succ).ne'
    funext i
    simp only [genRosenBatchGrad, List.range'_one, List.foldl_cons, List.foldl_nil, update_apply, grG,
      Pi.zero_apply]
    by_cases h1 : i = (ord b).succ
    · subst h1; rw [if_pos rfl, if_pos rfl, if_neg hne, zero_add]
    · rw [if_neg h1, if_neg h1, add_zero]
  rw [e1, e2]
  exact grTerm_grad x (ord b)

/-- **C154 is false for the batch gradient of generalized Rosenbrock**: with two neighbouring functions in a batch, the second
overwrites what the first contributed to their common coordinate. -/
theorem C154_genRosenBatch_refuted : ¬ ∀ (ord : Nat → Fin 2) (x : Fin 3 → ℝ),
    GradAt (genRosenBatch ord 0 2) (genRosenBatchGrad ord 0 2 x) x := by
  intro h
  have h1 := h (Fin.ofNat 2) ![0, 1, 0]
  have h2 := (grTerm_grad (m := 2) ![0, 1, 0] 0).add (grTerm_grad (m := 2) ![0, 1, 0] 1)
  have e : genRosenBatch (m := 2) (Fin.ofNat 2) 0 2 = fun y => grTerm y 0 + grTerm y 1 := by
    funext y; simp [genRosenBatch, List.range', Fin.ofNat]
  rw [e] at h1
  have h3 := congrFun (h1.unique h2) 1
  simp [genRosenBatchGrad, List.range', Fin.ofNat, update_apply, grG] at h3

/-- **C154** (partial) What the batch gradient of generalized Rosenbrock is for a batch of the first `k` functions in order: each component has
the contribution of the last function that touches it only. -/
theorem C154_genRosenBatch_overwritten_partial {m : Nat} (ord : Nat → Fin m) (hord : ∀ j, j < m → (ord j).val = j) (x : Fin (m + 1) → ℝ) :
    ∀ (k : Nat) (_ : k ≤ m) (i : Fin (m + 1)), genRosenBatchGrad ord 0 k x i =
      if h : i.val < k then
        400 * (x i ^ 3 - x i * x ⟨i.val + 1, by omega⟩) + 2 * (x i - 1)
      else if i.val = k ∧ 0 < k then 200 * (x i - x (prevIdx i) ^ 2) else 0 := by
  intro k
  induction k with
  | zero =>
    intro _ i
    simp [genRosenBatchGrad]
  | succ k ih =>
    intro hk i
    have hstep : genRosenBatchGrad ord 0 (k + 1) x =
        update (update (genRosenBatchGrad ord 0 k x) (ord k).castSucc (400 * (x (ord k).castSucc ^ 3 - x (ord k).castSucc *
          x (ord k).succ) + 2 * (x (ord k).castSucc - 1))) (ord k).succ (200 * (x (ord k).succ - x (ord k).castSucc ^ 2)) := by
      unfold genRosenBatchGrad
      rw [List.range'_concat, List.foldl_append]
      simp
    have hv := hord k (by omega)
    rw [hstep, update_apply, update_apply]
    by_cases h1 : i = (ord k).succ
    · subst h1
      have e : prevIdx (ord k).succ = (ord k).castSucc := by
        apply Fin.ext
        simp [prevIdx]
      rw [if_pos rfl, dif_neg (by simp [hv]), if_pos (by simp [hv]), e]
    · have hne1 : i.val ≠ k + 1 := by
        intro e
        apply h1
        apply Fin.ext
        simp [hv, e]
      rw [if_neg h1]
      by_cases h2 : i = (ord k).castSucc
      · subst h2
        have e : (⟨(ord k).castSucc.val + 1, by simp⟩ : Fin (m + 1)) = (ord k).succ := by
          apply Fin.ext
          simp
        rw [if_pos rfl, dif_pos (by simp [hv]), e]
      · have hne2 : i.val ≠ k := by
          intro e
          apply h2
          apply Fin.ext
          simp [hv, e]
        rw [if_neg h2, ih (by omega) i]
        by_cases h3 : i.val < k
        · rw [dif_pos h3, dif_pos (by omega)]
        · rw [dif_neg h3, dif_neg (by omega), if_neg (by omega), if_neg (by omega)]

/-- What the loop of `Gradient(coordinates, gradient)` leaves in component `p` (generalized Rosenbrock). -/
noncomputable def grV (x : Fin (m + 1) → ℝ) (p : Fin m) : ℝ :=
  400 * (x p.castSucc ^ 3 - x p.castSucc * x p.succ) + 2 * (x p.castSucc - 1) +
    if 0 < p.val then 200 * (x p.castSucc - x (prevIdx p.castSucc) ^ 2) else 0

theorem genRosenGrad_castSucc (x : Fin (m + 1) → ℝ) (q : Fin m) : genRosenGrad x q.castSucc = grV x q := by
  have key : ∀ (l : List (Fin m)) (g : Fin (m + 1) → ℝ),
      l.foldl (fun g p =>
        let g := update g p.castSucc (400 * (x p.castSucc ^ 3 - x p.castSucc * x p.succ) + 2 * (x p.castSucc - 1))
        if 0 < p.val then
          update g p.castSucc (g p.castSucc + 200 * (x p.castSucc - x (prevIdx p.castSucc) ^ 2))
        else g) g q.castSucc = if q ∈ l then grV x q else g q.castSucc := by
    intro l
    induction l with
    | nil => intro g; simp
    | cons a l ih =>
      intro g
      rw [List.foldl_cons, ih]
      by_cases hl : q ∈ l
      · rw [if_pos hl, if_pos (List.mem_cons_of_mem _ hl)]
      · rw [if_neg hl]
        by_cases ha : q = a
        · subst ha
          rw [if_pos List.mem_cons_self]
          by_cases h0 : 0 < q.val
          · simp [grV, h0]
          · simp [grV, h0]
        · rw [if_neg (show ¬ q ∈ a :: l by rw [List.mem_cons]; tauto)]
          have hne : q.castSucc ≠ a.castSucc := fun e => ha (Fin.castSucc_injective _ e)
          by_cases h0 : 0 < a.val
          · simp [h0, update_apply, hne]
          · simp [h0, update_apply, hne]
  have hne : q.castSucc ≠ Fin.last m := (Fin.castSucc_lt_last q).ne
  unfold genRosenGrad
  rw [Function.update_of_ne hne, key, if_pos (List.mem_finRange q)]

theorem sum_succ_ite (f : Fin m → ℝ) (i : Fin (m + 1)) (q : Fin m) (hq : i = q.succ) :
    (∑ p : Fin m, if i = p.succ then f p else 0) = f q := by
  subst hq
  simp [Fin.succ_inj]

theorem genRosen_sum (x : Fin (m + 1) → ℝ) : genRosen x = ∑ p, grTerm x p := by
  have h1 : ∀ (l : List (Fin m)) (c : ℝ), l.foldl (fun s p => s + grTerm x p) c = c + (l.map (grTerm x)).sum := by
    intro l
    induction l with
    | nil => intro c; simp
    | cons a l ih => intro c; rw [List.foldl_cons, ih, List.map_cons, List.sum_cons]; ring
  rw [genRosen, h1, zero_add, ← List.ofFn_eq_map, List.sum_ofFn]

theorem GradAt.sum {ι : Type} (s : Finset ι) {f : ι → (Fin n → ℝ) → ℝ} {g : ι → Fin n → ℝ} {x : Fin n → ℝ}
    (h : ∀ p, GradAt (f p) (g p) x) : GradAt (fun y => ∑ p ∈ s, f p y) (∑ p ∈ s, g p) x := by
  classical
  induction s using Finset.induction_on with
  | empty => simpa using GradAt.zero x
  | insert a s ha ih =>
    simp only [Finset.sum_insert ha]
    exact (h a).add ih

/-- **C65** Generalized Rosenbrock: the full gradient, in every dimension from 2. -/
theorem C65_genRosen (hm : 0 < m) (x : Fin (m + 1) → ℝ) : GradAt genRosen (genRosenGrad x) x := by
  have h := GradAt.sum Finset.univ (fun p => grTerm_grad x p)
  have e1 : (genRosen : (Fin (m + 1) → ℝ) → ℝ) = fun y => ∑ p, grTerm y p := by funext y; exact genRosen_sum y
  have e2 : genRosenGrad x = ∑ p, grG x p := by
    funext i
    rw [Finset.sum_apply]
    simp only [grG, Finset.sum_add_distrib]
    induction i using Fin.lastCases with
    | last =>
      rw [Finset.sum_eq_zero (fun p _ => by rw [if_neg (Fin.castSucc_lt_last p).ne']), zero_add]
      obtain ⟨m', rfl⟩ : ∃ m', m = m' + 1 := ⟨m - 1, by omega⟩
      rw [sum_succ_ite _ _ (Fin.last m') (by simp)]
      have e : prevIdx (Fin.last (m' + 1)) = (Fin.last m').castSucc := by ext; simp [prevIdx]
      simp [genRosenGrad, e]
    | cast q =>
      rw [genRosenGrad_castSucc]
      have e3 : (∑ p : Fin m, if q.castSucc = p.castSucc then 400 * (x p.castSucc ^ 3 - x p.castSucc * x p.succ) +
          2 * (x p.castSucc - 1) else 0) = 400 * (x q.castSucc ^ 3 - x q.castSucc * x q.succ) + 2 * (x q.castSucc - 1) := by
        simp [Fin.castSucc_inj]
      rw [e3, grV]
      congr 1
      by_cases h0 : 0 < q.val
      · have hq : q.castSucc = (⟨q.val - 1, by omega⟩ : Fin m).succ := by ext; simp; omega
        rw [sum_succ_ite _ _ _ hq, if_pos h0]
        have e4 : prevIdx q.castSucc = (⟨q.val - 1, by omega⟩ : Fin m).castSucc := by ext; simp [prevIdx]
        rw [e4, ← hq]
      · rw [if_neg h0]
        symm
        apply Finset.sum_eq_zero
        intro p _
        rw [if_neg]
        intro e
        have := congrArg Fin.val e
        simp at this
        omega
  rw [e1, e2]
  exact h

/-- `RosenbrockWoodFunction::Evaluate` (rosenbrock_wood_function_impl.hpp:32-46): column 0 is elements 0 to 3, column 1 elements
4 to 7. -/
noncomputable def rosenWood (x : Fin 8 → ℝ) : ℝ :=
  genRosen (m := 3) (fun i => x (Fin.castAdd 4 i)) + wood (fun i => x (Fin.natAdd 4 i))

/-- `RosenbrockWoodFunction::Gradient` (rosenbrock_wood_function_impl.hpp:48-74). -/
noncomputable def rosenWoodGrad (x : Fin 8 → ℝ) : Fin 8 → ℝ :=
  Fin.append (m := 4) (n := 4) (genRosenGrad (m := 3) fun i => x (Fin.castAdd 4 i)) (woodGrad fun i => x (Fin.natAdd 4 i))

/-- The gradient of a sum of functions of two groups of coordinates. -/
theorem GradAt.append {k l : Nat} {f : (Fin k → ℝ) → ℝ} {f' : (Fin l → ℝ) → ℝ} {g : Fin k → ℝ} {g' : Fin l → ℝ}
    {x : Fin (k + l) → ℝ} (h : GradAt f g fun i => x (Fin.castAdd l i)) (h' : GradAt f' g' fun i => x (Fin.natAdd k i)) :
    GradAt (fun y => f (fun i => y (Fin.castAdd l i)) + f' (fun i => y (Fin.natAdd k i))) (Fin.append g g') x := by
  have l1 : HasFDerivAt (fun (y : Fin (k + l) → ℝ) (i : Fin k) => y (Fin.castAdd l i))
      (ContinuousLinearMap.pi fun i => ContinuousLinearMap.proj (Fin.castAdd l i)) x :=
    hasFDerivAt_pi.2 fun i => hasFDerivAt_apply (𝕜 := ℝ) _ x
  have l2 : HasFDerivAt (fun (y : Fin (k + l) → ℝ) (i : Fin l) => y (Fin.natAdd k i))
      (ContinuousLinearMap.pi fun i => ContinuousLinearMap.proj (Fin.natAdd k i)) x :=
    hasFDerivAt_pi.2 fun i => hasFDerivAt_apply (𝕜 := ℝ) _ x
  unfold GradAt at h h'
  have h1 := HasFDerivAt.comp x h l1
  have h2 := HasFDerivAt.comp x h' l2
  refine HasFDerivAt.congr_fderiv (h1.add h2) ?_
  ext v
  simp [Fin.sum_univ_add]

/-- **C65** Rosenbrock-Wood. -/
theorem C65_rosenWood (x : Fin 8 → ℝ) : GradAt rosenWood (rosenWoodGrad x) x :=
  GradAt.append (C65_genRosen (by norm_num) _) (C65_wood _)

/-! ### C67: minima -/

/-- **C67** Sphere. -/
theorem C67_sphere {ord : Nat → Fin n} (ho : IsOrder ord) : MinAt (sphere ord 0 n) 0 0 := by
  refine ⟨?_, fun y => ?_⟩
  · rw [sphere, evalLoop_all _ ho]; simp
  · rw [sphere, evalLoop_all _ ho]
    exact Finset.sum_nonneg fun i _ => by positivity

/-- **C67** Rastrigin. -/
theorem C67_rastrigin {ord : Nat → Fin n} (ho : IsOrder ord) : MinAt (rastrigin ord 0 n) 0 0 := by
  refine ⟨?_, fun y => ?_⟩
  · rw [rastrigin, evalLoop_all _ ho]; simp; ring
  · rw [rastrigin, evalLoop_all _ ho]
    have : ∑ i : Fin n, (-10 : ℝ) ≤ ∑ i, (y i ^ 2 - 10 * cos (2 * π * y i)) :=
      Finset.sum_le_sum fun i _ => by nlinarith [Real.cos_le_one (2 * π * y i), sq_nonneg (y i)]
    rw [Finset.sum_const, Finset.card_univ, Fintype.card_fin, nsmul_eq_mul] at this
    linarith

/-- **C67** Generalized Rosenbrock. -/
theorem C67_genRosen : MinAt (genRosen (m := m)) (fun _ => 1) 0 := by
  refine ⟨?_, fun y => ?_⟩
  · rw [genRosen_sum]; simp [grTerm]
  · rw [genRosen_sum]
    exact Finset.sum_nonneg fun p _ => by unfold grTerm; positivity

/-- **C67** Rosenbrock-Wood. -/
theorem C67_rosenWood : MinAt rosenWood (fun _ => 1) 0 := by
  refine ⟨?_, fun y => ?_⟩
  · rw [rosenWood, C67_genRosen.1]; simp [wood]; norm_num
  · exact add_nonneg (C67_genRosen.2 _) (by unfold wood; positivity)

/-- **C67** `SGDTestFunction`. -/
theorem C67_sgdTest {ord : Nat → Fin 3} (ho : IsOrder ord) : MinAt (sgdTest ord 0 3) ![0, 0, 0] (-1) := by
  refine ⟨?_, fun y => ?_⟩
  · rw [sgdTest, evalLoop_all _ ho]; simp [Fin.sum_univ_three, sgdTerm]
  · rw [sgdTest, evalLoop_all _ ho]
    simp [Fin.sum_univ_three, sgdTerm]
    have h1 : exp (-|y 0|) ≤ 1 := Real.exp_le_one_iff.2 (by simp)
    nlinarith [sq_nonneg (y 1), sq_nonneg (y 2), sq_nonneg (y 2 ^ 2)]

/-- **C67** `SparseTestFunction`. -/
theorem C67_sparseTest : MinAt (sparseTest 0 4) ![2, 1, 1.5, 4] 123.75 := by
  refine ⟨?_, fun y => ?_⟩
  · simp [sparseTest, evalLoop, List.range', Fin.ofNat]; norm_num
  · simp [sparseTest, evalLoop, List.range', Fin.ofNat]
    nlinarith [sq_nonneg (y 0 - 2), sq_nonneg (y 1 - 1), sq_nonneg (y 2 - 1.5), sq_nonneg (y 3 - 4)]

/-- The one-dimensional Styblinski-Tang polynomial. -/
theorem styblinski_poly (t : ℝ) : -78.33234 ≤ t ^ 4 - 16 * t ^ 2 + 5 * t := by
  have e : t ^ 4 - 16 * t ^ 2 + 5 * t + 78.33234 = (t + 2.903534) ^ 2 * ((t - 2.903534) ^ 2 + 0.861019) +
      (t ^ 4 - 16 * t ^ 2 + 5 * t + 78.33234 - (t + 2.903534) ^ 2 * ((t - 2.903534) ^ 2 + 0.861019)) := by ring
  nlinarith [mul_nonneg (sq_nonneg (t + 2.903534)) (sq_nonneg (t - 2.903534)), sq_nonneg (t + 2.903534)]

/-- **C156** Styblinski-Tang: the minimum of `n` dimensions is between `-39.16617 n` and the value at the documented point, which
is below `-39.16616 n`. -/
theorem C156_styblinski_partial {ord : Nat → Fin n} (ho : IsOrder ord) :
    (∀ y, -39.16617 * n ≤ styblinski ord 0 n y) ∧ styblinski ord 0 n (fun _ => -2.903534) ≤ -39.16616 * n := by
  constructor
  · intro y
    rw [styblinski, evalLoop_all _ ho]
    have : ∑ i : Fin n, (-78.33234 : ℝ) ≤ ∑ i, (y i ^ 4 - 16 * y i ^ 2 + 5 * y i) :=
      Finset.sum_le_sum fun i _ => styblinski_poly (y i)
    simp at this
    linarith
  · rw [styblinski, evalLoop_all _ ho]
    simp
    have h : ((-2.903534 : ℝ) ^ 4 - 16 * (-2.903534) ^ 2 + 5 * (-2.903534)) ≤ 2 * -39.16616 := by norm_num
    have hn : (0 : ℝ) ≤ n := Nat.cast_nonneg n
    have := mul_le_mul_of_nonneg_left h hn
    norm_num at this ⊢
    linarith

/-- **C156 is false for Styblinski-Tang**: `GetFinalObjective()` is `-39.16599 n`, and the documented point has a smaller
objective. -/
theorem C156_styblinski_refuted {ord : Nat → Fin (n + 1)} (ho : IsOrder ord) (p : Fin (n + 1) → ℝ) :
    ¬ MinAt (styblinski ord 0 (n + 1)) p (-39.16599 * (n + 1)) := by
  intro h
  have h1 := h.2 fun _ => -2.903534
  have h2 := (C156_styblinski_partial ho).2
  push_cast at h2
  have hn : (0 : ℝ) ≤ n := Nat.cast_nonneg n
  linarith

/-- **C156 is false for Schwefel**: the objective of the origin is `-418.9829 n`, below the documented minimum 0. -/
theorem C156_schwefel_refuted (ord : Nat → Fin (n + 1)) (p : Fin (n + 1) → ℝ) :
    ¬ MinAt (schwefel ord 0 (n + 1)) p 0 := by
  intro h
  have h1 := h.2 0
  have e : ∀ k, evalLoop (fun (_ : Fin (n + 1)) t => t * sin √|t|) ord 0 k 0 = 0 := by
    intro k
    induction k with
    | zero => rfl
    | succ k ih => rw [evalLoop_succ, ih]; simp
  rw [schwefel, e] at h1
  have hn : (0 : ℝ) ≤ n := Nat.cast_nonneg n
  push_cast at h1
  linarith

/-- Non-vacuity: the identity and a shuffled order. -/
example : IsOrder (Fin.ofNat 3) ∧ IsOrder (n := 3) (fun j => Fin.ofNat 3 (2 * j)) := by
  constructor <;> exact ⟨by decide, by decide⟩

/-- Non-vacuity: five functions in batches of 2, 2 and 1. -/
example : splitSum (fun b k => sphere (Fin.ofNat 5) b k (fun _ => (1 : ℝ))) 0 [2, 2, 1] = 5 := by
  rw [(C66_sphere _ _ _ _).1]
  simp [sphere, evalLoop, List.range']
  norm_num

end Ens.Problems
