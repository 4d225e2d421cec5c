import Verif.Problems.AugLagFns
import Mathlib.Analysis.Calculus.Deriv.Mul
import Mathlib.Analysis.Calculus.Deriv.Add
import Mathlib.Tactic.NormNum
import Mathlib.Tactic.Positivity

/-
C222 (the problems of Snyman and of Gockenbach) and C223 (the Lovász theta problem).
-/

namespace Ens.Problems

open Function

local macro "gradient" f:ident g:ident : tactic => `(tactic| (
  refine GradAt.of_partials (by unfold $f; fun_prop) fun i => ?_
  refine HasDerivAt.congr_deriv (DifferentiableAt.hasDerivAt (by unfold $f; fin_cases i <;> simp <;> fun_prop)) ?_
  fin_cases i <;>
    simp (disch := fun_prop) [$f:ident, $g:ident, update_apply, deriv_fun_sub, deriv_fun_add, deriv_fun_mul,
      deriv_fun_pow] <;> ring))

/-- **C222** Snyman's function: `Gradient` is the gradient of `Evaluate`. -/
theorem C222_snyman_gradient (x : Fin 2 → ℝ) : GradAt snyman (snymanGrad x) x := by gradient snyman snymanGrad

/-- **C222** Snyman's function: `GradientConstraint(i)` is the gradient of `EvaluateConstraint(i)`, for every index. -/
theorem C222_snyman_constraint_gradient (i : Nat) (x : Fin 2 → ℝ) : GradAt (snymanCon i) (snymanConGrad i) x := by
  by_cases hi : i = 0
  · refine (GradAt.affine (-5) ![1, 1] x).congr (fun y => ?_) fun j => ?_
    · simp [snymanCon, hi]; ring
    · simp [snymanConGrad, hi]
  · refine (GradAt.affine 0 ![0, 0] x).congr (fun y => ?_) fun j => ?_
    · simp [snymanCon, hi]
    · simp [snymanConGrad, hi]

/-- **C222** Snyman's function: the points at which every constraint is zero have values of at least 70, and the value is 70 exactly at
(1, 4), which satisfies the constraint. -/
theorem C222_snyman_minimum :
    ((∀ i, snymanCon i ![1, 4] = 0) ∧ snyman ![1, 4] = 70) ∧
      ∀ x, (∀ i, snymanCon i x = 0) → 70 ≤ snyman x ∧ (snyman x = 70 → x = ![1, 4]) := by
  refine ⟨⟨fun i => ?_, ?_⟩, fun x hx => ?_⟩
  · by_cases hi : i = 0 <;> simp [snymanCon, hi]; norm_num
  · simp [snyman]; norm_num
  · have h := hx 0
    simp only [snymanCon, ne_eq, not_true, if_false] at h
    have h1 : x 1 = 5 - x 0 := by linarith
    have h2 : snyman x = 5 * (x 0 - 1) ^ 2 + 70 := by unfold snyman; rw [h1]; ring
    refine ⟨by rw [h2]; linarith [sq_nonneg (x 0 - 1)], fun h3 => ?_⟩
    have h4 : (x 0 - 1) ^ 2 = 0 := by linarith
    have h5 : x 0 = 1 := by have := pow_eq_zero_iff (two_ne_zero) |>.1 h4; linarith
    funext j
    fin_cases j
    · simpa using h5
    · simp [h1, h5]; norm_num

/-- **C222** Gockenbach's function: `Gradient` is the gradient of `Evaluate`. -/
theorem C222_gockenbach_gradient (x : Fin 3 → ℝ) : GradAt gockenbach (gockenbachGrad x) x := by
  gradient gockenbach gockenbachGrad

/-- The inequality of the problem, x_3 - x_1² ≥ 0. -/
private def ineq (x : Fin 3 → ℝ) : ℝ := x 2 - x 0 ^ 2

private def ineqGrad (x : Fin 3 → ℝ) : Fin 3 → ℝ := ![-2 * x 0, 0, 1]

private theorem ineq_gradient (x : Fin 3 → ℝ) : GradAt ineq (ineqGrad x) x := by gradient ineq ineqGrad

/-- **C222** Gockenbach's function: every constraint is zero exactly at the points with x_3 - x_2 - x_1 - 1 = 0 and x_3 ≥ x_1². -/
theorem C222_gockenbach_feasible (x : Fin 3 → ℝ) :
    (∀ i, gockenbachCon i x = 0) ↔ x 2 - x 1 - x 0 - 1 = 0 ∧ x 0 ^ 2 ≤ x 2 := by
  constructor
  · intro h
    refine ⟨h 0, ?_⟩
    have := h 1
    simp only [gockenbachCon] at this
    have := min_eq_left_iff.1 this
    linarith
  · rintro ⟨h0, h1⟩ i
    match i with
    | 0 => exact h0
    | 1 => exact min_eq_left (by linarith)
    | _ + 2 => rfl

/-- **C222** (part) Gockenbach's function: `GradientConstraint(i)` is the gradient of `EvaluateConstraint(i)` where the inequality is
violated, and for every other index everywhere. -/
theorem C222_gockenbach_constraint_gradient_partial (i : Nat) (x : Fin 3 → ℝ) (h : i = 1 → x 2 < x 0 ^ 2) :
    GradAt (gockenbachCon i) (gockenbachConGrad i x) x := by
  match i with
  | 0 =>
    refine (GradAt.affine (-1) ![-1, -1, 1] x).congr (fun y => ?_) fun j => rfl
    simp [gockenbachCon, Fin.sum_univ_three]; ring
  | 1 =>
    have hc : ContinuousAt ineq x := by unfold ineq; fun_prop
    have hn : ineq x < 0 := by have := h rfl; simp only [ineq]; linarith
    have he : ∀ᶠ y in nhds x, gockenbachCon 1 y = ineq y := by
      filter_upwards [hc.eventually (gt_mem_nhds hn)] with y hy
      exact min_eq_right (le_of_lt hy)
    exact (show HasFDerivAt _ _ _ from ineq_gradient x).congr_of_eventuallyEq he
  | k + 2 =>
    refine (GradAt.affine 0 ![0, 0, 0] x).congr (fun y => ?_) fun j => rfl
    simp [gockenbachCon, Fin.sum_univ_three]

/-- **C222** (refuted) Where the inequality holds strictly the constraint is constant 0, and `GradientConstraint(1)` is never its
gradient. -/
theorem C222_gockenbach_constraint_gradient_wrong (x : Fin 3 → ℝ) (h : x 0 ^ 2 < x 2) :
    GradAt (gockenbachCon 1) ![0, 0, 0] x ∧ ¬ GradAt (gockenbachCon 1) (gockenbachConGrad 1 x) x := by
  have h0 : GradAt (gockenbachCon 1) ![0, 0, 0] x := by
    have hc : ContinuousAt ineq x := by unfold ineq; fun_prop
    have hp : 0 < ineq x := by simp only [ineq]; linarith
    have he : ∀ᶠ y in nhds x, gockenbachCon 1 y = 0 + ∑ i, (![0, 0, 0] : Fin 3 → ℝ) i * y i := by
      filter_upwards [hc.eventually (lt_mem_nhds hp)] with y hy
      have : gockenbachCon 1 y = 0 := min_eq_left (le_of_lt hy)
      rw [this]
      simp [Fin.sum_univ_three]
    exact (show HasFDerivAt _ _ _ from GradAt.affine 0 ![0, 0, 0] x).congr_of_eventuallyEq he
  refine ⟨h0, fun h1 => ?_⟩
  have := congrFun (h0.unique h1) 2
  simp [gockenbachConGrad] at this

/-- **C222** (refuted) `GradientConstraint(i)` is not the gradient of `EvaluateConstraint(i)` at every point: at the initial point, where
the inequality holds strictly, it is not. -/
theorem C222_gockenbach_constraint_gradient_refuted :
    ¬ ∀ i x, GradAt (gockenbachCon i) (gockenbachConGrad i x) x := fun h =>
  (C222_gockenbach_constraint_gradient_wrong gockenbachInit (by simp [gockenbachInit])).2 (h 1 _)

/-- **C222** Gockenbach's function: the initial point satisfies the constraints; every point that does has a value above 29.6339, and a
point within 0.0001 of the documented one satisfies the constraints with a value below 29.634. -/
theorem C222_gockenbach_minimum :
    (∀ i, gockenbachCon i gockenbachInit = 0) ∧
    (∀ x, (∀ i, gockenbachCon i x = 0) → 29.6339 < gockenbach x) ∧
    ∃ x, (∀ i, gockenbachCon i x = 0) ∧ gockenbach x < 29.634 ∧
      |x 0 - 0.12288| < 0.0001 ∧ |x 1 - -1.1078| < 0.0001 ∧ |x 2 - 0.0151| < 0.0001 := by
  refine ⟨(C222_gockenbach_feasible _).2 (by simp [gockenbachInit]), fun x hx => ?_,
    ![0.12288, -1.10778, 0.0151], (C222_gockenbach_feasible _).2 ?_, ?_, ?_, ?_, ?_⟩
  · obtain ⟨h0, h1⟩ := (C222_gockenbach_feasible x).1 hx
    have h2 : x 1 = x 2 - x 0 - 1 := by linarith
    unfold gockenbach
    rw [h2]
    generalize x 0 = t at *
    generalize x 2 = s at *
    have hd : 0 ≤ s - t ^ 2 := by linarith
    have key : (t - 1) ^ 2 + 2 * (s - t - 1 + 2) ^ 2 + 3 * (s + 3) ^ 2 =
        (5 * t ^ 4 - 4 * t ^ 3 + 25 * t ^ 2 - 6 * t + 30) +
          (s - t ^ 2) * (5 * (s - t ^ 2) + (10 * t ^ 2 - 4 * t + 22)) := by ring
    rw [key]
    have hq : 0 ≤ 10 * t ^ 2 - 4 * t + 22 := by nlinarith [sq_nonneg (t - 1)]
    have hm : 0 ≤ (s - t ^ 2) * (5 * (s - t ^ 2) + (10 * t ^ 2 - 4 * t + 22)) := by positivity
    nlinarith [sq_nonneg (t - 0.12288), sq_nonneg (t * (t - 0.12288)), sq_nonneg (t * (t - 0.4)),
      mul_nonneg (sq_nonneg (t - 0.12288)) (sq_nonneg (t - 0.2))]
  all_goals simp [gockenbach, abs_lt]
  all_goals norm_num

section Lovasz

variable {r n : Nat}

/-- The gradient of the scalar product of columns `i` and `j`. -/
private theorem gram_gradient (i j : Fin n) (R : Coord r n) :
    GradAt (fun R => gram R i j)
      (fun p => (if p.2 = i then R (p.1, j) else 0) + if p.2 = j then R (p.1, i) else 0) R := by
  refine (GradAt.total (s := Finset.univ) (f := fun a (y : Coord r n) => y (a, i) * y (a, j))
    (fun a _ => (GradAt.proj (a, i) R).times (GradAt.proj (a, j) R))).congr (fun y => rfl) fun p => ?_
  obtain ⟨a, k⟩ := p
  simp only [Prod.mk.injEq, Finset.sum_add_distrib, mul_ite, mul_one, mul_zero, ite_and]
  simp [add_comm]

/-- **C223** Constraint 0 (trace of RᵀR minus one): `GradientConstraint` is the gradient of `EvaluateConstraint`, everywhere. -/
theorem C223_trace_gradient (es : List (Fin n × Fin n)) (R : Coord r n) :
    ∃ c g, lovaszCon (r := r) es 0 = some c ∧ lovaszConGrad es R 0 = some g ∧ GradAt c g R := by
  refine ⟨_, _, rfl, rfl, ?_⟩
  refine ((GradAt.affine (-1) (fun _ => 0) R).plus (GradAt.total (s := Finset.univ)
    (f := fun i (y : Coord r n) => gram y i i) fun i _ => gram_gradient i i R)).congr (fun y => ?_) fun p => ?_
  · simp only [zero_mul, Finset.sum_const_zero, add_zero]
    congr 1
    refine Finset.sum_congr rfl fun i _ => abs_of_nonneg (Finset.sum_nonneg fun a _ => mul_self_nonneg _)
  · simp only [zero_add, Finset.sum_add_distrib, Finset.sum_ite_eq, Finset.mem_univ, if_true]
    ring

/-- **C223** (part) An edge constraint: `GradientConstraint` is the gradient of `EvaluateConstraint` where the scalar product of the two
columns is positive; where it is negative it is the gradient with the sign reversed. -/
theorem C223_edge_gradient_partial (es : List (Fin n × Fin n)) (R : Coord r n) (k : Nat) (e : Fin n × Fin n) (hk : es[k]? = some e) :
    ∃ c g, lovaszCon (r := r) es (k + 1) = some c ∧ lovaszConGrad es R (k + 1) = some g ∧
      (0 < ∑ a, R (a, e.1) * R (a, e.2) → GradAt c g R) ∧
      (∑ a, R (a, e.1) * R (a, e.2) < 0 → GradAt c (fun p => -g p) R) := by
  refine ⟨fun R => |gram R e.1 e.2|,
    fun p => (if p.2 = e.1 then R (p.1, e.2) else 0) + if p.2 = e.2 then R (p.1, e.1) else 0,
    by simp only [lovaszCon, hk, Option.map_some], by simp only [lovaszConGrad, hk, Option.map_some], ?_, ?_⟩
  · intro h
    refine (GradAt.comp (h := fun t => |t|) (f := fun R : Coord r n => gram R e.1 e.2) (hasDerivAt_abs_pos h) (gram_gradient e.1 e.2 R)).congr
      (fun y => rfl) fun p => ?_
    rw [one_mul]
  · intro h
    refine (GradAt.comp (h := fun t => |t|) (f := fun R : Coord r n => gram R e.1 e.2) (hasDerivAt_abs_neg h) (gram_gradient e.1 e.2 R)).congr
      (fun y => rfl) fun p => ?_
    ring

/-- **C223** (refuted) `GradientConstraint` of an edge is not the gradient of `EvaluateConstraint` at every point. -/
theorem C223_edge_gradient_refuted :
    ¬ ∀ (r n : Nat) (es : List (Fin n × Fin n)) (R : Coord r n) (i : Nat) (c : Coord r n → ℝ) (g : Coord r n),
      lovaszCon es i = some c → lovaszConGrad es R i = some g → GradAt c g R := by
  intro h
  let R : Coord 1 2 := fun p => if p.2 = 0 then 1 else -1
  obtain ⟨c, g, hc, hg, -, hneg⟩ := C223_edge_gradient_partial [(0, 1)] R 0 (0, 1) rfl
  have h1 := h 1 2 [(0, 1)] R 1 c g hc hg
  have h2 := hneg (by simp [R])
  have h3 := congrFun (h1.unique h2) (0, 0)
  obtain rfl := Option.some.inj (hg.symm.trans (by simp only [lovaszConGrad, List.getElem?_cons_zero, Option.map_some]; rfl))
  simp [R] at h3
  norm_num at h3

/-- **C223** The derivative of `Evaluate`: entry (a, i) of the gradient is -2 times the sum of row `a`. -/
theorem C223_objective_derivative (R : Coord r n) : GradAt lovasz (fun p => -2 * ∑ j, R (p.1, j)) R := by
  have h := (GradAt.total (s := Finset.univ) (f := fun i (y : Coord r n) => ∑ j, gram y i j) fun i _ =>
    GradAt.total (s := Finset.univ) (f := fun j (y : Coord r n) => gram y i j) fun j _ => gram_gradient i j R).smul (-1)
  refine h.congr (fun y => by simp only [lovasz, neg_one_mul]) fun p => ?_
  simp only [Finset.sum_add_distrib, Finset.sum_ite_eq, Finset.mem_univ, if_true]
  have : ∑ x : Fin n, ∑ x_1 : Fin n, (if p.2 = x then R (p.1, x_1) else 0) = ∑ j, R (p.1, j) := by
    rw [Finset.sum_comm]
    simp
  rw [this]
  ring

/-- **C223** `Gradient` throws unless the coordinates are square. -/
theorem C223_gradient_square (es : List (Fin n × Fin n)) (R : Coord r n) : (lovaszGrad es R).isSome ↔ r = n := by
  unfold lovaszGrad
  split <;> simp_all

/-- **C223** (refuted) `Gradient` is not the gradient of `Evaluate`: with one vertex and no edge, at 1, it is 0 where the derivative is
-2. -/
theorem C223_gradient_refuted :
    ¬ ∀ (r n : Nat) (es : List (Fin n × Fin n)) (R g : Coord r n), lovaszGrad es R = some g → GradAt lovasz g R := by
  intro h
  have h1 := h 1 1 [] (fun _ => 1) (fun p => 0) (by
    simp only [lovaszGrad, dif_pos, lovaszS, List.foldl_nil, Option.some.injEq]
    funext p
    have : p.2 = 0 := Subsingleton.elim _ _
    simp [this])
  have h2 := congrFun (h1.unique (C223_objective_derivative _)) (0, 0)
  norm_num at h2

/-- Trace of `A X` for the matrix of the edge `e` and X = RᵀR. -/
private def edgeTr (e : Fin n × Fin n) (R : Coord n n) : ℝ := ∑ k, ∑ l, edgeMat e k l * gram R k l

private theorem edgeMat_symm (e : Fin n × Fin n) (i j : Fin n) : edgeMat e i j = edgeMat e j i := by
  unfold edgeMat
  simp only [Prod.mk.injEq]
  split_ifs <;> first | rfl | (exfalso; tauto)

private theorem edgeTr_gradient (e : Fin n × Fin n) (R : Coord n n) :
    GradAt (edgeTr e) (fun p => 2 * ∑ k, edgeMat e p.2 k * R (p.1, k)) R := by
  refine (GradAt.total (s := Finset.univ) (f := fun i (y : Coord n n) => ∑ j, edgeMat e i j * gram y i j) fun i _ =>
    GradAt.total (s := Finset.univ) (f := fun j (y : Coord n n) => edgeMat e i j * gram y i j) fun j _ =>
      (gram_gradient i j R).smul (edgeMat e i j)).congr (fun y => rfl) fun p => ?_
  simp only [mul_add, Finset.sum_add_distrib, mul_ite, mul_zero, Finset.sum_ite_eq, Finset.mem_univ, if_true]
  have : ∑ x : Fin n, ∑ x_1 : Fin n, (if p.2 = x then edgeMat e x x_1 * R (p.1, x_1) else 0)
      = ∑ k, edgeMat e p.2 k * R (p.1, k) := by
    rw [Finset.sum_comm]
    simp
  rw [this, two_mul]
  congr 1
  exact Finset.sum_congr rfl fun i _ => by rw [edgeMat_symm]

/-- The augmented Lagrangian of the problem with the multipliers -n (trace) and -1 (edges) and the penalty 1/2:
-accu(RᵀR) - ∑ᵢ yᵢ (Tr(Aᵢ RᵀR) - bᵢ) + σ/2 ∑ᵢ (Tr(Aᵢ RᵀR) - bᵢ)², where the trace for an edge (i, j) is `(RᵀR)(i, j) + (RᵀR)(j, i)`. -/
noncomputable def lovaszLagrangian (es : List (Fin n × Fin n)) (R : Coord n n) : ℝ :=
  -(∑ i, ∑ j, ∑ a, R (a, i) * R (a, j)) - -(n : ℝ) * ((∑ i, ∑ a, R (a, i) ^ 2) - 1)
    + 1 / 4 * ((∑ i, ∑ a, R (a, i) ^ 2) - 1) ^ 2
    + (es.map fun e => - -1 * (2 * ∑ a, R (a, e.1) * R (a, e.2)) + 1 / 4 * (2 * ∑ a, R (a, e.1) * R (a, e.2)) ^ 2).sum

private theorem edgeTr_eq (e : Fin n × Fin n) (he : e.1 ≠ e.2) (R : Coord n n) :
    edgeTr e R = 2 * ∑ a, R (a, e.1) * R (a, e.2) := by
  have h : ∀ k l, edgeMat e k l = (if k = e.1 then if l = e.2 then (1 : ℝ) else 0 else 0)
      + if k = e.2 then if l = e.1 then (1 : ℝ) else 0 else 0 := by
    intro k l
    unfold edgeMat
    simp only [Prod.mk.injEq]
    split_ifs <;> simp_all
  unfold edgeTr
  simp only [h, add_mul, Finset.sum_add_distrib, ite_mul, one_mul, zero_mul]
  have h1 : ∀ i j : Fin n, ∑ x : Fin n, ∑ x_1 : Fin n, (if x = i then if x_1 = j then gram R x x_1 else 0 else 0) = gram R i j := by
    intro i j
    rw [Finset.sum_eq_single i]
    · simp
    · intro b _ hb; simp [hb]
    · simp
  rw [h1, h1, two_mul]
  congr 1
  unfold gram
  exact Finset.sum_congr rfl fun a _ => mul_comm _ _

private theorem foldl_sub_eq {κ : Type} (f : κ → ℝ) (l : List κ) (s : ℝ) : l.foldl (fun s e => s - f e) s = s - (l.map f).sum := by
  induction l generalizing s with
  | nil => simp
  | cons a l ih => simp [ih]; ring

private theorem map_sum_gradient {κ : Type} (l : List κ) {ι : Type} [Fintype ι] (f : κ → (ι → ℝ) → ℝ) (g : κ → ι → ℝ) (x : ι → ℝ)
    (h : ∀ e ∈ l, GradAt (f e) (g e) x) : GradAt (fun y => (l.map fun e => f e y).sum) (fun i => (l.map fun e => g e i).sum) x := by
  induction l with
  | nil => exact (GradAt.affine 0 (fun _ => 0) x).congr (fun y => by simp) fun i => by simp
  | cons a l ih =>
    refine ((h a (by simp)).plus (ih fun e he => h e (by simp [he]))).congr (fun y => by simp) fun i => by simp

/-- **C223** (part) What `Gradient` computes, for a graph without loops: at a symmetric `R` it is the gradient of the augmented Lagrangian
with these multipliers and penalty. -/
theorem C223_gradient_partial (es : List (Fin n × Fin n)) (hes : ∀ e ∈ es, e.1 ≠ e.2) (R : Coord n n)
    (hR : ∀ i j, R (i, j) = R (j, i)) : ∃ g, lovaszGrad es R = some g ∧ GradAt (lovaszLagrangian es) g R := by
  refine ⟨fun p => 2 * ∑ k, lovaszS es R p.2 k * R (p.1, k), by simp only [lovaszGrad, dif_pos]; rfl, ?_⟩
  have hT : GradAt (fun R : Coord n n => (∑ i, ∑ a, R (a, i) ^ 2) - 1) (fun p => 2 * R p) R := by
    refine ((GradAt.affine (-1) (fun _ => 0) R).plus (GradAt.total (s := Finset.univ)
      (f := fun i (y : Coord n n) => gram y i i) fun i _ => gram_gradient i i R)).congr (fun y => ?_) fun p => ?_
    · simp only [zero_mul, Finset.sum_const_zero, gram, pow_two]; ring
    · simp only [zero_add, Finset.sum_add_distrib, Finset.sum_ite_eq, Finset.mem_univ, if_true]; ring
  have hq : ∀ t : ℝ, HasDerivAt (fun t : ℝ => 1 / 4 * t ^ 2) (t / 2) t := fun t => by
    refine ((hasDerivAt_pow 2 t).const_mul (1 / 4 : ℝ)).congr_deriv ?_
    norm_num; ring
  have hE := map_sum_gradient es (fun e R => edgeTr e R + 1 / 4 * edgeTr e R ^ 2) _ R fun e _ =>
    (edgeTr_gradient e R).plus (GradAt.comp (h := fun t => 1 / 4 * t ^ 2) (hq _) (edgeTr_gradient e R))
  have hL := (((C223_objective_derivative R).plus (hT.smul n)).plus
    (GradAt.comp (h := fun t => 1 / 4 * t ^ 2) (hq _) hT)).plus hE
  refine hL.congr (fun y => ?_) fun p => ?_
  · simp only [lovaszLagrangian, lovasz, gram, neg_mul, sub_neg_eq_add, neg_neg, one_mul]
    congr 2
    refine List.map_congr_left fun e he => ?_
    rw [edgeTr_eq e (hes e he)]
  · have htr : (∑ k, ∑ l, R (l, k) * R (k, l)) = ∑ i, ∑ a, R (a, i) ^ 2 :=
      Finset.sum_congr rfl fun k _ => Finset.sum_congr rfl fun l _ => by rw [hR k l, pow_two]
    have hS : ∀ k, lovaszS es R p.2 k = (-1 - (-(n : ℝ) - 0.5 * ((∑ i, ∑ a, R (a, i) ^ 2) - 1)) * if p.2 = k then 1 else 0)
        - (es.map fun e => (-1 - 0.5 * edgeTr e R) * edgeMat e p.2 k).sum := by
      intro k
      unfold lovaszS
      rw [htr]
      exact foldl_sub_eq (fun e => (-1 - 0.5 * edgeTr e R) * edgeMat e p.2 k) es _
    have hsum : ∑ k, (es.map fun e => (-1 - 0.5 * edgeTr e R) * edgeMat e p.2 k).sum * R (p.1, k)
        = (es.map fun e => (-1 - 0.5 * edgeTr e R) * ∑ k, edgeMat e p.2 k * R (p.1, k)).sum := by
      clear hS hL hE hes
      induction es with
      | nil => simp
      | cons a l ih =>
        simp only [List.map_cons, List.sum_cons, add_mul, Finset.sum_add_distrib, ih, Finset.mul_sum, mul_assoc]
    have hlist : (es.map fun e => 2 * ∑ k, edgeMat e p.2 k * R (p.1, k)
          + edgeTr e R / 2 * (2 * ∑ k, edgeMat e p.2 k * R (p.1, k))).sum
        = -2 * (es.map fun e => (-1 - 0.5 * edgeTr e R) * ∑ k, edgeMat e p.2 k * R (p.1, k)).sum := by
      rw [← List.sum_map_mul_left]
      congr 1
      refine List.map_congr_left fun e _ => ?_
      ring
    have hsplit : ∑ k, lovaszS es R p.2 k * R (p.1, k)
        = ∑ k, ((-1 - (-(n : ℝ) - 0.5 * ((∑ i, ∑ a, R (a, i) ^ 2) - 1)) * if p.2 = k then 1 else 0) * R (p.1, k))
          - (es.map fun e => (-1 - 0.5 * edgeTr e R) * ∑ k, edgeMat e p.2 k * R (p.1, k)).sum := by
      rw [← hsum, ← Finset.sum_sub_distrib]
      exact Finset.sum_congr rfl fun k _ => by rw [hS, sub_mul]
    rw [hsplit, hlist]
    simp only [sub_mul, Finset.sum_sub_distrib, mul_ite, ite_mul, mul_one, mul_zero, zero_mul, one_mul,
      neg_mul, Finset.sum_neg_distrib, Finset.sum_ite_eq, Finset.mem_univ, if_true]
    ring

example : ∃ (R : Coord 2 2), (∀ i j, R (i, j) = R (j, i)) ∧ R (0, 1) ≠ 0 := ⟨fun _ => 1, fun _ _ => rfl, one_ne_zero⟩

end Lovasz

end Ens.Problems
