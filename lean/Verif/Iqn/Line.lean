import Verif.Iqn.Textbook
import Mathlib.Algebra.Order.BigOperators.Ring.Finset
import Mathlib.Algebra.Order.Field.Basic
import Mathlib.Tactic.FieldSimp
import Mathlib.Tactic.LinearCombination
import Mathlib.Tactic.Positivity
import Mathlib.Tactic.Linarith
import Mathlib.Tactic.NormNum

/-
C300: IQN on sums of quadratics of one variable (`iqn/iqn_impl.hpp`, lines 116-203, with step size 1).
-/

namespace Ens.Iqn

open Ens.Vr

variable {W E K : Type} [Field K] [LinearOrder K] [IsStrictOrderedRing K]

/-- Matrices of one element. -/
def line (K : Type) [Field K] : Hess K K K where
  app := LinearMap.mk₂ K (fun a b => a * b) (fun _ _ _ => add_mul _ _ _) (fun _ _ _ => mul_assoc _ _ _)
    (fun _ _ _ => mul_add _ _ _) (fun c m n => by simp only [smul_eq_mul]; ring)
  dot := fun a b => a * b
  eye := 1
  outer := fun a => a * a
  sand := fun Q s => Q * s * s * Q
  app_eye := fun v => by simp
  app_outer := fun a v => by simp; ring
  app_sand := fun Q s v => by simp; ring

/-- The batches are quadratics of one variable: the mean gradient of batch `it` is `a it * (x - c it)` with positive curvature; callbacks
change nothing. -/
structure Quadratics (u : User W K K E) (b : Nat) (a c : Nat → K) : Prop where
  pos : ∀ it < numBatches u.n b, 0 < a it
  grad : ∀ it < numBatches u.n b, ∀ w x, (1 / ((batch u.n b it).2 : K)) * (u.gradient w x (batch u.n b it).1 (batch u.n b it).2).2 =
    a it * (x - c it)
  cbGrad : ∀ w x g, (u.cbGrad w x g).2.1 = g
  cbStep : ∀ w x, (u.cbStep w x).2.1 = x
  cbBegin : ∀ w x, (u.cbBegin w x).2 = x
  cbEnd : ∀ w x, (u.cbEnd w x).2 = x

/-- Step size 1, exact comparison and division. -/
structure Plain (p : Params K K K E) : Prop where
  step : p.stepSize = 1
  differs : ∀ x y, p.differs x y = true ↔ x ≠ y
  solve : ∀ B v, p.solve B v = v / B

/-- The tables: gradients belong to the points, and a Hessian is exact or still the initial one. -/
structure Tables (N : Nat) (a c : Nat → K) (r : K) (T : Tab W K K) : Prop where
  y : ∀ it < N, T.y it = a it * (T.t it - c it)
  Q : ∀ it < N, T.Q it = a it ∨ (T.Q it = 1 ∧ T.t it = r)

theorem update_line {Q s yy : K} (hQ : Q ≠ 0) (hs : s ≠ 0) (hy : yy ≠ 0) : update (line K) Q s yy = yy / s := by
  simp only [update, line, LinearMap.mk₂_apply, smul_eq_mul]
  field_simp
  ring

section
variable {u : User W K K E} {p : Params K K K E} {a c : Nat → K} {r d : K}

/-- The residual of the aggregated model. -/
theorem residual {T : Tab W K K} (hC : Consistent (line K) (numBatches u.n p.batchSize) d T) (z : K) :
    T.u - T.g - z * T.B = 1 / (numBatches u.n p.batchSize : K) * ∑ i ∈ Finset.range (numBatches u.n p.batchSize),
      (T.Q i * T.t i - T.y i - z * T.Q i) - d := by
  obtain ⟨h1, h2, h3⟩ := hC
  rw [h1, h2, h3]
  simp only [avg, smul_eq_mul, line, LinearMap.mk₂_apply, Finset.sum_sub_distrib, ← Finset.mul_sum]
  ring

/-- The point the run ends at: zero of the mean of the batch gradients plus the constant `d`. -/
def Target (N : Nat) (a c : Nat → K) (d z : K) : Prop :=
  1 / (N : K) * ∑ i ∈ Finset.range N, a i * (c i - z) = d

theorem residual_r {T : Tab W K K} (hC : Consistent (line K) (numBatches u.n p.batchSize) d T)
    (hT : Tables (numBatches u.n p.batchSize) a c r T) :
    T.u - T.g - r * T.B = 1 / (numBatches u.n p.batchSize : K) * ∑ i ∈ Finset.range (numBatches u.n p.batchSize), a i * (c i - r) - d := by
  rw [residual hC]
  congr 2
  refine Finset.sum_congr rfl fun i hi => ?_
  have hi := Finset.mem_range.1 hi
  rw [hT.y i hi]
  rcases hT.Q i hi with h | ⟨h, h'⟩
  · rw [h]; ring
  · rw [h, h']; ring

theorem residual_exact {T : Tab W K K} (hC : Consistent (line K) (numBatches u.n p.batchSize) d T)
    (hT : Tables (numBatches u.n p.batchSize) a c r T) (hQ : ∀ it < numBatches u.n p.batchSize, T.Q it = a it) (z : K) :
    T.u - T.g - z * T.B = 1 / (numBatches u.n p.batchSize : K) * ∑ i ∈ Finset.range (numBatches u.n p.batchSize), a i * (c i - z) - d := by
  rw [residual hC]
  congr 2
  refine Finset.sum_congr rfl fun i hi => ?_
  have hi := Finset.mem_range.1 hi
  rw [hT.y i hi, hQ i hi]
  ring

theorem B_pos (hN : 0 < numBatches u.n p.batchSize) (hu : Quadratics u p.batchSize a c) {T : Tab W K K}
    (hC : Consistent (line K) (numBatches u.n p.batchSize) d T) (hT : Tables (numBatches u.n p.batchSize) a c r T) : 0 < T.B := by
  rw [hC.1, avg, smul_eq_mul]
  have hN' : (0 : K) < numBatches u.n p.batchSize := by exact_mod_cast hN
  refine mul_pos (one_div_pos.2 hN') (Finset.sum_pos (fun i hi => ?_) ⟨0, Finset.mem_range.2 hN⟩)
  have hi := Finset.mem_range.1 hi
  rcases hT.Q i hi with h | ⟨h, _⟩
  · rw [h]; exact hu.pos i hi
  · rw [h]; exact one_pos

/-- A visit of a batch whose point differs from the iterate. -/
theorem visit_moves (hp : Plain p) (hu : Quadratics u p.batchSize a c) {T : Tab W K K} {it : Nat} (hit : it < numBatches u.n p.batchSize)
    (hT : Tables (numBatches u.n p.batchSize) a c r T) (hne : T.x ≠ T.t it) :
    Tables (numBatches u.n p.batchSize) a c r (visit u (line K) p T it) ∧ (visit u (line K) p T it).Q it = a it ∧
    (∀ j, T.Q j = a j → (visit u (line K) p T it).Q j = a j) ∧
    (visit u (line K) p T it).x = ((visit u (line K) p T it).u - (visit u (line K) p T it).g) / (visit u (line K) p T it).B := by
  have ha := hu.pos it hit
  have hs : T.x - T.t it ≠ 0 := sub_ne_zero.2 hne
  have hQ0 : T.Q it ≠ 0 := by
    rcases hT.Q it hit with h | ⟨h, _⟩
    · rw [h]; exact ha.ne'
    · rw [h]; exact one_ne_zero
  have hyy : a it * (T.x - c it) - T.y it = a it * (T.x - T.t it) := by rw [hT.y it hit]; ring
  have hupd : update (line K) (T.Q it) (T.x - T.t it) (a it * (T.x - c it) - T.y it) = a it := by
    rw [hyy, update_line hQ0 hs (mul_ne_zero ha.ne' hs)]
    field_simp
  unfold visit
  rw [if_pos ((hp.differs _ _).2 hne)]
  simp only [stepAt, hu.cbGrad, hu.cbStep, smul_eq_mul, hu.grad it hit, hupd, hp.step, hp.solve, sub_self, zero_mul, add_zero, one_mul]
  refine ⟨⟨fun j hj => ?_, fun j hj => ?_⟩, by simp, fun j hj => ?_, trivial⟩
  · by_cases h : j = it
    · subst h; simp
    · simp [h, hT.y j hj]
  · by_cases h : j = it
    · subst h; simp
    · simpa [h] using hT.Q j hj
  · by_cases h : j = it
    · subst h; simp
    · simpa [h] using hj

/-- What holds once a step has been made: `l` are the batches visited so far. -/
structure Good (u : User W K K E) (p : Params K K K E) (a c : Nat → K) (r d : K) (l : List Nat) (T : Tab W K K) : Prop where
  cons : Consistent (line K) (numBatches u.n p.batchSize) d T
  tab : Tables (numBatches u.n p.batchSize) a c r T
  x : T.x = (T.u - T.g) / T.B
  done : Target (numBatches u.n p.batchSize) a c d r ∨ ∀ it ∈ l, T.Q it = a it

theorem good_visit (hp : Plain p) (hN : 0 < numBatches u.n p.batchSize) (hu : Quadratics u p.batchSize a c) {l : List Nat}
    {T : Tab W K K} (h : Good u p a c r d l T) {it : Nat} (hit : it < numBatches u.n p.batchSize) :
    Good u p a c r d (l ++ [it]) (visit u (line K) p T it) := by
  have hC := visit_consistent hit h.cons
  by_cases hne : T.x = T.t it
  · have hv : visit u (line K) p T it = T := by
      unfold visit
      rw [if_neg]
      rw [hp.differs]
      exact fun h => h hne
    rw [hv]
    refine ⟨h.cons, h.tab, h.x, ?_⟩
    rcases h.tab.Q it hit with hQ | ⟨_, ht⟩
    · rcases h.done with hd | hd
      · exact Or.inl hd
      · refine Or.inr fun j hj => ?_
        rcases List.mem_append.1 hj with hj | hj
        · exact hd j hj
        · rw [List.mem_singleton.1 hj]; exact hQ
    · left
      have hB := B_pos hN hu h.cons h.tab
      have hres := residual_r h.cons h.tab
      have hx := h.x
      rw [hne, ht, eq_div_iff hB.ne'] at hx
      rw [← hx, sub_self] at hres
      exact (sub_eq_zero.1 hres.symm)
  · obtain ⟨h1, h2, h3, h4⟩ := visit_moves hp hu hit h.tab hne
    refine ⟨hC, h1, h4, ?_⟩
    rcases h.done with hd | hd
    · exact Or.inl hd
    · refine Or.inr fun j hj => ?_
      rcases List.mem_append.1 hj with hj | hj
      · exact h3 j (hd j hj)
      · rw [List.mem_singleton.1 hj]; exact h2

theorem good_visits (hp : Plain p) (hN : 0 < numBatches u.n p.batchSize) (hu : Quadratics u p.batchSize a c) :
    ∀ (m l : List Nat) (T : Tab W K K), (∀ i ∈ m, i < numBatches u.n p.batchSize) → Good u p a c r d l T →
      Good u p a c r d (l ++ m) (m.foldl (visit u (line K) p) T) := by
  intro m
  induction m with
  | nil => intro l T _ h; simpa using h
  | cons i m ih =>
    intro l T hm h
    have := ih (l ++ [i]) _ (fun j hj => hm j (List.mem_cons_of_mem _ hj)) (good_visit hp hN hu h (hm i List.mem_cons_self))
    simpa using this

theorem order_perm {N : Nat} (hN : 0 < N) : (∀ i ∈ order N, i < N) ∧ ∀ i < N, i ∈ order N := by
  constructor
  · intro i hi
    simp only [order, List.mem_map] at hi
    obtain ⟨j, -, rfl⟩ := hi
    exact Nat.mod_lt _ hN
  · intro i hi
    simp only [order, List.mem_map, List.mem_range]
    rcases Nat.eq_zero_or_pos i with rfl | h0
    · exact ⟨N - 1, by omega, by rw [Nat.sub_add_cancel hN, Nat.mod_self]⟩
    · exact ⟨i - 1, by omega, by rw [Nat.sub_add_cancel h0, Nat.mod_eq_of_lt hi]⟩

/-- Once all batches have been visited the iterate is the target. -/
theorem good_target (hN : 0 < numBatches u.n p.batchSize) (hu : Quadratics u p.batchSize a c) {l : List Nat} {T : Tab W K K}
    (h : Good u p a c r d l T) (hl : ∀ i < numBatches u.n p.batchSize, i ∈ l) : Target (numBatches u.n p.batchSize) a c d T.x := by
  have hB := B_pos hN hu h.cons h.tab
  have hx : T.u - T.g - T.x * T.B = 0 := by rw [h.x, div_mul_cancel₀ _ hB.ne', sub_self]
  rcases h.done with hd | hd
  · have hres := residual_r h.cons h.tab
    rw [Target] at hd
    rw [hd, sub_self, ← hx] at hres
    have : T.x = r := by
      have : (T.x - r) * T.B = 0 := by linear_combination hres
      rcases mul_eq_zero.1 this with h | h
      · exact sub_eq_zero.1 h
      · exact absurd h hB.ne'
    rw [this]; exact hd
  · have hres := residual_exact h.cons h.tab (fun it hit => hd it (hl it hit)) T.x
    rw [hx] at hres
    exact sub_eq_zero.1 hres.symm

/-- The first visit, from the initial tables. -/
theorem good_first (hp : Plain p) (hu : Quadratics u p.batchSize a c) {T : Tab W K K} {it : Nat} (hit : it < numBatches u.n p.batchSize)
    (hC : Consistent (line K) (numBatches u.n p.batchSize) d T) (hT : Tables (numBatches u.n p.batchSize) a c r T)
    (ht : ∀ i < numBatches u.n p.batchSize, T.t i = r) (hne : T.x ≠ r) : Good u p a c r d [it] (visit u (line K) p T it) := by
  obtain ⟨h1, h2, _, h4⟩ := visit_moves hp hu hit hT (by rw [ht it hit]; exact hne)
  exact ⟨visit_consistent hit hC, h1, h4, Or.inr fun j hj => by rw [List.mem_singleton.1 hj]; exact h2⟩

theorem init_y (hu : Quadratics u p.batchSize a c) (w : W) (x : K) :
    ∀ k ≤ numBatches u.n p.batchSize, ∀ f < k, ((List.range k).foldl (initStep u (line K) p.batchSize r)
      ⟨⟨w, false, []⟩, fun _ => 0, fun _ => 0, fun _ => 0, (line K).eye, 0, 0, x⟩).y f = a f * (r - c f) := by
  intro k
  induction k with
  | zero => intro _ f hf; omega
  | succ k ih =>
    intro hk f hf
    rw [List.range_succ, List.foldl_append, List.foldl_cons, List.foldl_nil]
    have ih := ih (by omega)
    generalize (List.range k).foldl (initStep u (line K) p.batchSize r)
      ⟨⟨w, false, []⟩, fun _ => 0, fun _ => 0, fun _ => 0, (line K).eye, 0, 0, x⟩ = T at ih ⊢
    simp only [initStep, gradAt, hu.cbGrad, smul_eq_mul]
    by_cases hfk : f = k
    · subst hfk
      rw [Function.update_self]
      exact hu.grad f (by omega) _ _
    · rw [Function.update_of_ne hfk]
      exact ih f (by omega)

/-- The state the main loop starts from. -/
theorem start_good (hn : 0 < u.n) (hb : 0 < p.batchSize) (hu : Quadratics u p.batchSize a c) (w : W) (x : K) :
    ∃ d, Consistent (line K) (numBatches u.n p.batchSize) d (start u (line K) p w r x).a ∧
      Tables (numBatches u.n p.batchSize) a c r (start u (line K) p w r x).a ∧
      (∀ i < numBatches u.n p.batchSize, (start u (line K) p w r x).a.t i = r) ∧ (start u (line K) p w r x).a.x = x ∧
      d = 1 / (u.n : K) * ∑ f ∈ Finset.range (numBatches u.n p.batchSize), ((batch u.n p.batchSize f).2 : K) * (a f * (r - c f)) -
        1 / (numBatches u.n p.batchSize : K) * ∑ f ∈ Finset.range (numBatches u.n p.batchSize), a f * (r - c f) := by
  obtain ⟨d, hC, hg, _⟩ := init_consistent (line K) hn hb w r x
  obtain ⟨_, i2, _⟩ := init_tables (u := u) (h := line K) (b := p.batchSize) r x w (numBatches u.n p.batchSize)
  have hy := init_y (r := r) hu w x (numBatches u.n p.batchSize) le_rfl
  have hy' : ∀ f < numBatches u.n p.batchSize, (init u (line K) p.batchSize w r x).y f = a f * (r - c f) := hy
  have hx : (start u (line K) p w r x).a.x = x := by
    simp only [start, hu.cbBegin, init]
    have : ∀ (l : List Nat) (T : Tab W K K), (l.foldl (initStep u (line K) p.batchSize r) T).x = T.x := by
      intro l
      induction l with
      | nil => intro T; rfl
      | cons i l ih => intro T; rw [List.foldl_cons, ih]; rfl
    rw [this]
  refine ⟨d, hC, ⟨fun f hf => ?_, fun f hf => ?_⟩, fun f hf => (i2 f hf).2, hx, ?_⟩
  · show (init u (line K) p.batchSize w r x).y f = a f * ((init u (line K) p.batchSize w r x).t f - c f)
    rw [hy' f hf, show (init u (line K) p.batchSize w r x).t f = r from (i2 f hf).2]
  · exact Or.inr ⟨(i2 f hf).1, (i2 f hf).2⟩
  · have h3 := hC.2.2
    rw [hg] at h3
    simp only [avg, smul_eq_mul] at h3
    have e1 : ∑ f ∈ Finset.range (numBatches u.n p.batchSize), ((batch u.n p.batchSize f).2 : K) * (init u (line K) p.batchSize w r x).y f =
        ∑ f ∈ Finset.range (numBatches u.n p.batchSize), ((batch u.n p.batchSize f).2 : K) * (a f * (r - c f)) :=
      Finset.sum_congr rfl fun f hf => by rw [hy' f (Finset.mem_range.1 hf)]
    have e2 : ∑ f ∈ Finset.range (numBatches u.n p.batchSize), (init u (line K) p.batchSize w r x).y f =
        ∑ f ∈ Finset.range (numBatches u.n p.batchSize), a f * (r - c f) :=
      Finset.sum_congr rfl fun f hf => by rw [hy' f (Finset.mem_range.1 hf)]
    rw [e1, e2] at h3
    linear_combination -h3

/-- After every pass of a run that starts away from the random point the iterate is the target. -/
theorem passes (hp : Plain p) (hn : 0 < u.n) (hb : 0 < p.batchSize) (hu : Quadratics u p.batchSize a c) (w : W) {x : K} (hx : x ≠ r) :
    ∃ d, d = 1 / (u.n : K) * ∑ f ∈ Finset.range (numBatches u.n p.batchSize), ((batch u.n p.batchSize f).2 : K) * (a f * (r - c f)) -
        1 / (numBatches u.n p.batchSize : K) * ∑ f ∈ Finset.range (numBatches u.n p.batchSize), a f * (r - c f) ∧
      ∀ j, Target (numBatches u.n p.batchSize) a c d (tb u (line K) p w r x (j + 1)).1.x := by
  obtain ⟨N1, -, -⟩ := numBatches_spec hn hb
  obtain ⟨d, hC, hT, ht, hx0, hd⟩ := start_good (r := r) hn hb hu w x
  refine ⟨d, hd, ?_⟩
  obtain ⟨o1, o2⟩ := order_perm (N := numBatches u.n p.batchSize) N1
  have hgood : ∀ j, Good u p a c r d (order (numBatches u.n p.batchSize)) (tb u (line K) p w r x (j + 1)).1 := by
    intro j
    induction j with
    | zero =>
      have hfirst : Good u p a c r d (order (numBatches u.n p.batchSize))
          ((order (numBatches u.n p.batchSize)).foldl (visit u (line K) p) (start u (line K) p w r x).a) := by
        cases ho : order (numBatches u.n p.batchSize) with
        | nil =>
          have := o2 0 N1
          rw [ho] at this
          cases this
        | cons i m =>
          rw [List.foldl_cons]
          have := good_visits hp N1 hu m [i] _ (fun j hj => o1 j (by rw [ho]; exact List.mem_cons_of_mem _ hj))
            (good_first hp hu (o1 i (by rw [ho]; exact List.mem_cons_self)) hC hT ht (by rw [hx0]; exact hx))
          simpa using this
      exact ⟨hfirst.cons, ⟨hfirst.tab.y, hfirst.tab.Q⟩, hfirst.x, hfirst.done⟩
    | succ j ih =>
      have h1 := good_visits hp N1 hu (order (numBatches u.n p.batchSize)) _ _ o1 ih
      refine ⟨h1.cons, ⟨h1.tab.y, h1.tab.Q⟩, h1.x, ?_⟩
      rcases h1.done with h | h
      · exact Or.inl h
      · exact Or.inr fun i hi => h i (List.mem_append.2 (Or.inl hi))
  exact fun j => good_target N1 hu (hgood j) o2

/-- A run that makes a pass ends at the target. -/
theorem run_target (hp : Plain p) (hn : 0 < u.n) (hb : 0 < p.batchSize) (hu : Quadratics u p.batchSize a c)
    {fuel : Nat} {w : W} {x : K} (hx : x ≠ r) (hm : p.maxIterations ≠ 1) (hterm : (start u (line K) p w r x).a.s.term = false)
    {e : Exit} {t : St W K K E} (hr : optimize u (line K) p fuel w r x = some (.ret e t)) :
    Target (numBatches u.n p.batchSize) a c
      (1 / (u.n : K) * ∑ f ∈ Finset.range (numBatches u.n p.batchSize), ((batch u.n p.batchSize f).2 : K) * (a f * (r - c f)) -
        1 / (numBatches u.n p.batchSize : K) * ∑ f ∈ Finset.range (numBatches u.n p.batchSize), a f * (r - c f)) t.a.x := by
  obtain ⟨k, h1, _, ⟨w₁, h3⟩, h4, h5, h6⟩ := C166_iqn_stopping (line K) hn hb hr
  rw [hu.cbEnd] at h3
  obtain ⟨d, hd, hpass⟩ := passes (r := r) hp hn hb hu w hx
  have hk : k ≠ 0 := by
    intro h0
    subst h0
    cases e with
    | loop =>
      rcases h4 rfl with h | h
      · exact hm h.symm
      · rw [show (tb u (line K) p w r x 0).1.s.term = (start u (line K) p w r x).a.s.term from rfl, hterm] at h
        cases h
    | bad => exact (h5 rfl).1 rfl
    | small => exact (h6 rfl).1 rfl
  obtain ⟨j, rfl⟩ := Nat.exists_eq_succ_of_ne_zero hk
  have htar := hpass j
  rw [← h3, hd] at htar
  exact htar

/-- **C300** (even batches). IQN with step size 1 on a sum of positive quadratics of one variable, with a batch size that divides the number of
functions: every run that makes a pass ends exactly at the minimiser of the sum (its whole gradient is zero there), from every starting
point and for every random initial point different from it. -/
theorem C300_exact (hp : Plain p) (hn : 0 < u.n) (hb : 0 < p.batchSize) (hdvd : p.batchSize ∣ u.n) (hu : Quadratics u p.batchSize a c)
    {fuel : Nat} {w : W} {x : K} (hx : x ≠ r) (hm : p.maxIterations ≠ 1) (hterm : (start u (line K) p w r x).a.s.term = false)
    {e : Exit} {t : St W K K E} (hr : optimize u (line K) p fuel w r x = some (.ret e t)) :
    ∀ w', ∑ it ∈ Finset.range (numBatches u.n p.batchSize),
      (u.gradient w' t.a.x (batch u.n p.batchSize it).1 (batch u.n p.batchSize it).2).2 = 0 := by
  obtain ⟨N1, -, -⟩ := numBatches_spec hn hb
  have htar := run_target hp hn hb hu hx hm hterm hr
  generalize hd : (1 / (u.n : K) * ∑ f ∈ Finset.range (numBatches u.n p.batchSize), ((batch u.n p.batchSize f).2 : K) * (a f * (r - c f)) -
        1 / (numBatches u.n p.batchSize : K) * ∑ f ∈ Finset.range (numBatches u.n p.batchSize), a f * (r - c f)) = d at htar
  have hsz : ∀ f ∈ Finset.range (numBatches u.n p.batchSize), (batch u.n p.batchSize f).2 = p.batchSize := fun f hf =>
    batch_size_dvd hn hb hdvd (Finset.mem_range.1 hf)
  have hbK : (p.batchSize : K) ≠ 0 := by exact_mod_cast hb.ne'
  have hNK : (numBatches u.n p.batchSize : K) ≠ 0 := by exact_mod_cast N1.ne'
  have hd0 : d = 0 := by
    rw [← hd, Finset.sum_congr rfl (g := fun f => (p.batchSize : K) * (a f * (r - c f))) (fun f hf => by rw [hsz f hf]), ← Finset.mul_sum]
    have : (u.n : K) = numBatches u.n p.batchSize * p.batchSize := by exact_mod_cast (numBatches_dvd hb hdvd).symm
    rw [this]
    field_simp
    ring
  rw [hd0, Target] at htar
  have hsum : ∑ i ∈ Finset.range (numBatches u.n p.batchSize), a i * (c i - t.a.x) = 0 := by
    rcases mul_eq_zero.1 htar with h | h
    · exact absurd h (one_div_ne_zero hNK)
    · exact h
  intro w'
  have hg : ∀ it ∈ Finset.range (numBatches u.n p.batchSize),
      (u.gradient w' t.a.x (batch u.n p.batchSize it).1 (batch u.n p.batchSize it).2).2 =
        -(p.batchSize : K) * (a it * (c it - t.a.x)) := by
    intro it hit
    have := hu.grad it (Finset.mem_range.1 hit) w' t.a.x
    rw [hsz it hit] at this ⊢
    field_simp at this
    linear_combination this
  rw [Finset.sum_congr rfl hg, ← Finset.mul_sum, hsum, mul_zero]

/-- **C300** (uneven batches). For any batch size, if all batches have their minimum at the same point `c₀`, the distance of the returned
point from it is proportional to that of the random initial point `r`, with the factor `(mean curvature of the batches - mean weighted by
the batch sizes) / mean curvature of the batches`: unless that factor is 0 the run ends at `c₀` only if `r` is there already, however many
passes are made. -/
theorem C300_uneven (hp : Plain p) (hn : 0 < u.n) (hb : 0 < p.batchSize) {c₀ : K} (hu : Quadratics u p.batchSize a fun _ => c₀)
    {fuel : Nat} {w : W} {x : K} (hx : x ≠ r) (hm : p.maxIterations ≠ 1) (hterm : (start u (line K) p w r x).a.s.term = false)
    {e : Exit} {t : St W K K E} (hr : optimize u (line K) p fuel w r x = some (.ret e t)) :
    1 / (numBatches u.n p.batchSize : K) * (∑ f ∈ Finset.range (numBatches u.n p.batchSize), a f) * (t.a.x - c₀) =
      (1 / (numBatches u.n p.batchSize : K) * ∑ f ∈ Finset.range (numBatches u.n p.batchSize), a f -
        1 / (u.n : K) * ∑ f ∈ Finset.range (numBatches u.n p.batchSize), ((batch u.n p.batchSize f).2 : K) * a f) * (r - c₀) := by
  have htar := run_target hp hn hb hu hx hm hterm hr
  simp only [Target, ← mul_assoc, ← Finset.sum_mul] at htar
  linear_combination -htar

end

/-- **C300** (no move). If the random initial point is the starting point, IQN never moves, whatever the objective. -/
theorem C300_stuck {V H : Type} [AddCommGroup V] [Module K V] [AddCommGroup H] [Module K H] {u : User W V V E} (h : Hess K V H)
    {p : Params K V H E} (hn : 0 < u.n) (hb : 0 < p.batchSize) (hdiff : ∀ x, p.differs x x = false)
    (hbegin : ∀ w x, (u.cbBegin w x).2 = x) (hend : ∀ w x, (u.cbEnd w x).2 = x) {fuel : Nat} {w : W} {x : V} {e : Exit} {t : St W V H E}
    (hr : optimize u h p fuel w x x = some (.ret e t)) : t.a.x = x := by
  obtain ⟨N1, -, -⟩ := numBatches_spec hn hb
  obtain ⟨k, _, _, ⟨w₁, h3⟩, _⟩ := C166_iqn_stopping h hn hb hr
  rw [hend] at h3
  rw [h3]
  obtain ⟨o1, _⟩ := order_perm (N := numBatches u.n p.batchSize) N1
  have key : ∀ (l : List Nat) (T : Tab W V H), (∀ i ∈ l, i < numBatches u.n p.batchSize) → T.x = x →
      (∀ i < numBatches u.n p.batchSize, T.t i = x) → l.foldl (visit u h p) T = T := by
    intro l
    induction l with
    | nil => intro T _ _ _; rfl
    | cons i l ih =>
      intro T hl hx ht
      have hv : visit u h p T i = T := by
        unfold visit
        rw [if_neg]
        rw [hx, ht i (hl i List.mem_cons_self), hdiff]
        exact Bool.false_ne_true
      rw [List.foldl_cons, hv]
      exact ih T (fun j hj => hl j (List.mem_cons_of_mem _ hj)) hx ht
  have all : ∀ k, (tb u h p w x x k).1.x = x ∧ ∀ i < numBatches u.n p.batchSize, (tb u h p w x x k).1.t i = x := by
    intro k
    induction k with
    | zero =>
      obtain ⟨_, i2, _⟩ := init_tables (u := u) (h := h) (b := p.batchSize) x x w (numBatches u.n p.batchSize)
      refine ⟨?_, fun i hi => (i2 i hi).2⟩
      simp only [tb, start, hbegin, init]
      have : ∀ (l : List Nat) (T : Tab W V H), (l.foldl (initStep u h p.batchSize x) T).x = T.x := by
        intro l
        induction l with
        | nil => intro T; rfl
        | cons i l ih => intro T; rw [List.foldl_cons, ih]; rfl
      rw [this]
    | succ k ih =>
      simp only [tb]
      rw [key _ _ o1 ih.1 ih.2]
      exact ih
  exact (all k).1

/-! ### Concrete cases -/

/-- `n` functions `(i + 1) (x - v i)²`. -/
def bowls (n : Nat) (v : Nat → ℚ) : User Unit ℚ ℚ ℚ where
  n := n
  evaluate := fun w x a k => (w, ((List.range' a k).map fun i : Nat => (i + 1 : ℚ) * (x - v i) ^ 2).sum)
  gradient := fun w x a k => (w, ((List.range' a k).map fun i : Nat => (i + 1 : ℚ) * 2 * (x - v i)).sum)
  shuffle := fun w => w
  cbBegin := fun w x => (w, x)
  cbEval := fun w _ _ => (w, false)
  cbGrad := fun w _ g => (w, g, false)
  cbStep := fun w x => (w, x, false)
  cbEnd := fun w x => (w, x)
  addE := fun a b => a + b
  zero := 0
  isBad := fun _ => false
  near := fun _ _ => false
  dblMax := 10 ^ 308
  addG := fun a b => a + b
  divG := fun g n => g / n

def unit1 (b m : Nat) : Params ℚ ℚ ℚ ℚ :=
  { params1 b m with stepSize := 1 }

theorem unit1_plain (b m : Nat) : Plain (unit1 b m) := ⟨rfl, fun x y => by simp [unit1, params1], fun _ _ => rfl⟩

/-- Three functions, one per batch: the hypotheses of `C300_exact`. -/
theorem bowls_three (v : Nat → ℚ) : Quadratics (bowls 3 v) 1 (fun i => (i + 1) * 2) v := by
  refine ⟨fun it _ => by positivity, fun it hit w x => ?_, fun _ _ _ => rfl, fun _ _ => rfl, fun _ _ => rfl, fun _ _ => rfl⟩
  have : it < 3 := by simpa [numBatches, bowls] using hit
  obtain rfl | rfl | rfl : it = 0 ∨ it = 1 ∨ it = 2 := by omega
  all_goals simp [batch, bowls, List.range']

example : ∃ e t, optimize (bowls 3 fun i => i) (line ℚ) (unit1 1 3) 10 () 7 5 = some (.ret e t) ∧
    (start (bowls 3 fun i => i) (line ℚ) (unit1 1 3) () 7 5).a.s.term = false ∧ t.a.x = 4 / 3 := by
  have h : ((final (optimize (bowls 3 fun i => i) (line ℚ) (unit1 1 3) 10 () 7 5)).map fun a => a.1.x) = some (4 / 3) := by decide +kernel
  cases ho : optimize (bowls 3 fun i => i) (line ℚ) (unit1 1 3) 10 () 7 5 with
  | none => rw [ho] at h; cases h
  | some q =>
    cases q with
    | stuck => rw [ho] at h; cases h
    | ret e t =>
      rw [ho] at h
      exact ⟨e, t, rfl, by decide +kernel, by simpa [final] using h⟩

/-- Three functions with their minimum at 1 in batches of two: the hypotheses of `C300_uneven`. -/
theorem bowls_uneven : Quadratics (bowls 3 fun _ => 1) 2 (fun i => if i = 0 then 3 else 6) fun _ => 1 := by
  refine ⟨fun it _ => by split <;> norm_num, fun it hit w x => ?_, fun _ _ _ => rfl, fun _ _ => rfl, fun _ _ => rfl, fun _ _ => rfl⟩
  have : it < 2 := hit
  obtain rfl | rfl : it = 0 ∨ it = 1 := by omega
  · simp [batch, bowls, List.range']
    ring
  · norm_num [batch, bowls, List.range']

/-- **C300** (uneven batches, concretely). Three functions `(x - 1)²`, `2 (x - 1)²`, `3 (x - 1)²` in batches of two: every run, of any
length, from any starting point, ends at `1 + (r - 1) / 9` for the random point `r`. -/
theorem C300_uneven_misses {m fuel : Nat} (hm : m ≠ 1) {r x : ℚ} (hx : x ≠ r) {e : Exit} {t : St Unit ℚ ℚ ℚ}
    (hr : optimize (bowls 3 fun _ => 1) (line ℚ) (unit1 2 m) fuel () r x = some (.ret e t)) : t.a.x = 1 + (r - 1) / 9 := by
  have ht : (start (bowls 3 fun _ => 1) (line ℚ) (unit1 2 m) () r x).a.s.term = false := by
    have hl : List.range (numBatches 3 2) = [0, 1] := by decide
    simp [start, init, unit1, params1, show (bowls 3 fun _ => 1).n = 3 from rfl, hl, initStep, gradAt, S.note, bowls]
  have h := C300_uneven (unit1_plain 2 m) (by decide) (show 0 < 2 by decide) bowls_uneven hx hm ht hr
  have e1 : numBatches (bowls 3 fun _ => 1).n (unit1 2 m).batchSize = 2 := show numBatches 3 2 = 2 by decide
  have e2 : ((batch (bowls 3 fun _ => 1).n (unit1 2 m).batchSize 0).2 : ℚ) = 2 := by norm_num [batch, bowls, unit1, params1]
  have e3 : ((batch (bowls 3 fun _ => 1).n (unit1 2 m).batchSize 1).2 : ℚ) = 1 := by norm_num [batch, bowls, unit1, params1]
  have e4 : ((bowls 3 fun _ => 1).n : ℚ) = 3 := by norm_num [bowls]
  rw [e1, e4, Finset.sum_range_succ, Finset.sum_range_succ, Finset.sum_range_zero, Finset.sum_range_succ, Finset.sum_range_succ,
    Finset.sum_range_zero, e2, e3] at h
  norm_num at h
  linarith

end Ens.Iqn
