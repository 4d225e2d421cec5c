import Verif.Psgd.Props
import Verif.Trace
import Verif.Converge.LastIterate

/-
C315: where ParallelSGD ends up when several threads update the coordinates at the same time without locks
(parallel_sgd_impl.hpp:102-190), for every interleaving of the threads.
-/

namespace Ens.Psgd

open Ens.Converge

variable {d T : Nat}

/-! ### Reading while others write -/

/-- What the entries of a sparse gradient add to coordinate `k`, without regard to sign. -/
noncomputable def totalAbs (k : Fin d) (g : List (Fin d × ℝ)) : ℝ := (g.map fun p => if p.1 = k then |p.2| else 0).sum

/-- A point that a thread may see: a coordinate differs from its value at the start of the round by no more than
the updates that belong to gradients computed so far (`pre`).  This covers every mixture of old and new values of
the coordinates (`C315_snapshot_is_torn`). -/
def Torn (x₀ : Fin d → ℝ) (pre : List (Nat × List (Fin d × ℝ))) (y : Fin d → ℝ) : Prop :=
  ∀ k, |y k - x₀ k| ≤ (pre.map fun p => totalAbs k p.2).sum

/-- The entries of a sparse vector (lines 171-185 visit each once). -/
def Sparse (v : Fin d → ℝ) (g : List (Fin d × ℝ)) : Prop := (g.map Prod.fst).Nodup ∧ ∀ k, total k g = v k

/-- Every gradient of the round is that of its function at a point the thread may see, times the step size. -/
def Reads (gr : Nat → Vec d → Vec d) (a : ℝ) (x₀ : Fin d → ℝ) (log : List (Nat × List (Fin d × ℝ))) : Prop :=
  Along (fun pre e => ∃ y : Vec d, Torn x₀ pre y ∧ Sparse (a • gr e.1 y : Vec d) e.2) log

theorem totalAbs_nonneg (k : Fin d) (g : List (Fin d × ℝ)) : 0 ≤ totalAbs k g := by
  refine List.sum_nonneg fun a ha => ?_
  simp only [List.mem_map] at ha
  obtain ⟨p, _, rfl⟩ := ha
  split <;> simp

theorem total_cons (k : Fin d) (p : Fin d × ℝ) (g : List (Fin d × ℝ)) :
    total k (p :: g) = (if p.1 = k then p.2 else 0) + total k g := by simp [total]

theorem totalAbs_cons (k : Fin d) (p : Fin d × ℝ) (g : List (Fin d × ℝ)) :
    totalAbs k (p :: g) = (if p.1 = k then |p.2| else 0) + totalAbs k g := by simp [totalAbs]

theorem total_absent (k : Fin d) (g : List (Fin d × ℝ)) (h : k ∉ g.map Prod.fst) : total k g = 0 ∧ totalAbs k g = 0 := by
  induction g with
  | nil => exact ⟨rfl, rfl⟩
  | cons p g ih =>
    simp only [List.map_cons, List.mem_cons, not_or] at h
    rw [total_cons, totalAbs_cons, if_neg (Ne.symm h.1), if_neg (Ne.symm h.1), (ih h.2).1, (ih h.2).2]
    simp

theorem totalAbs_of_nodup (k : Fin d) (g : List (Fin d × ℝ)) (h : (g.map Prod.fst).Nodup) :
    totalAbs k g = |total k g| := by
  induction g with
  | nil => simp [total, totalAbs]
  | cons p g ih =>
    rw [List.map_cons, List.nodup_cons] at h
    rw [total_cons, totalAbs_cons]
    by_cases hk : p.1 = k
    · have := total_absent k g (by rw [← hk]; exact h.1)
      rw [if_pos hk, if_pos hk, this.1, this.2, add_zero, add_zero]
    · rw [if_neg hk, if_neg hk, zero_add, zero_add, ih h.2]

/-! ### Consistent reads are covered -/

/-- Sum over all threads of what is pending for coordinate `k`, without regard to sign. -/
noncomputable def pendingAbs (c : Config T (Fin d) ℝ) (k : Fin d) : ℝ :=
  (List.ofFn fun t => totalAbs k (c.threads t).pending).sum

theorem pendingAbs_nonneg (c : Config T (Fin d) ℝ) (k : Fin d) : 0 ≤ pendingAbs c k := by
  refine List.sum_nonneg fun a ha => ?_
  rw [List.mem_ofFn] at ha
  obtain ⟨t, rfl⟩ := ha
  exact totalAbs_nonneg _ _

theorem abs_inv_step {allowed : (Fin d → ℝ) → Nat → List (Fin d × ℝ) → Prop} {x₀ : Fin d → ℝ}
    {c c' : Config T (Fin d) ℝ} (hs : Step allowed c c') (k : Fin d)
    (hk : |c.x k - x₀ k| + pendingAbs c k ≤ (c.log.map fun p => totalAbs k p.2).sum) :
    |c'.x k - x₀ k| + pendingAbs c' k ≤ (c'.log.map fun p => totalAbs k p.2).sum := by
  cases hs with
  | read t j rest g ht hg =>
    simp only [pendingAbs] at hk ⊢
    rw [sum_update (fun th : Thread (Fin d) ℝ => totalAbs k th.pending) T _ t ⟨rest, g⟩, ht, List.map_append,
      List.sum_append]
    simp only [List.map_cons, List.map_nil, List.sum_cons, List.sum_nil, add_zero]
    have e0 : totalAbs k ([] : List (Fin d × ℝ)) = 0 := rfl
    rw [e0]
    linarith
  | write t todo k' v ps ht =>
    simp only [pendingAbs] at hk ⊢
    rw [sum_update (fun th : Thread (Fin d) ℝ => totalAbs k th.pending) T _ t ⟨todo, ps⟩, ht, totalAbs_cons]
    by_cases hkk : k' = k
    · subst hkk
      rw [Function.update_self, if_pos rfl]
      simp only at hk ⊢
      have h1 : |c.x k' - v - x₀ k'| ≤ |c.x k' - x₀ k'| + |v| := by
        rw [show c.x k' - v - x₀ k' = (c.x k' - x₀ k') - v by ring]
        exact abs_sub _ _
      linarith
    · rw [Function.update_of_ne (Ne.symm hkk), if_neg hkk]
      simp only at hk ⊢
      linarith

theorem abs_inv_run {allowed : (Fin d → ℝ) → Nat → List (Fin d × ℝ) → Prop} {x₀ : Fin d → ℝ}
    {c c' : Config T (Fin d) ℝ} (hr : Run allowed c c') (k : Fin d)
    (hk : |c.x k - x₀ k| + pendingAbs c k ≤ (c.log.map fun p => totalAbs k p.2).sum) :
    |c'.x k - x₀ k| + pendingAbs c' k ≤ (c'.log.map fun p => totalAbs k p.2).sum := by
  induction hr with
  | refl => exact hk
  | step _ hs ih => exact abs_inv_step hs k ih

/-- **C315** A thread that computes its gradient at the coordinates as they are at that moment, in any state that
any interleaving can reach, reads a point of the kind described by `Torn`; hence so does one that takes each
coordinate from another such moment. -/
theorem C315_snapshot_is_torn (allowed : (Fin d → ℝ) → Nat → List (Fin d × ℝ) → Prop) (x₀ : Fin d → ℝ)
    (order : List Nat) (share : Nat) {c : Config T (Fin d) ℝ} (h : Run allowed (init x₀ order share) c) :
    Torn x₀ c.log c.x := by
  intro k
  have h0 : pendingAbs (init x₀ order share : Config T (Fin d) ℝ) k = 0 := by
    have e : (fun t => totalAbs k ((init x₀ order share : Config T (Fin d) ℝ).threads t).pending) =
        fun _ : Fin T => (0 : ℝ) := rfl
    rw [pendingAbs, e, List.ofFn_const, List.sum_replicate, nsmul_zero]
  have h1 := abs_inv_run (x₀ := x₀) h k (by rw [h0]; simp [init])
  have := pendingAbs_nonneg c k
  linarith

/-- **C315** Hence every interleaving of threads that compute their gradients at the coordinates of the moment
satisfies `Reads`. -/
theorem C315_snapshot_reads {gr : Nat → Vec d → Vec d} {a : ℝ} (x₀ : Fin d → ℝ) (order : List Nat) (share : Nat)
    {c : Config T (Fin d) ℝ}
    (h : Run (fun x j g => Sparse (a • gr j (WithLp.toLp 2 x) : Vec d) g) (init x₀ order share) c) :
    Reads gr a x₀ c.log := by
  generalize hc₀ : (init x₀ order share : Config T (Fin d) ℝ) = c₀ at h
  induction h with
  | refl => rw [← hc₀]; exact along_nil _
  | step hr hs ih =>
    have ht := C315_snapshot_is_torn _ x₀ order share (hc₀ ▸ hr)
    cases hs with
    | read t j rest g _ hg => exact (along_snoc _ _ _).2 ⟨ih, _, ht, hg⟩
    | write t todo k v ps _ => exact ih

/-! ### One round -/

/-- A sum of `n` functions with gradients `gr j`, each Lipschitz with constant `L` (they need not be convex, and
may depend on few coordinates); the sum `F` is `M`-smooth and `m`-strongly convex with minimiser `z`, and `Γ`
bounds the single gradients there. -/
structure GoodSum (n : Nat) (gr : Nat → Vec d → Vec d) (F : Vec d → ℝ) (M m L Γ : ℝ) (z : Vec d) : Prop where
  smooth : LSmooth F (fun x => ∑ j ∈ Finset.range n, gr j x) M
  convex : StronglyConvex F (fun x => ∑ j ∈ Finset.range n, gr j x) m
  lip : ∀ j < n, ∀ x y, ‖gr j x - gr j y‖ ≤ L * ‖x - y‖
  crit : ∑ j ∈ Finset.range n, gr j z = 0
  bound : ∀ j < n, ‖gr j z‖ ≤ Γ

noncomputable def vec (g : List (Fin d × ℝ)) : Vec d := WithLp.toLp 2 fun k => total k g

noncomputable def absVec (g : List (Fin d × ℝ)) : Vec d := WithLp.toLp 2 fun k => totalAbs k g

theorem norm_le_of_abs {x y : Vec d} (h : ∀ k, |x k| ≤ y k) : ‖x‖ ≤ ‖y‖ := by
  rw [EuclideanSpace.norm_eq, EuclideanSpace.norm_eq]
  refine Real.sqrt_le_sqrt (Finset.sum_le_sum fun k _ => ?_)
  rw [Real.norm_eq_abs, Real.norm_eq_abs]
  exact pow_le_pow_left₀ (abs_nonneg _) ((h k).trans (le_abs_self _)) 2

theorem vec_sparse {v : Vec d} {g : List (Fin d × ℝ)} (h : Sparse v g) : vec g = v := by
  ext k
  exact h.2 k

theorem absVec_sparse {v : Vec d} {g : List (Fin d × ℝ)} (h : Sparse v g) : ‖absVec g‖ = ‖v‖ := by
  rw [EuclideanSpace.norm_eq, EuclideanSpace.norm_eq]
  congr 1
  refine Finset.sum_congr rfl fun k _ => ?_
  show ‖totalAbs k g‖ ^ 2 = _
  rw [totalAbs_of_nodup k g h.1, h.2 k]
  simp

theorem torn_dist {x₀ y : Vec d} {pre : List (Nat × List (Fin d × ℝ))} (h : Torn x₀ pre y) :
    ‖y - x₀‖ ≤ ‖(pre.map fun p => absVec p.2).sum‖ := by
  refine norm_le_of_abs fun k => ?_
  have e : ∀ l : List (Nat × List (Fin d × ℝ)), (l.map fun p => absVec p.2).sum k = (l.map fun p => totalAbs k p.2).sum := by
    intro l
    induction l with
    | nil => simp
    | cons p l ih =>
      rw [List.map_cons, List.map_cons, List.sum_cons, List.sum_cons, ← ih]
      rfl
  rw [e]
  exact h k

variable {n : Nat} {gr : Nat → Vec d → Vec d} {F : Vec d → ℝ} {M m L Γ a : ℝ} {z : Vec d}

/-- What happens during a round (helper): `R` bounds how far the points read are from the start of the round. -/
theorem round_log (hg : GoodSum n gr F M m L Γ z) (hL : 0 ≤ L) (ha : 0 ≤ a) (hΓ : 0 ≤ Γ) {x₀ : Vec d} {R : ℝ} (hR : 0 ≤ R)
    (hcl : n * (a * (Γ + L * (‖x₀ - z‖ + R))) ≤ R) : ∀ log : List (Nat × List (Fin d × ℝ)),
    log.length ≤ n → (∀ p ∈ log, p.1 < n) → Reads gr a x₀ log →
    ‖(log.map fun p => absVec p.2).sum‖ ≤ log.length * (a * (Γ + L * (‖x₀ - z‖ + R))) ∧
    ‖(log.map fun p => vec p.2).sum - a • (log.map fun p => gr p.1 x₀).sum‖ ≤ log.length * (a * (L * R)) := by
  intro log
  set B := a * (Γ + L * (‖x₀ - z‖ + R)) with hB
  have hB0 : 0 ≤ B := by have := norm_nonneg (x₀ - z); positivity
  induction log using List.reverseRecOn with
  | nil => intro _ _ _; simp
  | append_singleton log e ih =>
    intro hlen hlt hr
    rw [List.length_append, List.length_singleton] at hlen
    obtain ⟨h1, h2⟩ := ih (by omega) (fun p hp => hlt p (by simp [hp])) ((along_snoc _ _ _).1 hr).1
    obtain ⟨y, hy, hsp⟩ := ((along_snoc _ _ _).1 hr).2
    have he : e.1 < n := hlt e (by simp)
    have hyR : ‖y - x₀‖ ≤ R := by
      refine (torn_dist hy).trans (h1.trans (le_trans ?_ hcl))
      refine mul_le_mul_of_nonneg_right ?_ hB0
      exact_mod_cast (by omega : log.length ≤ n)
    have hgy : ‖gr e.1 y‖ ≤ Γ + L * (‖x₀ - z‖ + R) := by
      have t1 : ‖gr e.1 y‖ ≤ ‖gr e.1 y - gr e.1 z‖ + ‖gr e.1 z‖ := by
        simpa using norm_add_le (gr e.1 y - gr e.1 z) (gr e.1 z)
      have t2 := hg.lip _ he y z
      have t3 := hg.bound _ he
      have t4 : ‖y - z‖ ≤ ‖x₀ - z‖ + R := by
        have := norm_add_le (y - x₀) (x₀ - z)
        rw [sub_add_sub_cancel] at this
        linarith
      have t5 := mul_le_mul_of_nonneg_left t4 hL
      linarith
    rw [List.map_append, List.map_append, List.map_append, List.sum_append, List.sum_append, List.sum_append,
      List.length_append, List.length_singleton]
    simp only [List.map_cons, List.map_nil, List.sum_cons, List.sum_nil, add_zero]
    push_cast
    constructor
    · refine (norm_add_le _ _).trans ?_
      rw [absVec_sparse hsp, norm_smul, Real.norm_of_nonneg ha]
      have := mul_le_mul_of_nonneg_left hgy ha
      linarith
    · rw [vec_sparse hsp, smul_add, add_sub_add_comm, ← smul_sub]
      refine (norm_add_le _ _).trans ?_
      rw [norm_smul, Real.norm_of_nonneg ha]
      have t1 : ‖gr e.1 y - gr e.1 x₀‖ ≤ L * R := (hg.lip _ he _ _).trans (mul_le_mul_of_nonneg_left hyR hL)
      have := mul_le_mul_of_nonneg_left t1 ha
      linarith

theorem sum_range_list (f : Nat → Vec d) (n : Nat) : ((List.range n).map f).sum = ∑ j ∈ Finset.range n, f j := by
  induction n with
  | zero => simp
  | succ n ih => rw [List.range_succ, List.map_append, List.sum_append, ih, Finset.sum_range_succ]; simp

/-- One step of gradient descent on the sum brings the coordinates closer to the minimiser. -/
theorem sum_contracts (hg : GoodSum n gr F M m L Γ z) (hM : 0 < M) (hm : 0 < m) (ha : 0 ≤ a) (haM : a * M ≤ 1)
    (ham : a * m ≤ 2) (x : Vec d) :
    ‖x - a • ∑ j ∈ Finset.range n, gr j x - z‖ ≤ (1 - a * m / 2) * ‖x - z‖ := by
  set G : Vec d → Vec d := fun x => ∑ j ∈ Finset.range n, gr j x with hG
  have hconv : ∀ x y, F x + inner ℝ (G x) (y - x) ≤ F y := by
    intro x y
    have := hg.convex x y
    have h2 : 0 ≤ m / 2 * ‖y - x‖ ^ 2 := by positivity
    linarith
  have hmo : ∀ x y, m * ‖x - y‖ ^ 2 ≤ inner ℝ (G x - G y) (x - y) := by
    intro x y
    have h1 := hg.convex x y
    have h2 := hg.convex y x
    rw [norm_sub_rev] at h1
    have h3 : inner ℝ (G x) (y - x) = -inner ℝ (G x) (x - y) := by
      rw [← neg_sub x y, inner_neg_right]
    rw [inner_sub_left]
    linarith
  have h := batch_contracts (g := fun _ => G) (k := 1) (L := M) (μ := m) ha
    (fun _ => cocoercive hM hg.smooth hconv) (fun _ => hmo) hm.le (by simpa using haM) (by simpa using ham) x z
  have hz : G z = 0 := hg.crit
  simpa [hz] using h

/-- **C315** One round of `ParallelSGD` (each function once, in any order, by any number of threads, interleaved in
any way, every gradient computed at coordinates that other threads are writing to): the distance from the minimiser
shrinks by `1 - a m / 4` up to an error of second order in the step size. -/
theorem C315_round (hg : GoodSum n gr F M m L Γ z) (hM : 0 < M) (hm : 0 < m) (hL : 0 ≤ L) (hΓ : 0 ≤ Γ) (ha : 0 ≤ a)
    (haM : a * M ≤ 1) (ham : a * m ≤ 2) (hnL : 2 * (a * (n * L)) ≤ 1) (hnm : 8 * (a * (n * L) ^ 2) ≤ m)
    {order : List Nat} {share : Nat} (hT : n ≤ T * share) (ho : order.Perm (List.range n)) {x₀ : Vec d}
    {c : Config T (Fin d) ℝ} (h : Run (fun _ _ _ => True) (init x₀ order share) c) (hd : Done c)
    (hr : Reads gr a x₀ c.log) :
    ‖WithLp.toLp 2 c.x - z‖ ≤ (1 - a * m / 4) * ‖x₀ - z‖ + 2 * (a * n) ^ 2 * L * Γ := by
  have hol : order.length = n := by rw [ho.length_eq, List.length_range]
  obtain ⟨h1, h2, -⟩ := C42_no_lost_update (fun _ _ _ => True) order share (by rw [hol]; exact hT) x₀ h hd
  have h2' := h2.trans ho
  have hlen : c.log.length = n := by simpa using h2'.length_eq
  have hlt : ∀ p ∈ c.log, p.1 < n := fun p hp =>
    List.mem_range.1 (h2'.mem_iff.1 (List.mem_map.2 ⟨p, hp, rfl⟩))
  set D := ‖x₀ - z‖ with hD
  have hD0 : 0 ≤ D := norm_nonneg _
  set R := 2 * (n * (a * (Γ + L * D))) with hR
  have hR0 : 0 ≤ R := by positivity
  have hcl : n * (a * (Γ + L * (‖x₀ - z‖ + R))) ≤ R := by
    rw [← hD]
    have t1 : 2 * (a * (n * L)) * R ≤ 1 * R := mul_le_mul_of_nonneg_right hnL hR0
    have t2 : (n : ℝ) * (a * (Γ + L * (D + R))) = R / 2 + a * (n * L) * R := by rw [hR]; ring
    rw [t2]
    linarith
  obtain ⟨-, h3⟩ := round_log hg hL ha hΓ hR0 hcl c.log hlen.le hlt hr
  have e1 : (c.log.map fun p => gr p.1 x₀).sum = ∑ j ∈ Finset.range n, gr j x₀ := by
    rw [← sum_range_list, ← (h2'.map fun j => gr j x₀).sum_eq, List.map_map]
    rfl
  have e2 : WithLp.toLp 2 c.x = x₀ - (c.log.map fun p => vec p.2).sum := by
    ext k
    show c.x k = x₀ k - (c.log.map fun p => vec p.2).sum k
    rw [h1 k]
    congr 1
    generalize c.log = l
    induction l with
    | nil => simp
    | cons p l ih => rw [List.map_cons, List.map_cons, List.sum_cons, List.sum_cons, ih]; rfl
  rw [e1, hlen] at h3
  have h4 := sum_contracts hg hM hm ha haM ham x₀
  have h5 : WithLp.toLp 2 c.x - z = (x₀ - a • ∑ j ∈ Finset.range n, gr j x₀ - z) -
      ((c.log.map fun p => vec p.2).sum - a • ∑ j ∈ Finset.range n, gr j x₀) := by
    rw [e2]; abel
  rw [h5]
  refine (norm_sub_le _ _).trans ?_
  have h6 : (n : ℝ) * (a * (L * R)) = 2 * (a * n) ^ 2 * L * Γ + 2 * a * (a * (n * L) ^ 2) * D := by rw [hR]; ring
  have h7 : 2 * a * (a * (n * L) ^ 2) * D ≤ a * m / 4 * D := by
    refine mul_le_mul_of_nonneg_right ?_ hD0
    have := mul_le_mul_of_nonneg_left hnm ha
    linarith
  rw [← hD] at h4
  linarith

/-! ### The whole run -/

variable {W : Type}

/-- `ParallelSGD` with `ConstantStep` (`a`), callbacks that only watch or ask to stop, and a parallel region that is
some interleaving of some number of threads whose shares cover the functions. -/
structure Hogwild {Dp : Type} (env : Env W (Vec d) ℝ Dp) (n : Nat) (gr : Nat → Vec d → Vec d) (a : ℝ) : Prop where
  cbBegin : ∀ w x, (env.cbBegin w x).2 = x
  cbEnd : ∀ w x, (env.cbEnd w x).2 = x
  stepSize : ∀ s i, (env.stepSize s i).2 = a
  round : ∀ (w : W) (x : Vec d), ∃ (T share : Nat) (order : List Nat) (c : Config T (Fin d) ℝ), n ≤ T * share ∧
    order.Perm (List.range n) ∧ Run (fun _ _ _ => True) (init x order share) c ∧ Done c ∧ Reads gr a x c.log ∧
    (env.round w x a).2.1 = WithLp.toLp 2 c.x

/-- **C315** `ParallelSGD` on a strongly convex sum, whatever the number of threads and however they interleave in
each round: with a step size small against `1 / (n L)` and `m / (n L)²`, the coordinates handed back after `K` rounds
are within `(1 - a m / 4)^K` times the distance of the start, plus `8 a n² L Γ / m`, of the minimiser. -/
theorem C315_distance {Dp : Type} {env : Env W (Vec d) ℝ Dp} (hh : Hogwild env n gr a) (hg : GoodSum n gr F M m L Γ z)
    (hM : 0 < M) (hm : 0 < m) (hL : 0 ≤ L) (hΓ : 0 ≤ Γ) (ha : 0 < a) (haM : a * M ≤ 1) (ham : a * m ≤ 2)
    (hnL : 2 * (a * (n * L)) ≤ 1) (hnm : 8 * (a * (n * L) ^ 2) ≤ m) (dp : Dp) (fuel : Nat) (w : W) (x : Vec d) {e : Exit}
    {s : St W (Vec d) ℝ Dp} (h : optimize env dp fuel w x = some (e, s)) :
    ‖s.x - z‖ ≤ (1 - a * m / 4) ^ s.rounds * ‖x - z‖ + 8 * a * n ^ 2 * L * Γ / m := by
  unfold optimize at h
  simp only [Option.map_eq_some_iff] at h
  obtain ⟨r, hr, h⟩ := h
  simp only [Prod.mk.injEq] at h
  obtain ⟨-, rfl⟩ := h
  show ‖(env.cbEnd _ _).2 - z‖ ≤ _
  rw [hh.cbEnd]
  have hq : 0 ≤ 1 - a * m / 4 := by linarith
  refine iterate_inv (step := body env)
    (fun s => ‖s.x - z‖ ≤ (1 - a * m / 4) ^ s.rounds * ‖x - z‖ + 8 * a * n ^ 2 * L * Γ / m)
    (fun r => ‖r.2.x - z‖ ≤ (1 - a * m / 4) ^ r.2.rounds * ‖x - z‖ + 8 * a * n ^ 2 * L * Γ / m) ?_ ?_ fuel _ r ?_ hr
  · intro s s' hi hb
    unfold body at hb
    split at hb
    · cases hb
    simp only at hb
    split at hb
    · cases hb
    split at hb
    · cases hb
    cases hb
    simp only
    rw [hh.stepSize]
    obtain ⟨T, share, order, c, c1, c2, c3, c4, c5, c6⟩ := hh.round (env.cbEval (env.eval s.w s.x).1 s.x (env.eval s.w s.x).2).1 s.x
    rw [c6]
    have h1 := C315_round hg hM hm hL hΓ ha.le haM ham hnL hnm c1 c2 c3 c4 c5
    have h2 := mul_le_mul_of_nonneg_left hi hq
    have h3 : (1 - a * m / 4) * (8 * a * n ^ 2 * L * Γ / m) + 2 * (a * n) ^ 2 * L * Γ = 8 * a * n ^ 2 * L * Γ / m := by
      field_simp
      ring
    rw [mul_add] at h2
    rw [pow_succ, mul_comm ((1 - a * m / 4) ^ s.rounds), mul_assoc]
    linarith
  · intro s r hi hb
    unfold body at hb
    split at hb
    · cases hb; exact hi
    simp only at hb
    split at hb
    · cases hb; exact hi
    split at hb
    · cases hb; exact hi
    · cases hb
  · simp only
    rw [hh.cbBegin, pow_zero, one_mul]
    have : 0 ≤ 8 * a * n ^ 2 * L * Γ / m := by positivity
    linarith

/-- **C315** Every accuracy is reached with a small enough step size and enough rounds, for all interleavings. -/
theorem C315_reaches (hg : GoodSum n gr F M m L Γ z) (hM : 0 < M) (hm : 0 < m) (hL : 0 ≤ L) (hΓ : 0 ≤ Γ) (x : Vec d)
    {ε : ℝ} (hε : 0 < ε) :
    ∃ a₀ : ℝ, 0 < a₀ ∧ ∀ a : ℝ, 0 < a → a ≤ a₀ → ∃ N : Nat, ∀ (W Dp : Type) (env : Env W (Vec d) ℝ Dp) (dp : Dp)
      (fuel : Nat) (w : W) (e : Exit) (s : St W (Vec d) ℝ Dp), Hogwild env n gr a →
      optimize env dp fuel w x = some (e, s) → N ≤ s.rounds → ‖s.x - z‖ < ε := by
  set K := 8 * (n : ℝ) ^ 2 * L * Γ / m with hK
  have hK0 : 0 ≤ K := by positivity
  have hnL0 : 0 ≤ (n : ℝ) * L := by positivity
  set C := M + m + 2 * (n * L) + 8 * (n * L) ^ 2 / m with hC
  have hC0 : 0 < C := by positivity
  refine ⟨min (1 / C) (ε / (2 * (K + 1))), lt_min (by positivity) (by positivity), ?_⟩
  intro a ha hle
  have h1 : a * C ≤ 1 := by
    have := hle.trans (min_le_left _ _)
    rwa [le_div_iff₀ hC0] at this
  have h2 : a * (2 * (K + 1)) ≤ ε := by
    have := hle.trans (min_le_right _ _)
    rwa [le_div_iff₀ (by positivity)] at this
  have p1 : 0 ≤ a * M := by positivity
  have p2 : 0 < a * m := by positivity
  have p3 : 0 ≤ a * (2 * (n * L)) := by positivity
  have p4 : 0 ≤ a * (8 * (n * L) ^ 2 / m) := by positivity
  have hsum : a * C = a * M + a * m + a * (2 * (n * L)) + a * (8 * (n * L) ^ 2 / m) := by rw [hC]; ring
  have hnm : 8 * (a * (n * L) ^ 2) ≤ m := by
    have t : a * (8 * (n * L) ^ 2 / m) ≤ 1 := by linarith
    rw [← mul_div_assoc, div_le_iff₀ hm] at t
    linarith
  have hlt : 1 - a * m / 4 < 1 := by linarith
  have hq0 : 0 ≤ 1 - a * m / 4 := by linarith
  obtain ⟨N, hN⟩ := exists_pow_lt_of_lt_one (show 0 < ε / 2 / (‖x - z‖ + 1) by positivity) hlt
  refine ⟨N, ?_⟩
  intro W Dp env dp fuel w e s hh h hNs
  have hd := C315_distance hh hg hM hm hL hΓ ha (by linarith) (by linarith) (by linarith) hnm dp fuel w x h
  have h3 : (1 - a * m / 4) ^ s.rounds ≤ (1 - a * m / 4) ^ N := pow_le_pow_of_le_one hq0 hlt.le hNs
  have h4 : (1 - a * m / 4) ^ N * (‖x - z‖ + 1) < ε / 2 := by rwa [lt_div_iff₀ (by positivity)] at hN
  have h5 : (1 - a * m / 4) ^ s.rounds * ‖x - z‖ ≤ (1 - a * m / 4) ^ N * (‖x - z‖ + 1) :=
    mul_le_mul h3 (by linarith) (norm_nonneg _) (pow_nonneg hq0 _)
  have h6 : 8 * a * n ^ 2 * L * Γ / m = a * K := by rw [hK]; ring
  have h7 : a * K ≤ ε / 2 := by nlinarith
  linarith

/-! ### A concrete case: two threads, one function each, both reading before either writes -/

/-- The functions `‖x - c‖² / 2` and `‖x + c‖² / 2` of one variable. -/
noncomputable def twoGr (c : Vec 1) (j : Nat) (x : Vec 1) : Vec 1 := if j = 0 then x - c else x + c

theorem twoGr_good (c : Vec 1) :
    GoodSum 2 (twoGr c) (fun x => half (x - c) + half (x + c)) 2 2 1 ‖c‖ 0 := by
  have e : ∀ x, ∑ j ∈ Finset.range 2, twoGr c j x = (x - c) + (x + c) := fun x => by
    simp [Finset.sum_range_succ, twoGr]
  refine ⟨⟨fun x => ?_, fun x y => ?_⟩, fun x y => ?_, fun j _ x y => ?_, ?_, fun j _ => ?_⟩
  · have h1 := (half_smooth.grad (x - c)).comp x ((hasFDerivAt_id x).sub_const c)
    have h2 := (half_smooth.grad (x + c)).comp x ((hasFDerivAt_id x).add_const c)
    refine (h1.add h2).congr_fderiv ?_
    ext y
    simp only [e, inner_add_left]
    simp [inner_add_left]
  · simp only [e]
    rw [show (x - c) + (x + c) - ((y - c) + (y + c)) = (2 : ℝ) • (x - y) by rw [two_smul]; abel, norm_smul]
    simp
  · simp only [e]
    refine le_of_eq ?_
    simp only [half]
    rw [show y - c = (x - c) + (y - x) by abel, show y + c = (x + c) + (y - x) by abel,
      norm_add_sq_real (x - c) (y - x), norm_add_sq_real (x + c) (y - x), inner_add_left]
    ring
  · unfold twoGr
    split <;> simp
  · rw [e]; simp
  · unfold twoGr
    split <;> simp

/-- `ParallelSGD` on them; the parallel region takes both gradients at the same coordinates. -/
noncomputable def twoEnv (c : Vec 1) (a : ℝ) (maxIterations : Nat) : Env Unit (Vec 1) ℝ Unit where
  eval := fun w x => (w, half (x - c) + half (x + c))
  cbEval := fun w _ _ => (w, false)
  cbBegin := fun w x => (w, x)
  cbEnd := fun w x => (w, x)
  stepSize := fun s _ => (s, a)
  round := fun w x a => (w, x - a • (x - c) - a • (x + c), false)
  isBad := fun _ => false
  near := fun _ _ => false
  maxVal := 10 ^ 308
  maxIterations := maxIterations

theorem sparse_one (v : Vec 1) : Sparse v [(0, v 0)] := by
  refine ⟨by simp, fun k => ?_⟩
  rw [Subsingleton.elim k 0]
  simp [total]

theorem twoEnv_hogwild (c : Vec 1) (a : ℝ) (m : Nat) : Hogwild (twoEnv c a m) 2 (twoGr c) a := by
  refine ⟨fun _ _ => rfl, fun _ _ => rfl, fun _ _ => rfl, fun w x => ?_⟩
  set g0 : List (Fin 1 × ℝ) := [(0, (a • twoGr c 0 x : Vec 1) 0)] with hg0
  set g1 : List (Fin 1 × ℝ) := [(0, (a • twoGr c 1 x : Vec 1) 0)] with hg1
  let c0 : Config 2 (Fin 1) ℝ := init x [0, 1] 1
  have r1 := Run.step (Run.refl c0) (Step.read (allowed := fun _ _ _ => True) c0 0 0 [] g0 rfl trivial)
  have r2 := Run.step r1 (Step.read _ 1 1 [] g1 rfl trivial)
  have r3 := Run.step r2 (Step.write _ 1 [] 0 _ [] rfl)
  have r4 := Run.step r3 (Step.write _ 0 [] 0 _ [] rfl)
  refine ⟨2, 1, [0, 1], _, le_refl _, by decide, r4, ?_, ?_, ?_⟩
  · intro t
    fin_cases t <;> rfl
  · show Along _ ([] ++ [(0, g0), (1, g1)])
    rw [along_snoc₂]
    refine ⟨along_nil _, ⟨x, ?_, sparse_one _⟩, ⟨x, ?_, sparse_one _⟩⟩
    · intro k; simp
    · intro k
      simp only [sub_self, abs_zero, List.nil_append, List.map_cons, List.map_nil, List.sum_cons, List.sum_nil, add_zero]
      exact totalAbs_nonneg _ _
  · ext k
    rw [Subsingleton.elim k 0]
    simp [twoEnv, c0, init, twoGr]
    ring

/-- Non-vacuity: step size 1/100; whatever the limit, the run returns close to `0`. -/
example (c x : Vec 1) : ∃ e s, optimize (twoEnv c (1 / 100) 4) () 5 () x = some (e, s) ∧ s.rounds = 3 ∧
    ‖s.x - 0‖ ≤ (1 - 1 / 100 * 2 / 4) ^ s.rounds * ‖x - 0‖ + 8 * (1 / 100) * (2 : Nat) ^ 2 * 1 * ‖c‖ / 2 := by
  have h : ∃ e s, optimize (twoEnv c (1 / 100) 4) () 5 () x = some (e, s) ∧ s.rounds = 3 := by
    refine ⟨_, _, rfl, rfl⟩
  obtain ⟨e, s, h, hs⟩ := h
  exact ⟨e, s, h, hs, C315_distance (twoEnv_hogwild c _ 4) (twoGr_good c) two_pos two_pos zero_le_one (norm_nonneg _)
    (by norm_num) (by norm_num) (by norm_num) (by norm_num) (by norm_num) _ _ _ _ h⟩

end Ens.Psgd
