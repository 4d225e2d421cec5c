import Mathlib.Algebra.BigOperators.Group.List.Basic
import Mathlib.Algebra.Group.Basic
import Mathlib.Tactic.Abel
import Mathlib.Tactic.NormNum
import Mathlib.Tactic.Linarith
import Mathlib.Algebra.Order.Field.Rat
import Verif.Psgd.Model

namespace Ens.Psgd

/-! ### C41: ranges -/

/-- **C41** The ranges of `T` threads are, put together in order, exactly the first `T * share` positions of the
visitation order; so with `T * share ≥ n` every position is visited exactly once. -/
theorem C41_ranges (share n T : Nat) :
    (List.ofFn fun t : Fin T => threadRange share n t).flatten = List.range (min n (T * share)) := by
  induction T with
  | zero => simp
  | succ T ih =>
    rw [List.ofFn_succ', List.concat_eq_append, List.flatten_append]
    have e : (List.ofFn fun t : Fin T => threadRange share n (Fin.castSucc t)).flatten =
        List.range (min n (T * share)) := ih
    rw [e]
    simp only [Fin.val_last, List.flatten_cons, List.flatten_nil, List.append_nil]
    have h1 : (T + 1) * share = T * share + share := Nat.succ_mul T share
    apply List.Perm.eq_of_pairwise (le := (· ≤ ·)) (fun a b _ _ h1 h2 => le_antisymm h1 h2)
    · rw [List.pairwise_append]
      refine ⟨List.pairwise_le_range, List.Pairwise.filter _ List.pairwise_le_range, ?_⟩
      intro a ha b hb
      simp only [threadRange, List.mem_filter, List.mem_range, Bool.and_eq_true, decide_eq_true_eq] at ha hb
      omega
    · exact List.pairwise_le_range
    · rw [List.perm_ext_iff_of_nodup]
      · intro a
        simp only [threadRange, List.mem_append, List.mem_filter, List.mem_range, Bool.and_eq_true, decide_eq_true_eq]
        omega
      · rw [List.nodup_append]
        refine ⟨List.nodup_range, List.Pairwise.filter _ List.nodup_range, ?_⟩
        intro a ha b hb
        simp only [threadRange, List.mem_filter, List.mem_range, Bool.and_eq_true, decide_eq_true_eq] at ha hb
        omega
      · exact List.nodup_range

/-- **C41** With too few threads for the share size the functions past position `T * share` of the order are not
visited in the round. -/
theorem C41_uncovered (share n T : Nat) (j : Nat) (hj : T * share ≤ j) :
    ∀ t : Fin T, j ∉ threadRange share n t := by
  intro t h
  simp only [threadRange, List.mem_filter, List.mem_range, Bool.and_eq_true, decide_eq_true_eq] at h
  have : (t.val + 1) * share ≤ T * share := Nat.mul_le_mul_right _ t.isLt
  omega

example : (List.ofFn fun t : Fin 3 => threadRange 4 10 t) = [[0, 1, 2, 3], [4, 5, 6, 7], [8, 9]] := by decide

/-! ### C42: no update is lost -/

variable {T : Nat} {Idx R : Type} [DecidableEq Idx] [AddCommGroup R]

/-- Total of the entries for coordinate `k`. -/
def total (k : Idx) (g : List (Idx × R)) : R := (g.map fun p => if p.1 = k then p.2 else 0).sum

/-- Sum over all threads of what is pending for coordinate `k`. -/
def pendingTotal (c : Config T Idx R) (k : Idx) : R := (List.ofFn fun t => total k (c.threads t).pending).sum

theorem sum_update {M : Type} [AddCommGroup M] {A : Type} (f : A → M) : ∀ (T : Nat) (g : Fin T → A) (t : Fin T) (a : A),
    (List.ofFn fun i => f (Function.update g t a i)).sum = (List.ofFn fun i => f (g i)).sum - f (g t) + f a := by
  intro T
  induction T with
  | zero => intro g t; exact t.elim0
  | succ n ih =>
    intro g t a
    rw [List.ofFn_succ, List.ofFn_succ, List.sum_cons, List.sum_cons]
    refine Fin.cases ?_ ?_ t
    · have h : (fun i : Fin n => f (Function.update g 0 a i.succ)) = fun i : Fin n => f (g i.succ) := by
        funext i
        rw [Function.update_of_ne (Fin.succ_ne_zero i)]
      rw [h, Function.update_self]; abel
    · intro j
      have h : (fun i : Fin n => f (Function.update g j.succ a i.succ)) =
          fun i : Fin n => f (Function.update (fun i => g i.succ) j a i) := by
        funext i
        by_cases hi : i = j
        · subst hi; rw [Function.update_self, Function.update_self]
        · rw [Function.update_of_ne hi, Function.update_of_ne (fun h => hi (Fin.succ_injective _ h))]
      rw [h, ih (fun i => g i.succ) j a, Function.update_of_ne (Fin.succ_ne_zero j).symm]
      abel

/-- Functions not yet visited plus functions visited. -/
theorem todo_update : ∀ (T : Nat) (g : Fin T → Thread Idx R) (t : Fin T) (j : Nat) (rest : List Nat)
    (p p' : List (Idx × R)), g t = ⟨j :: rest, p⟩ →
    (List.ofFn fun i => (g i).todo).flatten.Perm
      (j :: (List.ofFn fun i => (Function.update g t ⟨rest, p'⟩ i).todo).flatten) := by
  intro T
  induction T with
  | zero => intro g t; exact t.elim0
  | succ n ih =>
    intro g t j rest p p' h
    rw [List.ofFn_succ, List.ofFn_succ, List.flatten_cons, List.flatten_cons]
    revert h
    refine Fin.cases ?_ ?_ t
    · intro h
      have e : (fun i : Fin n => (Function.update g 0 ⟨rest, p'⟩ i.succ).todo) = fun i : Fin n => (g i.succ).todo := by
        funext i
        rw [Function.update_of_ne (Fin.succ_ne_zero i)]
      rw [e, Function.update_self, h]
      exact List.Perm.refl _
    · intro k h
      have e : (fun i : Fin n => (Function.update g k.succ ⟨rest, p'⟩ i.succ).todo) =
          fun i : Fin n => (Function.update (fun i => g i.succ) k ⟨rest, p'⟩ i).todo := by
        funext i
        by_cases hi : i = k
        · subst hi; rw [Function.update_self, Function.update_self]
        · rw [Function.update_of_ne hi, Function.update_of_ne (fun h => hi (Fin.succ_injective _ h))]
      rw [e, Function.update_of_ne (Fin.succ_ne_zero k).symm]
      have := ih (fun i => g i.succ) k j rest p p' h
      exact (List.Perm.append_left _ this).trans List.perm_middle

theorem todo_write : ∀ (g : Fin T → Thread Idx R) (t : Fin T) (todo : List Nat)
    (p p' : List (Idx × R)), g t = ⟨todo, p⟩ →
    (fun i => (Function.update g t ⟨todo, p'⟩ i).todo) = fun i => (g i).todo := by
  intro g t todo p p' h
  funext i
  by_cases hi : i = t
  · subst hi; rw [Function.update_self, h]
  · rw [Function.update_of_ne hi]

structure Inv (x₀ : Idx → R) (todo₀ : List Nat) (allowed : (Idx → R) → Nat → List (Idx × R) → Prop)
    (c : Config T Idx R) : Prop where
  sum : ∀ k, c.x k - pendingTotal c k = x₀ k - (c.log.map fun p => total k p.2).sum
  visit : (c.log.map Prod.fst ++ (List.ofFn fun t => (c.threads t).todo).flatten).Perm todo₀
  read : ∀ p ∈ c.log, ∃ x, allowed x p.1 p.2

theorem inv_step {x₀ : Idx → R} {todo₀ : List Nat} {allowed : (Idx → R) → Nat → List (Idx × R) → Prop}
    {c c' : Config T Idx R} (hi : Inv x₀ todo₀ allowed c) (h : Step allowed c c') : Inv x₀ todo₀ allowed c' := by
  cases h with
  | read t j rest g h hg =>
    refine ⟨?_, ?_, ?_⟩
    · intro k
      have hk := hi.sum k
      simp only [pendingTotal] at hk ⊢
      rw [sum_update (fun th : Thread Idx R => total k th.pending) T c.threads t ⟨rest, g⟩, h]
      simp only [List.map_append, List.map_cons, List.map_nil, List.sum_append, List.sum_cons, List.sum_nil]
      rw [show total k ([] : List (Idx × R)) = 0 from rfl]
      have e : ∀ a b d : R, a - (b - 0 + d) = a - b - d := fun a b d => by abel
      rw [e, hk]
      abel
    · simp only [List.map_append, List.map_cons, List.map_nil, List.append_assoc, List.cons_append, List.nil_append]
      refine List.Perm.trans ?_ hi.visit
      exact List.Perm.append_left _ (todo_update T c.threads t j rest [] g h).symm
    · intro p hp
      rcases List.mem_append.1 hp with hp | hp
      · exact hi.read p hp
      · rw [List.mem_singleton] at hp; subst hp; exact ⟨c.x, hg⟩
  | write t todo k v ps h =>
    refine ⟨?_, ?_, hi.read⟩
    · intro k'
      have hk := hi.sum k'
      simp only [pendingTotal] at hk ⊢
      rw [sum_update (fun th : Thread Idx R => total k' th.pending) T c.threads t ⟨todo, ps⟩, h, ← hk]
      simp only [total, List.map_cons, List.sum_cons]
      by_cases hkk : k' = k
      · subst hkk
        rw [Function.update_self, if_pos rfl]
        abel
      · rw [Function.update_of_ne hkk, if_neg (fun h => hkk h.symm)]
        abel
    · rw [todo_write c.threads t todo _ ps h]
      exact hi.visit

theorem inv_run {x₀ : Idx → R} {todo₀ : List Nat} {allowed : (Idx → R) → Nat → List (Idx × R) → Prop}
    {c c' : Config T Idx R} (hi : Inv x₀ todo₀ allowed c) (h : Run allowed c c') : Inv x₀ todo₀ allowed c' := by
  induction h with
  | refl => exact hi
  | step _ hs ih => exact inv_step ih hs

theorem pending_done (c : Config T Idx R) (h : Done c) (k : Idx) : pendingTotal c k = 0 := by
  unfold pendingTotal
  have : (fun t => total k (c.threads t).pending) = fun _ : Fin T => (0 : R) := by
    funext t; rw [h t]; rfl
  rw [this, List.ofFn_const, List.sum_replicate, nsmul_zero]

theorem todo_done (c : Config T Idx R) (h : Done c) : (List.ofFn fun t => (c.threads t).todo).flatten = [] := by
  have : (fun t => (c.threads t).todo) = fun _ : Fin T => ([] : List Nat) := by funext t; rw [h t]
  rw [this, List.ofFn_const]
  induction T with
  | zero => rfl
  | succ n ih => simp

theorem init_todo (order : List Nat) (share : Nat) (hT : order.length ≤ T * share) (x : Idx → R) :
    (List.ofFn fun t => ((init x order share : Config T Idx R).threads t).todo).flatten = order := by
  have h := C41_ranges share order.length T
  have e : (List.ofFn fun t : Fin T => ((init x order share : Config T Idx R).threads t).todo) =
      (List.ofFn fun t : Fin T => threadRange share order.length t).map (List.filterMap (order[·]?)) := by
    rw [List.map_ofFn]; rfl
  rw [e, ← List.filterMap_flatten, h, min_eq_left hT]
  apply List.ext_getElem?
  have : ∀ (l : List Nat) (n : Nat), n ≤ l.length → (List.range n).filterMap (l[·]?) = l.take n := by
    intro l n
    induction n with
    | zero => simp
    | succ n ih =>
      intro hn
      rw [List.range_succ, List.filterMap_append, ih (by omega), List.take_succ]
      have hlt : n < l.length := by omega
      simp [hlt]
  rw [this order order.length le_rfl, List.take_length]
  intro i; rfl

/-- **C42** No update is lost: in every interleaving of every number of threads, whatever gradients the threads read,
at the end of the round each coordinate equals its initial value minus the sum of everything all threads read for it;
and, with enough threads, the functions read are the visitation order, each exactly once. -/
theorem C42_no_lost_update (allowed : (Idx → R) → Nat → List (Idx × R) → Prop) (order : List Nat) (share : Nat)
    (hT : order.length ≤ T * share) (x₀ : Idx → R) {c : Config T Idx R} (h : Run allowed (init x₀ order share) c)
    (hd : Done c) :
    (∀ k, c.x k = x₀ k - (c.log.map fun p => total k p.2).sum) ∧ (c.log.map Prod.fst).Perm order ∧
    ∀ p ∈ c.log, ∃ x, allowed x p.1 p.2 := by
  have h0 : Inv x₀ order allowed (init x₀ order share : Config T Idx R) := by
    refine ⟨?_, ?_, by simp [init]⟩
    · intro k
      have : pendingTotal (init x₀ order share : Config T Idx R) k = 0 := by
        unfold pendingTotal
        have : (fun t => total k ((init x₀ order share : Config T Idx R).threads t).pending) =
            fun _ : Fin T => (0 : R) := by
          funext t; rfl
        rw [this, List.ofFn_const, List.sum_replicate, nsmul_zero]
      rw [this]
      simp [init]
    · rw [init_todo order share hT x₀]
      simp [init]
  have hi := inv_run h0 h
  refine ⟨?_, ?_, hi.read⟩
  · intro k
    have := hi.sum k
    rwa [pending_done c hd, sub_zero] at this
  · have := hi.visit
    rwa [todo_done c hd, List.append_nil] at this

/-- **C42** If the gradient of function `j` is always `G j`, every schedule ends at the same coordinates. -/
theorem C42_schedule_independent (G : Nat → List (Idx × R)) (order : List Nat) (share : Nat)
    (hT : order.length ≤ T * share) (x₀ : Idx → R) {c : Config T Idx R}
    (h : Run (fun _ j g => g = G j) (init x₀ order share) c) (hd : Done c) (k : Idx) :
    c.x k = x₀ k - (order.map fun j => total k (G j)).sum := by
  obtain ⟨h1, h2, h3⟩ := C42_no_lost_update (fun _ j g => g = G j) order share hT x₀ h hd
  rw [h1 k]
  have e : (c.log.map fun p => total k p.2) = (c.log.map Prod.fst).map fun j => total k (G j) := by
    rw [List.map_map]
    apply List.map_congr_left
    intro p hp
    obtain ⟨x, hx⟩ := h3 p hp
    rw [Function.comp, hx]
  rw [e, (h2.map _).sum_eq]

/-- **C42** No deadlock: as long as some thread is not done and every function has a gradient, some step is possible. -/
theorem C42_progress (allowed : (Idx → R) → Nat → List (Idx × R) → Prop) (hall : ∀ x j, ∃ g, allowed x j g)
    (c : Config T Idx R) (h : ¬ Done c) : ∃ c', Step allowed c c' := by
  unfold Done at h
  rw [not_forall] at h
  obtain ⟨t, ht⟩ := h
  rcases hth : c.threads t with ⟨todo, pending⟩
  cases pending with
  | cons p ps => exact ⟨_, Step.write c t todo p.1 p.2 ps hth⟩
  | nil =>
    cases todo with
    | nil => exact absurd hth ht
    | cons j rest =>
      obtain ⟨g, hg⟩ := hall c.x j
      exact ⟨_, Step.read c t j rest g hth hg⟩

/-- Non-vacuity: two threads with one function each, interleaved writes to the same coordinate. -/
example : ∃ c : Config 2 Nat Int, Run (fun _ j g => g = [(0, (j : Int) + 1)]) (init (fun _ => 10) [0, 1] 1) c ∧ Done c ∧
    c.x 0 = 7 := by
  let G : (Nat → Int) → Nat → List (Nat × Int) → Prop := fun _ j g => g = [(0, (j : Int) + 1)]
  let c0 : Config 2 Nat Int := init (fun _ => 10) [0, 1] 1
  let c1 : Config 2 Nat Int :=
    { c0 with threads := Function.update c0.threads 0 ⟨[], [(0, 1)]⟩, log := c0.log ++ [(0, [(0, 1)])] }
  let c2 : Config 2 Nat Int :=
    { c1 with threads := Function.update c1.threads 1 ⟨[], [(0, 2)]⟩, log := c1.log ++ [(1, [(0, 2)])] }
  let c3 : Config 2 Nat Int :=
    { c2 with x := Function.update c2.x 0 (c2.x 0 - 2), threads := Function.update c2.threads 1 ⟨[], []⟩ }
  let c4 : Config 2 Nat Int :=
    { c3 with x := Function.update c3.x 0 (c3.x 0 - 1), threads := Function.update c3.threads 0 ⟨[], []⟩ }
  have r1 : Step G c0 c1 := Step.read c0 0 0 [] [(0, 1)] rfl rfl
  have r2 : Step G c1 c2 := Step.read c1 1 1 [] [(0, 2)] rfl rfl
  have r3 : Step G c2 c3 := Step.write c2 1 [] 0 2 [] rfl
  have r4 : Step G c3 c4 := Step.write c3 0 [] 0 1 [] rfl
  refine ⟨c4, ((((Run.refl c0).step r1).step r2).step r3).step r4, ?_, rfl⟩
  intro t
  match t with
  | 0 => rfl
  | 1 => rfl

/-! ### C104: the outer loop -/

section Outer

variable {W X E D : Type}

structure OInv (env : Env W X E D) (s : St W X E D) : Prop where
  cnt : s.i = s.rounds + 1
  bound : 1 ≤ env.maxIterations → s.i ≤ env.maxIterations

/-- **C104** (partial) If `maxIterations ≥ 1`, at most `maxIterations - 1` rounds are made. If the run ends because the
objective is within tolerance (or not finite) the returned value is the objective of the returned coordinates; if it
ends at the limit exactly `maxIterations - 1` rounds were made unless a callback asked to stop. -/
theorem C104_rounds_partial (env : Env W X E D) {F : X → E} (hF : ∀ w x, (env.eval w x).2 = F x)
    (hend : ∀ w x, (env.cbEnd w x).2 = x) (d : D) (fuel : Nat) (w : W) (x : X) {e : Exit} {s : St W X E D}
    (h : optimize env d fuel w x = some (e, s)) :
    (1 ≤ env.maxIterations → s.rounds + 1 ≤ env.maxIterations) ∧ (e ≠ .loop → s.obj = F s.x) ∧
    (e = .loop → s.terminate = false → s.rounds + 1 = env.maxIterations) := by
  unfold optimize at h
  simp only [Option.map_eq_some_iff] at h
  obtain ⟨r, hr, h⟩ := h
  simp only [Prod.mk.injEq] at h
  obtain ⟨rfl, rfl⟩ := h
  have hp := iterate_inv (OInv env) (fun r : Exit × St W X E D =>
      (1 ≤ env.maxIterations → r.2.rounds + 1 ≤ env.maxIterations) ∧ (r.1 ≠ .loop → r.2.obj = F r.2.x) ∧
      (r.1 = .loop → r.2.terminate = false → r.2.rounds + 1 = env.maxIterations)) ?_ ?_ fuel _ _ ?_ hr
  · exact ⟨hp.1, fun h => by rw [hend]; exact hp.2.1 h, hp.2.2⟩
  · intro s s' hi h
    unfold body at h
    split at h
    · cases h
    · rename_i hc
      simp only [not_or] at hc
      simp only at h
      split at h
      · cases h
      · split at h
        · cases h
        · cases h
          exact ⟨by simp [hi.cnt], fun hm => by have := hi.bound hm; dsimp only; omega⟩
  · intro s r hi h
    have hb : 1 ≤ env.maxIterations → s.rounds + 1 ≤ env.maxIterations := fun hm => hi.cnt ▸ hi.bound hm
    unfold body at h
    split at h
    · rename_i hc
      cases h
      refine ⟨hb, fun h => absurd rfl h, fun _ ht => ?_⟩
      rcases hc with hc | hc
      · rw [← hi.cnt]; exact hc
      · rw [ht] at hc; cases hc
    · simp only at h
      split at h
      · cases h
        exact ⟨hb, fun _ => hF _ _, fun h => by cases h⟩
      · split at h
        · cases h
          exact ⟨hb, fun _ => hF _ _, fun h => by cases h⟩
        · cases h
  · exact ⟨rfl, fun h => h⟩

/-- Serial rounds of `x := x - step * 2 x` on the objective `x^2`, no callbacks. -/
def squareEnv (maxIterations : Nat) : Env Unit ℚ ℚ Unit where
  eval := fun w x => (w, x ^ 2)
  cbEval := fun w _ _ => (w, false)
  cbBegin := fun w x => (w, x)
  cbEnd := fun w x => (w, x)
  stepSize := fun d _ => (d, 1 / 4)
  round := fun w x t => (w, x - t * (2 * x), false)
  isBad := fun _ => false
  near := fun a b => decide (|a - b| < 1 / 10 ^ 5)
  maxVal := 10 ^ 308
  maxIterations := maxIterations

/-- **C104** (refuted) "`maxIterations` bounds the iterations and the objective at the final point is returned": with
limit 1 nothing is done and the largest number is returned; with limit 2 one round is made and the objective of the
starting point is returned. -/
theorem C104_value_refuted :
    ((optimize (squareEnv 1) () 10 () 1).map fun r => (r.2.rounds, r.2.x, r.2.obj)) = some (0, 1, 10 ^ 308) ∧
    ((optimize (squareEnv 2) () 10 () 1).map fun r => (r.2.rounds, r.2.x, r.2.obj)) = some (1, 1 / 2, 1) ∧
    ¬ ∀ (m fuel : Nat) (x : ℚ) (e : Exit) (s : St Unit ℚ ℚ Unit),
      optimize (squareEnv m) () fuel () x = some (e, s) → s.obj = s.x ^ 2 := by
  have h2 : ((optimize (squareEnv 2) () 10 () 1).map fun r => (r.2.rounds, r.2.x, r.2.obj)) = some (1, 1 / 2, 1) := by
    decide +kernel
  refine ⟨by decide +kernel, h2, ?_⟩
  intro h
  rw [Option.map_eq_some_iff] at h2
  obtain ⟨⟨e, s⟩, hs, hv⟩ := h2
  have := h 2 10 1 e s hs
  simp only [Prod.mk.injEq] at hv
  rw [hv.2.1, hv.2.2] at this
  norm_num at this

/-- Non-vacuity of `C104_rounds_partial`: a run that converges. -/
example : ((optimize (squareEnv 0) () 30 () 1).map fun r => r.1) = some .near := by decide +kernel

end Outer

end Ens.Psgd
