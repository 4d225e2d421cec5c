import Mathlib.Tactic.SplitIfs
import Verif.Psgd.Props

/-
C165: ParallelSGD as a textbook iteration with its exact stopping rule.
-/

namespace Ens.Psgd

variable {W X E D : Type}

/-- After some rounds: world, coordinates, step size policy, and whether a callback of the last round asked to stop. -/
structure TB (W X D : Type) where
  w : W
  x : X
  d : D
  stop : Bool

/-- The state after `j` rounds: round `j` evaluates the objective, then asks the policy once, with the number of the round,
for the step size used in the parallel region. -/
def tb (env : Env W X E D) (d : D) (w : W) (x : X) : Nat → TB W X D
  | 0 => ⟨(env.cbBegin w x).1, (env.cbBegin w x).2, d, false⟩
  | j + 1 =>
    let t := tb env d w x j
    let c := env.cbEval (env.eval t.w t.x).1 t.x (env.eval t.w t.x).2
    let q := env.round c.1 t.x (env.stepSize t.d (j + 1)).2
    ⟨q.1, q.2.1, (env.stepSize t.d (j + 1)).1, c.2 || q.2.2⟩

/-- The objective before round `j + 1`, and the one compared with it. -/
def obj (env : Env W X E D) (d : D) (w : W) (x : X) (j : Nat) : E :=
  (env.eval (tb env d w x j).w (tb env d w x j).x).2

def last (env : Env W X E D) (d : D) (w : W) (x : X) : Nat → E
  | 0 => env.maxVal
  | j + 1 => obj env d w x j

/-- The run goes on to round `j + 1`. -/
def GoesOn (env : Env W X E D) (d : D) (w : W) (x : X) (j : Nat) : Prop :=
  j + 1 ≠ env.maxIterations ∧ (tb env d w x j).stop = false ∧ env.isBad (obj env d w x j) = false ∧
  env.near (last env d w x j) (obj env d w x j) = false

/-- **C165** Every run of ParallelSGD is the textbook iteration up to the first `k` at which it may not go on, and the exit
taken names the reason: the limit or a stop request, an objective that is not finite, or two successive objectives within
tolerance.  In particular the policy is asked exactly once per round, with the numbers 1, 2, .... -/
theorem C165_psgd_is_textbook (env : Env W X E D) (d : D) (fuel : Nat) (w : W) (x : X) {e : Exit} {s : St W X E D}
    (h : optimize env d fuel w x = some (e, s)) :
    ∃ k, s.rounds = k ∧ s.d = (tb env d w x k).d ∧ (∃ w', s.x = (env.cbEnd w' (tb env d w x k).x).2) ∧
      (∀ j < k, GoesOn env d w x j) ∧
      (e = .loop → (k + 1 = env.maxIterations ∨ (tb env d w x k).stop = true) ∧ s.obj = last env d w x k) ∧
      (e = .bad → env.isBad (obj env d w x k) = true ∧ s.obj = obj env d w x k) ∧
      (e = .near → env.isBad (obj env d w x k) = false ∧ env.near (last env d w x k) (obj env d w x k) = true ∧
        s.obj = obj env d w x k) := by
  unfold optimize at h
  simp only [Option.map_eq_some_iff] at h
  obtain ⟨⟨e', s'⟩, hr, h⟩ := h
  cases h
  suffices hs : ∃ k, s'.rounds = k ∧ s'.d = (tb env d w x k).d ∧ s'.x = (tb env d w x k).x ∧
      (∀ j < k, GoesOn env d w x j) ∧
      (e' = .loop → (k + 1 = env.maxIterations ∨ (tb env d w x k).stop = true) ∧ s'.obj = last env d w x k) ∧
      (e' = .bad → env.isBad (obj env d w x k) = true ∧ s'.obj = obj env d w x k) ∧
      (e' = .near → env.isBad (obj env d w x k) = false ∧ env.near (last env d w x k) (obj env d w x k) = true ∧
        s'.obj = obj env d w x k) by
    obtain ⟨k, h1, h2, h3, h4⟩ := hs
    exact ⟨k, h1, h2, ⟨s'.w, by simp only [h3]⟩, h4⟩
  refine iterate_inv
    (fun s => s.w = (tb env d w x s.rounds).w ∧ s.d = (tb env d w x s.rounds).d ∧ s.x = (tb env d w x s.rounds).x ∧
      s.i = s.rounds + 1 ∧ s.obj = last env d w x s.rounds ∧ s.terminate = (tb env d w x s.rounds).stop ∧
      ∀ j < s.rounds, GoesOn env d w x j)
    (fun r : Exit × St W X E D => ∃ k, r.2.rounds = k ∧ r.2.d = (tb env d w x k).d ∧ r.2.x = (tb env d w x k).x ∧
      (∀ j < k, GoesOn env d w x j) ∧
      (r.1 = .loop → (k + 1 = env.maxIterations ∨ (tb env d w x k).stop = true) ∧ r.2.obj = last env d w x k) ∧
      (r.1 = .bad → env.isBad (obj env d w x k) = true ∧ r.2.obj = obj env d w x k) ∧
      (r.1 = .near → env.isBad (obj env d w x k) = false ∧ env.near (last env d w x k) (obj env d w x k) = true ∧
        r.2.obj = obj env d w x k)) ?_ ?_ fuel _ (e', s') ?_ hr
  · intro s s1 ⟨h1, h2, h3, h4, h5, h6, h7⟩ h
    unfold body at h
    simp only [not_or] at h
    split_ifs at h with c1 c2 c3
    cases h
    rw [not_or] at c1
    have hgo : GoesOn env d w x s.rounds := by
      refine ⟨by rw [← h4]; exact c1.1, by rw [← h6]; simpa using c1.2, ?_, ?_⟩
      · rw [obj, ← h1, ← h3]; simpa using c2
      · rw [obj, ← h1, ← h3, ← h5]; simpa using c3
    have ht : s.terminate = false := by simpa using c1.2
    refine ⟨?_, ?_, ?_, ?_, ?_, ?_, ?_⟩
    · simp only [tb, ← h1, ← h2, ← h3, h4]
    · simp only [tb, ← h2, h4]
    · simp only [tb, ← h1, ← h2, ← h3, h4]
    · simp only [h4]
    · simp only [last, obj, ← h1, ← h3]
    · simp only [tb, ← h1, ← h2, ← h3, h4, ht, Bool.false_or]
    · intro j hj
      simp only at hj
      rcases Nat.lt_succ_iff_lt_or_eq.1 hj with hj | rfl
      · exact h7 j hj
      · exact hgo
  · intro s r ⟨h1, h2, h3, h4, h5, h6, h7⟩ h
    unfold body at h
    simp only at h
    split_ifs at h with c1 c2 c3
    · cases h
      refine ⟨s.rounds, rfl, h2, h3, h7, fun _ => ⟨?_, h5⟩, (fun h => by cases h), (fun h => by cases h)⟩
      rw [← h4, ← h6]; exact c1
    · cases h
      refine ⟨s.rounds, rfl, h2, h3, h7, (fun h => by cases h), fun _ => ?_, (fun h => by cases h)⟩
      rw [obj, ← h1, ← h3]; exact ⟨c2, rfl⟩
    · cases h
      refine ⟨s.rounds, rfl, h2, h3, h7, (fun h => by cases h), (fun h => by cases h), fun _ => ?_⟩
      rw [obj, ← h1, ← h3, ← h5]; exact ⟨by simpa using c2, c3, rfl⟩
  · exact ⟨rfl, rfl, rfl, rfl, rfl, rfl, fun j hj => absurd hj (Nat.not_lt_zero _)⟩

/-- Non-vacuity: a policy that counts the calls; four rounds are made with the steps 1, 2, 3, 4. -/
example : ((optimize (E := Nat) (D := List Nat) (X := List Nat)
    { eval := fun w x => (w, x.length), cbEval := fun w _ _ => (w, false), cbBegin := fun w x => (w, x),
      cbEnd := fun w x => (w, x), stepSize := fun d i => (d ++ [i], i), round := fun w x a => (w, x ++ [a], false),
      isBad := fun _ => false, near := fun _ _ => false, maxVal := 99, maxIterations := 5 } [] 10 () []).map
    fun r => (r.2.rounds, r.2.x, r.2.d)) = some (4, [1, 2, 3, 4], [1, 2, 3, 4]) := by decide +kernel

end Ens.Psgd
