import Verif.Iqn.Props

/-
C166: the stopping rule of IQN.
-/

namespace Ens.Iqn

open Ens.Vr

variable {W E K V H : Type} [Field K] [AddCommGroup V] [Module K V] [AddCommGroup H] [Module K H]

/-- State after `j` passes (each over all batches, followed by an evaluation of the objective), with that objective. -/
def tb (u : User W V V E) (h : Hess K V H) (p : Params K V H E) (w : W) (r x : V) : Nat → Tab W V H × E
  | 0 => ((start u h p w r x).a, u.zero)
  | j + 1 =>
    let a := (order (numBatches u.n p.batchSize)).foldl (visit u h p) (tb u h p w r x j).1
    ({ a with s := (evalAll u p.batchSize a.s a.x).1 }, p.divE (evalAll u p.batchSize a.s a.x).2 u.n)

/-- A further pass is made after pass `j`. -/
def GoesOn (u : User W V V E) (h : Hess K V H) (p : Params K V H E) (w : W) (r x : V) (j : Nat) : Prop :=
  j + 1 ≠ p.maxIterations ∧ (tb u h p w r x j).1.s.term = false ∧
  (j ≠ 0 → u.isBad (tb u h p w r x j).2 = false ∧ p.small (tb u h p w r x j).2 = false)

/-- **C166** Every run of IQN is the iteration of full passes up to the first `k` after which it may not go on, and the exit
taken names the reason: the limit or a stop request, an objective that is not finite, or one below the tolerance; the value
returned is the objective after the last pass. -/
theorem C166_iqn_stopping {u : User W V V E} (h : Hess K V H) {p : Params K V H E} (hn : 0 < u.n) (hb : 0 < p.batchSize)
    {fuel : Nat} {w : W} {r x : V} {e : Exit} {t : St W V H E} (hr : optimize u h p fuel w r x = some (.ret e t)) :
    ∃ k, (∀ j < k, GoesOn u h p w r x j) ∧ t.overall = (tb u h p w r x k).2 ∧
      (∃ w', t.a.x = (u.cbEnd w' (tb u h p w r x k).1.x).2) ∧
      (e = .loop → k + 1 = p.maxIterations ∨ (tb u h p w r x k).1.s.term = true) ∧
      (e = .bad → k ≠ 0 ∧ u.isBad (tb u h p w r x k).2 = true) ∧
      (e = .small → k ≠ 0 ∧ u.isBad (tb u h p w r x k).2 = false ∧ p.small (tb u h p w r x k).2 = true) := by
  unfold optimize at hr
  rw [Option.map_eq_some_iff] at hr
  obtain ⟨q, hi, hq⟩ := hr
  cases q with
  | stuck => cases hq
  | ret e' s =>
    cases hq
    suffices hs : ∀ e₁ t, Res.ret e s = .ret e₁ t → ∃ k, (∀ j < k, GoesOn u h p w r x j) ∧
        t.overall = (tb u h p w r x k).2 ∧ t.a = (tb u h p w r x k).1 ∧
        (e₁ = .loop → k + 1 = p.maxIterations ∨ (tb u h p w r x k).1.s.term = true) ∧
        (e₁ = .bad → k ≠ 0 ∧ u.isBad (tb u h p w r x k).2 = true) ∧
        (e₁ = .small → k ≠ 0 ∧ u.isBad (tb u h p w r x k).2 = false ∧ p.small (tb u h p w r x k).2 = true) by
      obtain ⟨k, h1, h2, h3, h4⟩ := hs e s rfl
      exact ⟨k, h1, h2, ⟨s.a.s.w, by rw [← h3]; rfl⟩, h4⟩
    refine iterate_inv
      (fun s => ∃ k, s.i = k + 1 ∧ s.a = (tb u h p w r x k).1 ∧ s.overall = (tb u h p w r x k).2 ∧
        (k ≠ 0 → u.isBad (tb u h p w r x k).2 = false ∧ p.small (tb u h p w r x k).2 = false) ∧
        ∀ j < k, GoesOn u h p w r x j)
      (fun q => ∀ e t, q = .ret e t → ∃ k, (∀ j < k, GoesOn u h p w r x j) ∧
        t.overall = (tb u h p w r x k).2 ∧ t.a = (tb u h p w r x k).1 ∧
        (e = .loop → k + 1 = p.maxIterations ∨ (tb u h p w r x k).1.s.term = true) ∧
        (e = .bad → k ≠ 0 ∧ u.isBad (tb u h p w r x k).2 = true) ∧
        (e = .small → k ≠ 0 ∧ u.isBad (tb u h p w r x k).2 = false ∧ p.small (tb u h p w r x k).2 = true))
      ?_ ?_ fuel _ _ ⟨0, rfl, rfl, rfl, fun h => absurd rfl h, fun j hj => absurd hj (Nat.not_lt_zero _)⟩ hi
    · intro s s' ⟨k, h1, h2, h3, h4, h5⟩ hbd
      unfold body at hbd
      split_ifs at hbd with c
      simp only [pass_eq h hn hb] at hbd
      split_ifs at hbd with c2 c3
      cases hbd
      have e1 : (order (numBatches u.n p.batchSize)).foldl (visit u h p) s.a =
        (order (numBatches u.n p.batchSize)).foldl (visit u h p) (tb u h p w r x k).1 := by rw [h2]
      refine ⟨k + 1, by simp only [h1], ?_, ?_, ?_, ?_⟩
      · simp only [tb, e1]
      · simp only [tb, e1]
      · intro _
        simp only [e1] at c2 c3
        exact ⟨by simpa [tb] using c2, by simpa [tb] using c3⟩
      · intro j hj
        rcases Nat.lt_succ_iff_lt_or_eq.1 hj with hj | rfl
        · exact h5 j hj
        · exact ⟨by rw [← h1]; exact c.1, by rw [← h2]; exact c.2, h4⟩
    · intro s q ⟨k, h1, h2, h3, h4, h5⟩ hbd e t hq
      subst hq
      unfold body at hbd
      split_ifs at hbd with c
      · simp only [pass_eq h hn hb] at hbd
        have e1 : (order (numBatches u.n p.batchSize)).foldl (visit u h p) s.a =
          (order (numBatches u.n p.batchSize)).foldl (visit u h p) (tb u h p w r x k).1 := by rw [h2]
        have h6 : ∀ j < k + 1, GoesOn u h p w r x j := by
          intro j hj
          rcases Nat.lt_succ_iff_lt_or_eq.1 hj with hj | rfl
          · exact h5 j hj
          · exact ⟨by rw [← h1]; exact c.1, by rw [← h2]; exact c.2, h4⟩
        simp only [e1] at hbd
        split_ifs at hbd with c2 c3
        · cases hbd
          exact ⟨k + 1, h6, rfl, rfl, (fun h => by cases h), fun _ => ⟨by omega, c2⟩, (fun h => by cases h)⟩
        · cases hbd
          exact ⟨k + 1, h6, rfl, rfl, (fun h => by cases h), (fun h => by cases h),
            fun _ => ⟨by omega, Bool.eq_false_iff.2 c2, c3⟩⟩
      · cases hbd
        refine ⟨k, h5, h3, h2, fun _ => ?_, (fun h => by cases h), (fun h => by cases h)⟩
        rw [← h1, ← h2]
        by_cases hi : s.i = p.maxIterations
        · exact .inl hi
        · right
          by_contra hc
          exact c ⟨hi, by simpa using hc⟩

/-- Non-vacuity: three passes over four functions in two batches, then the objective is taken for not finite. -/
example : (match optimize { user1 4 false with isBad := fun e => decide (e < 1 / 1000) } hess1 (params1 2 50) 50 () 0 2 with
    | some (.ret e t) => some (decide (e = .bad), t.i)
    | _ => none) = some (true, 3) := by decide +kernel

end Ens.Iqn
