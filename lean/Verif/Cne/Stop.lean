import Verif.Stop
import Verif.Cne.Props

/-
C157, C161: the notifications of a CNE run.
-/

namespace Ens.Cne

variable {W X E : Type}

def isStop : Ev X E → Bool
  | .step _ _ b => b
  | .eval _ _ b => b
  | _ => false

/-- `Heard env pop fit evs`: `evs` notifies every candidate of `pop` in order, evaluates what the callback left of
it, and `fit` lists the values obtained. -/
inductive Heard (env : Env W X E) : List (List X) → List E → List (Ev X E) → Prop
  | nil : Heard env [] [] []
  | cons {g pop fit evs} (w w' w'' : W) (h : Heard env pop fit evs) :
      Heard env (g :: pop) ((env.evaluate w' (env.cbStep w g).2.1).2 :: fit)
        (.step g (env.cbStep w g).2.1 (env.cbStep w g).2.2 ::
         .eval (env.cbStep w g).2.1 (env.evaluate w' (env.cbStep w g).2.1).2
          (env.cbEvaluate w'' (env.cbStep w g).2.1 (env.evaluate w' (env.cbStep w g).2.1).2).2 :: evs)

theorem evalLoop_heard (env : Env W X E) : ∀ (pop : List (List X)) (w : W),
    Heard env pop (evalLoop env pop w).2.1 (evalLoop env pop w).2.2.2 ∧
    (evalLoop env pop w).2.2.1 = (evalLoop env pop w).2.2.2.any isStop := by
  intro pop
  induction pop with
  | nil => intro w; exact ⟨.nil, rfl⟩
  | cons g pop ih =>
    intro w
    refine ⟨.cons _ _ _ (ih _).1, ?_⟩
    simp only [evalLoop, (ih _).2]
    simp [isStop, Bool.or_assoc]

/-- One generation of the trace. -/
def Block (env : Env W X E) (b : List (Ev X E)) : Prop :=
  ∃ pop fit evs, Heard env pop fit evs ∧ b = evs ++ [.gen pop fit]

/-- The generations before the last saw no stop request. -/
def Quiet (bs : List (List (Ev X E))) : Prop := ∀ b ∈ bs.dropLast, b.any isStop = false

structure Shape (env : Env W X E) (n : Nat) (s : St W X E) : Prop where
  ex : ∃ x f c bs, s.trace = Ev.eval x f c :: bs.flatten ∧ (∀ b ∈ bs, Block env b) ∧ Quiet bs ∧
    bs.length ≤ n ∧ (c = true → bs = []) ∧ s.terminate = s.trace.any isStop

theorem genLoop_shape {env : Env W X E} {n e : Nat} : ∀ (rem k : Nat) (s s' : St W X E), Shape env k s →
    genLoop env n e rem s = .ok s' → Shape env (k + rem) s' := by
  intro rem
  induction rem with
  | zero => intro k s s' h hr; cases hr; exact h
  | succ rem ih =>
    intro k s s' h hr
    rw [genLoop] at hr
    by_cases ht : s.terminate = true
    · rw [if_pos ht] at hr
      cases hr
      obtain ⟨x, f, c, bs, h1, h2, h3, h4, h5⟩ := h.ex
      exact ⟨x, f, c, bs, h1, h2, h3, by omega, h5⟩
    · rw [if_neg ht] at hr
      have hv := evalLoop_heard env s.pop s.w
      generalize evalLoop env s.pop s.w = v at hr hv
      simp only at hr
      split at hr
      · cases hr
      · split at hr
        · cases hr
        · rename_i index _ _ w' pop' _
          obtain ⟨x, f, c, bs, h1, h2, h3, h4, h5, h6⟩ := h.ex
          have h0 : s.trace.any isStop = false := by rw [← h6]; simpa using ht
          have hc : c = false := by
            rw [h1, List.any_cons, Bool.or_eq_false_iff] at h0; exact h0.1
          have hbs : ∀ b ∈ bs, b.any isStop = false := by
            intro b hb
            rw [h1, List.any_cons, Bool.or_eq_false_iff, List.any_eq_false] at h0
            rw [List.any_eq_false]
            exact fun y hy => h0.2 y (List.mem_flatten.2 ⟨b, hb, hy⟩)
          have hs1 : ∀ l : E, Shape env (k + 1) (⟨w', pop', index, l, s.terminate || v.2.2.1,
              s.trace ++ v.2.2.2 ++ [.gen s.pop v.2.1]⟩ : St W X E) := by
            intro l
            refine ⟨x, f, c, bs ++ [v.2.2.2 ++ [.gen s.pop v.2.1]], ?_, ?_, ?_, ?_, ?_, ?_⟩
            · simp [h1]
            · intro b hb
              rcases List.mem_append.1 hb with hb | hb
              · exact h2 b hb
              · exact ⟨_, _, _, hv.1, List.mem_singleton.1 hb⟩
            · intro b hb
              rw [List.dropLast_concat] at hb
              exact hbs b hb
            · simp; exact h4
            · intro hct; rw [hc] at hct; cases hct
            · simp only [h6, hv.2, List.any_append]; simp [isStop]
          split_ifs at hr
          · cases hr
            obtain ⟨x, f, c, bs, h1, h2, h3, h4, h5⟩ := (hs1 s.last).ex
            exact ⟨x, f, c, bs, h1, h2, h3, by omega, h5⟩
          · have := ih (k + 1) _ _ (hs1 (env.min v.2.1)) hr
            rwa [show k + 1 + rem = k + (rem + 1) by omega] at this

/-- **C157, C161** Every run of CNE that returns consists of the evaluation of the starting point, at most
`maxGenerations` generations, and the evaluation of the result.  In each generation every candidate is announced with
`StepTaken` and what the callback leaves is evaluated; that value is its fitness.  Only the last generation sees a stop
request, and no generation follows one made with the starting point. -/
theorem C161_cne_run {env : Env W X E} {n elite0 maxGen : Nat} {w : W} {x : List X} {r : Result X E}
    (h : optimize env n elite0 maxGen w x = .ok r) :
    ∃ x₀ f₀ c₀ bs c₁, r.trace = Ev.eval x₀ f₀ c₀ :: bs.flatten ++ [.eval r.x r.obj c₁, .endOpt r.x] ∧
      bs.length ≤ maxGen ∧ (∀ b ∈ bs, Block env b) ∧ (∀ b ∈ bs.dropLast, b.any isStop = false) ∧
      (c₀ = true → bs = []) := by
  unfold optimize at h
  split at h
  · cases h
  · split at h
    · cases h
    · rename_i e _ _ s hg
      have h0 : Shape env 0 (start env n w x) :=
        ⟨_, _, _, [], rfl, by simp, by simp [Quiet], by simp, fun _ => rfl, by simp [start, isStop]⟩
      obtain ⟨x₀, f₀, c₀, bs, h1, h2, h3, h4, h5, _⟩ := (genLoop_shape _ _ _ _ h0 hg).ex
      split at h
      · cases h
      · cases h
        exact ⟨x₀, f₀, c₀, bs, _, by rw [h1], by omega, h2, h3, h5⟩

/-- Number of generations evaluated. -/
def genCount (t : List (Ev X E)) : Nat := (gens t).length

theorem genCount_append (a b : List (Ev X E)) : genCount (a ++ b) = genCount a + genCount b := by simp [genCount]

theorem heard_gens {env : Env W X E} {pop : List (List X)} {fit : List E} {evs : List (Ev X E)}
    (h : Heard env pop fit evs) : gens evs = [] := by
  induction h with
  | nil => rfl
  | cons w w' w'' h ih => exact ih

theorem genCount_behind_le (t : List (Ev X E)) : genCount (behind isStop t) ≤ genCount t := by
  induction t with
  | nil => exact Nat.le_refl _
  | cons a t ih =>
    have : genCount t ≤ genCount (a :: t) := by
      rw [show a :: t = [a] ++ t from rfl, genCount_append]; omega
    rw [behind]
    split_ifs
    · exact this
    · exact Nat.le_trans ih this

/-- **C157** CNE: after a stop request at most the current generation is completed. -/
theorem C157_cne_stop {env : Env W X E} {n elite0 maxGen : Nat} {w : W} {x : List X} {r : Result X E}
    (h : optimize env n elite0 maxGen w x = .ok r) : genCount (behind isStop r.trace) ≤ 1 := by
  obtain ⟨x₀, f₀, c₀, bs, c₁, h1, _, h2, h3, h4⟩ := C161_cne_run h
  rw [h1]
  rcases List.eq_nil_or_concat bs with rfl | ⟨bs', b, rfl⟩
  · refine (genCount_behind_le _).trans ?_
    simp [genCount, gens]
  · rw [List.concat_eq_append] at *
    have hc : c₀ = false := by
      cases c₀
      · rfl
      · have := h4 rfl; simp at this
    have hq : (Ev.eval x₀ f₀ c₀ :: bs'.flatten).any isStop = false := by
      rw [List.any_cons, Bool.or_eq_false_iff]
      refine ⟨hc, ?_⟩
      rw [List.any_eq_false]
      intro y hy
      obtain ⟨b', hb', hy⟩ := List.mem_flatten.1 hy
      have := h3 b' (by rwa [List.dropLast_concat])
      rw [List.any_eq_false] at this
      exact this y hy
    rw [show Ev.eval x₀ f₀ c₀ :: (bs' ++ [b]).flatten ++ [Ev.eval r.x r.obj c₁, .endOpt r.x] =
      (Ev.eval x₀ f₀ c₀ :: bs'.flatten) ++ (b ++ [Ev.eval r.x r.obj c₁, .endOpt r.x]) by simp, behind_of_none hq]
    refine (genCount_behind_le _).trans ?_
    obtain ⟨pop, fit, evs, hh, rfl⟩ := h2 b (by simp)
    have := heard_gens hh
    rw [genCount_append, genCount_append]
    simp only [genCount, this]
    simp [gens]

/-- Non-vacuity: a callback that stops at the second candidate of the first generation and changes the third (whose
fitness is that of the changed candidate). -/
example : ∃ r, optimize { demo false with
      cbStep := fun w x => (w, if x = [7] then [8] else x, x == [6]) } 4 2 9 0 [5] = .ok r ∧
    genCount r.trace = 1 ∧ (gens r.trace).map (·.2) = [[5, 6, 8, 8]] ∧
    genCount (behind isStop r.trace) = 1 := ⟨_, rfl, rfl, rfl, rfl⟩

end Ens.Cne
