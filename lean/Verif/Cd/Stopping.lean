import Verif.Cd.Props

/-
C167: when coordinate descent evaluates the objective, and the stopping rule on these values.
-/

namespace Ens.Cd

variable {W C E : Type}

def Ev.value? : Ev C E → Option E
  | .evaluate _ o => some o
  | _ => none

/-- The objective values computed in a trace, in order. -/
def values (t : List (Ev C E)) : List E := t.filterMap Ev.value?

@[simp] theorem values_append (a b : List (Ev C E)) : values (a ++ b) = values a ++ values b := by
  simp [values]

/-- The stopping tests let each of these values pass: none is NaN or infinite, and each differs from
the one before it (the first from `p`) by at least the tolerance. -/
def Passes (env : Env W C E) : E → List E → Prop
  | _, [] => True
  | p, v :: vs => env.isBad v = false ∧ env.isClose p v = false ∧ Passes env v vs

theorem passes_snoc {env : Env W C E} : ∀ {p : E} {vs : List E} {v : E}, Passes env p vs →
    env.isBad v = false → env.isClose (vs.getLast?.getD p) v = false → Passes env p (vs ++ [v])
  | _, [], _, _, h1, h2 => ⟨h1, h2, trivial⟩
  | p, a :: vs, v, h, h1, h2 => by
    refine ⟨h.1, h.2.1, passes_snoc h.2.2 h1 ?_⟩
    rw [List.getLast?_cons] at h2
    exact h2

/-- State of the stopping test between two passes. -/
structure TInv (env : Env W C E) (m u : Nat) (s : St W C E) : Prop where
  cnt : s.i = (1 + steps s.trace) % 2 ^ 64
  bound : steps s.trace ≤ limit m
  pass : Passes env env.maxVal (values s.trace)
  last : s.last = (values s.trace).getLast?.getD env.maxVal
  num : u ≠ 0 → (values s.trace).length = steps s.trace / u

/-- What the exits mean. -/
def TPost (env : Env W C E) (u : Nat) : Outcome W C E → Prop
  | .returned r => ∃ vs, values r.trace = vs ++ [r.obj] ∧ Passes env env.maxVal vs ∧
      match r.exit with
      | .bad => env.isBad r.obj = true ∧ (values r.trace).length = steps r.trace / u ∧
          u ∣ steps r.trace
      | .tol => env.isBad r.obj = false ∧ env.isClose (vs.getLast?.getD env.maxVal) r.obj = true ∧
          (values r.trace).length = steps r.trace / u ∧ u ∣ steps r.trace
      | .loop => u ≠ 0 → vs.length = steps r.trace / u
  | _ => True

theorem afterLoop_tpost {env : Env W C E} {m u : Nat} {s : St W C E} (h : TInv env m u s) :
    TPost env u (afterLoop env s) := by
  refine ⟨values s.trace, ?_, h.pass, fun hu => ?_⟩
  · simp [afterLoop, values, Ev.value?]
  · have := h.num hu
    rw [this]
    simp [afterLoop, finish, steps, Ev.isStep]

theorem step_tok {env : Env W C E} {m u : Nat} (hm : m < 2 ^ 64) (s : St W C E) (h : TInv env m u s) :
    (∀ s', step env m u s = .inl s' → TInv env m u s') ∧
    (∀ r, step env m u s = .inr r → TPost env u r) := by
  unfold step
  by_cases hc : s.i = m ∨ s.terminate = true
  · rw [if_pos hc]
    refine ⟨by simp, ?_⟩
    rintro r hr; cases hr
    exact afterLoop_tpost h
  · rw [if_neg hc]
    rw [not_or] at hc
    have hidx : s.i = 1 + steps s.trace ∧ steps s.trace < limit m := by
      have h1 := h.cnt
      have h2 := h.bound
      have h3 := hc.1
      unfold limit at *
      split_ifs at * <;> omega
    have hg : TInv env m u (gradPart env s).1 := by
      have e1 : steps (gradPart env s).1.trace = steps s.trace := by
        simp [gradPart, steps, Ev.isStep]
      have e2 : values (gradPart env s).1.trace = values s.trace := by
        simp [gradPart, values, Ev.value?]
      exact ⟨e1 ▸ h.cnt, e1 ▸ h.bound, e2 ▸ h.pass, e2 ▸ h.last, by rw [e1, e2]; exact h.num⟩
    simp only
    by_cases ht : (gradPart env s).1.terminate = true
    · rw [if_pos ht]
      refine ⟨by simp, ?_⟩
      rintro r hr; cases hr
      exact afterLoop_tpost hg
    · rw [if_neg ht]
      split
      · rename_i xj gj _ _
        have f1 : steps (movePart env (gradPart env s).1 (gradPart env s).2.1 (gradPart env s).2.2 xj
            gj).trace = steps s.trace + 1 := by
          simp [movePart, gradPart, steps, List.countP_cons, Ev.isStep]
        have f2 : values (movePart env (gradPart env s).1 (gradPart env s).2.1 (gradPart env s).2.2 xj
            gj).trace = values s.trace := by
          simp [movePart, gradPart, values, Ev.value?]
        have f3 : (movePart env (gradPart env s).1 (gradPart env s).2.1 (gradPart env s).2.2 xj
            gj).last = s.last := rfl
        have f4 : (movePart env (gradPart env s).1 (gradPart env s).2.1 (gradPart env s).2.2 xj
            gj).i = s.i := rfl
        generalize movePart env (gradPart env s).1 (gradPart env s).2.1 (gradPart env s).2.2 xj
            gj = s2 at f1 f2 f3 f4 ⊢
        by_cases hu : u = 0
        · rw [if_pos hu]
          exact ⟨by simp, by rintro r hr; cases hr; trivial⟩
        · rw [if_neg hu]
          have hi1 : s.i = steps s.trace + 1 := by omega
          have hsb : steps s.trace + 1 ≤ limit m := hidx.2
          have hcnt : ∀ k, k = s.i → (k + 1) % 2 ^ 64 = (1 + (steps s.trace + 1)) % 2 ^ 64 := by
            intro k hk; rw [hk, hi1]; congr 1; omega
          have hn := h.num hu
          by_cases hd : s.i % u = 0
          · rw [if_pos hd]
            have g1 : steps (evalPart env s2).trace = steps s.trace + 1 := by
              rw [← f1]; simp [evalPart, steps, Ev.isStep]
            have g2 : values (evalPart env s2).trace = values s.trace ++ [(evalPart env s2).overall] := by
              rw [← f2]; simp [evalPart, values, Ev.value?]
            have g3 : (evalPart env s2).last = s.last := f3
            have g4 : (evalPart env s2).i = s.i := f4
            generalize evalPart env s2 = s3 at g1 g2 g3 g4 ⊢
            have hdiv : u ∣ steps s.trace + 1 := by rw [← hi1]; exact Nat.dvd_of_mod_eq_zero hd
            have hlen : (values s.trace).length + 1 = (steps s.trace + 1) / u := by
              rw [Nat.succ_div_of_dvd hdiv, hn]
            by_cases hb : env.isBad s3.overall = true
            · rw [if_pos hb]
              refine ⟨by simp, ?_⟩
              rintro r hr; cases hr
              have k1 : steps (s3.trace ++ [.endOpt s3.x]) = steps s.trace + 1 := by
                rw [steps_append, g1]; rfl
              have k2 : values (s3.trace ++ [.endOpt s3.x]) = values s.trace ++ [s3.overall] := by
                rw [values_append, g2]; simp [values, Ev.value?]
              refine ⟨values s.trace, k2, h.pass, hb, ?_, ?_⟩
              · simp only [k1, k2]; simpa using hlen
              · simp only [k1]; exact hdiv
            · rw [if_neg hb]
              rw [Bool.not_eq_true] at hb
              by_cases hcl : env.isClose s3.last s3.overall = true
              · rw [if_pos hcl]
                refine ⟨by simp, ?_⟩
                rintro r hr; cases hr
                have k1 : steps (s3.trace ++ [.endOpt s3.x]) = steps s.trace + 1 := by
                  rw [steps_append, g1]; rfl
                have k2 : values (s3.trace ++ [.endOpt s3.x]) = values s.trace ++ [s3.overall] := by
                  rw [values_append, g2]; simp [values, Ev.value?]
                refine ⟨values s.trace, k2, h.pass, hb, ?_, ?_, ?_⟩
                · rw [← h.last, ← g3]; exact hcl
                · simp only [k1, k2]; simpa using hlen
                · simp only [k1]; exact hdiv
              · rw [if_neg hcl]
                rw [Bool.not_eq_true] at hcl
                refine ⟨?_, by simp⟩
                rintro s' hs; cases hs
                refine ⟨?_, ?_, ?_, ?_, fun _ => ?_⟩
                · simp only [g1]; exact hcnt _ g4
                · simp only [g1]; exact hsb
                · simp only [g2]
                  exact passes_snoc h.pass hb (by rw [← h.last, ← g3]; exact hcl)
                · simp only [g2]; simp
                · simp only [g1, g2]; simpa using hlen
          · rw [if_neg hd]
            refine ⟨?_, by simp⟩
            rintro s' hs; cases hs
            have hdiv : ¬ u ∣ steps s.trace + 1 := by
              rw [← hi1]; exact fun hh => hd (Nat.mod_eq_zero_of_dvd hh)
            refine ⟨?_, ?_, ?_, ?_, fun _ => ?_⟩
            · simp only [f1]; exact hcnt _ f4
            · simp only [f1]; exact hsb
            · simp only [f2]; exact h.pass
            · simp only [f2, f3]; exact h.last
            · simp only [f1, f2]; rw [Nat.succ_div_of_not_dvd hdiv, hn]
      · exact ⟨by simp, by rintro r hr; cases hr; trivial⟩

/-- **C167** CD computes the objective after every `updateInterval`-th step and at no other moment of
the loop, and the stopping rule speaks about these values: all of them but the last passed the tests
(not NaN or infinite, and not within the tolerance of the value before; the first is compared with the
largest double).  A run ended by the tolerance ended at a periodic value within the tolerance of the
periodic value before it; a run ended by a bad value ended at that value; otherwise the loop ended
(limit or stop request) and one further value was computed after it. -/
theorem C167_cd_stopping {env : Env W C E} {m u fuel : Nat} (hm : m < 2 ^ 64) {w : W}
    {x₀ : List C} {r : Result W C E} (h : optimize env m u fuel w x₀ = some (.returned r)) :
    ∃ vs, values r.trace = vs ++ [r.obj] ∧ Passes env env.maxVal vs ∧
      (r.exit = .bad → env.isBad r.obj = true ∧ vs.length + 1 = steps r.trace / u ∧
        u ∣ steps r.trace) ∧
      (r.exit = .tol → env.isBad r.obj = false ∧
        env.isClose (vs.getLast?.getD env.maxVal) r.obj = true ∧
        vs.length + 1 = steps r.trace / u ∧ u ∣ steps r.trace) ∧
      (r.exit = .loop → u ≠ 0 → vs.length = steps r.trace / u) := by
  have h0 : TInv env m u (start env w x₀) :=
    ⟨rfl, Nat.zero_le _, trivial, rfl, fun _ => (Nat.zero_div u).symm⟩
  have hp : TPost env u (.returned r) :=
    iterate_inv (TInv env m u) (TPost env u) (fun s s' hi hs => (step_tok hm s hi).1 s' hs)
      (fun s r hi hs => (step_tok hm s hi).2 r hs) fuel _ _ h0 h
  obtain ⟨vs, h1, h2, h3⟩ := hp
  have hl : (values r.trace).length = vs.length + 1 := by rw [h1]; simp
  refine ⟨vs, h1, h2, ?_, ?_, ?_⟩ <;> intro he <;> rw [he] at h3
  · exact ⟨h3.1, by rw [← hl]; exact h3.2.1, h3.2.2⟩
  · exact ⟨h3.1, h3.2.1, by rw [← hl]; exact h3.2.2.1, h3.2.2.2⟩
  · exact h3

/-- Non-vacuity: a run ended by the tolerance at its second periodic value. -/
example : (optimize demo 40 2 10 () [3, 4]).map
    (fun o => match o with | .returned r => (r.exit, values r.trace, steps r.trace) | _ => (.loop, [], 0)) =
    some (.tol, [0, 0], 4) := by decide +kernel

end Ens.Cd
