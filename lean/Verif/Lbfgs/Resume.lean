import Verif.Lbfgs.Props
import Verif.Resume

/-
C327: `L_BFGS::Optimize` in instalments (`lbfgs/lbfgs_impl.hpp:351-497`): the memory is local to a call.
-/

namespace Ens.Lbfgs

variable {W X G E Mem Mem' : Type}

/-- The same optimizer with another memory: other cubes `s`, `y`, and `ChooseScalingFactor`, `SearchDirection`, `UpdateBasisSet` for them
(for example with another `numBasis`, lbfgs_impl.hpp:77-197). -/
def Env.withMemory (env : Env W X G E Mem) (scaling : Nat → G → Mem' → E) (direction : Nat → G → E → Mem' → G)
    (update : Nat → X → X → G → G → Mem' → Mem') : Env W X G E Mem' where
  evalGrad := env.evalGrad
  cbEvalGrad := env.cbEvalGrad
  cbBegin := env.cbBegin
  cbStep := env.cbStep
  cbEnd := env.cbEnd
  move := env.move
  dot := env.dot
  isNaN := env.isNaN
  isFinite := env.isFinite
  isZero := env.isZero
  gradSmall := env.gradSmall
  scaling := scaling
  direction := direction
  update := update
  stable := env.stable
  armijoConstant := env.armijoConstant
  wolfe := env.wolfe
  minStep := env.minStep
  maxStep := env.maxStep
  zero := env.zero
  one := env.one
  inc := env.inc
  dec := env.dec
  maxVal := env.maxVal
  maxLineSearchTrials := env.maxLineSearchTrials
  maxIterations := env.maxIterations

section

variable [Add E] [Mul E] [Neg E] [LT E] [DecidableLT E]

/-- A user calling `Optimize` `k` times on one object, each time at the coordinates the previous call left; `mem i` is what the cubes hold
when a call with `i` calls to follow starts. The results: world, coordinates, the member `terminate`, and how each call ended with the
value it returned. -/
def calls (env : Env W X G E Mem) (mem : Nat → Mem) (fuel : Nat) : Nat → Bool → W → X → Option (W × X × Bool × List (Exit × E))
  | 0, b, w, x => some (w, x, b, [])
  | k + 1, b, w, x => (optimize env (mem k) b fuel w x).bind fun r =>
      (calls env mem fuel k r.2.terminate r.2.w r.2.x).map fun q => (q.1, q.2.1, q.2.2.1, (r.1, r.2.fv) :: q.2.2.2)

/-- Two states that differ in the memory only, at most one iteration done. -/
structure Rel (s : St W X G E Mem) (t : St W X G E Mem') : Prop where
  w : t.w = s.w
  x : t.x = s.x
  fv : t.fv = s.fv
  grad : t.grad = s.grad
  it : t.it = s.it
  terminate : t.terminate = s.terminate
  early : s.it = 0 ∨ s.it = 1

def Same (r : Exit × St W X G E Mem) (r' : Exit × St W X G E Mem') : Prop :=
  r'.1 = r.1 ∧ r'.2.w = r.2.w ∧ r'.2.x = r.2.x ∧ r'.2.fv = r.2.fv ∧ r'.2.terminate = r.2.terminate

variable {env : Env W X G E Mem} {sc : Nat → G → Mem' → E} {dir : Nat → G → E → Mem' → G} {upd : Nat → X → X → G → G → Mem' → Mem'}

theorem step_rel (h1 : env.maxIterations = 1) (hsc : ∀ g m m', env.scaling 0 g m = sc 0 g m')
    (hdir : ∀ g c m m', env.direction 0 g c m = dir 0 g c m') {s : St W X G E Mem} {t : St W X G E Mem'} (h : Rel s t) :
    (∀ s', step env s = .inl s' → ∃ t', step (env.withMemory sc dir upd) t = .inl t' ∧ Rel s' t') ∧
      ∀ r, step env s = .inr r → ∃ r', step (env.withMemory sc dir upd) t = .inr r' ∧ Same r r' := by
  obtain ⟨w₀, x₀, fv₀, grad₀, mem, it₀, term₀, log, ev⟩ := s
  obtain ⟨w, x, fv, grad, mem', it, term, log', ev'⟩ := t
  obtain ⟨q1, q2, q3, q4, q5, q6, q7⟩ := h
  dsimp only at q1 q2 q3 q4 q5 q6 q7
  subst q1 q2 q3 q4 q5 q6
  have hm : (env.withMemory sc dir upd).maxIterations = env.maxIterations := rfl
  by_cases hg : ¬ (env.maxIterations = 0 ∨ it ≠ env.maxIterations) ∨ term = true
  · unfold step
    rw [hm]
    dsimp only
    rw [if_pos hg, if_pos hg]
    exact ⟨fun _ h => (by cases h), fun r h => by cases h; exact ⟨_, rfl, rfl, rfl, rfl, rfl, rfl⟩⟩
  · have h0 : it = 0 := by
      rw [h1] at hg
      rcases q7 with h | h
      · exact h
      · exact absurd (.inl (by omega)) hg
    subst h0
    unfold step
    rw [hm]
    dsimp only
    rw [if_neg hg, if_neg hg]
    have e1 : (env.withMemory sc dir upd).scaling 0 grad mem' = env.scaling 0 grad mem := (hsc _ _ _).symm
    have e2 : ∀ c, (env.withMemory sc dir upd).direction 0 grad c mem' = env.direction 0 grad c mem := fun c => (hdir _ _ _ _).symm
    rw [e1, e2]
    generalize env.scaling 0 grad mem = c
    generalize env.direction 0 grad c mem = d
    have e3 : lsStep (env.withMemory sc dir upd) = lsStep env := rfl
    have e4 : lsFuel (env.withMemory sc dir upd) = lsFuel env := rfl
    have e5 : lsStart (env.withMemory sc dir upd) = lsStart env := rfl
    rw [e3, e4, e5]
    have f1 : (env.withMemory sc dir upd).gradSmall = env.gradSmall := rfl
    have f2 : (env.withMemory sc dir upd).isNaN = env.isNaN := rfl
    have f3 : (env.withMemory sc dir upd).isZero = env.isZero := rfl
    have f4 : (env.withMemory sc dir upd).isFinite = env.isFinite := rfl
    have f5 : (env.withMemory sc dir upd).dot = env.dot := rfl
    have f6 : (env.withMemory sc dir upd).zero = env.zero := rfl
    have f7 : (env.withMemory sc dir upd).armijoConstant = env.armijoConstant := rfl
    have f8 : (env.withMemory sc dir upd).move = env.move := rfl
    have f9 : (env.withMemory sc dir upd).stable = env.stable := rfl
    have f10 : (env.withMemory sc dir upd).cbStep = env.cbStep := rfl
    simp only [f1, f2, f3, f4, f5, f6, f7]
    have out : ∀ (r : Exit × St W X G E Mem) (r' : Exit × St W X G E Mem'), Same r r' →
        (∀ s', (.inr r : St W X G E Mem ⊕ (Exit × St W X G E Mem)) = .inl s' →
          ∃ t', (.inr r' : St W X G E Mem' ⊕ (Exit × St W X G E Mem')) = .inl t' ∧ Rel s' t') ∧
        ∀ q, (.inr r : St W X G E Mem ⊕ (Exit × St W X G E Mem)) = .inr q →
          ∃ q', (.inr r' : St W X G E Mem' ⊕ (Exit × St W X G E Mem')) = .inr q' ∧ Same q q' :=
      fun r r' h => ⟨fun _ h => (by cases h), fun q hq => by cases hq; exact ⟨r', rfl, h⟩⟩
    by_cases c1 : env.gradSmall grad = true
    · rw [if_pos c1, if_pos c1]; exact out _ _ ⟨rfl, rfl, rfl, rfl, rfl⟩
    rw [if_neg c1, if_neg c1]
    by_cases c2 : env.isNaN fv = true
    · rw [if_pos c2, if_pos c2]; exact out _ _ ⟨rfl, rfl, rfl, rfl, rfl⟩
    rw [if_neg c2, if_neg c2]
    by_cases c3 : env.isZero c = true
    · rw [if_pos c3, if_pos c3]; exact out _ _ ⟨rfl, rfl, rfl, rfl, rfl⟩
    rw [if_neg c3, if_neg c3]
    by_cases c4 : ¬ env.isFinite c = true
    · rw [if_pos c4, if_pos c4]; exact out _ _ ⟨rfl, rfl, rfl, rfl, rfl⟩
    rw [if_neg c4, if_neg c4]
    by_cases c5 : env.zero < env.dot grad d ∨ ¬ env.isFinite (env.dot grad d) = true
    · rw [if_pos c5, if_pos c5]; exact out _ _ ⟨rfl, rfl, rfl, rfl, rfl⟩
    rw [if_neg c5, if_neg c5]
    cases iterate (lsStep env x d fv (env.dot grad d) (env.armijoConstant * env.dot grad d)) (lsFuel env) (lsStart env w fv grad term) with
    | none => exact out _ _ ⟨rfl, rfl, rfl, rfl, rfl⟩
    | some r =>
      dsimp only
      unfold afterSearch
      simp only [f3, f8, f9, f10]
      by_cases c6 : r.1 = .nan
      · rw [if_pos c6, if_pos c6]; exact out _ _ ⟨rfl, rfl, rfl, rfl, rfl⟩
      rw [if_neg c6, if_neg c6]
      by_cases c7 : env.isZero r.2.bestStep = true
      · rw [if_pos c7, if_pos c7]; exact out _ _ ⟨rfl, rfl, rfl, rfl, rfl⟩
      rw [if_neg c7, if_neg c7]
      by_cases c8 : env.stable fv r.2.fv = true
      · rw [if_pos c8, if_pos c8]; exact out _ _ ⟨rfl, rfl, rfl, rfl, rfl⟩
      rw [if_neg c8, if_neg c8]
      refine ⟨fun s' h => ?_, fun _ h => by cases h⟩
      cases h
      exact ⟨_, rfl, rfl, rfl, rfl, rfl, rfl, rfl, .inr rfl⟩

/-- **C327** (the calls) The last of `k + 1` calls starts at the coordinates, in the world and with the member `terminate` the `k` calls before
it left, and what it leaves is the outcome. -/
theorem C327_last_call (k : Nat) : ∀ (mem : Nat → Mem) (fuel : Nat) (b : Bool) (w : W) (x : X),
    calls env mem fuel (k + 1) b w x = (calls env (fun i => mem (i + 1)) fuel k b w x).bind fun q =>
      (optimize env (mem 0) q.2.2.1 fuel q.1 q.2.1).map fun r => (r.2.w, r.2.x, r.2.terminate, q.2.2.2 ++ [(r.1, r.2.fv)]) := by
  induction k with
  | zero =>
    intro mem fuel b w x
    simp only [calls, Option.bind_some]
    cases optimize env (mem 0) b fuel w x <;> rfl
  | succ k ih =>
    intro mem fuel b w x
    rw [calls]
    conv_rhs => rw [calls]
    cases optimize env (mem (k + 1)) b fuel w x with
    | none => rfl
    | some r =>
      simp only [Option.bind_some]
      rw [ih]
      cases calls env (fun i => mem (i + 1)) fuel k r.2.terminate r.2.w r.2.x with
      | none => rfl
      | some q =>
        simp only [Option.bind_some, Option.map_some]
        cases optimize env (mem 0) q.2.2.1 fuel q.1 q.2.1 <;> rfl

/-- **C327** (one iteration per call) With `maxIterations = 1` the memory is never used: any number of calls gives what an optimizer with
any other memory (another `numBasis`, other contents of the cubes) gives, as long as the first iteration of both takes the same direction
for a gradient, as it does by `direction_zero`. -/
theorem C327_one_iteration (h1 : env.maxIterations = 1) (hsc : ∀ g m m', env.scaling 0 g m = sc 0 g m')
    (hdir : ∀ g c m m', env.direction 0 g c m = dir 0 g c m') (mem : Nat → Mem) (mem' : Nat → Mem') {fuel : Nat} :
    ∀ (k : Nat) (b : Bool) (w : W) (x : X) q, calls env mem fuel k b w x = some q →
      calls (env.withMemory sc dir upd) mem' fuel k b w x = some q := by
  intro k
  induction k with
  | zero => intro b w x q h; exact h
  | succ k ih =>
    intro b w x q h
    rw [calls, Option.bind_eq_some_iff] at h
    obtain ⟨r, hr, h⟩ := h
    rw [Option.map_eq_some_iff] at h
    obtain ⟨p, hp, rfl⟩ := h
    unfold optimize at hr
    rw [Option.map_eq_some_iff] at hr
    obtain ⟨⟨e, s⟩, hs, rfl⟩ := hr
    obtain ⟨⟨e', t⟩, ht, g1, g2, g3, g4, g5⟩ := iterate_sim Rel Same
      (fun s t s' hR h => (step_rel (upd := upd) h1 hsc hdir hR).1 s' h) (fun s t r hR h => (step_rel (upd := upd) h1 hsc hdir hR).2 r h) fuel
      (start env (mem k) b w x) (start (env.withMemory sc dir upd) (mem' k) b w x) _ ⟨rfl, rfl, rfl, rfl, rfl, rfl, .inl rfl⟩ hs
    dsimp only at g1 g2 g3 g4 g5 hp
    have hopt : optimize (env.withMemory sc dir upd) (mem' k) b fuel w x =
        some (e', { t with w := (env.cbEnd t.w t.x).1, x := (env.cbEnd t.w t.x).2 }) := by
      unfold optimize; rw [ht]; rfl
    rw [calls, hopt, Option.bind_some]
    dsimp only
    rw [g1, g2, g3, g4, g5, ih _ _ _ _ hp]
    rfl

end

/-- The direction of the first iteration is the scaled negative gradient, whatever the memory. -/
theorem direction_zero {R V : Type} [Field R] [DecidableEq R] [AddCommGroup V] [Module R V] (dot : V → V → R) (n : Nat) (g : V) (c : R)
    (s y : Nat → V) : searchDirection dot n g 0 c s y = -(c • g) := by
  have hl : limit n 0 = 0 := by unfold limit; split <;> simp
  unfold searchDirection
  simp [hl]

/-- The scalar optimizer of `C99_value_refuted` with `numBasis = 1`. -/
def scalarOne (F dF : ℚ → ℚ) (trials iterations : Nat) : Env Unit ℚ ℚ ℚ (ℚ × ℚ) :=
  (scalarEnv F dF trials iterations false).withMemory
    (fun it g m => if it = 0 then 1 / |g| else m.1 * m.2 / (m.2 * m.2))
    (fun it g sc m => searchDirection (fun a b => a * b) 1 g it sc (fun _ => m.1) (fun _ => m.2))
    (fun _ x x' g g' _ => (x - x', g - g'))

/-- The hypotheses of `C327_one_iteration` are met by these two optimizers: three calls on `(x - 3)^2`. -/
example : ∃ q, calls (scalarEnv (fun x => (x - 3) ^ 2) (fun x => 2 * (x - 3)) 50 1 false) (fun _ => mem0) 2 3 false () (1 / 2) = some q ∧
    calls (scalarOne (fun x => (x - 3) ^ 2) (fun x => 2 * (x - 3)) 50 1) (fun _ => (7, 7)) 2 3 false () (1 / 2) = some q ∧
    q.2.2.2.length = 3 := by
  have h : (calls (scalarEnv (fun x => (x - 3) ^ 2) (fun x => 2 * (x - 3)) 50 1 false) (fun _ => mem0) 2 3 false () (1 / 2)).map
      (fun q => q.2.2.2.length) = some 3 := by decide +kernel
  rw [Option.map_eq_some_iff] at h
  obtain ⟨q, hq, hl⟩ := h
  exact ⟨q, hq, C327_one_iteration rfl (fun _ _ _ => rfl) (fun g c m m' => by
    show searchDirection _ 5 g 0 c _ _ = searchDirection _ 1 g 0 c _ _
    rw [direction_zero, direction_zero]) _ _ 3 false () _ q hq, hl⟩

/-- **C327** (refuted) "If L-BFGS was stopped by `maxIterations`, calling `Optimize` again at the coordinates reached continues the run": on
`(x - 3)^2` from `1/2` one call of two iterations reaches the minimum, two calls of one iteration do not. -/
theorem C327_continue_refuted :
    ¬ ∀ (F dF : ℚ → ℚ) (x : ℚ) (a b fuel : Nat) (e₁ e₂ : Exit) (s₁ s₂ : St Unit ℚ ℚ ℚ ((Nat → ℚ) × (Nat → ℚ))),
      optimize (scalarEnv F dF 50 a false) mem0 false fuel () x = some (e₁, s₁) → e₁ = .loop →
      optimize (scalarEnv F dF 50 b false) mem0 s₁.terminate fuel () s₁.x = some (e₂, s₂) →
      (optimize (scalarEnv F dF 50 (a + b) false) mem0 false (fuel + fuel) () x).map (fun r => r.2.x) = some s₂.x := by
  intro h
  have hv : ((optimize (scalarEnv (fun x => (x - 3) ^ 2) (fun x => 2 * (x - 3)) 50 1 false) mem0 false 2 () (1 / 2)).bind fun r₁ =>
      (optimize (scalarEnv (fun x => (x - 3) ^ 2) (fun x => 2 * (x - 3)) 50 1 false) mem0 r₁.2.terminate 2 () r₁.2.x).map fun r₂ =>
        decide (r₁.1 = .loop ∧ (optimize (scalarEnv (fun x => (x - 3) ^ 2) (fun x => 2 * (x - 3)) 50 2 false) mem0 false 4 ()
          (1 / 2)).map (fun r => r.2.x) ≠ some r₂.2.x)) = some true := by decide +kernel
  rw [Option.bind_eq_some_iff] at hv
  obtain ⟨⟨e₁, s₁⟩, h₁, hv⟩ := hv
  rw [Option.map_eq_some_iff] at hv
  obtain ⟨⟨e₂, s₂⟩, h₂, hv⟩ := hv
  obtain ⟨hl, hne⟩ := of_decide_eq_true hv
  exact hne (h _ _ _ 1 1 2 e₁ e₂ s₁ s₂ h₁ hl h₂)

end Ens.Lbfgs
