import Verif.Psgd.Props
import Verif.Psgd.Backoff
import Verif.Resume

/-
C328: `ParallelSGD::Optimize` in instalments (`parallel_sgd/parallel_sgd_impl.hpp:68-197`). The iteration counter and the last objective are
local to a call, the decay policy is a member. The visitation order is local too: it is part of what `round` does.
-/

namespace Ens.Psgd

variable {W X E D : Type} {env : Env W X E D}

def Env.limited (env : Env W X E D) (n : Nat) : Env W X E D := { env with maxIterations := n }

/-- A state of the second call and that of the single call it corresponds to. -/
structure Rel (env : Env W X E D) (a : Nat) (s t : St W X E D) : Prop where
  w : t.w = s.w
  x : t.x = s.x
  d : t.d = s.d
  terminate : t.terminate = s.terminate
  i : t.i = s.i + a
  obj : t.obj = s.obj ∨ (s.i = 1 ∧ s.terminate = false ∧ env.near t.obj (env.eval s.w s.x).2 = false ∧
    env.near s.obj (env.eval s.w s.x).2 = false)

def Same (a b : Nat) (r r' : Exit × St W X E D) : Prop :=
  r'.1 = r.1 ∧ r'.2.w = r.2.w ∧ r'.2.x = r.2.x ∧ r'.2.d = r.2.d ∧ r'.2.terminate = r.2.terminate ∧ r'.2.i = r.2.i + a ∧
    (b ≠ 0 → r'.2.obj = r.2.obj)

theorem body_rel (hstep : ∀ d i j, env.stepSize d i = env.stepSize d j) {a b : Nat} {s t : St W X E D} (h : Rel env a s t) :
    (∀ s', body (env.limited (b + 1)) s = .inl s' → ∃ t', body (env.limited (a + b + 1)) t = .inl t' ∧ Rel env a s' t') ∧
      ∀ r, body (env.limited (b + 1)) s = .inr r → ∃ r', body (env.limited (a + b + 1)) t = .inr r' ∧ Same a b r r' := by
  obtain ⟨w₀, x₀, d₀, i, obj, term₀, rd⟩ := s
  obtain ⟨w, x, d, i', obj', term, rd'⟩ := t
  obtain ⟨h1, h2, h3, h4, h5, h6⟩ := h
  dsimp only at h1 h2 h3 h4 h5 h6
  subst h1 h2 h3 h4 h5
  have hnear : env.near obj' (env.eval w x).2 = env.near obj (env.eval w x).2 := by
    rcases h6 with h | ⟨-, -, h, h'⟩
    · rw [h]
    · rw [h, h']
  unfold body Env.limited
  dsimp only
  by_cases hg : i = b + 1 ∨ term = true
  · have hg' : i + a = a + b + 1 ∨ term = true := by
      rcases hg with h | h
      · left; omega
      · exact .inr h
    rw [if_pos hg, if_pos hg']
    refine ⟨fun _ h => (by cases h), fun r h => ?_⟩
    cases h
    refine ⟨_, rfl, rfl, rfl, rfl, rfl, rfl, rfl, fun hb => ?_⟩
    rcases h6 with h | ⟨h, h', -⟩
    · exact h
    · rcases hg with hg | hg
      · omega
      · rw [h'] at hg; cases hg
  · have hg' : ¬ (i + a = a + b + 1 ∨ term = true) := fun h => hg (by
      rcases h with h | h
      · left; omega
      · exact .inr h)
    rw [if_neg hg, if_neg hg', hnear, hstep d (i + a) i]
    split
    · exact ⟨fun _ h => (by cases h), fun r h => by cases h; exact ⟨_, rfl, rfl, rfl, rfl, rfl, rfl, rfl, fun _ => rfl⟩⟩
    · split
      · exact ⟨fun _ h => (by cases h), fun r h => by cases h; exact ⟨_, rfl, rfl, rfl, rfl, rfl, rfl, rfl, fun _ => rfl⟩⟩
      · refine ⟨fun s' h => ?_, fun _ h => by cases h⟩
        cases h
        exact ⟨_, rfl, rfl, rfl, rfl, rfl, by dsimp only; omega, .inl rfl⟩

theorem body_prefix {a b : Nat} {s : St W X E D} (hi : s.i ≤ a + 1) :
    (∀ s', body (env.limited (a + 1)) s = .inl s' → s'.i ≤ a + 1 ∧ body (env.limited (a + b + 1)) s = .inl s') ∧
      ∀ s', body (env.limited (a + 1)) s = .inr (.loop, s') → s' = s ∧ (s.terminate = false → s.i = a + 1) := by
  unfold body Env.limited
  dsimp only
  by_cases hg : s.i = a + 1 ∨ s.terminate = true
  · rw [if_pos hg]
    refine ⟨fun _ h => (by cases h), fun _ h => ?_⟩
    cases h
    refine ⟨rfl, fun ht => ?_⟩
    rcases hg with h | h
    · exact h
    · rw [ht] at h; cases h
  · have h1 : s.i ≠ a + 1 := fun h => hg (.inl h)
    have hg' : ¬ (s.i = a + b + 1 ∨ s.terminate = true) := fun h => hg (by
      rcases h with h | h
      · left; omega
      · exact .inr h)
    rw [if_neg hg, if_neg hg']
    split
    · exact ⟨fun _ h => (by cases h), fun _ h => by cases h⟩
    · split
      · exact ⟨fun _ h => (by cases h), fun _ h => by cases h⟩
      · exact ⟨fun _ h => by cases h; exact ⟨by dsimp only; omega, rfl⟩, fun _ h => by cases h⟩

/-- **C328** (partial) With a decay policy that does not look at the iteration number (`ConstantStep`), callbacks that do nothing at the
beginning and the end, and a first call of `a` rounds that ended by its limit: a second call of at most `b` rounds ends as one call of
`a + b` rounds does, with the same coordinates, world, policy and (unless `b = 0`) value returned, if the longer run does not stop because of
the tolerance exactly at the seam and the value there is not near `DBL_MAX`. Missing: `ExponentialBackoff`, where it is false. -/
theorem C328_continue_partial (hstep : ∀ d i j, env.stepSize d i = env.stepSize d j) (hbegin : ∀ w x, env.cbBegin w x = (w, x))
    (hend : ∀ w x, env.cbEnd w x = (w, x)) {a b f₁ f₂ : Nat} {d : D} {w : W} {x : X} {s₁ s₂ : St W X E D} {e : Exit}
    (h₁ : optimize (env.limited (a + 1)) d f₁ w x = some (.loop, s₁)) (hterm : s₁.terminate = false)
    (hseam : env.near s₁.obj (env.eval s₁.w s₁.x).2 = false) (hmax : env.near env.maxVal (env.eval s₁.w s₁.x).2 = false)
    (h₂ : optimize (env.limited (b + 1)) s₁.d f₂ s₁.w s₁.x = some (e, s₂)) :
    ∃ t, optimize (env.limited (a + b + 1)) d (f₁ + f₂) w x = some (e, t) ∧ t.w = s₂.w ∧ t.x = s₂.x ∧ t.d = s₂.d ∧
      t.terminate = s₂.terminate ∧ t.i = s₂.i + a ∧ (b ≠ 0 → t.obj = s₂.obj) := by
  have hb : ∀ n w x, (env.limited n).cbBegin w x = (w, x) := fun n => hbegin
  have he : ∀ n w x, (env.limited n).cbEnd w x = (w, x) := fun n => hend
  have hm : ∀ n, (env.limited n).maxVal = env.maxVal := fun _ => rfl
  unfold optimize at h₁ h₂ ⊢
  rw [Option.map_eq_some_iff] at h₁ h₂
  obtain ⟨⟨e₁, r₁⟩, h₁, q₁⟩ := h₁
  obtain ⟨⟨e₂, r₂⟩, h₂, q₂⟩ := h₂
  simp only [he, Prod.mk.injEq] at q₁ q₂
  obtain ⟨rfl, rfl⟩ := q₁
  obtain ⟨rfl, rfl⟩ := q₂
  simp only [hb, hm, he] at h₁ h₂ ⊢
  obtain ⟨k, s, hk, hi, hlast, hlong⟩ := iterate_prefix (short := body (env.limited (a + 1))) (long := body (env.limited (a + b + 1)))
    (fun s => s.i ≤ a + 1) (fun s s' hs h => (body_prefix hs).1 s' h) f₁ _ _ (by dsimp only; omega) h₁
  obtain ⟨rfl, hia⟩ := (body_prefix (b := b) hi).2 _ hlast
  have hR : Rel env a ⟨r₁.w, r₁.x, r₁.d, 1, env.maxVal, false, 0⟩ r₁ :=
    ⟨rfl, rfl, rfl, hterm, by rw [hia hterm]; dsimp only; omega, .inr ⟨rfl, rfl, hseam, hmax⟩⟩
  obtain ⟨⟨e', t⟩, ht, g1, g2, g3, g4, g5, g6, g7⟩ := iterate_sim (Rel env a) (Same a b) (fun s t s' hR h => (body_rel hstep hR).1 s' h)
    (fun s t r hR h => (body_rel hstep hR).2 r h) f₂ _ r₁ _ hR h₂
  have hfull := iterate_mono _ (f₁ + f₂) _ _ (by omega) ((hlong f₂).trans ht)
  rw [hfull]
  dsimp only at g1
  exact ⟨t, by rw [Option.map_some, g1], g2, g3, g4, g5, g6, g7⟩

/-- The hypotheses are met: two rounds and then three more on `x^2`, against five at once. -/
example : ∃ s₁ s₂ t, optimize ((squareEnv 0).limited 3) () 3 () 1 = some (.loop, s₁) ∧
    optimize ((squareEnv 0).limited 4) s₁.d 4 s₁.w s₁.x = some (.loop, s₂) ∧
    optimize ((squareEnv 0).limited 6) () 7 () 1 = some (.loop, t) ∧ t.x = s₂.x ∧ t.obj = s₂.obj ∧ s₁.x ≠ s₂.x := by
  have h : ((optimize ((squareEnv 0).limited 3) () 3 () 1).bind fun r₁ =>
      (optimize ((squareEnv 0).limited 4) r₁.2.d 4 r₁.2.w r₁.2.x).map fun r₂ =>
        decide (r₁.1 = .loop ∧ r₂.1 = .loop ∧ r₁.2.terminate = false ∧
          (squareEnv 0).near r₁.2.obj ((squareEnv 0).eval r₁.2.w r₁.2.x).2 = false ∧
          (squareEnv 0).near (squareEnv 0).maxVal ((squareEnv 0).eval r₁.2.w r₁.2.x).2 = false ∧ r₁.2.x ≠ r₂.2.x)) = some true := by
    decide +kernel
  rw [Option.bind_eq_some_iff] at h
  obtain ⟨⟨e₁, s₁⟩, h₁, h⟩ := h
  rw [Option.map_eq_some_iff] at h
  obtain ⟨⟨e₂, s₂⟩, h₂, h⟩ := h
  obtain ⟨rfl, rfl, h3, h4, h5, h6⟩ := of_decide_eq_true h
  obtain ⟨t, g1, -, g2, -, -, -, g3⟩ := C328_continue_partial (env := squareEnv 0) (a := 2) (b := 3) (fun _ _ _ => rfl) (fun _ _ => rfl)
    (fun _ _ => rfl) h₁ h3 h4 h5 h₂
  exact ⟨s₁, s₂, t, h₁, h₂, g1, g2, g3 (by decide), h6⟩

/-! ### `ExponentialBackoff` -/

/-- A user calling `Optimize` `k` times on one object, each time at the coordinates the previous call left. The results: policy, world,
coordinates, how each call ended and the value it returned. -/
def calls (env : Env W X E D) (fuel : Nat) : Nat → D → W → X → Option (D × W × X × List (Exit × E))
  | 0, d, w, x => some (d, w, x, [])
  | k + 1, d, w, x => (optimize env d fuel w x).bind fun r =>
      (calls env fuel k r.2.d r.2.w r.2.x).map fun q => (q.1, q.2.1, q.2.2.1, (r.1, r.2.obj) :: q.2.2.2)

variable {R : Type} [Field R] [LinearOrder R]

/-- The optimizer with the policy `ExponentialBackoff`. -/
def withBackoff (env : Env W X R (Backoff R)) (gap : Nat) (beta : R) : Env W X R (Backoff R) :=
  { env with stepSize := fun d i => d.stepSize gap beta i }

/-- The optimizer that keeps the step size of the policy. -/
def withConstant (env : Env W X R (Backoff R)) : Env W X R (Backoff R) := { env with stepSize := fun d _ => (d, d.step) }

theorem body_short {env : Env W X R (Backoff R)} {gap : Nat} {beta : R} {K : Nat} {c : R} (hm : env.maxIterations ≤ K)
    {s : St W X R (Backoff R)} (hs : s.d = ⟨c, K⟩ ∧ s.i ≤ env.maxIterations) :
    body (withBackoff env gap beta) s = body (withConstant env) s ∧
      (∀ s', body (withConstant env) s = .inl s' → s'.d = ⟨c, K⟩ ∧ s'.i ≤ env.maxIterations) ∧
      ∀ r, body (withConstant env) s = .inr r → r.2.d = ⟨c, K⟩ := by
  obtain ⟨w, x, d, i, obj, term, rd⟩ := s
  obtain ⟨hd, hi⟩ := hs
  dsimp only at hd hi
  subst hd
  unfold body withBackoff withConstant
  dsimp only
  by_cases hg : i = env.maxIterations ∨ term = true
  · rw [if_pos hg, if_pos hg]
    exact ⟨rfl, fun _ h => (by cases h), fun r h => by cases h; rfl⟩
  · have h1 : i ≠ env.maxIterations := fun h => hg (.inl h)
    have hst : (Backoff.mk c K).stepSize gap beta i = (⟨c, K⟩, c) := by
      unfold Backoff.stepSize
      rw [if_neg (by dsimp only; omega)]
    rw [if_neg hg, if_neg hg, hst]
    refine ⟨rfl, ?_⟩
    split
    · exact ⟨fun _ h => (by cases h), fun r h => by cases h; rfl⟩
    · split
      · exact ⟨fun _ h => (by cases h), fun r h => by cases h; rfl⟩
      · exact ⟨fun _ h => by cases h; exact ⟨rfl, by dsimp only; omega⟩, fun _ h => by cases h⟩

theorem optimize_short {env : Env W X R (Backoff R)} {gap : Nat} {beta : R} {K : Nat} {c : R} (hm : env.maxIterations ≤ K)
    (h0 : env.maxIterations ≠ 0) (fuel : Nat) (w : W) (x : X) :
    optimize (withBackoff env gap beta) ⟨c, K⟩ fuel w x = optimize (withConstant env) ⟨c, K⟩ fuel w x ∧
      ∀ r, optimize (withConstant env) ⟨c, K⟩ fuel w x = some r → r.2.d = ⟨c, K⟩ := by
  have heq : ∀ (f : Nat) (s : St W X R (Backoff R)), s.d = ⟨c, K⟩ ∧ s.i ≤ env.maxIterations →
      iterate (body (withBackoff env gap beta)) f s = iterate (body (withConstant env)) f s := by
    intro f
    induction f with
    | zero => intro s _; rfl
    | succ f ih =>
      intro s hs
      obtain ⟨e, hl, -⟩ := body_short (gap := gap) (beta := beta) hm hs
      rw [iterate, iterate, e]
      cases hb : body (withConstant env) s with
      | inl s' => exact ih s' (hl s' hb)
      | inr r => rfl
  have h1 : 1 ≤ env.maxIterations := by omega
  refine ⟨?_, fun r hr => ?_⟩
  · unfold optimize
    exact congrArg (Option.map _) (heq fuel _ ⟨rfl, h1⟩)
  · unfold optimize at hr
    rw [Option.map_eq_some_iff] at hr
    obtain ⟨q, hq, rfl⟩ := hr
    exact iterate_inv (fun s : St W X R (Backoff R) => s.d = ⟨c, K⟩ ∧ s.i ≤ env.maxIterations) (fun r => r.2.d = ⟨c, K⟩)
      (fun s s' hs h => (body_short (gap := gap) (beta := beta) hm hs).2.1 s' h)
      (fun s r hs h => (body_short (gap := gap) (beta := beta) hm hs).2.2 r h) fuel _ q ⟨rfl, h1⟩ hq

/-- **C328** (short calls) With `ExponentialBackoff` and `maxIterations` not beyond the first backoff epoch, however many calls are made the
step size is never reduced: the calls are those of an optimizer with constant step size, and leave the policy as it was. -/
theorem C328_short_calls {env : Env W X R (Backoff R)} {gap : Nat} {beta : R} {K : Nat} {c : R} (hm : env.maxIterations ≤ K)
    (h0 : env.maxIterations ≠ 0) (fuel : Nat) : ∀ (k : Nat) (w : W) (x : X),
    calls (withBackoff env gap beta) fuel k (Backoff.init K c) w x = calls (withConstant env) fuel k (Backoff.init K c) w x ∧
      ∀ q, calls (withBackoff env gap beta) fuel k (Backoff.init K c) w x = some q → q.1 = Backoff.init K c := by
  intro k
  induction k with
  | zero => intro w x; exact ⟨rfl, fun q h => by simp only [calls, Option.some.injEq] at h; rw [← h]⟩
  | succ k ih =>
    intro w x
    obtain ⟨e, hd⟩ := optimize_short (gap := gap) (beta := beta) (c := c) hm h0 fuel w x
    unfold calls Backoff.init
    rw [e]
    cases ho : optimize (withConstant env) ⟨c, K⟩ fuel w x with
    | none => exact ⟨rfl, fun q h => by cases h⟩
    | some r =>
      have hr : r.2.d = Backoff.init K c := hd r ho
      simp only [Option.bind_some, hr, (ih r.2.w r.2.x).1]
      refine ⟨trivial, fun q h => ?_⟩
      rw [Option.map_eq_some_iff] at h
      obtain ⟨p, hp, rfl⟩ := h
      rw [← (ih r.2.w r.2.x).1] at hp
      exact (ih r.2.w r.2.x).2 p hp

/-- Rounds of `x := x - step * 2 x` on the objective `x^2`. -/
def squareBackoff (m : Nat) : Env Unit ℚ ℚ (Backoff ℚ) where
  eval := fun w x => (w, x ^ 2)
  cbEval := fun w _ _ => (w, false)
  cbBegin := fun w x => (w, x)
  cbEnd := fun w x => (w, x)
  stepSize := fun d _ => (d, d.step)
  round := fun w x t => (w, x - t * (2 * x), false)
  isBad := fun _ => false
  near := fun a b => decide (|a - b| < 1 / 10 ^ 5)
  maxVal := 10 ^ 308
  maxIterations := m

/-- The hypotheses of `C328_short_calls` are met, and the calls do something: four calls of one round with first backoff epoch 2. -/
example : ((calls (withBackoff (squareBackoff 2) 4 (1 / 2)) 2 4 (Backoff.init 2 (1 / 4)) () 1).map fun q => (q.1.step, q.1.cutoff, q.2.2.1)) =
    some (1 / 4, 2, 1 / 16) ∧ (squareBackoff 2).maxIterations ≤ 2 ∧ (squareBackoff 2).maxIterations ≠ 0 := by
  refine ⟨by decide +kernel, by decide, by decide⟩

/-- **C328** (refuted) "Calls of `ParallelSGD` on the same object, each at the coordinates the previous one left, end where one call of as
many rounds ends": with `ExponentialBackoff(2, 1/4, 1/2)` on `x^2`, four calls of one round against one call of four. -/
theorem C328_continue_refuted :
    ¬ ∀ (K gap : Nat) (c beta x : ℚ) (k fuel : Nat) (q : Backoff ℚ × Unit × ℚ × List (Exit × ℚ)),
      calls (withBackoff (squareBackoff 2) gap beta) fuel k (Backoff.init K c) () x = some q → (∀ e ∈ q.2.2.2, e.1 = .loop) →
      (optimize (withBackoff (squareBackoff (k + 1)) gap beta) (Backoff.init K c) (fuel * k) () x).map (fun r => r.2.x) = some q.2.2.1 := by
  intro h
  have hv : (calls (withBackoff (squareBackoff 2) 4 (1 / 2)) 2 4 (Backoff.init 2 (1 / 4)) () 1).map (fun q =>
      decide ((∀ e ∈ q.2.2.2, e.1 = .loop) ∧ (optimize (withBackoff (squareBackoff 5) 4 (1 / 2)) (Backoff.init 2 (1 / 4)) 8 () 1).map
        (fun r => r.2.x) ≠ some q.2.2.1)) = some true := by decide +kernel
  rw [Option.map_eq_some_iff] at hv
  obtain ⟨q, hq, hv⟩ := hv
  obtain ⟨h1, h2⟩ := of_decide_eq_true hv
  exact h2 (h 2 4 (1 / 4) (1 / 2) 1 4 2 q hq h1)

end Ens.Psgd
