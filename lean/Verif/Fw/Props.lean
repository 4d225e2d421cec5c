import Mathlib.Analysis.Convex.Basic
import Mathlib.Analysis.InnerProductSpace.Basic
import Mathlib.Tactic.Module
import Mathlib.Tactic.Ring
import Verif.Analysis.Smooth
import Verif.Fw.Model

/-
Frank-Wolfe: properties C45, C47, C118.
-/

namespace Ens.Fw

variable {W X G E : Type}

/-! ### C118: the run -/

/-- Invariant rule for runs. -/
theorem run_inv {u : User W X G E} {m : Nat} (I : St W X E → Prop) (Post : Exit × St W X E → Prop)
    (hl : ∀ t t', I t → body u m t = .inl t' → I t') (hr : ∀ t r, I t → body u m t = .inr r → Post r)
    {fuel : Nat} {w : W} {x : X} {e : Exit} {t : St W X E} (h0 : I (start u w x))
    (h : optimize u m fuel w x = some (e, t)) : ∃ t₀, Post (e, t₀) ∧ t = finish u t₀ := by
  unfold optimize at h
  simp only [Option.map_eq_some_iff, Prod.mk.injEq] at h
  obtain ⟨r, hr', rfl, rfl⟩ := h
  exact ⟨r.2, iterate_inv I Post hl hr fuel _ r h0 hr', rfl⟩

/-- What one pass can do. -/
theorem body_cases {u : User W X G E} {m : Nat} (t : St W X E) :
    (body u m t = .inr (.loop, t) ∧ (t.i = m ∨ t.term = true)) ∨
    (t.i ≠ m ∧ t.term = false ∧ ∃ w o g stop,
      (∃ w₀, (u.evalGrad t.w t.x).2.1 = o ∧ w₀ = (u.evalGrad t.w t.x).1 ∧
        (u.cbEval w₀ t.x o (u.evalGrad t.w t.x).2.2) = (w, g, stop)) ∧
      ((u.within t.x (u.lmo w g).2 g = true ∧ body u m t = .inr (.gap, { t with
          w := (u.lmo w g).1, obj := o, term := t.term || stop,
          trace := t.trace ++ .eval t.x o :: if stop then [.stop] else [] })) ∨
       (u.within t.x (u.lmo w g).2 g = false ∧ ∃ w' y st, (u.cbStep (u.update (u.lmo w g).1 t.x (u.lmo w g).2 t.i).1
            (u.update (u.lmo w g).1 t.x (u.lmo w g).2 t.i).2) = (w', y, st) ∧
          body u m t = .inl ⟨w', y, o, stop || st, t.i + 1,
            (t.trace ++ .eval t.x o :: if stop then [.stop] else []) ++ .step y :: if st then [.stop] else []⟩))) := by
  unfold body
  by_cases hc : t.i ≠ m ∧ t.term = false
  · right
    rw [if_pos hc]
    refine ⟨hc.1, hc.2, _, _, _, _, ⟨_, rfl, rfl, rfl⟩, ?_⟩
    simp only
    split
    · rename_i h; left; exact ⟨h, rfl⟩
    · rename_i h; right; exact ⟨by simpa using h, _, _, _, rfl, rfl⟩
  · left
    rw [if_neg hc]
    refine ⟨rfl, ?_⟩
    by_contra h
    rw [not_or] at h
    exact hc ⟨h.1, by simpa using h.2⟩

/-- **C118** (partial) For a positive `maxIterations` the run ends after at most `maxIterations - 1` steps, exactly that many
if it is ended neither by the gap nor by a callback; if it ends by the gap the value returned is the objective
at the coordinates returned, otherwise it is the objective at the point before the last step. -/
theorem C118_run_partial {u : User W X G E} {m : Nat} (hm : 0 < m) {F : X → E}
    (hF : ∀ w x, (u.evalGrad w x).2.1 = F x) (hend : ∀ w x, (u.cbEnd w x).2 = x) (w : W) (x : X) :
    ∃ e t, optimize u m m w x = some (e, t) ∧ 1 ≤ t.i ∧ t.i ≤ m ∧ (e = .loop → t.term = false → t.i = m) ∧
      (e = .gap → t.obj = F t.x) ∧
      (e = .loop → 1 < t.i → ∃ pre y post, t.trace = pre ++ .eval y (F y) :: post ∧ t.obj = F y ∧
        ∀ z o, .eval z o ∉ post) := by
  let I : St W X E → Prop := fun t => 1 ≤ t.i ∧ t.i ≤ m ∧ (1 < t.i → ∃ pre y post,
    t.trace = pre ++ .eval y (F y) :: post ∧ t.obj = F y ∧ ∀ z o, .eval z o ∉ post)
  have hstep : ∀ t t', I t → body u m t = .inl t' → I t' ∧ m - t'.i < m - t.i := by
    rintro t t' ⟨i1, i2, -⟩ ht
    rcases body_cases (u := u) (m := m) t with ⟨h, -⟩ | ⟨hi, -, w, o, g, stop, ⟨w₀, rfl, -, -⟩, h | ⟨-, w', y, st, -, h⟩⟩
    · rw [h] at ht; cases ht
    · rw [h.2] at ht; cases ht
    · rw [h] at ht
      cases ht
      refine ⟨⟨by dsimp only; omega, by dsimp only; omega, fun _ => ?_⟩, by dsimp only; omega⟩
      refine ⟨t.trace, t.x, (if stop then [.stop] else []) ++ .step y :: if st then [.stop] else [], ?_, hF _ _, ?_⟩
      · dsimp only; rw [hF]; simp
      · intro z o
        cases stop <;> cases st <;> simp
  have hpost : ∀ t r, I t → body u m t = .inr r → 1 ≤ r.2.i ∧ r.2.i ≤ m ∧ (r.1 = .loop → r.2.term = false → r.2.i = m) ∧
      (r.1 = .gap → r.2.obj = F r.2.x) ∧ (r.1 = .loop → 1 < r.2.i → ∃ pre y post,
        r.2.trace = pre ++ .eval y (F y) :: post ∧ r.2.obj = F y ∧ ∀ z o, .eval z o ∉ post) := by
    intro t r ⟨i1, i2, i3⟩ ht
    rcases body_cases (u := u) (m := m) t with ⟨h, hor⟩ | ⟨hi, -, w, o, g, stop, ⟨w₀, rfl, -, -⟩, h | ⟨-, w', y, st, -, h⟩⟩
    · rw [h] at ht
      cases ht
      exact ⟨i1, i2, fun _ hterm => hor.resolve_right (by simp_all), (fun h => by cases h), fun _ => i3⟩
    · rw [h.2] at ht
      cases ht
      exact ⟨i1, i2, (fun h => by cases h), fun _ => hF _ _, fun h => by cases h⟩
    · rw [h] at ht; cases ht
  have h0 : I (start u w x) := ⟨le_refl 1, hm, fun h => absurd h (by simp [start])⟩
  obtain ⟨r, hr⟩ := iterate_total I (fun t => m - t.i) hstep m (start u w x) h0 (by simp only [start]; omega)
  have := iterate_inv I _ (fun t t' h h' => (hstep t t' h h').1) hpost m _ r h0 hr
  obtain ⟨p1, p2, p3, p4, p5⟩ := this
  refine ⟨r.1, finish u r.2, ?_, p1, p2, p3, ?_, p5⟩
  · unfold optimize; rw [hr]; rfl
  · intro he
    simp only [finish, hend]
    exact p4 he

/-! ### C45: feasibility -/

/-- **C45** If the starting point is in a convex set, the linear solver returns points of it, the update rule returns
points of the segment between the iterate and the solver's answer, and callbacks leave the coordinates alone, then every
point the objective is evaluated at, every new iterate and the result are in the set. -/
theorem C45_feasible {X : Type} [AddCommGroup X] [Module ℝ X] {u : User W X G E} {C : Set X} (hC : Convex ℝ C)
    (hlmo : ∀ w g, (u.lmo w g).2 ∈ C)
    (hupd : ∀ w x s i, 1 ≤ i → ∃ t : ℝ, 0 ≤ t ∧ t ≤ 1 ∧ (u.update w x s i).2 = (1 - t) • x + t • s)
    (hbegin : ∀ w x, (u.cbBegin w x).2 = x) (hcb : ∀ w x, (u.cbStep w x).2.1 = x) (hend : ∀ w x, (u.cbEnd w x).2 = x)
    {m fuel : Nat} {w : W} {x : X} (hx : x ∈ C) {e : Exit} {t : St W X E} (h : optimize u m fuel w x = some (e, t)) :
    t.x ∈ C ∧ (∀ y, .step y ∈ t.trace → y ∈ C) ∧ ∀ y o, .eval y o ∈ t.trace → y ∈ C := by
  let I : St W X E → Prop := fun t => 1 ≤ t.i ∧ t.x ∈ C ∧ (∀ y, .step y ∈ t.trace → y ∈ C) ∧
    ∀ y o, .eval y o ∈ t.trace → y ∈ C
  have h0 : I (start u w x) := ⟨le_refl 1, by simp only [start, hbegin]; exact hx, by simp [start], by simp [start]⟩
  have hrun := run_inv I (fun r => I r.2) ?_ ?_ h0 h
  · obtain ⟨t₀, ⟨-, p1, p2, p3⟩, rfl⟩ := hrun
    exact ⟨by simp only [finish, hend]; exact p1, p2, p3⟩
  · intro t t' ⟨i0, i1, i2, i3⟩ ht
    rcases body_cases (u := u) (m := m) t with ⟨h, -⟩ | ⟨hi, -, w, o, g, stop, -, h | ⟨-, w', y, st, hy, h⟩⟩
    · rw [h] at ht; cases ht
    · rw [h.2] at ht; cases ht
    · rw [h] at ht
      cases ht
      have hyC : y ∈ C := by
        have h1 := hcb (u.update (u.lmo w g).1 t.x (u.lmo w g).2 t.i).1 (u.update (u.lmo w g).1 t.x (u.lmo w g).2 t.i).2
        rw [hy] at h1
        dsimp only at h1
        obtain ⟨γ, g0, g1, he⟩ := hupd (u.lmo w g).1 t.x (u.lmo w g).2 t.i i0
        rw [h1, he]
        exact hC i1 (hlmo _ _) (by linarith) g0 (by linarith)
      refine ⟨by dsimp only; omega, hyC, ?_, ?_⟩
      · intro z hz
        simp only [List.mem_append, List.mem_cons] at hz
        rcases hz with (hz | hz | hz) | hz | hz
        · exact i2 z hz
        · cases hz
        · split at hz <;> simp at hz
        · cases hz; exact hyC
        · split at hz <;> simp at hz
      · intro z o hz
        simp only [List.mem_append, List.mem_cons] at hz
        rcases hz with (hz | hz | hz) | hz | hz
        · exact i3 z o hz
        · cases hz; exact i1
        · split at hz <;> simp at hz
        · cases hz
        · split at hz <;> simp at hz
  · intro t r ⟨i0, i1, i2, i3⟩ ht
    rcases body_cases (u := u) (m := m) t with ⟨h, -⟩ | ⟨hi, -, w, o, g, stop, -, h | ⟨-, w', y, st, hy, h⟩⟩
    · rw [h] at ht; cases ht; exact ⟨i0, i1, i2, i3⟩
    · rw [h.2] at ht; cases ht
      refine ⟨i0, i1, ?_, ?_⟩
      · intro z hz
        simp only [List.mem_append, List.mem_cons] at hz
        rcases hz with hz | hz | hz
        · exact i2 z hz
        · cases hz
        · split at hz <;> simp at hz
      · intro z o hz
        simp only [List.mem_append, List.mem_cons] at hz
        rcases hz with hz | hz | hz
        · exact i3 z o hz
        · cases hz; exact i1
        · split at hz <;> simp at hz
    · rw [h] at ht; cases ht

/-- **C45** The classic rule and the line-search rule satisfy the hypothesis of `C45_feasible` on update rules. -/
theorem C45_classic {X : Type} [AddCommGroup X] [Module ℝ X] (x s : X) (i : Nat) :
    ∃ t : ℝ, 0 ≤ t ∧ t ≤ 1 ∧ classic (K := ℝ) x s i = (1 - t) • x + t • s := by
  have h : (0 : ℝ) < (i : ℝ) + 2 := by positivity
  refine ⟨2 / ((i : ℝ) + 2), by positivity, ?_, rfl⟩
  rw [div_le_one h]
  have : (0 : ℝ) ≤ i := by positivity
  linarith

theorem C45_linesearch {X : Type} [AddCommGroup X] [Module ℝ X] {p : LsParams ℝ} (hp : 0 < p.tolerance)
    (D : X → X → ℝ → ℝ) (x s : X) :
    ∃ y, viaSearch p D x s = some y ∧ ∃ t : ℝ, 0 ≤ t ∧ t ≤ 1 ∧ y = (1 - t) • x + t • s := by
  obtain ⟨r, t, h1, h2, h3, h4, -⟩ := C69_line_search hp (D x s) x s
  refine ⟨_, ?_, t, h2, h3, rfl⟩
  unfold viaSearch
  rw [h1, Option.bind_some, h4]
  congr 1
  module

/-! ### C47: gap and rate -/

section Rate

variable {V : Type} [NormedAddCommGroup V] [InnerProductSpace ℝ V]

/-- The gradient the loop uses is that of `f`, the solver minimises linear functions over `C`, the gap test is that of
lines 94-95, the update is the classic one and callbacks change nothing. -/
structure Classic (u : User W V V ℝ) (f : V → ℝ) (g : V → V) (C : Set V) (tol : ℝ) : Prop where
  val : ∀ w x, (u.evalGrad w x).2.1 = f x
  grad : ∀ w x, (u.evalGrad w x).2.2 = g x
  lmo : ∀ w v, (u.lmo w v).2 ∈ C ∧ ∀ y ∈ C, inner ℝ v (u.lmo w v).2 ≤ inner ℝ v y
  within : ∀ x s v, u.within x s v = true ↔ |inner ℝ (x - s) v| < tol
  begin_ : ∀ w x, (u.cbBegin w x).2 = x
  cbEval : ∀ w x o v, (u.cbEval w x o v).2.1 = v
  cbStep : ∀ w x, (u.cbStep w x).2.1 = x
  end_ : ∀ w x, (u.cbEnd w x).2 = x

/-- **C47** If the run ends because the gap is below the tolerance, the point returned is optimal up to the tolerance among
all points of the set, for a convex function with the given gradient; whatever the update rule. -/
theorem C47_gap {u : User W V V ℝ} {f : V → ℝ} {g : V → V} {C : Set V} {tol : ℝ} (hu : Classic u f g C tol)
    (hg : IsGrad f g) (hc : ConvexOn ℝ Set.univ f) {m fuel : Nat} {w : W} {x : V} {t : St W V ℝ}
    (h : optimize u m fuel w x = some (.gap, t)) : ∀ y ∈ C, t.obj ≤ f y + tol ∧ f t.x ≤ f y + tol := by
  have hrun := run_inv (fun _ => True) (fun r => r.1 = .gap → ∀ y ∈ C, r.2.obj ≤ f y + tol ∧ f r.2.x ≤ f y + tol)
    (fun _ _ _ _ => trivial) ?_ trivial h
  · obtain ⟨t₀, p, rfl⟩ := hrun
    intro y hy
    have := p rfl y hy
    simp only [finish, hu.end_]
    exact this
  · intro t r _ ht he y hy
    rcases body_cases (u := u) (m := m) t with ⟨h, -⟩ | ⟨-, -, w, o, v, stop, ⟨w₀, ho, -, hcb⟩, ⟨hw, h⟩ | ⟨-, w', y, st, -, h⟩⟩
    · rw [h] at ht; cases ht; cases he
    · rw [h] at ht
      cases ht
      have hv : v = g t.x := by
        have := hu.cbEval w₀ t.x o (u.evalGrad t.w t.x).2.2
        rw [hcb] at this
        dsimp only at this
        rw [this, hu.grad]
      subst hv
      rw [hu.within] at hw
      have h1 := (hu.lmo w (g t.x)).2 y hy
      have h2 := convex_first_order hg hc t.x y
      have h3 := (abs_lt.1 hw).2
      rw [real_inner_comm, inner_sub_right] at h3
      rw [inner_sub_right] at h2
      have h4 : f t.x ≤ f y + tol := by linarith
      refine ⟨?_, h4⟩
      dsimp only
      rw [← ho, hu.val]
      exact h4
    · rw [h] at ht; cases ht

/-- One classic step on a smooth convex function. -/
theorem classic_step {f : V → ℝ} {g : V → V} {L D : ℝ} (hs : LSmooth f g L) (hL : 0 ≤ L) (hc : ConvexOn ℝ Set.univ f)
    {x s y : V} (hopt : inner ℝ (g x) s ≤ inner ℝ (g x) y) (hD : ‖s - x‖ ≤ D) (i : Nat) :
    f (classic (K := ℝ) x s i) - f y ≤
      (1 - 2 / ((i : ℝ) + 2)) * (f x - f y) + (2 / ((i : ℝ) + 2)) ^ 2 * (L * D ^ 2) / 2 := by
  set γ : ℝ := 2 / ((i : ℝ) + 2) with hγ
  have h0 : 0 ≤ γ := by positivity
  have hpt : classic (K := ℝ) x s i - x = γ • (s - x) := by
    unfold classic
    rw [← hγ]
    module
  have h1 := hs.descent x (classic (K := ℝ) x s i)
  rw [hpt, inner_smul_right, norm_smul, Real.norm_of_nonneg h0, inner_sub_right] at h1
  have h2 := convex_first_order hs.grad hc x y
  rw [inner_sub_right] at h2
  have h3 : ‖s - x‖ ^ 2 ≤ D ^ 2 := by
    have := norm_nonneg (s - x)
    nlinarith
  have h4 : L / 2 * (γ * ‖s - x‖) ^ 2 ≤ γ ^ 2 * (L * D ^ 2) / 2 := by
    have : 0 ≤ L / 2 * γ ^ 2 := by positivity
    nlinarith
  have h5 : γ * (inner ℝ (g x) s - inner ℝ (g x) x) ≤ γ * (f y - f x) := by
    apply mul_le_mul_of_nonneg_left _ h0
    linarith
  linarith

/-- **C47** The classic rule: after `k` steps (`k = i - 1`), `f(x) - f(y) ≤ 2 L D^2 / (k + 2) + 2 (f(x₀) - f(y)) / ((k + 1)
(k + 2))` for every feasible `y`. -/
theorem C47_rate {u : User W V V ℝ} {f : V → ℝ} {g : V → V} {C : Set V} {tol L D : ℝ} (hu : Classic u f g C tol)
    (hupd : ∀ w x s i, (u.update w x s i).2 = classic (K := ℝ) x s i) (hC : Convex ℝ C) (hs : LSmooth f g L) (hL : 0 ≤ L)
    (hc : ConvexOn ℝ Set.univ f) (hD : ∀ x ∈ C, ∀ y ∈ C, ‖x - y‖ ≤ D) {m fuel : Nat} {w : W} {x : V} (hx : x ∈ C)
    {e : Exit} {t : St W V ℝ} (h : optimize u m fuel w x = some (e, t)) :
    ∀ y ∈ C, ∃ k : Nat, t.i = k + 1 ∧
      f t.x - f y ≤ 2 * (L * D ^ 2) / ((k : ℝ) + 2) + 2 * (f x - f y) / (((k : ℝ) + 1) * ((k : ℝ) + 2)) := by
  intro y hy
  let I : St W V ℝ → Prop := fun t => t.x ∈ C ∧ ∃ k : Nat, t.i = k + 1 ∧
      f t.x - f y ≤ 2 * (L * D ^ 2) / ((k : ℝ) + 2) + 2 * (f x - f y) / (((k : ℝ) + 1) * ((k : ℝ) + 2))
  have hM : 0 ≤ L * D ^ 2 := by positivity
  have h0 : I (start u w x) := by
    refine ⟨by simp only [start, hu.begin_]; exact hx, 0, rfl, ?_⟩
    simp only [start, hu.begin_, Nat.cast_zero, zero_add]
    have : 2 * (f x - f y) / (1 * 2) = f x - f y := by ring
    rw [this]
    linarith [show 0 ≤ 2 * (L * D ^ 2) / 2 by positivity]
  have hrun := run_inv I (fun r => I r.2) ?_ ?_ h0 h
  · obtain ⟨t₀, ⟨-, p⟩, rfl⟩ := hrun
    simp only [finish, hu.end_]; exact p
  · intro t t' ⟨i1, k, i2, i3⟩ ht
    rcases body_cases (u := u) (m := m) t with ⟨h, -⟩ | ⟨-, -, w, o, v, stop, ⟨w₀, ho, -, hcb⟩, ⟨hw, h⟩ | ⟨-, w', z, st, hz, h⟩⟩
    · rw [h] at ht; cases ht
    · rw [h] at ht; cases ht
    · rw [h] at ht
      cases ht
      have hv : v = g t.x := by
        have := hu.cbEval w₀ t.x o (u.evalGrad t.w t.x).2.2
        rw [hcb] at this
        dsimp only at this
        rw [this, hu.grad]
      subst hv
      have hze : z = classic (K := ℝ) t.x (u.lmo w (g t.x)).2 t.i := by
        have h1 := hu.cbStep (u.update (u.lmo w (g t.x)).1 t.x (u.lmo w (g t.x)).2 t.i).1
          (u.update (u.lmo w (g t.x)).1 t.x (u.lmo w (g t.x)).2 t.i).2
        rw [hz] at h1
        dsimp only at h1
        rw [h1, hupd]
      obtain ⟨l1, l2⟩ := hu.lmo w (g t.x)
      have hstep := classic_step (D := D) hs hL hc (l2 y hy) (hD _ l1 _ i1) t.i
      refine ⟨?_, k + 1, by dsimp only; omega, ?_⟩
      · dsimp only
        rw [hze]
        obtain ⟨γ, g0, g1, he⟩ := C45_classic t.x (u.lmo w (g t.x)).2 t.i
        rw [he]
        exact hC i1 l1 (by linarith) g0 (by linarith)
      · dsimp only
        rw [hze]
        rw [i2] at hstep ⊢
        push_cast at hstep ⊢
        generalize f (classic (K := ℝ) t.x (u.lmo w (g t.x)).2 (k + 1)) - f y = hnew at hstep ⊢
        generalize f t.x - f y = hold at hstep i3
        generalize f x - f y = h00 at i3 ⊢
        generalize L * D ^ 2 = M at hstep i3 hM ⊢
        generalize hkk : (k : ℝ) = κ at hstep i3 ⊢
        have hk : 0 ≤ κ := by rw [← hkk]; positivity
        have e1 : 1 - 2 / (κ + 1 + 2) = (κ + 1) / (κ + 3) := by field_simp; ring
        have hpos : 0 ≤ (κ + 1) / (κ + 3) := by positivity
        rw [e1] at hstep
        have h2 := mul_le_mul_of_nonneg_left i3 hpos
        have e2 : (κ + 1) / (κ + 3) * (2 * M / (κ + 2) + 2 * h00 / ((κ + 1) * (κ + 2))) +
            (2 / (κ + 1 + 2)) ^ 2 * M / 2 =
            2 * M / (κ + 1 + 2) - 2 * M / ((κ + 2) * (κ + 3) ^ 2) + 2 * h00 / ((κ + 1 + 1) * (κ + 1 + 2)) := by
          field_simp
          ring
        have h3 : 0 ≤ 2 * M / ((κ + 2) * (κ + 3) ^ 2) := by positivity
        linarith
  · intro t r hI ht
    rcases body_cases (u := u) (m := m) t with ⟨h, -⟩ | ⟨-, -, w, o, v, stop, -, ⟨hw, h⟩ | ⟨-, w', z, st, hz, h⟩⟩
    · rw [h] at ht; cases ht; exact hI
    · rw [h] at ht; cases ht; exact hI
    · rw [h] at ht; cases ht

end Rate

/-! ### Concrete runs -/

/-- `f(x) = x` on `[-1, 1]`. -/
def lin (stop : Bool) : User Unit ℚ ℚ ℚ where
  evalGrad := fun w x => (w, x, 1)
  lmo := fun w g => (w, if 0 < g then -1 else 1)
  update := fun w x s i => (w, classic (K := ℚ) x s i)
  within := fun x s g => decide (|(x - s) * g| < 1 / 1000)
  cbBegin := fun w x => (w, x)
  cbEval := fun w _ _ g => (w, g, stop)
  cbStep := fun w x => (w, x, false)
  cbEnd := fun w x => (w, x)
  maxE := 10 ^ 308

/-- The same over the reals. -/
noncomputable def linR : User Unit ℝ ℝ ℝ where
  evalGrad := fun w x => (w, x, 1)
  lmo := fun w g => (w, if 0 < g then -1 else 1)
  update := fun w x s i => (w, classic (K := ℝ) x s i)
  within := fun x s g => decide (|inner ℝ (x - s) g| < 1 / 1000)
  cbBegin := fun w x => (w, x)
  cbEval := fun w _ _ g => (w, g, false)
  cbStep := fun w x => (w, x, false)
  cbEnd := fun w x => (w, x)
  maxE := 0

theorem linR_classic : Classic linR id (fun _ => 1) (Set.Icc (-1) 1) (1 / 1000) where
  val := fun _ _ => rfl
  grad := fun _ _ => rfl
  lmo := by
    intro w v
    have e : ∀ a b : ℝ, inner ℝ a b = a * b := fun a b => by simp [mul_comm]
    simp only [linR, e]
    split
    · rename_i h
      refine ⟨by simp, fun y hy => ?_⟩
      have := hy.1
      nlinarith
    · rename_i h
      refine ⟨by simp, fun y hy => ?_⟩
      have := hy.2
      nlinarith
  within := fun x s v => by simp [linR]
  begin_ := fun _ _ => rfl
  cbEval := fun _ _ _ _ => rfl
  cbStep := fun _ _ => rfl
  end_ := fun _ _ => rfl

theorem linR_smooth : LSmooth (id : ℝ → ℝ) (fun _ => 1) 0 where
  grad := by
    intro x
    have := (hasDerivAt_id x).hasFDerivAt
    convert! this using 1
  lip := by simp

/-- The hypotheses of `C47_rate` are met by a run that makes a step. -/
theorem linR_run : ∃ t, optimize linR 2 2 () 1 = some (.loop, t) ∧ t.i = 2 ∧ t.x = -1 / 3 := by
  have h : optimize linR 2 2 () 1 = some (.loop, ⟨(), -1 / 3, 1, false, 2, [.eval 1 1, .step (-1 / 3)]⟩) := by
    unfold optimize
    simp only [iterate, body, start, linR, classic]
    norm_num [finish]
  exact ⟨_, h, rfl, rfl⟩

example : ∃ t : St Unit ℝ ℝ, optimize linR 2 2 () 1 = some (.loop, t) ∧ t.x ∈ Set.Icc (-1 : ℝ) 1 := by
  obtain ⟨t, h, -, -⟩ := linR_run
  exact ⟨t, h, (C45_feasible (convex_Icc _ _) (fun w g => (linR_classic.lmo w g).1)
    (fun w x s i _ => C45_classic x s i) (fun _ _ => rfl) (fun _ _ => rfl) (fun _ _ => rfl) (by simp) h).1⟩

/-- **C47** (refuted) The textbook rate `f(x_k) - f* ≤ 2 L D^2 / (k + 2)` (no term in the initial gap) does not hold: the
first step has `gamma = 2/3`, not 1. For `f(x) = x` on `[-1, 1]` (`L = 0`) the bound would be 0 after one step; the
point reached from 1 is `-1/3`. -/
theorem C47_textbook_rate_refuted :
    ¬ ∀ (u : User Unit ℝ ℝ ℝ) (f : ℝ → ℝ) (g : ℝ → ℝ) (C : Set ℝ) (tol L D : ℝ), Classic u f g C tol →
      (∀ w x s i, (u.update w x s i).2 = classic (K := ℝ) x s i) → Convex ℝ C → LSmooth f g L → 0 ≤ L →
      ConvexOn ℝ Set.univ f → (∀ x ∈ C, ∀ y ∈ C, ‖x - y‖ ≤ D) → ∀ (m fuel : Nat) (x : ℝ), x ∈ C →
      ∀ (t : St Unit ℝ ℝ), optimize u m fuel () x = some (.loop, t) → ∀ y ∈ C,
      f t.x - f y ≤ 2 * (L * D ^ 2) / ((t.i : ℝ) + 1) := by
  intro h
  obtain ⟨t, h1, h2, h3⟩ := linR_run
  have := h linR id (fun _ => 1) (Set.Icc (-1) 1) (1 / 1000) 0 2 linR_classic (fun _ _ _ _ => rfl) (convex_Icc _ _) linR_smooth
    (le_refl 0) (convexOn_id convex_univ) (by
      intro x hx y hy
      rw [Real.norm_eq_abs, abs_le]
      constructor <;> linarith [hx.1, hx.2, hy.1, hy.2]) 2 2 1 (by simp) t h1 (-1) (by simp)
  rw [h3] at this
  norm_num at this

/-- **C118** (refuted) "`Optimize` returns the objective at the coordinates it leaves in `iterate`." -/
theorem C118_value_refuted :
    ¬ ∀ m, 1 < m → ∀ r, optimize (lin false) m 10 () 1 = some r → r.2.obj = r.2.x := by
  intro h
  have hv : ((optimize (lin false) 2 10 () 1).map fun r => decide (r.2.obj = r.2.x)) = some false := by decide +kernel
  rw [Option.map_eq_some_iff] at hv
  obtain ⟨r, hr, hv⟩ := hv
  exact of_decide_eq_false hv (h 2 (by decide) r hr)

def isStep {X E : Type} : Ev X E → Bool | .step _ => true | _ => false
def isStop {X E : Type} : Ev X E → Bool | .stop => true | _ => false

/-- **C118** (refuted) "No step follows a stop request": a stop requested by `EvaluateWithGradient` is honoured only
after the next step. -/
theorem C118_stop_refuted :
    ¬ ∀ m, ∀ r, optimize (lin true) m 10 () 1 = some r → ∀ pre x post, r.2.trace = pre ++ .step x :: post →
      ∀ e ∈ pre, isStop e = false := by
  intro h
  have hv : ((optimize (lin true) 5 10 () 1).map fun r => r.2.trace.map fun e => (isStep e, isStop e)) =
      some [(false, false), (false, true), (true, false)] := by decide +kernel
  rw [Option.map_eq_some_iff] at hv
  obtain ⟨r, hr, hv⟩ := hv
  obtain ⟨a, b, c, htr⟩ : ∃ a b c, r.2.trace = [a, b, c] := by
    have hl := congrArg List.length hv
    rw [List.length_map] at hl
    exact List.length_eq_three.1 hl
  · rw [htr] at hv
    simp only [List.map_cons, List.map_nil, List.cons.injEq, Prod.mk.injEq] at hv
    obtain ⟨-, ⟨-, hb⟩, ⟨hc, -⟩, -⟩ := hv
    cases c with
    | step x =>
      have := h 5 r hr [a, b] x [] (by rw [htr]; rfl) b (by simp)
      rw [this] at hb; cases hb
    | eval _ _ => cases hc
    | stop => cases hc

example : (optimize (lin false) 3 10 () 1).isSome = true ∧
    ((optimize (lin false) 0 10 () (-1)).map Prod.fst) = some .gap := by
  constructor <;> decide +kernel

end Ens.Fw
