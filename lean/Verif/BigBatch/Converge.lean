import Verif.BigBatch.Search
import Mathlib.Algebra.Order.BigOperators.Group.Finset

/-
C291: `BigBatchSGD<BacktrackingLineSearch>` (typedef `BBS_Armijo`) with a batch that holds all functions converges.
-/

namespace Ens.BigBatch

variable {V : Type} [NormedAddCommGroup V] [InnerProductSpace ℝ V]

/-- Sum of the functions `begin, …, begin + n - 1`. -/
def sumFun (f : ℕ → V → ℝ) (off n : ℕ) (x : V) : ℝ := ((List.range' off n).map fun j => f j x).sum

open Classical in
/-- The step size the line search leaves (backtracking_line_search.hpp:94-115); only used where the search ends. -/
noncomputable def searched (F : V → ℝ) (c : ℝ) (x g : V) (gB : ℝ) (reset : Bool) (s : ℝ) : ℝ :=
  if h : ∃ s' fuel, lineSearch F c x g gB reset fuel s = some s' then h.choose else s

open Classical in
/-- `BigBatchSGD` with `BacktrackingLineSearch(c)` over the reals, for the functions `f j` with gradients `G j`; the world is the step
size. There are no callbacks, and shuffling is not visible because all functions are used at once. `grow` stands for the test in
line 155 and `delta` for `batchDelta`. -/
noncomputable def armijoEnv (f : ℕ → V → ℝ) (G : ℕ → V → V) (c tol dblMax : ℝ) (grow : ℝ → ℝ → ℕ → Bool) (delta : ℕ → ℕ) :
    Env ℝ V V ℝ ℝ where
  gradient w x j := (w, G j x)
  cbGradient w _ g := (w, g, false)
  policy w x g gB _ cur _ eff reset := (searched (sumFun f cur eff) c x g gB reset w, x, g)
  step w x g := x - w • g
  evaluate w x b n := (w, sumFun f b n x)
  cbBegin w x := (w, x)
  cbStep w x := (w, x, false)
  cbEvaluate w _ _ := (w, false)
  cbEndEpoch w _ _ _ := (w, false)
  cbBeginEpoch w _ _ _ := (w, false)
  shuffle w := w
  addG a b := a + b
  mean d g k := d + (1 / (k : ℝ)) • (g - d)
  addVar v g d d' := v + ‖g - d‖ * ‖g - d'‖
  zeroR := 0
  sqNorm g n := ‖(1 / (n : ℝ)) • g‖ ^ 2
  noisy := grow
  delta := delta
  add a b := a + b
  zero := 0
  divN a n := a / n
  dblMax := dblMax
  isBad _ := false
  isClose a b := decide (|a - b| < tol)

section
variable {f : ℕ → V → ℝ} {G : ℕ → V → V} {c tol D : ℝ} {gr : ℝ → ℝ → ℕ → Bool} {dl : ℕ → ℕ} {N : ℕ} {L : ℝ}

theorem gB_le (hN : 0 < N) (g : V) : ‖(1 / (N : ℝ)) • g‖ ^ 2 ≤ ‖g‖ ^ 2 := by
  have h1 : (1 : ℝ) ≤ N := by exact_mod_cast hN
  have h2 : (1 / (N : ℝ)) ≤ 1 := by rw [div_le_one (by linarith)]; exact h1
  rw [norm_smul, Real.norm_of_nonneg (by positivity)]
  have h3 : 1 / (N : ℝ) * ‖g‖ ≤ ‖g‖ := by nlinarith [norm_nonneg g]
  exact pow_le_pow_left₀ (by positivity) h3 2

/-- The search without doubling. -/
theorem searched_spec {F : V → ℝ} {Gr : V → V} (hF : LSmooth F Gr L) (hL : 0 < L) (hc : 0 ≤ c) (hc1 : c < 1) (x : V) {gB : ℝ}
    (hgB : gB ≤ ‖Gr x‖ ^ 2) {s : ℝ} (hs : 0 < s) :
    F (x - searched F c x (Gr x) gB false s • Gr x) ≤ F x - c * searched F c x (Gr x) gB false s * gB ∧
      min s ((1 - c) / L) ≤ searched F c x (Gr x) gB false s := by
  obtain ⟨fuel, s', h1, _, _⟩ := C63_search_ends hF hL c hc hc1 (1 / 2) (by norm_num) (by norm_num) x gB hgB s hs
  have hex : ∃ s' fuel, lineSearch F c x (Gr x) gB false fuel s = some s' := ⟨s', fuel, by simpa [lineSearch] using h1⟩
  have hch : ∃ fuel, lineSearch F c x (Gr x) gB false fuel s = some (searched F c x (Gr x) gB false s) := by
    unfold searched
    rw [dif_pos hex]
    exact hex.choose_spec
  obtain ⟨fuel', h2⟩ := hch
  obtain ⟨a, k, b, d⟩ := C63_armijo F c x (Gr x) gB false fuel' s _ h2
  refine ⟨a, ?_⟩
  simp only [Bool.false_eq_true, if_false] at b d
  cases k with
  | zero => rw [b]; simp
  | succ k =>
    have hd := d k (by omega)
    have hlarge : 2 * (1 - c) / L < s / 2 ^ k := by
      by_contra hle
      exact absurd hd (not_lt.2 (accepts hF hL hc x hgB (by positivity) (not_lt.1 hle)))
    have e : s / 2 ^ (k + 1) = s / 2 ^ k / 2 := by rw [pow_succ]; field_simp
    rw [b, e]
    refine (min_le_right _ _).trans ?_
    have : (1 - c) / L = 2 * (1 - c) / L / 2 := by ring
    rw [this]
    linarith

/-- State at the head of the loop after `k` steps. -/
structure Head (N B : ℕ) (σ : ℝ) (k : ℕ) (x : V) (s : St ℝ V ℝ) : Prop where
  step : σ ≤ s.w
  pos : s.x = x
  batch : s.batchSize = B
  i : s.i = k * N
  cur : s.cur = 0
  overall : s.overall = 0
  go : s.terminate = false

theorem firstLoop_rest (x : V) : ∀ (n index : Nat) (b : Batch ℝ V V ℝ ℝ),
    (firstLoop (armijoEnv f G c tol D gr dl) x n index b).w = b.w ∧
    (firstLoop (armijoEnv f G c tol D gr dl) x n index b).batchSize = b.batchSize ∧
    (firstLoop (armijoEnv f G c tol D gr dl) x n index b).eff = b.eff ∧
    (firstLoop (armijoEnv f G c tol D gr dl) x n index b).reset = b.reset ∧
    (firstLoop (armijoEnv f G c tol D gr dl) x n index b).terminate = b.terminate ∧
    b.trace ⊆ (firstLoop (armijoEnv f G c tol D gr dl) x n index b).trace := by
  intro n
  induction n with
  | zero => intro index b; exact ⟨rfl, rfl, rfl, rfl, rfl, fun _ h => h⟩
  | succ n ih =>
    intro index b
    rw [firstLoop]
    obtain ⟨h1, h2, h3, h4, h5, h6⟩ := ih (index + 1) (addSample (armijoEnv f G c tol D gr dl) x index b.k b)
    rw [h1, h2, h3, h4, h5]
    refine ⟨by simp [addSample, oneGrad, armijoEnv], rfl, rfl, rfl, by simp [addSample, oneGrad, armijoEnv], fun e he => h6 ?_⟩
    simp [addSample, he]

theorem estimated (hN : 0 < N) {B : ℕ} (hB : N ≤ B) {σ : ℝ} {k : ℕ} {x : V} {s : St ℝ V ℝ} (p : Params) (hp : p.numFunctions = N)
    (h : Head N B σ k x s) (hk : (k + 1) * N ≤ p.actualMax) :
    ∃ b, estimate (armijoEnv f G c tol D gr dl) p s = some b ∧ b.w = s.w ∧ b.batchSize = B ∧ b.eff = N ∧ b.reset = false ∧
      b.terminate = false ∧ b.grad = sumGrad G 0 N x ∧ b.gB = ‖(1 / (N : ℝ)) • sumGrad G 0 N x‖ ^ 2 ∧
      s.trace ⊆ b.trace := by
  have heff : effBatch p s = N := by
    unfold effBatch
    rw [h.batch, h.i, h.cur, hp, Nat.sub_zero]
    have : N ≤ p.actualMax - k * N := by rw [Nat.add_mul] at hk; omega
    omega
  set env := armijoEnv f G c tol D gr dl with henv
  set b0 : Batch ℝ V V ℝ ℝ :=
    { w := (oneGrad env s.x s.cur s.w).1, batchSize := s.batchSize, eff := N, k := 1, vB := env.zeroR, gB := env.zeroR,
      grad := (oneGrad env s.x s.cur s.w).2.1, delta1 := (oneGrad env s.x s.cur s.w).2.1, reset := false,
      terminate := s.terminate || (oneGrad env s.x s.cur s.w).2.2.1, trace := s.trace ++ (oneGrad env s.x s.cur s.w).2.2.2 } with hb0
  set b1 := firstLoop env s.x (N - 1) (s.cur + 1) b0 with hb1
  obtain ⟨e1, e2, e3, e4, e5, e6⟩ := firstLoop_rest (f := f) (G := G) (c := c) (tol := tol) (D := D) (gr := gr) (dl := dl) s.x (N - 1) (s.cur + 1) b0
  have hg : b1.grad = sumGrad G 0 N x := by
    rw [hb1, firstLoop_grad env (fun x j => G j x) (fun _ _ _ => rfl) (fun _ _ _ => rfl) (fun _ _ => rfl)]
    have hr : List.range' 0 N = 0 :: List.range' 1 (N - 1) := by
      obtain ⟨m, rfl⟩ := Nat.exists_eq_succ_of_ne_zero hN.ne'
      rfl
    have hg0 : b0.grad = G 0 x := by
      rw [hb0]
      simp [oneGrad, henv, armijoEnv, h.cur, h.pos]
    rw [sumGrad, hr, List.map_cons, List.sum_cons, hg0, h.cur, h.pos]
  set b2 : Batch ℝ V V ℝ ℝ := { b1 with gB := env.sqNorm b1.grad N } with hb2
  have hest : estimate env p s = if N = s.batchSize then grow env p s.x s.cur (p.numFunctions + 1) b2 else some b2 := by
    simp only [estimate, heff]
    rfl
  have hgrow : estimate env p s = some b2 := by
    rw [hest]
    split_ifs with hbs
    · rw [grow]
      have hge : s.cur + b2.batchSize + offset env b2.batchSize ≥ p.numFunctions := by
        have : b2.batchSize = B := by rw [hb2]; exact e2.trans h.batch
        rw [this, hp]
        omega
      split_ifs with hn
      · exact if_pos hge
      · rfl
    · rfl
  refine ⟨b2, hgrow, e1, e2.trans h.batch, e3, e4, ?_, hg, ?_, fun e he => e6 (by simp [hb0, he])⟩
  · refine e5.trans ?_
    simp [hb0, h.go, oneGrad, henv, armijoEnv]
  · show env.sqNorm b1.grad N = _
    rw [hg]
    rfl

/-- What a pass through the loop does. -/
theorem passed (hF : LSmooth (sumFun f 0 N) (sumGrad G 0 N) L) (hL : 0 < L) (hc : 0 ≤ c) (hc1 : c < 1) (hN : 0 < N) {B : ℕ} (hB : N ≤ B)
    {σ : ℝ} (hσ : 0 < σ) (hσL : σ ≤ (1 - c) / L) {k : ℕ} {x : V} {s : St ℝ V ℝ} (p : Params) (hp : p.numFunctions = N)
    (h : Head N B σ k x s) (hk : (k + 1) * N ≤ p.actualMax) :
    ∃ s' y st, body (armijoEnv f G c tol D gr dl) p s = some (false, st) ∧
      y = x - s'.w • sumGrad G 0 N x ∧ σ ≤ s'.w ∧
      sumFun f 0 N y ≤ sumFun f 0 N x - c * s'.w * ‖(1 / (N : ℝ)) • sumGrad G 0 N x‖ ^ 2 ∧
      s.trace ⊆ s'.trace ∧ Ev.stepTaken y false ∈ s'.trace ∧ s'.x = y ∧ s'.terminate = false ∧ s'.batchSize = B ∧
      ((|s.last - sumFun f 0 N y| < tol ∧ st = .ret .tol s' ∧ s'.overall = sumFun f 0 N y) ∨
       (¬ |s.last - sumFun f 0 N y| < tol ∧ st = .cont s' ∧
        (((k + 1) * N < p.actualMax ∧ Head N B σ (k + 1) y s' ∧ s'.last = sumFun f 0 N y) ∨
         ((k + 1) * N = p.actualMax ∧ s'.i = p.actualMax ∧ s'.overall = sumFun f 0 N y)))) := by
  obtain ⟨b, e1, e2, e3, e4, e5, e6, e7, e8, e9⟩ := estimated (f := f) (G := G) (c := c) (tol := tol) (D := D) (gr := gr) (dl := dl) hN hB p hp h hk
  have hw : 0 < s.w := lt_of_lt_of_le hσ h.step
  obtain ⟨a1, a2⟩ := searched_spec hF hL hc hc1 x (gB_le hN (sumGrad G 0 N x)) hw
  set w' := searched (sumFun f 0 N) c x (sumGrad G 0 N x) (‖(1 / (N : ℝ)) • sumGrad G 0 N x‖ ^ 2) false s.w with hw'
  have hσ' : σ ≤ w' := (le_min h.step hσL).trans a2
  set y := x - w' • sumGrad G 0 N x with hy
  set env := armijoEnv f G c tol D gr dl with henv
  set s1 := stepPart env s b with hs1
  have p1 : s1.w = w' := by
    simp only [hs1, stepPart, henv, armijoEnv, e2, e4, e5, e7, e8, h.pos, h.cur]
    exact hw'.symm
  have p2 : s1.x = y := by
    simp only [hs1, stepPart, henv, armijoEnv, e2, e4, e5, e7, e8, h.pos, h.cur]
    rfl
  have p3 : s1.overall = sumFun f 0 N y := by
    simp only [hs1, stepPart, henv, armijoEnv, e2, e4, e5, e7, e8, h.pos, h.cur, h.overall, zero_add]
    rfl
  have p4 : s1.i = (k + 1) * N := by simp [hs1, stepPart, e4, h.i, Nat.add_mul]
  have p5 : s1.cur = N := by simp [hs1, stepPart, e4, h.cur]
  have p6 : s1.terminate = false := by simp [hs1, stepPart, e6, henv, armijoEnv]
  have p7 : s1.batchSize = B := by simp [hs1, stepPart, e3]
  have p8 : s1.last = s.last := rfl
  have p9 : s.trace ⊆ s1.trace := fun e he => by simp [hs1, stepPart, e9 he]
  have p10 : Ev.stepTaken y false ∈ s1.trace := by
    rw [← p2]
    simp [hs1, stepPart, henv, armijoEnv]
  have hbody : body env p s = some (false, epochEnd env p s1) := by
    simp only [body, e1, e6, Bool.false_eq_true, if_false, hp, hN.ne', ← hs1, p5, Nat.mod_self, if_true]
  clear_value s1
  by_cases hclose : |s.last - sumFun f 0 N y| < tol
  · refine ⟨{ s1 with epoch := s1.epoch + 1, trace := s1.trace ++ [.endEpoch s1.epoch (s1.overall / N) false] }, y, _, hbody,
      by rw [p1], by rw [p1]; exact hσ', by rw [p1]; exact a1, fun e he => by simp [p9 he], by simp [p10], p2, p6, p7,
      Or.inl ⟨hclose, ?_, p3⟩⟩
    simp [epochEnd, henv, armijoEnv, p8, p3, hclose, hp]
  · have hst : ∃ s', epochEnd env p s1 = .cont s' ∧ s'.w = w' ∧ s'.x = y ∧ s'.terminate = false ∧ s'.batchSize = B ∧
        s'.i = (k + 1) * N ∧ s1.trace ⊆ s'.trace ∧
        (if (k + 1) * N = p.actualMax then s'.overall = sumFun f 0 N y else s'.overall = 0 ∧ s'.cur = 0 ∧ s'.last = sumFun f 0 N y) := by
      by_cases hmax : (k + 1) * N = p.actualMax
      · cases hsh : p.shuffle <;>
        · refine ⟨_, by simp only [epochEnd, henv, armijoEnv, p8, p3, hclose, hsh, decide_false, Bool.false_eq_true, if_false, p4, hmax, ne_eq, not_true]; rfl, ?_⟩
          simp [hmax, p1, p2, p3, p4, p6, p7]
          try exact List.subset_append_left _ _
      · cases hsh : p.shuffle <;>
        · refine ⟨_, by simp only [epochEnd, henv, armijoEnv, p8, p3, hclose, hsh, decide_false, Bool.false_eq_true, if_false, p4, hmax, ne_eq, not_false_iff, if_true]; rfl, ?_⟩
          simp [hmax, p1, p2, p3, p4, p6, p7]
          try exact List.subset_append_left _ _
    obtain ⟨s', q1, q2, q3, q4, q5, q6, q7, q8⟩ := hst
    refine ⟨s', y, _, hbody, by rw [q2], by rw [q2]; exact hσ', by rw [q2]; exact a1, fun e he => q7 (p9 he), q7 p10, q3, q4, q5,
      Or.inr ⟨hclose, q1, ?_⟩⟩
    by_cases hmax : (k + 1) * N = p.actualMax
    · rw [if_pos hmax] at q8
      exact Or.inr ⟨hmax, q6.trans hmax, q8⟩
    · rw [if_neg hmax] at q8
      exact Or.inl ⟨lt_of_le_of_ne hk hmax, ⟨by rw [q2]; exact hσ', q3, q5, q6, q8.2.1, q8.1, q4⟩, q8.2.2⟩

/-- A step of size at least `σ` along the gradient of the sum with the decrease the line search asks for. -/
def Down (F : V → ℝ) (Gr : V → V) (c σ : ℝ) (N : ℕ) (x y : V) : Prop :=
  ∃ t, σ ≤ t ∧ y = x - t • Gr x ∧ F y ≤ F x - c * t * ‖(1 / (N : ℝ)) • Gr x‖ ^ 2

/-- `n` passes, unless the tolerance ends the run before. -/
theorem steps (hF : LSmooth (sumFun f 0 N) (sumGrad G 0 N) L) (hL : 0 < L) (hc : 0 ≤ c) (hc1 : c < 1) (hN : 0 < N) {B : ℕ} (hB : N ≤ B)
    {σ : ℝ} (hσ : 0 < σ) (hσL : σ ≤ (1 - c) / L) (p : Params) (hp : p.numFunctions = N) :
    ∀ (n k fuel : ℕ) (x : V) (s : St ℝ V ℝ), Head N B σ k x s → (k + n) * N ≤ p.actualMax →
    ∃ xs : ℕ → V, ∃ j s', xs 0 = x ∧ j ≤ n ∧ (∀ i < j, Down (sumFun f 0 N) (sumGrad G 0 N) c σ N (xs i) (xs (i + 1))) ∧
      s.trace ⊆ s'.trace ∧ (∀ i < j, Ev.stepTaken (xs (i + 1)) false ∈ s'.trace) ∧ s'.x = xs j ∧ s'.batchSize = B ∧
      ((0 < j ∧ |(if j = 1 then s.last else sumFun f 0 N (xs (j - 1))) - sumFun f 0 N (xs j)| < tol ∧
          loop (armijoEnv f G c tol D gr dl) p (fuel + n + 1) s = .done .tol s' ∧ s'.overall = sumFun f 0 N (xs j)) ∨
       (j = n ∧ (∀ i < n, tol ≤ |(if i = 0 then s.last else sumFun f 0 N (xs i)) - sumFun f 0 N (xs (i + 1))|) ∧
        ((Head N B σ (k + n) (xs n) s' ∧ loop (armijoEnv f G c tol D gr dl) p (fuel + n + 1) s =
              loop (armijoEnv f G c tol D gr dl) p (fuel + 1) s' ∧ (k * N < p.actualMax → (k + n) * N < p.actualMax)) ∨
         (0 < n ∧ (k + n) * N = p.actualMax ∧
            loop (armijoEnv f G c tol D gr dl) p (fuel + n + 1) s = .done .loop s' ∧ s'.overall = sumFun f 0 N (xs n))))) := by
  intro n
  induction n with
  | zero =>
    intro k fuel x s h _
    exact ⟨fun _ => x, 0, s, rfl, le_rfl, fun i hi => by omega, fun _ h => h, fun i hi => by omega, h.pos, h.batch,
      Or.inr ⟨rfl, fun i hi => by omega, Or.inl ⟨h, rfl, id⟩⟩⟩
  | succ n ih =>
    intro k fuel x s h hk
    have hk1 : (k + 1) * N ≤ p.actualMax := (Nat.mul_le_mul_right N (by omega)).trans hk
    have hi : s.i < p.actualMax := by
      rw [h.i]
      rw [Nat.add_mul] at hk1
      omega
    obtain ⟨s', y, st, b1, b2, b3, b4, b5, b6, b7, b8, b9, b10⟩ :=
      passed (tol := tol) (D := D) (gr := gr) (dl := dl) hF hL hc hc1 hN hB hσ hσL p hp h hk1
    have hdown : Down (sumFun f 0 N) (sumGrad G 0 N) c σ N x y := ⟨s'.w, b3, b2, b4⟩
    have hloop : loop (armijoEnv f G c tol D gr dl) p (fuel + (n + 1) + 1) s =
        match (some (false, st) : Option (Bool × BodyRes ℝ V ℝ)) with
        | none => .running s
        | some (true, .cont s') => .done .loop s'
        | some (false, .cont s') => loop (armijoEnv f G c tol D gr dl) p (fuel + (n + 1)) s'
        | some (_, .ret e s') => .done e s'
        | some (_, .ub) => .ub := by
      rw [loop, if_pos ⟨hi, h.go⟩, b1]
      cases st <;> rfl
    rcases b10 with ⟨d1, d2, d3⟩ | ⟨d1, d2, ⟨d3, d4, d5⟩ | ⟨d3, d4, d5⟩⟩
    · subst d2
      refine ⟨fun i => if i = 0 then x else y, 1, s', rfl, by omega, ?_, b5, ?_, by simp [b7], b9, Or.inl ⟨by omega, by simpa using d1, ?_, by simpa using d3⟩⟩
      · intro i hi
        obtain rfl : i = 0 := by omega
        simpa using hdown
      · intro i hi
        obtain rfl : i = 0 := by omega
        simpa using b6
      · rw [hloop]
    · subst d2
      obtain ⟨xs, j, s'', c1, c2, c3, c4, c5, c6, c7, c8⟩ := ih (k + 1) fuel y s' d4 (by rwa [Nat.add_right_comm, Nat.add_assoc])
      have hl2 : loop (armijoEnv f G c tol D gr dl) p (fuel + (n + 1) + 1) s = loop (armijoEnv f G c tol D gr dl) p (fuel + n + 1) s' := by
        rw [hloop]
        rfl
      refine ⟨fun i => if i = 0 then x else xs (i - 1), j + 1, s'', rfl, by omega, ?_, fun e he => c4 (b5 he), ?_, by simpa using c6, c7, ?_⟩
      · intro i hi
        cases i with
        | zero => simpa [c1] using hdown
        | succ i => simpa using c3 i (by omega)
      · intro i hi
        cases i with
        | zero => simpa [c1] using c4 b6
        | succ i => simpa using c5 i (by omega)
      · rcases c8 with ⟨g1, g2, g3, g4⟩ | ⟨g1, g2, g3⟩
        · refine Or.inl ⟨by omega, ?_, by rw [hl2, g3], by simpa using g4⟩
          rw [if_neg (by omega)]
          by_cases hj : j = 1
          · subst hj
            simpa [d5, c1] using g2
          · have : j ≠ 0 := by omega
            rw [if_neg hj] at g2
            simpa [this] using g2
        · refine Or.inr ⟨by omega, ?_, ?_⟩
          · intro i hi
            cases i with
            | zero => simpa [c1] using d1
            | succ i =>
              have := g2 i (by omega)
              by_cases hi0 : i = 0
              · subst hi0
                simpa [d5, c1] using this
              · simpa [hi0] using this
          · have e : k + 1 + n = k + (n + 1) := by omega
            rw [e] at g3
            rcases g3 with ⟨g3, g4, g5⟩ | ⟨g3, g4, g5, g6⟩
            · exact Or.inl ⟨by simpa using g3, by rw [hl2, g4], fun _ => g5 d3⟩
            · exact Or.inr ⟨by omega, g4, by rw [hl2, g5], by simpa using g6⟩
    · subst d2
      have hn0 : n = 0 := by
        by_contra hn
        have : (k + 1) * N < (k + (n + 1)) * N := Nat.mul_lt_mul_of_pos_right (by omega) hN
        omega
      subst hn0
      have hdone : loop (armijoEnv f G c tol D gr dl) p (fuel + 1) s' = .done .loop s' := by
        rw [loop, if_neg (by rw [d4]; omega)]
      refine ⟨fun i => if i = 0 then x else y, 1, s', rfl, by omega, ?_, b5, ?_, by simp [b7], b9, Or.inr ⟨rfl, ?_, Or.inr ⟨by omega, d3, ?_, by simpa using d5⟩⟩⟩
      · intro i hi
        obtain rfl : i = 0 := by omega
        simpa using hdown
      · intro i hi
        obtain rfl : i = 0 := by omega
        simpa using b6
      · intro i hi
        obtain rfl : i = 0 := by omega
        simpa using d1
      · rw [hloop]
        exact hdone

theorem head_start (σ : ℝ) {s₀ : ℝ} (h : σ ≤ s₀) (B : ℕ) (x : V) :
    Head N B σ 0 x (start (armijoEnv f G c tol D gr dl) B s₀ x) := ⟨h, rfl, rfl, by simp [start], rfl, rfl, rfl⟩

theorem Down.le {F : V → ℝ} {Gr : V → V} {σ : ℝ} {x y : V} (hc : 0 ≤ c) (hσ : 0 ≤ σ) (h : Down F Gr c σ N x y) :
    F y ≤ F x - c * σ * ‖(1 / (N : ℝ)) • Gr x‖ ^ 2 := by
  obtain ⟨t, h1, _, h3⟩ := h
  have : c * σ * ‖(1 / (N : ℝ)) • Gr x‖ ^ 2 ≤ c * t * ‖(1 / (N : ℝ)) • Gr x‖ ^ 2 :=
    mul_le_mul_of_nonneg_right (mul_le_mul_of_nonneg_left h1 hc) (sq_nonneg _)
  linarith

theorem Down.le' {F : V → ℝ} {Gr : V → V} {σ : ℝ} {x y : V} (hc : 0 ≤ c) (hσ : 0 ≤ σ) (h : Down F Gr c σ N x y) : F y ≤ F x := by
  have := h.le hc hσ
  have : 0 ≤ c * σ * ‖(1 / (N : ℝ)) • Gr x‖ ^ 2 := by positivity
  linarith

theorem exact_whole (hN : 0 < N) {p : Params} (hp : p.numFunctions = N) {s : St ℝ V ℝ} (hB : N ≤ s.batchSize) :
    ∃ s', exactLoop (armijoEnv f G c tol D gr dl) p p.numFunctions 0 { s with overall := (0 : ℝ) } = some s' ∧
      s'.overall = sumFun f 0 N s.x ∧ s'.x = s.x ∧ s'.batchSize = s.batchSize ∧ s.trace ⊆ s'.trace := by
  obtain ⟨M, hM⟩ := Nat.exists_eq_succ_of_ne_zero hN.ne'
  have hpn : p.numFunctions = M + 1 := hp.trans hM
  have hmin : min s.batchSize (M + 1 - 0) = N := by omega
  rw [hpn, exactLoop, if_pos (by omega)]
  have hlast : ∀ (m i : ℕ) (t : St ℝ V ℝ), M + 1 ≤ i → exactLoop (armijoEnv f G c tol D gr dl) p m i t = some t := by
    intro m i t hi
    cases m <;> simp only [exactLoop, hpn, if_neg (not_lt.2 hi)]
  simp only [hpn, hmin]
  refine ⟨_, hlast _ _ _ (by omega), ?_, rfl, rfl, ?_⟩
  · simp [armijoEnv]
  · exact List.subset_append_left _ _

/-- **C291** `BBS_Armijo` with a batch that holds all functions, an iteration limit of `K` passes and `K` or fewer passes allowed by
the tolerance: each pass moves against the gradient of the sum, with a step size that never falls below the smaller of the given step
size and `(1 - c) / L`, and decreases the objective in proportion to the squared length of the gradient. The value returned is the
objective of the coordinates returned. -/
theorem C291_descent (hF : LSmooth (sumFun f 0 N) (sumGrad G 0 N) L) (hL : 0 < L) (hc : 0 ≤ c) (hc1 : c < 1) (hN : 0 < N) {B : ℕ}
    (hB : N ≤ B) {s₀ : ℝ} (hs : 0 < s₀) (p : Params) (hp : p.numFunctions = N) {K : ℕ} (hK : 0 < K) (hmax : p.maxIterations = K * N)
    (x : V) (hD : sumFun f 0 N x + tol ≤ D) :
    ∃ r, ∃ xs : ℕ → V, ∃ j, optimize (armijoEnv f G c tol D gr dl) p (K + 1) B s₀ x = some r ∧ xs 0 = x ∧ 0 < j ∧ j ≤ K ∧ r.x = xs j ∧
      r.obj = sumFun f 0 N r.x ∧ r.batchSize = B ∧ (∀ i < j, Ev.stepTaken (xs (i + 1)) false ∈ r.trace) ∧
      (∀ i < j, ∃ t, min s₀ ((1 - c) / L) ≤ t ∧ xs (i + 1) = xs i - t • sumGrad G 0 N (xs i) ∧
        sumFun f 0 N (xs (i + 1)) ≤ sumFun f 0 N (xs i) - c * t * (‖sumGrad G 0 N (xs i)‖ / N) ^ 2) ∧
      ((r.exit = .tol ∧ sumFun f 0 N (xs (j - 1)) - sumFun f 0 N (xs j) < tol) ∨ (r.exit = .loop ∧ j = K)) := by
  have hσ : 0 < min s₀ ((1 - c) / L) := lt_min hs (div_pos (by linarith) hL)
  have hKN : K * N ≠ 0 := (Nat.mul_pos hK hN).ne'
  have hact : p.actualMax = K * N := by rw [Params.actualMax, hmax, if_neg hKN]
  obtain ⟨xs, j, s', a1, a2, a3, a4, a5, a6, a7, a8⟩ := steps (tol := tol) (D := D) (gr := gr) (dl := dl) hF hL hc hc1 hN hB hσ
    (min_le_right _ _) p hp K 0 0 x _ (head_start _ (min_le_left _ _) B x) (by rw [hact, Nat.zero_add])
  have hsc : ∀ z : V, ‖(1 / (N : ℝ)) • sumGrad G 0 N z‖ ^ 2 = (‖sumGrad G 0 N z‖ / N) ^ 2 := by
    intro z
    rw [norm_smul, Real.norm_of_nonneg (by positivity), one_div_mul_eq_div]
  have hsteps : ∀ i < j, ∃ t, min s₀ ((1 - c) / L) ≤ t ∧ xs (i + 1) = xs i - t • sumGrad G 0 N (xs i) ∧
        sumFun f 0 N (xs (i + 1)) ≤ sumFun f 0 N (xs i) - c * t * (‖sumGrad G 0 N (xs i)‖ / N) ^ 2 := by
    intro i hi
    obtain ⟨t, h1, h2, h3⟩ := a3 i hi
    exact ⟨t, h1, h2, by rw [← hsc]; exact h3⟩
  rw [Nat.zero_add] at a8
  rcases a8 with ⟨b1, b2, b3, b4⟩ | ⟨b1, b2, ⟨b3, b4, b5⟩ | ⟨b3, b4, b5, b6⟩⟩
  · refine ⟨finish .tol s', xs, j, by rw [optimize, b3], a1, b1, a2, a6, by rw [finish]; exact b4.trans (by rw [a6]), a7, ?_, hsteps, Or.inl ⟨rfl, ?_⟩⟩
    · intro i hi
      simp [finish, a5 i hi]
    · by_cases hj : j = 1
      · subst hj
        exfalso
        have h0 := (a3 0 (by omega)).le' hc hσ.le
        rw [a1] at h0
        simp only [if_true] at b2
        have : (start (armijoEnv f G c tol D gr dl) B s₀ x).last = D := rfl
        rw [this] at b2
        have := abs_lt.1 b2
        simp only [zero_add] at h0
        linarith [this.2]
      · rw [if_neg hj] at b2
        exact (abs_lt.1 b2).2
  · exfalso
    have := b5 (by rw [Nat.zero_mul, hact]; exact Nat.mul_pos hK hN)
    rw [hact] at this
    omega
  · cases hex : p.exactObjective
    · refine ⟨finish .loop s', xs, j, by rw [optimize, b5, hex]; rfl, a1, by omega, a2, a6,
        by rw [finish]; exact b6.trans (by rw [a6, b1]), a7, ?_, hsteps, Or.inr ⟨rfl, b1⟩⟩
      intro i hi
      simp [finish, a5 i hi]
    · obtain ⟨t, t1, t2, t3, t4, t5⟩ := exact_whole (f := f) (G := G) (c := c) (tol := tol) (D := D) (gr := gr) (dl := dl) hN hp
        (s := s') (by rw [a7]; exact hB)
      have hopt : optimize (armijoEnv f G c tol D gr dl) p (K + 1) B s₀ x = some (finish .loop t) := by
        rw [optimize, b5]
        simp only [hex, if_true]
        show (exactLoop (armijoEnv f G c tol D gr dl) p p.numFunctions 0 { s' with overall := (0 : ℝ) }).map (finish .loop) = _
        rw [t1]
        rfl
      refine ⟨finish .loop t, xs, j, hopt, a1, by omega, a2, t3.trans a6, ?_, t4.trans a7, ?_, hsteps, Or.inr ⟨rfl, b1⟩⟩
      · show t.overall = sumFun f 0 N t.x
        rw [t2, t3]
      · intro i hi
        have := t5 (a5 i hi)
        simp [finish, this]

theorem down_sum {F : V → ℝ} {Gr : V → V} {κ m : ℝ} (hm : ∀ z, m ≤ F z) {xs : ℕ → V} :
    ∀ {j : ℕ}, (∀ i < j, F (xs (i + 1)) ≤ F (xs i) - κ * (‖Gr (xs i)‖ / N) ^ 2) →
    κ * ∑ i ∈ Finset.range j, (‖Gr (xs i)‖ / N) ^ 2 ≤ F (xs 0) - F (xs j)
  | 0, _ => by simp
  | j + 1, h => by
    have ih := down_sum hm (j := j) fun i hi => h i (by omega)
    have := h j (by omega)
    rw [Finset.sum_range_succ, mul_add]
    linarith

/-- **C291** Without tolerance: some pass within the limit of `K` starts from a point with a small gradient; if moreover the objective
satisfies the Polyak-Łojasiewicz inequality (as strongly convex functions do), the objective approaches its minimum at a linear rate. -/
theorem C291_converges (hF : LSmooth (sumFun f 0 N) (sumGrad G 0 N) L) (hL : 0 < L) (hc : 0 < c) (hc1 : c < 1) (hN : 0 < N) {B : ℕ}
    (hB : N ≤ B) {s₀ : ℝ} (hs : 0 < s₀) (p : Params) (hp : p.numFunctions = N) {K : ℕ} (hK : 0 < K) (hmax : p.maxIterations = K * N)
    (x : V) (hD : sumFun f 0 N x ≤ D) {m : ℝ} (hm : ∀ z, m ≤ sumFun f 0 N z) :
    ∃ r, optimize (armijoEnv f G c 0 D gr dl) p (K + 1) B s₀ x = some r ∧
      (∃ y, (y = x ∨ Ev.stepTaken y false ∈ r.trace) ∧
        ‖sumGrad G 0 N y‖ ^ 2 ≤ N ^ 2 * (sumFun f 0 N x - m) / (c * min s₀ ((1 - c) / L) * K)) ∧
      ∀ μ, 0 ≤ μ → (∀ z, 2 * μ * (sumFun f 0 N z - m) ≤ ‖sumGrad G 0 N z‖ ^ 2) → 2 * μ * c * min s₀ ((1 - c) / L) ≤ N ^ 2 →
        r.obj - m ≤ (1 - 2 * μ * c * min s₀ ((1 - c) / L) / N ^ 2) ^ K * (sumFun f 0 N x - m) := by
  obtain ⟨r, xs, j, h1, h2, h3, h4, h5, h6, _, h8, h9, h10⟩ :=
    C291_descent (tol := 0) (D := D) (gr := gr) (dl := dl) hF hL hc.le hc1 hN hB hs p hp hK hmax x (by linarith)
  have hσ : 0 < min s₀ ((1 - c) / L) := lt_min hs (div_pos (by linarith) hL)
  set σ := min s₀ ((1 - c) / L) with hσdef
  have hNr : (0 : ℝ) < N := by exact_mod_cast hN
  have hKr : (0 : ℝ) < K := by exact_mod_cast hK
  have hd : ∀ i < j, sumFun f 0 N (xs (i + 1)) ≤ sumFun f 0 N (xs i) - c * σ * (‖sumGrad G 0 N (xs i)‖ / N) ^ 2 := by
    intro i hi
    obtain ⟨t, t1, _, t3⟩ := h9 i hi
    have : c * σ * (‖sumGrad G 0 N (xs i)‖ / N) ^ 2 ≤ c * t * (‖sumGrad G 0 N (xs i)‖ / N) ^ 2 :=
      mul_le_mul_of_nonneg_right (mul_le_mul_of_nonneg_left t1 hc.le) (sq_nonneg _)
    linarith
  have hj : j = K := by
    rcases h10 with ⟨_, h⟩ | ⟨_, h⟩
    · exfalso
      have := hd (j - 1) (by omega)
      rw [Nat.sub_add_cancel h3] at this
      have h0 : 0 ≤ c * σ * (‖sumGrad G 0 N (xs (j - 1))‖ / N) ^ 2 := by positivity
      linarith
    · exact h
  subst hj
  refine ⟨r, h1, ?_, ?_⟩
  · have hsum := down_sum (N := N) hm hd
    obtain ⟨i, hi, hle⟩ := Finset.exists_le_of_sum_le (s := Finset.range j) (f := fun i => (‖sumGrad G 0 N (xs i)‖ / N) ^ 2)
      (g := fun _ => (∑ i ∈ Finset.range j, (‖sumGrad G 0 N (xs i)‖ / N) ^ 2) / j) ⟨0, by simpa using hK⟩
      (by rw [Finset.sum_const, Finset.card_range, nsmul_eq_mul, mul_div_cancel₀ _ hKr.ne'])
    have hi' : i < j := Finset.mem_range.1 hi
    refine ⟨xs i, ?_, ?_⟩
    · cases i with
      | zero => exact Or.inl h2
      | succ i => exact Or.inr (h8 i (by omega))
    · have hb : c * σ * ∑ i ∈ Finset.range j, (‖sumGrad G 0 N (xs i)‖ / N) ^ 2 ≤ sumFun f 0 N x - m := by
        rw [h2] at hsum
        linarith [hm (xs j)]
      rw [div_pow, div_le_div_iff₀ (by positivity) hKr] at hle
      rw [le_div_iff₀ (by positivity)]
      have h7 := mul_le_mul_of_nonneg_left hb (sq_nonneg (N : ℝ))
      have h8' := mul_le_mul_of_nonneg_left hle (mul_pos hc hσ).le
      nlinarith
  · intro μ hμ hpl hq
    have hrate : ∀ i ≤ j, sumFun f 0 N (xs i) - m ≤ (1 - 2 * μ * c * σ / N ^ 2) ^ i * (sumFun f 0 N x - m) := by
      intro i
      induction i with
      | zero => intro _; rw [h2]; simp
      | succ i ih =>
        intro hi
        have h11 := ih (by omega)
        have h12 := hd i (by omega)
        have h13 := hpl (xs i)
        have hq0 : 0 ≤ 1 - 2 * μ * c * σ / N ^ 2 := by
          rw [sub_nonneg, div_le_one (by positivity)]
          exact hq
        have h14 : sumFun f 0 N (xs (i + 1)) - m ≤ (1 - 2 * μ * c * σ / N ^ 2) * (sumFun f 0 N (xs i) - m) := by
          have h15 : 2 * μ * c * σ / N ^ 2 * (sumFun f 0 N (xs i) - m) ≤ c * σ * (‖sumGrad G 0 N (xs i)‖ / N) ^ 2 := by
            have e1 : 2 * μ * c * σ / N ^ 2 * (sumFun f 0 N (xs i) - m) = c * σ / N ^ 2 * (2 * μ * (sumFun f 0 N (xs i) - m)) := by ring
            have e2 : c * σ * (‖sumGrad G 0 N (xs i)‖ / N) ^ 2 = c * σ / N ^ 2 * ‖sumGrad G 0 N (xs i)‖ ^ 2 := by rw [div_pow]; ring
            rw [e1, e2]
            exact mul_le_mul_of_nonneg_left h13 (by positivity)
          linarith
        rw [pow_succ]
        calc _ ≤ _ := h14
          _ ≤ (1 - 2 * μ * c * σ / N ^ 2) * ((1 - 2 * μ * c * σ / N ^ 2) ^ i * (sumFun f 0 N x - m)) := mul_le_mul_of_nonneg_left h11 hq0
          _ = _ := by ring
    rw [h6, h5]
    exact hrate j le_rfl

/-- **C291** With a positive tolerance and an objective that is bounded below, the run ends by itself, after a number of passes that
depends on the tolerance only, at a point reached by a step from a point with a small gradient. -/
theorem C291_ends (hF : LSmooth (sumFun f 0 N) (sumGrad G 0 N) L) (hL : 0 < L) (hc : 0 < c) (hc1 : c < 1) (hN : 0 < N) {B : ℕ}
    (hB : N ≤ B) {s₀ : ℝ} (hs : 0 < s₀) (p : Params) (hp : p.numFunctions = N) (x : V) (hD : sumFun f 0 N x + tol ≤ D) {m : ℝ}
    (hm : ∀ z, m ≤ sumFun f 0 N z) {n : ℕ} (hn : sumFun f 0 N x - m < n * tol) (hmax : (n + 1) * N ≤ p.actualMax) :
    ∃ r y t, optimize (armijoEnv f G c tol D gr dl) p (n + 2) B s₀ x = some r ∧ r.exit = .tol ∧ r.obj = sumFun f 0 N r.x ∧
      min s₀ ((1 - c) / L) ≤ t ∧ r.x = y - t • sumGrad G 0 N y ∧ r.obj ≤ sumFun f 0 N x ∧
      c * min s₀ ((1 - c) / L) * (‖sumGrad G 0 N y‖ / N) ^ 2 < tol := by
  have hσ : 0 < min s₀ ((1 - c) / L) := lt_min hs (div_pos (by linarith) hL)
  have hsc : ∀ z : V, ‖(1 / (N : ℝ)) • sumGrad G 0 N z‖ ^ 2 = (‖sumGrad G 0 N z‖ / N) ^ 2 := by
    intro z
    rw [norm_smul, Real.norm_of_nonneg (by positivity), one_div_mul_eq_div]
  obtain ⟨xs, j, s', a1, a2, a3, a4, a5, a6, a7, a8⟩ := steps (tol := tol) (D := D) (gr := gr) (dl := dl) hF hL hc.le hc1 hN hB hσ
    (min_le_right _ _) p hp (n + 1) 0 0 x _ (head_start _ (min_le_left _ _) B x) (by rw [Nat.zero_add]; exact hmax)
  have hmono : ∀ i ≤ j, sumFun f 0 N (xs i) ≤ sumFun f 0 N x := by
    intro i
    induction i with
    | zero => intro _; rw [a1]
    | succ i ih => intro hi; exact ((a3 i (by omega)).le' hc.le hσ.le).trans (ih (by omega))
  rw [Nat.zero_add] at a8
  rcases a8 with ⟨b1, b2, b3, b4⟩ | ⟨b1, b2, _⟩
  · obtain ⟨t, t1, t2, t3⟩ := a3 (j - 1) (by omega)
    rw [Nat.sub_add_cancel b1] at t2 t3
    have hlast : sumFun f 0 N (xs (j - 1)) - sumFun f 0 N (xs j) < tol := by
      by_cases hj : j = 1
      · subst hj
        exfalso
        have h0 := (a3 0 (by omega)).le' hc.le hσ.le
        rw [a1] at h0
        simp only [if_true] at b2
        have : (start (armijoEnv f G c tol D gr dl) B s₀ x).last = D := rfl
        rw [this] at b2
        have := abs_lt.1 b2
        simp only [zero_add] at h0
        linarith [this.2]
      · rw [if_neg hj] at b2
        exact (abs_lt.1 b2).2
    refine ⟨finish .tol s', xs (j - 1), t, by rw [optimize, b3], rfl, by rw [finish]; exact b4.trans (by rw [a6]), t1, a6.trans t2,
      by rw [finish]; exact b4.le.trans (hmono j le_rfl), ?_⟩
    have := (show Down (sumFun f 0 N) (sumGrad G 0 N) c (min s₀ ((1 - c) / L)) N (xs (j - 1)) (xs j) from ⟨t, t1, t2, t3⟩).le hc.le hσ.le
    rw [hsc] at this
    linarith
  · exfalso
    subst b1
    have hdrop : ∀ i ≤ n, sumFun f 0 N (xs (i + 1)) ≤ sumFun f 0 N x - i * tol := by
      intro i
      induction i with
      | zero => intro _; simpa using hmono 1 (by omega)
      | succ i ih =>
        intro hi
        have h1 := ih (by omega)
        have h2 := b2 (i + 1) (by omega)
        rw [if_neg (by omega)] at h2
        have h3 := (a3 (i + 1) (by omega)).le' hc.le hσ.le
        rw [abs_of_nonneg (by linarith)] at h2
        push_cast
        linarith
    have := hdrop n le_rfl
    linarith [hm (xs (n + 1))]

/-- Two functions `x² / 2` and `(x - 2)² / 2` of one variable meet the hypotheses, with the default parameter `0.1`. -/
example : ∃ (f : ℕ → ℝ → ℝ) (G : ℕ → ℝ → ℝ), LSmooth (sumFun f 0 2) (sumGrad G 0 2) 2 ∧ (∀ z, 1 ≤ sumFun f 0 2 z) ∧
    (∀ z, 2 * 2 * (sumFun f 0 2 z - 1) ≤ ‖sumGrad G 0 2 z‖ ^ 2) ∧ sumFun f 0 2 5 = 17 ∧
    2 * 2 * (0.1 : ℝ) * min 1 ((1 - 0.1) / 2) ≤ (2 : ℕ) ^ 2 := by
  refine ⟨fun j x => (x - 2 * j) ^ 2 / 2, fun j x => x - 2 * j, ⟨?_, ?_⟩, ?_, ?_, ?_, ?_⟩
  · intro x
    have e : sumFun (fun j x => (x - 2 * (j : ℝ)) ^ 2 / 2) 0 2 = fun x : ℝ => (x - 1) ^ 2 + 1 := by
      funext x
      simp [sumFun, List.range']
      ring
    have e2 : sumGrad (fun j x => x - 2 * (j : ℝ)) 0 2 x = 2 * (x - 1) := by
      simp [sumGrad, List.range']
      ring
    rw [e, e2]
    have h : HasDerivAt (fun x : ℝ => (x - 1) ^ 2 + 1) (2 * (x - 1)) x := by
      have := (((hasDerivAt_id x).sub_const 1).pow 2).add_const 1
      simpa using this
    have h2 : (innerSL ℝ (2 * (x - 1)) : ℝ →L[ℝ] ℝ) = ContinuousLinearMap.toSpanSingleton ℝ (2 * (x - 1)) := by
      apply ContinuousLinearMap.ext
      intro y
      simp
    rw [h2]
    exact h.hasFDerivAt
  · intro x y
    have e2 : ∀ x, sumGrad (fun j x => x - 2 * (j : ℝ)) 0 2 x = 2 * (x - 1) := by
      intro x
      simp [sumGrad, List.range']
      ring
    rw [e2, e2, show 2 * (x - 1) - 2 * (y - 1) = 2 * (x - y) by ring, norm_mul]
    simp
  · intro z
    simp [sumFun, List.range']
    nlinarith [sq_nonneg (z - 1)]
  · intro z
    simp [sumFun, sumGrad, List.range']
    nlinarith [sq_nonneg (z - 1)]
  · simp [sumFun, List.range']
    norm_num
  · norm_num

end

end Ens.BigBatch
