import Verif.BigBatch.Converge
import Verif.Analysis.Smooth
import Mathlib.Analysis.Convex.Mul

/-
C299: the step size of `BigBatchSGD<AdaptiveStepsize>` (typedef `BBS_BB`) collapses when the variance term vanishes
(/repo/include/ensmallen_bits/bigbatch_sgd/adaptive_stepsize.hpp, lines 92-182).
-/

namespace Ens.BigBatch

variable {V : Type} [NormedAddCommGroup V] [InnerProductSpace ℝ V]

/-! ### The variance term -/

theorem varLoop_const (g : V) : ∀ (m k : ℕ) (v : ℝ), varLoop (List.replicate m g) k g v = v := by
  intro m
  induction m with
  | zero => intro k v; rfl
  | succ m ih => intro k v; simp [List.replicate_succ, varLoop, ih]

/-- Functions with the same gradient have no variance. -/
theorem batchVar_same (γ : V → V) (off n : ℕ) (x : V) : batchVar (fun _ => γ) off n x = 0 := by
  simp [batchVar, varLoop_const]

/-- Batches of one or two functions have no variance term, whatever their gradients: the first division is by `k = 1`. -/
theorem batchVar_small (G : ℕ → V → V) (off : ℕ) {n : ℕ} (hn : n ≤ 2) (x : V) : batchVar G off n x = 0 := by
  rcases (show n - 1 = 0 ∨ n - 1 = 1 by omega) with h | h <;> simp [batchVar, varLoop, h, List.range']

/-! ### The policy when the variance term vanishes -/

theorem backtrack_more (F : V → ℝ) (c shrink : ℝ) (x g : V) (gB : ℝ) : ∀ (fuel fuel' : ℕ) (s s' : ℝ), fuel ≤ fuel' →
    backtrack F c shrink x g gB fuel s = some s' → backtrack F c shrink x g gB fuel' s = some s' := by
  intro fuel
  induction fuel with
  | zero => intro _ s s' _ h; cases h
  | succ fuel ih =>
    intro fuel' s s' hle h
    obtain ⟨m, rfl⟩ : ∃ m, fuel' = m + 1 := ⟨fuel' - 1, by omega⟩
    rw [backtrack] at h ⊢
    split at h
    · rename_i hc; rw [if_pos hc]; exact ih m _ _ (by omega) h
    · rename_i hc; rw [if_neg hc]; exact h

/-- A search along the gradient of a smooth objective ends, also when it starts at 0. -/
theorem backtrack_ends {F : V → ℝ} {Gr : V → V} {L : ℝ} (hF : LSmooth F Gr L) (hL : 0 < L) {c : ℝ} (hc : 0 ≤ c) (hc1 : c < 1)
    {shrink : ℝ} (hsh : 0 < shrink) (hsh1 : shrink < 1) (x : V) {gB : ℝ} (hgB : gB ≤ ‖Gr x‖ ^ 2) {s : ℝ} (hs : 0 ≤ s) :
    ∃ fuel s', backtrack F c shrink x (Gr x) gB fuel s = some s' := by
  rcases hs.eq_or_lt with rfl | hs
  · exact ⟨1, 0, by simp [backtrack]⟩
  · obtain ⟨fuel, s', h, _⟩ := C63_search_ends hF hL c hc hc1 shrink hsh hsh1 x gB hgB s hs
    exact ⟨fuel, s', h⟩

/-- What a call leaves when the variance term is 0: the step size found by the first search, times `1 - batchSize / numFunctions`, times a
power of the shrinking factor. -/
theorem adaptive_flat {F : V → ℝ} {G : ℕ → V → V} {N : ℕ} {c shrink : ℝ} {off B n fuel : ℕ} {s : ℝ} {x g : V} {gB : ℝ}
    {prev : Option V} (hv : ∀ y, batchVar G off n y = 0) {r : ℝ × V × V × ℝ × Option V}
    (h : adaptive F G N c shrink off B n fuel s x g gB prev = some r) :
    ∃ k m : ℕ, r.2.1 = x - (s * shrink ^ k) • g ∧ r.2.2.1 = sumGrad G off n r.2.1 ∧
      r.1 = s * shrink ^ k * (1 - (B : ℝ) / N) * shrink ^ m := by
  unfold adaptive at h
  split at h
  · cases h
  rename_i s₁ h1
  dsimp only at h
  rw [hv] at h
  simp only [ne_eq, not_true, false_and, and_false, if_false, zero_mul, add_zero] at h
  split at h
  · cases h
  rename_i s₃ h3
  simp only [Option.some.injEq] at h
  subst h
  obtain ⟨_, k, a, _⟩ := backtrack_spec _ _ _ _ _ _ _ _ _ h1
  obtain ⟨_, m, b, _⟩ := backtrack_spec _ _ _ _ _ _ _ _ _ h3
  exact ⟨k, m, by rw [← a], rfl, by rw [← a]; exact b⟩

/-- For a smooth batch objective, batch size at most the number of functions, and no variance, a call ends. -/
theorem adaptive_ends {F : V → ℝ} {G : ℕ → V → V} {L : ℝ} {N : ℕ} {c shrink : ℝ} {off B n : ℕ} (hF : LSmooth F (sumGrad G off n) L)
    (hL : 0 < L) (hc : 0 ≤ c) (hc1 : c < 1) (hsh : 0 < shrink) (hsh1 : shrink < 1) (hn : 0 < n) (hB : B ≤ N)
    (hv : ∀ y, batchVar G off n y = 0) {s : ℝ} (hs : 0 ≤ s) (x : V) (prev : Option V) :
    ∃ fuel r, adaptive F G N c shrink off B n fuel s x (sumGrad G off n x) (‖(1 / (n : ℝ)) • sumGrad G off n x‖ ^ 2) prev = some r := by
  obtain ⟨f₁, s₁, h1⟩ := backtrack_ends hF hL hc hc1 hsh hsh1 x (gB_le hn (sumGrad G off n x)) hs
  obtain ⟨_, k, a, _⟩ := backtrack_spec _ _ _ _ _ _ _ _ _ h1
  have hs₁ : 0 ≤ s₁ := by rw [a]; positivity
  have hfac : (0 : ℝ) ≤ 1 - (B : ℝ) / N := by
    have : (B : ℝ) ≤ N := by exact_mod_cast hB
    rcases Nat.eq_zero_or_pos N with rfl | hN
    · simp
    · have hN' : (0 : ℝ) < N := by exact_mod_cast hN
      rw [sub_nonneg, div_le_one hN']; exact this
  obtain ⟨f₂, s₃, h3⟩ := backtrack_ends hF hL hc hc1 hsh hsh1 (x - s₁ • sumGrad G off n x)
    (gB_le hn (sumGrad G off n (x - s₁ • sumGrad G off n x))) (mul_nonneg hs₁ hfac)
  refine ⟨max f₁ f₂, (s₃, x - s₁ • sumGrad G off n x, sumGrad G off n (x - s₁ • sumGrad G off n x),
    ‖(1 / (n : ℝ)) • sumGrad G off n (x - s₁ • sumGrad G off n x)‖ ^ 2, some (x - s₁ • sumGrad G off n x)), ?_⟩
  unfold adaptive
  rw [backtrack_more _ _ _ _ _ _ _ _ _ _ (le_max_left f₁ f₂) h1]
  dsimp only
  rw [hv]
  simp only [ne_eq, not_true, false_and, and_false, if_false, zero_mul, add_zero]
  rw [backtrack_more _ _ _ _ _ _ _ _ _ _ (le_max_right f₁ f₂) h3]

/-- **C299** (the call hangs). With a batch size larger than the number of functions (the default is 1000) and no variance, the smoothing turns
the step size negative. If the batch objective is convex, then, unless the move of the first search leads exactly to a stationary point,
the second search tries ever smaller negative step sizes, all of which go uphill: it does not end. (In floating-point arithmetic it ends
when the step size has underflowed to `-0`, after which the optimizer never moves again.) -/
theorem C299_hangs {F : V → ℝ} {G : ℕ → V → V} {N : ℕ} {c shrink : ℝ} {off B n : ℕ} (hF : IsGrad F (sumGrad G off n))
    (hcv : ConvexOn ℝ Set.univ F) (hc : 0 < c) (hc1 : c < 1) (hsh : 0 < shrink) (hN : 0 < N) (hn : 0 < n) (hB : N < B)
    (hv : ∀ y, batchVar G off n y = 0) {s : ℝ} (hs : 0 < s) (x : V) (prev : Option V) (gB : ℝ)
    (hne : ∀ k : ℕ, sumGrad G off n (x - (s * shrink ^ k) • sumGrad G off n x) ≠ 0) (fuel : ℕ) :
    adaptive F G N c shrink off B n fuel s x (sumGrad G off n x) gB prev = none := by
  unfold adaptive
  cases h1 : backtrack F c shrink x (sumGrad G off n x) gB fuel s with
  | none => rfl
  | some s₁ =>
    dsimp only
    obtain ⟨_, k, a, _⟩ := backtrack_spec _ _ _ _ _ _ _ _ _ h1
    rw [hv]
    simp only [ne_eq, not_true, false_and, and_false, if_false, zero_mul, add_zero]
    have hne' : sumGrad G off n (x - s₁ • sumGrad G off n x) ≠ 0 := by rw [a]; exact hne k
    have hs₁ : 0 < s₁ := by rw [a]; positivity
    generalize x - s₁ • sumGrad G off n x = x₁ at hne' ⊢
    have hfac : (1 - (B : ℝ) / N) < 0 := by
      have hN' : (0 : ℝ) < N := by exact_mod_cast hN
      have : (N : ℝ) < B := by exact_mod_cast hB
      rw [sub_neg, lt_div_iff₀ hN']; linarith
    rw [backtrack_none F c shrink x₁ (sumGrad G off n x₁) _ (fun t => t < 0) (fun t ht => mul_neg_of_neg_of_pos ht hsh) ?_ fuel _
      (mul_neg_of_pos_of_neg hs₁ hfac)]
    intro t ht
    have hfo := convex_first_order hF hcv x₁ (x₁ - t • sumGrad G off n x₁)
    rw [sub_sub_cancel_left, inner_neg_right, inner_smul_right, real_inner_self_eq_norm_sq] at hfo
    have hp : 0 < ‖sumGrad G off n x₁‖ ^ 2 := by have := norm_pos_iff.2 hne'; positivity
    have hle := gB_le hn (sumGrad G off n x₁)
    have h3 : c * (-t) * ‖(1 / (n : ℝ)) • sumGrad G off n x₁‖ ^ 2 ≤ c * (-t) * ‖sumGrad G off n x₁‖ ^ 2 :=
      mul_le_mul_of_nonneg_left hle (by nlinarith)
    nlinarith [mul_pos (neg_pos.2 ht) hp]

/-! ### Whole runs -/

open Classical in
/-- `BigBatchSGD` with `AdaptiveStepsize(shrink, c)` over the reals, for `N` functions `f j` with gradients `G j`; the world is the step size
and the policy's `iteratePrev`. There are no callbacks, and the functions keep their order (`Shuffle` of the functions is a no-op). A call of
the policy that does not end is only used where it ends. The test of line 155 of bigbatch_sgd_impl.hpp is false for a batch size of 1, where
its right-hand side is `1 / 0 * 0`. -/
noncomputable def adaptEnv (f : ℕ → V → ℝ) (G : ℕ → V → V) (N : ℕ) (c shrink tol dblMax : ℝ) (delta : ℕ → ℕ) :
    Env (ℝ × Option V) V V ℝ ℝ where
  gradient w x j := (w, G j x)
  cbGradient w _ g := (w, g, false)
  policy w x g gB _ cur B eff _ :=
    if h : ∃ r fuel, adaptive (sumFun f cur eff) G N c shrink cur B eff fuel w.1 x g gB w.2 = some r then
      ((h.choose.1, h.choose.2.2.2.2), h.choose.2.1, h.choose.2.2.1)
    else (w, x, g)
  step w x g := x - w.1 • g
  evaluate w x b n := (w, sumFun f b n x)
  cbBegin w x := (w, x)
  cbStep w x := (w, x, false)
  cbEvaluate w _ _ := (w, false)
  cbEndEpoch w _ _ _ := (w, false)
  cbBeginEpoch w _ _ _ := (w, false)
  shuffle w := w
  addG a b := a + b
  mean d g k := d + (1 / (k : ℝ)) • (g - d)
  addVar v g d d' := v + ‖g - d‖ * ‖g - d'‖
  zeroR := 0
  sqNorm g n := ‖(1 / (n : ℝ)) • g‖ ^ 2
  noisy gB vB B := decide (B ≠ 1 ∧ gB ≤ 1 / ((B : ℝ) - 1) * vB / B)
  delta := delta
  add a b := a + b
  zero := 0
  divN a n := a / n
  dblMax := dblMax
  isBad _ := false
  isClose a b := decide (|a - b| < tol)

/-- The points reported to `StepTaken`, in order. -/
def moves {M E : Type} (t : List (Ev M E)) : List M := t.filterMap fun e => match e with | .stepTaken x _ => some x | _ => none

theorem moves_append {M E : Type} (t t' : List (Ev M E)) : moves (t ++ t') = moves t ++ moves t' := List.filterMap_append

section
variable {f : ℕ → V → ℝ} {G : ℕ → V → V} {c shrink tol D : ℝ} {dl : ℕ → ℕ} {N B : ℕ}

theorem firstLoop_kept (x : V) : ∀ (n index : Nat) (b : Batch (ℝ × Option V) V V ℝ ℝ),
    (firstLoop (adaptEnv f G N c shrink tol D dl) x n index b).w = b.w ∧
    (firstLoop (adaptEnv f G N c shrink tol D dl) x n index b).batchSize = b.batchSize ∧
    (firstLoop (adaptEnv f G N c shrink tol D dl) x n index b).eff = b.eff ∧
    (firstLoop (adaptEnv f G N c shrink tol D dl) x n index b).terminate = b.terminate ∧
    moves (firstLoop (adaptEnv f G N c shrink tol D dl) x n index b).trace = moves b.trace := by
  intro n
  induction n with
  | zero => intro index b; exact ⟨rfl, rfl, rfl, rfl, rfl⟩
  | succ n ih =>
    intro index b
    rw [firstLoop]
    obtain ⟨h1, h2, h3, h4, h5⟩ := ih (index + 1) (addSample (adaptEnv f G N c shrink tol D dl) x index b.k b)
    rw [h1, h2, h3, h4, h5]
    refine ⟨by simp [addSample, oneGrad, adaptEnv], rfl, rfl, by simp [addSample, oneGrad, adaptEnv], ?_⟩
    simp [addSample, oneGrad, moves]

/-- The estimation of a batch that is not enlarged. -/
theorem adapt_estimate (p : Params) (hp : p.numFunctions = N) {s : St (ℝ × Option V) V ℝ} (hB : s.batchSize = 1 ∨ N ≤ s.batchSize)
    (heff : 0 < effBatch p s) :
    ∃ b, estimate (adaptEnv f G N c shrink tol D dl) p s = some b ∧ b.w = s.w ∧ b.batchSize = s.batchSize ∧ b.eff = effBatch p s ∧
      b.terminate = s.terminate ∧ b.grad = sumGrad G s.cur (effBatch p s) s.x ∧
      b.gB = ‖(1 / (effBatch p s : ℝ)) • sumGrad G s.cur (effBatch p s) s.x‖ ^ 2 ∧ moves b.trace = moves s.trace := by
  set n := effBatch p s with hn
  set env := adaptEnv f G N c shrink tol D dl with henv
  set b0 : Batch (ℝ × Option V) V V ℝ ℝ :=
    { w := (oneGrad env s.x s.cur s.w).1, batchSize := s.batchSize, eff := n, k := 1, vB := env.zeroR, gB := env.zeroR,
      grad := (oneGrad env s.x s.cur s.w).2.1, delta1 := (oneGrad env s.x s.cur s.w).2.1, reset := false,
      terminate := s.terminate || (oneGrad env s.x s.cur s.w).2.2.1, trace := s.trace ++ (oneGrad env s.x s.cur s.w).2.2.2 } with hb0
  set b1 := firstLoop env s.x (n - 1) (s.cur + 1) b0 with hb1
  obtain ⟨e1, e2, e3, e4, e5⟩ := firstLoop_kept (f := f) (G := G) (N := N) (c := c) (shrink := shrink) (tol := tol) (D := D) (dl := dl)
    s.x (n - 1) (s.cur + 1) b0
  have hg : b1.grad = sumGrad G s.cur n s.x := by
    rw [hb1, firstLoop_grad env (fun x j => G j x) (fun _ _ _ => rfl) (fun _ _ _ => rfl) (fun _ _ => rfl)]
    have hr : List.range' s.cur n = s.cur :: List.range' (s.cur + 1) (n - 1) := by
      obtain ⟨m, hm⟩ := Nat.exists_eq_succ_of_ne_zero heff.ne'
      rw [hm]
      rfl
    rw [sumGrad, hr, List.map_cons, List.sum_cons]
    rfl
  set b2 : Batch (ℝ × Option V) V V ℝ ℝ := { b1 with gB := env.sqNorm b1.grad n } with hb2
  have hest : estimate env p s = if n = s.batchSize then grow env p s.x s.cur (p.numFunctions + 1) b2 else some b2 := by
    simp only [estimate, ← hn]
    rfl
  have hbs2 : b2.batchSize = s.batchSize := e2
  have hgrow : estimate env p s = some b2 := by
    rw [hest]
    split_ifs with hbs
    · rw [grow]
      split_ifs with hno
      · refine if_pos ?_
        rcases hB with h1 | h1
        · rw [hbs2, h1] at hno
          simp [henv, adaptEnv] at hno
        · rw [hbs2, hp]; omega
      · rfl
    · rfl
  refine ⟨b2, hgrow, e1, hbs2, e3, ?_, hg, ?_, ?_⟩
  · refine e4.trans ?_
    simp [hb0, oneGrad, henv, adaptEnv]
  · show env.sqNorm b1.grad n = _
    rw [hg]
    rfl
  · refine e5.trans ?_
    simp [hb0, oneGrad, moves]

/-- One step after the estimation. -/
theorem adapt_step (hsm : ∀ off n, 0 < n → n ≤ B → ∃ L, 0 < L ∧ LSmooth (sumFun f off n) (sumGrad G off n) L)
    (hv : ∀ off n y, n ≤ B → batchVar G off n y = 0) (hc : 0 ≤ c) (hc1 : c < 1) (hsh : 0 < shrink) (hsh1 : shrink < 1) (hBN : B ≤ N)
    {s : St (ℝ × Option V) V ℝ} {b : Batch (ℝ × Option V) V V ℝ ℝ} {n : ℕ} (hn : 0 < n) (hnB : n ≤ B) (h1 : b.w = s.w)
    (h2 : b.batchSize = B) (h3 : b.eff = n) (h4 : b.grad = sumGrad G s.cur n s.x)
    (h5 : b.gB = ‖(1 / (n : ℝ)) • sumGrad G s.cur n s.x‖ ^ 2) (hs : 0 ≤ s.w.1) :
    ∃ (k m : ℕ) (x₁ : V) (σ : ℝ), x₁ = s.x - (s.w.1 * shrink ^ k) • sumGrad G s.cur n s.x ∧
      σ = s.w.1 * shrink ^ k * (1 - (B : ℝ) / N) * shrink ^ m ∧
      (stepPart (adaptEnv f G N c shrink tol D dl) s b).w.1 = σ ∧
      (stepPart (adaptEnv f G N c shrink tol D dl) s b).x = x₁ - σ • sumGrad G s.cur n x₁ ∧
      moves (stepPart (adaptEnv f G N c shrink tol D dl) s b).trace = moves b.trace ++ [x₁ - σ • sumGrad G s.cur n x₁] := by
  obtain ⟨L, hL, hF⟩ := hsm s.cur n hn hnB
  obtain ⟨fuel, r, hr⟩ := adaptive_ends (N := N) (B := B) hF hL hc hc1 hsh hsh1 hn hBN (fun y => hv s.cur n y hnB) hs s.x s.w.2
  have hex : ∃ r fuel, adaptive (sumFun f s.cur n) G N c shrink s.cur B n fuel s.w.1 s.x b.grad b.gB s.w.2 = some r :=
    ⟨r, fuel, by rw [h4, h5]; exact hr⟩
  obtain ⟨fuel', hr'⟩ := hex.choose_spec
  obtain ⟨k, m, a1, a2, a3⟩ := adaptive_flat (fun y => hv s.cur n y hnB) hr'
  have hpol : (adaptEnv f G N c shrink tol D dl).policy b.w s.x b.grad b.gB b.vB s.cur b.batchSize b.eff b.reset =
      ((hex.choose.1, hex.choose.2.2.2.2), hex.choose.2.1, hex.choose.2.2.1) := by
    rw [h1, h2, h3]
    exact dif_pos hex
  generalize hex.choose = r at *
  refine ⟨k, m, r.2.1, r.1, by rw [a1, h4], a3, ?_, ?_, ?_⟩
  · show ((adaptEnv f G N c shrink tol D dl).policy b.w s.x b.grad b.gB b.vB s.cur b.batchSize b.eff b.reset).1.1 = _
    rw [hpol]
  · have : (stepPart (adaptEnv f G N c shrink tol D dl) s b).x = (adaptEnv f G N c shrink tol D dl).step
      ((adaptEnv f G N c shrink tol D dl).policy b.w s.x b.grad b.gB b.vB s.cur b.batchSize b.eff b.reset).1
      ((adaptEnv f G N c shrink tol D dl).policy b.w s.x b.grad b.gB b.vB s.cur b.batchSize b.eff b.reset).2.1
      ((adaptEnv f G N c shrink tol D dl).policy b.w s.x b.grad b.gB b.vB s.cur b.batchSize b.eff b.reset).2.2 := rfl
    rw [this, hpol]
    show r.2.1 - r.1 • r.2.2.1 = _
    rw [a2]
  · have : moves (stepPart (adaptEnv f G N c shrink tol D dl) s b).trace = moves b.trace ++ [(adaptEnv f G N c shrink tol D dl).step
      ((adaptEnv f G N c shrink tol D dl).policy b.w s.x b.grad b.gB b.vB s.cur b.batchSize b.eff b.reset).1
      ((adaptEnv f G N c shrink tol D dl).policy b.w s.x b.grad b.gB b.vB s.cur b.batchSize b.eff b.reset).2.1
      ((adaptEnv f G N c shrink tol D dl).policy b.w s.x b.grad b.gB b.vB s.cur b.batchSize b.eff b.reset).2.2] := by
        show moves (b.trace ++ _) = _
        rw [moves_append]
        rfl
    rw [this, hpol]
    show moves b.trace ++ [r.2.1 - r.1 • r.2.2.1] = _
    rw [a2]

/-- What `epochEnd` keeps. -/
theorem adapt_epochEnd (p : Params) (s : St (ℝ × Option V) V ℝ) :
    ∃ s', (epochEnd (adaptEnv f G N c shrink tol D dl) p s = .cont s' ∨ ∃ e, epochEnd (adaptEnv f G N c shrink tol D dl) p s = .ret e s') ∧
      s'.w = s.w ∧ s'.x = s.x ∧ s'.batchSize = s.batchSize ∧ moves s'.trace = moves s.trace := by
  unfold epochEnd
  by_cases hcl : (adaptEnv f G N c shrink tol D dl).isClose s.last s.overall = true
  · refine ⟨{ s with epoch := s.epoch + 1, trace := s.trace ++ [.endEpoch s.epoch (s.overall / p.numFunctions) false] },
      Or.inr ⟨.tol, ?_⟩, rfl, rfl, rfl, by simp [moves]⟩
    simp [adaptEnv] at hcl ⊢
    exact hcl
  · simp only [hcl]
    cases hsh : p.shuffle <;> by_cases hm : s.i ≠ p.actualMax <;>
      exact ⟨_, Or.inl (by simp [adaptEnv, hm]; rfl), by simp, by simp, by simp, by simp [moves]⟩

/-- Any relation between step size, coordinates and reported moves that one step preserves holds at the end of the run. -/
theorem adapt_run (hsm : ∀ off n, 0 < n → n ≤ B → ∃ L, 0 < L ∧ LSmooth (sumFun f off n) (sumGrad G off n) L)
    (hv : ∀ off n y, n ≤ B → batchVar G off n y = 0) (hc : 0 ≤ c) (hc1 : c < 1) (hsh : 0 < shrink) (hsh1 : shrink < 1)
    (hB0 : 0 < B) (hBN : B ≤ N) (hB1 : B = 1 ∨ B = N) (p : Params) (hp : p.numFunctions = N) (K : ℝ → V → List V → Prop)
    (hK : ∀ (σ : ℝ) (x : V) (l : List V) (cur n : ℕ), K σ x l → 0 ≤ σ → 0 < n → n ≤ B → cur + n ≤ N →
      (l = [] → cur = 0 ∧ n = min B p.actualMax) → ∀ (k m : ℕ) (x₁ : V) (τ : ℝ), x₁ = x - (σ * shrink ^ k) • sumGrad G cur n x →
      τ = σ * shrink ^ k * (1 - (B : ℝ) / N) * shrink ^ m → K τ (x₁ - τ • sumGrad G cur n x₁) (l ++ [x₁ - τ • sumGrad G cur n x₁]))
    {s₀ : ℝ} (hs₀ : 0 ≤ s₀) {x₀ : V} (hK₀ : K s₀ x₀ []) (fuel : ℕ) (prev : Option V) (r : Result V ℝ)
    (hr : optimize (adaptEnv f G N c shrink tol D dl) p fuel B (s₀, prev) x₀ = some r) :
    ∃ σ, 0 ≤ σ ∧ K σ r.x (moves r.trace) := by
  have hN : 0 < p.numFunctions := by omega
  set env := adaptEnv f G N c shrink tol D dl with henv
  have hfac : (0 : ℝ) ≤ 1 - (B : ℝ) / N := by
    have h1 : (B : ℝ) ≤ N := by exact_mod_cast hBN
    have hN' : (0 : ℝ) < N := by rw [hp] at hN; exact_mod_cast hN
    rw [sub_nonneg, div_le_one hN']; exact h1
  -- the relation at the head of the loop
  let J : St (ℝ × Option V) V ℝ → Prop := fun s => s.batchSize = B ∧ 0 ≤ s.w.1 ∧ K s.w.1 s.x (moves s.trace)
  have hpass : ∀ s : St (ℝ × Option V) V ℝ, Inv p B s → J s → (moves s.trace = [] → s.i = 0 ∧ s.cur = 0) → s.i < p.actualMax →
      s.terminate = false → ∃ s', J s' ∧ (body env p s = some (false, .cont s') ∧ moves s'.trace ≠ [] ∨
        ∃ e, body env p s = some (false, .ret e s')) := by
    rintro s hI ⟨j1, j2, j3⟩ hfirst hi ht
    have hcur := hI.cur hi
    have heff : 0 < effBatch p s := by unfold effBatch; omega
    have heB : effBatch p s ≤ B := by unfold effBatch; omega
    have hce : s.cur + effBatch p s ≤ N := by unfold effBatch; omega
    obtain ⟨b, e1, e2, e3, e4, e5, e6, e7, e8⟩ := adapt_estimate (f := f) (G := G) (c := c) (shrink := shrink) (tol := tol) (D := D)
      (dl := dl) p hp (s := s) (by rw [j1]; rcases hB1 with h | h <;> [left; right] <;> omega) heff
    obtain ⟨k, m, x₁, τ, a1, a2, a3, a4, a5⟩ := adapt_step (tol := tol) (D := D) (dl := dl) hsm hv hc hc1 hsh hsh1 hBN heff heB e2
      (e3.trans j1) e4 e6 e7 j2
    have hτ : 0 ≤ τ := by
      rw [a2]
      exact mul_nonneg (mul_nonneg (mul_nonneg j2 (pow_nonneg hsh.le _)) hfac) (pow_nonneg hsh.le _)
    have hKs := hK s.w.1 s.x (moves s.trace) s.cur (effBatch p s) j3 j2 heff heB hce (fun h => by
      obtain ⟨h1, h2⟩ := hfirst h
      refine ⟨h2, ?_⟩
      unfold effBatch
      rw [j1, h1, h2, hp]
      omega) k m x₁ τ a1 a2
    have hJ1 : J (stepPart env s b) := by
      refine ⟨e3.trans j1, by rw [a3]; exact hτ, ?_⟩
      rw [a3, a4, a5, e8]
      exact hKs
    have hne1 : moves (stepPart env s b).trace ≠ [] := by rw [a5]; simp
    have hbody : body env p s = if (stepPart env s b).cur % p.numFunctions = 0 then some (false, epochEnd env p (stepPart env s b))
        else some (false, .cont (stepPart env s b)) := by
      unfold body
      rw [e1]
      dsimp only
      rw [if_neg (by rw [e5, ht]; simp), if_neg (by omega)]
    generalize stepPart env s b = s1 at hbody hJ1 hne1
    rw [hbody]
    split_ifs with hmod
    · obtain ⟨s', h1, h2, h3, h4, h5⟩ := adapt_epochEnd (f := f) (G := G) (N := N) (c := c) (shrink := shrink) (tol := tol) (D := D)
        (dl := dl) p s1
      have hJ' : J s' := by
        obtain ⟨q1, q2, q3⟩ := hJ1
        exact ⟨h4.trans q1, by rw [h2]; exact q2, by rw [h2, h3, h5]; exact q3⟩
      refine ⟨s', hJ', ?_⟩
      rcases h1 with h1 | ⟨e, h1⟩
      · exact Or.inl ⟨by rw [← h1], by rw [h5]; exact hne1⟩
      · exact Or.inr ⟨e, by rw [← h1]⟩
    · exact ⟨s1, hJ1, Or.inl ⟨rfl, hne1⟩⟩
  have hloop : ∀ (fuel : ℕ) (s : St (ℝ × Option V) V ℝ), Inv p B s → J s → (moves s.trace = [] → s.i = 0 ∧ s.cur = 0) →
      ∀ e s', loop env p fuel s = .done e s' → J s' := by
    intro fuel
    induction fuel with
    | zero => intro s _ _ _ e s' h; cases h
    | succ fuel ih =>
      intro s hI hJ hfirst e s' h
      rw [loop] at h
      split_ifs at h with hcond
      · obtain ⟨r', g1, g2⟩ := body_facts env p B hB0 hN s hI hcond.1
        obtain ⟨s'', hJ'', ⟨hb, hne⟩ | ⟨e', hb⟩⟩ := hpass s hI hJ hfirst hcond.1 hcond.2
        · rw [hb] at h
          rw [hb] at g1
          have : Inv p B s'' := by
            rcases g2 with ⟨t, ht, _⟩ | ⟨t, ht, hi, _⟩ | ⟨e, t, ht, _⟩
            · rw [ht] at g1; cases g1
            · rw [ht] at g1; cases g1; exact hi
            · rw [ht] at g1; cases g1
          exact ih s'' this hJ'' (fun h => absurd h hne) e s' h
        · rw [hb] at h
          cases h
          exact hJ''
      · cases h
        exact hJ
  have hexact : ∀ (fuel i : ℕ) (s s' : St (ℝ × Option V) V ℝ), exactLoop env p fuel i s = some s' →
      s'.w = s.w ∧ s'.x = s.x ∧ moves s'.trace = moves s.trace := by
    intro fuel
    induction fuel with
    | zero => intro i s s' h; rw [exactLoop] at h; split_ifs at h; cases h; exact ⟨rfl, rfl, rfl⟩
    | succ fuel ih =>
      intro i s s' h
      rw [exactLoop] at h
      split_ifs at h
      · obtain ⟨h1, h2, h3⟩ := ih _ _ _ h
        exact ⟨h1, h2, h3.trans (by simp [moves])⟩
      · cases h; exact ⟨rfl, rfl, rfl⟩
  have hfin : ∀ (e : Exit) (s : St (ℝ × Option V) V ℝ), moves (finish e s).trace = moves s.trace := by
    intro e s
    simp [finish, moves]
  have hJs : ∀ e s', loop env p fuel (start env B (s₀, prev) x₀) = .done e s' → J s' :=
    hloop fuel _ (start_inv env p B hN _ _) ⟨rfl, hs₀, hK₀⟩ fun _ => ⟨rfl, rfl⟩
  unfold optimize at hr
  generalize loop env p fuel (start env B (s₀, prev) x₀) = res at hr hJs
  cases res with
  | ub => cases hr
  | running => cases hr
  | done e s =>
    obtain ⟨j1, j2, j3⟩ := hJs e s rfl
    cases e with
    | bad => cases hr; exact ⟨_, j2, by rw [hfin]; exact j3⟩
    | tol => cases hr; exact ⟨_, j2, by rw [hfin]; exact j3⟩
    | loop =>
      dsimp only at hr
      split_ifs at hr
      · cases hE : exactLoop env p p.numFunctions 0 { s with overall := env.zero } with
        | none => rw [hE] at hr; cases hr
        | some s' =>
          rw [hE] at hr
          cases hr
          obtain ⟨h1, h2, h3⟩ := hexact _ _ _ _ hE
          refine ⟨s.w.1, j2, ?_⟩
          rw [hfin, h3]
          show K _ s'.x _
          rw [h2]
          exact j3
      · cases hr; exact ⟨_, j2, by rw [hfin]; exact j3⟩

/-- **C299** (one move). If the batch size is the number of functions and the variance term vanishes (functions with equal gradients, or at
most two functions, see `batchVar_same` and `batchVar_small`), the step size is 0 after the first pass and stays 0: however many
iterations are allowed, `Optimize` makes one step along the gradient at the starting point, no longer than the initial step size allows, and
every later `StepTaken` reports that same point. -/
theorem C299_one_move (hN : 0 < N) (hsm : ∀ off n, 0 < n → n ≤ N → ∃ L, 0 < L ∧ LSmooth (sumFun f off n) (sumGrad G off n) L)
    (hv : ∀ off n y, n ≤ N → batchVar G off n y = 0) (hc : 0 ≤ c) (hc1 : c < 1) (hsh : 0 < shrink) (hsh1 : shrink < 1)
    (p : Params) (hp : p.numFunctions = N) (hmax : N ≤ p.actualMax) {s₀ : ℝ} (hs₀ : 0 ≤ s₀) (x₀ : V) (fuel : ℕ) (prev : Option V)
    (r : Result V ℝ) (hr : optimize (adaptEnv f G N c shrink tol D dl) p fuel N (s₀, prev) x₀ = some r) :
    ∃ t, 0 ≤ t ∧ t ≤ s₀ ∧ r.x = x₀ - t • sumGrad G 0 N x₀ ∧ ∀ y ∈ moves r.trace, y = r.x := by
  have hNR : (N : ℝ) ≠ 0 := by exact_mod_cast hN.ne'
  have H := adapt_run (tol := tol) (D := D) (dl := dl) hsm hv hc hc1 hsh hsh1 hN le_rfl (Or.inr rfl) p hp
    (fun σ x l => (σ = s₀ ∧ x = x₀ ∧ l = []) ∨
      (σ = 0 ∧ l ≠ [] ∧ (∀ y ∈ l, y = x) ∧ ∃ t, 0 ≤ t ∧ t ≤ s₀ ∧ x = x₀ - t • sumGrad G 0 N x₀)) ?_ hs₀ (Or.inl ⟨rfl, rfl, rfl⟩) fuel prev r hr
  · obtain ⟨σ, _, h⟩ := H
    rcases h with ⟨_, h1, h2⟩ | ⟨_, _, h1, t, h2, h3, h4⟩
    · exact ⟨0, le_rfl, hs₀, by rw [h1]; simp, by rw [h2]; simp⟩
    · exact ⟨t, h2, h3, h4, h1⟩
  · intro σ x l cur n hK hσ hn hnB hcn hfirst k m x₁ τ hx₁ hτ
    have hτ0 : τ = 0 := by rw [hτ, div_self hNR]; simp
    rw [hτ0, zero_smul, sub_zero]
    refine Or.inr ⟨rfl, by simp, ?_⟩
    rcases hK with ⟨h1, h2, h3⟩ | ⟨h1, h2, h3, t, h4, h5, h6⟩
    · obtain ⟨f1, f2⟩ := hfirst h3
      have hnN : n = N := by omega
      refine ⟨by simp [h3], s₀ * shrink ^ k, by positivity, mul_le_of_le_one_right hs₀ (pow_le_one₀ hsh.le hsh1.le), ?_⟩
      rw [hx₁, h1, h2, f1, hnN]
    · have : x₁ = x := by rw [hx₁, h1]; simp
      rw [this]
      exact ⟨by simpa [or_imp, forall_and] using h3, t, h4, h5, h6⟩

theorem sum_smooth {L : ℝ} (hsm : ∀ j, LSmooth (f j) (G j) L) (off : ℕ) :
    ∀ n : ℕ, LSmooth (sumFun f off n) (sumGrad G off n) (n * L) := by
  intro n
  induction n with
  | zero =>
    refine ⟨fun x => ?_, fun x y => by simp [sumGrad]⟩
    have e1 : sumFun f off 0 = fun _ => 0 := by funext y; simp [sumFun]
    have e2 : sumGrad G off 0 x = 0 := by simp [sumGrad]
    rw [e1, e2, map_zero]
    exact hasFDerivAt_const _ _
  | succ n ih =>
    have e1 : sumFun f off (n + 1) = fun y => sumFun f off n y + f (off + n) y := by
      funext y; simp [sumFun, List.range'_concat]
    have e2 : sumGrad G off (n + 1) = fun y => sumGrad G off n y + G (off + n) y := by
      funext y; simp [sumGrad, List.range'_concat]
    rw [e1, e2]
    refine ⟨fun x => ?_, fun x y => ?_⟩
    · rw [map_add]
      exact (ih.grad x).add ((hsm (off + n)).grad x)
    · rw [add_sub_add_comm]
      refine (norm_add_le _ _).trans ?_
      push_cast
      linarith [ih.lip x y, (hsm (off + n)).lip x y]

/-- **C299** (one move, two functions). For any two smooth functions and batch size 2, `Optimize` makes at most one step. -/
theorem C299_two {L : ℝ} (hL : 0 < L) (hsm : ∀ j, LSmooth (f j) (G j) L) (hc : 0 ≤ c) (hc1 : c < 1) (hsh : 0 < shrink)
    (hsh1 : shrink < 1) (p : Params) (hp : p.numFunctions = 2) (hmax : 2 ≤ p.actualMax) {s₀ : ℝ} (hs₀ : 0 ≤ s₀) (x₀ : V) (fuel : ℕ)
    (prev : Option V) (r : Result V ℝ) (hr : optimize (adaptEnv f G 2 c shrink tol D dl) p fuel 2 (s₀, prev) x₀ = some r) :
    ∃ t, 0 ≤ t ∧ t ≤ s₀ ∧ r.x = x₀ - t • (G 0 x₀ + G 1 x₀) ∧ ∀ y ∈ moves r.trace, y = r.x := by
  obtain ⟨t, h1, h2, h3, h4⟩ := C299_one_move two_pos (fun off n hn _ => ⟨n * L, mul_pos (by exact_mod_cast hn) hL, sum_smooth hsm off n⟩)
    (fun off n y hn => batchVar_small G off hn y) hc hc1 hsh hsh1 p hp hmax hs₀ x₀ fuel prev r hr
  exact ⟨t, h1, h2, by rw [h3]; simp [sumGrad, List.range'], h4⟩

/-- **C299** (crawling). With batch size 1 the variance term is always 0, so the batch is never enlarged and every pass multiplies the step
size by at most `1 - 1 / N`. If no gradient is longer than `M`, the iterates of the whole run, of any length, therefore stay within
`2 N M` times the initial step size of the starting point. -/
theorem C299_crawls (hN : 0 < N) (hsm : ∀ j, ∃ L, 0 < L ∧ LSmooth (f j) (G j) L) {M : ℝ} (hM : ∀ j x, ‖G j x‖ ≤ M)
    (hc : 0 ≤ c) (hc1 : c < 1) (hsh : 0 < shrink) (hsh1 : shrink < 1) (p : Params) (hp : p.numFunctions = N) {s₀ : ℝ} (hs₀ : 0 ≤ s₀)
    (x₀ : V) (fuel : ℕ) (prev : Option V) (r : Result V ℝ)
    (hr : optimize (adaptEnv f G N c shrink tol D dl) p fuel 1 (s₀, prev) x₀ = some r) :
    ‖r.x - x₀‖ ≤ 2 * N * M * s₀ ∧ ∀ y ∈ moves r.trace, ‖y - x₀‖ ≤ 2 * N * M * s₀ := by
  have hM0 : 0 ≤ M := (norm_nonneg _).trans (hM 0 0)
  have hN1 : (1 : ℝ) ≤ N := by exact_mod_cast hN
  have hone : ∀ off (x : V), sumGrad G off 1 x = G off x := by intro off x; simp [sumGrad, List.range']
  have H := adapt_run (f := f) (G := G) (tol := tol) (D := D) (dl := dl) (B := 1) (fun off n h1 h2 => by
      obtain rfl : n = 1 := by omega
      obtain ⟨L, hL, hF⟩ := hsm off
      refine ⟨L, hL, ?_⟩
      have e1 : sumFun f off 1 = f off := by funext x; simp [sumFun, List.range']
      have e2 : sumGrad G off 1 = G off := by funext x; exact hone off x
      rw [e1, e2]
      exact hF) (fun off n y hn => batchVar_small G off (by omega) y) hc hc1 hsh hsh1 one_pos hN (Or.inl rfl) p hp
    (fun σ x l => ‖x - x₀‖ + 2 * N * M * σ ≤ 2 * N * M * s₀ ∧ ∀ y ∈ l, ‖y - x₀‖ ≤ 2 * N * M * s₀) ?_ hs₀ (by simp) fuel prev r hr
  · obtain ⟨σ, hσ, h⟩ := H
    refine ⟨?_, h.2⟩
    have : 0 ≤ 2 * N * M * σ := by positivity
    linarith [h.1]
  · rintro σ x l cur n ⟨h1, h2⟩ hσ hn hnB hcn _ k m x₁ τ hx₁ hτ
    obtain rfl : n = 1 := by omega
    rw [hone] at hx₁ ⊢
    have hp1 : shrink ^ k ≤ 1 := pow_le_one₀ hsh.le hsh1.le
    have hp2 : shrink ^ m ≤ 1 := pow_le_one₀ hsh.le hsh1.le
    set σ' := σ * shrink ^ k with hσ'
    have hσ'0 : 0 ≤ σ' := by positivity
    have hσ'1 : σ' ≤ σ := mul_le_of_le_one_right hσ hp1
    have hfac : (0 : ℝ) ≤ 1 - (1 : ℕ) / N := by
      rw [Nat.cast_one, sub_nonneg, div_le_one (by linarith)]; exact hN1
    have hτ1 : τ ≤ σ' * (1 - (1 : ℕ) / N) := by rw [hτ]; exact mul_le_of_le_one_right (mul_nonneg hσ'0 hfac) hp2
    have hτ0 : 0 ≤ τ := by rw [hτ]; exact mul_nonneg (mul_nonneg hσ'0 hfac) (pow_nonneg hsh.le _)
    have hNτ : N * τ ≤ N * σ' - σ' := by
      have := mul_le_mul_of_nonneg_left hτ1 (by linarith : (0 : ℝ) ≤ N)
      have e : (N : ℝ) * (σ' * (1 - (1 : ℕ) / N)) = N * σ' - σ' := by
        have : (N : ℝ) ≠ 0 := by linarith
        rw [Nat.cast_one]
        field_simp
      linarith
    have hx₁n : ‖x₁ - x₀‖ ≤ ‖x - x₀‖ + σ' * M := by
      rw [hx₁, show x - σ' • G cur x - x₀ = (x - x₀) - σ' • G cur x by abel]
      refine (norm_sub_le _ _).trans ?_
      rw [norm_smul, Real.norm_of_nonneg hσ'0]
      linarith [mul_le_mul_of_nonneg_left (hM cur x) hσ'0]
    have hyn : ‖x₁ - τ • G cur x₁ - x₀‖ ≤ ‖x₁ - x₀‖ + τ * M := by
      rw [show x₁ - τ • G cur x₁ - x₀ = (x₁ - x₀) - τ • G cur x₁ by abel]
      refine (norm_sub_le _ _).trans ?_
      rw [norm_smul, Real.norm_of_nonneg hτ0]
      linarith [mul_le_mul_of_nonneg_left (hM cur x₁) hτ0]
    have hττ : τ ≤ σ' := by
      refine hτ1.trans (mul_le_of_le_one_right hσ'0 ?_)
      have : (0 : ℝ) ≤ ((1 : ℕ) : ℝ) / N := by positivity
      linarith
    have main : ‖x₁ - τ • G cur x₁ - x₀‖ + 2 * N * M * τ ≤ 2 * N * M * s₀ := by
      have q1 : M * (N * τ) ≤ M * (N * σ' - σ') := mul_le_mul_of_nonneg_left hNτ hM0
      have q2 : M * τ ≤ M * σ' := mul_le_mul_of_nonneg_left hττ hM0
      have q3 : (N * M) * σ' ≤ (N * M) * σ := mul_le_mul_of_nonneg_left hσ'1 (by positivity)
      nlinarith
    refine ⟨main, ?_⟩
    intro y hy
    rcases List.mem_append.1 hy with hy | hy
    · exact h2 y hy
    · rw [List.mem_singleton.1 hy]
      have : 0 ≤ 2 * N * M * τ := by positivity
      linarith

end

/-! ### Concrete cases -/

theorem bowl_smooth : LSmooth (fun x : ℝ => x ^ 2 / 2) (fun x => x) 1 := by
  refine ⟨fun x => ?_, fun x y => by simp⟩
  have h : HasDerivAt (fun x : ℝ => x ^ 2 / 2) x x := by
    have := ((hasDerivAt_id x).pow 2).div_const 2
    simpa using this
  have h2 : (innerSL ℝ x : ℝ →L[ℝ] ℝ) = ContinuousLinearMap.toSpanSingleton ℝ x := by
    apply ContinuousLinearMap.ext
    intro y
    simp [mul_comm]
  rw [h2]
  exact h.hasFDerivAt

theorem sumBowl (off n : ℕ) : sumFun (fun _ (x : ℝ) => x ^ 2 / 2) off n = fun x : ℝ => (n : ℝ) * (x ^ 2 / 2) := by
  funext x; simp [sumFun]

theorem sumBowlGrad (off n : ℕ) : sumGrad (fun _ (x : ℝ) => x) off n = fun x : ℝ => (n : ℝ) * x := by
  funext x; simp [sumGrad]

/-- **C299** (far from the minimum). Ten functions `x² / 2`, batch size 10, the default step size 0.01: whatever the number of iterations
allowed, the returned point is at least nine tenths of the starting point away from the minimiser 0, and there is a returned point. -/
theorem C299_far (p : Params) (hp : p.numFunctions = 10) (hmax : 10 ≤ p.actualMax) {c shrink tol D : ℝ} {dl : ℕ → ℕ} (hc : 0 ≤ c) (hc1 : c < 1)
    (hsh : 0 < shrink) (hsh1 : shrink < 1) (x₀ : ℝ) (prev : Option ℝ) :
    ∃ r, optimize (adaptEnv (fun _ (x : ℝ) => x ^ 2 / 2) (fun _ x => x) 10 c shrink tol D dl) p (p.actualMax + 1) 10 (0.01, prev) x₀ = some r ∧
      0.9 * |x₀| ≤ |r.x| := by
  obtain ⟨r, hr, _⟩ := C143_ends_in_bounds (adaptEnv (fun _ (x : ℝ) => x ^ 2 / 2) (fun _ x => x) 10 c shrink tol D dl) p 10 (by norm_num)
    (by omega) (p.actualMax + 1) (by omega) (0.01, prev) x₀
  refine ⟨r, hr, ?_⟩
  have H := C299_one_move (by norm_num) (fun off n hn _ => ?_) (fun off n y _ => batchVar_same _ off n y) hc hc1 hsh hsh1 p hp
    hmax (by norm_num) x₀ (p.actualMax + 1) prev r hr
  · obtain ⟨t, h1, h2, h3, _⟩ := H
    have ht : 10 * t ≤ 0.1 := by norm_num at h2 ⊢; linarith
    rw [h3, sumBowlGrad]
    have e : x₀ - t • ((10 : ℕ) * x₀) = (1 - 10 * t) * x₀ := by simp only [smul_eq_mul]; push_cast; ring
    rw [e, abs_mul, abs_of_nonneg (show (0 : ℝ) ≤ 1 - 10 * t by norm_num at ht; linarith)]
    exact mul_le_mul_of_nonneg_right (by norm_num at ht ⊢; linarith) (abs_nonneg _)
  · have hn' : (0 : ℝ) < n := by exact_mod_cast hn
    refine ⟨n, hn', ?_⟩
    rw [sumBowl, sumBowlGrad]
    refine ⟨fun x => ?_, fun x y => ?_⟩
    · have := (bowl_smooth.grad x).const_mul (n : ℝ)
      have e : (innerSL ℝ ((n : ℝ) * x) : ℝ →L[ℝ] ℝ) = (n : ℝ) • innerSL ℝ x := by
        apply ContinuousLinearMap.ext
        intro y
        simp
        ring
      show HasFDerivAt _ (innerSL ℝ ((n : ℝ) * x)) x
      rw [e]
      exact this
    · rw [← mul_sub, norm_mul, Real.norm_of_nonneg hn'.le]

/-- `C299_hangs`: one function `x² / 2`, the default batch size 1000 and step size 0.01. -/
example (fuel : ℕ) : adaptive (sumFun (fun _ (x : ℝ) => x ^ 2 / 2) 0 1) (fun _ (x : ℝ) => x) 1 0.1 0.1 0 1000 1 fuel 0.01 5
    (sumGrad (fun _ (x : ℝ) => x) 0 1 5) 25 none = none := by
  refine C299_hangs ?_ ?_ (by norm_num) (by norm_num) (by norm_num) one_pos one_pos (by norm_num) (fun y => batchVar_same _ 0 1 y) (by norm_num)
    5 none 25 ?_ fuel
  · rw [sumBowl, sumBowlGrad]
    simpa using bowl_smooth.grad
  · rw [sumBowl]
    have := (even_two.convexOn_pow (𝕜 := ℝ)).smul (c := 1 / 2) (by norm_num)
    refine this.congr fun x _ => ?_
    simp
    ring
  · intro k
    rw [sumBowlGrad]
    have h1 : (0.1 : ℝ) ^ k ≤ 1 := pow_le_one₀ (by norm_num) (by norm_num)
    have h2 : (0 : ℝ) ≤ 0.1 ^ k := by positivity
    simp only [smul_eq_mul, Nat.cast_one, one_mul]
    intro h
    nlinarith

/-- `C299_crawls`: three linear functions of one variable. -/
example : (∀ j : ℕ, ∃ L, 0 < L ∧ LSmooth (fun x : ℝ => (j % 3 : ℕ) * x) (fun _ => ((j % 3 : ℕ) : ℝ)) L) ∧
    ∀ (j : ℕ) (_ : ℝ), ‖((j % 3 : ℕ) : ℝ)‖ ≤ 2 := by
  refine ⟨fun j => ⟨1, one_pos, fun x => ?_, fun x y => by simp⟩, fun j _ => ?_⟩
  · have h : HasDerivAt (fun x : ℝ => ((j % 3 : ℕ) : ℝ) * x) ((j % 3 : ℕ) : ℝ) x := by
      simpa using (hasDerivAt_id x).const_mul ((j % 3 : ℕ) : ℝ)
    have h2 : (innerSL ℝ ((j % 3 : ℕ) : ℝ) : ℝ →L[ℝ] ℝ) = ContinuousLinearMap.toSpanSingleton ℝ ((j % 3 : ℕ) : ℝ) := by
      apply ContinuousLinearMap.ext
      intro y
      simp [mul_comm]
    rw [h2]
    exact h.hasFDerivAt
  · rw [Real.norm_of_nonneg (by positivity)]
    have : j % 3 ≤ 2 := by omega
    exact_mod_cast this

end Ens.BigBatch
