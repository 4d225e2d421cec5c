import Mathlib.Analysis.InnerProductSpace.Basic
import Mathlib.Tactic.Ring
import Mathlib.Tactic.Linarith
import Mathlib.Tactic.NormNum
import Mathlib.Tactic.Module
import Verif.BigBatch.Run

/-
BigBatchSGD: the values in the events of a run (C179), and the variance estimate that decides whether the batch grows (C186).
-/

namespace Ens.BigBatch

variable {W M G E R : Type}

/-! ### Values of the evaluations -/

/-- An evaluation reports the value of `F` at the coordinates and range it names. -/
def Ev.Reports (F : M → Nat → Nat → E) : Ev M E → Prop
  | .evaluate x b k v => v = F x b k
  | _ => True

theorem Grads.reports {F : M → Nat → Nat → E} {x : M} {l t c} (h : Grads x l t c) : ∀ e ∈ t, Ev.Reports F e := by
  induction h with
  | nil => simp
  | snoc j c h ih =>
    intro e he
    rcases List.mem_append.1 he with he | he
    · exact ih e he
    · simp only [List.mem_cons, List.not_mem_nil, or_false] at he
      rcases he with rfl | rfl <;> trivial

theorem reports_snoc {F : M → Nat → Nat → E} {t : List (Ev M E)} {e : Ev M E} (h : ∀ a ∈ t, a.Reports F) (he : e.Reports F) :
    ∀ a ∈ t ++ [e], a.Reports F := by
  intro a ha
  rcases List.mem_append.1 ha with ha | ha
  · exact h a ha
  · rw [List.mem_singleton.1 ha]; exact he

theorem loop_reports {env : Env W M G E R} {F : M → Nat → Nat → E} (hF : ∀ w x b k, (env.evaluate w x b k).2 = F x b k)
    (p : Params) : ∀ (fuel : Nat) (s : St W M E), 0 < s.batchSize → (∀ a ∈ s.trace, a.Reports F) → ∀ e s',
      loop env p fuel s = .done e s' → ∀ a ∈ s'.trace, a.Reports F := by
  intro fuel
  induction fuel with
  | zero => intro s _ _ e s' h; cases h
  | succ fuel ih =>
    intro s hB hs e s' h
    rw [loop] at h
    by_cases hc : s.i < p.actualMax ∧ s.terminate = false
    · rw [if_pos hc] at h
      obtain ⟨b, l, h1, _, h3, _, _, t, c, h6, h7, _⟩ := estimate_spec env p s hB
      have hb : ∀ a ∈ b.trace, a.Reports F := by
        rw [h7]
        intro a ha
        rcases List.mem_append.1 ha with ha | ha
        · exact hs a ha
        · exact h6.reports a ha
      have hBB : 0 < b.batchSize := by have := (h3.facts hB).1; omega
      unfold body at h
      rw [h1] at h
      dsimp only at h
      by_cases ht : b.terminate = true
      · rw [if_pos ht] at h
        cases h
        exact hb
      · rw [if_neg ht] at h
        have hS : ∀ a ∈ (stepPart env s b).trace, a.Reports F := by
          unfold stepPart
          dsimp only
          rw [show ∀ a b' c d e : Ev M E, b.trace ++ [a, b', c, d, e] = ((((b.trace ++ [a]) ++ [b']) ++ [c]) ++ [d]) ++ [e] by simp]
          refine reports_snoc (reports_snoc (reports_snoc (reports_snoc (reports_snoc hb trivial) trivial) trivial) ?_) trivial
          exact hF _ _ _ _
        by_cases hn : p.numFunctions = 0
        · rw [if_pos hn] at h; cases h
        rw [if_neg hn] at h
        by_cases hm : (stepPart env s b).cur % p.numFunctions = 0
        · rw [if_pos hm] at h
          unfold epochEnd at h
          dsimp only at h
          generalize env.cbEndEpoch (stepPart env s b).w _ _ _ = q at h
          have h1' := reports_snoc (e := .endEpoch (stepPart env s b).epoch
            (env.divN (stepPart env s b).overall p.numFunctions) q.2) hS trivial
          by_cases hbad : env.isBad (stepPart env s b).overall = true
          · rw [if_pos hbad] at h; cases h; exact h1'
          rw [if_neg hbad] at h
          by_cases hcl : env.isClose (stepPart env s b).last (stepPart env s b).overall = true
          · rw [if_pos hcl] at h; cases h; exact h1'
          rw [if_neg hcl] at h
          generalize env.cbBeginEpoch q.1 _ _ _ = q2 at h
          have h2' := reports_snoc (e := .beginEpoch ((stepPart env s b).epoch + 1) (stepPart env s b).overall q2.2) h1' trivial
          have h3' := reports_snoc (e := .shuffle) h2' trivial
          refine ih _ ?_ ?_ e s' h
          · by_cases hi : (stepPart env s b).i ≠ p.actualMax <;> by_cases hsh : p.shuffle = true
            · rw [if_pos hsh, if_pos hi]; exact hBB
            · rw [if_neg hsh, if_pos hi]; exact hBB
            · rw [if_pos hsh, if_neg hi]; exact hBB
            · rw [if_neg hsh, if_neg hi]; exact hBB
          · by_cases hi : (stepPart env s b).i ≠ p.actualMax <;> by_cases hsh : p.shuffle = true
            · rw [if_pos hsh, if_pos hi]; exact h3'
            · rw [if_neg hsh, if_pos hi]; exact h2'
            · rw [if_pos hsh, if_neg hi]; exact h3'
            · rw [if_neg hsh, if_neg hi]; exact h2'
        · rw [if_neg hm] at h
          exact ih _ hBB hS e s' h
    · rw [if_neg hc] at h
      cases h
      exact hs

theorem exactLoop_reports {env : Env W M G E R} {F : M → Nat → Nat → E} (hF : ∀ w x b k, (env.evaluate w x b k).2 = F x b k)
    (p : Params) : ∀ (fuel i : Nat) (s s' : St W M E), exactLoop env p fuel i s = some s' → (∀ a ∈ s.trace, a.Reports F) →
      ∀ a ∈ s'.trace, a.Reports F := by
  intro fuel
  induction fuel with
  | zero =>
    intro i s s' h hs
    rw [exactLoop] at h
    split at h
    · cases h
    · cases h; exact hs
  | succ fuel ih =>
    intro i s s' h hs
    rw [exactLoop] at h
    by_cases hi : i < p.numFunctions
    · rw [if_pos hi] at h
      refine ih _ _ s' h ?_
      dsimp only
      rw [show ∀ a b : Ev M E, s.trace ++ [a, b] = (s.trace ++ [a]) ++ [b] by simp]
      exact reports_snoc (reports_snoc hs (hF _ _ _ _)) trivial
    · rw [if_neg hi] at h
      cases h; exact hs

/-- **C179** (values). If the objective of a range of functions depends only on the coordinates and the range, every evaluation in a run,
those of the final pass included, reports its value at the coordinates it is listed with. Together with `C179_shape` and
`C180_stopping` this fixes the objectives the stopping rule compares and the value returned. -/
theorem C179_values (env : Env W M G E R) {F : M → Nat → Nat → E} (hF : ∀ w x b k, (env.evaluate w x b k).2 = F x b k)
    (p : Params) (B₀ : Nat) (hB₀ : 0 < B₀) (fuel : Nat) (w : W) (x : M) (r : Result M E)
    (hr : optimize env p fuel B₀ w x = some r) (y : M) (b k : Nat) (v : E) (he : .evaluate y b k v ∈ r.trace) : v = F y b k := by
  have key : ∀ a ∈ r.trace, a.Reports F := by
    unfold optimize at hr
    cases hl : loop env p fuel (start env B₀ w x) with
    | ub => rw [hl] at hr; cases hr
    | running s => rw [hl] at hr; cases hr
    | done e s =>
      have hs := loop_reports hF p fuel (start env B₀ w x) hB₀ (by simp [start, Ev.Reports]) e s hl
      rw [hl] at hr
      cases e with
      | bad => cases hr; exact reports_snoc hs trivial
      | tol => cases hr; exact reports_snoc hs trivial
      | loop =>
        dsimp only at hr
        by_cases hx : p.exactObjective = true
        · rw [if_pos hx] at hr
          obtain ⟨s', hs', rfl⟩ := Option.map_eq_some_iff.1 hr
          exact reports_snoc (exactLoop_reports hF p _ _ _ _ hs' hs) trivial
        · rw [if_neg hx] at hr
          cases hr; exact reports_snoc hs trivial
  exact key _ he

example : (∀ w x b k, (demo.evaluate w x b k).2 = (k : Int)) ∧
    (optimize demo ⟨5, 10, true, false⟩ 11 2 () 0).map (fun r => r.trace.countP fun e => e.tag == .evaluate) = some 4 :=
  ⟨fun _ _ _ _ => rfl, by decide +kernel⟩

/-! ### The variance estimate -/

section Variance

variable {V : Type} [NormedAddCommGroup V] [InnerProductSpace ℝ V]

/-- The mean of a list of vectors. -/
noncomputable def avg (l : List V) : V := (l.length : ℝ)⁻¹ • l.sum

/-- Sum of the squared distances from the mean (`length - 1` times the sample variance). -/
noncomputable def deviation (l : List V) : ℝ := (l.map fun v => ‖v - avg l‖ ^ 2).sum

theorem avg_snoc (l : List V) (v : V) :
    avg (l ++ [v]) = avg l + ((l.length : ℝ) + 1)⁻¹ • (v - avg l) := by
  unfold avg
  simp only [List.length_append, List.length_singleton, List.sum_append, List.sum_singleton, Nat.cast_add, Nat.cast_one]
  by_cases hl : l = []
  · subst hl; simp
  have h0 : (l.length : ℝ) ≠ 0 := by simpa using hl
  have h1 : (l.length : ℝ) + 1 ≠ 0 := by positivity
  have e : l.sum = (l.length : ℝ) • ((l.length : ℝ)⁻¹ • l.sum) := by rw [smul_smul, mul_inv_cancel₀ h0, one_smul]
  generalize (l.length : ℝ)⁻¹ • l.sum = a at e ⊢
  rw [e]
  generalize (l.length : ℝ) = n at h0 h1
  have : ((n + 1)⁻¹ : ℝ) * n = 1 - (n + 1)⁻¹ := by field_simp; ring
  rw [smul_add, smul_smul, this]
  module

theorem sum_dist (l : List V) (a : V) :
    (l.map fun v => ‖v - a‖ ^ 2).sum = deviation l + l.length * ‖avg l - a‖ ^ 2 := by
  have h1 : ∀ (c : V) (l : List V), (l.map fun v => ‖v - a‖ ^ 2).sum =
      (l.map fun v => ‖v - c‖ ^ 2).sum + 2 * inner ℝ (l.sum - (l.length : ℝ) • c) (c - a) + l.length * ‖c - a‖ ^ 2 := by
    intro c l
    induction l with
    | nil => simp
    | cons v l ih =>
      simp only [List.map_cons, List.sum_cons, List.length_cons, Nat.cast_add, Nat.cast_one, ih]
      have h2 : ‖v - a‖ ^ 2 = ‖v - c‖ ^ 2 + 2 * inner ℝ (v - c) (c - a) + ‖c - a‖ ^ 2 := by
        rw [show v - a = (v - c) + (c - a) by abel, norm_add_sq_real]
      have h3 : v + l.sum - ((l.length : ℝ) + 1) • c = (v - c) + (l.sum - (l.length : ℝ) • c) := by module
      rw [h2, h3, inner_add_left]
      ring
  rw [h1 (avg l) l, deviation]
  by_cases hl : l = []
  · subst hl; simp
  have h0 : (l.length : ℝ) ≠ 0 := by simpa using hl
  have e : l.sum - (l.length : ℝ) • avg l = 0 := by
    unfold avg; rw [smul_smul, mul_inv_cancel₀ h0, one_smul, sub_self]
  rw [e, inner_zero_left]
  ring

/-- One step of Welford's recurrence, with the product of norms of the code. -/
theorem deviation_snoc (l : List V) (v : V) :
    deviation (l ++ [v]) = deviation l + ‖v - avg l‖ * ‖v - avg (l ++ [v])‖ := by
  have h := sum_dist (l ++ [v]) (avg l)
  rw [List.map_append, List.sum_append, List.map_singleton, List.sum_singleton] at h
  have h1 := sum_dist l (avg l)
  rw [sub_self, norm_zero] at h1
  rw [h1] at h
  rw [avg_snoc] at h ⊢
  simp only [List.length_append, List.length_singleton, Nat.cast_add, Nat.cast_one] at h
  have hn : 0 ≤ (l.length : ℝ) := Nat.cast_nonneg _
  generalize (l.length : ℝ) = n at h hn
  have e1 : avg l + (n + 1)⁻¹ • (v - avg l) - avg l = (n + 1)⁻¹ • (v - avg l) := by abel
  have e2 : v - (avg l + (n + 1)⁻¹ • (v - avg l)) = (1 - (n + 1)⁻¹) • (v - avg l) := by module
  have hn1 : 0 < n + 1 := by linarith
  have e3 : 0 ≤ 1 - (n + 1)⁻¹ := by
    have : (n + 1)⁻¹ ≤ 1 := inv_le_one_of_one_le₀ (by linarith)
    linarith
  rw [e1, norm_smul, Real.norm_of_nonneg (by positivity)] at h
  rw [e2, norm_smul, Real.norm_of_nonneg e3]
  have h4 : (n + 1) * ((n + 1)⁻¹ * ‖v - avg l‖) ^ 2 = (n + 1)⁻¹ * ‖v - avg l‖ ^ 2 := by
    field_simp
  nlinarith [h, h4]

/-- Gradients and their statistics are computed as in the code (lines 137-144): the objective is deterministic, the callbacks leave the
gradients alone. -/
structure Plain (env : Env W M V E ℝ) (g : M → Nat → V) : Prop where
  gradient : ∀ w x j, (env.gradient w x j).2 = g x j
  cb : ∀ w x v, (env.cbGradient w x v).2.1 = v
  mean : ∀ d v (k : Nat), env.mean d v k = d + (k : ℝ)⁻¹ • (v - d)
  addVar : ∀ a v d d', env.addVar a v d d' = a + ‖v - d‖ * ‖v - d'‖
  zeroR : env.zeroR = 0

theorem firstLoop_stats {env : Env W M V E ℝ} {g : M → Nat → V} (hp : Plain env g) (x : M) :
    ∀ (n index : Nat) (l : List V) (b : Batch W M V E ℝ), l ≠ [] → b.k = l.length + 1 → b.delta1 = avg l → b.vB = deviation l →
      (firstLoop env x n index b).vB = deviation (l ++ (List.range' index n).map (g x)) := by
  intro n
  induction n with
  | zero => intro index l b _ _ _ h; simpa [firstLoop] using h
  | succ n ih =>
    intro index l b hl hk hd hv
    have hg : (oneGrad env x index b.w).2.1 = g x index := by
      show (env.cbGradient _ x (env.gradient b.w x index).2).2.1 = _
      rw [hp.cb, hp.gradient]
    rw [firstLoop, ih (index + 1) (l ++ [g x index]) _ (by simp) ?_ ?_ ?_, List.range'_succ, List.map_cons,
      List.append_assoc, List.singleton_append]
    · show b.k + 1 = _
      rw [hk]; simp
    · show env.mean b.delta1 (oneGrad env x index b.w).2.1 b.k = _
      rw [hg, hp.mean, avg_snoc, hd, hk]; simp
    · show env.addVar b.vB (oneGrad env x index b.w).2.1 b.delta1 (env.mean b.delta1 (oneGrad env x index b.w).2.1 b.k) = _
      rw [hg, hp.mean, hp.addVar, deviation_snoc, avg_snoc, hd, hk, hv]; simp

theorem deviation_nil : deviation ([] : List V) = 0 := rfl

theorem deviation_one (v : V) : deviation [v] = 0 := by simp [deviation, avg]

theorem grow_mono (env : Env W M G E R) (p : Params) (x : M) (cur : Nat) : ∀ (fuel : Nat) (b b' : Batch W M G E R),
    grow env p x cur fuel b = some b' → b.batchSize ≤ b'.batchSize ∧ (b'.batchSize = b.batchSize → b' = b) := by
  intro fuel
  induction fuel with
  | zero => intro b b' h; cases h
  | succ fuel ih =>
    intro b b' h
    rw [grow] at h
    by_cases hn : env.noisy b.gB b.vB b.batchSize = true
    · rw [if_pos hn] at h
      dsimp only at h
      by_cases hN : cur + b.batchSize + offset env b.batchSize ≥ p.numFunctions
      · rw [if_pos hN] at h
        cases h
        exact ⟨Nat.le_refl _, fun _ => rfl⟩
      · rw [if_neg hN] at h
        have ho := offset_pos env b.batchSize
        have := (ih _ _ h).1
        dsimp only at this
        exact ⟨by omega, fun h => by omega⟩
    · rw [if_neg hn] at h
      cases h
      exact ⟨Nat.le_refl _, fun _ => rfl⟩

/-- **C186** (partial) The variance term of an iteration that does not enlarge its batch, for every deterministic objective: it is the sum
of squared deviations from the mean of the gradients of all functions of the batch except the first. Missing: the first function, see
`C186_variance_refuted`. -/
theorem C186_variance_partial {env : Env W M V E ℝ} {g : M → Nat → V} (hp : Plain env g) (p : Params) (s : St W M E)
    (hB : 0 < s.batchSize) (b : Batch W M V E ℝ) (hb : estimate env p s = some b) (hsame : b.batchSize = s.batchSize) :
    b.vB = deviation ((List.range' (s.cur + 1) (b.eff - 1)).map (g s.x)) := by
  obtain ⟨b', l', e1, e2, e3, e4, _⟩ := estimate_spec env p s hB
  rw [hb] at e1; cases e1
  have heff : b.eff = effBatch p s := by omega
  rw [heff]
  have hfirst : ∀ b₀ : Batch W M V E ℝ, b₀.k = 1 → b₀.vB = env.zeroR → b₀.delta1 = (oneGrad env s.x s.cur s.w).2.1 →
      (firstLoop env s.x (effBatch p s - 1) (s.cur + 1) b₀).vB =
        deviation ((List.range' (s.cur + 1) (effBatch p s - 1)).map (g s.x)) := by
    intro b₀ hk hv hd
    cases effBatch p s - 1 with
    | zero => simp only [firstLoop, List.range'_zero, List.map_nil, hv, hp.zeroR, deviation_nil]
    | succ n =>
      have hg : (oneGrad env s.x (s.cur + 1) b₀.w).2.1 = g s.x (s.cur + 1) := by
        show (env.cbGradient _ s.x (env.gradient b₀.w s.x (s.cur + 1)).2).2.1 = _
        rw [hp.cb, hp.gradient]
      rw [firstLoop, firstLoop_stats hp s.x n _ [g s.x (s.cur + 1)] _ (by simp) ?_ ?_ ?_, List.range'_succ, List.map_cons,
        List.singleton_append]
      · show b₀.k + 1 = _
        rw [hk]; rfl
      · show env.mean b₀.delta1 (oneGrad env s.x (s.cur + 1) b₀.w).2.1 b₀.k = _
        rw [hg, hp.mean, hk]; simp [avg]
      · show env.addVar b₀.vB (oneGrad env s.x (s.cur + 1) b₀.w).2.1 b₀.delta1
          (env.mean b₀.delta1 (oneGrad env s.x (s.cur + 1) b₀.w).2.1 b₀.k) = _
        rw [hg, hp.mean, hp.addVar, hk, hv, hp.zeroR, deviation_one]; simp
  unfold estimate at hb
  dsimp only at hb
  by_cases hE : effBatch p s = s.batchSize
  · rw [if_pos hE] at hb
    have hfs : ∀ b₀ : Batch W M V E ℝ, b₀.batchSize = s.batchSize →
        (firstLoop env s.x (effBatch p s - 1) (s.cur + 1) b₀).batchSize = s.batchSize := fun b₀ h =>
      (firstLoop_ext env s.x (effBatch p s - 1) (s.cur + 1) b₀).batchSize.trans h
    rw [(grow_mono env p s.x s.cur _ _ _ hb).2 (hsame.trans (hfs _ rfl).symm)]
    exact hfirst _ rfl rfl rfl
  · rw [if_neg hE] at hb
    injection hb with hb
    rw [← hb]
    exact hfirst _ rfl rfl rfl

/-- **C186** (partial) Batches of one or two functions: the variance term is 0, whatever the gradients. -/
theorem C186_small_batch_partial {env : Env W M V E ℝ} {g : M → Nat → V} (hp : Plain env g) (p : Params) (s : St W M E)
    (hB : 0 < s.batchSize) (b : Batch W M V E ℝ) (hb : estimate env p s = some b) (hsame : b.batchSize = s.batchSize)
    (h2 : b.eff ≤ 2) : b.vB = 0 := by
  rw [C186_variance_partial hp p s hB b hb hsame]
  rcases (show b.eff - 1 = 0 ∨ b.eff - 1 = 1 by omega) with h | h <;> rw [h]
  · rfl
  · exact deviation_one _

/-- One-dimensional functions with gradients 0, 1, 2, ...; the batch never grows. -/
noncomputable def line : Env Unit ℝ ℝ ℝ ℝ where
  gradient := fun _ _ j => ((), (j : ℝ))
  cbGradient := fun _ _ g => ((), g, false)
  policy := fun _ x g _ _ _ _ _ _ => ((), x, g)
  step := fun _ x g => x - g
  evaluate := fun _ _ _ n => ((), n)
  cbBegin := fun _ x => ((), x)
  cbStep := fun _ x => ((), x, false)
  cbEvaluate := fun _ _ _ => ((), false)
  cbEndEpoch := fun _ _ _ _ => ((), false)
  cbBeginEpoch := fun _ _ _ _ => ((), false)
  shuffle := id
  addG := fun a b => a + b
  mean := fun d v k => d + (k : ℝ)⁻¹ • (v - d)
  addVar := fun a v d d' => a + ‖v - d‖ * ‖v - d'‖
  zeroR := 0
  sqNorm := fun g n => ‖(n : ℝ)⁻¹ • g‖ ^ 2
  noisy := fun _ _ _ => false
  delta := fun _ => 0
  add := fun a b => a + b
  zero := 0
  divN := fun a n => a / n
  dblMax := 1000
  isBad := fun _ => false
  isClose := fun _ _ => false

theorem line_plain : Plain line fun _ j => (j : ℝ) :=
  ⟨fun _ _ _ => rfl, fun _ _ _ => rfl, fun _ _ _ => rfl, fun _ _ _ _ => rfl, rfl⟩

/-- The hypotheses of `C186_variance_partial`, at the start of a run with batches of 4: the deviation of 1, 2, 3. -/
example : ∃ b, estimate line ⟨10, 0, false, false⟩ (start line 4 () 0) = some b ∧ b.batchSize = (start line 4 () 0).batchSize ∧
    b.vB = 2 := by
  obtain ⟨b, l, h1, h2, h3, h4, h5, t⟩ := estimate_spec line ⟨10, 0, false, false⟩ (start line 4 () 0) (by decide)
  have hs : b.batchSize = 4 := by
    unfold estimate at h1
    simp only [grow, line, Bool.false_eq_true, if_false] at h1
    split at h1 <;> (injection h1 with h1; rw [← h1]) <;> exact (firstLoop_ext _ _ _ _ _).batchSize
  refine ⟨b, h1, hs, ?_⟩
  have he : b.eff = 4 := by
    have : effBatch ⟨10, 0, false, false⟩ (start line 4 () 0) = 4 := rfl
    rw [this] at h4
    change b.eff + 4 = _ at h4
    omega
  rw [C186_variance_partial line_plain _ _ (by decide) b h1 hs, he]
  show deviation [((1 : ℕ) : ℝ), ((2 : ℕ) : ℝ), ((3 : ℕ) : ℝ)] = 2
  norm_num [deviation, avg]

/-- **C186** (refuted) "The variance term is the sum of squared deviations of the batch's gradients from their mean": the first division
is by 1, so that the first gradient is dropped. With two functions of gradients 0 and 1 it is 0 instead of 1/2. -/
theorem C186_variance_refuted :
    ¬ ∀ (env : Env Unit ℝ ℝ ℝ ℝ) (g : ℝ → Nat → ℝ), Plain env g → ∀ (p : Params) (s : St Unit ℝ ℝ) (b : Batch Unit ℝ ℝ ℝ ℝ),
      0 < s.batchSize → estimate env p s = some b → b.batchSize = s.batchSize →
      b.vB = deviation ((List.range' s.cur b.eff).map (g s.x)) := by
  intro h
  obtain ⟨b, l, h1, h2, h3, h4, h5, t⟩ := estimate_spec line ⟨10, 0, false, false⟩ (start line 2 () 0) (by decide)
  have hs : b.batchSize = 2 := by
    unfold estimate at h1
    simp only [grow, line, Bool.false_eq_true, if_false] at h1
    split at h1 <;> (injection h1 with h1; rw [← h1]) <;> exact (firstLoop_ext _ _ _ _ _).batchSize
  have he : b.eff = 2 := by
    have : effBatch ⟨10, 0, false, false⟩ (start line 2 () 0) = 2 := rfl
    rw [this] at h4
    change b.eff + 2 = _ at h4
    omega
  have e1 := h line _ line_plain _ _ b (by decide) h1 hs
  rw [C186_variance_partial line_plain _ _ (by decide) b h1 hs, he] at e1
  change deviation [((1 : ℕ) : ℝ)] = deviation [((0 : ℕ) : ℝ), ((1 : ℕ) : ℝ)] at e1
  norm_num [deviation, avg] at e1

end Variance

end Ens.BigBatch
