import Verif.Vr.Svrg
import Verif.Vr.Sarah
import Verif.Vr.Katyusha

/-
Property C306: what a gradient-clipping callback (`callbacks/grad_clip_by_norm.hpp:42-52`,
`callbacks/grad_clip_by_value.hpp:41-49`) bounds in the variance-reduced optimizers (`svrg/svrg_impl.hpp:171-234`,
`sarah/sarah_impl.hpp:131-154`, `katyusha/katyusha_impl.hpp:152-171`).
-/

namespace Ens.Vr

variable {W E V : Type}

/-- The `Gradient` callbacks leave a gradient of norm at most `c`, whatever they are given. -/
def Clips [Norm V] {X : Type} (u : User W X V E) (c : ℝ) : Prop := ∀ w x g, ‖(u.cbGrad w x g).2.1‖ ≤ c

theorem batchList_length (n b : Nat) : (batchList n b).length ≤ n := by
  have : ∀ fuel i, (Sgd.chunks n b fuel i).length ≤ fuel := by
    intro fuel
    induction fuel with
    | zero => intro i; simp [Sgd.chunks]
    | succ fuel ih =>
      intro i
      rw [Sgd.chunks]
      split
      · simp only [List.length_cons]; exact Nat.succ_le_succ (ih _)
      · simp
  exact this n 0

variable [NormedAddCommGroup V] [NormedSpace ℝ V]

/-- When every batch passes through the callback before it is added, the full gradient has norm at most `c` times the
number of batches divided by the number of functions, so at most `c`. -/
theorem fullGrad_clip {u : User W V V E} {c : ℝ} (hc : Clips u c) (hadd : ∀ a b, u.addG a b = a + b)
    (hdiv : ∀ g n, u.divG g n = (n : ℝ)⁻¹ • g) {b : Nat} {s : S W} {x₁ x₂ : V} {r : S W × V}
    (hr : fullGrad u (gradAt u) b s x₁ x₂ = some r) :
    ‖r.2‖ ≤ (batchList u.n b).length * c / u.n ∧ ‖r.2‖ ≤ c := by
  have hc0 : 0 ≤ c := (norm_nonneg _).trans (hc s.w x₁ 0)
  have key : ∀ (l : List (Nat × Nat)) (a : S W × V),
      ‖(l.foldl (fun a p => let r := gradAt u a.1 x₂ p; (r.1, u.addG a.2 r.2)) a).2‖ ≤ ‖a.2‖ + l.length * c := by
    intro l
    induction l with
    | nil => intro a; simp
    | cons q l ih =>
      intro a
      rw [List.foldl_cons]
      refine (ih _).trans ?_
      dsimp only
      rw [hadd]
      have h1 : ‖(gradAt u a.1 x₂ q).2‖ ≤ c := hc _ _ _
      have h2 := norm_add_le a.2 (gradAt u a.1 x₂ q).2
      rw [List.length_cons]
      push_cast
      linarith
  have main : ‖r.2‖ ≤ (batchList u.n b).length * c / u.n ∧ 0 < u.n := by
    have hlen := batchList_length u.n b
    unfold fullGrad at hr
    cases hb : batchList u.n b with
    | nil => rw [hb] at hr; cases hr
    | cons q l =>
      rw [hb] at hr hlen
      have hn : 0 < u.n := by simp only [List.length_cons] at hlen; omega
      simp only [Option.some.injEq] at hr
      subst hr
      refine ⟨?_, hn⟩
      rw [hdiv, norm_smul, norm_inv, RCLike.norm_natCast, div_eq_inv_mul]
      refine mul_le_mul_of_nonneg_left ?_ (by positivity)
      refine (key l _).trans ?_
      have h1 : ‖(gradAt u s x₁ q).2‖ ≤ c := hc _ _ _
      rw [List.length_cons]
      push_cast
      linarith
  refine ⟨main.1, main.1.trans ?_⟩
  have hn : (0 : ℝ) < u.n := by exact_mod_cast main.2
  rw [div_le_iff₀ hn, mul_comm]
  exact mul_le_mul_of_nonneg_left (by exact_mod_cast batchList_length u.n b) hc0

namespace Svrg

/-- **C306** With a callback that clips gradients to norm `c`, no run of SVRG (vanilla update, constant step size `a`)
moves further than `3 |a| c` per inner step, so never further than `3 |a| c` times the inner iterations times the
epochs, whatever the functions are. -/
theorem C306_svrg_clip {u : User W V V ℝ} {p : Params W V V ℝ} {c : ℝ} (hc : Clips u c)
    (hadd : ∀ a b, u.addG a b = a + b) (hdiv : ∀ g n, u.divG g n = (n : ℝ)⁻¹ • g)
    (hup : ∀ w x full g g0 k a, (p.update w x full g g0 k a).2 = x - a • (full + (k : ℝ)⁻¹ • (g - g0)))
    (hdec : ∀ w x x0 g full k a, (p.decay w x x0 g full k a).2 = a)
    (hbeg : ∀ w x, (u.cbBegin w x).2 = x) (hstep : ∀ w x, (u.cbStep w x).2.1 = x) (hend : ∀ w x, (u.cbEnd w x).2 = x)
    (hn : 0 < u.n) (hb : 0 < p.batchSize)
    {a : ℝ} {fuel : Nat} {w : W} {x : V} {e : Exit} {t : St W V ℝ} (h : optimize u p a fuel w x = some (.ret e t)) :
    ‖t.x - x‖ ≤ 3 * |a| * c * effInner u p * t.i := by
  have hc0 : 0 ≤ c := (norm_nonneg _).trans (hc w x 0)
  -- the inner loop
  have inner : ∀ (m : Nat) (x0 full : V) (q : Inner W V) (f : Nat) (r : Inner W V), ‖full‖ ≤ c → q.x = x0 → q.f = 0 →
      q.cur = 0 → iterate (innerStep u p m x0 full a) f q = some r → ‖r.x - x0‖ ≤ 3 * |a| * c * m := by
    intro m x0 full q f r hf hq hq0 hqc hr
    have := iterate_inv (step := innerStep u p m x0 full a)
      (fun q => q.cur ≤ u.n ∧ ‖q.x - x0‖ ≤ 3 * |a| * c * (min q.f m : Nat))
      (fun r => ‖r.x - x0‖ ≤ 3 * |a| * c * m) ?_ ?_ f q r ⟨by omega, by simp [hq, hq0]⟩ hr
    · exact this
    · intro q q' ⟨hcur, hI⟩ hs
      unfold innerStep at hs
      split at hs
      · rename_i hlt
        have hw : (wrap u p.shuffle q).x = q.x ∧ (wrap u p.shuffle q).f = q.f ∧ (wrap u p.shuffle q).cur < u.n := by
          unfold wrap
          split
          · exact ⟨rfl, rfl, hn⟩
          · rename_i hm
            refine ⟨rfl, rfl, ?_⟩
            rcases Nat.lt_or_ge q.cur u.n with h | h
            · exact h
            · exact absurd (by rw [show q.cur = u.n by omega, Nat.mod_self]) hm
        obtain ⟨w1, w2, w3⟩ := hw
        simp only at hs
        split at hs
        · cases hs
        · cases hs
          dsimp only [stepAt]
          rw [hstep, hup, w1, w2]
          set k := min p.batchSize (u.n - (wrap u p.shuffle q).cur) with hk
          have hk1 : 1 ≤ k := by omega
          refine ⟨by omega, ?_⟩
          set g := (gradAt u (wrap u p.shuffle q).s q.x ((wrap u p.shuffle q).cur, k)).2 with hg
          set g0 := (gradAt u (gradAt u (wrap u p.shuffle q).s q.x ((wrap u p.shuffle q).cur, k)).1 x0
            ((wrap u p.shuffle q).cur, k)).2 with hg0
          have e1 : ‖g‖ ≤ c := hc _ _ _
          have e2 : ‖g0‖ ≤ c := hc _ _ _
          clear_value g g0
          have e3 : ‖(k : ℝ)⁻¹ • (g - g0)‖ ≤ 2 * c := by
            rw [norm_smul, norm_inv, RCLike.norm_natCast]
            have h1 : ((k : ℝ))⁻¹ ≤ 1 := inv_le_one_of_one_le₀ (by exact_mod_cast hk1)
            have h2 : ‖g - g0‖ ≤ 2 * c := (norm_sub_le _ _).trans (by linarith)
            calc ((k : ℝ))⁻¹ * ‖g - g0‖ ≤ 1 * ‖g - g0‖ := mul_le_mul_of_nonneg_right h1 (norm_nonneg _)
              _ ≤ 2 * c := by rw [one_mul]; exact h2
          have e4 : ‖a • (full + (k : ℝ)⁻¹ • (g - g0))‖ ≤ 3 * |a| * c := by
            rw [norm_smul, Real.norm_eq_abs]
            have h1 : ‖full + (k : ℝ)⁻¹ • (g - g0)‖ ≤ 3 * c := (norm_add_le _ _).trans (by linarith)
            calc |a| * ‖full + (k : ℝ)⁻¹ • (g - g0)‖ ≤ |a| * (3 * c) := mul_le_mul_of_nonneg_left h1 (abs_nonneg _)
              _ = 3 * |a| * c := by ring
          have e5 : q.x - a • (full + (k : ℝ)⁻¹ • (g - g0)) - x0 = (q.x - x0) - a • (full + (k : ℝ)⁻¹ • (g - g0)) := by
            abel
          rw [e5]
          refine (norm_sub_le _ _).trans ?_
          have e6 : min q.f m + 1 ≤ min (q.f + k) m := by omega
          have e7 : ((min q.f m : Nat) : ℝ) + 1 ≤ ((min (q.f + k) m : Nat) : ℝ) := by exact_mod_cast e6
          have e8 : 0 ≤ 3 * |a| * c := by positivity
          nlinarith [mul_le_mul_of_nonneg_left e7 e8]
      · cases hs
    · intro q r ⟨hcur, hI⟩ hs
      have hle : 3 * |a| * c * ((min q.f m : Nat) : ℝ) ≤ 3 * |a| * c * m :=
        mul_le_mul_of_nonneg_left (by exact_mod_cast min_le_right _ _) (by positivity)
      unfold innerStep at hs
      split at hs
      · simp only at hs
        split at hs
        · cases hs
          dsimp only
          have hw : (wrap u p.shuffle q).x = q.x := by unfold wrap; split <;> rfl
          rw [hw]
          exact hI.trans hle
        · cases hs
      · cases hs
        exact hI.trans hle
  -- the outer loop
  unfold optimize at h
  simp only [Option.map_eq_some_iff] at h
  obtain ⟨r, hr, h⟩ := h
  have hinv := iterate_inv (step := body u p)
    (fun t => t.step = a ∧ ‖t.x - x‖ ≤ 3 * |a| * c * effInner u p * t.i)
    (fun r => ∀ e t, r = .ret e t → ‖t.x - x‖ ≤ 3 * |a| * c * effInner u p * t.i) ?_ ?_ fuel _ r
    ⟨rfl, by dsimp only; rw [hbeg]; simp⟩ hr
  · cases r with
    | stuck => cases h
    | ret e' t' =>
      cases h
      have := hinv e t' rfl
      unfold finish
      by_cases hx : e = .loop ∧ p.exact = true
      · simp only [if_pos hx, hend]; exact this
      · simp only [if_neg hx, hend]; exact this
  · intro t t' ⟨ha, hI⟩ ht
    unfold body at ht
    split at ht
    · cases ht
    simp only at ht
    split at ht
    · cases ht
    split at ht
    · cases ht
    split at ht
    · cases ht
    split at ht
    · cases ht
    rename_i g hg
    split at ht
    · cases ht
    split at ht
    · cases ht
    rename_i q hq
    cases ht
    rw [ha] at hq
    refine ⟨by dsimp only; rw [hdec]; exact ha, ?_⟩
    have h1 := inner _ t.x _ _ _ _ (fullGrad_clip hc hadd hdiv hg).2 rfl rfl rfl hq
    have e : q.x - x = (q.x - t.x) + (t.x - x) := by abel
    dsimp only
    rw [e]
    refine (norm_add_le _ _).trans ?_
    push_cast
    linarith
  · intro t r ⟨ha, hI⟩ ht e' t' hr'
    subst hr'
    unfold body at ht
    split at ht
    · cases ht; exact hI
    simp only at ht
    split at ht
    · cases ht; exact hI
    split at ht
    · cases ht; exact hI
    split at ht
    · cases ht; exact hI
    split at ht
    · cases ht
    split at ht
    · cases ht; exact hI
    split at ht
    · cases ht
    · cases ht

end Svrg

/-! ### SARAH and Katyusha -/

/-- Two functions: `0`, and `m * x` whose gradient is `m` everywhere; the callback clips gradients to `[-1, 1]`. -/
def steep (m : ℚ) : User Unit ℚ ℚ ℚ where
  n := 2
  evaluate := fun w x a k => (w, ((List.range' a k).map fun i => if i = 0 then 0 else m * x).sum)
  gradient := fun w _ a k => (w, ((List.range' a k).map fun i => if i = 0 then 0 else m).sum)
  shuffle := fun w => w
  cbBegin := fun w x => (w, x)
  cbEval := fun w _ _ => (w, false)
  cbGrad := fun w _ g => (w, max (-1) (min 1 g), false)
  cbStep := fun w x => (w, x, false)
  cbEnd := fun w x => (w, x)
  addE := fun a b => a + b
  zero := 0
  isBad := fun _ => false
  near := fun _ _ => false
  dblMax := 10 ^ 308
  addG := fun a b => a + b
  divG := fun g n => g / n

/-- SARAH with step size 1, one epoch, one inner iteration, batches of one (`sarah/sarah_update.hpp:36-47`). -/
def sarahPlain : Sarah.Params ℚ ℚ ℚ where
  batchSize := 1
  maxIterations := 1
  innerIterations := 1
  shuffle := true
  exact := false
  move := fun x v => x - v
  norm := fun v => |v|
  update := fun x v g g0 b _ => (x - (v + (g - g0) / b), v + (g - g0) / b, false)

/-- The coordinate that an epoch of SARAH from 0 returns. -/
def sarahEnd (m : ℚ) : Option ℚ := (Sarah.outcome (Sarah.optimize (steep m) sarahPlain 5 () 0)).map Prod.fst

/-- The coordinate that an epoch of Katyusha with two inner iterations returns from 0. -/
def katyushaEnd (m : ℚ) : Option ℚ :=
  (Katyusha.outcome (Katyusha.optimize (steep m) (Katyusha.params 1 2 false) 5 () 0)).map fun r => r.2.1

theorem chunks_two : batchList 2 1 = [(0, 1), (1, 1)] := by decide

theorem sarahEnd_eq (m : ℚ) : sarahEnd m = some (-m) := by
  simp [sarahEnd, Sarah.outcome, Sarah.optimize, iterate, Sarah.body, Sarah.limitReached, evalAll, fullGrad, chunks_two, Sarah.effInner,
    Sarah.innerStep, Sarah.wrap, Sarah.twoGrads, gradAt, gradQuiet, evalAt, S.note, stepAt, Sarah.finish, steep, sarahPlain, List.range']
  ring

theorem katyushaEnd_eq (m : ℚ) : katyushaEnd m = some (-(m / 6)) := by
  simp [katyushaEnd, Katyusha.outcome, Katyusha.optimize, iterate, Katyusha.body, Katyusha.limitReached, evalAll, fullGrad, chunks_two,
    Katyusha.effInner, Katyusha.innerStep, Katyusha.wrap, Katyusha.mirror, Katyusha.alpha, gradAt, gradLate, evalAt, S.note, stepAt,
    Katyusha.finish, steep, Katyusha.params, List.range']
  ring

theorem steep_clips (m : ℚ) (w : Unit) (x g : ℚ) : |((steep m).cbGrad w x g).2.1| ≤ 1 := by
  simp only [steep, abs_le]
  exact ⟨le_max_left _ _, max_le (by norm_num) (min_le_left _ _)⟩

/-- **C306** (refuted) for SARAH: its full gradient takes all batches but the first past the callbacks. With gradients
clipped to `[-1, 1]`, step size 1 and one epoch of one inner iteration it still moves arbitrarily far. -/
theorem C306_sarah_refuted :
    ¬ ∃ B, ∀ m x, (∀ w y g, |((steep m).cbGrad w y g).2.1| ≤ 1) → sarahEnd m = some x → |x| ≤ B := by
  rintro ⟨B, h⟩
  have h1 := h (|B| + 1) _ (steep_clips _) (sarahEnd_eq _)
  rw [abs_neg, abs_of_nonneg (by positivity)] at h1
  linarith [le_abs_self B]

/-- **C306** (refuted) for Katyusha: the later batches are added to the full gradient before the callback clips them. -/
theorem C306_katyusha_refuted :
    ¬ ∃ B, ∀ m x, (∀ w y g, |((steep m).cbGrad w y g).2.1| ≤ 1) → katyushaEnd m = some x → |x| ≤ B := by
  rintro ⟨B, h⟩
  have h1 := h (6 * (|B| + 1)) _ (steep_clips _) (katyushaEnd_eq _)
  rw [abs_neg, abs_of_nonneg (by positivity)] at h1
  linarith [le_abs_self B]

/-- **C306** (partial) What is left for SARAH and Katyusha (`rest` is how they take the later batches): when one batch
holds all functions the full gradient is clipped. -/
theorem C306_one_batch_partial {u : User W V V E} {c : ℝ} (hc : Clips u c) (hdiv : ∀ g n, u.divG g n = (n : ℝ)⁻¹ • g)
    {rest : S W → V → Nat × Nat → S W × V} {b : Nat} (hb : u.n ≤ b) {s : S W} {x₁ x₂ : V} {r : S W × V}
    (hr : fullGrad u rest b s x₁ x₂ = some r) : ‖r.2‖ ≤ c / u.n := by
  have hbl : ∀ q l, batchList u.n b = q :: l → l = [] := by
    intro q l h
    unfold batchList at h
    cases hn : u.n with
    | zero => rw [hn] at h; simp [Sgd.chunks] at h
    | succ m =>
      rw [hn, Sgd.chunks, if_pos (by omega)] at h
      cases m with
      | zero => cases h; rfl
      | succ k =>
        rw [Sgd.chunks, if_neg (by omega)] at h
        cases h; rfl
  unfold fullGrad at hr
  split at hr
  · cases hr
  · rename_i q l h
    obtain rfl := hbl q l h
    cases hr
    simp only [List.foldl_nil]
    rw [hdiv, norm_smul, norm_inv, RCLike.norm_natCast, div_eq_inv_mul]
    exact mul_le_mul_of_nonneg_left (hc _ _ _) (by positivity)

/-- Two functions with gradients `0` and `m`, clipped to `[-1, 1]`, over the reals. -/
noncomputable def steepR (m : ℝ) : User Unit ℝ ℝ ℝ where
  n := 2
  evaluate := fun w x a k => (w, ((List.range' a k).map fun i => if i = 0 then 0 else m * x).sum)
  gradient := fun w _ a k => (w, ((List.range' a k).map fun i => if i = 0 then 0 else m).sum)
  shuffle := fun w => w
  cbBegin := fun w x => (w, x)
  cbEval := fun w _ _ => (w, false)
  cbGrad := fun w _ g => (w, max (-1) (min 1 g), false)
  cbStep := fun w x => (w, x, false)
  cbEnd := fun w x => (w, x)
  addE := fun a b => a + b
  zero := 0
  isBad := fun _ => false
  near := fun _ _ => false
  dblMax := 10 ^ 308
  addG := fun a b => a + b
  divG := fun g n => (n : ℝ)⁻¹ • g

theorem steepR_clips (m : ℝ) : Clips (steepR m) 1 := by
  intro w x g
  simp only [steepR, Real.norm_eq_abs, abs_le]
  exact ⟨le_max_left _ _, max_le (by norm_num) (min_le_left _ _)⟩

/-- The hypotheses are met: SVRG with step size 1, four epochs of two inner iterations on these functions ends within 24
of its start however steep the second function is. -/
example (m : ℝ) : ∃ e t, Svrg.optimize (steepR m) ⟨1, 4, 2, true, true,
    fun w x full g g0 k a => (w, x - a • (full + (k : ℝ)⁻¹ • (g - g0))), fun w _ _ _ _ _ a => (w, a)⟩ 1 5 () 0 =
      some (.ret e t) ∧ ‖t.x - 0‖ ≤ 24 := by
  obtain ⟨e, t, h1, h2, -⟩ := Svrg.C106_svrg_protocol (u := steepR m) (p := ⟨1, 4, 2, true, true,
    fun w x full g g0 k a => (w, x - a • (full + (k : ℝ)⁻¹ • (g - g0))), fun w _ _ _ _ _ a => (w, a)⟩)
    (show 0 < 2 by omega) (show 0 < 1 by omega) (show 0 < 4 by omega) 1 () (0 : ℝ)
  refine ⟨e, t, h1, (Svrg.C306_svrg_clip (steepR_clips m) (fun _ _ => rfl) (fun _ _ => rfl) (fun _ _ _ _ _ _ _ => rfl)
    (fun _ _ _ _ _ _ _ => rfl) (fun _ _ => rfl) (fun _ _ => rfl) (fun _ _ => rfl) (show 0 < 2 by omega)
    (show 0 < 1 by omega) h1).trans ?_⟩
  have h3 : (t.i : ℝ) ≤ 4 := by exact_mod_cast h2
  simp only [Svrg.effInner, abs_one]
  norm_num
  linarith

example (m : ℝ) : ∃ r, fullGrad (steepR m) (gradLate (steepR m)) 2 ⟨(), false, []⟩ 0 0 = some r ∧ ‖r.2‖ ≤ 1 / (2 : ℕ) := by
  obtain ⟨r, hr⟩ := fullGrad_some (steepR m) (gradLate (steepR m)) (b := 2) (show 0 < 2 by omega) ⟨(), false, []⟩ 0 0
  exact ⟨r, hr, C306_one_batch_partial (steepR_clips m) (fun _ _ => rfl) (show 2 ≤ 2 by omega) hr⟩

end Ens.Vr
