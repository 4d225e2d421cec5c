import Verif.Converge.Base
import Mathlib.Algebra.Order.Chebyshev
import Verif.Cd.Props

/-
C252: coordinate descent (`CD<DescentPolicyType>::Optimize`) on smooth functions.
The coordinates are `n` columns; a column is a vector of any real inner product space `H` (`ℝ` if the matrix is a row).
-/

namespace Ens.Converge

open Ens.Cd Filter

variable {W H E : Type} [NormedAddCommGroup H] [InnerProductSpace ℝ H] {n : Nat}

/-- `n` columns with the Euclidean (Frobenius) norm. -/
abbrev Cols (n : Nat) (H : Type) [NormedAddCommGroup H] := PiLp 2 fun _ : Fin n => H

/-- The list of columns of the model of CD as a vector. -/
def ofList (x : List H) : Cols n H := WithLp.toLp 2 fun i => x.getD i 0

/-- A function with gradient `g`, callbacks that neither stop the run nor change anything, the column update of line 87, a
descent policy that answers `pick`, and no stop for the tolerance (e.g. `tolerance = 0`) or a value that is not finite. -/
structure QuietCd (env : Env W H E) (g : Cols n H → Cols n H) (α : ℝ) (pick : Nat → Cols n H → Fin n) : Prop where
  feature : ∀ w i x, (env.feature w i x).2 = pick i (ofList x)
  grad : ∀ w x (j : Fin n), x.length = n → (env.partialGrad w x j).2[(j : Nat)]? = some (g (ofList x) j)
  move : ∀ c d, env.moveCol c d = c - α • d
  cbGradient : ∀ w x o G, (env.cbGradient w x o G).2 = (G, false)
  cbStep : ∀ w x, (env.cbStep w x).2 = (x, false)
  cbBegin : ∀ w x, (env.cbBegin w x).2 = x
  cbEvaluate : ∀ w x o, (env.cbEvaluate w x o).2 = false
  finite : ∀ o, env.isBad o = false
  tol : ∀ a b, env.isClose a b = false

/-- Textbook coordinate descent: step `k + 1` changes the column `pick (k + 1)`. -/
noncomputable def cdSeq (g : Cols n H → Cols n H) (α : ℝ) (pick : Nat → Cols n H → Fin n) (x : Cols n H) : Nat → Cols n H
  | 0 => x
  | k + 1 =>
    let y := cdSeq g α pick x k
    let j := pick (k + 1) y
    WithLp.toLp 2 (Function.update (WithLp.ofLp y) j (y j - α • g y j))

theorem ofList_set {x : List H} (hx : x.length = n) (j : Fin n) (c : H) :
    (ofList (x.set j c) : Cols n H) = WithLp.toLp 2 (Function.update (WithLp.ofLp (ofList x : Cols n H)) j c) := by
  ext i
  simp only [ofList]
  by_cases h : i = j
  · subst h
    simp [List.getD_eq_getElem?_getD, hx]
  · have h' : (j : Nat) ≠ i := fun e => h (Fin.ext e.symm)
    rw [Function.update_of_ne h]
    simp [List.getD_eq_getElem?_getD, List.getElem?_set_ne h']

theorem step_quiet {env : Env W H E} {g : Cols n H → Cols n H} {α : ℝ} {pick : Nat → Cols n H → Fin n}
    (hq : QuietCd env g α pick) {m u : Nat} (hu : 0 < u) {s : St W H E} (ht : s.terminate = false) (hx : s.x.length = n)
    (hi : s.i ≠ m) : ∃ s', step env m u s = .inl s' ∧ s'.i = (s.i + 1) % 2 ^ 64 ∧ s'.terminate = false ∧ s'.x.length = n ∧
      (ofList s'.x : Cols n H) = WithLp.toLp 2 (Function.update (WithLp.ofLp (ofList s.x : Cols n H)) (pick s.i (ofList s.x))
        ((ofList s.x : Cols n H) (pick s.i (ofList s.x)) - α • g (ofList s.x) (pick s.i (ofList s.x)))) := by
  set j := pick s.i (ofList s.x) with hj
  have hxj : s.x[(j : Nat)]? = some ((ofList s.x : Cols n H) j) := by
    have : (j : Nat) < s.x.length := hx ▸ j.2
    simp [ofList, List.getD_eq_getElem?_getD, this]
  have e1 : (gradPart env s).2.1 = j := by simp [gradPart, hq.feature, hj]
  have e2 : (gradPart env s).1.terminate = false := by simp [gradPart, hq.cbGradient, ht]
  have e3 : (gradPart env s).1.x = s.x := rfl
  have e3' : (gradPart env s).1.i = s.i := rfl
  have e4 : (gradPart env s).2.2[(j : Nat)]? = some (g (ofList s.x) j) := by
    simp only [gradPart, hq.cbGradient, hq.feature, ← hj]
    exact hq.grad _ _ _ hx
  let s2 := movePart env (gradPart env s).1 j (gradPart env s).2.2 ((ofList s.x : Cols n H) j) (g (ofList s.x) j)
  have m1 : s2.x = s.x.set j ((ofList s.x : Cols n H) j - α • g (ofList s.x) j) := by
    simp only [s2, movePart, hq.cbStep, hq.move, e3]
  have m2 : s2.terminate = false := by simp only [s2, movePart, hq.cbStep, e2, Bool.or_false]
  have m3 : s2.i = s.i := rfl
  have hlen : (s.x.set j ((ofList s.x : Cols n H) j - α • g (ofList s.x) j)).length = n := by simpa using hx
  unfold step
  rw [if_neg (by simp [hi, ht])]
  simp only [e2, e1, e3, e4, hxj, Bool.false_eq_true, if_false, if_neg hu.ne', hq.finite, hq.tol]
  split_ifs
  · refine ⟨_, rfl, ?_, ?_, ?_, ?_⟩
    · rfl
    · show (s2.terminate || (env.cbEvaluate _ _ _).2) = false
      rw [m2, hq.cbEvaluate]; rfl
    · show s2.x.length = n
      rw [m1]; exact hlen
    · show ofList s2.x = _
      rw [m1]; exact ofList_set hx j _
  · refine ⟨_, rfl, ?_, ?_, ?_, ?_⟩
    · rfl
    · exact m2
    · show s2.x.length = n
      rw [m1]; exact hlen
    · show ofList s2.x = _
      rw [m1]; exact ofList_set hx j _

/-- `Optimize` is textbook coordinate descent: it hands back the iterate after `maxIterations - 1` steps. -/
theorem C252_textbook {env : Env W H E} {g : Cols n H → Cols n H} {α : ℝ} {pick : Nat → Cols n H → Fin n}
    (hq : QuietCd env g α pick) {m u fuel : Nat} (hm : m < 2 ^ 64) (hu : 0 < u) {w : W} {x : List H} (hx : x.length = n)
    {o : Outcome W H E} (h : optimize env m u fuel w x = some o) :
    ∃ r, o = .returned r ∧ r.x.length = n ∧ r.exit = .loop ∧ ofList r.x = cdSeq g α pick (ofList x) (limit m) := by
  have hlim : limit m < 2 ^ 64 := by unfold limit; split_ifs <;> omega
  have hlm : (limit m + 1) % 2 ^ 64 = m := by unfold limit; split_ifs <;> omega
  refine iterate_inv (fun s : St W H E => ∃ k ≤ limit m, s.i = (k + 1) % 2 ^ 64 ∧ s.terminate = false ∧ s.x.length = n ∧
      ofList s.x = cdSeq g α pick (ofList x) k) (fun o : Outcome W H E => ∃ r, o = .returned r ∧ r.x.length = n ∧
        r.exit = .loop ∧ ofList r.x = cdSeq g α pick (ofList x) (limit m)) ?_ ?_ fuel _ o
      ⟨0, Nat.zero_le _, by simp [start], rfl, by simp [start, hq.cbBegin, hx], by simp [start, hq.cbBegin, cdSeq]⟩ h
  · rintro s s' ⟨k, hk, hi, ht, hl, hxk⟩ hs
    by_cases him : s.i = m
    · rw [step, if_pos (Or.inl him)] at hs
      exact absurd hs (by simp)
    · obtain ⟨s1, h1, h2, h3, h4, h5⟩ := step_quiet hq hu ht hl him
      rw [h1, Sum.inl.injEq] at hs
      subst hs
      have hkl : k < limit m := lt_of_le_of_ne hk fun e => him (by rw [hi, e, hlm])
      have hsi : s.i = k + 1 := by rw [hi]; exact Nat.mod_eq_of_lt (by omega)
      refine ⟨k + 1, hkl, by rw [h2, hsi], h3, h4, ?_⟩
      rw [h5, hxk, hsi]
      rfl
  · rintro s r ⟨k, hk, hi, ht, hl, hxk⟩ hs
    by_cases him : s.i = m
    · rw [step, if_pos (Or.inl him), Sum.inr.injEq] at hs
      have hkm : k = limit m := by
        rw [← hlm] at him
        rw [hi] at him
        rcases Nat.lt_or_ge k (limit m) with hkl | hkl
        · rw [Nat.mod_eq_of_lt (by omega : k + 1 < 2 ^ 64)] at him
          omega
        · omega
      subst hkm
      subst hs
      exact ⟨_, rfl, hl, rfl, hxk⟩
    · obtain ⟨s1, h1, -⟩ := step_quiet hq hu ht hl him
      rw [h1] at hs
      exact absurd hs (by simp)

/-! ### Descent and convergence -/

variable {f : Cols n H → ℝ} {g : Cols n H → Cols n H} {L b α : ℝ} {pick : Nat → Cols n H → Fin n}

theorem update_sub (y : Cols n H) (j : Fin n) (v : H) :
    WithLp.toLp 2 (Function.update (WithLp.ofLp y) j (y j - v)) - y = PiLp.single 2 j (-v) := by
  ext i
  by_cases h : i = j
  · subst h; simp
  · simp [h]

theorem cd_step (hs : LSmooth f g L) (x : Cols n H) (k : Nat) :
    f (cdSeq g α pick x (k + 1)) ≤ f (cdSeq g α pick x k) -
      α * (1 - L * α / 2) * ‖g (cdSeq g α pick x k) (pick (k + 1) (cdSeq g α pick x k))‖ ^ 2 := by
  set y := cdSeq g α pick x k with hy
  set j := pick (k + 1) y with hj
  have e : cdSeq g α pick x (k + 1) = WithLp.toLp 2 (Function.update (WithLp.ofLp y) j (y j - α • g y j)) := rfl
  have hd := hs.descent y (cdSeq g α pick x (k + 1))
  rw [e, update_sub] at hd
  rw [e]
  refine hd.trans (le_of_eq ?_)
  have hin : inner ℝ (g y) (PiLp.single 2 j (-(α • g y j)) : Cols n H) = -(α * ‖g y j‖ ^ 2) := by
    rw [PiLp.inner_apply, Finset.sum_eq_single j]
    · simp [real_inner_smul_right]
    · intro i _ hi
      simp [hi]
    · simp
  rw [hin, PiLp.norm_single, norm_neg, norm_smul, mul_pow, Real.norm_eq_abs, sq_abs]
  ring

theorem cd_mono (hs : LSmooth f g L) (hα : 0 ≤ α) (hα2 : α * L ≤ 2) (x : Cols n H) (k : Nat) :
    f (cdSeq g α pick x k) ≤ f x := by
  induction k with
  | zero => exact le_rfl
  | succ k ih =>
    refine (cd_step hs x k).trans (le_trans ?_ ih)
    have : 0 ≤ α * (1 - L * α / 2) := mul_nonneg hα (by linarith [mul_comm α L])
    have := mul_nonneg this (sq_nonneg ‖g (cdSeq g α pick x k) (pick (k + 1) (cdSeq g α pick x k))‖)
    linarith

/-- The part of the gradient that step `k + 1` uses. -/
noncomputable def cdPart (g : Cols n H → Cols n H) (α : ℝ) (pick : Nat → Cols n H → Fin n) (x : Cols n H) (k : Nat) : ℝ :=
  ‖g (cdSeq g α pick x k) (pick (k + 1) (cdSeq g α pick x k))‖

theorem cd_window (hs : LSmooth f g L) (hL : 0 ≤ L) (hα : 0 < α) (x : Cols n H) {B : Nat}
    (hB : ∀ k j, ∃ i < B, pick (k + i + 1) (cdSeq g α pick x (k + i)) = j) (k : Nat) (j : Fin n) :
    ‖g (cdSeq g α pick x k) j‖ ≤ (1 + L * α) * ∑ t ∈ Finset.range B, cdPart g α pick x (k + t) := by
  set X := cdSeq g α pick x with hX
  let p : Nat → ℝ := cdPart g α pick x
  have hd : ∀ k, ‖X (k + 1) - X k‖ = α * p k := by
    intro k
    have e : X (k + 1) = WithLp.toLp 2 (Function.update (WithLp.ofLp (X k)) (pick (k + 1) (X k))
      (X k (pick (k + 1) (X k)) - α • g (X k) (pick (k + 1) (X k)))) := rfl
    rw [e, update_sub, PiLp.norm_single, norm_neg, norm_smul, Real.norm_of_nonneg hα.le]
    rfl
  have hfar : ∀ k i, ‖X (k + i) - X k‖ ≤ ∑ t ∈ Finset.range i, α * p (k + t) := by
    intro k i
    induction i with
    | zero => simp
    | succ i ih =>
      rw [Finset.sum_range_succ]
      have : X (k + (i + 1)) - X k = (X (k + i + 1) - X (k + i)) + (X (k + i) - X k) := by
        rw [sub_add_sub_cancel]; rfl
      rw [this]
      refine (norm_add_le _ _).trans ?_
      rw [hd]
      linarith
  obtain ⟨i, hi, hj⟩ := hB k j
  have h1 : ‖g (X k) j‖ ≤ ‖g (X (k + i)) j‖ + ‖g (X k) j - g (X (k + i)) j‖ := by
    have := norm_add_le (g (X (k + i)) j) (g (X k) j - g (X (k + i)) j)
    rwa [add_sub_cancel] at this
  have h2 : ‖g (X k) j - g (X (k + i)) j‖ ≤ L * ‖X (k + i) - X k‖ := by
    have := PiLp.norm_apply_le (g (X k) - g (X (k + i))) j
    rw [PiLp.sub_apply] at this
    refine this.trans ((hs.lip _ _).trans (le_of_eq ?_))
    rw [norm_sub_rev]
  have h3 : ‖g (X (k + i)) j‖ = p (k + i) := by
    show _ = ‖g (X (k + i)) (pick (k + i + 1) (X (k + i)))‖
    rw [hj]
  have hp0 : ∀ t, 0 ≤ p t := fun t => norm_nonneg _
  have h4 : p (k + i) ≤ ∑ t ∈ Finset.range B, p (k + t) :=
    Finset.single_le_sum (f := fun t => p (k + t)) (fun t _ => hp0 _) (Finset.mem_range.2 hi)
  have h5 : ∑ t ∈ Finset.range i, α * p (k + t) ≤ ∑ t ∈ Finset.range B, α * p (k + t) :=
    Finset.sum_le_sum_of_subset_of_nonneg (Finset.range_subset_range.2 hi.le)
      fun t _ _ => mul_nonneg hα.le (hp0 _)
  have h6 : (1 + L * α) * ∑ t ∈ Finset.range B, p (k + t) =
      ∑ t ∈ Finset.range B, p (k + t) + L * ∑ t ∈ Finset.range B, α * p (k + t) := by
    rw [← Finset.mul_sum]
    ring
  have h7 := mul_le_mul_of_nonneg_left ((hfar k i).trans h5) hL
  show _ ≤ (1 + L * α) * ∑ t ∈ Finset.range B, p (k + t)
  rw [h6]
  linarith

theorem cd_tendsto (hs : LSmooth f g L) (hL : 0 ≤ L) (hb : ∀ y, b ≤ f y) (hα : 0 < α) (hα2 : α * L < 2) (x : Cols n H)
    {B : Nat} (hB : ∀ k j, ∃ i < B, pick (k + i + 1) (cdSeq g α pick x (k + i)) = j) :
    Tendsto (fun k => g (cdSeq g α pick x k)) atTop (nhds 0) := by
  have hc : 0 < α * (1 - L * α / 2) := mul_pos hα (by linarith [mul_comm α L])
  have hp : Tendsto (cdPart g α pick x) atTop (nhds 0) := by
    refine tendsto_of_norm_sq hc ?_
    have := tendsto_of_energy (e := fun k => f (cdSeq g α pick x k)) (q := fun k => α * (1 - L * α / 2) * cdPart g α pick x k ^ 2)
      (m := b) (fun k => by positivity) (fun k => cd_step hs x k) (fun k => hb _)
    simpa using this
  have hq : Tendsto (fun k => (1 + L * α) * ∑ t ∈ Finset.range B, cdPart g α pick x (k + t)) atTop (nhds 0) := by
    have : Tendsto (fun k => (1 + L * α) * ∑ t ∈ Finset.range B, cdPart g α pick x (k + t)) atTop
        (nhds ((1 + L * α) * ∑ t ∈ Finset.range B, 0)) :=
      (tendsto_finsetSum _ fun t _ => (tendsto_add_atTop_iff_nat t).2 hp).const_mul _
    simpa using this
  have hpi : Tendsto (fun k => WithLp.ofLp (g (cdSeq g α pick x k))) atTop (nhds 0) := by
    rw [tendsto_pi_nhds]
    intro j
    exact squeeze_zero_norm (fun k => cd_window hs hL hα x hB k j) hq
  have := ((PiLp.continuous_toLp 2 fun _ : Fin n => H).tendsto 0).comp hpi
  rw [WithLp.toLp_zero] at this
  exact this

/-- One window of `B` steps. -/
theorem cd_window_sq (hs : LSmooth f g L) (hL : 0 ≤ L) (hα : 0 < α) (hα2 : α * L < 2) (x : Cols n H) {B : Nat}
    (hB : ∀ k j, ∃ i < B, pick (k + i + 1) (cdSeq g α pick x (k + i)) = j) (k : Nat) :
    α * (1 - L * α / 2) * ‖g (cdSeq g α pick x k)‖ ^ 2 ≤
      n * (1 + L * α) ^ 2 * B * (f (cdSeq g α pick x k) - f (cdSeq g α pick x (k + B))) := by
  have hc : 0 < α * (1 - L * α / 2) := mul_pos hα (by linarith [mul_comm α L])
  have h1 : ∀ i, α * (1 - L * α / 2) * ∑ t ∈ Finset.range i, cdPart g α pick x (k + t) ^ 2 ≤
      f (cdSeq g α pick x k) - f (cdSeq g α pick x (k + i)) := by
    intro i
    induction i with
    | zero => simp
    | succ i ih =>
      rw [Finset.sum_range_succ, mul_add]
      have : f (cdSeq g α pick x (k + i + 1)) ≤ f (cdSeq g α pick x (k + i)) -
          α * (1 - L * α / 2) * cdPart g α pick x (k + i) ^ 2 := cd_step hs x (k + i)
      rw [show k + (i + 1) = k + i + 1 from rfl]
      linarith
  have h2 : (∑ t ∈ Finset.range B, cdPart g α pick x (k + t)) ^ 2 ≤ B * ∑ t ∈ Finset.range B, cdPart g α pick x (k + t) ^ 2 := by
    have := sq_sum_le_card_mul_sum_sq (s := Finset.range B) (f := fun t => cdPart g α pick x (k + t))
    simpa using this
  have h3 : ‖g (cdSeq g α pick x k)‖ ^ 2 ≤
      n * ((1 + L * α) * ∑ t ∈ Finset.range B, cdPart g α pick x (k + t)) ^ 2 := by
    rw [PiLp.norm_sq_eq_of_L2]
    refine (Finset.sum_le_card_nsmul _ _ _ fun j _ =>
      pow_le_pow_left₀ (norm_nonneg _) (cd_window hs hL hα x hB k j) 2).trans (le_of_eq ?_)
    simp
  have h4 : 0 ≤ (n : ℝ) * (1 + L * α) ^ 2 := by positivity
  calc α * (1 - L * α / 2) * ‖g (cdSeq g α pick x k)‖ ^ 2
      ≤ α * (1 - L * α / 2) * (n * ((1 + L * α) * ∑ t ∈ Finset.range B, cdPart g α pick x (k + t)) ^ 2) :=
        mul_le_mul_of_nonneg_left h3 hc.le
    _ = n * (1 + L * α) ^ 2 * (α * (1 - L * α / 2) * (∑ t ∈ Finset.range B, cdPart g α pick x (k + t)) ^ 2) := by ring
    _ ≤ n * (1 + L * α) ^ 2 * (α * (1 - L * α / 2) * (B * ∑ t ∈ Finset.range B, cdPart g α pick x (k + t) ^ 2)) :=
        mul_le_mul_of_nonneg_left (mul_le_mul_of_nonneg_left h2 hc.le) h4
    _ = n * (1 + L * α) ^ 2 * B * (α * (1 - L * α / 2) * ∑ t ∈ Finset.range B, cdPart g α pick x (k + t) ^ 2) := by ring
    _ ≤ _ := mul_le_mul_of_nonneg_left (h1 B) (by positivity)

/-- Whatever the descent policy picks, `Optimize` does not end above the start, if the step size is at most `2 / L`. -/
theorem C252_descent (hs : LSmooth f g L) (hα : 0 ≤ α) (hα2 : α * L ≤ 2) {env : Env W H E} (hq : QuietCd env g α pick)
    {m u fuel : Nat} (hm : m < 2 ^ 64) (hu : 0 < u) {w : W} {x : List H} (hx : x.length = n)
    {r : Result W H E} (h : optimize env m u fuel w x = some (.returned r)) : f (ofList r.x) ≤ f (ofList x) := by
  obtain ⟨r', hr, -, -, he⟩ := C252_textbook hq hm hu hx h
  cases hr
  rw [he]
  exact cd_mono hs hα hα2 _ _

theorem cyclic_fair {pick : Nat → Cols n H → Fin n} (hp : ∀ i y, cyclic i n = some (pick i y : Nat)) (X : Nat → Cols n H)
    (k : Nat) (j : Fin n) : ∃ i < n, pick (k + i + 1) (X (k + i)) = j := by
  have hn : 0 < n := j.pos
  have hp' : ∀ i y, (pick i y : Nat) = i % n := by
    intro i y
    have := hp i y
    rw [cyclic, if_neg hn.ne', Option.some.injEq] at this
    exact this.symm
  refine ⟨(j + n - (k + 1) % n) % n, Nat.mod_lt _ hn, Fin.ext ?_⟩
  rw [hp', show k + (j + n - (k + 1) % n) % n + 1 = k + 1 + (j + n - (k + 1) % n) % n by ring, Nat.add_mod_mod]
  have h1 : (k + 1) % n < n := Nat.mod_lt _ hn
  have h2 := Nat.mod_add_div (k + 1) n
  have h3 : k + 1 + (j + n - (k + 1) % n) = j + n * ((k + 1) / n + 1) := by
    rw [Nat.mul_add, Nat.mul_one]
    omega
  rw [h3, Nat.add_mul_mod_self_left, Nat.mod_eq_of_lt j.2]

/-- Textbook coordinate descent with a policy that picks every column at least once in any `B` successive iterations drives the
gradient of a smooth function that is bounded below to zero, with any step size below `2 / L`.  (By `C252_textbook` this is the
sequence that `Optimize` runs through.) -/
theorem C252_fair (hs : LSmooth f g L) (hL : 0 ≤ L) (hb : ∀ y, b ≤ f y) (hα : 0 < α) (hα2 : α * L < 2) (x : Cols n H) {B : Nat}
    (hB : ∀ k j, ∃ i < B, pick (k + i + 1) (cdSeq g α pick x (k + i)) = j) :
    Tendsto (fun k => g (cdSeq g α pick x k)) atTop (nhds 0) := cd_tendsto hs hL hb hα hα2 x hB

/-- The same for `CyclicDescent`. -/
theorem C252_cyclic (hs : LSmooth f g L) (hL : 0 ≤ L) (hb : ∀ y, b ≤ f y) (hα : 0 < α) (hα2 : α * L < 2) (x : Cols n H)
    (hp : ∀ i y, cyclic i n = some (pick i y : Nat)) : Tendsto (fun k => g (cdSeq g α pick x k)) atTop (nhds 0) :=
  cd_tendsto hs hL hb hα hα2 x (cyclic_fair hp _)

/-- How far: with `CyclicDescent` and `K` rounds over all columns passes a point whose squared gradient is at most
`n² (1 + L α)² / (α (1 - L α / 2)) * (f(start) - inf f) / K`; on a function with `‖g y‖² ≥ 2 μ (f y - inf f)` (e.g. a strongly
convex one) the excess of the value handed back shrinks geometrically. -/
theorem cyclic_rounds (hs : LSmooth f g L) (hL : 0 ≤ L) (hα : 0 < α) (hα2 : α * L < 2) {mu : ℝ}
    (hmu : ∀ y, 2 * mu * (f y - b) ≤ ‖g y‖ ^ 2) (hn : 0 < n) (x : Cols n H) (hp : ∀ i y, cyclic i n = some (pick i y : Nat))
    (K : Nat) (hρ : 0 ≤ 1 - 2 * mu * (α * (1 - L * α / 2)) / (n ^ 2 * (1 + L * α) ^ 2)) :
    f (cdSeq g α pick x (K * n)) - b ≤ (1 - 2 * mu * (α * (1 - L * α / 2)) / (n ^ 2 * (1 + L * α) ^ 2)) ^ K * (f x - b) := by
  have hc : 0 < α * (1 - L * α / 2) := mul_pos hα (by linarith [mul_comm α L])
  have hD : (0 : ℝ) < n ^ 2 * (1 + L * α) ^ 2 := by
    have : (0 : ℝ) < n := by exact_mod_cast hn
    positivity
  induction K with
  | zero => simp [cdSeq]
  | succ K ih =>
    have h := cd_window_sq hs hL hα hα2 x (cyclic_fair hp _) (K * n)
    rw [show (n : ℝ) * (1 + L * α) ^ 2 * n = n ^ 2 * (1 + L * α) ^ 2 by ring] at h
    have h1 := mul_le_mul_of_nonneg_left (hmu (cdSeq g α pick x (K * n))) hc.le
    rw [Nat.add_mul, Nat.one_mul, pow_succ, mul_right_comm]
    refine le_trans ?_ (mul_le_mul_of_nonneg_right ih hρ)
    have h2 := h1.trans h
    rw [mul_sub, mul_one, sub_eq_add_neg (f _ - b), ← sub_eq_add_neg]
    have h3 : (f (cdSeq g α pick x (K * n)) - b) * (2 * mu * (α * (1 - L * α / 2)) / (n ^ 2 * (1 + L * α) ^ 2)) ≤
        f (cdSeq g α pick x (K * n)) - f (cdSeq g α pick x (K * n + n)) := by
      rw [← mul_div_assoc, div_le_iff₀ hD]
      linarith
    linarith

/-- `Optimize` with `CyclicDescent`, run for `K` rounds over all columns, on a smooth function whose gradient is long where the
value is above the infimum `b` (`2 μ (f y - b) ≤ ‖g y‖²`, e.g. every strongly convex function): the excess of the value handed
back is at most `(1 - ρ) ^ K` times that of the start. -/
theorem C252_linear (hs : LSmooth f g L) (hL : 0 ≤ L) (hα : 0 < α) (hα2 : α * L < 2) {mu : ℝ}
    (hmu : ∀ y, 2 * mu * (f y - b) ≤ ‖g y‖ ^ 2) (hn : 0 < n)
    (hρ : 0 ≤ 1 - 2 * mu * (α * (1 - L * α / 2)) / (n ^ 2 * (1 + L * α) ^ 2)) (hp : ∀ i y, cyclic i n = some (pick i y : Nat))
    {env : Env W H E} (hq : QuietCd env g α pick) {K u fuel : Nat} (hK : K * n + 1 < 2 ^ 64) (hu : 0 < u) {w : W} {x : List H}
    (hx : x.length = n) {r : Result W H E} (h : optimize env (K * n + 1) u fuel w x = some (.returned r)) :
    f (ofList r.x) - b ≤ (1 - 2 * mu * (α * (1 - L * α / 2)) / (n ^ 2 * (1 + L * α) ^ 2)) ^ K * (f (ofList x) - b) := by
  obtain ⟨r', hr, -, -, he⟩ := C252_textbook hq hK hu hx h
  cases hr
  rw [he, limit, if_neg (by omega), Nat.add_sub_cancel]
  exact cyclic_rounds hs hL hα hα2 hmu hn _ hp K hρ

/-- `Optimize` with `CyclicDescent`, run for `K` rounds over all columns, on any smooth function bounded below: the run has
passed (after a whole number of rounds) a point where the squared gradient is at most
`n² (1 + L α)² / (α (1 - L α / 2)) * (f(start) - b) / K`. -/
theorem C252_rate (hs : LSmooth f g L) (hL : 0 ≤ L) (hb : ∀ y, b ≤ f y) (hα : 0 < α) (hα2 : α * L < 2) (x : Cols n H)
    (hp : ∀ i y, cyclic i n = some (pick i y : Nat)) {K : Nat} (hK : 0 < K) : ∃ k < K,
      α * (1 - L * α / 2) * (K * ‖g (cdSeq g α pick x (k * n))‖ ^ 2) ≤ n ^ 2 * (1 + L * α) ^ 2 * (f x - b) := by
  have hc : 0 < α * (1 - L * α / 2) := mul_pos hα (by linarith [mul_comm α L])
  have hsum : ∀ K : Nat, ∑ k ∈ Finset.range K, α * (1 - L * α / 2) * ‖g (cdSeq g α pick x (k * n))‖ ^ 2 ≤
      n ^ 2 * (1 + L * α) ^ 2 * (f x - f (cdSeq g α pick x (K * n))) := by
    intro K
    induction K with
    | zero => simp [cdSeq]
    | succ K ih =>
      rw [Finset.sum_range_succ]
      have h := cd_window_sq hs hL hα hα2 x (cyclic_fair hp _) (K * n)
      rw [show (n : ℝ) * (1 + L * α) ^ 2 * n = n ^ 2 * (1 + L * α) ^ 2 by ring] at h
      rw [Nat.add_mul, Nat.one_mul]
      linarith
  by_contra hcon
  push Not at hcon
  have h1 := hsum K
  have hD : (0 : ℝ) ≤ n ^ 2 * (1 + L * α) ^ 2 := by positivity
  have h2 : n ^ 2 * (1 + L * α) ^ 2 * (f x - f (cdSeq g α pick x (K * n))) ≤ n ^ 2 * (1 + L * α) ^ 2 * (f x - b) :=
    mul_le_mul_of_nonneg_left (by linarith [hb (cdSeq g α pick x (K * n))]) hD
  have h3 : ∑ k ∈ Finset.range K, n ^ 2 * (1 + L * α) ^ 2 * (f x - b) / K <
      ∑ k ∈ Finset.range K, α * (1 - L * α / 2) * ‖g (cdSeq g α pick x (k * n))‖ ^ 2 := by
    refine Finset.sum_lt_sum_of_nonempty ⟨0, Finset.mem_range.2 hK⟩ fun k hk => ?_
    have := hcon k (Finset.mem_range.1 hk)
    rw [div_lt_iff₀ (by exact_mod_cast hK)]
    linarith
  have hK' : (K : ℝ) ≠ 0 := by exact_mod_cast hK.ne'
  rw [Finset.sum_const, Finset.card_range, nsmul_eq_mul, mul_div_cancel₀ _ hK'] at h3
  linarith

/-- A function with the given gradient, callbacks that do nothing. -/
noncomputable def plainCd (g : Cols n H → Cols n H) (α : ℝ) (pick : Nat → Cols n H → Fin n) : Env Unit H Unit where
  feature := fun _ i x => ((), pick i (ofList x))
  partialGrad := fun _ x j => ((), List.ofFn fun i : Fin n => if (i : Nat) = j then g (ofList x) i else 0)
  cbGradient := fun _ _ _ G => ((), G, false)
  cbStep := fun _ x => ((), x, false)
  evaluate := fun _ _ => ((), ())
  cbEvaluate := fun _ _ _ => ((), false)
  cbBegin := fun _ x => ((), x)
  cbEnd := fun _ x => ((), x)
  moveCol := fun c d => c - α • d
  zero := ()
  maxVal := ()
  isBad := fun _ => false
  isClose := fun _ _ => false

theorem plainCd_quiet (g : Cols n H → Cols n H) (α : ℝ) (pick : Nat → Cols n H → Fin n) :
    QuietCd (plainCd g α pick) g α pick where
  feature := fun _ _ _ => rfl
  grad := fun _ _ j _ => by simp [plainCd]
  move := fun _ _ => rfl
  cbGradient := fun _ _ _ _ => rfl
  cbStep := fun _ _ => rfl
  cbBegin := fun _ _ => rfl
  cbEvaluate := fun _ _ _ => rfl
  finite := fun _ => rfl
  tol := fun _ _ => rfl

/-- The choice of `GreedyDescent` for a row of two numbers with the gradient `g`. -/
noncomputable def greedyPick (g : Cols 2 ℝ → Cols 2 ℝ) (_ : Nat) (y : Cols 2 ℝ) : Fin 2 :=
  if greedy 0 (fun j => (List.ofFn (WithLp.ofLp (g y))).getD j 0) 2 = 0 then 0 else 1

theorem greedyPick_val (g : Cols 2 ℝ → Cols 2 ℝ) (i : Nat) (y : Cols 2 ℝ) :
    (greedyPick g i y : Nat) = greedy 0 (fun j => (List.ofFn (WithLp.ofLp (g y))).getD j 0) 2 := by
  unfold greedyPick
  simp only [greedy, List.range_succ, List.range_zero, List.nil_append, List.foldl_append, List.foldl_cons, List.foldl_nil]
  split_ifs <;> simp_all

/-- `GreedyDescent` need not drive the gradient to zero, however many iterations it is given: it looks for the largest positive
partial derivative, and stays at the first coordinate where none is positive. -/
theorem C252_greedy_refuted : ¬ ∀ (f : Cols 2 ℝ → ℝ) (g : Cols 2 ℝ → Cols 2 ℝ) (L b α : ℝ) (x : List ℝ), LSmooth f g L →
    0 ≤ L → (∀ y, b ≤ f y) → 0 < α → α * L < 2 → x.length = 2 → ∀ δ > 0, ∃ (W E : Type) (env : Env W ℝ E) (m u fuel : Nat) (w : W)
      (r : Result W ℝ E), QuietCd env g α (greedyPick g) ∧ m < 2 ^ 64 ∧ 0 < u ∧
        optimize env m u fuel w x = some (.returned r) ∧ ‖g (ofList r.x)‖ < δ := by
  intro h
  obtain ⟨W, E, env, m, u, fuel, w, r, hq, hm, hu, hr, hg⟩ :=
    h half id 1 0 1 [0, -1] half_smooth zero_le_one half_nonneg one_pos (by norm_num) rfl 1 one_pos
  obtain ⟨r', hr', -, -, he⟩ := C252_textbook hq hm hu rfl hr
  cases hr'
  have hc : ∀ k, cdSeq id 1 (greedyPick id) (ofList [0, -1]) k = (ofList [0, -1] : Cols 2 ℝ) := by
    intro k
    induction k with
    | zero => rfl
    | succ k ih =>
      have hpick : greedyPick id (k + 1) (ofList [0, -1]) = 0 := by
        apply Fin.ext
        rw [greedyPick_val]
        simp [greedy, List.range_succ, ofList]
        norm_num
      rw [cdSeq, ih]
      simp only [hpick]
      ext i
      fin_cases i <;> simp [ofList]
  rw [he, hc, id, EuclideanSpace.norm_eq] at hg
  simp [ofList] at hg

/-- Non-trivial case: cyclic descent on `‖x‖² / 2` with two coordinates. -/
example : Tendsto (fun k => cdSeq id 1 (fun i _ => ⟨i % 2, Nat.mod_lt _ two_pos⟩) (ofList [3, 4] : Cols 2 ℝ) k) atTop (nhds 0) :=
  C252_cyclic half_smooth zero_le_one half_nonneg one_pos (by norm_num) _ fun _ _ => rfl

example : ∃ r, optimize (plainCd id 1 fun i _ => ⟨i % 2, Nat.mod_lt _ two_pos⟩ : Env Unit ℝ Unit) (5 * 2 + 1) 1 100 () [3, 4] =
    some (.returned r) ∧ half (ofList r.x : Cols 2 ℝ) ≤ half (ofList [3, 4] : Cols 2 ℝ) := by
  have hq := plainCd_quiet (id : Cols 2 ℝ → Cols 2 ℝ) 1 fun i _ => ⟨i % 2, Nat.mod_lt _ two_pos⟩
  obtain ⟨o, ho⟩ : ∃ o, optimize (plainCd id 1 fun i _ => ⟨i % 2, Nat.mod_lt _ two_pos⟩ : Env Unit ℝ Unit) (5 * 2 + 1) 1 100 ()
    [3, 4] = some o := ⟨_, rfl⟩
  obtain ⟨r, rfl, -⟩ := C252_textbook hq (by norm_num) one_pos rfl ho
  exact ⟨r, ho, C252_descent half_smooth zero_le_one (by norm_num) hq (by norm_num) one_pos rfl ho⟩

end Ens.Converge
