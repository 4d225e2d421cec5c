import Verif.Moo.MoeadProps
import Mathlib.Analysis.InnerProductSpace.PiL2
import Mathlib.Data.List.Sort
import Mathlib.Tactic.Positivity
import Mathlib.Tactic.FieldSimp

/-
C231 (Tchebycheff and weighted-average decomposition), C232 (penalty-based boundary intersection), C233 (weights drawn by the Bayesian
bootstrap and by the Dirichlet policy) of MOEA/D.  Objective vectors are functions of the index; `m` is the number of objectives.
-/

namespace Ens.Moo.Moead

open Finset

/-! ### Models -/

/-- `Tchebycheff::Apply` (moead/decomposition_policies/tchebycheff_decomposition.hpp:54-59) for `m + 1` objectives: the largest
entry of `weight % abs(candidateFitness - idealPoint)`. -/
def tchebycheff {R : Type} [Ring R] [LinearOrder R] (w z f : Nat → R) : Nat → R
  | 0 => w 0 * |f 0 - z 0|
  | m + 1 => max (tchebycheff w z f m) (w (m + 1) * |f (m + 1) - z (m + 1)|)

/-- `arma::norm` of a vector of `m` entries. -/
noncomputable def norm2 (m : Nat) (v : Nat → ℝ) : ℝ := √(∑ k ∈ range m, v k ^ 2)

/-- `PenaltyBoundaryIntersection::Apply` (moead/decomposition_policies/pbi_decomposition.hpp:59-73): `d1`. -/
noncomputable def pbiD1 (m : Nat) (w z f : Nat → ℝ) : ℝ := ∑ k ∈ range m, (f k - z k) * (w k / norm2 m w)

/-- `PenaltyBoundaryIntersection::Apply`: `d2`. -/
noncomputable def pbiD2 (m : Nat) (w z f : Nat → ℝ) : ℝ :=
  norm2 m fun k => f k - (z k + pbiD1 m w z f * (w k / norm2 m w))

/-- `PenaltyBoundaryIntersection::Apply` (moead/decomposition_policies/pbi_decomposition.hpp:59-73). -/
noncomputable def pbi (theta : ℝ) (m : Nat) (w z f : Nat → ℝ) : ℝ := pbiD1 m w z f + theta * pbiD2 m w z f

/-- `arma::diff`. -/
def diff (l : List ℝ) : List ℝ := List.zipWith (fun a b => b - a) l l.tail

/-- One column of `BayesianBootstrap::Generate` (moead/weight_init_policies/bbs_init.hpp:60-67) from the `numObjectives + 1` uniform
draws. -/
noncomputable def bootstrapColumn (numObjectives : Nat) (epsilon : ℝ) (draws : List ℝ) : List ℝ :=
  (diff ((((draws.set 0 0).set numObjectives 1)).mergeSort fun a b => decide (a ≤ b))).map (· + epsilon)

/-- `BayesianBootstrap::Generate` (moead/weight_init_policies/bbs_init.hpp:49-72): one column per point, from the draws. -/
noncomputable def bootstrap (numObjectives : Nat) (epsilon : ℝ) (draws : List (List ℝ)) : List (List ℝ) :=
  draws.map (bootstrapColumn numObjectives epsilon)

/-- `Dirichlet::Generate` (moead/weight_init_policies/dirichlet_init.hpp:43-51) from the columns of gamma draws: the 1-norm of every
column becomes one (Armadillo leaves a column of zeros alone). -/
noncomputable def dirichlet (epsilon : ℝ) (draws : List (List ℝ)) : List (List ℝ) :=
  draws.map fun c =>
    let v := c.map (· + epsilon)
    let s := (v.map fun t => |t|).sum
    open scoped Classical in if s = 0 then v else v.map (· / s)

/-! ### C231 -/

theorem tchebycheff_le_iff {w z f : Nat → ℝ} {m : Nat} {c : ℝ} : tchebycheff w z f m ≤ c ↔ ∀ k ≤ m, w k * |f k - z k| ≤ c := by
  induction m with
  | zero => simp [tchebycheff]
  | succ m ih =>
    rw [tchebycheff, max_le_iff, ih]
    constructor
    · rintro ⟨h1, h2⟩ k hk
      rcases Nat.lt_or_ge m k with h | h
      · rw [show k = m + 1 by omega]; exact h2
      · exact h1 k h
    · exact fun h => ⟨fun k hk => h k (by omega), h (m + 1) le_rfl⟩

theorem tchebycheff_lt_iff {w z f : Nat → ℝ} {m : Nat} {c : ℝ} : tchebycheff w z f m < c ↔ ∀ k ≤ m, w k * |f k - z k| < c := by
  induction m with
  | zero => simp [tchebycheff]
  | succ m ih =>
    rw [tchebycheff, max_lt_iff, ih]
    constructor
    · rintro ⟨h1, h2⟩ k hk
      rcases Nat.lt_or_ge m k with h | h
      · rw [show k = m + 1 by omega]; exact h2
      · exact h1 k h
    · exact fun h => ⟨fun k hk => h k (by omega), h (m + 1) le_rfl⟩

theorem le_tchebycheff (w z f : Nat → ℝ) {m k : Nat} (hk : k ≤ m) : w k * |f k - z k| ≤ tchebycheff w z f m :=
  tchebycheff_le_iff.1 le_rfl k hk

/-- **C231** Above the ideal point the Tchebycheff value does not fall when objectives rise. -/
theorem C231_tchebycheff_monotone {w z f g : Nat → ℝ} {m : Nat} (hw : ∀ k ≤ m, 0 ≤ w k) (hz : ∀ k ≤ m, z k ≤ f k)
    (h : ∀ k ≤ m, f k ≤ g k) : tchebycheff w z f m ≤ tchebycheff w z g m := by
  refine tchebycheff_le_iff.2 fun k hk => le_trans ?_ (le_tchebycheff w z g hk)
  have h1 := hz k hk
  have h2 := h k hk
  rw [abs_of_nonneg (by linarith), abs_of_nonneg (by linarith)]
  exact mul_le_mul_of_nonneg_left (by linarith) (hw k hk)

/-- **C231** Every Pareto-optimal vector strictly above the ideal point is, for some weight vector on the simplex with positive entries,
the only minimiser of the Tchebycheff value. -/
theorem C231_tchebycheff_optimal (A : Set (Nat → ℝ)) (m : Nat) (z f : Nat → ℝ) (hz : ∀ k ≤ m, z k < f k)
    (hA : ∀ g ∈ A, ∀ k ≤ m, z k ≤ g k)
    (hf : ∀ g ∈ A, (∀ k ≤ m, g k ≤ f k) → ∀ k ≤ m, g k = f k) :
    ∃ w : Nat → ℝ, (∀ k ≤ m, 0 < w k) ∧ ∑ k ∈ range (m + 1), w k = 1 ∧
      ∀ g ∈ A, tchebycheff w z f m ≤ tchebycheff w z g m ∧
        (tchebycheff w z g m = tchebycheff w z f m → ∀ k ≤ m, g k = f k) := by
  have hd : ∀ k ≤ m, 0 < f k - z k := fun k hk => sub_pos.2 (hz k hk)
  set s := ∑ k ∈ range (m + 1), (f k - z k)⁻¹ with hs
  have hs0 : 0 < s := by
    refine sum_pos (fun k hk => inv_pos.2 (hd k (by simpa [Nat.lt_succ_iff] using hk))) ⟨0, by simp⟩
  let w : Nat → ℝ := fun k => (f k - z k)⁻¹ / s
  have hwf : ∀ k ≤ m, w k * |f k - z k| = 1 / s := fun k hk => by
    have := hd k hk
    rw [abs_of_pos this]
    simp only [w]
    field_simp
  have hval : tchebycheff w z f m = 1 / s :=
    le_antisymm (tchebycheff_le_iff.2 fun k hk => (hwf k hk).le) (by rw [← hwf 0 (Nat.zero_le m)]; exact le_tchebycheff w z f (Nat.zero_le m))
  have hw0 : ∀ k ≤ m, 0 < w k := fun k hk => div_pos (inv_pos.2 (hd k hk)) hs0
  have key : ∀ g ∈ A, tchebycheff w z g m ≤ 1 / s → ∀ k ≤ m, g k = f k := by
    intro g hg hle
    refine hf g hg fun k hk => ?_
    have h1 := tchebycheff_le_iff.1 hle k hk
    rw [← hwf k hk, abs_of_pos (hd k hk), abs_of_nonneg (sub_nonneg.2 (hA g hg k hk))] at h1
    have := le_of_mul_le_mul_left h1 (hw0 k hk)
    linarith
  refine ⟨w, hw0, ?_, fun g hg => ⟨?_, fun he => key g hg (by rw [he, hval])⟩⟩
  · simp only [w]
    rw [← sum_div, ← hs, div_self hs0.ne']
  · rw [hval]
    by_contra hlt
    have hlt := not_le.1 hlt
    have he := key g hg hlt.le
    have : tchebycheff w z g m = tchebycheff w z f m :=
      le_antisymm (tchebycheff_le_iff.2 fun k hk => by rw [he k hk]; exact le_tchebycheff w z f hk)
        (tchebycheff_le_iff.2 fun k hk => by rw [← he k hk]; exact le_tchebycheff w z g hk)
    rw [this, hval] at hlt
    exact lt_irrefl _ hlt

/-- **C231** A minimiser of the Tchebycheff value, for weights that are not negative and not all zero, is weakly Pareto optimal: no
attainable vector is smaller in every objective. -/
theorem C231_tchebycheff_minimiser (A : Set (Nat → ℝ)) (m : Nat) (w z f : Nat → ℝ) (hw : ∀ k ≤ m, 0 ≤ w k) (hw' : ∃ k ≤ m, 0 < w k)
    (hA : ∀ g ∈ A, ∀ k ≤ m, z k ≤ g k) (hmin : ∀ g ∈ A, tchebycheff w z f m ≤ tchebycheff w z g m) :
    ∀ g ∈ A, ¬ ∀ k ≤ m, g k < f k := by
  intro g hg hlt
  refine absurd (hmin g hg) (not_le.2 (tchebycheff_lt_iff.2 fun k hk => ?_))
  have h1 := hA g hg k hk
  have h2 := hlt k hk
  rcases (hw k hk).lt_or_eq with hp | hp
  · refine lt_of_lt_of_le ?_ (le_tchebycheff w z f hk)
    rw [abs_of_nonneg (by linarith), abs_of_nonneg (by linarith)]
    exact mul_lt_mul_of_pos_left (by linarith) hp
  · obtain ⟨j, hj, hjp⟩ := hw'
    rw [← hp, zero_mul]
    refine lt_of_lt_of_le ?_ (le_tchebycheff w z f hj)
    have h3 := hA g hg j hj
    have h4 := hlt j hj
    exact mul_pos hjp (abs_pos.2 (by linarith))

private theorem listSum_range (u : Nat → ℝ) : ∀ m, ((List.range m).map u).sum = ∑ k ∈ range m, u k
  | 0 => by simp
  | m + 1 => by rw [List.range_succ, List.map_append, List.sum_append, sum_range_succ, listSum_range u m]; simp

/-- **C231** A minimiser of the weighted average with positive weights is Pareto optimal. -/
theorem C231_weighted_minimiser (A : Set (Nat → ℝ)) (m : Nat) (w : Nat → Nat → ℝ) (i : Nat) (z f : Nat → ℝ) (hw : ∀ k < m, 0 < w i k)
    (hmin : ∀ g ∈ A, weightedAverage m w i z f ≤ weightedAverage m w i z g) :
    ∀ g ∈ A, (∀ k < m, g k ≤ f k) → ∀ k < m, g k = f k := by
  intro g hg hle k hk
  have e : ∀ h : Nat → ℝ, weightedAverage m w i z h = ∑ k ∈ range m, w i k * h k := fun h => by
    exact listSum_range _ m
  have hm := hmin g hg
  rw [e, e] at hm
  by_contra hne
  refine absurd hm (not_le.2 (sum_lt_sum (fun j hj => ?_) ⟨k, by simpa using hk, ?_⟩))
  · have hj' := by simpa using hj
    exact mul_le_mul_of_nonneg_left (hle j hj') (hw j hj').le
  · exact mul_lt_mul_of_pos_left (lt_of_le_of_ne (hle k hk) hne) (hw k hk)

/-- **C231** One step of MOEA/D with the Tchebycheff decomposition, in any state that satisfies the invariants of a run (`start_inv`,
`generation_inv`): no member is replaced by one that it dominates or equals. -/
theorem C231_step {W I : Type} {env : Env W I ℝ} {F : Nat → I → ℝ} {B : I → Prop}
    (hF : ∀ w k x, (env.evaluate w k x).2 = F k x) (hB : ∀ x, B (env.clamp x)) {N K maxReplace m : Nat}
    (hok : Ok env N) (hN : 2 ≤ N) (hK0 : 0 < K) (hK : K ≤ N - 1) {s : St W I ℝ} {v : ℝ}
    (hi : Inv F B v N (m + 1) s) {sub : Nat} (hsub : sub < N) (weights : Nat → Nat → ℝ) (hw : ∀ i, ∀ k ≤ m, 0 ≤ weights i k)
    (ha : env.apply = fun i z f => tchebycheff (weights i) z f m) :
    ∃ s', subproblem env N K maxReplace (m + 1) s sub = some s' ∧
      ∀ (i : Nat) (g : Nat → ℝ), s'.fit[i]? = some g → ∃ f, s.fit[i]? = some f ∧ ((∀ k ≤ m, f k ≤ g k) → g = f) := by
  obtain ⟨s', hs', hi', -, -, hstep⟩ := subproblem_inv hF hB hok hN hK0 hK (maxReplace := maxReplace) hi hsub
  refine ⟨s', hs', fun i g hg => ?_⟩
  obtain ⟨f, hf, h⟩ := hstep i g hg
  refine ⟨f, hf, fun hle => h.resolve_right fun hlt => ?_⟩
  have hseen : ∀ x ∈ s.pop, x ∈ s'.seen := by
    intro x hx
    have hx' := hi.sub x hx
    have : s.seen ⊆ s'.seen := by
      unfold subproblem at hs'
      simp only [Option.bind_eq_bind, Option.bind_eq_some_iff, Option.some.injEq] at hs'
      obtain ⟨r, -, x1, -, x2, -, x3, -, p, -, rfl⟩ := hs'
      exact fun y hy => List.mem_append_left _ hy
    exact this hx'
  have hl : i < s.pop.length := by
    rw [hi.lenP, ← hi.lenF]
    exact getElem?_lt hf
  have hx := List.getElem?_eq_getElem hl
  have hz : ∀ k ≤ m, s'.ideal k ≤ f k := fun k hk => by
    rw [hi.fit i _ f hx hf k (by omega)]
    exact hi'.le _ (hseen _ (List.getElem_mem hl)) k (by omega)
  rw [ha] at hlt
  exact absurd hlt (not_lt.2 (C231_tchebycheff_monotone (hw i) hz hle))

/-- Two attainable vectors (1, 2) and (2, 1): both are Tchebycheff minimisers for some weights. -/
example : ∃ w : Nat → ℝ, (∀ k ≤ 1, 0 < w k) ∧ ∑ k ∈ range 2, w k = 1 ∧
    ∀ g ∈ ({fun k => if k = 0 then 1 else 2, fun k => if k = 0 then 2 else 1} : Set (Nat → ℝ)),
      tchebycheff w (fun _ => 0) (fun k => if k = 0 then 1 else 2) 1 ≤ tchebycheff w (fun _ => 0) g 1 := by
  obtain ⟨w, h1, h2, h3⟩ := C231_tchebycheff_optimal {fun k => if k = 0 then 1 else 2, fun k => if k = 0 then 2 else 1} 1 (fun _ => 0)
    (fun k => if k = 0 then 1 else 2) (fun k _ => by split <;> norm_num)
    (by
      intro g hg k _
      rcases hg with rfl | rfl
      · show (0 : ℝ) ≤ if k = 0 then 1 else 2
        split <;> norm_num
      · show (0 : ℝ) ≤ if k = 0 then 2 else 1
        split <;> norm_num)
    (by
      intro g hg h
      rcases hg with rfl | rfl
      · exact fun _ _ => rfl
      · have := h 0 (by norm_num)
        norm_num at this)
  exact ⟨w, h1, h2, fun g hg => (h3 g hg).1⟩

/-- A run with two objectives: the individuals 0, 1, 2 have the objectives (3, 0), (0, 2), (100, -10); the initial members are all 0, the
first candidate is 1 and the others are 2. -/
def tchDemo : Env Nat Nat ℚ where
  evaluate := fun w k x => (w, if x = 0 then (if k = 0 then 3 else 0) else if x = 1 then (if k = 0 then 0 else 2) else
    (if k = 0 then 100 else -10))
  initial := fun w _ => (w + 1, 0)
  clamp := fun x => x
  sorted := fun i => if i = 0 then [0, 1, 2] else if i = 1 then [1, 0, 2] else [2, 1, 0]
  shuffle := fun w n => (w, List.range n)
  coin := fun w => (w, false)
  randi := fun w n => (w, w % n)
  make := fun w _ _ _ => (w + 1, if w = 3 then 1 else 2)
  apply := fun _ z f => tchebycheff (fun _ => 1) z f 1
  cbBegin := fun w _ => w
  cbGen := fun w _ => (w, false)
  cbEnd := fun w _ => w
  maxVal := 1000

theorem tchDemo_ok : Ok tchDemo 3 where
  randi := fun w n hn => Nat.mod_lt _ hn
  shuffle := fun _ _ => List.Perm.refl _
  sorted := by
    intro i
    simp only [tchDemo]
    split_ifs <;> decide

/-- **C231** (refuted) With the Tchebycheff decomposition, the value of every subproblem's member at the final ideal point is at most
that of its initial member (which holds for weighted averages, C96). -/
theorem C231_progress_refuted :
    ¬ ∀ (env : Env Nat Nat ℚ) (G : Nat) (s : St Nat Nat ℚ), Ok env 3 → (env.apply = fun _ z f => tchebycheff (fun _ => 1) z f 1) →
      genLoop env 3 2 1 2 G (start env 3 2 0 0) = some s →
      ∀ (i : Nat) (f₀ f : Nat → ℚ), (start env 3 2 0 0).fit[i]? = some f₀ → s.fit[i]? = some f →
        env.apply i s.ideal f ≤ env.apply i s.ideal f₀ := by
  intro h
  have hv : (match genLoop tchDemo 3 2 1 2 1 (start tchDemo 3 2 0 0) with
    | some s => (match (start tchDemo 3 2 0 0).fit[0]?, s.fit[0]? with
      | some f₀, some f => decide (tchDemo.apply 0 s.ideal f ≤ tchDemo.apply 0 s.ideal f₀)
      | _, _ => true)
    | none => true) = false := by decide +kernel
  split at hv
  · rename_i s hs
    split at hv
    · rename_i f₀ f h0 h1
      exact absurd (h tchDemo 1 s tchDemo_ok rfl hs 0 f₀ f h0 h1) (by simpa using hv)
    · cases hv
  · cases hv

/-! ### C232 -/

private theorem norm2_sq (m : Nat) (v : Nat → ℝ) : norm2 m v ^ 2 = ∑ k ∈ range m, v k ^ 2 :=
  Real.sq_sqrt (sum_nonneg fun _ _ => sq_nonneg _)

private theorem unit_sq {m : Nat} {w : Nat → ℝ} (hw : 0 < norm2 m w) : ∑ k ∈ range m, (w k / norm2 m w) ^ 2 = 1 := by
  simp only [div_pow]
  rw [← sum_div, ← norm2_sq, div_self (by positivity)]

/-- **C232** The two distances are the legs of a right triangle whose hypotenuse is the distance from the ideal point; the second one is
the distance from the line through the ideal point in the direction of the weights. -/
theorem C232_distances (m : Nat) (w z f : Nat → ℝ) (hw : ∃ k < m, w k ≠ 0) :
    pbiD1 m w z f ^ 2 + pbiD2 m w z f ^ 2 = ∑ k ∈ range m, (f k - z k) ^ 2 ∧ 0 ≤ pbiD2 m w z f ∧
      ∀ t : ℝ, pbiD2 m w z f ^ 2 ≤ ∑ k ∈ range m, (f k - (z k + t * w k)) ^ 2 := by
  have hn : 0 < norm2 m w := by
    obtain ⟨k, hk, hne⟩ := hw
    exact Real.sqrt_pos.2 (lt_of_lt_of_le (by positivity)
      (single_le_sum (f := fun k => w k ^ 2) (fun _ _ => sq_nonneg _) (mem_range.2 hk)))
  have hu := unit_sq hn
  have key : ∀ t : ℝ, ∑ k ∈ range m, (f k - (z k + t * (w k / norm2 m w))) ^ 2 =
      ∑ k ∈ range m, (f k - z k) ^ 2 - 2 * t * pbiD1 m w z f + t ^ 2 := by
    intro t
    have : ∀ k, (f k - (z k + t * (w k / norm2 m w))) ^ 2 =
        (f k - z k) ^ 2 - 2 * t * ((f k - z k) * (w k / norm2 m w)) + t ^ 2 * (w k / norm2 m w) ^ 2 := fun k => by ring
    simp only [this]
    rw [sum_add_distrib, sum_sub_distrib, ← mul_sum, ← mul_sum, hu, mul_one]
    rfl
  have h2 : pbiD2 m w z f ^ 2 = ∑ k ∈ range m, (f k - z k) ^ 2 - pbiD1 m w z f ^ 2 := by
    rw [pbiD2, norm2_sq, key]
    ring
  refine ⟨by linarith, Real.sqrt_nonneg _, fun t => ?_⟩
  have e : ∀ k, t * w k = (t * norm2 m w) * (w k / norm2 m w) := fun k => by field_simp
  simp only [e]
  rw [key, h2]
  nlinarith [sq_nonneg (t * norm2 m w - pbiD1 m w z f)]

/-- **C232** On the ray the value is the distance from the ideal point. -/
theorem C232_ray (theta : ℝ) (m : Nat) (w z : Nat → ℝ) (hw : ∃ k < m, w k ≠ 0) (t : ℝ) :
    pbi theta m w z (fun k => z k + t * w k) = t * √(∑ k ∈ range m, w k ^ 2) := by
  have hn : 0 < norm2 m w := by
    obtain ⟨k, hk, hne⟩ := hw
    exact Real.sqrt_pos.2 (lt_of_lt_of_le (by positivity)
      (single_le_sum (f := fun k => w k ^ 2) (fun _ _ => sq_nonneg _) (mem_range.2 hk)))
  have h1 : pbiD1 m w z (fun k => z k + t * w k) = t * norm2 m w := by
    unfold pbiD1
    have : ∀ k, (z k + t * w k - z k) * (w k / norm2 m w) = t / norm2 m w * w k ^ 2 := fun k => by ring
    simp only [this]
    rw [← mul_sum, ← norm2_sq]
    field_simp
  have h2 : pbiD2 m w z (fun k => z k + t * w k) = 0 := by
    unfold pbiD2
    rw [h1]
    have : ∀ k, z k + t * w k - (z k + t * norm2 m w * (w k / norm2 m w)) = 0 := fun k => by field_simp; ring
    simp only [this]
    simp [norm2]
  rw [pbi, h1, h2, norm2]
  ring

/-- **C232** (part) With a penalty of zero the value does not fall when objectives rise. -/
theorem C232_monotone_partial (m : Nat) (w z f g : Nat → ℝ) (hw : ∀ k < m, 0 ≤ w k) (h : ∀ k < m, f k ≤ g k) :
    pbi 0 m w z f ≤ pbi 0 m w z g := by
  rw [pbi, pbi, zero_mul, zero_mul, add_zero, add_zero]
  refine sum_le_sum fun k hk => ?_
  have hk' := mem_range.1 hk
  exact mul_le_mul_of_nonneg_right (by linarith [h k hk']) (div_nonneg (hw k hk') (Real.sqrt_nonneg _))

/-- **C232** (refuted) With the default penalty, a vector that dominates another one has at most its value. -/
theorem C232_monotone_refuted :
    ¬ ∀ (w z f g : Nat → ℝ), (∀ k < 2, 0 < w k) → (∀ k < 2, z k ≤ f k) → (∀ k < 2, f k ≤ g k) → pbi 5 2 w z f ≤ pbi 5 2 w z g := by
  intro h
  have h1 := h (fun k => if k = 0 then 3 else 4) (fun _ => 0) (fun k => if k = 0 then 0 else 4) (fun k => if k = 0 then 3 else 4)
    (fun k _ => by split <;> norm_num) (fun k _ => by split <;> norm_num) (fun k _ => by split <;> norm_num)
  have e := C232_ray 5 2 (fun k => if k = 0 then 3 else 4) (fun _ => 0) ⟨0, by norm_num, by norm_num⟩ 1
  simp only [one_mul, zero_add] at e
  rw [e] at h1
  have n5 : √(25 : ℝ) = 5 := by rw [show (25 : ℝ) = 5 ^ 2 by norm_num, Real.sqrt_sq (by norm_num)]
  have hn : norm2 2 (fun k => if k = 0 then (3 : ℝ) else 4) = 5 := by
    rw [norm2, sum_range_succ, sum_range_one]; norm_num; exact n5
  have hd1 : pbiD1 2 (fun k => if k = 0 then (3 : ℝ) else 4) (fun _ => 0) (fun k => if k = 0 then 0 else 4) = 16 / 5 := by
    rw [pbiD1, hn, sum_range_succ, sum_range_one]; norm_num
  have hd2 : pbiD2 2 (fun k => if k = 0 then (3 : ℝ) else 4) (fun _ => 0) (fun k => if k = 0 then 0 else 4) = 12 / 5 := by
    rw [pbiD2, hd1, hn, norm2, sum_range_succ, sum_range_one]
    norm_num
    rw [n5, show (144 : ℝ) = 12 ^ 2 by norm_num, Real.sqrt_sq (by norm_num)]
  rw [pbi, hd1, hd2, sum_range_succ, sum_range_one] at h1
  norm_num [n5] at h1

/-! ### C233 -/

private theorem diff_sum : ∀ (a : ℝ) (l : List ℝ), (diff (a :: l)).sum = (a :: l).getLast (by simp) - a
  | a, [] => by simp [diff]
  | a, b :: l => by
    have ih := diff_sum b l
    have : diff (a :: b :: l) = (b - a) :: diff (b :: l) := by simp [diff]
    rw [this, List.sum_cons, ih, List.getLast_cons (a := a) (l := b :: l) (by simp)]
    ring

private theorem diff_nonneg : ∀ (l : List ℝ), l.Pairwise (· ≤ ·) → ∀ t ∈ diff l, 0 ≤ t
  | [], _, t, ht => by simp [diff] at ht
  | [a], _, t, ht => by simp [diff] at ht
  | a :: b :: l, h, t, ht => by
    have : diff (a :: b :: l) = (b - a) :: diff (b :: l) := by simp [diff]
    rw [this] at ht
    rcases List.mem_cons.1 ht with rfl | ht
    · have := List.rel_of_pairwise_cons h (List.mem_cons_self)
      linarith
    · exact diff_nonneg (b :: l) (List.Pairwise.of_cons h) t ht

private theorem sum_map_add (l : List ℝ) (e : ℝ) : (l.map (· + e)).sum = l.sum + l.length * e := by
  induction l with
  | nil => simp
  | cons a l ih => simp only [List.map_cons, List.sum_cons, ih, List.length_cons]; push_cast; ring

/-- **C233** Bayesian bootstrap: as many columns as points; each has `numObjectives` entries, none below epsilon, that add up to one and
`numObjectives` epsilons. -/
theorem C233_bootstrap (M : Nat) (hM : 1 ≤ M) (epsilon : ℝ) (draws : List (List ℝ)) (hl : ∀ c ∈ draws, c.length = M + 1)
    (hd : ∀ c ∈ draws, ∀ t ∈ c, 0 ≤ t ∧ t ≤ 1) :
    (bootstrap M epsilon draws).length = draws.length ∧
      ∀ w ∈ bootstrap M epsilon draws, w.length = M ∧ (∀ t ∈ w, epsilon ≤ t) ∧ w.sum = 1 + M * epsilon := by
  refine ⟨by simp [bootstrap], fun w hw => ?_⟩
  obtain ⟨c, hc, rfl⟩ := List.mem_map.1 hw
  have hlen := hl c hc
  set u := (c.set 0 0).set M 1 with hu
  have hul : u.length = M + 1 := by simp [hu, hlen]
  set s := u.mergeSort fun a b => decide (a ≤ b) with hs
  have hperm : s.Perm u := List.mergeSort_perm _ _
  have hsort : s.Pairwise (· ≤ ·) := by
    have := List.pairwise_mergeSort (le := fun a b : ℝ => decide (a ≤ b)) (fun a b c h1 h2 => by simp at *; linarith)
      (fun a b => by simp [le_total]) u
    simpa using this
  have hsl : s.length = M + 1 := by rw [hperm.length_eq, hul]
  have h01 : ∀ t ∈ s, 0 ≤ t ∧ t ≤ 1 := by
    intro t ht
    rw [hperm.mem_iff, hu] at ht
    rcases List.mem_or_eq_of_mem_set ht with h | rfl
    · rcases List.mem_or_eq_of_mem_set h with h | rfl
      · exact hd c hc t h
      · norm_num
    · norm_num
  have m1 : (1 : ℝ) ∈ s := by
    rw [hperm.mem_iff, hu]
    exact List.mem_iff_getElem.2 ⟨M, by simp [hlen], by simp⟩
  have m0 : (0 : ℝ) ∈ s := by
    rw [hperm.mem_iff, hu]
    exact List.mem_iff_getElem.2 ⟨0, by simp [hlen], by rw [List.getElem_set_ne (by omega)]; simp⟩
  have hdl : (diff s).length = M := by simp [diff, hsl]
  match hs' : s, hsl with
  | a :: l, _ =>
    have ha : a = 0 := by
      rcases List.mem_cons.1 m0 with h | h
      · exact h.symm
      · exact le_antisymm (List.rel_of_pairwise_cons hsort h) (h01 a (by simp)).1
    have hlast : (a :: l).getLast (by simp) = 1 := by
      refine le_antisymm (h01 _ (List.getLast_mem _)).2 ?_
      obtain ⟨i, hi, he⟩ := List.mem_iff_getElem.1 m1
      rw [List.getLast_eq_getElem]
      rcases Nat.lt_or_ge i ((a :: l).length - 1) with h | h
      · rw [← he]
        exact List.pairwise_iff_getElem.1 hsort _ _ _ _ h
      · rw [← he]
        exact le_of_eq (by congr 1; omega)
    refine ⟨by simp [bootstrapColumn, ← hu, ← hs, hdl], fun t ht => ?_, ?_⟩
    · simp only [bootstrapColumn, ← hu, ← hs, List.mem_map] at ht
      obtain ⟨r, hr, rfl⟩ := ht
      have := diff_nonneg _ hsort r hr
      linarith
    · simp only [bootstrapColumn, ← hu, ← hs]
      rw [sum_map_add, hdl, diff_sum, hlast, ha, sub_zero]

/-- **C233** (refuted) The entries of a column add up to one (bbs_init.hpp:21), for the default epsilon of MOEA/D. -/
theorem C233_bootstrap_sum_refuted : ¬ ∀ (M : Nat) (draws : List (List ℝ)), 1 ≤ M → (∀ c ∈ draws, c.length = M + 1) →
    (∀ c ∈ draws, ∀ t ∈ c, 0 ≤ t ∧ t ≤ 1) → ∀ w ∈ bootstrap M 1e-10 draws, w.sum = 1 := by
  intro h
  have hl : ∀ c ∈ [[(0 : ℝ), 0]], c.length = 1 + 1 := by simp
  have hd : ∀ c ∈ [[(0 : ℝ), 0]], ∀ t ∈ c, 0 ≤ t ∧ t ≤ 1 := by simp
  have h1 := h 1 [[0, 0]] le_rfl hl hd _ (List.mem_cons_self)
  have h2 := ((C233_bootstrap 1 le_rfl 1e-10 [[0, 0]] hl hd).2 _ (List.mem_cons_self)).2.2
  rw [h1] at h2
  norm_num at h2

/-- **C233** Dirichlet: with a positive epsilon every column has positive entries that add up to one. -/
theorem C233_dirichlet (M : Nat) (hM : 1 ≤ M) (epsilon : ℝ) (he : 0 < epsilon) (draws : List (List ℝ))
    (hl : ∀ c ∈ draws, c.length = M) (hd : ∀ c ∈ draws, ∀ t ∈ c, 0 ≤ t) :
    (dirichlet epsilon draws).length = draws.length ∧
      ∀ w ∈ dirichlet epsilon draws, w.length = M ∧ (∀ t ∈ w, 0 < t) ∧ w.sum = 1 := by
  refine ⟨by simp [dirichlet], fun w hw => ?_⟩
  obtain ⟨c, hc, rfl⟩ := List.mem_map.1 hw
  dsimp only
  set v := c.map (· + epsilon) with hv
  have hpos : ∀ t ∈ v, 0 < t := by
    intro t ht
    obtain ⟨r, hr, rfl⟩ := List.mem_map.1 ht
    linarith [hd c hc r hr]
  have habs : v.map (fun t => |t|) = v := by
    conv_rhs => rw [← List.map_id v]
    exact List.map_congr_left fun t ht => abs_of_pos (hpos t ht)
  have hvl : v.length = M := by simp [hv, hl c hc]
  have hs : 0 < v.sum := by
    match v, hpos, hvl with
    | [], _, h => simp at h; omega
    | a :: l, hp, _ =>
      rw [List.sum_cons]
      have h1 := hp a (by simp)
      have h2 : 0 ≤ l.sum := List.sum_nonneg fun t ht => (hp t (by simp [ht])).le
      linarith
  rw [habs, if_neg hs.ne']
  refine ⟨by simp [hvl], fun t ht => ?_, ?_⟩
  · obtain ⟨r, hr, rfl⟩ := List.mem_map.1 ht
    exact div_pos (hpos r hr) hs
  · rw [show (fun t : ℝ => t / v.sum) = fun t => t * (v.sum)⁻¹ from funext fun t => div_eq_mul_inv _ _, List.sum_map_mul_right]
    simp [hs.ne']

end Ens.Moo.Moead
