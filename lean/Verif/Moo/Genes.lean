import Mathlib.Analysis.SpecialFunctions.Pow.Real
import Mathlib.Tactic.Linarith
import Mathlib.Tactic.Positivity
import Mathlib.Tactic.NormNum

/-
The operators on genes of MOEA/D (`moead/moead_impl.hpp`) and AGEMOEA (`agemoea/agemoea_impl.hpp`),
over the reals and for iterates of one column: the bounds are column vectors, so that with more
columns the expansion or use of the bounds fails before any operator is called.  Random numbers are
arguments, one per gene and use.  C241 (mutation), C242 (crossover of AGEMOEA), C243 (differential
operator of MOEA/D).
-/

namespace Ens.Moo.Genes

/-! ### Model -/

/-- `perturbationFactor` (moead_impl.hpp:380-396, agemoea_impl.hpp:401-419). -/
noncomputable def factor (di lo hi x rand : ℝ) : ℝ :=
  let lowerDelta := (x - lo) / (hi - lo)
  let upperDelta := (hi - x) / (hi - lo)
  let power := 1 / (di + 1)
  if rand < 0.5 then
    (2 * rand + (1 - 2 * rand) * upperDelta ^ (di + 1)) ^ power - 1
  else
    1 - (2 * (1 - rand) + 2 * (rand - 0.5) * lowerDelta ^ (di + 1)) ^ power

open scoped Classical in
/-- The loop body of `Mutate` for one gene (moead_impl.hpp:375-398, agemoea_impl.hpp:396-421);
`none`: the division by a gene range of zero. -/
noncomputable def mutateGene (rate di lo hi u rand x : ℝ) : Option ℝ :=
  if rate < u then some x
  else if hi - lo = 0 then none
  else some (x + factor di lo hi x rand * (hi - lo))

/-- `min(max(x, lower), upper)` (moead_impl.hpp:401, agemoea_impl.hpp:371-372, 424). -/
noncomputable def clamp (lo hi x : ℝ) : ℝ := min (max x lo) hi

/-- `Mutate` on one gene, with the bounds enforced. -/
noncomputable def mutate (rate di lo hi u rand x : ℝ) : Option ℝ :=
  (mutateGene rate di lo hi u rand x).map (clamp lo hi)

/-- The differential operator of MOEA/D on one gene (moead_impl.hpp:216-235): `c` decides on the
crossover, `r`, `r'` are the random numbers of the boundary conditions. -/
noncomputable def differential (cr F lo hi c r r' x1 x2 x3 : ℝ) : ℝ :=
  if c < cr then
    let v := x1 + F * (x2 - x3)
    let v := if v < lo then lo + r * (x1 - lo) else v
    if hi < v then hi - r' * (hi - x1) else v
  else x1

/-- `current_diff` (agemoea_impl.hpp:348-350). -/
noncomputable def spanOf (a b : ℝ) : ℝ :=
  if max a b - min a b < 1e-10 then 1e-10 else max a b - min a b

/-- `alpha1` (agemoea_impl.hpp:353, 355). -/
noncomputable def alpha1 (eta lo a b : ℝ) : ℝ :=
  2 - (1 + 2 * (min a b - lo) / spanOf a b) ^ (-(eta + 1))

/-- `alpha2` (agemoea_impl.hpp:354, 356). -/
noncomputable def alpha2 (eta hi a b : ℝ) : ℝ :=
  2 - (1 + 2 * (hi - max a b) / spanOf a b) ^ (-(eta + 1))

open scoped Classical in
/-- A comparison as a number. -/
noncomputable def ind (p : Prop) : ℝ := if p then 1 else 0

/-- `betaq1` (agemoea_impl.hpp:359-362). -/
noncomputable def betaq1 (eta lo a b u : ℝ) : ℝ :=
  let al := alpha1 eta lo a b
  let mask1 := u > 1 / al
  (u * al) ^ (1 / (eta + 1)) * ind (¬ mask1) + (1 / (2 - u * al)) ^ (1 / (eta + 1)) * ind mask1

/-- `betaq2` (agemoea_impl.hpp:363-366); the first summand is masked by `mask1`. -/
noncomputable def betaq2 (eta lo hi a b u : ℝ) : ℝ :=
  let al := alpha2 eta hi a b
  let mask1 := u > 1 / alpha1 eta lo a b
  let mask2 := u > 1 / al
  (u * al) ^ (1 / (eta + 1)) * ind (¬ mask1) + (1 / (2 - u * al)) ^ (1 / (eta + 1)) * ind mask2

/-- `c1` before the bounds are enforced (agemoea_impl.hpp:369). -/
noncomputable def raw1 (eta lo a b u : ℝ) : ℝ :=
  0.5 * ((min a b + max a b) - betaq1 eta lo a b u * spanOf a b)

/-- `c2` before the bounds are enforced (agemoea_impl.hpp:370). -/
noncomputable def raw2 (eta lo hi a b u : ℝ) : ℝ :=
  0.5 * ((min a b + max a b) + betaq2 eta lo hi a b u * spanOf a b)

/-- `c1`, `c2` (agemoea_impl.hpp:369-372). -/
noncomputable def c1 (eta lo hi a b u : ℝ) : ℝ := clamp lo hi (raw1 eta lo a b u)
noncomputable def c2 (eta lo hi a b u : ℝ) : ℝ := clamp lo hi (raw2 eta lo hi a b u)

/-- A child gene from the gene `x` of its parent and the candidates `p`, `q`
(agemoea_impl.hpp:376-382): `s` and `t` are the two draws. -/
noncomputable def choose (x p q s t : ℝ) : ℝ :=
  let y := x * ind (s ≤ 0.5)
  let y := y + p * (ind (t ≤ 0.5) * ind (y = 0))
  y + q * (ind (t > 0.5) * ind (y = 0))

open scoped Classical in
/-- `Crossover` of AGEMOEA (agemoea_impl.hpp:333-383) on `n` genes. -/
noncomputable def sbx (n : Nat) (eta : ℝ) (lo hi u s t a b : Nat → ℝ) : (Nat → ℝ) × (Nat → ℝ) :=
  if ∃ i < n, a i - b i < 1e-14 then (a, b)
  else
    (fun i => choose (a i) (c1 eta (lo i) (hi i) (a i) (b i) (u i))
        (c2 eta (lo i) (hi i) (a i) (b i) (u i)) (s i) (t i),
     fun i => choose (b i) (c2 eta (lo i) (hi i) (a i) (b i) (u i))
        (c1 eta (lo i) (hi i) (a i) (b i) (u i)) (s i) (t i))

/-! ### C241: polynomial mutation -/

theorem root_between {p U w : ℝ} (hp : 0 < p) (hU : 0 ≤ U) (hU1 : U ≤ 1) (hw : 0 ≤ w) (hw1 : w ≤ 1) :
    U ≤ (w + (1 - w) * U ^ p) ^ (1 / p) ∧ (w + (1 - w) * U ^ p) ^ (1 / p) ≤ 1 := by
  have h0 : 0 ≤ U ^ p := Real.rpow_nonneg hU p
  have h1 : U ^ p ≤ 1 := Real.rpow_le_one hU hU1 hp.le
  have hlo : U ^ p ≤ w + (1 - w) * U ^ p := by nlinarith
  have hhi : w + (1 - w) * U ^ p ≤ 1 := by nlinarith
  constructor
  · calc U = (U ^ p) ^ (1 / p) := by rw [one_div, Real.rpow_rpow_inv hU hp.ne']
      _ ≤ _ := Real.rpow_le_rpow h0 hlo (by positivity)
  · exact Real.rpow_le_one (h0.trans hlo) hhi (by positivity)

theorem low_eq {di lo hi x rand : ℝ} (h : rand < 0.5) : factor di lo hi x rand =
    (2 * rand + (1 - 2 * rand) * ((hi - x) / (hi - lo)) ^ (di + 1)) ^ (1 / (di + 1)) - 1 := by
  unfold factor; simp only [if_pos h]

theorem high_eq {di lo hi x rand : ℝ} (h : ¬ rand < 0.5) : factor di lo hi x rand =
    1 - (2 * (1 - rand) + (1 - 2 * (1 - rand)) * ((x - lo) / (hi - lo)) ^ (di + 1)) ^
      (1 / (di + 1)) := by
  unfold factor; simp only [if_neg h]
  congr 3
  ring

/-- **C241** A mutated gene stays within the bounds without the final clamping, and moves towards the
lower bound if the draw is below one half, towards the upper bound otherwise. -/
theorem C241_side {di lo hi x rand : ℝ} (hd : 0 ≤ di) (hr : lo < hi) (hx : lo ≤ x) (hx' : x ≤ hi)
    (h0 : 0 ≤ rand) (h1 : rand ≤ 1) :
    (rand < 0.5 → lo ≤ x + factor di lo hi x rand * (hi - lo) ∧
      x + factor di lo hi x rand * (hi - lo) ≤ x) ∧
    (¬ rand < 0.5 → x ≤ x + factor di lo hi x rand * (hi - lo) ∧
      x + factor di lo hi x rand * (hi - lo) ≤ hi) := by
  have hR : 0 < hi - lo := by linarith
  have hp : 0 < di + 1 := by linarith
  constructor
  · intro h
    rw [low_eq h]
    obtain ⟨e1, e2⟩ := root_between (U := (hi - x) / (hi - lo)) (w := 2 * rand) hp
      (div_nonneg (by linarith) hR.le) ((div_le_one hR).2 (by linarith)) (by linarith)
      (by norm_num at h; linarith)
    rw [div_le_iff₀ hR] at e1
    constructor <;> nlinarith
  · intro h
    rw [high_eq h]
    obtain ⟨e1, e2⟩ := root_between (U := (x - lo) / (hi - lo)) (w := 2 * (1 - rand)) hp
      (div_nonneg (by linarith) hR.le) ((div_le_one hR).2 (by linarith)) (by linarith)
      (by norm_num at h; linarith)
    rw [div_le_iff₀ hR] at e1
    constructor <;> nlinarith

example : (0 : ℝ) ≤ 20 ∧ (-1 : ℝ) < 3 ∧ (-1 : ℝ) ≤ 0.5 ∧ (0.5 : ℝ) ≤ 3 ∧ (0 : ℝ) ≤ 0.3 ∧ (0.3 : ℝ) ≤ 1 := by
  norm_num

/-- **C241** The extreme draws reach the bounds, and the draw one half leaves the gene as it is. -/
theorem C241_extremes {di lo hi x : ℝ} (hd : 0 ≤ di) (hr : lo < hi) (hx : lo ≤ x) (hx' : x ≤ hi) :
    x + factor di lo hi x 0 * (hi - lo) = lo ∧ x + factor di lo hi x 1 * (hi - lo) = hi ∧
      x + factor di lo hi x 0.5 * (hi - lo) = x := by
  have hR : 0 < hi - lo := by linarith
  have hp : di + 1 ≠ 0 := by linarith
  refine ⟨?_, ?_, ?_⟩
  · rw [low_eq (by norm_num)]
    simp only [mul_zero, sub_zero, one_mul, zero_add]
    rw [one_div, Real.rpow_rpow_inv (div_nonneg (by linarith) hR.le) hp]
    field_simp
    ring
  · rw [high_eq (by norm_num)]
    simp only [sub_self, mul_zero, sub_zero, one_mul, zero_add]
    rw [one_div, Real.rpow_rpow_inv (div_nonneg (by linarith) hR.le) hp]
    field_simp
    ring
  · rw [high_eq (by norm_num)]
    norm_num

/-- **C241** The new gene is a monotone function of the draw. -/
theorem C241_monotone {di lo hi x r r' : ℝ} (hd : 0 ≤ di) (hr : lo < hi) (hx : lo ≤ x) (hx' : x ≤ hi)
    (h0 : 0 ≤ r) (h1 : r' ≤ 1) (h : r ≤ r') :
    x + factor di lo hi x r * (hi - lo) ≤ x + factor di lo hi x r' * (hi - lo) := by
  have hR : 0 < hi - lo := by linarith
  have hp : 0 < di + 1 := by linarith
  by_cases hs : r < 0.5
  · by_cases hs' : r' < 0.5
    · rw [low_eq hs, low_eq hs']
      have hU : 0 ≤ ((hi - x) / (hi - lo)) ^ (di + 1) :=
        Real.rpow_nonneg (div_nonneg (by linarith) hR.le) _
      have hU1 : ((hi - x) / (hi - lo)) ^ (di + 1) ≤ 1 :=
        Real.rpow_le_one (div_nonneg (by linarith) hR.le) ((div_le_one hR).2 (by linarith)) hp.le
      norm_num at hs hs'
      have := Real.rpow_le_rpow (z := 1 / (di + 1))
        (x := 2 * r + (1 - 2 * r) * ((hi - x) / (hi - lo)) ^ (di + 1))
        (y := 2 * r' + (1 - 2 * r') * ((hi - x) / (hi - lo)) ^ (di + 1))
        (add_nonneg (by linarith) (mul_nonneg (by linarith) hU)) (by nlinarith) (by positivity)
      nlinarith
    · exact ((C241_side hd hr hx hx' h0 (by linarith)).1 hs).2.trans
        ((C241_side hd hr hx hx' (by linarith) h1).2 hs').1
  · have hs' : ¬ r' < 0.5 := fun h' => hs (lt_of_le_of_lt h h')
    rw [high_eq hs, high_eq hs']
    have hU : 0 ≤ ((x - lo) / (hi - lo)) ^ (di + 1) :=
      Real.rpow_nonneg (div_nonneg (by linarith) hR.le) _
    have hU1 : ((x - lo) / (hi - lo)) ^ (di + 1) ≤ 1 :=
      Real.rpow_le_one (div_nonneg (by linarith) hR.le) ((div_le_one hR).2 (by linarith)) hp.le
    norm_num at hs hs'
    have := Real.rpow_le_rpow (z := 1 / (di + 1))
      (x := 2 * (1 - r') + (1 - 2 * (1 - r')) * ((x - lo) / (hi - lo)) ^ (di + 1))
      (y := 2 * (1 - r) + (1 - 2 * (1 - r)) * ((x - lo) / (hi - lo)) ^ (di + 1))
      (add_nonneg (by linarith) (mul_nonneg (by linarith) hU)) (by nlinarith) (by positivity)
    nlinarith

theorem clamp_id {lo hi x : ℝ} (h : lo ≤ x) (h' : x ≤ hi) : clamp lo hi x = x := by
  unfold clamp; rw [max_eq_left h, min_eq_left h']

theorem clamp_mem {lo hi : ℝ} (x : ℝ) (h : lo ≤ hi) : lo ≤ clamp lo hi x ∧ clamp lo hi x ≤ hi :=
  ⟨le_min (le_max_right _ _) h, min_le_right _ _⟩

/-- **C241** With a positive gene range `Mutate` is defined, leaves the gene alone if the first draw
exceeds the rate, and otherwise gives the perturbed gene: enforcing the bounds changes nothing. -/
theorem C241_mutate_partial {rate di lo hi u rand x : ℝ} (hd : 0 ≤ di) (hr : lo < hi) (hx : lo ≤ x)
    (hx' : x ≤ hi) (h0 : 0 ≤ rand) (h1 : rand ≤ 1) :
    ∃ y, mutate rate di lo hi u rand x = some y ∧ lo ≤ y ∧ y ≤ hi ∧
      (rate < u → y = x) ∧ (¬ rate < u → y = x + factor di lo hi x rand * (hi - lo)) := by
  unfold mutate mutateGene
  by_cases h : rate < u
  · rw [if_pos h]
    exact ⟨x, by rw [Option.map_some, clamp_id hx hx'], hx, hx', fun _ => rfl, fun h' => absurd h h'⟩
  · rw [if_neg h, if_neg (by linarith : ¬ hi - lo = 0)]
    have hb : lo ≤ x + factor di lo hi x rand * (hi - lo) ∧
        x + factor di lo hi x rand * (hi - lo) ≤ hi := by
      by_cases hs : rand < 0.5
      · have := (C241_side hd hr hx hx' h0 h1).1 hs
        exact ⟨this.1, this.2.trans hx'⟩
      · have := (C241_side hd hr hx hx' h0 h1).2 hs
        exact ⟨hx.trans this.1, this.2⟩
    exact ⟨_, by rw [Option.map_some, clamp_id hb.1 hb.2], hb.1, hb.2, fun h' => absurd h' h, fun _ => rfl⟩

/-- **C241** A gene with equal bounds divides zero by zero when it is chosen for mutation. -/
theorem C241_fixed_gene_refuted : ¬ ∀ rate di lo hi u rand x : ℝ, 0 ≤ di → lo ≤ x → x ≤ hi →
    (mutate rate di lo hi u rand x).isSome := by
  intro h
  have := h 1 20 2 2 0 0 2 (by norm_num) (by norm_num) (by norm_num)
  rw [mutate, mutateGene, if_neg (by norm_num), if_pos (by norm_num)] at this
  simp at this

/-! ### C243: differential operator -/

/-- **C243** The new gene is within the bounds; it is the differential step if that is within the
bounds, lies between the violated bound and the gene of the first parent if not, and is the gene of
the first parent if the gene is not crossed. -/
theorem C243_differential {cr F lo hi c r r' x1 x2 x3 : ℝ} (hx : lo ≤ x1) (hx' : x1 ≤ hi)
    (h0 : 0 ≤ r) (h1 : r ≤ 1) (h0' : 0 ≤ r') (h1' : r' ≤ 1) :
    let y := differential cr F lo hi c r r' x1 x2 x3
    let v := x1 + F * (x2 - x3)
    (lo ≤ y ∧ y ≤ hi) ∧ (¬ c < cr → y = x1) ∧ (c < cr → lo ≤ v → v ≤ hi → y = v) ∧
      (c < cr → v < lo → lo ≤ y ∧ y ≤ x1) ∧ (c < cr → hi < v → x1 ≤ y ∧ y ≤ hi) := by
  intro y v
  have hlow : lo ≤ lo + r * (x1 - lo) ∧ lo + r * (x1 - lo) ≤ x1 := by constructor <;> nlinarith
  have hhigh : x1 ≤ hi - r' * (hi - x1) ∧ hi - r' * (hi - x1) ≤ hi := by constructor <;> nlinarith
  have hy : y = if c < cr then
      (if hi < (if v < lo then lo + r * (x1 - lo) else v) then hi - r' * (hi - x1)
       else (if v < lo then lo + r * (x1 - lo) else v)) else x1 := rfl
  clear_value y v
  subst hy
  by_cases hc : c < cr
  · simp only [if_pos hc]
    by_cases hv : v < lo
    · simp only [if_pos hv]
      rw [if_neg (by linarith [hlow.2])]
      exact ⟨⟨hlow.1, hlow.2.trans hx'⟩, fun h => absurd hc h, fun _ h _ => absurd hv (by linarith),
        fun _ _ => hlow, fun _ h => by linarith⟩
    · simp only [if_neg hv]
      by_cases hv' : hi < v
      · rw [if_pos hv']
        exact ⟨⟨hx.trans hhigh.1, hhigh.2⟩, fun h => absurd hc h, fun _ _ h => absurd hv' (by linarith),
          fun _ h => absurd h hv, fun _ _ => hhigh⟩
      · rw [if_neg hv']
        exact ⟨⟨by linarith, by linarith⟩, fun h => absurd hc h, fun _ _ _ => rfl,
          fun _ h => absurd h hv, fun _ h => absurd h hv'⟩
  · simp only [if_neg hc]
    exact ⟨⟨hx, hx'⟩, fun _ => trivial, fun h => absurd h hc, fun h => absurd h hc, fun h => absurd h hc⟩

/-- **C243** A whole child gene of MOEA/D, crossed and mutated, is within the bounds before they are
enforced at the end of `Mutate`. -/
theorem C243_child {cr F di lo hi c r r' x1 x2 x3 rate u rand : ℝ} (hd : 0 ≤ di) (hr : lo < hi)
    (hx : lo ≤ x1) (hx' : x1 ≤ hi) (h0 : 0 ≤ r) (h1 : r ≤ 1) (h0' : 0 ≤ r') (h1' : r' ≤ 1)
    (hm0 : 0 ≤ rand) (hm1 : rand ≤ 1) :
    ∃ y, mutateGene rate di lo hi u rand (differential cr F lo hi c r r' x1 x2 x3) = some y ∧
      lo ≤ y ∧ y ≤ hi := by
  obtain ⟨⟨b0, b1⟩, -⟩ := C243_differential (cr := cr) (F := F) (c := c) (x2 := x2) (x3 := x3)
    hx hx' h0 h1 h0' h1'
  obtain ⟨y, -, hy0, hy1, e1, e2⟩ := C241_mutate_partial (rate := rate) (u := u) hd hr b0 b1 hm0 hm1
  refine ⟨y, ?_, hy0, hy1⟩
  unfold mutateGene
  by_cases h : rate < u
  · rw [if_pos h, e1 h]
  · rw [if_neg h, if_neg (by linarith : ¬ hi - lo = 0), e2 h]

example : (0 : ℝ) ≤ 20 ∧ (0 : ℝ) < 1 ∧ (0 : ℝ) ≤ 0.9 ∧ (0.9 : ℝ) ≤ 1 ∧ 1 < 0.9 + 0.5 * ((1 : ℝ) - 0.2) := by
  norm_num

/-! ### C242: simulated binary crossover -/

theorem ind_true {p : Prop} (h : p) : ind p = 1 := by unfold ind; rw [if_pos h]
theorem ind_false {p : Prop} (h : ¬ p) : ind p = 0 := by unfold ind; rw [if_neg h]

/-- The spread factor of simulated binary crossover for a draw `u`. -/
noncomputable def spread (eta al u : ℝ) : ℝ :=
  open scoped Classical in
  if u ≤ 1 / al then (u * al) ^ (1 / (eta + 1)) else (1 / (2 - u * al)) ^ (1 / (eta + 1))

theorem choose_eq (x p q s t : ℝ) : choose x p q s t =
    open scoped Classical in if s ≤ 0.5 ∧ x ≠ 0 then x else if t ≤ 0.5 then p else q := by
  unfold choose
  by_cases hs : s ≤ 0.5
  · by_cases hx : x = 0
    · by_cases ht : t ≤ 0.5
      · simp [hx, ind_true ht, ind_false (not_lt.2 ht), ind, ht]
      · simp [hx, ind_false ht, ind_true (not_le.1 ht), ind, ht]
    · have : ind (x * ind (s ≤ 0.5) = 0) = 0 := by rw [ind_true hs]; exact ind_false (by simpa using hx)
      simp only [this, mul_zero, add_zero, ind_true hs, mul_one, ind_false hx]
      rw [if_pos ⟨hs, hx⟩]
  · have h0 : x * ind (s ≤ 0.5) = 0 := by rw [ind_false hs, mul_zero]
    rw [if_neg (fun h => hs h.1)]
    simp only [h0, zero_add, ind_true (rfl : (0 : ℝ) = 0), mul_one]
    by_cases ht : t ≤ 0.5
    · rw [ind_true ht, ind_false (not_lt.2 ht), if_pos ht]
      simp [ind_true trivial]
    · rw [ind_false ht, ind_true (not_le.1 ht), if_neg ht]
      simp [ind_true trivial]

/-- **C242** What the crossover does, exactly: nothing unless every gene of the first parent exceeds
that of the second by `1e-14`; otherwise each child gene is the one of its parent or one of the two
candidates, opposite ones in the two children. -/
theorem C242_genes (n : Nat) (eta : ℝ) (lo hi u s t a b : Nat → ℝ) :
    ((∃ i < n, a i - b i < 1e-14) → sbx n eta lo hi u s t a b = (a, b)) ∧
    ((∀ i < n, 1e-14 ≤ a i - b i) → ∀ i,
      let p := c1 eta (lo i) (hi i) (a i) (b i) (u i)
      let q := c2 eta (lo i) (hi i) (a i) (b i) (u i)
      ((s i ≤ 0.5 → a i ≠ 0 → (sbx n eta lo hi u s t a b).1 i = a i) ∧
        (s i ≤ 0.5 → b i ≠ 0 → (sbx n eta lo hi u s t a b).2 i = b i)) ∧
      ((0.5 < s i ∨ a i = 0) → (sbx n eta lo hi u s t a b).1 i = if t i ≤ 0.5 then p else q) ∧
      ((0.5 < s i ∨ b i = 0) → (sbx n eta lo hi u s t a b).2 i = if t i ≤ 0.5 then q else p)) := by
  constructor
  · intro h; unfold sbx; rw [if_pos h]
  · intro h i p q
    have hn : ¬ ∃ i < n, a i - b i < 1e-14 := by
      rintro ⟨i, hi, hl⟩; exact absurd (h i hi) (not_le.2 hl)
    unfold sbx
    rw [if_neg hn]
    simp only [choose_eq]
    refine ⟨⟨fun hs ha => if_pos ⟨hs, ha⟩, fun hs hb => if_pos ⟨hs, hb⟩⟩, fun hs => ?_, fun hs => ?_⟩
    · rw [if_neg]
      rintro ⟨h1, h2⟩; rcases hs with h3 | h3
      · exact absurd h1 (not_le.2 h3)
      · exact h2 h3
    · rw [if_neg]
      rintro ⟨h1, h2⟩; rcases hs with h3 | h3
      · exact absurd h1 (not_le.2 h3)
      · exact h2 h3

/-- **C242** Children of parents within the bounds are within the bounds. -/
theorem C242_in_bounds (n : Nat) (eta : ℝ) (lo hi u s t a b : Nat → ℝ) (i : Nat)
    (ha : lo i ≤ a i ∧ a i ≤ hi i) (hb : lo i ≤ b i ∧ b i ≤ hi i) :
    (lo i ≤ (sbx n eta lo hi u s t a b).1 i ∧ (sbx n eta lo hi u s t a b).1 i ≤ hi i) ∧
      (lo i ≤ (sbx n eta lo hi u s t a b).2 i ∧ (sbx n eta lo hi u s t a b).2 i ≤ hi i) := by
  unfold sbx
  split
  · exact ⟨ha, hb⟩
  · have hl : lo i ≤ hi i := ha.1.trans ha.2
    simp only [choose_eq]
    constructor
    · split_ifs
      · exact ha
      · exact clamp_mem _ hl
      · exact clamp_mem _ hl
    · split_ifs
      · exact hb
      · exact clamp_mem _ hl
      · exact clamp_mem _ hl

/-- **C242** The first candidate has the spread factor of simulated binary crossover. -/
theorem C242_spread1 (eta lo a b u : ℝ) : betaq1 eta lo a b u = spread eta (alpha1 eta lo a b) u := by
  unfold betaq1 spread
  by_cases h : u ≤ 1 / alpha1 eta lo a b
  · simp only [if_pos h]; rw [ind_true (not_lt.2 h), ind_false (not_lt.2 h)]; ring
  · simp only [if_neg h]; rw [ind_false (not_not.2 (not_le.1 h)), ind_true (not_le.1 h)]; ring

/-- **C242** The second has it if the draw is on the same side of both thresholds. -/
theorem C242_spread2_partial (eta lo hi a b u : ℝ)
    (h : u ≤ 1 / alpha1 eta lo a b ↔ u ≤ 1 / alpha2 eta hi a b) :
    betaq2 eta lo hi a b u = spread eta (alpha2 eta hi a b) u := by
  unfold betaq2 spread
  by_cases h2 : u ≤ 1 / alpha2 eta hi a b
  · simp only [if_pos h2]; rw [ind_true (not_lt.2 (h.2 h2)), ind_false (not_lt.2 h2)]; ring
  · have h1 : ¬ u ≤ 1 / alpha1 eta lo a b := fun h' => h2 (h.1 h')
    simp only [if_neg h2]; rw [ind_false (not_not.2 (not_le.1 h1)), ind_true (not_le.1 h2)]; ring

theorem demo_alpha1 : alpha1 0 1 2 1 = 1 := by
  norm_num [alpha1, spanOf]

theorem demo_alpha2 : alpha2 0 3 2 1 = 5 / 3 := by
  have : spanOf 2 1 = 1 := by norm_num [spanOf]
  unfold alpha2
  rw [this]
  norm_num [Real.rpow_neg_one]

/-- **C242** In general it does not: the parents 2 and 1 in [1, 3] with draw 0.9 get the sum of both
cases, 3.5 instead of 2, and the candidate 3.25 outside the bounds instead of 2.5. -/
theorem C242_spread2_refuted :
    ¬ (∀ eta lo hi a b u : ℝ, 0 ≤ eta → lo ≤ b → b < a → a ≤ hi → 0 ≤ u → u ≤ 1 →
      betaq2 eta lo hi a b u = spread eta (alpha2 eta hi a b) u) ∧ raw2 0 1 3 2 1 0.9 = 3.25 := by
  have e : betaq2 0 1 3 2 1 0.9 = 3.5 := by
    unfold betaq2
    simp only [demo_alpha1, demo_alpha2]
    rw [ind_true (by norm_num), ind_true (by norm_num)]
    norm_num
  constructor
  · intro h
    have := h 0 1 3 2 1 0.9 (by norm_num) (by norm_num) (by norm_num) (by norm_num) (by norm_num)
      (by norm_num)
    rw [e, spread, demo_alpha2, if_neg (by norm_num)] at this
    norm_num at this
  · unfold raw2
    rw [e]
    norm_num [spanOf]

/-- **C242** Parents that differ in every gene are not crossed if the first is the smaller. -/
theorem C242_crossed_refuted : ¬ ∀ (n : Nat) (eta : ℝ) (lo hi a b : Nat → ℝ), 0 < n →
    (∀ i < n, lo i ≤ a i ∧ a i ≤ hi i ∧ lo i ≤ b i ∧ b i ≤ hi i ∧ a i ≠ b i) →
    ∃ u s t : Nat → ℝ, sbx n eta lo hi u s t a b ≠ (a, b) := by
  intro h
  obtain ⟨u, s, t, hne⟩ := h 1 20 (fun _ => 0) (fun _ => 3) (fun _ => 1) (fun _ => 2) (by norm_num)
    (fun _ _ => by norm_num)
  exact hne ((C242_genes _ _ _ _ _ _ _ _ _).1 ⟨0, by norm_num, by norm_num⟩)

/-- **C242** A gene that the first draw keeps is not kept if it is zero. -/
theorem C242_zero_gene_refuted : ¬ ∀ (n : Nat) (eta : ℝ) (lo hi u s t a b : Nat → ℝ) (i : Nat),
    (∀ i, lo i ≤ b i ∧ b i < a i ∧ a i ≤ hi i) → s i ≤ 0.5 →
    (sbx n eta lo hi u s t a b).1 i = a i := by
  intro h
  have h1 := h 1 0 (fun _ => -1) (fun _ => 3) (fun _ => 0.5) (fun _ => 0) (fun _ => 0) (fun _ => 0)
    (fun _ => -1) 0 (fun _ => by norm_num) (by norm_num)
  have h2 := ((C242_genes 1 0 (fun _ => -1) (fun _ => 3) (fun _ => 0.5) (fun _ => 0) (fun _ => 0)
    (fun _ => 0) (fun _ => -1)).2 (fun _ _ => by norm_num) 0).2.1 (Or.inr rfl)
  rw [h1, if_pos (by norm_num)] at h2
  have al : alpha1 0 (-1) 0 (-1) = 1 := by norm_num [alpha1, spanOf]
  have e : betaq1 0 (-1) 0 (-1) 0.5 = 0.5 := by
    rw [C242_spread1, al, spread, if_pos (by norm_num)]
    norm_num
  have e1 : c1 0 (-1) 3 0 (-1) 0.5 = -0.75 := by
    unfold c1 raw1
    rw [e]
    norm_num [spanOf, clamp]
  rw [e1] at h2
  norm_num at h2

theorem spread_le {eta be u : ℝ} (he : 0 ≤ eta) (hb : 1 ≤ be) (h0 : 0 ≤ u) (h1 : u ≤ 1) :
    0 ≤ spread eta (2 - be ^ (-(eta + 1))) u ∧ spread eta (2 - be ^ (-(eta + 1))) u ≤ be := by
  have hp : 0 < eta + 1 := by linarith
  have hbp : 0 < be := by linarith
  have k0 : 0 < be ^ (-(eta + 1)) := Real.rpow_pos_of_pos hbp _
  have k1 : be ^ (-(eta + 1)) ≤ 1 := Real.rpow_le_one_of_one_le_of_nonpos hb (by linarith)
  set k := be ^ (-(eta + 1)) with hk
  have hpos : 0 < 2 - k := by linarith
  unfold spread
  split_ifs with hu
  · rw [le_div_iff₀ hpos] at hu
    have hn : 0 ≤ u * (2 - k) := mul_nonneg h0 hpos.le
    exact ⟨Real.rpow_nonneg hn _, (Real.rpow_le_one hn hu (by positivity)).trans hb⟩
  · have hd : k ≤ 2 - u * (2 - k) := by nlinarith
    have hd0 : 0 < 2 - u * (2 - k) := lt_of_lt_of_le k0 hd
    refine ⟨Real.rpow_nonneg (by positivity) _, ?_⟩
    calc (1 / (2 - u * (2 - k))) ^ (1 / (eta + 1)) ≤ (1 / k) ^ (1 / (eta + 1)) :=
          Real.rpow_le_rpow (by positivity) (one_div_le_one_div_of_le k0 hd) (by positivity)
      _ = be := by
          rw [hk, Real.rpow_neg hbp.le, one_div, inv_inv, one_div, Real.rpow_rpow_inv hbp.le hp.ne']

/-- **C242** For parents that are at least `1e-10` apart the first candidate is within the bounds
before they are enforced, and not above the middle of the parents. -/
theorem C242_candidate1 {eta lo hi a b u : ℝ} (he : 0 ≤ eta) (hlo : lo ≤ b) (hab : 1e-10 ≤ a - b)
    (hhi : a ≤ hi) (h0 : 0 ≤ u) (h1 : u ≤ 1) :
    lo ≤ raw1 eta lo a b u ∧ raw1 eta lo a b u ≤ (a + b) / 2 := by
  have hlt : 0 < a - b := lt_of_lt_of_le (by norm_num) hab
  have hmin : min a b = b := min_eq_right (by linarith)
  have hmax : max a b = a := max_eq_left (by linarith)
  have hsp : spanOf a b = a - b := by
    unfold spanOf; rw [hmin, hmax, if_neg (not_lt.2 hab)]
  have hbe : 1 ≤ 1 + 2 * (b - lo) / (a - b) := by
    have : 0 ≤ 2 * (b - lo) / (a - b) := div_nonneg (by linarith) hlt.le
    linarith
  obtain ⟨s0, s1⟩ := spread_le he hbe h0 h1
  have hq : betaq1 eta lo a b u = spread eta (2 - (1 + 2 * (b - lo) / (a - b)) ^ (-(eta + 1))) u := by
    rw [C242_spread1, alpha1, hmin, hsp]
  have hm : (1 + 2 * (b - lo) / (a - b)) * (a - b) = (a - b) + 2 * (b - lo) := by
    field_simp
  unfold raw1
  rw [hq, hmin, hmax, hsp]
  have e1 := mul_le_mul_of_nonneg_right s1 hlt.le
  have e0 := mul_nonneg s0 hlt.le
  rw [hm] at e1
  generalize spread eta (2 - (1 + 2 * (b - lo) / (a - b)) ^ (-(eta + 1))) u * (a - b) = z at *
  constructor <;> norm_num <;> linarith

example : (0 : ℝ) ≤ 20 ∧ (0 : ℝ) ≤ 1 ∧ (1e-10 : ℝ) ≤ 2 - 1 ∧ (2 : ℝ) ≤ 5 := by norm_num

/-- **C242** So is the second, not below the middle, if the draw is on the same side of both thresholds. -/
theorem C242_candidate2_partial {eta lo hi a b u : ℝ} (he : 0 ≤ eta) (hab : 1e-10 ≤ a - b)
    (hhi : a ≤ hi) (h0 : 0 ≤ u) (h1 : u ≤ 1)
    (h : u ≤ 1 / alpha1 eta lo a b ↔ u ≤ 1 / alpha2 eta hi a b) :
    (a + b) / 2 ≤ raw2 eta lo hi a b u ∧ raw2 eta lo hi a b u ≤ hi := by
  have hlt : 0 < a - b := lt_of_lt_of_le (by norm_num) hab
  have hmin : min a b = b := min_eq_right (by linarith)
  have hmax : max a b = a := max_eq_left (by linarith)
  have hsp : spanOf a b = a - b := by
    unfold spanOf; rw [hmin, hmax, if_neg (not_lt.2 hab)]
  have hbe : 1 ≤ 1 + 2 * (hi - a) / (a - b) := by
    have : 0 ≤ 2 * (hi - a) / (a - b) := div_nonneg (by linarith) hlt.le
    linarith
  obtain ⟨s0, s1⟩ := spread_le he hbe h0 h1
  have hq : betaq2 eta lo hi a b u =
      spread eta (2 - (1 + 2 * (hi - a) / (a - b)) ^ (-(eta + 1))) u := by
    rw [C242_spread2_partial eta lo hi a b u h, alpha2, hmax, hsp]
  have hm : (1 + 2 * (hi - a) / (a - b)) * (a - b) = (a - b) + 2 * (hi - a) := by
    field_simp
  unfold raw2
  rw [hq, hmin, hmax, hsp]
  have e1 := mul_le_mul_of_nonneg_right s1 hlt.le
  have e0 := mul_nonneg s0 hlt.le
  rw [hm] at e1
  generalize spread eta (2 - (1 + 2 * (hi - a) / (a - b)) ^ (-(eta + 1))) u * (a - b) = z at *
  constructor <;> norm_num <;> linarith

/-- The draw 0.5 is below both thresholds of the parents 2 and 1 in [1, 3]. -/
example : ((0.5 : ℝ) ≤ 1 / alpha1 0 1 2 1 ↔ (0.5 : ℝ) ≤ 1 / alpha2 0 3 2 1) := by
  rw [demo_alpha1, demo_alpha2]; norm_num

/-- **C242** The two ways the masks disagree: the candidate is the middle of the parents whatever the draw,
or carries the sum of the spread factors of both cases. -/
theorem C242_masks_disagree {eta lo hi a b u : ℝ} :
    (1 / alpha1 eta lo a b < u → u ≤ 1 / alpha2 eta hi a b →
      raw2 eta lo hi a b u = (a + b) / 2) ∧
    (u ≤ 1 / alpha1 eta lo a b → 1 / alpha2 eta hi a b < u →
      betaq2 eta lo hi a b u = (u * alpha2 eta hi a b) ^ (1 / (eta + 1)) +
        (1 / (2 - u * alpha2 eta hi a b)) ^ (1 / (eta + 1))) := by
  constructor
  · intro h1 h2
    unfold raw2 betaq2
    simp only
    rw [ind_false (not_not.2 h1), ind_false (not_lt.2 h2), min_add_max]
    norm_num
    ring
  · intro h1 h2
    unfold betaq2
    simp only
    rw [ind_true (not_lt.2 h1), ind_true h2, mul_one, mul_one]

/-- **C242** A gene of an AGEMOEA child, crossed or not and mutated, is defined and within the bounds. -/
theorem C242_child {n : Nat} {eta di rate m rand : ℝ} {lo hi u s t a b : Nat → ℝ} {i : Nat}
    (hd : 0 ≤ di) (hr : lo i < hi i) (ha : lo i ≤ a i ∧ a i ≤ hi i) (hb : lo i ≤ b i ∧ b i ≤ hi i)
    (h0 : 0 ≤ rand) (h1 : rand ≤ 1) (crossed : Bool) :
    let c := if crossed then sbx n eta lo hi u s t a b else (a, b)
    (∃ y, mutate rate di (lo i) (hi i) m rand (c.1 i) = some y ∧ lo i ≤ y ∧ y ≤ hi i) ∧
      ∃ y, mutate rate di (lo i) (hi i) m rand (c.2 i) = some y ∧ lo i ≤ y ∧ y ≤ hi i := by
  intro c
  have hc : (lo i ≤ c.1 i ∧ c.1 i ≤ hi i) ∧ (lo i ≤ c.2 i ∧ c.2 i ≤ hi i) := by
    cases crossed
    · exact ⟨ha, hb⟩
    · exact C242_in_bounds n eta lo hi u s t a b i ha hb
  obtain ⟨y, e, l, g, -⟩ := C241_mutate_partial (rate := rate) (u := m) hd hr hc.1.1 hc.1.2 h0 h1
  obtain ⟨z, e', l', g', -⟩ := C241_mutate_partial (rate := rate) (u := m) hd hr hc.2.1 hc.2.2 h0 h1
  exact ⟨⟨y, e, l, g⟩, ⟨z, e', l', g'⟩⟩

end Ens.Moo.Genes
