import Mathlib.Analysis.SpecialFunctions.Pow.Real
import Mathlib.Tactic.Linarith
import Mathlib.Tactic.FieldSimp
import Mathlib.Tactic.Ring
import Mathlib.Tactic.NormNum
import Verif.Common
import Verif.Pso.Model

/-
C24, C25, C81: the velocity policy `LBestUpdate` and the initialisation policy `DefaultInit` of PSO.
-/

namespace Ens.Pso

/-! ### LBestUpdate: neighbourhood -/

section LBest

variable {E : Type} [LT E] [DecidableLT E]

/-- **C24** (refuted) "The local best is the best of left neighbour, self and right neighbour": the comparison
with the left neighbour is overwritten. -/
theorem C24_lbest_ring_refuted :
    ¬ ∀ (n : Nat) (fit : Nat → Int) (i : Nat), i < n →
      ∀ j, j = left n i ∨ j = i ∨ j = right n i → ¬ fit j < fit (localBest n fit i) := by
  intro h
  exact h 3 (fun k => k) 1 (by decide) 0 (.inl rfl) (by decide)

/-- **C24** (partial; missing: the left neighbour) The local best of particle `i` is the better one of
`i` and its right neighbour, `i` itself on ties, and is an index of a particle. -/
theorem C24_lbest_self_and_right_partial [StrictPO E] (n : Nat) (fit : Nat → E) (i : Nat) (hi : i < n) :
    (localBest n fit i = i ∨ localBest n fit i = right n i) ∧ localBest n fit i < n ∧
    ¬ fit i < fit (localBest n fit i) ∧ ¬ fit (right n i) < fit (localBest n fit i) ∧
    (¬ fit (right n i) < fit i → localBest n fit i = i) := by
  have hr : right n i < n := Nat.mod_lt _ (by omega)
  by_cases h : fit (right n i) < fit i
  · have he : localBest n fit i = right n i := if_pos h
    rw [he]
    exact ⟨.inr rfl, hr, StrictPO.asymm h, StrictPO.irrefl _, fun h' => absurd h h'⟩
  · have he : localBest n fit i = i := if_neg h
    rw [he]
    exact ⟨.inl rfl, hi, StrictPO.irrefl _, h, fun _ => rfl⟩

/-- The neighbours are the ring neighbours: distinct from the particle if there are at least two, and
inverse to each other. -/
theorem C24_lbest_ring (n i : Nat) (hi : i < n) :
    left n i < n ∧ right n i < n ∧ left n (right n i) = i ∧ right n (left n i) = i ∧
    (2 ≤ n → left n i ≠ i ∧ right n i ≠ i) := by
  have hl : left n i = if i = 0 then n - 1 else i - 1 := by
    unfold left
    split_ifs with h
    · subst h; rw [Nat.zero_add]; exact Nat.mod_eq_of_lt (by omega)
    · rw [show i + n - 1 = (i - 1) + n by omega, Nat.add_mod_right]; exact Nat.mod_eq_of_lt (by omega)
  have hr : right n i = if i + 1 = n then 0 else i + 1 := by
    unfold right
    split_ifs with h
    · rw [h]; exact Nat.mod_self n
    · exact Nat.mod_eq_of_lt (by omega)
  refine ⟨by rw [hl]; split_ifs <;> omega, by rw [hr]; split_ifs <;> omega, ?_, ?_, ?_⟩
  · rw [hr]
    split_ifs with h
    · unfold left; rw [Nat.zero_add, ← h]; simp
    · unfold left
      rw [show i + 1 + n - 1 = i + n by omega, Nat.add_mod_right]; exact Nat.mod_eq_of_lt hi
  · rw [hl]
    split_ifs with h
    · unfold right; rw [show n - 1 + 1 = n by omega, h]; exact Nat.mod_self n
    · unfold right; rw [show i - 1 + 1 = i by omega]; exact Nat.mod_eq_of_lt hi
  · intro h2
    rw [hl, hr]
    constructor <;> split_ifs <;> omega

example : localBest 4 (fun k => [3, 1, 4, 1].getD k 0) 0 = 1 := by decide

end LBest

/-! ### LBestUpdate: constriction factor -/

/-- `static double phi = c1 + c2;` (line 101 of lbest_update.hpp): `stored` is the value of the static
variable, `none` before the first call. -/
def staticPhi (stored : Option ℝ) (c1 c2 : ℝ) : ℝ := stored.getD (c1 + c2)

/-- Line 105. -/
noncomputable def chi (phi : ℝ) : ℝ := 2 / |2 - phi - Real.sqrt ((phi - 4) * phi)|

/-- Constriction factor of each of a sequence of `Initialize` calls in one program. -/
noncomputable def chis (stored : Option ℝ) : List (ℝ × ℝ) → List ℝ
  | [] => []
  | c :: cs => chi (staticPhi stored c.1 c.2) :: chis (some (staticPhi stored c.1 c.2)) cs

theorem chi_identity {phi : ℝ} (h : 4 < phi) :
    chi phi = 2 / (phi - 2 + Real.sqrt ((phi - 4) * phi)) ∧ 0 < Real.sqrt ((phi - 4) * phi) ∧
    Real.sqrt ((phi - 4) * phi) ^ 2 = (phi - 4) * phi := by
  have hpos : 0 < (phi - 4) * phi := mul_pos (by linarith) (by linarith)
  have hs : 0 < Real.sqrt ((phi - 4) * phi) := Real.sqrt_pos.2 hpos
  refine ⟨?_, hs, Real.sq_sqrt hpos.le⟩
  unfold chi
  rw [abs_of_neg (by linarith)]
  congr 1
  ring

/-- **C81** For factors with sum above 4 the constriction factor of the first `Initialize` call of a
program lies strictly between 0 and 1 and satisfies the defining equation `chi + 1/chi = phi - 2`. -/
theorem C81_constriction_first_call (c1 c2 : ℝ) (h : 4 < c1 + c2) (cs : List (ℝ × ℝ)) :
    ∃ x, (chis none ((c1, c2) :: cs)).head? = some x ∧ 0 < x ∧ x < 1 ∧
      x + 1 / x = c1 + c2 - 2 := by
  refine ⟨chi (c1 + c2), rfl, ?_⟩
  obtain ⟨h1, h2, h3⟩ := chi_identity h
  generalize Real.sqrt ((c1 + c2 - 4) * (c1 + c2)) = q at *
  rw [h1]
  have hd : 0 < c1 + c2 - 2 + q := by linarith
  refine ⟨by positivity, ?_, ?_⟩
  · rw [div_lt_one hd]; linarith
  · field_simp
    nlinarith

/-- **C81** (refuted) "Every optimizer uses the constriction factor of its own parameters": the sum of
the factors is a function-level static variable, computed once. -/
theorem C81_constriction_own_factors_refuted :
    ¬ ∀ (cs : List (ℝ × ℝ)), (∀ c ∈ cs, 4 < c.1 + c.2) →
      chis none cs = cs.map fun c => chi (c.1 + c.2) := by
  intro h
  have h1 := h [(3, 2), (3, 3)] (by
    intro c hc
    simp only [List.mem_cons, List.not_mem_nil, or_false] at hc
    rcases hc with rfl | rfl <;> norm_num)
  simp only [chis, staticPhi, Option.getD_none, Option.getD_some, List.map_cons, List.map_nil,
    List.cons.injEq, and_true] at h1
  have h2 := h1.2
  obtain ⟨a1, a2, a3⟩ := chi_identity (phi := 3 + 2) (by norm_num)
  obtain ⟨b1, b2, b3⟩ := chi_identity (phi := 3 + 3) (by norm_num)
  rw [a1, b1] at h2
  generalize Real.sqrt ((3 + 2 - 4) * (3 + 2)) = q at *
  generalize Real.sqrt ((3 + 3 - 4) * (3 + 3)) = r at *
  rw [div_eq_div_iff (by linarith) (by linarith)] at h2
  nlinarith

/-- **C81** (partial) What happens instead: all calls use the factors of the first one. -/
theorem C81_constriction_partial (c : ℝ × ℝ) (cs : List (ℝ × ℝ)) :
    ∀ x ∈ chis none (c :: cs), x = chi (c.1 + c.2) := by
  have : ∀ (cs : List (ℝ × ℝ)) (p : ℝ), ∀ x ∈ chis (some p) cs, x = chi p := by
    intro cs
    induction cs with
    | nil => intro p x h; simp [chis] at h
    | cons c cs ih =>
      intro p x h
      simp only [chis, staticPhi, Option.getD_some, List.mem_cons] at h
      rcases h with rfl | h
      · rfl
      · exact ih p x h
  intro x h
  simp only [chis, staticPhi, Option.getD_none, List.mem_cons] at h
  rcases h with rfl | h
  · rfl
  · exact this cs _ x h

/-! ### DefaultInit -/

/-- A bound matrix: number of rows, and its elements in column-major order. -/
structure Bound where
  rows : Nat
  vals : List ℝ

/-- The bounds used for the initial particles (lines 75-88 of default_init.hpp) of an iterate with `rows`
rows and `len` elements.  `lowerBound` and `upperBound` are references to members of the optimizer: the
result is also what the optimizer holds afterwards.  `none`: reading element 0 of empty bounds. -/
noncomputable def useBounds (rows len : Nat) (lo hi : Bound) : Option (Bound × Bound) :=
  match lo.vals, hi.vals with
  | l :: _, u :: _ =>
    if lo.rows = 1 then
      if l = u then some (⟨rows, List.replicate len (-1)⟩, ⟨rows, List.replicate len 1⟩)
      else some (⟨rows, List.replicate len (-l)⟩, ⟨rows, List.replicate len u⟩)
    else some (lo, hi)
  | _, _ => none

/-- One coordinate of a particle (lines 99-101), `r` the random number. -/
def place (r l u : ℝ) : ℝ := r * (u - l) + l

/-- The elements of one initial particle. -/
noncomputable def initial (rows : Nat) (lo hi : Bound) (rs : List ℝ) : Option (List ℝ) :=
  (useBounds rows rs.length lo hi).map fun b =>
    List.zipWith (fun r lu => place r lu.1 lu.2) rs (b.1.vals.zip b.2.vals)

theorem place_mem {r l u : ℝ} (h0 : 0 ≤ r) (h1 : r ≤ 1) (h : l ≤ u) : l ≤ place r l u ∧ place r l u ≤ u := by
  unfold place
  constructor <;> nlinarith

/-- **C25** (refuted) "With scalar bounds all initial coordinates lie between them": the lower bound is negated.
The documentation's own example, bounds 50 and 60. -/
theorem C25_pso_scalar_bounds_refuted :
    ¬ ∀ (l u : ℝ) (rows : Nat) (rs xs : List ℝ), l < u → (∀ r ∈ rs, 0 ≤ r ∧ r ≤ 1) →
      initial rows ⟨1, [l]⟩ ⟨1, [u]⟩ rs = some xs → ∀ x ∈ xs, l ≤ x ∧ x ≤ u := by
  intro h
  have := h 50 60 1 [0] [-50] (by norm_num) (by simp) (by
    simp [initial, useBounds, place]) (-50) (by simp)
  norm_num at this

/-- **C25** (partial; missing: a lower bound other than `-l`) Scalar bounds `l ≠ u` with `-l ≤ u` give
coordinates in `[-l, u]`; equal scalar bounds (the default) give coordinates in `[-1, 1]`. -/
theorem C25_pso_scalar_bounds_partial (l u : ℝ) (rows : Nat) (rs : List ℝ)
    (hr : ∀ r ∈ rs, 0 ≤ r ∧ r ≤ 1) :
    ∃ xs, initial rows ⟨1, [l]⟩ ⟨1, [u]⟩ rs = some xs ∧ xs.length = rs.length ∧
      (l ≠ u → -l ≤ u → ∀ x ∈ xs, -l ≤ x ∧ x ≤ u) ∧ (l = u → ∀ x ∈ xs, -1 ≤ x ∧ x ≤ 1) := by
  have key : ∀ (a b : ℝ), a ≤ b → ∀ x ∈ List.zipWith (fun r (lu : ℝ × ℝ) => place r lu.1 lu.2) rs
      ((List.replicate rs.length a).zip (List.replicate rs.length b)), a ≤ x ∧ x ≤ b := by
    intro a b hab x hx
    rw [List.zip_replicate] at hx
    obtain ⟨r, lu, hr1, hlu, rfl⟩ : ∃ r lu, r ∈ rs ∧ lu = (a, b) ∧ place r lu.1 lu.2 = x := by
      obtain ⟨i, hi, hx⟩ := List.mem_iff_getElem.1 hx
      simp only [List.getElem_zipWith, List.getElem_replicate] at hx
      exact ⟨_, _, List.getElem_mem _, rfl, hx⟩
    subst hlu
    exact place_mem (hr r hr1).1 (hr r hr1).2 hab
  by_cases h : l = u
  · refine ⟨_, by simp only [initial, useBounds, h, if_true, Option.map_some]; rfl, by simp, ?_, ?_⟩
    · intro h'; exact absurd h h'
    · intro _; exact key _ _ (by norm_num)
  · refine ⟨_, by simp only [initial, useBounds, h, if_true, if_false, Option.map_some]; rfl, by simp, ?_, ?_⟩
    · intro _ hle; exact key _ _ hle
    · intro h'; exact absurd h' h

/-- **C25** Bounds given as matrices of the iterate's shape with at least two rows are used as they are: every
initial coordinate lies between its bounds, and the optimizer's bounds are not changed. -/
theorem C25_pso_matrix_bounds (lo hi : Bound) (rows : Nat) (rs : List ℝ) (hrow : lo.rows ≠ 1)
    (hl : lo.vals.length = rs.length) (hu : hi.vals.length = rs.length) (hne : rs ≠ [])
    (hle : ∀ (i : Nat) (l u : ℝ), lo.vals[i]? = some l → hi.vals[i]? = some u → l ≤ u)
    (hr : ∀ r ∈ rs, 0 ≤ r ∧ r ≤ 1) :
    useBounds rows rs.length lo hi = some (lo, hi) ∧
    ∃ xs, initial rows lo hi rs = some xs ∧ xs.length = rs.length ∧
      ∀ (i : Nat) (l u x : ℝ), lo.vals[i]? = some l → hi.vals[i]? = some u → xs[i]? = some x →
        l ≤ x ∧ x ≤ u := by
  have hub : useBounds rows rs.length lo hi = some (lo, hi) := by
    obtain ⟨lr, lv⟩ := lo
    obtain ⟨ur, uv⟩ := hi
    have h0 : rs.length ≠ 0 := fun h => hne (List.length_eq_zero_iff.1 h)
    cases lv with
    | nil => simp only [List.length_nil] at hl; omega
    | cons a lv =>
      cases uv with
      | nil => simp only [List.length_nil] at hu; omega
      | cons b uv => simp only [useBounds]; rw [if_neg hrow]
  refine ⟨hub, _, by rw [initial, hub]; rfl, by simp [hl, hu], ?_⟩
  intro i l u x h1 h2 h3
  rw [List.getElem?_zipWith_eq_some] at h3
  obtain ⟨r, ⟨l', u'⟩, h4, h5, h6⟩ := h3
  rw [List.getElem?_zip_eq_some] at h5
  obtain ⟨h5a, h5b⟩ := h5
  simp only at h5a h5b h6
  rw [h1] at h5a; rw [h2] at h5b
  cases h5a; cases h5b
  subst h6
  have hrr := hr r (List.mem_of_getElem? h4)
  exact place_mem hrr.1 hrr.2 (hle i l u h1 h2)

/-- Non-vacuity: the documentation's second example, bounds (50, 50) and (60, 60). -/
example : ∃ xs, initial 2 ⟨2, [50, 50]⟩ ⟨2, [60, 60]⟩ [0, 1] = some xs ∧ xs = [50, 60] := by
  refine ⟨_, rfl, ?_⟩
  simp [useBounds, place]

/-- **C25** (refuted) "A second run uses the same bounds": for iterates with one row the bounds stored by the
first run are negated again; with the default bounds the whole second swarm starts at 1. -/
theorem C25_pso_reuse_refuted :
    ¬ ∀ (lo hi lo' hi' : Bound) (len : Nat) (b : Bound × Bound), lo.rows = 1 → hi.rows = 1 →
      useBounds 1 len lo hi = some (lo', hi') → useBounds 1 len lo' hi' = some b → b = (lo', hi') := by
  intro h
  have := h ⟨1, [1]⟩ ⟨1, [1]⟩ ⟨1, [-1]⟩ ⟨1, [1]⟩ 1 (⟨1, [1]⟩, ⟨1, [1]⟩) rfl rfl (by simp [useBounds])
    (by simp [useBounds])
  simp only [Prod.mk.injEq, Bound.mk.injEq, List.cons.injEq] at this
  norm_num at this

end Ens.Pso
