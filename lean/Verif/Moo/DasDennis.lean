import Mathlib.Data.Nat.Choose.Basic
import Mathlib.Data.Nat.Choose.Sum
import Mathlib.Algebra.Order.Field.Basic
import Mathlib.Algebra.Order.Field.Rat
import Mathlib.Data.List.Nodup
import Mathlib.Data.List.ProdSigma
import Mathlib.Algebra.BigOperators.Group.List.Basic
import Mathlib.Algebra.BigOperators.Intervals
import Mathlib.Algebra.BigOperators.Ring.List
import Mathlib.Tactic.Linarith
import Mathlib.Tactic.FieldSimp
import Mathlib.Tactic.Ring
import Mathlib.Tactic.NormNum

/-
C38: the uniform weights of MOEA/D (`moead/weight_init_policies/uniform_init.hpp`).
-/

namespace Ens.Moo.DasDennis

/-! ### Model -/

/-- The lambda `BinomialCoefficient` (uniform_init.hpp:86-102). -/
def binomialCoefficient (n k : Nat) : Nat :=
  let k := if n - k < k then n - k else k
  (List.range k).foldl (fun retval i => retval * (n - i) / (i + 1)) 1

/-- `FindNumUniformPoints` (uniform_init.hpp:81-104). -/
def findNumUniformPoints (numObjectives numPartitions : Nat) : Nat :=
  binomialCoefficient (numObjectives + numPartitions - 1) numPartitions

/-- The loop of `FindNumParitions` (uniform_init.hpp:118-125); `none`: out of fuel. -/
def partitionsLoop (numObjectives numPoints : Nat) : Nat → Nat → Nat → Option Nat
  | 0, _, _ => none
  | fuel + 1, numPartitions, sampled =>
    if sampled ≤ numPoints then
      partitionsLoop numObjectives numPoints fuel (numPartitions + 1)
        (findNumUniformPoints numObjectives (numPartitions + 1))
    else some (numPartitions - 1)

/-- `FindNumParitions` (uniform_init.hpp:110-126). The initial value is computed with the two arguments swapped, as in
the code. -/
def findNumPartitions (numObjectives numPoints fuel : Nat) : Option Nat :=
  if numObjectives = 1 then some 0
  else partitionsLoop numObjectives numPoints fuel 1 (findNumUniformPoints 1 numObjectives)

/-- The loop of `DasDennisHelper` (uniform_init.hpp:146-171). A point is kept as the list of its multiples of
`delta`; the head of `stack` is `progressStack.back()`; `out` are the columns written so far (`counter` is their
number). -/
def helper (numObjectives numPoints : Nat) :
    Nat → List (List Nat × Nat) → List (List Nat) → Option (List (List Nat))
  | 0, _, _ => none
  | _ + 1, [], out => some out
  | fuel + 1, (point, beta) :: stack, out =>
    if out.length < numPoints then
      if point.length + 1 = numObjectives then
        helper numObjectives numPoints fuel stack (out ++ [point ++ [beta]])
      else
        helper numObjectives numPoints fuel
          (((List.range (beta + 1)).map fun i => (point ++ [i], beta - i)).reverse ++ stack) out
    else some out

/-- A column of `weights`: `point + epsilon` (uniform_init.hpp:144, 155-157, 166). -/
def column {R : Type} [Field R] (numPartitions : Nat) (epsilon : R) (point : List Nat) : List R :=
  point.map fun (i : Nat) => 1 / (numPartitions : R) * (i : R) + epsilon

/-- `Uniform::Generate` (uniform_init.hpp:51-74) with `DasDennis` (178-202): `none` is the exception; the columns not
written by the helper would be NaN, `nan` lists how many there are. -/
def generate {R : Type} [Field R] (numObjectives numPoints : Nat) (epsilon : R) (fuel : Nat) :
    Option (List (List R)) := do
  let numPartitions ← findNumPartitions numObjectives numPoints fuel
  if numPoints = findNumUniformPoints numObjectives numPartitions then
    let pts ← helper numObjectives numPoints fuel [([], numPartitions)] []
    some (pts.map (column numPartitions epsilon))
  else none

/-! ### The binomial coefficient -/

theorem binomial_fold (n : Nat) : ∀ k, k ≤ n →
    (List.range k).foldl (fun retval i => retval * (n - i) / (i + 1)) 1 = n.choose k := by
  intro k
  induction k with
  | zero => intro _; simp
  | succ k ih =>
    intro hk
    rw [List.range_succ, List.foldl_append, ih (by omega)]
    simp only [List.foldl_cons, List.foldl_nil]
    rw [← Nat.choose_succ_right_eq, Nat.mul_div_cancel _ (Nat.succ_pos k)]

/-- The division-by-division computation gives the exact binomial coefficient. -/
theorem C38_binomial (n k : Nat) (hk : k ≤ n) : binomialCoefficient n k = n.choose k := by
  unfold binomialCoefficient
  simp only
  split_ifs with h
  · rw [binomial_fold n (n - k) (by omega), Nat.choose_symm hk]
  · exact binomial_fold n k hk

theorem findNumUniformPoints_eq (M H : Nat) (hM : 1 ≤ M) :
    findNumUniformPoints M H = (M + H - 1).choose H :=
  C38_binomial _ _ (by omega)

/-- The number of points grows with the number of partitions. -/
theorem points_strictMono (M : Nat) (hM : 2 ≤ M) (H : Nat) :
    (M + H - 1).choose H < (M + (H + 1) - 1).choose (H + 1) := by
  obtain ⟨m, rfl⟩ : ∃ m, M = m + 2 := ⟨M - 2, by omega⟩
  have e1 : m + 2 + H - 1 = m + 1 + H := by omega
  have e2 : m + 2 + (H + 1) - 1 = (m + 1 + H) + 1 := by omega
  rw [e1, e2, Nat.choose_succ_succ' (m + 1 + H) H]
  have : 0 < (m + 1 + H).choose (H + 1) := Nat.choose_pos (by omega)
  omega

theorem points_mono (M : Nat) (hM : 2 ≤ M) {a b : Nat} (h : a < b) :
    (M + a - 1).choose a < (M + b - 1).choose b := by
  induction b with
  | zero => omega
  | succ b ih =>
    rcases Nat.lt_or_eq_of_le (Nat.lt_succ_iff.1 h) with hlt | rfl
    · exact (ih hlt).trans (points_strictMono M hM b)
    · exact points_strictMono M hM a

theorem points_ge (M : Nat) (hM : 2 ≤ M) (H : Nat) : H + 1 ≤ (M + H - 1).choose H := by
  induction H with
  | zero => simp
  | succ H ih => have := points_strictMono M hM H; omega

theorem partitionsLoop_spec (M n : Nat) (hM : 2 ≤ M) (hn : 1 ≤ n) : ∀ (fuel p : Nat), 2 ≤ p → n + 2 ≤ p + fuel →
    (∀ q, 2 ≤ q → q < p → (M + q - 1).choose q ≤ n) →
    ∃ r, partitionsLoop M n fuel p (findNumUniformPoints M p) = some r ∧ 1 ≤ r ∧
      n < (M + (r + 1) - 1).choose (r + 1) ∧ ∀ q, 2 ≤ q → q ≤ r → (M + q - 1).choose q ≤ n := by
  intro fuel
  induction fuel with
  | zero =>
    intro p hp hf hq
    exfalso
    have h1 := points_ge M hM (p - 1)
    rcases Nat.lt_or_ge (p - 1) 2 with h2 | h2
    · omega
    · have h3 := hq (p - 1) h2 (by omega)
      omega
  | succ fuel ih =>
    intro p hp hf hq
    rw [partitionsLoop, findNumUniformPoints_eq M p (by omega)]
    by_cases h : (M + p - 1).choose p ≤ n
    · rw [if_pos h]
      refine ih (p + 1) (by omega) (by omega) ?_
      intro q h1 h2
      rcases Nat.lt_or_eq_of_le (Nat.lt_succ_iff.1 h2) with h3 | rfl
      · exact hq q h1 h3
      · exact h
    · rw [if_neg h]
      refine ⟨p - 1, rfl, by omega, ?_, ?_⟩
      · rw [Nat.sub_add_cancel (by omega)]; omega
      · intro q h1 h2; exact hq q h1 (by omega)

theorem findNumPartitions_spec (M n fuel : Nat) (hM : 2 ≤ M) (hn : 1 ≤ n) (hf : n + 1 ≤ fuel) :
    ∃ r, findNumPartitions M n fuel = some r ∧ 1 ≤ r ∧ n < (M + (r + 1) - 1).choose (r + 1) ∧
      ∀ q, 2 ≤ q → q ≤ r → (M + q - 1).choose q ≤ n := by
  unfold findNumPartitions
  rw [if_neg (by omega)]
  obtain ⟨fuel, rfl⟩ : ∃ k, fuel = k + 1 := ⟨fuel - 1, by omega⟩
  have h1 : findNumUniformPoints 1 M = 1 := by
    rw [findNumUniformPoints_eq 1 M (by omega)]
    simp
  rw [partitionsLoop, h1, if_pos hn]
  exact partitionsLoop_spec M n hM hn fuel 2 (by omega) (by omega) (by omega)

/-! ### The enumeration -/

/-- All completions of `point` in the order in which the loop produces them: `rem + 1` more entries with sum
`beta`. -/
def expand : Nat → List Nat → Nat → List (List Nat)
  | 0, point, beta => [point ++ [beta]]
  | rem + 1, point, beta =>
    ((List.range (beta + 1)).reverse).flatMap fun i => expand rem (point ++ [i]) (beta - i)

/-- Completions of everything on the stack. -/
def expandStack (M : Nat) (stack : List (List Nat × Nat)) : List (List Nat) :=
  stack.flatMap fun e => expand (M - 1 - e.1.length) e.1 e.2

/-- Number of loop passes needed for an entry of the stack. -/
def cost : Nat → Nat → Nat
  | 0, _ => 1
  | rem + 1, beta => 1 + ((List.range (beta + 1)).map fun i => cost rem (beta - i)).sum

def costStack (M : Nat) (stack : List (List Nat × Nat)) : Nat :=
  (stack.map fun e => cost (M - 1 - e.1.length) e.2).sum

theorem helper_spec (M n : Nat) (hM : 1 ≤ M) : ∀ (fuel : Nat) (stack : List (List Nat × Nat))
    (out : List (List Nat)), (∀ e ∈ stack, e.1.length < M) → costStack M stack < fuel →
    out.length + (expandStack M stack).length ≤ n →
    helper M n fuel stack out = some (out ++ expandStack M stack) := by
  intro fuel
  induction fuel with
  | zero => intro stack out _ h; omega
  | succ fuel ih =>
    intro stack out hs hc hn
    cases stack with
    | nil => simp [helper, expandStack]
    | cons e stack =>
      obtain ⟨point, beta⟩ := e
      have hpl : point.length < M := hs (point, beta) (by simp)
      have hstack : ∀ e ∈ stack, e.1.length < M := fun e he => hs e (by simp [he])
      have hcs : costStack M ((point, beta) :: stack) =
          cost (M - 1 - point.length) beta + costStack M stack := by
        simp [costStack]
      have hes : expandStack M ((point, beta) :: stack) =
          expand (M - 1 - point.length) point beta ++ expandStack M stack := by
        simp [expandStack]
      rw [hcs] at hc
      rw [hes, List.length_append] at hn
      by_cases hlast : point.length + 1 = M
      · have h0 : M - 1 - point.length = 0 := by omega
        rw [h0] at hc hn
        simp only [expand, List.length_singleton] at hn
        simp only [cost] at hc
        rw [helper, if_pos (by omega), if_pos hlast,
          ih stack (out ++ [point ++ [beta]]) hstack (by omega)
            (by rw [List.length_append, List.length_singleton]; omega), hes, h0]
        simp [expand]
      · obtain ⟨r, hr⟩ : ∃ r, M - 1 - point.length = r + 1 := ⟨M - 1 - point.length - 1, by omega⟩
        have hr' : ∀ i, M - 1 - (point ++ [i]).length = r := by
          intro i; rw [List.length_append, List.length_singleton]; omega
        rw [hr] at hc hn
        have hes' : expandStack M
            (((List.range (beta + 1)).map fun i => (point ++ [i], beta - i)).reverse ++ stack) =
            expand (r + 1) point beta ++ expandStack M stack := by
          unfold expandStack
          rw [List.flatMap_append]
          congr 1
          rw [← List.map_reverse, List.flatMap_map]
          simp only [hr', expand]
        have hcs' : costStack M
            (((List.range (beta + 1)).map fun i => (point ++ [i], beta - i)).reverse ++ stack) + 1 =
            cost (r + 1) beta + costStack M stack := by
          unfold costStack
          rw [List.map_append, List.sum_append, List.map_reverse, List.sum_reverse, List.map_map]
          simp only [cost, Function.comp_def, hr']
          omega
        have hpos : 0 < (expand (r + 1) point beta).length := by
          have : ∀ (r : Nat) (point : List Nat) (beta : Nat), 0 < (expand r point beta).length := by
            intro r
            induction r with
            | zero => intro point beta; simp [expand]
            | succ r ihr =>
              intro point beta
              rw [expand, List.length_flatMap]
              refine Nat.lt_of_lt_of_le (ihr (point ++ [0]) (beta - 0)) ?_
              refine List.single_le_sum (fun _ _ => Nat.zero_le _) _ ?_
              refine List.mem_map.2 ⟨0, ?_, rfl⟩
              simp
          exact this _ _ _
        rw [helper, if_pos (by omega), if_neg hlast,
          ih _ out ?_ (by omega) (by rw [hes', List.length_append]; omega), hes', hes, hr]
        intro e he
        rcases List.mem_append.1 he with he | he
        · obtain ⟨i, -, rfl⟩ := List.mem_map.1 (List.mem_reverse.1 he)
          simp only [List.length_append, List.length_singleton]; omega
        · exact hstack e he

theorem expand_mem : ∀ (rem : Nat) (point : List Nat) (beta : Nat) (l : List Nat),
    l ∈ expand rem point beta ↔ ∃ t, l = point ++ t ∧ t.length = rem + 1 ∧ t.sum = beta := by
  intro rem
  induction rem with
  | zero =>
    intro point beta l
    rw [expand, List.mem_singleton]
    constructor
    · rintro rfl; exact ⟨[beta], rfl, rfl, by simp⟩
    · rintro ⟨t, rfl, ht, hs⟩
      obtain ⟨a, rfl⟩ := List.length_eq_one_iff.1 ht
      simp at hs; rw [hs]
  | succ rem ih =>
    intro point beta l
    simp only [expand, List.mem_flatMap, List.mem_reverse, List.mem_range, ih]
    constructor
    · rintro ⟨i, hi, t, rfl, ht, hs⟩
      exact ⟨i :: t, by simp, by simp [ht], by simp [hs]; omega⟩
    · rintro ⟨t, rfl, ht, hs⟩
      cases t with
      | nil => simp at ht
      | cons a t =>
        simp only [List.sum_cons] at hs
        exact ⟨a, by omega, t, by simp, by simpa using ht, by omega⟩

theorem expand_nodup : ∀ (rem : Nat) (point : List Nat) (beta : Nat), (expand rem point beta).Nodup := by
  intro rem
  induction rem with
  | zero => intro point beta; simp [expand]
  | succ rem ih =>
    intro point beta
    rw [expand, List.nodup_flatMap]
    refine ⟨fun i _ => ih _ _, ?_⟩
    have hnd : (List.range (beta + 1)).reverse.Nodup := List.nodup_reverse.2 List.nodup_range
    refine hnd.imp ?_
    intro a b hab l hl hl'
    rw [expand_mem] at hl hl'
    obtain ⟨t, rfl, -, -⟩ := hl
    obtain ⟨t', h, -, -⟩ := hl'
    rw [List.append_assoc, List.append_assoc] at h
    have := List.append_cancel_left h
    simp at this
    exact hab this.1

theorem sum_choose (r : Nat) : ∀ beta, ((List.range (beta + 1)).map fun i => (r + i).choose i).sum =
    (r + 1 + beta).choose beta := by
  intro beta
  induction beta with
  | zero => simp
  | succ beta ih =>
    rw [List.range_succ, List.map_append, List.sum_append, ih]
    simp only [List.map_cons, List.map_nil, List.sum_cons, List.sum_nil, Nat.add_zero]
    rw [show r + 1 + (beta + 1) = (r + 1 + beta) + 1 by omega, Nat.choose_succ_succ,
      show r + (beta + 1) = r + 1 + beta by omega]

theorem expand_length : ∀ (rem : Nat) (point : List Nat) (beta : Nat),
    (expand rem point beta).length = (rem + beta).choose beta := by
  intro rem
  induction rem with
  | zero => intro point beta; simp [expand]
  | succ rem ih =>
    intro point beta
    rw [expand, List.length_flatMap, List.map_reverse, List.sum_reverse]
    simp only [ih]
    have : (List.range (beta + 1)).map (fun i => (rem + (beta - i)).choose (beta - i)) =
        ((List.range (beta + 1)).map fun i => (rem + i).choose i).reverse := by
      apply List.ext_getElem
      · simp
      · intro i h1 h2
        simp only [List.length_map, List.length_range] at h1
        simp only [List.getElem_map, List.getElem_range, List.getElem_reverse, List.length_map,
          List.length_range]
        congr 1 <;> omega
    rw [this, List.sum_reverse, sum_choose]

/-! ### C38 -/

variable {R : Type}

/-- **C38** `Generate` throws exactly when the requested number of points is not of the form
`C(numObjectives + p - 1, p)` with `p ≥ 1`. Otherwise it returns that many weight vectors, pairwise different; up to
the added `epsilon` they are exactly the vectors of `numObjectives` non-negative multiples of `1/p` with sum 1. -/
theorem C38_uniform_weights [Field R] [LinearOrder R] [IsStrictOrderedRing R] (M n : Nat) (hM : 2 ≤ M)
    (hn : 1 ≤ n) (epsilon : R) :
    ((∀ p, 1 ≤ p → n ≠ (M + p - 1).choose p) → ∃ F, ∀ fuel, F ≤ fuel →
      generate M n epsilon fuel = none) ∧
    (∀ p, 1 ≤ p → n = (M + p - 1).choose p → ∃ F, ∀ fuel, F ≤ fuel → ∃ cols,
      generate M n epsilon fuel = some cols ∧ cols.length = n ∧ cols.Nodup ∧
      ∀ v : List R, v ∈ cols ↔ ∃ t : List Nat, t.length = M ∧ t.sum = p ∧
        v = t.map fun (i : Nat) => (i : R) / (p : R) + epsilon) := by
  constructor
  · intro hp
    refine ⟨n + 1, fun fuel hf => ?_⟩
    obtain ⟨r, hr, hr1, -, -⟩ := findNumPartitions_spec M n fuel hM hn hf
    unfold generate
    rw [hr]
    simp only [Option.bind_eq_bind, Option.bind_some]
    rw [if_neg]
    rw [findNumUniformPoints_eq M r (by omega)]
    exact hp r hr1
  · intro p hp1 hnp
    refine ⟨max (n + 1) (cost (M - 1) p + 1), fun fuel hf => ?_⟩
    have hf1 : n + 1 ≤ fuel := le_trans (le_max_left _ _) hf
    have hf2 : cost (M - 1) p + 1 ≤ fuel := le_trans (le_max_right _ _) hf
    obtain ⟨r, hr, hr1, hrn, hrq⟩ := findNumPartitions_spec M n fuel hM hn hf1
    have hrp : r = p := by
      rcases Nat.lt_trichotomy r p with h | h | h
      · exfalso
        rcases Nat.lt_or_eq_of_le (show r + 1 ≤ p from h) with h' | h'
        · have := points_mono M hM h'; omega
        · rw [h'] at hrn; omega
      · exact h
      · exfalso
        have h2 := hrq r (by omega) (le_refl _)
        have := points_mono M hM h
        omega
    subst hrp
    have hlen : (expandStack M [([], r)]).length = n := by
      simp only [expandStack, List.flatMap_cons, List.flatMap_nil, List.append_nil, List.length_nil,
        Nat.sub_zero, expand_length]
      rw [hnp]
      congr 1; omega
    have hh := helper_spec M n (by omega) fuel [([], r)] [] (by simp; omega)
      (by simp [costStack]; omega) (by rw [hlen]; simp)
    refine ⟨(expandStack M [([], r)]).map (column r epsilon), ?_, ?_, ?_, ?_⟩
    · unfold generate
      rw [hr]
      simp only [Option.bind_eq_bind, Option.bind_some]
      rw [if_pos (by rw [findNumUniformPoints_eq M r (by omega)]; exact hnp), hh]
      simp
    · rw [List.length_map, hlen]
    · have hr0 : (r : R) ≠ 0 := Nat.cast_ne_zero.2 (by omega)
      refine (List.nodup_map_iff ?_).2 ?_
      · intro a b h
        have hinj : Function.Injective fun (i : Nat) => 1 / (r : R) * (i : R) + epsilon := by
          intro i j hij
          have hij : 1 / (r : R) * (i : R) + epsilon = 1 / (r : R) * (j : R) + epsilon := hij
          have h1 : 1 / (r : R) * (i : R) = 1 / (r : R) * (j : R) := add_right_cancel hij
          have h2 : (1 : R) / r ≠ 0 := one_div_ne_zero hr0
          exact_mod_cast mul_left_cancel₀ h2 h1
        exact hinj.list_map h
      · simp only [expandStack, List.flatMap_cons, List.flatMap_nil, List.append_nil]
        exact expand_nodup _ _ _
    · intro v
      simp only [expandStack, List.flatMap_cons, List.flatMap_nil, List.append_nil, List.mem_map,
        expand_mem, List.nil_append, List.length_nil, Nat.sub_zero]
      have hcol : ∀ t : List Nat, column r epsilon t = t.map fun (i : Nat) => (i : R) / (r : R) + epsilon := by
        intro t
        unfold column
        apply List.map_congr_left
        intro i _
        rw [one_div_mul_eq_div]
      constructor
      · rintro ⟨l, ⟨t, rfl, ht, hs⟩, rfl⟩
        exact ⟨l, by omega, hs, hcol l⟩
      · rintro ⟨t, ht, hs, rfl⟩
        exact ⟨t, ⟨t, rfl, by omega, hs⟩, hcol t⟩

theorem sum_weights [Field R] [LinearOrder R] [IsStrictOrderedRing R] (p : R) (epsilon : R) (t : List Nat) :
    (t.map fun (i : Nat) => (i : R) / p + epsilon).sum = (t.sum : Nat) / p + t.length * epsilon := by
  induction t with
  | nil => simp
  | cons a t ih =>
    rw [List.map_cons, List.sum_cons, ih, List.sum_cons, List.length_cons]
    push_cast
    ring

/-- **C38** (partial) Each weight is at least `epsilon` and the weights of a vector add up to
`1 + numObjectives * epsilon`. -/
theorem C38_weights_sum_partial [Field R] [LinearOrder R] [IsStrictOrderedRing R] (M n p : Nat) (hM : 2 ≤ M)
    (hp : 1 ≤ p) (hnp : n = (M + p - 1).choose p) (epsilon : R) :
    ∃ F, ∀ fuel, F ≤ fuel → ∃ cols, generate M n epsilon fuel = some cols ∧
      ∀ v ∈ cols, v.length = M ∧ (∀ a ∈ v, epsilon ≤ a) ∧ v.sum = 1 + M * epsilon := by
  have hn : 1 ≤ n := by rw [hnp]; exact Nat.choose_pos (by omega)
  obtain ⟨F, hF⟩ := (C38_uniform_weights M n hM hn epsilon).2 p hp hnp
  refine ⟨F, fun fuel hf => ?_⟩
  obtain ⟨cols, hg, -, -, hmem⟩ := hF fuel hf
  refine ⟨cols, hg, ?_⟩
  intro v hv
  obtain ⟨t, ht, hs, rfl⟩ := (hmem v).1 hv
  have hp0 : (0 : R) < p := Nat.cast_pos.2 (by omega)
  refine ⟨by simp [ht], ?_, ?_⟩
  · intro a ha
    obtain ⟨i, -, rfl⟩ := List.mem_map.1 ha
    have : (0 : R) ≤ (i : R) / p := div_nonneg (Nat.cast_nonneg i) hp0.le
    linarith
  · rw [sum_weights, hs, ht, div_self hp0.ne']

/-- **C38** (refuted) "Each weight vector sums to 1": with the default positive `epsilon` it does not. -/
theorem C38_weights_sum_refuted :
    ¬ ∀ (M n fuel : Nat) (epsilon : ℚ) (cols : List (List ℚ)), 0 < epsilon →
      generate M n epsilon fuel = some cols → ∀ v ∈ cols, v.sum = 1 := by
  intro h
  obtain ⟨F, hF⟩ := C38_weights_sum_partial 2 3 2 (by decide) (by decide) (by decide) (1 / 10 ^ 10 : ℚ)
  obtain ⟨F', hF'⟩ := (C38_uniform_weights 2 3 (by decide) (by decide) (1 / 10 ^ 10 : ℚ)).2 2 (by decide)
    (by decide)
  obtain ⟨cols, hg, hv⟩ := hF (max F F') (le_max_left _ _)
  obtain ⟨cols', hg', hl, -⟩ := hF' (max F F') (le_max_right _ _)
  rw [hg] at hg'
  cases hg'
  cases cols with
  | nil => simp at hl
  | cons v cols =>
    have h1 := h 2 3 _ _ _ (by norm_num) hg v (by simp)
    have h2 := (hv v (by simp)).2.2
    rw [h1] at h2
    norm_num at h2

/-- Non-vacuity: six weight vectors for three objectives. -/
example : (generate 3 6 (0 : ℚ) 40) = some [[1, 0, 0], [1 / 2, 1 / 2, 0], [1 / 2, 0, 1 / 2],
    [0, 1, 0], [0, 1 / 2, 1 / 2], [0, 0, 1]] := by decide +kernel

end Ens.Moo.DasDennis
