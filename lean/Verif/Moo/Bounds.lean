import Mathlib.Algebra.Order.Ring.Rat
import Mathlib.Order.MinMax
import Verif.Pso.Policy

/-
The bounds held by NSGA2, AGEMOEA and MOEA/D objects, over a sequence of `Optimize` calls (C309).

`lowerBound` and `upperBound` are members of type `arma::vec` (nsga2.hpp:368-371, agemoea.hpp:466-469,
moead.hpp:310-313); `Optimize` overwrites them.
-/

namespace Ens.Moo.Bounds

variable {K : Type}

/-- The members `lowerBound` and `upperBound`: the elements of two column vectors. -/
structure Box (K : Type) where
  lower : List K
  upper : List K

/-- The constructors with scalar bounds (nsga2_impl.hpp:59-60, agemoea_impl.hpp:58-59, moead_impl.hpp:75-76). -/
def Box.scalar (l u : K) : Box K := ⟨[l], [u]⟩

/-- A bound with one row becomes a constant of the shape of the coordinates (nsga2_impl.hpp:90-96,
agemoea_impl.hpp:89-95, moead_impl.hpp:126-132). `none`: the exception of Armadillo when a matrix with several
columns is assigned to a column vector. (0 x 0 coordinates, which Armadillo would accept, count as an exception.) -/
def widen (b : List K) (rows cols : Nat) : Option (List K) :=
  match b with
  | [a] => if cols = 1 then some (List.replicate rows a) else none
  | _ => some b

/-- The treatment of the bounds by one call on coordinates with `rows` rows and `cols` columns: the two
assignments, the assertions on the numbers of rows (nsga2_impl.hpp:98-102, agemoea_impl.hpp:97-101,
moead_impl.hpp:134-138), and the first `arma::max` of an individual and the bound (nsga2_impl.hpp:138,
agemoea_impl.hpp:137, moead_impl.hpp:174), which throws if their shapes differ. `none`: no result. The result is
what the call uses and what the object holds afterwards. (The population is not empty.) -/
def Box.prepare (o : Box K) (rows cols : Nat) : Option (Box K) := do
  let lo ← widen o.lower rows cols
  let hi ← widen o.upper rows cols
  if lo.length = rows ∧ hi.length = rows ∧ cols = 1 then some ⟨lo, hi⟩ else none

/-- The object after calls on coordinates of the given shapes, `none` if one of them fails. -/
def Box.after (o : Box K) : List (Nat × Nat) → Option (Box K)
  | [] => some o
  | c :: cs => (o.prepare c.1 c.2).bind fun o' => o'.after cs

/-- `arma::min(arma::max(x, lowerBound), upperBound)` (nsga2_impl.hpp:138, 334; agemoea_impl.hpp:137-138, 424;
moead_impl.hpp:174, 401). -/
def Box.clamp [LinearOrder K] (o : Box K) (x : List K) : List K :=
  List.zipWith (fun x b => min (max x b.1) b.2) x (o.lower.zip o.upper)

/-! ### Scalar bounds -/

theorem prepare_constant (l u : K) (k rows cols : Nat) :
    (⟨List.replicate k l, List.replicate k u⟩ : Box K).prepare rows cols =
      if cols = 1 ∧ (k = 1 ∨ rows = k) then some ⟨List.replicate rows l, List.replicate rows u⟩ else none := by
  by_cases hk : k = 1
  · subst hk
    by_cases hc : cols = 1
    · simp [Box.prepare, widen, hc]
    · simp [Box.prepare, widen, hc]
  · have hw : ∀ a : K, widen (List.replicate k a) rows cols = some (List.replicate k a) := by
      intro a
      match k, hk with
      | 0, _ => rfl
      | 1, h => exact absurd rfl h
      | k + 2, _ => rfl
    simp only [Box.prepare, hw, Option.bind_eq_bind, Option.bind_some, List.length_replicate, hk, false_or]
    by_cases hr : rows = k
    · subst hr
      by_cases hc : cols = 1
      · simp [hc]
      · simp [hc]
    · have : ¬ k = rows := fun h => hr h.symm
      simp [hr, this]

theorem scalar_eq (l u : K) : Box.scalar l u = ⟨List.replicate 1 l, List.replicate 1 u⟩ := rfl

/-- **C309** A new object with scalar bounds takes every column of coordinates, and its bounds are then the
scalars in every row; coordinates with several columns are never accepted. -/
theorem C309_first (l u : K) (rows cols : Nat) :
    (Box.scalar l u).prepare rows cols =
      if cols = 1 then some ⟨List.replicate rows l, List.replicate rows u⟩ else none := by
  rw [scalar_eq, prepare_constant]
  simp

theorem after_constant (l u : K) : ∀ (cs : List (Nat × Nat)) (k : Nat) (o : Box K),
    (⟨List.replicate k l, List.replicate k u⟩ : Box K).after cs = some o →
      ∃ n, o = ⟨List.replicate n l, List.replicate n u⟩
  | [], k, o, h => ⟨k, (Option.some.inj h).symm⟩
  | c :: cs, k, o, h => by
    rw [Box.after, prepare_constant] at h
    split_ifs at h with hc
    · exact after_constant l u cs c.1 o h
    · simp at h

/-- **C309** (refuted) "An object constructed with scalar bounds can be reused": after a run with two variables
the same object does not take three, which a new one takes. -/
theorem C309_reuse_refuted :
    ¬ ∀ (l u : Rat) (cs : List (Nat × Nat)) (o : Box Rat) (rows cols : Nat), l < u →
      (Box.scalar l u).after cs = some o → (o.prepare rows cols).isSome = ((Box.scalar l u).prepare rows cols).isSome := by
  intro h
  have := h 0 1 [(2, 1)] ⟨[0, 0], [1, 1]⟩ 3 1 (by norm_num) rfl
  exact absurd this (by decide)

/-- **C309** (partial; missing: a change of the number of variables) A later call that is accepted uses the bounds
a new object would use, whatever the earlier calls were. -/
theorem C309_reuse_partial (l u : K) (cs : List (Nat × Nat)) (o o' : Box K) (rows cols : Nat)
    (h : (Box.scalar l u).after cs = some o) (h' : o.prepare rows cols = some o') :
    (Box.scalar l u).prepare rows cols = some o' := by
  obtain ⟨n, rfl⟩ := after_constant l u cs 1 o h
  rw [prepare_constant] at h'
  rw [C309_first]
  split_ifs at h' with hc
  · rw [if_pos hc.1, h']

example : ∃ o o', (Box.scalar (0 : Rat) 1).after [(1, 1), (2, 1), (2, 1)] = some o ∧ o.prepare 2 1 = some o' ∧
    o'.lower = [0, 0] := ⟨_, _, rfl, rfl, rfl⟩

theorem after_isSome (l u : K) (n : Nat) (hn : n ≠ 1) : ∀ cs : List (Nat × Nat),
    ((⟨List.replicate n l, List.replicate n u⟩ : Box K).after cs).isSome ↔
      cs = List.replicate cs.length (n, 1)
  | [] => by simp [Box.after]
  | c :: cs => by
    obtain ⟨r, k⟩ := c
    rw [Box.after, prepare_constant]
    by_cases h : k = 1 ∧ (n = 1 ∨ r = n)
    · obtain ⟨rfl, h2⟩ := h
      have hr : r = n := h2.resolve_left hn
      subst hr
      simp only [or_true, and_self, if_true, Option.bind_some, List.length_cons, List.replicate_succ,
        List.cons.injEq, true_and]
      exact after_isSome l u r hn cs
    · rw [if_neg h]
      simp only [Option.bind_none, Option.isSome_none, Bool.false_eq_true, List.length_cons, List.replicate_succ,
        List.cons.injEq, Prod.mk.injEq, false_iff, not_and]
      intro h1
      exact absurd ⟨h1.2, Or.inr h1.1⟩ h

/-- **C309** Exactly these sequences of calls are accepted: any number of calls with one variable, then any
number of calls with one and the same number of variables. -/
theorem C309_accepted (l u : K) : ∀ cs : List (Nat × Nat),
    ((Box.scalar l u).after cs).isSome ↔
      ∃ k m n : Nat, cs = List.replicate k (1, 1) ++ List.replicate m (n, 1)
  | [] => by
    simp only [Box.after, Option.isSome_some, true_iff]
    exact ⟨0, 0, 0, rfl⟩
  | (r, c) :: cs => by
    rw [Box.after, C309_first]
    by_cases hc : c = 1
    · subst hc
      simp only [if_true, Option.bind_some]
      by_cases hr : r = 1
      · subst hr
        have := C309_accepted l u cs
        rw [scalar_eq] at this
        rw [this]
        constructor
        · rintro ⟨k, m, n, rfl⟩
          exact ⟨k + 1, m, n, rfl⟩
        · rintro ⟨k, m, n, h⟩
          cases k with
          | zero =>
            cases m with
            | zero => simp at h
            | succ m =>
              rw [List.replicate_succ] at h
              simp only [List.replicate_zero, List.nil_append, List.cons.injEq] at h
              exact ⟨0, m, n, h.2⟩
          | succ k =>
            rw [List.replicate_succ] at h
            simp only [List.cons_append, List.cons.injEq, true_and] at h
            exact ⟨k, m, n, h⟩
      · rw [after_isSome l u r hr]
        constructor
        · intro h
          refine ⟨0, cs.length + 1, r, ?_⟩
          rw [List.replicate_zero, List.nil_append, List.replicate_succ, ← h]
        · rintro ⟨k, m, n, h⟩
          cases k with
          | zero =>
            cases m with
            | zero => simp at h
            | succ m =>
              rw [List.replicate_succ] at h
              simp only [List.replicate_zero, List.nil_append, List.cons.injEq, Prod.mk.injEq, and_true] at h
              obtain ⟨rfl, rfl⟩ := h
              simp
          | succ k =>
            rw [List.replicate_succ] at h
            simp only [List.cons_append, List.cons.injEq, Prod.mk.injEq] at h
            exact absurd h.1.1 hr
    · rw [if_neg hc]
      simp only [Option.bind_none, Option.isSome_none, Bool.false_eq_true, false_iff, not_exists]
      intro k m n h
      have h0 : (r, c) ∈ List.replicate k (1, 1) ++ List.replicate m (n, 1) := by rw [← h]; simp
      rw [List.mem_append] at h0
      rcases h0 with h0 | h0
      · exact hc (congrArg Prod.snd (List.eq_of_mem_replicate h0))
      · exact hc (congrArg Prod.snd (List.eq_of_mem_replicate h0))

/-- Both sides of `C309_accepted` occur. -/
example : ((Box.scalar (0 : Rat) 1).after [(1, 1), (3, 1), (3, 1)]).isSome = true ∧
    ((Box.scalar (0 : Rat) 1).after [(3, 1), (1, 1)]).isSome = false := ⟨rfl, rfl⟩

/-! ### Bounds given for every variable -/

/-- **C309** Bounds of `n ≠ 1` rows are used and kept as they are: exactly the calls on columns of `n` coordinates
are accepted, and they do not change the object. -/
theorem C309_vector (lo hi : List K) (n : Nat) (hn : n ≠ 1) (hl : lo.length = n) (hu : hi.length = n)
    (rows cols : Nat) :
    (⟨lo, hi⟩ : Box K).prepare rows cols = if rows = n ∧ cols = 1 then some ⟨lo, hi⟩ else none := by
  have hw : ∀ b : List K, b.length = n → widen b rows cols = some b := by
    intro b hb
    match b, hb with
    | [], _ => rfl
    | [a], hb => exact absurd hb.symm hn
    | a :: b :: l, _ => rfl
  simp only [Box.prepare, hw lo hl, hw hi hu, Option.bind_eq_bind, Option.bind_some, hl, hu]
  by_cases hr : rows = n
  · subst hr
    simp
  · have : ¬ n = rows := fun h => hr h.symm
    simp [hr, this]

/-- **C309** Bounds of different numbers of rows, neither of them 1, are never accepted. -/
theorem C309_vector_mismatch (lo hi : List K) (hl : lo.length ≠ 1) (hu : hi.length ≠ 1)
    (hne : lo.length ≠ hi.length) (rows cols : Nat) : (⟨lo, hi⟩ : Box K).prepare rows cols = none := by
  have hw : ∀ b : List K, b.length ≠ 1 → widen b rows cols = some b := by
    intro b hb
    match b, hb with
    | [], _ => rfl
    | [a], hb => exact absurd rfl hb
    | a :: b :: l, _ => rfl
  simp only [Box.prepare, hw lo hl, hw hi hu, Option.bind_eq_bind, Option.bind_some]
  refine if_neg fun h => hne (h.1.trans h.2.1.symm)

example : (⟨[0, -1], [1, 2, 3]⟩ : Box Rat).prepare 2 1 = none :=
  C309_vector_mismatch [0, -1] [1, 2, 3] (by decide) (by decide) (by decide) 2 1

example : (⟨[0, -1], [1, 2]⟩ : Box Rat).prepare 2 1 = some ⟨[0, -1], [1, 2]⟩ ∧
    (⟨[0, -1], [1, 2]⟩ : Box Rat).prepare 3 1 = none := by
  constructor
  · rw [C309_vector [0, -1] [1, 2] 2 (by decide) rfl rfl]; rfl
  · rw [C309_vector [0, -1] [1, 2] 2 (by decide) rfl rfl]; rfl

/-! ### The individuals -/

/-- **C309** With scalar bounds `l ≤ u`, whatever the accepted calls before: an individual of the length of the
coordinates keeps its length when clamped, all its genes are then in `[l, u]`, and those that were are unchanged. -/
theorem C309_inside [LinearOrder K] (l u : K) (hlu : l ≤ u) (cs : List (Nat × Nat)) (o o' : Box K)
    (rows cols : Nat) (h : (Box.scalar l u).after cs = some o) (h' : o.prepare rows cols = some o')
    (x : List K) (hx : x.length = rows) :
    (o'.clamp x).length = rows ∧ (∀ y ∈ o'.clamp x, l ≤ y ∧ y ≤ u) ∧
      ((∀ y ∈ x, l ≤ y ∧ y ≤ u) → o'.clamp x = x) := by
  have h1 := C309_reuse_partial l u cs o o' rows cols h h'
  rw [C309_first] at h1
  split_ifs at h1
  cases h1
  have hc : (⟨List.replicate rows l, List.replicate rows u⟩ : Box K).clamp x = x.map fun y => min (max y l) u := by
    rw [Box.clamp]
    simp only [List.zip_replicate, min_self]
    clear h h'
    induction x generalizing rows with
    | nil => simp
    | cons a x ih =>
      cases rows with
      | zero => simp at hx
      | succ r =>
        rw [List.replicate_succ, List.zipWith_cons_cons, List.map_cons, ih r (by simpa using hx)]
  rw [hc]
  refine ⟨by simpa using hx, ?_, ?_⟩
  · intro y hy
    obtain ⟨z, -, rfl⟩ := List.mem_map.1 hy
    exact ⟨le_min (le_max_right _ _) hlu, min_le_right _ _⟩
  · intro hin
    refine (List.map_congr_left ?_).trans (List.map_id x)
    intro y hy
    rw [max_eq_left (hin y hy).1, min_eq_left (hin y hy).2]
    rfl

example : ∃ o o', (Box.scalar (0 : Rat) 1).after [(2, 1)] = some o ∧ o.prepare 2 1 = some o' ∧
    o'.clamp [5, -3] = [1, 0] := ⟨_, _, rfl, rfl, by decide +kernel⟩

/-! ### PSO -/

/-- The assertions after the treatment of the bounds (default_init.hpp:90-94). -/
noncomputable def psoPrepare (rows cols : Nat) (lo hi : Pso.Bound) : Option (Pso.Bound × Pso.Bound) :=
  (Pso.useBounds rows (rows * cols) lo hi).bind fun b =>
    if b.1.rows = rows ∧ b.2.rows = rows then some b else none

/-- **C309** (refuted) The same holds for PSO with the default bounds: a swarm object that has run with two
variables does not take three. -/
theorem C309_pso_refuted :
    ¬ ∀ (lo hi lo' hi' : Pso.Bound) (r r' : Nat), psoPrepare r 1 lo hi = some (lo', hi') →
      (psoPrepare r' 1 lo hi).isSome → (psoPrepare r' 1 lo' hi').isSome := by
  intro h
  have := h ⟨1, [1]⟩ ⟨1, [1]⟩ ⟨2, [-1, -1]⟩ ⟨2, [1, 1]⟩ 2 3 (by simp [psoPrepare, Pso.useBounds])
    (by simp [psoPrepare, Pso.useBounds])
  simp [psoPrepare, Pso.useBounds] at this

/-- **C309** (partial; missing: one row, see `C25_pso_reuse_refuted`, and other shapes) With at least two rows a
second call of PSO on coordinates of the same shape uses the bounds of the first. -/
theorem C309_pso_partial (lo hi : Pso.Bound) (b : Pso.Bound × Pso.Bound) (rows cols : Nat) (hr : 2 ≤ rows)
    (hc : 0 < cols) (h : psoPrepare rows cols lo hi = some b) :
    psoPrepare rows cols b.1 b.2 = some b := by
  obtain ⟨lr, lv⟩ := lo
  obtain ⟨ur, uv⟩ := hi
  obtain ⟨n, hn⟩ : ∃ n, rows * cols = n + 1 := ⟨rows * cols - 1, by
    have := Nat.mul_pos (show 0 < rows by omega) hc
    omega⟩
  unfold psoPrepare at h ⊢
  rw [hn] at h ⊢
  cases lv with
  | nil => simp [Pso.useBounds] at h
  | cons l lv =>
    cases uv with
    | nil => simp [Pso.useBounds] at h
    | cons u uv =>
      have hr1 : ¬ rows = 1 := by omega
      by_cases h1 : lr = 1
      · by_cases h2 : l = u
        · simp only [Pso.useBounds, h1, h2, if_true, Option.bind_some, and_self] at h
          cases h
          simp [Pso.useBounds, hr1, List.replicate_succ]
        · simp only [Pso.useBounds, h1, h2, if_true, if_false, Option.bind_some, and_self] at h
          cases h
          simp [Pso.useBounds, hr1, List.replicate_succ]
      · simp only [Pso.useBounds, h1, if_false, Option.bind_some] at h
        split_ifs at h with h3
        cases h
        obtain ⟨h4, h5⟩ := h3
        simp [Pso.useBounds, h4, h5, hr1]

example : psoPrepare 2 1 ⟨1, [3]⟩ ⟨1, [4]⟩ = some (⟨2, [-3, -3]⟩, ⟨2, [4, 4]⟩) := by
  norm_num [psoPrepare, Pso.useBounds, List.replicate_succ]

end Ens.Moo.Bounds
