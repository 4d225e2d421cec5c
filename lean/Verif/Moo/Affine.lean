import Mathlib.Tactic.FieldSimp
import Mathlib.Tactic.Ring
import Verif.Moo.Crowding

/-
NSGA2 and changes of the objectives (`nsga2/nsga2_impl.hpp`): property C281.
-/

namespace Ens.Moo

variable {W I R : Type}

/-! ### Sorting depends on the dominance of the members only -/

theorem relax_congr {n i : Nat} {s s' : SortSt × List Nat} (hr : s.1.ranks = s'.1.ranks) (hl : s.2 = s'.2)
    (hc : ∀ q < n, s.1.count q = s'.1.count q) {q : Nat} (hq : q < n) :
    (relax i s q).1.ranks = (relax i s' q).1.ranks ∧ (relax i s q).2 = (relax i s' q).2 ∧
      ∀ p < n, (relax i s q).1.count p = (relax i s' q).1.count p := by
  unfold relax
  simp only [hc q hq, hr, hl]
  split
  · refine ⟨rfl, rfl, fun p hp => ?_⟩
    simp only [Function.update_apply]
    split
    · rfl
    · exact hc p hp
  · refine ⟨rfl, rfl, fun p hp => ?_⟩
    simp only [Function.update_apply]
    split
    · rfl
    · exact hc p hp

theorem relaxAll_congr {n i : Nat} : ∀ (l : List Nat) {s s' : SortSt × List Nat}, (∀ q ∈ l, q < n) →
    s.1.ranks = s'.1.ranks → s.2 = s'.2 → (∀ q < n, s.1.count q = s'.1.count q) →
    (l.foldl (relax i) s).1.ranks = (l.foldl (relax i) s').1.ranks ∧ (l.foldl (relax i) s).2 = (l.foldl (relax i) s').2 ∧
      ∀ p < n, (l.foldl (relax i) s).1.count p = (l.foldl (relax i) s').1.count p
  | [], _, _, _, hr, hl, hc => ⟨hr, hl, hc⟩
  | q :: l, s, s', hlt, hr, hl, hc => by
    obtain ⟨h1, h2, h3⟩ := relax_congr (i := i) hr hl hc (hlt q (by simp))
    exact relaxAll_congr l (fun p hp => hlt p (by simp [hp])) h1 h2 h3

theorem relaxAll_lt {n i : Nat} : ∀ (l : List Nat) {s : SortSt × List Nat}, (∀ q ∈ l, q < n) → (∀ q ∈ s.2, q < n) →
    ∀ q ∈ (l.foldl (relax i) s).2, q < n
  | [], _, _, h => h
  | p :: l, s, hlt, h => by
    refine relaxAll_lt l (fun q hq => hlt q (by simp [hq])) ?_
    unfold relax
    dsimp only
    split
    · intro q hq
      rcases List.mem_append.1 hq with hq | hq
      · exact h q hq
      · rw [List.mem_singleton.1 hq]
        exact hlt p (by simp)
    · exact h

theorem dominated_congr {dom dom' : Nat → Nat → Bool} {n : Nat} (h : ∀ p < n, ∀ q < n, dom p q = dom' p q) {p : Nat} (hp : p < n) :
    dominated dom n p = dominated dom' n p :=
  List.filter_congr fun q hq => h p hp q (List.mem_range.1 hq)

theorem dominated_lt {dom : Nat → Nat → Bool} {n p : Nat} : ∀ q ∈ dominated dom n p, q < n := by
  intro q hq
  exact List.mem_range.1 (List.mem_filter.1 hq).1

theorem nextFront_congr {dom dom' : Nat → Nat → Bool} {n i : Nat} (h : ∀ p < n, ∀ q < n, dom p q = dom' p q) :
    ∀ (front : List Nat) {s s' : SortSt × List Nat}, (∀ q ∈ front, q < n) → (∀ q ∈ s.2, q < n) →
    s.1.ranks = s'.1.ranks → s.2 = s'.2 → (∀ q < n, s.1.count q = s'.1.count q) →
    let r := front.foldl (fun s p => (dominated dom n p).foldl (relax i) s) s
    let r' := front.foldl (fun s p => (dominated dom' n p).foldl (relax i) s) s'
    r.1.ranks = r'.1.ranks ∧ r.2 = r'.2 ∧ (∀ p < n, r.1.count p = r'.1.count p) ∧ ∀ q ∈ r.2, q < n
  | [], _, _, _, hs, hr, hl, hc => ⟨hr, hl, hc, hs⟩
  | p :: front, s, s', hlt, hs, hr, hl, hc => by
    dsimp only
    rw [List.foldl_cons, List.foldl_cons, ← dominated_congr h (hlt p (by simp))]
    obtain ⟨h1, h2, h3⟩ := relaxAll_congr (i := i) (dominated dom n p) dominated_lt hr hl hc
    exact nextFront_congr h front (fun q hq => hlt q (by simp [hq])) (relaxAll_lt _ dominated_lt hs) h1 h2 h3

theorem sortLoop_congr {dom dom' : Nat → Nat → Bool} {n : Nat} (h : ∀ p < n, ∀ q < n, dom p q = dom' p q) :
    ∀ (fuel : Nat) (fs : List (List Nat)) (front : List Nat) (s s' : SortSt), (∀ q ∈ front, q < n) → s.ranks = s'.ranks →
    (∀ q < n, s.count q = s'.count q) → sortLoop dom n fuel fs front s = sortLoop dom' n fuel fs front s'
  | 0, _, _, _, _, _, _, _ => rfl
  | fuel + 1, fs, front, s, s', hlt, hr, hc => by
    unfold sortLoop
    split
    · rw [hr]
    · obtain ⟨h1, h2, h3, h4⟩ := nextFront_congr (i := fs.length) h front (s := (s, [])) (s' := (s', [])) hlt (by simp) hr rfl hc
      dsimp only
      unfold nextFront
      rw [← h2]
      exact sortLoop_congr h fuel _ _ _ _ h4 h1 h3

theorem sort_congr {dom dom' : Nat → Nat → Bool} {n : Nat} (h : ∀ p < n, ∀ q < n, dom p q = dom' p q) (fuel : Nat)
    (ranks₀ : Nat → Nat) : fastNonDominatedSort dom n fuel ranks₀ = fastNonDominatedSort dom' n fuel ranks₀ := by
  have hc : ∀ p < n, dominationCount dom n p = dominationCount dom' n p := by
    intro p hp
    unfold dominationCount
    congr 1
    apply List.countP_congr
    intro q hq
    have hq := List.mem_range.1 hq
    rw [h p hp q hq, h q hq p hp]
  have hf : firstFront dom n = firstFront dom' n := by
    unfold firstFront
    apply List.filter_congr
    intro p hp
    rw [hc p (List.mem_range.1 hp)]
  unfold fastNonDominatedSort
  dsimp only
  rw [← hf]
  refine sortLoop_congr h fuel _ _ _ _ ?_ rfl hc
  intro q hq
  exact List.mem_range.1 (List.mem_filter.1 hq).1

/-! ### Objectives -/

section

variable [Field R] [LinearOrder R] [IsStrictOrderedRing R]

/-- Entries `(i, k)` with `D i k` of the second table are the image of those of the first. -/
def Image (a c : Nat → R) (D : Nat → Nat → Prop) (o o' : Nat → Nat → R) : Prop := ∀ i k, D i k → o' i k = a k * o i k + c k

/-- The same environment with objective `k` replaced by `a k * f + c k`. -/
def Env.rescale (env : Env W I R) (a c : Nat → R) : Env W I R :=
  { env with evaluate := fun w k x => ((env.evaluate w k x).1, a k * (env.evaluate w k x).2 + c k) }

omit [LinearOrder R] [IsStrictOrderedRing R] in
theorem image_set {a c : Nat → R} {D : Nat → Nat → Prop} {o o' : Nat → Nat → R} (h : Image a c D o o') (i k : Nat) (v : R) :
    Image a c (fun i' k' => D i' k' ∨ i' = i ∧ k' = k) (setObj o i k v) (setObj o' i k (a k * v + c k)) := by
  intro i' k' hd
  rw [setObj_eq, setObj_eq]
  by_cases hh : i' = i ∧ k' = k
  · rw [if_pos hh, if_pos hh, hh.2]
  · rw [if_neg hh, if_neg hh]
    exact h _ _ (hd.resolve_right hh)

omit [LinearOrder R] [IsStrictOrderedRing R] in
theorem evaluate_image (ev : W → Nat → I → W × R) (a c : Nat → R) (pop : List I) : ∀ (rem k : Nat) (D : Nat → Nat → Prop)
    (s s' : W × (Nat → Nat → R)), s.1 = s'.1 → Image a c D s.2 s'.2 →
    (evaluateObjectives ev pop rem k s).1 =
      (evaluateObjectives (fun w k x => ((ev w k x).1, a k * (ev w k x).2 + c k)) pop rem k s').1 ∧
    Image a c (fun i j => D i j ∨ i < pop.length ∧ k ≤ j ∧ j < k + rem) (evaluateObjectives ev pop rem k s).2
      (evaluateObjectives (fun w k x => ((ev w k x).1, a k * (ev w k x).2 + c k)) pop rem k s').2
  | 0, k, D, s, s', hw, h => by
    refine ⟨hw, fun i j hd => h i j (hd.resolve_right ?_)⟩
    omega
  | rem + 1, k, D, s, s', hw, h => by
    have key : ∀ (l : List (I × Nat)) (E : Nat → Nat → Prop) (s s' : W × (Nat → Nat → R)), s.1 = s'.1 → Image a c E s.2 s'.2 →
        let r := l.foldl (fun s p =>
          let e := ev s.1 k p.1
          evaluateObjectives ev pop rem (k + 1) (e.1, setObj s.2 p.2 k e.2)) s
        let r' := l.foldl (fun s p =>
          let e := (fun w k x => ((ev w k x).1, a k * (ev w k x).2 + c k)) s.1 k p.1
          evaluateObjectives (fun w k x => ((ev w k x).1, a k * (ev w k x).2 + c k)) pop rem (k + 1)
            (e.1, setObj s.2 p.2 k e.2)) s'
        r.1 = r'.1 ∧ Image a c (fun i j => E i j ∨ (∃ p ∈ l, p.2 = i ∧ j = k) ∨
          (l ≠ [] ∧ i < pop.length ∧ k + 1 ≤ j ∧ j < k + 1 + rem)) r.2 r'.2 := by
      intro l
      induction l with
      | nil =>
        intro E s s' hw h
        refine ⟨hw, fun i j hd => h i j ?_⟩
        rcases hd with hd | ⟨p, hp, -⟩ | ⟨hn, -⟩
        · exact hd
        · cases hp
        · exact absurd rfl hn
      | cons p l ih =>
        intro E s s' hw h
        dsimp only
        rw [List.foldl_cons, List.foldl_cons]
        have h1 := image_set h p.2 k (ev s.1 k p.1).2
        rw [hw] at h1
        obtain ⟨h2, h3⟩ := evaluate_image ev a c pop rem (k + 1) _ ((ev s'.1 k p.1).1, setObj s.2 p.2 k (ev s'.1 k p.1).2)
          ((ev s'.1 k p.1).1, setObj s'.2 p.2 k (a k * (ev s'.1 k p.1).2 + c k)) rfl h1
        rw [hw]
        obtain ⟨h4, h5⟩ := ih _ _ _ h2 h3
        refine ⟨h4, fun i j hd => h5 i j ?_⟩
        rcases hd with hd | ⟨q, hq, h6, h7⟩ | ⟨-, h6⟩
        · exact .inl (.inl (.inl hd))
        · rcases List.mem_cons.1 hq with rfl | hq
          · exact .inl (.inl (.inr ⟨h6.symm, h7⟩))
          · exact .inr (.inl ⟨q, hq, h6, h7⟩)
        · exact .inl (.inr h6)
    unfold evaluateObjectives
    obtain ⟨h1, h2⟩ := key pop.zipIdx D s s' hw h
    refine ⟨h1, fun i j hd => h2 i j ?_⟩
    rcases hd with hd | ⟨hi, hk, hj⟩
    · exact .inl hd
    · by_cases hjk : j = k
      · right; left
        refine ⟨(pop[i], i), ?_, rfl, hjk⟩
        rw [List.mem_zipIdx_iff_getElem?]
        simp [hi]
      · right; right
        refine ⟨?_, hi, by omega, by omega⟩
        intro he
        have := congrArg List.length he
        simp at this
        rw [this] at hi
        simp at hi

theorem dominates_image {a c : Nat → R} (ha : ∀ k, 0 < a k) {m : Nat} {p q p' q' : Nat → R}
    (hp : ∀ k < m, p' k = a k * p k + c k) (hq : ∀ k < m, q' k = a k * q k + c k) : dominates m p' q' = dominates m p q := by
  unfold dominates
  have : ∀ (l : List Nat) (s : Bool × Bool), (∀ k ∈ l, k < m) → l.foldl (dominatesStep p' q') s = l.foldl (dominatesStep p q) s := by
    intro l
    induction l with
    | nil => intro s _; rfl
    | cons k l ih =>
      intro s hl
      have hk := hl k (by simp)
      have h1 : q' k < p' k ↔ q k < p k := by
        rw [hp k hk, hq k hk, add_lt_add_iff_right, mul_lt_mul_iff_right₀ (ha k)]
      have h2 : p' k < q' k ↔ p k < q k := by
        rw [hp k hk, hq k hk, add_lt_add_iff_right, mul_lt_mul_iff_right₀ (ha k)]
      rw [List.foldl_cons, List.foldl_cons, ih _ (fun j hj => hl j (by simp [hj]))]
      congr 1
      unfold dominatesStep
      simp only [h1, h2]
  rw [this _ _ (fun k hk => List.mem_range.1 hk)]

/-- `std::sort` looks at the comparisons only. -/
def ByOrder (sortIdx : (Nat → R) → List Nat → List Nat) : Prop :=
  ∀ v v' : Nat → R, (∀ i j, v i < v j ↔ v' i < v' j) → ∀ l, sortIdx v l = sortIdx v' l

omit [LinearOrder R] [IsStrictOrderedRing R] in
theorem crowdAdd_congr (key : Nat → Nat) {t t' : Nat → R} : ∀ (l : List Nat) (cd : Nat → R), (∀ i ∈ l, t i = t' i) →
    crowdAdd key t l cd = crowdAdd key t' l cd
  | [], _, _ => rfl
  | i :: l, cd, h => by
    have e : ∀ t : Nat → R, crowdAdd key t (i :: l) cd = crowdAdd key t l (Function.update cd (key i) (cd (key i) + t i)) := fun _ => rfl
    rw [e, e, h i (by simp)]
    exact crowdAdd_congr key l _ (fun j hj => h j (by simp [hj]))

theorem crowdStep_image {sortIdx : (Nat → R) → List Nat → List Nat} (hs : SortsIdx sortIdx) (ho : ByOrder sortIdx) {maxVal : R}
    {a c : Nat → R} (ha : ∀ k, 0 < a k) {front : List Nat} {n M m : Nat} (hm : m < M) {obj obj' : Nat → Nat → R}
    (hf : ∀ q ∈ front, q < n) (hn : 0 < n) (hi : Image a c (fun i k => i < n ∧ k < M) obj obj') {s : List Nat × (Nat → R)}
    (hp : s.1.Perm (List.range front.length)) :
    crowdStep sortIdx maxVal front obj' s m = crowdStep sortIdx maxVal front obj s m := by
  have hv : ∀ j, obj' (front.getD j 0) m = a m * obj (front.getD j 0) m + c m := by
    intro j
    refine hi _ _ ⟨?_, hm⟩
    rw [List.getD_eq_getElem?_getD]
    cases hj : front[j]? with
    | none => exact hn
    | some q => exact hf q (List.mem_of_getElem? hj)
  have hsort : sortIdx (fun j => a m * obj (front.getD j 0) m + c m) s.1 = sortIdx (fun j => obj (front.getD j 0) m) s.1 := by
    refine ho _ _ (fun i j => ?_) _
    rw [add_lt_add_iff_right, mul_lt_mul_iff_right₀ (ha m)]
  obtain ⟨hperm, hasc⟩ := hs (fun j => obj (front.getD j 0) m) s.1
  have hlen := (hperm.trans hp).length_eq
  rw [List.length_range] at hlen
  unfold crowdStep
  simp only [hv, hsort]
  generalize sortIdx (fun j => obj (front.getD j 0) m) s.1 = sorted at hperm hasc hlen
  refine Prod.ext rfl ?_
  dsimp only
  refine crowdAdd_congr _ _ _ ?_
  intro i hi'
  obtain ⟨j, hj, rfl⟩ := List.mem_map.1 hi'
  have hj := List.mem_range.1 hj
  have ham := (ha m).ne'
  set v : Nat → R := fun i => obj (front.getD (sorted.getD i 0) 0) m with hvd
  have hmono : ∀ i k, i ≤ k → k < front.length → v i ≤ v k := by
    intro i k hik hk
    rcases Nat.eq_or_lt_of_le hik with rfl | hlt
    · exact le_refl _
    · have hi1 : i < sorted.length := by omega
      have hk1 : k < sorted.length := by omega
      have := List.pairwise_iff_getElem.1 hasc i k hi1 hk1 hlt
      have e1 : sorted.getD i 0 = sorted[i] := by rw [List.getD_eq_getElem?_getD, List.getElem?_eq_getElem hi1]; rfl
      have e2 : sorted.getD k 0 = sorted[k] := by rw [List.getD_eq_getElem?_getD, List.getElem?_eq_getElem hk1]; rfl
      simp only [hvd]
      rw [e1, e2]
      exact this
  have hd : (a m * v (front.length - 1) + c m) - (a m * v 0 + c m) = a m * (v (front.length - 1) - v 0) := by ring
  have hd' : (a m * v (j + 1 + 1) + c m) - (a m * v (j + 1 - 1) + c m) = a m * (v (j + 1 + 1) - v (j + 1 - 1)) := by ring
  show ((a m * v (j + 1 + 1) + c m) - (a m * v (j + 1 - 1) + c m)) /
    (if |(a m * v (front.length - 1) + c m) - (a m * v 0 + c m)| = 0 then 1
      else |(a m * v (front.length - 1) + c m) - (a m * v 0 + c m)|) =
    (v (j + 1 + 1) - v (j + 1 - 1)) / (if |v (front.length - 1) - v 0| = 0 then 1 else |v (front.length - 1) - v 0|)
  rw [hd, hd', abs_mul, abs_of_pos (ha m)]
  by_cases h0 : |v (front.length - 1) - v 0| = 0
  · have h1 := sub_eq_zero.1 (abs_eq_zero.1 h0)
    have h2 := hmono 0 (j + 1 - 1) (by omega) (by omega)
    have h3 := hmono (j + 1 - 1) (j + 1 + 1) (by omega) (by omega)
    have h4 := hmono (j + 1 + 1) (front.length - 1) (by omega) (by omega)
    have h5 : v (j + 1 + 1) - v (j + 1 - 1) = 0 := by linarith
    rw [h5, mul_zero, zero_div, zero_div]
  · rw [if_neg h0, if_neg (mul_ne_zero ham h0), mul_div_mul_left _ _ ham]

theorem crowdingDistance_image {sortIdx : (Nat → R) → List Nat → List Nat} (hs : SortsIdx sortIdx) (ho : ByOrder sortIdx)
    {maxVal : R} {a c : Nat → R} (ha : ∀ k, 0 < a k) {front : List Nat} {n M : Nat} {obj obj' : Nat → Nat → R}
    (hf : ∀ q ∈ front, q < n) (hn : 0 < n) (hi : Image a c (fun i k => i < n ∧ k < M) obj obj') (cd : Nat → R) :
    crowdingDistance sortIdx maxVal M obj' cd front = crowdingDistance sortIdx maxVal M obj cd front := by
  unfold crowdingDistance
  have : ∀ (l : List Nat) (s : List Nat × (Nat → R)), (∀ k ∈ l, k < M) → s.1.Perm (List.range front.length) →
      l.foldl (crowdStep sortIdx maxVal front obj') s = l.foldl (crowdStep sortIdx maxVal front obj) s := by
    intro l
    induction l with
    | nil => intro s _ _; rfl
    | cons m l ih =>
      intro s hl hp
      rw [List.foldl_cons, List.foldl_cons, crowdStep_image hs ho ha (hl m (by simp)) hf hn hi hp]
      refine ih _ (fun j hj => hl j (by simp [hj])) ?_
      exact (hs _ _).1.trans hp
  rw [this _ _ (fun k hk => List.mem_range.1 hk) (List.Perm.refl _)]

/-! ### Runs -/

/-- States of the two runs. -/
structure Twin (a c : Nat → R) (N M : Nat) (s s' : St W I R) : Prop where
  w : s'.w = s.w
  pop : s'.pop = s.pop
  len : N ≤ s.pop.length
  objSize : s'.objSize = s.objSize
  fronts : s'.fronts = s.fronts
  ranks : s'.ranks = s.ranks
  terminate : s'.terminate = s.terminate
  history : s'.history = s.history
  image : ∀ f ∈ s.fronts, ∀ q ∈ f, ∀ k < M, s'.objs q k = a k * s.objs q k + c k

omit [Field R] [LinearOrder R] [IsStrictOrderedRing R] in
theorem breed_congr {env env' : Env W I R} (h1 : env'.pick = env.pick) (h2 : env'.cross = env.cross)
    (h3 : env'.perturb = env.perturb) (h4 : env'.clamp = env.clamp) (n : Nat) (pop : List I) :
    ∀ (k : Nat) (w : W), breed env' n pop k w = breed env n pop k w
  | 0, _ => rfl
  | k + 1, w => by
    have hb : breedTwo env' n pop w = breedTwo env n pop w := by
      unfold breedTwo parents
      rw [h1, h2, h3, h4]
    unfold breed
    rw [hb]
    congr 1
    funext r
    rw [breed_congr h1 h2 h3 h4 n pop k]

variable {env : Env W I R} {a c : Nat → R}

/-- What is assumed of sorting and of callbacks. -/
structure Plain (env : Env W I R) : Prop where
  perm : ∀ cmp l, (env.sort cmp l).Perm l
  sortsIdx : SortsIdx env.sortIdx
  byOrder : ByOrder env.sortIdx
  /-- callbacks do not look at the objective values -/
  blind : ∀ w p o o' f, env.cbGen w p o f = env.cbGen w p o' f

theorem generation_twin (hp : Plain env) (ha : ∀ k, 0 < a k) {N M : Nat} {s s' : St W I R}
    (h : Twin a c N M s s') : (generation env N M s = none ∧ generation (env.rescale a c) N M s' = none) ∨
      ∃ t t', generation env N M s = some t ∧ generation (env.rescale a c) N M s' = some t' ∧ Twin a c N M t t' := by
  unfold generation
  have hbr : breed (env.rescale a c) N s.pop ((s.pop.length + 1) / 2) s.w = breed env N s.pop ((s.pop.length + 1) / 2) s.w :=
    breed_congr (env := env) (env' := env.rescale a c) rfl rfl rfl rfl _ _ _ _
  rw [h.w, h.pop, h.ranks, h.history, hbr]
  cases hb : breed env N s.pop ((s.pop.length + 1) / 2) s.w with
  | none => exact .inl ⟨rfl, rfl⟩
  | some b =>
    right
    simp only [Option.bind_eq_bind, Option.bind_some]
    obtain ⟨h1, h2⟩ := evaluate_image env.evaluate a c ((s.pop ++ b.2).take N) M 0 (fun _ _ => False) (b.1, fun _ _ => 0)
      (b.1, fun _ _ => 0) rfl (fun _ _ h => h.elim)
    have hev : (env.rescale a c).evaluate = fun w k x => ((env.evaluate w k x).1, a k * (env.evaluate w k x).2 + c k) := rfl
    rw [hev]
    have hl : ((s.pop ++ b.2).take N).length = N := by
      rw [List.length_take, List.length_append]
      have := h.len
      omega
    rw [hl] at h2
    generalize evaluateObjectives env.evaluate ((s.pop ++ b.2).take N) M 0 (b.1, fun _ _ => 0) = e at h1 h2
    generalize evaluateObjectives (fun w k x => ((env.evaluate w k x).1, a k * (env.evaluate w k x).2 + c k))
      ((s.pop ++ b.2).take N) M 0 (b.1, fun _ _ => 0) = e' at h1 h2
    have hi : Image a c (fun i k => i < N ∧ k < M) e.2 e'.2 := fun i k hd => h2 i k (.inr ⟨hd.1, by omega, by omega⟩)
    have hdom : ∀ p < N, ∀ q < N, dominates M (e'.2 p) (e'.2 q) = dominates M (e.2 p) (e.2 q) := by
      intro p hp' q hq'
      exact dominates_image ha (fun k hk => hi p k ⟨hp', hk⟩) (fun k hk => hi q k ⟨hq', hk⟩)
    rw [sort_congr (dom := fun p q => dominates M (e'.2 p) (e'.2 q)) hdom]
    obtain ⟨h3, h4⟩ := C29_dominates_strict_order (R := R) M
    obtain ⟨fronts, ranks, h5, h6⟩ := C30_pareto_fronts M N e.2 s.ranks
    rw [h5]
    have hf : ∀ f ∈ fronts, ∀ q ∈ f, q < N := by
      intro f hf q hq
      exact List.mem_range.1 (h6.partition.mem_iff.1 (List.mem_flatten.2 ⟨f, hf, hq⟩))
    have hcrowd : ∀ (l : List (List Nat)) (cd : Nat → R), (∀ f ∈ l, f ∈ fronts) →
        l.foldl (crowdingDistance env.sortIdx env.maxVal M e'.2) cd = l.foldl (crowdingDistance env.sortIdx env.maxVal M e.2) cd := by
      intro l
      induction l with
      | nil => intro _ _; rfl
      | cons f l ih =>
        intro cd hl
        have hf' := hl f (by simp)
        obtain ⟨q, hq⟩ := List.exists_mem_of_ne_nil _ (h6.nonempty f hf')
        have := hf f hf' q hq
        rw [List.foldl_cons, List.foldl_cons, crowdingDistance_image hp.sortsIdx hp.byOrder ha (hf f hf') (by omega) hi]
        exact ih _ (fun g hg => hl g (by simp [hg]))
    have hcrowd := hcrowd fronts (fun _ => 0) (fun _ h => h)
    refine ⟨_, _, rfl, rfl, ?_⟩
    have hsz : (env.rescale a c).sortIdx = env.sortIdx := rfl
    have hmx : (env.rescale a c).maxVal = env.maxVal := rfl
    have hcbg : (env.rescale a c).cbGen = env.cbGen := rfl
    have hso : (env.rescale a c).sort = env.sort := rfl
    have hap : (env.rescale a c).approx = env.approx := rfl
    simp only [hsz, hmx, hcbg, hso, hap, hcrowd, ← h1]
    refine ⟨?_, rfl, ?_, rfl, rfl, rfl, ?_, rfl, ?_⟩
    · dsimp only
      rw [hp.blind _ _ e'.2 e.2]
    · dsimp only
      rw [List.length_take, (hp.perm _ _).length_eq, List.length_append]
      have := h.len
      omega
    · dsimp only
      rw [hp.blind _ _ e'.2 e.2]
    · intro f hf' q hq k hk
      exact hi q k ⟨hf f hf' q hq, hk⟩

theorem genLoop_twin (hp : Plain env) (ha : ∀ k, 0 < a k) {N M : Nat} : ∀ (G : Nat) {s s' : St W I R}, Twin a c N M s s' →
    (genLoop env N M G s = none ∧ genLoop (env.rescale a c) N M G s' = none) ∨
      ∃ t t', genLoop env N M G s = some t ∧ genLoop (env.rescale a c) N M G s' = some t' ∧ Twin a c N M t t'
  | 0, s, s', h => .inr ⟨s, s', rfl, rfl, h⟩
  | G + 1, s, s', h => by
    unfold genLoop
    rw [h.terminate]
    cases hterm : s.terminate with
    | true => exact .inr ⟨s, s', rfl, rfl, h⟩
    | false =>
      simp only [Bool.false_eq_true, if_false]
      rcases generation_twin hp ha h with ⟨h1, h2⟩ | ⟨t, t', h1, h2, h3⟩
      · rw [h1, h2]
        exact .inl ⟨rfl, rfl⟩
      · rw [h1, h2]
        exact genLoop_twin hp ha G h3

theorem initial_congr {env env' : Env W I R} (h1 : env'.initial = env.initial) (h2 : env'.clamp = env.clamp) (x : I) :
    ∀ (n : Nat) (w : W), initialPopulation env' x n w = initialPopulation env x n w
  | 0, _ => rfl
  | n + 1, w => by
    unfold initialPopulation
    rw [h1, h2]
    dsimp only
    rw [initial_congr h1 h2 x n]

theorem initial_length (x : I) : ∀ (n : Nat) (w : W), (initialPopulation env x n w).2.length = n
  | 0, _ => rfl
  | n + 1, w => by
    unfold initialPopulation
    simp [initial_length x n]

theorem start_twin (N M : Nat) (w : W) (x : I) : Twin a c N M (start env N w x) (start (env.rescale a c) N w x) := by
  have hi : initialPopulation (env.rescale a c) x N w = initialPopulation env x N w := initial_congr (env := env) (env' := env.rescale a c) rfl rfl x N w
  unfold start
  rw [hi]
  refine ⟨rfl, rfl, ?_, rfl, rfl, rfl, rfl, rfl, by intro f hf; cases hf⟩
  exact (initial_length x N w).ge

/-- **C281** NSGA2 treats objectives in different units alike: replacing each objective `f k` by `a k * f k + c k` with
`a k > 0` changes neither the populations of any generation nor the Pareto fronts (as sets of members), the Pareto set or the
coordinates returned; the values in the Pareto front are replaced accordingly. -/
theorem C281_nsga2_units (hp : Plain env) (ha : ∀ k, 0 < a k) (N G M : Nat) (w : W) (x : I) :
    (optimize env N G M w x = .throws ∧ optimize (env.rescale a c) N G M w x = .throws) ∨
    (optimize env N G M w x = .ub ∧ optimize (env.rescale a c) N G M w x = .ub) ∨
    ∃ s s' r r', optimize env N G M w x = .ok (s, r) ∧ optimize (env.rescale a c) N G M w x = .ok (s', r') ∧
      s'.history = s.history ∧ s'.fronts = s.fronts ∧ r'.paretoSet = r.paretoSet ∧ r'.iterate = r.iterate ∧
      List.Forall₂ (fun o o' => ∀ k < M, o' k = a k * o k + c k) r.paretoFront r'.paretoFront := by
  unfold optimize
  by_cases hg : guardThrows N = true
  · rw [if_pos hg, if_pos hg]
    exact .inl ⟨rfl, rfl⟩
  right
  rw [if_neg hg, if_neg hg]
  rcases genLoop_twin hp ha G (start_twin (env := env) (a := a) (c := c) N M w x) with ⟨h1, h2⟩ | ⟨t, t', h1, h2, h3⟩
  · rw [h1, h2]
    exact .inl ⟨rfl, rfl⟩
  · rw [h1, h2]
    dsimp only
    unfold finish
    rw [h3.fronts, h3.pop]
    cases hf : t.fronts[0]? with
    | none => exact .inl ⟨rfl, rfl⟩
    | some f =>
      simp only [Option.bind_eq_bind, Option.bind_some]
      cases hm : f.mapM (fun j => t.pop[j]?) with
      | none => exact .inl ⟨rfl, rfl⟩
      | some set =>
        simp only [Option.bind_some]
        cases hj : f[0]? with
        | none => exact .inl ⟨rfl, rfl⟩
        | some j =>
          simp only [Option.bind_some]
          cases hit : t.pop[j]? with
          | none => exact .inl ⟨rfl, rfl⟩
          | some it =>
            simp only [Option.bind_some]
            right
            refine ⟨_, _, _, _, rfl, rfl, h3.history, h3.fronts, rfl, rfl, ?_⟩
            dsimp only
            rw [List.forall₂_map_left_iff, List.forall₂_map_right_iff, List.forall₂_same]
            intro q hq k hk
            exact h3.image f (List.mem_of_getElem? hf) q hq k hk

end

/-! ### Cases -/

/-- Two objectives in conflict, `x` and `-x`; the initial population is 0, 1, 3, 5. -/
def tradeOff : Env Nat Int ℚ where
  evaluate := fun w k x => (w, if k = 0 then x else -x)
  initial := fun w _ => (w + 1, ([0, 1, 3, 5] : List Int).getD w 0)
  clamp := fun x => min (max x (-100)) 100
  pick := fun w => (w, w % 4)
  cross := fun w a _ => (w, a, a)
  perturb := fun w x => (w + 1, x + 2 * w)
  approx := fun a b => a == b
  sort := sortBy
  sortIdx := fun v l => sortBy (fun a b => decide (v a < v b)) l
  cbBegin := fun w _ => w
  cbGen := fun w _ _ _ => (w, false)
  maxVal := 1000

theorem tradeOff_plain : Plain tradeOff where
  perm := fun c l => sortBy_perm c l
  sortsIdx := sortBy_sorts
  byOrder := by
    intro v v' h l
    have : (fun a b => decide (v a < v b)) = fun a b => decide (v' a < v' b) := by
      funext a b
      exact decide_eq_decide.2 (h a b)
    show sortBy _ l = sortBy _ l
    rw [this]
  blind := fun _ _ _ _ _ => rfl

/-- The hypotheses of `C281_nsga2_units` hold for a run that returns: metres against millimetres and a shifted origin. -/
example : ∃ s s' r r', optimize tradeOff 4 3 2 0 0 = .ok (s, r) ∧
    optimize (tradeOff.rescale (fun k => if k = 0 then 1000 else 1) (fun k => k)) 4 3 2 0 0 = .ok (s', r') ∧
      s'.history = s.history ∧ r'.paretoSet = r.paretoSet := by
  obtain ⟨o, ho⟩ := C92_nsga2_returns (env := tradeOff) (N := 4) (G := 3) (m := 2) (by decide) (by decide)
    (fun _ => Nat.mod_lt _ (by decide)) (fun c l => sortBy_perm c l) 0 0
  rcases C281_nsga2_units tradeOff_plain (a := fun k => if k = 0 then 1000 else 1) (c := fun k => (k : ℚ))
    (by intro k; split <;> norm_num) 4 3 2 0 0 with ⟨h, -⟩ | ⟨h, -⟩ | ⟨s, s', r, r', h1, h2, h3, -, h4, -⟩
  · rw [ho] at h; cases h
  · rw [ho] at h; cases h
  · exact ⟨s, s', r, r', h1, h2, h3, h4⟩

/-- The populations of a run. -/
def historyOf {I R : Type} : Outcome (St W I R × Result I R) → Option (List (List I))
  | .ok (s, _) => some s.history
  | _ => none

/-- The first objective under a map. -/
def Env.bend (env : Env W I R) (g : R → R) : Env W I R :=
  { env with evaluate := fun w k x =>
      ((env.evaluate w k x).1, if k = 0 then g (env.evaluate w k x).2 else (env.evaluate w k x).2) }

/-- **C281** Other increasing maps of an objective do change the populations: the crowding distance depends on
differences of objective values, not only on their order. -/
theorem C281_monotone_refuted : ¬ ∀ (env : Env Nat Int ℚ) (g : ℚ → ℚ), Plain env → StrictMono g →
    historyOf (optimize (env.bend g) 4 1 2 0 0) = historyOf (optimize env 4 1 2 0 0) := by
  intro h
  have := h tradeOff (fun q => if q ≤ 0 then q else q + 100) tradeOff_plain (by
    intro p q hpq
    dsimp only
    split <;> split <;> linarith)
  have e : historyOf (optimize (tradeOff.bend (fun q => if q ≤ 0 then q else q + 100)) 4 1 2 0 0) ≠
      historyOf (optimize tradeOff 4 1 2 0 0) := by decide +kernel
  exact e this

end Ens.Moo
