import Verif.Moo.Crowding
import Verif.Moo.Elitism

/-
C91: what is left of the elitism of NSGA2 although the children are not evaluated.
-/

namespace Ens.Moo

variable {W I R : Type} [Field R] [LinearOrder R]

theorem crowdStep_outside {sortIdx : (Nat → R) → List Nat → List Nat} (hs : SortsIdx sortIdx) {maxVal : R}
    {front : List Nat} (hne : front ≠ []) (obj : Nat → Nat → R)
    {s : List Nat × (Nat → R)} (hp : s.1.Perm (List.range front.length)) (m : Nat) :
    (crowdStep sortIdx maxVal front obj s m).1.Perm (List.range front.length) ∧
    ∀ q, q ∉ front → (crowdStep sortIdx maxVal front obj s m).2 q = s.2 q := by
  obtain ⟨hperm, -⟩ := hs (fun j => obj (front.getD j 0) m) s.1
  have hperm := hperm.trans hp
  have hfs : 0 < front.length := List.length_pos_of_ne_nil hne
  simp only [crowdStep]
  generalize sortIdx (fun j => obj (front.getD j 0) m) s.1 = sorted at hperm
  refine ⟨hperm, fun q hq => ?_⟩
  have hlen : sorted.length = front.length := by rw [hperm.length_eq, List.length_range]
  have hkey : ∀ i < front.length, front.getD (sorted.getD i 0) 0 ≠ q := by
    intro i hi hc
    have h1 : sorted.getD i 0 < front.length := by
      rw [List.getD_eq_getElem?_getD, List.getElem?_eq_getElem (by omega), Option.getD_some]
      exact List.mem_range.1 (hperm.mem_iff.1 (List.getElem_mem _))
    apply hq
    rw [← hc, List.getD_eq_getElem?_getD, List.getElem?_eq_getElem h1, Option.getD_some]
    exact List.getElem_mem _
  rw [crowdAdd_notMem, Function.update_of_ne (hkey _ (by omega)).symm, Function.update_of_ne (hkey _ hfs).symm]
  intro i hi
  obtain ⟨j, hj, rfl⟩ := List.mem_map.1 hi
  rw [List.mem_range] at hj
  exact hkey _ (by omega)

theorem crowdingDistance_outside {sortIdx : (Nat → R) → List Nat → List Nat} (hs : SortsIdx sortIdx) {maxVal : R}
    {front : List Nat} (hne : front ≠ []) (M : Nat) (obj : Nat → Nat → R) (cd : Nat → R) {q : Nat} (hq : q ∉ front) :
    crowdingDistance sortIdx maxVal M obj cd front q = cd q := by
  unfold crowdingDistance
  suffices h : ∀ (l : List Nat) (s : List Nat × (Nat → R)), s.1.Perm (List.range front.length) →
      (l.foldl (crowdStep sortIdx maxVal front obj) s).2 q = s.2 q from h _ (_, cd) (List.Perm.refl _)
  intro l
  induction l with
  | nil => intro s _; rfl
  | cons m l ih =>
    intro s hp
    have := crowdStep_outside (maxVal := maxVal) hs hne obj hp m
    rw [List.foldl_cons, ih _ this.1, this.2 q hq]

theorem crowd_fronts_outside {sortIdx : (Nat → R) → List Nat → List Nat} (hs : SortsIdx sortIdx) {maxVal : R} (M : Nat)
    (obj : Nat → Nat → R) {q : Nat} : ∀ (fs : List (List Nat)) (cd : Nat → R), (∀ f ∈ fs, f ≠ []) → (∀ f ∈ fs, q ∉ f) →
    fs.foldl (crowdingDistance sortIdx maxVal M obj) cd q = cd q := by
  intro fs
  induction fs with
  | nil => intro cd _ _; rfl
  | cons f fs ih =>
    intro cd h1 h2
    rw [List.foldl_cons, ih _ (fun g hg => h1 g (by simp [hg])) (fun g hg => h2 g (by simp [hg])),
      crowdingDistance_outside hs (h1 f (by simp)) M obj cd (h2 f (by simp))]

/-- Every member is at least as bad, in every objective, as some member of the first front. -/
theorem first_front_below {m n : Nat} {obj : Nat → Nat → R} {fronts : List (List Nat)} {ranks : Nat → Nat}
    (h : IsParetoRanking (fun p q => dominates m (obj p) (obj q)) n fronts ranks) {k : Nat} (hk : k < m) :
    ∀ (a : Nat) (g : List Nat) (p : Nat), fronts[a]? = some g → p ∈ g →
      ∃ f, fronts[0]? = some f ∧ ∃ q ∈ f, obj q k ≤ obj p k := by
  intro a
  induction a with
  | zero => intro g p hg hp; exact ⟨g, hg, p, hp, le_rfl⟩
  | succ a ih =>
    intro g p hg hp
    obtain ⟨f, hf, q, hq, hd⟩ := h.dominated a g hg p hp
    obtain ⟨f0, h0, r, hr, hle⟩ := ih f q hf hq
    exact ⟨f0, h0, r, hr, hle.trans (((C29_dominates_iff _ _ _).1 hd).1 k hk)⟩

variable [IsStrictOrderedRing R]

/-- **C91** (partial) If no child equals a parent, the parents differ, and no two different individuals are taken for equal: for every
objective a parent that is best in it survives the generation, so that the best value of an objective in the population never gets worse
from one generation to the next. Missing: anything about domination by dropped individuals (false, see the refutation, because the children
are not evaluated), and populations with equal members. -/
theorem C91_best_kept_partial {env : Env W I R} {F : Nat → I → R} (hF : ∀ w k x, (env.evaluate w k x).2 = F k x)
    (ha : ∀ a b, env.approx a b = true ↔ a = b) (hs : Agemoea.Sorts env.sort) (hi : SortsIdx env.sortIdx) (hmax : 0 < env.maxVal)
    {N m : Nat} (hN : 0 < N) {s s' : St W I R} (hl : s.pop.length = N) (hnd : s.pop.Nodup)
    (hnew : ∀ b, breed env N s.pop ((s.pop.length + 1) / 2) s.w = some b → ∀ y ∈ b.2, y ∉ s.pop)
    (hg : generation env N m s = some s') {k : Nat} (hk : k < m) :
    ∃ x ∈ s'.pop, x ∈ s.pop ∧ ∀ y ∈ s.pop, F k x ≤ F k y := by
  simp only [generation, Option.bind_eq_bind, Option.bind_eq_some_iff, Option.some.injEq] at hg
  obtain ⟨b, hb, f, hf, rfl⟩ := hg
  have hnew := hnew b hb
  have htake : (s.pop ++ b.2).take N = s.pop := by rw [← hl, List.take_left]
  rw [htake] at hf ⊢
  set obj := (evaluateObjectives env.evaluate s.pop m 0 (b.1, fun _ _ => 0)).2 with hobj
  obtain ⟨fr, rk, hf', hrank⟩ := C30_pareto_fronts m N obj s.ranks
  rw [hf] at hf'
  cases hf'
  dsimp only
  set crowd := fr.foldl (crowdingDistance env.sortIdx env.maxVal m obj) (fun _ => 0) with hcrowd
  have hlt : ∀ f ∈ fr, ∀ j ∈ f, j < N := by
    intro f hf j hj
    exact List.mem_range.1 (hrank.partition.mem_iff.1 (List.mem_flatten.2 ⟨f, hf, hj⟩))
  have hflat : fr.flatten.Nodup := hrank.partition.nodup_iff.2 List.nodup_range
  -- the members and their values
  have hval : ∀ i x, s.pop[i]? = some x → obj i k = F k x := by
    intro i x hx
    have hv := evaluateObjectives_values hF s.pop (fun i => s.pop.getD i x)
      (by intro i x h; rw [List.getD_eq_getElem?_getD, h]; rfl) m 0 (b.1, fun _ _ => 0) i k
    rw [hobj, hv, if_pos ⟨Nat.zero_le _, by omega, getElem?_lt hx⟩]
    simp only [List.getD_eq_getElem?_getD, hx, Option.getD_some]
  -- the best of the first front
  obtain ⟨f0, fs, hfr⟩ : ∃ f0 fs, fr = f0 :: fs := by
    cases hfr : fr with
    | nil =>
      have h0 := hrank.partition.mem_iff.2 (List.mem_range.2 hN)
      rw [hfr] at h0
      simp at h0
    | cons f fs => exact ⟨f, fs, rfl⟩
  have hf0 : f0 ∈ fr := by rw [hfr]; simp
  have hf0' : fr[0]? = some f0 := by rw [hfr]; rfl
  rw [hfr, List.flatten_cons, List.nodup_append] at hflat
  obtain ⟨lo, hlo, -, -, hbest, -, hcd, -⟩ := (C90_crowding_distance hi hmax.le hflat.1 (hrank.nonempty f0 hf0) m obj (fun _ => 0)
    (fun _ _ => rfl)).1 k hk
  have hcr : 0 < crowd lo := by
    rw [hcrowd, hfr, List.foldl_cons, crowd_fronts_outside hi m obj fs _ (fun g hg => hrank.nonempty g (by rw [hfr]; simp [hg]))
      (fun g hg hc => hflat.2.2 lo hlo lo (List.mem_flatten.2 ⟨g, hg, hc⟩) rfl)]
    exact hmax.trans_le hcd
  have hloN := hlt f0 hf0 lo hlo
  obtain ⟨x, hx⟩ : ∃ x, s.pop[lo]? = some x := ⟨_, List.getElem?_eq_getElem (by omega)⟩
  have hxm : x ∈ s.pop := List.mem_of_getElem? hx
  have hidx : lastIdx env.approx (s.pop ++ b.2) x = lo := by
    have h1 := Agemoea.lastIdx_spec ha (List.mem_append_left b.2 hxm)
    by_cases hc : lastIdx env.approx (s.pop ++ b.2) x < s.pop.length
    · rw [List.getElem?_append_left hc] at h1
      exact (List.getElem?_inj hc hnd).1 (h1.trans hx.symm)
    · rw [List.getElem?_append_right (by omega)] at h1
      exact absurd hxm (hnew x (List.mem_of_getElem? h1))
  have hchild : ∀ y ∈ b.2, N ≤ lastIdx env.approx (s.pop ++ b.2) y := by
    intro y hy
    by_contra hc
    have h1 := Agemoea.lastIdx_spec ha (List.mem_append_right s.pop hy)
    rw [List.getElem?_append_left (by omega)] at h1
    exact hnew y hy (List.mem_of_getElem? h1)
  refine ⟨x, ?_, hxm, ?_⟩
  · -- it is not dropped
    set c := fun x y => crowdingOperator rk crowd (lastIdx env.approx (s.pop ++ b.2) x) (lastIdx env.approx (s.pop ++ b.2) y) with hcdef
    have hperm := hs.perm c (s.pop ++ b.2)
    have hsorted := hs.sorted c (s.pop ++ b.2) (Agemoea.crowding_weak _ _ _)
    generalize env.sort c (s.pop ++ b.2) = l at hperm hsorted
    by_contra hx'
    rw [← List.take_append_drop N l, List.pairwise_append] at hsorted
    have hdrop : x ∈ l.drop N := by
      have : x ∈ l := hperm.mem_iff.2 (List.mem_append_left _ hxm)
      rw [← List.take_append_drop N l] at this
      exact (List.mem_append.1 this).resolve_left hx'
    set P : I → Bool := fun y => decide (lastIdx env.approx (s.pop ++ b.2) y < N) with hP
    have hall : ∀ y ∈ l.take N, P y = true := by
      intro y hy
      have h1 := hsorted.2.2 y hy x hdrop
      simp only [hP, decide_eq_true_eq]
      by_contra hc
      have hz : crowd (lastIdx env.approx (s.pop ++ b.2) y) = 0 :=
        crowd_fronts_outside hi m obj fr _ hrank.nonempty (fun g hg hm => by have := hlt g hg _ hm; omega)
      simp only [hcdef, crowdingOperator, hidx, hz, hrank.rank 0 f0 hf0' lo hlo, Bool.or_eq_false_iff, Bool.and_eq_false_iff,
        decide_eq_false_iff_not] at h1
      rcases h1.2 with h2 | h2
      · exact h2 (by omega)
      · exact h2 hcr
    have hcount : l.countP P = s.pop.countP P := by
      have h0 : b.2.countP P = 0 := List.countP_eq_zero.2 fun y hy => by
        have := hchild y hy
        simp only [hP, decide_eq_true_eq]; omega
      rw [hperm.countP_eq, List.countP_append, h0, Nat.add_zero]
    have hle : s.pop.countP P ≤ N := hl ▸ List.countP_le_length
    have hlen : N ≤ l.length := by rw [hperm.length_eq, List.length_append]; omega
    have h1 : (l.take N).countP P = N := by
      rw [List.countP_eq_length.2 hall, List.length_take]; omega
    have h2 : 0 < (l.drop N).countP P := List.countP_pos_iff.2 ⟨x, hdrop, by simp only [hP, hidx, decide_eq_true_eq]; exact hloN⟩
    have h3 : l.countP P = (l.take N).countP P + (l.drop N).countP P := by
      rw [← List.countP_append, List.take_append_drop]
    omega
  · intro y hy
    obtain ⟨i, hyi⟩ := List.mem_iff_getElem?.1 hy
    obtain ⟨g, hg, hig⟩ := List.mem_flatten.1 (hrank.partition.mem_iff.2 (List.mem_range.2 (hl ▸ getElem?_lt hyi)))
    obtain ⟨a, hag⟩ := List.mem_iff_getElem?.1 hg
    obtain ⟨f0', h0, q, hq, hle⟩ := first_front_below hrank hk a g i hag hig
    rw [hf0'] at h0
    cases h0
    rw [← hval lo x hx, ← hval i y hyi]
    exact (hbest q hq).trans hle

/-- Parents 1, 2, 3, 4, objectives `x` and `-x`; the children are given; members with equal keys are sorted last come first. -/
def twoWay (children : List Int) : Env Nat Int ℚ where
  evaluate := fun w k x => (w, if k = 0 then x else -x)
  initial := fun w _ => (w + 1, w + 1)
  clamp := fun x => min (max x (-100)) 100
  pick := fun w => (w, w % 4)
  cross := fun w a _ => (w, a, a)
  perturb := fun w _ => (w + 1, children.getD (w - 4) 0)
  approx := fun a b => a == b
  sort := fun c l => sortBy c l.reverse
  sortIdx := fun v l => sortBy (fun a b => decide (v a < v b)) l
  cbBegin := fun w _ => w
  cbGen := fun w _ _ _ => (w, false)
  maxVal := 1000

theorem twoWay_sorts (c : List Int) : Agemoea.Sorts (twoWay c).sort where
  perm := fun c l => (sortBy_perm c _).trans (List.reverse_perm l)
  sorted := fun c l h => Agemoea.sortBy_sorts.sorted c _ h

theorem twoWay_start (c : List Int) : (start (twoWay c) 4 0 0).pop = [1, 2, 3, 4] := by
  rfl

/-- The hypotheses of `C91_best_kept_partial` hold in the first generation of a run with new children. -/
example : ∃ s', generation (twoWay [10, 11, 12, 13]) 4 2 (start (twoWay [10, 11, 12, 13]) 4 0 0) = some s' ∧
    ∀ k < 2, ∃ x ∈ s'.pop, x ∈ [1, 2, 3, 4] ∧ ∀ y ∈ ([1, 2, 3, 4] : List Int), (if k = 0 then (x : ℚ) else -x) ≤ if k = 0 then (y : ℚ) else -y := by
  have hp := twoWay_start [10, 11, 12, 13]
  obtain ⟨s', hs', -⟩ := generation_ok (env := twoWay [10, 11, 12, 13]) (m := 2) (N := 4) (by decide) (fun w => Nat.mod_lt _ (by decide))
    (twoWay_sorts _).perm (start (twoWay [10, 11, 12, 13]) 4 0 0) (by rw [hp]; rfl)
  have hb : (breed (twoWay [10, 11, 12, 13]) 4 [1, 2, 3, 4] 2 4).map Prod.snd = some [10, 11, 12, 13] := by decide +kernel
  refine ⟨s', hs', fun k hk => ?_⟩
  have := C91_best_kept_partial (env := twoWay [10, 11, 12, 13]) (N := 4) (s := start (twoWay [10, 11, 12, 13]) 4 0 0)
    (F := fun k x => if k = 0 then (x : ℚ) else -x) (fun _ _ _ => rfl) (fun a b => beq_iff_eq) (twoWay_sorts _)
    Moo.sortBy_sorts (show (0 : ℚ) < 1000 by norm_num) (by decide) (by rw [hp]; rfl) (by rw [hp]; decide) (by
      intro b h y hy
      rw [hp] at h ⊢
      have h' : breed (twoWay [10, 11, 12, 13]) 4 [1, 2, 3, 4] 2 4 = some b := h
      rw [h'] at hb
      simp only [Option.map_some, Option.some.injEq] at hb
      rw [hb] at hy
      revert y
      decide) hs' hk
  rw [hp] at this
  exact this

/-- **C91** (refuted) "The best value of an objective never gets worse": a child that is a copy of a parent makes the parent count as an
unevaluated child. Parents 1, 2, 3, 4 and children 1, 10, 11, 12: both copies of 1 are dropped. -/
theorem C91_copies_refuted :
    ¬ ∀ (env : Env Nat Int ℚ) (F : Nat → Int → ℚ) (s' : St Nat Int ℚ), (∀ w k x, (env.evaluate w k x).2 = F k x) →
      (∀ a b, env.approx a b = true ↔ a = b) → Agemoea.Sorts env.sort → SortsIdx env.sortIdx → 0 < env.maxVal →
      (start env 4 0 0).pop.Nodup → generation env 4 2 (start env 4 0 0) = some s' →
      ∀ k < 2, ∀ y ∈ (start env 4 0 0).pop, ∃ x ∈ s'.pop, F k x ≤ F k y := by
  intro h
  have hpop : ((generation (twoWay [1, 10, 11, 12]) 4 2 (start (twoWay [1, 10, 11, 12]) 4 0 0)).map fun s => s.pop.all fun x => decide (1 < x)) =
      some true := by decide +kernel
  rw [Option.map_eq_some_iff] at hpop
  obtain ⟨s', hs', ht⟩ := hpop
  have hp := twoWay_start [1, 10, 11, 12]
  obtain ⟨x, hx, hle⟩ := h (twoWay [1, 10, 11, 12]) (fun k x => if k = 0 then x else -x) s' (fun _ _ _ => rfl) (fun a b => beq_iff_eq)
    (twoWay_sorts _) Moo.sortBy_sorts (show (0 : ℚ) < 1000 by norm_num) (by rw [hp]; decide) hs' 0 (by decide) 1 (by rw [hp]; decide)
  have h1 := List.all_eq_true.1 ht x hx
  simp only [decide_eq_true_eq] at h1
  simp only [if_true] at hle
  exact absurd (by exact_mod_cast hle) (not_le.2 h1)

end Ens.Moo
