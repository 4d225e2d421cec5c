import Mathlib.Algebra.BigOperators.Group.Finset.Basic
import Mathlib.Algebra.BigOperators.GroupWithZero.Action
import Mathlib.Algebra.CharZero.Defs
import Mathlib.Algebra.Order.Field.Rat
import Mathlib.Tactic.Module
import Mathlib.Tactic.Abel
import Mathlib.LinearAlgebra.BilinearMap
import Mathlib.Tactic.Ring
import Mathlib.Tactic.FieldSimp
import Mathlib.Tactic.NormNum
import Verif.Iqn.Model

/-
IQN: properties C44, C113-C116.
-/

namespace Ens.Iqn

open Ens.Vr

variable {W E K V H : Type} [Field K] [AddCommGroup V] [Module K V] [AddCommGroup H] [Module K H]

/-! ### Batches -/

theorem numBatches_spec {n b : Nat} (hn : 0 < n) (hb : 0 < b) :
    0 < numBatches n b ∧ (numBatches n b - 1) * b < n ∧ n ≤ numBatches n b * b := by
  have h := Nat.div_add_mod n b
  have hm := Nat.mod_lt n hb
  unfold numBatches
  rw [Nat.mul_comm] at h
  split
  · rename_i h0
    refine ⟨Nat.succ_pos _, ?_, ?_⟩
    · rw [Nat.add_sub_cancel]; omega
    · rw [Nat.succ_mul]; omega
  · rename_i h0
    have h1 : 0 < n / b := by
      rcases Nat.eq_zero_or_pos (n / b) with h2 | h2
      · rw [h2] at h; omega
      · exact h2
    refine ⟨by omega, ?_, by rw [Nat.add_zero]; omega⟩
    rw [Nat.add_zero, Nat.sub_mul]
    have : b ≤ n / b * b := Nat.le_mul_of_pos_left b h1
    omega

theorem numBatches_le {n b : Nat} (hn : 0 < n) (hb : 0 < b) : numBatches n b ≤ n := by
  obtain ⟨h1, h2, h3⟩ := numBatches_spec hn hb
  have : numBatches n b - 1 ≤ (numBatches n b - 1) * b := Nat.le_mul_of_pos_right _ hb
  omega

theorem batch_start {n b f : Nat} (hn : 0 < n) (hb : 0 < b) (hf : f < numBatches n b) : f * b < n := by
  obtain ⟨h1, h2, h3⟩ := numBatches_spec hn hb
  have : f * b ≤ (numBatches n b - 1) * b := Nat.mul_le_mul_right _ (by omega)
  omega

theorem batch_legal {n b f : Nat} (hn : 0 < n) (hb : 0 < b) (hf : f < numBatches n b) :
    1 ≤ (batch n b f).2 ∧ (batch n b f).1 + (batch n b f).2 ≤ n := by
  have := batch_start hn hb hf
  unfold batch
  dsimp only
  omega

theorem batch_size_dvd {n b f : Nat} (hn : 0 < n) (hb : 0 < b) (hd : b ∣ n) (hf : f < numBatches n b) :
    (batch n b f).2 = b := by
  obtain ⟨k, rfl⟩ := hd
  have hs := batch_start hn hb hf
  rw [Nat.mul_comm b k] at hs
  have hk : f < k := Nat.lt_of_mul_lt_mul_right hs
  have : (f + 1) * b ≤ k * b := Nat.mul_le_mul_right _ hk
  rw [Nat.succ_mul] at this
  unfold batch
  dsimp only
  rw [Nat.mul_comm b k]
  omega

theorem numBatches_dvd {n b : Nat} (hb : 0 < b) (hd : b ∣ n) : numBatches n b * b = n := by
  obtain ⟨k, rfl⟩ := hd
  simp [numBatches, Nat.mul_div_cancel_left k hb, Nat.mul_comm]

/-! ### C113: a pass visits every batch exactly once -/

/-- The order in which a pass visits the batches. -/
def order (N : Nat) : List Nat := (List.range N).map fun j => (j + 1) % N

theorem pass_eq {u : User W V V E} (h : Hess K V H) {p : Params K V H E} (hn : 0 < u.n) (hb : 0 < p.batchSize)
    (a : Tab W V H) : pass u h p a = some ((order (numBatches u.n p.batchSize)).foldl (visit u h p) a) := by
  obtain ⟨n1, n2, n3⟩ := numBatches_spec hn hb
  have hle := numBatches_le hn hb
  set N := numBatches u.n p.batchSize with hN
  have key : ∀ k j f fuel a, j + k = N → k + 1 ≤ fuel →
      f = (if j = N then u.n else min ((j + 1) * p.batchSize) u.n - p.batchSize) →
      iterate (passStep u h p) fuel (j, f, a) =
        some (((List.range' j k).map fun j => (j + 1) % N).foldl (visit u h p) a) := by
    intro k
    induction k with
    | zero =>
      intro j f fuel a hj hf hff
      obtain ⟨fuel, rfl⟩ : ∃ m, fuel = m + 1 := ⟨fuel - 1, by omega⟩
      rw [if_pos (by omega)] at hff
      rw [iterate, passStep]
      simp only
      rw [if_neg (by omega)]
      simp
    | succ k ih =>
      intro j f fuel a hj hf hff
      obtain ⟨fuel, rfl⟩ : ∃ m, fuel = m + 1 := ⟨fuel - 1, by omega⟩
      rw [if_neg (by omega)] at hff
      rw [iterate, passStep]
      simp only
      rw [if_pos (by omega)]
      simp only
      rw [ih (j + 1) _ fuel _ (by omega) (by omega) ?_]
      · rw [List.range'_succ, List.map_cons, List.foldl_cons]
      · rw [hff]
        by_cases hlast : j + 1 = N
        · rw [if_pos hlast, ← hN, hlast, Nat.mod_self]
          simp only [batch, Nat.zero_mul, Nat.sub_zero]
          rw [Nat.min_eq_right n3]
          omega
        · rw [if_neg hlast, ← hN, Nat.mod_eq_of_lt (by omega)]
          have h1 := batch_start (f := j + 1) hn hb (by omega)
          simp only [batch]
          rw [Nat.succ_mul (j + 1), Nat.min_eq_left (by omega)]
          have : p.batchSize ≤ (j + 1) * p.batchSize := Nat.le_mul_of_pos_left _ (by omega)
          omega
  rw [pass, key N 0 0 (u.n + 1) a (by omega) (by omega) ?_]
  · rw [order, List.range_eq_range']
  · rw [if_neg (by omega), Nat.zero_add, Nat.one_mul]
    omega

/-- **C113** A pass over the functions always ends, and it visits every batch exactly once (starting with batch 1 and
ending with batch 0); together the batches cover the range `0 .. n` without overlap. -/
theorem C113_pass {u : User W V V E} (h : Hess K V H) {p : Params K V H E} (hn : 0 < u.n) (hb : 0 < p.batchSize)
    (a : Tab W V H) : ∃ l : List Nat, l.Perm (List.range (numBatches u.n p.batchSize)) ∧
      pass u h p a = some (l.foldl (visit u h p) a) ∧
      (List.range (numBatches u.n p.batchSize)).flatMap (fun f =>
        List.range' (batch u.n p.batchSize f).1 (batch u.n p.batchSize f).2) = List.range u.n := by
  refine ⟨order (numBatches u.n p.batchSize), ?_, pass_eq h hn hb a, ?_⟩
  · obtain ⟨n1, -, -⟩ := numBatches_spec hn hb
    unfold order
    obtain ⟨N, hN⟩ : ∃ N, numBatches u.n p.batchSize = N + 1 := ⟨_, (Nat.sub_add_cancel n1).symm⟩
    rw [hN, List.range_succ, List.map_append, List.map_singleton, Nat.mod_self]
    have : (List.range N).map (fun j => (j + 1) % (N + 1)) = (List.range N).map Nat.succ := by
      apply List.map_congr_left
      intro j hj
      exact Nat.mod_eq_of_lt (by have := List.mem_range.1 hj; omega)
    rw [this]
    have h2 : List.range N ++ [N] = 0 :: (List.range N).map Nat.succ := by
      rw [← List.range_succ, List.range_succ_eq_map]
    rw [h2]
    exact List.perm_append_comm
  · have key : ∀ k, k ≤ numBatches u.n p.batchSize → (List.range k).flatMap (fun f =>
        List.range' (batch u.n p.batchSize f).1 (batch u.n p.batchSize f).2) = List.range (min (k * p.batchSize) u.n) := by
      intro k
      induction k with
      | zero => intro _; simp
      | succ k ih =>
        intro hk
        have := batch_start hn hb (Nat.lt_of_succ_le hk)
        rw [List.range_succ, List.flatMap_append, ih (by omega), Nat.min_eq_left (by omega)]
        simp only [batch, List.flatMap_cons, List.flatMap_nil, List.append_nil]
        have h1 := List.range'_append_1 (s := 0) (m := k * p.batchSize) (n := min p.batchSize (u.n - k * p.batchSize))
        rw [Nat.zero_add] at h1
        rw [List.range_eq_range', List.range_eq_range', h1, Nat.succ_mul]
        congr 1
        omega
    obtain ⟨-, -, n3⟩ := numBatches_spec hn hb
    rw [key _ le_rfl, Nat.min_eq_right n3]

/-! ### C44: aggregates -/

/-- Average over the batches. -/
def avg {M : Type} [AddCommGroup M] [Module K M] (N : Nat) (f : Nat → M) : M := (1 / (N : K)) • ∑ i ∈ Finset.range N, f i

theorem avg_update {M : Type} [AddCommGroup M] [Module K M] {N it : Nat} (hit : it < N) (f : Nat → M) (v : M) :
    avg (K := K) N (Function.update f it v) = avg (K := K) N f + (1 / (N : K)) • (v - f it) := by
  have h1 := Finset.sum_update_of_mem (s := Finset.range N) (Finset.mem_range.2 hit) f v
  unfold avg
  rw [h1, ← smul_add]
  congr 1
  have h3 : ∑ i ∈ Finset.range N, f i = f it + ∑ i ∈ Finset.range N \ {it}, f i := by
    have := Finset.sum_update_of_mem (s := Finset.range N) (Finset.mem_range.2 hit) f (f it)
    rwa [Function.update_eq_self] at this
  rw [h3]
  abel

/-- The aggregates are the averages of the tables, the gradient up to a constant `d`. -/
def Consistent (h : Hess K V H) (N : Nat) (d : V) (a : Tab W V H) : Prop :=
  a.B = avg (K := K) N a.Q ∧ a.u = avg (K := K) N (fun i => h.app (a.Q i) (a.t i)) ∧
    a.g = avg (K := K) N a.y + d

theorem visit_consistent {u : User W V V E} {h : Hess K V H} {p : Params K V H E} {d : V} {a : Tab W V H} {it : Nat}
    (hit : it < numBatches u.n p.batchSize) (ha : Consistent h (numBatches u.n p.batchSize) d a) :
    Consistent h (numBatches u.n p.batchSize) d (visit u h p a it) := by
  obtain ⟨h1, h2, h3⟩ := ha
  unfold visit
  split
  · refine ⟨?_, ?_, ?_⟩
    · simp only
      rw [avg_update hit, h1]
    · simp only
      rw [show (fun i => h.app (Function.update a.Q it (update h (a.Q it) (a.x - a.t it)
          ((u.cbGrad (u.gradient a.s.w a.x (batch u.n p.batchSize it).1 (batch u.n p.batchSize it).2).1 a.x
            ((1 / ((batch u.n p.batchSize it).2 : K)) • (u.gradient a.s.w a.x (batch u.n p.batchSize it).1
              (batch u.n p.batchSize it).2).2)).2.1 - a.y it)) i) (Function.update a.t it a.x i)) =
          Function.update (fun i => h.app (a.Q i) (a.t i)) it (h.app (update h (a.Q it) (a.x - a.t it)
          ((u.cbGrad (u.gradient a.s.w a.x (batch u.n p.batchSize it).1 (batch u.n p.batchSize it).2).1 a.x
            ((1 / ((batch u.n p.batchSize it).2 : K)) • (u.gradient a.s.w a.x (batch u.n p.batchSize it).1
              (batch u.n p.batchSize it).2).2)).2.1 - a.y it)) a.x) from ?_]
      · rw [avg_update hit, h2]
      · funext i
        by_cases hi : i = it
        · subst hi; simp
        · simp [hi]
    · simp only
      rw [avg_update hit, h3]
      abel
  · exact ⟨h1, h2, h3⟩

theorem init_tables {u : User W V V E} {h : Hess K V H} {b : Nat} (r x : V) (w : W) (k : Nat) :
    let a := (List.range k).foldl (initStep u h b r) ⟨⟨w, false, []⟩, fun _ => 0, fun _ => 0, fun _ => 0, h.eye, 0, 0, x⟩
    a.B = h.eye ∧ (∀ f < k, a.Q f = h.eye ∧ a.t f = r) ∧
      ((∀ f < k, ((batch u.n b f).2 : K) ≠ 0) → a.g = ∑ f ∈ Finset.range k, ((batch u.n b f).2 : K) • a.y f) := by
  induction k with
  | zero => simp
  | succ k ih =>
    simp only at ih ⊢
    rw [List.range_succ, List.foldl_append, List.foldl_cons, List.foldl_nil]
    generalize (List.range k).foldl (initStep u h b r)
      ⟨⟨w, false, []⟩, fun _ => 0, fun _ => 0, fun _ => 0, h.eye, 0, 0, x⟩ = a at ih ⊢
    obtain ⟨i1, i2, i3⟩ := ih
    refine ⟨i1, ?_, ?_⟩
    · intro f hf
      simp only [initStep]
      by_cases hfk : f = k
      · subst hfk; simp
      · simp only [Function.update_of_ne hfk]
        exact i2 f (by omega)
    · intro hs
      simp only [initStep]
      rw [Finset.sum_range_succ, Function.update_self, smul_smul, mul_one_div, div_self (hs k (by omega)), one_smul,
        i3 (fun f hf => hs f (by omega))]
      congr 1
      apply Finset.sum_congr rfl
      intro f hf
      rw [Function.update_of_ne (by have := Finset.mem_range.1 hf; omega)]

/-- The state the main loop starts from. The gradient aggregate starts as the average over functions, i.e. weighted by the
batch sizes. -/
theorem init_consistent [CharZero K] {u : User W V V E} (h : Hess K V H) {b : Nat} (hn : 0 < u.n) (hb : 0 < b)
    (w : W) (r x : V) : ∃ d : V, Consistent h (numBatches u.n b) d (init u h b w r x) ∧
      (init u h b w r x).g = (1 / (u.n : K)) • ∑ f ∈ Finset.range (numBatches u.n b),
        ((batch u.n b f).2 : K) • (init u h b w r x).y f ∧ (b ∣ u.n → d = 0) := by
  obtain ⟨N1, -, -⟩ := numBatches_spec hn hb
  have hN : (numBatches u.n b : K) ≠ 0 := by exact_mod_cast (by omega : numBatches u.n b ≠ 0)
  have hb0 : (b : K) ≠ 0 := by exact_mod_cast (by omega : b ≠ 0)
  obtain ⟨i1, i2, i3⟩ := init_tables (u := u) (h := h) (b := b) r x w (numBatches u.n b)
  have hs : ∀ f < numBatches u.n b, ((batch u.n b f).2 : K) ≠ 0 := by
    intro f hf
    have := (batch_legal hn hb hf).1
    exact_mod_cast (by omega : (batch u.n b f).2 ≠ 0)
  have hg : (init u h b w r x).g = (1 / (u.n : K)) • ∑ f ∈ Finset.range (numBatches u.n b),
        ((batch u.n b f).2 : K) • (init u h b w r x).y f := by
    simp only [init]
    rw [i3 hs]
  have cst : ∀ {M : Type} [AddCommGroup M] [Module K M] (v : M), (1 / (numBatches u.n b : K)) •
      ∑ _i ∈ Finset.range (numBatches u.n b), v = v := by
    intro M _ _ v
    rw [Finset.sum_const, Finset.card_range, ← Nat.cast_smul_eq_nsmul K, smul_smul, one_div_mul_cancel hN, one_smul]
  refine ⟨(init u h b w r x).g - avg (K := K) (numBatches u.n b) (init u h b w r x).y, ⟨?_, ?_, by abel⟩, hg, ?_⟩
  · simp only [init, avg]
    rw [i1, Finset.sum_congr rfl (fun f hf => (i2 f (Finset.mem_range.1 hf)).1), cst]
  · simp only [init, avg]
    rw [Finset.sum_congr rfl (g := fun _ => r) (fun f hf => ?_), cst]
    rw [(i2 f (Finset.mem_range.1 hf)).1, (i2 f (Finset.mem_range.1 hf)).2, h.app_eye]
  · intro hd
    rw [hg, avg, Finset.sum_congr rfl (g := fun f => (b : K) • (init u h b w r x).y f)
      (fun f hf => by rw [batch_size_dvd hn hb hd (Finset.mem_range.1 hf)]), ← Finset.smul_sum, smul_smul]
    have : (u.n : K) = numBatches u.n b * b := by exact_mod_cast (numBatches_dvd hb hd).symm
    rw [this]
    rw [show 1 / ((numBatches u.n b : K) * b) * b = 1 / (numBatches u.n b : K) by field_simp, sub_self]

theorem pass_inv {u : User W V V E} {h : Hess K V H} {p : Params K V H E} (hn : 0 < u.n) (hb : 0 < p.batchSize)
    (I : Tab W V H → Prop) (hI : ∀ a it, it < numBatches u.n p.batchSize → I a → I (visit u h p a it)) {a a' : Tab W V H}
    (ha : I a) (hp : pass u h p a = some a') : I a' := by
  rw [pass_eq h hn hb] at hp
  obtain ⟨n1, -, -⟩ := numBatches_spec hn hb
  simp only [Option.some.injEq] at hp
  subst hp
  have : ∀ (l : List Nat) a, (∀ i ∈ l, i < numBatches u.n p.batchSize) → I a → I (l.foldl (visit u h p) a) := by
    intro l
    induction l with
    | nil => intro a _ h; exact h
    | cons i l ih =>
      intro a hl h
      exact ih _ (fun j hj => hl j (List.mem_cons_of_mem _ hj)) (hI a i (hl i List.mem_cons_self) h)
  refine this _ a ?_ ha
  intro i hi
  simp only [order, List.mem_map] at hi
  obtain ⟨j, -, rfl⟩ := hi
  exact Nat.mod_lt _ n1

/-- Induction over a whole run: `I` holds at the end if it holds initially, is kept by visits and does not look at the
event record, the world, and the iterate. -/
theorem run_inv {u : User W V V E} {h : Hess K V H} {p : Params K V H E} (hn : 0 < u.n) (hb : 0 < p.batchSize)
    (I : Tab W V H → Prop) (hI : ∀ a it, it < numBatches u.n p.batchSize → I a → I (visit u h p a it))
    (hframe : ∀ a s x, I a → I { a with s := s, x := x }) {fuel : Nat} {w : W} {r x : V} {e : Exit} {t : St W V H E}
    (h0 : I (init u h p.batchSize w r x)) (hr : optimize u h p fuel w r x = some (.ret e t)) : I t.a := by
  unfold optimize at hr
  simp only [Option.map_eq_some_iff] at hr
  obtain ⟨q, hq, hr⟩ := hr
  have := iterate_inv (step := body u h p) (fun t => I t.a) (fun q => ∀ e t, q = .ret e t → I t.a)
    (by
      intro t t' ht hb'
      unfold body at hb'
      split at hb'
      · cases hp : pass u h p t.a with
        | none => rw [hp] at hb'; cases hb'
        | some a =>
          rw [hp] at hb'
          have ha := pass_inv hn hb I hI ht hp
          simp only at hb'
          split at hb'
          · cases hb'
          · split at hb'
            · cases hb'
            · cases hb'
              exact hframe a _ a.x ha
      · cases hb')
    (by
      intro t q ht hb' e' t' hq
      unfold body at hb'
      split at hb'
      · cases hp : pass u h p t.a with
        | none => rw [hp] at hb'; cases hb'; cases hq
        | some a =>
          rw [hp] at hb'
          have ha := pass_inv hn hb I hI ht hp
          simp only at hb'
          split at hb'
          · cases hb'; cases hq; exact hframe a _ a.x ha
          · split at hb'
            · cases hb'; cases hq; exact hframe a _ a.x ha
            · cases hb'
      · cases hb'; cases hq; exact ht)
    fuel _ q (show I (start u h p w r x).a from hframe (init u h p.batchSize w r x) _ _ h0) hq
  cases q with
  | stuck => simp at hr
  | ret e' t' =>
    simp only [Res.ret.injEq] at hr
    obtain ⟨-, rfl⟩ := hr
    exact hframe _ _ _ (this e' t' rfl)

/-- **C44** (partial) If the batch size divides the number of functions, at the end of every run the aggregate Hessian,
Hessian-variable product and gradient are the averages of the per-batch tables. -/
theorem C44_aggregates_partial [CharZero K] {u : User W V V E} (h : Hess K V H) {p : Params K V H E} (hn : 0 < u.n)
    (hb : 0 < p.batchSize) (hd : p.batchSize ∣ u.n) {fuel : Nat} {w : W} {r x : V} {e : Exit} {t : St W V H E}
    (hr : optimize u h p fuel w r x = some (.ret e t)) :
    t.a.B = avg (K := K) (numBatches u.n p.batchSize) t.a.Q ∧
    t.a.u = avg (K := K) (numBatches u.n p.batchSize) (fun i => h.app (t.a.Q i) (t.a.t i)) ∧
    t.a.g = avg (K := K) (numBatches u.n p.batchSize) t.a.y := by
  obtain ⟨d, h0, -, hd0⟩ := init_consistent h hn hb w r x
  have := run_inv hn hb (Consistent h (numBatches u.n p.batchSize) d) (fun a it hit ha => visit_consistent hit ha)
    (fun a s x ha => ha) h0 hr
  obtain ⟨h1, h2, h3⟩ := this
  exact ⟨h1, h2, by rw [h3, hd0 hd, add_zero]⟩

/-- **C44** (partial) In general: Hessian and product aggregates are the averages; the gradient aggregate is the average
plus a constant fixed by the initial tables (the difference of the two ways of averaging). -/
theorem C44_aggregates_uneven_partial [CharZero K] {u : User W V V E} (h : Hess K V H) {p : Params K V H E} (hn : 0 < u.n)
    (hb : 0 < p.batchSize) {fuel : Nat} {w : W} {r x : V} {e : Exit} {t : St W V H E}
    (hr : optimize u h p fuel w r x = some (.ret e t)) :
    t.a.B = avg (K := K) (numBatches u.n p.batchSize) t.a.Q ∧
    t.a.u = avg (K := K) (numBatches u.n p.batchSize) (fun i => h.app (t.a.Q i) (t.a.t i)) ∧
    t.a.g = avg (K := K) (numBatches u.n p.batchSize) t.a.y +
      ((1 / (u.n : K)) • ∑ f ∈ Finset.range (numBatches u.n p.batchSize),
        ((batch u.n p.batchSize f).2 : K) • (init u h p.batchSize w r x).y f -
        avg (K := K) (numBatches u.n p.batchSize) (init u h p.batchSize w r x).y) := by
  obtain ⟨d, h0, hg, -⟩ := init_consistent h hn hb w r x
  have := run_inv hn hb (Consistent h (numBatches u.n p.batchSize) d) (fun a it hit ha => visit_consistent hit ha)
    (fun a s x ha => ha) h0 hr
  obtain ⟨h1, h2, h3⟩ := this
  refine ⟨h1, h2, ?_⟩
  rw [h3, ← hg, h0.2.2]
  abel

/-! ### C114: secant equation and the step -/

/-- **C114** After a visit of a batch its Hessian approximation satisfies the secant equation (the gradient difference is
the approximation applied to the step) provided the two denominators are not zero. -/
theorem C114_secant (h : Hess K V H) (Q : H) (s yy : V) (h1 : h.dot yy s ≠ 0) (h2 : h.dot s (h.app Q s) ≠ 0) :
    h.app (update h Q s yy) s = yy := by
  unfold update
  rw [map_sub, map_add, map_smul, map_smul, LinearMap.sub_apply, LinearMap.add_apply, LinearMap.smul_apply,
    LinearMap.smul_apply, h.app_outer, h.app_sand, smul_smul, smul_smul, one_div_mul_cancel h1, one_div_mul_cancel h2,
    one_smul, one_smul]
  abel

/-- **C114** With `stepSize = 1` a visit that moves puts the iterate (before `StepTaken`) at the stationary point of the
aggregated quadratic model: `B x = u - g`, provided the linear solver is right. -/
theorem C114_step {u : User W V V E} {h : Hess K V H} {p : Params K V H E} (hs : p.stepSize = 1)
    (hstep : ∀ w x, (u.cbStep w x).2.1 = x) (a : Tab W V H) (it : Nat) (hd : p.differs a.x (a.t it) = true)
    (hsolve : ∀ v, h.app (visit u h p a it).B (p.solve (visit u h p a it).B v) = v) :
    h.app (visit u h p a it).B (visit u h p a it).x = (visit u h p a it).u - (visit u h p a it).g := by
  unfold visit at hsolve ⊢
  rw [if_pos hd] at hsolve ⊢
  simp only [stepAt, hstep, hs, sub_self, zero_smul, add_zero, one_smul] at hsolve ⊢
  rw [hsolve]

/-! ### C115: stop requests and the returned value -/

/-- **C115** (partial) For a positive `maxIterations` a run ends after at most `maxIterations - 1` passes, exactly that many
if neither a callback nor the objective ends it; if at least one pass was made the value returned is the average of the
component objectives at the coordinates returned. -/
theorem C115_run_partial [AddCommMonoid E] {u : User W V V E} (h : Hess K V H) {p : Params K V H E} {φ : Nat → V → E}
    {γ : Nat → V → V} {perm : W → Nat → Nat} (hu : Separable u φ γ perm) (hn : 0 < u.n) (hb : 0 < p.batchSize)
    (hm : 0 < p.maxIterations) (hend : ∀ w x, (u.cbEnd w x).2 = x) (w : W) (r x : V) :
    ∃ e t, optimize u h p p.maxIterations w r x = some (.ret e t) ∧ 1 ≤ t.i ∧ t.i ≤ p.maxIterations ∧
      (e = .loop → t.a.s.term = false → t.i = p.maxIterations) ∧
      (e ≠ .loop ∨ 1 < t.i → t.overall = p.divE (objective u.n φ t.a.x) u.n) := by
  let I : St W V H E → Prop := fun t => 1 ≤ t.i ∧ t.i ≤ p.maxIterations ∧
    (1 < t.i → t.overall = p.divE (objective u.n φ t.a.x) u.n)
  let Post : Res W V H E → Prop := fun q => ∃ e t, q = .ret e t ∧ 1 ≤ t.i ∧ t.i ≤ p.maxIterations ∧
      (e = .loop → t.a.s.term = false → t.i = p.maxIterations) ∧
      (e ≠ .loop ∨ 1 < t.i → t.overall = p.divE (objective u.n φ t.a.x) u.n)
  have hstep : ∀ t t', I t → body u h p t = .inl t' → I t' ∧ p.maxIterations - t'.i < p.maxIterations - t.i := by
    intro t t' ⟨i1, i2, i3⟩ ht
    unfold body at ht
    split at ht
    · rename_i hc
      rw [pass_eq h hn hb] at ht
      simp only at ht
      split at ht
      · cases ht
      · split at ht
        · cases ht
        · cases ht
          refine ⟨⟨by dsimp only; omega, by dsimp only; omega, fun _ => ?_⟩, by dsimp only; omega⟩
          dsimp only
          rw [(evalAll_value hu hb _ _).1]
    · cases ht
  have hpost : ∀ t q, I t → body u h p t = .inr q → Post q := by
    intro t q ⟨i1, i2, i3⟩ ht
    unfold body at ht
    split at ht
    · rename_i hc
      rw [pass_eq h hn hb] at ht
      simp only at ht
      split at ht
      · cases ht
        exact ⟨.bad, _, rfl, i1, i2, (fun h => by cases h), fun _ => by dsimp only; rw [(evalAll_value hu hb _ _).1]⟩
      · split at ht
        · cases ht
          exact ⟨.small, _, rfl, i1, i2, (fun h => by cases h), fun _ => by dsimp only; rw [(evalAll_value hu hb _ _).1]⟩
        · cases ht
    · rename_i hc
      cases ht
      refine ⟨.loop, t, rfl, i1, i2, fun _ hterm => ?_, fun hor => i3 (hor.resolve_left (fun h => h rfl))⟩
      by_contra hne
      exact hc ⟨hne, hterm⟩
  unfold optimize
  generalize hst : start u h p w r x = st
  have h0 : I st := by subst hst; exact ⟨Nat.le_refl 1, hm, fun h => absurd h (by simp [start])⟩
  obtain ⟨q, hq⟩ := iterate_total I (fun t => p.maxIterations - t.i) hstep p.maxIterations st h0
    (by subst hst; simp only [start]; omega)
  obtain ⟨e, t, rfl, p1, p2, p3, p4⟩ := iterate_inv I Post (fun t t' h h' => (hstep t t' h h').1) hpost
    p.maxIterations st q h0 hq
  refine ⟨e, finish u t, ?_, p1, p2, p3, ?_⟩
  · simp only [hq, Option.map_some]
  · intro hor
    simp only [finish, hend]
    exact p4 hor

/-! ### Concrete runs in one dimension -/

/-- One-dimensional "matrices". -/
def hess1 : Hess ℚ ℚ ℚ where
  app := LinearMap.mk₂ ℚ (fun a b => a * b) (fun _ _ _ => add_mul _ _ _) (fun _ _ _ => mul_assoc _ _ _)
    (fun _ _ _ => mul_add _ _ _) (fun c m n => by simp only [smul_eq_mul]; ring)
  dot := fun a b => a * b
  eye := 1
  outer := fun a => a * a
  sand := fun Q s => Q * s * s * Q
  app_eye := fun v => by simp
  app_outer := fun a v => by simp; ring
  app_sand := fun Q s v => by simp; ring

def params1 (b m : Nat) : Params ℚ ℚ ℚ ℚ where
  stepSize := 1 / 2
  batchSize := b
  maxIterations := m
  differs := fun x y => decide (x ≠ y)
  solve := fun B v => v / B
  divE := fun e n => e / n
  small := fun e => decide (e < -1)

/-- `n` functions `i (x - 1)^2` (`i = 0 .. n-1`), the world is the number of stop requests still to be ignored by
`StepTaken`. -/
def user1 (n : Nat) (stopping : Bool) : User Unit ℚ ℚ ℚ where
  n := n
  evaluate := fun w x a k => (w, ((List.range' a k).map fun i : Nat => (i : ℚ) * (x - 1) ^ 2).sum)
  gradient := fun w x a k => (w, ((List.range' a k).map fun i : Nat => (i : ℚ) * 2 * (x - 1)).sum)
  shuffle := fun w => w
  cbBegin := fun w x => (w, x)
  cbEval := fun w _ _ => (w, false)
  cbGrad := fun w _ g => (w, g, false)
  cbStep := fun w x => (w, x, stopping)
  cbEnd := fun w x => (w, x)
  addE := fun a b => a + b
  zero := 0
  isBad := fun _ => false
  near := fun _ _ => false
  dblMax := 10 ^ 308
  addG := fun a b => a + b
  divG := fun g n => g / n

theorem user1_separable (n : Nat) (s : Bool) : Separable (user1 n s) (fun i x => (i : ℚ) * (x - 1) ^ 2)
    (fun i x => (i : ℚ) * 2 * (x - 1)) (fun _ i => i) :=
  ⟨fun _ _ => rfl, rfl, fun _ _ => rfl, fun _ _ _ _ => rfl, fun _ _ _ _ => rfl, fun _ _ _ => rfl, fun _ _ _ _ => rfl,
    fun _ _ _ _ => rfl, fun _ _ _ => rfl, fun _ _ _ => rfl, fun _ => by simp⟩

def final : Option (Res Unit ℚ ℚ ℚ) → Option (Tab Unit ℚ ℚ × ℚ)
  | some (.ret _ t) => some (t.a, t.overall)
  | _ => none

/-- **C44** (refuted) "The gradient aggregate is the average of the per-batch gradients": three functions in batches of
two. -/
theorem C44_aggregates_refuted :
    ¬ ∀ b m x r, 0 < b → ∀ a, (final (optimize (user1 3 false) hess1 (params1 b m) 10 () r x)) = some a →
      a.1.g = 1 / (numBatches 3 b : ℚ) * ((List.range (numBatches 3 b)).map a.1.y).sum := by
  intro h
  have hv : ((final (optimize (user1 3 false) hess1 (params1 2 2) 10 () 3 5)).map fun a =>
      decide (a.1.g = 1 / (numBatches 3 2 : ℚ) * ((List.range (numBatches 3 2)).map a.1.y).sum)) = some false := by
    decide +kernel
  rw [Option.map_eq_some_iff] at hv
  obtain ⟨a, ha, hv⟩ := hv
  exact of_decide_eq_false hv (h 2 2 5 3 (by decide) a ha)

/-- **C115** (refuted) "IQN takes no step after a stop request": with three batches a stop request after the first step is
followed by two more steps. -/
theorem C115_stop_refuted :
    ¬ ∀ m x r, ∀ a, final (optimize (user1 3 true) hess1 (params1 1 m) 10 () r x) = some a →
      ∀ pre post, a.1.s.trace = pre ++ .step :: post → Ev.stop ∉ pre := by
  intro h
  have hv : ((final (optimize (user1 3 true) hess1 (params1 1 2) 10 () 3 5)).map fun a => a.1.s.trace) =
      some ([.grad 0 1, .grad 1 1, .grad 2 1, .grad 1 1, .step, .told, .stop, .grad 2 1] ++
        .step :: [.told, .stop, .grad 0 1, .step, .told, .stop, .eval 0 1, .eval 1 1, .eval 2 1]) := by
    decide +kernel
  rw [Option.map_eq_some_iff] at hv
  obtain ⟨a, ha, hv⟩ := hv
  exact h 2 5 3 a ha _ _ hv (by decide)

/-- **C115** (refuted) "IQN returns the objective at the final point": for `maxIterations = 1` no pass is made and 0 is
returned; otherwise the objective divided by the number of functions. -/
theorem C115_value_refuted :
    ((final (optimize (user1 3 false) hess1 (params1 1 1) 10 () 3 5)).map fun a => (a.1.x, a.2)) = some (5, 0) ∧
    ¬ (∀ m, 1 < m → ∀ a, final (optimize (user1 3 false) hess1 (params1 1 m) 10 () 3 5) = some a →
      a.2 = objective 3 (fun i x => (i : ℚ) * (x - 1) ^ 2) a.1.x) := by
  refine ⟨by decide +kernel, fun h => ?_⟩
  have hv : ((final (optimize (user1 3 false) hess1 (params1 1 2) 10 () 3 5)).map fun a =>
      decide (a.2 = objective 3 (fun i x => (i : ℚ) * (x - 1) ^ 2) a.1.x)) = some false := by
    decide +kernel
  rw [Option.map_eq_some_iff] at hv
  obtain ⟨a, ha, hv⟩ := hv
  exact of_decide_eq_false hv (h 2 (by decide) a ha)

/-- the hypotheses of C114 are met: secant update and a visit of a batch of four functions -/
example : hess1.dot 3 2 ≠ 0 ∧ hess1.dot 2 (hess1.app 1 2) ≠ 0 ∧
    (params1 2 3).differs (start (user1 4 false) hess1 (params1 2 3) () 3 5).a.x
      ((start (user1 4 false) hess1 (params1 2 3) () 3 5).a.t 1) = true ∧
    (visit (user1 4 false) hess1 (params1 2 3) (start (user1 4 false) hess1 (params1 2 3) () 3 5).a 1).B ≠ 0 := by
  refine ⟨by decide +kernel, by decide +kernel, by decide +kernel, by decide +kernel⟩

example : (final (optimize (user1 4 false) hess1 (params1 2 3) 10 () 3 5)).isSome = true := by decide +kernel

/-! ### C116: shapes -/

/-- **C116** (partial) The step of line 159 is well-shaped for a non-empty iterate exactly if it is a row vector. -/
theorem C116_shape_partial (rows cols : Nat) : shapeOk rows cols = true ↔ rows = 1 := by
  unfold shapeOk
  rw [Bool.and_eq_true, beq_iff_eq, beq_iff_eq]
  exact ⟨fun h => h.2, fun h => ⟨by rw [h, Nat.one_mul], h⟩⟩

/-- **C116** (refuted) "IQN accepts iterates of any shape": column vectors of two elements make it raise an exception. -/
theorem C116_shape_refuted : ¬ ∀ rows cols, 0 < rows → 0 < cols → shapeOk rows cols = true := by
  intro h
  exact absurd (h 2 1 (by decide) (by decide)) (by decide)

end Ens.Iqn
