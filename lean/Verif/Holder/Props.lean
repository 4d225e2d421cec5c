import Verif.Holder.Model
import Mathlib.Data.List.Count

/-
Properties C54, C55 and C127: typed retrieval from an `Any`, releasing exactly once, and copies of optimizers.
-/

namespace Ens.Holder

/-- Operations other than copies, on types other than `void` (for which `Set` and `As` do not compile). -/
def Ok : Op → Prop
  | .set _ t => t ≠ 0
  | .as _ t => t ≠ 0
  | .clean _ => True
  | .copy _ _ => False

/-- The number of `Set`s. -/
def sets : List Op → Nat
  | [] => 0
  | .set _ _ :: os => sets os + 1
  | _ :: os => sets os

/-- The operation changes what `v` holds. -/
def Touches (v : Nat) : Op → Prop
  | .set u _ => u = v
  | .clean u => u = v
  | .copy _ w => w = v
  | .as _ _ => False

/-- What holds along a program without copies. -/
structure Inv (m : Mem) : Prop where
  empty : ∀ v, (m.var v).held = none → (m.var v).type = 0
  full : ∀ v o, (m.var v).held = some o → (m.var v).type ≠ 0 ∧ (m.var v).destr = some (m.var v).type ∧
    m.live o = some (m.var v).type
  inj : ∀ v w o, (m.var v).held = some o → (m.var w).held = some o → v = w
  fresh : ∀ o t, m.live o = some t → o < m.next
  alloc : ∀ o, m.log.count (.alloc o) = if o < m.next then 1 else 0
  free : ∀ o, m.log.count (.free o) + (if m.live o = none then 0 else 1) = m.log.count (.alloc o)

theorem inv_init : Inv Mem.init := by
  constructor <;> simp [Mem.init, Any.empty]

theorem inv_clean {m : Mem} (h : Inv m) (v : Nat) : ∃ m', clean m v = some m' ∧ Inv m' ∧ m'.next = m.next ∧
    (∀ u, u ≠ v → m'.var u = m.var u) ∧ (m'.var v).held = none ∧
    (∀ o, m'.live o ≠ none ↔ m.live o ≠ none ∧ (m.var v).held ≠ some o) ∧
    ((m.var v).held = none → m' = m) ∧
    ∀ o, (m.var v).held = some o → m'.log = m.log ++ [.free o] := by
  unfold clean
  cases hh : (m.var v).held with
  | none =>
    exact ⟨m, rfl, h, rfl, fun _ _ => rfl, hh, fun o => by simp, fun _ => rfl, fun o ho => by cases ho⟩
  | some o =>
    obtain ⟨h1, h2, h3⟩ := h.full v o hh
    simp only [h2, h3, if_true]
    refine ⟨_, rfl, ⟨?_, ?_, ?_, ?_, ?_, ?_⟩, rfl, ?_, ?_, ?_, (fun hc => by cases hc), ?_⟩
    · intro u hu
      simp only [setVar] at hu ⊢
      split
      · rfl
      · rw [if_neg ‹_›] at hu
        exact h.empty u hu
    · intro u o' hu
      simp only [setVar] at hu ⊢
      by_cases huv : u = v
      · rw [if_pos huv] at hu
        cases hu
      · rw [if_neg huv] at hu ⊢
        have : o' ≠ o := by
          rintro rfl
          exact huv (h.inj u v _ hu hh)
        rw [if_neg this]
        exact h.full u o' hu
    · intro u w o' hu hw
      simp only [setVar] at hu hw
      by_cases huv : u = v
      · rw [if_pos huv] at hu; cases hu
      · by_cases hwv : w = v
        · rw [if_pos hwv] at hw; cases hw
        · rw [if_neg huv] at hu
          rw [if_neg hwv] at hw
          exact h.inj u w o' hu hw
    · intro o' t ht
      simp only [setVar] at ht
      split at ht
      · cases ht
      · exact h.fresh o' t ht
    · intro o'
      simp only [setVar, List.count_append]
      rw [h.alloc o']
      simp
    · intro o'
      have := h.free o'
      simp only [setVar, List.count_append]
      by_cases ho : o' = o
      · subst ho
        rw [h3] at this
        simp at this ⊢
        omega
      · rw [if_neg ho]
        simp [Ne.symm ho]
        exact this
    · intro u hu
      simp [setVar, hu]
    · simp [setVar, Any.empty]
    · intro o'
      simp only [setVar, Option.some.injEq]
      by_cases ho : o' = o
      · subst ho; simp
      · simp [ho, Ne.symm ho]
    · intro o' ho'
      cases ho'
      rfl

theorem inv_set {m : Mem} (h : Inv m) (v : Nat) {t : Nat} (ht : t ≠ 0) : Inv (setNew m v t) := by
  have hn : m.live m.next = none := by
    cases hl : m.live m.next with
    | none => rfl
    | some t => exact absurd (h.fresh _ _ hl) (Nat.lt_irrefl _)
  have hheld : ∀ u o, (m.var u).held = some o → o < m.next := fun u o hu => h.fresh _ _ (h.full u o hu).2.2
  refine ⟨?_, ?_, ?_, ?_, ?_, ?_⟩
  · intro u hu
    simp only [setNew, setVar] at hu ⊢
    split
    · rename_i e; rw [if_pos e] at hu; cases hu
    · rw [if_neg ‹_›] at hu; exact h.empty u hu
  · intro u o hu
    simp only [setNew, setVar] at hu ⊢
    by_cases huv : u = v
    · rw [if_pos huv] at hu ⊢
      cases hu
      exact ⟨ht, rfl, if_pos rfl⟩
    · rw [if_neg huv] at hu ⊢
      have := hheld u o hu
      rw [if_neg (by omega)]
      exact h.full u o hu
  · intro u w o hu hw
    simp only [setNew, setVar] at hu hw
    by_cases huv : u = v
    · by_cases hwv : w = v
      · rw [huv, hwv]
      · rw [if_pos huv] at hu; rw [if_neg hwv] at hw
        cases hu
        exact absurd (hheld w _ hw) (Nat.lt_irrefl _)
    · by_cases hwv : w = v
      · rw [if_pos hwv] at hw; rw [if_neg huv] at hu
        cases hw
        exact absurd (hheld u _ hu) (Nat.lt_irrefl _)
      · rw [if_neg huv] at hu; rw [if_neg hwv] at hw
        exact h.inj u w o hu hw
  · intro o t' ho
    simp only [setNew, setVar] at ho ⊢
    split at ho
    · omega
    · have := h.fresh o t' ho; omega
  · intro o
    simp only [setNew, setVar, List.count_append]
    rw [h.alloc o]
    by_cases ho : o = m.next
    · subst ho; simp
    · simp only [List.count_singleton, beq_iff_eq, Ev.alloc.injEq, if_neg (Ne.symm ho)]
      by_cases hl : o < m.next
      · rw [if_pos hl, if_pos (by omega)]
      · rw [if_neg hl, if_neg (by omega)]
  · intro o
    have hf := h.free o
    simp only [setNew, setVar, List.count_append]
    by_cases ho : o = m.next
    · subst ho
      rw [hn] at hf
      simp at hf ⊢
      omega
    · rw [if_neg ho]
      simp [Ne.symm ho]
      exact hf

theorem inv_log {m : Mem} (h : Inv m) (e : Ev) (he : ∀ o, e ≠ .alloc o ∧ e ≠ .free o) : Inv { m with log := m.log ++ [e] } := by
  refine ⟨h.empty, h.full, h.inj, h.fresh, ?_, ?_⟩
  · intro o
    simp only [List.count_append, List.count_singleton, beq_iff_eq, if_neg (he o).1]
    exact h.alloc o
  · intro o
    simp only [List.count_append, List.count_singleton, beq_iff_eq, if_neg (he o).1, if_neg (he o).2]
    exact h.free o

/-- What `As<T>` does. -/
theorem as_spec {m : Mem} (h : Inv m) (v : Nat) {t : Nat} (ht : t ≠ 0) :
    (∀ o, (m.var v).held = some o → (m.var v).type = t → as m v t = some { m with log := m.log ++ [.read v o] }) ∧
    ((m.var v).type ≠ t → as m v t = some { m with log := m.log ++ [.throw v] }) ∧
    ((m.var v).held = none → (m.var v).type ≠ t) := by
  refine ⟨?_, ?_, ?_⟩
  · intro o ho hty
    unfold as
    rw [if_neg (by simpa using hty.symm), ho]
    have := (h.full v o ho).2.2
    rw [hty] at this
    simp [this]
  · intro hty
    unfold as
    rw [if_pos (Ne.symm hty)]
  · intro hn
    rw [h.empty v hn]
    exact Ne.symm ht

theorem inv_as {m : Mem} (h : Inv m) (v : Nat) {t : Nat} (ht : t ≠ 0) : ∃ m', as m v t = some m' ∧ Inv m' ∧
    m'.next = m.next ∧ m'.var = m.var ∧ m'.live = m.live := by
  obtain ⟨h1, h2, h3⟩ := as_spec h v ht
  by_cases hty : (m.var v).type = t
  · cases hh : (m.var v).held with
    | none => exact absurd hty (h3 hh)
    | some o => exact ⟨_, h1 o hh hty, inv_log h _ fun o => ⟨by simp, by simp⟩, rfl, rfl, rfl⟩
  · exact ⟨_, h2 hty, inv_log h _ fun o => ⟨by simp, by simp⟩, rfl, rfl, rfl⟩

theorem inv_step {m : Mem} (h : Inv m) {op : Op} (ho : Ok op) : ∃ m', step m op = some m' ∧ Inv m' ∧
    m'.next = m.next + sets [op] ∧ ∀ v, ¬ Touches v op → m'.var v = m.var v := by
  cases op with
  | set v t =>
    refine ⟨_, rfl, inv_set h v ho, rfl, fun u hu => ?_⟩
    have : u ≠ v := fun e => hu (by simp [Touches, e])
    simp [setNew, setVar, this]
  | clean v =>
    obtain ⟨m', h1, h2, h3, h4, -⟩ := inv_clean h v
    exact ⟨m', h1, h2, h3, fun u hu => h4 u fun e => hu (by simp [Touches, e])⟩
  | as v t =>
    obtain ⟨m', h1, h2, h3, h4, -⟩ := inv_as h v ho
    exact ⟨m', h1, h2, h3, fun u _ => by rw [h4]⟩
  | copy v w => exact ho.elim

theorem sets_append : ∀ a b : List Op, sets (a ++ b) = sets a + sets b
  | [], b => by simp [sets]
  | o :: a, b => by
    have := sets_append a b
    cases o <;> simp only [List.cons_append, sets, this] <;> omega

theorem inv_run : ∀ (ops : List Op) {m : Mem}, Inv m → (∀ op ∈ ops, Ok op) → ∃ m', run m ops = some m' ∧ Inv m' ∧
    m'.next = m.next + sets ops ∧ ∀ v, (∀ op ∈ ops, ¬ Touches v op) → m'.var v = m.var v
  | [], m, h, _ => ⟨m, rfl, h, rfl, fun _ _ => rfl⟩
  | op :: ops, m, h, hok => by
    obtain ⟨m1, e1, i1, n1, v1⟩ := inv_step h (hok op (List.mem_cons_self ..))
    obtain ⟨m2, e2, i2, n2, v2⟩ := inv_run ops i1 fun o ho => hok o (List.mem_cons_of_mem _ ho)
    refine ⟨m2, ?_, i2, ?_, ?_⟩
    · rw [run, e1]; exact e2
    · rw [n2, n1, show op :: ops = [op] ++ ops from rfl, sets_append]; omega
    · intro v hv
      rw [v2 v fun o ho => hv o (List.mem_cons_of_mem _ ho), v1 v (hv op (List.mem_cons_self ..))]

theorem run_append : ∀ (a b : List Op) (m : Mem), run m (a ++ b) = (run m a).bind fun m => run m b
  | [], _, _ => rfl
  | o :: a, b, m => by
    simp only [List.cons_append, run]
    cases step m o with
    | none => rfl
    | some m' => exact run_append a b m'

/-- **C54** After any program without copies, `As<T>()` on a holder whose last `Set` or `Clean` was `Set<T'>(new T')`
returns the object created by that `Set` if `T = T'`, and throws otherwise; a `Clean()` there releases exactly that object. -/
theorem C54_as (pre post : List Op) (v t : Nat) (hpre : ∀ op ∈ pre, Ok op) (ht : t ≠ 0) (hpost : ∀ op ∈ post, Ok op)
    (hv : ∀ op ∈ post, ¬ Touches v op) :
    ∃ m, run Mem.init (pre ++ .set v t :: post) = some m ∧
      as m v t = some { m with log := m.log ++ [.read v (sets pre)] } ∧
      (∀ t', t' ≠ 0 → t' ≠ t → as m v t' = some { m with log := m.log ++ [.throw v] }) ∧
      ∃ m', clean m v = some m' ∧ m'.log = m.log ++ [.free (sets pre)] := by
  obtain ⟨m1, e1, i1, n1, -⟩ := inv_run pre inv_init hpre
  obtain ⟨m2, e2, i2, n2, v2⟩ := inv_run post (inv_set i1 v ht) hpost
  have hvar := v2 v hv
  have hn : m1.next = sets pre := by rw [n1]; simp [Mem.init]
  have hvar' : m2.var v = ⟨some (sets pre), t, some t⟩ := by rw [hvar]; simp [setNew, setVar, hn]
  refine ⟨m2, ?_, ?_, ?_, ?_⟩
  · rw [run_append, e1]
    exact e2
  · exact (as_spec i2 v ht).1 _ (by rw [hvar']) (by rw [hvar'])
  · intro t' ht' hne
    exact (as_spec i2 v ht').2.1 (by rw [hvar']; exact Ne.symm hne)
  · obtain ⟨m', h1, -, -, -, -, -, -, h2⟩ := inv_clean i2 v
    exact ⟨m', h1, h2 _ (by rw [hvar'])⟩

/-- **C54** `As<T>()` throws on a holder never `Set`, or not `Set` since its last `Clean()`. -/
theorem C54_as_empty (pre post : List Op) (v : Nat) (hpre : ∀ op ∈ pre, Ok op) (hpost : ∀ op ∈ post, Ok op)
    (hv : ∀ op ∈ post, ¬ Touches v op) (hlast : pre = [] ∨ ∃ pre', pre = pre' ++ [.clean v]) :
    ∃ m, run Mem.init (pre ++ post) = some m ∧
      ∀ t, t ≠ 0 → as m v t = some { m with log := m.log ++ [.throw v] } := by
  have hm1 : ∃ m1, run Mem.init pre = some m1 ∧ Inv m1 ∧ (m1.var v).held = none := by
    rcases hlast with rfl | ⟨pre', rfl⟩
    · exact ⟨_, rfl, inv_init, rfl⟩
    · obtain ⟨m0, e0, i0, -, -⟩ := inv_run pre' inv_init fun o ho => hpre o (List.mem_append_left _ ho)
      obtain ⟨m1, h1, h2, -, -, h3, -⟩ := inv_clean i0 v
      refine ⟨m1, ?_, h2, h3⟩
      rw [run_append, e0]
      simp [run, step, h1]
  obtain ⟨m1, e1, i1, h1⟩ := hm1
  obtain ⟨m2, e2, i2, -, v2⟩ := inv_run post i1 hpost
  refine ⟨m2, ?_, ?_⟩
  · rw [run_append, e1]; exact e2
  · intro t ht
    obtain ⟨-, h2, h3⟩ := as_spec i2 v ht
    exact h2 (h3 (by rw [v2 v hv]; exact h1))

/-- **C54** A program without copies has no undefined behaviour and releases no object twice, nor one that was never
created. -/
theorem C54_once (ops : List Op) (h : ∀ op ∈ ops, Ok op) :
    ∃ m, run Mem.init ops = some m ∧ ∀ o, m.log.count (.free o) ≤ 1 ∧ m.log.count (.free o) ≤ m.log.count (.alloc o) := by
  obtain ⟨m, e, i, -, -⟩ := inv_run ops inv_init h
  refine ⟨m, e, fun o => ?_⟩
  have h1 := i.free o
  have h2 := i.alloc o
  split at h2 <;> constructor <;> omega

/-- The claim that nothing is lost once every holder has been cleaned. -/
def NoLeak : Prop := ∀ (ops : List Op) (vs : List Nat) (m : Mem), (∀ op ∈ ops, Ok op) →
  (∀ op ∈ ops, ∀ v t, op = .set v t → v ∈ vs) → run Mem.init (ops ++ vs.map .clean) = some m →
  ∀ o, m.log.count (.free o) = m.log.count (.alloc o)

/-- **C127** … which is false: a second `Set` on a full holder forgets the first object. -/
theorem C127_leak_refuted : ¬ NoLeak := by
  intro h
  have := h [.set 0 1, .set 0 1] [0] _ (by simp [Ok]) (by simp) rfl 0
  revert this
  decide

/-! ### SGD -/

/-- No copies, types other than `void`. -/
def OkCmd : Cmd → Prop
  | .ctor _ _ => True
  | .optimize _ td tu _ => td ≠ 0 ∧ tu ≠ 0
  | .dtor _ => True
  | .copyCtor _ _ => False

/-- The commands name existing objects: `alive` is the list of objects that exist before. -/
def WellFormed : List Nat → List Cmd → Prop
  | _, [] => True
  | alive, .ctor k _ :: cs => k ∉ alive ∧ WellFormed (k :: alive) cs
  | alive, .optimize k _ _ _ :: cs => k ∈ alive ∧ WellFormed alive cs
  | alive, .dtor k :: cs => k ∈ alive ∧ WellFormed (alive.filter (· ≠ k)) cs
  | alive, .copyCtor k l :: cs => k ∈ alive ∧ l ∉ alive ∧ WellFormed (l :: alive) cs

/-- The objects that exist after. -/
def aliveAfter : List Nat → List Cmd → List Nat
  | alive, [] => alive
  | alive, .ctor k _ :: cs => aliveAfter (k :: alive) cs
  | alive, .optimize _ _ _ _ :: cs => aliveAfter alive cs
  | alive, .dtor k :: cs => aliveAfter (alive.filter (· ≠ k)) cs
  | alive, .copyCtor _ l :: cs => aliveAfter (l :: alive) cs

/-- Along a program on optimizers without copies, in addition: nothing is lost. -/
structure PInv (alive : List Nat) (p : Prog) : Prop where
  mem : Inv p.mem
  obj : ∀ k, (p.obj k).isSome = true ↔ k ∈ alive
  reach : ∀ o, p.mem.live o ≠ none → ∃ v, (p.mem.var v).held = some o
  dead : ∀ k, k ∉ alive → (p.mem.var (2 * k)).held = none ∧ (p.mem.var (2 * k + 1)).held = none

/-- Memory facts kept by replacing what one holder holds. -/
def Reach (m : Mem) : Prop := ∀ o, m.live o ≠ none → ∃ v, (m.var v).held = some o

theorem replace {m : Mem} (h : Inv m) (hr : Reach m) (v : Nat) {t : Nat} (ht : t ≠ 0) : ∃ m',
    ((clean m v).map fun m => setNew m v t) = some m' ∧ Inv m' ∧ Reach m' ∧ (∀ u, u ≠ v → m'.var u = m.var u) ∧
      (m'.var v).held ≠ none ∧ (m'.var v).type = t := by
  obtain ⟨m1, e1, i1, -, v1, n1, l1, -⟩ := inv_clean h v
  refine ⟨setNew m1 v t, by rw [e1]; rfl, inv_set i1 v ht, ?_, ?_, ?_, ?_⟩
  · intro o ho
    simp only [setNew, setVar] at ho ⊢
    by_cases hn : o = m1.next
    · exact ⟨v, by simp [hn]⟩
    · rw [if_neg hn] at ho
      obtain ⟨h1, h2⟩ := (l1 o).1 ho
      obtain ⟨u, hu⟩ := hr o h1
      have huv : u ≠ v := by rintro rfl; exact h2 hu
      exact ⟨u, by simp only [if_neg huv]; rw [v1 u huv]; exact hu⟩
  · intro u hu
    simp only [setNew, setVar, if_neg hu]
    exact v1 u hu
  · simp [setNew, setVar]
  · simp [setNew, setVar]

theorem use_spec (k : Nat) {td tu : Nat} (htd : td ≠ 0) (htu : tu ≠ 0) : ∀ (n : Nat) {m : Mem}, Inv m → Reach m →
    ∃ m', use k td tu n m = some m' ∧ Inv m' ∧ Reach m' ∧ m'.var = m.var
  | 0, m, h, hr => ⟨m, rfl, h, hr, rfl⟩
  | n + 1, m, h, hr => by
    obtain ⟨m1, e1, i1, -, v1, l1⟩ := inv_as h (2 * k + 1) htu
    obtain ⟨m2, e2, i2, -, v2, l2⟩ := inv_as i1 (2 * k) htd
    have hr2 : Reach m2 := by
      unfold Reach; rw [l2, l1, v2, v1]; exact hr
    obtain ⟨m3, e3, i3, r3, v3⟩ := use_spec k htd htu n i2 hr2
    refine ⟨m3, ?_, i3, r3, by rw [v3, v2, v1]⟩
    rw [use, e1]
    simp only [Option.bind_some, e2]
    exact e3

/-- During `Optimize` the policies are those of the types it needs. -/
theorem optimize_spec {m : Mem} (h : Inv m) (hr : Reach m) (s : Sgd) (k : Nat) {td tu : Nat} (htd : td ≠ 0) (htu : tu ≠ 0)
    (n : Nat) : ∃ m' s', optimize m s k td tu n = some (m', s') ∧ Inv m' ∧ Reach m' ∧
      (∀ u, u ≠ 2 * k → u ≠ 2 * k + 1 → m'.var u = m.var u) := by
  have h1 : ∃ m1, initDecay m s k td = some m1 ∧ Inv m1 ∧ Reach m1 ∧ ∀ u, u ≠ 2 * k → m1.var u = m.var u := by
    unfold initDecay
    split
    · obtain ⟨m1, a, b, c, d, -⟩ := replace h hr (2 * k) htd
      exact ⟨m1, a, b, c, d⟩
    · exact ⟨m, rfl, h, hr, fun _ _ => rfl⟩
  obtain ⟨m1, e1, i1, r1, v1⟩ := h1
  have h2 : ∃ m2 s2, initUpdate m1 s k tu = some (m2, s2) ∧ Inv m2 ∧ Reach m2 ∧ ∀ u, u ≠ 2 * k + 1 → m2.var u = m1.var u := by
    unfold initUpdate
    split
    · obtain ⟨m2, a, b, c, d, -⟩ := replace i1 r1 (2 * k + 1) htu
      refine ⟨m2, { s with isInit := true }, ?_, b, c, d⟩
      cases hc : clean m1 (2 * k + 1) with
      | none => rw [hc] at a; cases a
      | some m' =>
        rw [hc] at a
        simp only [Option.map_some, Option.some.injEq] at a ⊢
        rw [a]
    · exact ⟨m1, s, rfl, i1, r1, fun _ _ => rfl⟩
  obtain ⟨m2, s2, e2, i2, r2, v2⟩ := h2
  obtain ⟨m3, e3, i3, r3, v3⟩ := use_spec k htd htu n i2 r2
  refine ⟨m3, s2, ?_, i3, r3, fun u h1 h2 => by rw [v3, v2 u h2, v1 u h1]⟩
  unfold optimize
  rw [e1]
  simp only [Option.bind_some, e2, e3, Option.map_some]

theorem clean_reach {m : Mem} (h : Inv m) (hr : Reach m) (v : Nat) : ∃ m', clean m v = some m' ∧ Inv m' ∧ Reach m' ∧
    (∀ u, u ≠ v → m'.var u = m.var u) ∧ (m'.var v).held = none := by
  obtain ⟨m', a, b, -, c, d, e, -⟩ := inv_clean h v
  refine ⟨m', a, b, ?_, c, d⟩
  intro o ho
  obtain ⟨h1, h2⟩ := (e o).1 ho
  obtain ⟨u, hu⟩ := hr o h1
  have huv : u ≠ v := by rintro rfl; exact h2 hu
  exact ⟨u, by rw [c u huv]; exact hu⟩

/-- Clearing an empty holder changes nothing that matters. -/
theorem inv_setEmpty {m : Mem} (h : Inv m) (hr : Reach m) {v : Nat} (hv : (m.var v).held = none) :
    Inv (setVar m v Any.empty) ∧ Reach (setVar m v Any.empty) := by
  have hh : ∀ u o, ((setVar m v Any.empty).var u).held = some o → u ≠ v ∧ (m.var u).held = some o := by
    intro u o hu
    simp only [setVar] at hu
    split at hu
    · cases hu
    · exact ⟨‹_›, hu⟩
  refine ⟨⟨?_, ?_, ?_, h.fresh, h.alloc, h.free⟩, ?_⟩
  · intro u hu
    simp only [setVar] at hu ⊢
    split
    · rfl
    · rw [if_neg ‹_›] at hu; exact h.empty u hu
  · intro u o hu
    obtain ⟨h1, h2⟩ := hh u o hu
    have := h.full u o h2
    simp only [setVar, if_neg h1]
    exact this
  · intro u w o hu hw
    exact h.inj u w o (hh u o hu).2 (hh w o hw).2
  · intro o ho
    obtain ⟨u, hu⟩ := hr o ho
    have : u ≠ v := by rintro rfl; rw [hv] at hu; cases hu
    exact ⟨u, by simp only [setVar, if_neg this]; exact hu⟩

theorem execs_spec : ∀ (cs : List Cmd) {alive : List Nat} {p : Prog}, PInv alive p → (∀ c ∈ cs, OkCmd c) → WellFormed alive cs →
    ∃ p', execs p cs = some p' ∧ PInv (aliveAfter alive cs) p'
  | [], _, p, h, _, _ => ⟨p, rfl, h⟩
  | .ctor k r :: cs, alive, p, h, hok, hw => by
    have hk : p.obj k = none := by
      cases hp : p.obj k with
      | none => rfl
      | some s => exact absurd ((h.obj k).1 (by rw [hp]; rfl)) hw.1
    obtain ⟨d1, d2⟩ := h.dead k hw.1
    obtain ⟨i1, r1⟩ := inv_setEmpty h.mem h.reach d1
    have d2' : ((setVar p.mem (2 * k) Any.empty).var (2 * k + 1)).held = none := by
      simp only [setVar]; rw [if_neg (by omega)]; exact d2
    obtain ⟨i2, r2⟩ := inv_setEmpty i1 r1 d2'
    have hrec := execs_spec cs (alive := k :: alive)
      (p := setObj { p with mem := setVar (setVar p.mem (2 * k) Any.empty) (2 * k + 1) Any.empty } k (some ⟨false, r⟩))
      ⟨i2, ?_, r2, ?_⟩ (fun c hc => hok c (List.mem_cons_of_mem _ hc)) hw.2
    · obtain ⟨p', e, i⟩ := hrec
      refine ⟨p', ?_, i⟩
      rw [execs, exec, hk]
      exact e
    · intro l
      simp only [setObj]
      by_cases hl : l = k
      · subst hl; simp
      · rw [if_neg hl, h.obj l]; simp [hl]
    · intro l hl
      rw [List.mem_cons, not_or] at hl
      obtain ⟨a, b⟩ := h.dead l hl.2
      simp only [setObj, setVar]
      rw [if_neg (by omega), if_neg (by omega), if_neg (by omega), if_neg (by omega)]
      exact ⟨a, b⟩
  | .optimize k td tu n :: cs, alive, p, h, hok, hw => by
    obtain ⟨s, hs⟩ := Option.isSome_iff_exists.1 ((h.obj k).2 hw.1)
    have ho := hok _ (List.mem_cons_self ..)
    obtain ⟨m', s', e, i, r, v⟩ := optimize_spec h.mem h.reach s k ho.1 ho.2 n
    have hrec := execs_spec cs (alive := alive) (p := setObj { p with mem := m' } k (some s'))
      ⟨i, ?_, r, ?_⟩ (fun c hc => hok c (List.mem_cons_of_mem _ hc)) hw.2
    · obtain ⟨p', e', i'⟩ := hrec
      refine ⟨p', ?_, i'⟩
      rw [execs, exec, hs]
      simp only [e, Option.map_some, Option.bind_some]
      exact e'
    · intro l
      simp only [setObj]
      by_cases hl : l = k
      · subst hl; simp [hw.1]
      · rw [if_neg hl, h.obj l]
    · intro l hl
      have hlk : l ≠ k := by rintro rfl; exact hl hw.1
      obtain ⟨a, b⟩ := h.dead l hl
      simp only [setObj]
      rw [v (2 * l) (by omega) (by omega), v (2 * l + 1) (by omega) (by omega)]
      exact ⟨a, b⟩
  | .dtor k :: cs, alive, p, h, hok, hw => by
    obtain ⟨s, hs⟩ := Option.isSome_iff_exists.1 ((h.obj k).2 hw.1)
    obtain ⟨m1, e1, i1, r1, v1, n1⟩ := clean_reach h.mem h.reach (2 * k)
    obtain ⟨m2, e2, i2, r2, v2, n2⟩ := clean_reach i1 r1 (2 * k + 1)
    have hrec := execs_spec cs (alive := alive.filter (· ≠ k)) (p := setObj { p with mem := m2 } k none)
      ⟨i2, ?_, r2, ?_⟩ (fun c hc => hok c (List.mem_cons_of_mem _ hc)) hw.2
    · obtain ⟨p', e', i'⟩ := hrec
      refine ⟨p', ?_, i'⟩
      rw [execs, exec, hs]
      simp only [destroy, e1, e2, Option.map_some, Option.bind_some]
      exact e'
    · intro l
      simp only [setObj]
      by_cases hl : l = k
      · subst hl; simp
      · rw [if_neg hl, h.obj l]; simp [hl]
    · intro l hl
      simp only [setObj]
      by_cases hlk : l = k
      · subst hlk
        rw [v2 (2 * l) (by omega)]
        exact ⟨n1, n2⟩
      · have hl' : l ∉ alive := fun hc => hl (by simp [hc, hlk])
        obtain ⟨a, b⟩ := h.dead l hl'
        rw [v2 (2 * l) (by omega), v1 (2 * l) (by omega), v2 (2 * l + 1) (by omega), v1 (2 * l + 1) (by omega)]
        exact ⟨a, b⟩
  | .copyCtor k l :: cs, alive, p, h, hok, hw => (hok _ (List.mem_cons_self ..)).elim

/-- **C54** (SGD) Any program that constructs, runs and destroys SGD objects without copying them has no undefined
behaviour, releases no policy twice and, once all objects are destroyed, has released every policy exactly once. -/
theorem C54_sgd (cs : List Cmd) (hok : ∀ c ∈ cs, OkCmd c) (hw : WellFormed [] cs) :
    ∃ p, execs Prog.init cs = some p ∧ (∀ o, p.mem.log.count (.free o) ≤ 1) ∧
      (aliveAfter [] cs = [] → ∀ o, p.mem.log.count (.free o) = p.mem.log.count (.alloc o)) := by
  obtain ⟨p, e, i⟩ := execs_spec cs (alive := []) (p := Prog.init)
    ⟨inv_init, fun k => by simp [Prog.init], fun o ho => absurd rfl ho, fun k _ => ⟨rfl, rfl⟩⟩ hok hw
  refine ⟨p, e, ?_, ?_⟩
  · intro o
    have h1 := i.mem.free o
    have h2 := i.mem.alloc o
    split at h2 <;> omega
  · intro ha o
    have h1 := i.mem.free o
    have hl : p.mem.live o = none := by
      cases hc : p.mem.live o with
      | none => rfl
      | some t =>
        exfalso
        obtain ⟨v, hv⟩ := i.reach o (by rw [hc]; simp)
        have hd := i.dead (v / 2) (by rw [ha]; simp)
        rcases Nat.mod_two_eq_zero_or_one v with hm | hm
        · rw [show 2 * (v / 2) = v by omega, hv] at hd
          cases hd.1
        · rw [show 2 * (v / 2) + 1 = v by omega, hv] at hd
          cases hd.2
    rw [hl] at h1
    simpa using h1

/-- `Optimize` twice with different matrix types, on two objects. -/
example : ∃ p, execs Prog.init [.ctor 0 true, .optimize 0 1 2 3, .ctor 1 false, .optimize 1 1 2 1, .optimize 0 3 4 1, .dtor 0,
    .dtor 1] = some p ∧ p.mem.log.count (.free 3) = 1 := by
  have := C54_sgd [.ctor 0 true, .optimize 0 1 2 3, .ctor 1 false, .optimize 1 1 2 1, .optimize 0 3 4 1, .dtor 0, .dtor 1]
    (by simp [OkCmd]) (by simp [WellFormed])
  obtain ⟨p, e, -, h⟩ := this
  refine ⟨p, e, ?_⟩
  rw [h (by simp [aliveAfter])]
  have : (execs Prog.init [.ctor 0 true, .optimize 0 1 2 3, .ctor 1 false, .optimize 1 1 2 1, .optimize 0 3 4 1, .dtor 0,
    .dtor 1]).map (fun p => p.mem.log.count (.alloc 3)) = some 1 := by decide
  rw [e] at this
  simpa using this

example : ∃ m, run Mem.init ([.set 1 5, .clean 1] ++ .set 0 7 :: [.set 1 3]) = some m ∧
    as m 0 7 = some { m with log := m.log ++ [.read 0 1] } := by
  obtain ⟨m, h1, h2, -⟩ := C54_as [.set 1 5, .clean 1] [.set 1 3] 0 7 (by simp [Ok]) (by decide) (by simp [Ok]) (by simp [Touches])
  exact ⟨m, h1, h2⟩

/-- Types other than `void`. -/
def Typed : Cmd → Prop
  | .optimize _ td tu _ => td ≠ 0 ∧ tu ≠ 0
  | _ => True

/-- **C55** The claim that programs with copies have no undefined behaviour … -/
def CopySafe : Prop := ∀ cs : List Cmd, (∀ c ∈ cs, Typed c) → WellFormed [] cs → (execs Prog.init cs).isSome = true

/-- … is false: copy a used optimizer, destroy both. -/
theorem C55_copy_refuted : ¬ CopySafe := by
  intro h
  have := h [.ctor 0 true, .optimize 0 1 2 1, .copyCtor 0 1, .dtor 0, .dtor 1] (by simp [Typed]) (by simp [WellFormed])
  revert this
  decide

/-- **C55** It is false even without destroying anything: after the original has run once more (which, with
`resetPolicy`, deletes the shared update policy), the copy uses a policy that no longer exists. -/
theorem C55_use_refuted : ¬ CopySafe := by
  intro h
  have := h [.ctor 0 true, .optimize 0 1 2 1, .copyCtor 0 1, .optimize 0 1 2 1, .optimize 1 1 2 1] (by simp [Typed]) (by simp [WellFormed])
  revert this
  decide

/-- Copying before the first use is safe as long as … the copy holds nothing. -/
theorem C55_fresh_copy_partial (cs : List Cmd) (r : Bool) (hok : ∀ c ∈ cs, OkCmd c) (hw : WellFormed [1, 0] cs) :
    (execs Prog.init (.ctor 0 r :: .copyCtor 0 1 :: cs)).isSome = true := by
  have hstep : execs Prog.init (.ctor 0 r :: .copyCtor 0 1 :: cs) = execs Prog.init (.ctor 0 r :: .ctor 1 r :: cs) := by
    simp only [execs, exec, Prog.init, setObj, Option.bind_some]
    simp [copy, setVar, Mem.init, Any.empty]
  rw [hstep]
  obtain ⟨p, e, -⟩ := C54_sgd (.ctor 0 r :: .ctor 1 r :: cs) (by
    intro c hc
    simp only [List.mem_cons] at hc
    rcases hc with rfl | rfl | hc
    · trivial
    · trivial
    · exact hok c hc) ⟨by simp, by simp, hw⟩
  rw [e]; rfl

end Ens.Holder
