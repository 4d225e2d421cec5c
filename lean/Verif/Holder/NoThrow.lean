import Verif.Holder.Props

/-
C54: using the policies of an SGD object never throws.
-/

namespace Ens.Holder

/-- Nothing has thrown. -/
def NT (m : Mem) : Prop := ∀ v, Ev.throw v ∉ m.log

theorem nt_setNew {m : Mem} (h : NT m) (v t : Nat) : NT (setNew m v t) := by
  intro u hu
  simp only [setNew, setVar, List.mem_append, List.mem_singleton] at hu
  rcases hu with hu | hu
  · exact h u hu
  · cases hu

theorem nt_clean {m m' : Mem} (h : NT m) {v : Nat} (hc : clean m v = some m') : NT m' := by
  unfold clean at hc
  split at hc
  · cases hc; exact h
  · split at hc
    · cases hc; exact h
    · split at hc
      · cases hc
        intro u hu
        simp only [setVar, List.mem_append, List.mem_singleton] at hu
        rcases hu with hu | hu
        · exact h u hu
        · cases hu
      · cases hc

theorem nt_as {m m' : Mem} (hi : Inv m) (h : NT m) {v t : Nat} (ht : t ≠ 0) (hty : (m.var v).type = t)
    (ha : as m v t = some m') : NT m' := by
  obtain ⟨h1, -, h3⟩ := as_spec hi v ht
  cases hh : (m.var v).held with
  | none => exact absurd hty (h3 hh)
  | some o =>
    rw [h1 o hh hty] at ha
    cases ha
    intro u hu
    simp only [List.mem_append, List.mem_singleton] at hu
    rcases hu with hu | hu
    · exact h u hu
    · cases hu

theorem nt_use (k : Nat) {td tu : Nat} (htd : td ≠ 0) (htu : tu ≠ 0) : ∀ (n : Nat) {m m' : Mem}, Inv m → NT m →
    (m.var (2 * k)).type = td → (m.var (2 * k + 1)).type = tu → use k td tu n m = some m' → NT m'
  | 0, m, m', _, h, _, _, hu => by cases hu; exact h
  | n + 1, m, m', hi, h, h1, h2, hu => by
    obtain ⟨m1, e1, i1, -, v1, l1⟩ := inv_as hi (2 * k + 1) htu
    have n1 := nt_as hi h htu h2 e1
    obtain ⟨m2, e2, i2, -, v2, l2⟩ := inv_as i1 (2 * k) htd
    have n2 := nt_as i1 n1 htd (by rw [v1]; exact h1) e2
    simp only [use, e1, e2, Option.bind_some] at hu
    exact nt_use k htd htu n i2 n2 (by rw [v2, v1]; exact h1) (by rw [v2, v1]; exact h2) hu

theorem nt_optimize {m m' : Mem} {s s' : Sgd} (hi : Inv m) (hr : Reach m) (h : NT m) {k td tu n : Nat} (htd : td ≠ 0)
    (htu : tu ≠ 0) (ho : optimize m s k td tu n = some (m', s')) : NT m' := by
  have hne : 2 * k ≠ 2 * k + 1 := by omega
  have h1 : ∃ m1, initDecay m s k td = some m1 ∧ Inv m1 ∧ Reach m1 ∧ NT m1 ∧ (m1.var (2 * k)).type = td := by
    unfold initDecay
    split
    · obtain ⟨m1, e1, i1, r1, -, -, t1⟩ := replace hi hr (2 * k) htd
      refine ⟨m1, e1, i1, r1, ?_, t1⟩
      rw [Option.map_eq_some_iff] at e1
      obtain ⟨m0, e0, rfl⟩ := e1
      exact nt_setNew (nt_clean h e0) _ _
    · rename_i hc
      refine ⟨m, rfl, hi, hr, h, ?_⟩
      simp only [has, Bool.or_eq_true, Bool.not_eq_true', not_or, Bool.not_eq_false, beq_iff_eq] at hc
      exact hc.2.symm
  obtain ⟨m1, e1, i1, r1, n1, t1⟩ := h1
  have h2 : ∃ m2 s2, initUpdate m1 s k tu = some (m2, s2) ∧ Inv m2 ∧ Reach m2 ∧ NT m2 ∧ (m2.var (2 * k)).type = td ∧
      (m2.var (2 * k + 1)).type = tu := by
    unfold initUpdate
    split
    · obtain ⟨m2, e2, i2, r2, v2, -, t2⟩ := replace i1 r1 (2 * k + 1) htu
      rw [Option.map_eq_some_iff] at e2
      obtain ⟨m0, e0, rfl⟩ := e2
      refine ⟨setNew m0 (2 * k + 1) tu, { s with isInit := true }, by rw [e0]; rfl, i2, r2, nt_setNew (nt_clean n1 e0) _ _,
        by rw [v2 _ hne]; exact t1, t2⟩
    · rename_i hc
      refine ⟨m1, s, rfl, i1, r1, n1, t1, ?_⟩
      simp only [has, Bool.or_eq_true, Bool.not_eq_true', not_or, Bool.not_eq_false, beq_iff_eq] at hc
      exact hc.2.symm
  obtain ⟨m2, s2, e2, i2, r2, n2, t2, t3⟩ := h2
  simp only [optimize, e1, e2, Option.bind_some, Option.map_eq_some_iff, Prod.mk.injEq] at ho
  obtain ⟨m3, e3, rfl, -⟩ := ho
  exact nt_use k htd htu n i2 n2 t2 t3 e3

theorem execs_nt : ∀ (cs : List Cmd) {alive : List Nat} {p p' : Prog}, PInv alive p → NT p.mem → (∀ c ∈ cs, OkCmd c) →
    WellFormed alive cs → execs p cs = some p' → NT p'.mem
  | [], _, p, p', _, h, _, _, he => by cases he; exact h
  | c :: cs, alive, p, p', hp, h, hok, hw, he => by
    simp only [execs] at he
    rw [Option.bind_eq_some_iff] at he
    obtain ⟨p1, e1, he⟩ := he
    have hw1 : WellFormed alive [c] ∧ WellFormed (aliveAfter alive [c]) cs := by
      cases c <;> simp only [WellFormed, aliveAfter] at hw ⊢ <;> first | exact ⟨⟨hw.1, trivial⟩, hw.2⟩ | skip
      · exact absurd (hok _ (List.mem_cons_self ..)) (by simp [OkCmd])
    obtain ⟨p2, e2, hp2⟩ := execs_spec [c] hp (by simpa using hok c (List.mem_cons_self ..)) hw1.1
    have : p2 = p1 := by
      simp only [execs, e1, Option.bind_some, Option.some.injEq] at e2
      exact e2.symm
    subst this
    refine execs_nt cs hp2 ?_ (fun c hc => hok c (List.mem_cons_of_mem _ hc)) hw1.2 he
    cases c with
    | ctor k r =>
      simp only [exec] at e1
      split at e1
      · cases e1
      · cases e1; exact h
    | optimize k td tu n =>
      simp only [exec] at e1
      split at e1
      · cases e1
      · rw [Option.map_eq_some_iff] at e1
        obtain ⟨⟨m, s⟩, e1, rfl⟩ := e1
        have := hok _ (List.mem_cons_self ..)
        exact nt_optimize hp.mem hp.reach h this.1 this.2 e1
    | dtor k =>
      simp only [exec] at e1
      split at e1
      · cases e1
      · rw [Option.map_eq_some_iff] at e1
        obtain ⟨m, e1, rfl⟩ := e1
        simp only [destroy] at e1
        rw [Option.bind_eq_some_iff] at e1
        obtain ⟨m1, a, b⟩ := e1
        exact nt_clean (nt_clean h a) b
    | copyCtor k l => exact absurd (hok _ (List.mem_cons_self ..)) (by simp [OkCmd])

/-- **C54** (SGD) In a program that constructs, runs and destroys SGD objects without copying them, with any sequence of
policy types, no use of an instantiated policy throws: each `Optimize` finds policies of the types it asks for. -/
theorem C54_sgd_never_throws (cs : List Cmd) (hok : ∀ c ∈ cs, OkCmd c) (hw : WellFormed [] cs) :
    ∃ p, execs Prog.init cs = some p ∧ ∀ v, Ev.throw v ∉ p.mem.log := by
  have h0 : PInv [] Prog.init :=
    ⟨inv_init, fun k => by simp [Prog.init], fun o ho => absurd rfl ho, fun k _ => ⟨rfl, rfl⟩⟩
  obtain ⟨p, e, -⟩ := execs_spec cs h0 hok hw
  exact ⟨p, e, execs_nt cs h0 (by intro v hv; cases hv) hok hw e⟩

/-- Non-vacuity: one object without `resetPolicy` used with two pairs of policy types. -/
example : (∀ c ∈ [Cmd.ctor 0 false, .optimize 0 1 2 2, .optimize 0 3 4 1, .dtor 0], OkCmd c) ∧
    WellFormed [] [Cmd.ctor 0 false, .optimize 0 1 2 2, .optimize 0 3 4 1, .dtor 0] := by simp [OkCmd, WellFormed]

end Ens.Holder
