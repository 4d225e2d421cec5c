import Verif.Iqn.Line

/-
C329: IQN started at a minimiser (`iqn/iqn_impl.hpp:64-210`). The tables start at a random point (line 84), not at the coordinates given.
-/

namespace Ens.Iqn

open Ens.Vr

variable {W E K V H : Type} [Field K] [AddCommGroup V] [Module K V] [AddCommGroup H] [Module K H]

/-- Assumed of the user code called from `iqn/iqn_impl.hpp:64-210`: gradients of the whole sum `Gr`, callbacks that leave gradients and coordinates alone. -/
structure Whole (u : User W V V E) (Gr : V → V) : Prop where
  gradient : ∀ w x, (u.gradient w x 0 u.n).2 = Gr x
  cbGrad : ∀ w x g, (u.cbGrad w x g).2.1 = g
  cbBegin : ∀ w x, (u.cbBegin w x).2 = x
  cbStep : ∀ w x, (u.cbStep w x).2.1 = x
  cbEnd : ∀ w x, (u.cbEnd w x).2 = x

variable {u : User W V V E} {h : Hess K V H} {p : Params K V H E} {Gr : V → V}

theorem one_batch (hn : 0 < u.n) (hb : u.n ≤ p.batchSize) : numBatches u.n p.batchSize = 1 ∧ batch u.n p.batchSize 0 = (0, u.n) := by
  refine ⟨?_, by unfold batch; simp [hb]⟩
  unfold numBatches
  rcases Nat.lt_or_ge u.n p.batchSize with hlt | hge
  · rw [Nat.div_eq_of_lt hlt, Nat.mod_eq_of_lt hlt, if_pos (by omega)]
  · have : u.n = p.batchSize := by omega
    rw [← this, Nat.div_self hn, Nat.mod_self]; simp

/-- The tables: still those of the random point `r`, or of the coordinates. -/
def Calm (u : User W V V E) (h : Hess K V H) (Gr : V → V) (r x : V) (a : Tab W V H) : Prop :=
  a.x = x ∧ ((a.B = h.eye ∧ a.Q 0 = h.eye ∧ a.t 0 = r ∧ a.u = r ∧ a.g = (1 / (u.n : K)) • Gr r ∧ a.y 0 = (1 / (u.n : K)) • Gr r) ∨ a.t 0 = x)

theorem init_calm (hu : Whole u Gr) (hn : 0 < u.n) (hb : u.n ≤ p.batchSize) (w : W) (r x : V) :
    Calm u h Gr r x (init u h p.batchSize w r x) := by
  obtain ⟨h1, h2⟩ := one_batch hn hb
  unfold init
  rw [h1]
  simp only [List.range_one, List.foldl_cons, List.foldl_nil, initStep, h2, gradAt, hu.gradient, hu.cbGrad]
  exact ⟨rfl, .inl ⟨rfl, by simp, by simp, rfl, by simp, by simp⟩⟩

theorem visit_calm (hu : Whole u Gr) (hn : 0 < u.n) (hb : u.n ≤ p.batchSize) {r x : V} (hx : Gr x = 0) (hdiff : p.differs x x = false)
    (hsolve : p.solve (update h h.eye (x - r) (0 - (1 / (u.n : K)) • Gr r)) (h.app (update h h.eye (x - r) (0 - (1 / (u.n : K)) • Gr r)) x) = x)
    {a : Tab W V H} (ha : Calm u h Gr r x a) : Calm u h Gr r x (visit u h p a 0) := by
  obtain ⟨h1, h2⟩ := one_batch hn hb
  obtain ⟨ax, ha⟩ := ha
  unfold visit
  split
  · rename_i hd
    rcases ha with ⟨i1, i2, i3, i4, i5, i6⟩ | i
    · simp only [h1, h2, hu.gradient, hu.cbGrad, ax, hx, i1, i2, i3, i4, i5, i6, stepAt, hu.cbStep]
      refine ⟨?_, .inr (by simp)⟩
      simp only [smul_zero, Nat.cast_one, div_one, one_smul, h.app_eye, add_sub_cancel, sub_zero]
      rw [zero_sub] at hsolve ⊢
      rw [hsolve, ← add_smul, add_sub_cancel, one_smul]
    · rw [ax, i, hdiff] at hd; cases hd
  · exact ⟨ax, ha⟩

/-- **C329** (partial) With all functions in one batch, IQN started at a zero of the gradient stays there: for every random initial point,
step size, number of iterations and dimension, if the Hessian approximation of the first step is inverted there correctly. Missing: more
than one batch, where it is false. -/
theorem C329_stays_partial (hu : Whole u Gr) (hn : 0 < u.n) (hb : u.n ≤ p.batchSize) {r x : V} (hx : Gr x = 0)
    (hdiff : p.differs x x = false)
    (hsolve : p.solve (update h h.eye (x - r) (0 - (1 / (u.n : K)) • Gr r)) (h.app (update h h.eye (x - r) (0 - (1 / (u.n : K)) • Gr r)) x) = x)
    {fuel : Nat} {w : W} {e : Exit} {t : St W V H E} (hr : optimize u h p fuel w r x = some (.ret e t)) : t.a.x = x := by
  have hb0 : 0 < p.batchSize := by omega
  have hN := (one_batch hn hb).1
  have hpass : ∀ a a' : Tab W V H, Calm u h Gr r x a → pass u h p a = some a' → Calm u h Gr r x a' := fun a a' ha hp =>
    pass_inv hn hb0 (Calm u h Gr r x) (fun a it hit ha => by
      have : it = 0 := by omega
      subst this
      exact visit_calm hu hn hb hx hdiff hsolve ha) ha hp
  unfold optimize at hr
  rw [Option.map_eq_some_iff] at hr
  obtain ⟨q, hq, hr⟩ := hr
  have hinv := iterate_inv (step := body u h p) (fun t => Calm u h Gr r x t.a) (fun q => ∀ e t, q = .ret e t → Calm u h Gr r x t.a)
    (fun t t' ht hb' => by
      unfold body at hb'
      split at hb'
      · cases hp : pass u h p t.a with
        | none => rw [hp] at hb'; cases hb'
        | some a =>
          rw [hp] at hb'
          have ha := hpass _ _ ht hp
          simp only at hb'
          split at hb'
          · cases hb'
          · split at hb'
            · cases hb'
            · cases hb'; exact ha
      · cases hb')
    (fun t q ht hb' e' t' hq => by
      unfold body at hb'
      split at hb'
      · cases hp : pass u h p t.a with
        | none => rw [hp] at hb'; cases hb'; cases hq
        | some a =>
          rw [hp] at hb'
          have ha := hpass _ _ ht hp
          simp only at hb'
          split at hb'
          · cases hb'; cases hq; exact ha
          · split at hb'
            · cases hb'; cases hq; exact ha
            · cases hb'
      · cases hb'; cases hq; exact ht)
    fuel _ q (by
      have := init_calm (h := h) (p := p) hu hn hb w r x
      refine ⟨?_, this.2⟩
      show (u.cbBegin _ _).2 = x
      rw [hu.cbBegin]; exact this.1) hq
  cases q with
  | stuck => simp at hr
  | ret e' t' =>
    simp only [Res.ret.injEq] at hr
    obtain ⟨-, rfl⟩ := hr
    show (u.cbEnd _ _).2 = x
    rw [hu.cbEnd]
    exact (hinv e' t' rfl).1

/-- **C329** (one variable) For functions of one variable whose sum has its only stationary point at `x`, all in one batch: IQN with any step size,
any random initial point and any number of iterations stays at `x`. -/
theorem C329_line {K : Type} [Field K] [LinearOrder K] [IsStrictOrderedRing K] {u : User W K K E} {p : Params K K K E} {Gr : K → K}
    (hu : Whole u Gr) (hn : 0 < u.n) (hb : u.n ≤ p.batchSize) (hsolve : ∀ B v, p.solve B v = v / B)
    {r x : K} (hdiff : p.differs x x = false) (hx : ∀ z, Gr z = 0 ↔ z = x)
    {fuel : Nat} {w : W} {e : Exit} {t : St W K K E} (hr : optimize u (line K) p fuel w r x = some (.ret e t)) : t.a.x = x := by
  refine C329_stays_partial hu hn hb ((hx x).2 rfl) hdiff ?_ hr
  rw [hsolve]
  show _ * x / _ = x
  refine mul_div_cancel_left₀ _ ?_
  by_cases hrx : r = x
  · rw [hrx, (hx x).2 rfl]
    simp [update, line]
  · have hn' : (u.n : K) ≠ 0 := Nat.cast_ne_zero.2 (by omega)
    have hy : (0 : K) - (1 / (u.n : K)) • Gr r ≠ 0 := by
      rw [zero_sub, neg_ne_zero, smul_eq_mul]
      exact mul_ne_zero (one_div_ne_zero hn') fun h => hrx ((hx r).1 h)
    have hs : x - r ≠ 0 := sub_ne_zero.2 (Ne.symm hrx)
    show update (line K) 1 _ _ ≠ 0
    rw [update_line one_ne_zero hs hy]
    exact div_ne_zero hy hs

/-- The default step size, `iqn.hpp:67`. -/
def default1 (b m : Nat) : Params ℚ ℚ ℚ ℚ := { params1 b m with stepSize := 1 / 100 }

/-- The hypotheses are met: two parabolas in one batch. -/
example : ∃ a, final (optimize (bowls 2 fun _ => 1) hess1 (default1 2 4) 5 () 3 1) = some a ∧ a.1.x = 1 := by
  have hv : (final (optimize (bowls 2 fun _ => 1) hess1 (default1 2 4) 5 () 3 1)).isSome = true := by decide +kernel
  cases ho : optimize (bowls 2 fun _ => 1) hess1 (default1 2 4) 5 () 3 1 with
  | none => rw [ho] at hv; cases hv
  | some q =>
    cases q with
    | stuck => rw [ho] at hv; cases hv
    | ret e t =>
      exact ⟨(t.a, t.overall), rfl, C329_stays_partial (u := bowls 2 fun _ => 1) (h := hess1) (p := default1 2 4) (Gr := fun x => 6 * (x - 1))
        ⟨fun w x => by simp [bowls, List.range']; ring, fun _ _ _ => rfl, fun _ _ => rfl, fun _ _ => rfl, fun _ _ => rfl⟩ (by decide)
        (by decide) (by norm_num) (by decide) (by decide +kernel) ho⟩

/-- The hypotheses of `C329_line` are met by the same functions, for every random initial point and number of iterations. -/
example (m fuel : Nat) (r : ℚ) (e : Exit) (t : St Unit ℚ ℚ ℚ)
    (hr : optimize (bowls 2 fun _ => 1) (line ℚ) (default1 2 m) fuel () r 1 = some (.ret e t)) : t.a.x = 1 :=
  C329_line (Gr := fun x => 6 * (x - 1))
    ⟨fun w x => by simp [bowls, List.range']; ring, fun _ _ _ => rfl, fun _ _ => rfl, fun _ _ => rfl, fun _ _ => rfl⟩ (by simp [bowls])
    (by simp [bowls, default1, params1]) (fun _ _ => rfl) (by simp [default1, params1])
    (fun z => by
      show 6 * (z - 1) = 0 ↔ z = 1
      rw [mul_eq_zero, sub_eq_zero]; norm_num) hr

/-- **C329** (refuted) "IQN started at a minimiser of every one of the functions stays there": two parabolas with minimum 1 in batches of one,
the default step size, random initial point 3: after one pass the coordinates are not 1. -/
theorem C329_stays_refuted :
    (∀ w i, i < 2 → ((bowls 2 fun _ => 1).gradient w 1 i 1).2 = 0) ∧
    ¬ ∀ m r a, final (optimize (bowls 2 fun _ => 1) hess1 (default1 1 m) 10 () r 1) = some a → a.1.x = 1 := by
  refine ⟨fun w i _ => by simp [bowls], fun h => ?_⟩
  have hv : ((final (optimize (bowls 2 fun _ => 1) hess1 (default1 1 2) 10 () 3 1)).map fun a => decide (a.1.x = 1)) = some false := by
    decide +kernel
  rw [Option.map_eq_some_iff] at hv
  obtain ⟨a, ha, hv⟩ := hv
  exact of_decide_eq_false hv (h 2 3 a ha)

end Ens.Iqn
