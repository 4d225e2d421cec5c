import Mathlib.Algebra.BigOperators.Group.List.Basic
import Mathlib.Tactic.Ring
import Mathlib.Tactic.IntervalCases
import Verif.Vr.Svrg
import Verif.Vr.Sarah
import Verif.Vr.Katyusha

/-
C176: SVRG and Katyusha against explicit sequences of points, for objectives that are functions of the coordinates and callbacks that
neither stop the run nor change anything.
-/

namespace Ens.Vr

variable {W X G E : Type}

/-- The objective and gradient of a batch depend on the coordinates only, and the callbacks let the run go on unchanged. -/
structure Steady (u : User W X G E) (F : X → Nat × Nat → E) (g : X → Nat × Nat → G) : Prop where
  eval : ∀ w x a k, (u.evaluate w x a k).2 = F x (a, k)
  grad : ∀ w x a k, (u.gradient w x a k).2 = g x (a, k)
  cbEval : ∀ w x e, (u.cbEval w x e).2 = false
  cbGrad : ∀ w x γ, (u.cbGrad w x γ).2 = (γ, false)
  cbStep : ∀ w x, (u.cbStep w x).2 = (x, false)
  cbBegin : ∀ w x, (u.cbBegin w x).2 = x
  cbEnd : ∀ w x, (u.cbEnd w x).2 = x

/-! ### The batches -/

/-- Number of batches of an epoch. -/
def nb (n b : Nat) : Nat := (n + b - 1) / b

/-- Batch number `m` of an epoch: functions `m b, ..., m b + b - 1`, as far as there are any. -/
def batch (n b m : Nat) : Nat × Nat := (m * b, min b (n - m * b))

/-- Batch number `j` when epoch follows epoch. -/
def cyc (n b j : Nat) : Nat × Nat := batch n b (j % nb n b)

/-- Functions in the first `j` batches. -/
def seen (n b j : Nat) : Nat := ((List.range j).map fun i => (cyc n b i).2).sum

/-- `J` batches are the fewest with `inner` functions. -/
def IsCount (n b inner J : Nat) : Prop := inner ≤ seen n b J ∧ ∀ j < J, seen n b j < inner

theorem nb_pos {n b : Nat} (hn : 0 < n) (hb : 0 < b) : 0 < nb n b := Nat.div_pos (by omega) hb

theorem lt_nb {n b m : Nat} (hb : 0 < b) : m < nb n b ↔ m * b < n := by
  unfold nb
  rw [← Nat.succ_le_iff, Nat.le_div_iff_mul_le hb, Nat.succ_mul]
  omega

theorem chunks_eq (n b : Nat) (hb : 0 < b) : ∀ (fuel i : Nat), nb n b ≤ i + fuel →
    Sgd.chunks n b fuel (i * b) = (List.range' i (nb n b - i)).map (batch n b) := by
  intro fuel
  induction fuel with
  | zero => intro i h; simp [Sgd.chunks, show nb n b - i = 0 by omega]
  | succ fuel ih =>
    intro i h
    rw [Sgd.chunks]
    by_cases hi : i < nb n b
    · rw [if_pos ((lt_nb hb).1 hi), show i * b + b = (i + 1) * b by ring, ih (i + 1) (by omega),
        show nb n b - i = (nb n b - (i + 1)) + 1 by omega, List.range'_succ, List.map_cons]
      rfl
    · rw [if_neg (fun h => hi ((lt_nb hb).2 h)), show nb n b - i = 0 by omega]
      rfl

theorem batchList_eq {n b : Nat} (hb : 0 < b) : batchList n b = (List.range (nb n b)).map (batch n b) := by
  have h : nb n b ≤ 0 + n := by
    unfold nb
    rw [Nat.zero_add]
    rcases Nat.eq_zero_or_pos n with h | h
    · subst h
      rw [Nat.zero_add, Nat.div_eq_of_lt (by omega)]
    · exact Nat.div_le_of_le_mul (by
        obtain ⟨n, rfl⟩ : ∃ k, n = k + 1 := ⟨n - 1, by omega⟩
        obtain ⟨b, rfl⟩ : ∃ k, b = k + 1 := ⟨b - 1, by omega⟩
        have : (b + 1) * (n + 1) = b * n + b + n + 1 := by ring
        have := Nat.zero_le (b * n)
        omega)
  have := chunks_eq n b hb n 0 h
  rw [Nat.zero_mul, Nat.sub_zero, ← List.range_eq_range'] at this
  exact this

theorem cyc_facts {n b : Nat} (hn : 0 < n) (hb : 0 < b) (j : Nat) :
    (cyc n b j).1 < n ∧ 1 ≤ (cyc n b j).2 ∧ (cyc n b j).2 = min b (n - (cyc n b j).1) ∧
    (cyc n b j).1 + (cyc n b j).2 ≤ n ∧ ((cyc n b j).1 + (cyc n b j).2) % n = (cyc n b (j + 1)).1 := by
  have hL := nb_pos hn hb
  have hm : j % nb n b < nb n b := Nat.mod_lt _ hL
  have h1 := (lt_nb hb).1 hm
  simp only [cyc, batch]
  refine ⟨h1, by omega, trivial, by omega, ?_⟩
  have hj1 : (j + 1) % nb n b = if j % nb n b + 1 = nb n b then 0 else j % nb n b + 1 := by
    rw [Nat.add_mod]
    by_cases h : nb n b = 1
    · rw [h]; simp [Nat.mod_one]
    · rw [Nat.mod_eq_of_lt (show 1 < nb n b by omega)]
      split
      · rename_i hc; rw [hc, Nat.mod_self]
      · exact Nat.mod_eq_of_lt (by omega)
  rw [hj1]
  have hs : (j % nb n b + 1) * b = j % nb n b * b + b := by ring
  split
  · rename_i hc
    have : ¬ (j % nb n b + 1) < nb n b := by omega
    rw [lt_nb hb] at this
    rw [show min b (n - j % nb n b * b) = n - j % nb n b * b by omega,
      show j % nb n b * b + (n - j % nb n b * b) = n by omega, Nat.mod_self, Nat.zero_mul]
  · rename_i hc
    have : (j % nb n b + 1) < nb n b := by omega
    rw [lt_nb hb] at this
    rw [show min b (n - j % nb n b * b) = b by omega, Nat.mod_eq_of_lt (by omega), hs]

theorem seen_succ (n b j : Nat) : seen n b (j + 1) = seen n b j + (cyc n b j).2 := by
  simp [seen, List.range_succ]

theorem seen_ge {n b : Nat} (hn : 0 < n) (hb : 0 < b) (j : Nat) : j ≤ seen n b j := by
  induction j with
  | zero => exact Nat.zero_le _
  | succ j ih =>
    have := (cyc_facts hn hb j).2.1
    rw [seen_succ]; omega

theorem exists_count {n b : Nat} (hn : 0 < n) (hb : 0 < b) (inner : Nat) : ∃ J, IsCount n b inner J := by
  classical
  have h : ∃ J, inner ≤ seen n b J := ⟨inner, seen_ge hn hb inner⟩
  exact ⟨Nat.find h, Nat.find_spec h, fun j hj => not_le.1 (Nat.find_min h hj)⟩

/-! ### The loops over all batches -/

/-- The whole objective, batch after batch. -/
def total (u : User W X G E) (F : X → Nat × Nat → E) (b : Nat) (x : X) : E :=
  ((List.range (nb u.n b)).map fun m => F x (batch u.n b m)).foldl u.addE u.zero

/-- The whole gradient divided by the number of functions: the first batch at `x₁`, the others at `x₂`. -/
def avgGrad (u : User W X G E) (g : X → Nat × Nat → G) (b : Nat) (x₁ x₂ : X) : G :=
  u.divG (((List.range (nb u.n b - 1)).map fun m => g x₂ (batch u.n b (m + 1))).foldl u.addG (g x₁ (batch u.n b 0))) u.n

variable {u : User W X G E} {F : X → Nat × Nat → E} {g : X → Nat × Nat → G}

theorem evalAll_steady (hu : Steady u F g) {b : Nat} (hb : 0 < b) (s : S W) (x : X) :
    (evalAll u b s x).2 = total u F b x ∧ (evalAll u b s x).1.term = s.term := by
  unfold evalAll total
  rw [batchList_eq hb]
  have : ∀ (l : List Nat) (s : S W) (e : E),
      ((l.map (batch u.n b)).foldl (fun a p => ((evalAt u a.1 x p).1, u.addE a.2 (evalAt u a.1 x p).2)) (s, e)).2 =
        (l.map fun m => F x (batch u.n b m)).foldl u.addE e ∧
      ((l.map (batch u.n b)).foldl (fun a p => ((evalAt u a.1 x p).1, u.addE a.2 (evalAt u a.1 x p).2)) (s, e)).1.term =
        s.term := by
    intro l
    induction l with
    | nil => intro s e; exact ⟨rfl, rfl⟩
    | cons m l ih =>
      intro s e
      simp only [List.map_cons, List.foldl_cons]
      obtain ⟨h1, h2⟩ := ih (evalAt u s x (batch u.n b m)).1 (u.addE e (evalAt u s x (batch u.n b m)).2)
      rw [h1, h2]
      simp only [evalAt, S.note, hu.eval, hu.cbEval, Bool.or_false]
      exact ⟨trivial, trivial⟩
  exact this _ s u.zero

theorem gradAt_steady (hu : Steady u F g) (s : S W) (x : X) (p : Nat × Nat) :
    (gradAt u s x p).2 = g x p ∧ (gradAt u s x p).1.term = s.term := by
  simp only [gradAt, S.note, hu.grad, hu.cbGrad, Bool.or_false]
  exact ⟨trivial, trivial⟩

theorem gradQuiet_steady (hu : Steady u F g) (s : S W) (x : X) (p : Nat × Nat) :
    (gradQuiet u s x p).2 = g x p ∧ (gradQuiet u s x p).1.term = s.term := by
  simp only [gradQuiet, S.note, hu.grad, Bool.or_false]
  exact ⟨trivial, trivial⟩

theorem stepAt_steady (hu : Steady u F g) (s : S W) (x : X) :
    (stepAt u s x).2 = x ∧ (stepAt u s x).1.term = s.term := by
  simp only [stepAt, S.note, hu.cbStep, Bool.or_false]
  exact ⟨trivial, trivial⟩

theorem gradLate_steady (hu : Steady u F g) (s : S W) (x : X) (p : Nat × Nat) :
    (gradLate u s x p).2 = g x p ∧ (gradLate u s x p).1.term = s.term :=
  ⟨hu.grad _ _ _ _, (gradAt_steady hu s x p).2⟩

theorem fullGrad_steady (hu : Steady u F g) (hn : 0 < u.n) {b : Nat} (hb : 0 < b)
    {rest : S W → X → Nat × Nat → S W × G}
    (hr : ∀ s x p, (rest s x p).2 = g x p ∧ (rest s x p).1.term = s.term) (s : S W) (x₁ x₂ : X) :
    ∃ r, fullGrad u rest b s x₁ x₂ = some r ∧ r.2 = avgGrad u g b x₁ x₂ ∧ r.1.term = s.term := by
  unfold fullGrad avgGrad
  have hL := nb_pos hn hb
  rw [batchList_eq hb]
  obtain ⟨L, hL'⟩ : ∃ L, nb u.n b = L + 1 := ⟨nb u.n b - 1, by omega⟩
  rw [hL', List.range_succ_eq_map, List.map_cons]
  refine ⟨_, rfl, ?_⟩
  have : ∀ (l : List Nat) (s : S W) (e : G),
      ((l.map (batch u.n b)).foldl (fun a p => ((rest a.1 x₂ p).1, u.addG a.2 (rest a.1 x₂ p).2)) (s, e)).2 =
        (l.map fun m => g x₂ (batch u.n b m)).foldl u.addG e ∧
      ((l.map (batch u.n b)).foldl (fun a p => ((rest a.1 x₂ p).1, u.addG a.2 (rest a.1 x₂ p).2)) (s, e)).1.term =
        s.term := by
    intro l
    induction l with
    | nil => intro s e; exact ⟨rfl, rfl⟩
    | cons m l ih =>
      intro s e
      simp only [List.map_cons, List.foldl_cons]
      obtain ⟨h1, h2⟩ := ih (rest s x₂ (batch u.n b m)).1 (u.addG e (rest s x₂ (batch u.n b m)).2)
      rw [h1, h2, (hr _ _ _).1, (hr _ _ _).2]
      exact ⟨rfl, rfl⟩
  obtain ⟨h1, h2⟩ := this (List.map Nat.succ (List.range L)) (gradAt u s x₁ (batch u.n b 0)).1
    (gradAt u s x₁ (batch u.n b 0)).2
  obtain ⟨g1, g2⟩ := gradAt_steady hu s x₁ (batch u.n b 0)
  simp only
  refine ⟨?_, ?_⟩
  · rw [show (gradAt u s x₁ (batch u.n b 0)) = ((gradAt u s x₁ (batch u.n b 0)).1, (gradAt u s x₁ (batch u.n b 0)).2) from rfl,
      h1, g1, List.map_map]
    rfl
  · rw [show (gradAt u s x₁ (batch u.n b 0)) = ((gradAt u s x₁ (batch u.n b 0)).1, (gradAt u s x₁ (batch u.n b 0)).2) from rfl,
      h2, g2]

/-- Values and stopping tests at the beginning of pass `k`, for a sequence of full objectives. -/
def before (u : User W X G E) (v : Nat → E) : Nat → E
  | 0 => u.dblMax
  | k + 1 => v k

/-- Pass `k` goes on after its tests. -/
def GoesOn (u : User W X G E) (v : Nat → E) (k : Nat) : Prop := u.isBad (v k) = false ∧ u.near (before u v k) (v k) = false

/-! ### SVRG -/

namespace Svrg

/-- One epoch: `j` inner steps from the snapshot `x₀`. -/
def inner (g : X → Nat × Nat → G) (upd : X → G → G → G → Nat → E → X) (n b : Nat) (x₀ : X) (full : G) (step : E) :
    Nat → X
  | 0 => x₀
  | j + 1 =>
    let y := inner g upd n b x₀ full step j
    upd y full (g y (cyc n b j)) (g x₀ (cyc n b j)) (cyc n b j).2 step

/-- The points and step sizes of SVRG by its definition. -/
structure Seq (u : User W X G E) (p : Params W X G E) (g : X → Nat × Nat → G) (upd : X → G → G → G → Nat → E → X)
    (dec : X → X → G → Nat → E → E) (x : X) (step : E) (xs : Nat → X) (st : Nat → E) : Prop where
  zero : xs 0 = x ∧ st 0 = step
  succ : ∀ k, ∃ J, IsCount u.n p.batchSize (if p.innerIterations = 0 then u.n else p.innerIterations) J ∧
    xs (k + 1) = inner g upd u.n p.batchSize (xs k) (avgGrad u g p.batchSize (xs k) (xs k)) (st k) J
  decay : ∀ k, st (k + 1) = dec (xs (k + 1)) (xs k) (avgGrad u g p.batchSize (xs k) (xs k))
    ((u.n + p.batchSize - 1) / p.batchSize) (st k)

variable {p : Params W X G E} {upd : X → G → G → G → Nat → E → X}

theorem inner_steady (hu : Steady u F g) (hn : 0 < u.n) (hb : 0 < p.batchSize)
    (hupd : ∀ w x full a a0 k st, (p.update w x full a a0 k st).2 = upd x full a a0 k st) (m : Nat) (x0 : X) (full : G)
    (step : E) (s : S W) (hs : s.term = false) {r : Inner W X} {fuel : Nat}
    (h : iterate (innerStep u p m x0 full step) fuel ⟨s, x0, 0, 0⟩ = some r) :
    r.s.term = false ∧ ∃ J, IsCount u.n p.batchSize m J ∧ r.x = inner g upd u.n p.batchSize x0 full step J := by
  let I : Inner W X → Prop := fun t => t.s.term = false ∧ t.cur ≤ u.n ∧ ∃ j, t.f = seen u.n p.batchSize j ∧
    (∀ i < j, seen u.n p.batchSize i < m) ∧ t.cur % u.n = (cyc u.n p.batchSize j).1 ∧
    t.x = inner g upd u.n p.batchSize x0 full step j
  have hI0 : I ⟨s, x0, 0, 0⟩ := ⟨hs, Nat.zero_le _, 0, rfl, by simp, by simp [cyc, batch], rfl⟩
  refine iterate_inv I (fun r => r.s.term = false ∧ ∃ J, IsCount u.n p.batchSize m J ∧
    r.x = inner g upd u.n p.batchSize x0 full step J) ?_ ?_ fuel _ r hI0 h
  · rintro t t' ⟨h1, h2, j, h3, h4, h5, h6⟩ ht
    unfold innerStep at ht
    split at ht
    · rename_i hlt
      obtain ⟨c1, c2, c3, c4, c5⟩ := cyc_facts hn hb j
      have hw : (wrap u p.shuffle t).cur = (cyc u.n p.batchSize j).1 ∧ (wrap u p.shuffle t).s.term = false ∧
          (wrap u p.shuffle t).x = t.x ∧ (wrap u p.shuffle t).f = t.f := by
        unfold wrap
        split
        · rename_i hz
          refine ⟨by rw [← h5, hz], ?_, rfl, rfl⟩
          dsimp only
          split <;> exact h1
        · rename_i hz
          refine ⟨?_, h1, rfl, rfl⟩
          rw [← h5, Nat.mod_eq_of_lt]
          rcases Nat.lt_or_ge t.cur u.n with h | h
          · exact h
          · exact absurd (by rw [show t.cur = u.n by omega, Nat.mod_self]) hz
      obtain ⟨w1, w2, w3, w4⟩ := hw
      simp only at ht
      rw [w1, w3, w4, ← c3] at ht
      obtain ⟨g1, g2⟩ := gradAt_steady hu (wrap u p.shuffle t).s t.x (cyc u.n p.batchSize j)
      obtain ⟨k1, k2⟩ := gradAt_steady hu (gradAt u (wrap u p.shuffle t).s t.x (cyc u.n p.batchSize j)).1 x0
        (cyc u.n p.batchSize j)
      rw [show ((cyc u.n p.batchSize j).1, (cyc u.n p.batchSize j).2) = cyc u.n p.batchSize j from rfl] at ht
      rw [if_neg (by rw [k2, g2, w2]; simp)] at ht
      cases ht
      obtain ⟨s1, s2⟩ := stepAt_steady hu
        { (gradAt u (gradAt u (wrap u p.shuffle t).s t.x (cyc u.n p.batchSize j)).1 x0 (cyc u.n p.batchSize j)).1 with
          w := (p.update (gradAt u (gradAt u (wrap u p.shuffle t).s t.x (cyc u.n p.batchSize j)).1 x0
            (cyc u.n p.batchSize j)).1.w t.x full (gradAt u (wrap u p.shuffle t).s t.x (cyc u.n p.batchSize j)).2
            (gradAt u (gradAt u (wrap u p.shuffle t).s t.x (cyc u.n p.batchSize j)).1 x0 (cyc u.n p.batchSize j)).2
            (cyc u.n p.batchSize j).2 step).1 }
        (p.update (gradAt u (gradAt u (wrap u p.shuffle t).s t.x (cyc u.n p.batchSize j)).1 x0
            (cyc u.n p.batchSize j)).1.w t.x full (gradAt u (wrap u p.shuffle t).s t.x (cyc u.n p.batchSize j)).2
            (gradAt u (gradAt u (wrap u p.shuffle t).s t.x (cyc u.n p.batchSize j)).1 x0 (cyc u.n p.batchSize j)).2
            (cyc u.n p.batchSize j).2 step).2
      refine ⟨?_, c4, j + 1, ?_, ?_, c5, ?_⟩
      · dsimp only; rw [s2]; dsimp only; rw [k2, g2, w2]
      · dsimp only; rw [seen_succ, h3]
      · intro i hi
        rcases Nat.lt_succ_iff_lt_or_eq.1 hi with hi | hi
        · exact h4 i hi
        · rw [hi, ← h3]; exact hlt
      · dsimp only; rw [s1, hupd, g1, k1, h6]; rfl
    · cases ht
  · rintro t r ⟨h1, h2, j, h3, h4, h5, h6⟩ ht
    unfold innerStep at ht
    split at ht
    · rename_i hlt
      obtain ⟨g1, g2⟩ := gradAt_steady hu (wrap u p.shuffle t).s (wrap u p.shuffle t).x
        ((wrap u p.shuffle t).cur, min p.batchSize (u.n - (wrap u p.shuffle t).cur))
      have hw : (wrap u p.shuffle t).s.term = false := by
        unfold wrap
        split
        · dsimp only
          split <;> exact h1
        · exact h1
      simp only at ht
      rw [if_neg (by rw [(gradAt_steady hu _ _ _).2, g2, hw]; simp)] at ht
      cases ht
    · rename_i hlt
      cases ht
      exact ⟨h1, j, ⟨by omega, h4⟩, h6⟩

theorem count_unique {n b inner J J' : Nat} (h : IsCount n b inner J) (h' : IsCount n b inner J') : J = J' := by
  rcases Nat.lt_trichotomy J J' with hlt | h1 | hlt
  · exact absurd h.1 (not_le.2 (h'.2 J hlt))
  · exact h1
  · exact absurd h'.1 (not_le.2 (h.2 J' hlt))

/-- **C176** On a steady objective SVRG (with update and decay policies that are functions of their arguments) computes the sequence
of its definition, and stops exactly at the first snapshot whose objective is NaN or infinite, or within tolerance of the one
before, or at the iteration limit; the value returned is the objective of the last snapshot evaluated, or, with
`exactObjective` at the limit, of the result. -/
theorem C176_svrg_is_textbook (hu : Steady u F g) (hn : 0 < u.n) (hb : 0 < p.batchSize) {dec : X → X → G → Nat → E → E}
    (hupd : ∀ w x full a a0 k st, (p.update w x full a a0 k st).2 = upd x full a a0 k st)
    (hdec : ∀ w x x0 a full k st, (p.decay w x x0 a full k st).2 = dec x x0 full k st)
    {x : X} {step : E} {xs : Nat → X} {st : Nat → E} (hseq : Seq u p g upd dec x step xs st)
    {fuel : Nat} {w : W} {e : Exit} {t : St W X E} (h : optimize u p step fuel w x = some (.ret e t)) :
    t.x = xs t.i ∧ t.step = st t.i ∧ (∀ k < t.i, GoesOn u (fun k => total u F p.batchSize (xs k)) k) ∧
    (e = .loop → p.maxIterations ≠ 0 ∧ t.i = p.maxIterations ∧ (p.exact = true → t.overall = total u F p.batchSize (xs t.i)) ∧
      (p.exact = false → t.overall = total u F p.batchSize (xs (t.i - 1)))) ∧
    (e = .bad → t.overall = total u F p.batchSize (xs t.i) ∧ u.isBad t.overall = true) ∧
    (e = .near → t.overall = total u F p.batchSize (xs t.i) ∧ u.isBad t.overall = false ∧
      u.near (before u (fun k => total u F p.batchSize (xs k)) t.i) t.overall = true) := by
  obtain ⟨hz1, hz2⟩ := hseq.zero
  let v : Nat → E := fun k => total u F p.batchSize (xs k)
  let I : St W X E → Prop := fun t => t.s.term = false ∧ t.x = xs t.i ∧ t.step = st t.i ∧ t.last = before u v t.i ∧
    (∀ k < t.i, GoesOn u v k) ∧ (t.i ≠ 0 → t.overall = v (t.i - 1))
  let Q : Res W X E → Prop := fun r => ∀ e t, r = .ret e t → t.s.term = false ∧ t.x = xs t.i ∧ t.step = st t.i ∧
    (∀ k < t.i, GoesOn u v k) ∧
    (e = .loop → p.maxIterations ≠ 0 ∧ t.i = p.maxIterations ∧ t.overall = v (t.i - 1)) ∧
    (e = .bad → t.overall = v t.i ∧ u.isBad t.overall = true) ∧
    (e = .near → t.overall = v t.i ∧ u.isBad t.overall = false ∧ u.near (before u v t.i) t.overall = true)
  unfold optimize at h
  simp only at h
  set s0 : St W X E := ⟨⟨(u.cbBegin w x).1, false, []⟩, (u.cbBegin w x).2, step, u.dblMax, u.zero, 0⟩ with hs0
  have hI0 : I s0 := by
    refine ⟨rfl, ?_, hz2.symm, rfl, ?_, ?_⟩
    · show (u.cbBegin w x).2 = xs 0
      rw [hu.cbBegin, hz1]
    · intro k hk; exact absurd hk (Nat.not_lt_zero _)
    · intro hk; exact absurd rfl hk
  cases hr : iterate (body u p) fuel s0 with
  | none => rw [hr] at h; cases h
  | some r =>
    rw [hr] at h
    have hQ : Q r := by
      refine iterate_inv (fun t => I t ∧ (p.maxIterations = 0 ∨ t.i ≤ p.maxIterations)) Q ?_ ?_ fuel s0 r
        ⟨hI0, Or.inr (Nat.zero_le _)⟩ hr
      · rintro t t' ⟨⟨h1, h2, h3, h4, h5, h6⟩, h7⟩ ht
        obtain ⟨e1, e2⟩ := evalAll_steady hu hb t.s t.x
        unfold body at ht
        split at ht
        · cases ht
        · rename_i hl
          simp only at ht
          rw [if_neg (by rw [e2, h1]; simp)] at ht
          by_cases hbad : u.isBad (evalAll u p.batchSize t.s t.x).2
          · rw [if_pos hbad] at ht; cases ht
          · rw [if_neg hbad] at ht
            by_cases hnear : u.near t.last (evalAll u p.batchSize t.s t.x).2
            · rw [if_pos hnear] at ht; cases ht
            · rw [if_neg hnear] at ht
              obtain ⟨gr, g1, g2, g3⟩ := fullGrad_steady hu hn hb (gradAt_steady hu)
                (evalAll u p.batchSize t.s t.x).1 t.x t.x
              rw [g1] at ht
              simp only at ht
              rw [if_neg (by rw [g3, e2, h1]; simp)] at ht
              split at ht
              · cases ht
              · rename_i r hr
                cases ht
                obtain ⟨i1, J, i2, i3⟩ := inner_steady (upd := upd) hu hn hb hupd _ _ _ _ _ (by rw [g3, e2, h1]) hr
                obtain ⟨J', j1, j2⟩ := hseq.succ t.i
                have hJ := count_unique i2 j1
                subst hJ
                have hx : r.x = xs (t.i + 1) := by rw [j2, i3, g2, h2, h3]
                have hv : (evalAll u p.batchSize t.s t.x).2 = v t.i := by rw [e1, h2]
                refine ⟨⟨i1, hx, ?_, ?_, ?_, ?_⟩, ?_⟩
                · dsimp only
                  rw [hdec, hseq.decay, hx, g2, h2, h3]
                · exact hv
                · intro k hk
                  rcases Nat.lt_succ_iff_lt_or_eq.1 hk with hk | hk
                  · exact h5 k hk
                  · subst hk
                    refine ⟨?_, ?_⟩
                    · rw [hv] at hbad; simpa using hbad
                    · rw [hv, h4] at hnear; simpa using hnear
                · intro _; exact hv
                · dsimp only
                  by_cases hm : p.maxIterations = 0
                  · exact Or.inl hm
                  · right
                    rcases h7 with h7 | h7
                    · exact absurd h7 hm
                    · have : ¬ limitReached p t.i = true := fun h => hl (Or.inl h)
                      simp only [limitReached, Bool.and_eq_true, decide_eq_true_eq, not_and, not_le] at this
                      exact this hm
      · rintro t r ⟨⟨h1, h2, h3, h4, h5, h6⟩, h7⟩ ht e t' hret
        subst hret
        obtain ⟨e1, e2⟩ := evalAll_steady hu hb t.s t.x
        have hv : (evalAll u p.batchSize t.s t.x).2 = v t.i := by rw [e1, h2]
        unfold body at ht
        split at ht
        · rename_i hl
          cases ht
          refine ⟨h1, h2, h3, h5, ?_, nofun, nofun⟩
          intro _
          rcases hl with hl | hl
          · simp only [limitReached, Bool.and_eq_true, decide_eq_true_eq] at hl
            rcases h7 with h7 | h7
            · exact absurd h7 hl.1
            · exact ⟨hl.1, by omega, h6 (by omega)⟩
          · rw [h1] at hl; cases hl
        · simp only at ht
          rw [if_neg (by rw [e2, h1]; simp)] at ht
          by_cases hbad : u.isBad (evalAll u p.batchSize t.s t.x).2
          · rw [if_pos hbad] at ht
            cases ht
            exact ⟨by dsimp only; rw [e2, h1], h2, h3, h5, nofun, fun _ => ⟨hv, hbad⟩, nofun⟩
          · rw [if_neg hbad] at ht
            by_cases hnear : u.near t.last (evalAll u p.batchSize t.s t.x).2
            · rw [if_pos hnear] at ht
              cases ht
              refine ⟨by dsimp only; rw [e2, h1], h2, h3, h5, nofun, nofun, fun _ => ⟨hv, by simpa using hbad, ?_⟩⟩
              dsimp only
              rw [← h4]; exact hnear
            · rw [if_neg hnear] at ht
              obtain ⟨gr, g1, g2, g3⟩ := fullGrad_steady hu hn hb (gradAt_steady hu)
                (evalAll u p.batchSize t.s t.x).1 t.x t.x
              rw [g1] at ht
              simp only at ht
              rw [if_neg (by rw [g3, e2, h1]; simp)] at ht
              split at ht <;> cases ht
    cases r with
    | stuck => cases h
    | ret e' t' =>
      obtain ⟨q1, q2, q3, q4, q5, q6, q7⟩ := hQ e' t' rfl
      simp only [Option.map_some, Option.some.injEq, Res.ret.injEq] at h
      obtain ⟨rfl, rfl⟩ := h
      have hf : (finish u p e' t').x = t'.x ∧ (finish u p e' t').step = t'.step ∧ (finish u p e' t').i = t'.i ∧
          (e' = .loop ∧ p.exact = true → (finish u p e' t').overall = v t'.i) ∧
          (¬ (e' = .loop ∧ p.exact = true) → (finish u p e' t').overall = t'.overall) := by
        unfold finish
        by_cases hc : e' = .loop ∧ p.exact = true
        · simp only [if_pos hc, hu.cbEnd]
          refine ⟨trivial, trivial, trivial, fun _ => ?_, fun h => absurd hc h⟩
          rw [(evalAll_steady hu hb t'.s t'.x).1, q2]
        · simp only [if_neg hc, hu.cbEnd]
          exact ⟨trivial, trivial, trivial, fun h => absurd h hc, fun _ => trivial⟩
      obtain ⟨f1, f2, f3, f4, f5⟩ := hf
      rw [f1, f2, f3]
      refine ⟨q2, q3, q4, ?_, ?_, ?_⟩
      · intro he
        obtain ⟨a1, a2, a3⟩ := q5 he
        refine ⟨a1, a2, fun hx => f4 ⟨he, hx⟩, fun hx => ?_⟩
        rw [f5 (by rintro ⟨-, h⟩; rw [hx] at h; cases h), a3]
      · intro he
        rw [f5 (by rintro ⟨h, -⟩; rw [he] at h; cases h)]
        exact q6 he
      · intro he
        rw [f5 (by rintro ⟨h, -⟩; rw [he] at h; cases h)]
        exact q7 he

/-- Such sequences exist. -/
theorem seq_exists (hn : 0 < u.n) (hb : 0 < p.batchSize) (dec : X → X → G → Nat → E → E) (x : X) (step : E) :
    ∃ xs st, Seq u p g upd dec x step xs st := by
  obtain ⟨J, hJ⟩ := exists_count hn hb (if p.innerIterations = 0 then u.n else p.innerIterations)
  let nx : X × E → X := fun q => inner g upd u.n p.batchSize q.1 (avgGrad u g p.batchSize q.1 q.1) q.2 J
  let next : X × E → X × E := fun q => (nx q, dec (nx q) q.1 (avgGrad u g p.batchSize q.1 q.1)
    ((u.n + p.batchSize - 1) / p.batchSize) q.2)
  let f : Nat → X × E := fun k => Nat.rec (x, step) (fun _ q => next q) k
  exact ⟨fun k => (f k).1, fun k => (f k).2, ⟨rfl, rfl⟩, fun k => ⟨J, hJ, rfl⟩, fun k => rfl⟩

end Svrg

/-! ### Katyusha -/

namespace Katyusha

variable {W E K V : Type} [Field K] [LinearOrder K] [AddCommGroup V] [Module K V]

/-- The sequences of Katyusha: `pt k j`, `y k j`, `z k j` after `j` inner steps of epoch `k`, and the snapshots. `r` is the ratio
of the weights of the snapshot, `N` what the weighted sum is divided by. -/
structure Seq (u : User W V V E) (p : Params K) (g : V → Nat × Nat → V) (inner m : Nat) (α r N : K) (x₀ x₁ : V)
    (snap : Nat → V) (pt y z : Nat → Nat → V) : Prop where
  zero : snap 0 = x₀ ∧ y 0 0 = x₀ ∧ z 0 0 = x₀ ∧ pt 0 0 = x₁
  couple : ∀ k j, pt k (j + 1) = p.tau1 • z k j + (1 / 2 : K) • snap k + (1 - p.tau1 - 1 / 2) • y k j
  mirror : ∀ k j, z k (j + 1) = z k j - α • (avgGrad u g p.batchSize (pt k 0) (snap k) +
    (1 / (p.batchSize : K)) • (g (pt k (j + 1)) (cyc u.n p.batchSize j) - g (snap k) (cyc u.n p.batchSize j)))
  plain : p.proximal = false → ∀ k j, y k (j + 1) = pt k (j + 1) + p.tau1 • (z k (j + 1) - z k j)
  proximal : p.proximal = true → ∀ k j, y k (j + 1) = pt k (j + 1) +
    (1 / (3 * p.lipschitz)) • ((List.range j).map fun i => r ^ i • pt k (i + 1)).sum
  epoch : ∀ k, ∃ J, IsCount u.n p.batchSize inner J ∧ pt (k + 1) 0 = pt k J ∧ y (k + 1) 0 = y k J ∧ z (k + 1) 0 = z k J ∧
    snap (k + 1) = N⁻¹ • ((List.range J).map fun j => r ^ j • pt k (j + 1)).sum
  sizes : inner = (if p.innerIterations = 0 then u.n else p.innerIterations) ∧
    m = inner / p.batchSize + (if u.n % p.batchSize = 0 then 0 else 1)
  consts : α = 1 / (3 * p.tau1 * p.lipschitz) ∧ r = 1 + min (α * p.convexity) ((inner : K) / 4) ∧
    N = r ^ m + r * ((List.range m).map fun i => r ^ i).sum

variable {u : User W V V E} {F : V → Nat × Nat → E} {g : V → Nat × Nat → V} {p : Params K}

theorem inner_steady {inn m : Nat} {α r N : K} {x₀ x₁ : V} {snap : Nat → V} {pt y z : Nat → Nat → V}
    (hu : Steady u F g) (hn : 0 < u.n) (hb : 0 < p.batchSize)
    (hseq : Seq u p g inn m α r N x₀ x₁ snap pt y z) (k : Nat) (s : S W) (hs : s.term = false)
    {q : Inner W K V} {fuel : Nat}
    (h : iterate (innerStep u p inn r (snap k) (avgGrad u g p.batchSize (pt k 0) (snap k))) fuel
      ⟨s, pt k 0, y k 0, z k 0, 0, 1, 0, 0⟩ = some q) :
    q.s.term = false ∧ ∃ J, IsCount u.n p.batchSize inn J ∧ q.x = pt k J ∧ q.y = y k J ∧ q.z = z k J ∧
      q.w = ((List.range J).map fun i => r ^ i • pt k (i + 1)).sum := by
  let I : Inner W K V → Prop := fun t => t.s.term = false ∧ t.cur ≤ u.n ∧ ∃ j, t.f = seen u.n p.batchSize j ∧
    (∀ i < j, seen u.n p.batchSize i < inn) ∧ t.cur % u.n = (cyc u.n p.batchSize j).1 ∧
    t.x = pt k j ∧ t.y = y k j ∧ t.z = z k j ∧ t.w = ((List.range j).map fun i => r ^ i • pt k (i + 1)).sum ∧
    t.cw = r ^ j
  have hI0 : I ⟨s, pt k 0, y k 0, z k 0, 0, 1, 0, 0⟩ :=
    ⟨hs, Nat.zero_le _, 0, rfl, by simp, by simp [cyc, batch], rfl, rfl, rfl, by simp, by simp⟩
  refine iterate_inv I (fun q => q.s.term = false ∧ ∃ J, IsCount u.n p.batchSize inn J ∧ q.x = pt k J ∧ q.y = y k J ∧
    q.z = z k J ∧ q.w = ((List.range J).map fun i => r ^ i • pt k (i + 1)).sum) ?_ ?_ fuel _ q hI0 h
  · rintro t t' ⟨h1, h2, j, h3, h4, h5, h6, h7, h8, h9, h10⟩ ht
    unfold innerStep at ht
    split at ht
    · rename_i hlt
      obtain ⟨c1, c2, c3, c4, c5⟩ := cyc_facts hn hb j
      have hw : (wrap u p.shuffle t).cur = (cyc u.n p.batchSize j).1 ∧ (wrap u p.shuffle t).s.term = false ∧
          (wrap u p.shuffle t).y = t.y ∧ (wrap u p.shuffle t).z = t.z ∧ (wrap u p.shuffle t).w = t.w ∧
          (wrap u p.shuffle t).cw = t.cw ∧ (wrap u p.shuffle t).f = t.f := by
        unfold wrap
        split
        · rename_i hz
          refine ⟨by rw [← h5, hz], ?_, rfl, rfl, rfl, rfl, rfl⟩
          dsimp only
          split <;> exact h1
        · rename_i hz
          refine ⟨?_, h1, rfl, rfl, rfl, rfl, rfl⟩
          rw [← h5, Nat.mod_eq_of_lt]
          rcases Nat.lt_or_ge t.cur u.n with h | h
          · exact h
          · exact absurd (by rw [show t.cur = u.n by omega, Nat.mod_self]) hz
      obtain ⟨w1, w2, w3, w4, w5, w6, w7⟩ := hw
      simp only at ht
      cases ht
      have hpt : p.tau1 • (wrap u p.shuffle t).z + (1 / 2 : K) • snap k +
          (1 - p.tau1 - 1 / 2) • (wrap u p.shuffle t).y = pt k (j + 1) := by
        rw [hseq.couple, w3, w4, h7, h8]
      have hz' : (mirror p (wrap u p.shuffle t) (pt k (j + 1)) (avgGrad u g p.batchSize (pt k 0) (snap k))
          (g (pt k (j + 1)) (cyc u.n p.batchSize j)) (g (snap k) (cyc u.n p.batchSize j))).1 = z k (j + 1) := by
        rw [hseq.mirror, hseq.consts.1, ← h8, ← w4]
        rfl
      have hy' : (mirror p (wrap u p.shuffle t) (pt k (j + 1)) (avgGrad u g p.batchSize (pt k 0) (snap k))
          (g (pt k (j + 1)) (cyc u.n p.batchSize j)) (g (snap k) (cyc u.n p.batchSize j))).2 = y k (j + 1) := by
        unfold mirror at hz' ⊢
        simp only at hz' ⊢
        cases hp : p.proximal with
        | true =>
          rw [hseq.proximal hp, ← h9, ← w5]
          rfl
        | false =>
          rw [hz', hseq.plain hp, w4, h8]
          rfl
      simp only [hpt]
      rw [w1, ← c3, w5, w6, w7]
      rw [show ((cyc u.n p.batchSize j).1, (cyc u.n p.batchSize j).2) = cyc u.n p.batchSize j from rfl]
      obtain ⟨s1, s2⟩ := stepAt_steady hu (wrap u p.shuffle t).s (pt k (j + 1))
      simp only [s1]
      obtain ⟨g1, g2⟩ := gradAt_steady hu (stepAt u (wrap u p.shuffle t).s (pt k (j + 1))).1 (pt k (j + 1))
        (cyc u.n p.batchSize j)
      obtain ⟨k1, k2⟩ := gradAt_steady hu (gradAt u (stepAt u (wrap u p.shuffle t).s (pt k (j + 1))).1 (pt k (j + 1))
        (cyc u.n p.batchSize j)).1 (snap k) (cyc u.n p.batchSize j)
      rw [g1, k1, hz', hy']
      refine ⟨by dsimp only; rw [k2, g2, s2, w2], c4, j + 1, ?_, ?_, c5, rfl, rfl, rfl, ?_, ?_⟩
      · dsimp only; rw [seen_succ, h3]
      · intro i hi
        rcases Nat.lt_succ_iff_lt_or_eq.1 hi with hi | hi
        · exact h4 i hi
        · rw [hi, ← h3]; exact hlt.1
      · dsimp only; rw [List.range_succ, List.map_append, List.sum_append, h9, h10]; simp
      · dsimp only; rw [h10, pow_succ]
    · cases ht
  · rintro t q ⟨h1, h2, j, h3, h4, h5, h6, h7, h8, h9, h10⟩ ht
    unfold innerStep at ht
    split at ht
    · cases ht
    · rename_i hlt
      cases ht
      exact ⟨h1, j, ⟨not_lt.1 fun hc => hlt ⟨by rw [h3]; exact hc, h1⟩, h4⟩, h6, h7, h8, h9⟩

/-- **C176** On a steady objective Katyusha computes the sequences of its definition, and stops exactly at the first snapshot
whose objective is NaN or infinite, or within tolerance of the one before, or at the iteration limit. The coordinates handed
back are the last point of the last epoch, not a snapshot. -/
theorem C176_katyusha_is_textbook {inn m : Nat} {α r N : K} {snap : Nat → V} {pt y z : Nat → Nat → V}
    (hu : Steady u F g) (hn : 0 < u.n) (hb : 0 < p.batchSize) {x : V}
    (hseq : Seq u p g inn m α r N x x snap pt y z)
    {fuel : Nat} {w : W} {e : Exit} {t : St W E V} (h : optimize u p fuel w x = some (.ret e t)) :
    t.x = pt t.i 0 ∧ (∀ k < t.i, GoesOn u (fun k => total u F p.batchSize (snap k)) k) ∧
    (e = .loop → p.maxIterations ≠ 0 ∧ t.i = p.maxIterations ∧ (p.exact = true → t.overall = total u F p.batchSize t.x) ∧
      (p.exact = false → t.overall = total u F p.batchSize (snap (t.i - 1)))) ∧
    (e = .bad → t.overall = total u F p.batchSize (snap t.i) ∧ u.isBad t.overall = true) ∧
    (e = .near → t.overall = total u F p.batchSize (snap t.i) ∧ u.isBad t.overall = false ∧
      u.near (before u (fun k => total u F p.batchSize (snap k)) t.i) t.overall = true) := by
  obtain ⟨hz1, hz2, hz3, hz4⟩ := hseq.zero
  obtain ⟨hi1, hi2⟩ := hseq.sizes
  obtain ⟨hc1, hc2, hc3⟩ := hseq.consts
  have hinn : effInner u.n p = inn := hi1.symm
  have hr' : ratio u.n p = r := by
    rw [hc2, ratio, hinn, one_div_div, hc1]
    rfl
  have hm : numBatches u.n p = m := by
    rw [hi2, numBatches, hinn]
    by_cases h : u.n % p.batchSize = 0 <;> simp [h]
  have hN : normalizer u.n p = N⁻¹ := by
    rw [normalizer, hr', hm, normLoop_eq, hc3, one_div]
  let v : Nat → E := fun k => total u F p.batchSize (snap k)
  let I : St W E V → Prop := fun t => t.s.term = false ∧ t.x = pt t.i 0 ∧ t.x0 = snap t.i ∧ t.y = y t.i 0 ∧ t.z = z t.i 0 ∧
    t.last = before u v t.i ∧ (∀ k < t.i, GoesOn u v k) ∧ (t.i ≠ 0 → t.overall = v (t.i - 1))
  let Q : Res W E V → Prop := fun r => ∀ e t, r = .ret e t → t.s.term = false ∧ t.x = pt t.i 0 ∧
    (∀ k < t.i, GoesOn u v k) ∧
    (e = .loop → p.maxIterations ≠ 0 ∧ t.i = p.maxIterations ∧ t.overall = v (t.i - 1)) ∧
    (e = .bad → t.overall = v t.i ∧ u.isBad t.overall = true) ∧
    (e = .near → t.overall = v t.i ∧ u.isBad t.overall = false ∧ u.near (before u v t.i) t.overall = true)
  unfold optimize at h
  simp only at h
  set s0 : St W E V := ⟨⟨(u.cbBegin w x).1, false, []⟩, (u.cbBegin w x).2, x, x, x, u.dblMax, u.zero, 0⟩ with hs0
  have hI0 : I s0 := by
    refine ⟨rfl, ?_, hz1.symm, hz2.symm, hz3.symm, rfl, ?_, ?_⟩
    · show (u.cbBegin w x).2 = pt 0 0
      rw [hu.cbBegin, hz4]
    · intro k hk; exact absurd hk (Nat.not_lt_zero _)
    · intro hk; exact absurd rfl hk
  cases hr : iterate (body u p) fuel s0 with
  | none => rw [hr] at h; cases h
  | some r =>
    rw [hr] at h
    have hQ : Q r := by
      refine iterate_inv (fun t => I t ∧ (p.maxIterations = 0 ∨ t.i ≤ p.maxIterations)) Q ?_ ?_ fuel s0 r
        ⟨hI0, Or.inr (Nat.zero_le _)⟩ hr
      · rintro t t' ⟨⟨h1, h2, h2', hy, hz, h4, h5, h6⟩, h7⟩ ht
        obtain ⟨e1, e2⟩ := evalAll_steady hu hb t.s t.x0
        unfold body at ht
        split at ht
        · cases ht
        · rename_i hl
          simp only at ht
          by_cases hbad : u.isBad (evalAll u p.batchSize t.s t.x0).2
          · rw [if_pos hbad] at ht; cases ht
          · rw [if_neg hbad] at ht
            by_cases hnear : u.near t.last (evalAll u p.batchSize t.s t.x0).2
            · rw [if_pos hnear] at ht; cases ht
            · rw [if_neg hnear] at ht
              obtain ⟨gr, g1, g2, g3⟩ := fullGrad_steady hu hn hb (gradLate_steady hu)
                (evalAll u p.batchSize t.s t.x0).1 t.x t.x0
              rw [g1] at ht
              simp only at ht
              rw [hinn, hr', g2, h2, h2', hy, hz] at ht
              split at ht
              · cases ht
              · rename_i q hq
                cases ht
                obtain ⟨i1, J, i2, i3, i4, i5, i6⟩ := inner_steady hu hn hb hseq t.i gr.1 (by rw [g3, e2, h1]) hq
                obtain ⟨J', j1, j2, j3, j4, j5⟩ := hseq.epoch t.i
                have hJ := Svrg.count_unique i2 j1
                subst hJ
                have hv : (evalAll u p.batchSize t.s (snap t.i)).2 = v t.i := by rw [← h2', e1, h2']
                rw [h2'] at hbad hnear
                refine ⟨⟨i1, ?_, ?_, ?_, ?_, ?_, ?_, ?_⟩, ?_⟩
                · dsimp only; rw [i3, j2]
                · dsimp only; rw [hN, i6, j5]
                · dsimp only; rw [i4, j3]
                · dsimp only; rw [i5, j4]
                · dsimp only; rw [hv]; rfl
                · intro k hk
                  rcases Nat.lt_succ_iff_lt_or_eq.1 hk with hk | hk
                  · exact h5 k hk
                  · subst hk
                    refine ⟨?_, ?_⟩
                    · rw [hv] at hbad; simpa using hbad
                    · rw [hv, h4] at hnear; simpa using hnear
                · intro _; dsimp only; rw [hv]; rfl
                · dsimp only
                  by_cases hm : p.maxIterations = 0
                  · exact Or.inl hm
                  · right
                    rcases h7 with h7 | h7
                    · exact absurd h7 hm
                    · have : ¬ limitReached p t.i = true := fun h => hl (Or.inl h)
                      simp only [limitReached, Bool.and_eq_true, decide_eq_true_eq, not_and, not_le] at this
                      exact this hm
      · rintro t r ⟨⟨h1, h2, h2', hy, hz, h4, h5, h6⟩, h7⟩ ht e t' hret
        subst hret
        obtain ⟨e1, e2⟩ := evalAll_steady hu hb t.s t.x0
        have hv : (evalAll u p.batchSize t.s t.x0).2 = v t.i := by rw [e1, h2']
        unfold body at ht
        split at ht
        · rename_i hl
          cases ht
          refine ⟨h1, h2, h5, ?_, nofun, nofun⟩
          intro _
          rcases hl with hl | hl
          · simp only [limitReached, Bool.and_eq_true, decide_eq_true_eq] at hl
            rcases h7 with h7 | h7
            · exact absurd h7 hl.1
            · exact ⟨hl.1, by omega, h6 (by omega)⟩
          · rw [h1] at hl; cases hl
        · simp only at ht
          by_cases hbad : u.isBad (evalAll u p.batchSize t.s t.x0).2
          · rw [if_pos hbad] at ht
            cases ht
            exact ⟨by dsimp only; rw [e2, h1], h2, h5, nofun, fun _ => ⟨hv, hbad⟩, nofun⟩
          · rw [if_neg hbad] at ht
            by_cases hnear : u.near t.last (evalAll u p.batchSize t.s t.x0).2
            · rw [if_pos hnear] at ht
              cases ht
              refine ⟨by dsimp only; rw [e2, h1], h2, h5, nofun, nofun, fun _ => ⟨hv, by simpa using hbad, ?_⟩⟩
              dsimp only
              rw [← h4]; exact hnear
            · rw [if_neg hnear] at ht
              obtain ⟨gr, g1, g2, g3⟩ := fullGrad_steady hu hn hb (gradLate_steady hu)
                (evalAll u p.batchSize t.s t.x0).1 t.x t.x0
              rw [g1] at ht
              simp only at ht
              split at ht <;> cases ht
    cases r with
    | stuck => cases h
    | ret e' t' =>
      obtain ⟨q1, q2, q4, q5, q6, q7⟩ := hQ e' t' rfl
      simp only [Option.map_some, Option.some.injEq, Res.ret.injEq] at h
      obtain ⟨rfl, rfl⟩ := h
      have hf : (finish u p e' t').x = t'.x ∧ (finish u p e' t').i = t'.i ∧
          (e' = .loop ∧ p.exact = true → (finish u p e' t').overall = total u F p.batchSize t'.x) ∧
          (¬ (e' = .loop ∧ p.exact = true) → (finish u p e' t').overall = t'.overall) := by
        unfold finish
        by_cases hc : e' = .loop ∧ p.exact = true
        · simp only [if_pos hc, hu.cbEnd]
          refine ⟨trivial, trivial, fun _ => ?_, fun h => absurd hc h⟩
          rw [(evalAll_steady hu hb t'.s t'.x).1]
        · simp only [if_neg hc, hu.cbEnd]
          exact ⟨trivial, trivial, fun h => absurd h hc, fun _ => trivial⟩
      obtain ⟨f1, f3, f4, f5⟩ := hf
      rw [f1, f3]
      refine ⟨q2, q4, ?_, ?_, ?_⟩
      · intro he
        obtain ⟨a1, a2, a3⟩ := q5 he
        refine ⟨a1, a2, fun hx => f4 ⟨he, hx⟩, fun hx => ?_⟩
        rw [f5 (by rintro ⟨-, h⟩; rw [hx] at h; cases h), a3]
      · intro he
        rw [f5 (by rintro ⟨h, -⟩; rw [he] at h; cases h)]
        exact q6 he
      · intro he
        rw [f5 (by rintro ⟨h, -⟩; rw [he] at h; cases h)]
        exact q7 he

/-- Such sequences exist. -/
theorem seq_exists (hn : 0 < u.n) (hb : 0 < p.batchSize) (x : V) :
    ∃ inn m α r N snap pt y z, Seq u p g inn m α r N x x snap pt y z := by
  obtain ⟨inn, hinn⟩ : ∃ i, i = (if p.innerIterations = 0 then u.n else p.innerIterations) := ⟨_, rfl⟩
  obtain ⟨m, hm⟩ : ∃ m, m = inn / p.batchSize + (if u.n % p.batchSize = 0 then 0 else 1) := ⟨_, rfl⟩
  obtain ⟨α, hα⟩ : ∃ α : K, α = 1 / (3 * p.tau1 * p.lipschitz) := ⟨_, rfl⟩
  obtain ⟨r, hr⟩ : ∃ r : K, r = 1 + min (α * p.convexity) ((inn : K) / 4) := ⟨_, rfl⟩
  obtain ⟨N, hN⟩ : ∃ N : K, N = r ^ m + r * ((List.range m).map fun i => r ^ i).sum := ⟨_, rfl⟩
  obtain ⟨J, hJ⟩ := exists_count hn hb inn
  -- one epoch, from the snapshot, the point, `y` and `z`; the fourth component is the weighted sum
  let stp : V × V × V × V → Nat → V × V × V × V → V × V × V × V := fun c j q =>
    let pt := p.tau1 • q.2.2.1 + (1 / 2 : K) • c.1 + (1 - p.tau1 - 1 / 2) • q.2.1
    let z := q.2.2.1 - α • (avgGrad u g p.batchSize c.2.1 c.1 +
      (1 / (p.batchSize : K)) • (g pt (cyc u.n p.batchSize j) - g c.1 (cyc u.n p.batchSize j)))
    (pt, if p.proximal = true then pt + (1 / (3 * p.lipschitz)) • q.2.2.2 else pt + p.tau1 • (z - q.2.2.1), z,
      q.2.2.2 + r ^ j • pt)
  let ep : V × V × V × V → Nat → V × V × V × V := fun c j => Nat.rec (c.2.1, c.2.2.1, c.2.2.2, 0) (fun j q => stp c j q) j
  let nx : V × V × V × V → V × V × V × V := fun c => (N⁻¹ • (ep c J).2.2.2, (ep c J).1, (ep c J).2.1, (ep c J).2.2.1)
  let co : Nat → V × V × V × V := fun k => Nat.rec (x, x, x, x) (fun _ c => nx c) k
  have hw : ∀ c j, (ep c j).2.2.2 = ((List.range j).map fun i => r ^ i • (ep c (i + 1)).1).sum := by
    intro c j
    induction j with
    | zero => rfl
    | succ j ih =>
      rw [List.range_succ, List.map_append, List.sum_append, ← ih]
      simp only [List.map_cons, List.map_nil, List.sum_cons, List.sum_nil, add_zero]
      rfl
  refine ⟨inn, m, α, r, N, fun k => (co k).1, fun k j => (ep (co k) j).1, fun k j => (ep (co k) j).2.1,
    fun k j => (ep (co k) j).2.2.1, ⟨rfl, rfl, rfl, rfl⟩, fun k j => rfl, fun k j => rfl, ?_, ?_, ?_, ⟨hinn, hm⟩, hα, hr, hN⟩
  · intro hp k j
    show (stp (co k) j (ep (co k) j)).2.1 = _
    simp only [stp, hp, Bool.false_eq_true, if_false]
    rfl
  · intro hp k j
    show (stp (co k) j (ep (co k) j)).2.1 = _
    simp only [stp, hp, if_true, hw]
    rfl
  · intro k
    refine ⟨J, hJ, rfl, rfl, rfl, ?_⟩
    rw [← hw]

end Katyusha

/-! ### Examples -/

/-- Three functions `(x - i)² / 2`. -/
def three : User Nat ℚ ℚ ℚ where
  n := 3
  evaluate := fun w x a k => (w + 1, ((List.range' a k).map fun i => (x - i) ^ 2 / 2).sum)
  gradient := fun w x a k => (w + 1, ((List.range' a k).map fun i => x - i).sum)
  shuffle := fun w => w
  cbBegin := fun w x => (w, x)
  cbEval := fun w _ _ => (w, false)
  cbGrad := fun w _ g => (w, g, false)
  cbStep := fun w x => (w, x, false)
  cbEnd := fun w x => (w, x)
  addE := (· + ·)
  zero := 0
  isBad := fun _ => false
  near := fun a b => decide (|a - b| < 1 / 1000)
  dblMax := 10 ^ 308
  addG := (· + ·)
  divG := fun g n => g / n

theorem three_steady : Steady three (fun x q => ((List.range' q.1 q.2).map fun i => (x - i) ^ 2 / 2).sum)
    (fun x q => ((List.range' q.1 q.2).map fun i => x - i).sum) :=
  ⟨fun _ _ _ _ => rfl, fun _ _ _ _ => rfl, fun _ _ _ => rfl, fun _ _ _ => rfl, fun _ _ => rfl, fun _ _ => rfl, fun _ _ => rfl⟩

/-- Batches of two out of three functions: sizes 2, 1, 2, 1, ...; five functions take three batches. -/
example : (List.range 4).map (cyc 3 2) = [(0, 2), (2, 1), (0, 2), (2, 1)] ∧ IsCount 3 2 5 3 := by
  refine ⟨by decide, by decide, ?_⟩
  intro j hj
  interval_cases j <;> decide

/-- SVRG with batches of two and the plain policies. -/
def threeSvrg : Svrg.Params Nat ℚ ℚ ℚ :=
  ⟨2, 2, 0, true, true, fun w x full a a0 k st => (w, x - st * (full + (a - a0) / k)), fun w _ _ _ _ _ st => (w, st)⟩

/-- Two epochs of it. -/
example : ((Svrg.optimize three threeSvrg (1 / 2) 10 0 5).map fun r => match r with
      | .ret e t => (some e, t.x, t.i)
      | .stuck => (none, 0, 0)) = some (some Svrg.Exit.loop, 5 / 4, 2) := by decide +kernel

end Ens.Vr
