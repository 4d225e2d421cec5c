import Mathlib.MeasureTheory.Measure.Lebesgue.Basic
import Verif.Trace
import Verif.Sa.Model

/-
C19, C74, C75: simulated annealing.
-/

namespace Ens.Sa

variable {W E R : Type}

/-! ### Reading a trace -/

def Ev.isMove : Ev E R → Bool
  | .move _ => true
  | _ => false

/-- Number of moves tried. -/
def moves (t : List (Ev E R)) : Nat := t.countP Ev.isMove

@[simp] theorem moves_append (a b : List (Ev E R)) : moves (a ++ b) = moves a + moves b := by
  simp [moves]

def Ev.stops : Ev E R → Bool
  | .cbEval s => s
  | .stepTaken _ s => s
  | _ => false

def anyStop (t : List (Ev E R)) : Bool := t.any Ev.stops

@[simp] theorem anyStop_append (a b : List (Ev E R)) :
    anyStop (a ++ b) = (anyStop a || anyStop b) := by simp [anyStop]

/-- Temperature after a trace starting at `T`. -/
def tempAfter (T : R) (t : List (Ev E R)) : R :=
  t.foldl (fun T e => match e with | .cool T' => T' | _ => T) T

@[simp] theorem tempAfter_append (T : R) (a b : List (Ev E R)) :
    tempAfter T (a ++ b) = tempAfter (tempAfter T a) b := by simp [tempAfter]

/-- Coordinates and energy after a trace starting at `x`. -/
def after (c : List E × Option E) (t : List (Ev E R)) : List E × Option E :=
  t.foldl (fun c e => match e with
    | .eval x e => if c.2.isNone then (x, some e) else c
    | .move m => (m.x', some m.e')
    | _ => c) c

@[simp] theorem after_append (c : List E × Option E) (a b : List (Ev E R)) :
    after c (a ++ b) = after (after c a) b := by simp [after]

def Ev.isEndOpt : Ev E R → Bool
  | .endOpt _ => true
  | _ => false

/-- Callbacks that do not change the coordinates. -/
structure Passive (env : Env W E R) : Prop where
  cbBegin : ∀ w x, (env.cbBegin w x).2 = x
  cbStep : ∀ w x, (env.cbStep w x).2.1 = x

/-- What a move looks like. -/
def MoveLaw (env : Env W E R) (n : Nat) (T₀ : R) (x₀ : List E) (pre : List (Ev E R))
    (m : Move E R) : Prop :=
  -- it starts from the coordinates and energy left by the previous move
  after (x₀, none) pre = (m.x, some m.e) ∧ m.temp = tempAfter T₀ pre ∧
  -- coordinates take turns
  m.idx = moves pre % n ∧
  -- the proposal changes one coordinate
  (∃ v, m.x[m.idx]? = some v ∧ m.prop = m.x.set m.idx (env.propose v m.size m.unif)) ∧
  -- its energy has just been computed
  (∃ pre' b, pre = pre' ++ [.eval m.prop m.newE, .cbEval b]) ∧
  -- acceptance
  m.accepted = env.accepts m.e m.newE m.temp m.xi ∧
  (m.accepted = true → m.x' = m.prop ∧ m.e' = m.newE) ∧
  (m.accepted = false → m.x' = m.x ∧ m.e' = m.e)

def EvLaw (env : Env W E R) (n : Nat) (T₀ : R) (x₀ : List E) (pre : List (Ev E R))
    (e : Ev E R) : Prop :=
  match e with
  | .beginOpt x _ => x = x₀ ∧ pre.length = 2
  | .eval x e => ∃ w, (env.evaluate w x).2 = e
  | .move m => MoveLaw env n T₀ x₀ pre m
  | .cool T => ∃ e, (after (x₀, none) pre).2 = some e ∧ T = env.cool (tempAfter T₀ pre) e
  | .endOpt x => (after (x₀, none) pre).1 = x
  | _ => True

structure Inv (env : Env W E R) (n : Nat) (T₀ : R) (x₀ : List E) (s : St W E R) : Prop where
  len : s.x.length = n
  lenM : s.moveSize.length = n
  lenA : s.accept.length = n
  cur : after (x₀, none) s.trace = (s.x, some s.energy)
  temp : s.temp = tempAfter T₀ s.trace
  idx : s.idx = moves s.trace % n
  law : Along (EvLaw env n T₀ x₀) s.trace
  stop : s.terminate = anyStop s.trace
  mem : .eval s.x s.energy ∈ s.trace
  noEnd : ∀ e ∈ s.trace, e.isEndOpt = false

theorem along_snoc₃ {α : Type} (P : List α → α → Prop) (t : List α) (a b c : α) :
    Along P (t ++ [a, b, c]) ↔ Along P t ∧ P t a ∧ P (t ++ [a]) b ∧ P (t ++ [a, b]) c := by
  rw [show t ++ [a, b, c] = ((t ++ [a]) ++ [b]) ++ [c] by simp, along_snoc, along_snoc, along_snoc]
  simp only [and_assoc, List.append_assoc, List.cons_append, List.nil_append]

theorem start_inv {env : Env W E R} (hp : Passive env) (p : Params R) (T₀ : R) (w : W)
    (x : List E) : Inv env x.length T₀ x (start env p T₀ w x) where
  len := by simp only [start]; rw [hp.cbBegin]
  lenM := by simp [start]
  lenA := by simp [start]
  cur := by simp only [start]; rw [hp.cbBegin]; rfl
  temp := rfl
  idx := by simp [start, moves, Ev.isMove]
  law := by
    show Along _ ([] ++ [_, _, _])
    rw [along_snoc₃]
    exact ⟨along_nil _, ⟨_, rfl⟩, trivial, rfl, rfl⟩
  stop := by simp [start, anyStop, Ev.stops]
  mem := by simp only [start]; rw [hp.cbBegin]; simp
  noEnd := by simp [start, Ev.isEndOpt]

theorem set_set_self {α : Type} (l : List α) (i : Nat) (v a : α) (h : l[i]? = some v) :
    (l.set i a).set i v = l := by
  rw [List.set_set]
  apply List.ext_getElem?
  intro k
  by_cases hk : k = i
  · subst hk
    have : k < l.length := by
      by_contra hc; rw [List.getElem?_eq_none (by omega)] at h; cases h
    rw [List.getElem?_set_self this, h]
  · rw [List.getElem?_set_ne (Ne.symm hk)]

/-- Everything but the index survives `advance`. -/
theorem advance_same (env : Env W E R) (p : Params R) (s : St W E R) :
    let s' := advance env p s
    s'.x = s.x ∧ s'.energy = s.energy ∧ s'.temp = s.temp ∧ s'.terminate = s.terminate ∧
    s'.trace = s.trace ∧ s'.idx = (if s.idx + 1 = s.x.length then 0 else s.idx + 1) ∧
    s'.accept.length = s.accept.length ∧ s'.frozen = s.frozen ∧ s'.w = s.w ∧
    (s.moveSize.length = s.accept.length → s'.moveSize.length = s.moveSize.length) := by
  simp only [advance]
  split_ifs <;> simp <;> omega

theorem generateMove_inv {env : Env W E R} {n : Nat} {T₀ : R} {x₀ : List E} (p : Params R)
    {s : St W E R} (h : Inv env n T₀ x₀ s) (hn : n ≠ 0) :
    ∃ s', generateMove env p s = some s' ∧ Inv env n T₀ x₀ s' ∧
      moves s'.trace = moves s.trace + 1 := by
  have hi : s.idx < n := by rw [h.idx]; exact Nat.mod_lt _ (Nat.pos_of_ne_zero hn)
  have hx : s.x[s.idx]? = some (s.x[s.idx]'(by rw [h.len]; exact hi)) := List.getElem?_eq_getElem _
  have hm : s.moveSize[s.idx]? = some (s.moveSize[s.idx]'(by rw [h.lenM]; exact hi)) :=
    List.getElem?_eq_getElem _
  generalize s.x[s.idx]'(by rw [h.len]; exact hi) = v at hx
  generalize s.moveSize[s.idx]'(by rw [h.lenM]; exact hi) = m at hm
  refine ⟨advance env p (tryMove env s v m), by simp [generateMove, hx, hm], ?_, ?_⟩
  swap
  · rw [(advance_same env p _).2.2.2.2.1]
    simp only [tryMove, moves_append]; rfl
  obtain ⟨ax, ae, at_, ast, atr, aidx, aacc, _, _, aml⟩ := advance_same env p (tryMove env s v m)
  have hres := set_set_self s.x s.idx v (env.propose v m (env.randu s.w).2) hx
  have hl : (tryMove env s v m).x.length = n := by
    simp only [tryMove]; split_ifs <;> simp [h.len]
  have hla : (tryMove env s v m).accept.length = n := by
    simp only [tryMove]; split_ifs <;> simp [h.lenA]
  have hlm : (tryMove env s v m).moveSize.length = n := h.lenM
  have hmv : moves (tryMove env s v m).trace = moves s.trace + 1 := by
    simp only [tryMove, moves_append]; rfl
  have hsi : (tryMove env s v m).idx = s.idx := rfl
  have hnn : ∀ (x : List E) (e : E) (b : Bool), after (x₀, none)
      (s.trace ++ [Ev.eval x e, Ev.cbEval b]) = after (x₀, none) s.trace := by
    intro x e b
    rw [after_append, h.cur]; rfl
  constructor
  · rw [ax, hl]
  · rw [aml (by rw [hlm, hla]), hlm]
  · rw [aacc, hla]
  · rw [ax, ae, atr]
    simp only [tryMove]
    rw [after_append]; rfl
  · rw [at_, atr]
    simp only [tryMove]
    rw [tempAfter_append, ← h.temp]; rfl
  · rw [aidx, atr, hmv, hsi, hl]
    have := h.idx
    by_cases hc : s.idx + 1 = n
    · rw [if_pos hc, Nat.add_mod, ← this]
      by_cases h1 : n = 1
      · subst h1; omega
      · rw [Nat.mod_eq_of_lt (show 1 < n by omega), hc, Nat.mod_self]
    · rw [if_neg hc, Nat.add_mod, ← this, Nat.mod_eq_of_lt (show 1 < n by omega),
        Nat.mod_eq_of_lt (show s.idx + 1 < n by omega)]
  · rw [atr]
    simp only [tryMove]
    rw [along_snoc₃]
    refine ⟨h.law, ⟨_, rfl⟩, trivial, ?_, ?_, ?_, ⟨v, hx, rfl⟩, ⟨s.trace, _, rfl⟩, rfl, ?_, ?_⟩
    · rw [hnn, h.cur]
    · rw [tempAfter_append, ← h.temp]; rfl
    · rw [moves_append, h.idx]; rfl
    · intro ha
      simp only at ha
      simp only [ha, if_true, and_self]
    · intro ha
      simp only at ha
      simp only [ha, Bool.false_eq_true, if_false, hres, and_self]
  · rw [ast, atr]
    simp [tryMove, anyStop, Ev.stops, h.stop]
  · rw [ax, ae, atr]
    simp only [tryMove]
    split_ifs with ha
    · simp
    · rw [hres]
      exact List.mem_append_left _ h.mem
  · rw [atr]
    intro e he
    simp only [tryMove, List.mem_append, List.mem_cons, List.not_mem_nil, or_false] at he
    rcases he with he | rfl | rfl | rfl
    · exact h.noEnd e he
    all_goals rfl

theorem afterMove_inv {env : Env W E R} (hp : Passive env) {n : Nat} {T₀ : R} {x₀ : List E}
    {s : St W E R} (h : Inv env n T₀ x₀ s) (oldE : E) :
    Inv env n T₀ x₀ (afterMove env oldE s) ∧
      moves (afterMove env oldE s).trace = moves s.trace := by
  have hx : (afterMove env oldE s).x = s.x := hp.cbStep _ _
  have hmv : moves (afterMove env oldE s).trace = moves s.trace := by
    simp only [afterMove, moves_append]; rfl
  refine ⟨?_, hmv⟩
  constructor
  · rw [hx]; exact h.len
  · exact h.lenM
  · exact h.lenA
  · rw [hx]
    simp only [afterMove]
    rw [after_append, h.cur]; rfl
  · simp only [afterMove]
    rw [tempAfter_append]; rfl
  · rw [hmv]; exact h.idx
  · simp only [afterMove]
    rw [along_snoc₂]
    refine ⟨h.law, trivial, s.energy, ?_, ?_⟩
    · rw [after_append, h.cur]; rfl
    · rw [tempAfter_append, ← h.temp]; rfl
  · simp [afterMove, anyStop, Ev.stops, h.stop]
  · rw [hx]
    exact List.mem_append_left _ h.mem
  · intro e he
    simp only [afterMove, List.mem_append, List.mem_cons, List.not_mem_nil, or_false] at he
    rcases he with he | rfl | rfl
    · exact h.noEnd e he
    all_goals rfl

theorem initLoop_inv {env : Env W E R} {n : Nat} {T₀ : R} {x₀ : List E} (p : Params R)
    (hn : n ≠ 0) : ∀ (k : Nat) (s : St W E R), Inv env n T₀ x₀ s →
    ∃ s', initLoop env p k s = some s' ∧ Inv env n T₀ x₀ s' ∧ moves s'.trace ≤ moves s.trace + k ∧
      (s'.terminate = false → moves s'.trace = moves s.trace + k) := by
  intro k
  induction k with
  | zero => intro s h; exact ⟨s, rfl, h, le_refl _, fun _ => rfl⟩
  | succ k ih =>
    intro s h
    obtain ⟨s1, h1, h2, h3⟩ := generateMove_inv p h hn
    simp only [initLoop, h1]
    by_cases ht : s1.terminate = true
    · simp only [ht, if_true]
      exact ⟨s1, rfl, h2, by omega, fun hf => by rw [hf] at ht; cases ht⟩
    · simp only [ht, Bool.false_eq_true, if_false]
      obtain ⟨s', h4, h5, h6, h7⟩ := ih s1 h2
      exact ⟨s', h4, h5, by omega, fun hf => by rw [h7 hf]; omega⟩

theorem mainLoop_inv {env : Env W E R} (hp : Passive env) {n : Nat} {T₀ : R} {x₀ : List E}
    (p : Params R) (hn : n ≠ 0) : ∀ (k : Nat) (s : St W E R), Inv env n T₀ x₀ s →
    ∃ s' f, mainLoop env p k s = some (s', f) ∧ Inv env n T₀ x₀ s' ∧
      moves s'.trace ≤ moves s.trace + k ∧
      (f = false → s'.terminate = false → moves s'.trace = moves s.trace + k) ∧
      (s.terminate = true → s' = s) := by
  intro k
  induction k with
  | zero =>
    intro s h
    exact ⟨s, false, rfl, h, le_refl _, fun _ _ => rfl, fun _ => rfl⟩
  | succ k ih =>
    intro s h
    by_cases h0 : s.terminate = true
    · simp only [mainLoop, h0, if_true]
      exact ⟨s, false, rfl, h, by omega, (fun _ hf => by rw [hf] at h0; cases h0), fun _ => rfl⟩
    · obtain ⟨s1, h1, h2, h3⟩ := generateMove_inv p h hn
      simp only [mainLoop, h0, h1, Bool.false_eq_true, if_false]
      by_cases ht : s1.terminate = true
      · simp only [ht, if_true]
        exact ⟨s1, false, rfl, h2, by omega, (fun _ hf => by rw [hf] at ht; cases ht), by simp⟩
      · simp only [ht, Bool.false_eq_true, if_false]
        obtain ⟨h4, h5⟩ := afterMove_inv hp h2 s.energy
        split_ifs with hfz
        · exact ⟨_, true, rfl, h4, by omega, by simp, by simp⟩
        · obtain ⟨s', f, h6, h7, h8, h9, _⟩ := ih _ h4
          exact ⟨s', f, h6, h7, by omega, fun a b => by rw [h9 a b]; omega, by simp⟩

/-- Facts of a run (helper). -/
theorem optimize_facts {env : Env W E R} (hp : Passive env) (p : Params R) (T₀ : R) (w : W)
    {x₀ : List E} (hx : x₀ ≠ []) :
    ∃ r s, optimize env p T₀ w x₀ = some r ∧ Inv env x₀.length T₀ x₀ s ∧
      r.trace = s.trace ++ [.endOpt r.x] ∧ r.x = s.x ∧ r.energy = s.energy ∧ r.temp = s.temp ∧
      moves s.trace ≤ p.initMoves + p.maxIterations ∧
      (r.frozen = false → s.terminate = false → moves s.trace = p.initMoves + p.maxIterations) := by
  have hn : x₀.length ≠ 0 := by simpa using hx
  obtain ⟨s, h1, h2, h3, h4⟩ := initLoop_inv p hn p.initMoves _ (start_inv hp p T₀ w x₀)
  obtain ⟨s', f, h5, h6, h7, h8, h9⟩ := mainLoop_inv hp p hn p.maxIterations s h2
  have h0 : moves (start env p T₀ w x₀).trace = 0 := rfl
  refine ⟨⟨s'.energy, s'.x, s'.temp, f, s'.w, s'.trace ++ [.endOpt s'.x]⟩, s', ?_, h6, rfl, rfl, rfl,
    rfl, ?_, ?_⟩
  · simp only [optimize, h1, h5]
  · omega
  · intro hf hs
    have hst : s.terminate = false := by
      by_contra hc
      rw [Bool.not_eq_false] at hc
      rw [h9 hc, hc] at hs; cases hs
    have := h8 hf hs
    have := h4 hst
    omega

/-! ### C19 -/

/-- **C19** A run on non-empty coordinates always returns, tries at most `initMoves + maxIterations`
moves (exactly that many unless frozen or stopped), and the energy it returns is one that was
computed at the coordinates it hands back; in particular, for a deterministic objective it is the
objective of the returned coordinates. -/
theorem C19_sa_returned_energy {env : Env W E R} (hp : Passive env) (p : Params R) (T₀ : R) (w : W)
    {x₀ : List E} (hx : x₀ ≠ []) :
    ∃ r, optimize env p T₀ w x₀ = some r ∧
      .eval r.x r.energy ∈ r.trace ∧
      (∀ F : List E → E, (∀ w x, (env.evaluate w x).2 = F x) → r.energy = F r.x) ∧
      (∃ t, r.trace = t ++ [.endOpt r.x] ∧ ∀ e ∈ t, e.isEndOpt = false) ∧
      moves r.trace ≤ p.initMoves + p.maxIterations ∧
      (r.frozen = false → anyStop r.trace = false →
        moves r.trace = p.initMoves + p.maxIterations) := by
  obtain ⟨r, s, h1, h2, h3, h4, h5, _, h7, h8⟩ := optimize_facts hp p T₀ w hx
  have hm : moves r.trace = moves s.trace := by rw [h3, moves_append]; rfl
  have hmem : .eval r.x r.energy ∈ s.trace := by rw [h4, h5]; exact h2.mem
  refine ⟨r, h1, ?_, ?_, ⟨s.trace, h3, h2.noEnd⟩, by omega, ?_⟩
  · rw [h3]; exact List.mem_append_left _ hmem
  · intro F hF
    obtain ⟨pre, post, he⟩ := List.append_of_mem hmem
    obtain ⟨w', hw⟩ := h2.law _ _ _ he
    rw [← hw, hF]
  · intro hf hst
    rw [hm]
    refine h8 hf ?_
    rw [h2.stop]
    rw [h3, anyStop_append] at hst
    exact (Bool.or_eq_false_iff.1 hst).1

/-- **C19** Every move of every run: starts from what the previous one left, proposes a change of
coordinate number `k mod n` only, is accepted exactly if the acceptance test says so, and otherwise
leaves coordinates and energy unchanged. -/
theorem C19_sa_moves {env : Env W E R} (hp : Passive env) (p : Params R) (T₀ : R) (w : W)
    {x₀ : List E} (hx : x₀ ≠ []) {r : Result W E R} (h : optimize env p T₀ w x₀ = some r)
    {pre post : List (Ev E R)} {m : Move E R} (he : r.trace = pre ++ .move m :: post) :
    MoveLaw env x₀.length T₀ x₀ pre m := by
  obtain ⟨r', s, h1, h2, h3, h4, h5, h6, _⟩ := optimize_facts hp p T₀ w hx
  rw [h1] at h
  cases h
  have hall : Along (EvLaw env x₀.length T₀ x₀) r.trace := by
    rw [h3, along_snoc]
    refine ⟨h2.law, ?_⟩
    show (after _ _).1 = _
    rw [h2.cur, h4]
  exact hall _ _ _ he

/-- **C19** For a deterministic objective the invariant holds at every move: the energy before and
after the move are the objective at the coordinates before and after it. -/
theorem C19_sa_energy_is_objective {env : Env W E R} (hp : Passive env) (p : Params R) (T₀ : R)
    (w : W) {x₀ : List E} (hx : x₀ ≠ []) {r : Result W E R}
    (h : optimize env p T₀ w x₀ = some r) (F : List E → E)
    (hF : ∀ w x, (env.evaluate w x).2 = F x) :
    ∀ m, .move m ∈ r.trace → m.e = F m.x ∧ m.e' = F m.x' ∧ m.newE = F m.prop := by
  obtain ⟨r', s, h1, h2, h3, h4, h5, h6, _⟩ := optimize_facts hp p T₀ w hx
  rw [h1] at h
  cases h
  have hall : Along (EvLaw env x₀.length T₀ x₀) r.trace := by
    rw [h3, along_snoc]
    refine ⟨h2.law, ?_⟩
    show (after _ _).1 = _
    rw [h2.cur, h4]
  -- the pair held after any prefix is consistent
  have key : ∀ pre post, r.trace = pre ++ post →
      ∀ x e, after (x₀, none) pre = (x, some e) → e = F x := by
    intro pre
    induction pre using List.reverseRecOn with
    | nil => intro post _ x e h; cases h
    | append_singleton pre ev ih =>
      intro post hpost x e ha
      have hp' : r.trace = pre ++ ev :: post := by rw [hpost]; simp
      have ih := ih (ev :: post) hp'
      rw [after_append] at ha
      have hl := hall _ _ _ hp'
      cases ev with
      | eval y ey =>
        simp only [after, List.foldl_cons, List.foldl_nil] at ha
        split_ifs at ha with hc
        · cases ha
          obtain ⟨w', hw'⟩ := hl
          rw [← hw', hF]
        · exact ih x e ha
      | move m =>
        simp only [after, List.foldl_cons, List.foldl_nil] at ha
        cases ha
        obtain ⟨hcur, _, _, _, ⟨pre', b, hpe⟩, _, hacc, hrej⟩ := hl
        have hme := ih _ _ hcur
        have hne : m.newE = F m.prop := by
          have := hall pre' (.eval m.prop m.newE) (.cbEval b :: .move m :: post)
            (by rw [hp', hpe]; simp)
          obtain ⟨w', hw'⟩ := this
          rw [← hw', hF]
        cases hb : m.accepted with
        | true => rw [(hacc hb).1, (hacc hb).2, hne]
        | false => rw [(hrej hb).1, (hrej hb).2, hme]
      | _ => exact ih x e ha
  intro m hm
  obtain ⟨pre, post, he⟩ := List.append_of_mem hm
  have hl : MoveLaw env x₀.length T₀ x₀ pre m := hall _ _ _ he
  obtain ⟨hcur, _, _, _, ⟨pre', b, hpe⟩, _, hacc, hrej⟩ := hl
  refine ⟨key pre _ he _ _ hcur, key (pre ++ [.move m]) post (by rw [he]; simp) _ _ ?_, ?_⟩
  · rw [after_append]; rfl
  · obtain ⟨w', hw'⟩ := hall pre' (.eval m.prop m.newE) (.cbEval b :: .move m :: post)
      (by rw [he, hpe]; simp)
    rw [← hw', hF]

/-- **C19** The acceptance test (over ℝ): a move that does not worsen the objective is always
accepted; a worsening one exactly if the draw is below `exp (-(new - old) / T)`. -/
theorem C19_sa_acceptance (prev new T xi : ℝ) :
    (new ≤ prev → acceptsR prev new T xi = true) ∧
    (prev < new → (acceptsR prev new T xi = true ↔ xi < Real.exp (-(new - prev) / T))) := by
  unfold acceptsR
  constructor
  · intro h; simp [h]
  · intro h
    simp only [decide_eq_true_eq]
    constructor
    · rintro (h' | h')
      · linarith
      · exact h'
    · exact fun h' => .inr h'

/-- **C19** Metropolis rule: for a uniform draw in [0,1) the move is accepted with probability
`min 1 (exp (-(new - old) / T))`. -/
theorem C19_sa_metropolis_probability (prev new T : ℝ) (hT : 0 < T) :
    MeasureTheory.volume {xi : ℝ | xi ∈ Set.Ico 0 1 ∧ acceptsR prev new T xi = true} =
      ENNReal.ofReal (min 1 (Real.exp (-(new - prev) / T))) := by
  rcases le_or_gt new prev with h | h
  · have h1 : (1 : ℝ) ≤ Real.exp (-(new - prev) / T) :=
      Real.one_le_exp (div_nonneg (by linarith) hT.le)
    have : {xi : ℝ | xi ∈ Set.Ico 0 1 ∧ acceptsR prev new T xi = true} = Set.Ico 0 1 := by
      ext xi; simp [(C19_sa_acceptance prev new T xi).1 h]
    rw [this, min_eq_left h1, Real.volume_Ico]; simp
  · have h1 : Real.exp (-(new - prev) / T) ≤ 1 := by
      rw [Real.exp_le_one_iff]
      exact div_nonpos_of_nonpos_of_nonneg (by linarith) hT.le
    have : {xi : ℝ | xi ∈ Set.Ico 0 1 ∧ acceptsR prev new T xi = true} =
        Set.Ico 0 (Real.exp (-(new - prev) / T)) := by
      ext xi
      simp only [Set.mem_setOf_eq, Set.mem_Ico, (C19_sa_acceptance prev new T xi).2 h]
      constructor
      · rintro ⟨⟨a, _⟩, b⟩; exact ⟨a, b⟩
      · rintro ⟨a, b⟩; exact ⟨⟨a, lt_of_lt_of_le b h1⟩, b⟩
    rw [this, min_eq_right h1, Real.volume_Ico]; simp

/-! ### Move sizes and temperature -/

/-- A property of all move sizes: held now and by every move so far. -/
def Sizes (P : R → Prop) (s : St W E R) : Prop :=
  (∀ a ∈ s.moveSize, P a) ∧ ∀ m, .move m ∈ s.trace → P m.size

theorem mem_zipWith {α β γ : Type} (f : α → β → γ) : ∀ (l : List α) (l' : List β) (c : γ),
    c ∈ List.zipWith f l l' → ∃ a ∈ l, ∃ b, c = f a b := by
  intro l
  induction l with
  | nil => simp
  | cons a l ih =>
    intro l' c h
    cases l' with
    | nil => simp at h
    | cons b l' =>
      rw [List.zipWith_cons_cons, List.mem_cons] at h
      rcases h with rfl | h
      · exact ⟨a, by simp, b, rfl⟩
      · obtain ⟨a', h1, b', h2⟩ := ih l' c h
        exact ⟨a', by simp [h1], b', h2⟩

theorem generateMove_sizes {env : Env W E R} {p : Params R} {P : R → Prop}
    (hP : ∀ a k, P a → P (env.control a k)) {s s' : St W E R} (h : Sizes P s)
    (hs : generateMove env p s = some s') : Sizes P s' := by
  unfold generateMove at hs
  split at hs
  · rename_i v m hv hm
    cases hs
    have h1 : Sizes P (tryMove env s v m) := by
      refine ⟨h.1, ?_⟩
      intro mv hmv
      simp only [tryMove, List.mem_append, List.mem_cons, List.not_mem_nil, or_false] at hmv
      rcases hmv with hmv | hmv | hmv | hmv
      · exact h.2 mv hmv
      · cases hmv
      · cases hmv
      · cases hmv
        exact h.1 m (List.mem_of_getElem? hm)
    refine ⟨?_, by rw [(advance_same env p _).2.2.2.2.1]; exact h1.2⟩
    intro a ha
    have hz : ∀ (l : List R) (l' : List Nat), (∀ a ∈ l, P a) →
        ∀ a ∈ List.zipWith env.control l l', P a := by
      intro l l' hl a ha
      obtain ⟨b, hb, k, rfl⟩ := mem_zipWith _ _ _ _ ha
      exact hP b k (hl b hb)
    simp only [advance] at ha
    split_ifs at ha
    · exact hz _ _ h1.1 a ha
    · exact h1.1 a ha
    · exact hz _ _ h1.1 a ha
    · exact h1.1 a ha
  · cases hs

theorem initLoop_sizes {env : Env W E R} {p : Params R} {P : R → Prop}
    (hP : ∀ a k, P a → P (env.control a k)) : ∀ (k : Nat) (s s' : St W E R), Sizes P s →
    initLoop env p k s = some s' → Sizes P s' := by
  intro k
  induction k with
  | zero => intro s s' h hs; cases hs; exact h
  | succ k ih =>
    intro s s' h hs
    rw [initLoop] at hs
    cases hg : generateMove env p s with
    | none => rw [hg] at hs; cases hs
    | some s1 =>
      rw [hg] at hs
      have h1 := generateMove_sizes hP h hg
      simp only at hs
      split_ifs at hs
      · cases hs; exact h1
      · exact ih s1 s' h1 hs

theorem mainLoop_sizes {env : Env W E R} {p : Params R} {P : R → Prop}
    (hP : ∀ a k, P a → P (env.control a k)) : ∀ (k : Nat) (s : St W E R) (r : St W E R × Bool),
    Sizes P s → mainLoop env p k s = some r → Sizes P r.1 := by
  intro k
  induction k with
  | zero => intro s s' h hs; cases hs; exact h
  | succ k ih =>
    intro s s' h hs
    rw [mainLoop] at hs
    split_ifs at hs
    · cases hs; exact h
    · cases hg : generateMove env p s with
      | none => rw [hg] at hs; cases hs
      | some s1 =>
        rw [hg] at hs
        have h1 := generateMove_sizes hP h hg
        have h2 : Sizes P (afterMove env s.energy s1) := by
          refine ⟨h1.1, ?_⟩
          intro mv hmv
          simp only [afterMove, List.mem_append, List.mem_cons, List.not_mem_nil, or_false] at hmv
          rcases hmv with hmv | hmv | hmv
          · exact h1.2 mv hmv
          · cases hmv
          · cases hmv
        simp only at hs
        split_ifs at hs
        · cases hs; exact h1
        · cases hs; exact h2
        · exact ih _ s' h2 hs

theorem optimize_sizes {env : Env W E R} {p : Params R} {P : R → Prop}
    (h0 : P p.initMoveCoef) (hP : ∀ a k, P a → P (env.control a k)) {T₀ : R} {w : W} {x₀ : List E}
    {r : Result W E R} (h : optimize env p T₀ w x₀ = some r) :
    ∀ m, .move m ∈ r.trace → P m.size := by
  have hs : Sizes P (start env p T₀ w x₀) := by
    refine ⟨?_, ?_⟩
    · intro a ha
      simp only [start, List.mem_map] at ha
      obtain ⟨_, _, rfl⟩ := ha
      exact h0
    · intro m hm; simp [start] at hm
  unfold optimize at h
  cases h1 : initLoop env p p.initMoves (start env p T₀ w x₀) with
  | none => rw [h1] at h; cases h
  | some s =>
    rw [h1] at h
    have h2 := initLoop_sizes hP _ _ _ hs h1
    simp only at h
    cases h3 : mainLoop env p p.maxIterations s with
    | none => rw [h3] at h; cases h
    | some q =>
      rw [h3] at h
      have h4 := mainLoop_sizes hP _ _ _ h2 h3
      simp only at h
      cases h
      intro m hm
      rcases List.mem_append.1 hm with hm | hm
      · exact h4.2 m hm
      · simp at hm

/-- **C19** Move control keeps every move size positive and at most the larger of the initial and the
maximum move size, throughout every run. -/
theorem C19_sa_move_size_bounds {env : Env W E ℝ} {p : Params ℝ} {gain maxMove : ℝ}
    (hmax : 0 < maxMove) (hinit : 0 < p.initMoveCoef)
    (hc : env.control = controlR gain maxMove p.moveCtrlSweep) {T₀ : ℝ} {w : W} {x₀ : List E}
    {r : Result W E ℝ} (h : optimize env p T₀ w x₀ = some r) :
    ∀ m, .move m ∈ r.trace → 0 < m.size ∧ m.size ≤ max p.initMoveCoef maxMove := by
  apply optimize_sizes (P := fun a => 0 < a ∧ a ≤ max p.initMoveCoef maxMove)
    ⟨hinit, le_max_left _ _⟩ ?_ h
  intro a k _
  rw [hc]
  simp only [controlR]
  split_ifs with hgt
  · exact ⟨hmax, le_max_right _ _⟩
  · exact ⟨Real.exp_pos _, le_max_of_le_right (not_lt.1 hgt)⟩

def Ev.isCool : Ev E R → Bool
  | .cool _ => true
  | _ => false

/-- Number of coolings. -/
def cools (t : List (Ev E R)) : Nat := t.countP Ev.isCool

@[simp] theorem cools_append (a b : List (Ev E R)) : cools (a ++ b) = cools a + cools b := by
  simp [cools]

/-- **C19** With the exponential schedule the temperature of a move is `(1 - λ)^k` times the initial
one, `k` being the number of coolings so far; so for `0 < λ < 1` it stays positive and never exceeds
the initial temperature. -/
theorem C19_sa_exponential_cooling {env : Env W ℝ ℝ} (hp : Passive env) {lambda : ℝ}
    (hc : env.cool = coolR lambda) (p : Params ℝ) (T₀ : ℝ) (w : W) {x₀ : List ℝ} (hx : x₀ ≠ [])
    {r : Result W ℝ ℝ} (h : optimize env p T₀ w x₀ = some r)
    {pre post : List (Ev ℝ ℝ)} {m : Move ℝ ℝ} (he : r.trace = pre ++ .move m :: post) :
    m.temp = (1 - lambda) ^ cools pre * T₀ ∧
    (0 < lambda → lambda < 1 → 0 < T₀ → 0 < m.temp ∧ m.temp ≤ T₀) := by
  obtain ⟨r', s, h1, h2, h3, h4, h5, h6, _⟩ := optimize_facts hp p T₀ w hx
  rw [h1] at h
  cases h
  have hall : Along (EvLaw env x₀.length T₀ x₀) r.trace := by
    rw [h3, along_snoc]
    refine ⟨h2.law, ?_⟩
    show (after _ _).1 = _
    rw [h2.cur, h4]
  have key : ∀ pre post, r.trace = pre ++ post →
      tempAfter T₀ pre = (1 - lambda) ^ cools pre * T₀ := by
    intro pre
    induction pre using List.reverseRecOn with
    | nil => intro post _; simp [tempAfter, cools]
    | append_singleton pre ev ih =>
      intro post hpost
      have hp' : r.trace = pre ++ ev :: post := by rw [hpost]; simp
      have ih := ih (ev :: post) hp'
      have hl := hall _ _ _ hp'
      rw [tempAfter_append, cools_append]
      cases ev with
      | cool T =>
        obtain ⟨e, _, hT⟩ := hl
        rw [hc, ih] at hT
        simp only [tempAfter, List.foldl_cons, List.foldl_nil]
        rw [show cools [Ev.cool (E := ℝ) T] = 1 from rfl, hT, pow_succ, coolR]; ring
      | _ => exact ih
  have hT : m.temp = (1 - lambda) ^ cools pre * T₀ := by
    have hl : MoveLaw env x₀.length T₀ x₀ pre m := hall _ _ _ he
    rw [hl.2.1, key pre _ he]
  refine ⟨hT, fun hl1 hl2 hT0 => ?_⟩
  rw [hT]
  have h1 : (1 - lambda) ^ cools pre ≤ 1 := pow_le_one₀ (by linarith) (by linarith)
  have h2 : 0 < (1 - lambda) ^ cools pre := pow_pos (by linarith) _
  exact ⟨mul_pos h2 hT0, by nlinarith⟩

/-! ### C74, C75 -/

/-- Integer example: one coordinate, objective `|x|`, proposal `x - 1`, accept if not worse, the
temperature halves. -/
def demo : Env Unit Int Int where
  evaluate := fun w x => (w, (x.map fun a => if a < 0 then -a else a).sum)
  cbEvaluate := fun w _ _ => (w, false)
  cbBegin := fun w x => (w, x)
  cbStep := fun w x => (w, x, false)
  randu := fun w => (w, 0)
  propose := fun v m _ => v - m
  accepts := fun a b T _ => decide (b ≤ a ∨ b - a < T)
  control := fun m _ => m
  cool := fun T _ => T / 2
  isClose := fun a b => a == b

def demoParams (maxIterations : Nat) : Params Int := ⟨maxIterations, 0, 100, 3, 1⟩

theorem demo_passive : Passive demo := ⟨fun _ _ => rfl, fun _ _ => rfl⟩

/-- Non-vacuity of C19: two elements, three moves, accepted and rejected ones. -/
example : ∃ r, optimize demo (demoParams 3) 0 () [1, 5] = some r ∧ r.x = [0, 4] ∧ r.energy = 4 ∧
    moves r.trace = 3 ∧ r.frozen = false := ⟨_, rfl, rfl, rfl, rfl, rfl⟩

/-- **C74** (refuted for SA) "maxIterations = 0 means no limit": with 0, the annealing loop is not
entered at all. -/
theorem C74_sa_zero_means_no_limit_refuted :
    ¬ ∀ (env : Env Unit Int Int) (p : Params Int) (T₀ : Int) (x : List Int) (r : Result Unit Int Int),
      Passive env → p.maxIterations = 0 → optimize env p T₀ () x = some r →
      anyStop r.trace = false → r.frozen = true := by
  intro h
  have := h demo (demoParams 0) 0 [5] _ demo_passive rfl rfl rfl
  cases this

/-- **C74** (partial) What happens instead: with `maxIterations = 0` at most the initial moves are
tried. -/
theorem C74_sa_zero_iterations_partial {env : Env W E R} (hp : Passive env) (p : Params R)
    (h0 : p.maxIterations = 0) (T₀ : R) (w : W) {x₀ : List E} (hx : x₀ ≠ []) {r : Result W E R}
    (h : optimize env p T₀ w x₀ = some r) : moves r.trace ≤ p.initMoves := by
  obtain ⟨r', h1, _, _, _, h2, _⟩ := C19_sa_returned_energy hp p T₀ w hx
  rw [h1] at h
  cases h
  omega

/-- **C75** (refuted) Reusing an SA object does not give the run a new object would give: the
temperature is a member and stays cooled down.  Here the same call is made twice on one object. -/
theorem C75_sa_reuse_like_new_refuted :
    ¬ ∀ (env : Env Unit Int Int) (p : Params Int) (T₀ : Int) (x y : List Int)
      (r₁ r₂ : Result Unit Int Int),
      Passive env → optimize env p T₀ () x = some r₁ → optimize env p r₁.temp r₁.w y = some r₂ →
      ∃ r, optimize env p T₀ () y = some r ∧ r.x = r₂.x := by
  intro h
  obtain ⟨r, h1, h2⟩ := h demo (demoParams 1) 2 [0] [0] _ _ demo_passive rfl rfl
  have h3 : optimize demo (demoParams 1) 2 () [0] = some r := h1
  simp [optimize, initLoop, mainLoop, start, generateMove, tryMove, advance, afterMove, demo,
    demoParams] at h3 h2
  rw [← h3] at h2
  simp at h2

/-- **C75** (partial) The temperature is the only thing carried over: a run depends on the object only
through its parameters and the current temperature, and the temperature left behind is the one after
the last cooling. -/
theorem C75_sa_temperature_left_partial {env : Env W E R} (hp : Passive env) (p : Params R) (T₀ : R)
    (w : W) {x₀ : List E} (hx : x₀ ≠ []) {r : Result W E R}
    (h : optimize env p T₀ w x₀ = some r) : r.temp = tempAfter T₀ r.trace := by
  obtain ⟨r', s, h1, h2, h3, h4, h5, h6, _⟩ := optimize_facts hp p T₀ w hx
  rw [h1] at h
  cases h
  rw [h3, tempAfter_append, h6, h2.temp]; rfl

end Ens.Sa
