import Mathlib.Tactic.Linarith
import Verif.Sa.Props

/-
C158, C159: the frozen test and the move control of simulated annealing, and the proposal distribution.
-/

namespace Ens.Sa

variable {W E R : Type}

/-! ### The frozen test -/

/-- Reading a trace: whether the last move changed the energy by less than the tolerance, and the number of consecutive
annealing steps (moves followed by a cooling) at the end of the trace that did. -/
def frozenRun (env : Env W E R) (t : List (Ev E R)) : Bool × Nat :=
  t.foldl (fun c e => match e with
    | .move m => (env.isClose m.e' m.e, c.2)
    | .cool _ => (c.1, if c.1 then c.2 + 1 else 0)
    | _ => c) (false, 0)

@[simp] theorem frozenRun_snoc (env : Env W E R) (t : List (Ev E R)) (e : Ev E R) :
    frozenRun env (t ++ [e]) = match e with
      | .move m => (env.isClose m.e' m.e, (frozenRun env t).2)
      | .cool _ => ((frozenRun env t).1, if (frozenRun env t).1 then (frozenRun env t).2 + 1 else 0)
      | _ => frozenRun env t := by
  simp only [frozenRun, List.foldl_append, List.foldl_cons, List.foldl_nil]
  cases e <;> rfl

/-- What `tryMove` appends to the trace. -/
theorem tryMove_trace (env : Env W E R) (s : St W E R) (v : E) (m : R) :
    ∃ prop o b unif xi acc x', (tryMove env s v m).trace = s.trace ++ [.eval prop o, .cbEval b,
      .move ⟨s.idx, m, unif, s.temp, xi, s.x, s.energy, prop, o, acc, x', (tryMove env s v m).energy⟩] ∧
      (tryMove env s v m).accept = if acc = true then s.accept.modify s.idx (· + 1) else s.accept := by
  unfold tryMove
  simp only
  generalize env.randu s.w = u
  generalize env.evaluate u.1 _ = o
  generalize env.cbEvaluate o.1 _ o.2 = c
  generalize env.randu c.1 = xi
  generalize env.accepts s.energy o.2 s.temp xi.2 = acc
  exact ⟨_, o.2, c.2, u.2, xi.2, acc, _, rfl, rfl⟩

/-- The trace ends with a cooling. -/
def cooled (t : List (Ev E R)) : Prop := ∃ t' T, t = t' ++ [.cool T]

/-- A step evaluated right after a cooling means the frozen test had failed. -/
def FrozenLaw (env : Env W E R) (K : Nat) (pre : List (Ev E R)) (e : Ev E R) : Prop :=
  match e with
  | .eval _ _ => cooled pre → (frozenRun env pre).2 < K
  | _ => True

theorem not_cooled_append (t : List (Ev E R)) (e : Ev E R) (h : ∀ T, e ≠ .cool T) : ¬ cooled (t ++ [e]) := by
  rintro ⟨t', T, h'⟩
  have := (List.append_inj' h' rfl).2
  simp at this
  exact h T this

structure FInv (env : Env W E R) (K : Nat) (s : St W E R) : Prop where
  frozen : s.frozen = (frozenRun env s.trace).2
  law : Along (FrozenLaw env K) s.trace

theorem generateMove_frozen {env : Env W E R} {p : Params R} {K : Nat} {s s' : St W E R} (h : FInv env K s)
    (hc : cooled s.trace → s.frozen < K) (hg : generateMove env p s = some s') :
    FInv env K s' ∧ ¬ cooled s'.trace ∧ (frozenRun env s'.trace).1 = env.isClose s'.energy s.energy := by
  unfold generateMove at hg
  cases hx : s.x[s.idx]? with
  | none => rw [hx] at hg; cases hg
  | some v =>
    cases hm : s.moveSize[s.idx]? with
    | none => rw [hx, hm] at hg; cases hg
    | some m =>
      rw [hx, hm] at hg
      simp only [Option.some.injEq] at hg
      subst hg
      obtain ⟨_, ae, _, _, atr, _, _, afz, _⟩ := advance_same env p (tryMove env s v m)
      rw [atr, ae]
      obtain ⟨a, b, c, u, xi, acc, x', htr, _⟩ := tryMove_trace env s v m
      rw [show ∀ q r t : Ev E R, s.trace ++ [q, r, t] = ((s.trace ++ [q]) ++ [r]) ++ [t] from fun q r t => by simp] at htr
      refine ⟨⟨?_, ?_⟩, ?_, ?_⟩
      · rw [afz, atr, htr]
        simp only [frozenRun_snoc]
        exact h.frozen
      · rw [atr, htr, along_snoc, along_snoc, along_snoc]
        exact ⟨⟨⟨h.law, fun hcl => h.frozen ▸ hc hcl⟩, trivial⟩, trivial⟩
      · rw [htr]; exact not_cooled_append _ _ (by simp)
      · rw [htr]; simp only [frozenRun_snoc]

theorem afterMove_frozen {env : Env W E R} {K : Nat} {s : St W E R} (h : FInv env K s) {oldE : E}
    (hc : (frozenRun env s.trace).1 = env.isClose s.energy oldE) : FInv env K (afterMove env oldE s) := by
  have htr : ∃ x b T, (afterMove env oldE s).trace = (s.trace ++ [.stepTaken x b]) ++ [.cool T] := by
    refine ⟨(env.cbStep s.w s.x).2.1, (env.cbStep s.w s.x).2.2, env.cool s.temp s.energy, ?_⟩
    simp only [afterMove, List.append_assoc, List.cons_append, List.nil_append]
  obtain ⟨x, b, T, htr⟩ := htr
  constructor
  · rw [htr]
    simp only [frozenRun_snoc, hc, ← h.frozen]
    rfl
  · rw [htr, along_snoc, along_snoc]
    exact ⟨⟨h.law, trivial⟩, trivial⟩

theorem initLoop_frozen {env : Env W E R} {p : Params R} {K : Nat} : ∀ (k : Nat) (s s' : St W E R), FInv env K s →
    ¬ cooled s.trace → initLoop env p k s = some s' → FInv env K s' ∧ ¬ cooled s'.trace := by
  intro k
  induction k with
  | zero => intro s s' h hc hr; cases hr; exact ⟨h, hc⟩
  | succ k ih =>
    intro s s' h hc hr
    rw [initLoop] at hr
    cases hg : generateMove env p s with
    | none => rw [hg] at hr; cases hr
    | some s1 =>
      rw [hg] at hr
      simp only at hr
      obtain ⟨h1, h2, _⟩ := generateMove_frozen h (fun h' => absurd h' hc) hg
      split_ifs at hr
      · cases hr; exact ⟨h1, h2⟩
      · exact ih _ _ h1 h2 hr

theorem mainLoop_frozen {env : Env W E R} (hp : Passive env) {p : Params R} {n : Nat} (hn : n ≠ 0) {T₀ : R} {x₀ : List E} :
    ∀ (k : Nat) (s s' : St W E R) (f : Bool), Inv env n T₀ x₀ s →
    FInv env ((p.maxToleranceSweep * p.moveCtrlSweep * n) % 2 ^ 64) s →
    (cooled s.trace → s.frozen < (p.maxToleranceSweep * p.moveCtrlSweep * n) % 2 ^ 64) →
    mainLoop env p k s = some (s', f) →
    FInv env ((p.maxToleranceSweep * p.moveCtrlSweep * n) % 2 ^ 64) s' ∧
    (f = true → cooled s'.trace ∧ (p.maxToleranceSweep * p.moveCtrlSweep * n) % 2 ^ 64 ≤ s'.frozen) := by
  intro k
  induction k with
  | zero => intro s s' f hi h hc hr; cases hr; exact ⟨h, by simp⟩
  | succ k ih =>
    intro s s' f hi h hc hr
    rw [mainLoop] at hr
    split_ifs at hr with ht
    · cases hr; exact ⟨h, by simp⟩
    · obtain ⟨s1, g1, g2, _⟩ := generateMove_inv p hi hn
      rw [g1] at hr
      simp only at hr
      obtain ⟨h1, h2, h3⟩ := generateMove_frozen h hc g1
      split_ifs at hr with ht1 hfz
      · cases hr; exact ⟨h1, by simp⟩
      · cases hr
        have h4 := afterMove_frozen h1 h3
        have hi2 := (afterMove_inv hp g2 s.energy).1
        rw [hi2.len] at hfz
        refine ⟨h4, fun _ => ⟨⟨s1.trace ++ [.stepTaken (env.cbStep s1.w s1.x).2.1 (env.cbStep s1.w s1.x).2.2],
          env.cool s1.temp s1.energy, ?_⟩, hfz⟩⟩
        simp only [afterMove, List.append_assoc, List.cons_append, List.nil_append]
      · have h4 := afterMove_frozen h1 h3
        have hi2 := (afterMove_inv hp g2 s.energy).1
        rw [hi2.len] at hfz
        exact ih _ _ _ hi2 h4 (fun _ => by omega) hr

/-- **C158** The frozen test is exact: the annealing loop goes on after a step only if fewer than
`maxToleranceSweep * moveCtrlSweep * n` (64-bit) steps in a row have changed the energy by less than the tolerance, and it
reports "frozen" only if that many have. -/
theorem C158_sa_frozen {env : Env W E R} (hp : Passive env) (p : Params R) (T₀ : R) (w : W) {x₀ : List E} (hx : x₀ ≠ [])
    {r : Result W E R} (h : optimize env p T₀ w x₀ = some r) :
    (r.frozen = true →
      (p.maxToleranceSweep * p.moveCtrlSweep * x₀.length) % 2 ^ 64 ≤ (frozenRun env r.trace).2) ∧
    (∀ pre T x e post, r.trace = pre ++ .cool T :: .eval x e :: post →
      (frozenRun env (pre ++ [.cool T])).2 < (p.maxToleranceSweep * p.moveCtrlSweep * x₀.length) % 2 ^ 64) := by
  have hn : x₀.length ≠ 0 := by simpa using hx
  obtain ⟨s, h1, h2, _⟩ := initLoop_inv p hn p.initMoves _ (start_inv hp p T₀ w x₀)
  have hnc : ¬ cooled (start env p T₀ w x₀).trace := by
    show ¬ cooled ([.eval _ _, .cbEval _] ++ [.beginOpt _ _])
    exact not_cooled_append _ _ (by simp)
  have hst : FInv env ((p.maxToleranceSweep * p.moveCtrlSweep * x₀.length) % 2 ^ 64) (start env p T₀ w x₀) := by
    constructor
    · rfl
    · show Along _ ([] ++ [_, _, _])
      rw [along_snoc₃]
      refine ⟨along_nil _, ?_, trivial, trivial⟩
      rintro ⟨t, T, ht⟩
      simp at ht
  obtain ⟨h3, h4⟩ := initLoop_frozen _ _ _ hst hnc h1
  unfold optimize at h
  rw [h1] at h
  simp only at h
  cases hm : mainLoop env p p.maxIterations s with
  | none => rw [hm] at h; cases h
  | some a =>
    obtain ⟨s', f⟩ := a
    rw [hm] at h
    simp only [Option.some.injEq] at h
    obtain ⟨h5, h6⟩ := mainLoop_frozen hp hn _ _ _ _ h2 h3 (fun h' => absurd h' h4) hm
    subst h
    constructor
    · intro hf
      show _ ≤ (frozenRun env (s'.trace ++ [.endOpt s'.x])).2
      rw [frozenRun_snoc, ← h5.frozen]
      exact (h6 hf).2
    · intro pre T x e post he
      have hal : Along (FrozenLaw env ((p.maxToleranceSweep * p.moveCtrlSweep * x₀.length) % 2 ^ 64))
          (s'.trace ++ [.endOpt s'.x]) := by rw [along_snoc]; exact ⟨h5.law, trivial⟩
      exact hal (pre ++ [.cool T]) (.eval x e) post (by simpa using he) ⟨pre, T, rfl⟩

/-! ### Move control -/

/-- The moves of a trace. -/
def movesOf (t : List (Ev E R)) : List (Move E R) := t.filterMap fun e => match e with | .move m => some m | _ => none

@[simp] theorem movesOf_append (a b : List (Ev E R)) : movesOf (a ++ b) = movesOf a ++ movesOf b := by simp [movesOf]

theorem movesOf_length (t : List (Ev E R)) : (movesOf t).length = moves t := by
  induction t with
  | nil => rfl
  | cons e t ih =>
    have : movesOf (e :: t) = movesOf [e] ++ movesOf t := movesOf_append [e] t
    rw [this, List.length_append, ih, show e :: t = [e] ++ t from rfl, moves_append]
    congr 1
    cases e <;> rfl

/-- Accepted moves of coordinate `i`. -/
def hits (ms : List (Move E R)) (i : Nat) : Nat := ms.countP fun m => m.accepted && m.idx == i

/-- The documented move sizes: after each block of `B` moves the size of coordinate `i` is controlled by the number of moves
of that coordinate accepted in the block. -/
def sizeAt (env : Env W E R) (B : Nat) (c₀ : R) (ms : List (Move E R)) : Nat → Nat → R
  | 0, _ => c₀
  | j + 1, i => env.control (sizeAt env B c₀ ms j i) (hits ((ms.drop (j * B)).take B) i)

theorem sizeAt_append (env : Env W E R) (B : Nat) (c₀ : R) (ms ms' : List (Move E R)) (j i : Nat) (h : j * B ≤ ms.length) :
    sizeAt env B c₀ (ms ++ ms') j i = sizeAt env B c₀ ms j i := by
  induction j with
  | zero => rfl
  | succ j ih =>
    have hj : j * B + B ≤ ms.length := by rw [← Nat.succ_mul]; exact h
    rw [sizeAt, sizeAt, ih (by omega), List.drop_append_of_le_length (by omega), List.take_append_of_le_length]
    rw [List.length_drop]; omega

/-- What a move's size is. -/
def SizeLaw (env : Env W E R) (c n : Nat) (c₀ : R) (pre : List (Ev E R)) (e : Ev E R) : Prop :=
  match e with
  | .move m => m.size = sizeAt env (c * n) c₀ (movesOf pre) (moves pre / (c * n)) m.idx
  | _ => True

structure CInv (env : Env W E R) (p : Params R) (n : Nat) (s : St W E R) : Prop where
  idx : s.idx < n
  sweep : s.sweep < p.moveCtrlSweep
  lens : s.x.length = n ∧ s.accept.length = n ∧ s.moveSize.length = n
  pos : ∃ j, (movesOf s.trace).length = (j * p.moveCtrlSweep + s.sweep) * n + s.idx ∧
    (∀ i < n, s.accept[i]? = some (hits ((movesOf s.trace).drop (j * (p.moveCtrlSweep * n))) i)) ∧
    ∀ i < n, s.moveSize[i]? = some (sizeAt env (p.moveCtrlSweep * n) p.initMoveCoef (movesOf s.trace) j i)
  law : Along (SizeLaw env p.moveCtrlSweep n p.initMoveCoef) s.trace

theorem div_block {j c q n i : Nat} (hq : q < c) (hi : i < n) : ((j * c + q) * n + i) / (c * n) = j := by
  have h1 : (j * c + q) * n + i = j * (c * n) + (q * n + i) := by ring
  rw [h1, Nat.add_comm, Nat.add_mul_div_right _ _ (Nat.mul_pos (by omega) (by omega)), Nat.div_eq_of_lt, Nat.zero_add]
  calc q * n + i < q * n + n := by omega
    _ = (q + 1) * n := by ring
    _ ≤ c * n := Nat.mul_le_mul_right _ hq

theorem hits_snoc (ms : List (Move E R)) (m : Move E R) (i : Nat) :
    hits (ms ++ [m]) i = hits ms i + if m.accepted = true ∧ m.idx = i then 1 else 0 := by
  simp [hits, List.countP_append, List.countP_cons]

theorem generateMove_control {env : Env W E R} {p : Params R} {n : Nat} {s s' : St W E R} (h : CInv env p n s)
    (hg : generateMove env p s = some s') : CInv env p n s' := by
  unfold generateMove at hg
  cases hx : s.x[s.idx]? with
  | none => rw [hx] at hg; cases hg
  | some v =>
    cases hm : s.moveSize[s.idx]? with
    | none => rw [hx, hm] at hg; cases hg
    | some m =>
      rw [hx, hm] at hg
      simp only [Option.some.injEq] at hg
      subst hg
      obtain ⟨j, hlen, hacc, hsz⟩ := h.pos
      obtain ⟨hlx, hla, hlm⟩ := h.lens
      have hqn : s.sweep * n + s.idx < p.moveCtrlSweep * n := by
        calc s.sweep * n + s.idx < s.sweep * n + n := by have := h.idx; omega
          _ = (s.sweep + 1) * n := by ring
          _ ≤ p.moveCtrlSweep * n := Nat.mul_le_mul_right _ h.sweep
      have hlen' : (movesOf s.trace).length = j * (p.moveCtrlSweep * n) + (s.sweep * n + s.idx) := by rw [hlen]; ring
      -- the state after the move, before the bookkeeping
      have hmv : ∃ mv : Move E R, mv.idx = s.idx ∧ mv.size = m ∧ movesOf (tryMove env s v m).trace = movesOf s.trace ++ [mv] ∧
          (tryMove env s v m).accept = (if mv.accepted = true then s.accept.modify s.idx (· + 1) else s.accept) ∧
          Along (SizeLaw env p.moveCtrlSweep n p.initMoveCoef) (tryMove env s v m).trace := by
        obtain ⟨a, b, c, u, xi, acc, x', htr, hac⟩ := tryMove_trace env s v m
        refine ⟨_, rfl, rfl, by rw [htr, movesOf_append]; rfl, hac, ?_⟩
        rw [htr, along_snoc₃]
        refine ⟨h.law, trivial, trivial, ?_⟩
        show m = sizeAt env _ _ (movesOf (s.trace ++ _)) (moves (s.trace ++ _) / _) s.idx
        rw [← movesOf_length, movesOf_append, show movesOf [Ev.eval _ _, Ev.cbEval _] = ([] : List (Move E R)) from rfl,
          List.append_nil, hlen, div_block h.sweep h.idx]
        have := hsz s.idx h.idx
        rw [hm] at this
        exact Option.some.inj this
      obtain ⟨mv, hmi, hms, hmo, hma, hlaw⟩ := hmv
      have htx : (tryMove env s v m).x.length = n := by
        simp only [tryMove]; split_ifs <;> simp [hlx]
      have hti : (tryMove env s v m).idx = s.idx := rfl
      have hts : (tryMove env s v m).sweep = s.sweep := rfl
      have htm : (tryMove env s v m).moveSize = s.moveSize := rfl
      have hta : (tryMove env s v m).accept.length = n := by rw [hma]; split_ifs <;> simp [hla]
      have hacc' : ∀ i < n, (tryMove env s v m).accept[i]? =
          some (hits ((movesOf s.trace ++ [mv]).drop (j * (p.moveCtrlSweep * n))) i) := by
        intro i hi
        rw [List.drop_append_of_le_length (by omega), hits_snoc, hma, hmi]
        split_ifs with h1 h2 h2
        · rw [List.getElem?_modify, hacc i hi, h2.2]; simp
        · rw [List.getElem?_modify, hacc i hi]; simp [show ¬ s.idx = i from fun e => h2 ⟨h1, e⟩]
        · exact absurd h2.1 h1
        · rw [hacc i hi]; simp
      have hsz' : ∀ i < n, (tryMove env s v m).moveSize[i]? =
          some (sizeAt env (p.moveCtrlSweep * n) p.initMoveCoef (movesOf s.trace ++ [mv]) j i) := by
        intro i hi
        rw [htm, hsz i hi, sizeAt_append _ _ _ _ _ _ _ (by omega)]
      have hn : 0 < n := by have := h.idx; omega
      have hc0 : 0 < p.moveCtrlSweep := by have := h.sweep; omega
      generalize tryMove env s v m = t at *
      unfold advance
      simp only [hti, htx]
      by_cases hw : s.idx + 1 = n
      · simp only [hw, if_true]
        by_cases hc : s.sweep + 1 = p.moveCtrlSweep
        · simp only [hts, hc, if_true]
          refine ⟨hn, hc0, ⟨htx, by simpa using hta, by simp [htm, hlm, hta]⟩, ⟨j + 1, ?_, ?_, ?_⟩, hlaw⟩
          · rw [hmo, List.length_append, hlen]
            simp only [List.length_singleton]
            rw [← hc]
            rw [Nat.add_assoc _ s.idx 1, hw]
            ring
          · intro i hi
            rw [hmo, List.getElem?_map, hacc' i hi]
            have hle : (movesOf s.trace ++ [mv]).length ≤ (j + 1) * (p.moveCtrlSweep * n) := by
              rw [List.length_append, hlen', List.length_singleton, Nat.add_mul]
              omega
            rw [List.drop_eq_nil_of_le hle]
            rfl
          · intro i hi
            rw [List.getElem?_zipWith, hsz' i hi, hacc' i hi, hmo]
            simp only [sizeAt]
            rw [List.take_of_length_le]
            rw [List.length_drop, List.length_append, hlen', List.length_singleton]
            omega
        · simp only [hts, hc, if_false]
          refine ⟨hn, by have := h.sweep; show s.sweep + 1 < _; omega, ⟨htx, hta, by simp [htm, hlm]⟩, ⟨j, ?_, ?_, ?_⟩, hlaw⟩
          · rw [hmo, List.length_append, hlen]
            simp only [List.length_singleton]
            rw [Nat.add_assoc _ s.idx 1, hw]
            ring
          · intro i hi; rw [hmo]; exact hacc' i hi
          · intro i hi; rw [hmo]; exact hsz' i hi
      · have hne : ¬ s.sweep = p.moveCtrlSweep := by have := h.sweep; omega
        simp only [hw, if_false, hts, hne]
        refine ⟨by have := h.idx; show s.idx + 1 < n; omega, h.sweep, ⟨htx, hta, by simp [htm, hlm]⟩,
          ⟨j, ?_, ?_, ?_⟩, hlaw⟩
        · rw [hmo, List.length_append, hlen]; simp only [List.length_singleton]; omega
        · intro i hi; rw [hmo]; exact hacc' i hi
        · intro i hi; rw [hmo]; exact hsz' i hi

theorem afterMove_control {env : Env W E R} (hp : Passive env) {p : Params R} {n : Nat} {s : St W E R} (h : CInv env p n s)
    (oldE : E) : CInv env p n (afterMove env oldE s) := by
  have hmo : movesOf (afterMove env oldE s).trace = movesOf s.trace := by
    simp only [afterMove, movesOf_append]
    exact List.append_nil _
  refine ⟨h.idx, h.sweep, ⟨?_, h.lens.2⟩, ?_, ?_⟩
  · rw [show (afterMove env oldE s).x = s.x from hp.cbStep _ _]; exact h.lens.1
  · rw [hmo]; exact h.pos
  · simp only [afterMove]
    rw [along_snoc₂]
    exact ⟨h.law, trivial, trivial⟩

theorem initLoop_control {env : Env W E R} {p : Params R} {n : Nat} : ∀ (k : Nat) (s s' : St W E R), CInv env p n s →
    initLoop env p k s = some s' → CInv env p n s' := by
  intro k
  induction k with
  | zero => intro s s' h hr; cases hr; exact h
  | succ k ih =>
    intro s s' h hr
    rw [initLoop] at hr
    cases hg : generateMove env p s with
    | none => rw [hg] at hr; cases hr
    | some s1 =>
      rw [hg] at hr
      simp only at hr
      split_ifs at hr
      · cases hr; exact generateMove_control h hg
      · exact ih _ _ (generateMove_control h hg) hr

theorem mainLoop_control {env : Env W E R} (hp : Passive env) {p : Params R} {n : Nat} :
    ∀ (k : Nat) (s s' : St W E R) (f : Bool), CInv env p n s → mainLoop env p k s = some (s', f) → CInv env p n s' := by
  intro k
  induction k with
  | zero => intro s s' f h hr; cases hr; exact h
  | succ k ih =>
    intro s s' f h hr
    rw [mainLoop] at hr
    split_ifs at hr with ht
    · cases hr; exact h
    · cases hg : generateMove env p s with
      | none => rw [hg] at hr; cases hr
      | some s1 =>
        rw [hg] at hr
        simp only at hr
        have h1 := generateMove_control h hg
        split_ifs at hr
        · cases hr; exact h1
        · cases hr; exact afterMove_control hp h1 _
        · exact ih _ _ _ (afterMove_control hp h1 _) hr

/-- **C159** Move control: with `0 < moveCtrlSweep`, every move of a run uses the size obtained from the initial one by
applying `MoveControl` once after every `moveCtrlSweep` sweeps, each time with the number of moves of that coordinate accepted
during those sweeps (and not before). -/
theorem C159_sa_move_control {env : Env W E R} (hp : Passive env) (p : Params R) (hc : 0 < p.moveCtrlSweep) (T₀ : R) (w : W)
    {x₀ : List E} (hx : x₀ ≠ []) {r : Result W E R} (h : optimize env p T₀ w x₀ = some r)
    {pre post : List (Ev E R)} {m : Move E R} (he : r.trace = pre ++ .move m :: post) :
    m.size = sizeAt env (p.moveCtrlSweep * x₀.length) p.initMoveCoef (movesOf pre)
      (moves pre / (p.moveCtrlSweep * x₀.length)) m.idx := by
  have hn : 0 < x₀.length := List.length_pos_iff.2 hx
  have hst : CInv env p x₀.length (start env p T₀ w x₀) := by
    refine ⟨hn, hc, ⟨by simp only [start]; rw [hp.cbBegin], by simp [start], by simp [start]⟩, ⟨0, ?_, ?_, ?_⟩, ?_⟩
    · simp [start, movesOf]
    · intro i hi; simp [start, movesOf, hits, hi]
    · intro i hi; simp [start, sizeAt, hi]
    · show Along _ ([] ++ [_, _, _])
      rw [along_snoc₃]
      exact ⟨along_nil _, trivial, trivial, trivial⟩
  unfold optimize at h
  cases h1 : initLoop env p p.initMoves (start env p T₀ w x₀) with
  | none => rw [h1] at h; cases h
  | some s =>
    rw [h1] at h
    simp only at h
    cases hm : mainLoop env p p.maxIterations s with
    | none => rw [hm] at h; cases h
    | some a =>
      obtain ⟨s', f⟩ := a
      rw [hm] at h
      simp only [Option.some.injEq] at h
      have h5 := mainLoop_control hp _ _ _ _ (initLoop_control _ _ _ hst h1) hm
      subst h
      have hal : Along (SizeLaw env p.moveCtrlSweep x₀.length p.initMoveCoef) (s'.trace ++ [.endOpt s'.x]) := by
        rw [along_snoc]; exact ⟨h5.law, trivial⟩
      exact hal _ _ _ he

/-! ### The proposal distribution -/

/-- **C159** Proposals are symmetric around the current value: the draws `u` and `1 - u` move by opposite amounts. -/
theorem C159_sa_proposal_symmetric (v m u : ℝ) : proposeR v m (1 - u) - v = -(proposeR v m u - v) := by
  unfold proposeR
  simp only
  rcases lt_trichotomy (2 * u - 1) 0 with h | h | h
  · rw [if_neg (by linarith : ¬ 2 * (1 - u) - 1 < 0), if_pos h, show 1 - (2 * (1 - u) - 1) = 1 + (2 * u - 1) by ring]
    ring
  · rw [if_neg (by linarith : ¬ 2 * (1 - u) - 1 < 0), if_neg (by linarith : ¬ 2 * u - 1 < 0),
      show 1 - (2 * (1 - u) - 1) = 1 by linarith, h]
    simp
  · rw [if_pos (by linarith : 2 * (1 - u) - 1 < 0), if_neg (by linarith : ¬ 2 * u - 1 < 0),
      show 1 + (2 * (1 - u) - 1) = 1 - (2 * u - 1) by ring]
    ring

open MeasureTheory in
/-- **C159** Proposals are Laplace distributed with scale `moveSize`: for a uniform draw, the probability that the proposed
value is at most `v + t` is `exp (t / m) / 2` for `t ≤ 0` and `1 - exp (-t / m) / 2` for `t ≥ 0`. -/
theorem C159_sa_laplace (v m t : ℝ) (hm : 0 < m) :
    volume {u : ℝ | u ∈ Set.Ioo 0 1 ∧ proposeR v m u ≤ v + t} =
      ENNReal.ofReal (if t ≤ 0 then Real.exp (t / m) / 2 else 1 - Real.exp (-t / m) / 2) := by
  have key : ∀ u, u ∈ Set.Ioo (0 : ℝ) 1 → (proposeR v m u ≤ v + t ↔
      u ≤ if t < 0 then Real.exp (t / m) / 2 else 1 - Real.exp (-t / m) / 2) := by
    intro u ⟨hu0, hu1⟩
    unfold proposeR
    simp only [add_le_add_iff_left]
    by_cases h : 2 * u - 1 < 0
    · rw [if_pos h, show 1 + (2 * u - 1) = 2 * u by ring]
      by_cases ht : t < 0
      · rw [if_pos ht, le_div_iff₀ (by norm_num), ← le_div_iff₀' hm, Real.log_le_iff_le_exp (by linarith)]
        constructor <;> intro h' <;> linarith
      · rw [if_neg ht]
        have h1 : m * Real.log (2 * u) ≤ 0 := mul_nonpos_of_nonneg_of_nonpos hm.le (Real.log_nonpos (by linarith) (by linarith))
        have h2 : Real.exp (-t / m) ≤ 1 := Real.exp_le_one_iff.2 (div_nonpos_of_nonpos_of_nonneg (by linarith) hm.le)
        exact ⟨fun _ => by linarith, fun _ => by linarith⟩
    · rw [if_neg h, show 1 - (2 * u - 1) = 2 * (1 - u) by ring]
      have hlog : Real.log (2 * (1 - u)) ≤ 0 := Real.log_nonpos (by linarith) (by linarith)
      by_cases ht : t < 0
      · rw [if_pos ht]
        have h1 : Real.exp (t / m) < 1 := Real.exp_lt_one_iff.2 (div_neg_of_neg_of_pos ht hm)
        constructor
        · intro h'; nlinarith
        · intro h'; linarith
      · rw [if_neg ht]
        have e : -m * Real.log (2 * (1 - u)) ≤ t ↔ -t / m ≤ Real.log (2 * (1 - u)) := by
          rw [div_le_iff₀ hm]
          constructor <;> intro h' <;> linarith
        rw [e, Real.le_log_iff_exp_le (by linarith)]
        constructor <;> intro h' <;> linarith
  have hset : ∀ b : ℝ, 0 < b → b < 1 → volume {u : ℝ | u ∈ Set.Ioo 0 1 ∧ u ≤ b} = ENNReal.ofReal b := by
    intro b h0 h1
    have : {u : ℝ | u ∈ Set.Ioo 0 1 ∧ u ≤ b} = Set.Ioc 0 b := by
      ext u
      simp only [Set.mem_setOf_eq, Set.mem_Ioo, Set.mem_Ioc]
      constructor
      · rintro ⟨⟨a, _⟩, c⟩; exact ⟨a, c⟩
      · rintro ⟨a, c⟩; exact ⟨⟨a, by linarith⟩, c⟩
    rw [this, Real.volume_Ioc, sub_zero]
  have heq : {u : ℝ | u ∈ Set.Ioo 0 1 ∧ proposeR v m u ≤ v + t} = {u : ℝ | u ∈ Set.Ioo 0 1 ∧
      u ≤ if t < 0 then Real.exp (t / m) / 2 else 1 - Real.exp (-t / m) / 2} := by
    ext u
    simp only [Set.mem_setOf_eq]
    constructor
    · rintro ⟨a, b⟩; exact ⟨a, (key u a).1 b⟩
    · rintro ⟨a, b⟩; exact ⟨a, (key u a).2 b⟩
  rw [heq]
  rcases lt_trichotomy t 0 with ht | ht | ht
  · simp only [if_pos ht, if_pos ht.le]
    have h1 : Real.exp (t / m) < 1 := Real.exp_lt_one_iff.2 (div_neg_of_neg_of_pos ht hm)
    exact hset _ (by positivity) (by linarith)
  · subst ht
    simp only [lt_irrefl, if_false, le_refl, if_true, neg_zero, zero_div, Real.exp_zero]
    rw [hset _ (by norm_num) (by norm_num)]
    norm_num
  · simp only [if_neg (not_lt.2 ht.le), if_neg (not_le.2 ht)]
    have h1 : Real.exp (-t / m) < 1 := Real.exp_lt_one_iff.2 (div_neg_of_neg_of_pos (by linarith) hm)
    have h2 := Real.exp_pos (-t / m)
    exact hset _ (by linarith) (by linarith)

end Ens.Sa

/-! ### Concrete cases -/

namespace Ens.Sa

/-- One-coordinate example: draws add 1, everything is accepted, control adds the number of accepted moves. -/
def demoC : Env Nat Int Int where
  evaluate := fun w x => (w, x.sum)
  cbEvaluate := fun w _ _ => (w, false)
  cbBegin := fun w x => (w, x)
  cbStep := fun w x => (w + 1, x, false)
  randu := fun w => (w, 1)
  propose := fun v m u => v + m * u
  accepts := fun _ _ _ _ => true
  control := fun m k => m + k
  cool := fun T _ => T
  isClose := fun a b => decide (a - b < 4 ∧ b - a < 4)

/-- Non-vacuity of C158 and C159: sizes 1, 1, 3, 3, 5, ... with blocks of two moves; three close steps in a row freeze it. -/
example : Passive demoC ∧
    (∃ r, optimize demoC ⟨2, 5, 2, 9, 1⟩ 0 0 [0] = some r ∧ r.frozen = false ∧
      (movesOf r.trace).map Move.size = [1, 1, 3, 3, 5, 5, 7]) ∧
    ∃ r, optimize demoC ⟨9, 0, 1, 2, 1⟩ 0 0 [0] = some r ∧ r.frozen = true ∧ (frozenRun demoC r.trace).2 = 2 :=
  ⟨⟨fun _ _ => rfl, fun _ _ => rfl⟩, ⟨_, rfl, rfl, rfl⟩, _, rfl, rfl, rfl⟩

/-- **C159** Move control steers the share of accepted moves towards 0.44: a move size below the maximum grows exactly when
more than 44% of the moves of the last sweeps were accepted and shrinks exactly when fewer were; one control changes it by a
factor between `exp (-0.44 gain)` and `exp (0.56 gain)`. -/
theorem C159_sa_control_target {gain M m : ℝ} (hg : 0 < gain) {n k : Nat} (hn : 0 < n) (hm : 0 < m) (hM : m < M) :
    (m < controlR gain M n m k ↔ 44 * n < 100 * k) ∧ (controlR gain M n m k < m ↔ 100 * k < 44 * n) ∧
    (k ≤ n → Real.exp (-(44 / 100) * gain) * m ≤ controlR gain M n m k ∧
      controlR gain M n m k ≤ Real.exp (56 / 100 * gain) * m) := by
  have hn' : (0 : ℝ) < n := by exact_mod_cast hn
  have e : Real.exp (Real.log m + gain * ((k : ℝ) / n - 0.44)) = m * Real.exp (gain * ((k : ℝ) / n - 0.44)) := by
    rw [Real.exp_add, Real.exp_log hm]
  have c1 : (44 * n < 100 * k) ↔ 0 < gain * ((k : ℝ) / n - 0.44) := by
    rw [mul_pos_iff_of_pos_left hg, sub_pos, lt_div_iff₀ hn']
    constructor
    · intro h
      have : (44 * n : ℝ) < 100 * k := by exact_mod_cast h
      linarith
    · intro h
      have : (44 * n : ℝ) < 100 * k := by linarith
      exact_mod_cast this
  have c2 : (100 * k < 44 * n) ↔ gain * ((k : ℝ) / n - 0.44) < 0 := by
    rw [← neg_pos, ← mul_neg, mul_pos_iff_of_pos_left hg, neg_pos, sub_neg, div_lt_iff₀ hn']
    constructor
    · intro h
      have : (100 * k : ℝ) < 44 * n := by exact_mod_cast h
      linarith
    · intro h
      have : (100 * k : ℝ) < 44 * n := by linarith
      exact_mod_cast this
  unfold controlR
  simp only [e]
  generalize hz : gain * ((k : ℝ) / n - 0.44) = z at *
  refine ⟨?_, ?_, ?_⟩
  · rw [c1, ← Real.one_lt_exp_iff]
    constructor
    · intro h
      split_ifs at h with h'
      · by_contra hc
        have := Real.exp_pos z
        nlinarith [not_lt.1 hc]
      · by_contra hc
        nlinarith [not_lt.1 hc]
    · intro h
      split_ifs
      · exact hM
      · nlinarith
  · rw [c2, ← Real.exp_lt_one_iff]
    constructor
    · intro h
      split_ifs at h with h'
      · linarith
      · by_contra hc
        nlinarith [not_lt.1 hc]
    · intro h
      rw [if_neg (by nlinarith)]
      nlinarith
  · intro hk
    have hk1 : (k : ℝ) / n ≤ 1 := by
      rw [div_le_one hn']
      exact_mod_cast hk
    have hk0 : (0 : ℝ) ≤ (k : ℝ) / n := by positivity
    have z1 : -(44 / 100) * gain ≤ z := by
      rw [← hz]
      nlinarith
    have z2 : z ≤ 56 / 100 * gain := by
      rw [← hz]
      nlinarith
    have w1 := Real.exp_le_exp.2 z1
    have w2 := Real.exp_le_exp.2 z2
    have w3 : Real.exp (-(44 / 100) * gain) ≤ 1 := Real.exp_le_one_iff.2 (by linarith)
    split_ifs with h'
    · constructor
      · nlinarith
      · nlinarith
    · constructor
      · nlinarith
      · nlinarith

/-- The hypotheses are met by the default gain 0.3 and 3 moves accepted of 5: the move grows. -/
example : (1 : ℝ) < controlR 0.3 2 5 1 3 := ((C159_sa_control_target (by norm_num) (by norm_num) one_pos (by norm_num)).1).2 (by norm_num)

end Ens.Sa
