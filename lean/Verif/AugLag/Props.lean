import Mathlib.Data.Rat.Lemmas
import Mathlib.Algebra.Order.Ring.Rat
import Mathlib.Algebra.Order.Group.Abs
import Mathlib.Tactic.NormNum
import Mathlib.Tactic.Linarith
import Verif.AugLag.Model

/-
The outer loop of the augmented Lagrangian method: properties C51, C121, C122, C123, C124.
-/

namespace Ens.AugLag

variable {W X E : Type}

def isSolved : Ev X E → Bool | .solved _ => true | _ => false
def isStop : Ev X E → Bool | .stop => true | _ => false
def isUpdate : Ev X E → Bool | .update _ => true | _ => false

/-- The last point the inner solver returned, or the starting point. -/
def lastPt (x₀ : X) (l : List (Ev X E)) : X := l.foldl (fun a e => match e with | .solved y => y | _ => a) x₀

/-- No `solved` and no `update` event. -/
def Quiet (l : List (Ev X E)) : Prop := ∀ e ∈ l, isSolved e = false ∧ isUpdate e = false

theorem Quiet.append {l l' : List (Ev X E)} (h : Quiet l) (h' : Quiet l') : Quiet (l ++ l') := by
  intro e he
  rcases List.mem_append.1 he with he | he
  · exact h e he
  · exact h' e he

theorem quiet_flag (b : Bool) : Quiet (flag b : List (Ev X E)) := by
  intro e he
  unfold flag at he
  split at he
  · rw [List.mem_singleton] at he; subst he; exact ⟨rfl, rfl⟩
  · cases he

theorem stop_flag {b : Bool} (h : ∃ e ∈ (flag b : List (Ev X E)), isStop e = true) : b = true := by
  obtain ⟨e, he, -⟩ := h
  unfold flag at he
  split at he
  · assumption
  · cases he

theorem quiet_told (x : X) (i : Nat) (v : E) (b : Bool) : Quiet (.told x i v :: flag b) := by
  intro e he
  rcases List.mem_cons.1 he with rfl | he
  · exact ⟨rfl, rfl⟩
  · exact quiet_flag b e he

theorem stop_told {x : X} {i : Nat} {v : E} {b : Bool} (h : ∃ e ∈ (.told x i v :: flag b : List (Ev X E)), isStop e = true) :
    b = true := by
  obtain ⟨e, he, hs⟩ := h
  rcases List.mem_cons.1 he with rfl | he
  · cases hs
  · exact stop_flag ⟨e, he, hs⟩

/-- What the penalty loop does. -/
theorem penaltyOf_spec (o : Ops E) (u : User W X E) {C : Nat → X → E} (hC : ∀ w i x, (u.cons w i x).2 = C i x) (x : X) (w : W)
    (term : Bool) :
    Quiet (penaltyOf o u x w term).2.2.2 ∧
      ((∃ e ∈ (penaltyOf o u x w term).2.2.2, isStop e = true) → (penaltyOf o u x w term).2.2.1 = true) ∧
      (term = true → (penaltyOf o u x w term).2.2.1 = true) ∧
      (penaltyOf o u x w term).2.1 = (List.range u.numConstraints).foldl (fun a i => o.add a (o.sq (C i x))) o.zero := by
  unfold penaltyOf
  generalize List.range u.numConstraints = l
  have : ∀ (l : List Nat) (s : W × E × Bool × List (Ev X E)), Quiet s.2.2.2 →
      ((∃ e ∈ s.2.2.2, isStop e = true) → s.2.2.1 = true) →
      Quiet (l.foldl (penaltyLoop o u x) s).2.2.2 ∧
      ((∃ e ∈ (l.foldl (penaltyLoop o u x) s).2.2.2, isStop e = true) → (l.foldl (penaltyLoop o u x) s).2.2.1 = true) ∧
      (s.2.2.1 = true → (l.foldl (penaltyLoop o u x) s).2.2.1 = true) ∧
      (l.foldl (penaltyLoop o u x) s).2.1 = l.foldl (fun a i => o.add a (o.sq (C i x))) s.2.1 := by
    intro l
    induction l with
    | nil => intro s h1 h2; exact ⟨h1, h2, id, rfl⟩
    | cons i l ih =>
      intro s h1 h2
      rw [List.foldl_cons, List.foldl_cons]
      obtain ⟨a, b, c, d⟩ := ih (penaltyLoop o u x s i) (h1.append (quiet_told _ _ _ _)) (by
        rintro ⟨e, he, hs⟩
        simp only [penaltyLoop] at he ⊢
        rcases List.mem_append.1 he with he | he
        · rw [h2 ⟨e, he, hs⟩]; rfl
        · rw [stop_told ⟨e, he, hs⟩, Bool.or_true])
      refine ⟨a, b, fun h => c ?_, ?_⟩
      · simp only [penaltyLoop]; rw [h]; rfl
      · rw [d]; simp only [penaltyLoop, hC]
  exact this l (w, o.zero, term, []) (by intro e he; cases he) (by rintro ⟨e, he, -⟩; cases he)

/-- What the multiplier loop does. -/
theorem lambdaOf_spec (o : Ops E) (u : User W X E) {C : Nat → X → E} (hC : ∀ w i x, (u.cons w i x).2 = C i x) (x : X) (sigma : E)
    (w : W) (lam : List E) (term : Bool) :
    Quiet (lambdaOf o u x sigma w lam term).2.2.2 ∧
      ((∃ e ∈ (lambdaOf o u x sigma w lam term).2.2.2, isStop e = true) → (lambdaOf o u x sigma w lam term).2.2.1 = true) ∧
      (term = true → (lambdaOf o u x sigma w lam term).2.2.1 = true) ∧
      (lambdaOf o u x sigma w lam term).2.1.length = lam.length ∧
      ∀ j < lam.length, (lambdaOf o u x sigma w lam term).2.1.getD j o.zero =
        if j < u.numConstraints then o.lamUpd (lam.getD j o.zero) sigma (C j x) else lam.getD j o.zero := by
  unfold lambdaOf
  have : ∀ (k : Nat), let r := (List.range k).foldl (lambdaLoop o u x sigma) (w, lam, term, [])
      Quiet r.2.2.2 ∧ ((∃ e ∈ r.2.2.2, isStop e = true) → r.2.2.1 = true) ∧ (term = true → r.2.2.1 = true) ∧
      r.2.1.length = lam.length ∧ ∀ j < lam.length, r.2.1.getD j o.zero =
        if j < k then o.lamUpd (lam.getD j o.zero) sigma (C j x) else lam.getD j o.zero := by
    intro k
    induction k with
    | zero =>
      exact ⟨(by intro e he; cases he), (by rintro ⟨e, he, -⟩; cases he), id, rfl, fun j _ => by simp⟩
    | succ k ih =>
      obtain ⟨a, b, c, d, e⟩ := ih
      simp only [List.range_succ, List.foldl_append, List.foldl_cons, List.foldl_nil]
      set r := (List.range k).foldl (lambdaLoop o u x sigma) (w, lam, term, []) with hr
      refine ⟨a.append (quiet_told _ _ _ _), ?_, ?_, ?_, ?_⟩
      · rintro ⟨e, he, hs⟩
        simp only [lambdaLoop] at he ⊢
        rcases List.mem_append.1 he with he | he
        · rw [b ⟨e, he, hs⟩]; rfl
        · rw [stop_told ⟨e, he, hs⟩, Bool.or_true]
      · intro h
        simp only [lambdaLoop]
        rw [c h]; rfl
      · simp only [lambdaLoop, List.length_set]; exact d
      · intro j hj
        simp only [lambdaLoop, hC]
        by_cases hjk : j = k
        · subst hjk
          rw [if_pos (Nat.lt_succ_self _), e j hj, if_neg (Nat.lt_irrefl _)]
          simp [List.getD_eq_getElem?_getD, List.getElem?_set, d, hj]
        · have h1 : (r.2.1.set k (o.lamUpd (r.2.1.getD k o.zero) sigma (C k x))).getD j o.zero = r.2.1.getD j o.zero := by
            simp [List.getD_eq_getElem?_getD, List.getElem?_set, Ne.symm hjk]
          rw [h1, e j hj]
          by_cases hlt : j < k
          · rw [if_pos hlt, if_pos (by omega)]
          · rw [if_neg hlt, if_neg (by omega)]
  exact this u.numConstraints

/-- An update changes the multipliers (by the formula) or the penalty parameter, never both, according to the penalty. -/
def GoodUpd (o : Ops E) (n : Nat) (C : Nat → X → E) (p : Upd X E) : Prop :=
  p.penalty = (List.range n).foldl (fun a i => o.add a (o.sq (C i p.x))) o.zero ∧
  ((o.below p.penalty p.threshold = true ∧ p.sigma' = p.sigma ∧ p.lam'.length = p.lam.length ∧
      ∀ j < n, p.lam'.getD j o.zero = o.lamUpd (p.lam.getD j o.zero) p.sigma (C j p.x)) ∨
    (o.below p.penalty p.threshold = false ∧ p.lam' = p.lam ∧ p.sigma' = o.grow p.sigma))

theorem lastPt_quiet (x₀ : X) (l l' : List (Ev X E)) (h : ∀ e ∈ l', isSolved e = false) :
    lastPt x₀ (l ++ l') = lastPt x₀ l := by
  unfold lastPt
  rw [List.foldl_append]
  generalize l.foldl _ x₀ = a
  induction l' generalizing a with
  | nil => rfl
  | cons e l' ih =>
    rw [List.foldl_cons]
    have he := h e (List.mem_cons_self ..)
    cases e with
    | solved y => cases he
    | _ => exact ih (fun e he => h e (List.mem_cons_of_mem _ he)) _

theorem lastPt_solved (x₀ : X) (l : List (Ev X E)) (y : X) : lastPt x₀ (l ++ [.solved y]) = y := by
  unfold lastPt
  rw [List.foldl_append]
  rfl

/-- The invariant of the outer loop. -/
structure Inv (o : Ops E) (u : User W X E) (F : X → E) (C : Nat → X → E) (le : E → E → Prop) (m : Nat) (x₀ : X) (σ₀ : E)
    (t : St W X E) : Prop where
  len : t.lam.length = u.numConstraints
  count : (t.trace.filter isSolved).length = t.it
  bound : m ≠ 0 → t.it ≤ m - 1
  last : t.last = F (lastPt x₀ t.trace)
  stopTerm : (∃ e ∈ t.trace, isStop e = true) → t.term = true
  order : t.trace.Pairwise fun a b => isStop a = true → isSolved b = false
  upd : ∀ p, .update p ∈ t.trace → GoodUpd o u.numConstraints C p
  mono : le σ₀ t.sigma

/-- What holds when the loop is left. -/
structure Out (o : Ops E) (u : User W X E) (F : X → E) (C : Nat → X → E) (le : E → E → Prop) (m : Nat) (x₀ : X) (σ₀ : E)
    (e : Exit) (t : St W X E) : Prop where
  noUb : e ≠ .ub
  count : m ≠ 0 → (t.trace.filter isSolved).length ≤ m - 1
  order : t.trace.Pairwise fun a b => isStop a = true → isSolved b = false
  upd : ∀ p, .update p ∈ t.trace → GoodUpd o u.numConstraints C p
  mono : le σ₀ t.sigma
  conv : e = .converged → o.big t.sigma = true ∧ ∃ pre post, t.trace = pre ++ .solved t.x :: post ∧ Quiet post ∧
    o.close (F (lastPt x₀ pre)) (F t.x) = true
  loop : e = .loop → t.term = true ∨ (m ≠ 0 ∧ (t.trace.filter isSolved).length = m - 1)

theorem filter_quiet {l : List (Ev X E)} (h : ∀ e ∈ l, isSolved e = false) : l.filter isSolved = [] := by
  rw [List.filter_eq_nil_iff]
  intro e he
  rw [h e he]; simp

theorem order_append {l l' : List (Ev X E)} (h : l.Pairwise fun a b => isStop a = true → isSolved b = false)
    (h' : ∀ e ∈ l', isSolved e = false) : (l ++ l').Pairwise fun a b => isStop a = true → isSolved b = false := by
  rw [List.pairwise_append]
  refine ⟨h, ?_, fun a _ b hb _ => h' b hb⟩
  rw [List.pairwise_iff_forall_sublist]
  intro a b hab _
  exact h' b (hab.subset (by simp))

section

variable {o : Ops E} {u : User W X E} {F : X → E} {C : Nat → X → E} {le : E → E → Prop} {m : Nat} {x₀ : X} {σ₀ : E}

/-- Extending the trace with events that are not `solved`. -/
theorem mem_update_append {l l' : List (Ev X E)} {n : Nat} (h : ∀ p, .update p ∈ l → GoodUpd o n C p)
    (h' : ∀ p, .update p ∈ l' → GoodUpd o n C p) : ∀ p, .update p ∈ l ++ l' → GoodUpd o n C p := by
  intro p hp
  rcases List.mem_append.1 hp with hp | hp
  · exact h p hp
  · exact h' p hp

theorem quiet_noupd {l : List (Ev X E)} {n : Nat} (h : Quiet l) : ∀ p, .update p ∈ l → GoodUpd o n C p := by
  intro p hp
  cases (h _ hp).2

/-- State in the middle of a pass: the inner run of this pass has been recorded. -/
structure Mid (o : Ops E) (u : User W X E) (F : X → E) (C : Nat → X → E) (le : E → E → Prop) (m : Nat) (x₀ : X) (σ₀ : E)
    (t : St W X E) : Prop where
  len : t.lam.length = u.numConstraints
  count : (t.trace.filter isSolved).length = t.it + 1
  bound : m ≠ 0 → t.it + 1 ≤ m - 1
  last : t.last = F (lastPt x₀ t.trace)
  stopTerm : (∃ e ∈ t.trace, isStop e = true) → t.term = true
  order : t.trace.Pairwise fun a b => isStop a = true → isSolved b = false
  upd : ∀ p, .update p ∈ t.trace → GoodUpd o u.numConstraints C p
  mono : le σ₀ t.sigma

theorem updateStep_spec (hC : ∀ w i x, (u.cons w i x).2 = C i x) (hgrow : ∀ s s', le s s' → le s (o.grow s')) {t : St W X E}
    (h : Mid o u F C le m x₀ σ₀ t) {p : E}
    (hp : p = (List.range u.numConstraints).foldl (fun a i => o.add a (o.sq (C i t.x))) o.zero) :
    (∀ t', updateStep o u t p = .inl t' → Inv o u F C le m x₀ σ₀ t' ∧ t'.it = t.it + 1) ∧
      ∀ r, updateStep o u t p = .inr r → Out o u F C le m x₀ σ₀ r.1 r.2 := by
  unfold updateStep
  by_cases hb : o.below p t.threshold = true
  · rw [if_pos hb]
    obtain ⟨l1, l2, l3, l4, l5⟩ := lambdaOf_spec o u hC t.x t.sigma t.w t.lam t.term
    set l := lambdaOf o u t.x t.sigma t.w t.lam t.term with hl
    refine ⟨fun t' ht => ?_, fun r hr => by cases hr⟩
    cases ht
    have hns : ∀ e ∈ l.2.2.2 ++ Ev.update ⟨t.x, p, t.threshold, t.lam, t.sigma, l.2.1, t.sigma⟩ ::
        flag (u.cbStep l.1 t.x).2.2, isSolved e = false := by
      intro e he
      rcases List.mem_append.1 he with he | he
      · exact (l1 e he).1
      · rcases List.mem_cons.1 he with rfl | he
        · rfl
        · exact (quiet_flag _ e he).1
    refine ⟨⟨by dsimp only; rw [l4]; exact h.len, ?_, h.bound, ?_, ?_, ?_, ?_, h.mono⟩, rfl⟩
    · dsimp only
      rw [List.filter_append, filter_quiet hns, List.append_nil]; exact h.count
    · dsimp only
      rw [lastPt_quiet _ _ _ hns]; exact h.last
    · rintro ⟨e, he, hs⟩
      dsimp only at he ⊢
      rcases List.mem_append.1 he with he | he
      · rw [l3 (h.stopTerm ⟨e, he, hs⟩)]; rfl
      · rcases List.mem_append.1 he with he | he
        · rw [l2 ⟨e, he, hs⟩]; rfl
        · rcases List.mem_cons.1 he with rfl | he
          · cases hs
          · rw [stop_flag ⟨e, he, hs⟩, Bool.or_true]
    · exact order_append h.order hns
    · apply mem_update_append h.upd
      intro q hq
      rcases List.mem_append.1 hq with hq | hq
      · exact quiet_noupd l1 q hq
      · rcases List.mem_cons.1 hq with hq | hq
        · cases hq
          refine ⟨hp, .inl ⟨hb, rfl, l4, fun j hj => ?_⟩⟩
          dsimp only
          rw [l5 j (by rw [h.len]; exact hj), if_pos hj]
        · exact quiet_noupd (quiet_flag _) q hq
  · rw [if_neg hb]
    have hb' : o.below p t.threshold = false := by simpa using hb
    have hgood : GoodUpd o u.numConstraints C ⟨t.x, p, t.threshold, t.lam, t.sigma, t.lam, o.grow t.sigma⟩ :=
      ⟨hp, .inr ⟨hb', rfl, rfl⟩⟩
    have hns : ∀ e ∈ [Ev.update (⟨t.x, p, t.threshold, t.lam, t.sigma, t.lam, o.grow t.sigma⟩ : Upd X E)],
        isSolved e = false := by
      intro e he
      rw [List.mem_singleton] at he; subst he; rfl
    have hupd1 : ∀ q, .update q ∈ t.trace ++ [Ev.update ⟨t.x, p, t.threshold, t.lam, t.sigma, t.lam, o.grow t.sigma⟩] →
        GoodUpd o u.numConstraints C q := by
      apply mem_update_append h.upd
      intro q hq
      rw [List.mem_singleton] at hq
      cases hq; exact hgood
    dsimp only
    by_cases hh : o.huge (o.grow t.sigma) = true
    · rw [if_pos hh]
      refine ⟨(fun t' ht => by cases ht), fun r hr => ?_⟩
      cases hr
      refine ⟨by simp, fun hm => ?_, order_append h.order hns, hupd1, hgrow _ _ h.mono, (fun h => by cases h), fun h => by cases h⟩
      dsimp only
      rw [List.filter_append, filter_quiet hns, List.append_nil, h.count]; exact h.bound hm
    · rw [if_neg hh]
      refine ⟨fun t' ht => ?_, fun r hr => by cases hr⟩
      cases ht
      have hns2 : ∀ e ∈ (flag (u.cbStep t.w t.x).2.2 : List (Ev X E)), isSolved e = false := fun e he => (quiet_flag _ e he).1
      refine ⟨⟨h.len, ?_, h.bound, ?_, ?_, ?_, ?_, hgrow _ _ h.mono⟩, rfl⟩
      · dsimp only
        rw [List.filter_append, List.filter_append, filter_quiet hns, filter_quiet hns2, List.append_nil, List.append_nil]
        exact h.count
      · dsimp only
        rw [lastPt_quiet _ _ _ hns2, lastPt_quiet _ _ _ hns]; exact h.last
      · rintro ⟨e, he, hs⟩
        dsimp only at he ⊢
        rcases List.mem_append.1 he with he | he
        · rcases List.mem_append.1 he with he | he
          · rw [h.stopTerm ⟨e, he, hs⟩]; rfl
          · rw [List.mem_singleton] at he; subst he; cases hs
        · rw [stop_flag ⟨e, he, hs⟩, Bool.or_true]
      · exact order_append (order_append h.order hns) hns2
      · exact mem_update_append hupd1 (quiet_noupd (quiet_flag _))

theorem body_spec (hF : ∀ w x, (u.eval w x).2 = F x) (hC : ∀ w i x, (u.cons w i x).2 = C i x)
    (hgrow : ∀ s s', le s s' → le s (o.grow s')) {t : St W X E} (h : Inv o u F C le m x₀ σ₀ t) :
    (∀ t', body o u m t = .inl t' → Inv o u F C le m x₀ σ₀ t' ∧ t'.it = t.it + 1) ∧
      ∀ r, body o u m t = .inr r → Out o u F C le m x₀ σ₀ r.1 r.2 := by
  unfold body
  by_cases hc : (m = 0 ∨ t.it ≠ m - 1) ∧ t.term = false
  · rw [if_pos hc, if_neg (by rw [h.len]; exact Nat.lt_irrefl _)]
    have hnostop : ∀ e ∈ t.trace, isStop e = false := by
      intro e he
      by_contra hs
      have := h.stopTerm ⟨e, he, by simpa using hs⟩
      rw [hc.2] at this; cases this
    have hit : m ≠ 0 → t.it + 1 ≤ m - 1 := by
      intro hm
      have h1 := h.bound hm
      have h2 := hc.1.resolve_left hm
      omega
    have hobj : (inner u t).2 = F (inner u t).1.x := by
      simp only [inner]; exact hF _ _
    have htr : (inner u t).1.trace = t.trace ++ .solved (inner u t).1.x :: flag (u.cbEval (u.eval (u.solve t.w t.x t.lam
        t.sigma).1 (u.solve t.w t.x t.lam t.sigma).2).1 (u.solve t.w t.x t.lam t.sigma).2 (u.eval (u.solve t.w t.x t.lam
        t.sigma).1 (u.solve t.w t.x t.lam t.sigma).2).2).2 := rfl
    have hterm : (inner u t).1.term = (t.term || (u.cbEval (u.eval (u.solve t.w t.x t.lam
        t.sigma).1 (u.solve t.w t.x t.lam t.sigma).2).1 (u.solve t.w t.x t.lam t.sigma).2 (u.eval (u.solve t.w t.x t.lam
        t.sigma).1 (u.solve t.w t.x t.lam t.sigma).2).2).2) := rfl
    have hlam : (inner u t).1.lam = t.lam := rfl
    have hsig : (inner u t).1.sigma = t.sigma := rfl
    have hlast : (inner u t).1.last = t.last := rfl
    have hit' : (inner u t).1.it = t.it := rfl
    generalize (u.cbEval (u.eval (u.solve t.w t.x t.lam t.sigma).1 (u.solve t.w t.x t.lam t.sigma).2).1 (u.solve t.w t.x
      t.lam t.sigma).2 (u.eval (u.solve t.w t.x t.lam t.sigma).1 (u.solve t.w t.x t.lam t.sigma).2).2).2 = b at htr hterm
    generalize (inner u t).1 = t₁ at *
    generalize (inner u t).2 = obj at *
    subst hobj
    have hcount : (t₁.trace.filter isSolved).length = t₁.it + 1 := by
      rw [htr, List.filter_append, List.filter_cons_of_pos rfl, filter_quiet fun e he => (quiet_flag _ e he).1,
        List.length_append, h.count, hit']
      rfl
    have horder : t₁.trace.Pairwise fun a b => isStop a = true → isSolved b = false := by
      rw [htr]
      have h1 : (t.trace ++ [Ev.solved t₁.x]).Pairwise fun a b => isStop a = true → isSolved b = false := by
        rw [List.pairwise_append]
        refine ⟨h.order, by simp, fun a ha b _ hs => ?_⟩
        rw [hnostop a ha] at hs; cases hs
      have h2 := order_append h1 (l' := flag b) fun e he => (quiet_flag _ e he).1
      simpa using h2
    have hupd : ∀ p, .update p ∈ t₁.trace → GoodUpd o u.numConstraints C p := by
      rw [htr]
      apply mem_update_append h.upd
      intro q hq
      rcases List.mem_cons.1 hq with hq | hq
      · cases hq
      · exact quiet_noupd (quiet_flag _) q hq
    have hst : (∃ e ∈ t₁.trace, isStop e = true) → t₁.term = true := by
      rintro ⟨e, he, hs⟩
      rw [htr] at he
      rw [hterm]
      rcases List.mem_append.1 he with he | he
      · rw [hnostop e he] at hs; cases hs
      · rcases List.mem_cons.1 he with rfl | he
        · cases hs
        · rw [stop_flag ⟨e, he, hs⟩, Bool.or_true]
    unfold afterInner
    by_cases hcv : (o.close t₁.last (F t₁.x) && o.big t₁.sigma) = true
    · rw [if_pos hcv]
      refine ⟨(fun t' ht => by cases ht), fun r hr => ?_⟩
      cases hr
      rw [Bool.and_eq_true] at hcv
      refine ⟨by simp, fun hm => by rw [hcount, hit']; exact hit hm, horder, hupd, by rw [hsig]; exact h.mono, fun _ => ?_,
        fun h => by cases h⟩
      refine ⟨hcv.2, t.trace, flag b, htr, quiet_flag _, ?_⟩
      rw [← h.last, ← hlast]; exact hcv.1
    · rw [if_neg hcv]
      obtain ⟨p1, p2, p3, p4⟩ := penaltyOf_spec o u hC t₁.x t₁.w t₁.term
      have hmid : Mid o u F C le m x₀ σ₀ { t₁ with
          w := (penaltyOf o u t₁.x t₁.w t₁.term).1, last := F t₁.x, term := (penaltyOf o u t₁.x t₁.w t₁.term).2.2.1,
          trace := t₁.trace ++ (penaltyOf o u t₁.x t₁.w t₁.term).2.2.2 } := by
        refine ⟨by dsimp only; rw [hlam]; exact h.len, ?_, fun hm => by dsimp only; rw [hit']; exact hit hm, ?_, ?_, ?_, ?_,
          by dsimp only; rw [hsig]; exact h.mono⟩
        · dsimp only
          rw [List.filter_append, filter_quiet fun e he => (p1 e he).1, List.append_nil]; exact hcount
        · dsimp only
          rw [lastPt_quiet _ _ _ fun e he => (p1 e he).1, htr,
            show t.trace ++ Ev.solved t₁.x :: flag b = (t.trace ++ [Ev.solved t₁.x]) ++ flag b by simp,
            lastPt_quiet _ _ _ fun e he => (quiet_flag _ e he).1, lastPt_solved]
        · rintro ⟨e, he, hs⟩
          dsimp only at he ⊢
          rcases List.mem_append.1 he with he | he
          · exact p3 (hst ⟨e, he, hs⟩)
          · exact p2 ⟨e, he, hs⟩
        · exact order_append horder fun e he => (p1 e he).1
        · exact mem_update_append hupd (quiet_noupd p1)
      dsimp only
      by_cases ht : (penaltyOf o u t₁.x t₁.w t₁.term).2.2.1 = true
      · rw [if_pos ht]
        refine ⟨(fun t' ht => by cases ht), fun r hr => ?_⟩
        cases hr
        exact ⟨by simp, fun hm => by rw [hmid.count]; exact hmid.bound hm, hmid.order, hmid.upd, hmid.mono, (fun h => by cases h),
          fun _ => .inl ht⟩
      · rw [if_neg ht]
        have := updateStep_spec hC hgrow hmid p4
        refine ⟨fun t' ht' => ?_, this.2⟩
        obtain ⟨a, b⟩ := this.1 t' ht'
        exact ⟨a, by rw [b]; dsimp only; rw [hit']⟩
  · rw [if_neg hc]
    refine ⟨(fun t' ht => by cases ht), fun r hr => ?_⟩
    cases hr
    refine ⟨by simp, fun hm => by rw [h.count]; exact h.bound hm, h.order, h.upd, h.mono, (fun h => by cases h), fun _ => ?_⟩
    rw [h.count]
    by_cases hterm : t.term = true
    · exact .inl hterm
    · right
      by_contra hx
      rw [not_and_or, not_not] at hx
      exact hc ⟨hx, by simpa using hterm⟩

theorem start_inv (hF : ∀ w x, (u.eval w x).2 = F x) (hC : ∀ w i x, (u.cons w i x).2 = C i x) (hrefl : le σ₀ σ₀)
    {term : Bool} {lam : List E} (hlen : lam.length = u.numConstraints) (w : W) (x : X) :
    Inv o u F C le m x σ₀ (start o u term lam σ₀ w x) := by
  obtain ⟨p1, p2, p3, p4⟩ := penaltyOf_spec o u hC x (u.eval w x).1 term
  have hq : ∀ e ∈ (penaltyOf o u x (u.eval w x).1 term).2.2.2, isSolved e = false := fun e he => (p1 e he).1
  refine ⟨hlen, ?_, fun _ => Nat.zero_le _, ?_, p2, ?_, quiet_noupd p1, hrefl⟩
  · simp only [start]; rw [filter_quiet hq]; rfl
  · simp only [start, hF]
    rw [← List.nil_append (penaltyOf o u x (u.eval w x).1 term).2.2.2, lastPt_quiet _ _ _ hq]
    rfl
  · simp only [start]
    rw [← List.nil_append (penaltyOf o u x (u.eval w x).1 term).2.2.2]
    exact order_append List.Pairwise.nil hq

/-- Every run satisfies the postcondition. -/
theorem run_out (hF : ∀ w x, (u.eval w x).2 = F x) (hC : ∀ w i x, (u.cons w i x).2 = C i x)
    (hgrow : ∀ s s', le s s' → le s (o.grow s')) (hrefl : le σ₀ σ₀) {lam : List E} (hlen : lam.length = u.numConstraints)
    {fuel : Nat} {ob ob' : Obj E} {w : W} {x : X} {e : Exit} {t : St W X E}
    (h : run o u m fuel ob lam σ₀ w x = some (ob', e, t)) :
    ∃ t₀, Out o u F C le m x σ₀ e t₀ ∧ t = finish u t₀ ∧ ob' = store ob (e, t₀) := by
  unfold run at h
  rw [Option.map_eq_some_iff] at h
  obtain ⟨r, hr, he⟩ := h
  cases he
  refine ⟨r.2, ?_, rfl, rfl⟩
  exact iterate_inv (Inv o u F C le m x σ₀) (fun r => Out o u F C le m x σ₀ r.1 r.2)
    (fun s s' hs hst => ((body_spec hF hC hgrow hs).1 s' hst).1) (fun s r hs hst => (body_spec hF hC hgrow hs).2 r hst)
    fuel _ _ (start_inv hF hC hrefl hlen w x) hr

/-- **C51** The outer loop, for every objective `F`, constraints `C`, inner solver and callbacks, and multipliers of the
right length: with `maxIterations > 0` it ends, after at most `maxIterations - 1` inner runs; each update changes either
the multipliers (by `lambda - sigma c`, when the penalty is below the threshold) or the penalty parameter, never both;
the penalty parameter never falls below its initial value; `true` is returned only if the last two objectives are within
the tolerance and the penalty parameter is above 500000, and then the multipliers and the penalty parameter are stored. -/
theorem C51_outer_loop (hF : ∀ w x, (u.eval w x).2 = F x) (hC : ∀ w i x, (u.cons w i x).2 = C i x)
    (hgrow : ∀ s s', le s s' → le s (o.grow s')) (hrefl : le σ₀ σ₀) (hend : ∀ w x, (u.cbEnd w x).2 = x) {lam : List E}
    (hlen : lam.length = u.numConstraints) (hm : 0 < m) (ob : Obj E) (w : W) (x : X) :
    ∃ ob' e t, run o u m m ob lam σ₀ w x = some (ob', e, t) ∧ e ≠ .ub ∧ (t.trace.filter isSolved).length ≤ m - 1 ∧
      (∀ p, .update p ∈ t.trace → GoodUpd o u.numConstraints C p) ∧ le σ₀ t.sigma ∧
      (e = .converged → o.big t.sigma = true ∧ ob'.lam = t.lam ∧ ob'.sigma = t.sigma ∧
        ∃ pre post, t.trace = pre ++ .solved t.x :: post ∧ Quiet post ∧ o.close (F (lastPt x pre)) (F t.x) = true) ∧
      (e ≠ .converged → ob'.lam = ob.lam ∧ ob'.sigma = ob.sigma) ∧
      (e = .loop → t.term = true ∨ (t.trace.filter isSolved).length = m - 1) := by
  have h0 := start_inv (o := o) (u := u) (m := m) (σ₀ := σ₀) hF hC hrefl (term := ob.terminate) hlen w x
  obtain ⟨r, hr⟩ := iterate_total (Inv o u F C le m x σ₀) (fun t => m - 1 - t.it) (fun s s' hs hst => by
    have h1 := (body_spec hF hC hgrow hs).1 s' hst
    have h2 := h1.1.bound (by omega)
    exact ⟨h1.1, by omega⟩) m (start o u ob.terminate lam σ₀ w x) h0 (by simp only [start]; omega)
  have hrun : run o u m m ob lam σ₀ w x = some (store ob r, r.1, finish u r.2) := by
    unfold run; rw [hr]; rfl
  have hout : Out o u F C le m x σ₀ r.1 r.2 :=
    iterate_inv (Inv o u F C le m x σ₀) (fun r => Out o u F C le m x σ₀ r.1 r.2)
      (fun s s' hs hst => ((body_spec hF hC hgrow hs).1 s' hst).1) (fun s r hs hst => (body_spec hF hC hgrow hs).2 r hst)
      m _ _ h0 hr
  have hfx : (finish u r.2).x = r.2.x := hend _ _
  refine ⟨_, _, _, hrun, hout.noUb, hout.count (by omega), hout.upd, hout.mono, fun he => ?_, fun he => ?_, fun he => ?_⟩
  · obtain ⟨a, b⟩ := hout.conv he
    refine ⟨a, ?_, ?_, ?_⟩
    · simp only [store, if_pos he]; rfl
    · simp only [store, if_pos he]; rfl
    · rw [hfx]; exact b
  · simp only [store, if_neg he, and_self]
  · rcases hout.loop he with h | h
    · exact .inl h
    · exact .inr h.2

/-- **C121** After a stop request by a callback of the outer loop the inner solver is not called again. -/
theorem C121_stop (hF : ∀ w x, (u.eval w x).2 = F x) (hC : ∀ w i x, (u.cons w i x).2 = C i x) {lam : List E} {σ : E}
    (hlen : lam.length = u.numConstraints) {fuel : Nat} {ob ob' : Obj E} {w : W} {x : X} {e : Exit} {t : St W X E}
    (h : run o u m fuel ob lam σ w x = some (ob', e, t)) {pre post : List (Ev X E)} (hs : t.trace = pre ++ .stop :: post) :
    ∀ y, .solved y ∉ post := by
  obtain ⟨t₀, ho, rfl, -⟩ := run_out (le := fun _ _ => True) hF hC (fun _ _ _ => trivial) trivial hlen h
  intro y hy
  have := ho.order
  change (finish u t₀).trace.Pairwise _ at this
  rw [hs, List.pairwise_append] at this
  have h2 := (List.pairwise_cons.1 this.2.1).1 _ hy rfl
  cases h2

end

/-! ### C122: reuse of the optimizer -/

/-- **C122** (refuted) The member `terminate` is never reset: once a callback has stopped a run, every later run of the
same object — any function, any parameters — does nothing and returns `false`. -/
theorem C122_reuse_refuted {o : Ops E} {u : User W X E} {m fuel : Nat} {C : Nat → X → E} (hC : ∀ w i x, (u.cons w i x).2 = C i x)
    (ob : Obj E) (hstop : ob.terminate = true) (lam : List E) (σ : E) (w : W) (x : X) :
    ∃ t, run o u m (fuel + 1) ob lam σ w x = some ({ ob with terminate := true }, .loop, t) ∧ ∀ y, .solved y ∉ t.trace := by
  obtain ⟨p1, -, p3, -⟩ := penaltyOf_spec o u hC x (u.eval w x).1 true
  have hterm : (start o u ob.terminate lam σ w x).term = true := by
    rw [hstop]; exact p3 rfl
  have hb : body o u m (start o u ob.terminate lam σ w x) = .inr (.loop, start o u ob.terminate lam σ w x) := by
    unfold body
    rw [if_neg (by rw [hterm]; simp)]
  refine ⟨finish u (start o u ob.terminate lam σ w x), ?_, ?_⟩
  · unfold run
    rw [iterate, hb]
    simp only [Option.map_some, store]
    rw [if_neg (by simp), hterm]
  · intro y hy
    rw [hstop] at hy
    have := (p1 _ hy).1
    cases this

/-! ### C126: multipliers of the wrong size -/

/-- **C126** (refuted) "If the user did not specify the right size for sigma and lambda, we will use defaults" (lines
64-65): only emptiness is tested. Multipliers that are too few (for instance left by a run on another function) are read
out of bounds, whatever the function, unless a callback stops the run first. -/
theorem C126_size_refuted {o : Ops E} {u : User W X E} {m fuel : Nat} (ob : Obj E) (hne : ob.lam ≠ [])
    (hshort : ob.lam.length < u.numConstraints) (hm : m ≠ 1) (w : W) (x : X)
    (hstop : (start o u ob.terminate ob.lam ob.sigma w x).term = false) :
    ∃ ob' t, optimize o u m (fuel + 1) ob w x = some (ob', .ub, t) := by
  have hlam : (start o u ob.terminate ob.lam ob.sigma w x).lam = ob.lam := rfl
  have hit : (start o u ob.terminate ob.lam ob.sigma w x).it = 0 := rfl
  have hb : body o u m (start o u ob.terminate ob.lam ob.sigma w x) =
      .inr (.ub, start o u ob.terminate ob.lam ob.sigma w x) := by
    unfold body
    rw [if_pos ⟨by rw [hit]; omega, hstop⟩, if_pos (by rw [hlam]; exact hshort)]
  have he : ob.lam.isEmpty = false := by
    cases h : ob.lam with
    | nil => exact absurd h hne
    | cons => rfl
  unfold optimize
  rw [he]
  simp only [Bool.false_eq_true, if_false]
  unfold run
  rw [iterate, hb]
  exact ⟨_, _, rfl⟩

/-! ### Concrete runs over the rationals -/

/-- Exact arithmetic with the constants of the code (`epsilon` of `double`). -/
def ratOps : Ops ℚ where
  zero := 0
  add := (· + ·)
  sq := fun c => c * c
  lamUpd := fun l s c => l - s * c
  scale := fun p => p / 4
  grow := fun s => s * 10
  close := fun a b => decide (|a - b| < 1000 * (1 / 2 ^ 52))
  big := fun s => decide (500000 < s)
  huge := fun s => decide (2 ^ 1023 ≤ s)
  below := fun p t => decide (p < t)
  maxE := 2 ^ 1024
  ten := 10

/-- Constant objective, one constraint `x = 2`, a solver that stays where it is; callbacks
stop when `stop` holds of the constraint value they are told. -/
def stuck (stop : ℚ → Bool) : User Unit ℚ ℚ where
  numConstraints := 1
  eval := fun w _ => (w, 0)
  cons := fun w _ x => (w, x - 2)
  solve := fun w x _ _ => (w, x)
  cbBegin := fun w x => (w, x)
  cbCons := fun w _ _ v => (w, stop v)
  cbEval := fun w _ _ => (w, false)
  cbStep := fun w x => (w, x, false)
  cbEnd := fun w x => (w, x)

/-- **C123** (refuted) "When `Optimize` returns `true` the constraints are (nearly) satisfied": only the change of the
objective is tested. With a constant objective and default settings `true` is returned at a point that violates the
constraint by 2. -/
theorem C123_feasible_refuted :
    ¬ ∀ (u : User Unit ℚ ℚ) (C : Nat → ℚ → ℚ), (∀ w i x, (u.cons w i x).2 = C i x) → ∀ m ob' t,
      optimize ratOps u m 1000 ⟨[], 0, false⟩ () 0 = some (ob', .converged, t) → ∀ i < u.numConstraints, |C i t.x| ≤ 1 := by
  intro h
  have hrun : ((optimize ratOps (stuck fun _ => false) 1000 1000 ⟨[], 0, false⟩ () 0).map fun r => (r.2.1, r.2.2.x)) =
      some (.converged, 0) := by decide +kernel
  rw [Option.map_eq_some_iff] at hrun
  obtain ⟨⟨ob', e, t⟩, hr, htr⟩ := hrun
  simp only [Prod.mk.injEq] at htr
  obtain ⟨rfl, hx⟩ := htr
  have := h (stuck fun _ => false) (fun _ x => x - 2) (fun _ _ _ => rfl) 1000 ob' t hr 0 (by decide)
  rw [hx] at this
  norm_num at this

/-- **C124** (refuted) "The `EvaluateConstraint` callback is told the value of the constraint": in the penalty loops it
is told the square. -/
theorem C124_value_refuted :
    ¬ ∀ (u : User Unit ℚ ℚ) (C : Nat → ℚ → ℚ), (∀ w i x, (u.cons w i x).2 = C i x) → ∀ m ob' e t,
      optimize ratOps u m 1000 ⟨[], 0, false⟩ () 0 = some (ob', e, t) →
      ∀ x i v, .told x i v ∈ t.trace → v = C i x := by
  intro h
  have hrun : (optimize ratOps (stuck fun _ => false) 1 1000 ⟨[], 0, false⟩ () 0).map
      (fun r => r.2.2.trace.map fun e => match e with | .told x i v => some (x, i, v) | _ => none) =
      some [some (0, 0, 4)] := by decide +kernel
  rw [Option.map_eq_some_iff] at hrun
  obtain ⟨⟨ob', e, t⟩, hr, htr⟩ := hrun
  dsimp only at htr
  have hlen : t.trace.length = 1 := by simpa using congrArg List.length htr
  obtain ⟨a, ha⟩ := List.length_eq_one_iff.1 hlen
  rw [ha] at htr
  cases a with
  | told x i v =>
    simp only [List.map_cons, List.map_nil, List.cons.injEq, Option.some.injEq, Prod.mk.injEq, and_true] at htr
    obtain ⟨rfl, rfl, rfl⟩ := htr
    have := h (stuck fun _ => false) (fun _ x => x - 2) (fun _ _ _ => rfl) 1 ob' e t hr 0 0 4 (by rw [ha]; simp)
    norm_num at this
  | _ => simp at htr

/-- Hypotheses of `C51_outer_loop` hold for this user and ordering, and the run is not trivial. -/
example : ∃ ob' e t, run ratOps (stuck fun _ => false) 5 5 ⟨[], 0, false⟩ [0] 10 () 0 = some (ob', e, t) ∧ e ≠ .ub := by
  obtain ⟨ob', e, t, h1, h2, -⟩ := C51_outer_loop (o := ratOps) (u := stuck fun _ => false) (F := fun _ => 0)
    (C := fun _ x => x - 2) (le := fun a b => 0 ≤ a ∧ a ≤ b) (m := 5) (σ₀ := 10) (fun _ _ => rfl) (fun _ _ _ => rfl)
    (fun s s' h => ⟨h.1, by simp only [ratOps]; linarith [h.1, h.2]⟩) (by norm_num) (fun _ _ => rfl) (lam := [0]) rfl
    (by norm_num) ⟨[], 0, false⟩ () 0
  exact ⟨ob', e, t, h1, h2⟩

example : ((run ratOps (stuck fun _ => false) 5 5 ⟨[], 0, false⟩ [0] 10 () 0).map fun r =>
    ((r.2.2.trace.filter isSolved).length, r.2.2.lam, r.2.2.sigma)) = some (4, [20], 10000) := by decide +kernel

/-- **C126** One multiplier left by a run with one constraint, then a function with two. -/
example : ((optimize ratOps { stuck (fun _ => false) with numConstraints := 2 } 10 10 ⟨[5], 600000, false⟩ () 0).map
    fun r => r.2.1) = some .ub := by decide +kernel

/-- **C122** A run stopped by a callback leaves the object unusable. -/
example : ((optimize ratOps (stuck fun v => decide (v = 4)) 10 10 ⟨[], 0, false⟩ () 0).map fun r => r.1.terminate) =
    some true := by decide +kernel

end Ens.AugLag
