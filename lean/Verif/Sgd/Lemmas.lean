import Mathlib.Data.List.Basic
import Mathlib.Algebra.BigOperators.Group.Finset.Basic
import Verif.Trace
import Verif.Sgd.Model

/-
Specification vocabulary and invariants for the SGD loop.
-/

namespace Ens.Sgd

variable {W M G E : Type}

/-! ### Reading a trace -/

/-- Function positions visited by the gradient evaluations of a trace, in order. -/
def visits (t : List (Ev M E)) : List Nat :=
  t.flatMap (fun e => match e with
    | .evalGrad _ b n _ => List.range' b n
    | _ => [])

/-- Did some callback ask to stop in this trace? -/
def Ev.stops : Ev M E → Bool
  | .beginEpoch _ _ s => s
  | .cbEvalGrad s => s
  | .stepTaken s => s
  | .endEpoch _ _ s => s
  | _ => false

def anyStop (t : List (Ev M E)) : Bool := t.any Ev.stops

def Ev.isEndEpoch : Ev M E → Bool
  | .endEpoch _ _ _ => true
  | _ => false

def Ev.isBeginOpt : Ev M E → Bool
  | .beginOpt _ => true
  | _ => false

def Ev.isEndOpt : Ev M E → Bool
  | .endOpt _ => true
  | _ => false

/-- Objectives of the gradient evaluations of the last (complete or partial) epoch of a trace:
collecting starts anew with the first evaluation after an `endEpoch`. -/
def lastEpochAux (t : List (Ev M E)) : List E × Bool :=
  t.foldl (fun a e => match e with
    | .evalGrad _ _ _ o => if a.2 then ([o], false) else (a.1 ++ [o], false)
    | .endEpoch _ _ _ => (a.1, true)
    | _ => a) ([], false)

def lastEpoch (t : List (Ev M E)) : List E := (lastEpochAux t).1

/-- The trace laws that hold at every point of a run. -/
def EvLaw (n : Nat) (pre : List (Ev M E)) (e : Ev M E) : Prop :=
  match e with
  | .evalGrad _ b sz _ => 1 ≤ sz ∧ b + sz ≤ n ∧ b = (visits pre).length % n ∧ anyStop pre = false
  | .endEpoch ep _ _ => (visits pre).length = ep * n
  | .update _ _ => ∃ pre' st, pre = pre' ++ [.cbEvalGrad st] ∧ anyStop pre' = false
  | .beginOpt _ => pre = []
  | .endOpt _ => True
  | _ => pre ≠ []

@[simp] theorem visits_append (a b : List (Ev M E)) : visits (a ++ b) = visits a ++ visits b := by
  simp [visits]

@[simp] theorem anyStop_append (a b : List (Ev M E)) :
    anyStop (a ++ b) = (anyStop a || anyStop b) := by simp [anyStop]

theorem lastEpochAux_snoc (t : List (Ev M E)) (e : Ev M E) :
    lastEpochAux (t ++ [e]) = (match e with
    | .evalGrad _ _ _ o =>
        if (lastEpochAux t).2 then ([o], false) else ((lastEpochAux t).1 ++ [o], false)
    | .endEpoch _ _ _ => ((lastEpochAux t).1, true)
    | _ => lastEpochAux t) := by
  simp only [lastEpochAux, List.foldl_append, List.foldl_cons, List.foldl_nil]
  cases e <;> rfl

theorem visits_step {n i eff : Nat} (hlt : i % n + eff ≤ n) :
    (List.range i).map (· % n) ++ List.range' (i % n) eff = (List.range (i + eff)).map (· % n) := by
  induction eff with
  | zero => simp
  | succ k ih =>
    rw [List.range'_1_concat, ← List.append_assoc, ih (by omega), ← Nat.add_assoc, List.range_succ,
      List.map_append]
    congr 1
    simp only [List.map_cons, List.map_nil, List.cons.injEq, and_true]
    rw [Nat.add_mod, Nat.mod_eq_of_lt (show k < n by omega)]
    exact (Nat.mod_eq_of_lt (by omega)).symm

/-! ### Invariants -/

/-- Facts about the trace and the position counter, true at every point between the two halves of
the body and at the loop head. -/
structure TrInv (env : Env W M G E) (p : Params) (s : St W M E) : Prop where
  visits : visits s.trace = (List.range s.i).map (· % p.numFunctions)
  le : s.i ≤ p.actualMax
  law : Along (EvLaw p.numFunctions) s.trace
  stop : s.terminate = anyStop s.trace
  noEnd : s.trace.countP Ev.isEndOpt = 0
  one : s.trace.countP Ev.isBeginOpt = 1

/-- Loop-head invariant. -/
structure Inv (env : Env W M G E) (p : Params) (s : St W M E) : Prop extends TrInv env p s where
  cur : s.i < p.actualMax → s.cur = s.i % p.numFunctions
  epoch : s.epoch = s.i / p.numFunctions + 1
  ends : s.trace.countP Ev.isEndEpoch = s.i / p.numFunctions
  fresh : (lastEpochAux s.trace).2 = true ↔ (0 < s.i ∧ s.i % p.numFunctions = 0)
  obj : s.overall =
    (if 0 < s.i ∧ s.i % p.numFunctions = 0 ∧ s.i ≠ p.actualMax then env.zero
     else (lastEpoch s.trace).foldl env.add env.zero)

variable {env : Env W M G E} {p : Params}

theorem start_inv (w : W) (x : M) : Inv env p (start env w x) := by
  refine ⟨⟨?_, ?_, ?_, ?_, ?_, ?_⟩, ?_, ?_, ?_, ?_, ?_⟩
  · simp [start, Ens.Sgd.visits]
  · simp [start]
  · show Along _ ([] ++ [_, _])
    rw [along_snoc₂]
    exact ⟨along_nil _, rfl, by simp [EvLaw]⟩
  · simp [start, anyStop, Ev.stops]
  · rfl
  · rfl
  · simp [start]
  · simp [start]
  · simp only [Nat.zero_div, start]; rfl
  · simp [start, lastEpochAux]
  · simp [start, lastEpoch, lastEpochAux]

theorem effBatch_facts (hn : 0 < p.numFunctions) (hb : 0 < p.batchSize) {s : St W M E}
    (h : Inv env p s) (hi : s.i < p.actualMax) :
    1 ≤ effBatch p s ∧ s.i % p.numFunctions + effBatch p s ≤ p.numFunctions ∧
      s.i + effBatch p s ≤ p.actualMax := by
  have hc := h.cur hi
  have hm : s.i % p.numFunctions < p.numFunctions := Nat.mod_lt _ hn
  unfold effBatch
  rw [hc]
  omega

/-- Facts after the first half of the body. -/
structure Mid (env : Env W M G E) (p : Params) (s : St W M E) (s' : St W M E) : Prop
    extends TrInv env p s' where
  i_eq : s'.i = s.i + effBatch p s
  cur_eq : s'.cur = s.i % p.numFunctions + effBatch p s
  epoch_eq : s'.epoch = s.i / p.numFunctions + 1
  ends_eq : s'.trace.countP Ev.isEndEpoch = s.i / p.numFunctions
  fresh : (lastEpochAux s'.trace).2 = false
  obj : s'.overall = (lastEpoch s'.trace).foldl env.add env.zero
  ne : s'.trace ≠ []

theorem stepBatch_mid (hn : 0 < p.numFunctions) (hb : 0 < p.batchSize) {s : St W M E}
    (h : Inv env p s) (hi : s.i < p.actualMax) (ht : s.terminate = false) :
    Mid env p s (stepBatch env p s) := by
  obtain ⟨h1, h2, h3⟩ := effBatch_facts hn hb h hi
  have hc := h.cur hi
  have hst : anyStop s.trace = false := by rw [← h.stop]; exact ht
  have htr : (stepBatch env p s).trace = s.trace ++ _ := rfl
  refine ⟨⟨?_, ?_, ?_, ?_, ?_, ?_⟩, rfl, by rw [← hc]; rfl, by simpa [stepBatch] using h.epoch, ?_, ?_, ?_, ?_⟩
  · rw [htr, visits_append, h.visits]
    show _ ++ (visits _) = _
    simp only [Ens.Sgd.visits, List.flatMap_cons, List.flatMap_nil, List.append_nil]
    rw [hc, visits_step h2]; rfl
  · exact h3
  · rw [htr, along_snoc₄]
    refine ⟨h.law, ⟨h1, by rw [hc]; exact h2, ?_, hst⟩, by simp [EvLaw], ⟨s.trace ++ [_], _, (List.append_assoc _ [_] [_]).symm, ?_⟩, by simp [EvLaw]⟩
    · rw [h.visits, List.length_map, List.length_range]; exact hc
    · simp [anyStop_append, hst]; simp [anyStop, Ev.stops]
  · rw [htr, anyStop_append, hst]
    simp [stepBatch, anyStop, Ev.stops, ht]
  · rw [htr, List.countP_append, h.noEnd]; rfl
  · rw [htr, List.countP_append, h.one]; rfl
  · rw [htr, List.countP_append, h.ends]; rfl
  · rw [htr]
    show (lastEpochAux (s.trace ++ ([_] ++ ([_] ++ ([_] ++ [_]))))).2 = false
    simp only [← List.append_assoc, lastEpochAux_snoc]
    split <;> rfl
  · rw [htr]
    show _ = (lastEpochAux (s.trace ++ ([_] ++ ([_] ++ ([_] ++ [_]))))).1.foldl _ _
    simp only [← List.append_assoc, lastEpochAux_snoc]
    have ho := h.obj
    have hne : s.i ≠ p.actualMax := by omega
    by_cases hf : (lastEpochAux s.trace).2 = true
    · have hf' := h.fresh.1 hf
      rw [if_pos ⟨hf'.1, hf'.2, hne⟩] at ho
      simp [stepBatch, hf, ho]
    · have hf' : ¬ (0 < s.i ∧ s.i % p.numFunctions = 0) := fun h' => hf (h.fresh.2 h')
      rw [if_neg (fun h' => hf' ⟨h'.1, h'.2.1⟩)] at ho
      simp only [Bool.not_eq_true] at hf
      simp [stepBatch, hf, ho, lastEpoch]
  · rw [htr]; simp

/-- What is known when the loop body returns early (NaN/Inf or tolerance). -/
structure Ret (env : Env W M G E) (p : Params) (s' : St W M E) : Prop extends TrInv env p s' where
  ends : s'.trace.countP Ev.isEndEpoch = s'.i / p.numFunctions
  mod : s'.i % p.numFunctions = 0
  pos : 0 < s'.i
  obj : s'.overall = (lastEpoch s'.trace).foldl env.add env.zero

theorem body_inv (hn : 0 < p.numFunctions) (hb : 0 < p.batchSize) {s : St W M E}
    (h : Inv env p s) (hi : s.i < p.actualMax) (ht : s.terminate = false) :
    (∃ s', body env p s = .cont s' ∧ Inv env p s' ∧ s.i < s'.i) ∨
    (∃ e s', body env p s = .ret e s' ∧ e ≠ .loop ∧ Ret env p s' ∧
      (e = .bad → env.isBad s'.overall = true) ∧ (e = .tol → env.isBad s'.overall = false)) := by
  obtain ⟨h1, h2, h3⟩ := effBatch_facts hn hb h hi
  have hm := stepBatch_mid hn hb h hi ht
  have hmodlt : s.i % p.numFunctions < p.numFunctions := Nat.mod_lt _ hn
  have hbody : body env p s =
      if (stepBatch env p s).cur % p.numFunctions = 0 then epochEnd env p (stepBatch env p s)
      else .cont (stepBatch env p s) := by
    simp [body, Nat.pos_iff_ne_zero.1 hn]
  rw [hbody]
  generalize stepBatch env p s = t at hm ⊢
  have hi' := hm.i_eq
  have hcur := hm.cur_eq
  by_cases hend : t.cur % p.numFunctions = 0
  · -- epoch end
    rw [if_pos hend]
    have hcn : t.cur = p.numFunctions := by
      rcases Nat.lt_or_ge t.cur p.numFunctions with hlt | hge
      · rw [Nat.mod_eq_of_lt hlt] at hend; omega
      · omega
    have hdiv : t.i = (s.i / p.numFunctions + 1) * p.numFunctions := by
      have := Nat.div_add_mod s.i p.numFunctions
      rw [Nat.mul_comm] at this
      rw [Nat.add_mul, Nat.one_mul]; omega
    have htdiv : t.i / p.numFunctions = s.i / p.numFunctions + 1 := by
      rw [hdiv, Nat.mul_div_cancel _ hn]
    have htmod : t.i % p.numFunctions = 0 := by rw [hdiv, Nat.mul_mod_left]
    have htpos : 0 < t.i := by omega
    have hvl : (visits t.trace).length = t.i := by rw [hm.visits]; simp
    -- facts about the trace extended by the endEpoch event
    have hlawE : ∀ o st, EvLaw p.numFunctions t.trace (.endEpoch t.epoch o st) := by
      intro o st
      show (visits t.trace).length = t.epoch * p.numFunctions
      rw [hvl, hm.epoch_eq, hdiv]
    unfold epochEnd
    simp only
    by_cases hbad : env.isBad t.overall = true
    · right
      rw [if_pos hbad]
      refine ⟨_, _, rfl, by simp, ⟨⟨?_, hm.le, ?_, ?_, ?_, ?_⟩, ?_, htmod, htpos, ?_⟩, fun _ => hbad, by simp⟩
      · simp only [visits_append, hm.visits]; simp [visits]
      · simp only; rw [along_snoc]; exact ⟨hm.law, hlawE _ _⟩
      · simp [anyStop_append, ← hm.stop]; simp [anyStop, Ev.stops]
      · simp only [List.countP_append, hm.noEnd]; rfl
      · simp only [List.countP_append, hm.one]; rfl
      · simp only [List.countP_append, hm.ends_eq, htdiv]; rfl
      · simp only [lastEpoch, lastEpochAux_snoc]; exact hm.obj
    · rw [if_neg hbad]
      by_cases hclose : env.isClose t.last t.overall = true
      · right
        rw [if_pos hclose]
        refine ⟨_, _, rfl, by simp, ⟨⟨?_, hm.le, ?_, ?_, ?_, ?_⟩, ?_, htmod, htpos, ?_⟩, by simp, fun _ => by simpa using hbad⟩
        · simp only [visits_append, hm.visits]; simp [visits]
        · simp only; rw [along_snoc]; exact ⟨hm.law, hlawE _ _⟩
        · simp [anyStop_append, ← hm.stop]; simp [anyStop, Ev.stops]
        · simp only [List.countP_append, hm.noEnd]; rfl
        · simp only [List.countP_append, hm.one]; rfl
        · simp only [List.countP_append, hm.ends_eq, htdiv]; rfl
        · simp only [lastEpoch, lastEpochAux_snoc]; exact hm.obj
      · left
        rw [if_neg hclose]
        refine ⟨_, rfl, ?_, ?_⟩
        · -- the continuing state
          have base : ∀ (s2 : St W M E) (b : Bool) (o o' : E) (st : Bool),
              s2.trace = t.trace ++ [.endEpoch t.epoch o st, .beginEpoch (t.epoch + 1) o' b] →
              s2.i = t.i → s2.terminate = (t.terminate || st || b) → s2.epoch = t.epoch + 1 →
              (t.i ≠ p.actualMax → s2.cur = 0 ∧ s2.overall = env.zero) →
              (t.i = p.actualMax → s2.overall = t.overall) →
              Inv env p s2 := by
            intro s2 b o o' st htr2 hi2 hterm2 hep2 hne2 heq2
            have hl : lastEpochAux s2.trace = ((lastEpochAux t.trace).1, true) := by
              rw [htr2]
              show lastEpochAux (t.trace ++ ([_] ++ [_])) = _
              simp only [← List.append_assoc, lastEpochAux_snoc]
            refine ⟨⟨?_, ?_, ?_, ?_, ?_, ?_⟩, ?_, ?_, ?_, ?_, ?_⟩
            · rw [htr2, visits_append, hm.visits, hi2]; simp [visits]
            · rw [hi2]; exact hm.le
            · rw [htr2, along_snoc₂]
              exact ⟨hm.law, hlawE _ _, by simp [EvLaw]⟩
            · rw [htr2, hterm2, anyStop_append, ← hm.stop]
              simp [anyStop, Ev.stops, Bool.or_assoc]
            · rw [htr2, List.countP_append, hm.noEnd]; rfl
            · rw [htr2, List.countP_append, hm.one]; rfl
            · intro hlt
              rw [hi2] at hlt ⊢
              rw [(hne2 (by omega)).1, htmod]
            · rw [hep2, hm.epoch_eq, hi2, htdiv]
            · rw [htr2, List.countP_append, hm.ends_eq, hi2, htdiv]; rfl
            · rw [hl, hi2]; simp [htpos, htmod]
            · rw [hi2]
              by_cases hmax : t.i = p.actualMax
              · rw [if_neg (by simp [hmax]), heq2 hmax, hm.obj, lastEpoch, lastEpoch, hl]
              · rw [if_pos ⟨htpos, htmod, hmax⟩, (hne2 hmax).2]
          have shuf : ∀ (s2 : St W M E) (w' : W), Inv env p s2 →
              Inv env p { s2 with w := w', trace := s2.trace ++ [.shuffle] } := by
            intro s2 w' h2
            have hl : lastEpochAux (s2.trace ++ [Ev.shuffle]) = lastEpochAux s2.trace := by
              rw [lastEpochAux_snoc]
            have hne : s2.trace ≠ [] := by
              intro h0; have := h2.one; rw [h0] at this; simp at this
            refine ⟨⟨?_, h2.le, ?_, ?_, ?_, ?_⟩, h2.cur, h2.epoch, ?_, ?_, ?_⟩
            · simp only [visits_append, h2.visits]; simp [visits]
            · simp only; rw [along_snoc]; exact ⟨h2.law, by simpa [EvLaw] using hne⟩
            · simp only [anyStop_append, ← h2.stop]; simp [anyStop, Ev.stops]
            · simp only [List.countP_append, h2.noEnd]; rfl
            · simp only [List.countP_append, h2.one]; rfl
            · simp only [List.countP_append, h2.ends]; rfl
            · simp only [hl]; exact h2.fresh
            · simp only [lastEpoch, hl]; exact h2.obj
          split
          · apply shuf
            split
            · rename_i hmax
              exact base _ _ _ _ _ (by simp only [List.append_assoc, List.cons_append, List.nil_append]; rfl) rfl rfl rfl (fun _ => ⟨rfl, rfl⟩) (fun h => absurd h hmax)
            · rename_i hmax
              exact base _ _ _ _ _ (by simp only [List.append_assoc, List.cons_append, List.nil_append]; rfl) rfl rfl rfl (fun h => absurd h hmax) (fun _ => rfl)
          · split
            · rename_i hmax
              exact base _ _ _ _ _ (by simp only [List.append_assoc, List.cons_append, List.nil_append]; rfl) rfl rfl rfl (fun _ => ⟨rfl, rfl⟩) (fun h => absurd h hmax)
            · rename_i hmax
              exact base _ _ _ _ _ (by simp only [List.append_assoc, List.cons_append, List.nil_append]; rfl) rfl rfl rfl (fun h => absurd h hmax) (fun _ => rfl)
        · split <;> split <;> simp only [hi'] <;> omega
  · -- inside an epoch
    rw [if_neg hend]
    left
    have hlt : t.cur < p.numFunctions := by
      rcases Nat.lt_or_ge t.cur p.numFunctions with hlt | hge
      · exact hlt
      · exact absurd (by rw [show t.cur = p.numFunctions by omega, Nat.mod_self]) hend
    have hmod : t.i % p.numFunctions = t.cur := by
      rw [hi', hcur, Nat.add_mod, Nat.mod_eq_of_lt (show effBatch p s < p.numFunctions by omega)]
      exact Nat.mod_eq_of_lt (by omega)
    have hdiv : t.i / p.numFunctions = s.i / p.numFunctions := by
      have e1 := Nat.div_add_mod s.i p.numFunctions
      have e2 := Nat.div_add_mod t.i p.numFunctions
      have : p.numFunctions * (t.i / p.numFunctions) = p.numFunctions * (s.i / p.numFunctions) := by
        omega
      exact Nat.eq_of_mul_eq_mul_left hn this
    have hcpos : 0 < t.cur := by omega
    refine ⟨t, rfl, ⟨hm.toTrInv, fun _ => hmod.symm, ?_, ?_, ?_, ?_⟩, by omega⟩
    · rw [hm.epoch_eq, hdiv]
    · rw [hm.ends_eq, hdiv]
    · rw [hm.fresh, hmod]; simp; omega
    · rw [hmod, if_neg (by omega)]; exact hm.obj

/-- What is known when the loop is done. -/
theorem loop_inv (hn : 0 < p.numFunctions) (hb : 0 < p.batchSize) (fuel : Nat) (s : St W M E)
    (h : Inv env p s) :
    (loop env p fuel s = .outOfFuel ∧ fuel < p.actualMax - s.i) ∨
    (∃ s', loop env p fuel s = .done .loop s' ∧ Inv env p s' ∧
      ¬ (s'.i < p.actualMax ∧ s'.terminate = false)) ∨
    (∃ e s', loop env p fuel s = .done e s' ∧ e ≠ .loop ∧ Ret env p s' ∧
      (e = .bad → env.isBad s'.overall = true) ∧ (e = .tol → env.isBad s'.overall = false)) := by
  induction fuel generalizing s with
  | zero =>
    by_cases hc : s.i < p.actualMax ∧ s.terminate = false
    · left; exact ⟨by rw [loop, if_pos hc], by omega⟩
    · right; left; exact ⟨s, by rw [loop, if_neg hc], h, hc⟩
  | succ fuel ih =>
    by_cases hc : s.i < p.actualMax ∧ s.terminate = false
    · have hl : loop env p (fuel + 1) s = match body env p s with
        | .cont s' => loop env p fuel s'
        | .ret e s' => .done e s'
        | .ub => .ub := by rw [loop, if_pos hc]; cases body env p s <;> rfl
      rcases body_inv hn hb h hc.1 hc.2 with ⟨s', hb', hinv, hlt⟩ | ⟨e, s', hb', he, hret⟩
      · rw [hb'] at hl
        simp only at hl
        rw [hl]
        rcases ih s' hinv with ⟨h1, h2⟩ | h1 | h1
        · left; exact ⟨h1, by omega⟩
        · right; left; exact h1
        · right; right; exact h1
      · rw [hb'] at hl
        simp only at hl
        right; right
        exact ⟨e, s', hl, he, hret⟩
    · right; left; exact ⟨s, by rw [loop, if_neg hc], h, hc⟩

/-! ### The exact objective loop -/

/-- The consecutive ranges `[i, i+b), [i+b, i+2b), ...` cut at `n`. -/
def chunks (n b : Nat) : Nat → Nat → List (Nat × Nat)
  | 0, _ => []
  | fuel + 1, i => if i < n then (i, min b (n - i)) :: chunks n b fuel (i + b) else []

theorem chunks_cover (n b : Nat) (hb : 0 < b) (fuel i : Nat) (hf : n ≤ i + fuel) :
    (chunks n b fuel i).flatMap (fun c => List.range' c.1 c.2) = List.range' i (n - i) := by
  induction fuel generalizing i with
  | zero => simp [chunks, show n - i = 0 by omega]
  | succ fuel ih =>
    rw [chunks]
    split
    · rw [List.flatMap_cons, ih (i + b) (by omega)]
      rcases Nat.lt_or_ge n (i + b) with h | h
      · rw [show min b (n - i) = n - i by omega, show n - (i + b) = 0 by omega]; simp
      · rw [show min b (n - i) = b by omega, List.range'_append_1]
        congr 1; omega
    · simp [show n - i = 0 by omega]

theorem exactLoop_spec (hb : 0 < p.batchSize) (fuel i : Nat) (s : St W M E)
    (hf : p.numFunctions ≤ i + fuel) :
    ∃ s' objs, exactLoop env p fuel i s = some s' ∧ s'.x = s.x ∧ s'.i = s.i ∧
      objs.length = (chunks p.numFunctions p.batchSize fuel i).length ∧
      s'.overall = objs.foldl env.add s.overall ∧
      s'.trace = s.trace ++ List.zipWith (fun c o => Ev.evaluate s.x c.1 c.2 o)
        (chunks p.numFunctions p.batchSize fuel i) objs ∧
      ((∀ w b k, (env.evaluate w s.x b k).2 = (env.evaluate s.w s.x b k).2) →
        objs = (chunks p.numFunctions p.batchSize fuel i).map
          (fun c => (env.evaluate s.w s.x c.1 c.2).2)) := by
  induction fuel generalizing i s with
  | zero =>
    refine ⟨s, [], by rw [exactLoop, if_neg (by omega)], rfl, rfl, by simp [chunks], rfl, by simp, by simp [chunks]⟩
  | succ fuel ih =>
    rw [exactLoop, chunks]
    split
    · rename_i hlt
      obtain ⟨s', objs, h1, h2, h3, h4, h5, h6, h7⟩ := ih (i + p.batchSize)
        { s with
          w := (env.cbEvaluate (env.evaluate s.w s.x i (min p.batchSize (p.numFunctions - i))).1 s.x
            (env.evaluate s.w s.x i (min p.batchSize (p.numFunctions - i))).2).1,
          overall := env.add s.overall (env.evaluate s.w s.x i (min p.batchSize (p.numFunctions - i))).2,
          trace := s.trace ++ [.evaluate s.x i (min p.batchSize (p.numFunctions - i))
            (env.evaluate s.w s.x i (min p.batchSize (p.numFunctions - i))).2] } (by omega)
      refine ⟨s', (env.evaluate s.w s.x i (min p.batchSize (p.numFunctions - i))).2 :: objs, h1, h2, h3, by simp [h4], by simp [h5], by simp [h6], ?_⟩
      intro hdet
      have := h7 (fun w b k => (hdet w b k).trans (hdet _ b k).symm)
      rw [this]
      simp only [List.map_cons, List.cons.injEq, true_and]
      apply List.map_congr_left
      intro c _
      exact hdet _ _ _
    · exact ⟨s, [], rfl, rfl, rfl, by simp, rfl, by simp, by simp⟩

end Ens.Sgd
