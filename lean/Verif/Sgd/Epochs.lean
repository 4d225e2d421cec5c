import Mathlib.Data.List.Basic
import Verif.Trace
import Verif.Sgd.Model

/-
C150: the tests `SGD::Optimize` makes at the end of every epoch, for arbitrary functions, policies and
callbacks.
-/

namespace Ens.Sgd

variable {W M G E : Type}

/-- Reading a trace: sums of the batch objectives of the completed epochs, and the sum of the current
one so far. -/
def epochStep (env : Env W M G E) (a : List E × E) : Ev M E → List E × E
  | .evalGrad _ _ _ o => (a.1, env.add a.2 o)
  | .endEpoch _ _ _ => (a.1 ++ [a.2], env.zero)
  | _ => a

def epochFold (env : Env W M G E) (t : List (Ev M E)) : List E × E :=
  t.foldl (epochStep env) ([], env.zero)

/-- Sums of the batch objectives of the completed epochs. -/
def epochSums (env : Env W M G E) (t : List (Ev M E)) : List E := (epochFold env t).1

/-- Every entry is finite and not within the tolerance of its predecessor (of `DBL_MAX` for the first
one). -/
def Passed (env : Env W M G E) (l : List E) : Prop :=
  ∀ a b c, l = a ++ b :: c → env.isBad b = false ∧ env.isClose (a.getLastD env.dblMax) b = false

/-- `EndEpoch` is told the sum of the epoch divided by the number of functions. -/
def AvgLaw (env : Env W M G E) (n : Nat) (pre : List (Ev M E)) (e : Ev M E) : Prop :=
  match e with
  | .endEpoch _ a _ => a = env.divN (epochFold env pre).2 n
  | _ => True

theorem Passed.snoc {env : Env W M G E} {l : List E} {e : E} (h : Passed env l)
    (hb : env.isBad e = false) (hc : env.isClose (l.getLastD env.dblMax) e = false) :
    Passed env (l ++ [e]) := by
  intro a b c hl
  rcases List.eq_nil_or_concat c with rfl | ⟨c', z, rfl⟩
  · obtain ⟨rfl, h2⟩ := List.append_inj' hl rfl
    cases h2
    exact ⟨hb, hc⟩
  · have : l ++ [e] = (a ++ b :: c') ++ [z] := by simpa using hl
    obtain ⟨h1, -⟩ := List.append_inj' this rfl
    exact h a b c' h1

@[simp] theorem epochFold_append (env : Env W M G E) (a b : List (Ev M E)) :
    epochFold env (a ++ b) = b.foldl (epochStep env) (epochFold env a) := by
  simp [epochFold, List.foldl_append]

/-- Loop-head invariant. -/
structure EInv (env : Env W M G E) (p : Params) (s : St W M E) : Prop where
  passed : Passed env (epochSums env s.trace)
  vals : s.i ≠ p.actualMax →
    s.overall = (epochFold env s.trace).2 ∧ s.last = (epochSums env s.trace).getLastD env.dblMax
  avg : Along (AvgLaw env p.numFunctions) s.trace

/-- Early return. -/
structure ERet (env : Env W M G E) (p : Params) (e : Exit) (s : St W M E) : Prop where
  sums : ∃ a, epochSums env s.trace = a ++ [s.overall] ∧ Passed env a ∧
    (e = .bad → env.isBad s.overall = true) ∧
    (e = .tol → env.isBad s.overall = false ∧ env.isClose (a.getLastD env.dblMax) s.overall = true)
  avg : Along (AvgLaw env p.numFunctions) s.trace
  ne : e ≠ .loop

theorem body_einv (env : Env W M G E) (p : Params) {s : St W M E} (h : EInv env p s)
    (hi : s.i < p.actualMax) :
    (∀ s', body env p s = .cont s' → EInv env p s') ∧
    (∀ e s', body env p s = .ret e s' → ERet env p e s') := by
  have hv := h.vals (Nat.ne_of_lt hi)
  by_cases hn : p.numFunctions = 0
  · constructor <;> intros <;> simp_all [body]
  -- after the batch
  obtain ⟨q, hq⟩ : ∃ q, q = stepBatch env p s := ⟨_, rfl⟩
  have qs : epochSums env q.trace = epochSums env s.trace := by
    subst hq
    simp [stepBatch, epochSums, epochStep]
  have qo : q.overall = (epochFold env q.trace).2 := by
    subst hq
    simp [stepBatch, epochStep, hv.1]
  have ql : q.last = (epochSums env q.trace).getLastD env.dblMax := by
    rw [qs, ← hv.2, hq]; rfl
  have qp : Passed env (epochSums env q.trace) := by rw [qs]; exact h.passed
  have qa : Along (AvgLaw env p.numFunctions) q.trace := by
    subst hq
    show Along _ (s.trace ++ _)
    rw [along_snoc₄]
    exact ⟨h.avg, trivial, trivial, trivial, trivial⟩
  have hb : body env p s = if q.cur % p.numFunctions = 0 then epochEnd env p q else .cont q := by
    rw [body, if_neg hn, hq]
  rw [hb]
  clear hb hq qs
  by_cases hend : q.cur % p.numFunctions = 0
  · rw [if_pos hend, epochEnd]
    simp only
    have e1 : ∀ (n : Nat) (st : Bool), epochFold env (q.trace ++ [.endEpoch n (env.divN q.overall p.numFunctions) st]) =
        (epochSums env q.trace ++ [q.overall], env.zero) := by
      intro n st
      simp [epochStep, epochSums, qo]
    have a1 : ∀ (n : Nat) (st : Bool), Along (AvgLaw env p.numFunctions)
        (q.trace ++ [.endEpoch n (env.divN q.overall p.numFunctions) st]) := by
      intro n st
      rw [along_snoc]
      exact ⟨qa, by show _ = _; rw [← qo]⟩
    by_cases hbad : env.isBad q.overall = true
    · rw [if_pos hbad]
      refine ⟨(fun s' hs => by cases hs), ?_⟩
      intro e s' hs
      cases hs
      exact ⟨⟨_, congrArg Prod.fst (e1 _ _), qp, fun _ => hbad, (fun h => by cases h)⟩, a1 _ _, by simp⟩
    · rw [if_neg hbad]
      by_cases hcl : env.isClose q.last q.overall = true
      · rw [if_pos hcl]
        refine ⟨(fun s' hs => by cases hs), ?_⟩
        intro e s' hs
        cases hs
        refine ⟨⟨_, congrArg Prod.fst (e1 _ _), qp, (fun h => by cases h), fun _ => ⟨by simpa using hbad, ?_⟩⟩, a1 _ _, by simp⟩
        rw [← ql]; exact hcl
      · rw [if_neg hcl]
        refine ⟨?_, (fun e s' hs => by cases hs)⟩
        intro s' hs
        have hp : Passed env (epochSums env q.trace ++ [q.overall]) :=
          qp.snoc (by simpa using hbad) (by rw [← ql]; simpa using hcl)
        -- the continuing state, with or without shuffling
        have key : ∀ s'' : St W M E, ∀ (n : Nat) (st b : Bool) (m : Nat) (o : E),
            s''.trace = q.trace ++ [.endEpoch n (env.divN q.overall p.numFunctions) st] ++ [.beginEpoch m o b] →
            (s''.i ≠ p.actualMax → s''.overall = env.zero ∧ s''.last = q.overall) → EInv env p s'' := by
          intro s'' n st b m o ht hv'
          have hf : epochFold env s''.trace = (epochSums env q.trace ++ [q.overall], env.zero) := by
            rw [ht, epochFold_append, e1]; rfl
          refine ⟨by rw [epochSums, hf]; exact hp, ?_, ?_⟩
          · intro hne
            rw [epochSums, hf]
            exact ⟨(hv' hne).1, by simp [(hv' hne).2]⟩
          · rw [ht, along_snoc]
            exact ⟨a1 _ _, trivial⟩
        have key2 : ∀ (s'' : St W M E) (w' : W), EInv env p s'' →
            EInv env p { s'' with w := w', trace := s''.trace ++ [.shuffle] } := by
          intro s'' w' h''
          have hf : epochFold env (s''.trace ++ [.shuffle]) = epochFold env s''.trace := by
            rw [epochFold_append]; rfl
          refine ⟨by simp only [epochSums, hf]; exact h''.passed, ?_, ?_⟩
          · simp only [epochSums, hf]; exact h''.vals
          · simp only; rw [along_snoc]; exact ⟨h''.avg, trivial⟩
        cases hs
        split
        · apply key2
          split
          · exact key _ _ _ _ _ _ rfl (fun _ => ⟨rfl, rfl⟩)
          · rename_i hne
            exact key _ _ _ _ _ _ rfl (fun h' => absurd h' hne)
        · split
          · exact key _ _ _ _ _ _ rfl (fun _ => ⟨rfl, rfl⟩)
          · rename_i hne
            exact key _ _ _ _ _ _ rfl (fun h' => absurd h' hne)
  · rw [if_neg hend]
    refine ⟨fun s' hs => ?_, (fun e s' hs => by cases hs)⟩
    cases hs
    exact ⟨qp, fun _ => ⟨qo, ql⟩, qa⟩

theorem loop_einv (env : Env W M G E) (p : Params) (fuel : Nat) {s s' : St W M E} {e : Exit}
    (h : EInv env p s) (hl : loop env p fuel s = .done e s') :
    (e = .loop ∧ EInv env p s') ∨ ERet env p e s' := by
  induction fuel generalizing s with
  | zero =>
    rw [loop] at hl
    split at hl
    · cases hl
    · cases hl; exact .inl ⟨rfl, h⟩
  | succ fuel ih =>
    rw [loop] at hl
    split at hl
    · rename_i hc
      obtain ⟨h1, h2⟩ := body_einv env p h hc.1
      cases hb : body env p s with
      | cont t => rw [hb] at hl; exact ih (h1 _ hb) hl
      | ret e' t => rw [hb] at hl; cases hl; exact .inr (h2 _ _ hb)
      | ub => rw [hb] at hl; cases hl
    · cases hl; exact .inl ⟨rfl, h⟩

theorem exactLoop_einv (env : Env W M G E) (p : Params) (fuel i : Nat) {s s' : St W M E}
    (h : exactLoop env p fuel i s = some s') :
    epochSums env s'.trace = epochSums env s.trace ∧
      (Along (AvgLaw env p.numFunctions) s.trace → Along (AvgLaw env p.numFunctions) s'.trace) := by
  induction fuel generalizing i s with
  | zero =>
    rw [exactLoop] at h
    split at h
    · cases h
    · cases h; exact ⟨rfl, id⟩
  | succ fuel ih =>
    rw [exactLoop] at h
    split at h
    · obtain ⟨h1, h2⟩ := ih _ h
      refine ⟨h1.trans ?_, fun ha => h2 ?_⟩
      · simp [epochSums, epochStep]
      · simp only; rw [along_snoc]; exact ⟨ha, trivial⟩
    · cases h; exact ⟨rfl, id⟩

/-- **C150** The tests at the end of an epoch, for every function, policy and callback behaviour.  The
run goes on after an epoch only if the sum of that epoch's batch objectives is neither NaN/Inf nor
within the tolerance of the preceding epoch's sum (of `DBL_MAX` for the first epoch); a tolerance
return means that the last two sums are within the tolerance, a NaN/Inf return that the last sum is
NaN/Inf; the returned value is then that last sum; and every `EndEpoch` notification is told its
epoch's sum divided by the number of functions. -/
theorem C150_sgd_epoch_tests {env : Env W M G E} {p : Params} {fuel : Nat} {w : W} {x : M}
    {r : Result W M E} (h : optimize env p fuel w x = .returned r) :
    (r.exit = .loop → Passed env (epochSums env r.trace)) ∧
    (r.exit = .tol → ∃ a, epochSums env r.trace = a ++ [r.obj] ∧ Passed env a ∧
      env.isBad r.obj = false ∧ env.isClose (a.getLastD env.dblMax) r.obj = true) ∧
    (r.exit = .bad → ∃ a, epochSums env r.trace = a ++ [r.obj] ∧ Passed env a ∧
      env.isBad r.obj = true) ∧
    (∀ pre post ep avg st, r.trace = pre ++ .endEpoch ep avg st :: post →
      avg = env.divN (epochFold env pre).2 p.numFunctions) := by
  have h0 : EInv env p (start env w x) := by
    refine ⟨?_, ?_, ?_⟩
    · intro a b c hl
      have : epochSums env (start env w x).trace = [] := rfl
      rw [this] at hl
      exact absurd hl (by simp)
    · intro _; exact ⟨rfl, rfl⟩
    · show Along _ ([] ++ [_, _])
      rw [along_snoc₂]
      exact ⟨along_nil _, trivial, trivial⟩
  have hend : ∀ (t : List (Ev M E)) (y : M), epochSums env (t ++ [.endOpt y]) = epochSums env t := by
    intro t y; simp [epochSums, epochStep]
  have havg : ∀ (t : List (Ev M E)) (y : M), Along (AvgLaw env p.numFunctions) t →
      ∀ pre post ep avg st, t ++ [.endOpt y] = pre ++ .endEpoch ep avg st :: post →
        avg = env.divN (epochFold env pre).2 p.numFunctions := by
    intro t y ha pre post ep avg st he
    have : Along (AvgLaw env p.numFunctions) (t ++ [.endOpt y]) := by
      rw [along_snoc]; exact ⟨ha, trivial⟩
    exact this pre _ post he
  rw [optimize] at h
  cases hl : loop env p fuel (start env w x) with
  | ub => rw [hl] at h; cases h
  | outOfFuel => rw [hl] at h; cases h
  | done e s =>
    rw [hl] at h
    rcases loop_einv env p fuel h0 hl with ⟨rfl, hs⟩ | hs
    · have fin : ∀ s' : St W M E, epochSums env s'.trace = epochSums env s.trace →
          Along (AvgLaw env p.numFunctions) s'.trace → r = finish env .loop s' →
          (r.exit = .loop ∧ Passed env (epochSums env r.trace)) ∧
          (∀ pre post ep avg st, r.trace = pre ++ .endEpoch ep avg st :: post →
            avg = env.divN (epochFold env pre).2 p.numFunctions) := by
        intro s' h1 h2 hr
        subst hr
        refine ⟨⟨rfl, ?_⟩, havg _ _ h2⟩
        rw [finish]; simp only; rw [hend, h1]; exact hs.passed
      suffices hh : (r.exit = .loop ∧ Passed env (epochSums env r.trace)) ∧
          (∀ pre post ep avg st, r.trace = pre ++ .endEpoch ep avg st :: post →
            avg = env.divN (epochFold env pre).2 p.numFunctions) by
        obtain ⟨⟨he, hp⟩, ha⟩ := hh
        exact ⟨fun _ => hp, (fun h => by rw [he] at h; cases h), (fun h => by rw [he] at h; cases h), ha⟩
      simp only at h
      split at h
      · cases hx : exactLoop env p p.numFunctions 0 { s with overall := env.zero } with
        | none => rw [hx] at h; cases h
        | some s' =>
          rw [hx] at h
          cases h
          obtain ⟨h1, h2⟩ := exactLoop_einv env p _ _ hx
          exact fin s' h1 (h2 hs.avg) rfl
      · cases h
        exact fin s rfl hs.avg rfl
    · obtain ⟨a, ha, hp, hbad, htol⟩ := hs.sums
      cases e with
      | loop => exact absurd rfl hs.ne
      | bad =>
        cases h
        refine ⟨(by intro h; cases h), (by intro h; cases h), fun _ => ⟨a, ?_, hp, hbad rfl⟩, havg _ _ hs.avg⟩
        exact (hend _ _).trans ha
      | tol =>
        cases h
        refine ⟨(by intro h; cases h), fun _ => ⟨a, ?_, hp, htol rfl⟩, (by intro h; cases h), havg _ _ hs.avg⟩
        exact (hend _ _).trans ha

/-- A run whose objective halves until two epochs differ by less than 3. -/
def demoConv : Env Unit Int Int Int where
  evalGrad := fun _ x _ k => ((), x * k, x)
  evaluate := fun _ x _ k => ((), x * k)
  shuffle := id
  update := fun _ x g => ((), x - g / 2)
  decay := fun _ x _ => ((), x)
  cbBegin := fun _ x => ((), x)
  cbBeginEpoch := fun _ _ _ _ => ((), false)
  cbEvalGrad := fun _ _ _ g => ((), g, false)
  cbStep := fun _ x => ((), x, false)
  cbEndEpoch := fun _ _ _ _ => ((), false)
  cbEvaluate := fun _ _ _ => ((), false)
  cbEnd := fun _ x => ((), x)
  add := (· + ·)
  zero := 0
  divN := fun e n => e / n
  dblMax := 100000
  isBad := fun _ => false
  isClose := fun a b => decide ((a - b).natAbs < 3)

/-- Non-vacuity of C150: several epochs pass, then a tolerance return. -/
example : ∃ r, optimize demoConv ⟨2, 1, 100, true, false⟩ 100 () 50 = .returned r ∧ r.exit = .tol ∧
    2 ≤ (epochSums demoConv r.trace).length :=
  ⟨_, rfl, by decide, by decide⟩

end Ens.Sgd
