import Mathlib.Data.Fin.VecNotation
import Mathlib.Data.Fintype.Basic
import Mathlib.Tactic.FinCases
import Verif.Psgd.Props

/-
C276: the flag `terminate` of ParallelSGD is written by all threads without synchronisation.

`terminate |= Callback::Gradient(...)` and `terminate |= Callback::StepTaken(...)` (parallel_sgd_impl.hpp:166 and 186) read
and write a shared `bool` that is neither atomic nor protected by a critical section. Formally that is a data race; the
model is the most favourable one: reads and writes are single steps in a global order, the value is read after the
callback has answered.
-/

namespace Ens.Psgd

/-- One thread: answers of the callbacks still to come, and the value read and combined but not yet written back. -/
structure FThread where
  todo : List Bool
  reg : Option Bool

structure Flag (T : Nat) where
  flag : Bool
  threads : Fin T → FThread

variable {T : Nat}

/-- One step of one thread. -/
inductive FStep : Fin T → Flag T → Flag T → Prop
  | load (c : Flag T) (t : Fin T) (b : Bool) (rest : List Bool) (h : c.threads t = ⟨b :: rest, none⟩) :
      FStep t c { c with threads := Function.update c.threads t ⟨rest, some (c.flag || b)⟩ }
  | store (c : Flag T) (t : Fin T) (todo : List Bool) (v : Bool) (h : c.threads t = ⟨todo, some v⟩) :
      FStep t c ⟨v, Function.update c.threads t ⟨todo, none⟩⟩

/-- Executions: any interleaving. -/
inductive FRun : Flag T → Flag T → Prop
  | refl (c) : FRun c c
  | step {a b c t} : FRun a b → FStep t b c → FRun a c

/-- Executions in which a thread that has read the flag writes it back before any other thread runs. -/
inductive FSeq : Flag T → Flag T → Prop
  | refl (c) : FSeq c c
  | step {a b c d t} : FSeq a b → FStep t b c → FStep t c d → (b.threads t).reg = none → FSeq a d

/-- Start of the parallel region: `answers t` are the answers thread `t` will get. -/
def fInit (f : Bool) (answers : Fin T → List Bool) : Flag T := ⟨f, fun t => ⟨answers t, none⟩⟩

def FDone (c : Flag T) : Prop := ∀ t, c.threads t = ⟨[], none⟩

/-- An invariant of all executions. -/
theorem FRun.inv {I : Flag T → Prop} {a c : Flag T} (h : FRun a c) (h0 : I a)
    (hs : ∀ t b d, I b → FStep t b d → I d) : I c := by
  induction h with
  | refl => exact h0
  | step _ hst ih => exact hs _ _ _ ih hst

/-- **C276** (partial; missing: that a request is not lost) In every execution of every number of threads: the flag is
raised only if it was raised before or some callback asked for it; a flag that was up stays up; as long as a thread is
not done, some step is possible; if the last answer of every thread that got an answer is a stop request - and some
thread got one - the flag is up at the end. -/
theorem C276_flag_partial (f : Bool) (answers : Fin T → List Bool) {c : Flag T} (h : FRun (fInit f answers) c) :
    (c.flag = true → f = true ∨ ∃ t, true ∈ answers t) ∧ (f = true → c.flag = true) ∧
    (¬ FDone c → ∃ t c', FStep t c c') ∧
    (FDone c → (∃ t, answers t ≠ []) → (∀ t, answers t ≠ [] → (answers t).getLast? = some true) → c.flag = true) := by
  refine ⟨?_, ?_, ?_, ?_⟩
  · -- nothing is invented
    have hi := h.inv (I := fun c => (c.flag = true → f = true ∨ ∃ t, true ∈ answers t) ∧
        ∀ t, (∀ b ∈ (c.threads t).todo, b ∈ answers t) ∧
          ((c.threads t).reg = some true → f = true ∨ ∃ t, true ∈ answers t))
      ⟨fun h => .inl h, fun t => ⟨fun b hb => hb, fun h => nomatch h⟩⟩ ?_
    · exact hi.1
    · rintro t b d ⟨h1, h2⟩ (⟨_, _, a, rest, ht⟩ | ⟨_, _, todo, v, ht⟩)
      · refine ⟨h1, fun t' => ?_⟩
        by_cases he : t' = t
        · subst he
          have hh := h2 t'
          rw [ht] at hh
          simp only [Function.update_self]
          refine ⟨fun b hb => hh.1 b (List.mem_cons_of_mem _ hb), fun hv => ?_⟩
          simp only [Option.some.injEq, Bool.or_eq_true] at hv
          rcases hv with hv | hv
          · exact h1 hv
          · exact .inr ⟨t', hv ▸ hh.1 _ (List.mem_cons_self ..)⟩
        · simp only [Function.update_of_ne he]
          exact h2 t'
      · have hh := h2 t
        rw [ht] at hh
        refine ⟨fun hv => hh.2 (congrArg some hv), fun t' => ?_⟩
        by_cases he : t' = t
        · subst he
          simp only [Function.update_self]
          exact ⟨hh.1, fun h => nomatch h⟩
        · simp only [Function.update_of_ne he]
          exact h2 t'
  · -- an initial flag stays
    intro hf
    have hi := h.inv (I := fun c => c.flag = true ∧ ∀ t v, (c.threads t).reg = some v → v = true)
      ⟨hf, fun t v h => nomatch h⟩ ?_
    · exact hi.1
    · rintro t b d ⟨h1, h2⟩ (⟨_, _, a, rest, ht⟩ | ⟨_, _, todo, v, ht⟩)
      · refine ⟨h1, fun t' w hw => ?_⟩
        by_cases he : t' = t
        · subst he
          simp only [Function.update_self, Option.some.injEq] at hw
          rw [← hw, h1]; rfl
        · simp only [Function.update_of_ne he] at hw
          exact h2 t' w hw
      · refine ⟨h2 t v (by rw [ht]), fun t' w hw => ?_⟩
        by_cases he : t' = t
        · subst he
          simp only [Function.update_self] at hw
          cases hw
        · simp only [Function.update_of_ne he] at hw
          exact h2 t' w hw
  · intro hd
    unfold FDone at hd
    rw [not_forall] at hd
    obtain ⟨t, ht⟩ := hd
    rcases hth : c.threads t with ⟨todo, reg⟩
    cases reg with
    | some v => exact ⟨t, _, .store c t todo v hth⟩
    | none =>
      cases todo with
      | nil => exact absurd hth ht
      | cons b rest => exact ⟨t, _, .load c t b rest hth⟩
  · intro hd hne hlast
    have hi : ∀ {c : Flag T}, FRun (fInit f answers) c → ∀ t, (∃ pre, answers t = pre ++ (c.threads t).todo) ∧
        ((c.threads t).reg = some false → (c.threads t).todo = [] → answers t ≠ [] → False) ∧
        ((c.threads t).reg ≠ none → answers t ≠ []) := by
      intro c h
      refine h.inv (I := fun c => ∀ t, (∃ pre, answers t = pre ++ (c.threads t).todo) ∧
        ((c.threads t).reg = some false → (c.threads t).todo = [] → answers t ≠ [] → False) ∧
        ((c.threads t).reg ≠ none → answers t ≠ [])) ?_ ?_
      · intro t
        exact ⟨⟨[], rfl⟩, (fun h => nomatch h), fun h => absurd rfl h⟩
      · rintro t b d h2 (⟨_, _, a, rest, ht⟩ | ⟨_, _, todo, v, ht⟩) t'
        · by_cases he : t' = t
          · subst he
            obtain ⟨⟨pre, hp⟩, _, _⟩ := h2 t'
            rw [ht] at hp
            simp only [Function.update_self]
            refine ⟨⟨pre ++ [a], by rw [hp]; simp⟩, ?_, fun _ => by rw [hp]; simp⟩
            intro hv hr hn
            have hl := hlast t' hn
            rw [hp, hr] at hl
            simp only [List.getLast?_append, List.getLast?_singleton, Option.some_or, Option.some.injEq] at hl
            rw [hl] at hv
            simp at hv
          · simp only [Function.update_of_ne he]
            exact h2 t'
        · by_cases he : t' = t
          · subst he
            have hh := h2 t'
            rw [ht] at hh
            simp only [Function.update_self]
            exact ⟨hh.1, (fun h => nomatch h), fun h => absurd rfl h⟩
          · simp only [Function.update_of_ne he]
            exact h2 t'
    cases h with
    | refl =>
      obtain ⟨t, ht⟩ := hne
      have := hd t
      simp only [fInit, FThread.mk.injEq, and_true] at this
      exact absurd this ht
    | @step b _ t hr hst =>
      cases hst with
      | load _ _ b rest ht =>
        have := hd t
        simp at this
      | store _ _ todo v ht =>
        have h1 := hd t
        simp only [Function.update_self, FThread.mk.injEq, and_true] at h1
        have h2 := hi hr t
        rw [ht, h1] at h2
        cases v with
        | true => rfl
        | false => exact (h2.2.1 rfl rfl (h2.2.2 (by simp))).elim

/-- **C276** (partial; missing: other schedules) If no thread is interrupted between reading and writing the flag - in
particular with a single thread - the flag is up at the end exactly if it was up before or some callback asked to
stop. -/
theorem C276_uninterrupted_partial (f : Bool) (answers : Fin T → List Bool) {c : Flag T}
    (h : FSeq (fInit f answers) c) (hd : FDone c) : c.flag = true ↔ f = true ∨ ∃ t, true ∈ answers t := by
  have hi : (∀ t, (c.threads t).reg = none) ∧
      ((c.flag = true ∨ ∃ t, true ∈ (c.threads t).todo) ↔ f = true ∨ ∃ t, true ∈ answers t) := by
    clear hd
    induction h with
    | refl => exact ⟨fun _ => rfl, Iff.rfl⟩
    | @step b c d t hb h1 h2 hr ih =>
      cases h1 with
      | store _ _ todo v ht => rw [ht] at hr; cases hr
      | load _ _ a rest ht =>
        cases h2 with
        | load _ _ a' rest' ht' => simp at ht'
        | store _ _ todo v ht' =>
          simp only [Function.update_self, FThread.mk.injEq, Option.some.injEq] at ht'
          obtain ⟨rfl, rfl⟩ := ht'
          constructor
          · intro t'
            by_cases he : t' = t
            · subst he; simp
            · simp only [Function.update_of_ne he]
              exact ih.1 t'
          · rw [← ih.2]
            simp only [Bool.or_eq_true]
            constructor
            · rintro ((hf | ha) | ⟨t', ht2⟩)
              · exact .inl hf
              · exact .inr ⟨t, by rw [ht, ha]; simp⟩
              · by_cases he : t' = t
                · subst he
                  simp only [Function.update_self] at ht2
                  exact .inr ⟨t', by rw [ht]; exact List.mem_cons_of_mem _ ht2⟩
                · simp only [Function.update_of_ne he] at ht2
                  exact .inr ⟨t', ht2⟩
            · rintro (hf | ⟨t', ht2⟩)
              · exact .inl (.inl hf)
              · by_cases he : t' = t
                · subst he
                  rw [ht, List.mem_cons] at ht2
                  rcases ht2 with ht2 | ht2
                  · exact .inl (.inr ht2.symm)
                  · exact .inr ⟨t', by simpa using ht2⟩
                · exact .inr ⟨t', by simpa [Function.update_of_ne he] using ht2⟩
  rw [← hi.2]
  constructor
  · exact .inl
  · rintro (h | ⟨t, ht⟩)
    · exact h
    · rw [hd t] at ht; cases ht

/-- With one thread every execution that ends is uninterrupted. -/
theorem FRun.seq_of_one {f : Bool} {answers : Fin 1 → List Bool} {c : Flag 1} (h : FRun (fInit f answers) c) :
    (∃ b, FSeq (fInit f answers) b ∧ (b.threads 0).reg = none ∧ FStep 0 b c ∧ (c.threads 0).reg ≠ none) ∨
    (FSeq (fInit f answers) c ∧ (c.threads 0).reg = none) := by
  induction h with
  | refl => exact .inr ⟨.refl _, rfl⟩
  | @step b c t hr hst ih =>
    obtain rfl : t = 0 := Subsingleton.elim _ _
    rcases ih with ⟨a, h1, h2, h3, h4⟩ | ⟨h1, h2⟩
    · cases hst with
      | load _ _ x rest ht => rw [ht] at h4; exact absurd rfl h4
      | store _ _ todo v ht =>
        exact .inr ⟨.step h1 h3 (.store _ _ todo v ht) h2, by simp⟩
    · cases hst with
      | load _ _ x rest ht => exact .inl ⟨b, h1, h2, .load _ _ x rest ht, by simp⟩
      | store _ _ todo v ht => rw [ht] at h2; cases h2

/-- **C276** (partial; missing: more than one thread) With one thread no request is lost. -/
theorem C276_one_thread_partial (f : Bool) (answers : Fin 1 → List Bool) {c : Flag 1} (h : FRun (fInit f answers) c)
    (hd : FDone c) : c.flag = true ↔ f = true ∨ true ∈ answers 0 := by
  rcases h.seq_of_one with ⟨b, _, _, _, h4⟩ | ⟨h1, _⟩
  · rw [hd 0] at h4; exact absurd rfl h4
  · rw [C276_uninterrupted_partial f answers h1 hd]
    simp [Fin.exists_fin_one]

/-- Two threads, one of them asks to stop: the other one read the flag before and overwrites the request. -/
theorem lost : ∃ c : Flag 2, FRun (fInit false ![[true], [false]]) c ∧ FDone c ∧ c.flag = false := by
  let a0 : Flag 2 := fInit false ![[true], [false]]
  let a1 : Flag 2 := ⟨false, Function.update a0.threads 1 ⟨[], some false⟩⟩
  let a2 : Flag 2 := ⟨false, Function.update a1.threads 0 ⟨[], some true⟩⟩
  let a3 : Flag 2 := ⟨true, Function.update a2.threads 0 ⟨[], none⟩⟩
  let a4 : Flag 2 := ⟨false, Function.update a3.threads 1 ⟨[], none⟩⟩
  refine ⟨a4, ?_, ?_, rfl⟩
  · have s1 : FStep 1 a0 a1 := .load a0 1 false [] rfl
    have s2 : FStep 0 a1 a2 := .load a1 0 true [] (by simp [a1, a0, fInit])
    have s3 : FStep 0 a2 a3 := .store a2 0 [] true (by simp [a2])
    have s4 : FStep 1 a3 a4 := .store a3 1 [] false (by simp [a3, a2, a1])
    exact .step (.step (.step (.step (.refl _) s1) s2) s3) s4
  · intro t
    fin_cases t
    · simp [a4, a3]
    · simp [a4]

/-- **C276** (refuted) "If a callback asks to stop, the flag is up at the end of the round." -/
theorem C276_flag_refuted :
    ¬ ∀ (T : Nat) (answers : Fin T → List Bool) (c : Flag T), FRun (fInit false answers) c → FDone c →
      (∃ t, true ∈ answers t) → c.flag = true := by
  intro h
  obtain ⟨c, h1, h2, h3⟩ := lost
  have := h 2 _ c h1 h2 ⟨0, by simp⟩
  rw [h3] at this
  cases this

/-- The rounds of `env` end with a flag that some execution of `T` threads with the given answers leads to. -/
def FlagOf {W X E D : Type} (env : Env W X E D) (T : Nat) (answers : W → X → E → Fin T → List Bool) : Prop :=
  ∀ w x s, ∃ c : Flag T, FRun (fInit false (answers w x s)) c ∧ FDone c ∧ (env.round w x s).2.2 = c.flag

/-- **C276** (refuted) "If callbacks ask to stop in every round, `Optimize` makes at most one round": it may go on until
`maxIterations`. -/
theorem C276_optimize_refuted :
    ¬ ∀ (env : Env Unit Int Int Unit) (T : Nat) (answers : Unit → Int → Int → Fin T → List Bool),
      FlagOf env T answers → (∀ w x s, ∃ t, true ∈ answers w x s t) →
      ∀ (fuel : Nat) (x : Int) (e : Exit) (s : St Unit Int Int Unit),
        optimize env () fuel () x = some (e, s) → s.rounds ≤ 1 := by
  intro h
  let env : Env Unit Int Int Unit :=
    { eval := fun w x => (w, x * x), cbEval := fun w _ _ => (w, false), cbBegin := fun w x => (w, x),
      cbEnd := fun w x => (w, x), stepSize := fun d _ => (d, 1), round := fun w x _ => (w, x - 1, false),
      isBad := fun _ => false, near := fun _ _ => false, maxVal := 1000, maxIterations := 5 }
  have := h env 2 (fun _ _ _ => ![[true], [false]]) (by
    intro w x s
    obtain ⟨c, h1, h2, h3⟩ := lost
    exact ⟨c, h1, h2, h3.symm⟩) (fun _ _ _ => ⟨0, by simp⟩) 10 9 .loop ⟨(), 5, (), 5, 36, false, 4⟩ (by rfl)
  simp at this

/-- Non-vacuity of `C276_flag_partial` and `C276_uninterrupted_partial`: two threads one after the other. -/
example : ∃ c : Flag 2, FSeq (fInit false ![[true], [false]]) c ∧ FDone c ∧ c.flag = true := by
  let a0 : Flag 2 := fInit false ![[true], [false]]
  let a1 : Flag 2 := ⟨false, Function.update a0.threads 0 ⟨[], some true⟩⟩
  let a2 : Flag 2 := ⟨true, Function.update a1.threads 0 ⟨[], none⟩⟩
  let a3 : Flag 2 := ⟨true, Function.update a2.threads 1 ⟨[], some true⟩⟩
  let a4 : Flag 2 := ⟨true, Function.update a3.threads 1 ⟨[], none⟩⟩
  refine ⟨a4, ?_, ?_, rfl⟩
  · have s1 : FStep 0 a0 a1 := .load a0 0 true [] rfl
    have s2 : FStep 0 a1 a2 := .store a1 0 [] true (by simp [a1])
    have s3 : FStep 1 a2 a3 := .load a2 1 false [] (by simp [a2, a1, a0, fInit])
    have s4 : FStep 1 a3 a4 := .store a3 1 [] true (by simp [a3])
    exact .step (.step (.refl _) s1 s2 rfl) s3 s4 (by simp [a2, a1, a0, fInit])
  · intro t
    fin_cases t
    · simp [a4, a3, a2]
    · simp [a4]

end Ens.Psgd
