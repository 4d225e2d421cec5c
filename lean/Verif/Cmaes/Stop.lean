import Verif.Stop
import Verif.Cmaes.Props

/-
C157: stop requests in CMA-ES.
-/

namespace Ens.Cmaes

variable {W M E C : Type}

def isStop : Ev M E → Bool
  | .eval _ _ b => b
  | .step _ b => b
  | _ => false

def Ev.isGen : Ev M E → Bool
  | .gen _ _ => true
  | _ => false

/-- Number of generations completed. -/
def genCount (t : List (Ev M E)) : Nat := t.countP Ev.isGen

theorem genCount_append (a b : List (Ev M E)) : genCount (a ++ b) = genCount a + genCount b := by simp [genCount]

/-- A selection policy that reports the stop requests of the callbacks it notified. -/
def Honest (sel : Select W M E) : Prop :=
  ∀ w x, (sel w x).2.2.1 = (sel w x).2.2.2.any isStop ∧ ∀ e ∈ (sel w x).2.2.2, ∃ y v b, e = .eval y v b

theorem fullLoop_honest (env : Env W M E C) (x : M) : ∀ (bs : List (Nat × Nat)) (w : W) (a : E),
    (fullLoop env x bs w a).2.2.1 = (fullLoop env x bs w a).2.2.2.any isStop ∧
    ∀ e ∈ (fullLoop env x bs w a).2.2.2, ∃ y v b, e = .eval y v b := by
  intro bs
  induction bs with
  | nil => intro w a; exact ⟨rfl, by simp [fullLoop]⟩
  | cons b bs ih =>
    intro w a
    simp only [fullLoop]
    refine ⟨?_, ?_⟩
    · rw [(ih _ _).1]; simp [isStop]
    · intro e he
      rcases List.mem_cons.1 he with rfl | he
      · exact ⟨_, _, _, rfl⟩
      · exact (ih _ _).2 e he

/-- **C157** `FullSelection` passes on the stop requests of its callbacks. -/
theorem C157_full_selection_honest (env : Env W M E C) (n b : Nat) : Honest (fullSelection env n b) :=
  fun w x => fullLoop_honest env x _ w _

/-- **C157** So does `RandomSelection`. -/
theorem C157_random_selection_honest (env : Env W M E C) (pick : W → W × Nat) (n b m : Nat) :
    Honest (randomSelection env pick n b m) := by
  intro w x
  unfold randomSelection
  have key : ∀ (bs : List (Nat × Nat)) (acc : W × E × Bool × List (Ev M E)),
      (acc.2.2.1 = acc.2.2.2.any isStop ∧ ∀ e ∈ acc.2.2.2, ∃ y v b, e = Ev.eval y v b) →
      let r := bs.foldl (fun (acc : W × E × Bool × List (Ev M E)) _ =>
        let p := pick acc.1
        let o := env.evaluate p.1 x p.2 (min b (n - p.2))
        let s := env.add acc.2.1 o.2
        let c := env.cbEvaluate o.1 x s
        (c.1, s, acc.2.2.1 || c.2, acc.2.2.2 ++ [.eval x s c.2])) acc
      r.2.2.1 = r.2.2.2.any isStop ∧ ∀ e ∈ r.2.2.2, ∃ y v b, e = Ev.eval y v b := by
    intro bs
    induction bs with
    | nil => intro acc h; exact h
    | cons a bs ih =>
      intro acc h
      refine ih _ ⟨?_, ?_⟩
      · simp only [h.1, List.any_append]; simp [isStop]
      · intro e he
        rcases List.mem_append.1 he with he | he
        · exact h.2 e he
        · exact ⟨_, _, _, List.mem_singleton.1 he⟩
  exact key _ _ ⟨rfl, by simp⟩

theorem offspring_honest (env : Env W M E C) {sel : Select W M E} (hs : Honest sel) (c : C) : ∀ (k j : Nat) (w : W),
    (offspring env sel c k j w).2.2.1 = (offspring env sel c k j w).2.2.2.any isStop ∧
    ∀ e ∈ (offspring env sel c k j w).2.2.2, ∃ y v b, e = .eval y v b := by
  intro k
  induction k with
  | zero => intro j w; exact ⟨rfl, by simp [offspring]⟩
  | succ k ih =>
    intro j w
    simp only [offspring]
    refine ⟨?_, ?_⟩
    · rw [(ih _ _).1, (hs _ _).1, List.any_append]
    · intro e he
      rcases List.mem_append.1 he with he | he
      · exact (hs _ _).2 e he
      · exact (ih _ _).2 e he

theorem initialLoop_honest (env : Env W M E C) (x : M) : ∀ (bs : List (Nat × Nat)) (w : W) (a : E),
    (initialLoop env x bs w a).2.2.1 = (initialLoop env x bs w a).2.2.2.any isStop ∧
    ∀ e ∈ (initialLoop env x bs w a).2.2.2, ∃ y v b, e = .eval y v b := by
  intro bs
  induction bs with
  | nil => intro w a; exact ⟨rfl, by simp [initialLoop]⟩
  | cons b bs ih =>
    intro w a
    simp only [initialLoop]
    refine ⟨?_, ?_⟩
    · rw [(ih _ _).1]; simp [isStop]
    · intro e he
      rcases List.mem_cons.1 he with rfl | he
      · exact ⟨_, _, _, rfl⟩
      · exact (ih _ _).2 e he

theorem genCount_evals {t : List (Ev M E)} (h : ∀ e ∈ t, ∃ y v b, e = .eval y v b) : genCount t = 0 := by
  rw [genCount, List.countP_eq_zero]
  intro e he
  obtain ⟨y, v, b, rfl⟩ := h e he
  simp [Ev.isGen]

theorem genCount_behind_le (t : List (Ev M E)) : genCount (behind isStop t) ≤ genCount t := by
  induction t with
  | nil => exact Nat.le_refl _
  | cons a t ih =>
    have : genCount t ≤ genCount (a :: t) := by
      rw [show a :: t = [a] ++ t from rfl, genCount_append]; omega
    rw [behind]
    split_ifs
    · exact this
    · exact Nat.le_trans ih this

/-- Stop flag and trace agree, and since the first request at most `k` generations were completed. -/
def StopInv (k : Nat) (s : St W M E C) : Prop :=
  s.terminate = s.trace.any isStop ∧ genCount (behind isStop s.trace) ≤ k

theorem genLoop_stop {env : Env W M E C} [LT E] [DecidableLT E] {sel : Select W M E} (hsel : Honest sel)
    {lambda patience : Nat} : ∀ (rem : Nat) (s : St W M E C) (r : Exit × St W M E C), StopInv 1 s →
    genLoop env sel lambda patience rem s = some r →
    StopInv 1 r.2 ∧ (s.terminate = true → r.2 = s) ∧ genCount r.2.trace ≤ genCount s.trace + rem := by
  intro rem
  induction rem with
  | zero => intro s r h hr; cases hr; exact ⟨h, fun _ => rfl, Nat.le_refl _⟩
  | succ rem ih =>
    intro s r h hr
    rw [genLoop] at hr
    by_cases ht : s.terminate = true
    · rw [if_pos ht] at hr
      cases hr; exact ⟨h, fun _ => rfl, Nat.le_add_right _ _⟩
    · rw [if_neg ht] at hr
      have ho := offspring_honest env hsel s.cov lambda 0 s.w
      generalize offspring env sel s.cov lambda 0 s.w = o at hr ho
      simp only at hr
      split at hr
      · cases hr
      · rename_i mean _
        have hv := hsel o.1 (env.transform mean)
        generalize sel o.1 (env.transform mean) = v at hr hv
        have hb : (takeBest env v.1 mean v.2.1 s).2.2.2.1 = (takeBest env v.1 mean v.2.1 s).2.2.2.2.any isStop ∧
            genCount (takeBest env v.1 mean v.2.1 s).2.2.2.2 = 0 := by
          unfold takeBest
          split_ifs
          · exact ⟨by simp [isStop], rfl⟩
          · exact ⟨rfl, rfl⟩
        generalize takeBest env v.1 mean v.2.1 s = b at hr hb
        have h0 : s.trace.any isStop = false := by rw [← h.1]; simpa using ht
        have hg0 : genCount (o.2.2.2 ++ v.2.2.2 ++ b.2.2.2.2 ++ [Ev.gen v.2.1 b.2.2.1]) = 1 := by
          rw [genCount_append, genCount_append, genCount_append, genCount_evals ho.2, genCount_evals hv.2, hb.2]; rfl
        have hinv : ∀ k l c, StopInv 1 (⟨b.1, b.2.1, b.2.2.1, l, k, c, o.2.2.1 || v.2.2.1 || b.2.2.2.1,
            s.trace ++ o.2.2.2 ++ v.2.2.2 ++ b.2.2.2.2 ++ [.gen v.2.1 b.2.2.1]⟩ : St W M E C) := by
          intro k l c
          constructor
          · simp only [List.any_append, h0, ho.1, hv.1, hb.1]
            simp [isStop]
          · simp only
            rw [show s.trace ++ o.2.2.2 ++ v.2.2.2 ++ b.2.2.2.2 ++ [Ev.gen v.2.1 b.2.2.1] =
              s.trace ++ (o.2.2.2 ++ v.2.2.2 ++ b.2.2.2.2 ++ [Ev.gen v.2.1 b.2.2.1]) by simp, behind_of_none h0]
            exact hg0 ▸ genCount_behind_le _
        have hgc : genCount (s.trace ++ o.2.2.2 ++ v.2.2.2 ++ b.2.2.2.2 ++ [Ev.gen v.2.1 b.2.2.1]) = genCount s.trace + 1 := by
          rw [show s.trace ++ o.2.2.2 ++ v.2.2.2 ++ b.2.2.2.2 ++ [Ev.gen v.2.1 b.2.2.1] =
              s.trace ++ (o.2.2.2 ++ v.2.2.2 ++ b.2.2.2.2 ++ [Ev.gen v.2.1 b.2.2.1]) by simp, genCount_append, hg0]
        split_ifs at hr
        · cases hr; exact ⟨hinv _ _ _, fun h => absurd h ht, by simp only [hgc]; omega⟩
        · cases hr; exact ⟨hinv _ _ _, fun h => absurd h ht, by simp only [hgc]; omega⟩
        · cases hr; exact ⟨hinv _ _ _, fun h => absurd h ht, by simp only [hgc]; omega⟩
        · obtain ⟨a, _, c⟩ := ih _ _ (hinv _ _ _) hr
          simp only [hgc] at c
          exact ⟨a, fun h => absurd h ht, by omega⟩
        · obtain ⟨a, _, c⟩ := ih _ _ (hinv _ _ _) hr
          simp only [hgc] at c
          exact ⟨a, fun h => absurd h ht, by omega⟩

/-- **C157** CMA-ES, any objective, callbacks, selection and adaptation: after a stop request at most the current generation
is completed; none is started if the request came with the initial objective. -/
theorem C157_cmaes_stop {env : Env W M E C} [LT E] [DecidableLT E] {sel : Select W M E} (hsel : Honest sel)
    {n b lambda patience maxIterations : Nat} {c₀ : C} {w : W} {x : M} {r : Result M E}
    (h : optimize env sel n b lambda patience maxIterations c₀ w x = some r) :
    genCount (behind isStop r.trace) ≤ 1 ∧
    ((start env n b c₀ w x).terminate = true → genCount r.trace = 0) ∧
    genCount r.trace ≤ generations maxIterations := by
  unfold optimize at h
  rw [Option.map_eq_some_iff] at h
  obtain ⟨⟨e, s⟩, hg, rfl⟩ := h
  have hi := initialLoop_honest env (env.transform x) (batches n b) w env.zero
  have h0 : genCount (start env n b c₀ w x).trace = 0 := genCount_evals hi.2
  have hst : StopInv 1 (start env n b c₀ w x) :=
    ⟨hi.1, Nat.le_trans (genCount_behind_le _) (by rw [h0]; omega)⟩
  obtain ⟨h1, h2, h3⟩ := genLoop_stop hsel _ _ _ hst hg
  simp only at h1 h2 h3 ⊢
  refine ⟨?_, ?_, ?_⟩
  · cases hc : s.trace.any isStop
    · rw [behind_of_none hc]; exact Nat.zero_le _
    · rw [behind_of_some hc, genCount_append]; exact h1.2
  · intro ht
    rw [genCount_append, h2 ht, h0]; rfl
  · rw [genCount_append]
    rw [h0] at h3
    have : genCount [Ev.endOpt (E := E) (env.transform s.iterate)] = 0 := rfl
    omega

/-- Non-vacuity: the third notification of `Evaluate` asks to stop (in the first generation); that
generation is completed, with eight more evaluations. -/
example : ∃ r, optimize { demo with cbEvaluate := fun w _ _ => (w, w == 3) }
    (fullSelection { demo with cbEvaluate := fun w _ _ => (w, w == 3) } 2 1) 2 1 4 1 9 10 0 10 = some r ∧
    genCount r.trace = 1 ∧ genCount (behind isStop r.trace) = 1 ∧ (behind isStop r.trace).length = 10 + 2 :=
  ⟨_, rfl, rfl, rfl, rfl⟩

end Ens.Cmaes
