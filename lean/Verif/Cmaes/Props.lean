import Mathlib.Data.List.Forall2
import Mathlib.Tactic.SplitIfs
import Mathlib.Data.List.Induction
import Verif.Common
import Verif.Cmaes.Model

/-
C27, C83: result, monotonicity and stopping of CMA-ES.
-/

namespace Ens.Cmaes

variable {W M E C : Type}

/-- Generations of a run: objective of the mean, best so far. -/
def gens (t : List (Ev M E)) : List (E × E) :=
  t.filterMap fun e => match e with | .gen m b => some (m, b) | _ => none

@[simp] theorem gens_append (a b : List (Ev M E)) : gens (a ++ b) = gens a ++ gens b := by
  simp [gens]

/-- Values passed to `Callback::Evaluate`. -/
def notes (t : List (Ev M E)) : List (M × E) :=
  t.filterMap fun e => match e with | .eval x v _ => some (x, v) | _ => none

@[simp] theorem notes_append (a b : List (Ev M E)) : notes (a ++ b) = notes a ++ notes b := by
  simp [notes]

/-- A value not worse than another one. -/
def NW [LT E] (a b : E) : Prop := b = a ∨ b < a

theorem NW.rfl [LT E] {a : E} : NW a a := .inl (Eq.refl _)

theorem NW.trans [LT E] [StrictPO E] {a b c : E} (h : NW a b) (h' : NW b c) : NW a c := by
  rcases h with rfl | h
  · exact h'
  · rcases h' with rfl | h'
    · exact .inr h
    · exact .inr (StrictPO.trans _ _ _ h' h)

/-- The selection policy computes the full objective `F`, as does the initial loop. -/
structure Sane (env : Env W M E C) (sel : Select W M E) (n b : Nat) (F : M → E) : Prop where
  select : ∀ w x, (sel w x).2.1 = F x
  selectTrace : ∀ w x, gens (sel w x).2.2.2 = []
  initial : ∀ w x, (initialLoop env x (batches n b) w env.zero).2.1 = F x

/-! ### FullSelection -/

theorem initialLoop_value {env : Env W M E C} {G : M → Nat → Nat → E}
    (hG : ∀ w x f k, (env.evaluate w x f k).2 = G x f k) (x : M) :
    ∀ (bs : List (Nat × Nat)) (w : W) (acc : E), (initialLoop env x bs w acc).2.1 =
      bs.foldl (fun a p => env.add a (G x p.1 p.2)) acc := by
  intro bs
  induction bs with
  | nil => intro w acc; rfl
  | cons p bs ih => intro w acc; simp only [initialLoop, List.foldl_cons, ih, hG]

theorem fullLoop_value {env : Env W M E C} {G : M → Nat → Nat → E}
    (hG : ∀ w x f k, (env.evaluate w x f k).2 = G x f k) (x : M) :
    ∀ (bs : List (Nat × Nat)) (w : W) (acc : E), (fullLoop env x bs w acc).2.1 =
      bs.foldl (fun a p => env.add a (G x p.1 p.2)) acc := by
  intro bs
  induction bs with
  | nil => intro w acc; rfl
  | cons p bs ih => intro w acc; simp only [fullLoop, List.foldl_cons, ih, hG]

theorem fullLoop_gens (env : Env W M E C) (x : M) :
    ∀ (bs : List (Nat × Nat)) (w : W) (acc : E), gens (fullLoop env x bs w acc).2.2.2 = [] := by
  intro bs
  induction bs with
  | nil => intro w acc; rfl
  | cons p bs ih => intro w acc; have := ih; simp only [gens] at this; simp [fullLoop, gens, this]

theorem initialLoop_gens (env : Env W M E C) (x : M) :
    ∀ (bs : List (Nat × Nat)) (w : W) (acc : E), gens (initialLoop env x bs w acc).2.2.2 = [] := by
  intro bs
  induction bs with
  | nil => intro w acc; rfl
  | cons p bs ih => intro w acc; have := ih; simp only [gens] at this; simp [initialLoop, gens, this]

/-- **C27** `FullSelection` computes, for a deterministic separable objective, the sum over the batches in
order, which is also what the initial loop computes. -/
theorem C27_full_selection (env : Env W M E C) (n b : Nat) (G : M → Nat → Nat → E)
    (hG : ∀ w x f k, (env.evaluate w x f k).2 = G x f k) :
    Sane env (fullSelection env n b) n b fun x =>
      (batches n b).foldl (fun a p => env.add a (G x p.1 p.2)) env.zero where
  select := fun w x => fullLoop_value hG x _ w _
  selectTrace := fun w x => fullLoop_gens env x _ w _
  initial := fun w x => initialLoop_value hG x _ w _

example : batches 10 4 = [(0, 4), (4, 4), (8, 2)] := by decide

/-! ### The loop -/

variable [LT E] [DecidableLT E]

theorem offspring_gens {env : Env W M E C} {sel : Select W M E} (h : ∀ w x, gens (sel w x).2.2.2 = [])
    (c : C) : ∀ (rem j : Nat) (w : W), gens (offspring env sel c rem j w).2.2.2 = [] := by
  intro rem
  induction rem with
  | zero => intro j w; rfl
  | succ rem ih => intro j w; simp [offspring, gens_append, h, ih]

/-- Best-so-far values after each generation, preceded by the initial `lastObjective`. -/
def bests (maxVal : E) (t : List (Ev M E)) : List E := maxVal :: (gens t).map (·.2)

structure Inv (env : Env W M E C) (F : M → E) (x₀ : M) (s : St W M E C) : Prop where
  obj : s.overall = F (env.transform s.iterate)
  start : NW (F (env.transform x₀)) s.overall
  means : ∀ g ∈ gens s.trace, ¬ g.1 < s.overall
  mono : (gens s.trace).Pairwise fun a b => NW a.2 b.2
  last : ∀ g ∈ gens s.trace, NW g.2 s.overall

/-- Bookkeeping of the tolerance criterion. -/
structure Patience (env : Env W M E C) (s : St W M E C) : Prop where
  steps : s.steps ≤ (gens s.trace).length
  last : (bests env.maxVal s.trace).getLast? = some s.last
  close : ∀ i a b, (gens s.trace).length + 1 - s.steps ≤ i →
    (bests env.maxVal s.trace)[i]? = some a → (bests env.maxVal s.trace)[i + 1]? = some b →
    env.close a b = true

omit [LT E] [DecidableLT E] in
theorem bests_snoc (maxVal : E) (t : List (Ev M E)) (a b : E) (u : List (Ev M E))
    (hu : gens u = [(a, b)]) : bests maxVal (t ++ u) = bests maxVal t ++ [b] := by
  simp [bests, hu]

omit [LT E] [DecidableLT E] in
theorem bests_length (maxVal : E) (t : List (Ev M E)) :
    (bests maxVal t).length = (gens t).length + 1 := by simp [bests]

theorem takeBest_gens (env : Env W M E C) (w : W) (m : M) (v : E) (s : St W M E C) :
    gens (takeBest env w m v s).2.2.2.2 = [] := by
  unfold takeBest; split_ifs <;> rfl

theorem takeBest_spec [StrictPO E] {env : Env W M E C} {F : M → E} (w : W) (m : M) (s : St W M E C)
    (h : s.overall = F (env.transform s.iterate)) :
    (takeBest env w m (F (env.transform m)) s).2.2.1 =
      F (env.transform (takeBest env w m (F (env.transform m)) s).2.1) ∧
    NW s.overall (takeBest env w m (F (env.transform m)) s).2.2.1 ∧
    ¬ F (env.transform m) < (takeBest env w m (F (env.transform m)) s).2.2.1 := by
  unfold takeBest
  split_ifs with hlt
  · exact ⟨rfl, .inr hlt, StrictPO.irrefl _⟩
  · exact ⟨h, NW.rfl, hlt⟩

theorem genLoop_spec [StrictPO E] {env : Env W M E C} {sel : Select W M E} {n b : Nat} {F : M → E}
    (hs : Sane env sel n b F) {x₀ : M} {lambda patience : Nat} :
    ∀ (rem : Nat) (s : St W M E C) (r : Exit × St W M E C), Inv env F x₀ s → Patience env s →
    genLoop env sel lambda patience rem s = some r →
    Inv env F x₀ r.2 ∧ (gens r.2.trace).length ≤ (gens s.trace).length + rem ∧
    (r.1 = .tolerance → patience + 1 ≤ (gens r.2.trace).length ∧
      ∀ i a b, (gens r.2.trace).length ≤ i + (patience + 1) →
        (bests env.maxVal r.2.trace)[i]? = some a → (bests env.maxVal r.2.trace)[i + 1]? = some b →
        env.close a b = true) := by
  intro rem
  induction rem with
  | zero =>
    intro s r h _ hr
    simp only [genLoop, Option.some.injEq] at hr
    subst hr
    exact ⟨h, by simp, by simp⟩
  | succ rem ih =>
    intro s r h hp hr
    rw [genLoop] at hr
    by_cases ht : s.terminate = true
    · simp only [ht, if_true, Option.some.injEq] at hr
      subst hr
      exact ⟨h, by simp, by simp⟩
    · simp only [ht, Bool.false_eq_true, if_false] at hr
      have ho := offspring_gens (env := env) hs.selectTrace s.cov lambda 0 s.w
      generalize offspring env sel s.cov lambda 0 s.w = o at hr ho
      cases hrec : env.recombine s.cov o.2.1 with
      | none => rw [hrec] at hr; cases hr
      | some mean =>
        rw [hrec] at hr
        simp only at hr
        have hv := hs.select o.1 (env.transform mean)
        have hvt := hs.selectTrace o.1 (env.transform mean)
        generalize sel o.1 (env.transform mean) = v at hr hv hvt
        have hb := takeBest_spec (env := env) (F := F) v.1 mean s h.obj
        have hbt := takeBest_gens env v.1 mean v.2.1 s
        rw [← hv] at hb
        generalize takeBest env v.1 mean v.2.1 s = t at hr hb hbt
        obtain ⟨hb1, hb2, hb3⟩ := hb
        have hu : gens (o.2.2.2 ++ v.2.2.2 ++ t.2.2.2.2 ++ [Ev.gen v.2.1 t.2.2.1]) =
            [(v.2.1, t.2.2.1)] := by
          simp only [gens_append, ho, hvt, hbt, List.nil_append]; rfl
        have htr : s.trace ++ o.2.2.2 ++ v.2.2.2 ++ t.2.2.2.2 ++ [Ev.gen v.2.1 t.2.2.1] =
            s.trace ++ (o.2.2.2 ++ v.2.2.2 ++ t.2.2.2.2 ++ [Ev.gen v.2.1 t.2.2.1]) := by
          simp [List.append_assoc]
        rw [htr] at hr
        generalize o.2.2.2 ++ v.2.2.2 ++ t.2.2.2.2 ++ [Ev.gen v.2.1 t.2.2.1] = u at hr hu
        have hgu : gens (s.trace ++ u) = gens s.trace ++ [(v.2.1, t.2.2.1)] := by
          rw [gens_append, hu]
        have hinv : ∀ (l : E) (st : Nat) (c : C) (w : W) (te : Bool),
            Inv env F x₀ (⟨w, t.2.1, t.2.2.1, l, st, c, te, s.trace ++ u⟩ : St W M E C) := by
          intro l st c w te
          refine ⟨hb1, h.start.trans hb2, ?_, ?_, ?_⟩
          · intro g hg
            simp only [hgu, List.mem_append, List.mem_singleton] at hg
            rcases hg with hg | rfl
            · have := h.means g hg
              rcases hb2 with he | he
              · simp only; rw [he]; exact this
              · intro hlt; exact this (StrictPO.trans _ _ _ hlt he)
            · exact hb3
          · simp only [hgu]
            rw [List.pairwise_append]
            refine ⟨h.mono, by simp, ?_⟩
            intro a ha c hc
            rw [List.mem_singleton] at hc; subst hc
            exact (h.last a ha).trans hb2
          · intro g hg
            simp only [hgu, List.mem_append, List.mem_singleton] at hg
            rcases hg with hg | rfl
            · exact (h.last g hg).trans hb2
            · exact NW.rfl
        have hglen : (gens (s.trace ++ u)).length = (gens s.trace).length + 1 := by
          rw [hgu]; simp
        have hbs := bests_snoc env.maxVal s.trace _ _ u hu
        have hbl := bests_length env.maxVal s.trace
        -- closeness of the last pairs
        have hclose : env.close s.last t.2.2.1 = true → ∀ i a b,
            (gens s.trace).length + 1 - s.steps ≤ i →
            (bests env.maxVal (s.trace ++ u))[i]? = some a →
            (bests env.maxVal (s.trace ++ u))[i + 1]? = some b → env.close a b = true := by
          intro hc i a b hi ha hb'
          rw [hbs] at ha hb'
          by_cases hil : i + 1 < (bests env.maxVal s.trace).length
          · rw [List.getElem?_append_left (by omega)] at ha
            rw [List.getElem?_append_left hil] at hb'
            exact hp.close i a b hi ha hb'
          · by_cases hil2 : i + 1 = (bests env.maxVal s.trace).length
            · rw [List.getElem?_append_left (by omega)] at ha
              rw [hil2, List.getElem?_concat_length] at hb'
              cases hb'
              have hlast := hp.last
              rw [List.getLast?_eq_getElem?, ← hil2, Nat.add_sub_cancel, ha] at hlast
              cases hlast
              exact hc
            · rw [List.getElem?_eq_none (by simp; omega)] at hb'; cases hb'
        split_ifs at hr with h1 h2 h3 h4
        · cases hr; exact ⟨hinv _ _ _ _ _, by simp only [hglen]; omega, by simp⟩
        · cases hr; exact ⟨hinv _ _ _ _ _, by simp only [hglen]; omega, by simp⟩
        · cases hr
          refine ⟨hinv _ _ _ _ _, by simp only [hglen]; omega, fun _ => ⟨?_, ?_⟩⟩
          · simp only [hglen]; have := hp.steps; omega
          · intro i a b' hi ha hb'
            simp only [hglen] at hi
            exact hclose h3 i a b' (by omega) ha hb'
        · have hp' : Patience env (⟨t.1, t.2.1, t.2.2.1, t.2.2.1, s.steps + 1, env.adapt s.cov o.2.1,
              o.2.2.1 || v.2.2.1 || t.2.2.2.1, s.trace ++ u⟩ : St W M E C) := by
            refine ⟨by simp only [hglen]; have := hp.steps; omega, by simp only [hbs]; simp, ?_⟩
            intro i a b' hi ha hb'
            simp only [hglen] at hi
            exact hclose h3 i a b' (by omega) ha hb'
          obtain ⟨g1, g2, g3⟩ := ih _ r (hinv _ _ _ _ _) hp' hr
          simp only [hglen] at g2
          exact ⟨g1, by omega, g3⟩
        · have hp' : Patience env (⟨t.1, t.2.1, t.2.2.1, t.2.2.1, 1, env.adapt s.cov o.2.1,
              o.2.2.1 || v.2.2.1 || t.2.2.2.1, s.trace ++ u⟩ : St W M E C) := by
            refine ⟨by simp only [hglen]; omega, by simp only [hbs]; simp, ?_⟩
            intro i a b' hi ha hb'
            simp only [hglen] at hi
            simp only [hbs] at hb'
            rw [List.getElem?_eq_none (by simp; omega)] at hb'; cases hb'
          obtain ⟨g1, g2, g3⟩ := ih _ r (hinv _ _ _ _ _) hp' hr
          simp only [hglen] at g2
          exact ⟨g1, by omega, g3⟩

theorem start_gens (env : Env W M E C) (n b : Nat) (c₀ : C) (w : W) (x : M) :
    gens (start env n b c₀ w x).trace = [] := initialLoop_gens env _ _ w _

omit [LT E] [DecidableLT E] in
theorem gens_end (t : List (Ev M E)) (x : M) : gens (t ++ [.endOpt x]) = gens t := by
  rw [gens_append]; exact List.append_nil _

/-- **C27** Whatever the offspring, the covariance updates and the callbacks: the returned value is the
objective at the returned (transformed) coordinates, it is not worse than the objective at the
(transformed) starting point nor than that of any generation's mean, and the best objective never
worsens from generation to generation. -/
theorem C27_cmaes_result [StrictPO E] {env : Env W M E C} {sel : Select W M E} {n b : Nat} {F : M → E}
    (hs : Sane env sel n b F) {lambda patience maxIterations : Nat} {c₀ : C} {w : W} {x : M}
    {r : Result M E} (h : optimize env sel n b lambda patience maxIterations c₀ w x = some r) :
    r.obj = F r.x ∧ (∃ y, r.x = env.transform y) ∧ NW (F (env.transform x)) r.obj ∧
    (∀ g ∈ gens r.trace, ¬ g.1 < r.obj ∧ NW g.2 r.obj) ∧
    (gens r.trace).Pairwise (fun a b => NW a.2 b.2) := by
  unfold optimize at h
  obtain ⟨q, hq, rfl⟩ := Option.map_eq_some_iff.1 h
  have h0 := start_gens env n b c₀ w x
  obtain ⟨h1, -, -⟩ := genLoop_spec hs (x₀ := x) _ _ q
    ⟨hs.initial _ _, by rw [show (start env n b c₀ w x).overall = F (env.transform x) from hs.initial _ _]
                        exact NW.rfl, by simp [h0], by simp [h0], by simp [h0]⟩
    ⟨Nat.zero_le _, by rw [bests, h0]; rfl, by
      intro i a b _ _ h2
      rw [bests, h0] at h2
      simp at h2⟩ hq
  simp only [gens_end]
  exact ⟨h1.obj, ⟨_, rfl⟩, h1.start, fun g hg => ⟨h1.means g hg, h1.last g hg⟩, h1.mono⟩

/-- **C83** Number of generations and patience: at most `maxIterations - 1` generations (`2^64 - 1` for
`maxIterations = 0`, "no limit"), and the tolerance criterion ends a run only when the best objective
changed by less than the tolerance in each of the last `patience + 1` generations. -/
theorem C83_cmaes_stopping [StrictPO E] {env : Env W M E C} {sel : Select W M E} {n b : Nat} {F : M → E}
    (hs : Sane env sel n b F) {lambda patience maxIterations : Nat} (hm : maxIterations < 2 ^ 64)
    {c₀ : C} {w : W} {x : M}
    {r : Result M E} (h : optimize env sel n b lambda patience maxIterations c₀ w x = some r) :
    (maxIterations ≠ 0 → (gens r.trace).length ≤ maxIterations - 1) ∧
    (r.why = .tolerance → patience + 1 ≤ (gens r.trace).length ∧
      ∀ i a b, (gens r.trace).length ≤ i + (patience + 1) →
        (bests env.maxVal r.trace)[i]? = some a → (bests env.maxVal r.trace)[i + 1]? = some b →
        env.close a b = true) := by
  unfold optimize at h
  obtain ⟨q, hq, rfl⟩ := Option.map_eq_some_iff.1 h
  have h0 := start_gens env n b c₀ w x
  obtain ⟨-, h2, h3⟩ := genLoop_spec hs (x₀ := x) _ _ q
    ⟨hs.initial _ _, by rw [show (start env n b c₀ w x).overall = F (env.transform x) from hs.initial _ _]
                        exact NW.rfl, by simp [h0], by simp [h0], by simp [h0]⟩
    ⟨Nat.zero_le _, by rw [bests, h0]; rfl, by
      intro i a b _ _ h2
      rw [bests, h0] at h2
      simp at h2⟩ hq
  have hbe : bests env.maxVal (q.2.trace ++ [.endOpt (env.transform q.2.iterate)]) =
      bests env.maxVal q.2.trace := by unfold bests; rw [gens_end]
  simp only [gens_end, hbe]
  refine ⟨?_, h3⟩
  intro hm0
  rw [h0] at h2
  have : generations maxIterations = maxIterations - 1 := by
    unfold generations
    rw [show maxIterations + 2 ^ 64 - 1 = (maxIterations - 1) + 2 ^ 64 by omega, Nat.add_mod_right]
    exact Nat.mod_eq_of_lt (by omega)
  simpa [this] using h2

/-- Integer example: coordinate = objective; two functions, each half of it; offspring move down. -/
def demo : Env Nat Int Int Int where
  transform := id
  evaluate := fun w x _ k => (w + 1, x * k)
  add := (· + ·)
  zero := 0
  cbEvaluate := fun w _ _ => (w, false)
  cbStep := fun w _ => (w, false)
  cbBegin := fun w _ => w
  sample := fun w c j => (w, c - j)
  recombine := fun c _ => some (c - 1)
  adapt := fun c _ => c - 1
  diverged := fun _ => false
  isNanInf := fun _ => false
  close := fun a b => a - b < 2
  maxVal := 1000

/-- Non-vacuity: three generations. -/
example : ∃ r, optimize demo (fullSelection demo 2 1) 2 1 4 1 4 10 0 10 = some r ∧ r.x = 7 ∧ r.obj = 14 ∧
    (gens r.trace).length = 3 := ⟨_, rfl, rfl, rfl, rfl⟩

/-- Non-vacuity of the tolerance exit. -/
example : ∃ r, optimize { demo with close := fun _ _ => true } (fullSelection demo 2 1) 2 1 4 1 9 10 0 10 =
    some r ∧ r.why = .tolerance ∧ (gens r.trace).length = 3 := ⟨_, rfl, rfl, rfl⟩

/-- **C84** (refuted) "With any selection policy the returned value is the objective of the returned
coordinates": `RandomSelection` estimates it from a sample. -/
theorem C84_random_selection_refuted :
    ¬ ∀ (env : Env Nat Int Int Int) (pick : Nat → Nat × Nat) (n b m lambda patience maxIt w : Nat)
      (G : Int → Nat → Nat → Int) (c₀ x : Int) (r : Result Int Int),
      (∀ w x f k, (env.evaluate w x f k).2 = G x f k) → (∀ w, (pick w).2 < n) → b ≠ 0 → m ≤ n →
      optimize env (randomSelection env pick n b m) n b lambda patience maxIt c₀ w x = some r →
      r.obj = (batches n b).foldl (fun a p => env.add a (G r.x p.1 p.2)) env.zero := by
  intro h
  have := h demo (fun w => (w, 0)) 2 1 1 4 1 4 0 (fun x _ k => x * k) 10 10 _ (fun _ _ _ _ => rfl)
    (fun _ => Nat.zero_lt_two) (by decide) (by decide) rfl
  revert this
  decide

end Ens.Cmaes
