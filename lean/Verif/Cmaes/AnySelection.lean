import Verif.Cmaes.Props

/-
Property C84: what CMA-ES returns with a selection policy that only estimates the objective (`cmaes/cmaes_impl.hpp:137-383`,
`cmaes/random_selection.hpp:50-74`).
-/

namespace Ens.Cmaes

variable {W M E C : Type} [LT E] [DecidableLT E]

/-- What the policy computed for the coordinates at some time, or the full objective of the start. -/
def Computed (env : Env W M E C) (sel : Select W M E) (n b : Nat) (w₀ : W) (x₀ x : M) (v : E) : Prop :=
  (∃ w, v = (sel w x).2.1) ∨ x = env.transform x₀ ∧ v = (initialLoop env (env.transform x₀) (batches n b) w₀ env.zero).2.1

theorem genLoop_computed {env : Env W M E C} {sel : Select W M E} {n b : Nat} {w₀ : W} {x₀ : M} {lambda patience : Nat} [StrictPO E] :
    ∀ (rem : Nat) (s : St W M E C) (r : Exit × St W M E C), Computed env sel n b w₀ x₀ (env.transform s.iterate) s.overall →
      genLoop env sel lambda patience rem s = some r →
      Computed env sel n b w₀ x₀ (env.transform r.2.iterate) r.2.overall ∧ NW s.overall r.2.overall := by
  intro rem
  induction rem with
  | zero =>
    intro s r h hr
    simp only [genLoop, Option.some.injEq] at hr
    subst hr
    exact ⟨h, NW.rfl⟩
  | succ rem ih =>
    intro s r h hr
    rw [genLoop] at hr
    by_cases ht : s.terminate = true
    · simp only [ht, if_true, Option.some.injEq] at hr
      subst hr
      exact ⟨h, NW.rfl⟩
    · simp only [ht, Bool.false_eq_true, if_false] at hr
      generalize offspring env sel s.cov lambda 0 s.w = o at hr
      cases hrec : env.recombine s.cov o.2.1 with
      | none => rw [hrec] at hr; cases hr
      | some mean =>
        rw [hrec] at hr
        simp only at hr
        have hb : Computed env sel n b w₀ x₀ (env.transform (takeBest env (sel o.1 (env.transform mean)).1 mean
              (sel o.1 (env.transform mean)).2.1 s).2.1)
            (takeBest env (sel o.1 (env.transform mean)).1 mean (sel o.1 (env.transform mean)).2.1 s).2.2.1 ∧
            NW s.overall (takeBest env (sel o.1 (env.transform mean)).1 mean (sel o.1 (env.transform mean)).2.1 s).2.2.1 := by
          unfold takeBest
          split_ifs with hlt
          · exact ⟨Or.inl ⟨_, rfl⟩, .inr hlt⟩
          · exact ⟨h, NW.rfl⟩
        generalize sel o.1 (env.transform mean) = v at hr hb
        generalize takeBest env v.1 mean v.2.1 s = t at hr hb
        split_ifs at hr
        · cases hr; exact hb
        · cases hr; exact hb
        · cases hr; exact hb
        · obtain ⟨h1, h2⟩ := ih _ r hb.1 hr
          exact ⟨h1, hb.2.trans h2⟩
        · obtain ⟨h1, h2⟩ := ih _ r hb.1 hr
          exact ⟨h1, hb.2.trans h2⟩

/-- **C84** (partial) With any selection policy the returned value was computed for the returned coordinates: it is what the policy
returned for them at some time, or they are the starting point and it is the full objective; it is never above the full objective of the
starting point. Missing: that it is the objective, which is false. -/
theorem C84_any_selection_partial [StrictPO E] {env : Env W M E C} {sel : Select W M E} {n b lambda patience maxIterations : Nat} {c₀ : C}
    {w : W} {x : M} {r : Result M E} (h : optimize env sel n b lambda patience maxIterations c₀ w x = some r) :
    ((∃ w', r.obj = (sel w' r.x).2.1) ∨
      r.x = env.transform x ∧ r.obj = (initialLoop env (env.transform x) (batches n b) w env.zero).2.1) ∧
    NW (initialLoop env (env.transform x) (batches n b) w env.zero).2.1 r.obj := by
  unfold optimize at h
  obtain ⟨q, hq, rfl⟩ := Option.map_eq_some_iff.1 h
  exact genLoop_computed (n := n) (b := b) (w₀ := w) (x₀ := x) _ _ q (Or.inr ⟨rfl, rfl⟩) hq

omit [LT E] [DecidableLT E] in
/-- **C84** (partial) What `RandomSelection` returns for coordinates: the sum of the objectives of as many batches as are needed for the
sample, each from a random index on. -/
theorem C84_random_value_partial {env : Env W M E C} {G : M → Nat → Nat → E} (hG : ∀ w x f k, (env.evaluate w x f k).2 = G x f k)
    (pick : W → W × Nat) (n b m : Nat) (w : W) (x : M) (hp : ∀ w, (pick w).2 < n) :
    ∃ l : List Nat, l.length = (batches m b).length ∧ (∀ f ∈ l, f < n) ∧
      (randomSelection env pick n b m w x).2.1 = l.foldl (fun a f => env.add a (G x f (min b (n - f)))) env.zero := by
  have key : ∀ (bs : List (Nat × Nat)) (acc : W × E × Bool × List (Ev M E)), ∃ l : List Nat, l.length = bs.length ∧ (∀ f ∈ l, f < n) ∧
      (bs.foldl (fun (acc : W × E × Bool × List (Ev M E)) _ =>
        let p := pick acc.1
        let o := env.evaluate p.1 x p.2 (min b (n - p.2))
        let s := env.add acc.2.1 o.2
        let c := env.cbEvaluate o.1 x s
        (c.1, s, acc.2.2.1 || c.2, acc.2.2.2 ++ [.eval x s c.2])) acc).2.1 =
        l.foldl (fun a f => env.add a (G x f (min b (n - f)))) acc.2.1 := by
    intro bs
    induction bs with
    | nil => intro acc; exact ⟨[], rfl, by simp, rfl⟩
    | cons q bs ih =>
      intro acc
      rw [List.foldl_cons]
      obtain ⟨l, h1, h2, h3⟩ := ih _
      refine ⟨(pick acc.1).2 :: l, by simp [h1], ?_, ?_⟩
      · intro f hf
        rcases List.mem_cons.1 hf with rfl | hf
        · exact hp _
        · exact h2 f hf
      · rw [h3, List.foldl_cons]
        simp only [hG]
  exact key _ _

/-- A run with `RandomSelection` that improves on the start: the value is an estimate (half of the functions) of the objective. -/
example : ∃ r, optimize demo (randomSelection demo (fun w => (w, 0)) 2 1 1) 2 1 4 1 4 10 0 10 = some r ∧ r.obj < 20 := ⟨_, rfl, by decide⟩

end Ens.Cmaes
