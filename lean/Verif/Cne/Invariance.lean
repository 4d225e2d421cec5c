import Mathlib.Data.EReal.Inv
import Mathlib.Data.EReal.Operations
import Mathlib.Tactic.Abel
import Mathlib.Tactic.Ring
import Mathlib.Tactic.NormNum
import Verif.SortIndex
import Verif.Cne.Model

/-
C273: a run of CNE depends on the objective only through the order of its values, and moves along with the origin of
the coordinate system.
-/

namespace Ens.Cne

section generic
variable {W X E : Type}

/-- Events in other coordinates (`φ`) and with other values of the objective (`g`). -/
def Ev.map (φ : List X → List X) (g : E → E) : Ev X E → Ev X E
  | .step a b s => .step (φ a) (φ b) s
  | .eval x f s => .eval (φ x) (g f) s
  | .gen p f => .gen (p.map φ) (f.map g)
  | .endOpt x => .endOpt (φ x)

def Result.map (φ : List X → List X) (g : E → E) (r : Result X E) : Result X E :=
  ⟨g r.obj, φ r.x, r.trace.map (Ev.map φ g)⟩

/-- `env'` is `env` in other coordinates and with other values of the objective. -/
structure Sim (env env' : Env W X E) (φ : List X → List X) (g : E → E) : Prop where
  sample : ∀ w x, env'.sample w (φ x) = ((env.sample w x).1, φ (env.sample w x).2)
  evaluate : ∀ w x, env'.evaluate w (φ x) = ((env.evaluate w x).1, g (env.evaluate w x).2)
  cbEvaluate : ∀ w x v, env'.cbEvaluate w (φ x) (g v) = env.cbEvaluate w x v
  cbBegin : ∀ w x, (env'.cbBegin w (φ x)).1 = (env.cbBegin w x).1
  cbStep : ∀ w x, env'.cbStep w (φ x) = ((env.cbStep w x).1, φ (env.cbStep w x).2.1, (env.cbStep w x).2.2)
  randi : env'.randi = env.randi
  cross : ∀ w m d, cross env'.coin w (φ m) (φ d)
    = ((cross env.coin w m d).1, φ (cross env.coin w m d).2.1, φ (cross env.coin w m d).2.2)
  mutate : ∀ w x, env'.mutate w (φ x) = ((env.mutate w x).1, φ (env.mutate w x).2)
  sortIndex : ∀ v, env'.sortIndex (v.map g) = env.sortIndex v
  isClose : ∀ a v, env'.isClose (g a) (v.map g) = env.isClose a v
  min : ∀ v, v ≠ [] → env'.min (v.map g) = g (env.min v)

variable {env env' : Env W X E} {φ : List X → List X} {g : E → E}

theorem breed_map (h : Sim env env' φ g) (index : List Nat) (e i : Nat) (w : W) (pop : List (List X)) :
    breed env' index e i w (pop.map φ) = (breed env index e i w pop).map fun r => (r.1, r.2.map φ) := by
  unfold breed
  have hp : parents env' e w = parents env e w := by simp only [parents, h.randi]
  rw [hp]
  simp only [List.getElem?_map, List.length_map]
  cases index[(parents env e w).2.1]? with
  | none => rfl
  | some mom =>
    cases index[(parents env e w).2.2]? with
    | none => rfl
    | some dad =>
      cases index[i]? with
      | none => rfl
      | some c1 =>
        cases index[i + 1]? with
        | none => rfl
        | some c2 =>
          dsimp only
          cases pop[mom]? with
          | none => rfl
          | some gm =>
            cases pop[dad]? with
            | none => rfl
            | some gd =>
              simp only [Option.map_some, h.cross]
              split_ifs
              · simp [List.map_set]
              · rfl

theorem breedLoop_map (h : Sim env env' φ g) (index : List Nat) (e rem : Nat) :
    ∀ i w (pop : List (List X)), breedLoop env' index e rem i w (pop.map φ)
      = (breedLoop env index e rem i w pop).map fun r => (r.1, r.2.map φ) := by
  induction rem with
  | zero => intro i w pop; rfl
  | succ rem ih =>
    intro i w pop
    rw [breedLoop, breedLoop, breed_map h]
    cases breed env index e i w pop with
    | none => rfl
    | some r => exact ih _ _ _

theorem mutateLoop_map (h : Sim env env' φ g) (js : List Nat) :
    ∀ w (pop : List (List X)), mutateLoop env' js w (pop.map φ)
      = (mutateLoop env js w pop).map fun r => (r.1, r.2.map φ) := by
  induction js with
  | nil => intro w pop; rfl
  | cons j js ih =>
    intro w pop
    rw [mutateLoop, mutateLoop]
    simp only [List.getElem?_map]
    cases pop[j]? with
    | none => rfl
    | some x =>
      simp only [Option.map_some, h.mutate]
      rw [← List.map_set]
      exact ih _ _

theorem reproduce_map (h : Sim env env' φ g) (n e : Nat) (index : List Nat) (w : W) (pop : List (List X)) :
    reproduce env' n e index w (pop.map φ) = (reproduce env n e index w pop).map fun r => (r.1, r.2.map φ) := by
  unfold reproduce
  rw [breedLoop_map h]
  cases breedLoop env index e (n - 1 - e) e w pop with
  | none => rfl
  | some r => exact mutateLoop_map h _ _ _

theorem sampleLoop_map (h : Sim env env' φ g) (x : List X) (n : Nat) :
    ∀ w, sampleLoop env' (φ x) n w = ((sampleLoop env x n w).1, (sampleLoop env x n w).2.map φ) := by
  induction n with
  | zero => intro w; rfl
  | succ n ih => intro w; simp only [sampleLoop, h.sample, ih, List.map_cons]

theorem evalLoop_map (h : Sim env env' φ g) (pop : List (List X)) :
    ∀ w, evalLoop env' (pop.map φ) w
      = ((evalLoop env pop w).1, (evalLoop env pop w).2.1.map g, (evalLoop env pop w).2.2.1,
        (evalLoop env pop w).2.2.2.map (Ev.map φ g)) := by
  induction pop with
  | nil => intro w; rfl
  | cons x pop ih =>
    intro w
    simp only [List.map_cons, evalLoop, h.cbStep, h.evaluate, h.cbEvaluate, ih, Ev.map]

theorem evalLoop_length (pop : List (List X)) : ∀ w, (evalLoop env pop w).2.1.length = pop.length := by
  induction pop with
  | nil => intro w; rfl
  | cons x pop ih => intro w; simp [evalLoop, ih]

theorem breed_length {index : List Nat} {e i : Nat} {w : W} {pop : List (List X)} {r : W × List (List X)}
    (hr : breed env index e i w pop = some r) : r.2.length = pop.length := by
  unfold breed at hr
  dsimp only at hr
  split at hr
  · split at hr
    · split_ifs at hr
      cases hr
      simp
    · cases hr
  · cases hr

theorem reproduce_length {n e : Nat} {index : List Nat} {w : W} {pop : List (List X)} {r : W × List (List X)}
    (hr : reproduce env n e index w pop = some r) : r.2.length = pop.length := by
  have hm : ∀ (js : List Nat) (w : W) (pop : List (List X)) (r : W × List (List X)),
      mutateLoop env js w pop = some r → r.2.length = pop.length := by
    intro js
    induction js with
    | nil => intro w pop r h; cases h; rfl
    | cons j js ih =>
      intro w pop r h
      rw [mutateLoop] at h
      split at h
      · cases h
      · rw [ih _ _ _ h, List.length_set]
  have hb : ∀ (rem i : Nat) (w : W) (pop : List (List X)) (r : W × List (List X)),
      breedLoop env index e rem i w pop = some r → r.2.length = pop.length := by
    intro rem
    induction rem with
    | zero => intro i w pop r h; cases h; rfl
    | succ rem ih =>
      intro i w pop r h
      rw [breedLoop] at h
      split at h
      · cases h
      · next hbr => rw [ih _ _ _ _ h]; exact breed_length hbr
  unfold reproduce at hr
  split at hr
  · cases hr
  · next hbr => rw [hm _ _ _ _ hr]; exact hb _ _ _ _ _ hbr

/-- The state in other coordinates. -/
def St.map (φ : List X → List X) (g : E → E) (s : St W X E) : St W X E :=
  ⟨s.w, s.pop.map φ, s.index, g s.last, s.terminate, s.trace.map (Ev.map φ g)⟩

theorem genLoop_map (h : Sim env env' φ g) (n e rem : Nat) :
    ∀ s : St W X E, s.pop ≠ [] → genLoop env' n e rem (s.map φ g) = (genLoop env n e rem s).map (St.map φ g) := by
  induction rem with
  | zero => intro s _; rfl
  | succ rem ih =>
    intro s hne
    rw [genLoop, genLoop]
    have ht : (s.map φ g).terminate = s.terminate := rfl
    have hp : (s.map φ g).pop = s.pop.map φ := rfl
    have hw : (s.map φ g).w = s.w := rfl
    have hl : (s.map φ g).last = g s.last := rfl
    rw [ht, hp, hw, hl, evalLoop_map h]
    by_cases hterm : s.terminate = true
    · rw [if_pos hterm, if_pos hterm]; rfl
    rw [if_neg hterm, if_neg hterm]
    dsimp only
    rw [h.sortIndex, h.isClose]
    cases env.sortIndex (evalLoop env s.pop s.w).2.1 with
    | none => rfl
    | some index =>
      dsimp only
      rw [reproduce_map h]
      cases hr : reproduce env n e index (evalLoop env s.pop s.w).1 s.pop with
      | none => rfl
      | some r =>
        dsimp only [Option.map_some]
        by_cases hc : env.isClose s.last (evalLoop env s.pop s.w).2.1 = true
        · rw [if_pos hc, if_pos hc]
          simp [St.map, Ev.map, Except.map]
        · rw [if_neg hc, if_neg hc]
          have hne' : r.2 ≠ [] := by
            intro h0
            have := reproduce_length hr
            rw [h0] at this
            exact hne (List.length_eq_zero_iff.1 this.symm)
          have hv : (evalLoop env s.pop s.w).2.1 ≠ [] := by
            intro h0
            have := evalLoop_length (env := env) s.pop s.w
            rw [h0] at this
            exact hne (List.length_eq_zero_iff.1 this.symm)
          rw [← ih _ hne']
          congr 1
          simp [St.map, Ev.map, h.min _ hv]

theorem start_map (h : Sim env env' φ g) (n : Nat) (w : W) (x : List X) :
    start env' n w (φ x) = (start env n w x).map φ g := by
  simp only [start, sampleLoop_map h, h.evaluate, h.cbEvaluate, h.cbBegin, St.map, Ev.map, List.map_cons, List.map_nil]

theorem sampleLoop_length (x : List X) (n : Nat) : ∀ w, (sampleLoop env x n w).2.length = n := by
  induction n with
  | zero => intro w; rfl
  | succ n ih => intro w; simp [sampleLoop, ih]

theorem optimize_map (h : Sim env env' φ g) (n elite0 maxGen : Nat) (w : W) (x : List X) :
    optimize env' n elite0 maxGen w (φ x) = (optimize env n elite0 maxGen w x).map (Result.map φ g) := by
  unfold optimize
  by_cases hn : n < 4
  · have : guards n elite0 = .error .tooSmall := if_pos hn
    rw [this]; rfl
  cases guards n elite0 with
  | error e => rfl
  | ok e =>
    dsimp only
    have hne : (start env n w x).pop ≠ [] := by
      intro h0
      have := sampleLoop_length (env := env) x n w
      rw [show (sampleLoop env x n w).2 = (start env n w x).pop from rfl, h0] at this
      simp at this
      omega
    rw [start_map h, genLoop_map h n e maxGen _ hne]
    cases genLoop env n e maxGen (start env n w x) with
    | error e => rfl
    | ok s =>
      simp only [Except.map]
      have hb : (s.map φ g).index[0]?.bind ((s.map φ g).pop[·]?) = (s.index[0]?.bind (s.pop[·]?)).map φ := by
        show s.index[0]?.bind ((s.pop.map φ)[·]?) = _
        cases s.index[0]? with
        | none => rfl
        | some i => simp
      rw [hb]
      cases s.index[0]?.bind (s.pop[·]?) with
      | none => rfl
      | some best =>
        have hw : (s.map φ g).w = s.w := rfl
        simp only [Option.map_some, h.evaluate, h.cbEvaluate, hw, Result.map, St.map, List.map_append, List.map_cons,
          List.map_nil, Ev.map]

end generic

/-! ### Over the reals -/

variable {W : Type}

/-- What is drawn during a run: `randn` (line 96), `randi` (lines 184-188), `randu` (line 229), and for a mutation the
numbers of `randu` and `randn` (lines 251-254), indexed by the position in the matrix. -/
structure Draws (W : Type) where
  normal : W → W × (Nat → ℝ)
  randi : W → Nat → W × Nat
  uniform : W → W × ℝ
  mutation : W → W × (Nat → ℝ) × (Nat → ℝ)

open scoped Classical in
/-- CNE with mutation probability `prob` and size `size`, without callbacks. Objective values are extended reals. -/
noncomputable def realEnv (draws : Draws W) (prob size tol : ℝ) (sort : List EReal → Option (List Nat))
    (f : List ℝ → EReal) : Env W ℝ EReal where
  sample w x := ((draws.normal w).1, x.mapIdx fun i v => (draws.normal w).2 i + v)
  evaluate w x := (w, f x)
  cbEvaluate w _ _ := (w, false)
  cbBegin w x := (w, x)
  cbStep w x := (w, x, false)
  randi := draws.randi
  coin w := ((draws.uniform w).1, decide ((draws.uniform w).2 > 0.5))
  mutate w x := ((draws.mutation w).1, x.mapIdx fun i v =>
    v + (if (draws.mutation w).2.1 i < prob then 1 else 0) * (size * (draws.mutation w).2.2 i))
  sortIndex := sort
  isClose a v := decide (((EReal.abs (a - v.foldl min ⊤) : ENNReal) : EReal) < tol)
  min v := v.foldl min ⊤

theorem foldl_min_map {g : EReal → EReal} (hg : StrictMono g) (v : List EReal) :
    ∀ a, (v.map g).foldl min (g a) = g (v.foldl min a) := by
  induction v with
  | nil => intro a; rfl
  | cons b v ih =>
    intro a
    rw [List.map_cons, List.foldl_cons, List.foldl_cons, ← hg.monotone.map_min, ih]

/-- **C273** Order. Let `sort_index` compare values only. Replace the objective `f` by `g ∘ f` with a strictly
increasing `g` that keeps infinity, in a run without tolerance test: with the same random numbers CNE visits the same
populations, takes the same decisions and returns the same coordinates; the values of the objective are those of
`g ∘ f`. -/
theorem C273_order (draws : Draws W) (prob size tol : ℝ) (htol : tol ≤ 0) (sort : List EReal → Option (List Nat))
    (hsort : ∀ u v : List EReal, u.length = v.length →
      (∀ i j, i < u.length → j < u.length → (u.getD i 0 < u.getD j 0 ↔ v.getD i 0 < v.getD j 0)) → sort u = sort v)
    (f : List ℝ → EReal) (g : EReal → EReal) (hg : StrictMono g) (htop : g ⊤ = ⊤)
    (n elite0 maxGen : Nat) (w : W) (x : List ℝ) :
    optimize (realEnv draws prob size tol sort (g ∘ f)) n elite0 maxGen w x
      = (optimize (realEnv draws prob size tol sort f) n elite0 maxGen w x).map (Result.map id g) := by
  have hno : ∀ a b : EReal, ¬ ((EReal.abs (a - b) : ENNReal) : EReal) < (tol : EReal) := by
    intro a b hlt
    have h0 : (0 : EReal) ≤ ((EReal.abs (a - b) : ENNReal) : EReal) := EReal.coe_ennreal_nonneg _
    have h1 : (tol : EReal) ≤ 0 := by exact_mod_cast htol
    exact absurd (lt_of_lt_of_le hlt h1) (not_lt.2 h0)
  refine optimize_map (env := realEnv draws prob size tol sort f) (env' := realEnv draws prob size tol sort (g ∘ f))
    (φ := id) ⟨fun _ _ => rfl, fun _ _ => rfl, fun _ _ _ => rfl, fun _ _ => rfl,
    fun _ _ => rfl, rfl, fun _ _ _ => rfl, fun _ _ => rfl, ?_, ?_, ?_⟩ n elite0 maxGen w x
  · intro v
    refine hsort _ _ (by simp) fun i j hi hj => ?_
    rw [List.length_map] at hi hj
    simp only [List.getD_eq_getElem?_getD, List.getElem?_map, List.getElem?_eq_getElem hi, List.getElem?_eq_getElem hj,
      Option.map_some, Option.getD_some]
    exact hg.lt_iff_lt
  · intro a v
    simp only [realEnv, hno, decide_false]
  · intro v _
    show (v.map g).foldl min ⊤ = g (v.foldl min ⊤)
    rw [← foldl_min_map hg, htop]

theorem cross_shift (coin : W → W × Bool) : ∀ (m d : List ℝ) (w : W) (t : Nat → ℝ),
    cross coin w (m.mapIdx fun i v => v + t i) (d.mapIdx fun i v => v + t i)
      = ((cross coin w m d).1, (cross coin w m d).2.1.mapIdx (fun i v => v + t i),
        (cross coin w m d).2.2.mapIdx fun i v => v + t i) := by
  intro m
  induction m with
  | nil => intro d w t; cases d <;> simp [cross]
  | cons a m ih =>
    intro d w t
    cases d with
    | nil => simp [cross]
    | cons b d =>
      rw [List.mapIdx_cons, List.mapIdx_cons, cross, cross]
      have := ih d (coin w).1 fun i => t (i + 1)
      rw [this]
      split_ifs <;> simp [List.mapIdx_cons]

/-- **C273** Origin. Start `t` further and evaluate the objective `t` further back: with the same random numbers every
population and the returned coordinates are moved by `t`, values and decisions are the same. -/
theorem C273_translation (draws : Draws W) (prob size tol : ℝ) (sort : List EReal → Option (List Nat))
    (f : List ℝ → EReal) (t : Nat → ℝ) (n elite0 maxGen : Nat) (w : W) (x : List ℝ) :
    optimize (realEnv draws prob size tol sort fun y => f (y.mapIdx fun i v => v - t i)) n elite0 maxGen w
        (x.mapIdx fun i v => v + t i)
      = (optimize (realEnv draws prob size tol sort f) n elite0 maxGen w x).map
          (Result.map (fun y => y.mapIdx fun i v => v + t i) id) := by
  refine optimize_map (env := realEnv draws prob size tol sort f)
    (env' := realEnv draws prob size tol sort fun y => f (y.mapIdx fun i v => v - t i))
    (φ := fun y => y.mapIdx fun i v => v + t i) (g := id) ⟨?_, ?_, fun _ _ _ => rfl, fun _ _ => rfl,
    fun _ _ => rfl, rfl, fun w m d => cross_shift _ m d w t, ?_, ?_, ?_, ?_⟩ n elite0 maxGen w x
  · intro w x; simp [realEnv, List.mapIdx_mapIdx, Function.comp_def, add_assoc]
  · intro w x
    have he : (x.mapIdx fun i v => v + t i).mapIdx (fun i v => v - t i) = x := by
      refine List.ext_getElem (by simp) fun i h1 h2 => ?_
      simp
    simp only [realEnv, he, id]
  · intro w x
    simp only [realEnv, Prod.mk.injEq, true_and, List.mapIdx_mapIdx, Function.comp_def, add_right_comm]
  · intro v; simp [realEnv]
  · intro a v; simp [realEnv]
  · intro v _; simp [realEnv]

open scoped Classical in
/-- Non-vacuity of the condition on `sort_index`: merge sort. -/
example (u v : List EReal) (hl : u.length = v.length)
    (h : ∀ i j, i < u.length → j < u.length → (u.getD i 0 < u.getD j 0 ↔ v.getD i 0 < v.getD j 0)) :
    some ((List.range u.length).mergeSort fun a b => decide (a < u.length → b < u.length → ¬ u.getD b 0 < u.getD a 0))
      = some ((List.range v.length).mergeSort fun a b =>
          decide (a < v.length → b < v.length → ¬ v.getD b 0 < v.getD a 0)) := by
  have : (fun a b => decide (a < u.length → b < u.length → ¬ u.getD b 0 < u.getD a 0))
      = fun a b => decide (a < v.length → b < v.length → ¬ v.getD b 0 < v.getD a 0) := by
    funext a b
    rw [decide_eq_decide, ← hl]
    exact forall_congr' fun ha => forall_congr' fun hb => not_congr (h b a hb ha)
  rw [this, hl]

/-- Non-vacuity: an increasing map that keeps infinity. -/
example : StrictMono (fun v : EReal => v + ((1 : ℝ) : EReal)) ∧ (⊤ : EReal) + ((1 : ℝ) : EReal) = ⊤ :=
  ⟨fun _ _ hab => EReal.add_lt_add_right_coe hab 1, rfl⟩

end Ens.Cne
