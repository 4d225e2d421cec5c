import Mathlib.Data.EReal.Inv
import Mathlib.Data.EReal.Operations
import Mathlib.Tactic.Abel
import Mathlib.Tactic.Ring
import Mathlib.Tactic.NormNum
import Verif.De.Model

/-
C272: a run of DE depends on the objective only through the order of its values, and moves along with the origin of
the coordinate system.
-/

namespace Ens.De

section generic
variable {W M E : Type} [LinearOrder E]

/-- Events in other coordinates (`φ`) and with other values of the objective (`g`). -/
def Ev.map (φ : M → M) (g : E → E) : Ev M E → Ev M E
  | .init p f => .init (p.map φ) (f.map g)
  | .pick k l m => .pick k l m
  | .cb b => .cb b
  | .gen p f => .gen (p.map φ) (f.map g)
  | .endOpt x => .endOpt (φ x)

def Result.map (φ : M → M) (g : E → E) (r : Result M E) : Result M E :=
  ⟨g r.obj, r.x.map φ, r.tol, r.pop.map φ, r.fit.map g, r.trace.map (Ev.map φ g)⟩

/-- `env'` is `env` in other coordinates and with other values of the objective. -/
structure Sim (env env' : Env W M E) (φ : M → M) (g : E → E) : Prop where
  mono : StrictMono g
  inf : g env.inf = env'.inf
  sample : ∀ w x, env'.sample w (φ x) = ((env.sample w x).1, φ (env.sample w x).2)
  evaluate : ∀ w x, env'.evaluate w (φ x) = ((env.evaluate w x).1, g (env.evaluate w x).2)
  cbEvaluate : ∀ w x v, env'.cbEvaluate w (φ x) (g v) = env.cbEvaluate w x v
  cbBegin : ∀ w x, (env'.cbBegin w (φ x)).1 = (env.cbBegin w x).1
  cbStep : ∀ w x, env'.cbStep w (φ x) = ((env.cbStep w x).1, φ (env.cbStep w x).2.1, (env.cbStep w x).2.2)
  randi : env'.randi = env.randi
  mutant : ∀ w b l m x, env'.mutant w (φ b) (φ l) (φ m) (φ x)
    = ((env.mutant w b l m x).1, φ (env.mutant w b l m x).2)
  isClose : ∀ a b, env'.isClose (g a) (g b) = env.isClose a b
  below : ∀ w x, (env.evaluate w x).2 < env.dblMax
  below' : ∀ w x, g (env.evaluate w x).2 < env'.dblMax

/-- The state in other coordinates. -/
def St.map (φ : M → M) (g : E → E) (s : St W M E) : St W M E :=
  ⟨s.w, s.pop.map φ, s.fit.map g, s.best.map φ, g s.last, s.terminate, s.trace.map (Ev.map φ g)⟩

variable {env env' : Env W M E} {φ : M → M} {g : E → E}

theorem initStep_map (h : Sim env env' φ g) (x₀ : M) (s : St W M E) :
    initStep env' (φ x₀) (s.map φ g) = (initStep env x₀ s).map φ g := by
  simp only [initStep, St.map, h.sample, h.evaluate, h.cbEvaluate, h.mono.lt_iff_lt]
  split_ifs <;> simp [Ev.map]

theorem initLoop_map (h : Sim env env' φ g) (x₀ : M) (n : Nat) :
    ∀ s : St W M E, initLoop env' (φ x₀) n (s.map φ g) = (initLoop env x₀ n s).map φ g := by
  induction n with
  | zero => intro s; rfl
  | succ n ih => intro s; rw [initLoop, initLoop, initStep_map h, ih]

/-- The first member is below `DBL_MAX`. -/
theorem initStep_start (h : Sim env env' φ g) (x₀ : M) (w : W) :
    initStep env' (φ x₀) (start0 env' w) = (initStep env x₀ (start0 env w)).map φ g := by
  simp only [initStep, start0, St.map, h.sample, h.evaluate, h.cbEvaluate]
  have hb := h.below (env.sample w x₀).1 (env.sample w x₀).2
  have hb' := h.below' (env.sample w x₀).1 (env.sample w x₀).2
  simp [Ev.map, hb, hb']

theorem start_map (h : Sim env env' φ g) {n : Nat} (hn : 0 < n) (w : W) (x : M) :
    start env' n w (φ x) = (start env n w x).map φ g := by
  obtain ⟨n, rfl⟩ : ∃ k, n = k + 1 := ⟨n - 1, by omega⟩
  unfold start
  rw [initLoop, initLoop, initStep_start h, initLoop_map h]
  simp [St.map, h.cbBegin, Ev.map]

theorem compete_map (h : Sim env env' φ g) (s : St W M E) (k : Nat) (x mu : M) :
    compete env' (s.map φ g) k (φ x) (φ mu) = ((compete env s k x mu).1.map φ g, (compete env s k x mu).2) := by
  simp only [compete, St.map, h.evaluate, h.cbEvaluate, h.cbStep, h.mono.lt_iff_lt]
  split_ifs <;> simp [Ev.map, List.map_set]

theorem drawL_map (h : Sim env env' φ g) (n member fuel : Nat) :
    ∀ w, drawL env' n member fuel w = drawL env n member fuel w := by
  induction fuel with
  | zero => intro w; rfl
  | succ f ih => intro w; simp only [drawL, h.randi, ih]

theorem drawM_map (h : Sim env env' φ g) (n member l fuel : Nat) :
    ∀ w, drawM env' n member l fuel w = drawM env n member l fuel w := by
  induction fuel with
  | zero => intro w; rfl
  | succ f ih => intro w; simp only [drawM, h.randi, ih]

theorem memberStep_map (h : Sim env env' φ g) (fuel n k : Nat) (s : St W M E) :
    memberStep env' fuel n k (s.map φ g) = (memberStep env fuel n k s).map fun r => (r.1.map φ g, r.2) := by
  unfold memberStep
  rw [show (s.map φ g).w = s.w from rfl, drawL_map h]
  cases drawL env n k fuel s.w with
  | none => rfl
  | some a =>
    obtain ⟨w1, l⟩ := a
    dsimp only
    rw [drawM_map h]
    cases drawM env n k l fuel w1 with
    | none => rfl
    | some b =>
      obtain ⟨w2, m⟩ := b
      dsimp only
      have hb : (s.map φ g).best = s.best.map φ := rfl
      have hp : (s.map φ g).pop = s.pop.map φ := rfl
      rw [hb, hp]
      simp only [List.getElem?_map]
      cases s.best with
      | none => rfl
      | some b =>
        cases s.pop[k]? with
        | none => rfl
        | some x =>
          cases s.pop[l]? with
          | none => rfl
          | some xl =>
            cases s.pop[m]? with
            | none => rfl
            | some xm =>
              simp only [Option.map_some, Except.map]
              rw [h.mutant, ← compete_map h]
              simp [St.map, Ev.map]

theorem memberLoop_map (h : Sim env env' φ g) (fuel n rem : Nat) :
    ∀ k (s : St W M E), memberLoop env' fuel n rem k (s.map φ g) = (memberLoop env fuel n rem k s).map (St.map φ g) := by
  induction rem with
  | zero => intro k s; rfl
  | succ rem ih =>
    intro k s
    rw [memberLoop, memberLoop, memberStep_map h]
    cases hm : memberStep env fuel n k s with
    | error e => rfl
    | ok r =>
      obtain ⟨s', b⟩ := r
      cases b with
      | true => rfl
      | false => exact ih _ _

theorem minFit_map (hg : StrictMono g) (inf : E) (fit : List E) :
    minFit (g inf) (fit.map g) = g (minFit inf fit) := by
  unfold minFit
  induction fit generalizing inf with
  | nil => rfl
  | cons v fit ih =>
    simp only [List.map_cons, List.foldl_cons, hg.lt_iff_lt]
    rw [← ih]
    split_ifs <;> rfl

theorem findBest_map (hg : StrictMono g) (last : E) :
    ∀ (pop : List M) (fit : List E), findBest (g last) (pop.map φ) (fit.map g) = (findBest last pop fit).map φ := by
  intro pop
  induction pop with
  | nil => intro fit; cases fit <;> rfl
  | cons p pop ih =>
    intro fit
    cases fit with
    | nil => rfl
    | cons v fit =>
      simp only [List.map_cons, findBest, hg.injective.eq_iff]
      split_ifs
      · rfl
      · exact ih fit

theorem genLoop_map (h : Sim env env' φ g) (fuel n rem : Nat) :
    ∀ s : St W M E, genLoop env' fuel n rem (s.map φ g)
      = (genLoop env fuel n rem s).map fun r => (r.1.map φ g, r.2) := by
  induction rem with
  | zero => intro s; rfl
  | succ rem ih =>
    intro s
    rw [genLoop, genLoop, memberLoop_map h]
    have ht : (s.map φ g).terminate = s.terminate := rfl
    rw [ht]
    by_cases hterm : s.terminate = true
    · rw [if_pos hterm, if_pos hterm]; rfl
    rw [if_neg hterm, if_neg hterm]
    cases memberLoop env fuel n n 0 s with
    | error e => rfl
    | ok s1 =>
      simp only [Except.map]
      have e1 : minFit env'.inf (s1.map φ g).fit = g (minFit env.inf s1.fit) := by
        rw [← h.inf]; exact minFit_map h.mono _ _
      have e2 : (s1.map φ g).last = g s1.last := rfl
      rw [e1, e2, h.isClose]
      by_cases hc : env.isClose s1.last (minFit env.inf s1.fit) = true
      · rw [if_pos hc, if_pos hc]
        simp [St.map, Ev.map]
      · rw [if_neg hc, if_neg hc]
        have := ih ⟨s1.w, s1.pop, s1.fit, (findBest (minFit env.inf s1.fit) s1.pop s1.fit).or s1.best,
          minFit env.inf s1.fit, s1.terminate, s1.trace ++ [.gen s1.pop s1.fit]⟩
        refine Eq.trans ?_ this
        congr 1
        have e3 := findBest_map (φ := φ) h.mono (minFit env.inf s1.fit) s1.pop s1.fit
        simp only [St.map, Ev.map, List.map_append, List.map_cons, List.map_nil, e3, Option.map_or]

theorem optimize_map (h : Sim env env' φ g) (n maxGen fuel : Nat) (w : W) (x : M) :
    optimize env' n maxGen fuel w (φ x) = (optimize env n maxGen fuel w x).map (Result.map φ g) := by
  unfold optimize
  by_cases hn : n < 3
  · rw [if_pos hn, if_pos hn]; rfl
  rw [if_neg hn, if_neg hn, start_map h (by omega), genLoop_map h]
  cases genLoop env fuel n maxGen (start env n w x) with
  | error e => rfl
  | ok r =>
    obtain ⟨s, tol⟩ := r
    simp only [Except.map, Result.map, St.map]
    cases s.best <;> simp [Ev.map]

end generic

/-! ### On column vectors -/

variable {d : Nat} {W : Type}

/-- What is drawn during a run: `randn` (line 76), `randi` (lines 103, 109), `randu` (line 118). -/
structure Draws (W : Type) (d : Nat) where
  normal : W → W × (Fin d → ℝ)
  randi : W → Nat → W × Nat
  uniform : W → W × (Fin d → ℝ)

open scoped Classical in
/-- DE with differential weight `F` and crossover rate `CR` on column vectors with `d` elements (for which line 118
draws one number per element), without callbacks. Objective values are extended reals; `dblMax` is `DBL_MAX`. -/
noncomputable def realEnv (draws : Draws W d) (F CR tol : ℝ) (dblMax : EReal) (f : (Fin d → ℝ) → EReal) :
    Env W (Fin d → ℝ) EReal where
  sample w x := ((draws.normal w).1, (draws.normal w).2 + x)
  evaluate w x := (w, f x)
  cbEvaluate w _ _ := (w, false)
  cbBegin w x := (w, x)
  cbStep w x := (w, x, false)
  randi := draws.randi
  mutant w b l m x :=
    ((draws.uniform w).1, fun i => if CR ≤ (draws.uniform w).2 i then x i else b i + F * (l i - m i))
  isClose a b := decide (((EReal.abs (a - b) : ENNReal) : EReal) < tol)
  dblMax := dblMax
  inf := ⊤

/-- **C272** Order. Replace the objective `f` by `g ∘ f` with a strictly increasing `g` that keeps infinity, all
values staying below `DBL_MAX`, in a run without tolerance test: with the same random numbers DE visits the same
populations, takes the same decisions and returns the same coordinates; the values of the objective are those of
`g ∘ f`. -/
theorem C272_order (draws : Draws W d) (F CR tol : ℝ) (htol : tol ≤ 0) (dblMax : EReal) (f : (Fin d → ℝ) → EReal)
    (g : EReal → EReal) (hg : StrictMono g) (htop : g ⊤ = ⊤) (hf : ∀ x, f x < dblMax) (hgf : ∀ x, g (f x) < dblMax)
    (n maxGen fuel : Nat) (w : W) (x : Fin d → ℝ) :
    optimize (realEnv draws F CR tol dblMax (g ∘ f)) n maxGen fuel w x
      = (optimize (realEnv draws F CR tol dblMax f) n maxGen fuel w x).map (Result.map id g) := by
  have hno : ∀ a b : EReal, ¬ ((EReal.abs (a - b) : ENNReal) : EReal) < (tol : EReal) := by
    intro a b hlt
    have h0 : (0 : EReal) ≤ ((EReal.abs (a - b) : ENNReal) : EReal) := EReal.coe_ennreal_nonneg _
    have h1 : (tol : EReal) ≤ 0 := by exact_mod_cast htol
    exact absurd (lt_of_lt_of_le hlt h1) (not_lt.2 h0)
  refine optimize_map (env := realEnv draws F CR tol dblMax f) (env' := realEnv draws F CR tol dblMax (g ∘ f)) (φ := id) ⟨hg, htop, fun _ _ => rfl, fun _ _ => rfl, fun _ _ _ => rfl, fun _ _ => rfl,
    fun _ _ => rfl, rfl, fun _ _ _ _ _ => rfl, ?_, fun _ x => hf x, fun _ x => hgf x⟩ n maxGen fuel w x
  intro a b
  simp only [realEnv, hno, decide_false]

/-- **C272** Origin. Start `t` further and evaluate the objective `t` further back: with the same random numbers
every population and the returned coordinates are moved by `t`, values and decisions are the same. -/
theorem C272_translation (draws : Draws W d) (F CR tol : ℝ) (dblMax : EReal) (f : (Fin d → ℝ) → EReal)
    (hf : ∀ x, f x < dblMax) (t : Fin d → ℝ) (n maxGen fuel : Nat) (w : W) (x : Fin d → ℝ) :
    optimize (realEnv draws F CR tol dblMax fun y => f (y - t)) n maxGen fuel w (x + t)
      = (optimize (realEnv draws F CR tol dblMax f) n maxGen fuel w x).map (Result.map (· + t) id) := by
  refine optimize_map (env := realEnv draws F CR tol dblMax f)
    (env' := realEnv draws F CR tol dblMax fun y => f (y - t)) (φ := (· + t)) (g := id) ⟨strictMono_id, rfl, ?_, ?_, fun _ _ _ => rfl, fun _ _ => rfl,
    fun _ _ => rfl, rfl, ?_, fun _ _ => rfl, fun _ x => hf x, fun _ x => hf x⟩ n maxGen fuel w x
  · intro w x; simp only [realEnv, add_assoc]
  · intro w x; simp [realEnv]
  · intro w b l m x
    simp only [realEnv, Prod.mk.injEq, true_and]
    funext i
    simp only [Pi.add_apply]
    split_ifs <;> ring

open scoped Classical in
/-- Non-vacuity: an objective with two values and an increasing map that changes them. -/
example : ∃ (f : (Fin 2 → ℝ) → EReal) (g : EReal → EReal) (dblMax : EReal),
    StrictMono g ∧ g ⊤ = ⊤ ∧ (∀ x, f x < dblMax) ∧ (∀ x, g (f x) < dblMax) ∧ f 0 ≠ f 1 ∧ g (f 0) ≠ f 0 := by
  refine ⟨fun x => ((if x 0 < 1 then 0 else 1 : ℝ) : EReal), fun v => v + ((1 : ℝ) : EReal), ((3 : ℝ) : EReal), ?_, rfl,
    fun x => ?_, fun x => ?_, ?_, ?_⟩
  · intro a b hab
    exact EReal.add_lt_add_right_coe hab 1
  · exact EReal.coe_lt_coe_iff.2 (by split_ifs <;> norm_num)
  · show ((_ : ℝ) : EReal) + ((1 : ℝ) : EReal) < _
    rw [← EReal.coe_add]
    exact EReal.coe_lt_coe_iff.2 (by split_ifs <;> norm_num)
  · intro h
    rw [EReal.coe_eq_coe_iff] at h
    norm_num at h
  · intro h
    dsimp only at h
    rw [← EReal.coe_add, EReal.coe_eq_coe_iff] at h
    norm_num at h

end Ens.De
