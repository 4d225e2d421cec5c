import Mathlib.Tactic.SplitIfs
import Verif.Sgd.Object

/-
Two runs of SGD that correspond under a change of coordinates (used for C283 and C284).
-/

namespace Ens.Sgd

variable {W W' M M' G G' E : Type}

/-- The environments correspond: worlds by `τ`, coordinates by `φ`, gradients by `γ`. -/
structure Sim (env : Env W M G E) (env' : Env W' M' G' E) (τ : W → W') (φ : M → M') (γ : G → G') : Prop where
  evalGrad : ∀ w x b k, env'.evalGrad (τ w) (φ x) b k =
    (τ (env.evalGrad w x b k).1, (env.evalGrad w x b k).2.1, γ (env.evalGrad w x b k).2.2)
  evaluate : ∀ w x b k, env'.evaluate (τ w) (φ x) b k = (τ (env.evaluate w x b k).1, (env.evaluate w x b k).2)
  shuffle : ∀ w, env'.shuffle (τ w) = τ (env.shuffle w)
  update : ∀ w x g, env'.update (τ w) (φ x) (γ g) = (τ (env.update w x g).1, φ (env.update w x g).2)
  decay : ∀ w x g, env'.decay (τ w) (φ x) (γ g) = (τ (env.decay w x g).1, φ (env.decay w x g).2)
  cbBegin : ∀ w x, env'.cbBegin (τ w) (φ x) = (τ (env.cbBegin w x).1, φ (env.cbBegin w x).2)
  cbBeginEpoch : ∀ w x n e, env'.cbBeginEpoch (τ w) (φ x) n e = (τ (env.cbBeginEpoch w x n e).1, (env.cbBeginEpoch w x n e).2)
  cbEvalGrad : ∀ w x e g, env'.cbEvalGrad (τ w) (φ x) e (γ g) =
    (τ (env.cbEvalGrad w x e g).1, γ (env.cbEvalGrad w x e g).2.1, (env.cbEvalGrad w x e g).2.2)
  cbStep : ∀ w x, env'.cbStep (τ w) (φ x) = (τ (env.cbStep w x).1, φ (env.cbStep w x).2.1, (env.cbStep w x).2.2)
  cbEndEpoch : ∀ w x n e, env'.cbEndEpoch (τ w) (φ x) n e = (τ (env.cbEndEpoch w x n e).1, (env.cbEndEpoch w x n e).2)
  cbEvaluate : ∀ w x e, env'.cbEvaluate (τ w) (φ x) e = (τ (env.cbEvaluate w x e).1, (env.cbEvaluate w x e).2)
  cbEnd : ∀ w x, env'.cbEnd (τ w) (φ x) = (τ (env.cbEnd w x).1, φ (env.cbEnd w x).2)
  add : env'.add = env.add
  zero : env'.zero = env.zero
  divN : env'.divN = env.divN
  dblMax : env'.dblMax = env.dblMax
  isBad : env'.isBad = env.isBad
  isClose : env'.isClose = env.isClose

/-- Events in the other coordinates. -/
def Ev.map (φ : M → M') : Ev M E → Ev M' E
  | .beginOpt x => .beginOpt (φ x)
  | .beginEpoch n e b => .beginEpoch n e b
  | .evalGrad x b k e => .evalGrad (φ x) b k e
  | .cbEvalGrad b => .cbEvalGrad b
  | .update x y => .update (φ x) (φ y)
  | .stepTaken b => .stepTaken b
  | .endEpoch n e b => .endEpoch n e b
  | .shuffle => .shuffle
  | .evaluate x b k e => .evaluate (φ x) b k e
  | .endOpt x => .endOpt (φ x)

def St.map (τ : W → W') (φ : M → M') (s : St W M E) : St W' M' E :=
  ⟨τ s.w, φ s.x, s.i, s.cur, s.epoch, s.overall, s.last, s.terminate, s.trace.map (Ev.map φ)⟩

def BodyRes.map (τ : W → W') (φ : M → M') : BodyRes W M E → BodyRes W' M' E
  | .cont s => .cont (s.map τ φ)
  | .ret e s => .ret e (s.map τ φ)
  | .ub => .ub

def LoopRes.map (τ : W → W') (φ : M → M') : LoopRes W M E → LoopRes W' M' E
  | .done e s => .done e (s.map τ φ)
  | .ub => .ub
  | .outOfFuel => .outOfFuel

/-- The result in the other coordinates: same exit, objective and number of calls. -/
def Result.map (τ : W → W') (φ : M → M') (r : Result W M E) : Result W' M' E :=
  ⟨r.exit, r.obj, φ r.x, r.trace.map (Ev.map φ), τ r.w⟩

def Outcome.map (τ : W → W') (φ : M → M') : Outcome W M E → Outcome W' M' E
  | .returned r => .returned (r.map τ φ)
  | .ub => .ub
  | .diverges => .diverges

variable {env : Env W M G E} {env' : Env W' M' G' E} {τ : W → W'} {φ : M → M'} {γ : G → G'}

theorem stepBatch_map (h : Sim env env' τ φ γ) (p : Params) (s : St W M E) :
    stepBatch env' p (s.map τ φ) = (stepBatch env p s).map τ φ := by
  have heff : effBatch p (s.map τ φ) = effBatch p s := rfl
  unfold stepBatch
  simp only [heff]
  simp only [St.map, h.evalGrad, h.cbEvalGrad, h.update, h.cbStep, h.decay, h.add, List.map_append, List.map_cons, List.map_nil, Ev.map]

theorem epochEnd_map (h : Sim env env' τ φ γ) (p : Params) (s : St W M E) :
    epochEnd env' p (s.map τ φ) = (epochEnd env p s).map τ φ := by
  unfold epochEnd
  simp only [St.map, h.cbEndEpoch, h.divN, h.isBad, h.isClose, h.cbBeginEpoch, h.zero, h.shuffle]
  split_ifs <;> simp only [BodyRes.map, St.map, List.map_append, List.map_cons, List.map_nil, Ev.map, h.shuffle]

theorem body_map (h : Sim env env' τ φ γ) (p : Params) (s : St W M E) :
    body env' p (s.map τ φ) = (body env p s).map τ φ := by
  unfold body
  by_cases h0 : p.numFunctions = 0
  · rw [if_pos h0, if_pos h0]
    rfl
  rw [if_neg h0, if_neg h0]
  simp only [stepBatch_map h]
  have hcur : ((stepBatch env p s).map τ φ).cur = (stepBatch env p s).cur := rfl
  rw [hcur]
  split_ifs
  · exact epochEnd_map h p _
  · rfl

theorem loop_map (h : Sim env env' τ φ γ) (p : Params) : ∀ (fuel : Nat) (s : St W M E),
    loop env' p fuel (s.map τ φ) = (loop env p fuel s).map τ φ
  | 0, s => by
    unfold loop
    have : ((s.map τ φ).i < p.actualMax ∧ (s.map τ φ).terminate = false) = (s.i < p.actualMax ∧ s.terminate = false) := rfl
    simp only [this]
    split_ifs <;> rfl
  | fuel + 1, s => by
    unfold loop
    have : ((s.map τ φ).i < p.actualMax ∧ (s.map τ φ).terminate = false) = (s.i < p.actualMax ∧ s.terminate = false) := rfl
    simp only [this]
    split_ifs
    · rw [body_map h]
      cases body env p s with
      | cont s' => exact loop_map h p fuel s'
      | ret e s' => rfl
      | ub => rfl
    · rfl

theorem start_map (h : Sim env env' τ φ γ) (w : W) (x : M) : start env' (τ w) (φ x) = (start env w x).map τ φ := by
  unfold start
  simp only [St.map, h.cbBegin, h.cbBeginEpoch, h.zero, h.dblMax, List.map_cons, List.map_nil, Ev.map]

theorem exactLoop_map (h : Sim env env' τ φ γ) (p : Params) : ∀ (fuel i : Nat) (s : St W M E),
    exactLoop env' p fuel i (s.map τ φ) = (exactLoop env p fuel i s).map (St.map τ φ)
  | 0, i, s => by
    unfold exactLoop
    split_ifs <;> rfl
  | fuel + 1, i, s => by
    unfold exactLoop
    split_ifs with hi
    · rw [← exactLoop_map h p fuel]
      congr 1
      simp only [St.map, h.evaluate, h.cbEvaluate, h.add, List.map_append, List.map_cons, List.map_nil, Ev.map]
    · rfl

theorem finish_map (h : Sim env env' τ φ γ) (e : Exit) (s : St W M E) :
    finish env' e (s.map τ φ) = (finish env e s).map τ φ := by
  unfold finish
  simp only [St.map, Result.map, h.cbEnd, List.map_append, List.map_cons, List.map_nil, Ev.map]

/-- Corresponding environments give corresponding runs. -/
theorem optimize_map (h : Sim env env' τ φ γ) (p : Params) (fuel : Nat) (w : W) (x : M) :
    optimize env' p fuel (τ w) (φ x) = (optimize env p fuel w x).map τ φ := by
  unfold optimize
  rw [start_map h, loop_map h]
  cases loop env p fuel (start env w x) with
  | ub => rfl
  | outOfFuel => rfl
  | done e s =>
    cases e with
    | bad => exact congrArg Outcome.returned (finish_map h _ _)
    | tol => exact congrArg Outcome.returned (finish_map h _ _)
    | loop =>
      simp only [LoopRes.map]
      split_ifs
      · have := exactLoop_map h p p.numFunctions 0 { s with overall := env.zero }
        have e : ({ s with overall := env.zero } : St W M E).map τ φ = { s.map τ φ with overall := env'.zero } := by
          rw [h.zero]; rfl
        rw [← e, this]
        cases exactLoop env p p.numFunctions 0 { s with overall := env.zero } with
        | none => rfl
        | some s' => exact congrArg Outcome.returned (finish_map h _ _)
      · exact congrArg Outcome.returned (finish_map h _ _)

/-! ### Objects -/

variable {U U' P D S V : Type}

/-- The objective functions and callbacks correspond. -/
structure UserSim (u : User V M G E) (u' : User V M' G' E) (φ : M → M') (γ : G → G') : Prop where
  evalGrad : ∀ v x b k, u'.evalGrad v (φ x) b k = ((u.evalGrad v x b k).1, (u.evalGrad v x b k).2.1, γ (u.evalGrad v x b k).2.2)
  evaluate : ∀ v x b k, u'.evaluate v (φ x) b k = u.evaluate v x b k
  shuffle : u'.shuffle = u.shuffle
  cbBegin : ∀ v x, u'.cbBegin v (φ x) = ((u.cbBegin v x).1, φ (u.cbBegin v x).2)
  cbBeginEpoch : ∀ v x n e, u'.cbBeginEpoch v (φ x) n e = u.cbBeginEpoch v x n e
  cbEvalGrad : ∀ v x e g, u'.cbEvalGrad v (φ x) e (γ g) =
    ((u.cbEvalGrad v x e g).1, γ (u.cbEvalGrad v x e g).2.1, (u.cbEvalGrad v x e g).2.2)
  cbStep : ∀ v x, u'.cbStep v (φ x) = ((u.cbStep v x).1, φ (u.cbStep v x).2.1, (u.cbStep v x).2.2)
  cbEndEpoch : ∀ v x n e, u'.cbEndEpoch v (φ x) n e = u.cbEndEpoch v x n e
  cbEvaluate : ∀ v x e, u'.cbEvaluate v (φ x) e = u.cbEvaluate v x e
  cbEnd : ∀ v x, u'.cbEnd v (φ x) = ((u.cbEnd v x).1, φ (u.cbEnd v x).2)
  add : u'.add = u.add
  zero : u'.zero = u.zero
  divN : u'.divN = u.divN
  dblMax : u'.dblMax = u.dblMax
  isBad : u'.isBad = u.isBad
  isClose : u'.isClose = u.isClose

/-- The update policy commutes with the change of coordinates; `ν` maps its state. -/
structure UpdSim (up : UpdPol U S M G) (up' : UpdPol U' S M' G') (ν : U → U') (φ : M → M') (γ : G → G') : Prop where
  fresh : ∀ x, up'.fresh (φ x) = ν (up.fresh x)
  upd : ∀ s x a g, up'.upd (ν s) (φ x) a (γ g) = (ν (up.upd s x a g).1, φ (up.upd s x a g).2)

/-- So does the decay policy. -/
structure DecSim (dp : DecPol P D S M G) (dp' : DecPol P D S M' G') (φ : M → M') (γ : G → G') : Prop where
  fresh : dp'.fresh = dp.fresh
  upd : ∀ q d a x g, dp'.upd q d a (φ x) (γ g) =
    ((dp.upd q d a x g).1, (dp.upd q d a x g).2.1, (dp.upd q d a x g).2.2.1, φ (dp.upd q d a x g).2.2.2)

def Live.map (ν : U → U') (l : Live U P D S) : Live U' P D S := ⟨l.step, l.parent, ν l.upd, l.dec⟩

def Obj.map (ν : U → U') (o : Obj U P D S) : Obj U' P D S := ⟨o.step, o.parent, o.isInit, o.upd.map ν, o.dec⟩

theorem mkEnv_sim {up : UpdPol U S M G} {up' : UpdPol U' S M' G'} {dp : DecPol P D S M G} {dp' : DecPol P D S M' G'}
    {u : User V M G E} {u' : User V M' G' E} {ν : U → U'} (hup : UpdSim up up' ν φ γ) (hdp : DecSim dp dp' φ γ)
    (hu : UserSim u u' φ γ) :
    Sim (mkEnv up dp u) (mkEnv up' dp' u') (fun w : Live U P D S × V => (w.1.map ν, w.2)) φ γ := by
  constructor
  · intro w x b k; simp only [mkEnv, hu.evalGrad]
  · intro w x b k; simp only [mkEnv, hu.evaluate]
  · intro w; simp only [mkEnv, hu.shuffle]
  · intro w x g; simp only [mkEnv, Live.map, hup.upd]
  · intro w x g; simp only [mkEnv, Live.map, hdp.upd]
  · intro w x; simp only [mkEnv, hu.cbBegin]
  · intro w x n e; simp only [mkEnv, hu.cbBeginEpoch]
  · intro w x e g; simp only [mkEnv, hu.cbEvalGrad]
  · intro w x; simp only [mkEnv, hu.cbStep]
  · intro w x n e; simp only [mkEnv, hu.cbEndEpoch]
  · intro w x e; simp only [mkEnv, hu.cbEvaluate]
  · intro w x; simp only [mkEnv, hu.cbEnd]
  · exact hu.add
  · exact hu.zero
  · exact hu.divN
  · exact hu.dblMax
  · exact hu.isBad
  · exact hu.isClose

theorem prologue_map {up : UpdPol U S M G} {up' : UpdPol U' S M' G'} {dp : DecPol P D S M G} {dp' : DecPol P D S M' G'} {ν : U → U'}
    (hup : UpdSim up up' ν φ γ) (hdp : DecSim dp dp' φ γ) (reset : Bool) (x : M) (o : Obj U P D S) :
    prologue up' dp' reset (φ x) (o.map ν) = (prologue up dp reset x o).map ν := by
  obtain ⟨step, parent, i, upd, dec⟩ := o
  cases i <;> cases upd <;> cases dec <;> cases reset <;>
    simp [prologue, Live.map, Obj.map, hup.fresh, hdp.fresh]

/-- Corresponding objects, functions and callbacks give corresponding runs of `Optimize`. -/
theorem optimizeObj_map {up : UpdPol U S M G} {up' : UpdPol U' S M' G'} {dp : DecPol P D S M G} {dp' : DecPol P D S M' G'}
    {u : User V M G E} {u' : User V M' G' E} {ν : U → U'} (hup : UpdSim up up' ν φ γ) (hdp : DecSim dp dp' φ γ)
    (hu : UserSim u u' φ γ) (p : Params) (reset : Bool) (fuel : Nat) (o : Obj U P D S) (v : V) (x : M) :
    optimizeObj up' dp' u' p reset fuel (o.map ν) v (φ x) =
      (optimizeObj up dp u p reset fuel o v x).map (fun w => (w.1.map ν, w.2)) φ := by
  unfold optimizeObj
  rw [prologue_map hup hdp]
  exact optimize_map (mkEnv_sim hup hdp hu) p fuel (prologue up dp reset x o, v) x

end Ens.Sgd
