import Verif.Adapter.Model

/-
Properties C56 and C128: what the synthesised methods return, when they exist, and which of the user's methods they use.
-/

namespace Ens.Adapter

variable {W X E G : Type}

/-- All methods the class declares agree on one objective and one gradient. -/
structure Consistent (c : Class) (u : User W X E G) (obj : X → E) (grad : X → G) : Prop where
  he : ∀ f, c.eval.has f = true → ∀ w x, (u.eval f w x).2 = obj x
  hg : ∀ f, c.grad.has f = true → ∀ w x g, (u.grad f w x g).2 = grad x
  hb : ∀ f, c.ewg.has f = true → ∀ w x g, (u.ewg f w x g).2 = (obj x, grad x)

def Plan.isEval (c : Class) : Plan → Bool
  | .evaluate f => c.eval.has f
  | .dropGradient (.ewg f) => c.ewg.has f
  | .dropGradient (.pair (.evaluate f) (.gradient g)) => c.eval.has f && c.grad.has g
  | _ => false

def Plan.isGrad (c : Class) : Plan → Bool
  | .gradient f => c.grad.has f
  | .dropObjective (.ewg f) => c.ewg.has f
  | .dropObjective (.pair (.evaluate f) (.gradient g)) => c.eval.has f && c.grad.has g
  | _ => false

def Plan.isEwg (c : Class) : Plan → Bool
  | .ewg f => c.ewg.has f
  | .pair e g => e.isEval c && g.isGrad c
  | _ => false

def okWith (p : Plan → Bool) : Res → Bool
  | .ok q => p q
  | _ => true

/-- Whatever the class declares, a call that compiles uses declared methods and has the right shape. -/
theorem call_shape : ∀ c : Class, okWith (Plan.isEval c) (call c .evaluate) = true ∧
    okWith (Plan.isGrad c) (call c .gradient) = true ∧ okWith (Plan.isEwg c) (call c .ewg) = true := by
  rintro ⟨e, g, b⟩
  cases e <;> cases g <;> cases b <;> decide

theorem isEval_run {c : Class} {u : User W X E G} {obj : X → E} {grad : X → G} (h : Consistent c u obj grad) {p : Plan}
    (hp : p.isEval c = true) (w : W) (x : X) (g : G) : (runPlan u p w x g).2 = (some (obj x), g) := by
  unfold Plan.isEval at hp
  split at hp
  · simp [runPlan, h.he _ hp w x]
  · simp [runPlan, h.hb _ hp w x]
  · simp only [Bool.and_eq_true] at hp
    simp [runPlan, h.he _ hp.1 w x]
  · cases hp

theorem isGrad_run {c : Class} {u : User W X E G} {obj : X → E} {grad : X → G} (h : Consistent c u obj grad) {p : Plan}
    (hp : p.isGrad c = true) (w : W) (x : X) (g : G) : (runPlan u p w x g).2 = (none, grad x) := by
  unfold Plan.isGrad at hp
  split at hp
  · simp [runPlan, h.hg _ hp w x]
  · simp [runPlan, h.hb _ hp w x]
  · simp only [Bool.and_eq_true] at hp
    simp [runPlan, h.hg _ hp.2]
  · cases hp

theorem isEwg_run {c : Class} {u : User W X E G} {obj : X → E} {grad : X → G} (h : Consistent c u obj grad) {p : Plan}
    (hp : p.isEwg c = true) (w : W) (x : X) (g : G) : (runPlan u p w x g).2 = (some (obj x), grad x) := by
  unfold Plan.isEwg at hp
  split at hp
  · simp [runPlan, h.hb _ hp w x]
  · rename_i e g'
    simp only [Bool.and_eq_true] at hp
    have he := isEval_run h hp.1 w x g
    have hg := isGrad_run h hp.2 (runPlan u e w x g).1 x g
    simp [runPlan, he, hg]
  · cases hp

/-- **C56** For every class whose declared methods agree on an objective and a gradient, every method of `Function` that
compiles returns that objective and writes that gradient (and `Evaluate` leaves the caller's gradient alone), from any
state. -/
theorem C56_values {c : Class} {u : User W X E G} {obj : X → E} {grad : X → G} (h : Consistent c u obj grad) (w : W) (x : X)
    (g : G) :
    (∀ p, call c .evaluate = .ok p → (runPlan u p w x g).2 = (some (obj x), g)) ∧
    (∀ p, call c .gradient = .ok p → (runPlan u p w x g).2.2 = grad x) ∧
    ∀ p, call c .ewg = .ok p → (runPlan u p w x g).2 = (some (obj x), grad x) := by
  obtain ⟨h1, h2, h3⟩ := call_shape c
  refine ⟨?_, ?_, ?_⟩
  · intro p hp
    rw [hp] at h1
    exact isEval_run h h1 w x g
  · intro p hp
    rw [hp] at h2
    rw [isGrad_run h h2 w x g]
  · intro p hp
    rw [hp] at h3
    exact isEwg_run h h3 w x g

/-- The call compiles. -/
def Res.isOk : Res → Bool
  | .ok _ => true
  | _ => false

/-- Not declared static. -/
def Decl.member (d : Decl) : Bool := !d.has .static

/-- **C56** For a class without static methods, `Evaluate` exists exactly when the user wrote `Evaluate` or
`EvaluateWithGradient`; `Gradient` exactly when the user wrote `Gradient` or `EvaluateWithGradient`; and
`EvaluateWithGradient` exactly when the user wrote it or both of the others. The same holds for a class with only static
methods. -/
theorem C56_available (c : Class)
    (h : (c.eval.member && c.grad.member && c.ewg.member) = true ∨
      ((c.eval == .static || c.eval == .absent) && (c.grad == .static || c.grad == .absent) &&
        (c.ewg == .static || c.ewg == .absent)) = true) :
    ((call c .evaluate).isOk = true ↔ c.eval.any = true ∨ c.ewg.any = true) ∧
    ((call c .gradient).isOk = true ↔ c.grad.any = true ∨ c.ewg.any = true) ∧
    ((call c .ewg).isOk = true ↔ c.ewg.any = true ∨ (c.eval.any = true ∧ c.grad.any = true)) := by
  obtain ⟨e, g, b⟩ := c
  revert h
  cases e <;> cases g <;> cases b <;> decide

/-- **C56** A class that declares every method in one and the same form has exactly its own methods called, each once:
`Evaluate` for `Evaluate`, and `Evaluate` then `Gradient` for a synthesised `EvaluateWithGradient`. -/
theorem C56_calls (f : Form) (d : Decl) (hd : d = (match f with | .nonconst => .nonconst | .const => .const | .static => .static)) :
    call ⟨d, d, .absent⟩ .evaluate = .ok (.evaluate f) ∧ call ⟨d, d, .absent⟩ .gradient = .ok (.gradient f) ∧
    call ⟨d, d, .absent⟩ .ewg = .ok (.pair (.evaluate f) (.gradient f)) ∧
    call ⟨.absent, .absent, d⟩ .evaluate = .ok (.dropGradient (.ewg f)) ∧
    call ⟨.absent, .absent, d⟩ .gradient = .ok (.dropObjective (.ewg f)) ∧
    call ⟨.absent, .absent, d⟩ .ewg = .ok (.ewg f) ∧
    call ⟨d, d, d⟩ .evaluate = .ok (.evaluate f) ∧ call ⟨d, d, d⟩ .gradient = .ok (.gradient f) ∧
    call ⟨d, d, d⟩ .ewg = .ok (.ewg f) := by
  subst hd
  cases f <;> decide

/-- The claim that a method the user wrote is the one that is called. -/
def Preferred : Prop := ∀ c : Class, (c.eval.member && c.grad.member && c.ewg.member) = true →
  (c.eval.any = true → ∀ p, call c .evaluate = .ok p → ∃ f, p = .evaluate f) ∧
  (c.grad.any = true → ∀ p, call c .gradient = .ok p → ∃ f, p = .gradient f) ∧
  (c.ewg.any = true → ∀ p, call c .ewg = .ok p → ∃ f, p = .ewg f)

/-- **C128** It is false: with a const `Evaluate` and a non-const `EvaluateWithGradient`, `Evaluate` on the optimizer's
non-const reference is the synthesised one, which computes the gradient and throws it away. -/
theorem C128_preferred_refuted : ¬ Preferred := by
  intro h
  obtain ⟨f, hf⟩ := (h ⟨.const, .absent, .nonconst⟩ rfl).1 rfl (.dropGradient (.ewg .nonconst)) (by decide)
  cases hf

/-- **C128** Likewise a const `EvaluateWithGradient` is not used when `Evaluate` or `Gradient` is non-const. -/
theorem C128_ewg_refuted : ¬ Preferred := by
  intro h
  obtain ⟨f, hf⟩ := (h ⟨.nonconst, .const, .const⟩ rfl).2.2 rfl (.pair (.evaluate .nonconst) (.gradient .const)) (by decide)
  cases hf

/-- The method and form that are called. -/
def usesOwn (c : Class) : Bool :=
  (!c.eval.any || match call c .evaluate with | .ok (.evaluate _) => true | _ => false) &&
  (!c.grad.any || match call c .gradient with | .ok (.gradient _) => true | _ => false) &&
  (!c.ewg.any || match call c .ewg with | .ok (.ewg _) => true | _ => false)

/-- **C128** (what does hold) If all methods of the class are const, or none is (among non-static ones), the user's own
methods are used whenever they exist. -/
theorem C128_preferred_partial (c : Class)
    (h : (∀ d, d ∈ [c.eval, c.grad, c.ewg] → d = .absent ∨ d = .const) ∨
      ∀ d, d ∈ [c.eval, c.grad, c.ewg] → d = .absent ∨ d = .nonconst ∨ d = .both) : usesOwn c = true := by
  obtain ⟨e, g, b⟩ := c
  revert h
  cases e <;> cases g <;> cases b <;> decide

/-- The claim that a class with all three methods compiles. -/
def Compiles : Prop := ∀ c : Class, c.eval.any = true → c.grad.any = true → (call c .ewg).isOk = true

/-- **C128** A static method next to a non-static `EvaluateWithGradient` makes calls ambiguous: static `Evaluate` and
`Gradient` next to a const `EvaluateWithGradient`. -/
theorem C128_static_refuted : ¬ Compiles := by
  intro h
  have := h ⟨.static, .static, .const⟩ rfl rfl
  revert this
  decide

/-- A user class with counters: only `EvaluateWithGradient`, non-const. -/
example : Consistent (c := ⟨.absent, .absent, .nonconst⟩)
    (u := (⟨fun _ w _ => (w, 0), fun _ w _ g => (w, g), fun _ w x _ => (w + 1, x * x, 2 * x), 0⟩ : User Nat Int Int Int))
    (fun x => x * x) (fun x => 2 * x) :=
  ⟨(fun f h => by cases f <;> simp [Decl.has] at h), (fun f h => by cases f <;> simp [Decl.has] at h), fun _ _ _ _ _ => rfl⟩

end Ens.Adapter
