import Verif.Adapter.Props

/-
The compile-time checks of a user's class (`function/static_checks.hpp`) and the methods the optimizers call on it. Which
form a method must have is given by `TypedForms` (`function/traits.hpp:51-290`); a method whose parameters or result differ
from the required form is not seen and so counts as absent here.

Not modelled: `ENS_DISABLE_TYPE_CHECKS`, the checks on element types (`RequireFloatingPointType` and the like), and methods
that callbacks call.
-/

namespace Ens.Adapter

/-- The methods `static_checks.hpp:28-273` looks for. -/
inductive Method where
  | evaluate
  | gradient
  | ewg
  | sepEvaluate
  | sepGradient
  | sepEwg
  | numFunctions
  | shuffle
  | numConstraints
  | evaluateConstraint
  | gradientConstraint
  | sparseGradient
  | numFeatures
  | partialGradient
deriving DecidableEq, Repr

/-- A user's class. -/
structure UserClass where
  /-- `Evaluate(x)`, `Gradient(x, g)`, `EvaluateWithGradient(x, g)`. -/
  full : Class := ⟨.absent, .absent, .absent⟩
  /-- `Evaluate(x, i, b)`, `Gradient(x, i, g, b)`, `EvaluateWithGradient(x, i, g, b)`. -/
  sep : Class := ⟨.absent, .absent, .absent⟩
  numFunctions : Decl := .absent
  shuffle : Decl := .absent
  numConstraints : Decl := .absent
  evaluateConstraint : Decl := .absent
  gradientConstraint : Decl := .absent
  /-- `Gradient(x, i, g, b)` with a sparse `g`. -/
  sparseGradient : Decl := .absent
  numFeatures : Decl := .absent
  /-- `PartialGradient(x, j, g)`. -/
  partialGradient : Decl := .absent
  /-- `Gradient(x, j, g)`: what `doc/function_types.md:290-299` asks for in place of `PartialGradient`. -/
  gradient3 : Decl := .absent
deriving DecidableEq, Repr

/-- The declarations of a method in the user's class itself. -/
def UserClass.decl (c : UserClass) : Method → Decl
  | .evaluate => c.full.eval
  | .gradient => c.full.grad
  | .ewg => c.full.ewg
  | .sepEvaluate => c.sep.eval
  | .sepGradient => c.sep.grad
  | .sepEwg => c.sep.ewg
  | .numFunctions => c.numFunctions
  | .shuffle => c.shuffle
  | .numConstraints => c.numConstraints
  | .evaluateConstraint => c.evaluateConstraint
  | .gradientConstraint => c.gradientConstraint
  | .sparseGradient => c.sparseGradient
  | .numFeatures => c.numFeatures
  | .partialGradient => c.partialGradient

/-- Whether a type has a method in a form: the user's class (`wrapped = false`), or `Function<...>` around it, whose three
methods of each kind are the ones of the mixins and hide those of the user (`function.hpp:81-108`). -/
def UserClass.sees (c : UserClass) (wrapped : Bool) (m : Method) (f : Form) : Bool :=
  if wrapped then
    match m with
    | .evaluate => overload c.full .evaluate f
    | .gradient => overload c.full .gradient f
    | .ewg => overload c.full .ewg f
    | .sepEvaluate => overload c.sep .evaluate f
    | .sepGradient => overload c.sep .gradient f
    | .sepEwg => overload c.sep .ewg f
    | m => (c.decl m).has f
  else (c.decl m).has f

/-- `CheckEvaluate`, `CheckGradient`, ...: `static_checks.hpp:28-273`. -/
def UserClass.check (c : UserClass) (wrapped : Bool) (m : Method) : Bool :=
  c.sees wrapped m .nonconst || c.sees wrapped m .const || c.sees wrapped m .static

/-- The families of requirements. -/
inductive Api where
  | function
  | separable
  | sparse
  | arbitrary
  | resolvable
  | constrained
  | arbitrarySeparable
deriving DecidableEq, Repr

/-- What `Check...TypeAPI` asserts: `static_checks.hpp:278-491`. -/
def Api.methods : Api → List Method
  | .function => [.evaluate, .gradient, .ewg]
  | .separable => [.sepEvaluate, .sepGradient, .sepEwg, .numFunctions, .shuffle]
  | .sparse => [.numFunctions, .sepEvaluate, .sparseGradient]
  | .arbitrary => [.evaluate]
  | .resolvable => [.numFeatures, .evaluate, .partialGradient]
  | .constrained => [.evaluate, .gradient, .numConstraints, .evaluateConstraint, .gradientConstraint]
  | .arbitrarySeparable => [.sepEvaluate]

/-- The optimizers. `sgd` stands for all optimizers that run `SGD` on the function they are given (Adam and so on);
`lookahead` for `Lookahead` around one of these; `popCmaes` for IPOP and BIPOP. -/
inductive Optimizer where
  | sgd
  | sgdr
  | snapshotSgdr
  | bigBatch
  | eve
  | spalera
  | lookahead
  | svrg
  | sarah
  | katyusha
  | iqn
  | lbfgs
  | gradientDescent
  | frankWolfe
  | sa
  | cne
  | de
  | pso
  | spsa
  | gridSearch
  | nsga2
  | moead
  | agemoea
  | cmaes
  | activeCmaes
  | popCmaes
  | parallelSgd
  | cd
  | augLagrangian
deriving DecidableEq, Repr

/-- The checks of an optimizer, with the type they are applied to. -/
def Optimizer.checks : Optimizer → List (Bool × Api)
  -- sgd_impl.hpp:85-86 (sgdr_impl.hpp and snapshot_sgdr_impl.hpp have none of their own)
  | .sgd | .sgdr | .snapshotSgdr => [(true, .separable)]
  -- bigbatch_sgd_impl.hpp:70-71, eve_impl.hpp:68-69, spalera_sgd_impl.hpp:77-78, lookahead_impl.hpp:97-98
  | .bigBatch | .eve | .spalera | .lookahead => [(true, .separable)]
  -- svrg_impl.hpp:74-75, sarah_impl.hpp:64-65, katyusha_impl.hpp:60-61: the user's class, not `FullFunctionType`
  | .svrg | .sarah | .katyusha => [(false, .separable)]
  -- iqn_impl.hpp:55-56, 61-62
  | .iqn => [(true, .separable), (false, .separable)]
  -- lbfgs_impl.hpp:366, gradient_descent_impl.hpp:53, frank_wolfe_impl.hpp:60
  | .lbfgs | .gradientDescent | .frankWolfe => [(true, .function)]
  -- sa_impl.hpp:58, cne_impl.hpp:52, de_impl.hpp:53, pso_impl.hpp:56, spsa_impl.hpp:51, grid_search_impl.hpp:73,
  -- nsga2_impl.hpp:86, moead_impl.hpp:105, agemoea_impl.hpp:85
  | .sa | .cne | .de | .pso | .spsa | .gridSearch | .nsga2 | .moead | .agemoea => [(false, .arbitrary)]
  -- cmaes_impl.hpp:83-84, active_cmaes_impl.hpp:84-85
  | .cmaes | .activeCmaes | .popCmaes => [(false, .arbitrarySeparable)]
  -- parallel_sgd_impl.hpp:79-80
  | .parallelSgd => [(false, .sparse)]
  -- cd_impl.hpp:55-56
  | .cd => [(false, .resolvable)]
  -- aug_lagrangian_impl.hpp:97-98
  | .augLagrangian => [(false, .constrained)]

/-- The calls of an optimizer, with the type of the object they are made on. -/
def Optimizer.calls : Optimizer → List (Bool × Method)
  -- sgd_impl.hpp:94, 145, 205, 222
  | .sgd => [(true, .numFunctions), (true, .sepEwg), (true, .shuffle), (true, .sepEvaluate)]
  -- sgdr_impl.hpp:66, 76
  | .sgdr => [(false, .numFunctions), (true, .numFunctions), (true, .sepEwg), (true, .shuffle), (true, .sepEvaluate)]
  -- snapshot_sgdr_impl.hpp:74, 84, 108-111
  | .snapshotSgdr => [(false, .numFunctions), (true, .numFunctions), (true, .sepEwg), (true, .shuffle), (true, .sepEvaluate),
      (false, .sepEvaluate)]
  -- bigbatch_sgd_impl.hpp:89, 125, 205, 256, and the update policies
  | .bigBatch => [(true, .numFunctions), (true, .sepGradient), (true, .sepEvaluate), (true, .shuffle)]
  -- eve_impl.hpp:77, 120, 198, 212
  | .eve => [(true, .numFunctions), (true, .sepEwg), (true, .shuffle), (true, .sepEvaluate)]
  -- spalera_sgd_impl.hpp:93, 110, 157, 227
  | .spalera => [(true, .numFunctions), (true, .sepEvaluate), (true, .sepEwg), (true, .shuffle)]
  -- lookahead_impl.hpp:186, 198; the calls of the inner optimizer are in `innerCalls`
  | .lookahead => [(true, .numFunctions), (true, .sepEvaluate)]
  -- svrg_impl.hpp:88, 140, 174, 210; sarah_impl.hpp:73, 102, 133, 168; iqn_impl.hpp:65, 99, 173
  | .svrg | .sarah => [(true, .numFunctions), (true, .sepEvaluate), (true, .sepGradient), (true, .shuffle)]
  | .iqn => [(true, .numFunctions), (true, .sepGradient), (true, .sepEvaluate)]
  -- katyusha_impl.hpp:72, 123, 154, 187
  | .katyusha => [(false, .numFunctions), (false, .sepEvaluate), (false, .sepGradient), (false, .shuffle)]
  -- lbfgs_impl.hpp:269, 400; gradient_descent_impl.hpp:72
  | .lbfgs | .gradientDescent => [(true, .ewg)]
  -- frank_wolfe_impl.hpp:81, update_span.hpp:71, atoms.hpp:94
  | .frankWolfe => [(true, .ewg), (true, .evaluate), (true, .gradient)]
  -- sa_impl.hpp:70, cne_impl.hpp:113, de_impl.hpp:78, pso_impl.hpp:109, spsa_impl.hpp:102, grid_search_impl.hpp:86, and the
  -- evaluation of each objective in nsga2, moead, agemoea
  | .sa | .cne | .de | .pso | .spsa | .gridSearch | .nsga2 | .moead | .agemoea => [(false, .evaluate)]
  -- cmaes_impl.hpp:90, 147, full_selection.hpp:42-48; active_cmaes_impl.hpp:91, 141; pop_cmaes_impl.hpp runs these
  | .cmaes | .activeCmaes | .popCmaes => [(false, .numFunctions), (false, .sepEvaluate)]
  -- parallel_sgd_impl.hpp:96, 107, 164
  | .parallelSgd => [(false, .numFunctions), (false, .evaluate), (false, .sparseGradient)]
  -- cd_impl.hpp:79, 93, cyclic_descent.hpp:54
  | .cd => [(false, .partialGradient), (false, .evaluate), (false, .numFeatures)]
  -- aug_lagrangian_impl.hpp:109-119, aug_lagrangian_function_impl.hpp:59-93
  | .augLagrangian => [(false, .evaluate), (false, .gradient), (false, .numConstraints), (false, .evaluateConstraint),
      (false, .gradientConstraint)]

/-- The outcome of a call on a non-const reference. -/
def UserClass.resolve (c : UserClass) (wrapped : Bool) (m : Method) : Bool :=
  if wrapped then
    match m with
    | .evaluate => (call c.full .evaluate).isOk
    | .gradient => (call c.full .gradient).isOk
    | .ewg => (call c.full .ewg).isOk
    | .sepEvaluate => (call c.sep .evaluate).isOk
    | .sepGradient => (call c.sep .gradient).isOk
    | .sepEwg => (call c.sep .ewg).isOk
    | m => (c.decl m).any
  else (c.decl m).any

/-- All checks of the optimizer pass. -/
def UserClass.accepted (c : UserClass) (o : Optimizer) : Bool :=
  o.checks.all fun k => k.2.methods.all (c.check k.1)

/-- Overloads as declarations. -/
def Decl.ofForms (n k s : Bool) : Decl :=
  if n && k then .both else if n then .nonconst else if k then .const else if s then .static else .absent

/-- The three methods of `Function<...>` as the declarations of a class. -/
def Class.wrap (c : Class) : Class where
  eval := .ofForms (overload c .evaluate .nonconst) (overload c .evaluate .const) (overload c .evaluate .static)
  grad := .ofForms (overload c .gradient .nonconst) (overload c .gradient .const) (overload c .gradient .static)
  ewg := .ofForms (overload c .ewg .nonconst) (overload c .ewg .const) (overload c .ewg .static)

/-- The class `Lookahead` passes on to its base optimizer is `Function<...>` itself (`lookahead_impl.hpp:143-144`). -/
def UserClass.wrap (c : UserClass) : UserClass := { c with full := c.full.wrap, sep := c.sep.wrap }

/-- The call `Optimize(function, iterate)` compiles: the checks pass and every method called exists. -/
def UserClass.compiles (c : UserClass) (o : Optimizer) : Bool :=
  c.accepted o && (o.calls.all fun k => c.resolve k.1 k.2) &&
    (if o = .lookahead then c.wrap.accepted .sgd && (Optimizer.sgd.calls.all fun k => c.wrap.resolve k.1 k.2) else true)

/-! ### Kinds of functions in the documentation -/

/-- `Evaluate` and `Gradient`, or `EvaluateWithGradient` (`doc/function_types.md:120-122, 548-550`). -/
def Class.differentiable (c : Class) : Bool := (c.eval.any && c.grad.any) || c.ewg.any

/-- All declarations are non-static, or all static. -/
def Class.plain (c : Class) : Bool :=
  (c.eval.member && c.grad.member && c.ewg.member) ||
    ((c.eval == .static || c.eval == .absent) && (c.grad == .static || c.grad == .absent) &&
      (c.ewg == .static || c.ewg == .absent))

theorem available {c : Class} (h : c.plain = true) :
    ((call c .evaluate).isOk = (c.eval.any || c.ewg.any)) ∧
    ((call c .gradient).isOk = (c.grad.any || c.ewg.any)) ∧
    ((call c .ewg).isOk = c.differentiable) := by
  obtain ⟨e, g, b⟩ := c
  revert h
  cases e <;> cases g <;> cases b <;> decide

theorem overloads (c : Class) :
    ((overload c .evaluate .nonconst || overload c .evaluate .const || overload c .evaluate .static) =
      (c.eval.any || c.ewg.any)) ∧
    ((overload c .gradient .nonconst || overload c .gradient .const || overload c .gradient .static) =
      (c.grad.any || c.ewg.any)) ∧
    ((overload c .ewg .nonconst || overload c .ewg .const || overload c .ewg .static) = c.differentiable) := by
  obtain ⟨e, g, b⟩ := c
  cases e <;> cases g <;> cases b <;> decide

theorem wrap_plain {c : Class} (h : c.plain = true) : c.wrap.plain = true ∧
    c.wrap.eval.any = (c.eval.any || c.ewg.any) ∧ c.wrap.grad.any = (c.grad.any || c.ewg.any) ∧
    c.wrap.ewg.any = c.differentiable := by
  obtain ⟨e, g, b⟩ := c
  revert h
  cases e <;> cases g <;> cases b <;> decide

theorem check_raw (c : UserClass) (m : Method) : c.check false m = (c.decl m).any := by
  simp [UserClass.check, UserClass.sees, Decl.any]

/-- **C246** Optimizers of differentiable functions: `Optimize` compiles exactly if the class has `Evaluate` and `Gradient`, or
`EvaluateWithGradient`. -/
theorem C246_differentiable (c : UserClass) (h : c.full.plain = true) (o : Optimizer)
    (ho : o ∈ [Optimizer.lbfgs, .gradientDescent, .frankWolfe]) : c.compiles o = c.full.differentiable := by
  obtain ⟨a1, a2, a3⟩ := available h
  obtain ⟨o1, o2, o3⟩ := overloads c.full
  simp only [List.mem_cons, List.not_mem_nil, or_false] at ho
  rcases ho with rfl | rfl | rfl <;>
    simp [UserClass.compiles, UserClass.accepted, Optimizer.checks, Optimizer.calls, Api.methods, UserClass.check,
      UserClass.sees, UserClass.resolve, a1, a2, a3, o1, o2, o3] <;>
    (try simp only [Class.differentiable]) <;> cases c.full.eval.any <;> cases c.full.grad.any <;> cases c.full.ewg.any <;> first | rfl | simp

/-- **C246** Optimizers of differentiable separable functions: `Optimize` compiles exactly if the class has `Evaluate` and
`Gradient`, or `EvaluateWithGradient`, and `NumFunctions` and `Shuffle`. -/
theorem C246_separable_partial (c : UserClass) (h : c.sep.plain = true) (o : Optimizer)
    (ho : o ∈ [Optimizer.sgd, .sgdr, .bigBatch, .eve, .spalera, .lookahead]) :
    c.compiles o = (c.sep.differentiable && c.numFunctions.any && c.shuffle.any) := by
  obtain ⟨a1, a2, a3⟩ := available h
  obtain ⟨o1, o2, o3⟩ := overloads c.sep
  obtain ⟨w0, w1, w2, w3⟩ := wrap_plain h
  obtain ⟨b1, b2, b3⟩ := available w0
  obtain ⟨p1, p2, p3⟩ := overloads c.sep.wrap
  have hk : ∀ d : Decl, (d.has .nonconst || d.has .const || d.has .static) = d.any := fun d => rfl
  have hd : c.sep.wrap.differentiable = c.sep.differentiable := by
    unfold Class.differentiable at *
    rw [w1, w2, w3]
    cases c.sep.eval.any <;> cases c.sep.grad.any <;> cases c.sep.ewg.any <;> first | rfl | simp
  simp only [List.mem_cons, List.not_mem_nil, or_false] at ho
  rcases ho with rfl | rfl | rfl | rfl | rfl | rfl <;>
    simp [UserClass.compiles, UserClass.accepted, Optimizer.checks, Optimizer.calls, Api.methods, UserClass.check,
      UserClass.sees, UserClass.resolve, UserClass.decl, UserClass.wrap, hk, a1, a2, a3, o1, o2, o3, b1, b2, b3, p1, p2, p3,
      hd, w1, w2, w3] <;>
    (try simp only [Class.differentiable]) <;> cases c.sep.eval.any <;> cases c.sep.grad.any <;> cases c.sep.ewg.any <;>
    cases c.numFunctions.any <;> cases c.shuffle.any <;> first | rfl | simp

/-- **C246** The variance-reduced optimizers and IQN need all three methods in the class itself. -/
theorem C246_raw_checks (c : UserClass) (h : c.sep.plain = true) (o : Optimizer)
    (ho : o ∈ [Optimizer.svrg, .sarah, .katyusha, .iqn]) :
    c.compiles o = (c.sep.eval.any && c.sep.grad.any && c.sep.ewg.any && c.numFunctions.any && c.shuffle.any) := by
  obtain ⟨a1, a2, a3⟩ := available h
  obtain ⟨o1, o2, o3⟩ := overloads c.sep
  have hk : ∀ d : Decl, (d.has .nonconst || d.has .const || d.has .static) = d.any := fun d => rfl
  simp only [List.mem_cons, List.not_mem_nil, or_false] at ho
  rcases ho with rfl | rfl | rfl | rfl <;>
    simp [UserClass.compiles, UserClass.accepted, Optimizer.checks, Optimizer.calls, Api.methods, UserClass.check,
      UserClass.sees, UserClass.resolve, UserClass.decl, hk, a1, a2, a3, o1, o2, o3] <;>
    (try simp only [Class.differentiable]) <;> cases c.sep.eval.any <;> cases c.sep.grad.any <;> cases c.sep.ewg.any <;>
    cases c.numFunctions.any <;> cases c.shuffle.any <;> first | rfl | simp

/-- **C246** Snapshot SGDR needs a separable `Evaluate` in the class itself. -/
theorem C246_snapshot (c : UserClass) (h : c.sep.plain = true) :
    c.compiles .snapshotSgdr =
      (c.sep.eval.any && (c.sep.grad.any || c.sep.ewg.any) && c.numFunctions.any && c.shuffle.any) := by
  obtain ⟨a1, a2, a3⟩ := available h
  obtain ⟨o1, o2, o3⟩ := overloads c.sep
  have hk : ∀ d : Decl, (d.has .nonconst || d.has .const || d.has .static) = d.any := fun d => rfl
  simp [UserClass.compiles, UserClass.accepted, Optimizer.checks, Optimizer.calls, Api.methods, UserClass.check,
      UserClass.sees, UserClass.resolve, UserClass.decl, hk, a1, a2, a3, o1, o2, o3] <;>
    (try simp only [Class.differentiable]) <;> cases c.sep.eval.any <;> cases c.sep.grad.any <;> cases c.sep.ewg.any <;>
    cases c.numFunctions.any <;> cases c.shuffle.any <;> first | rfl | simp

/-- **C246** The other optimizers: exactly the methods the class itself must have. -/
theorem C246_others (c : UserClass) :
    (∀ o ∈ [Optimizer.sa, .cne, .de, .pso, .spsa, .gridSearch, .nsga2, .moead, .agemoea],
      c.compiles o = c.full.eval.any) ∧
    (∀ o ∈ [Optimizer.cmaes, .activeCmaes, .popCmaes], c.compiles o = (c.sep.eval.any && c.numFunctions.any)) ∧
    c.compiles .parallelSgd =
      (c.sep.eval.any && c.full.eval.any && c.sparseGradient.any && c.numFunctions.any) ∧
    c.compiles .cd = (c.full.eval.any && c.partialGradient.any && c.numFeatures.any) ∧
    c.compiles .augLagrangian = (c.full.eval.any && c.full.grad.any && c.numConstraints.any &&
      c.evaluateConstraint.any && c.gradientConstraint.any) := by
  refine ⟨?_, ?_, ?_, ?_, ?_⟩
  · intro o ho
    simp only [List.mem_cons, List.not_mem_nil, or_false] at ho
    rcases ho with rfl | rfl | rfl | rfl | rfl | rfl | rfl | rfl | rfl <;>
      simp [UserClass.compiles, UserClass.accepted, Optimizer.checks, Optimizer.calls, Api.methods, check_raw,
        UserClass.resolve, UserClass.decl]
  · intro o ho
    simp only [List.mem_cons, List.not_mem_nil, or_false] at ho
    rcases ho with rfl | rfl | rfl <;>
      simp [UserClass.compiles, UserClass.accepted, Optimizer.checks, Optimizer.calls, Api.methods, check_raw,
        UserClass.resolve, UserClass.decl] <;>
      cases c.sep.eval.any <;> cases c.numFunctions.any <;> first | rfl | simp
  all_goals
    simp [UserClass.compiles, UserClass.accepted, Optimizer.checks, Optimizer.calls, Api.methods, check_raw,
        UserClass.resolve, UserClass.decl]
  · cases c.sep.eval.any <;> cases c.full.eval.any <;> cases c.sparseGradient.any <;> cases c.numFunctions.any <;> first | rfl | simp
  · cases c.full.eval.any <;> cases c.partialGradient.any <;> cases c.numFeatures.any <;> first | rfl | simp
  · cases c.full.eval.any <;> cases c.full.grad.any <;> cases c.numConstraints.any <;> cases c.evaluateConstraint.any <;>
      cases c.gradientConstraint.any <;> first | rfl | simp

/-- The example of the documentation (`doc/function_types.md:613-690`): only `EvaluateWithGradient`, `Shuffle` and
`NumFunctions`. -/
def docExample : UserClass :=
  { sep := ⟨.absent, .absent, .nonconst⟩, numFunctions := .nonconst, shuffle := .nonconst }

/-- A class with `Evaluate` and `Gradient`. -/
def pairExample : UserClass :=
  { sep := ⟨.const, .const, .absent⟩, numFunctions := .const, shuffle := .nonconst }

example : docExample.sep.plain = true ∧ docExample.compiles .sgd = true ∧ docExample.compiles .lookahead = true ∧
    pairExample.compiles .eve = true ∧ pairExample.compiles .snapshotSgdr = true := by decide

/-- The optimizers the documentation lists for differentiable separable functions (`doc/function_types.md:560-593`). -/
def listed : List Optimizer :=
  [.sgd, .bigBatch, .eve, .iqn, .katyusha, .lookahead, .sarah, .sgdr, .snapshotSgdr, .spalera, .svrg]

/-- The claim that either `Evaluate` and `Gradient` or `EvaluateWithGradient` is enough for all of them. -/
def EitherIsEnough : Prop := ∀ o ∈ listed, ∀ c : UserClass, c.sep.plain = true → c.sep.differentiable = true →
  c.numFunctions.any = true → c.shuffle.any = true → c.compiles o = true

/-- **C246** False: SVRG, SARAH, Katyusha and IQN reject both classes, and Snapshot SGDR the one with
`EvaluateWithGradient` only. -/
theorem C246_either_refuted : ¬ EitherIsEnough ∧
    (∀ o ∈ [Optimizer.svrg, .sarah, .katyusha, .iqn], docExample.compiles o = false ∧ pairExample.compiles o = false) ∧
    docExample.compiles .snapshotSgdr = false := by
  refine ⟨fun h => ?_, by decide, by decide⟩
  have := h .svrg (by decide) docExample (by decide) (by decide) (by decide) (by decide)
  revert this
  decide

/-- **C246** "Any optimizer for arbitrary functions" takes a differentiable function
(`doc/function_types.md:136`): false for a class that has only `EvaluateWithGradient`. -/
theorem C246_arbitrary_refuted : ¬ ∀ o ∈ [Optimizer.sa, .cne, .de, .pso, .spsa], ∀ c : UserClass,
    c.full.plain = true → c.full.differentiable = true → c.compiles o = true := by
  intro h
  have := h .sa (by decide) { full := ⟨.absent, .absent, .nonconst⟩ } (by decide) (by decide)
  revert this
  decide

/-- **C246** The method documented for coordinate descent, `Gradient(x, j, g)`, is not the one it looks for. -/
theorem C246_partial_gradient_refuted : ¬ ∀ c : UserClass, c.full.eval.any = true → c.full.grad.any = true →
    c.gradient3.any = true → c.numFeatures.any = true → c.compiles .cd = true := by
  intro h
  have := h { full := ⟨.const, .const, .absent⟩, gradient3 := .const, numFeatures := .const } rfl rfl rfl rfl
  revert this
  decide

/-- **C246** A sparse separable function as documented (`doc/function_types.md:697-741`) has no `Evaluate(x)`, which
`ParallelSGD` calls. -/
theorem C246_sparse_refuted : ¬ ∀ c : UserClass, c.sep.plain = true → c.sep.differentiable = true →
    c.sparseGradient.any = true → c.numFunctions.any = true → c.shuffle.any = true → c.compiles .parallelSgd = true := by
  intro h
  have := h { sep := ⟨.const, .const, .const⟩, sparseGradient := .const, numFunctions := .const, shuffle := .nonconst }
    (by decide) (by decide) rfl rfl rfl
  revert this
  decide

/-! ### What acceptance guarantees -/

/-- Every call of the optimizer itself finds its method. -/
def UserClass.callsExist (c : UserClass) (o : Optimizer) : Bool := o.calls.all fun k => c.resolve k.1 k.2

/-- **C247** For a class whose methods are all non-static or all static, passing the checks of an optimizer means that every
method it calls exists - except for CMA-ES, ParallelSGD and Snapshot SGDR. -/
theorem C247_accepted_partial (c : UserClass) (hf : c.full.plain = true) (hs : c.sep.plain = true) (o : Optimizer)
    (ho : o ∉ [Optimizer.cmaes, .activeCmaes, .popCmaes, .parallelSgd, .snapshotSgdr]) (h : c.accepted o = true) :
    c.callsExist o = true := by
  obtain ⟨a1, a2, a3⟩ := available hf
  obtain ⟨o1, o2, o3⟩ := overloads c.full
  obtain ⟨b1, b2, b3⟩ := available hs
  obtain ⟨p1, p2, p3⟩ := overloads c.sep
  have hk : ∀ d : Decl, (d.has .nonconst || d.has .const || d.has .static) = d.any := fun d => rfl
  revert h ho
  cases o <;>
    simp [UserClass.callsExist, UserClass.accepted, Optimizer.checks, Optimizer.calls, Api.methods, UserClass.check,
      UserClass.sees, UserClass.resolve, UserClass.decl, hk, a1, a2, a3, o1, o2, o3, b1, b2, b3, p1, p2, p3] <;>
    grind

/-- The claim for all optimizers. -/
def AcceptedCompiles : Prop := ∀ (o : Optimizer) (c : UserClass), c.full.plain = true → c.sep.plain = true →
  c.accepted o = true → c.callsExist o = true

/-- **C247** False: CMA-ES accepts a class without `NumFunctions`, ParallelSGD one without `Evaluate(x)`, Snapshot SGDR one
with `EvaluateWithGradient` only. -/
theorem C247_accepted_refuted : ¬ AcceptedCompiles ∧
    (∃ c : UserClass, c.accepted .cmaes = true ∧ c.callsExist .cmaes = false) ∧
    (∃ c : UserClass, c.accepted .parallelSgd = true ∧ c.callsExist .parallelSgd = false) ∧
    (docExample.accepted .snapshotSgdr = true ∧ docExample.callsExist .snapshotSgdr = false) := by
  refine ⟨fun h => ?_, ⟨{ sep := ⟨.const, .absent, .absent⟩ }, by decide, by decide⟩,
    ⟨{ sep := ⟨.const, .absent, .absent⟩, sparseGradient := .const, numFunctions := .const }, by decide, by decide⟩,
    by decide, by decide⟩
  have := h .snapshotSgdr docExample (by decide) (by decide) (by decide)
  revert this
  decide

example : docExample.accepted .sgd = true ∧ docExample.callsExist .sgd = true ∧ pairExample.accepted .bigBatch = true := by
  decide

end Ens.Adapter
