/-
The mixin classes that make up `Function<FunctionType, MatType, GradType>` (`function.hpp:57-109`,
`function/add_evaluate.hpp`, `function/add_gradient.hpp`, `function/add_evaluate_with_gradient.hpp`, and their separable
counterparts `function/add_separable_*.hpp`), with the signature tests of `function/traits.hpp:317-378`.

A method of the user's class may be declared as a non-const member, a const member, both, or as a static member. The model
computes which overloads `Function` has, which one a call chooses, and which methods of the user that ends up calling. The
separable case has the same structure; its extra arguments (`begin`, `batchSize`) are part of the argument `X` below.
-/

namespace Ens.Adapter

/-- How a method is declared. -/
inductive Form where
  | nonconst
  | const
  | static
deriving DecidableEq, Repr

/-- The declarations of one method in the user's class. -/
inductive Decl where
  | absent
  | nonconst
  | const
  | both
  | static
deriving DecidableEq, Repr

def Decl.all : List Decl := [.absent, .nonconst, .const, .both, .static]

/-- `traits::HasEvaluate<..., Form>::value` and the like. -/
def Decl.has : Decl → Form → Bool
  | .nonconst, .nonconst => true
  | .const, .const => true
  | .both, .nonconst => true
  | .both, .const => true
  | .static, .static => true
  | _, _ => false

/-- Declared at all. -/
def Decl.any (d : Decl) : Bool := d.has .nonconst || d.has .const || d.has .static

/-- The user's class. -/
structure Class where
  eval : Decl
  grad : Decl
  ewg : Decl
deriving DecidableEq, Repr

/-- `HasNonConstSignatures`: `traits.hpp:320-342`. -/
def hasNonConst (a b : Decl) : Bool := (a.has .nonconst || b.has .nonconst) && a.any && b.any

/-- `HasConstSignatures`: `traits.hpp:361-378`. -/
def hasConst (a b : Decl) : Bool :=
  (a.has .const || b.has .const) && (a.has .const || a.has .static) && (b.has .const || b.has .static)

/-- What a call of a method of `Function` ends up doing. -/
inductive Plan where
  /-- Call the user's `Evaluate` of this form. -/
  | evaluate (f : Form)
  /-- Call the user's `Gradient`. -/
  | gradient (f : Form)
  /-- Call the user's `EvaluateWithGradient`. -/
  | ewg (f : Form)
  /-- `EvaluateWithGradient` with a gradient that is ignored. -/
  | dropGradient (p : Plan)
  /-- `EvaluateWithGradient` with an objective that is ignored. -/
  | dropObjective (p : Plan)
  /-- `Evaluate`, then `Gradient`. -/
  | pair (e g : Plan)
deriving DecidableEq, Repr

/-- The result of compiling a call. -/
inductive Res where
  /-- No usable overload: only dummies taking `UnconstructableType`. -/
  | missing
  /-- A static and a non-static overload with the same parameters. -/
  | ambiguous
  | ok (p : Plan)
deriving DecidableEq, Repr

/-- The three methods. -/
inductive Meth where
  | evaluate
  | gradient
  | ewg
deriving DecidableEq, Repr

/-- Whether `Function` has a usable overload of the method in this form: the second or the third specialisation of the mixin
is chosen. -/
def overload (c : Class) : Meth → Form → Bool
  | .evaluate, f => c.eval.has f || c.ewg.has f
  | .gradient, f => c.grad.has f || c.ewg.has f
  | .ewg, .nonconst => c.ewg.has .nonconst || hasNonConst c.eval c.grad
  | .ewg, .const => c.ewg.has .const || hasConst c.eval c.grad
  | .ewg, .static => c.ewg.has .static || (c.eval.has .static && c.grad.has .static)

/-- Overload resolution for a call on a non-const (`objConst = false`) or const object. -/
def choose (c : Class) (m : Meth) (objConst : Bool) : Option (Option Form) :=
  let n := overload c m .nonconst
  let k := overload c m .const
  let s := overload c m .static
  if s && (n || k) then none
  else if n && !objConst then some (some .nonconst)
  else if k then some (some .const)
  else if s then some (some .static)
  else some none

/-- The second call needs the first one. -/
def Res.map (f : Plan → Plan) : Res → Res
  | .ok p => .ok (f p)
  | r => r

def Res.pair : Res → Res → Res
  | .ok p, .ok q => .ok (.pair p q)
  | .ok _, r => r
  | r, _ => r

/-- A call of a method of `Function` (`fuel` bounds the nesting of mixin calls). -/
def compile (c : Class) : Nat → Meth → Bool → Res
  | 0, _, _ => .missing
  | fuel + 1, m, k =>
    match choose c m k with
    | none => .ambiguous
    | some none => .missing
    | some (some f) =>
      match m, f with
      -- add_evaluate.hpp:40-83, 102-148, 168-208
      | .evaluate, .static => if c.eval.has .static then .ok (.evaluate .static) else .ok (.dropGradient (.ewg .static))
      | .evaluate, f =>
        if c.eval.has f then .ok (.evaluate f) else (compile c fuel .ewg (f == .const)).map .dropGradient
      -- add_gradient.hpp
      | .gradient, .static => if c.grad.has .static then .ok (.gradient .static) else .ok (.dropObjective (.ewg .static))
      | .gradient, f =>
        if c.grad.has f then .ok (.gradient f) else (compile c fuel .ewg (f == .const)).map .dropObjective
      -- add_evaluate_with_gradient.hpp
      | .ewg, .static =>
        if c.ewg.has .static then .ok (.ewg .static) else .ok (.pair (.evaluate .static) (.gradient .static))
      | .ewg, f =>
        if c.ewg.has f then .ok (.ewg f)
        else (compile c fuel .evaluate (f == .const)).pair (compile c fuel .gradient (f == .const))

/-- A call by an optimizer, which holds a non-const reference. -/
def call (c : Class) (m : Meth) : Res := compile c 3 m false

/-! ### What the calls compute -/

variable {W X E G : Type}

/-- The user's methods, per form, acting on the world; gradients start from what the buffer contains. -/
structure User (W X E G : Type) where
  eval : Form → W → X → W × E
  grad : Form → W → X → G → W × G
  ewg : Form → W → X → G → W × E × G
  /-- A default-constructed gradient. -/
  empty : G

/-- Run a plan: the new world, the objective (if it has one) and the gradient buffer. -/
def runPlan (u : User W X E G) : Plan → W → X → G → W × Option E × G
  | .evaluate f, w, x, g => let r := u.eval f w x; (r.1, some r.2, g)
  | .gradient f, w, x, g => let r := u.grad f w x g; (r.1, none, r.2)
  | .ewg f, w, x, g => let r := u.ewg f w x g; (r.1, some r.2.1, r.2.2)
  | .dropGradient p, w, x, g => let r := runPlan u p w x u.empty; (r.1, r.2.1, g)
  | .dropObjective p, w, x, g => let r := runPlan u p w x g; (r.1, none, r.2.2)
  | .pair e g', w, x, g =>
    let r := runPlan u e w x g
    let r' := runPlan u g' r.1 x g
    (r'.1, r.2.1, r'.2.2)

/-- The user's methods a plan calls, in order. -/
def calls : Plan → List (Meth × Form)
  | .evaluate f => [(.evaluate, f)]
  | .gradient f => [(.gradient, f)]
  | .ewg f => [(.ewg, f)]
  | .dropGradient p => calls p
  | .dropObjective p => calls p
  | .pair e g => calls e ++ calls g

end Ens.Adapter
