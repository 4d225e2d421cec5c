import Mathlib.Analysis.Real.Sqrt
import Mathlib.Analysis.SpecialFunctions.Pow.Real
import Mathlib.Data.Real.Sign

/-
The update policies that act on every coordinate separately (all but SWATS and WNGrad), for one coordinate and over the
reals: `iterate`, `gradient` and the members of the policy are one entry of the matrices of the code, and the
parameters are those of the parent object. Rounding is not modelled. A division by zero of the code is a division by zero
here; theorems that need the update to be defined say so.
-/

namespace Ens.Update

/-- A policy for one coordinate: its state after construction and `Update(iterate, stepSize, gradient)`, with the arguments
in the order state, step size, gradient, coordinate. -/
structure Policy (S : Type) where
  init : S
  update : S → ℝ → ℝ → ℝ → S × ℝ

/-- A sequence of updates with the given step sizes and gradients. -/
def run {S : Type} (P : Policy S) : S → ℝ → List (ℝ × ℝ) → S × ℝ
  | s, x, [] => (s, x)
  | s, x, (a, g) :: l => run P (P.update s a g x).1 (P.update s a g x).2 l

/-- `beta1`, `beta2`, `epsilon`. -/
structure Betas where
  b1 : ℝ
  b2 : ℝ
  eps : ℝ

/-- First and second moment and the iteration counter. -/
structure Mom where
  m : ℝ
  v : ℝ
  t : Nat

/-- With the running maximum. -/
structure MomMax where
  m : ℝ
  v : ℝ
  vi : ℝ
  t : Nat

/-- `sgd/update_policies/vanilla_update.hpp:61-67`. -/
noncomputable def vanilla : Policy Unit := ⟨(), fun _ a g x => ((), x - a * g)⟩

/-- `sgd/update_policies/momentum_update.hpp:97-117`. -/
noncomputable def momentum (mu : ℝ) : Policy ℝ :=
  ⟨0, fun v a g x => let v := mu * v - a * g; (v, x + v)⟩

/-- `sgd/update_policies/nesterov_momentum_update.hpp:70-95`. -/
noncomputable def nesterov (mu : ℝ) : Policy ℝ :=
  ⟨0, fun v a g x => let v := mu * v - a * g; (v, x + (mu * v - a * g))⟩

/-- `sgd/update_policies/quasi_hyperbolic_update.hpp:77-101`. -/
noncomputable def qh (nu mu : ℝ) : Policy ℝ :=
  ⟨0, fun v a g x => let v := mu * v + (1 - mu) * g; (v, x - a * ((1 - nu) * g + nu * v))⟩

/-- `sgd/update_policies/gradient_clipping.hpp:97-110`; `arma::clamp`. -/
noncomputable def clipping {S : Type} (lo hi : ℝ) (P : Policy S) : Policy S :=
  ⟨P.init, fun s a g x => P.update s a (max lo (min hi g)) x⟩

/-- `adam/adam_update.hpp:92-132`. -/
noncomputable def adam (b : Betas) : Policy Mom :=
  ⟨⟨0, 0, 0⟩, fun s a g x =>
    let t := s.t + 1
    let m := s.m * b.b1 + (1 - b.b1) * g
    let v := s.v * b.b2 + (1 - b.b2) * (g * g)
    (⟨m, v, t⟩, x - a * √(1 - b.b2 ^ t) / (1 - b.b1 ^ t) * m / (√v + b.eps))⟩

/-- `adam/adamax_update.hpp:94-129` (`v` is `u`). -/
noncomputable def adaMax (b : Betas) : Policy Mom :=
  ⟨⟨0, 0, 0⟩, fun s a g x =>
    let t := s.t + 1
    let m := s.m * b.b1 + (1 - b.b1) * g
    let u := max (s.v * b.b2) |g|
    (⟨m, u, t⟩, if 1 - b.b1 ^ t ≠ 0 then x - a / (1 - b.b1 ^ t) * m / (u + b.eps) else x)⟩

/-- `adam/amsgrad_update.hpp:87-126`. -/
noncomputable def amsGrad (b : Betas) : Policy MomMax :=
  ⟨⟨0, 0, 0, 0⟩, fun s a g x =>
    let t := s.t + 1
    let m := s.m * b.b1 + (1 - b.b1) * g
    let v := s.v * b.b2 + (1 - b.b2) * (g * g)
    let vi := max s.vi v
    (⟨m, v, vi, t⟩, x - a * √(1 - b.b2 ^ t) / (1 - b.b1 ^ t) * m / (√vi + b.eps))⟩

/-- `padam/padam_update.hpp:96-134`. -/
noncomputable def padam (b : Betas) (part : ℝ) : Policy MomMax :=
  ⟨⟨0, 0, 0, 0⟩, fun s a g x =>
    let t := s.t + 1
    let m := s.m * b.b1 + (1 - b.b1) * g
    let v := s.v * b.b2 + (1 - b.b2) * (g * g)
    let vi := max s.vi v
    (⟨m, v, vi, t⟩, x - a * √(1 - b.b2 ^ t) / (1 - b.b1 ^ t) * m / (vi + b.eps) ^ part)⟩

/-- The momentum schedule of Nadam and NadaMax (`adam/nadam_update.hpp:124-130`). -/
noncomputable def beta1T (b1 decay : ℝ) (t : Nat) : ℝ := b1 * (1 - 1 / 2 * (0.96 : ℝ) ^ ((t : ℝ) * decay))

/-- State of Nadam and NadaMax. -/
structure NMom where
  m : ℝ
  v : ℝ
  cum : ℝ
  t : Nat

/-- `adam/nadam_update.hpp:94-144`. -/
noncomputable def nadam (b : Betas) (decay : ℝ) : Policy NMom :=
  ⟨⟨0, 0, 1, 0⟩, fun s a g x =>
    let t := s.t + 1
    let m := s.m * b.b1 + (1 - b.b1) * g
    let v := s.v * b.b2 + (1 - b.b2) * g * g
    let bT := beta1T b.b1 decay t
    let bT1 := beta1T b.b1 decay (t + 1)
    let cum := s.cum * bT
    (⟨m, v, cum, t⟩, x - a * ((1 - bT) / (1 - cum) * g + bT1 / (1 - cum * bT1) * m) * √(1 - b.b2 ^ t) / (√v + b.eps))⟩

/-- `adam/nadamax_update.hpp:94-142` (`v` is `u`). -/
noncomputable def nadaMax (b : Betas) (decay : ℝ) : Policy NMom :=
  ⟨⟨0, 0, 1, 0⟩, fun s a g x =>
    let t := s.t + 1
    let m := s.m * b.b1 + (1 - b.b1) * g
    let u := max (s.v * b.b2) |g|
    let bT := beta1T b.b1 decay t
    let bT1 := beta1T b.b1 decay (t + 1)
    let cum := s.cum * bT
    (⟨m, u, cum, t⟩,
      if 1 - cum ≠ 0 ∧ 1 - cum * bT1 ≠ 0 then x - a * ((1 - bT) / (1 - cum) * g + bT1 / (1 - cum * bT1) * m) / (u + b.eps)
      else x)⟩

/-- State of OptimisticAdam: the previous update in addition. -/
structure OMom where
  m : ℝ
  v : ℝ
  g : ℝ
  t : Nat

/-- `adam/optimisticadam_update.hpp:91-130`. -/
noncomputable def optimisticAdam (b : Betas) : Policy OMom :=
  ⟨⟨0, 0, 0, 0⟩, fun s a g x =>
    let t := s.t + 1
    let m := s.m * b.b1 + (1 - b.b1) * g
    let v := s.v * b.b2 + (1 - b.b2) * (g * g)
    let u := m / (1 - b.b1 ^ t) / (√(v / (1 - b.b2 ^ t)) + b.eps)
    (⟨m, v, u, t⟩, x - (2 * a * u - a * s.g))⟩

/-- `ada_belief/ada_belief_update.hpp:90-124` (`v` is `s`). -/
noncomputable def adaBelief (b : Betas) : Policy Mom :=
  ⟨⟨0, 0, 0⟩, fun s a g x =>
    let t := s.t + 1
    let m := s.m * b.b1 + (1 - b.b1) * g
    let v := s.v * b.b2 + ((1 - b.b2) * (g - m) ^ 2 + b.eps)
    (⟨m, v, t⟩, x - m / (1 - b.b1 ^ t) * a / (√(v / (1 - b.b2 ^ t)) + b.eps))⟩

/-- State of AdaBound: moments and, once known, the initial step size. -/
structure BMom where
  m : ℝ
  v : ℝ
  vi : ℝ
  t : Nat
  first : Bool
  a0 : ℝ

/-- The lower and upper bounds (`ada_bound/ada_bound_update.hpp:146-148`). -/
noncomputable def boundLo (gamma fl : ℝ) (t : Nat) : ℝ := fl * (1 - 1 / (gamma * t + 1))
noncomputable def boundHi (gamma fl : ℝ) (t : Nat) : ℝ := fl * (1 + 1 / (gamma * t))

/-- `ada_bound/ada_bound_update.hpp:107-156`; `ada_bound/ams_bound_update.hpp:107-160` with `ams = true`. -/
noncomputable def adaBound (ams : Bool) (b : Betas) (finalLr gamma : ℝ) : Policy BMom :=
  ⟨⟨0, 0, 0, 0, true, 0⟩, fun s a g x =>
    let a0 := if s.first then a else s.a0
    let t := s.t + 1
    let m := s.m * b.b1 + (1 - b.b1) * g
    let v := s.v * b.b2 + (1 - b.b2) * (g * g)
    let fl := finalLr * a / a0
    let lower := boundLo gamma fl t
    let upper := boundHi gamma fl t
    let vi := if ams then max s.vi v else v
    let rate := a * √(1 - b.b2 ^ t) / (1 - b.b1 ^ t) / (√vi + b.eps)
    (⟨m, v, vi, t, false, a0⟩, x - max lower (min upper rate) * m)⟩

/-- `ada_delta/ada_delta_update.hpp:84-116`: mean squared gradient and mean squared update. -/
noncomputable def adaDelta (rho eps : ℝ) : Policy (ℝ × ℝ) :=
  ⟨(0, 0), fun s a g x =>
    let sg := s.1 * rho + (1 - rho) * (g * g)
    let dx := √((s.2 + eps) / (sg + eps)) * g
    ((sg, s.2 * rho + (1 - rho) * (dx * dx)), x - a * dx)⟩

/-- `ada_grad/ada_grad_update.hpp:77-101`. -/
noncomputable def adaGrad (eps : ℝ) : Policy ℝ :=
  ⟨0, fun s a g x => let s := s + g * g; (s, x - a * g / (√s + eps))⟩

/-- `ada_sqrt/ada_sqrt_update.hpp:72-100`. -/
noncomputable def adaSqrt (eps : ℝ) : Policy (ℝ × Nat) :=
  ⟨(0, 0), fun s a g x => let t := s.2 + 1; let q := s.1 + g * g; ((q, t), x - a * √t * g / (q + eps))⟩

/-- `rmsprop/rmsprop_update.hpp:87-109`. -/
noncomputable def rmsProp (alpha eps : ℝ) : Policy ℝ :=
  ⟨0, fun s a g x => let s := s * alpha + (1 - alpha) * (g * g); (s, x - a * g / (√s + eps))⟩

/-- State of SMORMS3. -/
structure Smorms where
  mem : ℝ
  g : ℝ
  g2 : ℝ

/-- `smorms3/smorms3_update.hpp:68-106`. -/
noncomputable def smorms3 (eps : ℝ) : Policy Smorms :=
  ⟨⟨1, 0, 0⟩, fun s a g x =>
    let r := 1 / (s.mem + 1)
    let g1 := (1 - r) * s.g + r * g
    let g2 := (1 - r) * s.g2 + r * (g * g)
    let y := min (g1 * g1 / (g2 + eps)) a
    (⟨s.mem * (1 - y) + 1, g1, g2⟩, x - g * y / (√g2 + eps))⟩

/-- `yogi/yogi_update.hpp:94-120`. -/
noncomputable def yogi (b : Betas) : Policy Mom :=
  ⟨⟨0, 0, 0⟩, fun s a g x =>
    let m := s.m * b.b1 + (1 - b.b1) * g
    let v := s.v - (1 - b.b2) * Real.sign (s.v - g ^ 2) * g ^ 2
    (⟨m, v, s.t⟩, x - a * m / (√v + b.eps))⟩

/-- State of FTML. -/
structure Ftml where
  v : ℝ
  z : ℝ
  d : ℝ
  t : Nat

/-- `ftml/ftml_update.hpp:89-126`; the constructor does not initialise `iteration`, so its first value is a parameter. -/
noncomputable def ftml (b : Betas) (t0 : Nat) : Policy Ftml :=
  ⟨⟨0, 0, 0, t0⟩, fun s a g x =>
    let t := s.t + 1
    let v := s.v * b.b2 + (1 - b.b2) * (g * g)
    let d := (1 - b.b1 ^ t) / a * (√(v / (1 - b.b2 ^ t)) + b.eps)
    let sigma := -b.b1 * s.d + d
    let z := s.z * b.b1 + ((1 - b.b1) * g - sigma * x)
    (⟨v, z, d, t⟩, -z / d)⟩

/-- `qhadam/qhadam_update.hpp:105-145`. -/
noncomputable def qhAdam (b : Betas) (nu1 nu2 : ℝ) : Policy Mom :=
  ⟨⟨0, 0, 0⟩, fun s a g x =>
    let t := s.t + 1
    let m := s.m * b.b1 + (1 - b.b1) * g
    let v := s.v * b.b2 + (1 - b.b2) * (g * g)
    (⟨m, v, t⟩, x - a * (((1 - nu1) * g + nu1 * (m / (1 - b.b1 ^ t))) /
      (√((1 - nu2) * (g * g) + nu2 * (v / (1 - b.b2 ^ t))) + b.eps)))⟩

/-- The decayed momentum of DEMON (`demon_sgd/demon_sgd_update.hpp:106-111`, `demon_adam/demon_adam_update.hpp:128-133`). -/
noncomputable def demonBeta (betaInit : ℝ) (T t : Nat) : ℝ :=
  let decay : ℝ := if 0 < t then 1 - (t : ℝ) / (T : ℝ) else 1
  betaInit * decay / ((1 - betaInit) + betaInit * decay)

/-- `demon_sgd/demon_sgd_update.hpp:88-119`; the counter `t` belongs to the parent object, so it is a parameter at
construction. -/
noncomputable def demonSgd (betaInit : ℝ) (T t0 : Nat) : Policy Nat :=
  ⟨t0, fun t a g x => (t + 1, x * demonBeta betaInit T t - a * g)⟩

/-- `demon_adam/demon_adam_update.hpp:100-143` over any inner update rule. -/
noncomputable def demonAdam {S : Type} (P : Policy S) (betaInit : ℝ) (T t0 : Nat) : Policy (S × Nat) :=
  ⟨(P.init, t0), fun s a g x =>
    let r := P.update s.1 a g (x * demonBeta betaInit T s.2)
    ((r.1, s.2 + 1), r.2)⟩

end Ens.Update
