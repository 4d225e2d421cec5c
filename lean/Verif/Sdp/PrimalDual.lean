import Mathlib.LinearAlgebra.Matrix.Trace
import Mathlib.LinearAlgebra.Matrix.Symmetric
import Mathlib.LinearAlgebra.Matrix.NonsingularInverse
import Mathlib.Algebra.Order.BigOperators.Ring.Finset
import Mathlib.Algebra.BigOperators.Fin
import Mathlib.Data.Rat.Defs
import Mathlib.Algebra.Order.Field.Rat
import Mathlib.Tactic.Ring
import Mathlib.Tactic.Linarith
import Mathlib.Tactic.NormNum
import Mathlib.Tactic.Positivity
import Mathlib.Tactic.FieldSimp
import Verif.Loop
import Verif.Sdp.Lrsdp

/-
`PrimalDualSolver` (`sdp/primal_dual_impl.hpp`): model.

Vectors `svec(M)` are represented by the symmetric matrices they stand for: `Svec(M)` is `upper M` (it reads the upper
triangle only), `Smat` is the identity and the dot product of two such vectors is `accu` (`Svec`/`Smat`/`SymKronId` are
modelled in `Verif/Sdp/Svec.lean`; C52 and C53 justify the representation). The sparse and the dense constraints are one list in
the order of the blocks of `m` and `rp`. Arithmetic is exact.
-/

namespace Ens.PrimalDual

open Matrix Ens.Lrsdp

abbrev Mat (n : Nat) (K : Type) := Matrix (Fin n) (Fin n) K

/-- What the solver calls:
* `check`: success of `arma::chol(tmp, ...)` in the argument checks (222, 258);
* `chol`: `arma::chol(l, a, "lower")` (66); `inv`: `arma::inv(lInv, trimatl(l))` (70);
* `topEig`: the last entry of `eig_sym` (76-78) and whether, if it is zero, it is the negative zero;
* `syl a h`: `SolveLyapunov` (100-105);
* `solve`: `arma::solve(dy, m, rhs, fast)` (159);
* `norm`: Euclidean norm of the entries;
* the callbacks, which receive the coordinates by reference. -/
structure Env (n : Nat) (K W : Type) where
  check : Mat n K → Bool
  chol : Mat n K → Option (Mat n K)
  inv : Mat n K → Option (Mat n K)
  topEig : Mat n K → Option (K × Bool)
  syl : Mat n K → Mat n K → Mat n K
  solve : {m : Nat} → Mat m K → (Fin m → K) → Option (Fin m → K)
  norm : List K → K
  cbBegin : W → Mat n K → W × Mat n K
  cbStep : W → Mat n K → W × Mat n K × Bool
  cbEnd : W → Mat n K → W × Mat n K

structure Params (K : Type) where
  maxIterations : Nat
  tau : K
  normXzTol : K
  primalInfeasTol : K
  dualInfeasTol : K

variable {n : Nat} {K W : Type} [Field K] [LinearOrder K]

/-- `Smat(Svec(M))`: the symmetric matrix with the upper triangle of `M` (`lin_alg.hpp:41-56`). -/
def upper (M : Mat n K) : Mat n K := fun i j => if i ≤ j then M i j else M j i

/-- Lines 78-84. `1. / 0` is infinite. -/
def stepLength (tau lam : K) (negZero : Bool) : K :=
  if lam < 0 ∨ (lam = 0 ∧ negZero = true) then min 1 (tau * 1)
  else if lam = 0 then 1
  else min 1 (tau * (1 / lam))

/-- `Alpha` (lines 61-86); `none`: it returns false. -/
def alpha (env : Env n K W) (tau : K) (a dA : Mat n K) : Option K := do
  let l ← env.chol a
  let li ← env.inv l
  let e ← env.topEig (-li * dA * liᵀ)
  some (stepLength tau e.1 e.2)

/-- `aSparse.t() * ySparse + aDense.t() * yDense` (lines 334, 165-177). -/
def adjoint (p : Sdp (Fin n) K) (y : Fin p.all.length → K) : Mat n K := ∑ k, y k • upper p.all[k].1

/-- `aSparse * v`, `aDense * v`, one row. -/
def row (p : Sdp (Fin n) K) (k : Fin p.all.length) (v : Mat n K) : K := accu (upper p.all[k].1) v

/-- `rp` (lines 322-332) for `sx`. -/
def residual (p : Sdp (Fin n) K) (sx : Mat n K) (k : Fin p.all.length) : K := p.all[k].2 - row p k sx

/-- `fMat * v` with `fMat = SymKronId(X)` (line 336, C53). -/
def fMul (X v : Mat n K) : Mat n K := upper ((1 / 2 : K) • (X * v + v * X))

/-- `m` (lines 338-388): the four blocks, entry `(i, j)`. -/
def schur (env : Env n K W) (p : Sdp (Fin n) K) (X Z : Mat n K) : Matrix (Fin p.all.length) (Fin p.all.length) K :=
  fun i j => row p i (upper (env.syl Z (X * p.all[j].1 + p.all[j].1 * X)))

structure Dir (n : Nat) (K : Type) (m : Nat) where
  dX : Mat n K
  dy : Fin m → K
  dZ : Mat n K

/-- `SolveKKTSystem` (lines 126-187) followed by the two `Smat`; `none` is the exception. -/
def solveKKT (env : Env n K W) (p : Sdp (Fin n) K) (Z : Mat n K) (m : Matrix (Fin p.all.length) (Fin p.all.length) K)
    (X : Mat n K) (rp : Fin p.all.length → K) (rd rc : Mat n K) : Option (Dir n K p.all.length) := do
  let e := upper (env.syl Z ((2 : K) • (fMul X rd - rc)))
  let dy ← env.solve m fun k => rp k + row p k e
  let sub := adjoint p dy
  some ⟨-upper (env.syl Z ((2 : K) • (fMul X (rd - sub) - rc))), dy, rd - sub⟩

inductive Ev (n : Nat) (K : Type) where
  | begin (x : Mat n K)
  | step (x : Mat n K) (stop : Bool)
  | endOpt (x : Mat n K)

/-- State of the main loop. `steps` (the accepted step lengths) and `trace` are ghost variables. -/
structure St (n : Nat) (K W : Type) (m : Nat) where
  w : W
  x : Mat n K
  y : Fin m → K
  z : Mat n K
  sx : Mat n K
  sz : Mat n K
  obj : K
  iteration : Nat
  terminate : Bool
  steps : List (K × K)
  trace : List (Ev n K)

inductive Exit where
  | converged
  | cholX
  | cholZ
  | throws
  | limit
  deriving DecidableEq

/-- `rcMat` of the predictor (lines 397-398). -/
def rcPredict (X Z : Mat n K) : Mat n K := (-(1 / 2) : K) • (X * Z + Z * X)

/-- `rcMat` of the corrector (lines 432-437). -/
def rcCorrect (mu : K) (X Z dX dZ : Mat n K) : Mat n K :=
  mu • (1 : Mat n K) - (1 / 2 : K) • (X * Z + Z * X + dX * dZ + dZ * dX)

/-- `mu` (lines 426-429). -/
def muOf (s : K) (X Z dX dZ : Mat n K) (a b : K) : K :=
  (accu (X + a • dX) (Z + b • dZ) / s) ^ 3 * s / (n : K)

/-- All entries, for `arma::norm(., "fro")`. -/
def entries (M : Mat n K) : List K := (List.finRange n).flatMap fun i => (List.finRange n).map fun j => M i j

/-- The test of the KKT conditions (lines 481-509). -/
def kktHolds (env : Env n K W) (c : Params K) (p : Sdp (Fin n) K) (X : Mat n K) (y : Fin p.all.length → K) (Z sx : Mat n K) :
    Bool :=
  decide (env.norm (entries (X * Z)) ≤ c.normXzTol) &&
  decide (env.norm (List.ofFn (residual p sx)) ≤ c.primalInfeasTol) &&
  decide (env.norm (entries (Z - p.C + ∑ k, y k • p.all[k].1)) ≤ c.dualInfeasTol)

/-- From the iterate update to the end of the body (lines 460-510). -/
def update (env : Env n K W) (c : Params K) (p : Sdp (Fin n) K) (s : St n K W p.all.length) (d : Dir n K p.all.length)
    (a b : K) : St n K W p.all.length ⊕ (Exit × St n K W p.all.length) :=
  let x := s.x + a • d.dX
  let r := env.cbStep s.w x
  let t : St n K W p.all.length := { s with
    w := r.1
    x := r.2.1
    sx := upper r.2.1
    y := s.y + b • d.dy
    z := s.z + b • d.dZ
    sz := upper (s.z + b • d.dZ)
    obj := accu p.C r.2.1
    terminate := s.terminate || r.2.2
    iteration := (s.iteration + 1) % 2 ^ 64
    steps := s.steps ++ [(a, b)]
    trace := s.trace ++ [.step x r.2.2] }
  if kktHolds env c p t.x t.y t.z t.sx then .inr (.converged, t) else .inl t

/-- One pass of the loop (lines 313-510) with its condition; the exits by `return` are in the result. -/
def step (env : Env n K W) (c : Params K) (p : Sdp (Fin n) K) (s : St n K W p.all.length) :
    St n K W p.all.length ⊕ (Exit × St n K W p.all.length) :=
  if s.iteration ≠ c.maxIterations ∧ s.terminate = false then
    let rp := residual p s.sx
    let rd := upper p.C - s.sz - adjoint p s.y
    let m := schur env p s.x s.z
    match solveKKT env p s.z m s.x rp rd (upper (rcPredict s.x s.z)) with
    | none => .inr (.throws, s)
    | some d =>
      match alpha env c.tau s.x d.dX with
      | none => .inr (.cholX, s)
      | some a =>
        match alpha env c.tau s.z d.dZ with
        | none => .inr (.cholZ, s)
        | some b =>
          match solveKKT env p s.z m s.x rp rd
              (upper (rcCorrect (muOf (accu s.sx s.sz) s.x s.z d.dX d.dZ a b) s.x s.z d.dX d.dZ)) with
          | none => .inr (.throws, s)
          | some d' =>
            match alpha env c.tau s.x d'.dX with
            | none => .inr (.cholX, s)
            | some a' =>
              match alpha env c.tau s.z d'.dZ with
              | none => .inr (.cholZ, s)
              | some b' => update env c p s d' a' b'
  else .inr (.limit, s)

/-- State at the top of the loop (lines 289-312): `sx` and `sz` are computed before `BeginOptimization`. -/
def start (env : Env n K W) (p : Sdp (Fin n) K) (w : W) (x : Mat n K) (y : Fin p.all.length → K) (z : Mat n K) :
    St n K W p.all.length :=
  let b := env.cbBegin w x
  ⟨b.1, b.2, y, z, upper x, upper z, 0, 1, false, [], [.begin x]⟩

/-- What follows an exit: `EndOptimization` (lines 411, 421, 447, 455, 515), but not after the KKT test (509). -/
def finish (env : Env n K W) {m : Nat} (e : Exit) (s : St n K W m) : St n K W m :=
  match e with
  | .converged => s
  | .throws => s
  | _ =>
    let r := env.cbEnd s.w s.x
    { s with w := r.1, x := r.2, trace := s.trace ++ [.endOpt s.x] }

inductive Outcome (α : Type) where
  | rejected
  | fuel
  | done (a : α)

/-- `Optimize` (lines 203-517). The checks of the shapes are in the types; `rejected` is the exception of the two
Cholesky checks (222-226, 258-262). The returned value is `obj` of the final state unless the exit is `throws`. -/
def optimize (env : Env n K W) (c : Params K) (p : Sdp (Fin n) K) (fuel : Nat) (w : W) (x : Mat n K)
    (y : Fin p.all.length → K) (z : Mat n K) : Outcome (Exit × St n K W p.all.length) :=
  if env.check x = false then .rejected
  else if env.check z = false then .rejected
  else
    match iterate (step env c p) fuel (start env p w x y z) with
    | none => .fuel
    | some r => .done (r.1, finish env r.1 r.2)

/-- `Optimize(sdp, coordinates)` (lines 189-201): multipliers 1, dual iterate the identity. -/
def optimizeDefault (env : Env n K W) (c : Params K) (p : Sdp (Fin n) K) (fuel : Nat) (w : W) (x : Mat n K) :
    Outcome (Exit × St n K W p.all.length) :=
  optimize env c p fuel w x (fun _ => 1) 1

end Ens.PrimalDual
