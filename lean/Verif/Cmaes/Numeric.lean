import Verif.Cmaes.Model
import Mathlib.LinearAlgebra.Matrix.PosDef
import Mathlib.Analysis.Matrix.PosDef
import Mathlib.Analysis.SpecialFunctions.Log.Basic
import Mathlib.Analysis.SpecialFunctions.Sqrt
import Mathlib.Data.Fin.Tuple.Sort

/-
The numerical core of `CMAES::Optimize` (/repo/include/ensmallen_bits/cmaes/cmaes_impl.hpp) and of
`ActiveCMAES::Optimize` (active_cmaes_impl.hpp): recombination weights and learning rates, sampling,
recombination, the two evolution paths, the step size, the covariance matrix and its repair.  It fills the
parameters `sample`, `recombine`, `adapt` and `diverged` of the control-flow model (Cmaes/Model.lean).

Simplifications.
* Exact real arithmetic.
* The iterate is a column or row vector with `d` elements (other shapes: Cmaes/Shape.lean); a row vector `v`
  is modelled by its transpose.  The code for the two cases differs only by that transposition (the matrix
  `eigvec * diagmat(..) * eigvec.t()` is symmetric).
* The three library routines used (`arma::chol`, `arma::eig_sym`, `arma::sort_index`) are parameters, with
  their documented behaviour as the hypothesis `Lib.Ok`; of the Cholesky factor only `L * Lᵀ = A` is needed.
* The random numbers drawn are given beforehand: `draws i j` is the vector of normal numbers drawn for offspring
  number `j` (in order of creation) of generation `i`.  The theorems hold for all of them.
* Slots: the code keeps offspring number `j` in slot `idx(j)`, the order of the generation before, and sorts the
  slots; here offspring are numbered in order of creation.  `sort_index` may order equal objectives either way.
* The two slots `[idx0]`, `[idx1]` of `mPosition`, `sigma`, `ps`, `pc`, `C` are the old and the new state.
-/

namespace Ens.Cmaes.Numeric
open Matrix

abbrev Vec (d : Nat) := Fin d → ℝ
abbrev Mat (d : Nat) := Matrix (Fin d) (Fin d) ℝ

/-! ### Library routines -/

/-- The library routines used by a run. -/
structure Lib (d : Nat) where
  /-- `arma::chol(L, A, "lower")`: the factor, `none` when the call returns `false` -/
  chol : Mat d → Option (Mat d)
  /-- `arma::eig_sym(eigval, eigvec, A)`: eigenvalues in ascending order, matrix of eigenvectors -/
  eig : Mat d → Vec d × Mat d
  /-- `arma::sort_index(v)`: the element at place `r` of the ascending order -/
  sort : List ℝ → Nat → Nat

/-- Documented behaviour of the routines. -/
structure Lib.Ok {d : Nat} (lib : Lib d) : Prop where
  chol_some : ∀ A L, lib.chol A = some L → L * Lᵀ = A
  chol_posDef : ∀ A : Mat d, A.IsHermitian → ((lib.chol A).isSome ↔ A.PosDef)
  eig_mono : ∀ A : Mat d, A.IsHermitian → Monotone (lib.eig A).1
  eig_orth : ∀ A : Mat d, A.IsHermitian → (lib.eig A).2ᵀ * (lib.eig A).2 = 1
  eig_mul : ∀ A : Mat d, A.IsHermitian → A = (lib.eig A).2 * diagonal (lib.eig A).1 * (lib.eig A).2ᵀ
  sort_lt : ∀ (v : List ℝ) r, r < v.length → lib.sort v r < v.length
  sort_inj : ∀ (v : List ℝ) r s, r < v.length → s < v.length → lib.sort v r = lib.sort v s → r = s
  sort_le : ∀ (v : List ℝ) r s, r ≤ s → s < v.length → v.getD (lib.sort v r) 0 ≤ v.getD (lib.sort v s) 0
  /-- the routine only compares elements -/
  sort_cmp : ∀ v u : List ℝ, v.length = u.length →
    (∀ i j, i < v.length → j < v.length → (v.getD i 0 < v.getD j 0 ↔ u.getD i 0 < u.getD j 0)) →
    lib.sort v = lib.sort u

/-! ### Constants of a run -/

/-- Recombination weights before normalisation (cmaes_impl.hpp:98-99). -/
noncomputable def rawWeight (mu j : Nat) : ℝ := Real.log (mu + 0.5) - Real.log (j + 1)

/-- Recombination weights (cmaes_impl.hpp:98-100). -/
noncomputable def weight (mu j : Nat) : ℝ :=
  rawWeight mu j / ∑ k ∈ Finset.range mu, rawWeight mu k

/-- `muEffective` (cmaes_impl.hpp:103). -/
noncomputable def muEffective (mu : Nat) : ℝ := 1 / ∑ k ∈ Finset.range mu, weight mu k ^ 2

/-- `cs` (cmaes_impl.hpp:112); `n` is `iterate.n_elem`, `me` is `muEffective`. -/
noncomputable def csOf (n me : ℝ) : ℝ := (me + 2) / (n + me + 5)

/-- `ds` (cmaes_impl.hpp:113-114). -/
noncomputable def dsOf (n me : ℝ) : ℝ := 1 + csOf n me + 2 * max (√((me - 1) / (n + 1)) - 1) 0

/-- `enn` (cmaes_impl.hpp:115-116, active_cmaes_impl.hpp:115-116). -/
noncomputable def ennOf (n : ℝ) : ℝ := √n * (1 - 1 / (4 * n) + 1 / (21 * n ^ 2))

/-- `cc` (cmaes_impl.hpp:120-121). -/
noncomputable def ccOf (n me : ℝ) : ℝ := (4 + me / n) / (4 + n + 2 * me / n)

/-- `h` (cmaes_impl.hpp:122). -/
noncomputable def hOf (n : ℝ) : ℝ := (1.4 + 2 / (n + 1)) * ennOf n

/-- `c1` (cmaes_impl.hpp:124). -/
noncomputable def c1Of (n me : ℝ) : ℝ := 2 / ((n + 1.3) ^ 2 + me)

/-- `cmu` (cmaes_impl.hpp:125-128). -/
noncomputable def cmuOf (n me : ℝ) : ℝ :=
  min (1 - c1Of n me) (2 * (me - 2 + 1 / me) / ((n + 2) ^ 2 + 2 * me / 2))

/-- What a variant of the algorithm fixes: numbers of offspring and parents, weights, learning rates, and the
update of evolution path and covariance matrix
`cov i psNorm pc step C y = (pc', C')`, `y r` the step of the offspring of rank `r`. -/
structure Par (d : Nat) where
  lambda : Nat
  mu : Nat
  w : Nat → ℝ
  me : ℝ
  cs : ℝ
  ds : ℝ
  cov : Nat → ℝ → Vec d → Vec d → Mat d → (Nat → Vec d) → Vec d × Mat d

/-- Rank-mu update (cmaes_impl.hpp:313-328): `C + Σ_{j < mu} cmu * w(j) * y_j y_jᵀ`. -/
noncomputable def rankMu {d : Nat} (mu : Nat) (w : Nat → ℝ) (cmu : ℝ) (C : Mat d) (y : Nat → Vec d) : Mat d :=
  (List.range mu).foldl (fun A j => A + (cmu * w j) • vecMulVec (y j) (y j)) C

/-- Evolution path and covariance matrix of `CMAES` (cmaes_impl.hpp:280-328). -/
noncomputable def cmaesCov (d mu : Nat) (i : Nat) (psNorm : ℝ) (pc step : Vec d) (C : Mat d) (y : Nat → Vec d) :
    Vec d × Mat d :=
  let me := muEffective mu
  let cs := csOf d me
  let cc := ccOf d me
  let c1 := c1Of d me
  let cmu := cmuOf d me
  if psNorm / √(1 - (1 - cs) ^ (2 * i)) < hOf d then
    let pc' := (1 - cc) • pc + √(cc * (2 - cc) * me) • step
    (pc', rankMu mu (weight mu) cmu ((1 - c1 - cmu) • C + c1 • vecMulVec pc' pc') y)
  else
    let pc' := (1 - cc) • pc
    (pc', rankMu mu (weight mu) cmu
      ((1 - c1 - cmu) • C + c1 • (vecMulVec pc' pc' + (cc * (2 - cc)) • C)) y)

/-- `CMAES` with population size `lambda` on `d` variables (cmaes_impl.hpp:96-128); `std::round(lambda / 2)` divides
integers. -/
noncomputable def cmaes (d lambda : Nat) : Par d where
  lambda := lambda
  mu := lambda / 2
  w := weight (lambda / 2)
  me := muEffective (lambda / 2)
  cs := csOf d (muEffective (lambda / 2))
  ds := dsOf d (muEffective (lambda / 2))
  cov := cmaesCov d (lambda / 2)

/-- `cs` and `cc` of `ActiveCMAES` (active_cmaes_impl.hpp:113, 119). -/
noncomputable def activeCs (n : ℝ) : ℝ := 4 / (n + 4)

/-- `ccov` (active_cmaes_impl.hpp:120). -/
noncomputable def ccovOf (n : ℝ) : ℝ := 2 / (n + √2) ^ 2

/-- `beta` (active_cmaes_impl.hpp:121-122). -/
noncomputable def betaOf (n mu : ℝ) : ℝ := (4 * mu - 2) / ((n + 12) ^ 2 + 4 * mu)

/-- Evolution path and covariance matrix of `ActiveCMAES` (active_cmaes_impl.hpp:273-309): the steps of the `mu`
best offspring are added, those of the `mu` worst subtracted. -/
noncomputable def activeCov (d lambda mu : Nat) (_i : Nat) (_psNorm : ℝ) (pc step : Vec d) (C : Mat d)
    (y : Nat → Vec d) : Vec d × Mat d :=
  let cc := activeCs d
  let ccov := ccovOf d
  let beta := betaOf d mu
  let w : ℝ := 1 / mu
  let pc' := (1 - cc) • pc + √(cc * (2 - cc) * mu) • step
  let C1 := (1 - ccov) • C + ccov • vecMulVec pc' pc'
  let C2 := (List.range mu).foldl (fun A j => A + (beta * w) • vecMulVec (y j) (y j)) C1
  (pc', (List.range mu).foldl
    (fun A j => A - (beta * w) • vecMulVec (y (lambda - mu + j)) (y (lambda - mu + j))) C2)

/-- `ActiveCMAES` with population size `lambda` on `d` variables (active_cmaes_impl.hpp:97-122). -/
noncomputable def active (d lambda : Nat) : Par d where
  lambda := lambda
  mu := lambda / 4
  w := fun _ => 1 / (lambda / 4 : Nat)
  me := (lambda / 4 : Nat)
  cs := activeCs d
  ds := 1 + activeCs d
  cov := activeCov d lambda (lambda / 4)

/-! ### One generation -/

/-- The numerical state between generations. -/
structure Core (d : Nat) where
  /-- number `i` of the generation to come (line 190) -/
  gen : Nat
  m : Vec d
  sigma : ℝ
  C : Mat d
  ps : Vec d
  pc : Vec d

/-- State before the first generation (cmaes_impl.hpp:106-110, 132, 165-170). -/
def Core.init {d : Nat} (x : Vec d) (sigma : ℝ) : Core d := ⟨1, x, sigma, 1, 0, 0⟩

variable {d : Nat}

/-- Euclidean norm (`arma::norm` of a vector). -/
noncomputable def norm2 (v : Vec d) : ℝ := √(v ⬝ᵥ v)

/-- `while (!arma::chol(covLower, C, "lower")) C.diag() += eps` (cmaes_impl.hpp:198-200, active_cmaes_impl.hpp:193-195):
the matrix left in `C` and its factor; `none` when `fuel` attempts did not suffice. -/
def retry (lib : Lib d) (eps : ℝ) : Nat → Mat d → Option (Mat d × Mat d)
  | 0, _ => none
  | fuel + 1, A =>
    match lib.chol A with
    | some L => some (A, L)
    | none => retry lib eps fuel (A + eps • 1)

/-- Matrix and factor used in a generation.  Two attempts suffice in every run (`C265_factor`). -/
def factor (lib : Lib d) (eps : ℝ) (c : Core d) : Mat d × Mat d := (retry lib eps 2 c.C).getD (0, 0)

/-- `pStep` (lines 206-215) of the offspring drawn as `z`. -/
def pStep (lib : Lib d) (eps : ℝ) (c : Core d) (z : Vec d) : Vec d := (factor lib eps c).2 *ᵥ z

/-- `pPosition` (line 217). -/
def pPosition (lib : Lib d) (eps : ℝ) (c : Core d) (z : Vec d) : Vec d := c.m + c.sigma • pStep lib eps c z

/-- The step of the offspring of rank `r` (`pStep[idx(r)]` after line 226); `z j` the draws of offspring `j`. -/
def ranked (lib : Lib d) (eps : ℝ) (c : Core d) (z : Nat → Vec d) (objs : List ℝ) (r : Nat) : Vec d :=
  pStep lib eps c (z (lib.sort objs r))

/-- `step` (cmaes_impl.hpp:228-230, active_cmaes_impl.hpp:223-225). -/
noncomputable def stepOf (P : Par d) (y : Nat → Vec d) : Vec d :=
  (List.range (P.mu - 1)).foldl (fun s j => s + P.w (j + 1) • y (j + 1)) (P.w 0 • y 0)

/-- `mPosition[idx1]` (cmaes_impl.hpp:232). -/
noncomputable def meanOf (P : Par d) (c : Core d) (y : Nat → Vec d) : Vec d := c.m + c.sigma • stepOf P y

/-- The matrix `eigvec * diagmat(1 / eigval) * eigvec.t()` (cmaes_impl.hpp:257, 263). -/
noncomputable def whiten (lib : Lib d) (A : Mat d) : Mat d :=
  (lib.eig A).2 * diagonal (fun i => 1 / (lib.eig A).1 i) * (lib.eig A).2ᵀ

/-- `ps[idx1]` (cmaes_impl.hpp:253-264). -/
noncomputable def psOf (lib : Lib d) (P : Par d) (A : Mat d) (ps step : Vec d) : Vec d :=
  (1 - P.cs) • ps + √(P.cs * (2 - P.cs) * P.me) • (whiten lib A *ᵥ step)

/-- `sigma(idx1)` (cmaes_impl.hpp:266-267). -/
noncomputable def sigmaOf (P : Par d) (sigma psNorm : ℝ) : ℝ :=
  sigma * Real.exp (P.cs / P.ds * (psNorm / ennOf d - 1))

/-- Index of the first negative eigenvalue, `find(eigval < 0, 1)` (cmaes_impl.hpp:331). -/
noncomputable def firstNegative (ev : Vec d) : Option (Fin d) :=
  open scoped Classical in (List.finRange d).find? fun i => ev i < 0

/-- The repair of the covariance matrix (cmaes_impl.hpp:330-344, active_cmaes_impl.hpp:311-325): the products with
the leading columns of `eigvec` are written as a sum. -/
noncomputable def repair (lib : Lib d) (A : Mat d) : Mat d :=
  match firstNegative (lib.eig A).1 with
  | none => A
  | some k =>
    if k.val = 0 then 0
    else ∑ i with i < k, (lib.eig A).1 i • vecMulVec ((lib.eig A).2.col i) ((lib.eig A).2.col i)

/-- State after a generation (cmaes_impl.hpp:226-344) with draws `z` and objectives `objs`. -/
noncomputable def next (lib : Lib d) (P : Par d) (eps : ℝ) (c : Core d) (z : Nat → Vec d) (objs : List ℝ) :
    Core d :=
  let A := (factor lib eps c).1
  let y := ranked lib eps c z objs
  let step := stepOf P y
  let ps := psOf lib P A c.ps step
  let r := P.cov c.gen (norm2 ps) c.pc step A y
  ⟨c.gen + 1, meanOf P c y, sigmaOf P c.sigma (norm2 ps), repair lib r.2, ps, r.1⟩

/-! ### The control-flow model with this core -/

/-- `Env` of a run on real vectors: transformation, objective and callbacks as in `user`, the numerical core
as above; `draws i j` the normal numbers of offspring `j` of generation `i`.  The recombination reads `w(0)`,
which does not exist when `mu = 0`: `none`. -/
noncomputable def env {W : Type} (lib : Lib d) (P : Par d) (eps : ℝ) (draws : Nat → Nat → Vec d)
    (tol maxVal : ℝ) (transform : Vec d → Vec d) (evaluate : W → Vec d → Nat → Nat → W × ℝ)
    (cbEvaluate : W → Vec d → ℝ → W × Bool) (cbStep : W → Vec d → W × Bool) (cbBegin : W → Vec d → W) :
    Env W (Vec d) ℝ (Core d) where
  transform := transform
  evaluate := evaluate
  add := (· + ·)
  zero := 0
  cbEvaluate := cbEvaluate
  cbStep := cbStep
  cbBegin := cbBegin
  sample := fun w c j => (w, pPosition lib eps c (draws c.gen j))
  recombine := fun c objs =>
    if P.mu = 0 then none else some (meanOf P c (ranked lib eps c (draws c.gen) objs))
  adapt := fun c objs => next lib P eps c (draws c.gen) objs
  diverged := fun c => open scoped Classical in decide (c.sigma > 10 ^ 14)
  isNanInf := fun _ => false
  close := fun a b => open scoped Classical in decide (|a - b| < tol)
  maxVal := maxVal

/-! ### The library routines exist -/

theorem eig_exists (A : Mat d) (hA : A.IsHermitian) : ∃ r : Vec d × Mat d,
    Monotone r.1 ∧ r.2ᵀ * r.2 = 1 ∧ A = r.2 * diagonal r.1 * r.2ᵀ := by
  have hsp := hA.spectral_theorem
  rw [Unitary.conjStarAlgAut_apply] at hsp
  set U : Mat d := (hA.eigenvectorUnitary : Mat d) with hU
  have hUU : Uᵀ * U = 1 := by
    have := Matrix.mem_unitaryGroup_iff'.1 hA.eigenvectorUnitary.2
    simpa [star_eq_conjTranspose, conjTranspose_eq_transpose_of_trivial] using this
  set σ := Tuple.sort hA.eigenvalues with hσ
  refine ⟨(hA.eigenvalues ∘ σ, U.submatrix id σ), Tuple.monotone_sort hA.eigenvalues, ?_, ?_⟩
  · show (U.submatrix id σ)ᵀ * U.submatrix id σ = 1
    rw [transpose_submatrix, ← submatrix_mul _ _ _ _ _ Function.bijective_id, hUU]
    exact submatrix_one_equiv σ
  · show A = U.submatrix id σ * diagonal (hA.eigenvalues ∘ σ) * (U.submatrix id σ)ᵀ
    rw [transpose_submatrix, ← submatrix_diagonal_equiv, submatrix_mul_equiv, submatrix_mul_equiv]
    rw [submatrix_id_id]
    refine hsp.trans ?_
    rw [star_eq_conjTranspose, conjTranspose_eq_transpose_of_trivial]
    rfl

theorem chol_exists (A : Mat d) (hA : A.PosDef) : ∃ L : Mat d, L * Lᵀ = A := by
  obtain ⟨⟨ev, U⟩, -, hUU, h⟩ := eig_exists A hA.isHermitian
  have h0 : ∀ i, 0 ≤ ev i := by
    have : (Uᵀ * A * U).PosSemidef := by
      have := hA.posSemidef.conjTranspose_mul_mul_same U
      simpa [conjTranspose_eq_transpose_of_trivial] using this
    have hd : Uᵀ * A * U = diagonal ev := by
      have e : Uᵀ * (U * diagonal ev * Uᵀ) * U = (Uᵀ * U) * diagonal ev * (Uᵀ * U) := by
        simp only [Matrix.mul_assoc]
      rw [h]
      show Uᵀ * (U * diagonal ev * Uᵀ) * U = _
      rw [e, hUU]; simp
    intro i
    have := (hd ▸ this).diag_nonneg (i := i)
    simpa using this
  refine ⟨U * diagonal (fun i => √(ev i)), ?_⟩
  rw [transpose_mul, diagonal_transpose]
  have : U * diagonal (fun i => √(ev i)) * (diagonal (fun i => √(ev i)) * Uᵀ)
      = U * (diagonal (fun i => √(ev i)) * diagonal (fun i => √(ev i))) * Uᵀ := by
    simp only [Matrix.mul_assoc]
  rw [this, diagonal_mul_diagonal, h]
  show _ = U * diagonal ev * Uᵀ
  congr 3
  funext i; exact Real.mul_self_sqrt (h0 i)

/-- Order relation of a list as a set of pairs. -/
def listLt (v : List ℝ) (i j : Nat) : Prop := i < v.length ∧ j < v.length ∧ v.getD i 0 < v.getD j 0

/-- `σ` sorts `n` elements with order relation `R`. -/
def Sorts (n : Nat) (R : Nat → Nat → Prop) (σ : Nat → Nat) : Prop :=
  (∀ r < n, σ r < n) ∧ (∀ r s, r < n → s < n → σ r = σ s → r = s) ∧
    ∀ r s, r ≤ s → s < n → ¬ R (σ s) (σ r)

theorem sorts_exists (v : List ℝ) : ∃ σ, Sorts v.length (listLt v) σ := by
  set p := Tuple.sort (fun i : Fin v.length => v.getD i 0) with hp
  refine ⟨fun r => if h : r < v.length then (p ⟨r, h⟩).val else r, ?_, ?_, ?_⟩
  · intro r hr; simp [hr]
  · intro r s hr hs h
    simp only [hr, hs, dif_pos] at h
    have := p.injective (Fin.ext h)
    simpa using this
  · rintro r s hrs hs ⟨-, -, h⟩
    have hr : r < v.length := by omega
    simp only [hr, hs, dif_pos] at h
    have := Tuple.monotone_sort (fun i : Fin v.length => v.getD i 0)
      (show (⟨r, hr⟩ : Fin v.length) ≤ ⟨s, hs⟩ from hrs)
    simp only [Function.comp] at this
    exact absurd h (not_lt.2 this)

open scoped Classical in
/-- Exact library routines: some choice of decompositions and of the order of equal elements. -/
noncomputable def exactLib (d : Nat) : Lib d where
  chol := fun A => if h : A.PosDef then some (Classical.choose (chol_exists A h)) else none
  eig := fun A => if h : A.IsHermitian then Classical.choose (eig_exists A h) else (0, 0)
  sort := fun v =>
    if h : ∃ σ, Sorts v.length (listLt v) σ then Classical.choose h else id

open scoped Classical in
theorem exactLib_ok (d : Nat) : (exactLib d).Ok := by
  have he : ∀ A : Mat d, ∀ h : A.IsHermitian, (exactLib d).eig A = Classical.choose (eig_exists A h) := by
    intro A h; exact dif_pos h
  have hs : ∀ v, Sorts v.length (listLt v) ((exactLib d).sort v) := by
    intro v
    have h := sorts_exists v
    simp only [exactLib, h, dif_pos]
    exact Classical.choose_spec h
  refine ⟨?_, ?_, ?_, ?_, ?_, ?_, ?_, ?_, ?_⟩
  · intro A L h
    by_cases hA : A.PosDef
    · simp only [exactLib, hA, dif_pos, Option.some.injEq] at h
      rw [← h]; exact Classical.choose_spec (chol_exists A hA)
    · simp [exactLib, hA] at h
  · intro A _
    by_cases hA : A.PosDef <;> simp [exactLib, hA]
  · intro A hA; rw [he A hA]; exact (Classical.choose_spec (eig_exists A hA)).1
  · intro A hA; rw [he A hA]; exact (Classical.choose_spec (eig_exists A hA)).2.1
  · intro A hA
    have := (Classical.choose_spec (eig_exists A hA)).2.2
    rw [← he A hA] at this; exact this
  · intro v r hr; exact (hs v).1 r hr
  · intro v r s hr hs'; exact (hs v).2.1 r s hr hs'
  · intro v r s hrs hs'
    have := (hs v).2.2 r s hrs hs'
    have h1 := (hs v).1 r (by omega)
    have h2 := (hs v).1 s hs'
    by_contra hc
    exact this ⟨h2, h1, not_le.1 hc⟩
  · intro v u hl hcmp
    have hR : listLt v = listLt u := by
      funext i j; apply propext
      constructor
      · rintro ⟨a, b, c⟩; exact ⟨hl ▸ a, hl ▸ b, (hcmp i j a b).1 c⟩
      · rintro ⟨a, b, c⟩; exact ⟨hl ▸ a, hl ▸ b, (hcmp i j (hl ▸ a) (hl ▸ b)).2 c⟩
    have : ∀ (n : Nat) (R : Nat → Nat → Prop), n = u.length → R = listLt u →
        (if h : ∃ σ, Sorts n R σ then Classical.choose h else id)
          = if h : ∃ σ, Sorts u.length (listLt u) σ then Classical.choose h else id := by
      rintro n R rfl rfl; rfl
    exact this _ _ hl hR

end Ens.Cmaes.Numeric
