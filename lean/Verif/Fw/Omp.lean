import Verif.Fw.AtomsProps
import Verif.Fw.Props

/-
Orthogonal matching pursuit, `OMP = FrankWolfe<ConstrLpBallSolver, UpdateSpan>` (fw/frank_wolfe.hpp:190), on the square loss:
properties C209, C210, C211.
-/

namespace Ens.Fw

open scoped RealInnerProductSpace

variable {V X Y : Type} [NormedAddCommGroup X] [InnerProductSpace ℝ X] [NormedAddCommGroup Y] [InnerProductSpace ℝ Y]

/-- Callbacks that leave coordinates and gradient alone; they may ask to stop. -/
structure Quiet (V X : Type) where
  begin' : V → X → V
  eval : V → X → ℝ → X → V × Bool
  step : V → X → V × Bool
  end' : V → X → V

open scoped Classical in
/-- `FrankWolfe` with `UpdateSpan` on `FuncSq`: the state `W` is the atoms of the update rule and the state of the callbacks
(fw/frank_wolfe_impl.hpp:46-117, fw/update_span.hpp:49-77). The tolerance test is `fabs(gap) < tolerance` (line 97). -/
noncomputable def ompUser (f : FuncSq X Y) (solve : List Y → Y → List ℝ) (isPrune : Bool) (oracle : X → X) (tol : ℝ)
    (cb : Quiet V X) : User (Atoms X × V) X X ℝ where
  evalGrad w x := (w, f.eval x, f.grad x)
  lmo w g := (w, oracle g)
  update w x s _ :=
    let r := (updateSpan f solve isPrune w.1 x s).getD (w.1, x)
    ((r.1, w.2), r.2)
  within x s g := decide (|⟪x - s, g⟫| < tol)
  cbBegin w x := ((w.1, cb.begin' w.2 x), x)
  cbEval w x o g := ((w.1, (cb.eval w.2 x o g).1), g, (cb.eval w.2 x o g).2)
  cbStep w x := ((w.1, (cb.step w.2 x).1), x, (cb.step w.2 x).2)
  cbEnd w x := ((w.1, cb.end' w.2 x), x)
  maxE := 0

/-- One update of `UpdateSpan` when the images of the atoms with the new one are independent. -/
theorem span_core {f : FuncSq X Y} {solve : List Y → Y → List ℝ} (hs : LeastSquares solve)
    (isPrune : Bool) {a : Atoms X} {s : X} (x : X) (hi : Indep ((s :: a.atoms).map f.A))
    (hq : a.sq = a.atoms.map fun v => ‖f.A v‖ ^ 2) :
    ∃ a' x', updateSpan f solve isPrune a x s = some (a', x') ∧ Good f a' x' ∧
      (a'.sq = a'.atoms.map fun v => ‖f.A v‖ ^ 2) ∧ a'.atoms ≠ [] ∧ a'.atoms.Sublist (s :: a.atoms) ∧
      (isPrune = false → a'.atoms = s :: a.atoms) ∧
      ∃ y, (∀ z ∈ spanOf (s :: a.atoms), f.eval y ≤ f.eval z) ∧ f.eval x' ≤ max (0.25 * f.eval x + 0.75 * f.eval y) (f.eval y) := by
  have hat : (a.add f s 0).atoms = s :: a.atoms := add_atoms _ _ _ _
  have hsq : (a.add f s 0).sq = (s :: a.atoms).map fun v => ‖f.A v‖ ^ 2 := by
    unfold Atoms.add
    split
    · rename_i h
      rw [List.isEmpty_iff.1 h]
      rfl
    · simp [hq]
  have hg := good_solve hs hi (a.add f s 0).sq
  unfold updateSpan
  simp only [hat]
  cases isPrune with
  | false =>
    refine ⟨_, _, rfl, hg, hsq, by simp, List.Sublist.refl _, fun _ => rfl, _, hg.best, le_max_right _ _⟩
  | true =>
    obtain ⟨a', h1, h2, h3, h4, h5, h6, -⟩ := prune_spec hs
      (F := 0.25 * f.eval x + 0.75 * f.eval (comb (solve ((s :: a.atoms).map f.A) f.b) (s :: a.atoms))) hg hsq (by simp)
    refine ⟨a', a'.recover, ?_, h2, h5, h6, h4, (fun h => by cases h), _, hg.best, h3⟩
    simp only [if_true]
    erw [h1]
    rfl

/-- One update from good atoms lowers the objective. -/
theorem span_step {f : FuncSq X Y} (hf : f.Adj) {solve : List Y → Y → List ℝ} (hs : LeastSquares solve)
    (isPrune : Bool) {a : Atoms X} {x s : X} (hg : Good f a x) (hq : a.sq = a.atoms.map fun v => ‖f.A v‖ ^ 2)
    (hne : ⟪s, f.grad x⟫ ≠ 0) :
    ∃ a' x', updateSpan f solve isPrune a x s = some (a', x') ∧ Good f a' x' ∧
      (a'.sq = a'.atoms.map fun v => ‖f.A v‖ ^ 2) ∧ a'.atoms ≠ [] ∧
      (isPrune = false → a'.atoms = s :: a.atoms) ∧ f.A s ≠ 0 ∧
      f.eval x' ≤ f.eval x - 3 / 4 * (⟪s, f.grad x⟫ ^ 2 / (2 * ‖f.A s‖ ^ 2)) := by
  have hA : f.A s ≠ 0 := by
    intro h
    apply hne
    unfold FuncSq.grad
    rw [← hf, h, inner_zero_left]
  obtain ⟨a', x', h1, h2, h3, h4, -, h6, y, h7, h8⟩ := span_core hs isPrune x (hg.add hf hne) hq
  refine ⟨a', x', h1, h2, h3, h4, h6, hA, ?_⟩
  have hd := drop_of_best hf hg.mem hA h7
  have hp : 0 ≤ ⟪s, f.grad x⟫ ^ 2 / (2 * ‖f.A s‖ ^ 2) := by positivity
  rcases le_max_iff.1 h8 with h | h <;> linarith

/-- What one pass of the loop does. -/
theorem omp_body {f : FuncSq X Y} {solve : List Y → Y → List ℝ} {isPrune : Bool} {oracle : X → X} {tol : ℝ}
    {cb : Quiet V X} {m : Nat} (t : St (Atoms X × V) X ℝ) :
    (body (ompUser f solve isPrune oracle tol cb) m t = .inr (.loop, t) ∧ (t.i = m ∨ t.term = true)) ∨
    (t.i ≠ m ∧ t.term = false ∧ ∃ v stop,
      (|⟪t.x - oracle (f.grad t.x), f.grad t.x⟫| < tol ∧
        body (ompUser f solve isPrune oracle tol cb) m t = .inr (.gap, ⟨(t.w.1, v), t.x, f.eval t.x, t.term || stop, t.i,
          t.trace ++ .eval t.x (f.eval t.x) :: if stop then [.stop] else []⟩)) ∨
      (tol ≤ |⟪t.x - oracle (f.grad t.x), f.grad t.x⟫| ∧
        (∃ t', body (ompUser f solve isPrune oracle tol cb) m t = .inl t') ∧ ∃ st, ∀ a' x',
        updateSpan f solve isPrune t.w.1 t.x (oracle (f.grad t.x)) = some (a', x') → ∃ v',
        body (ompUser f solve isPrune oracle tol cb) m t = .inl ⟨(a', v'), x', f.eval t.x, stop || st, t.i + 1,
          (t.trace ++ .eval t.x (f.eval t.x) :: if stop then [.stop] else []) ++ .step x' :: if st then [.stop] else []⟩)) := by
  rcases body_cases (u := ompUser f solve isPrune oracle tol cb) (m := m) t with h |
    ⟨hi, ht, w, o, g, stop, ⟨w₀, ho, hw, hc⟩, ⟨hin, h⟩ | ⟨hin, w', y, st, hst, h⟩⟩
  · exact .inl h
  · right
    simp only [ompUser, Prod.mk.injEq] at ho hw hc
    subst ho hw
    obtain ⟨rfl, rfl, rfl⟩ := hc
    refine ⟨hi, ht, _, _, .inl ⟨by simpa [ompUser] using hin, h⟩⟩
  · right
    simp only [ompUser, Prod.mk.injEq] at ho hw hc
    subst ho hw
    obtain ⟨rfl, rfl, rfl⟩ := hc
    refine ⟨hi, ht, (cb.eval t.w.2 t.x (f.eval t.x) (f.grad t.x)).1,
      (cb.eval t.w.2 t.x (f.eval t.x) (f.grad t.x)).2, .inr ⟨by simpa [ompUser] using hin, ⟨_, h⟩, st, ?_⟩⟩
    intro a' x' hu
    simp only [ompUser, hu, Option.getD_some, Prod.mk.injEq] at hst
    obtain ⟨rfl, rfl, rfl⟩ := hst
    exact ⟨_, h⟩

/-- A run of orthogonal matching pursuit as in the textbook: `l` is the list of atoms chosen, `x` the coordinates. The objective
is evaluated at the coordinates, the oracle's answer to the gradient there is added to the atoms, and the step
goes to a point of the span of the atoms where the objective is least over that span. -/
def OmpRun (f : FuncSq X Y) (oracle : X → X) : List X → X → List (Ev X ℝ) → Prop
  | _, _, [] => True
  | l, x, .eval z o :: r => z = x ∧ o = f.eval x ∧ OmpRun f oracle (l ++ [oracle (f.grad x)]) x r
  | l, _, .step y :: r => (y ∈ spanOf l ∧ ∀ z ∈ spanOf l, f.eval y ≤ f.eval z) ∧ OmpRun f oracle l y r
  | l, x, .stop :: r => OmpRun f oracle l x r

/-- The atoms chosen in a trace. -/
def chosen (f : FuncSq X Y) (oracle : X → X) : List (Ev X ℝ) → List X
  | [] => []
  | .eval z _ :: r => oracle (f.grad z) :: chosen f oracle r
  | _ :: r => chosen f oracle r

/-- The coordinates after a trace. -/
def lastX (x : X) : List (Ev X ℝ) → X
  | [] => x
  | .step y :: r => lastX y r
  | _ :: r => lastX x r

/-- The objective values in a trace. -/
def values : List (Ev X ℝ) → List ℝ
  | [] => []
  | .eval _ o :: r => o :: values r
  | _ :: r => values r

/-- The points stepped to in a trace. -/
def stepsOf : List (Ev X ℝ) → List X
  | [] => []
  | .step y :: r => y :: stepsOf r
  | _ :: r => stepsOf r

theorem stepsOf_append : ∀ a b : List (Ev X ℝ), stepsOf (a ++ b) = stepsOf a ++ stepsOf b
  | [], _ => rfl
  | .eval z o :: a, b => by simp [stepsOf, stepsOf_append a b]
  | .step y :: a, b => by simp [stepsOf, stepsOf_append a b]
  | .stop :: a, b => by simp [stepsOf, stepsOf_append a b]

theorem values_append : ∀ a b : List (Ev X ℝ), values (a ++ b) = values a ++ values b
  | [], _ => rfl
  | .eval z o :: a, b => by simp [values, values_append a b]
  | .step y :: a, b => by simp [values, values_append a b]
  | .stop :: a, b => by simp [values, values_append a b]

theorem chosen_append (f : FuncSq X Y) (oracle : X → X) : ∀ a b : List (Ev X ℝ),
    chosen f oracle (a ++ b) = chosen f oracle a ++ chosen f oracle b
  | [], _ => rfl
  | .eval z o :: a, b => by simp [chosen, chosen_append f oracle a b]
  | .step y :: a, b => by simp [chosen, chosen_append f oracle a b]
  | .stop :: a, b => by simp [chosen, chosen_append f oracle a b]

theorem lastX_append : ∀ (x : X) (a b : List (Ev X ℝ)), lastX x (a ++ b) = lastX (lastX x a) b
  | _, [], _ => rfl
  | x, .eval z o :: a, b => by simp [lastX, lastX_append x a b]
  | x, .step y :: a, b => by simp [lastX, lastX_append y a b]
  | x, .stop :: a, b => by simp [lastX, lastX_append x a b]

theorem ompRun_append {f : FuncSq X Y} {oracle : X → X} : ∀ (l : List X) (x : X) (a b : List (Ev X ℝ)), OmpRun f oracle l x a →
    OmpRun f oracle (l ++ chosen f oracle a) (lastX x a) b → OmpRun f oracle l x (a ++ b)
  | _, _, [], _, _, h => by simpa [chosen, lastX] using h
  | l, x, .eval z o :: a, b, ⟨h1, h2, h3⟩, h => by
    refine ⟨h1, h2, ompRun_append _ _ a b h3 ?_⟩
    subst h1
    simpa [chosen, lastX] using h
  | l, x, .step y :: a, b, ⟨h1, h2⟩, h => ⟨h1, ompRun_append _ _ a b h2 (by simpa [chosen, lastX] using h)⟩
  | l, x, .stop :: a, b, h1, h => ompRun_append _ _ a b h1 (by simpa [chosen, lastX] using h)

/-- What holds between two passes. `d`: number of objective values left out of the comparison, `δ`: least decrease. -/
structure OmpInv (f : FuncSq X Y) (oracle : X → X) (isPrune : Bool) (x₀ : X) (d : Nat) (δ : ℝ)
    (t : St (Atoms X × V) X ℝ) : Prop where
  good : Good f t.w.1 t.x
  sq : t.w.1.sq = t.w.1.atoms.map fun v => ‖f.A v‖ ^ 2
  pos : 1 ≤ t.i
  all : isPrune = false → t.w.1.atoms = (chosen f oracle t.trace).reverse ∧ t.w.1.atoms.length + 1 = t.i
  run : isPrune = false → OmpRun f oracle [] x₀ t.trace
  last : lastX x₀ t.trace = t.x
  dec : ((values t.trace).drop d).Pairwise (· > ·)
  below : ∀ e ∈ (values t.trace).drop d, f.eval t.x < e
  cnt : d ≤ (values t.trace).length
  path : (x₀ :: stepsOf t.trace).map f.eval = values t.trace ++ [f.eval t.x]
  num : (stepsOf t.trace).length + 1 = t.i
  low : 2 ≤ t.i → f.eval t.x + (t.i - 2) * δ ≤ f.eval 0

/-- State before the first pass. -/
def Fresh (x₀ : X) (t : St (Atoms X × V) X ℝ) : Prop := t.i = 1 ∧ t.w.1 = Atoms.empty ∧ t.trace = [] ∧ t.x = x₀

theorem values_stop (b : Bool) : values (if b then [.stop] else [] : List (Ev X ℝ)) = [] := by cases b <;> rfl
theorem stepsOf_stop (b : Bool) : stepsOf (if b then [.stop] else [] : List (Ev X ℝ)) = [] := by cases b <;> rfl
theorem chosen_stop (f : FuncSq X Y) (oracle : X → X) (b : Bool) :
    chosen f oracle (if b then [.stop] else [] : List (Ev X ℝ)) = [] := by cases b <;> rfl
theorem lastX_stop (x : X) (b : Bool) : lastX x (if b then [.stop] else [] : List (Ev X ℝ)) = x := by cases b <;> rfl
theorem ompRun_stop {f : FuncSq X Y} {oracle : X → X} (l : List X) (x : X) (b : Bool) :
    OmpRun f oracle l x (if b then [.stop] else []) := by cases b <;> trivial

/-- The events of a pass that steps. -/
def passEvents (x x' : X) (o : ℝ) (b c : Bool) : List (Ev X ℝ) :=
  (.eval x o :: if b then [.stop] else []) ++ .step x' :: if c then [.stop] else []

theorem passEvents_spec (f : FuncSq X Y) (oracle : X → X) (x x' : X) (o : ℝ) (b c : Bool) (y : X) :
    values (passEvents x x' o b c) = [o] ∧ chosen f oracle (passEvents x x' o b c) = [oracle (f.grad x)] ∧
      lastX y (passEvents x x' o b c) = x' ∧ stepsOf (passEvents x x' o b c) = [x'] := by
  cases b <;> cases c <;> simp [passEvents, values, chosen, lastX, stepsOf]

theorem passEvents_run {f : FuncSq X Y} {oracle : X → X} {l : List X} {x x' : X} (b c : Bool)
    (h : x' ∈ spanOf (l ++ [oracle (f.grad x)]) ∧ ∀ z ∈ spanOf (l ++ [oracle (f.grad x)]), f.eval x' ≤ f.eval z) :
    OmpRun f oracle l x (passEvents x x' (f.eval x) b c) := by
  cases b <;> cases c <;> simp [passEvents, OmpRun, h.1] <;> exact h.2

theorem spanOf_perm {l l' : List X} (h : ∀ z, z ∈ l ↔ z ∈ l') : spanOf l = spanOf l' := by
  unfold spanOf
  congr 1
  ext z
  exact h z

/-- Each step lowers the objective by `δ` at least. -/
def LeastDrop (f : FuncSq X Y) (oracle : X → X) (tol δ : ℝ) : Prop :=
  ∀ x, tol ≤ |⟪oracle (f.grad x), f.grad x⟫| →
    δ ≤ 3 / 4 * (⟪oracle (f.grad x), f.grad x⟫ ^ 2 / (2 * ‖f.A (oracle (f.grad x))‖ ^ 2))

theorem leastDrop_zero (f : FuncSq X Y) (oracle : X → X) (tol : ℝ) : LeastDrop f oracle tol 0 := by
  intro x _
  positivity

theorem leastDrop_bound {f : FuncSq X Y} (hf : f.Adj) {oracle : X → X} {tol L : ℝ} (ht : 0 < tol)
    (hL : ∀ g, ‖f.A (oracle g)‖ ≤ L) : LeastDrop f oracle tol (3 / 4 * (tol ^ 2 / (2 * L ^ 2))) := by
  intro x hsg
  have hA : f.A (oracle (f.grad x)) ≠ 0 := by
    intro h
    nth_rewrite 2 [FuncSq.grad] at hsg
    rw [← hf, h, inner_zero_left, abs_zero] at hsg
    linarith
  have hpos : 0 < ‖f.A (oracle (f.grad x))‖ := norm_pos_iff.2 hA
  have h1 : tol ^ 2 ≤ ⟪oracle (f.grad x), f.grad x⟫ ^ 2 := by
    rw [← sq_abs ⟪oracle (f.grad x), f.grad x⟫]
    exact pow_le_pow_left₀ ht.le hsg 2
  have h2 : ‖f.A (oracle (f.grad x))‖ ^ 2 ≤ L ^ 2 := pow_le_pow_left₀ hpos.le (hL _) 2
  have := div_le_div₀ (by positivity) h1 (by positivity) (show 2 * ‖f.A (oracle (f.grad x))‖ ^ 2 ≤ 2 * L ^ 2 by linarith)
  linarith

section run

variable {f : FuncSq X Y} {solve : List Y → Y → List ℝ} {isPrune : Bool} {oracle : X → X} {tol δ : ℝ} {cb : Quiet V X}

/-- A pass that steps keeps the invariant. -/
theorem omp_next (hf : f.Adj) (hs : LeastSquares solve) (ht : 0 < tol) (hδ : LeastDrop f oracle tol δ)
    {x₀ : X} {d m : Nat} {t t' : St (Atoms X × V) X ℝ} (hI : OmpInv f oracle isPrune x₀ d δ t)
    (h : body (ompUser f solve isPrune oracle tol cb) m t = .inl t') :
    OmpInv f oracle isPrune x₀ d δ t' ∧ t'.i = t.i + 1 := by
  rcases omp_body (f := f) (solve := solve) (isPrune := isPrune) (oracle := oracle) (tol := tol) (cb := cb) (m := m) t with
    ⟨h', -⟩ | ⟨-, -, v, stop, ⟨-, h'⟩ | ⟨hgap, ⟨b, hb⟩, st, h'⟩⟩
  · rw [h'] at h; cases h
  · rw [h'] at h; cases h
  have hx0 := hI.good.orth hf hI.good.mem
  have hsg : tol ≤ |⟪oracle (f.grad t.x), f.grad t.x⟫| := by
    rwa [inner_sub_left, hx0, zero_sub, abs_neg] at hgap
  have hne : ⟪oracle (f.grad t.x), f.grad t.x⟫ ≠ 0 := by
    intro e
    rw [e, abs_zero] at hsg
    linarith
  obtain ⟨a', x', hu, hg, hq, hnil, hall, hA, hdrop⟩ := span_step hf hs isPrune hI.good hI.sq hne
  obtain ⟨v', hb'⟩ := h' a' x' hu
  rw [hb'] at h
  cases h
  have hpos : 0 < ⟪oracle (f.grad t.x), f.grad t.x⟫ ^ 2 / (2 * ‖f.A (oracle (f.grad t.x))‖ ^ 2) := by positivity
  have hstep : f.eval x' ≤ f.eval t.x - δ := by
    have := hδ t.x hsg
    linarith
  have hlt : f.eval x' < f.eval t.x := by linarith
  have hev : (t.trace ++ .eval t.x (f.eval t.x) :: if stop then [.stop] else []) ++ (.step x' :: if st then [.stop] else []) =
      t.trace ++ passEvents t.x x' (f.eval t.x) stop st := by
    rw [passEvents, List.append_assoc]
  obtain ⟨p1, p2, p3, p4⟩ := passEvents_spec f oracle t.x x' (f.eval t.x) stop st (lastX x₀ t.trace)
  refine ⟨⟨hg, hq, Nat.le_add_left _ _, ?_, ?_, ?_, ?_, ?_, ?_, ?_, ?_, ?_⟩, rfl⟩
  · intro hp
    obtain ⟨e1, e2⟩ := hI.all hp
    refine ⟨?_, ?_⟩
    · dsimp only
      rw [hev, chosen_append, p2, hall hp, e1]
      simp
    · dsimp only
      rw [hall hp]
      simp [e2]
  · intro hp
    dsimp only
    rw [hev]
    refine ompRun_append _ _ _ _ (hI.run hp) ?_
    rw [hI.last, List.nil_append]
    have hset : spanOf a'.atoms = spanOf (chosen f oracle t.trace ++ [oracle (f.grad t.x)]) := by
      apply spanOf_perm
      intro z
      rw [hall hp, (hI.all hp).1]
      simp [or_comm]
    refine passEvents_run _ _ ⟨?_, ?_⟩
    · rw [← hset]
      exact hg.mem
    · intro z hz
      rw [← hset] at hz
      exact hg.best z hz
  · dsimp only
    rw [hev, lastX_append, p3]
  · dsimp only
    rw [hev, values_append, p1, List.drop_append_of_le_length hI.cnt, List.pairwise_append]
    refine ⟨hI.dec, by simp, ?_⟩
    intro a ha b hb
    simp only [List.mem_singleton] at hb
    subst hb
    exact hI.below a ha
  · dsimp only
    rw [hev, values_append, p1, List.drop_append_of_le_length hI.cnt]
    intro e he
    rw [List.mem_append, List.mem_singleton] at he
    rcases he with he | rfl
    · have := hI.below e he
      linarith
    · linarith
  · dsimp only
    rw [hev, values_append, List.length_append]
    exact le_trans hI.cnt (Nat.le_add_right _ _)
  · dsimp only
    rw [hev, stepsOf_append, p4, values_append, p1, ← List.cons_append, List.map_append, hI.path]
    rfl
  · dsimp only
    rw [hev, stepsOf_append, p4, List.length_append, ← hI.num]
    rfl
  · intro _
    dsimp only
    push_cast
    rcases Nat.lt_or_ge t.i 2 with hlt | hge
    · have : t.i = 1 := by have := hI.pos; omega
      rw [this]
      have h0 := hg.best 0 (Submodule.zero_mem _)
      push_cast
      linarith
    · have := hI.low hge
      linarith

/-- The first pass from any starting point. -/
theorem omp_first (hf : f.Adj) (hs : LeastSquares solve) (ht : 0 < tol) (hor : ∀ g, g ≠ 0 → ⟪oracle g, g⟫ ≠ 0)
    {x₀ : X} {m : Nat} {t t' : St (Atoms X × V) X ℝ} (hI : Fresh x₀ t)
    (h : body (ompUser f solve isPrune oracle tol cb) m t = .inl t') (δ : ℝ) :
    OmpInv f oracle isPrune x₀ 1 δ t' ∧ t'.i = t.i + 1 := by
  obtain ⟨hi, hw, htr, hx⟩ := hI
  rcases omp_body (f := f) (solve := solve) (isPrune := isPrune) (oracle := oracle) (tol := tol) (cb := cb) (m := m) t with
    ⟨h', -⟩ | ⟨-, -, v, stop, ⟨-, h'⟩ | ⟨hgap, ⟨b, hb⟩, st, h'⟩⟩
  · rw [h'] at h; cases h
  · rw [h'] at h; cases h
  have hgne : f.grad t.x ≠ 0 := by
    intro e
    rw [e, inner_zero_right, abs_zero] at hgap
    linarith
  have hA : f.A (oracle (f.grad t.x)) ≠ 0 := by
    intro e
    apply hor _ hgne
    nth_rewrite 2 [FuncSq.grad]
    rw [← hf, e, inner_zero_left]
  have hind : Indep ((oracle (f.grad t.x) :: t.w.1.atoms).map f.A) := by
    rw [hw, List.map_cons]
    refine indep_cons indep_nil ?_
    simpa [Atoms.empty, spanOf] using hA
  obtain ⟨a', x', hu, hg, hq, hnil, hsub, hall, -⟩ := span_core hs isPrune t.x hind (by rw [hw]; rfl)
  obtain ⟨v', hb'⟩ := h' a' x' hu
  rw [hb'] at h
  cases h
  have hev : (t.trace ++ .eval t.x (f.eval t.x) :: if stop then [.stop] else []) ++ (.step x' :: if st then [.stop] else []) =
      passEvents t.x x' (f.eval t.x) stop st := by
    rw [passEvents, htr, List.nil_append]
  obtain ⟨p1, p2, p3, p4⟩ := passEvents_spec f oracle t.x x' (f.eval t.x) stop st x₀
  refine ⟨⟨hg, hq, Nat.le_add_left _ _, ?_, ?_, ?_, ?_, ?_, ?_, ?_, ?_, ?_⟩, rfl⟩
  · intro hp
    dsimp only
    rw [hev, p2, hall hp, hw, hi]
    exact ⟨rfl, rfl⟩
  · intro hp
    dsimp only
    rw [hev, ← hx]
    refine passEvents_run _ _ ?_
    have : a'.atoms = [oracle (f.grad t.x)] := by rw [hall hp, hw]; rfl
    rw [List.nil_append, ← this]
    exact ⟨hg.mem, hg.best⟩
  · dsimp only
    rw [hev, p3]
  · dsimp only
    rw [hev, p1]
    simp
  · dsimp only
    rw [hev, p1]
    simp
  · dsimp only
    rw [hev, p1]
    simp
  · dsimp only
    rw [hev, p4, p1, ← hx]
    rfl
  · dsimp only
    rw [hev, p4, hi]
    rfl
  · intro _
    dsimp only
    rw [hi]
    have h0 := hg.best 0 (Submodule.zero_mem _)
    push_cast
    linarith

/-- A start at 0 is as good as after a step. -/
theorem omp_zero (v : V) (δ : ℝ) (isPrune : Bool) :
    OmpInv f oracle isPrune 0 0 δ (start (ompUser f solve isPrune oracle tol cb) (Atoms.empty, v) 0) := by
  refine ⟨⟨rfl, ?_, ?_, ?_⟩, rfl, le_refl _, fun _ => ⟨rfl, rfl⟩, fun _ => trivial, rfl, ?_, ?_, ?_, rfl, rfl, ?_⟩
  · simp [start, ompUser, Atoms.empty, Atoms.recover, comb]
  · exact indep_nil
  · intro y hy
    have : y = 0 := by simpa [start, ompUser, Atoms.empty, spanOf] using hy
    rw [this]
    exact le_refl _
  · simp [start, values]
  · simp [start, values]
  · simp [start, values]
  · simp [start]

/-- What a run guarantees. -/
structure OmpResult (f : FuncSq X Y) (oracle : X → X) (isPrune : Bool) (tol : ℝ) (x₀ : X) (d : Nat) (δ : ℝ) (m : Nat)
    (e : Exit) (t : St (Atoms X × V) X ℝ) : Prop where
  run : isPrune = false → OmpRun f oracle [] x₀ t.trace
  last : t.x = lastX x₀ t.trace
  dec : (((x₀ :: stepsOf t.trace).map f.eval).drop d).Pairwise (· > ·)
  steps : isPrune = false → ∀ n, (∀ l : List Y, Indep l → l.length ≤ n) → t.i ≤ n + 1
  low : 2 ≤ t.i → (t.i - 2) * δ ≤ f.eval 0
  num : (stepsOf t.trace).length + 1 = t.i
  gap : e = .gap → |⟪t.x - oracle (f.grad t.x), f.grad t.x⟫| < tol ∧
    (x₀ = 0 ∨ 2 ≤ t.i → |⟪oracle (f.grad t.x), f.grad t.x⟫| < tol) ∧ t.obj = f.eval t.x
  loop : e = .loop → t.term = true ∨ t.i = m

theorem omp_run (hf : f.Adj) (hs : LeastSquares solve) (ht : 0 < tol) (hδ : LeastDrop f oracle tol δ) {x₀ : X} {d m fuel : Nat}
    (hstart : (x₀ = 0 ∧ d = 0) ∨ (d = 1 ∧ ∀ g, g ≠ 0 → ⟪oracle g, g⟫ ≠ 0)) {v : V} {e : Exit}
    {t : St (Atoms X × V) X ℝ}
    (h : optimize (ompUser f solve isPrune oracle tol cb) m fuel (Atoms.empty, v) x₀ = some (e, t)) :
    OmpResult f oracle isPrune tol x₀ d δ m e t := by
  let I : St (Atoms X × V) X ℝ → Prop := fun t => OmpInv f oracle isPrune x₀ d δ t ∨
    (Fresh x₀ t ∧ d = 1 ∧ ∀ g, g ≠ 0 → ⟪oracle g, g⟫ ≠ 0)
  have h0 : I (start (ompUser f solve isPrune oracle tol cb) (Atoms.empty, v) x₀) := by
    rcases hstart with ⟨rfl, rfl⟩ | hd
    · exact .inl (omp_zero v δ isPrune)
    · exact .inr ⟨⟨rfl, rfl, rfl, rfl⟩, hd⟩
  have hpost : ∀ t r, I t → body (ompUser f solve isPrune oracle tol cb) m t = .inr r →
      OmpResult f oracle isPrune tol x₀ d δ m r.1 r.2 := by
    intro t r hI h
    have hlow : OmpInv f oracle isPrune x₀ d δ t → 2 ≤ t.i → (t.i - 2) * δ ≤ f.eval 0 := by
      intro hI h2
      have := hI.low h2
      have := eval_nonneg f t.x
      linarith
    have hdec : OmpInv f oracle isPrune x₀ d δ t → (((x₀ :: stepsOf t.trace).map f.eval).drop d).Pairwise (· > ·) := by
      intro hI
      rw [hI.path, List.drop_append_of_le_length hI.cnt, List.pairwise_append]
      refine ⟨hI.dec, by simp, ?_⟩
      intro a ha b hb
      simp only [List.mem_singleton] at hb
      subst hb
      exact hI.below a ha
    have hsteps : OmpInv f oracle isPrune x₀ d δ t → isPrune = false →
        ∀ n, (∀ l : List Y, Indep l → l.length ≤ n) → t.i ≤ n + 1 := by
      intro hI hp n hn
      have h1 := hn _ hI.good.indep
      rw [List.length_map] at h1
      have := (hI.all hp).2
      omega
    rcases omp_body (f := f) (solve := solve) (isPrune := isPrune) (oracle := oracle) (tol := tol) (cb := cb) (m := m) t with
      ⟨h', hor⟩ | ⟨-, -, v, stop, ⟨hgap, h'⟩ | ⟨hgap, ⟨b, hb⟩, st, h'⟩⟩
    · rw [h'] at h
      cases h
      rcases hI with hI | ⟨⟨h1, h2, h3, h4⟩, h5, -⟩
      · exact ⟨hI.run, hI.last.symm, hdec hI, hsteps hI, hlow hI, hI.num, (fun h => by cases h), fun _ => hor.symm⟩
      · refine ⟨?_, ?_, ?_, ?_, ?_, by rw [h3, h1]; rfl, (fun h => by cases h), fun _ => hor.symm⟩
        · intro _
          dsimp only
          rw [h3]
          trivial
        · dsimp only
          rw [h3, h4]
          rfl
        · dsimp only
          rw [h3, h5]
          simp [stepsOf]
        · intro _ n _
          dsimp only
          omega
        · intro h
          dsimp only at h
          omega
    · rw [h'] at h
      cases h
      rcases hI with hI | ⟨⟨h1, h2, h3, h4⟩, h5, -⟩
      · have hx0 := hI.good.orth hf hI.good.mem
        refine ⟨?_, ?_, ?_, hsteps hI, hlow hI, ?_, ?_, (fun h => by cases h)⟩
        · intro hp
          refine ompRun_append _ _ _ _ (hI.run hp) ?_
          rw [hI.last]
          exact ⟨rfl, rfl, ompRun_stop _ _ _⟩
        · dsimp only
          rw [lastX_append, hI.last]
          exact (lastX_stop t.x stop).symm
        · dsimp only
          rw [stepsOf_append]
          simp only [stepsOf, stepsOf_stop, List.append_nil]
          exact hdec hI
        · dsimp only
          rw [stepsOf_append, ← hI.num]
          simp [stepsOf, stepsOf_stop]
        · intro _
          refine ⟨hgap, fun _ => ?_, rfl⟩
          rwa [inner_sub_left, hx0, zero_sub, abs_neg] at hgap
      · refine ⟨?_, ?_, ?_, ?_, ?_, ?_, ?_, (fun h => by cases h)⟩
        · intro _
          dsimp only
          rw [h3, h4]
          exact ⟨rfl, rfl, ompRun_stop _ _ _⟩
        · dsimp only
          rw [h3, List.nil_append, h4]
          exact (lastX_stop x₀ stop).symm
        · dsimp only
          rw [h3, List.nil_append, h5]
          simp [stepsOf, stepsOf_stop]
        · intro _ n _
          dsimp only
          omega
        · intro h
          dsimp only at h
          omega
        · dsimp only
          rw [h3, h1]
          simp [stepsOf, stepsOf_stop]
        · intro _
          refine ⟨hgap, ?_, rfl⟩
          rintro (h | h)
          · dsimp only
            rw [h4, h, zero_sub, inner_neg_left, abs_neg] at hgap
            rwa [h4, h]
          · dsimp only at h
            omega
    · rw [hb] at h
      cases h
  obtain ⟨t₀, hr, rfl⟩ := run_inv I _ (by
    intro t t' hI h
    rcases hI with hI | ⟨hI, rfl, hor⟩
    · exact .inl (omp_next hf hs ht hδ hI h).1
    · exact .inl (omp_first hf hs ht hor hI h δ).1) hpost h0 h
  exact ⟨hr.run, hr.last, hr.dec, hr.steps, hr.low, hr.num, hr.gap, hr.loop⟩

end run

end Ens.Fw
