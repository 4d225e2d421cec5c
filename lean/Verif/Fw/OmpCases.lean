import Verif.Fw.OmpProps

/-
Orthogonal matching pursuit: cases in the plane (`ℂ` as a real inner product space) and in space; properties C209, C211, C213.
-/

namespace Ens.Fw

open scoped RealInnerProductSpace

theorem cinner (z w : ℂ) : (⟪z, w⟫ : ℝ) = z.re * w.re + z.im * w.im := by
  rw [Complex.inner]
  simp [Complex.mul_re]
  ring

/-- `‖x - b‖² / 2` in the plane. -/
noncomputable def plane (b : ℂ) : FuncSq ℂ ℂ := ⟨LinearMap.id, LinearMap.id, b⟩

theorem plane_adj (b : ℂ) : (plane b).Adj := fun _ _ => rfl

theorem plane_eval (b x : ℂ) : (plane b).eval x = ((x.re - b.re) ^ 2 + (x.im - b.im) ^ 2) / 2 := by
  simp only [FuncSq.eval, plane, LinearMap.id_apply, cinner, Complex.sub_re, Complex.sub_im]
  ring

theorem plane_grad (b x : ℂ) : (plane b).grad x = x - b := rfl

open scoped Classical in
/-- The solver for the unit ball of the 1-norm in the plane: minus the sign of the first largest entry. -/
noncomputable def corner (g : ℂ) : ℂ :=
  if |g.im| ≤ |g.re| then (if 0 < g.re then -1 else 1) else (if 0 < g.im then -Complex.I else Complex.I)

theorem corner_inner (g : ℂ) (hg : g ≠ 0) : (⟪corner g, g⟫ : ℝ) ≠ 0 := by
  unfold corner
  rw [cinner]
  split_ifs with h1 h2 h3
  · simp; linarith
  · simp
    intro h
    rw [h, abs_zero] at h1
    have := abs_nonpos_iff.1 h1
    exact hg (Complex.ext (by simpa using h) (by simpa using this))
  · simp; linarith
  · simp
    intro h
    rw [h, abs_zero] at h1
    exact h1 (abs_nonneg _)

/-- Callbacks that do nothing. -/
def silent : Quiet Unit ℂ := ⟨fun v _ => v, fun v _ _ _ => (v, false), fun v _ => (v, false), fun v _ => v⟩

/-- The hypotheses of C209 and C210 are met in the plane. -/
example : ∃ solve : List ℂ → ℂ → List ℝ, LeastSquares solve ∧ (plane ⟨1, 2⟩).Adj ∧ (∀ g, g ≠ 0 → ⟪corner g, g⟫ ≠ 0) := by
  obtain ⟨solve, hs⟩ := exists_leastSquares (Y := ℂ)
  exact ⟨solve, hs, plane_adj _, corner_inner⟩

theorem silent_run {f : FuncSq ℂ ℂ} {solve : List ℂ → ℂ → List ℝ} {isPrune : Bool} {tol : ℝ} {a a' : Atoms ℂ} {x x' : ℂ}
    (hgap : tol ≤ |⟪x - corner (f.grad x), f.grad x⟫|)
    (hu : updateSpan f solve isPrune a x (corner (f.grad x)) = some (a', x')) :
    optimize (ompUser f solve isPrune corner tol silent) 2 2 (a, ()) x =
      some (.loop, ⟨(a', ()), x', f.eval x, false, 2, [.eval x (f.eval x), .step x']⟩) := by
  have hb : body (ompUser f solve isPrune corner tol silent) 2 (start (ompUser f solve isPrune corner tol silent) (a, ()) x) =
      .inl ⟨(a', ()), x', f.eval x, false, 2, [.eval x (f.eval x), .step x']⟩ := by
    unfold body
    simp only [start, ompUser, silent, hu]
    simp [-Complex.inner, not_lt.2 hgap]
  unfold optimize
  rw [iterate, hb]
  rfl

/-- **C209** The first step from a start other than 0 can raise the objective: the coordinates become a multiple of the first
atom, the start is forgotten. -/
theorem C209_descent_refuted :
    ¬ ∀ (f : FuncSq ℂ ℂ) (solve : List ℂ → ℂ → List ℝ) (x₀ : ℂ) (fuel m : Nat) (e : Exit) (t : St (Atoms ℂ × Unit) ℂ ℝ),
      f.Adj → LeastSquares solve →
      optimize (ompUser f solve false corner (1 / 10) silent) m fuel (Atoms.empty, ()) x₀ = some (e, t) →
      ((x₀ :: stepsOf t.trace).map f.eval).Pairwise (· > ·) := by
  intro h
  obtain ⟨solve, hs⟩ := exists_leastSquares (Y := ℂ)
  set x₀ : ℂ := ⟨1, 11 / 10⟩ with hx
  have hg : (plane ⟨1, 1⟩).grad x₀ = ⟨0, 1 / 10⟩ := by
    rw [plane_grad]
    apply Complex.ext <;> simp [hx]
    norm_num
  have hc : corner ((plane ⟨1, 1⟩).grad x₀) = -Complex.I := by
    rw [hg]
    unfold corner
    norm_num
  have hr := silent_run (f := plane ⟨1, 1⟩) (solve := solve) (isPrune := false) (tol := 1 / 10) (a := Atoms.empty) (x := x₀)
    (a' := ⟨[-Complex.I], solve [-Complex.I] ⟨1, 1⟩, [‖(-Complex.I : ℂ)‖ ^ 2]⟩) (x' := comb (solve [-Complex.I] ⟨1, 1⟩) [-Complex.I])
    (by rw [hc, hg, cinner, hx]; simp; norm_num [abs_of_pos]) (by rw [hc]; rfl)
  have := h _ solve _ _ _ _ _ (plane_adj _) hs hr
  simp only [stepsOf, List.map_cons, List.map_nil, List.pairwise_cons, List.mem_singleton, forall_eq, gt_iff_lt] at this
  have h1 := this.1
  rw [plane_eval, plane_eval] at h1
  have h2 := comb_mem (solve [-Complex.I] ⟨1, 1⟩) [-Complex.I]
  simp only [spanOf, List.mem_singleton, Set.setOf_eq_eq_singleton, Submodule.mem_span_singleton] at h2
  obtain ⟨c, hc⟩ := h2
  rw [← hc, hx] at h1
  simp at h1
  nlinarith [sq_nonneg (-c - 1)]

/-! ### C213: reuse of the optimizer -/

section
variable {V X Y : Type} [NormedAddCommGroup X] [InnerProductSpace ℝ X] [NormedAddCommGroup Y] [InnerProductSpace ℝ Y]

theorem ompRun_first {f : FuncSq X Y} {oracle : X → X} : ∀ tr : List (Ev X ℝ), OmpRun f oracle [] 0 tr → chosen f oracle tr ≠ [] →
    oracle (f.grad 0) ∈ chosen f oracle tr
  | [], _, h => absurd rfl h
  | .eval z o :: r, h, _ => by simp [chosen, h.1]
  | .step y :: r, h, hn => by
    have : y = 0 := by simpa [spanOf] using h.1.1
    subst this
    exact ompRun_first r h.2 hn
  | .stop :: r, h, hn => ompRun_first r h hn

theorem not_indep_of_mem {Z : Type} [NormedAddCommGroup Z] [InnerProductSpace ℝ Z] {v : Z} {l : List Z} (h : v ∈ l) :
    ¬ Indep (v :: l) := by
  intro hi
  have := (List.nodup_iff_injective_get.2 hi.injective)
  exact (List.nodup_cons.1 this).1 h

/-- **C213** (partial) If an `OMP` object has made a step in a call from 0 and is called again on the same function from 0, the columns
of the first least squares system of the second call are linearly dependent: the first atom comes twice. -/
theorem C213_repeated_partial {f : FuncSq X Y} {solve : List Y → Y → List ℝ} {oracle : X → X} {tol : ℝ} {cb : Quiet V X}
    (hf : f.Adj) (hs : LeastSquares solve) (ht : 0 < tol) {m fuel : Nat} {v : V} {e : Exit} {t : St (Atoms X × V) X ℝ}
    (h : optimize (ompUser f solve false oracle tol cb) m fuel (Atoms.empty, v) 0 = some (e, t))
    (hstep : stepsOf t.trace ≠ []) :
    (t.w.1.add f (oracle (f.grad 0)) 0).atoms = oracle (f.grad 0) :: t.w.1.atoms ∧
    ¬ Indep ((t.w.1.add f (oracle (f.grad 0)) 0).atoms.map f.A) := by
  refine ⟨add_atoms _ _ _ _, ?_⟩
  rw [add_atoms, List.map_cons]
  apply not_indep_of_mem
  apply List.mem_map_of_mem
  obtain ⟨t₀, ⟨tr, h1, h2, h3⟩, rfl⟩ := run_inv (OmpInv f oracle false 0 0 0)
    (fun r => ∃ tr, OmpRun f oracle [] 0 tr ∧ r.2.w.1.atoms = (chosen f oracle tr).reverse ∧
      (stepsOf r.2.trace ≠ [] → chosen f oracle tr ≠ [])) (fun t t' hI h => (omp_next hf hs ht (leastDrop_zero f oracle tol) hI h).1)
    (by
      intro t r hI h
      have hc : stepsOf t.trace ≠ [] → chosen f oracle t.trace ≠ [] := by
        intro hn e
        obtain ⟨a1, a2⟩ := hI.all rfl
        have := hI.num
        rw [a1, e] at a2
        apply hn
        apply List.length_eq_zero_iff.1
        simp at a2
        omega
      rcases omp_body (f := f) (solve := solve) (isPrune := false) (oracle := oracle) (tol := tol) (cb := cb) (m := m) t with
        ⟨h', hor⟩ | ⟨-, -, v, stop, ⟨hgap, h'⟩ | ⟨hgap, ⟨b, hb⟩, st, h'⟩⟩
      · rw [h'] at h
        cases h
        exact ⟨t.trace, hI.run rfl, (hI.all rfl).1, hc⟩
      · rw [h'] at h
        cases h
        refine ⟨t.trace, hI.run rfl, (hI.all rfl).1, ?_⟩
        intro hn
        apply hc
        intro e
        apply hn
        dsimp only
        rw [stepsOf_append, e]
        simp [stepsOf, stepsOf_stop]
      · rw [hb] at h
        cases h) (omp_zero v 0 false) h
  have : (finish (ompUser f solve false oracle tol cb) t₀).w.1 = t₀.w.1 := rfl
  rw [this, h2, List.mem_reverse]
  exact ompRun_first tr h1 (h3 hstep)

end

theorem indep_I_one : Indep [Complex.I, (1 : ℂ)] := by
  refine indep_cons (indep_cons indep_nil ?_) ?_
  · simp [spanOf]
  · simp only [spanOf, List.mem_singleton, Set.setOf_eq_eq_singleton, Submodule.mem_span_singleton]
    rintro ⟨a, ha⟩
    have := congrArg Complex.im ha
    simp at this

/-- **C213** The result of a call depends on earlier calls of the same object: its atoms stay. -/
theorem C213_reuse_refuted :
    ¬ ∀ (f₁ f₂ : FuncSq ℂ ℂ) (solve : List ℂ → ℂ → List ℝ) (e₁ e₂ e₃ : Exit) (t₁ t₂ t₃ : St (Atoms ℂ × Unit) ℂ ℝ),
      f₁.Adj → f₂.Adj → LeastSquares solve →
      optimize (ompUser f₁ solve false corner (1 / 10) silent) 2 2 (Atoms.empty, ()) 0 = some (e₁, t₁) →
      optimize (ompUser f₂ solve false corner (1 / 10) silent) 2 2 t₁.w 0 = some (e₂, t₂) →
      optimize (ompUser f₂ solve false corner (1 / 10) silent) 2 2 (Atoms.empty, ()) 0 = some (e₃, t₃) →
      t₂.x = t₃.x := by
  intro h
  obtain ⟨solve, hs⟩ := exists_leastSquares (Y := ℂ)
  have g1 : (plane 1).grad 0 = -1 := by simp [plane_grad]
  have g2 : (plane ⟨1, 2⟩).grad 0 = ⟨-1, -2⟩ := by
    rw [plane_grad]
    apply Complex.ext <;> simp
  have c1 : corner ((plane 1).grad 0) = 1 := by
    rw [g1]
    unfold corner
    norm_num
  have c2 : corner ((plane ⟨1, 2⟩).grad 0) = Complex.I := by
    rw [g2]
    unfold corner
    norm_num
  have gap2 : (1 / 10 : ℝ) ≤ |⟪(0 : ℂ) - corner ((plane ⟨1, 2⟩).grad 0), (plane ⟨1, 2⟩).grad 0⟫| := by
    rw [c2, g2, cinner]
    norm_num
  have r1 := silent_run (f := plane 1) (solve := solve) (isPrune := false) (tol := 1 / 10) (a := Atoms.empty) (x := 0)
    (a' := ⟨[1], solve [1] 1, [‖(1 : ℂ)‖ ^ 2]⟩) (x' := comb (solve [1] 1) [1])
    (by rw [c1, g1, cinner]; norm_num) (by rw [c1]; rfl)
  have r2 := silent_run (f := plane ⟨1, 2⟩) (solve := solve) (isPrune := false) (tol := 1 / 10)
    (a := ⟨[1], solve [1] 1, [‖(1 : ℂ)‖ ^ 2]⟩) (x := 0)
    (a' := ⟨[Complex.I, 1], solve [Complex.I, 1] ⟨1, 2⟩, [‖Complex.I‖ ^ 2, ‖(1 : ℂ)‖ ^ 2]⟩)
    (x' := comb (solve [Complex.I, 1] ⟨1, 2⟩) [Complex.I, 1]) gap2 (by rw [c2]; rfl)
  have r3 := silent_run (f := plane ⟨1, 2⟩) (solve := solve) (isPrune := false) (tol := 1 / 10) (a := Atoms.empty) (x := 0)
    (a' := ⟨[Complex.I], solve [Complex.I] ⟨1, 2⟩, [‖Complex.I‖ ^ 2]⟩) (x' := comb (solve [Complex.I] ⟨1, 2⟩) [Complex.I])
    gap2 (by rw [c2]; rfl)
  have he : comb (solve [Complex.I, 1] ⟨1, 2⟩) [Complex.I, 1] = comb (solve [Complex.I] ⟨1, 2⟩) [Complex.I] :=
    h _ _ solve _ _ _ _ _ _ (plane_adj _) (plane_adj _) hs r1 r2 r3
  have hl := (hs [Complex.I, 1] ⟨1, 2⟩ indep_I_one).2 [2, 1] rfl
  have hz : comb [2, 1] [Complex.I, (1 : ℂ)] - ⟨1, 2⟩ = 0 := by
    apply Complex.ext <;> simp [comb]
  rw [hz, norm_zero, norm_le_zero_iff, sub_eq_zero] at hl
  have h2 := comb_mem (solve [Complex.I] ⟨1, 2⟩) [Complex.I]
  simp only [spanOf, List.mem_singleton, Set.setOf_eq_eq_singleton, Submodule.mem_span_singleton] at h2
  obtain ⟨c, hc⟩ := h2
  rw [hl, ← hc] at he
  have := congrArg Complex.re he
  simp at this

/-! ### C211: later passes of the pruning -/

/-- Space. -/
abbrev E3 := EuclideanSpace ℝ (Fin 3)

noncomputable def space (b : E3) : FuncSq E3 E3 := ⟨LinearMap.id, LinearMap.id, b⟩

def vec (x y z : ℝ) : E3 := !₂[x, y, z]

theorem vec_inner (a b c x y z : ℝ) : (⟪vec a b c, vec x y z⟫ : ℝ) = a * x + b * y + c * z := by
  simp [vec, PiLp.inner_apply, Fin.sum_univ_three]
  ring

theorem vec_sub (a b c x y z : ℝ) : vec a b c - vec x y z = vec (a - x) (b - y) (c - z) := by
  ext i
  fin_cases i <;> simp [vec]

theorem vec_add (a b c x y z : ℝ) : vec a b c + vec x y z = vec (a + x) (b + y) (c + z) := by
  ext i
  fin_cases i <;> simp [vec]

theorem vec_smul (k a b c : ℝ) : k • vec a b c = vec (k * a) (k * b) (k * c) := by
  ext i
  fin_cases i <;> simp [vec]

theorem vec_norm (a b c : ℝ) : ‖vec a b c‖ ^ 2 = a ^ 2 + b ^ 2 + c ^ 2 := by
  rw [← real_inner_self_eq_norm_sq, vec_inner]
  ring

theorem vec_zero : (0 : E3) = vec 0 0 0 := by
  ext i
  fin_cases i <;> simp [vec]

theorem vec_inj {a b c x y z : ℝ} (h : vec a b c = vec x y z) : a = x ∧ b = y ∧ c = z := by
  have h0 := congrArg (fun v : E3 => v 0) h
  have h1 := congrArg (fun v : E3 => v 1) h
  have h2 := congrArg (fun v : E3 => v 2) h
  simpa [vec] using And.intro h0 (And.intro h1 h2)

theorem space_eval (a b c x y z : ℝ) : (space (vec a b c)).eval (vec x y z) = ((x - a) ^ 2 + (y - b) ^ 2 + (z - c) ^ 2) / 2 := by
  simp only [FuncSq.eval, space, LinearMap.id_apply, vec_sub, vec_inner]
  ring

theorem space_adj (b : E3) : (space b).Adj := fun _ _ => rfl

theorem comb3_two (p q a b c x y z : ℝ) : comb [p, q] [vec a b c, vec x y z] = vec (p * a + q * x) (p * b + q * y) (p * c + q * z) := by
  simp [comb, vec_smul, vec_add]

theorem comb3_one (p a b c : ℝ) : comb [p] [vec a b c] = vec (p * a) (p * b) (p * c) := by
  simp [comb, vec_smul]

theorem len_two {l : List ℝ} (h : l.length = 2) : ∃ p q, l = [p, q] := by
  obtain ⟨p, q, rfl⟩ := List.length_eq_two.1 h
  exact ⟨p, q, rfl⟩

theorem indep_three : Indep [vec 1 0 0, vec 0 1 0, vec 1 (-1) 1] := by
  refine indep_cons (indep_cons (indep_cons indep_nil ?_) ?_) ?_
  · intro h
    have : vec 1 (-1) 1 = 0 := by simpa [spanOf] using h
    rw [vec_zero] at this
    have := vec_inj this
    norm_num at this
  · intro h
    obtain ⟨c, hc, he⟩ := exists_comb _ _ h
    obtain ⟨p, rfl⟩ := List.length_eq_one_iff.1 hc
    rw [comb3_one] at he
    obtain ⟨h1, h2, h3⟩ := vec_inj he
    linarith
  · intro h
    obtain ⟨c, hc, he⟩ := exists_comb _ _ h
    obtain ⟨p, q, rfl⟩ := len_two hc
    rw [comb3_two] at he
    obtain ⟨h1, h2, h3⟩ := vec_inj he
    linarith

theorem indexMin_of {l : List ℝ} {i : Nat} (hi : i < l.length) (h : ∀ j (hj : j < l.length), j ≠ i → l[i] < l[j]) : indexMin l = i := by
  obtain ⟨h1, h2⟩ := indexMin_spec (l := l) (by rintro rfl; simp at hi)
  by_contra hne
  have h3 := h (indexMin l) h1 hne
  have h4 := h2 _ (List.getElem_mem hi)
  linarith

/-- **C211** In later passes the atom tried need not be the one whose deletion raises the objective least: `sqTerm` is computed
before the first pass and not renewed when the coefficients change. -/
theorem C211_choice_refuted :
    ¬ ∀ (f : FuncSq E3 E3) (solve : List E3 → E3 → List ℝ) (F : ℝ) (a : Atoms E3) (t₁ t₂ : Atoms E3 × List ℝ),
      f.Adj → LeastSquares solve → Good f a a.recover → (a.sq = a.atoms.map fun v => ‖f.A v‖ ^ 2) →
      pruneBody f solve F (a, List.zipWith (fun q c => 0.5 * q * c ^ 2) a.sq a.coeffs) = .inl t₁ →
      pruneBody f solve F t₁ = .inl t₂ →
      ∃ i < t₁.1.atoms.length, t₂.1.atoms = t₁.1.atoms.eraseIdx i ∧
        ∀ j < t₁.1.atoms.length, f.eval (comb (t₁.1.coeffs.eraseIdx i) (t₁.1.atoms.eraseIdx i)) ≤
          f.eval (comb (t₁.1.coeffs.eraseIdx j) (t₁.1.atoms.eraseIdx j)) := by
  intro h
  obtain ⟨solve, hs⟩ := exists_leastSquares (Y := E3)
  set f := space (vec 3 2 1) with hf
  have hA : ∀ l : List E3, l.map f.A = l := fun l => by simp [hf, space]
  set a : Atoms E3 := ⟨[vec 1 0 0, vec 0 1 0, vec 1 (-1) 1], [2, 3, 1], [1, 1, 3]⟩ with ha
  have hrec : a.recover = vec 3 2 1 := by
    simp only [ha, Atoms.recover, comb, List.zipWith_cons_cons, List.zipWith_nil_right, List.sum_cons, List.sum_nil, vec_smul,
      vec_zero, vec_add]
    norm_num
  have hgood : Good f a a.recover := by
    refine ⟨rfl, rfl, ?_, ?_⟩
    · rw [hA]
      exact indep_three
    · intro y _
      have : f.eval a.recover = 0 := by
        rw [hrec, hf, space_eval]
        norm_num
      rw [this]
      exact eval_nonneg _ _
  have hsq : a.sq = a.atoms.map fun v => ‖f.A v‖ ^ 2 := by
    simp only [ha, hf, space, LinearMap.id_apply, List.map_cons, List.map_nil, vec_norm]
    norm_num
  have hgrad : ∀ x y z : ℝ, f.grad (vec x y z) = vec (x - 3) (y - 2) (z - 1) := by
    intro x y z
    simp only [FuncSq.grad, hf, space, LinearMap.id_apply, vec_sub]
  -- first pass
  have hg1 : gaps f a (List.zipWith (fun q c => 0.5 * q * c ^ 2) a.sq a.coeffs) = [2, 9 / 2, 3 / 2] := by
    simp only [gaps, hrec, hgrad]
    simp only [ha, List.zipWith_cons_cons, List.zipWith_nil_right, vec_inner]
    norm_num
  have hi1 : indexMin ([2, 9 / 2, 3 / 2] : List ℝ) = 2 := by
    apply indexMin_of (by simp)
    intro j hj hne
    simp at hj
    interval_cases j <;> first | exact absurd rfl hne | norm_num
  have hind2 : Indep [vec 1 0 0, vec 0 1 0] := indep_sublist (by simp) indep_three
  have hs2 : solve [vec 1 0 0, vec 0 1 0] (vec 3 2 1) = [3, 2] := by
    obtain ⟨h1, h2⟩ := hs [vec 1 0 0, vec 0 1 0] (vec 3 2 1) hind2
    obtain ⟨p, q, he⟩ := len_two h1
    have h3 := h2 [3, 2] rfl
    rw [he] at h3 ⊢
    have h4 := pow_le_pow_left₀ (norm_nonneg _) h3 2
    rw [comb3_two, comb3_two, vec_sub, vec_sub, vec_norm, vec_norm] at h4
    have hp : p = 3 := by nlinarith [sq_nonneg (p - 3), sq_nonneg (q - 2)]
    have hq : q = 2 := by nlinarith [sq_nonneg (p - 3), sq_nonneg (q - 2)]
    rw [hp, hq]
  have hb1 : pruneBody f solve 5 (a, List.zipWith (fun q c => 0.5 * q * c ^ 2) a.sq a.coeffs) =
      .inl (⟨[vec 1 0 0, vec 0 1 0], [3, 2], [1, 1]⟩, [2, 9 / 2]) := by
    unfold pruneBody
    have hb : f.b = vec 3 2 1 := rfl
    simp only [hg1, hi1, hA, hb]
    simp only [ha, List.eraseIdx, hs2]
    rw [if_pos (by simp), if_neg]
    · norm_num
    · rw [comb3_two, hf, space_eval]
      norm_num
  -- second pass
  have hg2 : gaps f ⟨[vec 1 0 0, vec 0 1 0], [3, 2], [1, 1]⟩ [2, 9 / 2] = [2, 9 / 2] := by
    simp only [gaps, Atoms.recover, comb3_two, hgrad, List.zipWith_cons_cons, List.zipWith_nil_right, vec_inner]
    norm_num
  have hi2 : indexMin ([2, 9 / 2] : List ℝ) = 0 := by
    apply indexMin_of (by simp)
    intro j hj hne
    simp at hj
    interval_cases j <;> first | exact absurd rfl hne | norm_num
  have hind1 : Indep [vec 0 1 0] := indep_sublist (by simp) indep_three
  have hs1 : f.eval (comb (solve [vec 0 1 0] (vec 3 2 1)) [vec 0 1 0]) ≤ 5 := by
    have := (good_solve (f := f) hs (l := [vec 0 1 0]) (by rw [hA]; exact hind1) []).best (comb [2] [vec 0 1 0]) (comb_mem _ _)
    rw [hA] at this
    refine le_trans this ?_
    rw [comb3_one, hf, space_eval]
    norm_num
  have hb2 : pruneBody f solve 5 (⟨[vec 1 0 0, vec 0 1 0], [3, 2], [1, 1]⟩, [2, 9 / 2]) =
      .inl (⟨[vec 0 1 0], solve [vec 0 1 0] (vec 3 2 1), [1]⟩, [9 / 2]) := by
    unfold pruneBody
    have hb : f.b = vec 3 2 1 := rfl
    simp only [hg2, hi2, hA, hb]
    simp only [List.eraseIdx]
    rw [if_pos (by simp)]
    exact if_neg (not_lt.2 hs1)
  obtain ⟨i, hi, he, hj⟩ := h f solve 5 a _ _ (space_adj _) hs hgood hsq hb1 hb2
  have hi0 : i = 0 := by
    have hlt : i < 2 := hi
    interval_cases i
    · rfl
    · exfalso
      simp only [List.eraseIdx, List.cons.injEq, and_true] at he
      have := vec_inj he
      norm_num at this
  subst hi0
  have := hj 1 (by simp)
  simp only [List.eraseIdx, comb3_one] at this
  rw [hf, space_eval, space_eval] at this
  norm_num at this

/-- The hypotheses of `C211_prune` are met. -/
example : ∃ solve : List ℂ → ℂ → List ℝ, LeastSquares solve ∧ Good (plane ⟨1, 2⟩) ⟨[Complex.I, 1], [2, 1], [1, 1]⟩ ⟨1, 2⟩ := by
  obtain ⟨solve, hs⟩ := exists_leastSquares (Y := ℂ)
  refine ⟨solve, hs, rfl, ?_, ?_, ?_⟩
  · apply Complex.ext <;> simp [Atoms.recover, comb]
  · have : ([Complex.I, 1] : List ℂ).map (plane ⟨1, 2⟩).A = [Complex.I, 1] := by simp [plane]
    rw [this]
    exact indep_I_one
  · intro y _
    have : (plane ⟨1, 2⟩).eval ⟨1, 2⟩ = 0 := by rw [plane_eval]; norm_num
    rw [this]
    exact eval_nonneg _ _

end Ens.Fw
