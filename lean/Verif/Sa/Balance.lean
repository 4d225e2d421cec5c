import Verif.Sa.Invariance
import Verif.Sa.Props
import Mathlib.MeasureTheory.Constructions.Pi
import Mathlib.MeasureTheory.Measure.Lebesgue.Basic
import Mathlib.MeasureTheory.Measure.Prod
import Mathlib.MeasureTheory.Group.LIntegral
import Mathlib.MeasureTheory.Measure.Haar.OfBasis
import Mathlib.MeasureTheory.Measure.Haar.Unique
import Mathlib.MeasureTheory.Function.SpecialFunctions.Basic

/-
C290: at a fixed temperature the moves of simulated annealing satisfy detailed balance with respect to the Boltzmann distribution.
-/

namespace Ens.Sa

open MeasureTheory Set ENNReal

variable {n : Nat}

/-- The distribution of `arma::randu()`. -/
noncomputable def uniform : Measure ℝ := volume.restrict (Ioo 0 1)

instance : IsProbabilityMeasure uniform := ⟨by simp [uniform]⟩

/-- The displacement of a move of size one. -/
noncomputable def laplace (u : ℝ) : ℝ := proposeR 0 1 u

theorem propose_eq (v m u : ℝ) : proposeR v m u = v + m * laplace u := by
  simp only [laplace, proposeR]
  split_ifs <;> ring

theorem laplace_symm (u : ℝ) : laplace (1 - u) = -laplace u := by
  simp only [laplace, proposeR]
  rcases lt_trichotomy u (1 / 2) with h | h | h
  · rw [if_neg (by linarith), if_pos (by linarith)]
    have : 1 - (2 * (1 - u) - 1) = 1 + (2 * u - 1) := by ring
    rw [this]
    ring
  · subst h
    norm_num
  · rw [if_pos (by linarith), if_neg (by linarith)]
    have : 1 - (2 * u - 1) = 1 + (2 * (1 - u) - 1) := by ring
    rw [this]
    ring

theorem laplace_measurable : Measurable laplace := by
  unfold laplace proposeR
  refine measurable_const.add (Measurable.ite ?_ ?_ ?_)
  · exact measurableSet_lt (by fun_prop) measurable_const
  · exact measurable_const.mul (Real.measurable_log.comp (by fun_prop))
  · exact measurable_const.mul (Real.measurable_log.comp (by fun_prop))

theorem uniform_reflect (k : ℝ → ℝ≥0∞) : ∫⁻ u, k (1 - u) ∂uniform = ∫⁻ u, k u ∂uniform := by
  unfold uniform
  rw [← lintegral_indicator measurableSet_Ioo, ← lintegral_indicator measurableSet_Ioo,
    ← lintegral_sub_left_eq_self _ (1 : ℝ)]
  congr 1
  funext u
  by_cases h : u ∈ Ioo (0 : ℝ) 1
  · have h' : 1 - u ∈ Ioo (0 : ℝ) 1 := ⟨by linarith [h.2], by linarith [h.1]⟩
    rw [indicator_of_mem h, indicator_of_mem h', _root_.sub_sub_cancel]
  · have h' : 1 - u ∉ Ioo (0 : ℝ) 1 := fun hu => h ⟨by linarith [hu.2], by linarith [hu.1]⟩
    rw [indicator_of_notMem h, indicator_of_notMem h']

/-- The proposals are reversible: moving from `x` to `y` is as likely as moving from `y` to `x`. -/
theorem reversible (d : Fin n → ℝ) {F : (Fin n → ℝ) → (Fin n → ℝ) → ℝ≥0∞} (hF : Measurable (Function.uncurry F)) :
    ∫⁻ x, ∫⁻ u, F x (x + laplace u • d) ∂uniform = ∫⁻ x, ∫⁻ u, F (x + laplace u • d) x ∂uniform := by
  have hl : Measurable fun p : (Fin n → ℝ) × ℝ => p.1 + laplace p.2 • d :=
    measurable_fst.add ((laplace_measurable.comp measurable_snd).smul_const d)
  have m1 : Measurable fun p : (Fin n → ℝ) × ℝ => F p.1 (p.1 + laplace p.2 • d) := hF.comp (measurable_fst.prodMk hl)
  have m2 : Measurable fun p : (Fin n → ℝ) × ℝ => F (p.1 + laplace p.2 • d) p.1 := hF.comp (hl.prodMk measurable_fst)
  have s1 := lintegral_lintegral_swap (μ := (volume : Measure (Fin n → ℝ))) (ν := uniform)
    (f := fun x u => F x (x + laplace u • d)) m1.aemeasurable
  have s2 := lintegral_lintegral_swap (μ := (volume : Measure (Fin n → ℝ))) (ν := uniform)
    (f := fun x u => F (x + laplace u • d) x) m2.aemeasurable
  rw [s1, s2]
  rw [← uniform_reflect fun u => ∫⁻ x, F (x + laplace u • d) x]
  congr 1
  funext u
  rw [laplace_symm, ← lintegral_add_right_eq_self (fun x => F (x + -laplace u • d) x) (laplace u • d)]
  congr 1
  funext x
  congr 1
  simp

/-- Probability that a move to energy `e'` from energy `e` is accepted. -/
theorem accept_probability {T : ℝ} (hT : 0 < T) (e e' : ℝ) :
    uniform {xi | acceptsR e e' T xi = true} = ENNReal.ofReal (min 1 (Real.exp (-(e' - e) / T))) := by
  have hset : {xi | acceptsR e e' T xi = true} = {xi | e' - e ≤ 0 ∨ xi < Real.exp (-(e' - e) / T)} := by
    ext xi
    simp [acceptsR]
  rw [hset]
  by_cases h : e' - e ≤ 0
  · have h1 : 1 ≤ Real.exp (-(e' - e) / T) := Real.one_le_exp (div_nonneg (by linarith) hT.le)
    rw [min_eq_left h1]
    simp [h]
  · simp only [h, false_or]
    unfold uniform
    rw [Measure.restrict_apply (measurableSet_lt measurable_id' measurable_const)]
    have : {xi : ℝ | xi < Real.exp (-(e' - e) / T)} ∩ Ioo 0 1 = Ioo 0 (min 1 (Real.exp (-(e' - e) / T))) := by
      ext xi
      simp only [mem_inter_iff, mem_setOf_eq, mem_Ioo, lt_min_iff]
      tauto
    rw [this, Real.volume_Ioo, sub_zero]

/-- The proposal in direction `i`. -/
noncomputable def target (i : Fin n) (m : ℝ) (x : Fin n → ℝ) (u : ℝ) : Fin n → ℝ := Function.update x i (proposeR (x i) m u)

/-- Where a move leads. -/
noncomputable def nxt (φ : (Fin n → ℝ) → ℝ) (T : ℝ) (i : Fin n) (m : ℝ) (x : Fin n → ℝ) (u xi : ℝ) : Fin n → ℝ :=
  if acceptsR (φ x) (φ (target i m x u)) T xi then target i m x u else x

theorem target_eq (i : Fin n) (m : ℝ) (x : Fin n → ℝ) (u : ℝ) : target i m x u = x + laplace u • (Pi.single i m : Fin n → ℝ) := by
  funext j
  unfold target
  by_cases h : j = i
  · subst h
    simp [propose_eq, mul_comm]
  · simp [h]

section balance
variable {φ : (Fin n → ℝ) → ℝ} {T : ℝ} {i : Fin n} {m : ℝ}

/-- Acceptance probability. -/
noncomputable def acc (φ : (Fin n → ℝ) → ℝ) (T : ℝ) (x y : Fin n → ℝ) : ℝ≥0∞ := ENNReal.ofReal (min 1 (Real.exp (-(φ y - φ x) / T)))

/-- Unnormalised Boltzmann density. -/
noncomputable def boltz (φ : (Fin n → ℝ) → ℝ) (T : ℝ) (x : Fin n → ℝ) : ℝ≥0∞ := ENNReal.ofReal (Real.exp (-φ x / T))

theorem acc_le (x y : Fin n → ℝ) : acc φ T x y ≤ 1 := by
  unfold acc
  rw [← ENNReal.ofReal_one]
  exact ENNReal.ofReal_le_ofReal (min_le_left _ _)

theorem boltz_acc (x y : Fin n → ℝ) : boltz φ T x * acc φ T x y = min (boltz φ T x) (boltz φ T y) := by
  have h : Real.exp (-φ x / T) * Real.exp (-(φ y - φ x) / T) = Real.exp (-φ y / T) := by
    rw [← Real.exp_add]; congr 1; ring
  unfold boltz acc
  rw [← ENNReal.ofReal_mul (Real.exp_pos _).le, mul_min_of_nonneg _ _ (Real.exp_pos _).le, mul_one, h, ENNReal.ofReal_min]

theorem acc_measurableSet (e e' : ℝ) : MeasurableSet {xi | acceptsR e e' T xi = true} := by
  have hset : {xi | acceptsR e e' T xi = true} = {xi | e' - e ≤ 0 ∨ xi < Real.exp (-(e' - e) / T)} := by
    ext xi
    simp [acceptsR]
  rw [hset]
  exact (MeasurableSet.const _).union (measurableSet_lt measurable_id' measurable_const)

/-- The acceptance draw averaged out. -/
noncomputable def part (φ : (Fin n → ℝ) → ℝ) (T : ℝ) (h : (Fin n → ℝ) → ℝ≥0∞) (x y : Fin n → ℝ) : ℝ≥0∞ :=
  acc φ T x y * h y + (1 - acc φ T x y) * h x

theorem nxt_mean (hT : 0 < T) (x : Fin n → ℝ) (u : ℝ) (h : (Fin n → ℝ) → ℝ≥0∞) :
    ∫⁻ xi, h (nxt φ T i m x u xi) ∂uniform = part φ T h x (target i m x u) := by
  have ha := accept_probability hT (φ x) (φ (target i m x u))
  have hm := acc_measurableSet (T := T) (φ x) (φ (target i m x u))
  set S := {xi | acceptsR (φ x) (φ (target i m x u)) T xi = true} with hS
  have e : ∀ xi, h (nxt φ T i m x u xi) = S.indicator (fun _ => h (target i m x u)) xi + Sᶜ.indicator (fun _ => h x) xi := by
    intro xi
    by_cases hx : xi ∈ S
    · have h1 : acceptsR (φ x) (φ (target i m x u)) T xi = true := hx
      rw [indicator_of_mem hx, indicator_of_notMem (by simpa using hx), nxt, if_pos h1, add_zero]
    · have h1 : ¬ acceptsR (φ x) (φ (target i m x u)) T xi = true := hx
      rw [indicator_of_notMem hx, indicator_of_mem (by simpa using hx), nxt, if_neg h1, zero_add]
  simp only [e]
  rw [lintegral_add_left (measurable_const.indicator hm), lintegral_indicator_const hm, lintegral_indicator_const hm.compl,
    prob_compl_eq_one_sub hm, ha, part, acc, mul_comm (h x), mul_comm (h _)]

theorem target_measurable (i : Fin n) (m : ℝ) : Measurable fun p : (Fin n → ℝ) × ℝ => target i m p.1 p.2 := by
  simp only [target_eq]
  exact measurable_fst.add ((laplace_measurable.comp measurable_snd).smul_const _)

theorem acc_measurable (hφ : Measurable φ) (T : ℝ) : Measurable fun p : (Fin n → ℝ) × (Fin n → ℝ) => acc φ T p.1 p.2 := by
  unfold acc
  refine ENNReal.measurable_ofReal.comp (measurable_const.min (Real.measurable_exp.comp ?_))
  exact (((hφ.comp measurable_snd).sub (hφ.comp measurable_fst)).neg).div_const T

theorem boltz_measurable (hφ : Measurable φ) (T : ℝ) : Measurable (boltz φ T) :=
  ENNReal.measurable_ofReal.comp (Real.measurable_exp.comp (hφ.neg.div_const T))

theorem nxt_measurable' (hφ : Measurable φ) (T : ℝ) (i : Fin n) (m : ℝ) :
    Measurable fun p : (Fin n → ℝ) × ℝ × ℝ => nxt φ T i m p.1 p.2.1 p.2.2 := by
  have ht : Measurable fun p : (Fin n → ℝ) × ℝ × ℝ => target i m p.1 p.2.1 :=
    (target_measurable i m).comp (measurable_fst.prodMk (measurable_fst.comp measurable_snd))
  unfold nxt
  refine Measurable.ite ?_ ht measurable_fst
  have hset : {p : (Fin n → ℝ) × ℝ × ℝ | acceptsR (φ p.1) (φ (target i m p.1 p.2.1)) T p.2.2 = true} =
      {p | φ (target i m p.1 p.2.1) - φ p.1 ≤ 0} ∪ {p | p.2.2 < Real.exp (-(φ (target i m p.1 p.2.1) - φ p.1) / T)} := by
    ext p
    simp [acceptsR]
  rw [hset]
  have hd : Measurable fun p : (Fin n → ℝ) × ℝ × ℝ => φ (target i m p.1 p.2.1) - φ p.1 := (hφ.comp ht).sub (hφ.comp measurable_fst)
  exact (measurableSet_le hd measurable_const).union
    (measurableSet_lt (measurable_snd.comp measurable_snd) (Real.measurable_exp.comp (hd.neg.div_const T)))

theorem nxt_measurable (hφ : Measurable φ) (T : ℝ) (i : Fin n) (m : ℝ) (x : Fin n → ℝ) :
    Measurable fun p : ℝ × ℝ => nxt φ T i m x p.1 p.2 :=
  (nxt_measurable' hφ T i m).comp (measurable_const.prodMk measurable_id' : Measurable fun p : ℝ × ℝ => (x, p))

/-- The flow by accepted moves. -/
noncomputable def moved (φ : (Fin n → ℝ) → ℝ) (T : ℝ) (g h : (Fin n → ℝ) → ℝ≥0∞) (x y : Fin n → ℝ) : ℝ≥0∞ :=
  g x * h y * min (boltz φ T x) (boltz φ T y)

/-- The flow by rejected moves. -/
noncomputable def stayed (φ : (Fin n → ℝ) → ℝ) (T : ℝ) (g h : (Fin n → ℝ) → ℝ≥0∞) (x y : Fin n → ℝ) : ℝ≥0∞ :=
  g x * h x * (boltz φ T x * (1 - acc φ T x y))

variable {g h : (Fin n → ℝ) → ℝ≥0∞}

theorem moved_symm (x y : Fin n → ℝ) : moved φ T g h x y = moved φ T h g y x := by
  unfold moved
  rw [mul_comm (g x), min_comm]

theorem stayed_symm (x y : Fin n → ℝ) : stayed φ T g h x y = stayed φ T h g x y := by
  unfold stayed
  rw [mul_comm (g x)]

theorem moved_measurable (hφ : Measurable φ) (hg : Measurable g) (hh : Measurable h) :
    Measurable (Function.uncurry (moved φ T g h)) := by
  have hb := boltz_measurable hφ T
  exact ((hg.comp measurable_fst).mul (hh.comp measurable_snd)).mul ((hb.comp measurable_fst).min (hb.comp measurable_snd))

theorem parts (x y : Fin n → ℝ) : boltz φ T x * g x * part φ T h x y = moved φ T g h x y + stayed φ T g h x y := by
  unfold moved stayed part
  rw [← boltz_acc]
  generalize acc φ T x y = a
  generalize 1 - a = e
  ring

/-- The mean of `h` after a move from `x`. -/
noncomputable def meanAfter (φ : (Fin n → ℝ) → ℝ) (T : ℝ) (i : Fin n) (m : ℝ) (h : (Fin n → ℝ) → ℝ≥0∞) (x : Fin n → ℝ) : ℝ≥0∞ :=
  ∫⁻ p, h (nxt φ T i m x p.1 p.2) ∂(uniform.prod uniform)

theorem meanAfter_eq (hφ : Measurable φ) (hT : 0 < T) (i : Fin n) (m : ℝ) (hh : Measurable h) (x : Fin n → ℝ) :
    meanAfter φ T i m h x = ∫⁻ u, part φ T h x (target i m x u) ∂uniform := by
  unfold meanAfter
  rw [lintegral_prod (fun p : ℝ × ℝ => h (nxt φ T i m x p.1 p.2)) (hh.comp (nxt_measurable hφ T i m x)).aemeasurable]
  exact lintegral_congr fun u => nxt_mean hT x u h

theorem part_measurable (hφ : Measurable φ) (hh : Measurable h) (x : Fin n → ℝ) : Measurable (part φ T h x) := by
  have hac : Measurable (acc φ T x) := (acc_measurable hφ T).comp (measurable_const.prodMk measurable_id')
  exact (hac.mul hh).add ((measurable_const.sub hac).mul_const _)

theorem flow (hφ : Measurable φ) (hT : 0 < T) (i : Fin n) (m : ℝ) (hg : Measurable g) (hh : Measurable h) :
    ∫⁻ x, boltz φ T x * g x * meanAfter φ T i m h x =
      (∫⁻ x, ∫⁻ u, moved φ T g h x (target i m x u) ∂uniform) + ∫⁻ x, ∫⁻ u, stayed φ T g h x (target i m x u) ∂uniform := by
  have m1 : Measurable fun p : (Fin n → ℝ) × ℝ => moved φ T g h p.1 (target i m p.1 p.2) :=
    (moved_measurable hφ hg hh).comp (measurable_fst.prodMk (target_measurable i m))
  rw [← lintegral_add_left m1.lintegral_prod_right']
  refine lintegral_congr fun x => ?_
  have ht : Measurable fun u : ℝ => target i m x u := (target_measurable i m).comp (measurable_const.prodMk measurable_id')
  have m2 : Measurable fun u : ℝ => moved φ T g h x (target i m x u) :=
    m1.comp (measurable_const.prodMk measurable_id' : Measurable fun u : ℝ => (x, u))
  have m3 : Measurable fun u : ℝ => part φ T h x (target i m x u) := (part_measurable hφ hh x).comp ht
  rw [meanAfter_eq hφ hT i m hh x, ← lintegral_const_mul _ m3, ← lintegral_add_left m2]
  exact lintegral_congr fun u => parts x _

/-- Detailed balance of one move. -/
theorem balance (hφ : Measurable φ) (hT : 0 < T) (i : Fin n) (m : ℝ) (hg : Measurable g) (hh : Measurable h) :
    ∫⁻ x, boltz φ T x * g x * meanAfter φ T i m h x = ∫⁻ x, boltz φ T x * h x * meanAfter φ T i m g x := by
  rw [flow hφ hT i m hg hh, flow hφ hT i m hh hg]
  congr 1
  · simp only [target_eq]
    rw [reversible (Pi.single i m) (moved_measurable hφ hg hh)]
    exact lintegral_congr fun x => lintegral_congr fun u => moved_symm _ _
  · exact lintegral_congr fun x => lintegral_congr fun u => stayed_symm _ _

/-- One move leaves the Boltzmann distribution as it is. -/
theorem stationary (hφ : Measurable φ) (hT : 0 < T) (i : Fin n) (m : ℝ) (hh : Measurable h) :
    ∫⁻ x, boltz φ T x * meanAfter φ T i m h x = ∫⁻ x, boltz φ T x * h x := by
  have := balance hφ hT i m (g := 1) measurable_one hh
  simp only [Pi.one_apply, mul_one] at this
  rw [this]
  refine lintegral_congr fun x => ?_
  have : meanAfter φ T i m 1 x = 1 := by simp [meanAfter]
  rw [this, mul_one]

variable [NeZero n]

/-- `K` moves with the draws `β`, the first one in coordinate `k mod n`. -/
noncomputable def walk (φ : (Fin n → ℝ) → ℝ) (T m : ℝ) : (K k : Nat) → (Fin n → ℝ) → (Fin K → ℝ × ℝ) → Fin n → ℝ
  | 0, _, x, _ => x
  | K + 1, k, x, β => walk φ T m K (k + 1) (nxt φ T (Fin.ofNat n k) m x (β 0).1 (β 0).2) fun j => β j.succ

theorem walk_succ (T m : ℝ) (K k : Nat) (x : Fin n → ℝ) (β : Fin (K + 1) → ℝ × ℝ) : walk φ T m (K + 1) k x β =
    walk φ T m K (k + 1) (nxt φ T (Fin.ofNat n k) m x (β 0).1 (β 0).2) fun j => β j.succ := rfl

theorem walk_measurable (hφ : Measurable φ) (T m : ℝ) : ∀ K k : Nat,
    Measurable fun q : (Fin n → ℝ) × (Fin K → ℝ × ℝ) => walk φ T m K k q.1 q.2
  | 0, _ => measurable_fst
  | K + 1, k => by
    have h0 : Measurable fun q : (Fin n → ℝ) × (Fin (K + 1) → ℝ × ℝ) => q.2 0 := (measurable_pi_apply 0).comp measurable_snd
    have h1 : Measurable fun q : (Fin n → ℝ) × (Fin (K + 1) → ℝ × ℝ) => fun j : Fin K => q.2 j.succ :=
      measurable_pi_lambda _ fun j => (measurable_pi_apply j.succ).comp measurable_snd
    exact (walk_measurable hφ T m K (k + 1)).comp (((nxt_measurable' hφ T (Fin.ofNat n k) m).comp (measurable_fst.prodMk h0)).prodMk h1)

/-- The distribution of the draws of `K` moves. -/
noncomputable def draws (K : Nat) : Measure (Fin K → ℝ × ℝ) := Measure.pi fun _ => uniform.prod uniform

instance (K : Nat) : IsProbabilityMeasure (draws K) := by unfold draws; infer_instance

theorem draws_succ (K : Nat) {F : (Fin (K + 1) → ℝ × ℝ) → ℝ≥0∞} {G : (ℝ × ℝ) × (Fin K → ℝ × ℝ) → ℝ≥0∞} (hG : Measurable G)
    (h : ∀ β, F β = G (β 0, fun j => β j.succ)) : ∫⁻ β, F β ∂draws (K + 1) = ∫⁻ p, ∫⁻ β, G (p, β) ∂draws K ∂(uniform.prod uniform) := by
  have hp := measurePreserving_piFinSuccAbove (fun _ : Fin (K + 1) => uniform.prod uniform) 0
  have e : ∀ β, F β = G (MeasurableEquiv.piFinSuccAbove (fun _ => ℝ × ℝ) 0 β) := by
    intro β
    rw [h]
    rfl
  unfold draws
  simp only [e]
  rw [hp.lintegral_comp hG, lintegral_prod _ hG.aemeasurable]

theorem walk_stationary (hφ : Measurable φ) (hT : 0 < T) (m : ℝ) (hh : Measurable h) : ∀ K k : Nat,
    ∫⁻ x, boltz φ T x * ∫⁻ β, h (walk φ T m K k x β) ∂draws K = ∫⁻ x, boltz φ T x * h x
  | 0, k => by
    refine lintegral_congr fun x => ?_
    simp [walk]
  | K + 1, k => by
    have hw : Measurable fun q : (Fin n → ℝ) × (Fin K → ℝ × ℝ) => h (walk φ T m K (k + 1) q.1 q.2) :=
      hh.comp (walk_measurable hφ T m K (k + 1))
    have hm : Measurable fun x => ∫⁻ β, h (walk φ T m K (k + 1) x β) ∂draws K := hw.lintegral_prod_right'
    rw [← walk_stationary hφ hT m hh K (k + 1), ← stationary hφ hT (Fin.ofNat n k) m hm]
    refine lintegral_congr fun x => ?_
    congr 1
    have hG : Measurable fun q : (ℝ × ℝ) × (Fin K → ℝ × ℝ) =>
        h (walk φ T m K (k + 1) (nxt φ T (Fin.ofNat n k) m x q.1.1 q.1.2) q.2) :=
      hw.comp (((nxt_measurable hφ T (Fin.ofNat n k) m x).comp measurable_fst).prodMk measurable_snd)
    exact draws_succ K hG fun β => rfl

end balance

/-! ### The moves of the code -/

/-- Draws one after the other. -/
def drawn : List ℝ → List ℝ × ℝ := fun l => (l.tail, l.headD 0)

/-- The draws of `K` moves in the order in which the code asks for them. -/
def inOrder {K : Nat} (β : Fin K → ℝ × ℝ) : List ℝ := (List.ofFn β).flatMap fun p => [p.1, p.2]

/-- The objective as a function of `n` coordinates. -/
def onVec (f : List ℝ → ℝ) (x : Fin n → ℝ) : ℝ := f (List.ofFn x)

theorem set_ofFn {α : Type} (x : Fin n → α) (i : Fin n) (v : α) : (List.ofFn x).set i v = List.ofFn (Function.update x i v) := by
  apply List.ext_getElem
  · simp
  · intro j h1 h2
    rw [List.getElem_set, List.getElem_ofFn, List.getElem_ofFn]
    by_cases h : i.1 = j
    · subst h
      simp
    · rw [if_neg h, Function.update_of_ne]
      intro h'
      exact h (by rw [← h'])

/-- State after `k` of the initial moves. -/
structure Good (p : Params ℝ) (f : List ℝ → ℝ) (T : ℝ) (k : Nat) (x : Fin n → ℝ) (s : St (List ℝ) ℝ ℝ) : Prop where
  pos : s.x = List.ofFn x
  energy : s.energy = f (List.ofFn x)
  idx : s.idx = k % n
  sweep : s.sweep = k / n
  size : s.moveSize = List.replicate n p.initMoveCoef
  temp : s.temp = T
  go : s.terminate = false

variable [NeZero n]

theorem tried (lambda gain maxMove tol : ℝ) (c : Nat) (f : List ℝ → ℝ) {T m : ℝ} {x : Fin n → ℝ} {i : Fin n}
    {s : St (List ℝ) ℝ ℝ} (hx : s.x = List.ofFn x) (he : s.energy = f (List.ofFn x)) (hi : s.idx = i) (hT : s.temp = T)
    {u xi : ℝ} {l : List ℝ} (hw : s.w = u :: xi :: l) :
    (tryMove (realEnv drawn lambda gain maxMove tol c f) s (x i) m).x = List.ofFn (nxt (onVec f) T i m x u xi) ∧
    (tryMove (realEnv drawn lambda gain maxMove tol c f) s (x i) m).energy = f (List.ofFn (nxt (onVec f) T i m x u xi)) := by
  have hp : s.x.set s.idx (proposeR (x i) m u) = List.ofFn (target i m x u) := by
    rw [hx, hi, set_ofFn]
    rfl
  have hback : (List.ofFn (target i m x u)).set s.idx (x i) = List.ofFn x := by
    rw [← hp, List.set_set, hx, hi, set_ofFn, Function.update_eq_self]
  by_cases ha : acceptsR (f (List.ofFn x)) (f (List.ofFn (target i m x u))) T xi = true
  · have hn : nxt (onVec f) T i m x u xi = target i m x u := if_pos ha
    rw [hn]
    simp [tryMove, realEnv, hw, drawn, he, hT, hp, ha]
  · have hn : nxt (onVec f) T i m x u xi = x := if_neg ha
    rw [hn]
    simp [tryMove, realEnv, hw, drawn, he, hT, hp, ha, hback]

theorem advance_x (env : Env W E R) (p : Params R) (s : St W E R) : (advance env p s).x = s.x := by
  simp only [advance]
  split_ifs <;> rfl

theorem one_move (lambda gain maxMove tol : ℝ) (f : List ℝ → ℝ) (p : Params ℝ) {T : ℝ} {k : Nat} {x : Fin n → ℝ}
    {s : St (List ℝ) ℝ ℝ} (h : Good p f T k x s) (u xi : ℝ) (l : List ℝ) (hw : s.w = u :: xi :: l) :
    ∃ s', generateMove (realEnv drawn lambda gain maxMove tol p.moveCtrlSweep f) p s = some s' ∧ s'.w = l ∧ s'.terminate = false ∧
      s'.x = List.ofFn (nxt (onVec f) T (Fin.ofNat n k) p.initMoveCoef x u xi) ∧
      (k + 1 < p.moveCtrlSweep * n → Good p f T (k + 1) (nxt (onVec f) T (Fin.ofNat n k) p.initMoveCoef x u xi) s') := by
  have hn : 0 < n := Nat.pos_of_ne_zero (NeZero.ne n)
  have hlt : k % n < n := Nat.mod_lt _ hn
  set i : Fin n := Fin.ofNat n k with hi
  have h1 : s.x[s.idx]? = some (x i) := by
    rw [h.pos, h.idx, List.getElem?_ofFn]
    simp [hlt, hi, Fin.ofNat]
  have h2 : s.moveSize[s.idx]? = some p.initMoveCoef := by
    rw [h.size, h.idx]
    simp [hlt]
  obtain ⟨hxn, hen⟩ := tried lambda gain maxMove tol p.moveCtrlSweep f (m := p.initMoveCoef) (i := i) h.pos h.energy h.idx h.temp hw
  set t := tryMove (realEnv drawn lambda gain maxMove tol p.moveCtrlSweep f) s (x i) p.initMoveCoef with ht
  have htw : t.w = l := by simp [ht, tryMove, realEnv, hw, drawn]
  have htt : t.terminate = false := by simp [ht, tryMove, realEnv, h.go]
  have hti : t.idx = k % n := by simp [ht, tryMove, h.idx]
  have hts : t.sweep = k / n := by simp [ht, tryMove, h.sweep]
  have htm : t.moveSize = List.replicate n p.initMoveCoef := by simp [ht, tryMove, h.size]
  have htT : t.temp = T := by simp [ht, tryMove, h.temp]
  have hlen : t.x.length = n := by rw [hxn]; simp
  clear_value t
  refine ⟨advance (realEnv drawn lambda gain maxMove tol p.moveCtrlSweep f) p t, by simp only [generateMove, h1, h2, ← ht], ?_, ?_, ?_, ?_⟩
  · simp only [advance]
    split_ifs <;> exact htw
  · simp only [advance]
    split_ifs <;> exact htt
  · simp only [advance]
    split_ifs <;> exact hxn
  · intro hk
    have hdiv : (k + 1) / n < p.moveCtrlSweep := Nat.div_lt_of_lt_mul (by rwa [Nat.mul_comm] at hk)
    have hmod := Nat.div_add_mod k n
    by_cases he : k % n + 1 = n
    · have e1 : k + 1 = n * (k / n + 1) := by rw [Nat.mul_add]; omega
      have e2 : (k + 1) / n = k / n + 1 := by rw [e1, Nat.mul_div_cancel_left _ hn]
      have e3 : (k + 1) % n = 0 := by rw [e1]; exact Nat.mul_mod_right _ _
      have ha : advance (realEnv drawn lambda gain maxMove tol p.moveCtrlSweep f) p t = { t with idx := 0, sweep := t.sweep + 1 } := by
        simp only [advance, hti, hlen, he, if_true, hts]
        rw [if_neg (by omega)]
      rw [ha]
      exact ⟨hxn, hen, e3.symm, by rw [e2]; simp [hts], htm, htT, htt⟩
    · have hlt2 : k % n + 1 < n := by omega
      have e2 : (k + 1) / n = k / n := by
        rw [Nat.div_eq_iff hn]
        constructor
        · rw [Nat.mul_comm]; omega
        · rw [Nat.mul_comm]; omega
      have e3 : (k + 1) % n = k % n + 1 := by
        have := Nat.div_add_mod (k + 1) n
        rw [e2] at this
        omega
      have ha : advance (realEnv drawn lambda gain maxMove tol p.moveCtrlSweep f) p t = { t with idx := t.idx + 1 } := by
        simp only [advance, hti, hlen, if_neg he, hts]
        rw [if_neg (by omega)]
      rw [ha]
      exact ⟨hxn, hen, by rw [e3]; simp [hti], by rw [e2]; exact hts, htm, htT, htt⟩

theorem moves_walk (lambda gain maxMove tol : ℝ) (f : List ℝ → ℝ) (p : Params ℝ) {T : ℝ} : ∀ (K k : Nat) (x : Fin n → ℝ)
    (s : St (List ℝ) ℝ ℝ) (β : Fin K → ℝ × ℝ), Good p f T k x s → k + K ≤ p.moveCtrlSweep * n → s.w = inOrder β →
    ∃ s', initLoop (realEnv drawn lambda gain maxMove tol p.moveCtrlSweep f) p K s = some s' ∧
      s'.x = List.ofFn (walk (onVec f) T p.initMoveCoef K k x β)
  | 0, k, x, s, β, h, _, _ => ⟨s, rfl, h.pos⟩
  | K + 1, k, x, s, β, h, hk, hw => by
    have hw' : s.w = (β 0).1 :: (β 0).2 :: inOrder fun j => β j.succ := by
      rw [hw, inOrder, List.ofFn_succ]
      rfl
    obtain ⟨s', e1, e2, e3, e4, e5⟩ := one_move lambda gain maxMove tol f p h (β 0).1 (β 0).2 _ hw'
    rw [initLoop, e1]
    simp only [e3, Bool.false_eq_true, if_false]
    rw [walk_succ]
    by_cases hK : K = 0
    · subst hK
      exact ⟨s', rfl, e4⟩
    · have h5 := e5 (by omega)
      generalize nxt (onVec f) T (Fin.ofNat n k) p.initMoveCoef x (β 0).1 (β 0).2 = y at h5 ⊢
      have h6 : k + 1 + K ≤ p.moveCtrlSweep * n := by omega
      exact moves_walk lambda gain maxMove tol f p K (k + 1) y s' (fun j => β j.succ) h5 h6 e2

/-- **C290** Detailed balance. One move of simulated annealing at temperature `T`, in any coordinate and with any move size, is
in equilibrium with the Boltzmann distribution `exp(-f / T)`: the flow from any set `A` to any set `B` equals the flow from `B`
to `A`. The draws are independent and uniform on `(0, 1)`. -/
theorem C290_detailed_balance (f : List ℝ → ℝ) (hf : Measurable fun x : Fin n → ℝ => f (List.ofFn x)) {T : ℝ} (hT : 0 < T)
    (lambda gain maxMove tol m : ℝ) (p : Params ℝ) (i : Fin n) {A B : Set (Fin n → ℝ)} (hA : MeasurableSet A) (hB : MeasurableSet B)
    (s : (Fin n → ℝ) → ℝ × ℝ → St (List ℝ) ℝ ℝ)
    (hs : ∀ x q, (s x q).x = List.ofFn x ∧ (s x q).energy = f (List.ofFn x) ∧ (s x q).idx = i ∧
      (s x q).moveSize[i.1]? = some m ∧ (s x q).temp = T ∧ (s x q).w = [q.1, q.2]) :
    ∫⁻ x in A, ENNReal.ofReal (Real.exp (-f (List.ofFn x) / T)) *
        (uniform.prod uniform) {q | ∃ s' y, generateMove (realEnv drawn lambda gain maxMove tol p.moveCtrlSweep f) p (s x q) = some s' ∧
          s'.x = List.ofFn y ∧ y ∈ B} =
      ∫⁻ x in B, ENNReal.ofReal (Real.exp (-f (List.ofFn x) / T)) *
        (uniform.prod uniform) {q | ∃ s' y, generateMove (realEnv drawn lambda gain maxMove tol p.moveCtrlSweep f) p (s x q) = some s' ∧
          s'.x = List.ofFn y ∧ y ∈ A} := by
  have key : ∀ {B : Set (Fin n → ℝ)}, MeasurableSet B → ∀ x, (uniform.prod uniform)
      {q | ∃ s' y, generateMove (realEnv drawn lambda gain maxMove tol p.moveCtrlSweep f) p (s x q) = some s' ∧
        s'.x = List.ofFn y ∧ y ∈ B} = meanAfter (onVec f) T i m (B.indicator 1) x := by
    intro B hB x
    have hset : {q | ∃ s' y, generateMove (realEnv drawn lambda gain maxMove tol p.moveCtrlSweep f) p (s x q) = some s' ∧
        s'.x = List.ofFn y ∧ y ∈ B} = (fun q : ℝ × ℝ => nxt (onVec f) T i m x q.1 q.2) ⁻¹' B := by
      ext q
      obtain ⟨h1, h2, h3, h4, h5, h6⟩ := hs x q
      have hx : (s x q).x[(s x q).idx]? = some (x i) := by
        rw [h1, h3, List.getElem?_ofFn]
        simp
      have hsz : (s x q).moveSize[(s x q).idx]? = some m := by rw [h3]; exact h4
      have ht := (tried lambda gain maxMove tol p.moveCtrlSweep f (m := m) h1 h2 h3 h5 h6).1
      simp only [generateMove, hx, hsz, Set.mem_setOf_eq, Set.mem_preimage]
      constructor
      · rintro ⟨s', y, e, hy, hb⟩
        obtain rfl := Option.some.inj e
        rw [advance_x, ht, List.ofFn_inj] at hy
        rwa [hy]
      · intro hb
        exact ⟨_, _, rfl, (advance_x _ _ _).trans ht, hb⟩
    rw [hset, meanAfter]
    have hms := nxt_measurable (φ := onVec f) hf T i m x hB
    rw [← lintegral_indicator_one hms]
    rfl
  simp only [key hA, key hB]
  have hb := balance (φ := onVec f) hf hT i m (g := A.indicator 1) (h := B.indicator 1) (measurable_one.indicator hA) (measurable_one.indicator hB)
  have hi : ∀ {A : Set (Fin n → ℝ)}, MeasurableSet A → ∀ F : (Fin n → ℝ) → ℝ≥0∞,
      ∫⁻ x, boltz (onVec f) T x * A.indicator 1 x * F x = ∫⁻ x in A, ENNReal.ofReal (Real.exp (-f (List.ofFn x) / T)) * F x := by
    intro A hA F
    rw [← lintegral_indicator hA]
    refine lintegral_congr fun x => ?_
    by_cases hx : x ∈ A
    · simp [hx, boltz, onVec]
    · simp [hx]
  rw [hi hA, hi hB] at hb
  exact hb

/-- **C290** So the initial moves of a run, which are made at the initial temperature, leave the Boltzmann distribution as it is,
as long as the move sizes are not adapted: if the start is drawn from it then so are the coordinates after the initial moves. -/
theorem C290_stationary (f : List ℝ → ℝ) (hf : Measurable fun x : Fin n → ℝ => f (List.ofFn x)) {T : ℝ} (hT : 0 < T)
    (lambda gain maxMove tol : ℝ) (p : Params ℝ) (hi : p.initMoves ≤ p.moveCtrlSweep * n) (hm : p.maxIterations = 0)
    {B : Set (Fin n → ℝ)} (hB : MeasurableSet B) :
    ∫⁻ x : Fin n → ℝ, ENNReal.ofReal (Real.exp (-f (List.ofFn x) / T)) * draws p.initMoves {β | ∃ r y, optimize
        (realEnv drawn lambda gain maxMove tol p.moveCtrlSweep f) p T (inOrder β) (List.ofFn x) = some r ∧ r.x = List.ofFn y ∧ y ∈ B} =
      ∫⁻ x in B, ENNReal.ofReal (Real.exp (-f (List.ofFn x) / T)) := by
  have key : ∀ x : Fin n → ℝ, draws p.initMoves {β | ∃ r y, optimize (realEnv drawn lambda gain maxMove tol p.moveCtrlSweep f) p T (inOrder β)
        (List.ofFn x) = some r ∧ r.x = List.ofFn y ∧ y ∈ B} =
      ∫⁻ β, B.indicator 1 (walk (onVec f) T p.initMoveCoef p.initMoves 0 x β) ∂draws p.initMoves := by
    intro x
    have hset : {β | ∃ r y, optimize (realEnv drawn lambda gain maxMove tol p.moveCtrlSweep f) p T (inOrder β)
        (List.ofFn x) = some r ∧ r.x = List.ofFn y ∧ y ∈ B} = (fun β => walk (onVec f) T p.initMoveCoef p.initMoves 0 x β) ⁻¹' B := by
      ext β
      have hg : Good p f T 0 x (start (realEnv drawn lambda gain maxMove tol p.moveCtrlSweep f) p T (inOrder β) (List.ofFn x)) := by
        refine ⟨rfl, rfl, ?_, ?_, ?_, rfl, rfl⟩
        · simp [start]
        · simp [start]
        · exact List.eq_replicate_iff.mpr ⟨by simp [start], by simp [start]⟩
      obtain ⟨s', e1, e2⟩ := moves_walk lambda gain maxMove tol f p p.initMoves 0 x _ β hg (by omega) rfl
      simp only [optimize, e1, hm, mainLoop, Set.mem_setOf_eq, Set.mem_preimage]
      constructor
      · rintro ⟨r, y, e, hy, hb⟩
        obtain rfl := Option.some.inj e
        simp only at hy
        rw [e2, List.ofFn_inj] at hy
        rwa [hy]
      · intro hb
        exact ⟨_, _, rfl, e2, hb⟩
    have hms : MeasurableSet ((fun β => walk (onVec f) T p.initMoveCoef p.initMoves 0 x β) ⁻¹' B) :=
      ((walk_measurable (φ := onVec f) hf T p.initMoveCoef p.initMoves 0).comp (measurable_const.prodMk measurable_id' :
        Measurable fun β : Fin p.initMoves → ℝ × ℝ => (x, β))) hB
    rw [hset, ← lintegral_indicator_one hms]
    rfl
  simp only [key]
  have h := walk_stationary (φ := onVec f) hf hT p.initMoveCoef (measurable_one.indicator hB) p.initMoves 0
  refine h.trans ?_
  rw [← lintegral_indicator hB]
  refine lintegral_congr fun x => ?_
  by_cases hx : x ∈ B
  · simp [hx, boltz, onVec]
  · simp [hx]

/-- The hypotheses are met by ten initial moves on a quadratic in two variables at temperature 10. -/
example : ∃ (f : List ℝ → ℝ) (p : Params ℝ), (Measurable fun x : Fin 2 → ℝ => f (List.ofFn x)) ∧ (0 : ℝ) < 10 ∧
    p.initMoves = 10 ∧ p.initMoves ≤ p.moveCtrlSweep * 2 ∧ p.maxIterations = 0 := by
  refine ⟨fun l => (l.map fun a => a ^ 2).sum, ⟨0, 10, 100, 3, 3 / 10⟩, ?_, by norm_num, rfl, by norm_num, rfl⟩
  simp only [List.ofFn_succ, List.ofFn_zero, List.map_cons, List.map_nil, List.sum_cons, List.sum_nil]
  fun_prop

/-- So is the hypothesis about the states. -/
example (f : List ℝ → ℝ) : ∃ s : (Fin 2 → ℝ) → ℝ × ℝ → St (List ℝ) ℝ ℝ, ∀ x q, (s x q).x = List.ofFn x ∧
    (s x q).energy = f (List.ofFn x) ∧ (s x q).idx = (1 : Fin 2) ∧ (s x q).moveSize[(1 : Fin 2).1]? = some 0.3 ∧ (s x q).temp = 10 ∧
      (s x q).w = [q.1, q.2] :=
  ⟨fun x q => ⟨[q.1, q.2], List.ofFn x, f (List.ofFn x), 1, 0, [0, 0], [0.5, 0.3], 10, 0, false, []⟩, fun _ _ => by simp⟩

end Ens.Sa
