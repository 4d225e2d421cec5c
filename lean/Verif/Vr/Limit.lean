import Mathlib.Analysis.Normed.Module.Basic
import Mathlib.Analysis.Real.Sqrt
import Mathlib.Topology.Algebra.Monoid
import Mathlib.Data.Nat.Cast.Field
import Mathlib.Order.Filter.AtTopBot.Basic
import Mathlib.Analysis.SpecificLimits.Basic
import Mathlib.Tactic.Module
import Mathlib.Tactic.Linarith
import Mathlib.Tactic.Positivity
import Mathlib.Tactic.FieldSimp
import Verif.Vr.Textbook

/-
C292: where Katyusha can converge to (`katyusha/katyusha_impl.hpp`).

Over ℝ, with the sequences `Seq` that C176 ties to the code. The snapshot is the weighted sum of the inner points divided by
too large a constant (lines 91-96, C110), and the full gradient takes its first batch at the iterate (line 156). If the points
of a run converge, these two together fix the limit, and it is not a minimiser unless that is the origin.
-/

namespace Ens.Vr.Katyusha

open Ens.Vr Filter Topology

variable {W E V : Type} [NormedAddCommGroup V] [NormedSpace ℝ V]
variable {u : User W V V E} {g : V → Nat × Nat → V} {p : Params ℝ}

/-- The factor by which a snapshot falls short of the average of `J` inner points. -/
noncomputable def shrink (r N : ℝ) (J : Nat) : ℝ := N⁻¹ * ((List.range J).map fun j => r ^ j).sum

theorem tendsto_list_sum (l : List Nat) (c : Nat → ℝ) (f : Nat → Nat → V) (a : V)
    (h : ∀ j ∈ l, Tendsto (fun k => f k j) atTop (𝓝 a)) :
    Tendsto (fun k => (l.map fun j => c j • f k j).sum) atTop (𝓝 ((l.map c).sum • a)) := by
  induction l with
  | nil => simp
  | cons j l ih =>
    simp only [List.map_cons, List.sum_cons, add_smul]
    exact ((h j (by simp)).const_smul (c j)).add (ih fun i hi => h i (by simp [hi]))

theorem foldl_add_eq {u : User W V V E} (hadd : ∀ a b, u.addG a b = a + b) (l : List V) (x : V) :
    l.foldl u.addG x = x + l.sum := by
  induction l generalizing x with
  | nil => simp
  | cons a l ih => rw [List.foldl_cons, ih, hadd, List.sum_cons, add_assoc]

/-- The full gradient with the usual operations. -/
theorem avgGrad_eq (hadd : ∀ a b, u.addG a b = a + b) (hdiv : ∀ v (n : Nat), u.divG v n = (n : ℝ)⁻¹ • v) (b : Nat) (x₁ x₂ : V) :
    avgGrad u g b x₁ x₂ = (u.n : ℝ)⁻¹ • (g x₁ (batch u.n b 0) +
      ((List.range (nb u.n b - 1)).map fun m => g x₂ (batch u.n b (m + 1))).sum) := by
  rw [avgGrad, hdiv, foldl_add_eq hadd]

theorem tendsto_list_sum' (l : List Nat) (f : Nat → Nat → V) (a : Nat → V)
    (h : ∀ j, Tendsto (fun k => f k j) atTop (𝓝 (a j))) :
    Tendsto (fun k => (l.map fun j => f k j).sum) atTop (𝓝 ((l.map a).sum)) := by
  induction l with
  | nil => simp
  | cons j l ih =>
    simp only [List.map_cons, List.sum_cons]
    exact (h j).add ih

/-- **C292** (partial) If the points of a Katyusha run converge, then in the limit every inner step leaves `z` where it is: the
variance-reduced gradient of every batch is zero, taken between the limit `a` and the limit `shrink • a` of the snapshots. -/
theorem C292_limit_partial {inn m : Nat} {α r N : ℝ} {x₀ x₁ : V} {snap : Nat → V} {pt y z : Nat → Nat → V}
    (hadd : ∀ a b, u.addG a b = a + b) (hdiv : ∀ v (n : Nat), u.divG v n = (n : ℝ)⁻¹ • v)
    (hg : ∀ q, Continuous fun x => g x q) (hprox : p.proximal = false)
    (ht : 0 < p.tau1 ∧ p.tau1 ≤ 1 / 2) (hL : 0 < p.lipschitz)
    (hseq : Seq u p g inn m α r N x₀ x₁ snap pt y z) {J : Nat} (hJ : IsCount u.n p.batchSize inn J)
    {a : V} (ha : ∀ j ≤ J, Tendsto (fun k => pt k j) atTop (𝓝 a)) :
    Tendsto snap atTop (𝓝 (shrink r N J • a)) ∧
    ∀ j < J, avgGrad u g p.batchSize a (shrink r N J • a) +
      (1 / (p.batchSize : ℝ)) • (g a (cyc u.n p.batchSize j) - g (shrink r N J • a) (cyc u.n p.batchSize j)) = 0 := by
  obtain ⟨ht0, ht1⟩ := ht
  have hα : 0 < α := by rw [hseq.consts.1]; positivity
  have hep : ∀ k, pt (k + 1) 0 = pt k J ∧ y (k + 1) 0 = y k J ∧ z (k + 1) 0 = z k J ∧
      snap (k + 1) = N⁻¹ • ((List.range J).map fun j => r ^ j • pt k (j + 1)).sum := by
    intro k
    obtain ⟨J', h1, h2⟩ := hseq.epoch k
    rw [Svrg.count_unique hJ h1]
    exact h2
  set s : V := shrink r N J • a with hs
  have hsnap : Tendsto snap atTop (𝓝 s) := by
    rw [← tendsto_add_atTop_iff_nat 1]
    have h1 := (tendsto_list_sum (List.range J) (fun j => r ^ j) (fun k j => pt k (j + 1)) a
      (fun j hj => ha (j + 1) (by rw [List.mem_range] at hj; omega))).const_smul N⁻¹
    rw [smul_smul] at h1
    exact h1.congr fun k => (hep k).2.2.2.symm
  refine ⟨hsnap, ?_⟩
  have hfull : Tendsto (fun k => avgGrad u g p.batchSize (pt k 0) (snap k)) atTop (𝓝 (avgGrad u g p.batchSize a s)) := by
    simp only [avgGrad_eq hadd hdiv]
    refine Tendsto.const_smul (Tendsto.add ?_ ?_) _
    · exact ((hg _).tendsto a).comp (ha 0 (Nat.zero_le _))
    · exact tendsto_list_sum' _ (fun k m => g (snap k) (batch u.n p.batchSize (m + 1))) _
        fun j => ((hg _).tendsto s).comp hsnap
  obtain ⟨D, hD⟩ : ∃ D : Nat → V, ∀ j, D j = avgGrad u g p.batchSize a s +
      (1 / (p.batchSize : ℝ)) • (g a (cyc u.n p.batchSize j) - g s (cyc u.n p.batchSize j)) := ⟨_, fun _ => rfl⟩
  have hz : ∀ j < J, Tendsto (fun k => z k (j + 1) - z k j) atTop (𝓝 (-(α • D j))) := by
    intro j hj
    have h1 : Tendsto (fun k => α • (avgGrad u g p.batchSize (pt k 0) (snap k) +
        (1 / (p.batchSize : ℝ)) • (g (pt k (j + 1)) (cyc u.n p.batchSize j) - g (snap k) (cyc u.n p.batchSize j))))
        atTop (𝓝 (α • D j)) := by
      rw [hD]
      refine (hfull.add (Tendsto.const_smul (Tendsto.sub ?_ ?_) _)).const_smul _
      · exact ((hg _).tendsto a).comp (ha (j + 1) hj)
      · exact ((hg _).tendsto s).comp hsnap
    refine h1.neg.congr fun k => ?_
    rw [hseq.mirror k j]
    abel
  have hy1 : ∀ j < J, Tendsto (fun k => y k (j + 1)) atTop (𝓝 (a - (p.tau1 * α) • D j)) := by
    intro j hj
    have h1 := (ha (j + 1) hj).add ((hz j hj).const_smul p.tau1)
    have e : a + p.tau1 • -(α • D j) = a - (p.tau1 * α) • D j := by module
    rw [e] at h1
    exact h1.congr fun k => (hseq.plain hprox k j).symm
  let prev : Nat → Nat := fun j => if j = 0 then J - 1 else j - 1
  have hprev : ∀ j < J, prev j < J := by intro j hj; simp only [prev]; split <;> omega
  have hy : ∀ j < J, Tendsto (fun k => y k j) atTop (𝓝 (a - (p.tau1 * α) • D (prev j))) := by
    intro j hj
    rcases Nat.eq_zero_or_pos j with rfl | h0
    · rw [← tendsto_add_atTop_iff_nat 1]
      have h1 := hy1 (J - 1) (by omega)
      rw [show J - 1 + 1 = J by omega] at h1
      simp only [prev, if_true]
      exact h1.congr fun k => (hep k).2.1.symm
    · have h1 := hy1 (j - 1) (by omega)
      rw [show j - 1 + 1 = j by omega] at h1
      simp only [prev, if_neg (by omega : ¬ j = 0)]
      exact h1
  have hzz : ∀ j < J, Tendsto (fun k => p.tau1 • z k j) atTop
      (𝓝 (a - (1 / 2 : ℝ) • s - (1 - p.tau1 - 1 / 2) • (a - (p.tau1 * α) • D (prev j)))) := by
    intro j hj
    have h1 := ((ha (j + 1) hj).sub (hsnap.const_smul (1 / 2 : ℝ))).sub ((hy j hj).const_smul (1 - p.tau1 - 1 / 2))
    refine h1.congr fun k => ?_
    rw [hseq.couple k j]
    module
  have hnext : ∀ j < J, Tendsto (fun k => p.tau1 • z k (j + 1)) atTop
      (𝓝 (a - (1 / 2 : ℝ) • s - (1 - p.tau1 - 1 / 2) • (a - (p.tau1 * α) • D j))) := by
    intro j hj
    rcases Nat.lt_or_ge (j + 1) J with h | h
    · have h1 := hzz (j + 1) h
      simpa [prev] using h1
    · have hj' : j + 1 = J := by omega
      have h1 := hzz 0 (by omega)
      rw [← tendsto_add_atTop_iff_nat 1] at h1
      simp only [prev, if_true] at h1
      rw [show J - 1 = j by omega] at h1
      refine h1.congr fun k => ?_
      rw [(hep k).2.2.1, hj']
  have hrec : ∀ j < J, (3 / 2 - p.tau1) • D j = (1 / 2 - p.tau1) • D (prev j) := by
    intro j hj
    have h1 := (hnext j hj).sub (hzz j hj)
    have h2 := (hz j hj).const_smul p.tau1
    have h3 := tendsto_nhds_unique h1 (h2.congr fun k => by rw [smul_sub])
    have h4 : (p.tau1 * α) • ((3 / 2 - p.tau1) • D j - (1 / 2 - p.tau1) • D (prev j)) = 0 := by
      have h5 := sub_eq_zero.2 h3
      rw [← h5]
      module
    rcases smul_eq_zero.1 h4 with h5 | h5
    · exact absurd h5 (by positivity)
    · exact sub_eq_zero.1 h5
  intro j hj
  rw [← hD]
  obtain ⟨i, hi, hmax⟩ := Finset.exists_max_image (Finset.range J) (fun j => ‖D j‖) ⟨j, by simpa using hj⟩
  rw [Finset.mem_range] at hi
  have h1 := congrArg norm (hrec i hi)
  rw [norm_smul, norm_smul, Real.norm_of_nonneg (by linarith), Real.norm_of_nonneg (by linarith)] at h1
  have h2 := hmax (prev i) (by rw [Finset.mem_range]; exact hprev i hi)
  have h3 := hmax j (by simpa using hj)
  have h4 : ‖D i‖ ≤ 0 := by nlinarith [norm_nonneg (D i), norm_nonneg (D (prev i))]
  exact norm_le_zero_iff.1 (h3.trans h4)

theorem nb_of_dvd {n b : Nat} (hb : 0 < b) (hd : b ∣ n) : nb n b = n / b := by
  obtain ⟨c, rfl⟩ := hd
  rw [Nat.mul_div_cancel_left c hb, nb, show b * c + b - 1 = (b - 1) + b * c by omega, Nat.add_mul_div_left _ _ hb,
    Nat.div_eq_of_lt (by omega), zero_add]

theorem seen_of_dvd {n b : Nat} (hn : 0 < n) (hb : 0 < b) (hd : b ∣ n) (j : Nat) : seen n b j = j * b := by
  induction j with
  | zero => simp [seen]
  | succ j ih =>
    rw [seen_succ, ih, Nat.succ_mul]
    congr 1
    simp only [cyc, batch]
    have hlt := Nat.mod_lt j (nb_pos hn hb)
    rw [nb_of_dvd hb hd] at hlt ⊢
    obtain ⟨c, rfl⟩ := hd
    rw [Nat.mul_div_cancel_left c hb] at hlt ⊢
    have h2 : j % c * b + b ≤ b * c := by
      calc j % c * b + b = (j % c + 1) * b := by ring
        _ ≤ c * b := Nat.mul_le_mul_right b hlt
        _ = b * c := mul_comm _ _
    omega

theorem count_of_dvd {n b : Nat} (hn : 0 < n) (hb : 0 < b) (hd : b ∣ n) : IsCount n b n (n / b) := by
  obtain ⟨c, rfl⟩ := hd
  refine ⟨?_, ?_⟩
  · rw [seen_of_dvd hn hb ⟨c, rfl⟩, Nat.mul_div_cancel_left c hb, mul_comm]
  · intro j hj
    rw [Nat.mul_div_cancel_left c hb] at hj
    rw [seen_of_dvd hn hb ⟨c, rfl⟩, mul_comm b c]
    exact Nat.mul_lt_mul_of_pos_right hj hb

theorem sum_range_smul_const (J : Nat) (v : V) (f h : Nat → V) (c : ℝ)
    (hf : ∀ j < J, v + c • (f j - h j) = 0) :
    (J : ℝ) • v + c • (((List.range J).map f).sum - ((List.range J).map h).sum) = 0 := by
  induction J with
  | zero => simp
  | succ J ih =>
    have h1 := ih fun j hj => hf j (by omega)
    have h2 := hf J (by omega)
    rw [List.range_succ]
    simp only [List.map_append, List.map_cons, List.map_nil, List.sum_append, List.sum_cons, List.sum_nil, add_zero]
    have h3 : ((J : ℝ) • v + c • (((List.range J).map f).sum - ((List.range J).map h).sum)) + (v + c • (f J - h J)) = 0 := by
      rw [h1, h2, add_zero]
    rw [← h3]
    push_cast
    module

/-- **C292** (refuted, for every problem) Katyusha with batches of equal size and epochs of one pass never converges to a
stationary point `a` of the sum other than the origin, if the gradient of the first batch takes no value twice (as it does for
a strictly convex function): whenever all points of its epochs converge to such an `a`, then `a = 0`. -/
theorem C292_limit_is_origin {inn m : Nat} {α r N : ℝ} {x₀ x₁ : V} {snap : Nat → V} {pt y z : Nat → Nat → V}
    (hadd : ∀ a b, u.addG a b = a + b) (hdiv : ∀ v (n : Nat), u.divG v n = (n : ℝ)⁻¹ • v)
    (hg : ∀ q, Continuous fun x => g x q) (hprox : p.proximal = false)
    (ht : 0 < p.tau1 ∧ p.tau1 ≤ 1 / 2) (hL : 0 < p.lipschitz) (hc : 0 ≤ p.convexity)
    (hn : 0 < u.n) (hb : 0 < p.batchSize) (hd : p.batchSize ∣ u.n) (hin : p.innerIterations = 0)
    (hseq : Seq u p g inn m α r N x₀ x₁ snap pt y z)
    {a : V} (ha : ∀ j ≤ u.n / p.batchSize, Tendsto (fun k => pt k j) atTop (𝓝 a))
    (hst : ((List.range (u.n / p.batchSize)).map fun m => g a (batch u.n p.batchSize m)).sum = 0)
    (hinj : Function.Injective fun x => g x (0, p.batchSize)) : a = 0 := by
  have hinn : inn = u.n := by rw [hseq.sizes.1, if_pos hin]
  have hJ : IsCount u.n p.batchSize inn (u.n / p.batchSize) := by rw [hinn]; exact count_of_dvd hn hb hd
  have hm : m = u.n / p.batchSize := by
    rw [hseq.sizes.2, hinn, Nat.mod_eq_zero_of_dvd hd, if_pos rfl, add_zero]
  obtain ⟨-, hlim⟩ := C292_limit_partial hadd hdiv hg hprox ht hL hseq hJ ha
  have hα : 0 < α := by rw [hseq.consts.1]; have := ht.1; positivity
  have hr : 1 ≤ r := by
    rw [hseq.consts.2.1, le_add_iff_nonneg_right]
    exact le_min (by positivity) (by positivity)
  have hρ : shrink r N (u.n / p.batchSize) < 1 := by
    have h1 := C110_weights_refuted r hr m
    rw [normLoop_eq, ← hseq.consts.2.2, one_div, hm] at h1
    exact h1
  set ρ := shrink r N (u.n / p.batchSize)
  have hpos : 0 < u.n / p.batchSize := Nat.div_pos (Nat.le_of_dvd hn hd) hb
  have hcyc : ∀ j < u.n / p.batchSize, cyc u.n p.batchSize j = batch u.n p.batchSize j := by
    intro j hj
    rw [cyc, nb_of_dvd hb hd, Nat.mod_eq_of_lt hj]
  have hsum := sum_range_smul_const (u.n / p.batchSize) (avgGrad u g p.batchSize a (ρ • a))
    (fun j => g a (batch u.n p.batchSize j)) (fun j => g (ρ • a) (batch u.n p.batchSize j)) (1 / (p.batchSize : ℝ))
    (fun j hj => by rw [← hcyc j hj]; exact hlim j hj)
  rw [hst, avgGrad_eq hadd hdiv, nb_of_dvd hb hd] at hsum
  have hbr : (p.batchSize : ℝ) ≠ 0 := by exact_mod_cast hb.ne'
  have hnr : (u.n : ℝ) ≠ 0 := by exact_mod_cast hn.ne'
  have hcast : ((u.n / p.batchSize : Nat) : ℝ) = (u.n : ℝ) / p.batchSize := Nat.cast_div hd hbr
  obtain ⟨c, hcJ⟩ : ∃ c, u.n / p.batchSize = c + 1 := ⟨u.n / p.batchSize - 1, by omega⟩
  have hsplit : ((List.range (u.n / p.batchSize)).map fun j => g (ρ • a) (batch u.n p.batchSize j)).sum =
      g (ρ • a) (batch u.n p.batchSize 0) +
        ((List.range (u.n / p.batchSize - 1)).map fun j => g (ρ • a) (batch u.n p.batchSize (j + 1))).sum := by
    rw [hcJ, List.range_succ_eq_map, List.map_cons, List.sum_cons, List.map_map]
    rfl
  rw [hsplit, hcast] at hsum
  have h1 : (1 / (p.batchSize : ℝ)) • (g a (batch u.n p.batchSize 0) - g (ρ • a) (batch u.n p.batchSize 0)) = 0 := by
    rw [← hsum, smul_smul, show (u.n : ℝ) / p.batchSize * (u.n : ℝ)⁻¹ = 1 / p.batchSize by field_simp]
    module
  have h2 : g a (batch u.n p.batchSize 0) = g (ρ • a) (batch u.n p.batchSize 0) := by
    rcases smul_eq_zero.1 h1 with h | h
    · exact absurd h (by positivity)
    · exact sub_eq_zero.1 h
  have hb0 : batch u.n p.batchSize 0 = (0, p.batchSize) := by
    simp [batch, Nat.le_of_dvd hn hd]
  rw [hb0] at h2
  have h3 : a = ρ • a := hinj h2
  have h4 : (1 - ρ) • a = 0 := by rw [sub_smul, one_smul, ← h3, sub_self]
  rcases smul_eq_zero.1 h4 with h | h
  · linarith
  · exact h

/-- Parameters with another iteration limit. -/
def withLimit (p : Params ℝ) (k : Nat) : Params ℝ := { p with maxIterations := k }

/-- **C292** (refuted, for every problem) With the batch size equal to the number of functions: if for every iteration limit
`k` Katyusha runs to that limit and hands back `out k`, and `out` converges to a stationary point `a` of the objective, then
`a = 0`. So a minimiser elsewhere is never approached, however long the runs. -/
theorem C292_whole_batch {F : V → Nat × Nat → E} (hu : Steady u F g)
    (hadd : ∀ a b, u.addG a b = a + b) (hdiv : ∀ v (n : Nat), u.divG v n = (n : ℝ)⁻¹ • v)
    (hg : ∀ q, Continuous fun x => g x q) (hprox : p.proximal = false)
    (ht : 0 < p.tau1 ∧ p.tau1 ≤ 1 / 2) (hL : 0 < p.lipschitz) (hc : 0 ≤ p.convexity)
    (hn : 0 < u.n) (hb : p.batchSize = u.n) (hin : p.innerIterations = 0) {x : V} {out : Nat → V}
    (hout : ∀ k, 0 < k → ∃ fuel w t, optimize u (withLimit p k) fuel w x = some (.ret .loop t) ∧ t.x = out k)
    {a : V} (ha : Tendsto out atTop (𝓝 a)) (hst : g a (0, u.n) = 0)
    (hinj : Function.Injective fun x => g x (0, u.n)) : a = 0 := by
  obtain ⟨inn, m, α, r, N, snap, pt, y, z, hseq⟩ := seq_exists (u := u) (g := g) (p := p) hn (by omega) x
  have hlim : ∀ k, Seq u (withLimit p k) g inn m α r N x x snap pt y z := fun k =>
    ⟨hseq.zero, hseq.couple, hseq.mirror, hseq.plain, hseq.proximal, hseq.epoch, hseq.sizes, hseq.consts⟩
  have h0 : ∀ k, 0 < k → pt k 0 = out k := by
    intro k hk
    obtain ⟨fuel, w, t, h1, h2⟩ := hout k hk
    obtain ⟨q1, -, q2, -⟩ := C176_katyusha_is_textbook (p := withLimit p k) hu hn (by show 0 < p.batchSize; omega) (hlim k) h1
    obtain ⟨-, q3, -⟩ := q2 rfl
    rw [← h2, q1, q3]
    rfl
  have hdiv1 : u.n / p.batchSize = 1 := by rw [hb]; exact Nat.div_self hn
  have hpt0 : Tendsto (fun k => pt k 0) atTop (𝓝 a) :=
    ha.congr' (by filter_upwards [eventually_gt_atTop 0] with k hk; exact (h0 k hk).symm)
  have hinn : inn = u.n := by rw [hseq.sizes.1, if_pos hin]
  have hJ : IsCount u.n p.batchSize inn 1 := by
    rw [hinn, ← hdiv1]; exact count_of_dvd hn (by omega) (by rw [hb])
  have hpt1 : Tendsto (fun k => pt k 1) atTop (𝓝 a) := by
    refine ((tendsto_add_atTop_iff_nat 1).2 hpt0).congr fun k => ?_
    obtain ⟨J, h1, h2, -⟩ := hseq.epoch k
    rw [h2, Svrg.count_unique h1 hJ]
  refine C292_limit_is_origin hadd hdiv hg hprox ht hL hc hn (by omega) (by rw [hb]) hin hseq (a := a) ?_ ?_ (by rw [hb]; exact hinj)
  · intro j hj
    rw [hdiv1] at hj
    rcases Nat.le_one_iff_eq_zero_or_eq_one.1 hj with rfl | rfl
    · exact hpt0
    · exact hpt1
  · rw [hdiv1, hb]
    simp [batch, hst]

/-- The function `(x - 1)² / 2`, one of one. No tolerance. -/
noncomputable def one : User Unit ℝ ℝ ℝ where
  n := 1
  evaluate := fun w x _ k => (w, k * ((x - 1) ^ 2 / 2))
  gradient := fun w x _ k => (w, k * (x - 1))
  shuffle := fun w => w
  cbBegin := fun w x => (w, x)
  cbEval := fun w _ _ => (w, false)
  cbGrad := fun w _ g => (w, g, false)
  cbStep := fun w x => (w, x, false)
  cbEnd := fun w x => (w, x)
  addE := (· + ·)
  zero := 0
  isBad := fun _ => false
  near := fun _ _ => false
  dblMax := 10 ^ 308
  addG := (· + ·)
  divG := fun g n => (n : ℝ)⁻¹ • g

/-- Katyusha with strong convexity and smoothness constant 1, as the function has them; `tau1` is then one half. -/
noncomputable def oneParams : Params ℝ := ⟨1, 1, 1, 1, 0, true, true, false, 1 / 2⟩

theorem one_steady : Steady one (fun x q => q.2 * ((x - 1) ^ 2 / 2)) (fun x q => q.2 * (x - 1)) :=
  ⟨fun _ _ _ _ => rfl, fun _ _ _ _ => rfl, fun _ _ _ => rfl, fun _ _ _ => rfl, fun _ _ => rfl, fun _ _ => rfl, fun _ _ => rfl⟩

/-- `tau1` of line 83 for these constants. -/
example : min (1 / 2 : ℝ) (Real.sqrt (1 * 1 / (3 * 1))) = 1 / 2 := by
  rw [min_eq_left]
  apply Real.le_sqrt_of_sq_le
  norm_num

theorem one_runs (k : Nat) (hk : 0 < k) (x : ℝ) :
    ∃ t, optimize one (withLimit oneParams k) (k + 1) () x = some (.ret .loop t) := by
  have hb : 0 < (withLimit oneParams k).batchSize := Nat.one_pos
  obtain ⟨e, t, h, -⟩ := C106_katyusha_protocol (u := one) (p := withLimit oneParams k) (by decide) hb hk () x
  obtain ⟨inn, m, α, r, N, snap, pt, y, z, hseq⟩ := seq_exists (u := one) (g := fun x q => q.2 * (x - 1))
    (p := withLimit oneParams k) (by decide) hb x
  obtain ⟨-, -, -, h1, h2⟩ := C176_katyusha_is_textbook one_steady (by decide) hb hseq h
  cases e with
  | loop => exact ⟨t, h⟩
  | bad => exact absurd (h1 rfl).2 (by simp [one])
  | near => exact absurd (h2 rfl).2.2 (by simp [one])

/-- The points of the run on `one` satisfy a recurrence of order two. -/
theorem one_recurrence {inn m : Nat} {α r N : ℝ} {x₀ x₁ : ℝ} {snap : Nat → ℝ} {pt y z : Nat → Nat → ℝ}
    (hseq : Seq one oneParams (fun x q => q.2 * (x - 1)) inn m α r N x₀ x₁ snap pt y z) (k : Nat) :
    pt (k + 3) 0 = 13 / 15 * pt (k + 2) 0 - 2 / 5 * pt (k + 1) 0 + 1 / 3 := by
  have hinn : inn = 1 := by rw [hseq.sizes.1]; rfl
  have hm : m = 1 := by rw [hseq.sizes.2, hinn]; rfl
  have hα : α = 2 / 3 := by rw [hseq.consts.1]; norm_num [oneParams]
  have hr : r = 5 / 4 := by
    rw [hseq.consts.2.1, hα, hinn, show (oneParams.convexity : ℝ) = 1 from rfl, min_eq_right (by norm_num)]
    norm_num
  have hN : N = 5 / 2 := by rw [hseq.consts.2.2, hm, hr]; norm_num
  have hJ : IsCount one.n oneParams.batchSize inn 1 := by
    rw [hinn]; exact count_of_dvd (n := 1) (b := 1) Nat.one_pos Nat.one_pos (dvd_refl 1)
  have hep : ∀ k, pt (k + 1) 0 = pt k 1 ∧ z (k + 1) 0 = z k 1 ∧ snap (k + 1) = 2 / 5 * pt k 1 := by
    intro k
    obtain ⟨J', h1, h2, h3, h4, h5⟩ := hseq.epoch k
    have h6 : 1 = J' := Svrg.count_unique hJ h1
    subst h6
    refine ⟨h2, h4, ?_⟩
    rw [h5, hN]
    norm_num
  have hpt : ∀ k, pt k 1 = 1 / 2 * z k 0 + 1 / 2 * snap k := by
    intro k
    have := hseq.couple k 0
    norm_num [oneParams] at this
    linarith
  have hz : ∀ k, z k 1 = z k 0 - 2 / 3 * (pt k 0 - 1 + (pt k 1 - snap k)) := by
    intro k
    have := hseq.mirror k 0
    rw [avgGrad_eq (fun _ _ => rfl) (fun _ _ => rfl), hα] at this
    norm_num [oneParams, one, batch, cyc, nb] at this
    linarith
  have a0 := hep k
  have a1 := hep (k + 1)
  have a2 := hep (k + 2)
  have b1 := hpt (k + 1)
  have b2 := hpt (k + 2)
  have c1 := hz (k + 1)
  linarith [a0.1, a0.2.1, a0.2.2, a1.1, a1.2.1, a1.2.2, a2.1, a2.2.1, a2.2.2]

/-- **C292** (refuted) "Katyusha converges to the minimum of a strongly convex function": on `(x - 1)² / 2`, from every start, with the
right constants, the coordinates handed back after `k` epochs converge to 5/8. -/
theorem C292_converges_refuted (x : ℝ) :
    ∃ out : Nat → ℝ, (∀ k, 0 < k → ∃ t, optimize one (withLimit oneParams k) (k + 1) () x = some (.ret .loop t) ∧ t.x = out k) ∧
      Tendsto out atTop (𝓝 (5 / 8)) := by
  obtain ⟨inn, m, α, r, N, snap, pt, y, z, hseq⟩ := seq_exists (u := one) (g := fun x q => q.2 * (x - 1))
    (p := oneParams) (by decide) (by decide) x
  refine ⟨fun k => pt k 0, ?_, ?_⟩
  · intro k hk
    obtain ⟨t, h⟩ := one_runs k hk x
    refine ⟨t, h, ?_⟩
    obtain ⟨q1, -, q2, -⟩ := C176_katyusha_is_textbook (p := withLimit oneParams k) one_steady (by decide) Nat.one_pos
      (⟨hseq.zero, hseq.couple, hseq.mirror, hseq.plain, hseq.proximal, hseq.epoch, hseq.sizes, hseq.consts⟩ :
        Seq one (withLimit oneParams k) _ inn m α r N x x snap pt y z) h
    rw [q1, (q2 rfl).2.1]
    rfl
  · obtain ⟨e, he⟩ : ∃ e : Nat → ℝ, ∀ k, e k = pt (k + 1) 0 - 5 / 8 := ⟨_, fun _ => rfl⟩
    have hrec : ∀ k, e (k + 2) = 13 / 15 * e (k + 1) - 2 / 5 * e k := by
      intro k
      rw [he, he, he]
      linarith [one_recurrence hseq k]
    have hQ : ∀ k, e (k + 1) ^ 2 - 13 / 15 * e (k + 1) * e k + 2 / 5 * e k ^ 2 =
        (2 / 5) ^ k * (e 1 ^ 2 - 13 / 15 * e 1 * e 0 + 2 / 5 * e 0 ^ 2) := by
      intro k
      induction k with
      | zero => simp
      | succ k ih =>
        have h1 : (2 / 5 : ℝ) ^ (k + 1) = 2 / 5 * (2 / 5) ^ k := by ring
        rw [h1, mul_assoc (2 / 5 : ℝ) ((2 / 5) ^ k), ← ih, hrec k]
        ring
    have hsq : Tendsto (fun k => e k ^ 2) atTop (𝓝 0) := by
      have hle : ∀ k, e k ^ 2 ≤ 5 * ((2 / 5 : ℝ) ^ k * (e 1 ^ 2 - 13 / 15 * e 1 * e 0 + 2 / 5 * e 0 ^ 2)) := by
        intro k
        rw [← hQ]
        nlinarith [sq_nonneg (e (k + 1) - 13 / 30 * e k), sq_nonneg (e k)]
      have h0 := ((tendsto_pow_atTop_nhds_zero_of_lt_one (r := (2 / 5 : ℝ)) (by norm_num) (by norm_num)).mul_const
        (e 1 ^ 2 - 13 / 15 * e 1 * e 0 + 2 / 5 * e 0 ^ 2)).const_mul 5
      rw [zero_mul, mul_zero] at h0
      exact squeeze_zero (fun k => sq_nonneg _) hle h0
    have h1 : Tendsto e atTop (𝓝 0) := by
      rw [tendsto_zero_iff_abs_tendsto_zero]
      have := hsq.sqrt
      rw [Real.sqrt_zero] at this
      exact this.congr fun k => Real.sqrt_sq_eq_abs _
    rw [← tendsto_add_atTop_iff_nat 1]
    have h2 := h1.add_const (5 / 8)
    rw [zero_add] at h2
    exact h2.congr fun k => by rw [he]; ring

/-- `C292_limit_partial` applies to `one`, whose points converge (`C292_converges_refuted`): the limit 5/8 is where the gradient
there, twice, is the gradient at two fifths of it. -/
example {inn m : Nat} {α r N : ℝ} {x₀ x₁ : ℝ} {snap : Nat → ℝ} {pt y z : Nat → Nat → ℝ}
    (hseq : Seq one oneParams (fun x q => q.2 * (x - 1)) inn m α r N x₀ x₁ snap pt y z) {a : ℝ}
    (ha : ∀ j ≤ 1, Tendsto (fun k => pt k j) atTop (𝓝 a)) : 2 * (a - 1) = 2 / 5 * a - 1 := by
  have hinn : inn = 1 := by rw [hseq.sizes.1]; rfl
  have hm : m = 1 := by rw [hseq.sizes.2, hinn]; rfl
  have hα : α = 2 / 3 := by rw [hseq.consts.1]; norm_num [oneParams]
  have hr : r = 5 / 4 := by
    rw [hseq.consts.2.1, hα, hinn, show (oneParams.convexity : ℝ) = 1 from rfl, min_eq_right (by norm_num)]
    norm_num
  have hN : N = 5 / 2 := by rw [hseq.consts.2.2, hm, hr]; norm_num
  obtain ⟨-, h⟩ := C292_limit_partial (u := one) (p := oneParams) (J := 1) (fun _ _ => rfl) (fun _ _ => rfl)
    (fun q => by fun_prop) rfl (by norm_num [oneParams]) (by norm_num [oneParams]) hseq
    (by rw [hinn]; exact count_of_dvd (n := 1) (b := 1) Nat.one_pos Nat.one_pos (dvd_refl 1)) ha
  have h1 := h 0 Nat.one_pos
  rw [avgGrad_eq (fun _ _ => rfl) (fun _ _ => rfl)] at h1
  norm_num [shrink, hN, oneParams, one, batch, cyc, nb] at h1
  linarith

/-- `C292_whole_batch` applies to `one`: hence no limit of its runs is 1. -/
example (x : ℝ) (out : Nat → ℝ)
    (h : ∀ k, 0 < k → ∃ fuel w t, optimize one (withLimit oneParams k) fuel w x = some (.ret .loop t) ∧ t.x = out k) :
    ¬ Tendsto out atTop (𝓝 1) := fun hl =>
  one_ne_zero (C292_whole_batch (u := one) (p := oneParams) one_steady (fun _ _ => rfl) (fun _ _ => rfl)
    (fun q => by fun_prop) rfl (by norm_num [oneParams]) (by norm_num [oneParams]) (by norm_num [oneParams])
    (by decide) rfl rfl h hl (by simp) (fun a b hab => by simpa [one] using hab))

end Ens.Vr.Katyusha
