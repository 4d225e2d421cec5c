import Mathlib.Algebra.BigOperators.Group.Finset.Basic
import Mathlib.Algebra.BigOperators.Group.List.Basic
import Verif.Sgd.Lemmas

/-
Properties C08-C12 of `SGD::Optimize`.

The vocabulary used in the statements (all defined on traces, i.e. on the sequence of calls a user
can observe): `visits`, `anyStop`, `lastEpoch`, `Ev.isEndEpoch` from `Sgd/Lemmas.lean`.
-/

namespace Ens.Sgd

variable {W M G E : Type} {env : Env W M G E} {p : Params}

/-- Structure of a completed run (helper). -/
theorem optimize_cases (hn : 0 < p.numFunctions) (hb : 0 < p.batchSize) {fuel : Nat} {w : W} {x : M}
    {r : Result W M E} (h : optimize env p fuel w x = .returned r) :
    (∃ s, r.exit = .loop ∧ Inv env p s ∧ ¬ (s.i < p.actualMax ∧ s.terminate = false) ∧
      ∃ ex, r.trace = s.trace ++ ex ++ [.endOpt r.x] ∧ r.x = s.x ∧
        (∀ e ∈ ex, ∃ b k o, e = .evaluate r.x b k o) ∧
        (p.exactObjective = false → ex = [] ∧ r.obj = s.overall) ∧
        (p.exactObjective = true → ∃ objs,
          objs.length = (chunks p.numFunctions p.batchSize p.numFunctions 0).length ∧
          ex = List.zipWith (fun c o => Ev.evaluate r.x c.1 c.2 o)
            (chunks p.numFunctions p.batchSize p.numFunctions 0) objs ∧
          r.obj = objs.foldl env.add env.zero ∧
          ∀ F : M → Nat → Nat → E, (∀ w y b k, (env.evaluate w y b k).2 = F y b k) →
            objs = (chunks p.numFunctions p.batchSize p.numFunctions 0).map
              (fun c => F r.x c.1 c.2))) ∨
    (∃ s, r.exit ≠ .loop ∧ Ret env p s ∧ r.trace = s.trace ++ [.endOpt r.x] ∧ r.x = s.x ∧
      r.obj = s.overall ∧ (r.exit = .bad ↔ env.isBad r.obj = true)) := by
  unfold optimize at h
  rcases loop_inv (env := env) (p := p) hn hb fuel (start env w x) (start_inv w x) with
    ⟨hl, _⟩ | ⟨s, hl, hinv, hc⟩ | ⟨e, s, hl, he, hret, hbad, htol⟩
  · rw [hl] at h; simp at h
  · rw [hl] at h
    simp only at h
    left
    cases hex : p.exactObjective with
    | false =>
      rw [hex] at h
      simp only [Bool.false_eq_true, if_false, Outcome.returned.injEq] at h
      subst h
      exact ⟨s, rfl, hinv, hc, [], by simp [finish], rfl, by simp, fun _ => ⟨rfl, rfl⟩, by simp⟩
    | true =>
      rw [hex] at h
      obtain ⟨s', objs, h1, h2, h3, h4, h5, h6, h7⟩ :=
        exactLoop_spec (env := env) hb p.numFunctions 0 { s with overall := env.zero } (by omega)
      rw [h1] at h
      simp only [if_true, Outcome.returned.injEq] at h
      subst h
      refine ⟨s, rfl, hinv, hc, List.zipWith (fun c o => Ev.evaluate s.x c.1 c.2 o)
          (chunks p.numFunctions p.batchSize p.numFunctions 0) objs, ?_, h2, ?_, by simp,
          fun _ => ⟨objs, h4, ?_, h5, ?_⟩⟩
      · simp only [finish, h6, h2]
      · intro e he
        simp only [List.mem_iff_getElem, List.getElem_zipWith] at he
        obtain ⟨i, _, rfl⟩ := he
        rw [show (finish env Exit.loop s').x = s.x from h2]
        exact ⟨_, _, _, rfl⟩
      · simp only [finish, h2]
      · intro F hF
        rw [h7 (fun w b k => by rw [hF, hF])]
        apply List.map_congr_left
        intro c _
        simp only [hF, finish, h2]
  · rw [hl] at h
    right
    cases e with
    | loop => exact absurd rfl he
    | bad =>
      simp only [Outcome.returned.injEq] at h; subst h
      exact ⟨s, he, hret, rfl, rfl, rfl, by simpa [finish] using hbad rfl⟩
    | tol =>
      simp only [Outcome.returned.injEq] at h; subst h
      exact ⟨s, he, hret, rfl, rfl, rfl, by simpa [finish] using htol rfl⟩

theorem visits_evals (y : M) {ex : List (Ev M E)} (h : ∀ e ∈ ex, ∃ b k o, e = .evaluate y b k o) :
    visits ex = [] := by
  simp only [visits, List.flatMap_eq_nil_iff]
  intro e he
  obtain ⟨b, k, o, rfl⟩ := h e he
  rfl

theorem countP_evals (y : M) {ex : List (Ev M E)} (h : ∀ e ∈ ex, ∃ b k o, e = .evaluate y b k o)
    (q : Ev M E → Bool) (hq : ∀ b k o, q (.evaluate y b k o) = false) : ex.countP q = 0 := by
  rw [List.countP_eq_zero]
  intro e he
  obtain ⟨b, k, o, rfl⟩ := h e he
  simp [hq]

/-- A trace law survives appending calls it says nothing about. -/
theorem along_append_true {α : Type} {P : List α → α → Prop} {t ex : List α} (h : Along P t)
    (hex : ∀ e ∈ ex, ∀ pre, pre ≠ [] → P pre e) (hne : t ≠ []) : Along P (t ++ ex) := by
  induction ex using List.reverseRecOn with
  | nil => simpa using h
  | append_singleton ex a ih =>
    rw [← List.append_assoc, along_snoc]
    exact ⟨ih (fun e he => hex e (by simp [he])), hex a (by simp) _ (by simp [hne])⟩

/-- Collected facts about a completed run (helper). -/
theorem optimize_facts (hn : 0 < p.numFunctions) (hb : 0 < p.batchSize) {fuel : Nat} {w : W} {x : M}
    {r : Result W M E} (h : optimize env p fuel w x = .returned r) :
    ∃ total, total ≤ p.actualMax ∧ visits r.trace = (List.range total).map (· % p.numFunctions) ∧
      Along (EvLaw p.numFunctions) r.trace ∧
      r.trace.countP Ev.isEndEpoch = total / p.numFunctions ∧
      (r.exit = .loop → anyStop r.trace = false → total = p.actualMax) ∧
      (r.exit ≠ .loop → total % p.numFunctions = 0 ∧ 0 < total) ∧
      ∃ mid, r.trace = mid ++ [.endOpt r.x] ∧ mid.countP Ev.isEndOpt = 0 ∧
        mid.countP Ev.isBeginOpt = 1 := by
  rcases optimize_cases hn hb h with ⟨s, he, hinv, hc, ex, htr, hx, hex, _, _⟩ |
    ⟨s, he, hret, htr, hx, _, _⟩
  · have hv := visits_evals _ hex
    have hne : s.trace ≠ [] := by intro h0; have := hinv.one; rw [h0] at this; simp at this
    refine ⟨s.i, hinv.le, ?_, ?_, ?_, ?_, ?_, s.trace ++ ex, htr, ?_, ?_⟩
    · rw [htr, visits_append, visits_append, hv, hinv.visits]; simp [visits]
    · rw [htr, along_snoc]
      refine ⟨along_append_true hinv.law ?_ hne, trivial⟩
      intro e he' pre hpre
      obtain ⟨b, k, o, rfl⟩ := hex e he'
      exact hpre
    · rw [htr, List.countP_append, List.countP_append, countP_evals _ hex _ (fun _ _ _ => rfl),
        hinv.ends]; rfl
    · intro _ hns
      rw [htr, anyStop_append, anyStop_append] at hns
      simp only [Bool.or_eq_false_iff] at hns
      have : s.terminate = false := by rw [hinv.stop]; exact hns.1.1
      have := hinv.le
      by_contra hcon
      exact hc ⟨by omega, by assumption⟩
    · intro h'; exact absurd he h'
    · rw [List.countP_append, countP_evals _ hex _ (fun _ _ _ => rfl), hinv.noEnd]
    · rw [List.countP_append, countP_evals _ hex _ (fun _ _ _ => rfl), hinv.one]
  · refine ⟨s.i, hret.le, ?_, ?_, ?_, fun h' => absurd h' he, fun _ => ⟨hret.mod, hret.pos⟩,
      s.trace, htr, hret.noEnd, hret.one⟩
    · rw [htr, visits_append, hret.visits]; simp [visits]
    · rw [htr, along_snoc]; exact ⟨hret.law, trivial⟩
    · rw [htr, List.countP_append, hret.ends]; rfl

/-! ### C08 -/

/-- **C08** Every gradient evaluation is for a non-empty range inside `[0, NumFunctions())`; the
sequence of visited positions of the whole run is `0, 1, ..., n-1, 0, 1, ..., n-1, 0, ...`; the
`EndEpoch(e)` notification comes exactly after `e * n` visits; and there is one for every completed
pass. -/
theorem C08_sgd_cyclic_visits (hn : 0 < p.numFunctions) (hb : 0 < p.batchSize) {fuel : Nat} {w : W}
    {x : M} {r : Result W M E} (h : optimize env p fuel w x = .returned r) :
    (∀ y b sz o, Ev.evalGrad y b sz o ∈ r.trace → 1 ≤ sz ∧ b + sz ≤ p.numFunctions) ∧
    (∃ total, visits r.trace = (List.range total).map (· % p.numFunctions) ∧
      r.trace.countP Ev.isEndEpoch = total / p.numFunctions) ∧
    (∀ pre post ep o st, r.trace = pre ++ .endEpoch ep o st :: post →
      (visits pre).length = ep * p.numFunctions) := by
  obtain ⟨total, _, hv, hlaw, hcnt, _, _, _⟩ := optimize_facts hn hb h
  refine ⟨?_, ⟨total, hv, hcnt⟩, ?_⟩
  · intro y b sz o hmem
    obtain ⟨pre, post, he⟩ := List.append_of_mem hmem
    have := hlaw _ _ _ he
    exact ⟨this.1, this.2.1⟩
  · intro pre post ep o st he
    exact hlaw _ _ _ he

/-- **C08** In every completed epoch each of the `n` functions is visited exactly once, in order:
between two consecutive epoch ends (or before the first one) the visited positions are
`0, 1, ..., n-1`. -/
theorem C08_sgd_epoch_visits_each_once (hn : 0 < p.numFunctions) (hb : 0 < p.batchSize) {fuel : Nat}
    {w : W} {x : M} {r : Result W M E} (h : optimize env p fuel w x = .returned r) :
    (∀ mid post o st, r.trace = mid ++ .endEpoch 1 o st :: post →
      visits mid = List.range p.numFunctions) ∧
    (∀ pre mid post ep o st o' st',
      r.trace = pre ++ .endEpoch ep o st :: mid ++ .endEpoch (ep + 1) o' st' :: post →
      visits mid = List.range p.numFunctions) := by
  obtain ⟨total, _, hv, hlaw, _⟩ := optimize_facts hn hb h
  have seg : ∀ (a m c : List Nat) (k : Nat), a ++ m ++ c = (List.range total).map (· % p.numFunctions) →
      a.length = k * p.numFunctions → (a ++ m).length = (k + 1) * p.numFunctions →
      m = List.range p.numFunctions := by
    intro a m c k hamc ha ham
    have hml : m.length = p.numFunctions := by
      rw [List.length_append, ha, Nat.add_mul, Nat.one_mul] at ham; omega
    apply List.ext_getElem (by simp [hml])
    intro j hj hj'
    have hjn : j < p.numFunctions := by omega
    have h1 : (a ++ m ++ c)[k * p.numFunctions + j]? = some m[j] := by
      rw [List.append_assoc, List.getElem?_append_right (by omega), ha, Nat.add_sub_cancel_left,
        List.getElem?_append_left hj, List.getElem?_eq_getElem hj]
    rw [hamc, List.getElem?_map] at h1
    have hlt : k * p.numFunctions + j < total := by
      by_contra hcon
      rw [List.getElem?_eq_none (by simp; omega)] at h1
      simp at h1
    rw [List.getElem?_range hlt] at h1
    simp only [Option.map_some, Option.some.injEq] at h1
    rw [← h1, List.getElem_range, Nat.mul_comm, Nat.mul_add_mod, Nat.mod_eq_of_lt hjn]
  constructor
  · intro mid post o st he
    have h1 := hlaw _ _ _ he
    have h1' : (visits mid).length = 1 * p.numFunctions := h1
    have hv' := hv
    rw [he, visits_append] at hv'
    exact seg [] (visits mid) _ 0 (by simpa using hv') (by simp) (by simpa using h1')
  · intro pre mid post ep o st o' st' he
    have h1 : (visits pre).length = ep * p.numFunctions :=
      hlaw pre (.endEpoch ep o st) (mid ++ .endEpoch (ep + 1) o' st' :: post) (by simp [he])
    have h2 : (visits (pre ++ .endEpoch ep o st :: mid)).length = (ep + 1) * p.numFunctions :=
      hlaw _ _ post he
    have hcons : visits (Ev.endEpoch ep o st :: mid : List (Ev M E)) = visits mid := by simp [visits]
    have hv' := hv
    rw [he, visits_append, visits_append, hcons] at hv'
    exact seg (visits pre) (visits mid) _ ep hv' h1 (by rw [visits_append, hcons] at h2; exact h2)

/-! ### C09 -/

/-- **C09** The number of functions visited never exceeds `maxIterations` (or `SIZE_MAX` when
`maxIterations = 0`), and equals it when the loop was left without any stop request. -/
theorem C09_sgd_budget (hn : 0 < p.numFunctions) (hb : 0 < p.batchSize) {fuel : Nat} {w : W}
    {x : M} {r : Result W M E} (h : optimize env p fuel w x = .returned r) :
    (visits r.trace).length ≤ p.actualMax ∧
    (r.exit = .loop → anyStop r.trace = false → (visits r.trace).length = p.actualMax) := by
  obtain ⟨total, hle, hv, _, _, hlim, _⟩ := optimize_facts hn hb h
  rw [hv]
  simp only [List.length_map, List.length_range]
  exact ⟨hle, hlim⟩

/-- **C09** For every objective, policy and callback behaviour `Optimize` returns, after at most
`maxIterations` loop passes, and never hits undefined behaviour. -/
theorem C09_sgd_terminates (env : Env W M G E) (p : Params) (hn : 0 < p.numFunctions)
    (hb : 0 < p.batchSize) (w : W) (x : M) :
    ∃ r, optimize env p p.actualMax w x = .returned r := by
  unfold optimize
  rcases loop_inv (env := env) (p := p) hn hb p.actualMax (start env w x) (start_inv w x) with
    ⟨_, hl⟩ | ⟨s, hl, _, _⟩ | ⟨e, s, hl, he, _⟩
  · simp [start] at hl
  · rw [hl]
    simp only
    split
    · obtain ⟨s', _, h1, _⟩ :=
        exactLoop_spec (env := env) hb p.numFunctions 0 { s with overall := env.zero } (by omega)
      rw [h1]; exact ⟨_, rfl⟩
    · exact ⟨_, rfl⟩
  · rw [hl]
    cases e with
    | loop => exact absurd rfl he
    | bad => exact ⟨_, rfl⟩
    | tol => exact ⟨_, rfl⟩

/-- The outcome does not depend on the bound on loop passes once it suffices. -/
theorem C09_sgd_fuel_irrelevant (env : Env W M G E) (p : Params) (w : W) (x : M) (f₁ f₂ : Nat)
    (r : Result W M E) (h₁ : optimize env p f₁ w x = .returned r) (hf : f₁ ≤ f₂) :
    optimize env p f₂ w x = .returned r := by
  have mono : ∀ (f₁ f₂ : Nat) (s : St W M E), f₁ ≤ f₂ → loop env p f₁ s ≠ .outOfFuel →
      loop env p f₂ s = loop env p f₁ s := by
    intro f₁
    induction f₁ with
    | zero =>
      intro f₂ s _ hne
      rw [loop] at hne ⊢
      split at hne
      · exact absurd rfl hne
      · rename_i hc
        cases f₂ with
        | zero => rw [loop]
        | succ f₂ => rw [loop, if_neg hc, if_neg hc]
    | succ f₁ ih =>
      intro f₂ s hle hne
      obtain ⟨f₂, rfl⟩ : ∃ k, f₂ = k + 1 := ⟨f₂ - 1, by omega⟩
      rw [loop] at hne ⊢
      rw [loop]
      split
      · rename_i hc
        rw [if_pos hc] at hne
        cases hbd : body env p s with
        | cont s' =>
          simp only [hbd] at hne ⊢
          exact ih f₂ s' (by omega) hne
        | ret e s' => rfl
        | ub => rfl
      · rfl
  have hne : loop env p f₁ (start env w x) ≠ .outOfFuel := by
    intro h0; unfold optimize at h₁; rw [h0] at h₁; simp at h₁
  unfold optimize at h₁ ⊢
  rw [mono f₁ f₂ _ hf hne]
  exact h₁

/-! ### C10 -/

/-- **C10** With `exactObjective`, a run that is not ended by NaN/Inf or by the tolerance returns the
objective accumulated over consecutive ranges covering `[0, n)` exactly once, all evaluated at the
final coordinates. -/
theorem C10_sgd_exact_objective (hn : 0 < p.numFunctions) (hb : 0 < p.batchSize) {fuel : Nat} {w : W}
    {x : M} {r : Result W M E} (h : optimize env p fuel w x = .returned r)
    (hex : p.exactObjective = true) (hloop : r.exit = .loop)
    (F : M → Nat → Nat → E) (hF : ∀ w y b k, (env.evaluate w y b k).2 = F y b k) :
    ∃ ranges : List (Nat × Nat),
      ranges.flatMap (fun c => List.range' c.1 c.2) = List.range p.numFunctions ∧
      r.obj = (ranges.map (fun c => F r.x c.1 c.2)).foldl env.add env.zero := by
  rcases optimize_cases hn hb h with ⟨s, _, _, _, ex, _, _, _, _, hobj⟩ | ⟨s, he, _⟩
  · obtain ⟨objs, _, _, h3, h4⟩ := hobj hex
    refine ⟨chunks p.numFunctions p.batchSize p.numFunctions 0, ?_, ?_⟩
    · rw [chunks_cover _ _ hb _ _ (by omega), Nat.sub_zero, List.range_eq_range']
    · rw [h3, h4 F hF]
  · exact absurd hloop he

/-- **C10** If, moreover, the objective is a sum of `n` functions and addition is exact, the returned
value is that sum at the final coordinates. -/
theorem C10_sgd_exact_objective_sum {W M G E : Type} [AddCommMonoid E] {env : Env W M G E} {p : Params}
    (hadd : env.add = (· + ·)) (hzero : env.zero = 0)
    (hn : 0 < p.numFunctions) (hb : 0 < p.batchSize) {fuel : Nat} {w : W}
    {x : M} {r : Result W M E} (h : optimize env p fuel w x = .returned r)
    (hex : p.exactObjective = true) (hloop : r.exit = .loop)
    (φ : Nat → M → E)
    (hF : ∀ w y b k, (env.evaluate w y b k).2 = ((List.range' b k).map (fun j => φ j y)).sum) :
    r.obj = ∑ j ∈ Finset.range p.numFunctions, φ j r.x := by
  obtain ⟨ranges, h1, h2⟩ := C10_sgd_exact_objective hn hb h hex hloop
    (fun y b k => ((List.range' b k).map (fun j => φ j y)).sum) hF
  have hsum : ∀ (l : List E) (a : E), l.foldl (fun x y => x + y) a = a + l.sum := by
    intro l
    induction l with
    | nil => intro a; simp
    | cons y ys ih => intro a; simp [ih, add_assoc]
  have hfm : ∀ (l : List (Nat × Nat)),
      (l.map (fun c => ((List.range' c.1 c.2).map (fun j => φ j r.x)).sum)).sum
        = ((l.flatMap (fun c => List.range' c.1 c.2)).map (fun j => φ j r.x)).sum := by
    intro l
    induction l with
    | nil => simp
    | cons c cs ih => simp [ih]
  rw [h2, hadd, hzero, hsum, zero_add, hfm, h1]
  rfl

/-! ### C11 -/

/-- **C11** Notification protocol: the first call of a run is `BeginOptimization`, the last one is
`EndOptimization` with the final coordinates, and neither occurs anywhere else. -/
theorem C11_sgd_protocol (hn : 0 < p.numFunctions) (hb : 0 < p.batchSize) {fuel : Nat} {w : W}
    {x : M} {r : Result W M E} (h : optimize env p fuel w x = .returned r) :
    ∃ x₀ mid, r.trace = .beginOpt x₀ :: mid ++ [.endOpt r.x] ∧
      (∀ e ∈ mid, e.isBeginOpt = false ∧ e.isEndOpt = false) := by
  obtain ⟨total, _, _, hlaw, _, _, _, mid, htr, h0, h1⟩ := optimize_facts hn hb h
  cases mid with
  | nil => simp at h1
  | cons e mid =>
    have hfirst : ∃ x₀, e = .beginOpt x₀ := by
      obtain ⟨e', he', hb'⟩ : ∃ e' ∈ e :: mid, e'.isBeginOpt = true := by
        have : 0 < (e :: mid).countP Ev.isBeginOpt := by omega
        exact List.countP_pos_iff.1 this
      obtain ⟨pre, post, hpp⟩ := List.append_of_mem he'
      have hl := hlaw pre e' (post ++ [.endOpt r.x]) (by rw [htr, hpp]; simp)
      cases e' with
      | beginOpt x₀ =>
        have hpre : pre = [] := hl
        subst hpre
        simp at hpp
        exact ⟨x₀, hpp.1⟩
      | _ => simp [Ev.isBeginOpt] at hb'
    obtain ⟨x₀, rfl⟩ := hfirst
    refine ⟨x₀, mid, htr, fun e he => ⟨?_, ?_⟩⟩
    · rw [List.countP_cons] at h1
      have h1' : mid.countP Ev.isBeginOpt = 0 := by simpa [Ev.isBeginOpt] using h1
      simpa using List.countP_eq_zero.1 h1' e he
    · have := List.countP_eq_zero.1 h0 e (by simp [he])
      simpa using this

/-- **C11**, the part that holds: after a callback asks to stop no further gradient is evaluated, and
no further update is applied except the one of the iteration whose evaluation notification carried
the request. -/
theorem C11_sgd_prompt_stop_partial (hn : 0 < p.numFunctions) (hb : 0 < p.batchSize) {fuel : Nat}
    {w : W} {x : M} {r : Result W M E} (h : optimize env p fuel w x = .returned r) :
    (∀ pre post y b sz o, r.trace = pre ++ .evalGrad y b sz o :: post → anyStop pre = false) ∧
    (∀ pre post y z, r.trace = pre ++ .update y z :: post → anyStop pre = true →
      ∃ pre', pre = pre' ++ [.cbEvalGrad true] ∧ anyStop pre' = false) := by
  obtain ⟨total, _, _, hlaw, _⟩ := optimize_facts hn hb h
  constructor
  · intro pre post y b sz o he
    exact (hlaw _ _ _ he).2.2.2
  · intro pre post y z he hs
    obtain ⟨pre', st, h1, h2⟩ := hlaw _ _ _ he
    subst h1
    rw [anyStop_append, h2] at hs
    simp [anyStop, Ev.stops] at hs
    subst hs
    exact ⟨pre', rfl, h2⟩

/-! ### A concrete environment for examples and refutations -/

/-- Objective pieces `f_j(x) = x + j` (gradient 1), vanilla update with step 1, integer arithmetic,
nobody asks to stop except as configured: `stopEval`/`stopEpoch` are the answers of the evaluation
and epoch-end callbacks. -/
def demoEnv (stopEval stopEpoch : Bool) : Env Unit Int Int Int where
  evalGrad := fun w x b k => (w, ((List.range' b k).map (fun j => x + (j : Int))).sum, (k : Int))
  evaluate := fun w x b k => (w, ((List.range' b k).map (fun j => x + (j : Int))).sum)
  shuffle := fun w => w
  update := fun w x g => (w, x - g)
  decay := fun w x _ => (w, x)
  cbBegin := fun w x => (w, x)
  cbBeginEpoch := fun w _ _ _ => (w, false)
  cbEvalGrad := fun w _ _ g => (w, g, stopEval)
  cbStep := fun w x => (w, x, false)
  cbEndEpoch := fun w _ _ _ => (w, stopEpoch)
  cbEvaluate := fun w _ _ => (w, false)
  cbEnd := fun w x => (w, x)
  add := (· + ·)
  zero := 0
  divN := fun e n => e / (n : Int)
  dblMax := 1000000
  isBad := fun _ => false
  isClose := fun a b => decide (a - b < 1 ∧ b - a < 1)

def demoP (exact : Bool) : Params := ⟨3, 2, 7, true, exact⟩

/-- Non-vacuity of C08, C09, C11: 3 functions, batch size 2, 7 iterations. -/
example : ∃ r, optimize (demoEnv false false) (demoP false) 7 () 100 = .returned r ∧
    visits r.trace = [0, 1, 2, 0, 1, 2, 0] ∧ r.trace.countP Ev.isEndEpoch = 2 ∧ r.exit = .loop :=
  ⟨_, rfl, by decide, by decide, rfl⟩

/-- Non-vacuity of C10: the final point is 93, the sum 93 + 94 + 95. -/
example : ∃ r, optimize (demoEnv false false) (demoP true) 7 () 100 = .returned r ∧
    r.x = 93 ∧ r.obj = 93 + 94 + 95 := ⟨_, rfl, by decide, by decide⟩

/-- **C11** is false as documented ("terminated before any more steps are taken",
callbacks.hpp:50-51): when the evaluation callback asks to stop, the update of that iteration is
still applied. -/
theorem C11_sgd_no_step_after_stop_refuted :
    ¬ ∀ (env : Env Unit Int Int Int) (p : Params) (fuel : Nat) (w : Unit) (x : Int)
        (r : Result Unit Int Int), 0 < p.numFunctions → 0 < p.batchSize →
        optimize env p fuel w x = .returned r →
        ∀ pre post y z, r.trace = pre ++ .update y z :: post → anyStop pre = false := by
  intro h
  have := h (demoEnv true false) (demoP false) 7 () 100 _ (by decide) (by decide) rfl
    [.beginOpt 100, .beginEpoch 1 0 false, .evalGrad 100 0 2 201, .cbEvalGrad true]
    [.stepTaken false, .endOpt 98] 100 98 rfl
  revert this; decide

/-! ### C12 -/

/-- **C12**, the part that holds.  Without `exactObjective` the returned value is the accumulated
objective of the last (complete or partial) epoch, except when a callback stopped the run at the end
of a completed epoch before the iteration limit: then the returned value is `0`. -/
theorem C12_sgd_returned_value_partial (hn : 0 < p.numFunctions) (hb : 0 < p.batchSize) {fuel : Nat}
    {w : W} {x : M} {r : Result W M E} (h : optimize env p fuel w x = .returned r)
    (hex : p.exactObjective = false) :
    r.obj = (lastEpoch r.trace).foldl env.add env.zero ∨
    (r.exit = .loop ∧ anyStop r.trace = true ∧ 0 < (visits r.trace).length ∧
      (visits r.trace).length % p.numFunctions = 0 ∧ (visits r.trace).length < p.actualMax ∧
      r.obj = env.zero) := by
  have hend : ∀ (t : List (Ev M E)) (y : M), lastEpoch (t ++ [.endOpt y]) = lastEpoch t := by
    intro t y; rw [lastEpoch, lastEpochAux_snoc]; rfl
  rcases optimize_cases hn hb h with ⟨s, he, hinv, hc, ex, htr, _, _, hno, _⟩ |
    ⟨s, he, hret, htr, _, hobj, _⟩
  · obtain ⟨hex0, hobj⟩ := hno hex
    subst hex0
    simp only [List.append_nil] at htr
    have hlen : (visits r.trace).length = s.i := by
      rw [htr, visits_append, hinv.visits]; simp [visits]
    have ho := hinv.obj
    split at ho
    · rename_i hcond
      right
      have hle := hinv.le
      refine ⟨he, ?_, by omega, by rw [hlen]; exact hcond.2.1, by omega, by rw [hobj, ho]⟩
      rw [htr, anyStop_append, ← hinv.stop]
      have : s.terminate = true := by
        cases ht : s.terminate with
        | true => rfl
        | false => exact absurd ⟨by omega, ht⟩ hc
      simp [this]
    · left; rw [hobj, ho, htr, hend]
  · left; rw [hobj, hret.obj, htr, hend]

/-- **C12** is false: a callback that stops at an epoch end makes `Optimize` return 0 although the
epoch's objective was 300 (the value passed to the epoch callback is its average 100). -/
theorem C12_sgd_returned_value_refuted :
    ¬ ∀ (env : Env Unit Int Int Int) (p : Params) (fuel : Nat) (w : Unit) (x : Int)
        (r : Result Unit Int Int), 0 < p.numFunctions → 0 < p.batchSize → p.exactObjective = false →
        optimize env p fuel w x = .returned r →
        r.obj = (lastEpoch r.trace).foldl env.add env.zero := by
  intro h
  have := h (demoEnv false true) (demoP false) 7 () 100 _ (by decide) (by decide) rfl rfl
  revert this; decide

end Ens.Sgd
