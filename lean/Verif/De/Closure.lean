import Verif.Prob.Draws
import Verif.De.Props
import Verif.De.Invariance

/-
C295: the candidates of DE stay in the set generated by the initial population; in particular a
coordinate on which the initial members agree never changes, whatever the number of generations.
-/

namespace Ens.De

section generic
variable {W M E : Type} [LT E] [DecidableLT E] [DecidableEq E]

/-- Population, best element and all recorded populations satisfy `P`. -/
structure AllIn (P : M → Prop) (s : St W M E) : Prop where
  pop : ∀ p ∈ s.pop, P p
  best : ∀ b, s.best = some b → P b
  pops : ∀ q ∈ pops s.trace, ∀ p ∈ q, P p

/-- Mutation, crossover and `StepTaken` lead from `P` to `P`. -/
structure Closed (env : Env W M E) (P : M → Prop) : Prop where
  mutant : ∀ w b l m x, P b → P l → P m → P x → P (env.mutant w b l m x).2
  cbStep : ∀ w x, P x → P (env.cbStep w x).2.1

variable {env : Env W M E} {P : M → Prop}

theorem compete_in (h : Closed env P) (s : St W M E) (hs : AllIn P s) (k : Nat) (x mu : M) (hx : P x)
    (hm : P mu) : AllIn P (compete env s k x mu).1 := by
  have hset : ∀ (y : M), P y → ∀ p ∈ s.pop.set k y, P p := by
    intro y hy p hp
    rcases List.mem_or_eq_of_mem_set hp with hp | rfl
    · exact hs.pop p hp
    · exact hy
  unfold compete
  simp only
  split_ifs
  · exact ⟨hs.pop, hs.best, by simpa [pops] using hs.pops⟩
  · exact ⟨hset _ (h.cbStep _ _ hm), hs.best, by simpa [pops] using hs.pops⟩
  · exact ⟨hset _ hx, hs.best, by simpa [pops] using hs.pops⟩

theorem memberStep_in (h : Closed env P) (fuel n k : Nat) (s : St W M E) (hs : AllIn P s)
    (r : St W M E × Bool) (hr : memberStep env fuel n k s = .ok r) : AllIn P r.1 := by
  unfold memberStep at hr
  cases h1 : drawL env n k fuel s.w with
  | none => rw [h1] at hr; cases hr
  | some a =>
  obtain ⟨w1, l⟩ := a
  rw [h1] at hr
  simp only at hr
  cases h2 : drawM env n k l fuel w1 with
  | none => rw [h2] at hr; cases hr
  | some b =>
  obtain ⟨w2, m⟩ := b
  rw [h2] at hr
  simp only at hr
  cases h3 : s.best with
  | none => rw [h3] at hr; cases hr
  | some b =>
  rw [h3] at hr
  simp only at hr
  cases h4 : s.pop[k]? with
  | none => rw [h4] at hr; cases hr
  | some x =>
  cases h5 : s.pop[l]? with
  | none => rw [h4, h5] at hr; cases hr
  | some xl =>
  cases h6 : s.pop[m]? with
  | none => rw [h4, h5, h6] at hr; cases hr
  | some xm =>
  rw [h4, h5, h6] at hr
  simp only [Except.ok.injEq] at hr
  rw [← hr]
  have hx := hs.pop x (List.mem_of_getElem? h4)
  refine compete_in h _ (AllIn.mk ?_ ?_ ?_) k x _ hx ?_
  · exact hs.pop
  · intro c hc; exact hs.best c (h3.trans hc)
  · simpa [pops] using hs.pops
  · exact h.mutant _ _ _ _ _ (hs.best b h3) (hs.pop xl (List.mem_of_getElem? h5))
      (hs.pop xm (List.mem_of_getElem? h6)) hx

theorem memberLoop_in (h : Closed env P) (fuel n : Nat) : ∀ (rem k : Nat) (s : St W M E), AllIn P s →
    ∀ s', memberLoop env fuel n rem k s = .ok s' → AllIn P s' := by
  intro rem
  induction rem with
  | zero => intro k s hs s' h'; simp only [memberLoop, Except.ok.injEq] at h'; rw [← h']; exact hs
  | succ rem ih =>
    intro k s hs s' h'
    rw [memberLoop] at h'
    cases h1 : memberStep env fuel n k s with
    | error e => rw [h1] at h'; cases h'
    | ok r =>
      obtain ⟨s1, br⟩ := r
      have h2 := memberStep_in h fuel n k s hs _ h1
      rw [h1] at h'
      cases br with
      | true => simp only [Except.ok.injEq] at h'; rw [← h']; exact h2
      | false => exact ih (k + 1) s1 h2 s' h'

theorem findBest_mem (last : E) : ∀ (pop : List M) (fit : List E) (b : M),
    findBest last pop fit = some b → b ∈ pop := by
  intro pop
  induction pop with
  | nil => intro fit b h; cases fit <;> cases h
  | cons p pop ih =>
    intro fit b h
    cases fit with
    | nil => cases h
    | cons v fit =>
      simp only [findBest] at h
      split_ifs at h
      · cases h; simp
      · exact List.mem_cons_of_mem _ (ih fit b h)

theorem genLoop_in (h : Closed env P) (fuel n : Nat) : ∀ (rem : Nat) (s : St W M E), AllIn P s →
    ∀ r, genLoop env fuel n rem s = .ok r → AllIn P r.1 := by
  intro rem
  induction rem with
  | zero => intro s hs r h'; simp only [genLoop, Except.ok.injEq] at h'; rw [← h']; exact hs
  | succ rem ih =>
    intro s hs r h'
    rw [genLoop] at h'
    by_cases ht : s.terminate = true
    · rw [if_pos ht] at h'; simp only [Except.ok.injEq] at h'; rw [← h']; exact hs
    · rw [if_neg ht] at h'
      cases h1 : memberLoop env fuel n n 0 s with
      | error e => rw [h1] at h'; cases h'
      | ok s1 =>
        have h2 := memberLoop_in h fuel n n 0 s hs s1 h1
        rw [h1] at h'
        simp only at h'
        have hp : ∀ q ∈ pops (s1.trace ++ [Ev.gen s1.pop s1.fit]), ∀ p ∈ q, P p := by
          intro q hq
          rw [pops_append, List.mem_append] at hq
          rcases hq with hq | hq
          · exact h2.pops q hq
          · simp only [pops, List.filterMap_cons, List.filterMap_nil, List.mem_singleton] at hq
            subst hq
            exact h2.pop
        split_ifs at h'
        · simp only [Except.ok.injEq] at h'; rw [← h']; exact ⟨h2.pop, h2.best, hp⟩
        · refine ih _ (AllIn.mk ?_ ?_ ?_) r h'
          · exact h2.pop
          rotate_left
          · exact hp
          intro b hb
          simp only at hb
          cases hf : findBest (minFit env.inf s1.fit) s1.pop s1.fit with
          | none => rw [hf] at hb; exact h2.best b hb
          | some c =>
            rw [hf] at hb
            simp only [Option.some_or, Option.some.injEq] at hb
            rw [← hb]
            exact h2.pop c (findBest_mem _ _ _ _ hf)

theorem initLoop_best (x₀ : M) : ∀ (n : Nat) (s : St W M E), (∀ b, s.best = some b → b ∈ s.pop) →
    pops s.trace = [] → (∀ b, (initLoop env x₀ n s).best = some b → b ∈ (initLoop env x₀ n s).pop) ∧
      pops (initLoop env x₀ n s).trace = [] := by
  intro n
  induction n with
  | zero => intro s h h'; exact ⟨h, h'⟩
  | succ n ih =>
    intro s h h'
    rw [initLoop]
    refine ih _ ?_ ?_
    · intro b hb
      simp only [initStep] at hb ⊢
      split_ifs at hb
      · cases hb; simp
      · exact List.mem_append_left _ (h b hb)
    · simp only [initStep, pops_append, h']; rfl

/-- The trace only grows. -/
theorem memberLoop_pops (fuel n : Nat) : ∀ (rem k : Nat) (s s' : St W M E),
    memberLoop env fuel n rem k s = .ok s' → pops s'.trace = pops s.trace := by
  intro rem
  induction rem with
  | zero => intro k s s' h'; simp only [memberLoop, Except.ok.injEq] at h'; rw [← h']
  | succ rem ih =>
    intro k s s' h'
    have hstep : ∀ r, memberStep env fuel n k s = .ok r → pops r.1.trace = pops s.trace := by
      intro r hr
      unfold memberStep at hr
      split at hr
      · cases hr
      · split at hr
        · cases hr
        · split at hr
          · cases hr
          · split at hr
            · simp only [Except.ok.injEq] at hr
              rw [← hr]
              unfold compete
              simp only
              split_ifs <;> simp [pops]
            · cases hr
    rw [memberLoop] at h'
    cases h1 : memberStep env fuel n k s with
    | error e => rw [h1] at h'; cases h'
    | ok r =>
      obtain ⟨s1, br⟩ := r
      have h2 := hstep _ h1
      rw [h1] at h'
      cases br with
      | true => simp only [Except.ok.injEq] at h'; rw [← h']; exact h2
      | false => exact (ih (k + 1) s1 s' h').trans h2

theorem genLoop_head (fuel n : Nat) : ∀ (rem : Nat) (s : St W M E) (q : List M),
    (pops s.trace).head? = some q → ∀ r, genLoop env fuel n rem s = .ok r →
    (pops r.1.trace).head? = some q := by
  intro rem
  induction rem with
  | zero => intro s q hq r h'; simp only [genLoop, Except.ok.injEq] at h'; rw [← h']; exact hq
  | succ rem ih =>
    intro s q hq r h'
    rw [genLoop] at h'
    by_cases ht : s.terminate = true
    · rw [if_pos ht] at h'; simp only [Except.ok.injEq] at h'; rw [← h']; exact hq
    · rw [if_neg ht] at h'
      cases h1 : memberLoop env fuel n n 0 s with
      | error e => rw [h1] at h'; cases h'
      | ok s1 =>
        have h2 := memberLoop_pops fuel n n 0 s s1 h1
        rw [h1] at h'
        simp only at h'
        have hp : (pops (s1.trace ++ [Ev.gen s1.pop s1.fit])).head? = some q := by
          rw [pops_append, h2, List.head?_append, hq]; rfl
        split_ifs at h'
        · simp only [Except.ok.injEq] at h'; rw [← h']; exact hp
        · exact ih _ q hp r h'

/-- The first recorded population is the initial one, and if it lies in a closed set then so does
everything that follows. -/
theorem optimize_in (h : Closed env P) {n maxGen fuel : Nat} {w : W} {x : M} {r : Result M E}
    (hr : optimize env n maxGen fuel w x = .ok r) :
    (pops r.trace).head? = some (initLoop env x n (start0 env w)).pop ∧
    ((∀ p ∈ (initLoop env x n (start0 env w)).pop, P p) →
      (∀ q ∈ pops r.trace, ∀ p ∈ q, P p) ∧ (∀ p ∈ r.pop, P p) ∧ ∀ b, r.x = some b → P b) := by
  have hb := initLoop_best (env := env) x n (start0 env w) (by simp [start0]) rfl
  have hst : pops (start env n w x).trace = [(initLoop env x n (start0 env w)).pop] := by
    simp only [start, pops_append, hb.2]; rfl
  unfold optimize at hr
  split_ifs at hr
  cases hg : genLoop env fuel n maxGen (start env n w x) with
  | error e => rw [hg] at hr; cases hr
  | ok r1 =>
    obtain ⟨s, tol⟩ := r1
    rw [hg] at hr
    simp only [Except.ok.injEq] at hr
    have hpt : pops r.trace = pops s.trace := by
      rw [← hr]
      simp only [pops_append]
      cases s.best <;> simp [pops]
    refine ⟨?_, ?_⟩
    · rw [hpt]
      exact genLoop_head fuel n maxGen _ _ (by rw [hst]; rfl) _ hg
    · intro h0
      have := genLoop_in h fuel n maxGen (start env n w x)
        ⟨h0, fun b hbb => h0 b (hb.1 b hbb), by rw [hst]; simpa using h0⟩ _ hg
      rw [hpt]
      refine ⟨this.pops, ?_, ?_⟩
      · rw [← hr]; exact this.pop
      · rw [← hr]; exact this.best

/-- If the index sampling loops end within the fuel, no run is reported as diverging. -/
theorem optimize_ne_diverges {n maxGen fuel : Nat} (hL : ∀ k w, drawL env n k fuel w ≠ none)
    (hM : ∀ k l w, drawM env n k l fuel w ≠ none) (w : W) (x : M) :
    optimize env n maxGen fuel w x ≠ .error .diverges := by
  have h1 : ∀ k s, memberStep env fuel n k s ≠ .error .diverges := by
    intro k s h
    unfold memberStep at h
    split at h
    · exact hL _ _ (by assumption)
    · split at h
      · exact hM _ _ _ (by assumption)
      · split at h
        · cases h
        · split at h <;> cases h
  have h2 : ∀ rem k s, memberLoop env fuel n rem k s ≠ .error .diverges := by
    intro rem
    induction rem with
    | zero => intro k s h; cases h
    | succ rem ih =>
      intro k s h
      rw [memberLoop] at h
      split at h
      · rename_i e he
        cases h
        exact h1 _ _ he
      · cases h
      · exact ih _ _ h
  have h3 : ∀ rem s, genLoop env fuel n rem s ≠ .error .diverges := by
    intro rem
    induction rem with
    | zero => intro s h; cases h
    | succ rem ih =>
      intro s h
      rw [genLoop] at h
      split_ifs at h
      split at h
      · rename_i e he
        cases h
        exact h2 _ _ _ he
      · simp only at h
        split_ifs at h
        exact ih _ h
  intro h
  unfold optimize at h
  split_ifs at h
  · cases h
  · split at h
    · rename_i e he
      cases h
      exact h3 _ _ he
    · cases h

end generic

variable {d : Nat} {W : Type}

/-- **C295** Every coordinate of every member of every generation, and of the returned coordinates, lies
in each set that contains the values of this coordinate in the initial population and is closed under
`b, l, m ↦ b + F (l - m)`, whatever is drawn and whatever the objective. -/
theorem C295_closure (draws : Draws W d) (F CR tol : ℝ) (dblMax : EReal) (f : (Fin d → ℝ) → EReal)
    (i : Fin d) (V : Set ℝ) (hV : ∀ b ∈ V, ∀ l ∈ V, ∀ m ∈ V, b + F * (l - m) ∈ V)
    {n maxGen fuel : Nat} {w : W} {x : Fin d → ℝ} {r : Result (Fin d → ℝ) EReal}
    (hr : optimize (realEnv draws F CR tol dblMax f) n maxGen fuel w x = .ok r)
    (h0 : ∀ p₀, (pops r.trace).head? = some p₀ → ∀ p ∈ p₀, p i ∈ V) :
    (∀ q ∈ pops r.trace, ∀ p ∈ q, p i ∈ V) ∧ (∀ p ∈ r.pop, p i ∈ V) ∧ ∀ b, r.x = some b → b i ∈ V := by
  have hc : Closed (realEnv draws F CR tol dblMax f) (fun p => p i ∈ V) := by
    refine ⟨?_, fun w x hx => hx⟩
    intro w b l m x hb hl hm hx
    simp only [realEnv]
    split_ifs
    · exact hx
    · exact hV _ hb _ hl _ hm
  obtain ⟨h1, h2⟩ := optimize_in hc hr
  exact h2 (h0 _ h1)

/-- **C295** A coordinate on which all members of the initial population agree keeps its value for
ever. -/
theorem C295_frozen_coordinate (draws : Draws W d) (F CR tol : ℝ) (dblMax : EReal)
    (f : (Fin d → ℝ) → EReal) (i : Fin d) (c : ℝ)
    {n maxGen fuel : Nat} {w : W} {x : Fin d → ℝ} {r : Result (Fin d → ℝ) EReal}
    (hr : optimize (realEnv draws F CR tol dblMax f) n maxGen fuel w x = .ok r)
    (h0 : ∀ p₀, (pops r.trace).head? = some p₀ → ∀ p ∈ p₀, p i = c) :
    (∀ q ∈ pops r.trace, ∀ p ∈ q, p i = c) ∧ ∀ b, r.x = some b → b i = c := by
  have := C295_closure draws F CR tol dblMax f i {c} (by
    intro b hb l hl m hm
    rw [Set.mem_singleton_iff] at hb hl hm ⊢
    rw [hb, hl, hm]; ring) hr h0
  exact ⟨this.1, this.2.2⟩

/-- **C295** With differential weight zero every coordinate of every candidate is one of the values of
this coordinate in the initial population. -/
theorem C295_weight_zero (draws : Draws W d) (CR tol : ℝ) (dblMax : EReal)
    (f : (Fin d → ℝ) → EReal) (i : Fin d)
    {n maxGen fuel : Nat} {w : W} {x : Fin d → ℝ} {r : Result (Fin d → ℝ) EReal}
    (hr : optimize (realEnv draws 0 CR tol dblMax f) n maxGen fuel w x = .ok r) :
    ∃ p₀, (pops r.trace).head? = some p₀ ∧ ∀ b, r.x = some b → ∃ p ∈ p₀, b i = p i := by
  have hc : Closed (realEnv draws 0 CR tol dblMax f) (fun _ => True) := ⟨by simp, by simp⟩
  obtain ⟨h1, -⟩ := optimize_in hc hr
  refine ⟨_, h1, ?_⟩
  have := C295_closure draws 0 CR tol dblMax f i
    {v | ∃ p ∈ (initLoop (realEnv draws 0 CR tol dblMax f) x n
      (start0 (realEnv draws 0 CR tol dblMax f) w)).pop, v = p i} (by
      intro b hb l _ m _; simpa using hb) hr (by
      intro p₀ hp p hpm
      rw [h1] at hp
      cases hp
      exact ⟨p, hpm, rfl⟩)
  exact this.2.2

/-- Draws from a counter: the normal vector is `(w, 5)`, so the members differ in coordinate 0 and agree
in coordinate 1. -/
noncomputable def counterDraws : Draws Nat 2 where
  normal w := (w + 1, fun i => if i = 0 then (w : ℝ) else 5)
  randi w n := (w + 1, w % n)
  uniform w := (w + 1, fun _ => 0)

/-- Non-vacuity: a run of seven generations returns, its initial population agrees in coordinate 1 and
not in coordinate 0; hence coordinate 1 is still 5. -/
example (f : (Fin 2 → ℝ) → EReal) (hf : ∀ x, f x < 1000) :
    ∃ r, optimize (realEnv counterDraws (1/2) (1/2) 0 1000 f) 3 7 2 0 (fun _ => 0) = .ok r ∧
      (∀ p₀, (pops r.trace).head? = some p₀ → (∀ p ∈ p₀, p 1 = 5) ∧ p₀.map (· 0) = [0, 1, 2]) ∧
      ∀ b, r.x = some b → b 1 = 5 := by
  haveI : StrictPO EReal := ⟨lt_irrefl, fun _ _ _ => lt_trans⟩
  have hs : Sane (realEnv counterDraws (1/2) (1/2) 0 1000 f) f :=
    ⟨fun _ _ => rfl, fun _ _ => rfl, fun w n hn => Nat.mod_lt _ (Nat.pos_of_ne_zero hn),
      fun e he => lt_of_lt_of_le he le_top⟩
  have hpop : (initLoop (realEnv counterDraws (1/2) (1/2) 0 1000 f) (fun _ => 0) 3
      (start0 (realEnv counterDraws (1/2) (1/2) 0 1000 f) 0)).pop =
      [fun i => if i = 0 then 0 else 5, fun i => if i = 0 then 1 else 5,
        fun i => if i = 0 then 2 else 5] := by
    simp only [initLoop, initStep, start0, realEnv, counterDraws, List.nil_append, List.cons_append]
    congr 1
    · funext i; simp
    · congr 1
      · funext i; simp
      · congr 1
        funext i; simp
  have hL : ∀ k w, drawL (realEnv counterDraws (1/2) (1/2) 0 1000 f) 3 k 2 w ≠ none := by
    intro k w
    have hr : ∀ w, (realEnv counterDraws (1/2) (1/2) 0 1000 f).randi w 3 = (w + 1, w % 3) :=
      fun _ => rfl
    rw [drawL, drawL]
    by_cases h1 : ((realEnv counterDraws (1/2) (1/2) 0 1000 f).randi w 3).2 = k
    · simp only [h1, if_true]
      rw [if_neg (by rw [hr, hr]; rw [hr] at h1; omega)]
      simp
    · simp only [h1, if_false]; simp
  have hM : ∀ k l w, drawM (realEnv counterDraws (1/2) (1/2) 0 1000 f) 3 k l 2 w ≠ none := by
    intro k l w
    have hr : ∀ w, (realEnv counterDraws (1/2) (1/2) 0 1000 f).randi w 3 = (w + 1, w % 3) :=
      fun _ => rfl
    simp only [drawM]
    split_ifs with h1 h2
    · rw [hr, hr] at h2; rw [hr] at h1; omega
    · simp
    · simp
  rcases (C20_de_total hs (n := 3) (maxGen := 7) (fuel := 2) (w := 0) (x := fun _ => 0) (by
    refine ⟨fun i => if i = 0 then 0 else 5, ?_, hf _⟩
    simp only [start, hpop]
    simp)).2 (le_refl 3) with h | ⟨r, hr⟩
  · exact absurd h (optimize_ne_diverges hL hM _ _)
  · have hc : Closed (realEnv counterDraws (1/2) (1/2) 0 1000 f) (fun _ => True) := ⟨by simp, by simp⟩
    have h1 := (optimize_in hc hr).1
    rw [hpop] at h1
    have h0 : ∀ p₀, (pops r.trace).head? = some p₀ →
        (∀ p ∈ p₀, p 1 = 5) ∧ p₀.map (· 0) = [0, 1, 2] := by
      intro p₀ hp
      rw [h1] at hp
      cases hp
      simp
    exact ⟨r, hr, h0, (C295_frozen_coordinate counterDraws _ _ _ _ f 1 5 hr fun p₀ hp => (h0 p₀ hp).1).2⟩

/-! ### Consequence: no convergence in probability -/

open Ens.Prob in
/-- DE on the list of draws still to come; every call of the generator takes the next draw. -/
noncomputable def listDraws {D : Type} [Inhabited D] (N U : D → Fin d → ℝ) (I : D → Nat → Nat) :
    Draws (List D) d where
  normal w := (w.tail, N (w.headD default))
  randi w n := (w.tail, I (w.headD default) n)
  uniform w := (w.tail, U (w.headD default))

theorem initLoop_list {D : Type} [Inhabited D] (N U : D → Fin d → ℝ) (I : D → Nat → Nat)
    (F CR tol : ℝ) (dblMax : EReal) (f : (Fin d → ℝ) → EReal) (x : Fin d → ℝ) :
    ∀ (l r : List D) (s : St (List D) (Fin d → ℝ) EReal), s.w = l ++ r →
    (initLoop (realEnv (listDraws N U I) F CR tol dblMax f) x l.length s).pop =
      s.pop ++ l.map fun d => N d + x := by
  intro l
  induction l with
  | nil => intro r s _; simp [initLoop]
  | cons a l ih =>
    intro r s hs
    rw [List.length_cons, initLoop, ih r _ (by simp [initStep, realEnv, listDraws, hs])]
    simp [initStep, realEnv, listDraws, hs]

open Ens.Prob in
/-- **C295** Hence DE is not globally convergent in probability: if a draw of the normal vector has
coordinate `i` equal to `c` with positive probability, then with at least this probability to the power
of the population size DE returns coordinate `i` equal to that of the start plus `c`, for every number
of generations. -/
theorem C295_not_globally_convergent {D : Type} [Inhabited D] (N U : D → Fin d → ℝ)
    (I : D → Nat → Nat) (μ : PMF D) (F CR tol : ℝ) (dblMax : EReal) (f : (Fin d → ℝ) → EReal)
    (x : Fin d → ℝ) (i : Fin d) (c : ℝ) (n maxGen fuel m : Nat) :
    pr μ {a | N a i = c} ^ n ≤ pr (draws μ (n + m)) {w | ∀ r,
      optimize (realEnv (listDraws N U I) F CR tol dblMax f) n maxGen fuel w x = .ok r →
      ∀ b, r.x = some b → b i = x i + c} := by
  refine le_trans (pr_all μ _ n) ?_
  have h1 := pr_append μ (n := n) (m := m) {l | l.length = n ∧ ∀ a ∈ l, a ∈ {a | N a i = c}}
    {l | l.length = m}
  rw [pr_length, mul_one] at h1
  refine le_trans h1 (pr_mono _ ?_)
  rintro w ⟨l, r, rfl, ⟨rfl, hl⟩, -⟩ res hres
  refine (C295_frozen_coordinate _ F CR tol dblMax f i (x i + c) hres ?_).2
  have hc : Closed (realEnv (listDraws N U I) F CR tol dblMax f) (fun _ => True) := ⟨by simp, by simp⟩
  obtain ⟨h2, -⟩ := optimize_in hc hres
  rw [h2, initLoop_list N U I F CR tol dblMax f x l r _ rfl]
  intro p₀ hp p hpm
  cases hp
  simp only [start0, List.nil_append, List.mem_map] at hpm
  obtain ⟨a, ha, rfl⟩ := hpm
  simp only [Pi.add_apply]
  rw [show N a i = c from hl a ha, add_comm]

end Ens.De
