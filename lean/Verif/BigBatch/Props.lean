import Verif.BigBatch.Model
import Mathlib.Data.List.Basic
import Mathlib.Tactic.Ring
import Mathlib.Tactic.Linarith
import Mathlib.Tactic.Module
import Mathlib.Analysis.InnerProductSpace.Basic

namespace Ens.BigBatch

variable {W M G E R : Type}

/-! ### The batch estimate -/

/-- Events of the gradients with the given indices, in order. -/
inductive Grads (x : M) : List Nat → List (Ev M E) → Bool → Prop where
  | nil : Grads x [] [] false
  | snoc {l t b} (j : Nat) (c : Bool) (h : Grads x l t b) :
      Grads x (l ++ [j]) (t ++ [.gradient x j, .cbGradient c]) (b || c)

theorem Grads.append {x : M} {l l' : List Nat} {t t' : List (Ev M E)} {b b' : Bool} (h : Grads x l t b) (h' : Grads x l' t' b') :
    Grads x (l ++ l') (t ++ t') (b || b') := by
  induction h' with
  | nil => simpa using h
  | snoc j c _ ih => simpa only [List.append_assoc, Bool.or_assoc] using ih.snoc j c

/-- What `addSample`, repeated, does to the fields the control flow depends on. -/
structure Ext (x : M) (l : List Nat) (b b' : Batch W M G E R) : Prop where
  batchSize : b'.batchSize = b.batchSize
  eff : b'.eff = b.eff
  reset : b'.reset = b.reset
  events : ∃ t c, Grads x l t c ∧ b'.trace = b.trace ++ t ∧ b'.terminate = (b.terminate || c)

theorem Ext.refl (x : M) (b : Batch W M G E R) : Ext x [] b b := ⟨rfl, rfl, rfl, [], false, .nil, by simp, by simp⟩

theorem Ext.trans {x : M} {l l'} {b b' b'' : Batch W M G E R} (h : Ext x l b b') (h' : Ext x l' b' b'') : Ext x (l ++ l') b b'' := by
  obtain ⟨t, c, h1, h2, h3⟩ := h.events
  obtain ⟨t', c', h1', h2', h3'⟩ := h'.events
  exact ⟨h'.batchSize.trans h.batchSize, h'.eff.trans h.eff, h'.reset.trans h.reset, t ++ t', c || c', h1.append h1',
    by rw [h2', h2, List.append_assoc], by rw [h3', h3, Bool.or_assoc]⟩

theorem addSample_ext (env : Env W M G E R) (x : M) (index div : Nat) (b : Batch W M G E R) :
    Ext x [index] b (addSample env x index div b) :=
  ⟨rfl, rfl, rfl, _, _, Grads.snoc index _ .nil, rfl, by simp [addSample]; rfl⟩

theorem firstLoop_ext (env : Env W M G E R) (x : M) : ∀ (n index : Nat) (b : Batch W M G E R),
    Ext x (List.range' index n) b (firstLoop env x n index b) := by
  intro n
  induction n with
  | zero => intro index b; exact .refl x b
  | succ n ih =>
    intro index b
    exact (addSample_ext env x index b.k b).trans (ih _ _)

theorem growLoop_ext (env : Env W M G E R) (x : M) : ∀ (n index : Nat) (b : Batch W M G E R),
    Ext x (List.range' index n) b (growLoop env x n index b) := by
  intro n
  induction n with
  | zero => intro index b; exact .refl x b
  | succ n ih =>
    intro index b
    exact (addSample_ext env x index (b.k + 1) b).trans (ih _ _)

theorem offset_pos (env : Env W M G E R) (n : Nat) : 0 < offset env n := by
  unfold offset; split <;> omega

/-- Indices evaluated by growing from batch size `B` to `B'`: every enlargement by `o` takes the `o` indices that start at the
LAST index of the batch so far. -/
inductive Grown (p : Params) (cur : Nat) : Nat → Nat → List Nat → Prop where
  | none (B : Nat) : Grown p cur B B []
  | more {B B' l} (o : Nat) (ho : 0 < o) (hN : cur + B + o < p.numFunctions) (h : Grown p cur (B + o) B' l) :
      Grown p cur B B' (List.range' (cur + B - 1) o ++ l)

theorem grow_spec (env : Env W M G E R) (p : Params) (x : M) (cur : Nat) :
    ∀ (fuel : Nat) (b : Batch W M G E R), p.numFunctions + 1 ≤ b.batchSize + fuel → 0 < fuel →
      ∃ b' l, grow env p x cur fuel b = some b' ∧ Grown p cur b.batchSize b'.batchSize l ∧
        b'.eff + b.batchSize = b.eff + b'.batchSize ∧ b'.reset = (b.reset || decide (l ≠ [])) ∧
        ∃ t c, Grads x l t c ∧ b'.trace = b.trace ++ t ∧ b'.terminate = (b.terminate || c) := by
  intro fuel
  induction fuel with
  | zero => intro b _ h; omega
  | succ fuel ih =>
    intro b hf _
    rw [grow]
    by_cases hn : env.noisy b.gB b.vB b.batchSize = true
    · rw [if_pos hn]
      dsimp only
      by_cases hN : cur + b.batchSize + offset env b.batchSize ≥ p.numFunctions
      · rw [if_pos hN]
        exact ⟨b, [], rfl, .none _, rfl, by simp, [], false, .nil, by simp, by simp⟩
      · rw [if_neg hN]
        have ho := offset_pos env b.batchSize
        have hs : batchStart p cur b.batchSize (offset env b.batchSize) = cur + b.batchSize - 1 := by
          unfold batchStart; rw [if_pos (by omega)]
        rw [hs]
        have hext := growLoop_ext env x (offset env b.batchSize) (cur + b.batchSize - 1) b
        generalize growLoop env x (offset env b.batchSize) (cur + b.batchSize - 1) b = b₁ at *
        obtain ⟨t, c, h1, h2, h3⟩ := hext.events
        obtain ⟨b', l, g1, g2, g3, g4, t', c', g5, g6, g7⟩ := ih
          { b₁ with gB := env.sqNorm b₁.grad (b.batchSize + offset env b.batchSize), batchSize := b.batchSize + offset env b.batchSize,
                    eff := b.eff + offset env b.batchSize, reset := true } (by dsimp only; omega) (by omega)
        refine ⟨b', _, g1, .more _ ho (by omega) g2, ?_, ?_, t ++ t', c || c', h1.append g5, ?_, ?_⟩
        · dsimp only at g3; omega
        · rw [g4]
          have : List.range' (cur + b.batchSize - 1) (offset env b.batchSize) ≠ [] := by
            intro h0
            have := congrArg List.length h0
            simp at this; omega
          simp [this]
        · rw [g6]; dsimp only; rw [h2, List.append_assoc]
        · rw [g7]; dsimp only; rw [h3, Bool.or_assoc]
    · rw [if_neg hn]
      exact ⟨b, [], rfl, .none _, rfl, by simp, [], false, .nil, by simp, by simp⟩

/-- `estimate` always ends; its gradients are those of the first `max 1 eff` functions of the batch, then those of the enlargements. -/
theorem estimate_spec (env : Env W M G E R) (p : Params) (s : St W M E) (hB : 0 < s.batchSize) :
    ∃ b l, estimate env p s = some b ∧ (effBatch p s ≠ s.batchSize → l = [] ∧ b.batchSize = s.batchSize) ∧
      Grown p s.cur s.batchSize b.batchSize l ∧ b.eff + s.batchSize = effBatch p s + b.batchSize ∧
      b.reset = decide (l ≠ []) ∧
      ∃ t c, Grads s.x (s.cur :: List.range' (s.cur + 1) (effBatch p s - 1) ++ l) t c ∧ b.trace = s.trace ++ t ∧
        b.terminate = (s.terminate || c) := by
  unfold estimate
  dsimp only
  have h0 : Ext s.x (List.range' (s.cur + 1) (effBatch p s - 1)) _ _ := firstLoop_ext env s.x (effBatch p s - 1) (s.cur + 1)
    { w := (oneGrad env s.x s.cur s.w).1, batchSize := s.batchSize, eff := effBatch p s, k := 1, vB := env.zeroR, gB := env.zeroR,
      grad := (oneGrad env s.x s.cur s.w).2.1, delta1 := (oneGrad env s.x s.cur s.w).2.1, reset := false,
      terminate := s.terminate || (oneGrad env s.x s.cur s.w).2.2.1, trace := s.trace ++ (oneGrad env s.x s.cur s.w).2.2.2 }
  generalize firstLoop env s.x (effBatch p s - 1) (s.cur + 1) _ = b₁ at *
  obtain ⟨t, c, h1, h2, h3⟩ := h0.events
  have e1 := h0.batchSize
  have e2 := h0.eff
  have e3 := h0.reset
  dsimp only at e1 e2 e3 h2 h3
  have hg : Grads (E := E) s.x [s.cur] (oneGrad env s.x s.cur s.w).2.2.2 (oneGrad env s.x s.cur s.w).2.2.1 := by
    simpa [oneGrad] using Grads.snoc (x := s.x) (E := E) s.cur (oneGrad env s.x s.cur s.w).2.2.1 .nil
  by_cases he : effBatch p s = s.batchSize
  · rw [if_pos he]
    obtain ⟨b', l, g1, g2, g3, g4, t', c', g5, g6, g7⟩ := grow_spec env p s.x s.cur (p.numFunctions + 1)
      { b₁ with gB := env.sqNorm b₁.grad (effBatch p s) } (by dsimp only; omega) (by omega)
    dsimp only at g2 g3 g4 g6 g7
    rw [e1] at g2
    refine ⟨b', l, g1, fun h => absurd he h, g2, by omega, by rw [g4, e3]; simp, _, _, (hg.append h1).append g5, ?_, ?_⟩
    · rw [g6, h2]; simp only [List.append_assoc]
    · rw [g7, h3]; simp only [Bool.or_assoc]
  · rw [if_neg he]
    refine ⟨_, [], rfl, fun _ => ⟨rfl, e1⟩, by dsimp only; rw [e1]; exact .none _, by dsimp only; omega,
      by dsimp only; rw [e3]; simp, (oneGrad env s.x s.cur s.w).2.2.2 ++ t, (oneGrad env s.x s.cur s.w).2.2.1 || c, ?_, ?_, ?_⟩
    · rw [List.append_nil]; exact hg.append h1
    · rw [← List.append_assoc]; exact h2
    · rw [← Bool.or_assoc]; exact h3

/-- Accesses of the objective that an event makes stay within the functions. -/
def Ev.inBounds (N : Nat) : Ev M E → Prop
  | .gradient _ j => j < N
  | .evaluate _ b n _ => b + n ≤ N
  | _ => True

/-- Number of gradients computed. -/
def gradCount (t : List (Ev M E)) : Nat := t.countP fun | .gradient .. => true | _ => false

theorem gradCount_append (t t' : List (Ev M E)) : gradCount (t ++ t') = gradCount t + gradCount t' := List.countP_append

theorem Grads.facts {x : M} {l t b N} (h : Grads (E := E) x l t b) (hl : ∀ j ∈ l, j < N) :
    (∀ ev ∈ t, ev.inBounds N) ∧ gradCount t = l.length := by
  induction h with
  | nil => exact ⟨(fun _ h => by cases h), rfl⟩
  | snoc j c h ih =>
    obtain ⟨h1, h2⟩ := ih fun j hj => hl j (List.mem_append_left _ hj)
    refine ⟨fun ev hev => ?_, ?_⟩
    · rcases List.mem_append.1 hev with hev | hev
      · exact h1 ev hev
      · simp only [List.mem_cons, List.mem_nil_iff, or_false] at hev
        rcases hev with rfl | rfl
        · exact hl j (by simp)
        · exact trivial
    · rw [gradCount_append, h2, List.length_append]; rfl

theorem Grown.facts {p : Params} {cur B B' l} (h : Grown p cur B B' l) (hB : 0 < B) :
    B' = B + l.length ∧ (∀ j ∈ l, j < p.numFunctions) ∧ (l ≠ [] → cur + B' < p.numFunctions) := by
  induction h with
  | none => simp
  | @more B B' l o ho hN h ih =>
    obtain ⟨h1, h2, h3⟩ := ih (by omega)
    refine ⟨by simp; omega, fun j hj => ?_, fun _ => ?_⟩
    · rcases List.mem_append.1 hj with hj | hj
      · have := List.mem_range'_1.1 hj; omega
      · exact h2 j hj
    · by_cases hl : l = []
      · subst hl; simp at h1; omega
      · exact h3 hl

theorem estimate_facts (env : Env W M G E R) (p : Params) (s : St W M E) (hB : 0 < s.batchSize) (hc : s.cur < p.numFunctions)
    (hi : s.i < p.actualMax) :
    ∃ b, estimate env p s = some b ∧ 0 < b.eff ∧ s.cur + b.eff ≤ p.numFunctions ∧ s.batchSize ≤ b.batchSize ∧
      (b.batchSize ≠ s.batchSize → s.cur + b.batchSize < p.numFunctions) ∧
      ∃ t, b.trace = s.trace ++ t ∧ (∀ ev ∈ t, ev.inBounds p.numFunctions) ∧ gradCount t = b.eff := by
  obtain ⟨b, l, h1, h2, h3, h4, h5, t, c, h6, h7, h8⟩ := estimate_spec env p s hB
  obtain ⟨g1, g2, g3⟩ := h3.facts hB
  have he1 : 0 < effBatch p s := by unfold effBatch; omega
  have he2 : s.cur + effBatch p s ≤ p.numFunctions := by unfold effBatch; omega
  have hl : ∀ j ∈ s.cur :: List.range' (s.cur + 1) (effBatch p s - 1) ++ l, j < p.numFunctions := by
    intro j hj
    simp only [List.cons_append, List.mem_cons, List.mem_append] at hj
    rcases hj with rfl | hj | hj
    · exact hc
    · have := List.mem_range'_1.1 hj; omega
    · exact g2 j hj
  obtain ⟨f1, f2⟩ := h6.facts hl
  refine ⟨b, h1, by omega, ?_, by omega, fun h => g3 ?_, t, h7, f1, ?_⟩
  · by_cases hl : l = []
    · subst hl; simp at g1; omega
    · have h9 := g3 hl
      have : effBatch p s = s.batchSize := by
        by_contra hne
        exact hl (h2 hne).1
      omega
  · rintro rfl
    simp at g1; omega
  · rw [f2]; simp; omega

/-! ### The run -/

/-- Invariant of the loop. -/
structure Inv (p : Params) (B₀ : Nat) (s : St W M E) : Prop where
  cur : s.i < p.actualMax → s.cur < p.numFunctions
  size : B₀ ≤ s.batchSize
  cap : s.batchSize ≠ B₀ → s.batchSize < p.numFunctions
  trace : ∀ ev ∈ s.trace, ev.inBounds p.numFunctions
  count : gradCount s.trace = s.i
  limit : s.i < p.actualMax + p.numFunctions

theorem inBounds_append {N : Nat} {t t' : List (Ev M E)} (h : ∀ ev ∈ t, ev.inBounds N) (h' : ∀ ev ∈ t', ev.inBounds N) :
    ∀ ev ∈ t ++ t', ev.inBounds N := fun ev hev => (List.mem_append.1 hev).elim (h ev) (h' ev)

/-- After the batch: either the loop goes on with the invariant, or the run is over and the facts about it hold. -/
structure Fin (p : Params) (B₀ : Nat) (s : St W M E) : Prop where
  size : B₀ ≤ s.batchSize
  cap : s.batchSize ≠ B₀ → s.batchSize < p.numFunctions
  trace : ∀ ev ∈ s.trace, ev.inBounds p.numFunctions
  limit : gradCount s.trace < p.actualMax + p.numFunctions

theorem Inv.fin {p : Params} {B₀ : Nat} {s : St W M E} (h : Inv p B₀ s) : Fin p B₀ s :=
  ⟨h.size, h.cap, h.trace, by rw [h.count]; exact h.limit⟩

/-- Facts about `stepPart`. -/
theorem stepPart_facts (env : Env W M G E R) (p : Params) (B₀ : Nat) (hB₀ : 0 < B₀) (s : St W M E) (hs : Inv p B₀ s)
    (hi : s.i < p.actualMax) (b : Batch W M G E R) (hb : estimate env p s = some b) :
    Fin p B₀ { s with w := b.w, batchSize := b.batchSize, terminate := true, trace := b.trace } ∧
    B₀ ≤ (stepPart env s b).batchSize ∧
    ((stepPart env s b).batchSize ≠ B₀ → (stepPart env s b).batchSize < p.numFunctions) ∧
    (∀ ev ∈ (stepPart env s b).trace, ev.inBounds p.numFunctions) ∧
    gradCount (stepPart env s b).trace = (stepPart env s b).i ∧ (stepPart env s b).i < p.actualMax + p.numFunctions ∧
    (stepPart env s b).cur ≤ p.numFunctions ∧ 0 < (stepPart env s b).cur := by
  obtain ⟨b', h1, h2, h3, h4, h5, t, h6, h7, h8⟩ := estimate_facts env p s (by have := hs.size; omega) (hs.cur hi) hi
  rw [hb] at h1
  cases h1
  have hcap : b.batchSize ≠ B₀ → b.batchSize < p.numFunctions := by
    intro h
    by_cases he : b.batchSize = s.batchSize
    · rw [he] at h ⊢; exact hs.cap h
    · have := h5 he; omega
  have hsize := hs.size
  have ht : ∀ ev ∈ b.trace, ev.inBounds p.numFunctions := by
    rw [h6]; exact inBounds_append hs.trace h7
  have hcount : gradCount b.trace = s.i + b.eff := by rw [h6, gradCount_append, hs.count, h8]
  refine ⟨⟨by dsimp only; omega, hcap, ht, ?_⟩, ?_, hcap, ?_, ?_, ?_, ?_, ?_⟩
  · show gradCount b.trace < _
    omega
  · show B₀ ≤ b.batchSize
    omega
  · refine inBounds_append ht fun ev hev => ?_
    simp only [List.mem_cons, List.mem_nil_iff, or_false] at hev
    rcases hev with rfl | rfl | rfl | rfl | rfl
    · exact trivial
    · exact trivial
    · exact trivial
    · exact h3
    · exact trivial
  · show gradCount (b.trace ++ _) = s.i + b.eff
    rw [gradCount_append, hcount]; rfl
  · show s.i + b.eff < _
    omega
  · show s.cur + b.eff ≤ _
    omega
  · show 0 < s.cur + b.eff
    omega

theorem epochEnd_facts (env : Env W M G E R) (p : Params) (B₀ : Nat) (s : St W M E) (hN : 0 < p.numFunctions)
    (h1 : B₀ ≤ s.batchSize) (h2 : s.batchSize ≠ B₀ → s.batchSize < p.numFunctions)
    (h3 : ∀ ev ∈ s.trace, ev.inBounds p.numFunctions)
    (h4 : gradCount s.trace = s.i) (h5 : s.i < p.actualMax + p.numFunctions) :
    (∃ s', epochEnd env p s = .cont s' ∧ Inv p B₀ s' ∧ s'.i = s.i) ∨ (∃ e s', epochEnd env p s = .ret e s' ∧ Fin p B₀ s') := by
  unfold epochEnd
  dsimp only
  have hb1 : ∀ c, ∀ ev ∈ s.trace ++ [.endEpoch s.epoch (env.divN s.overall p.numFunctions) c], ev.inBounds p.numFunctions :=
    fun c => inBounds_append h3 fun ev hev => by rw [List.mem_singleton.1 hev]; exact trivial
  have hc1 : ∀ c, gradCount (s.trace ++ [.endEpoch s.epoch (env.divN s.overall p.numFunctions) c]) = s.i :=
    fun c => by rw [gradCount_append, h4]; rfl
  split
  · exact Or.inr ⟨_, _, rfl, h1, h2, hb1 _, by dsimp only; rw [hc1]; exact h5⟩
  split
  · exact Or.inr ⟨_, _, rfl, h1, h2, hb1 _, by dsimp only; rw [hc1]; exact h5⟩
  refine Or.inl ⟨_, rfl, ?_, by split <;> split <;> rfl⟩
  split <;> split
  all_goals refine ⟨?_, h1, h2, ?_, ?_, h5⟩
  all_goals dsimp only
  · intro _; exact hN
  · exact inBounds_append (inBounds_append (hb1 _) fun ev hev => by rw [List.mem_singleton.1 hev]; exact trivial)
      fun ev hev => by rw [List.mem_singleton.1 hev]; exact trivial
  · rw [gradCount_append, gradCount_append, hc1]; rfl
  · intro h; exact absurd h (by simp_all)
  · exact inBounds_append (inBounds_append (hb1 _) fun ev hev => by rw [List.mem_singleton.1 hev]; exact trivial)
      fun ev hev => by rw [List.mem_singleton.1 hev]; exact trivial
  · rw [gradCount_append, gradCount_append, hc1]; rfl
  · intro _; exact hN
  · exact inBounds_append (hb1 _) fun ev hev => by rw [List.mem_singleton.1 hev]; exact trivial
  · rw [gradCount_append, hc1]; rfl
  · intro h; exact absurd h (by simp_all)
  · exact inBounds_append (hb1 _) fun ev hev => by rw [List.mem_singleton.1 hev]; exact trivial
  · rw [gradCount_append, hc1]; rfl

theorem body_facts (env : Env W M G E R) (p : Params) (B₀ : Nat) (hB₀ : 0 < B₀) (hN : 0 < p.numFunctions) (s : St W M E)
    (hs : Inv p B₀ s) (hi : s.i < p.actualMax) :
    ∃ r, body env p s = some r ∧
      ((∃ s', r = (true, .cont s') ∧ Fin p B₀ s') ∨ (∃ s', r = (false, .cont s') ∧ Inv p B₀ s' ∧ s.i < s'.i) ∨
       (∃ e s', r = (false, .ret e s') ∧ Fin p B₀ s')) := by
  obtain ⟨b, hb, hpos, _⟩ := estimate_facts env p s (by have := hs.size; omega) (hs.cur hi) hi
  obtain ⟨f0, f1, f2, f3, f4, f5, f6, f7⟩ := stepPart_facts env p B₀ hB₀ s hs hi b hb
  unfold body
  rw [hb]
  dsimp only
  split
  · exact ⟨_, rfl, Or.inl ⟨_, rfl, f0⟩⟩
  rw [if_neg (by omega)]
  have hlt : s.i < (stepPart env s b).i := by show s.i < s.i + b.eff; omega
  split
  · rcases epochEnd_facts env p B₀ (stepPart env s b) hN f1 f2 f3 f4 f5 with ⟨s', h, h', h''⟩ | ⟨e, s', h, h'⟩
    · exact ⟨_, rfl, Or.inr (Or.inl ⟨s', by rw [h], h', by omega⟩)⟩
    · exact ⟨_, rfl, Or.inr (Or.inr ⟨e, s', by rw [h], h'⟩)⟩
  · rename_i hmod
    refine ⟨_, rfl, Or.inr (Or.inl ⟨_, rfl, ⟨fun _ => ?_, f1, f2, f3, f4, f5⟩, hlt⟩)⟩
    rcases Nat.lt_or_eq_of_le f6 with h | h
    · exact h
    · rw [h, Nat.mod_self] at hmod; exact absurd rfl hmod

theorem start_inv (env : Env W M G E R) (p : Params) (B₀ : Nat) (hN : 0 < p.numFunctions) (w : W) (x : M) :
    Inv p B₀ (start env B₀ w x) := by
  refine ⟨fun _ => hN, Nat.le_refl _, fun h => absurd rfl h, fun ev hev => ?_, rfl, ?_⟩
  · rw [List.mem_singleton.1 hev]; exact trivial
  · show 0 < _
    omega

theorem loop_facts (env : Env W M G E R) (p : Params) (B₀ : Nat) (hB₀ : 0 < B₀) (hN : 0 < p.numFunctions) :
    ∀ (fuel : Nat) (s : St W M E), Inv p B₀ s → p.actualMax + 1 ≤ s.i + fuel → 0 < fuel →
      ∃ e s', loop env p fuel s = .done e s' ∧ Fin p B₀ s' := by
  intro fuel
  induction fuel with
  | zero => intro s _ _ h; omega
  | succ fuel ih =>
    intro s hs hf _
    rw [loop]
    by_cases hc : s.i < p.actualMax ∧ s.terminate = false
    · rw [if_pos hc]
      obtain ⟨r, h1, ⟨s', rfl, h3⟩ | ⟨s', rfl, h3, h4⟩ | ⟨e, s', rfl, h3⟩⟩ := body_facts env p B₀ hB₀ hN s hs hc.1
      · rw [h1]; exact ⟨_, _, rfl, h3⟩
      · rw [h1]; exact ih s' h3 (by omega) (by omega)
      · rw [h1]; exact ⟨_, _, rfl, h3⟩
    · rw [if_neg hc]
      exact ⟨_, _, rfl, hs.fin⟩

theorem exactLoop_facts (env : Env W M G E R) (p : Params) (B₀ : Nat) (hB₀ : 0 < B₀) :
    ∀ (fuel i : Nat) (s : St W M E), Fin p B₀ s → p.numFunctions ≤ i + fuel →
      ∃ s', exactLoop env p fuel i s = some s' ∧ Fin p B₀ s' ∧ s'.batchSize = s.batchSize := by
  intro fuel
  induction fuel with
  | zero => intro i s hs h; rw [exactLoop, if_neg (by omega)]; exact ⟨s, rfl, hs, rfl⟩
  | succ fuel ih =>
    intro i s hs h
    rw [exactLoop]
    by_cases hi : i < p.numFunctions
    · rw [if_pos hi]
      have hsz := hs.size
      have hrec := ih (i + s.batchSize) { s with
          w := (env.cbEvaluate (env.evaluate s.w s.x i (min s.batchSize (p.numFunctions - i))).1 s.x
            (env.evaluate s.w s.x i (min s.batchSize (p.numFunctions - i))).2).1,
          overall := env.add s.overall (env.evaluate s.w s.x i (min s.batchSize (p.numFunctions - i))).2,
          trace := s.trace ++ [.evaluate s.x i (min s.batchSize (p.numFunctions - i))
              (env.evaluate s.w s.x i (min s.batchSize (p.numFunctions - i))).2,
            .cbEvaluate (env.cbEvaluate (env.evaluate s.w s.x i (min s.batchSize (p.numFunctions - i))).1 s.x
            (env.evaluate s.w s.x i (min s.batchSize (p.numFunctions - i))).2).2] } ?_ (by omega)
      · exact hrec
      · refine ⟨hs.size, hs.cap, inBounds_append hs.trace fun ev hev => ?_, ?_⟩
        · simp only [List.mem_cons, List.mem_nil_iff, or_false] at hev
          rcases hev with rfl | rfl
          · show i + min s.batchSize (p.numFunctions - i) ≤ _
            omega
          · exact trivial
        · dsimp only
          rw [gradCount_append]; exact hs.limit
    · rw [if_neg hi]; exact ⟨s, rfl, hs, rfl⟩

theorem optimize_facts (env : Env W M G E R) (p : Params) (B₀ : Nat) (hB₀ : 0 < B₀) (hN : 0 < p.numFunctions) (fuel : Nat)
    (hf : p.actualMax < fuel) (w : W) (x : M) :
    ∃ (e : Exit) (s : St W M E), optimize env p fuel B₀ w x = some (finish e s) ∧ Fin p B₀ s := by
  obtain ⟨e, s, h1, h2⟩ := loop_facts env p B₀ hB₀ hN fuel (start env B₀ w x) (start_inv env p B₀ hN w x)
    (by show _ ≤ 0 + fuel; omega) (by omega)
  unfold optimize
  rw [h1]
  cases e
  · exact ⟨_, _, rfl, h2⟩
  · exact ⟨_, _, rfl, h2⟩
  · dsimp only
    by_cases hx : p.exactObjective = true
    · rw [if_pos hx]
      obtain ⟨s', h3, h4, _⟩ := exactLoop_facts env p B₀ hB₀ p.numFunctions 0 { s with overall := env.zero }
        ⟨h2.size, h2.cap, h2.trace, h2.limit⟩ (by omega)
      rw [h3]
      exact ⟨_, _, rfl, h4⟩
    · rw [if_neg hx]; exact ⟨_, _, rfl, h2⟩

/-- **C143** (the run ends, with accesses in bounds). With a positive batch size and at least one function, whatever objective,
callbacks, step size policy (as long as its own call returns) and growth decisions do, `Optimize` ends, every gradient is asked for an
existing function, and every evaluated range lies within the functions. -/
theorem C143_ends_in_bounds (env : Env W M G E R) (p : Params) (B₀ : Nat) (hB₀ : 0 < B₀) (hN : 0 < p.numFunctions) (fuel : Nat)
    (hf : p.actualMax < fuel) (w : W) (x : M) :
    ∃ r, optimize env p fuel B₀ w x = some r ∧
      (∀ x j, Ev.gradient x j ∈ r.trace → j < p.numFunctions) ∧
      (∀ x b n o, Ev.evaluate x b n o ∈ r.trace → b + n ≤ p.numFunctions) := by
  obtain ⟨e, s, h1, h2⟩ := optimize_facts env p B₀ hB₀ hN fuel hf w x
  have ht : ∀ ev ∈ (finish e s).trace, ev.inBounds p.numFunctions :=
    inBounds_append h2.trace fun ev hev => by rw [List.mem_singleton.1 hev]; exact trivial
  exact ⟨_, h1, fun x j h => ht _ h, fun x b n o h => ht _ h⟩

/-- **C144** (batch size). The batch size left in the object is never smaller than before the call, and if it has grown it is still
smaller than the number of functions. -/
theorem C144_batch_size (env : Env W M G E R) (p : Params) (B₀ : Nat) (hB₀ : 0 < B₀) (hN : 0 < p.numFunctions) (fuel : Nat)
    (hf : p.actualMax < fuel) (w : W) (x : M) (r : Result M E) (hr : optimize env p fuel B₀ w x = some r) :
    B₀ ≤ r.batchSize ∧ (r.batchSize ≠ B₀ → r.batchSize < p.numFunctions) := by
  obtain ⟨e, s, h1, h2⟩ := optimize_facts env p B₀ hB₀ hN fuel hf w x
  rw [hr] at h1
  cases h1
  exact ⟨h2.size, h2.cap⟩

/-- **C145** (iteration limit). A run computes fewer than `maxIterations + numFunctions` gradients. -/
theorem C145_gradient_limit_partial (env : Env W M G E R) (p : Params) (B₀ : Nat) (hB₀ : 0 < B₀) (hN : 0 < p.numFunctions) (fuel : Nat)
    (hf : p.actualMax < fuel) (hm : p.maxIterations ≠ 0) (w : W) (x : M) (r : Result M E)
    (hr : optimize env p fuel B₀ w x = some r) : gradCount r.trace < p.maxIterations + p.numFunctions := by
  obtain ⟨e, s, h1, h2⟩ := optimize_facts env p B₀ hB₀ hN fuel hf w x
  rw [hr] at h1
  cases h1
  have hl := h2.limit
  rw [show p.actualMax = p.maxIterations from if_neg hm] at hl
  show gradCount (s.trace ++ _) < _
  rw [gradCount_append]; exact hl

/-! ### What the batch gradient is a sum of -/

section Sum
variable [AddCommMonoid G]

theorem firstLoop_grad (env : Env W M G E R) (g : M → Nat → G) (hg : ∀ w x j, (env.gradient w x j).2 = g x j)
    (hcb : ∀ w x v, (env.cbGradient w x v).2.1 = v) (hadd : ∀ a b, env.addG a b = a + b) (x : M) :
    ∀ (n index : Nat) (b : Batch W M G E R),
      (firstLoop env x n index b).grad = b.grad + ((List.range' index n).map (g x)).sum := by
  intro n
  induction n with
  | zero => intro index b; simp [firstLoop]
  | succ n ih =>
    intro index b
    rw [firstLoop, ih, List.range'_succ, List.map_cons, List.sum_cons, ← add_assoc]
    congr 1
    show env.addG b.grad (oneGrad env x index b.w).2.1 = _
    rw [hadd]; congr 1
    show (env.cbGradient _ x (env.gradient b.w x index).2).2.1 = _
    rw [hcb, hg]

theorem growLoop_grad (env : Env W M G E R) (g : M → Nat → G) (hg : ∀ w x j, (env.gradient w x j).2 = g x j)
    (hcb : ∀ w x v, (env.cbGradient w x v).2.1 = v) (hadd : ∀ a b, env.addG a b = a + b) (x : M) :
    ∀ (n index : Nat) (b : Batch W M G E R),
      (growLoop env x n index b).grad = b.grad + ((List.range' index n).map (g x)).sum := by
  intro n
  induction n with
  | zero => intro index b; simp [growLoop]
  | succ n ih =>
    intro index b
    rw [growLoop, ih, List.range'_succ, List.map_cons, List.sum_cons, ← add_assoc]
    congr 1
    show env.addG b.grad (oneGrad env x index b.w).2.1 = _
    rw [hadd]; congr 1
    show (env.cbGradient _ x (env.gradient b.w x index).2).2.1 = _
    rw [hcb, hg]

theorem grow_grad (env : Env W M G E R) (g : M → Nat → G) (hg : ∀ w x j, (env.gradient w x j).2 = g x j)
    (hcb : ∀ w x v, (env.cbGradient w x v).2.1 = v) (hadd : ∀ a b, env.addG a b = a + b) (p : Params) (x : M) (cur : Nat) :
    ∀ (fuel : Nat) (b b' : Batch W M G E R), grow env p x cur fuel b = some b' →
      ∃ l, Grown p cur b.batchSize b'.batchSize l ∧ b'.grad = b.grad + (l.map (g x)).sum := by
  intro fuel
  induction fuel with
  | zero => intro b b' h; cases h
  | succ fuel ih =>
    intro b b' h
    rw [grow] at h
    by_cases hn : env.noisy b.gB b.vB b.batchSize = true
    · rw [if_pos hn] at h
      dsimp only at h
      by_cases hN : cur + b.batchSize + offset env b.batchSize ≥ p.numFunctions
      · rw [if_pos hN] at h
        cases h
        exact ⟨[], .none _, by simp⟩
      · rw [if_neg hN] at h
        have ho := offset_pos env b.batchSize
        have hs : batchStart p cur b.batchSize (offset env b.batchSize) = cur + b.batchSize - 1 := by
          unfold batchStart; rw [if_pos (by omega)]
        rw [hs] at h
        obtain ⟨l, h1, h2⟩ := ih _ _ h
        refine ⟨_, .more _ ho (by omega) h1, ?_⟩
        rw [h2, List.map_append, List.sum_append, ← add_assoc]
        congr 1
        exact growLoop_grad env g hg hcb hadd x _ _ b
    · rw [if_neg hn] at h
      cases h
      exact ⟨[], .none _, by simp⟩

/-- **C146** (the gradient used for a move). For a deterministic objective and callbacks that do not touch gradients, the gradient used
by an iteration that does not enlarge the batch is the sum of the gradients of the functions in the iteration's range. When the batch is
enlarged, the gradients of `Grown` are added, which start one index too early (see `C146_batch_gradient_refuted`). -/
theorem C146_batch_gradient_partial (env : Env W M G E R) (g : M → Nat → G) (hg : ∀ w x j, (env.gradient w x j).2 = g x j)
    (hcb : ∀ w x v, (env.cbGradient w x v).2.1 = v) (hadd : ∀ a b, env.addG a b = a + b) (p : Params) (s : St W M E)
    (hB : 0 < s.batchSize) (hc : s.cur < p.numFunctions) (hi : s.i < p.actualMax) (b : Batch W M G E R)
    (hb : estimate env p s = some b) :
    ∃ l, Grown p s.cur s.batchSize b.batchSize l ∧
      b.grad = ((List.range' s.cur (effBatch p s)).map (g s.x)).sum + (l.map (g s.x)).sum ∧
      (b.batchSize = s.batchSize → b.grad = ((List.range' s.cur b.eff).map (g s.x)).sum) := by
  have he : 0 < effBatch p s := by unfold effBatch; omega
  have hfirst : ∀ b₀ : Batch W M G E R, b₀.grad = (oneGrad env s.x s.cur s.w).2.1 →
      (firstLoop env s.x (effBatch p s - 1) (s.cur + 1) b₀).grad = ((List.range' s.cur (effBatch p s)).map (g s.x)).sum := by
    intro b₀ h0
    rw [firstLoop_grad env g hg hcb hadd, h0]
    obtain ⟨n, hn⟩ : ∃ n, effBatch p s = n + 1 := ⟨effBatch p s - 1, by omega⟩
    rw [hn, List.range'_succ, List.map_cons, List.sum_cons]
    congr 1
    show (env.cbGradient _ s.x (env.gradient s.w s.x s.cur).2).2.1 = _
    rw [hcb, hg]
  obtain ⟨b', l', e1, e2, e3, e4, _⟩ := estimate_spec env p s hB
  rw [hb] at e1; cases e1
  have key : ∃ l, Grown p s.cur s.batchSize b.batchSize l ∧
      b.grad = ((List.range' s.cur (effBatch p s)).map (g s.x)).sum + (l.map (g s.x)).sum := by
    unfold estimate at hb
    dsimp only at hb
    by_cases hE : effBatch p s = s.batchSize
    · rw [if_pos hE] at hb
      obtain ⟨l, h1, h2⟩ := grow_grad env g hg hcb hadd p s.x s.cur _ _ _ hb
      refine ⟨l, ?_, ?_⟩
      · have := (firstLoop_ext env s.x (effBatch p s - 1) (s.cur + 1)
          { w := (oneGrad env s.x s.cur s.w).1, batchSize := s.batchSize, eff := effBatch p s, k := 1, vB := env.zeroR, gB := env.zeroR,
            grad := (oneGrad env s.x s.cur s.w).2.1, delta1 := (oneGrad env s.x s.cur s.w).2.1, reset := false,
            terminate := s.terminate || (oneGrad env s.x s.cur s.w).2.2.1,
            trace := s.trace ++ (oneGrad env s.x s.cur s.w).2.2.2 }).batchSize
        dsimp only at h1
        rw [this] at h1
        exact h1
      · rw [h2]; congr 1
        exact hfirst _ rfl
    · rw [if_neg hE] at hb
      injection hb with hb
      refine ⟨[], ?_, ?_⟩
      · rw [(e2 hE).2]; exact .none _
      · rw [← hb]
        simp only [List.map_nil, List.sum_nil, add_zero]
        exact hfirst _ rfl
  obtain ⟨l, h1, h2⟩ := key
  refine ⟨l, h1, h2, fun hsame => ?_⟩
  obtain ⟨f1, _, _⟩ := h1.facts hB
  have hl : l = [] := List.length_eq_zero_iff.1 (by omega)
  rw [h2, hl, show b.eff = effBatch p s by omega]
  simp

end Sum

/-! ### Witnesses -/

/-- Functions `j = 0 … N-1` on integers with gradient `10 ^ j`; grows once, from 2 to 3. -/
def demo : Env Unit Int Int Int Int where
  gradient := fun _ _ j => ((), 10 ^ j)
  cbGradient := fun _ _ g => ((), g, false)
  policy := fun _ x g _ _ _ _ _ _ => ((), x, g)
  step := fun _ x g => x - g
  evaluate := fun _ _ _ n => ((), n)
  cbBegin := fun _ x => ((), x)
  cbStep := fun _ x => ((), x, false)
  cbEvaluate := fun _ _ _ => ((), false)
  cbEndEpoch := fun _ _ _ _ => ((), false)
  cbBeginEpoch := fun _ _ _ _ => ((), false)
  shuffle := id
  addG := fun a b => a + b
  mean := fun _ g _ => g
  addVar := fun v _ _ _ => v
  zeroR := 0
  sqNorm := fun _ _ => 0
  noisy := fun _ _ n => n == 2
  delta := fun _ => 0
  add := fun a b => a + b
  zero := 0
  divN := fun a _ => a
  dblMax := 1000
  isBad := fun _ => false
  isClose := fun _ _ => false

/-- **C146** (refuted in general). When the batch is enlarged, the gradient of the last function of the old batch is added again, and that of
the last function of the new batch is missing: with gradients 1, 10, 100, ... an iteration on functions 0, 1, 2 moves by 1 + 10 + 10. -/
theorem C146_batch_gradient_refuted :
    ¬ ∀ (env : Env Unit Int Int Int Int) (g : Int → Nat → Int), (∀ w x j, (env.gradient w x j).2 = g x j) →
      (∀ w x v, (env.cbGradient w x v).2.1 = v) → (∀ a b, env.addG a b = a + b) →
      ∀ (p : Params) (s : St Unit Int Int) (b : Batch Unit Int Int Int Int), 0 < s.batchSize → s.cur < p.numFunctions →
        s.i < p.actualMax → estimate env p s = some b → b.grad = ((List.range' s.cur b.eff).map (g s.x)).sum := by
  intro h
  have h1 := h demo (fun _ j => 10 ^ j) (fun _ _ _ => rfl) (fun _ _ _ => rfl) (fun _ _ => rfl) ⟨5, 10, false, false⟩
    (start demo 2 () 0) _ (by decide) (by decide) (by decide) rfl
  revert h1
  decide

/-- **C145** (refuted). `maxIterations` does not limit the number of gradients: with limit 2 the batch grows to 3. -/
theorem C145_gradient_limit_refuted :
    ¬ ∀ (env : Env Unit Int Int Int Int) (p : Params) (fuel B : Nat) (x : Int) (r : Result Int Int), 0 < B → p.maxIterations ≠ 0 →
      optimize env p fuel B () x = some r → gradCount r.trace ≤ p.maxIterations := by
  intro h
  have h1 := h demo ⟨5, 2, false, false⟩ 5 2 0 _ (by decide) (by decide) rfl
  revert h1
  decide

/-- The hypotheses of the theorems on runs are met by a run of two epochs with growth. -/
example : ∃ r, optimize demo ⟨5, 10, true, true⟩ 11 2 () 0 = some r ∧ r.batchSize = 3 ∧ gradCount r.trace = 10 ∧ r.exit = .loop :=
  ⟨_, rfl, by decide, by decide, by decide⟩

/-- The hypotheses of `C146_batch_gradient_partial` at the start of a run. -/
example : (∀ w x j, (demo.gradient w x j).2 = (10 : Int) ^ j) ∧ (∀ w x v, (demo.cbGradient w x v).2.1 = v) ∧
    (∀ a b, demo.addG a b = a + b) ∧
    ∃ b, estimate demo ⟨5, 10, false, false⟩ (start demo 3 () 0) = some b ∧ b.batchSize = 3 ∧ b.grad = 111 :=
  ⟨fun _ _ _ => rfl, fun _ _ _ => rfl, fun _ _ => rfl, _, rfl, by decide, by decide⟩

end Ens.BigBatch
