import Mathlib.Data.List.Lex
import Mathlib.Data.List.Nodup
import Verif.Best
import Verif.Grid.Model

/-
C17: grid search is exhaustive and returns the first minimum.
-/

namespace Ens.Grid

/-- All combinations of category values, in lexicographic order. -/
def combos : List Nat → List (List Nat)
  | [] => [[]]
  | c :: cs => (List.range c).flatMap (fun j => (combos cs).map (j :: ·))

/-- `combos` contains exactly the vectors with one value below the category count per dimension. -/
theorem mem_combos (cs v : List Nat) : v ∈ combos cs ↔ List.Forall₂ (· < ·) v cs := by
  induction cs generalizing v with
  | nil => simp [combos]
  | cons c cs ih =>
    simp only [combos, List.mem_flatMap, List.mem_range, List.mem_map]
    constructor
    · rintro ⟨j, hj, u, hu, rfl⟩
      exact .cons hj ((ih u).1 hu)
    · intro h
      cases h with
      | cons h1 h2 => exact ⟨_, h1, _, (ih _).2 h2, rfl⟩

/-- ... each once and in lexicographic order. -/
theorem combos_sorted (cs : List Nat) : (combos cs).Pairwise (List.Lex (· < ·)) := by
  induction cs with
  | nil => simp [combos]
  | cons c cs ih =>
    simp only [combos]
    rw [List.pairwise_flatMap]
    refine ⟨fun j _ => ?_, ?_⟩
    · rw [List.pairwise_map]
      exact ih.imp (fun h => List.Lex.cons h)
    · refine List.pairwise_lt_range.imp ?_
      intro a b hab u hu v hv
      rw [List.mem_map] at hu hv
      obtain ⟨u, _, rfl⟩ := hu
      obtain ⟨v, _, rfl⟩ := hv
      exact List.Lex.rel hab

theorem combos_nodup (cs : List Nat) : (combos cs).Nodup :=
  (combos_sorted cs).imp (fun h he => by
    subst he
    exact List.lex_irrefl (fun a => Nat.lt_irrefl a) _ h)

variable {W E : Type} [LT E] [DecidableLT E]

/-- `s'` extends `s` by evaluations at exactly `ps`, and the best is updated by keeping the strictly
better one. -/
def Ext (ps : List (List Nat)) (s s' : St W E) : Prop :=
  ∃ new, s'.evald = s.evald ++ new ∧ new.map Prod.fst = ps ∧
    (s'.best, s'.bestObj) = new.foldl bestStep (s.best, s.bestObj) ∧ s'.cur.length = s.cur.length

theorem Ext.trans {p q : List (List Nat)} {a b c : St W E} (h₁ : Ext p a b) (h₂ : Ext q b c) :
    Ext (p ++ q) a c := by
  obtain ⟨n1, e1, m1, b1, l1⟩ := h₁
  obtain ⟨n2, e2, m2, b2, l2⟩ := h₂
  exact ⟨n1 ++ n2, by simp [e2, e1], by simp [m1, m2], by rw [b2, b1, List.foldl_append], by rw [l2, l1]⟩

theorem evalCurrent_ext (F : W → List Nat → W × E) (s : St W E) :
    Ext [s.cur] s (evalCurrent F s) ∧ (evalCurrent F s).cur = s.cur := by
  unfold evalCurrent
  simp only
  split
  · rename_i h
    exact ⟨⟨[(s.cur, (F s.w s.cur).2)], rfl, rfl, by simp [bestStep, h], rfl⟩, rfl⟩
  · rename_i h
    exact ⟨⟨[(s.cur, (F s.w s.cur).2)], rfl, rfl, by simp [bestStep, h], rfl⟩, rfl⟩

theorem take_set_succ (l : List Nat) (i j : Nat) (h : i < l.length) :
    (l.set i j).take (i + 1) = l.take i ++ [j] := by
  rw [List.take_succ_eq_append_getElem (by simpa using h)]
  simp [List.take_set_of_le]

theorem search_spec (F : W → List Nat → W × E) (cats : List Nat) :
    ∀ (rem i : Nat) (s : St W E), i + rem = cats.length → s.cur.length = cats.length →
      ∃ s', search F cats rem i s = some s' ∧
        Ext ((combos (cats.drop i)).map (s.cur.take i ++ ·)) s s' ∧ s'.cur.take i = s.cur.take i := by
  intro rem
  induction rem with
  | zero =>
    intro i s hi hl
    obtain ⟨h1, h2⟩ := evalCurrent_ext F s
    refine ⟨evalCurrent F s, by rw [search], ?_, by rw [h2]⟩
    rw [show i = cats.length by omega, List.drop_length]
    simp only [combos, List.map_cons, List.map_nil, List.append_nil]
    rwa [← hl, List.take_length]
  | succ rem ih =>
    intro i s hi hl
    have hlt : i < cats.length := by omega
    have hforJ : ∀ (n j : Nat) (s : St W E), s.cur.length = cats.length →
        ∃ s', forJ F cats rem i n j s = some s' ∧
          Ext ((List.range' j n).flatMap (fun j => (combos (cats.drop (i + 1))).map
            (fun v => s.cur.take i ++ (j :: v)))) s s' ∧ s'.cur.take i = s.cur.take i := by
      intro n
      induction n with
      | zero =>
        intro j s hl
        exact ⟨s, by rw [forJ], ⟨[], by simp, by simp, rfl, rfl⟩, rfl⟩
      | succ n ihn =>
        intro j s hl
        obtain ⟨s1, h1, h2, h3⟩ := ih (i + 1) { s with cur := s.cur.set i j } (by omega) (by simpa using hl)
        have hl1 : s1.cur.length = cats.length := by
          obtain ⟨_, _, _, _, h⟩ := h2
          rw [h]; simpa using hl
        obtain ⟨s2, h4, h5, h6⟩ := ihn (j + 1) s1 hl1
        have htk : s1.cur.take i = s.cur.take i := by
          have := congrArg (List.take i) h3
          rw [List.take_take, List.take_take, Nat.min_eq_left (by omega)] at this
          rw [this]; simp [List.take_set_of_le]
        refine ⟨s2, ?_, ?_, by rw [h6, htk]⟩
        · rw [forJ, h1]; exact h4
        · rw [List.range'_succ, List.flatMap_cons]
          refine Ext.trans (b := s1) ?_ (by rw [← htk]; exact h5)
          have h2' : Ext ((combos (cats.drop (i + 1))).map ((s.cur.set i j).take (i + 1) ++ ·))
              { s with cur := s.cur.set i j } s1 := h2
          rw [take_set_succ _ _ _ (by omega)] at h2'
          obtain ⟨new, e, m, b, l⟩ := h2'
          refine ⟨new, e, ?_, b, by rw [l]; simp⟩
          rw [m]; simp
    obtain ⟨s', h1, h2, h3⟩ := hforJ cats[i] 0 s hl
    refine ⟨s', ?_, ?_, h3⟩
    · rw [search, List.getElem?_eq_getElem hlt]; exact h1
    · rw [List.drop_eq_getElem_cons hlt, combos, ← List.range_eq_range'] at *
      rw [List.map_flatMap]
      simpa [Function.comp_def, List.map_map] using h2

/-- **C17** For every objective (possibly stateful), every number of dimensions and every category
counts: `Optimize` evaluates every combination exactly once, in lexicographic order, and returns the
first combination with minimal objective (or the zero vector and the numeric maximum if no objective
is below the numeric maximum). -/
theorem C17_grid_search_exhaustive_minimum [StrictPO E] (F : W → List Nat → W × E) (maxVal : E)
    (categorical : List Bool) (numCategories : List Nat) (w : W)
    (hcat : ∀ b ∈ categorical, b = true) (hlen : numCategories.length = categorical.length) :
    ∃ s, optimize F maxVal categorical numCategories w = .ok s ∧
      s.evald.map Prod.fst = combos numCategories ∧
      ((s.best = List.replicate categorical.length 0 ∧ s.bestObj = maxVal ∧
          ∀ p ∈ s.evald, ¬ p.2 < maxVal) ∨
        FirstBest maxVal s.evald (s.best, s.bestObj)) := by
  obtain ⟨s, h1, ⟨new, h2, h3, h4, _⟩, _⟩ := search_spec F numCategories categorical.length 0
    ⟨w, maxVal, List.replicate categorical.length 0, List.replicate categorical.length 0, []⟩
    (by omega) (by simp [hlen])
  refine ⟨s, ?_, ?_, ?_⟩
  · unfold optimize
    rw [if_pos (by simpa using hcat)]
    simp only [h1]
  · rw [h2]; simpa using h3
  · simp only [List.nil_append] at h2
    rw [h2]
    rcases bestFold_spec (List.replicate categorical.length 0, maxVal) new with ⟨h5, h6⟩ | h5
    · left
      rw [h5] at h4
      exact ⟨congrArg Prod.fst h4, congrArg Prod.snd h4, h6⟩
    · right; rwa [h4]

/-- **C17** For a deterministic objective the returned value is a minimum over the whole grid. -/
theorem C17_grid_search_global_minimum [StrictPO E] (f : List Nat → E) (maxVal : E)
    (categorical : List Bool) (numCategories : List Nat)
    (hcat : ∀ b ∈ categorical, b = true) (hlen : numCategories.length = categorical.length)
    (hsome : ∃ v, List.Forall₂ (· < ·) v numCategories ∧ f v < maxVal) :
    ∃ s, optimize (fun (_ : Unit) v => ((), f v)) maxVal categorical numCategories () = .ok s ∧
      List.Forall₂ (· < ·) s.best numCategories ∧ s.bestObj = f s.best ∧
      ∀ v, List.Forall₂ (· < ·) v numCategories → ¬ f v < s.bestObj := by
  have det : ∀ rem i (s s' : St Unit E), (∀ p ∈ s.evald, p.2 = f p.1) →
      search (fun (_ : Unit) v => ((), f v)) numCategories rem i s = some s' →
      ∀ p ∈ s'.evald, p.2 = f p.1 := by
    intro rem
    induction rem with
    | zero =>
      intro i s s' hs h
      rw [search] at h
      simp only [Option.some.injEq] at h
      subst h
      intro p hp
      have : (evalCurrent (fun (_ : Unit) v => ((), f v)) s).evald = s.evald ++ [(s.cur, f s.cur)] := by
        unfold evalCurrent; simp only; split <;> rfl
      rw [this, List.mem_append, List.mem_singleton] at hp
      rcases hp with hp | rfl
      · exact hs p hp
      · rfl
    | succ rem ih =>
      intro i s s' hs h
      rw [search] at h
      split at h
      · simp at h
      · rename_i c _
        have : ∀ n j (s s' : St Unit E), (∀ p ∈ s.evald, p.2 = f p.1) →
            forJ (fun (_ : Unit) v => ((), f v)) numCategories rem i n j s = some s' →
            ∀ p ∈ s'.evald, p.2 = f p.1 := by
          intro n
          induction n with
          | zero => intro j s s' hs h; rw [forJ] at h; simp only [Option.some.injEq] at h; subst h; exact hs
          | succ n ihn =>
            intro j s s' hs h
            rw [forJ] at h
            split at h
            · simp at h
            · rename_i s1 h1
              exact ihn _ s1 s' (ih _ _ s1 (by exact hs) h1) h
        exact this c 0 s s' hs h
  obtain ⟨s, h1, h2, h3⟩ := C17_grid_search_exhaustive_minimum (fun (_ : Unit) v => ((), f v)) maxVal
    categorical numCategories () hcat hlen
  have hdet : ∀ p ∈ s.evald, p.2 = f p.1 := by
    unfold optimize at h1
    split at h1
    · simp only at h1
      split at h1
      · simp at h1
      · rename_i s' hs'
        simp only [Outcome.ok.injEq] at h1
        subst h1
        exact det _ _ _ _ (by simp) hs'
    · simp at h1
  have hmem : ∀ v, List.Forall₂ (· < ·) v numCategories → (v, f v) ∈ s.evald := by
    intro v hv
    have : v ∈ s.evald.map Prod.fst := by rw [h2]; exact (mem_combos _ _).2 hv
    obtain ⟨p, hp, rfl⟩ := List.mem_map.1 this
    have := hdet p hp
    rw [← this]; exact hp
  refine ⟨s, h1, ?_⟩
  rcases h3 with ⟨_, _, h5⟩ | ⟨_, h5, pre, post, h6, _⟩
  · obtain ⟨v, hv, hlt⟩ := hsome
    exact absurd hlt (h5 _ (hmem v hv))
  · have hin : (s.best, s.bestObj) ∈ s.evald := by rw [h6]; simp
    refine ⟨?_, hdet _ hin, fun v hv => h5 _ (hmem v hv)⟩
    rw [← mem_combos, ← h2]
    exact List.mem_map.2 ⟨_, hin, rfl⟩

/-- **C17** Inputs with a non-categorical dimension are rejected without evaluating anything. -/
theorem C17_grid_search_rejects (F : W → List Nat → W × E) (maxVal : E)
    (categorical : List Bool) (numCategories : List Nat) (w : W) (h : false ∈ categorical) :
    optimize F maxVal categorical numCategories w = .invalidArgument := by
  unfold optimize
  rw [if_neg]
  simp only [List.all_eq_true, not_forall]
  exact ⟨false, h, by simp⟩

/-- Non-vacuity: 2 x 3 grid, objective `(v₀ - 1)² + (v₁ - 1)²`. -/
example : ∃ s, optimize (fun (_ : Unit) v => ((), match v with
      | [a, b] => ((a : Int) - 1) ^ 2 + ((b : Int) - 1) ^ 2
      | _ => 0)) 1000 [true, true] [2, 3] () = .ok s ∧ s.best = [1, 1] ∧ s.bestObj = 0 ∧
      s.evald.length = 6 := ⟨_, by simp [optimize, search, forJ]; rfl, by decide, by decide, by decide⟩

end Ens.Grid
