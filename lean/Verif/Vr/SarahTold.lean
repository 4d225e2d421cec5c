import Verif.Vr.Sarah

/-
Property C109: how many steps of SARAH and SARAH+ are not notified (`sarah/sarah_impl.hpp:95-219`).
-/

namespace Ens.Vr.Sarah

open Ens.Vr

variable {W X G E : Type} {u : User W X G E} {p : Params X G E}

/-- Steps and notifications recorded so far. -/
def marks (s : S W) : Nat × Nat := (s.trace.count .step, s.trace.count .told)

theorem marks_note (s : S W) (w : W) (e : Ev) (stop : Bool) :
    marks (s.note w e stop) = ((marks s).1 + [e].count .step, (marks s).2 + [e].count .told) := by
  cases stop <;> simp [marks, S.note, List.count_append, List.count_cons]

theorem marks_eval (s : S W) (x : X) (q : Nat × Nat) : marks (evalAt u s x q).1 = marks s := by
  simp [evalAt, marks_note]

theorem marks_grad (s : S W) (x : X) (q : Nat × Nat) : marks (gradAt u s x q).1 = marks s := by
  simp [gradAt, marks_note]

theorem marks_evalAll (b : Nat) (s : S W) (x : X) : marks (evalAll u b s x).1 = marks s := by
  unfold evalAll
  have : ∀ (l : List (Nat × Nat)) (a : S W × E), marks (l.foldl (fun a p => let r := evalAt u a.1 x p; (r.1, u.addE a.2 r.2)) a).1 =
      marks a.1 := by
    intro l
    induction l with
    | nil => intro a; rfl
    | cons q l ih => intro a; rw [List.foldl_cons, ih]; exact marks_eval _ _ _
  exact this _ _

theorem marks_fullGrad {b : Nat} {s : S W} {x : X} {g : S W × G} (h : fullGrad u (gradQuiet u) b s x x = some g) :
    marks g.1 = marks s := by
  unfold fullGrad at h
  split at h
  · cases h
  · cases h
    rename_i q l _
    have : ∀ (l : List (Nat × Nat)) (a : S W × G), marks (l.foldl (fun a p => let r := gradQuiet u a.1 x p; (r.1, u.addG a.2 r.2)) a).1 =
        marks a.1 := by
      intro l
      induction l with
      | nil => intro a; rfl
      | cons q l ih => intro a; rw [List.foldl_cons, ih]; simp [gradQuiet, marks_note]
    exact (this _ _).trans (marks_grad _ _ _)

theorem marks_wrap (b : Bool) (t : Inner W X G) : marks (wrap u b t).s = marks t.s := by
  unfold wrap
  split
  · cases b <;> rfl
  · rfl

theorem marks_twoGrads (t : Inner W X G) (q : Nat × Nat) : marks (twoGrads u t q).1 = marks t.s := by
  unfold twoGrads
  split
  · simp [marks_grad]
  · simp [marks_grad]

/-- Along the inner loop exactly `d` steps are not notified; one more if the loop is left by the update policy. -/
theorem inner_marks {inner : Nat} {vn : E} {d : Nat} {t : Inner W X G} (h : (marks t.s).1 = (marks t.s).2 + d) :
    (∀ t', innerStep u p inner vn t = .inl t' → (marks t'.s).1 = (marks t'.s).2 + d) ∧
    (∀ t', innerStep u p inner vn t = .inr t' → (marks t'.s).1 = (marks t'.s).2 + d ∨
      (marks t'.s).1 = (marks t'.s).2 + (d + 1) ∧ ∃ x v g g0 k, (p.update x v g g0 k vn).2.2 = true) := by
  unfold innerStep
  by_cases h1 : t.f < inner
  · rw [if_pos h1]
    dsimp only
    split_ifs with h2 h3
    · refine ⟨fun _ h => (by cases h), fun t' h' => ?_⟩
      cases h'
      left
      dsimp only
      rw [marks_twoGrads, marks_wrap]; exact h
    · refine ⟨fun _ h => (by cases h), fun t' h' => ?_⟩
      cases h'
      right
      refine ⟨?_, _, _, _, _, _, h3⟩
      dsimp only
      rw [marks_note, marks_twoGrads, marks_wrap]
      simp
      omega
    · refine ⟨fun t' h' => ?_, fun _ h => (by cases h)⟩
      cases h'
      dsimp only [stepAt]
      rw [marks_note, marks_note, marks_twoGrads, marks_wrap]
      simp
      omega
  · rw [if_neg h1]
    exact ⟨fun _ h => (by cases h), fun t' h' => by cases h'; exact Or.inl h⟩

/-- The excess of steps over notifications, when `c` epochs were cut short. -/
def Excess (p : Params X G E) (t : St W X E) : Prop :=
  ∃ c ≤ t.i, (marks t.s).1 = (marks t.s).2 + t.i + c ∧ ((∀ x v g g0 k vn, (p.update x v g g0 k vn).2.2 = false) → c = 0)

theorem body_excess {t : St W X E} (h : Excess p t) :
    (∀ t', body u p t = .inl t' → Excess p t') ∧ (∀ e t', body u p t = .inr (.ret e t') → Excess p t') := by
  obtain ⟨c, hc, hm, h0⟩ := h
  have hE : marks (evalAll u p.batchSize t.s t.x).1 = marks t.s := marks_evalAll _ _ _
  unfold body
  split_ifs with h1
  · exact ⟨fun _ h => (by cases h), fun e t' h => by cases h; exact ⟨c, hc, hm, h0⟩⟩
  · dsimp only
    split_ifs with h2 h3
    · exact ⟨fun _ h => (by cases h), fun e t' h => by cases h; exact ⟨c, hc, by rw [hE]; exact hm, h0⟩⟩
    · exact ⟨fun _ h => (by cases h), fun e t' h => by cases h; exact ⟨c, hc, by rw [hE]; exact hm, h0⟩⟩
    · split
      · exact ⟨fun _ h => (by cases h), fun e t' h => by cases h⟩
      · rename_i g hg
        have hG := (marks_fullGrad hg).trans hE
        split_ifs with h4
        · exact ⟨fun _ h => (by cases h), fun e t' h => by cases h; exact ⟨c, hc, by rw [hG]; exact hm, h0⟩⟩
        · split
          · exact ⟨fun _ h => (by cases h), fun e t' h => by cases h⟩
          · rename_i r hr
            refine ⟨fun t' h => ?_, fun e t' h => by cases h⟩
            cases h
            have := iterate_inv (fun a : Inner W X G => (marks a.s).1 = (marks a.s).2 + (t.i + c + 1))
              (fun a : Inner W X G => (marks a.s).1 = (marks a.s).2 + (t.i + c + 1) ∨
                (marks a.s).1 = (marks a.s).2 + (t.i + c + 1 + 1) ∧ ∃ x v g' g0 k, (p.update x v g' g0 k (p.norm g.2)).2.2 = true)
              (fun a a' ha h => (inner_marks ha).1 a' h) (fun a r ha h => (inner_marks ha).2 r h) _ _ r
              (by dsimp only; rw [marks_note, hG]; simp; omega) hr
            rcases this with h5 | ⟨h5, x, v, g', g0, k, h6⟩
            · exact ⟨c, by dsimp only; omega, by dsimp only; omega, h0⟩
            · refine ⟨c + 1, by dsimp only; omega, by dsimp only; omega, fun hf => ?_⟩
              rw [hf] at h6
              cases h6

/-- **C109** (partial) Of the steps of a run, exactly one per epoch (the step along the full gradient) is not notified if the update policy
never ends an epoch (SARAH); for SARAH+ at most one more per epoch (the last of an epoch cut short). All others are. Missing: the rest,
which is false. -/
theorem C109_notified_partial {fuel : Nat} {w : W} {x : X} {e : Exit} {t : St W X E} (h : optimize u p fuel w x = some (.ret e t)) :
    t.s.trace.count .told + t.i ≤ t.s.trace.count .step ∧ t.s.trace.count .step ≤ t.s.trace.count .told + 2 * t.i ∧
      ((∀ x v g g0 k vn, (p.update x v g g0 k vn).2.2 = false) → t.s.trace.count .step = t.s.trace.count .told + t.i) := by
  unfold optimize at h
  rw [Option.map_eq_some_iff] at h
  obtain ⟨r, hr, h⟩ := h
  have key := iterate_inv (Excess p) (fun r : Res W X E => ∀ e t, r = .ret e t → Excess p t)
    (fun a a' ha h => (body_excess ha).1 a' h) (fun a r ha h e t he => (body_excess ha).2 e t (by rw [h, he])) fuel _ r
    ⟨0, Nat.le_refl _, rfl, fun _ => rfl⟩ hr
  cases r with
  | stuck => cases h
  | ret e' t' =>
    simp only [Res.ret.injEq] at h
    obtain ⟨rfl, rfl⟩ := h
    obtain ⟨c, hc, hm, h0⟩ := key _ _ rfl
    have hf : marks (finish u p e' t').s = marks t'.s ∧ (finish u p e' t').i = t'.i := by
      unfold finish
      dsimp only
      split_ifs
      · exact ⟨marks_evalAll _ _ _, rfl⟩
      · exact ⟨rfl, rfl⟩
    have e1 : (finish u p e' t').s.trace.count .step = (marks t'.s).1 := by rw [← hf.1]; rfl
    have e2 : (finish u p e' t').s.trace.count .told = (marks t'.s).2 := by rw [← hf.1]; rfl
    rw [e1, e2, hf.2]
    refine ⟨by omega, by omega, fun h => ?_⟩
    have := h0 h
    omega

/-- A run of SARAH on a quadratic: two epochs of three steps each, four of the six notified. -/
example : ((optimize Svrg.quadUser (quadParams 2 2 (1 / 2) (-1)) 5 none 1).map fun r => match r with
    | .ret _ t => (t.s.trace.count .step, t.s.trace.count .told, t.i)
    | .stuck => (0, 0, 0)) = some (6, 4, 2) := by
  decide +kernel

end Ens.Vr.Sarah
