import Verif.Update.Model
import Mathlib.Tactic.NormNum

/-
C240: the accessors of AdaBound and AMSBound.
-/

namespace Ens.Update

/-- Members of `AdaBoundUpdate` and `AMSBoundUpdate` (`ada_bound/ada_bound_update.hpp:50-62`,
`ada_bound/ams_bound_update.hpp:50-62`). -/
structure BoundPar where
  finalLr : ℝ
  gamma : ℝ
  eps : ℝ
  b1 : ℝ
  b2 : ℝ

/-- The accessors, each of which reads or gives out a reference. -/
inductive Acc | finalLr | gamma | epsilon | beta1 | beta2
  deriving DecidableEq

/-- What an accessor reads (`ada_bound_update.hpp:64-87`, the same lines of `ams_bound_update.hpp`). -/
def BoundPar.get (p : BoundPar) : Acc → ℝ
  | .finalLr => p.finalLr
  | .gamma => p.finalLr
  | .epsilon => p.eps
  | .beta1 => p.b1
  | .beta2 => p.b2

/-- Assigning to the reference an accessor returns (same lines). -/
def BoundPar.set (p : BoundPar) : Acc → ℝ → BoundPar
  | .finalLr, v => { p with finalLr := v }
  | .gamma, v => { p with finalLr := v }
  | .epsilon, v => { p with eps := v }
  | .beta1, v => { p with b1 := v }
  | .beta2, v => { p with b2 := v }

/-- Assignments through the accessors, in order. -/
def BoundPar.sets (p : BoundPar) (l : List (Acc × ℝ)) : BoundPar :=
  l.foldl (fun q s => q.set s.1 s.2) p

/-- The update policy an optimisation with these members runs. -/
noncomputable def BoundPar.policy (p : BoundPar) (ams : Bool) : Policy BMom :=
  adaBound ams ⟨p.b1, p.b2, p.eps⟩ p.finalLr p.gamma

/-- The parameter an accessor is documented to stand for (constructor documentation,
`ada_bound_update.hpp:43-49`). -/
def BoundPar.named (p : BoundPar) : Acc → ℝ
  | .finalLr => p.finalLr
  | .gamma => p.gamma
  | .epsilon => p.eps
  | .beta1 => p.b1
  | .beta2 => p.b2

/-- The value given to `a` last, or else `d`. -/
def lastSet (d : ℝ) (a : Acc → Bool) : List (Acc × ℝ) → ℝ
  | [] => d
  | s :: l => lastSet (if a s.1 then s.2 else d) a l

/-- **C240** The part that holds: `Epsilon()`, `Beta1()` and `Beta2()` read, after any assignments,
the value last assigned through them or else that of the constructor, and the optimisation uses it. -/
theorem C240_accessors_partial (p : BoundPar) (l : List (Acc × ℝ)) (a : Acc)
    (ha : a ≠ .finalLr) (ha' : a ≠ .gamma) :
    (p.sets l).get a = lastSet (p.named a) (· == a) l ∧
      (p.sets l).named a = lastSet (p.named a) (· == a) l := by
  induction l generalizing p with
  | nil => cases a <;> first | exact absurd rfl ha | exact absurd rfl ha' | exact ⟨rfl, rfl⟩
  | cons s l ih =>
    obtain ⟨f, v⟩ := s
    have := ih (p.set f v)
    cases a <;> first
      | exact absurd rfl ha
      | exact absurd rfl ha'
      | (cases f <;> exact this)

example : Acc.beta1 ≠ .finalLr ∧ Acc.beta1 ≠ .gamma := by decide

/-- **C240** Whatever is assigned through the accessors, the convergence speed stays the constructor's
and the final learning rate is the value last assigned through `FinalLr()` or `Gamma()`. -/
theorem C240_what_runs (p : BoundPar) (l : List (Acc × ℝ)) :
    (p.sets l).gamma = p.gamma ∧
      (p.sets l).finalLr = lastSet p.finalLr (fun a => a == .finalLr || a == .gamma) l := by
  induction l generalizing p with
  | nil => exact ⟨rfl, rfl⟩
  | cons s l ih =>
    obtain ⟨f, v⟩ := s
    have := ih (p.set f v)
    cases f <;> exact this

/-- **C240** `Gamma()` does not read the convergence speed, already for the default values. -/
theorem C240_gamma_read_refuted : ¬ ∀ p : BoundPar, p.get .gamma = p.named .gamma := by
  intro h
  have := h ⟨0.1, 1e-3, 1e-8, 0.9, 0.999⟩
  simp only [BoundPar.get, BoundPar.named] at this
  norm_num at this

/-- **C240** Assigning through `Gamma()` does not set the convergence speed, and changes what
`FinalLr()` reads. -/
theorem C240_gamma_write_refuted :
    (¬ ∀ (p : BoundPar) (v : ℝ), (p.set .gamma v).named .gamma = v) ∧
      ¬ ∀ (p : BoundPar) (v : ℝ), (p.set .gamma v).get .finalLr = p.get .finalLr := by
  constructor <;> intro h
  · have := h ⟨0.1, 1e-3, 1e-8, 0.9, 0.999⟩ 1
    simp only [BoundPar.set, BoundPar.named] at this
    norm_num at this
  · have := h ⟨0.1, 1e-3, 1e-8, 0.9, 0.999⟩ 1
    simp only [BoundPar.set, BoundPar.get] at this
    norm_num at this

/-- The optimisation after `Gamma() = v` is the one after `FinalLr() = v`, and that of an
object constructed with final learning rate `v` and the old `gamma`. -/
theorem gamma_is_final_lr (p : BoundPar) (v : ℝ) (ams : Bool) :
    (p.set .gamma v).policy ams = (p.set .finalLr v).policy ams ∧
      (p.set .gamma v).policy ams = adaBound ams ⟨p.b1, p.b2, p.eps⟩ v p.gamma :=
  ⟨rfl, rfl⟩

/-- **C240** It differs from the optimisation asked for: one AdaBound step from 0. -/
theorem C240_step_refuted : ¬ ∀ (p : BoundPar) (v a g x : ℝ),
    (((p.set .gamma v).policy false).update ((p.set .gamma v).policy false).init a g x).2 =
      ((({ p with gamma := v } : BoundPar).policy false).update
        (({ p with gamma := v } : BoundPar).policy false).init a g x).2 := by
  intro h
  have := h ⟨1, 1, 1, 0, 0⟩ 3 1 1 0
  simp [BoundPar.policy, BoundPar.set, adaBound, boundLo, boundHi] at this
  norm_num at this

end Ens.Update
