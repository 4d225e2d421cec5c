import Verif.Vr.Sarah
import Verif.Vr.Katyusha

/-
C112: reusing an SVRG, SARAH or Katyusha object.  `Optimize` replaces an `innerIterations` member of 0 by the number of
functions (`svrg_impl.hpp:98-99`, `sarah_impl.hpp:83-84`, `katyusha_impl.hpp:75-76`) and never restores it.
-/

namespace Ens.Vr.Reuse

open Ens.Vr

variable {W X G E : Type}

/-- The SVRG object after a call on `u`. -/
def svrgAfter (u : User W X G E) (p : Svrg.Params W X G E) : Svrg.Params W X G E :=
  { p with innerIterations := Svrg.effInner u p }

/-- The SARAH object after a call on `u`. -/
def sarahAfter (u : User W X G E) (p : Sarah.Params X G E) : Sarah.Params X G E :=
  { p with innerIterations := Sarah.effInner u p }

/-- The Katyusha object after a call on a function with `n` parts. -/
def katyushaAfter {K : Type} (n : Nat) (p : Katyusha.Params K) : Katyusha.Params K :=
  { p with innerIterations := Katyusha.effInner n p }

theorem svrg_body_congr {u : User W X G E} {p p' : Svrg.Params W X G E}
    (h : p' = { p with innerIterations := p'.innerIterations }) (he : Svrg.effInner u p' = Svrg.effInner u p) :
    Svrg.body u p' = Svrg.body u p := by
  obtain ⟨b, m, k, sh, ex, dec, upd⟩ := p
  rw [h] at he ⊢
  generalize p'.innerIterations = k' at he ⊢
  funext t
  unfold Svrg.body
  rw [he]
  rfl

/-- **C112** (partial) A second SVRG call behaves as the call of a fresh object if `innerIterations` was set to a positive
number, or if both functions have the same number of parts. -/
theorem C112_svrg_reuse_partial {u u' : User W X G E} {p : Svrg.Params W X G E} (h : p.innerIterations ≠ 0 ∨ u'.n = u.n)
    (hn : u.n ≠ 0) (step : E) (fuel : Nat) (w : W) (x : X) :
    Svrg.optimize u' (svrgAfter u p) step fuel w x = Svrg.optimize u' p step fuel w x := by
  have he : Svrg.effInner u' (svrgAfter u p) = Svrg.effInner u' p := by
    simp only [svrgAfter, Svrg.effInner]
    split <;> rename_i h1
    · rcases h with h | h
      · by_cases h2 : p.innerIterations = 0
        · exact absurd h2 h
        · simp_all
      · simp_all
    · simp_all
  have hb := svrg_body_congr (u := u') (p := p) (p' := svrgAfter u p) rfl he
  unfold Svrg.optimize
  rw [hb]
  rfl

/-- The object of the SVRG runs below: vanilla decay, default `innerIterations`. -/
def svrgDefault : Svrg.Params Unit ℚ ℚ ℚ where
  batchSize := 1
  maxIterations := 1
  innerIterations := 0
  shuffle := false
  exact := true
  decay := fun w _ _ _ _ _ step => (w, step)
  update := fun w x full g g0 b step => (w, x - step * (full + (g - g0) / b))

/-- **C112** (refuted) "A second `Optimize` call behaves as that of a fresh object": after a call on one function, a call
on two functions makes one inner step instead of two. -/
theorem C112_svrg_reuse_refuted :
    ¬ ∀ (u u' : User Unit ℚ ℚ ℚ) (x : ℚ), 0 < u.n → 0 < u'.n →
      Svrg.outcome (Svrg.optimize u' (svrgAfter u svrgDefault) (1 / 2) 5 () x) =
        Svrg.outcome (Svrg.optimize u' svrgDefault (1 / 2) 5 () x) := by
  intro h
  have h1 := h Katyusha.shifted Katyusha.pair 4 (by decide) (by decide)
  have h2 : (decide (Svrg.outcome (Svrg.optimize Katyusha.pair (svrgAfter Katyusha.shifted svrgDefault) (1 / 2) 5 () 4) =
        Svrg.outcome (Svrg.optimize Katyusha.pair svrgDefault (1 / 2) 5 () 4))) = false := by decide +kernel
  exact of_decide_eq_false h2 h1

/-- The same for SARAH: one inner pass instead of two. -/
theorem C112_sarah_reuse_refuted :
    ¬ ∀ (u u' : User Unit ℚ ℚ ℚ) (x : ℚ), 0 < u.n → 0 < u'.n →
      Sarah.outcome (Sarah.optimize u' (sarahAfter u (Sarah.quadParams 1 0 (1 / 2) (-1))) 5 () x) =
        Sarah.outcome (Sarah.optimize u' (Sarah.quadParams 1 0 (1 / 2) (-1)) 5 () x) := by
  intro h
  have h1 := h Katyusha.shifted Katyusha.pair 4 (by decide) (by decide)
  have h2 : (decide (Sarah.outcome (Sarah.optimize Katyusha.pair
        (sarahAfter Katyusha.shifted (Sarah.quadParams 1 0 (1 / 2) (-1))) 5 () 4) =
        Sarah.outcome (Sarah.optimize Katyusha.pair (Sarah.quadParams 1 0 (1 / 2) (-1)) 5 () 4))) = false := by
    decide +kernel
  exact of_decide_eq_false h2 h1

/-- The same for Katyusha. -/
theorem C112_katyusha_reuse_refuted :
    ¬ ∀ (u u' : User Unit ℚ ℚ ℚ) (x : ℚ), 0 < u.n → 0 < u'.n →
      Katyusha.outcome (Katyusha.optimize u' (katyushaAfter u.n (Katyusha.params 1 0 true)) 5 () x) =
        Katyusha.outcome (Katyusha.optimize u' (Katyusha.params 1 0 true) 5 () x) := by
  intro h
  have h1 := h Katyusha.shifted Katyusha.pair 4 (by decide) (by decide)
  have h2 : (decide (Katyusha.outcome (Katyusha.optimize Katyusha.pair
        (katyushaAfter Katyusha.shifted.n (Katyusha.params 1 0 true)) 5 () 4) =
        Katyusha.outcome (Katyusha.optimize Katyusha.pair (Katyusha.params 1 0 true) 5 () 4))) = false := by
    decide +kernel
  exact of_decide_eq_false h2 h1

end Ens.Vr.Reuse
