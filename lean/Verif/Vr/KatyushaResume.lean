import Verif.Vr.Katyusha

/-
C325 for Katyusha (katyusha_impl.hpp:50-266): the coupled sequences `y`, `z` and the snapshot are local to a call, so a second call
does not continue the first.
-/

namespace Ens.Vr.Katyusha

/-- The coordinates a run ends at when it reaches its limit without a stop request. -/
def coords (o : Option (Res Unit ℚ ℚ)) : Option ℚ := o.bind fun r => match r with
  | .ret .loop t => if t.s.term then none else some t.x
  | _ => none

theorem coords_some {o : Option (Res Unit ℚ ℚ)} {v : ℚ} (h : coords o = some v) :
    ∃ t, o = some (.ret .loop t) ∧ t.s.term = false ∧ t.x = v := by
  unfold coords at h
  rw [Option.bind_eq_some_iff] at h
  obtain ⟨r, hr, h⟩ := h
  split at h
  · split at h
    · cases h
    · rename_i t ht
      exact ⟨t, hr, by simpa using ht, Option.some.inj h⟩
  · cases h

/-- Two quadratics, tolerance 0. -/
def pairGo : User Unit ℚ ℚ ℚ := { pair with near := fun _ _ => false }

/-- `p` with another limit (`MaxIterations()`, katyusha.hpp). -/
def Params.limit {K : Type} (p : Params K) (m : Nat) : Params K := { p with maxIterations := m }

/-- **C325** (refuted for Katyusha) Under the conditions under which SVRG and SARAH can be run in instalments, two calls of one epoch
each, both running to their limit, end at other coordinates than one call of two epochs: on two quadratics at 5/9 instead of
149/216. -/
theorem C325_katyusha_refuted :
    ¬ ∀ (u : User Unit ℚ ℚ ℚ) (p : Params ℚ) (a b f₁ f₂ f : Nat) (x : ℚ) (t₁ t₂ t : St Unit ℚ ℚ), 0 < a → 0 < b → p.exact = false →
      (∀ w x, u.cbBegin w x = (w, x)) → (∀ w x, u.cbEnd w x = (w, x)) → (∀ a b, u.near a b = false) →
      optimize u (p.limit a) f₁ () x = some (.ret .loop t₁) → t₁.s.term = false →
      optimize u (p.limit b) f₂ () t₁.x = some (.ret .loop t₂) →
      optimize u (p.limit (a + b)) f () x = some (.ret .loop t) → t.x = t₂.x := by
  intro h
  obtain ⟨t₁, h1, h2, h3⟩ := coords_some (o := optimize pairGo ((params 5 2 false).limit 1) 9 () 0) (v := 1 / 3) (by decide +kernel)
  obtain ⟨t₂, h4, -, h6⟩ := coords_some (o := optimize pairGo ((params 5 2 false).limit 1) 9 () (1 / 3)) (v := 5 / 9) (by decide +kernel)
  obtain ⟨t, h7, -, h9⟩ := coords_some (o := optimize pairGo ((params 5 2 false).limit (1 + 1)) 9 () 0) (v := 149 / 216)
    (by decide +kernel)
  have := h pairGo (params 5 2 false) 1 1 9 9 9 0 t₁ t₂ t (by norm_num) (by norm_num) rfl (fun _ _ => rfl) (fun _ _ => rfl)
    (fun _ _ => rfl) h1 h2 (by rw [h3]; exact h4) h7
  rw [h6, h9] at this
  norm_num at this

end Ens.Vr.Katyusha
