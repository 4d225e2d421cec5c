/-
Shared notions.
-/

namespace Ens

/-- What the best-so-far bookkeeping of the library needs from `<`: a strict partial order.
IEEE `<` satisfies it even in the presence of NaN (NaN is incomparable to everything). -/
class StrictPO (E : Type) [LT E] : Prop where
  irrefl : ∀ a : E, ¬ a < a
  trans : ∀ a b c : E, a < b → b < c → a < c

instance : StrictPO Nat := ⟨Nat.lt_irrefl, fun _ _ _ => Nat.lt_trans⟩
instance : StrictPO Int := ⟨Int.lt_irrefl, fun _ _ _ => Int.lt_trans⟩

theorem StrictPO.asymm {E : Type} [LT E] [StrictPO E] {a b : E} (h : a < b) : ¬ b < a :=
  fun h' => StrictPO.irrefl a (StrictPO.trans _ _ _ h h')

/-- A tiny stand-in for IEEE doubles used in `example`s: finite values plus NaN. -/
inductive Dbl where
  | fin (v : Int)
  | nan
  deriving DecidableEq, Repr

def Dbl.lt : Dbl → Dbl → Prop
  | .fin a, .fin b => a < b
  | _, _ => False

instance : LT Dbl := ⟨Dbl.lt⟩

instance : DecidableLT Dbl := fun a b =>
  match a, b with
  | .fin x, .fin y => inferInstanceAs (Decidable (x < y))
  | .nan, .fin _ => .isFalse (fun h => h)
  | .nan, .nan => .isFalse (fun h => h)
  | .fin _, .nan => .isFalse (fun h => h)

instance : StrictPO Dbl where
  irrefl := by
    intro a; cases a with
    | fin v => exact Int.lt_irrefl v
    | nan => exact fun h => h
  trans := by
    intro a b c hab hbc
    cases a with
    | nan => exact hab.elim
    | fin x =>
      cases b with
      | nan => exact hab.elim
      | fin y =>
        cases c with
        | nan => exact hbc.elim
        | fin z => exact Int.lt_trans hab hbc

end Ens
