import Mathlib.Data.List.Basic

/-
  Independent specification of a blinking lamp: it remembers since when it waits, and changes when its time is over.
-/
namespace Atl.Spec.Lamp

/-- Since when the lamp waits (`none`: it does not), and whether it is on. -/
structure Lamp where
  since : Option Nat
  on : Bool
  deriving DecidableEq, Repr

/-- A look at the lamp at time `now`: it begins to wait, or changes if it has waited for `T`. -/
def Lamp.look (T now : Nat) (l : Lamp) : Lamp :=
  match l.since with
  | none => ⟨some now, l.on⟩
  | some a => if a + T ≤ now then ⟨none, !l.on⟩ else l

/-- The lamp after each look; the gaps of time between looks are given. -/
def Lamp.looks (T now : Nat) (l : Lamp) : List Nat → List Lamp
  | [] => []
  | g :: gs => l.look T (now + g) :: (l.look T (now + g)).looks T (now + g) gs

end Atl.Spec.Lamp
