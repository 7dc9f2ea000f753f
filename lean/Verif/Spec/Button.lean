import Verif.Spec.PushButton

/-
  Independent specification of a push button in absolute time: what it reports as a function of the contact, exactly.
-/
namespace Atl.Spec.Button
open Atl.Spec.PushButton (Report)

/-- A button: not looked at yet, open, closed since a time, held, or undecided (since a time, once that has been noted). -/
inductive Button where
  | fresh
  | opened
  | closed (since : Nat)
  | held
  | undecided (since : Option Nat)
  deriving DecidableEq, Repr

/-- What it reports. -/
def Button.report : Button → Report
  | .fresh => .unknown
  | .opened => .opened
  | .closed _ => .closed
  | .held => .hold
  | .undecided _ => .pending

/-- As the contact is now. -/
def settle (now : Nat) (pushed : Bool) : Button := if pushed then .closed now else .opened

/-- A look at the contact: a new button believes it, a change makes it undecided, which lasts until `D` has passed since the next look; a contact that stays
    closed for `H` is a hold. -/
def Button.look (D H now : Nat) (pushed : Bool) : Button → Button
  | .fresh => settle now pushed
  | .opened => if pushed then .undecided none else .opened
  | .closed a => if pushed then (if a + H ≤ now then .held else .closed a) else .undecided none
  | .held => if pushed then .held else .undecided none
  | .undecided none => .undecided (some now)
  | .undecided (some a) => if a + D ≤ now then settle now pushed else .undecided (some a)

/-- The button after each look: the gaps of time between looks and the contact. -/
def Button.looks (D H now : Nat) (b : Button) : List (Nat × Bool) → List Button
  | [] => []
  | (g, p) :: l => b.look D H (now + g) p :: (b.look D H (now + g) p).looks D H (now + g) l

/-- The lamp of the example: off, on, flickering (it changes at every look) or left as it is. -/
def lamp (on : Bool) : Report → Bool
  | .opened => false
  | .closed => true
  | .hold => !on
  | _ => on

/-- The lamp after each look. -/
def lamps (on : Bool) : List Report → List Bool
  | [] => []
  | r :: rs => lamp on r :: lamps (lamp on r) rs

end Atl.Spec.Button
