import Verif.Spec.PushButton

/-
  Independent specification of a push button that counts time scan by scan: every scan takes the length of the last time update off what is left to wait, however many scans
  there are per update.
-/
namespace Atl.Spec.ButtonCount
open Atl.Spec.PushButton

/-- What the button knows; `left`: what is left to wait until `hold`, or until the end of the debounce time (`none`: not yet begun). -/
inductive Phase where
  | unknown
  | opened
  | closed (left : Nat)
  | hold
  | pending (left : Option Nat)
  deriving Repr, DecidableEq

def Phase.report : Phase → Report
  | .unknown => .unknown | .opened => .opened | .closed _ => .closed | .hold => .hold | .pending _ => .pending

/-- The contact is believed. -/
def settle (H : Nat) (pushed : Bool) : Phase := if pushed then .closed H else .opened

/-- One scan that sees the contact, `delta` after the last time update before it. -/
def Phase.scan (D H delta : Nat) (pushed : Bool) : Phase → Phase
  | .unknown => settle H pushed
  | .opened => if pushed then .pending none else .opened
  | .closed left => if pushed then (if left ≤ delta then .hold else .closed (left - delta)) else .pending none
  | .hold => if pushed then .hold else .pending none
  | .pending none => .pending (some D)
  | .pending (some left) => if left ≤ delta then settle H pushed else .pending (some (left - delta))

end Atl.Spec.ButtonCount
