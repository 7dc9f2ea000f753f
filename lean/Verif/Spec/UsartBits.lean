/-
  Switches that several parties operate: a switch is as it was last put.
-/
namespace Atl.Spec.Switches

/-- The last request for switch `k` in a sequence of requests (switch, on or off), if there is one. -/
def last {κ : Type} [DecidableEq κ] (k : κ) : List (κ × Bool) → Option Bool
  | [] => none
  | r :: rs => match last k rs with
    | some v => some v
    | none => if r.1 = k then some r.2 else none

end Atl.Spec.Switches
