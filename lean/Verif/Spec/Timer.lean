/-
  Independent specification of a repeating timeout that is polled: how much time it has counted since it was armed.
-/
namespace Atl.Spec.Timer

/-- What happens: a time update of `d` units, a poll, something else. -/
inductive Ev where
  | passed (d : Nat)
  | poll
  | other
  deriving DecidableEq, Repr

/-- `started`: polled once; `delta`: size of the last update; `counted`: the time counted since it was armed, if it is. -/
structure Timer where
  started : Bool := false
  delta : Nat := 0
  counted : Option Nat := none
  deriving DecidableEq, Repr

/-- The first poll starts it, the next one arms it; every later poll counts the last update, and fires when `T` units are counted, which disarms it.
    The result is the number of times it fires. -/
def Timer.step (T : Nat) (t : Timer) : Ev → Nat × Timer
  | .passed d => (0, { t with delta := d })
  | .other => (0, t)
  | .poll =>
    if t.started then
      match t.counted with
      | none => (0, { t with counted := some 0 })
      | some c => if T ≤ c + t.delta then (1, { t with counted := none }) else (0, { t with counted := some (c + t.delta) })
    else (0, { t with started := true })

/-- The numbers of a history. -/
def Timer.run (T : Nat) (t : Timer) : List Ev → List Nat
  | [] => []
  | e :: es => (t.step T e).1 :: Timer.run T (t.step T e).2 es

end Atl.Spec.Timer
