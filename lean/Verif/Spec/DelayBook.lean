import Verif.Spec.Delays

/-
  A notebook of delays with a limited number of lines: what waits, in the order of starting. Starting one more than there are lines for is not allowed.
-/
namespace Atl.Spec.Delays

/-- The last time update and the delays that wait (id and what is left). -/
structure Book where
  delta : Nat
  lines : List (Nat × Nat)
  deriving DecidableEq, Repr

/-- What is left to wait for `id`. -/
def Book.left (b : Book) (id : Nat) : Option Nat := (b.lines.find? (·.1 = id)).map (·.2)

/-- The line of `id` crossed out. -/
def Book.strike (b : Book) (id : Nat) : Book := { b with lines := b.lines.filter (·.1 ≠ id) }

/-- The line of `id` with a new number. -/
def Book.rewrite (b : Book) (id v : Nat) : Book := { b with lines := b.lines.map fun p => if p.1 = id then (id, v) else p }

/-- One call with room for `N` delays: the answer and the book; `none`: no line is free. -/
def Book.step (N : Nat) (b : Book) : Call → Option (Option Bool × Book)
  | .update d => some (none, { b with delta := d })
  | .wait id time => match b.left id with
    | none => if b.lines.length < N then some (some false, { b with lines := b.lines ++ [(id, time)] }) else none
    | some r => if r ≤ b.delta then some (some true, b.strike id) else some (some false, b.rewrite id (r - b.delta))
  | .abort id => some (none, b.rewrite id 0)
  | .clear id => some (none, b.strike id)
  | .isWaiting id => some (some (b.lines.any (·.1 = id)), b)

/-- A history: the answers and the book at the end; `none`: at some moment one more delay was started than there is room for. -/
def Book.run (N : Nat) (b : Book) : List Call → Option (List (Option Bool) × Book)
  | [] => some ([], b)
  | c :: cs => match b.step N c with
    | none => none
    | some (o, b) => match Book.run N b cs with
      | none => none
      | some (os, b) => some (o :: os, b)

end Atl.Spec.Delays
