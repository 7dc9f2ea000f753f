import Verif.Spec.DelayBook

/-
  The notebook of delays when calls also use id 0: such calls leave the book alone, and which answers they may get.
-/
namespace Atl.Spec.Delays

/-- One call: the answers that may be given, and the book; `none`: no line is free. A `Wait` for id 0 starts nothing: it says "not yet" if exactly one line is free, and may say either
    if more are free; id 0 is "waiting" while a line is free. -/
def Book.stepAny (N : Nat) (b : Book) : Call → Option (List (Option Bool) × Book)
  | .wait 0 _ => if b.lines.length < N then some (if b.lines.length + 1 = N then [some false] else [some false, some true], b) else none
  | .abort 0 => some ([none], b)
  | .clear 0 => some ([none], b)
  | .isWaiting 0 => some ([some (decide (b.lines.length < N))], b)
  | c => (b.step N c).map fun p => ([p.1], p.2)

/-- A history: the answers that may be given to each call and the book at the end. -/
def Book.runAny (N : Nat) (b : Book) : List Call → Option (List (List (Option Bool)) × Book)
  | [] => some ([], b)
  | c :: cs => match b.stepAny N c with
    | none => none
    | some (o, b) => match Book.runAny N b cs with
      | none => none
      | some (os, b) => some (o :: os, b)

end Atl.Spec.Delays
