/-
  What a display writer promises (documentation of DisplayWriter): a screen with a write position, text cells and at most one visible cursor.
  Written without reference to the library's classes.
-/
namespace Atl.Spec.Display

/-- Text cells are addressed by row and column; `cursor` is the visible cursor: row, column, editing. -/
structure Screen where
  row : Nat
  col : Nat
  text : Nat → Nat → Int
  cursor : Option (Nat × Nat × Bool)

/-- A coordinate that may be left open (`none`: as it is). -/
def resolve (old : Nat) : Option Nat → Nat
  | some x => x
  | none => old

/-- Writes a character and moves right. -/
def Screen.put (s : Screen) (ch : Int) : Screen :=
  { s with col := s.col + 1, text := fun r c => if r = s.row ∧ c = s.col then ch else s.text r c }

/-- Writes a text. -/
def Screen.write (s : Screen) (t : List Int) : Screen := t.foldl Screen.put s

/-- Moves the write position. -/
def Screen.goTo (s : Screen) (r c : Option Nat) : Screen := { s with row := resolve s.row r, col := resolve s.col c }

/-- Shows the cursor at a position, or hides it when neither coordinate is given. -/
def Screen.setCursor (s : Screen) (r c : Option Nat) (edit : Bool) : Screen :=
  if r = none ∧ c = none then { s with cursor := none }
  else { s.goTo r c with cursor := some (resolve s.row r, resolve s.col c, edit) }

end Atl.Spec.Display
