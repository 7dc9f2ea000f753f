import Verif.Spec.UI

/- Specification of a text editor with four arrow keys, independent of the controls (used for C71). -/
namespace Atl.Spec.UI

/-- The text, the place of the cursor in it, the place in the character set the editor remembers (none as long as it has not met a character of
    the set), and whether it is editing. -/
structure Editor where
  text : List Int
  cursor : Nat := 0
  place : Option Nat := none
  editing : Bool := false

/-- The keys. -/
inductive Key where
  | up | down | left | right | enter | exit

/-- The character under the cursor is looked up; a character outside the set leaves the place as it was. -/
def Editor.look (cs : List Int) (e : Editor) : Editor :=
  if e.text.getD e.cursor 0 ∈ cs then { e with place := some (cs.idxOf (e.text.getD e.cursor 0)) } else e

/-- One step through the set: from nowhere Up arrives at the first character, Down at the last if the set goes round. -/
def stepPlace (n : Nat) (wrap : Bool) (up : Bool) : Option Nat → Option Nat
  | some i => some (turn n wrap i up)
  | none => if up then some 0 else if wrap then some (n - 1) else none

/-- The character at a place; 0 if there is none. -/
def charOf (cs : List Int) : Option Nat → Int
  | some i => cs.getD i 0
  | none => 0

/-- One key, in a text of which `cap` characters can be edited. -/
def Editor.key (cs : List Int) (wrap : Bool) (cap : Nat) (e : Editor) : Key → Editor
  | .enter => if e.editing then e else Editor.look cs { e with editing := true, cursor := 0 }
  | .exit => if e.editing then { e with editing := false, cursor := 0 } else e
  | .left => if e.editing ∧ 0 < e.cursor then Editor.look cs { e with cursor := e.cursor - 1 } else e
  | .right => if e.editing ∧ e.cursor + 1 < cap then Editor.look cs { e with cursor := e.cursor + 1 } else e
  | .up => if e.editing then
      { e with place := stepPlace cs.length wrap true e.place, text := e.text.set e.cursor (charOf cs (stepPlace cs.length wrap true e.place)) } else e
  | .down => if e.editing then
      { e with place := stepPlace cs.length wrap false e.place, text := e.text.set e.cursor (charOf cs (stepPlace cs.length wrap false e.place)) } else e

end Atl.Spec.UI
