import Verif.Spec.Pages

/-
  A dialogue with one text to edit, as its user sees it: two rows, a text on the first one. Up and Down change the row; on the first row Left or Right
  reach the text and Enter starts to edit it at its first character; then Up and Down change the character, Left and Right the place, Exit ends.
  Written without reference to the library.
-/
namespace Atl.Spec.TextBox

inductive Key where
  | none | up | down | left | right | enter | exit
  deriving DecidableEq, Repr

/-- `second`: the second row is the current one; `found`: the text has been reached; `place`: the character that is being edited. -/
structure Dialog where
  second : Bool := false
  found : Bool := false
  place : Option Nat := Option.none
  text : List Nat
  deriving DecidableEq, Repr

/-- The character after `c` in the set, `c` itself when it is the last. -/
def after (chars : List Nat) (c : Nat) : Nat := chars.getD (chars.idxOf c + 1) c

/-- The character before `c` in the set, `c` itself when it is the first. -/
def before (chars : List Nat) (c : Nat) : Nat := chars.getD (chars.idxOf c - 1) c

/-- One key. -/
def Dialog.key (chars : List Nat) (d : Dialog) (k : Key) : Dialog :=
  match d.place with
  | some i => match k with
    | .up => { d with text := d.text.modify i (after chars) }
    | .down => { d with text := d.text.modify i (before chars) }
    | .left => { d with place := some (i - 1) }
    | .right => if i + 1 < d.text.length then { d with place := some (i + 1) } else d
    | .exit => { d with place := .none }
    | _ => d
  | .none => match k with
    | .up => { d with second := false }
    | .down => { d with second := true }
    | .left => if d.second then d else { d with found := true }
    | .right => if d.second then d else { d with found := true }
    | .enter => if d.found && !d.second then { d with place := some 0 } else d
    | _ => d

/-- A sequence of keys. -/
def Dialog.keys (chars : List Nat) (d : Dialog) (ks : List Key) : Dialog := ks.foldl (Dialog.key chars) d

/-- The two rows of text: the text stands behind the first label at column `col`. -/
def Dialog.rows (label1 label2 : List Nat) (col : Nat) (d : Dialog) : List (List Nat) :=
  [label1 ++ List.replicate (col - label1.length) 32 ++ d.text, label2]

/-- What the display is to look like: the rows; a cursor on the text when it is reached and its row is current, at the place that is being edited;
    blinking exactly while it is edited. -/
structure Visible (rows : Nat) (d : Lcd.Device) (label1 label2 : List Nat) (col : Nat) (x : Dialog) : Prop where
  on : d.on = true
  window : d.window = 0
  text : ∀ r c, r < rows → c < Lcd.columns rows → d.ddram (Lcd.cell r c) = Pages.alone (x.rows label1 label2 col) r c
  cursor : d.cursor = (x.found && !x.second)
  blink : d.blink = x.place.isSome
  at_ : d.cursor = true → d.ac = Lcd.cell 0 (col + x.place.getD 0) ∧ d.cg = false

end Atl.Spec.TextBox
