import Verif.Spec.TextBox
import Verif.Spec.TextEdit

/-
  The dialogue of `Spec/TextBox.lean` with any text in the buffer: shorter than the buffer, and with characters outside of the set. The text is edited by
  the editor of `Spec/TextEdit.lean`; a display that is only written over keeps what was behind a text that has become shorter.
-/
namespace Atl.Spec.TextBox

/-- `shown`: what stands on the display where there is room for the text. -/
structure Wide where
  second : Bool := false
  found : Bool := false
  editor : UI.Editor
  shown : List Nat

/-- What is written of a buffer: the bytes up to the first zero. -/
def written (buffer : List Int) : List Nat := (buffer.takeWhile (· ≠ 0)).map fun c : Int => (c % 256).toNat

/-- A text written over what is there. -/
def over (old new : List Nat) : List Nat := new ++ old.drop new.length

/-- The key as the editor knows it. -/
def Key.edit : Key → Option UI.Key
  | .none => Option.none
  | .up => some .up
  | .down => some .down
  | .left => some .left
  | .right => some .right
  | .enter => some .enter
  | .exit => some .exit

/-- The effect of a key, without the display. While the text is edited every key belongs to the editor. -/
def Wide.press (set : List Int) (n : Nat) (w : Wide) (k : Key) : Wide :=
  if w.editor.editing then
    match k.edit with
    | some e => { w with editor := w.editor.key set false n e }
    | .none => w
  else match k with
    | .up => { w with second := false }
    | .down => { w with second := true }
    | .left => if w.second then w else { w with found := true }
    | .right => if w.second then w else { w with found := true }
    | .enter => if w.found && !w.second then { w with editor := w.editor.key set false n .enter } else w
    | _ => w

/-- One key; then the page is displayed. -/
def Wide.key (set : List Int) (n : Nat) (w : Wide) (k : Key) : Wide :=
  let v := w.press set n k
  { v with shown := over v.shown (written v.editor.text) }

/-- The beginning: the text stands on an empty display. -/
def Wide.start (n : Nat) (buffer : List Int) : Wide :=
  { editor := { text := buffer }, shown := over (List.replicate n 32) (written buffer) }

/-- A sequence of keys. -/
def Wide.keys (set : List Int) (n : Nat) (w : Wide) (ks : List Key) : Wide := ks.foldl (Wide.key set n) w

/-- What the user sees. -/
def Wide.dialog (w : Wide) : Dialog :=
  { second := w.second, found := w.found, place := if w.editor.editing then some w.editor.cursor else Option.none, text := w.shown }

end Atl.Spec.TextBox
