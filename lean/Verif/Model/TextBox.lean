import Verif.Model.LcdSketch

/-
  The TextBox example (Source/Code/Arduino Libraries/ATL_UI/examples/TextBox/TextBox.ino) as a whole program: a page with two labels and a text control,
  driven by navigation commands. `delay` makes no calls.
-/
namespace Atl.TextBox
open Atl.Lcd Atl.UI

/-- The controls of the page (TextBox.ino 28-45). -/
abbrev Ctl := Label ⊕ Text Int

/-- `LabelControl label("...")` (TextBox.ino 28-29). -/
def label (text : List Nat) : Label := { text := some (text.map fun c : Nat => toS 8 c) }

/-- `TextControl<FixedString<n>, CharacterIteratorT> text1(&textBuffer, &charIterator, col)` over the characters of a string in program memory
    (TextBox.ino 31-39); `buf` is what `textBuffer` holds. -/
def text1 (chars : List Nat) (n col : Nat) (buf : List Int) : Text Int :=
  { pos := col, text := buf, capacity := fixedCapacity n, ops := charIter (Iterator.ofStatic 0 (chars.map fun c : Nat => toS 8 c)) false, iter := Iterator.init }

/-- `Line<2> line1(&label1, &text1); Line<2> line2(&label2); Page<2> page(&line1, &line2);` (TextBox.ino 42-46). -/
def page (label1 label2 : List Nat) (t : Text Int) : Page Ctl :=
  Page.add 2 { kind := .horizontal, kids := [.inl (label label2)] }
    (Page.add 2 { kind := .horizontal, kids := [.inl (label label1), .inr t] } ⟨{ kind := .vertical, kids := [] }⟩)

/-- Everything that changes while the sketch runs (TextBox.ino 10-45). -/
structure State where
  page : Page Ctl
  lcd : View.State

/-- `setup` (TextBox.ino 48-63): start, `textBuffer = "..."` (a global, so zeros before), display, and the first `Down`. -/
def setup (rows : Nat) (label1 label2 chars : List Nat) (n col : Nat) (text : List Nat) : Res (State × List Call) := do
  let (s, a) ← LcdSketch.start rows
  let buf ← FixedString.init n ⟨List.replicate (n + 1) 0, 0⟩
  let buf ← FixedString.copyFrom n buf (text.map fun c : Nat => toS 8 c)
  let p := page label1 label2 (text1 chars n col buf.items)
  let (s, b) ← UILcd.calls rows s (Control.display .normal p)
  .ok (⟨(Control.nav .down p).2, s⟩, a ++ b)

/-- The body of the loop over the commands (TextBox.ino 73-78). -/
def command (rows : Nat) (x : State) (c : Nav) : Res (State × List Call) := do
  let p := (Control.nav c x.page).2
  let (s, b) ← UILcd.calls rows x.lcd (Control.display .normal p)
  .ok (⟨p, s⟩, b)

/-- A sequence of commands (TextBox.ino 1-81). -/
def run (rows : Nat) (x : State) : List Nav → Res (State × List Call)
  | [] => .ok (x, [])
  | c :: cs => do
    let (x, a) ← command rows x c
    let (x, b) ← run rows x cs
    .ok (x, a ++ b)

/-- `setup` and the commands (TextBox.ino 1-81). -/
def program (rows : Nat) (label1 label2 chars : List Nat) (n col : Nat) (text : List Nat) (cmds : List Nav) : Res (State × List Call) := do
  let (x, a) ← setup rows label1 label2 chars n col text
  let (x, b) ← run rows x cmds
  .ok (x, a ++ b)

/-- The characters to choose from (TextBox.ino 31). -/
def exampleChars : List Nat :=
  [32, 43, 45, 40, 41] ++ (List.range 10).map (48 + ·) ++ (List.range 26).map (65 + ·) ++ (List.range 26).map (97 + ·)

/-- `pgmNavCmds` (TextBox.ino 66). -/
def script : List Nav := [.up, .right, .enter, .up, .up, .up, .right, .up, .up, .up, .up, .exit, .down]

/-- `setup` and `k` times `loop` (TextBox.ino 69-81) of the example. -/
def example_ (k : Nat) : Res (State × List Call) :=
  program 2 [76, 105, 110, 101, 32, 49] [76, 105, 110, 101, 32, 50] exampleChars 6 8 [72, 101, 108, 108, 111, 32] (List.replicate k script).flatten

end Atl.TextBox
