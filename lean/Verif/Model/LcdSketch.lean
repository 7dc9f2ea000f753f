import Verif.Model.UILcd
import Verif.Model.TextWriter

/-
  The display examples as whole programs: LCD.ino and I2CLCD.ino (Source/Code/Arduino Libraries/ATL_HD44780/examples), Page.ino and
  PageController.ino (Source/Code/Arduino Libraries/ATL_UI/examples). A program is the list of calls on the driver; `delay(1000)` makes none.
-/
namespace Atl.LcdSketch
open Atl.Lcd Atl.UI

/-- The global `lcd`: `_registers(0)` (HD44780_Controller.h 54-56); the cursor members (HD44780_View.h 154-155) are zero as for every global object. -/
def lcd : View.State := ⟨0, 0, 0⟩

/-- `lcd.Initialize(true); lcd.setEnableDisplay();` (LCD.ino 27-30, PageController.ino 52-53). -/
def start (rows : Nat) : Res (View.State × List Call) := View.run rows lcd [.startUp true, .setting (.enableDisplay true)]

/-- `setup` of LCD.ino (LCD.ino 23-34); `loop` is empty. `mem` is the string literal with its terminating zero. -/
def hello (rows : Nat) (mem : List Nat) : Res (View.State × List Call) := do
  let (s, a) ← start rows
  let t ← Text.withLine {} (Text.writeStr mem)
  let (s, b) ← Writer.write rows s t
  .ok (s, a ++ b)

/-- `setup` of I2CLCD.ino (I2CLCD.ino 33-51): the same calls over the I2C driver, with `setEnableBacklight()` (default `true`) after
    `Initialize`. Result: the bytes for the port expander and its register. -/
def helloI2C (rows : Nat) (mem : List Nat) : Res (BitVec 8 × List (BitVec 8)) := do
  let reg ← I2C.init
  let (s, a) ← View.step rows lcd (.startUp true)
  let (s, b) ← View.step rows s (.setting (.enableDisplay true))
  let t ← Text.withLine {} (Text.writeStr mem)
  let (_, c) ← Writer.write rows s t
  I2C.run reg (a.map I2C.Op.call ++ [.backlight true] ++ (b ++ c).map I2C.Op.call)

/-- A global `LabelControl label("...")` on its own `Line<1> line(&label)` (PageController.ino 27-36): `char`s of the string. -/
def line (text : List Nat) : Panel Label := { kind := .horizontal, kids := [{ text := some (text.map fun c : Nat => toS 8 c) }] }

/-- A global `Page<rows> page(&line1, ...)` (PageController.ino 39-40, Page.h 57-83): the lines are added one by one. -/
def page (rows : Nat) (texts : List (List Nat)) : Page Label :=
  texts.foldl (fun p t => Page.add rows (line t) p) ⟨{ kind := .vertical, kids := [] }⟩

/-- The page controller after its `Add`s (PageController.ino 42-49); `MaxPages` is the number of pages. -/
def controller (rows : Nat) (pages : List (List (List Nat))) : Panel (Page Label) := { kind := .controller, kids := pages.map (page rows) }

/-- Everything that changes while the sketch runs (PageController.ino 24-42). -/
structure State where
  pages : Panel (Page Label)
  lcd : View.State

/-- `setup` (PageController.ino 44-59). -/
def setup (rows : Nat) (pages : List (List (List Nat))) : Res (State × List Call) := do
  let (s, a) ← start rows
  let p := (Panel.setFirst (controller rows pages)).2
  let (s, b) ← UILcd.calls rows s (Control.display .normal p)
  .ok (⟨p, s⟩, a ++ b)

/-- `loop` (PageController.ino 61-73). -/
def loop (rows : Nat) (x : State) : Res (State × List Call) := do
  let r := Panel.setNext x.pages
  let p := if !r.1 then (Panel.setFirst r.2).2 else r.2
  let (s, b) ← UILcd.calls rows x.lcd (Control.display .normal p)
  .ok (⟨p, s⟩, b)

/-- `setup` and `k` times `loop` (PageController.ino 44-73). -/
def program (rows : Nat) (pages : List (List (List Nat))) : Nat → Res (State × List Call)
  | 0 => setup rows pages
  | k + 1 => do
    let (x, a) ← program rows pages k
    let (x, b) ← loop rows x
    .ok (x, a ++ b)

/-- One virtual call on the display writer of the Page example, which brings its own `LcdDisplayWriter`
    (ATL_UI/examples/Page/LcdDisplayWriter.h 25-47): `Write` and `GoTo` as in `HD44780_DisplayWriter`, and a `SetCursor` that does nothing. -/
def sampleCall (rows : Nat) (s : View.State) : Out → Res (View.State × List Call)
  | .write t => Writer.write rows s (t.map (toU 8 ·))
  | .goTo l c => Writer.goTo rows s l c
  | .setCursor _ _ _ => .ok (s, [])
  | .undef => .ub

/-- A list of virtual calls on it (LcdDisplayWriter.h 25-47). -/
def sampleCalls (rows : Nat) (s : View.State) : List Out → Res (View.State × List Call)
  | [] => .ok (s, [])
  | o :: l => do
    let (a, x) ← sampleCall rows s o
    let (b, y) ← sampleCalls rows a l
    .ok (b, x ++ y)

/-- `setup` of Page.ino (Page.ino 38-47); `loop` is empty. -/
def onePage (rows : Nat) (texts : List (List Nat)) : Res (View.State × List Call) := do
  let (s, a) ← start rows
  let (s, b) ← sampleCalls rows s (Control.display .normal (page rows texts))
  .ok (s, a ++ b)

end Atl.LcdSketch
