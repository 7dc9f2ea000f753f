import Verif.Model.LcdSketch
import Verif.Model.TextUsart

/-!
  The `LCD` of LCD.ino (ATL_HD44780/examples/LCD/LCD.ino 6-19: a `TextWriter` on an `HD44780_View`) as a console: after `setup` up to the display being on, any
  sequence of `WriteLine` calls with strings and numbers (TextWriter.h 175-226), whose characters go to `HD44780_View::Write` (HD44780_View.h 61-80).
-/
namespace Atl.LcdConsole
open Atl.Lcd Atl.TextSketch Atl.Text

/-- `Initialize(true); setEnableDisplay();` and the `WriteLine` calls (LCD.ino 27-33, TextWriter.h 175-226); the calls on the driver. -/
def program (rows : Nat) (rnd : Rat → Rat) (f : Format) (items : List Item) : Res (View.State × List Call) := do
  let (s, a) ← LcdSketch.start rows
  let t ← TextUsart.lines rnd f items
  let (s, b) ← Writer.write rows s t
  .ok (s, a ++ b)

end Atl.LcdConsole
