import Verif.Model.UI
import Verif.Model.Lcd

/-
  A page on an HD44780 display: the virtual methods of `DisplayWriter` (DisplayWriter.h 34-65) that the controls call are those of
  `HD44780_DisplayWriter` (HD44780_DisplayWriter.h 40-93).
-/
namespace Atl.UILcd
open Atl.Lcd

/-- One virtual call (DisplayWriter.h 43-60); a `char` is passed on as a byte (HD44780_View.h 61). -/
def call (rows : Nat) (s : View.State) : UI.Out → Res (View.State × List Call)
  | .write t => Writer.write rows s (t.map (toU 8 ·))
  | .goTo l c => Writer.goTo rows s l c
  | .setCursor l c e => Writer.setCursor rows s l c e
  | .undef => .ub

/-- A list of virtual calls (DisplayWriter.h 43-60). -/
def calls (rows : Nat) (s : View.State) : List UI.Out → Res (View.State × List Call)
  | [] => .ok (s, [])
  | o :: l => do
    let (a, x) ← call rows s o
    let (b, y) ← calls rows a l
    .ok (b, x ++ y)

end Atl.UILcd
