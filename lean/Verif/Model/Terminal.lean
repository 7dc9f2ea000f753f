import Verif.Model.LcdSketch
import Verif.Model.Usart

/-!
  A serial terminal made of the library's parts: the `setup` of LCD.ino without the text (LCD.ino 27-30), then a loop that reads a character of the interrupt driven
  `UsartInputStream` (AVR/UsartInputStream.h 67-76) and, if there is one, hands it to `HD44780_View::Write` (HD44780_View.h 61-80). There is no such sketch in the repository.
  The receive handler can run at any moment; it does not touch the display, so a run inside `Write` is a run after it.
-/
namespace Atl.Terminal
open Atl.Usart Atl.Lcd

/-- The input stream, the view and the calls on the display driver so far (AVR/UsartInputStream.h 41-112, HD44780_View.h 46-202). -/
structure Sys where
  rx : InSys
  lcd : View.State
  calls : List Call

/-- One event: a frame comes in, the handler runs, or the loop goes round: `int16_t c = in.Read(); if (c != -1) view.Write((char)c);`
    (AVR/UsartInputStream.h 67-88, HD44780_View.h 61-80). -/
def Sys.step (rows : Nat) (y : Sys) : InEv → Res Sys
  | .arrive f => do let r ← y.rx.step (.arrive f); .ok { y with rx := r }
  | .isr => do let r ← y.rx.step .isr; .ok { y with rx := r }
  | .read => do
    let (s, r) ← y.rx.s.read
    if r = -1 then .ok { y with rx := { y.rx with s := s } }
    else do
      let (v, cs) ← View.write rows y.lcd (toU 8 r)
      .ok { rx := { y.rx with s := s, returned := y.rx.returned ++ [r.toNat] }, lcd := v, calls := y.calls ++ cs }

/-- A history (AVR/UsartInputStream.h 67-88, HD44780_View.h 61-80). -/
def Sys.run (rows : Nat) (y : Sys) : List InEv → Res Sys
  | [] => .ok y
  | e :: es => do let y ← Sys.step rows y e; Sys.run rows y es

/-- `setup` (LCD.ino 27-30) and a history of the loop; `g` the uninitialised buffer memory, `b` the control register when the stream is constructed. -/
def program (rows : Nat) (g : List Nat) (b : BitVec 8) (es : List InEv) : Res Sys := do
  let (s, cs) ← LcdSketch.start rows
  Sys.run rows ⟨{ s := { buf := RingBuffer.mk g, hw := { ucsrb := b } }, returned := [], kept := [] }, s, cs⟩ es

end Atl.Terminal
