import Verif.Model.Usart

/-
  `Clear` and `Close` of AVR/UsartInputStream.h with the receiver and its interrupt handler running meanwhile.
-/
namespace Atl.Usart

namespace InStream
/-- The first store of `_buffer.Clear()` (UsartInputStream.h 59, RingBuffer.h 52). -/
def clearFirst (s : InStream) : InStream := { s with buf := { s.buf with w := 0 } }
/-- The second store (UsartInputStream.h 59, RingBuffer.h 53). -/
def clearSecond (s : InStream) : InStream := { s with buf := { s.buf with r := 0 } }
/-- `UsartReceive::Close` (UsartReceive.h 182-186). -/
def closeReceiver (s : InStream) : InStream := { s with hw := rxSetEnable false (rxSetInterrupt false s.hw) }
end InStream

namespace InSys
/-- `_buffer.Clear()` (UsartInputStream.h 59, 103); `mid` happens between its two stores. -/
def clearBuffer (mid : List InEv) (y : InSys) : Res InSys := do
  let y ← InSys.run { y with s := y.s.clearFirst } mid
  .ok { y with s := y.s.clearSecond }

/-- `BaseT::Flush()` (UsartInputStream.h 58, UsartReceive.h 107-114): before each test of the loop and before the read of the data register that follows it the events
    of a list happen; `none`: not returned. -/
def flushLoop : List (List InEv × List InEv) → InSys → Res (Option InSys)
  | [], _ => .ok none
  | (a, b) :: ps, y => do
    let y ← y.run a
    if rxComplete y.s.hw then .ok (some y) else do
      let y ← y.run b
      flushLoop ps { y with s := { y.s with hw := y.s.hw.readUDR.2 } }

/-- `Clear` (UsartInputStream.h 56-60). -/
def clear (ps : List (List InEv × List InEv)) (mid : List InEv) (y : InSys) : Res (Option InSys) := do
  match ← flushLoop ps y with
  | none => .ok none
  | some y => do
    let y ← y.clearBuffer mid
    .ok (some y)

/-- `Close` (UsartInputStream.h 101-105); `after` happens between clearing the buffer and closing the receiver. -/
def close (mid after : List InEv) (y : InSys) : Res InSys := do
  let y ← y.clearBuffer mid
  let y ← y.run after
  .ok { y with s := y.s.closeReceiver }
end InSys

end Atl.Usart
