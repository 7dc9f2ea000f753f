import Verif.Model.Usart

/-
  `Flush` and `Close` of AVR/UsartOutputStream.h with the transmitter and its interrupt handler running meanwhile.
-/
namespace Atl.Usart.OutSys

/-- `_buffer.Clear()` (UsartOutputStream.h 56, 101; RingBuffer.h 50-54); `mid` happens between its two stores. -/
def clearBuffer (mid : List OutEv) (y : OutSys) : Res OutSys := do
  let y ← OutSys.run { y with s := y.s.clearFirst } mid
  .ok { y with s := y.s.clearSecond }

/-- `BaseT::Flush()` (UsartOutputStream.h 57, UsartTransmit.h 93-96, 138-142): before each test of the loop the events of a list happen; `none`: not returned. -/
def waitAccept : List (List OutEv) → OutSys → Res (Option OutSys)
  | [], _ => .ok none
  | es :: ps, y => do
    let y ← y.run es
    if getAcceptData y.s.hw then .ok (some y) else waitAccept ps y

/-- `Flush` (UsartOutputStream.h 54-58). -/
def flush (mid : List OutEv) (polls : List (List OutEv)) (y : OutSys) : Res (Option OutSys) := do
  let y ← y.clearBuffer mid
  y.waitAccept polls

/-- `Close` (UsartOutputStream.h 99-103, UsartTransmit.h 184-189); `after` happens between clearing the buffer and closing the transmitter. -/
def close (mid after : List OutEv) (y : OutSys) : Res OutSys := do
  let y ← y.clearBuffer mid
  let y ← y.run after
  .ok { y with s := { y.s with hw := ((y.s.hw.bitB 6 false).bitB 5 false).bitB 3 false } }

end Atl.Usart.OutSys
