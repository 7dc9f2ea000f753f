import Verif.Model.Usart

/-
  Model of the buffered USART streams for any data type `T` of the buffer: UsartInputStream.h 42-112 and UsartOutputStream.h 42-107 say
  "for 9 data bits int16_t should be used". `Model/Usart.lean` has the default, `uint8_t`.
-/
namespace Atl.Usart

namespace InStream
/-- `OnIsCompleteInterrupt` (UsartInputStream.h 81-88) with a `T` of `w` bits: the cast keeps the low `w` bits (a frame has nine). -/
def isrT (w : Nat) (s : InStream) : Res InStream :=
  let r := getResult s.hw
  let d := readInternal s.hw
  if r = .success then do
    let (b, _) ← RingBuffer.write s.buf (d.1 % 2 ^ w)
    .ok { buf := b, hw := d.2 }
  else .ok { s with hw := d.2 }

/-- One event and what `Read` (UsartInputStream.h 67-76) returned, if the event is a call of it. The hardware as in `InSys.step`. -/
def stepT (w : Nat) (s : InStream) : InEv → Res (InStream × List Int)
  | .arrive f => .ok (if isTrue 4 s.hw.ucsrb && decide (s.hw.rx.length < 3) then { s with hw := { s.hw with rx := s.hw.rx ++ [f] } } else s, [])
  | .isr => if isTrue 7 s.hw.ucsrb && rxComplete s.hw then do
      let s ← s.isrT w
      .ok (s, [])
    else .ok (s, [])
  | .read => do
    let (s, r) ← s.read
    .ok (s, [r])

/-- A history: the results of the `Read` calls (AVR/UsartInputStream.h 48-90). -/
def runT (w : Nat) (s : InStream) : List InEv → Res (InStream × List Int)
  | [] => .ok (s, [])
  | e :: es => do
    let (s, r) ← s.stepT w e
    let (s, rs) ← s.runT w es
    .ok (s, r ++ rs)
end InStream

/-- A call of `UsartOutputStream::Write(uint8_t data)` (UsartOutputStream.h 64-68) with a value of nine bits: whatever `T` is, the parameter has eight. -/
def writeNine (data : Nat) : OutEv := .write (BitVec.ofNat 8 data)

end Atl.Usart
