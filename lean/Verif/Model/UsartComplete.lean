import Verif.Model.Usart

/-
  Model of the transmit complete functions of AVR/UsartTransmit.h over the USART of Model/Usart.lean with its TXC flag (data sheet: set when
  the shift register has run empty and no new data waits in the transmit buffer; cleared by executing the transmit complete
  interrupt or by writing one to it; writing UDR does not change it).
-/
namespace Atl.Usart

/-- The USART and its TXC0 flag (the flag TXC0 read by AVR/UsartTransmit.h 68-81). -/
structure TxPort where
  hw : Hw
  txc : Bool
  deriving DecidableEq, Repr

namespace TxPort

/-- After reset: nothing to send, TXC0 = 0 (data sheet) (the flag TXC0 read by AVR/UsartTransmit.h 68-81). -/
def reset (b : BitVec 8) : TxPort := { hw := { ucsrb := b }, txc := false }

/-- Reading UCSRA with TXC0 = 6 (the flag TXC0 read by AVR/UsartTransmit.h 68-81). -/
def readA (p : TxPort) : BitVec 8 := if p.txc then setBit 6 p.hw.readA else p.hw.readA

/-- One frame time; TXC0 is set if the frame just sent was the last one (the flag TXC0 read by AVR/UsartTransmit.h 68-81). -/
def frame (p : TxPort) : TxPort := { hw := p.hw.frameTime, txc := p.txc || (p.hw.shift.isSome && p.hw.tx.isNone) }

/-- An idle shift register takes the buffer (the flag TXC0 read by AVR/UsartTransmit.h 68-81). -/
def load (p : TxPort) : TxPort := { p with hw := p.hw.load }

/-- The transmit complete interrupt (TXCIE0 = 6): executing the vector clears the flag. -/
def vector (p : TxPort) : TxPort := if isTrue 6 p.hw.ucsrb && p.txc then { p with txc := false } else p

/-- `getIsComplete` (UsartTransmit.h 67-70). -/
def getIsComplete (p : TxPort) : Bool := isTrue 6 p.readA

/-- `getAcceptData` (UsartTransmit.h 86-89). -/
def getAcceptData (p : TxPort) : Bool := isTrue 5 p.readA

/-- `WaitIsComplete` (UsartTransmit.h 75-78), one frame time per round; `none`: not returned. -/
def waitIsComplete : Nat → TxPort → Option TxPort
  | 0, _ => none
  | f + 1, p => if p.getIsComplete then some p else waitIsComplete f p.frame

/-- `WaitAcceptData` (UsartTransmit.h 94-97), likewise. -/
def waitAcceptData : Nat → TxPort → Option TxPort
  | 0, _ => none
  | f + 1, p => if p.getAcceptData then some p else waitAcceptData f p.frame

/-- `Write` (UsartTransmit.h 147-152). -/
def write (fuel data : Nat) (p : TxPort) : Option TxPort :=
  (waitAcceptData fuel p).map fun p => { p with hw := writeInternal data p.hw }

/-- `TryWrite` (UsartTransmit.h 160-171). -/
def tryWrite (data : Nat) (p : TxPort) : TxPort × Bool :=
  if !p.getAcceptData then (p, false) else ({ p with hw := writeInternal data p.hw }, true)

/-- What can happen (AVR/UsartTransmit.h 68-170). -/
inductive Ev where
  | tryWrite (v : BitVec 8)
  | frame
  | load
  deriving DecidableEq, Repr

/-- One event (AVR/UsartTransmit.h 68-170). -/
def step (p : TxPort) : Ev → TxPort
  | .tryWrite v => (p.tryWrite v.toNat).1
  | .frame => p.frame
  | .load => p.load

/-- A history without the transmit complete interrupt (AVR/UsartTransmit.h 68-170). -/
def run (p : TxPort) (es : List Ev) : TxPort := es.foldl step p

end TxPort
end Atl.Usart
