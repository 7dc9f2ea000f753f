import Verif.Model.Usart

/-!
  The enable bits of a USART as main code and interrupt handlers change them (AVR/UsartReceive.h 59-87, AVR/UsartTransmit.h 52-133). All five are bits of
  one register, UCSRB; a setter is `Bit<i>::Set(UCSRB, bool)` (Bit.h 55-67): load, store with the bit cleared, and for `true` another load and a store with
  the bit set. UCSRB lies outside the range of the one-instruction bit operations, so a handler can run between a load and the store that
  follows it. A handler itself is not interrupted.
-/
namespace Atl.Usart.Bits

/-- What can be switched on and off (AVR/UsartReceive.h 59-79, AVR/UsartTransmit.h 52-125). -/
inductive Flag where
  /-- the receiver -/
  | receiver
  /-- the transmitter -/
  | transmitter
  /-- the interrupt at a received frame -/
  | receiveInterrupt
  /-- the interrupt when everything has been sent -/
  | completeInterrupt
  /-- the interrupt when the data register can take a byte -/
  | acceptInterrupt
  deriving DecidableEq, Repr

/-- RXEN0 (AVR/UsartReceive.h 61), TXEN0 (AVR/UsartTransmit.h 54), RXCIE0 (AVR/UsartReceive.h 78), TXCIE0 (AVR/UsartTransmit.h 107), UDRIE0 (AVR/UsartTransmit.h 124). -/
def Flag.bit : Flag → Nat
  | .receiver => 4
  | .transmitter => 3
  | .receiveInterrupt => 7
  | .completeInterrupt => 6
  | .acceptInterrupt => 5

/-- A call of one of the five setters of a USART (AVR/UsartReceive.h 59-62, 76-79; AVR/UsartTransmit.h 52-55, 105-108, 122-125). -/
structure Call where
  id : Nat
  flag : Flag
  on : Bool
  deriving DecidableEq, Repr

/-- The five getters (AVR/UsartReceive.h 67-70, 84-87; AVR/UsartTransmit.h 60-63, 113-116, 130-133). -/
def get (id : Nat) (f : Flag) (m : Mem) : Bool := isTrue f.bit (m (aUCSRB id))

/-- A setter that is not interrupted (Bit.h 55-67). -/
def set (c : Call) (m : Mem) : Mem := memBit (aUCSRB c.id) c.flag.bit c.on m

/-- An interrupt handler, or several one after another: the setters it calls (Bit.h 55-67). -/
def handler (cs : List Call) (m : Mem) : Mem := cs.foldl (fun m c => set c m) m

/-- What handlers do during a call by main code: before the first load, between it and its store, before the second load, between it and its store (Bit.h 60-66). -/
structure Gaps where
  beforeClear : List Call := []
  inClear : List Call := []
  beforeSet : List Call := []
  inSet : List Call := []
  deriving DecidableEq, Repr

/-- A setter called by main code, with handlers running during the call (Bit.h 55-67). -/
def setDuring (c : Call) (g : Gaps) (m : Mem) : Mem :=
  let a := aUCSRB c.id
  let m := handler g.beforeClear m
  let t := m a
  let m := handler g.inClear m
  let m := m.put a (clearBit c.flag.bit t)
  if c.on then
    let m := handler g.beforeSet m
    let t := m a
    let m := handler g.inSet m
    m.put a (setBit c.flag.bit t)
  else m

/-- Main code's calls one after another (AVR/UsartReceive.h 59-79, AVR/UsartTransmit.h 52-125). -/
def run (l : List (Call × Gaps)) (m : Mem) : Mem := l.foldl (fun m x => setDuring x.1 x.2 m) m

/-- Main code switches a bit off, and between the load and the store the receive handler of the application sends a byte back with `UsartOutputStream::Write`
    (AVR/UsartOutputStream.h 64-68, Bit.h 55-67). -/
def clearWhileEcho (i v : Nat) (s : OutStream) : Res OutStream := do
  let t := s.hw.readB
  let (s, _) ← s.writeBuffer v
  let s := s.enable
  .ok { s with hw := s.hw.writeB (clearBit i t) }

end Atl.Usart.Bits
