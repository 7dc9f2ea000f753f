import Verif.Model.Port

/-!
  The pins, timer interrupts and power switches that share registers, as main code and interrupt handlers operate them (AVR/Port.h 97-121, AVR/Interrupt.h 84-127,
  AVR/PowerReduction.h 49-73, all in Source/Code/ArduinoTemplateLibrary). Each of these functions is one `|=` or `&=` on a volatile register: a load and a store. Where the compiler does not make one instruction
  of the two (TIMSK0-3 at 0x6E-0x71 and PRR0 at 0x64 are outside the range of such instructions, and so is a pin not known at compile time) a handler can
  run between them. A handler itself is not interrupted.
-/
namespace Atl.Port.Shared
open Atl.Usart (Mem setBit clearBit)

/-- What can be switched on and off (AVR/Port.h 97-121, AVR/Interrupt.h 84-127, AVR/PowerReduction.h 49-73). -/
inductive Switch where
  /-- the level of an output pin -/
  | level (port pin : Nat)
  /-- whether a pin is an output -/
  | direction (port pin : Nat)
  /-- the overflow interrupt of a timer -/
  | overflow (timer : Nat)
  /-- its compare A interrupt -/
  | compareA (timer : Nat)
  /-- its compare B interrupt -/
  | compareB (timer : Nat)
  /-- the power of a USART -/
  | power (usart : Nat)
  deriving DecidableEq, Repr

/-- A call of `Write`, `SetDirection`, `EnableCounterOverflow`, `EnableTimerCompareA`, `EnableTimerCompareB` or `setEnableUsart` (AVR/Port.h 97-121,
    AVR/Interrupt.h 84-127, AVR/PowerReduction.h 49-73). -/
structure Call where
  /-- what it switches -/
  switch : Switch
  /-- on or off -/
  on : Bool
  deriving DecidableEq, Repr

/-- An uninterrupted call: the functions of Model/Port.lean and Model/Usart.lean (AVR/Port.h 97-121, AVR/Interrupt.h 84-127, AVR/PowerReduction.h 49-73). -/
def Call.exec (c : Call) (m : Mem) : Mem :=
  match c.switch with
  | .level port pin => write port pin c.on m
  | .direction port pin => setDirection port pin c.on m
  | .overflow i => enableOverflow i c.on m
  | .compareA i => enableCompareA i c.on m
  | .compareB i => enableCompareB i c.on m
  | .power id => Usart.setEnableUsart id c.on m

/-- The register that is loaded and stored (AVR/Port.h 139-147, AVR/Interrupt.h 84-127, AVR/PowerReduction.h 43-46). -/
def Switch.addr : Switch → Nat
  | .level port _ => aPort port
  | .direction port _ => aDdr port
  | .overflow i => 0x6E + i
  | .compareA i => 0x6E + i
  | .compareB i => 0x6E + i
  | .power _ => Usart.aPRR0

/-- The value stored when `t` was loaded (AVR/Port.h 101-102, 119-120, AVR/Interrupt.h 86-95, 101-111, 116-126, AVR/PowerReduction.h 51-58, 64-71). -/
def Call.stored (c : Call) (t : BitVec 8) : BitVec 8 :=
  match c.switch with
  | .level _ pin => if c.on then t ||| mask pin else t &&& ~~~mask pin
  | .direction _ pin => if c.on then t ||| mask pin else t &&& ~~~mask pin
  | .overflow _ => if c.on then t ||| 1#8 else t &&& ~~~1#8
  | .compareA _ => if c.on then t ||| 2#8 else t &&& ~~~2#8
  | .compareB _ => if c.on then t ||| 4#8 else t &&& ~~~4#8
  | .power id => if c.on then clearBit (Usart.prUsart id) t else setBit (Usart.prUsart id) t

/-- Calls that nobody interrupts, one after another (AVR/Port.h 97-121, AVR/Interrupt.h 84-127, AVR/PowerReduction.h 49-73). -/
def handler (cs : List Call) (m : Mem) : Mem := cs.foldl (fun m c => c.exec m) m

/-- A call with the calls of handlers that run between its load and its store (AVR/Port.h 97-121, AVR/Interrupt.h 84-127, AVR/PowerReduction.h 49-73). -/
def during (c : Call) (inside : List Call) (m : Mem) : Mem :=
  let t := m c.switch.addr
  let m := handler inside m
  m.put c.switch.addr (c.stored t)

/-- Calls by main code and handlers in the order in which they start, each with the calls by handlers inside it; a call of a handler that does not
    interrupt another is an entry of its own (AVR/Port.h 97-121, AVR/Interrupt.h 84-127, AVR/PowerReduction.h 49-73). -/
def run (l : List (Call × List Call)) (m : Mem) : Mem := l.foldl (fun m x => during x.1 x.2 m) m

end Atl.Port.Shared
