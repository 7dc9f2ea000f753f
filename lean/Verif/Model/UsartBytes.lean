import Verif.Model.UsartDuplex
import Verif.Model.RingBufferTorn
/-
  Both interrupt driven USART streams on one USART (`AVR/UsartOutputStream.h`, `AVR/UsartInputStream.h`) on an 8-bit
  processor.  Compared with `UsartDuplex.lean` the pointers of both ring buffers (RingBuffer.h 112-113) are addresses in
  memory, loaded and stored one byte at a time; a handler can run between the two bytes and then works with the
  address it finds.  Which byte goes first is a parameter for loads and one for stores.

  Simplifications: T = uint8_t; a pointer only main code changes is loaded by main code undivided (no handler can
  interfere); handlers run to completion; `lim` is the number of times the handler of a stream can run from the
  first byte of an incremented pointer to the end of the `RingBuffer` call (a few instructions; a frame takes
  hundreds).
-/
namespace Atl.Usart
open Atl.RingBuffer

/-- `RingBuffer` (RingBuffer.h 36-115) with the address of `_buffer` and the addresses in `_writePtr` and `_readPtr`. -/
structure Ring where
  base : Nat
  size : Nat
  buf : List Nat
  wp : Nat
  rp : Nat
  deriving Repr, DecidableEq

namespace Ring

/-- The constructor (RingBuffer.h 42-54) over uninitialised memory at `base`. -/
def mk' (base : Nat) (g : List Nat) : Ring := { base := base, size := g.length, buf := g, wp := base, rp := base }

/-- The overrun test of `Write` (RingBuffer.h 64-68) with the address `rv` loaded from `_readPtr`. -/
def isFull (b : Ring) (rv : Nat) : Bool :=
  if b.wp + 1 ≥ b.base + b.size then decide (b.base = rv) else decide (b.wp + 1 = rv)

/-- `getLength` (RingBuffer.h 101-109): `ge` the result of the comparison, `wv` the address loaded from `_writePtr` for the subtraction. -/
def lengthOf (b : Ring) (ge : Bool) (wv : Nat) : Nat :=
  if ge then toU 16 ((wv : Int) - b.rp) else toU 16 ((b.size : Int) - ((b.rp : Int) - wv))

/-- `getLength` without interruption (RingBuffer.h 101-109). -/
def length (b : Ring) : Nat := b.lengthOf (decide (b.wp ≥ b.rp)) b.wp

/-- `*_readPtr` (RingBuffer.h 87). -/
def get (b : Ring) : Res Nat := if b.rp < b.base then .ub else cGet b.buf (b.rp - b.base)

/-- `*_writePtr = value` (RingBuffer.h 70). -/
def put (b : Ring) (v : Nat) : Res Ring :=
  if b.wp < b.base then .ub else do
    let x ← cSet b.buf (b.wp - b.base) v
    .ok { b with buf := x }

/-- The wrap of a pointer (RingBuffer.h 73-76, 90-93). -/
def wrap (b : Ring) (p : Nat) : Nat := if p ≥ b.base + b.size then b.base else p

/-- `Read` without interruption (RingBuffer.h 85-96). -/
def read (b : Ring) : Res (Ring × Nat) := do
  let v ← b.get
  .ok ({ b with rp := b.wrap (b.rp + 1) }, v)

/-- `Write` without interruption (RingBuffer.h 61-79). -/
def write (b : Ring) (v : Nat) : Res (Ring × Bool) :=
  if b.isFull b.rp then .ok (b, false) else do
    let b ← b.put v
    .ok ({ b with wp := b.wrap (b.wp + 1) }, true)

end Ring

/-- Where main code is (AVR/UsartOutputStream.h 64-86, AVR/UsartInputStream.h 64-90, RingBuffer.h 61-109). -/
inductive BPc where
  | idle
  /-- in `Write`: one byte of `_readPtr` loaded for the overrun test (64-68), when it held `r1` -/
  | wTest (v : Nat) (r1 : Nat)
  /-- overrun test passed (64-68) -/
  | wChecked (v : Nat)
  /-- slot stored (70) -/
  | wStored (v : Nat)
  /-- one byte of the incremented `_writePtr`, `new`, stored (71); the handler has run `k` times since -/
  | wInc (new : Nat) (k : Nat)
  /-- `_writePtr++` done (71), comparison and wrap (73-76) to come -/
  | wPast (k : Nat)
  /-- one byte of the wrapped `_writePtr` stored (75) -/
  | wWrap (k : Nat)
  /-- in `Bit<i>::Set`: 5 (UDRIE) at the end of `Write`, 7 (RXCIE) at the end of a `Read` of nothing -/
  | rmw (i : Nat) (p : Rmw)
  /-- in `getLength`: one byte of `_writePtr` loaded for the comparison (103), when it held `w1` -/
  | rTest1 (w1 : Nat)
  /-- `_writePtr >= _readPtr` evaluated (103) -/
  | rLoaded (ge : Bool)
  /-- one byte of `_writePtr` loaded for the subtraction (105, 108), when it held `w1` -/
  | rTest2 (ge : Bool) (w1 : Nat)
  /-- length not zero -/
  | rReady
  /-- slot loaded (87) -/
  | rGot (v : Nat)
  /-- one byte of the incremented `_readPtr`, `new`, stored (88); the handler has run `k` times since -/
  | rInc (v : Nat) (new : Nat) (k : Nat)
  /-- `_readPtr++` done (88), comparison and wrap (90-93) to come -/
  | rPast (v : Nat) (k : Nat)
  /-- one byte of the wrapped `_readPtr` stored (92) -/
  | rWrap (v : Nat) (k : Nat)
  deriving DecidableEq, Repr

/-- Both streams, with the same history as `Duplex` (AVR/UsartOutputStream.h 64-86, AVR/UsartInputStream.h 64-90). -/
structure Bytes where
  out : Ring
  inn : Ring
  hw : Hw
  pc : BPc
  accepted : List Nat
  returned : List Nat
  kept : List Frame
  asked : Bool
  lost : Nat

namespace Bytes

/-- The next access of main code (AVR/UsartOutputStream.h 64-86, AVR/UsartInputStream.h 64-90, RingBuffer.h 61-109, Bit.h 38-117). -/
def main (o : Order) (d : Bytes) : Res Bytes :=
  match d.pc with
  | .idle => .ok d
  | .wTest v r1 =>
    .ok { d with pc := if d.out.isFull (tornLoad o.loadLow r1 d.out.rp) then .rmw 5 .start else .wChecked v }
  | .wChecked v => do
    let b ← d.out.put v
    .ok { d with out := b, pc := .wStored v }
  | .wStored v => .ok { d with out := { d.out with wp := tornStore o.storeLow d.out.wp (d.out.wp + 1) },
                               accepted := d.accepted ++ [v], pc := .wInc (d.out.wp + 1) 0 }
  | .wInc new k => .ok { d with out := { d.out with wp := tornStore (!o.storeLow) d.out.wp new }, pc := .wPast k }
  | .wPast k =>
    if d.out.wp ≥ d.out.base + d.out.size then
      .ok { d with out := { d.out with wp := tornStore o.storeLow d.out.wp d.out.base }, pc := .wWrap k }
    else .ok { d with pc := .rmw 5 .start }
  | .wWrap _ => .ok { d with out := { d.out with wp := tornStore (!o.storeLow) d.out.wp d.out.base }, pc := .rmw 5 .start }
  | .rmw i .start => .ok { d with pc := .rmw i (.loaded1 d.hw.readB) }
  | .rmw i (.loaded1 v) => .ok { d with hw := d.hw.writeB (clearBit i v), pc := .rmw i .cleared }
  | .rmw i .cleared => .ok { d with pc := .rmw i (.loaded2 d.hw.readB) }
  | .rmw i (.loaded2 v) => .ok { d with hw := d.hw.writeB (setBit i v), pc := .idle, asked := d.asked || i == 7 }
  | .rTest1 w1 => .ok { d with pc := .rLoaded (decide (tornLoad o.loadLow w1 d.inn.wp ≥ d.inn.rp)) }
  | .rLoaded ge => .ok { d with pc := .rTest2 ge d.inn.wp }
  | .rTest2 ge w1 =>
    .ok { d with pc := if d.inn.lengthOf ge (tornLoad o.loadLow w1 d.inn.wp) = 0 then .rmw 7 .start else .rReady }
  | .rReady => do
    let v ← d.inn.get
    .ok { d with pc := .rGot v }
  | .rGot v => .ok { d with inn := { d.inn with rp := tornStore o.storeLow d.inn.rp (d.inn.rp + 1) }, pc := .rInc v (d.inn.rp + 1) 0 }
  | .rInc v new k => .ok { d with inn := { d.inn with rp := tornStore (!o.storeLow) d.inn.rp new }, pc := .rPast v k }
  | .rPast v k =>
    if d.inn.rp ≥ d.inn.base + d.inn.size then
      .ok { d with inn := { d.inn with rp := tornStore o.storeLow d.inn.rp d.inn.base }, pc := .rWrap v k }
    else .ok { d with returned := d.returned ++ [v], pc := .idle }
  | .rWrap v _ => .ok { d with inn := { d.inn with rp := tornStore (!o.storeLow) d.inn.rp d.inn.base },
                               returned := d.returned ++ [v], pc := .idle }

/-- `OnAcceptDataInterrupt` (AVR/UsartOutputStream.h 74-86). -/
def txHandler (b : Ring) (h : Hw) : Res (Ring × Hw) :=
  if b.length ≠ 0 then do
    let (b, v) ← b.read
    .ok (b, writeInternal v h)
  else .ok (b, h.bitB 5 false)

/-- `OnIsCompleteInterrupt` (AVR/UsartInputStream.h 81-88). -/
def rxHandler (b : Ring) (h : Hw) : Res (Ring × Hw) :=
  let r := getResult h
  let d := readInternal h
  if r = .success then do
    let (b, _) ← b.write (d.1 % 256)
    .ok (b, d.2)
  else .ok (b, d.2)

/-- How often the handler of the output stream has run since the first byte of a new pointer, while main code is not done with it (RingBuffer.h 71-76). -/
def txWindow : BPc → Option Nat
  | .wInc _ k | .wPast k | .wWrap k => some k
  | _ => none
/-- The same for the input stream (RingBuffer.h 88-93). -/
def rxWindow : BPc → Option Nat
  | .rInc _ _ k | .rPast _ k | .rWrap _ k => some k
  | _ => none

/-- The handler of the output stream has run (RingBuffer.h 71-76). -/
def txPc : BPc → BPc
  | .wInc n k => .wInc n (k + 1)
  | .wPast k => .wPast (k + 1)
  | .wWrap k => .wWrap (k + 1)
  | x => x
/-- The handler of the input stream has run (RingBuffer.h 88-93). -/
def rxPc : BPc → BPc
  | .rInc v n k => .rInc v n (k + 1)
  | .rPast v k => .rPast v (k + 1)
  | .rWrap v k => .rWrap v (k + 1)
  | x => x

/-- One event; an event that cannot occur changes nothing (AVR/UsartOutputStream.h 64-86, AVR/UsartInputStream.h 64-90). -/
def step (o : Order) (lim : Nat) (d : Bytes) : DEv → Res Bytes
  | .write v => match d.pc with
    | .idle => .ok { d with pc := .wTest v.toNat d.out.rp }
    | _ => .ok d
  | .read => match d.pc with
    | .idle => .ok { d with pc := .rTest1 d.inn.wp }
    | _ => .ok d
  | .main => d.main o
  | .txIsr =>
    if isTrue 5 d.hw.ucsrb && getAcceptData d.hw && (txWindow d.pc).all (· < lim) then do
      let (b, h) ← txHandler d.out d.hw
      .ok { d with out := b, hw := h, pc := txPc d.pc }
    else .ok d
  | .rxIsr =>
    if isTrue 7 d.hw.ucsrb && rxComplete d.hw && (rxWindow d.pc).all (· < lim) then do
      let (b, h) ← rxHandler d.inn d.hw
      .ok { d with inn := b, hw := h, pc := rxPc d.pc,
                      lost := if getResult d.hw = .success ∧ d.inn.isFull d.inn.rp = true then d.lost + 1 else d.lost }
    else .ok d
  | .arrive f => .ok (if isTrue 4 d.hw.ucsrb && decide (d.hw.rx.length < 3) then
      { d with hw := { d.hw with rx := d.hw.rx ++ [f] }, kept := d.kept ++ [f] } else d)
  | .frame => .ok { d with hw := d.hw.frameTime }
  | .load => .ok { d with hw := d.hw.load }

/-- A history (AVR/UsartOutputStream.h 64-86, AVR/UsartInputStream.h 64-90). -/
def run (o : Order) (lim : Nat) (d : Bytes) : List DEv → Res Bytes
  | [] => .ok d
  | e :: es => do let d ← step o lim d e; run o lim d es

/-- Both streams just constructed over uninitialised memory at the addresses `p1` and `p2`, nothing being sent or received; `b` any control register
    (AVR/UsartOutputStream.h 64-86, AVR/UsartInputStream.h 64-90). -/
def init (p1 p2 : Nat) (g1 g2 : List Nat) (b : BitVec 8) : Bytes :=
  { out := Ring.mk' p1 g1, inn := Ring.mk' p2 g2, hw := { ucsrb := b }, pc := .idle,
    accepted := [], returned := [], kept := [], asked := false, lost := 0 }

end Bytes
end Atl.Usart
