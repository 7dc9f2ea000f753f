import Verif.Model.Basic
/-
  Model of `RingBuffer.h` (class RingBuffer<T, Size>, lines 36-115) and
  `BufferedInputStream.h` (class BufferedInputStream<BaseT>, lines 35-50).

  The two pointers `_writePtr`, `_readPtr` are modelled by their offsets from `_buffer`.
  All accesses through them are bounds checked (`Res.ub`).
-/
namespace Atl.RingBuffer

/-- State of a `RingBuffer<T,Size>`: RingBuffer.h 111-114 (`_buffer`, `_writePtr`, `_readPtr`). -/
structure RB (α : Type) where
  size : Nat
  buf : List α
  w : Nat
  r : Nat
  deriving Repr, DecidableEq

/-- Construction, RingBuffer.h 42-45 (calls `Clear`).  The content of `_buffer` is not initialised:
    it is an arbitrary list of `Size` values. -/
def mk (garbage : List α) : RB α := { size := garbage.length, buf := garbage, w := 0, r := 0 }

/-- `Clear`, RingBuffer.h 50-54. -/
def clear (s : RB α) : RB α := { s with w := 0, r := 0 }

/-- The overrun test of `Write`, RingBuffer.h 64-68. -/
def isFull (s : RB α) : Bool :=
  if s.w + 1 ≥ s.size then decide (0 = s.r) else decide (s.w + 1 = s.r)

/-- Pointer wrap, RingBuffer.h 73-76 and 90-93. -/
def wrap (size p : Nat) : Nat := if p ≥ size then 0 else p

/-- `Write`, RingBuffer.h 61-79. -/
def write (s : RB α) (v : α) : Res (RB α × Bool) :=
  if isFull s then .ok (s, false)
  else do
    let b ← cSet s.buf s.w v
    .ok ({ s with buf := b, w := wrap s.size (s.w + 1) }, true)

/-- `Read`, RingBuffer.h 85-96 (no underrun protection). -/
def read (s : RB α) : Res (RB α × α) := do
  let v ← cGet s.buf s.r
  .ok ({ s with r := wrap s.size (s.r + 1) }, v)

/-- `getLength`, RingBuffer.h 101-109 (result type `uint16_t`). -/
def getLength (s : RB α) : Nat :=
  if s.w ≥ s.r then toU 16 ((s.w : Int) - s.r) else toU 16 ((s.size : Int) - ((s.r : Int) - s.w))

/-- `BufferedInputStream::Read`, BufferedInputStream.h 41-49, for `T = uint8_t` (value range of the
    byte is kept in the type `Fin 256`, so the cast to `int16_t` is value preserving). -/
def bisRead (s : RB (Fin 256)) : Res (RB (Fin 256) × Int) :=
  if getLength s = 0 then .ok (s, -1)
  else do
    let (s', v) ← read s
    .ok (s', (v.val : Int))

/-- Operations a client can call on a ring buffer (RingBuffer.h 50-109). -/
inductive Op (α : Type) where
  | write (v : α)
  | read
  | clear
  | length
  deriving Repr, DecidableEq

/-- What a client observes (RingBuffer.h 50-109). -/
inductive Out (α : Type) where
  | accepted (b : Bool)
  | value (v : α)
  | cleared
  | len (n : Nat)
  deriving Repr, DecidableEq

/-- One client call (RingBuffer.h 50-109). -/
def step (s : RB α) : Op α → Res (RB α × Out α)
  | .write v => do let (s', b) ← write s v; .ok (s', .accepted b)
  | .read => do let (s', v) ← read s; .ok (s', .value v)
  | .clear => .ok (clear s, .cleared)
  | .length => .ok (s, .len (getLength s))

/-- A history of client calls, returning all observations (RingBuffer.h 50-109). -/
def run (s : RB α) : List (Op α) → Res (RB α × List (Out α))
  | [] => .ok (s, [])
  | o :: os => do
    let (s', x) ← step s o
    let (s'', xs) ← run s' os
    .ok (s'', x :: xs)

/-- Calls on a buffered input stream: `Write` comes from the ring buffer base class (BufferedInputStream.h 34-50). -/
inductive BOp where
  | write (v : Fin 256)
  | read
  deriving Repr, DecidableEq

/-- What the caller of the buffered stream sees (BufferedInputStream.h 34-50). -/
inductive BOut where
  | accepted (b : Bool)
  | got (n : Int)
  deriving Repr, DecidableEq

/-- One call on the buffered stream (BufferedInputStream.h 34-50). -/
def bstep (s : RB (Fin 256)) : BOp → Res (RB (Fin 256) × BOut)
  | .write v => do let (s', b) ← write s v; .ok (s', .accepted b)
  | .read => do let (s', n) ← bisRead s; .ok (s', .got n)

/-- A history of calls on the buffered stream (BufferedInputStream.h 34-50). -/
def brun (s : RB (Fin 256)) : List BOp → Res (RB (Fin 256) × List BOut)
  | [] => .ok (s, [])
  | o :: os => do
    let (s', x) ← bstep s o
    let (s'', xs) ← brun s' os
    .ok (s'', x :: xs)

end Atl.RingBuffer
