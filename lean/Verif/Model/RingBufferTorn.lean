import Verif.Model.RingBufferIsr
/-
  `RingBuffer` (RingBuffer.h 36-115) shared with an interrupt handler on an 8-bit processor: the 16-bit
  pointers `_writePtr` and `_readPtr` (lines 112-113) are loaded and stored one byte at a time, and the handler
  can run between the two bytes.  Compared with `RingBufferIsr.lean` every load and every store of a pointer the
  other side uses is split in two; which byte goes first is a parameter for loads and one for stores (it is chosen
  by the compiler).

  The state is that of `RingBufferIsr.lean` (offsets from `_buffer`); `base` is the address of `_buffer`.
  Where a half stored pointer is in memory the handler is given the address it finds there.

  Simplifications: one element takes one byte (`T = uint8_t`, as in the USART streams); the value a pointer has
  is loaded again at each evaluation in the source; a store to a slot is one byte.
-/
namespace Atl.RingBuffer

/-- Which byte of a pointer is accessed first (the accesses to `_readPtr`, `_writePtr` in RingBuffer.h 61-109). -/
structure Order where
  loadLow : Bool
  storeLow : Bool
  deriving Repr, DecidableEq

/-- A 16-bit load in two steps: `p1` is the pointer in memory at the first one, `p2` at the second one (the accesses to `_readPtr`, `_writePtr` in RingBuffer.h 61-109). -/
def tornLoad (low : Bool) (p1 p2 : Nat) : Nat :=
  if low then p1 % 256 + 256 * (p2 / 256) else p2 % 256 + 256 * (p1 / 256)

/-- What is in memory after the first step of storing `new` over `old` (the accesses to `_readPtr`, `_writePtr` in RingBuffer.h 61-109). -/
def tornStore (low : Bool) (old new : Nat) : Nat :=
  if low then new % 256 + 256 * (old / 256) else old % 256 + 256 * (new / 256)

/-- The overrun test of `Write`, RingBuffer.h 64-68, with the address `rv` found in `_readPtr`. -/
def isFullAt (base : Nat) (s : RB α) (rv : Nat) : Bool :=
  if s.w + 1 ≥ s.size then decide (base = rv) else decide (base + s.w + 1 = rv)

/-- `getLength`, RingBuffer.h 101-109, with the addresses found in `_writePtr` at its two evaluations. -/
def lengthAt (base : Nat) (s : RB α) (wv1 wv2 : Nat) : Nat :=
  if wv1 ≥ base + s.r then toU 16 ((wv2 : Int) - (base + s.r : Nat))
  else toU 16 ((s.size : Int) - (((base + s.r : Nat) : Int) - wv2))

/-- The reading handler (`if (getLength() > 0) Read()`) while `_writePtr` holds the address `wv`. -/
def consumeAt (base wv : Nat) (s : ISt α) : Res (ISt α) :=
  if lengthAt base s.rb wv wv = 0 then .ok s
  else do
    let (rb', v) ← read s.rb
    .ok { s with rb := rb', out := s.out ++ [v] }

/-- `n` runs of the reading handler while `_writePtr` holds the address `wv` (the accesses to `_readPtr`, `_writePtr` in RingBuffer.h 61-109). -/
def consumeAtN (base wv : Nat) (s : ISt α) : Nat → Res (ISt α)
  | 0 => .ok s
  | n + 1 => do
    let s' ← consumeAt base wv s
    consumeAtN base wv s' n

/-- The writing handler (`Write(v)`, RingBuffer.h 61-79) while `_readPtr` holds the address `rv`. -/
def produceAt (base rv : Nat) (s : ISt α) (v : α) : Res (ISt α) :=
  if isFullAt base s.rb rv then .ok s
  else do
    let b ← cSet s.rb.buf s.rb.w v
    .ok { s with rb := { s.rb with buf := b, w := wrap s.rb.size (s.rb.w + 1) }, acc := s.acc ++ [v] }

/-- Runs of the writing handler while `_readPtr` holds the address `rv` (the accesses to `_readPtr`, `_writePtr` in RingBuffer.h 61-109). -/
def produceAtL (base rv : Nat) (s : ISt α) : List α → Res (ISt α)
  | [] => .ok s
  | v :: vs => do
    let s' ← produceAt base rv s v
    produceAtL base rv s' vs

/-- How often the reading handler runs in the gaps of one `Write`: between the two byte loads of `_readPtr`
    (`load`), after the overrun test (`test`), after the slot store (`slot`), between the two byte stores of
    `_writePtr++` (`inc`), after it (`past`), and between the two byte stores of the wrap (`wrap`) (the accesses to `_readPtr`, `_writePtr` in RingBuffer.h 61-109). -/
structure WGaps where
  load : Nat := 0
  test : Nat := 0
  slot : Nat := 0
  inc : Nat := 0
  past : Nat := 0
  wrap : Nat := 0
  deriving Repr, DecidableEq

/-- Main calls `Write(v)` (RingBuffer.h 61-79); the result is what the call returns.  The value counts as
    accepted from the first byte of the incremented pointer on. -/
def writeTorn (o : Order) (base : Nat) (s : ISt α) (v : α) (g : WGaps) : Res (ISt α × Bool) := do
  let r1 := base + s.rb.r
  let s ← consumeN s g.load
  let r2 := base + s.rb.r
  if isFullAt base s.rb (tornLoad o.loadLow r1 r2) then .ok (s, false)
  else do
    let s ← consumeN s g.test
    let b ← cSet s.rb.buf s.rb.w v
    let s := { s with rb := { s.rb with buf := b } }
    let s ← consumeN s g.slot
    let s := { s with acc := s.acc ++ [v] }
    let s ← consumeAtN base (tornStore o.storeLow (base + s.rb.w) (base + s.rb.w + 1)) s g.inc
    let s := { s with rb := { s.rb with w := s.rb.w + 1 } }
    let s ← consumeN s g.past
    if s.rb.w ≥ s.rb.size then do
      let s ← consumeAtN base (tornStore o.storeLow (base + s.rb.w) base) s g.wrap
      .ok ({ s with rb := { s.rb with w := 0 } }, true)
    else .ok (s, true)

/-- What the writing handler is given in the gaps of one `getLength` and `Read`: between the bytes of the first
    load of `_writePtr` (`load1`), before (`between`) and inside (`load2`) the second one, after the length test
    (`test`), after the slot load (`slot`), between the bytes of `_readPtr++` (`inc`), after it (`past`), between
    the bytes of the wrap (`wrap`) (the accesses to `_readPtr`, `_writePtr` in RingBuffer.h 61-109). -/
structure RGaps (α : Type) where
  load1 : List α := []
  between : List α := []
  load2 : List α := []
  test : List α := []
  slot : List α := []
  inc : List α := []
  past : List α := []
  wrap : List α := []
  deriving Repr, DecidableEq

/-- Main calls `getLength` (RingBuffer.h 101-109): the state afterwards and the result. -/
def lengthTorn (o : Order) (base : Nat) (s : ISt α) (g : RGaps α) : Res (ISt α × Nat) := do
  let w1 := base + s.rb.w
  let s ← produceL s g.load1
  let w2 := base + s.rb.w
  let s ← produceL s g.between
  let w3 := base + s.rb.w
  let s ← produceL s g.load2
  let w4 := base + s.rb.w
  .ok (s, lengthAt base s.rb (tornLoad o.loadLow w1 w2) (tornLoad o.loadLow w3 w4))

/-- Main calls `getLength` and, when it is not zero, `Read` (RingBuffer.h 85-96). -/
def readTorn (o : Order) (base : Nat) (s : ISt α) (g : RGaps α) : Res (ISt α) := do
  let (s, len) ← lengthTorn o base s g
  if len = 0 then .ok s
  else do
    let s ← produceL s g.test
    let v ← cGet s.rb.buf s.rb.r
    let s ← produceL s g.slot
    let s ← produceAtL base (tornStore o.storeLow (base + s.rb.r) (base + s.rb.r + 1)) s g.inc
    let s := { s with rb := { s.rb with r := s.rb.r + 1 } }
    let s ← produceL s g.past
    if s.rb.r ≥ s.rb.size then do
      let s ← produceAtL base (tornStore o.storeLow (base + s.rb.r) base) s g.wrap
      .ok { s with rb := { s.rb with r := 0 }, out := s.out ++ [v] }
    else .ok { s with out := s.out ++ [v] }

/-- What main does when it is the writer (the accesses to `_readPtr`, `_writePtr` in RingBuffer.h 61-109). -/
inductive WTAct (α : Type) where
  | write (v : α) (g : WGaps)
  | isr (n : Nat)
  deriving Repr, DecidableEq

/-- What main does when it is the reader (the accesses to `_readPtr`, `_writePtr` in RingBuffer.h 61-109). -/
inductive RTAct (α : Type) where
  | read (g : RGaps α)
  | isr (l : List α)
  deriving Repr, DecidableEq

/-- A history with main as the writer (the accesses to `_readPtr`, `_writePtr` in RingBuffer.h 61-109). -/
def wtrun (o : Order) (base : Nat) (s : ISt α) : List (WTAct α) → Res (ISt α)
  | [] => .ok s
  | .write v g :: as => do let (s', _) ← writeTorn o base s v g; wtrun o base s' as
  | .isr n :: as => do let s' ← consumeN s n; wtrun o base s' as

/-- A history with main as the reader (the accesses to `_readPtr`, `_writePtr` in RingBuffer.h 61-109). -/
def rtrun (o : Order) (base : Nat) (s : ISt α) : List (RTAct α) → Res (ISt α)
  | [] => .ok s
  | .read g :: as => do let s' ← readTorn o base s g; rtrun o base s' as
  | .isr l :: as => do let s' ← produceL s l; rtrun o base s' as

end Atl.RingBuffer
