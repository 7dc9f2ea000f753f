import Verif.Model.RingBuffer
/-
  Concurrent use of `RingBuffer` (RingBuffer.h 61-109): one context only calls `Write`, the other only calls
  `getLength` and, when it is not zero, `Read`.  This is how `AVR/UsartInputStream.h`
  (`OnReceiveCompleteInterrupt` writes, main reads) and `AVR/UsartOutputStream.h`
  (main writes, `OnAcceptDataInterrupt` reads) use it.

  Two models:
  * `mstep`: arbitrary interleaving of the single memory accesses of both sides, where "increment and wrap"
    (lines 71-76 and 88-93) is committed by a single store of the pointer;
  * `writeIsr` / `readIsr`: the accesses exactly as written in the source, where the other side is an
    interrupt handler that runs to completion (AVR interrupts do not nest) at any point
    between two accesses, any number of times.

  Tearing of a 16-bit pointer access by an 8-bit CPU: see `RingBufferTorn.lean`.  Not modelled: compiler reordering.
-/
namespace Atl.RingBuffer

/-! ### Interleaving of single accesses, pointers committed atomically -/

/-- Program counter of the writing side inside `Write` (RingBuffer.h 61-109). -/
inductive PSt (α : Type) where
  | idle
  | checked (v : α)   -- overrun test (64-68) passed, slot not stored yet
  | stored (v : α)    -- slot stored (70), pointer not committed yet
  deriving Repr, DecidableEq

/-- Program counter of the reading side inside `getLength` / `Read` (RingBuffer.h 61-109). -/
inductive CSt (α : Type) where
  | idle
  | loaded (ge : Bool) -- first load of `_writePtr` done, comparison of line 103 evaluated
  | ready              -- length was not zero
  | got (v : α)        -- slot loaded (87), pointer not committed yet
  deriving Repr, DecidableEq

/-- Shared memory, both program counters and the two observable histories (RingBuffer.h 61-109). -/
structure MSt (α : Type) where
  rb : RB α
  p : PSt α
  c : CSt α
  acc : List α  -- values for which `Write` stored its pointer (returns true)
  out : List α  -- values returned by `Read`
  deriving Repr, DecidableEq

/-- A schedule chooses which side performs its next access; a writer that is idle starts `Write(v)` (RingBuffer.h 61-109). -/
inductive Sched (α : Type) where
  | p (v : α)
  | c
  deriving Repr, DecidableEq

/-- One access of the chosen side. RingBuffer.h 64-76 (writer), 103-108 and 87-93 (reader). -/
def mstep (s : MSt α) : Sched α → Res (MSt α)
  | .p v => match s.p with
    | .idle => if isFull s.rb then .ok s else .ok { s with p := .checked v }
    | .checked v' => do
      let b ← cSet s.rb.buf s.rb.w v'
      .ok { s with rb := { s.rb with buf := b }, p := .stored v' }
    | .stored v' =>
      .ok { s with rb := { s.rb with w := wrap s.rb.size (s.rb.w + 1) }, p := .idle,
                   acc := s.acc ++ [v'] }
  | .c => match s.c with
    | .idle => .ok { s with c := .loaded (decide (s.rb.w ≥ s.rb.r)) }
    | .loaded ge =>
      -- second load of `_writePtr` (105 or 108)
      let len := if ge then toU 16 ((s.rb.w : Int) - s.rb.r)
                 else toU 16 ((s.rb.size : Int) - ((s.rb.r : Int) - s.rb.w))
      if len = 0 then .ok { s with c := .idle } else .ok { s with c := .ready }
    | .ready => do
      let v ← cGet s.rb.buf s.rb.r
      .ok { s with c := .got v }
    | .got v =>
      .ok { s with rb := { s.rb with r := wrap s.rb.size (s.rb.r + 1) }, c := .idle,
                   out := s.out ++ [v] }

/-- A whole schedule (RingBuffer.h 61-109). -/
def mrun (s : MSt α) : List (Sched α) → Res (MSt α)
  | [] => .ok s
  | x :: xs => do
    let s' ← mstep s x
    mrun s' xs

/-- Initial state after construction (RingBuffer.h 40-57). -/
def minit (g : List α) : MSt α := { rb := mk g, p := .idle, c := .idle, acc := [], out := [] }

/-! ### Source-level accesses with an interrupt handler that runs to completion -/

/-- State with observable histories (RingBuffer.h 61-109). -/
structure ISt (α : Type) where
  rb : RB α
  acc : List α
  out : List α
  deriving Repr, DecidableEq

/-- Initial state after construction (RingBuffer.h 40-57). -/
def iinit (g : List α) : ISt α := { rb := mk g, acc := [], out := [] }

/-- The reading side as one uninterrupted call: `if (getLength() > 0) Read()`
    (UsartOutputStream.h OnAcceptDataInterrupt; BufferedInputStream.h 43-48). -/
def consume (s : ISt α) : Res (ISt α) :=
  if getLength s.rb = 0 then .ok s
  else do
    let (rb', v) ← read s.rb
    .ok { s with rb := rb', out := s.out ++ [v] }

/-- The writing side as one uninterrupted call (RingBuffer.h 61-109). -/
def produce (s : ISt α) (v : α) : Res (ISt α) := do
  let (rb', b) ← write s.rb v
  .ok { s with rb := rb', acc := if b then s.acc ++ [v] else s.acc }

/-- `n` runs of the reading interrupt handler (RingBuffer.h 61-109). -/
def consumeN (s : ISt α) : Nat → Res (ISt α)
  | 0 => .ok s
  | n + 1 => do
    let s' ← consume s
    consumeN s' n

/-- Runs of the writing interrupt handler, one per value (RingBuffer.h 61-109). -/
def produceL (s : ISt α) : List α → Res (ISt α)
  | [] => .ok s
  | v :: vs => do
    let s' ← produce s v
    produceL s' vs

/-- Main calls `Write(v)` (RingBuffer.h 61-79); the reading interrupt occurs `n1` times after the overrun test,
    `n2` times after the slot store (70), `n3` times between `_writePtr++` (71) and the wrap (73-76).
    The value counts as accepted from the moment the pointer is incremented. -/
def writeIsr (s : ISt α) (v : α) (n1 n2 n3 : Nat) : Res (ISt α) :=
  if isFull s.rb then .ok s
  else do
    let s ← consumeN s n1
    let b ← cSet s.rb.buf s.rb.w v
    let s := { s with rb := { s.rb with buf := b } }
    let s ← consumeN s n2
    let s := { s with rb := { s.rb with w := s.rb.w + 1 }, acc := s.acc ++ [v] }
    let s ← consumeN s n3
    .ok { s with rb := { s.rb with w := wrap s.rb.size s.rb.w } }

/-- Main calls `getLength` and `Read` (RingBuffer.h 101-109, 85-96); the writing interrupt occurs with the
    values `l1` between the two loads of `_writePtr`, `l2` after the length test, `l3` after the slot
    load (87), `l4` between `_readPtr++` (88) and the wrap (90-93). -/
def readIsr (s : ISt α) (l1 l2 l3 l4 : List α) : Res (ISt α) := do
  let ge := decide (s.rb.w ≥ s.rb.r)
  let s ← produceL s l1
  let len := if ge then toU 16 ((s.rb.w : Int) - s.rb.r)
             else toU 16 ((s.rb.size : Int) - ((s.rb.r : Int) - s.rb.w))
  if len = 0 then .ok s
  else do
    let s ← produceL s l2
    let v ← cGet s.rb.buf s.rb.r
    let s ← produceL s l3
    let s := { s with rb := { s.rb with r := s.rb.r + 1 } }
    let s ← produceL s l4
    .ok { s with rb := { s.rb with r := wrap s.rb.size s.rb.r }, out := s.out ++ [v] }

/-- What main does when it is the writer: write with interruptions, or nothing while `n` interrupts occur (RingBuffer.h 61-109). -/
inductive WAct (α : Type) where
  | write (v : α) (n1 n2 n3 : Nat)
  | isr (n : Nat)
  deriving Repr, DecidableEq

/-- What main does when it is the reader: read with interruptions, or nothing while interrupts occur (RingBuffer.h 61-109). -/
inductive RAct (α : Type) where
  | read (l1 l2 l3 l4 : List α)
  | isr (l : List α)
  deriving Repr, DecidableEq

/-- A history with main as the writer (RingBuffer.h 61-109). -/
def wrun (s : ISt α) : List (WAct α) → Res (ISt α)
  | [] => .ok s
  | .write v n1 n2 n3 :: as => do let s' ← writeIsr s v n1 n2 n3; wrun s' as
  | .isr n :: as => do let s' ← consumeN s n; wrun s' as

/-- A history with main as the reader (RingBuffer.h 61-109). -/
def rrun (s : ISt α) : List (RAct α) → Res (ISt α)
  | [] => .ok s
  | .read l1 l2 l3 l4 :: as => do let s' ← readIsr s l1 l2 l3 l4; rrun s' as
  | .isr l :: as => do let s' ← produceL s l; rrun s' as

end Atl.RingBuffer
