import Verif.Model.RingBuffer

/-
  One `RingBuffer` used by main code and by interrupt handlers in both directions: both call `Write`, and both call `Read` when `getLength` is not zero (as in
  BufferedInputStream.h 41-49 and AVR/UsartOutputStream.h 74-86). Calls of main code run access by access; a handler makes whole calls and is not interrupted. The members are
  not volatile: `keep` says whether the compiler keeps the pointer it has loaded at the start of a call, or loads it again for each use. Simplified: the overrun test and
  `getLength` are one step each, and a pointer is incremented and wrapped in one step (taken apart for one writer and one reader in `RingBufferIsr.lean`, `RingBufferTorn.lean`).
-/
namespace Atl.RingBufferShared
open Atl.RingBuffer

/-- A call: `Write(v)` (RingBuffer.h 61-79), or `Read` when the buffer is not empty (RingBuffer.h 85-109, BufferedInputStream.h 41-49). -/
inductive Call (α : Type) where
  | put (v : α)
  | take
  deriving Repr, DecidableEq

/-- What a call returns (RingBuffer.h 61-96; `none`: not read, BufferedInputStream.h 45). -/
inductive Ans (α : Type) where
  | put (b : Bool)
  | took (x : Option α)
  deriving Repr, DecidableEq

/-- Where main code is in a call (RingBuffer.h 61-109); `p` is the pointer loaded at its start. -/
inductive Pc (α : Type) where
  /-- Outside. -/
  | idle
  /-- Behind the overrun test (RingBuffer.h 64-68). -/
  | checked (v : α) (p : Nat)
  /-- Behind `*_writePtr = value` (RingBuffer.h 70). -/
  | stored (v : α) (p : Nat)
  /-- Behind `getLength`, not zero (RingBuffer.h 101-109). -/
  | counted (p : Nat)
  /-- Behind `T result = *_readPtr` (RingBuffer.h 87). -/
  | got (v : α) (p : Nat)
  deriving Repr, DecidableEq

/-- The members, the place of main code, and the completed calls with their answers (`true`: of main code) (RingBuffer.h 61-114). -/
structure St (α : Type) where
  rb : RB α
  pc : Pc α
  log : List (Bool × Call α × Ans α)
  deriving Repr, DecidableEq

/-- Nothing called yet (RingBuffer.h 42-45). -/
def St.init (g : List α) : St α := ⟨RingBuffer.mk g, .idle, []⟩

/-- What happens (RingBuffer.h 61-109). -/
inductive Ev (α : Type) where
  /-- Main code starts a call: the test of its first lines (RingBuffer.h 64-68, 101-109). -/
  | start (c : Call α)
  /-- Main code makes its next access (RingBuffer.h 70-76, 87-93). -/
  | main
  /-- A handler makes a call (RingBuffer.h 61-109). -/
  | handler (c : Call α)
  deriving Repr, DecidableEq

/-- A call is completed and noted (RingBuffer.h 61-96). -/
def St.done (s : St α) (byMain : Bool) (c : Call α) (a : Ans α) : St α := { s with log := s.log ++ [(byMain, c, a)] }

/-- A whole call (RingBuffer.h 61-109, BufferedInputStream.h 41-49). -/
def St.whole (s : St α) (byMain : Bool) : Call α → Res (St α)
  | .put v => do
    let (rb, b) ← write s.rb v
    .ok ({ s with rb := rb }.done byMain (.put v) (.put b))
  | .take =>
    if getLength s.rb = 0 then .ok (s.done byMain .take (.took none))
    else do
      let (rb, v) ← read s.rb
      .ok ({ s with rb := rb }.done byMain .take (.took (some v)))

/-- The start of a call of main code (RingBuffer.h 64-68, 101-109). -/
def St.start (s : St α) : Call α → St α
  | .put v => if isFull s.rb then s.done true (.put v) (.put false) else { s with pc := .checked v s.rb.w }
  | .take => if getLength s.rb = 0 then s.done true .take (.took none) else { s with pc := .counted s.rb.r }

variable (keep : Bool)

/-- The pointer main code uses: the one loaded at the start of the call, or the member loaded again (RingBuffer.h 70-71, 87-88). -/
def pointer (p member : Nat) : Nat := if keep then p else member

/-- One access of main code (RingBuffer.h 70-76, 87-93). -/
def mainStep (s : St α) : Res (St α) :=
  match s.pc with
  | .idle => .ok s
  | .checked v p => do
    let b ← cSet s.rb.buf (pointer keep p s.rb.w) v
    .ok { s with rb := { s.rb with buf := b }, pc := .stored v p }
  | .stored v p =>
    .ok ({ s with rb := { s.rb with w := wrap s.rb.size (pointer keep p s.rb.w + 1) }, pc := .idle }.done true (.put v) (.put true))
  | .counted p => do
    let v ← cGet s.rb.buf (pointer keep p s.rb.r)
    .ok { s with pc := .got v p }
  | .got v p =>
    .ok ({ s with rb := { s.rb with r := wrap s.rb.size (pointer keep p s.rb.r + 1) }, pc := .idle }.done true .take (.took (some v)))

/-- One event (RingBuffer.h 61-109). -/
def step (s : St α) : Ev α → Res (St α)
  | .start c => .ok (s.start c)
  | .main => mainStep keep s
  | .handler c => s.whole false c

/-- A history (RingBuffer.h 61-109). -/
def run (s : St α) : List (Ev α) → Res (St α)
  | [] => .ok s
  | e :: es => do
    let t ← step keep s e
    run t es

end Atl.RingBufferShared
