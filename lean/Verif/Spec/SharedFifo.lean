import Verif.Model.RingBufferIsr
/-
  Specification for C04: a queue with room for `n - 1` values shared by main code and an interrupt handler, described by what was accepted and how many
  values were read alone.  `none` marks the one situation in which the ring buffer does not behave like this queue.
-/
namespace Atl.Spec.SharedFifo

open Atl.RingBuffer (WAct RAct)

/-- All values accepted so far, and the number of them that have been read. -/
structure Fifo (α : Type) where
  acc : List α
  read : Nat

namespace Fifo

/-- The number of values that wait to be read. -/
def waiting (f : Fifo α) : Nat := f.acc.length - f.read

/-- A value is offered: refused when `n - 1` values wait. -/
def offer (n : Nat) (f : Fifo α) (v : α) : Fifo α := if f.waiting < n - 1 then { f with acc := f.acc ++ [v] } else f

/-- Several values are offered one after the other. -/
def offers (n : Nat) (f : Fifo α) (l : List α) : Fifo α := l.foldl (offer n) f

/-- `k` attempts to read. -/
def take (f : Fifo α) (k : Nat) : Fifo α := { f with read := min f.acc.length (f.read + k) }

/-- Main writes a value while the handler reads; `none` if the value went to the last place of the buffer and the handler ran more often than
    values were waiting before the pointer went back to the first place. -/
def mainWrites (n : Nat) (f : Fifo α) : WAct α → Option (Fifo α)
  | .isr k => some (f.take k)
  | .write v n1 n2 n3 =>
    if f.waiting < n - 1 then
      let f := { f.take (n1 + n2) with acc := f.acc ++ [v] }
      if f.acc.length % n = 0 ∧ f.waiting < n3 then none else some (f.take n3)
    else some f

/-- Main reads a value while the handler writes; `none` if the value came from the last place of the buffer and the handler wrote more values than there was
    room for before the pointer went back to the first place. -/
def mainReads (n : Nat) (f : Fifo α) : RAct α → Option (Fifo α)
  | .isr l => some (f.offers n l)
  | .read l1 l2 l3 l4 =>
    let f := f.offers n l1
    if f.waiting = 0 then some f
    else
      let f := f.offers n (l2 ++ l3)
      let f := { f with read := f.read + 1 }
      if f.read % n = 0 ∧ n - 1 < f.waiting + l4.length then none else some (f.offers n l4)

end Fifo
end Atl.Spec.SharedFifo
