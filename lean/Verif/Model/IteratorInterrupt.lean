import Verif.Model.CollectionInterrupt
import Verif.Model.Iterator

/-
  Main code goes through an `Iterator` over a `Collection` (Iterator.h 40-145, Collection.h 33-161) with `Reset` and `while (MoveNext()) use(getCurrent());`, while interrupt handlers change the collection.
  Simplified: `_count` and an item are accessed in one step; handlers' calls run as a whole; handlers do not move the iterator. `getCurrent` tests the index twice (Iterator.h 127, Collection.h 101); the compiler
  may load `_count` for it once, or again (parameter `again`).
-/
namespace Atl.IteratorInterrupt
open Atl.Collection
open Atl.CollectionInterrupt (Op whole)

/-- Where main code is: outside; before `MoveNext` (Iterator.h 66), before the test of `getCurrent` (127), before the load of the item (129). -/
inductive Pc where
  | idle
  | test
  | current
  | item
  deriving DecidableEq, Repr

/-- The collection (Collection.h 159-160), the index (Iterator.h 142), the place of main code; as a history variable the items main code has got. -/
structure St (α : Type) where
  coll : Coll α
  index : Int
  pc : Pc
  visited : List α
  deriving DecidableEq

/-- What happens (Iterator.h 64-130, Collection.h 121-148). -/
inductive Ev (α : Type) where
  /-- Main code begins the loop. -/
  | loop
  /-- Main code makes its next access. -/
  | main
  /-- A handler calls `Add`, `SetAt` or `Clear`. -/
  | handler (o : Op α)
  deriving DecidableEq

variable {α : Type} [DecidableEq α] (again : Bool) (d : α)

/-- The next access of main code (Iterator.h 64-73, 125-130). -/
def mainStep (y : St α) : Res (St α) :=
  match y.pc with
  | .idle => .ok y
  | .test => do
    let (i, r) ← Iterator.moveNext (Iterator.ofCollection d y.coll) y.index
    .ok { y with index := i, pc := if r then .current else .idle }
  | .current => .ok (if Iterator.getIsValidPosition (Iterator.ofCollection d y.coll) y.index then { y with pc := .item } else { y with pc := .test, visited := y.visited ++ [d] })
  | .item => do
    let v ← if again then Collection.getAt d y.coll y.index else Arr.getAt d y.coll.arr.items y.index
    .ok { y with pc := .test, visited := y.visited ++ [v] }

/-- One event (Iterator.h 64-130, Collection.h 121-148); a loop begins with `Reset` (Iterator.h 109-112), outside of loops. -/
def step (y : St α) : Ev α → Res (St α)
  | .loop => .ok (if y.pc = .idle then { y with index := Iterator.reset, pc := .test } else y)
  | .main => mainStep again d y
  | .handler o => do
    let c ← whole y.coll o
    .ok { y with coll := c }

/-- A history (Iterator.h 64-130, Collection.h 121-148). -/
def run (y : St α) : List (Ev α) → Res (St α)
  | [] => .ok y
  | e :: es => do
    let y ← step again d y e
    run y es

/-- Constructed (Iterator.h 50-52, Collection.h 42-44). -/
def St.init (arr : FixedArray.FA α) : St α := ⟨Collection.init arr, Iterator.init, .idle, []⟩

end Atl.IteratorInterrupt
