import Verif.Model.Array

/-
  One `Collection` over a `FixedArray` (Collection.h 33-161) used by main code and by interrupt handlers.  `Add` and `IndexOf` of main code run access by access; a handler makes whole calls in
  between.  The members are not volatile: the compiler may load `_count` once (parameter `once`), and then also store it before the item (parameter `early`).
  Simplified: `_count` and an item are accessed in one step (C146 has the bytes of a count); the other calls of main code are whole.
-/
namespace Atl.CollectionInterrupt
open Atl.Collection

variable {α : Type}

/-- A call that changes the collection: `Add`, `SetAt`, `Clear` (Collection.h 121, 135, 145). -/
inductive Op (α : Type) where
  | add (x : α)
  | setAt (i : Int) (x : α)
  | clear
  deriving DecidableEq

/-- Where main code is in `Add` (Collection.h 121-128) or in `IndexOf` (Collection.h 83-92). -/
inductive Pc (α : Type) where
  /-- Outside. -/
  | idle
  /-- Before the load of `_count` for `SetAt` (Collection.h 125). -/
  | index (x : α)
  /-- Before the item is stored at `c` (Collection.h 125). -/
  | place (x : α) (c : Nat)
  /-- Before the load of `_count` for `++` (Collection.h 126). -/
  | bump (x : α)
  /-- Before `v` is stored in `_count` (Collection.h 126). -/
  | store (x : α) (v : Nat)
  /-- Before the store of `_count`, the item to be stored afterwards (Collection.h 125-126, stores exchanged). -/
  | first (x : α) (c : Nat)
  /-- Before the item is stored at `c`, after `_count` (Collection.h 125-126, stores exchanged). -/
  | late (x : α) (c : Nat)
  /-- Before the loop condition, `n` is the count if it is loaded once (Collection.h 85). -/
  | test (y : α) (i : Nat) (n : Option Nat)
  /-- Before the item is loaded and compared (Collection.h 87). -/
  | item (y : α) (i : Nat) (n : Option Nat)
  deriving DecidableEq

/-- The members, the place of main code, the results of its `IndexOf`, and as a history variable the calls in the order in which they took effect, handlers' calls marked (Collection.h 83-160). -/
structure St (α : Type) where
  coll : Coll α
  pc : Pc α
  answers : List Int
  done : List (Bool × Op α)
  deriving DecidableEq

/-- What happens (Collection.h 83-148). -/
inductive Ev (α : Type) where
  /-- Main code calls `Add`, `SetAt` or `Clear` (Collection.h 121, 135, 145). -/
  | call (o : Op α)
  /-- Main code calls `IndexOf` (Collection.h 83). -/
  | find (y : α)
  /-- Main code makes its next access (Collection.h 85-91, 123-127). -/
  | main
  /-- A handler calls `Add`, `SetAt` or `Clear` (Collection.h 121-148). -/
  | handler (o : Op α)

/-- A whole call (Collection.h 121-148). -/
def whole (c : Coll α) : Op α → Res (Coll α)
  | .add x => Collection.add c x
  | .setAt i x => Collection.setAt c i x
  | .clear => .ok (Collection.clear c)

variable [DecidableEq α] (once early : Bool) (d : α)

/-- Main code calls (Collection.h 121-148); `Add` up to the test of the capacity (123). -/
def begin (s : St α) : Op α → Res (St α)
  | .add x =>
    if s.coll.count < getCapacity s.coll then
      .ok { s with pc := if once then (if early then .first x s.coll.count else .place x s.coll.count) else .index x }
    else .ok { s with done := s.done ++ [(false, .add x)] }
  | o => do
    let c ← whole s.coll o
    .ok { s with coll := c, done := s.done ++ [(false, o)] }

/-- One access of main code (Collection.h 85-91, 123-127). -/
def mainStep (s : St α) : Res (St α) :=
  match s.pc with
  | .idle => .ok s
  | .index x => .ok { s with pc := .place x s.coll.count }
  | .place x c => do
    let arr ← FixedArray.setAt s.coll.arr (toS 16 c) x
    .ok { s with coll := { s.coll with arr := arr }, pc := if once then .store x (toU 16 (c + 1)) else .bump x }
  | .bump x => .ok { s with pc := .store x (toU 16 (s.coll.count + 1)) }
  | .store x v => .ok { s with coll := { s.coll with count := v }, pc := .idle, done := s.done ++ [(false, .add x)] }
  | .first x c => .ok { s with coll := { s.coll with count := toU 16 (c + 1) }, pc := .late x c }
  | .late x c => do
    let arr ← FixedArray.setAt s.coll.arr (toS 16 c) x
    .ok { s with coll := { s.coll with arr := arr }, pc := .idle, done := s.done ++ [(false, .add x)] }
  | .test y i n =>
    if i < n.getD s.coll.count then .ok { s with pc := .item y i n }
    else .ok { s with pc := .idle, answers := s.answers ++ [-1] }
  | .item y i n => do
    let v ← Arr.getAt d s.coll.arr.items (toS 16 i)
    .ok (if v = y then { s with pc := .idle, answers := s.answers ++ [toS 8 i] } else { s with pc := .test y (i + 1) n })

/-- One event (Collection.h 83-148). -/
def step (s : St α) : Ev α → Res (St α)
  | .call o => begin once early s o
  | .find y => .ok { s with pc := .test y 0 (if once then some s.coll.count else none) }
  | .main => mainStep once d s
  | .handler o => do
    let c ← whole s.coll o
    .ok { s with coll := c, done := s.done ++ [(true, o)] }

/-- A history (Collection.h 83-148). -/
def run (s : St α) : List (Ev α) → Res (St α)
  | [] => .ok s
  | e :: es => do
    let s ← step once early d s e
    run s es

/-- Constructed (Collection.h 42-51). -/
def St.init (arr : FixedArray.FA α) : St α := ⟨Collection.init arr, .idle, [], []⟩

end Atl.CollectionInterrupt
