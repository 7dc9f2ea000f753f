import Verif.Model.RingBuffer
/-
  Specification of a bounded first-in-first-out queue: a list, oldest value first, and a capacity.
  Only the vocabulary of calls and observations (`Op`, `Out`) is shared with the model.
-/
namespace Atl.Spec.Queue
open Atl.RingBuffer (Op Out BOp BOut)

/-- One call on the abstract queue of capacity `cap`; `none` when the call is not permitted
    (reading an empty queue). -/
def step (cap : Nat) (q : List α) : Op α → Option (List α × Out α)
  | .write v => if q.length < cap then some (q ++ [v], .accepted true) else some (q, .accepted false)
  | .read => match q with
    | [] => none
    | v :: q' => some (q', .value v)
  | .clear => some ([], .cleared)
  | .length => some (q, .len q.length)

/-- A history on the abstract queue. -/
def run (cap : Nat) (q : List α) : List (Op α) → Option (List α × List (Out α))
  | [] => some (q, [])
  | o :: os =>
    match step cap q o with
    | none => none
    | some (q', x) =>
      match run cap q' os with
      | none => none
      | some (q'', xs) => some (q'', x :: xs)

/-- One call on an abstract byte stream: reading an empty stream yields -1 and changes nothing. -/
def bstep (cap : Nat) (q : List (Fin 256)) : BOp → List (Fin 256) × BOut
  | .write v => if q.length < cap then (q ++ [v], .accepted true) else (q, .accepted false)
  | .read => match q with
    | [] => ([], .got (-1))
    | v :: q' => (q', .got v.val)

/-- A history on the abstract byte stream. -/
def brun (cap : Nat) (q : List (Fin 256)) : List BOp → List (Fin 256) × List BOut
  | [] => (q, [])
  | o :: os =>
    let (q', x) := bstep cap q o
    let (q'', xs) := brun cap q' os
    (q'', x :: xs)

/-- The bytes accepted in a history, from its calls and the observations. -/
def acceptedBytes : List BOp → List BOut → List (Fin 256)
  | .write v :: os, .accepted true :: xs => v :: acceptedBytes os xs
  | _ :: os, _ :: xs => acceptedBytes os xs
  | _, _ => []

/-- The data values (not -1) a history has returned. -/
def returnedBytes : List BOut → List Int
  | [] => []
  | .got n :: xs => if n = -1 then returnedBytes xs else n :: returnedBytes xs
  | _ :: xs => returnedBytes xs

end Atl.Spec.Queue
