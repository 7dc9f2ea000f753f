import Verif.Model.RingBuffer
/-
  Specification of a bounded queue of which a client may also read too much: such a read gives some old value and makes the queue full of old values.
  Only the vocabulary of calls and observations (`Op`, `Out`) is shared with the model.
-/
namespace Atl.Spec.QueueAny
open Atl.RingBuffer (Op Out)

/-- One call on the queue `q` of capacity `cap`; `old`: the values that were ever in its memory. -/
inductive Call (cap : Nat) (old : α → Prop) : List α → Op α → List α → Out α → Prop
  | accept (q v) : q.length < cap → Call cap old q (.write v) (q ++ [v]) (.accepted true)
  | refuse (q v) : q.length = cap → Call cap old q (.write v) q (.accepted false)
  | read (v q) : Call cap old (v :: q) .read q (.value v)
  | overread (v q) : q.length = cap → (∀ x ∈ v :: q, old x) → Call cap old [] .read q (.value v)
  | clear (q) : Call cap old q .clear [] .cleared
  | length (q) : Call cap old q .length q (.len q.length)

/-- A history; `old` grows by the values written. -/
inductive Calls (cap : Nat) : (α → Prop) → List α → List (Op α) → List α → List (Out α) → Prop
  | done (old q) : Calls cap old q [] q []
  | call (old : α → Prop) (q o q' x os q'' xs) : Call cap old q o q' x → Calls cap (fun y => old y ∨ o = .write y) q' os q'' xs → Calls cap old q (o :: os) q'' (x :: xs)

end Atl.Spec.QueueAny
