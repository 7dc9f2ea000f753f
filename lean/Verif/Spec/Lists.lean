/-
  Independent specifications for the array-like classes: plain lists and first occurrence.
-/
namespace Atl.Spec

variable {α : Type}

/-- `r` is the position of the first element of `l` equal to `x`, or -1 when there is none. -/
def IsFirstIndex (l : List α) (x : α) (r : Int) : Prop :=
  (r = -1 ∧ x ∉ l) ∨ (∃ k : Nat, r = k ∧ l[k]? = some x ∧ ∀ j < k, l[j]? ≠ some x)

/-- The last value stored at position `i` by a history of (position, value) stores. -/
def lastStore : List (Int × α) → Int → Option α
  | [], _ => none
  | (j, v) :: rest, i =>
    match lastStore rest i with
    | some w => some w
    | none => if j = i then some v else none

/-- Operations of a bounded list. -/
inductive LOp (α : Type) where
  | add (x : α)
  | setAt (i : Int) (x : α)
  | clear
  deriving Repr

/-- A list bounded by `cap`. -/
def lstep (cap : Nat) (l : List α) : LOp α → List α
  | .add x => if l.length < cap then l ++ [x] else l
  | .setAt i x => if 0 ≤ i then l.set i.toNat x else l
  | .clear => []

def lrun (cap : Nat) (l : List α) (ops : List (LOp α)) : List α := ops.foldl (lstep cap) l

/-- Element at a signed position, or the default. -/
def getD (d : α) (l : List α) (i : Int) : α := if 0 ≤ i then l[i.toNat]?.getD d else d

end Atl.Spec
