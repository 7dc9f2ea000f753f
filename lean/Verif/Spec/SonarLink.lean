import Mathlib.Data.List.Basic

/-
  What a program that measures distances expects of a byte stream from the URM37: groups of four bytes, each a measurement, something else or damaged.
-/
namespace Atl.Spec.SonarLink

/-- One group of four bytes. -/
inductive Answer where
  | damaged
  | other
  | distance (cm : Nat)
  deriving DecidableEq, Repr

/-- The meaning of a group, with the marker for an invalid measurement as the driver takes it (C46): a byte 255 in either place. -/
def meaning (command high low sum : Nat) : Answer :=
  if sum ≠ (command + high + low) % 256 then .damaged
  else if command = 0x22 ∧ high ≠ 255 ∧ low ≠ 255 then .distance (high * 256 + low) else .other

/-- The groups of a stream, without the last incomplete one. -/
def answers : List Nat → List Answer
  | c :: a :: b :: s :: rest => meaning c a b s :: answers rest
  | _ => []

end Atl.Spec.SonarLink
