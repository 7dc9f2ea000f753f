/-
  Independent specification of numbers written as text.
-/
namespace Atl.Spec.Text

/-- Value of a digit character: '0'..'9', 'A'..'Z'. -/
def digitVal (c : Nat) : Option Nat :=
  if 48 ≤ c ∧ c ≤ 57 then some (c - 48) else if 65 ≤ c ∧ c ≤ 90 then some (c - 55) else none

/-- Reading characters from the left, with the value so far. -/
def readFrom (base : Nat) : Nat → List Nat → Option Nat
  | acc, [] => some acc
  | acc, c :: cs =>
    match digitVal c with
    | none => none
    | some d => if d < base then readFrom base (acc * base + d) cs else none

/-- The number denoted by a text in a base. -/
def parse (base : Nat) (s : List Nat) : Option Nat := if s = [] then none else readFrom base 0 s

/-- A numeral of `v`: denotes `v` and has no leading zero, except for "0" itself. -/
def Numeral (base : Nat) (s : List Nat) (v : Nat) : Prop :=
  parse base s = some v ∧ (s.head? = some 48 → s = [48])

/-- The number denoted by a text with an optional minus sign. -/
def parseSigned (minus base : Nat) (s : List Nat) : Option Int :=
  match s with
  | c :: cs => if c = minus then (parse base cs).map fun v => -(v : Int) else (parse base s).map fun v => (v : Int)
  | [] => none

/-- Fixed-point text of `n` units of the last of `d` decimals: a numeral, the separator (if `d > 0`) and exactly `d` digits. -/
def FixedPoint (sep d : Nat) (s : List Nat) (n : Nat) : Prop :=
  ∃ a b : List Nat, s = a ++ (if d = 0 then [] else sep :: b) ∧ b.length = d ∧ (a.head? = some 48 → a = [48]) ∧
    parse 10 (a ++ b) = some n ∧ a ≠ []

end Atl.Spec.Text
