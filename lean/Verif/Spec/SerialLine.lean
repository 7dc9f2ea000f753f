import Verif.Spec.Usart

/-
  Specification of asynchronous serial transmission: the frame of a character, the level of the line over time, and a receiver that finds the start of
  a character at the first low level and looks at the line once per bit.
-/
namespace Atl.Spec.SerialLine
open Atl.Spec.Usart

/-- Data bits, parity and stop bits of a character. -/
structure Format where
  bits : Nat
  parity : ParityMode
  stop : Nat
  deriving DecidableEq, Repr

/-- How many of the low `n` bits are set. -/
def ones (n v : Nat) : Nat := (List.range n).countP v.testBit

/-- The parity bit: even (odd) parity makes the number of ones even (odd). -/
def check (f : Format) (v : Nat) : List Bool := match f.parity with
  | .disabled => []
  | .even => [decide (ones f.bits v % 2 = 1)]
  | .odd => [decide (ones f.bits v % 2 = 0)]

/-- Start bit (low), data from the lowest bit on, parity. -/
def body (f : Format) (v : Nat) : List Bool := false :: ((List.range f.bits).map v.testBit ++ check f v)

/-- … and the stop bits (high). -/
def frame (f : Format) (v : Nat) : List Bool := body f v ++ List.replicate f.stop true

/-- The level of a line on which bits of length `T` are sent, each group after a pause; at rest it is high. -/
def level (T : Nat) : List (Nat × List Bool) → Nat → Bool
  | [], _ => true
  | (g, l) :: r, t => if t < g then true else if t < g + T * l.length then l.getD ((t - g) / T) true else level T r (t - (g + T * l.length))

/-- Characters, each after a pause, on the line. -/
def sent (f : Format) (T : Nat) (s : List (Nat × Nat)) : Nat → Bool := level T (s.map fun x => (x.1, frame f x.2))

/-- A number from its bits. -/
def number : List Bool → Nat
  | [] => 0
  | b :: l => b.toNat + 2 * number l

/-- How many bits a receiver looks at: up to the first stop bit. -/
def size (f : Format) : Nat := f.bits + (if f.parity = .disabled then 0 else 1) + 2

/-- What the levels seen mean: a character, if they are its start bit, data, parity and one stop bit; an error otherwise. -/
def hear (f : Format) (l : List Bool) : Option Nat :=
  let v := number ((l.drop 1).take f.bits)
  if l = body f v ++ [true] then some v else none

/-- A receiver with bits of length `2 * H`. It waits for the first low level, notices it up to `J` late, looks at the middle of every bit from there on, and
    waits for the next low level from the middle of the stop bit on. -/
inductive Hears (f : Format) (H J : Nat) : (Nat → Bool) → List (Option Nat) → Prop
  | silence {line : Nat → Bool} : (∀ t, line t = true) → Hears f H J line []
  | char {line : Nat → Bool} {rs : List (Option Nat)} (e j : Nat) : (∀ t, t < e → line t = true) → line e = false → j ≤ J →
      Hears f H J (fun t => line (e + j + (2 * (size f - 1) + 1) * H + t)) rs →
      Hears f H J line (hear f ((List.range (size f)).map fun k => line (e + j + (2 * k + 1) * H)) :: rs)

/-- Sender (bits of length `T`) and receiver fit: every look at the line falls in the bit it is meant for (or any stop bit). -/
structure Fits (f : Format) (T H J : Nat) : Prop where
  bits : ∀ k, k + 1 < size f → k * T ≤ (2 * k + 1) * H ∧ (2 * k + 1) * H + J < (k + 1) * T
  stop : (size f - 1) * T ≤ (2 * (size f - 1) + 1) * H ∧ (2 * (size f - 1) + 1) * H + J < (size f - 1 + f.stop) * T

/-- Sender and receiver understand each other: whatever characters are sent, with whatever pauses, the receiver hears these and nothing else. -/
def Understands (f : Format) (T H J : Nat) : Prop :=
  ∀ s : List (Nat × Nat), (∀ x ∈ s, x.2 < 2 ^ f.bits) → ∀ rs, Hears f H J (sent f T s) rs ↔ rs = s.map fun x => some x.2

/-- What a USART does: the format of its characters, the clock cycles of a bit, and the clock cycles between two looks of its receiver at the resting line. -/
structure Setup where
  format : Format
  bit : Nat
  sample : Nat
  deriving DecidableEq, Repr

/-- The meaning of UCSRA, UCSRB, UCSRC and UBRR (data sheet), if asynchronous and nothing reserved is selected. -/
def setup (a b c : BitVec 8) (ubrr : Nat) : Option Setup := match async c, dataBits b c, parity c with
  | true, some n, some p => some ⟨⟨n, p, stopBits c⟩, (if doubleSpeed a then 8 else 16) * (ubrr + 1), ubrr + 1⟩
  | _, _, _ => none

/-- What most of three looks at the line saw. -/
def majority (a b c : Bool) : Bool := (a && b) || (b && c) || (a && c)

/-- Even for odd and odd for even. -/
def other : ParityMode → ParityMode
  | .disabled => .disabled
  | .even => .odd
  | .odd => .even

end Atl.Spec.SerialLine
