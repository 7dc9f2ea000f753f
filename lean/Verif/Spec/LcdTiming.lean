import Verif.Spec.Lcd

/-
  When an HD44780 accepts instructions, from its data sheet (270 kHz oscillator), in microseconds. During an instruction the display is
  busy and must not be written to.
-/
namespace Atl.Spec.Lcd

/-- What the display needs to know about time: the interface, the instructions of the 8 bit start phase so far, and from when on it accepts. -/
structure Busy where
  four : Bool
  half : Option (Bool × Nat)
  boot : Nat
  free : Nat

/-- Execution time: data 37 and 4 for the address counter, clear and home 1520, everything else 37. -/
def duration (rs : Bool) (b : Nat) : Nat := if rs then 41 else if b < 4 then 1520 else 37

/-- The waiting times of the start by instruction (figure 24 of the data sheet). -/
def bootDuration (boot : Nat) (rs : Bool) (n : Nat) : Nat := if boot = 0 then 4100 else if boot = 1 then 100 else duration rs (16 * n)

/-- After power up. -/
def powerOn : Busy := ⟨false, none, 0, 40000⟩

/-- A nibble latched at time `t`; `none` when the display is busy. -/
def Busy.accept (s : Busy) (t : Nat) (rs : Bool) (n : Nat) : Option Busy :=
  if t < s.free then none
  else if !s.four then some ⟨!rs && n == 2, none, s.boot + 1, t + bootDuration s.boot rs n⟩
  else match s.half with
    | none => some { s with half := some (rs, n) }
    | some (r, h) => some ⟨r || (16 * h + n) / 16 != 3, none, s.boot, t + duration r (16 * h + n)⟩

end Atl.Spec.Lcd
