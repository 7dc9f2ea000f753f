/-
  Specification for the USART: baud rate settings and the meaning of the register fields (ATmega data sheet, tables of UCSRnB/UCSRnC).
-/
namespace Atl.Spec.Usart

/-- The rate in whole baud a setting produces: clock / (divider * (UBRR + 1)). -/
def rate (F d u : Nat) : Nat := F / (d * (u + 1))

/-- The settings of the asynchronous modes. -/
def Setting (d u : Nat) : Prop := (d = 8 ∨ d = 16) ∧ u < 4096

/-- How far a rate is off. -/
def off (b r : Nat) : Nat := (b - r) + (r - b)

/-- No setting comes closer. -/
def Nearest (F b d u : Nat) : Prop := Setting d u ∧ ∀ d' u', Setting d' u' → off b (rate F d u) ≤ off b (rate F d' u')

/-- No setting that is fast enough comes closer. -/
def NearestAbove (F b d u : Nat) : Prop :=
  Setting d u ∧ b ≤ rate F d u ∧ ∀ d' u', Setting d' u' → b ≤ rate F d' u' → rate F d u ≤ rate F d' u'

inductive ParityMode where
  | disabled | even | odd
  deriving DecidableEq, Repr

/-- UPM1:0, bits 5 and 4 of UCSRC. -/
def parity (c : BitVec 8) : Option ParityMode := match c.getLsbD 5, c.getLsbD 4 with
  | false, false => some .disabled
  | true, false => some .even
  | true, true => some .odd
  | false, true => none

/-- USBS, bit 3 of UCSRC. -/
def stopBits (c : BitVec 8) : Nat := if c.getLsbD 3 then 2 else 1

/-- UCSZ2 (bit 2 of UCSRB) and UCSZ1:0 (bits 2 and 1 of UCSRC). -/
def dataBits (b c : BitVec 8) : Option Nat := match b.getLsbD 2, c.getLsbD 2, c.getLsbD 1 with
  | false, false, false => some 5
  | false, false, true => some 6
  | false, true, false => some 7
  | false, true, true => some 8
  | true, true, true => some 9
  | _, _, _ => none

/-- UMSEL1:0, bits 7 and 6 of UCSRC: asynchronous. -/
def async (c : BitVec 8) : Bool := !c.getLsbD 7 && !c.getLsbD 6

/-- U2X, bit 1 of UCSRA. -/
def doubleSpeed (a : BitVec 8) : Bool := a.getLsbD 1

/-- Reception as its user sees it: the receiver keeps up to three frames (byte, without error), the interrupt moves the oldest one to a queue of `cap` bytes, dropping it
    if it has an error or finds the queue full, and reading takes the oldest byte or, without one, enables the interrupt. -/
structure Inbox where
  on : Bool
  ie : Bool
  fifo : List (Nat × Bool) := []
  queue : List Nat := []
  returned : List Int := []

inductive InAct where
  | arrive (byte : Nat) (good : Bool)
  | interrupt
  | read

def Inbox.step (cap : Nat) (x : Inbox) : InAct → Inbox
  | .arrive v g => if x.on = true ∧ x.fifo.length < 3 then { x with fifo := x.fifo ++ [(v, g)] } else x
  | .interrupt => match x.ie, x.fifo with
    | true, (v, g) :: r => { x with fifo := r, queue := if g = true ∧ x.queue.length < cap then x.queue ++ [v] else x.queue }
    | _, _ => x
  | .read => match x.queue with
    | [] => { x with ie := true, returned := x.returned ++ [-1] }
    | v :: q => { x with queue := q, returned := x.returned ++ [(v : Int)] }

def Inbox.run (cap : Nat) (x : Inbox) : List InAct → Inbox
  | [] => x
  | a :: as => (x.step cap a).run cap as

end Atl.Spec.Usart
