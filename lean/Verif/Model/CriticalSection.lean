import Verif.Model.Basic

/-
  Sections of main code between `Interrupt::EnableAll(false)` and `Interrupt::EnableAll()` (AVR/Interrupt.h 42-54), in which no handler runs.  The object that main code and handlers share is any
  of the models with handlers; the board adds the interrupt flag of the status register and the request flags.
  The processor: a request is one bit per source; a handler starts only if interrupts are on, runs with interrupts off, and `reti` turns them on; behind `sei` and behind `reti` one instruction of main
  code comes first (ATmega328P data sheet, 7.7).
  Simplified: a handler runs as a whole and does not itself call `EnableAll`; which of several requests comes first is left open.
-/
namespace Atl.CriticalSection

/-- What an event of a shared object is: main code enters a call, makes an access in it, or a handler does something (AVR/Interrupt.h 33-39). -/
inductive Kind where
  | enter
  | within
  | handler
  deriving Repr, DecidableEq

/-- A shared object with the place of main code in it: `idle` outside of its calls, `proper` the events its users may make (AVR/Interrupt.h 33-39). -/
structure Machine where
  St : Type
  Ev : Type
  step : St → Ev → Res St
  kind : Ev → Kind
  idle : St → Prop
  proper : Ev → Prop

variable (M : Machine)

/-- Events of the object, one after the other (AVR/Interrupt.h 33-39). -/
def Machine.run (s : M.St) : List M.Ev → Res M.St
  | [] => .ok s
  | e :: es => do
    let s ← M.step s e
    Machine.run s es

/-- The object, the interrupt flag (AVR/Interrupt.h 47, 51), whether the next instruction of main code comes before any handler, the requests; as history variables what the object has seen and the
    sources whose handlers have run. -/
structure Board where
  obj : M.St
  on : Bool
  first : Bool
  flags : List Nat
  trace : List M.Ev
  served : List Nat

/-- What happens on the board (AVR/Interrupt.h 36-127). -/
inductive Ev (E : Type) where
  /-- `EnableAll(false)` (AVR/Interrupt.h 51). -/
  | off
  /-- `EnableAll()` (AVR/Interrupt.h 47). -/
  | on
  /-- Main code uses the object. -/
  | main (e : E)
  /-- Another instruction of main code. -/
  | other
  /-- Source `k` requests its handler (AVR/Interrupt.h 56-127). -/
  | request (k : Nat)
  /-- The processor is to run the handler of source `k`, which does `es` (AVR/Interrupt.h 36). -/
  | serve (k : Nat) (es : List E)

/-- Constructed, with interrupts on or off (AVR/Interrupt.h 42-54). -/
def Board.init (s : M.St) (on : Bool) : Board M := ⟨s, on, false, [], [], []⟩

/-- One event (AVR/Interrupt.h 42-54). -/
def step (b : Board M) : Ev M.Ev → Res (Board M)
  | .off => .ok { b with on := false, first := false }
  | .on => .ok { b with on := true, first := true }
  | .main e => do
    let s ← M.step b.obj e
    .ok { b with obj := s, first := false, trace := b.trace ++ [e] }
  | .other => .ok { b with first := false }
  | .request k => .ok { b with flags := if k ∈ b.flags then b.flags else b.flags ++ [k] }
  | .serve k es =>
    if b.on && !b.first && b.flags.contains k then do
      let s ← M.run b.obj es
      .ok { b with obj := s, first := true, flags := b.flags.erase k, trace := b.trace ++ es, served := b.served ++ [k] }
    else .ok b

/-- A history (AVR/Interrupt.h 42-54). -/
def run (b : Board M) : List (Ev M.Ev) → Res (Board M)
  | [] => .ok b
  | e :: es => do
    let b ← step M b e
    run b es

end Atl.CriticalSection
