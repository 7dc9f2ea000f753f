/-
  A chain of 74HC595 shift registers, from the data sheet: a rising clock edge shifts the data pin into the first stage and every
  stage into the next; a rising latch edge copies the stages to the outputs.
-/
namespace Atl.Spec.ShiftRegister

/-- Pins of the chain. -/
inductive Wire where
  | data | clock | latch
  deriving Repr, DecidableEq

/-- The chain: stage 0 is next to the data pin. -/
structure Chain where
  stages : List Bool
  out : List Bool
  data : Bool
  clock : Bool
  latch : Bool
  deriving Repr, DecidableEq

/-- A pin is driven to a level. -/
def Chain.step (c : Chain) (w : Wire) (v : Bool) : Chain :=
  match w with
  | .data => { c with data := v }
  | .clock => { c with clock := v, stages := if v && !c.clock then (c.data :: c.stages).take c.stages.length else c.stages }
  | .latch => { c with latch := v, out := if v && !c.latch then c.stages else c.out }

/-- A trace of pin writes. -/
def Chain.run (c : Chain) (l : List (Wire × Bool)) : Chain := l.foldl (fun c e => c.step e.1 e.2) c

/-- Timing rules: data changes only while the clock is low, the clock moves only while the latch is low. -/
def WellTimed : Bool → Bool → List (Wire × Bool) → Prop
  | _, _, [] => True
  | clock, latch, (.data, _) :: l => clock = false ∧ WellTimed clock latch l
  | _, latch, (.clock, v) :: l => latch = false ∧ WellTimed v latch l
  | clock, _, (.latch, v) :: l => clock = false ∧ WellTimed clock v l

end Atl.Spec.ShiftRegister
