import Mathlib.Order.Defs.LinearOrder

/-
  Model of Range.h 29-105 and ValueContainer.h 29-112 (Source/Code/ArduinoTemplateLibrary), over any linearly ordered
  value type (the template parameter `T`; floating point NaN is outside the model).
-/
namespace Atl.Range

variable {α : Type} [LinearOrder α]

/-- Range.h 50-52. -/
structure Rng (α : Type) where
  begin' : α
  end' : α
  deriving Repr, DecidableEq

/-- Range.h 59-67. -/
def isInRange (r : Rng α) (v : α) : Bool :=
  if r.begin' > r.end' then decide (r.end' ≤ v) && decide (v ≤ r.begin')
  else decide (r.begin' ≤ v) && decide (v ≤ r.end')

/-- Range.h 72-80. -/
def normalize (r : Rng α) : Rng α :=
  if r.begin' > r.end' then
    let temp := r.end'
    let r := { r with end' := r.begin' }
    { r with begin' := temp }
  else r

/-- Range.h 85-88. -/
def isNormalized (r : Rng α) : Bool := decide (r.end' ≥ r.begin')

/-- Range.h 94-104: the final contents of the in/out parameter. -/
def clipValue (r : Rng α) (v : α) : α :=
  let v1 := if v > r.end' then r.end' else v
  if v1 < r.begin' then r.begin' else v1

end Atl.Range

namespace Atl.ValueContainer

/-- ValueContainer.h 33-39. -/
inductive Mode where
  | none | single | range | any
  deriving Repr, DecidableEq

/-- ValueContainer.h 109-111. -/
structure VC (α : Type) where
  mode : Mode
  begin' : α
  end' : α
  deriving Repr, DecidableEq

variable {α : Type} [LinearOrder α]

/-- ValueContainer.h 41-44: the bounds are not initialised. -/
def init (garbage : α × α) : VC α := ⟨.none, garbage.1, garbage.2⟩
/-- ValueContainer.h 56-61 (and constructor 46-49). -/
def setSingle (_ : VC α) (v : α) : VC α := ⟨.single, v, v⟩
/-- ValueContainer.h 63-68 (and constructor 51-54). -/
def setRange (_ : VC α) (b e : α) : VC α := ⟨.range, b, e⟩
/-- ValueContainer.h 70-73. -/
def setAny (s : VC α) : VC α := { s with mode := .any }
/-- ValueContainer.h 75-78. -/
def setNone (s : VC α) : VC α := { s with mode := .none }

/-- ValueContainer.h 85-96. -/
def isInRange (s : VC α) (v : α) : Bool :=
  if s.mode = .none then false
  else if s.mode = .any then true
  else if s.begin' > s.end' then decide (s.end' ≤ v) && decide (v ≤ s.begin')
  else decide (s.begin' ≤ v) && decide (v ≤ s.end')

/-- ValueContainer.h 98-106. -/
def normalize (s : VC α) : VC α :=
  if s.begin' > s.end' then
    let temp := s.end'
    let s := { s with end' := s.begin' }
    { s with begin' := temp }
  else s

end Atl.ValueContainer
