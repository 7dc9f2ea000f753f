import Verif.Model.Array

/-
  Model of Iterator.h (Source/Code/ArduinoTemplateLibrary/Iterator.h 40-190).

  The C++ template derives from its container; the model takes the container's three queries as a record.
-/
namespace Atl.Iterator

variable {α : Type}

/-- What Iterator.h uses of its base class. -/
structure Base (α : Type) where
  isValidIndex : Int → Bool
  getAt : Int → Res α
  indexOf : α → Res Int
  getCount : Nat
  default : α

/-- The base class is an Array / FixedArray / ArrayRef (Array.h 62-92). -/
def ofArray [DecidableEq α] (d : α) (a : List α) : Base α where
  isValidIndex := Arr.isValidIndex a.length
  getAt := Arr.getAt d a
  indexOf := Arr.indexOf a
  getCount := a.length
  default := d

/-- The base class is a StaticArray (StaticArray.h 46-102); a search that does not end (it repeats itself after 256 rounds) counts as undefined. -/
def ofStatic [DecidableEq α] (d : α) (a : List α) : Base α where
  isValidIndex := StaticArray.isValidIndex a.length
  getAt := StaticArray.getAt d a
  indexOf x := (StaticArray.indexOfRun d a x 257 0).getD .ub
  getCount := a.length
  default := d

/-- The base class is a Collection over a FixedArray (Collection.h 64-104). -/
def ofCollection [DecidableEq α] (d : α) (c : Collection.Coll α) : Base α where
  isValidIndex := Collection.isValidIndex c
  getAt := Collection.getAt d c
  indexOf := Collection.indexOf d c
  getCount := c.count
  default := d

/-- The C++ expression `_index + k` converted to the `int16_t` parameter of `IsValidIndex`: with a 16-bit `int` the
    addition itself overflows (undefined), which the model makes explicit (Iterator.h 64-105, 165-190). -/
def addIdx (index k : Int) : Res Int :=
  if -32768 ≤ index + k ∧ index + k ≤ 32767 then .ok (index + k) else .ub

/-- Iterator.h 50-59. -/
def init : Int := -1

/-- Iterator.h 64-73: new index and returned flag. -/
def moveNext (b : Base α) (index : Int) : Res (Int × Bool) := do
  let i ← addIdx index 1
  if b.isValidIndex i then pure (i, true) else pure (index, false)

/-- Iterator.h 78-87. -/
def moveBack (b : Base α) (index : Int) : Res (Int × Bool) := do
  let i ← addIdx index (-1)
  if b.isValidIndex i then pure (i, true) else pure (index, false)

/-- Iterator.h 93-104. -/
def moveTo (b : Base α) (item : α) (index : Int) : Res (Int × Bool) := do
  let i ← b.indexOf item
  if 0 ≤ i then pure (i, true) else pure (index, false)

/-- Iterator.h 109-112. -/
def reset : Int := -1

/-- Iterator.h 117-120. -/
def getIsValidPosition (b : Base α) (index : Int) : Bool := b.isValidIndex index

/-- Iterator.h 125-130. -/
def getCurrent (b : Base α) (index : Int) : Res α :=
  if !b.isValidIndex index then .ok b.default else b.getAt index

/-- Iterator.h 136-139: `_index = getCount()` (`uint16_t` to `int16_t`). -/
def resetToEnd (b : Base α) : Int := toS 16 b.getCount

/-- Iterator.h 165-174 (WrapAroundIterator). -/
def wrapNext (b : Base α) (index : Int) : Res (Int × Bool) := do
  let (i, r) ← moveNext b index
  if !r then do
    let (j, _) ← moveNext b reset
    pure (j, true)
  else pure (i, true)

/-- Iterator.h 180-189 (WrapAroundIterator). -/
def wrapBack (b : Base α) (index : Int) : Res (Int × Bool) := do
  let (i, r) ← moveBack b index
  if !r then do
    let (j, _) ← moveBack b (resetToEnd b)
    pure (j, true)
  else pure (i, true)

end Atl.Iterator
