import Verif.Model.Basic

/-
  Model of Array.h, ArrayRef.h, FixedArray.h, FixedArrayRef.h, StaticArray.h, FixedString.h, Collection.h,
  CollectionRef.h (all in Source/Code/ArduinoTemplateLibrary).

  An array object is the list of its `MaxItems` elements (the template argument is the length of the list).
  Indices are C++ `int16_t` values, modelled as `Int` (property theorems quantify over the 16-bit range where it
  matters).  `Array`/`FixedArray` and `ArrayRef`/`FixedArrayRef` have the same bodies; the only difference is
  who owns the storage, which the model does not represent.
-/
namespace Atl.Arr

variable {α : Type}

/-- Array.h 73-76, ArrayRef.h 82-85: `index >= 0 && index < (int16_t)MaxItems`. -/
def isValidIndex (maxItems : Nat) (index : Int) : Bool :=
  decide (0 ≤ index) && decide (index < toS 16 maxItems)

/-- Array.h 62-67 (and `operator[] const` 99-102), ArrayRef.h 71-76.  `d` is `Default<T>::DefaultOfT`. -/
def getAt (d : α) (a : List α) (index : Int) : Res α :=
  if !isValidIndex a.length index then .ok d else cGetI a index

/-- The loop of Array.h 85-89 and the return after it, from `i` on while `i < bound`.  `i` stays below
    `(int16_t)MaxItems`, so `i++` cannot overflow. -/
def indexOfLoop [DecidableEq α] (a : List α) (item : α) (bound : Nat) (i : Nat) : Res Int :=
  if i < bound then
    match cGet a i with
    | .ub => .ub
    | .ok v => if v = item then .ok i else indexOfLoop a item bound (i + 1)
  else .ok (-1)
termination_by bound - i

/-- Array.h 83-92, ArrayRef.h 92-101: the bound is `(int16_t)MaxItems` (no round when that is negative). -/
def indexOf [DecidableEq α] (a : List α) (item : α) : Res Int := indexOfLoop a item (toS 16 a.length).toNat 0

end Atl.Arr

namespace Atl.FixedArray

variable {α : Type}

/-- FixedArray.h 36-83: the elements plus the static `DummyOfT` (78, 83) that `operator[]` hands out for an
    invalid index. -/
structure FA (α : Type) where
  items : List α
  dummy : α
  deriving Repr, DecidableEq

/-- FixedArray.h 50-55, FixedArrayRef.h 57-62. -/
def setAt (s : FA α) (index : Int) (item : α) : Res (FA α) :=
  if !Arr.isValidIndex s.items.length index then .ok s
  else do
    let items ← cSetI s.items index item
    pure { s with items := items }

/-- `arr[index] = item` through FixedArray.h 62-67: an invalid index writes the dummy. -/
def writeIdx (s : FA α) (index : Int) (item : α) : Res (FA α) :=
  if !Arr.isValidIndex s.items.length index then .ok { s with dummy := item }
  else do
    let items ← cSetI s.items index item
    pure { s with items := items }

/-- `x = arr[index]` on a non-const FixedArray, FixedArray.h 62-67: an invalid index reads the dummy. -/
def readIdx (s : FA α) (index : Int) : Res α :=
  if !Arr.isValidIndex s.items.length index then .ok s.dummy else cGetI s.items index

/-- `memset(p, 0, n)` on a byte buffer (C standard 7.24.6.1): undefined past the end of the buffer. -/
def memset0 (bytes : List Nat) (n : Nat) : Res (List Nat) :=
  if n ≤ bytes.length then .ok (List.replicate n 0 ++ bytes.drop n) else .ub

/-- FixedArray.h 72-75, FixedArrayRef.h 67-70 at byte level: `memset(getBuffer(), 0, MaxItems)`, where
    the storage is `MaxItems * sizeof(T)` bytes. -/
def clearBytes (maxItems : Nat) (storage : List Nat) : Res (List Nat) := memset0 storage maxItems

end Atl.FixedArray

namespace Atl.StaticArray

variable {α : Type}

/-- StaticArray.h 83-86: `index >= 0 && index < MaxItems` (after the first test the conversion to unsigned on AVR is
    value preserving). -/
def isValidIndex (maxItems : Nat) (index : Int) : Bool :=
  decide (0 ≤ index) && decide (index < maxItems)

/-- StaticArray.h 72-77 (the program-memory read is an array read). -/
def getAt (d : α) (a : List α) (index : Int) : Res α :=
  if !isValidIndex a.length index then .ok d else cGetI a index

/-- One test-and-body of the loop StaticArray.h 95-99 for counter value `i` (a `uint8_t`): either the function has
    returned (`inr`) or the loop continues with `(uint8_t)(i + 1)`; 101 is the return after the loop. -/
def indexOfStep [DecidableEq α] (d : α) (a : List α) (item : α) (i : Nat) : Res (Nat ⊕ Int) :=
  if i < a.length then
    match getAt d a i with
    | .ub => .ub
    | .ok v => if v = item then .ok (.inr (toS 8 i)) else .ok (.inl (toU 8 (i + 1)))
  else .ok (.inr (-1))

/-- At most `fuel` rounds of the loop; `none` means "still running" (the loop of StaticArray.h 93-104). -/
def indexOfRun [DecidableEq α] (d : α) (a : List α) (item : α) : (fuel : Nat) → (i : Nat) → Option (Res Int)
  | 0, _ => none
  | fuel + 1, i =>
    match indexOfStep d a item i with
    | .ub => some .ub
    | .ok (.inr r) => some (.ok r)
    | .ok (.inl j) => indexOfRun d a item fuel j

end Atl.StaticArray

namespace Atl.Collection

variable {α : Type}

/-- Collection.h 33-161 over a FixedArray (CollectionRef.h 34-147 has the same bodies over a reference). -/
structure Coll (α : Type) where
  arr : FixedArray.FA α
  count : Nat
  deriving Repr, DecidableEq

/-- Collection.h 42-51: count 0, the elements are not initialised. -/
def init (arr : FixedArray.FA α) : Coll α := { arr := arr, count := 0 }

/-- Collection.h 56-59. -/
def getCapacity (c : Coll α) : Nat := c.arr.items.length

/-- Collection.h 64-67. -/
def getCount (c : Coll α) : Nat := c.count

/-- Collection.h 73-76. -/
def isValidIndex (c : Coll α) (index : Int) : Bool :=
  decide (0 ≤ index) && decide (index < c.count)

/-- Collection.h 99-104, CollectionRef.h 78-83. -/
def getAt (d : α) (c : Coll α) (index : Int) : Res α :=
  if !isValidIndex c index then .ok d else Arr.getAt d c.arr.items index

/-- Collection.h 121-128, CollectionRef.h 115-122.  `_count` (`uint16_t`) is converted to the `int16_t` parameter of SetAt. -/
def add (c : Coll α) (item : α) : Res (Coll α) :=
  if c.count < getCapacity c then do
    let arr ← FixedArray.setAt c.arr (toS 16 c.count) item
    pure { arr := arr, count := toU 16 (c.count + 1) }
  else .ok c

/-- Collection.h 135-140. -/
def setAt (c : Coll α) (index : Int) (item : α) : Res (Coll α) :=
  if !isValidIndex c index then .ok c
  else do
    let arr ← FixedArray.setAt c.arr index item
    pure { c with arr := arr }

/-- Collection.h 145-148. -/
def clear (c : Coll α) : Coll α := { c with count := 0 }

/-- The loop Collection.h 85-89 from `i` on (`int i`), with `rem = _count - i` rounds to go.  Simplification: the overflow of a 16-bit `i` after 32767 is not
    represented; the theorems bound the count.  The found index is returned as `char` (signed, 8 bits). -/
def indexOfLoop [DecidableEq α] (d : α) (c : Coll α) (item : α) (rem : Nat) (i : Nat) : Res Int :=
  match rem with
  | 0 => .ok (-1)
  | rem + 1 =>
    match Arr.getAt d c.arr.items (toS 16 i) with
    | .ub => .ub
    | .ok v => if v = item then .ok (toS 8 i) else indexOfLoop d c item rem (i + 1)

/-- Collection.h 83-92, CollectionRef.h 100-109. -/
def indexOf [DecidableEq α] (d : α) (c : Coll α) (item : α) : Res Int := indexOfLoop d c item c.count 0

end Atl.Collection

namespace Atl.FixedString

/-- `strncpy(dst, src, n)` (C standard 7.24.2.4), byte by byte from position `i`: copies characters of `src` (given
    without its terminator) and pads with zeros up to `n` characters. -/
def strncpyLoop (buf : List Int) (src : List Int) (n : Nat) (i : Nat) : Res (List Int) :=
  if i < n then
    match cSet buf i (src.head?.getD 0) with
    | .ub => .ub
    | .ok buf' => strncpyLoop buf' src.tail n (i + 1)
  else .ok buf
termination_by n - i

/-- FixedString.h 79-82 and `operator=` 88-91.  The buffer is the `MaxChars + 1` chars of the base class. -/
def copyFrom (maxChars : Nat) (s : FixedArray.FA Int) (text : List Int) : Res (FixedArray.FA Int) := do
  let b ← strncpyLoop s.items text maxChars 0
  pure { s with items := b }

/-- `BaseT::Clear()` for `char` elements (FixedArray.h 72-75 with sizeof(T) = 1): all `MaxChars + 1` bytes. -/
def clear (maxChars : Nat) (s : FixedArray.FA Int) : Res (FixedArray.FA Int) :=
  if maxChars + 1 ≤ s.items.length then
    .ok { s with items := List.replicate (maxChars + 1) 0 ++ s.items.drop (maxChars + 1) }
  else .ub

/-- FixedString.h 45-48: construct over uninitialised storage. -/
def init (maxChars : Nat) (garbage : FixedArray.FA Int) : Res (FixedArray.FA Int) := clear maxChars garbage

/-- FixedString.h 53-57. -/
def initText (maxChars : Nat) (garbage : FixedArray.FA Int) (text : List Int) : Res (FixedArray.FA Int) := do
  let s ← clear maxChars garbage
  copyFrom maxChars s text

/-- FixedString.h 62-65 and 70-73: `uint8_t` return type. -/
def getCapacity (maxChars : Nat) : Nat := toU 8 maxChars

end Atl.FixedString
