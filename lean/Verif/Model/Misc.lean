import Verif.Model.Basic
import Verif.Model.Array

/-
  Model of Math.h, StaticString.h, ProgMemAccessor.h (with the address arithmetic of StaticArray.h), Debug.h and IdentifiableObject.h.
-/
namespace Atl.Misc

/-! ### Math.h -/

/-- `Math::Abs` (Math.h 38-41) for an unsigned type: `value >= 0` is always true. -/
def absUnsigned (value : Nat) : Nat := value

/-- `Math::Abs` (Math.h 38-41) for a signed type of `n` bits, `int` of `W` bits: a narrower type is negated in `int` and converted back; otherwise the
    negation of the smallest value overflows. -/
def absSigned (W n : Nat) (value : Int) : Res Int :=
  if 0 ≤ value then .ok value
  else if n < W then .ok (toS n (-value))
  else if value = -(2 ^ (n - 1) : Nat) then .ub else .ok (-value)

/-! ### StaticString.h -/

/-- `StaticString::Read` (StaticString.h 47-50): `strncpy_P` is `strncpy` with the source in program memory. `target` is the buffer of the caller, `str` the
    characters of the string without its terminator. -/
def staticRead (target : List Int) (str : List Int) (targetLen : Nat) : Res (List Int) := FixedString.strncpyLoop target str targetLen 0

/-! ### ProgMemAccessor.h -/

/-- `pgm_read_byte_near`, `pgm_read_word_near`, `pgm_read_dword_near` (ProgMemAccessor.h 43-66) for `size` 1, 2, 4: the address is a `uint16_t`, the bytes
    come least significant first. -/
def pgmRead (flash : Nat → Nat) (size address : Nat) : Nat :=
  match size with
  | 0 => 0
  | k + 1 => flash (toU 16 address) + 256 * pgmRead flash k (address + 1)

/-- `&_arr[index]` (StaticArray.h 76) as a 16-bit pointer. -/
def itemAddress (base size index : Nat) : Nat := toU 16 ((base + size * index : Nat) : Int)

/-- `ProgMemAccessor<T>::Read(&_arr[index])` (StaticArray.h 76, ProgMemAccessor.h 43-66) for an unsigned `T` of `size` bytes. -/
def readUnsigned (flash : Nat → Nat) (base size index : Nat) : Nat := toU (8 * size) (pgmRead flash size (itemAddress base size index))
/-- The same for a signed `T`: the unsigned value is cast (ProgMemAccessor.h 39-66). -/
def readSigned (flash : Nat → Nat) (base size index : Nat) : Int := toS (8 * size) (pgmRead flash size (itemAddress base size index))

/-! ### Debug.h -/

/-- `CanLog` (Debug.h 99-103) of a debug build; the user's `AtlDebugLevel` is optional (a weak symbol). -/
def canLog (levelFn : Option (Nat → Nat → Bool)) (component level : Nat) : Bool :=
  match levelFn with
  | none => true
  | some f => f component level

/-- `Log` (Debug.h 86-91) of a debug build: the messages handed to the user's `AtlDebugWrite`, if there is one. -/
def log (hasWrite : Bool) (levelFn : Option (Nat → Nat → Bool)) (component level : Nat) (message : List Nat) : List (List Nat) :=
  if !hasWrite then [] else if !canLog levelFn component level then [] else [message]

/-- `Log` (Debug.h 125) of a release build. -/
def logRelease (_ : List Nat) : List (List Nat) := []
/-- `CanLog` (Debug.h 133) of a release build. -/
def canLogRelease : Bool := false

/-! ### IdentifiableObject.h -/

/-- `getId` (IdentifiableObject.h 37-40): the address as `uint16_t`. -/
def getId (address : Nat) : Nat := toU 16 address

end Atl.Misc
