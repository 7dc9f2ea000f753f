import Verif.Model.Basic

/-
  Model of TextWriter.h and TextFormatInfo.h. Output is the list of bytes passed to `BaseT::Write(byte)`.
-/
namespace Atl.Text

/-- The format settings (`TextFormatInfo`, TextFormatInfo.h 51-67). -/
structure Format where
  newLine : List Nat := [10, 13]
  decimalDigits : Nat := 2
  negativeSign : Nat := 45
  decimalSeparator : Nat := 46
  defaultBase : Nat := 10

/-- `TextWriter::Write(const char str[])` (TextWriter.h 57-66): `mem` is the memory from the pointer on; running past the object is undefined. -/
def writeStr : List Nat → Res (List Nat)
  | [] => .ub
  | c :: cs => if c = 0 then .ok [] else do let r ← writeStr cs; .ok (c :: r)

/-- The same with a pointer that may be NULL: the code dereferences it without a test (61). -/
def writePtr : Option (List Nat) → Res (List Nat)
  | none => .ub
  | some mem => writeStr mem

/-- The character for a digit (TextWriter.h 260-261): `char c = (char)...; c < 10 ? c + '0' : c + 'A' - 10`, stored in a `char`. -/
def digitChar (x : Int) : Nat :=
  let c := toS 8 x
  toU 8 (if c < 10 then c + 48 else c + 65 - 10)

/-- The digit loop (TextWriter.h 255-263): fills `buffer` backwards; `pos` is the index of `strPos`. Writing below the buffer is undefined.
    `n` is the width of `T`. Returns the final `strPos` and the buffer. -/
def digitLoop (n base : Nat) : Nat → List Nat → Nat → Res (Nat × List Nat)
  | 0, _, _ => .ub
  | pos + 1, buf, v => do
    let q := v / base
    let buf ← cSet buf pos (digitChar (toU n ((v : Int) - base * q)))
    if q ≠ 0 then digitLoop n base pos buf q else .ok (pos, buf)

/-- `WriteInternal<T, bufferSize>` (TextWriter.h 241-266), `n` the width of `T`. The initial content of the buffer is `junk`. -/
def writeInternal (n size : Nat) (junk : List Nat) (v base : Nat) : Res (List Nat) := do
  let buf ← cSet junk (size - 1) 0
  let base := if base < 2 then 10 else base
  let (pos, buf) ← digitLoop n base (size - 1) buf v
  writeStr (buf.drop pos)

/-- The uninitialised buffer, filled with an arbitrary byte (TextWriter.h 242-264). -/
def junkBuf (size : Nat) : List Nat := List.replicate size 0xCC

/-- `WriteInt` (TextWriter.h 229-233): `unsigned int` has `W` bits, the argument 16. -/
def writeInt (W : Nat) (v base : Nat) : Res (List Nat) := writeInternal W 11 (junkBuf 11) v base

/-- `WriteLong` (TextWriter.h 235-239). -/
def writeLong (v base : Nat) : Res (List Nat) := writeInternal 32 21 (junkBuf 21) v base

/-- Unary minus in a signed type of `w` bits: undefined for the smallest value, unless the compiler wraps (`-fwrapv`) (TextWriter.h 71-91, 103-123). -/
def neg (wrapv : Bool) (w : Nat) (x : Int) : Res Int :=
  if x = -(2 ^ (w - 1)) then (if wrapv then .ok x else .ub) else .ok (-x)

/-- `Write(int16_t)` (TextWriter.h 71-90). `-value` is computed in `int` (`W` bits) and converted to `uint16_t`. -/
def writeI16 (W : Nat) (wrapv : Bool) (f : Format) (x : Int) : Res (List Nat) :=
  if f.defaultBase = 10 then
    if x < 0 then do
      let m ← neg wrapv W x
      let r ← writeInt W (toU 16 m) f.defaultBase
      .ok (f.negativeSign :: r)
    else writeInt W (toU 16 x) f.defaultBase
  else writeInt W (toU 16 x) f.defaultBase

/-- `Write(uint16_t)` (TextWriter.h 95-98). -/
def writeU16 (W : Nat) (f : Format) (x : Nat) : Res (List Nat) := writeInt W x f.defaultBase

/-- `Write(uint8_t)` (TextWriter.h 48-51). -/
def writeU8 (W : Nat) (f : Format) (x : Nat) : Res (List Nat) := writeU16 W f x

/-- `Write(int32_t)` (TextWriter.h 103-122). -/
def writeI32 (wrapv : Bool) (f : Format) (x : Int) : Res (List Nat) :=
  if f.defaultBase = 10 then
    if x < 0 then do
      let m ← neg wrapv 32 x
      let r ← writeLong (toU 32 m) f.defaultBase
      .ok (f.negativeSign :: r)
    else writeLong (toU 32 x) f.defaultBase
  else writeLong (toU 32 x) f.defaultBase

/-- `Write(uint32_t)` (TextWriter.h 127-130). -/
def writeU32 (f : Format) (x : Nat) : Res (List Nat) := writeLong x f.defaultBase

/-- `Write(char)` (TextWriter.h 40-43): `c` is the byte; `char` is signed. -/
def writeChar (W : Nat) (f : Format) (c : Nat) : Res (List Nat) := writeI16 W false f (toS 8 c)

/-- `WriteLine()` (TextWriter.h 150-153); the format's new line is a terminated string. -/
def writeLine (f : Format) : Res (List Nat) := writeStr (f.newLine ++ [0])

/-- The overloads `WriteLine(value)` (TextWriter.h 158-226): the value followed by a new line. -/
def withLine (f : Format) (w : Res (List Nat)) : Res (List Nat) := do
  let a ← w
  let b ← writeLine f
  .ok (a ++ b)

/-- The rounding loop of `WriteReal` (TextWriter.h 276-284); `rnd` is the rounding of the floating point format. -/
def rounding (rnd : Rat → Rat) : Nat → Rat
  | 0 => 1 / 2
  | d + 1 => rnd (rounding rnd d / 10)

/-- Conversion of a floating point value to an unsigned type of `w` bits: truncation; undefined when the result does not fit (TextWriter.h 268-310). -/
def toUnsigned (w : Nat) (x : Rat) : Res Nat :=
  if x ≤ -1 ∨ (2 : Rat) ^ w ≤ x then .ub else if x < 0 then .ok 0 else .ok x.floor.toNat

/-- The decimals loop (TextWriter.h 299-307). -/
def decimals (rnd : Rat → Rat) (W : Nat) : Nat → Rat → Res (List Nat)
  | 0, _ => .ok []
  | d + 1, rem => do
    let rem := rnd (rem * 10)
    let number := toU 16 (← toUnsigned W rem)
    let a ← writeInt W number 10
    let b ← decimals rnd W d (rnd (rem - number))
    .ok (a ++ b)

/-- `WriteReal` (TextWriter.h 268-309) for a finite value; every floating point operation is followed by `rnd`
    (`id` for exact arithmetic; `double` is a 32-bit float on AVR). -/
def writeReal (rnd : Rat → Rat) (W : Nat) (f : Format) (x : Rat) (digits : Nat) : Res (List Nat) := do
  let sign := if x < 0 then [f.negativeSign] else []
  let x := if x < 0 then -x else x
  let real := rnd (x + rounding rnd digits)
  let integer ← toUnsigned 32 real
  let rem := rnd (real - rnd integer)
  let a ← writeLong integer 10
  if digits > 0 then do
    let b ← decimals rnd W digits rem
    .ok (sign ++ a ++ f.decimalSeparator :: b)
  else .ok (sign ++ a)

/-- `Write(float)`, `Write(double)` (TextWriter.h 135-146). -/
def writeFloat (rnd : Rat → Rat) (W : Nat) (f : Format) (x : Rat) : Res (List Nat) := writeReal rnd W f x f.decimalDigits

/-- Largest `e` (up to `fuel`) with `2^e ≤ x`, for `x ≥ 1` (TextWriter.h 268-310). -/
def log2 (x : Rat) : Nat := x.floor.toNat.log2

/-- Round a nonnegative rational to an integer, ties to even (TextWriter.h 268-310). -/
def roundEven (x : Rat) : Int :=
  let n := x.floor
  let f := x - n
  if f < 1 / 2 then n else if 1 / 2 < f then n + 1 else if n % 2 = 0 then n else n + 1

/-- Round to a binary format with `p` bits of precision and smallest exponent `-b` of normal numbers, ties to even, ignoring overflow:
    binary32 for `p = 24`, `b = 126`; binary64 for `p = 53`, `b = 1022` (TextWriter.h 268-310). -/
def roundBin (p b : Nat) (x : Rat) : Rat :=
  let a := if x < 0 then -x else x
  let e : Int := (log2 (a * 2 ^ b) : Int) - b
  let s : Rat := if 0 ≤ (p : Int) - 1 - e then 2 ^ ((p : Int) - 1 - e).toNat else 1 / 2 ^ (e + 1 - p).toNat
  let r : Rat := roundEven (a * s) / s
  if x < 0 then -r else r

end Atl.Text
