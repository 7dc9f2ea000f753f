import Verif.Model.TextWriter
import Verif.Model.Range
import Mathlib.Algebra.Order.Group.Unbundled.Abs
import Mathlib.Algebra.Order.Ring.Rat

/-
  Model of PID.h 57-135 and of `Range::ClipValue` (Range.h 94-104) for `T = float`: IEEE numbers with infinities and NaN, as used by
  PIDTest.cpp 11-43 (`PID<PidBase<float>, float>`). Signed zero is left out: the only division is by `deltaTime`, converted from an
  unsigned integer, so its zero is positive. `deltaTime` has 16 bits and is exact as a `float`.
-/
namespace Atl.PIDFloat

/-- A floating point number (the operators of PID.h 69-132 on `float`). -/
inductive Fl where
  | nan
  | inf (neg : Bool)
  | fin (q : Rat)
  deriving Repr, DecidableEq

/-- A format: the rounding of a real result, and the largest finite number (the operators of PID.h 69-132 on `float`). -/
structure Fmt where
  round : Rat → Rat
  top : Rat

/-- `float` (and on AVR `double`) (the operators of PID.h 69-132 on `float`). -/
def binary32 : Fmt := ⟨Text.roundBin 24 126, (2 ^ 24 - 1) * 2 ^ 104⟩

namespace Fl

/-- A real result: rounded, or infinite when too large (the operators of PID.h 69-132 on `float`). -/
def ofReal (f : Fmt) (q : Rat) : Fl := if |f.round q| ≤ f.top then .fin (f.round q) else .inf (decide (q < 0))

/-- `a < b` (and `b > a`): false when one is NaN (the operators of PID.h 69-132 on `float`). -/
def lt : Fl → Fl → Bool
  | .fin p, .fin q => decide (p < q)
  | .inf a, .inf b => a && !b
  | .inf a, .fin _ => a
  | .fin _, .inf b => !b
  | _, _ => false

/-- `a <= b`: false when one is NaN (the operators of PID.h 69-132 on `float`). -/
def le : Fl → Fl → Bool
  | .fin p, .fin q => decide (p ≤ q)
  | .inf a, .inf b => a || !b
  | .inf a, .fin _ => a
  | .fin _, .inf b => !b
  | _, _ => false

/-- `-a` (the operators of PID.h 69-132 on `float`). -/
def neg : Fl → Fl
  | .nan => .nan
  | .inf a => .inf (!a)
  | .fin q => .fin (-q)

/-- `a + b` (the operators of PID.h 69-132 on `float`). -/
def add (f : Fmt) : Fl → Fl → Fl
  | .fin p, .fin q => ofReal f (p + q)
  | .inf a, .inf b => if a = b then .inf a else .nan
  | .inf a, .fin _ => .inf a
  | .fin _, .inf b => .inf b
  | _, _ => .nan

/-- `a - b` (the operators of PID.h 69-132 on `float`). -/
def sub (f : Fmt) (a b : Fl) : Fl := add f a (neg b)

/-- `a * b` (the operators of PID.h 69-132 on `float`). -/
def mul (f : Fmt) : Fl → Fl → Fl
  | .fin p, .fin q => ofReal f (p * q)
  | .inf a, .inf b => .inf (a != b)
  | .inf a, .fin q => if q = 0 then .nan else .inf (a != decide (q < 0))
  | .fin q, .inf a => if q = 0 then .nan else .inf (a != decide (q < 0))
  | _, _ => .nan

/-- `a / n` for an unsigned integer `n` (the operators of PID.h 69-132 on `float`). -/
def divNat (f : Fmt) : Fl → Nat → Fl
  | .fin q, n => if n = 0 then (if q = 0 then .nan else .inf (decide (q < 0))) else ofReal f (q / n)
  | .inf a, _ => .inf a
  | .nan, _ => .nan

/-- `a == 0` (the operators of PID.h 69-132 on `float`). -/
def isZero : Fl → Bool
  | .fin q => decide (q = 0)
  | _ => false

end Fl

/-- `Range<float>::ClipValue` (Range.h 94-104). -/
def clip (lo hi v : Fl) : Fl :=
  let v := if hi.lt v then hi else v
  if v.lt lo then lo else v

/-- `_integralAcc`, `_lastError` (PID.h 83-84) and the state of `BaseT::LowPassFilter`. -/
structure Mem (F : Type) where
  acc : Fl
  last : Fl
  filt : F

/-- What one call sees: `BaseT::getFeedback`, `getLargestAcceptableError`, `getDeltaTime` and the arguments of `Process` (PID.h 69-73). -/
structure Input where
  feedback : Fl
  largest : Fl
  delta : Nat
  setPoint : Fl
  biasP : Fl
  biasI : Fl
  biasD : Fl
  deriving DecidableEq

variable {F : Type}

/-- The condition of PID.h 91-92. -/
def deadBand (error largest : Fl) : Bool :=
  (error.le largest && Fl.le (.fin 0) error) || (largest.neg.le error && error.le (.fin 0))

/-- `CalcError` (PID.h 86-99). -/
def calcError (f : Fmt) (x : Input) (m : Mem F) : Fl × Mem F :=
  let error := Fl.sub f x.setPoint x.feedback
  if deadBand error x.largest then (.fin 0, { m with acc := .fin 0 }) else (error, m)

/-- `CalcP` (PID.h 101-106). -/
def calcP (f : Fmt) (error bias : Fl) : Fl := if bias.isZero then .fin 0 else Fl.mul f error bias

/-- `CalcI` (PID.h 108-118). -/
def calcI (f : Fmt) (lo hi error : Fl) (delta : Nat) (bias : Fl) (m : Mem F) : Fl × Mem F :=
  if bias.isZero then (m.acc, m)
  else
    let a := clip lo hi (Fl.add f m.acc (Fl.mul f (Fl.mul f error (.fin delta)) bias))
    (a, { m with acc := a })

/-- `CalcD` (PID.h 120-135). -/
def calcD (f : Fmt) (filter : F → Fl → Nat → Fl × F) (error : Fl) (delta : Nat) (bias : Fl) (m : Mem F) : Fl × Mem F :=
  let e := filter m.filt error delta
  let v := if bias.isZero then .fin 0 else Fl.divNat f (Fl.mul f (Fl.sub f e.1 m.last) bias) delta
  (v, { m with last := e.1, filt := e.2 })

/-- `Process` (PID.h 69-80). The three terms touch different members: their order does not matter. -/
def process (f : Fmt) (lo hi : Fl) (filter : F → Fl → Nat → Fl × F) (x : Input) (m : Mem F) : Fl × Mem F :=
  let e := calcError f x m
  let p := calcP f e.1 x.biasP
  let i := calcI f lo hi e.1 x.delta x.biasI e.2
  let d := calcD f filter e.1 x.delta x.biasD i.2
  (clip lo hi (Fl.add f (Fl.add f p i.1) d.1), d.2)

/-- A history of calls: the values returned and the memory after it (PID.h 69-132). -/
def run (f : Fmt) (lo hi : Fl) (filter : F → Fl → Nat → Fl × F) (m : Mem F) : List Input → List Fl × Mem F
  | [] => ([], m)
  | x :: xs =>
    let r := process f lo hi filter x m
    let s := run f lo hi filter r.2 xs
    (r.1 :: s.1, s.2)

/-- `LowPassFilter` of PIDTest.cpp 37-40: returns its argument. -/
def noFilter (s : F) (e : Fl) (_ : Nat) : Fl × F := (e, s)

end Atl.PIDFloat
