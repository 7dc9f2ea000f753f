import Verif.Model.Basic
import Verif.Model.Range

/-
  Model of PID.h 57-152. `BaseT` supplies feedback, the largest acceptable error, the delta time, a low pass filter (which may have
  a state of its own) and `ClipValue`, here the one of Range.h (as in PIDTest.cpp).
-/
namespace Atl.PID

/-- The arithmetic of the value type `T` as used by PID.h; every operation may be undefined (overflow, division by zero). -/
structure Arith (T : Type) where
  zero : T
  /-- `a - b` (88, 129) -/
  sub : T → T → Res T
  /-- `-a` (92) -/
  neg : T → Res T
  /-- `a + b` (75) -/
  add : T → T → Res T
  /-- `a * b` (105) -/
  mul : T → T → Res T
  /-- `acc + (error * deltaTime) * bias`, converted back to `T` (112) -/
  accum : T → T → Nat → T → Res T
  /-- `((error - last) * bias) / deltaTime`, converted back to `T` (129) -/
  deriv : T → T → Nat → T → Res T

/-- The memory of the controller (83-84) and of the filter. Nothing is initialised by the class: any start value is possible. -/
structure Mem (T F : Type) where
  acc : T
  last : T
  filt : F
  deriving Repr, DecidableEq

/-- What `BaseT` supplies at one call (PID.h 69-132). -/
structure Input (T : Type) where
  feedback : T
  largest : T
  delta : Nat
  setPoint : T
  biasP : T
  biasI : T
  biasD : T
  deriving Repr, DecidableEq

/-- The results of the three terms of line 75. -/
structure Terms (T : Type) where
  p : T
  i : T
  d : T
  deriving Repr, DecidableEq

variable {T F : Type} [LinearOrder T]

/-- `CalcError` (PID.h 86-99). `&&` and `||` are evaluated with short circuit; `-largestError` only when the first test fails. -/
def calcError (A : Arith T) (setPoint input largest : T) (m : Mem T F) : Res (T × Mem T F) := do
  let error ← A.sub setPoint input
  if error ≤ largest ∧ A.zero ≤ error then .ok (A.zero, { m with acc := A.zero })
  else do
    let nl ← A.neg largest
    if nl ≤ error ∧ error ≤ A.zero then .ok (A.zero, { m with acc := A.zero }) else .ok (error, m)

/-- `CalcP` (PID.h 101-106). -/
def calcP (A : Arith T) (error bias : T) : Res T := if bias = A.zero then .ok A.zero else A.mul error bias

/-- `CalcI` (PID.h 108-118). -/
def calcI (A : Arith T) (r : Range.Rng T) (error : T) (delta : Nat) (bias : T) (m : Mem T F) : Res (T × Mem T F) :=
  if bias ≠ A.zero then do
    let a ← A.accum m.acc error delta bias
    let a := Range.clipValue r a
    .ok (a, { m with acc := a })
  else .ok (m.acc, m)

/-- `CalcD` (PID.h 120-135); `filter` is `BaseT::LowPassFilter` with its state. -/
def calcD (A : Arith T) (filter : F → T → Nat → T × F) (error : T) (delta : Nat) (bias : T) (m : Mem T F) : Res (T × Mem T F) := do
  let (e, f) := filter m.filt error delta
  let v ← if bias ≠ A.zero then A.deriv e m.last delta bias else .ok A.zero
  .ok (v, { m with last := e, filt := f })

/-- The three calls of line 75. -/
inductive Term where
  | P | I | D
  deriving Repr, DecidableEq

/-- Evaluate one of the three calls, remembering its result (PID.h 69-132). -/
def evalTerm (A : Arith T) (r : Range.Rng T) (filter : F → T → Nat → T × F) (x : Input T) (error : T) (t : Term)
    (s : Terms T × Mem T F) : Res (Terms T × Mem T F) :=
  match t with
  | .P => do let v ← calcP A error x.biasP; .ok ({ s.1 with p := v }, s.2)
  | .I => do let (v, m) ← calcI A r error x.delta x.biasI s.2; .ok ({ s.1 with i := v }, m)
  | .D => do let (v, m) ← calcD A filter error x.delta x.biasD s.2; .ok ({ s.1 with d := v }, m)

/-- Evaluate calls in a given order: C++ leaves the order of the operands of `+` unspecified (PID.h 69-132). -/
def evalTerms (A : Arith T) (r : Range.Rng T) (filter : F → T → Nat → T × F) (x : Input T) (error : T) :
    List Term → Terms T × Mem T F → Res (Terms T × Mem T F)
  | [], s => .ok s
  | t :: ts, s => do let s ← evalTerm A r filter x error t s; evalTerms A r filter x error ts s

/-- `Process` (PID.h 69-80) with the compiler's evaluation order. -/
def process (A : Arith T) (r : Range.Rng T) (filter : F → T → Nat → T × F) (order : List Term) (x : Input T) (m : Mem T F) :
    Res (T × Mem T F) := do
  let (error, m) ← calcError A x.setPoint x.feedback x.largest m
  let (t, m) ← evalTerms A r filter x error order (⟨A.zero, A.zero, A.zero⟩, m)
  let a ← A.add t.p t.i
  let v ← A.add a t.d
  .ok (Range.clipValue r v, m)

/-- A history of calls; the results with the memory after each call (PID.h 69-132). -/
def run (A : Arith T) (r : Range.Rng T) (filter : F → T → Nat → T × F) (order : List Term) (m : Mem T F) :
    List (Input T) → Res (List (T × Mem T F))
  | [] => .ok []
  | x :: xs => do
    let (v, m') ← process A r filter order x m
    let rest ← run A r filter order m' xs
    .ok ((v, m') :: rest)

/-- Real numbers in exact arithmetic (`float`, `double` without rounding). Division by a zero time step is reported as undefined (the operators of PID.h 69-132). -/
def rat : Arith Rat where
  zero := 0
  sub a b := .ok (a - b)
  neg a := .ok (-a)
  add a b := .ok (a + b)
  mul a b := .ok (a * b)
  accum a e dt b := .ok (a + e * dt * b)
  deriv e l dt b := if dt = 0 then .ub else .ok ((e - l) * b / dt)

/-- Signed overflow is undefined (the operators of PID.h 69-132). -/
def inBits (w : Nat) (x : Int) : Res Int := if -(2 ^ (w - 1) : Nat) ≤ x ∧ x < (2 ^ (w - 1) : Nat) then .ok x else .ub

/-- `T = int` on AVR (16 bits): `deltaTime` has type `uint16_t` = `unsigned int`, so lines 112 and 129 are computed in
    `unsigned int` (usual arithmetic conversions) and converted back. -/
def int16 : Arith Int where
  zero := 0
  sub a b := inBits 16 (a - b)
  neg a := inBits 16 (-a)
  add a b := inBits 16 (a + b)
  mul a b := inBits 16 (a * b)
  accum a e dt b := .ok (toS 16 (toU 16 (toU 16 a + toU 16 (toU 16 (toU 16 e * dt) * toU 16 b))))
  deriv e l dt b := do
    let d ← inBits 16 (e - l)
    let n ← inBits 16 (d * b)
    if dt = 0 then .ub else .ok (toS 16 (toU 16 n / dt : Nat))

/-- `T = long` on AVR (32 bits): `deltaTime` is converted to `long`; `/` truncates towards zero. -/
def int32 : Arith Int where
  zero := 0
  sub a b := inBits 32 (a - b)
  neg a := inBits 32 (-a)
  add a b := inBits 32 (a + b)
  mul a b := inBits 32 (a * b)
  accum a e dt b := do
    let x ← inBits 32 (e * dt)
    let y ← inBits 32 (x * b)
    inBits 32 (a + y)
  deriv e l dt b := do
    let d ← inBits 32 (e - l)
    let n ← inBits 32 (d * b)
    if dt = 0 then .ub else .ok (n.tdiv dt)

end Atl.PID
