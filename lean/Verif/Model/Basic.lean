/-
  Shared vocabulary of the model: the outcome of a C++ computation.

  `Res.ub` is undefined behaviour in the sense of the C++ standard (out-of-bounds access, invalid
  shift, signed overflow, division by zero, NULL dereference).  It is a distinct outcome, so a theorem
  that concludes `= .ok _` also says that no undefined behaviour occurs.
-/
namespace Atl

/-- Outcome of a C++ computation: a value or undefined behaviour (used for every function; the first to need it: StaticArray.h 72-78). -/
inductive Res (α : Type) where
  | ok (a : α)
  | ub
  deriving Repr, DecidableEq

namespace Res

/-- Sequencing: undefined behaviour is sticky (a sequence of C++ statements, as in RingBuffer.h 61-80). -/
def bind {α β : Type} (r : Res α) (f : α → Res β) : Res β :=
  match r with
  | ok a => f a
  | ub => ub

instance : Monad Res where
  pure := ok
  bind := bind

@[simp] theorem pure_eq {α : Type} (a : α) : (pure a : Res α) = ok a := rfl
@[simp] theorem bind_ok {α β : Type} (a : α) (f : α → Res β) : (ok a >>= f) = f a := rfl
@[simp] theorem bind_ub {α β : Type} (f : α → Res β) : ((ub : Res α) >>= f) = ub := rfl

end Res

/-- A raw C array read `a[i]`: undefined behaviour outside the array (such as RingBuffer.h 87, StaticArray.h 77). -/
def cGet {α : Type} (a : List α) (i : Nat) : Res α :=
  match a[i]? with
  | some v => .ok v
  | none => .ub

/-- A raw C array store `a[i] = v`: undefined behaviour outside the array (such as RingBuffer.h 65). -/
def cSet {α : Type} (a : List α) (i : Nat) (v : α) : Res (List α) :=
  if i < a.length then .ok (a.set i v) else .ub

/-- A raw C array read with a signed index (such as Array.h 62-67). -/
def cGetI {α : Type} (a : List α) (i : Int) : Res α :=
  if i < 0 then .ub else cGet a i.toNat

/-- A raw C array store with a signed index (such as Delays.h 94-137). -/
def cSetI {α : Type} (a : List α) (i : Int) (v : α) : Res (List α) :=
  if i < 0 then .ub else cSet a i.toNat v

theorem cGet_ok {α : Type} {a : List α} {i : Nat} (h : i < a.length) : cGet a i = .ok a[i] := by
  simp [cGet, List.getElem?_eq_getElem h]

theorem cSet_ok {α : Type} {a : List α} {i : Nat} (v : α) (h : i < a.length) :
    cSet a i v = .ok (a.set i v) := by
  simp [cSet, h]

/-- Conversion of an integer to an unsigned type of `n` bits (C++ [conv.integral]) (such as Delays.h 47-52, RingBuffer.h 101-109). -/
def toU (n : Nat) (x : Int) : Nat := (x % (2 ^ n : Nat)).toNat

/-- Conversion of an integer to a signed two's complement type of `n` bits
    (implementation defined before C++20; avr-gcc and MSVC reduce modulo `2^n`) (such as StaticArray.h 93-104). -/
@[irreducible] def toS (n : Nat) (x : Int) : Int :=
  (x + (2 ^ (n - 1) : Nat)) % (2 ^ n : Nat) - (2 ^ (n - 1) : Nat)

end Atl
