import Verif.Model.Basic

/-
  Delegates (Delegate.h): a pointer to an object with a method fixed at compile time, for methods with zero to five parameters, with and without a result.
  Objects are identified by their address. The arguments are taken from one type `α` and the results from one type `ρ` (for the classes without result `ρ` has
  one element); `σ` is the state of an object of `ClassT`. A method changes its own object only.
-/
namespace Atl.Delegate

/-- The methods of `ClassT` that are given as `Callback`, one for each number of parameters (Delegate.h 42, 65, 88, 111, 134, 157 and 182-297). -/
structure Methods (σ α ρ : Type) where
  m0 : σ → σ × ρ
  m1 : α → σ → σ × ρ
  m2 : α → α → σ → σ × ρ
  m3 : α → α → α → σ → σ × ρ
  m4 : α → α → α → α → σ → σ × ρ
  m5 : α → α → α → α → α → σ → σ × ρ

/-- The objects that live, by address (Delegate.h 62). -/
abbrev Heap (σ : Type) := Nat → Option σ

/-- `(instance->*Callback)(...)`: a call through a pointer that points to no object is undefined (Delegate.h 53, 58). -/
def callOn {σ ρ : Type} (h : Heap σ) (inst : Nat) (m : σ → σ × ρ) : Res (Heap σ × ρ) :=
  match h inst with
  | none => .ub
  | some s => .ok (fun a => if a = inst then some (m s).1 else h a, (m s).2)

/-- The arguments of a call of Invoke (Delegate.h 51, 74, 97, 120, 143, 166). -/
inductive Args (α : Type) where
  | a0
  | a1 (x1 : α)
  | a2 (x1 x2 : α)
  | a3 (x1 x2 x3 : α)
  | a4 (x1 x2 x3 x4 : α)
  | a5 (x1 x2 x3 x4 x5 : α)
  deriving DecidableEq, Repr

/-- The static Invoke with the object as argument (Delegate.h 56-59, 79-82, 102-105, 125-128, 148-151, 171-174, 196-199, 219-314). The first of them does not compile
    for a method with result; the one of Delegate0 does. -/
def invokeStatic {σ α ρ : Type} (ms : Methods σ α ρ) (h : Heap σ) (inst : Nat) : Args α → Res (Heap σ × ρ)
  | .a0 => callOn h inst ms.m0
  | .a1 x1 => callOn h inst (ms.m1 x1)
  | .a2 x1 x2 => callOn h inst (ms.m2 x1 x2)
  | .a3 x1 x2 x3 => callOn h inst (ms.m3 x1 x2 x3)
  | .a4 x1 x2 x3 x4 => callOn h inst (ms.m4 x1 x2 x3 x4)
  | .a5 x1 x2 x3 x4 x5 => callOn h inst (ms.m5 x1 x2 x3 x4 x5)

/-- The only member of a delegate (Delegate.h 62). -/
structure Dele where
  inst : Nat
  deriving DecidableEq, Repr

/-- The constructor (Delegate.h 46-49, 69-72, 92-95, 115-118, 138-141, 161-164, 186-304). -/
def Dele.mk' (inst : Nat) : Dele := ⟨inst⟩

/-- Invoke (Delegate.h 51-54, 74-77, 97-100, 120-123, 143-146, 166-169, 191-194, 214-309). -/
def Dele.invoke {σ α ρ : Type} (ms : Methods σ α ρ) (h : Heap σ) (d : Dele) : Args α → Res (Heap σ × ρ)
  | .a0 => callOn h d.inst ms.m0
  | .a1 x1 => callOn h d.inst (ms.m1 x1)
  | .a2 x1 x2 => callOn h d.inst (ms.m2 x1 x2)
  | .a3 x1 x2 x3 => callOn h d.inst (ms.m3 x1 x2 x3)
  | .a4 x1 x2 x3 x4 => callOn h d.inst (ms.m4 x1 x2 x3 x4)
  | .a5 x1 x2 x3 x4 x5 => callOn h d.inst (ms.m5 x1 x2 x3 x4 x5)

/-- What a program does: construct delegate number `k` for an object, assign delegate `j` to delegate `k` (the implicit assignment), invoke a delegate, or call the
    static Invoke (Delegate.h 46-59). -/
inductive Op (α : Type) where
  | make (k inst : Nat)
  | assign (k j : Nat)
  | invoke (k : Nat) (a : Args α)
  | static (inst : Nat) (a : Args α)
  deriving DecidableEq, Repr

/-- The variables of the program: the objects and the delegates constructed so far (Delegate.h 62). -/
structure State (σ : Type) where
  heap : Heap σ
  deles : Nat → Option Dele

/-- One operation; the use of a delegate that was never constructed reads memory that was never written (Delegate.h 46-59). -/
def State.step {σ α ρ : Type} (ms : Methods σ α ρ) (s : State σ) : Op α → Res (State σ × Option ρ)
  | .make k inst => .ok ({ s with deles := fun i => if i = k then some (.mk' inst) else s.deles i }, none)
  | .assign k j => match s.deles j with
    | none => .ub
    | some d => .ok ({ s with deles := fun i => if i = k then some d else s.deles i }, none)
  | .invoke k a => match s.deles k with
    | none => .ub
    | some d => do
      let (h, r) ← d.invoke ms s.heap a
      .ok ({ s with heap := h }, some r)
  | .static inst a => do
    let (h, r) ← invokeStatic ms s.heap inst a
    .ok ({ s with heap := h }, some r)

/-- A program, with the results of its calls (Delegate.h 46-59). -/
def State.run {σ α ρ : Type} (ms : Methods σ α ρ) (s : State σ) : List (Op α) → Res (State σ × List ρ)
  | [] => .ok (s, [])
  | o :: os => do
    let (s, r) ← s.step ms o
    let (s, rs) ← State.run ms s os
    .ok (s, r.toList ++ rs)

end Atl.Delegate
