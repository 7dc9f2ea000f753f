import Verif.Model.Delegate

/-
  Delegates (Delegate.h) in a program that creates and destroys objects, with methods that may change, create and destroy any object, also their own.
  Delegate.lean has the same functions for methods that touch only their own object. A method does not change a delegate here.
-/
namespace Atl.DelegateLife
open Atl.Delegate (Heap Args Dele)

/-- The methods given as `Callback` (Delegate.h 42, 65, 88, 111, 134, 157 and 182-297); the first argument is `this`. A method can be undefined. -/
structure Methods (σ α ρ : Type) where
  m0 : Nat → Heap σ → Res (Heap σ × ρ)
  m1 : Nat → α → Heap σ → Res (Heap σ × ρ)
  m2 : Nat → α → α → Heap σ → Res (Heap σ × ρ)
  m3 : Nat → α → α → α → Heap σ → Res (Heap σ × ρ)
  m4 : Nat → α → α → α → α → Heap σ → Res (Heap σ × ρ)
  m5 : Nat → α → α → α → α → α → Heap σ → Res (Heap σ × ρ)

/-- `(instance->*Callback)(...)`: undefined if no object lives at the address (Delegate.h 53, 58). -/
def callOn {σ ρ : Type} (h : Heap σ) (inst : Nat) (m : Nat → Heap σ → Res (Heap σ × ρ)) : Res (Heap σ × ρ) :=
  match h inst with
  | none => .ub
  | some _ => m inst h

/-- The static Invoke (Delegate.h 56-59, 79-82, 102-105, 125-128, 148-151, 171-174, 196-199, 219-314); the first with the meaning of Delegate0's, as in Delegate.lean. -/
def invokeStatic {σ α ρ : Type} (ms : Methods σ α ρ) (h : Heap σ) (inst : Nat) : Args α → Res (Heap σ × ρ)
  | .a0 => callOn h inst ms.m0
  | .a1 x1 => callOn h inst (ms.m1 · x1)
  | .a2 x1 x2 => callOn h inst (ms.m2 · x1 x2)
  | .a3 x1 x2 x3 => callOn h inst (ms.m3 · x1 x2 x3)
  | .a4 x1 x2 x3 x4 => callOn h inst (ms.m4 · x1 x2 x3 x4)
  | .a5 x1 x2 x3 x4 x5 => callOn h inst (ms.m5 · x1 x2 x3 x4 x5)

/-- Invoke (Delegate.h 51-54, 74-77, 97-100, 120-123, 143-146, 166-169, 191-194, 214-309). -/
def invoke {σ α ρ : Type} (ms : Methods σ α ρ) (h : Heap σ) (d : Dele) : Args α → Res (Heap σ × ρ)
  | .a0 => callOn h d.inst ms.m0
  | .a1 x1 => callOn h d.inst (ms.m1 · x1)
  | .a2 x1 x2 => callOn h d.inst (ms.m2 · x1 x2)
  | .a3 x1 x2 x3 => callOn h d.inst (ms.m3 · x1 x2 x3)
  | .a4 x1 x2 x3 x4 => callOn h d.inst (ms.m4 · x1 x2 x3 x4)
  | .a5 x1 x2 x3 x4 x5 => callOn h d.inst (ms.m5 · x1 x2 x3 x4 x5)

/-- What a program does: create an object at an address, destroy one, construct a delegate, assign one, invoke one, call the static Invoke (Delegate.h 46-59). -/
inductive Op (σ α : Type) where
  | create (a : Nat) (s : σ)
  | destroy (a : Nat)
  | make (k inst : Nat)
  | assign (k j : Nat)
  | invoke (k : Nat) (a : Args α)
  | static (inst : Nat) (a : Args α)

/-- The objects and the delegates constructed so far (Delegate.h 62). -/
structure State (σ : Type) where
  heap : Heap σ
  deles : Nat → Option Dele

/-- One operation. Destroying no object is undefined; the constructor of a delegate only stores the address (Delegate.h 46-59). -/
def State.step {σ α ρ : Type} (ms : Methods σ α ρ) (s : State σ) : Op σ α → Res (State σ × Option ρ)
  | .create a x => .ok ({ s with heap := fun b => if b = a then some x else s.heap b }, none)
  | .destroy a => match s.heap a with
    | none => .ub
    | some _ => .ok ({ s with heap := fun b => if b = a then none else s.heap b }, none)
  | .make k inst => .ok ({ s with deles := fun i => if i = k then some (.mk' inst) else s.deles i }, none)
  | .assign k j => match s.deles j with
    | none => .ub
    | some d => .ok ({ s with deles := fun i => if i = k then some d else s.deles i }, none)
  | .invoke k a => match s.deles k with
    | none => .ub
    | some d => do
      let (h, r) ← DelegateLife.invoke ms s.heap d a
      .ok ({ s with heap := h }, some r)
  | .static inst a => do
    let (h, r) ← invokeStatic ms s.heap inst a
    .ok ({ s with heap := h }, some r)

/-- A program, with the results of its calls (Delegate.h 46-59). -/
def State.run {σ α ρ : Type} (ms : Methods σ α ρ) (s : State σ) : List (Op σ α) → Res (State σ × List ρ)
  | [] => .ok (s, [])
  | o :: os => do
    let (s, r) ← s.step ms o
    let (s, rs) ← State.run ms s os
    .ok (s, r.toList ++ rs)

end Atl.DelegateLife
