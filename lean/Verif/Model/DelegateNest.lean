import Verif.Model.DelegateLife

/-
  Delegates (Delegate.h) in a program whose methods are programs again: a method can look at every object, create and destroy objects, construct and assign delegates
  (also the one it was called through) and invoke delegates, to any depth. An object is changed by creating it again.
-/
namespace Atl.DelegateNest
open Atl.Delegate (Heap Args Dele)
open Atl.DelegateLife (Op State)

/-- The body of a method or of the whole program: it ends with a result, looks at the objects, or does an operation and goes on with the result of the call, if it was one
    (Delegate.h 46-59). -/
inductive Prog (σ α ρ : Type) where
  | ret (r : ρ)
  | look (k : Heap σ → Prog σ α ρ)
  | op (o : Op σ α) (k : Option ρ → Prog σ α ρ)

/-- The methods given as `Callback` (Delegate.h 42, 65, 88, 111, 134, 157 and 182-297); the first argument is `this`. -/
structure Methods (σ α ρ : Type) where
  m0 : Nat → Prog σ α ρ
  m1 : Nat → α → Prog σ α ρ
  m2 : Nat → α → α → Prog σ α ρ
  m3 : Nat → α → α → α → Prog σ α ρ
  m4 : Nat → α → α → α → α → Prog σ α ρ
  m5 : Nat → α → α → α → α → α → Prog σ α ρ

/-- `(instance->*Callback)(...)`: the body that is executed, `none` if no object lives at the address (Delegate.h 53, 58). -/
def callOn {σ α ρ : Type} (h : Heap σ) (inst : Nat) (m : Nat → Prog σ α ρ) : Option (Prog σ α ρ) :=
  match h inst with
  | none => none
  | some _ => some (m inst)

/-- The static Invoke (Delegate.h 56-59, 79-82, 102-105, 125-128, 148-151, 171-174, 196-199, 219-314); the first with the meaning of Delegate0's, as in Delegate.lean. -/
def invokeStatic {σ α ρ : Type} (ms : Methods σ α ρ) (h : Heap σ) (inst : Nat) : Args α → Option (Prog σ α ρ)
  | .a0 => callOn h inst ms.m0
  | .a1 x1 => callOn h inst (ms.m1 · x1)
  | .a2 x1 x2 => callOn h inst (ms.m2 · x1 x2)
  | .a3 x1 x2 x3 => callOn h inst (ms.m3 · x1 x2 x3)
  | .a4 x1 x2 x3 x4 => callOn h inst (ms.m4 · x1 x2 x3 x4)
  | .a5 x1 x2 x3 x4 x5 => callOn h inst (ms.m5 · x1 x2 x3 x4 x5)

/-- Invoke (Delegate.h 51-54, 74-77, 97-100, 120-123, 143-146, 166-169, 191-194, 214-309). `Instance` is read once, before the method runs. -/
def invoke {σ α ρ : Type} (ms : Methods σ α ρ) (h : Heap σ) (d : Dele) : Args α → Option (Prog σ α ρ)
  | .a0 => callOn h d.inst ms.m0
  | .a1 x1 => callOn h d.inst (ms.m1 · x1)
  | .a2 x1 x2 => callOn h d.inst (ms.m2 · x1 x2)
  | .a3 x1 x2 x3 => callOn h d.inst (ms.m3 · x1 x2 x3)
  | .a4 x1 x2 x3 x4 => callOn h d.inst (ms.m4 · x1 x2 x3 x4)
  | .a5 x1 x2 x3 x4 x5 => callOn h d.inst (ms.m5 · x1 x2 x3 x4 x5)

/-- What an operation leads to before any method runs: a new state, undefined behaviour, or the body of a method (Delegate.h 46-59). -/
inductive Next (σ α ρ : Type) where
  | state (s : State σ)
  | ub
  | body (p : Prog σ α ρ)

/-- One operation (Delegate.h 46-59). -/
def begin {σ α ρ : Type} (ms : Methods σ α ρ) (s : State σ) : Op σ α → Next σ α ρ
  | .create a x => .state { s with heap := fun b => if b = a then some x else s.heap b }
  | .destroy a => match s.heap a with
    | none => .ub
    | some _ => .state { s with heap := fun b => if b = a then none else s.heap b }
  | .make k inst => .state { s with deles := fun i => if i = k then some (.mk' inst) else s.deles i }
  | .assign k j => match s.deles j with
    | none => .ub
    | some d => .state { s with deles := fun i => if i = k then some d else s.deles i }
  | .invoke k x => match s.deles k with
    | none => .ub
    | some d => match invoke ms s.heap d x with
      | none => .ub
      | some p => .body p
  | .static inst x => match invokeStatic ms s.heap inst x with
    | none => .ub
    | some p => .body p

/-- Executes a program with at most `fuel` nested steps; `none`: it has not ended (Delegate.h 46-59). -/
def exec {σ α ρ : Type} (ms : Methods σ α ρ) : Nat → State σ → Prog σ α ρ → Option (Res (State σ × ρ))
  | 0, _, _ => none
  | _ + 1, s, .ret r => some (.ok (s, r))
  | n + 1, s, .look k => exec ms n s (k s.heap)
  | n + 1, s, .op o k => match begin ms s o with
    | .state s => exec ms n s (k none)
    | .ub => some .ub
    | .body p => match exec ms n s p with
      | none => none
      | some .ub => some .ub
      | some (.ok (s, r)) => exec ms n s (k (some r))

end Atl.DelegateNest
