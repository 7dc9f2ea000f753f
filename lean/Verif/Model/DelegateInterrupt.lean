import Verif.Model.Delegate

/-
  One delegate (Delegate.h 42-63 and the other eleven classes) that main code and interrupt handlers give objects and invoke: a pointer has two bytes, and main code is interrupted between the accesses of the two.
  Simplified: handlers' calls run as a whole, and so does the method called by main code; a pointer has 16 bits (AVR); loads and stores take the bytes in the same order, either one.
-/
namespace Atl.DelegateInterrupt
open Atl.Delegate

/-- Where main code is: outside; before the first and the second store to `Instance` (Delegate.h 48); before the first and the second load, with the byte loaded (Delegate.h 53). -/
inductive Pc (α : Type) where
  | idle
  | store (a : Nat)
  | stored (a : Nat)
  | load (x : Args α)
  | loaded (x : Args α) (w : Nat)
  deriving DecidableEq, Repr

/-- The bytes of `Instance` (Delegate.h 62), the objects and the place of main code; as history variables the calls made, with their objects, and their results. -/
structure St (σ α ρ : Type) where
  lo : Nat
  hi : Nat
  heap : Heap σ
  pc : Pc α
  calls : List (Nat × Args α)
  results : List ρ

/-- What happens (Delegate.h 46-54). -/
inductive Ev (α : Type) where
  /-- Main code gives the delegate an object, by assigning a new delegate. -/
  | give (a : Nat)
  /-- Main code invokes the delegate. -/
  | invoke (x : Args α)
  /-- Main code makes its next access. -/
  | main
  /-- A handler gives the delegate an object. -/
  | handlerGive (a : Nat)
  /-- A handler invokes the delegate. -/
  | handlerInvoke (x : Args α)
  deriving DecidableEq, Repr

/-- A call through the pointer (Delegate.h 53). -/
def call {σ α ρ : Type} (ms : Methods σ α ρ) (y : St σ α ρ) (a : Nat) (x : Args α) : Res (St σ α ρ) := do
  let (h, r) ← (Dele.mk' a).invoke ms y.heap x
  .ok { y with heap := h, calls := y.calls ++ [(a, x)], results := y.results ++ [r] }

/-- The next access of main code (Delegate.h 48, 53). -/
def mainStep {σ α ρ : Type} (lowFirst : Bool) (ms : Methods σ α ρ) (y : St σ α ρ) : Res (St σ α ρ) :=
  match y.pc with
  | .idle => .ok y
  | .store a => .ok (if lowFirst then { y with lo := a % 256, pc := .stored a } else { y with hi := a / 256, pc := .stored a })
  | .stored a => .ok (if lowFirst then { y with hi := a / 256, pc := .idle } else { y with lo := a % 256, pc := .idle })
  | .load x => .ok { y with pc := .loaded x (if lowFirst then y.lo else y.hi) }
  | .loaded x w => call ms { y with pc := .idle } (if lowFirst then w + 256 * y.hi else y.lo + 256 * w) x

/-- One event (Delegate.h 46-54); main code begins a call only outside of calls. -/
def step {σ α ρ : Type} (lowFirst : Bool) (ms : Methods σ α ρ) (y : St σ α ρ) : Ev α → Res (St σ α ρ)
  | .give a => .ok (if y.pc matches .idle then { y with pc := .store a } else y)
  | .invoke x => .ok (if y.pc matches .idle then { y with pc := .load x } else y)
  | .main => mainStep lowFirst ms y
  | .handlerGive a => .ok { y with lo := a % 256, hi := a / 256 }
  | .handlerInvoke x => call ms y (y.lo + 256 * y.hi) x

/-- A history (Delegate.h 46-54). -/
def run {σ α ρ : Type} (lowFirst : Bool) (ms : Methods σ α ρ) (y : St σ α ρ) : List (Ev α) → Res (St σ α ρ)
  | [] => .ok y
  | e :: es => do
    let y ← step lowFirst ms y e
    run lowFirst ms y es

/-- A delegate constructed for an object (Delegate.h 46-49). -/
def St.init {σ α ρ : Type} (start : Heap σ) (a : Nat) : St σ α ρ := ⟨a % 256, a / 256, start, .idle, [], []⟩

end Atl.DelegateInterrupt
