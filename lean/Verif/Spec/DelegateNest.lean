import Verif.Model.DelegateNest
import Verif.Spec.DelegateLife

/-
  The same program without delegates. The history `t` (last operation first) has every operation of the program and of the methods it called, in the order in which they
  happened; a delegate is a name for the address it was last given in that history (`Spec.DelegateLife.address`).
-/
namespace Atl.Spec.DelegateNest
open Atl.Delegate (Heap Args)
open Atl.DelegateLife (Op)
open Atl.DelegateNest (Methods Prog)
open Atl.Spec.DelegateLife (address)

/-- The body of the method with these arguments for the object at `a`. -/
def method {σ α ρ : Type} (ms : Methods σ α ρ) (a : Nat) : Args α → Prog σ α ρ
  | .a0 => ms.m0 a
  | .a1 x1 => ms.m1 a x1
  | .a2 x1 x2 => ms.m2 a x1 x2
  | .a3 x1 x2 x3 => ms.m3 a x1 x2 x3
  | .a4 x1 x2 x3 x4 => ms.m4 a x1 x2 x3 x4
  | .a5 x1 x2 x3 x4 x5 => ms.m5 a x1 x2 x3 x4 x5

/-- The operation `o` after the history `t` calls the method with arguments `x` on the address `a` (`none`: the delegate was never constructed). -/
inductive Calls {σ α : Type} (t : List (Op σ α)) : Op σ α → Option Nat → Args α → Prop
  | invoke (k : Nat) (x : Args α) : Calls t (.invoke k x) (address k t) x
  | static (a : Nat) (x : Args α) : Calls t (.static a x) (some a) x

/-- How a program ends: undefined, or with a history, the objects and a result. A program that does not end has no outcome. -/
inductive Does {σ α ρ : Type} (ms : Methods σ α ρ) : List (Op σ α) → Heap σ → Prog σ α ρ → Res (List (Op σ α) × Heap σ × ρ) → Prop
  | ret (t h r) : Does ms t h (.ret r) (.ok (t, h, r))
  | look (t h k e) (rest : Does ms t h (k h) e) : Does ms t h (.look k) e
  | born (t h a s k h' e) (here : h' a = some s) (else_ : ∀ b, b ≠ a → h' b = h b) (rest : Does ms (.create a s :: t) h' (k none) e) :
      Does ms t h (.op (.create a s) k) e
  | dies (t h a k h' e) (lives : h a ≠ none) (here : h' a = none) (else_ : ∀ b, b ≠ a → h' b = h b) (rest : Does ms (.destroy a :: t) h' (k none) e) :
      Does ms t h (.op (.destroy a) k) e
  | nothing (t h a k) (dead : h a = none) : Does ms t h (.op (.destroy a) k) .ub
  | made (t h i a k e) (rest : Does ms (.make i a :: t) h (k none) e) : Does ms t h (.op (.make i a) k) e
  | copied (t h i j k e) (known : address j t ≠ none) (rest : Does ms (.assign i j :: t) h (k none) e) : Does ms t h (.op (.assign i j) k) e
  | unknown (t h i j k) (no : address j t = none) : Does ms t h (.op (.assign i j) k) .ub
  | call (t h o k a x t' h' r e) (c : Calls t o (some a) x) (lives : h a ≠ none) (b : Does ms (o :: t) h (method ms a x) (.ok (t', h', r)))
      (rest : Does ms t' h' (k (some r)) e) : Does ms t h (.op o k) e
  | inside (t h o k a x) (c : Calls t o (some a) x) (lives : h a ≠ none) (b : Does ms (o :: t) h (method ms a x) .ub) : Does ms t h (.op o k) .ub
  | dead (t h o k a x) (c : Calls t o (some a) x) (no : h a = none) : Does ms t h (.op o k) .ub
  | nobody (t h o k x) (c : Calls t o none x) : Does ms t h (.op o k) .ub

end Atl.Spec.DelegateNest
