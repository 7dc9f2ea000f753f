/-
  Specification vocabulary for the UI framework: class hierarchy, order of children.
-/
namespace Atl.Spec.UI

/-- The documented classes of controls (Control.h 35-48). -/
inductive Cls where
  | control | input | panel | page
  deriving DecidableEq, Repr

/-- The direct base class. -/
inductive Base : Cls → Cls → Prop where
  | input : Base .input .control
  | panel : Base .panel .input
  | page : Base .page .panel

/-- `IsA a b`: an object of class `a` is of class `b` or of one derived from it. -/
inductive IsA : Cls → Cls → Prop where
  | refl (a : Cls) : IsA a a
  | step {a b c : Cls} : Base a b → IsA b c → IsA a c

/-- The number the documentation gives a class. -/
def Cls.number : Cls → Nat
  | .control => 1
  | .input => 2
  | .panel => 3
  | .page => 4

/-- The first position after `cur` (from the start if there is none) that satisfies `P`. -/
def FirstAfter (P : Nat → Prop) (cur : Option Nat) (i : Nat) : Prop :=
  P i ∧ (∀ c, cur = some c → c < i) ∧ ∀ j, j < i → (∀ c, cur = some c → c < j) → ¬ P j

/-- The last position before `cur` (from the end if there is none) that satisfies `P`. -/
def LastBefore (P : Nat → Prop) (cur : Option Nat) (i : Nat) : Prop :=
  P i ∧ (∀ c, cur = some c → i < c) ∧ ∀ j, i < j → (∀ c, cur = some c → j < c) → ¬ P j

/-- An up/down value is edited: `editing` while the control is selected; Enter starts when it has the focus, Exit ends. -/
inductive Cmd where
  | up | down | enter | exit | other
  deriving DecidableEq, Repr

/-- Value and mode after a history of commands, starting with the focus. -/
def edits {ν : Type} (inc dec : ν → ν) : ν → Bool → List Cmd → ν × Bool
  | v, e, [] => (v, e)
  | v, true, .up :: cs => edits inc dec (inc v) true cs
  | v, true, .down :: cs => edits inc dec (dec v) true cs
  | v, _, .enter :: cs => edits inc dec v true cs
  | v, _, .exit :: cs => edits inc dec v false cs
  | v, e, _ :: cs => edits inc dec v e cs

/-- The place in a row of `n` after one step up (`true`) or down: round and round, or up to the ends. -/
def turn (n : Nat) (wrap : Bool) (i : Nat) : Bool → Nat
  | true => if i + 1 < n then i + 1 else if wrap then 0 else i
  | false => if 0 < i then i - 1 else if wrap then n - 1 else i

end Atl.Spec.UI
