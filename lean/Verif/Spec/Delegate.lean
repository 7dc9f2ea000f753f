import Verif.Model.Delegate

/-
  What delegates are for: a call reaches the method of the object the delegate was last given, with the arguments in the order in which they were passed. Said
  without a heap: the calls of the program are a list of (object, arguments), every object sees its own calls in order, and nothing else.
-/
namespace Atl.Spec.Delegate
open Atl.Delegate (Methods Args Op)

/-- The method called directly. -/
def direct {σ α ρ : Type} (ms : Methods σ α ρ) : Args α → σ → σ × ρ
  | .a0 => ms.m0
  | .a1 x1 => ms.m1 x1
  | .a2 x1 x2 => ms.m2 x1 x2
  | .a3 x1 x2 x3 => ms.m3 x1 x2 x3
  | .a4 x1 x2 x3 x4 => ms.m4 x1 x2 x3 x4
  | .a5 x1 x2 x3 x4 x5 => ms.m5 x1 x2 x3 x4 x5

/-- The object delegate `k` stands for after a program (last operation first): the one of the last operation that gave it one. -/
def standsFor {α : Type} (k : Nat) : List (Op α) → Option Nat
  | [] => none
  | .make i inst :: before => if i = k then some inst else standsFor k before
  | .assign i j :: before => if i = k then standsFor j before else standsFor k before
  | _ :: before => standsFor k before

/-- What is meant by an operation after a program (last operation first): the object and the arguments. -/
def meant {α : Type} (before : List (Op α)) : Op α → Option (Nat × Args α)
  | .invoke k a => (standsFor k before).map fun o => (o, a)
  | .static o a => some (o, a)
  | _ => none

/-- The calls of a program: `before` what was done before (last operation first). -/
def calls {α : Type} (before : List (Op α)) : List (Op α) → List (Nat × Args α)
  | [] => []
  | o :: os => (meant before o).toList ++ calls (o :: before) os

/-- An object that sees these calls, and what they return. -/
def sees {σ α ρ : Type} (ms : Methods σ α ρ) (s : σ) (l : List (Args α)) : σ := l.foldl (fun s a => (direct ms a s).1) s

/-- The calls for object `o`. -/
def mine {α : Type} (o : Nat) (l : List (Nat × Args α)) : List (Args α) := (l.filter fun x => x.1 == o).map Prod.snd

/-- The result of call number `i`: that of the method on the object after the calls it has seen. -/
def result {σ α ρ : Type} (ms : Methods σ α ρ) (start : Nat → Option σ) (l : List (Nat × Args α)) (i : Nat) : Option ρ :=
  (l[i]?).bind fun x => (start x.1).map fun s => (direct ms x.2 (sees ms s (mine x.1 (l.take i)))).2

/-- Every delegate that is used has been constructed, and what is called is a living object. -/
def Sound {σ α : Type} (start : Nat → Option σ) (before : List (Op α)) : List (Op α) → Prop
  | [] => True
  | o :: os => (match o with
      | .make _ _ => True
      | .assign _ j => standsFor j before ≠ none
      | .invoke k _ => ∃ a, standsFor k before = some a ∧ start a ≠ none
      | .static a _ => start a ≠ none) ∧ Sound start (o :: before) os

end Atl.Spec.Delegate
