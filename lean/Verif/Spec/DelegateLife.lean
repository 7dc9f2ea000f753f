import Verif.Model.DelegateLife

/-
  The same program without delegates: objects are born and die, and methods are called on addresses. A delegate is only a name for the address it was last given.
-/
namespace Atl.Spec.DelegateLife
open Atl.Delegate (Heap Args)
open Atl.DelegateLife (Methods Op)

/-- What happens in the program without delegates. -/
inductive Act (σ α : Type) where
  | born (a : Nat) (s : σ)
  | dies (a : Nat)
  | call (a : Nat) (x : Args α)

/-- The address delegate `k` was last given (last operation first). -/
def address {σ α : Type} (k : Nat) : List (Op σ α) → Option Nat
  | [] => none
  | .make i inst :: before => if i = k then some inst else address k before
  | .assign i j :: before => if i = k then address j before else address k before
  | _ :: before => address k before

/-- An operation without delegates: outside `none` if it uses a delegate that was never constructed, inside `none` if nothing remains of it. -/
def without {σ α : Type} (before : List (Op σ α)) : Op σ α → Option (Option (Act σ α))
  | .create a s => some (some (.born a s))
  | .destroy a => some (some (.dies a))
  | .make _ _ => some none
  | .assign _ j => (address j before).map fun _ => none
  | .invoke k x => (address k before).map fun a => some (.call a x)
  | .static a x => some (some (.call a x))

/-- The call of a method on the object at `a`. -/
def method {σ α ρ : Type} (ms : Methods σ α ρ) (a : Nat) : Args α → Heap σ → Res (Heap σ × ρ)
  | .a0 => ms.m0 a
  | .a1 x1 => ms.m1 a x1
  | .a2 x1 x2 => ms.m2 a x1 x2
  | .a3 x1 x2 x3 => ms.m3 a x1 x2 x3
  | .a4 x1 x2 x3 x4 => ms.m4 a x1 x2 x3 x4
  | .a5 x1 x2 x3 x4 x5 => ms.m5 a x1 x2 x3 x4 x5

/-- What happens to the objects, and the result of a call. `Meets h e h' r`: `e` is defined in `h` and leads to `h'` with result `r`. -/
inductive Meets {σ α ρ : Type} (ms : Methods σ α ρ) (h : Heap σ) : Act σ α → Heap σ → Option ρ → Prop
  | born (a : Nat) (s : σ) (h' : Heap σ) (here : h' a = some s) (else_ : ∀ b, b ≠ a → h' b = h b) : Meets ms h (.born a s) h' none
  | dies (a : Nat) (h' : Heap σ) (lives : h a ≠ none) (here : h' a = none) (else_ : ∀ b, b ≠ a → h' b = h b) : Meets ms h (.dies a) h' none
  | call (a : Nat) (x : Args α) (h' : Heap σ) (r : ρ) (lives : h a ≠ none) (m : method ms a x h = .ok (h', r)) : Meets ms h (.call a x) h' (some r)

/-- A whole program: `before` is what was done (last operation first); `Does h os h' rs`: it is defined, ends with the objects `h'`, and its calls return `rs`. -/
inductive Does {σ α ρ : Type} (ms : Methods σ α ρ) : List (Op σ α) → Heap σ → List (Op σ α) → Heap σ → List ρ → Prop
  | done (before : List (Op σ α)) (h : Heap σ) : Does ms before h [] h []
  | quiet (before : List (Op σ α)) (h : Heap σ) (o : Op σ α) (os : List (Op σ α)) (h' : Heap σ) (rs : List ρ) (w : without before o = some none)
      (rest : Does ms (o :: before) h os h' rs) : Does ms before h (o :: os) h' rs
  | act (before : List (Op σ α)) (h : Heap σ) (o : Op σ α) (os : List (Op σ α)) (e : Act σ α) (h1 h' : Heap σ) (r : Option ρ) (rs : List ρ)
      (w : without before o = some (some e)) (m : Meets ms h e h1 r) (rest : Does ms (o :: before) h1 os h' rs) : Does ms before h (o :: os) h' (r.toList ++ rs)

end Atl.Spec.DelegateLife
