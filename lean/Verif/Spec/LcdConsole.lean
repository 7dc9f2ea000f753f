import Mathlib.Data.List.Basic

/-
  What a screen shows after lines were written on it one after the other, without reference to the library.
-/
namespace Atl.Spec.LcdConsole

/-- Lines written one after the other, the `k`-th one from the left edge of row `rowOf k`, each over what was there. -/
def paint (rowOf : Nat → Nat) : Nat → (Nat → Nat → Nat) → List (List Nat) → (Nat → Nat → Nat)
  | _, z, [] => z
  | k, z, t :: ts => paint rowOf (k + 1) (fun r c => if r = rowOf k then (t[c]?).getD (z r c) else z r c) ts

/-- Lines on a clear screen. -/
def lines (rowOf : Nat → Nat) (ts : List (List Nat)) : Nat → Nat → Nat := paint rowOf 0 (fun _ _ => 0x20) ts

end Atl.Spec.LcdConsole
