import Verif.Model.UI

/-
  Specification: the state of a control of a panel, told from where the panel has been. `past` lists the position of the panel at every moment so far, the latest
  first (`none`: nowhere yet).
-/
namespace Atl.Spec.UIVisit
open Atl.UI

/-- The panel has been at `i` and gone elsewhere. -/
def Left (i : Nat) : List (Option Nat) → Prop
  | [] => False
  | now :: past => Left i past ∨ (now ≠ some i ∧ some i ∈ past)

instance instDecidableLeft (i : Nat) : (l : List (Option Nat)) → Decidable (Left i l)
  | [] => inferInstanceAs (Decidable False)
  | now :: past => by
    have := instDecidableLeft i past
    exact inferInstanceAs (Decidable (Left i past ∨ (now ≠ some i ∧ some i ∈ past)))

/-- What control `i` looks like that was in state `s0` before anything happened: where the panel is, the control is focused or selected, but a disabled or hidden control
    stays as it was during the first visit; where it has been, it is normal, whatever it was; elsewhere nothing has changed. -/
def Looks (s0 : CState) (i : Nat) (past : List (Option Nat)) (s : CState) : Prop :=
  if past.head? = some (some i) then
    if (s0 ≠ .disabled ∧ s0 ≠ .hidden) ∨ Left i past then s = .focused ∨ s = .selected else s = s0
  else if some i ∈ past then s = .normal else s = s0

instance (s0 : CState) (i : Nat) (past : List (Option Nat)) (s : CState) : Decidable (Looks s0 i past s) := by unfold Looks; infer_instance

/-- The moments 0 to `n`, the latest first. -/
def past (at' : Nat → Option Nat) (n : Nat) : List (Option Nat) := (List.range (n + 1)).reverse.map at'

end Atl.Spec.UIVisit
