/-
  Independent specification of a debounced push button: which sequences of reports are legal.
-/
namespace Atl.Spec.PushButton

/-- What a button reports. -/
inductive Report where
  | unknown | opened | closed | hold | pending
  deriving Repr, DecidableEq

/-- One observation: the time, the contact (true = pushed) at that time, the report. -/
structure Obs where
  now : Nat
  pushed : Bool
  report : Report
  deriving Repr, DecidableEq

/-- Legal step from report `before` (reported since time `since`) to the next observation.
    * before start-up anything is known: the contact is reported as it is;
    * a settled report stays only while the contact agrees with it;
    * when the contact disagrees, `pending` is reported;
    * `pending` ends not before `D` time units, with the contact as seen at that moment;
    * `hold` follows `closed` only, not before `H` time units of `closed`. -/
def stepOk (D H : Nat) (before : Report) (since : Nat) (o : Obs) : Prop :=
  match before, o.report with
  | .unknown, .opened => o.pushed = false
  | .unknown, .closed => o.pushed = true
  | .opened, .opened => o.pushed = false
  | .closed, .closed => o.pushed = true
  | .hold, .hold => o.pushed = true
  | .opened, .pending => o.pushed = true
  | .closed, .pending => o.pushed = false
  | .hold, .pending => o.pushed = false
  | .pending, .pending => True
  | .pending, .opened => o.pushed = false ∧ since + D ≤ o.now
  | .pending, .closed => o.pushed = true ∧ since + D ≤ o.now
  | .closed, .hold => o.pushed = true ∧ since + H ≤ o.now
  | _, _ => False

/-- Legal sequences of observations. -/
def Legal (D H : Nat) (before : Report) (since : Nat) : List Obs → Prop
  | [] => True
  | o :: os => stepOk D H before since o ∧ Legal D H o.report (if o.report = before then since else o.now) os

end Atl.Spec.PushButton
