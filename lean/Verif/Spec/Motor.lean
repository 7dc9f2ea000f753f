/-
  The TB6612FNG by its data sheet, one channel: the function selected by IN1 and IN2.
-/
namespace Atl.Spec.Motor

/-- Function table (PWM high). -/
inductive Mode where
  | stop | brake | cw | ccw
  deriving Repr, DecidableEq

def mode : Bool → Bool → Mode
  | false, false => .stop
  | true, true => .brake
  | true, false => .cw
  | false, true => .ccw

/-- What a user asks of a motor: the function, and for the turning ones the duty. -/
inductive Request where
  | stop
  | brake
  | turn (cw : Bool) (speed : Nat)
  deriving Repr, DecidableEq

/-- Three lines serve a request. -/
def Serves (in1 in2 : Bool) (duty : Nat) : Request → Prop
  | .stop => mode in1 in2 = .stop
  | .brake => mode in1 in2 = .brake
  | .turn cw speed => mode in1 in2 = (if cw then .cw else .ccw) ∧ duty = speed

end Atl.Spec.Motor
