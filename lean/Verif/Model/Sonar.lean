import Verif.Model.Basic

/-
  Model of URM37V32_Driver.h and URM37V32_Controller.h. The input stream is the list of bytes available, the output stream the list
  of bytes written. All parameters are bytes unless said otherwise.
-/
namespace Atl.Sonar

/-- `ReceiveResult` (URM37V32_Driver.h 42-52, URM37V32_Controller.h 47-57: same order). -/
inductive Result where
  | none | pending | checksumError | success
  deriving Repr, DecidableEq

/-- `CalculateChecksum` (URM37V32_Driver.h 96-103): sum in `uint16_t`, converted to `uint8_t`. -/
def checksum (command data1 data2 : Nat) : Nat :=
  let value := toU 16 command
  let value := toU 16 (value + data1)
  let value := toU 16 (value + data2)
  toU 8 value

/-- `SendCommand` (URM37V32_Driver.h 59-65): the bytes written. -/
def sendCommand (command data1 data2 : Nat) : List Nat := [command, data1, data2, checksum command data1 data2]

/-- The out parameters of `ReceiveResponse` (URM37V32_Driver.h 76). -/
structure Out where
  command : Nat
  data1 : Nat
  data2 : Nat
  deriving Repr, DecidableEq

/-- `ReceiveResponse` with `ValidateChecksum` (URM37V32_Driver.h 75-94): result, out parameters, the rest of the stream. -/
def receiveResponse (o : Out) : List Nat → Result × Out × List Nat
  | c :: a :: b :: s :: rest => (if checksum c a b = s then .success else .checksumError, ⟨c, a, b⟩, rest)
  | [] => (.none, o, [])
  | l => (.pending, o, l)

/-- `EndDistance` (URM37V32_Controller.h 109-131): result, `outDistance` (a `uint16_t`), the rest of the stream. The locals are
    uninitialised (`o`), they are only used after `Success`. `data1 << 8` is an `int` (16 bits; bit 15 as in Model/Bits.lean). -/
def endDistance (o : Out) (dist : Nat) (s : List Nat) : Result × Nat × List Nat :=
  let (r, o', rest) := receiveResponse o s
  if r = .success then
    if o'.command = 0x22 ∧ o'.data1 ≠ 0xFF ∧ o'.data2 ≠ 0xFF then
      (r, toU 16 (toU 16 ((o'.data1 : Int) * 256) ||| o'.data2 : Nat), rest)
    else (.none, dist, rest)
  else (r, dist, rest)

/-- `EndTemperature` (URM37V32_Controller.h 145-173), had line 151 called `ReceiveResponse` (it names `ReceiveRespone`, which does not exist). -/
def endTemperature (o : Out) (temp : Int) (s : List Nat) : Result × Int × List Nat :=
  let (r, o', rest) := receiveResponse o s
  if r = .success then
    if o'.command = 0x11 then
      let t : Int := ((o'.data1 &&& 0x0F) <<< 8 ||| o'.data2 : Nat)
      (r, if o'.data1 &&& 0xF0 ≠ 0 then -t else t, rest)
    else (.none, temp, rest)
  else (r, temp, rest)

/-- `map` (URM37V32_Controller.h 193-196) in `long` (32 bits are enough for the arguments used). -/
def map (x inMin inMax outMin outMax : Int) : Int := (x - inMin) * (outMax - outMin) |>.tdiv (inMax - inMin) |> (· + outMin)

/-- `BeginDistance()` (91-94) and `BeginDistance(degrees)` (100-103): the bytes written. -/
def beginDistance : List Nat := sendCommand 0x22 0 0
/-- `BeginDistance(degrees)` (URM37V32_Controller.h 100-103). -/
def beginDistanceAt (degrees : Nat) : List Nat := sendCommand 0x22 (toU 8 (map degrees 0 270 0 46)) 0

/-- `BeginTemperature` (URM37V32_Controller.h 136-139). -/
def beginTemperature : List Nat := sendCommand 0x11 0 0

/-- The wait loop of `WriteEEPROM` (URM37V32_Controller.h 185): `arrivals` lists the bytes that arrive before each poll. `none`: still waiting
    after these polls. -/
def waitResponse (o : Out) (s : List Nat) : List (List Nat) → Option (Out × List Nat)
  | [] => none
  | a :: as =>
    let (r, o', rest) := receiveResponse o (s ++ a)
    if r = .success then some (o', rest) else waitResponse o' rest as

/-- `WriteEEPROM` (URM37V32_Controller.h 176-189) after the command was written: the result and the rest of the stream. -/
def writeEeprom (o : Out) (data1 data2 : Nat) (s : List Nat) (arrivals : List (List Nat)) : Option (Bool × List Nat) :=
  match waitResponse o s arrivals with
  | none => none
  | some (o', rest) => some (decide (o'.command = 0x44 ∧ o'.data1 = data1 ∧ o'.data2 = data2), rest)

/-- The three writes of `SetAutonomousTriggerMode` (URM37V32_Controller.h 69-75), `threshold` a `uint16_t`. -/
def triggerWrites (threshold : Nat) : List (Nat × Nat) := [(2, 0xAA), (0, toU 8 threshold), (1, toU 8 ((threshold >>> 8 : Nat) : Int))]

/-- `SetAutonomousTriggerMode` and `SetPassiveControlMode` (69-75, 83-86): writes in order until one fails. The sensor answers each command with
    a list of bytes per poll. Returns the bytes written and the result. -/
def writeAll (o : Out) (answer : Nat → Nat → List (List Nat)) (s : List Nat) : List (Nat × Nat) → List Nat × Option Bool
  | [] => ([], some true)
  | (a, b) :: l =>
    match writeEeprom o a b s (answer a b) with
    | none => (sendCommand 0x44 a b, none)
    | some (false, _) => (sendCommand 0x44 a b, some false)
    | some (true, rest) =>
      let (w, r) := writeAll o answer rest l
      (sendCommand 0x44 a b ++ w, r)

/-- `SetAutonomousTriggerMode` (URM37V32_Controller.h 69-75). -/
def setAutonomousTriggerMode (o : Out) (answer : Nat → Nat → List (List Nat)) (s : List Nat) (threshold : Nat) : List Nat × Option Bool :=
  writeAll o answer s (triggerWrites threshold)

/-- `SetPassiveControlMode` (URM37V32_Controller.h 83-86). -/
def setPassiveControlMode (o : Out) (answer : Nat → Nat → List (List Nat)) (s : List Nat) : List Nat × Option Bool :=
  writeAll o answer s [(2, 0xBB)]

end Atl.Sonar
