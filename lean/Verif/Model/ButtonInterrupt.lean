import Verif.Model.PushButton
import Verif.Model.BitArrayInterrupt

/-
  A push button that main code scans while interrupt handlers ask for its state (PushButton.h 106-141): main code is interrupted between any two stores to `_states` (166).
  Only main code stores to `_states`, so the loads of its own are not told apart.  The compiler may join the two assignments of `BitArray::Set` (BitArray.h 78-79), because `_bits` is not `volatile`.
  Simplified: the delay table belongs to main code, and its calls are one access; within a call of `ScanButton` the pin has one level.  16-bit `int`.
-/
namespace Atl.ButtonInterrupt
open Atl.PushButton Atl.BitArrayInterrupt

/-- The template arguments (PushButton.h 90-92), the size of the delay table (Delays.h 40), the id, and whether the compiler joins (BitArray.h 78-79). -/
structure Cfg where
  N : Nat
  id : Nat
  debounce : Nat
  hold : Nat
  inverse : Bool
  join : Bool

/-- The values of `ButtonStates` (PushButton.h 32-44). -/
def code : BState → BitVec 8
  | .unknown => 0
  | .opened => 1
  | .closed => 2
  | .hold => 3
  | .pending => 4

/-- The cast to `ButtonStates` (PushButton.h 140, 205); undefined here if the value is not one of the enumerators. -/
def ofCode (b : BitVec 8) : Res BState :=
  if b = 0 then .ok .unknown else if b = 1 then .ok .opened else if b = 2 then .ok .closed else if b = 3 then .ok .hold else if b = 4 then .ok .pending else .ub

/-- `getState` (PushButton.h 138-141). -/
def getState (bits : BitVec 8) : Res BState := do
  let w ← Bits.BitArray.getField 16 bits 0 3
  ofCode w

/-- `getPrevState` (PushButton.h 203-206). -/
def getPrevState (bits : BitVec 8) : Res BState := do
  let w ← Bits.BitArray.getField 16 bits 3 3
  ofCode w

/-- The stores of `setState` (PushButton.h 213-216). -/
def setState (k : Cfg) (v : BState) : Res (List (Assign 8)) := do
  let l ← assigns 16 (.field 0 (code v) 3)
  .ok (joined k.join l)

/-- The stores of `setPrevState` (PushButton.h 208-211). -/
def setPrevState (k : Cfg) (v : BState) : Res (List (Assign 8)) := do
  let l ← assigns 16 (.field 3 (code v) 3)
  .ok (joined k.join l)

/-- What main code does next in `ScanButton` (PushButton.h 106-132): sample, test for debouncing, yield, go on waiting, test for holding, end. -/
inductive Next where
  | sample (pin : Bool)
  | debounce
  | yield
  | wait (pin : Bool)
  | hold
  | finish
  deriving DecidableEq, Repr

/-- Where main code is: outside, or with stores to make and what comes next (PushButton.h 106-132). -/
inductive Pc where
  | idle
  | go (l : List (Assign 8)) (next : Next)

/-- `_states` and `_task` (PushButton.h 165-166), the delay table, the place of main code; as history variables the results of `ScanButton` and what handlers got from `getState`. -/
structure St where
  bits : BitVec 8
  task : Nat
  delays : Delays.State
  pc : Pc
  results : List Bool
  seen : List BState

/-- What happens (PushButton.h 106-141). -/
inductive Ev where
  /-- Main code calls `ScanButton`. -/
  | scan (pin : Bool)
  /-- Main code goes on. -/
  | main
  /-- Main code uses the delay table, for instance updates it. -/
  | other (op : Delays.Op)
  /-- A handler calls `getState`. -/
  | look

/-- A piece of `ScanButton` between stores (PushButton.h 106-132, 168-201). -/
def act (k : Cfg) (y : St) : Next → Res St
  | .sample pin => do
    let state ← getState y.bits
    let new := convert k.inverse pin
    if state ≠ new ∧ ¬ (new = .closed ∧ state = .hold) then do
      let p ← setPrevState k state
      let c ← setState k new
      .ok { y with pc := .go (p ++ c) .debounce }
    else .ok { y with pc := .go [] .debounce }
  | .debounce => do
    let prev ← getPrevState y.bits
    let state ← getState y.bits
    if prev ≠ state ∧ state ≠ .hold ∧ prev ≠ .unknown ∧ prev ≠ .pending then do
      let c ← setState k .pending
      .ok { y with delays := y.delays.clear k.N k.id, pc := .go c .yield }
    else .ok { y with pc := .go [] .hold }
  | .yield => .ok { y with task := 113, pc := .idle, results := y.results ++ [true] }
  | .wait pin => do
    let (b, d) ← y.delays.wait k.N k.id k.debounce
    if b then do
      let state ← getState y.bits
      let p ← setPrevState k state
      let c ← setState k (convert k.inverse pin)
      .ok { y with delays := d, pc := .go (p ++ c) .hold }
    else .ok { y with delays := d, pc := .idle, results := y.results ++ [true] }
  | .hold => do
    let state ← getState y.bits
    if state = .closed then do
      let (b, d) ← y.delays.wait k.N k.id k.hold
      if b then do
        let p ← setPrevState k state
        let c ← setState k .hold
        .ok { y with delays := d, pc := .go (p ++ c) .finish }
      else .ok { y with delays := d, pc := .go [] .finish }
    else if y.delays.isWaiting k.N k.id then .ok { y with delays := y.delays.clear k.N k.id, pc := .go [] .finish }
    else .ok { y with pc := .go [] .finish }
  | .finish => .ok { y with task := 0, pc := .idle, results := y.results ++ [false] }

/-- Main code's next store, or the piece up to it (PushButton.h 106-132, BitArray.h 78-79). -/
def mainStep (k : Cfg) (y : St) : Res St :=
  match y.pc with
  | .idle => .ok y
  | .go (a :: l) next => .ok { y with bits := (y.bits &&& a.keep) ||| a.put, pc := .go l next }
  | .go [] next => act k y next

/-- Where `ScanButton` goes on: `switch (_task)` of `Task_Begin` (Task.h 43-50, PushButton.h 106, 113). -/
def entry (task : Nat) (pin : Bool) : Next := if task = 0 then .sample pin else if task = 113 then .wait pin else .finish

/-- One event (PushButton.h 106-141); main code begins a call only outside of calls. -/
def step (k : Cfg) (y : St) : Ev → Res St
  | .scan pin => match y.pc with
    | .idle => .ok { y with pc := .go [] (entry y.task pin) }
    | _ => .ok y
  | .main => mainStep k y
  | .other op => match y.pc with
    | .idle => do
      let (_, d) ← y.delays.step k.N op
      .ok { y with delays := d }
    | _ => .ok y
  | .look => do
    let v ← getState y.bits
    .ok { y with seen := y.seen ++ [v] }

/-- A history (PushButton.h 106-141). -/
def run (k : Cfg) (y : St) : List Ev → Res St
  | [] => .ok y
  | e :: es => do
    let y ← step k y e
    run k y es

/-- At the beginning (PushButton.h 165-166). -/
def St.init : St := ⟨0, 0, Delays.State.init, .idle, [], []⟩

end Atl.ButtonInterrupt
