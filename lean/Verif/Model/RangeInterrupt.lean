import Verif.Model.Basic
import Verif.Model.Range
import Mathlib.Algebra.Order.Group.Unbundled.Int

/-
  One `ValueContainer` (ValueContainer.h 29-112) used by main code and by interrupt handlers: main code is interrupted between any two accesses of a member, handlers' calls run as a whole.
  Simplified: an integer `T` whose values take one access; a call loads each member at most once (`_begin` or `_end` first, as the compiler likes), and stores in the order of the source; the loads of main
  code's `Normalize` are one access.
-/
namespace Atl.RangeInterrupt
open Atl.ValueContainer

/-- A call that changes the container (ValueContainer.h 56-78, 98-106). -/
inductive Call where
  | single (v : Int)
  | range (b e : Int)
  | any
  | none
  | normalize
  deriving DecidableEq, Repr

/-- A handler's call (ValueContainer.h 56-78, 98-106). -/
def Call.apply (s : VC Int) : Call → VC Int
  | .single v => setSingle s v
  | .range b e => setRange s b e
  | .any => setAny s
  | .none => setNone s
  | .normalize => ValueContainer.normalize s

/-- A store to a member (ValueContainer.h 109-111). -/
inductive Store where
  | mode (m : Mode)
  | begin_ (v : Int)
  | end_ (v : Int)
  deriving DecidableEq, Repr

/-- The stores of a call of main code (ValueContainer.h 58-60, 65-67, 72, 77, 100-105). -/
def stores (s : VC Int) : Call → List Store
  | .single v => [.mode .single, .begin_ v, .end_ v]
  | .range b e => [.mode .range, .begin_ b, .end_ e]
  | .any => [.mode .any]
  | .none => [.mode .none]
  | .normalize => if s.begin' > s.end' then [.end_ s.begin', .begin_ s.end'] else []

/-- A store (ValueContainer.h 109-111). -/
def Store.make (s : VC Int) : Store → VC Int
  | .mode m => { s with mode := m }
  | .begin_ v => { s with begin' := v }
  | .end_ v => { s with end' := v }

/-- Where main code is: outside; in `IsInRange` before it loads the mode (ValueContainer.h 87), a first bound, the other one (90); with stores to make. -/
inductive Pc where
  | idle
  | mode (v : Int)
  | bounds (v : Int)
  | half (v x : Int)
  | storing (l : List Store)
  deriving DecidableEq, Repr

/-- The members (ValueContainer.h 109-111), the place of main code; as history variables the answers main code and handlers have got from `IsInRange`. -/
structure St where
  vc : VC Int
  pc : Pc
  answers : List Bool
  seen : List Bool
  deriving DecidableEq, Repr

/-- What happens (ValueContainer.h 56-106). -/
inductive Ev where
  /-- Main code calls `IsInRange`. -/
  | ask (v : Int)
  /-- Main code calls `SetSingle`, `SetRange`, `SetAny`, `SetNone` or `Normalize`. -/
  | set (c : Call)
  /-- Main code makes its next access. -/
  | main
  /-- A handler changes the container. -/
  | handler (c : Call)
  /-- A handler calls `IsInRange`. -/
  | look (v : Int)
  deriving DecidableEq, Repr

/-- The next access of main code (ValueContainer.h 58-77, 87-95). -/
def mainStep (endFirst : Bool) (y : St) : St :=
  match y.pc with
  | .idle => y
  | .mode v =>
    if y.vc.mode = .none then { y with pc := .idle, answers := y.answers ++ [false] }
    else if y.vc.mode = .any then { y with pc := .idle, answers := y.answers ++ [true] }
    else { y with pc := .bounds v }
  | .bounds v => { y with pc := .half v (if endFirst then y.vc.end' else y.vc.begin') }
  | .half v x =>
    let b := if endFirst then y.vc.begin' else x
    let e := if endFirst then x else y.vc.end'
    let r := if b > e then decide (e ≤ v) && decide (v ≤ b) else decide (b ≤ v) && decide (v ≤ e)
    { y with pc := .idle, answers := y.answers ++ [r] }
  | .storing [] => { y with pc := .idle }
  | .storing (s :: l) => { y with vc := s.make y.vc, pc := .storing l }

/-- One event (ValueContainer.h 56-106); main code begins a call only outside of calls. -/
def step (endFirst : Bool) (y : St) : Ev → St
  | .ask v => if y.pc = .idle then { y with pc := .mode v } else y
  | .set c => if y.pc = .idle then { y with pc := .storing (stores y.vc c) } else y
  | .main => mainStep endFirst y
  | .handler c => { y with vc := c.apply y.vc }
  | .look v => { y with seen := y.seen ++ [isInRange y.vc v] }

/-- A history (ValueContainer.h 56-106). -/
def run (endFirst : Bool) (y : St) (es : List Ev) : St := es.foldl (step endFirst) y

/-- Constructed without arguments, over whatever was in memory (ValueContainer.h 41-44). -/
def St.init (garbage : Int × Int) : St := ⟨ValueContainer.init garbage, .idle, [], []⟩

end Atl.RangeInterrupt
