import Verif.Model.Delays

/-
  One `Delays` table used by main code and by interrupt handlers. `Wait` of main code runs access by access (an element of `_ids` or `_delays` is read or written in one step,
  `_ids[i]` is read once per round of a loop); a handler makes whole calls and is not interrupted, and the other calls of main code are whole too. The members are not
  volatile, so the compiler may read `_delays[i]` once or twice in Delays.h 108-114: parameter `reload`.
-/
namespace Atl.DelaysInterrupt
open Atl.Delays

/-- Where main code is in `Wait` (Delays.h 94-136). -/
inductive Pc where
  /-- Outside `Wait` (Delays.h 94). -/
  | idle
  /-- Before round `i` of the first loop, `e` is `emptyIndex` (Delays.h 98-117). -/
  | look (i : Nat) (e : Int)
  /-- Before round `i` of the second loop (Delays.h 121-129). -/
  | again (i : Nat)
  /-- Before the comparison with `_delays[i]` (Delays.h 108). -/
  | compare (i : Nat)
  /-- Before `_delays[i]` is read for `-=` (Delays.h 114). -/
  | fetch (i : Nat)
  /-- Before `v` is stored (Delays.h 114). -/
  | store (i : Nat) (v : Nat)
  /-- Before `_ids[i] = 0` (Delays.h 110). -/
  | release (i : Nat)
  /-- Before `_ids[emptyIndex] = id` (Delays.h 132). -/
  | claim (e : Nat)
  /-- Before `_delays[emptyIndex] = time` (Delays.h 133). -/
  | start (e : Nat)
  deriving Repr, DecidableEq

/-- The members, the place of main code in its `Wait` and the arguments, and the completed calls with their answers (`true`: of main code) (Delays.h 94-136, 169-172). -/
structure St where
  tab : State
  pc : Pc
  id : Nat
  time : Nat
  log : List (Bool × Op × Option Bool)

/-- Nothing called yet (Delays.h 177-187). -/
def St.init : St := ⟨State.init, .idle, 0, 0, []⟩

/-- What happens (Delays.h 47-166). -/
inductive Ev where
  /-- Main code calls `Wait` (Delays.h 94). -/
  | begin (id time : Nat)
  /-- Main code makes its next access (Delays.h 96-136). -/
  | main
  /-- Main code makes another call (Delays.h 47-83, 141-166). -/
  | call (o : Op)
  /-- A handler makes a call (Delays.h 47-166). -/
  | handler (o : Op)
  deriving Repr, DecidableEq

/-- Main code returns from `Wait` (Delays.h 111, 115, 135). -/
def St.answer (s : St) (tab : State) (b : Bool) : St :=
  { s with tab := tab, pc := .idle, log := s.log ++ [(true, .wait s.id s.time, some b)] }

variable (N : Nat) (reload : Bool)

/-- One access of main code in `Wait` (Delays.h 94-136). -/
def mainStep (s : St) : Res St :=
  match s.pc with
  | .idle => .ok s
  | .look i e =>
    if i < N then
      if e = -1 ∧ s.tab.ids i = 0 then .ok { s with pc := .look (i + 1) i }
      else if s.tab.ids i = s.id then .ok { s with pc := .compare i }
      else .ok { s with pc := .look (i + 1) e }
    else if e = -1 then .ok { s with pc := .again 0 }
    else .ok { s with pc := .claim e.toNat }
  | .again i =>
    if i < N then
      if s.tab.ids i = 0 then .ok { s with pc := .claim i } else .ok { s with pc := .again (i + 1) }
    else .ub
  | .compare i =>
    if s.tab.delta ≥ s.tab.delays i then .ok { s with pc := .release i }
    else if reload then .ok { s with pc := .fetch i }
    else .ok { s with pc := .store i (s.tab.delays i - s.tab.delta) }
  | .fetch i => .ok { s with pc := .store i (toU 32 ((s.tab.delays i : Int) - s.tab.delta)) }
  | .store i v => .ok (s.answer { s.tab with delays := upd s.tab.delays i v } false)
  | .release i => .ok (s.answer { s.tab with ids := upd s.tab.ids i 0 } true)
  | .claim e => .ok { s with tab := { s.tab with ids := upd s.tab.ids e s.id }, pc := .start e }
  | .start e => .ok (s.answer { s.tab with delays := upd s.tab.delays e s.time } false)

/-- A whole call (Delays.h 47-166), noted. -/
def St.whole (s : St) (byMain : Bool) (o : Op) : Res St := do
  let (a, tab) ← s.tab.step N o
  .ok { s with tab := tab, log := s.log ++ [(byMain, o, a)] }

/-- One event (Delays.h 47-166). -/
def step (s : St) : Ev → Res St
  | .begin id time => .ok { s with pc := .look 0 (-1), id := id, time := time }
  | .main => mainStep N reload s
  | .call o => s.whole N true o
  | .handler o => s.whole N false o

/-- A history (Delays.h 47-166). -/
def run (s : St) : List Ev → Res St
  | [] => .ok s
  | e :: es => do
    let t ← step N reload s e
    run t es

end Atl.DelaysInterrupt
