/-
  Independent specification of count-down delays: a finite map from ids to remaining time, and the
  "first update at which the accumulated time reaches the requested time" formulation.
-/
namespace Atl.Spec.Delays

/-- Calls, by meaning; `none` marks a time update of `d`. -/
inductive Call where
  | update (d : Nat)
  | wait (id time : Nat)
  | abort (id : Nat)
  | clear (id : Nat)
  | isWaiting (id : Nat)
  deriving Repr, DecidableEq

/-- The id a call is about. -/
def Call.id? : Call → Option Nat
  | .update _ => none
  | .wait i _ | .abort i | .clear i | .isWaiting i => some i

/-- A call that client `id` makes or must see: its own calls and the passing of time. -/
def Call.concerns (id : Nat) (c : Call) : Bool :=
  match c.id? with
  | none => true
  | some i => i == id

/-- The table: elapsed time of the last update, remaining time per listed id. -/
structure Table where
  delta : Nat
  left : Nat → Option Nat

def Table.init : Table := ⟨0, fun _ => none⟩

def Table.put (t : Table) (id : Nat) (v : Option Nat) : Table := { t with left := fun j => if j = id then v else t.left j }

def Table.step (t : Table) : Call → Option Bool × Table
  | .update d => (none, { t with delta := d })
  | .wait id time =>
    match t.left id with
    | none => (some false, t.put id (some time))
    | some r => if r ≤ t.delta then (some true, t.put id none) else (some false, t.put id (some (r - t.delta)))
  | .abort id => (none, if t.left id = none then t else t.put id (some 0))
  | .clear id => (none, t.put id none)
  | .isWaiting id => (some (t.left id).isSome, t)

def Table.run (t : Table) : List Call → List (Option Bool) × Table
  | [] => ([], t)
  | c :: cs =>
    let (o, t1) := t.step c
    let (os, t2) := Table.run t1 cs
    (o :: os, t2)

/-- What client `id` sees: the results of its own calls, in order. -/
def seenBy (id : Nat) (cs : List Call) (os : List (Option Bool)) : List (Option Bool) :=
  ((cs.zip os).filter (fun p => p.1.id? == some id)).map (·.2)

/-- One `Wait` per time update, as the documentation prescribes. -/
def rounds (id : Nat) (ps : List (Nat × Nat)) : List Call := ps.flatMap (fun p => [.update p.1, .wait id p.2])

end Atl.Spec.Delays
