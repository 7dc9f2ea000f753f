import Verif.Model.Bits

/-
  One `BitArray` (BitArray.h 38-270) used by main code and by interrupt handlers.  Main code runs access by access: every assignment to `_bits` in a method is a number of one-byte loads and
  stores in an order chosen by the compiler, every reading a number of one-byte loads.  A handler makes whole calls in between.
  The compiler may join the two assignments of `Set(bitIndex, bool)` (BitArray.h 117-122) and of `Set(bitIndex, value, bitCount)` (78-79), because `_bits` (251) is not `volatile`.
  Simplified: a call of main code loads what it needs itself; the shifts and `Reverse` are left out.
-/
namespace Atl.BitArrayInterrupt
open Atl.Bits

/-- A call that changes bits: `Set(bitIndex)`, `Set(bitIndex, bool)`, `Reset(bitIndex)`, `Set(bitIndex, value, bitCount)`, `SetAll`, `ResetAll` (BitArray.h 132, 111, 155, 64, 52, 167). -/
inductive Call (n : Nat) where
  | set (i : Nat)
  | put (i : Nat) (v : Bool)
  | reset (i : Nat)
  | field (i : Nat) (v : BitVec n) (cnt : Nat)
  | all (v : BitVec n)
  | clear

/-- A call that reads bits: `IsTrue`, `IsFalse`, `Get(bitIndex, bitCount)`, the cast (BitArray.h 176, 187, 90, 227). -/
inductive Reading where
  | bit (i : Nat)
  | noBit (i : Nat)
  | field (i cnt : Nat)
  | all

/-- Its result (BitArray.h 90-104, 176-192, 227-230). -/
inductive Ans (n : Nat) where
  | flag (b : Bool)
  | word (w : BitVec n)
  deriving DecidableEq

/-- An assignment `_bits = (_bits & keep) | put`; the assignments of BitArray.h 54, 78, 79, 117, 122, 137, 160, 169 have this form. -/
structure Assign (n : Nat) where
  keep : BitVec n
  put : BitVec n

variable (W : Nat) {n : Nat}

/-- The bits a call leaves if nothing interferes (BitArray.h 52-55, 64-82, 111-140, 155-170). -/
def whole (bits : BitVec n) : Call n → Res (BitVec n)
  | .set i => do let (b, _) ← BitArray.set W bits i; .ok b
  | .put i v => do let (b, _) ← BitArray.setBool W bits i v; .ok b
  | .reset i => do let (b, _) ← BitArray.reset W bits i; .ok b
  | .field i v cnt => do let (b, _) ← BitArray.setField W bits i v cnt; .ok b
  | .all v => .ok v
  | .clear => .ok 0

/-- The result of a reading of these bits (BitArray.h 90-104, 176-192, 227-230). -/
def evaluate (bits : BitVec n) : Reading → Res (Ans n)
  | .bit i => do let b ← BitArray.isTrue W bits i; .ok (.flag b)
  | .noBit i => do let b ← BitArray.isFalse W bits i; .ok (.flag b)
  | .field i cnt => do let w ← BitArray.getField W bits i cnt; .ok (.word w)
  | .all => .ok (.word bits)

/-- The assignments of a call, in order (BitArray.h 54, 66-79, 113-122, 134-137, 157-160, 169). -/
def assigns : Call n → Res (List (Assign n))
  | .set i =>
    if !BitArray.isValidIndex n i 1 then .ok []
    else do
      let m ← shlOne W i
      .ok [⟨BitVec.allOnes n, intToT n m⟩]
  | .put i v =>
    if !BitArray.isValidIndex n i 1 then .ok []
    else do
      let m ← shlOne W i
      .ok (⟨~~~intToT n m, 0⟩ :: if v then [⟨BitVec.allOnes n, intToT n m⟩] else [])
  | .reset i =>
    if !BitArray.isValidIndex n i 1 then .ok []
    else do
      let m ← shlOne W i
      .ok [⟨intToT n (~~~m), 0⟩]
  | .field i v cnt =>
    if !BitArray.isValidIndex n i cnt then .ok []
    else do
      let mask ← shlT W (BitArray.createMask n cnt) i
      let value ← shlT W (v &&& BitArray.createMask n cnt) i
      .ok [⟨~~~mask, 0⟩, ⟨BitVec.allOnes n, value⟩]
  | .all v => .ok [⟨0, v⟩]
  | .clear => .ok [⟨0, 0⟩]

/-- Two assignments as one (BitArray.h 78-79, 117-122). -/
def Assign.join (a b : Assign n) : Assign n := ⟨a.keep &&& b.keep, (a.put &&& b.keep) ||| b.put⟩

/-- The assignments of a call joined, if the compiler joins (BitArray.h 78-79, 117-122). -/
def joined (join : Bool) : List (Assign n) → List (Assign n)
  | [a, b] => if join then [a.join b] else [a, b]
  | l => l

/-- An access to byte `j` of `_bits` (BitArray.h 251). -/
inductive Access where
  | load (j : Nat)
  | store (j : Nat)
  deriving DecidableEq

/-- The byte (BitArray.h 251). -/
def Access.byte : Access → Nat
  | .load j | .store j => j

/-- What the compiler makes of the methods: whether it joins, the accesses of an assignment and the bytes loaded by a reading (BitArray.h 54, 78, 79, 98, 117, 122, 137, 160, 169, 180, 191, 229). -/
structure Code (n : Nat) where
  join : Bool
  order : Assign n → List Access
  look : Reading → List Nat

/-- One machine step of main code: a load, a store of what an assignment makes of the loaded byte, the end of a reading (BitArray.h 54-229). -/
inductive Micro (n : Nat) where
  | load (j : Nat)
  | store (j : Nat) (a : Assign n)
  | answer (q : Reading)

/-- The steps of an assignment (BitArray.h 54, 78, 79, 117, 122, 137, 160, 169). -/
def micros (C : Code n) (a : Assign n) : List (Micro n) :=
  (C.order a).map fun | .load j => .load j | .store j => .store j a

/-- History: what has happened to `_bits` (BitArray.h 251). -/
inductive Seen (n : Nat) where
  | loaded (j : Nat)
  | stored (j : Nat) (a : Assign n)
  | handled (c : Call n)

/-- `_bits` (BitArray.h 251), main code's registers, its remaining steps, the results of its readings, and as a history variable what happened, newest first. -/
structure St (n : Nat) where
  mem : BitVec n
  tmp : BitVec n
  todo : List (Micro n)
  answers : List (Ans n)
  log : List (Seen n)

/-- Outside all calls (BitArray.h 45-47). -/
def St.init (b : BitVec n) : St n := ⟨b, b, [], [], []⟩

/-- Byte `j` of `n` bits (BitArray.h 251). -/
def byteMask (n j : Nat) : BitVec n := 255#n <<< (8 * j)

/-- Byte `j` of `a`, the others of `b` (BitArray.h 251). -/
def pick (j : Nat) (a b : BitVec n) : BitVec n := (a &&& byteMask n j) ||| (b &&& ~~~byteMask n j)

/-- What happens (BitArray.h 52-230). -/
inductive Ev (n : Nat) where
  /-- Main code calls a method that changes bits (BitArray.h 52, 64, 111, 132, 155, 167). -/
  | call (c : Call n)
  /-- Main code calls a method that reads bits (BitArray.h 90, 176, 187, 227). -/
  | look (q : Reading)
  /-- Main code makes its next step (BitArray.h 54-229). -/
  | main
  /-- A handler calls a method that changes bits (BitArray.h 52, 64, 111, 132, 155, 167). -/
  | handler (c : Call n)

/-- One step of main code (BitArray.h 54-229). -/
def mainStep (s : St n) : Res (St n) :=
  match s.todo with
  | [] => .ok s
  | .load j :: l => .ok { s with tmp := pick j s.mem s.tmp, todo := l, log := .loaded j :: s.log }
  | .store j a :: l => .ok { s with mem := pick j ((s.tmp &&& a.keep) ||| a.put) s.mem, todo := l, log := .stored j a :: s.log }
  | .answer q :: l => do
    let a ← evaluate W s.tmp q
    .ok { s with answers := s.answers ++ [a], todo := l }

/-- One event (BitArray.h 52-230). -/
def step (C : Code n) (s : St n) : Ev n → Res (St n)
  | .call c => do
    let l ← assigns W c
    .ok { s with todo := (joined C.join l).flatMap (micros C) }
  | .look q => .ok { s with todo := (C.look q).map .load ++ [.answer q] }
  | .main => mainStep W s
  | .handler c => do
    let b ← whole W s.mem c
    .ok { s with mem := b, log := .handled c :: s.log }

/-- A history (BitArray.h 52-230). -/
def run (C : Code n) (s : St n) : List (Ev n) → Res (St n)
  | [] => .ok s
  | e :: es => do
    let s ← step W C s e
    run C s es

end Atl.BitArrayInterrupt
