import Verif.Model.Basic

/-
  A variable in a `Data` (Data.h 27-58) or `VolatileData` (VolatileData.h 26-46) that main code and interrupt handlers share, on a processor that moves single bytes.
  A handler runs as a whole; main code is interrupted between any two accesses.
  Simplified: every operator accesses the memory (for `Data` the compiler may keep the value in registers, as it is not volatile).  `VolatileData` does not compile as written (DESIGN.md 5, item 70): its
  conversion and assignment are those of `Data`.
-/
namespace Atl.SharedData

/-- A value of `n` bytes (`T Value`, Data.h 57; `volatile T Data`, VolatileData.h 45). -/
abbrev Bytes (n : Nat) : Type := Fin n → BitVec 8

/-- `Value = data`, `Value |= data`, `Value &= data` (Data.h 42-55). -/
inductive Op (n : Nat) where
  | put (v : Bytes n)
  | or (m : Bytes n)
  | and (m : Bytes n)

/-- The new value (Data.h 44, 49, 54). -/
def Op.apply {n : Nat} : Op n → Bytes n → Bytes n
  | .put v, _ => v
  | .or m, v => fun i => v i ||| m i
  | .and m, v => fun i => v i &&& m i

/-- What main code calls: the conversion to `T` (Data.h 37-40, VolatileData.h 36-39) or one of the operators (Data.h 42-55, VolatileData.h 40-43). -/
inductive Call (n : Nat) where
  | read
  | change (o : Op n)

/-- An instruction that accesses one byte of the variable (Data.h 39, 44, 49, 54). -/
inductive Access (n : Nat) where
  | load (i : Fin n)
  | store (i : Fin n)
  deriving DecidableEq

/-- How the operators are compiled: the order of the accesses of `return Value` (Data.h 39), of `Value = data` (44), and of `Value |= data` and `Value &= data` (49, 54). -/
structure Code (n : Nat) where
  read : List (Fin n)
  put : List (Fin n)
  modify : List (Access n)

/-- The accesses of a call (Data.h 37-55). -/
def Code.of {n : Nat} (C : Code n) : Call n → List (Access n)
  | .read => C.read.map .load
  | .change (.put _) => C.put.map .store
  | .change _ => C.modify

/-- The byte in a register, or the byte to store, replaced (Data.h 39-54). -/
def upd {n : Nat} (v : Bytes n) (i : Fin n) (b : BitVec 8) : Bytes n := fun j => if j = i then b else v j

/-- Main code in a call: which, the bytes loaded so far, the accesses left (Data.h 37-55). -/
structure Frame (n : Nat) where
  call : Call n
  regs : Bytes n
  todo : List (Access n)

/-- The variable, the place of main code; as history variables the values main code and handlers have been given (Data.h 27-58). -/
structure St (n : Nat) where
  v : Bytes n
  pc : Option (Frame n)
  reads : List (Bytes n)
  seen : List (Bytes n)

/-- What happens (Data.h 37-55): main code begins a call outside of calls, makes its next access, or returns behind the last; a handler changes the variable; a handler reads it. -/
inductive Ev (n : Nat) where
  | start (c : Call n)
  | main
  | handler (o : Op n)
  | peek

/-- Main code goes on (Data.h 39, 44, 49, 54); what is stored in byte `i` is computed from the loaded byte `i` and byte `i` of the operand. -/
def mainStep {n : Nat} (s : St n) : St n :=
  match s.pc with
  | none => s
  | some ⟨c, r, .load i :: t⟩ => { s with pc := some ⟨c, upd r i (s.v i), t⟩ }
  | some ⟨.change o, r, .store i :: t⟩ => { s with v := upd s.v i (o.apply r i), pc := some ⟨.change o, r, t⟩ }
  | some ⟨.read, r, .store _ :: t⟩ => { s with pc := some ⟨.read, r, t⟩ }
  | some ⟨.read, r, []⟩ => { s with pc := none, reads := s.reads ++ [r] }
  | some ⟨.change _, _, []⟩ => { s with pc := none }

/-- One event (Data.h 37-55). -/
def step {n : Nat} (C : Code n) (s : St n) : Ev n → St n
  | .start c => if s.pc.isNone then { s with pc := some ⟨c, fun _ => 0, C.of c⟩ } else s
  | .main => mainStep s
  | .handler o => { s with v := o.apply s.v }
  | .peek => { s with seen := s.seen ++ [s.v] }

/-- A history (Data.h 27-58). -/
def run {n : Nat} (C : Code n) (s : St n) : List (Ev n) → St n
  | [] => s
  | e :: es => run C (step C s e) es

/-- Constructed (Data.h 32-35, VolatileData.h 31-34). -/
def St.init {n : Nat} (v : Bytes n) : St n := ⟨v, none, [], []⟩

end Atl.SharedData
