import Mathlib.Data.List.Basic

/-
  The HD44780 character display as its data sheet describes it, written without reference to the library: the interface lines, the
  latch on the falling edge of E, the 4 and 8 bit interface, the instructions and the display memory. And a `Screen`: what a user
  expects of a text view.
-/
namespace Atl.Spec.Lcd

/-- The interface lines a microcontroller drives in the 4 bit wiring. -/
structure Lines where
  rs : Bool
  rw : Bool
  e : Bool
  d4 : Bool
  d5 : Bool
  d6 : Bool
  d7 : Bool
  deriving Repr, DecidableEq

/-- The number on D4-D7. -/
def Lines.nibble (l : Lines) : Nat := l.d4.toNat + 2 * l.d5.toNat + 4 * l.d6.toNat + 8 * l.d7.toNat

/-- What the display latches when the lines go from `a` to `b`: on a falling edge of E the register select and the nibble. `none` when
    another line changes at the same moment, or when R/W asks for a read: then what is latched is not determined. -/
def latch (a b : Lines) : List (Option (Bool × Nat)) :=
  if a.e && !b.e then
    if { a with e := false } = b ∧ b.rw = false then [some (b.rs, b.nibble)] else [none]
  else []

/-- All latches over a sequence of line levels. -/
def latches (a : Lines) : List Lines → List (Option (Bool × Nat))
  | [] => []
  | b :: l => latch a b ++ latches b l

/-- The 4 bit interface pairs nibbles, high one first, with a constant register select. -/
def pairUp : List (Option (Bool × Nat)) → Option (List (Bool × Nat))
  | [] => some []
  | some (rs, h) :: some (rs', l) :: t => if rs = rs' then (pairUp t).map ((rs, 16 * h + l) :: ·) else none
  | _ => none

/-- The display controller. -/
structure Device where
  /-- 4 bit interface selected -/
  four : Bool
  /-- first nibble of a byte with its register select -/
  half : Option (Bool × Nat)
  twoLine : Bool
  on : Bool
  cursor : Bool
  blink : Bool
  increment : Bool
  shift : Bool
  /-- address counter -/
  ac : Nat
  /-- address counter points into CGRAM -/
  cg : Bool
  ddram : Nat → Nat
  cgram : Nat → Nat
  /-- DDRAM column shown at the left edge, 0..39 (two line mode) -/
  window : Nat

/-- Next address (two line: 00-27, 40-67; one line: 00-4F; CGRAM: 00-3F). -/
def nextAddress (twoLine cg : Bool) (a : Nat) : Nat :=
  if cg then (a + 1) % 64
  else if twoLine then (if a = 0x27 then 0x40 else if a = 0x67 then 0 else (a + 1) % 128)
  else if a = 0x4F then 0 else (a + 1) % 128

/-- Previous address. -/
def prevAddress (twoLine cg : Bool) (a : Nat) : Nat :=
  if cg then (a + 63) % 64
  else if twoLine then (if a = 0x40 then 0x27 else if a = 0 then 0x67 else (a + 127) % 128)
  else if a = 0 then 0x4F else (a + 127) % 128

/-- Length of a line of DDRAM. -/
def lineLength (twoLine : Bool) : Nat := if twoLine then 40 else 80

/-- Move the window so that the picture moves to the right/left. -/
def moveWindow (d : Device) (right : Bool) : Nat :=
  if right then (d.window + lineLength d.twoLine - 1) % lineLength d.twoLine else (d.window + 1) % lineLength d.twoLine

def setAt (f : Nat → Nat) (i v : Nat) : Nat → Nat := fun j => if j = i then v else f j

/-- Bit test by arithmetic. -/
def bit (b k : Nat) : Bool := b / 2 ^ k % 2 = 1

/-- Executes a byte: an instruction (decoded by its highest set bit) or data. -/
def exec (d : Device) (rs : Bool) (b : Nat) : Device :=
  if rs then
    let a := if d.increment then nextAddress d.twoLine d.cg d.ac else prevAddress d.twoLine d.cg d.ac
    let d' := if d.cg then { d with cgram := setAt d.cgram d.ac b } else { d with ddram := setAt d.ddram d.ac b }
    { d' with ac := a, window := if d.shift && !d.cg then moveWindow d (!d.increment) else d.window }
  else if 128 ≤ b then { d with ac := b % 128, cg := false }
  else if 64 ≤ b then { d with ac := b % 64, cg := true }
  else if 32 ≤ b then { d with four := !bit b 4, twoLine := bit b 3 }
  else if 16 ≤ b then
    if bit b 3 then { d with window := moveWindow d (bit b 2) }
    else { d with ac := if bit b 2 then nextAddress d.twoLine d.cg d.ac else prevAddress d.twoLine d.cg d.ac }
  else if 8 ≤ b then { d with on := bit b 2, cursor := bit b 1, blink := bit b 0 }
  else if 4 ≤ b then { d with increment := bit b 1, shift := bit b 0 }
  else if 2 ≤ b then { d with ac := 0, cg := false, window := 0 }
  else if b = 1 then { d with ac := 0, cg := false, window := 0, increment := true, ddram := fun _ => 0x20 }
  else d

/-- Executes bytes. -/
def execAll (d : Device) (l : List (Bool × Nat)) : Device := l.foldl (fun d x => exec d x.1 x.2) d

/-- Receives one latched nibble. In the 8 bit interface the lines D0-D3 are not wired and read as `low`; should the two nibbles of
    a byte come with different register selects then `amb` says which one counts. -/
def receive (low : Nat) (amb : Bool) (d : Device) (rs : Bool) (n : Nat) : Device :=
  if d.four then
    match d.half with
    | none => { d with half := some (rs, n) }
    | some (rs', h) => exec { d with half := none } (if amb then rs' else rs) (16 * h + n)
  else exec { d with half := none } rs (16 * n + low)

/-- Receives a stream of latches; `low` and `amb` are arbitrary at each one. `none`: something undetermined was latched. -/
def receiveAll (low : Nat → Nat) (amb : Nat → Bool) : Nat → Device → List (Option (Bool × Nat)) → Option Device
  | _, d, [] => some d
  | t, d, some (rs, n) :: l => receiveAll low amb (t + 1) (receive (low t % 16) (amb t) d rs n) l
  | _, _, none :: _ => none

/-- 4 bit interface at a byte boundary. -/
def Aligned (d : Device) : Prop := d.four = true ∧ d.half = none

/-- Instructions that select the 8 bit interface. -/
def selects8 (x : Bool × Nat) : Prop := x.1 = false ∧ 0x30 ≤ x.2 ∧ x.2 < 0x40

/-- DDRAM address of row and column on panels of 1-4 rows: two DDRAM lines of 40; rows 2 and 3 continue rows 0 and 1 at column 20. -/
def cell (r c : Nat) : Nat := (if r % 2 = 1 then 0x40 else 0) + (if 2 ≤ r then 20 else 0) + c

/-- Number of columns for which every row has its own memory. -/
def columns (rows : Nat) : Nat := if rows ≤ 2 then 40 else 20

/-- What a user of a text view has in mind: a position and the text. -/
structure Screen where
  row : Nat
  col : Nat
  text : Nat → Nat → Nat

/-- Text operations. -/
inductive TextOp where
  | char (c : Nat)
  | lineFeed
  | carriageReturn
  | moveTo (r c : Nat)
  | home
  deriving Repr, DecidableEq

/-- One text operation: a character appears at the position and the position moves right. -/
def Screen.step (s : Screen) : TextOp → Screen
  | .char c => { s with col := s.col + 1, text := fun i j => if i = s.row ∧ j = s.col then c else s.text i j }
  | .lineFeed => { s with row := s.row + 1 }
  | .carriageReturn => { s with col := 0 }
  | .moveTo r c => { s with row := r, col := c }
  | .home => { s with row := 0, col := 0 }

def Screen.run (s : Screen) (l : List TextOp) : Screen := l.foldl Screen.step s

/-- The operation stays on a screen with that many rows and columns (the position may rest just behind the last column). -/
def Screen.fits (rows : Nat) (s : Screen) : TextOp → Prop
  | .char _ => s.col < columns rows
  | .lineFeed => s.row + 1 < rows ∧ s.col < columns rows
  | .carriageReturn => True
  | .moveTo r c => r < rows ∧ c < columns rows
  | .home => True

def Screen.fitsAll (rows : Nat) (s : Screen) : List TextOp → Prop
  | [] => True
  | x :: l => s.fits rows x ∧ (s.step x).fitsAll rows l

/-- The five settings of a display. -/
structure Flags where
  blink : Bool
  cursor : Bool
  display : Bool
  shift : Bool
  left : Bool
  deriving Repr, DecidableEq

/-- The device has these display settings. -/
def Device.showsDisplay (d : Device) (f : Flags) : Prop := d.on = f.display ∧ d.cursor = f.cursor ∧ d.blink = f.blink

/-- The device has these entry settings (text entered from the left = increment). -/
def Device.showsEntry (d : Device) (f : Flags) : Prop := d.increment = f.left ∧ d.shift = f.shift

end Atl.Spec.Lcd
