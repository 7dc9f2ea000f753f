import Verif.Spec.Lcd

/-
  What a display shows of pages of text, without reference to the library: a page is a list of lines, a line a list of character codes.
-/
namespace Atl.Spec.Pages

/-- The character a page has in row `r`, column `c`. -/
def charAt (page : List (List Nat)) (r c : Nat) : Option Nat := (page[r]?).bind (·[c]?)

/-- The page alone on a clear display. -/
def alone (page : List (List Nat)) (r c : Nat) : Nat := (charAt page r c).getD 0x20

/-- Pages shown in turn, each written over what was there: after `k` changes, starting with page 0 on a clear display. -/
def shown (pages : List (List (List Nat))) : Nat → Nat → Nat → Nat
  | 0, r, c => (charAt (pages.getD 0 []) r c).getD 0x20
  | k + 1, r, c => (charAt (pages.getD ((k + 1) % pages.length) []) r c).getD (shown pages k r c)

/-- A line of text that fits a display: codes of visible characters, at most as many as there are columns. -/
def FitsLine (rows : Nat) (text : List Nat) : Prop := text.length ≤ Lcd.columns rows ∧ ∀ c ∈ text, 0 < c ∧ c < 256 ∧ c ≠ 10 ∧ c ≠ 13

/-- A page that fits a display. -/
def FitsPage (rows : Nat) (page : List (List Nat)) : Prop := page.length ≤ rows ∧ ∀ t ∈ page, FitsLine rows t

/-- The device is on, without visible cursor and not scrolled, and has these characters on its rows. -/
structure Displays (rows : Nat) (d : Lcd.Device) (text : Nat → Nat → Nat) : Prop where
  on : d.on = true
  cursor : d.cursor = false
  blink : d.blink = false
  window : d.window = 0
  text : ∀ r c, r < rows → c < Lcd.columns rows → d.ddram (Lcd.cell r c) = text r c

end Atl.Spec.Pages
