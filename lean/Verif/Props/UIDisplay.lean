import Verif.Model.UI
import Verif.Spec.Display

/- Property theorems C80, C81: what a page shows. -/
namespace Atl.Props
open Atl.UI Atl.UI.Control Atl.Spec.Display

/-- A coordinate passed to the DisplayWriter: 0xFF leaves it open (DisplayWriter.h 37-38). -/
def coord (x : Nat) : Option Nat := if x = 255 then none else some x

/-- One call on the display writer; `none` after undefined behaviour. -/
def show1 (s : Option Screen) : Out → Option Screen
  | .write t => s.map (·.write t)
  | .goTo r c => s.map (·.goTo (coord r) (coord c))
  | .setCursor r c e => s.map (·.setCursor (coord r) (coord c) e)
  | .undef => none

/-- A list of calls on the display writer. -/
def shows (s : Option Screen) (l : List Out) : Option Screen := l.foldl show1 s

/-- The control draws itself by writing one text (`Display` in normal mode, positioned by its parent). -/
def Draws {α : Type} [Control α] (k : α) (t : List Int) : Prop :=
  display .normal k = [.write t] ∨ (t = [] ∧ display .normal k = [])

/-- Character `ch` belongs in cell `(r, c)`: a control that is not hidden, on a line that is not hidden, has it there. -/
def Covers {α : Type} [Control α] (draw : α → List Int) (lines : List (Panel α)) (r c : Nat) (ch : Int) : Prop :=
  ∃ l ∈ lines, state l ≠ .hidden ∧ pos l = r ∧ ∃ k ∈ l.kids, state k ≠ .hidden ∧ ∃ i, (draw k)[i]? = some ch ∧ c = pos k + i

/-- From `s` to `s'` every cell gets a character that `P` has for it, and keeps its character if there is none. -/
def Paints (P : Nat → Nat → Int → Prop) (s s' : Screen) : Prop :=
  ∀ r c, (∃ ch, P r c ch ∧ s'.text r c = ch) ∨ ((∀ ch, ¬ P r c ch) ∧ s'.text r c = s.text r c)

theorem Paints.comp {P Q : Nat → Nat → Int → Prop} {s s' s'' : Screen} (h : Paints P s s') (h' : Paints Q s' s'') :
    Paints (fun r c ch => P r c ch ∨ Q r c ch) s s'' := by
  intro r c
  rcases h' r c with ⟨ch, hq, e⟩ | ⟨hq, e⟩
  · exact Or.inl ⟨ch, Or.inr hq, e⟩
  · rcases h r c with ⟨ch, hp, e'⟩ | ⟨hp, e'⟩
    · exact Or.inl ⟨ch, Or.inl hp, e.trans e'⟩
    · exact Or.inr ⟨fun ch hh => hh.elim (hp ch) (hq ch), e.trans e'⟩

theorem Paints.congr {P Q : Nat → Nat → Int → Prop} {s s' : Screen} (h : Paints P s s') (hpq : ∀ r c ch, P r c ch ↔ Q r c ch) : Paints Q s s' := by
  intro r c
  rcases h r c with ⟨ch, hp, e⟩ | ⟨hp, e⟩
  · exact Or.inl ⟨ch, (hpq _ _ _).1 hp, e⟩
  · exact Or.inr ⟨fun ch hh => hp ch ((hpq _ _ _).2 hh), e⟩

theorem write_paints (t : List Int) (s : Screen) :
    Paints (fun r c ch => r = s.row ∧ ∃ i, t[i]? = some ch ∧ c = s.col + i) s (s.write t) ∧ (s.write t).row = s.row ∧
      (s.write t).col = s.col + t.length ∧ (s.write t).cursor = s.cursor := by
  induction t generalizing s with
  | nil => exact ⟨fun r c => Or.inr ⟨by simp, rfl⟩, rfl, rfl, rfl⟩
  | cons x t ih =>
    obtain ⟨h1, h2, h3, h4⟩ := ih (s.put x)
    refine ⟨?_, h2, ?_, h4⟩
    · have h0 : Paints (fun r c ch => r = s.row ∧ c = s.col ∧ ch = x) s (s.put x) := by
        intro r c
        by_cases h : r = s.row ∧ c = s.col
        · exact Or.inl ⟨x, ⟨h.1, h.2, rfl⟩, by simp [Screen.put, h]⟩
        · exact Or.inr ⟨fun ch hh => h ⟨hh.1, hh.2.1⟩, by simp only [Screen.put, if_neg h]⟩
      refine (h0.comp h1).congr fun r c ch => ?_
      constructor
      · rintro (⟨a, b, e⟩ | ⟨a, i, hi, e⟩)
        · exact ⟨a, 0, by simp [e], by simp [b]⟩
        · exact ⟨a, i + 1, by simpa using hi, by simp only [Screen.put] at e; omega⟩
      · rintro ⟨a, i, hi, e⟩
        cases i with
        | zero => exact Or.inl ⟨a, by simpa using e, by simpa using hi.symm⟩
        | succ i => exact Or.inr ⟨a, i, by simpa using hi, by simp only [Screen.put]; omega⟩
    · show ((s.put x).write t).col = _
      rw [h3]
      simp only [Screen.put, List.length_cons]
      omega

theorem shows_append (s : Option Screen) (a b : List Out) : shows s (a ++ b) = shows (shows s a) b := List.foldl_append ..

/-- One line: its children are drawn at their columns, in the row of the write position. -/
theorem line_paints {α : Type} [Control α] (draw : α → List Int) (kids : List α) (hd : ∀ k ∈ kids, state k ≠ .hidden → Draws k (draw k))
    (hp : ∀ k ∈ kids, pos k ≠ 255) (s : Screen) :
    ∃ s', shows (some s) (kids.flatMap fun k => if state k == .hidden then [] else .goTo dontCare (pos k) :: display .normal k) = some s' ∧
      s'.row = s.row ∧ s'.cursor = s.cursor ∧
      Paints (fun r c ch => r = s.row ∧ ∃ k ∈ kids, state k ≠ .hidden ∧ ∃ i, (draw k)[i]? = some ch ∧ c = pos k + i) s s' := by
  induction kids generalizing s with
  | nil => exact ⟨s, rfl, rfl, rfl, fun r c => Or.inr ⟨by simp, rfl⟩⟩
  | cons k kids ih =>
    have hd' : ∀ k ∈ kids, state k ≠ .hidden → Draws k (draw k) := fun k hk => hd k (List.mem_cons_of_mem _ hk)
    have hp' : ∀ k ∈ kids, pos k ≠ 255 := fun k hk => hp k (List.mem_cons_of_mem _ hk)
    by_cases hh : state k = .hidden
    · obtain ⟨s', e, h1, h2, h3⟩ := ih hd' hp' s
      refine ⟨s', ?_, h1, h2, h3.congr fun r c ch => ?_⟩
      · rw [List.flatMap_cons, shows_append]
        simpa [hh, shows] using e
      · simp [hh]
    · -- the position, then the text
      have hpk := hp k (by simp)
      obtain ⟨w1, w2, w3, w4⟩ := write_paints (draw k) (s.goTo none (some (pos k)))
      have e0 : shows (some s) (.goTo dontCare (pos k) :: display .normal k) = some ((s.goTo none (some (pos k))).write (draw k)) := by
        rcases hd k (by simp) hh with h | ⟨ht, h⟩
        · simp [h, shows, show1, coord, dontCare, hpk]
        · simp [h, ht, shows, show1, coord, dontCare, hpk, Screen.write]
      obtain ⟨s', e, h1, h2, h3⟩ := ih hd' hp' ((s.goTo none (some (pos k))).write (draw k))
      refine ⟨s', ?_, h1.trans w2, h2.trans w4, ?_⟩
      · rw [List.flatMap_cons, shows_append]
        have : (state k == CState.hidden) = false := by simpa using hh
        rw [this]
        simp only [Bool.false_eq_true, if_false]
        rw [e0]
        exact e
      · have w1' : Paints (fun r c ch => r = s.row ∧ ∃ i, (draw k)[i]? = some ch ∧ c = pos k + i) s
            ((s.goTo none (some (pos k))).write (draw k)) := by
          intro r c
          exact w1 r c
        refine (w1'.comp h3).congr fun r c ch => ?_
        rw [w2]
        simp only [Screen.goTo, resolve, List.mem_cons, exists_eq_or_imp]
        constructor
        · rintro (⟨a, i, b⟩ | ⟨a, b⟩)
          · exact ⟨a, Or.inl ⟨hh, i, b⟩⟩
          · exact ⟨a, Or.inr b⟩
        · rintro ⟨a, ⟨_, i, b⟩ | b⟩
          · exact Or.inl ⟨a, i, b⟩
          · exact Or.inr ⟨a, b⟩

/-- All lines. -/
theorem lines_paint {α : Type} [Control α] (draw : α → List Int) (lines : List (Panel α)) (hk : ∀ l ∈ lines, l.kind = .horizontal)
    (hp : ∀ l ∈ lines, l.pos ≠ 255) (hd : ∀ l ∈ lines, ∀ k ∈ l.kids, state k ≠ .hidden → Draws k (draw k))
    (hpk : ∀ l ∈ lines, ∀ k ∈ l.kids, pos k ≠ 255) (s : Screen) :
    ∃ s', shows (some s) (lines.flatMap fun l => if state l == .hidden then [] else .goTo (pos l) 0 :: display .normal l) = some s' ∧
      s'.cursor = s.cursor ∧ Paints (Covers draw lines) s s' := by
  induction lines generalizing s with
  | nil => exact ⟨s, rfl, rfl, fun r c => Or.inr ⟨by simp [Covers], rfl⟩⟩
  | cons l lines ih =>
    have ih' := ih (fun l hl => hk l (List.mem_cons_of_mem _ hl)) (fun l hl => hp l (List.mem_cons_of_mem _ hl))
      (fun l hl => hd l (List.mem_cons_of_mem _ hl)) (fun l hl => hpk l (List.mem_cons_of_mem _ hl))
    by_cases hh : state l = .hidden
    · obtain ⟨s', e, h2, h3⟩ := ih' s
      refine ⟨s', ?_, h2, h3.congr fun r c ch => ?_⟩
      · rw [List.flatMap_cons, shows_append]
        simpa [hh, shows] using e
      · simp [Covers, hh]
    · have hpl : pos l ≠ 255 := hp l (by simp)
      obtain ⟨s1, e1, a1, a2, a3⟩ := line_paints draw l.kids (hd l (by simp)) (hpk l (by simp)) (s.goTo (some (pos l)) (some 0))
      have e0 : shows (some s) (.goTo (pos l) 0 :: display .normal l) = some s1 := by
        have : display .normal l = (l.kids.flatMap fun k => if state k == .hidden then [] else .goTo dontCare (pos k) :: display .normal k) := by
          show (match l.kind with
            | .horizontal => Panel.displayHorizontal .normal l
            | .vertical => Panel.displayVertical .normal l
            | _ => Panel.displayCurrent .normal l) = _
          rw [hk l (by simp)]
          rfl
        rw [this]
        simpa [shows, show1, coord, hpl] using e1
      obtain ⟨s', e, h2, h3⟩ := ih' s1
      refine ⟨s', ?_, h2.trans a2, ?_⟩
      · rw [List.flatMap_cons, shows_append]
        have : (state l == CState.hidden) = false := by simpa using hh
        rw [this]
        simp only [Bool.false_eq_true, if_false]
        rw [e0]
        exact e
      · have a3' : Paints (fun r c ch => r = pos l ∧ ∃ k ∈ l.kids, state k ≠ .hidden ∧ ∃ i, (draw k)[i]? = some ch ∧ c = pos k + i) s s1 :=
          fun r c => a3 r c
        refine (a3'.comp h3).congr fun r c ch => ?_
        simp only [Covers, List.mem_cons, exists_eq_or_imp]
        constructor
        · rintro (⟨a, b⟩ | b)
          · exact Or.inl ⟨hh, a.symm, b⟩
          · exact Or.inr b
        · rintro (⟨_, a, b⟩ | b)
          · exact Or.inl ⟨a.symm, b⟩
          · exact Or.inr b

/-- The child in cursor mode leaves the cursor alone (`q` is its own column), or moves it within the line. -/
def CursorAt {α : Type} [Control α] (k : α) (q : Nat) : Prop :=
  (display .cursor k = [] ∧ q = pos k) ∨ (display .cursor k = [.setCursor dontCare q (state k == .selected)] ∧ q ≠ 255)

/-- The control the cursor belongs to: on the current line, its current control. -/
def Current {α : Type} (p : Page α) (l : Panel α) (k : α) : Prop :=
  ∃ i j, p.panel.cur = some i ∧ p.panel.kids[i]? = some l ∧ l.cur = some j ∧ l.kids[j]? = some k

theorem current_line {α : Type} [Control α] (p : Panel (Panel α)) : Page.currentLine p = p.cur.bind (p.kids[·]?) := by
  show dynamicCast _ tPanel = _
  cases p.cur.bind (p.kids[·]?) with
  | none => rfl
  | some l => rfl

theorem current_spec {α : Type} [Control α] {p : Page α} {l : Panel α} {k : α} (h : Current p l k) :
    Page.currentLine p.panel = some l ∧ Page.currentInput p.panel = some k := by
  obtain ⟨i, j, h1, h2, h3, h4⟩ := h
  have : Page.currentLine p.panel = some l := by rw [current_line, h1]; exact h2
  refine ⟨this, ?_⟩
  show (Page.currentLine p.panel).bind _ = _
  rw [this]
  show l.cur.bind _ = _
  rw [h3]
  exact h4

/-- What holds of a page's lines when they can be drawn: they are horizontal panels, no position is the "don't care" value, every visible
    control draws its text. -/
structure Drawable {α : Type} [Control α] (draw : α → List Int) (p : Page α) : Prop where
  kind : ∀ l ∈ p.panel.kids, l.kind = .horizontal
  row : ∀ l ∈ p.panel.kids, l.pos ≠ 255
  col : ∀ l ∈ p.panel.kids, ∀ k ∈ l.kids, pos k ≠ 255
  draws : ∀ l ∈ p.panel.kids, ∀ k ∈ l.kids, state k ≠ .hidden → Draws k (draw k)

theorem display_split {α : Type} [Control α] {draw : α → List Int} {p : Page α} (h : Drawable draw p) (m : Mode) (s : Screen) :
    ∃ s1, Paints (Covers draw p.panel.kids) s s1 ∧ shows (some s) (display m p) = shows (some s1) (Page.displayCursor p.panel) := by
  obtain ⟨s1, e, -, h2⟩ := lines_paint draw p.panel.kids h.kind h.row h.draws h.col s
  refine ⟨s1, h2, ?_⟩
  show shows (some s) (Panel.displayVertical .normal p.panel ++ Page.displayCursor p.panel) = _
  rw [shows_append, ← e]
  rfl

/-- The cursor part of `Display` with a current control. -/
theorem cursor_on {α : Type} [Control α] {draw : α → List Int} {p : Page α} (h : Drawable draw p) {l : Panel α} {k : α} (hc : Current p l k)
    {q : Nat} (hq : CursorAt k q) (s : Screen) :
    ∃ s', shows (some s) (Page.displayCursor p.panel) = some s' ∧ s'.text = s.text ∧ s'.cursor = some (l.pos, q, state k == .selected) ∧
      s'.row = l.pos ∧ s'.col = q := by
  obtain ⟨h1, h2⟩ := current_spec hc
  obtain ⟨i, j, c1, c2, c3, c4⟩ := hc
  have hl : l ∈ p.panel.kids := List.mem_of_getElem? c2
  have hk : k ∈ l.kids := List.mem_of_getElem? c4
  have e1 : Page.displayCursor p.panel = .setCursor l.pos (pos k) (state k == .selected) :: display .cursor k := by
    unfold Page.displayCursor
    rw [h1, h2]
    have : Panel.displayVertical .cursor p.panel = display .cursor k := by
      show Panel.displayCurrent .cursor p.panel = _
      unfold Panel.displayCurrent
      simp only [c1, Option.bind_some, c2]
      show (match l.kind with
        | .horizontal => Panel.displayHorizontal .cursor l
        | .vertical => Panel.displayVertical .cursor l
        | _ => Panel.displayCurrent .cursor l) = _
      rw [h.kind l hl]
      show Panel.displayCurrent .cursor l = _
      unfold Panel.displayCurrent
      simp only [c3, Option.bind_some, c4]
    rw [this]
    rfl
  have r1 := h.row l hl
  have r2 := h.col l hl k hk
  rw [e1]
  rcases hq with ⟨hd, rfl⟩ | ⟨hd, hq⟩
  · refine ⟨s.setCursor (some l.pos) (some (pos k)) (state k == .selected), ?_, ?_, ?_, ?_, ?_⟩
    · simp [hd, shows, show1, coord, r1, r2]
    · simp [Screen.setCursor, Screen.goTo]
    · simp [Screen.setCursor, resolve]
    · simp [Screen.setCursor, Screen.goTo, resolve]
    · simp [Screen.setCursor, Screen.goTo, resolve]
  · refine ⟨(s.setCursor (some l.pos) (some (pos k)) (state k == .selected)).setCursor none (some q) (state k == .selected), ?_, ?_, ?_, ?_, ?_⟩
    · simp [hd, shows, show1, coord, dontCare, r1, r2, hq]
    · simp [Screen.setCursor, Screen.goTo]
    · simp [Screen.setCursor, Screen.goTo, resolve]
    · simp [Screen.setCursor, Screen.goTo, resolve]
    · simp [Screen.setCursor, Screen.goTo, resolve]

/-- The cursor part of `Display` without a current control. -/
theorem displayCursor_none {α : Type} [Control α] {p : Page α} (hc : ¬ ∃ l k, Current p l k) :
    Page.displayCursor p.panel = [.setCursor dontCare dontCare false] := by
  have : Page.currentInput p.panel = none := by
    cases h : Page.currentInput p.panel with
    | none => rfl
    | some k =>
      refine absurd ?_ hc
      unfold Page.currentInput at h
      rw [current_line] at h
      cases hi : p.panel.cur with
      | none => rw [hi] at h; exact absurd h (by simp)
      | some i =>
        cases hl : p.panel.kids[i]? with
        | none => rw [hi] at h; simp [hl] at h
        | some l =>
          rw [hi] at h
          cases hj : l.cur with
          | none => simp [hl, hj] at h
          | some j =>
            refine ⟨l, k, i, j, hi, hl, hj, ?_⟩
            simpa [hl, hj] using h
  unfold Page.displayCursor
  rw [this]
  cases Page.currentLine p.panel <;> rfl

theorem cursor_off {α : Type} [Control α] {p : Page α} (hc : ¬ ∃ l k, Current p l k) (s : Screen) :
    shows (some s) (Page.displayCursor p.panel) = some { s with cursor := none } := by
  rw [displayCursor_none hc]
  simp [shows, show1, coord, dontCare, Screen.setCursor]

theorem display_total {α : Type} [Control α] {draw : α → List Int} {p : Page α} (h : Drawable draw p)
    (hq : ∀ l k, Current p l k → ∃ q, CursorAt k q) (m : Mode) (s : Screen) :
    ∃ s', shows (some s) (display m p) = some s' ∧ Paints (Covers draw p.panel.kids) s s' ∧
      (∀ l k q, Current p l k → CursorAt k q → s'.cursor = some (l.pos, q, state k == .selected) ∧ s'.row = l.pos ∧ s'.col = q) ∧
      ((¬ ∃ l k, Current p l k) → s'.cursor = none) := by
  obtain ⟨s1, h1, e⟩ := display_split h m s
  by_cases hc : ∃ l k, Current p l k
  · obtain ⟨l, k, hc⟩ := hc
    obtain ⟨q, hq⟩ := hq l k hc
    obtain ⟨s', e', t, c⟩ := cursor_on h hc hq s1
    refine ⟨s', e.trans e', fun r c => by rw [t]; exact h1 r c, ?_, fun hn => absurd ⟨l, k, hc⟩ hn⟩
    intro l' k' q' hc' hq'
    obtain ⟨s'', e'', -, c''⟩ := cursor_on h hc' hq' s1
    rw [e'] at e''
    cases e''
    exact c''
  · exact ⟨_, e.trans (cursor_off hc s1), h1, fun l k q hc' => absurd ⟨l, k, hc'⟩ hc, fun _ => rfl⟩

/-- **C80.** `Page::Display` puts every visible control's text at its line and column and changes no other cell: a cell that belongs to exactly one
    character shows it, a cell that belongs to none keeps what it showed. (Where two controls overlap with different characters the cell shows one
    of them.) -/
theorem c80_page {α : Type} [Control α] (draw : α → List Int) (p : Page α) (h : Drawable draw p)
    (hq : ∀ l k, Current p l k → ∃ q, CursorAt k q) (m : Mode) (s : Screen) :
    ∃ s', shows (some s) (display m p) = some s' ∧
      (∀ r c ch, Covers draw p.panel.kids r c ch → Covers draw p.panel.kids r c (s'.text r c)) ∧
      (∀ r c ch, Covers draw p.panel.kids r c ch → (∀ ch', Covers draw p.panel.kids r c ch' → ch' = ch) → s'.text r c = ch) ∧
      (∀ r c, (∀ ch, ¬ Covers draw p.panel.kids r c ch) → s'.text r c = s.text r c) := by
  obtain ⟨s', e, h1, -, -⟩ := display_total h hq m s
  refine ⟨s', e, fun r c ch hh => ?_, fun r c ch hh hu => ?_, fun r c hn => ?_⟩
  · rcases h1 r c with ⟨ch', hc, ht⟩ | ⟨hn, _⟩
    · rw [ht]; exact hc
    · exact absurd hh (hn ch)
  · rcases h1 r c with ⟨ch', hc, ht⟩ | ⟨hn, _⟩
    · rw [ht]; exact hu ch' hc
    · exact absurd hh (hn ch)
  · rcases h1 r c with ⟨ch', hc, ht⟩ | ⟨_, ht⟩
    · exact absurd hc (hn ch')
    · exact ht

/-- **C81.** After `Page::Display` the cursor is on the current control of the current line, blinking exactly when that control is selected; without
    such a control no cursor is shown. -/
theorem c81_cursor {α : Type} [Control α] (draw : α → List Int) (p : Page α) (h : Drawable draw p)
    (hq : ∀ l k, Current p l k → ∃ q, CursorAt k q) (m : Mode) (s : Screen) :
    ∃ s', shows (some s) (display m p) = some s' ∧
      (∀ l k q, Current p l k → CursorAt k q → s'.cursor = some (l.pos, q, state k == .selected)) ∧
      ((¬ ∃ l k, Current p l k) → s'.cursor = none) := by
  obtain ⟨s', e, -, h2, h3⟩ := display_total h hq m s
  exact ⟨s', e, fun l k q a b => (h2 l k q a b).1, h3⟩

/-- **C80.** The library's own controls draw a text: labels theirs (nothing for NULL), up/down controls their value's, text controls the string up to
    its terminating zero. -/
theorem c80_controls (x : Label) {ν ι : Type} (y : UpDown ν) (z : Text ι) (w : Input) (hz : 0 ∈ z.text) :
    Draws x (x.text.getD []) ∧ Draws y (y.toText y.value) ∧ Draws z (z.text.takeWhile (· ≠ 0)) ∧ Draws w [] := by
  refine ⟨?_, Or.inl rfl, Or.inl ?_, Or.inr ⟨rfl, rfl⟩⟩
  · obtain ⟨st, pos, t⟩ := x
    cases t with
    | none => exact Or.inr ⟨rfl, rfl⟩
    | some t => exact Or.inl rfl
  · show (if Mode.normal == .normal then [cString z.text] else []) ++ _ = _
    simp [cString, hz]

example := c80_controls { pos := 0, text := some [78, 58] } ({ pos := 2, value := 7, increment := (· + 1), decrement := (· - 1), toText := fun n => [48 + n] } : UpDown Nat)
  ({ pos := 3, text := [65, 66, 0], capacity := 2, ops := ⟨id, id, fun _ i => i, id⟩, iter := 0, edit := 1 } : Text Int) {} (by decide)

/-- **C81.** Where the library's controls have their cursor: at their column, a text control that is focused or selected at the character being edited. -/
theorem c81_controls (x : Label) {ν ι : Type} (y : UpDown ν) (z : Text ι) (w : Input) (hz : (z.pos + z.edit) % 256 ≠ 255) :
    CursorAt x x.pos ∧ CursorAt y y.pos ∧ CursorAt w w.pos ∧ CursorAt z (if z.st.active then (z.pos + z.edit) % 256 else z.pos) := by
  refine ⟨Or.inl ⟨rfl, rfl⟩, Or.inl ⟨rfl, rfl⟩, Or.inl ⟨rfl, rfl⟩, ?_⟩
  cases h : z.st.active with
  | false =>
    refine Or.inl ⟨?_, by simp; rfl⟩
    show (if Mode.cursor == .normal then _ else []) ++ (if Mode.cursor == .cursor && z.st.active then _ else []) = _
    rw [h]; rfl
  | true =>
    refine Or.inr ⟨?_, by simpa using hz⟩
    show (if Mode.cursor == .normal then _ else []) ++ (if Mode.cursor == .cursor && z.st.active then _ else []) = _
    rw [h]; rfl

/-- A page with a label and a text control being edited on the first line, a hidden label and an up/down control on the second. -/
def demoPage : Page (Label ⊕ (Text Int ⊕ UpDown Nat)) := ⟨{ kind := .vertical, cur := some 0, kids :=
  [{ kind := .horizontal, pos := 0, cur := some 1, kids :=
      [.inl { pos := 0, text := some [78, 58] },
       .inr (.inl { st := .selected, pos := 3, text := [65, 66, 0], capacity := 2, ops := ⟨id, id, fun _ i => i, id⟩, iter := 0, edit := 1 })] },
   { kind := .horizontal, pos := 1, kids :=
      [.inl { st := .hidden, pos := 0, text := some [88] },
       .inr (.inr { pos := 2, value := 7, increment := (· + 1), decrement := (· - 1), toText := fun n => [48 + n] })] }] }⟩

/-- What the controls of `demoPage` draw. -/
def demoDraw : Label ⊕ (Text Int ⊕ UpDown Nat) → List Int
  | .inl x => x.text.getD []
  | .inr (.inl x) => x.text.takeWhile (· ≠ 0)
  | .inr (.inr x) => x.toText x.value

example : display .normal demoPage =
    [.goTo 0 0, .goTo 255 0, .write [78, 58], .goTo 255 3, .write [65, 66], .goTo 1 0, .goTo 255 2, .write [55], .setCursor 0 3 true, .setCursor 255 4 true] := by
  decide +kernel

example : Drawable demoDraw demoPage := by
  constructor
  · decide +kernel
  · decide +kernel
  · intro l hl k hk
    simp only [demoPage, List.mem_cons, List.not_mem_nil, or_false] at hl
    rcases hl with rfl | rfl <;> simp only [List.mem_cons, List.not_mem_nil, or_false] at hk <;> rcases hk with rfl | rfl <;> decide
  · intro l hl k hk _
    simp only [demoPage, List.mem_cons, List.not_mem_nil, or_false] at hl
    rcases hl with rfl | rfl <;> simp only [List.mem_cons, List.not_mem_nil, or_false] at hk <;> rcases hk with rfl | rfl <;> exact Or.inl rfl

/-- **C81 fails** in its part on hidden controls: a control that becomes hidden while it is the current one keeps the cursor. -/
theorem c81_hidden_fails : ∃ p : Page Input, display .normal p = [.goTo 0 0, .setCursor 0 5 false] ∧
    p.panel.kids.map (fun l => l.kids.map state) = [[.hidden]] :=
  ⟨⟨{ kind := .vertical, cur := some 0, kids := [{ kind := .horizontal, cur := some 0, kids := [{ st := .hidden, pos := 5 }] }] }⟩, by decide +kernel, rfl⟩

/-! ### Adding lines -/

/-- Lines added one after the other. -/
def addAll {α : Type} (n : Nat) (p : Page α) (ls : List (Panel α)) : Page α := ls.foldl (fun p l => Page.add n l p) p

/-- **C82.** Lines added to a page without a position of their own get the rows 0, 1, 2, ... in the order they were added; lines beyond the capacity
    are dropped. `MaxLines` is a `uint8_t`. -/
theorem c82_rows {α : Type} (n : Nat) (hn : n < 256) (p : Page α) (ls : List (Panel α)) (hl : ∀ l ∈ ls, l.pos = 0) (hp : p.panel.kids.length ≤ n) :
    (addAll n p ls).panel.kids =
      p.panel.kids ++ ((ls.take (n - p.panel.kids.length)).mapIdx fun i l => { l with pos := p.panel.kids.length + i }) := by
  induction ls generalizing p with
  | nil => simp [addAll]
  | cons l ls ih =>
    have h0 : l.pos = 0 := hl l (by simp)
    have hl' : ∀ l ∈ ls, l.pos = 0 := fun l h => hl l (List.mem_cons_of_mem _ h)
    show (addAll n (Page.add n l p) ls).panel.kids = _
    by_cases hlt : p.panel.kids.length < n
    · have ea : Page.add n l p = { p with panel := { p.panel with kids := p.panel.kids ++ [{ l with pos := p.panel.kids.length }] } } := by
        unfold Page.add
        simp [h0, hlt, Nat.mod_eq_of_lt (show p.panel.kids.length < 256 by omega)]
      rw [ea, ih _ hl' (by simp; omega)]
      obtain ⟨m, hm⟩ : ∃ m, n - p.panel.kids.length = m + 1 := ⟨n - p.panel.kids.length - 1, by omega⟩
      have hm' : n - (p.panel.kids.length + 1) = m := by omega
      simp only [List.length_append, List.length_cons, List.length_nil, hm, hm', List.take_succ_cons, List.mapIdx_cons, Nat.add_zero, Nat.zero_add,
        List.append_assoc, List.cons_append, List.nil_append, List.append_cancel_left_eq, List.cons.injEq, true_and]
      congr 1
      funext i l
      simp only [Panel.mk.injEq, true_and, and_true]
      omega
    · have ea : Page.add n l p = p := by
        unfold Page.add
        simp [hlt]
      have : n - p.panel.kids.length = 0 := by omega
      rw [ea, ih p hl' hp, this]
      simp

example := c82_rows 2 (by decide) (⟨{ kind := .vertical, kids := ([] : List (Panel Input)) }⟩ : Page Input) [{ kind := .horizontal, kids := [] }, { kind := .horizontal, kids := [{}] },
  { kind := .horizontal, kids := [] }] (by simp) (by decide)

/-- **C82, all lines.** Whatever lines are added, with or without a position of their own: a line keeps its own position, one without gets the number of lines
    before it as its row; lines beyond the capacity are dropped. -/
theorem c82_rows_exact {α : Type} (n : Nat) (hn : n < 256) (p : Page α) (ls : List (Panel α)) (hp : p.panel.kids.length ≤ n) :
    (addAll n p ls).panel.kids =
      p.panel.kids ++ ((ls.take (n - p.panel.kids.length)).mapIdx fun i l => { l with pos := if l.pos = 0 then p.panel.kids.length + i else l.pos }) := by
  induction ls generalizing p with
  | nil => simp [addAll]
  | cons l ls ih =>
    show (addAll n (Page.add n l p) ls).panel.kids = _
    by_cases hlt : p.panel.kids.length < n
    · have ea : Page.add n l p =
          { p with panel := { p.panel with kids := p.panel.kids ++ [{ l with pos := if l.pos = 0 then p.panel.kids.length else l.pos }] } } := by
        unfold Page.add
        by_cases h0 : l.pos = 0
        · simp [h0, hlt, Nat.mod_eq_of_lt (show p.panel.kids.length < 256 by omega)]
        · simp [h0, hlt]
      rw [ea, ih _ (by simp; omega)]
      obtain ⟨m, hm⟩ : ∃ m, n - p.panel.kids.length = m + 1 := ⟨n - p.panel.kids.length - 1, by omega⟩
      have hm' : n - (p.panel.kids.length + 1) = m := by omega
      simp only [List.length_append, List.length_cons, List.length_nil, hm, hm', List.take_succ_cons, List.mapIdx_cons, Nat.add_zero, Nat.zero_add,
        List.append_assoc, List.cons_append, List.nil_append, List.append_cancel_left_eq, List.cons.injEq, true_and]
      congr 1
      funext i l
      simp only [Panel.mk.injEq, true_and, and_true]
      split <;> omega
    · have ea : Page.add n l p = p := by
        unfold Page.add
        simp [hlt]
      have : n - p.panel.kids.length = 0 := by omega
      rw [ea, ih p hp, this]
      simp

example : ((addAll 2 ⟨{ kind := .vertical, kids := ([] : List (Panel Input)) }⟩ [{ kind := .horizontal, kids := [] }, { kind := .horizontal, kids := [] },
    { kind := .horizontal, kids := [] }]).panel.kids.map (·.pos)) = [0, 1] := by decide +kernel

/-- **C82 fails** when a line has a position of its own: the next line is given the same row. -/
theorem c82_collision_fails : ((addAll 2 ⟨{ kind := .vertical, kids := ([] : List (Panel Input)) }⟩
    [{ kind := .horizontal, pos := 1, kids := [] }, { kind := .horizontal, kids := [] }]).panel.kids.map (·.pos)) = [1, 1] := by decide +kernel

end Atl.Props
