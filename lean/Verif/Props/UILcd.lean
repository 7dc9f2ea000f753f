import Verif.Model.UILcd
import Verif.Props.Lcd
import Verif.Props.UIDisplay

/- Property theorem C83: a page on an HD44780 display. -/
namespace Atl.Props
open Atl.UI Atl.UI.Control Atl.Lcd Atl.Spec.Lcd

/-- The display, with the library's record of it, shows this screen. The visible cursor of an HD44780 is at the write position, so its place
    is not part of this relation. -/
structure OnLcd (rows : Nat) (s : View.State) (d : Device) (z : Spec.Display.Screen) : Prop where
  tracks : Tracks rows s d ⟨z.row, z.col, fun r c => toU 8 (z.text r c)⟩
  flags : ∃ f, Reads s.regs f ∧ d.showsDisplay f
  hidden : z.cursor = none → d.cursor = false
  shown : ∀ r c e, z.cursor = some (r, c, e) → d.cursor = true ∧ d.blink = e

/-- The call stays on a display with that many rows. -/
def OutFits (rows : Nat) (z : Spec.Display.Screen) : Out → Prop
  | .write t => (∀ ch ∈ t, toU 8 ch ≠ 10 ∧ toU 8 ch ≠ 13) ∧ z.col + t.length ≤ columns rows
  | .goTo r c => (r = 255 ∨ r < rows) ∧ c < columns rows
  | .setCursor r c _ => (r < rows ∧ c < columns rows) ∨ (r = 255 ∧ c = 255)
  | .undef => False

theorem toU8_lt (x : Int) : toU 8 x < 256 := by unfold toU; omega

theorem write_onLcd (rows : Nat) (h1 : 1 ≤ rows) (h4 : rows ≤ 4) (t : List Int) (s : View.State) (d : Device) (z : Spec.Display.Screen)
    (h : OnLcd rows s d z) (hf : OutFits rows z (.write t)) :
    ∃ s' bs, UILcd.call rows s (.write t) = .ok (s', bs.map toCall) ∧ (∀ b ∈ bs, b.2 < 256 ∧ ¬ selects8 b) ∧
      OnLcd rows s' (execAll d bs) (z.write t) := by
  induction t generalizing s d z with
  | nil => exact ⟨s, [], rfl, by simp, h⟩
  | cons x t ih =>
    obtain ⟨f1, f2⟩ := hf
    have p1 := f1 x (by simp)
    simp only [List.length_cons] at f2
    obtain ⟨s1, b, e1, b1, b2, t1⟩ := c43_step rows h1 h4 s d _ (.char (toU 8 x)) h.tracks ⟨toU8_lt x, p1.1, p1.2⟩
      (show z.col < columns rows by omega)
    obtain ⟨k1, k2⟩ := step_keeps e1
    obtain ⟨f, g1, g2⟩ := h.flags
    have g3 := k2 d f g2
    have on1 : OnLcd rows s1 (exec d b.1 b.2) (z.put x) := by
      refine ⟨?_, ⟨f, by rw [k1]; exact g1, g3⟩, fun hn => ?_, fun r c e hn => ?_⟩
      · have : (⟨z.row, z.col, fun r c => toU 8 (z.text r c)⟩ : Screen).step (.char (toU 8 x)) =
            ⟨(z.put x).row, (z.put x).col, fun r c => toU 8 ((z.put x).text r c)⟩ := by
          simp only [Screen.step, Spec.Display.Screen.put, Screen.mk.injEq, true_and]
          funext r c
          split <;> rfl
        rw [← this]
        exact t1
      · rw [g3.2.1, ← g2.2.1]; exact h.hidden hn
      · rw [g3.2.1, ← g2.2.1, g3.2.2, ← g2.2.2]; exact h.shown r c e hn
    obtain ⟨s', bs, e2, v2, t2⟩ := ih s1 _ _ on1 ⟨fun ch hc => f1 ch (List.mem_cons_of_mem _ hc), by simp only [Spec.Display.Screen.put]; omega⟩
    refine ⟨s', b :: bs, ?_, ?_, t2⟩
    · simp only [UILcd.call, Writer.write] at e2 ⊢
      simp only [viewOp] at e1
      simp only [List.map_cons, View.run, e1, e2, Res.bind_ok]
      rfl
    · intro y hy
      rcases List.mem_cons.1 hy with rfl | hy
      · exact ⟨b1, b2⟩
      · exact v2 y hy

/-- One call. -/
theorem out_onLcd (rows : Nat) (h1 : 1 ≤ rows) (h4 : rows ≤ 4) (o : Out) (s : View.State) (d : Device) (z : Spec.Display.Screen)
    (h : OnLcd rows s d z) (hf : OutFits rows z o) :
    ∃ s' bs z', UILcd.call rows s o = .ok (s', bs.map toCall) ∧ (∀ b ∈ bs, b.2 < 256 ∧ ¬ selects8 b) ∧ show1 (some z) o = some z' ∧
      OnLcd rows s' (execAll d bs) z' := by
  obtain ⟨-, hc40⟩ := columns_le rows h1 h4
  obtain ⟨f, g1, g2⟩ := h.flags
  cases o with
  | write t =>
    obtain ⟨s', bs, a, b, c⟩ := write_onLcd rows h1 h4 t s d z h hf
    exact ⟨s', bs, _, a, b, rfl, c⟩
  | goTo r c =>
    obtain ⟨f1, f2⟩ := hf
    have er : (coord r).getD 0xFF = r := by unfold coord; split <;> simp_all
    have ec : coord c = some c := by unfold coord; rw [if_neg (by omega)]
    obtain ⟨s', b, e, v, t, k1, k2⟩ := c63_goTo rows h1 h4 s d _ h.tracks (coord r) (some c)
      (fun x hx => by
        unfold coord at hx
        split at hx
        · exact absurd hx (by simp)
        · cases hx; omega)
      (fun x hx => by cases hx; exact f2) (by simp)
    rw [er] at e
    have g3 := k2 f g2
    refine ⟨s', [b], z.goTo (coord r) (some c), e, by simpa using v, by simp [show1, ec], ?_⟩
    refine ⟨?_, ⟨f, by rw [k1]; exact g1, g3⟩, fun hn => ?_, fun r c e hn => ?_⟩
    · have : (Spec.Display.resolve z.row (coord r)) = (coord r).getD z.row := by cases coord r <;> rfl
      simp only [Spec.Display.Screen.goTo, this]
      exact t
    · show (exec d b.1 b.2).cursor = false
      rw [g3.2.1, ← g2.2.1]; exact h.hidden hn
    · show (exec d b.1 b.2).cursor = true ∧ (exec d b.1 b.2).blink = e
      rw [g3.2.1, ← g2.2.1, g3.2.2, ← g2.2.2]; exact h.shown _ _ e hn
  | setCursor r c e =>
    rcases hf with ⟨f1, f2⟩ | ⟨rfl, rfl⟩
    · have er : coord r = some r := by unfold coord; rw [if_neg (by omega)]
      have ec : coord c = some c := by unfold coord; rw [if_neg (by omega)]
      obtain ⟨s', bs, e1, v, t, k, m⟩ := c63_setCursor_partial rows h1 h4 s f g1 d g2 _ h.tracks r c f1 f2 e
      refine ⟨s', bs, z.setCursor (some r) (some c) e, e1, v, by simp [show1, er, ec], ?_⟩
      refine ⟨?_, ⟨_, m, k⟩, fun hn => ?_, fun r' c' e' hn => ?_⟩
      · have : z.setCursor (some r) (some c) e = { z with row := r, col := c, cursor := some (r, c, e) } := by
          simp [Spec.Display.Screen.setCursor, Spec.Display.Screen.goTo, Spec.Display.resolve]
        rw [this]
        exact t
      · simp [Spec.Display.Screen.setCursor] at hn
      · simp only [Spec.Display.Screen.setCursor, reduceCtorEq, and_self, if_false, Spec.Display.resolve, Option.some.injEq, Prod.mk.injEq] at hn
        obtain ⟨_, _, rfl⟩ := hn
        exact ⟨k.2.1, k.2.2⟩
    · obtain ⟨r, b, e1, v, m, k⟩ := c63_cursorOff rows s f g1 d g2 e
      have t := h.tracks
      refine ⟨_, [b], { z with cursor := none }, e1, by simpa using v, by simp [show1, coord, Spec.Display.Screen.setCursor], ?_⟩
      show OnLcd rows _ (exec d b.1 b.2) _
      rw [k]
      exact ⟨⟨t.row, t.col, t.rowLt, t.colLe, t.ac, t.cg, t.inc, t.two, t.text⟩, ⟨_, m, ⟨g2.1, rfl, g2.2.2⟩⟩, fun _ => rfl, fun _ _ _ hn => by cases hn⟩
  | undef => exact absurd hf id

/-- All calls stay on the display. -/
def OutsFit (rows : Nat) (z : Spec.Display.Screen) : List Out → Prop
  | [] => True
  | o :: l => OutFits rows z o ∧ ∀ z', show1 (some z) o = some z' → OutsFit rows z' l

theorem outs_onLcd (rows : Nat) (h1 : 1 ≤ rows) (h4 : rows ≤ 4) (l : List Out) (s : View.State) (d : Device) (z : Spec.Display.Screen)
    (h : OnLcd rows s d z) (hf : OutsFit rows z l) :
    ∃ s' bs z', UILcd.calls rows s l = .ok (s', bs.map toCall) ∧ (∀ b ∈ bs, b.2 < 256 ∧ ¬ selects8 b) ∧ shows (some z) l = some z' ∧
      OnLcd rows s' (execAll d bs) z' := by
  induction l generalizing s d z with
  | nil => exact ⟨s, [], z, rfl, by simp, rfl, h⟩
  | cons o l ih =>
    obtain ⟨s1, b1, z1, e1, v1, w1, o1⟩ := out_onLcd rows h1 h4 o s d z h hf.1
    obtain ⟨s2, b2, z2, e2, v2, w2, o2⟩ := ih s1 _ z1 o1 (hf.2 z1 w1)
    refine ⟨s2, b1 ++ b2, z2, ?_, ?_, ?_, ?_⟩
    · simp only [UILcd.calls, e1, e2, Res.bind_ok, List.map_append]
    · intro y hy
      rcases List.mem_append.1 hy with hy | hy
      · exact v1 y hy
      · exact v2 y hy
    · show shows (show1 (some z) o) l = _
      rw [w1, w2]
    · simpa only [execAll, List.foldl_append] using o2

theorem fit_append (rows : Nat) (a b : List Out) (z : Spec.Display.Screen) :
    OutsFit rows z (a ++ b) ↔ OutsFit rows z a ∧ ∀ z', shows (some z) a = some z' → OutsFit rows z' b := by
  induction a generalizing z with
  | nil => simp [OutsFit, shows]
  | cons o a ih =>
    simp only [List.cons_append, OutsFit, and_assoc]
    refine and_congr_right fun _ => ?_
    constructor
    · intro h
      refine ⟨fun z' hz => ((ih z').1 (h z' hz)).1, fun z2 hz2 => ?_⟩
      have hz2 : shows (show1 (some z) o) a = some z2 := hz2
      cases hs : show1 (some z) o with
      | none =>
        rw [hs] at hz2
        have : ∀ l, shows none l = none := fun l => by
          induction l with
          | nil => rfl
          | cons x l ih => cases x <;> exact ih
        rw [this] at hz2
        cases hz2
      | some z1 =>
        rw [hs] at hz2
        exact ((ih z1).1 (h z1 hs)).2 z2 hz2
    · rintro ⟨h, h'⟩ z1 hz1
      refine (ih z1).2 ⟨h z1 hz1, fun z2 hz2 => h' z2 ?_⟩
      show shows (show1 (some z) o) a = _
      rw [hz1]
      exact hz2

/-- What fits wherever the write position is. -/
def FitsAny (rows : Nat) (l : List Out) : Prop := ∀ z, OutsFit rows z l

theorem FitsAny.append {rows : Nat} {a b : List Out} (ha : FitsAny rows a) (hb : FitsAny rows b) : FitsAny rows (a ++ b) :=
  fun z => (fit_append rows a b z).2 ⟨ha z, fun z' _ => hb z'⟩

theorem FitsAny.flatMap {α : Type} {rows : Nat} (l : List α) (f : α → List Out) (h : ∀ x ∈ l, FitsAny rows (f x)) : FitsAny rows (l.flatMap f) := by
  induction l with
  | nil => exact fun _ => trivial
  | cons x l ih =>
    rw [List.flatMap_cons]
    exact (h x (by simp)).append (ih fun y hy => h y (List.mem_cons_of_mem _ hy))

/-- A page that fits a display with that many rows: its visible lines are on it, its visible controls' texts end on their line and contain no line
    feed or carriage return, and the current control is a place on the display. -/
structure FitsLcd {α : Type} [Control α] (rows : Nat) (draw : α → List Int) (p : Page α) : Prop where
  line : ∀ l ∈ p.panel.kids, state l ≠ .hidden → l.pos < rows
  col : ∀ l ∈ p.panel.kids, ∀ k ∈ l.kids, state k ≠ .hidden → pos k < columns rows ∧ pos k + (draw k).length ≤ columns rows
  plain : ∀ l ∈ p.panel.kids, ∀ k ∈ l.kids, state k ≠ .hidden → ∀ ch ∈ draw k, toU 8 ch ≠ 10 ∧ toU 8 ch ≠ 13
  current : ∀ l k, Current p l k → l.pos < rows ∧ pos k < columns rows

theorem lines_fit {α : Type} [Control α] (rows : Nat) (h1 : 1 ≤ rows) (draw : α → List Int) (p : Page α) (h : Drawable draw p)
    (hf : FitsLcd rows draw p) : FitsAny rows (Panel.displayVertical .normal p.panel) := by
  have hcol : 0 < columns rows := by simp only [columns]; split <;> omega
  show FitsAny rows (p.panel.kids.flatMap fun l => if state l == .hidden then [] else .goTo (pos l) 0 :: display .normal l)
  refine FitsAny.flatMap _ _ fun l hl => ?_
  by_cases hh : state l = .hidden
  · simp only [hh, beq_self_eq_true, if_true]; exact fun _ => trivial
  · have : (state l == CState.hidden) = false := by simpa using hh
    simp only [this, Bool.false_eq_true, if_false]
    refine FitsAny.append (a := [.goTo (pos l) 0]) (fun z => ⟨⟨Or.inr (hf.line l hl hh), hcol⟩, fun _ _ => trivial⟩) ?_
    have e : display .normal l = (l.kids.flatMap fun k => if state k == .hidden then [] else .goTo dontCare (pos k) :: display .normal k) := by
      show (match l.kind with
        | .horizontal => Panel.displayHorizontal .normal l
        | .vertical => Panel.displayVertical .normal l
        | _ => Panel.displayCurrent .normal l) = _
      rw [h.kind l hl]
      rfl
    rw [e]
    refine FitsAny.flatMap _ _ fun k hk => ?_
    by_cases hh : state k = .hidden
    · simp only [hh, beq_self_eq_true, if_true]; exact fun _ => trivial
    · have : (state k == CState.hidden) = false := by simpa using hh
      simp only [this, Bool.false_eq_true, if_false]
      obtain ⟨c1, c2⟩ := hf.col l hl k hk hh
      have c3 := hf.plain l hl k hk hh
      have hp := h.col l hl k hk
      intro z
      refine ⟨⟨Or.inl rfl, c1⟩, fun z1 hz1 => ?_⟩
      have hz : z1.col = pos k := by
        simp only [show1, coord, if_neg hp, Option.map_some, Option.some.injEq] at hz1
        rw [← hz1]
        rfl
      rcases h.draws l hl k hk hh with hd | ⟨_, hd⟩
      · rw [hd]
        exact ⟨⟨c3, by omega⟩, fun _ _ => trivial⟩
      · rw [hd]; trivial

theorem page_fits {α : Type} [Control α] (rows : Nat) (h1 : 1 ≤ rows) (draw : α → List Int) (p : Page α) (h : Drawable draw p)
    (hf : FitsLcd rows draw p) (hq : ∀ l k, Current p l k → display .cursor k = []) (m : Mode) : FitsAny rows (display m p) := by
  show FitsAny rows (Panel.displayVertical .normal p.panel ++ Page.displayCursor p.panel)
  refine FitsAny.append (lines_fit rows h1 draw p h hf) ?_
  by_cases hc : ∃ l k, Current p l k
  · obtain ⟨l, k, hc⟩ := hc
    have e : Page.displayCursor p.panel = [.setCursor l.pos (pos k) (state k == .selected)] := by
      have hk := hq l k hc
      obtain ⟨a1, a2⟩ := current_spec hc
      obtain ⟨i, j, c1, c2, c3, c4⟩ := hc
      unfold Page.displayCursor
      rw [a1, a2]
      have : Panel.displayVertical .cursor p.panel = [] := by
        show Panel.displayCurrent .cursor p.panel = _
        unfold Panel.displayCurrent
        simp only [c1, Option.bind_some, c2]
        show (match l.kind with
          | .horizontal => Panel.displayHorizontal .cursor l
          | .vertical => Panel.displayVertical .cursor l
          | _ => Panel.displayCurrent .cursor l) = _
        rw [h.kind l (List.mem_of_getElem? c2)]
        show Panel.displayCurrent .cursor l = _
        unfold Panel.displayCurrent
        simp only [c3, Option.bind_some, c4]
        exact hk
      rw [this]
      rfl
    rw [e]
    exact fun z => ⟨Or.inl (hf.current l k hc), fun _ _ => trivial⟩
  · have e : Page.displayCursor p.panel = [.setCursor dontCare dontCare false] := displayCursor_none hc
    rw [e]
    exact fun z => ⟨Or.inr ⟨rfl, rfl⟩, fun _ _ => trivial⟩

/-- **C83, partial.** A page that fits an HD44780 display of 1-4 rows, shown through `HD44780_DisplayWriter` on a display the view agrees with,
    sends valid instructions after which the display memory has every visible control's text at its line and column and is unchanged elsewhere; the
    cursor is on and at the current control, blinking exactly when that is selected, or off when there is none. View and display agree again.
    Missing: a text control being edited, and the blinking block when the cursor is taken away (see the `_fails` theorems). -/
theorem c83_page_partial {α : Type} [Control α] (rows : Nat) (h1 : 1 ≤ rows) (h4 : rows ≤ 4) (draw : α → List Int) (p : Page α)
    (h : Drawable draw p) (hf : FitsLcd rows draw p) (hq : ∀ l k, Current p l k → display .cursor k = []) (m : Mode) (s : View.State) (f : Flags)
    (hr : Reads s.regs f) (d : Device) (hd : d.showsDisplay f) (hb : ∀ a, d.ddram a < 256) (z : Screen) (ht : Tracks rows s d z) :
    ∃ s' bs, UILcd.calls rows s (display m p) = .ok (s', bs.map toCall) ∧ (∀ b ∈ bs, b.2 < 256 ∧ ¬ selects8 b) ∧
      (∀ r c ch, r < rows → c < columns rows → Covers draw p.panel.kids r c ch → (∀ ch', Covers draw p.panel.kids r c ch' → ch' = ch) →
        (execAll d bs).ddram (cell r c) = toU 8 ch) ∧
      (∀ r c, r < rows → c < columns rows → (∀ ch, ¬ Covers draw p.panel.kids r c ch) → (execAll d bs).ddram (cell r c) = d.ddram (cell r c)) ∧
      (∀ l k, Current p l k → (execAll d bs).cursor = true ∧ (execAll d bs).blink = (state k == .selected) ∧
        (execAll d bs).ac = cell l.pos (pos k) ∧ (execAll d bs).cg = false) ∧
      ((¬ ∃ l k, Current p l k) → (execAll d bs).cursor = false) ∧ (∃ z', Tracks rows s' (execAll d bs) z') := by
  -- the screen that the display shows to begin with
  let z0 : Spec.Display.Screen := ⟨z.row, z.col, fun r c => (d.ddram (cell r c) : Int), if d.cursor then some (0, 0, d.blink) else none⟩
  have on0 : OnLcd rows s d z0 := by
    refine ⟨⟨ht.row, ht.col, ht.rowLt, ht.colLe, ht.ac, ht.cg, ht.inc, ht.two, ?_⟩, ⟨f, hr, hd⟩, ?_, ?_⟩
    · intro r c _ _
      have := hb (cell r c)
      show d.ddram (cell r c) = toU 8 (d.ddram (cell r c) : Int)
      unfold toU; omega
    · intro hn
      by_cases hb : d.cursor = true
      · simp [z0, hb] at hn
      · simpa using hb
    · intro r c e hn
      by_cases hb : d.cursor = true
      · simp only [z0, hb, if_true, Option.some.injEq, Prod.mk.injEq] at hn
        exact ⟨hb, hn.2.2⟩
      · simp [z0, hb] at hn
  obtain ⟨s', bs, z', e, v, w, o⟩ := outs_onLcd rows h1 h4 _ s d z0 on0 (page_fits rows h1 draw p h hf hq m z0)
  have hq' : ∀ l k, Current p l k → CursorAt k (pos k) := fun l k hc => Or.inl ⟨hq l k hc, rfl⟩
  obtain ⟨z2, w2, pt, pc, pn⟩ := display_total h (fun l k hc => ⟨_, hq' l k hc⟩) m z0
  rw [w] at w2
  cases w2
  refine ⟨s', bs, e, v, ?_, ?_, ?_, fun hn => o.hidden (pn hn), ⟨_, o.tracks⟩⟩
  · intro r c ch hr hc hcov hu
    rw [o.tracks.text r c hr hc]
    show toU 8 (z'.text r c) = _
    rcases pt r c with ⟨ch', hp, et⟩ | ⟨hn, _⟩
    · rw [et, hu ch' hp]
    · exact absurd hcov (hn ch)
  · intro r c hr hc hno
    rw [o.tracks.text r c hr hc]
    show toU 8 (z'.text r c) = _
    rcases pt r c with ⟨ch', hp, _⟩ | ⟨_, et⟩
    · exact absurd hp (hno ch')
    · rw [et]
      have := hb (cell r c)
      show toU 8 (d.ddram (cell r c) : Int) = _
      unfold toU; omega
  · intro l k hc
    obtain ⟨c1, c2, c3⟩ := pc l k _ hc (hq' l k hc)
    obtain ⟨x1, x2⟩ := o.shown _ _ _ c1
    refine ⟨x1, x2, ?_, o.tracks.cg⟩
    have := o.tracks.ac
    simp only [c2, c3] at this
    exact this (hf.current l k hc).2

/-- A page with a label and a text control being edited on the second line of a display with two rows. -/
def editPage : Page (Label ⊕ Text Int) := ⟨{ kind := .vertical, cur := some 1, kids :=
  [{ kind := .horizontal, pos := 0, kids := [.inl { pos := 0, text := some [78, 58] }] },
   { kind := .horizontal, pos := 1, cur := some 0, kids :=
      [.inr { st := .selected, pos := 3, text := [65, 66, 0], capacity := 2, ops := ⟨id, id, fun _ i => i, id⟩, iter := 0, edit := 1 }] }] }⟩

/-- An initialised display of two lines with the view at home. -/
def lcdReady : Device := { powerUp with twoLine := true, increment := true, on := true }

/-- The display after showing pages one after the other: address, cursor on, blinking. -/
def lcdAfter {α : Type} [Control α] (ps : List (Page α)) : Res (Nat × Bool × Bool) := do
  let (_, cs) ← UILcd.calls 2 ⟨0, 0, 0x14#8⟩ (ps.flatMap (display .normal))
  let d := cs.foldl (fun d c => match c with
    | .command b => exec d false b
    | .data b => exec d true b
    | .write4 _ => d) lcdReady
  .ok (d.ac, d.cursor, d.blink)

/-- **C83 fails** for a text control being edited below the first line: the cursor is on line 0 (address 4) instead of line 1 (address 0x44). -/
theorem c83_text_fails : lcdAfter [editPage] = .ok (4, true, true) ∧ cell 1 4 = 0x44 := by decide +kernel

/-- A page with a selected control, and a page without one. -/
def cursorPages : List (Page Input) :=
  [⟨{ kind := .vertical, cur := some 0, kids := [{ kind := .horizontal, cur := some 0, kids := [{ st := .selected, pos := 5 }] }] }⟩,
   ⟨{ kind := .vertical, kids := [] }⟩]

/-- **C83 fails** when a page without current control follows one with a selected control: the cursor is switched off but the place keeps blinking. -/
theorem c83_blink_fails : lcdAfter cursorPages = .ok (5, false, true) := by decide +kernel

/-- A page for the theorem: two lines, the second with an up/down control that has the cursor. -/
def lcdPage : Page (Label ⊕ UpDown Nat) := ⟨{ kind := .vertical, cur := some 1, kids :=
  [{ kind := .horizontal, pos := 0, kids := [.inl { pos := 0, text := some [78, 58] }, .inl { st := .hidden, pos := 39, text := some [1, 2, 3] }] },
   { kind := .horizontal, pos := 1, cur := some 0, kids :=
      [.inr { st := .selected, pos := 2, value := 7, increment := (· + 1), decrement := (· - 1), toText := fun n => [48 + n] }] }] }⟩

/-- What its controls draw. -/
def lcdDraw : Label ⊕ UpDown Nat → List Int
  | .inl x => x.text.getD []
  | .inr x => x.toText x.value

example : Drawable lcdDraw lcdPage ∧ FitsLcd 2 lcdDraw lcdPage ∧ (∀ l k, Current lcdPage l k → display .cursor k = []) ∧
    Covers lcdDraw lcdPage.panel.kids 1 2 55 ∧ lcdAfter [lcdPage] = .ok (0x42, true, true) := by
  have mem : ∀ l ∈ lcdPage.panel.kids, ∀ k ∈ l.kids, (l.pos = 0 ∧ k = .inl { pos := 0, text := some [78, 58] }) ∨
      (l.pos = 0 ∧ k = .inl { st := .hidden, pos := 39, text := some [1, 2, 3] }) ∨
      (l.pos = 1 ∧ k = .inr { st := .selected, pos := 2, value := 7, increment := (· + 1), decrement := (· - 1), toText := fun n => [48 + n] }) := by
    intro l hl k hk
    simp only [lcdPage, List.mem_cons, List.not_mem_nil, or_false] at hl
    rcases hl with rfl | rfl <;> simp only [List.mem_cons, List.not_mem_nil, or_false] at hk
    · rcases hk with rfl | rfl <;> simp
    · subst hk; simp
  have cur : ∀ l k, Current lcdPage l k → l ∈ lcdPage.panel.kids ∧ k ∈ l.kids := by
    rintro l k ⟨i, j, a, b, c, d⟩
    exact ⟨List.mem_of_getElem? b, List.mem_of_getElem? d⟩
  refine ⟨⟨by decide +kernel, by decide +kernel, ?_, ?_⟩, ⟨by decide +kernel, ?_, ?_, ?_⟩, ?_, ?_, by decide +kernel⟩
  · intro l hl k hk
    rcases mem l hl k hk with ⟨_, rfl⟩ | ⟨_, rfl⟩ | ⟨_, rfl⟩ <;> decide
  · intro l hl k hk _
    rcases mem l hl k hk with ⟨_, rfl⟩ | ⟨_, rfl⟩ | ⟨_, rfl⟩ <;> exact Or.inl rfl
  · intro l hl k hk
    rcases mem l hl k hk with ⟨_, rfl⟩ | ⟨_, rfl⟩ | ⟨_, rfl⟩ <;> decide
  · intro l hl k hk
    rcases mem l hl k hk with ⟨_, rfl⟩ | ⟨_, rfl⟩ | ⟨_, rfl⟩ <;> decide
  · intro l k hc
    obtain ⟨hl, hk⟩ := cur l k hc
    rcases mem l hl k hk with ⟨e, rfl⟩ | ⟨e, rfl⟩ | ⟨e, rfl⟩ <;> rw [e] <;> decide
  · intro l k hc
    obtain ⟨hl, hk⟩ := cur l k hc
    rcases mem l hl k hk with ⟨_, rfl⟩ | ⟨_, rfl⟩ | ⟨_, rfl⟩ <;> rfl
  · exact ⟨_, List.mem_cons_of_mem _ (List.mem_cons_self ..), by decide, rfl, _, List.mem_cons_self .., by decide, 0, rfl, rfl⟩

example : Reads 0x14#8 ⟨false, false, true, false, true⟩ ∧ lcdReady.showsDisplay ⟨false, false, true, false, true⟩ ∧ (∀ a, lcdReady.ddram a < 256) ∧
    Tracks 2 ⟨0, 0, 0x14#8⟩ lcdReady ⟨0, 0, fun r c => lcdReady.ddram (cell r c)⟩ :=
  ⟨by unfold Reads; decide +kernel, by unfold Device.showsDisplay; decide +kernel, fun _ => by show (0x20 : Nat) < 256; omega,
    ⟨rfl, rfl, by decide, by decide, fun _ => rfl, rfl, rfl, rfl, fun _ _ _ _ => rfl⟩⟩

end Atl.Props
