import Verif.Props.UILcd

/- Property theorem C83, continued: pages shown one after the other, with a text control being edited. -/
namespace Atl.Props
open Atl.UI Atl.UI.Control Atl.Lcd Atl.Spec.Lcd

/-- What a display must be for a page to be shown: the library's record of the settings is right and text goes to the display memory from left to right.
    Nothing is said about the position. -/
structure LcdReady (s : View.State) (d : Device) : Prop where
  flags : ∃ f, Reads s.regs f ∧ d.showsDisplay f
  cg : d.cg = false
  inc : d.increment = true
  two : d.twoLine = true
  bytes : ∀ a, d.ddram a < 256

/-- The row a line coordinate ends up in: rows that do not exist, "don't care" among them, are taken for row 0. -/
def rowOf (rows r : Nat) : Nat := if r < rows then r else 0

/-- The address command of any coordinates, bytes or not: row 0 for a row that does not exist, and the address modulo 128. -/
theorem address_all (rows : Nat) (h1 : 1 ≤ rows) (h4 : rows ≤ 4) (s : View.State) :
    View.writeAddress rows s = .ok [toCall (false, cell (rowOf rows s.row) s.col % 128 + 128)] ∧
    ∀ d, exec d false (cell (rowOf rows s.row) s.col % 128 + 128) = { d with ac := cell (rowOf rows s.row) s.col % 128, cg := false } := by
  have h8 : ∀ a : Nat, toU 8 (a : Int) ||| 0x80 = a % 128 + 128 := by
    intro a
    have key : ∀ x : Fin 256, x.val ||| 0x80 = x.val % 128 + 128 := by decide +kernel
    have e : toU 8 (a : Int) = a % 256 := by unfold toU; omega
    rw [e, key ⟨a % 256, by omega⟩]
    simp only
    omega
  have e : View.calcAddress rows s.row s.col = .ok (toU 8 ((cell (rowOf rows s.row) s.col : Nat) : Int)) := by
    have h : (if s.row ≥ rows then 0 else s.row) = rowOf rows s.row := by unfold rowOf; split_ifs <;> omega
    simp only [View.calcAddress, h]
    have hlt : rowOf rows s.row < 4 := by unfold rowOf; split_ifs <;> omega
    have : rowOf rows s.row = 0 ∨ rowOf rows s.row = 1 ∨ rowOf rows s.row = 2 ∨ rowOf rows s.row = 3 := by omega
    rcases this with h | h | h | h <;> rw [h] <;> simp [cGet, View.rowOffsets, cell]
  refine ⟨?_, fun d => ?_⟩
  · simp only [View.writeAddress, e, Res.bind_ok, Controller.writeDisplayAddress, h8]
    rfl
  · simp only [exec, Bool.false_eq_true, if_false]
    rw [if_pos (by omega), show (cell (rowOf rows s.row) s.col % 128 + 128) % 128 = cell (rowOf rows s.row) s.col % 128 by omega]

/-- **C63.** `SetCursor`, exactly, for every pair of arguments other than twice "don't care", wherever the view and the display were: the cursor is on, blinking
    as asked, at the column of the row (row 0 for a row that does not exist, "don't care" among them), counting cells modulo 128 (column 255, "don't care", is the
    cell before the row), and nothing else of the display changes. -/
theorem c63_setCursor_all (rows : Nat) (h1 : 1 ≤ rows) (h4 : rows ≤ 4) (s : View.State) (f : Flags) (hf : Reads s.regs f) (r c : Nat)
    (n1 : ¬ (r = 255 ∧ c = 255)) (edit : Bool) :
    ∃ g bs, (∀ x y, Writer.setCursor rows ⟨x, y, s.regs⟩ r c edit = .ok (⟨r, c, g⟩, bs.map toCall)) ∧ (∀ b ∈ bs, b.2 < 256 ∧ ¬ selects8 b) ∧
      Reads g { f with cursor := true, blink := edit } ∧
      ∀ d : Device, d.showsDisplay f → execAll d bs = { d with cursor := true, blink := edit, ac := cell (rowOf rows r) c % 128, cg := false } := by
  -- cursor
  obtain ⟨r1, bs1, e1, v1, hr1, d1⟩ : ∃ r1 bs1, (if (!f.cursor) = true then Controller.set s.regs (.enableCursor true) else .ok (s.regs, []))
      = .ok (r1, bs1.map toCall) ∧ (∀ b ∈ bs1, b.2 < 256 ∧ ¬ selects8 b) ∧ Reads r1 { f with cursor := true } ∧
      ∀ d : Device, d.showsDisplay f → execAll d bs1 = { d with cursor := true } := by
    cases hcur : f.cursor with
    | true =>
      refine ⟨s.regs, [], rfl, by simp, ?_, fun d hd => ?_⟩
      · rw [← hcur]; exact hf
      · have := hd.2.1
        rw [hcur] at this
        rw [← this]
        rfl
    | false =>
      obtain ⟨r', b, g1, g2, g4, g5, g3⟩ := c42_setter s.regs f hf (.enableCursor true)
      refine ⟨r', [(false, b)], g1, by simpa using ⟨g4, g5⟩, g2, fun d hd => ?_⟩
      rw [show execAll d [(false, b)] = exec d false b from rfl, g3]
      obtain ⟨a1, a2, a3⟩ := hd
      simp only [follows, isEntry, setFlags, ← a1, ← a3]
      rfl
  -- blink
  obtain ⟨r2, bs2, e2, v2, hr2, d2⟩ : ∃ r2 bs2, (if f.blink ≠ edit then Controller.set r1 (.enableBlink edit) else .ok (r1, []))
      = .ok (r2, bs2.map toCall) ∧ (∀ b ∈ bs2, b.2 < 256 ∧ ¬ selects8 b) ∧ Reads r2 { f with cursor := true, blink := edit } ∧
      ∀ d : Device, d.showsDisplay f → execAll { d with cursor := true } bs2 = { d with cursor := true, blink := edit } := by
    by_cases hb : f.blink = edit
    · refine ⟨r1, [], by simp [hb], by simp, ?_, fun d hd => ?_⟩
      · rw [← hb]; exact hr1
      · rw [← hb, ← hd.2.2]; rfl
    · obtain ⟨r', b, g1, g2, g4, g5, g3⟩ := c42_setter r1 _ hr1 (.enableBlink edit)
      refine ⟨r', [(false, b)], by rw [if_pos hb]; exact g1, by simpa using ⟨g4, g5⟩, g2, fun d hd => ?_⟩
      rw [show execAll { d with cursor := true } [(false, b)] = exec { d with cursor := true } false b from rfl, g3]
      obtain ⟨a1, a2, a3⟩ := hd
      simp only [follows, isEntry, setFlags, ← a1]
      rfl
  obtain ⟨a1, a4⟩ := address_all rows h1 h4 { row := r, col := c, regs := r2 }
  obtain ⟨rc1, rc2, -⟩ := hf
  obtain ⟨rb1, -⟩ := hr1
  refine ⟨r2, bs1 ++ bs2 ++ [(false, cell (rowOf rows r) c % 128 + 128)], fun x y => ?_, ?_, hr2, fun d hd => ?_⟩
  · simp only [Writer.setCursor, Writer.dontCare, if_neg n1, rc2, Res.bind_ok, id, e1, rb1, e2, View.setCursor, a1, List.map_append]
    rfl
  · intro y hy
    simp only [List.mem_append, List.mem_singleton] at hy
    rcases hy with (hy | hy) | rfl
    · exact v1 y hy
    · exact v2 y hy
    · exact ⟨by show cell (rowOf rows r) c % 128 + 128 < 256; omega, by simp only [selects8]; omega⟩
  · have e1 := d1 d hd
    have e2 := d2 d hd
    simp only [execAll, List.foldl_append, List.foldl_cons, List.foldl_nil] at e1 e2 ⊢
    rw [e1, e2, a4]

example := c63_setCursor_all 2 (by decide) (by decide) ⟨9, 200, 0x14#8⟩ ⟨false, false, true, false, true⟩ (by unfold Reads; decide +kernel) 255 5 (by decide) true

/-- **C63.** The same inside the text area. -/
theorem c63_setCursor_exact (rows : Nat) (h1 : 1 ≤ rows) (h4 : rows ≤ 4) (s : View.State) (f : Flags) (hf : Reads s.regs f) (r c : Nat)
    (hc : c < columns rows) (edit : Bool) :
    ∃ g bs, (∀ x y, Writer.setCursor rows ⟨x, y, s.regs⟩ r c edit = .ok (⟨r, c, g⟩, bs.map toCall)) ∧ (∀ b ∈ bs, b.2 < 256 ∧ ¬ selects8 b) ∧
      Reads g { f with cursor := true, blink := edit } ∧
      ∀ d : Device, d.showsDisplay f → execAll d bs = { d with cursor := true, blink := edit, ac := cell (rowOf rows r) c, cg := false } := by
  obtain ⟨hcl, hc40⟩ := columns_le rows h1 h4
  have hrow : rowOf rows r < rows := by unfold rowOf; split <;> omega
  have hlt := cell_lt rows h4 _ c hrow hc
  have h := c63_setCursor_all rows h1 h4 s f hf r c (by omega) edit
  rwa [Nat.mod_eq_of_lt (show cell (rowOf rows r) c < 128 by omega)] at h

example := c63_setCursor_exact 2 (by decide) (by decide) ⟨9, 200, 0x14#8⟩ ⟨false, false, true, false, true⟩ (by unfold Reads; decide +kernel) 1 39 (by decide) true

/-- **C63.** `GoTo`, exactly, for every pair of arguments: "don't care" is the coordinate the view last had; the address is that of `SetCursor`; only the
    address changes. -/
theorem c63_goTo_all (rows : Nat) (h1 : 1 ≤ rows) (h4 : rows ≤ 4) (s : View.State) (r c r' c' : Nat) (hr : r' = if r = 255 then s.row else r)
    (hc : c' = if c = 255 then s.col else c) :
    ∃ b, Writer.goTo rows s r c = .ok ({ s with row := r', col := c' }, [toCall b]) ∧ b.2 < 256 ∧ ¬ selects8 b ∧
      ∀ d : Device, exec d b.1 b.2 = { d with ac := cell (rowOf rows r') c' % 128, cg := false } := by
  obtain ⟨a1, a2⟩ := address_all rows h1 h4 { s with row := r', col := c' }
  refine ⟨(false, cell (rowOf rows r') c' % 128 + 128), ?_, ?_, ?_, a2⟩
  · have e : Writer.goTo rows s r c = View.setCursor rows s r' c' := by subst hr hc; rfl
    simp only [e, View.setCursor, a1, Res.bind_ok]
  · show cell (rowOf rows r') c' % 128 + 128 < 256
    omega
  · simp only [selects8]; omega

/- "Don't care" as the column of row 1 of a 2-row display: the cell before the row, off both rows; of row 0: 127, no cell at all. -/
example : cell (rowOf 2 1) 255 % 128 = 0x3F ∧ cell (rowOf 2 0) 255 % 128 = 0x7F ∧ cell (rowOf 2 255) 5 % 128 = 5 := by decide

/-- A call that says both the row and the column. -/
def Places (rows : Nat) : Out → Prop
  | .goTo r c => r < rows ∧ c < columns rows
  | .setCursor r c _ => r < rows ∧ c < columns rows
  | _ => False

/-- Such a call does the same wherever the view and the display were. -/
theorem places_any (rows : Nat) (h1 : 1 ≤ rows) (h4 : rows ≤ 4) (o : Out) (ho : Places rows o) (s : View.State) (f : Flags) (hf : Reads s.regs f) :
    ∃ s' bs, (∀ x y, UILcd.call rows ⟨x, y, s.regs⟩ o = .ok (s', bs.map toCall)) ∧
      ∀ (d : Device) (a : Nat), d.showsDisplay f → execAll { d with ac := a } bs = execAll d bs := by
  obtain ⟨hcl, hc40⟩ := columns_le rows h1 h4
  cases o with
  | goTo r c =>
    obtain ⟨hr, hc⟩ := ho
    obtain ⟨a1, a2, a3, a4⟩ := address_exec rows h4 { row := r, col := c, regs := s.regs } hr hc
    refine ⟨⟨r, c, s.regs⟩, [(false, cell r c + 128)], fun x y => ?_, fun d a _ => ?_⟩
    · simp only [UILcd.call, Writer.goTo, if_neg (show ¬ r = Writer.dontCare by simp only [Writer.dontCare]; omega),
        if_neg (show ¬ c = Writer.dontCare by simp only [Writer.dontCare]; omega), View.setCursor, a1, Res.bind_ok]
      rfl
    · simp only [execAll, List.foldl_cons, List.foldl_nil] at *
      rw [a4, a4]
  | setCursor r c e =>
    obtain ⟨g, bs, e1, -, -, e2⟩ := c63_setCursor_exact rows h1 h4 s f hf r c ho.2 e
    refine ⟨_, bs, e1, fun d a hd => ?_⟩
    rw [e2 d hd, e2 { d with ac := a } hd]
  | write t => exact ho.elim
  | undef => exact ho.elim

/-- The first call of a page that fits says row and column, unless the page shows nothing at all. -/
theorem display_head {α : Type} [Control α] {rows : Nat} {draw : α → List Int} {p : Page α} (h : Drawable draw p) (hf : FitsLcd rows draw p)
    (h1 : 1 ≤ rows) (m : Mode) :
    (∃ o l, display m p = o :: l ∧ Places rows o) ∨
      (display m p = [.setCursor dontCare dontCare false] ∧ (¬ ∃ l k, Current p l k) ∧ ∀ r c ch, ¬ Covers draw p.panel.kids r c ch) := by
  have hcol : 0 < columns rows := by simp only [columns]; split <;> omega
  have e : display m p = (p.panel.kids.flatMap fun l => if state l == .hidden then [] else .goTo (pos l) 0 :: display .normal l) ++
      Page.displayCursor p.panel := rfl
  by_cases hv : ∃ l ∈ p.panel.kids, state l ≠ .hidden
  · left
    have key : ∀ ls : List (Panel α), (∀ l ∈ ls, l ∈ p.panel.kids) → (∃ l ∈ ls, state l ≠ .hidden) →
        ∃ o x, (ls.flatMap fun l => if state l == .hidden then [] else Out.goTo (pos l) 0 :: display .normal l) = o :: x ∧ Places rows o := by
      intro ls
      induction ls with
      | nil => rintro - ⟨l, hl, -⟩; cases hl
      | cons l ls ih =>
        intro hm hex
        by_cases hh : state l = .hidden
        · obtain ⟨o, x, e, hp⟩ := ih (fun y hy => hm y (List.mem_cons_of_mem _ hy)) (by
            obtain ⟨y, hy, hy'⟩ := hex
            rcases List.mem_cons.1 hy with rfl | hy
            · exact absurd hh hy'
            · exact ⟨y, hy, hy'⟩)
          exact ⟨o, x, by rw [List.flatMap_cons, e]; simp [hh], hp⟩
        · have : (state l == CState.hidden) = false := by simpa using hh
          refine ⟨.goTo (pos l) 0, _, by rw [List.flatMap_cons, this]; rfl, hf.line l (hm l (by simp)) hh, hcol⟩
    obtain ⟨o, x, e', hp⟩ := key _ (fun _ hl => hl) hv
    exact ⟨o, _, by rw [e, e']; rfl, hp⟩
  · have e0 : (p.panel.kids.flatMap fun l => if state l == .hidden then [] else Out.goTo (pos l) 0 :: display .normal l) = [] := by
      rw [List.flatMap_eq_nil_iff]
      intro l hl
      have : state l = .hidden := by
        by_contra hn
        exact hv ⟨l, hl, hn⟩
      simp [this]
    rw [e, e0, List.nil_append]
    by_cases hc : ∃ l k, Current p l k
    · left
      obtain ⟨l, k, hc⟩ := hc
      have hp := hf.current l k hc
      obtain ⟨a1, a2⟩ := current_spec hc
      refine ⟨.setCursor l.pos (pos k) (state k == .selected), Panel.displayVertical .cursor p.panel, ?_, hp⟩
      unfold Page.displayCursor
      rw [a1, a2]
      rfl
    · exact Or.inr ⟨displayCursor_none hc, hc, fun r c ch ⟨l, hl, hs, _⟩ => hv ⟨l, hl, hs⟩⟩

/-- The calls for a page, up to the last one of a text control that has the cursor. -/
theorem display_parts {α : Type} [Control α] {draw : α → List Int} {p : Page α} (h : Drawable draw p) (m : Mode) {l : Panel α} {k : α}
    (hc : Current p l k) :
    display m p = (Panel.displayVertical .normal p.panel ++ [.setCursor l.pos (pos k) (state k == .selected)]) ++ display .cursor k := by
  obtain ⟨a1, a2⟩ := current_spec hc
  obtain ⟨i, j, c1, c2, c3, c4⟩ := hc
  show Panel.displayVertical .normal p.panel ++ Page.displayCursor p.panel = _
  have : Panel.displayVertical .cursor p.panel = display .cursor k := by
    show Panel.displayCurrent .cursor p.panel = _
    unfold Panel.displayCurrent
    simp only [c1, Option.bind_some, c2]
    show (match l.kind with
      | .horizontal => Panel.displayHorizontal .cursor l
      | .vertical => Panel.displayVertical .cursor l
      | _ => Panel.displayCurrent .cursor l) = _
    rw [h.kind l (List.mem_of_getElem? c2)]
    show Panel.displayCurrent .cursor l = _
    unfold Panel.displayCurrent
    simp only [c3, Option.bind_some, c4]
  unfold Page.displayCursor
  rw [a1, a2, this, List.append_assoc]
  rfl

theorem exec_bytes (d : Device) (rs : Bool) (b : Nat) (hb : b < 256) (h : ∀ a, d.ddram a < 256) : ∀ a, (exec d rs b).ddram a < 256 := by
  intro a
  unfold exec
  cases rs with
  | true =>
    cases d.cg with
    | true => exact h a
    | false =>
      show setAt d.ddram d.ac b a < 256
      unfold setAt
      split
      · exact hb
      · exact h a
  | false =>
    simp only [Bool.false_eq_true, if_false]
    split_ifs <;> first | exact h a | (show (0x20 : Nat) < 256; omega)

theorem execAll_bytes (bs : List (Bool × Nat)) (hb : ∀ b ∈ bs, b.2 < 256) (d : Device) (h : ∀ a, d.ddram a < 256) : ∀ a, (execAll d bs).ddram a < 256 := by
  induction bs generalizing d with
  | nil => exact h
  | cons b bs ih => exact ih (fun x hx => hb x (List.mem_cons_of_mem _ hx)) _ (exec_bytes d b.1 b.2 (hb b (by simp)) h)

/-- Calls that begin by saying row and column, from wherever the view and the display were. -/
theorem placed_onLcd (rows : Nat) (h1 : 1 ≤ rows) (h4 : rows ≤ 4) (o : Out) (l : List Out) (ho : Places rows o) (hf : FitsAny rows (o :: l))
    (s : View.State) (d : Device) (hr : LcdReady s d) :
    ∃ s' bs z z', UILcd.calls rows s (o :: l) = .ok (s', bs.map toCall) ∧ (∀ b ∈ bs, b.2 < 256 ∧ ¬ selects8 b) ∧
      (∀ r c, z.text r c = (d.ddram (cell r c) : Int)) ∧ shows (some z) (o :: l) = some z' ∧ OnLcd rows s' (execAll d bs) z' := by
  obtain ⟨f, g1, g2⟩ := hr.flags
  have hcol : 0 < columns rows := by simp only [columns]; split <;> omega
  let z0 : Spec.Display.Screen := ⟨0, 0, fun r c => (d.ddram (cell r c) : Int), if d.cursor then some (0, 0, d.blink) else none⟩
  have on0 : OnLcd rows ⟨0, 0, s.regs⟩ { d with ac := 0 } z0 := by
    refine ⟨⟨rfl, rfl, show 0 < rows by omega, Nat.zero_le _, fun _ => rfl, hr.cg, hr.inc, hr.two, ?_⟩, ⟨f, g1, g2⟩, ?_, ?_⟩
    · intro r c _ _
      have := hr.bytes (cell r c)
      show d.ddram (cell r c) = toU 8 (d.ddram (cell r c) : Int)
      unfold toU; omega
    · intro hn
      by_cases hb : d.cursor = true
      · simp [z0, hb] at hn
      · simpa using hb
    · intro r c e hn
      by_cases hb : d.cursor = true
      · simp only [z0, hb, if_true, Option.some.injEq, Prod.mk.injEq] at hn
        exact ⟨hb, hn.2.2⟩
      · simp [z0, hb] at hn
  obtain ⟨k1, k2⟩ := hf z0
  obtain ⟨s1, b1, z1, e1, v1, w1, o1⟩ := out_onLcd rows h1 h4 o _ _ z0 on0 k1
  obtain ⟨t1, c1, i1, i2⟩ := places_any rows h1 h4 o ho s f g1
  have e0 := i1 0 0
  rw [e1] at e0
  simp only [Res.ok.injEq, Prod.mk.injEq] at e0
  obtain ⟨rfl, e0⟩ := e0
  obtain rfl : b1 = c1 := List.map_injective_iff.2 (fun x y h => toCall_inj h) e0
  rw [i2 d 0 g2] at o1
  obtain ⟨s2, b2, z2, e2, v2, w2, o2⟩ := outs_onLcd rows h1 h4 l s1 _ z1 o1 (k2 z1 w1)
  refine ⟨s2, b1 ++ b2, z0, z2, ?_, ?_, fun _ _ => rfl, ?_, ?_⟩
  · have := i1 s.row s.col
    simp only [UILcd.calls]
    rw [show UILcd.call rows s o = .ok (s1, b1.map toCall) from this]
    simp only [Res.bind_ok, e2, List.map_append]
  · intro y hy
    rcases List.mem_append.1 hy with hy | hy
    · exact v1 y hy
    · exact v2 y hy
  · show shows (show1 (some z0) o) l = _
    rw [w1, w2]
  · simpa only [execAll, List.foldl_append] using o2

theorem lcdCalls_append (rows : Nat) (s : View.State) (a b : List Out) :
    UILcd.calls rows s (a ++ b) = (do
      let (s1, x) ← UILcd.calls rows s a
      let (s2, y) ← UILcd.calls rows s1 b
      .ok (s2, x ++ y)) := by
  induction a generalizing s with
  | nil =>
    simp only [List.nil_append, UILcd.calls, Res.bind_ok]
    cases UILcd.calls rows s b <;> rfl
  | cons o a ih =>
    simp only [List.cons_append, UILcd.calls, ih]
    cases UILcd.call rows s o with
    | ub => rfl
    | ok r =>
      simp only [Res.bind_ok]
      cases UILcd.calls rows r.1 a with
      | ub => rfl
      | ok r2 =>
        simp only [Res.bind_ok]
        cases UILcd.calls rows r2.1 b with
        | ub => rfl
        | ok r3 => simp only [Res.bind_ok, List.append_assoc]

/-- What the page leaves on the display: the texts in their places, everything else as before. -/
def TextsShown {α : Type} [Control α] (rows : Nat) (draw : α → List Int) (p : Page α) (d d' : Device) : Prop :=
  (∀ r c ch, r < rows → c < columns rows → Covers draw p.panel.kids r c ch → (∀ ch', Covers draw p.panel.kids r c ch' → ch' = ch) →
    d'.ddram (cell r c) = toU 8 ch) ∧
  (∀ r c, r < rows → c < columns rows → (∀ ch, ¬ Covers draw p.panel.kids r c ch) → d'.ddram (cell r c) = d.ddram (cell r c))

theorem texts_shown {α : Type} [Control α] {rows : Nat} {draw : α → List Int} {p : Page α} {d d' : Device} {z z' : Spec.Display.Screen}
    (hb : ∀ a, d.ddram a < 256) (hz : ∀ r c, z.text r c = (d.ddram (cell r c) : Int)) (hp : Paints (Covers draw p.panel.kids) z z')
    (ht : ∀ r c, r < rows → c < columns rows → d'.ddram (cell r c) = toU 8 (z'.text r c)) : TextsShown rows draw p d d' := by
  constructor
  · intro r c ch hr hc hcov hu
    rw [ht r c hr hc]
    rcases hp r c with ⟨ch', hp, et⟩ | ⟨hn, _⟩
    · rw [et, hu ch' hp]
    · exact absurd hcov (hn ch)
  · intro r c hr hc hno
    rw [ht r c hr hc]
    rcases hp r c with ⟨ch', hp, _⟩ | ⟨_, et⟩
    · exact absurd hp (hno ch')
    · rw [et, hz]
      have := hb (cell r c)
      unfold toU; omega

theorem lines_head {α : Type} [Control α] {rows : Nat} {draw : α → List Int} {p : Page α} (h : Drawable draw p) (hf : FitsLcd rows draw p)
    (h1 : 1 ≤ rows) (x : Out) (hx : Places rows x) : ∃ o l, Panel.displayVertical .normal p.panel ++ [x] = o :: l ∧ Places rows o := by
  rcases display_head h hf h1 .normal with ⟨o, l, e, hp⟩ | ⟨e, -, -⟩
  · have e : Panel.displayVertical .normal p.panel ++ Page.displayCursor p.panel = o :: l := e
    cases hv : Panel.displayVertical .normal p.panel with
    | nil => exact ⟨x, [], rfl, hx⟩
    | cons y ys =>
      rw [hv] at e
      simp only [List.cons_append, List.cons.injEq] at e
      exact ⟨y, ys ++ [x], rfl, e.1 ▸ hp⟩
  · have e : Panel.displayVertical .normal p.panel ++ Page.displayCursor p.panel = [.setCursor dontCare dontCare false] := e
    cases hv : Panel.displayVertical .normal p.panel with
    | nil => exact ⟨x, [], rfl, hx⟩
    | cons y ys =>
      rw [hv] at e
      simp only [List.cons_append, List.cons.injEq, List.append_eq_nil_iff] at e
      have : Page.displayCursor p.panel ≠ [] := by
        unfold Page.displayCursor
        split <;> simp
      exact absurd e.2.2 this

/-- Everything about a page on the display, from wherever view and display were. -/
theorem page_onLcd {α : Type} [Control α] (rows : Nat) (h1 : 1 ≤ rows) (h4 : rows ≤ 4) (draw : α → List Int) (p : Page α)
    (h : Drawable draw p) (hf : FitsLcd rows draw p) (hq : ∀ l k, Current p l k → ∃ q, CursorAt k q ∧ q < columns rows) (m : Mode)
    (s : View.State) (d : Device) (hr : LcdReady s d) :
    ∃ s' bs, UILcd.calls rows s (display m p) = .ok (s', bs.map toCall) ∧ (∀ b ∈ bs, b.2 < 256 ∧ ¬ selects8 b) ∧
      TextsShown rows draw p d (execAll d bs) ∧
      (∀ l k q, Current p l k → CursorAt k q → (execAll d bs).cursor = true ∧ (execAll d bs).blink = (state k == .selected) ∧
        (execAll d bs).ac = cell (if display .cursor k = [] then l.pos else 0) q) ∧
      ((¬ ∃ l k, Current p l k) → (execAll d bs).cursor = false) ∧ LcdReady s' (execAll d bs) := by
  obtain ⟨hcl, hc40⟩ := columns_le rows h1 h4
  by_cases hc : ∃ l k, Current p l k
  · obtain ⟨l, k, hc⟩ := hc
    obtain ⟨q, hq, hq40⟩ := hq l k hc
    have hfc := hf.current l k hc
    have hpl : Places rows (.setCursor l.pos (pos k) (state k == .selected)) := hfc
    obtain ⟨o, os, eo, ho⟩ := lines_head h hf h1 _ hpl
    have fits : FitsAny rows (o :: os) := by
      rw [← eo]
      exact (lines_fit rows h1 draw p h hf).append fun z => ⟨Or.inl hfc, fun _ _ => trivial⟩
    obtain ⟨s1, b1, z, z1, e1, v1, hz, w1, on1⟩ := placed_onLcd rows h1 h4 o os ho fits s d hr
    rw [← eo] at e1 w1
    -- the screen after the lines, then the cursor
    have hz1 : Paints (Covers draw p.panel.kids) z z1 ∧ z1.row = l.pos ∧ z1.col = pos k ∧ z1.cursor = some (l.pos, pos k, state k == .selected) := by
      obtain ⟨z2, e2, -, h2⟩ := lines_paint draw p.panel.kids h.kind h.row h.draws h.col z
      have hl := List.mem_of_getElem? hc.choose_spec.choose_spec.2.1
      have hk := List.mem_of_getElem? hc.choose_spec.choose_spec.2.2.2
      have r1 := h.row l hl
      have r2 := h.col l hl k hk
      have e2 : shows (some z) (Panel.displayVertical .normal p.panel) = some z2 := e2
      rw [shows_append, e2] at w1
      simp only [shows, List.foldl_cons, List.foldl_nil, show1, coord, r1, r2, if_false, Option.map_some, Option.some.injEq] at w1
      subst w1
      refine ⟨fun r c => ?_, ?_, ?_, ?_⟩
      · have := h2 r c
        simpa [Spec.Display.Screen.setCursor, Spec.Display.Screen.goTo] using this
      · simp [Spec.Display.Screen.setCursor, Spec.Display.Screen.goTo, Spec.Display.resolve]
      · simp [Spec.Display.Screen.setCursor, Spec.Display.Screen.goTo, Spec.Display.resolve]
      · simp [Spec.Display.Screen.setCursor, Spec.Display.Screen.goTo, Spec.Display.resolve]
    obtain ⟨p1, p2, p3, p4⟩ := hz1
    obtain ⟨x1, x2⟩ := on1.shown _ _ _ p4
    have hac : (execAll d b1).ac = cell l.pos (pos k) := by
      have := on1.tracks.ac
      simp only [p2, p3] at this
      exact this hfc.2
    have hbytes := execAll_bytes b1 (fun b hb => (v1 b hb).1) d hr.bytes
    have uniq : ∀ l' k' q', Current p l' k' → CursorAt k' q' → l' = l ∧ k' = k ∧ q' = q := by
      rintro l' k' q' ⟨i, j, a1, a2, a3, a4⟩ hq'
      obtain ⟨i2, j2, b1, b2, b3, b4⟩ := hc
      rw [a1] at b1
      cases b1
      rw [a2] at b2
      cases b2
      rw [a3] at b3
      cases b3
      rw [a4] at b4
      cases b4
      refine ⟨rfl, rfl, ?_⟩
      rcases hq with ⟨u1, u2⟩ | ⟨u1, u2⟩ <;> rcases hq' with ⟨y1, y2⟩ | ⟨y1, y2⟩
      · rw [u2, y2]
      · rw [u1] at y1; cases y1
      · rw [u1] at y1; cases y1
      · rw [u1] at y1; simp at y1; exact y1.symm
    rcases hq with ⟨hd, rfl⟩ | ⟨hd, hne⟩
    · refine ⟨s1, b1, ?_, v1, ?_, ?_, fun hn => absurd ⟨l, k, hc⟩ hn, ?_⟩
      · rw [display_parts h m hc, hd, List.append_nil]; exact e1
      · exact texts_shown hr.bytes hz p1 fun r c a b => on1.tracks.text r c a b
      · intro l' k' q' hc' hq'
        obtain ⟨rfl, rfl, rfl⟩ := uniq l' k' q' hc' hq'
        exact ⟨x1, x2, by rw [if_pos hd]; exact hac⟩
      · exact ⟨on1.flags, on1.tracks.cg, on1.tracks.inc, on1.tracks.two, hbytes⟩
    · obtain ⟨f, g1, g2⟩ := on1.flags
      obtain ⟨g, b2, y1, y2, y3, y4⟩ := c63_setCursor_exact rows h1 h4 s1 f g1 dontCare q hq40 (state k == .selected)
      have y4 := y4 _ g2
      have hrow : rowOf rows dontCare = 0 := by unfold rowOf dontCare; rw [if_neg (by omega)]
      rw [hrow] at y4
      have ex : execAll d (b1 ++ b2) = execAll (execAll d b1) b2 := by simp only [execAll, List.foldl_append]
      refine ⟨⟨dontCare, q, g⟩, b1 ++ b2, ?_, ?_, ?_, ?_, fun hn => absurd ⟨l, k, hc⟩ hn, ?_⟩
      · rw [display_parts h m hc, hd, lcdCalls_append, e1]
        have := y1 s1.row s1.col
        simp only [Res.bind_ok, UILcd.calls, UILcd.call]
        rw [show Writer.setCursor rows s1 dontCare q (state k == .selected) = _ from this]
        simp only [Res.bind_ok, List.append_nil, List.map_append]
      · intro y hy
        rcases List.mem_append.1 hy with hy | hy
        · exact v1 y hy
        · exact y2 y hy
      · rw [ex, y4]
        exact texts_shown hr.bytes hz p1 fun r c a b => on1.tracks.text r c a b
      · intro l' k' q' hc' hq'
        obtain ⟨rfl, rfl, rfl⟩ := uniq l' k' q' hc' hq'
        rw [ex, y4]
        refine ⟨rfl, rfl, ?_⟩
        rw [if_neg (by rw [hd]; simp)]
      · rw [ex, y4]
        exact ⟨⟨_, y3, ⟨g2.1, rfl, rfl⟩⟩, rfl, on1.tracks.inc, on1.tracks.two, hbytes⟩
  · rcases display_head h hf h1 m with ⟨o, l, e, ho⟩ | ⟨e, -, hn⟩
    · have fits : FitsAny rows (o :: l) := by
        rw [← e]
        exact page_fits rows h1 draw p h hf (fun l k hc' => absurd ⟨l, k, hc'⟩ hc) m
      obtain ⟨s1, b1, z, z1, e1, v1, hz, w1, on1⟩ := placed_onLcd rows h1 h4 o l ho fits s d hr
      rw [← e] at e1 w1
      obtain ⟨z2, w2, p1, -, p3⟩ := display_total h (fun l k hc' => absurd ⟨l, k, hc'⟩ hc) m z
      rw [w1] at w2
      cases w2
      exact ⟨s1, b1, e1, v1, texts_shown hr.bytes hz p1 fun r c a b => on1.tracks.text r c a b, fun l k q hc' => absurd ⟨l, k, hc'⟩ hc,
        fun _ => on1.hidden (p3 hc), ⟨on1.flags, on1.tracks.cg, on1.tracks.inc, on1.tracks.two, execAll_bytes b1 (fun b hb => (v1 b hb).1) d hr.bytes⟩⟩
    · obtain ⟨f, g1, g2⟩ := hr.flags
      obtain ⟨r, b, e1, v, m', k⟩ := c63_cursorOff rows s f g1 d g2 false
      have ex : execAll d [b] = { d with cursor := false } := k
      refine ⟨{ s with regs := r }, [b], ?_, by simpa using v, ?_, fun l k q hc' => absurd ⟨l, k, hc'⟩ hc, fun _ => by rw [ex], ?_⟩
      · rw [e]
        simp only [UILcd.calls, UILcd.call]
        rw [show Writer.setCursor rows s dontCare dontCare false = _ from e1]
        rfl
      · rw [ex]
        exact ⟨fun r c ch _ _ hcov => absurd hcov (hn r c ch), fun _ _ _ _ _ => rfl⟩
      · rw [ex]
        exact ⟨⟨_, m', ⟨g2.1, rfl, g2.2.2⟩⟩, hr.cg, hr.inc, hr.two, hr.bytes⟩

/-- **C83, partial.** Any sequence of pages that fit a display of 1-4 rows, shown one after the other from wherever the cursor was: every page leaves every
    visible control's text at its line and column and everything else as the pages before left it; the cursor is on and at the current control,
    in a text control at the character being edited, blinking exactly when selected, or off when there is none; only valid instructions are sent.
    Missing: a text control being edited below the first line (`c83_edit_fails`) and the blinking block when the cursor is taken away. -/
theorem c83_pages_partial {α : Type} [Control α] (rows : Nat) (h1 : 1 ≤ rows) (h4 : rows ≤ 4) (draw : α → List Int) (ps : List (Page α)) (p : Page α)
    (h : ∀ x ∈ ps ++ [p], Drawable draw x ∧ FitsLcd rows draw x ∧ ∀ l k, Current x l k → ∃ q, CursorAt k q ∧ q < columns rows) (m : Mode)
    (s : View.State) (d : Device) (hr : LcdReady s d) :
    ∃ s1 bs1 s2 bs2, UILcd.calls rows s (ps.flatMap (display m)) = .ok (s1, bs1.map toCall) ∧
      UILcd.calls rows s1 (display m p) = .ok (s2, bs2.map toCall) ∧ (∀ b ∈ bs1 ++ bs2, b.2 < 256 ∧ ¬ selects8 b) ∧
      TextsShown rows draw p (execAll d bs1) (execAll d (bs1 ++ bs2)) ∧
      (∀ l k q, Current p l k → CursorAt k q → (execAll d (bs1 ++ bs2)).cursor = true ∧ (execAll d (bs1 ++ bs2)).blink = (state k == .selected) ∧
        (display .cursor k = [] ∨ l.pos = 0 → (execAll d (bs1 ++ bs2)).ac = cell l.pos q)) ∧
      ((¬ ∃ l k, Current p l k) → (execAll d (bs1 ++ bs2)).cursor = false) := by
  have key : ∃ s1 bs1, UILcd.calls rows s (ps.flatMap (display m)) = .ok (s1, bs1.map toCall) ∧ (∀ b ∈ bs1, b.2 < 256 ∧ ¬ selects8 b) ∧
      LcdReady s1 (execAll d bs1) := by
    have h' : ∀ x ∈ ps, Drawable draw x ∧ FitsLcd rows draw x ∧ ∀ l k, Current x l k → ∃ q, CursorAt k q ∧ q < columns rows :=
      fun x hx => h x (List.mem_append_left _ hx)
    clear h
    induction ps generalizing s d with
    | nil => exact ⟨s, [], rfl, by simp, hr⟩
    | cons x ps ih =>
      obtain ⟨a, b, c⟩ := h' x (by simp)
      obtain ⟨s1, b1, e1, v1, -, -, -, r1⟩ := page_onLcd rows h1 h4 draw x a b c m s d hr
      obtain ⟨s2, b2, e2, v2, r2⟩ := ih s1 _ r1 fun y hy => h' y (List.mem_cons_of_mem _ hy)
      refine ⟨s2, b1 ++ b2, ?_, ?_, by simpa only [execAll, List.foldl_append] using r2⟩
      · rw [List.flatMap_cons, lcdCalls_append, e1]
        simp only [Res.bind_ok, e2, List.map_append]
      · intro y hy
        rcases List.mem_append.1 hy with hy | hy
        · exact v1 y hy
        · exact v2 y hy
  obtain ⟨s1, b1, e1, v1, r1⟩ := key
  obtain ⟨a, b, c⟩ := h p (by simp)
  obtain ⟨s2, b2, e2, v2, t2, c2, n2, -⟩ := page_onLcd rows h1 h4 draw p a b c m s1 _ r1
  have ex : execAll d (b1 ++ b2) = execAll (execAll d b1) b2 := by simp only [execAll, List.foldl_append]
  refine ⟨s1, b1, s2, b2, e1, e2, ?_, ?_, ?_, ?_⟩
  · intro y hy
    rcases List.mem_append.1 hy with hy | hy
    · exact v1 y hy
    · exact v2 y hy
  · rw [ex]; exact t2
  · intro l k q hc hq
    obtain ⟨x1, x2, x3⟩ := c2 l k q hc hq
    rw [ex]
    refine ⟨x1, x2, fun hor => ?_⟩
    rw [x3]
    rcases hor with hor | hor
    · rw [if_pos hor]
    · rw [hor, ite_self]
  · rw [ex]; exact n2

/-- **C83 fails** for every page whose current control is a text control being edited below the first line: the cursor is in line 0. -/
theorem c83_edit_fails {α : Type} [Control α] (rows : Nat) (h1 : 1 ≤ rows) (h4 : rows ≤ 4) (draw : α → List Int) (p : Page α)
    (h : Drawable draw p) (hf : FitsLcd rows draw p) (l : Panel α) (k : α) (q : Nat) (hc : Current p l k) (hq : CursorAt k q) (hq40 : q < columns rows)
    (ht : display .cursor k ≠ []) (hl : l.pos ≠ 0) (m : Mode) (s : View.State) (d : Device) (hr : LcdReady s d) :
    ∃ s' bs, UILcd.calls rows s (display m p) = .ok (s', bs.map toCall) ∧ (execAll d bs).ac = cell 0 q ∧ (execAll d bs).ac ≠ cell l.pos q := by
  have hq' : ∀ l' k', Current p l' k' → ∃ q, CursorAt k' q ∧ q < columns rows := by
    rintro l' k' ⟨i, j, a1, a2, a3, a4⟩
    obtain ⟨i2, j2, b1, b2, b3, b4⟩ := hc
    rw [a1] at b1
    cases b1
    rw [a2] at b2
    cases b2
    rw [a3] at b3
    cases b3
    rw [a4] at b4
    cases b4
    exact ⟨q, hq, hq40⟩
  obtain ⟨s', bs, e, -, -, c, -, -⟩ := page_onLcd rows h1 h4 draw p h hf hq' m s d hr
  obtain ⟨-, -, c⟩ := c l k q hc hq
  rw [if_neg ht] at c
  refine ⟨s', bs, e, c, fun hh => hl ?_⟩
  rw [c] at hh
  exact (cell_inj rows h4 0 q l.pos q (by omega) hq40 (hf.current l k hc).1 hq40 hh).1.symm

/-- Non-vacuous: the first page of `c83_text_fails` is such a page, its display is ready, and shown twice it still is what it was. -/
example : LcdReady ⟨9, 200, 0x14#8⟩ { lcdReady with ac := 77 } ∧ lcdAfter [editPage, editPage] = .ok (4, true, true) ∧
    lcdAfter [editPage, ⟨{ editPage.panel with cur := none }⟩] = .ok (0x45, false, true) := by
  refine ⟨⟨⟨⟨false, false, true, false, true⟩, by unfold Reads; decide +kernel, by unfold Device.showsDisplay; decide +kernel⟩, rfl, rfl, rfl,
    fun _ => by show (0x20 : Nat) < 256; omega⟩, by decide +kernel, by decide +kernel⟩

/-- What the controls of `editPage` draw. -/
def editDraw : Label ⊕ Text Int → List Int
  | .inl x => x.text.getD []
  | .inr x => x.text.takeWhile (· ≠ 0)

/-- The premises of both theorems hold for that page. -/
example : Drawable editDraw editPage ∧ FitsLcd 2 editDraw editPage ∧
    ∃ l k, Current editPage l k ∧ CursorAt k 4 ∧ display .cursor k ≠ [] ∧ l.pos = 1 := by
  have mem : ∀ l ∈ editPage.panel.kids, ∀ k ∈ l.kids, (l.pos = 0 ∧ k = .inl { pos := 0, text := some [78, 58] }) ∨
      (l.pos = 1 ∧ k = .inr { st := .selected, pos := 3, text := [65, 66, 0], capacity := 2, ops := ⟨id, id, fun _ i => i, id⟩, iter := 0, edit := 1 }) := by
    intro l hl k hk
    simp only [editPage, List.mem_cons, List.not_mem_nil, or_false] at hl
    rcases hl with rfl | rfl <;> simp only [List.mem_cons, List.not_mem_nil, or_false] at hk <;> subst hk <;> simp
  have cur : ∀ l k, Current editPage l k → l ∈ editPage.panel.kids ∧ k ∈ l.kids := by
    rintro l k ⟨i, j, a, b, c, d⟩
    exact ⟨List.mem_of_getElem? b, List.mem_of_getElem? d⟩
  refine ⟨⟨by decide +kernel, by decide +kernel, ?_, ?_⟩, ⟨by decide +kernel, ?_, ?_, ?_⟩, _, _, ⟨1, 0, rfl, rfl, rfl, rfl⟩, Or.inr ⟨rfl, by decide⟩, by decide, rfl⟩
  · intro l hl k hk
    rcases mem l hl k hk with ⟨_, rfl⟩ | ⟨_, rfl⟩ <;> decide
  · intro l hl k hk _
    rcases mem l hl k hk with ⟨_, rfl⟩ | ⟨_, rfl⟩ <;> exact Or.inl rfl
  · intro l hl k hk
    rcases mem l hl k hk with ⟨_, rfl⟩ | ⟨_, rfl⟩ <;> decide
  · intro l hl k hk
    rcases mem l hl k hk with ⟨_, rfl⟩ | ⟨_, rfl⟩ <;> decide
  · intro l k hc
    obtain ⟨hl, hk⟩ := cur l k hc
    rcases mem l hl k hk with ⟨e, rfl⟩ | ⟨e, rfl⟩ <;> rw [e] <;> decide

end Atl.Props
