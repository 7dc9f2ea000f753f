import Verif.Model.LcdConsole
import Verif.Spec.LcdConsole
import Verif.Props.LcdSketch
import Verif.Props.LcdResync
import Verif.Props.TextUsart

/- Property theorem C122: lines of text and numbers on the display. -/
namespace Atl.Props
open Atl.Lcd Atl.Spec.Lcd Atl.Spec.Pages Atl.LcdSketch Atl.TextSketch Atl.Text Atl.TextUsart Atl.Spec.Text

/-- A line that fits. -/
def ConLine (rows : Nat) (t : List Nat) : Prop := t.length ≤ columns rows ∧ ∀ c ∈ t, c < 256 ∧ c ≠ 10 ∧ c ≠ 13

/-- The row where the view writes line `k`. -/
def conRow (rows k : Nat) : Nat := k % (rows + 1) % rows

/-- Between two lines: `k` lines were written. -/
structure AtLine (rows k : Nat) (s : View.State) (d : Device) (z : Nat → Nat → Nat) : Prop where
  row : s.row = k % (rows + 1)
  col : s.col = 0
  ac : d.ac = cell (conRow rows k) 0
  ready : TextReady d
  text : ∀ r c, r < rows → c < columns rows → d.ddram (cell r c) = z r c

/-- The characters of a line that fits: the row of the view does not matter. -/
theorem put_chars (rows : Nat) (h1 : 1 ≤ rows) (h4 : rows ≤ 4) (t : List Nat) (s : View.State) (hl : s.col + t.length ≤ columns rows)
    (hc : ∀ c ∈ t, c ≠ 10 ∧ c ≠ 13) :
    View.run rows s (t.map .put) = .ok ({ s with col := s.col + t.length }, t.map fun c => toCall (true, c)) := by
  obtain ⟨k1, k2⟩ := columns_le rows h1 h4
  induction t generalizing s with
  | nil => rfl
  | cons x t ih =>
    obtain ⟨x1, x2⟩ := hc x (by simp)
    simp only [List.length_cons] at hl
    have e : View.incCol rows s = { s with col := s.col + 1 } := by
      simp only [View.incCol]
      rw [if_neg (by omega), u8_succ _ (by omega)]
    have i := ih { s with col := s.col + 1 } (by simp only; omega) fun c h => hc c (by simp [h])
    simp only [List.map_cons, View.run, View.step, View.write, if_neg x1, if_neg x2, e, Res.bind_ok, i, List.length_cons]
    have : s.col + 1 + t.length = s.col + (t.length + 1) := by omega
    rw [this]
    rfl

/-- The characters of a line on the display. -/
theorem exec_chars (rows : Nat) (h1 : 1 ≤ rows) (h4 : rows ≤ 4) (t : List Nat) (ht : ConLine rows t) (r0 : Nat) (hr : r0 < rows) (d : Device) (hd : TextReady d)
    (ha : d.ac = cell r0 0) (z : Nat → Nat → Nat) (hz : ∀ r c, r < rows → c < columns rows → d.ddram (cell r c) = z r c) :
    TextReady (execAll d (t.map fun c => (true, c))) ∧ ∀ r c, r < rows → c < columns rows →
      (execAll d (t.map fun c => (true, c))).ddram (cell r c) = if r = r0 then (t[c]?).getD (z r c) else z r c := by
  have tr : Tracks rows ⟨r0, 0, 0⟩ d ⟨r0, 0, z⟩ := ⟨rfl, rfl, hr, Nat.zero_le _, fun _ => ha, hd.1, hd.2.1, hd.2.2, hz⟩
  have hops : t.map View.Op.put = (t.map TextOp.char).map viewOp := by rw [List.map_map]; rfl
  obtain ⟨s', bs, e, v, tk⟩ := c43_tracks_partial rows h1 h4 _ _ _ (t.map TextOp.char) tr (by
    intro x hx
    obtain ⟨c, hc, rfl⟩ := List.mem_map.1 hx
    exact ht.2 c hc) (chars_fit rows t _ (by simpa using ht.1))
  rw [← hops, put_chars rows h1 h4 t _ (by simpa using ht.1) fun c hc => (ht.2 c hc).2] at e
  simp only [Res.ok.injEq, Prod.mk.injEq] at e
  have hb : bs = t.map fun c => (true, c) := by
    have inj : Function.Injective toCall := fun a b h => toCall_inj h
    apply List.map_injective_iff.2 inj
    rw [← e.2, List.map_map]
    rfl
  rw [← hb]
  refine ⟨⟨tk.cg, tk.inc, tk.two⟩, fun r c hr' hc' => ?_⟩
  rw [tk.text r c hr' hc', (chars_run t ⟨r0, 0, z⟩ r c).2.2]
  by_cases h : r = r0
  · simp only [h, true_and, Nat.zero_le, Nat.zero_add, Nat.sub_zero, if_true]
    split
    · rfl
    · rename_i hn
      rw [List.getElem?_eq_none (by omega)]
      rfl
  · simp only [h, false_and, if_false]

theorem con_row_next (rows : Nat) (h1 : 1 ≤ rows) (h4 : rows ≤ 4) (k : Nat) :
    (k + 1) % (rows + 1) = if k % (rows + 1) + 1 > rows then 0 else k % (rows + 1) + 1 := by
  have : rows = 1 ∨ rows = 2 ∨ rows = 3 ∨ rows = 4 := by omega
  rcases this with rfl | rfl | rfl | rfl <;> (split <;> omega)

theorem conRow_lt (rows k : Nat) (h1 : 1 ≤ rows) : conRow rows k < rows := Nat.mod_lt _ h1

/-- One line. -/
theorem line_step (rows : Nat) (h1 : 1 ≤ rows) (h4 : rows ≤ 4) (k : Nat) (s : View.State) (d : Device) (z : Nat → Nat → Nat) (h : AtLine rows k s d z) (t : List Nat)
    (ht : ConLine rows t) :
    ∃ s' bs, View.run rows s ((t ++ [10, 13]).map .put) = .ok (s', bs.map toCall) ∧ (∀ b ∈ bs, b.2 < 256 ∧ ¬ selects8 b) ∧
      AtLine rows (k + 1) s' (execAll d bs) (fun r c => if r = conRow rows k then (t[c]?).getD (z r c) else z r c) := by
  have e1 := put_chars rows h1 h4 t s (by rw [h.col]; simpa using ht.1) fun c hc => (ht.2 c hc).2
  obtain ⟨g1, g2⟩ := exec_chars rows h1 h4 t ht (conRow rows k) (conRow_lt rows k h1) d h.ready h.ac z h.text
  obtain ⟨D, hD⟩ : ∃ D, D = execAll d (t.map fun c => (true, c)) := ⟨_, rfl⟩
  rw [← hD] at g1 g2
  obtain ⟨s1, hs1⟩ : ∃ s1, s1 = View.incRow rows { s with col := s.col + t.length } := ⟨_, rfl⟩
  have r1 : s1.row = (k + 1) % (rows + 1) := by
    rw [hs1, con_row_next rows h1 h4]
    simp only [View.incRow, h.row]
    have : k % (rows + 1) < rows + 1 := Nat.mod_lt _ (by omega)
    by_cases hc : k % (rows + 1) + 1 > rows
    · rw [if_pos hc, if_pos hc]
    · rw [if_neg hc, if_neg hc]
      exact u8_succ _ (by omega)
  obtain ⟨b1, w1, w2, w3⟩ := writeAddress_any rows h4 h1 s1
  have w4 : View.writeAddress rows { s1 with col := 0 } = .ok [toCall (false, cell (conRow rows (k + 1)) 0 + 128)] := by
    have hlt := conRow_lt rows (k + 1) h1
    have hcell := cell_lt rows h4 (conRow rows (k + 1)) 0 hlt (by simp only [columns]; split <;> omega)
    have ca : View.calcAddress rows s1.row 0 = .ok (cell (conRow rows (k + 1)) 0) := by
      rw [← calcAddress_cell rows h4 (conRow rows (k + 1)) 0 hlt (by simp only [columns]; split <;> omega)]
      unfold View.calcAddress
      have : (if s1.row ≥ rows then 0 else s1.row) = (if conRow rows (k + 1) ≥ rows then 0 else conRow rows (k + 1)) := by
        rw [if_neg (show ¬ conRow rows (k + 1) ≥ rows by omega)]
        unfold conRow
        rw [← r1]
        have : s1.row < rows + 1 := by rw [r1]; exact Nat.mod_lt _ (by omega)
        split
        · rw [show s1.row = rows by omega, Nat.mod_self]
        · rw [Nat.mod_eq_of_lt (by omega)]
      rw [this]
    simp only [View.writeAddress, ca, Res.bind_ok, Controller.writeDisplayAddress, or128 _ (show cell (conRow rows (k + 1)) 0 < 128 by omega)]
    rfl
  have hcell := cell_lt rows h4 (conRow rows (k + 1)) 0 (conRow_lt rows (k + 1) h1) (by simp only [columns]; split <;> omega)
  have e2 : View.run rows { s with col := s.col + t.length } [.put 10, .put 13] =
      .ok ({ s1 with col := 0 }, [(false, b1), (false, cell (conRow rows (k + 1)) 0 + 128)].map toCall) := by
    simp only [View.run, View.step, View.write, if_true, ← hs1, w1, Res.bind_ok, if_neg (show ¬ (13 : Nat) = 10 by omega), w4]
    rfl
  refine ⟨{ s1 with col := 0 }, (t.map fun c => (true, c)) ++ [(false, b1), (false, cell (conRow rows (k + 1)) 0 + 128)], ?_, ?_, ?_⟩
  · rw [List.map_append]
    have := view_run_append rows s (t.map .put) [.put 10, .put 13] e1 e2
    rw [show ([10, 13] : List Nat).map View.Op.put = [.put 10, .put 13] from rfl, this, List.map_append, List.map_map]
    rfl
  · intro b hb
    simp only [List.mem_append, List.mem_map, List.mem_cons, List.not_mem_nil, or_false] at hb
    rcases hb with ⟨c, hc, rfl⟩ | rfl | rfl
    · exact ⟨(ht.2 c hc).1, by simp [selects8]⟩
    · exact ⟨w3, by simp only [selects8]; omega⟩
    · exact ⟨by omega, by simp only [selects8]; omega⟩
  · have hx : execAll d ((t.map fun c => (true, c)) ++ [(false, b1), (false, cell (conRow rows (k + 1)) 0 + 128)]) =
        { D with ac := cell (conRow rows (k + 1)) 0, cg := false } := by
      have a1 : ∀ (D : Device) (b : Nat), 128 ≤ b → exec D false b = { D with ac := b % 128, cg := false } := by
        intro D b hb
        simp [exec, hb]
      unfold execAll at hD ⊢
      rw [List.foldl_append, ← hD]
      simp only [List.foldl_cons, List.foldl_nil]
      rw [a1 D b1 w2, a1 _ _ (by omega), show (cell (conRow rows (k + 1)) 0 + 128) % 128 = cell (conRow rows (k + 1)) 0 by omega]
    rw [hx]
    exact ⟨r1, rfl, rfl, ⟨rfl, g1.2.1, g1.2.2⟩, g2⟩

/-- Any number of lines. -/
theorem lines_run (rows : Nat) (h1 : 1 ≤ rows) (h4 : rows ≤ 4) (ts : List (List Nat)) (ht : ∀ t ∈ ts, ConLine rows t) :
    ∀ (k : Nat) (s : View.State) (d : Device) (z : Nat → Nat → Nat), AtLine rows k s d z →
    ∃ s' bs, View.run rows s ((ts.map (· ++ [10, 13])).flatten.map .put) = .ok (s', bs.map toCall) ∧ (∀ b ∈ bs, b.2 < 256 ∧ ¬ selects8 b) ∧
      AtLine rows (k + ts.length) s' (execAll d bs) (Spec.LcdConsole.paint (conRow rows) k z ts) := by
  induction ts with
  | nil => intro k s d z h; exact ⟨s, [], rfl, by simp, h⟩
  | cons t ts ih =>
    intro k s d z h
    obtain ⟨s1, b1, e1, v1, a1⟩ := line_step rows h1 h4 k s d z h t (ht t (by simp))
    obtain ⟨s2, b2, e2, v2, a2⟩ := ih (fun t h => ht t (by simp [h])) (k + 1) s1 _ _ a1
    refine ⟨s2, b1 ++ b2, ?_, ?_, ?_⟩
    · rw [List.map_cons, List.flatten_cons, List.map_append, view_run_append rows s _ _ e1 e2, List.map_append]
    · intro b hb
      rcases List.mem_append.1 hb with hb | hb
      · exact v1 b hb
      · exact v2 b hb
    · rw [show k + (t :: ts).length = k + 1 + ts.length by simp only [List.length_cons]; omega]
      have : execAll d (b1 ++ b2) = execAll (execAll d b1) b2 := by unfold execAll; rw [List.foldl_append]
      rw [this]
      exact a2

/-- The program with known texts. -/
theorem console_shows (rows : Nat) (h1 : 1 ≤ rows) (h4 : rows ≤ 4) (rnd : Rat → Rat) (f : Format) (items : List Item) (texts : List (List Nat))
    (w : TextUsart.lines rnd f items = .ok (texts.map (· ++ [10, 13])).flatten) (ht : ∀ t ∈ texts, ConLine rows t)
    (d : Device) (a : Lines) (he : a.e = true) (hrw : a.rw = false) (hrs : a.rs = false) (low : Nat → Nat) (amb : Nat → Bool) :
    ∃ s cs d', LcdConsole.program rows rnd f items = .ok (s, cs) ∧
      receiveAll low amb 0 d (latches a (Parallel.levels a (Parallel.calls cs))) = some d' ∧ Displays rows d' (Spec.LcdConsole.lines (conRow rows) texts) := by
  obtain ⟨s, cs, d1, e1, r1, sh⟩ := start_shows rows h1 low amb d
  have tr := sh.onLcd.tracks
  have hpos : 0 < columns rows := by simp only [columns]; split <;> omega
  have at0 : AtLine rows 0 s d1 (fun _ _ => 0x20) := by
    refine ⟨by rw [tr.row]; simp [clearScreen], tr.col, ?_, ⟨tr.cg, tr.inc, tr.two⟩, fun r c hr hc => ?_⟩
    · rw [tr.ac hpos]
      simp [clearScreen, conRow]
    · rw [tr.text r c hr hc]
      show toU 8 32 = 32
      decide
  obtain ⟨s', bs, e2, v, al⟩ := lines_run rows h1 h4 texts ht 0 s d1 _ at0
  refine ⟨s', cs ++ bs.map toCall, execAll d1 bs, ?_, ?_, ?_⟩
  · simp only [LcdConsole.program, e1, w, Res.bind_ok, Writer.write, e2]
  · rw [Parallel.calls_spec a he hrw, hrs]
    exact receive_more sh.aligned r1 bs v
  · obtain ⟨-, q⟩ := quiet_text sketchFlags _ e2
    obtain ⟨x1, x2, x3⟩ := quiet_execAll bs q d1 sh.flags sh.shift
    exact ⟨x1.1, x1.2.1, x1.2.2, x3.trans sh.window, al.text⟩

/-- **C122, exact.** The display of LCD.ino as a console: `Initialize(true)`, `setEnableDisplay()` and any number of `WriteLine` calls with strings and numbers whose
    texts fit a line, on a display of 1 to 4 rows in any state: nothing undefined, the display is on, and shows the texts, each a right text of its value,
    each from the left edge of its row over what was there; the rows are 0, 1, ..., last, then 0 again, twice. -/
theorem c122_exact (rows : Nat) (h1 : 1 ≤ rows) (h4 : rows ≤ 4) (f : Format) (hf : Sensible f) (hnl : f.newLine = [10, 13]) (items : List Item)
    (hw : ∀ i ∈ items, Writable f i) (d : Device) (a : Lines) (he : a.e = true) (hrw : a.rw = false) (hrs : a.rs = false) (low : Nat → Nat) (amb : Nat → Bool) :
    ∃ texts, List.Forall₂ (Written f) items texts ∧ ((∀ t ∈ texts, ConLine rows t) →
      ∃ s cs d', LcdConsole.program rows (roundBin 24 126) f items = .ok (s, cs) ∧
        receiveAll low amb 0 d (latches a (Parallel.levels a (Parallel.calls cs))) = some d' ∧ Displays rows d' (Spec.LcdConsole.lines (conRow rows) texts)) := by
  obtain ⟨texts, w1, w2⟩ := lines_written f hf items hw
  rw [hnl] at w2
  exact ⟨texts, w1, fun ht => console_shows rows h1 h4 _ f items texts w2 ht d a he hrw hrs low amb⟩

example := c122_exact 2 (by decide) (by decide) {} ⟨by decide, by decide, by decide, by decide⟩ rfl [.int (-7), .str TextSketch.hello] (by simp [Writable, TextSketch.hello]) powerUp
  ⟨false, false, true, true, false, true, true⟩ rfl rfl rfl (fun _ => 0) (fun _ => false)

/-! Numbers always fit. -/

theorem readFrom_digits (base : Nat) (s : List Nat) : ∀ acc v, readFrom base acc s = some v → ∀ c ∈ s, 48 ≤ c ∧ c < 256 := by
  induction s with
  | nil => simp
  | cons d s ih =>
    intro acc v h c hc
    obtain ⟨x, hd, -, h⟩ := readFrom_cons h
    rcases List.mem_cons.1 hc with rfl | hc
    · unfold digitVal at hd
      split at hd
      · omega
      · split at hd
        · omega
        · cases hd
    · exact ih _ _ h c hc

theorem numeral_length {t : List Nat} {v : Nat} (h : Numeral 10 t v) (hv : v < 10 ^ 5) : t.length ≤ 5 ∧ ∀ c ∈ t, 48 ≤ c ∧ c < 256 := by
  obtain ⟨p1, z1⟩ := h
  unfold parse at p1
  split at p1 <;> [cases p1; skip]
  refine ⟨?_, readFrom_digits 10 t _ _ p1⟩
  cases t with
  | nil => simp
  | cons c s =>
    by_cases hc : c = 48
    · rw [z1 (by simp [hc])]; decide
    · obtain ⟨d, hd, _, h1⟩ := readFrom_cons p1
      have hd0 : d ≠ 0 := by rintro rfl; exact hc (digitVal_zero hd)
      have b1 := (readFrom_bounds 10 (by omega) s _ _ h1).1
      have : 10 ^ s.length ≤ (0 * 10 + d) * 10 ^ s.length := Nat.le_mul_of_pos_left _ (by omega)
      by_contra hlt
      have : 10 ^ 5 ≤ 10 ^ s.length := Nat.pow_le_pow_right (by omega) (by simp at hlt; omega)
      omega

/-- **C122.** Any number of `WriteLine` calls with integers, in the default format: every text is the decimal numeral of its value, and the display shows them. -/
theorem c122_numbers (rows : Nat) (h1 : 1 ≤ rows) (h4 : rows ≤ 4) (xs : List Int) (hx : ∀ x ∈ xs, -(2 ^ 15) < x ∧ x < 2 ^ 15) (d : Device) (a : Lines) (he : a.e = true)
    (hrw : a.rw = false) (hrs : a.rs = false) (low : Nat → Nat) (amb : Nat → Bool) :
    ∃ texts s cs d', List.Forall₂ (Decimal 45) texts xs ∧ LcdConsole.program rows (roundBin 24 126) {} (xs.map .int) = .ok (s, cs) ∧
      receiveAll low amb 0 d (latches a (Parallel.levels a (Parallel.calls cs))) = some d' ∧ Displays rows d' (Spec.LcdConsole.lines (conRow rows) texts) := by
  obtain ⟨texts, w, h⟩ := c122_exact rows h1 h4 {} ⟨by decide, by decide, by decide, by decide⟩ rfl (xs.map .int) (by
    intro i hi
    obtain ⟨x, hx', rfl⟩ := List.mem_map.1 hi
    have := hx x hx'
    exact ⟨by omega, this.2, fun _ => by omega⟩) d a he hrw hrs low amb
  have dec : List.Forall₂ (Decimal 45) texts xs ∧ ∀ t ∈ texts, ConLine rows t := by
    clear h
    induction xs generalizing texts with
    | nil => cases w; exact ⟨.nil, by simp⟩
    | cons x xs ih =>
      rw [List.map_cons] at w
      cases w with
      | cons w1 w2 =>
        rename_i t ts
        obtain ⟨i1, i2⟩ := ih (fun x h => hx x (by simp [h])) ts w2
        have w1 : Decimal 45 t x := by simpa [Written] using w1
        refine ⟨.cons w1 i1, fun u hu => ?_⟩
        rcases List.mem_cons.1 hu with rfl | hu
        · obtain ⟨-, v, hv, rfl⟩ := w1
          have hb := hx x (by simp)
          obtain ⟨l1, l2⟩ := numeral_length hv (by omega)
          constructor
          · rw [List.length_append]
            have : (if x < 0 then [45] else ([] : List Nat)).length ≤ 1 := by split <;> simp
            have : 20 ≤ columns rows := by simp only [columns]; split <;> omega
            omega
          · intro c hc
            rcases List.mem_append.1 hc with hc | hc
            · split at hc
              · simp only [List.mem_singleton] at hc; omega
              · simp at hc
            · have := l2 c hc; omega
        · exact i2 u hu
  obtain ⟨s, cs, d', e, r, ds⟩ := h dec.2
  exact ⟨texts, s, cs, d', dec.1, e, r, ds⟩

example := c122_numbers 2 (by decide) (by decide) [-7, 12, 32767, 0] (by decide) powerUp ⟨false, false, true, true, false, true, true⟩ rfl rfl rfl (fun _ => 0) (fun _ => false)

/-! ### Reading the result -/

/-- Lines below each other do not touch each other. -/
theorem paint_rows (rowOf : Nat → Nat) (ts : List (List Nat)) : ∀ (k : Nat) (z : Nat → Nat → Nat) (r c : Nat), (∀ i, i < ts.length → rowOf (k + i) = k + i) →
    Spec.LcdConsole.paint rowOf k z ts r c = if k ≤ r then ((ts[r - k]?).bind (·[c]?)).getD (z r c) else z r c := by
  induction ts with
  | nil =>
    intro k z r c _
    show z r c = _
    split <;> simp
  | cons t ts ih =>
    intro k z r c h
    have h0 : rowOf k = k := h 0 (by simp)
    have hs : ∀ i, i < ts.length → rowOf (k + 1 + i) = k + 1 + i := by
      intro i hi
      have := h (i + 1) (by simpa using hi)
      rw [show k + 1 + i = k + (i + 1) by omega]
      exact this
    unfold Spec.LcdConsole.paint
    rw [ih (k + 1) _ r c hs, h0]
    by_cases h1 : k + 1 ≤ r
    · have h3 : r - k = (r - (k + 1)) + 1 := by omega
      rw [if_pos h1, if_pos (show k ≤ r by omega), if_neg (show ¬ r = k by omega), h3, List.getElem?_cons_succ]
    · rw [if_neg h1]
      by_cases h2 : r = k
      · subst h2
        rw [if_pos rfl, if_pos (Nat.le_refl _), Nat.sub_self, List.getElem?_cons_zero]
        rfl
      · rw [if_neg h2, if_neg (by omega)]

/-- **C122, partial.** As long as there are no more lines than rows, line `k` stands in row `k` and nothing else on the display. Missing: more lines than rows. -/
theorem c122_rows_partial (rows : Nat) (h1 : 1 ≤ rows) (h4 : rows ≤ 4) (f : Format) (hf : Sensible f) (hnl : f.newLine = [10, 13]) (items : List Item)
    (hi : items.length ≤ rows) (hw : ∀ i ∈ items, Writable f i) (d : Device) (a : Lines) (he : a.e = true) (hrw : a.rw = false) (hrs : a.rs = false) (low : Nat → Nat)
    (amb : Nat → Bool) :
    ∃ texts, List.Forall₂ (Written f) items texts ∧ ((∀ t ∈ texts, ConLine rows t) →
      ∃ s cs d', LcdConsole.program rows (roundBin 24 126) f items = .ok (s, cs) ∧
        receiveAll low amb 0 d (latches a (Parallel.levels a (Parallel.calls cs))) = some d' ∧ Displays rows d' (alone texts)) := by
  obtain ⟨texts, w, h⟩ := c122_exact rows h1 h4 f hf hnl items hw d a he hrw hrs low amb
  refine ⟨texts, w, fun ht => ?_⟩
  obtain ⟨s, cs, d', e, r, ds⟩ := h ht
  refine ⟨s, cs, d', e, r, ⟨ds.on, ds.cursor, ds.blink, ds.window, fun r c hr hc => ?_⟩⟩
  rw [ds.text r c hr hc]
  have hl : texts.length ≤ rows := by rw [← w.length_eq]; exact hi
  unfold Spec.LcdConsole.lines
  rw [paint_rows (conRow rows) texts 0 _ r c ?_, if_pos (Nat.zero_le _), Nat.sub_zero]
  · rfl
  · intro i hi
    unfold conRow
    rw [Nat.zero_add, Nat.mod_eq_of_lt (by omega : i < rows + 1), Nat.mod_eq_of_lt (by omega)]

example := c122_rows_partial 2 (by decide) (by decide) {} ⟨by decide, by decide, by decide, by decide⟩ rfl [.int (-7), .str TextSketch.hello] (by decide) (by simp [Writable, TextSketch.hello])
  powerUp ⟨false, false, true, true, false, true, true⟩ rfl rfl rfl (fun _ => 0) (fun _ => false)

/-- One more line. -/
theorem paint_last (rowOf : Nat → Nat) (ts : List (List Nat)) (t : List Nat) : ∀ (k : Nat) (z : Nat → Nat → Nat) (r c : Nat),
    Spec.LcdConsole.paint rowOf k z (ts ++ [t]) r c =
      if r = rowOf (k + ts.length) then (t[c]?).getD (Spec.LcdConsole.paint rowOf k z ts r c) else Spec.LcdConsole.paint rowOf k z ts r c := by
  induction ts with
  | nil => intro k z r c; rfl
  | cons x ts ih =>
    intro k z r c
    simp only [List.cons_append, Spec.LcdConsole.paint, List.length_cons]
    rw [ih, show k + 1 + ts.length = k + (ts.length + 1) by omega]

/-- **C122, exact.** As soon as there are two lines more than rows: the line after the last row goes to row 0, and so does the next one, over it; row 1 keeps its old text, and
    the display never shows the last two lines together. Texts that fit, the last at least as long as the one before. -/
theorem c122_wrap (rows : Nat) (h1 : 2 ≤ rows) (ts : List (List Nat)) (hl : ts.length % (rows + 1) = rows) (u v : List Nat) (huv : u.length ≤ v.length) (r c : Nat) :
    Spec.LcdConsole.lines (conRow rows) (ts ++ [u] ++ [v]) r c = if r = 0 then (v[c]?).getD (Spec.LcdConsole.lines (conRow rows) ts r c)
      else Spec.LcdConsole.lines (conRow rows) ts r c := by
  have n : (ts.length + 1) % (rows + 1) = 0 := by
    have := Nat.div_add_mod ts.length (rows + 1)
    rw [hl] at this
    rw [← this, Nat.add_assoc, Nat.add_comm rows 1, Nat.add_comm 1 rows, ← Nat.mul_succ]
    exact Nat.mul_mod_right _ _
  have r1 : conRow rows (0 + ts.length) = 0 := by unfold conRow; rw [Nat.zero_add, hl, Nat.mod_self]
  have r2 : conRow rows (0 + (ts ++ [u]).length) = 0 := by
    unfold conRow; rw [Nat.zero_add, List.length_append, List.length_singleton, n, Nat.zero_mod]
  unfold Spec.LcdConsole.lines
  rw [paint_last, paint_last, r1, r2]
  by_cases h : r = 0
  · simp only [h, if_true]
    cases hv : v[c]? with
    | some x => rfl
    | none =>
      have : u[c]? = none := by
        rw [List.getElem?_eq_none_iff] at hv ⊢
        omega
      rw [this]
      rfl
  · simp only [h, if_false]

example := c122_wrap 2 (by decide) [[65], [66, 67]] (by decide) [68] [69, 70] (by decide) 0 1

/-- **C122 fails** with more lines than rows: a counter, WriteLine(1) to WriteLine(4), on a display with two rows. Instead of 3 and 4 it shows 4 above 2. -/
theorem c122_counter_fails (d : Device) (a : Lines) (he : a.e = true) (hrw : a.rw = false) (hrs : a.rs = false) (low : Nat → Nat) (amb : Nat → Bool) :
    ∃ s cs d', LcdConsole.program 2 (roundBin 24 126) {} [.int 1, .int 2, .int 3, .int 4] = .ok (s, cs) ∧
      receiveAll low amb 0 d (latches a (Parallel.levels a (Parallel.calls cs))) = some d' ∧ Displays 2 d' (alone [[52], [50]]) ∧
      ¬ Displays 2 d' (Spec.LcdConsole.lines (· % 2) [[49], [50], [51], [52]]) := by
  have e : TextUsart.lines (roundBin 24 126) {} [.int 1, .int 2, .int 3, .int 4] = .ok ([[49], [50], [51], [52]].map (· ++ [10, 13])).flatten := by decide +kernel
  have hl : ∀ t ∈ ([[49], [50], [51], [52]] : List (List Nat)), ConLine 2 t := by unfold ConLine; decide
  obtain ⟨s, cs, d', p, r, ds⟩ := console_shows 2 (by omega) (by omega) _ {} _ _ e hl d a he hrw hrs low amb
  have t0 : ∀ r c, r < 2 → c < 40 → d'.ddram (cell r c) = alone [[52], [50]] r c := by
    intro r c hr hc
    rw [ds.text r c hr hc]
    have : r = 0 ∨ r = 1 := by omega
    rcases this with rfl | rfl <;> (rcases c with _ | c <;> simp [Spec.LcdConsole.lines, Spec.LcdConsole.paint, conRow, alone, charAt])
  refine ⟨s, cs, d', p, r, ⟨ds.on, ds.cursor, ds.blink, ds.window, t0⟩, fun h' => ?_⟩
  have x := h'.text 0 0 (by omega) (by decide)
  rw [t0 0 0 (by omega) (by omega)] at x
  revert x
  decide

/-- Values that meet the hypotheses: -7 and "Hello World!". -/
example : Sensible {} ∧ ({} : Format).newLine = [10, 13] ∧ Writable {} (.int (-7)) ∧ Writable {} (.str TextSketch.hello) ∧
    TextUsart.lines (roundBin 24 126) {} [.int (-7), .int 12] = .ok [45, 55, 10, 13, 49, 50, 10, 13] ∧ ConLine 2 [45, 55] :=
  ⟨⟨by decide, by decide, by decide, by decide⟩, rfl, by simp [Writable], by simp [Writable, TextSketch.hello], by decide +kernel, by decide, by decide⟩

end Atl.Props
