import Verif.Spec.TextBoxAny
import Verif.Props.TextBox
import Verif.Props.UIOutside

/- C104 for every text: shorter than the buffer, with characters outside of the set, and sets with a character twice. -/
namespace Atl.Props
open Atl.UI Atl.UI.Control Atl.Lcd Atl.Spec.Lcd Atl.Spec.Pages Atl.TextBox
open Spec.TextBox (Dialog Key Wide written over)
open Spec.UI (Editor stepPlace charOf)

/-- Bytes a display shows as one character. -/
def PlainByte (c : Nat) : Prop := 0 < c ∧ c < 256 ∧ c ≠ 10 ∧ c ≠ 13

/-- The end of the text or a character that can be shown. -/
def PlainChar (c : Int) : Prop := c = 0 ∨ ∃ m : Nat, PlainByte m ∧ c = toS 8 m

/-- What stays true of the editor. -/
structure EdOk (cs : List Int) (n : Nat) (e : Editor) : Prop where
  len : e.text.length = n + 1
  last : e.text.getD n 0 = 0
  plain : ∀ c ∈ e.text, PlainChar c
  lt : e.cursor < n
  idle : e.editing = false → e.cursor = 0
  bound : ∀ i, e.place = some i → i < cs.length

theorem edOk_look {cs : List Int} {n : Nat} {e : Editor} (h : EdOk cs n e) : EdOk cs n (Editor.look cs e) := by
  unfold Editor.look
  split
  · rename_i hm
    exact ⟨h.len, h.last, h.plain, h.lt, h.idle, fun i hi => by cases hi; exact List.idxOf_lt_length_of_mem hm⟩
  · exact h

theorem edOk_key {cs : List Int} (hcs : ∀ c ∈ cs, PlainChar c) (hn : 0 < cs.length) {n : Nat} {e : Editor} (h : EdOk cs n e) (k : Spec.UI.Key) :
    EdOk cs n (Editor.key cs false n e k) := by
  have change : ∀ up, e.editing = true → EdOk cs n { e with place := stepPlace cs.length false up e.place, text := e.text.set e.cursor (charOf cs (stepPlace cs.length false up e.place)) } := by
    intro up hed
    have hb : ∀ i, stepPlace cs.length false up e.place = some i → i < cs.length := by
      intro i hi
      cases hp : e.place with
      | some j =>
        rw [hp] at hi
        simp only [stepPlace, Option.some.injEq] at hi
        subst hi
        exact turn_lt _ _ _ (h.bound j hp) _
      | none =>
        rw [hp] at hi
        cases up <;> simp [stepPlace] at hi
        omega
    have hpl : PlainChar (charOf cs (stepPlace cs.length false up e.place)) := by
      cases hs : stepPlace cs.length false up e.place with
      | none => exact .inl rfl
      | some i =>
        simp only [charOf]
        rw [getD_lt _ _ (hb i hs)]; exact hcs _ (List.getElem_mem _)
    refine ⟨by simp [h.len], ?_, fun c hc => ?_, h.lt, fun hh => by simp [hed] at hh, hb⟩
    · have := h.lt
      have hl := h.last
      rw [List.getD_eq_getElem?_getD] at hl ⊢
      rw [List.getElem?_set_ne (by omega)]
      exact hl
    · rcases List.mem_or_eq_of_mem_set hc with hc | rfl
      · exact h.plain c hc
      · exact hpl
  have hlt := h.lt
  cases k with
  | up => simp only [Editor.key]; split <;> first | (rename_i hed; exact change true hed) | exact h
  | down => simp only [Editor.key]; split <;> first | (rename_i hed; exact change false hed) | exact h
  | left =>
    simp only [Editor.key]
    split
    · rename_i hc
      exact edOk_look ⟨h.len, h.last, h.plain, by show e.cursor - 1 < n; omega, fun hh => by simp [hc.1] at hh, h.bound⟩
    · exact h
  | right =>
    simp only [Editor.key]
    split
    · rename_i hc
      exact edOk_look ⟨h.len, h.last, h.plain, hc.2, fun hh => by simp [hc.1] at hh, h.bound⟩
    · exact h
  | enter =>
    simp only [Editor.key]
    split
    · exact h
    · exact edOk_look ⟨h.len, h.last, h.plain, by show 0 < n; omega, fun _ => rfl, h.bound⟩
  | exit =>
    simp only [Editor.key]
    split
    · exact ⟨h.len, h.last, h.plain, by show 0 < n; omega, fun _ => rfl, h.bound⟩
    · exact h

/-! ### The control -/

/-- The control is what the dialogue says. -/
structure WideIs (chars : List Nat) (n col : Nat) (w : Wide) (x : Text Int) : Prop where
  pos : x.pos = col
  cap : x.capacity = n
  as : AsEditor (asChars chars) false { x with st := if w.editor.editing then .selected else .focused } w.editor
  st : x.st = if w.editor.editing then .selected else if w.found then .focused else .normal
  ok : EdOk (asChars chars) n w.editor
  reached : w.editor.editing = true → w.found = true

/-- The characters to choose from: visible, not more than the iterator can find. -/
structure Palette (chars : List Nat) : Prop where
  some : 0 < chars.length
  small : chars.length ≤ 128
  plain : ∀ c ∈ chars, PlainByte c

theorem Palette.chars {chars : List Nat} (h : Palette chars) : ∀ c ∈ asChars chars, PlainChar c := by
  intro c hc
  obtain ⟨m, hm, rfl⟩ := List.mem_map.1 hc
  exact .inr ⟨m, h.plain m hm, rfl⟩

theorem with_st (x : Text Int) (s : CState) (h : x.st = s) : { x with st := s } = x := by
  subst h; rfl

theorem text_pos (k : Spec.UI.Key) (x : Text Int) : (nav (keyNav k) x).2.pos = x.pos := by
  obtain ⟨st, pos, text, cap, ops, iter, edit⟩ := x
  cases k <;> cases st <;> first
    | rfl
    | (simp only [keyNav, nav, Text.onNav, Text.tryLeft]; split <;> first | rfl | (split <;> rfl))
    | (simp [keyNav, nav, Text.onNav, Text.upDownNav, Text.inputNav, Text.tryLeft, Text.tryRight, Text.reposition]; try (split <;> rfl))

/-- A key of the editor, for a text that is being edited or can be. -/
theorem wide_editor {chars : List Nat} (hc : Palette chars) {n col : Nat} (hn : n ≤ 255) {w : Wide} {x : Text Int} (h : WideIs chars n col w x)
    (hf : w.found = true) (k : Spec.UI.Key) (hk : (w.editor.key (asChars chars) false n k).editing = true ∨ w.editor.editing = true) :
    WideIs chars n col { w with editor := w.editor.key (asChars chars) false n k } (nav (keyNav k) x).2 := by
  have hst := h.st
  rw [hf] at hst
  simp only [if_true] at hst
  have ha := h.as
  rw [with_st x _ hst] at ha
  have hl : (asChars chars).length = chars.length := by simp [asChars]
  obtain ⟨a, b⟩ := asEditor_key (by rw [hl]; have := hc.small; omega) (by rw [hl]; exact hc.some) x (by rw [h.cap]; exact hn) w.editor ha k
  rw [h.cap] at a b
  have hp : (nav (keyNav k) x).2.pos = x.pos := text_pos k x
  refine ⟨hp.trans h.pos, b, ?_, ?_, edOk_key hc.chars (by rw [hl]; exact hc.some) h.ok k, fun _ => hf⟩
  · rw [with_st _ _ a.st]; exact a
  · rw [a.st]; simp [hf]

theorem wide_found {chars : List Nat} {n col : Nat} {w : Wide} {x : Text Int} (h : WideIs chars n col w x) (he : w.editor.editing = false) (hf : w.found = false) :
    WideIs chars n col { w with found := true } (Text.set .focused x).2 := by
  have hst : x.st = .normal := by rw [h.st, he, hf]; rfl
  have hbf : beforeInput x.st .focused = true := by rw [hst]; rfl
  have e : (Text.set .focused x).2 = { x with edit := 0, st := .focused } := by simp [Text.set, Text.before, hbf]
  rw [e]
  have ha := h.as
  simp only [he, Bool.false_eq_true, if_false] at ha
  refine ⟨h.pos, h.cap, ?_, by simp [he], h.ok, fun _ => rfl⟩
  simp only [he, Bool.false_eq_true, if_false]
  exact ⟨ha.ops, ha.text, (h.ok.idle he).symm, by simp [he], ha.place⟩

/-! ### The page -/

structure WidePage (label1 label2 chars : List Nat) (n col : Nat) (w : Wide) (p : Page Ctl) : Prop where
  page : ∃ pst s0 s1 x, p = boxPage label1 label2 pst s0 s1 w.second w.found x ∧ Seen pst ∧ Seen s0 ∧ Seen s1 ∧ WideIs chars n col w x
  place : w.editor.editing = true → w.second = false

theorem nav_none (x : Text Int) : (nav .none x).2 = x := by simp [nav, Text.onNav, Text.upDownNav, Text.inputNav]

theorem toKey_edit (c : Nav) : (toKey c).edit = none ∧ c = .none ∨ ∃ k, (toKey c).edit = some k ∧ c = keyNav k := by
  cases c
  · exact .inl ⟨rfl, rfl⟩
  all_goals exact .inr ⟨_, rfl, rfl⟩

/-- One command. -/
theorem wide_press {label1 label2 chars : List Nat} (hc : Palette chars) {n col : Nat} (hn : n ≤ 255) {w : Wide} {p : Page Ctl}
    (h : WidePage label1 label2 chars n col w p) (c : Nav) : WidePage label1 label2 chars n col (w.press (asChars chars) n (toKey c)) (nav c p).2 := by
  obtain ⟨⟨pst, s0, s1, x, rfl, e1, e2, e3, hx⟩, hpl⟩ := h
  cases hed : w.editor.editing with
  | true =>
    have hs : w.second = false := hpl hed
    have hf : w.found = true := hx.reached hed
    rw [hs, hf, page_editing label1 label2 pst s0 s1 x (by rw [hx.st, hed]; rfl) c]
    rcases toKey_edit c with ⟨k1, rfl⟩ | ⟨k, k1, rfl⟩
    · have : w.press (asChars chars) n (toKey .none) = w := by simp [Wide.press, hed, k1]
      rw [this, nav_none]
      exact ⟨⟨pst, s0, s1, x, by rw [hs, hf], e1, e2, e3, hx⟩, fun _ => hs⟩
    · have : w.press (asChars chars) n (toKey (keyNav k)) = { w with editor := w.editor.key (asChars chars) false n k } := by simp [Wide.press, hed, k1]
      rw [this]
      exact ⟨⟨pst, s0, s1, _, by rw [hs, hf], e1, e2, e3, wide_editor hc hn hx hf k (.inr hed)⟩, fun _ => hs⟩
  | false =>
    have hst : x.st = .focused ∧ w.found = true ∨ x.st = .normal ∧ w.found = false := by
      rw [hx.st, hed]
      cases w.found <;> simp
    have hst' : x.st = .focused ∨ x.st = .normal := hst.imp And.left And.left
    have rest : (c = .up → w.second = false) → (c = .down → w.second = true) → (c = .left ∨ c = .right → w.second = true ∨ w.found = true) →
        (c = .enter → w.second = true ∨ w.found = false) → w.press (asChars chars) n (toKey c) = w →
        WidePage label1 label2 chars n col (w.press (asChars chars) n (toKey c)) (nav c (boxPage label1 label2 pst s0 s1 w.second w.found x)).2 := by
      intro a1 a2 a3 a4 a5
      rw [a5, page_rest label1 label2 pst s0 s1 w.second w.found x hst c a1 a2 a3 a4]
      exact ⟨⟨pst, s0, s1, x, rfl, e1, e2, e3, hx⟩, hpl⟩
    have row : ∀ tgt, WideIs chars n col { w with second := tgt } x := fun tgt => ⟨hx.pos, hx.cap, hx.as, hx.st, hx.ok, hx.reached⟩
    have find : ∀ left : Bool, w.second = false → w.found = false → WidePage label1 label2 chars n col { w with found := true }
        (nav (if left then .left else .right) (boxPage label1 label2 pst s0 s1 w.second w.found x)).2 := by
      intro left hs hf
      have e : (nav (if left then .left else .right) (boxPage label1 label2 pst s0 s1 w.second w.found x)).2 =
          boxPage label1 label2 pst .focused s1 w.second true (Text.set .focused x).2 := by
        rw [hs, hf, page_find label1 label2 pst s0 s1 e2 x (by simpa [hf] using hst) left]
      rw [e]
      exact ⟨⟨pst, .focused, s1, _, rfl, e1, .inr rfl, e3, wide_found hx hed hf⟩, fun _ => hs⟩
    cases c with
    | none => exact rest (by simp) (by simp) (by simp) (by simp) (by simp [Wide.press, toKey, hed])
    | exit => exact rest (by simp) (by simp) (by simp) (by simp) (by simp [Wide.press, toKey, hed])
    | up =>
      cases hs : w.second with
      | false =>
        have := rest (fun _ => hs) (by simp) (by simp) (by simp) (by cases w; simp_all [Wide.press, toKey])
        rwa [hs] at this
      | true =>
        have e := page_row label1 label2 pst s0 s1 e1 e2 e3 true w.found x hst' false (by simp)
        simp only [Bool.false_eq_true, if_false] at e
        rw [e]
        simp only [Wide.press, hed, Bool.false_eq_true, if_false, toKey]
        exact ⟨⟨.focused, .focused, .normal, x, rfl, .inr rfl, .inr rfl, .inl rfl, row false⟩, fun _ => rfl⟩
    | down =>
      cases hs : w.second with
      | true =>
        have := rest (by simp) (fun _ => hs) (by simp) (by simp) (by cases w; simp_all [Wide.press, toKey])
        rwa [hs] at this
      | false =>
        have e := page_row label1 label2 pst s0 s1 e1 e2 e3 false w.found x hst' true (by simp)
        simp only [if_true] at e
        rw [e]
        simp only [Wide.press, hed, Bool.false_eq_true, if_false, toKey]
        exact ⟨⟨.focused, .normal, .focused, x, rfl, .inr rfl, .inl rfl, .inr rfl, row true⟩, fun hh => by simp [hed] at hh⟩
    | left =>
      by_cases hh : w.second = true ∨ w.found = true
      · refine rest (by simp) (by simp) (fun _ => hh) (by simp) ?_
        rcases hh with hh | hh
        · simp [Wide.press, toKey, hed, hh]
        · obtain ⟨sec, fd, ed, sh⟩ := w
          cases sec <;> simp_all [Wide.press, toKey]
      · simp only [not_or, Bool.not_eq_true] at hh
        have := find true hh.1 hh.2
        simpa [Wide.press, toKey, hed, hh.1] using this
    | right =>
      by_cases hh : w.second = true ∨ w.found = true
      · refine rest (by simp) (by simp) (fun _ => hh) (by simp) ?_
        rcases hh with hh | hh
        · simp [Wide.press, toKey, hed, hh]
        · obtain ⟨sec, fd, ed, sh⟩ := w
          cases sec <;> simp_all [Wide.press, toKey]
      · simp only [not_or, Bool.not_eq_true] at hh
        have := find false hh.1 hh.2
        simpa [Wide.press, toKey, hed, hh.1] using this
    | enter =>
      by_cases hh : w.second = true ∨ w.found = false
      · refine rest (by simp) (by simp) (by simp) (fun _ => hh) ?_
        rcases hh with hh | hh <;> simp [Wide.press, toKey, hed, hh]
      · simp only [not_or, Bool.not_eq_true, Bool.not_eq_false] at hh
        have hxs : x.st = .focused := by simpa [hh.2] using hst
        have ek : w.press (asChars chars) n (toKey .enter) = { w with editor := w.editor.key (asChars chars) false n .enter } := by
          simp [Wide.press, toKey, hed, hh.1, hh.2]
        rw [hh.1, hh.2, page_start_edit label1 label2 pst s0 s1 x hxs, ek]
        refine ⟨⟨pst, s0, s1, _, by rw [hh.1, hh.2]; rfl, e1, e2, e3, wide_editor hc hn hx hh.2 .enter (.inl ?_)⟩, fun _ => hh.1⟩
        simp only [Editor.key, hed, Bool.false_eq_true, if_false, Editor.look]
        split <;> rfl

/-! ### What the page draws -/

theorem takeWhile_asChars (t : List Int) (h : ∀ c ∈ t, PlainChar c) : asChars (written t) = t.takeWhile (· ≠ 0) ∧ (∀ c ∈ written t, PlainByte c) := by
  induction t with
  | nil => exact ⟨rfl, by simp [written]⟩
  | cons c t ih =>
    obtain ⟨a, b⟩ := ih (fun c hc => h c (by simp [hc]))
    rcases h c (by simp) with rfl | ⟨m, hm, rfl⟩
    · exact ⟨by simp [written, asChars], by simp [written]⟩
    · have hm' := hm
      obtain ⟨h1, h2, h3, h4⟩ := hm'
      have e0 : toS 8 (m : Int) ≠ 0 := by unfold toS; omega
      have e1 : ((toS 8 (m : Int)) % 256).toNat = m := by unfold toS; omega
      have e2 : written (toS 8 (m : Int) :: t) = m :: written t := by
        simp only [written, List.takeWhile_cons, ne_eq, e0, not_false_eq_true, decide_true, if_true, List.map_cons, e1]
      rw [e2]
      refine ⟨?_, ?_⟩
      · simp only [List.takeWhile_cons, ne_eq, e0, not_false_eq_true, decide_true, if_true, ← a]
        rfl
      · intro x hx
        rcases List.mem_cons.1 hx with rfl | hx
        · exact hm
        · exact b x hx

theorem written_len (t : List Int) (n : Nat) (hl : t.length = n + 1) (h0 : t.getD n 0 = 0) : (written t).length ≤ n ∧ 0 ∈ t := by
  have hm : 0 ∈ t := by
    rw [getD_lt _ _ (by omega)] at h0
    rw [← h0]; exact List.getElem_mem _
  refine ⟨?_, hm⟩
  simp only [written, List.length_map]
  have hle : (t.takeWhile (· ≠ 0)).length ≤ t.length := (List.takeWhile_sublist _).length_le
  rcases Nat.lt_or_ge n (t.takeWhile (· ≠ 0)).length with h | h
  · exfalso
    have hp := List.takeWhile_prefix (l := t) (fun c : Int => decide (c ≠ 0))
    have he := hp.eq_of_length (by omega)
    have : (0 : Int) ∈ t.takeWhile (fun c => decide (c ≠ 0)) := by rw [he]; exact hm
    have := List.all_eq_true.1 List.all_takeWhile 0 this
    simp at this
  · exact h

theorem wide_lines {label1 label2 chars : List Nat} {n col : Nat} {w : Wide} {x : Text Int} (hx : WideIs chars n col w x)
    (pst s0 s1 : CState) (e2 : Seen s0) (e3 : Seen s1) (cur c0 : Option Nat) :
    Panel.displayVertical .normal ({ kind := .vertical, st := pst, cur := cur, kids :=
      [{ kind := .horizontal, st := s0, cur := c0, kids := [.inl (label label1), .inr x] },
       { kind := .horizontal, st := s1, pos := 1, kids := [.inl (label label2)] }] } : Panel (Panel Ctl)) = drawn label1 label2 col (written w.editor.text) := by
  have ht : x.text = w.editor.text := hx.as.text
  have e0 : cString x.text = .write (asChars (written w.editor.text)) := by
    rw [ht, (takeWhile_asChars _ hx.ok.plain).1]
    unfold cString
    rw [if_pos (written_len _ n hx.ok.len hx.ok.last).2]
  have hvis : x.st ≠ .hidden := by
    rw [hx.st]
    split
    · simp
    · split <;> simp
  have h0 : ∀ s, Seen s → (s == CState.hidden) = false := by rintro s (rfl | rfl) <;> rfl
  have hv : (x.st == CState.hidden) = false := by simpa using hvis
  have d0 : Panel.displayHorizontal .normal ({ kind := .horizontal, st := s0, cur := c0, kids := [.inl (label label1), .inr x] } : Panel Ctl)
      = [.goTo 255 0, .write (asChars label1), .goTo 255 col, .write (asChars (written w.editor.text))] := by
    have : display .normal (Sum.inr x : Ctl) = [.write (asChars (written w.editor.text))] := by
      show Text.display .normal x = _
      simp [Text.display, e0]
    have hs : state (Sum.inr x : Ctl) = x.st := rfl
    have hp : pos (Sum.inr x : Ctl) = col := hx.pos
    simp only [Panel.displayHorizontal, List.flatMap_cons, List.flatMap_nil, hs, hv, this, hp]
    rfl
  have hs0 := h0 s0 e2
  have hs1 := h0 s1 e3
  show (if (s0 == CState.hidden) = true then [] else Out.goTo 0 0 :: Panel.displayHorizontal .normal _) ++
    ((if (s1 == CState.hidden) = true then [] else Out.goTo 1 0 :: Panel.displayHorizontal .normal _) ++ []) = _
  rw [hs0, hs1, d0]
  rfl

theorem wide_draws {label1 label2 chars : List Nat} {n col : Nat} (hcol : col + n ≤ 255) {w : Wide} {p : Page Ctl}
    (h : WidePage label1 label2 chars n col w p) (m : Mode) (sh : List Nat) :
    display m p = drawn label1 label2 col (written w.editor.text) ++ pointed col (Wide.dialog { w with shown := sh }) := by
  obtain ⟨⟨pst, s0, s1, x, rfl, e1, e2, e3, hx⟩, hpl⟩ := h
  have hcur : x.edit = w.editor.cursor := hx.as.cursor
  have hm : (x.pos + x.edit) % 256 = col + w.editor.cursor := by
    have := hx.ok.lt
    rw [hx.pos, hcur, Nat.mod_eq_of_lt (by omega)]
  have hst := hx.st
  have hsel : w.editor.editing = (x.st == CState.selected) := by
    rw [hst]
    cases w.editor.editing <;> cases w.found <;> rfl
  have d1 : Panel.displayVertical .normal (boxPage label1 label2 pst s0 s1 w.second w.found x).panel = drawn label1 label2 col (written w.editor.text) :=
    wide_lines hx pst s0 s1 e2 e3 _ _
  show Panel.displayVertical .normal _ ++ Page.displayCursor _ = _
  rw [d1]
  congr 1
  have hsome : (Wide.dialog { w with shown := sh }).place.isSome = w.editor.editing := by
    unfold Wide.dialog
    cases w.editor.editing <;> rfl
  have hget : (Wide.dialog { w with shown := sh }).place.getD 0 = w.editor.cursor := by
    unfold Wide.dialog
    cases he : w.editor.editing with
    | true => rfl
    | false => exact (hx.ok.idle he).symm
  unfold pointed
  rw [hsome, hget]
  show Page.displayCursor _ = if (w.found && !w.second) = true then _ else _
  cases hs : w.second with
  | true => cases w.found <;> rfl
  | false =>
    cases hf : w.found with
    | false => rfl
    | true =>
      have hact : x.st.active = true := by
        rw [hst, hf]
        cases w.editor.editing <;> rfl
      show Out.setCursor 0 x.pos (x.st == .selected) :: Text.display .cursor x = _
      rw [hx.pos] at hm
      simp only [Text.display, hact, hx.pos, hm, hsel]
      rfl

/-! ### The display -/

/-- The texts of the sketch fit the display. -/
structure HasRoom (rows : Nat) (label1 label2 chars : List Nat) (n col : Nat) : Prop where
  two : 2 ≤ rows
  four : rows ≤ 4
  first : FitsLine rows label1
  second : FitsLine rows label2
  behind : label1.length ≤ col
  room : col + n ≤ columns rows
  pos : 0 < n
  choice : Palette chars

theorem over_len {old new : List Nat} {n : Nat} (h : old.length = n) (hn : new.length ≤ n) : (over old new).length = n := by
  simp only [over, List.length_append, List.length_drop]; omega

theorem over_getD (old new : List Nat) (i : Nat) : (over old new).getD i 0 = if i < new.length then new.getD i 0 else old.getD i 0 := by
  simp only [over, List.getD_eq_getElem?_getD]
  by_cases h : i < new.length
  · rw [if_pos h, List.getElem?_append_left h]
  · rw [if_neg h, List.getElem?_append_right (by omega), List.getElem?_drop, show new.length + (i - new.length) = i by omega]

/-- One round of the sketch. -/
structure WideRunning (rows : Nat) (label1 label2 chars : List Nat) (n col : Nat) (w : Wide) (x : TextBox.State) (d : Device) : Prop where
  page : WidePage label1 label2 chars n col w x.page
  lcd : Agrees rows label1 label2 col w.dialog x.lcd d w.dialog.place.isSome
  shown : w.shown.length = n

/-- The same page with another record of what the display shows. -/
theorem WidePage.shown {label1 label2 chars : List Nat} {n col : Nat} {w : Wide} {p : Page Ctl} (h : WidePage label1 label2 chars n col w p) (sh : List Nat) :
    WidePage label1 label2 chars n col { w with shown := sh } p := by
  obtain ⟨⟨pst, s0, s1, x, e, e1, e2, e3, hx⟩, hpl⟩ := h
  exact ⟨⟨pst, s0, s1, x, e, e1, e2, e3, ⟨hx.pos, hx.cap, hx.as, hx.st, hx.ok, hx.reached⟩⟩, hpl⟩

theorem dialog_isSome (w : Wide) : w.dialog.place.isSome = w.editor.editing := by
  unfold Wide.dialog
  cases w.editor.editing <;> rfl

theorem dialog_place {chars : List Nat} {n col : Nat} {w : Wide} {x : Text Int} (hx : WideIs chars n col w x) (sh : List Nat) :
    (Wide.dialog { w with shown := sh }).place.getD 0 < n := by
  unfold Wide.dialog
  have := hx.ok.lt
  cases he : w.editor.editing with
  | true => exact this
  | false => show 0 < n; omega

/-- A key that leaves the cursor hidden was not pressed while editing. -/
theorem wide_hidden (cs : List Int) (n : Nat) (w : Wide) (k : Key) (hr : w.editor.editing = true → w.found = true ∧ w.second = false)
    (h : ((w.press cs n k).found && !(w.press cs n k).second) = false) : w.editor.editing = false := by
  cases he : w.editor.editing with
  | false => rfl
  | true =>
    obtain ⟨h1, h2⟩ := hr he
    exfalso
    revert h
    unfold Wide.press
    rw [he]
    cases hk : k.edit <;> simp [h1, h2]

theorem wide_command {rows : Nat} {label1 label2 chars : List Nat} {n col : Nat} (hF : HasRoom rows label1 label2 chars n col) {w : Wide}
    {x : TextBox.State} {d : Device} (h : WideRunning rows label1 label2 chars n col w x d) (c : Nav) :
    ∃ x' bs, TextBox.command rows x c = .ok (x', bs.map toCall) ∧ (∀ b ∈ bs, b.2 < 256 ∧ ¬ selects8 b) ∧
      WideRunning rows label1 label2 chars n col (w.key (asChars chars) n (toKey c)) x' (execAll d bs) := by
  obtain ⟨-, hc40⟩ := columns_le rows (by have := hF.two; omega) hF.four
  have hroom := hF.room
  obtain ⟨_, _, _, _, -, -, -, -, hx0⟩ := h.page.page
  have hp := wide_press hF.choice (by omega) h.page c
  obtain ⟨_, _, _, _, -, -, -, -, hx⟩ := hp.page
  have hsame : (w.press (asChars chars) n (toKey c)).shown = w.shown := by
    unfold Wide.press
    split
    · split <;> rfl
    · split <;> first | rfl | (split <;> rfl)
  obtain ⟨t, f, B, ht, -, hb⟩ := h.lcd.box
  have hb' : f.blink = w.editor.editing := by rw [hb, dialog_isSome]; split <;> rfl
  have hwl : w.dialog.text.length = n := h.shown
  have blank : BlankElse label1 label2 n col t := by
    intro r c k1 k2 k3
    rw [ht, alone_rows _ _ _ hF.behind, if_neg k1, hwl, if_neg k2, if_neg k3]
  generalize hv : w.press (asChars chars) n (toKey c) = v at hp hx hsame
  have hl := (written_len _ n hx.ok.len hx.ok.last).1
  have hpb := (takeWhile_asChars _ hx.ok.plain).2
  have hk : w.key (asChars chars) n (toKey c) = { v with shown := over w.shown (written v.editor.text) } := by
    simp only [Wide.key, hv, hsame]
  obtain ⟨s', bs, e, vv, A⟩ := box_page_of hF.two hF.four hF.first hF.second hF.behind hF.room hF.pos (Wide.dialog { v with shown := over w.shown (written v.editor.text) })
    (over_len h.shown hl) (written v.editor.text) hl (fun c hc => (hpb c hc).2) (dialog_place hx _) x.lcd d t f B blank
    (fun i hi => by rw [show (Wide.dialog { v with shown := over w.shown (written v.editor.text) }).text = over w.shown (written v.editor.text) from rfl, over_getD, if_pos hi])
    (fun i h1 h2 => by
      rw [show (Wide.dialog { v with shown := over w.shown (written v.editor.text) }).text = over w.shown (written v.editor.text) from rfl, over_getD, if_neg (by omega),
        ht, alone_rows _ _ _ hF.behind]
      have hsh := h.shown
      have k2 : 0 = 0 ∧ col ≤ col + i ∧ col + i < col + w.dialog.text.length := by omega
      rw [if_neg (by omega), if_pos k2, Nat.add_sub_cancel_left]
      rfl)
  refine ⟨⟨(nav c x.page).2, s'⟩, bs, ?_, vv, ?_⟩
  · simp only [TextBox.command, wide_draws (by omega) hp .normal (over w.shown (written v.editor.text)), e, Res.bind_ok]
  rw [hk]
  refine ⟨hp.shown _, ?_, over_len h.shown hl⟩
  obtain ⟨⟨t', f', B', ht', hc', hb''⟩, hac⟩ := A
  refine ⟨⟨t', f', B', ht', hc', ?_⟩, hac⟩
  rw [hb'']
  split
  · rfl
  · rename_i hvis
    have hn := wide_hidden (asChars chars) n w (toKey c) (fun hs => ⟨hx0.reached hs, h.page.place hs⟩) (by rw [hv]; simpa [Wide.dialog] using hvis)
    rw [hb', hn, dialog_isSome]
    cases hed : v.editor.editing with
    | false => rfl
    | true =>
      exfalso
      have h1 := hx.reached hed
      have h2 := hp.place hed
      simp [Wide.dialog, h1, h2] at hvis

theorem wide_run {rows : Nat} {label1 label2 chars : List Nat} {n col : Nat} (hF : HasRoom rows label1 label2 chars n col) (cmds : List Nav) :
    ∀ {w : Wide} {x : TextBox.State} {d : Device}, WideRunning rows label1 label2 chars n col w x d →
    ∃ x' bs, TextBox.run rows x cmds = .ok (x', bs.map toCall) ∧ (∀ b ∈ bs, b.2 < 256 ∧ ¬ selects8 b) ∧
      WideRunning rows label1 label2 chars n col (w.keys (asChars chars) n (cmds.map toKey)) x' (execAll d bs) := by
  induction cmds with
  | nil => intro w x d h; exact ⟨x, [], rfl, by simp, h⟩
  | cons c cs ih =>
    intro w x d h
    obtain ⟨x1, b1, e1, v1, h1⟩ := wide_command hF h c
    obtain ⟨x2, b2, e2, v2, h2⟩ := ih h1
    refine ⟨x2, b1 ++ b2, by simp only [TextBox.run, e1, e2, Res.bind_ok, List.map_append], ?_, ?_⟩
    · intro y hy
      rcases List.mem_append.1 hy with hy | hy
      · exact v1 y hy
      · exact v2 y hy
    · rw [show execAll d (b1 ++ b2) = execAll (execAll d b1) b2 by simp only [execAll, List.foldl_append]]
      exact h2

/-- A string in its buffer: cut at the size, zeros behind. -/
def inBuffer (n : Nat) (text : List Nat) : List Int := asChars (text.take n) ++ List.replicate (n + 1 - text.length) 0 ++ if n < text.length then [0] else []

theorem buffer_any (n : Nat) (text : List Nat) :
    ∃ b s, FixedString.init n ⟨List.replicate (n + 1) 0, 0⟩ = .ok b ∧ FixedString.copyFrom n b (asChars text) = .ok s ∧ s.items = inBuffer n text := by
  obtain ⟨s0, e0, hl, h0, _⟩ := init_inv n ⟨List.replicate (n + 1) 0, 0⟩ (by simp)
  have hd : s0.items.drop n = [0] := by
    rw [List.drop_eq_getElem_cons (by omega), List.drop_of_length_le (by omega)]
    rw [List.getElem?_eq_getElem (by omega)] at h0
    simpa using h0
  refine ⟨s0, _, e0, copyFrom_eq n s0 _ hl, ?_⟩
  simp only [hd, inBuffer, asChars, List.length_map, List.map_take]
  by_cases h : n < text.length
  · rw [if_pos h, show n - text.length = 0 by omega, show n + 1 - text.length = 0 by omega]
  · rw [if_neg h, List.append_nil, show n + 1 - text.length = (n - text.length) + 1 by omega, List.replicate_succ', List.append_assoc]

theorem inBuffer_ok (n : Nat) (hn : 0 < n) (chars text : List Nat) (ht : ∀ c ∈ text, PlainByte c) : EdOk (asChars chars) n { text := inBuffer n text } := by
  have hlen : (inBuffer n text).length = n + 1 := by
    unfold inBuffer asChars
    split <;> simp <;> omega
  refine ⟨hlen, ?_, ?_, hn, fun _ => rfl, fun i hi => by cases hi⟩
  · show (inBuffer n text).getD n 0 = 0
    have hal : (asChars (text.take n)).length = min n text.length := by simp [asChars]
    unfold inBuffer
    rw [List.getD_eq_getElem?_getD]
    by_cases h : n < text.length
    · rw [if_pos h, List.getElem?_append_right (by simp [hal]; omega)]
      simp [hal]
    · rw [if_neg h, List.append_nil, List.getElem?_append_right (by omega), List.getElem?_replicate]
      split <;> rfl
  · intro c hc
    simp only [inBuffer, List.mem_append] at hc
    rcases hc with (hc | hc) | hc
    · obtain ⟨m, hm, rfl⟩ := List.mem_map.1 hc
      exact .inr ⟨m, ht m (List.mem_of_mem_take hm), rfl⟩
    · exact .inl (List.eq_of_mem_replicate hc)
    · split at hc
      · exact .inl (by simpa using hc)
      · simp at hc

theorem wide_start {rows : Nat} {label1 label2 chars : List Nat} {n col : Nat} (hF : HasRoom rows label1 label2 chars n col) (text : List Nat)
    (ht : ∀ c ∈ text, PlainByte c) (low : Nat → Nat) (amb : Nat → Bool) (d : Device) :
    ∃ x cs d', TextBox.setup rows label1 label2 chars n col text = .ok (x, cs) ∧ receiveAll low amb 0 d (nibbles false cs) = some d' ∧
      WideRunning rows label1 label2 chars n col (Wide.start n (inBuffer n text)) x d' := by
  obtain ⟨-, hc40⟩ := columns_le rows (by have := hF.two; omega) hF.four
  have hroom := hF.room
  obtain ⟨s, cs, d1, e1, r1, sh⟩ := start_shows rows (by have := hF.two; omega) low amb d
  obtain ⟨b0, b, e2, e3, hb⟩ := buffer_any n text
  have hok := inBuffer_ok n hF.pos chars text ht
  have hx : WideIs chars n col (Wide.start n (inBuffer n text)) (text1 chars n col b.items) := by
    refine ⟨rfl, ?_, ⟨?_, hb, rfl, rfl, rfl⟩, rfl, hok, fun hh => by cases hh⟩
    · show fixedCapacity n = n
      unfold fixedCapacity
      omega
    · show charIter (Iterator.ofStatic 0 (asChars chars)) false = _
      rw [ofStatic_eq _ (by simpa [asChars] using hF.choice.small)]
  have hl := (written_len _ n hok.len hok.last).1
  have hpb := (takeWhile_asChars _ hok.plain).2
  have hd : display .normal (TextBox.page label1 label2 (text1 chars n col b.items)) =
      drawn label1 label2 col (written (inBuffer n text)) ++ pointed col (Wide.start n (inBuffer n text)).dialog := by
    show Panel.displayVertical .normal _ ++ Page.displayCursor _ = _
    have := wide_lines (label1 := label1) (label2 := label2) hx .normal .normal .normal (.inl rfl) (.inl rfl) none none
    rw [show (TextBox.page label1 label2 (text1 chars n col b.items)).panel = _ from rfl] at *
    exact congrArg₂ (· ++ ·) this rfl
  have box : Box rows s d1 (fun _ _ => 32) sketchFlags := by
    have tr := sh.onLcd.tracks
    exact ⟨sh.aligned, tr.cg, tr.inc, tr.two, tr.text, sh.regs, sh.flags, rfl, sh.shift, sh.window⟩
  have t32 : toU 8 (32 : Int) = 32 := by with_unfolding_all rfl
  have hol : (over (List.replicate n 32) (written (inBuffer n text))).length = n := over_len (by simp) hl
  obtain ⟨s', bs, e, v, A⟩ := box_page_of hF.two hF.four hF.first hF.second hF.behind hF.room hF.pos (Wide.start n (inBuffer n text)).dialog
    hol (written (inBuffer n text)) hl (fun c hc => (hpb c hc).2) hF.pos s d1 _ _ box (fun _ _ _ _ _ => t32)
    (fun i hi => by
      rw [show (Wide.start n (inBuffer n text)).dialog.text = over (List.replicate n 32) (written (inBuffer n text)) from rfl, over_getD, if_pos hi])
    (fun i h1 h2 => by
      rw [show (Wide.start n (inBuffer n text)).dialog.text = over (List.replicate n 32) (written (inBuffer n text)) from rfl, over_getD, if_neg (by omega), t32,
        getD_lt _ _ (by simpa using h2)]
      simp)
  refine ⟨⟨(nav .down (TextBox.page label1 label2 (text1 chars n col b.items))).2, s'⟩, cs ++ bs.map toCall, execAll d1 bs, ?_, receive_more sh.aligned r1 bs v,
    ⟨⟨?_, fun hh => by cases hh⟩, A, hol⟩⟩
  · simp only [TextBox.setup, e1, e2, Res.bind_ok, hd]
    rw [show (text.map fun c : Nat => toS 8 c) = asChars text from rfl, e3]
    simp only [Res.bind_ok, hd, e]
  · refine ⟨_, _, _, _, rfl, ?_, ?_, ?_, hx⟩ <;> first | exact .inl rfl | exact .inr rfl

/-- **C104, exact for every text.** The TextBox example on a display of 2 to 4 rows in any state, with any text whatever its length and its characters, a set of up
    to 128 characters (also with one of them twice) and any sequence of commands: the program meets no undefined behaviour, and the display shows what the
    wide dialogue prescribes: the buffer up to its first zero, written over what was there, the cursor on the place being edited, also behind the text. -/
theorem c104_any_exact (rows : Nat) (label1 label2 chars : List Nat) (n col : Nat) (hF : HasRoom rows label1 label2 chars n col) (text : List Nat)
    (ht : ∀ c ∈ text, PlainByte c) (d : Device) (a : Lines) (he : a.e = true) (hw : a.rw = false) (hrs : a.rs = false)
    (low : Nat → Nat) (amb : Nat → Bool) (cmds : List Nav) :
    ∃ x cs d', TextBox.program rows label1 label2 chars n col text cmds = .ok (x, cs) ∧
      receiveAll low amb 0 d (latches a (Parallel.levels a (Parallel.calls cs))) = some d' ∧
      Spec.TextBox.Visible rows d' label1 label2 col ((Wide.start n (inBuffer n text)).keys (asChars chars) n (cmds.map toKey)).dialog := by
  obtain ⟨x, cs, d1, e1, r1, h1⟩ := wide_start hF text ht low amb d
  obtain ⟨x', bs, e2, v, h2⟩ := wide_run hF cmds h1
  obtain ⟨_, _, B, -⟩ := h1.lcd.box
  refine ⟨x', cs ++ bs.map toCall, execAll d1 bs, by simp only [TextBox.program, e1, e2, Res.bind_ok], ?_, h2.lcd.visible⟩
  rw [Parallel.calls_spec a he hw, hrs]
  exact receive_more B.aligned r1 bs v

example := c104_any_exact 2 [78, 58] [79] [65, 66, 67] 3 4
  ⟨by decide, by decide, ⟨by decide, by decide⟩, ⟨by decide, by decide⟩, by decide, by decide, by decide, ⟨by decide, by decide, by simp [PlainByte]⟩⟩ [65]
  (by simp [PlainByte]) powerUp ⟨false, false, true, true, false, true, true⟩ rfl rfl rfl (fun _ => 3) (fun t => t % 2 == 0) [.right, .enter, .right, .up]

/-! ### Texts made of characters of the set -/

theorem takeWhile_set_le (t : List Int) (i : Nat) (v : Int) (hv : v ≠ 0) :
    (t.takeWhile (· ≠ 0)).length ≤ ((t.set i v).takeWhile (· ≠ 0)).length := by
  induction t generalizing i with
  | nil => simp
  | cons c t ih =>
    cases i with
    | zero =>
      by_cases hc : c = 0 <;> simp [List.takeWhile_cons, hc, hv]
    | succ i =>
      by_cases hc : c = 0
      · simp [List.takeWhile_cons, hc]
      · simpa [List.takeWhile_cons, hc] using ih i

/-- Everything shown is the text; the editor has a place in the set unless there is no character under the cursor. -/
structure TidyWide (cs : List Int) (n : Nat) (w : Wide) : Prop where
  ok : EdOk cs n w.editor
  set : ∀ c ∈ w.editor.text, c = 0 ∨ c ∈ cs
  place : w.editor.editing = true → w.editor.place = none → w.editor.text.getD w.editor.cursor 0 = 0
  shown : w.shown = written w.editor.text ++ List.replicate (n - (written w.editor.text).length) 32

theorem tidy_look {cs : List Int} {e : Editor} (hs : ∀ c ∈ e.text, c = 0 ∨ c ∈ cs) :
    (Editor.look cs e).text = e.text ∧ ((Editor.look cs e).place = none → (Editor.look cs e).text.getD (Editor.look cs e).cursor 0 = 0) := by
  unfold Editor.look
  split
  · exact ⟨rfl, fun h => by cases h⟩
  · rename_i hm
    refine ⟨rfl, fun _ => ?_⟩
    by_cases hl : e.cursor < e.text.length
    · rw [getD_lt _ _ hl] at hm ⊢
      exact (hs _ (List.getElem_mem hl)).resolve_right hm
    · rw [List.getD_eq_getElem?_getD, List.getElem?_eq_none (by omega)]; rfl

/-- A key changes a text from the set only by putting a character of the set into it. -/
theorem tidy_editor {cs : List Int} (h0 : 0 ∉ cs) (hn : 0 < cs.length) {n : Nat} {e : Editor} (hok : EdOk cs n e) (hs : ∀ c ∈ e.text, c = 0 ∨ c ∈ cs)
    (hp : e.editing = true → e.place = none → e.text.getD e.cursor 0 = 0) (k : Spec.UI.Key) :
    let f := Editor.key cs false n e k
    (f.text = e.text ∨ ∃ i v, v ∈ cs ∧ f.text = e.text.set i v) ∧ (f.editing = true → f.place = none → f.text.getD f.cursor 0 = 0) := by
  have look : ∀ g : Editor, g.text = e.text → ((Editor.look cs g).text = e.text ∨ ∃ i v, v ∈ cs ∧ (Editor.look cs g).text = e.text.set i v) ∧
      ((Editor.look cs g).editing = true → (Editor.look cs g).place = none → (Editor.look cs g).text.getD (Editor.look cs g).cursor 0 = 0) := by
    intro g hg
    obtain ⟨a, b⟩ := tidy_look (cs := cs) (e := g) (by rw [hg]; exact hs)
    exact ⟨.inl (a.trans hg), fun _ => b⟩
  have change : ∀ up, e.editing = true →
      let f : Editor := { e with place := stepPlace cs.length false up e.place, text := e.text.set e.cursor (charOf cs (stepPlace cs.length false up e.place)) }
      (f.text = e.text ∨ ∃ i v, v ∈ cs ∧ f.text = e.text.set i v) ∧ (f.editing = true → f.place = none → f.text.getD f.cursor 0 = 0) := by
    intro up hed f
    cases hsp : stepPlace cs.length false up e.place with
    | some i =>
      have hi : i < cs.length := by
        cases hpl : e.place with
        | some j =>
          rw [hpl] at hsp
          simp only [stepPlace, Option.some.injEq] at hsp
          subst hsp
          exact turn_lt _ _ _ (hok.bound j hpl) _
        | none =>
          rw [hpl] at hsp
          cases up <;> simp [stepPlace] at hsp
          omega
      refine ⟨.inr ⟨e.cursor, charOf cs (some i), ?_, by simp only [f, hsp]⟩, fun _ hh => ?_⟩
      · simp only [charOf]
        rw [getD_lt _ _ hi]; exact List.getElem_mem _
      · simp only [f, hsp] at hh; cases hh
    | none =>
      have hpl : e.place = none := by
        cases hpl : e.place with
        | none => rfl
        | some j => rw [hpl] at hsp; simp [stepPlace] at hsp
      have hz := hp hed hpl
      have hlt : e.cursor < e.text.length := by have := hok.lt; have := hok.len; omega
      have hset : f.text = e.text := by
        simp only [f, hsp, charOf]
        rw [getD_lt _ _ hlt] at hz
        rw [← hz, List.set_getElem_self]
      exact ⟨.inl hset, fun _ _ => by rw [hset]; exact hz⟩
  cases k with
  | up => simp only [Editor.key]; split <;> first | (rename_i hed; exact change true hed) | exact ⟨.inl rfl, hp⟩
  | down => simp only [Editor.key]; split <;> first | (rename_i hed; exact change false hed) | exact ⟨.inl rfl, hp⟩
  | left => simp only [Editor.key]; split <;> first | exact look _ rfl | exact ⟨.inl rfl, hp⟩
  | right => simp only [Editor.key]; split <;> first | exact look _ rfl | exact ⟨.inl rfl, hp⟩
  | enter => simp only [Editor.key]; split <;> first | exact ⟨.inl rfl, hp⟩ | exact look _ rfl
  | exit => simp only [Editor.key]; split <;> first | exact ⟨.inl rfl, fun hh => by cases hh⟩ | exact ⟨.inl rfl, hp⟩

theorem over_tidy (a b : List Nat) (n : Nat) (hab : a.length ≤ b.length) : over (a ++ List.replicate (n - a.length) 32) b = b ++ List.replicate (n - b.length) 32 := by
  simp only [over, List.append_cancel_left_eq]
  rw [List.drop_append, List.drop_of_length_le hab, List.nil_append, List.drop_replicate]
  congr 1
  omega

theorem tidy_key {cs : List Int} (h0 : 0 ∉ cs) (hcs : ∀ c ∈ cs, PlainChar c) (hn : 0 < cs.length) {n : Nat} {w : Wide} (h : TidyWide cs n w) (k : Key) : TidyWide cs n (w.key cs n k) := by
  have same : ∀ v : Wide, v.editor = w.editor → v.shown = w.shown → TidyWide cs n { v with shown := over v.shown (written v.editor.text) } := by
    intro v he hs
    refine ⟨by rw [he]; exact h.ok, by rw [he]; exact h.set, by rw [he]; exact h.place, ?_⟩
    show over v.shown (written v.editor.text) = _
    rw [hs, he, h.shown, over_tidy _ _ _ (Nat.le_refl _)]
  have key : ∀ e : Spec.UI.Key, TidyWide cs n { w with editor := w.editor.key cs false n e, shown := over w.shown (written (w.editor.key cs false n e).text) } := by
    intro e
    obtain ⟨a, b⟩ := tidy_editor h0 hn h.ok h.set h.place e
    refine ⟨edOk_key hcs hn h.ok e, ?_, b, ?_⟩
    · rcases a with a | ⟨i, v, hv, a⟩
      · show ∀ c ∈ (w.editor.key cs false n e).text, _
        rw [a]; exact h.set
      · show ∀ c ∈ (w.editor.key cs false n e).text, _
        rw [a]
        intro c hc
        rcases List.mem_or_eq_of_mem_set hc with hc | rfl
        · exact h.set c hc
        · exact .inr hv
    · show over w.shown (written (w.editor.key cs false n e).text) = _
      rw [h.shown]
      refine over_tidy _ _ _ ?_
      simp only [written, List.length_map]
      rcases a with a | ⟨i, v, hv, a⟩
      · rw [a]
      · rw [a]
        exact takeWhile_set_le _ _ _ (fun hh => h0 (hh ▸ hv))
  unfold Wide.key Wide.press
  split
  · cases hk : k.edit with
    | none => exact same w rfl rfl
    | some e => exact key e
  · cases k <;> simp only
    · exact same w rfl rfl
    · exact same { w with second := false } rfl rfl
    · exact same { w with second := true } rfl rfl
    · split
      · exact same w rfl rfl
      · exact same { w with found := true } rfl rfl
    · split
      · exact same w rfl rfl
      · exact same { w with found := true } rfl rfl
    · split
      · exact key .enter
      · exact same w rfl rfl
    · exact same w rfl rfl

/-- **C104 for every text from the set.** When the characters of the text are in the set, the display always shows the text as it is in the buffer and blanks behind
    it, however short the text is and wherever the user goes: nothing else ever stands there. -/
theorem c104_shown (chars : List Nat) (hc : Palette chars) (n : Nat) (hn : 0 < n) (text : List Nat) (hm : ∀ c ∈ text, c ∈ chars) (ks : List Key) :
    let w := (Wide.start n (inBuffer n text)).keys (asChars chars) n ks
    w.shown = written w.editor.text ++ List.replicate (n - (written w.editor.text).length) 32 ∧ (∀ c ∈ written w.editor.text, c ∈ chars) := by
  have h0 : (0 : Int) ∉ asChars chars := by
    intro hh
    obtain ⟨m, hm, e⟩ := List.mem_map.1 hh
    obtain ⟨h1, h2, -⟩ := hc.plain m hm
    unfold toS at e
    omega
  have hl : 0 < (asChars chars).length := by simpa [asChars] using hc.some
  have hok := inBuffer_ok n hn chars text (fun c hcm => hc.plain c (hm c hcm))
  have start : TidyWide (asChars chars) n (Wide.start n (inBuffer n text)) := by
    refine ⟨hok, ?_, fun hh => (by cases hh), ?_⟩
    · intro c hcm
      simp only [Wide.start, inBuffer, List.mem_append] at hcm
      rcases hcm with (hcm | hcm) | hcm
      · obtain ⟨m, hm', rfl⟩ := List.mem_map.1 hcm
        exact .inr (List.mem_map.2 ⟨m, hm m (List.mem_of_mem_take hm'), rfl⟩)
      · exact .inl (List.eq_of_mem_replicate hcm)
      · split at hcm
        · exact .inl (by simpa using hcm)
        · simp at hcm
    · have := over_tidy [] (written (inBuffer n text)) n (by simp)
      simpa [Wide.start] using this
  have run : ∀ (ks : List Key) (w : Wide), TidyWide (asChars chars) n w → TidyWide (asChars chars) n (w.keys (asChars chars) n ks) := by
    intro ks
    induction ks with
    | nil => intro w h; exact h
    | cons k ks ih => intro w h; exact ih _ (tidy_key h0 hc.chars hl h k)
  have := run ks _ start
  refine ⟨this.shown, fun c hcm => ?_⟩
  obtain ⟨c', hc', rfl⟩ := List.mem_map.1 hcm
  have hnz : c' ≠ 0 := by
    have := List.all_eq_true.1 List.all_takeWhile c' hc'
    simpa using this
  rcases this.set c' ((List.takeWhile_sublist _).subset hc') with h | h
  · exact absurd h hnz
  · obtain ⟨m, hm, rfl⟩ := List.mem_map.1 h
    have := hc.plain m hm
    have e : (toS 8 (m : Int) % 256).toNat = m := by obtain ⟨-, h2, -⟩ := this; unfold toS; omega
    rw [e]; exact hm

/-- Both theorems at work: "A" in a buffer for three characters of the set ABC, two steps to the right, two times Up (B, then C), back one place and Up again
    (the place in the set is remembered): the text grows to "AC" when the gap is filled, and then shows the character behind it. -/
example : let w := (Wide.start 3 (inBuffer 3 [65])).keys (asChars [65, 66, 67]) 3 [.right, .enter, .right, .right, .up, .up]
    w.shown = [65, 32, 32] ∧ w.dialog.place = some 2 ∧
    (w.keys (asChars [65, 66, 67]) 3 [.left, .up]).shown = [65, 67, 67] := by decide +kernel

/-- A short text meets the hypotheses of `c104_any_exact`. -/
example : ∃ x cs d', TextBox.program 2 [78, 58] [79] [65, 66, 67] 3 4 [65] [.right, .enter, .right, .up] = .ok (x, cs) ∧
    receiveAll (fun _ => 3) (fun t => t % 2 == 0) 0 newDevice
      (latches ⟨false, false, true, true, false, true, true⟩ (Parallel.levels ⟨false, false, true, true, false, true, true⟩ (Parallel.calls cs))) = some d' ∧
    Spec.TextBox.Visible 2 d' [78, 58] [79] 4 ⟨false, true, some 1, [65, 66, 32]⟩ := by
  have e : ((Wide.start 3 (inBuffer 3 [65])).keys (asChars [65, 66, 67]) 3 ([Nav.right, .enter, .right, .up].map toKey)).dialog = ⟨false, true, some 1, [65, 66, 32]⟩ := by
    decide +kernel
  rw [← e]
  exact c104_any_exact 2 [78, 58] [79] [65, 66, 67] 3 4
    ⟨by decide, by decide, ⟨by decide, by decide⟩, ⟨by decide, by decide⟩, by decide, by decide, by decide, ⟨by decide, by decide, by simp [PlainByte]⟩⟩ [65]
    (by simp [PlainByte]) _ _ rfl rfl rfl _ _ [.right, .enter, .right, .up]

/-- The buffer of the text control of the page. -/
def pageText (p : Page Ctl) : List Int :=
  (p.panel.kids[0]?.bind fun l => l.kids[1]?).elim [] fun c : Label ⊕ Text Int => match c with
    | .inr t => t.text
    | .inl _ => []

/-- **Disagreement.** With a character outside the set Down empties the text, and the display goes on to show what is no longer there: "?A" with the set ABC. -/
theorem c104_outside_fails :
    (match TextBox.program 2 [] [] [65, 66, 67] 2 0 [63, 65] [.right, .enter, .down] with
      | .ok (x, cs) => (receiveAll (fun _ => 0) (fun _ => false) 0 newDevice (nibbles false cs)).map fun d =>
          (pageText x.page, [d.ddram (cell 0 0), d.ddram (cell 0 1)])
      | .ub => none) = some ([0, 65, 0], [63, 65]) := by decide +kernel

end Atl.Props
