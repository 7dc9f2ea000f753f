import Verif.Model.TextBox
import Verif.Spec.TextBox
import Verif.Props.LcdSketch
import Verif.Props.UIEdit
import Verif.Props.Array
import Mathlib.Data.List.Nodup

/- Property theorem C104: the TextBox example as a whole program. -/
namespace Atl.Props
open Atl.UI Atl.UI.Control Atl.Lcd Atl.Spec.Lcd Atl.Spec.Pages Atl.TextBox

/-! ### Characters in program memory -/

theorem run_more {α : Type} [DecidableEq α] (d : α) (a : List α) (x : α) (f : Nat) (i : Nat) (r : Res Int) (h : StaticArray.indexOfRun d a x f i = some r)
    (g : Nat) (hg : f ≤ g) : StaticArray.indexOfRun d a x g i = some r := by
  induction f generalizing i g with
  | zero => cases h
  | succ f ih =>
    obtain ⟨g, rfl⟩ : ∃ g', g = g' + 1 := ⟨g - 1, by omega⟩
    simp only [StaticArray.indexOfRun] at h ⊢
    cases hs : StaticArray.indexOfStep d a x i with
    | ub => rw [hs] at h; exact h
    | ok v =>
      rw [hs] at h
      cases v with
      | inr v => exact h
      | inl j => exact ih j h g (by omega)

theorem first_unique {α : Type} (l : List α) (x : α) (r s : Int) (h : Spec.IsFirstIndex l x r) (h' : Spec.IsFirstIndex l x s) : r = s := by
  rcases h with ⟨rfl, h⟩ | ⟨k, rfl, hk, hlt⟩ <;> rcases h' with ⟨rfl, h'⟩ | ⟨k', rfl, hk', hlt'⟩
  · rfl
  · exact absurd (List.mem_of_getElem? hk') h
  · exact absurd (List.mem_of_getElem? hk) h'
  · rcases Nat.lt_trichotomy k k' with hh | rfl | hh
    · exact absurd hk (hlt' k hh)
    · rfl
    · exact absurd hk' (hlt k' hh)

/-- Up to 128 characters in program memory serve as well as characters in RAM. -/
theorem ofStatic_eq (cs : List Int) (h : cs.length ≤ 128) : Iterator.ofStatic 0 cs = Iterator.ofArray 0 cs := by
  have hv : StaticArray.isValidIndex cs.length = Arr.isValidIndex cs.length := by
    funext i
    simp only [StaticArray.isValidIndex, Arr.isValidIndex]
    rw [show toS 16 (cs.length : Int) = cs.length by unfold toS; omega]
  have hg : StaticArray.getAt 0 cs = Arr.getAt 0 cs := by
    funext i
    simp only [StaticArray.getAt, Arr.getAt, hv]
  have hx : (fun x => (StaticArray.indexOfRun 0 cs x 257 0).getD .ub) = Arr.indexOf cs := by
    funext x
    obtain ⟨r, e, hr⟩ := c11_static_indexOf_partial 0 cs h x
    obtain ⟨s, e', hs⟩ := c11_array_indexOf cs (by omega) x
    rw [run_more _ _ _ _ _ _ e 257 (by omega), e', first_unique cs x r s hr hs]
    rfl
  simp only [Iterator.ofStatic, Iterator.ofArray, hv, hg, hx]

/-! ### The text control -/

/-- The characters as `char`s. -/
def asChars (l : List Nat) : List Int := l.map fun c : Nat => toS 8 c

/-- The characters to choose from: different, visible, not more than the iterator can find. -/
structure Choice (chars : List Nat) : Prop where
  nodup : chars.Nodup
  small : chars.length ≤ 128
  plain : ∀ c ∈ chars, 0 < c ∧ c < 256 ∧ c ≠ 10 ∧ c ≠ 13

open Spec.TextBox (Dialog Key)

/-- The control is what the dialogue says. -/
structure TextIs (chars : List Nat) (n col : Nat) (D : Dialog) (x : Text Int) : Prop where
  pos : x.pos = col
  text : x.text = asChars D.text ++ [0]
  cap : x.capacity = n
  len : D.text.length = n
  mem : ∀ c ∈ D.text, c ∈ chars
  ops : x.ops = charIter (Iterator.ofArray 0 (asChars chars)) false
  st : x.st = if D.place.isSome then .selected else if D.found then .focused else .normal
  edit : x.edit = D.place.getD 0
  lt : D.place.getD 0 < n
  on : D.place.isSome → x.iter = (chars.idxOf (D.text.getD x.edit 0) : Nat)
  reached : D.place.isSome → D.found = true

def toKey : Nav → Key
  | .none => .none
  | .up => .up
  | .down => .down
  | .left => .left
  | .right => .right
  | .enter => .enter
  | .exit => .exit

theorem toS8_inj {a b : Nat} (ha : a < 256) (hb : b < 256) (h : toS 8 (a : Int) = toS 8 (b : Int)) : a = b := by
  have := congrArg (toU 8) h
  rwa [toUS a ha, toUS b hb] at this

theorem idx_eq {chars : List Nat} (hc : Choice chars) {i c : Nat} (hi : (asChars chars)[i]? = some (toS 8 (c : Int))) (h : c ∈ chars) : i = chars.idxOf c := by
  simp only [asChars, List.getElem?_map] at hi
  cases hx : chars[i]? with
  | none => rw [hx] at hi; cases hi
  | some a =>
    rw [hx] at hi
    simp only [Option.map_some, Option.some.injEq] at hi
    have ha : a ∈ chars := List.mem_of_getElem? hx
    have : a = c := toS8_inj (hc.plain a ha).2.1 (hc.plain c h).2.1 hi
    subst this
    obtain ⟨hl, rfl⟩ := List.getElem?_eq_some_iff.1 hx
    exact (hc.nodup.idxOf_getElem i hl).symm

theorem charAt_text {chars : List Nat} {n col : Nat} {D : Dialog} {x : Text Int} (h : TextIs chars n col D x) {i : Nat} (hi : i < n) :
    x.charAt i = toS 8 (D.text.getD i 0 : Nat) := by
  have hl : i < D.text.length := by rw [h.len]; exact hi
  unfold Text.charAt
  rw [h.text, List.getD_eq_getElem?_getD, List.getElem?_append_left (by simpa [asChars] using hl), asChars, List.getElem?_map,
    List.getD_eq_getElem?_getD, List.getElem?_eq_getElem hl]
  rfl

theorem text_mem {chars : List Nat} {n col : Nat} {D : Dialog} {x : Text Int} (h : TextIs chars n col D x) {i : Nat} (hi : i < n) :
    D.text.getD i 0 ∈ chars := by
  have hl : i < D.text.length := by rw [h.len]; exact hi
  rw [List.getD_eq_getElem?_getD, List.getElem?_eq_getElem hl]
  exact h.mem _ (List.getElem_mem hl)

/-- To another place. -/
theorem text_move {chars : List Nat} (hc : Choice chars) {n col : Nat} {D : Dialog} {x y : Text Int} (h : TextIs chars n col D x) (i : Nat) (hi : i < n)
    (hfd : D.found = true) (hy : y = { x with edit := i, st := .selected, iter := x.ops.moveTo (x.charAt i) x.iter }) :
    TextIs chars n col { D with place := some i } y := by
  subst hy
  have hm := text_mem h hi
  have hch := charAt_text h hi
  obtain ⟨j, e, hj⟩ := charIter_moveTo (asChars chars) (by have := hc.small; simp [asChars]; omega) false (x.charAt i)
    (by rw [hch]; exact List.mem_map.2 ⟨_, hm, rfl⟩) x.iter
  refine ⟨h.pos, h.text, h.cap, h.len, h.mem, h.ops, rfl, rfl, hi, fun _ => ?_, fun _ => hfd⟩
  show x.ops.moveTo (x.charAt i) x.iter = _
  rw [h.ops, e]
  rw [hch] at hj
  rw [idx_eq hc hj hm]

theorem getD_map_toS (l : List Nat) (i : Nat) (h : i < l.length) : (asChars l).getD i 0 = toS 8 (l.getD i 0 : Nat) := by
  simp [asChars, List.getD_eq_getElem?_getD, List.getElem?_eq_getElem h]

/-- A key while the text is being edited. -/
theorem text_key {chars : List Nat} (hc : Choice chars) {n col : Nat} (hn : n ≤ 255) {D : Dialog} {x : Text Int} (h : TextIs chars n col D x) (i : Nat)
    (hp : D.place = some i) (c : Nav) : TextIs chars n col (D.key chars (toKey c)) (nav c x).2 := by
  have hst : x.st = .selected := by rw [h.st, hp]; rfl
  have hed : x.edit = i := by rw [h.edit, hp]; rfl
  have hi : i < n := by have := h.lt; rw [hp] at this; exact this
  have hb : (x.st == CState.selected) = true := by rw [hst]; rfl
  have hf : (x.st == CState.focused) = false := by rw [hst]; rfl
  have hit : x.iter = (chars.idxOf (D.text.getD i 0) : Nat) := by have := h.on (by rw [hp]; rfl); rwa [hed] at this
  have hm := text_mem h hi
  have hch := charAt_text h hi
  have hil := List.idxOf_lt_length_of_mem hm
  have hover : Over (asChars chars) false x := ⟨by have := hc.small; simp [asChars]; omega, h.ops, by rw [hed, h.cap]; exact hi,
    by rw [h.cap, h.text]; simp [asChars, h.len]⟩
  have hon : On (asChars chars) x (chars.idxOf (D.text.getD i 0)) := by
    refine ⟨hit, ?_⟩
    rw [hed, hch, asChars, List.getElem?_map, List.getElem?_eq_getElem hil, List.getElem_idxOf]
    rfl
  -- a changed character
  have change : ∀ (up : Bool) (g : Nat → Nat), (∀ a ∈ chars, g a = chars.getD (Spec.UI.turn chars.length false (chars.idxOf a) up) 0) →
      TextIs chars n col { D with text := D.text.modify i g } (nav (if up then .up else .down) x).2 := by
    intro up g hg
    obtain ⟨a1, a2, ⟨a3, -⟩, a4, a5⟩ := c71_turn x hover hst _ hon up
    have hpos : (nav (if up then Nav.up else .down) x).2.pos = x.pos := by cases up <;> simp [nav, Text.onNav, Text.upDownNav, hb, Text.increment, Text.decrement, Text.setChar]
    have hcap : (nav (if up then Nav.up else .down) x).2.capacity = x.capacity := by cases up <;> simp [nav, Text.onNav, Text.upDownNav, hb, Text.increment, Text.decrement, Text.setChar]
    have hlen : (asChars chars).length = chars.length := by simp [asChars]
    have hjl : Spec.UI.turn chars.length false (chars.idxOf (D.text.getD i 0)) up < chars.length := turn_lt _ _ _ hil _
    have hil' : i < D.text.length := by rw [h.len]; exact hi
    have hnew : D.text.modify i g = D.text.set i (chars.getD (Spec.UI.turn chars.length false (chars.idxOf (D.text.getD i 0)) up) 0) := by
      rw [List.modify_eq_set_getElem? , List.getElem?_eq_getElem hil']
      simp only [Option.map_eq_map, Option.map_some, Option.getD_some]
      rw [hg _ (by rw [getD_lt _ _ hil'] at hm; exact hm), getD_lt _ _ hil']
    generalize hw : (nav (if up then Nav.up else .down) x).2 = y at *
    rw [hlen] at a3 a5
    refine ⟨hpos.trans h.pos, ?_, hcap.trans h.cap, by simp [h.len], ?_, a1.ops, ?_, ?_, ?_, fun _ => ?_, h.reached⟩
    · rw [a5, h.text, hed, hnew, getD_map_toS _ _ hjl]
      rw [List.set_append_left _ _ (by simpa [asChars] using hil')]
      simp [asChars]
    · intro c hcm
      rw [hnew] at hcm
      rcases List.mem_or_eq_of_mem_set hcm with hcm | rfl
      · exact h.mem c hcm
      · rw [getD_lt _ _ hjl]; exact List.getElem_mem hjl
    · rw [a2]; simp [hp]
    · rw [a4]; exact h.edit
    · exact h.lt
    · rw [a3, a4, hed]
      show _ = ((chars.idxOf ((D.text.modify i g).getD i 0) : Nat) : Int)
      rw [hnew]
      generalize Spec.UI.turn chars.length false (chars.idxOf (D.text.getD i 0)) up = j at hjl
      rw [List.getD_eq_getElem?_getD, List.getElem?_set_self hil', Option.getD_some, getD_lt _ _ hjl, hc.nodup.idxOf_getElem]
  cases c with
  | none => simpa [Dialog.key, hp, toKey, nav, Text.onNav, Text.upDownNav, Text.inputNav] using h
  | up =>
    have := change true (Spec.TextBox.after chars) (fun a ha => by
      have := List.idxOf_lt_length_of_mem ha
      simp only [Spec.TextBox.after, Spec.UI.turn, Bool.false_eq_true, if_false]
      split
      · rename_i hlt; rw [getD_lt _ _ hlt, getD_lt _ _ hlt]
      · rename_i hlt
        rw [getD_lt _ _ this, List.getElem_idxOf, List.getD_eq_getElem?_getD, List.getElem?_eq_none (by omega)]
        rfl)
    simpa [Dialog.key, hp, toKey] using this
  | down =>
    have := change false (Spec.TextBox.before chars) (fun a ha => by
      have := List.idxOf_lt_length_of_mem ha
      have h1 : chars.idxOf a - 1 < chars.length := by omega
      simp only [Spec.TextBox.before, Spec.UI.turn, Bool.false_eq_true, if_false]
      rw [getD_lt _ _ h1]
      split
      · rw [getD_lt _ _ h1]
      · rename_i hlt
        have h0 : chars.idxOf a - 1 = chars.idxOf a := by omega
        simp only [h0]
        rw [getD_lt _ _ this])
    simpa [Dialog.key, hp, toKey] using this
  | left =>
    by_cases h0 : 0 < i
    · have := text_move hc h (i - 1) (by omega) (h.reached (by rw [hp]; rfl)) (y := (nav .left x).2) (by
        simp [nav, Text.onNav, Text.tryLeft, hst, hed, h0, Text.reposition, Text.charAt])
      simpa [Dialog.key, hp, toKey] using this
    · have e : (nav .left x).2 = x := by simp [nav, Text.onNav, Text.tryLeft, hst, hed, h0]
      have : D.key chars .left = D := by
        have : i - 1 = i := by omega
        simp only [Dialog.key, hp, this]
        rw [← hp]
      rw [e]
      show TextIs chars n col (D.key chars .left) x
      rw [this]; exact h
  | right =>
    by_cases h0 : i + 1 < n
    · have hmod : (i + 1) % 256 = i + 1 := by omega
      have := text_move hc h (i + 1) h0 (h.reached (by rw [hp]; rfl)) (y := (nav .right x).2) (by
        simp [nav, Text.onNav, Text.tryRight, hst, hed, h.cap, h0, Text.reposition, Text.charAt, hmod])
      simpa [Dialog.key, hp, toKey, h.len, h0] using this
    · have e : (nav .right x).2 = x := by simp [nav, Text.onNav, Text.tryRight, hst, hed, h.cap, h0]
      rw [e]
      simpa [Dialog.key, hp, toKey, h.len, h0] using h
  | enter => simpa [Dialog.key, hp, toKey, nav, Text.onNav, Text.upDownNav, Text.inputNav, hf] using h
  | exit =>
    have hx : (x.st != CState.focused) = true := by rw [hst]; rfl
    have hbf : beforeInput x.st .focused = true := by rw [hst]; rfl
    have e : (nav .exit x).2 = { x with edit := 0, st := .focused } := by
      simp [nav, Text.onNav, Text.upDownNav, Text.inputNav, hb, Text.set, Text.before, hbf]
    rw [e]
    have hfd : D.found = true := h.reached (by rw [hp]; rfl)
    simp only [Dialog.key, hp, toKey]
    exact ⟨h.pos, h.text, h.cap, h.len, h.mem, h.ops, by simp [hfd], rfl, by show 0 < n; omega, by simp, by simp⟩

/-- The text is reached. -/
theorem text_found {chars : List Nat} {n col : Nat} {D : Dialog} {x : Text Int} (h : TextIs chars n col D x) (hp : D.place = none) (hf : D.found = false) :
    TextIs chars n col { D with found := true } (Text.set .focused x).2 := by
  have hst : x.st = .normal := by rw [h.st, hp, hf]; rfl
  have hbf : beforeInput x.st .focused = true := by rw [hst]; rfl
  have e : (Text.set .focused x).2 = { x with edit := 0, st := .focused } := by simp [Text.set, Text.before, hbf]
  rw [e]
  exact ⟨h.pos, h.text, h.cap, h.len, h.mem, h.ops, by simp [hp], by simp [hp], by have := h.lt; simpa [hp] using this, by simp [hp], by simp⟩

/-- Editing begins. -/
theorem text_enter {chars : List Nat} (hc : Choice chars) {n col : Nat} {D : Dialog} {x : Text Int} (h : TextIs chars n col D x) (hp : D.place = none)
    (hf : D.found = true) : TextIs chars n col { D with place := some 0 } (nav .enter x).2 := by
  have hst : x.st = .focused := by rw [h.st, hp, hf]; rfl
  have hn : 0 < n := by have := h.lt; rw [hp] at this; exact this
  refine text_move hc h 0 hn hf ?_
  have hbf : beforeInput x.st .selected = true := by rw [hst]; rfl
  have hb : (x.st == CState.focused) = true := by rw [hst]; rfl
  simp [nav, Text.onNav, Text.upDownNav, Text.inputNav, hb, Text.set, Text.before, hbf, Text.reposition, Text.charAt]

/-! ### The page -/

/-- The page of the sketch. -/
def boxPage (label1 label2 : List Nat) (pst s0 s1 : CState) (second found : Bool) (x : Text Int) : Page Ctl :=
  ⟨{ kind := .vertical, st := pst, cur := some (if second then 1 else 0), kids :=
    [{ kind := .horizontal, st := s0, cur := if found then some 1 else none, kids := [.inl (label label1), .inr x] },
     { kind := .horizontal, st := s1, pos := 1, kids := [.inl (label label2)] }] }⟩

/-- States that occur. -/
def Seen (s : CState) : Prop := s = .normal ∨ s = .focused

structure PageIs (label1 label2 chars : List Nat) (n col : Nat) (D : Dialog) (p : Page Ctl) : Prop where
  page : ∃ pst s0 s1 x, p = boxPage label1 label2 pst s0 s1 D.second D.found x ∧ Seen pst ∧ Seen s0 ∧ Seen s1 ∧ TextIs chars n col D x
  place : D.place.isSome → D.second = false

theorem page_editing (label1 label2 : List Nat) (pst s0 s1 : CState) (x : Text Int) (h : x.st = .selected) (c : Nav) :
    (nav c (boxPage label1 label2 pst s0 s1 false true x)).2 = boxPage label1 label2 pst s0 s1 false true (nav c x).2 := by
  obtain ⟨st, pos, text, cap, ops, iter, edit⟩ := x
  simp only at h
  subst h
  cases c <;> with_unfolding_all rfl

set_option maxRecDepth 4000 in
theorem page_row (label1 label2 : List Nat) (pst s0 s1 : CState) (h1 : Seen pst) (h2 : Seen s0) (h3 : Seen s1) (second found : Bool) (x : Text Int)
    (h : x.st = .focused ∨ x.st = .normal) (tgt : Bool) (hne : second ≠ tgt) :
    (nav (if tgt then .down else .up) (boxPage label1 label2 pst s0 s1 second found x)).2 =
      boxPage label1 label2 .focused (if tgt then .normal else .focused) (if tgt then .focused else .normal) tgt found x := by
  obtain ⟨st, pos, text, cap, ops, iter, edit⟩ := x
  simp only at h
  rcases h1 with rfl | rfl <;> rcases h2 with rfl | rfl <;> rcases h3 with rfl | rfl <;> rcases h with rfl | rfl <;> cases second <;> cases tgt <;>
    cases found <;> first | exact absurd rfl hne | with_unfolding_all rfl

set_option maxRecDepth 4000 in
theorem page_find (label1 label2 : List Nat) (pst s0 s1 : CState) (h2 : Seen s0) (x : Text Int)
    (h : x.st = .normal) (left : Bool) :
    (nav (if left then .left else .right) (boxPage label1 label2 pst s0 s1 false false x)).2 =
      boxPage label1 label2 pst .focused s1 false true (Text.set .focused x).2 := by
  obtain ⟨st, pos, text, cap, ops, iter, edit⟩ := x
  simp only at h
  subst h
  rcases h2 with rfl | rfl <;> cases left <;> with_unfolding_all rfl

theorem page_start_edit (label1 label2 : List Nat) (pst s0 s1 : CState) (x : Text Int) (h : x.st = .focused) :
    (nav .enter (boxPage label1 label2 pst s0 s1 false true x)).2 = boxPage label1 label2 pst s0 s1 false true (nav .enter x).2 := by
  obtain ⟨st, pos, text, cap, ops, iter, edit⟩ := x
  simp only at h
  subst h
  with_unfolding_all rfl

set_option maxRecDepth 4000 in
/-- Everything else leaves the page as it is. -/
theorem page_rest (label1 label2 : List Nat) (pst s0 s1 : CState) (second found : Bool) (x : Text Int)
    (h : x.st = .focused ∧ found = true ∨ x.st = .normal ∧ found = false) (c : Nav)
    (h1 : c = .up → second = false) (h2 : c = .down → second = true) (h3 : c = .left ∨ c = .right → second = true ∨ found = true)
    (h4 : c = .enter → second = true ∨ found = false) :
    (nav c (boxPage label1 label2 pst s0 s1 second found x)).2 = boxPage label1 label2 pst s0 s1 second found x := by
  obtain ⟨st, pos, text, cap, ops, iter, edit⟩ := x
  simp only at h
  rcases h with ⟨rfl, rfl⟩ | ⟨rfl, rfl⟩ <;> cases second <;> cases c <;> first | (simp at h1 h2 h3 h4; done) | with_unfolding_all rfl

/-- One command. -/
theorem page_key {label1 label2 chars : List Nat} (hc : Choice chars) {n col : Nat} (hn : n ≤ 255) {D : Dialog} {p : Page Ctl}
    (h : PageIs label1 label2 chars n col D p) (c : Nav) : PageIs label1 label2 chars n col (D.key chars (toKey c)) (nav c p).2 := by
  obtain ⟨⟨pst, s0, s1, x, rfl, e1, e2, e3, hx⟩, hpl⟩ := h
  cases hp : D.place with
  | some i =>
    have hs : D.second = false := hpl (by rw [hp]; rfl)
    have hf : D.found = true := hx.reached (by rw [hp]; rfl)
    have ek : (D.key chars (toKey c)).second = false ∧ (D.key chars (toKey c)).found = true := by
      cases c <;> simp only [toKey, Dialog.key, hp] <;> first | exact ⟨hs, hf⟩ | (split <;> exact ⟨hs, hf⟩)
    refine ⟨⟨pst, s0, s1, (nav c x).2, ?_, e1, e2, e3, text_key hc hn hx i hp c⟩, fun _ => ek.1⟩
    rw [ek.1, ek.2, hs, hf]
    exact page_editing label1 label2 pst s0 s1 x (by rw [hx.st, hp]; rfl) c
  | none =>
    have hst : x.st = .focused ∧ D.found = true ∨ x.st = .normal ∧ D.found = false := by
      rw [hx.st, hp]
      cases D.found <;> simp
    have hst' : x.st = .focused ∨ x.st = .normal := hst.imp And.left And.left
    -- nothing happens
    have rest : (c = .up → D.second = false) → (c = .down → D.second = true) → (c = .left ∨ c = .right → D.second = true ∨ D.found = true) →
        (c = .enter → D.second = true ∨ D.found = false) → D.key chars (toKey c) = D →
        PageIs label1 label2 chars n col (D.key chars (toKey c)) (nav c (boxPage label1 label2 pst s0 s1 D.second D.found x)).2 := by
      intro a1 a2 a3 a4 a5
      rw [a5, page_rest label1 label2 pst s0 s1 D.second D.found x hst c a1 a2 a3 a4]
      exact ⟨⟨pst, s0, s1, x, rfl, e1, e2, e3, hx⟩, hpl⟩
    have row : ∀ tgt, TextIs chars n col { D with second := tgt } x := fun tgt =>
      ⟨hx.pos, hx.text, hx.cap, hx.len, hx.mem, hx.ops, hx.st, hx.edit, hx.lt, hx.on, hx.reached⟩
    have find : ∀ left : Bool, D.second = false → D.found = false → PageIs label1 label2 chars n col { D with found := true }
        (nav (if left then .left else .right) (boxPage label1 label2 pst s0 s1 D.second D.found x)).2 := by
      intro left hs hf
      rw [hs, hf, page_find label1 label2 pst s0 s1 e2 x (by simpa [hf] using hst) left]
      refine ⟨⟨pst, .focused, s1, _, rfl, e1, .inr rfl, e3, by have := text_found hx hp hf; rwa [hs] at this⟩, fun hh => ?_⟩
      simp [hp] at hh
    cases c with
    | none => exact rest (by simp) (by simp) (by simp) (by simp) (by simp [Dialog.key, toKey, hp])
    | exit => exact rest (by simp) (by simp) (by simp) (by simp) (by simp [Dialog.key, toKey, hp])
    | up =>
      cases hs : D.second with
      | false =>
        have := rest (fun _ => hs) (by simp) (by simp) (by simp) (by cases D; simp_all [Dialog.key, toKey])
        rwa [hs] at this
      | true =>
        have e := page_row label1 label2 pst s0 s1 e1 e2 e3 true D.found x hst' false (by simp)
        simp only [Bool.false_eq_true, if_false] at e
        rw [e]
        simp only [Dialog.key, hp, toKey]
        exact ⟨⟨.focused, .focused, .normal, x, rfl, .inr rfl, .inr rfl, .inl rfl, by have := row false; rwa [hp] at this⟩, fun _ => rfl⟩
    | down =>
      cases hs : D.second with
      | true =>
        have := rest (by simp) (fun _ => hs) (by simp) (by simp) (by cases D; simp_all [Dialog.key, toKey])
        rwa [hs] at this
      | false =>
        have e := page_row label1 label2 pst s0 s1 e1 e2 e3 false D.found x hst' true (by simp)
        simp only [if_true] at e
        rw [e]
        simp only [Dialog.key, hp, toKey]
        exact ⟨⟨.focused, .normal, .focused, x, rfl, .inr rfl, .inl rfl, .inr rfl, by have := row true; rwa [hp] at this⟩, fun hh => by simp [hp] at hh⟩
    | left =>
      by_cases hh : D.second = true ∨ D.found = true
      · refine rest (by simp) (by simp) (fun _ => hh) (by simp) ?_
        rcases hh with hh | hh
        · simp [Dialog.key, toKey, hp, hh]
        · obtain ⟨sec, fd, pl, tx⟩ := D
          cases sec <;> simp_all [Dialog.key, toKey]
      · simp only [not_or, Bool.not_eq_true] at hh
        have := find true hh.1 hh.2
        simpa [Dialog.key, toKey, hp, hh.1] using this
    | right =>
      by_cases hh : D.second = true ∨ D.found = true
      · refine rest (by simp) (by simp) (fun _ => hh) (by simp) ?_
        rcases hh with hh | hh
        · simp [Dialog.key, toKey, hp, hh]
        · obtain ⟨sec, fd, pl, tx⟩ := D
          cases sec <;> simp_all [Dialog.key, toKey]
      · simp only [not_or, Bool.not_eq_true] at hh
        have := find false hh.1 hh.2
        simpa [Dialog.key, toKey, hp, hh.1] using this
    | enter =>
      by_cases hh : D.second = true ∨ D.found = false
      · refine rest (by simp) (by simp) (by simp) (fun _ => hh) ?_
        rcases hh with hh | hh <;> simp [Dialog.key, toKey, hp, hh]
      · simp only [not_or, Bool.not_eq_true, Bool.not_eq_false] at hh
        have hxs : x.st = .focused := by simpa [hh.2] using hst
        have ek : D.key chars (toKey .enter) = { D with place := some 0 } := by simp [Dialog.key, toKey, hp, hh.1, hh.2]
        rw [hh.1, hh.2, page_start_edit label1 label2 pst s0 s1 x hxs, ek]
        exact ⟨⟨pst, s0, s1, _, by rw [hh.1, hh.2], e1, e2, e3, text_enter hc hx hp hh.2⟩, fun _ => hh.1⟩

/-! ### What the page draws -/

/-- The part of `Display` before the cursor. -/
def drawn (label1 label2 : List Nat) (col : Nat) (text : List Nat) : List Out :=
  [.goTo 0 0, .goTo 255 0, .write (asChars label1), .goTo 255 col, .write (asChars text), .goTo 1 0, .goTo 255 0, .write (asChars label2)]

/-- The cursor part. -/
def pointed (col : Nat) (D : Dialog) : List Out :=
  if D.found && !D.second then [.setCursor 0 col D.place.isSome, .setCursor 255 (col + D.place.getD 0) D.place.isSome] else [.setCursor 255 255 false]

theorem cString_text (t : List Nat) (h : ∀ c ∈ t, 0 < c ∧ c < 256) : cString (asChars t ++ [0]) = .write (asChars t) := by
  have hn : ∀ x ∈ asChars t, (decide (x ≠ 0)) = true := by
    intro x hx
    obtain ⟨c, hc, rfl⟩ := List.mem_map.1 hx
    obtain ⟨h1, h2⟩ := h c hc
    simp only [ne_eq, decide_not, Bool.not_eq_eq_eq_not, Bool.not_true, decide_eq_false_iff_not]
    unfold toS
    omega
  unfold cString
  rw [if_pos (by simp), List.takeWhile_append_of_pos hn]
  simp

/-- The lines of the page, whichever of them is current. -/
theorem lines_draw {label1 label2 chars : List Nat} (hc : Choice chars) {n col : Nat} {D : Dialog} {x : Text Int} (hx : TextIs chars n col D x)
    (pst s0 s1 : CState) (e2 : Seen s0) (e3 : Seen s1) (cur c0 : Option Nat) :
    Panel.displayVertical .normal ({ kind := .vertical, st := pst, cur := cur, kids :=
      [{ kind := .horizontal, st := s0, cur := c0, kids := [.inl (label label1), .inr x] },
       { kind := .horizontal, st := s1, pos := 1, kids := [.inl (label label2)] }] } : Panel (Panel Ctl)) = drawn label1 label2 col D.text := by
  have e0 := cString_text D.text fun c hc' => by
    have := hc.plain c (hx.mem c hc')
    exact ⟨this.1, this.2.1⟩
  rw [← hx.text] at e0
  have hvis : x.st ≠ .hidden := by
    rw [hx.st]
    split
    · simp
    · split <;> simp
  have h0 : ∀ s, Seen s → (s == CState.hidden) = false := by rintro s (rfl | rfl) <;> rfl
  have hv : (x.st == CState.hidden) = false := by simpa using hvis
  have d0 : Panel.displayHorizontal .normal ({ kind := .horizontal, st := s0, cur := c0, kids := [.inl (label label1), .inr x] } : Panel Ctl)
      = [.goTo 255 0, .write (asChars label1), .goTo 255 col, .write (asChars D.text)] := by
    have : display .normal (Sum.inr x : Ctl) = [.write (asChars D.text)] := by
      show Text.display .normal x = _
      simp [Text.display, e0]
    have hs : state (Sum.inr x : Ctl) = x.st := rfl
    have hp : pos (Sum.inr x : Ctl) = col := hx.pos
    simp only [Panel.displayHorizontal, List.flatMap_cons, List.flatMap_nil, hs, hv, this, hp]
    rfl
  have hs0 := h0 s0 e2
  have hs1 := h0 s1 e3
  show (if (s0 == CState.hidden) = true then [] else Out.goTo 0 0 :: Panel.displayHorizontal .normal _) ++
    ((if (s1 == CState.hidden) = true then [] else Out.goTo 1 0 :: Panel.displayHorizontal .normal _) ++ []) = _
  rw [hs0, hs1, d0]
  rfl

theorem page_draws {label1 label2 chars : List Nat} (hc : Choice chars) {n col : Nat} (hcol : col + n ≤ 255) {D : Dialog} {p : Page Ctl}
    (h : PageIs label1 label2 chars n col D p) (m : Mode) : display m p = drawn label1 label2 col D.text ++ pointed col D := by
  obtain ⟨⟨pst, s0, s1, x, rfl, e1, e2, e3, hx⟩, hpl⟩ := h
  have hm : (x.pos + x.edit) % 256 = col + D.place.getD 0 := by
    have := hx.lt
    rw [hx.pos, hx.edit, Nat.mod_eq_of_lt (by omega)]
  have hst := hx.st
  have hsel : D.place.isSome = (x.st == CState.selected) := by
    rw [hst]
    cases D.place <;> cases D.found <;> rfl
  have d1 : Panel.displayVertical .normal (boxPage label1 label2 pst s0 s1 D.second D.found x).panel = drawn label1 label2 col D.text :=
    lines_draw hc hx pst s0 s1 e2 e3 _ _
  show Panel.displayVertical .normal _ ++ Page.displayCursor _ = _
  rw [d1]
  congr 1
  unfold pointed
  cases hs : D.second with
  | true => cases D.found <;> rfl
  | false =>
    cases hf : D.found with
    | false => rfl
    | true =>
      have hact : x.st.active = true := by
        rw [hst, hf]
        cases D.place <;> rfl
      show Out.setCursor 0 x.pos (x.st == .selected) :: Text.display .cursor x = _
      rw [hx.pos] at hm
      simp only [Text.display, hact, hx.pos, hm, hsel]
      rfl

/-! ### The display -/

/-- `Write` and `GoTo` only. -/
def DrawOut : Out → Prop
  | .write _ => True
  | .goTo _ _ => True
  | _ => False

theorem draw_calls {rows : Nat} (l : List Out) (hl : ∀ o ∈ l, DrawOut o) {s s' : View.State} {cs : List Call}
    (h : UILcd.calls rows s l = .ok (s', cs)) : s'.regs = s.regs ∧ ∀ f, ∀ c ∈ cs, QuietCall f c := by
  induction l generalizing s cs with
  | nil =>
    simp only [UILcd.calls, Res.ok.injEq, Prod.mk.injEq] at h
    obtain ⟨rfl, rfl⟩ := h
    exact ⟨rfl, by simp⟩
  | cons o l ih =>
    simp only [UILcd.calls] at h
    cases hw : UILcd.call rows s o with
    | ub => simp only [hw] at h; cases h
    | ok p =>
      obtain ⟨s1, l1⟩ := p
      simp only [hw, Res.bind_ok] at h
      cases hq : UILcd.calls rows s1 l with
      | ub => simp only [hq] at h; cases h
      | ok q =>
        obtain ⟨s2, l2⟩ := q
        simp only [hq, Res.bind_ok, Res.ok.injEq, Prod.mk.injEq] at h
        obtain ⟨rfl, rfl⟩ := h
        have a : s1.regs = s.regs ∧ ∀ f, ∀ c ∈ l1, QuietCall f c := by
          cases o with
          | write t => exact ⟨(quiet_text sketchFlags _ hw).1, fun f => (quiet_text f _ hw).2⟩
          | goTo l c =>
            simp only [UILcd.call, Writer.goTo, View.setCursor] at hw
            generalize hs : ({ s with row := if l = Writer.dontCare then s.row else l, col := if c = Writer.dontCare then s.col else c } : View.State) = s3 at hw
            cases hw' : View.writeAddress rows s3 with
            | ub => simp only [hw'] at hw; cases hw
            | ok a =>
              simp only [hw', Res.bind_ok, Res.ok.injEq, Prod.mk.injEq] at hw
              obtain ⟨rfl, rfl⟩ := hw
              exact ⟨by rw [← hs], fun f => quiet_writeAddress f hw'⟩
          | setCursor r c e => exact absurd (hl (.setCursor r c e) (by simp)) id
          | undef => exact absurd (hl .undef (by simp)) id
        obtain ⟨b1, b2⟩ := ih (fun o ho => hl o (by simp [ho])) hq
        refine ⟨b1.trans a.1, fun f c hc => ?_⟩
        rcases List.mem_append.1 hc with hc | hc
        · exact a.2 f c hc
        · exact b2 f c hc

theorem calls_append (rows : Nat) (s : View.State) (a b : List Out) : UILcd.calls rows s (a ++ b) =
    (do let (s1, x) ← UILcd.calls rows s a; let (s2, y) ← UILcd.calls rows s1 b; .ok (s2, x ++ y)) := by
  induction a generalizing s with
  | nil =>
    simp only [List.nil_append, UILcd.calls, Res.bind_ok]
    cases UILcd.calls rows s b <;> rfl
  | cons o a ih =>
    simp only [List.cons_append, UILcd.calls, ih]
    cases UILcd.call rows s o with
    | ub => rfl
    | ok p =>
      simp only [Res.bind_ok]
      cases UILcd.calls rows p.1 a with
      | ub => rfl
      | ok q =>
        simp only [Res.bind_ok]
        cases UILcd.calls rows q.1 b with
        | ub => rfl
        | ok r => simp only [Res.bind_ok, List.append_assoc]

/-- The effect of the cursor part, with a line that may be off the display (its address is then that of line 0). -/
theorem cursor_bytes (rows : Nat) (s : View.State) (f : Flags) (hf : Reads s.regs f) (r c a : Nat) (hne : ¬ (r = 255 ∧ c = 255))
    (ha : View.calcAddress rows r c = .ok a) (hlt : a < 0x68) (e : Bool) :
    ∃ s' bs, Writer.setCursor rows s r c e = .ok (s', bs.map toCall) ∧ (∀ b ∈ bs, b.2 < 256 ∧ ¬ selects8 b) ∧
      Reads s'.regs { f with cursor := true, blink := e } ∧
      ∀ d : Device, d.showsDisplay f → execAll d bs = { d with cursor := true, blink := e, ac := a, cg := false } := by
  obtain ⟨r1, b1, e1, v1, hr1, d1⟩ : ∃ r1 bs1, (if (!f.cursor) = true then Controller.set s.regs (.enableCursor true) else .ok (s.regs, []))
      = .ok (r1, bs1.map toCall) ∧ (∀ b ∈ bs1, b.2 < 256 ∧ ¬ selects8 b) ∧ Reads r1 { f with cursor := true } ∧
      ∀ d : Device, d.showsDisplay f → execAll d bs1 = { d with cursor := true } := by
    cases hcur : f.cursor with
    | true =>
      refine ⟨s.regs, [], rfl, by simp, by rw [← hcur]; exact hf, fun d hd => ?_⟩
      have := hd.2.1
      rw [hcur] at this
      show d = _
      rw [← this]
    | false =>
      obtain ⟨r', b, g1, g2, g4, g5, g3⟩ := c42_setter s.regs f hf (.enableCursor true)
      refine ⟨r', [(false, b)], g1, by simpa using ⟨g4, g5⟩, g2, fun d hd => ?_⟩
      show exec d false b = _
      rw [g3]
      obtain ⟨x1, x2, x3⟩ := hd
      simp only [follows, isEntry, setFlags, ← x1, ← x3]
      rfl
  obtain ⟨r2, b2, e2, v2, hr2, d2⟩ : ∃ r2 bs2, (if f.blink ≠ e then Controller.set r1 (.enableBlink e) else .ok (r1, []))
      = .ok (r2, bs2.map toCall) ∧ (∀ b ∈ bs2, b.2 < 256 ∧ ¬ selects8 b) ∧ Reads r2 { f with cursor := true, blink := e } ∧
      ∀ d : Device, d.showsDisplay { f with cursor := true } → execAll d bs2 = { d with blink := e } := by
    by_cases hb : f.blink = e
    · refine ⟨r1, [], by simp [hb], by simp, by rw [← hb]; exact hr1, fun d hd => ?_⟩
      have h2 := hd.2.2
      have h3 : d.blink = e := h2.trans hb
      show d = _
      rw [← h3]
    · obtain ⟨r', b, g1, g2, g4, g5, g3⟩ := c42_setter r1 _ hr1 (.enableBlink e)
      refine ⟨r', [(false, b)], by rw [if_pos hb]; exact g1, by simpa using ⟨g4, g5⟩, g2, fun d hd => ?_⟩
      show exec d false b = _
      rw [g3]
      obtain ⟨x1, x2, x3⟩ := hd
      have x1' : d.on = f.display := x1
      have x2' : d.cursor = true := x2
      show ({ d with on := f.display, cursor := true, blink := e } : Device) = { d with blink := e }
      rw [← x1']
      cases d
      simp_all
  have hor : a ||| 0x80 = a + 128 := or128 _ (by omega)
  refine ⟨⟨r, c, r2⟩, b1 ++ b2 ++ [(false, a + 128)], ?_, ?_, hr2, fun d hd => ?_⟩
  · obtain ⟨-, rc2, -⟩ := hf
    obtain ⟨rb1, -⟩ := hr1
    have n1 : ¬ (r = Writer.dontCare ∧ c = Writer.dontCare) := hne
    simp only [Writer.setCursor, if_neg n1, rc2, Res.bind_ok, id, e1, rb1, e2, View.setCursor, View.writeAddress, ha, Controller.writeDisplayAddress, hor]
    simp [toCall]
  · intro y hy
    simp only [List.mem_append, List.mem_singleton] at hy
    rcases hy with (hy | hy) | rfl
    · exact v1 y hy
    · exact v2 y hy
    · exact ⟨by show a + 128 < 256; omega, by simp only [selects8]; omega⟩
  · have : execAll d (b1 ++ b2 ++ [(false, a + 128)]) = exec (execAll (execAll d b1) b2) false (a + 128) := by
      simp only [execAll, List.foldl_append, List.foldl_cons, List.foldl_nil]
    have hd1 : ({ d with cursor := true } : Device).showsDisplay { f with cursor := true } := ⟨hd.1, rfl, hd.2.2⟩
    rw [this, d1 d hd, d2 _ hd1]
    have hge : 128 ≤ a + 128 := by omega
    have hmm : (a + 128) % 128 = a := by omega
    simp only [exec, Bool.false_eq_true, if_false, if_pos hge, hmm]

/-- The display and the library's record of it, with any place of the cursor. -/
structure Box (rows : Nat) (s : View.State) (d : Device) (text : Nat → Nat → Int) (f : Flags) : Prop where
  aligned : Aligned d
  cg : d.cg = false
  inc : d.increment = true
  two : d.twoLine = true
  text : ∀ r c, r < rows → c < columns rows → d.ddram (cell r c) = toU 8 (text r c)
  regs : Reads s.regs f
  flags : d.showsDisplay f
  on : f.display = true
  shift : d.shift = false
  window : d.window = 0

theorem aligned_execAll (bs : List (Bool × Nat)) (hb : ∀ b ∈ bs, b.2 < 256 ∧ ¬ selects8 b) (d : Device) (h : Aligned d) : Aligned (execAll d bs) := by
  induction bs generalizing d with
  | nil => exact h
  | cons b bs ih =>
    exact ih (fun y hy => hb y (by simp [hy])) (exec d b.1 b.2) ⟨exec_four _ _ _ h.1 (hb b (by simp)).2, by rw [exec_half, h.2]⟩

/-- Drawing that begins with an absolute position. -/
theorem box_draw (rows : Nat) (h1 : 1 ≤ rows) (h4 : rows ≤ 4) (l : List Out) (hl : ∀ o ∈ l, DrawOut o) (r c : Nat) (hr : r < rows) (hc : c < columns rows)
    (s : View.State) (d : Device) (text : Nat → Nat → Int) (f : Flags) (h : Box rows s d text f)
    (hf : ∀ q, OutsFit rows ⟨r, c, text, q⟩ l) :
    ∃ s' bs q z, UILcd.calls rows s (.goTo r c :: l) = .ok (s', bs.map toCall) ∧ (∀ b ∈ bs, b.2 < 256 ∧ ¬ selects8 b) ∧
      shows (some ⟨r, c, text, q⟩) l = some z ∧ Box rows s' (execAll d bs) z.text f := by
  obtain ⟨-, hc40⟩ := columns_le rows h1 h4
  obtain ⟨a1, a2, a3, a4⟩ := address_exec rows h4 ⟨r, c, s.regs⟩ hr hc
  have nr : ¬ r = Writer.dontCare := by simp only [Writer.dontCare]; omega
  have nc : ¬ c = Writer.dontCare := by simp only [Writer.dontCare]; omega
  have e0 : UILcd.call rows s (.goTo r c) = .ok (⟨r, c, s.regs⟩, [toCall (false, cell r c + 128)]) := by
    simp only [UILcd.call, Writer.goTo, if_neg nr, if_neg nc, View.setCursor, a1, Res.bind_ok]
  have on0 : OnLcd rows ⟨r, c, s.regs⟩ (exec d false (cell r c + 128)) ⟨r, c, text, if f.cursor then some (0, 0, f.blink) else none⟩ := by
    rw [a4 d]
    refine ⟨⟨rfl, rfl, hr, Nat.le_of_lt hc, fun _ => rfl, rfl, h.inc, h.two, h.text⟩, ⟨f, h.regs, h.flags⟩, fun hn => ?_, fun r' c' e' hn => ?_⟩
    · show d.cursor = false
      rw [h.flags.2.1]
      cases hfc : f.cursor with
      | false => rfl
      | true => simp [hfc] at hn
    · show d.cursor = true ∧ d.blink = e'
      rw [h.flags.2.1, h.flags.2.2]
      cases hfc : f.cursor with
      | false => simp [hfc] at hn
      | true =>
        simp only [hfc, if_true, Option.some.injEq, Prod.mk.injEq] at hn
        exact ⟨rfl, hn.2.2⟩
  obtain ⟨s', bs, z, e, v, w, o⟩ := outs_onLcd rows h1 h4 l _ _ _ on0 (hf _)
  have ee : UILcd.calls rows s (.goTo r c :: l) = .ok (s', ((false, cell r c + 128) :: bs).map toCall) := by
    simp only [UILcd.calls, e0, e, Res.bind_ok, List.map_cons, List.cons_append, List.nil_append]
  have vv : ∀ b ∈ (false, cell r c + 128) :: bs, b.2 < 256 ∧ ¬ selects8 b := by
    intro b hb
    rcases List.mem_cons.1 hb with rfl | hb
    · exact ⟨a2, a3⟩
    · exact v b hb
  have hl' : ∀ o ∈ Out.goTo r c :: l, DrawOut o := by
    intro o ho
    rcases List.mem_cons.1 ho with rfl | ho
    · trivial
    · exact hl o ho
  obtain ⟨k1, k2⟩ := draw_calls _ hl' ee
  obtain ⟨x1, x2, x3⟩ := quiet_execAll _ (k2 f) d h.flags h.shift
  refine ⟨s', _, _, z, ee, vv, w, ⟨aligned_execAll _ vv d h.aligned, o.tracks.cg, o.tracks.inc, o.tracks.two, o.tracks.text, by rw [k1]; exact h.regs, x1, h.on, x2,
    x3.trans h.window⟩⟩

theorem write_text (t : List Int) (z : Spec.Display.Screen) (r c : Nat) :
    (z.write t).text r c = if r = z.row ∧ z.col ≤ c ∧ c < z.col + t.length then t.getD (c - z.col) 0 else z.text r c := by
  obtain ⟨h, -⟩ := write_paints t z
  rcases h r c with ⟨ch, ⟨rfl, i, hi, rfl⟩, e⟩ | ⟨hn, e⟩
  · have hl := (List.getElem?_eq_some_iff.1 hi).1
    have hc : z.row = z.row ∧ z.col ≤ z.col + i ∧ z.col + i < z.col + t.length := by omega
    rw [if_pos hc, e, Nat.add_sub_cancel_left, List.getD_eq_getElem?_getD, hi]
    rfl
  · rw [e, if_neg]
    rintro ⟨rfl, h1, h2⟩
    have hl : c - z.col < t.length := by omega
    exact hn t[c - z.col] ⟨rfl, c - z.col, List.getElem?_eq_getElem hl, by omega⟩

/-- The screen after drawing. -/
theorem drawn_text (label1 label2 : List Nat) (col : Nat) (hcol : col ≠ 255) (text : List Nat) (t0 : Nat → Nat → Int) (q : Option (Nat × Nat × Bool))
    (z : Spec.Display.Screen) (h : shows (some ⟨0, 0, t0, q⟩) (drawn label1 label2 col text).tail = some z) (r c : Nat) :
    z.text r c = if r = 1 ∧ c < label2.length then (asChars label2).getD c 0
      else if r = 0 ∧ col ≤ c ∧ c < col + text.length then (asChars text).getD (c - col) 0
      else if r = 0 ∧ c < label1.length then (asChars label1).getD c 0 else t0 r c := by
  have rw1 : ∀ (t : List Int) (z : Spec.Display.Screen), (z.write t).row = z.row := fun t z => (write_paints t z).2.1
  simp only [drawn, List.tail_cons, shows, List.foldl_cons, List.foldl_nil, show1, coord, if_true, if_neg hcol, Option.map_some, Option.some.injEq] at h
  subst h
  simp [write_text, Spec.Display.Screen.goTo, Spec.Display.resolve, rw1, asChars]

theorem alone_rows (label1 label2 : List Nat) (col : Nat) (hl : label1.length ≤ col) (D : Dialog) (r c : Nat) :
    alone (D.rows label1 label2 col) r c = if r = 1 ∧ c < label2.length then label2.getD c 0
      else if r = 0 ∧ col ≤ c ∧ c < col + D.text.length then D.text.getD (c - col) 0
      else if r = 0 ∧ c < label1.length then label1.getD c 0 else 32 := by
  unfold alone charAt Dialog.rows
  rcases r with _ | _ | r
  · simp only [List.getElem?_cons_zero, Option.bind_some, Nat.zero_ne_one, false_and, if_false, true_and]
    by_cases h1 : c < label1.length
    · have h2 : ¬ (col ≤ c ∧ c < col + D.text.length) := by omega
      rw [if_neg h2, if_pos h1, List.append_assoc, List.getElem?_append_left h1, List.getElem?_eq_getElem h1, getD_lt _ _ h1]
      rfl
    · rw [if_neg h1]
      by_cases h2 : col ≤ c
      · rw [List.getElem?_append_right (by simp; omega)]
        have e : c - (label1 ++ List.replicate (col - label1.length) 32).length = c - col := by simp; omega
        rw [e]
        by_cases h3 : c < col + D.text.length
        · have h4 : c - col < D.text.length := by omega
          rw [if_pos ⟨h2, h3⟩, List.getElem?_eq_getElem h4, getD_lt _ _ h4]
          rfl
        · rw [if_neg (by omega), List.getElem?_eq_none (by omega)]
          rfl
      · rw [if_neg (by omega), List.getElem?_append_left (by simp; omega), List.getElem?_append_right (by omega)]
        simp only [List.getElem?_replicate]
        split <;> rfl
  · simp only [List.getElem?_cons_succ, List.getElem?_cons_zero, Option.bind_some, true_and]
    by_cases h : c < label2.length
    · simp [h, List.getElem?_eq_getElem h]
    · simp [h]
  · simp

theorem toU_asChars (l : List Nat) (h : ∀ c ∈ l, c < 256) (i : Nat) (hi : i < l.length) : toU 8 ((asChars l).getD i 0) = l.getD i 0 := by
  rw [getD_map_toS l i hi, toUS]
  rw [getD_lt _ _ hi]
  exact h _ (List.getElem_mem hi)

/-- The texts of the sketch fit the display. -/
structure Fits (rows : Nat) (label1 label2 chars : List Nat) (n col : Nat) : Prop where
  two : 2 ≤ rows
  four : rows ≤ 4
  first : FitsLine rows label1
  second : FitsLine rows label2
  behind : label1.length ≤ col
  room : col + n ≤ columns rows
  pos : 0 < n
  choice : Choice chars

/-- Cells that belong to no text are blank. -/
def BlankElse (label1 label2 : List Nat) (n col : Nat) (t : Nat → Nat → Int) : Prop :=
  ∀ r c, ¬ (r = 1 ∧ c < label2.length) → ¬ (r = 0 ∧ col ≤ c ∧ c < col + n) → ¬ (r = 0 ∧ c < label1.length) → toU 8 (t r c) = 32

/-- The display agrees with the dialogue, except that the blinking flag of a hidden cursor is `b`. -/
structure Agrees (rows : Nat) (label1 label2 : List Nat) (col : Nat) (D : Dialog) (s : View.State) (d : Device) (b : Bool) : Prop where
  box : ∃ t f, Box rows s d t f ∧ (∀ r c, toU 8 (t r c) = alone (D.rows label1 label2 col) r c) ∧ f.cursor = (D.found && !D.second) ∧
    f.blink = if D.found && !D.second then D.place.isSome else b
  cursor : (D.found && !D.second) = true → d.ac = cell 0 (col + D.place.getD 0)

theorem calc_first (rows : Nat) (h1 : 1 ≤ rows) (h4 : rows ≤ 4) (r c : Nat) (hr : r = 0 ∨ r = 255) (hc : c < columns rows) :
    View.calcAddress rows r c = .ok (cell 0 c) := by
  have h0 := calcAddress_cell rows h4 0 c (by omega) hc
  rcases hr with rfl | rfl
  · exact h0
  · rw [← h0]
    unfold View.calcAddress
    have ha : 255 ≥ rows := by omega
    have hb : ¬ 0 ≥ rows := by omega
    simp only [if_pos ha, if_neg hb]

/-- A page with the text `w`, which may be shorter than the room for it: what was behind it stays. -/
theorem box_page_of {rows : Nat} {label1 label2 : List Nat} {n col : Nat} (htwo : 2 ≤ rows) (h4 : rows ≤ 4) (hfirst : FitsLine rows label1)
    (hsecond : FitsLine rows label2) (hbehind : label1.length ≤ col) (hroom : col + n ≤ columns rows) (hn : 0 < n) (D : Dialog)
    (hlen : D.text.length = n) (w : List Nat) (hw : w.length ≤ n) (hchars : ∀ c ∈ w, c < 256 ∧ c ≠ 10 ∧ c ≠ 13) (hplace : D.place.getD 0 < n)
    (s : View.State) (d : Device) (t0 : Nat → Nat → Int) (f : Flags) (h : Box rows s d t0 f)
    (hb : BlankElse label1 label2 n col t0) (hwD : ∀ i < w.length, w.getD i 0 = D.text.getD i 0)
    (hold : ∀ i, w.length ≤ i → i < n → toU 8 (t0 0 (col + i)) = D.text.getD i 0) :
    ∃ s' bs, UILcd.calls rows s (drawn label1 label2 col w ++ pointed col D) = .ok (s', bs.map toCall) ∧ (∀ b ∈ bs, b.2 < 256 ∧ ¬ selects8 b) ∧
      Agrees rows label1 label2 col D s' (execAll d bs) f.blink := by
  have h1 : 1 ≤ rows := by omega
  obtain ⟨-, hc40⟩ := columns_le rows h1 h4
  have hcolumns : col < columns rows := by omega
  have noBreak : ∀ l : List Nat, (∀ c ∈ l, c < 256 ∧ c ≠ 10 ∧ c ≠ 13) → ∀ ch ∈ asChars l, toU 8 ch ≠ 10 ∧ toU 8 ch ≠ 13 := by
    intro l hl ch hch
    obtain ⟨c, hc, rfl⟩ := List.mem_map.1 hch
    rw [toUS c (hl c hc).1]
    exact (hl c hc).2
  have l1ok : ∀ c ∈ label1, c < 256 ∧ c ≠ 10 ∧ c ≠ 13 := fun c hc => (hfirst.2 c hc).2
  have l2ok : ∀ c ∈ label2, c < 256 ∧ c ≠ 10 ∧ c ≠ 13 := fun c hc => (hsecond.2 c hc).2
  have hfit : ∀ q, OutsFit rows ⟨0, 0, t0, q⟩ (drawn label1 label2 col w).tail := by
    intro q
    have len : ∀ l : List Nat, (asChars l).length = l.length := fun l => by simp [asChars]
    have a1 := hfirst.1
    have a2 := hsecond.1
    have ncol : ¬ col = 255 := by omega
    refine ⟨⟨.inl rfl, by omega⟩, fun z hz => ⟨⟨noBreak _ l1ok, ?_⟩, fun z2 hz2 => ⟨⟨.inl rfl, hcolumns⟩, fun z3 hz3 => ⟨⟨noBreak _ hchars, ?_⟩,
      fun z4 hz4 => ⟨⟨.inr (by omega), by omega⟩, fun z5 hz5 => ⟨⟨.inl rfl, by omega⟩, fun z6 hz6 => ⟨⟨noBreak _ l2ok, ?_⟩, fun _ _ => trivial⟩⟩⟩⟩⟩⟩⟩
    · simp only [show1, coord, if_true, Option.map_some, Option.some.injEq] at hz
      subst hz
      simp [Spec.Display.Screen.goTo, Spec.Display.resolve, len, a1]
    · simp only [show1, coord, if_true, if_neg ncol, Option.map_some, Option.some.injEq] at hz3
      subst hz3
      simp only [Spec.Display.Screen.goTo, Spec.Display.resolve, len]
      omega
    · simp only [show1, coord, if_true, Option.map_some, Option.some.injEq] at hz6
      subst hz6
      simp [Spec.Display.Screen.goTo, Spec.Display.resolve, len, a2]
  have hdraw : ∀ o ∈ (drawn label1 label2 col w).tail, DrawOut o := by
    intro o ho
    simp only [drawn, List.tail_cons, List.mem_cons, List.not_mem_nil, or_false] at ho
    rcases ho with rfl | rfl | rfl | rfl | rfl | rfl | rfl <;> trivial
  obtain ⟨s1, b1, q, z, c1, v1, wz, B⟩ := box_draw rows h1 h4 _ hdraw 0 0 (by omega) (by omega) s d t0 f h hfit
  have ht : ∀ r c, toU 8 (z.text r c) = alone (D.rows label1 label2 col) r c := by
    intro r c
    rw [drawn_text label1 label2 col (by omega) w t0 q z wz r c, alone_rows label1 label2 col hbehind]
    by_cases k1 : r = 1 ∧ c < label2.length
    · rw [if_pos k1, if_pos k1, toU_asChars _ (fun c hc => (l2ok c hc).1) _ k1.2]
    · rw [if_neg k1, if_neg k1]
      by_cases k2 : r = 0 ∧ col ≤ c ∧ c < col + w.length
      · have k2' : r = 0 ∧ col ≤ c ∧ c < col + D.text.length := by omega
        rw [if_pos k2, if_pos k2', toU_asChars _ (fun c hc => (hchars c hc).1) _ (by omega), hwD _ (by omega)]
      · rw [if_neg k2]
        by_cases k4 : r = 0 ∧ col ≤ c ∧ c < col + D.text.length
        · have k3 : ¬ (r = 0 ∧ c < label1.length) := by omega
          rw [if_pos k4, if_neg k3]
          have e := hold (c - col) (by omega) (by omega)
          rw [show col + (c - col) = c by omega] at e
          rw [k4.1]; exact e
        rw [if_neg k4]
        by_cases k3 : r = 0 ∧ c < label1.length
        · rw [if_pos k3, if_pos k3, toU_asChars _ (fun c hc => (l1ok c hc).1) _ k3.2]
        · rw [if_neg k3, if_neg k3]
          exact hb r c k1 (by rwa [hlen] at k4) k3
  have hcons : drawn label1 label2 col w = .goTo 0 0 :: (drawn label1 label2 col w).tail := rfl
  rw [calls_append, hcons, c1]
  simp only [Res.bind_ok]
  cases hv : D.found && !D.second with
  | false =>
    obtain ⟨r, b, e1, e2, e3, e4⟩ := c63_cursorOff rows s1 f B.regs (execAll d b1) B.flags false
    have e5 : UILcd.calls rows s1 (pointed col D) = .ok ({ s1 with regs := r }, [b].map toCall) := by
      simp only [pointed, hv, Bool.false_eq_true, if_false, UILcd.calls, UILcd.call, e1, Res.bind_ok, List.append_nil, List.map_cons, List.map_nil]
    refine ⟨{ s1 with regs := r }, b1 ++ [b], by rw [e5]; simp, ?_, ⟨⟨z.text, { f with cursor := false }, ?_, ht, hv.symm, by rw [hv]; rfl⟩, by simp [hv]⟩⟩
    · intro y hy
      rcases List.mem_append.1 hy with hy | hy
      · exact v1 y hy
      · simp only [List.mem_singleton] at hy; subst hy; exact e2
    · have ee : execAll d (b1 ++ [b]) = { execAll d b1 with cursor := false } := by
        rw [← e4]
        simp only [execAll, List.foldl_append, List.foldl_cons, List.foldl_nil]
      rw [ee]
      exact ⟨B.aligned, B.cg, B.inc, B.two, B.text, e3, ⟨B.flags.1, rfl, B.flags.2.2⟩, B.on, B.shift, B.window⟩
  | true =>
    have hq : col + D.place.getD 0 < columns rows := by omega
    have cl : ∀ c, c < columns rows → cell 0 c < 0x68 := fun c hc => cell_lt rows h4 0 c (by omega) hc
    obtain ⟨s2, b2, e2, v2, r2, x2⟩ := cursor_bytes rows s1 f B.regs 0 col (cell 0 col) (by omega) (calc_first rows h1 h4 0 col (.inl rfl) hcolumns) (cl _ hcolumns)
      D.place.isSome
    obtain ⟨s3, b3, e3, v3, r3, x3⟩ := cursor_bytes rows s2 _ r2 255 (col + D.place.getD 0) (cell 0 (col + D.place.getD 0)) (by omega)
      (calc_first rows h1 h4 255 _ (.inr rfl) hq) (cl _ hq) D.place.isSome
    have e5 : UILcd.calls rows s1 (pointed col D) = .ok (s3, (b2 ++ b3).map toCall) := by
      simp only [pointed, hv, if_true, UILcd.calls, UILcd.call, e2, e3, Res.bind_ok, List.append_nil, List.map_append]
    have ee : execAll d (b1 ++ (b2 ++ b3)) =
        { execAll d b1 with cursor := true, blink := D.place.isSome, ac := cell 0 (col + D.place.getD 0), cg := false } := by
      have : execAll d (b1 ++ (b2 ++ b3)) = execAll (execAll (execAll d b1) b2) b3 := by simp only [execAll, List.foldl_append]
      rw [this, x2 _ B.flags]
      rw [x3]
      exact ⟨B.flags.1, rfl, rfl⟩
    refine ⟨s3, b1 ++ (b2 ++ b3), by rw [e5]; simp, ?_, ⟨⟨z.text, { f with cursor := true, blink := D.place.isSome }, ?_, ht, hv.symm, by rw [hv]; rfl⟩, ?_⟩⟩
    · intro y hy
      simp only [List.mem_append] at hy
      rcases hy with hy | hy | hy
      · exact v1 y hy
      · exact v2 y hy
      · exact v3 y hy
    · rw [ee]
      exact ⟨B.aligned, rfl, B.inc, B.two, B.text, r3, ⟨B.flags.1, rfl, rfl⟩, B.on, B.shift, B.window⟩
    · intro _
      rw [ee]

theorem box_page {rows : Nat} {label1 label2 chars : List Nat} {n col : Nat} (hF : Fits rows label1 label2 chars n col) (D : Dialog)
    (hlen : D.text.length = n) (hmem : ∀ c ∈ D.text, c ∈ chars) (hplace : D.place.getD 0 < n) (s : View.State) (d : Device) (t0 : Nat → Nat → Int) (f : Flags) (h : Box rows s d t0 f)
    (hb : BlankElse label1 label2 n col t0) :
    ∃ s' bs, UILcd.calls rows s (drawn label1 label2 col D.text ++ pointed col D) = .ok (s', bs.map toCall) ∧ (∀ b ∈ bs, b.2 < 256 ∧ ¬ selects8 b) ∧
      Agrees rows label1 label2 col D s' (execAll d bs) f.blink :=
  box_page_of hF.two hF.four hF.first hF.second hF.behind hF.room hF.pos D hlen D.text (by omega) (fun c hc => (hF.choice.plain c (hmem c hc)).2) hplace s d t0 f h hb
    (fun _ _ => rfl) (fun i h1 h2 => by omega)

/-- A key that leaves the cursor hidden was not pressed while editing. -/
theorem hidden_place (chars : List Nat) (D : Dialog) (k : Key) (hr : D.place.isSome → D.found = true ∧ D.second = false)
    (h : ((D.key chars k).found && !(D.key chars k).second) = false) : D.place = none := by
  cases hp : D.place with
  | none => rfl
  | some i =>
    obtain ⟨h1, h2⟩ := hr (by rw [hp]; rfl)
    exfalso
    revert h
    unfold Dialog.key
    rw [hp]
    cases k <;> simp [h1, h2] <;> split <;> simp [h1, h2]

/-- One round of the sketch. -/
structure Running (rows : Nat) (label1 label2 chars : List Nat) (n col : Nat) (D : Dialog) (x : TextBox.State) (d : Device) : Prop where
  page : PageIs label1 label2 chars n col D x.page
  lcd : Agrees rows label1 label2 col D x.lcd d D.place.isSome

theorem Agrees.visible {rows : Nat} {label1 label2 : List Nat} {col : Nat} {D : Dialog} {s : View.State} {d : Device}
    (h : Agrees rows label1 label2 col D s d D.place.isSome) : Spec.TextBox.Visible rows d label1 label2 col D := by
  obtain ⟨t, f, B, ht, hc, hb⟩ := h.box
  have hcur : d.cursor = (D.found && !D.second) := B.flags.2.1.trans hc
  refine ⟨B.flags.1.trans B.on, B.window, fun r c hr hc' => (B.text r c hr hc').trans (ht r c), hcur, ?_, fun hv => ⟨h.cursor (by rw [← hcur]; exact hv), B.cg⟩⟩
  rw [B.flags.2.2, hb]
  split <;> rfl

theorem running_command {rows : Nat} {label1 label2 chars : List Nat} {n col : Nat} (hF : Fits rows label1 label2 chars n col) {D : Dialog}
    {x : TextBox.State} {d : Device} (h : Running rows label1 label2 chars n col D x d) (c : Nav) :
    ∃ x' bs, TextBox.command rows x c = .ok (x', bs.map toCall) ∧ (∀ b ∈ bs, b.2 < 256 ∧ ¬ selects8 b) ∧
      Running rows label1 label2 chars n col (D.key chars (toKey c)) x' (execAll d bs) := by
  obtain ⟨-, hc40⟩ := columns_le rows (by have := hF.two; omega) hF.four
  have hroom := hF.room
  obtain ⟨_, _, _, _, -, -, -, -, hx0⟩ := h.page.page
  have hp := page_key hF.choice (by omega) h.page c
  obtain ⟨_, _, _, _, -, -, -, -, hx⟩ := hp.page
  obtain ⟨t, f, B, ht, -, hb⟩ := h.lcd.box
  have hb' : f.blink = D.place.isSome := by rw [hb]; split <;> rfl
  have blank : BlankElse label1 label2 n col t := by
    intro r c k1 k2 k3
    rw [ht, alone_rows _ _ _ hF.behind, if_neg k1, hx0.len, if_neg k2, if_neg k3]
  obtain ⟨s', bs, e, v, A⟩ := box_page hF _ hx.len hx.mem hx.lt x.lcd d t f B blank
  refine ⟨⟨(nav c x.page).2, s'⟩, bs, ?_, v, hp, ?_⟩
  · simp only [TextBox.command, page_draws hF.choice (by omega) hp, e, Res.bind_ok]
  · obtain ⟨⟨t', f', B', ht', hc', hb''⟩, hac⟩ := A
    refine ⟨⟨t', f', B', ht', hc', ?_⟩, hac⟩
    rw [hb'']
    split
    · rfl
    · rename_i hv
      have hn := hidden_place chars D (toKey c) (fun hs => ⟨hx0.reached hs, h.page.place hs⟩) (by simpa using hv)
      rw [hb', hn]
      cases hpl : (D.key chars (toKey c)).place with
      | none => rfl
      | some i =>
        exfalso
        have h1 := hx.reached (by rw [hpl]; rfl)
        have h2 := hp.place (by rw [hpl]; rfl)
        rw [h1, h2] at hv
        exact hv rfl

theorem running_run {rows : Nat} {label1 label2 chars : List Nat} {n col : Nat} (hF : Fits rows label1 label2 chars n col) (cmds : List Nav) :
    ∀ {D : Dialog} {x : TextBox.State} {d : Device}, Running rows label1 label2 chars n col D x d →
    ∃ x' bs, TextBox.run rows x cmds = .ok (x', bs.map toCall) ∧ (∀ b ∈ bs, b.2 < 256 ∧ ¬ selects8 b) ∧
      Running rows label1 label2 chars n col (D.keys chars (cmds.map toKey)) x' (execAll d bs) := by
  induction cmds with
  | nil => intro D x d h; exact ⟨x, [], rfl, by simp, h⟩
  | cons c cs ih =>
    intro D x d h
    obtain ⟨x1, b1, e1, v1, h1⟩ := running_command hF h c
    obtain ⟨x2, b2, e2, v2, h2⟩ := ih h1
    refine ⟨x2, b1 ++ b2, by simp only [TextBox.run, e1, e2, Res.bind_ok, List.map_append], ?_, ?_⟩
    · intro y hy
      rcases List.mem_append.1 hy with hy | hy
      · exact v1 y hy
      · exact v2 y hy
    · rw [show execAll d (b1 ++ b2) = execAll (execAll d b1) b2 by simp only [execAll, List.foldl_append]]
      exact h2

theorem buffer_text (n : Nat) (text : List Nat) (hn : n ≤ text.length) :
    ∃ b s, FixedString.init n ⟨List.replicate (n + 1) 0, 0⟩ = .ok b ∧ FixedString.copyFrom n b (asChars text) = .ok s ∧ s.items = asChars (text.take n) ++ [0] := by
  obtain ⟨s0, e0, hl, h0, _⟩ := init_inv n ⟨List.replicate (n + 1) 0, 0⟩ (by simp)
  have hd : s0.items.drop n = [0] := by
    rw [List.drop_eq_getElem_cons (by omega), List.drop_of_length_le (by omega)]
    rw [List.getElem?_eq_getElem (by omega)] at h0
    simpa using h0
  refine ⟨s0, _, e0, copyFrom_eq n s0 _ hl, ?_⟩
  simp only [hd, asChars, List.length_map, Nat.sub_eq_zero_of_le hn, List.replicate_zero, List.append_nil, List.map_take]

theorem running_start {rows : Nat} {label1 label2 chars : List Nat} {n col : Nat} (hF : Fits rows label1 label2 chars n col) (text : List Nat)
    (hn : n ≤ text.length) (hm : ∀ c ∈ text, c ∈ chars) (low : Nat → Nat) (amb : Nat → Bool) (d : Device) :
    ∃ x cs d', TextBox.setup rows label1 label2 chars n col text = .ok (x, cs) ∧ receiveAll low amb 0 d (nibbles false cs) = some d' ∧
      Running rows label1 label2 chars n col { text := text.take n } x d' := by
  obtain ⟨-, hc40⟩ := columns_le rows (by have := hF.two; omega) hF.four
  have hroom := hF.room
  obtain ⟨s, cs, d1, e1, r1, sh⟩ := start_shows rows (by have := hF.two; omega) low amb d
  obtain ⟨b0, b, e2, e3, hb⟩ := buffer_text n text hn
  have hlen : (text.take n).length = n := by simp; omega
  have hmem : ∀ c ∈ text.take n, c ∈ chars := fun c hc => hm c (List.mem_of_mem_take hc)
  have hx : TextIs chars n col { text := text.take n } (text1 chars n col b.items) := by
    refine ⟨rfl, hb, ?_, hlen, hmem, ?_, rfl, rfl, hF.pos, by simp, by simp⟩
    · show fixedCapacity n = n
      unfold fixedCapacity
      omega
    · show charIter (Iterator.ofStatic 0 (asChars chars)) false = _
      rw [ofStatic_eq _ (by simpa [asChars] using hF.choice.small)]
  have hd : display .normal (TextBox.page label1 label2 (text1 chars n col b.items)) =
      drawn label1 label2 col (text.take n) ++ pointed col { text := text.take n } := by
    show Panel.displayVertical .normal _ ++ Page.displayCursor _ = _
    have := lines_draw (label1 := label1) (label2 := label2) hF.choice hx .normal .normal .normal (.inl rfl) (.inl rfl) none none
    rw [show (TextBox.page label1 label2 (text1 chars n col b.items)).panel = _ from rfl] at *
    exact congrArg₂ (· ++ ·) this rfl
  have box : Box rows s d1 (fun _ _ => 32) sketchFlags := by
    have tr := sh.onLcd.tracks
    exact ⟨sh.aligned, tr.cg, tr.inc, tr.two, tr.text, sh.regs, sh.flags, rfl, sh.shift, sh.window⟩
  obtain ⟨s', bs, e, v, A⟩ := box_page hF { text := text.take n } hlen hmem hF.pos s d1 _ _ box (fun _ _ _ _ _ => by with_unfolding_all rfl)
  refine ⟨⟨(nav .down (TextBox.page label1 label2 (text1 chars n col b.items))).2, s'⟩, cs ++ bs.map toCall, execAll d1 bs, ?_, receive_more sh.aligned r1 bs v, ⟨⟨?_, by simp⟩, A⟩⟩
  · simp only [TextBox.setup, e1, e2, Res.bind_ok, hd]
    rw [show (text.map fun c : Nat => toS 8 c) = asChars text from rfl, e3]
    simp only [Res.bind_ok, hd, e]
  · refine ⟨_, _, _, _, rfl, ?_, ?_, ?_, hx⟩ <;> first | exact .inl rfl | exact .inr rfl

/-- **C104.** The TextBox example on a display of 2 to 4 rows in any state, with any texts that fit, up to 128 different characters to choose from and any
    sequence of navigation commands: the program meets no undefined behaviour, and the display shows what the dialogue prescribes. -/
theorem c104_dialog_partial (rows : Nat) (label1 label2 chars : List Nat) (n col : Nat) (hF : Fits rows label1 label2 chars n col) (text : List Nat)
    (hn : n ≤ text.length) (hm : ∀ c ∈ text, c ∈ chars) (d : Device) (a : Lines) (he : a.e = true) (hw : a.rw = false) (hrs : a.rs = false)
    (low : Nat → Nat) (amb : Nat → Bool) (cmds : List Nav) :
    ∃ x cs d', TextBox.program rows label1 label2 chars n col text cmds = .ok (x, cs) ∧
      receiveAll low amb 0 d (latches a (Parallel.levels a (Parallel.calls cs))) = some d' ∧
      Spec.TextBox.Visible rows d' label1 label2 col (Dialog.keys chars { text := text.take n } (cmds.map toKey)) := by
  obtain ⟨x, cs, d1, e1, r1, h1⟩ := running_start hF text hn hm low amb d
  obtain ⟨x', bs, e2, v, h2⟩ := running_run hF cmds h1
  obtain ⟨_, _, B, -⟩ := h1.lcd.box
  refine ⟨x', cs ++ bs.map toCall, execAll d1 bs, by simp only [TextBox.program, e1, e2, Res.bind_ok], ?_, h2.lcd.visible⟩
  rw [Parallel.calls_spec a he hw, hrs]
  exact receive_more B.aligned r1 bs v

example := c104_dialog_partial 2 [78, 58] [79] [65, 66, 67] 3 4
  ⟨by decide, by decide, ⟨by decide, by decide⟩, ⟨by decide, by decide⟩, by decide, by decide, by decide, ⟨by decide, by decide, by decide⟩⟩ [66, 65, 67, 67] (by decide)
  (by decide) powerUp ⟨false, false, true, true, false, true, true⟩ rfl rfl rfl (fun _ => 3) (fun t => t % 2 == 0) [.right, .enter, .up, .right, .down, .exit]

/-! ### The example -/

theorem example_fits : Fits 2 [76, 105, 110, 101, 32, 49] [76, 105, 110, 101, 32, 50] exampleChars 6 8 :=
  ⟨by decide, by decide, ⟨by decide, by decide⟩, ⟨by decide, by decide⟩, by decide, by decide, by decide, ⟨by decide, by decide, by decide⟩⟩

theorem after_example (i : Nat) (h : i ≤ 66) : Spec.TextBox.after exampleChars (exampleChars.getD i 0) = exampleChars.getD (min 66 (i + 1)) 0 := by
  have : ∀ j : Fin 67, Spec.TextBox.after exampleChars (exampleChars.getD j.1 0) = exampleChars.getD (min 66 (j.1 + 1)) 0 := by decide +kernel
  exact this ⟨i, by omega⟩

/-- The text after `k` rounds. -/
def exampleText (k : Nat) : List Nat := [exampleChars.getD (min 66 (22 + 3 * k)) 0, exampleChars.getD (min 66 (45 + 4 * k)) 0, 108, 108, 111, 32]

theorem example_round (b e : Bool) (k : Nat) :
    Dialog.keys exampleChars ⟨b, e, none, exampleText k⟩ (script.map toKey) = ⟨true, true, none, exampleText (k + 1)⟩ := by
  simp only [script, List.map_cons, List.map_nil, toKey, Dialog.keys, List.foldl_cons, List.foldl_nil, Dialog.key, exampleText]
  simp only [Bool.false_eq_true, if_false, Bool.not_false, Bool.and_self, if_true, List.modify_zero_cons, List.modify_succ_cons,
    List.length_cons, List.length_nil]
  simp only [Nat.reduceAdd, Nat.reduceLT, if_true, List.modify_succ_cons, List.modify_zero_cons]
  rw [after_example _ (by omega), after_example _ (by omega), after_example _ (by omega), after_example _ (by omega), after_example _ (by omega),
    after_example _ (by omega), after_example _ (by omega)]
  have e1 : min 66 (min 66 (min 66 (min 66 (22 + 3 * k) + 1) + 1) + 1) = min 66 (22 + 3 * (k + 1)) := by omega
  have e2 : min 66 (min 66 (min 66 (min 66 (min 66 (45 + 4 * k) + 1) + 1) + 1) + 1) = min 66 (45 + 4 * (k + 1)) := by omega
  rw [e1, e2]

/-- **C104, the sketch itself.** After `k` rounds of `loop` the first character of the text has moved on by 3 places in the set for each round and the second
    by 4, up to the last character of the set; the rest of the text and the labels are as they were. -/
theorem c104_example (k : Nat) (d : Device) (a : Lines) (he : a.e = true) (hw : a.rw = false) (hrs : a.rs = false) (low : Nat → Nat) (amb : Nat → Bool) :
    ∃ x cs d', example_ k = .ok (x, cs) ∧ receiveAll low amb 0 d (latches a (Parallel.levels a (Parallel.calls cs))) = some d' ∧
      Spec.TextBox.Visible 2 d' [76, 105, 110, 101, 32, 49] [76, 105, 110, 101, 32, 50] 8 ⟨decide (0 < k), decide (0 < k), none, exampleText k⟩ := by
  obtain ⟨x, cs, d', e, r, v⟩ := c104_dialog_partial _ _ _ _ _ _ example_fits [72, 101, 108, 108, 111, 32] (by decide) (by decide) d a he hw hrs low amb
    (List.replicate k script).flatten
  refine ⟨x, cs, d', e, r, ?_⟩
  have : Dialog.keys exampleChars { text := [72, 101, 108, 108, 111, 32] } ((List.replicate k script).flatten.map toKey) =
      ⟨decide (0 < k), decide (0 < k), none, exampleText k⟩ := by
    clear e r v
    induction k with
    | zero => decide
    | succ k ih =>
      rw [List.replicate_succ', List.flatten_append, List.map_append]
      unfold Dialog.keys at ih ⊢
      rw [List.foldl_append, ih]
      simp only [List.flatten_cons, List.flatten_nil, List.append_nil]
      exact example_round _ _ k
  rwa [← this]

example := c104_example 5 powerUp ⟨false, false, true, true, false, true, true⟩ rfl rfl rfl (fun _ => 3) (fun t => t % 2 == 0)

/-- The set the theorem speaks of, as it is in the source of the sketch; with it, what one round makes of "Hello ". -/
theorem c104_texts : exampleChars = " +-()0123456789ABCDEFGHIJKLMNOPQRSTUVWXYZabcdefghijklmnopqrstuvwxyz".toList.map Char.toNat ∧
    exampleText 0 = "Hello ".toList.map Char.toNat ∧ exampleText 1 = "Killo ".toList.map Char.toNat ∧ exampleText 30 = "zzllo ".toList.map Char.toNat := by decide +kernel

/-- A set of 130 characters, from the blank on. -/
def largeSet : List Nat := (List.range 130).map (32 + ·)

/-- A display that has just been switched on. -/
def newDevice : Device := ⟨false, none, false, false, false, false, true, false, 0, false, fun _ => 32, fun _ => 0, 0⟩

/-- **Disagreement.** With more than 128 characters `IndexOf` returns a negative `int8_t` for the later ones, so editing starts elsewhere in the set: one Up on
    the character 160 (number 128 of the set) gives the first character of the set, not 161. -/
theorem c104_large_set_fails :
    (match TextBox.program 2 [] [] largeSet 1 0 [160] [.right, .enter, .up] with
      | .ok (_, cs) => (receiveAll (fun _ => 0) (fun _ => false) 0 newDevice (nibbles false cs)).map fun d => d.ddram (cell 0 0)
      | .ub => none) = some 32 ∧
    (Dialog.keys largeSet { text := [160] } ([Nav.right, Nav.enter, Nav.up].map toKey)).text = [161] := by
  constructor
  · decide +kernel
  · decide +kernel

/-- **Disagreement.** The places behind the end of a text that does not fill its buffer can be reached too. With "A" in a buffer for three characters, two steps
    to the right and Up write a character behind the terminating zero: the display goes on to show "A" alone, with the cursor two places behind it, where the
    dialogue keeps to the text and changes its one character. -/
theorem c104_short_text_fails :
    (match TextBox.program 2 [] [] exampleChars 3 0 [65] [.right, .enter, .right, .right, .up] with
      | .ok (_, cs) => (receiveAll (fun _ => 0) (fun _ => false) 0 newDevice (nibbles false cs)).map fun d =>
          ([d.ddram (cell 0 0), d.ddram (cell 0 1), d.ddram (cell 0 2)], d.ac)
      | .ub => none) = some ([65, 32, 32], cell 0 2) ∧
    (Dialog.keys exampleChars { text := [65] } ([Nav.right, Nav.enter, Nav.right, Nav.right, Nav.up].map toKey)).text = [66] := by
  constructor
  · decide +kernel
  · decide +kernel

/-- A dialogue of six keys that meets the hypotheses of `c104_dialog_partial`: "BAC" becomes "CAC" (Down on 'A', the first of the set, changes nothing). -/
example : ∃ x cs d', TextBox.program 2 [78, 58] [79] [65, 66, 67] 3 4 [66, 65, 67, 67] [.right, .enter, .up, .right, .down, .exit] = .ok (x, cs) ∧
    receiveAll (fun _ => 3) (fun t => t % 2 == 0) 0 newDevice
      (latches ⟨false, false, true, true, false, true, true⟩ (Parallel.levels ⟨false, false, true, true, false, true, true⟩ (Parallel.calls cs))) = some d' ∧
    Spec.TextBox.Visible 2 d' [78, 58] [79] 4 ⟨false, true, none, [67, 65, 67]⟩ :=
  c104_dialog_partial 2 [78, 58] [79] [65, 66, 67] 3 4
    ⟨by decide, by decide, ⟨by decide, by decide⟩, ⟨by decide, by decide⟩, by decide, by decide, by decide, ⟨by decide, by decide, by decide⟩⟩ [66, 65, 67, 67] (by decide)
    (by decide) _ _ rfl rfl rfl _ _ [.right, .enter, .up, .right, .down, .exit]

end Atl.Props
