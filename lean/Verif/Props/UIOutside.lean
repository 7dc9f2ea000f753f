import Verif.Props.UIEdit
import Verif.Spec.TextEdit

/- C71 for every text, also with characters outside the set. -/
namespace Atl.Props
open Atl.UI Atl.UI.Control Atl.Spec.UI

/-- The command of a key. -/
def keyNav : Key → Nav
  | .up => .up
  | .down => .down
  | .left => .left
  | .right => .right
  | .enter => .enter
  | .exit => .exit

/-- The control is as the editor says. -/
structure AsEditor (cs : List Int) (wrap : Bool) (x : Text Int) (e : Editor) : Prop where
  ops : x.ops = charIter (Iterator.ofArray 0 cs) wrap
  text : x.text = e.text
  cursor : x.edit = e.cursor
  st : x.st = if e.editing then .selected else .focused
  place : match e.place with
    | some i => x.iter = i ∧ i < cs.length
    | none => x.iter = -1

theorem charIter_moveTo_idx (cs : List Int) (hl : cs.length ≤ 32767) (wrap : Bool) (c : Int) (j : Int) :
    (charIter (Iterator.ofArray 0 cs) wrap).moveTo c j = if c ∈ cs then (cs.idxOf c : Int) else j := by
  obtain ⟨r, h1, h2⟩ := c11_array_indexOf cs hl c
  have hm : Iterator.moveTo (Iterator.ofArray 0 cs) c j = if 0 ≤ r then .ok (r, true) else .ok (j, false) := by
    unfold Iterator.moveTo
    show (do let i ← Arr.indexOf cs c; if 0 ≤ i then pure (i, true) else pure (j, false)) = _
    rw [h1]
    rfl
  rcases h2 with ⟨rfl, hn⟩ | ⟨k, rfl, hk, hf⟩
  · simp only [charIter, hm]
    rw [if_neg hn, if_neg (by decide)]
  · have hin : c ∈ cs := List.mem_of_getElem? hk
    have hidx : cs.idxOf c = k := by
      have hlt := List.idxOf_lt_length_of_mem hin
      have hg : cs[cs.idxOf c] = c := List.getElem_idxOf hlt
      rcases Nat.lt_trichotomy (cs.idxOf c) k with h | h | h
      · exact absurd (by rw [List.getElem?_eq_getElem hlt, hg]) (hf _ h)
      · exact h
      · exfalso
        have := List.not_of_lt_findIdx (p := (· == c)) (xs := cs) (i := k) h
        obtain ⟨hkl, hke⟩ := List.getElem?_eq_some_iff.1 hk
        simp [hke] at this
    simp only [charIter, hm]
    rw [if_pos hin, hidx, if_pos (by omega)]

theorem charIter_none (cs : List Int) (hl : cs.length ≤ 32767) (hn : 0 < cs.length) (wrap : Bool) :
    (charIter (Iterator.ofArray 0 cs) wrap).next (-1) = 0 ∧
    (charIter (Iterator.ofArray 0 cs) wrap).back (-1) = (if wrap then (cs.length - 1 : Int) else -1) ∧
    (charIter (Iterator.ofArray 0 cs) wrap).current (-1) = 0 := by
  have h := isList_ofArray (0 : Int) cs hl
  refine ⟨?_, ?_, ?_⟩
  · cases wrap with
    | false => simp only [charIter, Bool.false_eq_true, if_false, moveNext_in h (i := -1) (by omega) (by omega)]; rfl
    | true =>
      simp only [charIter, if_true, wrapNext_spec h hn (i := -1) (by omega) (by omega)]
      simp
  · cases wrap with
    | false => simp only [charIter, Bool.false_eq_true, if_false, moveBack_end h (i := -1) (by omega) (by omega)]
    | true =>
      have hr : Iterator.resetToEnd (Iterator.ofArray (0 : Int) cs) = cs.length := by
        unfold Iterator.resetToEnd
        show toS 16 (cs.length : Int) = _
        unfold toS; omega
      have : Iterator.wrapBack (Iterator.ofArray (0 : Int) cs) (-1) = .ok ((cs.length : Int) - 1, true) := by
        unfold Iterator.wrapBack
        rw [moveBack_end h (i := -1) (by omega) (by omega), hr]
        simp only [Res.bind_ok]
        rw [moveBack_in h (by omega) (by omega)]
        rfl
      simp only [charIter, if_true, this]
  · simp only [charIter, getCurrent_spec h]
    simp [Spec.getD]
    rfl

theorem asEditor_look {cs : List Int} {wrap : Bool} (hl : cs.length ≤ 32767) (x : Text Int) (e : Editor) (h : AsEditor cs wrap x e) :
    AsEditor cs wrap (Text.reposition x) (Editor.look cs e) := by
  have hc : x.charAt x.edit = e.text.getD e.cursor 0 := by unfold Text.charAt; rw [h.text, h.cursor]
  unfold Text.reposition Editor.look
  rw [h.ops, charIter_moveTo_idx cs hl, hc]
  by_cases hm : e.text.getD e.cursor 0 ∈ cs
  · rw [if_pos hm, if_pos hm]
    exact ⟨rfl, h.text, h.cursor, h.st, rfl, List.idxOf_lt_length_of_mem hm⟩
  · rw [if_neg hm, if_neg hm]
    exact ⟨rfl, h.text, h.cursor, h.st, h.place⟩

theorem asEditor_step {cs : List Int} {wrap : Bool} (hl : cs.length ≤ 32767) (hn : 0 < cs.length) (up : Bool) (p : Option Nat) (it : Int)
    (h : match p with
      | some i => it = i ∧ i < cs.length
      | none => it = -1) :
    let ops := charIter (Iterator.ofArray 0 cs) wrap
    let j := if up then ops.next it else ops.back it
    (match stepPlace cs.length wrap up p with
      | some i => j = i ∧ i < cs.length
      | none => j = -1) ∧ ops.current j = charOf cs (stepPlace cs.length wrap up p) := by
  have cur : ∀ i : Nat, i < cs.length → (charIter (Iterator.ofArray 0 cs) wrap).current i = cs.getD i 0 := by
    intro i hi
    rw [charIter_current cs hl wrap i hi, getD_lt _ _ hi]
  obtain ⟨n1, n2, n3⟩ := charIter_none cs hl hn wrap
  cases p with
  | some i =>
    obtain ⟨rfl, hi⟩ := h
    obtain ⟨t1, t2⟩ := charIter_turn cs hl wrap i hi
    have hj := turn_lt cs.length wrap i hi up
    have e : (if up then (charIter (Iterator.ofArray 0 cs) wrap).next i else (charIter (Iterator.ofArray 0 cs) wrap).back i) = (turn cs.length wrap i up : Nat) := by
      cases up <;> simp [t1, t2]
    simp only [e]
    exact ⟨⟨rfl, hj⟩, cur _ hj⟩
  | none =>
    simp only at h
    subst h
    cases up with
    | true =>
      simp only [if_true, n1, stepPlace]
      exact ⟨⟨rfl, hn⟩, cur 0 hn⟩
    | false =>
      cases wrap with
      | true =>
        simp only [Bool.false_eq_true, if_false, if_true, n2, stepPlace]
        have : ((cs.length : Int) - 1) = ((cs.length - 1 : Nat) : Int) := by omega
        rw [this]
        exact ⟨⟨rfl, by omega⟩, cur _ (by omega)⟩
      | false =>
        simp only [Bool.false_eq_true, if_false, n2, stepPlace]
        exact ⟨trivial, n3⟩

theorem asEditor_key {cs : List Int} {wrap : Bool} (hl : cs.length ≤ 32767) (hn : 0 < cs.length) (x : Text Int) (hcap : x.capacity ≤ 255) (e : Editor)
    (h : AsEditor cs wrap x e) (k : Key) :
    AsEditor cs wrap (nav (keyNav k) x).2 (Editor.key cs wrap x.capacity e k) ∧ (nav (keyNav k) x).2.capacity = x.capacity := by
  refine ⟨?_, (text_step x (.inl (keyNav k))).capacity⟩
  show AsEditor cs wrap (Text.onNav (keyNav k) x).2 _
  have hst := h.st
  cases hed : e.editing with
  | true =>
    rw [hed, if_pos rfl] at hst
    have hb : (x.st == CState.selected) = true := by rw [hst]; rfl
    have hf : (x.st == CState.focused) = false := by rw [hst]; rfl
    cases k with
    | up =>
      have : (Text.onNav .up x).2 = Text.increment x := by simp [Text.onNav, Text.upDownNav, hb]
      simp only [keyNav, this, Editor.key, hed, if_true]
      obtain ⟨a, b⟩ := asEditor_step (wrap := wrap) hl hn true e.place x.iter h.place
      simp only [if_true] at a b
      rw [← h.ops] at a b
      exact ⟨h.ops, by simp only [Text.increment, Text.setChar, b, h.text, h.cursor], h.cursor, by simp [Text.increment, Text.setChar, hst], a⟩
    | down =>
      have : (Text.onNav .down x).2 = Text.decrement x := by simp [Text.onNav, Text.upDownNav, hb]
      simp only [keyNav, this, Editor.key, hed, if_true]
      obtain ⟨a, b⟩ := asEditor_step (wrap := wrap) hl hn false e.place x.iter h.place
      simp only [Bool.false_eq_true, if_false] at a b
      rw [← h.ops] at a b
      exact ⟨h.ops, by simp only [Text.decrement, Text.setChar, b, h.text, h.cursor], h.cursor, by simp [Text.decrement, Text.setChar, hst], a⟩
    | left =>
      have : (Text.onNav .left x).2 = if 0 < x.edit then Text.reposition { x with edit := x.edit - 1 } else x := by
        simp [Text.onNav, Text.tryLeft, hb]
      simp only [keyNav, this, Editor.key, hed, true_and, h.cursor]
      split
      · exact asEditor_look hl _ _ ⟨h.ops, h.text, rfl, by simp [hed, hst], h.place⟩
      · exact h
    | right =>
      have : (Text.onNav .right x).2 = if x.edit + 1 < x.capacity then Text.reposition { x with edit := (x.edit + 1) % 256 } else x := by
        simp [Text.onNav, Text.tryRight, hb]
      simp only [keyNav, this, Editor.key, hed, true_and, h.cursor]
      split
      · refine asEditor_look hl _ _ ⟨h.ops, h.text, ?_, by simp [hed, hst], h.place⟩
        show (e.cursor + 1) % 256 = e.cursor + 1
        omega
      · exact h
    | enter =>
      have : (Text.onNav .enter x).2 = x := by simp [Text.onNav, Text.upDownNav, Text.inputNav, hf]
      simp only [keyNav, this, Editor.key, hed, if_true]
      exact h
    | exit =>
      have : (Text.onNav .exit x).2 = (Text.set .focused x).2 := by simp [Text.onNav, Text.upDownNav, Text.inputNav, hb]
      simp only [keyNav, this, Editor.key, hed, if_true]
      have hset : (Text.set .focused x).2 = { x with edit := 0, st := .focused } := by
        unfold Text.set Text.before
        rw [hst]
        rfl
      rw [hset]
      exact ⟨h.ops, h.text, rfl, by simp, h.place⟩
  | false =>
    rw [hed] at hst
    simp only [Bool.false_eq_true, if_false] at hst
    have hb : (x.st == CState.selected) = false := by rw [hst]; rfl
    have hf : (x.st == CState.focused) = true := by rw [hst]; rfl
    cases k with
    | enter =>
      have : (Text.onNav .enter x).2 = (Text.set .selected x).2 := by simp [Text.onNav, Text.upDownNav, Text.inputNav, hf]
      simp only [keyNav, this, Editor.key, hed, Bool.false_eq_true, if_false]
      have hset : (Text.set .selected x).2 = Text.reposition { x with edit := 0, st := .selected } := by
        unfold Text.set Text.before
        rw [hst]
        rfl
      rw [hset]
      exact asEditor_look hl _ _ ⟨h.ops, h.text, rfl, by simp, h.place⟩
    | up | down | left | right | exit =>
      have idle : ∀ k, k ≠ .enter → (Text.onNav (keyNav k) x).2 = x ∧ Editor.key cs wrap x.capacity e k = e := by
        intro k hk
        cases k <;> first
          | contradiction
          | simp [keyNav, Text.onNav, Text.upDownNav, Text.inputNav, Text.tryLeft, Text.tryRight, hb, Editor.key, hed]
      rw [(idle _ (by simp)).1, (idle _ (by simp)).2]
      exact h

/-- **C71, exact for every text.** Whatever the text contains, in every history of keys the control does what the editor of `Spec/TextEdit.lean` does: Up and Down
    step through the set from the character under the cursor if that is in the set, and otherwise from the last place used. -/
theorem c71_exact {cs : List Int} {wrap : Bool} (hl : cs.length ≤ 32767) (hn : 0 < cs.length) (x : Text Int) (hcap : x.capacity ≤ 255) (e : Editor)
    (h : AsEditor cs wrap x e) (ks : List Key) :
    let y := navs (ks.map keyNav) x
    let f := ks.foldl (Editor.key cs wrap x.capacity) e
    y.text = f.text ∧ y.edit = f.cursor ∧ (y.st = .selected ↔ f.editing = true) := by
  have run : ∀ (ks : List Key) (x : Text Int) (e : Editor), x.capacity ≤ 255 → AsEditor cs wrap x e →
      AsEditor cs wrap (navs (ks.map keyNav) x) (ks.foldl (Editor.key cs wrap x.capacity) e) := by
    intro ks
    induction ks with
    | nil => intro x e _ h; exact h
    | cons k ks ih =>
      intro x e hc h
      obtain ⟨a, b⟩ := asEditor_key hl hn x hc e h k
      have := ih _ _ (by rw [b]; exact hc) a
      rw [b] at this
      exact this
  have := run ks x e hcap h
  refine ⟨this.text, this.cursor, ?_⟩
  rw [this.st]
  cases (ks.foldl (Editor.key cs wrap x.capacity) e).editing <;> simp

/-- A new control with the focus. -/
theorem asEditor_new (cs : List Int) (wrap : Bool) (text : List Int) (cap : Nat) :
    AsEditor cs wrap { st := .focused, text := text, capacity := cap, ops := charIter (Iterator.ofArray 0 cs) wrap, iter := Iterator.init } { text := text } :=
  ⟨rfl, rfl, rfl, rfl, rfl⟩

theorem written_key {cs : List Int} {wrap : Bool} (hn : 0 < cs.length) (cap : Nat) (text : List Int) (e : Editor) (k : Key) (hpl : wrap = true ∨ e.place ≠ none ∨ (e.editing = false ∧ text.getD 0 0 ∈ cs ∧ e.text = text))
    (hp : ∀ i, e.place = some i → i < cs.length)
    (h : ∀ i : Nat, e.text[i]? = text[i]? ∨ ∃ c ∈ cs, e.text[i]? = some c) :
    let f := Editor.key cs wrap cap e k
    (wrap = true ∨ f.place ≠ none ∨ (f.editing = false ∧ text.getD 0 0 ∈ cs ∧ f.text = text)) ∧ (∀ i, f.place = some i → i < cs.length) ∧
      ∀ i : Nat, f.text[i]? = text[i]? ∨ ∃ c ∈ cs, f.text[i]? = some c := by
  have look : ∀ g : Editor, (wrap = true ∨ g.place ≠ none ∨ g.text.getD g.cursor 0 ∈ cs) → (∀ i, g.place = some i → i < cs.length) →
      (∀ i : Nat, g.text[i]? = text[i]? ∨ ∃ c ∈ cs, g.text[i]? = some c) →
      let f := Editor.look cs g
      (wrap = true ∨ f.place ≠ none ∨ (f.editing = false ∧ text.getD 0 0 ∈ cs ∧ f.text = text)) ∧ (∀ i, f.place = some i → i < cs.length) ∧
        ∀ i : Nat, f.text[i]? = text[i]? ∨ ∃ c ∈ cs, f.text[i]? = some c := by
    intro g h1 h2 h3
    unfold Editor.look
    by_cases hm : g.text.getD g.cursor 0 ∈ cs
    · rw [if_pos hm]
      refine ⟨Or.inr (Or.inl (by simp)), ?_, h3⟩
      intro i hi
      cases hi
      exact List.idxOf_lt_length_of_mem hm
    · rw [if_neg hm]
      refine ⟨?_, h2, h3⟩
      rcases h1 with a | a | a
      · exact Or.inl a
      · exact Or.inr (Or.inl a)
      · exact absurd a hm
  have put : ∀ up : Bool, e.editing = true →
      let p := stepPlace cs.length wrap up e.place
      (wrap = true ∨ p ≠ none) ∧ (∀ i, p = some i → i < cs.length) ∧
        ∀ i : Nat, (e.text.set e.cursor (charOf cs p))[i]? = text[i]? ∨ ∃ c ∈ cs, (e.text.set e.cursor (charOf cs p))[i]? = some c := by
    intro up hed
    have hsome : ∃ j, stepPlace cs.length wrap up e.place = some j ∧ j < cs.length := by
      cases hpp : e.place with
      | some i => exact ⟨_, rfl, turn_lt _ _ _ (hp i hpp) _⟩
      | none =>
        cases up with
        | true => exact ⟨0, rfl, hn⟩
        | false =>
          rcases hpl with a | a | a
          · exact ⟨cs.length - 1, by simp [stepPlace, a], by omega⟩
          · exact absurd hpp a
          · rw [hed] at a; exact absurd a.1 (by decide)
    obtain ⟨j, e1, e2⟩ := hsome
    simp only [e1, charOf]
    refine ⟨Or.inr (by simp), ?_, ?_⟩
    · intro i hi; cases hi; exact e2
    · intro i
      by_cases hi : e.cursor = i
      · subst hi
        by_cases hlt : e.cursor < e.text.length
        · rw [List.getElem?_set_self hlt, getD_lt _ _ e2]
          exact Or.inr ⟨_, List.getElem_mem e2, rfl⟩
        · rw [List.getElem?_set]
          simp only [if_pos rfl, if_neg hlt]
          have := h e.cursor
          rw [List.getElem?_eq_none (by omega)] at this
          simpa using this
      · rw [List.getElem?_set_ne hi]; exact h i
  cases hed : e.editing with
  | true =>
    have hpl' : wrap = true ∨ e.place ≠ none := by
      rcases hpl with a | a | a
      · exact Or.inl a
      · exact Or.inr a
      · rw [hed] at a; exact absurd a.1 (by decide)
    have lift : ∀ g : Editor, g.place = e.place → g.text = e.text →
      (wrap = true ∨ g.place ≠ none ∨ g.text.getD g.cursor 0 ∈ cs) ∧ (∀ i, g.place = some i → i < cs.length) ∧
      (∀ i : Nat, g.text[i]? = text[i]? ∨ ∃ c ∈ cs, g.text[i]? = some c) := by
      intro g g1 g2
      rw [g1, g2]
      refine ⟨?_, hp, h⟩
      rcases hpl' with a | a
      · exact Or.inl a
      · exact Or.inr (Or.inl a)
    cases k with
    | enter =>
      have : Editor.key cs wrap cap e .enter = e := by simp only [Editor.key, hed, if_true]
      rw [this]; exact ⟨hpl, hp, h⟩
    | exit =>
      simp only [Editor.key, hed, if_true]
      refine ⟨?_, hp, h⟩
      rcases hpl' with a | a
      · exact Or.inl a
      · exact Or.inr (Or.inl a)
    | left =>
      simp only [Editor.key, hed, true_and]
      split
      · obtain ⟨a, b, c⟩ := lift { e with cursor := e.cursor - 1 } rfl rfl
        exact look _ a b c
      · exact ⟨hpl, hp, h⟩
    | right =>
      simp only [Editor.key, hed, true_and]
      split
      · obtain ⟨a, b, c⟩ := lift { e with cursor := e.cursor + 1 } rfl rfl
        exact look _ a b c
      · exact ⟨hpl, hp, h⟩
    | up =>
      simp only [Editor.key, hed, if_true]
      obtain ⟨a, b, c⟩ := put true hed
      exact ⟨a.elim Or.inl fun a => Or.inr (Or.inl a), b, c⟩
    | down =>
      simp only [Editor.key, hed, if_true]
      obtain ⟨a, b, c⟩ := put false hed
      exact ⟨a.elim Or.inl fun a => Or.inr (Or.inl a), b, c⟩
  | false =>
    cases k with
    | enter =>
      simp only [Editor.key, hed, Bool.false_eq_true, if_false]
      refine look _ ?_ hp h
      rcases hpl with a | a | a
      · exact Or.inl a
      · exact Or.inr (Or.inl a)
      · refine Or.inr (Or.inr ?_)
        show e.text.getD 0 0 ∈ cs
        rw [a.2.2]; exact a.2.1
    | up | down | left | right | exit =>
      have idle : ∀ k, k ≠ .enter → Editor.key cs wrap cap e k = e := by intro k hk; cases k <;> first | contradiction | simp [Editor.key, hed]
      rw [idle _ (by simp)]
      exact ⟨hpl, hp, h⟩

/-- **C71, whatever the text contains.** If the first character is in the set, or the iterator goes round, no history of keys writes anything but characters of the
    set: every character of the text is the original one or one of the set. -/
theorem c71_written_partial (cs : List Int) (hl : cs.length ≤ 32767) (hn : 0 < cs.length) (wrap : Bool) (text : List Int) (cap : Nat) (hcap : cap ≤ 255)
    (hfirst : wrap = true ∨ text.getD 0 0 ∈ cs) (ks : List Key) (i : Nat) :
    let x : Text Int := { st := .focused, text := text, capacity := cap, ops := charIter (Iterator.ofArray 0 cs) wrap, iter := Iterator.init }
    let y := navs (ks.map keyNav) x
    y.text[i]? = text[i]? ∨ ∃ c ∈ cs, y.text[i]? = some c := by
  have hx := c71_exact (wrap := wrap) hl hn { st := .focused, text := text, capacity := cap, ops := charIter (Iterator.ofArray 0 cs) wrap, iter := Iterator.init } hcap
    { text := text } (asEditor_new cs wrap text cap) ks
  simp only at hx ⊢
  rw [hx.1]
  have run : ∀ (ks : List Key) (e : Editor), (wrap = true ∨ e.place ≠ none ∨ (e.editing = false ∧ text.getD 0 0 ∈ cs ∧ e.text = text)) →
      (∀ i, e.place = some i → i < cs.length) → (∀ i : Nat, e.text[i]? = text[i]? ∨ ∃ c ∈ cs, e.text[i]? = some c) →
      ∀ i : Nat, (ks.foldl (Editor.key cs wrap cap) e).text[i]? = text[i]? ∨ ∃ c ∈ cs, (ks.foldl (Editor.key cs wrap cap) e).text[i]? = some c := by
    intro ks
    induction ks with
    | nil => intro e _ _ h; exact h
    | cons k ks ih =>
      intro e a b c
      obtain ⟨a', b', c'⟩ := written_key hn cap text e k a b c
      exact ih _ a' b' c'
  refine run ks { text := text } ?_ (by intro i hi; cases hi) (fun i => Or.inl rfl) i
  rcases hfirst with a | a
  · exact Or.inl a
  · exact Or.inr (Or.inr ⟨rfl, a, rfl⟩)

example := c71_written_partial [97, 98, 99, 100] (by decide) (by decide) false [98, 63, 0] 2 (by decide) (.inr (by decide)) [.enter, .right, .up, .left, .down] 1

/-- **C71 fails** in every other case: with an iterator that does not go round and a first character outside the set, Down ends the text there. -/
theorem c71_zero_fails (cs : List Int) (hl : cs.length ≤ 32767) (hn : 0 < cs.length) (c : Int) (rest : List Int) (hc : c ∉ cs) (cap : Nat) (hcap : cap ≤ 255) :
    (navs [.enter, .down] { st := .focused, text := c :: rest, capacity := cap, ops := charIter (Iterator.ofArray 0 cs) false, iter := Iterator.init : Text Int }).text = 0 :: rest := by
  have hx := c71_exact (wrap := false) hl hn { st := .focused, text := c :: rest, capacity := cap, ops := charIter (Iterator.ofArray 0 cs) false, iter := Iterator.init } hcap
    { text := c :: rest } (asEditor_new cs false (c :: rest) cap) [.enter, .down]
  simp only [List.map, keyNav] at hx
  rw [hx.1]
  simp [Editor.key, Editor.look, hc, stepPlace, charOf]

/-- "c?" over 'a'..'d': on the second character Up gives 'd' and Down 'b', counted from the first. -/
example : (navs [.enter, .right, .up] (abcd [99, 63, 0] false)).text = [99, 100, 0] ∧ (navs [.enter, .right, .down] (abcd [99, 63, 0] false)).text = [99, 98, 0] := by
  decide +kernel

/-- "?b" with an iterator that goes round: Down gives the last character. -/
example : (navs [.enter, .down] (abcd [63, 98, 0] true)).text = [100, 98, 0] := by decide +kernel

end Atl.Props
