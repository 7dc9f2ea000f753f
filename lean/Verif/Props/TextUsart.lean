import Verif.Model.TextUsart
import Verif.Props.TextSketch
import Verif.Props.UsartStream

/- Property theorems C119: text over the interrupt driven USART output stream. -/
namespace Atl.Props
open Atl.Usart Atl.Text Atl.TextSketch Atl.TextUsart Atl.Spec.Text

/-- What holds in every history: `q` the buffer, `given` the characters handed to the stream so far. -/
structure CInv (n : Nat) (b : BitVec 8) (k : Console) (q given : List Nat) : Prop where
  out : OInv n b k.tx q
  small : ∀ c ∈ k.todo, c < 256
  sub : k.tx.accepted.Sublist given

theorem con_unique {n : Nat} {b : BitVec 8} {y : OutSys} {q q' : List Nat} (h : OInv n b y q)
    (h' : y.s.hw.line ++ y.s.hw.shift.toList ++ y.s.hw.tx.toList ++ q' = y.accepted) : q' = q := by
  rw [← h.order] at h'
  exact List.append_cancel_left h'

section
variable {n : Nat} {b : BitVec 8} {k : Console} {q given : List Nat}

/-- Handing a character to the stream: kept exactly when there is room. -/
theorem con_give (h : CInv n b k q given) (hp : k.tx.phase = .idle) {c : Nat} {cs : List Nat} (ht : k.todo = c :: cs) :
    ∃ k', k.step .main = .ok k' ∧ k'.todo = cs ∧ k'.tx.phase = .buffered ∧ k'.tx.s.hw = k.tx.s.hw ∧
      (if q.length + 1 < n then k'.tx.accepted = k.tx.accepted ++ [c] ∧ CInv n b k' (q ++ [c]) (given ++ [c])
       else k'.tx.accepted = k.tx.accepted ∧ CInv n b k' q (given ++ [c])) := by
  have hc : c < 256 := h.small c (by rw [ht]; simp)
  have hv : (BitVec.ofNat 8 c).toNat = c := by rw [BitVec.toNat_ofNat]; exact Nat.mod_eq_of_lt (by simpa using hc)
  have hsm : ∀ x ∈ cs, x < 256 := fun x hx => h.small x (by rw [ht]; simp [hx])
  obtain ⟨rel, size, bytes, order, wf, on, bits, held1, held2⟩ := h.out
  have hq := rel.hq
  split
  · rename_i hr
    obtain ⟨buf, hb, hrel, hsz⟩ := RingBuffer.write_room rel c (by omega)
    refine ⟨{ tx := { s := { k.tx.s with buf := buf }, phase := .buffered, accepted := k.tx.accepted ++ [c] }, todo := cs }, ?_, rfl, rfl, rfl, rfl, ⟨?_, hsm, ?_⟩⟩
    · simp only [Console.step, hp, ht, OutSys.step, OutStream.writeBuffer, hv, hb, Res.bind_ok, if_true]
    · refine ⟨hrel, hsz.trans size, ?_, ?_, wf, (by simp), bits, by simp, by simp⟩
      · intro y hy
        simp only [List.mem_append, List.mem_singleton] at hy
        rcases hy with hy | rfl
        · exact bytes y hy
        · exact hc
      · show k.tx.s.hw.line ++ k.tx.s.hw.shift.toList ++ k.tx.s.hw.tx.toList ++ (q ++ [c]) = k.tx.accepted ++ [c]
        rw [← order, List.append_assoc]
        simp
    · exact h.sub.append (List.Sublist.refl _)
  · have hb := RingBuffer.write_full rel c (by omega)
    refine ⟨{ tx := { s := k.tx.s, phase := .buffered, accepted := k.tx.accepted }, todo := cs }, ?_, rfl, rfl, rfl, rfl, ⟨?_, hsm, ?_⟩⟩
    · simp only [Console.step, hp, ht, OutSys.step, OutStream.writeBuffer, hv, hb, Res.bind_ok]
      rfl
    · exact ⟨rel, size, bytes, order, wf, (by simp), bits, by simp, by simp⟩
    · exact h.sub.trans (List.sublist_append_left _ _)

/-- Every other event leaves the characters alone. -/
theorem con_other (hn : n < 65536) (h : CInv n b k q given) (e : ConEv) (he : e = .main → k.tx.phase = .idle → k.todo = []) :
    ∃ k' q', k.step e = .ok k' ∧ k'.todo = k.todo ∧ k'.tx.accepted = k.tx.accepted ∧ q'.length ≤ q.length ∧ CInv n b k' q' given := by
  have go : ∀ e' : OutEv, (∀ v, e' ≠ .write v) → ∃ t q', k.tx.step e' = .ok t ∧ t.accepted = k.tx.accepted ∧ q'.length ≤ q.length ∧
      CInv n b { tx := t, todo := k.todo } q' given := by
    intro e' hw
    obtain ⟨t, q', h1, h2⟩ := step_inv hn h.out e'
    have ha : t.accepted = k.tx.accepted ∧ (k.tx.s.hw.line ++ k.tx.s.hw.shift.toList ++ k.tx.s.hw.tx.toList).length ≤
        (t.s.hw.line ++ t.s.hw.shift.toList ++ t.s.hw.tx.toList).length := by
      cases e' with
      | write v => exact absurd rfl (hw v)
      | main =>
        unfold OutSys.step at h1
        cases hp : k.tx.phase <;> simp only [hp] at h1 <;> injection h1 with h1 <;> rw [← h1] <;> exact ⟨rfl, Nat.le_refl _⟩
      | isr =>
        simp only [OutSys.step] at h1
        split at h1
        · rename_i hc
          have ht : k.tx.s.hw.tx = none := by
            rw [Bool.and_eq_true, accept_iff] at hc
            simpa using hc.2
          obtain ⟨s, hs, g | g⟩ := isr_inv hn h.out ht
          · obtain ⟨v, q', -, -, e1, e2, e3⟩ := g
            rw [hs] at h1
            injection h1 with h1
            rw [← h1]
            refine ⟨rfl, ?_⟩
            show _ ≤ (s.hw.line ++ s.hw.shift.toList ++ s.hw.tx.toList).length
            rw [e1, e2, e3, ht]
            simp
          · obtain ⟨-, -, e1, e2, e3⟩ := g
            rw [hs] at h1
            injection h1 with h1
            rw [← h1]
            refine ⟨rfl, ?_⟩
            show _ ≤ (s.hw.line ++ s.hw.shift.toList ++ s.hw.tx.toList).length
            rw [e1, e2, e3, ht]
        · injection h1 with h1
          rw [← h1]
          exact ⟨rfl, Nat.le_refl _⟩
      | frame =>
        injection h1 with h1
        rw [← h1]
        refine ⟨rfl, ?_⟩
        show _ ≤ ((k.tx.s.hw.line ++ k.tx.s.hw.shift.toList) ++ k.tx.s.hw.tx.toList ++ []).length
        simp
      | load =>
        injection h1 with h1
        rw [← h1]
        refine ⟨rfl, ?_⟩
        show _ ≤ (k.tx.s.hw.load.line ++ k.tx.s.hw.load.shift.toList ++ k.tx.s.hw.load.tx.toList).length
        unfold Hw.load
        split
        · rename_i hs
          rw [hs]
          simp
        · exact Nat.le_refl _
    refine ⟨t, q', h1, ha.1, ?_, ⟨h2, h.small, by rw [ha.1]; exact h.sub⟩⟩
    have o1 := congrArg List.length h.out.order
    have o2 := congrArg List.length h2.order
    rw [ha.1] at o2
    rw [List.length_append] at o1 o2
    omega
  cases e with
  | main =>
    obtain ⟨t, q', h1, h2, h3, h4⟩ := go .main (by simp)
    refine ⟨{ k with tx := t }, q', ?_, rfl, h2, h3, h4⟩
    unfold Console.step
    cases hp : k.tx.phase
    · simp only [he rfl hp, h1, Res.bind_ok]
    all_goals simp only [h1, Res.bind_ok]
  | isr => obtain ⟨t, q', h1, h2, h3, h4⟩ := go .isr (by simp); exact ⟨{ k with tx := t }, q', by simp only [Console.step, h1, Res.bind_ok], rfl, h2, h3, h4⟩
  | frame => obtain ⟨t, q', h1, h2, h3, h4⟩ := go .frame (by simp); exact ⟨{ k with tx := t }, q', by simp only [Console.step, h1, Res.bind_ok], rfl, h2, h3, h4⟩
  | load => obtain ⟨t, q', h1, h2, h3, h4⟩ := go .load (by simp); exact ⟨{ k with tx := t }, q', by simp only [Console.step, h1, Res.bind_ok], rfl, h2, h3, h4⟩

end

/-- The event that drops a character: main code hands one over while the buffer (of `n` items, one always unused) is full. -/
def Drops (n : Nat) (k : Console) (e : ConEv) : Prop := e = .main ∧ k.tx.phase = .idle ∧ k.todo ≠ [] ∧ RingBuffer.getLength k.tx.s.buf + 1 = n

/-- A history in which no character is dropped. -/
def NoDrop (n : Nat) : Console → List ConEv → Prop
  | _, [] => True
  | k, e :: es => ¬ Drops n k e ∧ ∀ k', k.step e = .ok k' → NoDrop n k' es

theorem con_run {n : Nat} (hn : n < 65536) {b : BitVec 8} (text : List Nat) (es : List ConEv) :
    ∀ {k : Console} {q given : List Nat}, CInv n b k q given → given ++ k.todo = text →
    ∃ k' q' given', k.run es = .ok k' ∧ CInv n b k' q' given' ∧ given' ++ k'.todo = text ∧
      (k.tx.accepted = given → NoDrop n k es → k'.tx.accepted = given') := by
  induction es with
  | nil => intro k q given h ht; exact ⟨k, q, given, rfl, h, ht, fun h _ => h⟩
  | cons e es ih =>
    intro k q given h ht
    by_cases hc : e = .main ∧ k.tx.phase = .idle ∧ k.todo ≠ []
    · obtain ⟨rfl, hp, hne⟩ := hc
      obtain ⟨c, cs, hcs⟩ := List.exists_cons_of_ne_nil hne
      obtain ⟨k1, s1, t1, -, -, a1⟩ := con_give h hp hcs
      have hl := RingBuffer.getLength_rel h.out.rel (by rw [h.out.size]; exact hn)
      split at a1
      · obtain ⟨k2, q2, g2, s2, i2, t2, d2⟩ := ih a1.2 (by rw [t1, ← ht, hcs]; simp)
        exact ⟨k2, q2, g2, by unfold Console.run; rw [s1]; exact s2, i2, t2, fun hg hd => d2 (by rw [a1.1, hg]) (hd.2 k1 s1)⟩
      · rename_i hfull
        obtain ⟨k2, q2, g2, s2, i2, t2, d2⟩ := ih a1.2 (by rw [t1, ← ht, hcs]; simp)
        refine ⟨k2, q2, g2, by unfold Console.run; rw [s1]; exact s2, i2, t2, fun hg hd => ?_⟩
        refine absurd ⟨rfl, hp, hne, ?_⟩ hd.1
        have := h.out.rel.hq
        have := h.out.size
        omega
    · obtain ⟨k1, q1, s1, t1, a1, l1, i1⟩ := con_other hn h e (fun he hp => by
        by_cases hne : k.todo = []
        · exact hne
        · exact absurd ⟨he, hp, hne⟩ hc)
      obtain ⟨k2, q2, g2, s2, i2, t2, d2⟩ := ih i1 (by rw [t1]; exact ht)
      exact ⟨k2, q2, g2, by unfold Console.run; rw [s1]; exact s2, i2, t2, fun hg hd => d2 (a1.trans hg) (hd.2 k1 s1)⟩

theorem con_init (g : List Nat) (b : BitVec 8) (hg : 0 < g.length) (text : List Nat) (ht : ∀ c ∈ text, c < 256) :
    CInv g.length b (Console.init g b text) [] [] := ⟨outInit_inv g b hg, ht, List.Sublist.refl _⟩

/-- A text shorter than the buffer is never dropped, however late the interrupts come. -/
theorem short_noDrop {n : Nat} (hn : n < 65536) {b : BitVec 8} (es : List ConEv) :
    ∀ {k : Console} {q given : List Nat}, CInv n b k q given → q.length + k.todo.length < n → NoDrop n k es := by
  induction es with
  | nil => intro k q given _ _; trivial
  | cons e es ih =>
    intro k q given h hl
    have hlen := RingBuffer.getLength_rel h.out.rel (by rw [h.out.size]; exact hn)
    refine ⟨?_, fun k' hs => ?_⟩
    · rintro ⟨-, -, hne, hf⟩
      have := List.length_pos_iff.2 hne
      omega
    · by_cases hc : e = .main ∧ k.tx.phase = .idle ∧ k.todo ≠ []
      · obtain ⟨rfl, hp, hne⟩ := hc
        obtain ⟨c, cs, hcs⟩ := List.exists_cons_of_ne_nil hne
        obtain ⟨k1, s1, t1, -, -, a1⟩ := con_give h hp hcs
        rw [s1] at hs
        injection hs with hs
        subst hs
        rw [hcs, List.length_cons] at hl
        rw [if_pos (by omega)] at a1
        exact ih a1.2 (by rw [t1]; simp; omega)
      · obtain ⟨k1, q1, s1, t1, a1, l1, i1⟩ := con_other hn h e (fun he hp => by
          by_cases hne : k.todo = []
          · exact hne
          · exact absurd ⟨he, hp, hne⟩ hc)
        rw [s1] at hs
        injection hs with hs
        subst hs
        exact ih i1 (by rw [t1]; omega)

/-- `n` times: the interrupt if it is pending, then a frame ends. -/
def conRounds : Nat → List ConEv
  | 0 => []
  | n + 1 => .isr :: .frame :: conRounds n

theorem con_rounds (n : Nat) (k : Console) : k.run (conRounds n) = (do let t ← k.tx.run (sendRounds n); .ok { k with tx := t }) := by
  induction n generalizing k with
  | zero => rfl
  | succ n ih =>
    simp only [conRounds, sendRounds, Console.run, OutSys.run, Console.step]
    cases h1 : k.tx.step .isr with
    | ub => rfl
    | ok t =>
      simp only [Res.bind_ok]
      cases h2 : t.step .frame with
      | ub => rfl
      | ok u => simp only [Res.bind_ok, ih]

/-! ### The theorems -/

/-- **C119, any text, any history.** However the interrupts and frames fall, also inside Write: no undefined behaviour, and what is on the line is a selection of the
    characters handed over so far, in their order: nothing is doubled, reordered or made up. -/
theorem c119_order (g : List Nat) (b : BitVec 8) (hg : 0 < g.length) (hn : g.length < 65536) (text : List Nat) (ht : ∀ c ∈ text, c < 256) (es : List ConEv) :
    ∃ k given, (Console.init g b text).run es = .ok k ∧ given ++ k.todo = text ∧ k.tx.s.hw.line.Sublist given := by
  obtain ⟨k, q, given, h1, h2, h3, -⟩ := con_run hn text es (con_init g b hg text ht) rfl
  refine ⟨k, given, h1, h3, List.Sublist.trans ?_ h2.sub⟩
  rw [← h2.out.order]
  simp only [List.append_assoc]
  exact List.sublist_append_left _ _

example := c119_order [0, 0, 0, 0] 0x08#8 (by decide) (by decide) [45, 55, 10, 13] (by decide) ([.main, .main, .main, .main, .main, .main, .isr, .frame, .isr] ++ conRounds 3)

theorem con_done {g : List Nat} {b : BitVec 8} (hn : g.length < 65536) {text : List Nat} {k : Console} {q given : List Nat} (h : CInv g.length b k q given)
    (ht : given ++ k.todo = text) (ha : k.tx.accepted = given) (hd : k.todo = []) (hp : k.tx.phase = .idle) (m : Nat) (hm : text.length < m) :
    ∃ k', k.run (conRounds m) = .ok k' ∧ k'.tx.s.hw.line = text := by
  rw [hd, List.append_nil] at ht
  have hpen : pend q k.tx.s.hw.tx k.tx.s.hw.shift ≤ m := by
    have := congrArg List.length h.out.order
    rw [ha, ht] at this
    simp only [List.length_append] at this
    unfold pend
    omega
  obtain ⟨t, e1, e2, -⟩ := drain_inv hn m k.tx q h.out hp hpen
  exact ⟨{ k with tx := t }, by rw [con_rounds, e1]; rfl, e2.trans (ha.trans ht)⟩

/-- **C119, any text.** If in a history no character is handed to a full stream, and main code is done, then once the interrupt has been served often enough
    the line carries exactly the text. -/
theorem c119_complete (g : List Nat) (b : BitVec 8) (hg : 0 < g.length) (hn : g.length < 65536) (text : List Nat) (ht : ∀ c ∈ text, c < 256) (es : List ConEv)
    (hd : NoDrop g.length (Console.init g b text) es) (k : Console) (hk : (Console.init g b text).run es = .ok k) (h0 : k.todo = []) (hp : k.tx.phase = .idle)
    (m : Nat) (hm : text.length < m) : ∃ k', k.run (conRounds m) = .ok k' ∧ k'.tx.s.hw.line = text := by
  obtain ⟨k1, q, given, h1, h2, h3, h4⟩ := con_run hn text es (con_init g b hg text ht) rfl
  rw [hk] at h1
  injection h1 with h1
  subst h1
  exact con_done hn h2 h3 (h4 rfl hd) h0 hp m hm

/-! ### Values -/

/-- A format and values made of bytes. -/
structure Bytes (f : Format) (items : List Item) : Prop where
  sign : f.negativeSign < 256
  sep : f.decimalSeparator < 256
  line : ∀ c ∈ f.newLine, c < 256
  mem : ∀ m, .str m ∈ items → ∀ c ∈ m, c < 256

theorem readFrom_small (base : Nat) (s : List Nat) : ∀ acc v, readFrom base acc s = some v → ∀ c ∈ s, c < 256 := by
  induction s with
  | nil => simp
  | cons d s ih =>
    intro acc v h c hc
    unfold readFrom at h
    cases hd : digitVal d with
    | none => rw [hd] at h; cases h
    | some x =>
      rw [hd] at h
      dsimp only at h
      split at h
      · rcases List.mem_cons.1 hc with rfl | hc
        · unfold digitVal at hd
          split at hd
          · omega
          · split at hd
            · omega
            · cases hd
        · exact ih _ _ h c hc
      · cases h

theorem parse_small {base : Nat} {s : List Nat} {v : Nat} (h : parse base s = some v) : ∀ c ∈ s, c < 256 := by
  unfold parse at h
  split at h
  · cases h
  · exact readFrom_small base s 0 v h

theorem written_small {f : Format} {items : List Item} (hb : Bytes f items) {i : Item} (hi : i ∈ items) {t : List Nat} (h : Written f i t) : ∀ c ∈ t, c < 256 := by
  cases i with
  | str m =>
    obtain ⟨-, rest, rfl⟩ := h
    intro c hc
    exact hb.mem _ hi c (by simp [hc])
  | int x =>
    simp only [Written] at h
    split at h
    · obtain ⟨-, u, hu, rfl⟩ := h
      intro c hc
      rcases List.mem_append.1 hc with hc | hc
      · split at hc
        · simp only [List.mem_singleton] at hc
          exact hc ▸ hb.sign
        · simp at hc
      · exact parse_small hu.1 c hc
    · exact parse_small h.1
  | real x =>
    obtain ⟨s, n, rfl, ⟨u, w, rfl, hw, -, hp, -⟩, -⟩ := h
    have := parse_small hp
    intro c hc
    simp only [List.mem_append] at hc this
    rcases hc with hc | hc | hc
    · split at hc
      · simp only [List.mem_singleton] at hc
        exact hc ▸ hb.sign
      · simp at hc
    · exact this c (Or.inl hc)
    · split at hc
      · simp at hc
      · rcases List.mem_cons.1 hc with rfl | hc
        · exact hb.sep
        · exact this c (Or.inr hc)

theorem lines_written (f : Format) (hf : Sensible f) (items : List Item) (h : ∀ i ∈ items, Writable f i) :
    ∃ texts, List.Forall₂ (Written f) items texts ∧ lines (roundBin 24 126) f items = .ok (texts.map (· ++ f.newLine)).flatten := by
  induction items with
  | nil => exact ⟨[], .nil, rfl⟩
  | cons i is ih =>
    obtain ⟨t, e, ht⟩ := item_written f hf i (h i (by simp))
    obtain ⟨ts, hts, e2⟩ := ih fun j hj => h j (by simp [hj])
    exact ⟨t :: ts, .cons ht hts, by simp only [lines, e, e2, Res.bind_ok, List.map_cons, List.flatten_cons]⟩

theorem lines_small {f : Format} {items : List Item} (hb : Bytes f items) {texts : List (List Nat)} (h : List.Forall₂ (Written f) items texts) :
    ∀ c ∈ (texts.map (· ++ f.newLine)).flatten, c < 256 := by
  intro c hc
  simp only [List.mem_flatten, List.mem_map] at hc
  obtain ⟨l, ⟨t, ht, rfl⟩, hc⟩ := hc
  rcases List.mem_append.1 hc with hc | hc
  · have : ∀ t ∈ texts, ∃ i ∈ items, Written f i t := by
      clear hb hc ht
      induction h with
      | nil => simp
      | cons h1 h2 ih =>
        intro t ht
        rcases List.mem_cons.1 ht with rfl | ht
        · exact ⟨_, by simp, h1⟩
        · obtain ⟨i, hi, hw⟩ := ih t ht
          exact ⟨i, by simp [hi], hw⟩
    obtain ⟨i, hi, hw⟩ := this t ht
    exact written_small hb hi hw c hc
  · exact hb.line c hc

/-- **C119, values.** A TextWriter on the USART stream, any sensible format and values, all the text together shorter than the buffer: whenever the interrupts come,
    in the end the line carries exactly one line for each value, in order. -/
theorem c119_short_partial (f : Format) (hf : Sensible f) (items : List Item) (hw : ∀ i ∈ items, Writable f i) (hb : Bytes f items)
    (g : List Nat) (b : BitVec 8) (hn : g.length < 65536) :
    ∃ texts, List.Forall₂ (Written f) items texts ∧ lines (roundBin 24 126) f items = .ok (texts.map (· ++ f.newLine)).flatten ∧
      ((texts.map (· ++ f.newLine)).flatten.length < g.length → ∀ es k, (Console.init g b (texts.map (· ++ f.newLine)).flatten).run es = .ok k →
        k.todo = [] → k.tx.phase = .idle → ∀ m, (texts.map (· ++ f.newLine)).flatten.length < m →
        ∃ k', k.run (conRounds m) = .ok k' ∧ k'.tx.s.hw.line = (texts.map (· ++ f.newLine)).flatten) := by
  obtain ⟨texts, h1, h2⟩ := lines_written f hf items hw
  refine ⟨texts, h1, h2, fun hl es k hk h0 hp m hm => ?_⟩
  have hs := lines_small hb h1
  have hi := con_init g b (by omega) _ hs
  exact c119_complete g b (by omega) hn _ hs es (short_noDrop hn es hi (by simpa [Console.init] using hl)) k hk h0 hp m hm

example := c119_short_partial {} ⟨by decide, by decide, by decide, by decide⟩ [.int (-7)] (by simp [Writable]) ⟨by decide, by decide, by decide, by simp⟩ [0, 0, 0, 0, 0] 0x08#8 (by decide)

/-! ### Two ways of timing -/

theorem con_append (as bs : List ConEv) (k : Console) : k.run (as ++ bs) = (do let k ← k.run as; k.run bs) := by
  induction as generalizing k with
  | nil => rfl
  | cons a as ih =>
    show (do let k ← k.step a; k.run (as ++ bs)) = (do let k ← (do let k ← k.step a; k.run as); k.run bs)
    cases k.step a with
    | ub => rfl
    | ok k' => exact ih k'

/-- One call of Write, without an interrupt in it. -/
def call : List ConEv := [.main, .main, .main, .main, .main]

theorem con_call {n : Nat} (hn : n < 65536) {b : BitVec 8} {k : Console} {q given : List Nat} (h : CInv n b k q given) (hp : k.tx.phase = .idle)
    {c : Nat} {cs : List Nat} (ht : k.todo = c :: cs) :
    ∃ k', k.run call = .ok k' ∧ k'.todo = cs ∧ k'.tx.phase = .idle ∧ k'.tx.s.hw.tx = k.tx.s.hw.tx ∧
      (if q.length + 1 < n then k'.tx.accepted = k.tx.accepted ++ [c] ∧ CInv n b k' (q ++ [c]) (given ++ [c])
       else k'.tx.accepted = k.tx.accepted ∧ CInv n b k' q (given ++ [c])) := by
  obtain ⟨k1, s1, t1, p1, w1, a1⟩ := con_give h hp ht
  obtain ⟨k2, e2⟩ : ∃ k2 : Console, k2 = { tx := { s := k1.tx.s.enable, phase := .idle, accepted := k1.tx.accepted }, todo := k1.todo } := ⟨_, rfl⟩
  have r2 : k1.run [.main, .main, .main, .main] = .ok k2 := by
    rw [e2]
    simp only [Console.run, Console.step, OutSys.step, p1, Res.bind_ok]
    rfl
  have fin : ∀ q1 g1, CInv n b k1 q1 g1 → CInv n b k2 q1 g1 := by
    intro q1 g1 i1
    obtain ⟨k3, q3, g3, s3, i3, t3, -⟩ := con_run hn (g1 ++ k1.todo) [.main, .main, .main, .main] i1 rfl
    rw [r2] at s3
    injection s3 with s3
    subst s3
    have hg : g3 = g1 := List.append_cancel_right (by rw [e2] at t3; exact t3)
    have hq : q3 = q1 := by
      have o := i3.out.order
      rw [e2] at o
      exact con_unique i1.out o
    rw [hg, hq] at i3
    exact i3
  refine ⟨k2, ?_, by rw [e2]; exact t1, by rw [e2], by rw [e2, ← w1]; rfl, ?_⟩
  · unfold call Console.run
    rw [s1]
    exact r2
  · split
    · rename_i hr
      rw [if_pos hr] at a1
      exact ⟨by rw [e2]; exact a1.1, fin _ _ a1.2⟩
    · rename_i hr
      rw [if_neg hr] at a1
      exact ⟨by rw [e2]; exact a1.1, fin _ _ a1.2⟩

/-- `n` calls of Write, one after the other, while the interrupts are off. -/
def calls : Nat → List ConEv
  | 0 => []
  | n + 1 => call ++ calls n

/-- `n` calls of Write, after each of which the interrupt is served and a frame ends. -/
def paced : Nat → List ConEv
  | 0 => []
  | n + 1 => call ++ ([.isr, .frame] ++ paced n)

/-- **C119, with interrupts off.** Text written while the interrupts are off (or faster than the line) ends up cut: the line carries exactly the first `Size - 1`
    characters. -/
theorem c119_cut (g : List Nat) (b : BitVec 8) (hg : 0 < g.length) (hn : g.length < 65536) (text : List Nat) (ht : ∀ c ∈ text, c < 256) (m : Nat)
    (hm : text.length < m) :
    ∃ k, (Console.init g b text).run (calls text.length ++ conRounds m) = .ok k ∧ k.todo = [] ∧ k.tx.s.hw.line = text.take (g.length - 1) := by
  have key : ∀ (l : List Nat) (k : Console) (q given : List Nat), CInv g.length b k q given → k.tx.phase = .idle → k.todo = l →
      ∃ k' q' given', k.run (calls l.length) = .ok k' ∧ CInv g.length b k' q' given' ∧ k'.tx.phase = .idle ∧ k'.todo = [] ∧
        k'.tx.accepted = k.tx.accepted ++ l.take (g.length - 1 - q.length) := by
    intro l
    induction l with
    | nil => intro k q given h hp hl; exact ⟨k, q, given, rfl, h, hp, hl, by simp⟩
    | cons c l ih =>
      intro k q given h hp hl
      obtain ⟨k1, s1, t1, p1, -, a1⟩ := con_call hn h hp hl
      have hq := h.out.rel.hq
      rw [h.out.size] at hq
      split at a1
      · rename_i hr
        obtain ⟨k2, q2, g2, s2, i2, p2, z2, e2⟩ := ih k1 _ _ a1.2 p1 t1
        refine ⟨k2, q2, g2, by rw [List.length_cons, calls, con_append, s1]; exact s2, i2, p2, z2, ?_⟩
        rw [e2, a1.1, List.length_append, List.length_singleton]
        obtain ⟨j, hj⟩ : ∃ j, g.length - 1 - q.length = j + 1 := ⟨g.length - 2 - q.length, by omega⟩
        rw [hj, List.take_succ_cons, show g.length - 1 - (q.length + 1) = j by omega]
        simp
      · rename_i hr
        obtain ⟨k2, q2, g2, s2, i2, p2, z2, e2⟩ := ih k1 _ _ a1.2 p1 t1
        refine ⟨k2, q2, g2, by rw [List.length_cons, calls, con_append, s1]; exact s2, i2, p2, z2, ?_⟩
        rw [e2, a1.1, show g.length - 1 - q.length = 0 by omega]
        simp
  obtain ⟨k, q, given, h1, h2, h3, h0, h4⟩ := key text _ [] [] (con_init g b hg text ht) rfl rfl
  have h4' : k.tx.accepted = text.take (g.length - 1) := by simpa [Console.init] using h4
  have hpen : pend q k.tx.s.hw.tx k.tx.s.hw.shift ≤ m := by
    have := congrArg List.length h2.out.order
    rw [h4'] at this
    simp only [List.length_append, List.length_take] at this
    unfold pend
    omega
  obtain ⟨t, e1, e2, -⟩ := drain_inv hn m k.tx q h2.out h3 hpen
  exact ⟨{ k with tx := t }, by rw [con_append, h1, Res.bind_ok, con_rounds, e1]; rfl, h0, e2.trans h4'⟩

example := c119_cut [0, 0, 0] 0x08#8 (by decide) (by decide) [45, 55, 10, 13] (by decide) 5 (by decide)

/-- **C119, in step with the line.** With one interrupt and one frame for each character a buffer of two items carries a text of any length. -/
theorem c119_paced (g : List Nat) (b : BitVec 8) (hg : 2 ≤ g.length) (hn : g.length < 65536) (text : List Nat) (ht : ∀ c ∈ text, c < 256) (m : Nat)
    (hm : text.length < m) :
    ∃ k, (Console.init g b text).run (paced text.length ++ conRounds m) = .ok k ∧ k.tx.s.hw.line = text := by
  have key : ∀ (l : List Nat) (k : Console) (given : List Nat), CInv g.length b k [] given → k.tx.phase = .idle → k.tx.s.hw.tx = none → k.todo = l →
      ∃ k' given', k.run (paced l.length) = .ok k' ∧ CInv g.length b k' [] given' ∧ k'.tx.phase = .idle ∧ k'.tx.accepted = k.tx.accepted ++ l := by
    intro l
    induction l with
    | nil => intro k given h hp _ _; exact ⟨k, given, rfl, h, hp, by simp⟩
    | cons c l ih =>
      intro k given h hp hx hl
      obtain ⟨k1, s1, t1, p1, x1, a1⟩ := con_call hn h hp hl
      rw [if_pos (by simp; omega)] at a1
      obtain ⟨y, q', r1, i1, p2, a2, l2⟩ := round_inv hn a1.2.out p1
      have hz : q' = [] ∧ y.s.hw.tx = none := by
        rw [x1, hx] at l2
        simp only [pend, List.nil_append, List.length_singleton, Option.toList_none, List.length_nil] at l2
        have e1 : q'.length = 0 := by omega
        have e2 : y.s.hw.tx.toList.length = 0 := by omega
        refine ⟨List.length_eq_zero_iff.1 e1, ?_⟩
        cases hy : y.s.hw.tx with
        | none => rfl
        | some v => rw [hy] at e2; simp at e2
      obtain ⟨rfl, hy⟩ := hz
      obtain ⟨k2, g2, s2, i2, p3, e3⟩ := ih { tx := y, todo := k1.todo } (given ++ [c]) ⟨i1, a1.2.small, by rw [a2]; exact a1.2.sub⟩ p2 hy t1
      refine ⟨k2, g2, ?_, i2, p3, by rw [e3, a2, a1.1]; simp⟩
      have r : k1.run [.isr, .frame] = .ok { tx := y, todo := k1.todo } := by
        have := con_rounds 1 k1
        simp only [conRounds, sendRounds] at this
        rw [this, r1]
        rfl
      rw [List.length_cons, paced, con_append, s1, Res.bind_ok, con_append, r]
      exact s2
  obtain ⟨k, given, h1, h2, h3, h4⟩ := key text _ [] (con_init g b (by omega) text ht) rfl rfl rfl
  have h4' : k.tx.accepted = text := by simpa [Console.init] using h4
  have hpen : pend [] k.tx.s.hw.tx k.tx.s.hw.shift ≤ m := by
    have := congrArg List.length h2.out.order
    rw [h4'] at this
    simp only [List.length_append] at this
    unfold pend
    omega
  obtain ⟨t, e1, e2, -⟩ := drain_inv hn m k.tx [] h2.out h3 hpen
  exact ⟨{ k with tx := t }, by rw [con_append, h1, Res.bind_ok, con_rounds, e1]; rfl, e2.trans h4'⟩

example := c119_paced [0, 0, 0] 0x08#8 (by decide) (by decide) [45, 55, 10, 13] (by decide) 5 (by decide)

/-- **Disagreement.** WriteLine(12345) into a stream with a buffer of four, while the interrupts are off: the line carries "123", which is another number, and nobody is told. -/
theorem c119_number_fails (g : List Nat) (hg : g.length = 4) (b : BitVec 8) :
    ∃ text k, lines (roundBin 24 126) {} [.int 12345] = .ok text ∧ (Console.init g b text).run (calls text.length ++ conRounds 9) = .ok k ∧ k.todo = [] ∧
      Decimal 45 k.tx.s.hw.line 123 := by
  have e : lines (roundBin 24 126) {} [.int 12345] = .ok [49, 50, 51, 52, 53, 10, 13] := by decide +kernel
  obtain ⟨k, h1, h0, h2⟩ := c119_cut g b (by omega) (by omega) [49, 50, 51, 52, 53, 10, 13] (by decide) 9 (by decide)
  refine ⟨_, k, e, h1, h0, ?_⟩
  rw [h2, hg]
  exact ⟨by decide, [49, 50, 51], ⟨by decide, by decide⟩, by decide⟩

/-- Values that meet the hypotheses, and a history of the theorem on short texts: "-7", line end, an interrupt inside the second call. -/
example : Sensible {} ∧ Bytes {} [.int (-7), .str hello] ∧ Writable {} (.int (-7)) ∧ Writable {} (.str hello) ∧
    lines (roundBin 24 126) {} [.int (-7)] = .ok [45, 55, 10, 13] ∧
    ∃ k, (Console.init [0, 0, 0, 0, 0] 8#8 [45, 55, 10, 13]).run (call ++ [.main, .main, .isr, .main, .main, .main] ++ calls 2 ++ conRounds 5) = .ok k ∧
      k.todo = [] ∧ k.tx.phase = .idle ∧ k.tx.s.hw.line = [45, 55, 10, 13] := by
  refine ⟨⟨by decide, by decide, by decide, by decide⟩, ⟨by decide, by decide, by decide, ?_⟩, by simp [Writable], by simp [Writable, hello], by decide +kernel,
    _, rfl, by decide +kernel, by decide +kernel, by decide +kernel⟩
  intro m hm
  simp only [List.mem_cons, reduceCtorEq, Item.str.injEq, List.not_mem_nil, or_false, false_or] at hm
  rw [hm]
  decide

end Atl.Props
