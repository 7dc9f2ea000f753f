import Verif.Props.Midi
import Verif.Spec.MidiTidy

/-
  C111: `MidiReader` against a conforming MIDI 1.0 receiver, on every byte stream.
-/
namespace Atl.Props

open Atl Atl.Midi
open Atl.Spec.Midi (need build Line Rx Tidy receive realTimes)

theorem tbl_need : ∀ b < 256, 128 ≤ b → 0 < need b →
    (need b = 1 ∧ getMessageLength b = 2) ∨ (need b = 2 ∧ getMessageLength b = 3) := by decide +kernel
theorem tbl_need_chan : ∀ b < 256, 128 ≤ b → b < 0xF0 → 0 < need b := by decide +kernel
theorem tbl_need_sys : ∀ b < 256, 0xF0 ≤ b → 0 < need b → b = 0xF1 ∨ b = 0xF2 ∨ b = 0xF3 := by decide +kernel
theorem tbl_need_none : ∀ b < 256, 128 ≤ b → need b = 0 → b = 0xF0 ∨ b = 0xF6 ∨ getMessageLength b = 0 ∨ b ∈ realTimes := by
  decide +kernel

/-- Every status byte with its data bytes is a valid message. -/
theorem build_valid (s : Nat) (d : List Nat) (h256 : s < 256) (h128 : 128 ≤ s) (hn : 0 < need s) (hl : d.length = need s)
    (hd : ∀ a ∈ d, a < 128) : (build s d).Valid ∧ (build s d).status = s ∧ (build s d).data = d := by
  have hcase : (∃ a, d = [a] ∧ a < 128 ∧ need s = 1) ∨ (∃ a b, d = [a, b] ∧ a < 128 ∧ b < 128 ∧ need s = 2) := by
    rcases tbl_need s h256 h128 hn with ⟨h, _⟩ | ⟨h, _⟩
    · rw [h] at hl
      match d, hl with
      | [a], _ => exact .inl ⟨a, rfl, hd a (by simp), h⟩
    · rw [h] at hl
      match d, hl with
      | [a, b], _ => exact .inr ⟨a, b, rfl, hd a (by simp), hd b (by simp), h⟩
  have key1 : ∀ s < 256, 128 ≤ s → need s = 1 → (0xC0 ≤ s ∧ s < 0xE0) ∨ s = 0xF1 ∨ s = 0xF3 := by decide +kernel
  have key2 : ∀ s < 256, 128 ≤ s → need s = 2 → s < 0xC0 ∨ (0xE0 ≤ s ∧ s < 0xF0) ∨ s = 0xF2 := by decide +kernel
  rcases hcase with ⟨a, rfl, ha, h⟩ | ⟨a, b, rfl, ha, hb, h⟩
  · simp only [build, List.getD_cons_zero, List.getD_cons_succ]
    rcases key1 s h256 h128 h with hs | rfl | rfl
    · rw [if_neg (by omega), if_neg (by omega), if_neg (by omega), if_neg (by omega)]
      split
      · simp only [Spec.Midi.Msg.Valid, Spec.Midi.Msg.status, Spec.Midi.Msg.data, and_true]; omega
      · rw [if_pos (by omega)]
        simp only [Spec.Midi.Msg.Valid, Spec.Midi.Msg.status, Spec.Midi.Msg.data, and_true]; omega
    · simp [Spec.Midi.Msg.Valid, Spec.Midi.Msg.status, Spec.Midi.Msg.data, ha]
    · simp [Spec.Midi.Msg.Valid, Spec.Midi.Msg.status, Spec.Midi.Msg.data, ha]
  · simp only [build, List.getD_cons_zero, List.getD_cons_succ]
    rcases key2 s h256 h128 h with hs | hs | rfl
    · split
      · simp only [Spec.Midi.Msg.Valid, Spec.Midi.Msg.status, Spec.Midi.Msg.data, and_true]; omega
      · split
        · simp only [Spec.Midi.Msg.Valid, Spec.Midi.Msg.status, Spec.Midi.Msg.data, and_true]; omega
        · split
          · simp only [Spec.Midi.Msg.Valid, Spec.Midi.Msg.status, Spec.Midi.Msg.data, and_true]; omega
          · simp only [hs, if_true, Spec.Midi.Msg.Valid, Spec.Midi.Msg.status, Spec.Midi.Msg.data, and_true]; omega
    · rw [if_neg (by omega), if_neg (by omega), if_neg (by omega), if_neg (by omega), if_neg (by omega), if_neg (by omega),
        if_pos (by omega)]
      simp only [Spec.Midi.Msg.Valid, Spec.Midi.Msg.status, Spec.Midi.Msg.data, List.cons.injEq, and_true]; omega
    · have h1 : ¬ (0xF2 : Nat) < 0x90 := by decide
      simp [Spec.Midi.Msg.Valid, Spec.Midi.Msg.status, Spec.Midi.Msg.data]
      omega

/-- A status byte that opens a message. -/
structure Opens (s : Nat) : Prop where
  lt : s < 256
  ge : 128 ≤ s
  pos : 0 < need s

/-- The reader inside a message: it was between two messages and has taken the status byte and some data bytes since. -/
def RIn (L : Layout) (r : Reader) (s : Nat) (d : List Nat) : Prop := ∃ r0, Idle r0 ∧ r = r0.after L (s :: d)

/-- The reader, the receiver and the stream position agree. -/
def MidiAgree (L : Layout) (r : Reader) (x : Rx) : Line → Prop
  | .idle none => Idle r ∧ r.running = 0 ∧ x = ⟨none, []⟩
  | .idle (some s) => Idle r ∧ r.running = s ∧ x = ⟨some s, []⟩ ∧ Opens s ∧ s < 0xF0
  | .tuned s => Idle r ∧ r.running = s ∧ x = ⟨none, []⟩ ∧ Opens s ∧ s < 0xF0
  | .noised s => Idle r ∧ r.running = 0 ∧ x = ⟨some s, []⟩ ∧ Opens s ∧ s < 0xF0
  | .inMsg s d => RIn L r s d ∧ x = ⟨some s, d⟩ ∧ Opens s ∧ d.length < need s ∧ ∀ a ∈ d, a < 128

/-- Inside a message nothing has been raised yet, and the parser waits for a data byte. -/
theorem midi_inside (L : Layout) (r0 : Reader) (hi : Idle r0) (s : Nat) (hs : Opens s) (d : List Nat) (hl : d.length < need s)
    (hd : ∀ a ∈ d, a < 128) :
    r0.events L (s :: d) = [] ∧
    (((r0.after L (s :: d)).parse = .dataByte1 ∧ d = []) ∨ (r0.after L (s :: d)).parse = .dataByte2) ∧
    Settled (r0.after L (s :: d)) := by
  rcases tbl_need s hs.lt hs.ge hs.pos with ⟨hn, hg⟩ | ⟨hn, hg⟩
  · rw [hn] at hl
    match d, hl with
    | [], _ =>
      unfold Reader.events Reader.after
      rw [trace_cons, dispatch_two L r0 s hi hs.lt hs.ge hg]
      simp [Reader.trace, Settled]
  · rw [hn] at hl
    match d, hl with
    | [], _ =>
      unfold Reader.events Reader.after
      rw [trace_cons, dispatch_three L r0 s hi hs.lt hs.ge hg]
      simp [Reader.trace, Settled]
    | [a], _ =>
      unfold Reader.events Reader.after
      rw [trace_cons, dispatch_three L r0 s hi hs.lt hs.ge hg, trace_cons]
      simp only
      rw [dispatch_d1_more L _ _ _ (hd a (by simp))]
      simp [Reader.trace, Settled]

theorem after_snoc (L : Layout) (r : Reader) (xs : List Nat) (b : Nat) :
    r.after L (xs ++ [b]) = ((r.after L xs).dispatch L b).1 := by
  unfold Reader.after; rw [trace_append]; rfl

theorem events_snoc (L : Layout) (r : Reader) (xs : List Nat) (b : Nat) :
    r.events L (xs ++ [b]) = r.events L xs ++ ((r.after L xs).dispatch L b).2.1 := by
  rw [events_append]; simp [Reader.events, trace_cons, Reader.trace]

/-- The last data byte. -/
theorem midi_complete (L : Layout) (hL : L.Ok) (r : Reader) (s : Nat) (hs : Opens s) (d : List Nat) (hr : RIn L r s d) (a : Nat) (ha : a < 128)
    (hl : d.length + 1 = need s) (hd : ∀ a ∈ d, a < 128) :
    Idle (r.dispatch L a).1 ∧ (r.dispatch L a).2.1.map (Ev.meaning L) = [some (build s (d ++ [a]))] ∧
    (r.dispatch L a).1.running = if s < 0xF0 then s else 0 := by
  obtain ⟨r0, hi, rfl⟩ := hr
  have hd' : ∀ x ∈ d ++ [a], x < 128 := by
    intro x hx; rcases List.mem_append.1 hx with h | h
    · exact hd x h
    · rw [List.mem_singleton.1 h]; exact ha
  obtain ⟨hv, h1, h2⟩ := build_valid s (d ++ [a]) hs.lt hs.ge hs.pos (by simpa using hl) hd'
  obtain ⟨f1, f2, f3⟩ := feed_message L hL r0 hi _ hv
  have hb : (build s (d ++ [a])).bytes = (s :: d) ++ [a] := by simp [Spec.Midi.Msg.bytes, h1, h2]
  rw [hb] at f1 f2 f3
  rw [after_snoc] at f1 f3
  rw [events_snoc, (midi_inside L r0 hi s hs d (by omega) hd).1, List.nil_append] at f2
  refine ⟨f1, f2, ?_⟩
  rw [f3, h1, h2]
  have hc := (valid_shape _ hv).2.2.2.2.2.1
  rw [h1] at hc
  by_cases h : s < 0xF0
  · rw [if_pos (hc.2 h), if_pos h]
  · rw [if_neg h]
    have : (build s (d ++ [a])).isChannel ≠ true := fun h' => h (hc.1 h')
    simp [this]

/-- A status byte between two messages opens a message in the reader. -/
theorem opens_in (L : Layout) (r : Reader) (hi : Idle r) (s : Nat) (hs : Opens s) :
    RIn L (r.dispatch L s).1 s [] ∧ (r.dispatch L s).2.1 = [] := by
  refine ⟨⟨r, hi, rfl⟩, ?_⟩
  rcases tbl_need s hs.lt hs.ge hs.pos with ⟨_, hg⟩ | ⟨_, hg⟩
  · rw [dispatch_two L r s hi hs.lt hs.ge hg]
  · rw [dispatch_three L r s hi hs.lt hs.ge hg]

/-- A data byte that is not the last one. -/
theorem midi_more (L : Layout) (r : Reader) (s : Nat) (hs : Opens s) (d : List Nat) (hr : RIn L r s d) (a : Nat) (ha : a < 128)
    (hl : d.length + 1 < need s) (hd : ∀ a ∈ d, a < 128) :
    RIn L (r.dispatch L a).1 s (d ++ [a]) ∧ (r.dispatch L a).2.1 = [] := by
  obtain ⟨r0, hi, rfl⟩ := hr
  have hd' : ∀ x ∈ d ++ [a], x < 128 := by
    intro x hx; rcases List.mem_append.1 hx with h | h
    · exact hd x h
    · rw [List.mem_singleton.1 h]; exact ha
  refine ⟨⟨r0, hi, ?_⟩, ?_⟩
  · rw [← after_snoc]; rfl
  · have h := (midi_inside L r0 hi s hs (d ++ [a]) (by simpa using hl) hd').1
    have h' := events_snoc L r0 (s :: d) a
    rw [(midi_inside L r0 hi s hs d (by omega) hd).1, List.nil_append] at h'
    rw [← h']; exact h

/-- A status byte that is not a real-time byte is dropped inside a message. -/
theorem midi_dropped (L : Layout) (r : Reader) (hp : r.parse = .dataByte1 ∨ r.parse = .dataByte2) (b : Nat) (hb : b < 256)
    (h128 : 128 ≤ b) (hrt : b < 0xF8) : r.dispatch L b = (r, [], false) := by
  have ht := tbl_type_status b hb h128
  have hr : ∀ b < 256, 128 ≤ b → b < 0xF8 → isRealtimeMessage (getMessageType b) = false := by decide +kernel
  unfold Reader.dispatch
  rcases hp with hp | hp <;> simp [hp, ht, hr b hb h128 hrt, Reader.finish]

/-- An undefined real-time byte ends a message that has begun. -/
theorem midi_aborted (L : Layout) (r : Reader) (hp : r.parse = .dataByte1 ∨ r.parse = .dataByte2) (b : Nat) (hb : b = 0xF9 ∨ b = 0xFD) :
    r.dispatch L b = ({ r with running := 0, parse := .statusByte, endState := .notSet }, [], false) := by
  have hf : getMessageType b > 0 ∧ isRealtimeMessage (getMessageType b) = true ∧ getMessageLength b = 0 := by
    rcases hb with rfl | rfl <;> decide
  obtain ⟨h1, h2, h3⟩ := hf
  unfold Reader.dispatch
  rcases hp with hp | hp <;> simp [hp, h1, h2, Reader.processStatus, h3, Reader.finish, Reader.resetState]

/-- An undefined status byte between two messages. -/
theorem undefined_idle (L : Layout) (r : Reader) (hi : Idle r) (b : Nat) (hb : b < 256) (h128 : 128 ≤ b)
    (hg : getMessageLength b = 0) : r.dispatch L b = ({ r with running := 0, parse := .statusByte, endState := .notSet }, [], false) := by
  have ht := tbl_type_status b hb h128
  unfold Reader.dispatch
  simp only [show r.parse = .statusByte from hi, if_true]
  rw [if_neg (by omega), if_pos ht]
  simp [Reader.processStatus, hg, Reader.finish, Reader.resetState]

theorem rx_cons (x : Rx) (b : Nat) (bs : List Nat) :
    Rx.run x (b :: bs) = ((Rx.run (x.step b).1 bs).1, (x.step b).2 ++ (Rx.run (x.step b).1 bs).2) := rfl

theorem rx_status (x : Rx) (b : Nat) (h128 : 128 ≤ b) (h8 : b < 0xF8) (h6 : b ≠ 0xF6) :
    x.step b = (if 0 < need b then ⟨some b, []⟩ else ⟨none, []⟩, []) := by
  unfold Rx.step
  rw [if_neg (by omega), if_neg h6, if_pos h128]

theorem rx_undefined (x : Rx) (b : Nat) (hb : b = 0xF9 ∨ b = 0xFD) : x.step b = (x, []) := by
  rcases hb with rfl | rfl <;> rfl

theorem rx_tune (x : Rx) : x.step 0xF6 = (⟨none, []⟩, [.tuneRequest]) := rfl

theorem rx_rt (x : Rx) (b : Nat) (hb : b ∈ realTimes) : x.step b = (x, [.realTime b]) := by
  have h := (tbl_rt b (tbl_rt_mem hb) hb).2.2.2
  unfold Rx.step
  rw [if_pos h, if_pos hb]

theorem rx_byte (s : Nat) (d : List Nat) (a : Nat) (ha : a < 128) :
    Rx.step ⟨some s, d⟩ a =
      if d.length + 1 = need s then (⟨if s < 0xF0 then some s else none, []⟩, [build s (d ++ [a])])
      else (⟨some s, d ++ [a]⟩, []) := by
  unfold Rx.step
  rw [if_neg (by omega), if_neg (by omega), if_neg (by omega)]
  simp

theorem rx_silent (a : Nat) (ha : a < 128) : Rx.step ⟨none, []⟩ a = (⟨none, []⟩, []) := by
  unfold Rx.step
  rw [if_neg (by omega), if_neg (by omega), if_neg (by omega)]

theorem reader_tune (L : Layout) (r : Reader) (hi : Idle r) :
    (r.dispatch L 0xF6) = (r, [.onRealtime 0xF6], true) :=
  dispatch_one L r 0xF6 hi (by decide) (by decide) (by decide)

theorem reader_silent (L : Layout) (r : Reader) (hi : Idle r) (hr : r.running = 0) (a : Nat) (ha : a < 128) :
    r.dispatch L a = (r, [], false) := by
  unfold Reader.dispatch
  simp [show r.parse = .statusByte from hi, tbl_type_data a ha, hr, Reader.finish]

theorem agree_settled {L : Layout} {r : Reader} {x : Rx} {l : Line} (h : MidiAgree L r x l) : Settled r ∧ r.parse ≠ .sox := by
  have hidle : Idle r → Settled r ∧ r.parse ≠ .sox := fun h => ⟨.inl h, by rw [show r.parse = .statusByte from h]; decide⟩
  match l, h with
  | .idle none, h => exact hidle h.1
  | .idle (some _), h => exact hidle h.1
  | .tuned _, h => exact hidle h.1
  | .noised _, h => exact hidle h.1
  | .inMsg s d, ⟨⟨r0, hi, hr⟩, _, hs, hl, hd⟩ =>
    subst hr
    obtain ⟨_, h2, h3⟩ := midi_inside L r0 hi s hs d hl hd
    refine ⟨h3, ?_⟩
    rcases h2 with ⟨h2, _⟩ | h2 <;> rw [h2] <;> decide

/-- A status byte between two messages that is no real-time byte. -/
theorem agree_status (L : Layout) (r : Reader) (x : Rx) (l l' : Line) (hi : Idle r) (hl : ∀ s d, l ≠ .inMsg s d) (h : MidiAgree L r x l)
    (b : Nat) (hb : b < 256) (h128 : 128 ≤ b) (hrt : b ∉ realTimes) (hs : l.status b = some l') :
    MidiAgree L (r.dispatch L b).1 (x.step b).1 l' ∧
    (r.dispatch L b).2.1.map (Ev.meaning L) = (x.step b).2.map some := by
  unfold Line.status at hs
  by_cases hn : 0 < need b
  · rw [if_pos hn] at hs
    cases hs
    have hsys : b < 0xF8 ∧ b ≠ 0xF6 := by
      by_cases h : b < 0xF0
      · omega
      · have := tbl_need_sys b hb (by omega) hn; omega
    have ho : Opens b := ⟨hb, h128, hn⟩
    obtain ⟨h1, h2⟩ := opens_in L r hi b ho
    rw [rx_status x b h128 hsys.1 hsys.2, if_pos hn]
    exact ⟨⟨h1, rfl, ho, hn, by simp⟩, by rw [h2]; rfl⟩
  · rw [if_neg hn] at hs
    by_cases h0 : b = 0xF0
    · rw [if_pos h0] at hs; cases hs
    rw [if_neg h0] at hs
    by_cases h6 : b = 0xF6
    · rw [if_pos h6] at hs
      subst h6
      rw [reader_tune L r hi, rx_tune]
      refine ⟨?_, by simp [Ev.meaning]⟩
      match l, h, hl with
      | .idle none, h, _ => cases hs; exact ⟨h.1, h.2.1, rfl⟩
      | .idle (some s), h, _ => cases hs; exact ⟨h.1, h.2.1, rfl, h.2.2.2⟩
      | .tuned s, h, _ => cases hs; exact ⟨h.1, h.2.1, rfl, h.2.2.2⟩
      | .noised s, h, _ => cases hs; exact ⟨h.1, h.2.1, rfl⟩
      | .inMsg s d, _, hl => exact absurd rfl (hl s d)
    rw [if_neg h6] at hs
    have hg : getMessageLength b = 0 := by
      rcases tbl_need_none b hb h128 (by omega) with h | h | h | h
      · exact absurd h h0
      · exact absurd h h6
      · exact h
      · exact absurd h hrt
    rw [undefined_idle L r hi b hb h128 hg]
    by_cases h9 : b = 0xF9 ∨ b = 0xFD
    · rw [if_pos h9] at hs
      rw [rx_undefined x b h9]
      refine ⟨?_, rfl⟩
      match l, h, hl with
      | .idle none, h, _ => cases hs; exact ⟨rfl, rfl, h.2.2⟩
      | .idle (some s), h, _ => cases hs; exact ⟨rfl, rfl, h.2.2⟩
      | .tuned s, h, _ => cases hs; exact ⟨rfl, rfl, h.2.2.1⟩
      | .noised s, h, _ => cases hs; exact ⟨rfl, rfl, h.2.2⟩
      | .inMsg s d, _, hl => exact absurd rfl (hl s d)
    · rw [if_neg h9] at hs
      have h8 : b < 0xF8 := by
        have : ∀ b < 256, 0xF8 ≤ b → b ∉ realTimes → b = 0xF9 ∨ b = 0xFD := by decide +kernel
        by_contra hc
        exact h9 (this b hb (by omega) hrt)
      rw [rx_status x b h128 h8 h6, if_neg hn]
      cases hs
      exact ⟨⟨rfl, rfl, rfl⟩, rfl⟩

/-- One byte. -/
theorem agree_step (L : Layout) (hL : L.Ok) (r : Reader) (x : Rx) (l l' : Line) (h : MidiAgree L r x l) (b : Nat) (hb : b < 256)
    (hs : l.step b = some l') :
    MidiAgree L (r.dispatch L b).1 (x.step b).1 l' ∧
    (r.dispatch L b).2.1.map (Ev.meaning L) = (x.step b).2.map some := by
  unfold Line.step at hs
  by_cases hrt : b ∈ realTimes
  · rw [if_pos hrt] at hs
    cases hs
    obtain ⟨h1, h2⟩ := agree_settled h
    rw [dispatch_realtime L r h1 h2 b hrt, rx_rt x b hrt]
    refine ⟨h, ?_⟩
    have : b ≠ 0xF6 := by have := (tbl_rt b (tbl_rt_mem hrt) hrt).2.2.2; omega
    simp [Ev.meaning, this, hrt]
  rw [if_neg hrt] at hs
  match l, h with
  | .idle none, h =>
    simp only at hs
    by_cases hd : b < 0x80
    · rw [if_pos hd] at hs
      cases hs
      obtain ⟨h1, h2, rfl⟩ := h
      rw [reader_silent L r h1 h2 b hd, rx_silent b hd]
      exact ⟨⟨h1, h2, rfl⟩, rfl⟩
    · rw [if_neg hd] at hs
      exact agree_status L r x _ l' h.1 (by simp) h b hb (by omega) hrt hs
  | .idle (some s), h =>
    simp only at hs
    by_cases hd : b < 0x80
    · rw [if_pos hd] at hs
      cases hs
      obtain ⟨h1, h2, rfl, ho, hc⟩ := h
      obtain ⟨hin, hno⟩ := opens_in L r h1 s ho
      have hrun := dispatch_running L r b h1 hd (by rw [h2]; exact ho.lt) (by rw [h2]; exact ho.ge) (by rw [h2]; exact hc)
      rw [h2] at hrun
      rw [hrun, rx_byte s [] b hd]
      by_cases hn : need s = 1
      · rw [if_pos hn]
        obtain ⟨c1, c2, c3⟩ := midi_complete L hL _ s ho [] hin b hd (by simp [hn]) (by simp)
        rw [if_pos hc] at c3
        simp only [List.length_nil, Nat.zero_add, hn, if_true, List.nil_append] at c2 ⊢
        exact ⟨⟨c1, c3, by simp [hc], ho, hc⟩, by rw [c2]; rfl⟩
      · rw [if_neg hn]
        have hp := ho.pos
        obtain ⟨c1, c2⟩ := midi_more L _ s ho [] hin b hd (by simp; omega) (by simp)
        rw [if_neg (by simp; omega)]
        exact ⟨⟨c1, rfl, ho, by simp; omega, by simp; omega⟩, by rw [c2]; rfl⟩
    · rw [if_neg hd] at hs
      exact agree_status L r x _ l' h.1 (by simp) h b hb (by omega) hrt hs
  | .tuned s, h =>
    simp only at hs
    by_cases hd : b < 0x80
    · rw [if_pos hd] at hs; cases hs
    · rw [if_neg hd] at hs
      exact agree_status L r x _ l' h.1 (by simp) h b hb (by omega) hrt hs
  | .noised s, h =>
    simp only at hs
    by_cases hd : b < 0x80
    · rw [if_pos hd] at hs; cases hs
    · rw [if_neg hd] at hs
      exact agree_status L r x _ l' h.1 (by simp) h b hb (by omega) hrt hs
  | .inMsg s d, ⟨hin, hx, ho, hl, hd⟩ =>
    simp only at hs
    subst hx
    by_cases h80 : b < 0x80
    · rw [if_pos h80] at hs
      cases hs
      rw [rx_byte s d b h80]
      by_cases hn : d.length + 1 = need s
      · rw [if_pos hn, if_pos hn]
        obtain ⟨c1, c2, c3⟩ := midi_complete L hL r s ho d hin b h80 hn hd
        refine ⟨?_, by rw [c2]; rfl⟩
        by_cases hc : s < 0xF0
        · simp only [hc, if_true] at c3 ⊢
          exact ⟨c1, c3, rfl, ho, hc⟩
        · simp only [hc, if_false] at c3 ⊢
          exact ⟨c1, c3, rfl⟩
      · rw [if_neg hn, if_neg hn]
        obtain ⟨c1, c2⟩ := midi_more L r s ho d hin b h80 (by omega) hd
        refine ⟨⟨c1, rfl, ho, by simp; omega, ?_⟩, by rw [c2]; rfl⟩
        intro a ha
        rcases List.mem_append.1 ha with h | h
        · exact hd a h
        · rw [List.mem_singleton.1 h]; exact h80
    · rw [if_neg h80] at hs
      by_cases hsame : b = s ∧ d = []
      · rw [if_pos hsame] at hs
        cases hs
        obtain ⟨rfl, rfl⟩ := hsame
        have h8 : b < 0xF8 ∧ b ≠ 0xF6 := by
          by_cases h : b < 0xF0
          · omega
          · have := tbl_need_sys b hb (by omega) ho.pos; omega
        have hp : r.parse = .dataByte1 ∨ r.parse = .dataByte2 := by
          obtain ⟨r0, hi, rfl⟩ := hin
          rcases (midi_inside L r0 hi b ho [] hl hd).2.1 with ⟨h, _⟩ | h
          · exact .inl h
          · exact .inr h
        rw [midi_dropped L r hp b hb (by omega) h8.1, rx_status _ b (by omega) h8.1 h8.2, if_pos ho.pos]
        exact ⟨⟨hin, rfl, ho, hl, hd⟩, rfl⟩
      · rw [if_neg hsame] at hs; cases hs

theorem agree_run (L : Layout) (hL : L.Ok) (bs : List Nat) (hb : ∀ b ∈ bs, b < 256) (r : Reader) (x : Rx) (l l' : Line)
    (h : MidiAgree L r x l) (hs : l.run bs = some l') :
    MidiAgree L (r.after L bs) (Rx.run x bs).1 l' ∧ (r.events L bs).map (Ev.meaning L) = (Rx.run x bs).2.map some := by
  induction bs generalizing r x l with
  | nil => cases hs; exact ⟨h, rfl⟩
  | cons b bs ih =>
    simp only [Line.run, Option.bind_eq_some_iff] at hs
    obtain ⟨l1, h1, h2⟩ := hs
    obtain ⟨a1, a2⟩ := agree_step L hL r x l l1 h b (hb b (by simp)) h1
    obtain ⟨i1, i2⟩ := ih (fun y hy => hb y (by simp [hy])) _ _ _ a1 h2
    rw [rx_cons]
    refine ⟨i1, ?_⟩
    have : r.events L (b :: bs) = (r.dispatch L b).2.1 ++ (r.dispatch L b).1.events L bs := by
      simp [Reader.events, trace_cons]
    rw [this, List.map_append, a2, i2, List.map_append]

/-- C111 in full: on every byte stream the reader reports what a conforming receiver understands. -/
def C111Full (L : Layout) : Prop :=
  ∀ bs : List Nat, (∀ b ∈ bs, b < 256) → ((Reader.init.events L bs).filterMap (Ev.meaning L)) = receive bs

/-- **C111, partial.** On every tidy byte stream - whoever sent it, with or without running status, with real-time bytes anywhere, undefined
    status bytes between messages, data bytes before the first status - a fresh reader reports exactly the messages a conforming
    MIDI 1.0 receiver understands, in order. -/
theorem c111_conforms_partial (L : Layout) (hL : L.Ok) (bs : List Nat) (hb : ∀ b ∈ bs, b < 256) (ht : Tidy bs) :
    (Reader.init.events L bs).map (Ev.meaning L) = (receive bs).map some := by
  obtain ⟨l, hl⟩ := Option.isSome_iff_exists.1 ht
  exact (agree_run L hL bs hb Reader.init Rx.init Line.init l ⟨rfl, rfl, rfl⟩ hl).2

example := c111_conforms_partial .avr Layout.avr_ok [0x12, 0x95, 0x40, 0xF8, 0x40, 0x41] (by decide) (by decide +kernel)

/-! ### The condition is exact

`Tidy` is not merely sufficient: the first untidy byte of any stream is the beginning of a stream on which the two disagree. -/

theorem events_cons (L : Layout) (r : Reader) (b : Nat) (bs : List Nat) :
    r.events L (b :: bs) = (r.dispatch L b).2.1 ++ (r.dispatch L b).1.events L bs := by
  simp [Reader.events, trace_cons]

/-- The reader inside a message, data bytes coming. -/
theorem reader_data (L : Layout) (hL : L.Ok) (s : Nat) (hs : Opens s) (ds : List Nat) (hds : ∀ a ∈ ds, a < 128) :
    ∀ (r : Reader) (d : List Nat), RIn L r s d → d.length < need s → (∀ a ∈ d, a < 128) → d.length + ds.length ≤ need s →
    (r.events L ds).map (Ev.meaning L) = if d.length + ds.length = need s then [some (build s (d ++ ds))] else [] := by
  induction ds with
  | nil =>
    intro r d _ h1 _ _
    rw [if_neg (by simp; omega)]; rfl
  | cons a ds ih =>
    intro r d hr hl hd hk
    have ha := hds a (by simp)
    simp only [List.length_cons] at hk
    rw [events_cons, List.map_append]
    by_cases h1 : d.length + 1 = need s
    · obtain ⟨_, c2, _⟩ := midi_complete L hL r s hs d hr a ha h1 hd
      have h0 : ds = [] := List.eq_nil_of_length_eq_zero (by omega)
      subst h0
      rw [c2, if_pos (by simpa using h1)]
      rfl
    · obtain ⟨m1, m2⟩ := midi_more L r s hs d hr a ha (by omega) hd
      have hd' : ∀ x ∈ d ++ [a], x < 128 := by
        intro x hx; rcases List.mem_append.1 hx with h | h
        · exact hd x h
        · rw [List.mem_singleton.1 h]; exact ha
      rw [m2, ih (fun x hx => hds x (by simp [hx])) _ (d ++ [a]) m1 (by simp; omega) hd' (by simp; omega)]
      simp only [List.map_nil, List.nil_append, List.length_append, List.length_cons, List.length_nil, List.append_assoc,
        List.cons_append, Nat.zero_add]
      have : d.length + 1 + ds.length = d.length + (ds.length + 1) := by omega
      rw [this]

/-- The receiver inside a message, data bytes coming. -/
theorem receiver_data (s : Nat) (ds : List Nat) (hds : ∀ a ∈ ds, a < 128) :
    ∀ (d : List Nat), d.length < need s → d.length + ds.length ≤ need s →
    (Rx.run ⟨some s, d⟩ ds).2 = if d.length + ds.length = need s then [build s (d ++ ds)] else [] := by
  induction ds with
  | nil => intro d h1 _; rw [if_neg (by simp; omega)]; rfl
  | cons a ds ih =>
    intro d hl hk
    have ha := hds a (by simp)
    simp only [List.length_cons] at hk
    rw [rx_cons, rx_byte s d a ha]
    by_cases h1 : d.length + 1 = need s
    · have h0 : ds = [] := List.eq_nil_of_length_eq_zero (by omega)
      subst h0
      have h1' : d.length + [a].length = need s := h1
      rw [if_pos h1, if_pos h1']
      rfl
    · rw [if_neg h1]
      simp only [List.nil_append]
      rw [ih (fun x hx => hds x (by simp [hx])) (d ++ [a]) (by simp; omega) (by simp; omega)]
      simp only [List.length_append, List.length_cons, List.length_nil, List.append_assoc, List.cons_append, List.nil_append,
        Nat.zero_add]
      have : d.length + 1 + ds.length = d.length + (ds.length + 1) := by omega
      rw [this]

theorem reader_deaf_data (L : Layout) (ds : List Nat) (hds : ∀ a ∈ ds, a < 128) (r : Reader) (hi : Idle r) (h0 : r.running = 0) :
    r.events L ds = [] := by
  induction ds with
  | nil => rfl
  | cons a ds ih =>
    rw [events_cons, reader_silent L r hi h0 a (hds a (by simp))]
    exact ih (fun x hx => hds x (by simp [hx]))

theorem receiver_deaf_data (ds : List Nat) (hds : ∀ a ∈ ds, a < 128) : (Rx.run ⟨none, []⟩ ds).2 = [] := by
  induction ds with
  | nil => rfl
  | cons a ds ih =>
    rw [rx_cons, rx_silent a (hds a (by simp))]
    exact ih (fun x hx => hds x (by simp [hx]))

theorem zeros_lt (k : Nat) : ∀ a ∈ List.replicate k 0, a < 128 := by
  intro a ha; rw [(List.mem_replicate.1 ha).2]; decide

theorem filterMap_of_map {α β : Type} (f : α → Option β) (l : List α) (m : List β) (h : l.map f = m.map some) : l.filterMap f = m := by
  have : l.filterMap f = (l.map f).filterMap id := by rw [List.filterMap_map]; rfl
  rw [this, h, List.filterMap_map]
  simp

/-- At an untidy byte the two part. -/
theorem midi_part (L : Layout) (hL : L.Ok) (r : Reader) (x : Rx) (l : Line) (h : MidiAgree L r x l) (b : Nat) (hb : b < 256)
    (hs : l.step b = none) :
    ∃ c, (∀ y ∈ c, y < 256) ∧ (r.events L (b :: c)).filterMap (Ev.meaning L) ≠ (Rx.run x (b :: c)).2 := by
  have small : ∀ {c : List Nat}, (∀ a ∈ c, a < 128) → ∀ y ∈ c, y < 256 := fun h y hy => by have := h y hy; omega
  have hrt : b ∉ realTimes := by
    intro hrt
    simp [Line.step, hrt] at hs
  have status_none : ∀ l : Line, l.status b = none → b = 0xF0 := by
    intro l h
    unfold Line.status at h
    by_contra hne
    rw [if_neg hne] at h
    split at h
    · cases h
    · split at h
      · split at h <;> cases h
      · split at h
        · split at h <;> cases h
        · cases h
  have sysex : Idle r → b = 0xF0 →
      ∃ c, (∀ y ∈ c, y < 256) ∧ (r.events L (b :: c)).filterMap (Ev.meaning L) ≠ (Rx.run x (b :: c)).2 := by
    rintro hi rfl
    refine ⟨[0x90, 0, 0], by decide, ?_⟩
    have h1 : r.events L ([0xF0] ++ [0x90, 0, 0]) = r.events L [0xF0] ++ (r.after L [0xF0]).events L [0x90, 0, 0] :=
      events_append L r _ _
    rw [c20_deaf_after_sysex_fails L r hi] at h1
    have h2 : (r.events L [0xF0]).filterMap (Ev.meaning L) = [] := by
      rw [events_cons]
      have : (r.dispatch L 0xF0).2.1 = [.onSysEx] := by
        have hg : getMessageLength 0xF0 = -1 := by decide
        have ht : getMessageType 0xF0 > 0 := by decide
        unfold Reader.dispatch
        simp only [show r.parse = .statusByte from hi, if_true]
        rw [if_neg (by omega), if_pos ht]
        simp [Reader.processStatus, hg, Reader.finish]
      rw [this]; rfl
    rw [show (0xF0 :: [0x90, 0, 0] : List Nat) = [0xF0] ++ [0x90, 0, 0] from rfl, h1, List.append_nil, h2]
    intro hc
    have : (Rx.run x ([0xF0] ++ [0x90, 0, 0])).2 = [.noteOn 0 0 0] := by rfl
    rw [this] at hc
    cases hc
  unfold Line.step at hs
  rw [if_neg hrt] at hs
  match l, h with
  | .idle none, h =>
    simp only at hs
    split at hs
    · cases hs
    · exact sysex h.1 (status_none _ hs)
  | .idle (some s), h =>
    simp only at hs
    split at hs
    · cases hs
    · exact sysex h.1 (status_none _ hs)
  | .tuned s, h =>
    simp only at hs
    split at hs
    · rename_i hd
      obtain ⟨h1, h2, rfl, ho, hc⟩ := h
      have hp := ho.pos
      have hz : ∀ a ∈ b :: List.replicate (need s - 1) 0, a < 128 := by
        intro a ha
        rcases List.mem_cons.1 ha with rfl | ha
        · exact hd
        · exact zeros_lt _ a ha
      refine ⟨List.replicate (need s - 1) 0, small (zeros_lt _), ?_⟩
      obtain ⟨hin, _⟩ := opens_in L r h1 s ho
      have hrun := dispatch_running L r b h1 hd (by rw [h2]; exact ho.lt) (by rw [h2]; exact ho.ge) (by rw [h2]; exact hc)
      rw [h2] at hrun
      have he := reader_data L hL s ho _ hz _ [] hin hp (by simp) (by simp; omega)
      rw [events_cons, ← hrun, ← events_cons, if_pos (by simp; omega)] at he
      rw [filterMap_of_map (m := [build s _]) _ _ he, receiver_deaf_data _ hz]
      simp
    · exact sysex h.1 (status_none _ hs)
  | .noised s, h =>
    simp only at hs
    split at hs
    · rename_i hd
      obtain ⟨h1, h2, rfl, ho, hc⟩ := h
      have hp := ho.pos
      have hz : ∀ a ∈ b :: List.replicate (need s - 1) 0, a < 128 := by
        intro a ha
        rcases List.mem_cons.1 ha with rfl | ha
        · exact hd
        · exact zeros_lt _ a ha
      refine ⟨List.replicate (need s - 1) 0, small (zeros_lt _), ?_⟩
      rw [reader_deaf_data L _ hz r h1 h2, receiver_data s _ hz [] hp (by simp; omega), if_pos (by simp; omega)]
      simp
    · exact sysex h.1 (status_none _ hs)
  | .inMsg s d, ⟨hin, hx, ho, hl, hd⟩ =>
    simp only at hs
    subst hx
    split at hs
    · cases hs
    rename_i h80
    split at hs
    · cases hs
    rename_i hne
    have hp : r.parse = .dataByte1 ∨ r.parse = .dataByte2 := by
      obtain ⟨r0, hi, rfl⟩ := hin
      rcases (midi_inside L r0 hi s ho d hl hd).2.1 with ⟨h, _⟩ | h
      · exact .inl h
      · exact .inr h
    by_cases h9 : b = 0xF9 ∨ b = 0xFD
    · refine ⟨List.replicate (need s - d.length) 0, small (zeros_lt _), ?_⟩
      rw [events_cons, midi_aborted L r hp b h9, rx_cons, rx_undefined _ b h9]
      simp only [List.nil_append]
      rw [reader_deaf_data L _ (zeros_lt _) { r with running := 0, parse := .statusByte, endState := .notSet } rfl rfl, receiver_data s _ (zeros_lt _) d hl (by simp; omega),
        if_pos (by simp; omega)]
      simp
    have h8 : b < 0xF8 := by
      have : ∀ b < 256, 0xF8 ≤ b → b ∉ realTimes → b = 0xF9 ∨ b = 0xFD := by decide +kernel
      by_contra hc
      exact h9 (this b hb (by omega) hrt)
    have hdrop := midi_dropped L r hp b hb (by omega) h8
    by_cases h6 : b = 0xF6
    · subst h6
      refine ⟨[], by simp, ?_⟩
      rw [events_cons, hdrop, rx_cons, rx_tune]
      simp [Reader.events, Reader.trace]
    by_cases hn : 0 < need b
    · have hob : Opens b := ⟨hb, by omega, hn⟩
      refine ⟨List.replicate (min (need s - d.length) (need b)) 0, small (zeros_lt _), ?_⟩
      rw [events_cons, hdrop, rx_cons, rx_status _ b (by omega) h8 h6, if_pos hn]
      simp only [List.nil_append]
      have he := reader_data L hL s ho _ (zeros_lt (min (need s - d.length) (need b))) r d hin hl hd (by simp; omega)
      have hx := receiver_data b _ (zeros_lt (min (need s - d.length) (need b))) [] hn (by simp; omega)
      rw [hx]
      simp only [List.length_replicate] at he hx ⊢
      by_cases hlt : need s - d.length < need b
      · rw [if_pos (by omega)] at he
        rw [filterMap_of_map (m := [build s _]) _ _ he, if_neg (by simp; omega)]
        simp
      · by_cases hgt : need b < need s - d.length
        · rw [if_neg (by omega)] at he
          rw [filterMap_of_map (m := []) _ _ he, if_pos (by simp; omega)]
          simp
        · rw [if_pos (by omega)] at he
          rw [filterMap_of_map (m := [build s _]) _ _ he, if_pos (by simp; omega)]
          intro hc
          have hc := (List.cons.inj hc).1
          have hz : ∀ a ∈ d ++ List.replicate (min (need s - d.length) (need b)) 0, a < 128 := by
            intro a ha; rcases List.mem_append.1 ha with h | h
            · exact hd a h
            · exact zeros_lt _ a h
          have v1 := (build_valid s _ ho.lt ho.ge ho.pos (by simp; omega) hz).2.1
          have v2 := (build_valid b ([] ++ List.replicate (min (need s - d.length) (need b)) 0) hb (by omega) hn (by simp; omega)
            (zeros_lt _)).2.1
          have hsb : b = s := v2.symm.trans ((congrArg _ hc.symm).trans v1)
          subst hsb
          have : d = [] := List.eq_nil_of_length_eq_zero (by omega)
          exact hne ⟨rfl, this⟩
    · refine ⟨List.replicate (need s - d.length) 0, small (zeros_lt _), ?_⟩
      rw [events_cons, hdrop, rx_cons, rx_status _ b (by omega) h8 h6, if_neg hn]
      simp only [List.nil_append]
      have he := reader_data L hL s ho _ (zeros_lt (need s - d.length)) r d hin hl hd (by simp; omega)
      rw [if_pos (by simp; omega)] at he
      rw [filterMap_of_map (m := [build s _]) _ _ he, receiver_deaf_data _ (zeros_lt _)]
      simp

theorem line_append (l : Line) (xs ys : List Nat) : l.run (xs ++ ys) = (l.run xs).bind (fun l' => l'.run ys) := by
  induction xs generalizing l with
  | nil => rfl
  | cons a xs ih =>
    simp only [List.cons_append, Line.run]
    cases l.step a with
    | none => rfl
    | some l' => exact ih l'

/-- **C111 (the condition is exact).** Whenever a tidy stream is followed by a byte that makes it untidy, some continuation makes the reader
    report something else than a conforming receiver (the SysEx notification is not counted as a difference). -/
theorem c111_exact (L : Layout) (hL : L.Ok) (p : List Nat) (hb : ∀ b ∈ p, b < 256) (ht : Tidy p) (b : Nat) (h256 : b < 256)
    (hu : ¬ Tidy (p ++ [b])) :
    ∃ c, (∀ y ∈ c, y < 256) ∧
      (Reader.init.events L (p ++ b :: c)).filterMap (Ev.meaning L) ≠ receive (p ++ b :: c) := by
  obtain ⟨l, hl⟩ := Option.isSome_iff_exists.1 ht
  obtain ⟨h1, h2⟩ := agree_run L hL p hb Reader.init Rx.init Line.init l ⟨rfl, rfl, rfl⟩ hl
  have hs : l.step b = none := by
    unfold Tidy at hu
    rw [line_append, hl] at hu
    simp only [Option.bind_some, Line.run] at hu
    cases hst : l.step b with
    | none => rfl
    | some l' => rw [hst] at hu; exact absurd rfl hu
  obtain ⟨c, hc, hne⟩ := midi_part L hL _ _ l h1 b h256 hs
  refine ⟨c, hc, ?_⟩
  intro he
  apply hne
  rw [events_append, List.filterMap_append, filterMap_of_map _ _ _ h2] at he
  unfold receive at he
  rw [rx_append] at he
  exact List.append_cancel_left he

example := c111_exact .avr Layout.avr_ok [0x95, 0x40] (by decide) (by decide +kernel) 0x91 (by decide) (by decide +kernel)

/-- **C111 fails (1)**: a tune request does not cancel the running status.  `90 40 40 F6 41 40`: a second note on is reported, a conforming
    receiver ignores the two data bytes. -/
theorem c111_tune_request_fails :
    (Reader.init.events .avr [0x90, 0x40, 0x40, 0xF6, 0x41, 0x40]).map (Ev.meaning .avr) =
      [some (.noteOn 0 0x40 0x40), some .tuneRequest, some (.noteOn 0 0x41 0x40)] ∧
    receive [0x90, 0x40, 0x40, 0xF6, 0x41, 0x40] = [.noteOn 0 0x40 0x40, .tuneRequest] := by
  decide +kernel

/-- **C111 fails (2)**: an undefined real-time byte, which a receiver must ignore, throws away the message it falls into and the running
    status. -/
theorem c111_undefined_realtime_fails :
    (Reader.init.events .avr [0x90, 0x40, 0xFD, 0x40, 0x41, 0x40]).map (Ev.meaning .avr) = [] ∧
    receive [0x90, 0x40, 0xFD, 0x40, 0x41, 0x40] = [.noteOn 0 0x40 0x40, .noteOn 0 0x41 0x40] := by
  decide +kernel

/-- **C111 fails (3)**: a status byte that interrupts a message. -/
theorem c111_interrupt_fails :
    (Reader.init.events .avr [0x90, 0x40, 0xB0, 0x07, 0x64]).map (Ev.meaning .avr) = [some (.noteOn 0 0x40 0x07)] ∧
    receive [0x90, 0x40, 0xB0, 0x07, 0x64] = [.controlChange 0 7 100] := by
  decide +kernel

theorem c111_full_claim_is_false : ¬ C111Full .avr := by
  intro h
  have := h [0x90, 0x40, 0xFD, 0x40, 0x41, 0x40] (by decide)
  revert this
  decide +kernel

/-- A tidy stream with everything in it: data bytes before the first status, running status, real-time bytes inside a message, a repeated
    status byte, system common messages, a tune request and undefined bytes before a status byte. -/
example : Tidy [0x12, 0x95, 0x40, 0xF8, 0x40, 0x41, 0xFE, 0x00, 0xF6, 0xC3, 0xC3, 0x07, 0xF9, 0xF2, 0x01, 0x02, 0x33, 0xF4, 0xE0, 0, 0x40] ∧
    receive [0x12, 0x95, 0x40, 0xF8, 0x40, 0x41, 0xFE, 0x00, 0xF6, 0xC3, 0xC3, 0x07, 0xF9, 0xF2, 0x01, 0x02, 0x33, 0xF4, 0xE0, 0, 0x40] =
      [.realTime 0xF8, .noteOn 5 0x40 0x40, .realTime 0xFE, .noteOn 5 0x41 0, .tuneRequest, .programChange 3 7, .songPosition 0x101,
        .pitchBend 0 0x2000] := by decide +kernel

end Atl.Props
