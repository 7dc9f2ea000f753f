import Verif.Model.MidiThru
import Verif.Props.MidiTidy
import Mathlib.Data.List.Induction
import Mathlib.Data.List.Basic

/- Property theorem C124: MIDI thru. -/
namespace Atl.Props
open Atl.Midi Atl.Spec.Midi

/-- The data bytes of the messages an event list means. -/
def evData (L : Layout) (ev : List Ev) : List Nat := (ev.filterMap (Ev.meaning L)).flatMap Spec.Midi.Msg.data

/-- An event for a well-formed message whose status byte was received, or the notification of a SysEx. -/
def EvOk (L : Layout) (p : List Nat) (e : Ev) : Prop := e = .onSysEx ∨ ∃ s, e.meaning L = some s ∧ s.Valid ∧ s.status ∈ p

/-- Reader and writer of a thru program after the bytes `p`: `pend` are the data bytes of an unfinished message, `cost` is what it may still add to the output
    for bytes already read, `w` is the running status of the writer. -/
def ThruInv (L : Layout) (r : Reader) (p pend : List Nat) (cost w : Nat) : Prop :=
  (Idle r ∧ (r.running = 0 ∨ (Opens r.running ∧ r.running < 0xF0 ∧ r.running ∈ p ∧ w = r.running)) ∧ pend = [] ∧ cost = 0) ∨
  (∃ s, RIn L r s pend ∧ Opens s ∧ pend.length < need s ∧ (∀ a ∈ pend, a < 128) ∧ s ∈ p ∧
    (cost = pend.length + 1 ∨ (cost = pend.length ∧ w = s ∧ s < 0xF0))) ∨
  (r.parse = .sox ∧ pend = [] ∧ cost = 0)

/-- What one byte does. -/
def ThruStep (L : Layout) (r : Reader) (p pend : List Nat) (cost w b : Nat) : Prop :=
  ∃ pend' cost', ThruInv L (r.dispatch L b).1 (p ++ [b]) pend' cost' (writeAll L w ((r.dispatch L b).2.1.flatMap forward)).1 ∧
    (writeAll L w ((r.dispatch L b).2.1.flatMap forward)).2.length + cost' ≤ cost + 1 ∧
    (evData L (r.dispatch L b).2.1 ++ pend').Sublist (pend ++ [b]) ∧
    ∀ e ∈ (r.dispatch L b).2.1, EvOk L (p ++ [b]) e

theorem forward_meaning (L : Layout) (e : Ev) (s : Spec.Midi.Msg) (h : e.meaning L = some s) : ∃ c, forward e = [c] ∧ callMeaning L c = some s := by
  cases e with
  | onMessage m => exact ⟨.msg m, rfl, h⟩
  | onRealtime t => exact ⟨.type t, rfl, h⟩
  | onSysEx => simp [Ev.meaning] at h

/-- A message completed: what the writer does. -/
theorem thru_message (L : Layout) (w : Nat) (ev : List Ev) (s : Spec.Midi.Msg) (hv : s.Valid) (hd : s.data ≠ []) (h : ev.map (Ev.meaning L) = [some s]) :
    writeAll L w (ev.flatMap forward) = sends w s ∧ evData L ev = s.data ∧ ∀ p, s.status ∈ p → ∀ e ∈ ev, EvOk L p e := by
  obtain ⟨e, rfl⟩ : ∃ e, ev = [e] := by
    have := congrArg List.length h
    simp only [List.length_map, List.length_cons, List.length_nil] at this
    exact List.length_eq_one_iff.1 this
  simp only [List.map_cons, List.map_nil, List.cons.injEq, and_true] at h
  obtain ⟨c, hc, hm⟩ := forward_meaning L e s h
  refine ⟨?_, by simp [evData, h], ?_⟩
  · simp only [List.flatMap_cons, List.flatMap_nil, List.append_nil, hc, writeAll]
    rcases writeCall_spec hm hv w with h' | ⟨rfl, -, -⟩
    · rw [h']
    · exact absurd rfl hd
  · intro p hp e' he
    rw [List.mem_singleton.1 he]
    exact .inr ⟨s, h, hv, hp⟩

/-- A message complete, its last data byte just read. -/
theorem thru_complete (L : Layout) (hL : L.Ok) (r : Reader) (s : Nat) (ho : Opens s) (d : List Nat) (hin : RIn L r s d) (b : Nat) (hb : b < 128)
    (hn : d.length + 1 = need s) (hd : ∀ a ∈ d, a < 128) (p : List Nat) (hp : s ∈ p) (cost w : Nat)
    (hc : cost = d.length + 1 ∨ (cost = d.length ∧ w = s ∧ s < 0xF0)) : ThruStep L r p d cost w b := by
  obtain ⟨c1, c2, c3⟩ := midi_complete L hL r s ho d hin b hb hn hd
  obtain ⟨v1, v2, v3⟩ := build_valid s (d ++ [b]) ho.lt ho.ge ho.pos (by simp [hn]) (by
    intro a ha
    rcases List.mem_append.1 ha with h | h
    · exact hd a h
    · rw [List.mem_singleton.1 h]; exact hb)
  obtain ⟨w1, w2, w3⟩ := thru_message L w _ _ v1 (by rw [v3]; simp) c2
  have hch := (valid_shape _ v1).2.2.2.2.2.1
  rw [v2] at hch
  have hrt := (valid_shape _ v1).2.2.2.2.2.2.1
  rw [v2] at hrt
  refine ⟨[], 0, .inl ⟨c1, ?_, rfl, rfl⟩, ?_, by rw [w2, v3]; simp, w3 _ (by rw [v2]; simp [hp])⟩
  · rw [c3, w1]
    by_cases h : s < 0xF0
    · right
      rw [if_pos h]
      refine ⟨ho, h, by simp [hp], ?_⟩
      unfold sends
      rw [if_pos (hch.2 h), v2]
      split
      · rfl
      · rename_i hne; simpa using hne
    · exact .inl (by rw [if_neg h])
  · rw [w1]
    unfold sends
    rw [v2]
    by_cases h : s < 0xF0
    · rw [if_pos (hch.2 h)]
      by_cases hw : w = s
      · rw [if_neg (by simpa using hw)]
        simp only [v3, List.length_append, List.length_cons, List.length_nil]
        omega
      · rw [if_pos hw]
        simp only [Spec.Midi.Msg.bytes, v3, List.length_append, List.length_cons, List.length_nil]
        omega
    · rw [if_neg (fun hx => h (hch.1 hx))]
      simp only [Spec.Midi.Msg.bytes, v3, List.length_append, List.length_cons, List.length_nil]
      omega

theorem thru_more (L : Layout) (r : Reader) (s : Nat) (ho : Opens s) (d : List Nat) (hin : RIn L r s d) (b : Nat) (hb : b < 128)
    (hn : d.length + 1 < need s) (hd : ∀ a ∈ d, a < 128) (p : List Nat) (hp : s ∈ p) (cost w : Nat)
    (hc : cost = d.length + 1 ∨ (cost = d.length ∧ w = s ∧ s < 0xF0)) : ThruStep L r p d cost w b := by
  obtain ⟨c1, c2⟩ := midi_more L r s ho d hin b hb hn hd
  unfold ThruStep
  rw [c2]
  refine ⟨d ++ [b], cost + 1, .inr (.inl ⟨s, c1, ho, by simp; omega, ?_, by simp [hp], ?_⟩), by simp [writeAll], by simp [evData], by simp⟩
  · intro a ha
    rcases List.mem_append.1 ha with h | h
    · exact hd a h
    · rw [List.mem_singleton.1 h]; exact hb
  · rcases hc with rfl | ⟨rfl, h1, h2⟩
    · left; simp
    · right; exact ⟨by simp, by simpa [writeAll] using h1, h2⟩

theorem thru_data (L : Layout) (hL : L.Ok) (r : Reader) (s : Nat) (ho : Opens s) (d : List Nat) (hin : RIn L r s d) (b : Nat) (hb : b < 128)
    (hl : d.length < need s) (hd : ∀ a ∈ d, a < 128) (p : List Nat) (hp : s ∈ p) (cost w : Nat)
    (hc : cost = d.length + 1 ∨ (cost = d.length ∧ w = s ∧ s < 0xF0)) : ThruStep L r p d cost w b := by
  by_cases h : d.length + 1 = need s
  · exact thru_complete L hL r s ho d hin b hb h hd p hp cost w hc
  · exact thru_more L r s ho d hin b hb (by omega) hd p hp cost w hc

/-- Nothing raised, the reader idle or as before. -/
theorem thru_quiet {L : Layout} {r : Reader} {p pend : List Nat} {cost w b : Nat} {r' : Reader} {ok : Bool} {pend' : List Nat} {cost' : Nat}
    (h : r.dispatch L b = (r', [], ok)) (hi : ThruInv L r' (p ++ [b]) pend' cost' w) (hc : cost' ≤ cost + 1) (hp : pend'.Sublist (pend ++ [b])) :
    ThruStep L r p pend cost w b := by
  unfold ThruStep
  rw [h]
  exact ⟨pend', cost', by simpa [writeAll] using hi, by simpa [writeAll] using hc, by simpa [evData] using hp, by simp⟩

theorem thru_byte_alone (L : Layout) (w t : Nat) (ht : t = 0xF6 ∨ t ∈ realTimes) (p : List Nat) :
    writeAll L w (List.flatMap forward [.onRealtime t]) = (w, [t]) ∧ evData L [.onRealtime t] = [] ∧
      ∀ e ∈ [Ev.onRealtime t], EvOk L (p ++ [t]) e := by
  have h256 : t < 256 := by
    rcases ht with rfl | h
    · omega
    · exact tbl_rt_mem h
  refine ⟨by simp [forward, writeAll, writeCall, Nat.mod_eq_of_lt h256], ?_, ?_⟩
  · rcases ht with rfl | h
    · rfl
    · have : t ≠ 0xF6 := by have := (tbl_rt t h256 h).2.2.2; omega
      simp [evData, Ev.meaning, this, h, Spec.Midi.Msg.data]
  · intro e he
    rw [List.mem_singleton.1 he]
    rcases ht with rfl | h
    · exact .inr ⟨.tuneRequest, rfl, trivial, by simp [Spec.Midi.Msg.status]⟩
    · have : t ≠ 0xF6 := by have := (tbl_rt t h256 h).2.2.2; omega
      exact .inr ⟨.realTime t, by simp [Ev.meaning, this, h], h, by simp [Spec.Midi.Msg.status]⟩

theorem ThruInv.snoc {L : Layout} {r : Reader} {p pend : List Nat} {cost w : Nat} (h : ThruInv L r p pend cost w) (b : Nat) :
    ThruInv L r (p ++ [b]) pend cost w := by
  rcases h with ⟨h1, h2, h3⟩ | ⟨s, h1, h2, h3, h4, h5, h6⟩ | h
  · refine .inl ⟨h1, ?_, h3⟩
    rcases h2 with h | ⟨a, b, c, d⟩
    · exact .inl h
    · exact .inr ⟨a, b, by simp [c], d⟩
  · exact .inr (.inl ⟨s, h1, h2, h3, h4, by simp [h5], h6⟩)
  · exact .inr (.inr h)

theorem ThruInv.settled {L : Layout} {r : Reader} {p pend : List Nat} {cost w : Nat} (h : ThruInv L r p pend cost w) : Settled r := by
  rcases h with ⟨h, -⟩ | ⟨s, ⟨r0, hi, rfl⟩, ho, hl, hd, -⟩ | ⟨h, -⟩
  · exact .inl h
  · exact (midi_inside L r0 hi s ho pend hl hd).2.2
  · exact .inr (.inr (.inr h))

/-- A byte that raises exactly a one byte message and leaves the reader as it is. -/
theorem thru_one {L : Layout} {r : Reader} {p pend : List Nat} {cost w b : Nat} (hi : ThruInv L r p pend cost w) (hb : b = 0xF6 ∨ b ∈ realTimes)
    (h : r.dispatch L b = (r, [.onRealtime b], true)) : ThruStep L r p pend cost w b := by
  obtain ⟨h1, h2, h3⟩ := thru_byte_alone L w b hb p
  unfold ThruStep
  rw [h]
  simp only [h1, h2]
  exact ⟨pend, cost, hi.snoc b, by simp; omega, by simp, h3⟩

theorem thru_sox (L : Layout) (r : Reader) (h : r.parse = .sox) (b : Nat) : r.dispatch L b = (r, [], false) := by
  unfold Reader.dispatch
  simp [h, Reader.finish]

theorem thru_step (L : Layout) (hL : L.Ok) (r : Reader) (p pend : List Nat) (cost w : Nat) (hi : ThruInv L r p pend cost w) (b : Nat) (hb : b < 256) :
    ThruStep L r p pend cost w b := by
  by_cases hsox : r.parse = .sox
  · have h0 : pend = [] ∧ cost = 0 := by
      rcases hi with ⟨h, -⟩ | ⟨s, ⟨r0, hi, rfl⟩, ho, hl, hd, -⟩ | ⟨-, h⟩
      · rw [show r.parse = .statusByte from h] at hsox; cases hsox
      · rcases (midi_inside L r0 hi s ho pend hl hd).2.1 with ⟨h, -⟩ | h <;> rw [h] at hsox <;> cases hsox
      · exact h
    exact thru_quiet (thru_sox L r hsox b) (.inr (.inr ⟨hsox, rfl, rfl⟩)) (by omega) (by simp)
  by_cases hrt : b ∈ realTimes
  · exact thru_one hi (.inr hrt) (dispatch_realtime L r hi.settled hsox b hrt)
  rcases hi with ⟨h1, h2, rfl, rfl⟩ | ⟨s, h1, h2, h3, h4, h5, h6⟩ | ⟨h, -⟩
  · by_cases hd : b < 128
    · rcases h2 with h | ⟨ho, hc, hm, hw⟩
      · exact thru_quiet (reader_silent L r h1 h b hd) (.inl ⟨h1, .inl h, rfl, rfl⟩) (by omega) (by simp)
      · obtain ⟨hin, hno⟩ := opens_in L r h1 r.running ho
        have hrun := dispatch_running L r b h1 hd ho.lt ho.ge hc
        have := thru_data L hL _ r.running ho [] hin b hd (by simpa using ho.pos) (by simp) p hm 0 w (.inr ⟨rfl, hw, hc⟩)
        unfold ThruStep at this ⊢
        rw [hrun]
        exact this
    · by_cases hn : 0 < need b
      · have ho : Opens b := ⟨hb, by omega, hn⟩
        obtain ⟨o1, o2⟩ := opens_in L r h1 b ho
        unfold ThruStep
        rw [o2]
        exact ⟨[], 1, .inr (.inl ⟨b, o1, ho, by simpa using hn, by simp, by simp, .inl rfl⟩), by simp [writeAll], by simp [evData], by simp⟩
      · rcases tbl_need_none b hb (by omega) (by omega) with h | h | h | h
        · subst h
          have hl : getMessageLength 0xF0 = -1 := by decide +kernel
          have ht : getMessageType 0xF0 = 0xF0 := by decide +kernel
          have hdis : r.dispatch L 0xF0 = ({ r with running := 0, parse := .sox, endState := .eox }, [.onSysEx], true) := by
            unfold Reader.dispatch
            simp [show r.parse = .statusByte from h1, ht, Reader.processStatus, hl, Reader.finish]
          unfold ThruStep
          rw [hdis]
          exact ⟨[], 0, .inr (.inr ⟨rfl, rfl, rfl⟩), by simp [writeAll, forward], by simp [evData, Ev.meaning], by
            intro e he; rw [List.mem_singleton.1 he]; exact .inl rfl⟩
        · subst h
          exact thru_one (.inl ⟨h1, h2, rfl, rfl⟩) (.inl rfl) (reader_tune L r h1)
        · exact thru_quiet (undefined_idle L r h1 b hb (by omega) h) (.inl ⟨rfl, .inl rfl, rfl, rfl⟩) (by omega) (by simp)
        · exact absurd h hrt
  · have hp : r.parse = .dataByte1 ∨ r.parse = .dataByte2 := by
      obtain ⟨r0, hi, rfl⟩ := h1
      rcases (midi_inside L r0 hi s h2 pend h3 h4).2.1 with ⟨h, -⟩ | h
      · exact .inl h
      · exact .inr h
    by_cases hd : b < 128
    · exact thru_data L hL r s h2 pend h1 b hd h3 h4 p h5 cost w h6
    · by_cases h8 : b < 0xF8
      · exact thru_quiet (midi_dropped L r hp b hb (by omega) h8) (.inr (.inl ⟨s, h1, h2, h3, h4, by simp [h5], h6⟩)) (by omega) (by simp)
      · have h9 : b = 0xF9 ∨ b = 0xFD := by
          have : ∀ b < 256, 0xF8 ≤ b → b ∉ realTimes → b = 0xF9 ∨ b = 0xFD := by decide +kernel
          exact this b hb (by omega) hrt
        exact thru_quiet (midi_aborted L r hp b h9) (.inl ⟨rfl, .inl rfl, rfl, rfl⟩) (by omega) (by simp)
  · exact absurd h hsox

theorem thru_run (L : Layout) (hL : L.Ok) (bs : List Nat) (hb : ∀ b ∈ bs, b < 256) :
    ∃ pend cost, ThruInv L (Reader.init.after L bs) bs pend cost (writeAll L 0 ((Reader.init.events L bs).flatMap forward)).1 ∧
      (thru L bs).length + cost ≤ bs.length ∧ (evData L (Reader.init.events L bs) ++ pend).Sublist bs ∧
      ∀ e ∈ Reader.init.events L bs, EvOk L bs e := by
  induction bs using List.reverseRecOn with
  | nil => exact ⟨[], 0, .inl ⟨rfl, .inl rfl, rfl, rfl⟩, by simp [thru, Reader.events, Reader.trace, writeAll], by simp [evData, Reader.events, Reader.trace],
      by simp [Reader.events, Reader.trace]⟩
  | append_singleton bs b ih =>
    obtain ⟨pend, cost, h1, h2, h3, h4⟩ := ih (fun x hx => hb x (by simp [hx]))
    obtain ⟨pend', cost', g1, g2, g3, g4⟩ := thru_step L hL _ _ _ _ _ h1 b (hb b (by simp))
    refine ⟨pend', cost', ?_, ?_, ?_, ?_⟩
    · rw [after_snoc, events_snoc, List.flatMap_append, writeAll_append]
      exact g1
    · unfold thru at h2 ⊢
      rw [events_snoc, List.flatMap_append, writeAll_append]
      simp only [List.length_append, List.length_cons, List.length_nil]
      omega
    · rw [events_snoc]
      have : evData L (Reader.init.events L bs ++ ((Reader.init.after L bs).dispatch L b).2.1) =
          evData L (Reader.init.events L bs) ++ evData L ((Reader.init.after L bs).dispatch L b).2.1 := by
        simp [evData]
      rw [this, List.append_assoc]
      refine (List.Sublist.append_left g3 _).trans ?_
      rw [← List.append_assoc]
      exact List.Sublist.append_right h3 _
    · rw [events_snoc]
      intro e he
      rcases List.mem_append.1 he with he | he
      · rcases h4 e he with h | ⟨s, a, b, c⟩
        · exact .inl h
        · exact .inr ⟨s, a, b, by simp [c]⟩
      · exact g4 e he

/-- **C124.** Whatever bytes arrive, garbage included: everything the reader raises, but for the notification of a SysEx, is a well-formed message whose status byte
    was received, and its data bytes were received, each used once and in order. -/
theorem c124_sound (L : Layout) (hL : L.Ok) (bs : List Nat) (hb : ∀ b ∈ bs, b < 256) :
    (∀ e ∈ Reader.init.events L bs, e = .onSysEx ∨ ∃ s, e.meaning L = some s ∧ s.Valid ∧ s.status ∈ bs) ∧
    (((Reader.init.events L bs).filterMap (Ev.meaning L)).flatMap Spec.Midi.Msg.data).Sublist bs := by
  obtain ⟨pend, cost, -, -, h3, h4⟩ := thru_run L hL bs hb
  exact ⟨h4, (List.sublist_append_left _ _).trans h3⟩

example := c124_sound .avr Layout.avr_ok [5, 0x90, 60, 0xF8, 0xB0, 100, 0xFD, 61] (by decide)

/-- **C124.** A thru program never sends more bytes than it has read: at no moment, for any bytes. -/
theorem c124_rate (L : Layout) (hL : L.Ok) (bs : List Nat) (hb : ∀ b ∈ bs, b < 256) (n : Nat) : (thru L (bs.take n)).length ≤ min n bs.length := by
  obtain ⟨pend, cost, -, h2, -, -⟩ := thru_run L hL (bs.take n) (fun b h => hb b (List.mem_of_mem_take h))
  rw [List.length_take] at h2
  omega

example := c124_rate .avr Layout.avr_ok [5, 0x90, 60, 0xF8, 0xB0, 100, 0xFD, 61] (by decide) 4

theorem thru_calls (L : Layout) (hL : L.Ok) (bs : List Nat) (hb : ∀ b ∈ bs, b < 256) :
    (∀ c ∈ (Reader.init.events L bs).flatMap forward, CallOk L c) ∧
    ((Reader.init.events L bs).flatMap forward).map (callMeaning L) = ((Reader.init.events L bs).filterMap (Ev.meaning L)).map some := by
  obtain ⟨pend, cost, -, -, -, h4⟩ := thru_run L hL bs hb
  generalize Reader.init.events L bs = es at h4
  induction es with
  | nil => simp
  | cons e es ih =>
    obtain ⟨i1, i2⟩ := ih (fun x hx => h4 x (List.mem_cons_of_mem _ hx))
    rcases h4 e (by simp) with rfl | ⟨s, h1, h2, -⟩
    · exact ⟨by simpa [forward] using i1, by simpa [forward, List.filterMap_cons, show Ev.meaning L .onSysEx = none from rfl] using i2⟩
    · obtain ⟨c, hc, hm⟩ := forward_meaning L e s h1
      refine ⟨?_, ?_⟩
      · intro c' hc'
        rw [List.flatMap_cons, hc] at hc'
        rcases List.mem_append.1 hc' with h | h
        · rw [List.mem_singleton.1 h]; exact ⟨s, hm, h2⟩
        · exact i1 c' h
      · simp only [List.flatMap_cons, hc, List.cons_append, List.nil_append, List.map_cons, hm, i2, List.filterMap_cons, h1]

/-- **C124.** Whatever bytes arrive: a second ATL device behind a thru program reports exactly the messages the first one reported, in order. -/
theorem c124_thru (L : Layout) (hL : L.Ok) (bs : List Nat) (hb : ∀ b ∈ bs, b < 256) :
    (Reader.init.events L (thru L bs)).map (Ev.meaning L) = ((Reader.init.events L bs).filterMap (Ev.meaning L)).map some := by
  obtain ⟨h1, h2⟩ := thru_calls L hL bs hb
  exact (c18_round_trip L hL _ h1).trans h2

example := c124_thru .avr Layout.avr_ok [5, 0x90, 60, 0xF8, 0xB0, 100, 0xFD, 61] (by decide)

/-- **C124, partial.** For a tidy stream without tune request, from whatever sender: any conforming receiver behind the thru program understands exactly the
    messages that were sent. Missing: tune requests (next theorem), and the streams that `MidiReader` itself misunderstands (C111). -/
theorem c124_transparent_partial (L : Layout) (hL : L.Ok) (bs : List Nat) (hb : ∀ b ∈ bs, b < 256) (ht : Tidy bs) (h6 : .tuneRequest ∉ receive bs) :
    receive (thru L bs) = receive bs := by
  obtain ⟨h1, h2⟩ := thru_calls L hL bs hb
  have hc := c111_conforms_partial L hL bs hb ht
  have hf : (Reader.init.events L bs).filterMap (Ev.meaning L) = receive bs := by
    have := congrArg (List.filterMap id) hc
    simpa [List.filterMap_map, Function.comp_def] using this
  have hr := c23_receiver_partial L ((Reader.init.events L bs).flatMap forward) (fun c hc => ⟨h1 c hc, fun hx => by
    subst hx
    have hm : callMeaning L (.type 0xF6) ∈ (((Reader.init.events L bs).flatMap forward).map (callMeaning L)) := List.mem_map_of_mem hc
    rw [h2, hf] at hm
    simp only [callMeaning, if_true, List.mem_map, Option.some.injEq, exists_eq_right] at hm
    exact h6 hm⟩)
  rw [h2, hf] at hr
  exact List.map_injective_iff.2 (fun _ _ h => Option.some.inj h) hr

example := c124_transparent_partial .avr Layout.avr_ok [0x90, 60, 0xF8, 100, 61, 0] (by decide) (by decide +kernel) (by decide +kernel)

/-- **C124 fails** with a tune request: note on, tune request, note on, each with its status byte. The thru program omits the status byte of the second note
    (`Write(MessageTypes)` does not cancel the running status of the writer), so a conforming receiver behind it never sees that note. -/
theorem c124_tune_request_fails :
    Tidy [0x90, 60, 100, 0xF6, 0x90, 61, 100] ∧ thru .avr [0x90, 60, 100, 0xF6, 0x90, 61, 100] = [0x90, 60, 100, 0xF6, 61, 100] ∧
    receive [0x90, 60, 100, 0xF6, 0x90, 61, 100] = [.noteOn 0 60 100, .tuneRequest, .noteOn 0 61 100] ∧
    receive (thru .avr [0x90, 60, 100, 0xF6, 0x90, 61, 100]) = [.noteOn 0 60 100, .tuneRequest] := by decide +kernel

/-- A stream with garbage, and a tidy one with running status and a clock byte inside a message. -/
example : (Reader.init.events .avr [5, 0x90, 60, 0xF8, 0xB0, 100, 0xFD, 61]).map (Ev.meaning .avr) = [some (.realTime 0xF8), some (.noteOn 0 60 100)] := by
  decide +kernel
example : Tidy [0x90, 60, 0xF8, 100, 61, 0] ∧ .tuneRequest ∉ receive [0x90, 60, 0xF8, 100, 61, 0] ∧
    thru .avr [0x90, 60, 0xF8, 100, 61, 0] = [0xF8, 0x90, 60, 100, 61, 0] := by decide +kernel

end Atl.Props
