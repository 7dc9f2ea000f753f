import Verif.Props.UsartWhole
import Verif.Props.MidiLinkLossy
/- Property theorems C106: MIDI messages between two boards, at the level of memory accesses and line levels. -/
namespace Atl.Props
open Atl Atl.Usart Atl.Usart.Config Atl.Spec.Usart Atl.Spec.SerialLine Atl.Midi

theorem Whole.bytes_small (L : Layout) (cs : List WCall) (hcs : ∀ c ∈ cs, CallOk L c) (st : Nat) : ∀ v ∈ (writeAll L st cs).2, v < 256 := by
  induction cs generalizing st with
  | nil => simp [writeAll]
  | cons c cs ih =>
    intro v hv
    simp only [writeAll, List.mem_append] at hv
    rcases hv with hv | hv
    · exact call_bytes_small (hcs c (by simp)) st v hv
    · exact ih (fun c hc => hcs c (by simp [hc])) _ v hv

/-- **C106, partial, from board to board.** Two boards with the same clock and configuration (any rate that is a setting, any parity, eight bits).  On one the bytes of messages written with
    MidiWriter have been accepted by a UsartOutputStream, none refused; they go over the line with any pauses; on the other MidiReader gets the bytes `Read` of a UsartInputStream returns.
    Both programs at the level of memory accesses, with both streams of each USART and both handlers, in any histories in which no handler run comes too often: while the
    receiving program keeps up the events raised are a first part of the messages written, each with its meaning, and all of them when all characters have come in and nothing waits. -/
theorem c106_boards_partial (L : Layout) (hL : L.Ok) (cs : List WCall) (hcs : ∀ c ∈ cs, CallOk L c)
    (c : Config) (h : Setting c.div c.ubrr) (h8 : c.dataBits = .bits8) (id id' : Nat) (hid : id < 2) (hid' : id' < 2) (m m' : Mem)
    (lim lim' : Nat) (g1 g2 : List Nat) (b : BitVec 8) (h1 : 0 < g1.length) (h2 : 0 < g2.length) (n1 : g1.length < 65536) (n2 : g2.length < 65536)
    (es : List DEv) (hes : ∀ e ∈ es, Duplex.evOk e) (hc : CalmRun g1.length g2.length lim (Duplex.init g1 g2 b) es)
    (g1' g2' : List Nat) (b' : BitVec 8) (h1' : 0 < g1'.length) (h2' : 0 < g2'.length) (n1' : g1'.length < 65536) (n2' : g2'.length < 65536) :
    ∃ su d, lineSetup id (openAsync id c m).1 = some su ∧ lineSetup id' (openAsync id' c m').1 = some su ∧ Duplex.run lim (Duplex.init g1 g2 b) es = .ok d ∧
      (d.accepted <+: (writeAll L 0 cs).2 →
      ∀ (pauses : List Nat) (J : Nat) (rs : List (Option Nat)), pauses.length = d.hw.line.length → J ≤ 2 * su.sample →
        Hears su.format su.bit J (sent su.format (2 * su.bit) (pauses.zip d.hw.line)) rs →
        ∀ es' k, (∀ e ∈ es', Duplex.evOk e) → CalmRun g1'.length g2'.length lim' (Duplex.init g1' g2' b') es' → comeIn es' = (rs.map heardFrame).take k →
          KeepsUp (g2'.length - 1) { on := b'.getLsbD 4, ie := b'.getLsbD 7 } (((wholeCalls lim' (Duplex.init g1' g2' b') es').flatMap inSide).map inAct) →
          k ≤ d.hw.line.length →
          ∃ d', Duplex.run lim' (Duplex.init g1' g2' b') es' = .ok d' ∧
            (Reader.init.events L d'.returned).map (Ev.meaning L) <+: cs.map (callMeaning L) ∧
            (d.accepted = (writeAll L 0 cs).2 → k = d.accepted.length → d'.pc = .idle → RingBuffer.getLength d'.inn = 0 → d'.hw.rx = [] →
              (Reader.init.events L d'.returned).map (Ev.meaning L) = cs.map (callMeaning L))) := by
  have h9 : c.dataBits ≠ .bits9 := by rw [h8]; decide
  obtain ⟨su, d, s1, s2, hr, s4⟩ := c137_boards c h h9 id id' hid hid' m m' lim lim' g1 g2 b h1 h2 n1 n2 es hes hc g1' g2' b' h1' h2' n1' n2'
  have hb : su.format.bits = 8 := by
    have := (c131_setup id hid c m h h9).2
    rw [s1, Option.some.injEq] at this
    rw [this]
    show wantedBits c.dataBits = 8
    rw [h8]; rfl
  refine ⟨su, d, s1, s2, hr, fun hacc pauses J rs hp hJ hh es' k hes' hc' hk hku hkl => ?_⟩
  obtain ⟨d', r1, -, r3⟩ := s4 pauses J rs hp hJ hh es' k hes' hc' hk
  obtain ⟨q1, q2⟩ := r3 hku hkl
  have same : (d.accepted.map fun v => v % 2 ^ su.format.bits) = d.accepted := by
    conv => rhs; rw [← List.map_id d.accepted]
    apply List.map_congr_left
    intro v hv
    rw [hb]
    exact Nat.mod_eq_of_lt (Whole.bytes_small L cs hcs 0 v (hacc.subset hv))
  rw [same] at q1 q2
  have e := c18_round_trip L hL cs hcs
  refine ⟨d', r1, ?_, fun ha hk' hpi hl hx => ?_⟩
  · obtain ⟨t, ht⟩ := (q1.trans (List.take_prefix _ _)).trans hacc
    rw [← e, ← ht, events_append, List.map_append]
    exact List.prefix_append _ _
  · obtain ⟨w, w1, w2⟩ := q2 hpi
    rw [hl, hx] at w2
    have hw : w = [] := List.length_eq_zero_iff.1 (by simpa using w2)
    rw [hw, List.append_nil, hk', List.take_length, ha] at w1
    rw [w1, e]

example := c106_boards_partial .avr Layout.avr_ok [.msg ⟨0x90, fun i => [3, 60, 100].getD i 0⟩, .type 0xF8]
  (by simp only [List.forall_mem_cons]; exact ⟨⟨.noteOn 3 60 100, by decide +kernel, by decide +kernel⟩, ⟨.realTime 0xF8, by decide +kernel, by decide +kernel⟩, by simp⟩)
  { div := 16, ubrr := 31 } ⟨.inr rfl, by decide⟩ rfl 0 1 (by decide) (by decide) (fun _ => 0) (fun _ => 0) 1 1 [0, 0, 0, 0] [0, 0] 0x18#8
  (by decide) (by decide) (by decide) (by decide) (dWrite 0x93 ++ [.txIsr] ++ dWrite 60 ++ [.load, .txIsr] ++ dWrite 100 ++ [.frame, .txIsr] ++ dWrite 0xF8 ++ dRounds 5)
  (by simp [Duplex.evOk, dWrite, dRounds])
  (c108_once_calm 1 (by decide) _ _ _ (by decide) (by decide) (by decide) (by decide) _ (by simp [Duplex.evOk, dWrite, dRounds]))
  [0, 0] [0, 0, 0, 0] 0x90#8 (by decide) (by decide) (by decide) (by decide)

/-- The history of the example accepts the bytes of the messages and puts all of them on the line. -/
example : ∃ d, Duplex.run 1 (Duplex.init [0, 0, 0, 0] [0, 0] 0x18#8)
      (dWrite 0x93 ++ [.txIsr] ++ dWrite 60 ++ [.load, .txIsr] ++ dWrite 100 ++ [.frame, .txIsr] ++ dWrite 0xF8 ++ dRounds 5) = .ok d ∧
    (d.accepted = (writeAll .avr 0 [.msg ⟨0x90, fun i => [3, 60, 100].getD i 0⟩, .type 0xF8]).2 ∧ d.hw.line = d.accepted) := by
  obtain ⟨d, h, hd⟩ := duplex_of_run 1 (Duplex.init [0, 0, 0, 0] [0, 0] 0x18#8)
    (dWrite 0x93 ++ [.txIsr] ++ dWrite 60 ++ [.load, .txIsr] ++ dWrite 100 ++ [.frame, .txIsr] ++ dWrite 0xF8 ++ dRounds 5)
    (fun d => decide (d.accepted = (writeAll .avr 0 [.msg ⟨0x90, fun i => [3, 60, 100].getD i 0⟩, .type 0xF8]).2 ∧ d.hw.line = d.accepted)) (by decide +kernel)
  exact ⟨d, h, of_decide_eq_true hd⟩

end Atl.Props
