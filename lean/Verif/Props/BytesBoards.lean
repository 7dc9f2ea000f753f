import Verif.Props.UsartBytes
import Verif.Props.MidiBoards
/- Property theorems C138: from board to board, pointers moved byte by byte; and with it MIDI messages (C106). -/
namespace Atl.Props
open Atl Atl.Usart Atl.Usart.Config Atl.Spec.Usart Atl.Spec.SerialLine Atl.Midi
open Atl.RingBuffer (Order)
open Boards

namespace BytesBoards
open Atl.Usart.Bytes

theorem main_kept {o : Order} {d d' : Bytes} (h : d.main o = .ok d') : d'.kept = d.kept := by
  unfold Bytes.main at h
  split at h
  case h_3 v e =>
    cases hp : d.out.put v with
    | ub => rw [hp] at h; cases h
    | ok b => rw [hp] at h; injection h with h; rw [← h]
  case h_15 e =>
    cases hp : d.inn.get with
    | ub => rw [hp] at h; cases h
    | ok b => rw [hp] at h; injection h with h; rw [← h]
  all_goals first
    | (injection h with h; rw [← h]; done)
    | (split at h <;> (injection h with h; rw [← h]))

theorem step_kept {o : Order} {lim : Nat} {d d' : Bytes} {e : DEv} (h : Bytes.step o lim d e = .ok d') : d'.kept.Sublist (d.kept ++ comeIn [e]) := by
  have keep : d'.kept = d.kept → d'.kept.Sublist (d.kept ++ comeIn [e]) := fun x => x ▸ List.sublist_append_left _ _
  cases e with
  | write v => simp only [Bytes.step] at h; split at h <;> (injection h with h; exact keep (by rw [← h]))
  | read => simp only [Bytes.step] at h; split at h <;> (injection h with h; exact keep (by rw [← h]))
  | main => exact keep (main_kept h)
  | frame => simp only [Bytes.step] at h; injection h with h; exact keep (by rw [← h])
  | load => simp only [Bytes.step] at h; injection h with h; exact keep (by rw [← h])
  | txIsr =>
    simp only [Bytes.step] at h
    split at h
    · cases hp : txHandler d.out d.hw with
      | ub => rw [hp] at h; cases h
      | ok b => rw [hp] at h; injection h with h; exact keep (by rw [← h])
    · injection h with h; exact keep (by rw [← h])
  | rxIsr =>
    simp only [Bytes.step] at h
    split at h
    · cases hp : rxHandler d.inn d.hw with
      | ub => rw [hp] at h; cases h
      | ok b => rw [hp] at h; injection h with h; exact keep (by rw [← h])
    · injection h with h; exact keep (by rw [← h])
  | arrive f =>
    simp only [Bytes.step, Res.ok.injEq] at h
    subst h
    split
    · simp [comeIn]
    · exact List.sublist_append_left _ _

theorem run_kept {o : Order} {lim : Nat} (es : List DEv) : ∀ {d d' : Bytes}, Bytes.run o lim d es = .ok d' → d'.kept.Sublist (d.kept ++ comeIn es) := by
  induction es with
  | nil => intro d d' h; injection h with h; rw [← h]; simp [comeIn]
  | cons e es ih =>
    intro d d' h
    cases hs : Bytes.step o lim d e with
    | ub => simp only [Bytes.run, hs] at h; cases h
    | ok d1 =>
      simp only [Bytes.run, hs, Res.bind_ok] at h
      refine (ih h).trans ?_
      have : comeIn (e :: es) = comeIn [e] ++ comeIn es := by simp [comeIn]
      rw [this, ← List.append_assoc]
      exact (step_kept hs).append (List.Sublist.refl _)

/-- What is being written is a byte, and so is what was accepted. -/
def BytesIn (d : Bytes) : Prop :=
  (∀ v ∈ d.accepted, v < 256) ∧ ∀ v, (d.pc = .wChecked v ∨ d.pc = .wStored v ∨ ∃ r, d.pc = .wTest v r) → v < 256

theorem main_bytes {o : Order} {d d' : Bytes} (h : d.main o = .ok d') (hb : BytesIn d) : BytesIn d' := by
  obtain ⟨h1, h2⟩ := hb
  unfold Bytes.main at h
  split at h
  case h_2 v r e =>
    injection h with h
    subst h
    refine ⟨h1, fun u hu => ?_⟩
    have := h2 v (.inr (.inr ⟨r, e⟩))
    dsimp only at hu
    split at hu <;> simp at hu
    omega
  case h_3 v e =>
    cases hp : d.out.put v with
    | ub => rw [hp] at h; cases h
    | ok b =>
      rw [hp] at h
      injection h with h
      subst h
      refine ⟨h1, fun u hu => ?_⟩
      simp at hu
      exact hu ▸ h2 v (.inl e)
  case h_4 v e =>
    injection h with h
    subst h
    refine ⟨fun u hu => ?_, fun u hu => by simp at hu⟩
    rcases List.mem_append.1 hu with hu | hu
    · exact h1 u hu
    · rw [List.mem_singleton.1 hu]; exact h2 v (.inr (.inl e))
  case h_14 e =>
    injection h with h
    subst h
    exact ⟨h1, fun u hu => by dsimp only at hu; split at hu <;> simp at hu⟩
  case h_15 e =>
    cases hp : d.inn.get with
    | ub => rw [hp] at h; cases h
    | ok b => rw [hp] at h; injection h with h; subst h; exact ⟨h1, fun u hu => by simp at hu⟩
  all_goals first
    | (injection h with h; subst h; exact ⟨h1, h2⟩)
    | (injection h with h; subst h; exact ⟨h1, fun u hu => by simp at hu⟩)
    | (split at h <;> (injection h with h; subst h; exact ⟨h1, fun u hu => by simp at hu⟩))

theorem step_bytes {o : Order} {lim : Nat} {d d' : Bytes} {e : DEv} (h : Bytes.step o lim d e = .ok d') (hb : BytesIn d) : BytesIn d' := by
  cases e with
  | write v =>
    simp only [Bytes.step] at h
    split at h <;> (injection h with h; subst h)
    · refine ⟨hb.1, fun u hu => ?_⟩
      simp at hu
      exact hu ▸ v.isLt
    · exact hb
  | read =>
    simp only [Bytes.step] at h
    split at h <;> (injection h with h; subst h)
    · exact ⟨hb.1, fun u hu => by simp at hu⟩
    · exact hb
  | main => exact main_bytes h hb
  | frame => simp only [Bytes.step] at h; injection h with h; subst h; exact hb
  | load => simp only [Bytes.step] at h; injection h with h; subst h; exact hb
  | txIsr =>
    simp only [Bytes.step] at h
    split at h
    · cases hp : txHandler d.out d.hw with
      | ub => rw [hp] at h; cases h
      | ok b =>
        rw [hp] at h; injection h with h; subst h
        refine ⟨hb.1, fun u hu => hb.2 u ?_⟩
        cases hpc : d.pc <;> simp_all [txPc]
    · injection h with h; subst h; exact hb
  | rxIsr =>
    simp only [Bytes.step] at h
    split at h
    · cases hp : rxHandler d.inn d.hw with
      | ub => rw [hp] at h; cases h
      | ok b =>
        rw [hp] at h; injection h with h; subst h
        refine ⟨hb.1, fun u hu => hb.2 u ?_⟩
        cases hpc : d.pc <;> simp_all [rxPc]
    · injection h with h; subst h; exact hb
  | arrive f =>
    simp only [Bytes.step, Res.ok.injEq] at h
    subst h
    split
    · exact hb
    · exact hb

theorem run_bytes {o : Order} {lim : Nat} (es : List DEv) : ∀ {d d' : Bytes}, Bytes.run o lim d es = .ok d' → BytesIn d → BytesIn d' := by
  induction es with
  | nil => intro d d' h hb; injection h with h; exact h ▸ hb
  | cons e es ih =>
    intro d d' h hb
    cases hs : Bytes.step o lim d e with
    | ub => simp only [Bytes.run, hs] at h; cases h
    | ok d1 =>
      simp only [Bytes.run, hs, Res.bind_ok] at h
      exact ih h (step_bytes hs hb)

end BytesBoards

/-- **C138, partial, from board to board** (the handler of a stream runs at most once from the first byte of an incremented pointer to the end of the ring buffer call). C132 with pointers
    moved byte by byte on both boards, either byte first, buffers anywhere in memory, and both streams of each USART in use: any histories, any pauses on the line, while `k` of the
    characters have come in: the bytes `Read` returns on one are, in order, taken from those `Write` accepted on the other; they are the first ones without a gap if the receiver took every
    character and none was dropped at a full buffer, which cannot happen while the characters are fewer than the slots of a buffer of at most 256. -/
theorem c138_boards_partial (c : Config) (h : Setting c.div c.ubrr) (h9 : c.dataBits ≠ .bits9) (id id' : Nat) (hid : id < 2) (hid' : id' < 2) (m m' : Mem)
    (o o' : Order) (lim lim' : Nat) (hlim : lim ≤ 1) (hlim' : lim' ≤ 1) (p1 p2 p1' p2' : Nat) (g1 g2 : List Nat) (b : BitVec 8) (h1 : 0 < g1.length) (h2 : 0 < g2.length)
    (n1 : g1.length < 65536) (es : List DEv) (hes : ∀ e ∈ es, Duplex.evOk e)
    (g1' g2' : List Nat) (b' : BitVec 8) (h1' : 0 < g1'.length) (h2' : 0 < g2'.length) (n1' : g1'.length < 65536) (n2' : g2'.length < 65536) :
    ∃ su d, lineSetup id (openAsync id c m).1 = some su ∧ lineSetup id' (openAsync id' c m').1 = some su ∧ Bytes.run o lim (Bytes.init p1 p2 g1 g2 b) es = .ok d ∧
      ∀ (pauses : List Nat) (J : Nat) (rs : List (Option Nat)), pauses.length = d.hw.line.length → J ≤ 2 * su.sample →
        Hears su.format su.bit J (sent su.format (2 * su.bit) (pauses.zip d.hw.line)) rs →
        ∀ es' k, (∀ e ∈ es', Duplex.evOk e) → comeIn es' = (rs.map heardFrame).take k →
          ∃ d', Bytes.run o' lim' (Bytes.init p1' p2' g1' g2' b') es' = .ok d' ∧ d'.returned.Sublist (d.accepted.map fun v => v % 2 ^ su.format.bits) ∧
            (d'.kept = comeIn es' → (d'.lost = 0 ∨ (k < g2'.length ∧ g2'.length ≤ 256)) →
              k ≤ d.hw.line.length → d'.returned <+: (d.accepted.map fun v => v % 2 ^ su.format.bits).take k ∧ (d'.pc = .idle →
              ∃ waiting, d'.returned ++ waiting = (d.accepted.map fun v => v % 2 ^ su.format.bits).take k ∧
                waiting.length = d'.inn.length + d'.hw.rx.length)) := by
  obtain ⟨d, qo, qi, p, hr, hI⟩ := Bytes.run_inv n1 lim hlim es hes (Bytes.init_inv o p1 p2 g1 g2 b h1 h2)
  obtain ⟨su, s1, s2, s3⟩ := c131_pair c h h9 id id' hid hid' m m'
  have h8 : su.format.bits ≤ 8 := by
    have := (c131_setup id hid c m h h9).2
    rw [s1, Option.some.injEq] at this
    rw [this]
    show wantedBits c.dataBits ≤ 8
    cases hd : c.dataBits <;> simp [wantedBits] <;> exact absurd hd h9
  refine ⟨su, d, s1, s2, hr, fun pauses J rs hp hJ hh es' k hes' hk => ?_⟩
  rw [hears_zip _ _ _ _ (s3 J hJ) pauses _ hp] at hh
  subst hh
  obtain ⟨d', qo', qi', p', hr', hI'⟩ := Bytes.run_inv n1' lim' hlim' es' hes' (Bytes.init_inv o' p1' p2' g1' g2' b' h1' h2')
  have hga : goodBytes (comeIn es') = (d.hw.line.map fun v => v % 2 ^ su.format.bits).take k := by
    rw [hk, ← List.map_take, ← List.map_take, goodBytes_heard _ h8, List.map_take]
  have hpre : d.accepted = d.hw.line ++ (d.hw.shift.toList ++ d.hw.tx.toList ++ qo) := by
    rw [← hI.order]; simp only [List.append_assoc]
  have hkept : d'.kept.Sublist (comeIn es') := by simpa [Bytes.init] using BytesBoards.run_kept es' hr'
  have hp' : p'.Sublist (comeIn es') := (by rw [← hI'.taken]; exact List.sublist_append_left _ _ : p'.Sublist d'.kept).trans hkept
  have hgiven : d'.returned <+: Bytes.given d'.pc d'.returned := by
    unfold Bytes.given
    split <;> first | exact List.prefix_append _ _ | exact List.prefix_refl _
  refine ⟨d', hr', ?_, fun hall hlost hkl => ?_⟩
  · have a1 := hI'.sub
    have a2 := Boards.goodBytes_sub hp'
    rw [hga] at a2
    refine (hgiven.sublist.trans (List.sublist_append_left _ _)).trans (a1.trans (a2.trans ((List.take_sublist _ _).trans ?_)))
    rw [hpre, List.map_append]
    exact List.sublist_append_left _ _
  · have htk : (d.accepted.map fun v => v % 2 ^ su.format.bits).take k = goodBytes (comeIn es') := by
      rw [hga, hpre, List.map_append, List.take_append_of_le_length (by rw [List.length_map]; exact hkl)]
    have hlen : d'.kept.length ≤ k := by rw [hall, hk, List.length_take]; omega
    have h0 : d'.lost = 0 := by
      rcases hlost with h0 | ⟨ha, hb⟩
      · exact h0
      · refine hI'.few hb ?_
        have := congrArg List.length hI'.taken
        rw [List.length_append] at this
        omega
    have heq : Bytes.given d'.pc d'.returned ++ qi' = goodBytes p' := hI'.sub.eq_of_length (by have := hI'.count; rw [List.length_append]; omega)
    have hsplit : goodBytes (comeIn es') = Bytes.given d'.pc d'.returned ++ qi' ++ goodBytes d'.hw.rx := by
      rw [heq, ← hall, ← hI'.taken]; simp [goodBytes]
    rw [htk, hsplit]
    refine ⟨hgiven.trans ((List.prefix_append _ _).trans (List.prefix_append _ _)), fun hpi => ⟨qi' ++ goodBytes d'.hw.rx, ?_, ?_⟩⟩
    · rw [hpi]; simp [Bytes.given]
    · have hgood : ∀ fr ∈ d'.hw.rx, Frame.good fr = true := by
        intro fr hfr
        have hm : fr ∈ comeIn es' := by rw [← hall, ← hI'.taken]; simp [hfr]
        rw [hk] at hm
        have := List.mem_of_mem_take hm
        rw [List.map_map, List.mem_map] at this
        obtain ⟨v, -, rfl⟩ := this
        rfl
      obtain ⟨w', r', i1, i2, i3⟩ := hI'.irel
      rw [hpi] at i2
      have hl : d'.inn.length = qi'.length :=
        Bytes.ring_length i3 (by rw [hI'.isize]; exact n2') (by rw [hI'.ibase]; exact i1) (by rw [hI'.ibase]; exact i2)
      rw [List.length_append, hl]
      simp only [goodBytes, List.length_map]
      rw [List.filter_eq_self.2 hgood]

example := c138_boards_partial { div := 16, ubrr := 103 } ⟨.inr rfl, by decide⟩ (by decide) 0 1 (by decide) (by decide) (fun _ => 0) (fun _ => 0) ⟨true, true⟩ ⟨false, true⟩ 1 1 (by decide) (by decide)
  254 510 254 254 [9, 9, 9] [7, 7, 7] 0x18#8 (by decide) (by decide) (by decide)
  (bWrite 65 ++ [.write 66, .main, .main, .main, .txIsr, .main, .main, .main, .main, .main, .main, .main] ++ dRounds 4) (by simp [Duplex.evOk, bWrite, dRounds])
  [9, 9, 9] [7, 7, 7] 0x98#8 (by decide) (by decide) (by decide) (by decide)

/-- **C106, partial, from board to board, pointers moved byte by byte.** Messages written with MidiWriter on one board, none of their bytes refused, MidiReader on the other: if the
    receiver took every character and none was dropped at a full buffer the events raised are a first part of the messages written, each with its meaning, and all of them when all
    characters have come in and nothing waits. -/
theorem c106_bytes_partial (L : Layout) (hL : L.Ok) (cs : List WCall) (hcs : ∀ c ∈ cs, CallOk L c)
    (c : Config) (h : Setting c.div c.ubrr) (h8 : c.dataBits = .bits8) (id id' : Nat) (hid : id < 2) (hid' : id' < 2) (m m' : Mem)
    (o o' : Order) (lim lim' : Nat) (hlim : lim ≤ 1) (hlim' : lim' ≤ 1) (p1 p2 p1' p2' : Nat) (g1 g2 : List Nat) (b : BitVec 8) (h1 : 0 < g1.length) (h2 : 0 < g2.length)
    (n1 : g1.length < 65536) (es : List DEv) (hes : ∀ e ∈ es, Duplex.evOk e)
    (g1' g2' : List Nat) (b' : BitVec 8) (h1' : 0 < g1'.length) (h2' : 0 < g2'.length) (n1' : g1'.length < 65536) (n2' : g2'.length < 65536) :
    ∃ su d, lineSetup id (openAsync id c m).1 = some su ∧ lineSetup id' (openAsync id' c m').1 = some su ∧ Bytes.run o lim (Bytes.init p1 p2 g1 g2 b) es = .ok d ∧
      (d.accepted <+: (writeAll L 0 cs).2 →
      ∀ (pauses : List Nat) (J : Nat) (rs : List (Option Nat)), pauses.length = d.hw.line.length → J ≤ 2 * su.sample →
        Hears su.format su.bit J (sent su.format (2 * su.bit) (pauses.zip d.hw.line)) rs →
        ∀ es' k, (∀ e ∈ es', Duplex.evOk e) → comeIn es' = (rs.map heardFrame).take k → k ≤ d.hw.line.length →
          ∃ d', Bytes.run o' lim' (Bytes.init p1' p2' g1' g2' b') es' = .ok d' ∧
            (d'.kept = comeIn es' → (d'.lost = 0 ∨ (k < g2'.length ∧ g2'.length ≤ 256)) →
              (Reader.init.events L d'.returned).map (Ev.meaning L) <+: cs.map (callMeaning L) ∧
              (d.accepted = (writeAll L 0 cs).2 → k = d.accepted.length → d'.pc = .idle → d'.inn.length = 0 → d'.hw.rx = [] →
                (Reader.init.events L d'.returned).map (Ev.meaning L) = cs.map (callMeaning L)))) := by
  have h9 : c.dataBits ≠ .bits9 := by rw [h8]; decide
  obtain ⟨su, d, s1, s2, hr, s4⟩ := c138_boards_partial c h h9 id id' hid hid' m m' o o' lim lim' hlim hlim' p1 p2 p1' p2' g1 g2 b h1 h2 n1 es hes g1' g2' b' h1' h2' n1' n2'
  have hb : su.format.bits = 8 := by
    have := (c131_setup id hid c m h h9).2
    rw [s1, Option.some.injEq] at this
    rw [this]
    show wantedBits c.dataBits = 8
    rw [h8]; rfl
  refine ⟨su, d, s1, s2, hr, fun hacc pauses J rs hp hJ hh es' k hes' hk hkl => ?_⟩
  obtain ⟨d', r1, -, r3⟩ := s4 pauses J rs hp hJ hh es' k hes' hk
  refine ⟨d', r1, fun hall hlost => ?_⟩
  obtain ⟨q1, q2⟩ := r3 hall hlost hkl
  have same : (d.accepted.map fun v => v % 2 ^ su.format.bits) = d.accepted := by
    conv => rhs; rw [← List.map_id d.accepted]
    apply List.map_congr_left
    intro v hv
    rw [hb]
    exact Nat.mod_eq_of_lt (Whole.bytes_small L cs hcs 0 v (hacc.subset hv))
  rw [same] at q1 q2
  have e := c18_round_trip L hL cs hcs
  refine ⟨?_, fun ha hk' hpi hl hx => ?_⟩
  · obtain ⟨t, ht⟩ := (q1.trans (List.take_prefix _ _)).trans hacc
    rw [← e, ← ht, events_append, List.map_append]
    exact List.prefix_append _ _
  · obtain ⟨w, w1, w2⟩ := q2 hpi
    rw [hl, hx] at w2
    have hw : w = [] := List.length_eq_zero_iff.1 (by simpa using w2)
    rw [hw, List.append_nil, hk', List.take_length, ha] at w1
    rw [w1, e]

example := c106_bytes_partial .avr Layout.avr_ok [.msg ⟨0x90, fun i => [3, 60, 100].getD i 0⟩, .type 0xF8]
  (by simp only [List.forall_mem_cons]; exact ⟨⟨.noteOn 3 60 100, by decide +kernel, by decide +kernel⟩, ⟨.realTime 0xF8, by decide +kernel, by decide +kernel⟩, by simp⟩)
  { div := 16, ubrr := 31 } ⟨.inr rfl, by decide⟩ rfl 0 1 (by decide) (by decide) (fun _ => 0) (fun _ => 0) ⟨true, true⟩ ⟨false, true⟩ 1 1 (by decide) (by decide) 254 510 254 254 [9, 9, 9, 9] [7, 7] 0x18#8
  (by decide) (by decide) (by decide) (bWrite 0x93 ++ [.txIsr] ++ bWrite 60 ++ [.load, .txIsr] ++ bWrite 100 ++ [.frame, .txIsr] ++ bWrite 0xF8 ++ dRounds 5) (by simp [Duplex.evOk, bWrite, dRounds])
  [9, 9] [7, 7, 7, 7, 7] 0x98#8 (by decide) (by decide) (by decide) (by decide)

/-- Both histories of such a transfer: the bytes are accepted and go over the line; the receiver takes every character, none is dropped, `Read` returns them all. -/
example : ∃ d, Bytes.run ⟨true, true⟩ 1 (Bytes.init 254 510 [9, 9, 9, 9] [7, 7] 0x18#8)
      (bWrite 0x93 ++ [.txIsr] ++ bWrite 60 ++ [.load, .txIsr] ++ bWrite 100 ++ [.frame, .txIsr] ++ bWrite 0xF8 ++ dRounds 5) = .ok d ∧
    (d.accepted = (writeAll .avr 0 [.msg ⟨0x90, fun i => [3, 60, 100].getD i 0⟩, .type 0xF8]).2 ∧ d.hw.line = d.accepted) := by
  obtain ⟨d, h, hd⟩ := bytes_of_run ⟨true, true⟩ 1 (Bytes.init 254 510 [9, 9, 9, 9] [7, 7] 0x18#8)
    (bWrite 0x93 ++ [.txIsr] ++ bWrite 60 ++ [.load, .txIsr] ++ bWrite 100 ++ [.frame, .txIsr] ++ bWrite 0xF8 ++ dRounds 5)
    (fun d => decide (d.accepted = (writeAll .avr 0 [.msg ⟨0x90, fun i => [3, 60, 100].getD i 0⟩, .type 0xF8]).2 ∧ d.hw.line = d.accepted)) (by decide +kernel)
  exact ⟨d, h, of_decide_eq_true hd⟩
example : ∃ d, Bytes.run ⟨false, true⟩ 1 (Bytes.init 254 254 [9, 9] [7, 7, 7, 7, 7] 0x98#8)
      ([dGood 0x93, .rxIsr, dGood 60, .rxIsr] ++ bRead ++ [dGood 100, .rxIsr] ++ bRead ++ [.read, .main, .main, .main, .main, .main, dGood 0xF8, .rxIsr, .main, .main] ++ bRead) = .ok d ∧
    (d.pc = .idle ∧ d.returned = [0x93, 60, 100, 0xF8] ∧ d.kept.length = 4 ∧ d.lost = 0 ∧ d.inn.length = 0 ∧ d.hw.rx = []) := by
  obtain ⟨d, h, hd⟩ := bytes_of_run ⟨false, true⟩ 1 (Bytes.init 254 254 [9, 9] [7, 7, 7, 7, 7] 0x98#8)
    ([dGood 0x93, .rxIsr, dGood 60, .rxIsr] ++ bRead ++ [dGood 100, .rxIsr] ++ bRead ++ [.read, .main, .main, .main, .main, .main, dGood 0xF8, .rxIsr, .main, .main] ++ bRead)
    (fun d => decide (d.pc = .idle ∧ d.returned = [0x93, 60, 100, 0xF8] ∧ d.kept.length = 4 ∧ d.lost = 0 ∧ d.inn.length = 0 ∧ d.hw.rx = [])) (by decide +kernel)
  exact ⟨d, h, of_decide_eq_true hd⟩

end Atl.Props
