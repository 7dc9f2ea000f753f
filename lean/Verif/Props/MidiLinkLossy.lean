import Verif.Props.MidiLink
import Verif.Props.MidiTidy

/- Property theorems C106 (continued): what the MIDI link does in histories in which bytes are lost. -/
namespace Atl.Props
open Atl.Usart Atl.Midi Atl.MidiLink

/-! ### Loss only drops bytes -/

/-- What holds in every history besides `LinkSafe`: at each place the bytes are a part, in order, of the bytes at the place before. -/
structure LossyInv (L : Layout) (k : Link) : Prop where
  acc : List.Sublist (k.tx.accepted ++ k.todo) (writeAll L 0 k.sent).2
  status : k.running = (writeAll L 0 k.sent).1
  small : ∀ v ∈ k.todo, v < 256
  kept : List.Sublist (k.rx.kept.map Frame.data) k.tx.s.hw.line
  reader : k.rd = Reader.init.after L k.rx.returned
  events : k.raised = Reader.init.events L k.rx.returned
  calls : ∀ c ∈ k.sent, CallOk L c

/-- The bytes of a call are bytes. -/
theorem call_bytes_small {L : Layout} {c : WCall} (hc : CallOk L c) (st : Nat) : ∀ v ∈ (writeCall L st c).2, v < 256 := by
  intro v hv
  obtain ⟨s, hs, hv'⟩ := hc
  obtain ⟨h256, _, hd, _⟩ := valid_shape s hv'
  rcases writeCall_spec hs hv' st with x | x
  · rw [x] at hv
    unfold sends at hv
    split at hv
    · split at hv
      · rcases List.mem_cons.1 hv with rfl | hv
        · exact h256
        · exact Nat.lt_trans (hd v hv) (by omega)
      · exact Nat.lt_trans (hd v hv) (by omega)
    · rcases List.mem_cons.1 hv with rfl | hv
      · exact h256
      · exact Nat.lt_trans (hd v hv) (by omega)
  · rw [x.2.2] at hv
    rcases List.mem_cons.1 hv with rfl | hv
    · exact h256
    · exact Nat.lt_trans (hd v hv) (by omega)

theorem bitB_line (i : Nat) (v : Bool) (h : Hw) : (h.bitB i v).line = h.line := by
  cases v <;> rfl

theorem writeInternal_line (d : Nat) (h : Hw) : (writeInternal d h).line = h.line := by
  unfold writeInternal Hw.writeUDR
  dsimp only
  split <;> split <;> simp [bitB_line]

theorem out_isr_line {s s' : OutStream} (h : s.isr = .ok s') : s'.hw.line = s.hw.line := by
  unfold OutStream.isr at h
  split at h
  · cases hb : RingBuffer.read s.buf with
    | ub => rw [hb] at h; cases h
    | ok x => rw [hb] at h; injection h with h; rw [← h]; exact writeInternal_line _ _
  · injection h with h; rw [← h]; exact bitB_line _ _ _

/-- What a step of the sender's stream does to the accepted bytes and to the line. -/
theorem out_effect {y y' : OutSys} {e : OutEv} (h : y.step e = .ok y') :
    (y'.accepted = y.accepted ∨ ∃ v, e = .write v ∧ y'.accepted = y.accepted ++ [v.toNat]) ∧
    (y'.s.hw.line = y.s.hw.line ++ if e = .frame then y.s.hw.shift.toList else []) := by
  cases e with
  | write v =>
    unfold OutSys.step at h
    cases hp : y.phase <;> simp only [hp] at h
    · cases hw : y.s.writeBuffer v.toNat with
      | ub => rw [hw] at h; cases h
      | ok r =>
        have hl : r.1.hw = y.s.hw := by
          unfold OutStream.writeBuffer at hw
          cases hb : RingBuffer.write y.s.buf v.toNat with
          | ub => rw [hb] at hw; cases hw
          | ok x => rw [hb] at hw; injection hw with hw; rw [← hw]
        rw [hw] at h
        injection h with h
        subst h
        refine ⟨?_, by simp [hl]⟩
        dsimp only
        split
        · exact Or.inr ⟨v, rfl, rfl⟩
        · exact Or.inl rfl
    all_goals (injection h with h; subst h; exact ⟨Or.inl rfl, by simp⟩)
  | main =>
    unfold OutSys.step at h
    cases hp : y.phase <;> simp only [hp] at h <;> (injection h with h; subst h; exact ⟨Or.inl rfl, by simp [Hw.writeB]⟩)
  | isr =>
    simp only [OutSys.step] at h
    split at h
    · cases hw : y.s.isr with
      | ub => rw [hw] at h; cases h
      | ok r =>
        rw [hw] at h; injection h with h; subst h
        refine ⟨Or.inl rfl, ?_⟩
        simpa using out_isr_line hw
    · injection h with h; subst h; exact ⟨Or.inl rfl, by simp⟩
  | frame => injection h with h; subst h; exact ⟨Or.inl rfl, by simp [Hw.frameTime]⟩
  | load =>
    injection h with h; subst h
    refine ⟨Or.inl rfl, ?_⟩
    unfold Hw.load
    dsimp only
    split <;> simp

/-- What a step of the receiver's stream does to the frames received. -/
theorem in_effect {y y' : InSys} {e : InEv} (h : y.step e = .ok y') : y'.kept = y.kept ∨ ∃ f, e = .arrive f ∧ y'.kept = y.kept ++ [f] := by
  cases e with
  | arrive f =>
    simp only [InSys.step] at h
    injection h with h
    subst h
    split
    · exact Or.inr ⟨f, rfl, rfl⟩
    · exact Or.inl rfl
  | isr =>
    simp only [InSys.step] at h
    split at h
    · cases hw : y.s.isr with
      | ub => rw [hw] at h; cases h
      | ok r => rw [hw] at h; injection h with h; subst h; exact Or.inl rfl
    · injection h with h; subst h; exact Or.inl rfl
  | read =>
    simp only [InSys.step] at h
    cases hw : y.s.read with
    | ub => rw [hw] at h; cases h
    | ok r => rw [hw] at h; injection h with h; subst h; exact Or.inl rfl

/-- The receive interrupt leaves what main code has got. -/
theorem in_isr_returned {y y' : InSys} (h : y.step .isr = .ok y') : y'.returned = y.returned := by
  simp only [InSys.step] at h
  split at h
  · cases hw : y.s.isr with
    | ub => rw [hw] at h; cases h
    | ok r => rw [hw] at h; injection h with h; subst h; rfl
  · injection h with h; subst h; rfl

theorem in_arrive_returned {y y' : InSys} {f : Frame} (h : y.step (.arrive f) = .ok y') : y'.returned = y.returned := by
  simp only [InSys.step] at h
  injection h with h
  subst h
  split <;> rfl

theorem goodBytes_sub (p : List Frame) (h : ∀ f ∈ p, f.data < 256) : List.Sublist (goodBytes p) (p.map Frame.data) := by
  induction p with
  | nil => exact List.Sublist.refl _
  | cons f p ih =>
    have i := ih fun x hx => h x (by simp [hx])
    have e := Nat.mod_eq_of_lt (h f (by simp))
    unfold goodBytes at i ⊢
    by_cases hg : Frame.good f = true
    · simp only [List.filter_cons, hg, if_true, List.map_cons, e]
      exact i.cons_cons _
    · simp only [List.filter_cons, hg, List.map_cons]
      exact i.cons _

theorem lossy_step (L : Layout) {n m : Nat} (hn : n < 65536) (hm : m < 65536) {b : BitVec 8} {k : Link} (h : LinkSafe n m b k) (hl : LossyInv L k)
    (e : LinkEv) (he : ∀ c, e = .send c → CallOk L c) : ∃ k', k.step L e = .ok k' ∧ LinkSafe n m b k' ∧ LossyInv L k' := by
  obtain ⟨k', h1, h2⟩ := link_safe_step L hn hm h e
  refine ⟨k', h1, h2, ?_⟩
  obtain ⟨acc, status, small, kept, reader, events, calls⟩ := hl
  have out : ∀ e t todo, k.tx.step e = .ok t → e ≠ .frame → (∀ v, e = .write v → k.todo = v.toNat :: todo) → ((∀ v, e ≠ .write v) → todo = k.todo) →
      LossyInv L { k with tx := t, todo := todo } := by
    intro e t todo ht hf hw hnw
    obtain ⟨g1, g2⟩ := out_effect ht
    rw [if_neg hf, List.append_nil] at g2
    have hs : List.Sublist todo k.todo := by
      by_cases hx : ∃ v, e = .write v
      · obtain ⟨v, hx⟩ := hx
        rw [hw v hx]
        exact List.sublist_cons_self _ _
      · exact hnw (fun v hv => hx ⟨v, hv⟩) ▸ List.Sublist.refl _
    refine ⟨?_, status, fun v hv => small v (hs.subset hv), by rw [← g2] at kept; exact kept, reader, events, calls⟩
    rcases g1 with g1 | ⟨v, g0, g1⟩
    · show List.Sublist (t.accepted ++ todo) _
      rw [g1]
      exact (hs.append_left _).trans acc
    · show List.Sublist (t.accepted ++ todo) _
      rw [g1, List.append_assoc, List.singleton_append, ← hw v g0]
      exact acc
  cases e with
  | send c =>
    injection h1 with h1
    subst h1
    split
    · rename_i hp
      have e : writeAll L 0 (k.sent ++ [c]) = ((writeCall L k.running c).1, (writeAll L 0 k.sent).2 ++ (writeCall L k.running c).2) := by
        rw [writeAll_append, ← status]
        simp [writeAll]
      rw [hp.2, List.append_nil] at acc
      refine ⟨by rw [e]; exact acc.append (List.Sublist.refl _), by rw [e], call_bytes_small (he c rfl) _, kept, reader, events, ?_⟩
      intro c' hc'
      simp only [List.mem_append, List.mem_singleton] at hc'
      rcases hc' with hc' | rfl
      · exact calls c' hc'
      · exact he _ rfl
    · exact ⟨acc, status, small, kept, reader, events, calls⟩
  | main =>
    simp only [Link.step] at h1
    split at h1
    · rename_i x bs _ ht
      cases hw : k.tx.step (.write (BitVec.ofNat 8 x)) with
      | ub => rw [hw] at h1; cases h1
      | ok t =>
        rw [hw] at h1
        injection h1 with h1
        subst h1
        have hx : x < 256 := small x (by rw [ht]; simp)
        refine out _ t bs hw (by simp) ?_ (fun h => absurd rfl (h _))
        intro v hv
        injection hv with hv
        rw [← hv, ht, BitVec.toNat_ofNat, Nat.mod_eq_of_lt (by simpa using hx)]
    · cases hw : k.tx.step .main with
      | ub => rw [hw] at h1; cases h1
      | ok t => rw [hw] at h1; injection h1 with h1; subst h1; exact out _ t _ hw (by simp) (by simp) (fun _ => rfl)
  | txIsr =>
    simp only [Link.step] at h1
    cases hw : k.tx.step .isr with
    | ub => rw [hw] at h1; cases h1
    | ok t => rw [hw] at h1; injection h1 with h1; subst h1; exact out _ t _ hw (by simp) (by simp) (fun _ => rfl)
  | load =>
    simp only [Link.step] at h1
    cases hw : k.tx.step .load with
    | ub => rw [hw] at h1; cases h1
    | ok t => rw [hw] at h1; injection h1 with h1; subst h1; exact out _ t _ hw (by simp) (by simp) (fun _ => rfl)
  | frame =>
    simp only [Link.step] at h1
    cases hw : k.tx.step .frame with
    | ub => rw [hw] at h1; cases h1
    | ok t =>
      rw [hw] at h1
      obtain ⟨g1, g2⟩ := out_effect hw
      rw [if_pos rfl] at g2
      have g1 : t.accepted = k.tx.accepted := by
        rcases g1 with g1 | ⟨v, g0, _⟩
        · exact g1
        · cases g0
      cases hv : k.tx.s.hw.shift with
      | none =>
        rw [hv] at h1 g2
        injection h1 with h1
        subst h1
        refine ⟨by show List.Sublist (t.accepted ++ _) _; rw [g1]; exact acc, status, small, ?_, reader, events, calls⟩
        show List.Sublist _ t.s.hw.line
        rw [g2]; simpa using kept
      | some v =>
        rw [hv] at h1 g2
        simp only [Res.bind_ok] at h1
        cases hr : k.rx.step (.arrive { data := v }) with
        | ub => rw [hr] at h1; cases h1
        | ok u =>
          rw [hr] at h1
          injection h1 with h1
          subst h1
          have er := in_arrive_returned hr
          refine ⟨by show List.Sublist (t.accepted ++ _) _; rw [g1]; exact acc, status, small, ?_, by show k.rd = Reader.init.after L u.returned; rw [er]; exact reader,
            by show k.raised = Reader.init.events L u.returned; rw [er]; exact events, calls⟩
          show List.Sublist (u.kept.map Frame.data) t.s.hw.line
          rw [g2]
          rcases in_effect hr with x | ⟨f, x0, x⟩
          · rw [x]; exact kept.trans (List.sublist_append_left _ _)
          · injection x0 with x0
            rw [x, List.map_append, ← x0]
            exact kept.append (List.Sublist.refl _)
  | rxIsr =>
    simp only [Link.step] at h1
    cases hr : k.rx.step .isr with
    | ub => rw [hr] at h1; cases h1
    | ok u =>
      rw [hr] at h1
      injection h1 with h1
      subst h1
      have er := in_isr_returned hr
      refine ⟨acc, status, small, ?_, by show k.rd = Reader.init.after L u.returned; rw [er]; exact reader,
        by show k.raised = Reader.init.events L u.returned; rw [er]; exact events, calls⟩
      show List.Sublist (u.kept.map Frame.data) _
      rcases in_effect hr with x | ⟨f, x0, _⟩
      · rw [x]; exact kept
      · cases x0
  | poll =>
    have hx := h2.inp
    simp only [Link.step, Link.poll] at h1
    split at h1
    · cases hr : k.rx.s.read with
      | ub => rw [hr] at h1; cases h1
      | ok x =>
        rw [hr] at h1
        simp only [Res.bind_ok] at h1
        split at h1
        · injection h1 with h1
          subst h1
          have hv : x.2.toNat % 256 = x.2.toNat := by
            obtain ⟨q, p, hi⟩ := hx
            have := hi.sub.subset (show x.2.toNat ∈ (k.rx.returned ++ [x.2.toNat]) ++ q by simp)
            unfold goodBytes at this
            simp only [List.mem_map] at this
            obtain ⟨f, _, hf⟩ := this
            omega
          refine ⟨acc, status, small, kept, ?_, ?_, calls⟩
          · show (k.rd.dispatch L (x.2.toNat % 256)).1 = Reader.init.after L (k.rx.returned ++ [x.2.toNat])
            rw [reader, hv]
            unfold Reader.after
            rw [trace_append]
            rfl
          · show k.raised ++ (k.rd.dispatch L (x.2.toNat % 256)).2.1 = Reader.init.events L (k.rx.returned ++ [x.2.toNat])
            rw [events_append, events, reader, hv]
            congr 1
            simp [Reader.events, Reader.trace]
        · injection h1 with h1
          subst h1
          exact ⟨acc, status, small, kept, reader, events, calls⟩
    · injection h1 with h1
      subst h1
      exact ⟨acc, status, small, kept, reader, events, calls⟩

theorem lossy_run (L : Layout) {n m : Nat} (hn : n < 65536) (hm : m < 65536) {b : BitVec 8} (es : List LinkEv) (he : ∀ c, .send c ∈ es → CallOk L c) {k : Link}
    (h : LinkSafe n m b k) (hl : LossyInv L k) : ∃ k', k.run L es = .ok k' ∧ LinkSafe n m b k' ∧ LossyInv L k' := by
  induction es generalizing k with
  | nil => exact ⟨k, rfl, h, hl⟩
  | cons e es ih =>
    obtain ⟨k1, h1, h2, h3⟩ := lossy_step L hn hm h hl e (fun c hc => he c (by rw [hc]; simp))
    obtain ⟨k2, g1, g2, g3⟩ := ih (fun c hc => he c (by simp [hc])) h2 h3
    exact ⟨k2, by unfold Link.run; rw [h1]; exact g1, g2, g3⟩

/-- **C106.** Any messages written, any history of the two programs, the interrupts and the frames, any buffer sizes, any state of the control registers, any losses: what the
    reader raises are its events for a byte sequence that is the sequence of the bytes of the messages with some of them left out. Nothing is added, altered, repeated or put in another order. -/
theorem c106_lossy (L : Layout) (g h : List Nat) (b c : BitVec 8) (hg : 0 < g.length) (hh : 0 < h.length) (hgn : g.length < 65536)
    (hhn : h.length < 65536) (es : List LinkEv) (he : ∀ c, .send c ∈ es → CallOk L c) :
    ∃ k bs, (Link.init g h b c).run L es = .ok k ∧ List.Sublist bs (writeAll L 0 k.sent).2 ∧ k.raised = Reader.init.events L bs := by
  obtain ⟨k, h1, h2, h3⟩ := lossy_run L hgn hhn es he (link_safe_init g h b c hg hh) (⟨by simp [Link.init], rfl, by simp [Link.init], by simp [Link.init], rfl, rfl, by simp [Link.init]⟩ : LossyInv L (Link.init g h b c))
  refine ⟨k, k.rx.returned, h1, ?_, h3.events⟩
  obtain ⟨⟨q, ho⟩, small, ⟨r, p, hi⟩⟩ := h2
  have s1 : List.Sublist k.tx.s.hw.line k.tx.accepted := by
    rw [← ho.order, List.append_assoc, List.append_assoc]
    exact List.sublist_append_left _ _
  have s2 : List.Sublist (p.map Frame.data) k.tx.s.hw.line := by
    refine List.Sublist.trans ?_ h3.kept
    rw [← hi.taken, List.map_append]
    exact List.sublist_append_left _ _
  have s3 : List.Sublist (goodBytes p) (p.map Frame.data) := by
    refine goodBytes_sub p ?_
    intro f hf
    exact small _ (s1.subset (s2.subset (List.mem_map_of_mem hf)))
  exact ((List.sublist_append_left _ _).trans hi.sub).trans (s3.trans (s2.trans (s1.trans ((List.sublist_append_left _ _).trans h3.acc))))

/-- The messages of `c106_lossy` exist, with loss: in the history of `c106_overflow_fails` a byte of two notes is missing. -/
example : ([0x90, 60, 61, 100] : List Nat).Sublist (writeAll .avr 0 [noteA, noteB]).2 ∧ (writeAll .avr 0 [noteA, noteB]).2 = [0x90, 60, 100, 61, 100] ∧
    (Reader.init.events .avr [0x90, 60, 61, 100]).map (Ev.meaning .avr) = [some (.noteOn 0 60 61)] := by decide +kernel

/-! ### One byte is enough -/

/-- The data bytes of notes. -/
def noteData (ps : List (Nat × Nat)) : List Nat := ps.flatMap fun p => [p.1, p.2]

/-- The notes read one byte off: each velocity as key, each key as the velocity of the note before. -/
def oneOff (ch : Nat) : Nat → List (Nat × Nat) → List SMsg
  | _, [] => []
  | v, p :: ps => .noteOn ch v p.1 :: oneOff ch p.2 ps

theorem notes_bytes (L : Layout) (ch : Nat) (hch : ch < 16) (cs : List WCall) (ps : List (Nat × Nat)) (hp : ∀ p ∈ ps, p.1 < 128 ∧ p.2 < 128)
    (hm : cs.map (callMeaning L) = ps.map fun p => some (.noteOn ch p.1 p.2)) : (writeAll L (0x90 + ch) cs).2 = noteData ps := by
  induction cs generalizing ps with
  | nil =>
    cases ps with
    | nil => rfl
    | cons p ps => cases hm
  | cons c cs ih =>
    cases ps with
    | nil => cases hm
    | cons p ps =>
      simp only [List.map_cons, List.cons.injEq] at hm
      have hv : Spec.Midi.Msg.Valid (.noteOn ch p.1 p.2) := ⟨hch, hp p (by simp)⟩
      have e : writeCall L (0x90 + ch) c = (0x90 + ch, [p.1, p.2]) := by
        rcases writeCall_spec hm.1 hv (0x90 + ch) with x | ⟨x, _⟩
        · rw [x]
          simp [sends, Spec.Midi.Msg.isChannel, Spec.Midi.Msg.status, Spec.Midi.Msg.data]
        · cases x
      simp only [writeAll, e]
      rw [ih ps (fun q hq => hp q (by simp [hq])) hm.2]
      rfl

theorem need_note (ch : Nat) (hch : ch < 16) : Spec.Midi.need (0x90 + ch) = 2 := by
  have : ∀ c < 16, Spec.Midi.need (0x90 + c) = 2 := by decide +kernel
  exact this ch hch

theorem not_rt {b : Nat} (h : b < 0xF8) : b ∉ Spec.Midi.realTimes := fun hm => by
  have := (tbl_rt b (tbl_rt_mem hm) hm).2.2.2
  omega

theorem oneOff_receive (ch : Nat) (hch : ch < 16) (ps : List (Nat × Nat)) (hp : ∀ p ∈ ps, p.1 < 128 ∧ p.2 < 128) (v : Nat) (hv : v < 128) :
    (Spec.Midi.Rx.run ⟨some (0x90 + ch), [v]⟩ (noteData ps)).2 = oneOff ch v ps ∧ (Spec.Midi.Line.run (.inMsg (0x90 + ch) [v]) (noteData ps)).isSome := by
  induction ps generalizing v with
  | nil => exact ⟨rfl, rfl⟩
  | cons p ps ih =>
    obtain ⟨h1, h2⟩ := hp p (by simp)
    obtain ⟨i1, i2⟩ := ih (fun q hq => hp q (by simp [hq])) p.2 h2
    have e : noteData (p :: ps) = p.1 :: p.2 :: noteData ps := rfl
    have nd := need_note ch hch
    rw [e]
    constructor
    · rw [rx_cons, rx_byte _ _ _ h1, nd]
      simp only [List.length_singleton, if_true, show 0x90 + ch < 0xF0 by omega]
      rw [rx_cons, rx_byte _ _ _ h2, nd]
      simp only [List.length_nil]
      rw [if_neg (by omega)]
      simp only [List.nil_append]
      rw [i1]
      show [Spec.Midi.build (0x90 + ch) [v, p.1]] ++ _ = _
      unfold Spec.Midi.build
      rw [if_neg (by omega), if_pos (by omega)]
      simp [oneOff]
    · unfold Spec.Midi.Line.run Spec.Midi.Line.step
      rw [if_neg (not_rt (by omega))]
      simp only [h1, if_true, List.length_singleton, nd, show 0x90 + ch < 0xF0 by omega, Option.bind_some]
      unfold Spec.Midi.Line.run Spec.Midi.Line.step
      rw [if_neg (not_rt (by omega))]
      simp only [h2, if_true, nd, Option.bind_some]
      exact i2

/-- **C106 fails** after the loss of a single byte for as long as the status stays the same: any number of notes on one channel, the key of the first one lost, and the reader reports every
    later note wrongly - its velocity as a key and the key of the following note as that one's velocity - to the last. -/
theorem c106_one_byte_fails (L : Layout) (hL : L.Ok) (ch : Nat) (hch : ch < 16) (key vel : Nat) (hk : key < 128) (hv : vel < 128) (ps : List (Nat × Nat))
    (hp : ∀ p ∈ ps, p.1 < 128 ∧ p.2 < 128) (cs : List WCall) (hm : cs.map (callMeaning L) = ((key, vel) :: ps).map fun p => some (.noteOn ch p.1 p.2)) :
    (Reader.init.events L ((writeAll L 0 cs).2.eraseIdx 1)).map (Ev.meaning L) = (oneOff ch vel ps).map some := by
  cases cs with
  | nil => cases hm
  | cons c cs =>
    simp only [List.map_cons, List.cons.injEq] at hm
    have hval : Spec.Midi.Msg.Valid (.noteOn ch key vel) := ⟨hch, hk, hv⟩
    have e : writeCall L 0 c = (0x90 + ch, [0x90 + ch, key, vel]) := by
      rcases writeCall_spec hm.1 hval 0 with x | ⟨x, _⟩
      · rw [x]
        unfold sends
        rw [if_pos (show Spec.Midi.Msg.isChannel (.noteOn ch key vel) = true from rfl),
          if_pos (show 0 ≠ Spec.Midi.Msg.status (.noteOn ch key vel) from show 0 ≠ 0x90 + ch by omega)]
        rfl
      · cases x
    have e2 : (writeAll L 0 (c :: cs)).2.eraseIdx 1 = (0x90 + ch) :: vel :: noteData ps := by
      simp only [writeAll, e]
      rw [notes_bytes L ch hch cs ps hp hm.2]
      rfl
    obtain ⟨r1, r2⟩ := oneOff_receive ch hch ps hp vel hv
    have nd := need_note ch hch
    rw [e2, c111_conforms_partial L hL]
    · unfold Spec.Midi.receive Spec.Midi.Rx.init
      rw [rx_cons, rx_status _ _ (by omega) (by omega) (by omega), nd]
      simp only [show 0 < 2 by omega, if_true]
      rw [rx_cons, rx_byte _ _ _ hv, nd]
      simp only [List.length_nil]
      rw [if_neg (by omega)]
      simp only [List.nil_append]
      rw [r1]
    · intro b hb
      simp only [List.mem_cons, noteData, List.mem_flatMap, List.mem_nil_iff, or_false] at hb
      rcases hb with rfl | rfl | ⟨p, hp', rfl | rfl⟩
      · omega
      · omega
      · have := (hp p hp').1; omega
      · have := (hp p hp').2; omega
    · unfold Spec.Midi.Tidy Spec.Midi.Line.run Spec.Midi.Line.step Spec.Midi.Line.init
      rw [if_neg (not_rt (by omega))]
      simp only [show ¬ (0x90 + ch < 0x80) by omega, if_false, Spec.Midi.Line.status, nd, show 0 < 2 by omega, if_true, Option.bind_some]
      unfold Spec.Midi.Line.run Spec.Midi.Line.step
      rw [if_neg (not_rt (by omega))]
      simp only [hv, if_true, List.length_nil, nd, Option.bind_some]
      exact r2

example : (Reader.init.events .avr ((writeAll .avr 0 [noteA, noteB, noteA]).2.eraseIdx 1)).map (Ev.meaning .avr) = [some (.noteOn 0 100 61), some (.noteOn 0 100 60)] := by
  decide +kernel

end Atl.Props
