import Verif.Model.MidiLink
import Verif.Props.Midi
import Verif.Props.UsartStream

/- Property theorems C106: MIDI messages over interrupt driven USART streams, from MidiWriter::Write to the reader's callbacks. -/
namespace Atl.Props
open Atl.Usart Atl.Midi Atl.MidiLink

/-! ### Without assumptions on timing: no undefined behaviour -/

/-- What holds in every history. -/
structure LinkSafe (n m : Nat) (b : BitVec 8) (k : Link) : Prop where
  out : ∃ q, OInv n b k.tx q
  small : ∀ v ∈ k.tx.accepted, v < 256
  inp : ∃ q p, IInv m k.rx q p

theorem accepted_small {y y' : OutSys} {e : OutEv} (hs : y.step e = .ok y') (h : ∀ v ∈ y.accepted, v < 256) : ∀ v ∈ y'.accepted, v < 256 := by
  cases e with
  | write v =>
    unfold OutSys.step at hs
    cases hp : y.phase <;> simp only [hp] at hs
    · cases hw : y.s.writeBuffer v.toNat with
      | ub => rw [hw] at hs; cases hs
      | ok r =>
        rw [hw] at hs
        injection hs with hs
        subst hs
        intro x hx
        simp only at hx
        split at hx
        · simp only [List.mem_append, List.mem_singleton] at hx
          rcases hx with hx | rfl
          · exact h x hx
          · exact v.isLt
        · exact h x hx
    all_goals (injection hs with hs; subst hs; exact h)
  | main =>
    unfold OutSys.step at hs
    cases hp : y.phase <;> simp only [hp] at hs <;> (injection hs with hs; subst hs; exact h)
  | isr =>
    simp only [OutSys.step] at hs
    split at hs
    · cases hw : y.s.isr with
      | ub => rw [hw] at hs; cases hs
      | ok r => rw [hw] at hs; injection hs with hs; subst hs; exact h
    · injection hs with hs; subst hs; exact h
  | frame => injection hs with hs; subst hs; exact h
  | load => injection hs with hs; subst hs; exact h

theorem shift_small {n : Nat} {b : BitVec 8} {y : OutSys} {q : List Nat} (h : OInv n b y q) (hs : ∀ v ∈ y.accepted, v < 256) {v : Nat}
    (hv : y.s.hw.shift = some v) : v < 256 := by
  refine hs v ?_
  rw [← h.order, hv]
  simp

theorem link_safe_step (L : Layout) {n m : Nat} (hn : n < 65536) (hm : m < 65536) {b : BitVec 8} {k : Link} (h : LinkSafe n m b k) (e : LinkEv) :
    ∃ k', k.step L e = .ok k' ∧ LinkSafe n m b k' := by
  obtain ⟨⟨q, ho⟩, small, ⟨r, p, hi⟩⟩ := h
  have tx : ∀ e, ∃ t, k.tx.step e = .ok t ∧ (∃ q, OInv n b t q) ∧ ∀ v ∈ t.accepted, v < 256 := by
    intro e
    obtain ⟨t, q', h1, h2⟩ := step_inv hn ho e
    exact ⟨t, h1, ⟨q', h2⟩, accepted_small h1 small⟩
  have rx : ∀ e, InEv.ok e → ∃ t, k.rx.step e = .ok t ∧ ∃ q p, IInv m t q p := by
    intro e he
    obtain ⟨t, q', p', h1, h2⟩ := in_step hm hi e he
    exact ⟨t, h1, q', p', h2⟩
  cases e with
  | send c =>
    refine ⟨_, rfl, ?_⟩
    split <;> exact ⟨⟨q, ho⟩, small, ⟨r, p, hi⟩⟩
  | main =>
    simp only [Link.step]
    split
    · rename_i x bs _ _
      obtain ⟨t, h1, h2, h3⟩ := tx (.write (BitVec.ofNat 8 x))
      exact ⟨{ k with tx := t, todo := bs }, by rw [h1]; rfl, h2, h3, ⟨r, p, hi⟩⟩
    · obtain ⟨t, h1, h2, h3⟩ := tx .main
      exact ⟨{ k with tx := t }, by rw [h1]; rfl, h2, h3, ⟨r, p, hi⟩⟩
  | txIsr =>
    obtain ⟨t, h1, h2, h3⟩ := tx .isr
    exact ⟨{ k with tx := t }, by unfold Link.step; rw [h1]; rfl, h2, h3, ⟨r, p, hi⟩⟩
  | load =>
    obtain ⟨t, h1, h2, h3⟩ := tx .load
    exact ⟨{ k with tx := t }, by unfold Link.step; rw [h1]; rfl, h2, h3, ⟨r, p, hi⟩⟩
  | frame =>
    obtain ⟨t, h1, h2, h3⟩ := tx .frame
    unfold Link.step
    rw [h1]
    cases hv : k.tx.s.hw.shift with
    | none => exact ⟨{ k with tx := t }, rfl, h2, h3, ⟨r, p, hi⟩⟩
    | some v =>
      obtain ⟨u, g1, g2⟩ := rx (.arrive { data := v }) (by have := shift_small ho small hv; show v < 512; omega)
      exact ⟨{ k with tx := t, rx := u }, by simp only [Res.bind_ok]; rw [g1]; rfl, h2, h3, g2⟩
  | rxIsr =>
    obtain ⟨u, g1, g2⟩ := rx .isr trivial
    exact ⟨{ k with rx := u }, by unfold Link.step; rw [g1]; rfl, ⟨q, ho⟩, small, g2⟩
  | poll =>
    show ∃ k', k.poll L = .ok k' ∧ _
    unfold Link.poll
    by_cases hc : RingBuffer.getLength k.rx.s.buf > 0
    · rw [if_pos hc]
      obtain ⟨u, g1, g2⟩ := rx .read trivial
      unfold InSys.step at g1
      cases hr : k.rx.s.read with
      | ub => rw [hr] at g1; cases g1
      | ok x =>
        rw [hr] at g1
        injection g1 with g1
        subst g1
        simp only [Res.bind_ok]
        by_cases hv : x.2 = -1
        · rw [if_neg (by simpa using hv)]
          simp only [hv, if_true] at g2
          exact ⟨_, rfl, ⟨q, ho⟩, small, g2⟩
        · rw [if_pos hv]
          simp only [hv, if_false] at g2
          exact ⟨_, rfl, ⟨q, ho⟩, small, g2⟩
    · rw [if_neg hc]
      exact ⟨_, rfl, ⟨q, ho⟩, small, ⟨r, p, hi⟩⟩

theorem link_safe_init (g h : List Nat) (b c : BitVec 8) (hg : 0 < g.length) (hh : 0 < h.length) : LinkSafe g.length h.length b (Link.init g h b c) :=
  ⟨⟨[], outInit_inv g b hg⟩, by simp [Link.init], ⟨[], [],
    (⟨RingBuffer.rel_mk h hh, rfl, rfl, by simp [inInit, goodBytes], fun _ => rfl, Or.inr rfl, by simp [inInit]⟩ : IInv h.length (inInit h c) [] [])⟩⟩

/-- **C106.** Every history of both programs, whatever is written, however the interrupts and frames fall, also when bytes are lost: no undefined behaviour. -/
theorem c106_defined (L : Layout) (g h : List Nat) (b c : BitVec 8) (hg : 0 < g.length) (hh : 0 < h.length) (hgn : g.length < 65536) (hhn : h.length < 65536)
    (es : List LinkEv) : ∃ k, (Link.init g h b c).run L es = .ok k := by
  have : ∀ (es : List LinkEv) (k : Link), LinkSafe g.length h.length b k → ∃ k', k.run L es = .ok k' := by
    intro es
    induction es with
    | nil => exact fun k _ => ⟨k, rfl⟩
    | cons e es ih =>
      intro k hk
      obtain ⟨k1, h1, h2⟩ := link_safe_step L hgn hhn hk e
      obtain ⟨k2, h3⟩ := ih k1 h2
      exact ⟨k2, by unfold Link.run; rw [h1]; exact h3⟩
  exact this es _ (link_safe_init g h b c hg hh)

example := c106_defined .avr [0, 0, 0] [0, 0] 0x08#8 0x90#8 (by decide) (by decide) (by decide) (by decide) [.send (.type 0xF8), .main, .main, .main, .main, .txIsr, .load, .frame, .rxIsr]

/-! ### Without loss -/

/-- An event by which a byte gets lost: the writer hands a byte to a full stream, a frame arrives in a full FIFO, the receive handler finds its buffer full.
    `n`, `m`: the buffer sizes. -/
def Loses (n m : Nat) (k : Link) : LinkEv → Prop
  | .main => k.tx.phase = .idle ∧ k.todo ≠ [] ∧ RingBuffer.getLength k.tx.s.buf + 1 = n
  | .frame => k.tx.s.hw.shift ≠ none ∧ 3 ≤ k.rx.s.hw.rx.length
  | .rxIsr => k.rx.s.hw.rx ≠ [] ∧ RingBuffer.getLength k.rx.s.buf + 1 = m
  | _ => False

/-- A history in which no byte gets lost. -/
def NoLoss (L : Layout) (n m : Nat) : Link → List LinkEv → Prop
  | _, [] => True
  | k, e :: es => ¬ Loses n m k e ∧ ∀ k', k.step L e = .ok k' → NoLoss L n m k' es

/-- The frame of a byte. -/
def byteFrame (v : Nat) : Frame := { data := v }

/-- What holds in a history without loss: `q` the sender's buffer, `f` the receiver's FIFO, `r` its buffer. -/
structure LInv (L : Layout) (n m : Nat) (b : BitVec 8) (k : Link) (q f r : List Nat) : Prop where
  out : OInv n b k.tx q
  small : ∀ v ∈ k.tx.accepted ++ k.todo, v < 256
  acc : k.tx.accepted ++ k.todo = (writeAll L 0 k.sent).2
  status : k.running = (writeAll L 0 k.sent).1
  rel : RingBuffer.Rel k.rx.s.buf r
  size : k.rx.s.buf.size = m
  fifo : k.rx.s.hw.rx = f.map byteFrame
  depth : f.length ≤ 3
  on4 : k.rx.s.hw.ucsrb.getLsbD 4 = true
  on7 : k.rx.s.hw.ucsrb.getLsbD 7 = true
  line : k.tx.s.hw.line = k.rx.returned ++ r ++ f
  reader : k.rd = Reader.init.after L k.rx.returned
  events : k.raised = Reader.init.events L k.rx.returned
  calls : ∀ c ∈ k.sent, CallOk L c

section
variable {L : Layout} {n m : Nat} {b : BitVec 8} {k : Link} {q f r : List Nat}

theorem line_small (h : LInv L n m b k q f r) : ∀ v ∈ k.rx.returned ++ r ++ f, v < 256 := by
  intro v hv
  refine h.small v ?_
  rw [← h.out.order, h.line]
  simp only [List.mem_append] at hv ⊢
  rcases hv with (hv | hv) | hv <;> simp [hv]

theorem out_unique {y : OutSys} {q q' : List Nat} (h : OInv n b y q) (h' : y.s.hw.line ++ y.s.hw.shift.toList ++ y.s.hw.tx.toList ++ q' = y.accepted) : q' = q := by
  rw [← h.order] at h'
  exact List.append_cancel_left h'

theorem lk_send (h : LInv L n m b k q f r) (c : WCall) (hc : CallOk L c) : ∃ k', k.step L (.send c) = .ok k' ∧ LInv L n m b k' q f r := by
  refine ⟨_, rfl, ?_⟩
  split
  · rename_i hp
    obtain ⟨out, small, acc, status, rel, size, fifo, depth, on4, on7, line, reader, events, calls⟩ := h
    have e : writeAll L 0 (k.sent ++ [c]) = ((writeCall L k.running c).1, k.tx.accepted ++ (writeCall L k.running c).2) := by
      rw [writeAll_append, ← status, ← acc, hp.2]
      simp [writeAll]
    refine ⟨out, ?_, by rw [e], by rw [e], rel, size, fifo, depth, on4, on7, line, reader, events, ?_⟩
    · intro v hv
      simp only [List.mem_append] at hv
      rcases hv with hv | hv
      · exact small v (by simp [hv])
      · obtain ⟨s, hs, hv'⟩ := hc
        obtain ⟨h256, _, hd, _⟩ := valid_shape s hv'
        rcases writeCall_spec hs hv' k.running with x | x
        · rw [x] at hv
          unfold sends at hv
          split at hv
          · split at hv
            · rcases List.mem_cons.1 hv with rfl | hv
              · exact h256
              · exact Nat.lt_trans (hd v hv) (by omega)
            · exact Nat.lt_trans (hd v hv) (by omega)
          · rcases List.mem_cons.1 hv with rfl | hv
            · exact h256
            · exact Nat.lt_trans (hd v hv) (by omega)
        · rw [x.2.2] at hv
          rcases List.mem_cons.1 hv with rfl | hv
          · exact h256
          · exact Nat.lt_trans (hd v hv) (by omega)
    · intro c' hc'
      simp only [List.mem_append, List.mem_singleton] at hc'
      rcases hc' with hc' | rfl
      · exact calls c' hc'
      · exact hc
  · exact h

theorem lk_poll (hm : m < 65536) (h : LInv L n m b k q f r) :
    ∃ k', k.step L .poll = .ok k' ∧ k'.tx = k.tx ∧ k'.todo = k.todo ∧ k'.sent = k.sent ∧ LInv L n m b k' q f r.tail := by
  have hs := line_small h
  obtain ⟨out, small, acc, status, rel, size, fifo, depth, on4, on7, line, reader, events, calls⟩ := h
  show ∃ k', k.poll L = .ok k' ∧ _
  unfold Link.poll InStream.read
  rw [RingBuffer.getLength_rel rel (by omega)]
  cases r with
  | nil => exact ⟨k, rfl, rfl, rfl, rfl, out, small, acc, status, rel, size, fifo, depth, on4, on7, line, reader, events, calls⟩
  | cons v r =>
    obtain ⟨buf, hb, hrel, hsz⟩ := RingBuffer.read_rel rel
    have hv : v < 256 := hs v (by simp)
    have hpos : (v :: r).length > 0 := by simp
    have hne : ((v : Nat) : Int) ≠ -1 := by omega
    simp only [if_pos hpos, hb, Res.bind_ok, if_pos hne, Int.toNat_natCast, Nat.mod_eq_of_lt hv, ne_eq]
    refine ⟨_, rfl, rfl, rfl, rfl, out, small, acc, status, hrel, hsz.trans size, fifo, depth, on4, on7, ?_, ?_, ?_, calls⟩
    · show k.tx.s.hw.line = k.rx.returned ++ [v] ++ r ++ f
      rw [line]; simp
    · show (k.rd.dispatch L v).1 = _
      rw [reader]
      unfold Reader.after
      rw [trace_append]
      rfl
    · show k.raised ++ (k.rd.dispatch L v).2.1 = _
      rw [events_append, events, reader]
      congr 1
      simp [Reader.events, Reader.trace]

theorem lk_rxIsr (hm : m < 65536) (h : LInv L n m b k q f r) (hr : f = [] ∨ r.length + 1 < m) :
    ∃ k', k.step L .rxIsr = .ok k' ∧ k'.tx = k.tx ∧ k'.todo = k.todo ∧ k'.sent = k.sent ∧ LInv L n m b k' q f.tail (r ++ f.take 1) := by
  have hs := line_small h
  obtain ⟨out, small, acc, status, rel, size, fifo, depth, on4, on7, line, reader, events, calls⟩ := h
  unfold Link.step InSys.step
  cases f with
  | nil =>
    have hc : (isTrue 7 k.rx.s.hw.ucsrb && rxComplete k.rx.s.hw) = false := by rw [complete_iff, fifo]; simp
    simp only [hc]
    refine ⟨k, rfl, rfl, rfl, rfl, out, small, acc, status, by simpa using rel, size, fifo, depth, on4, on7, by simpa using line, reader, events, calls⟩
  | cons v f =>
    have hc : (isTrue 7 k.rx.s.hw.ucsrb && rxComplete k.rx.s.hw) = true := by rw [complete_iff, fifo, isTrue_bit 7 (by omega), on7]; simp
    have hv : v < 256 := hs v (by simp)
    rw [List.map_cons] at fifo
    obtain ⟨e1, e2, e3⟩ := flags _ _ _ fifo
    have e4 : getResult k.rx.s.hw = .success := by unfold getResult; rw [e1, e2, e3]; rfl
    have e5 := c57_read _ _ _ fifo (by show v < 512; omega)
    have hroom : r.length + 1 < k.rx.s.buf.size := by rcases hr with hr | hr; · cases hr
                                                      · omega
    obtain ⟨buf, hb, hrel, hsz⟩ := RingBuffer.write_room rel v hroom
    have e6 : (if k.rx.s.hw.ucsrb.getLsbD 2 = true then (byteFrame v).data else (byteFrame v).data % 256) % 256 = v := by
      have e : (byteFrame v).data = v := rfl
      rw [e]
      split <;> omega
    unfold InStream.isr
    simp only [hc, if_true, e4, e5, e6, hb, Res.bind_ok]
    refine ⟨_, rfl, rfl, rfl, rfl, out, small, acc, status, hrel, hsz.trans size, rfl, by simp at depth ⊢; omega, on4, on7, ?_, reader, events, calls⟩
    show k.tx.s.hw.line = k.rx.returned ++ (r ++ [v]) ++ f
    rw [line]; simp

theorem lk_frame (h : LInv L n m b k q f r) (hr : k.tx.s.hw.shift = none ∨ f.length < 3) :
    ∃ k', k.step L .frame = .ok k' ∧ k'.tx.phase = k.tx.phase ∧ k'.tx.s.hw.ucsrb = k.tx.s.hw.ucsrb ∧ k'.todo = k.todo ∧ k'.sent = k.sent ∧
      k'.tx.s.hw.tx = none ∧ k'.tx.s.hw.shift = k.tx.s.hw.tx ∧ LInv L n m b k' q (f ++ k.tx.s.hw.shift.toList) r := by
  obtain ⟨out, small, acc, status, rel, size, fifo, depth, on4, on7, line, reader, events, calls⟩ := h
  obtain ⟨rel', size', bytes, order, wf, on, bits, held1, held2⟩ := out
  have out' : OInv n b { k.tx with s := { k.tx.s with hw := k.tx.s.hw.frameTime } } q := by
    refine ⟨rel', size', bytes, ?_, wf, on, bits, held1, held2⟩
    show (k.tx.s.hw.line ++ k.tx.s.hw.shift.toList) ++ k.tx.s.hw.tx.toList ++ [] ++ q = k.tx.accepted
    rw [← order]; simp
  unfold Link.step OutSys.step
  cases hv : k.tx.s.hw.shift with
  | none =>
    refine ⟨_, rfl, rfl, rfl, rfl, rfl, rfl, rfl, out', small, acc, status, rel, size, by simpa using fifo, by simpa using depth, on4, on7, ?_, reader, events, calls⟩
    show k.tx.s.hw.line ++ k.tx.s.hw.shift.toList = _
    rw [hv, line]; simp
  | some v =>
    have hr : f.length < 3 := by rcases hr with hr | hr; · rw [hv] at hr; cases hr
                                 · exact hr
    have hc : (isTrue 4 k.rx.s.hw.ucsrb && decide (k.rx.s.hw.rx.length < 3)) = true := by
      rw [isTrue_bit 4 (by omega), on4, fifo]; simpa using hr
    simp only [Res.bind_ok, InSys.step, hc, if_true]
    refine ⟨_, rfl, rfl, rfl, rfl, rfl, rfl, rfl, out', small, acc, status, rel, size, ?_, by simp; omega, on4, on7, ?_, reader, events, calls⟩
    · show k.rx.s.hw.rx ++ [byteFrame v] = _
      rw [fifo]; simp
    · show k.tx.s.hw.line ++ k.tx.s.hw.shift.toList = k.rx.returned ++ r ++ (f ++ [v])
      rw [hv, line]; simp

/-- Replacing the sender's stream. -/
theorem LInv.withTx (h : LInv L n m b k q f r) {t : OutSys} {q' todo : List Nat} (ho : OInv n b t q') (hl : t.s.hw.line = k.tx.s.hw.line)
    (ha : t.accepted ++ todo = k.tx.accepted ++ k.todo) :
    LInv L n m b { tx := t, rx := k.rx, running := k.running, todo := todo, sent := k.sent, rd := k.rd, raised := k.raised } q' f r :=
  ⟨ho, by show ∀ v ∈ t.accepted ++ todo, _; rw [ha]; exact h.small, ha.trans h.acc, h.status, h.rel, h.size, h.fifo, h.depth, h.on4, h.on7, hl.trans h.line, h.reader,
    h.events, h.calls⟩

theorem lk_load (hn : n < 65536) (h : LInv L n m b k q f r) : ∃ k', k.step L .load = .ok k' ∧ LInv L n m b k' q f r := by
  obtain ⟨t, q', h1, h2⟩ := step_inv hn h.out .load
  have h3 := h1
  injection h3 with h3
  have hq : q' = q := by
    have o := h2.order
    rw [← h3] at o
    unfold Hw.load at o
    split at o
    · rename_i hs
      refine out_unique h.out ?_
      rw [hs]
      simpa using o
    · exact out_unique h.out o
  subst hq
  refine ⟨_, by unfold Link.step; rw [h1]; rfl, h.withTx h2 ?_ ?_⟩
  · rw [← h3]; unfold Hw.load; dsimp only; split <;> rfl
  · rw [← h3]

theorem lk_txIsr (hn : n < 65536) (h : LInv L n m b k q f r) :
    ∃ k' q', k.step L .txIsr = .ok k' ∧ k'.tx.phase = k.tx.phase ∧ k'.todo = k.todo ∧ k'.sent = k.sent ∧ k'.tx.s.hw.shift = k.tx.s.hw.shift ∧
      LInv L n m b k' q' f r ∧
      ((q' = q ∧ k'.tx.s.hw.tx = k.tx.s.hw.tx ∧ (k.tx.s.hw.ucsrb.getLsbD 5 = false ∨ k.tx.s.hw.tx ≠ none)) ∨
       (k.tx.s.hw.tx = none ∧ ∃ v, q = v :: q' ∧ k'.tx.s.hw.tx = some v) ∨
       (q = [] ∧ q' = [] ∧ k.tx.s.hw.tx = none ∧ k'.tx.s.hw.tx = none)) := by
  unfold Link.step OutSys.step
  by_cases hc : (isTrue 5 k.tx.s.hw.ucsrb && getAcceptData k.tx.s.hw) = true
  · have ht : k.tx.s.hw.tx = none := by
      rw [Bool.and_eq_true, accept_iff] at hc
      simpa using hc.2
    simp only [hc, if_true]
    obtain ⟨s, hs, h1 | h1⟩ := isr_inv hn h.out ht
    · obtain ⟨v, q', rfl, hi, e1, e2, e3⟩ := h1
      exact ⟨{ k with tx := { k.tx with s := s } }, q', by rw [hs]; rfl, rfl, rfl, rfl, e2, h.withTx hi e3 rfl, Or.inr (Or.inl ⟨ht, v, rfl, e1⟩)⟩
    · obtain ⟨rfl, hi, e1, e2, e3⟩ := h1
      exact ⟨{ k with tx := { k.tx with s := s } }, [], by rw [hs]; rfl, rfl, rfl, rfl, e2, h.withTx hi e3 rfl, Or.inr (Or.inr ⟨rfl, rfl, ht, e1⟩)⟩
  · refine ⟨k, q, by simp only [hc]; rfl, rfl, rfl, rfl, rfl, h, Or.inl ⟨rfl, rfl, ?_⟩⟩
    rw [isTrue_bit 5 (by omega), accept_iff] at hc
    simp only [Bool.and_eq_true, decide_eq_true_eq, not_and_or] at hc
    simpa using hc

/-- Steps of Write still to come. -/
def rank : Phase → Nat
  | .idle => 0
  | .buffered => 4
  | .loaded1 _ => 3
  | .cleared => 2
  | .loaded2 _ => 1

theorem lk_main (hn : n < 65536) (h : LInv L n m b k q f r) (hr : k.tx.phase = .idle → k.todo = [] ∨ q.length + 1 < n) :
    ∃ k' q', k.step L .main = .ok k' ∧ k'.tx.s.hw.shift = k.tx.s.hw.shift ∧ k'.tx.s.hw.tx = k.tx.s.hw.tx ∧ k'.sent = k.sent ∧ LInv L n m b k' q' f r ∧
      ((k.tx.phase = .idle ∧ k.todo = [] ∧ k' = k ∧ q' = q) ∨
       (k.tx.phase = .idle ∧ k'.tx.phase = .buffered ∧ q'.length = q.length + 1 ∧ k.todo.length = k'.todo.length + 1) ∨
       (k.tx.phase ≠ .idle ∧ k'.todo = k.todo ∧ q' = q ∧ rank k'.tx.phase + 1 = rank k.tx.phase)) := by
  cases hp : k.tx.phase with
  | idle =>
    cases ht : k.todo with
    | nil =>
      refine ⟨k, q, ?_, rfl, rfl, rfl, h, Or.inl ⟨rfl, rfl, rfl, rfl⟩⟩
      simp only [Link.step, hp, ht, OutSys.step, Res.bind_ok]
      rw [← ht]
    | cons x xs =>
      have hx : x < 256 := h.small x (by rw [ht]; simp)
      have hv : (BitVec.ofNat 8 x).toNat = x := by rw [BitVec.toNat_ofNat]; exact Nat.mod_eq_of_lt (by simpa using hx)
      have hroom : q.length + 1 < k.tx.s.buf.size := by
        rw [h.out.size]
        rcases hr hp with e | e
        · rw [ht] at e; cases e
        · exact e
      obtain ⟨buf, hb, hrel, hsz⟩ := RingBuffer.write_room h.out.rel x hroom
      have st : k.tx.step (.write (BitVec.ofNat 8 x)) = .ok { s := { k.tx.s with buf := buf }, phase := .buffered, accepted := k.tx.accepted ++ [x] } := by
        simp only [OutSys.step, hp, OutStream.writeBuffer, hv, hb, Res.bind_ok, if_true]
      have ho : OInv n b { s := { k.tx.s with buf := buf }, phase := .buffered, accepted := k.tx.accepted ++ [x] } (q ++ [x]) := by
        obtain ⟨rel, size, bytes, order, wf, on, bits, held1, held2⟩ := h.out
        refine ⟨hrel, hsz.trans size, ?_, ?_, wf, (by simp), bits, by simp, by simp⟩
        · intro y hy
          simp only [List.mem_append, List.mem_singleton] at hy
          rcases hy with hy | rfl
          · exact bytes y hy
          · exact hx
        · show k.tx.s.hw.line ++ k.tx.s.hw.shift.toList ++ k.tx.s.hw.tx.toList ++ (q ++ [x]) = k.tx.accepted ++ [x]
          rw [← order, List.append_assoc]
          simp
      refine ⟨{ k with tx := { s := { k.tx.s with buf := buf }, phase := .buffered, accepted := k.tx.accepted ++ [x] }, todo := xs }, q ++ [x], by simp only [Link.step, hp, ht]; rw [st]; rfl, rfl, rfl, rfl, h.withTx ho rfl (by rw [ht]; simp), Or.inr (Or.inl ⟨rfl, rfl, by simp, by simp⟩)⟩
  | _ =>
    obtain ⟨t, q', h1, h2⟩ := step_inv hn h.out .main
    have h3 := h1
    simp only [OutSys.step, hp] at h3
    injection h3 with h3
    have hq : q' = q := by
      have o := h2.order
      rw [← h3] at o
      exact out_unique h.out o
    subst hq
    refine ⟨{ k with tx := t }, q', by simp only [Link.step, hp]; rw [h1]; rfl, by rw [← h3] <;> rfl, by rw [← h3] <;> rfl, rfl, h.withTx h2 (by rw [← h3] <;> rfl) (by rw [← h3]), Or.inr (Or.inr ⟨by simp, rfl, rfl, by rw [← h3] <;> rfl⟩)⟩

theorem link_step (hn : n < 65536) (hm : m < 65536) (h : LInv L n m b k q f r) (e : LinkEv) (he : ∀ c, e = .send c → CallOk L c) (hl : ¬ Loses n m k e) :
    ∃ k' q' f' r', k.step L e = .ok k' ∧ LInv L n m b k' q' f' r' := by
  have gq := RingBuffer.getLength_rel h.out.rel (by rw [h.out.size]; exact hn)
  have gr := RingBuffer.getLength_rel h.rel (by rw [h.size]; exact hm)
  have lq := h.out.rel.hq
  have lr := h.rel.hq
  rw [h.out.size] at lq
  rw [h.size] at lr
  cases e with
  | send c => obtain ⟨k', h1, h2⟩ := lk_send h c (he c rfl); exact ⟨k', q, f, r, h1, h2⟩
  | main =>
    obtain ⟨k', q', h1, _, _, _, h2, _⟩ := lk_main hn h (by
      intro hp
      by_cases ht : k.todo = []
      · exact Or.inl ht
      · right
        have : ¬ (RingBuffer.getLength k.tx.s.buf + 1 = n) := fun e => hl ⟨hp, ht, e⟩
        omega)
    exact ⟨k', q', f, r, h1, h2⟩
  | txIsr => obtain ⟨k', q', h1, _, _, _, _, h2, _⟩ := lk_txIsr hn h; exact ⟨k', q', f, r, h1, h2⟩
  | load => obtain ⟨k', h1, h2⟩ := lk_load hn h; exact ⟨k', q, f, r, h1, h2⟩
  | frame =>
    obtain ⟨k', h1, _, _, _, _, _, _, h2⟩ := lk_frame h (by
      by_cases hs : k.tx.s.hw.shift = none
      · exact Or.inl hs
      · right
        have : ¬ (3 ≤ k.rx.s.hw.rx.length) := fun e => hl ⟨hs, e⟩
        rw [h.fifo, List.length_map] at this
        omega)
    exact ⟨k', q, _, r, h1, h2⟩
  | rxIsr =>
    obtain ⟨k', h1, _, _, _, h2⟩ := lk_rxIsr hm h (by
      by_cases hf : f = []
      · exact Or.inl hf
      · right
        have : ¬ (RingBuffer.getLength k.rx.s.buf + 1 = m) := fun e => hl ⟨by rw [h.fifo]; simpa using hf, e⟩
        omega)
    exact ⟨k', q, _, _, h1, h2⟩
  | poll => obtain ⟨k', h1, _, _, _, h2⟩ := lk_poll hm h; exact ⟨k', q, f, _, h1, h2⟩

theorem link_run (hn : n < 65536) (hm : m < 65536) (es : List LinkEv) (he : ∀ c, .send c ∈ es → CallOk L c) (h : LInv L n m b k q f r) (hl : NoLoss L n m k es) :
    ∃ k' q' f' r', k.run L es = .ok k' ∧ LInv L n m b k' q' f' r' := by
  induction es generalizing k q f r with
  | nil => exact ⟨k, q, f, r, rfl, h⟩
  | cons e es ih =>
    obtain ⟨k1, q1, f1, r1, s1, i1⟩ := link_step hn hm h e (fun c hc => he c (by rw [hc]; simp)) hl.1
    obtain ⟨k2, q2, f2, r2, s2, i2⟩ := ih (fun c hc => he c (by simp [hc])) i1 (hl.2 k1 s1)
    exact ⟨k2, q2, f2, r2, by unfold Link.run; rw [s1]; exact s2, i2⟩

/-- The bytes under way. -/
theorem link_bytes (h : LInv L n m b k q f r) :
    (writeAll L 0 k.sent).2 = k.rx.returned ++ (r ++ f ++ k.tx.s.hw.shift.toList ++ k.tx.s.hw.tx.toList ++ q ++ k.todo) := by
  rw [← h.acc, ← h.out.order, h.line]
  simp

theorem link_messages (hL : L.Ok) (h : LInv L n m b k q f r) :
    k.raised.map (Ev.meaning L) <+: k.sent.map (callMeaning L) ∧
    (k.rx.returned = (writeAll L 0 k.sent).2 → k.raised.map (Ev.meaning L) = k.sent.map (callMeaning L)) := by
  have e := c18_round_trip L hL k.sent h.calls
  constructor
  · rw [← e, link_bytes h, events_append, List.map_append, h.events]
    exact List.prefix_append _ _
  · intro hr
    rw [← e, ← hr, h.events]

end

theorem link_init (L : Layout) (g h : List Nat) (b c : BitVec 8) (hg : 0 < g.length) (hh : 0 < h.length) (c4 : c.getLsbD 4 = true) (c7 : c.getLsbD 7 = true) :
    LInv L g.length h.length b (Link.init g h b c) [] [] [] :=
  ⟨outInit_inv g b hg, by simp [Link.init], rfl, rfl, RingBuffer.rel_mk h hh, rfl, rfl, by simp, c4, c7, rfl, rfl, rfl, by simp [Link.init]⟩

/-- **C106, partial.** Any messages written, any interleaving of the two programs, the interrupts and the frames, any buffer sizes, with the receive interrupt on and no byte lost:
    what the reader has raised is at any moment a first part of the messages written, each with its meaning, and all of them once no byte is under way (inside the writer,
    in the buffers, in the hardware). Missing: the receive interrupt has to be switched on by hand and the loss of bytes is not noticed (see the `_fails` theorems). -/
theorem c106_link_partial (L : Layout) (hL : L.Ok) (g h : List Nat) (b c : BitVec 8) (hg : 0 < g.length) (hh : 0 < h.length) (hgn : g.length < 65536)
    (hhn : h.length < 65536) (c4 : c.getLsbD 4 = true) (c7 : c.getLsbD 7 = true) (es : List LinkEv) (he : ∀ c, .send c ∈ es → CallOk L c)
    (hl : NoLoss L g.length h.length (Link.init g h b c) es) :
    ∃ k, (Link.init g h b c).run L es = .ok k ∧ k.raised.map (Ev.meaning L) <+: k.sent.map (callMeaning L) ∧
      (k.todo = [] → RingBuffer.getLength k.tx.s.buf = 0 → k.tx.s.hw.tx = none → k.tx.s.hw.shift = none → k.rx.s.hw.rx = [] →
        RingBuffer.getLength k.rx.s.buf = 0 → k.raised.map (Ev.meaning L) = k.sent.map (callMeaning L)) := by
  obtain ⟨k, q, f, r, h1, h2⟩ := link_run hgn hhn es he (link_init L g h b c hg hh c4 c7) hl
  obtain ⟨m1, m2⟩ := link_messages hL h2
  refine ⟨k, h1, m1, fun t1 t2 t3 t4 t5 t6 => m2 ?_⟩
  rw [RingBuffer.getLength_rel h2.out.rel (by rw [h2.out.size]; exact hgn)] at t2
  rw [RingBuffer.getLength_rel h2.rel (by rw [h2.size]; exact hhn)] at t6
  rw [h2.fifo, List.map_eq_nil_iff] at t5
  rw [link_bytes h2, t1, t3, t4, t5, List.length_eq_zero_iff.1 t2, List.length_eq_zero_iff.1 t6]
  simp

/-! ### Everything arrives -/

/-- One turn of everything: the receiver's main code reads, its interrupt is served, a frame ends, the sender's interrupt is served, its main code takes a step. -/
def turns : Nat → List LinkEv
  | 0 => []
  | n + 1 => .poll :: .rxIsr :: .frame :: .txIsr :: .main :: turns n

/-- How much is left to do. -/
def left (k : Link) (q f r : List Nat) : Nat :=
  10 * k.todo.length + rank k.tx.phase + 5 * q.length + 4 * k.tx.s.hw.tx.toList.length + 3 * k.tx.s.hw.shift.toList.length + 2 * f.length + r.length

theorem link_turn {L : Layout} {n m : Nat} {b : BitVec 8} {k : Link} {q f r : List Nat} (hn : n < 65536) (hm : m < 65536) (hn2 : 2 ≤ n) (hm2 : 2 ≤ m)
    (h : LInv L n m b k q f r) (rest : List LinkEv) :
    ∃ k' q' f' r', k.run L (.poll :: .rxIsr :: .frame :: .txIsr :: .main :: rest) = k'.run L rest ∧ LInv L n m b k' q' f' r' ∧ k'.sent = k.sent ∧
      left k' q' f' r' ≤ left k q f r - 1 ∧ (NoLoss L n m k' rest → NoLoss L n m k (.poll :: .rxIsr :: .frame :: .txIsr :: .main :: rest)) := by
  have lr : r.length + 1 ≤ m := by have := h.rel.hq; rw [h.size] at this; omega
  obtain ⟨k1, s1, a1, b1, c1, i1⟩ := lk_poll hm h
  have room1 : r.tail.length + 1 < m := by rw [List.length_tail]; omega
  obtain ⟨k2, s2, a2, b2, c2, i2⟩ := lk_rxIsr hm i1 (Or.inr room1)
  have d3 : f.tail.length < 3 := by have := h.depth; rw [List.length_tail]; omega
  obtain ⟨k3, s3, p3, u3, b3, c3, t3, sh3, i3⟩ := lk_frame i2 (Or.inr d3)
  obtain ⟨k4, q4, s4, p4, b4, c4, sh4, i4, r4⟩ := lk_txIsr hn i3
  have lq : q.length + 1 ≤ n := by have := h.out.rel.hq; rw [h.out.size] at this; omega
  have room4 : k4.tx.phase = .idle → k4.todo = [] ∨ q4.length + 1 < n := by
    intro hp
    right
    rcases r4 with ⟨e1, _, e3⟩ | ⟨_, v, e2, _⟩ | ⟨_, e2, _⟩
    · rcases e3 with e3 | e3
      · rcases i3.out.on (p4 ▸ hp) with x | x
        · rw [x] at e3; cases e3
        · rw [e1, x]; simp; omega
      · exact absurd t3 e3
    · rw [e2] at lq; simp at lq; omega
    · rw [e2]; simp; omega
  obtain ⟨k5, q5, s5, sh5, t5, c5, i5, r5⟩ := lk_main hn i4 room4
  have g1 := RingBuffer.getLength_rel i1.rel (by rw [i1.size]; exact hm)
  have g4 := RingBuffer.getLength_rel i4.out.rel (by rw [i4.out.size]; exact hn)
  refine ⟨k5, q5, _, _, ?_, i5, ?_, ?_, ?_⟩
  · simp only [Link.run, s1, s2, s3, s4, s5, Res.bind_ok]
  · rw [c5, c4, c3, c2, c1]
  · have e2 : k2.tx = k.tx := a2.trans a1
    have e3 : k5.tx.s.hw.shift = k.tx.s.hw.tx := by rw [sh5, sh4, sh3, e2]
    have e4 : k4.tx.phase = k.tx.phase := by rw [p4, p3, e2]
    have e5 : k4.todo = k.todo := by rw [b4, b3, b2, b1]
    have e6 : (r.tail ++ f.take 1).length = (r.length - 1) + min 1 f.length := by simp
    have e7 : (f.tail ++ k2.tx.s.hw.shift.toList).length = (f.length - 1) + k.tx.s.hw.shift.toList.length := by rw [e2]; simp
    unfold left
    rw [e6, e7, e3, t5]
    have q4l : q4.length + k4.tx.s.hw.tx.toList.length = q.length ∧ (k.tx.phase = .idle → 0 < q.length → k4.tx.s.hw.tx.toList.length = 1) ∧
        k4.tx.s.hw.tx.toList.length ≤ 1 := by
      rcases r4 with ⟨x1, x2, x3⟩ | ⟨_, v, x2, x3⟩ | ⟨x1, x2, _, x3⟩
      · rw [x1, x2, t3]
        refine ⟨by simp, fun hp hq => ?_, by simp⟩
        rcases x3 with x3 | x3
        · rcases i3.out.on (by rw [p3, e2]; exact hp) with y | y
          · rw [y] at x3; cases x3
          · rw [y] at hq; simp at hq
        · exact absurd t3 x3
      · rw [x2, x3]; simp
      · rw [x1, x2, x3]; simp
    obtain ⟨w1, w2, w3⟩ := q4l
    rw [e4, e5] at r5
    rcases r5 with ⟨y1, y2, y3, y4⟩ | ⟨y1, y2, y3, y4⟩ | ⟨y1, y2, y3, y4⟩
    · rw [y3, y4, e4, e5, y1, y2]
      have := w2 y1
      simp only [rank, List.length_nil]
      omega
    · rw [y2, y1, y4, y3]
      simp only [rank]
      omega
    · rw [y2, y3]
      omega
  · intro hl
    have det : ∀ {k k1 k2 : Link} {e : LinkEv}, k.step L e = .ok k1 → k.step L e = .ok k2 → k2 = k1 := by
      intro k k1 k2 e x y; rw [x] at y; injection y with y; exact y.symm
    refine ⟨fun x => x, fun x hx => ?_⟩
    rw [det s1 hx]
    refine ⟨fun x => ?_, fun x hx => ?_⟩
    · have := x.2; omega
    rw [det s2 hx]
    refine ⟨fun x => ?_, fun x hx => ?_⟩
    · have := x.2; rw [i2.fifo, List.length_map] at this; omega
    rw [det s3 hx]
    refine ⟨fun x => x, fun x hx => ?_⟩
    rw [det s4 hx]
    refine ⟨fun x => ?_, fun x hx => ?_⟩
    · obtain ⟨x1, x2, x3⟩ := x
      rcases room4 x1 with y | y
      · exact x2 y
      · omega
    rw [det s5 hx]
    exact hl

/-- **C106, partial.** After such a history let both programs, the interrupts and the line go on in turn: no byte is lost, and in a number of turns proportional to the number of bytes
    every message written has been raised. Buffers of at least two bytes. Missing as above. -/
theorem c106_arrives_partial (L : Layout) (hL : L.Ok) (g h : List Nat) (b c : BitVec 8) (hg : 2 ≤ g.length) (hh : 2 ≤ h.length) (hgn : g.length < 65536)
    (hhn : h.length < 65536) (c4 : c.getLsbD 4 = true) (c7 : c.getLsbD 7 = true) (es : List LinkEv) (he : ∀ c, .send c ∈ es → CallOk L c)
    (hl : NoLoss L g.length h.length (Link.init g h b c) es) (k : Link) (hk : (Link.init g h b c).run L es = .ok k)
    (n : Nat) (hn : 10 * (writeAll L 0 k.sent).2.length + 4 ≤ n) :
    ∃ k', k.run L (turns n) = .ok k' ∧ NoLoss L g.length h.length k (turns n) ∧ k'.raised.map (Ev.meaning L) = k.sent.map (callMeaning L) := by
  obtain ⟨k0, q, f, r, h1, h2⟩ := link_run hgn hhn es he (link_init L g h b c (by omega) (by omega) c4 c7) hl
  rw [hk] at h1
  obtain rfl : k = k0 := by injection h1
  have hleft : left k q f r ≤ n := by
    have := congrArg List.length (link_bytes h2)
    simp only [List.length_append] at this
    have hr : rank k.tx.phase ≤ 4 := by cases k.tx.phase <;> simp [rank]
    unfold left
    omega
  clear hk h1 hl he hn
  induction n generalizing k q f r with
  | zero =>
    have : r ++ f ++ k.tx.s.hw.shift.toList ++ k.tx.s.hw.tx.toList ++ q ++ k.todo = [] := by
      apply List.length_eq_zero_iff.1
      simp only [List.length_append]
      unfold left at hleft
      omega
    refine ⟨k, rfl, trivial, (link_messages hL h2).2 ?_⟩
    rw [link_bytes h2, this, List.append_nil]
  | succ n ih =>
    obtain ⟨k', q', f', r', x1, x2, x3, x4, x5⟩ := link_turn hgn hhn hg hh h2 (turns n)
    obtain ⟨k'', y1, y2, y3⟩ := ih k' q' f' r' x2 (by omega)
    exact ⟨k'', x1.trans y1, x5 y2, by rw [y3, x3]⟩

/-! ### Where the claim fails -/

/-- **C106 fails** as the classes stand: nothing but UsartInputStream::Read switches the receive interrupt on, and MidiReader::Read does not call it while the stream is empty. With
    the interrupt off at the start, whatever is sent and however often MidiReader::Read is called, the reader never raises anything. -/
theorem c106_deaf_fails (L : Layout) (g h : List Nat) (b c : BitVec 8) (hg : 0 < g.length) (hh : 0 < h.length) (hgn : g.length < 65536) (hhn : h.length < 65536)
    (c7 : c.getLsbD 7 = false) (es : List LinkEv) : ∃ k, (Link.init g h b c).run L es = .ok k ∧ k.raised = [] := by
  have key : ∀ (es : List LinkEv) (k k' : Link), RingBuffer.getLength k.rx.s.buf = 0 → k.rx.s.hw.ucsrb.getLsbD 7 = false → k.raised = [] → k.run L es = .ok k' → k'.raised = [] := by
    intro es
    induction es with
    | nil => intro k k' _ _ h3 h4; injection h4 with h4; rw [← h4]; exact h3
    | cons e es ih =>
      intro k k' h1 h2 h3 h4
      unfold Link.run at h4
      have go : ∀ k1, k.step L e = .ok k1 → RingBuffer.getLength k1.rx.s.buf = 0 → k1.rx.s.hw.ucsrb.getLsbD 7 = false → k1.raised = [] → k'.raised = [] := by
        intro k1 s1 y1 y2 y3
        rw [s1] at h4
        exact ih k1 k' y1 y2 y3 h4
      have rxsame : ∀ (x : Res OutSys) (todo : List Nat), k.step L e = (do let t ← x; .ok { k with tx := t, todo := todo }) → k'.raised = [] := by
        intro x todo hx
        cases x with
        | ub => rw [hx] at h4; cases h4
        | ok t => exact go _ hx h1 h2 h3
      cases e with
      | send c =>
        refine go _ rfl ?_ ?_ ?_ <;> split <;> assumption
      | main =>
        cases hp : k.tx.phase <;> cases ht : k.todo
        case idle.cons x xs => exact rxsame (k.tx.step (.write (BitVec.ofNat 8 x))) xs (by simp only [Link.step, hp, ht])
        all_goals exact rxsame (k.tx.step .main) k.todo (by simp only [Link.step, hp, ht])
      | txIsr => exact rxsame (k.tx.step .isr) k.todo rfl
      | load => exact rxsame (k.tx.step .load) k.todo rfl
      | frame =>
        cases hv : k.tx.s.hw.shift with
        | none => exact rxsame (k.tx.step .frame) k.todo (by simp only [Link.step, hv])
        | some v =>
          by_cases hc : (isTrue 4 k.rx.s.hw.ucsrb && decide (k.rx.s.hw.rx.length < 3)) = true
          · have s1 : k.step L .frame = .ok { k with
                tx := { k.tx with s := { k.tx.s with hw := k.tx.s.hw.frameTime } }
                rx := { k.rx with s := { k.rx.s with hw := { k.rx.s.hw with rx := k.rx.s.hw.rx ++ [{ data := v }] } }, kept := k.rx.kept ++ [{ data := v }] } } := by
              simp only [Link.step, hv, InSys.step, OutSys.step, Res.bind_ok, hc, if_true]
            exact go _ s1 h1 h2 h3
          · have s1 : k.step L .frame = .ok { k with tx := { k.tx with s := { k.tx.s with hw := k.tx.s.hw.frameTime } } } := by
              simp only [Link.step, hv, InSys.step, OutSys.step, Res.bind_ok, hc]; rfl
            exact go _ s1 h1 h2 h3
      | rxIsr =>
        have hc : isTrue 7 k.rx.s.hw.ucsrb = false := by rw [isTrue_bit 7 (by omega)]; exact h2
        exact go k (by simp [Link.step, InSys.step, hc]) h1 h2 h3
      | poll => exact go k (by simp [Link.step, Link.poll, h1]) h1 h2 h3
  have g0 : RingBuffer.getLength (RingBuffer.mk h) = 0 := by rw [RingBuffer.getLength_rel (RingBuffer.rel_mk h hh) hhn]; rfl
  obtain ⟨k, hk⟩ := c106_defined L g h b c hg hh hgn hhn es
  exact ⟨k, hk, key es (Link.init g h b c) k g0 c7 rfl hk⟩

theorem of_run {x : Res Link} {p : Link → Bool} (h : (match x with | .ok k => p k | .ub => false) = true) : ∃ k, x = .ok k ∧ p k = true := by
  cases x with
  | ok k => exact ⟨k, rfl, h⟩
  | ub => cases h

/-- Note on, middle C. -/
def noteA : WCall := .msg ⟨0x90, fun i => [0, 60, 100].getD i 0⟩
/-- Note on, one semitone higher. -/
def noteB : WCall := .msg ⟨0x90, fun i => [0, 61, 100].getD i 0⟩

/-- **C106 fails** when a byte finds the stream full: it is dropped without notice. Two notes, the first written into a stream with room for two bytes: the reader reports a note with
    the key of the second one as velocity, which nobody has written, and neither of the two that were. -/
theorem c106_overflow_fails : ∃ k, (Link.init [0, 0, 0] [0, 0, 0, 0] 0x08#8 0x90#8).run .avr
      ([.send noteA] ++ List.replicate 15 .main ++ turns 8 ++ [.send noteB] ++ turns 16) = .ok k ∧
    k.sent.map (callMeaning .avr) = [some (.noteOn 0 60 100), some (.noteOn 0 61 100)] ∧
    k.raised.map (Ev.meaning .avr) = [some (.noteOn 0 60 61)] := by
  obtain ⟨k, h1, h2⟩ := of_run (x := (Link.init [0, 0, 0] [0, 0, 0, 0] 0x08#8 0x90#8).run .avr ([.send noteA] ++ List.replicate 15 .main ++ turns 8 ++ [.send noteB] ++ turns 16))
    (p := fun k => decide (k.sent.map (callMeaning .avr) = [some (.noteOn 0 60 100), some (.noteOn 0 61 100)]) &&
      decide (k.raised.map (Ev.meaning .avr) = [some (.noteOn 0 60 61)])) (by decide +kernel)
  rw [Bool.and_eq_true, decide_eq_true_eq, decide_eq_true_eq] at h2
  exact ⟨k, h1, h2⟩

/-- The hypotheses of the positive theorems can be met: one note, then the turns. -/
example (k : Link) (hk : (Link.init [0, 0, 0] [0, 0] 0x08#8 0x90#8).run .avr [.send noteA] = .ok k) (n : Nat) (hn : 34 ≤ n) :
    ∃ k', k.run .avr (turns n) = .ok k' ∧ k'.raised.map (Ev.meaning .avr) = [some (.noteOn 0 60 100)] := by
  have hs : k.sent = [noteA] := by
    have : (Link.init [0, 0, 0] [0, 0] 0x08#8 0x90#8).run .avr [.send noteA] = .ok { Link.init [0, 0, 0] [0, 0] 0x08#8 0x90#8 with
      running := (writeCall .avr 0 noteA).1, todo := (writeCall .avr 0 noteA).2, sent := [noteA] } := rfl
    rw [this] at hk
    injection hk with hk
    rw [← hk]
  have hb : (writeAll .avr 0 [noteA]).2 = [0x90, 60, 100] := by decide +kernel
  have hm : [noteA].map (callMeaning .avr) = [some (.noteOn 0 60 100)] := by decide +kernel
  obtain ⟨k', h1, _, h2⟩ := c106_arrives_partial .avr Layout.avr_ok [0, 0, 0] [0, 0] 0x08#8 0x90#8 (by decide) (by decide) (by decide) (by decide) (by decide) (by decide)
    [.send noteA] (by
      intro c hc
      simp only [List.mem_singleton, LinkEv.send.injEq] at hc
      subst hc
      exact ⟨.noteOn 0 60 100, by decide +kernel, by decide⟩) ⟨fun x => x, fun _ _ => trivial⟩ k hk n (by rw [hs, hb]; exact hn)
  exact ⟨k', h1, by rw [h2, hs, hm]⟩

/-- The same two notes with time between them arrive. -/
example : ∃ k, (Link.init [0, 0, 0] [0, 0, 0, 0] 0x08#8 0x90#8).run .avr ([.send noteA] ++ turns 20 ++ [.send noteB] ++ turns 80) = .ok k ∧
    k.raised.map (Ev.meaning .avr) = [some (.noteOn 0 60 100), some (.noteOn 0 61 100)] := by
  obtain ⟨k, h1, h2⟩ := of_run (x := (Link.init [0, 0, 0] [0, 0, 0, 0] 0x08#8 0x90#8).run .avr ([.send noteA] ++ turns 20 ++ [.send noteB] ++ turns 80))
    (p := fun k => decide (k.raised.map (Ev.meaning .avr) = [some (.noteOn 0 60 100), some (.noteOn 0 61 100)])) (by decide +kernel)
  exact ⟨k, h1, of_decide_eq_true h2⟩

end Atl.Props
