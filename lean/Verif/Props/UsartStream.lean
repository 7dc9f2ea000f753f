import Verif.Props.UsartData

/- Property theorems C59, C76: interrupt driven USART streams. -/
namespace Atl.Props
open Atl.Usart

/-! ### C59 output -/

/-- The control bits `Write` and the handler must leave alone: all but UDRIE (5), TXB8 (0) and the read-only RXB8 (1). -/
def SameBits (a b : BitVec 8) : Prop := ∀ j, j ≠ 0 → j ≠ 1 → j ≠ 5 → a.getLsbD j = b.getLsbD j

/-- What holds between any two events. -/
structure OInv (n : Nat) (b0 : BitVec 8) (y : OutSys) (q : List Nat) : Prop where
  rel : RingBuffer.Rel y.s.buf q
  size : y.s.buf.size = n
  bytes : ∀ v ∈ q, v < 256
  order : y.s.hw.line ++ y.s.hw.shift.toList ++ y.s.hw.tx.toList ++ q = y.accepted
  wf : Wf y.s.hw
  on : y.phase = .idle → y.s.hw.ucsrb.getLsbD 5 = true ∨ q = []
  bits : SameBits y.s.hw.ucsrb b0
  held1 : ∀ v, y.phase = .loaded1 v → SameBits v b0
  held2 : ∀ v, y.phase = .loaded2 v → SameBits v b0

theorem wf_store (h : Hw) (b0 v : BitVec 8) (hw : Wf h) (h1 : SameBits h.ucsrb b0) (h2 : SameBits v b0) : Wf (h.writeB v) := by
  have e : v.getLsbD 4 = h.ucsrb.getLsbD 4 := by rw [h1 4 (by omega) (by omega) (by omega), h2 4 (by omega) (by omega) (by omega)]
  unfold Wf
  rw [writeB_rx h hw v e]
  show v.getLsbD 4 = true ∨ _
  rw [e]; exact hw

theorem isr_inv {n : Nat} (hn : n < 65536) {b0 : BitVec 8} {y : OutSys} {q : List Nat} (h : OInv n b0 y q) (ht : y.s.hw.tx = none) :
    ∃ s, y.s.isr = .ok s ∧
      ((∃ v q', q = v :: q' ∧ OInv n b0 { y with s := s } q' ∧ s.hw.tx = some v ∧ s.hw.shift = y.s.hw.shift ∧ s.hw.line = y.s.hw.line) ∨
       (q = [] ∧ OInv n b0 { y with s := s } [] ∧ s.hw.tx = none ∧ s.hw.shift = y.s.hw.shift ∧ s.hw.line = y.s.hw.line)) := by
  obtain ⟨rel, size, bytes, order, wf, on, bits, held1, held2⟩ := h
  have hl := RingBuffer.getLength_rel rel (by omega)
  unfold OutStream.isr
  rw [hl]
  cases q with
  | nil =>
    rw [if_neg (by simp)]
    obtain ⟨e1, e2, e3, e4, e5⟩ := bitB_effect 5 (by omega) (by omega) false y.s.hw wf
    refine ⟨_, rfl, Or.inr ⟨rfl, ⟨rel, size, by simp, ?_, bitB_wf 5 (by omega) (by omega) false _ wf, fun _ => Or.inr rfl, ?_, held1, held2⟩, ?_, e4, e5⟩⟩
    · show (y.s.hw.bitB 5 false).line ++ (y.s.hw.bitB 5 false).shift.toList ++ (y.s.hw.bitB 5 false).tx.toList ++ [] = _
      rw [e3, e4, e5]; exact order
    · intro j h0 h1 h5
      show (y.s.hw.bitB 5 false).ucsrb.getLsbD j = _
      rw [e1 j h1, if_neg h5]; exact bits j h0 h1 h5
    · exact e3.trans ht
  | cons v q' =>
    obtain ⟨b, hb, hrel, hsz⟩ := RingBuffer.read_rel rel
    rw [if_pos (by simp), hb]
    simp only [Res.bind_ok]
    obtain ⟨e1, e2, e3, e4, e5, e6⟩ := c57_write v y.s.hw wf ht
    have hv : v < 256 := bytes v (by simp)
    have e1' : (writeInternal v y.s.hw).tx = some v := by
      rw [e1]; congr 1; split <;> omega
    refine ⟨_, rfl, Or.inl ⟨v, q', rfl, ⟨hrel, hsz.trans size, fun x hx => bytes x (by simp [hx]), ?_, ?_, ?_, ?_, held1, held2⟩, e1', e5, e6⟩⟩
    · show (writeInternal v y.s.hw).line ++ (writeInternal v y.s.hw).shift.toList ++ (writeInternal v y.s.hw).tx.toList ++ q' = y.accepted
      rw [e1', e5, e6, ← order, ht]; simp
    · show (writeInternal v y.s.hw).ucsrb.getLsbD 4 = true ∨ (writeInternal v y.s.hw).rx = []
      rw [e2 4 (by omega) (by omega), e4]; exact wf
    · intro hp
      left
      show (writeInternal v y.s.hw).ucsrb.getLsbD 5 = true
      rw [e2 5 (by omega) (by omega)]
      rcases on hp with h | h
      · exact h
      · cases h
    · intro j h0 h1 h5
      show (writeInternal v y.s.hw).ucsrb.getLsbD j = _
      rw [e2 j h0 h1]; exact bits j h0 h1 h5

theorem step_inv {n : Nat} (hn : n < 65536) {b0 : BitVec 8} {y : OutSys} {q : List Nat} (h : OInv n b0 y q) (e : OutEv) :
    ∃ y' q', y.step e = .ok y' ∧ OInv n b0 y' q' := by
  cases e with
  | write v =>
    cases hp : y.phase with
    | idle =>
      obtain ⟨rel, size, bytes, order, wf, on, bits, held1, held2⟩ := h
      unfold OutSys.step OutStream.writeBuffer
      simp only [hp]
      by_cases hf : q.length + 1 = y.s.buf.size
      · rw [RingBuffer.write_full rel _ hf]
        exact ⟨_, q, rfl, rel, size, bytes, order, wf, (by simp), bits, by simp, by simp⟩
      · obtain ⟨b, hb, hrel, hsz⟩ := RingBuffer.write_room rel v.toNat (by have := rel.hq; omega)
        rw [hb]
        refine ⟨_, q ++ [v.toNat], rfl, hrel, hsz.trans size, ?_, ?_, wf, (by simp), bits, by simp, by simp⟩
        · intro x hx
          simp only [List.mem_append, List.mem_singleton] at hx
          rcases hx with hx | rfl
          · exact bytes x hx
          · exact v.isLt
        · show y.s.hw.line ++ y.s.hw.shift.toList ++ y.s.hw.tx.toList ++ (q ++ [v.toNat]) = y.accepted ++ [v.toNat]
          rw [← order, List.append_assoc]
          simp
    | _ => exact ⟨y, q, by unfold OutSys.step; simp only [hp], h⟩
  | main =>
    obtain ⟨rel, size, bytes, order, wf, on, bits, held1, held2⟩ := h
    have hread : SameBits y.s.hw.readB b0 := fun j h0 h1 h5 => (readB_bit _ j h1).trans (bits j h0 h1 h5)
    unfold OutSys.step
    cases hp : y.phase with
    | idle => exact ⟨y, q, rfl, rel, size, bytes, order, wf, on, bits, held1, held2⟩
    | buffered =>
      refine ⟨_, q, rfl, rel, size, bytes, order, wf, by simp, bits, ?_, by simp⟩
      intro v hv; injection hv with hv; rw [← hv]; exact hread
    | cleared =>
      refine ⟨_, q, rfl, rel, size, bytes, order, wf, by simp, bits, by simp, ?_⟩
      intro v hv; injection hv with hv; rw [← hv]; exact hread
    | loaded1 v =>
      have hs : SameBits (clearBit 5 v) b0 := fun j h0 h1 h5 => by rw [bit_clear 5 (by omega), if_neg h5]; exact held1 v hp j h0 h1 h5
      exact ⟨_, q, rfl, rel, size, bytes, order, wf_store _ b0 _ wf bits hs, by simp, hs, by simp, by simp⟩
    | loaded2 v =>
      have hs : SameBits (setBit 5 v) b0 := fun j h0 h1 h5 => by rw [bit_set 5 (by omega), if_neg h5]; exact held2 v hp j h0 h1 h5
      refine ⟨_, q, rfl, rel, size, bytes, order, wf_store _ b0 _ wf bits hs, fun _ => Or.inl ?_, hs, by simp, by simp⟩
      show (setBit 5 v).getLsbD 5 = true
      rw [bit_set 5 (by omega), if_pos rfl]
  | isr =>
    unfold OutSys.step
    by_cases hc : (isTrue 5 y.s.hw.ucsrb && getAcceptData y.s.hw) = true
    · simp only [hc, if_true]
      have ht : y.s.hw.tx = none := by
        rw [Bool.and_eq_true, accept_iff] at hc
        simpa using hc.2
      obtain ⟨s, hs, h1 | h1⟩ := isr_inv hn h ht
      · obtain ⟨v, q', rfl, hi, _⟩ := h1
        exact ⟨_, q', by rw [hs]; rfl, hi⟩
      · exact ⟨_, [], by rw [hs]; rfl, h1.2.1⟩
    · simp only [hc]
      exact ⟨y, q, rfl, h⟩
  | frame =>
    obtain ⟨rel, size, bytes, order, wf, on, bits, held1, held2⟩ := h
    refine ⟨_, q, rfl, rel, size, bytes, ?_, wf, on, bits, held1, held2⟩
    show (y.s.hw.line ++ y.s.hw.shift.toList) ++ y.s.hw.tx.toList ++ [] ++ q = y.accepted
    rw [← order]; simp
  | load =>
    unfold OutSys.step Hw.load
    by_cases hs : y.s.hw.shift = none
    · obtain ⟨rel, size, bytes, order, wf, on, bits, held1, held2⟩ := h
      simp only [hs, if_true]
      refine ⟨_, q, rfl, rel, size, bytes, ?_, wf, on, bits, held1, held2⟩
      show y.s.hw.line ++ y.s.hw.tx.toList ++ [] ++ q = y.accepted
      rw [← order, hs]; simp
    · simp only [hs, if_false]
      exact ⟨y, q, rfl, h⟩

theorem run_inv {n : Nat} (hn : n < 65536) {b0 : BitVec 8} (es : List OutEv) {y : OutSys} {q : List Nat} (h : OInv n b0 y q) :
    ∃ y' q', y.run es = .ok y' ∧ OInv n b0 y' q' := by
  induction es generalizing y q with
  | nil => exact ⟨y, q, rfl, h⟩
  | cons e es ih =>
    obtain ⟨y1, q1, h1, i1⟩ := step_inv hn h e
    obtain ⟨y2, q2, h2, i2⟩ := ih i1
    exact ⟨y2, q2, by unfold OutSys.run; rw [h1]; exact h2, i2⟩

/-- A stream just constructed on a transmitter with nothing to send; `g` the uninitialised buffer memory, `b` any control register. -/
def outInit (g : List Nat) (b : BitVec 8) : OutSys := { s := { buf := RingBuffer.mk g, hw := { ucsrb := b } }, phase := .idle, accepted := [] }

theorem outInit_inv (g : List Nat) (b : BitVec 8) (hg : 0 < g.length) : OInv g.length b (outInit g b) [] :=
  ⟨RingBuffer.rel_mk g hg, rfl, by simp, rfl, Or.inr rfl, fun _ => Or.inr rfl, fun _ _ _ _ => rfl, by simp [outInit], by simp [outInit]⟩

/-- **C59.** Every history of Write calls, interrupts (also between the loads and stores of Write) and frame ends, any buffer size and control register:
    no undefined behaviour; what is on the line, being sent and waiting in the transmitter is, in order, a first part of the accepted bytes and the buffer holds the rest;
    outside Write the interrupt is enabled whenever the buffer holds something; no other control bit is changed. -/
theorem c59_order (g : List Nat) (b : BitVec 8) (hg : 0 < g.length) (hn : g.length < 65536) (es : List OutEv) :
    ∃ y rest, (outInit g b).run es = .ok y ∧
      y.s.hw.line ++ y.s.hw.shift.toList ++ y.s.hw.tx.toList ++ rest = y.accepted ∧ RingBuffer.getLength y.s.buf = rest.length ∧
      (y.phase = .idle → rest ≠ [] → y.s.hw.ucsrb.getLsbD 5 = true) ∧
      (∀ j, j ≠ 0 → j ≠ 1 → j ≠ 5 → y.s.hw.ucsrb.getLsbD j = b.getLsbD j) := by
  obtain ⟨y, q, h1, h2⟩ := run_inv hn es (outInit_inv g b hg)
  refine ⟨y, q, h1, h2.order, RingBuffer.getLength_rel h2.rel (by rw [h2.size]; exact hn), fun hp hq => ?_, h2.bits⟩
  rcases h2.on hp with h | h
  · exact h
  · exact absurd h hq

example := c59_order [0, 0, 0, 0] 0x08#8 (by decide) (by decide) [.write 65#8, .main, .main, .main, .main, .write 66#8, .main, .isr, .main, .main, .main]

/-- `n` times: the interrupt if it is pending, then a frame ends. -/
def sendRounds : Nat → List OutEv
  | 0 => []
  | n + 1 => .isr :: .frame :: sendRounds n

theorem opt_len (o : Option Nat) : o.toList.length = if o = none then 0 else 1 := by cases o <;> simp

/-- What is still to come, in rounds. -/
def pend (q : List Nat) (tx shift : Option Nat) : Nat :=
  q.length + tx.toList.length + min 1 (q.length + tx.toList.length + shift.toList.length)

theorem round_inv {n : Nat} (hn : n < 65536) {b0 : BitVec 8} {y : OutSys} {q : List Nat} (h : OInv n b0 y q) (hp : y.phase = .idle) :
    ∃ y' q', y.run [.isr, .frame] = .ok y' ∧ OInv n b0 y' q' ∧ y'.phase = .idle ∧ y'.accepted = y.accepted ∧ pend q' y'.s.hw.tx y'.s.hw.shift ≤ pend q y.s.hw.tx y.s.hw.shift - 1 := by
  have fr : ∀ (z : OutSys) (p : List Nat), OInv n b0 z p → OInv n b0 { z with s := { z.s with hw := z.s.hw.frameTime } } p := by
    intro z p hz
    obtain ⟨rel, size, bytes, order, wf, on, bits, held1, held2⟩ := hz
    refine ⟨rel, size, bytes, ?_, wf, on, bits, held1, held2⟩
    show (z.s.hw.line ++ z.s.hw.shift.toList) ++ z.s.hw.tx.toList ++ [] ++ p = z.accepted
    rw [← order]; simp
  unfold OutSys.run OutSys.step
  by_cases ht : y.s.hw.tx = none
  · by_cases hu : y.s.hw.ucsrb.getLsbD 5 = true
    · have hc : (isTrue 5 y.s.hw.ucsrb && getAcceptData y.s.hw) = true := by rw [accept_iff, isTrue_bit 5 (by omega), hu, ht]; rfl
      simp only [hc, if_true]
      obtain ⟨s, hs, h1 | h1⟩ := isr_inv hn h ht
      · obtain ⟨v, q', rfl, hi, htx, hsh, hln⟩ := h1
        refine ⟨_, q', by rw [hs]; rfl, fr _ _ hi, hp, rfl, ?_⟩
        show pend q' none s.hw.tx ≤ _
        unfold pend
        rw [htx, ht]
        simp only [List.length_cons, Option.toList_none, List.length_nil, Option.toList_some]
        omega
      · obtain ⟨rfl, hi, htx, hsh, hln⟩ := h1
        refine ⟨_, [], by rw [hs]; rfl, fr _ _ hi, hp, rfl, ?_⟩
        show pend [] none s.hw.tx ≤ _
        rw [htx]
        exact Nat.zero_le _
    · have hc : (isTrue 5 y.s.hw.ucsrb && getAcceptData y.s.hw) = false := by rw [isTrue_bit 5 (by omega), Bool.eq_false_iff.2 hu]; rfl
      simp only [hc, Bool.false_eq_true, if_false]
      rcases h.on hp with h' | rfl
      · exact absurd h' hu
      · refine ⟨_, [], rfl, fr _ _ h, hp, rfl, ?_⟩
        show pend [] none y.s.hw.tx ≤ _
        rw [ht]
        exact Nat.zero_le _
  · have hc : (isTrue 5 y.s.hw.ucsrb && getAcceptData y.s.hw) = false := by rw [accept_iff]; simp [ht]
    simp only [hc, Bool.false_eq_true, if_false]
    refine ⟨_, q, rfl, fr _ _ h, hp, rfl, ?_⟩
    show pend q none y.s.hw.tx ≤ _
    unfold pend
    rw [opt_len y.s.hw.tx, if_neg ht]
    simp only [Option.toList_none, List.length_nil]
    omega

theorem drain_inv {m : Nat} (hn : m < 65536) {b : BitVec 8} : ∀ n (y : OutSys) q, OInv m b y q → y.phase = .idle → pend q y.s.hw.tx y.s.hw.shift ≤ n →
    ∃ y', y.run (sendRounds n) = .ok y' ∧ y'.s.hw.line = y.accepted ∧ RingBuffer.getLength y'.s.buf = 0 := by
  intro n
  induction n with
  | zero =>
    intro y q h hp hz
    unfold pend at hz
    have hz1 : q = [] := List.length_eq_zero_iff.1 (by omega)
    have hz2 : y.s.hw.tx.toList = [] := List.length_eq_zero_iff.1 (by omega)
    have hz3 : y.s.hw.shift.toList = [] := List.length_eq_zero_iff.1 (by omega)
    refine ⟨y, rfl, ?_, ?_⟩
    · have := h.order
      rw [hz1, hz2, hz3] at this
      simpa using this
    · rw [RingBuffer.getLength_rel h.rel (by rw [h.size]; exact hn), hz1]; rfl
  | succ n ih =>
    intro y q h hp hz
    obtain ⟨y1, q1, r1, i1, p1, a1, l1⟩ := round_inv hn h hp
    obtain ⟨y2, r2, e2, e3⟩ := ih y1 q1 i1 p1 (by omega)
    refine ⟨y2, ?_, e2.trans a1, e3⟩
    have app : ∀ (as bs : List OutEv) (z z' : OutSys), z.run as = .ok z' → z.run (as ++ bs) = z'.run bs := by
      intro as
      induction as with
      | nil => intro bs z z' hz; injection hz with hz; rw [hz]; rfl
      | cons a as iha =>
        intro bs z z' hz
        unfold OutSys.run at hz
        show (do let z ← z.step a; z.run (as ++ bs)) = _
        cases hs : z.step a with
        | ub => rw [hs] at hz; cases hz
        | ok w => rw [hs] at hz; exact iha bs w z' hz
    exact (app [.isr, .frame] (sendRounds n) y y1 r1).trans r2

/-- **C59.** None stays behind: after any history that leaves main code outside Write, once the interrupt has been served as often as there are accepted bytes (and one more
    frame has ended), exactly the accepted bytes are on the line. -/
theorem c59_drain (g : List Nat) (b : BitVec 8) (hg : 0 < g.length) (hn : g.length < 65536) (es : List OutEv) (y : OutSys)
    (hr : (outInit g b).run es = .ok y) (hp : y.phase = .idle) (n : Nat) (hl : y.accepted.length + 1 ≤ n) :
    ∃ y', y.run (sendRounds n) = .ok y' ∧ y'.s.hw.line = y.accepted ∧ RingBuffer.getLength y'.s.buf = 0 := by
  obtain ⟨y0, q, h1, h2⟩ := run_inv hn es (outInit_inv g b hg)
  rw [hr] at h1
  injection h1 with h1
  subst h1
  have hpen : pend q y.s.hw.tx y.s.hw.shift ≤ n := by
    have := congrArg List.length h2.order
    simp only [List.length_append] at this
    unfold pend
    omega
  clear hr hl
  exact drain_inv hn n y q h2 hp hpen

example := c59_drain [0, 0, 0, 0] 0x08#8 (by decide) (by decide) [.write 65#8, .main, .main, .main, .main, .write 66#8, .main, .isr, .main, .main, .main] _ rfl rfl 3 (by decide)

/-- **C59.** A byte is accepted whenever the buffer has room. -/
theorem c59_accept (g : List Nat) (b : BitVec 8) (hg : 0 < g.length) (hn : g.length < 65536) (es : List OutEv) (y : OutSys)
    (hr : (outInit g b).run es = .ok y) (hp : y.phase = .idle) (v : BitVec 8) :
    ∃ y', y.step (.write v) = .ok y' ∧ y'.accepted = if RingBuffer.getLength y.s.buf + 1 < g.length then y.accepted ++ [v.toNat] else y.accepted := by
  obtain ⟨y0, q, h1, h2⟩ := run_inv hn es (outInit_inv g b hg)
  rw [hr] at h1
  injection h1 with h1
  subst h1
  rw [RingBuffer.getLength_rel h2.rel (by rw [h2.size]; exact hn)]
  have hs := h2.size
  have hq := h2.rel.hq
  unfold OutSys.step OutStream.writeBuffer
  simp only [hp]
  by_cases hf : q.length + 1 = y.s.buf.size
  · rw [RingBuffer.write_full h2.rel _ hf, if_neg (by omega)]
    exact ⟨_, rfl, rfl⟩
  · obtain ⟨b, hb, hrel, hsz⟩ := RingBuffer.write_room h2.rel v.toNat (by omega)
    rw [hb, if_pos (by omega)]
    exact ⟨_, rfl, rfl⟩

/-- Two bytes with an interrupt between the load and the store of the second Write. -/
example : ∃ y, (outInit [0, 0, 0, 0] 0x08#8).run ([.write 65#8, .main, .main, .main, .main, .write 66#8, .main, .isr, .main, .main, .main] ++ sendRounds 3) = .ok y ∧
    y.phase = .idle ∧ y.s.hw.line = [65, 66] ∧ y.accepted = [65, 66] := ⟨_, rfl, by decide +kernel, by decide +kernel, by decide +kernel⟩

/-! ### C79 length -/

/-- **C79, partial.** In every history the stream's getLength is the number of accepted bytes not handed to the transmitter, if that is less than 256. -/
theorem c79_length_partial (g : List Nat) (b : BitVec 8) (hg : 0 < g.length) (hn : g.length < 65536) (es : List OutEv) :
    ∃ y, (outInit g b).run es = .ok y ∧
      (y.accepted.length - (y.s.hw.line ++ y.s.hw.shift.toList ++ y.s.hw.tx.toList).length < 256 →
        y.s.getLength = y.accepted.length - (y.s.hw.line ++ y.s.hw.shift.toList ++ y.s.hw.tx.toList).length) := by
  obtain ⟨y, q, h1, h2, h3, _⟩ := c59_order g b hg hn es
  refine ⟨y, h1, fun hl => ?_⟩
  have := congrArg List.length h2
  rw [List.length_append] at this
  unfold OutStream.getLength
  rw [h3]
  omega

/-- **C79 fails**: with 256 bytes waiting the stream says it is empty: the result type is eight bits wide. -/
theorem c79_length_fails (g : List Nat) (hg : g.length = 300) (h : Hw) :
    OutStream.getLength { buf := { RingBuffer.mk g with w := 256 }, hw := h } = 0 ∧ RingBuffer.getLength { RingBuffer.mk g with w := 256 } = 256 := by
  unfold OutStream.getLength RingBuffer.getLength RingBuffer.mk
  simp only [hg]
  decide +kernel

/-! ### C86 Flush and Close -/

/-- **C59.** The four loads and stores after the buffer write, without interrupt between them, are the enabling of the interrupt. -/
theorem c59_write_steps (y : OutSys) (hp : y.phase = .idle) (v : BitVec 8) :
    y.run [.write v, .main, .main, .main, .main] =
      (do let (s, r) ← y.s.writeBuffer v.toNat
          .ok { s := s.enable, phase := .idle, accepted := if r then y.accepted ++ [v.toNat] else y.accepted }) := by
  simp only [OutSys.run, OutSys.step, hp]
  cases y.s.writeBuffer v.toNat <;> rfl

example := c59_write_steps (outInit [0, 0, 0, 0] 0x08#8) rfl 65#8

/-- **C86, partial.** Flush after any history, with the interrupt off meanwhile: it returns within one frame time, the stream is empty, the bytes
    handed to the transmitter before are on the line or on their way and nothing else is; and whatever happens after it, the line carries them followed
    by what is accepted from then on. Missing: Flush with the interrupt on (see the `_fails` theorem). -/
theorem c86_flush_partial (g : List Nat) (b : BitVec 8) (hg : 0 < g.length) (hn : g.length < 65536) (es : List OutEv) (y : OutSys)
    (hy : (outInit g b).run es = .ok y) (hp : y.phase = .idle) (k : Nat) :
    ∃ s, y.s.flush (k + 2) = some s ∧ s.getLength = 0 ∧ s.hw.tx = none ∧
      s.hw.line ++ s.hw.shift.toList = y.s.hw.line ++ y.s.hw.shift.toList ++ y.s.hw.tx.toList ∧ s.hw.ucsrb = y.s.hw.ucsrb ∧
      ∀ later, ∃ z rest, OutSys.run { s := s, phase := .idle, accepted := s.hw.line ++ s.hw.shift.toList } later = .ok z ∧
        z.s.hw.line ++ z.s.hw.shift.toList ++ z.s.hw.tx.toList ++ rest = z.accepted ∧ RingBuffer.getLength z.s.buf = rest.length := by
  obtain ⟨y', q, h1, h2⟩ := run_inv hn es (outInit_inv g b hg)
  rw [hy] at h1
  obtain rfl : y = y' := by injection h1
  obtain ⟨h', f1, f2, f3, f4, f5⟩ := c73_flush_partial y.s.hw k
  have hrel := RingBuffer.rel_clear h2.rel
  have hinv : OInv g.length b { s := ⟨RingBuffer.clear y.s.buf, h'⟩, phase := .idle, accepted := h'.line ++ h'.shift.toList } [] :=
    ⟨hrel, h2.size, by simp, by simp [f2], by show Wf h'; unfold Wf; rw [f5, f4]; exact h2.wf, fun _ => Or.inr rfl,
      by show SameBits h'.ucsrb b; rw [f5]; exact h2.bits, by simp, by simp⟩
  refine ⟨⟨RingBuffer.clear y.s.buf, h'⟩, by unfold OutStream.flush; rw [f1]; rfl, ?_, f2, f3, f5, fun later => ?_⟩
  · unfold OutStream.getLength
    rw [RingBuffer.getLength_rel hrel (by rw [show (RingBuffer.clear y.s.buf).size = g.length from h2.size]; exact hn)]
    rfl
  · obtain ⟨z, q', z1, z2⟩ := run_inv hn later hinv
    exact ⟨z, q', z1, z2.order, RingBuffer.getLength_rel z2.rel (by rw [z2.size]; exact hn)⟩

example := c86_flush_partial [0, 0, 0, 0] 0x08#8 (by decide) (by decide) [.write 65#8, .main, .main, .main, .main, .write 66#8, .main, .isr, .main, .main, .main] _ rfl rfl 3

/-- The two stores are `Clear`. -/
theorem clear_stores (s : OutStream) : s.clearFirst.clearSecond = { s with buf := RingBuffer.clear s.buf } := rfl

/-- **C86 fails** with the interrupt on. One byte was written and handed to the transmitter, so the stream is empty; Flush is called, and between the two
    stores of Clear the transmitter asks for data: the handler finds three bytes and sends the uninitialised memory `x`, a byte that never was written. -/
theorem c86_flush_fails (x v : BitVec 8) (a c d : Nat) :
    ∃ y s s', (outInit [a, x.toNat, c, d] 0x08#8).run [.write v, .main, .main, .main, .main, .isr, .frame] = .ok y ∧
      y.phase = .idle ∧ y.accepted = [v.toNat] ∧ y.s.getLength = 0 ∧
      isTrue 5 y.s.clearFirst.hw.ucsrb = true ∧ getAcceptData y.s.clearFirst.hw = true ∧ y.s.clearFirst.isr = .ok s ∧ s' = s.clearSecond ∧
      s'.getLength = 0 ∧ s'.hw.frameTime.frameTime.line = [v.toNat, x.toNat] := by
  have e1 : x.toNat % 256 = x.toNat := Nat.mod_eq_of_lt x.isLt
  have e2 : v.toNat % 256 = v.toNat := Nat.mod_eq_of_lt v.isLt
  let y : OutSys := { s := { buf := { size := 4, buf := [v.toNat, x.toNat, c, d], w := 1, r := 1 }, hw := { ucsrb := 0x28#8, shift := some (v.toNat % 256) } },
                      phase := .idle, accepted := [v.toNat] }
  let s : OutStream := { buf := { size := 4, buf := [v.toNat, x.toNat, c, d], w := 0, r := 2 },
                         hw := { ucsrb := 0x28#8, shift := some (v.toNat % 256), tx := some (x.toNat % 256) } }
  have i9 : ∀ (t : Option Nat), is9 { ucsrb := 0x28#8, shift := t } = false := fun t => by rw [is9_eq]; exact (by decide : (0x28#8).getLsbD 2 = false)
  have u0 : ∀ (b : List Nat) (r w : Nat), r ≤ w → w < 4 → RingBuffer.getLength { size := 4, buf := b, w := w, r := r } = w - r := by
    intro b r w h1 h2
    simp only [RingBuffer.getLength, ge_iff_le, h1, if_true, toU]
    omega
  have hi2 : isTrue 2 0x28#8 = false := by decide
  have g1 : (outInit [a, x.toNat, c, d] 0x08#8).run [.write v, .main, .main, .main, .main] =
      .ok { s := { buf := { size := 4, buf := [v.toNat, x.toNat, c, d], w := 1, r := 0 }, hw := { ucsrb := 0x28#8 } }, phase := .idle, accepted := [v.toNat] } := by
    rw [c59_write_steps _ rfl]
    have : Hw.bitB 5 true { ucsrb := 0x08#8 } = { ucsrb := 0x28#8 } := by decide +kernel
    show Res.ok ({ s := ⟨_, Hw.bitB 5 true { ucsrb := 0x08#8 }⟩, phase := Phase.idle, accepted := _ } : OutSys) = _
    rw [this]; rfl
  have app : ∀ (l m : List OutEv) (p q : OutSys), p.run l = .ok q → p.run (l ++ m) = q.run m := by
    intro l m
    induction l with
    | nil => intro p q h; injection h with h; rw [h]; rfl
    | cons e l ih =>
      intro p q h
      simp only [OutSys.run, List.cons_append] at h ⊢
      cases hs : p.step e with
      | ub => rw [hs] at h; cases h
      | ok t => rw [hs] at h; exact ih t q h
  have g2 : (outInit [a, x.toNat, c, d] 0x08#8).run [.write v, .main, .main, .main, .main, .isr, .frame] = .ok y := by
    rw [show [OutEv.write v, .main, .main, .main, .main, .isr, .frame] = [.write v, .main, .main, .main, .main] ++ [.isr, .frame] from rfl, app _ _ _ _ g1]
    have k : isTrue 5 0x28#8 = true := by decide
    simp [OutSys.run, OutSys.step, k, accept_iff, OutStream.isr, u0, RingBuffer.read, cGet, RingBuffer.wrap, writeInternal, i9, Hw.writeUDR, hi2,
      Hw.frameTime, y]
  have g3 : y.s.clearFirst.isr = .ok s := by
    have l3 : RingBuffer.getLength { size := 4, buf := [v.toNat, x.toNat, c, d], w := 0, r := 1 } = 3 := by
      simp [RingBuffer.getLength, toU]
    simp [OutStream.isr, OutStream.clearFirst, y, l3, RingBuffer.read, cGet, RingBuffer.wrap, writeInternal, i9, Hw.writeUDR, hi2, s]
  refine ⟨y, s, s.clearSecond, g2, rfl, rfl, ?_, (by decide : isTrue 5 0x28#8 = true), by rw [accept_iff]; rfl, g3, rfl, ?_, ?_⟩
  · simp [OutStream.getLength, y, u0]
  · simp [OutStream.getLength, OutStream.clearSecond, s, u0]
  show [v.toNat % 256] ++ [x.toNat % 256] = _
  rw [e1, e2]; rfl

/-- **C86.** Close empties the buffer and clears the transmitter enable and its two interrupt enables; every other control bit, the receiver's data and
    what was handed to the transmitter are as before; the handler is not called again until the next Write. -/
theorem c86_close (s : OutStream) (hw : Wf s.hw) :
    RingBuffer.getLength s.close.buf = 0 ∧ s.close.buf.size = s.buf.size ∧
    (∀ j, j ≠ 1 → s.close.hw.ucsrb.getLsbD j = if j = 3 ∨ j = 5 ∨ j = 6 then false else s.hw.ucsrb.getLsbD j) ∧
    s.close.hw.rx = s.hw.rx ∧ s.close.hw.tx = s.hw.tx ∧ s.close.hw.shift = s.hw.shift ∧ s.close.hw.line = s.hw.line ∧
    ∀ acc, OutSys.step { s := s.close, phase := .idle, accepted := acc } .isr = .ok { s := s.close, phase := .idle, accepted := acc } := by
  obtain ⟨a1, a2, a3, a4, a5⟩ := bitB_effect 6 (by omega) (by omega) false s.hw hw
  have w1 := bitB_wf 6 (by omega) (by omega) false s.hw hw
  obtain ⟨b1, b2, b3, b4, b5⟩ := bitB_effect 5 (by omega) (by omega) false _ w1
  have w2 := bitB_wf 5 (by omega) (by omega) false _ w1
  obtain ⟨c1, c2, c3, c4, c5⟩ := bitB_effect 3 (by omega) (by omega) false _ w2
  have bits : ∀ j, j ≠ 1 → s.close.hw.ucsrb.getLsbD j = if j = 3 ∨ j = 5 ∨ j = 6 then false else s.hw.ucsrb.getLsbD j := by
    intro j hj
    show (((s.hw.bitB 6 false).bitB 5 false).bitB 3 false).ucsrb.getLsbD j = _
    rw [c1 j hj, b1 j hj, a1 j hj]
    by_cases e3 : j = 3 <;> by_cases e5 : j = 5 <;> by_cases e6 : j = 6 <;> simp [e3, e5, e6]
  refine ⟨by simp [OutStream.close, RingBuffer.clear, RingBuffer.getLength, toU], rfl, bits, ?_, ?_, ?_, ?_, fun acc => ?_⟩
  · exact c2.trans (b2.trans a2)
  · exact c3.trans (b3.trans a3)
  · exact c4.trans (b4.trans a4)
  · exact c5.trans (b5.trans a5)
  · have h5 : isTrue 5 s.close.hw.ucsrb = false := by rw [isTrue_bit 5 (by omega), bits 5 (by omega)]; simp
    simp [OutSys.step, h5]

example : Wf ({ ucsrb := 0xFF#8, rx := [⟨7, false, false, false⟩] } : Hw) := Or.inl (by decide)

/-! ### C76 input -/

/-- The bytes of the good frames, in order. -/
def goodBytes (fs : List Frame) : List Nat := (fs.filter Frame.good).map fun f => f.data % 256

/-- What holds between events: `p` the frames the handler has taken. -/
structure IInv (n : Nat) (y : InSys) (q : List Nat) (p : List Frame) : Prop where
  rel : RingBuffer.Rel y.s.buf q
  size : y.s.buf.size = n
  taken : p ++ y.s.hw.rx = y.kept
  sub : List.Sublist (y.returned ++ q) (goodBytes p)
  all : p.length < n → y.returned ++ q = goodBytes p
  wf : Wf y.s.hw
  small : ∀ f ∈ y.kept, f.data < 512

theorem goodBytes_snoc (p : List Frame) (f : Frame) : goodBytes (p ++ [f]) = goodBytes p ++ if Frame.good f then [f.data % 256] else [] := by
  unfold goodBytes
  rw [List.filter_append, List.map_append]
  congr 1
  by_cases h : Frame.good f = true <;> simp [h]

theorem goodBytes_le (p : List Frame) : (goodBytes p).length ≤ p.length := by
  unfold goodBytes
  rw [List.length_map]
  exact List.length_filter_le _ _

/-- Frames have up to nine bits. -/
def InEv.ok : InEv → Prop
  | .arrive f => f.data < 512
  | _ => True

theorem in_step {n : Nat} (hn : n < 65536) {y : InSys} {q : List Nat} {p : List Frame} (h : IInv n y q p) (e : InEv) (he : InEv.ok e) :
    ∃ y' q' p', y.step e = .ok y' ∧ IInv n y' q' p' := by
  obtain ⟨rel, size, taken, sub, all, wf, small⟩ := h
  cases e with
  | arrive f =>
    unfold InSys.step
    by_cases hc : (isTrue 4 y.s.hw.ucsrb && decide (y.s.hw.rx.length < 3)) = true
    · simp only [hc, if_true]
      refine ⟨_, q, p, rfl, rel, size, ?_, sub, all, ?_, ?_⟩
      · show p ++ (y.s.hw.rx ++ [f]) = y.kept ++ [f]
        rw [← taken, List.append_assoc]
      · left
        rw [Bool.and_eq_true, isTrue_bit 4 (by omega)] at hc
        exact hc.1
      · intro x hx
        simp only [List.mem_append, List.mem_singleton] at hx
        rcases hx with hx | rfl
        · exact small x hx
        · exact he
    · simp only [hc]
      exact ⟨y, q, p, rfl, rel, size, taken, sub, all, wf, small⟩
  | isr =>
    unfold InSys.step
    by_cases hc : (isTrue 7 y.s.hw.ucsrb && rxComplete y.s.hw) = true
    · simp only [hc, if_true]
      rw [Bool.and_eq_true, complete_iff] at hc
      cases hx : y.s.hw.rx with
      | nil => rw [hx] at hc; simp at hc
      | cons f r =>
        have hf : f.data < 512 := small f (by rw [← taken, hx]; simp)
        obtain ⟨a, b, c⟩ := flags y.s.hw f r hx
        have g : (getResult y.s.hw = .success) ↔ Frame.good f = true := by
          unfold getResult Frame.good
          rw [a, b, c]
          cases f.fe <;> cases f.dor <;> cases f.upe <;> decide
        have rd := c57_read y.s.hw f r hx hf
        have tk : (p ++ [f]) ++ r = y.kept := by rw [← taken, hx]; simp
        have wf' : Wf { y.s.hw with rx := r } := by
          rcases wf with h | h
          · exact Or.inl h
          · rw [hx] at h; cases h
        have ht : (if y.s.hw.ucsrb.getLsbD 2 = true then f.data else f.data % 256) % 256 = f.data % 256 := by split <;> omega
        unfold InStream.isr
        simp only [rd, ht, g]
        by_cases hg : Frame.good f = true
        · simp only [hg, if_true]
          by_cases hfull : q.length + 1 = y.s.buf.size
          · rw [RingBuffer.write_full rel _ hfull]
            refine ⟨_, q, p ++ [f], rfl, rel, size, tk, ?_, ?_, wf', small⟩
            · rw [goodBytes_snoc]; exact sub.trans (List.sublist_append_left _ _)
            · intro hl
              rw [List.length_append, List.length_singleton] at hl
              have h1 := all (by omega)
              have h2 := congrArg List.length h1
              have h3 := goodBytes_le p
              rw [List.length_append] at h2
              omega
          · obtain ⟨b, hb, hrel, hsz⟩ := RingBuffer.write_room rel (f.data % 256) (by have := rel.hq; omega)
            rw [hb]
            refine ⟨_, q ++ [f.data % 256], p ++ [f], rfl, hrel, hsz.trans size, tk, ?_, ?_, wf', small⟩
            · rw [goodBytes_snoc, if_pos hg, ← List.append_assoc]; exact sub.append_right _
            · intro hl
              rw [List.length_append, List.length_singleton] at hl
              rw [goodBytes_snoc, if_pos hg, ← List.append_assoc]
              show (y.returned ++ q) ++ _ = _
              rw [all (by omega)]
        · simp only [hg]
          refine ⟨_, q, p ++ [f], rfl, rel, size, tk, ?_, ?_, wf', small⟩
          · rw [goodBytes_snoc, if_neg hg, List.append_nil]; exact sub
          · intro hl
            rw [List.length_append, List.length_singleton] at hl
            rw [goodBytes_snoc, if_neg hg, List.append_nil]; exact all (by omega)
    · simp only [hc]
      exact ⟨y, q, p, rfl, rel, size, taken, sub, all, wf, small⟩
  | read =>
    unfold InSys.step InStream.read
    rw [RingBuffer.getLength_rel rel (by omega)]
    cases q with
    | nil =>
      obtain ⟨e1, e2, e3, e4, e5⟩ := bitB_effect 7 (by omega) (by omega) true y.s.hw wf
      refine ⟨{ y with s := { y.s with hw := rxSetInterrupt true y.s.hw } }, [], p, rfl, rel, size, ?_, sub, all, bitB_wf 7 (by omega) (by omega) true _ wf, small⟩
      show p ++ (y.s.hw.bitB 7 true).rx = y.kept
      rw [e2]; exact taken
    | cons v q' =>
      obtain ⟨b, hb, hrel, hsz⟩ := RingBuffer.read_rel rel
      have hne : ¬ ((v : Int) = -1) := by omega
      have hpos : (v :: q').length > 0 := by simp
      simp only [if_pos hpos, hb, Res.bind_ok, if_neg hne, Int.toNat_natCast]
      refine ⟨_, q', p, rfl, hrel, hsz.trans size, taken, ?_, ?_, wf, small⟩
      · simpa using sub
      · intro hl; simpa using all hl

theorem in_run {n : Nat} (hn : n < 65536) (es : List InEv) (hes : ∀ e ∈ es, InEv.ok e) {y : InSys} {q : List Nat} {p : List Frame} (h : IInv n y q p) :
    ∃ y' q' p', y.run es = .ok y' ∧ IInv n y' q' p' := by
  induction es generalizing y q p with
  | nil => exact ⟨y, q, p, rfl, h⟩
  | cons e es ih =>
    obtain ⟨y1, q1, p1, h1, i1⟩ := in_step hn h e (hes e (by simp))
    obtain ⟨y2, q2, p2, h2, i2⟩ := ih (fun e he => hes e (by simp [he])) i1
    exact ⟨y2, q2, p2, by unfold InSys.run; rw [h1]; exact h2, i2⟩

/-- A stream just constructed on a receiver with an empty FIFO. -/
def inInit (g : List Nat) (b : BitVec 8) : InSys := { s := { buf := RingBuffer.mk g, hw := { ucsrb := b } }, returned := [], kept := [] }

/-- **C76.** Every history of arrivals, interrupts and Read calls: no undefined behaviour; what Read returned, then what is buffered, is in order taken from the bytes
    of the frames received without error; and all of them as long as no more frames came than the buffer has room for. -/
theorem c76_input (g : List Nat) (b : BitVec 8) (hg : 0 < g.length) (hn : g.length < 65536) (es : List InEv) (hes : ∀ e ∈ es, InEv.ok e) :
    ∃ y buffered, (inInit g b).run es = .ok y ∧ RingBuffer.getLength y.s.buf = buffered.length ∧
      List.Sublist (y.returned ++ buffered) (goodBytes y.kept) ∧
      (y.kept.length < g.length → y.returned ++ buffered ++ goodBytes y.s.hw.rx = goodBytes y.kept) := by
  obtain ⟨y, q, p, h1, h2⟩ := in_run hn es hes
    (⟨RingBuffer.rel_mk g hg, rfl, rfl, by simp [inInit, goodBytes], fun _ => rfl, Or.inr rfl, by simp [inInit]⟩ : IInv g.length (inInit g b) [] [])
  have app : ∀ a b, goodBytes (a ++ b) = goodBytes a ++ goodBytes b := fun a b => by unfold goodBytes; simp
  refine ⟨y, q, h1, RingBuffer.getLength_rel h2.rel (by rw [h2.size]; exact hn), ?_, ?_⟩
  · rw [← h2.taken, app]; exact h2.sub.trans (List.sublist_append_left _ _)
  · intro hl
    rw [← h2.taken, app, h2.all (by rw [← h2.taken, List.length_append] at hl; omega)]

/-! The same exactly: which bytes are kept and which are dropped. -/

/-- An event as the specification sees it. -/
def inAct : InEv → Spec.Usart.InAct
  | .arrive f => .arrive (f.data % 256) (Frame.good f)
  | .isr => .interrupt
  | .read => .read

/-- What the caller gets, if the event is a Read call. -/
def readResult (y : InSys) : InEv → List Int
  | .read => match y.s.read with | .ok (_, r) => [r] | .ub => []
  | _ => []

/-- The results of the Read calls of a history, -1 included. -/
def readResults (y : InSys) : List InEv → List Int
  | [] => []
  | e :: es => readResult y e ++ (match y.step e with | .ok y' => readResults y' es | .ub => [])

/-- The stream is in the state the specification describes. -/
structure InBoxed (n : Nat) (y : InSys) (x : Spec.Usart.Inbox) : Prop where
  rel : RingBuffer.Rel y.s.buf x.queue
  size : y.s.buf.size = n
  fifo : y.s.hw.rx.map (fun f => (f.data % 256, Frame.good f)) = x.fifo
  on : y.s.hw.ucsrb.getLsbD 4 = x.on
  ie : y.s.hw.ucsrb.getLsbD 7 = x.ie
  wf : Wf y.s.hw
  small : ∀ f ∈ y.s.hw.rx, f.data < 512

theorem inBoxed_step {n : Nat} (hn : n < 65536) {y : InSys} {x : Spec.Usart.Inbox} (h : InBoxed n y x) (e : InEv) (he : InEv.ok e) :
    ∃ y', y.step e = .ok y' ∧ InBoxed n y' (x.step (n - 1) (inAct e)) ∧
      (x.step (n - 1) (inAct e)).returned = x.returned ++ readResult y e := by
  obtain ⟨rel, size, fifo, on, ie, wf, small⟩ := h
  have hlen : x.fifo.length = y.s.hw.rx.length := by rw [← fifo, List.length_map]
  cases e with
  | arrive f =>
    unfold InSys.step
    by_cases hc : (isTrue 4 y.s.hw.ucsrb && decide (y.s.hw.rx.length < 3)) = true
    · have hc' : x.on = true ∧ x.fifo.length < 3 := by
        rw [Bool.and_eq_true, isTrue_bit 4 (by omega), decide_eq_true_eq] at hc
        exact ⟨on ▸ hc.1, by omega⟩
      simp only [hc, if_true, inAct, Spec.Usart.Inbox.step, hc', and_self]
      refine ⟨_, rfl, ⟨rel, size, ?_, on.trans hc'.1, ie, Or.inl (on.trans hc'.1), ?_⟩, by simp [readResult]⟩
      · show (y.s.hw.rx ++ [f]).map _ = _
        rw [List.map_append, fifo]; rfl
      · intro z hz
        simp only [List.mem_append, List.mem_singleton] at hz
        rcases hz with hz | rfl
        · exact small z hz
        · exact he
    · have hc' : ¬ (x.on = true ∧ x.fifo.length < 3) := by
        intro h
        rw [Bool.and_eq_true, isTrue_bit 4 (by omega), decide_eq_true_eq] at hc
        exact hc ⟨on.trans h.1, by omega⟩
      simp only [hc, inAct, Spec.Usart.Inbox.step, if_neg hc']
      exact ⟨y, rfl, ⟨rel, size, fifo, on, ie, wf, small⟩, by simp [readResult]⟩
  | isr =>
    unfold InSys.step
    by_cases hc : (isTrue 7 y.s.hw.ucsrb && rxComplete y.s.hw) = true
    · simp only [hc, if_true]
      rw [Bool.and_eq_true, complete_iff, isTrue_bit 7 (by omega), ie] at hc
      cases hx : y.s.hw.rx with
      | nil => rw [hx] at hc; simp at hc
      | cons f r =>
        have hf : f.data < 512 := small f (by rw [hx]; simp)
        obtain ⟨a, b, c⟩ := flags y.s.hw f r hx
        have g : (getResult y.s.hw = .success) ↔ Frame.good f = true := by
          unfold getResult Frame.good
          rw [a, b, c]
          cases f.fe <;> cases f.dor <;> cases f.upe <;> decide
        have rd := c57_read y.s.hw f r hx hf
        have wf' : Wf { y.s.hw with rx := r } := by
          rcases wf with h | h
          · exact Or.inl h
          · rw [hx] at h; cases h
        have hxf : x.fifo = (f.data % 256, Frame.good f) :: r.map (fun f => (f.data % 256, Frame.good f)) := by rw [← fifo, hx]; rfl
        have hs' : ∀ z ∈ r, z.data < 512 := fun z hz => small z (by rw [hx]; simp [hz])
        have ht : (if y.s.hw.ucsrb.getLsbD 2 = true then f.data else f.data % 256) % 256 = f.data % 256 := by split <;> omega
        unfold InStream.isr
        simp only [rd, ht, g, inAct, Spec.Usart.Inbox.step, hc.1, hxf]
        by_cases hg : Frame.good f = true
        · simp only [hg, if_true, true_and]
          by_cases hfull : x.queue.length + 1 = y.s.buf.size
          · have hnot : ¬ x.queue.length < n - 1 := by omega
            rw [RingBuffer.write_full rel _ hfull, if_neg hnot]
            exact ⟨_, rfl, ⟨rel, size, rfl, on, ie.trans hc.1, wf', hs'⟩, by simp [readResult]⟩
          · obtain ⟨b, hb, hrel, hsz⟩ := RingBuffer.write_room rel (f.data % 256) (by have := rel.hq; omega)
            have hroom : x.queue.length < n - 1 := by have := rel.hq; omega
            rw [hb, if_pos hroom]
            exact ⟨_, rfl, ⟨hrel, hsz.trans size, rfl, on, ie.trans hc.1, wf', hs'⟩, by simp [readResult]⟩
        · simp only [hg, Bool.false_eq_true, false_and, if_false]
          exact ⟨_, rfl, ⟨rel, size, rfl, on, ie.trans hc.1, wf', hs'⟩, by simp [readResult]⟩
    · have hst : x.step (n - 1) .interrupt = x := by
        simp only [Spec.Usart.Inbox.step]
        split
        · next v g r h1 h2 =>
          exfalso
          refine hc ?_
          rw [Bool.and_eq_true, complete_iff, isTrue_bit 7 (by omega), ie, h1]
          refine ⟨rfl, ?_⟩
          rw [h2] at fifo
          cases hx : y.s.hw.rx with
          | nil => rw [hx] at fifo; cases fifo
          | cons _ _ => simp
        · rfl
      simp only [hc, inAct, hst]
      exact ⟨y, rfl, ⟨rel, size, fifo, on, ie, wf, small⟩, by simp [readResult]⟩
  | read =>
    unfold InSys.step InStream.read
    rw [RingBuffer.getLength_rel rel (by omega)]
    cases hq : x.queue with
    | nil =>
      obtain ⟨e1, e2, e3, e4, e5⟩ := bitB_effect 7 (by omega) (by omega) true y.s.hw wf
      rw [hq] at rel
      simp only [inAct, Spec.Usart.Inbox.step, hq]
      refine ⟨{ y with s := { y.s with hw := rxSetInterrupt true y.s.hw } }, rfl, ⟨rel, size, ?_, ?_, ?_, bitB_wf 7 (by omega) (by omega) true _ wf, ?_⟩, ?_⟩
      · show (y.s.hw.bitB 7 true).rx.map _ = _
        rw [e2]; exact fifo
      · show (y.s.hw.bitB 7 true).ucsrb.getLsbD 4 = _
        rw [e1 4 (by omega), if_neg (by omega)]; exact on
      · show (y.s.hw.bitB 7 true).ucsrb.getLsbD 7 = _
        rw [e1 7 (by omega), if_pos rfl]
      · show ∀ f ∈ (y.s.hw.bitB 7 true).rx, _
        rw [e2]; exact small
      · simp [readResult, InStream.read, RingBuffer.getLength_rel rel (by omega)]
    | cons v q' =>
      rw [hq] at rel
      obtain ⟨b, hb, hrel, hsz⟩ := RingBuffer.read_rel rel
      have hne : ¬ ((v : Int) = -1) := by omega
      have hpos : (v :: q').length > 0 := by simp
      simp only [if_pos hpos, hb, Res.bind_ok, if_neg hne, Int.toNat_natCast, inAct, Spec.Usart.Inbox.step, hq]
      exact ⟨_, rfl, ⟨hrel, hsz.trans size, fifo, on, ie, wf, small⟩, by simp [readResult, InStream.read, RingBuffer.getLength_rel rel (by omega), hb]⟩

/-- **C76.** Exactly: in every history every Read returns what the specification says (the oldest byte kept, or -1), the stream holds the bytes the specification holds, and the
    receive interrupt is on exactly if it was on at the start or a Read has found nothing. A byte is dropped only if its frame has an error or all but one
    of the slots are taken. -/
theorem c76_exact (g : List Nat) (b : BitVec 8) (hg : 0 < g.length) (hn : g.length < 65536) (es : List InEv) (hes : ∀ e ∈ es, InEv.ok e) :
    ∃ y x, (inInit g b).run es = .ok y ∧ x = Spec.Usart.Inbox.run (g.length - 1) { on := b.getLsbD 4, ie := b.getLsbD 7 } (es.map inAct) ∧
      readResults (inInit g b) es = x.returned ∧ y.returned.map (fun (v : Nat) => (v : Int)) = x.returned.filter (· ≠ -1) ∧
      RingBuffer.getLength y.s.buf = x.queue.length ∧ y.s.hw.rx.map (fun f => (f.data % 256, Frame.good f)) = x.fifo ∧
      y.s.hw.ucsrb.getLsbD 7 = x.ie := by
  have key : ∀ es (_ : ∀ e ∈ es, InEv.ok e) (y : InSys) (x : Spec.Usart.Inbox), InBoxed g.length y x → y.returned.map (fun (v : Nat) => (v : Int)) = x.returned.filter (· ≠ -1) →
      ∃ y', y.run es = .ok y' ∧ InBoxed g.length y' (x.run (g.length - 1) (es.map inAct)) ∧
        x.returned ++ readResults y es = (x.run (g.length - 1) (es.map inAct)).returned ∧
        y'.returned.map (fun (v : Nat) => (v : Int)) = (x.run (g.length - 1) (es.map inAct)).returned.filter (· ≠ -1) := by
    intro es
    induction es with
    | nil => intro _ y x h hr; exact ⟨y, rfl, h, by simp [readResults, Spec.Usart.Inbox.run], hr⟩
    | cons e es ih =>
      intro hes y x h hr
      obtain ⟨y1, s1, i1, r1⟩ := inBoxed_step hn h e (hes e (by simp))
      have hr1 : y1.returned.map (fun (v : Nat) => (v : Int)) = (x.step (g.length - 1) (inAct e)).returned.filter (· ≠ -1) := by
        rw [r1, List.filter_append, ← hr]
        cases e with
        | read =>
          unfold InSys.step at s1
          cases hrd : y.s.read with
          | ub => rw [hrd] at s1; cases s1
          | ok p =>
            obtain ⟨s', r⟩ := p
            rw [hrd] at s1
            simp only [Res.bind_ok] at s1
            injection s1 with s1
            rw [← s1]
            have hr0 : r = -1 ∨ 0 ≤ r := by
              unfold InStream.read at hrd
              split at hrd
              · cases hb : RingBuffer.read y.s.buf with
                | ub => rw [hb] at hrd; cases hrd
                | ok p => rw [hb] at hrd; simp only [Res.bind_ok, Res.ok.injEq, Prod.mk.injEq] at hrd; omega
              · simp only [Res.ok.injEq, Prod.mk.injEq] at hrd; omega
            by_cases hm : r = -1
            · simp [hm, readResult, hrd]
            · have : ((r.toNat : Nat) : Int) = r := by omega
              simp [hm, this, readResult, hrd]
        | arrive f =>
          unfold InSys.step at s1
          injection s1 with s1
          rw [← s1]
          split <;> simp [readResult]
        | isr =>
          simp only [InSys.step] at s1
          split at s1
          · simp only [bind, Res.bind] at s1
            split at s1
            · injection s1 with s1; rw [← s1]; simp [readResult]
            · cases s1
          · injection s1 with s1; rw [← s1]; simp [readResult]
      obtain ⟨y2, s2, i2, r2, r3⟩ := ih (fun e he => hes e (by simp [he])) y1 _ i1 hr1
      refine ⟨y2, by unfold InSys.run; rw [s1]; exact s2, i2, ?_, r3⟩
      unfold readResults
      rw [s1]
      rw [← List.append_assoc, ← r1]
      exact r2
  obtain ⟨y, h1, h2, h3, h4⟩ := key es hes (inInit g b) { on := b.getLsbD 4, ie := b.getLsbD 7 } ⟨RingBuffer.rel_mk g hg, rfl, rfl, rfl, rfl, Or.inr rfl, by simp [inInit]⟩ rfl
  exact ⟨y, _, h1, rfl, by simpa using h3, h4, RingBuffer.getLength_rel h2.rel (by rw [h2.size]; exact hn), h2.fifo, h2.ie⟩

/-- A buffer of three slots, four good frames and a bad one: the third good byte is dropped, the fourth has room again. -/
example : readResults (inInit [9, 9, 9] 0x10#8) [.read, .arrive ⟨1, false, false, false⟩, .isr, .arrive ⟨2, true, false, false⟩, .isr, .arrive ⟨3, false, false, false⟩, .isr,
    .arrive ⟨4, false, false, false⟩, .isr, .read, .arrive ⟨5, false, false, false⟩, .isr, .read, .read, .read] = [-1, 1, 3, 5, -1] := by decide +kernel

/-- **C76.** Reading an empty stream returns -1 and switches the receive interrupt on, changing no other control bit and keeping the received frames. -/
theorem c76_readEmpty (s : InStream) (hw : Wf s.hw) (h0 : RingBuffer.getLength s.buf = 0) :
    ∃ s', s.read = .ok (s', -1) ∧ s'.buf = s.buf ∧ s'.hw.rx = s.hw.rx ∧
      ∀ j, j ≠ 1 → s'.hw.ucsrb.getLsbD j = if j = 7 then true else s.hw.ucsrb.getLsbD j := by
  obtain ⟨e1, e2, _⟩ := bitB_effect 7 (by omega) (by omega) true s.hw hw
  unfold InStream.read
  rw [h0]
  exact ⟨_, rfl, rfl, e2, e1⟩

/-- A good and a damaged frame; the first Read only enables the interrupt. -/
example : ∃ y, (inInit [0, 0, 0] 0x10#8).run [.read, .arrive ⟨65, false, false, false⟩, .arrive ⟨66, true, false, false⟩, .isr, .isr, .read] = .ok y ∧
    y.returned = [65] ∧ goodBytes y.kept = [65] := ⟨_, rfl, by decide +kernel, by decide +kernel⟩

end Atl.Props
