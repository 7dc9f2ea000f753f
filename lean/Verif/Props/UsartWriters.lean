import Verif.Model.UsartWriters
import Verif.Props.UsartStream
import Verif.Props.CriticalSectionUse
import Verif.Proof.RingBufferIsr

/-! C152: one USART output stream, written by main code and by interrupt handlers. -/
namespace Atl.Props
open Atl.Usart Atl.UsartWriters

namespace UsartMany

/-! ### Specification -/

/-- The bytes the buffer took, in the order in which the writes were completed. -/
def taken (l : List (Bool × Nat × Bool)) : List Nat := l.filterMap fun c => if c.2.2 then some c.2.1 else none

/-- The bytes on the line, in the shift register and in the data register. -/
def sent (h : Hw) : List Nat := h.line ++ h.shift.toList ++ h.tx.toList

/-- Main code is not between the overrun test and the store of the write pointer; or it loads the pointer again, is directly behind the test, and there is room for two. -/
def Between (keep : Bool) (y : St) : Prop :=
  match y.pc with
  | .checked _ _ => keep = false ∧ RingBuffer.getLength y.s.buf + 2 < y.s.buf.size
  | .stored _ _ => False
  | _ => True

/-- Handlers other than the stream's own write only then. -/
def Calm (keep : Bool) : St → List Ev → Prop
  | _, [] => True
  | y, e :: es => (∀ v, e = .handler v → Between keep y) ∧ ∀ y', step keep y e = .ok y' → Calm keep y' es

/-- What the claim says of a history: nothing undefined; what was sent and what waits are the bytes taken, in order; with bytes waiting the interrupt is on when main code is outside of `Write`; of the
    control register only UDRIE (5), TXB8 (0) and the read-only RXB8 (1) may change. -/
def InOrder (keep : Bool) (g : List Nat) (b : BitVec 8) (es : List Ev) : Prop :=
  ∃ y rest, run keep (St.init g b) es = .ok y ∧ sent y.s.hw ++ rest = taken y.log ∧ RingBuffer.getLength y.s.buf = rest.length ∧
    (y.pc = .idle → rest ≠ [] → y.s.hw.ucsrb.getLsbD 5 = true) ∧ ∀ j, j ≠ 0 → j ≠ 1 → j ≠ 5 → y.s.hw.ucsrb.getLsbD j = b.getLsbD j

/-- `n` times: the interrupt if it is pending, then a frame ends. -/
def rounds : Nat → List Ev
  | 0 => []
  | n + 1 => .isr :: .frame :: rounds n

/-- A call of main code from its start to its end, without interruption. -/
def alone (v : BitVec 8) : List Ev := .write v :: List.replicate 6 .main

/-- Main code calls `Write` only outside of it. -/
def OneAtATime (keep : Bool) : St → List Ev → Prop
  | _, [] => True
  | y, e :: es => (∀ v, e = .write v → y.pc = .idle) ∧ ∀ y', step keep y e = .ok y' → OneAtATime keep y' es

/-- The bytes main code (`true`) or handlers ask for in a history. -/
def asked (m : Bool) (es : List Ev) : List Nat := es.filterMap fun | .write v => if m then some v.toNat else none | .handler v => if m then none else some v.toNat | _ => none

/-- Those whose writes have been completed. -/
def doneBy (m : Bool) (l : List (Bool × Nat × Bool)) : List Nat := (l.filter fun c => c.1 == m).map fun c => c.2.1

/-- The byte main code is about to write. -/
def pending (y : St) : List Nat :=
  match y.pc with
  | .checked v _ | .stored v _ => [v]
  | _ => []

/-! ### Proofs -/

theorem done_snoc (l : List (Bool × Nat × Bool)) (m k r : Bool) (v : Nat) : doneBy m (l ++ [(k, v, r)]) = if k = m then doneBy m l ++ [v] else doneBy m l := by
  unfold doneBy
  rw [List.filter_append, List.map_append]
  cases k <;> cases m <;> simp

theorem calls_step {keep : Bool} {y y' : St} {e : Ev} (h : step keep y e = .ok y') (hw : ∀ v, e = .write v → y.pc = .idle) :
    doneBy false y'.log = doneBy false y.log ++ asked false [e] ∧ doneBy true y'.log ++ pending y' = doneBy true y.log ++ pending y ++ asked true [e] := by
  cases e with
  | write v =>
    have hp := hw v rfl
    simp only [step, hp, if_true, Res.ok.injEq] at h
    subst h
    unfold begin
    split
    · simp [done_snoc, asked, pending, hp]
    · simp [asked, pending, hp]
  | main =>
    simp only [step, mainStep] at h
    cases hp : y.pc with
    | checked v p =>
      rw [hp] at h
      cases h1 : cSet y.s.buf.buf (pointer keep p y.s.buf.w) v with
      | ub => simp only [h1] at h; cases h
      | ok c => simp only [h1, Res.bind_ok, Res.ok.injEq] at h; subst h; simp [asked, pending, hp]
    | stored v p => simp only [hp, Res.ok.injEq] at h; subst h; simp [done_snoc, asked, pending, hp]
    | _ => simp only [hp, Res.ok.injEq] at h; subst h; simp [asked, pending, hp]
  | isr =>
    simp only [step] at h
    split at h
    · cases h1 : y.s.isr with
      | ub => rw [h1] at h; cases h
      | ok c => rw [h1] at h; simp only [Res.bind_ok, Res.ok.injEq] at h; subst h; simp [asked, pending]
    · simp only [Res.ok.injEq] at h; subst h; simp [asked]
  | frame => simp only [step, Res.ok.injEq] at h; subst h; simp [asked, pending]
  | load => simp only [step, Res.ok.injEq] at h; subst h; simp [asked, pending]
  | handler v =>
    simp only [step] at h
    cases h1 : y.s.writeBuffer v.toNat with
    | ub => rw [h1] at h; cases h
    | ok c => rw [h1] at h; simp only [Res.bind_ok, Res.ok.injEq] at h; subst h; simp [done_snoc, asked, pending]

theorem taken_snoc (l : List (Bool × Nat × Bool)) (m r : Bool) (v : Nat) : taken (l ++ [(m, v, r)]) = if r then taken l ++ [v] else taken l := by
  unfold taken
  rw [List.filterMap_append]
  cases r <;> simp

/-- The place in `Write` as the single-writer model has it. -/
def phase : Pc → Phase
  | .idle => .idle
  | .loaded1 v => .loaded1 v
  | .cleared => .cleared
  | .loaded2 v => .loaded2 v
  | _ => .buffered

/-- Seen as in the single-writer model. -/
def view (y : St) : OutSys := ⟨y.s, phase y.pc, taken y.log⟩

/-- What main code relies on in the ring buffer. -/
def Holds (keep : Bool) (y : St) (q : List Nat) : Prop :=
  match y.pc with
  | .checked v p => v < 256 ∧ q.length + 1 < y.s.buf.size ∧ (keep = true → p = y.s.buf.w)
  | .stored v p => v < 256 ∧ q.length + 1 < y.s.buf.size ∧ (keep = true → p = y.s.buf.w) ∧ y.s.buf.buf[y.s.buf.w]? = some v
  | _ => True

structure Inv (keep : Bool) (n : Nat) (b0 : BitVec 8) (y : St) (q : List Nat) : Prop where
  o : OInv n b0 (view y) q
  h : Holds keep y q

theorem holds_mono {keep : Bool} {y y' : St} {q q' : List Nat} (h : Holds keep y q) (hp : y'.pc = y.pc) (hs : y'.s.buf.size = y.s.buf.size) (hw : y'.s.buf.w = y.s.buf.w)
    (hb : y'.s.buf.buf = y.s.buf.buf) (hq : q'.length ≤ q.length) : Holds keep y' q' := by
  unfold Holds at *
  rw [hp, hs, hw, hb]
  cases hc : y.pc with
  | checked v p => rw [hc] at h; exact ⟨h.1, Nat.lt_of_le_of_lt (by omega) h.2.1, h.2.2⟩
  | stored v p => rw [hc] at h; exact ⟨h.1, Nat.lt_of_le_of_lt (by omega) h.2.1, h.2.2⟩
  | _ => trivial

theorem isr_keeps {s s' : OutStream} (h : s.isr = .ok s') : s'.buf.size = s.buf.size ∧ s'.buf.w = s.buf.w ∧ s'.buf.buf = s.buf.buf := by
  unfold OutStream.isr at h
  split at h
  · unfold RingBuffer.read at h
    cases h1 : cGet s.buf.buf s.buf.r with
    | ub => rw [h1] at h; cases h
    | ok v => rw [h1] at h; simp only [Res.bind_ok, Res.ok.injEq] at h; subst h; exact ⟨rfl, rfl, rfl⟩
  · simp only [Res.ok.injEq] at h; subst h; exact ⟨rfl, rfl, rfl⟩

theorem room_write {s : RingBuffer.RB Nat} {q : List Nat} (h : RingBuffer.Rel s q) (v : Nat) (hf : q.length + 1 < s.size) :
    RingBuffer.write s v = .ok ({ s with buf := s.buf.set s.w v, w := RingBuffer.wrap s.size (s.w + 1) }, true) ∧
      RingBuffer.Rel { s with buf := s.buf.set s.w v, w := RingBuffer.wrap s.size (s.w + 1) } (q ++ [v]) := by
  have h4 := h.hw_lt; have h0 := h.hlen
  have hfull : RingBuffer.isFull s = false := by rw [RingBuffer.isFull_rel h]; simp; omega
  have e : RingBuffer.write s v = .ok ({ s with buf := s.buf.set s.w v, w := RingBuffer.wrap s.size (s.w + 1) }, true) := by
    unfold RingBuffer.write
    rw [hfull, cSet_ok v (by omega)]
    rfl
  obtain ⟨s', h1, h2, _⟩ := RingBuffer.write_room h v hf
  rw [e] at h1
  simp only [Res.ok.injEq, Prod.mk.injEq, and_true] at h1
  exact ⟨e, h1 ▸ h2⟩

theorem step_ok {keep : Bool} {n : Nat} (hn : n < 65536) {b0 : BitVec 8} {y : St} {q : List Nat} (h : Inv keep n b0 y q) (e : Ev) (hc : ∀ v, e = .handler v → Between keep y) :
    ∃ y' q', step keep y e = .ok y' ∧ Inv keep n b0 y' q' := by
  obtain ⟨⟨rel, size, bytes, order, wf, on, bits, held1, held2⟩, hh⟩ := h
  have hread : SameBits y.s.hw.readB b0 := fun j h0 h1 h5 => (readB_bit _ j h1).trans (bits j h0 h1 h5)
  change RingBuffer.Rel y.s.buf q at rel
  have hlen := rel.hlen; have hq := rel.hq; have hwl := rel.hw_lt
  change y.s.buf.buf.length = y.s.buf.size at hlen
  change q.length < y.s.buf.size at hq
  change y.s.buf.w < y.s.buf.size at hwl
  cases e with
  | write v =>
    unfold step
    by_cases hp : y.pc = .idle
    · simp only [hp, if_true]
      unfold begin
      rw [RingBuffer.isFull_rel rel]
      by_cases hf : q.length + 1 = y.s.buf.size
      · refine ⟨_, q, rfl, ?_⟩
        rw [if_pos (by exact decide_eq_true hf)]
        refine ⟨⟨rel, size, bytes, ?_, wf, by simp [view, phase], bits, by simp [view, phase], by simp [view, phase]⟩, trivial⟩
        show _ = taken (y.log ++ [(true, v.toNat, false)])
        rw [taken_snoc]; exact order
      · refine ⟨_, q, rfl, ?_⟩
        rw [if_neg (by intro h; exact hf (of_decide_eq_true h))]
        exact ⟨⟨rel, size, bytes, order, wf, by simp [view, phase], bits, by simp [view, phase], by simp [view, phase]⟩, v.isLt, by show q.length + 1 < y.s.buf.size; omega, fun _ => rfl⟩
    · simp only [hp, if_false]
      exact ⟨y, q, rfl, ⟨rel, size, bytes, order, wf, on, bits, held1, held2⟩, hh⟩
  | main =>
    unfold step mainStep
    cases hp : y.pc with
    | idle => exact ⟨y, q, rfl, ⟨rel, size, bytes, order, wf, on, bits, held1, held2⟩, hh⟩
    | checked v p =>
      unfold Holds at hh
      rw [hp] at hh
      obtain ⟨hv, hr, hk⟩ := hh
      have hpt : pointer keep p y.s.buf.w = y.s.buf.w := by
        unfold pointer; cases keep with
        | true => exact hk rfl
        | false => rfl
      simp only [hpt, cSet_ok v (show y.s.buf.w < y.s.buf.buf.length by omega), Res.bind_ok]
      refine ⟨_, q, rfl, ⟨RingBuffer.rel_store rel v hr, size, bytes, order, wf, by simp [view, phase], bits, by simp [view, phase], by simp [view, phase]⟩, hv, hr, hk, ?_⟩
      show (y.s.buf.buf.set y.s.buf.w v)[y.s.buf.w]? = some v
      rw [List.getElem?_set]; simp; omega
    | stored v p =>
      unfold Holds at hh
      rw [hp] at hh
      obtain ⟨hv, hr, hk, hb⟩ := hh
      have hpt : pointer keep p y.s.buf.w = y.s.buf.w := by
        unfold pointer; cases keep with
        | true => exact hk rfl
        | false => rfl
      simp only [hpt]
      refine ⟨_, q ++ [v], rfl, ⟨RingBuffer.rel_commit rel v hr hb, size, ?_, ?_, wf, by simp [view, phase], bits, by simp [view, phase], by simp [view, phase]⟩, trivial⟩
      · intro x hx
        simp only [List.mem_append, List.mem_singleton] at hx
        rcases hx with hx | rfl
        · exact bytes x hx
        · exact hv
      · show y.s.hw.line ++ y.s.hw.shift.toList ++ y.s.hw.tx.toList ++ (q ++ [v]) = taken (y.log ++ [(true, v, true)])
        rw [taken_snoc, if_pos rfl, ← List.append_assoc]
        exact congrArg (· ++ [v]) order
    | buffered =>
      refine ⟨_, q, rfl, ⟨rel, size, bytes, order, wf, by simp [view, phase], bits, ?_, by simp [view, phase]⟩, trivial⟩
      intro v hv; injection hv with hv; rw [← hv]; exact hread
    | cleared =>
      refine ⟨_, q, rfl, ⟨rel, size, bytes, order, wf, by simp [view, phase], bits, by simp [view, phase], ?_⟩, trivial⟩
      intro v hv; injection hv with hv; rw [← hv]; exact hread
    | loaded1 v =>
      have hs : SameBits (clearBit 5 v) b0 := fun j h0 h1 h5 => by rw [bit_clear 5 (by omega), if_neg h5]; exact held1 v (by simp [view, phase, hp]) j h0 h1 h5
      exact ⟨_, q, rfl, ⟨rel, size, bytes, order, wf_store _ b0 _ wf bits hs, by simp [view, phase], hs, by simp [view, phase], by simp [view, phase]⟩, trivial⟩
    | loaded2 v =>
      have hs : SameBits (setBit 5 v) b0 := fun j h0 h1 h5 => by rw [bit_set 5 (by omega), if_neg h5]; exact held2 v (by simp [view, phase, hp]) j h0 h1 h5
      refine ⟨_, q, rfl, ⟨rel, size, bytes, order, wf_store _ b0 _ wf bits hs, fun _ => Or.inl ?_, hs, by simp [view, phase], by simp [view, phase]⟩, trivial⟩
      show (setBit 5 v).getLsbD 5 = true
      rw [bit_set 5 (by omega), if_pos rfl]
  | isr =>
    unfold step
    by_cases hx : (isTrue 5 y.s.hw.ucsrb && getAcceptData y.s.hw) = true
    · simp only [hx, if_true]
      have ht : y.s.hw.tx = none := by
        rw [Bool.and_eq_true, accept_iff] at hx
        simpa using hx.2
      obtain ⟨s, hs, h1 | h1⟩ := isr_inv hn (y := view y) ⟨rel, size, bytes, order, wf, on, bits, held1, held2⟩ ht
      · obtain ⟨v, q', rfl, hi, _⟩ := h1
        obtain ⟨k1, k2, k3⟩ := isr_keeps hs
        exact ⟨{ y with s := s }, q', by rw [show y.s.isr = .ok s from hs]; rfl, hi, holds_mono hh rfl k1 k2 k3 (by simp)⟩
      · obtain ⟨k1, k2, k3⟩ := isr_keeps hs
        exact ⟨{ y with s := s }, [], by rw [show y.s.isr = .ok s from hs]; rfl, h1.2.1, holds_mono hh rfl k1 k2 k3 (by simp)⟩
    · simp only [hx]
      exact ⟨y, q, rfl, ⟨rel, size, bytes, order, wf, on, bits, held1, held2⟩, hh⟩
  | frame =>
    refine ⟨_, q, rfl, ⟨rel, size, bytes, ?_, wf, on, bits, held1, held2⟩, holds_mono hh rfl rfl rfl rfl (Nat.le_refl _)⟩
    show (y.s.hw.line ++ y.s.hw.shift.toList) ++ y.s.hw.tx.toList ++ [] ++ q = taken y.log
    rw [← show _ = taken y.log from order]; simp [view]
  | load =>
    unfold step Hw.load
    by_cases hs : y.s.hw.shift = none
    · simp only [hs, if_true]
      refine ⟨_, q, rfl, ⟨rel, size, bytes, ?_, wf, on, bits, held1, held2⟩, holds_mono hh rfl rfl rfl rfl (Nat.le_refl _)⟩
      show y.s.hw.line ++ y.s.hw.tx.toList ++ [] ++ q = taken y.log
      rw [← show _ = taken y.log from order]; simp [view, hs]
    · simp only [hs, if_false]
      exact ⟨y, q, rfl, ⟨rel, size, bytes, order, wf, on, bits, held1, held2⟩, hh⟩
  | handler v =>
    have hb := hc v rfl
    obtain ⟨e1, e2, e3, e4, e5⟩ := bitB_effect 5 (by omega) (by omega) true y.s.hw wf
    have ew := bitB_wf 5 (by omega) (by omega) true _ wf
    have eb : SameBits (y.s.hw.bitB 5 true).ucsrb b0 := by
      intro j h0 h1 h5
      rw [e1 j h1, if_neg h5]; exact bits j h0 h1 h5
    have eon : (y.s.hw.bitB 5 true).ucsrb.getLsbD 5 = true := by rw [e1 5 (by omega), if_pos rfl]
    have eo : (y.s.hw.bitB 5 true).line ++ (y.s.hw.bitB 5 true).shift.toList ++ (y.s.hw.bitB 5 true).tx.toList ++ q = taken y.log := by
      rw [e3, e4, e5]; exact order
    simp only [step, OutStream.writeBuffer]
    by_cases hf : q.length + 1 = y.s.buf.size
    · rw [RingBuffer.write_full rel _ hf]
      refine ⟨_, q, rfl, ⟨rel, size, bytes, ?_, ew, fun _ => Or.inl eon, eb, held1, held2⟩, holds_mono hh rfl rfl rfl rfl (Nat.le_refl _)⟩
      show _ = taken (y.log ++ [(false, v.toNat, false)])
      rw [taken_snoc]; exact eo
    · obtain ⟨hw, hrel⟩ := room_write rel v.toNat (show q.length + 1 < y.s.buf.size by omega)
      rw [show RingBuffer.write y.s.buf v.toNat = _ from hw]
      refine ⟨_, q ++ [v.toNat], rfl, ⟨hrel, size, ?_, ?_, ew, fun _ => Or.inl eon, eb, held1, held2⟩, ?_⟩
      · intro x hx
        simp only [List.mem_append, List.mem_singleton] at hx
        rcases hx with hx | rfl
        · exact bytes x hx
        · exact v.isLt
      · show (y.s.hw.bitB 5 true).line ++ (y.s.hw.bitB 5 true).shift.toList ++ (y.s.hw.bitB 5 true).tx.toList ++ (q ++ [v.toNat]) = taken (y.log ++ [(false, v.toNat, true)])
        rw [taken_snoc, if_pos rfl, ← List.append_assoc, eo]
      · unfold Between at hb
        unfold Holds at hh ⊢
        cases hp : y.pc with
        | checked x p =>
          rw [hp] at hb hh
          have hl := RingBuffer.getLength_rel rel (by rw [show y.s.buf.size = n from size]; exact hn)
          change RingBuffer.getLength y.s.buf = q.length at hl
          obtain ⟨hb1, hb2⟩ := hb
          rw [hl] at hb2
          exact ⟨hh.1, by show (q ++ [v.toNat]).length + 1 < y.s.buf.size; rw [List.length_append, List.length_singleton]; omega, fun h => by rw [hb1] at h; cases h⟩
        | stored x p => rw [hp] at hb; exact hb.elim
        | _ => trivial

theorem run_ok {keep : Bool} {n : Nat} (hn : n < 65536) {b0 : BitVec 8} (es : List Ev) : ∀ {y : St} {q : List Nat}, Inv keep n b0 y q → Calm keep y es →
    ∃ y' q', run keep y es = .ok y' ∧ Inv keep n b0 y' q' := by
  induction es with
  | nil => intro y q h _; exact ⟨y, q, rfl, h⟩
  | cons e es ih =>
    intro y q h hc
    obtain ⟨y1, q1, h1, i1⟩ := step_ok hn h e hc.1
    obtain ⟨y2, q2, h2, i2⟩ := ih i1 (hc.2 y1 h1)
    exact ⟨y2, q2, by unfold run; rw [h1]; exact h2, i2⟩

theorem init_ok (keep : Bool) (g : List Nat) (b : BitVec 8) (hg : 0 < g.length) : Inv keep g.length b (St.init g b) [] :=
  ⟨outInit_inv g b hg, trivial⟩

theorem of_inv {keep : Bool} {n : Nat} {b : BitVec 8} {y : St} {q : List Nat} (hn : n < 65536) (h : Inv keep n b y q) : sent y.s.hw ++ q = taken y.log ∧ RingBuffer.getLength y.s.buf = q.length ∧
    (y.pc = .idle → q ≠ [] → y.s.hw.ucsrb.getLsbD 5 = true) ∧ ∀ j, j ≠ 0 → j ≠ 1 → j ≠ 5 → y.s.hw.ucsrb.getLsbD j = b.getLsbD j := by
  refine ⟨h.o.order, RingBuffer.getLength_rel h.o.rel (by rw [show y.s.buf.size = n from h.o.size]; exact hn), fun hp hq => ?_, h.o.bits⟩
  rcases h.o.on (by show phase y.pc = _; rw [hp]; rfl) with h | h
  · exact h
  · exact absurd h hq

/-- The state a calm history leads to. -/
theorem reach {keep : Bool} {g : List Nat} {b : BitVec 8} (hg : 0 < g.length) (hn : g.length < 65536) {es : List Ev} (hc : Calm keep (St.init g b) es) {y : St} (hr : run keep (St.init g b) es = .ok y) :
    ∃ q, Inv keep g.length b y q := by
  obtain ⟨y', q, h1, h2⟩ := run_ok hn es (init_ok keep g b hg) hc
  rw [hr] at h1
  injection h1 with h1
  exact ⟨q, h1 ▸ h2⟩

theorem rounds_view (keep : Bool) (n : Nat) : ∀ (y : St) (z : OutSys), (view y).run (sendRounds n) = .ok z → ∃ y', run keep y (rounds n) = .ok y' ∧ y'.s = z.s ∧ y'.log = y.log ∧ y'.pc = y.pc := by
  induction n with
  | zero =>
    intro y z h
    simp only [sendRounds, OutSys.run, Res.ok.injEq] at h
    exact ⟨y, rfl, by rw [← h]; rfl, rfl, rfl⟩
  | succ n ih =>
    intro y z h
    simp only [sendRounds, OutSys.run, OutSys.step] at h
    simp only [rounds, run, step]
    by_cases hx : (isTrue 5 y.s.hw.ucsrb && getAcceptData y.s.hw) = true
    · rw [if_pos (show (isTrue 5 (view y).s.hw.ucsrb && getAcceptData (view y).s.hw) = true from hx)] at h
      rw [if_pos hx]
      cases hi : y.s.isr with
      | ub => rw [show (view y).s.isr = .ub from hi] at h; cases h
      | ok s =>
        rw [show (view y).s.isr = .ok s from hi] at h
        simp only [Res.bind_ok] at h ⊢
        exact ih { y with s := { s with hw := s.hw.frameTime } } z h
    · rw [if_neg (show ¬ (isTrue 5 (view y).s.hw.ucsrb && getAcceptData (view y).s.hw) = true from hx)] at h
      rw [if_neg hx]
      simp only [Res.bind_ok] at h ⊢
      exact ih { y with s := { y.s with hw := y.s.hw.frameTime } } z h

end UsartMany

open UsartMany Sections

/-! ### Theorems -/

/-- **C152, partial.** Handlers write to the stream only while main code is not in the middle of the ring buffer's `Write` (they may write in the middle of its change of the control register, and the
    stream's own handler may run anywhere): nothing undefined; the bytes go out in the order in which the writes were completed, none lost or doubled; with bytes waiting the interrupt is on; no other
    control bit changes. -/
theorem c152_order_partial (keep : Bool) (g : List Nat) (b : BitVec 8) (hg : 0 < g.length) (hn : g.length < 65536) (es : List Ev) (hc : Calm keep (St.init g b) es) : InOrder keep g b es := by
  obtain ⟨y, q, h1, h2⟩ := run_ok hn es (init_ok keep g b hg) hc
  exact ⟨y, q, h1, of_inv hn h2⟩

/-- **C152, partial.** None stays behind: once main code is outside of `Write` and the stream's interrupt has been served often enough, exactly the bytes taken are on the line. -/
theorem c152_drain_partial (keep : Bool) (g : List Nat) (b : BitVec 8) (hg : 0 < g.length) (hn : g.length < 65536) (es : List Ev) (hc : Calm keep (St.init g b) es) (y : St)
    (hr : run keep (St.init g b) es = .ok y) (hp : y.pc = .idle) (n : Nat) (hl : (taken y.log).length + 1 ≤ n) :
    ∃ y', run keep y (rounds n) = .ok y' ∧ y'.s.hw.line = taken y.log ∧ RingBuffer.getLength y'.s.buf = 0 ∧ y'.log = y.log := by
  obtain ⟨q, h2⟩ := reach hg hn hc hr
  have hpen : pend q y.s.hw.tx y.s.hw.shift ≤ n := by
    have := congrArg List.length h2.o.order
    simp only [List.length_append] at this
    unfold pend
    change _ = (taken y.log).length at this
    simp only [view] at this
    omega
  obtain ⟨z, h3, h4, h5⟩ := drain_inv hn n (view y) q h2.o (by show phase y.pc = _; rw [hp]; rfl) hpen
  obtain ⟨y', r1, r2, r3, _⟩ := rounds_view keep n y z h3
  exact ⟨y', r1, by rw [r2, h4]; rfl, by rw [r2, h5], r3⟩

/-- **C152.** In any history the completed writes are those asked for, of handlers and of main code each in their order; of main code the last may be outstanding. -/
theorem c152_calls (keep : Bool) (es : List Ev) : ∀ (y y' : St), OneAtATime keep y es → run keep y es = .ok y' →
    doneBy false y'.log = doneBy false y.log ++ asked false es ∧ doneBy true y'.log ++ pending y' = doneBy true y.log ++ pending y ++ asked true es := by
  induction es with
  | nil => intro y y' _ h; injection h with h; subst h; simp [asked]
  | cons e es ih =>
    intro y y' ho h
    unfold run at h
    cases h1 : step keep y e with
    | ub => rw [h1] at h; cases h
    | ok y1 =>
      rw [h1] at h
      obtain ⟨a1, a2⟩ := calls_step h1 ho.1
      obtain ⟨b1, b2⟩ := ih y1 y' (ho.2 y1 h1) h
      have ha : ∀ m, asked m (e :: es) = asked m [e] ++ asked m es := fun m => by
        show asked m ([e] ++ es) = _
        unfold asked
        rw [List.filterMap_append]
      rw [b1, b2, a1, a2, ha, ha]
      simp only [List.append_assoc, and_self]

/-- **C152, partial.** A handler's byte is taken exactly if the buffer has room; the interrupt is on afterwards. -/
theorem c152_handler_partial (keep : Bool) (g : List Nat) (b : BitVec 8) (hg : 0 < g.length) (hn : g.length < 65536) (es : List Ev) (hc : Calm keep (St.init g b) es) (y : St)
    (hr : run keep (St.init g b) es = .ok y) (v : BitVec 8) : ∃ y', step keep y (.handler v) = .ok y' ∧
      y'.log = y.log ++ [(false, v.toNat, decide (RingBuffer.getLength y.s.buf + 1 < g.length))] ∧ y'.s.hw.ucsrb.getLsbD 5 = true ∧ y'.pc = y.pc := by
  obtain ⟨q, h2⟩ := reach hg hn hc hr
  have hl : RingBuffer.getLength y.s.buf = q.length := (of_inv hn h2).2.1
  have hs : y.s.buf.size = g.length := h2.o.size
  have hq : q.length < y.s.buf.size := h2.o.rel.hq
  obtain ⟨e1, _⟩ := bitB_effect 5 (by omega) (by omega) true y.s.hw h2.o.wf
  have eon : (y.s.hw.bitB 5 true).ucsrb.getLsbD 5 = true := by rw [e1 5 (by omega), if_pos rfl]
  rw [hl]
  simp only [step, OutStream.writeBuffer]
  by_cases hf : q.length + 1 = y.s.buf.size
  · rw [show RingBuffer.write y.s.buf v.toNat = _ from RingBuffer.write_full h2.o.rel _ hf]
    exact ⟨_, rfl, by rw [decide_eq_false (by omega)], eon, rfl⟩
  · rw [show RingBuffer.write y.s.buf v.toNat = _ from (room_write h2.o.rel v.toNat (show q.length + 1 < y.s.buf.size by omega)).1]
    exact ⟨_, rfl, by rw [decide_eq_true (by omega)], eon, rfl⟩

/-- **C152.** With interrupts off (calls of main code without anything in between) just as many bytes are taken as the buffer has room for; the others are lost without a sign: `Write` returns
    nothing. -/
theorem c152_room (keep : Bool) (g : List Nat) (b : BitVec 8) (hg : 0 < g.length) (hn : g.length < 65536) (es : List Ev) (hc : Calm keep (St.init g b) es) (y : St)
    (hr : run keep (St.init g b) es = .ok y) (hp : y.pc = .idle) (vs : List (BitVec 8)) :
    ∃ y', run keep y (vs.flatMap alone) = .ok y' ∧ y'.pc = .idle ∧ taken y'.log = taken y.log ++ (vs.map BitVec.toNat).take (g.length - 1 - RingBuffer.getLength y.s.buf) := by
  obtain ⟨q, h2⟩ := reach hg hn hc hr
  clear hc hr
  induction vs generalizing y q with
  | nil => exact ⟨y, rfl, hp, by simp⟩
  | cons v vs ih =>
    have hl : RingBuffer.getLength y.s.buf = q.length := (of_inv hn h2).2.1
    have hs : y.s.buf.size = g.length := h2.o.size
    have hq : q.length < y.s.buf.size := h2.o.rel.hq
    have calm : ∀ (l : List Ev), (∀ e ∈ l, ∀ v, e ≠ .handler v) → ∀ z : St, Calm keep z l := by
      intro l
      induction l with
      | nil => intros; trivial
      | cons e l ih => intro hl z; exact ⟨fun v he => absurd he (hl e (by simp) v), fun z' _ => ih (fun e he => hl e (by simp [he])) z'⟩
    obtain ⟨y1, q1, r1, i1⟩ := run_ok hn (alone v) h2 (calm _ (by intro e he v; simp [alone] at he; rcases he with rfl | rfl <;> simp) y)
    have app : ∀ (l r : List Ev) (z z' : St), run keep z l = .ok z' → run keep z (l ++ r) = run keep z' r := by
      intro l
      induction l with
      | nil => intro r z z' hz; injection hz with hz; rw [hz]; rfl
      | cons a l iha =>
        intro r z z' hz
        unfold run at hz
        show (do let z ← step keep z a; run keep z (l ++ r)) = _
        cases hs : step keep z a with
        | ub => rw [hs] at hz; cases hz
        | ok w => rw [hs] at hz; exact iha r w z' hz
    have key : y1.pc = .idle ∧ y1.s.hw.line = y.s.hw.line ∧ y1.s.hw.shift = y.s.hw.shift ∧ y1.s.hw.tx = y.s.hw.tx ∧
        taken y1.log = if q.length + 1 < g.length then taken y.log ++ [v.toNat] else taken y.log := by
      by_cases hf : q.length + 1 = y.s.buf.size
      · have hfull : RingBuffer.isFull y.s.buf = true := (RingBuffer.isFull_rel h2.o.rel).trans (decide_eq_true hf)
        have hb : begin y v.toNat = { y with pc := .buffered, log := y.log ++ [(true, v.toNat, false)] } := by unfold begin; rw [if_pos hfull]
        simp only [alone, List.replicate, run, step, hp, if_true, hb, Res.bind_ok, mainStep, Res.ok.injEq] at r1
        subst r1
        refine ⟨rfl, rfl, rfl, rfl, ?_⟩
        rw [if_neg (by omega)]
        show taken (y.log ++ [(true, v.toNat, false)]) = _
        rw [taken_snoc]; rfl
      · have hfull : RingBuffer.isFull y.s.buf = false := (RingBuffer.isFull_rel h2.o.rel).trans (decide_eq_false hf)
        have hb : begin y v.toNat = { y with pc := .checked v.toNat y.s.buf.w } := by unfold begin; rw [if_neg (by simp [hfull])]
        have hw : y.s.buf.w < y.s.buf.buf.length := by have := h2.o.rel.hw_lt; have := h2.o.rel.hlen; simp only [view] at *; omega
        have hpt : pointer keep y.s.buf.w y.s.buf.w = y.s.buf.w := by unfold pointer; split <;> rfl
        simp only [alone, List.replicate, run, step, hp, if_true, hb, Res.bind_ok, mainStep, hpt, cSet_ok v.toNat hw, Res.ok.injEq] at r1
        subst r1
        refine ⟨rfl, rfl, rfl, rfl, ?_⟩
        rw [if_pos (by omega)]
        show taken (y.log ++ [(true, v.toNat, true)]) = _
        rw [taken_snoc]; rfl
    obtain ⟨k0, k1, k2, k3, k4⟩ := key
    have hq1 : sent y1.s.hw ++ q1 = taken y1.log := (of_inv hn i1).1
    have hq0 : sent y.s.hw ++ q = taken y.log := (of_inv hn h2).1
    have hse : sent y1.s.hw = sent y.s.hw := by unfold sent; rw [k1, k2, k3]
    obtain ⟨y2, r2, p2, a2⟩ := ih y1 k0 q1 i1
    refine ⟨y2, ?_, p2, ?_⟩
    · rw [List.flatMap_cons, app _ _ _ _ r1]; exact r2
    · have hl1 : RingBuffer.getLength y1.s.buf = q1.length := (of_inv hn i1).2.1
      rw [a2, k4, hl, hl1]
      rw [hse] at hq1
      have hcount := congrArg List.length hq1
      have hcount0 := congrArg List.length hq0
      rw [k4] at hcount
      simp only [List.length_append] at hcount hcount0
      by_cases hf : q.length + 1 < g.length
      · rw [if_pos hf] at hcount ⊢
        simp only [List.length_append, List.length_singleton] at hcount
        have e : g.length - 1 - q.length = (g.length - 1 - q1.length) + 1 := by omega
        rw [e, List.map_cons, List.take_succ_cons, List.append_assoc]; rfl
      · rw [if_neg hf] at hcount ⊢
        have e : g.length - 1 - q.length = 0 := by omega
        have e1 : g.length - 1 - q1.length = 0 := by omega
        rw [e, e1]; rfl

/-- **C152 fails**, always: if the code keeps the write pointer in a register from the overrun test on, any byte a handler writes behind the test, whatever came before, costs a byte: two are taken, the
    buffer has one more. -/
theorem c152_kept_fails (g : List Nat) (b : BitVec 8) (hg : 0 < g.length) (hn : g.length < 65536) (es : List Ev) (hc : Calm true (St.init g b) es) (y : St)
    (hr : run true (St.init g b) es = .ok y) (v p : Nat) (hp : y.pc = .checked v p) (x : BitVec 8) :
    ∃ y', run true y [.handler x, .main, .main] = .ok y' ∧ taken y'.log = taken y.log ++ [x.toNat, v] ∧ RingBuffer.getLength y'.s.buf = RingBuffer.getLength y.s.buf + 1 ∧
      sent y'.s.hw = sent y.s.hw := by
  obtain ⟨q, h2⟩ := reach hg hn hc hr
  have hl : RingBuffer.getLength y.s.buf = q.length := (of_inv hn h2).2.1
  have hs : y.s.buf.size = g.length := h2.o.size
  have hh := h2.h
  unfold Holds at hh
  rw [hp] at hh
  obtain ⟨hv, hroom, hk⟩ := hh
  have hpw := hk rfl
  have hw := h2.o.rel.hw_lt; have hlen := h2.o.rel.hlen
  simp only [view] at hw hlen
  obtain ⟨e1, e2, e3, e4, e5⟩ := bitB_effect 5 (by omega) (by omega) true y.s.hw h2.o.wf
  have hrl : RingBuffer.Rel y.s.buf q := h2.o.rel
  simp only [run, step, OutStream.writeBuffer, (room_write hrl x.toNat hroom).1, Res.bind_ok, mainStep, hp, OutStream.enable, pointer, if_true, hpw,
    cSet_ok v (show y.s.buf.w < (y.s.buf.buf.set y.s.buf.w x.toNat).length by rw [List.length_set]; omega)]
  have hrel := (room_write hrl v hroom).2
  refine ⟨_, rfl, ?_, ?_, ?_⟩
  · show taken (y.log ++ [(false, x.toNat, true)] ++ [(true, v, true)]) = _
    rw [taken_snoc, taken_snoc]; simp
  · rw [hl]
    have := RingBuffer.getLength_rel hrel (by show y.s.buf.size < 65536; omega)
    rw [List.length_append] at this
    rw [List.set_set]
    exact this
  · show (y.s.hw.bitB 5 true).line ++ (y.s.hw.bitB 5 true).shift.toList ++ (y.s.hw.bitB 5 true).tx.toList = _
    rw [e3, e4, e5]; rfl

/-- **C152 fails**: a byte is lost. The code has kept the pointer; 66 is written by a handler behind the overrun test of main code's 65. -/
theorem c152_lost_fails : ∃ y, run true (St.init [0, 0, 0, 0] 0x08#8) ([.write 65#8, .handler 66#8, .main, .main, .main, .main, .main, .main] ++ rounds 4) = .ok y ∧
    y.pc = .idle ∧ taken y.log = [66, 65] ∧ y.s.hw.line = [65] ∧ RingBuffer.getLength y.s.buf = 0 :=
  ⟨_, rfl, by decide +kernel, by decide +kernel, by decide +kernel, by decide +kernel⟩

/-- **C152 fails**: a byte nobody has written is sent. The code loads the pointer again; the handler's byte comes behind the store of main code's: it replaces it, and the place behind is sent as it
    is. -/
theorem c152_garbage_fails (x : Fin 256) : ∃ y, run false (St.init [0, x, 0, 0] 0x08#8) ([.write 65#8, .main, .handler 66#8, .main, .main, .main, .main, .main] ++ rounds 4) = .ok y ∧
    y.pc = .idle ∧ taken y.log = [66, 65] ∧ y.s.hw.line = [66, x.val] := by
  have h : ∀ x : Fin 256, okB (fun y => decide (y.pc = .idle ∧ taken y.log = [66, 65] ∧ y.s.hw.line = [66, x.val]))
    (run false (St.init [0, x, 0, 0] 0x08#8) ([.write 65#8, .main, .handler 66#8, .main, .main, .main, .main, .main] ++ rounds 4)) = true := by decide +kernel
  obtain ⟨y, h1, h2⟩ := of_okB (h x)
  exact ⟨y, h1, of_decide_eq_true h2⟩

/-- **C152 fails**: the whole content is lost. One place is free when main code tests, the handler takes it, main code writes past it: the buffer looks empty. -/
theorem c152_overrun_fails : ∃ y, run false (St.init [0, 0, 0] 0x08#8) ([.write 64#8, .main, .main, .main, .main, .main, .main, .write 65#8, .handler 66#8, .main, .main, .main, .main, .main, .main] ++ rounds 4) = .ok y ∧
    y.pc = .idle ∧ taken y.log = [64, 66, 65] ∧ y.s.hw.line = [] :=
  ⟨_, rfl, by decide +kernel, by decide +kernel, by decide +kernel⟩

/-- **C152**: so not for all histories, whichever way the code is compiled. -/
theorem c152_full_claim_is_false (keep : Bool) : ¬ ∀ (g : List Nat) (b : BitVec 8) (es : List Ev), 0 < g.length → g.length < 65536 → InOrder keep g b es := by
  intro h
  cases keep with
  | true =>
    obtain ⟨y, rest, h1, h2, h3, _⟩ := h [0, 0, 0, 0] 0x08#8 _ (by decide) (by decide)
    obtain ⟨y', e1, _, e2, e3, e4⟩ := c152_lost_fails
    rw [e1] at h1
    injection h1 with h1
    subst h1
    rw [e4] at h3
    have hr : rest = [] := List.length_eq_zero_iff.1 h3.symm
    rw [hr, e2] at h2
    have e5 : sent y'.s.hw = [65] := by
      have h := of_okB (p := fun y => decide (sent y.s.hw = [65])) (r := run true (St.init [0, 0, 0, 0] 0x08#8) ([.write 65#8, .handler 66#8, .main, .main, .main, .main, .main, .main] ++ rounds 4)) (by decide +kernel)
      obtain ⟨z, z1, z2⟩ := h
      rw [e1] at z1
      injection z1 with z1
      rw [z1]; exact of_decide_eq_true z2
    rw [e5] at h2
    simp at h2
  | false =>
    have hb : okB (fun y => decide (sent y.s.hw = [66, 7] ∧ taken y.log = [66, 65])) (run false (St.init [0, 7, 0, 0] 0x08#8) ([.write 65#8, .main, .handler 66#8, .main, .main, .main, .main, .main] ++ rounds 4)) = true := by
      decide +kernel
    obtain ⟨z, z1, z2⟩ := of_okB hb
    replace z2 := of_decide_eq_true z2
    obtain ⟨y, rest, h1, h2, _⟩ := h [0, 7, 0, 0] 0x08#8 _ (by decide) (by decide)
    rw [z1] at h1
    injection h1 with h1
    subst h1
    rw [z2.1, z2.2] at h2
    simp at h2

/-! ### In sections -/

namespace UsartMany

/-- The stream as a shared object; the hardware goes on sending at any time (AVR/UsartOutputStream.h 64-86). -/
abbrev stream (keep : Bool) : CriticalSection.Machine where
  St := UsartWriters.St
  Ev := UsartWriters.Ev
  step := UsartWriters.step keep
  kind := fun | .write _ => .enter | .main | .frame | .load => .within | .isr | .handler _ => .handler
  idle := fun y => y.pc = .idle
  proper := fun _ => True

theorem lawful_stream (keep : Bool) : Lawful (stream keep) := by
  intro (y : UsartWriters.St) (e : UsartWriters.Ev) (y' : UsartWriters.St) (hi : y.pc = .idle) hk (h : UsartWriters.step keep y e = .ok y')
  change y'.pc = .idle
  cases e with
  | write => exact absurd rfl hk
  | main => simp only [UsartWriters.step, mainStep, hi, Res.ok.injEq] at h; exact h ▸ hi
  | frame => simp only [UsartWriters.step, Res.ok.injEq] at h; subst h; exact hi
  | load => simp only [UsartWriters.step, Res.ok.injEq] at h; subst h; exact hi
  | isr =>
    simp only [UsartWriters.step] at h
    split at h
    · cases h1 : y.s.isr with
      | ub => rw [h1] at h; cases h
      | ok s => rw [h1] at h; simp only [Res.bind_ok, Res.ok.injEq] at h; subst h; exact hi
    · simp only [Res.ok.injEq] at h; exact h ▸ hi
  | handler v =>
    simp only [UsartWriters.step] at h
    cases h1 : y.s.writeBuffer v.toNat with
    | ub => rw [h1] at h; cases h
    | ok c => rw [h1] at h; simp only [Res.bind_ok, Res.ok.injEq] at h; subst h; exact hi

theorem run_stream (keep : Bool) (es : List UsartWriters.Ev) (y : UsartWriters.St) : (stream keep).run y es = UsartWriters.run keep y es :=
  run_is (M := stream keep) (R := UsartWriters.run keep) (fun _ => rfl) (fun _ _ _ => rfl) es y

end UsartMany

/-- **C152.** Main code that writes to the stream only with interrupts off: handlers may write whenever they run, and everything said above holds. -/
theorem c152_sections (keep : Bool) (g : List Nat) (b : BitVec 8) (hg : 0 < g.length) (hn : g.length < 65536) (on : Bool) (es : List (CriticalSection.Ev UsartWriters.Ev))
    (hs : Sectioned (stream keep) (CriticalSection.Board.init _ (St.init g b) on) es) :
    ∃ d, CriticalSection.run (stream keep) (CriticalSection.Board.init _ (St.init g b) on) es = .ok d ∧ UsartWriters.run keep (St.init g b) d.trace = .ok d.obj ∧
      Calm keep (St.init g b) d.trace ∧ InOrder keep g b d.trace := by
  have hc : ∀ tr, Clean (stream keep) (St.init g b) tr → Calm keep (St.init g b) tr := fun tr h =>
    clean_imp (M := stream keep) (Q := Calm keep) (fun _ => trivial) (fun y e es _ hk h => ⟨(by
      intro v he
      subst he
      unfold Between
      rw [show y.pc = .idle from hk (by intro h; cases h)]
      trivial), h⟩) tr _ h
  obtain ⟨d, hd⟩ := c151_defined _ (lawful_stream keep) _ on (fun _ => by rfl) es hs fun tr ht => by
    obtain ⟨y, _, h1, _⟩ := c152_order_partial keep g b hg hn tr (hc tr ht)
    exact ⟨y, (run_stream keep tr _).trans h1⟩
  obtain ⟨h1, h2⟩ := c151_apart _ (lawful_stream keep) _ on (fun _ => by rfl) es hs d hd
  replace h2 := (run_stream ..).symm.trans h2
  exact ⟨d, hd, h2, hc _ h1, c152_order_partial keep g b hg hn _ (hc _ h1)⟩

/-! ### Examples -/

namespace UsartMany

instance decCalm (keep : Bool) : (es : List Ev) → (y : St) → Decidable (Calm keep y es)
  | [], _ => isTrue trivial
  | e :: es, y =>
    have d1 : Decidable (∀ v, e = .handler v → Between keep y) :=
      match e with
      | .handler v =>
        have : Decidable (Between keep y) := by unfold Between; split <;> infer_instance
        decidable_of_iff (Between keep y) ⟨fun h _ _ => h, fun h => h v rfl⟩
      | .write _ => isTrue fun _ h => by cases h
      | .main => isTrue fun _ h => by cases h
      | .isr => isTrue fun _ h => by cases h
      | .frame => isTrue fun _ h => by cases h
      | .load => isTrue fun _ h => by cases h
    have d2 : Decidable (∀ y', step keep y e = .ok y' → Calm keep y' es) :=
      match h : step keep y e with
      | .ub => isTrue fun _ h' => by cases h'
      | .ok y1 =>
        have := decCalm keep es y1
        decidable_of_iff (Calm keep y1 es) ⟨fun h1 _ h2 => by injection h2 with h2; exact h2 ▸ h1, fun h1 => h1 y1 rfl⟩
    instDecidableAnd

/-- A handler writes directly behind main code's overrun test with room for two, and in the middle of its change of the control register. -/
def sample : List Ev := [.write 65#8, .handler 66#8, .main, .main, .main, .handler 67#8, .isr, .main, .main, .main]

end UsartMany

example := c152_order_partial false [0, 0, 0, 0] 0x08#8 (by decide) (by decide) sample (by decide +kernel)
example := c152_drain_partial false [0, 0, 0, 0] 0x08#8 (by decide) (by decide) sample (by decide +kernel) _ rfl rfl 4 (by decide +kernel)
example := c152_calls false sample (St.init [0, 0, 0, 0] 0x08#8) _ (by simp [OneAtATime, sample, St.init, step, mainStep, begin, RingBuffer.isFull, RingBuffer.mk]) rfl
example : okB (fun y => decide (doneBy false y.log = [66, 67] ∧ doneBy true y.log = [65])) (run false (St.init [0, 0, 0, 0] 0x08#8) sample) = true := by decide +kernel
example := c152_handler_partial false [0, 0, 0, 0] 0x08#8 (by decide) (by decide) sample (by decide +kernel) _ rfl 68#8
example := c152_room false [0, 0, 0, 0] 0x08#8 (by decide) (by decide) sample (by decide +kernel) _ rfl rfl [70#8, 71#8, 72#8]
example := c152_kept_fails [0, 0, 0, 0] 0x08#8 (by decide) (by decide) [.handler 64#8, .isr, .write 65#8] (by decide +kernel) _ rfl _ _ rfl 66#8
example : okB (fun y => decide (y.s.hw.line = [66, 65, 67] ∧ taken y.log = [66, 65, 67])) (run false (St.init [0, 0, 0, 0] 0x08#8) (sample ++ rounds 4)) = true := by decide +kernel
/-- Three bytes with interrupts off: a buffer of four places takes those it has room for. -/
example : okB (fun y => decide (taken y.log = [66, 65, 67, 70])) (run false (St.init [0, 0, 0, 0] 0x08#8) (sample ++ [70#8, 71#8, 72#8].flatMap alone)) = true := by decide +kernel

/-- Main code in sections, both handlers. -/
def usartSections : List (CriticalSection.Ev UsartWriters.Ev) :=
  [.off, .main (.write 65#8), .request 0, .main .main, .main .main, .main .main, .main .main, .main .main, .main .main, .on, .other, .serve 0 [.handler 66#8], .other, .request 1, .serve 1 [.isr],
    .main .frame, .main .load]

example := c152_sections true [0, 0, 0] 0x08#8 (by decide) (by decide) true usartSections (by decide +kernel)
example : okB (fun d => decide (taken d.obj.log = [65, 66] ∧ sent d.obj.s.hw = [65]))
    (CriticalSection.run (stream true) (CriticalSection.Board.init _ (St.init [0, 0, 0] 0x08#8) true) usartSections) = true := by decide +kernel

end Atl.Props
