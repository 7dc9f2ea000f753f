import Verif.Model.UsartShared
import Verif.Props.UsartWriters
import Verif.Props.UsartReaders
import Verif.Props.CriticalSectionUse

/-! C155: both streams of one USART, used by main code and by interrupt handlers. -/
namespace Atl.Props
open Atl.Usart Atl.UsartShared

namespace UsartBoth
open UsartMany (taken sent doneBy done_snoc)
open UsartReading (readsDone)
open UsartReading (returned returned_snoc returned_byte)

/-! ### Specification -/

/-- An event at a moment harmless to main code: a handler's `Write` not in the middle of the ring buffer's `Write` (or directly behind the test, the pointer loaded again and room for two), and not while
    main code's `Read` is about to store a copy of the control register without the transmit interrupt; a handler's `Read` likewise. Frames have up to nine bits. -/
def Harmless (keep : Bool) (y : St) : Ev → Prop
  | .hWrite _ => match y.pc with
    | .checked _ _ => keep = false ∧ RingBuffer.getLength y.out + 2 < y.out.size
    | .stored _ _ => False
    | .rEnable (.loaded1 v) | .rEnable (.loaded2 v) => v.getLsbD 5 = true
    | _ => True
  | .hRead => match y.pc with
    | .counted _ => keep = false ∧ 2 ≤ RingBuffer.getLength y.inn
    | .got _ _ => False
    | .wEnable (.loaded1 v) | .wEnable (.loaded2 v) => v.getLsbD 7 = true ∨ 0 < RingBuffer.getLength y.inn
    | _ => True
  | .arrive f => f.data < 512
  | _ => True

/-- All events of a history are. -/
def Calm (keep : Bool) : St → List Ev → Prop
  | _, [] => True
  | y, e :: es => Harmless keep y e ∧ ∀ y', step keep y e = .ok y' → Calm keep y' es

/-- Somebody was told that there is nothing to read. -/
def Told (y : St) : Prop := ∃ m, (m, -1) ∈ y.rlog

/-- What the claim says of a history: nothing undefined; what was sent and what waits are the bytes taken, in order; what was read and what waits is in order from the good frames, all of them while the
    buffer has room; outside of calls the transmit interrupt is on if bytes wait and the receive interrupt if somebody was told that there is nothing; of the control register only these two (5, 7), TXB8
    (0) and the read-only RXB8 (1) may change. -/
def Right (keep : Bool) (g1 g2 : List Nat) (b : BitVec 8) (es : List Ev) : Prop :=
  ∃ y waiting rest, run keep (St.init g1 g2 b) es = .ok y ∧
    sent y.hw ++ waiting = taken y.wlog ∧ RingBuffer.getLength y.out = waiting.length ∧ (y.pc = .idle → waiting ≠ [] → y.hw.ucsrb.getLsbD 5 = true) ∧
    RingBuffer.getLength y.inn = rest.length ∧ List.Sublist (returned y.rlog ++ rest) (goodBytes y.kept) ∧
    (y.kept.length < g2.length → returned y.rlog ++ rest ++ goodBytes y.hw.rx = goodBytes y.kept) ∧ (y.pc = .idle → Told y → y.hw.ucsrb.getLsbD 7 = true) ∧
    ∀ j, j ≠ 0 → j ≠ 1 → j ≠ 5 → j ≠ 7 → y.hw.ucsrb.getLsbD j = b.getLsbD j

/-- Main code is in `Read` with this copy of the control register to be stored, with bit 7 changed. -/
def heldR : Pc → Option (BitVec 8)
  | .rEnable (.loaded1 v) | .rEnable (.loaded2 v) => some v
  | _ => none

/-- Main code is in `Write` with this copy of the control register to be stored, with bit 5 changed. -/
def heldW : Pc → Option (BitVec 8)
  | .wEnable (.loaded1 v) | .wEnable (.loaded2 v) => some v
  | _ => none

/-- Nobody calls `Write`. -/
def noWrite : Ev → Prop
  | .write _ | .hWrite _ => False
  | _ => True

/-- Nobody calls `Read`. -/
def noRead : Ev → Prop
  | .read | .hRead => False
  | _ => True

/-- The start of a call of main code. -/
def starts : Ev → Bool
  | .write _ | .read => true
  | _ => false

/-- Main code makes one call at a time. -/
def OneAtATime (keep : Bool) : St → List Ev → Prop
  | _, [] => True
  | y, e :: es => (starts e = true → y.pc = .idle) ∧ ∀ y', step keep y e = .ok y' → OneAtATime keep y' es

/-- The bytes main code (`true`) or handlers ask to be written in a history. -/
def asksW (m : Bool) (es : List Ev) : List Nat := es.filterMap fun | .write v => if m then some v.toNat else none | .hWrite v => if m then none else some v.toNat | _ => none

/-- How many reads main code (`true`) or handlers ask for in a history. -/
def asksR (m : Bool) (es : List Ev) : Nat := es.countP fun | .read => m | .hRead => !m | _ => false

/-- The byte main code is about to write. -/
def pendingW (y : St) : List Nat :=
  match y.pc with
  | .checked v _ | .stored v _ => [v]
  | _ => []

/-- Main code is in `Read`. -/
def pendingR (y : St) : Nat :=
  match y.pc with
  | .counted _ | .got _ _ | .rEnable _ => 1
  | _ => 0

/-- `n` times: the interrupt if it is pending, then a frame ends. -/
def sending : Nat → List Ev
  | 0 => []
  | n + 1 => .txIsr :: .frame :: sending n

/-! ### Proofs -/

/-- The input stream as in the model of whole calls. -/
def viewI (y : St) : InSys := ⟨⟨y.inn, y.hw⟩, returned y.rlog, y.kept⟩

/-- The control bits to be left alone. -/
def Same4 (a b : BitVec 8) : Prop := ∀ j, j ≠ 0 → j ≠ 1 → j ≠ 5 → j ≠ 7 → a.getLsbD j = b.getLsbD j

/-- Main code is changing the transmit interrupt. -/
def inW : Pc → Prop
  | .wEnable _ => True
  | _ => False

/-- Main code has turned the receive interrupt off. -/
def offR : Pc → Prop
  | .rEnable .cleared | .rEnable (.loaded2 _) => True
  | _ => False

/-- What main code relies on in the buffers. -/
def Holds (keep : Bool) (out inn : RingBuffer.RB Nat) (qo qi : List Nat) : Pc → Prop
  | .checked v p => v < 256 ∧ qo.length + 1 < out.size ∧ (keep = true → p = out.w)
  | .stored v p => v < 256 ∧ qo.length + 1 < out.size ∧ (keep = true → p = out.w) ∧ out.buf[out.w]? = some v
  | .counted p => qi ≠ [] ∧ (keep = true → p = inn.r)
  | .got v p => qi.head? = some v ∧ (keep = true → p = inn.r)
  | _ => True

structure Inv (keep : Bool) (n m : Nat) (b : BitVec 8) (y : St) (qo qi : List Nat) (p : List Frame) : Prop where
  rel : RingBuffer.Rel y.out qo
  size : y.out.size = n
  bytes : ∀ v ∈ qo, v < 256
  order : y.hw.line ++ y.hw.shift.toList ++ y.hw.tx.toList ++ qo = taken y.wlog
  i : IInv m (viewI y) qi p
  bits : Same4 y.hw.ucsrb b
  w : ∀ v, heldW y.pc = some v → Same4 v b ∧ (Told y → v.getLsbD 7 = true)
  r : ∀ v, heldR y.pc = some v → Same4 v b ∧ (qo = [] ∨ v.getLsbD 5 = true)
  on : ¬ inW y.pc → qo = [] ∨ y.hw.ucsrb.getLsbD 5 = true
  told : Told y → y.hw.ucsrb.getLsbD 7 = true ∨ offR y.pc
  buf : Holds keep y.out y.inn qo qi y.pc

theorem iinv_hw {m : Nat} {inn : RingBuffer.RB Nat} {h h' : Hw} {r : List Nat} {k : List Frame} {q : List Nat} {p : List Frame} (i : IInv m ⟨⟨inn, h⟩, r, k⟩ q p) (hr : h'.rx = h.rx) (hw : Wf h') :
    IInv m ⟨⟨inn, h'⟩, r, k⟩ q p := by
  obtain ⟨rel, size, taken, sub, all, wf, small⟩ := i
  exact ⟨rel, size, by show p ++ h'.rx = k; rw [hr]; exact taken, sub, all, hw, small⟩

theorem wf_store4 (h : Hw) (b v : BitVec 8) (hw : Wf h) (h1 : Same4 h.ucsrb b) (h2 : Same4 v b) : Wf (h.writeB v) ∧ (h.writeB v).rx = h.rx := by
  have e : v.getLsbD 4 = h.ucsrb.getLsbD 4 := by rw [h1 4 (by omega) (by omega) (by omega) (by omega), h2 4 (by omega) (by omega) (by omega) (by omega)]
  refine ⟨?_, writeB_rx h hw v e⟩
  unfold Wf
  rw [writeB_rx h hw v e]
  show v.getLsbD 4 = true ∨ _
  rw [e]; exact hw

/-- The receive handler changes nothing but the FIFO in the hardware. -/
theorem rx_hw {s s' : InStream} (h : s.isr = .ok s') : s'.hw.ucsrb = s.hw.ucsrb ∧ s'.hw.tx = s.hw.tx ∧ s'.hw.shift = s.hw.shift ∧ s'.hw.line = s.hw.line := by
  have e : (readInternal s.hw).2.ucsrb = s.hw.ucsrb ∧ (readInternal s.hw).2.tx = s.hw.tx ∧ (readInternal s.hw).2.shift = s.hw.shift ∧ (readInternal s.hw).2.line = s.hw.line := by
    show (s.hw.readUDR.2).ucsrb = _ ∧ (s.hw.readUDR.2).tx = _ ∧ (s.hw.readUDR.2).shift = _ ∧ (s.hw.readUDR.2).line = _
    unfold Hw.readUDR
    split <;> exact ⟨rfl, rfl, rfl, rfl⟩
  unfold InStream.isr at h
  simp only at h
  split at h
  · cases h1 : RingBuffer.write s.buf ((readInternal s.hw).1 % 256) with
    | ub => rw [h1] at h; cases h
    | ok c => rw [h1] at h; simp only [Res.bind_ok, Res.ok.injEq] at h; subst h; exact e
  · simp only [Res.ok.injEq] at h; subst h; exact e

theorem holds_tx {keep : Bool} {out out' inn : RingBuffer.RB Nat} {qo qo' qi : List Nat} {pc : Pc} (h : Holds keep out inn qo qi pc) (hs : out'.size = out.size) (hw : out'.w = out.w) (hb : out'.buf = out.buf)
    (hq : qo'.length ≤ qo.length) : Holds keep out' inn qo' qi pc := by
  unfold Holds at *
  rw [hs, hw, hb]
  cases pc with
  | checked v p => exact ⟨h.1, Nat.lt_of_le_of_lt (by omega) h.2.1, h.2.2⟩
  | stored v p => exact ⟨h.1, Nat.lt_of_le_of_lt (by omega) h.2.1, h.2.2⟩
  | _ => exact h

theorem holds_rx {keep : Bool} {out inn inn' : RingBuffer.RB Nat} {qo qi t : List Nat} {pc : Pc} (h : Holds keep out inn qo qi pc) (hr : inn'.r = inn.r) : Holds keep out inn' qo (qi ++ t) pc := by
  unfold Holds at *
  rw [hr]
  cases pc with
  | counted p => exact ⟨by simp [h.1], h.2⟩
  | got v p => refine ⟨?_, h.2⟩; cases qi with | nil => simp at h | cons x q => simpa using h.1
  | _ => exact h

/-- The transmit handler. -/
theorem tx_ok {keep : Bool} {n m : Nat} (hn : n < 65536) {b : BitVec 8} {y : St} {qo qi : List Nat} {p : List Frame} (h : Inv keep n m b y qo qi p) (ht : y.hw.tx = none) :
    ∃ s qo', OutStream.isr ⟨y.out, y.hw⟩ = .ok s ∧ Inv keep n m b { y with out := s.buf, hw := s.hw } qo' qi p := by
  obtain ⟨rel, size, bytes, order, i, bits, w, r, on, told, buf⟩ := h
  have wf : Wf y.hw := i.wf
  have hl := RingBuffer.getLength_rel rel (by omega)
  unfold OutStream.isr
  rw [hl]
  cases qo with
  | nil =>
    rw [if_neg (by simp)]
    obtain ⟨e1, e2, e3, e4, e5⟩ := bitB_effect 5 (by omega) (by omega) false y.hw wf
    refine ⟨_, [], rfl, rel, size, bytes, ?_, iinv_hw i e2 (bitB_wf 5 (by omega) (by omega) false _ wf), ?_, w, r, fun _ => Or.inl rfl, ?_, buf⟩
    · show (y.hw.bitB 5 false).line ++ (y.hw.bitB 5 false).shift.toList ++ (y.hw.bitB 5 false).tx.toList ++ [] = _
      rw [e3, e4, e5]; exact order
    · intro j h0 h1 h5 h7
      show (y.hw.bitB 5 false).ucsrb.getLsbD j = _
      rw [e1 j h1, if_neg h5]; exact bits j h0 h1 h5 h7
    · intro hm
      show (y.hw.bitB 5 false).ucsrb.getLsbD 7 = true ∨ _
      rw [e1 7 (by omega), if_neg (by omega)]; exact told hm
  | cons v q' =>
    obtain ⟨c, hb, hrel, hsz⟩ := RingBuffer.read_rel rel
    rw [if_pos (by simp), hb]
    simp only [Res.bind_ok]
    obtain ⟨e1, e2, e3, e4, e5, e6⟩ := c57_write v y.hw wf ht
    have hv : v < 256 := bytes v (by simp)
    have e1' : (writeInternal v y.hw).tx = some v := by
      rw [e1]; congr 1; split <;> omega
    have hk : c.w = y.out.w ∧ c.buf = y.out.buf := by
      unfold RingBuffer.read at hb
      cases h1 : cGet y.out.buf y.out.r with
      | ub => rw [h1] at hb; cases hb
      | ok x => rw [h1] at hb; simp only [Res.bind_ok, Res.ok.injEq, Prod.mk.injEq] at hb; rw [← hb.1]; exact ⟨rfl, rfl⟩
    have wf' : Wf (writeInternal v y.hw) := by
      unfold Wf
      rw [e2 4 (by omega) (by omega), e4]; exact wf
    refine ⟨_, q', rfl, hrel, hsz.trans size, fun x hx => bytes x (by simp [hx]), ?_, iinv_hw i e4 wf', ?_, w, ?_, ?_, ?_, holds_tx buf hsz hk.1 hk.2 (by simp)⟩
    · show (writeInternal v y.hw).line ++ (writeInternal v y.hw).shift.toList ++ (writeInternal v y.hw).tx.toList ++ q' = _
      rw [e1', e5, e6, ← show _ = taken y.wlog from order, ht]; simp
    · intro j h0 h1 h5 h7
      show (writeInternal v y.hw).ucsrb.getLsbD j = _
      rw [e2 j h0 h1]; exact bits j h0 h1 h5 h7
    · intro x hx
      exact ⟨(r x hx).1, Or.inr ((r x hx).2.resolve_left (by simp))⟩
    · intro hp
      refine Or.inr ?_
      show (writeInternal v y.hw).ucsrb.getLsbD 5 = true
      rw [e2 5 (by omega) (by omega)]; exact (on hp).resolve_left (by simp)
    · intro hm
      show (writeInternal v y.hw).ucsrb.getLsbD 7 = true ∨ _
      rw [e2 7 (by omega) (by omega)]; exact told hm

theorem main_ok {keep : Bool} {n m : Nat} {b : BitVec 8} {y : St} {qo qi : List Nat} {p : List Frame} (h : Inv keep n m b y qo qi p) :
    ∃ y' qo' qi', mainStep keep y = .ok y' ∧ Inv keep n m b y' qo' qi' p := by
  have h' := h
  obtain ⟨rel, size, bytes, order, i, bits, w, r, on, told, buf⟩ := h
  have wf : Wf y.hw := i.wf
  have reli : RingBuffer.Rel y.inn qi := i.rel
  have hread : Same4 y.hw.readB b := fun j h0 h1 h5 h7 => (readB_bit _ j h1).trans (bits j h0 h1 h5 h7)
  unfold mainStep
  cases hp : y.pc with
  | idle => exact ⟨y, qo, qi, rfl, h'⟩
  | checked v x =>
    rw [hp] at buf
    obtain ⟨hv, hroom, hk⟩ := buf
    have hpt : pointer keep x y.out.w = y.out.w := by
      unfold pointer; cases keep with
      | true => exact hk rfl
      | false => rfl
    have hwl := rel.hw_lt; have hlen := rel.hlen
    simp only [hpt, cSet_ok v (show y.out.w < y.out.buf.length by omega), Res.bind_ok]
    refine ⟨_, qo, qi, rfl, RingBuffer.rel_store rel v hroom, size, bytes, order, i, bits, by simp [heldW], by simp [heldR], fun _ => on (by rw [hp]; exact id), ?_, hv, hroom, hk, ?_⟩
    · intro hm; have := told hm; rw [hp] at this; exact this
    · show (y.out.buf.set y.out.w v)[y.out.w]? = some v
      rw [List.getElem?_set]; simp; omega
  | stored v x =>
    rw [hp] at buf
    obtain ⟨hv, hroom, hk, hb⟩ := buf
    have hpt : pointer keep x y.out.w = y.out.w := by
      unfold pointer; cases keep with
      | true => exact hk rfl
      | false => rfl
    simp only [hpt]
    refine ⟨_, qo ++ [v], qi, rfl, RingBuffer.rel_commit rel v hroom hb, size, ?_, ?_, i, bits, (fun _ hv => nomatch hv), (fun _ hv => nomatch hv), fun hx => absurd trivial hx, ?_, trivial⟩
    · intro z hz
      simp only [List.mem_append, List.mem_singleton] at hz
      rcases hz with hz | rfl
      · exact bytes z hz
      · exact hv
    · show y.hw.line ++ y.hw.shift.toList ++ y.hw.tx.toList ++ (qo ++ [v]) = taken (y.wlog ++ [(true, v, true)])
      rw [UsartMany.taken_snoc, if_pos rfl, ← List.append_assoc]
      exact congrArg (· ++ [v]) order
    · intro hm; have := told hm; rw [hp] at this; exact this
  | wEnable k =>
    have hw : ∀ v, heldW (.wEnable k) = some v → Same4 v b ∧ (Told y → v.getLsbD 7 = true) := fun v hv => w v (by rw [hp]; exact hv)
    have ht : Told y → y.hw.ucsrb.getLsbD 7 = true := fun hm => (told hm).resolve_right (by rw [hp]; exact id)
    cases k with
    | start =>
      exact ⟨_, qo, qi, rfl, rel, size, bytes, order, i, bits, by
        intro v hv; injection hv with hv; subst hv; exact ⟨hread, fun hm => (readB_bit _ 7 (by omega)).trans (ht hm)⟩, (fun _ hv => nomatch hv), fun hx => absurd trivial hx, fun hm => Or.inl (ht hm), trivial⟩
    | cleared =>
      exact ⟨_, qo, qi, rfl, rel, size, bytes, order, i, bits, by
        intro v hv; injection hv with hv; subst hv; exact ⟨hread, fun hm => (readB_bit _ 7 (by omega)).trans (ht hm)⟩, (fun _ hv => nomatch hv), fun hx => absurd trivial hx, fun hm => Or.inl (ht hm), trivial⟩
    | loaded1 v =>
      obtain ⟨hv1, hv2⟩ := hw v rfl
      have hs : Same4 (clearBit 5 v) b := fun j h0 h1 h5 h7 => by rw [bit_clear 5 (by omega), if_neg h5]; exact hv1 j h0 h1 h5 h7
      obtain ⟨w1, w2⟩ := wf_store4 y.hw b _ wf bits hs
      refine ⟨_, qo, qi, rfl, rel, size, bytes, order, iinv_hw i w2 w1, hs, (fun _ hv => nomatch hv), (fun _ hv => nomatch hv), fun hx => absurd trivial hx, fun hm => Or.inl ?_, trivial⟩
      show (clearBit 5 v).getLsbD 7 = true
      rw [bit_clear 5 (by omega), if_neg (by omega)]; exact hv2 hm
    | loaded2 v =>
      obtain ⟨hv1, hv2⟩ := hw v rfl
      have hs : Same4 (setBit 5 v) b := fun j h0 h1 h5 h7 => by rw [bit_set 5 (by omega), if_neg h5]; exact hv1 j h0 h1 h5 h7
      obtain ⟨w1, w2⟩ := wf_store4 y.hw b _ wf bits hs
      refine ⟨_, qo, qi, rfl, rel, size, bytes, order, iinv_hw i w2 w1, hs, (fun _ hv => nomatch hv), (fun _ hv => nomatch hv), fun _ => Or.inr ?_, fun hm => Or.inl ?_, trivial⟩
      · show (setBit 5 v).getLsbD 5 = true
        rw [bit_set 5 (by omega), if_pos rfl]
      · show (setBit 5 v).getLsbD 7 = true
        rw [bit_set 5 (by omega), if_neg (by omega)]; exact hv2 hm
  | counted x =>
    rw [hp] at buf
    have hpt : pointer keep x y.inn.r = y.inn.r := by
      unfold pointer; cases keep with
      | true => exact buf.2 rfl
      | false => rfl
    cases qi with
    | nil => exact absurd rfl buf.1
    | cons v q' =>
      have hv : cGet y.inn.buf y.inn.r = .ok v := by
        have h0 := reli.hget 0 (by simp); have h1 := reli.hr
        simp only [Nat.add_zero, h1, if_true, List.getElem_cons_zero] at h0
        unfold cGet; rw [h0]
      simp only [hpt, hv, Res.bind_ok]
      refine ⟨_, qo, v :: q', rfl, rel, size, bytes, order, i, bits, (fun _ hv => nomatch hv), (fun _ hv => nomatch hv), fun _ => on (by rw [hp]; exact id), ?_, rfl, buf.2⟩
      intro hm; have := told hm; rw [hp] at this; exact this
  | got v x =>
    rw [hp] at buf
    have hpt : pointer keep x y.inn.r = y.inn.r := by
      unfold pointer; cases keep with
      | true => exact buf.2 rfl
      | false => rfl
    cases qi with
    | nil => simp [Holds] at buf
    | cons v' q' =>
      have hv : v' = v := by simpa using buf.1
      subst hv
      simp only [hpt]
      obtain ⟨_, isize, itaken, sub, all, _, small⟩ := i
      refine ⟨_, qo, q', rfl, rel, size, bytes, order, ⟨RingBuffer.rel_drop reli, isize, itaken, ?_, ?_, wf, small⟩, bits, (fun _ hv => nomatch hv), (fun _ hv => nomatch hv), fun _ => on (by rw [hp]; exact id), ?_, trivial⟩
      · show List.Sublist (returned (y.rlog ++ [(true, (v' : Int))]) ++ q') _
        rw [returned_byte, List.append_assoc]; exact sub
      · intro hl
        show returned (y.rlog ++ [(true, (v' : Int))]) ++ q' = _
        rw [returned_byte, List.append_assoc]; exact all hl
      · intro hm
        have : Told y := by
          obtain ⟨m, hm⟩ := hm
          simp only [List.mem_append, List.mem_singleton, Prod.mk.injEq] at hm
          rcases hm with hm | hm
          · exact ⟨m, hm⟩
          · omega
        have := told this; rw [hp] at this; exact this
  | rEnable k =>
    have hr : ∀ v, heldR (.rEnable k) = some v → Same4 v b ∧ (qo = [] ∨ v.getLsbD 5 = true) := fun v hv => r v (by rw [hp]; exact hv)
    have ho : qo = [] ∨ y.hw.ucsrb.getLsbD 5 = true := on (by rw [hp]; exact id)
    cases k with
    | start =>
      refine ⟨_, qo, qi, rfl, rel, size, bytes, order, i, bits, (fun _ hv => nomatch hv), ?_, fun _ => ho, ?_, trivial⟩
      · intro v hv; injection hv with hv; subst hv; exact ⟨hread, ho.imp id fun h => (readB_bit _ 5 (by omega)).trans h⟩
      · intro hm; have := told hm; rw [hp] at this; exact this
    | cleared =>
      refine ⟨_, qo, qi, rfl, rel, size, bytes, order, i, bits, (fun _ hv => nomatch hv), ?_, fun _ => ho, fun _ => Or.inr trivial, trivial⟩
      intro v hv; injection hv with hv; subst hv; exact ⟨hread, ho.imp id fun h => (readB_bit _ 5 (by omega)).trans h⟩
    | loaded1 v =>
      obtain ⟨hv1, hv2⟩ := hr v rfl
      have hs : Same4 (clearBit 7 v) b := fun j h0 h1 h5 h7 => by rw [bit_clear 7 (by omega), if_neg h7]; exact hv1 j h0 h1 h5 h7
      obtain ⟨w1, w2⟩ := wf_store4 y.hw b _ wf bits hs
      refine ⟨_, qo, qi, rfl, rel, size, bytes, order, iinv_hw i w2 w1, hs, (fun _ hv => nomatch hv), (fun _ hv => nomatch hv), fun _ => hv2.imp id fun h => ?_, fun _ => Or.inr trivial, trivial⟩
      show (clearBit 7 v).getLsbD 5 = true
      rw [bit_clear 7 (by omega), if_neg (by omega)]; exact h
    | loaded2 v =>
      obtain ⟨hv1, hv2⟩ := hr v rfl
      have hs : Same4 (setBit 7 v) b := fun j h0 h1 h5 h7 => by rw [bit_set 7 (by omega), if_neg h7]; exact hv1 j h0 h1 h5 h7
      obtain ⟨w1, w2⟩ := wf_store4 y.hw b _ wf bits hs
      have hret : returned (y.rlog ++ [(true, -1)]) = returned y.rlog := by rw [returned_snoc, if_pos rfl]
      refine ⟨_, qo, qi, rfl, rel, size, bytes, order, ?_, hs, (fun _ hv => nomatch hv), (fun _ hv => nomatch hv), fun _ => hv2.imp id fun h => ?_, fun _ => Or.inl ?_, trivial⟩
      · show IInv m ⟨⟨y.inn, y.hw.writeB (setBit 7 v)⟩, returned (y.rlog ++ [(true, -1)]), y.kept⟩ qi p
        rw [hret]; exact iinv_hw i w2 w1
      · show (setBit 7 v).getLsbD 5 = true
        rw [bit_set 7 (by omega), if_neg (by omega)]; exact h
      · show (setBit 7 v).getLsbD 7 = true
        rw [bit_set 7 (by omega), if_pos rfl]

theorem step_ok {keep : Bool} {n m : Nat} (hn : n < 65536) (hm : m < 65536) {b : BitVec 8} {y : St} {qo qi : List Nat} {p : List Frame} (h : Inv keep n m b y qo qi p) (e : Ev) (hc : Harmless keep y e) :
    ∃ y' qo' qi' p', step keep y e = .ok y' ∧ Inv keep n m b y' qo' qi' p' := by
  have h' := h
  obtain ⟨rel, size, bytes, order, i, bits, w, r, on, told, buf⟩ := h
  have wf : Wf y.hw := i.wf
  have reli : RingBuffer.Rel y.inn qi := i.rel
  have sizei : y.inn.size = m := i.size
  cases e with
  | write v =>
    unfold step
    by_cases hp : y.pc = .idle
    · simp only [hp, if_true]
      unfold beginWrite
      rw [RingBuffer.isFull_rel rel]
      have ht : Told y → y.hw.ucsrb.getLsbD 7 = true := fun hm => (told hm).resolve_right (by rw [hp]; exact id)
      by_cases hf : qo.length + 1 = y.out.size
      · refine ⟨_, qo, qi, p, rfl, ?_⟩
        rw [if_pos (by exact decide_eq_true hf)]
        refine ⟨rel, size, bytes, ?_, i, bits, (fun _ hv => nomatch hv), (fun _ hv => nomatch hv), fun hx => absurd trivial hx, fun hm => Or.inl (ht hm), trivial⟩
        show _ = taken (y.wlog ++ [(true, v.toNat, false)])
        rw [UsartMany.taken_snoc]; exact order
      · refine ⟨_, qo, qi, p, rfl, ?_⟩
        rw [if_neg (by intro h; exact hf (of_decide_eq_true h))]
        have hq := rel.hq
        exact ⟨rel, size, bytes, order, i, bits, (fun _ hv => nomatch hv), (fun _ hv => nomatch hv), fun _ => on (by rw [hp]; exact id), fun hm => Or.inl (ht hm), v.isLt, by show qo.length + 1 < y.out.size; omega, fun _ => rfl⟩
    · simp only [hp, if_false]
      exact ⟨y, qo, qi, p, rfl, h'⟩
  | read =>
    unfold step
    by_cases hp : y.pc = .idle
    · simp only [hp, if_true]
      unfold beginRead
      rw [RingBuffer.getLength_rel reli (by omega)]
      have ht : Told y → y.hw.ucsrb.getLsbD 7 = true := fun hm => (told hm).resolve_right (by rw [hp]; exact id)
      by_cases hq : qi.length > 0
      · refine ⟨_, qo, qi, p, rfl, ?_⟩
        rw [if_pos hq]
        exact ⟨rel, size, bytes, order, i, bits, (fun _ hv => nomatch hv), (fun _ hv => nomatch hv), fun _ => on (by rw [hp]; exact id), fun hm => Or.inl (ht hm), List.ne_nil_of_length_pos hq, fun _ => rfl⟩
      · refine ⟨_, qo, qi, p, rfl, ?_⟩
        rw [if_neg hq]
        exact ⟨rel, size, bytes, order, i, bits, (fun _ hv => nomatch hv), (fun _ hv => nomatch hv), fun _ => on (by rw [hp]; exact id), fun hm => Or.inl (ht hm), trivial⟩
    · simp only [hp, if_false]
      exact ⟨y, qo, qi, p, rfl, h'⟩
  | main =>
    obtain ⟨y', qo', qi', h1, h2⟩ := main_ok h'
    exact ⟨y', qo', qi', p, h1, h2⟩
  | txIsr =>
    simp only [step]
    by_cases hx : (isTrue 5 y.hw.ucsrb && getAcceptData y.hw) = true
    · rw [if_pos hx]
      have ht : y.hw.tx = none := by
        rw [Bool.and_eq_true, accept_iff] at hx
        simpa using hx.2
      obtain ⟨s, qo', h1, h2⟩ := tx_ok hn h' ht
      rw [h1]
      exact ⟨_, qo', qi, p, rfl, h2⟩
    · rw [if_neg hx]
      exact ⟨y, qo, qi, p, rfl, h'⟩
  | rxIsr =>
    obtain ⟨z, q', p', h1, h2⟩ := in_step hm i .isr trivial
    simp only [InSys.step] at h1
    simp only [step]
    by_cases hx : (isTrue 7 y.hw.ucsrb && rxComplete y.hw) = true
    · rw [if_pos (show (isTrue 7 (viewI y).s.hw.ucsrb && rxComplete (viewI y).s.hw) = true from hx)] at h1
      rw [if_pos hx]
      cases hs : InStream.isr ⟨y.inn, y.hw⟩ with
      | ub => rw [show (viewI y).s.isr = .ub from hs] at h1; cases h1
      | ok s =>
        rw [show (viewI y).s.isr = .ok s from hs] at h1
        simp only [Res.bind_ok, Res.ok.injEq] at h1
        subst h1
        obtain ⟨⟨t, ht⟩, hr', _⟩ := UsartReading.isr_grows (s := ⟨y.inn, y.hw⟩) reli hs
        obtain ⟨k1, k2, k3, k4⟩ := rx_hw hs
        have e : q' = qi ++ t := Whole.rel_unique h2.rel ht
        subst e
        refine ⟨{ y with inn := s.buf, hw := s.hw }, qo, qi ++ t, p', rfl, rel, size, bytes, ?_, h2, ?_, w, r, ?_, ?_, holds_rx buf hr'⟩
        · show s.hw.line ++ s.hw.shift.toList ++ s.hw.tx.toList ++ qo = _
          rw [k2, k3, k4]; exact order
        · show Same4 s.hw.ucsrb b; rw [k1]; exact bits
        · show _ → qo = [] ∨ s.hw.ucsrb.getLsbD 5 = true; rw [k1]; exact on
        · show _ → s.hw.ucsrb.getLsbD 7 = true ∨ _; rw [k1]; exact told
    · rw [if_neg hx]
      exact ⟨y, qo, qi, p, rfl, h'⟩
  | arrive f =>
    obtain ⟨z, q', p', h1, h2⟩ := in_step hm i (.arrive f) hc
    simp only [InSys.step, Res.ok.injEq] at h1
    simp only [step]
    by_cases hx : (isTrue 4 y.hw.ucsrb && decide (y.hw.rx.length < 3)) = true
    · rw [if_pos (show (isTrue 4 (viewI y).s.hw.ucsrb && decide ((viewI y).s.hw.rx.length < 3)) = true from hx)] at h1
      rw [if_pos hx]
      subst h1
      have e : q' = qi := Whole.rel_unique h2.rel reli
      subst e
      exact ⟨_, qo, q', p', rfl, rel, size, bytes, order, h2, bits, w, r, on, told, buf⟩
    · rw [if_neg hx]
      exact ⟨y, qo, qi, p, rfl, h'⟩
  | frame =>
    refine ⟨_, qo, qi, p, rfl, rel, size, bytes, ?_, iinv_hw i rfl wf, bits, w, r, on, told, buf⟩
    show (y.hw.line ++ y.hw.shift.toList) ++ y.hw.tx.toList ++ [] ++ qo = taken y.wlog
    rw [← order]; simp
  | load =>
    unfold step Hw.load
    by_cases hs : y.hw.shift = none
    · simp only [hs, if_true]
      refine ⟨_, qo, qi, p, rfl, rel, size, bytes, ?_, iinv_hw i rfl wf, bits, w, r, on, told, buf⟩
      show y.hw.line ++ y.hw.tx.toList ++ [] ++ qo = taken y.wlog
      rw [← order]; simp [hs]
    · simp only [hs, if_false]
      exact ⟨y, qo, qi, p, rfl, h'⟩
  | hWrite v =>
    obtain ⟨e1, e2, e3, e4, e5⟩ := bitB_effect 5 (by omega) (by omega) true y.hw wf
    have ew := bitB_wf 5 (by omega) (by omega) true _ wf
    have eb : Same4 (y.hw.bitB 5 true).ucsrb b := by
      intro j h0 h1 h5 h7
      rw [e1 j h1, if_neg h5]; exact bits j h0 h1 h5 h7
    have eon : (y.hw.bitB 5 true).ucsrb.getLsbD 5 = true := by rw [e1 5 (by omega), if_pos rfl]
    have e7 : (y.hw.bitB 5 true).ucsrb.getLsbD 7 = y.hw.ucsrb.getLsbD 7 := by rw [e1 7 (by omega), if_neg (by omega)]
    have eo : (y.hw.bitB 5 true).line ++ (y.hw.bitB 5 true).shift.toList ++ (y.hw.bitB 5 true).tx.toList ++ qo = taken y.wlog := by
      rw [e3, e4, e5]; exact order
    have hr5 : ∀ v, heldR y.pc = some v → v.getLsbD 5 = true := by
      intro x hx
      unfold Harmless at hc
      cases hp : y.pc with
      | rEnable k =>
        rw [hp] at hx hc
        cases k with
        | loaded1 z => injection hx with hx; subst hx; exact hc
        | loaded2 z => injection hx with hx; subst hx; exact hc
        | start => cases hx
        | cleared => cases hx
      | _ => rw [hp] at hx; cases hx
    simp only [step, OutStream.writeBuffer]
    by_cases hf : qo.length + 1 = y.out.size
    · rw [RingBuffer.write_full rel _ hf]
      refine ⟨_, qo, qi, p, rfl, rel, size, bytes, ?_, iinv_hw i e2 ew, eb, w, r, fun _ => Or.inr eon, ?_, buf⟩
      · show (y.hw.bitB 5 true).line ++ (y.hw.bitB 5 true).shift.toList ++ (y.hw.bitB 5 true).tx.toList ++ qo = taken (y.wlog ++ [(false, v.toNat, false)])
        rw [UsartMany.taken_snoc]; exact eo
      · show _ → (y.hw.bitB 5 true).ucsrb.getLsbD 7 = true ∨ _; rw [e7]; exact told
    · have hq := rel.hq
      obtain ⟨hw, hrel⟩ := UsartMany.room_write rel v.toNat (show qo.length + 1 < y.out.size by omega)
      rw [hw]
      refine ⟨_, qo ++ [v.toNat], qi, p, rfl, hrel, size, ?_, ?_, iinv_hw i e2 ew, eb, w, fun x hx => ⟨(r x hx).1, Or.inr (hr5 x hx)⟩, fun _ => Or.inr eon, ?_, ?_⟩
      · intro x hx
        simp only [List.mem_append, List.mem_singleton] at hx
        rcases hx with hx | rfl
        · exact bytes x hx
        · exact v.isLt
      · show (y.hw.bitB 5 true).line ++ (y.hw.bitB 5 true).shift.toList ++ (y.hw.bitB 5 true).tx.toList ++ (qo ++ [v.toNat]) = taken (y.wlog ++ [(false, v.toNat, true)])
        rw [UsartMany.taken_snoc, if_pos rfl, ← List.append_assoc, eo]
      · show _ → (y.hw.bitB 5 true).ucsrb.getLsbD 7 = true ∨ _; rw [e7]; exact told
      · unfold Harmless at hc
        unfold Holds at buf ⊢
        cases hp : y.pc with
        | checked x z =>
          simp only [hp] at hc buf
          have hl := RingBuffer.getLength_rel rel (by omega)
          rw [hl] at hc
          exact ⟨buf.1, by show (qo ++ [v.toNat]).length + 1 < y.out.size; rw [List.length_append, List.length_singleton]; omega, fun h => by rw [hc.1] at h; cases h⟩
        | stored x z => simp only [hp] at hc
        | counted x => simp only [hp] at buf; exact buf
        | got x z => simp only [hp] at buf; exact buf
        | _ => trivial
  | hRead =>
    obtain ⟨z, q', p', h1, h2⟩ := in_step hm i .read trivial
    simp only [InSys.step] at h1
    simp only [step]
    rcases UsartReading.read_cases (s := ⟨y.inn, y.hw⟩) reli (by show y.inn.size < 65536; omega) with ⟨rfl, hrd⟩ | ⟨v, t, rfl, hrd, hrel, _⟩
    · rw [show (viewI y).s.read = _ from hrd] at h1
      rw [hrd]
      simp only [Res.bind_ok, Res.ok.injEq] at h1 ⊢
      subst h1
      have e : q' = [] := Whole.rel_unique h2.rel reli
      subst e
      obtain ⟨e1, e2, e3, e4, e5⟩ := bitB_effect 7 (by omega) (by omega) true y.hw wf
      have e5' : (y.hw.bitB 7 true).ucsrb.getLsbD 5 = y.hw.ucsrb.getLsbD 5 := by rw [e1 5 (by omega), if_neg (by omega)]
      refine ⟨_, qo, [], p', rfl, rel, size, bytes, ?_, ?_, ?_, ?_, r, ?_, fun _ => Or.inl ?_, buf⟩
      · show (y.hw.bitB 7 true).line ++ (y.hw.bitB 7 true).shift.toList ++ (y.hw.bitB 7 true).tx.toList ++ qo = taken y.wlog
        rw [e3, e4, e5]; exact order
      · have hv : viewI { y with hw := y.hw.bitB 7 true, rlog := y.rlog ++ [(false, -1)] } =
            { viewI y with s := ⟨y.inn, y.hw.bitB 7 true⟩, returned := if (-1 : Int) = -1 then (viewI y).returned else (viewI y).returned ++ [(-1 : Int).toNat] } := by
          unfold viewI; rw [returned_snoc]
        exact hv ▸ h2
      · intro j h0 hj1 h5 hj7
        show (y.hw.bitB 7 true).ucsrb.getLsbD j = _
        rw [e1 j hj1, if_neg hj7]; exact bits j h0 hj1 h5 hj7
      · intro x hx
        refine ⟨(w x hx).1, fun _ => ?_⟩
        have hl := RingBuffer.getLength_rel reli (by omega)
        unfold Harmless at hc
        change heldW y.pc = some x at hx
        cases hp : y.pc with
        | wEnable k =>
          rw [hp] at hx hc
          cases k with
          | loaded1 z => injection hx with hx; subst hx; exact hc.resolve_right (by rw [hl]; simp)
          | loaded2 z => injection hx with hx; subst hx; exact hc.resolve_right (by rw [hl]; simp)
          | start => cases hx
          | cleared => cases hx
        | _ => rw [hp] at hx; cases hx
      · show _ → qo = [] ∨ (y.hw.bitB 7 true).ucsrb.getLsbD 5 = true; rw [e5']; exact on
      · show (y.hw.bitB 7 true).ucsrb.getLsbD 7 = true
        rw [e1 7 (by omega), if_pos rfl]
    · rw [show (viewI y).s.read = _ from hrd] at h1
      rw [hrd]
      simp only [Res.bind_ok, Res.ok.injEq] at h1 ⊢
      subst h1
      have e : q' = t := Whole.rel_unique h2.rel hrel
      subst e
      have hto : ∀ s : RingBuffer.RB Nat, Told { y with inn := s, rlog := y.rlog ++ [(false, (v : Int))] } → Told y := by
        intro s ⟨m, hm⟩
        simp only [List.mem_append, List.mem_singleton, Prod.mk.injEq] at hm
        rcases hm with hm | hm
        · exact ⟨m, hm⟩
        · omega
      refine ⟨_, qo, q', p', rfl, rel, size, bytes, order, ?_, bits, fun x hx => ⟨(w x hx).1, fun ht => (w x hx).2 (hto _ ht)⟩, r, on, fun ht => told (hto _ ht), ?_⟩
      · have hv : ∀ s, viewI { y with inn := s, rlog := y.rlog ++ [(false, (v : Int))] } =
            { viewI y with s := ⟨s, y.hw⟩, returned := if (v : Int) = -1 then (viewI y).returned else (viewI y).returned ++ [(v : Int).toNat] } := by
          intro s; unfold viewI; rw [returned_snoc]
        exact hv _ ▸ h2
      · unfold Harmless at hc
        unfold Holds at buf ⊢
        cases hp : y.pc with
        | counted x =>
          simp only [hp] at hc buf
          have hl := RingBuffer.getLength_rel reli (by omega)
          refine ⟨?_, fun hk => by rw [hc.1] at hk; cases hk⟩
          intro hq
          have := hc.2
          rw [hl, hq] at this
          simp at this
        | got x z => simp only [hp] at hc
        | checked x z => simp only [hp] at buf; exact buf
        | stored x z => simp only [hp] at buf; exact buf
        | _ => trivial

theorem run_ok {keep : Bool} {n m : Nat} (hn : n < 65536) (hm : m < 65536) {b : BitVec 8} (es : List Ev) : ∀ {y : St} {qo qi : List Nat} {p : List Frame}, Inv keep n m b y qo qi p → Calm keep y es →
    ∃ y' qo' qi' p', run keep y es = .ok y' ∧ Inv keep n m b y' qo' qi' p' := by
  induction es with
  | nil => intro y qo qi p h _; exact ⟨y, qo, qi, p, rfl, h⟩
  | cons e es ih =>
    intro y qo qi p h hc
    obtain ⟨y1, qo1, qi1, p1, h1, i1⟩ := step_ok hn hm h e hc.1
    obtain ⟨y2, qo2, qi2, p2, h2, i2⟩ := ih i1 (hc.2 y1 h1)
    exact ⟨y2, qo2, qi2, p2, by unfold run; rw [h1]; exact h2, i2⟩

theorem init_ok (keep : Bool) (g1 g2 : List Nat) (b : BitVec 8) (h1 : 0 < g1.length) (h2 : 0 < g2.length) : Inv keep g1.length g2.length b (St.init g1 g2 b) [] [] [] :=
  ⟨RingBuffer.rel_mk g1 h1, rfl, by simp, rfl, ⟨RingBuffer.rel_mk g2 h2, rfl, rfl, by simp [viewI, St.init, returned, goodBytes], fun _ => rfl, Or.inr rfl, by simp [viewI, St.init]⟩, fun _ _ _ _ _ => rfl,
    by simp [St.init, heldW], by simp [St.init, heldR], fun _ => Or.inl rfl, by rintro ⟨m, hm⟩; simp [St.init] at hm, trivial⟩

/-- The state a calm history leads to. -/
theorem reach {keep : Bool} {g1 g2 : List Nat} {b : BitVec 8} (h1 : 0 < g1.length) (n1 : g1.length < 65536) (h2 : 0 < g2.length) (n2 : g2.length < 65536) {es : List Ev}
    (hc : Calm keep (St.init g1 g2 b) es) {y : St} (hr : run keep (St.init g1 g2 b) es = .ok y) : ∃ qo qi p, Inv keep g1.length g2.length b y qo qi p := by
  obtain ⟨y', qo, qi, p, e1, e2⟩ := run_ok n1 n2 es (init_ok keep g1 g2 b h1 h2) hc
  rw [hr] at e1
  injection e1 with e1
  exact ⟨qo, qi, p, e1 ▸ e2⟩

theorem sending_view (keep : Bool) (n : Nat) : ∀ (y : St) (a : List Nat) (z : OutSys), OutSys.run ⟨⟨y.out, y.hw⟩, .idle, a⟩ (sendRounds n) = .ok z →
    ∃ y', run keep y (sending n) = .ok y' ∧ y'.out = z.s.buf ∧ y'.hw = z.s.hw ∧ y'.wlog = y.wlog := by
  induction n with
  | zero =>
    intro y a z h
    simp only [sendRounds, OutSys.run, Res.ok.injEq] at h
    exact ⟨y, rfl, by rw [← h], by rw [← h], rfl⟩
  | succ n ih =>
    intro y a z h
    simp only [sendRounds, OutSys.run, OutSys.step] at h
    simp only [sending, run, step]
    by_cases hx : (isTrue 5 y.hw.ucsrb && getAcceptData y.hw) = true
    · rw [if_pos hx] at h
      rw [if_pos hx]
      cases hi : OutStream.isr ⟨y.out, y.hw⟩ with
      | ub => rw [hi] at h; cases h
      | ok s =>
        rw [hi] at h
        simp only [Res.bind_ok] at h ⊢
        exact ih { y with out := s.buf, hw := s.hw.frameTime } a z h
    · rw [if_neg hx] at h
      rw [if_neg hx]
      simp only [Res.bind_ok] at h ⊢
      exact ih { y with hw := y.hw.frameTime } a z h

/-- `Bit<i>::Set` leaves the other bits, whatever the state of the receiver. -/
theorem bitB_other (i j : Nat) (hi : i < 8) (hj : j ≠ 1) (hij : j ≠ i) (h : Hw) : (h.bitB i true).ucsrb.getLsbD j = h.ucsrb.getLsbD j := by
  show (setBit i ((h.writeB (clearBit i h.readB)).readB)).getLsbD j = _
  rw [bit_set i hi, if_neg hij, readB_bit _ j hj]
  show (clearBit i h.readB).getLsbD j = _
  rw [bit_clear i hi, if_neg hij, readB_bit _ j hj]

/-- Bytes are waiting that will not be sent: the transmit interrupt is off and main code, not in `Write`, will not turn it on. -/
def Stuck (out : RingBuffer.RB Nat) (l : List Nat) (wl : List (Bool × Nat × Bool)) (y : St) : Prop :=
  y.out = out ∧ sent y.hw = l ∧ y.wlog = wl ∧ y.hw.ucsrb.getLsbD 5 = false ∧ (∀ v, heldR y.pc = some v → v.getLsbD 5 = false) ∧
    match y.pc with | .checked _ _ | .stored _ _ | .wEnable _ => False | _ => True

theorem stuck_step {keep : Bool} {out : RingBuffer.RB Nat} {l : List Nat} {wl : List (Bool × Nat × Bool)} {y y' : St} {e : Ev} (hs : Stuck out l wl y) (he : noWrite e) (h : step keep y e = .ok y') :
    Stuck out l wl y' := by
  obtain ⟨h1, h2, h3, h5, hr, hp⟩ := hs
  cases e with
  | write v => exact he.elim
  | hWrite v => exact he.elim
  | read =>
    simp only [step, Res.ok.injEq] at h
    subst h
    split
    · unfold beginRead
      split
      · exact ⟨h1, h2, h3, h5, by simp [heldR], trivial⟩
      · exact ⟨h1, h2, h3, h5, by simp [heldR], trivial⟩
    · exact ⟨h1, h2, h3, h5, hr, hp⟩
  | main =>
    simp only [step, mainStep] at h
    cases hc : y.pc with
    | idle => simp only [hc, Res.ok.injEq] at h; subst h; exact ⟨h1, h2, h3, h5, hr, hp⟩
    | checked v p => rw [hc] at hp; exact hp.elim
    | stored v p => rw [hc] at hp; exact hp.elim
    | wEnable k => rw [hc] at hp; exact hp.elim
    | counted p =>
      simp only [hc] at h
      cases hg : cGet y.inn.buf (pointer keep p y.inn.r) with
      | ub => rw [hg] at h; cases h
      | ok v => rw [hg] at h; simp only [Res.bind_ok, Res.ok.injEq] at h; subst h; exact ⟨h1, h2, h3, h5, by simp [heldR], trivial⟩
    | got v p => simp only [hc, Res.ok.injEq] at h; subst h; exact ⟨h1, h2, h3, h5, by simp [heldR], trivial⟩
    | rEnable k =>
      rw [hc] at hr
      cases k with
      | start =>
        simp only [hc, rmw, Res.ok.injEq] at h; subst h
        exact ⟨h1, h2, h3, h5, by intro v hv; injection hv with hv; subst hv; exact (readB_bit _ 5 (by omega)).trans h5, trivial⟩
      | cleared =>
        simp only [hc, rmw, Res.ok.injEq] at h; subst h
        exact ⟨h1, h2, h3, h5, by intro v hv; injection hv with hv; subst hv; exact (readB_bit _ 5 (by omega)).trans h5, trivial⟩
      | loaded1 v =>
        simp only [hc, rmw, Res.ok.injEq] at h; subst h
        refine ⟨h1, h2, h3, ?_, by simp [heldR], trivial⟩
        show (clearBit 7 v).getLsbD 5 = false
        rw [bit_clear 7 (by omega), if_neg (by omega)]; exact hr v rfl
      | loaded2 v =>
        simp only [hc, rmw, Res.ok.injEq] at h; subst h
        refine ⟨h1, h2, h3, ?_, by simp [heldR], trivial⟩
        show (setBit 7 v).getLsbD 5 = false
        rw [bit_set 7 (by omega), if_neg (by omega)]; exact hr v rfl
  | txIsr =>
    simp only [step] at h
    rw [if_neg (by rw [isTrue_bit 5 (by omega), h5]; simp)] at h
    injection h with h; subst h
    exact ⟨h1, h2, h3, h5, hr, hp⟩
  | rxIsr =>
    simp only [step] at h
    split at h
    · cases hs : InStream.isr ⟨y.inn, y.hw⟩ with
      | ub => rw [hs] at h; cases h
      | ok s =>
        rw [hs] at h
        simp only [Res.bind_ok, Res.ok.injEq] at h
        subst h
        obtain ⟨k1, k2, k3, k4⟩ := rx_hw hs
        refine ⟨h1, ?_, h3, ?_, hr, hp⟩
        · show s.hw.line ++ s.hw.shift.toList ++ s.hw.tx.toList = l
          rw [k2, k3, k4]; exact h2
        · show s.hw.ucsrb.getLsbD 5 = false
          rw [k1]; exact h5
    · injection h with h; subst h; exact ⟨h1, h2, h3, h5, hr, hp⟩
  | arrive f =>
    simp only [step, Res.ok.injEq] at h
    subst h
    split
    · exact ⟨h1, h2, h3, h5, hr, hp⟩
    · exact ⟨h1, h2, h3, h5, hr, hp⟩
  | frame =>
    simp only [step, Res.ok.injEq] at h
    subst h
    refine ⟨h1, ?_, h3, h5, hr, hp⟩
    show (y.hw.line ++ y.hw.shift.toList) ++ y.hw.tx.toList ++ [] = l
    rw [List.append_nil]; exact h2
  | load =>
    simp only [step, Res.ok.injEq] at h
    subst h
    unfold Hw.load
    by_cases hs : y.hw.shift = none
    · simp only [hs, if_true]
      refine ⟨h1, ?_, h3, h5, hr, hp⟩
      show y.hw.line ++ y.hw.tx.toList ++ [] = l
      rw [List.append_nil, ← h2]
      unfold sent
      rw [hs]; simp
    · simp only [hs, if_false]
      exact ⟨h1, h2, h3, h5, hr, hp⟩
  | hRead =>
    simp only [step, InStream.read] at h
    split at h
    · cases hs : RingBuffer.read y.inn with
      | ub => rw [hs] at h; cases h
      | ok s => rw [hs] at h; simp only [Res.bind_ok, Res.ok.injEq] at h; subst h; exact ⟨h1, h2, h3, h5, hr, hp⟩
    · simp only [Res.bind_ok, Res.ok.injEq] at h
      subst h
      refine ⟨h1, h2, h3, ?_, hr, hp⟩
      show (y.hw.bitB 7 true).ucsrb.getLsbD 5 = false
      rw [bitB_other 7 5 (by omega) (by omega) (by omega)]; exact h5

theorem stuck_run {keep : Bool} {out : RingBuffer.RB Nat} {l : List Nat} {wl : List (Bool × Nat × Bool)} (es : List Ev) : ∀ {y y' : St}, Stuck out l wl y → (∀ e ∈ es, noWrite e) → run keep y es = .ok y' →
    Stuck out l wl y' := by
  induction es with
  | nil => intro y y' hs _ h; injection h with h; exact h ▸ hs
  | cons e es ih =>
    intro y y' hs he h
    unfold run at h
    cases h1 : step keep y e with
    | ub => rw [h1] at h; cases h
    | ok y1 => rw [h1] at h; exact ih (stuck_step hs (he e (by simp)) h1) (fun e h => he e (by simp [h])) h

theorem stuck_from {keep : Bool} {y y' : St} (es : List Ev) (he : ∀ e ∈ es, noWrite e) (h : run keep y es = .ok y') (h5 : y.hw.ucsrb.getLsbD 5 = false) (hr : heldR y.pc = none)
    (hp : match y.pc with | .checked _ _ | .stored _ _ | .wEnable _ => False | _ => True) : y'.out = y.out ∧ sent y'.hw = sent y.hw ∧ y'.wlog = y.wlog ∧ y'.hw.ucsrb.getLsbD 5 = false := by
  obtain ⟨k1, k2, k3, k4, _⟩ := stuck_run es ⟨rfl, rfl, rfl, h5, (fun v hv => by rw [hr] at hv; cases hv), hp⟩ he h
  exact ⟨k1, k2, k3, k4⟩

/-- Bytes that arrive will not be read: the receive interrupt is off and main code, not in `Read`, will not turn it on. -/
def Deaf (inn : RingBuffer.RB Nat) (rl : List (Bool × Int)) (y : St) : Prop :=
  y.inn = inn ∧ y.rlog = rl ∧ y.hw.ucsrb.getLsbD 7 = false ∧ (∀ v, heldW y.pc = some v → v.getLsbD 7 = false) ∧
    match y.pc with | .counted _ | .got _ _ | .rEnable _ => False | _ => True

theorem write_bits (v : Nat) (h : Hw) (j : Nat) (h0 : j ≠ 0) (h1 : j ≠ 1) : (writeInternal v h).ucsrb.getLsbD j = h.ucsrb.getLsbD j := by
  have hu : ∀ (x : Nat) (k : Hw), (k.writeUDR x).ucsrb = k.ucsrb := fun x k => by unfold Hw.writeUDR; split <;> rfl
  unfold writeInternal
  simp only
  rw [hu]
  split
  · unfold Hw.bitB
    simp only
    split
    · show (setBit 0 _).getLsbD j = _
      rw [bit_set 0 (by omega), if_neg h0, readB_bit _ j h1]
      show (clearBit 0 _).getLsbD j = _
      rw [bit_clear 0 (by omega), if_neg h0, readB_bit _ j h1]
    · show (clearBit 0 _).getLsbD j = _
      rw [bit_clear 0 (by omega), if_neg h0, readB_bit _ j h1]
  · rfl

theorem tx_bit7 {s s' : OutStream} (h : s.isr = .ok s') : s'.hw.ucsrb.getLsbD 7 = s.hw.ucsrb.getLsbD 7 := by
  unfold OutStream.isr at h
  split at h
  · cases h1 : RingBuffer.read s.buf with
    | ub => rw [h1] at h; cases h
    | ok c =>
      rw [h1] at h; simp only [Res.bind_ok, Res.ok.injEq] at h; subst h
      exact write_bits _ _ 7 (by omega) (by omega)
  · simp only [Res.ok.injEq] at h; subst h
    show (clearBit 5 _).getLsbD 7 = _
    rw [bit_clear 5 (by omega), if_neg (by omega), readB_bit _ 7 (by omega)]

theorem deaf_step {keep : Bool} {inn : RingBuffer.RB Nat} {rl : List (Bool × Int)} {y y' : St} {e : Ev} (hs : Deaf inn rl y) (he : noRead e) (h : step keep y e = .ok y') : Deaf inn rl y' := by
  obtain ⟨h1, h3, h7, hw, hp⟩ := hs
  cases e with
  | read => exact he.elim
  | hRead => exact he.elim
  | write v =>
    simp only [step, Res.ok.injEq] at h
    subst h
    split
    · unfold beginWrite
      split
      · exact ⟨h1, h3, h7, by simp [heldW], trivial⟩
      · exact ⟨h1, h3, h7, by simp [heldW], trivial⟩
    · exact ⟨h1, h3, h7, hw, hp⟩
  | main =>
    simp only [step, mainStep] at h
    cases hc : y.pc with
    | idle => simp only [hc, Res.ok.injEq] at h; subst h; exact ⟨h1, h3, h7, hw, hp⟩
    | counted p => rw [hc] at hp; exact hp.elim
    | got v p => rw [hc] at hp; exact hp.elim
    | rEnable k => rw [hc] at hp; exact hp.elim
    | checked v p =>
      simp only [hc] at h
      cases hg : cSet y.out.buf (pointer keep p y.out.w) v with
      | ub => rw [hg] at h; cases h
      | ok v => rw [hg] at h; simp only [Res.bind_ok, Res.ok.injEq] at h; subst h; exact ⟨h1, h3, h7, by simp [heldW], trivial⟩
    | stored v p => simp only [hc, Res.ok.injEq] at h; subst h; exact ⟨h1, h3, h7, by simp [heldW], trivial⟩
    | wEnable k =>
      rw [hc] at hw
      cases k with
      | start =>
        simp only [hc, rmw, Res.ok.injEq] at h; subst h
        exact ⟨h1, h3, h7, by intro v hv; injection hv with hv; subst hv; exact (readB_bit _ 7 (by omega)).trans h7, trivial⟩
      | cleared =>
        simp only [hc, rmw, Res.ok.injEq] at h; subst h
        exact ⟨h1, h3, h7, by intro v hv; injection hv with hv; subst hv; exact (readB_bit _ 7 (by omega)).trans h7, trivial⟩
      | loaded1 v =>
        simp only [hc, rmw, Res.ok.injEq] at h; subst h
        refine ⟨h1, h3, ?_, by simp [heldW], trivial⟩
        show (clearBit 5 v).getLsbD 7 = false
        rw [bit_clear 5 (by omega), if_neg (by omega)]; exact hw v rfl
      | loaded2 v =>
        simp only [hc, rmw, Res.ok.injEq] at h; subst h
        refine ⟨h1, h3, ?_, by simp [heldW], trivial⟩
        show (setBit 5 v).getLsbD 7 = false
        rw [bit_set 5 (by omega), if_neg (by omega)]; exact hw v rfl
  | rxIsr =>
    simp only [step] at h
    rw [if_neg (by rw [isTrue_bit 7 (by omega), h7]; simp)] at h
    injection h with h; subst h
    exact ⟨h1, h3, h7, hw, hp⟩
  | txIsr =>
    simp only [step] at h
    split at h
    · cases hs : OutStream.isr ⟨y.out, y.hw⟩ with
      | ub => rw [hs] at h; cases h
      | ok s =>
        rw [hs] at h
        simp only [Res.bind_ok, Res.ok.injEq] at h
        subst h
        exact ⟨h1, h3, (tx_bit7 hs).trans h7, hw, hp⟩
    · injection h with h; subst h; exact ⟨h1, h3, h7, hw, hp⟩
  | arrive f =>
    simp only [step, Res.ok.injEq] at h
    subst h
    split
    · exact ⟨h1, h3, h7, hw, hp⟩
    · exact ⟨h1, h3, h7, hw, hp⟩
  | frame => simp only [step, Res.ok.injEq] at h; subst h; exact ⟨h1, h3, h7, hw, hp⟩
  | load =>
    simp only [step, Res.ok.injEq] at h
    subst h
    refine ⟨h1, h3, ?_, hw, hp⟩
    show (y.hw.load).ucsrb.getLsbD 7 = false
    unfold Hw.load
    split <;> exact h7
  | hWrite v =>
    simp only [step, OutStream.writeBuffer] at h
    cases hs : RingBuffer.write y.out v.toNat with
    | ub => rw [hs] at h; cases h
    | ok c =>
      rw [hs] at h; simp only [Res.bind_ok, Res.ok.injEq] at h; subst h
      refine ⟨h1, h3, ?_, hw, hp⟩
      show (y.hw.bitB 5 true).ucsrb.getLsbD 7 = false
      rw [bitB_other 5 7 (by omega) (by omega) (by omega)]; exact h7

theorem deaf_run {keep : Bool} {inn : RingBuffer.RB Nat} {rl : List (Bool × Int)} (es : List Ev) : ∀ {y y' : St}, Deaf inn rl y → (∀ e ∈ es, noRead e) → run keep y es = .ok y' → Deaf inn rl y' := by
  induction es with
  | nil => intro y y' hs _ h; injection h with h; exact h ▸ hs
  | cons e es ih =>
    intro y y' hs he h
    unfold run at h
    cases h1 : step keep y e with
    | ub => rw [h1] at h; cases h
    | ok y1 => rw [h1] at h; exact ih (deaf_step hs (he e (by simp)) h1) (fun e h => he e (by simp [h])) h

theorem deaf_from {keep : Bool} {y y' : St} (es : List Ev) (he : ∀ e ∈ es, noRead e) (h : run keep y es = .ok y') (h7 : y.hw.ucsrb.getLsbD 7 = false) (hw : heldW y.pc = none)
    (hp : match y.pc with | .counted _ | .got _ _ | .rEnable _ => False | _ => True) : y'.inn = y.inn ∧ y'.rlog = y.rlog ∧ y'.hw.ucsrb.getLsbD 7 = false := by
  obtain ⟨k1, k2, k3, _⟩ := deaf_run es ⟨rfl, rfl, h7, (fun v hv => by rw [hw] at hv; cases hv), hp⟩ he h
  exact ⟨k1, k2, k3⟩

theorem reads_snoc (l : List (Bool × Int)) (m k : Bool) (r : Int) : readsDone m (l ++ [(k, r)]) = readsDone m l + if k = m then 1 else 0 := by
  unfold readsDone
  rw [List.countP_append]
  cases k <;> cases m <;> rfl

theorem calls_step {keep : Bool} {y y' : St} {e : Ev} (h : step keep y e = .ok y') (ho : starts e = true → y.pc = .idle) :
    doneBy false y'.wlog = doneBy false y.wlog ++ asksW false [e] ∧ doneBy true y'.wlog ++ pendingW y' = doneBy true y.wlog ++ pendingW y ++ asksW true [e] ∧
      readsDone false y'.rlog = readsDone false y.rlog + asksR false [e] ∧ readsDone true y'.rlog + pendingR y' = readsDone true y.rlog + pendingR y + asksR true [e] := by
  cases e with
  | write v =>
    have hp : y.pc = .idle := ho rfl
    simp only [step, hp, if_true, Res.ok.injEq] at h
    subst h
    unfold beginWrite
    split <;> simp [done_snoc, pendingW, pendingR, asksW, asksR, hp]
  | read =>
    have hp : y.pc = .idle := ho rfl
    simp only [step, hp, if_true, Res.ok.injEq] at h
    subst h
    unfold beginRead
    split <;> simp [pendingW, pendingR, asksW, asksR, hp]
  | main =>
    simp only [step, mainStep] at h
    cases hc : y.pc with
    | idle => simp only [hc, Res.ok.injEq] at h; subst h; simp [asksW, asksR]
    | checked v p =>
      simp only [hc] at h
      cases hg : cSet y.out.buf (pointer keep p y.out.w) v with
      | ub => rw [hg] at h; cases h
      | ok v => rw [hg] at h; simp only [Res.bind_ok, Res.ok.injEq] at h; subst h; simp [pendingW, pendingR, asksW, asksR, hc]
    | stored v p => simp only [hc, Res.ok.injEq] at h; subst h; simp [done_snoc, pendingW, pendingR, asksW, asksR, hc]
    | wEnable k => cases k <;> (simp only [hc, rmw, Res.ok.injEq] at h; subst h; simp [pendingW, pendingR, asksW, asksR, hc])
    | counted p =>
      simp only [hc] at h
      cases hg : cGet y.inn.buf (pointer keep p y.inn.r) with
      | ub => rw [hg] at h; cases h
      | ok v => rw [hg] at h; simp only [Res.bind_ok, Res.ok.injEq] at h; subst h; simp [pendingW, pendingR, asksW, asksR, hc]
    | got v p => simp only [hc, Res.ok.injEq] at h; subst h; simp [reads_snoc, pendingW, pendingR, asksW, asksR, hc]
    | rEnable k => cases k <;> (simp only [hc, rmw, Res.ok.injEq] at h; subst h; simp [reads_snoc, pendingW, pendingR, asksW, asksR, hc])
  | txIsr =>
    simp only [step] at h
    split at h
    · cases hs : OutStream.isr ⟨y.out, y.hw⟩ with
      | ub => rw [hs] at h; cases h
      | ok s => rw [hs] at h; simp only [Res.bind_ok, Res.ok.injEq] at h; subst h; simp [pendingW, pendingR, asksW, asksR]
    · injection h with h; subst h; simp [asksW, asksR]
  | rxIsr =>
    simp only [step] at h
    split at h
    · cases hs : InStream.isr ⟨y.inn, y.hw⟩ with
      | ub => rw [hs] at h; cases h
      | ok s => rw [hs] at h; simp only [Res.bind_ok, Res.ok.injEq] at h; subst h; simp [pendingW, pendingR, asksW, asksR]
    · injection h with h; subst h; simp [asksW, asksR]
  | arrive f => simp only [step, Res.ok.injEq] at h; subst h; split <;> simp [pendingW, pendingR, asksW, asksR]
  | frame => simp only [step, Res.ok.injEq] at h; subst h; simp [pendingW, pendingR, asksW, asksR]
  | load => simp only [step, Res.ok.injEq] at h; subst h; simp [pendingW, pendingR, asksW, asksR]
  | hWrite v =>
    simp only [step, OutStream.writeBuffer] at h
    cases hs : RingBuffer.write y.out v.toNat with
    | ub => rw [hs] at h; cases h
    | ok c => rw [hs] at h; simp only [Res.bind_ok, Res.ok.injEq] at h; subst h; simp [done_snoc, pendingW, pendingR, asksW, asksR]
  | hRead =>
    simp only [step] at h
    cases hs : InStream.read ⟨y.inn, y.hw⟩ with
    | ub => rw [hs] at h; cases h
    | ok c => rw [hs] at h; simp only [Res.bind_ok, Res.ok.injEq] at h; subst h; simp [reads_snoc, pendingW, pendingR, asksW, asksR]

end UsartBoth

open UsartBoth Sections
open UsartMany (taken sent)
open UsartReading (returned)

/-- **C155, partial.** With handlers' calls at harmless moments only, both streams work side by side for main code and handlers, at any moment of main code: nothing is undefined, bytes are sent and read
    once each in order, and each stream's interrupt is on when it must be. -/
theorem c155_order_partial (keep : Bool) (g1 g2 : List Nat) (b : BitVec 8) (h1 : 0 < g1.length) (n1 : g1.length < 65536) (h2 : 0 < g2.length) (n2 : g2.length < 65536) (es : List Ev)
    (hc : Calm keep (St.init g1 g2 b) es) : Right keep g1 g2 b es := by
  obtain ⟨y, qo, qi, p, hr, i⟩ := run_ok n1 n2 es (init_ok keep g1 g2 b h1 h2) hc
  obtain ⟨rel, size, bytes, order, ii, bits, w, r, on, told, buf⟩ := i
  have isz : y.inn.size = g2.length := ii.size
  refine ⟨y, qo, qi, hr, order, RingBuffer.getLength_rel rel (by omega), ?_, RingBuffer.getLength_rel (show RingBuffer.Rel y.inn qi from ii.rel) (by omega), ?_, ?_, ?_, bits⟩
  · intro hp hq
    exact (on (by rw [hp]; exact id)).resolve_left hq
  · have e : p ++ y.hw.rx = y.kept := ii.taken
    rw [← e, goodBytes_append]
    exact ii.sub.trans (List.sublist_append_left _ _)
  · intro hl
    have e : p ++ y.hw.rx = y.kept := ii.taken
    rw [← e, goodBytes_append]
    exact congrArg (· ++ goodBytes y.hw.rx) (ii.all (by
      have := congrArg List.length e
      rw [List.length_append] at this
      omega))
  · intro hp ht
    exact (told ht).resolve_right (by rw [hp]; exact id)

/-- **C155, partial.** After any such history, outside of calls, all bytes taken are on the line once the interrupts have been served and the frames have ended. -/
theorem c155_drain_partial (keep : Bool) (g1 g2 : List Nat) (b : BitVec 8) (h1 : 0 < g1.length) (n1 : g1.length < 65536) (h2 : 0 < g2.length) (n2 : g2.length < 65536) (es : List Ev)
    (hc : Calm keep (St.init g1 g2 b) es) (y : St) (hr : run keep (St.init g1 g2 b) es = .ok y) (hp : y.pc = .idle) (n : Nat) (hl : (taken y.wlog).length + 1 ≤ n) :
    ∃ y', run keep y (sending n) = .ok y' ∧ y'.hw.line = taken y.wlog ∧ RingBuffer.getLength y'.out = 0 ∧ y'.wlog = y.wlog := by
  obtain ⟨qo, qi, p, i⟩ := reach h1 n1 h2 n2 hc hr
  have o : OInv g1.length y.hw.ucsrb ⟨⟨y.out, y.hw⟩, .idle, taken y.wlog⟩ qo :=
    ⟨i.rel, i.size, i.bytes, i.order, i.i.wf, fun _ => (i.on (by rw [hp]; exact id)).symm, fun _ _ _ _ => rfl, fun v hv => (by cases hv), fun v hv => (by cases hv)⟩
  have hpen : pend qo y.hw.tx y.hw.shift ≤ n := by
    have := congrArg List.length i.order
    simp only [List.length_append] at this
    unfold pend
    omega
  obtain ⟨z, h3, h4, h5⟩ := drain_inv n1 n _ qo o rfl hpen
  obtain ⟨y', r1, r2, r3, r4⟩ := sending_view keep n y _ z h3
  exact ⟨y', r1, by rw [r3, h4], by rw [r2, h5], r4⟩

/-- **C155.** In any history the completed calls are those made, of handlers and of main code each in their order; of main code the last may be outstanding. -/
theorem c155_calls (keep : Bool) (es : List Ev) : ∀ (y y' : St), UsartBoth.OneAtATime keep y es → run keep y es = .ok y' →
    UsartMany.doneBy false y'.wlog = UsartMany.doneBy false y.wlog ++ asksW false es ∧ UsartMany.doneBy true y'.wlog ++ pendingW y' = UsartMany.doneBy true y.wlog ++ pendingW y ++ asksW true es ∧
      UsartReading.readsDone false y'.rlog = UsartReading.readsDone false y.rlog + asksR false es ∧
      UsartReading.readsDone true y'.rlog + pendingR y' = UsartReading.readsDone true y.rlog + pendingR y + asksR true es := by
  induction es with
  | nil => intro y y' _ h; injection h with h; subst h; simp [asksW, asksR]
  | cons e es ih =>
    intro y y' ho h
    unfold run at h
    cases h1 : step keep y e with
    | ub => rw [h1] at h; cases h
    | ok y1 =>
      rw [h1] at h
      obtain ⟨a1, a2, a3, a4⟩ := UsartBoth.calls_step h1 ho.1
      obtain ⟨b1, b2, b3, b4⟩ := ih y1 y' (ho.2 y1 h1) h
      have ha : ∀ m, asksW m (e :: es) = asksW m [e] ++ asksW m es := fun m => by
        show asksW m ([e] ++ es) = _
        unfold asksW
        rw [List.filterMap_append]
      have hb : ∀ m, asksR m (e :: es) = asksR m [e] + asksR m es := fun m => by
        show asksR m ([e] ++ es) = _
        unfold asksR
        rw [List.countP_append]
      rw [b1, b2, b3, b4, a1, a2, a3, a4, ha, ha, hb, hb]
      refine ⟨by simp, by simp, by omega, by omega⟩

/-- **C155.** Main code's `Read`, told that nothing has arrived, turns the receive interrupt on: a byte a handler writes between its load and its store of the control register, with nothing waiting before,
    is taken and stays in the buffer, whatever happens (main code finishing, interrupts, time, further reads), until somebody writes again. -/
theorem c155_stuck_fails (keep : Bool) (g1 g2 : List Nat) (b : BitVec 8) (h1 : 2 ≤ g1.length) (n1 : g1.length < 65536) (h2 : 0 < g2.length) (n2 : g2.length < 65536) (es : List Ev)
    (hc : Calm keep (St.init g1 g2 b) es) (y : St) (hr : run keep (St.init g1 g2 b) es = .ok y) (v : BitVec 8) (hp : heldR y.pc = some v) (hv : v.getLsbD 5 = false) (x : BitVec 8) :
    ∃ y', run keep y [.hWrite x, .main] = .ok y' ∧ taken y'.wlog = taken y.wlog ++ [x.toNat] ∧
      ∀ more z, (∀ e ∈ more, noWrite e) → run keep y' more = .ok z → sent z.hw = taken y.wlog ∧ taken z.wlog = taken y.wlog ++ [x.toNat] ∧ RingBuffer.getLength z.out = 1 ∧ z.hw.ucsrb.getLsbD 5 = false := by
  obtain ⟨qo, qi, p, i⟩ := reach (by omega) n1 h2 n2 hc hr
  have hq : qo = [] := (i.r v hp).2.resolve_right (by rw [hv]; simp)
  subst hq
  have hs : y.out.size = g1.length := i.size
  obtain ⟨hw, hrel⟩ := UsartMany.room_write i.rel x.toNat (show ([] : List Nat).length + 1 < y.out.size by simp; omega)
  obtain ⟨e1, e2, e3, e4, e5⟩ := bitB_effect 5 (by omega) (by omega) true y.hw i.i.wf
  have sl : ∀ u, sent ((y.hw.bitB 5 true).writeB u) = taken y.wlog := by
    intro u
    show (y.hw.bitB 5 true).line ++ (y.hw.bitB 5 true).shift.toList ++ (y.hw.bitB 5 true).tx.toList = _
    rw [e3, e4, e5]
    have := i.order
    rwa [List.append_nil] at this
  have len : ∀ c : RingBuffer.RB Nat, RingBuffer.Rel c ([] ++ [x.toNat]) → c.size = y.out.size → RingBuffer.getLength c = 1 := fun c h1 h2 => RingBuffer.getLength_rel h1 (by omega)
  have tw : taken (y.wlog ++ [(false, x.toNat, true)]) = taken y.wlog ++ [x.toNat] := by rw [UsartMany.taken_snoc, if_pos rfl]
  simp only [run, step, OutStream.writeBuffer, hw, Res.bind_ok, mainStep]
  cases hpc : y.pc with
  | rEnable k =>
    rw [hpc] at hp
    cases k with
    | start => cases hp
    | cleared => cases hp
    | loaded1 u =>
      injection hp with hp; subst hp
      have b5 : (clearBit 7 u).getLsbD 5 = false := by rw [bit_clear 7 (by omega), if_neg (by omega)]; exact hv
      refine ⟨_, rfl, tw, fun more z hm hz => ?_⟩
      obtain ⟨k1, k2, k3, k4⟩ := stuck_from more hm hz (by exact b5) rfl trivial
      exact ⟨k2.trans (sl _), (congrArg taken k3).trans tw, (congrArg RingBuffer.getLength k1).trans (len _ hrel rfl), k4⟩
    | loaded2 u =>
      injection hp with hp; subst hp
      have b5 : (setBit 7 u).getLsbD 5 = false := by rw [bit_set 7 (by omega), if_neg (by omega)]; exact hv
      refine ⟨_, rfl, tw, fun more z hm hz => ?_⟩
      obtain ⟨k1, k2, k3, k4⟩ := stuck_from more hm hz (by exact b5) rfl trivial
      exact ⟨k2.trans (sl _), (congrArg taken k3).trans tw, (congrArg RingBuffer.getLength k1).trans (len _ hrel rfl), k4⟩
  | _ => rw [hpc] at hp; cases hp

/-- **C155.** Main code's `Write` turns the transmit interrupt on: a handler's `Read` between its load and its store of the control register, with the receive interrupt off before, is told that nothing has
    arrived and turns the receive interrupt on in vain: nothing reaches the buffer, whatever arrives, until somebody reads again. -/
theorem c155_deaf_fails (keep : Bool) (g1 g2 : List Nat) (b : BitVec 8) (h1 : 0 < g1.length) (n1 : g1.length < 65536) (h2 : 0 < g2.length) (n2 : g2.length < 65536) (es : List Ev)
    (hc : Calm keep (St.init g1 g2 b) es) (y : St) (hr : run keep (St.init g1 g2 b) es = .ok y) (v : BitVec 8) (hp : heldW y.pc = some v) (hv : v.getLsbD 7 = false)
    (he : RingBuffer.getLength y.inn = 0) :
    ∃ y', run keep y [.hRead, .main] = .ok y' ∧ y'.rlog = y.rlog ++ [(false, -1)] ∧
      ∀ more z, (∀ e ∈ more, noRead e) → run keep y' more = .ok z → z.rlog = y.rlog ++ [(false, -1)] ∧ RingBuffer.getLength z.inn = 0 ∧ z.hw.ucsrb.getLsbD 7 = false := by
  obtain ⟨qo, qi, p, i⟩ := reach h1 n1 h2 n2 hc hr
  have rd : InStream.read ⟨y.inn, y.hw⟩ = .ok (⟨y.inn, y.hw.bitB 7 true⟩, -1) := by
    unfold InStream.read
    rw [if_neg (by rw [he]; simp)]
    rfl
  simp only [run, step, rd, Res.bind_ok, mainStep]
  cases hpc : y.pc with
  | wEnable k =>
    rw [hpc] at hp
    cases k with
    | start => cases hp
    | cleared => cases hp
    | loaded1 u =>
      injection hp with hp; subst hp
      have b7 : (clearBit 5 u).getLsbD 7 = false := by rw [bit_clear 5 (by omega), if_neg (by omega)]; exact hv
      refine ⟨_, rfl, rfl, fun more z hm hz => ?_⟩
      obtain ⟨k1, k2, k3⟩ := deaf_from more hm hz (by exact b7) rfl trivial
      exact ⟨k2, (congrArg RingBuffer.getLength k1).trans he, k3⟩
    | loaded2 u =>
      injection hp with hp; subst hp
      have b7 : (setBit 5 u).getLsbD 7 = false := by rw [bit_set 5 (by omega), if_neg (by omega)]; exact hv
      refine ⟨_, rfl, rfl, fun more z hm hz => ?_⟩
      obtain ⟨k1, k2, k3⟩ := deaf_from more hm hz (by exact b7) rfl trivial
      exact ⟨k2, (congrArg RingBuffer.getLength k1).trans he, k3⟩
  | _ => rw [hpc] at hp; cases hp

/-- **C155**: so not for all histories, whichever way the code is compiled: main code only reads, one handler writes one byte, and the byte is left behind. -/
theorem c155_full_claim_is_false (keep : Bool) : ¬ ∀ (g1 g2 : List Nat) (b : BitVec 8) (es : List Ev), 0 < g1.length → g1.length < 65536 → 0 < g2.length → g2.length < 65536 →
    (∀ f, .arrive f ∈ es → f.data < 512) → Right keep g1 g2 b es := by
  intro h
  have hb : okB (fun y => decide (sent y.hw = [] ∧ taken y.wlog = [65] ∧ y.pc = .idle ∧ y.hw.ucsrb = 0x98#8)) (run keep (St.init [0, 0] [0, 0] 0x18#8) [.read, .main, .hWrite 65#8, .main, .main, .main]) = true := by
    cases keep <;> decide +kernel
  obtain ⟨z, z1, z2⟩ := of_okB hb
  replace z2 := of_decide_eq_true z2
  obtain ⟨y, waiting, rest, y1, y2, _, y3, _⟩ := h [0, 0] [0, 0] 0x18#8 [.read, .main, .hWrite 65#8, .main, .main, .main] (by decide) (by decide) (by decide) (by decide) (by intro f hf; simp at hf)
  rw [z1] at y1
  injection y1 with y1
  subst y1
  rw [z2.1, z2.2.1] at y2
  have := y3 z2.2.2.1 (by intro h; rw [h] at y2; cases y2)
  rw [z2.2.2.2] at this
  revert this; decide

/-! ### In sections -/

namespace UsartBoth

/-- The two streams as one shared object; frames arrive and are sent at any time (AVR/UsartOutputStream.h 64-86, AVR/UsartInputStream.h 67-88). -/
abbrev streams (keep : Bool) : CriticalSection.Machine where
  St := UsartShared.St
  Ev := UsartShared.Ev
  step := UsartShared.step keep
  kind := fun | .write _ | .read => .enter | .main | .arrive _ | .frame | .load => .within | .txIsr | .rxIsr | .hWrite _ | .hRead => .handler
  idle := fun y => y.pc = .idle
  proper := fun | .arrive f => f.data < 512 | _ => True

theorem lawful_streams (keep : Bool) : Lawful (streams keep) := by
  intro (y : UsartShared.St) (e : UsartShared.Ev) (y' : UsartShared.St) (hi : y.pc = .idle) hk (h : UsartShared.step keep y e = .ok y')
  change y'.pc = .idle
  cases e with
  | write v => exact absurd rfl hk
  | read => exact absurd rfl hk
  | main => simp only [UsartShared.step, mainStep, hi, Res.ok.injEq] at h; exact h ▸ hi
  | arrive f => simp only [UsartShared.step, Res.ok.injEq] at h; subst h; split <;> exact hi
  | frame => simp only [UsartShared.step, Res.ok.injEq] at h; subst h; exact hi
  | load => simp only [UsartShared.step, Res.ok.injEq] at h; subst h; exact hi
  | txIsr =>
    simp only [UsartShared.step] at h
    split at h
    · cases h1 : OutStream.isr ⟨y.out, y.hw⟩ with
      | ub => rw [h1] at h; cases h
      | ok s => rw [h1] at h; simp only [Res.bind_ok, Res.ok.injEq] at h; subst h; exact hi
    · simp only [Res.ok.injEq] at h; exact h ▸ hi
  | rxIsr =>
    simp only [UsartShared.step] at h
    split at h
    · cases h1 : InStream.isr ⟨y.inn, y.hw⟩ with
      | ub => rw [h1] at h; cases h
      | ok s => rw [h1] at h; simp only [Res.bind_ok, Res.ok.injEq] at h; subst h; exact hi
    · simp only [Res.ok.injEq] at h; exact h ▸ hi
  | hWrite v =>
    simp only [UsartShared.step, OutStream.writeBuffer] at h
    cases h1 : RingBuffer.write y.out v.toNat with
    | ub => rw [h1] at h; cases h
    | ok c => rw [h1] at h; simp only [Res.bind_ok, Res.ok.injEq] at h; subst h; exact hi
  | hRead =>
    simp only [UsartShared.step] at h
    cases h1 : InStream.read ⟨y.inn, y.hw⟩ with
    | ub => rw [h1] at h; cases h
    | ok c => rw [h1] at h; simp only [Res.bind_ok, Res.ok.injEq] at h; subst h; exact hi

theorem run_streams (keep : Bool) (es : List UsartShared.Ev) (y : UsartShared.St) : (streams keep).run y es = UsartShared.run keep y es :=
  run_is (M := streams keep) (R := UsartShared.run keep) (fun _ => rfl) (fun _ _ _ => rfl) es y

end UsartBoth

/-- **C155.** Main code that calls `Write` and `Read` only with interrupts off: handlers may call both whenever they run, and everything said above holds. -/
theorem c155_sections (keep : Bool) (g1 g2 : List Nat) (b : BitVec 8) (h1 : 0 < g1.length) (n1 : g1.length < 65536) (h2 : 0 < g2.length) (n2 : g2.length < 65536) (on : Bool)
    (es : List (CriticalSection.Ev UsartShared.Ev)) (hs : Sectioned (streams keep) (CriticalSection.Board.init _ (St.init g1 g2 b) on) es) :
    ∃ d, CriticalSection.run (streams keep) (CriticalSection.Board.init _ (St.init g1 g2 b) on) es = .ok d ∧ UsartShared.run keep (St.init g1 g2 b) d.trace = .ok d.obj ∧
      UsartBoth.Calm keep (St.init g1 g2 b) d.trace ∧ Right keep g1 g2 b d.trace := by
  have hc : ∀ tr, Clean (streams keep) (St.init g1 g2 b) tr → UsartBoth.Calm keep (St.init g1 g2 b) tr := fun tr h =>
    clean_imp (M := streams keep) (Q := UsartBoth.Calm keep) (fun _ => trivial) (fun y e es hpr hk h => ⟨(by
      cases e with
      | hWrite v => unfold Harmless; rw [show y.pc = .idle from hk (by intro h; cases h)]; trivial
      | hRead => unfold Harmless; rw [show y.pc = .idle from hk (by intro h; cases h)]; trivial
      | arrive f => exact hpr
      | _ => trivial), h⟩) tr _ h
  obtain ⟨d, hd⟩ := c151_defined _ (lawful_streams keep) _ on (fun _ => by rfl) es hs fun tr ht => by
    obtain ⟨y, _, _, h1, _⟩ := c155_order_partial keep g1 g2 b h1 n1 h2 n2 tr (hc tr ht)
    exact ⟨y, (run_streams keep tr _).trans h1⟩
  obtain ⟨k1, k2⟩ := c151_apart _ (lawful_streams keep) _ on (fun _ => by rfl) es hs d hd
  replace k2 := (run_streams ..).symm.trans k2
  exact ⟨d, hd, k2, hc _ k1, c155_order_partial keep g1 g2 b h1 n1 h2 n2 _ (hc _ k1)⟩

/-! ### Examples -/

namespace UsartBoth

instance decHarmless (keep : Bool) (y : St) : (e : Ev) → Decidable (Harmless keep y e)
  | .write _ => .isTrue trivial
  | .read => .isTrue trivial
  | .main => .isTrue trivial
  | .txIsr => .isTrue trivial
  | .rxIsr => .isTrue trivial
  | .frame => .isTrue trivial
  | .load => .isTrue trivial
  | .arrive f => inferInstanceAs (Decidable (f.data < 512))
  | .hWrite _ => by
    unfold Harmless
    generalize y.pc = pc
    cases pc with
    | rEnable m => cases m <;> dsimp only <;> infer_instance
    | _ => dsimp only; infer_instance
  | .hRead => by
    unfold Harmless
    generalize y.pc = pc
    cases pc with
    | wEnable m => cases m <;> dsimp only <;> infer_instance
    | _ => dsimp only; infer_instance

instance decCalm (keep : Bool) : (es : List Ev) → (y : St) → Decidable (Calm keep y es)
  | [], _ => .isTrue trivial
  | e :: es, y =>
    have d2 : Decidable (∀ y', step keep y e = .ok y' → Calm keep y' es) :=
      match h : step keep y e with
      | .ub => .isTrue fun _ h' => by cases h'
      | .ok y1 =>
        have := decCalm keep es y1
        decidable_of_iff (Calm keep y1 es) ⟨fun h1 _ h2 => by injection h2 with h2; exact h2 ▸ h1, fun h1 => h1 y1 rfl⟩
    instDecidableAnd

instance decOne (keep : Bool) : (es : List Ev) → (y : St) → Decidable (OneAtATime keep y es)
  | [], _ => .isTrue trivial
  | e :: es, y =>
    have d1 : Decidable (starts e = true → y.pc = .idle) := inferInstance
    have d2 : Decidable (∀ y', step keep y e = .ok y' → OneAtATime keep y' es) :=
      match h : step keep y e with
      | .ub => .isTrue fun _ h' => by cases h'
      | .ok y1 =>
        have := decOne keep es y1
        decidable_of_iff (OneAtATime keep y1 es) ⟨fun h1 _ h2 => by injection h2 with h2; exact h2 ▸ h1, fun h1 => h1 y1 rfl⟩
    instDecidableAnd

/-- Main code writes, a handler reads in the middle of that; main code reads, a handler writes in the middle of that; a byte arrives and is sent back. -/
def sample : List Ev :=
  [.write 65#8, .main, .hRead, .main, .main, .main, .main, .main, .txIsr, .frame, .read, .hWrite 66#8, .main, .main, .hWrite 67#8, .main, .main, .arrive ⟨70, false, false, false⟩, .rxIsr, .read, .main, .main,
    .txIsr, .frame]

end UsartBoth

example := c155_order_partial false [0, 0, 0, 0] [0, 0, 0, 0] 0x18#8 (by decide) (by decide) (by decide) (by decide) UsartBoth.sample (by decide +kernel)
example : okB (fun y => decide (y.rlog = [(false, -1), (true, -1), (true, 70)] ∧ taken y.wlog = [65, 66, 67] ∧ sent y.hw = [65, 66] ∧ y.hw.ucsrb = 0xB8#8))
    (run false (St.init [0, 0, 0, 0] [0, 0, 0, 0] 0x18#8) UsartBoth.sample) = true := by decide +kernel
example := c155_drain_partial false [0, 0, 0, 0] [0, 0, 0, 0] 0x18#8 (by decide) (by decide) (by decide) (by decide) UsartBoth.sample (by decide +kernel) _ rfl rfl 4 (by decide +kernel)
example := c155_calls false UsartBoth.sample (St.init [0, 0, 0, 0] [0, 0, 0, 0] 0x18#8) _ (by decide +kernel) rfl
example := c155_stuck_fails true [0, 0] [0, 0] 0x18#8 (by decide) (by decide) (by decide) (by decide) [.read, .main] (by decide +kernel) _ rfl 0x18#8 rfl rfl 65#8
/-- The continuation is one that happens: main code comes out of `Read`, reads a byte, frames end; the byte written is still waiting. -/
example : okB (fun z => decide (sent z.hw = [] ∧ RingBuffer.getLength z.out = 1 ∧ z.rlog = [(true, -1), (true, 70)]))
    (run true (St.init [0, 0] [0, 0] 0x18#8) ([.read, .main, .hWrite 65#8, .main] ++ [.txIsr, .main, .main, .txIsr, .frame, .arrive ⟨70, false, false, false⟩, .rxIsr, .read, .main, .main, .txIsr, .frame])) = true := by
  decide +kernel
example := c155_deaf_fails true [0, 0] [0, 0] 0x18#8 (by decide) (by decide) (by decide) (by decide) [.write 65#8, .main, .main, .main] (by decide +kernel) _ rfl 0x18#8 rfl rfl rfl
/-- The continuation is one that happens: the byte is sent, frames arrive, none reaches the buffer. -/
example : okB (fun z => decide (z.hw.line = [65] ∧ RingBuffer.getLength z.inn = 0 ∧ z.hw.rx.length = 2))
    (run true (St.init [0, 0] [0, 0] 0x18#8) ([.write 65#8, .main, .main, .main, .hRead, .main] ++ [.main, .main, .txIsr, .frame, .frame, .arrive ⟨70, false, false, false⟩, .rxIsr, .arrive ⟨71, false, false, false⟩, .rxIsr])) = true := by
  decide +kernel

instance (keep : Bool) : DecidablePred (streams keep).proper := by
  intro (e : UsartShared.Ev)
  change Decidable (match e with | .arrive f => f.data < 512 | _ => True)
  cases e <;> infer_instance

/-- Main code in sections, handlers of both streams and another one. -/
def bothSections : List (CriticalSection.Ev UsartShared.Ev) :=
  [.off, .main .read, .main .main, .request 2, .main .main, .main .main, .main .main, .on, .other, .serve 2 [.hWrite 65#8], .main (.arrive ⟨70, false, false, false⟩), .request 0, .request 1, .other,
    .serve 0 [.rxIsr], .other, .serve 1 [.txIsr], .main .frame, .off, .main .read, .main .main, .main .main, .on]

example := c155_sections true [0, 0, 0] [0, 0, 0] 0x18#8 (by decide) (by decide) (by decide) (by decide) true bothSections (by decide +kernel)
example : okB (fun d => decide (d.obj.rlog = [(true, -1), (true, 70)] ∧ sent d.obj.hw = [65]))
    (CriticalSection.run (streams true) (CriticalSection.Board.init _ (St.init [0, 0, 0] [0, 0, 0] 0x18#8) true) bothSections) = true := by decide +kernel

end Atl.Props
