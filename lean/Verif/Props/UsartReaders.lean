import Verif.Model.UsartReaders
import Verif.Props.UsartWhole
import Verif.Props.CriticalSectionUse
import Verif.Proof.RingBufferIsr

/-! C154: one USART input stream, read by main code and by interrupt handlers. -/
namespace Atl.Props
open Atl.Usart Atl.UsartReaders

namespace UsartReading

/-! ### Specification -/

/-- The bytes `Read` returned, in the order in which the calls were completed (-1: no data). -/
def returned (l : List (Bool × Int)) : List Nat := l.filterMap fun c => if c.2 = -1 then none else some c.2.toNat

/-- Main code is not between the test of the length and the store of the read pointer; or it loads the pointer again, is directly behind the test, and two bytes are waiting. -/
def OutsideRead (keep : Bool) (y : St) : Prop :=
  match y.pc with
  | .counted _ => keep = false ∧ 2 ≤ RingBuffer.getLength y.s.buf
  | .got _ _ => False
  | _ => True

/-- Handlers other than the stream's own read only then; frames have up to nine bits. -/
def Calm (keep : Bool) : St → List Ev → Prop
  | _, [] => True
  | y, e :: es => (e = .handler → OutsideRead keep y) ∧ (∀ f, e = .arrive f → f.data < 512) ∧ ∀ y', step keep y e = .ok y' → Calm keep y' es

/-- What the claim says of a history: nothing undefined; what was returned and what waits is in order taken from the good frames, and all of them while no more came than the buffer has room for; when
    somebody was told that there is nothing, and main code is outside of `Read`, the interrupt is on; of the control register only RXCIE (7) and the read-only RXB8 (1) may change. -/
def InSequence (keep : Bool) (g : List Nat) (b : BitVec 8) (es : List Ev) : Prop :=
  ∃ y rest, run keep (St.init g b) es = .ok y ∧ RingBuffer.getLength y.s.buf = rest.length ∧ List.Sublist (returned y.log ++ rest) (goodBytes y.kept) ∧
    (y.kept.length < g.length → returned y.log ++ rest ++ goodBytes y.s.hw.rx = goodBytes y.kept) ∧
    (y.pc = .idle → (∃ m, (m, -1) ∈ y.log) → y.s.hw.ucsrb.getLsbD 7 = true) ∧ ∀ j, j ≠ 1 → j ≠ 7 → y.s.hw.ucsrb.getLsbD j = b.getLsbD j

/-- Main code calls `Read` only outside of it. -/
def OneAtATime (keep : Bool) : St → List Ev → Prop
  | _, [] => True
  | y, e :: es => (e = .read → y.pc = .idle) ∧ ∀ y', step keep y e = .ok y' → OneAtATime keep y' es

/-- How many calls of main code (`true`) or of handlers a history asks for. -/
def readsMade (m : Bool) (es : List Ev) : Nat := es.countP fun e => if m then e == .read else e == .handler

/-- How many have been completed. -/
def readsDone (m : Bool) (l : List (Bool × Int)) : Nat := l.countP fun c => c.1 == m

/-- Main code is in a call. -/
def inCall (y : St) : Nat := if y.pc = .idle then 0 else 1

/-- A call of main code from its start to its end, without interruption. -/
def wholeRead : List Ev := .read :: List.replicate 4 .main

/-! ### Proofs -/

theorem returned_snoc (l : List (Bool × Int)) (m : Bool) (r : Int) : returned (l ++ [(m, r)]) = if r = -1 then returned l else returned l ++ [r.toNat] := by
  unfold returned
  rw [List.filterMap_append]
  by_cases h : r = -1 <;> simp [h]

theorem returned_byte (l : List (Bool × Int)) (m : Bool) (v : Nat) : returned (l ++ [(m, (v : Int))]) = returned l ++ [v] := by
  rw [returned_snoc, if_neg (by omega), Int.toNat_natCast]

theorem readsDone_snoc (l : List (Bool × Int)) (m k : Bool) (r : Int) : readsDone m (l ++ [(k, r)]) = if k = m then readsDone m l + 1 else readsDone m l := by
  unfold readsDone
  rw [List.countP_append]
  cases k <;> cases m <;> simp

theorem calls_step {keep : Bool} {y y' : St} {e : Ev} (h : step keep y e = .ok y') (hw : e = .read → y.pc = .idle) :
    readsDone false y'.log = readsDone false y.log + readsMade false [e] ∧ readsDone true y'.log + inCall y' = readsDone true y.log + inCall y + readsMade true [e] := by
  cases e with
  | read =>
    have hp := hw rfl
    simp only [step, hp, if_true, Res.ok.injEq] at h
    subst h
    unfold begin
    split <;> simp [readsMade, inCall, hp]
  | main =>
    simp only [step, mainStep] at h
    cases hp : y.pc with
    | counted p =>
      rw [hp] at h
      cases h1 : cGet y.s.buf.buf (pointer keep p y.s.buf.r) with
      | ub => simp only [h1] at h; cases h
      | ok c => simp only [h1, Res.bind_ok, Res.ok.injEq] at h; subst h; simp [readsMade, inCall, hp]
    | got v p => simp only [hp, Res.ok.injEq] at h; subst h; simp [readsDone_snoc, readsMade, inCall, hp]
    | loaded2 v => simp only [hp, Res.ok.injEq] at h; subst h; simp [readsDone_snoc, readsMade, inCall, hp]
    | _ => simp only [hp, Res.ok.injEq] at h; subst h; simp [readsMade, inCall, hp]
  | isr =>
    simp only [step] at h
    split at h
    · cases h1 : y.s.isr with
      | ub => rw [h1] at h; cases h
      | ok c => rw [h1] at h; simp only [Res.bind_ok, Res.ok.injEq] at h; subst h; simp [readsMade, inCall]
    · simp only [Res.ok.injEq] at h; subst h; simp [readsMade]
  | arrive f => simp only [step, Res.ok.injEq] at h; subst h; split <;> simp [readsMade, inCall]
  | handler =>
    simp only [step] at h
    cases h1 : y.s.read with
    | ub => rw [h1] at h; cases h
    | ok c => rw [h1] at h; simp only [Res.bind_ok, Res.ok.injEq] at h; subst h; simp [readsDone_snoc, readsMade, inCall]

/-- Seen as in the model of whole calls. -/
def view (y : St) : InSys := ⟨y.s, returned y.log, y.kept⟩

/-- The control bits `Read` must leave alone: all but RXCIE and the read-only RXB8. -/
def Same (a b : BitVec 8) : Prop := ∀ j, j ≠ 1 → j ≠ 7 → a.getLsbD j = b.getLsbD j

/-- What main code relies on. -/
def Holds (keep : Bool) (b : BitVec 8) (y : St) (q : List Nat) : Prop :=
  match y.pc with
  | .counted p => q ≠ [] ∧ (keep = true → p = y.s.buf.r)
  | .got v p => q.head? = some v ∧ (keep = true → p = y.s.buf.r)
  | .loaded1 v | .loaded2 v => Same v b
  | _ => True

/-- Main code is between the two writes of the control register. -/
def off (y : St) : Prop := match y.pc with | .cleared | .loaded2 _ => True | _ => False

structure Inv (keep : Bool) (n : Nat) (b : BitVec 8) (y : St) (q : List Nat) (p : List Frame) : Prop where
  i : IInv n (view y) q p
  h : Holds keep b y q
  bits : Same y.s.hw.ucsrb b
  asked : (∃ m, (m, -1) ∈ y.log) → y.s.hw.ucsrb.getLsbD 7 = true ∨ off y

theorem readUDR_ctl (h : Hw) : h.readUDR.2.ucsrb = h.ucsrb := by
  unfold Hw.readUDR; split <;> rfl

/-- The stream's handler only adds at the end. -/
theorem isr_grows {s s' : InStream} {q : List Nat} (hr : RingBuffer.Rel s.buf q) (h : s.isr = .ok s') : (∃ t, RingBuffer.Rel s'.buf (q ++ t)) ∧ s'.buf.r = s.buf.r ∧ s'.hw.ucsrb = s.hw.ucsrb := by
  unfold InStream.isr at h
  simp only at h
  split at h
  · by_cases hf : q.length + 1 = s.buf.size
    · rw [RingBuffer.write_full hr _ hf] at h
      simp only [Res.bind_ok, Res.ok.injEq] at h
      subst h
      exact ⟨⟨[], by rw [List.append_nil]; exact hr⟩, rfl, readUDR_ctl _⟩
    · have hq := hr.hq
      obtain ⟨b, h1, h2, _⟩ := RingBuffer.write_room hr ((readInternal s.hw).1 % 256) (by omega)
      have hb : b.r = s.buf.r := by
        unfold RingBuffer.write at h1
        split at h1
        · simp only [Res.ok.injEq, Prod.mk.injEq] at h1; rw [← h1.1]
        · cases h3 : cSet s.buf.buf s.buf.w ((readInternal s.hw).1 % 256) with
          | ub => rw [h3] at h1; cases h1
          | ok c => rw [h3] at h1; simp only [Res.bind_ok, Res.ok.injEq, Prod.mk.injEq] at h1; rw [← h1.1]
      rw [h1] at h
      simp only [Res.bind_ok, Res.ok.injEq] at h
      subst h
      exact ⟨⟨_, h2⟩, hb, readUDR_ctl _⟩
  · simp only [Res.ok.injEq] at h
    subst h
    exact ⟨⟨[], by rw [List.append_nil]; exact hr⟩, rfl, readUDR_ctl _⟩

theorem holds_grow {keep : Bool} {b : BitVec 8} {y y' : St} {q t : List Nat} (h : Holds keep b y q) (hp : y'.pc = y.pc) (hr : y'.s.buf.r = y.s.buf.r) : Holds keep b y' (q ++ t) := by
  unfold Holds at *
  rw [hp, hr]
  cases hc : y.pc with
  | counted p => rw [hc] at h; exact ⟨by simp [h.1], h.2⟩
  | got v p => rw [hc] at h; refine ⟨?_, h.2⟩; cases q with | nil => simp at h | cons x q => simpa using h.1
  | loaded1 v => rw [hc] at h; exact h
  | loaded2 v => rw [hc] at h; exact h
  | _ => trivial

/-- `Read` as a whole, of a state as in `Rel`. -/
theorem read_cases {s : InStream} {q : List Nat} (hr : RingBuffer.Rel s.buf q) (hn : s.buf.size < 65536) :
    (q = [] ∧ s.read = .ok ({ s with hw := s.hw.bitB 7 true }, -1)) ∨
    ∃ v q', q = v :: q' ∧ s.read = .ok ({ s with buf := { s.buf with r := RingBuffer.wrap s.buf.size (s.buf.r + 1) } }, (v : Int)) ∧
      RingBuffer.Rel { s.buf with r := RingBuffer.wrap s.buf.size (s.buf.r + 1) } q' ∧ s.buf.buf[s.buf.r]? = some v := by
  unfold InStream.read
  rw [RingBuffer.getLength_rel hr hn]
  cases q with
  | nil => exact Or.inl ⟨rfl, rfl⟩
  | cons v q' =>
    refine Or.inr ⟨v, q', rfl, ?_, RingBuffer.rel_drop hr, ?_⟩
    · obtain ⟨b, h1, _⟩ := RingBuffer.read_rel hr
      rw [if_pos (by simp), h1]
      unfold RingBuffer.read at h1
      cases h2 : cGet s.buf.buf s.buf.r with
      | ub => rw [h2] at h1; cases h1
      | ok c => rw [h2] at h1; simp only [Res.bind_ok, Res.ok.injEq, Prod.mk.injEq] at h1; rw [← h1.1]; rfl
    · have h0 := hr.hget 0 (by simp); have h1 := hr.hr
      simp only [Nat.add_zero, h1, if_true, List.getElem_cons_zero] at h0
      exact h0

theorem wf_same (h : Hw) (b v : BitVec 8) (hw : Wf h) (h1 : Same h.ucsrb b) (h2 : Same v b) : Wf (h.writeB v) ∧ (h.writeB v).rx = h.rx := by
  have e : v.getLsbD 4 = h.ucsrb.getLsbD 4 := by rw [h1 4 (by omega) (by omega), h2 4 (by omega) (by omega)]
  refine ⟨?_, writeB_rx h hw v e⟩
  unfold Wf
  rw [writeB_rx h hw v e]
  show v.getLsbD 4 = true ∨ _
  rw [e]; exact hw

theorem step_ok {keep : Bool} {n : Nat} (hn : n < 65536) {b : BitVec 8} {y : St} {q : List Nat} {p : List Frame} (h : Inv keep n b y q p) (e : Ev) (hc : e = .handler → OutsideRead keep y)
    (hf : ∀ f, e = .arrive f → f.data < 512) : ∃ y' q' p', step keep y e = .ok y' ∧ Inv keep n b y' q' p' := by
  obtain ⟨ii, hh, bits, asked⟩ := h
  have ii' := ii
  obtain ⟨rel, size, taken, sub, all, wf, small⟩ := ii
  have hread : Same y.s.hw.readB b := fun j h1 h7 => (readB_bit _ j h1).trans (bits j h1 h7)
  change RingBuffer.Rel y.s.buf q at rel
  change y.s.buf.size = n at size
  have hlen := rel.hlen; have hr := rel.hr
  cases e with
  | read =>
    unfold step
    by_cases hp : y.pc = .idle
    · simp only [hp, if_true]
      unfold begin
      rw [RingBuffer.getLength_rel rel (by omega)]
      have ha : (∃ m, (m, -1) ∈ y.log) → y.s.hw.ucsrb.getLsbD 7 = true := fun hm => by
        rcases asked hm with h | h
        · exact h
        · unfold off at h; rw [hp] at h; exact h.elim
      by_cases hq : q.length > 0
      · refine ⟨_, q, p, rfl, ?_⟩
        rw [if_pos hq]
        exact ⟨⟨rel, size, taken, sub, all, wf, small⟩, ⟨List.ne_nil_of_length_pos hq, fun _ => rfl⟩, bits, fun hm => Or.inl (ha hm)⟩
      · refine ⟨_, q, p, rfl, ?_⟩
        rw [if_neg hq]
        exact ⟨⟨rel, size, taken, sub, all, wf, small⟩, trivial, bits, fun hm => Or.inl (ha hm)⟩
    · simp only [hp, if_false]
      exact ⟨y, q, p, rfl, ii', hh, bits, asked⟩
  | main =>
    unfold step mainStep
    have ha : ¬ off y → (∃ m, (m, -1) ∈ y.log) → y.s.hw.ucsrb.getLsbD 7 = true := fun ho hm => (asked hm).resolve_right ho
    unfold Holds at hh
    cases hp : y.pc with
    | idle => exact ⟨y, q, p, rfl, ii', by unfold Holds; rw [hp]; trivial, bits, asked⟩
    | counted x =>
      rw [hp] at hh
      have hpt : pointer keep x y.s.buf.r = y.s.buf.r := by
        unfold pointer; cases keep with
        | true => exact hh.2 rfl
        | false => rfl
      cases q with
      | nil => exact absurd rfl hh.1
      | cons v q' =>
        have hv : cGet y.s.buf.buf y.s.buf.r = .ok v := by
          have := rel.hget 0 (by simp)
          simp only [Nat.add_zero, hr, if_true, List.getElem_cons_zero] at this
          unfold cGet; rw [this]
        simp only [hpt, hv, Res.bind_ok]
        exact ⟨_, v :: q', p, rfl, ⟨rel, size, taken, sub, all, wf, small⟩, ⟨rfl, hh.2⟩, bits, fun hm => Or.inl (ha (by unfold off; rw [hp]; exact id) hm)⟩
    | got v x =>
      rw [hp] at hh
      have hpt : pointer keep x y.s.buf.r = y.s.buf.r := by
        unfold pointer; cases keep with
        | true => exact hh.2 rfl
        | false => rfl
      cases q with
      | nil => simp at hh
      | cons v' q' =>
        have hv : v' = v := by simpa using hh.1
        subst hv
        simp only [hpt]
        refine ⟨_, q', p, rfl, ⟨RingBuffer.rel_drop rel, size, taken, ?_, ?_, wf, small⟩, trivial, bits, fun hm => Or.inl (ha (by unfold off; rw [hp]; exact id) ?_)⟩
        · show List.Sublist (returned (y.log ++ [(true, (v' : Int))]) ++ q') _
          rw [returned_byte, List.append_assoc]; exact sub
        · intro hl
          show returned (y.log ++ [(true, (v' : Int))]) ++ q' = _
          rw [returned_byte, List.append_assoc]; exact all hl
        · obtain ⟨m, hm⟩ := hm
          simp only [List.mem_append, List.mem_singleton, Prod.mk.injEq] at hm
          rcases hm with hm | hm
          · exact ⟨m, hm⟩
          · omega
    | empty =>
      exact ⟨_, q, p, rfl, ⟨rel, size, taken, sub, all, wf, small⟩, hread, bits, fun hm => Or.inl (ha (by unfold off; rw [hp]; exact id) hm)⟩
    | cleared =>
      exact ⟨_, q, p, rfl, ⟨rel, size, taken, sub, all, wf, small⟩, hread, bits, fun _ => Or.inr trivial⟩
    | loaded1 v =>
      rw [hp] at hh
      have hs : Same (clearBit 7 v) b := fun j h1 h7 => by rw [bit_clear 7 (by omega), if_neg h7]; exact hh j h1 h7
      obtain ⟨w1, w2⟩ := wf_same y.s.hw b _ wf bits hs
      exact ⟨_, q, p, rfl, ⟨rel, size, by show p ++ (y.s.hw.writeB (clearBit 7 v)).rx = _; rw [w2]; exact taken, sub, all, w1, small⟩, trivial, hs, fun _ => Or.inr trivial⟩
    | loaded2 v =>
      rw [hp] at hh
      have hs : Same (setBit 7 v) b := fun j h1 h7 => by rw [bit_set 7 (by omega), if_neg h7]; exact hh j h1 h7
      obtain ⟨w1, w2⟩ := wf_same y.s.hw b _ wf bits hs
      have hret : returned (y.log ++ [(true, -1)]) = returned y.log := by rw [returned_snoc, if_pos rfl]
      refine ⟨_, q, p, rfl, ⟨rel, size, by show p ++ (y.s.hw.writeB (setBit 7 v)).rx = _; rw [w2]; exact taken, ?_, ?_, w1, small⟩, trivial, hs, fun _ => Or.inl ?_⟩
      · show List.Sublist (returned (y.log ++ [(true, -1)]) ++ q) _
        rw [hret]; exact sub
      · show _ → returned (y.log ++ [(true, -1)]) ++ q = _
        rw [hret]; exact all
      · show (setBit 7 v).getLsbD 7 = true
        rw [bit_set 7 (by omega), if_pos rfl]
  | arrive f =>
    obtain ⟨z, q', p', h1, h2⟩ := in_step hn ii' (.arrive f) (hf f rfl)
    simp only [InSys.step, Res.ok.injEq] at h1
    simp only [step]
    by_cases hx : (isTrue 4 y.s.hw.ucsrb && decide (y.s.hw.rx.length < 3)) = true
    · rw [if_pos (show (isTrue 4 (view y).s.hw.ucsrb && decide ((view y).s.hw.rx.length < 3)) = true from hx)] at h1
      rw [if_pos hx]
      subst h1
      have e : q' = q := Whole.rel_unique h2.rel rel
      subst e
      exact ⟨_, q', p', rfl, h2, hh, bits, asked⟩
    · rw [if_neg hx]
      exact ⟨y, q, p, rfl, ii', hh, bits, asked⟩
  | isr =>
    obtain ⟨z, q', p', h1, h2⟩ := in_step hn ii' .isr trivial
    simp only [InSys.step] at h1
    simp only [step]
    by_cases hx : (isTrue 7 y.s.hw.ucsrb && rxComplete y.s.hw) = true
    · rw [if_pos (show (isTrue 7 (view y).s.hw.ucsrb && rxComplete (view y).s.hw) = true from hx)] at h1
      rw [if_pos hx]
      cases hs : y.s.isr with
      | ub => rw [show (view y).s.isr = .ub from hs] at h1; cases h1
      | ok s =>
        rw [show (view y).s.isr = .ok s from hs] at h1
        simp only [Res.bind_ok, Res.ok.injEq] at h1
        subst h1
        obtain ⟨⟨t, ht⟩, hr', hb⟩ := isr_grows rel hs
        have e : q' = q ++ t := Whole.rel_unique h2.rel ht
        subst e
        refine ⟨{ y with s := s }, q ++ t, p', rfl, h2, holds_grow hh rfl hr', ?_, ?_⟩
        · show Same s.hw.ucsrb b; rw [hb]; exact bits
        · show _ → s.hw.ucsrb.getLsbD 7 = true ∨ _; rw [hb]; exact asked
    · rw [if_neg hx]
      exact ⟨y, q, p, rfl, ii', hh, bits, asked⟩
  | handler =>
    have ap := hc rfl
    obtain ⟨z, q', p', h1, h2⟩ := in_step hn ii' .read trivial
    simp only [InSys.step] at h1
    simp only [step]
    rcases read_cases rel (by omega) with ⟨rfl, hrd⟩ | ⟨v, t, rfl, hrd, hrel, _⟩
    · rw [show (view y).s.read = _ from hrd] at h1
      rw [hrd]
      simp only [Res.bind_ok, Res.ok.injEq] at h1 ⊢
      subst h1
      have e : q' = [] := Whole.rel_unique h2.rel rel
      subst e
      obtain ⟨e1, _⟩ := bitB_effect 7 (by omega) (by omega) true y.s.hw wf
      refine ⟨_, [], p', rfl, ?_, ?_, ?_, fun _ => Or.inl ?_⟩
      · have hv : view { y with s := { y.s with hw := y.s.hw.bitB 7 true }, log := y.log ++ [(false, -1)] } =
            { view y with s := { y.s with hw := y.s.hw.bitB 7 true }, returned := if (-1 : Int) = -1 then (view y).returned else (view y).returned ++ [(-1 : Int).toNat] } := by
          unfold view; rw [returned_snoc]
        rw [hv]; exact h2
      · unfold Holds at hh ⊢
        exact hh
      · intro j hj1 hj7
        show (y.s.hw.bitB 7 true).ucsrb.getLsbD j = _
        rw [e1 j hj1, if_neg hj7]; exact bits j hj1 hj7
      · show (y.s.hw.bitB 7 true).ucsrb.getLsbD 7 = true
        rw [e1 7 (by omega), if_pos rfl]
    · rw [show (view y).s.read = _ from hrd] at h1
      rw [hrd]
      simp only [Res.bind_ok, Res.ok.injEq] at h1 ⊢
      subst h1
      have e : q' = t := Whole.rel_unique h2.rel hrel
      subst e
      refine ⟨_, q', p', rfl, ?_, ?_, bits, ?_⟩
      · have hv : ∀ s, view { y with s := s, log := y.log ++ [(false, (v : Int))] } =
            { view y with s := s, returned := if (v : Int) = -1 then (view y).returned else (view y).returned ++ [(v : Int).toNat] } := by
          intro s; unfold view; rw [returned_snoc]
        rw [hv]; exact h2
      · unfold OutsideRead at ap
        unfold Holds at hh ⊢
        cases hp : y.pc with
        | counted x =>
          rw [hp] at ap
          have hl := RingBuffer.getLength_rel rel (by omega)
          refine ⟨?_, fun hk => by rw [ap.1] at hk; cases hk⟩
          intro hq
          have := ap.2
          rw [hl, hq] at this
          simp at this
        | got x _ => rw [hp] at ap; exact ap.elim
        | loaded1 x => rw [hp] at hh; exact hh
        | loaded2 x => rw [hp] at hh; exact hh
        | _ => trivial
      · intro hm
        refine (asked ?_).imp id id
        obtain ⟨m, hm⟩ := hm
        simp only [List.mem_append, List.mem_singleton, Prod.mk.injEq] at hm
        rcases hm with hm | hm
        · exact ⟨m, hm⟩
        · omega

theorem run_ok {keep : Bool} {n : Nat} (hn : n < 65536) {b : BitVec 8} (es : List Ev) : ∀ {y : St} {q : List Nat} {p : List Frame}, Inv keep n b y q p → Calm keep y es →
    ∃ y' q' p', run keep y es = .ok y' ∧ Inv keep n b y' q' p' := by
  induction es with
  | nil => intro y q p h _; exact ⟨y, q, p, rfl, h⟩
  | cons e es ih =>
    intro y q p h hc
    obtain ⟨y1, q1, p1, h1, i1⟩ := step_ok hn h e hc.1 hc.2.1
    obtain ⟨y2, q2, p2, h2, i2⟩ := ih i1 (hc.2.2 y1 h1)
    exact ⟨y2, q2, p2, by unfold run; rw [h1]; exact h2, i2⟩

theorem init_ok (keep : Bool) (g : List Nat) (b : BitVec 8) (hg : 0 < g.length) : Inv keep g.length b (St.init g b) [] [] :=
  ⟨⟨RingBuffer.rel_mk g hg, rfl, rfl, by simp [view, St.init, returned, goodBytes], fun _ => rfl, Or.inr rfl, by simp [view, St.init]⟩, trivial, fun _ _ _ => rfl, by simp [St.init]⟩

/-- The state a calm history leads to. -/
theorem reach {keep : Bool} {g : List Nat} {b : BitVec 8} (hg : 0 < g.length) (hn : g.length < 65536) {es : List Ev} (hc : Calm keep (St.init g b) es) {y : St} (hr : run keep (St.init g b) es = .ok y) :
    ∃ q p, Inv keep g.length b y q p := by
  obtain ⟨y', q, p, h1, h2⟩ := run_ok hn es (init_ok keep g b hg) hc
  rw [hr] at h1
  injection h1 with h1
  exact ⟨q, p, h1 ▸ h2⟩

/-- Two steps of the read pointer. -/
theorem twoSteps {s : RingBuffer.RB Nat} {q : List Nat} (h : RingBuffer.Rel s q) (hq : q ≠ []) (hs : s.size < 65536) :
    RingBuffer.getLength { s with r := RingBuffer.wrap s.size (RingBuffer.wrap s.size (s.r + 1) + 1) } = if 2 ≤ q.length then q.length - 2 else s.size - 1 := by
  cases q with
  | nil => exact absurd rfl hq
  | cons v q =>
    have h1 := RingBuffer.rel_drop h
    cases q with
    | nil =>
      rw [if_neg (by simp)]
      have hw := h1.hw; have hr := h1.hr; have hl := h.hq
      simp only [List.length_nil, Nat.add_zero, hr, if_true, List.length_cons] at hw hl
      have hr' : RingBuffer.wrap s.size (s.r + 1) < s.size := hr
      change s.w = RingBuffer.wrap s.size (s.r + 1) at hw
      rw [← hw] at hr'
      rw [← hw]
      unfold RingBuffer.getLength toU
      simp only
      unfold RingBuffer.wrap
      split <;> split <;> omega
    | cons x q =>
      rw [if_pos (by simp)]
      have h2 := RingBuffer.rel_drop h1
      exact RingBuffer.getLength_rel h2 hs

end UsartReading

open UsartReading Sections

/-! ### Theorems -/

/-- **C154, partial.** Handlers read from the stream only while main code is not in the middle of the ring buffer's `Read` (they may read in the middle of its change of the control register, and the
    stream's own handler may run anywhere): nothing undefined; every byte received goes to one reader, in order; after a -1 the interrupt is on; no other control bit changes. -/
theorem c154_order_partial (keep : Bool) (g : List Nat) (b : BitVec 8) (hg : 0 < g.length) (hn : g.length < 65536) (es : List Ev) (hc : Calm keep (St.init g b) es) : InSequence keep g b es := by
  obtain ⟨y, q, p, h1, h2⟩ := run_ok hn es (init_ok keep g b hg) hc
  have app : ∀ a b, goodBytes (a ++ b) = goodBytes a ++ goodBytes b := fun a b => by unfold goodBytes; simp
  have ht : p ++ y.s.hw.rx = y.kept := h2.i.taken
  refine ⟨y, q, h1, RingBuffer.getLength_rel h2.i.rel (by rw [show y.s.buf.size = g.length from h2.i.size]; exact hn), ?_, ?_, ?_, h2.bits⟩
  · rw [← ht, app]; exact h2.i.sub.trans (List.sublist_append_left _ _)
  · intro hl
    have := h2.i.all (by rw [← ht, List.length_append] at hl; omega)
    rw [← ht, app, ← this]; rfl
  · intro hp hm
    refine (h2.asked hm).resolve_right ?_
    unfold off; rw [hp]; exact id

/-- **C154.** In any history the completed calls are those made, of handlers and of main code; of main code the last may be outstanding. -/
theorem c154_calls (keep : Bool) (es : List Ev) : ∀ (y y' : St), OneAtATime keep y es → run keep y es = .ok y' →
    readsDone false y'.log = readsDone false y.log + readsMade false es ∧ readsDone true y'.log + inCall y' = readsDone true y.log + inCall y + readsMade true es := by
  induction es with
  | nil => intro y y' _ h; injection h with h; subst h; simp [readsMade]
  | cons e es ih =>
    intro y y' ho h
    unfold run at h
    cases h1 : step keep y e with
    | ub => rw [h1] at h; cases h
    | ok y1 =>
      rw [h1] at h
      obtain ⟨a1, a2⟩ := calls_step h1 ho.1
      obtain ⟨b1, b2⟩ := ih y1 y' (ho.2 y1 h1) h
      have ha : ∀ m, readsMade m (e :: es) = readsMade m [e] + readsMade m es := fun m => by
        show readsMade m ([e] ++ es) = _
        unfold readsMade
        rw [List.countP_append]
      rw [b1, b2, a1, a2, ha, ha]
      omega

/-- **C154, partial.** Between calls, a call of a handler and an uninterrupted call of main code return the same: the oldest byte waiting, which is then gone, or -1 exactly if there is none, and the
    interrupt is on afterwards. -/
theorem c154_next_partial (keep : Bool) (g : List Nat) (b : BitVec 8) (hg : 0 < g.length) (hn : g.length < 65536) (es : List Ev) (hc : Calm keep (St.init g b) es) (y : St)
    (hr : run keep (St.init g b) es = .ok y) (hp : y.pc = .idle) : ∃ (y1 y2 : St) (r : Int), step keep y .handler = .ok y1 ∧ run keep y wholeRead = .ok y2 ∧ y1.log = y.log ++ [(false, r)] ∧ y2.log = y.log ++ [(true, r)] ∧
      y1.pc = .idle ∧ y2.pc = .idle ∧ y1.s.buf = y2.s.buf ∧
      (RingBuffer.getLength y.s.buf = 0 → r = -1 ∧ y1.s.buf = y.s.buf ∧ y1.s.hw.ucsrb.getLsbD 7 = true ∧ y2.s.hw.ucsrb.getLsbD 7 = true) ∧
      (0 < RingBuffer.getLength y.s.buf → ∃ v : Nat, r = v ∧ y.s.buf.buf[y.s.buf.r]? = some v ∧ RingBuffer.getLength y1.s.buf + 1 = RingBuffer.getLength y.s.buf ∧
        (y.kept.length < g.length → (goodBytes y.kept)[(returned y.log).length]? = some v)) := by
  obtain ⟨q, p, ii, hh, bits, asked⟩ := reach hg hn hc hr
  have rel : RingBuffer.Rel y.s.buf q := ii.rel
  have size : y.s.buf.size = g.length := ii.size
  have hl := RingBuffer.getLength_rel rel (by omega)
  rcases read_cases rel (by omega) with ⟨rfl, hrd⟩ | ⟨v, t, rfl, hrd, hrel, hat⟩
  · obtain ⟨e1, _⟩ := bitB_effect 7 (by omega) (by omega) true y.s.hw ii.wf
    have hb : begin y = { y with pc := .empty } := by unfold begin; rw [hl]; rfl
    have s1 : step keep y .handler = .ok { y with s := { y.s with hw := y.s.hw.bitB 7 true }, log := y.log ++ [(false, -1)] } := by simp only [step, hrd, Res.bind_ok]
    have s2 : run keep y wholeRead = .ok { y with s := { y.s with hw := y.s.hw.bitB 7 true }, log := y.log ++ [(true, -1)], pc := .idle } := by
      simp only [wholeRead, List.replicate, run, step, hp, if_true, hb, Res.bind_ok, mainStep, Hw.bitB]
    refine ⟨_, _, -1, s1, s2, rfl, rfl, hp, rfl, rfl, ?_, ?_⟩
    · intro _
      have e : (y.s.hw.bitB 7 true).ucsrb.getLsbD 7 = true := by rw [e1 7 (by omega), if_pos rfl]
      exact ⟨rfl, rfl, e, e⟩
    · intro h; rw [hl] at h; simp at h
  · have hb : begin y = { y with pc := .counted y.s.buf.r } := by unfold begin; rw [hl]; rfl
    have hpt : pointer keep y.s.buf.r y.s.buf.r = y.s.buf.r := by unfold pointer; split <;> rfl
    have hv : cGet y.s.buf.buf y.s.buf.r = .ok v := by unfold cGet; rw [hat]
    have s1 : step keep y .handler = .ok { y with s := { y.s with buf := { y.s.buf with r := RingBuffer.wrap y.s.buf.size (y.s.buf.r + 1) } }, log := y.log ++ [(false, (v : Int))] } := by
      simp only [step, hrd, Res.bind_ok]
    have s2 : run keep y wholeRead = .ok { y with s := { y.s with buf := { y.s.buf with r := RingBuffer.wrap y.s.buf.size (y.s.buf.r + 1) } }, log := y.log ++ [(true, (v : Int))], pc := .idle } := by
      simp only [wholeRead, List.replicate, run, step, hp, if_true, hb, Res.bind_ok, mainStep, hpt, hv]
    refine ⟨_, _, (v : Int), s1, s2, rfl, rfl, hp, rfl, rfl, ?_, ?_⟩
    · intro h; rw [hl] at h; simp at h
    · intro _
      refine ⟨v, rfl, hat, ?_, ?_⟩
      · rw [hl, RingBuffer.getLength_rel hrel (by show y.s.buf.size < 65536; omega)]; rfl
      · intro hk
        have ht : p ++ y.s.hw.rx = y.kept := ii.taken
        have ha := ii.all (by rw [← ht, List.length_append] at hk; omega)
        have app : ∀ a b, goodBytes (a ++ b) = goodBytes a ++ goodBytes b := fun a b => by unfold goodBytes; simp
        rw [← ht, app, ← ha]
        show (returned y.log ++ v :: t ++ _)[_]? = _
        simp

/-- **C154 fails**, always: if the code keeps the read pointer in a register, a handler that reads in the middle of main code's `Read`, whatever came before, gets the byte main code also gets; it is
    taken from the buffer once. -/
theorem c154_kept_fails (g : List Nat) (b : BitVec 8) (hg : 0 < g.length) (hn : g.length < 65536) (es : List Ev) (hc : Calm true (St.init g b) es) (y : St) (hr : run true (St.init g b) es = .ok y) :
    (∀ p, y.pc = .counted p → ∃ y' v, run true y [.handler, .main, .main] = .ok y' ∧ returned y'.log = returned y.log ++ [v, v] ∧ RingBuffer.getLength y'.s.buf + 1 = RingBuffer.getLength y.s.buf) ∧
    ∀ v p, y.pc = .got v p → ∃ y', run true y [.handler, .main] = .ok y' ∧ returned y'.log = returned y.log ++ [v, v] ∧ RingBuffer.getLength y'.s.buf + 1 = RingBuffer.getLength y.s.buf := by
  obtain ⟨q, p, ii, hh, bits, asked⟩ := reach hg hn hc hr
  have rel : RingBuffer.Rel y.s.buf q := ii.rel
  have size : y.s.buf.size = g.length := ii.size
  have hl := RingBuffer.getLength_rel rel (by omega)
  have two : ∀ v : Nat, returned (y.log ++ [(false, (v : Int))] ++ [(true, (v : Int))]) = returned y.log ++ [v, v] := fun v => by
    rw [returned_byte, returned_byte, List.append_assoc]; rfl
  unfold Holds at hh
  rcases read_cases rel (by omega) with ⟨rfl, _⟩ | ⟨v, t, rfl, hrd, hrel, hat⟩
  · refine ⟨fun x hp => ?_, fun v x hp => ?_⟩
    · rw [hp] at hh; exact absurd rfl hh.1
    · rw [hp] at hh; simp at hh
  · have hl' : RingBuffer.getLength { y.s.buf with r := RingBuffer.wrap y.s.buf.size (y.s.buf.r + 1) } + 1 = RingBuffer.getLength y.s.buf := by
      rw [hl, RingBuffer.getLength_rel hrel (by show y.s.buf.size < 65536; omega)]; rfl
    refine ⟨fun x hp => ?_, fun w x hp => ?_⟩
    · rw [hp] at hh
      have hx := hh.2 rfl
      have hv : cGet y.s.buf.buf y.s.buf.r = .ok v := by unfold cGet; rw [hat]
      simp only [run, step, hrd, Res.bind_ok, mainStep, hp, pointer, if_true, hx, hv]
      exact ⟨_, v, rfl, two v, hl'⟩
    · rw [hp] at hh
      have hx := hh.2 rfl
      have hw : v = w := by simpa using hh.1
      subst hw
      simp only [run, step, hrd, Res.bind_ok, mainStep, hp, pointer, if_true, hx]
      exact ⟨_, rfl, two v, hl'⟩

/-- **C154 fails**, always: if the code loads the pointer again, a handler that reads behind main code's load of the byte gets the same byte, and both step the pointer: the next byte is lost, or, if
    there was none, the buffer seems full. The same with a single byte waiting if the handler reads directly behind the test: main code returns what is in the buffer behind it. -/
theorem c154_again_fails (g : List Nat) (b : BitVec 8) (hg : 0 < g.length) (hn : g.length < 65536) (es : List Ev) (hc : Calm false (St.init g b) es) (y : St) (hr : run false (St.init g b) es = .ok y) :
    (∀ v p, y.pc = .got v p → ∃ y', run false y [.handler, .main] = .ok y' ∧ returned y'.log = returned y.log ++ [v, v] ∧
      RingBuffer.getLength y'.s.buf = if 2 ≤ RingBuffer.getLength y.s.buf then RingBuffer.getLength y.s.buf - 2 else g.length - 1) ∧
    ∀ p, y.pc = .counted p → RingBuffer.getLength y.s.buf = 1 → ∃ y' v x, run false y [.handler, .main, .main] = .ok y' ∧ y.s.buf.buf[y.s.buf.w]? = some x ∧
      returned y'.log = returned y.log ++ [v, x] ∧ RingBuffer.getLength y'.s.buf = g.length - 1 := by
  obtain ⟨q, p, ii, hh, bits, asked⟩ := reach hg hn hc hr
  have rel : RingBuffer.Rel y.s.buf q := ii.rel
  have size : y.s.buf.size = g.length := ii.size
  have hl := RingBuffer.getLength_rel rel (by omega)
  have two : ∀ v x : Nat, returned (y.log ++ [(false, (v : Int))] ++ [(true, (x : Int))]) = returned y.log ++ [v, x] := fun v x => by
    rw [returned_byte, returned_byte, List.append_assoc]; rfl
  unfold Holds at hh
  rcases read_cases rel (by omega) with ⟨rfl, _⟩ | ⟨v, t, rfl, hrd, hrel, hat⟩
  · refine ⟨fun v x hp => ?_, fun x hp => ?_⟩
    · rw [hp] at hh; simp at hh
    · rw [hp] at hh; exact absurd rfl hh.1
  · have tw := twoSteps rel (by simp) (by omega)
    refine ⟨fun w x hp => ?_, fun x hp h1 => ?_⟩
    · rw [hp] at hh
      have hw : v = w := by simpa using hh.1
      subst hw
      simp only [run, step, hrd, Res.bind_ok, mainStep, hp, pointer, Bool.false_eq_true, if_false]
      refine ⟨_, rfl, two v v, ?_⟩
      rw [hl, ← size]; exact tw
    · rw [hl] at h1
      have ht : t = [] := by cases t with | nil => rfl | cons _ _ => simp at h1
      subst ht
      have hw : y.s.buf.w = RingBuffer.wrap y.s.buf.size (y.s.buf.r + 1) := by
        have := hrel.hw; have := hrel.hr
        simpa [this] using hrel.hw
      have hlt := rel.hw_lt; have hlen := rel.hlen
      have hx : cGet y.s.buf.buf (RingBuffer.wrap y.s.buf.size (y.s.buf.r + 1)) = .ok (y.s.buf.buf[y.s.buf.w]'(by omega)) := by
        rw [← hw]; exact cGet_ok (by omega)
      simp only [run, step, hrd, Res.bind_ok, mainStep, hp, pointer, Bool.false_eq_true, if_false, hx]
      refine ⟨_, v, y.s.buf.buf[y.s.buf.w]'(by omega), rfl, by simp, two _ _, ?_⟩
      rw [← size]; exact tw

/-- **C154**: so not for all histories, whichever way the code is compiled: one good frame, and two readers get its byte. -/
theorem c154_full_claim_is_false (keep : Bool) : ¬ ∀ (g : List Nat) (b : BitVec 8) (es : List Ev), 0 < g.length → g.length < 65536 → (∀ f, .arrive f ∈ es → f.data < 512) → InSequence keep g b es := by
  intro h
  have hb : okB (fun y => decide (returned y.log = [65, 65] ∧ goodBytes y.kept = [65])) (run keep (St.init [0, 0, 0, 0] 0x90#8) [.arrive ⟨65, false, false, false⟩, .isr, .read, .main, .handler, .main]) = true := by
    cases keep <;> decide +kernel
  obtain ⟨z, z1, z2⟩ := of_okB hb
  replace z2 := of_decide_eq_true z2
  obtain ⟨y, rest, h1, _, h2, _⟩ := h [0, 0, 0, 0] 0x90#8 [.arrive ⟨65, false, false, false⟩, .isr, .read, .main, .handler, .main] (by decide) (by decide) (by intro f hf; simp at hf; subst hf; decide)
  rw [z1] at h1
  injection h1 with h1
  subst h1
  rw [z2.1, z2.2] at h2
  have := h2.length_le
  simp at this

/-! ### In sections -/

namespace UsartReading

/-- The stream as a shared object; frames arrive at any time (AVR/UsartInputStream.h 67-88). -/
abbrev stream (keep : Bool) : CriticalSection.Machine where
  St := UsartReaders.St
  Ev := UsartReaders.Ev
  step := UsartReaders.step keep
  kind := fun | .read => .enter | .main | .arrive _ => .within | .isr | .handler => .handler
  idle := fun y => y.pc = .idle
  proper := fun | .arrive f => f.data < 512 | _ => True

theorem lawful_stream (keep : Bool) : Lawful (stream keep) := by
  intro (y : UsartReaders.St) (e : UsartReaders.Ev) (y' : UsartReaders.St) (hi : y.pc = .idle) hk (h : UsartReaders.step keep y e = .ok y')
  change y'.pc = .idle
  cases e with
  | read => exact absurd rfl hk
  | main => simp only [UsartReaders.step, mainStep, hi, Res.ok.injEq] at h; exact h ▸ hi
  | arrive f => simp only [UsartReaders.step, Res.ok.injEq] at h; subst h; split <;> exact hi
  | isr =>
    simp only [UsartReaders.step] at h
    split at h
    · cases h1 : y.s.isr with
      | ub => rw [h1] at h; cases h
      | ok s => rw [h1] at h; simp only [Res.bind_ok, Res.ok.injEq] at h; subst h; exact hi
    · simp only [Res.ok.injEq] at h; exact h ▸ hi
  | handler =>
    simp only [UsartReaders.step] at h
    cases h1 : y.s.read with
    | ub => rw [h1] at h; cases h
    | ok c => rw [h1] at h; simp only [Res.bind_ok, Res.ok.injEq] at h; subst h; exact hi

theorem run_stream (keep : Bool) (es : List UsartReaders.Ev) (y : UsartReaders.St) : (stream keep).run y es = UsartReaders.run keep y es :=
  run_is (M := stream keep) (R := UsartReaders.run keep) (fun _ => rfl) (fun _ _ _ => rfl) es y

end UsartReading

/-- **C154.** Main code that reads from the stream only with interrupts off: handlers may read whenever they run, and everything said above holds. -/
theorem c154_sections (keep : Bool) (g : List Nat) (b : BitVec 8) (hg : 0 < g.length) (hn : g.length < 65536) (on : Bool) (es : List (CriticalSection.Ev UsartReaders.Ev))
    (hs : Sectioned (stream keep) (CriticalSection.Board.init _ (St.init g b) on) es) :
    ∃ d, CriticalSection.run (stream keep) (CriticalSection.Board.init _ (St.init g b) on) es = .ok d ∧ UsartReaders.run keep (St.init g b) d.trace = .ok d.obj ∧
      Calm keep (St.init g b) d.trace ∧ InSequence keep g b d.trace := by
  have hc : ∀ tr, Clean (stream keep) (St.init g b) tr → Calm keep (St.init g b) tr := fun tr h =>
    clean_imp (M := stream keep) (Q := Calm keep) (fun _ => trivial) (fun y e es hpr hk h => ⟨(by
      intro he
      subst he
      unfold OutsideRead
      rw [show y.pc = .idle from hk (by intro h; cases h)]
      trivial), (by intro f hf; subst hf; exact hpr), h⟩) tr _ h
  obtain ⟨d, hd⟩ := c151_defined _ (lawful_stream keep) _ on (fun _ => by rfl) es hs fun tr ht => by
    obtain ⟨y, _, h1, _⟩ := c154_order_partial keep g b hg hn tr (hc tr ht)
    exact ⟨y, (run_stream keep tr _).trans h1⟩
  obtain ⟨h1, h2⟩ := c151_apart _ (lawful_stream keep) _ on (fun _ => by rfl) es hs d hd
  replace h2 := (run_stream ..).symm.trans h2
  exact ⟨d, hd, h2, hc _ h1, c154_order_partial keep g b hg hn _ (hc _ h1)⟩

/-! ### Examples -/

namespace UsartReading

instance decCalm (keep : Bool) : (es : List Ev) → (y : St) → Decidable (Calm keep y es)
  | [], _ => .isTrue trivial
  | e :: es, y =>
    have d1 : Decidable (e = .handler → OutsideRead keep y) :=
      have : Decidable (OutsideRead keep y) := by unfold OutsideRead; split <;> infer_instance
      inferInstance
    have d0 : Decidable (∀ f, e = .arrive f → f.data < 512) :=
      match e with
      | .arrive f => decidable_of_iff (f.data < 512) ⟨fun h x hx => by injection hx with hx; exact hx ▸ h, fun h => h f rfl⟩
      | .read => .isTrue fun _ h => by cases h
      | .main => .isTrue fun _ h => by cases h
      | .isr => .isTrue fun _ h => by cases h
      | .handler => .isTrue fun _ h => by cases h
    have d2 : Decidable (∀ y', step keep y e = .ok y' → Calm keep y' es) :=
      match h : step keep y e with
      | .ub => .isTrue fun _ h' => by cases h'
      | .ok y1 =>
        have := decCalm keep es y1
        decidable_of_iff (Calm keep y1 es) ⟨fun h1 _ h2 => by injection h2 with h2; exact h2 ▸ h1, fun h1 => h1 y1 rfl⟩
    instDecidableAnd

instance decOne (keep : Bool) : (es : List Ev) → (y : St) → Decidable (OneAtATime keep y es)
  | [], _ => .isTrue trivial
  | e :: es, y =>
    have d1 : Decidable (e = .read → y.pc = .idle) := inferInstance
    have d2 : Decidable (∀ y', step keep y e = .ok y' → OneAtATime keep y' es) :=
      match h : step keep y e with
      | .ub => .isTrue fun _ h' => by cases h'
      | .ok y1 =>
        have := decOne keep es y1
        decidable_of_iff (OneAtATime keep y1 es) ⟨fun h1 _ h2 => by injection h2 with h2; exact h2 ▸ h1, fun h1 => h1 y1 rfl⟩
    instDecidableAnd

/-- Main code turns the interrupt on, a handler reads in the middle of that, two bytes arrive, a handler reads directly behind main code's test. -/
def sample : List Ev :=
  [.read, .main, .handler, .main, .main, .main, .arrive ⟨65, false, false, false⟩, .isr, .arrive ⟨66, false, false, false⟩, .isr, .read, .handler, .main, .main]

end UsartReading

example := c154_order_partial false [0, 0, 0, 0] 0x10#8 (by decide) (by decide) sample (by decide +kernel)
example : okB (fun y => decide (y.log = [(false, -1), (true, -1), (false, 65), (true, 66)] ∧ y.s.hw.ucsrb = 0x90#8)) (run false (St.init [0, 0, 0, 0] 0x10#8) sample) = true := by decide +kernel
example := c154_calls false sample (St.init [0, 0, 0, 0] 0x10#8) _ (by decide +kernel) rfl
example := c154_next_partial false [0, 0, 0, 0] 0x10#8 (by decide) (by decide) (sample ++ [.arrive ⟨67, false, false, false⟩, .isr]) (by decide +kernel) _ rfl rfl
example := (c154_kept_fails [0, 0, 0, 0] 0x90#8 (by decide) (by decide) [.arrive ⟨65, false, false, false⟩, .isr, .read] (by decide +kernel) _ rfl).1 _ rfl
example := (c154_kept_fails [0, 0, 0, 0] 0x90#8 (by decide) (by decide) [.arrive ⟨65, false, false, false⟩, .isr, .read, .main] (by decide +kernel) _ rfl).2 _ _ rfl
example := (c154_again_fails [0, 0, 0, 0] 0x90#8 (by decide) (by decide) [.arrive ⟨65, false, false, false⟩, .isr, .read, .main] (by decide +kernel) _ rfl).1 _ _ rfl
example := (c154_again_fails [0, 0, 0, 0] 0x90#8 (by decide) (by decide) [.arrive ⟨65, false, false, false⟩, .isr, .read] (by decide +kernel) _ rfl).2 _ rfl (by decide +kernel)

instance (keep : Bool) : DecidablePred (stream keep).proper := by
  intro (e : UsartReaders.Ev)
  change Decidable (match e with | .arrive f => f.data < 512 | _ => True)
  cases e <;> infer_instance

/-- Main code in sections, both handlers. -/
def readerSections : List (CriticalSection.Ev UsartReaders.Ev) :=
  [.main (.arrive ⟨65, false, false, false⟩), .request 0, .serve 0 [.isr], .off, .main .read, .main (.arrive ⟨66, false, false, false⟩), .request 0, .request 1, .main .main, .main .main, .on, .other,
    .serve 0 [.isr], .other, .serve 1 [.handler, .handler]]

example := c154_sections true [0, 0, 0] 0x90#8 (by decide) (by decide) true readerSections (by decide +kernel)
example : okB (fun d => decide (d.obj.log = [(true, 65), (false, 66), (false, -1)]))
    (CriticalSection.run (stream true) (CriticalSection.Board.init _ (St.init [0, 0, 0] 0x90#8) true) readerSections) = true := by decide +kernel

end Atl.Props
