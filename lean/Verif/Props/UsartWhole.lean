import Verif.Props.UsartDuplexExact
import Verif.Props.BoardToBoard
/-
  C137: the interrupt driven USART streams behave as if every call of main code were one indivisible step.
  `Duplex` (C108) has main code at the level of single memory accesses; `OutSys` (C59) and `InSys` (C76) have whole calls.
-/
namespace Atl.Props
open Atl Atl.Usart Atl.RingBuffer Atl.Usart.Config

/-! ### Specification -/

/-- Where a call takes effect: what one event of a history at access level is in the history of whole calls.
    A `Write` that finds the buffer full when it looks, one that has advanced the write pointer otherwise; a `Read` that finds nothing with its second look, one that has advanced
    the read pointer otherwise; a handler when it runs; the hardware always. -/
def effect (lim : Nat) (d : Duplex) : DEv → List DEv
  | .write v => if d.pc = .idle ∧ isFull d.out = true then [.write v] else []
  | .read => []
  | .main => match d.pc with
    | .wStored v => [.write (BitVec.ofNat 8 v)]
    | .rLoaded ge =>
      if (if ge then toU 16 ((d.inn.w : Int) - d.inn.r) else toU 16 ((d.inn.size : Int) - ((d.inn.r : Int) - d.inn.w))) = 0 then [.read] else []
    | .rGot _ => [.read]
    | _ => []
  | .txIsr => if isTrue 5 d.hw.ucsrb && getAcceptData d.hw && d.txWindow.all (· < lim) then [.txIsr] else []
  | .rxIsr => if isTrue 7 d.hw.ucsrb && rxComplete d.hw && d.rxWindow.all (· < lim) then [.rxIsr] else []
  | e => [e]

/-- The history of whole calls that belongs to a history at access level. -/
def wholeCalls (lim : Nat) (d : Duplex) : List DEv → List DEv
  | [] => []
  | e :: es => effect lim d e ++ match Duplex.step lim d e with | .ok d' => wholeCalls lim d' es | .ub => []

/-- A call. -/
def isCall : DEv → Bool
  | .write _ | .read => true
  | _ => false

/-- The calls main code makes in a history at access level (it can only call when it is not inside a call). -/
def callsMade (lim : Nat) (d : Duplex) : List DEv → List DEv
  | [] => []
  | e :: es => (if d.pc = .idle ∧ isCall e = true then [e] else []) ++
      match Duplex.step lim d e with | .ok d' => callsMade lim d' es | .ub => []

/-- Something the hardware does by itself. -/
def isHardware : DEv → Bool
  | .arrive _ | .frame | .load => true
  | _ => false

/-- The part of a history of whole calls that the output stream sees: `Write` from its buffer access to its last store without interruption. -/
def outSide : DEv → List OutEv
  | .write v => [.write v, .main, .main, .main, .main]
  | .txIsr => [.isr]
  | .frame => [.frame]
  | .load => [.load]
  | _ => []

/-- The part that the input stream sees. -/
def inSide : DEv → List InEv
  | .read => [.read]
  | .rxIsr => [.isr]
  | .arrive f => [.arrive f]
  | _ => []

/-- What the calls of `Read` return, in a history at access level, -1 included. -/
def resultsAt (lim : Nat) (d : Duplex) : List DEv → List Int
  | [] => []
  | e :: es => (if e = .main then (match d.pc with | .rPast v _ => [(v : Int)] | .rmw 7 (.loaded2 _) => [-1] | _ => []) else []) ++
      match Duplex.step lim d e with | .ok d' => resultsAt lim d' es | .ub => []

namespace Whole

/-! ### Histories -/

theorem out_append (as bs : List OutEv) (y y' : OutSys) (h : y.run as = .ok y') : y.run (as ++ bs) = y'.run bs := by
  induction as generalizing y with
  | nil => injection h with h; rw [h]; rfl
  | cons a as ih =>
    unfold OutSys.run at h
    show (do let z ← y.step a; z.run (as ++ bs)) = _
    cases hs : y.step a with
    | ub => rw [hs] at h; cases h
    | ok w => rw [hs] at h; exact ih w h

theorem in_append (as bs : List InEv) (y y' : InSys) (h : y.run as = .ok y') :
    y.run (as ++ bs) = y'.run bs ∧ readResults y (as ++ bs) = readResults y as ++ readResults y' bs := by
  induction as generalizing y with
  | nil => injection h with h; rw [h]; exact ⟨rfl, rfl⟩
  | cons a as ih =>
    unfold InSys.run at h
    cases hs : y.step a with
    | ub => rw [hs] at h; cases h
    | ok w =>
      rw [hs] at h
      obtain ⟨h1, h2⟩ := ih w h
      refine ⟨?_, ?_⟩
      · simp only [List.cons_append, InSys.run, hs, Res.bind_ok]; exact h1
      · simp only [List.cons_append, readResults, hs, h2, List.append_assoc]

theorem rel_unique {α : Type} {s : RB α} {q q' : List α} (h : Rel s q) (h' : Rel s q') : q = q' := by
  have hl : q.length = q'.length := by
    have a := h.hw; have b := h'.hw; have := h.hr; have := h.hq; have := h'.hq
    split at a <;> split at b <;> omega
  refine List.ext_getElem hl ?_
  intro i h1 h2
  have a := h.hget i h1
  have b := h'.hget i h2
  rw [a] at b
  exact Option.some.inj b

/-! ### The stream of whole calls -/

/-- The output stream of whole calls is where the one at access level is. -/
structure OSim (n : Nat) (b : BitVec 8) (h : Hw) (acc : List Nat) (y : OutSys) (q : List Nat) : Prop where
  inv : OInv n b y q
  ph : y.phase = .idle
  acc : y.accepted = acc
  tx : y.s.hw.tx = h.tx
  sh : y.s.hw.shift = h.shift
  ln : y.s.hw.line = h.line

theorem osim_write {n : Nat} {b : BitVec 8} {h : Hw} {acc : List Nat} {y : OutSys} {q : List Nat} (hs : OSim n b h acc y q) (v : BitVec 8) :
    (q.length + 1 = n → ∃ y', y.run (outSide (.write v)) = .ok y' ∧ OSim n b h acc y' q) ∧
    (q.length + 1 < n → ∃ y', y.run (outSide (.write v)) = .ok y' ∧ OSim n b h (acc ++ [v.toNat]) y' (q ++ [v.toNat])) := by
  obtain ⟨⟨rel, size, bytes, order, wf, on, bits, held1, held2⟩, ph, ha, tx, sh, ln⟩ := hs
  have hrun := c59_write_steps y ph v
  obtain ⟨e1, e2, e3, e4, e5⟩ := bitB_effect 5 (by omega) (by omega) true y.s.hw wf
  have hwf := bitB_wf 5 (by omega) (by omega) true y.s.hw wf
  have hb : SameBits (y.s.hw.bitB 5 true).ucsrb b := fun j h0 h1 h5 => by rw [e1 j h1, if_neg h5]; exact bits j h0 h1 h5
  have h5 : (y.s.hw.bitB 5 true).ucsrb.getLsbD 5 = true := by rw [e1 5 (by omega), if_pos rfl]
  refine ⟨fun hf => ?_, fun hf => ?_⟩
  · rw [OutStream.writeBuffer, write_full rel _ (by omega)] at hrun
    refine ⟨_, hrun, ⟨rel, size, bytes, ?_, hwf, fun _ => Or.inl h5, hb, by simp, by simp⟩, rfl, ha, e3.trans tx, e4.trans sh, e5.trans ln⟩
    show (y.s.hw.bitB 5 true).line ++ (y.s.hw.bitB 5 true).shift.toList ++ (y.s.hw.bitB 5 true).tx.toList ++ q = y.accepted
    rw [e3, e4, e5]; exact order
  · obtain ⟨bf, hbf, hrel, hsz⟩ := write_room rel v.toNat (by omega)
    rw [OutStream.writeBuffer, hbf] at hrun
    refine ⟨_, hrun, ⟨hrel, hsz.trans size, ?_, ?_, hwf, fun _ => Or.inl h5, hb, by simp, by simp⟩, rfl, ?_, e3.trans tx, e4.trans sh, e5.trans ln⟩
    · intro x hx
      simp only [List.mem_append, List.mem_singleton] at hx
      rcases hx with hx | rfl
      · exact bytes x hx
      · exact v.isLt
    · show (y.s.hw.bitB 5 true).line ++ (y.s.hw.bitB 5 true).shift.toList ++ (y.s.hw.bitB 5 true).tx.toList ++ (q ++ [v.toNat]) = y.accepted ++ [v.toNat]
      rw [e3, e4, e5, ← order]; simp
    · show y.accepted ++ [v.toNat] = acc ++ [v.toNat]
      rw [ha]

theorem osim_isr {n : Nat} (hn : n < 65536) {b : BitVec 8} {h h' : Hw} {acc : List Nat} {y : OutSys} {q : List Nat} (hs : OSim n b h acc y q) (ht : h.tx = none)
    (hl : h'.line = h.line) (hsh : h'.shift = h.shift) :
    (q = [] → h'.tx = none → ∃ y', y.run [.isr] = .ok y' ∧ OSim n b h' acc y' []) ∧
    (∀ v q', q = v :: q' → h'.tx = some v → ∃ y', y.run [.isr] = .ok y' ∧ OSim n b h' acc y' q') := by
  obtain ⟨inv, ph, ha, tx, sh, ln⟩ := hs
  have ht' : y.s.hw.tx = none := tx.trans ht
  refine ⟨?_, ?_⟩
  · rintro rfl hx
    by_cases hc : (isTrue 5 y.s.hw.ucsrb && getAcceptData y.s.hw) = true
    · obtain ⟨s, hs, ⟨v, q', e, -⟩ | ⟨-, i, a1, a2, a3⟩⟩ := isr_inv hn inv ht'
      · cases e
      · exact ⟨{ y with s := s }, by simp only [OutSys.run, OutSys.step, hc, if_true, hs, Res.bind_ok], i, ph, ha, a1.trans hx.symm, by rw [hsh]; exact a2.trans sh, by rw [hl]; exact a3.trans ln⟩
    · exact ⟨y, by simp only [OutSys.run, OutSys.step, hc]; rfl, inv, ph, ha, by rw [hx]; exact ht', by rw [hsh]; exact sh, by rw [hl]; exact ln⟩
  · rintro v q' rfl hx
    have h5 : y.s.hw.ucsrb.getLsbD 5 = true := (inv.on ph).resolve_right (by simp)
    have hc : (isTrue 5 y.s.hw.ucsrb && getAcceptData y.s.hw) = true := by rw [isTrue_bit 5 (by omega), h5, accept_iff, ht']; rfl
    obtain ⟨s, hs, ⟨w, q2, e, i, a1, a2, a3⟩ | ⟨e, -⟩⟩ := isr_inv hn inv ht'
    · cases e
      exact ⟨{ y with s := s }, by simp only [OutSys.run, OutSys.step, hc, if_true, hs, Res.bind_ok], i, ph, ha, a1.trans hx.symm, by rw [hsh]; exact a2.trans sh, by rw [hl]; exact a3.trans ln⟩
    · cases e

theorem osim_frame {n : Nat} {b : BitVec 8} {h : Hw} {acc : List Nat} {y : OutSys} {q : List Nat} (hs : OSim n b h acc y q) :
    ∃ y', y.run [.frame] = .ok y' ∧ OSim n b h.frameTime acc y' q := by
  obtain ⟨⟨rel, size, bytes, order, wf, on, bits, held1, held2⟩, ph, ha, tx, sh, ln⟩ := hs
  refine ⟨_, rfl, ⟨rel, size, bytes, ?_, wf, on, bits, held1, held2⟩, ph, ha, rfl, tx, ?_⟩
  · show (y.s.hw.line ++ y.s.hw.shift.toList) ++ y.s.hw.tx.toList ++ [] ++ q = y.accepted
    rw [← order]; simp
  · show y.s.hw.line ++ y.s.hw.shift.toList = h.line ++ h.shift.toList
    rw [ln, sh]

theorem osim_load {n : Nat} {b : BitVec 8} {h : Hw} {acc : List Nat} {y : OutSys} {q : List Nat} (hs : OSim n b h acc y q) :
    ∃ y', y.run [.load] = .ok y' ∧ OSim n b h.load acc y' q := by
  obtain ⟨⟨rel, size, bytes, order, wf, on, bits, held1, held2⟩, ph, ha, tx, sh, ln⟩ := hs
  by_cases hc : h.shift = none
  · have hc' : y.s.hw.shift = none := sh.trans hc
    refine ⟨_, rfl, ?_⟩
    simp only [Hw.load, hc, hc', if_true]
    refine ⟨⟨rel, size, bytes, ?_, wf, on, bits, held1, held2⟩, ph, ha, rfl, tx, ln⟩
    show y.s.hw.line ++ y.s.hw.tx.toList ++ [] ++ q = y.accepted
    rw [← order, hc']; simp
  · have hc' : ¬ y.s.hw.shift = none := by rw [sh]; exact hc
    refine ⟨_, rfl, ?_⟩
    simp only [Hw.load, hc, hc', if_false]
    exact ⟨⟨rel, size, bytes, order, wf, on, bits, held1, held2⟩, ph, ha, tx, sh, ln⟩

/-- The input stream of whole calls is where the one at access level is. -/
structure ISim (m : Nat) (b : BitVec 8) (rx kept : List Frame) (ret : List Nat) (ie : Bool) (z : InSys) (q : List Nat) : Prop where
  rel : Rel z.s.buf q
  size : z.s.buf.size = m
  rx : z.s.hw.rx = rx
  kept : z.kept = kept
  ret : z.returned = ret
  wf : Wf z.s.hw
  b4 : z.s.hw.ucsrb.getLsbD 4 = b.getLsbD 4
  b7 : z.s.hw.ucsrb.getLsbD 7 = ie

variable {m : Nat} {b : BitVec 8} {rx kept : List Frame} {ret : List Nat} {ie : Bool} {z : InSys} {q : List Nat}

theorem isim_nothing (hm : m < 65536) (h : ISim m b rx kept ret ie z []) :
    ∃ z', z.run [.read] = .ok z' ∧ ISim m b rx kept ret true z' [] ∧ readResults z [.read] = [-1] := by
  obtain ⟨rel, size, hrx, hk, hret, wf, b4, b7⟩ := h
  obtain ⟨e1, e2, -⟩ := bitB_effect 7 (by omega) (by omega) true z.s.hw wf
  have hl := getLength_rel rel (by omega)
  refine ⟨{ z with s := { z.s with hw := rxSetInterrupt true z.s.hw } }, ?_, ⟨rel, size, e2.trans hrx, hk, hret, bitB_wf 7 (by omega) (by omega) true _ wf, ?_, ?_⟩, ?_⟩
  · simp [InSys.run, InSys.step, InStream.read, hl]
  · show (z.s.hw.bitB 7 true).ucsrb.getLsbD 4 = _
    rw [e1 4 (by omega), if_neg (by omega)]; exact b4
  · show (z.s.hw.bitB 7 true).ucsrb.getLsbD 7 = _
    rw [e1 7 (by omega), if_pos rfl]
  · simp [readResults, readResult, InSys.step, InStream.read, hl]

theorem isim_read {v : Nat} (hm : m < 65536) (h : ISim m b rx kept ret ie z (v :: q)) :
    ∃ z', z.run [.read] = .ok z' ∧ ISim m b rx kept (ret ++ [v]) ie z' q ∧ readResults z [.read] = [(v : Int)] := by
  obtain ⟨rel, size, hrx, hk, hret, wf, b4, b7⟩ := h
  have hl := getLength_rel rel (by omega)
  obtain ⟨bf, hb, hrel, hsz⟩ := read_rel rel
  have hne : ¬ ((v : Int) = -1) := by omega
  refine ⟨{ z with s := { z.s with buf := bf }, returned := z.returned ++ [v] }, ?_, ⟨hrel, hsz.trans size, hrx, hk, by show z.returned ++ [v] = _; rw [hret], wf, b4, b7⟩, ?_⟩
  · simp [InSys.run, InSys.step, InStream.read, hl, hb, hne]
  · simp [readResults, readResult, InSys.step, InStream.read, hl, hb]

theorem isim_arrive (f : Frame) (h : ISim m b rx kept ret ie z q) :
    ∃ z', z.run [.arrive f] = .ok z' ∧ readResults z [.arrive f] = [] ∧
      (b.getLsbD 4 = true ∧ rx.length < 3 → ISim m b (rx ++ [f]) (kept ++ [f]) ret ie z' q) ∧ (¬ (b.getLsbD 4 = true ∧ rx.length < 3) → ISim m b rx kept ret ie z' q) := by
  obtain ⟨rel, size, hrx, hk, hret, wf, b4, b7⟩ := h
  refine ⟨_, rfl, by simp [readResults, readResult, InSys.step], ?_, ?_⟩
  · intro hc
    have hc' : (isTrue 4 z.s.hw.ucsrb && decide (z.s.hw.rx.length < 3)) = true := by
      rw [isTrue_bit 4 (by omega), b4, hrx, hc.1]; simpa using hc.2
    simp only [hc', if_true]
    exact ⟨rel, size, by show z.s.hw.rx ++ [f] = _; rw [hrx], by show z.kept ++ [f] = _; rw [hk], hret, Or.inl (b4.trans hc.1), b4, b7⟩
  · intro hc
    have hc' : (isTrue 4 z.s.hw.ucsrb && decide (z.s.hw.rx.length < 3)) = false := by
      rw [isTrue_bit 4 (by omega), b4, hrx]
      cases h4 : b.getLsbD 4 with
      | false => rfl
      | true => simp only [h4, true_and] at hc; simpa using hc
    simp only [hc', Bool.false_eq_true, if_false]
    exact ⟨rel, size, hrx, hk, hret, wf, b4, b7⟩

theorem isim_isr {f : Frame} {r : List Frame} (hf : f.data < 512) (h : ISim m b (f :: r) kept ret true z q) :
    ∃ z', z.run [.isr] = .ok z' ∧ readResults z [.isr] = [] ∧
      (Frame.good f = true → q.length + 1 < m → ISim m b r kept ret true z' (q ++ [f.data % 256])) ∧
      ((Frame.good f = true → q.length + 1 = m) → ISim m b r kept ret true z' q) := by
  obtain ⟨rel, size, hrx, hk, hret, wf, b4, b7⟩ := h
  have hc : (isTrue 7 z.s.hw.ucsrb && rxComplete z.s.hw) = true := by rw [isTrue_bit 7 (by omega), b7, complete_iff, hrx]; rfl
  obtain ⟨a1, a2, a3⟩ := flags z.s.hw f r hrx
  have g : (getResult z.s.hw = .success) ↔ Frame.good f = true := by
    unfold getResult Frame.good
    rw [a1, a2, a3]
    cases f.fe <;> cases f.dor <;> cases f.upe <;> decide
  have rd := c57_read z.s.hw f r hrx hf
  have wf' : Wf { z.s.hw with rx := r } := by
    rcases wf with h | h
    · exact Or.inl h
    · rw [hrx] at h; cases h
  have ht : (if z.s.hw.ucsrb.getLsbD 2 = true then f.data else f.data % 256) % 256 = f.data % 256 := by split <;> omega
  by_cases hg : Frame.good f = true
  · by_cases hfull : q.length + 1 = z.s.buf.size
    · refine ⟨{ z with s := { buf := z.s.buf, hw := { z.s.hw with rx := r } } }, ?_, ?_, fun _ hlt => by omega, fun _ => ⟨rel, size, rfl, hk, hret, wf', b4, b7⟩⟩
      · simp only [InSys.run, InSys.step, hc, if_true, InStream.isr, rd, ht, g, hg, write_full rel _ hfull, Res.bind_ok]
      · simp only [readResults, readResult, InSys.step, hc, if_true, InStream.isr, rd, ht, g, hg, write_full rel _ hfull, Res.bind_ok, List.append_nil]
    · obtain ⟨bf, hb, hrel, hsz⟩ := write_room rel (f.data % 256) (by have := rel.hq; omega)
      refine ⟨{ z with s := { buf := bf, hw := { z.s.hw with rx := r } } }, ?_, ?_, fun _ _ => ⟨hrel, hsz.trans size, rfl, hk, hret, wf', b4, b7⟩, fun hx => absurd (hx hg) (by omega)⟩
      · simp only [InSys.run, InSys.step, hc, if_true, InStream.isr, rd, ht, g, hg, hb, Res.bind_ok]
      · simp only [readResults, readResult, InSys.step, hc, if_true, InStream.isr, rd, ht, g, hg, hb, Res.bind_ok, List.append_nil]
  · refine ⟨{ z with s := { z.s with hw := { z.s.hw with rx := r } } }, ?_, ?_, fun hx => absurd hx hg, fun _ => ⟨rel, size, rfl, hk, hret, wf', b4, b7⟩⟩
    · simp only [InSys.run, InSys.step, hc, if_true, InStream.isr, rd, ht, g, hg, Res.bind_ok]; rfl
    · simp only [readResults, readResult, InSys.step, hc, if_true, InStream.isr, rd, ht, g, hg, List.append_nil]; rfl

/-! ### Both together -/

/-- `Read` has found nothing and is enabling the interrupt. -/
def asking : DPc → Bool
  | .rmw i _ => i == 7
  | _ => false

/-- The result of a `Read` that has taken effect and not returned. -/
def owed : DPc → List Int
  | .rPast v _ => [(v : Int)]
  | .rmw i _ => if i = 7 then [-1] else []
  | _ => []

/-- The result of a `Read` that returns now. -/
def resultNow (d : Duplex) (e : DEv) : List Int :=
  if e = .main then (match d.pc with | .rPast v _ => [(v : Int)] | .rmw 7 (.loaded2 _) => [-1] | _ => []) else []

/-- The streams of whole calls are where those at access level are. -/
structure Sim (n m : Nat) (b : BitVec 8) (d : Duplex) (y : OutSys) (z : InSys) (qo qi : List Nat) (p : List Frame) : Prop where
  inv : Duplex.DInv n m b d qo qi p
  ptr : PtrAt n m d
  out : OSim n b d.hw d.accepted y qo
  inn : ISim m b d.hw.rx d.kept (Duplex.given d.pc d.returned) (b.getLsbD 7 || d.asked || asking d.pc) z qi

/-- An event that none of the two streams of whole calls sees. -/
theorem sim_quiet {n m : Nat} {b : BitVec 8} {d d' : Duplex} {y : OutSys} {z : InSys} {qo qi qo' qi' : List Nat} {p p' : List Frame}
    (h : Sim n m b d y z qo qi p) (i : Duplex.DInv n m b d' qo' qi' p') (ip : PtrAt n m d') (h1 : Duplex.outView d'.pc d'.out = Duplex.outView d.pc d.out ∨ Rel (Duplex.outView d'.pc d'.out) qo)
    (h2 : Duplex.innView d'.pc d'.inn = Duplex.innView d.pc d.inn) (h3 : d'.hw.tx = d.hw.tx ∧ d'.hw.shift = d.hw.shift ∧ d'.hw.line = d.hw.line ∧ d'.hw.rx = d.hw.rx)
    (h4 : d'.accepted = d.accepted ∧ d'.kept = d.kept ∧ Duplex.given d'.pc d'.returned = Duplex.given d.pc d.returned)
    (h5 : (d'.asked || asking d'.pc) = (d.asked || asking d.pc)) : Sim n m b d' y z qo' qi' p' := by
  have eo : qo' = qo := by
    rcases h1 with h1 | h1
    · exact rel_unique i.orel (h1 ▸ h.inv.orel)
    · exact rel_unique i.orel h1
  have ei : qi' = qi := rel_unique i.irel (h2 ▸ h.inv.irel)
  subst eo ei
  obtain ⟨inv, ph, ha, tx, sh, ln⟩ := h.out
  refine ⟨i, ip, ⟨inv, ph, ha.trans h4.1.symm, tx.trans h3.1.symm, sh.trans h3.2.1.symm, ln.trans h3.2.2.1.symm⟩, ?_⟩
  rw [h3.2.2.2, h4.2.1, h4.2.2, Bool.or_assoc, h5, ← Bool.or_assoc]
  exact h.inn

theorem read_key {d : Duplex} {ge : Bool} {qi : List Nat} (hr : Rel d.inn qi) (hm : d.inn.size < 65536) (hge : ge = false → d.inn.w < d.inn.r) :
    (if ge then toU 16 ((d.inn.w : Int) - d.inn.r) else toU 16 ((d.inn.size : Int) - ((d.inn.r : Int) - d.inn.w))) = 0 ↔ qi = [] := by
  have h1 := hr.hw; have h2 := hr.hr; have h3 := hr.hq; have h4 := hr.hw_lt
  cases ge with
  | true =>
    simp only [if_true]
    rw [← List.length_eq_zero_iff]
    unfold toU
    split at h1 <;> omega
  | false =>
    have hq : d.inn.w < d.inn.r := hge rfl
    simp only [Bool.false_eq_true, if_false]
    rw [← List.length_eq_zero_iff]
    unfold toU
    split at h1 <;> omega

theorem sim_step {n m lim : Nat} {b : BitVec 8} {d : Duplex} {y : OutSys} {z : InSys} {qo qi : List Nat} {p : List Frame} (hn0 : 0 < n) (hm0 : 0 < m) (hn : n < 65536) (hm : m < 65536)
    (h : Sim n m b d y z qo qi p) (e : DEv) (he : Duplex.evOk e) (ht : e = .txIsr → ¬ TxTooOften n lim d) (hr : e = .rxIsr → ¬ RxTooOften m lim d) :
    ∃ d' y' z' qo' qi' p', Duplex.step lim d e = .ok d' ∧ Sim n m b d' y' z' qo' qi' p' ∧
      y.run ((effect lim d e).flatMap outSide) = .ok y' ∧ z.run ((effect lim d e).flatMap inSide) = .ok z' ∧
      owed d.pc ++ readResults z ((effect lim d e).flatMap inSide) = resultNow d e ++ owed d'.pc := by
  obtain ⟨d', qo', qi', p', hs, i', ip⟩ := calm_step (lim := lim) hn0 hm0 hn hm h.inv h.ptr e he ht hr
  refine ⟨d', ?_⟩
  cases e with
  | write v =>
    cases hp : d.pc with
    | idle =>
      simp only [Duplex.step, hp] at hs
      by_cases hf : isFull d.out = true
      · simp only [hf, if_true] at hs
        injection hs with hs
        have ho : Rel d.out qo := by have := h.inv.orel; rw [hp] at this; exact this
        have hq : qo.length + 1 = n := by
          have := isFull_rel ho
          rw [hf] at this
          rw [← h.inv.osize]
          simpa using this.symm
        obtain ⟨y', r1, r2⟩ := (osim_write h.out v).1 hq
        subst hs
        refine ⟨y', z, qo', qi', p', by simp only [Duplex.step, hp, hf, if_true], ?_, ?_, ?_, ?_⟩
        · exact sim_quiet ⟨h.inv, h.ptr, r2, h.inn⟩ i' ip (Or.inl (by simp only [hp]; rfl)) (by simp only [hp]; rfl) ⟨rfl, rfl, rfl, rfl⟩ ⟨rfl, rfl, by simp only [hp]; rfl⟩ (by simp only [hp]; rfl)
        · simp only [effect, hp, hf, and_self, if_true]
          exact r1
        · simp [effect, hp, hf, inSide, InSys.run]
        · simp [effect, hp, hf, inSide, readResults, resultNow, owed]
      · simp only [hf] at hs
        injection hs with hs
        subst hs
        refine ⟨y, z, qo', qi', p', by simp only [Duplex.step, hp, hf], ?_, ?_, ?_, ?_⟩
        · exact sim_quiet h i' ip (Or.inl (by simp only [hp]; rfl)) (by simp only [hp]; rfl) ⟨rfl, rfl, rfl, rfl⟩ ⟨rfl, rfl, by simp only [hp]; rfl⟩ (by simp only [hp]; rfl)
        · simp [effect, hf, OutSys.run]
        · simp [effect, hf, InSys.run]
        · simp [effect, hf, readResults, resultNow, owed]
    | _ =>
      have hd : d' = d := by simp only [Duplex.step, hp] at hs; injection hs with hs; exact hs.symm
      subst hd
      exact ⟨y, z, qo, qi, p, hs, h, by simp [effect, hp, OutSys.run], by simp [effect, hp, InSys.run], by simp [effect, hp, readResults, resultNow, owed]⟩
  | read =>
    cases hp : d.pc with
    | idle =>
      simp only [Duplex.step, hp] at hs
      injection hs with hs
      subst hs
      refine ⟨y, z, qo', qi', p', by simp only [Duplex.step, hp], ?_, rfl, rfl, by simp [effect, readResults, resultNow, owed]⟩
      exact sim_quiet h i' ip (Or.inl (by simp only [hp]; rfl)) (by simp only [hp]; rfl) ⟨rfl, rfl, rfl, rfl⟩ ⟨rfl, rfl, by simp only [hp]; rfl⟩ (by simp only [hp]; rfl)
    | _ =>
      have hd : d' = d := by simp only [Duplex.step, hp] at hs; injection hs with hs; exact hs.symm
      subst hd
      exact ⟨y, z, qo, qi, p, hs, h, rfl, rfl, by simp [effect, hp, readResults, resultNow, owed]⟩
  | main =>
    have hs' := hs
    simp only [Duplex.step, Duplex.main] at hs'
    have hpc := h.inv.pcok
    cases hp : d.pc with
    | idle =>
      simp only [hp] at hs'
      injection hs' with hs'
      subst hs'
      exact ⟨y, z, qo, qi, p, hs, h, by simp [effect, hp, OutSys.run], by simp [effect, hp, InSys.run], by simp [effect, hp, readResults, resultNow, owed]⟩
    | wChecked v =>
      simp only [hp] at hs'
      obtain ⟨x, hx, h2⟩ := dx_bind_ok hs'
      injection h2 with h2
      have ho : Rel d.out qo := by have := h.inv.orel; rw [hp] at this; exact this
      rw [hp] at hpc
      have hlt : d.out.w < d.out.buf.length := by have := ho.hw_lt; have := ho.hlen; omega
      rw [cSet_ok v hlt] at hx
      injection hx with hx
      subst hx
      have hst := rel_store ho v hpc.1
      subst h2
      refine ⟨y, z, qo', qi', p', hs, ?_, by simp [effect, hp, OutSys.run], by simp [effect, hp, InSys.run], by simp [effect, hp, readResults, resultNow, owed]⟩
      exact sim_quiet h i' ip (Or.inr hst) (by simp only [hp]; rfl) ⟨rfl, rfl, rfl, rfl⟩ ⟨rfl, rfl, by simp only [hp]; rfl⟩ (by simp only [hp]; rfl)
    | wStored v =>
      simp only [hp] at hs'
      injection hs' with hs'
      rw [hp] at hpc
      obtain ⟨hp1, hp2, hp3⟩ := hpc
      have hv : (BitVec.ofNat 8 v).toNat = v := by simp [BitVec.toNat_ofNat]; omega
      obtain ⟨y', r1, r2⟩ := (osim_write h.out (BitVec.ofNat 8 v)).2 (by rw [← h.inv.osize]; exact hp1)
      rw [hv] at r2
      have eo : qo' = qo ++ [v] := by
        have a := i'.order
        subst hs'
        have a : d.hw.line ++ d.hw.shift.toList ++ d.hw.tx.toList ++ qo' = d.accepted ++ [v] := a
        rw [← h.inv.order, List.append_assoc _ qo] at a
        exact List.append_cancel_left a
      have ei : qi' = qi := by
        refine rel_unique i'.irel ?_
        have := h.inv.irel
        rw [hp] at this
        subst hs'
        exact this
      subst eo ei
      refine ⟨y', z, _, _, p', hs, ⟨i', ip, ?_, ?_⟩, ?_, by simp [effect, hp, inSide, InSys.run], ?_⟩
      · subst hs'; exact r2
      · have := h.inn
        rw [hp] at this
        subst hs'
        exact this
      · simp only [effect, hp, List.flatMap_cons, List.flatMap_nil, List.append_nil]; exact r1
      · subst hs'
        simp [effect, hp, inSide, readResults, resultNow, owed]
    | wPast k =>
      simp only [hp] at hs'
      injection hs' with hs'
      subst hs'
      refine ⟨y, z, qo', qi', p', hs, ?_, by simp [effect, hp, OutSys.run], by simp [effect, hp, InSys.run], by simp [effect, hp, readResults, resultNow, owed]⟩
      exact sim_quiet h i' ip (Or.inl (by simp only [hp]; rfl)) (by simp only [hp]; rfl) ⟨rfl, rfl, rfl, rfl⟩ ⟨rfl, rfl, by simp only [hp]; rfl⟩ (by simp only [hp]; rfl)
    | rmw i ph =>
      rw [hp] at hpc
      obtain ⟨hi, hpc⟩ := hpc
      have hi8 : i < 8 := by omega
      cases ph with
      | start =>
        simp only [hp] at hs'
        injection hs' with hs'
        subst hs'
        refine ⟨y, z, qo', qi', p', hs, ?_, by simp [effect, hp, OutSys.run], by simp [effect, hp, InSys.run], by simp [effect, hp, readResults, resultNow, owed]⟩
        exact sim_quiet h i' ip (Or.inl (by simp only [hp]; rfl)) (by simp only [hp]; rfl) ⟨rfl, rfl, rfl, rfl⟩ ⟨rfl, rfl, by simp only [hp]; rfl⟩ (by simp only [hp]; rfl)
      | loaded1 v =>
        have hsm : Duplex.Same (clearBit i v) b := fun j h0 h1 h5 h7 => by
          rw [bit_clear i hi8, if_neg (by omega)]; exact hpc.1 j h0 h1 h5 h7
        obtain ⟨-, w2⟩ := Duplex.wf_write h.inv.wf h.inv.bits hsm
        simp only [hp] at hs'
        injection hs' with hs'
        subst hs'
        refine ⟨y, z, qo', qi', p', hs, ?_, by simp [effect, hp, OutSys.run], by simp [effect, hp, InSys.run], by simp [effect, hp, readResults, resultNow, owed]⟩
        exact sim_quiet h i' ip (Or.inl (by simp only [hp]; rfl)) (by simp only [hp]; rfl) ⟨rfl, rfl, rfl, w2⟩ ⟨rfl, rfl, by simp only [hp]; rfl⟩ (by simp only [hp]; rfl)
      | cleared =>
        simp only [hp] at hs'
        injection hs' with hs'
        subst hs'
        refine ⟨y, z, qo', qi', p', hs, ?_, by simp [effect, hp, OutSys.run], by simp [effect, hp, InSys.run], by simp [effect, hp, readResults, resultNow, owed]⟩
        exact sim_quiet h i' ip (Or.inl (by simp only [hp]; rfl)) (by simp only [hp]; rfl) ⟨rfl, rfl, rfl, rfl⟩ ⟨rfl, rfl, by simp only [hp]; rfl⟩ (by simp only [hp]; rfl)
      | loaded2 v =>
        have hsm : Duplex.Same (setBit i v) b := fun j h0 h1 h5 h7 => by
          rw [bit_set i hi8, if_neg (by omega)]; exact hpc.1 j h0 h1 h5 h7
        obtain ⟨-, w2⟩ := Duplex.wf_write h.inv.wf h.inv.bits hsm
        simp only [hp] at hs'
        injection hs' with hs'
        subst hs'
        refine ⟨y, z, qo', qi', p', hs, ?_, by simp [effect, hp, OutSys.run], by simp [effect, hp, InSys.run], ?_⟩
        · exact sim_quiet h i' ip (Or.inl (by simp only [hp]; rfl)) (by simp only [hp]; rfl) ⟨rfl, rfl, rfl, w2⟩ ⟨rfl, rfl, by simp only [hp]; rfl⟩ (by simp only [hp, asking, Bool.or_false])
        · rcases hi with rfl | rfl <;> simp [effect, hp, readResults, resultNow, owed]
    | rLoaded ge =>
      rw [hp] at hpc
      have hr : Rel d.inn qi := by have := h.inv.irel; rw [hp] at this; exact this
      have key := read_key hr (by rw [h.inv.isize]; exact hm) hpc
      simp only [hp] at hs'
      injection hs' with hs'
      by_cases hq : qi = []
      · subst hq
        rw [if_pos (key.2 rfl)] at hs'
        have hin := h.inn
        obtain ⟨z', r1, r2, r3⟩ := isim_nothing hm hin
        have ef : effect lim d .main = [.read] := by simp only [effect, hp]; rw [if_pos (key.2 rfl)]
        have eo : qo' = qo := by
          refine rel_unique i'.orel ?_
          have := h.inv.orel
          rw [hp] at this
          subst hs'
          exact this
        have ei : qi' = [] := by
          refine rel_unique i'.irel ?_
          have := h.inv.irel
          rw [hp] at this
          subst hs'
          exact this
        subst eo ei
        refine ⟨y, z', _, _, p', hs, ⟨i', ip, ?_, ?_⟩, by simp [ef, outSide, OutSys.run], by rw [ef]; exact r1, ?_⟩
        · subst hs'; exact h.out
        · rw [hp] at r2
          subst hs'
          simp only [asking, Bool.or_true, beq_self_eq_true]
          exact r2
        · rw [ef]
          show owed (.rLoaded ge) ++ readResults z [.read] = _
          rw [r3]
          subst hs'
          simp [owed, resultNow, hp]
      · rw [if_neg (fun e => hq (key.1 e))] at hs'
        have ef : effect lim d .main = [] := by simp only [effect, hp]; rw [if_neg (fun e => hq (key.1 e))]
        subst hs'
        refine ⟨y, z, qo', qi', p', hs, ?_, by rw [ef]; rfl, by rw [ef]; rfl, by rw [ef]; simp [hp, readResults, resultNow, owed]⟩
        exact sim_quiet h i' ip (Or.inl (by simp only [hp]; rfl)) (by simp only [hp]; rfl) ⟨rfl, rfl, rfl, rfl⟩ ⟨rfl, rfl, by simp only [hp]; rfl⟩ (by simp only [hp]; rfl)
    | rReady =>
      simp only [hp] at hs'
      obtain ⟨x, hx, h2⟩ := dx_bind_ok hs'
      injection h2 with h2
      subst h2
      refine ⟨y, z, qo', qi', p', hs, ?_, by simp [effect, hp, OutSys.run], by simp [effect, hp, InSys.run], by simp [effect, hp, readResults, resultNow, owed]⟩
      exact sim_quiet h i' ip (Or.inl (by simp only [hp]; rfl)) (by simp only [hp]; rfl) ⟨rfl, rfl, rfl, rfl⟩ ⟨rfl, rfl, by simp only [hp]; rfl⟩ (by simp only [hp]; rfl)
    | rGot v =>
      rw [hp] at hpc
      obtain ⟨q2, rfl⟩ := hpc
      simp only [hp] at hs'
      injection hs' with hs'
      have hr : Rel d.inn (v :: q2) := by have := h.inv.irel; rw [hp] at this; exact this
      have hin := h.inn
      rw [hp] at hin
      obtain ⟨z', r1, r2, r3⟩ := isim_read hm hin
      have ef : effect lim d .main = [.read] := by simp only [effect, hp]
      have eo : qo' = qo := by
        refine rel_unique i'.orel ?_
        have := h.inv.orel
        rw [hp] at this
        subst hs'
        exact this
      have ei : qi' = q2 := by
        refine rel_unique i'.irel ?_
        subst hs'
        exact rel_drop hr
      subst eo ei
      refine ⟨y, z', _, _, p', hs, ⟨i', ip, ?_, ?_⟩, by simp [ef, outSide, OutSys.run], by rw [ef]; exact r1, ?_⟩
      · subst hs'; exact h.out
      · subst hs'; exact r2
      · rw [ef]
        show owed (.rGot v) ++ readResults z [.read] = _
        rw [r3]
        subst hs'
        simp [owed, resultNow, hp]
    | rPast v k =>
      simp only [hp] at hs'
      injection hs' with hs'
      subst hs'
      refine ⟨y, z, qo', qi', p', hs, ?_, by simp [effect, hp, OutSys.run], by simp [effect, hp, InSys.run], by simp [effect, hp, readResults, resultNow, owed]⟩
      exact sim_quiet h i' ip (Or.inl (by simp only [hp]; rfl)) (by simp only [hp]; rfl) ⟨rfl, rfl, rfl, rfl⟩ ⟨rfl, rfl, by simp only [hp]; rfl⟩ (by simp only [hp]; rfl)
  | txIsr =>
    by_cases hc : (isTrue 5 d.hw.ucsrb && getAcceptData d.hw && d.txWindow.all (· < lim)) = true
    · have ef : effect lim d .txIsr = [.txIsr] := by simp only [effect, hc, if_true]
      have hs' := hs
      simp only [Duplex.step, hc, if_true] at hs'
      simp only [Bool.and_eq_true] at hc
      obtain ⟨⟨hc1, hc2⟩, hc3⟩ := hc
      rw [isTrue_bit 5 (by omega)] at hc1
      have htx : d.hw.tx = none := by rw [accept_iff] at hc2; simpa using hc2
      have hwin : ∀ k, d.pc = .wPast k → d.out.w ≤ d.out.size ∧ (qo ≠ [] ∨ d.out.w < d.out.size) := by
        intro k hk
        simp only [Duplex.txWindow, hk, Option.all_some, decide_eq_true_eq] at hc3
        have hpc := h.inv.pcok
        rw [hk] at hpc
        refine ⟨hpc.1, ?_⟩
        by_cases hq : qo = []
        · right
          have hw := h.ptr.w
          have hpos := h.ptr.pos ⟨k, hk⟩
          rw [hk] at hw
          simp only at hw
          rw [hw, h.inv.osize]
          refine mod_not_last hn0 ?_
          rw [show d.accepted.length - 1 + 1 = d.accepted.length by omega]
          intro h0
          refine ht rfl ⟨⟨k, hk, hc3⟩, hc1, htx, h0, ?_⟩
          rw [← h.inv.order, hq, htx]
          simp
        · exact Or.inl hq
      have ho : owed d.pc ++ readResults z ((effect lim d .txIsr).flatMap inSide) = resultNow d .txIsr ++ owed (Duplex.txPc d.pc) := by
        rw [ef]
        cases hp : d.pc <;> simp [inSide, readResults, resultNow, owed, Duplex.txPc]
      have ha : asking (Duplex.txPc d.pc) = asking d.pc := by cases hp : d.pc <;> rfl
      have ei : d'.inn = d.inn → d'.pc = Duplex.txPc d.pc → qi' = qi := by
        intro e1 e2
        refine rel_unique i'.irel ?_
        rw [e1, e2, Duplex.innView_txPc]
        exact h.inv.irel
      rcases Duplex.tx_buf h.inv.orel (by rw [h.inv.osize]; exact hn) hwin with ⟨rfl, hl⟩ | ⟨v, q', b', rfl, hl, hrd, hrel, hsz, hw', hbuf⟩
      · obtain ⟨e1, e2, e3, e4, e5⟩ := bitB_effect 5 (by omega) (by omega) false d.hw h.inv.wf
        simp only [OutStream.isr, hl, ne_eq, not_true_eq_false, if_false, Res.bind_ok] at hs'
        injection hs' with hs'
        obtain ⟨y', r1, r2⟩ := (osim_isr hn h.out htx (h' := d.hw.bitB 5 false) e5 e4).1 rfl (e3.trans htx)
        have ei' := ei (by rw [← hs']) (by rw [← hs'])
        have eo : qo' = [] := by
          refine rel_unique i'.orel ?_
          rw [← hs']
          simp only [Duplex.outView_txPc]
          exact h.inv.orel
        subst ei' eo
        refine ⟨y', z, _, _, p', hs, ⟨i', ip, ?_, ?_⟩, by rw [ef]; exact r1, by rw [ef]; rfl, by rw [← hs']; exact ho⟩
        · rw [← hs']; exact r2
        · rw [← hs']
          simp only [Duplex.given_txPc, ha]
          have hin := h.inn
          rw [← e2] at hin
          exact hin
      · obtain ⟨e1, e2, e3, e4, e5, e6⟩ := c57_write v d.hw h.inv.wf htx
        have hv : v < 256 := h.inv.obytes v (by simp)
        have e1' : (writeInternal v d.hw).tx = some v := by
          rw [e1]; congr 1; split <;> omega
        simp only [OutStream.isr, ne_eq, hl, not_false_eq_true, if_true, hrd, Res.bind_ok] at hs'
        injection hs' with hs'
        obtain ⟨y', r1, r2⟩ := (osim_isr hn h.out htx (h' := writeInternal v d.hw) e6 e5).2 v q' rfl e1'
        have ei' := ei (by rw [← hs']) (by rw [← hs'])
        have eo : qo' = q' := by
          refine rel_unique i'.orel ?_
          rw [← hs']
          simp only [Duplex.outView_txPc]
          exact hrel
        subst ei' eo
        refine ⟨y', z, _, _, p', hs, ⟨i', ip, ?_, ?_⟩, by rw [ef]; exact r1, by rw [ef]; rfl, by rw [← hs']; exact ho⟩
        · rw [← hs']; exact r2
        · rw [← hs']
          simp only [Duplex.given_txPc, ha]
          have hin := h.inn
          rw [← e4] at hin
          exact hin
    · have hd : d' = d := by simp only [Duplex.step, hc] at hs; injection hs with hs; exact hs.symm
      subst hd
      exact ⟨y, z, qo, qi, p, hs, h, by simp only [effect, hc]; rfl, by simp only [effect, hc]; rfl, by simp [effect, hc, readResults, resultNow]⟩
  | rxIsr =>
    by_cases hc : (isTrue 7 d.hw.ucsrb && rxComplete d.hw && d.rxWindow.all (· < lim)) = true
    · have ef : effect lim d .rxIsr = [.rxIsr] := by simp only [effect, hc, if_true]
      have hs' := hs
      simp only [Duplex.step, hc, if_true] at hs'
      simp only [Bool.and_eq_true] at hc
      obtain ⟨⟨hc1, hc2⟩, hc3⟩ := hc
      rw [complete_iff] at hc2
      rw [isTrue_bit 7 (by omega)] at hc1
      have hie : (b.getLsbD 7 || d.asked || asking d.pc) = true := by
        cases hoff : Duplex.rxOff d.pc with
        | false => rw [h.inv.rxie hoff] at hc1; rw [hc1]; rfl
        | true =>
          have : asking d.pc = true := by
            cases hp : d.pc with
            | rmw i ph => rw [hp] at hoff; cases ph <;> simp_all [Duplex.rxOff, asking]
            | _ => rw [hp] at hoff; simp [Duplex.rxOff] at hoff
          rw [this]; simp
      have ha : asking (Duplex.rxPc d.pc) = asking d.pc := by cases hp : d.pc <;> rfl
      have hod : owed (Duplex.rxPc d.pc) = owed d.pc := by cases hp : d.pc <;> rfl
      have hin := h.inn
      rw [hie] at hin
      cases hx : d.hw.rx with
      | nil => rw [hx] at hc2; simp at hc2
      | cons f r =>
        have hf : f.data < 512 := h.inv.small f (by rw [← h.inv.taken, hx]; simp)
        obtain ⟨a1, a2, a3⟩ := flags d.hw f r hx
        have g : (getResult d.hw = .success) ↔ Frame.good f = true := by
          unfold getResult Frame.good
          rw [a1, a2, a3]
          cases f.fe <;> cases f.dor <;> cases f.upe <;> decide
        have rd := c57_read d.hw f r hx hf
        have htr : (if d.hw.ucsrb.getLsbD 2 = true then f.data else f.data % 256) % 256 = f.data % 256 := by split <;> omega
        rw [hx] at hin
        obtain ⟨z', r1, r2, r3, r4⟩ := isim_isr hf hin
        have fin : ∀ bf l, d' = { d with inn := bf, hw := { d.hw with rx := r }, pc := Duplex.rxPc d.pc, lost := l } →
            ISim m b r d.kept (Duplex.given d.pc d.returned) true z' qi' →
            ∃ y' z' qo' qi' p', Duplex.step lim d .rxIsr = .ok d' ∧ Sim n m b d' y' z' qo' qi' p' ∧
              y.run ((effect lim d .rxIsr).flatMap outSide) = .ok y' ∧ z.run ((effect lim d .rxIsr).flatMap inSide) = .ok z' ∧
              owed d.pc ++ readResults z ((effect lim d .rxIsr).flatMap inSide) = resultNow d .rxIsr ++ owed d'.pc := by
          intro bf l e1 e2
          have eo : qo' = qo := by
            refine rel_unique i'.orel ?_
            rw [e1]
            simp only [Duplex.outView_rxPc]
            exact h.inv.orel
          subst eo
          refine ⟨y, z', _, _, p', hs, ⟨i', ip, ?_, ?_⟩, by rw [ef]; rfl, by rw [ef]; exact r1, ?_⟩
          · rw [e1]; exact ⟨h.out.inv, h.out.ph, h.out.acc, h.out.tx, h.out.sh, h.out.ln⟩
          · rw [e1]
            simp only [Duplex.given_rxPc, ha, hie]
            exact e2
          · rw [ef]
            show owed d.pc ++ readResults z [.isr] = _
            rw [r2, e1, hod]
            simp [resultNow]
        by_cases hg : Frame.good f = true
        · have hwin : ∀ x k, d.pc = .rPast x k → d.inn.r ≤ d.inn.size ∧ (qi.length + 1 < d.inn.size ∨ d.inn.r < d.inn.size) := by
            intro x k hk
            simp only [Duplex.rxWindow, hk, Option.all_some, decide_eq_true_eq] at hc3
            have hpc := h.inv.pcok
            rw [hk] at hpc
            refine ⟨hpc.1, ?_⟩
            by_cases hq : qi.length + 1 < d.inn.size
            · exact Or.inl hq
            · right
              have hr' := h.ptr.r
              rw [hk] at hr'
              simp only at hr'
              rw [hr', h.inv.isize]
              refine mod_not_last hm0 ?_
              intro h0
              refine hr rfl ⟨⟨x, k, hk, hc3⟩, hc1, ⟨f, r, hx, hg⟩, h0, ?_⟩
              rw [taken_eq h.inv, ← h.inv.count, hk]
              rw [h.inv.isize] at hq
              simp only [Duplex.given, List.length_append, List.length_singleton]
              omega
          obtain ⟨b', acc, hb, hsz, hr', hlt, hfl, hcase⟩ := Duplex.rx_buf (f.data % 256) h.inv.irel hwin
          simp only [InStream.isr, rd, htr, g, hg, if_true, hb, Res.bind_ok] at hs'
          injection hs' with hs'
          refine fin b' _ hs'.symm ?_
          rcases hcase with ⟨rfl, rfl, hfull⟩ | ⟨rfl, hrel⟩
          · have ei : qi' = qi := by
              refine rel_unique i'.irel ?_
              rw [← hs']
              simp only [Duplex.innView_rxPc]
              exact h.inv.irel
            rw [ei]
            exact r4 fun _ => by rw [← h.inv.isize]; exact hfull
          · have ei : qi' = qi ++ [f.data % 256] := by
              refine rel_unique i'.irel ?_
              rw [← hs']
              simp only [Duplex.innView_rxPc]
              exact hrel
            rw [ei]
            refine r3 hg ?_
            have := hrel.hq
            have e : (Duplex.innView d.pc b').size = m := by rw [← h.inv.isize, ← hsz]; cases d.pc <;> rfl
            rw [e, List.length_append, List.length_singleton] at this
            exact this
        · simp only [InStream.isr, rd, g, hg] at hs'
          injection hs' with hs'
          refine fin d.inn _ hs'.symm ?_
          have ei : qi' = qi := by
            refine rel_unique i'.irel ?_
            rw [← hs']
            simp only [Duplex.innView_rxPc]
            exact h.inv.irel
          rw [ei]
          exact r4 fun hx => absurd hx hg
    · have hd : d' = d := by simp only [Duplex.step, hc] at hs; injection hs with hs; exact hs.symm
      subst hd
      exact ⟨y, z, qo, qi, p, hs, h, by simp only [effect, hc]; rfl, by simp only [effect, hc]; rfl, by simp [effect, hc, readResults, resultNow]⟩
  | arrive f =>
    obtain ⟨z', r1, r2, r3, r4⟩ := isim_arrive f h.inn
    have hs' := hs
    simp only [Duplex.step] at hs'
    injection hs' with hs'
    have h4 : isTrue 4 d.hw.ucsrb = b.getLsbD 4 := by rw [isTrue_bit 4 (by omega), h.inv.bits 4 (by omega) (by omega) (by omega) (by omega)]
    by_cases hc : b.getLsbD 4 = true ∧ d.hw.rx.length < 3
    · rw [h4, if_pos (by rw [hc.1]; simpa using hc.2)] at hs'
      have eo : qo' = qo := rel_unique i'.orel (by rw [← hs']; exact h.inv.orel)
      have ei : qi' = qi := rel_unique i'.irel (by rw [← hs']; exact h.inv.irel)
      subst eo ei
      refine ⟨y, z', _, _, p', hs, ⟨i', ip, ?_, ?_⟩, rfl, r1, ?_⟩
      · rw [← hs']; exact ⟨h.out.inv, h.out.ph, h.out.acc, h.out.tx, h.out.sh, h.out.ln⟩
      · rw [← hs']; exact r3 hc
      · rw [← hs']
        show owed d.pc ++ readResults z [.arrive f] = _
        rw [r2]; simp [resultNow]
    · rw [h4, if_neg (by simpa using hc)] at hs'
      subst hs'
      refine ⟨y, z', qo, qi, p, hs, ⟨h.inv, h.ptr, h.out, r4 hc⟩, rfl, r1, ?_⟩
      show owed d.pc ++ readResults z [.arrive f] = _
      rw [r2]; simp [resultNow]
  | frame =>
    obtain ⟨y', r1, r2⟩ := osim_frame h.out
    have hs' := hs
    simp only [Duplex.step] at hs'
    injection hs' with hs'
    have eo : qo' = qo := rel_unique i'.orel (by rw [← hs']; exact h.inv.orel)
    have ei : qi' = qi := rel_unique i'.irel (by rw [← hs']; exact h.inv.irel)
    subst eo ei
    refine ⟨y', z, _, _, p', hs, ⟨i', ip, ?_, ?_⟩, r1, rfl, ?_⟩
    · rw [← hs']; exact r2
    · rw [← hs']; exact h.inn
    · rw [← hs']; simp [effect, inSide, readResults, resultNow]
  | load =>
    obtain ⟨y', r1, r2⟩ := osim_load h.out
    have hs' := hs
    simp only [Duplex.step] at hs'
    injection hs' with hs'
    have eo : qo' = qo := rel_unique i'.orel (by rw [← hs']; exact h.inv.orel)
    have ei : qi' = qi := rel_unique i'.irel (by rw [← hs']; exact h.inv.irel)
    subst eo ei
    refine ⟨y', z, _, _, p', hs, ⟨i', ip, ?_, ?_⟩, r1, rfl, ?_⟩
    · rw [← hs']; exact r2
    · rw [← hs']
      have : d.hw.load.rx = d.hw.rx := by unfold Hw.load; split <;> rfl
      rw [this]
      exact h.inn
    · rw [← hs']; simp [effect, inSide, readResults, resultNow]

/-! ### Histories of both -/

/-- The call main code is inside of, if it has not taken effect. -/
def started : DPc → List DEv
  | .wChecked v | .wStored v => [.write (BitVec.ofNat 8 v)]
  | .rLoaded _ | .rReady | .rGot _ => [.read]
  | _ => []

theorem whole_run {n m lim : Nat} {b : BitVec 8} (hn0 : 0 < n) (hm0 : 0 < m) (hn : n < 65536) (hm : m < 65536) (es : List DEv) :
    ∀ {d : Duplex} {y : OutSys} {z : InSys} {qo qi : List Nat} {p : List Frame}, (∀ e ∈ es, Duplex.evOk e) → CalmRun n m lim d es → Sim n m b d y z qo qi p →
    ∃ d' y' z' qo' qi' p', Duplex.run lim d es = .ok d' ∧ Sim n m b d' y' z' qo' qi' p' ∧
      y.run ((wholeCalls lim d es).flatMap outSide) = .ok y' ∧ z.run ((wholeCalls lim d es).flatMap inSide) = .ok z' ∧
      owed d.pc ++ readResults z ((wholeCalls lim d es).flatMap inSide) = resultsAt lim d es ++ owed d'.pc := by
  induction es with
  | nil => intro d y z qo qi p _ _ h; exact ⟨d, y, z, qo, qi, p, rfl, h, rfl, rfl, by simp [wholeCalls, readResults, resultsAt]⟩
  | cons e es ih =>
    intro d y z qo qi p hes hc h
    obtain ⟨c1, c2, c3⟩ := hc
    obtain ⟨d1, y1, z1, qo1, qi1, p1, s1, i1, o1, n1, r1⟩ := sim_step (lim := lim) hn0 hm0 hn hm h e (hes e (by simp)) c1 c2
    obtain ⟨d2, y2, z2, qo2, qi2, p2, s2, i2, o2, n2, r2⟩ := ih (fun x hx => hes x (by simp [hx])) (c3 d1 s1) i1
    obtain ⟨a1, a2⟩ := in_append _ ((wholeCalls lim d1 es).flatMap inSide) _ _ n1
    have ew : wholeCalls lim d (e :: es) = effect lim d e ++ wholeCalls lim d1 es := by simp only [wholeCalls, s1]
    refine ⟨d2, y2, z2, qo2, qi2, p2, by simp only [Duplex.run, s1, Res.bind_ok]; exact s2, i2, ?_, ?_, ?_⟩
    · rw [ew, List.flatMap_append, out_append _ _ _ _ o1]; exact o2
    · rw [ew, List.flatMap_append, a1]; exact n2
    · rw [ew, List.flatMap_append, a2, ← List.append_assoc, r1, List.append_assoc, r2]
      simp only [resultsAt, s1, resultNow, List.append_assoc]

theorem calls_step {lim : Nat} {d d' : Duplex} {e : DEv} (h : Duplex.step lim d e = .ok d') :
    (effect lim d e).filter isCall ++ started d'.pc = started d.pc ++ (if d.pc = .idle ∧ isCall e = true then [e] else []) ∧
    (effect lim d e).filter isHardware = [e].filter isHardware ∧ List.Sublist ((effect lim d e).filter fun x => !isCall x) [e] := by
  cases e with
  | write v =>
    refine ⟨?_, ?_, ?_⟩
    · cases hp : d.pc with
      | idle =>
        simp only [Duplex.step, hp] at h
        injection h with h
        by_cases hf : isFull d.out = true
        · rw [if_pos hf] at h; subst h; simp [effect, hp, hf, started, isCall]
        · rw [if_neg hf] at h; subst h; simp [effect, hf, started, isCall]
      | _ => simp only [Duplex.step, hp] at h; injection h with h; subst h; simp [effect, hp, started]
    · simp only [effect]; split <;> rfl
    · simp only [effect]; split <;> simp [isCall]
  | read =>
    refine ⟨?_, by simp [effect, isHardware], by simp [effect]⟩
    cases hp : d.pc with
    | idle => simp only [Duplex.step, hp] at h; injection h with h; subst h; simp [effect, started, isCall]
    | _ => simp only [Duplex.step, hp] at h; injection h with h; subst h; simp [effect, hp, started]
  | main =>
    simp only [Duplex.step, Duplex.main] at h
    cases hp : d.pc with
    | wChecked v =>
      simp only [hp] at h
      obtain ⟨x, -, h2⟩ := dx_bind_ok h
      injection h2 with h2
      subst h2
      simp [effect, hp, started, isCall, isHardware]
    | rReady =>
      simp only [hp] at h
      obtain ⟨x, -, h2⟩ := dx_bind_ok h
      injection h2 with h2
      subst h2
      simp [effect, hp, started, isCall, isHardware]
    | rLoaded ge =>
      simp only [hp] at h
      injection h with h
      by_cases hl : (if ge then toU 16 ((d.inn.w : Int) - d.inn.r) else toU 16 ((d.inn.size : Int) - ((d.inn.r : Int) - d.inn.w))) = 0
      · rw [if_pos hl] at h
        subst h
        simp only [effect, hp, if_pos hl]
        simp [started, isCall, isHardware]
      · rw [if_neg hl] at h
        subst h
        simp only [effect, hp, if_neg hl]
        simp [started, isCall, isHardware]
    | rmw i ph => cases ph <;> (simp only [hp] at h; injection h with h; subst h; simp [effect, hp, started, isCall, isHardware])
    | _ => simp only [hp] at h; injection h with h; subst h; simp [effect, hp, started, isCall, isHardware]
  | txIsr =>
    by_cases hc : (isTrue 5 d.hw.ucsrb && getAcceptData d.hw && d.txWindow.all (· < lim)) = true
    · have ef : effect lim d .txIsr = [.txIsr] := by simp only [effect, hc, if_true]
      simp only [Duplex.step, hc, if_true] at h
      obtain ⟨x, -, h2⟩ := dx_bind_ok h
      injection h2 with h2
      subst h2
      rw [ef]
      refine ⟨?_, rfl, by simp [isCall]⟩
      cases hp : d.pc <;> simp [started, Duplex.txPc, isCall]
    · have ef : effect lim d .txIsr = [] := by simp only [effect, hc]; rfl
      simp only [Duplex.step, hc] at h
      injection h with h
      subst h
      rw [ef]
      simp [isCall, isHardware]
  | rxIsr =>
    by_cases hc : (isTrue 7 d.hw.ucsrb && rxComplete d.hw && d.rxWindow.all (· < lim)) = true
    · have ef : effect lim d .rxIsr = [.rxIsr] := by simp only [effect, hc, if_true]
      simp only [Duplex.step, hc, if_true] at h
      obtain ⟨x, -, h2⟩ := dx_bind_ok h
      injection h2 with h2
      subst h2
      rw [ef]
      refine ⟨?_, rfl, by simp [isCall]⟩
      cases hp : d.pc <;> simp [started, Duplex.rxPc, isCall]
    · have ef : effect lim d .rxIsr = [] := by simp only [effect, hc]; rfl
      simp only [Duplex.step, hc] at h
      injection h with h
      subst h
      rw [ef]
      simp [isCall, isHardware]
  | arrive f =>
    simp only [Duplex.step] at h
    injection h with h
    have : d'.pc = d.pc := by rw [← h]; split <;> rfl
    rw [this]
    simp [effect, isCall, isHardware]
  | frame => simp only [Duplex.step] at h; injection h with h; subst h; simp [effect, isCall, isHardware]
  | load => simp only [Duplex.step] at h; injection h with h; subst h; simp [effect, isCall, isHardware]

theorem calls_run {lim : Nat} (es : List DEv) : ∀ {d d' : Duplex}, Duplex.run lim d es = .ok d' →
    (wholeCalls lim d es).filter isCall ++ started d'.pc = started d.pc ++ callsMade lim d es ∧
    (wholeCalls lim d es).filter isHardware = es.filter isHardware ∧ List.Sublist ((wholeCalls lim d es).filter fun x => !isCall x) es := by
  induction es with
  | nil => intro d d' h; injection h with h; subst h; simp [wholeCalls, callsMade]
  | cons e es ih =>
    intro d d' h
    obtain ⟨d1, s1, h1⟩ := dx_bind_ok h
    obtain ⟨a1, a2, a3⟩ := calls_step s1
    obtain ⟨b1, b2, b3⟩ := ih h1
    have ew : wholeCalls lim d (e :: es) = effect lim d e ++ wholeCalls lim d1 es := by simp only [wholeCalls, s1]
    rw [ew]
    refine ⟨?_, ?_, ?_⟩
    · rw [List.filter_append, List.append_assoc, b1, ← List.append_assoc, a1, List.append_assoc]
      simp only [callsMade, s1]
    · rw [List.filter_append, a2, b2]
      rw [show e :: es = [e] ++ es from rfl, List.filter_append]
    · rw [List.filter_append]
      exact a3.append b3

theorem init_sim (g1 g2 : List Nat) (b : BitVec 8) (h1 : 0 < g1.length) (h2 : 0 < g2.length) :
    Sim g1.length g2.length b (Duplex.init g1 g2 b) (outInit g1 b) (inInit g2 b) [] [] [] :=
  ⟨Duplex.init_inv g1 g2 b h1 h2, ⟨by simp [Duplex.init, RingBuffer.mk], by simp [Duplex.init], by simp [Duplex.init, RingBuffer.mk]⟩,
    ⟨outInit_inv g1 b h1, rfl, rfl, rfl, rfl, rfl⟩,
    ⟨rel_mk g2 h2, rfl, rfl, rfl, rfl, Or.inr rfl, rfl, by simp [inInit, Duplex.init, asking]⟩⟩

theorem inSide_ok {lim : Nat} {d d' : Duplex} {es : List DEv} (hes : ∀ e ∈ es, Duplex.evOk e) (hr : Duplex.run lim d es = .ok d') :
    ∀ e ∈ (wholeCalls lim d es).flatMap inSide, InEv.ok e := by
  intro e he
  obtain ⟨a, ha, hae⟩ := List.mem_flatMap.1 he
  cases a with
  | arrive f =>
    have hm : DEv.arrive f ∈ es := (calls_run es hr).2.2.subset (List.mem_filter.2 ⟨ha, rfl⟩)
    simp only [inSide, List.mem_singleton] at hae
    subst hae
    exact hes _ hm
  | read => simp only [inSide, List.mem_singleton] at hae; subst hae; trivial
  | rxIsr => simp only [inSide, List.mem_singleton] at hae; subst hae; trivial
  | _ => simp [inSide] at hae

end Whole
open Whole

/-- **C137.** The history of whole calls grows with the history. -/
theorem c137_prefix (lim : Nat) (es fs : List DEv) (d d' : Duplex) (h : Duplex.run lim d es = .ok d') : wholeCalls lim d (es ++ fs) = wholeCalls lim d es ++ wholeCalls lim d' fs := by
  induction es generalizing d with
  | nil => injection h with h; subst h; rfl
  | cons e es ih =>
    obtain ⟨d1, s1, h1⟩ := dx_bind_ok h
    simp only [List.cons_append, wholeCalls, s1, ih d1 h1, List.append_assoc]

example := c137_prefix 1 [.read, .main] [.main, .main, .main, .main] (Duplex.init [0, 0] [0, 0] 0x18#8) _ rfl

/-- **C137.** The calls in the history of whole calls are those main code makes, in order: all of them when it is outside a call, all but perhaps the one it is inside of otherwise;
    the hardware does the same in both, and a handler runs in the history of whole calls only where it runs. -/
theorem c137_history (lim : Nat) (g1 g2 : List Nat) (b : BitVec 8) (es : List DEv) (d : Duplex) (h : Duplex.run lim (Duplex.init g1 g2 b) es = .ok d) :
    (∃ r, (wholeCalls lim (Duplex.init g1 g2 b) es).filter isCall ++ r = callsMade lim (Duplex.init g1 g2 b) es ∧ r.length ≤ 1 ∧ (d.pc = .idle → r = [])) ∧
    (wholeCalls lim (Duplex.init g1 g2 b) es).filter isHardware = es.filter isHardware ∧
    List.Sublist ((wholeCalls lim (Duplex.init g1 g2 b) es).filter fun x => !isCall x) es := by
  obtain ⟨a1, a2, a3⟩ := calls_run es h
  refine ⟨⟨started d.pc, a1, ?_, ?_⟩, a2, a3⟩
  · cases d.pc <;> simp [started]
  · intro hp; rw [hp]; rfl

example := c137_history 1 [0, 0] [0, 0] 0x18#8 [.write 5, .main, .frame, .main, .txIsr, .main] _ rfl

/-- **C137.** Both streams at the level of memory accesses, any buffers and control register, any history in which no handler run comes too often (C108; exactly the histories
    in which the streams are right): they are where the streams of whole calls are after the history of whole calls.  The same bytes have been accepted and are in the
    transmitter and on the line; the same frames have been kept and wait in the receiver; outside calls the buffers hold as much and the same bytes have been returned; and
    every `Read` that has returned has returned what it returns there, -1 included. -/
theorem c137_whole_calls_partial (lim : Nat) (g1 g2 : List Nat) (b : BitVec 8) (h1 : 0 < g1.length) (h2 : 0 < g2.length) (n1 : g1.length < 65536) (n2 : g2.length < 65536)
    (es : List DEv) (hes : ∀ e ∈ es, Duplex.evOk e) (hc : CalmRun g1.length g2.length lim (Duplex.init g1 g2 b) es) :
    ∃ d y z, Duplex.run lim (Duplex.init g1 g2 b) es = .ok d ∧
      (outInit g1 b).run ((wholeCalls lim (Duplex.init g1 g2 b) es).flatMap outSide) = .ok y ∧
      (inInit g2 b).run ((wholeCalls lim (Duplex.init g1 g2 b) es).flatMap inSide) = .ok z ∧
      y.phase = .idle ∧ y.accepted = d.accepted ∧ y.s.hw.tx = d.hw.tx ∧ y.s.hw.shift = d.hw.shift ∧ y.s.hw.line = d.hw.line ∧
      z.kept = d.kept ∧ z.s.hw.rx = d.hw.rx ∧ d.returned <+: z.returned ∧
      (∃ r, readResults (inInit g2 b) ((wholeCalls lim (Duplex.init g1 g2 b) es).flatMap inSide) = resultsAt lim (Duplex.init g1 g2 b) es ++ r ∧ r.length ≤ 1 ∧ (d.pc = .idle → r = [])) ∧
      (d.pc = .idle → RingBuffer.getLength d.out = RingBuffer.getLength y.s.buf ∧ RingBuffer.getLength d.inn = RingBuffer.getLength z.s.buf ∧ z.returned = d.returned ∧
        z.s.hw.ucsrb.getLsbD 7 = d.hw.ucsrb.getLsbD 7) := by
  obtain ⟨d, y, z, qo, qi, p, hr, hs, ho, hi, hres⟩ := whole_run (lim := lim) h1 h2 n1 n2 es hes hc (init_sim g1 g2 b h1 h2)
  refine ⟨d, y, z, hr, ho, hi, hs.out.ph, hs.out.acc, hs.out.tx, hs.out.sh, hs.out.ln, hs.inn.kept, hs.inn.rx, ?_, ⟨owed d.pc, ?_, ?_, ?_⟩, ?_⟩
  · rw [hs.inn.ret]
    cases d.pc <;> simp [Duplex.given]
  · simpa [owed, Duplex.init] using hres
  · cases d.pc <;> simp only [owed] <;> (try split) <;> simp
  · intro hp; rw [hp]; rfl
  · intro hp
    have a := hs.inv.orel
    have c := hs.inv.irel
    have e := hs.inn.ret
    have f := hs.inn.b7
    rw [hp] at a c e f
    have f' := hs.inv.rxie (by rw [hp]; rfl)
    refine ⟨?_, ?_, e, ?_⟩
    · rw [getLength_rel (show Rel d.out qo from a) (by rw [hs.inv.osize]; exact n1), getLength_rel hs.out.inv.rel (by rw [hs.out.inv.size]; exact n1)]
    · rw [getLength_rel (show Rel d.inn qi from c) (by rw [hs.inv.isize]; exact n2), getLength_rel hs.inn.rel (by rw [hs.inn.size]; exact n2)]
    · rw [f, f']; simp [asking]

example := c137_whole_calls_partial 1 [9, 9, 9] [7, 7, 7] 0x18#8 (by decide) (by decide) (by decide) (by decide)
  [.write 65, .main, .main, .main, .read, .main, .arrive ⟨1, false, false, false⟩, .txIsr, .rxIsr, .main] (by simp [Duplex.evOk])
  (c108_once_calm 1 (by decide) _ _ _ (by decide) (by decide) (by decide) (by decide) _ (by simp [Duplex.evOk]))

/-- A `Read` in the middle of which the receive handler stores a byte: it took effect before the handler ran, and returns -1; the one after it returns the byte.  The transmit handler
    runs in the middle of a `Write`, which took effect before. -/
example :
    let es : List DEv := [.read, .main, .main, .main, .main, .arrive ⟨7, false, false, false⟩, .main, .rxIsr] ++ dRead ++
      [.write 65, .main, .main, .txIsr, .main, .main, .main, .main, .main, .txIsr]
    resultsAt 1 (Duplex.init [0, 0, 0] [0, 0, 0] 0x18#8) es = [-1, 7] ∧
    wholeCalls 1 (Duplex.init [0, 0, 0] [0, 0, 0] 0x18#8) es = [.read, .arrive ⟨7, false, false, false⟩, .rxIsr, .read, .write 65, .txIsr] ∧
    callsMade 1 (Duplex.init [0, 0, 0] [0, 0, 0] 0x18#8) es = [.read, .read, .write 65] := by decide +kernel

/-- **C137.** Where the handler of each stream runs at most once in a window (it is a few instructions, a frame takes hundreds) the streams always behave as with whole calls; and what
    the calls of `Read` return is, -1 included, what the specification of the input stream says of the history of whole calls. -/
theorem c137_once (lim : Nat) (hlim : lim ≤ 1) (g1 g2 : List Nat) (b : BitVec 8) (h1 : 0 < g1.length) (h2 : 0 < g2.length) (n1 : g1.length < 65536) (n2 : g2.length < 65536)
    (es : List DEv) (hes : ∀ e ∈ es, Duplex.evOk e) :
    ∃ d x r, Duplex.run lim (Duplex.init g1 g2 b) es = .ok d ∧
      x = Spec.Usart.Inbox.run (g2.length - 1) { on := b.getLsbD 4, ie := b.getLsbD 7 } (((wholeCalls lim (Duplex.init g1 g2 b) es).flatMap inSide).map inAct) ∧
      x.returned = resultsAt lim (Duplex.init g1 g2 b) es ++ r ∧ r.length ≤ 1 ∧ (d.pc = .idle → r = []) ∧
      d.hw.rx.map (fun f => (f.data % 256, Frame.good f)) = x.fifo ∧ (d.pc = .idle → RingBuffer.getLength d.inn = x.queue.length ∧ d.hw.ucsrb.getLsbD 7 = x.ie) := by
  obtain ⟨d, y, z, hr, ho, hi, -, -, -, -, -, -, hrx, -, ⟨r, r1, r2, r3⟩, hid⟩ :=
    c137_whole_calls_partial lim g1 g2 b h1 h2 n1 n2 es hes (c108_once_calm lim hlim g1 g2 b h1 h2 n1 n2 es hes)
  obtain ⟨z', x, e1, e2, e3, -, e5, e6, e7⟩ := c76_exact g2 b h2 n2 ((wholeCalls lim (Duplex.init g1 g2 b) es).flatMap inSide) (inSide_ok hes hr)
  rw [hi] at e1
  injection e1 with e1
  subst e1
  refine ⟨d, x, r, hr, e2, by rw [← e3]; exact r1, r2, r3, by rw [← hrx]; exact e6, fun hp => ?_⟩
  obtain ⟨-, f2, -, f4⟩ := hid hp
  exact ⟨f2.trans e5, by rw [← f4]; exact e7⟩

example := c137_once 1 (by decide) [9, 9, 9] [7, 7, 7] 0x98#8 (by decide) (by decide) (by decide) (by decide)
  [.read, .main, .arrive ⟨1, false, false, false⟩, .rxIsr, .main, .main, .main, .main] (by simp [Duplex.evOk])

open Atl.Spec.Usart Atl.Spec.SerialLine

/-- The frames that come in. -/
def comeIn (es : List DEv) : List Frame := es.flatMap fun
  | .arrive f => [f]
  | _ => []

theorem Whole.arrivals_side (l : List DEv) : arrivals (l.flatMap inSide) = comeIn (l.filter isHardware) := by
  induction l with
  | nil => rfl
  | cons e l ih =>
    rw [List.flatMap_cons]
    have ea : ∀ a c, arrivals (a ++ c) = arrivals a ++ arrivals c := fun a c => by simp [arrivals]
    rw [ea, ih]
    cases e <;> simp [inSide, arrivals, comeIn, isHardware, List.filter_cons]

theorem Whole.comeIn_hardware (l : List DEv) : comeIn (l.filter isHardware) = comeIn l := by
  induction l with
  | nil => rfl
  | cons e l ih => cases e <;> simp_all [comeIn, isHardware, List.filter_cons]

/-- **C137, from board to board.** C132 with both programs at the level of memory accesses, each using both of its streams: two boards with the same clock and configuration, any
    histories in which no handler run comes too often, any pauses on the line, while `k` of the characters have come in: the bytes `Read` returns on one are, in order, taken from
    those `Write` accepted on the other; and while the receiving program keeps up they are the first ones without a gap. -/
theorem c137_boards (c : Config) (h : Setting c.div c.ubrr) (h9 : c.dataBits ≠ .bits9) (id id' : Nat) (hid : id < 2) (hid' : id' < 2) (m m' : Mem)
    (lim lim' : Nat) (g1 g2 : List Nat) (b : BitVec 8) (h1 : 0 < g1.length) (h2 : 0 < g2.length) (n1 : g1.length < 65536) (n2 : g2.length < 65536)
    (es : List DEv) (hes : ∀ e ∈ es, Duplex.evOk e) (hc : CalmRun g1.length g2.length lim (Duplex.init g1 g2 b) es)
    (g1' g2' : List Nat) (b' : BitVec 8) (h1' : 0 < g1'.length) (h2' : 0 < g2'.length) (n1' : g1'.length < 65536) (n2' : g2'.length < 65536) :
    ∃ su d, lineSetup id (openAsync id c m).1 = some su ∧ lineSetup id' (openAsync id' c m').1 = some su ∧ Duplex.run lim (Duplex.init g1 g2 b) es = .ok d ∧
      ∀ (pauses : List Nat) (J : Nat) (rs : List (Option Nat)), pauses.length = d.hw.line.length → J ≤ 2 * su.sample →
        Hears su.format su.bit J (sent su.format (2 * su.bit) (pauses.zip d.hw.line)) rs →
        ∀ es' k, (∀ e ∈ es', Duplex.evOk e) → CalmRun g1'.length g2'.length lim' (Duplex.init g1' g2' b') es' → comeIn es' = (rs.map heardFrame).take k →
          ∃ d', Duplex.run lim' (Duplex.init g1' g2' b') es' = .ok d' ∧ d'.returned.Sublist (d.accepted.map fun v => v % 2 ^ su.format.bits) ∧
            (KeepsUp (g2'.length - 1) { on := b'.getLsbD 4, ie := b'.getLsbD 7 } (((wholeCalls lim' (Duplex.init g1' g2' b') es').flatMap inSide).map inAct) →
              k ≤ d.hw.line.length → d'.returned <+: (d.accepted.map fun v => v % 2 ^ su.format.bits).take k ∧ (d'.pc = .idle →
              ∃ waiting, d'.returned ++ waiting = (d.accepted.map fun v => v % 2 ^ su.format.bits).take k ∧
                waiting.length = RingBuffer.getLength d'.inn + d'.hw.rx.length)) := by
  obtain ⟨d, y, z, hr, ho, hi, -, hacc, -, -, hln, -⟩ := c137_whole_calls_partial lim g1 g2 b h1 h2 n1 n2 es hes hc
  obtain ⟨su, y2, s1, s2, s3, s4⟩ := c132_boards c h h9 id id' hid hid' m m' g1 b h1 n1 ((wholeCalls lim (Duplex.init g1 g2 b) es).flatMap outSide) g2' b' h2' n2'
  rw [ho] at s3
  injection s3 with s3
  subst s3
  refine ⟨su, d, s1, s2, hr, fun pauses J rs hp hJ hh es' k hes' hc' hk => ?_⟩
  obtain ⟨d', y', z', hr', ho', hi', -, -, -, -, -, -, hrx', hpre, -, hid'⟩ := c137_whole_calls_partial lim' g1' g2' b' h1' h2' n1' n2' es' hes' hc'
  rw [← hln] at hp hh
  obtain ⟨z2, t1, t2, t3⟩ := s4 pauses J rs hp hJ hh ((wholeCalls lim' (Duplex.init g1' g2' b') es').flatMap inSide) k
    (by rw [arrivals_side, (calls_run es' hr').2.1, comeIn_hardware]; exact hk)
  rw [hi'] at t1
  injection t1 with t1
  subst t1
  refine ⟨d', hr', ?_, fun hku hkl => ?_⟩
  · rw [← hacc]; exact hpre.sublist.trans t2
  · obtain ⟨w, w1, w2⟩ := t3 hku (by rw [hln]; exact hkl)
    refine ⟨by rw [← hacc, ← w1]; exact hpre.trans (List.prefix_append _ _), fun hpi => ?_⟩
    obtain ⟨-, f2, f3, -⟩ := hid' hpi
    refine ⟨w, ?_, ?_⟩
    · rw [← f3, ← hacc]; exact w1
    · rw [w2, f2, hrx']

example := c137_boards { div := 16, ubrr := 103 } ⟨.inr rfl, by decide⟩ (by decide) 0 1 (by decide) (by decide) (fun _ => 0) (fun _ => 0) 1 1 [0, 0, 0, 0] [0, 0] 0x18#8
  (by decide) (by decide) (by decide) (by decide) [.write 72, .main, .main, .txIsr, .main, .main, .main, .main, .main, .txIsr, .load, .frame] (by simp [Duplex.evOk])
  (c108_once_calm 1 (by decide) _ _ _ (by decide) (by decide) (by decide) (by decide) _ (by simp [Duplex.evOk])) [0, 0] [0, 0, 0, 0] 0x90#8 (by decide) (by decide) (by decide) (by decide)

/-- **C137, the exception.** Two runs of the transmit handler in one window, the second too often: what is on the line is there in no history of whole calls with the same bytes accepted. -/
theorem c137_twice_fails :
    ∃ es d, Duplex.run 2 (Duplex.init [9, 9, 9] [7, 7, 7] 0x18#8) es = .ok d ∧ d.accepted = [1, 2, 3] ∧ d.hw.line = [1, 2, 3, 1, 2, 3] ∧
      ∀ fs y, (outInit [9, 9, 9] 0x18#8).run fs = .ok y → y.accepted = d.accepted → y.s.hw.line ≠ d.hw.line := by
  obtain ⟨es, d, hr, -, h1, h2⟩ := c108_twice_out_fails
  refine ⟨es, d, hr, h1, h2, fun fs y hy ha hl => ?_⟩
  obtain ⟨y', rest, e1, e2, -⟩ := c59_order [9, 9, 9] 0x18#8 (by decide) (by decide) fs
  rw [hy] at e1
  injection e1 with e1
  subst e1
  have := congrArg List.length e2
  rw [ha, h1, hl, h2] at this
  simp only [List.length_append, List.length_cons, List.length_nil] at this
  omega

end Atl.Props
