import Verif.Model.UsartBytes
import Verif.Proof.RingBufferTorn
import Verif.Proof.UsartDuplex
/- Helper lemmas for both USART streams with pointers moved byte by byte: the invariant and its preservation by every event. -/
namespace Atl.Usart.Bytes
open Atl.Props Atl.RingBuffer
open Atl.Usart.Duplex (Same Held evOk same_readB wf_write)

/-- The buffer with offsets instead of addresses. -/
def rb (b : Ring) (w r : Nat) : RB Nat := ⟨b.size, b.buf, w, r⟩

/-- The address in `_writePtr` when main code is on its way to the offset `w`. -/
def OPos (o : Order) (base size wp w : Nat) : BPc → Prop
  | .wInc new _ => ∃ p, p < size ∧ new = base + p + 1 ∧ wp = tornStore o.storeLow (base + p) (base + p + 1) ∧ w = RingBuffer.wrap size (p + 1)
  | .wPast _ => ∃ p, p ≤ size ∧ wp = base + p ∧ w = RingBuffer.wrap size p
  | .wWrap _ => wp = tornStore o.storeLow (base + size) base ∧ w = 0
  | _ => wp = base + w

/-- The address in `_readPtr` when main code is on its way to the offset `r`. -/
def IPos (o : Order) (base size rp r : Nat) : BPc → Prop
  | .rInc _ new _ => ∃ p, p < size ∧ new = base + p + 1 ∧ rp = tornStore o.storeLow (base + p) (base + p + 1) ∧ r = RingBuffer.wrap size (p + 1)
  | .rPast _ _ => ∃ p, p ≤ size ∧ rp = base + p ∧ r = RingBuffer.wrap size p
  | .rWrap _ _ => rp = tornStore o.storeLow (base + size) base ∧ r = 0
  | _ => rp = base + r

/-- What `Read` has returned or is about to. -/
def given (pc : BPc) (l : List Nat) : List Nat := match pc with | .rInc v _ _ | .rPast v _ | .rWrap v _ => l ++ [v] | _ => l
/-- Main code is inside `Write`. -/
def inWrite : BPc → Bool
  | .wTest _ _ | .wChecked _ | .wStored _ | .wInc _ _ | .wPast _ | .wWrap _ => true
  | .rmw i _ => i == 5
  | _ => false
/-- RXCIE is momentarily off. -/
def rxOff : BPc → Bool
  | .rmw i .cleared | .rmw i (.loaded2 _) => i == 7
  | _ => false

/-- What main code knows at each place. -/
def PcOk (b0 : BitVec 8) (asked : Bool) (out inn : Ring) (qo qi : List Nat) : BPc → Prop
  | .idle => True
  | .wTest v r1 => v < 256 ∧ (qo.length + 1 = out.size → r1 = out.rp) ∧ out.base ≤ r1 ∧ r1 < out.base + out.size ∧
      (out.isFull r1 = false → qo.length + 1 < out.size)
  | .wChecked v => qo.length + 1 < out.size ∧ v < 256
  | .wStored v => qo.length + 1 < out.size ∧ v < 256 ∧ out.buf[out.wp - out.base]? = some v
  | .wInc _ k | .wPast k | .wWrap k => k = 0 → qo ≠ []
  | .rmw i p => (i = 5 ∨ i = 7) ∧ match p with
    | .loaded1 v => Held b0 asked qo i v
    | .loaded2 v => Held b0 asked qo i v
    | _ => True
  | .rTest1 w1 => qi = [] → w1 = inn.wp
  | .rLoaded ge => qi = [] → ge = true
  | .rTest2 ge w1 => qi = [] → ge = true ∧ w1 = inn.wp
  | .rReady => qi ≠ []
  | .rGot v => ∃ q', qi = v :: q'
  | .rInc _ _ k | .rPast _ k | .rWrap _ k => k = 0 → qi.length + 1 < inn.size

/-- Both buffers at the memory addresses `p1`, `p2`, of sizes `n`, `m`. -/
structure BInv (o : Order) (p1 p2 n m : Nat) (b0 : BitVec 8) (d : Bytes) (qo qi : List Nat) (p : List Frame) : Prop where
  orel : ∃ w r, d.out.rp = p1 + r ∧ OPos o p1 n d.out.wp w d.pc ∧ Rel (rb d.out w r) qo
  obase : d.out.base = p1
  osize : d.out.size = n
  obytes : ∀ v ∈ qo, v < 256
  order : d.hw.line ++ d.hw.shift.toList ++ d.hw.tx.toList ++ qo = d.accepted
  irel : ∃ w r, d.inn.wp = p2 + w ∧ IPos o p2 m d.inn.rp r d.pc ∧ Rel (rb d.inn w r) qi
  ibase : d.inn.base = p2
  isize : d.inn.size = m
  taken : p ++ d.hw.rx = d.kept
  sub : List.Sublist (given d.pc d.returned ++ qi) (goodBytes p)
  count : (given d.pc d.returned).length + qi.length + d.lost = (goodBytes p).length
  few : m ≤ 256 → p.length < m → d.lost = 0
  small : ∀ f ∈ d.kept, f.data < 512
  wf : Wf d.hw
  bits : Same d.hw.ucsrb b0
  rxie : rxOff d.pc = false → d.hw.ucsrb.getLsbD 7 = (b0.getLsbD 7 || d.asked)
  on : inWrite d.pc = false → d.hw.ucsrb.getLsbD 5 = true ∨ qo = []
  pcok : PcOk b0 d.asked d.out d.inn qo qi d.pc

/-! ### Addresses -/

theorem store_both (b : Bool) (x y : Nat) : tornStore (!b) (tornStore b x y) y = y := by
  cases b <;> simp only [tornStore, Bool.not_true, Bool.not_false, Bool.false_eq_true, if_true, if_false] <;> omega

theorem wrap_base (b : Ring) (r : Nat) : b.wrap (b.base + r) = b.base + RingBuffer.wrap b.size r := by
  unfold Ring.wrap RingBuffer.wrap
  by_cases h : r ≥ b.size
  · rw [if_pos h, if_pos (by omega)]; omega
  · rw [if_neg h, if_neg (by omega)]

theorem ring_length {b : Ring} {w r : Nat} {q : List Nat} (h : Rel (rb b w r) q) (hs : b.size < 65536) (hw : b.wp = b.base + w) (hr : b.rp = b.base + r) :
    b.length = q.length := by
  rw [← getLength_rel h hs]
  have e : RingBuffer.getLength (rb b w r) = if w ≥ r then toU 16 ((w : Int) - r) else toU 16 ((b.size : Int) - ((r : Int) - w)) := rfl
  rw [e]
  unfold Ring.length Ring.lengthOf
  simp only [hw, hr, decide_eq_true_eq]
  by_cases hc : w ≥ r
  · rw [if_pos hc, if_pos (by omega)]; congr 1; omega
  · rw [if_neg hc, if_neg (by omega)]; congr 1; omega

theorem ring_full {b : Ring} {w r : Nat} {q : List Nat} (h : Rel (rb b w r) q) (hw : b.wp = b.base + w) :
    b.isFull (b.base + r) = decide (q.length + 1 = b.size) := by
  have e : decide (q.length + 1 = b.size) = RingBuffer.isFull (rb b w r) := (isFull_rel h).symm
  have e2 : RingBuffer.isFull (rb b w r) = if w + 1 ≥ b.size then decide (0 = r) else decide (w + 1 = r) := rfl
  rw [e, e2]
  unfold Ring.isFull
  rw [hw]
  by_cases hc : w + 1 ≥ b.size
  · rw [if_pos hc, if_pos (by omega), decide_eq_decide]; omega
  · rw [if_neg hc, if_neg (by omega), decide_eq_decide]; omega

theorem ring_read {b : Ring} {w r v : Nat} {q : List Nat} (h : Rel (rb b w r) (v :: q)) (hr : b.rp = b.base + r) :
    b.read = .ok ({ b with rp := b.base + RingBuffer.wrap b.size (r + 1) }, v) ∧ Rel (rb b w (RingBuffer.wrap b.size (r + 1))) q := by
  have h2 := h.hr; have hl := h.hlen
  have hg := h.hget 0 (by simp)
  simp only [Nat.add_zero, if_pos h2, List.getElem_cons_zero] at hg
  simp only [rb] at hg h2 hl
  refine ⟨?_, rel_drop h⟩
  have e : b.base + r - b.base = r := by omega
  have hn : ¬ (b.base + r < b.base) := by omega
  simp only [Ring.read, Ring.get, hr, hn, if_false, e, cGet, hg, Res.bind_ok]
  rw [Nat.add_assoc, wrap_base]

theorem ring_put {b : Ring} {w r : Nat} {q : List Nat} (v : Nat) (h : Rel (rb b w r) q) (hw : b.wp = b.base + w) :
    b.put v = .ok { b with buf := b.buf.set w v } := by
  have h2 := h.hw_lt; have hl := h.hlen
  simp only [rb] at h2 hl
  have e : b.base + w - b.base = w := by omega
  have hn : ¬ (b.base + w < b.base) := by omega
  simp only [Ring.put, hw, hn, if_false, e, cSet_ok v (show w < b.buf.length by omega), Res.bind_ok]

/-- The test of the handler with any address: refused, or the value is stored if there will be room. -/
theorem ring_write {b : Ring} {w r : Nat} {q : List Nat} (v : Nat) (h : Rel (rb b w r) q) (hw : b.wp = b.base + w)
    (hroom : q.length + 1 < b.size ∨ b.rp = b.base + r) :
    (b.isFull b.rp = true ∧ b.write v = .ok (b, false)) ∨
    (b.isFull b.rp = false ∧ ∃ b', b.write v = .ok (b', true) ∧ b'.base = b.base ∧ b'.size = b.size ∧ b'.rp = b.rp ∧
      b'.wp = b.base + RingBuffer.wrap b.size (w + 1) ∧ Rel (rb b' (RingBuffer.wrap b.size (w + 1)) r) (q ++ [v])) := by
  by_cases hf : b.isFull b.rp = true
  · exact Or.inl ⟨hf, by simp only [Ring.write, hf, if_true]⟩
  · right
    have hf' : b.isFull b.rp = false := by simpa using hf
    have hq : q.length + 1 < b.size := by
      rcases hroom with h' | h'
      · exact h'
      · rw [h', ring_full h hw] at hf'
        have := h.hq
        simp only [rb] at this
        simp only [decide_eq_false_iff_not] at hf'
        omega
    have h2 := h.hw_lt; have hl := h.hlen
    simp only [rb] at h2 hl
    have hst := rel_store h v hq
    have hcm := rel_commit hst v hq (by
      simp only [rb]
      rw [List.getElem?_set, if_pos rfl, if_pos (by omega)])
    refine ⟨hf', { b with buf := b.buf.set w v, wp := b.base + RingBuffer.wrap b.size (w + 1) }, ?_, rfl, rfl, rfl, rfl, hcm⟩
    simp only [Ring.write, hf', Bool.false_eq_true, if_false, ring_put v h hw, Res.bind_ok, hw]
    rw [Nat.add_assoc]
    exact congrArg (fun x => Res.ok (({ b with buf := b.buf.set w v, wp := x } : Ring), true)) (wrap_base { b with buf := b.buf.set w v } (w + 1))

/-- A half stored read pointer makes the handler refuse only if the buffer was full before. -/
theorem refuse_full {o : Order} {pc : BPc} {b : Ring} {w r : Nat} {q : List Nat} (h : Rel (rb b w r) q) (hw : b.wp = b.base + w)
    (hm : b.size ≤ 256) (hp : IPos o b.base b.size b.rp r pc) (hf : b.isFull b.rp = true) :
    b.size ≤ q.length + 2 ∧ (rxWindow pc = none → q.length + 1 = b.size) := by
  have h1 : w = if r + q.length < b.size then r + q.length else r + q.length - b.size := h.hw
  have h2 := h.hr; have h3 := h.hq; have h4 := h.hw_lt
  simp only [rb] at h2 h3 h4
  have gen : b.rp = b.base + r → q.length + 1 = b.size := by
    intro e
    rw [e, ring_full h hw] at hf
    exact of_decide_eq_true hf
  unfold Ring.isFull at hf
  rw [hw] at hf
  cases pc with
  | rInc v new k =>
    refine ⟨?_, by simp [rxWindow]⟩
    obtain ⟨p, hp1, _, hp2, hp3⟩ := hp
    unfold RingBuffer.wrap at hp3
    unfold tornStore at hp2
    split at hf <;> simp only [decide_eq_true_eq] at hf <;> split at hp2 <;> split at hp3 <;> split at h1 <;> omega
  | rPast v k =>
    refine ⟨?_, by simp [rxWindow]⟩
    obtain ⟨p, hp1, hp2, hp3⟩ := hp
    unfold RingBuffer.wrap at hp3
    split at hf <;> simp only [decide_eq_true_eq] at hf <;> split at hp3 <;> split at h1 <;> omega
  | rWrap v k =>
    refine ⟨?_, by simp [rxWindow]⟩
    obtain ⟨hp2, hp3⟩ := hp
    unfold tornStore at hp2
    split at hf <;> simp only [decide_eq_true_eq] at hf <;> split at hp2 <;> split at h1 <;> omega
  | _ => have := gen hp; exact ⟨by omega, fun _ => this⟩

/-- A read pointer loaded in two steps is full only if one of the two values is, in a buffer of at most 256 bytes. -/
theorem torn_full {b : Ring} {low : Bool} {r1 r2 : Nat} (hm : b.size ≤ 256) (h0 : b.base ≤ b.wp) (h00 : b.wp < b.base + b.size)
    (h1 : b.base ≤ r1) (h2 : r1 < b.base + b.size) (h3 : b.base ≤ r2)
    (h4 : r2 < b.base + b.size) (f1 : b.isFull r1 = false) (f2 : b.isFull r2 = false) : b.isFull (tornLoad low r1 r2) = false := by
  unfold Ring.isFull at *
  unfold tornLoad
  split
  · next hc =>
    rw [if_pos hc, decide_eq_false_iff_not] at f1 f2
    rw [decide_eq_false_iff_not]
    split <;> omega
  · next hc =>
    rw [if_neg hc, decide_eq_false_iff_not] at f1 f2
    rw [decide_eq_false_iff_not]
    split <;> omega

/-- How many bytes wait when `_writePtr` holds the address `x`. -/
def lenAt (size rp x : Nat) : Nat := if x ≥ rp then x - rp else x + size - rp

theorem torn_length {b : Ring} {low : Bool} {w1 w2 w3 w4 : Nat} (hm : b.size ≤ 256) (hr1 : b.base ≤ b.rp) (hr2 : b.rp < b.base + b.size)
    (a1 : b.base ≤ w1) (b1 : w1 < b.base + b.size) (a2 : b.base ≤ w2) (b2 : w2 < b.base + b.size)
    (a3 : b.base ≤ w3) (b3 : w3 < b.base + b.size) (a4 : b.base ≤ w4) (b4 : w4 < b.base + b.size)
    (l1 : 1 ≤ lenAt b.size b.rp w1) (l2 : lenAt b.size b.rp w1 ≤ lenAt b.size b.rp w2) (l3 : lenAt b.size b.rp w2 ≤ lenAt b.size b.rp w3)
    (l4 : lenAt b.size b.rp w3 ≤ lenAt b.size b.rp w4) :
    b.lengthOf (decide (tornLoad low w1 w2 ≥ b.rp)) (tornLoad low w3 w4) ≠ 0 := by
  obtain ⟨base, size, buf, wp, rp⟩ := b
  simp only [lenAt] at *
  unfold Ring.lengthOf tornLoad toU
  simp only [decide_eq_true_eq]
  cases low with
  | true =>
    simp only [if_true]
    by_cases g1 : w1 ≥ rp <;> by_cases g2 : w2 ≥ rp <;> by_cases g3 : w3 ≥ rp <;> by_cases g4 : w4 ≥ rp <;>
      simp only [g1, g2, g3, g4, if_true, if_false] at l1 l2 l3 l4 <;> split <;> omega
  | false =>
    simp only [Bool.false_eq_true, if_false]
    by_cases g1 : w1 ≥ rp <;> by_cases g2 : w2 ≥ rp <;> by_cases g3 : w3 ≥ rp <;> by_cases g4 : w4 ≥ rp <;>
      simp only [g1, g2, g3, g4, if_true, if_false] at l1 l2 l3 l4 <;> split <;> omega
theorem lenAt_rel {b : Ring} {w r : Nat} {q : List Nat} (h : Rel (rb b w r) q) : lenAt b.size (b.base + r) (b.base + w) = q.length := by
  have h1 : w = if r + q.length < b.size then r + q.length else r + q.length - b.size := h.hw
  have h2 : r < b.size := h.hr
  have h3 : q.length < b.size := h.hq
  unfold lenAt
  split at h1 <;> split <;> omega

/-! ### Preservation -/

variable {o : Order} {p1 p2 n m : Nat} {b0 : BitVec 8} {d : Bytes} {qo qi : List Nat} {p : List Frame}

theorem opos_none {o : Order} {pc : BPc} {base size wp w : Nat} (h : txWindow pc = none) (hp : OPos o base size wp w pc) : wp = base + w := by
  cases pc <;> first | exact hp | (simp [txWindow] at h)
theorem ipos_none {o : Order} {pc : BPc} {base size rp r : Nat} (h : rxWindow pc = none) (hp : IPos o base size rp r pc) : rp = base + r := by
  cases pc <;> first | exact hp | (simp [rxWindow] at h)
theorem inWrite_of {pc : BPc} (h : txWindow pc ≠ none) : inWrite pc = true := by
  cases pc <;> first | rfl | (simp [txWindow] at h)
theorem pcok_tx_win {asked : Bool} {out inn : Ring} {pc : BPc} {k : Nat} (h : txWindow pc = some k) (hk : PcOk b0 asked out inn qo qi pc) (h0 : k = 0) : qo ≠ [] := by
  cases pc <;> first | (simp [txWindow] at h; done) | (simp only [txWindow, Option.some.injEq] at h; exact hk (by omega))
theorem pcok_rx_win {asked : Bool} {out inn : Ring} {pc : BPc} {k : Nat} (h : rxWindow pc = some k) (hk : PcOk b0 asked out inn qo qi pc) (h0 : k = 0) : qi.length + 1 < inn.size := by
  cases pc <;> first | (simp [rxWindow] at h; done) | (simp only [rxWindow, Option.some.injEq] at h; exact hk (by omega))
theorem given_win {pc : BPc} (h : rxWindow pc ≠ none) (l : List Nat) : 1 ≤ (given pc l).length := by
  cases pc <;> first | (simp [rxWindow] at h; done) | (simp [given])

theorem opos_tx (pc : BPc) (base size wp w : Nat) : OPos o base size wp w (txPc pc) = OPos o base size wp w pc := by cases pc <;> rfl
theorem ipos_tx (pc : BPc) (base size wp w : Nat) : IPos o base size wp w (txPc pc) = IPos o base size wp w pc := by cases pc <;> rfl
theorem given_tx (pc : BPc) (l : List Nat) : given (txPc pc) l = given pc l := by cases pc <;> rfl
theorem inWrite_tx (pc : BPc) : inWrite (txPc pc) = inWrite pc := by cases pc <;> rfl
theorem rxOff_tx (pc : BPc) : rxOff (txPc pc) = rxOff pc := by cases pc <;> rfl
theorem opos_rx (pc : BPc) (base size wp w : Nat) : OPos o base size wp w (rxPc pc) = OPos o base size wp w pc := by cases pc <;> rfl
theorem ipos_rx (pc : BPc) (base size wp w : Nat) : IPos o base size wp w (rxPc pc) = IPos o base size wp w pc := by cases pc <;> rfl
theorem given_rx (pc : BPc) (l : List Nat) : given (rxPc pc) l = given pc l := by cases pc <;> rfl
theorem inWrite_rx (pc : BPc) : inWrite (rxPc pc) = inWrite pc := by cases pc <;> rfl
theorem rxOff_rx (pc : BPc) : rxOff (rxPc pc) = rxOff pc := by cases pc <;> rfl

theorem write_inv (h : BInv o p1 p2 n m b0 d qo qi p) (v : BitVec 8) (lim : Nat) :
    ∃ d' qo' qi' p', step o lim d (.write v) = .ok d' ∧ BInv o p1 p2 n m b0 d' qo' qi' p' := by
  cases hp : d.pc with
  | idle =>
    obtain ⟨orel, obase, osize, obytes, order, irel, ibase, isize, taken, sub, count, few, small, wf, bits, rxie, on, pcok⟩ := h
    rw [hp] at orel irel sub count rxie on
    simp only [step, hp]
    refine ⟨_, qo, qi, p, rfl, orel, obase, osize, obytes, order, irel, ibase, isize, taken, sub, count, few, small, wf, bits, rxie, by simp [inWrite],
      v.isLt, fun _ => rfl, ?_⟩
    obtain ⟨w, r, hr, hw, hrel⟩ := orel
    have h1 := hrel.hr; have h2 := hrel.hq
    simp only [rb] at h1 h2
    simp only
    refine ⟨by omega, by omega, ?_⟩
    intro hf
    rw [hr, ← obase, ring_full hrel (by rw [obase]; exact hw)] at hf
    simp only [decide_eq_false_iff_not] at hf
    omega
  | _ => exact ⟨d, qo, qi, p, by simp only [step, hp], h⟩

theorem read_inv (h : BInv o p1 p2 n m b0 d qo qi p) (lim : Nat) :
    ∃ d' qo' qi' p', step o lim d .read = .ok d' ∧ BInv o p1 p2 n m b0 d' qo' qi' p' := by
  cases hp : d.pc with
  | idle =>
    obtain ⟨orel, obase, osize, obytes, order, irel, ibase, isize, taken, sub, count, few, small, wf, bits, rxie, on, pcok⟩ := h
    rw [hp] at orel irel sub count rxie on
    simp only [step, hp]
    exact ⟨_, qo, qi, p, rfl, orel, obase, osize, obytes, order, irel, ibase, isize, taken, sub, count, few, small, wf, bits, rxie, on, fun _ => rfl⟩
  | _ => exact ⟨d, qo, qi, p, by simp only [step, hp], h⟩

theorem main_inv (h : BInv o p1 p2 n m b0 d qo qi p) (lim : Nat) :
    ∃ d' qo' qi' p', step o lim d .main = .ok d' ∧ BInv o p1 p2 n m b0 d' qo' qi' p' := by
  obtain ⟨orel, obase, osize, obytes, order, irel, ibase, isize, taken, sub, count, few, small, wf, bits, rxie, on, pcok⟩ := h
  cases hp : d.pc with
  | idle =>
    exact ⟨d, qo, qi, p, by simp only [step, main, hp], orel, obase, osize, obytes, order, irel, ibase, isize, taken, sub, count, few, small, wf, bits, rxie, on, pcok⟩
  | wTest v r1 =>
    rw [hp] at orel irel sub count rxie on pcok
    obtain ⟨hv, hfull, -⟩ := pcok
    obtain ⟨w, r, hr, hw, hrel⟩ := orel
    simp only [step, main, hp]
    by_cases hf : d.out.isFull (tornLoad o.loadLow r1 d.out.rp) = true
    · simp only [hf, if_true]
      exact ⟨_, qo, qi, p, rfl, ⟨w, r, hr, hw, hrel⟩, obase, osize, obytes, order, irel, ibase, isize, taken, sub, count, few, small, wf, bits, rxie, by simp [inWrite], Or.inl rfl, trivial⟩
    · simp only [hf]
      refine ⟨_, qo, qi, p, rfl, ⟨w, r, hr, hw, hrel⟩, obase, osize, obytes, order, irel, ibase, isize, taken, sub, count, few, small, wf, bits, rxie, by simp [inWrite], ?_, hv⟩
      have h3 := hrel.hq
      simp only [rb] at h3
      by_cases hq : qo.length + 1 = d.out.size
      · exfalso
        rw [hfull hq, tornLoad_self, hr, ← obase, ring_full hrel (by rw [obase]; exact hw)] at hf
        exact hf (by simp [hq])
      · simp only; omega
  | wChecked v =>
    rw [hp] at orel irel sub count rxie on pcok
    obtain ⟨w, r, hr, hw, hrel⟩ := orel
    have hw' : d.out.wp = d.out.base + w := by rw [obase]; exact hw
    have hlt := hrel.hw_lt; have hl := hrel.hlen
    simp only [rb] at hlt hl
    simp only [step, main, hp, ring_put v hrel hw', Res.bind_ok]
    refine ⟨_, qo, qi, p, rfl, ⟨w, r, hr, hw, rel_store hrel v pcok.1⟩, obase, osize, obytes, order, irel, ibase, isize, taken, sub, count, few, small, wf, bits, rxie, by simp [inWrite], pcok.1, pcok.2, ?_⟩
    show (d.out.buf.set w v)[d.out.wp - d.out.base]? = some v
    have e : d.out.wp - d.out.base = w := by omega
    rw [e, List.getElem?_set, if_pos rfl, if_pos (by omega)]
  | wStored v =>
    rw [hp] at orel irel sub count rxie on pcok
    obtain ⟨w, r, hr, hw, hrel⟩ := orel
    have hw1 : d.out.wp = p1 + w := hw
    have hlt := hrel.hw_lt
    simp only [rb] at hlt
    have e : d.out.wp - d.out.base = w := by omega
    obtain ⟨hq, hv, hb⟩ := pcok
    rw [e] at hb
    have hcm := rel_commit hrel v hq hb
    simp only [step, main, hp]
    refine ⟨_, qo ++ [v], qi, p, rfl, ⟨RingBuffer.wrap d.out.size (w + 1), r, hr, ⟨w, by omega, by rw [hw1], by rw [hw1], by rw [osize]⟩, hcm⟩, obase, osize, ?_, ?_, irel, ibase, isize, taken, sub, count, few, small, wf, bits, rxie, by simp [inWrite], by simp [PcOk]⟩
    · intro x hx
      simp only [List.mem_append, List.mem_singleton] at hx
      rcases hx with hx | rfl
      · exact obytes x hx
      · exact hv
    · show _ ++ (qo ++ [v]) = d.accepted ++ [v]
      rw [← order]; simp
  | wInc new k =>
    rw [hp] at orel irel sub count rxie on pcok
    obtain ⟨w, r, hr, ⟨x, hx1, hx2, hx3, hx4⟩, hrel⟩ := orel
    simp only [step, main, hp]
    refine ⟨_, qo, qi, p, rfl, ⟨w, r, hr, ⟨x + 1, by omega, ?_, hx4⟩, hrel⟩, obase, osize, obytes, order, irel, ibase, isize, taken, sub, count, few, small, wf, bits, rxie, by simp [inWrite], pcok⟩
    show tornStore (!o.storeLow) d.out.wp new = p1 + (x + 1)
    rw [hx3, hx2, store_both]; omega
  | wPast k =>
    rw [hp] at orel irel sub count rxie on pcok
    obtain ⟨w, r, hr, ⟨x, hx1, hx2, hx3⟩, hrel⟩ := orel
    simp only [step, main, hp]
    by_cases hc : d.out.wp ≥ d.out.base + d.out.size
    · simp only [hc, if_true]
      have hx : x = n := by omega
      refine ⟨_, qo, qi, p, rfl, ⟨w, r, hr, ⟨?_, ?_⟩, hrel⟩, obase, osize, obytes, order, irel, ibase, isize, taken, sub, count, few, small, wf, bits, rxie, by simp [inWrite], pcok⟩
      · show tornStore o.storeLow d.out.wp d.out.base = _
        rw [hx2, obase, hx]
      · rw [hx3, hx]; simp [RingBuffer.wrap]
    · simp only [hc, if_false]
      refine ⟨_, qo, qi, p, rfl, ⟨w, r, hr, ?_, hrel⟩, obase, osize, obytes, order, irel, ibase, isize, taken, sub, count, few, small, wf, bits, rxie, by simp [inWrite], Or.inl rfl, trivial⟩
      show d.out.wp = p1 + w
      rw [hx3, hx2]; unfold RingBuffer.wrap; rw [if_neg (by omega)]
  | wWrap k =>
    rw [hp] at orel irel sub count rxie on pcok
    obtain ⟨w, r, hr, ⟨hx1, hx2⟩, hrel⟩ := orel
    simp only [step, main, hp]
    refine ⟨_, qo, qi, p, rfl, ⟨w, r, hr, ?_, hrel⟩, obase, osize, obytes, order, irel, ibase, isize, taken, sub, count, few, small, wf, bits, rxie, by simp [inWrite], Or.inl rfl, trivial⟩
    show tornStore (!o.storeLow) d.out.wp d.out.base = p1 + w
    rw [hx1, obase, store_both, hx2]; rfl
  | rmw i ph =>
    rw [hp] at orel irel sub count rxie on pcok
    obtain ⟨hi, pcok⟩ := pcok
    have hi8 : i < 8 := by omega
    cases ph with
    | start =>
      simp only [step, main, hp]
      refine ⟨_, qo, qi, p, rfl, orel, obase, osize, obytes, order, irel, ibase, isize, taken, sub, count, few, small, wf, bits, rxie, on, hi, same_readB bits, ?_, ?_⟩
      · intro _; rw [readB_bit _ 7 (by omega)]; exact rxie rfl
      · intro e; subst e; rw [readB_bit _ 5 (by omega)]; exact on rfl
    | loaded1 v =>
      obtain ⟨hs, hx7, hx5⟩ := pcok
      have hs' : Same (clearBit i v) b0 := fun j h0 h1 h5 h7 => by
        rw [bit_clear i hi8, if_neg (by omega)]; exact hs j h0 h1 h5 h7
      obtain ⟨w1, w2⟩ := wf_write wf bits hs'
      simp only [step, main, hp]
      refine ⟨_, qo, qi, p, rfl, orel, obase, osize, obytes, order, irel, ibase, isize, by rw [← taken, ← w2], sub, count, few, small, w1, hs', ?_, ?_, hi, trivial⟩
      · intro e
        have i5 : i = 5 := by
          rcases hi with rfl | rfl
          · rfl
          · simp [rxOff] at e
        subst i5
        show (clearBit 5 v).getLsbD 7 = _
        rw [bit_clear 5 (by omega), if_neg (by omega)]; exact hx7 rfl
      · intro e
        have i7 : i = 7 := by
          rcases hi with rfl | rfl
          · simp [inWrite] at e
          · rfl
        subst i7
        show (clearBit 7 v).getLsbD 5 = true ∨ _
        rw [bit_clear 7 (by omega), if_neg (by omega)]; exact hx5 rfl
    | cleared =>
      simp only [step, main, hp]
      refine ⟨_, qo, qi, p, rfl, orel, obase, osize, obytes, order, irel, ibase, isize, taken, sub, count, few, small, wf, bits, rxie, on, hi, same_readB bits, ?_, ?_⟩
      · intro e; subst e; rw [readB_bit _ 7 (by omega)]; exact rxie rfl
      · intro e; subst e; rw [readB_bit _ 5 (by omega)]; exact on rfl
    | loaded2 v =>
      obtain ⟨hs, hx7, hx5⟩ := pcok
      have hs' : Same (setBit i v) b0 := fun j h0 h1 h5 h7 => by
        rw [bit_set i hi8, if_neg (by omega)]; exact hs j h0 h1 h5 h7
      obtain ⟨w1, w2⟩ := wf_write wf bits hs'
      simp only [step, main, hp]
      refine ⟨_, qo, qi, p, rfl, orel, obase, osize, obytes, order, irel, ibase, isize, by rw [← taken, ← w2], sub, count, few, small, w1, hs', ?_, ?_, trivial⟩
      · intro _
        show (setBit i v).getLsbD 7 = (b0.getLsbD 7 || (d.asked || i == 7))
        rw [bit_set i hi8]
        rcases hi with rfl | rfl
        · rw [if_neg (by omega), hx7 rfl]; simp
        · simp
      · intro _
        show (setBit i v).getLsbD 5 = true ∨ _
        rw [bit_set i hi8]
        rcases hi with rfl | rfl
        · exact Or.inl (if_pos rfl)
        · rw [if_neg (by omega)]; exact hx5 rfl
  | rTest1 w1 =>
    rw [hp] at orel irel sub count rxie on pcok
    simp only [step, main, hp]
    refine ⟨_, qo, qi, p, rfl, orel, obase, osize, obytes, order, irel, ibase, isize, taken, sub, count, few, small, wf, bits, rxie, on, ?_⟩
    intro hq
    obtain ⟨w, r, hw, hr, hrel⟩ := irel
    have hr' : d.inn.rp = p2 + r := hr
    have h2 : r < d.inn.size := hrel.hr
    have h1 : w = if r + qi.length < d.inn.size then r + qi.length else r + qi.length - d.inn.size := hrel.hw
    rw [hq, List.length_nil, Nat.add_zero, if_pos h2] at h1
    rw [pcok hq, tornLoad_self]
    exact decide_eq_true (by rw [hw, hr', h1]; exact Nat.le_refl _)
  | rLoaded ge =>
    rw [hp] at orel irel sub count rxie on pcok
    simp only [step, main, hp]
    exact ⟨_, qo, qi, p, rfl, orel, obase, osize, obytes, order, irel, ibase, isize, taken, sub, count, few, small, wf, bits, rxie, on, fun hq => ⟨pcok hq, rfl⟩⟩
  | rTest2 ge w1 =>
    rw [hp] at orel irel sub count rxie on pcok
    simp only [step, main, hp]
    by_cases hl : d.inn.lengthOf ge (tornLoad o.loadLow w1 d.inn.wp) = 0
    · rw [if_pos hl]
      exact ⟨_, qo, qi, p, rfl, orel, obase, osize, obytes, order, irel, ibase, isize, taken, sub, count, few, small, wf, bits, rxie, on, Or.inr rfl, trivial⟩
    · rw [if_neg hl]
      refine ⟨_, qo, qi, p, rfl, orel, obase, osize, obytes, order, irel, ibase, isize, taken, sub, count, few, small, wf, bits, rxie, on, ?_⟩
      intro hq
      apply hl
      obtain ⟨h1, h2⟩ := pcok hq
      obtain ⟨w, r, hw, hr, hrel⟩ := irel
      have hr' : d.inn.rp = p2 + r := hr
      have h4 : r < d.inn.size := hrel.hr
      have h3 : w = if r + qi.length < d.inn.size then r + qi.length else r + qi.length - d.inn.size := hrel.hw
      rw [hq, List.length_nil, Nat.add_zero, if_pos h4] at h3
      rw [h1, h2, tornLoad_self, hw, h3]
      unfold Ring.lengthOf
      rw [hr']
      simp [toU]
  | rReady =>
    rw [hp] at orel irel sub count rxie on pcok
    obtain ⟨w, r, hw, hr, hrel⟩ := irel
    have hr' : d.inn.rp = d.inn.base + r := by rw [ibase]; exact hr
    cases qi with
    | nil => exact absurd rfl pcok
    | cons v q' =>
      have h2 := hrel.hr
      have hg := hrel.hget 0 (by simp)
      simp only [Nat.add_zero, if_pos h2, List.getElem_cons_zero] at hg
      simp only [rb] at hg
      have e : d.inn.base + r - d.inn.base = r := by omega
      have hn : ¬ (d.inn.base + r < d.inn.base) := by omega
      have hget : d.inn.get = .ok v := by simp only [Ring.get, hr', hn, if_false, e, cGet, hg]
      simp only [step, main, hp, hget, Res.bind_ok]
      exact ⟨_, qo, v :: q', p, rfl, orel, obase, osize, obytes, order, ⟨w, r, hw, hr, hrel⟩, ibase, isize, taken, sub, count, few, small, wf, bits, rxie, on, q', rfl⟩
  | rGot v =>
    rw [hp] at orel irel sub count rxie on pcok
    obtain ⟨q', rfl⟩ := pcok
    obtain ⟨w, r, hw, hr, hrel⟩ := irel
    have hr' : d.inn.rp = p2 + r := hr
    have h2 := hrel.hr; have h3 := hrel.hq
    simp only [rb] at h2 h3
    simp only [step, main, hp]
    refine ⟨_, qo, q', p, rfl, orel, obase, osize, obytes, order, ⟨w, RingBuffer.wrap d.inn.size (r + 1), hw, ⟨r, by omega, by rw [hr'], by rw [hr'], by rw [isize]⟩, rel_drop hrel⟩,
      ibase, isize, taken, ?_, ?_, few, small, wf, bits, rxie, on, ?_⟩
    · show List.Sublist ((d.returned ++ [v]) ++ q') _
      have h' : List.Sublist (d.returned ++ v :: q') (goodBytes p) := sub
      rw [List.append_assoc]; exact h'
    · have h' : d.returned.length + (v :: q').length + d.lost = (goodBytes p).length := count
      show (d.returned ++ [v]).length + q'.length + d.lost = _
      rw [List.length_append]
      simp only [List.length_cons, List.length_nil] at h' ⊢
      omega
    · intro _
      show q'.length + 1 < d.inn.size
      simpa using h3
  | rInc v new k =>
    rw [hp] at orel irel sub count rxie on pcok
    obtain ⟨w, r, hw, ⟨x, hx1, hx2, hx3, hx4⟩, hrel⟩ := irel
    simp only [step, main, hp]
    refine ⟨_, qo, qi, p, rfl, orel, obase, osize, obytes, order, ⟨w, r, hw, ⟨x + 1, by omega, ?_, hx4⟩, hrel⟩, ibase, isize, taken, sub, count, few, small, wf, bits, rxie, on, pcok⟩
    show tornStore (!o.storeLow) d.inn.rp new = p2 + (x + 1)
    rw [hx3, hx2, store_both]; omega
  | rPast v k =>
    rw [hp] at orel irel sub count rxie on pcok
    obtain ⟨w, r, hw, ⟨x, hx1, hx2, hx3⟩, hrel⟩ := irel
    simp only [step, main, hp]
    by_cases hc : d.inn.rp ≥ d.inn.base + d.inn.size
    · simp only [hc, if_true]
      have hx : x = m := by omega
      refine ⟨_, qo, qi, p, rfl, orel, obase, osize, obytes, order, ⟨w, r, hw, ⟨?_, ?_⟩, hrel⟩, ibase, isize, taken, sub, count, few, small, wf, bits, rxie, on, pcok⟩
      · show tornStore o.storeLow d.inn.rp d.inn.base = _
        rw [hx2, ibase, hx]
      · rw [hx3, hx]; simp [RingBuffer.wrap]
    · simp only [hc, if_false]
      refine ⟨_, qo, qi, p, rfl, orel, obase, osize, obytes, order, ⟨w, r, hw, ?_, hrel⟩, ibase, isize, taken, sub, count, few, small, wf, bits, rxie, on, trivial⟩
      show d.inn.rp = p2 + r
      rw [hx3, hx2]; unfold RingBuffer.wrap; rw [if_neg (by omega)]
  | rWrap v k =>
    rw [hp] at orel irel sub count rxie on pcok
    obtain ⟨w, r, hw, ⟨hx1, hx2⟩, hrel⟩ := irel
    simp only [step, main, hp]
    refine ⟨_, qo, qi, p, rfl, orel, obase, osize, obytes, order, ⟨w, r, hw, ?_, hrel⟩, ibase, isize, taken, sub, count, few, small, wf, bits, rxie, on, trivial⟩
    show tornStore (!o.storeLow) d.inn.rp d.inn.base = p2 + r
    rw [hx1, ibase, store_both, hx2]; rfl

theorem pcok_tx {asked : Bool} {out out' inn : Ring} {qo' : List Nat} (pc : BPc) (h : PcOk b0 asked out inn qo qi pc) (h0 : out'.base = out.base)
    (h1 : out'.size = out.size) (h2 : out'.wp = out.wp) (h3 : out'.buf = out.buf) (h4 : qo'.length ≤ qo.length) (h5 : qo'.length = qo.length → out'.rp = out.rp) (h6 : qo.length < out.size) :
    PcOk b0 asked out' inn qo' qi (txPc pc) := by
  have hq : qo = [] → qo' = [] := fun e => by subst e; exact List.length_eq_zero_iff.1 (by simpa using h4)
  have hheld : ∀ i v, Held b0 asked qo i v → Held b0 asked qo' i v := fun i v hh =>
    ⟨hh.1, hh.2.1, fun e => (hh.2.2 e).imp id hq⟩
  cases pc with
  | wTest v r1 =>
    obtain ⟨a, b, c, e, f⟩ := h
    refine ⟨a, ?_, by omega, by omega, ?_⟩
    · intro hh
      rw [h5 (by omega)]
      exact b (by omega)
    · intro hh
      have : out.isFull r1 = false := by
        unfold Ring.isFull at hh ⊢
        rw [h0, h1, h2] at hh; exact hh
      have := f this
      omega
  | wChecked v => exact ⟨by have := h.1; omega, h.2⟩
  | wStored v => exact ⟨by have := h.1; omega, h.2.1, by rw [h0, h2, h3]; exact h.2.2⟩
  | wInc new k => intro e; omega
  | wPast k => intro e; omega
  | wWrap k => intro e; omega
  | rmw i ph =>
    refine ⟨h.1, ?_⟩
    cases ph with
    | loaded1 v => exact hheld i v h.2
    | loaded2 v => exact hheld i v h.2
    | _ => trivial
  | _ => exact h

theorem pcok_rx {asked : Bool} {out inn inn' : Ring} {qi' : List Nat} (pc : BPc) (h : PcOk b0 asked out inn qo qi pc)
    (h2 : qi' = [] → inn'.wp = inn.wp) (h3 : ∃ l, qi' = qi ++ l) :
    PcOk b0 asked out inn' qo qi' (rxPc pc) := by
  obtain ⟨l, rfl⟩ := h3
  have hq : qi ≠ [] → qi ++ l ≠ [] := fun e => by simp [e]
  have hq' : qi ++ l = [] → qi = [] := fun e => (List.append_eq_nil_iff.1 e).1
  cases pc with
  | rTest1 w1 => exact fun e => by rw [h2 e]; exact h (hq' e)
  | rLoaded ge => exact fun e => h (hq' e)
  | rTest2 ge w1 => exact fun e => by rw [h2 e]; exact h (hq' e)
  | rReady => exact hq h
  | rGot v => obtain ⟨q', rfl⟩ := h; exact ⟨q' ++ l, rfl⟩
  | rInc v new k => intro e; omega
  | rPast v k => intro e; omega
  | rWrap v k => intro e; omega
  | _ => exact h

theorem tx_inv (h : BInv o p1 p2 n m b0 d qo qi p) (hn : n < 65536) (lim : Nat) (hlim : lim ≤ 1) :
    ∃ d' qo' qi' p', step o lim d .txIsr = .ok d' ∧ BInv o p1 p2 n m b0 d' qo' qi' p' := by
  by_cases hc : (isTrue 5 d.hw.ucsrb && getAcceptData d.hw && (txWindow d.pc).all (· < lim)) = true
  · obtain ⟨orel, obase, osize, obytes, order, irel, ibase, isize, taken, sub, count, few, small, wf, bits, rxie, on, pcok⟩ := h
    simp only [step, hc, if_true]
    simp only [Bool.and_eq_true] at hc
    obtain ⟨⟨hc1, hc2⟩, hc3⟩ := hc
    rw [isTrue_bit 5 (by omega)] at hc1
    have ht : d.hw.tx = none := by rw [accept_iff] at hc2; simpa using hc2
    obtain ⟨w, r, hr, hw, hrel⟩ := orel
    have hr' : d.out.rp = d.out.base + r := by rw [obase]; exact hr
    have hqs := hrel.hq
    simp only [rb] at hqs
    have hwin : txWindow d.pc ≠ none → qo ≠ [] := by
      intro hne
      cases hk : txWindow d.pc with
      | none => exact absurd hk hne
      | some k =>
        rw [hk] at hc3
        simp only [Option.all_some, decide_eq_true_eq] at hc3
        exact pcok_tx_win hk pcok (by omega)
    have hlen : txWindow d.pc = none → d.out.length = qo.length := by
      intro hk
      exact ring_length hrel (by omega) (by rw [obase]; exact opos_none hk hw) hr'
    by_cases hl : d.out.length = 0
    · obtain ⟨e1, e2, e3, e4, e5⟩ := bitB_effect 5 (by omega) (by omega) false d.hw wf
      simp only [txHandler, hl, ne_eq, not_true_eq_false, if_false, Res.bind_ok]
      refine ⟨_, qo, qi, p, rfl, ⟨w, r, hr, by rw [opos_tx]; exact hw, hrel⟩, obase, osize, obytes, ?_, ?_, ibase, isize, ?_, ?_, ?_, few, small, bitB_wf 5 (by omega) (by omega) false _ wf, ?_, ?_, ?_,
        pcok_tx _ pcok rfl rfl rfl rfl (Nat.le_refl _) (fun _ => rfl) hqs⟩
      · show (d.hw.bitB 5 false).line ++ (d.hw.bitB 5 false).shift.toList ++ (d.hw.bitB 5 false).tx.toList ++ qo = _
        rw [e3, e4, e5]; exact order
      · simp only [ipos_tx]; exact irel
      · show p ++ (d.hw.bitB 5 false).rx = _
        rw [e2]; exact taken
      · simp only [given_tx]; exact sub
      · simp only [given_tx]; exact count
      · intro j h0 h1 h5 h7
        show (d.hw.bitB 5 false).ucsrb.getLsbD j = _
        rw [e1 j h1, if_neg h5]; exact bits j h0 h1 h5 h7
      · simp only [rxOff_tx]
        intro e
        show (d.hw.bitB 5 false).ucsrb.getLsbD 7 = _
        rw [e1 7 (by omega), if_neg (by omega)]; exact rxie e
      · simp only [inWrite_tx]
        intro e
        right
        by_cases hk : txWindow d.pc = none
        · exact List.length_eq_zero_iff.1 ((hlen hk).symm.trans hl)
        · rw [inWrite_of hk] at e; cases e
    · have hne : qo ≠ [] := by
        by_cases hk : txWindow d.pc = none
        · intro e; rw [hlen hk, e] at hl; exact hl rfl
        · exact hwin hk
      obtain ⟨v, q', rfl⟩ := List.exists_cons_of_ne_nil hne
      obtain ⟨e1, e2, e3, e4, e5, e6⟩ := c57_write v d.hw wf ht
      have hv : v < 256 := obytes v (by simp)
      have e1' : (writeInternal v d.hw).tx = some v := by
        rw [e1]; congr 1; split <;> omega
      obtain ⟨hrd, hrel'⟩ := ring_read hrel hr'
      simp only [txHandler, ne_eq, hl, not_false_eq_true, if_true, hrd, Res.bind_ok]
      refine ⟨_, q', qi, p, rfl, ⟨w, _, by rw [obase], by rw [opos_tx]; exact hw, hrel'⟩, obase, osize, fun x hx => obytes x (by simp [hx]), ?_, ?_, ibase, isize, ?_, ?_, ?_, few, small, ?_, ?_, ?_, ?_,
        pcok_tx _ pcok rfl rfl rfl rfl (by simp) (by simp) hqs⟩
      · show (writeInternal v d.hw).line ++ (writeInternal v d.hw).shift.toList ++ (writeInternal v d.hw).tx.toList ++ q' = d.accepted
        rw [e1', e5, e6, ← order, ht]; simp
      · simp only [ipos_tx]; exact irel
      · show p ++ (writeInternal v d.hw).rx = _
        rw [e4]; exact taken
      · simp only [given_tx]; exact sub
      · simp only [given_tx]; exact count
      · show (writeInternal v d.hw).ucsrb.getLsbD 4 = true ∨ (writeInternal v d.hw).rx = []
        rw [e2 4 (by omega) (by omega), e4]; exact wf
      · intro j h0 h1 h5 h7
        show (writeInternal v d.hw).ucsrb.getLsbD j = _
        rw [e2 j h0 h1]; exact bits j h0 h1 h5 h7
      · simp only [rxOff_tx]
        intro e
        show (writeInternal v d.hw).ucsrb.getLsbD 7 = _
        rw [e2 7 (by omega) (by omega)]; exact rxie e
      · intro _
        left
        show (writeInternal v d.hw).ucsrb.getLsbD 5 = true
        rw [e2 5 (by omega) (by omega)]; exact hc1
  · exact ⟨d, qo, qi, p, by simp only [step, hc]; rfl, h⟩

theorem rx_inv (h : BInv o p1 p2 n m b0 d qo qi p) (lim : Nat) (hlim : lim ≤ 1) :
    ∃ d' qo' qi' p', step o lim d .rxIsr = .ok d' ∧ BInv o p1 p2 n m b0 d' qo' qi' p' := by
  by_cases hc : (isTrue 7 d.hw.ucsrb && rxComplete d.hw && (rxWindow d.pc).all (· < lim)) = true
  · obtain ⟨orel, obase, osize, obytes, order, irel, ibase, isize, taken, sub, count, few, small, wf, bits, rxie, on, pcok⟩ := h
    simp only [step, hc, if_true]
    simp only [Bool.and_eq_true] at hc
    obtain ⟨⟨hc1, hc2⟩, hc3⟩ := hc
    rw [complete_iff] at hc2
    cases hx : d.hw.rx with
    | nil => rw [hx] at hc2; simp at hc2
    | cons f t =>
      have hf : f.data < 512 := small f (by rw [← taken, hx]; simp)
      obtain ⟨a, b, c⟩ := flags d.hw f t hx
      have g : (getResult d.hw = .success) ↔ Frame.good f = true := by
        unfold getResult Frame.good
        rw [a, b, c]
        cases f.fe <;> cases f.dor <;> cases f.upe <;> decide
      have rd := c57_read d.hw f t hx hf
      have tk : (p ++ [f]) ++ t = d.kept := by rw [← taken, hx]; simp
      have wf' : Wf { d.hw with rx := t } := by
        rcases wf with h | h
        · exact Or.inl h
        · rw [hx] at h; cases h
      have ht : (if d.hw.ucsrb.getLsbD 2 = true then f.data else f.data % 256) % 256 = f.data % 256 := by split <;> omega
      have orel' : ∃ w r, d.out.rp = p1 + r ∧ OPos o p1 n d.out.wp w (rxPc d.pc) ∧ Rel (rb d.out w r) qo := by simp only [opos_rx]; exact orel
      simp only [rxHandler, rd, ht, g]
      by_cases hg : Frame.good f = true
      · simp only [hg, if_true, true_and]
        obtain ⟨w, r, hw, hr, hrel⟩ := irel
        have hw' : d.inn.wp = d.inn.base + w := by rw [ibase]; exact hw
        have hroom : qi.length + 1 < d.inn.size ∨ d.inn.rp = d.inn.base + r := by
          cases hk : rxWindow d.pc with
          | none => right; rw [ibase]; exact ipos_none hk hr
          | some k =>
            left
            rw [hk] at hc3
            simp only [Option.all_some, decide_eq_true_eq] at hc3
            exact pcok_rx_win hk pcok (by omega)
        have hr2 : IPos o d.inn.base d.inn.size d.inn.rp r d.pc := by rw [ibase, isize]; exact hr
        rcases ring_write (f.data % 256) hrel hw' hroom with ⟨hfl, hb⟩ | ⟨hfl, b', hb, hb1, hb2, hb3, hb4, hrel'⟩
        · simp only [hb, hfl, Res.bind_ok, if_true]
          refine ⟨_, qo, qi, p ++ [f], rfl, orel', obase, osize, obytes, order, ⟨w, r, hw, by rw [ipos_rx]; exact hr, hrel⟩, ibase, isize, tk, ?_, ?_, ?_, small, wf', bits, ?_, ?_,
            pcok_rx _ pcok (fun _ => rfl) ⟨[], by simp⟩⟩
          · simp only [given_rx]; rw [goodBytes_snoc]; exact sub.trans (List.sublist_append_left _ _)
          · simp only [given_rx]
            rw [goodBytes_snoc, if_pos hg, List.length_append, ← count]; simp only [List.length_singleton]; omega
          · intro hm hl
            exfalso
            rw [List.length_append, List.length_singleton] at hl
            have h1 := few hm (by omega)
            have h3 := goodBytes_le p
            obtain ⟨h4, h5⟩ := refuse_full hrel hw' (by omega) hr2 hfl
            by_cases hk : rxWindow d.pc = none
            · have := h5 hk; omega
            · have := given_win hk d.returned; omega
          · simp only [rxOff_rx]; exact rxie
          · simp only [inWrite_rx]; exact on
        · simp only [hb, hfl, Res.bind_ok, Bool.false_eq_true, if_false]
          refine ⟨_, qo, qi ++ [f.data % 256], p ++ [f], rfl, orel', obase, osize, obytes, order,
            ⟨RingBuffer.wrap d.inn.size (w + 1), r, by rw [← ibase]; exact hb4, by simp only [ipos_rx, hb3]; exact hr, hrel'⟩,
            hb1.trans ibase, hb2.trans isize, tk, ?_, ?_, ?_, small, wf', bits, ?_, ?_, pcok_rx _ pcok (by simp) ⟨_, rfl⟩⟩
          · simp only [given_rx]; rw [goodBytes_snoc, if_pos hg, ← List.append_assoc]; exact sub.append_right _
          · simp only [given_rx]
            rw [goodBytes_snoc, if_pos hg, List.length_append, List.length_append, ← count]; simp only [List.length_singleton]; omega
          · intro hm hl
            rw [List.length_append, List.length_singleton] at hl
            exact few hm (by omega)
          · simp only [rxOff_rx]; exact rxie
          · simp only [inWrite_rx]; exact on
      · simp only [hg, Res.bind_ok]
        refine ⟨_, qo, qi, p ++ [f], rfl, orel', obase, osize, obytes, order, ?_, ibase, isize, tk, ?_, ?_, ?_, small, wf', bits, ?_, ?_, pcok_rx _ pcok (fun _ => rfl) ⟨[], by simp⟩⟩
        · simp only [ipos_rx]; exact irel
        · simp only [given_rx]; rw [goodBytes_snoc, if_neg hg, List.append_nil]; exact sub
        · simp only [given_rx, false_and, if_false]
          rw [goodBytes_snoc, if_neg hg, List.append_nil]; exact count
        · intro hm hl
          rw [List.length_append, List.length_singleton] at hl
          simp only [false_and, if_false]
          exact few hm (by omega)
        · simp only [rxOff_rx]; exact rxie
        · simp only [inWrite_rx]; exact on
  · exact ⟨d, qo, qi, p, by simp only [step, hc]; rfl, h⟩

theorem step_inv (h : BInv o p1 p2 n m b0 d qo qi p) (hn : n < 65536) (lim : Nat) (hlim : lim ≤ 1) (e : DEv) (he : evOk e) :
    ∃ d' qo' qi' p', step o lim d e = .ok d' ∧ BInv o p1 p2 n m b0 d' qo' qi' p' := by
  cases e with
  | write v => exact write_inv h v lim
  | read => exact read_inv h lim
  | main => exact main_inv h lim
  | txIsr => exact tx_inv h hn lim hlim
  | rxIsr => exact rx_inv h lim hlim
  | arrive f =>
    by_cases hc : (isTrue 4 d.hw.ucsrb && decide (d.hw.rx.length < 3)) = true
    · obtain ⟨orel, obase, osize, obytes, order, irel, ibase, isize, taken, sub, count, few, small, wf, bits, rxie, on, pcok⟩ := h
      simp only [step, hc, if_true]
      refine ⟨_, qo, qi, p, rfl, orel, obase, osize, obytes, order, irel, ibase, isize, ?_, sub, count, few, ?_, ?_, bits, rxie, on, pcok⟩
      · show p ++ (d.hw.rx ++ [f]) = d.kept ++ [f]
        rw [← taken, List.append_assoc]
      · intro x hx
        simp only [List.mem_append, List.mem_singleton] at hx
        rcases hx with hx | rfl
        · exact small x hx
        · exact he
      · left
        rw [Bool.and_eq_true, isTrue_bit 4 (by omega)] at hc
        exact hc.1
    · simp only [step, hc]
      exact ⟨d, qo, qi, p, rfl, h⟩
  | frame =>
    obtain ⟨orel, obase, osize, obytes, order, irel, ibase, isize, taken, sub, count, few, small, wf, bits, rxie, on, pcok⟩ := h
    refine ⟨_, qo, qi, p, rfl, orel, obase, osize, obytes, ?_, irel, ibase, isize, taken, sub, count, few, small, wf, bits, rxie, on, pcok⟩
    show (d.hw.line ++ d.hw.shift.toList) ++ d.hw.tx.toList ++ [] ++ qo = d.accepted
    rw [← order]; simp
  | load =>
    by_cases hs : d.hw.shift = none
    · obtain ⟨orel, obase, osize, obytes, order, irel, ibase, isize, taken, sub, count, few, small, wf, bits, rxie, on, pcok⟩ := h
      simp only [step, Hw.load, hs, if_true]
      refine ⟨_, qo, qi, p, rfl, orel, obase, osize, obytes, ?_, irel, ibase, isize, taken, sub, count, few, small, wf, bits, rxie, on, pcok⟩
      show d.hw.line ++ d.hw.tx.toList ++ [] ++ qo = d.accepted
      rw [← order, hs]; simp
    · simp only [step, Hw.load, hs, if_false]
      exact ⟨d, qo, qi, p, rfl, h⟩

theorem run_inv (hn : n < 65536) (lim : Nat) (hlim : lim ≤ 1) (es : List DEv) (hes : ∀ e ∈ es, evOk e) (h : BInv o p1 p2 n m b0 d qo qi p) :
    ∃ d' qo' qi' p', run o lim d es = .ok d' ∧ BInv o p1 p2 n m b0 d' qo' qi' p' := by
  induction es generalizing d qo qi p with
  | nil => exact ⟨d, qo, qi, p, rfl, h⟩
  | cons e es ih =>
    obtain ⟨d1, a1, c1, x1, h1, i1⟩ := step_inv h hn lim hlim e (hes e (by simp))
    obtain ⟨d2, a2, c2, x2, h2, i2⟩ := ih (fun x hx => hes x (by simp [hx])) i1
    exact ⟨d2, a2, c2, x2, by simp only [run, h1, Res.bind_ok]; exact h2, i2⟩

theorem init_inv (o : Order) (p1 p2 : Nat) (g1 g2 : List Nat) (b : BitVec 8) (h1 : 0 < g1.length) (h2 : 0 < g2.length) :
    BInv o p1 p2 g1.length g2.length b (init p1 p2 g1 g2 b) [] [] [] :=
  ⟨⟨0, 0, rfl, rfl, rel_mk g1 h1⟩, rfl, rfl, by simp, rfl, ⟨0, 0, rfl, rfl, rel_mk g2 h2⟩, rfl, rfl, rfl, List.Sublist.slnil, rfl, fun _ _ => rfl, by simp [init], Or.inr rfl,
    fun _ _ _ _ _ => rfl, fun _ => by simp [init], fun _ => Or.inr rfl, trivial⟩

end Atl.Usart.Bytes
