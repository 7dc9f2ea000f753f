import Verif.Proof.UsartBytes
import Verif.Props.UsartDuplex
/- Property theorems C138: both interrupt driven streams on one USART, pointers moved byte by byte. -/
namespace Atl.Props
open Atl.Usart Atl.RingBuffer

/-- **C138, partial** (the handler of a stream runs at most once from the first byte of an incremented pointer to the end of the ring buffer call; the last clause for buffers of at
    most 256 bytes). Both buffers anywhere in memory, of any size, either byte of a pointer first, every history of Write and Read calls by main code, both interrupts at every
    place between two accesses to memory, also between the two bytes of a pointer: no undefined behaviour; what is on the line, being sent, in the transmitter and in the buffer
    is in order exactly what `Write` accepted; what `Read` returned and the buffer holds is in order part of the good frames received, and all of them but those counted as not
    fitting; outside `Write` the transmit interrupt is enabled whenever bytes wait; outside `Read` the receive interrupt is enabled once a `Read` has found nothing; no other
    control bit changes; none is lost as long as fewer frames arrived than the buffer has slots. -/
theorem c138_streams_partial (o : Order) (lim : Nat) (hlim : lim ≤ 1) (p1 p2 : Nat) (g1 g2 : List Nat) (b : BitVec 8) (h1 : 0 < g1.length) (h2 : 0 < g2.length)
    (n1 : g1.length < 65536) (n2 : g2.length < 65536) (es : List DEv) (hes : ∀ e ∈ es, Duplex.evOk e) :
    ∃ d, Bytes.run o lim (Bytes.init p1 p2 g1 g2 b) es = .ok d ∧
      (∀ j, j ≠ 0 → j ≠ 1 → j ≠ 5 → j ≠ 7 → d.hw.ucsrb.getLsbD j = b.getLsbD j) ∧
      ((∀ p, d.pc ≠ .rmw 7 p) → d.hw.ucsrb.getLsbD 7 = (b.getLsbD 7 || d.asked)) ∧
      (d.pc = .idle → ∃ waiting buffered taken,
        d.hw.line ++ d.hw.shift.toList ++ d.hw.tx.toList ++ waiting = d.accepted ∧ d.out.length = waiting.length ∧
        (waiting ≠ [] → d.hw.ucsrb.getLsbD 5 = true) ∧
        taken ++ d.hw.rx = d.kept ∧ d.inn.length = buffered.length ∧
        List.Sublist (d.returned ++ buffered) (goodBytes taken) ∧
        d.returned.length + buffered.length + d.lost = (goodBytes taken).length ∧
        (d.lost = 0 → d.returned ++ buffered = goodBytes taken) ∧
        (g2.length ≤ 256 → d.kept.length < g2.length → d.lost = 0)) := by
  obtain ⟨d, qo, qi, p, hr, h⟩ := Bytes.run_inv n1 lim hlim es hes (Bytes.init_inv o p1 p2 g1 g2 b h1 h2)
  refine ⟨d, hr, h.bits, ?_, ?_⟩
  · intro hp
    refine h.rxie ?_
    cases hpc : d.pc with
    | rmw i ph =>
      cases ph with
      | cleared => simp only [Bytes.rxOff, beq_eq_false_iff_ne]; intro e; subst e; exact hp _ hpc
      | loaded2 v => simp only [Bytes.rxOff, beq_eq_false_iff_ne]; intro e; subst e; exact hp _ hpc
      | _ => rfl
    | _ => rfl
  · intro hp
    obtain ⟨w, r, o1, o2, o3⟩ := h.orel
    obtain ⟨w', r', i1, i2, i3⟩ := h.irel
    rw [hp] at o2 i2
    have hs : List.Sublist (d.returned ++ qi) (goodBytes p) := by have := h.sub; rw [hp] at this; exact this
    have hc : d.returned.length + qi.length + d.lost = (goodBytes p).length := by have := h.count; rw [hp] at this; exact this
    refine ⟨qo, qi, p, h.order, Bytes.ring_length o3 (by rw [h.osize]; exact n1) (by rw [h.obase]; exact o2) (by rw [h.obase]; exact o1), ?_, h.taken,
      Bytes.ring_length i3 (by rw [h.isize]; exact n2) (by rw [h.ibase]; exact i1) (by rw [h.ibase]; exact i2), hs, hc, ?_, ?_⟩
    · intro hq
      exact (h.on (by rw [hp]; rfl)).resolve_right hq
    · intro h0
      exact hs.eq_of_length (by rw [List.length_append]; omega)
    · intro hm hk
      refine h.few hm ?_
      have := congrArg List.length h.taken
      rw [List.length_append] at this
      omega

example := c138_streams_partial ⟨true, false⟩ 1 (by decide) 254 510 [9, 9, 9] [7, 7, 7] 0x18#8 (by decide) (by decide) (by decide) (by decide)
  [.write 65, .main, .main, .main, .txIsr, .main, .main, .main, .read, .main, .arrive ⟨1, false, false, false⟩, .txIsr, .rxIsr] (by simp [Duplex.evOk])

/-! ### One call -/

/-- The events during one call of main code. -/
def inCall : DEv → Bool
  | .write _ | .read => false
  | _ => true

namespace BytesCall
open Atl.Usart.Bytes

theorem txHandler_keeps {b b' : Ring} {h h' : Hw} (e : txHandler b h = .ok (b', h')) : b'.base = b.base ∧ b'.size = b.size ∧ b'.wp = b.wp := by
  simp only [txHandler] at e
  split at e
  · simp only [Ring.read, bind, Res.bind] at e
    cases hg : b.get with
    | ub => rw [hg] at e; cases e
    | ok v => rw [hg] at e; simp only [Res.ok.injEq, Prod.mk.injEq] at e; rw [← e.1]; exact ⟨rfl, rfl, rfl⟩
  · simp only [Res.ok.injEq, Prod.mk.injEq] at e; rw [← e.1]; exact ⟨rfl, rfl, rfl⟩

/-- Where a call of `Write(v)` is that began with `a` accepted; `f` whether the buffer was full then. -/
def WAt (f : Bool) (v : Nat) (a : List Nat) (d : Bytes) : Prop :=
  match d.pc with
  | .wTest v' r1 => v' = v ∧ d.accepted = a ∧ d.out.isFull r1 = f
  | .wChecked v' | .wStored v' => v' = v ∧ d.accepted = a
  | .wInc _ _ | .wPast _ | .wWrap _ => d.accepted = a ++ [v]
  | .rmw i _ => i = 5 ∧ (d.accepted = a ++ [v] ∨ (f = true ∧ d.accepted = a))
  | .idle => d.accepted = a ++ [v] ∨ (f = true ∧ d.accepted = a)
  | _ => False

theorem wat_tx {f : Bool} {v : Nat} {a : List Nat} {d : Bytes} {b : Ring} {h : Hw} (hd : WAt f v a d)
    (hb : b.base = d.out.base ∧ b.size = d.out.size ∧ b.wp = d.out.wp) : WAt f v a { d with out := b, hw := h, pc := txPc d.pc } := by
  have hfull : ∀ x, b.isFull x = d.out.isFull x := by
    intro x; unfold Ring.isFull; rw [hb.1, hb.2.1, hb.2.2]
  cases hp : d.pc <;> simp only [WAt, hp, txPc, hfull] at hd ⊢ <;> exact hd

theorem wat_rx {f : Bool} {v : Nat} {a : List Nat} {d : Bytes} {b : Ring} {h : Hw} {l : Nat} (hd : WAt f v a d) :
    WAt f v a { d with inn := b, hw := h, pc := rxPc d.pc, lost := l } := by
  cases hp : d.pc <;> simp only [WAt, hp, rxPc] at hd ⊢ <;> exact hd

theorem wat_step {o : Order} {lim : Nat} {p1 p2 n m : Nat} {b0 : BitVec 8} {d d' : Bytes} {qo qi : List Nat} {p : List Frame} {f : Bool} {v : Nat} {a : List Nat}
    (h : BInv o p1 p2 n m b0 d qo qi p) (hn : n ≤ 256) (hd : WAt f v a d) {e : DEv} (he : inCall e = true) (hs : Bytes.step o lim d e = .ok d') : WAt f v a d' := by
  cases e with
  | write v => cases he
  | read => cases he
  | main =>
    simp only [Bytes.step, Bytes.main] at hs
    cases hp : d.pc with
    | wTest v' r1 =>
      simp only [WAt, hp] at hd
      rw [hp] at hs
      simp only [Res.ok.injEq] at hs
      rw [← hs]
      by_cases hf : d.out.isFull (tornLoad o.loadLow r1 d.out.rp) = true
      · simp only [WAt, hf, if_true]
        refine ⟨trivial, Or.inr ⟨?_, hd.2.1⟩⟩
        cases hff : f with
        | true => rfl
        | false =>
          exfalso
          obtain ⟨w, r, o1, o2, o3⟩ := h.orel
          rw [hp] at o2
          have hwp : d.out.wp = d.out.base + w := by rw [h.obase]; exact o2
          have hpc := h.pcok
          rw [hp] at hpc
          obtain ⟨-, -, c1, c2, c3⟩ := hpc
          have h1 := o3.hr; have h2 := o3.hw_lt
          simp only [rb] at h1 h2
          have hfr : d.out.isFull d.out.rp = false := by
            rw [o1, ← h.obase, ring_full o3 hwp]
            have := c3 (hd.2.2.trans hff)
            simp only [decide_eq_false_iff_not]; omega
          have := torn_full (b := d.out) (low := o.loadLow) (by rw [h.osize]; exact hn) (by omega) (by omega) c1 c2 (by rw [o1, h.obase]; omega) (by rw [o1, h.obase]; omega) (hd.2.2.trans hff) hfr
          rw [this] at hf; cases hf
      · simp only [WAt, hf, if_false]
        exact ⟨hd.1, hd.2.1⟩
    | wChecked v' =>
      simp only [WAt, hp] at hd
      rw [hp] at hs
      simp only [bind, Res.bind] at hs
      split at hs
      · simp only [Res.ok.injEq] at hs; rw [← hs]; exact hd
      · cases hs
    | wStored v' =>
      simp only [WAt, hp] at hd
      rw [hp] at hs
      simp only [Res.ok.injEq] at hs
      rw [← hs]
      simp only [WAt, hd.1, hd.2]
    | wInc new k =>
      simp only [WAt, hp] at hd
      rw [hp] at hs
      simp only [Res.ok.injEq] at hs
      rw [← hs]; exact hd
    | wPast k =>
      simp only [WAt, hp] at hd
      rw [hp] at hs
      simp only at hs
      split at hs
      · simp only [Res.ok.injEq] at hs; rw [← hs]; exact hd
      · simp only [Res.ok.injEq] at hs; rw [← hs]; exact ⟨rfl, Or.inl hd⟩
    | wWrap k =>
      simp only [WAt, hp] at hd
      rw [hp] at hs
      simp only [Res.ok.injEq] at hs
      rw [← hs]; exact ⟨rfl, Or.inl hd⟩
    | rmw i ph =>
      simp only [WAt, hp] at hd
      rw [hp] at hs
      cases ph <;> simp only [Res.ok.injEq] at hs <;> rw [← hs] <;> first | exact hd | exact hd.2
    | idle => rw [hp] at hs; simp only [Res.ok.injEq] at hs; rw [← hs]; exact hd
    | _ => simp only [WAt, hp] at hd
  | txIsr =>
    simp only [Bytes.step] at hs
    split at hs
    · cases ht : txHandler d.out d.hw with
      | ub => rw [ht] at hs; cases hs
      | ok x =>
        obtain ⟨b, h'⟩ := x
        rw [ht] at hs
        simp only [Res.bind_ok, Res.ok.injEq] at hs
        rw [← hs]
        exact wat_tx hd (txHandler_keeps ht)
    · simp only [Res.ok.injEq] at hs; rw [← hs]; exact hd
  | rxIsr =>
    simp only [Bytes.step] at hs
    split at hs
    · cases ht : rxHandler d.inn d.hw with
      | ub => rw [ht] at hs; cases hs
      | ok x =>
        obtain ⟨b, h'⟩ := x
        rw [ht] at hs
        simp only [Res.bind_ok, Res.ok.injEq] at hs
        rw [← hs]
        exact wat_rx hd
    · simp only [Res.ok.injEq] at hs; rw [← hs]; exact hd
  | arrive f => simp only [Bytes.step, Res.ok.injEq] at hs; rw [← hs]; split <;> exact hd
  | frame => simp only [Bytes.step, Res.ok.injEq] at hs; rw [← hs]; exact hd
  | load => simp only [Bytes.step, Res.ok.injEq] at hs; rw [← hs]; exact hd

theorem wat_run {o : Order} {lim : Nat} (hlim : lim ≤ 1) {p1 p2 n m : Nat} {b0 : BitVec 8} {f : Bool} {v : Nat} {a : List Nat} (hn : n ≤ 256) (es : List DEv) :
    ∀ {d d' : Bytes} {qo qi : List Nat} {p : List Frame}, BInv o p1 p2 n m b0 d qo qi p → WAt f v a d → (∀ e ∈ es, inCall e = true ∧ Duplex.evOk e) →
      Bytes.run o lim d es = .ok d' → WAt f v a d' := by
  induction es with
  | nil => intro d d' qo qi p _ hd _ hs; simp only [Bytes.run, Res.ok.injEq] at hs; rw [← hs]; exact hd
  | cons e es ih =>
    intro d d' qo qi p h hd hes hs
    obtain ⟨d1, q1, q2, p', hst, h1⟩ := Bytes.step_inv h (by omega) lim hlim e (hes e (by simp)).2
    simp only [Bytes.run, hst, Res.bind_ok] at hs
    exact ih h1 (wat_step h hn hd (hes e (by simp)).1 hst) (fun x hx => hes x (by simp [hx])) hs

end BytesCall

/-- **C138, partial** (buffer of at most 256 bytes). One call of `Write(v)`, the handlers running at any place inside it: when it is done, `v` is accepted or nothing is; and if the buffer was not full
    when the call began, `v` is accepted, whatever half loaded pointer the call saw. -/
theorem c138_write_partial (o : Order) (lim : Nat) (hlim : lim ≤ 1) (p1 p2 : Nat) (g1 g2 : List Nat) (b : BitVec 8) (h1 : 0 < g1.length) (h2 : 0 < g2.length)
    (n1 : g1.length ≤ 256) (es : List DEv) (hes : ∀ e ∈ es, Duplex.evOk e) (d : Bytes)
    (hr : Bytes.run o lim (Bytes.init p1 p2 g1 g2 b) es = .ok d) (hp : d.pc = .idle) (v : BitVec 8) (fs : List DEv) (hfs : ∀ e ∈ fs, inCall e = true ∧ Duplex.evOk e) (d' : Bytes)
    (hr' : Bytes.run o lim d (.write v :: fs) = .ok d') (hp' : d'.pc = .idle) :
    d'.accepted = d.accepted ++ [v.toNat] ∨ (d.out.length + 1 = g1.length ∧ d'.accepted = d.accepted) := by
  obtain ⟨d0, qo, qi, p, hr0, h⟩ := Bytes.run_inv (by omega) lim hlim es hes (Bytes.init_inv o p1 p2 g1 g2 b h1 h2)
  rw [hr] at hr0
  injection hr0 with hr0
  subst hr0
  obtain ⟨d1, q1, q2, p', hst, i1⟩ := Bytes.step_inv h (by omega) lim hlim (.write v) trivial
  obtain ⟨w, r, o1, o2, o3⟩ := h.orel
  rw [hp] at o2
  have hwp : d.out.wp = d.out.base + w := by rw [h.obase]; exact o2
  have hrp : d.out.rp = d.out.base + r := by rw [h.obase]; exact o1
  simp only [Bytes.run, hst, Res.bind_ok] at hr'
  have hd : BytesCall.WAt (d.out.isFull d.out.rp) v.toNat d.accepted d1 := by
    simp only [Bytes.step, hp, Res.ok.injEq] at hst
    rw [← hst]
    exact ⟨rfl, rfl, rfl⟩
  have := BytesCall.wat_run hlim n1 fs i1 hd hfs hr'
  simp only [BytesCall.WAt, hp'] at this
  refine this.imp id fun hx => ⟨?_, hx.2⟩
  have hf := hx.1
  rw [hrp, Bytes.ring_full o3 hwp] at hf
  rw [Bytes.ring_length o3 (by rw [h.osize]; omega) hwp hrp, of_decide_eq_true hf, h.osize]

namespace BytesCall
open Atl.Usart.Bytes

/-- Where a call of `Read` is that began with `a` returned, in a buffer that had the length `n` then, no byte being put in since. -/
def RAt (o : Order) (n : Nat) (a : List Nat) (d : Bytes) : Prop :=
  match d.pc with
  | .rTest1 w1 => d.returned = a ∧ w1 = d.inn.wp ∧ d.inn.length = n
  | .rLoaded ge => d.returned = a ∧ ge = decide (d.inn.wp ≥ d.inn.rp) ∧ d.inn.length = n
  | .rTest2 ge w1 => d.returned = a ∧ ge = decide (d.inn.wp ≥ d.inn.rp) ∧ w1 = d.inn.wp ∧ d.inn.length = n
  | .rReady | .rGot _ | .rInc _ _ _ | .rPast _ _ | .rWrap _ _ => d.returned = a ∧ n ≠ 0
  | .rmw i p => i = 7 ∧ d.returned = a ∧ n = 0
  | .idle => (n = 0 ∧ d.returned = a ∧ d.asked = true) ∨ (n ≠ 0 ∧ ∃ v, d.returned = a ++ [v])
  | _ => False

theorem rat_step {o : Order} {lim : Nat} {d d' : Bytes} {n : Nat} {a : List Nat}
    (hd : RAt o n a d) {e : DEv} (he : inCall e = true) (hx : e ≠ .rxIsr) (hs : Bytes.step o lim d e = .ok d') : RAt o n a d' := by
  cases e with
  | write v => cases he
  | read => cases he
  | rxIsr => exact absurd rfl hx
  | main =>
    simp only [Bytes.step, Bytes.main] at hs
    cases hp : d.pc with
    | rTest1 w1 =>
      simp only [RAt, hp] at hd
      rw [hp] at hs
      simp only [Res.ok.injEq] at hs
      rw [← hs, hd.2.1, tornLoad_self]
      exact ⟨hd.1, rfl, hd.2.2⟩
    | rLoaded ge =>
      simp only [RAt, hp] at hd
      rw [hp] at hs
      simp only [Res.ok.injEq] at hs
      rw [← hs]
      exact ⟨hd.1, hd.2.1, rfl, hd.2.2⟩
    | rTest2 ge w1 =>
      simp only [RAt, hp] at hd
      obtain ⟨e1, e2, e3, e4⟩ := hd
      rw [hp] at hs
      simp only [Res.ok.injEq] at hs
      have hl : d.inn.lengthOf ge (tornLoad o.loadLow w1 d.inn.wp) = n := by
        rw [e2, e3, tornLoad_self]; exact e4
      rw [hl] at hs
      rw [← hs]
      by_cases hn : n = 0
      · simp only [RAt, hn, if_true]; exact ⟨trivial, e1, trivial⟩
      · simp only [RAt, hn, if_false]; exact ⟨e1, hn⟩
    | rReady =>
      simp only [RAt, hp] at hd
      rw [hp] at hs
      simp only [bind, Res.bind] at hs
      split at hs
      · simp only [Res.ok.injEq] at hs; rw [← hs]; exact hd
      · cases hs
    | rGot v =>
      simp only [RAt, hp] at hd
      rw [hp] at hs
      simp only [Res.ok.injEq] at hs
      rw [← hs]; exact hd
    | rInc v new k =>
      simp only [RAt, hp] at hd
      rw [hp] at hs
      simp only [Res.ok.injEq] at hs
      rw [← hs]; exact hd
    | rPast v k =>
      simp only [RAt, hp] at hd
      rw [hp] at hs
      simp only at hs
      split at hs
      · simp only [Res.ok.injEq] at hs; rw [← hs]; exact hd
      · simp only [Res.ok.injEq] at hs; rw [← hs]; exact Or.inr ⟨hd.2, v, by rw [hd.1]⟩
    | rWrap v k =>
      simp only [RAt, hp] at hd
      rw [hp] at hs
      simp only [Res.ok.injEq] at hs
      rw [← hs]; exact Or.inr ⟨hd.2, v, by rw [hd.1]⟩
    | rmw i ph =>
      simp only [RAt, hp] at hd
      rw [hp] at hs
      cases ph <;> simp only [Res.ok.injEq] at hs <;> rw [← hs] <;> first | exact hd | exact Or.inl ⟨hd.2.2, hd.2.1, by simp [hd.1]⟩
    | idle => rw [hp] at hs; simp only [Res.ok.injEq] at hs; rw [← hs]; exact hd
    | _ => simp only [RAt, hp] at hd
  | txIsr =>
    simp only [Bytes.step] at hs
    split at hs
    · cases ht : txHandler d.out d.hw with
      | ub => rw [ht] at hs; cases hs
      | ok x =>
        obtain ⟨b, h'⟩ := x
        rw [ht] at hs
        simp only [Res.bind_ok, Res.ok.injEq] at hs
        rw [← hs]
        cases hp : d.pc <;> simp only [RAt, hp, txPc] at hd ⊢ <;> exact hd
    · simp only [Res.ok.injEq] at hs; rw [← hs]; exact hd
  | arrive f => simp only [Bytes.step, Res.ok.injEq] at hs; rw [← hs]; split <;> exact hd
  | frame => simp only [Bytes.step, Res.ok.injEq] at hs; rw [← hs]; exact hd
  | load => simp only [Bytes.step, Res.ok.injEq] at hs; rw [← hs]; exact hd

theorem rat_run {o : Order} {lim : Nat} {n : Nat} {a : List Nat} (es : List DEv) :
    ∀ {d d' : Bytes}, RAt o n a d → (∀ e ∈ es, inCall e = true ∧ e ≠ .rxIsr) → Bytes.run o lim d es = .ok d' → RAt o n a d' := by
  induction es with
  | nil => intro d d' hd _ hs; simp only [Bytes.run, Res.ok.injEq] at hs; rw [← hs]; exact hd
  | cons e es ih =>
    intro d d' hd hes hs
    cases hst : Bytes.step o lim d e with
    | ub => simp only [Bytes.run, hst] at hs; cases hs
    | ok d1 =>
      simp only [Bytes.run, hst, Res.bind_ok] at hs
      exact ih (rat_step hd (hes e (by simp)).1 (hes e (by simp)).2 hst) (fun x hx => hes x (by simp [hx])) hs

end BytesCall

/-- **C138, partial.** One call of `Read` during which no receive interrupt is served (anything else may happen): when it is done, it has returned one byte if bytes were waiting when it began, and
    otherwise none and the receive interrupt is asked for.  (That the byte is the oldest one is said by `c138_streams_partial`.) -/
theorem c138_read_partial (o : Order) (lim : Nat) (d : Bytes) (hp : d.pc = .idle) (fs : List DEv) (hfs : ∀ e ∈ fs, inCall e = true ∧ e ≠ .rxIsr) (d' : Bytes)
    (hr' : Bytes.run o lim d (.read :: fs) = .ok d') (hp' : d'.pc = .idle) :
    (d.inn.length = 0 ∧ d'.returned = d.returned ∧ d'.asked = true) ∨ (d.inn.length ≠ 0 ∧ ∃ v, d'.returned = d.returned ++ [v]) := by
  simp only [Bytes.run, Bytes.step, hp, Res.bind_ok] at hr'
  have := BytesCall.rat_run (n := d.inn.length) (a := d.returned) fs (d := { d with pc := .rTest1 d.inn.wp }) ⟨rfl, rfl, rfl⟩ hfs hr'
  simpa only [BytesCall.RAt, hp'] using this

namespace BytesCall
open Atl.Usart.Bytes

/-- Where a call of `Read` is that began with `a` returned and a byte waiting: the write pointers it has loaded from were all those of a buffer in which bytes wait, in this order. -/
def RAny (o : Order) (a : List Nat) (d : Bytes) : Prop :=
  let ok := fun x => d.inn.base ≤ x ∧ x < d.inn.base + d.inn.size
  let len := lenAt d.inn.size d.inn.rp
  d.returned = a ∧ match d.pc with
  | .rTest1 w1 => ok w1 ∧ 1 ≤ len w1 ∧ len w1 ≤ len d.inn.wp
  | .rLoaded ge => ∃ w1 w2, ok w1 ∧ ok w2 ∧ 1 ≤ len w1 ∧ len w1 ≤ len w2 ∧ len w2 ≤ len d.inn.wp ∧ ge = decide (tornLoad o.loadLow w1 w2 ≥ d.inn.rp)
  | .rTest2 ge w3 => ∃ w1 w2, ok w1 ∧ ok w2 ∧ ok w3 ∧ 1 ≤ len w1 ∧ len w1 ≤ len w2 ∧ len w2 ≤ len w3 ∧ len w3 ≤ len d.inn.wp ∧ ge = decide (tornLoad o.loadLow w1 w2 ≥ d.inn.rp)
  | .rReady | .rGot _ | .rInc _ _ _ | .rPast _ _ | .rWrap _ _ => True
  | _ => False

/-- The call is under way or has returned a byte. -/
def RDone (o : Order) (a : List Nat) (d : Bytes) : Prop := RAny o a d ∨ (d.pc = .idle ∧ ∃ v, d.returned = a ++ [v])

theorem rany_rx {o : Order} {a : List Nat} {d : Bytes} {b : Ring} {h : Hw} {l : Nat} (hd : RAny o a d) (h1 : b.base = d.inn.base) (h2 : b.size = d.inn.size) (h3 : b.rp = d.inn.rp)
    (h4 : rxWindow d.pc = none → lenAt d.inn.size d.inn.rp d.inn.wp ≤ lenAt d.inn.size d.inn.rp b.wp) : RAny o a { d with inn := b, hw := h, pc := rxPc d.pc, lost := l } := by
  obtain ⟨ha, hd⟩ := hd
  refine ⟨ha, ?_⟩
  cases hp : d.pc with
  | rTest1 w1 =>
    rw [hp] at hd
    simp only [rxPc, h1, h2, h3]
    exact ⟨hd.1, hd.2.1, Nat.le_trans hd.2.2 (h4 (by rw [hp]; rfl))⟩
  | rLoaded ge =>
    rw [hp] at hd
    simp only [rxPc, h1, h2, h3]
    obtain ⟨w1, w2, e1, e2, e3, e4, e5, e6⟩ := hd
    exact ⟨w1, w2, e1, e2, e3, e4, Nat.le_trans e5 (h4 (by rw [hp]; rfl)), e6⟩
  | rTest2 ge w3 =>
    rw [hp] at hd
    simp only [rxPc, h1, h2, h3]
    obtain ⟨w1, w2, e1, e2, e3, e4, e5, e6, e7, e8⟩ := hd
    exact ⟨w1, w2, e1, e2, e3, e4, e5, e6, Nat.le_trans e7 (h4 (by rw [hp]; rfl)), e8⟩
  | _ => rw [hp] at hd; exact hd

theorem rany_step {o : Order} {lim : Nat} {p1 p2 n m : Nat} {b0 : BitVec 8} {d d' : Bytes} {qo qi : List Nat} {p : List Frame} {a : List Nat} (hlim : lim ≤ 1)
    (h : BInv o p1 p2 n m b0 d qo qi p) (hm : m ≤ 256) (hd : RDone o a d) {e : DEv} (he : inCall e = true) (hs : Bytes.step o lim d e = .ok d') : RDone o a d' := by
  have same : ∀ (d2 : Bytes), d2.inn = d.inn → d2.pc = d.pc → d2.returned = d.returned → RDone o a d2 := by
    intro d2 e1 e2 e3
    unfold RDone RAny at hd ⊢
    rw [e1, e2, e3]; exact hd
  have loc : rxWindow d.pc = none → d.inn.base ≤ d.inn.rp ∧ d.inn.rp < d.inn.base + d.inn.size ∧ d.inn.base ≤ d.inn.wp ∧ d.inn.wp < d.inn.base + d.inn.size := by
    intro hw
    obtain ⟨w, r, i1, i2, i3⟩ := h.irel
    have i2' := ipos_none hw i2
    have h1 := i3.hr; have h2 := i3.hw_lt
    simp only [rb] at h1 h2
    have := h.ibase
    omega
  cases e with
  | write v => cases he
  | read => cases he
  | main =>
    rcases hd with ⟨ha, hd⟩ | ⟨hp, hd⟩
    · simp only [Bytes.step, Bytes.main] at hs
      cases hp : d.pc with
      | rTest1 w1 =>
        rw [hp] at hs hd
        simp only [Res.ok.injEq] at hs
        obtain ⟨l1, l2, l3, l4⟩ := loc (by rw [hp]; rfl)
        rw [← hs]
        exact Or.inl ⟨ha, w1, d.inn.wp, hd.1, ⟨l3, l4⟩, hd.2.1, hd.2.2, Nat.le_refl _, rfl⟩
      | rLoaded ge =>
        rw [hp] at hs hd
        simp only [Res.ok.injEq] at hs
        obtain ⟨l1, l2, l3, l4⟩ := loc (by rw [hp]; rfl)
        rw [← hs]
        obtain ⟨w1, w2, e1, e2, e3, e4, e5, e6⟩ := hd
        exact Or.inl ⟨ha, w1, w2, e1, e2, ⟨l3, l4⟩, e3, e4, e5, Nat.le_refl _, e6⟩
      | rTest2 ge w3 =>
        rw [hp] at hs hd
        simp only [Res.ok.injEq] at hs
        obtain ⟨l1, l2, l3, l4⟩ := loc (by rw [hp]; rfl)
        obtain ⟨w1, w2, e1, e2, e3, e4, e5, e6, e7, e8⟩ := hd
        have := torn_length (b := d.inn) (low := o.loadLow) (by rw [h.isize]; exact hm) l1 l2 e1.1 e1.2 e2.1 e2.2 e3.1 e3.2 l3 l4 e4 e5 e6 e7
        rw [← e8] at this
        rw [if_neg this] at hs
        rw [← hs]
        exact Or.inl ⟨ha, trivial⟩
      | rReady =>
        rw [hp] at hs
        simp only [bind, Res.bind] at hs
        split at hs
        · simp only [Res.ok.injEq] at hs; rw [← hs]; exact Or.inl ⟨ha, trivial⟩
        · cases hs
      | rGot v =>
        rw [hp] at hs
        simp only [Res.ok.injEq] at hs; rw [← hs]; exact Or.inl ⟨ha, trivial⟩
      | rInc v new k =>
        rw [hp] at hs
        simp only [Res.ok.injEq] at hs; rw [← hs]; exact Or.inl ⟨ha, trivial⟩
      | rPast v k =>
        rw [hp] at hs
        simp only at hs
        split at hs
        · simp only [Res.ok.injEq] at hs; rw [← hs]; exact Or.inl ⟨ha, trivial⟩
        · simp only [Res.ok.injEq] at hs; rw [← hs]; exact Or.inr ⟨rfl, v, by rw [ha]⟩
      | rWrap v k =>
        rw [hp] at hs
        simp only [Res.ok.injEq] at hs; rw [← hs]; exact Or.inr ⟨rfl, v, by rw [ha]⟩
      | _ => rw [hp] at hd; exact hd.elim
    · simp only [Bytes.step, Bytes.main, hp, Res.ok.injEq] at hs
      rw [← hs]; exact Or.inr ⟨hp, hd⟩
  | txIsr =>
    simp only [Bytes.step] at hs
    split at hs
    · cases ht : txHandler d.out d.hw with
      | ub => rw [ht] at hs; cases hs
      | ok x =>
        obtain ⟨b, h'⟩ := x
        rw [ht] at hs
        simp only [Res.bind_ok, Res.ok.injEq] at hs
        rw [← hs]
        refine same _ rfl ?_ rfl
        show txPc d.pc = d.pc
        rcases hd with ⟨-, hd⟩ | ⟨hp, -⟩
        · cases hp : d.pc <;> rw [hp] at hd <;> first | rfl | exact hd.elim
        · rw [hp]; rfl
    · simp only [Res.ok.injEq] at hs; rw [← hs]; exact hd
  | rxIsr =>
    simp only [Bytes.step] at hs
    split at hs
    · next hc =>
      simp only [Bool.and_eq_true] at hc
      cases ht : rxHandler d.inn d.hw with
      | ub => rw [ht] at hs; cases hs
      | ok x =>
        obtain ⟨b, h'⟩ := x
        rw [ht] at hs
        simp only [Res.bind_ok, Res.ok.injEq] at hs
        rw [← hs]
        rcases hd with hd | ⟨hp, hd⟩
        · obtain ⟨w, r, i1, i2, i3⟩ := h.irel
          have i1' : d.inn.wp = d.inn.base + w := by rw [h.ibase]; exact i1
          have hroom : qi.length + 1 < d.inn.size ∨ d.inn.rp = d.inn.base + r := by
            cases hk : rxWindow d.pc with
            | none => right; rw [h.ibase]; exact ipos_none hk i2
            | some k =>
              left
              have := hc.2
              rw [hk] at this
              simp only [Option.all_some, decide_eq_true_eq] at this
              exact pcok_rx_win hk h.pcok (by omega)
          have key : b.base = d.inn.base ∧ b.size = d.inn.size ∧ b.rp = d.inn.rp ∧
              (rxWindow d.pc = none → lenAt d.inn.size d.inn.rp d.inn.wp ≤ lenAt d.inn.size d.inn.rp b.wp) := by
            simp only [rxHandler] at ht
            split at ht
            · rcases ring_write ((readInternal d.hw).1 % 256) i3 i1' hroom with ⟨_, hb⟩ | ⟨_, b', hb, hb1, hb2, hb3, hb4, hrel'⟩
              · rw [hb] at ht
                simp only [Res.bind_ok, Res.ok.injEq, Prod.mk.injEq] at ht
                rw [← ht.1]
                exact ⟨rfl, rfl, rfl, fun _ => Nat.le_refl _⟩
              · rw [hb] at ht
                simp only [Res.bind_ok, Res.ok.injEq, Prod.mk.injEq] at ht
                rw [← ht.1]
                refine ⟨hb1, hb2, hb3, fun hk => ?_⟩
                have i2' : d.inn.rp = d.inn.base + r := by rw [h.ibase]; exact ipos_none hk i2
                have e1 := lenAt_rel i3
                have e2 := lenAt_rel hrel'
                rw [hb1, hb2] at e2
                rw [i2', i1', hb4, e1, e2]
                simp
            · simp only [Res.ok.injEq, Prod.mk.injEq] at ht
              rw [← ht.1]
              exact ⟨rfl, rfl, rfl, fun _ => Nat.le_refl _⟩
          exact Or.inl (rany_rx hd key.1 key.2.1 key.2.2.1 key.2.2.2)
        · right
          refine ⟨?_, hd⟩
          show rxPc d.pc = .idle
          rw [hp]; rfl
    · simp only [Res.ok.injEq] at hs; rw [← hs]; exact hd
  | arrive f => simp only [Bytes.step, Res.ok.injEq] at hs; rw [← hs]; split <;> exact same _ rfl rfl rfl
  | frame => simp only [Bytes.step, Res.ok.injEq] at hs; rw [← hs]; exact same _ rfl rfl rfl
  | load => simp only [Bytes.step, Res.ok.injEq] at hs; rw [← hs]; exact same _ rfl rfl rfl

theorem rany_run {o : Order} {lim : Nat} (hlim : lim ≤ 1) {p1 p2 n m : Nat} {b0 : BitVec 8} {a : List Nat} (hn : n < 65536) (hm : m ≤ 256) (es : List DEv) :
    ∀ {d d' : Bytes} {qo qi : List Nat} {p : List Frame}, BInv o p1 p2 n m b0 d qo qi p → RDone o a d → (∀ e ∈ es, inCall e = true ∧ Duplex.evOk e) →
      Bytes.run o lim d es = .ok d' → RDone o a d' := by
  induction es with
  | nil => intro d d' qo qi p _ hd _ hs; simp only [Bytes.run, Res.ok.injEq] at hs; rw [← hs]; exact hd
  | cons e es ih =>
    intro d d' qo qi p h hd hes hs
    obtain ⟨d1, q1, q2, p', hst, h1⟩ := Bytes.step_inv h hn lim hlim e (hes e (by simp)).2
    simp only [Bytes.run, hst, Res.bind_ok] at hs
    exact ih h1 (rany_step hlim h hm hd (hes e (by simp)).1 hst) (fun x hx => hes x (by simp [hx])) hs

end BytesCall

/-- **C138, partial** (buffer of at most 256 bytes). One call of `Read` begun while bytes wait returns one, whatever the handlers do during the call and whatever half loaded pointers it sees. -/
theorem c138_read_waiting_partial (o : Order) (lim : Nat) (hlim : lim ≤ 1) (p1 p2 : Nat) (g1 g2 : List Nat) (b : BitVec 8) (h1 : 0 < g1.length) (h2 : 0 < g2.length)
    (n1 : g1.length < 65536) (n2 : g2.length ≤ 256) (es : List DEv) (hes : ∀ e ∈ es, Duplex.evOk e) (d : Bytes)
    (hr : Bytes.run o lim (Bytes.init p1 p2 g1 g2 b) es = .ok d) (hp : d.pc = .idle) (hl : d.inn.length ≠ 0) (fs : List DEv) (hfs : ∀ e ∈ fs, inCall e = true ∧ Duplex.evOk e) (d' : Bytes)
    (hr' : Bytes.run o lim d (.read :: fs) = .ok d') (hp' : d'.pc = .idle) :
    ∃ v, d'.returned = d.returned ++ [v] := by
  obtain ⟨d0, qo, qi, p, hr0, h⟩ := Bytes.run_inv n1 lim hlim es hes (Bytes.init_inv o p1 p2 g1 g2 b h1 h2)
  rw [hr] at hr0
  injection hr0 with hr0
  subst hr0
  obtain ⟨d1, q1, q2, p', hst, i1⟩ := Bytes.step_inv h n1 lim hlim .read trivial
  obtain ⟨w, r, x1, x2, x3⟩ := h.irel
  rw [hp] at x2
  have hwp : d.inn.wp = d.inn.base + w := by rw [h.ibase]; exact x1
  have hrp : d.inn.rp = d.inn.base + r := by rw [h.ibase]; exact x2
  simp only [Bytes.run, hst, Res.bind_ok] at hr'
  rw [Bytes.ring_length x3 (by rw [h.isize]; omega) hwp hrp] at hl
  have hlen := Bytes.lenAt_rel x3
  have h5 := x3.hw_lt
  simp only [Bytes.rb] at h5
  have hd : BytesCall.RDone o d.returned d1 := by
    simp only [Bytes.step, hp, Res.ok.injEq] at hst
    rw [← hst]
    refine Or.inl ⟨rfl, ⟨?_, ?_⟩, ?_, Nat.le_refl _⟩
    · show d.inn.base ≤ d.inn.wp; omega
    · show d.inn.wp < d.inn.base + d.inn.size; omega
    · show 1 ≤ Bytes.lenAt d.inn.size d.inn.rp d.inn.wp
      rw [hwp, hrp, hlen]; omega
  rcases BytesCall.rany_run hlim n1 n2 fs i1 hd hfs hr' with ⟨_, hx⟩ | ⟨_, hx⟩
  · rw [hp'] at hx; exact hx.elim
  · exact hx

/-! ### Nothing stays behind -/

namespace BytesCall
open Atl.Usart.Bytes

/-- A buffer with addresses and one with offsets. -/
def SameRing (b : Ring) (s : RB Nat) : Prop := ∃ w r, b.wp = b.base + w ∧ b.rp = b.base + r ∧ s = rb b w r

theorem same_length {b : Ring} {s : RB Nat} (h : SameRing b s) : b.length = getLength s := by
  obtain ⟨w, r, hw, hr, rfl⟩ := h
  have e : RingBuffer.getLength (rb b w r) = if w ≥ r then toU 16 ((w : Int) - r) else toU 16 ((b.size : Int) - ((r : Int) - w)) := rfl
  rw [e]
  unfold Ring.length Ring.lengthOf
  simp only [hw, hr, decide_eq_true_eq]
  by_cases hc : w ≥ r
  · rw [if_pos hc, if_pos (by omega)]; congr 1; omega
  · rw [if_neg hc, if_neg (by omega)]; congr 1; omega

theorem same_tx {b : Ring} {s : RB Nat} (h : SameRing b s) (hw : Hw) {y : OutStream} (hy : OutStream.isr { buf := s, hw := hw } = .ok y) :
    ∃ b', txHandler b hw = .ok (b', y.hw) ∧ SameRing b' y.buf := by
  have hl := same_length h
  simp only [OutStream.isr] at hy
  simp only [txHandler, hl]
  split at hy
  · next hc =>
    rw [if_pos hc]
    obtain ⟨w, r, h1, h2, rfl⟩ := h
    simp only [RingBuffer.read, bind, Res.bind] at hy
    have hg : b.get = cGet b.buf r := by
      unfold Ring.get
      rw [h2, if_neg (by omega), show b.base + r - b.base = r by omega]
    cases hv : cGet b.buf r with
    | ub => rw [show (rb b w r).buf = b.buf from rfl, show (rb b w r).r = r from rfl, hv] at hy; cases hy
    | ok v =>
      rw [show (rb b w r).buf = b.buf from rfl, show (rb b w r).r = r from rfl, hv] at hy
      simp only [Res.ok.injEq] at hy
      refine ⟨{ b with rp := b.wrap (b.rp + 1) }, ?_, ?_⟩
      · simp only [Ring.read, hg, hv, Res.bind_ok]; rw [← hy]
      · rw [← hy]
        refine ⟨w, RingBuffer.wrap b.size (r + 1), h1, ?_, rfl⟩
        show b.wrap (b.rp + 1) = _
        rw [h2, Nat.add_assoc, wrap_base]
  · next hc =>
    rw [if_neg hc]
    simp only [Res.ok.injEq] at hy
    exact ⟨b, by rw [← hy], by rw [← hy]; exact h⟩

theorem rounds_sim (o : Order) (lim : Nat) : ∀ n (d : Bytes) (s : RB Nat), d.pc = .idle → SameRing d.out s →
    ∀ y, OutSys.run { s := { buf := s, hw := d.hw }, phase := .idle, accepted := d.accepted } (sendRounds n) = .ok y →
    ∃ b, Bytes.run o lim d (dRounds n) = .ok { d with out := b, hw := y.s.hw } ∧ SameRing b y.s.buf := by
  intro n
  induction n with
  | zero => intro d s hp hsr y hy; injection hy with hy; rw [← hy]; exact ⟨d.out, rfl, hsr⟩
  | succ n ih =>
    intro d s hp hsr y hy
    simp only [sendRounds, OutSys.run, OutSys.step] at hy
    simp only [dRounds, Bytes.run, Bytes.step]
    have hw : (txWindow d.pc).all (· < lim) = true := by rw [hp]; rfl
    simp only [hw, Bool.and_true]
    by_cases hc : (isTrue 5 d.hw.ucsrb && getAcceptData d.hw) = true
    · simp only [hc, if_true] at hy ⊢
      cases hs : OutStream.isr { buf := s, hw := d.hw } with
      | ub => rw [hs] at hy; cases hy
      | ok s' =>
        rw [hs] at hy
        obtain ⟨b', e1, e2⟩ := same_tx hsr d.hw hs
        simp only [e1, Res.bind_ok, hp, txPc] at hy ⊢
        exact ih { d with out := b', hw := s'.hw.frameTime, pc := .idle } s'.buf rfl e2 y hy
    · simp only [hc, Bool.false_eq_true, if_false, Res.bind_ok] at hy ⊢
      exact ih { d with hw := d.hw.frameTime } s hp hsr y hy

end BytesCall

/-- **C138, partial.** Nothing accepted stays behind: from any point where main code is outside `Write` and `Read`, once the transmit interrupt has been served as often
    as there are accepted bytes (and one more frame has ended), exactly the accepted bytes are on the line. -/
theorem c138_drain_partial (o : Order) (lim : Nat) (hlim : lim ≤ 1) (p1 p2 : Nat) (g1 g2 : List Nat) (b : BitVec 8) (h1 : 0 < g1.length) (h2 : 0 < g2.length)
    (n1 : g1.length < 65536) (es : List DEv) (hes : ∀ e ∈ es, Duplex.evOk e) (d : Bytes)
    (hr : Bytes.run o lim (Bytes.init p1 p2 g1 g2 b) es = .ok d) (hp : d.pc = .idle) (n : Nat) (hl : d.accepted.length + 1 ≤ n) :
    ∃ d', Bytes.run o lim d (dRounds n) = .ok d' ∧ d'.hw.line = d.accepted ∧ d'.out.length = 0 ∧ d'.returned = d.returned ∧ d'.inn = d.inn := by
  obtain ⟨d0, qo, qi, p, hr', h⟩ := Bytes.run_inv n1 lim hlim es hes (Bytes.init_inv o p1 p2 g1 g2 b h1 h2)
  rw [hr] at hr'
  injection hr' with hr'
  subst hr'
  obtain ⟨w, r, o1, o2, o3⟩ := h.orel
  rw [hp] at o2
  have hwp : d.out.wp = d.out.base + w := by rw [h.obase]; exact o2
  have hrp : d.out.rp = d.out.base + r := by rw [h.obase]; exact o1
  have hinv : OInv g1.length d.hw.ucsrb { s := { buf := Bytes.rb d.out w r, hw := d.hw }, phase := .idle, accepted := d.accepted } qo :=
    ⟨o3, h.osize, h.obytes, h.order, h.wf, fun _ => h.on (by rw [hp]; rfl), fun _ _ _ _ => rfl, by simp, by simp⟩
  have hpen : pend qo d.hw.tx d.hw.shift ≤ n := by
    have := congrArg List.length h.order
    simp only [List.length_append] at this
    unfold pend
    omega
  obtain ⟨y, hy, e1, e2⟩ := drain_inv n1 n _ qo hinv rfl hpen
  obtain ⟨b', f1, f2⟩ := BytesCall.rounds_sim o lim n d _ hp ⟨w, r, hwp, hrp, rfl⟩ y hy
  exact ⟨_, f1, e1, (BytesCall.same_length f2).trans e2, rfl, rfl⟩

/-- **C138, partial.** Nothing received stays behind: from any point where main code is outside `Write` and `Read` and a `Read` has found nothing before, serving the receive
    interrupt as often as frames wait takes them all. -/
theorem c138_fetch_partial (o : Order) (lim : Nat) (hlim : lim ≤ 1) (p1 p2 : Nat) (g1 g2 : List Nat) (b : BitVec 8) (h1 : 0 < g1.length) (h2 : 0 < g2.length)
    (n1 : g1.length < 65536) (n2 : g2.length < 65536) (es : List DEv) (hes : ∀ e ∈ es, Duplex.evOk e) (d : Bytes)
    (hr : Bytes.run o lim (Bytes.init p1 p2 g1 g2 b) es = .ok d) (hp : d.pc = .idle) (ha : d.asked = true) :
    ∃ d' buffered, Bytes.run o lim d (List.replicate d.hw.rx.length .rxIsr) = .ok d' ∧ d'.hw.rx = [] ∧ d'.returned = d.returned ∧
      d'.inn.length = buffered.length ∧ List.Sublist (d.returned ++ buffered) (goodBytes d.kept) ∧
      d.returned.length + buffered.length + d'.lost = (goodBytes d.kept).length := by
  obtain ⟨d0, qo, qi, p, hr', h⟩ := Bytes.run_inv n1 lim hlim es hes (Bytes.init_inv o p1 p2 g1 g2 b h1 h2)
  rw [hr] at hr'
  injection hr' with hr'
  subst hr'
  clear hr
  have key : ∀ k (d : Bytes) qo qi p, Bytes.BInv o p1 p2 g1.length g2.length b d qo qi p → d.pc = .idle → d.asked = true → d.hw.rx.length = k →
      ∃ d' qo' qi' p', Bytes.run o lim d (List.replicate k .rxIsr) = .ok d' ∧ Bytes.BInv o p1 p2 g1.length g2.length b d' qo' qi' p' ∧ d'.hw.rx = [] ∧
        d'.returned = d.returned ∧ d'.kept = d.kept ∧ d'.pc = .idle := by
    intro k
    induction k with
    | zero => intro d qo qi p h hp ha hk; exact ⟨d, qo, qi, p, rfl, h, List.length_eq_zero_iff.1 hk, rfl, rfl, hp⟩
    | succ k ih =>
      intro d qo qi p h hp ha hk
      obtain ⟨d1, qo1, qi1, p1', hs, i1⟩ := Bytes.rx_inv h lim hlim
      have hon : d.hw.ucsrb.getLsbD 7 = true := by rw [h.rxie (by rw [hp]; rfl), ha]; simp
      cases hx : d.hw.rx with
      | nil => rw [hx] at hk; cases hk
      | cons f r =>
        have hf : f.data < 512 := h.small f (by rw [← h.taken, hx]; simp)
        have rd := c57_read d.hw f r hx hf
        have hc : (isTrue 7 d.hw.ucsrb && rxComplete d.hw && (Bytes.rxWindow d.pc).all (· < lim)) = true := by
          rw [isTrue_bit 7 (by omega), hon, complete_iff, hx, hp]
          simp [Bytes.rxWindow]
        have hs' := hs
        simp only [Bytes.step, hc, if_true, bind, Res.bind] at hs'
        simp only [hp, Bytes.rxPc] at hs'
        have facts : d1.hw.rx = r ∧ d1.returned = d.returned ∧ d1.kept = d.kept ∧ d1.pc = .idle ∧ d1.asked = d.asked := by
          cases hi : Bytes.rxHandler d.inn d.hw with
          | ub => rw [hi] at hs'; cases hs'
          | ok s =>
            rw [hi] at hs'
            simp only at hs'
            injection hs' with hs'
            rw [← hs']
            refine ⟨?_, rfl, rfl, rfl, rfl⟩
            show s.2.rx = r
            simp only [Bytes.rxHandler, rd] at hi
            split at hi
            · simp only [bind, Res.bind] at hi
              split at hi
              · injection hi with hi; rw [← hi]
              · cases hi
            · injection hi with hi; rw [← hi]
        obtain ⟨f1, f2, f3, f4, f5⟩ := facts
        obtain ⟨d2, a2, b2, p2', r2, i2, e1, e2, e3, e4⟩ := ih d1 qo1 qi1 p1' i1 f4 (f5.trans ha) (by rw [f1]; rw [hx] at hk; simpa using hk)
        exact ⟨d2, a2, b2, p2', by simp only [List.replicate_succ, Bytes.run, hs, Res.bind_ok]; exact r2, i2, e1, e2.trans f2, e3.trans f3, e4⟩
  obtain ⟨d', qo', qi', p', hrun, i', e1, e2, e3, e4⟩ := key _ d qo qi p h hp ha rfl
  obtain ⟨w', r', x1, x2, x3⟩ := i'.irel
  rw [e4] at x2
  have hk : p' = d.kept := by have := i'.taken; rw [e1, e3, List.append_nil] at this; exact this
  have hs : List.Sublist (d'.returned ++ qi') (goodBytes p') := by have := i'.sub; rw [e4] at this; exact this
  have hc : d'.returned.length + qi'.length + d'.lost = (goodBytes p').length := by have := i'.count; rw [e4] at this; exact this
  rw [hk, e2] at hs hc
  exact ⟨d', qi', hrun, e1, e2, Bytes.ring_length x3 (by rw [i'.isize]; exact n2) (by rw [i'.ibase]; exact x1) (by rw [i'.ibase]; exact x2), hs, hc⟩

/-! ### Concrete cases and the limits -/

theorem bytes_of_run (o : Order) (lim : Nat) (d : Bytes) (es : List DEv) (P : Bytes → Bool)
    (h : (match Bytes.run o lim d es with | .ok d => P d | .ub => false) = true) : ∃ d', Bytes.run o lim d es = .ok d' ∧ P d' = true := by
  cases hr : Bytes.run o lim d es with
  | ok d' => rw [hr] at h; exact ⟨d', rfl, h⟩
  | ub => rw [hr] at h; cases h

/-- A whole call of `Write` and of `Read` without interrupt (further accesses of an ended call change nothing). -/
def bWrite (v : BitVec 8) : List DEv := .write v :: List.replicate 10 .main
def bRead : List DEv := .read :: List.replicate 8 .main

/-- A buffer across a page boundary (254 to 256): the transmit handler runs while half of the incremented write pointer (256) is stored, finds 0, takes the bytes for a wrapped buffer
    and sends the waiting byte; nothing is lost or sent twice. -/
example : ∃ d, Bytes.run ⟨true, true⟩ 1 (Bytes.init 254 510 [9, 9, 9] [7, 7, 7] 0x18#8)
      (bWrite 65 ++ [.write 66, .main, .main, .main, .txIsr, .main, .main, .main, .main, .main, .main, .main] ++ dRounds 4) = .ok d ∧
    (d.pc = .idle ∧ d.accepted = [65, 66] ∧ d.hw.line = [65, 66] ∧ d.out.wp = 256) := by
  obtain ⟨d, h, hd⟩ := bytes_of_run ⟨true, true⟩ 1 (Bytes.init 254 510 [9, 9, 9] [7, 7, 7] 0x18#8)
    (bWrite 65 ++ [.write 66, .main, .main, .main, .txIsr, .main, .main, .main, .main, .main, .main, .main] ++ dRounds 4)
    (fun d => decide (d.pc = .idle ∧ d.accepted = [65, 66] ∧ d.hw.line = [65, 66] ∧ d.out.wp = 256)) (by decide +kernel)
  exact ⟨d, h, of_decide_eq_true hd⟩

/-- A buffer across a page boundary: the receive handler runs while half of the wrapped read pointer is stored. -/
example : ∃ d, Bytes.run ⟨false, true⟩ 1 (Bytes.init 254 254 [9, 9, 9] [7, 7, 7] 0x18#8)
      (bRead ++ [dGood 1, .rxIsr, dGood 2, .rxIsr] ++ bRead ++ bRead ++ [dGood 3, .rxIsr, dGood 4, .rxIsr] ++
        [.read, .main, .main, .main, .main, .main, .main, .main, dGood 5, .rxIsr, .main] ++ bRead ++ bRead) = .ok d ∧
    (d.pc = .idle ∧ d.returned = [1, 2, 3, 4, 5] ∧ d.lost = 0) := by
  obtain ⟨d, h, hd⟩ := bytes_of_run ⟨false, true⟩ 1 (Bytes.init 254 254 [9, 9, 9] [7, 7, 7] 0x18#8)
    (bRead ++ [dGood 1, .rxIsr, dGood 2, .rxIsr] ++ bRead ++ bRead ++ [dGood 3, .rxIsr, dGood 4, .rxIsr] ++
        [.read, .main, .main, .main, .main, .main, .main, .main, dGood 5, .rxIsr, .main] ++ bRead ++ bRead)
    (fun d => decide (d.pc = .idle ∧ d.returned = [1, 2, 3, 4, 5] ∧ d.lost = 0)) (by decide +kernel)
  exact ⟨d, h, of_decide_eq_true hd⟩

example := c138_write_partial ⟨true, true⟩ 1 (by decide) 254 510 [9, 9, 9] [7, 7, 7] 0x18#8 (by decide) (by decide) (by decide) (bWrite 65) (by simp [bWrite, Duplex.evOk]) _ rfl rfl 66
  [.txIsr, .main, .main, .main, .txIsr, .main, .main, .main, .main, .main, .main, .main] (by simp [inCall, Duplex.evOk]) _ rfl rfl
example := c138_drain_partial ⟨true, true⟩ 1 (by decide) 254 510 [9, 9, 9] [7, 7, 7] 0x18#8 (by decide) (by decide) (by decide) (bWrite 65) (by simp [bWrite, Duplex.evOk]) _ rfl rfl 2 (by decide)
example := c138_fetch_partial ⟨true, true⟩ 1 (by decide) 254 510 [9, 9, 9] [7, 7, 7] 0x18#8 (by decide) (by decide) (by decide) (by decide) (bRead ++ [dGood 1, dGood 2])
  (by simp [bRead, dGood, Duplex.evOk]) _ rfl rfl rfl
example := c138_read_waiting_partial ⟨true, true⟩ 1 (by decide) 254 254 [9, 9, 9] [7, 7, 7] 0x18#8 (by decide) (by decide) (by decide) (by decide) (bRead ++ [dGood 1, .rxIsr])
  (by simp [bRead, dGood, Duplex.evOk]) _ rfl rfl (by decide) [dGood 2, .rxIsr, .main, .main, .main, .main, .main, .main, .main, .main, .main]
  (by simp [inCall, dGood, Duplex.evOk]) _ rfl rfl
/-- A `Read` that finds a byte. -/
example : ∃ d, Bytes.run ⟨true, true⟩ 1 (Bytes.init 254 510 [9, 9, 9] [7, 7, 7] 0x18#8) (bRead ++ [dGood 1, .rxIsr]) = .ok d ∧ d.pc = .idle ∧ d.inn.length = 1 ∧
    ∃ d', Bytes.run ⟨true, true⟩ 1 d bRead = .ok d' ∧ d'.pc = .idle ∧ d'.returned = [1] :=
  ⟨_, rfl, rfl, rfl, _, rfl, rfl, rfl⟩

/-- **C138 fails** if the transmit handler runs twice from the first byte of an incremented write pointer on: here both runs are between its two bytes; one byte waits, two are sent, the
    second one from a slot that was not written yet. -/
theorem c138_twice_fails : ∃ es d, Bytes.run ⟨true, true⟩ 2 (Bytes.init 255 510 [9, 9, 9] [7, 7, 7] 0x38#8) es = .ok d ∧
    d.pc = .idle ∧ d.accepted = [1] ∧ d.hw.line ≠ [1] := by
  obtain ⟨d, h, hd⟩ := bytes_of_run ⟨true, true⟩ 2 (Bytes.init 255 510 [9, 9, 9] [7, 7, 7] 0x38#8)
    ([.write 1, .main, .main, .main, .txIsr, .load, .txIsr] ++ List.replicate 8 .main ++ dRounds 4)
    (fun d => decide (d.pc = .idle ∧ d.accepted = [1] ∧ d.hw.line ≠ [1])) (by decide +kernel)
  exact ⟨_, d, h, of_decide_eq_true hd⟩

/-- **C138, last clause, fails** beyond 256 bytes: 256 good frames arrive in a buffer of 258, and one is refused, because the handler runs while half of the incremented read pointer is
    stored (high byte first) and takes the address for the one after its write pointer. -/
theorem c138_large_fails : ∃ es d, Bytes.run ⟨true, false⟩ 1 (Bytes.init 1000 255 [9] (List.replicate 258 7) 0x18#8) es = .ok d ∧
    d.pc = .idle ∧ d.kept.length = 256 ∧ d.lost = 1 := by
  obtain ⟨d, h, hd⟩ := bytes_of_run ⟨true, false⟩ 1 (Bytes.init 1000 255 [9] (List.replicate 258 7) 0x18#8)
    (bRead ++ (List.replicate 255 [dGood 1, DEv.rxIsr]).flatten ++ [.read, .main, .main, .main, .main, .main, dGood 2, .rxIsr, .main, .main])
    (fun d => decide (d.pc = .idle ∧ d.kept.length = 256 ∧ d.lost = 1)) (by decide +kernel)
  exact ⟨_, d, h, of_decide_eq_true hd⟩

end Atl.Props
