import Verif.Props.UsartDuplex
/- C108 with the exact condition on the handlers. -/
namespace Atl.Props
open Atl.Usart Atl.RingBuffer

/-! ### Specification: when a handler run comes too often -/

/-- The transmit handler is about to run once more than bytes wait, while the write pointer stands behind the last place: every byte accepted has gone to the
    transmitter, and their number is a multiple of the size. -/
def TxTooOften (n lim : Nat) (d : Duplex) : Prop :=
  (∃ k, d.pc = .wPast k ∧ k < lim) ∧ d.hw.ucsrb.getLsbD 5 = true ∧ d.hw.tx = none ∧ d.accepted.length % n = 0 ∧ d.accepted.length = d.hw.line.length + d.hw.shift.toList.length

/-- The frames the receive handler has taken. -/
def takenFrames (d : Duplex) : List Frame := d.kept.take (d.kept.length - d.hw.rx.length)

/-- The receive handler is about to store a good byte for which there is no room, while the read pointer stands behind the last place: the number of bytes read is a
    multiple of the size. -/
def RxTooOften (m lim : Nat) (d : Duplex) : Prop :=
  (∃ v k, d.pc = .rPast v k ∧ k < lim) ∧ d.hw.ucsrb.getLsbD 7 = true ∧ (∃ f r, d.hw.rx = f :: r ∧ Frame.good f = true) ∧
    (d.returned.length + 1) % m = 0 ∧ m + d.lost + d.returned.length ≤ (goodBytes (takenFrames d)).length

/-- No handler run comes too often in a history. -/
def CalmRun (n m lim : Nat) (d : Duplex) : List DEv → Prop
  | [] => True
  | e :: es => (e = .txIsr → ¬ TxTooOften n lim d) ∧ (e = .rxIsr → ¬ RxTooOften m lim d) ∧ ∀ d', Duplex.step lim d e = .ok d' → CalmRun n m lim d' es

/-- Both streams are right: as in `c108_streams_partial`. -/
structure DuplexRight (m : Nat) (b : BitVec 8) (d : Duplex) : Prop where
  bits : ∀ j, j ≠ 0 → j ≠ 1 → j ≠ 5 → j ≠ 7 → d.hw.ucsrb.getLsbD j = b.getLsbD j
  rxie : (∀ p, d.pc ≠ .rmw 7 p) → d.hw.ucsrb.getLsbD 7 = (b.getLsbD 7 || d.asked)
  sent : d.hw.line ++ d.hw.shift.toList ++ d.hw.tx.toList <+: d.accepted
  streams : d.pc = .idle → ∃ waiting buffered,
    d.hw.line ++ d.hw.shift.toList ++ d.hw.tx.toList ++ waiting = d.accepted ∧ RingBuffer.getLength d.out = waiting.length ∧
    (waiting ≠ [] → d.hw.ucsrb.getLsbD 5 = true) ∧
    takenFrames d ++ d.hw.rx = d.kept ∧ RingBuffer.getLength d.inn = buffered.length ∧
    List.Sublist (d.returned ++ buffered) (goodBytes (takenFrames d)) ∧
    d.returned.length + buffered.length + d.lost = (goodBytes (takenFrames d)).length ∧
    (d.kept.length < m → d.lost = 0)

/-! ### Where the pointers are -/

/-- The pointers main code moves, by the history. -/
structure PtrAt (n m : Nat) (d : Duplex) : Prop where
  w : d.out.w = match d.pc with | .wPast _ => (d.accepted.length - 1) % n + 1 | _ => d.accepted.length % n
  pos : (∃ k, d.pc = .wPast k) → 0 < d.accepted.length
  r : d.inn.r = match d.pc with | .rPast _ _ => d.returned.length % m + 1 | _ => d.returned.length % m

theorem dx_bind_ok {α β : Type} {x : Res α} {f : α → Res β} {y : β} (h : (x >>= f) = .ok y) : ∃ a, x = .ok a ∧ f a = .ok y := by
  cases x with
  | ok a => exact ⟨a, rfl, h⟩
  | ub => cases h

theorem succ_mod_wrap {n a : Nat} (hn : 0 < n) : wrap n (a % n + 1) = (a + 1) % n := by
  have h := Nat.mod_lt a hn
  unfold wrap
  by_cases h1 : n = 1
  · subst h1; simp [Nat.mod_one]
  · rw [Nat.add_mod a 1 n, Nat.mod_eq_of_lt (show 1 < n by omega)]
    by_cases hc : a % n + 1 ≥ n
    · rw [if_pos hc, show a % n + 1 = n by omega, Nat.mod_self]
    · rw [if_neg hc, Nat.mod_eq_of_lt (show a % n + 1 < n by omega)]

theorem outIsr_ptr {b : RB Nat} {h : Hw} {s : OutStream} (hs : OutStream.isr { buf := b, hw := h } = .ok s) : s.buf.w = b.w ∧ s.buf.size = b.size := by
  unfold OutStream.isr at hs
  split at hs
  · obtain ⟨⟨b', v⟩, h1, h2⟩ := dx_bind_ok hs
    unfold RingBuffer.read at h1
    obtain ⟨x, -, h3⟩ := dx_bind_ok h1
    cases h3
    cases h2
    exact ⟨rfl, rfl⟩
  · cases hs
    exact ⟨rfl, rfl⟩

theorem innIsr_ptr {b : RB Nat} {h : Hw} {s : InStream} (hs : InStream.isr { buf := b, hw := h } = .ok s) : s.buf.r = b.r ∧ s.buf.size = b.size := by
  unfold InStream.isr at hs
  dsimp only at hs
  split at hs
  · obtain ⟨⟨b', v⟩, h1, h2⟩ := dx_bind_ok hs
    unfold RingBuffer.write at h1
    split at h1
    · cases h1; cases h2; exact ⟨rfl, rfl⟩
    · obtain ⟨x, -, h3⟩ := dx_bind_ok h1
      cases h3; cases h2; exact ⟨rfl, rfl⟩
  · cases hs
    exact ⟨rfl, rfl⟩

theorem step_ptr {n m lim : Nat} (hn : 0 < n) (hm : 0 < m) {d d' : Duplex} {e : DEv} (ho : d.out.size = n) (hi : d.inn.size = m) (h : PtrAt n m d)
    (hs : Duplex.step lim d e = .ok d') : PtrAt n m d' := by
  obtain ⟨hw, hp, hr⟩ := h
  cases e with
  | write v =>
    unfold Duplex.step at hs
    dsimp only at hs
    split at hs
    · next e1 =>
      cases hs
      rw [e1] at hw hr
      by_cases hf : isFull d.out = true
      · simp only [hf, if_true]; exact ⟨hw, by simp, hr⟩
      · simp only [hf]; exact ⟨hw, by simp, hr⟩
    · cases hs; exact ⟨hw, hp, hr⟩
  | read =>
    unfold Duplex.step at hs
    dsimp only at hs
    split at hs
    · next e1 =>
      cases hs
      rw [e1] at hw hr
      exact ⟨hw, by simp, hr⟩
    · cases hs; exact ⟨hw, hp, hr⟩
  | main =>
    have hs : Duplex.main d = .ok d' := hs
    unfold Duplex.main at hs
    cases e1 : d.pc with
    | idle => simp only [e1] at hs; cases hs; exact ⟨hw, hp, hr⟩
    | wChecked v =>
      simp only [e1] at hs
      obtain ⟨x, -, h2⟩ := dx_bind_ok hs
      cases h2
      rw [e1] at hw hr
      exact ⟨hw, by simp, hr⟩
    | wStored v =>
      simp only [e1] at hs
      cases hs
      rw [e1] at hw hr
      refine ⟨?_, by simp, hr⟩
      simp only at hw
      simp [hw]
    | wPast k =>
      simp only [e1] at hs
      cases hs
      have hp' := hp ⟨k, e1⟩
      rw [e1] at hw hr
      refine ⟨?_, by simp, hr⟩
      simp only at hw ⊢
      rw [hw, ho, succ_mod_wrap hn, show d.accepted.length - 1 + 1 = d.accepted.length by omega]
    | rmw i ph =>
      rw [e1] at hw hr
      cases ph with
      | start => simp only [e1] at hs; cases hs; exact ⟨hw, by simp, hr⟩
      | loaded1 v => simp only [e1] at hs; cases hs; exact ⟨hw, by simp, hr⟩
      | cleared => simp only [e1] at hs; cases hs; exact ⟨hw, by simp, hr⟩
      | loaded2 v => simp only [e1] at hs; cases hs; exact ⟨hw, by simp, hr⟩
    | rLoaded ge =>
      simp only [e1] at hs
      cases hs
      rw [e1] at hw hr
      generalize (if ge then toU 16 ((d.inn.w : Int) - d.inn.r) else toU 16 ((d.inn.size : Int) - ((d.inn.r : Int) - d.inn.w))) = x
      by_cases hx : x = 0
      · simp only [hx, if_true]; exact ⟨hw, by simp, hr⟩
      · simp only [hx, if_false]; exact ⟨hw, by simp, hr⟩
    | rReady =>
      simp only [e1] at hs
      obtain ⟨x, -, h2⟩ := dx_bind_ok hs
      cases h2
      rw [e1] at hw hr
      exact ⟨hw, by simp, hr⟩
    | rGot v =>
      simp only [e1] at hs
      cases hs
      rw [e1] at hw hr
      refine ⟨hw, by simp, ?_⟩
      simp only at hr
      simp [hr]
    | rPast v k =>
      simp only [e1] at hs
      cases hs
      rw [e1] at hw hr
      refine ⟨hw, by simp, ?_⟩
      simp only at hr ⊢
      rw [hr, hi, succ_mod_wrap hm]
      simp
  | txIsr =>
    unfold Duplex.step at hs
    dsimp only at hs
    split at hs
    · obtain ⟨s, h1, h2⟩ := dx_bind_ok hs
      obtain ⟨p1, p2⟩ := outIsr_ptr h1
      cases h2
      cases e1 : d.pc <;> rw [e1] at hw hr hp <;> simp only [Duplex.txPc] <;> exact ⟨p1.trans hw, by simpa using hp, hr⟩
    · cases hs; exact ⟨hw, hp, hr⟩
  | rxIsr =>
    unfold Duplex.step at hs
    dsimp only at hs
    split at hs
    · obtain ⟨s, h1, h2⟩ := dx_bind_ok hs
      obtain ⟨p1, p2⟩ := innIsr_ptr h1
      cases h2
      cases e1 : d.pc <;> rw [e1] at hw hr hp <;> simp only [Duplex.rxPc] <;> exact ⟨hw, by simpa using hp, p1.trans hr⟩
    · cases hs; exact ⟨hw, hp, hr⟩
  | arrive f =>
    unfold Duplex.step at hs
    cases hs
    split <;> exact ⟨hw, hp, hr⟩
  | frame => cases hs; exact ⟨hw, hp, hr⟩
  | load => cases hs; exact ⟨hw, hp, hr⟩

/-! ### The invariant, the conditions and the streams -/

theorem taken_eq {n m : Nat} {b : BitVec 8} {d : Duplex} {qo qi : List Nat} {p : List Frame} (h : Duplex.DInv n m b d qo qi p) : takenFrames d = p := by
  unfold takenFrames
  rw [← h.taken, List.length_append, Nat.add_sub_cancel]
  exact List.take_left

theorem right_of_inv {n m : Nat} {b : BitVec 8} {d : Duplex} {qo qi : List Nat} {p : List Frame} (hn : n < 65536) (hm : m < 65536)
    (h : Duplex.DInv n m b d qo qi p) : DuplexRight m b d := by
  refine ⟨h.bits, ?_, ⟨qo, h.order⟩, ?_⟩
  · intro hp
    refine h.rxie ?_
    cases hpc : d.pc with
    | rmw i ph =>
      cases ph with
      | cleared => simp only [Duplex.rxOff, beq_eq_false_iff_ne]; intro e; subst e; exact hp _ hpc
      | loaded2 v => simp only [Duplex.rxOff, beq_eq_false_iff_ne]; intro e; subst e; exact hp _ hpc
      | _ => rfl
    | _ => rfl
  · intro hp
    rw [taken_eq h]
    have ho : Rel d.out qo := by have := h.orel; rw [hp] at this; exact this
    have hi : Rel d.inn qi := by have := h.irel; rw [hp] at this; exact this
    have hs : List.Sublist (d.returned ++ qi) (goodBytes p) := by have := h.sub; rw [hp] at this; exact this
    have hc : d.returned.length + qi.length + d.lost = (goodBytes p).length := by have := h.count; rw [hp] at this; exact this
    refine ⟨qo, qi, h.order, getLength_rel ho (by rw [h.osize]; exact hn), ?_, h.taken, getLength_rel hi (by rw [h.isize]; exact hm), hs, hc, ?_⟩
    · intro hq
      exact (h.on (by rw [hp]; rfl)).resolve_right hq
    · intro hk
      refine h.few ?_
      have := congrArg List.length h.taken
      rw [List.length_append] at this
      omega

theorem mod_last {n a : Nat} (hn : 0 < n) (h : (a + 1) % n = 0) : a % n + 1 = n := by
  have := succ_mod_wrap (a := a) hn
  rw [h] at this
  have := Nat.mod_lt a hn
  unfold wrap at *
  split at * <;> omega

theorem mod_not_last {n a : Nat} (hn : 0 < n) (h : (a + 1) % n ≠ 0) : a % n + 1 < n := by
  have e := succ_mod_wrap (a := a) hn
  have := Nat.mod_lt a hn
  unfold wrap at e
  split at e
  · exact absurd e.symm h
  · omega

/-- One event that does not come too often keeps the invariant. -/
theorem calm_step {n m lim : Nat} {b : BitVec 8} {d : Duplex} {qo qi : List Nat} {p : List Frame} (hn0 : 0 < n) (hm0 : 0 < m) (hn : n < 65536) (hm : m < 65536)
    (h : Duplex.DInv n m b d qo qi p) (hp : PtrAt n m d) (e : DEv) (he : Duplex.evOk e) (ht : e = .txIsr → ¬ TxTooOften n lim d) (hr : e = .rxIsr → ¬ RxTooOften m lim d) :
    ∃ d' qo' qi' p', Duplex.step lim d e = .ok d' ∧ Duplex.DInv n m b d' qo' qi' p' ∧ PtrAt n m d' := by
  obtain ⟨d', qo', qi', p', h1, h2⟩ := Duplex.step_inv_of h hn hm lim e he
    (by
      intro ee k hk hl h5 hx
      by_cases hq : qo = []
      · right
        have hw := hp.w
        have hpos := hp.pos ⟨k, hk⟩
        rw [hk] at hw
        simp only at hw
        rw [hw, h.osize]
        refine mod_not_last hn0 ?_
        rw [show d.accepted.length - 1 + 1 = d.accepted.length by omega]
        intro h0
        refine ht ee ⟨⟨k, hk, hl⟩, h5, hx, h0, ?_⟩
        rw [← h.order, hq, hx]
        simp
      · exact Or.inl hq)
    (by
      intro ee x k f r hk hl h7 hx hg
      by_cases hq : qi.length + 1 < d.inn.size
      · exact Or.inl hq
      · right
        have hr' := hp.r
        rw [hk] at hr'
        simp only at hr'
        rw [hr', h.isize]
        refine mod_not_last hm0 ?_
        intro h0
        refine hr ee ⟨⟨x, k, hk, hl⟩, h7, ⟨f, r, hx, hg⟩, h0, ?_⟩
        rw [taken_eq h, ← h.count, hk]
        rw [h.isize] at hq
        simp only [Duplex.given, List.length_append, List.length_singleton]
        omega)
  exact ⟨d', qo', qi', p', h1, h2, step_ptr hn0 hm0 h.osize h.isize hp h1⟩

/-- A transmit handler run that comes too often sends a byte that was not accepted. -/
theorem tx_too_often {n m lim : Nat} {b : BitVec 8} {d : Duplex} {qo qi : List Nat} {p : List Frame} (hn0 : 0 < n) (hn : n < 65536)
    (h : Duplex.DInv n m b d qo qi p) (hp : PtrAt n m d) (ht : TxTooOften n lim d) :
    ∃ d', Duplex.step lim d .txIsr = .ok d' ∧ ¬ DuplexRight m b d' := by
  obtain ⟨⟨k, hk, hl⟩, h5, hx, h0, hlen⟩ := ht
  have hpos := hp.pos ⟨k, hk⟩
  have hw := hp.w
  rw [hk] at hw
  simp only at hw
  rw [mod_last hn0 (by rw [show d.accepted.length - 1 + 1 = d.accepted.length by omega]; exact h0)] at hw
  have hq : qo = [] := by
    have := congrArg List.length h.order
    simp only [List.length_append, hx, Option.toList_none, List.length_nil] at this
    exact List.length_eq_zero_iff.1 (by omega)
  have ho := h.orel
  rw [hk, hq] at ho
  have hr : d.out.r = 0 := by
    have h1 := ho.hw
    have h2 := ho.hr
    simp only [Duplex.outView, wrap, h.osize, hw, List.length_nil, Nat.add_zero, ge_iff_le, Nat.le_refl, if_true] at h1 h2
    rw [if_pos h2] at h1
    exact h1.symm
  have hbuf : d.out.buf.length = n := by
    have := ho.hlen
    simp only [Duplex.outView] at this
    rw [this, h.osize]
  have hgl : getLength d.out ≠ 0 := by
    unfold getLength
    rw [hw, hr, if_pos (by omega)]
    unfold toU
    omega
  have hc : (isTrue 5 d.hw.ucsrb && getAcceptData d.hw && d.txWindow.all (· < lim)) = true := by
    rw [isTrue_bit 5 (by omega), h5, accept_iff, hx]
    simp [Duplex.txWindow, hk, hl]
  have hget : cGet d.out.buf d.out.r = .ok (d.out.buf[0]'(by omega)) := by
    rw [hr]
    unfold cGet
    rw [List.getElem?_eq_getElem (by omega)]
  refine ⟨_, by simp only [Duplex.step, hc, if_true, OutStream.isr, ne_eq, hgl, not_false_eq_true, RingBuffer.read, hget, Res.bind_ok]; rfl, ?_⟩
  intro hR
  obtain ⟨e1, -, -, -, e5, e6⟩ := c57_write (d.out.buf[0]'(by omega)) d.hw h.wf hx
  have hs := hR.sent.length_le
  simp only [List.length_append, e1, e5, e6, Option.toList_some, List.length_singleton] at hs
  omega

/-- A receive handler run that comes too often makes everything in the buffer disappear. -/
theorem rx_too_often {n m lim : Nat} {b : BitVec 8} {d : Duplex} {qo qi : List Nat} {p : List Frame} (hm0 : 0 < m) (hm : m < 65536)
    (h : Duplex.DInv n m b d qo qi p) (hp : PtrAt n m d) (ht : RxTooOften m lim d) :
    ∃ d' d'', Duplex.step lim d .rxIsr = .ok d' ∧ Duplex.step lim d' .main = .ok d'' ∧ ¬ DuplexRight m b d'' := by
  obtain ⟨⟨x, k, hk, hl⟩, h7, ⟨f, r, hx, hg⟩, h0, hlen⟩ := ht
  have hr := hp.r
  rw [hk] at hr
  simp only at hr
  rw [mod_last hm0 h0] at hr
  have hi := h.irel
  rw [hk] at hi
  have hcount := h.count
  rw [hk] at hcount
  rw [taken_eq h] at hlen
  simp only [Duplex.given, List.length_append, List.length_singleton] at hcount
  have hq : qi.length + 1 = m := by
    have := hi.hq
    simp only [Duplex.innView, h.isize] at this
    omega
  have hw : d.inn.w = m - 1 := by
    have h1 := hi.hw
    simp only [Duplex.innView, wrap, h.isize, hr, ge_iff_le, Nat.le_refl, if_true] at h1
    rw [if_pos (by omega)] at h1
    omega
  have hbuf : d.inn.buf.length = m := by
    have := hi.hlen
    simp only [Duplex.innView] at this
    rw [this, h.isize]
  have hfull : isFull d.inn = false := by
    unfold isFull
    rw [h.isize, hw, if_pos (by omega), hr]
    simp only [decide_eq_false_iff_not]
    omega
  have hc : (isTrue 7 d.hw.ucsrb && rxComplete d.hw && d.rxWindow.all (· < lim)) = true := by
    rw [isTrue_bit 7 (by omega), h7, complete_iff, hx]
    simp [Duplex.rxWindow, hk, hl]
  have hf : f.data < 512 := h.small f (by rw [← h.taken, hx]; simp)
  obtain ⟨a, bb, c⟩ := flags d.hw f r hx
  have g : getResult d.hw = .success := by
    unfold getResult
    rw [a, bb, c]
    unfold Frame.good at hg
    revert hg
    cases f.fe <;> cases f.dor <;> cases f.upe <;> decide
  have rd := c57_read d.hw f r hx hf
  have hset : ∀ v, cSet d.inn.buf d.inn.w v = .ok (d.inn.buf.set d.inn.w v) := by
    intro v
    unfold cSet
    rw [if_pos (by omega)]
  refine ⟨_, _, by simp only [Duplex.step, hc, if_true, InStream.isr, g, rd, RingBuffer.write, hfull, hset, Res.bind_ok, Bool.false_eq_true, if_false, and_false, hk, Duplex.rxPc]; rfl,
    by simp only [Duplex.step, Duplex.main]; rfl, ?_⟩
  intro hR
  obtain ⟨wt, bf, -, -, -, -, e1, -, e2, -⟩ := hR.streams rfl
  have t : takenFrames d = p := taken_eq h
  have hkept : d.kept.length = p.length + r.length + 1 := by
    rw [← h.taken, hx]; simp; omega
  have t2 : d.kept.take (d.kept.length - r.length) = p ++ [f] := by
    rw [hkept, show p.length + r.length + 1 - r.length = p.length + 1 by omega, ← h.taken, hx, List.take_append, List.take_of_length_le (by omega),
      show p.length + 1 - p.length = 1 by omega]
    rfl
  simp only [takenFrames, t2, goodBytes_snoc, hg, if_true, List.length_append, List.length_singleton] at e2
  simp only [h.isize, hw, hr] at e1
  have hw1 : wrap m (m - 1 + 1) = 0 := by unfold wrap; rw [if_pos (by omega)]
  have hw2 : wrap m m = 0 := by unfold wrap; rw [if_pos (by omega)]
  simp only [hw1, hw2, getLength] at e1
  rw [if_pos (by omega)] at e1
  unfold toU at e1
  omega

/-- **C108, exactly** (for any bound `lim` on the handler runs in a pointer window, so also without one). Over a history of `Write` and `Read` calls, interrupts between any two memory
    accesses and frames coming and going, both streams are right at every point, and one access later, if and only if no handler run comes too often: the transmit
    handler never runs inside the window of the write pointer after its last byte when the number of accepted bytes is a multiple of the size, and the receive handler never runs
    for a good byte inside the window of the read pointer with a full buffer when the number of bytes read, the present one included, is a multiple of the size. -/
theorem c108_streams_exact (lim : Nat) (g1 g2 : List Nat) (b : BitVec 8) (h1 : 0 < g1.length) (h2 : 0 < g2.length)
    (n1 : g1.length < 65536) (n2 : g2.length < 65536) (es : List DEv) (hes : ∀ e ∈ es, Duplex.evOk e) :
    CalmRun g1.length g2.length lim (Duplex.init g1 g2 b) es ↔
      ∀ pre, pre <+: es → ∀ t, t = [] ∨ t = [.main] → ∃ d, Duplex.run lim (Duplex.init g1 g2 b) (pre ++ t) = .ok d ∧ DuplexRight g2.length b d := by
  have key : ∀ (es : List DEv) (d : Duplex) qo qi p, (∀ e ∈ es, Duplex.evOk e) → Duplex.DInv g1.length g2.length b d qo qi p → PtrAt g1.length g2.length d →
      (CalmRun g1.length g2.length lim d es ↔
        ∀ pre, pre <+: es → ∀ t, t = [] ∨ t = [.main] → ∃ d', Duplex.run lim d (pre ++ t) = .ok d' ∧ DuplexRight g2.length b d') := by
    intro es
    induction es with
    | nil =>
      intro d qo qi p _ h hp
      refine ⟨fun _ pre hpre t ht => ?_, fun _ => trivial⟩
      rw [List.prefix_nil.1 hpre]
      rcases ht with rfl | rfl
      · exact ⟨d, rfl, right_of_inv n1 n2 h⟩
      · obtain ⟨d', qo', qi', p', hs, i, -⟩ := calm_step (lim := lim) h1 h2 n1 n2 h hp .main trivial (by simp) (by simp)
        exact ⟨d', by simp only [List.nil_append, Duplex.run, hs, Res.bind_ok], right_of_inv n1 n2 i⟩
    | cons e es ih =>
      intro d qo qi p hes h hp
      have he := hes e (by simp)
      constructor
      · rintro ⟨ht, hr, hrest⟩ pre hpre t htt
        obtain ⟨d', qo', qi', p', hs, i, ip⟩ := calm_step (lim := lim) h1 h2 n1 n2 h hp e he ht hr
        cases pre with
        | nil =>
          rcases htt with rfl | rfl
          · exact ⟨d, rfl, right_of_inv n1 n2 h⟩
          · obtain ⟨d', qo', qi', p', hs, i, -⟩ := calm_step (lim := lim) h1 h2 n1 n2 h hp .main trivial (by simp) (by simp)
            exact ⟨d', by simp only [List.nil_append, Duplex.run, hs, Res.bind_ok], right_of_inv n1 n2 i⟩
        | cons e' pre =>
          obtain ⟨rfl, hpre'⟩ := List.cons_prefix_cons.1 hpre
          obtain ⟨d2, r2, w2⟩ := (ih d' qo' qi' p' (fun x hx => hes x (by simp [hx])) i ip).1 (hrest d' hs) pre hpre' t htt
          exact ⟨d2, by simp only [List.cons_append, Duplex.run, hs, Res.bind_ok]; exact r2, w2⟩
      · intro hall
        have ht : e = .txIsr → ¬ TxTooOften g1.length lim d := by
          rintro rfl hbad
          obtain ⟨d', hs, hn⟩ := tx_too_often (m := g2.length) h1 n1 h hp hbad
          obtain ⟨d2, r2, w2⟩ := hall [.txIsr] (by simp) [] (Or.inl rfl)
          simp only [List.append_nil, Duplex.run, hs, Res.bind_ok, Res.ok.injEq] at r2
          exact hn (r2 ▸ w2)
        have hr : e = .rxIsr → ¬ RxTooOften g2.length lim d := by
          rintro rfl hbad
          obtain ⟨d', d'', hs, hs', hn⟩ := rx_too_often h2 n2 h hp hbad
          obtain ⟨d2, r2, w2⟩ := hall [.rxIsr] (by simp) [.main] (Or.inr rfl)
          simp only [List.cons_append, List.nil_append, Duplex.run, hs, hs', Res.bind_ok, Res.ok.injEq] at r2
          exact hn (r2 ▸ w2)
        obtain ⟨d', qo', qi', p', hs, i, ip⟩ := calm_step (lim := lim) h1 h2 n1 n2 h hp e he ht hr
        refine ⟨ht, hr, ?_⟩
        intro d2 hd2
        rw [hs] at hd2
        cases hd2
        refine (ih d' qo' qi' p' (fun x hx => hes x (by simp [hx])) i ip).2 ?_
        intro pre hpre t htt
        obtain ⟨d3, r3, w3⟩ := hall (e :: pre) (List.cons_prefix_cons.2 ⟨rfl, hpre⟩) t htt
        simp only [List.cons_append, Duplex.run, hs, Res.bind_ok] at r3
        exact ⟨d3, r3, w3⟩
  exact key es _ [] [] [] hes (Duplex.init_inv g1 g2 b h1 h2) ⟨by simp [Duplex.init, RingBuffer.mk], by simp [Duplex.init], by simp [Duplex.init, RingBuffer.mk]⟩

example := c108_streams_exact 5 [9, 9, 9] [7, 7, 7] 0x18#8 (by decide) (by decide) (by decide) (by decide)
  [.write 65, .main, .main, .main, .main, .read, .main, .arrive ⟨1, false, false, false⟩, .txIsr, .rxIsr] (by simp [Duplex.evOk])

/-- **C108.** If the handler of each stream runs at most once in a window, no run comes too often. -/
theorem c108_once_calm (lim : Nat) (hlim : lim ≤ 1) (g1 g2 : List Nat) (b : BitVec 8) (h1 : 0 < g1.length) (h2 : 0 < g2.length)
    (n1 : g1.length < 65536) (n2 : g2.length < 65536) (es : List DEv) (hes : ∀ e ∈ es, Duplex.evOk e) :
    CalmRun g1.length g2.length lim (Duplex.init g1 g2 b) es := by
  refine (c108_streams_exact lim g1 g2 b h1 h2 n1 n2 es hes).2 ?_
  intro pre hpre t ht
  obtain ⟨d, qo, qi, p, hr, h⟩ := Duplex.run_inv n1 n2 lim hlim (pre ++ t) (by
    intro e he
    rcases List.mem_append.1 he with he | he
    · exact hes e (hpre.subset he)
    · rcases ht with rfl | rfl
      · cases he
      · rw [List.mem_singleton.1 he]; trivial) (Duplex.init_inv g1 g2 b h1 h2)
  exact ⟨d, hr, right_of_inv n1 n2 h⟩

/-- Two runs of each handler in a window that do no harm (the pointers do not stand behind the last place): every byte goes out and comes in once. -/
example : ∃ d, Duplex.run 5 (Duplex.init [9, 9, 9] [7, 7, 7] 0x18#8)
      (dWrite 65 ++ [.write 66, .main, .main, .txIsr, .load, .txIsr] ++ List.replicate 5 .main ++
       dRead ++ [dGood 1, .rxIsr, .read, .main, .main, .main, dGood 2, .rxIsr, dGood 3, .rxIsr, .main] ++ dRead ++ dRead ++ dRounds 4) = .ok d ∧
    (d.pc = .idle ∧ d.accepted = [65, 66] ∧ d.hw.line = [65, 66] ∧ d.returned = [1, 2, 3] ∧ d.lost = 0) := by
  obtain ⟨d, h, hd⟩ := duplex_of_run 5 (Duplex.init [9, 9, 9] [7, 7, 7] 0x18#8)
    (dWrite 65 ++ [.write 66, .main, .main, .txIsr, .load, .txIsr] ++ List.replicate 5 .main ++
       dRead ++ [dGood 1, .rxIsr, .read, .main, .main, .main, dGood 2, .rxIsr, dGood 3, .rxIsr, .main] ++ dRead ++ dRead ++ dRounds 4)
    (fun d => decide (d.pc = .idle ∧ d.accepted = [65, 66] ∧ d.hw.line = [65, 66] ∧ d.returned = [1, 2, 3] ∧ d.lost = 0)) (by decide +kernel)
  exact ⟨d, h, of_decide_eq_true hd⟩

/-- And one that comes too often: a single accepted byte in a buffer of one (which never accepts any) cannot happen, so the least case is a buffer of two: after the second
    byte the handler runs a third time. -/
example : ∃ d, Duplex.run 2 (Duplex.init [9, 9] [7, 7] 0x18#8) (dWrite 65 ++ [.txIsr, .load, .write 66, .main, .main, .txIsr, .frame]) = .ok d ∧ TxTooOften 2 2 d := by
  obtain ⟨d, h, hd⟩ := duplex_of_run 2 (Duplex.init [9, 9] [7, 7] 0x18#8) (dWrite 65 ++ [.txIsr, .load, .write 66, .main, .main, .txIsr, .frame])
    (fun d => decide (d.pc = .wPast 1 ∧ d.hw.ucsrb.getLsbD 5 = true ∧ d.hw.tx = none ∧ d.accepted.length % 2 = 0 ∧ d.accepted.length = d.hw.line.length + d.hw.shift.toList.length)) (by decide +kernel)
  obtain ⟨a, b⟩ := of_decide_eq_true hd
  exact ⟨d, h, ⟨1, a, by omega⟩, b⟩

end Atl.Props
