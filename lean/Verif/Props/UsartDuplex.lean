import Verif.Proof.UsartDuplex
/- Property theorems C108: both interrupt driven streams on one USART. -/
namespace Atl.Props
open Atl.Usart

/-- **C108, partial** (the handler of a stream runs at most once between the increment of a pointer and its wrap). Every history of Write and Read calls by
    main code, both interrupts at every place between two memory accesses, frames arriving and frames leaving, every pair of buffer sizes and every control
    register: no undefined behaviour; what is on the line, being sent, in the transmitter and in the buffer is in order exactly what `Write` accepted; what `Read`
    returned and the buffer holds is in order part of the good frames received, and all of them but those counted as not fitting; none is lost as long as fewer frames
    arrived than the buffer has slots; outside `Write` the transmit interrupt is enabled whenever bytes wait; outside `Read` the receive interrupt is enabled once a
    `Read` has found nothing, whatever `Write` and the handlers did; no other control bit changes. -/
theorem c108_streams_partial (lim : Nat) (hlim : lim ≤ 1) (g1 g2 : List Nat) (b : BitVec 8) (h1 : 0 < g1.length) (h2 : 0 < g2.length)
    (n1 : g1.length < 65536) (n2 : g2.length < 65536) (es : List DEv) (hes : ∀ e ∈ es, Duplex.evOk e) :
    ∃ d, Duplex.run lim (Duplex.init g1 g2 b) es = .ok d ∧
      (∀ j, j ≠ 0 → j ≠ 1 → j ≠ 5 → j ≠ 7 → d.hw.ucsrb.getLsbD j = b.getLsbD j) ∧
      ((∀ p, d.pc ≠ .rmw 7 p) → d.hw.ucsrb.getLsbD 7 = (b.getLsbD 7 || d.asked)) ∧
      (d.pc = .idle → ∃ waiting buffered taken,
        d.hw.line ++ d.hw.shift.toList ++ d.hw.tx.toList ++ waiting = d.accepted ∧ RingBuffer.getLength d.out = waiting.length ∧
        (waiting ≠ [] → d.hw.ucsrb.getLsbD 5 = true) ∧
        taken ++ d.hw.rx = d.kept ∧ RingBuffer.getLength d.inn = buffered.length ∧
        List.Sublist (d.returned ++ buffered) (goodBytes taken) ∧
        d.returned.length + buffered.length + d.lost = (goodBytes taken).length ∧
        (d.lost = 0 → d.returned ++ buffered = goodBytes taken) ∧
        (d.kept.length < g2.length → d.lost = 0)) := by
  obtain ⟨d, qo, qi, p, hr, h⟩ := Duplex.run_inv n1 n2 lim hlim es hes (Duplex.init_inv g1 g2 b h1 h2)
  refine ⟨d, hr, h.bits, ?_, ?_⟩
  · intro hp
    refine h.rxie ?_
    cases hpc : d.pc with
    | rmw i ph =>
      cases ph with
      | cleared => simp only [Duplex.rxOff, beq_eq_false_iff_ne]; intro e; subst e; exact hp _ hpc
      | loaded2 v => simp only [Duplex.rxOff, beq_eq_false_iff_ne]; intro e; subst e; exact hp _ hpc
      | _ => rfl
    | _ => rfl
  · intro hp
    have ho : RingBuffer.Rel d.out qo := by have := h.orel; rw [hp] at this; exact this
    have hi : RingBuffer.Rel d.inn qi := by have := h.irel; rw [hp] at this; exact this
    have hs : List.Sublist (d.returned ++ qi) (goodBytes p) := by have := h.sub; rw [hp] at this; exact this
    have hc : d.returned.length + qi.length + d.lost = (goodBytes p).length := by have := h.count; rw [hp] at this; exact this
    refine ⟨qo, qi, p, h.order, RingBuffer.getLength_rel ho (by rw [h.osize]; exact n1), ?_, h.taken,
      RingBuffer.getLength_rel hi (by rw [h.isize]; exact n2), hs, hc, ?_, ?_⟩
    · intro hq
      exact (h.on (by rw [hp]; rfl)).resolve_right hq
    · intro h0
      exact hs.eq_of_length (by rw [List.length_append]; omega)
    · intro hk
      refine h.few ?_
      have := congrArg List.length h.taken
      rw [List.length_append] at this
      omega

example := c108_streams_partial 1 (by decide) [9, 9, 9] [7, 7, 7] 0x18#8 (by decide) (by decide) (by decide) (by decide)
  [.write 65, .main, .main, .main, .main, .read, .main, .arrive ⟨1, false, false, false⟩, .txIsr, .rxIsr] (by simp [Duplex.evOk])

/-- **C108, partial.** A byte is refused by the receive handler only when the buffer is full, and then one byte is counted. -/
theorem c108_refuse_partial (lim : Nat) (hlim : lim ≤ 1) (g1 g2 : List Nat) (b : BitVec 8) (h1 : 0 < g1.length) (h2 : 0 < g2.length)
    (n1 : g1.length < 65536) (n2 : g2.length < 65536) (es : List DEv) (hes : ∀ e ∈ es, Duplex.evOk e) (d d' : Duplex)
    (hr : Duplex.run lim (Duplex.init g1 g2 b) es = .ok d) (e : DEv) (hs : Duplex.step lim d e = .ok d') :
    d'.lost = d.lost ∨ (d'.lost = d.lost + 1 ∧ RingBuffer.getLength d.inn + 1 = g2.length ∧ ∃ f r, d.hw.rx = f :: r ∧ d'.hw.rx = r) := by
  obtain ⟨d0, qo, qi, p, hr', h⟩ := Duplex.run_inv n1 n2 lim hlim es hes (Duplex.init_inv g1 g2 b h1 h2)
  rw [hr] at hr'
  injection hr' with hr'
  subst hr'
  have hm : Duplex.main d = .ok d' → d'.lost = d.lost := by
    intro hmm
    simp only [Duplex.main] at hmm
    split at hmm <;> first
      | (injection hmm with hmm; rw [← hmm])
      | (simp only [bind, Res.bind] at hmm; split at hmm <;> first | (cases hmm; done) | (injection hmm with hmm; rw [← hmm]))
  cases e with
  | write v => left; simp only [Duplex.step] at hs; split at hs <;> (injection hs with hs; rw [← hs])
  | read => left; simp only [Duplex.step] at hs; split at hs <;> (injection hs with hs; rw [← hs])
  | main => exact Or.inl (hm hs)
  | txIsr =>
    left
    simp only [Duplex.step] at hs
    split at hs
    · simp only [bind, Res.bind] at hs
      split at hs
      · injection hs with hs; rw [← hs]
      · cases hs
    · injection hs with hs; rw [← hs]
  | rxIsr =>
    by_cases hc : (isTrue 7 d.hw.ucsrb && rxComplete d.hw && d.rxWindow.all (· < lim)) = true
    · simp only [Duplex.step, hc, if_true] at hs
      simp only [Bool.and_eq_true, complete_iff] at hc
      obtain ⟨⟨hc1, hc2⟩, hc3⟩ := hc
      cases hx : d.hw.rx with
      | nil => rw [hx] at hc2; simp at hc2
      | cons f r =>
        have hf : f.data < 512 := h.small f (by rw [← h.taken, hx]; simp)
        have rd := c57_read d.hw f r hx hf
        by_cases hfull : getResult d.hw = .success ∧ RingBuffer.isFull d.inn = true
        · right
          have hnp : ∀ x k, d.pc ≠ .rPast x k := by
            intro x k hk
            have hpk := h.pcok
            rw [hk] at hpk
            simp only [Duplex.rxWindow, hk, Option.all_some, decide_eq_true_eq] at hc3
            obtain ⟨b', a, hb, _, _, _, hfl, hcase⟩ := Duplex.rx_buf 0 h.irel (fun x' k' _ => ⟨hpk.1, Or.inl (hpk.2 (by omega))⟩)
            rcases hcase with ⟨_, _, hq⟩ | ⟨ha, _⟩
            · have := hpk.2 (by omega); omega
            · rw [hfl, ha] at hfull; exact absurd hfull.2 (by simp)
          have hrel : RingBuffer.Rel d.inn qi := by
            have := h.irel
            cases hpc : d.pc with
            | rPast x k => exact absurd hpc (hnp x k)
            | _ => rw [hpc] at this; exact this
          have hq : qi.length + 1 = d.inn.size := by
            have := hfull.2
            rw [RingBuffer.isFull_rel hrel] at this
            simpa using this
          simp only [hfull, and_self, if_true, InStream.isr, rd, RingBuffer.write_full hrel _ hq, Res.bind_ok] at hs
          injection hs with hs
          rw [← hs]
          refine ⟨rfl, ?_, f, r, rfl, rfl⟩
          rw [RingBuffer.getLength_rel hrel (by rw [h.isize]; exact n2), hq, h.isize]
        · left
          simp only [hfull, if_false, bind, Res.bind] at hs
          split at hs
          · injection hs with hs; rw [← hs]
          · cases hs
    · left
      simp only [Duplex.step, hc] at hs
      injection hs with hs; rw [← hs]
  | arrive f => left; simp only [Duplex.step] at hs; injection hs with hs; rw [← hs]; split <;> rfl
  | frame => left; injection hs with hs; rw [← hs]
  | load => left; injection hs with hs; rw [← hs]

example := c108_refuse_partial 1 (by decide) [9, 9, 9] [7, 7, 7] 0x18#8 (by decide) (by decide) (by decide) (by decide)
  [.write 65, .main, .main, .main, .main, .read, .main, .arrive ⟨1, false, false, false⟩, .txIsr] (by simp [Duplex.evOk]) _ _ rfl .rxIsr rfl

/-- `n` times: the transmit interrupt if it is pending, then a frame ends. -/
def dRounds : Nat → List DEv
  | 0 => []
  | n + 1 => .txIsr :: .frame :: dRounds n

theorem dRounds_sim (lim : Nat) : ∀ n (d : Duplex), d.pc = .idle → ∀ y, OutSys.run { s := { buf := d.out, hw := d.hw }, phase := .idle, accepted := d.accepted } (sendRounds n) = .ok y →
    Duplex.run lim d (dRounds n) = .ok { d with out := y.s.buf, hw := y.s.hw } := by
  intro n
  induction n with
  | zero => intro d hp y hy; injection hy with hy; rw [← hy]; rfl
  | succ n ih =>
    intro d hp y hy
    simp only [sendRounds, OutSys.run, OutSys.step] at hy
    simp only [dRounds, Duplex.run, Duplex.step]
    have hw : d.txWindow.all (· < lim) = true := by simp only [Duplex.txWindow, hp]; rfl
    simp only [hw, Bool.and_true]
    by_cases hc : (isTrue 5 d.hw.ucsrb && getAcceptData d.hw) = true
    · simp only [hc, if_true] at hy ⊢
      cases hs : OutStream.isr { buf := d.out, hw := d.hw } with
      | ub => rw [hs] at hy; cases hy
      | ok s =>
        rw [hs] at hy
        simp only [Res.bind_ok, hp, Duplex.txPc] at hy ⊢
        exact ih { d with out := s.buf, hw := s.hw.frameTime, pc := .idle } rfl y hy
    · simp only [hc, Bool.false_eq_true, if_false, Res.bind_ok] at hy ⊢
      exact ih { d with hw := d.hw.frameTime } hp y hy

/-- **C108, partial.** Nothing accepted stays behind: from any point where main code is outside `Write` and `Read`, once the transmit interrupt has been served as often
    as there are accepted bytes (and one more frame has ended), exactly the accepted bytes are on the line. -/
theorem c108_drain_partial (lim : Nat) (hlim : lim ≤ 1) (g1 g2 : List Nat) (b : BitVec 8) (h1 : 0 < g1.length) (h2 : 0 < g2.length)
    (n1 : g1.length < 65536) (n2 : g2.length < 65536) (es : List DEv) (hes : ∀ e ∈ es, Duplex.evOk e) (d : Duplex)
    (hr : Duplex.run lim (Duplex.init g1 g2 b) es = .ok d) (hp : d.pc = .idle) (n : Nat) (hl : d.accepted.length + 1 ≤ n) :
    ∃ d', Duplex.run lim d (dRounds n) = .ok d' ∧ d'.hw.line = d.accepted ∧ RingBuffer.getLength d'.out = 0 ∧ d'.returned = d.returned ∧ d'.inn = d.inn := by
  obtain ⟨d0, qo, qi, p, hr', h⟩ := Duplex.run_inv n1 n2 lim hlim es hes (Duplex.init_inv g1 g2 b h1 h2)
  rw [hr] at hr'
  injection hr' with hr'
  subst hr'
  have ho : RingBuffer.Rel d.out qo := by have := h.orel; rw [hp] at this; exact this
  have hinv : OInv g1.length d.hw.ucsrb { s := { buf := d.out, hw := d.hw }, phase := .idle, accepted := d.accepted } qo :=
    ⟨ho, h.osize, h.obytes, h.order, h.wf, fun _ => h.on (by rw [hp]; rfl), fun _ _ _ _ => rfl, by simp, by simp⟩
  have hpen : pend qo d.hw.tx d.hw.shift ≤ n := by
    have := congrArg List.length h.order
    simp only [List.length_append] at this
    unfold pend
    omega
  obtain ⟨y, hy, e1, e2⟩ := drain_inv n1 n _ qo hinv rfl hpen
  exact ⟨_, dRounds_sim lim n d hp y hy, e1, e2, rfl, rfl⟩

example := c108_drain_partial 1 (by decide) [9, 9, 9] [7, 7, 7] 0x18#8 (by decide) (by decide) (by decide) (by decide)
  [.write 65, .main, .main, .main, .main, .main, .main, .main, .arrive ⟨1, false, false, false⟩, .txIsr] (by simp [Duplex.evOk]) _ rfl rfl 2 (by decide)

/-- **C108, partial.** Nothing received stays behind: from any point where main code is outside `Write` and `Read` and a `Read` has found nothing before, serving the receive
    interrupt as often as frames wait takes them all. -/
theorem c108_fetch_partial (lim : Nat) (hlim : lim ≤ 1) (g1 g2 : List Nat) (b : BitVec 8) (h1 : 0 < g1.length) (h2 : 0 < g2.length)
    (n1 : g1.length < 65536) (n2 : g2.length < 65536) (es : List DEv) (hes : ∀ e ∈ es, Duplex.evOk e) (d : Duplex)
    (hr : Duplex.run lim (Duplex.init g1 g2 b) es = .ok d) (hp : d.pc = .idle) (ha : d.asked = true) :
    ∃ d' buffered, Duplex.run lim d (List.replicate d.hw.rx.length .rxIsr) = .ok d' ∧ d'.hw.rx = [] ∧ d'.returned = d.returned ∧
      RingBuffer.getLength d'.inn = buffered.length ∧ List.Sublist (d.returned ++ buffered) (goodBytes d.kept) ∧
      d.returned.length + buffered.length + d'.lost = (goodBytes d.kept).length := by
  obtain ⟨d0, qo, qi, p, hr', h⟩ := Duplex.run_inv n1 n2 lim hlim es hes (Duplex.init_inv g1 g2 b h1 h2)
  rw [hr] at hr'
  injection hr' with hr'
  subst hr'
  clear hr
  have key : ∀ k (d : Duplex) qo qi p, Duplex.DInv g1.length g2.length b d qo qi p → d.pc = .idle → d.asked = true → d.hw.rx.length = k →
      ∃ d' qo' qi' p', Duplex.run lim d (List.replicate k .rxIsr) = .ok d' ∧ Duplex.DInv g1.length g2.length b d' qo' qi' p' ∧ d'.hw.rx = [] ∧
        d'.returned = d.returned ∧ d'.kept = d.kept ∧ d'.pc = .idle := by
    intro k
    induction k with
    | zero => intro d qo qi p h hp ha hk; exact ⟨d, qo, qi, p, rfl, h, List.length_eq_zero_iff.1 hk, rfl, rfl, hp⟩
    | succ k ih =>
      intro d qo qi p h hp ha hk
      obtain ⟨d1, qo1, qi1, p1, hs, i1⟩ := Duplex.rx_inv h lim hlim
      have hon : d.hw.ucsrb.getLsbD 7 = true := by rw [h.rxie (by rw [hp]; rfl), ha]; simp
      cases hx : d.hw.rx with
      | nil => rw [hx] at hk; cases hk
      | cons f r =>
        have hf : f.data < 512 := h.small f (by rw [← h.taken, hx]; simp)
        have rd := c57_read d.hw f r hx hf
        have hc : (isTrue 7 d.hw.ucsrb && rxComplete d.hw && d.rxWindow.all (· < lim)) = true := by
          rw [isTrue_bit 7 (by omega), hon, complete_iff, hx]
          simp only [Duplex.rxWindow, hp]
          simp
        have hs' := hs
        simp only [Duplex.step, hc, if_true, hp, Duplex.rxPc, bind, Res.bind] at hs'
        have facts : d1.hw.rx = r ∧ d1.returned = d.returned ∧ d1.kept = d.kept ∧ d1.pc = .idle ∧ d1.asked = d.asked := by
          cases hi : InStream.isr { buf := d.inn, hw := d.hw } with
          | ub => rw [hi] at hs'; cases hs'
          | ok s =>
            rw [hi] at hs'
            simp only at hs'
            injection hs' with hs'
            rw [← hs']
            refine ⟨?_, rfl, rfl, rfl, rfl⟩
            show s.hw.rx = r
            simp only [InStream.isr, rd] at hi
            split at hi
            · simp only [bind, Res.bind] at hi
              split at hi
              · injection hi with hi; rw [← hi]
              · cases hi
            · injection hi with hi; rw [← hi]
        obtain ⟨f1, f2, f3, f4, f5⟩ := facts
        obtain ⟨d2, a2, b2, p2, r2, i2, e1, e2, e3, e4⟩ := ih d1 qo1 qi1 p1 i1 f4 (f5.trans ha) (by rw [f1]; rw [hx] at hk; simpa using hk)
        exact ⟨d2, a2, b2, p2, by simp only [List.replicate_succ, Duplex.run, hs, Res.bind_ok]; exact r2, i2, e1, e2.trans f2, e3.trans f3, e4⟩
  obtain ⟨d', qo', qi', p', hrun, i', e1, e2, e3, e4⟩ := key _ d qo qi p h hp ha rfl
  have hi : RingBuffer.Rel d'.inn qi' := by have := i'.irel; rw [e4] at this; exact this
  have hk : p' = d.kept := by have := i'.taken; rw [e1, e3, List.append_nil] at this; exact this
  have hs : List.Sublist (d'.returned ++ qi') (goodBytes p') := by have := i'.sub; rw [e4] at this; exact this
  have hc : d'.returned.length + qi'.length + d'.lost = (goodBytes p').length := by have := i'.count; rw [e4] at this; exact this
  rw [hk, e2] at hs hc
  exact ⟨d', qi', hrun, e1, e2, RingBuffer.getLength_rel hi (by rw [i'.isize]; exact n2), hs, hc⟩

/-! ### The window -/

theorem duplex_of_run (lim : Nat) (d : Duplex) (es : List DEv) (P : Duplex → Bool)
    (h : (match Duplex.run lim d es with | .ok d => P d | .ub => false) = true) : ∃ d', Duplex.run lim d es = .ok d' ∧ P d' = true := by
  cases hr : Duplex.run lim d es with
  | ok d' => rw [hr] at h; exact ⟨d', rfl, h⟩
  | ub => rw [hr] at h; cases h

/-- A whole call of `Write` (accepted) and of `Read` without interrupt. -/
def dWrite (v : BitVec 8) : List DEv := .write v :: List.replicate 7 .main
def dRead : List DEv := .read :: List.replicate 5 .main
/-- A good frame. -/
def dGood (n : Nat) : DEv := .arrive ⟨n, false, false, false⟩

/-- **C108 fails** if the transmit handler runs twice between increment and wrap of the write pointer: three bytes are accepted and six go out, the whole buffer a
    second time. -/
theorem c108_twice_out_fails : ∃ es d, Duplex.run 2 (Duplex.init [9, 9, 9] [7, 7, 7] 0x18#8) es = .ok d ∧
    d.pc = .idle ∧ d.accepted = [1, 2, 3] ∧ d.hw.line = [1, 2, 3, 1, 2, 3] := by
  obtain ⟨d, h, hd⟩ := duplex_of_run 2 (Duplex.init [9, 9, 9] [7, 7, 7] 0x18#8)
    (dWrite 1 ++ [.txIsr, .frame, .frame] ++ dWrite 2 ++ [.txIsr, .frame, .frame] ++ [.write 3, .main, .main, .txIsr, .load, .txIsr] ++ List.replicate 5 .main ++ dRounds 4)
    (fun d => decide (d.pc = .idle ∧ d.accepted = [1, 2, 3] ∧ d.hw.line = [1, 2, 3, 1, 2, 3])) (by decide +kernel)
  exact ⟨_, d, h, of_decide_eq_true hd⟩

/-- **C108 fails** if the receive handler runs twice between increment and wrap of the read pointer: six good frames, three returned, the other three gone and the buffer empty,
    though none was refused. -/
theorem c108_twice_in_fails : ∃ es d, Duplex.run 2 (Duplex.init [9, 9, 9] [7, 7, 7] 0x18#8) es = .ok d ∧
    d.pc = .idle ∧ goodBytes d.kept = [1, 2, 3, 4, 5, 6] ∧ d.hw.rx = [] ∧ d.returned = [1, 2, 3] ∧ RingBuffer.getLength d.inn = 0 ∧ d.lost = 0 := by
  obtain ⟨d, h, hd⟩ := duplex_of_run 2 (Duplex.init [9, 9, 9] [7, 7, 7] 0x18#8)
    (dRead ++ [dGood 1, .rxIsr, dGood 2, .rxIsr] ++ dRead ++ dRead ++ [dGood 3, .rxIsr, dGood 4, .rxIsr, .read, .main, .main, .main, dGood 5, .rxIsr, dGood 6, .rxIsr, .main])
    (fun d => decide (d.pc = .idle ∧ goodBytes d.kept = [1, 2, 3, 4, 5, 6] ∧ d.hw.rx = [] ∧ d.returned = [1, 2, 3] ∧ RingBuffer.getLength d.inn = 0 ∧ d.lost = 0)) (by decide +kernel)
  exact ⟨_, d, h, of_decide_eq_true hd⟩

/-- Both handlers between the loads and stores of both calls, one run in each pointer window: the first `Read` finds nothing and enables reception while a byte is waiting to be
    sent; its stale store enables the transmit interrupt again, which is harmless. -/
example : ∃ d, Duplex.run 1 (Duplex.init [9, 9, 9] [7, 7, 7] 0x18#8)
      (dWrite 65 ++ [.read, .main, .main, .txIsr, .load, .txIsr, .main, .main, .main] ++ [dGood 1, .rxIsr, dGood 2, .rxIsr] ++
       [.write 66, .main, .main, .txIsr, dGood 3, .main, .main, .rxIsr, .main, .main, .main] ++
       [.read, .main, .main, .main, dGood 4, .rxIsr, .main] ++ dRead ++ dRead ++ dRounds 4) = .ok d ∧
    (d.pc = .idle ∧ d.accepted = [65, 66] ∧ d.hw.line = [65, 66] ∧ d.returned = [1, 2, 4] ∧ d.lost = 1 ∧ d.asked = true ∧ d.hw.ucsrb = 0x98#8) := by
  obtain ⟨d, h, hd⟩ := duplex_of_run 1 (Duplex.init [9, 9, 9] [7, 7, 7] 0x18#8)
    (dWrite 65 ++ [.read, .main, .main, .txIsr, .load, .txIsr, .main, .main, .main] ++ [dGood 1, .rxIsr, dGood 2, .rxIsr] ++
       [.write 66, .main, .main, .txIsr, dGood 3, .main, .main, .rxIsr, .main, .main, .main] ++
       [.read, .main, .main, .main, dGood 4, .rxIsr, .main] ++ dRead ++ dRead ++ dRounds 4)
    (fun d => decide (d.pc = .idle ∧ d.accepted = [65, 66] ∧ d.hw.line = [65, 66] ∧ d.returned = [1, 2, 4] ∧ d.lost = 1 ∧ d.asked = true ∧ d.hw.ucsrb = 0x98#8)) (by decide +kernel)
  exact ⟨d, h, of_decide_eq_true hd⟩

end Atl.Props
