import Verif.Model.UsartNine
import Verif.Props.UsartStream

/- C114: nine-bit frames through the buffered streams. -/
namespace Atl.Props
open Atl.Usart

/-- What the receiver of frames of nine (or eight) bits stores in a type of `w` bits. -/
def nineKept (nine : Bool) (w : Nat) (f : Frame) : Nat := (if nine then f.data else f.data % 256) % 2 ^ w

/-- An event as the specification of C76 sees it, with the value kept. -/
def nineAct (nine : Bool) (w : Nat) : InEv → Spec.Usart.InAct
  | .arrive f => .arrive (nineKept nine w f) (Frame.good f)
  | .isr => .interrupt
  | .read => .read

/-- The stream is in the state the specification describes. -/
structure NineBoxed (nine : Bool) (w n : Nat) (s : InStream) (x : Spec.Usart.Inbox) : Prop where
  rel : RingBuffer.Rel s.buf x.queue
  size : s.buf.size = n
  fifo : s.hw.rx.map (fun f => (nineKept nine w f, Frame.good f)) = x.fifo
  on : s.hw.ucsrb.getLsbD 4 = x.on
  ie : s.hw.ucsrb.getLsbD 7 = x.ie
  nine : s.hw.ucsrb.getLsbD 2 = nine
  wf : Wf s.hw
  small : ∀ f ∈ s.hw.rx, f.data < 512

theorem nineBoxed_step {nine : Bool} {w n : Nat} (hn : n < 65536) {s : InStream} {x : Spec.Usart.Inbox} (h : NineBoxed nine w n s x) (e : InEv)
    (he : InEv.ok e) : ∃ s' r, s.stepT w e = .ok (s', r) ∧ NineBoxed nine w n s' (x.step (n - 1) (nineAct nine w e)) ∧
      (x.step (n - 1) (nineAct nine w e)).returned = x.returned ++ r := by
  obtain ⟨rel, size, fifo, on, ie, hnine, wf, small⟩ := h
  have hlen : x.fifo.length = s.hw.rx.length := by rw [← fifo, List.length_map]
  cases e with
  | arrive f =>
    unfold InStream.stepT
    by_cases hc : (isTrue 4 s.hw.ucsrb && decide (s.hw.rx.length < 3)) = true
    · have hc' : x.on = true ∧ x.fifo.length < 3 := by
        rw [Bool.and_eq_true, isTrue_bit 4 (by omega), decide_eq_true_eq] at hc
        exact ⟨on ▸ hc.1, by omega⟩
      simp only [hc, if_true, nineAct, Spec.Usart.Inbox.step, hc', and_self]
      refine ⟨_, _, rfl, ⟨rel, size, ?_, on.trans hc'.1, ie, hnine, Or.inl (on.trans hc'.1), ?_⟩, by simp⟩
      · show (s.hw.rx ++ [f]).map _ = _
        rw [List.map_append, fifo]; rfl
      · intro z hz
        simp only [List.mem_append, List.mem_singleton] at hz
        rcases hz with hz | rfl
        · exact small z hz
        · exact he
    · have hc' : ¬ (x.on = true ∧ x.fifo.length < 3) := by
        intro h
        rw [Bool.and_eq_true, isTrue_bit 4 (by omega), decide_eq_true_eq] at hc
        exact hc ⟨on.trans h.1, by omega⟩
      simp only [hc, nineAct, Spec.Usart.Inbox.step, if_neg hc']
      exact ⟨s, _, rfl, ⟨rel, size, fifo, on, ie, hnine, wf, small⟩, by simp⟩
  | isr =>
    unfold InStream.stepT
    by_cases hc : (isTrue 7 s.hw.ucsrb && rxComplete s.hw) = true
    · simp only [hc, if_true]
      rw [Bool.and_eq_true, complete_iff, isTrue_bit 7 (by omega), ie] at hc
      cases hx : s.hw.rx with
      | nil => rw [hx] at hc; simp at hc
      | cons f r =>
        have hf : f.data < 512 := small f (by rw [hx]; simp)
        obtain ⟨a, b, c⟩ := flags s.hw f r hx
        have g : (getResult s.hw = .success) ↔ Frame.good f = true := by
          unfold getResult Frame.good
          rw [a, b, c]
          cases f.fe <;> cases f.dor <;> cases f.upe <;> decide
        have rd := c57_read s.hw f r hx hf
        rw [hnine] at rd
        have wf' : Wf { s.hw with rx := r } := by
          rcases wf with h | h
          · exact Or.inl h
          · rw [hx] at h; cases h
        have hxf : x.fifo = (nineKept nine w f, Frame.good f) :: r.map (fun f => (nineKept nine w f, Frame.good f)) := by rw [← fifo, hx]; rfl
        have hs' : ∀ z ∈ r, z.data < 512 := fun z hz => small z (by rw [hx]; simp [hz])
        have ht : (if nine = true then f.data else f.data % 256) % 2 ^ w = nineKept nine w f := rfl
        unfold InStream.isrT
        simp only [rd, ht, g, nineAct, Spec.Usart.Inbox.step, hc.1, hxf]
        by_cases hg : Frame.good f = true
        · simp only [hg, if_true, true_and]
          by_cases hfull : x.queue.length + 1 = s.buf.size
          · have hnot : ¬ x.queue.length < n - 1 := by omega
            rw [RingBuffer.write_full rel _ hfull, if_neg hnot]
            exact ⟨_, _, rfl, ⟨rel, size, rfl, on, ie.trans hc.1, hnine, wf', hs'⟩, by simp⟩
          · obtain ⟨b, hb, hrel, hsz⟩ := RingBuffer.write_room rel (nineKept nine w f) (by have := rel.hq; omega)
            have hroom : x.queue.length < n - 1 := by have := rel.hq; omega
            rw [hb, if_pos hroom]
            exact ⟨_, _, rfl, ⟨hrel, hsz.trans size, rfl, on, ie.trans hc.1, hnine, wf', hs'⟩, by simp⟩
        · simp only [hg, Bool.false_eq_true, false_and, if_false]
          exact ⟨_, _, rfl, ⟨rel, size, rfl, on, ie.trans hc.1, hnine, wf', hs'⟩, by simp⟩
    · have hst : x.step (n - 1) .interrupt = x := by
        simp only [Spec.Usart.Inbox.step]
        split
        · next v g r h1 h2 =>
          exfalso
          refine hc ?_
          rw [Bool.and_eq_true, complete_iff, isTrue_bit 7 (by omega), ie, h1]
          refine ⟨rfl, ?_⟩
          rw [h2] at fifo
          cases hx : s.hw.rx with
          | nil => rw [hx] at fifo; cases fifo
          | cons _ _ => simp
        · rfl
      simp only [hc, nineAct, hst]
      exact ⟨s, _, rfl, ⟨rel, size, fifo, on, ie, hnine, wf, small⟩, by simp⟩
  | read =>
    unfold InStream.stepT InStream.read
    rw [RingBuffer.getLength_rel rel (by omega)]
    cases hq : x.queue with
    | nil =>
      obtain ⟨e1, e2, e3, e4, e5⟩ := bitB_effect 7 (by omega) (by omega) true s.hw wf
      rw [hq] at rel
      simp only [nineAct, Spec.Usart.Inbox.step, hq]
      refine ⟨{ s with hw := rxSetInterrupt true s.hw }, _, rfl, ⟨rel, size, ?_, ?_, ?_, ?_, bitB_wf 7 (by omega) (by omega) true _ wf, ?_⟩, rfl⟩
      · show (s.hw.bitB 7 true).rx.map _ = _
        rw [e2]; exact fifo
      · show (s.hw.bitB 7 true).ucsrb.getLsbD 4 = _
        rw [e1 4 (by omega), if_neg (by omega)]; exact on
      · show (s.hw.bitB 7 true).ucsrb.getLsbD 7 = _
        rw [e1 7 (by omega), if_pos rfl]
      · show (s.hw.bitB 7 true).ucsrb.getLsbD 2 = _
        rw [e1 2 (by omega), if_neg (by omega)]; exact hnine
      · show ∀ f ∈ (s.hw.bitB 7 true).rx, _
        rw [e2]; exact small
    | cons v q' =>
      rw [hq] at rel
      obtain ⟨b, hb, hrel, hsz⟩ := RingBuffer.read_rel rel
      have hpos : (v :: q').length > 0 := by simp
      simp only [if_pos hpos, hb, Res.bind_ok, nineAct, Spec.Usart.Inbox.step, hq]
      exact ⟨_, _, rfl, ⟨hrel, hsz.trans size, fifo, on, ie, hnine, wf, small⟩, rfl⟩

theorem nineBoxed_run {nine : Bool} {w n : Nat} (hn : n < 65536) (es : List InEv) (hes : ∀ e ∈ es, InEv.ok e) {s : InStream} {x : Spec.Usart.Inbox}
    (h : NineBoxed nine w n s x) : ∃ s' r, s.runT w es = .ok (s', r) ∧ NineBoxed nine w n s' (x.run (n - 1) (es.map (nineAct nine w))) ∧
      (x.run (n - 1) (es.map (nineAct nine w))).returned = x.returned ++ r := by
  induction es generalizing s x with
  | nil => exact ⟨s, [], rfl, h, by simp [Spec.Usart.Inbox.run]⟩
  | cons e es ih =>
    obtain ⟨s1, r1, h1, i1, e1⟩ := nineBoxed_step hn h e (hes e (by simp))
    obtain ⟨s2, r2, h2, i2, e2⟩ := ih (fun e he => hes e (by simp [he])) i1
    refine ⟨s2, r1 ++ r2, by simp only [InStream.runT, h1, h2, Res.bind_ok], i2, ?_⟩
    show ((x.step (n - 1) (nineAct nine w e)).run (n - 1) (es.map (nineAct nine w))).returned = _
    rw [e2, e1, List.append_assoc]

/-- **C114, input.** With a buffer of a type of at least nine bits, in every history every Read returns the oldest frame kept, all nine bits of it
    (eight in a mode with fewer bits), or -1 if there is none; frames with an error, or without room, are dropped, no others. -/
theorem c114_input (w : Nat) (hw : 9 ≤ w) (g : List Nat) (b : BitVec 8) (hg : 0 < g.length) (hn : g.length < 65536) (es : List InEv)
    (hes : ∀ e ∈ es, InEv.ok e) :
    ∃ s rs, InStream.runT w { buf := RingBuffer.mk g, hw := { ucsrb := b } } es = .ok (s, rs) ∧
      rs = (Spec.Usart.Inbox.run (g.length - 1) { on := b.getLsbD 4, ie := b.getLsbD 7 } (es.map fun e => match e with
        | .arrive f => .arrive (if b.getLsbD 2 then f.data else f.data % 256) (Frame.good f)
        | .isr => .interrupt
        | .read => .read)).returned := by
  obtain ⟨s, rs, h1, _, h3⟩ := nineBoxed_run (nine := b.getLsbD 2) (w := w) hn es hes
    (s := { buf := RingBuffer.mk g, hw := { ucsrb := b } }) (x := { on := b.getLsbD 4, ie := b.getLsbD 7 })
    ⟨RingBuffer.rel_mk g hg, rfl, rfl, rfl, rfl, rfl, Or.inr rfl, by simp⟩
  refine ⟨s, rs, h1, ?_⟩
  rw [List.nil_append] at h3
  rw [← h3]
  congr 2
  refine List.map_congr_left fun e he => ?_
  cases e with
  | arrive f =>
    have hf : f.data < 512 := hes _ he
    have h512 : 2 ^ 9 ≤ 2 ^ w := Nat.pow_le_pow_right (by omega) hw
    show Spec.Usart.InAct.arrive (nineKept _ w f) _ = _
    have : nineKept (b.getLsbD 2) w f = if b.getLsbD 2 = true then f.data else f.data % 256 := by
      unfold nineKept
      apply Nat.mod_eq_of_lt
      split <;> omega
    rw [this]
  | isr => rfl
  | read => rfl

/-- Two frames with the ninth bit, one without; nine-bit mode, `T = int16_t`. -/
example : (InStream.runT 16 { buf := RingBuffer.mk [0, 0, 0, 0], hw := { ucsrb := 0x94#8 } }
    [.arrive ⟨0x141, false, false, false⟩, .isr, .arrive ⟨0x42, false, false, false⟩, .isr, .read, .arrive ⟨0x1FF, false, false, false⟩, .isr,
      .read, .read, .read]).bind (fun r => .ok r.2) = .ok [0x141, 0x42, 0x1FF, -1] := by decide +kernel

/-- The default `T = uint8_t` is the stream of C76. -/
theorem c114_default (s : InStream) : s.isrT 8 = s.isr := rfl

/-- **C114 fails for the default type**: in nine-bit mode the ninth bit of every frame is lost. -/
theorem c114_default_fails : ∃ s, InStream.runT 8 { buf := RingBuffer.mk [0, 0, 0, 0], hw := { ucsrb := 0x94#8 } }
    [.arrive ⟨0x141, false, false, false⟩, .isr, .read] = .ok (s, [0x41]) := by
  obtain ⟨s, rs, h1, _, h3⟩ := nineBoxed_run (nine := true) (w := 8) (n := 4) (by omega)
    [.arrive ⟨0x141, false, false, false⟩, .isr, .read] (by intro e he; simp at he; rcases he with rfl | rfl | rfl <;> simp [InEv.ok])
    (s := { buf := RingBuffer.mk [0, 0, 0, 0], hw := { ucsrb := 0x94#8 } }) (x := { on := true, ie := true })
    ⟨RingBuffer.rel_mk _ (by simp), rfl, rfl, by decide, by decide, by decide, Or.inr rfl, by simp⟩
  exact ⟨s, by rw [h1, show rs = [0x41] from h3.symm]⟩

theorem nine_accepted_small {es : List OutEv} {y y' : OutSys} (h : y.run es = .ok y') (hy : ∀ v ∈ y.accepted, v < 256) : ∀ v ∈ y'.accepted, v < 256 := by
  induction es generalizing y with
  | nil => simp only [OutSys.run, Res.ok.injEq] at h; subst h; exact hy
  | cons e es ih =>
    simp only [OutSys.run] at h
    cases h1 : y.step e with
    | ub => rw [h1] at h; cases h
    | ok y1 =>
      rw [h1] at h
      refine ih h ?_
      cases e with
      | write v =>
        simp only [OutSys.step] at h1
        split at h1
        · cases h2 : y.s.writeBuffer v.toNat with
          | ub => rw [h2] at h1; cases h1
          | ok r =>
            obtain ⟨s, r⟩ := r
            rw [h2] at h1
            simp only [Res.bind_ok, Res.ok.injEq] at h1
            subst h1
            intro z hz
            have hv : v.toNat < 256 := v.isLt
            cases r with
            | true =>
              simp only [if_true, List.mem_append, List.mem_singleton] at hz
              rcases hz with hz | rfl
              · exact hy z hz
              · exact hv
            | false => exact hy z (by simpa using hz)
        · injection h1 with h1; subst h1; exact hy
      | main =>
        simp only [OutSys.step] at h1
        split at h1 <;> (injection h1 with h1; subst h1; exact hy)
      | isr =>
        simp only [OutSys.step] at h1
        split at h1
        · cases h2 : y.s.isr with
          | ub => rw [h2] at h1; cases h1
          | ok s => rw [h2] at h1; injection h1 with h1; subst h1; exact hy
        · injection h1 with h1; subst h1; exact hy
      | frame => simp only [OutSys.step] at h1; injection h1 with h1; subst h1; exact hy
      | load => simp only [OutSys.step] at h1; injection h1 with h1; subst h1; exact hy

/-- **C114 fails for output**: whatever the control register, the type of the buffer and the history of calls, interrupts and frames, no frame with the ninth
    bit set ever goes out. -/
theorem c114_output_fails (g : List Nat) (b : BitVec 8) (hg : 0 < g.length) (hn : g.length < 65536) (es : List OutEv) :
    ∃ y, (outInit g b).run es = .ok y ∧ ∀ v ∈ y.s.hw.line, v < 256 := by
  obtain ⟨y, rest, h1, h2, _⟩ := c59_order g b hg hn es
  refine ⟨y, h1, fun v hv => nine_accepted_small h1 (by simp [outInit]) v ?_⟩
  rw [← h2]
  simp [hv]

/-- The value 0x141 is written in nine-bit mode (UCSZ2, TXEN): 0x41 is sent. -/
theorem c114_output_example : ∃ y, (outInit [0, 0, 0, 0] 0x0C#8).run ([writeNine 0x141, .main, .main, .main, .main] ++ sendRounds 3) = .ok y ∧
    y.s.hw.line = [0x41] := ⟨_, rfl, by decide +kernel⟩

theorem outRun_append (y : OutSys) (as bs : List OutEv) : y.run (as ++ bs) = (y.run as).bind fun z => z.run bs := by
  induction as generalizing y with
  | nil => rfl
  | cons a as ih =>
    simp only [List.cons_append, OutSys.run]
    cases y.step a with
    | ub => rfl
    | ok z => exact ih z

theorem write_all (g : List Nat) (b : BitVec 8) (hg : 0 < g.length) (hn : g.length < 65536) (data : List Nat) (hd : ∀ v ∈ data, v < 256)
    (es : List OutEv) (y : OutSys) (hr : (outInit g b).run es = .ok y) (hp : y.phase = .idle) (hl : y.accepted.length + data.length < g.length) :
    ∃ y', (outInit g b).run (es ++ data.flatMap fun v => [writeNine v, .main, .main, .main, .main]) = .ok y' ∧ y'.phase = .idle ∧
      y'.accepted = y.accepted ++ data := by
  induction data generalizing es y with
  | nil => exact ⟨y, by simpa using hr, hp, by simp⟩
  | cons v data ih =>
    obtain ⟨y0, rest, h1, h2, h3, _⟩ := c59_order g b hg hn es
    rw [hr] at h1
    injection h1 with h1
    subst h1
    have hlen : RingBuffer.getLength y.s.buf ≤ y.accepted.length := by
      rw [h3, ← h2]; simp only [List.length_append]; omega
    obtain ⟨y1, s1, a1⟩ := c59_accept g b hg hn es y hr hp (BitVec.ofNat 8 v)
    have hv : v < 256 := hd v (by simp)
    rw [List.length_cons] at hl
    rw [if_pos (by omega), BitVec.toNat_ofNat, Nat.mod_eq_of_lt hv] at a1
    have hph : y1.phase = .buffered := by
      simp only [OutSys.step, hp] at s1
      cases h4 : y.s.writeBuffer (BitVec.ofNat 8 v).toNat with
      | ub => rw [h4] at s1; cases s1
      | ok r => obtain ⟨s, r⟩ := r; rw [h4] at s1; injection s1 with s1; subst s1; rfl
    have hm : ∀ z : OutSys, z.phase = .buffered →
        ∃ z', z.run [.main, .main, .main, .main] = .ok z' ∧ z'.phase = .idle ∧ z'.accepted = z.accepted := by
      intro z hz
      obtain ⟨zs, zp, za⟩ := z
      simp only at hz
      subst hz
      exact ⟨_, rfl, rfl, rfl⟩
    have hs : ∃ y2, y.run [writeNine v, .main, .main, .main, .main] = .ok y2 ∧ y2.phase = .idle ∧ y2.accepted = y.accepted ++ [v] := by
      obtain ⟨y2, r2, p2, a2⟩ := hm y1 hph
      refine ⟨y2, ?_, p2, a2.trans a1⟩
      rw [show [writeNine v, .main, .main, .main, .main] = [OutEv.write (BitVec.ofNat 8 v)] ++ [.main, .main, .main, .main] from rfl, outRun_append]
      simp only [OutSys.run, s1, Res.bind_ok]
      exact r2
    obtain ⟨y2, r2, p2, a2⟩ := hs
    have hr2 : (outInit g b).run (es ++ [writeNine v, .main, .main, .main, .main]) = .ok y2 := by
      rw [outRun_append, hr]; exact r2
    obtain ⟨y3, r3, p3, a3⟩ := ih (fun x hx => hd x (by simp [hx])) _ y2 hr2 p2 (by rw [a2]; simp; omega)
    refine ⟨y3, ?_, p3, by rw [a3, a2, List.append_assoc]; rfl⟩
    rw [List.append_assoc] at r3
    exact r3

/-- **C114, output, partial**: values of eight bits arrive in every mode, nine bits included, in order. -/
theorem c114_output_partial (g : List Nat) (b : BitVec 8) (hg : 0 < g.length) (hn : g.length < 65536) (data : List Nat) (hd : ∀ v ∈ data, v < 256)
    (hl : data.length < g.length) :
    ∃ y, (outInit g b).run ((data.flatMap fun v => [writeNine v, .main, .main, .main, .main]) ++ sendRounds (data.length + 1)) = .ok y ∧
      y.s.hw.line = data := by
  obtain ⟨y, h1, h2, h3⟩ := write_all g b hg hn data hd [] (outInit g b) rfl rfl (by simpa [outInit] using hl)
  rw [List.nil_append] at h1
  have h3' : y.accepted = data := by rw [h3]; simp [outInit]
  obtain ⟨y', r', l', _⟩ := c59_drain g b hg hn _ y h1 h2 (data.length + 1) (by rw [h3']; exact Nat.le_refl _)
  refine ⟨y', ?_, by rw [l', h3']⟩
  rw [outRun_append, h1]; exact r'

example := c114_output_partial [9, 9, 9, 9] 0x0C#8 (by decide) (by decide) [65, 200] (by decide) (by decide)

/-- The full claim: every value of up to nine bits that is written in nine-bit mode is sent. False. -/
theorem c114_full_claim_is_false : ¬ ∀ data : List Nat, (∀ v ∈ data, v < 512) → data.length < 4 →
    ∃ y, (outInit [0, 0, 0, 0] 0x0C#8).run ((data.flatMap fun v => [writeNine v, .main, .main, .main, .main]) ++ sendRounds (data.length + 1)) = .ok y ∧
      y.s.hw.line = data := by
  intro h
  obtain ⟨y, h1, h2⟩ := h [0x141] (by simp) (by simp)
  obtain ⟨y', h3, h4⟩ := c114_output_fails [0, 0, 0, 0] 0x0C#8 (by simp) (by simp)
    (([0x141].flatMap fun v => [writeNine v, .main, .main, .main, .main]) ++ sendRounds ([0x141].length + 1))
  rw [h1] at h3
  injection h3 with h3
  subst h3
  have := h4 0x141 (by rw [h2]; simp)
  omega

end Atl.Props
