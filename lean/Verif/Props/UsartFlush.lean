import Verif.Model.UsartFlush
import Verif.Props.UsartStream

/- Property theorems C86: Flush and Close of the USART output stream with the interrupt on. -/
namespace Atl.Props
open Atl.Usart

/-- What the transmitter has been given: on the line, in the shift register, in the data register. -/
def handed (y : OutSys) : List Nat := y.s.hw.line ++ y.s.hw.shift.toList ++ y.s.hw.tx.toList

/-- Events of the hardware and the handler, not of main code. -/
def Quiet : OutEv → Prop
  | .isr => True
  | .frame => True
  | .load => True
  | _ => False

theorem quiet_step {n : Nat} (hn : n < 65536) {b : BitVec 8} {y : OutSys} {q : List Nat} (h : OInv n b y q) (e : OutEv) (he : Quiet e) :
    ∃ y' k, y.step e = .ok y' ∧ OInv n b y' (q.drop k) ∧ k ≤ q.length ∧ k ≤ [e].count .isr ∧ handed y' = handed y ++ q.take k ∧
      y'.phase = y.phase ∧ y'.accepted = y.accepted ∧ y'.s.buf.w = y.s.buf.w ∧ (q = [] → y.s.hw.tx = none ∨ e = .frame → y'.s.hw.tx = none) := by
  cases e with
  | write v => cases he
  | main => cases he
  | isr =>
    unfold OutSys.step
    by_cases hc : (isTrue 5 y.s.hw.ucsrb && getAcceptData y.s.hw) = true
    · have ht : y.s.hw.tx = none := by
        rw [Bool.and_eq_true, accept_iff] at hc
        simpa using hc.2
      simp only [hc, if_true]
      obtain ⟨s, hs, g | g⟩ := isr_inv hn h ht
      · obtain ⟨v, q', rfl, hi, e1, e2, e3⟩ := g
        refine ⟨{ y with s := s }, 1, by rw [hs]; rfl, hi, by simp, by simp, ?_, rfl, rfl, ?_, by simp⟩
        · show s.hw.line ++ s.hw.shift.toList ++ s.hw.tx.toList = _
          rw [e1, e2, e3]
          unfold handed
          rw [ht]
          simp
        · have hl := RingBuffer.getLength_rel h.rel (by rw [h.size]; exact hn)
          obtain ⟨u, hu, -, -⟩ := RingBuffer.read_rel h.rel
          unfold OutStream.isr at hs
          rw [hl, if_pos (by simp), hu] at hs
          injection hs with hs
          rw [← hs]
          unfold RingBuffer.read at hu
          cases hg : cGet y.s.buf.buf y.s.buf.r with
          | ub => rw [hg] at hu; cases hu
          | ok w => rw [hg] at hu; injection hu with hu; injection hu with hu _; rw [← hu]
      · obtain ⟨rfl, hi, e1, e2, e3⟩ := g
        refine ⟨{ y with s := s }, 0, by rw [hs]; rfl, hi, by simp, by simp, ?_, rfl, rfl, ?_, fun _ _ => e1⟩
        · show s.hw.line ++ s.hw.shift.toList ++ s.hw.tx.toList = _
          rw [e1, e2, e3]
          unfold handed
          rw [ht]
          simp
        · have hl := RingBuffer.getLength_rel h.rel (by rw [h.size]; exact hn)
          unfold OutStream.isr at hs
          rw [hl, if_neg (by simp)] at hs
          injection hs with hs
          rw [← hs]
    · simp only [hc]
      exact ⟨y, 0, rfl, h, by simp, by simp, by simp, rfl, rfl, rfl, fun _ g => by rcases g with g | g; exact g; cases g⟩
  | frame =>
    obtain ⟨rel, size, bytes, order, wf, on, bits, held1, held2⟩ := h
    have ho : handed { y with s := { y.s with hw := y.s.hw.frameTime } } = handed y := by
      show (y.s.hw.line ++ y.s.hw.shift.toList) ++ y.s.hw.tx.toList ++ [] = _
      unfold handed
      simp
    refine ⟨_, 0, rfl, ⟨rel, size, bytes, ?_, wf, on, bits, held1, held2⟩, by simp, by simp, by rw [ho]; simp, rfl, rfl, rfl, fun _ _ => rfl⟩
    show handed { y with s := { y.s with hw := y.s.hw.frameTime } } ++ q = y.accepted
    rw [ho]
    exact order
  | load =>
    unfold OutSys.step Hw.load
    by_cases hs : y.s.hw.shift = none
    · obtain ⟨rel, size, bytes, order, wf, on, bits, held1, held2⟩ := h
      simp only [hs, if_true]
      refine ⟨_, 0, rfl, ⟨rel, size, bytes, ?_, wf, on, bits, held1, held2⟩, by simp, by simp, ?_, rfl, rfl, rfl, fun _ _ => rfl⟩
      · show y.s.hw.line ++ y.s.hw.tx.toList ++ [] ++ q = y.accepted
        rw [← order, hs]; simp
      · show y.s.hw.line ++ y.s.hw.tx.toList ++ [] = _
        unfold handed
        rw [hs]
        simp
    · simp only [hs, if_false]
      exact ⟨y, 0, rfl, h, by simp, by simp, by simp, rfl, rfl, rfl, fun _ g => by rcases g with g | g; exact g; cases g⟩

theorem quiet_run {n : Nat} (hn : n < 65536) {b : BitVec 8} (es : List OutEv) (hes : ∀ e ∈ es, Quiet e) {y : OutSys} {q : List Nat} (h : OInv n b y q) :
    ∃ y' k, y.run es = .ok y' ∧ OInv n b y' (q.drop k) ∧ k ≤ q.length ∧ k ≤ es.count .isr ∧ handed y' = handed y ++ q.take k ∧
      y'.phase = y.phase ∧ y'.accepted = y.accepted ∧ y'.s.buf.w = y.s.buf.w ∧ (q = [] → y.s.hw.tx = none ∨ .frame ∈ es → y'.s.hw.tx = none) := by
  induction es generalizing y q with
  | nil => exact ⟨y, 0, rfl, h, by simp, by simp, by simp, rfl, rfl, rfl, fun _ g => by rcases g with g | g; exact g; cases g⟩
  | cons e es ih =>
    obtain ⟨y1, k1, s1, i1, a1, c1, d1, p1, f1, m1, t1⟩ := quiet_step hn h e (hes e (by simp))
    obtain ⟨y2, k2, s2, i2, a2, c2, d2, p2, f2, m2, t2⟩ := ih (fun e h => hes e (by simp [h])) i1
    rw [List.length_drop] at a2
    refine ⟨y2, k1 + k2, by unfold OutSys.run; rw [s1]; exact s2, by rw [← List.drop_drop]; exact i2, by omega, ?_, ?_, p2.trans p1, f2.trans f1, m2.trans m1, ?_⟩
    · have : (e :: es).count OutEv.isr = [e].count .isr + es.count .isr := by rw [← List.count_append]; rfl
      omega
    · rw [d2, d1, List.append_assoc, List.take_add]
    · intro hq hx
      subst hq
      refine t2 (by simp) ?_
      rcases hx with hx | hx
      · exact .inl (t1 rfl (.inl hx))
      · rcases List.mem_cons.1 hx with hx | hx
        · exact .inl (t1 rfl (.inr hx.symm))
        · exact .inr hx

/-- The hardware and the handler do not look at where main code is nor at the record of accepted bytes. -/
theorem quiet_ghost (es : List OutEv) (hes : ∀ e ∈ es, Quiet e) (y : OutSys) (p : Phase) (a : List Nat) :
    OutSys.run { y with phase := p, accepted := a } es = (do let z ← y.run es; .ok { z with phase := p, accepted := a }) := by
  induction es generalizing y with
  | nil => rfl
  | cons e es ih =>
    have h1 : OutSys.step { y with phase := p, accepted := a } e = (do let z ← y.step e; .ok { z with phase := p, accepted := a }) := by
      have he := hes e (by simp)
      cases e with
      | write v => cases he
      | main => cases he
      | isr =>
        unfold OutSys.step
        dsimp only
        split
        · cases y.s.isr <;> rfl
        · rfl
      | frame => rfl
      | load => rfl
    unfold OutSys.run
    rw [h1]
    cases hs : y.step e with
    | ub => rfl
    | ok z => exact ih (fun e h => hes e (by simp [h])) z

/-- The buffer memory holds bytes. -/
theorem mem_small {y y' : OutSys} (es : List OutEv) (hs : y.run es = .ok y') (h : ∀ v ∈ y.s.buf.buf, v < 256) : ∀ v ∈ y'.s.buf.buf, v < 256 := by
  have step : ∀ {y y' : OutSys} (e : OutEv), y.step e = .ok y' → (∀ v ∈ y.s.buf.buf, v < 256) → ∀ v ∈ y'.s.buf.buf, v < 256 := by
    intro y y' e hs h
    cases e with
    | write v =>
      unfold OutSys.step at hs
      cases hp : y.phase <;> simp only [hp] at hs
      · unfold OutStream.writeBuffer RingBuffer.write at hs
        split at hs
        · injection hs with hs
          subst hs
          exact h
        · cases hc : cSet y.s.buf.buf y.s.buf.w v.toNat with
          | ub => rw [hc] at hs; cases hs
          | ok l =>
            rw [hc] at hs
            injection hs with hs
            subst hs
            show ∀ v ∈ l, v < 256
            unfold cSet at hc
            split at hc
            · injection hc with hc
              subst hc
              intro x hx
              rcases List.mem_or_eq_of_mem_set hx with hx | rfl
              · exact h x hx
              · exact v.isLt
            · cases hc
      all_goals (injection hs with hs; subst hs; exact h)
    | main =>
      unfold OutSys.step at hs
      cases hp : y.phase <;> simp only [hp] at hs <;> (injection hs with hs; subst hs; exact h)
    | isr =>
      simp only [OutSys.step] at hs
      split at hs
      · unfold OutStream.isr at hs
        split at hs
        · unfold RingBuffer.read at hs
          cases hg : cGet y.s.buf.buf y.s.buf.r with
          | ub => rw [hg] at hs; cases hs
          | ok w => rw [hg] at hs; injection hs with hs; subst hs; exact h
        · injection hs with hs; subst hs; exact h
      · injection hs with hs; subst hs; exact h
    | frame => injection hs with hs; subst hs; exact h
    | load => injection hs with hs; subst hs; exact h
  induction es generalizing y with
  | nil => injection hs with hs; rw [← hs]; exact h
  | cons e es ih =>
    unfold OutSys.run at hs
    cases h1 : y.step e with
    | ub => rw [h1] at hs; cases hs
    | ok z => rw [h1] at hs; exact ih hs (step e h1 h)

/-- What the handler finds between the two stores of Clear: the memory from the read pointer to its end. -/
def visible (s : OutStream) : List Nat := if s.buf.r = 0 then [] else s.buf.buf.drop s.buf.r

/-- Between the stores the buffer is a queue with that content. -/
theorem rel_visible {y : OutStream} {q : List Nat} (h : RingBuffer.Rel y.buf q) : RingBuffer.Rel y.clearFirst.buf (visible y) := by
  obtain ⟨hlen, hr, hq, hw, hget⟩ := h
  unfold visible
  by_cases h0 : y.buf.r = 0
  · rw [if_pos h0]
    refine ⟨hlen, hr, (show 0 < y.buf.size by omega), ?_, by simp⟩
    show 0 = if y.buf.r + 0 < y.buf.size then y.buf.r + 0 else y.buf.r + 0 - y.buf.size
    rw [h0, if_pos (by omega)]
  · rw [if_neg h0]
    refine ⟨hlen, hr, ?_, ?_, ?_⟩
    · show (y.buf.buf.drop y.buf.r).length < y.buf.size
      rw [List.length_drop]; omega
    · show 0 = if y.buf.r + (y.buf.buf.drop y.buf.r).length < y.buf.size then _ else y.buf.r + (y.buf.buf.drop y.buf.r).length - y.buf.size
      rw [List.length_drop, if_neg (by omega)]; omega
    · intro i hi
      show y.buf.buf[if y.buf.r + i < y.buf.size then y.buf.r + i else _]? = _
      rw [List.length_drop] at hi
      rw [if_pos (by omega), List.getElem_drop, List.getElem?_eq_getElem (by omega)]

/-- The first bytes of it are the waiting bytes, as far as both go. -/
theorem visible_waiting {y : OutStream} {q : List Nat} (h : RingBuffer.Rel y.buf q) (k : Nat) (h1 : k ≤ q.length) (h2 : k ≤ (visible y).length) :
    (visible y).take k = q.take k := by
  obtain ⟨hlen, hr, hq, hw, hget⟩ := h
  unfold visible at h2 ⊢
  by_cases h0 : y.buf.r = 0
  · rw [if_pos h0] at h2
    have : k = 0 := by simpa using h2
    rw [this]; simp
  · rw [if_neg h0] at h2 ⊢
    rw [List.length_drop] at h2
    refine List.ext_getElem (by simp; omega) fun i hi hi' => ?_
    simp only [List.length_take] at hi hi'
    have := hget i (by omega)
    rw [if_pos (by omega), List.getElem?_eq_getElem (by omega)] at this
    simp only [List.getElem_take, List.getElem_drop]
    injection this

/-- After Clear the stream is empty and good for whatever comes next, with what the transmitter was given as the record. -/
theorem clear_isr {n : Nat} (hn : n < 65536) {b : BitVec 8} {y : OutSys} {q : List Nat} (h : OInv n b y q) (hm : ∀ v ∈ y.s.buf.buf, v < 256) (hp : y.phase = .idle)
    (mid : List OutEv) (hmid : ∀ e ∈ mid, Quiet e) :
    ∃ y' k, y.clearBuffer mid = .ok y' ∧ k ≤ (visible y.s).length ∧ k ≤ mid.count .isr ∧ handed y' = handed y ++ (visible y.s).take k ∧ y'.phase = .idle ∧
      y'.accepted = y.accepted ∧ OInv n b { y' with accepted := handed y' } [] := by
  have hv := rel_visible h.rel
  have hg : OInv n b { s := y.s.clearFirst, phase := .buffered, accepted := handed y ++ visible y.s } (visible y.s) := by
    refine ⟨hv, h.size, ?_, rfl, h.wf, by simp, h.bits, by simp, by simp⟩
    intro v hx
    unfold visible at hx
    split at hx
    · cases hx
    · exact hm v (List.mem_of_mem_drop hx)
  obtain ⟨z, k, s1, i1, a1, c1, d1, -, -, m1, -⟩ := quiet_run hn mid hmid hg
  have s2 := quiet_ghost mid hmid { s := y.s.clearFirst, phase := .buffered, accepted := handed y ++ visible y.s } y.phase y.accepted
  rw [s1] at s2
  refine ⟨{ s := z.s.clearSecond, phase := y.phase, accepted := y.accepted }, k, ?_, a1, c1, d1, hp, rfl, ?_⟩
  · unfold OutSys.clearBuffer
    have e : ({ y with s := y.s.clearFirst } : OutSys) = { s := y.s.clearFirst, phase := y.phase, accepted := y.accepted } := rfl
    rw [e, s2]
    rfl
  · have hrel := i1.rel
    have hsz := i1.size
    refine ⟨⟨hrel.hlen, ?_, ?_, ?_, by simp⟩, hsz, by simp, List.append_nil _, i1.wf, fun _ => Or.inr rfl, i1.bits, by simp [hp], by simp [hp]⟩
    · have := hrel.hr; show 0 < z.s.buf.size; omega
    · have := hrel.hr; show 0 < z.s.buf.size; omega
    · have := hrel.hr
      show z.s.buf.w = if 0 + 0 < z.s.buf.size then 0 + 0 else 0 + 0 - z.s.buf.size
      rw [m1, if_pos (by omega)]
      rfl

/-- The bytes sent out of the buffer by the handler between the two stores, against the bytes that wait: a first part of them, or all of them and more. -/
theorem sent_cases {y : OutStream} {q : List Nat} (h : RingBuffer.Rel y.buf q) (k : Nat) (hk : k ≤ (visible y).length) :
    ((visible y).take k <+: q ∧ k ≤ q.length) ∨ (q <+: (visible y).take k ∧ q.length < ((visible y).take k).length) := by
  by_cases hq : k ≤ q.length
  · exact .inl ⟨by rw [visible_waiting h k hq hk]; exact List.take_prefix k q, hq⟩
  · refine .inr ⟨?_, by rw [List.length_take]; omega⟩
    have := visible_waiting h q.length (Nat.le_refl _) (by omega)
    rw [List.take_length] at this
    have hp : List.take q.length (visible y) <+: List.take k (visible y) := by
      rw [show List.take q.length (visible y) = (List.take k (visible y)).take q.length by rw [List.take_take, Nat.min_eq_left (by omega)]]
      exact List.take_prefix _ _
    rwa [this] at hp

theorem wait_quiet {n : Nat} (hn : n < 65536) {b : BitVec 8} (polls : List (List OutEv)) (hps : ∀ es ∈ polls, ∀ e ∈ es, Quiet e) {y : OutSys} (hp : y.phase = .idle)
    (h : OInv n b { y with accepted := handed y } []) :
    ∃ o, y.waitAccept polls = .ok o ∧ ((y.s.hw.tx = none ∧ polls ≠ [] ∨ ∃ es ∈ polls, .frame ∈ es) → o ≠ none) ∧
      ∀ z, o = some z → z.s.hw.tx = none ∧ z.phase = .idle ∧ z.accepted = y.accepted ∧ handed z = handed y ∧ OInv n b { z with accepted := handed z } [] := by
  induction polls generalizing y with
  | nil => exact ⟨none, rfl, by simp, by simp⟩
  | cons es ps ih =>
    obtain ⟨z, k, s1, i1, a1, -, d1, -, f1, -, t1⟩ := quiet_run hn es (hps es (by simp)) h
    have s2 := quiet_ghost es (hps es (by simp)) { y with accepted := handed y } y.phase y.accepted
    rw [s1] at s2
    have hy : y.run es = .ok { z with phase := y.phase, accepted := y.accepted } := s2
    have hd : handed z = handed y := by simpa [handed] using d1
    have hk : k = 0 := by simpa using a1
    subst hk
    have i2 : OInv n b { s := z.s, phase := y.phase, accepted := handed z } [] := by
      obtain ⟨rel, size, bytes, order, wf, on, bits, held1, held2⟩ := i1
      exact ⟨rel, size, bytes, by simp [handed], wf, fun _ => Or.inr rfl, bits, by simp [hp], by simp [hp]⟩
    unfold OutSys.waitAccept
    rw [hy, Res.bind_ok]
    by_cases ht : z.s.hw.tx = none
    · have hc : getAcceptData z.s.hw = true := by rw [accept_iff, ht]; rfl
      rw [if_pos hc]
      refine ⟨_, rfl, by simp, fun w hw => ?_⟩
      injection hw with hw
      subst hw
      exact ⟨ht, hp, rfl, hd, i2⟩
    · have hc : ¬ getAcceptData z.s.hw = true := by rw [accept_iff]; simp [ht]
      rw [if_neg hc]
      obtain ⟨o, e1, e2, e3⟩ := ih (fun es h => hps es (by simp [h])) (y := { z with phase := y.phase, accepted := y.accepted }) hp i2
      refine ⟨o, e1, ?_, ?_⟩
      · rintro (⟨hx, -⟩ | ⟨fs, hf, hx⟩)
        · exact absurd (t1 rfl (.inl hx)) ht
        · rcases List.mem_cons.1 hf with rfl | hf
          · exact absurd (t1 rfl (.inr hx)) ht
          · exact e2 (.inr ⟨fs, hf, hx⟩)
      · intro w hw
        obtain ⟨g1, g2, g3, g4, g5⟩ := e3 w hw
        exact ⟨g1, g2, g3, g4.trans hd, g5⟩

/-- **C86, exactly, with the interrupt on.** Flush after any history, the handler and the transmitter running at any place of the call: no undefined behaviour; it
    returns once a frame has ended; the stream is then empty, the bytes handed to the transmitter before the call are sent, and behind them `sent`: what the handler took
    between the two stores of Clear, memory cells from the read pointer on. As long as the handler runs there no oftener than bytes wait these are the next
    waiting bytes. Otherwise they are all the waiting bytes and then cells that no Write of this content put there. Whatever happens afterwards, the line carries
    these bytes followed by what is accepted from then on. -/
theorem c86_flush_exact (g : List Nat) (b : BitVec 8) (hg : 0 < g.length) (hn : g.length < 65536) (hb : ∀ v ∈ g, v < 256) (es : List OutEv) (y : OutSys)
    (hy : (outInit g b).run es = .ok y) (hp : y.phase = .idle) (mid : List OutEv) (polls : List (List OutEv)) (hmid : ∀ e ∈ mid, Quiet e)
    (hpolls : ∀ es ∈ polls, ∀ e ∈ es, Quiet e) :
    ∃ waiting sent o, handed y ++ waiting = y.accepted ∧ y.flush mid polls = .ok o ∧
      sent <+: visible y.s ∧ sent.length ≤ mid.count .isr ∧
      (sent <+: waiting ∨ (waiting <+: sent ∧ waiting.length < sent.length)) ∧
      ((∃ es ∈ polls, .frame ∈ es) → o ≠ none) ∧
      ∀ z, o = some z → z.s.getLength = 0 ∧ z.s.hw.tx = none ∧ handed z = handed y ++ sent ∧
        ∀ later, ∃ z' rest, OutSys.run { z with accepted := handed z } later = .ok z' ∧ handed z' ++ rest = z'.accepted ∧
          RingBuffer.getLength z'.s.buf = rest.length := by
  obtain ⟨y0, q, h1, h2⟩ := run_inv hn es (outInit_inv g b hg)
  rw [hy] at h1
  obtain rfl : y = y0 := by injection h1
  have hm : ∀ v ∈ y.s.buf.buf, v < 256 := mem_small es hy hb
  obtain ⟨w, k, c1, c2, c3, c4, c5, c6, c7⟩ := clear_isr hn h2 hm hp mid hmid
  obtain ⟨o, e1, e2, e3⟩ := wait_quiet hn polls hpolls c5 c7
  refine ⟨q, (visible y.s).take k, o, h2.order, by unfold OutSys.flush; rw [c1]; exact e1, List.take_prefix _ _, by rw [List.length_take]; omega, ?_, fun h => e2 (.inr h), fun z hz => ?_⟩
  · rcases sent_cases h2.rel k c2 with h | h
    · exact .inl h.1
    · exact .inr h
  · obtain ⟨g1, g2, g3, g4, g5⟩ := e3 z hz
    refine ⟨?_, g1, g4.trans c4, fun later => ?_⟩
    · unfold OutStream.getLength
      rw [RingBuffer.getLength_rel g5.rel (by have := g5.size; simp only at this; rw [this]; exact hn)]
      rfl
    · obtain ⟨z', q', z1, z2⟩ := run_inv hn later g5
      exact ⟨z', q', z1, z2.order, RingBuffer.getLength_rel z2.rel (by rw [z2.size]; exact hn)⟩

example := c86_flush_exact [9, 9, 9, 9] 0x08#8 (by decide) (by decide) (by decide) [.write 65#8, .main, .main, .main, .main, .isr, .frame, .write 66#8, .main, .main, .main, .main] _ rfl rfl
  [.isr] [[], [.frame]] (by simp [Quiet]) (by simp [Quiet])

/-- **C86, partial, with the interrupt on.** If the handler runs between the two stores of Clear no oftener than bytes wait, Flush sends nothing but a first part of the
    waiting bytes, in order. -/
theorem c86_flush_isr_partial (g : List Nat) (b : BitVec 8) (hg : 0 < g.length) (hn : g.length < 65536) (hb : ∀ v ∈ g, v < 256) (es : List OutEv) (y : OutSys)
    (hy : (outInit g b).run es = .ok y) (hp : y.phase = .idle) (mid : List OutEv) (polls : List (List OutEv)) (hmid : ∀ e ∈ mid, Quiet e)
    (hpolls : ∀ es ∈ polls, ∀ e ∈ es, Quiet e) (hfew : (handed y).length + mid.count .isr ≤ y.accepted.length) (z : OutSys)
    (hz : y.flush mid polls = .ok (some z)) : z.s.getLength = 0 ∧ handed y <+: handed z ∧ handed z <+: y.accepted := by
  obtain ⟨waiting, sent, o, e1, e2, -, e4, e5, -, e7⟩ := c86_flush_exact g b hg hn hb es y hy hp mid polls hmid hpolls
  rw [hz] at e2
  injection e2 with e2
  obtain ⟨f1, -, f3, -⟩ := e7 z e2.symm
  have hw := congrArg List.length e1
  rw [List.length_append] at hw
  have : sent <+: waiting := by
    rcases e5 with h | ⟨-, h⟩
    · exact h
    · omega
  refine ⟨f1, by rw [f3]; exact List.prefix_append _ _, ?_⟩
  rw [f3, ← e1]
  exact (List.prefix_append_right_inj _).2 this

example := c86_flush_isr_partial [9, 9, 9, 9] 0x08#8 (by decide) (by decide) (by decide) [.write 65#8, .main, .main, .main, .main, .isr, .frame, .write 66#8, .main, .main, .main, .main] _ rfl rfl
  [.isr] [[], [.frame]] (by simp [Quiet]) (by simp [Quiet]) (by decide) _ rfl

/-- **C86.** Close with the interrupt on: the same for what is sent; the buffer is empty and the transmitter and its interrupts are off. -/
theorem c86_close_exact (g : List Nat) (b : BitVec 8) (hg : 0 < g.length) (hn : g.length < 65536) (hb : ∀ v ∈ g, v < 256) (es : List OutEv) (y : OutSys)
    (hy : (outInit g b).run es = .ok y) (hp : y.phase = .idle) (mid after : List OutEv) (hmid : ∀ e ∈ mid, Quiet e) (hafter : ∀ e ∈ after, Quiet e) :
    ∃ waiting sent z, handed y ++ waiting = y.accepted ∧ y.close mid after = .ok z ∧ sent <+: visible y.s ∧ sent.length ≤ mid.count .isr ∧
      (sent <+: waiting ∨ (waiting <+: sent ∧ waiting.length < sent.length)) ∧ z.s.getLength = 0 ∧ handed z = handed y ++ sent ∧
      (∀ j, j ≠ 0 → j ≠ 1 → z.s.hw.ucsrb.getLsbD j = if j = 3 ∨ j = 5 ∨ j = 6 then false else b.getLsbD j) := by
  obtain ⟨y0, q, h1, h2⟩ := run_inv hn es (outInit_inv g b hg)
  rw [hy] at h1
  obtain rfl : y = y0 := by injection h1
  have hm : ∀ v ∈ y.s.buf.buf, v < 256 := mem_small es hy hb
  obtain ⟨w, k, c1, c2, c3, c4, c5, c6, c7⟩ := clear_isr hn h2 hm hp mid hmid
  obtain ⟨v, l, s1, i1, a1, -, d1, -, -, -, -⟩ := quiet_run hn after hafter c7
  have s2 := quiet_ghost after hafter { w with accepted := handed w } w.phase w.accepted
  rw [s1] at s2
  have hw : w.run after = .ok { v with phase := w.phase, accepted := w.accepted } := s2
  have hl : l = 0 := by simpa using a1
  subst hl
  obtain ⟨x1, x2, x3, x4, x5⟩ := bitB_effect 6 (by omega) (by omega) false v.s.hw i1.wf
  have w1 := bitB_wf 6 (by omega) (by omega) false v.s.hw i1.wf
  obtain ⟨y1, y2, y3, y4, y5⟩ := bitB_effect 5 (by omega) (by omega) false _ w1
  have w2 := bitB_wf 5 (by omega) (by omega) false _ w1
  obtain ⟨z1, z2, z3, z4, z5⟩ := bitB_effect 3 (by omega) (by omega) false _ w2
  refine ⟨q, (visible y.s).take k, _, h2.order, by unfold OutSys.close; rw [c1, Res.bind_ok, hw]; rfl, List.take_prefix _ _, by rw [List.length_take]; omega, ?_, ?_, ?_, ?_⟩
  · rcases sent_cases h2.rel k c2 with h | h
    · exact .inl h.1
    · exact .inr h
  · show RingBuffer.getLength v.s.buf % 256 = 0
    rw [RingBuffer.getLength_rel i1.rel (by rw [i1.size]; exact hn)]
    rfl
  · rw [← c4]
    have hd : handed v = handed w := by simpa [handed] using d1
    rw [← hd]
    show (((v.s.hw.bitB 6 false).bitB 5 false).bitB 3 false).line ++ (((v.s.hw.bitB 6 false).bitB 5 false).bitB 3 false).shift.toList ++
      (((v.s.hw.bitB 6 false).bitB 5 false).bitB 3 false).tx.toList = _
    rw [z5, z4, z3, y5, y4, y3, x5, x4, x3]
    rfl
  · intro j h0 h1
    show (((v.s.hw.bitB 6 false).bitB 5 false).bitB 3 false).ucsrb.getLsbD j = _
    rw [z1 j h1, y1 j h1, x1 j h1]
    by_cases e3 : j = 3
    · simp [e3]
    · by_cases e5 : j = 5
      · simp [e5]
      · by_cases e6 : j = 6
        · simp [e6]
        · simp only [e3, e5, e6, if_false, or_self]
          exact i1.bits j h0 h1 e5

/-- Two bytes wait behind the one in the shift register; between the two stores of Clear the handler runs once, later not at all. -/
example : ∃ y z, (outInit [9, 9, 9, 9] 0x08#8).run ([.write 65#8, .main, .main, .main, .main, .isr, .frame, .write 66#8, .main, .main, .main, .main,
      .write 67#8, .main, .main, .main, .main]) = .ok y ∧ y.phase = .idle ∧ handed y = [65] ∧ y.accepted = [65, 66, 67] ∧
    y.flush [.isr] [[], [.frame]] = .ok (some z) ∧ handed z = [65, 66] ∧ z.s.getLength = 0 := by
  refine ⟨_, _, rfl, by decide +kernel, by decide +kernel, by decide +kernel, rfl, by decide +kernel, by decide +kernel⟩

end Atl.Props
