import Verif.Model.UsartBits
import Verif.Spec.UsartBits
import Verif.Props.UsartConfig
import Verif.Props.UsartData
import Verif.Proof.RingBuffer

/- C126: the enable bits of the USARTs, operated by main code and interrupt handlers. -/
namespace Atl.Props
open Atl Atl.Usart Atl.Usart.Bits Atl.Spec.Switches

theorem flag_lt (f : Flag) : f.bit < 8 := by cases f <;> decide

theorem flag_inj (f g : Flag) : f.bit = g.bit ↔ f = g := by cases f <;> cases g <;> decide

/-- A bit of memory. -/
def memAt (m : Mem) (a j : Nat) : Bool := (m a).getLsbD j

theorem get_memAt (id : Nat) (f : Flag) (m : Mem) : Bits.get id f m = memAt m (0xC1 + id * 8) f.bit := by
  unfold Bits.get memAt aUCSRB
  exact isTrue_bit _ (flag_lt f) _

theorem set_memAt (c : Call) (m : Mem) (a j : Nat) :
    memAt (Bits.set c m) a j = if a = 0xC1 + c.id * 8 ∧ j = c.flag.bit then c.on else memAt m a j := by
  have hl := flag_lt c.flag
  unfold Bits.set memBit memAt Mem.put aUCSRB
  by_cases ha : a = 0xC1 + c.id * 8
  · subst ha
    cases hon : c.on
    · simp only [Bool.false_eq_true, if_false, if_true, true_and, bit_clear _ hl]
    · simp only [if_true, true_and, bit_set _ hl, bit_clear _ hl]
      by_cases hj : j = c.flag.bit <;> simp [hj]
  · cases hon : c.on <;> simp [ha]

/-- The request a setter makes. -/
def request (c : Call) : (Nat × Flag) × Bool := ((c.id, c.flag), c.on)

theorem last_append {κ : Type} [DecidableEq κ] (k : κ) (l r : List (κ × Bool)) : last k (l ++ r) = (last k r).or (last k l) := by
  induction l with
  | nil => simp [last]
  | cons x l ih =>
    simp only [List.cons_append, last, ih]
    cases last k r with
    | some v => rfl
    | none => simp

/-- Any memory bit after a list of uninterrupted setters. -/
theorem handler_memAt (cs : List Call) (m : Mem) (a j : Nat) :
    (∀ id f, a = 0xC1 + id * 8 → j = Flag.bit f → memAt (handler cs m) a j = (last (id, f) (cs.map request)).getD (memAt m a j)) ∧
    ((∀ id f, a = 0xC1 + id * 8 → j ≠ Flag.bit f) → memAt (handler cs m) a j = memAt m a j) := by
  induction cs generalizing m with
  | nil => exact ⟨fun _ _ _ _ => rfl, fun _ => rfl⟩
  | cons c cs ih =>
    obtain ⟨h1, h2⟩ := ih (Bits.set c m)
    constructor
    · intro id f ha hj
      have e := h1 id f ha hj
      show memAt (handler cs (Bits.set c m)) a j = _
      rw [e, set_memAt]
      simp only [List.map_cons, last, request]
      cases hl : last (id, f) (cs.map request) with
      | some v => rfl
      | none =>
        by_cases hc : c.id = id ∧ c.flag = f
        · obtain ⟨rfl, rfl⟩ := hc
          simp [ha, hj]
        · have : ¬ (a = 0xC1 + c.id * 8 ∧ j = c.flag.bit) := by
            rintro ⟨x, y⟩
            exact hc ⟨by omega, (flag_inj _ _).1 (by omega)⟩
          have h3 : ¬ ((c.id, c.flag) = (id, f)) := fun h => hc ⟨congrArg Prod.fst h, congrArg Prod.snd h⟩
          simp [this, h3]
    · intro hn
      show memAt (handler cs (Bits.set c m)) a j = _
      rw [h2 hn, set_memAt, if_neg]
      rintro ⟨x, y⟩
      exact hn _ _ x y

/-- The requests that have an effect: those made between a load and its store for the same register are overwritten. -/
def kept (c : Call) (cs : List Call) : List Call := cs.filter fun x => x.id != c.id

/-- What remains of the requests during one call of main code. -/
def remain (x : Call × Gaps) : List Call :=
  x.2.beforeClear ++ kept x.1 x.2.inClear ++ [{ x.1 with on := false }] ++
    if x.1.on then x.2.beforeSet ++ kept x.1 x.2.inSet ++ [x.1] else []

theorem handler_append (a b : List Call) (m : Mem) : handler (a ++ b) m = handler b (handler a m) := by
  unfold handler; rw [List.foldl_append]

/-- Two memories with the same bits (bit numbers below 8 are all there are). -/
theorem mem_ext (m m' : Mem) (h : ∀ a j, memAt m a j = memAt m' a j) : m = m' := by
  funext a
  apply BitVec.eq_of_getLsbD_eq
  intro j _
  exact h a j

theorem put_memAt (m : Mem) (a' : Nat) (v : BitVec 8) (a j : Nat) : memAt (m.put a' v) a j = if a = a' then v.getLsbD j else memAt m a j := by
  unfold memAt Mem.put
  by_cases h : a = a' <;> simp [h]

/-- Calls for other USARTs do not touch this one's register. -/
theorem handler_other (cs : List Call) (id : Nat) (h : ∀ c ∈ cs, c.id ≠ id) (m : Mem) : handler cs m (aUCSRB id) = m (aUCSRB id) := by
  induction cs generalizing m with
  | nil => rfl
  | cons c cs ih =>
    show handler cs (Bits.set c m) (aUCSRB id) = _
    rw [ih (fun x hx => h x (by simp [hx]))]
    have := h c (by simp)
    apply BitVec.eq_of_getLsbD_eq
    intro j _
    have e := set_memAt c m (aUCSRB id) j
    unfold memAt at e
    rw [e, if_neg]
    unfold aUCSRB
    omega

/-- Calls for this USART touch only its register. -/
theorem handler_kept (c : Call) (cs : List Call) (m : Mem) (a : Nat) (ha : a ≠ aUCSRB c.id) : handler cs m a = handler (kept c cs) m a := by
  induction cs generalizing m with
  | nil => rfl
  | cons x cs ih =>
    by_cases hx : x.id = c.id
    · have e : kept c (x :: cs) = kept c cs := by simp [kept, hx]
      rw [e]
      show handler cs (Bits.set x m) a = _
      rw [ih]
      -- the state differs only in the register
      have hd : ∀ (l : List Call) (m1 m2 : Mem), m1 a = m2 a → handler l m1 a = handler l m2 a := by
        intro l
        induction l with
        | nil => exact fun _ _ h => h
        | cons y l ih2 =>
          intro m1 m2 h
          refine ih2 _ _ ?_
          apply BitVec.eq_of_getLsbD_eq
          intro j _
          have e1 := set_memAt y m1 a j
          have e2 := set_memAt y m2 a j
          unfold memAt at e1 e2
          rw [e1, e2, h]
      refine hd _ _ _ ?_
      apply BitVec.eq_of_getLsbD_eq
      intro j _
      have e1 := set_memAt x m a j
      unfold memAt at e1
      rw [e1, if_neg]
      rw [hx]
      exact fun h => ha h.1
    · have e : kept c (x :: cs) = x :: kept c cs := by simp [kept, hx]
      rw [e]
      exact ih _

/-- A load, handlers and a store: the handlers' changes of this register are gone. -/
theorem window (c : Call) (cs : List Call) (m : Mem) (v : BitVec 8) :
    (handler cs m).put (aUCSRB c.id) v = (handler (kept c cs) m).put (aUCSRB c.id) v := by
  funext a
  unfold Mem.put
  by_cases h : a = aUCSRB c.id
  · simp [h]
  · simp only [h, if_false]; exact handler_kept c cs m a h

theorem kept_register (c : Call) (cs : List Call) (m : Mem) : handler (kept c cs) m (aUCSRB c.id) = m (aUCSRB c.id) :=
  handler_other _ _ (fun x hx => by simpa [kept] using (List.mem_filter.1 hx).2) m

theorem clear_as_set (c : Call) (m : Mem) : m.put (aUCSRB c.id) (clearBit c.flag.bit (m (aUCSRB c.id))) = Bits.set { c with on := false } m := rfl

theorem set_as_set (c : Call) (h : c.on = true) (m : Mem) : m.put (aUCSRB c.id) (setBit c.flag.bit (m (aUCSRB c.id))) = Bits.set c m := by
  apply mem_ext
  intro a j
  rw [put_memAt, set_memAt, bit_set _ (flag_lt _), h]
  unfold aUCSRB
  by_cases ha : a = 0xC1 + c.id * 8
  · by_cases hj : j = c.flag.bit
    · simp [ha, hj]
    · simp [ha, hj, memAt]
  · simp [ha]

theorem setDuring_eq (c : Call) (g : Gaps) (m : Mem) : setDuring c g m = handler (remain (c, g)) m := by
  have h1 : ∀ m : Mem, (handler g.inClear m).put (aUCSRB c.id) (clearBit c.flag.bit (m (aUCSRB c.id))) =
      handler (kept c g.inClear ++ [{ c with on := false }]) m := by
    intro m
    rw [window, handler_append]
    show _ = Bits.set { c with on := false } (handler (kept c g.inClear) m)
    rw [← clear_as_set, kept_register]
  have h2 : c.on = true → ∀ m : Mem, (handler g.inSet m).put (aUCSRB c.id) (setBit c.flag.bit (m (aUCSRB c.id))) =
      handler (kept c g.inSet ++ [c]) m := by
    intro hon m
    rw [window, handler_append]
    show _ = Bits.set c (handler (kept c g.inSet) m)
    rw [← set_as_set c hon, kept_register]
  unfold setDuring remain
  cases hon : c.on
  · simp only [Bool.false_eq_true, if_false]
    rw [h1, ← handler_append]
    simp [List.append_assoc, hon]
  · simp only [if_true]
    rw [h2 hon, h1, ← handler_append, ← handler_append, ← handler_append]
    simp [List.append_assoc]

theorem run_eq (l : List (Call × Gaps)) (m : Mem) : Bits.run l m = handler (l.flatMap remain) m := by
  induction l generalizing m with
  | nil => rfl
  | cons x l ih =>
    show Bits.run l (setDuring x.1 x.2 m) = _
    rw [ih, setDuring_eq, ← handler_append]
    rfl

/-- **C126, exactly.** Main code calling setters one after another, handlers that call setters running at any moment, also inside main's calls, any USARTs: afterwards every
    enable bit is as last requested, where exactly those requests do not count that a handler makes between a load and the store of a call by main code for the
    same USART. No other bit of memory changes. -/
theorem c126_exact (l : List (Call × Gaps)) (m : Mem) :
    (∀ id f, Bits.get id f (Bits.run l m) = (last (id, f) ((l.flatMap remain).map request)).getD (Bits.get id f m)) ∧
    (∀ a j, (∀ id f, a = 0xC1 + id * 8 → j ≠ Flag.bit f) → (Bits.run l m a).getLsbD j = (m a).getLsbD j) := by
  rw [run_eq]
  refine ⟨fun id f => ?_, fun a j h => (handler_memAt _ _ a j).2 h⟩
  rw [get_memAt, get_memAt]
  exact (handler_memAt _ _ _ _).1 id f rfl rfl

/-- All requests in the order of their stores. -/
def requests (x : Call × Gaps) : List Call :=
  x.2.beforeClear ++ x.2.inClear ++ (if x.1.on then x.2.beforeSet ++ x.2.inSet else []) ++ [x.1]

/-- **C126, partial.** If no handler requests another bit of the same USART between a load and a store of main code - as for the streams of the library, where handler and
    main code share one bit, or if main code disables interrupts - every enable bit is as last requested. Missing: handlers that change another
    bit there. -/
theorem c126_last_partial (l : List (Call × Gaps)) (m : Mem)
    (hw : ∀ x ∈ l, ∀ y ∈ x.2.inClear ++ x.2.inSet, y.id = x.1.id → y.flag = x.1.flag) (id : Nat) (f : Flag) :
    Bits.get id f (Bits.run l m) = (last (id, f) ((l.flatMap requests).map request)).getD (Bits.get id f m) := by
  rw [(c126_exact l m).1 id f]
  congr 1
  induction l with
  | nil => rfl
  | cons x l ih =>
    simp only [List.flatMap_cons, List.map_append, last_append]
    rw [ih (fun y hy => hw y (by simp [hy]))]
    congr 1
    obtain ⟨c, g⟩ := x
    have hx := hw (c, g) (by simp)
    -- dropping requests for other USARTs does not matter, dropping those for this one only concerns main's bit
    have drop : ∀ cs : List Call, (∀ y ∈ cs, y.id = c.id → y.flag = c.flag) → (id, f) ≠ (c.id, c.flag) →
        last (id, f) ((kept c cs).map request) = last (id, f) (cs.map request) := by
      intro cs hcs hne
      induction cs with
      | nil => rfl
      | cons y cs ih2 =>
        have := ih2 (fun z hz => hcs z (by simp [hz]))
        by_cases hy : y.id = c.id
        · have e : kept c (y :: cs) = kept c cs := by simp [kept, hy]
          rw [e, this]
          simp only [List.map_cons, last, request]
          rw [if_neg (by rw [hy, hcs y (by simp) hy]; exact fun h => hne h.symm)]
          cases last (id, f) (cs.map request) <;> rfl
        · have e : kept c (y :: cs) = y :: kept c cs := by simp [kept, hy]
          rw [e]
          simp only [List.map_cons, last, this]
    have one : ∀ c' : Call, last (id, f) ([c'].map request) = if (c'.id, c'.flag) = (id, f) then some c'.on else none := fun _ => rfl
    by_cases hne : (id, f) = (c.id, c.flag)
    · -- main's own bit: its last store decides
      have h1 : last (id, f) ((requests (c, g)).map request) = some c.on := by
        unfold requests
        rw [List.map_append, last_append, one, if_pos hne.symm]; rfl
      rw [h1]
      unfold remain
      cases hon : c.on
      · simp only [Bool.false_eq_true, if_false, List.append_nil]
        rw [List.map_append, last_append, one, if_pos hne.symm]; rfl
      · simp only [if_true]
        rw [List.map_append, last_append, List.map_append, last_append, one, if_pos hne.symm, hon]; rfl
    · have hne' : ¬ (c.id, c.flag) = (id, f) := fun h => hne h.symm
      have d1 := drop g.inClear (fun y hy => hx y (by simp [hy])) hne
      have d2 := drop g.inSet (fun y hy => hx y (by simp [hy])) hne
      unfold remain requests
      cases hon : c.on
      · simp only [Bool.false_eq_true, if_false, List.append_nil, List.map_append, last_append, one, d1, if_neg hne', Option.none_or]
      · simp only [if_true, List.map_append, last_append, one, d1, d2, if_neg hne', Option.none_or, Option.or_assoc]

example := c126_last_partial [(⟨0, .acceptInterrupt, true⟩, { beforeClear := [⟨0, .receiver, true⟩], inClear := [⟨0, .acceptInterrupt, false⟩, ⟨1, .receiver, false⟩], beforeSet := [⟨0, .transmitter, true⟩], inSet := [⟨0, .acceptInterrupt, false⟩] })] (fun _ => 0x5A#8) (by decide) 0 .receiver

/-- **C126, without interrupts.** After a setter its getter returns what was set and every other getter what it returned before. -/
theorem c126_readback (c : Call) (m : Mem) (id : Nat) (f : Flag) :
    Bits.get id f (Bits.run [(c, {})] m) = if id = c.id ∧ f = c.flag then c.on else Bits.get id f m := by
  rw [c126_last_partial [(c, {})] m (by simp) id f]
  simp only [List.flatMap_cons, List.flatMap_nil, List.append_nil, requests, ite_self, List.nil_append, List.map_cons, List.map_nil, last, request]
  by_cases h : id = c.id ∧ f = c.flag
  · simp [h]
  · rw [if_neg h, if_neg (fun e => h ⟨(congrArg Prod.fst e).symm, (congrArg Prod.snd e).symm⟩)]; rfl

/-- **C126 fails.** For any two different bits of a USART: while main code sets or clears the one, a handler's change of the other, between main's load and store, is undone. -/
theorem c126_lost_fails (c h : Call) (hid : h.id = c.id) (hf : h.flag ≠ c.flag) (m : Mem) (hm : Bits.get h.id h.flag m = !h.on) :
    last (h.id, h.flag) ((requests (c, { inClear := [h] })).map request) = some h.on ∧
    Bits.get h.id h.flag (Bits.run [(c, { inClear := [h] })] m) = !h.on := by
  have hne : ¬ (c.id, c.flag) = (h.id, h.flag) := fun e => hf (congrArg Prod.snd e).symm
  constructor
  · unfold requests
    cases c.on <;> simp [last, request, hne]
  · rw [(c126_exact _ _).1, ← hm]
    have hk : kept c [h] = [] := by simp [kept, hid]
    simp only [List.flatMap_cons, List.flatMap_nil, List.append_nil, remain, hk, List.nil_append]
    cases hon : c.on
    · simp only [Bool.false_eq_true, if_false, List.append_nil, List.map_cons, List.map_nil, last, request, hne]; rfl
    · simp only [if_true, kept, List.filter_nil, List.append_nil, List.nil_append, List.cons_append, List.map_cons, List.map_nil, last, request, hne, if_false]; rfl

/-- A case in which the hypotheses of the partial theorem hold, with handlers in every gap. -/
example : ∀ m : Mem, Bits.get 0 .acceptInterrupt (Bits.run [(⟨0, .acceptInterrupt, true⟩,
      { beforeClear := [⟨0, .receiver, true⟩], inClear := [⟨0, .acceptInterrupt, false⟩, ⟨1, .receiver, false⟩], beforeSet := [⟨0, .transmitter, true⟩],
        inSet := [⟨0, .acceptInterrupt, false⟩] })] m) = true := by
  intro m
  rw [c126_last_partial _ _ (by decide)]
  rfl

/-- **C126 fails, what it can do.** An application echoes received bytes in its receive handler. If main code switches any other bit of the USART off at that moment, and the
    transmitter was idle, the byte stays in the buffer: the interrupt that should send it is off, and nothing the hardware does ever sends it (until the
    next Write). -/
theorem c126_echo_fails (i v : Nat) (s : OutStream) (q : List Nat) (hq : RingBuffer.Rel s.buf q) (hs : s.buf.size < 65536)
    (hroom : q.length + 1 < s.buf.size) (hoff : isTrue 5 s.hw.ucsrb = false) (htx : s.hw.tx = none) (hsh : s.hw.shift = none) (es : List OutEv)
    (hes : ∀ e ∈ es, e = .isr ∨ e = .frame ∨ e = .load) :
    ∃ s' y, clearWhileEcho i v s = .ok s' ∧ RingBuffer.getLength s'.buf = q.length + 1 ∧
      OutSys.run ⟨s', .idle, []⟩ es = .ok y ∧ y.s.buf = s'.buf ∧ y.s.hw.line = s.hw.line ∧ y.s.hw.tx = none ∧ y.s.hw.shift = none := by
  obtain ⟨b, hb, hb2, hb3⟩ := RingBuffer.write_room hq v hroom
  have hreadB : s.hw.readB.getLsbD 5 = false := by
    rw [isTrue_bit 5 (by omega)] at hoff
    have e : (clearBit 1 s.hw.ucsrb).getLsbD 5 = false := by rw [bit_clear 1 (by omega), if_neg (by omega), hoff]
    unfold Hw.readB
    split
    · split
      · rw [bit_set 1 (by omega), if_neg (by omega), e]
      · exact e
    · exact e
  have hc : isTrue 5 (clearBit i s.hw.readB) = false := by
    rw [isTrue_bit 5 (by omega)]
    unfold clearBit
    rw [BitVec.getLsbD_and, hreadB]; rfl
  let s' : OutStream := { buf := b, hw := (OutStream.enable { s with buf := b }).hw.writeB (clearBit i s.hw.readB) }
  have h1 : clearWhileEcho i v s = .ok s' := by
    unfold clearWhileEcho OutStream.writeBuffer
    rw [hb]; rfl
  have h2 : isTrue 5 s'.hw.ucsrb = false ∧ s'.hw.line = s.hw.line ∧ s'.hw.tx = none ∧ s'.hw.shift = none :=
    ⟨hc, rfl, htx, hsh⟩
  refine ⟨s', ?_⟩
  have key : ∀ (es : List OutEv), (∀ e ∈ es, e = .isr ∨ e = .frame ∨ e = .load) → ∀ x : OutSys, x.s.buf = s'.buf → isTrue 5 x.s.hw.ucsrb = false →
      x.s.hw.line = s.hw.line → x.s.hw.tx = none → x.s.hw.shift = none →
      ∃ y, OutSys.run x es = .ok y ∧ y.s.buf = s'.buf ∧ y.s.hw.line = s.hw.line ∧ y.s.hw.tx = none ∧ y.s.hw.shift = none := by
    intro es
    induction es with
    | nil => exact fun _ x a1 _ a3 a4 a5 => ⟨x, rfl, a1, a3, a4, a5⟩
    | cons e es ih =>
      intro he x a1 a2 a3 a4 a5
      have ht := fun e h => he e (List.mem_cons_of_mem _ h)
      rcases he e (by simp) with rfl | rfl | rfl
      · have : OutSys.step x .isr = .ok x := by simp [OutSys.step, a2]
        simp only [OutSys.run, this, Res.bind_ok]
        exact ih ht x a1 a2 a3 a4 a5
      · simp only [OutSys.run, OutSys.step, Res.bind_ok]
        exact ih ht _ a1 a2 (by simp [Hw.frameTime, a3, a5]) rfl a4
      · simp only [OutSys.run, OutSys.step, Res.bind_ok]
        exact ih ht _ a1 (by simp [Hw.load, a5, a2]) (by simp [Hw.load, a5, a3]) (by simp [Hw.load, a5]) (by simp [Hw.load, a5, a4])
  obtain ⟨y, k1, k2, k3, k4, k5⟩ := key es hes ⟨s', .idle, []⟩ rfl h2.1 h2.2.1 h2.2.2.1 h2.2.2.2
  refine ⟨y, h1, ?_, k1, k2, k3, k4, k5⟩
  rw [RingBuffer.getLength_rel hb2 (by rw [hb3]; exact hs)]
  simp

/-- The hypotheses are met by a new stream with a buffer of 4: the byte 65 is echoed while main code switches the complete interrupt off. -/
example : RingBuffer.Rel (RingBuffer.mk [0, 0, 0, 0]) ([] : List Nat) ∧
    (∃ s' y, clearWhileEcho 6 65 { buf := RingBuffer.mk [0, 0, 0, 0], hw := { ucsrb := 0x98#8 } } = .ok s' ∧ s'.buf.buf = [65, 0, 0, 0] ∧
      OutSys.run ⟨s', .idle, []⟩ [.isr, .load, .frame, .isr] = .ok y ∧ y.s.hw.line = []) :=
  ⟨RingBuffer.rel_mk _ (by decide), _, _, rfl, rfl, rfl, rfl⟩

/-- **C126 (opening and closing).** `Usart::OpenAsync` and `Usart::Close` leave all five of their USART switched off, whatever the configuration, and those of the other USART as they were. -/
theorem c126_open_close (id : Nat) (hid : id < 2) (c : Config) (hc : Spec.Usart.Setting c.div c.ubrr) (m : Mem) (other : Nat) (f : Flag) :
    Bits.get other f (openAsync id c m).1 = (if other = id then false else Bits.get other f m) ∧
    Bits.get other f (close id m) = (if other = id then false else Bits.get other f m) := by
  have h3 : 3 ≤ f.bit ∧ f.bit ≤ 7 := by cases f <;> decide
  have h2 : ∀ c : Config, c.ucsrb.getLsbD f.bit = false := by intro c; unfold Config.ucsrb; split <;> cases f <;> decide
  obtain ⟨-, -, -, e1, -, -, e2⟩ := c72_open id hid c m hc
  simp only [get_memAt, memAt]
  constructor
  · split
    · next h => subst h; rw [e1, h2]
    · next h => rw [e2 _ (by omega) (by omega) (by omega) (by omega) (by omega) (by omega)]
  · rw [c72_close id hid]
    split
    · next h => rw [if_pos (by omega)]
    · next h =>
      rw [if_neg (by omega)]
      split
      · next h' => exact absurd ⟨by omega, h3⟩ h
      · rfl

/-- Both USARTs with everything switched on; the first is closed. -/
example : let m : Mem := fun _ => 0xFF#8
    Bits.get 0 .transmitter (close 0 m) = false ∧ Bits.get 1 .transmitter (close 0 m) = true := by
  decide

end Atl.Props
