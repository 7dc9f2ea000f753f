import Verif.Props.UsartConfig
import Verif.Proof.RingBuffer

/- Property theorems C57, C58, C59, C73, C74, C75: USART data transfer. -/
namespace Atl.Props
open Atl.Usart

/-! ### Register bits -/

theorem isTrue_bit (i : Nat) (hi : i < 8) (t : BitVec 8) : isTrue i t = t.getLsbD i := bit_isTrue ⟨i, hi⟩ t

/-- The control bits as software reads them: bit 1 is bit 8 of the oldest frame. -/
theorem readB_bit (h : Hw) (j : Nat) (hj : j ≠ 1) : h.readB.getLsbD j = h.ucsrb.getLsbD j := by
  unfold Hw.readB
  cases h.rx with
  | nil => simp only; rw [bit_clear 1 (by omega), if_neg hj]
  | cons f r =>
    simp only
    split
    · rw [bit_set 1 (by omega), if_neg hj, bit_clear 1 (by omega), if_neg hj]
    · rw [bit_clear 1 (by omega), if_neg hj]

theorem readB_bit1 (h : Hw) : h.readB.getLsbD 1 = (match h.rx with | f :: _ => f.data.testBit 8 | [] => false) := by
  unfold Hw.readB
  cases h.rx with
  | nil => simp only; rw [bit_clear 1 (by omega), if_pos rfl]
  | cons f r =>
    simp only
    split
    · next h => rw [bit_set 1 (by omega), if_pos rfl, h]
    · next h => rw [bit_clear 1 (by omega), if_pos rfl]; simp only [Bool.not_eq_true] at h; rw [h]

/-- A receiver that is off holds nothing. -/
def Wf (h : Hw) : Prop := h.ucsrb.getLsbD 4 = true ∨ h.rx = []

theorem writeB_rx (h : Hw) (hw : Wf h) (v : BitVec 8) (hv : v.getLsbD 4 = h.ucsrb.getLsbD 4) : (h.writeB v).rx = h.rx := by
  unfold Hw.writeB
  simp only [isTrue_bit 4 (by omega), hv]
  rcases hw with h1 | h1 <;> simp [h1]

/-- `Bit<i>::Set(UCSRB, v)` for a bit other than the receiver enable: that bit, and nothing else the program or the line can see. -/
theorem bitB_effect (i : Nat) (hi : i < 8) (h4 : i ≠ 4) (v : Bool) (h : Hw) (hw : Wf h) :
    (∀ j, j ≠ 1 → (h.bitB i v).ucsrb.getLsbD j = if j = i then v else h.ucsrb.getLsbD j) ∧
    (h.bitB i v).rx = h.rx ∧ (h.bitB i v).tx = h.tx ∧ (h.bitB i v).shift = h.shift ∧ (h.bitB i v).line = h.line := by
  have b1 : ∀ j, j ≠ 1 → (h.writeB (clearBit i h.readB)).ucsrb.getLsbD j = if j = i then false else h.ucsrb.getLsbD j := by
    intro j hj
    show (clearBit i h.readB).getLsbD j = _
    rw [bit_clear i hi]
    split
    · rfl
    · exact readB_bit h j hj
  have r1 : (h.writeB (clearBit i h.readB)).rx = h.rx := writeB_rx h hw _ (by
    rw [bit_clear i hi, if_neg (Ne.symm h4), readB_bit h 4 (by omega)])
  cases v with
  | false => exact ⟨b1, r1, rfl, rfl, rfl⟩
  | true =>
    have hw1 : Wf (h.writeB (clearBit i h.readB)) := by
      unfold Wf
      rw [b1 4 (by omega), if_neg (Ne.symm h4), r1]
      exact hw
    have e : h.bitB i true = (h.writeB (clearBit i h.readB)).writeB (setBit i (h.writeB (clearBit i h.readB)).readB) := rfl
    rw [e]
    have x1 : (h.writeB (clearBit i h.readB)).tx = h.tx := rfl
    have x2 : (h.writeB (clearBit i h.readB)).shift = h.shift := rfl
    have x3 : (h.writeB (clearBit i h.readB)).line = h.line := rfl
    generalize h.writeB (clearBit i h.readB) = g at *
    refine ⟨?_, ?_, ?_, ?_, ?_⟩
    · intro j hj
      show (setBit i g.readB).getLsbD j = _
      rw [bit_set i hi]
      split
      · rfl
      · next hji => rw [readB_bit g j hj, b1 j hj, if_neg hji]
    · rw [writeB_rx g hw1 _ (by rw [bit_set i hi, if_neg (Ne.symm h4), readB_bit g 4 (by omega)]), r1]
    · exact x1
    · exact x2
    · exact x3

theorem bitB_wf (i : Nat) (hi : i < 8) (h4 : i ≠ 4) (v : Bool) (h : Hw) (hw : Wf h) : Wf (h.bitB i v) := by
  obtain ⟨e1, e2, _⟩ := bitB_effect i hi h4 v h hw
  unfold Wf
  rw [e1 4 (by omega), if_neg (Ne.symm h4), e2]
  exact hw

theorem accept_iff (h : Hw) : getAcceptData h = decide (h.tx = none) := by
  unfold getAcceptData Hw.readA
  rw [isTrue_bit 5 (by omega)]
  cases h.rx with
  | nil => by_cases ht : h.tx = none <;> simp only [ht, if_true, if_false, decide_true, decide_false] <;> decide
  | cons f r =>
    obtain ⟨d, a, b, c⟩ := f
    by_cases ht : h.tx = none <;> simp only [ht, if_true, if_false, decide_true, decide_false] <;> cases a <;> cases b <;> cases c <;> decide

theorem complete_iff (h : Hw) : rxComplete h = decide (h.rx ≠ []) := by
  unfold rxComplete Hw.readA
  rw [isTrue_bit 7 (by omega)]
  cases h.rx with
  | nil => by_cases ht : h.tx = none <;> simp only [ht, if_true, if_false] <;> decide
  | cons f r =>
    obtain ⟨d, a, b, c⟩ := f
    by_cases ht : h.tx = none <;> simp only [ht, if_true, if_false, ne_eq, reduceCtorEq, not_false_eq_true, decide_true] <;> cases a <;> cases b <;> cases c <;> decide

theorem flags (h : Hw) (f : Frame) (r : List Frame) (hr : h.rx = f :: r) :
    isTrue 4 h.readA = f.fe ∧ isTrue 3 h.readA = f.dor ∧ isTrue 2 h.readA = f.upe := by
  unfold Hw.readA
  rw [isTrue_bit 4 (by omega), isTrue_bit 3 (by omega), isTrue_bit 2 (by omega), hr]
  obtain ⟨d, a, b, c⟩ := f
  by_cases ht : h.tx = none <;> simp only [ht, if_true, if_false] <;> cases a <;> cases b <;> cases c <;> decide

theorem is9_eq (h : Hw) : is9 h = h.ucsrb.getLsbD 2 := by
  unfold is9
  rw [isTrue_bit 2 (by omega), readB_bit h 2 (by omega)]

/-! ### C57 nine bits -/

/-- **C57.** Every value into an empty transmit buffer, every control register: in nine-bit mode the low nine bits go out, in eight-bit mode the low eight;
    all control bits but TXB8 (bit 0) stay, TXB8 too in eight-bit mode (bit 1 is read-only), and nothing received is disturbed. -/
theorem c57_write (data : Nat) (h : Hw) (hw : Wf h) (ht : h.tx = none) :
    (writeInternal data h).tx = some (if h.ucsrb.getLsbD 2 then data % 512 else data % 256) ∧
    (∀ j, j ≠ 0 → j ≠ 1 → (writeInternal data h).ucsrb.getLsbD j = h.ucsrb.getLsbD j) ∧
    (h.ucsrb.getLsbD 2 = false → (writeInternal data h).ucsrb = h.ucsrb) ∧
    (writeInternal data h).rx = h.rx ∧ (writeInternal data h).shift = h.shift ∧ (writeInternal data h).line = h.line := by
  unfold writeInternal
  rw [is9_eq]
  cases h2 : h.ucsrb.getLsbD 2 with
  | false =>
    simp only [Bool.false_eq_true, if_false, Hw.writeUDR, ht, if_true, isTrue_bit 2 (by omega : 2 < 8), h2, Bool.false_and, Nat.add_zero]
    exact ⟨trivial, fun _ _ _ => trivial, fun _ => trivial, trivial, trivial, trivial⟩
  | true =>
    simp only [if_true]
    obtain ⟨e1, e2, e3, e4, e5⟩ := bitB_effect 0 (by omega) (by omega) (data.testBit 8) h hw
    generalize h.bitB 0 (data.testBit 8) = g at *
    have g2 : g.ucsrb.getLsbD 2 = true := by rw [e1 2 (by omega), if_neg (by omega), h2]
    have g0 : g.ucsrb.getLsbD 0 = data.testBit 8 := by rw [e1 0 (by omega), if_pos rfl]
    simp only [Hw.writeUDR, e3, ht, if_true, isTrue_bit 2 (by omega : 2 < 8), isTrue_bit 0 (by omega : 0 < 8), g2, g0, Bool.true_and]
    refine ⟨?_, ?_, by simp, e2, e4, e5⟩
    · congr 1
      rw [Nat.testBit_eq_decide_div_mod_eq]
      by_cases hb : data / 2 ^ 8 % 2 = 1
      · rw [if_pos (by simpa using hb)]; omega
      · rw [if_neg (by simpa using hb)]; omega
    · intro j h0 h1
      rw [e1 j h1, if_neg h0]

example := c57_write 0x1A5 { ucsrb := 0x9C#8, shift := some 7 } (.inl (by decide)) rfl

/-- **C57.** The value reaches the line after what was being sent. -/
theorem c57_line (data : Nat) (h : Hw) (hw : Wf h) (ht : h.tx = none) :
    (writeInternal data h).frameTime.frameTime.line = h.line ++ h.shift.toList ++ [if h.ucsrb.getLsbD 2 then data % 512 else data % 256] := by
  obtain ⟨e1, _, _, _, e5, e6⟩ := c57_write data h hw ht
  show ((writeInternal data h).line ++ (writeInternal data h).shift.toList) ++ (writeInternal data h).tx.toList = _
  rw [e1, e5, e6]
  rfl

example := c57_line 0x1A5 { ucsrb := 0x9C#8, shift := some 7 } (.inl (by decide)) rfl

/-- **C57.** A received value is returned unchanged in nine-bit mode and without bit 8 in eight-bit mode, and exactly its frame is removed. -/
theorem c57_read (h : Hw) (f : Frame) (r : List Frame) (hr : h.rx = f :: r) (hf : f.data < 512) :
    readInternal h = (if h.ucsrb.getLsbD 2 then f.data else f.data % 256, { h with rx := r }) := by
  unfold readInternal
  simp only [is9_eq, isTrue_bit 1 (by omega : 1 < 8), readB_bit1, hr, Hw.readUDR]
  congr 1
  cases h.ucsrb.getLsbD 2 with
  | false => simp
  | true =>
    simp only [if_true]
    have key : ∀ n : Fin 512, ((if (n : Nat).testBit 8 then 0x100 else 0) ||| (n : Nat) % 256) = n := by decide +kernel
    exact key ⟨f.data, hf⟩

/-- 0x1A5 through a nine-bit transmitter with interrupts and receiver enabled, and back. -/
example : (writeInternal 0x1A5 { ucsrb := 0x9C#8, shift := some 7 }).frameTime.frameTime.line = [7, 0x1A5] ∧
    (readInternal { ucsrb := 0x9C#8, rx := [⟨0x1A5, false, false, false⟩] }).1 = 0x1A5 := by decide +kernel

/-! ### C58 receive flush -/

/-- **C58 fails.** If anything has been received, Flush returns at once and discards nothing; if not, it does not return as long as nothing comes. -/
theorem c58_flush_fails (h : Hw) :
    (h.rx ≠ [] → ∀ as, rxFlush ([] :: as) h = some h) ∧ (h.rx = [] → ∀ n, rxFlush (List.replicate n []) h = none) := by
  refine ⟨fun hne as => ?_, fun he n => ?_⟩
  · have e : ({ h with rx := h.rx ++ [] } : Hw) = h := by simp
    unfold rxFlush
    simp only [e, complete_iff, hne, ne_eq, not_false_eq_true, decide_true, Bool.not_true, Bool.false_eq_true, if_false]
  · induction n with
    | zero => rfl
    | succ n ih =>
      have e : ({ h with rx := h.rx ++ [] } : Hw) = h := by simp
      have e2 : h.readUDR.2 = h := by unfold Hw.readUDR; rw [he]
      rw [List.replicate_succ]
      unfold rxFlush
      have c : rxComplete h = false := by rw [complete_iff]; simp [he]
      simp only [e, c, Bool.not_false, if_true, e2]
      exact ih

/-- **C58, partial.** Whatever arrives meanwhile: when Flush returns, nothing at all has been discarded and something is waiting; control bits and
    transmitter are untouched. Missing: it should have been discarded. -/
theorem c58_flush_partial (as : List (List Frame)) (h h' : Hw) (hf : rxFlush as h = some h') :
    ∃ k, h' = { h with rx := h.rx ++ (as.take k).flatten } ∧ h'.rx ≠ [] := by
  induction as generalizing h with
  | nil => cases hf
  | cons a as ih =>
    unfold rxFlush at hf
    by_cases hn : h.rx ++ a = []
    · obtain ⟨h1, h2⟩ := List.append_eq_nil_iff.1 hn
      have e : ({ h with rx := h.rx ++ a } : Hw) = h := by rw [h2, List.append_nil]
      have c : rxComplete h = false := by rw [complete_iff]; simp [h1]
      have e2 : h.readUDR.2 = h := by unfold Hw.readUDR; rw [h1]
      simp only [e, c, Bool.not_false, if_true, e2] at hf
      obtain ⟨k, hk, hne⟩ := ih h hf
      refine ⟨k + 1, ?_, hne⟩
      rw [hk]; simp [h2]
    · simp only [complete_iff, ne_eq, hn, not_false_eq_true, decide_true, Bool.not_true, Bool.false_eq_true, if_false] at hf
      injection hf with hf
      refine ⟨1, ?_, ?_⟩
      · rw [← hf]; simp
      · rw [← hf]; exact hn

example : rxFlush [[], [⟨5, false, false, false⟩]] {} = some { rx := [⟨5, false, false, false⟩] } := by decide +kernel

/-! ### C73 transmit -/

/-- **C73.** TryWrite succeeds exactly when the data register is empty; otherwise nothing changes. -/
theorem c73_tryWrite (data : Nat) (h : Hw) :
    tryWrite data h = if h.tx = none then (writeInternal data h, true) else (h, false) := by
  unfold tryWrite
  rw [accept_iff]
  by_cases ht : h.tx = none <;> simp [ht]

/-- **C73, partial.** Flush returns after at most one frame time; then everything is on the line or the last frame is being sent, nothing lost.
    Missing: "until all data has been transmitted". -/
theorem c73_flush_partial (h : Hw) (n : Nat) : ∃ h', txFlush (n + 2) h = some h' ∧ h'.tx = none ∧
    h'.line ++ h'.shift.toList = h.line ++ h.shift.toList ++ h.tx.toList ∧ h'.rx = h.rx ∧ h'.ucsrb = h.ucsrb := by
  unfold txFlush
  rw [accept_iff]
  by_cases ht : h.tx = none
  · simp only [ht, decide_true, if_true]
    exact ⟨h, rfl, ht, by simp, rfl, rfl⟩
  · simp only [ht, decide_false, Bool.false_eq_true, if_false]
    unfold txFlush
    rw [accept_iff]
    have : h.frameTime.tx = none := rfl
    simp only [this, decide_true, if_true]
    exact ⟨_, rfl, rfl, rfl, rfl, rfl⟩

example : txFlush 2 { ucsrb := 0x08#8, tx := some 66, shift := some 65, line := [64] } = some { ucsrb := 0x08#8, shift := some 66, line := [64, 65] } := by decide +kernel

/-- **C73 fails.** While a frame is still being sent Flush returns. -/
theorem c73_flush_fails (h : Hw) (x : Nat) (ht : h.tx = none) (hs : h.shift = some x) (n : Nat) :
    txFlush (n + 1) h = some h ∧ h.frameTime.line = h.line ++ [x] := by
  unfold txFlush
  rw [accept_iff]
  simp only [ht, decide_true, if_true, true_and]
  show h.line ++ h.shift.toList = _
  rw [hs]; rfl

/-! ### C74 enabling the receiver -/

/-- **C74, partial.** Switching the receiver on or off sets its control bit and no other, and does not touch the transmitter. Off empties the FIFO as the data
    sheet says. Missing: switching on a receiver that is on should keep what it holds. -/
theorem c74_enable_partial (v : Bool) (h : Hw) :
    (∀ j, j ≠ 1 → (rxSetEnable v h).ucsrb.getLsbD j = if j = 4 then v else h.ucsrb.getLsbD j) ∧
    (rxSetEnable v h).tx = h.tx ∧ (rxSetEnable v h).shift = h.shift ∧ (rxSetEnable v h).line = h.line := by
  have b1 : ∀ j, j ≠ 1 → (h.writeB (clearBit 4 h.readB)).ucsrb.getLsbD j = if j = 4 then false else h.ucsrb.getLsbD j := by
    intro j hj
    show (clearBit 4 h.readB).getLsbD j = _
    rw [bit_clear 4 (by omega)]
    split
    · rfl
    · exact readB_bit h j hj
  cases v with
  | false => exact ⟨b1, rfl, rfl, rfl⟩
  | true =>
    refine ⟨fun j hj => ?_, rfl, rfl, rfl⟩
    show (setBit 4 (h.writeB (clearBit 4 h.readB)).readB).getLsbD j = _
    rw [bit_set 4 (by omega)]
    split
    · rfl
    · next h4 => rw [readB_bit _ j hj, b1 j hj, if_neg h4]

example : (rxSetEnable false { ucsrb := 0x9C#8, tx := some 66, rx := [⟨65, false, false, false⟩] }) = { ucsrb := 0x8C#8, tx := some 66 } := by decide +kernel

/-- **C74 fails.** Enabling the receiver always empties the FIFO, also if it was enabled and held unread data: the bit is first cleared. -/
theorem c74_enable_fails (v : Bool) (h : Hw) : (rxSetEnable v h).rx = [] := by
  have r1 : (h.writeB (clearBit 4 h.readB)).rx = [] := by
    show (if isTrue 4 (clearBit 4 h.readB) then h.rx else []) = []
    rw [isTrue_bit 4 (by omega), bit_clear 4 (by omega)]
    simp
  cases v with
  | false => exact r1
  | true =>
    show (if _ then (h.writeB (clearBit 4 h.readB)).rx else []) = []
    rw [r1]; split <;> rfl

example : (rxSetEnable true { ucsrb := 0x10#8, rx := [⟨65, false, false, false⟩] }) = { ucsrb := 0x10#8 } := by decide +kernel

/-! ### C75 receive results -/

/-- A frame without errors. -/
def Frame.good (f : Frame) : Bool := !f.fe && !f.dor && !f.upe

/-- **C75.** TryRead without data reports NotReady and 0 and changes nothing. -/
theorem c75_notReady (h : Hw) (hr : h.rx = []) : tryRead h = ((false, 0, .notReady), h) := by
  unfold tryRead
  rw [complete_iff]
  simp [hr]

/-- **C75.** With data it removes the oldest frame, returns its value, and Success exactly when it has no error flag; the reported error is one it has. -/
theorem c75_tryRead (h : Hw) (f : Frame) (r : List Frame) (hr : h.rx = f :: r) (hf : f.data < 512) :
    ∃ res, tryRead h = ((true, if h.ucsrb.getLsbD 2 then f.data else f.data % 256, res), { h with rx := r }) ∧
      (res = .success ↔ Frame.good f = true) ∧ (res = .frameError → f.fe = true) ∧ (res = .parityError → f.upe = true) ∧ (res = .dataOverRun → f.dor = true) ∧
      res ≠ .notReady := by
  obtain ⟨a, b, c⟩ := flags h f r hr
  refine ⟨getResult h, ?_, ?_⟩
  · unfold tryRead
    rw [complete_iff, c57_read h f r hr hf]
    simp [hr]
  · unfold getResult Frame.good
    rw [a, b, c]
    cases f.fe <;> cases f.dor <;> cases f.upe <;> decide

example := c75_tryRead { ucsrb := 0x9C#8, rx := [⟨0x1A5, false, false, true⟩, ⟨7, false, false, false⟩] } _ _ rfl (by decide)

/-- **C75.** getHasError: frame or parity error of the oldest frame. -/
theorem c75_hasError (h : Hw) : getHasError h = (match h.rx with | f :: _ => f.fe || f.upe | [] => false) := by
  unfold getHasError Hw.readA
  cases h.rx with
  | nil => by_cases ht : h.tx = none <;> simp only [ht, if_true, if_false] <;> decide
  | cons f r =>
    obtain ⟨d, a, b, c⟩ := f
    by_cases ht : h.tx = none <;> simp only [ht, if_true, if_false] <;> cases a <;> cases b <;> cases c <;> decide

/-- **C75.** The blocking Read, whatever arrives when: it returns once there is a frame, removes exactly the oldest one and returns its value, or -1 if it has an error. -/
theorem c75_read (as : List (List Frame)) (h : Hw) (f : Frame) (r : List Frame) (has : as ≠ []) (hr : h.rx ++ as.flatten = f :: r) (hf : f.data < 512) :
    ∃ k rest, f :: rest = h.rx ++ (as.take k).flatten ∧
      rxRead as h = some (if Frame.good f then ((if h.ucsrb.getLsbD 2 then f.data else f.data % 256 : Nat) : Int) else -1, { h with rx := rest }) := by
  induction as generalizing h with
  | nil => exact absurd rfl has
  | cons a as ih =>
    unfold rxRead
    by_cases hn : h.rx ++ a = []
    · obtain ⟨h1, h2⟩ := List.append_eq_nil_iff.1 hn
      have e : ({ h with rx := h.rx ++ a } : Hw) = h := by rw [h2, List.append_nil]
      have c : rxComplete h = false := by rw [complete_iff]; simp [h1]
      have has' : as ≠ [] := by rintro rfl; simp [h1, h2] at hr
      obtain ⟨k, rest, h3, h4⟩ := ih h has' (by simpa [h2] using hr)
      refine ⟨k + 1, rest, by simpa [h2] using h3, ?_⟩
      simp only [e, c, Bool.false_eq_true, if_false]
      exact h4
    · cases hx : h.rx ++ a with
      | nil => exact absurd hx hn
      | cons f' rest =>
        have hff : f' = f := by
          rw [List.flatten_cons, ← List.append_assoc, hx] at hr
          injection hr
        subst hff
        have c : rxComplete { h with rx := f' :: rest } = true := by rw [complete_iff]; simp
        obtain ⟨x, y, z⟩ := flags { h with rx := f' :: rest } f' rest rfl
        have g : (getResult { h with rx := f' :: rest } ≠ .success) ↔ Frame.good f' = false := by
          unfold getResult Frame.good
          rw [x, y, z]
          cases f'.fe <;> cases f'.dor <;> cases f'.upe <;> decide
        refine ⟨1, rest, by simp [hx], ?_⟩
        simp only [c, if_true, c57_read { h with rx := f' :: rest } f' rest rfl hf, g]
        cases Frame.good f' <;> rfl

example := c75_read [[], [], [⟨65, false, false, true⟩, ⟨66, false, false, false⟩]] { ucsrb := 0x10#8 } ⟨65, false, false, true⟩ [⟨66, false, false, false⟩] (by decide) rfl (by decide)

/-- **C75.** The blocking Read that reports a result: the same, with the value also of a frame with an error, Success exactly for a frame without one. -/
theorem c75_readResult (as : List (List Frame)) (h : Hw) (f : Frame) (r : List Frame) (has : as ≠ []) (hr : h.rx ++ as.flatten = f :: r) (hf : f.data < 512) :
    ∃ k rest res, f :: rest = h.rx ++ (as.take k).flatten ∧
      rxReadResult as h = some (((if h.ucsrb.getLsbD 2 then f.data else f.data % 256 : Nat) : Int), res, { h with rx := rest }) ∧
      (res = .success ↔ Frame.good f = true) ∧ (res = .frameError → f.fe = true) ∧ (res = .parityError → f.upe = true) ∧ (res = .dataOverRun → f.dor = true) ∧
      res ≠ .notReady := by
  induction as generalizing h with
  | nil => exact absurd rfl has
  | cons a as ih =>
    unfold rxReadResult
    by_cases hn : h.rx ++ a = []
    · obtain ⟨h1, h2⟩ := List.append_eq_nil_iff.1 hn
      have e : ({ h with rx := h.rx ++ a } : Hw) = h := by rw [h2, List.append_nil]
      have c : rxComplete h = false := by rw [complete_iff]; simp [h1]
      have has' : as ≠ [] := by rintro rfl; simp [h1, h2] at hr
      obtain ⟨k, rest, res, h3, h4, h5⟩ := ih h has' (by simpa [h2] using hr)
      refine ⟨k + 1, rest, res, by simpa [h2] using h3, ?_, h5⟩
      simp only [e, c, Bool.false_eq_true, if_false]
      exact h4
    · cases hx : h.rx ++ a with
      | nil => exact absurd hx hn
      | cons f' rest =>
        have hff : f' = f := by
          rw [List.flatten_cons, ← List.append_assoc, hx] at hr
          injection hr
        subst hff
        have c : rxComplete { h with rx := f' :: rest } = true := by rw [complete_iff]; simp
        obtain ⟨x, y, z⟩ := flags { h with rx := f' :: rest } f' rest rfl
        refine ⟨1, rest, getResult { h with rx := f' :: rest }, by simp [hx], ?_, ?_⟩
        · simp only [c, if_true, c57_read { h with rx := f' :: rest } f' rest rfl hf]
        · unfold getResult Frame.good
          rw [x, y, z]
          cases f'.fe <;> cases f'.dor <;> cases f'.upe <;> decide

/-- Two polls without data, then a frame with a parity error and another one. -/
example : rxReadResult [[], [], [⟨65, false, false, true⟩, ⟨66, false, false, false⟩]] { ucsrb := 0x10#8 } =
    some (65, .parityError, { ucsrb := 0x10#8, rx := [⟨66, false, false, false⟩] }) := by decide +kernel

end Atl.Props
