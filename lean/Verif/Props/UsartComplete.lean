import Verif.Model.UsartComplete
import Verif.Props.UsartData
import Mathlib.Data.List.Induction

/-
  C112: the transmit complete functions of UsartTransmit.
-/
namespace Atl.Props

open Atl Atl.Usart

/-- All data has left: some was sent and nothing is on its way. -/
def AllSent (p : TxPort) : Prop := p.hw.line ≠ [] ∧ p.hw.shift = none ∧ p.hw.tx = none

/-- Nothing is on its way. -/
def NothingLeft (p : TxPort) : Prop := p.hw.shift = none ∧ p.hw.tx = none

theorem txc_bit (p : TxPort) : p.getIsComplete = p.txc := by
  have hk : ∀ a : BitVec 8, isTrue 6 (setBit 2 a) = isTrue 6 a ∧ isTrue 6 (setBit 3 a) = isTrue 6 a ∧ isTrue 6 (setBit 4 a) = isTrue 6 a ∧
      isTrue 6 (setBit 5 a) = isTrue 6 a ∧ isTrue 6 (setBit 7 a) = isTrue 6 a := by decide +kernel
  have h0 : isTrue 6 0#8 = false := by decide
  have h : isTrue 6 p.hw.readA = false := by
    unfold Hw.readA
    cases p.hw.rx with
    | nil => dsimp only; split <;> simp [hk, h0]
    | cons f r =>
      dsimp only
      split <;> split <;> split <;> split <;> simp [hk, h0]
  have hs : ∀ a : BitVec 8, isTrue 6 (setBit 6 a) = true := by decide +kernel
  unfold TxPort.getIsComplete TxPort.readA
  cases hx : p.txc
  · simpa using h
  · simpa using hs _

theorem udre_bit (p : TxPort) : p.getAcceptData = p.hw.tx.isNone := by
  have h : isTrue 5 p.hw.readA = p.hw.tx.isNone := by
    have := accept_iff p.hw
    unfold Usart.getAcceptData at this
    rw [this]
    cases p.hw.tx <;> simp
  have hs : ∀ a : BitVec 8, isTrue 5 (setBit 6 a) = isTrue 5 a := by decide +kernel
  unfold TxPort.getAcceptData TxPort.readA
  cases p.txc
  · simpa using h
  · simpa [hs] using h

theorem wi_fields (v : Nat) (h : Hw) (ht : h.tx = none) :
    (writeInternal v h).tx.isSome ∧ (writeInternal v h).shift = h.shift ∧ (writeInternal v h).line = h.line := by
  have hb : ∀ i w, (h.bitB i w).tx = h.tx ∧ (h.bitB i w).shift = h.shift ∧ (h.bitB i w).line = h.line := by
    intro i w; cases w <;> simp [Hw.bitB, Hw.writeB]
  unfold writeInternal Hw.writeUDR
  by_cases h9 : is9 h
  · obtain ⟨b1, b2, b3⟩ := hb 0 (v.testBit 8)
    simp only [h9, if_true, b1, ht]
    exact ⟨rfl, b2, b3⟩
  · simp [h9, ht]

/-- The flag can only be set by a frame end. -/
theorem step_txc (p : TxPort) (e : TxPort.Ev) :
    (p.step e).txc = (p.txc || (decide (e = .frame) && p.hw.shift.isSome && p.hw.tx.isNone)) := by
  cases e with
  | tryWrite v =>
    simp only [TxPort.step, TxPort.tryWrite]
    split <;> simp
  | frame => simp [TxPort.step, TxPort.frame]
  | load => simp [TxPort.step, TxPort.load]

theorem run_snoc (p : TxPort) (es : List TxPort.Ev) (e : TxPort.Ev) : p.run (es ++ [e]) = (p.run es).step e := by
  simp [TxPort.run]

/-- Nothing of the line is taken back, and a transmitter that has run dry shows what it sent. -/
theorem dry_line (b : BitVec 8) (es : List TxPort.Ev) :
    AllSent ((TxPort.reset b).run es) →
      ((TxPort.reset b).run es).txc = true := by
  induction es using List.reverseRecOn with
  | nil => intro h; exact absurd rfl h.1
  | append_singleton es e ih =>
    rw [run_snoc, step_txc]
    generalize (TxPort.reset b).run es = p at ih
    rintro ⟨h1, h2, h3⟩
    cases e with
    | tryWrite v =>
      simp only [TxPort.step, TxPort.tryWrite, udre_bit] at h1 h2 h3
      cases ht : p.hw.tx with
      | none =>
        obtain ⟨w1, w2, w3⟩ := wi_fields v.toNat p.hw ht
        simp only [ht, Option.isNone_none, Bool.not_true, Bool.false_eq_true, if_false] at h3
        rw [h3] at w1; cases w1
      | some x =>
        simp only [ht, Option.isNone_some, Bool.not_false, if_true, reduceCtorEq] at h3
    | frame =>
      simp only [TxPort.step, TxPort.frame, Hw.frameTime] at h1 h2 h3
      rw [h2]
      cases hs : p.hw.shift with
      | some x => simp
      | none =>
        have : AllSent p := ⟨by rw [hs] at h1; simpa using h1, hs, h2⟩
        simp [ih this]
    | load =>
      simp only [TxPort.step, TxPort.load, Hw.load] at h1 h2 h3
      by_cases hs : p.hw.shift = none
      · simp only [hs, if_true] at h1 h2 h3
        simp [ih ⟨h1, hs, h2⟩]
      · rw [if_neg hs] at h2; exact absurd h2 hs

/-- **C112 (what the flag says).** In every history of TryWrite calls and transmissions since reset, getIsComplete is true exactly if at some moment, now or
    before, everything written up to then had been sent. -/
theorem c112_flag (b : BitVec 8) (es : List TxPort.Ev) :
    ((TxPort.reset b).run es).getIsComplete = true ↔ ∃ n, AllSent ((TxPort.reset b).run (es.take n)) := by
  rw [txc_bit]
  constructor
  · intro h
    induction es using List.reverseRecOn with
    | nil => simp [TxPort.run, TxPort.reset] at h
    | append_singleton es e ih =>
      rw [run_snoc, step_txc, Bool.or_eq_true] at h
      rcases h with h | h
      · obtain ⟨n, hn⟩ := ih h
        refine ⟨min n es.length, ?_⟩
        rw [List.take_append_of_le_length (by omega)]
        by_cases hl : n ≤ es.length
        · rw [Nat.min_eq_left hl]; exact hn
        · rw [Nat.min_eq_right (by omega), List.take_length]
          rwa [List.take_of_length_le (by omega)] at hn
      · simp only [Bool.and_eq_true, decide_eq_true_eq] at h
        obtain ⟨⟨rfl, h1⟩, h2⟩ := h
        refine ⟨es.length + 1, ?_⟩
        rw [List.take_of_length_le (by simp), run_snoc]
        obtain ⟨x, hx⟩ := Option.isSome_iff_exists.1 h1
        refine ⟨?_, ?_, rfl⟩
        · simp [TxPort.step, TxPort.frame, Hw.frameTime, hx]
        · simpa [TxPort.step, TxPort.frame, Hw.frameTime] using h2
  · rintro ⟨n, hn⟩
    have h := dry_line b _ hn
    have mono : ∀ (es : List TxPort.Ev) (p : TxPort), p.txc = true → (p.run es).txc = true := by
      intro es
      induction es with
      | nil => intro p h; exact h
      | cons e es ih => intro p h; exact ih _ (by rw [step_txc, h]; rfl)
    have hsplit : (TxPort.reset b).run es = ((TxPort.reset b).run (es.take n)).run (es.drop n) := by
      unfold TxPort.run
      rw [← List.foldl_append, List.take_append_drop]
    rw [hsplit]
    exact mono _ _ h

/-- C112 in full: getIsComplete tells whether everything written has been sent. -/
def C112Full (b : BitVec 8) : Prop :=
  ∀ es : List TxPort.Ev, ((TxPort.reset b).run es).getIsComplete = true ↔ NothingLeft ((TxPort.reset b).run es)

/-- **C112, partial.** While the flag is clear and something is to be sent, WaitIsComplete returns after at most two frame times, exactly
    when everything written is on the line.  Missing: a flag left over from earlier data, and nothing to be sent at all. -/
theorem c112_wait_partial (p : TxPort) (hc : p.txc = false) (hs : ¬ NothingLeft p) (n : Nat) :
    ∃ p', TxPort.waitIsComplete (n + 3) p = some p' ∧ NothingLeft p' ∧
      p'.hw.line = p.hw.line ++ p.hw.shift.toList ++ p.hw.tx.toList := by
  have unfold3 : ∀ f q, TxPort.waitIsComplete (f + 1) q = if q.txc then some q else TxPort.waitIsComplete f q.frame := by
    intro f q; rw [TxPort.waitIsComplete, txc_bit]
  rw [unfold3, hc, if_neg (by simp), unfold3]
  cases hshift : p.hw.shift with
  | some x =>
    cases htx : p.hw.tx with
    | none =>
      refine ⟨p.frame, ?_, ?_, ?_⟩
      · simp [TxPort.frame, hshift, htx]
      · simp [NothingLeft, TxPort.frame, Hw.frameTime, htx]
      · simp [TxPort.frame, Hw.frameTime, hshift]
    | some y =>
      have h1 : p.frame.txc = false := by simp [TxPort.frame, hc, htx]
      rw [h1, if_neg (by simp), unfold3]
      refine ⟨p.frame.frame, ?_, ?_, ?_⟩
      · simp [TxPort.frame, Hw.frameTime, htx]
      · simp [NothingLeft, TxPort.frame, Hw.frameTime]
      · simp [TxPort.frame, Hw.frameTime, hshift, htx]
  | none =>
    cases htx : p.hw.tx with
    | none => exact absurd ⟨hshift, htx⟩ hs
    | some y =>
      have h1 : p.frame.txc = false := by simp [TxPort.frame, hc, htx]
      rw [h1, if_neg (by simp), unfold3]
      refine ⟨p.frame.frame, ?_, ?_, ?_⟩
      · simp [TxPort.frame, Hw.frameTime, htx]
      · simp [NothingLeft, TxPort.frame, Hw.frameTime]
      · simp [TxPort.frame, Hw.frameTime, hshift, htx]

example := c112_wait_partial ⟨{ ucsrb := 0x08#8, shift := some 7, tx := some 8 }, false⟩ rfl (by simp [NothingLeft]) 5

/-- **C112.** The blocking Write waits for room and then hands its data over, all nine bits in nine-bit mode and eight otherwise: nothing is lost, and it
    returns after at most one frame time. Nothing received and no control bit but the ninth data bit is disturbed. -/
theorem c112_write (p : TxPort) (hw : Wf p.hw) (data n : Nat) :
    ∃ p', TxPort.write (n + 2) data p = some p' ∧ p'.hw.tx = some (if p.hw.ucsrb.getLsbD 2 then data % 512 else data % 256) ∧
      p'.hw.line ++ p'.hw.shift.toList = p.hw.line ++ p.hw.shift.toList ++ p.hw.tx.toList ∧
      (∀ j, j ≠ 0 → j ≠ 1 → p'.hw.ucsrb.getLsbD j = p.hw.ucsrb.getLsbD j) ∧ p'.hw.rx = p.hw.rx := by
  unfold TxPort.write
  rw [TxPort.waitAcceptData, udre_bit]
  cases htx : p.hw.tx with
  | none =>
    obtain ⟨w1, w2, _, w4, w5, w6⟩ := c57_write data p.hw hw htx
    exact ⟨_, rfl, w1, by simp [w5, w6], w2, w4⟩
  | some y =>
    simp only [Option.isNone_some, Bool.false_eq_true, if_false]
    rw [TxPort.waitAcceptData, udre_bit]
    have hn : p.frame.hw.tx = none := rfl
    obtain ⟨w1, w2, _, w4, w5, w6⟩ := c57_write data p.frame.hw hw hn
    refine ⟨{ p.frame with hw := writeInternal data p.frame.hw }, by simp [hn], w1, ?_, w2, w4⟩
    show (writeInternal data p.frame.hw).line ++ (writeInternal data p.frame.hw).shift.toList = _
    rw [w5, w6]
    simp [TxPort.frame, Hw.frameTime, htx]

example := c112_write ⟨{ ucsrb := 0x1C#8, shift := some 7, tx := some 8 }, false⟩ (.inl (by decide)) 0x1A5 5

/-- **C112.** Any sequence of blocking writes, followed by two more frame times: the values are on the line in the order written, behind what was
    there before; nothing is lost, repeated or changed (but for the ninth bit in eight-bit mode). -/
theorem c112_writes (data : List Nat) (n : Nat) (p : TxPort) (hw : Wf p.hw) :
    ∃ p', data.foldlM (fun p v => TxPort.write (n + 2) v p) p = some p' ∧
      p'.hw.line ++ p'.hw.shift.toList ++ p'.hw.tx.toList = p.hw.line ++ p.hw.shift.toList ++ p.hw.tx.toList ++
        data.map (fun v => if p.hw.ucsrb.getLsbD 2 then v % 512 else v % 256) ∧
      p'.frame.frame.hw.line = p.hw.line ++ p.hw.shift.toList ++ p.hw.tx.toList ++
        data.map (fun v => if p.hw.ucsrb.getLsbD 2 then v % 512 else v % 256) := by
  induction data generalizing p with
  | nil => exact ⟨p, rfl, by simp, by simp [TxPort.frame, Hw.frameTime]⟩
  | cons v l ih =>
    obtain ⟨q, hq, q1, q2, q3, q4⟩ := c112_write p hw v n
    obtain ⟨p', hp, h1, h2⟩ := ih q (by unfold Wf; rw [q3 4 (by omega) (by omega), q4]; exact hw)
    refine ⟨p', ?_, ?_, ?_⟩
    · rw [List.foldlM_cons, hq]; exact hp
    · rw [h1, q2, q1, q3 2 (by omega) (by omega)]; simp
    · rw [h2, q2, q1, q3 2 (by omega) (by omega)]; simp

/-- Three values in nine-bit mode, written while a frame is being sent. -/
example : ((([0x1A5, 0x42, 0x100] : List Nat).foldlM (fun p v => TxPort.write 2 v p)
    ⟨{ ucsrb := 0x0C#8, shift := some 7, tx := some 8 }, false⟩).map fun p => p.frame.frame.hw.line) = some [7, 8, 0x1A5, 0x42, 0x100] := by
  decide +kernel

/-- **C112 fails (1)**: once something has been sent the flag stays set; nothing in the class clears it.  After any later Write
    WaitIsComplete returns at once, with the data still in the transmitter. -/
theorem c112_stale_fails (p : TxPort) (hf : Wf p.hw) (hc : p.txc = true) (v n : Nat) (p' : TxPort) (hw : TxPort.write (n + 2) v p = some p') (m : Nat) :
    TxPort.waitIsComplete (m + 1) p' = some p' ∧ p'.getIsComplete = true ∧ ¬ NothingLeft p' := by
  obtain ⟨q, hq, h1, _⟩ := c112_write p hf v n
  have he : p' = q := by rw [hw] at hq; exact Option.some.inj hq
  subst he
  have hcw : ∀ f q r, TxPort.waitAcceptData f q = some r → q.txc = true → r.txc = true := by
    intro f
    induction f with
    | zero => intro q r h; cases h
    | succ f ih =>
      intro q r h hq
      rw [TxPort.waitAcceptData] at h
      split at h
      · cases h; exact hq
      · exact ih _ _ h (by simp [TxPort.frame, hq])
  have ht : p'.txc = true := by
    unfold TxPort.write at hw
    rw [Option.map_eq_some_iff] at hw
    obtain ⟨r, hr, rfl⟩ := hw
    exact (hcw _ _ r hr hc : r.txc = true)
  refine ⟨?_, by rw [txc_bit, ht], ?_⟩
  · rw [TxPort.waitIsComplete, txc_bit, ht]; rfl
  · rintro ⟨_, h⟩; rw [h] at h1; cases h1

/-- **C112 fails (2)**: with nothing to send WaitIsComplete never returns after reset. -/
theorem c112_nothing_fails (b : BitVec 8) (n : Nat) : TxPort.waitIsComplete n (TxPort.reset b) = none := by
  have : ∀ n (p : TxPort), p.txc = false → p.hw.shift = none → p.hw.tx = none → TxPort.waitIsComplete n p = none := by
    intro n
    induction n with
    | zero => intro p _ _ _; rfl
    | succ n ih =>
      intro p h1 h2 h3
      rw [TxPort.waitIsComplete, txc_bit, h1, if_neg (by simp)]
      exact ih _ (by simp [TxPort.frame, h1, h2]) (by simp [TxPort.frame, Hw.frameTime, h3]) rfl
  exact this n _ rfl rfl rfl

/-- **C112 fails (3)**: with the transmit complete interrupt enabled its execution clears the flag, and WaitIsComplete in main code waits
    for ever although everything has been sent. -/
theorem c112_interrupt_fails (p : TxPort) (hi : isTrue 6 p.hw.ucsrb = true) (hn : NothingLeft p) (n : Nat) :
    p.vector.getIsComplete = false ∧ TxPort.waitIsComplete n p.vector = none := by
  have hf : p.vector.txc = false ∧ p.vector.hw = p.hw := by
    unfold TxPort.vector
    cases h : p.txc <;> simp [hi, h]
  have : ∀ n (p : TxPort), p.txc = false → p.hw.shift = none → p.hw.tx = none → TxPort.waitIsComplete n p = none := by
    intro n
    induction n with
    | zero => intro p _ _ _; rfl
    | succ n ih =>
      intro p h1 h2 h3
      rw [TxPort.waitIsComplete, txc_bit, h1, if_neg (by simp)]
      exact ih _ (by simp [TxPort.frame, h1, h2]) (by simp [TxPort.frame, Hw.frameTime, h3]) rfl
  exact ⟨by rw [txc_bit, hf.1], this n _ hf.1 (by rw [hf.2]; exact hn.1) (by rw [hf.2]; exact hn.2)⟩

theorem c112_full_claim_is_false (b : BitVec 8) : ¬ C112Full b := by
  intro h
  have := (h []).2 ⟨rfl, rfl⟩
  rw [txc_bit] at this
  cases this

/-- A first byte is sent completely, a second one written: the flag is true all the same. -/
example : let p := (TxPort.reset 0x08#8).run [.tryWrite 0x41#8, .load, .frame, .tryWrite 0x42#8, .load]
    p.hw.line = [0x41] ∧ p.hw.shift = some 0x42 ∧ p.getIsComplete = true ∧ (TxPort.waitIsComplete 1 p) = some p := by decide +kernel

/-! ### With the transmit complete interrupt, and the result of TryWrite -/

/-- One event, or (`none`) a chance for the interrupt to be executed. -/
def stepV (p : TxPort) : Option TxPort.Ev → TxPort
  | some e => p.step e
  | none => p.vector

/-- A history with interrupts. -/
def runV (p : TxPort) (es : List (Option TxPort.Ev)) : TxPort := es.foldl stepV p

theorem runV_snoc (p : TxPort) (es : List (Option TxPort.Ev)) (e : Option TxPort.Ev) : runV p (es ++ [e]) = stepV (runV p es) e := by
  simp [runV]

/-- The interrupt enable bit is not changed. -/
theorem stepV_enable (p : TxPort) (e : Option TxPort.Ev) : isTrue 6 (stepV p e).hw.ucsrb = isTrue 6 p.hw.ucsrb := by
  have hr : ∀ h : Hw, isTrue 6 h.readB = isTrue 6 h.ucsrb := by
    have k : ∀ a : BitVec 8, isTrue 6 (clearBit 1 a) = isTrue 6 a ∧ isTrue 6 (setBit 1 (clearBit 1 a)) = isTrue 6 a := by decide +kernel
    intro h; unfold Hw.readB; split
    · split <;> simp only [k]
    · exact (k _).1
  have k0 : ∀ a : BitVec 8, isTrue 6 (clearBit 0 a) = isTrue 6 a ∧ isTrue 6 (setBit 0 a) = isTrue 6 a := by decide +kernel
  have hb : ∀ (h : Hw) w, isTrue 6 (h.bitB 0 w).ucsrb = isTrue 6 h.ucsrb := by
    intro h w; cases w
    · simp only [Hw.bitB, Hw.writeB, k0, hr, Bool.false_eq_true, if_false]
    · simp only [Hw.bitB, Hw.writeB, k0, hr, if_true]
  have hu : ∀ (h : Hw) v, isTrue 6 (h.writeUDR v).ucsrb = isTrue 6 h.ucsrb := by
    intro h v; unfold Hw.writeUDR; split <;> rfl
  cases e with
  | none => simp only [stepV, TxPort.vector]; split <;> rfl
  | some e =>
    cases e with
    | tryWrite v =>
      simp only [stepV, TxPort.step, TxPort.tryWrite]
      split
      · rfl
      · show isTrue 6 (writeInternal v.toNat p.hw).ucsrb = _
        unfold writeInternal
        split
        · rw [hu, hb]
        · rw [hu]
    | frame => rfl
    | load =>
      simp only [stepV, TxPort.step, TxPort.load, Hw.load]
      split <;> rfl

/-- At this event the last frame leaves: there was one in the shift register and now all is sent. -/
def LastLeaves (p p' : TxPort) : Prop := p.hw.shift.isSome ∧ AllSent p'

theorem step_leaves (p : TxPort) (e : TxPort.Ev) : (p.step e).txc = true ↔ p.txc = true ∨ LastLeaves p (p.step e) := by
  rw [step_txc]
  cases e with
  | tryWrite v =>
    simp only [reduceCtorEq, decide_false, Bool.false_and, Bool.or_false]
    constructor
    · exact Or.inl
    · rintro (h | ⟨h1, -, h2, -⟩)
      · exact h
      · simp only [TxPort.step, TxPort.tryWrite, udre_bit] at h2
        cases ht : p.hw.tx with
        | none =>
          simp only [ht, Option.isNone_none, Bool.not_true, Bool.false_eq_true, if_false] at h2
          rw [(wi_fields v.toNat p.hw ht).2.1] at h2
          rw [h2] at h1; cases h1
        | some x =>
          simp only [ht, Option.isNone_some, Bool.not_false, if_true] at h2
          rw [h2] at h1; cases h1
  | frame =>
    simp only [decide_true, Bool.true_and, Bool.or_eq_true, Bool.and_eq_true, LastLeaves, AllSent]
    constructor
    · rintro (h | ⟨h1, h2⟩)
      · exact Or.inl h
      · obtain ⟨x, hx⟩ := Option.isSome_iff_exists.1 h1
        exact Or.inr ⟨h1, by simp [TxPort.step, TxPort.frame, Hw.frameTime, hx], by simpa [TxPort.step, TxPort.frame, Hw.frameTime] using h2,
          by simp [TxPort.step, TxPort.frame, Hw.frameTime]⟩
    · rintro (h | ⟨h1, -, h2, -⟩)
      · exact Or.inl h
      · exact Or.inr ⟨h1, by simpa [TxPort.step, TxPort.frame, Hw.frameTime] using h2⟩
  | load =>
    simp only [reduceCtorEq, decide_false, Bool.false_and, Bool.or_false]
    constructor
    · exact Or.inl
    · rintro (h | ⟨h1, -, h2, -⟩)
      · exact h
      · simp only [TxPort.step, TxPort.load, Hw.load] at h2
        obtain ⟨x, hx⟩ := Option.isSome_iff_exists.1 h1
        simp [hx] at h2

/-- **C112 (what the flag says, with interrupts).** In every history since reset of TryWrite calls, transmissions and chances for the transmit complete interrupt, getIsComplete is true
    exactly if at some event everything written up to then left, and since then the interrupt was not executed: not enabled, or no chance. -/
theorem c112_flag_interrupt (b : BitVec 8) (es : List (Option TxPort.Ev)) :
    (runV (TxPort.reset b) es).getIsComplete = true ↔
      ∃ n < es.length, LastLeaves (runV (TxPort.reset b) (es.take n)) (runV (TxPort.reset b) (es.take (n + 1))) ∧ (b.getLsbD 6 = true → none ∉ es.drop (n + 1)) := by
  rw [txc_bit]
  have hen : isTrue 6 (runV (TxPort.reset b) es).hw.ucsrb = b.getLsbD 6 := by
    induction es using List.reverseRecOn with
    | nil => exact isTrue_bit 6 (by omega) b
    | append_singleton es e ih => rw [runV_snoc, stepV_enable, ih]
  induction es using List.reverseRecOn with
  | nil => simp [runV, TxPort.reset]
  | append_singleton es e ih =>
    rw [runV_snoc, stepV_enable] at hen
    have old : ∀ n < es.length, (es ++ [e]).take n = es.take n ∧ (es ++ [e]).take (n + 1) = es.take (n + 1) ∧ (es ++ [e]).drop (n + 1) = es.drop (n + 1) ++ [e] := by
      intro n hn
      exact ⟨List.take_append_of_le_length (by omega), List.take_append_of_le_length (by omega), List.drop_append_of_le_length (by omega)⟩
    have new : (es ++ [e]).take es.length = es ∧ (es ++ [e]).take (es.length + 1) = es ++ [e] ∧ (es ++ [e]).drop (es.length + 1) = [] :=
      ⟨by simp, List.take_of_length_le (by simp), List.drop_of_length_le (by simp)⟩
    have ih := ih hen
    rw [runV_snoc]
    constructor
    · intro h
      have : (runV (TxPort.reset b) es).txc = true ∧ (b.getLsbD 6 = true → e ≠ none) ∨ LastLeaves (runV (TxPort.reset b) es) (stepV (runV (TxPort.reset b) es) e) := by
        cases e with
        | none =>
          refine Or.inl ?_
          rw [← hen]
          simp only [stepV, TxPort.vector] at h
          split at h
          · cases h
          · next hh => exact ⟨h, fun h6 => absurd (by rw [h6, h]; rfl) hh⟩
        | some e =>
          rcases (step_leaves _ _).1 h with h | h
          · exact Or.inl ⟨h, by simp⟩
          · exact Or.inr h
      rcases this with ⟨h1, h2⟩ | h1
      · obtain ⟨n, hn, a, c⟩ := ih.1 h1
        obtain ⟨o1, o2, o3⟩ := old n hn
        refine ⟨n, by simp; omega, by rw [o1, o2]; exact a, fun h6 => ?_⟩
        rw [o3]
        intro hm
        rcases List.mem_append.1 hm with hm | hm
        · exact c h6 hm
        · exact h2 h6 (List.mem_singleton.1 hm).symm
      · exact ⟨es.length, by simp, by rw [new.1, new.2.1, runV_snoc]; exact h1, by rw [new.2.2]; simp⟩
    · rintro ⟨n, hn, a, c⟩
      by_cases hl : n < es.length
      · obtain ⟨o1, o2, o3⟩ := old n hl
        rw [o1, o2] at a
        rw [o3] at c
        have ht := ih.2 ⟨n, hl, a, fun h6 hm => c h6 (List.mem_append.2 (Or.inl hm))⟩
        cases e with
        | none =>
          have h6 : ¬ b.getLsbD 6 = true := fun h6 => c h6 (by simp)
          simp only [stepV, TxPort.vector, hen, Bool.not_eq_true _ ▸ h6, Bool.false_and, Bool.false_eq_true, if_false]
          exact ht
        | some e => exact (step_leaves _ _).2 (Or.inl ht)
      · have : n = es.length := by simp at hn; omega
        subst this
        rw [new.1, new.2.1, runV_snoc] at a
        cases e with
        | none =>
          have h1 := a.1
          have h2 := a.2.2.1
          have : (stepV (runV (TxPort.reset b) es) none).hw = (runV (TxPort.reset b) es).hw := by
            simp only [stepV, TxPort.vector]; split <;> rfl
          rw [this] at h2
          rw [h2] at h1
          cases h1
        | some e => exact (step_leaves _ _).2 (Or.inr a)

/-- The interrupt is enabled and executed between two bytes: the flag is false until the second has left. -/
example : (runV (TxPort.reset 0x48#8) [some (.tryWrite 65#8), some .load, some .frame, none, some (.tryWrite 66#8), some .load]).getIsComplete = false ∧
    (runV (TxPort.reset 0x48#8) [some (.tryWrite 65#8), some .load, some .frame, none, some (.tryWrite 66#8), some .load, some .frame]).getIsComplete = true := by decide +kernel

/-- **C112 (TryWrite).** It returns true exactly if the transmit buffer was free, and then the data is in it; otherwise nothing is changed. -/
theorem c112_try (data : Nat) (p : TxPort) :
    ((p.tryWrite data).2 = true ↔ p.hw.tx = none) ∧ ((p.tryWrite data).2 = false → (p.tryWrite data).1 = p) ∧
    ((p.tryWrite data).2 = true → (p.tryWrite data).1.txc = p.txc ∧ (p.tryWrite data).1.hw = writeInternal data p.hw ∧ (p.tryWrite data).1.hw.tx.isSome) := by
  unfold TxPort.tryWrite
  rw [udre_bit]
  cases h : p.hw.tx with
  | none => simpa using (wi_fields data p.hw h).1
  | some x => simp

example : ((TxPort.reset 0x08#8).tryWrite 65).2 = true ∧ (((TxPort.reset 0x08#8).tryWrite 65).1.tryWrite 66).2 = false := by decide +kernel

end Atl.Props
