import Verif.Proof.Bits
/- Property theorems C05-C08: BitArray, Bit, BitFlag. -/
namespace Atl.Props
open Atl.Bits

/-- **C05.** A field that fits is replaced exactly: bit `j` of the result is bit `j - idx` of `value` inside the field
    and the old bit outside.  `Set` reports success and no undefined behaviour occurs.
    (`hub` excludes only the empty field at the very end of a word at least as wide as `int`.) -/
theorem c05_set_field (W : Nat) {n : Nat} (bits value : BitVec n) (idx cnt : Nat)
    (hfit : idx + cnt ≤ n) (hub : idx < n ∨ n < W) :
    ∃ r, BitArray.setField W bits idx value cnt = .ok (r, true) ∧
      ∀ j, j < n → r.getLsbD j =
        if idx ≤ j ∧ j < idx + cnt then value.getLsbD (j - idx) else bits.getLsbD j := by
  have h0 : idx < max n W := by omega
  refine ⟨(bits &&& ~~~(BitArray.createMask n cnt <<< idx)) |||
    ((value &&& BitArray.createMask n cnt) <<< idx), ?_, ?_⟩
  · simp only [BitArray.setField, BitArray.isValidIndex, hfit, decide_true, Bool.not_true,
      Bool.false_eq_true, if_false,
      shlT_ok _ idx cnt (createMask_lt n cnt (by omega)) hfit h0,
      shlT_ok _ idx cnt (and_createMask_lt value cnt (by omega)) hfit h0, Res.bind_ok]
  · intro j hj
    simp only [BitVec.getLsbD_or, BitVec.getLsbD_and, BitVec.getLsbD_not, BitVec.getLsbD_shiftLeft, hj,
      decide_true, Bool.true_and]
    by_cases h1 : j < idx
    · have : ¬ (idx ≤ j ∧ j < idx + cnt) := by omega
      simp [h1, this]
    · rw [createMask_bit n cnt (j - idx) (by omega)]
      by_cases h2 : j < idx + cnt
      · have a : idx ≤ j ∧ j < idx + cnt := by omega
        have b : j - idx < cnt := by omega
        simp [h1, a, b]
      · have a : ¬ (idx ≤ j ∧ j < idx + cnt) := by omega
        have b : ¬ j - idx < cnt := by omega
        simp [h1, a, b]

example := c05_set_field 16 (0xA5#8) 0b110#8 5 3 (by decide) (by decide)

/-- **C05.** Reading a field that fits returns its bits shifted down, zero above. -/
theorem c05_get_field (W : Nat) {n : Nat} (bits : BitVec n) (idx cnt : Nat)
    (hfit : idx + cnt ≤ n) (hub : idx < n ∨ n < W) :
    ∃ r, BitArray.getField W bits idx cnt = .ok r ∧
      ∀ j, j < n → r.getLsbD j = (decide (j < cnt) && bits.getLsbD (idx + j)) := by
  have h0 : idx < max n W := by omega
  refine ⟨(bits &&& (BitArray.createMask n cnt <<< idx)) >>> idx, ?_, ?_⟩
  · simp only [BitArray.getField, BitArray.isValidIndex, hfit, decide_true, Bool.not_true,
      Bool.false_eq_true, if_false,
      shlT_ok _ idx cnt (createMask_lt n cnt (by omega)) hfit h0, Res.bind_ok, shrT, if_pos h0]
  · intro j hj
    simp only [BitVec.getLsbD_ushiftRight, BitVec.getLsbD_and, BitVec.getLsbD_shiftLeft]
    by_cases h1 : idx + j < n
    · have : ¬ (idx + j < idx) := by omega
      simp only [h1, this, Nat.add_sub_cancel_left, createMask_bit n cnt j hj, decide_true,
        decide_false, Bool.not_false, Bool.true_and]
      rw [Bool.and_comm]
    · have : bits.getLsbD (idx + j) = false := BitVec.getLsbD_of_ge _ _ (by omega)
      simp [this]

example := c05_get_field 16 (0xFEC0#16) 6 4 (by decide) (by decide)

/-- **C05 (round trip).** `Get` after `Set` of the same field returns the low `cnt` bits of the value. -/
theorem c05_get_after_set (W : Nat) {n : Nat} (bits value : BitVec n) (idx cnt : Nat)
    (hfit : idx + cnt ≤ n) (hub : idx < n ∨ n < W) :
    ∃ r g, BitArray.setField W bits idx value cnt = .ok (r, true) ∧
      BitArray.getField W r idx cnt = .ok g ∧ g.toNat = value.toNat % 2 ^ cnt := by
  obtain ⟨r, hr, hbits⟩ := c05_set_field W bits value idx cnt hfit hub
  obtain ⟨g, hg, hgb⟩ := c05_get_field W r idx cnt hfit hub
  refine ⟨r, g, hr, hg, ?_⟩
  apply Nat.eq_of_testBit_eq
  intro j
  rw [Nat.testBit_mod_two_pow, BitVec.testBit_toNat, BitVec.testBit_toNat]
  by_cases hj : j < n
  · rw [hgb j hj]
    by_cases hc : j < cnt
    · have hin : idx + j < n := by omega
      rw [hbits _ hin, if_pos (by omega)]
      simp
    · simp [hc]
  · rw [BitVec.getLsbD_of_ge _ _ (by omega), BitVec.getLsbD_of_ge _ _ (by omega)]
    simp

example := c05_get_after_set 16 (0xFF00#16) 0b11011#16 6 4 (by decide) (by decide)

/-- **C05 (rejection).** A field that does not fit: `Set` reports failure and changes nothing, `Get` returns 0. -/
theorem c05_reject (W : Nat) {n : Nat} (bits value : BitVec n) (idx cnt : Nat)
    (h : ¬ idx + cnt ≤ n) :
    BitArray.setField W bits idx value cnt = .ok (bits, false) ∧
    BitArray.getField W bits idx cnt = .ok 0 := by
  simp [BitArray.setField, BitArray.getField, BitArray.isValidIndex, h]

example := c05_reject 16 (0xA5#8) 0b110#8 6 3 (by decide)

/-- The excluded point is real: `Set(32, v, 0)` on a 32-bit array shifts by the full width. -/
theorem c05_empty_field_at_end_is_ub :
    BitArray.setField 16 (0#32) 32 0#32 0 = .ub ∧ BitArray.setField 32 (0#32) 32 0#32 0 = .ub := by
  decide

example : BitArray.setField 16 (0xFF00#16) 6 0b1011#16 4 = .ok (0xFEC0#16, true) := by decide
example : BitArray.setField 16 (0xA5#8) 5 0b110#8 3 = .ok (0xC5#8, true) := by decide

/-- **C06, partial.** Where `1 << i` can represent the bit (`n ≤ W`, or `i < W-1`), every single-bit operation affects
    or reports exactly bit `i`.  Missing: 32-bit words on AVR from bit 15 on (see the `_fails` theorems). -/
theorem c06_single_bit_partial (W : Nat) {n : Nat} (bits : BitVec n) (i : Nat) (hi : i < n)
    (hW : n ≤ W ∨ i + 1 < W) :
    (∃ r, BitArray.set W bits i = .ok (r, true) ∧
      ∀ j, j < n → r.getLsbD j = if j = i then true else bits.getLsbD j) ∧
    (∃ r, BitArray.reset W bits i = .ok (r, true) ∧
      ∀ j, j < n → r.getLsbD j = if j = i then false else bits.getLsbD j) ∧
    (∀ v, ∃ r, BitArray.setBool W bits i v = .ok (r, true) ∧
      ∀ j, j < n → r.getLsbD j = if j = i then v else bits.getLsbD j) ∧
    BitArray.isTrue W bits i = .ok (bits.getLsbD i) ∧
    BitArray.isFalse W bits i = .ok (!bits.getLsbD i) := by
  have hm : MaskOk W n i := ⟨hi, hW⟩
  have hiW := hm.ltW
  have hv : BitArray.isValidIndex n i 1 = true := by simp [BitArray.isValidIndex]; omega
  refine ⟨⟨bits ||| intToT n (1#W <<< i), ?_, ?_⟩, ⟨bits &&& intToT n (~~~(1#W <<< i)), ?_, ?_⟩,
    fun v => ⟨if v = true then (bits &&& ~~~(intToT n (1#W <<< i))) ||| intToT n (1#W <<< i)
      else bits &&& ~~~(intToT n (1#W <<< i)), ?_, ?_⟩, ?_, ?_⟩
  · simp only [BitArray.set, hv, Bool.not_true, Bool.false_eq_true, if_false, shlOne_ok hiW, Res.bind_ok]
  · intro j hj
    simp only [BitVec.getLsbD_or, mask_bit hm j hj]
    by_cases h : j = i <;> simp [h]
  · simp only [BitArray.reset, hv, Bool.not_true, Bool.false_eq_true, if_false, shlOne_ok hiW, Res.bind_ok]
  · intro j hj
    simp only [BitVec.getLsbD_and, maskNot_bit hm j hj]
    by_cases h : j = i <;> simp [h]
  · simp only [BitArray.setBool, hv, Bool.not_true, Bool.false_eq_true, if_false, shlOne_ok hiW, Res.bind_ok]
  · intro j hj
    have hmj := mask_bit hm j hj
    cases v
    all_goals simp only [Bool.false_eq_true, if_false, if_true, BitVec.getLsbD_or,
        BitVec.getLsbD_and, BitVec.getLsbD_not, hmj, hj]
    all_goals by_cases h : j = i <;> simp [h]
  · simp only [BitArray.isTrue, hv, Bool.not_true, Bool.false_eq_true, if_false, shlOne_ok hiW, Res.bind_ok,
      Res.ok.injEq]
    exact andGt0_eq bits hm
  · simp only [BitArray.isFalse, hv, Bool.not_true, Bool.false_eq_true, if_false, shlOne_ok hiW, Res.bind_ok,
      Res.ok.injEq]
    exact andEq0_eq bits hm

/-- **C06 (rejection).** With an invalid index nothing changes and both predicates are false. -/
theorem c06_invalid_index (W : Nat) {n : Nat} (bits : BitVec n) (i : Nat) (hi : n ≤ i) :
    BitArray.set W bits i = .ok (bits, false) ∧ BitArray.reset W bits i = .ok (bits, false) ∧
    (∀ v, BitArray.setBool W bits i v = .ok (bits, false)) ∧
    BitArray.isTrue W bits i = .ok false ∧ BitArray.isFalse W bits i = .ok false := by
  have hv : BitArray.isValidIndex n i 1 = false := by simp [BitArray.isValidIndex]; omega
  simp [BitArray.set, BitArray.reset, BitArray.setBool, BitArray.isTrue, BitArray.isFalse, hv]

example := c06_invalid_index 16 (0xA5#8) 8 (by decide)

/-- **C06 fails** on AVR for a 32-bit BitArray: setting bit 15 also sets bits 16..31 ... -/
theorem c06_avr_bit15_fails : BitArray.set 16 (0#32) 15 = .ok (0xFFFF8000#32, true) := by decide

/-- ... and bits 16..31 are undefined behaviour. -/
theorem c06_avr_bit16_fails (i : Nat) (h16 : 16 ≤ i) (hi : i < 32) (bits : BitVec 32) :
    BitArray.set 16 bits i = .ub ∧ BitArray.reset 16 bits i = .ub ∧ BitArray.isTrue 16 bits i = .ub := by
  have hv : BitArray.isValidIndex 32 i 1 = true := by simp [BitArray.isValidIndex]; omega
  have h : ¬ i < 16 := by omega
  simp [BitArray.set, BitArray.reset, BitArray.isTrue, hv, shlOne, h]

example : BitArray.set 16 (0x0100#16) 15 = .ok (0x8100#16, true) ∧
    BitArray.isTrue 16 (0x8100#16) 15 = .ok true := by decide

/-- **C07.** The generic `Reverse` mirrors all bits, for every word width. -/
theorem c07_reverse {n : Nat} (bits : BitVec n) (j : Nat) (hj : j < n) :
    (BitArray.reverse bits).getLsbD j = bits.getLsbD (n - 1 - j) := by
  rw [BitArray.reverse, reverseLoop_bit n bits 0 j hj, if_pos hj]

/-- **C07.** Reversing twice is the identity. -/
theorem c07_reverse_reverse {n : Nat} (bits : BitVec n) :
    BitArray.reverse (BitArray.reverse bits) = bits := by
  apply BitVec.eq_of_getLsbD_eq
  intro j hj
  rw [c07_reverse _ j hj, c07_reverse _ _ (by omega)]
  congr 1; omega

/-- **C07.** The `uint8_t` specialisation agrees with the generic loop for all 256 values. -/
theorem c07_reverse8 (b : BitVec 8) : BitArray.reverse8 b = BitArray.reverse b := by
  apply BitVec.eq_of_getLsbD_eq
  intro j hj
  rw [c07_reverse b j hj]
  exact reverse8_bit b j hj

/-- **C07.** The `uint16_t` specialisation agrees with the generic loop for all 65536 values. -/
theorem c07_reverse16 (b : BitVec 16) : BitArray.reverse16 b = BitArray.reverse b := by
  apply BitVec.eq_of_getLsbD_eq
  intro j hj
  rw [c07_reverse b j hj]
  exact reverse16_bit b j hj

example : BitArray.reverse8 0x13#8 = 0xC8#8 := by decide

/-- **C08, partial (Bit).** `Bit<i>` operations affect or report exactly bit `i`, for `i < n` where `1 << i` can
    represent the bit.  Missing: 32-bit words on AVR from bit 15 on. -/
theorem c08_bit_partial (W : Nat) {n : Nat} (t : BitVec n) (i : Nat) (hi : i < n)
    (hW : n ≤ W ∨ i + 1 < W) :
    (∃ r, Bit.set W i t = .ok r ∧ ∀ j, j < n → r.getLsbD j = if j = i then true else t.getLsbD j) ∧
    (∃ r, Bit.reset W i t = .ok r ∧ ∀ j, j < n → r.getLsbD j = if j = i then false else t.getLsbD j) ∧
    (∀ v, ∃ r, Bit.setBool W i t v = .ok r ∧ ∀ j, j < n → r.getLsbD j = if j = i then v else t.getLsbD j) ∧
    (∃ r, Bit.toggle W i t = .ok r ∧ ∀ j, j < n → r.getLsbD j = if j = i then !t.getLsbD j else t.getLsbD j) ∧
    Bit.isTrue W i t = .ok (t.getLsbD i) ∧ Bit.isFalse W i t = .ok (!t.getLsbD i) := by
  have hm : MaskOk W n i := ⟨hi, hW⟩
  have hmask : Bit.getMask W n i = .ok (intToT n (1#W <<< i)) := by
    simp [Bit.getMask, shlOne_ok hm.ltW]
  exact maskOps t i hi _ (mask_bit hm) (by simp [Bit.set, hmask]) (by simp [Bit.reset, hmask])
    (fun v => by simp [Bit.setBool, hmask]) (by simp [Bit.toggle, hmask])
    (by simp [Bit.isTrue, hmask]) (by simp [Bit.isFalse, hmask])

/-- **C08, partial (BitFlag).** Same for the run-time index. -/
theorem c08_bitflag_partial (W : Nat) {n : Nat} (t : BitVec n) (i : Nat) (hi : i < n)
    (hW : n ≤ W ∨ i + 1 < W) :
    (∃ r, BitFlag.set W t i = .ok r ∧ ∀ j, j < n → r.getLsbD j = if j = i then true else t.getLsbD j) ∧
    (∃ r, BitFlag.reset W t i = .ok r ∧ ∀ j, j < n → r.getLsbD j = if j = i then false else t.getLsbD j) ∧
    (∀ v, ∃ r, BitFlag.setBool W t i v = .ok r ∧ ∀ j, j < n → r.getLsbD j = if j = i then v else t.getLsbD j) ∧
    (∃ r, BitFlag.toggle W t i = .ok r ∧ ∀ j, j < n → r.getLsbD j = if j = i then !t.getLsbD j else t.getLsbD j) ∧
    BitFlag.isTrue W t i = .ok (t.getLsbD i) ∧ BitFlag.isFalse W t i = .ok (!t.getLsbD i) := by
  have hm : MaskOk W n i := ⟨hi, hW⟩
  have hr : BitFlag.rejects n i = false := by simp [BitFlag.rejects]; omega
  have hmask : BitFlag.bitToMask W n i = .ok (intToT n (1#W <<< i)) := by
    simp [BitFlag.bitToMask, shlOne_ok hm.ltW]
  exact maskOps t i hi _ (mask_bit hm) (by simp [BitFlag.set, hr, hmask]) (by simp [BitFlag.reset, hr, hmask])
    (fun v => by simp [BitFlag.setBool, hr, hmask]) (by simp [BitFlag.toggle, hr, hmask])
    (by simp [BitFlag.isTrue, hr, hmask]) (by simp [BitFlag.isFalse, hr, hmask])

example := c08_bitflag_partial 16 (0xA5#8) 7 (by decide) (by decide)

/-- **C08, partial (BitFlag, rejection).** An index *beyond* the width is rejected; the index equal to the width is not. -/
theorem c08_bitflag_reject_partial (W : Nat) {n : Nat} (t : BitVec n) (i : Nat) (hi : n < i) :
    BitFlag.set W t i = .ok t ∧ BitFlag.reset W t i = .ok t ∧ (∀ v, BitFlag.setBool W t i v = .ok t) ∧
    BitFlag.toggle W t i = .ok t ∧ BitFlag.isTrue W t i = .ok false ∧ BitFlag.isFalse W t i = .ok false := by
  have hr : BitFlag.rejects n i = true := by simp [BitFlag.rejects]; omega
  simp [BitFlag.set, BitFlag.reset, BitFlag.setBool, BitFlag.toggle, BitFlag.isTrue, BitFlag.isFalse, hr]

example := c08_bitflag_reject_partial 16 (0xA5#8) 9 (by decide)

/-- **C08 fails** at the index equal to the width: an 8-bit target claims that bit 8 is false
    (the documentation of an invalid index asks for both predicates to be false) ... -/
theorem c08_bitflag_width_fails (t : BitVec 8) : BitFlag.isFalse 16 t 8 = .ok true := by
  have : intToT 8 256#16 = 0#8 := by decide
  simp [BitFlag.isFalse, BitFlag.rejects, BitFlag.bitToMask, shlOne, this]

/-- ... and for a 16-bit target on AVR it is undefined behaviour; so is any 32-bit target from bit 16 on. -/
theorem c08_bitflag_ub_fails : (∀ t : BitVec 16, BitFlag.set 16 t 16 = .ub) ∧
    (∀ t : BitVec 32, ∀ i, 16 ≤ i → i ≤ 32 → BitFlag.set 16 t i = .ub ∧ Bit.set 16 i t = .ub) := by
  refine ⟨fun t => by simp [BitFlag.set, BitFlag.rejects, BitFlag.bitToMask, shlOne], fun t i h1 h2 => ?_⟩
  have h3 : ¬ i < 16 := by omega
  have h4 : ¬ i > 32 := by omega
  simp [BitFlag.set, BitFlag.rejects, BitFlag.bitToMask, shlOne, Bit.set, Bit.getMask, h3, h4]

example : BitFlag.set 16 (0x81#8) 3 = .ok 0x89#8 ∧ Bit.toggle 16 7 (0x89#8) = .ok 0x09#8 := by decide

/-! ### C85 shifts -/

/-- **C85, partial.** Shifting an 8, 16 or 32 bit array (`int` of 16 or 32 bits) by less than its width moves every bit by that many places;
    the places that become free are false and what leaves the word is lost.  Missing: shifting by the width or more (see the `_fails` theorem). -/
theorem c85_shift_partial (W n : Nat) (hn : n = 8 ∨ n = 16 ∨ n = 32) (hW : W = 16 ∨ W = 32) (bits : BitVec n) (k : Nat) (hk : k < n) :
    (∃ r, BitArray.shiftUp W bits k = .ok r ∧ ∀ j, j < n → r.getLsbD j = if j < k then false else bits.getLsbD (j - k)) ∧
    (∃ r, BitArray.shiftDown W bits k = .ok r ∧ ∀ j, j < n → r.getLsbD j = if j + k < n then bits.getLsbD (j + k) else false) := by
  refine ⟨⟨bits <<< k, ?_, ?_⟩, ⟨bits >>> k, ?_, ?_⟩⟩
  · unfold BitArray.shiftUp shlT
    by_cases h : n < W
    · rw [if_pos h, if_pos]
      have h1 : 2 ^ k ≤ 2 ^ n := Nat.pow_le_pow_right (by omega) (by omega)
      have h2 : bits.toNat * 2 ^ k < 2 ^ n * 2 ^ n :=
        Nat.lt_of_lt_of_le (Nat.mul_lt_mul_of_pos_right bits.isLt (Nat.two_pow_pos k)) (Nat.mul_le_mul_left _ h1)
      rw [← Nat.pow_add] at h2
      exact ⟨by omega, Nat.lt_of_lt_of_le h2 (Nat.pow_le_pow_right (by omega) (by omega))⟩
    · rw [if_neg h, if_pos hk]
  · intro j hj
    rw [BitVec.getLsbD_shiftLeft]
    by_cases h : j < k <;> simp [h, hj]
  · unfold BitArray.shiftDown shrT
    rw [if_pos (by omega)]
  · intro j hj
    rw [BitVec.getLsbD_ushiftRight]
    split
    · rw [Nat.add_comm]
    · exact BitVec.getLsbD_of_ge _ _ (by omega)

example : BitArray.shiftUp 16 0xC1#8 1 = .ok 0x82#8 ∧ BitArray.shiftDown 16 0x8100#16 8 = .ok 0x81#16 := by decide

/-- **C85.** Shifting down and up again clears the lowest places and keeps the others. -/
theorem c85_down_up (W n : Nat) (hn : n = 8 ∨ n = 16 ∨ n = 32) (hW : W = 16 ∨ W = 32) (bits : BitVec n) (k : Nat) (hk : k < n) :
    ∃ r s, BitArray.shiftDown W bits k = .ok r ∧ BitArray.shiftUp W r k = .ok s ∧
      ∀ j, j < n → s.getLsbD j = if j < k then false else bits.getLsbD j := by
  obtain ⟨r, h1, h2⟩ := (c85_shift_partial W n hn hW bits k hk).2
  obtain ⟨s, h3, h4⟩ := (c85_shift_partial W n hn hW r k hk).1
  refine ⟨r, s, h1, h3, fun j hj => ?_⟩
  rw [h4 j hj]
  by_cases h : j < k
  · simp [h]
  · rw [if_neg h, if_neg h, h2 (j - k) (by omega), if_pos (by omega)]
    congr 1; omega

/-- **C85 fails** from the width on ("losing the most significant bits and setting false"): the shift is undefined for every array that is as wide as
    `int` or wider. -/
theorem c85_shift_fails (W n k : Nat) (h : W ≤ n) (hk : n ≤ k) (bits : BitVec n) :
    BitArray.shiftUp W bits k = .ub ∧ BitArray.shiftDown W bits k = .ub := by
  unfold BitArray.shiftUp BitArray.shiftDown shlT shrT
  rw [if_neg (by omega), if_neg (by omega), if_neg (by omega)]
  exact ⟨rfl, rfl⟩

end Atl.Props
