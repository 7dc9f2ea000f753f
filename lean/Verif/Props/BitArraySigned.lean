import Verif.Props.BitsSigned
import Verif.Props.Exact
/- Property theorems C127: BitArray over a signed integer type. -/
namespace Atl.Props
open Atl.Bits

/-! ### The operators -/

theorem wide_bit (W : Nat) {n : Nat} (x : BitVec n) (j : Nat) (hn : 0 < n) (hj : j < max n W) :
    (Signed.wide W x).getLsbD j = x.getLsbD (min j (n - 1)) := by
  rw [Signed.wide, BitVec.getLsbD_signExtend]
  by_cases h : j < n
  · have : min j (n - 1) = j := by omega
    simp [hj, h, this]
  · have : min j (n - 1) = n - 1 := by omega
    simp [hj, h, this, BitVec.msb_eq_getLsbD_last]

theorem narrow_bit {w n : Nat} (x : BitVec w) (j : Nat) (hj : j < n) : (Signed.narrow n x).getLsbD j = x.getLsbD j := by
  simp [Signed.narrow, hj]

theorem sshl_ok (W : Nat) {n : Nat} (x : BitVec n) (k : Nat) (hk : k < max n W) : Signed.BitArray.shl W x k = .ok (x <<< k) := by
  rw [Signed.BitArray.shl, if_pos hk]
  congr 1
  apply BitVec.eq_of_getLsbD_eq
  intro j hj
  have hm : j < max n W := by omega
  rw [narrow_bit _ _ hj, BitVec.getLsbD_shiftLeft, BitVec.getLsbD_shiftLeft]
  by_cases h : j < k
  · simp [h]
  · rw [wide_bit W x _ (by omega) (by omega), show min (j - k) (n - 1) = j - k by omega]
    simp [h, hj, hm]

theorem sshr_bit (W : Nat) {n : Nat} (x : BitVec n) (k : Nat) (hk : k < max n W) :
    ∃ r, Signed.BitArray.shr W x k = .ok r ∧ ∀ j, j < n → r.getLsbD j = x.getLsbD (min (j + k) (n - 1)) := by
  rw [Signed.BitArray.shr, if_pos hk]
  refine ⟨_, rfl, fun j hj => ?_⟩
  have hm : ¬ max n W ≤ j := by omega
  rw [narrow_bit _ _ hj, BitVec.getLsbD_sshiftRight]
  simp only [hm, decide_false, Bool.not_false, Bool.true_and]
  by_cases h : k + j < max n W
  · rw [if_pos h, wide_bit W x _ (by omega) h, Nat.add_comm k j]
  · rw [if_neg h, BitVec.msb_eq_getLsbD_last, wide_bit W x _ (by omega) (by omega)]
    congr 1; omega

theorem screateMask_eq (W n c : Nat) (hn : 0 < n) (hW : 1 < max n W) : Signed.BitArray.createMask W n c = .ok (BitArray.createMask n c) := by
  induction c with
  | zero => rfl
  | succ c ih =>
    simp only [Signed.BitArray.createMask, ih, Res.bind_ok, sshl_ok W _ 1 hW, BitArray.createMask]
    congr 1
    apply BitVec.eq_of_getLsbD_eq
    intro j hj
    have hm : j < max n W := by omega
    rw [narrow_bit _ _ hj, BitVec.getLsbD_or, wide_bit W _ _ hn hm, show min j (n - 1) = j by omega, BitVec.getLsbD_or]
    congr 1
    have e1 : (1 : BitVec (max n W)).getLsbD j = decide (j = 0) := by
      show (1#(max n W)).getLsbD j = _
      rw [BitVec.getLsbD_one]; simp; omega
    rw [e1, BitVec.getLsbD_one]
    simp [hn]

/-! ### C127 -/

/-- **C127, fields (write).** A field that fits is replaced exactly, the sign bit included. -/
theorem c127_set_field (W : Nat) {n : Nat} (hW : 1 < max n W) (bits value : BitVec n) (idx cnt : Nat) (hfit : idx + cnt ≤ n) (hub : idx < n ∨ n < W) (hn : 0 < n) :
    ∃ r, Signed.BitArray.setField W bits idx value cnt = .ok (r, true) ∧
      ∀ j, j < n → r.getLsbD j = if idx ≤ j ∧ j < idx + cnt then value.getLsbD (j - idx) else bits.getLsbD j := by
  have h0 : idx < max n W := by omega
  refine ⟨(bits &&& ~~~(BitArray.createMask n cnt <<< idx)) ||| ((value &&& BitArray.createMask n cnt) <<< idx), ?_, ?_⟩
  · simp only [Signed.BitArray.setField, BitArray.isValidIndex, hfit, decide_true, Bool.not_true, Bool.false_eq_true, if_false, screateMask_eq W n cnt hn hW,
      Res.bind_ok, wide_and, narrow_wide, sshl_ok W _ idx h0, wide_not W hn, wide_or]
  · intro j hj
    simp only [BitVec.getLsbD_or, BitVec.getLsbD_and, BitVec.getLsbD_not, BitVec.getLsbD_shiftLeft, hj, decide_true, Bool.true_and]
    by_cases h1 : j < idx
    · have : ¬ (idx ≤ j ∧ j < idx + cnt) := by omega
      simp [h1, this]
    · rw [createMask_bit n cnt (j - idx) (by omega)]
      by_cases h2 : j < idx + cnt
      · have a : idx ≤ j ∧ j < idx + cnt := by omega
        have b : j - idx < cnt := by omega
        simp [h1, a, b]
      · have a : ¬ (idx ≤ j ∧ j < idx + cnt) := by omega
        have b : ¬ j - idx < cnt := by omega
        simp [h1, a, b]

example := c127_set_field 16 (by decide) (0x7F00#16) 0xB#16 12 4 (by decide) (by decide) (by decide)

/-- **C127, fields (read), exact.** `Get(index, count)` has the bits of the field; above them zeroes, but the sign if the field ends at the top of the array. -/
theorem c127_get_field_exact (W : Nat) {n : Nat} (hW : 1 < max n W) (bits : BitVec n) (idx cnt : Nat) (hfit : idx + cnt ≤ n) (hub : idx < n ∨ n < W) (hn : 0 < n) :
    ∃ r, Signed.BitArray.getField W bits idx cnt = .ok r ∧
      ∀ j, j < n → r.getLsbD j =
        if j < cnt then bits.getLsbD (idx + j) else if idx + cnt = n ∧ 0 < cnt then bits.getLsbD (n - 1) else false := by
  have h0 : idx < max n W := by omega
  obtain ⟨r, hr, hb⟩ := sshr_bit W (bits &&& BitArray.createMask n cnt <<< idx) idx h0
  refine ⟨r, ?_, ?_⟩
  · simp only [Signed.BitArray.getField, BitArray.isValidIndex, hfit, decide_true, Bool.not_true, Bool.false_eq_true, if_false, screateMask_eq W n cnt hn hW,
      Res.bind_ok, sshl_ok W _ idx h0, wide_and, narrow_wide, hr]
  · intro j hj
    rw [hb j hj, BitVec.getLsbD_and, BitVec.getLsbD_shiftLeft]
    by_cases h1 : j < cnt
    · rw [if_pos h1, show min (j + idx) (n - 1) = idx + j by omega, show idx + j - idx = j by omega, createMask_bit n cnt j hj]
      have a : idx + j < n := by omega
      have b : ¬ idx + j < idx := by omega
      simp [a, b, h1]
    · rw [if_neg h1]
      by_cases h2 : idx + cnt = n ∧ 0 < cnt
      · rw [if_pos h2, show min (j + idx) (n - 1) = n - 1 by omega, createMask_bit n cnt _ (by omega)]
        have a : n - 1 < n := by omega
        have b : ¬ n - 1 < idx := by omega
        have c : n - 1 - idx < cnt := by omega
        simp [a, b, c]
      · rw [if_neg h2]
        by_cases h3 : min (j + idx) (n - 1) < idx
        · simp [h3]
        · rw [createMask_bit n cnt _ (by omega)]
          have c : ¬ min (j + idx) (n - 1) - idx < cnt := by omega
          simp [c]

example := c127_get_field_exact 16 (by decide) (0xB000#16) 12 4 (by decide) (by decide) (by decide)

/-- **C127, partial (round trip).** Below the top of the array `Get` after `Set` of the same field returns the low bits of the value. Missing: a field that ends at the top
    (false of the code, see `c127_get_fails`). -/
theorem c127_get_after_set_partial (W : Nat) {n : Nat} (hW : 1 < max n W) (bits value : BitVec n) (idx cnt : Nat) (hfit : idx + cnt < n) :
    ∃ r g, Signed.BitArray.setField W bits idx value cnt = .ok (r, true) ∧ Signed.BitArray.getField W r idx cnt = .ok g ∧ g.toNat = value.toNat % 2 ^ cnt := by
  obtain ⟨r, hr, hb⟩ := c127_set_field W hW bits value idx cnt (by omega) (by omega) (by omega)
  obtain ⟨g, hg, hc⟩ := c127_get_field_exact W hW r idx cnt (by omega) (by omega) (by omega)
  refine ⟨r, g, hr, hg, ?_⟩
  apply Nat.eq_of_testBit_eq
  intro j
  rw [BitVec.testBit_toNat, Nat.testBit_mod_two_pow, BitVec.testBit_toNat]
  by_cases hj : j < n
  · rw [hc j hj]
    by_cases h1 : j < cnt
    · rw [if_pos h1, hb _ (by omega), if_pos (by omega), show idx + j - idx = j by omega]
      simp [h1]
    · rw [if_neg h1, if_neg (by omega)]
      simp [h1]
  · rw [BitVec.getLsbD_of_ge _ _ (by omega), BitVec.getLsbD_of_ge _ _ (by omega)]
    simp

example := c127_get_after_set_partial 16 (by decide) (0xFFFF#16) 0xB#16 4 4 (by decide)

/-- A mask that stays an `int`. -/
theorem swide_int (W : Nat) {n : Nat} (hn : 0 < n) (m : BitVec W) (j : Nat) (hj : j < n) : (m.signExtend (max n W)).getLsbD j = (intToT n m).getLsbD j := by
  have h : j < max n W := by omega
  unfold intToT
  rw [BitVec.getLsbD_signExtend, BitVec.getLsbD_signExtend]
  simp [h, hj]

theorem narrow_or (W : Nat) {n : Nat} (hn : 0 < n) (x : BitVec n) (m : BitVec W) :
    Signed.narrow n (Signed.wide W x ||| m.signExtend (max n W)) = x ||| intToT n m := by
  apply BitVec.eq_of_getLsbD_eq
  intro j hj
  rw [narrow_bit _ _ hj, BitVec.getLsbD_or, BitVec.getLsbD_or, swide_int W hn m j hj, wide_bit W x j hn (by omega), show min j (n - 1) = j by omega]

theorem narrow_and (W : Nat) {n : Nat} (hn : 0 < n) (x : BitVec n) (m : BitVec W) :
    Signed.narrow n (Signed.wide W x &&& m.signExtend (max n W)) = x &&& intToT n m := by
  apply BitVec.eq_of_getLsbD_eq
  intro j hj
  rw [narrow_bit _ _ hj, BitVec.getLsbD_and, BitVec.getLsbD_and, swide_int W hn m j hj, wide_bit W x j hn (by omega), show min j (n - 1) = j by omega]

/-- `Set`, `Set(bool)` and `Reset` do to a signed array, for every index, what they do to an unsigned one. -/
theorem signed_single_bit (W : Nat) {n : Nat} (bits : BitVec n) (i : Nat) :
    Signed.BitArray.set W bits i = BitArray.set W bits i ∧ Signed.BitArray.reset W bits i = BitArray.reset W bits i ∧
    ∀ v, Signed.BitArray.setBool W bits i v = BitArray.setBool W bits i v := by
  by_cases hv : i + 1 ≤ n
  · have hn : 0 < n := by omega
    simp only [Signed.BitArray.set, Signed.BitArray.reset, Signed.BitArray.setBool, BitArray.set, BitArray.reset, BitArray.setBool, narrow_or W hn, narrow_and W hn,
      wide_not W hn, wide_and, wide_or, narrow_wide, and_self, implies_true]
  · simp [Signed.BitArray.set, Signed.BitArray.reset, Signed.BitArray.setBool, BitArray.set, BitArray.reset, BitArray.setBool, BitArray.isValidIndex, hv]

theorem signed_mask_zero (W : Nat) {n : Nat} (bits : BitVec n) (i : Nat) (hi : i < n) (hW : i < W) :
    Signed.wide W bits &&& (1#W <<< i).signExtend (max n W) = 0 ↔ ∀ j, j < n → Touched W i j → bits.getLsbD j = false := by
  rw [and_zero_iff _ ((1#W <<< i).signExtend (max n W)) (Touched W i) (fun j hj => mask_touched (n := max n W) hW j hj)]
  constructor
  · intro h j hj ht
    have := h j (by omega) ht
    rwa [wide_bit W bits j (by omega) (by omega), show min j (n - 1) = j by omega] at this
  · intro h j hj ht
    rw [wide_bit W bits j (by omega) hj]
    refine h _ (by omega) ?_
    unfold Touched at ht ⊢
    split at ht <;> rename_i hc
    · rw [if_pos hc]; omega
    · rw [if_neg hc]; omega

theorem signed_mask_msb (W : Nat) {n : Nat} (bits : BitVec n) (i : Nat) (hi : i < n) (hW : i < W) :
    (Signed.wide W bits &&& (1#W <<< i).signExtend (max n W)).msb = (decide (Touched W i (max n W - 1)) && bits.getLsbD (n - 1)) := by
  rw [BitVec.msb_eq_getLsbD_last, BitVec.getLsbD_and, wide_bit W bits _ (by omega) (by omega), Bool.and_comm]
  have := mask_touched (n := max n W) hW (max n W - 1) (by omega)
  unfold intToT at this
  rw [this]
  congr 2; omega

theorem pos_iff {w : Nat} (y : BitVec w) : y.toInt > 0 ↔ y.msb = false ∧ y ≠ 0 := by
  have hz : y = 0 ↔ y.toNat = 0 := by
    constructor
    · intro h; rw [h]; simp
    · intro h; exact BitVec.eq_of_toNat_eq (by simpa using h)
  have hlt := y.isLt
  rw [ne_eq, hz, BitVec.toInt_eq_msb_cond]
  cases y.msb
  · simp only [Bool.false_eq_true, if_false, true_and]; omega
  · simp only [if_true, Bool.true_eq_false, false_and, iff_false]; omega

/-- **C127, single bits, all indices.** A valid index below the width of `int` stands for the bit of that number (the sign bit of `int` for all bits from there on, C06):
    `Set`, `Reset`, `Set(bool)` and `IsFalse` are right about them. `IsTrue` is right too, except if the sign bit of the array, as wide as `int` or wider, is one of them and is set:
    then it is false. An index from the width of `int` on is undefined. -/
theorem c127_single_bit_exact (W : Nat) {n : Nat} (bits : BitVec n) (i : Nat) (hi : i < n) :
    (i < W →
      (∃ r, Signed.BitArray.set W bits i = .ok (r, true) ∧ ∀ j, j < n → r.getLsbD j = if Touched W i j then true else bits.getLsbD j) ∧
      (∃ r, Signed.BitArray.reset W bits i = .ok (r, true) ∧ ∀ j, j < n → r.getLsbD j = if Touched W i j then false else bits.getLsbD j) ∧
      (∀ v, ∃ r, Signed.BitArray.setBool W bits i v = .ok (r, true) ∧ ∀ j, j < n → r.getLsbD j = if Touched W i j then v else bits.getLsbD j) ∧
      (∃ b, Signed.BitArray.isFalse W bits i = .ok b ∧ (b = true ↔ ∀ j, j < n → Touched W i j → bits.getLsbD j = false)) ∧
      (∃ b, Signed.BitArray.isTrue W bits i = .ok b ∧
        (b = true ↔ (∃ j, j < n ∧ Touched W i j ∧ bits.getLsbD j = true) ∧ ¬ (W ≤ n ∧ Touched W i (n - 1) ∧ bits.getLsbD (n - 1) = true)))) ∧
    (W ≤ i → Signed.BitArray.set W bits i = .ub ∧ Signed.BitArray.reset W bits i = .ub ∧ (∀ v, Signed.BitArray.setBool W bits i v = .ub) ∧
      Signed.BitArray.isTrue W bits i = .ub ∧ Signed.BitArray.isFalse W bits i = .ub) := by
  obtain ⟨e1, e2, e3⟩ := signed_single_bit W bits i
  have hv : i + 1 ≤ n := hi
  constructor
  · intro hW
    refine ⟨?_, ?_, ?_, ?_, ?_⟩
    · rw [e1]
      simp only [BitArray.set, BitArray.isValidIndex, hv, decide_true, Bool.not_true, Bool.false_eq_true, if_false, shlOne_ok hW, Res.bind_ok]
      refine ⟨_, rfl, fun j hj => ?_⟩
      rw [BitVec.getLsbD_or, mask_touched hW j hj]
      by_cases h : Touched W i j <;> simp [h]
    · rw [e2]
      simp only [BitArray.reset, BitArray.isValidIndex, hv, decide_true, Bool.not_true, Bool.false_eq_true, if_false, shlOne_ok hW, Res.bind_ok]
      refine ⟨_, rfl, fun j hj => ?_⟩
      rw [BitVec.getLsbD_and, mask_not hW j hj]
      by_cases h : Touched W i j <;> simp [h]
    · intro v
      rw [e3]
      simp only [BitArray.setBool, BitArray.isValidIndex, hv, decide_true, Bool.not_true, Bool.false_eq_true, if_false, shlOne_ok hW, Res.bind_ok]
      refine ⟨_, rfl, fun j hj => ?_⟩
      cases v
      · simp only [Bool.false_eq_true, if_false, BitVec.getLsbD_and, BitVec.getLsbD_not, mask_touched hW j hj]
        by_cases h : Touched W i j <;> simp [h, hj]
      · simp only [if_true, BitVec.getLsbD_or, BitVec.getLsbD_and, BitVec.getLsbD_not, mask_touched hW j hj]
        by_cases h : Touched W i j <;> simp [h, hj]
    · simp only [Signed.BitArray.isFalse, BitArray.isValidIndex, hv, decide_true, Bool.not_true, Bool.false_eq_true, if_false, shlOne_ok hW, Res.bind_ok]
      refine ⟨_, rfl, ?_⟩
      rw [decide_eq_true_iff, ← signed_mask_zero W bits i hi hW, ← BitVec.toInt_inj]
      simp
    · simp only [Signed.BitArray.isTrue, BitArray.isValidIndex, hv, decide_true, Bool.not_true, Bool.false_eq_true, if_false, shlOne_ok hW, Res.bind_ok]
      refine ⟨_, rfl, ?_⟩
      rw [decide_eq_true_iff, pos_iff, signed_mask_msb W bits i hi hW, ne_eq, signed_mask_zero W bits i hi hW, not_all, and_comm]
      refine and_congr_right fun _ => ?_
      by_cases hWn : W ≤ n
      · rw [show max n W = n by omega]
        by_cases ht : Touched W i (n - 1) <;> simp [ht, hWn]
      · have ht : ¬ Touched W i (max n W - 1) := by
          unfold Touched
          rw [if_neg (by omega)]; omega
        simp [ht, hWn]
  · intro hW
    have hs : shlOne W i = .ub := by unfold shlOne; rw [if_neg (by omega)]
    rw [e1, e2]
    refine ⟨?_, ?_, fun v => ?_, ?_, ?_⟩
    · simp [BitArray.set, BitArray.isValidIndex, hv, hs]
    · simp [BitArray.reset, BitArray.isValidIndex, hv, hs]
    · rw [e3]; simp [BitArray.setBool, BitArray.isValidIndex, hv, hs]
    · simp [Signed.BitArray.isTrue, BitArray.isValidIndex, hv, hs]
    · simp [Signed.BitArray.isFalse, BitArray.isValidIndex, hv, hs]

example := c127_single_bit_exact 16 (0x80008000#32) 15 (by decide)

/-- **C127 (rejection).** What does not fit changes nothing, reads as 0 and is neither true nor false. -/
theorem c127_reject (W : Nat) {n : Nat} (bits value : BitVec n) (i cnt : Nat) :
    (n < i + cnt → Signed.BitArray.setField W bits i value cnt = .ok (bits, false) ∧ Signed.BitArray.getField W bits i cnt = .ok 0) ∧
    (n ≤ i → Signed.BitArray.set W bits i = .ok (bits, false) ∧ Signed.BitArray.reset W bits i = .ok (bits, false) ∧
      (∀ v, Signed.BitArray.setBool W bits i v = .ok (bits, false)) ∧ Signed.BitArray.isTrue W bits i = .ok false ∧ Signed.BitArray.isFalse W bits i = .ok false) := by
  constructor
  · intro h
    have h : ¬ i + cnt ≤ n := by omega
    simp [Signed.BitArray.setField, Signed.BitArray.getField, BitArray.isValidIndex, h]
  · intro h
    have h : ¬ i + 1 ≤ n := by omega
    simp [Signed.BitArray.set, Signed.BitArray.reset, Signed.BitArray.setBool, Signed.BitArray.isTrue, Signed.BitArray.isFalse, BitArray.isValidIndex, h]

/-- **C127, shifts, exact.** `ShiftUp` is right for every shift below the wider of the array and `int`; `ShiftDown` moves the bits but repeats the sign bit in the places
    that become free; every other shift is undefined. -/
theorem c127_shift_exact (W : Nat) {n : Nat} (bits : BitVec n) (k : Nat) :
    (k < max n W →
      (∃ r, Signed.BitArray.shiftUp W bits k = .ok r ∧ ∀ j, j < n → r.getLsbD j = if j < k then false else bits.getLsbD (j - k)) ∧
      (∃ r, Signed.BitArray.shiftDown W bits k = .ok r ∧ ∀ j, j < n → r.getLsbD j = if j + k < n then bits.getLsbD (j + k) else bits.getLsbD (n - 1))) ∧
    (max n W ≤ k → Signed.BitArray.shiftUp W bits k = .ub ∧ Signed.BitArray.shiftDown W bits k = .ub) := by
  constructor
  · intro hk
    constructor
    · refine ⟨_, sshl_ok W bits k hk, fun j hj => ?_⟩
      rw [BitVec.getLsbD_shiftLeft]
      by_cases h : j < k <;> simp [h, hj]
    · obtain ⟨r, hr, hb⟩ := sshr_bit W bits k hk
      refine ⟨r, hr, fun j hj => ?_⟩
      rw [hb j hj]
      by_cases h : j + k < n
      · rw [if_pos h, show min (j + k) (n - 1) = j + k by omega]
      · rw [if_neg h, show min (j + k) (n - 1) = n - 1 by omega]
  · intro hk
    have : ¬ k < max n W := by omega
    simp [Signed.BitArray.shiftUp, Signed.BitArray.shiftDown, Signed.BitArray.shl, Signed.BitArray.shr, this]

theorem signed_reverse_loop (W : Nat) {n : Nat} (hW : 1 < max n W) (c : Nat) (bits rv : BitVec n) (hc : c ≤ n) :
    ∃ r, Signed.BitArray.reverseLoop W c bits rv = .ok r ∧ ∀ j, j < n → r.getLsbD j = if j < c then bits.getLsbD (c - 1 - j) else rv.getLsbD (j - c) := by
  induction c generalizing bits rv with
  | zero => exact ⟨rv, rfl, fun j _ => by simp⟩
  | succ c ih =>
    obtain ⟨b, hb, hbit⟩ := sshr_bit W bits 1 hW
    obtain ⟨r, hr, hrb⟩ := ih b (Signed.narrow n ((Signed.wide W rv <<< 1) ||| (Signed.wide W bits &&& 1))) (by omega)
    refine ⟨r, ?_, fun j hj => ?_⟩
    · simp only [Signed.BitArray.reverseLoop, hb, Res.bind_ok, hr]
    · rw [hrb j hj]
      by_cases h1 : j < c
      · rw [if_pos h1, if_pos (by omega), hbit _ (by omega)]
        congr 1; omega
      · rw [if_neg h1, narrow_bit _ _ (by omega), BitVec.getLsbD_or, BitVec.getLsbD_and, BitVec.getLsbD_shiftLeft]
        have e1 : (1 : BitVec (max n W)).getLsbD (j - c) = decide (j - c = 0) := by
          show (1#(max n W)).getLsbD (j - c) = _
          rw [BitVec.getLsbD_one]; simp; omega
        rw [e1]
        by_cases h2 : j = c
        · subst h2
          rw [if_pos (by omega), Nat.sub_self, wide_bit W bits 0 (by omega) (by omega)]
          simp
        · rw [if_neg (by omega), wide_bit W rv _ (by omega) (by omega)]
          have h3 : ¬ j - c = 0 := by omega
          have h4 : j - c < max n W := by omega
          have h5 : ¬ j - c < 1 := by omega
          rw [show min (j - c - 1) (n - 1) = j - (c + 1) by omega]
          simp [h3, h4, h5]

/-- **C127, Reverse.** Reversing mirrors all bits, the sign bit included: the copies of the sign that the loop shifts in are never used. -/
theorem c127_reverse (W : Nat) {n : Nat} (hW : 1 < max n W) (bits : BitVec n) :
    ∃ r, Signed.BitArray.reverse W bits = .ok r ∧ ∀ j, j < n → r.getLsbD j = bits.getLsbD (n - 1 - j) := by
  obtain ⟨r, hr, hb⟩ := signed_reverse_loop W hW n bits 0 (Nat.le_refl n)
  exact ⟨r, hr, fun j hj => by rw [hb j hj, if_pos hj]⟩

example := c127_reverse 16 (by decide) (0x13#8)

/-- **C127 fails** for the field that ends at the top: whatever array, a value with the highest bit of the field set reads back with all bits above set, so as another value
    whenever the field is not the whole array ... -/
theorem c127_get_fails (W : Nat) {n : Nat} (hW : 1 < max n W) (bits value : BitVec n) (idx : Nat) (h0 : 0 < idx) (hi : idx < n) (ht : value.getLsbD (n - idx - 1) = true) :
    ∃ r g, Signed.BitArray.setField W bits idx value (n - idx) = .ok (r, true) ∧ Signed.BitArray.getField W r idx (n - idx) = .ok g ∧
      g.toNat ≠ value.toNat % 2 ^ (n - idx) ∧ g.toInt < 0 := by
  obtain ⟨r, hr, hb⟩ := c127_set_field W hW bits value idx (n - idx) (by omega) (by omega) (by omega)
  obtain ⟨g, hg, hc⟩ := c127_get_field_exact W hW r idx (n - idx) (by omega) (by omega) (by omega)
  have htop : g.getLsbD (n - 1) = true := by
    rw [hc (n - 1) (by omega), if_neg (by omega), if_pos (by omega), hb (n - 1) (by omega), if_pos (by omega), show n - 1 - idx = n - idx - 1 by omega, ht]
  refine ⟨r, g, hr, hg, fun h => ?_, ?_⟩
  · have := congrArg (fun x => Nat.testBit x (n - 1)) h
    simp only [BitVec.testBit_toNat, htop, Nat.testBit_mod_two_pow] at this
    have h2 : ¬ n - 1 < n - idx := by omega
    simp [h2] at this
  · have hm : g.msb = true := by rw [BitVec.msb_eq_getLsbD_last, htop]
    rw [BitVec.toInt_eq_msb_cond, if_pos hm]
    have := g.isLt
    omega

/-- ... **for the sign bit** of an array as wide as `int`: when it is set `IsTrue` and `IsFalse` are both false ... -/
theorem c127_sign_fails {n : Nat} (hn : 0 < n) (bits : BitVec n) (hs : bits.getLsbD (n - 1) = true) :
    Signed.BitArray.isTrue n bits (n - 1) = .ok false ∧ Signed.BitArray.isFalse n bits (n - 1) = .ok false := by
  obtain ⟨_, _, _, ⟨b, hb, eb⟩, ⟨c, hc, ec⟩⟩ := (c127_single_bit_exact n bits (n - 1) (by omega)).1 (by omega)
  have ht : Touched n (n - 1) (n - 1) := by unfold Touched; split <;> omega
  have h1 : c = false := by
    cases c
    · rfl
    · exact absurd ⟨Nat.le_refl n, ht, hs⟩ (ec.mp rfl).2
  have h2 : b = false := by
    cases b
    · rfl
    · have := eb.mp rfl (n - 1) (by omega) ht
      rw [hs] at this; cases this
  rw [hb, hc, h1, h2]; exact ⟨rfl, rfl⟩

/-- ... **and for ShiftDown** ("setting false for the most significant bits"): a negative array keeps its top bit set, for every shift. -/
theorem c127_shiftDown_fails (W : Nat) {n : Nat} (hn : 0 < n) (bits : BitVec n) (k : Nat) (hk : k < max n W) (hs : bits.getLsbD (n - 1) = true) :
    ∃ r, Signed.BitArray.shiftDown W bits k = .ok r ∧ r.getLsbD (n - 1) = true := by
  obtain ⟨r, hr, hb⟩ := ((c127_shift_exact W bits k).1 hk).2
  refine ⟨r, hr, ?_⟩
  rw [hb (n - 1) (by omega)]
  by_cases h : n - 1 + k < n
  · rw [if_pos h, show n - 1 + k = n - 1 by omega, hs]
  · rw [if_neg h, hs]

/-- On AVR: a field in the middle of an `int`, the top nibble, the sign bit of an `int` and of an `int8_t`, a shift, a reversal. -/
example : Signed.BitArray.setField 16 (0#16) 4 0xB#16 4 = .ok (0x00B0#16, true) ∧ Signed.BitArray.getField 16 (0x00B0#16) 4 4 = .ok 0xB#16 ∧
    Signed.BitArray.getField 16 (0xB000#16) 12 4 = .ok 0xFFFB#16 ∧ Signed.BitArray.isTrue 16 (0x8000#16) 15 = .ok false ∧
    Signed.BitArray.isTrue 16 (0x80#8) 7 = .ok true ∧ Signed.BitArray.shiftDown 16 (0x80#8) 3 = .ok 0xF0#8 ∧
    Signed.BitArray.reverse 16 (0x8001#16) = .ok 0x8001#16 ∧ Signed.BitArray.reverse 16 (0x13#8) = .ok 0xC8#8 := by decide +kernel

end Atl.Props
