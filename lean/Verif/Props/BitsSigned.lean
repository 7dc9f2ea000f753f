import Verif.Model.BitsSigned
import Verif.Props.Bits
/- Property theorems C109: the bit helpers on signed values. -/
namespace Atl.Props
open Atl.Bits

theorem narrow_wide (W : Nat) {n : Nat} (x : BitVec n) : Signed.narrow n (Signed.wide W x) = x := by
  apply BitVec.eq_of_getLsbD_eq
  intro j hj
  have h : j < max n W := by omega
  simp only [Signed.narrow, Signed.wide, BitVec.getLsbD_setWidth, BitVec.getLsbD_signExtend, hj, h, decide_true, Bool.true_and, if_true]

theorem wide_or (W : Nat) {n : Nat} (x y : BitVec n) : Signed.wide W x ||| Signed.wide W y = Signed.wide W (x ||| y) := by
  simp [Signed.wide, BitVec.signExtend_or]

theorem wide_and (W : Nat) {n : Nat} (x y : BitVec n) : Signed.wide W x &&& Signed.wide W y = Signed.wide W (x &&& y) := by
  simp [Signed.wide, BitVec.signExtend_and]

theorem wide_xor (W : Nat) {n : Nat} (x y : BitVec n) : Signed.wide W x ^^^ Signed.wide W y = Signed.wide W (x ^^^ y) := by
  simp [Signed.wide, BitVec.signExtend_xor]

theorem wide_not (W : Nat) {n : Nat} (h : 0 < n) (x : BitVec n) : ~~~(Signed.wide W x) = Signed.wide W (~~~x) := by
  simp [Signed.wide, BitVec.signExtend_not h]

theorem wide_toInt (W : Nat) {n : Nat} (x : BitVec n) : (Signed.wide W x).toInt = x.toInt := by
  rw [Signed.wide, BitVec.toInt_signExtend_of_le (by omega)]

/-- The comparison of the masked value with 0, given the mask of bit `i`: right below the sign bit, never true at it. -/
theorem masked_pos {n : Nat} (t m : BitVec n) (i : Nat) (hi : i < n) (hm : ∀ j, j < n → m.getLsbD j = decide (j = i)) :
    decide ((t &&& m).toInt > 0) = (t.getLsbD i && decide (i + 1 < n)) := by
  have hz := and_mask_eq_zero t m i hi hm
  have hmsb : (t &&& m).msb = (t.getLsbD i && decide (i + 1 = n)) := by
    rw [BitVec.msb_eq_getLsbD_last, BitVec.getLsbD_and, hm _ (by omega)]
    by_cases h : n - 1 = i
    · have h2 : i + 1 = n := by omega
      simp [h, h2]
    · have h2 : ¬ i + 1 = n := by omega
      simp [h, h2]
  rw [BitVec.toInt_eq_msb_cond, hmsb]
  cases hb : t.getLsbD i
  · simp only [Bool.false_and, Bool.false_eq_true, if_false, hz.mpr hb]
    simp
  · have hne : ¬ (t &&& m = 0#n) := fun hc => by simp [hz.mp hc] at hb
    have hpos : 0 < (t &&& m).toNat := Nat.pos_of_ne_zero fun h => hne (BitVec.eq_of_toNat_eq (by simpa using h))
    have hlt := (t &&& m).isLt
    by_cases h : i + 1 = n
    · have h2 : ¬ i + 1 < n := by omega
      rw [decide_eq_true h, decide_eq_false h2]
      simp only [Bool.and_self, if_true, Bool.and_false, decide_eq_false_iff_not]
      omega
    · have h2 : i + 1 < n := by omega
      simp only [h2, h, decide_true, decide_false, Bool.and_false, Bool.false_eq_true, if_false, Bool.and_true, decide_eq_true_eq]
      omega

theorem masked_zero {n : Nat} (t m : BitVec n) : decide ((t &&& m).toInt = 0) = decide (t &&& m = 0#n) := by
  refine decide_eq_decide.mpr ?_
  rw [← BitVec.toInt_inj, BitVec.toInt_zero]

/-- What the six helpers are to do with bit `i` of a signed value of `n` bits. -/
def SignedExact {n : Nat} (t : BitVec n) (i : Nat) (rset rreset rtog : Res (BitVec n)) (rsb : Bool → Res (BitVec n)) (rf : Res Bool) : Prop :=
  (∃ r, rset = .ok r ∧ ∀ j, j < n → r.getLsbD j = if j = i then true else t.getLsbD j) ∧
  (∃ r, rreset = .ok r ∧ ∀ j, j < n → r.getLsbD j = if j = i then false else t.getLsbD j) ∧
  (∀ v, ∃ r, rsb v = .ok r ∧ ∀ j, j < n → r.getLsbD j = if j = i then v else t.getLsbD j) ∧
  (∃ r, rtog = .ok r ∧ ∀ j, j < n → r.getLsbD j = if j = i then !t.getLsbD j else t.getLsbD j) ∧
  rf = .ok (!t.getLsbD i)

/-- **C109, partial (Bit).** On a signed value `Bit<i>` changes exactly bit `i`, the sign bit included, and `IsFalse` reports it; `IsTrue` reports it below the
    sign bit. Missing: `IsTrue` of the sign bit (false of the code) and 32-bit values on AVR from bit 15 on (C08). -/
theorem c109_bit_partial (W : Nat) {n : Nat} (t : BitVec n) (i : Nat) (hi : i < n) (hW : n ≤ W ∨ i + 1 < W) :
    SignedExact t i (Signed.Bit.set W i t) (Signed.Bit.reset W i t) (Signed.Bit.toggle W i t) (Signed.Bit.setBool W i t) (Signed.Bit.isFalse W i t) ∧
    (i + 1 < n → Signed.Bit.isTrue W i t = .ok (t.getLsbD i)) := by
  have hm : MaskOk W n i := ⟨hi, hW⟩
  have hn : 0 < n := by omega
  have hmask : Bits.Bit.getMask W n i = .ok (intToT n (1#W <<< i)) := by simp [Bits.Bit.getMask, shlOne_ok hm.ltW]
  have h := maskOps t i hi _ (mask_bit hm) (rset := Signed.Bit.set W i t) (rreset := Signed.Bit.reset W i t) (rtog := Signed.Bit.toggle W i t)
    (rsb := Signed.Bit.setBool W i t) (rf := Signed.Bit.isFalse W i t)
    (by simp only [Signed.Bit.set, hmask, Res.bind_ok, wide_or, narrow_wide])
    (by simp only [Signed.Bit.reset, hmask, Res.bind_ok, wide_not W hn, wide_and, narrow_wide])
    (fun v => by simp only [Signed.Bit.setBool, hmask, Res.bind_ok, wide_not W hn, wide_and, wide_or, narrow_wide])
    (by simp only [Signed.Bit.toggle, hmask, Res.bind_ok, wide_xor, narrow_wide]) rfl
    (by simp only [Signed.Bit.isFalse, hmask, Res.bind_ok, wide_and, wide_toInt, masked_zero])
  refine ⟨⟨h.1, h.2.1, h.2.2.1, h.2.2.2.1, h.2.2.2.2.2⟩, fun h2 => ?_⟩
  simp only [Signed.Bit.isTrue, hmask, Res.bind_ok, wide_and, wide_toInt, masked_pos t _ i hi (mask_bit hm), h2, decide_true, Bool.and_true]

example := c109_bit_partial 16 (0x8001#16) 15 (by decide) (by decide)

/-- **C109, partial (BitFlag).** The same for the index given at run time; an index beyond the width changes nothing. -/
theorem c109_bitflag_partial (W : Nat) {n : Nat} (t : BitVec n) (i : Nat) :
    (i < n → (n ≤ W ∨ i + 1 < W) →
      SignedExact t i (Signed.BitFlag.set W t i) (Signed.BitFlag.reset W t i) (Signed.BitFlag.toggle W t i) (Signed.BitFlag.setBool W t i)
        (Signed.BitFlag.isFalse W t i) ∧
      (i + 1 < n → Signed.BitFlag.isTrue W t i = .ok (t.getLsbD i))) ∧
    (n < i → Signed.BitFlag.set W t i = .ok t ∧ Signed.BitFlag.reset W t i = .ok t ∧ Signed.BitFlag.toggle W t i = .ok t ∧
      (∀ v, Signed.BitFlag.setBool W t i v = .ok t) ∧ Signed.BitFlag.isTrue W t i = .ok false ∧ Signed.BitFlag.isFalse W t i = .ok false) := by
  refine ⟨fun hi hW => ?_, fun hi => ?_⟩
  · have hm : MaskOk W n i := ⟨hi, hW⟩
    have hn : 0 < n := by omega
    have hr : Bits.BitFlag.rejects n i = false := by simp [Bits.BitFlag.rejects]; omega
    have hmask : Bits.BitFlag.bitToMask W n i = .ok (intToT n (1#W <<< i)) := by simp [Bits.BitFlag.bitToMask, shlOne_ok hm.ltW]
    have h := maskOps t i hi _ (mask_bit hm) (rset := Signed.BitFlag.set W t i) (rreset := Signed.BitFlag.reset W t i) (rtog := Signed.BitFlag.toggle W t i)
      (rsb := Signed.BitFlag.setBool W t i) (rf := Signed.BitFlag.isFalse W t i)
      (by simp only [Signed.BitFlag.set, hr, Bool.false_eq_true, if_false, hmask, Res.bind_ok, wide_or, narrow_wide])
      (by simp only [Signed.BitFlag.reset, hr, Bool.false_eq_true, if_false, hmask, Res.bind_ok, wide_not W hn, wide_and, narrow_wide])
      (fun v => by
        simp only [Signed.BitFlag.setBool, hr, Bool.false_eq_true, if_false, hmask, Res.bind_ok, wide_not W hn, wide_and, wide_or, narrow_wide])
      (by simp only [Signed.BitFlag.toggle, hr, Bool.false_eq_true, if_false, hmask, Res.bind_ok, wide_xor, narrow_wide]) rfl
      (by simp only [Signed.BitFlag.isFalse, hr, Bool.false_eq_true, if_false, hmask, Res.bind_ok, wide_and, wide_toInt, masked_zero])
    refine ⟨⟨h.1, h.2.1, h.2.2.1, h.2.2.2.1, h.2.2.2.2.2⟩, fun h2 => ?_⟩
    simp only [Signed.BitFlag.isTrue, hr, Bool.false_eq_true, if_false, hmask, Res.bind_ok, wide_and, wide_toInt, masked_pos t _ i hi (mask_bit hm), h2,
      decide_true, Bool.and_true]
  · have hr : Bits.BitFlag.rejects n i = true := by simp [Bits.BitFlag.rejects]; omega
    simp [Signed.BitFlag.set, Signed.BitFlag.reset, Signed.BitFlag.toggle, Signed.BitFlag.setBool, Signed.BitFlag.isTrue, Signed.BitFlag.isFalse, hr]

/-- **C109 fails** for the sign bit: `IsTrue` compares a negative number with 0, so it is false for every value of every signed type up to the width of `int`,
    also when the bit is set. -/
theorem c109_sign_fails (W : Nat) {n : Nat} (hn : 0 < n) (hW : n ≤ W) (t : BitVec n) :
    Signed.Bit.isTrue W (n - 1) t = .ok false ∧ Signed.BitFlag.isTrue W t (n - 1) = .ok false := by
  have hm : MaskOk W n (n - 1) := ⟨by omega, .inl hW⟩
  have hr : Bits.BitFlag.rejects n (n - 1) = false := by simp [Bits.BitFlag.rejects]
  have h2 : ¬ (n - 1 + 1 < n) := by omega
  have h1 : Bits.Bit.getMask W n (n - 1) = .ok (intToT n (1#W <<< (n - 1))) := by simp [Bits.Bit.getMask, shlOne_ok hm.ltW]
  have h3 : Bits.BitFlag.bitToMask W n (n - 1) = .ok (intToT n (1#W <<< (n - 1))) := by simp [Bits.BitFlag.bitToMask, shlOne_ok hm.ltW]
  constructor
  · simp only [Signed.Bit.isTrue, h1, Res.bind_ok, wide_and, wide_toInt, masked_pos t _ (n - 1) (by omega) (mask_bit hm), h2, decide_false, Bool.and_false]
  · simp only [Signed.BitFlag.isTrue, hr, Bool.false_eq_true, if_false, h3, Res.bind_ok, wide_and, wide_toInt,
      masked_pos t _ (n - 1) (by omega) (mask_bit hm), h2, decide_false, Bool.and_false]

/-- After `Bit<15>::Set` on an `int` of AVR both predicates say no. -/
example : Signed.Bit.set 16 15 (1#16) = .ok 0x8001#16 ∧ Signed.Bit.isTrue 16 15 (0x8001#16) = .ok false ∧ Signed.Bit.isFalse 16 15 (0x8001#16) = .ok false := by
  decide

/-- A bit below, on a negative value of a type narrower than `int`. -/
example : Signed.Bit.reset 16 3 (0xFF#8) = .ok 0xF7#8 ∧ Signed.BitFlag.isTrue 16 (0xF7#8) 4 = .ok true ∧ Signed.BitFlag.setBool 16 (0xF7#8) 7 false = .ok 0x77#8 := by
  decide

end Atl.Props
