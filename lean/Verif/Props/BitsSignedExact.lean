import Verif.Props.BitsSigned
import Verif.Props.Exact
/- C109 for every index and every width: the bit helpers on signed values wider than `int` too. -/
namespace Atl.Props
open Atl.Bits

/-- What the operations on one bit of a signed value do, when the index stands for the bits `M`. `IsTrue` compares as signed: it says no when the sign bit is among
    them and set. -/
structure ActsOnSigned {n : Nat} (t : BitVec n) (M : Nat → Prop) [DecidablePred M] (set reset toggle : Res (BitVec n)) (setBool : Bool → Res (BitVec n))
    (isTrue isFalse : Res Bool) : Prop where
  set : ∃ r, set = .ok r ∧ ∀ j, j < n → r.getLsbD j = if M j then true else t.getLsbD j
  reset : ∃ r, reset = .ok r ∧ ∀ j, j < n → r.getLsbD j = if M j then false else t.getLsbD j
  toggle : ∃ r, toggle = .ok r ∧ ∀ j, j < n → r.getLsbD j = if M j then !t.getLsbD j else t.getLsbD j
  setBool : ∀ v, ∃ r, setBool v = .ok r ∧ ∀ j, j < n → r.getLsbD j = if M j then v else t.getLsbD j
  isTrue : ∃ b, isTrue = .ok b ∧ (b = true ↔ (∃ j, j < n ∧ M j ∧ t.getLsbD j = true) ∧ ¬ (M (n - 1) ∧ t.getLsbD (n - 1) = true))
  isFalse : ∃ b, isFalse = .ok b ∧ (b = true ↔ ∀ j, j < n → M j → t.getLsbD j = false)

theorem toInt_pos {n : Nat} (x : BitVec n) : 0 < x.toInt ↔ x ≠ 0 ∧ x.msb = false := by
  rw [BitVec.toInt_eq_msb_cond]
  have hlt := x.isLt
  have hz : x ≠ 0 ↔ 0 < x.toNat := by
    rw [Nat.pos_iff_ne_zero, ne_eq, ne_eq, not_iff_not]
    exact ⟨fun h => by simp [h], fun h => BitVec.eq_of_toNat_eq (by simpa using h)⟩
  rw [hz]
  cases x.msb
  · simp
  · simp only [if_true, Bool.true_eq_false, and_false, iff_false]
    omega

theorem acts_signed (W : Nat) {n : Nat} (hn : 0 < n) (t m : BitVec n) (M : Nat → Prop) [DecidablePred M] (hm : ∀ j, j < n → m.getLsbD j = decide (M j)) :
    ActsOnSigned t M (.ok (Signed.narrow n (Signed.wide W t ||| Signed.wide W m))) (.ok (Signed.narrow n (Signed.wide W t &&& ~~~(Signed.wide W m))))
      (.ok (Signed.narrow n (Signed.wide W t ^^^ Signed.wide W m)))
      (fun v => .ok (if v then Signed.narrow n (Signed.wide W (Signed.narrow n (Signed.wide W t &&& ~~~(Signed.wide W m))) ||| Signed.wide W m)
        else Signed.narrow n (Signed.wide W t &&& ~~~(Signed.wide W m))))
      (.ok (decide ((Signed.wide W t &&& Signed.wide W m).toInt > 0))) (.ok (decide ((Signed.wide W t &&& Signed.wide W m).toInt = 0))) := by
  simp only [wide_not W hn, wide_and, wide_or, wide_xor, narrow_wide, wide_toInt]
  obtain ⟨a1, a2, a3, a4, a5⟩ := acts_mask t m M hm
  refine ⟨a1, a2, ⟨_, rfl, fun j hj => ?_⟩, a3, ⟨_, rfl, ?_⟩, ⟨_, rfl, ?_⟩⟩
  · rw [BitVec.getLsbD_xor, hm j hj]; by_cases h : M j <;> simp [h]
  · rw [decide_eq_true_iff, gt_iff_lt, toInt_pos, ne_eq, and_zero_iff t m M hm, not_all, BitVec.msb_eq_getLsbD_last, BitVec.getLsbD_and, hm _ (by omega)]
    refine and_congr_right fun _ => ?_
    by_cases h : M (n - 1) <;> simp [h]
  · rw [decide_eq_true_iff, ← BitVec.toInt_zero (w := n), BitVec.toInt_inj]
    exact and_zero_iff t m M hm

/-- **C109, all indices (Bit).** Below the width of `int` the index stands for the bit of that number, the last one for all bits from there on (in a type wider
    than `int`); from the width of `int` on everything is undefined. -/
theorem c109_bit_exact (W : Nat) {n : Nat} (hn : 0 < n) (t : BitVec n) (i : Nat) :
    (i < W → ActsOnSigned t (Touched W i) (Signed.Bit.set W i t) (Signed.Bit.reset W i t) (Signed.Bit.toggle W i t) (Signed.Bit.setBool W i t)
      (Signed.Bit.isTrue W i t) (Signed.Bit.isFalse W i t)) ∧
    (W ≤ i → Signed.Bit.set W i t = .ub ∧ Signed.Bit.reset W i t = .ub ∧ Signed.Bit.toggle W i t = .ub ∧ (∀ v, Signed.Bit.setBool W i t v = .ub) ∧
      Signed.Bit.isTrue W i t = .ub ∧ Signed.Bit.isFalse W i t = .ub) := by
  constructor
  · intro h
    have := acts_signed W hn t (intToT n (1#W <<< i)) (Touched W i) (fun j hj => mask_touched h j hj)
    unfold Signed.Bit.set Signed.Bit.reset Signed.Bit.toggle Signed.Bit.setBool Signed.Bit.isTrue Signed.Bit.isFalse Bits.Bit.getMask
    simpa only [shlOne_ok h, Res.bind_ok] using this
  · intro h
    have hs : shlOne W i = .ub := by simp [shlOne]; omega
    simp [Signed.Bit.set, Signed.Bit.reset, Signed.Bit.toggle, Signed.Bit.setBool, Signed.Bit.isTrue, Signed.Bit.isFalse, Bits.Bit.getMask, hs]

example := c109_bit_exact 16 (by decide) (0x80008000#32) 15

/-- **C109, all indices (BitFlag).** Beyond the width of the value an index is refused; otherwise as for `Bit`. -/
theorem c109_bitflag_exact (W : Nat) {n : Nat} (hn : 0 < n) (t : BitVec n) (i : Nat) :
    (i ≤ n → i < W → ActsOnSigned t (Touched W i) (Signed.BitFlag.set W t i) (Signed.BitFlag.reset W t i) (Signed.BitFlag.toggle W t i)
      (Signed.BitFlag.setBool W t i) (Signed.BitFlag.isTrue W t i) (Signed.BitFlag.isFalse W t i)) ∧
    (i ≤ n → W ≤ i → Signed.BitFlag.set W t i = .ub ∧ Signed.BitFlag.reset W t i = .ub ∧ Signed.BitFlag.toggle W t i = .ub ∧
      (∀ v, Signed.BitFlag.setBool W t i v = .ub) ∧ Signed.BitFlag.isTrue W t i = .ub ∧ Signed.BitFlag.isFalse W t i = .ub) ∧
    (n < i → Signed.BitFlag.set W t i = .ok t ∧ Signed.BitFlag.reset W t i = .ok t ∧ Signed.BitFlag.toggle W t i = .ok t ∧
      (∀ v, Signed.BitFlag.setBool W t i v = .ok t) ∧ Signed.BitFlag.isTrue W t i = .ok false ∧ Signed.BitFlag.isFalse W t i = .ok false) := by
  refine ⟨fun hi h => ?_, fun hi h => ?_, (c109_bitflag_partial W t i).2⟩
  · have := acts_signed W hn t (intToT n (1#W <<< i)) (Touched W i) (fun j hj => mask_touched h j hj)
    have hr : Bits.BitFlag.rejects n i = false := by simp [Bits.BitFlag.rejects]; omega
    unfold Signed.BitFlag.set Signed.BitFlag.reset Signed.BitFlag.toggle Signed.BitFlag.setBool Signed.BitFlag.isTrue Signed.BitFlag.isFalse Bits.BitFlag.bitToMask
    simpa only [hr, Bool.false_eq_true, if_false, shlOne_ok h, Res.bind_ok] using this
  · have hs : shlOne W i = .ub := by simp [shlOne]; omega
    have hr : Bits.BitFlag.rejects n i = false := by simp [Bits.BitFlag.rejects]; omega
    simp [Signed.BitFlag.set, Signed.BitFlag.reset, Signed.BitFlag.toggle, Signed.BitFlag.setBool, Signed.BitFlag.isTrue, Signed.BitFlag.isFalse,
      Bits.BitFlag.bitToMask, hs, hr]

/- Bit 15 of a `long` on AVR: Set fills the upper half with ones, and IsTrue sees bits 15 to 30 but says no to a negative number. -/
example : Signed.Bit.set 16 15 (0x00000001#32) = .ok 0xFFFF8001#32 ∧ Signed.Bit.isTrue 16 15 (0x00010000#32) = .ok true ∧
    Signed.Bit.isTrue 16 15 (0x80008000#32) = .ok false ∧ Signed.Bit.toggle 16 16 (1#32) = .ub ∧ Signed.BitFlag.isFalse 16 (0xFF#8) 8 = .ok true := by
  decide

/-- **C08, all indices (Toggle).** The bits the index stands for change and no other; undefined from the width of `int` on; an index beyond the width of the word
    is refused by `BitFlag`. -/
theorem c08_toggle_exact (W : Nat) {n : Nat} (t : BitVec n) (i : Nat) :
    (i < W → ∃ r, Bit.toggle W i t = .ok r ∧ ∀ j, j < n → r.getLsbD j = if Touched W i j then !t.getLsbD j else t.getLsbD j) ∧
    (W ≤ i → Bit.toggle W i t = .ub) ∧
    (BitFlag.toggle W t i = if n < i then .ok t else Bit.toggle W i t) := by
  refine ⟨fun h => ?_, fun h => ?_, ?_⟩
  · refine ⟨t ^^^ intToT n (1#W <<< i), by simp only [Bit.toggle, Bit.getMask, shlOne_ok h, Res.bind_ok], fun j hj => ?_⟩
    rw [BitVec.getLsbD_xor, mask_touched h j hj]
    by_cases hM : Touched W i j <;> simp [hM]
  · have hs : shlOne W i = .ub := by simp [shlOne]; omega
    simp [Bit.toggle, Bit.getMask, hs]
  · by_cases h : n < i
    · simp [BitFlag.toggle, BitFlag.rejects, h]
    · simp only [BitFlag.toggle, BitFlag.rejects, h, decide_false, Bool.false_eq_true, if_false, BitFlag.bitToMask, Bit.toggle, Bit.getMask]

example : Bit.toggle 16 15 (0x00018000#32) = .ok 0xFFFE0000#32 ∧ BitFlag.toggle 16 (0x55#8) 8 = .ok 0x55#8 ∧ BitFlag.toggle 16 (0x55#8) 9 = .ok 0x55#8 := by decide

end Atl.Props
