import Verif.Model.Bits
/- Helper lemmas for the bit classes. -/
namespace Atl.Bits

/-- Condition under which `1 << i` (an `int` of `W` bits) is the mask of bit `i` in an `n`-bit word. -/
def MaskOk (W n i : Nat) : Prop := i < n ∧ (n ≤ W ∨ i + 1 < W)

theorem MaskOk.ltW {W n i : Nat} (h : MaskOk W n i) : i < W := by
  unfold MaskOk at h; omega

theorem mask_bit {W n i : Nat} (h : MaskOk W n i) (j : Nat) (hj : j < n) :
    (intToT n (1#W <<< i)).getLsbD j = decide (j = i) := by
  have hW := h.ltW
  obtain ⟨hi, hc⟩ := h
  unfold intToT
  rw [BitVec.getLsbD_signExtend, ← BitVec.twoPow_eq, BitVec.msb_twoPow]
  by_cases hjW : j < W
  · simp [hj, hjW, BitVec.getLsbD_twoPow, hW, eq_comm]
  · have : ¬ (i = W - 1) := by omega
    have : ¬ (j = i) := by omega
    simp [hj, hjW, *] <;> omega

theorem shlOne_ok {W i : Nat} (h : i < W) : shlOne W i = .ok (1#W <<< i) := by simp [shlOne, h]

theorem maskNot_bit {W n i : Nat} (h : MaskOk W n i) (j : Nat) (hj : j < n) :
    (intToT n (~~~(1#W <<< i))).getLsbD j = !decide (j = i) := by
  have hW := h.ltW
  obtain ⟨hi, hc⟩ := h
  unfold intToT
  rw [BitVec.getLsbD_signExtend, ← BitVec.twoPow_eq, BitVec.msb_not, BitVec.msb_twoPow]
  by_cases hjW : j < W
  · simp [hj, hjW, BitVec.getLsbD_twoPow, hW, eq_comm]
  · have : ¬ (i = W - 1) := by omega
    have : ¬ (j = i) := by omega
    simp [hj, hjW, *] <;> omega

theorem createMask_bit (n c j : Nat) (hj : j < n) :
    (BitArray.createMask n c).getLsbD j = decide (j < c) := by
  induction c generalizing j with
  | zero => simp [BitArray.createMask]
  | succ c ih =>
    simp only [BitArray.createMask, BitVec.getLsbD_or, BitVec.getLsbD_shiftLeft, BitVec.getLsbD_one]
    by_cases h0 : j = 0
    · subst h0; simp; omega
    · have := ih (j - 1) (by omega)
      rw [this]
      simp [hj, h0]
      omega

theorem createMask_lt (n c : Nat) (_h : c ≤ n) : (BitArray.createMask n c).toNat < 2 ^ c := by
  apply Nat.lt_pow_two_of_testBit
  intro i hi
  rw [BitVec.testBit_toNat]
  by_cases hn : i < n
  · rw [createMask_bit n c i hn]; simp; omega
  · exact BitVec.getLsbD_of_ge _ _ (by omega)

theorem and_createMask_lt {n : Nat} (v : BitVec n) (c : Nat) (h : c ≤ n) :
    (v &&& BitArray.createMask n c).toNat < 2 ^ c := by
  rw [BitVec.toNat_and]
  exact Nat.lt_of_le_of_lt Nat.and_le_right (createMask_lt n c h)

theorem shlT_ok {W n : Nat} (x : BitVec n) (idx c : Nat) (hx : x.toNat < 2 ^ c) (h : idx + c ≤ n)
    (h0 : idx < max n W) : shlT W x idx = .ok (x <<< idx) := by
  unfold shlT
  split
  · rename_i hn
    rw [if_pos]
    refine ⟨by omega, ?_⟩
    calc x.toNat * 2 ^ idx < 2 ^ c * 2 ^ idx := Nat.mul_lt_mul_of_pos_right hx (Nat.two_pow_pos _)
      _ = 2 ^ (c + idx) := (Nat.pow_add 2 c idx).symm
      _ ≤ 2 ^ W := Nat.pow_le_pow_right (by omega) (by omega)
  · rw [if_pos (by omega)]

theorem and_mask_eq_zero {n : Nat} (t m : BitVec n) (i : Nat) (hi : i < n)
    (hm : ∀ j, j < n → m.getLsbD j = decide (j = i)) : (t &&& m = 0) ↔ t.getLsbD i = false := by
  constructor
  · intro h
    have := congrArg (fun x => x.getLsbD i) h
    simpa [hm i hi] using this
  · intro h
    apply BitVec.eq_of_getLsbD_eq
    intro j hj
    simp only [BitVec.getLsbD_and, hm j hj]
    by_cases hji : j = i
    · subst hji; simp [h]
    · simp [hji]

theorem reverseLoop_bit {n : Nat} (c : Nat) (bits rv : BitVec n) (j : Nat) (hj : j < n) :
    (BitArray.reverseLoop c bits rv).getLsbD j =
      if j < c then bits.getLsbD (c - 1 - j) else rv.getLsbD (j - c) := by
  induction c generalizing bits rv with
  | zero => simp [BitArray.reverseLoop]
  | succ c ih =>
    rw [BitArray.reverseLoop, ih]
    by_cases h1 : j < c
    · have : j < c + 1 := by omega
      simp only [h1, this, if_true, BitVec.getLsbD_ushiftRight]
      congr 1; omega
    · by_cases h2 : j = c
      · subst h2
        have hn : 0 < n := by omega
        simp [hn]
      · have h3 : ¬ j < c + 1 := by omega
        have h4 : ¬ (j - c < 1) := by omega
        have h5 : ¬ (j - c = 0) := by omega
        have h6 : j - c < n := by omega
        simp only [h1, h3, if_false, BitVec.getLsbD_or, BitVec.getLsbD_shiftLeft, h4, h6,
          BitVec.getLsbD_and, BitVec.getLsbD_one]
        simp [h5]
        congr 1

theorem signExtend_common {W n i : Nat} (h : MaskOk W n i) (j : Nat) (hj : j < n) :
    ((1#W <<< i).signExtend (max n W)).getLsbD j = decide (j = i) := by
  have h1 := mask_bit h j hj
  unfold intToT at h1
  rw [BitVec.getLsbD_signExtend] at h1 ⊢
  have : j < max n W := by omega
  simp only [hj, decide_true, Bool.true_and] at h1
  simp only [this, decide_true, Bool.true_and]
  exact h1

theorem common_eq {W n i : Nat} (bits : BitVec n) (h : MaskOk W n i) (j : Nat) :
    (bits.setWidth (max n W) &&& (1#W <<< i).signExtend (max n W)).getLsbD j =
      (decide (j = i) && bits.getLsbD i) := by
  by_cases hj : j < n
  · rw [BitVec.getLsbD_and, signExtend_common h j hj, BitVec.getLsbD_setWidth]
    have : j < max n W := by omega
    by_cases hji : j = i
    · subst hji; simp [this]
    · simp [hji]
  · have hji : j ≠ i := by have := h.1; omega
    rw [BitVec.getLsbD_and, BitVec.getLsbD_setWidth, BitVec.getLsbD_of_ge bits j (by omega)]
    simp [hji]

theorem andEq0_eq {W n i : Nat} (bits : BitVec n) (h : MaskOk W n i) :
    andIntEq0 bits (1#W <<< i) = !bits.getLsbD i := by
  unfold andIntEq0
  have hi : i < max n W := by have := h.1; omega
  rw [Bool.eq_iff_iff]
  simp only [decide_eq_true_eq, Bool.not_eq_true']
  constructor
  · intro he
    have := common_eq bits h i
    rw [he] at this
    simpa using this.symm
  · intro hb
    apply BitVec.eq_of_getLsbD_eq
    intro j _
    rw [common_eq bits h j, hb]; simp

theorem andGt0_eq {W n i : Nat} (bits : BitVec n) (h : MaskOk W n i) :
    andIntGt0 bits (1#W <<< i) = bits.getLsbD i := by
  have h0 := andEq0_eq bits h
  unfold andIntEq0 at h0
  unfold andIntGt0
  simp only
  split
  · rename_i hn
    -- the sign bit of the common (int) type is not involved
    have hmsb : (bits.setWidth (max n W) &&& (1#W <<< i).signExtend (max n W)).msb = false := by
      rw [BitVec.msb_eq_getLsbD_last, common_eq bits h]
      have := h.1
      have hne : ¬ (max n W - 1 = i) := by omega
      simp [hne]
    generalize bits.setWidth (max n W) &&& (1#W <<< i).signExtend (max n W) = y at h0 hmsb ⊢
    rw [← Bool.not_not (bits.getLsbD i), ← h0, ← decide_not, decide_eq_decide,
      BitVec.toInt_eq_msb_cond, hmsb]
    simp only [Bool.false_eq_true, if_false]
    constructor
    · intro hp hc
      subst hc
      simp at hp
    · intro hz
      have hz' : y.toNat ≠ 0 := by
        intro hc
        apply hz
        apply BitVec.eq_of_toNat_eq
        simpa using hc
      omega
  · rw [← Bool.not_not (bits.getLsbD i), ← h0, ← decide_not]

/-- All six mask operations, given the mask of bit `i`. -/
theorem maskOps {n : Nat} (t : BitVec n) (i : Nat) (hi : i < n) (m : BitVec n)
    (hm : ∀ j, j < n → m.getLsbD j = decide (j = i))
    {rset rreset rtog : Res (BitVec n)} {rsb : Bool → Res (BitVec n)} {rt rf : Res Bool}
    (h1 : rset = .ok (t ||| m)) (h2 : rreset = .ok (t &&& ~~~m))
    (h3 : ∀ v, rsb v = .ok (if v = true then (t &&& ~~~m) ||| m else t &&& ~~~m))
    (h4 : rtog = .ok (t ^^^ m)) (h5 : rt = .ok (!decide (t &&& m = 0#n)))
    (h6 : rf = .ok (decide (t &&& m = 0#n))) :
    (∃ r, rset = .ok r ∧ ∀ j, j < n → r.getLsbD j = if j = i then true else t.getLsbD j) ∧
    (∃ r, rreset = .ok r ∧ ∀ j, j < n → r.getLsbD j = if j = i then false else t.getLsbD j) ∧
    (∀ v, ∃ r, rsb v = .ok r ∧ ∀ j, j < n → r.getLsbD j = if j = i then v else t.getLsbD j) ∧
    (∃ r, rtog = .ok r ∧ ∀ j, j < n → r.getLsbD j = if j = i then !t.getLsbD j else t.getLsbD j) ∧
    rt = .ok (t.getLsbD i) ∧ rf = .ok (!t.getLsbD i) := by
  have hz := and_mask_eq_zero t m i hi hm
  refine ⟨⟨_, h1, ?_⟩, ⟨_, h2, ?_⟩, fun v => ⟨_, h3 v, ?_⟩, ⟨_, h4, ?_⟩, ?_, ?_⟩
  · intro j hj
    simp only [BitVec.getLsbD_or, hm j hj]
    by_cases h : j = i <;> simp [h]
  · intro j hj
    simp only [BitVec.getLsbD_and, BitVec.getLsbD_not, hm j hj, hj]
    by_cases h : j = i <;> simp [h]
  · intro j hj
    have hmj := hm j hj
    cases v
    all_goals simp only [Bool.false_eq_true, if_false, if_true, BitVec.getLsbD_or,
        BitVec.getLsbD_and, BitVec.getLsbD_not, hmj, hj]
    all_goals by_cases h : j = i <;> simp [h]
  · intro j hj
    simp only [BitVec.getLsbD_xor, hm j hj]
    by_cases h : j = i <;> simp [h]
  · rw [h5]
    cases hb : t.getLsbD i
    · simp [hz.mpr hb]
    · have : ¬ (t &&& m = 0#n) := fun hc => by simp [hz.mp hc] at hb
      simp [this]
  · rw [h6]
    cases hb : t.getLsbD i
    · simp [hz.mpr hb]
    · have : ¬ (t &&& m = 0#n) := fun hc => by simp [hz.mp hc] at hb
      simp [this]

theorem reverse8_bit (b : BitVec 8) (j : Nat) (hj : j < 8) :
    (BitArray.reverse8 b).getLsbD j = b.getLsbD (8 - 1 - j) := by
  unfold BitArray.reverse8
  match j, hj with
  | 0, _ | 1, _ | 2, _ | 3, _ | 4, _ | 5, _ | 6, _ | 7, _ => simp

theorem reverse16_bit (b : BitVec 16) (j : Nat) (hj : j < 16) :
    (BitArray.reverse16 b).getLsbD j = b.getLsbD (16 - 1 - j) := by
  unfold BitArray.reverse16
  rcases (by omega : j = 0 ∨ j = 1 ∨ j = 2 ∨ j = 3 ∨ j = 4 ∨ j = 5 ∨ j = 6 ∨ j = 7 ∨ j = 8 ∨ j = 9 ∨
    j = 10 ∨ j = 11 ∨ j = 12 ∨ j = 13 ∨ j = 14 ∨ j = 15) with
    rfl | rfl | rfl | rfl | rfl | rfl | rfl | rfl | rfl | rfl | rfl | rfl | rfl | rfl | rfl | rfl <;> simp

end Atl.Bits
