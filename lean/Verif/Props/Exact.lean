import Verif.Props.Bits
import Verif.Props.Serial3Wire
import Verif.Props.Arduino
import Verif.Props.Misc
import Verif.Props.UsartStream
import Verif.Props.Port
import Verif.Props.Motor
import Verif.Props.Sonar

/- Completions of partial theorems: what the code does for all inputs, where the property itself is false for some of them. -/
namespace Atl.Props
open Atl.Bits

/-! ### C06, C08: every index, every width of word and `int` -/

/-- The bits that index `i` stands for where `int` has `W` bits: bit `i`, but from the sign bit of `int` upwards all bits. -/
def Touched (W i j : Nat) : Prop := if i + 1 = W then i ≤ j else j = i

instance (W i j : Nat) : Decidable (Touched W i j) := by unfold Touched; infer_instance

/-- `1 << i` as an operand of the word's type. -/
theorem mask_touched {W n i : Nat} (hW : i < W) (j : Nat) (hj : j < n) : (intToT n (1#W <<< i)).getLsbD j = decide (Touched W i j) := by
  unfold intToT Touched
  rw [BitVec.getLsbD_signExtend, ← BitVec.twoPow_eq, BitVec.msb_twoPow]
  by_cases hjW : j < W
  · by_cases h : i + 1 = W
    · simp only [hj, hjW, decide_true, Bool.true_and, if_true, BitVec.getLsbD_twoPow, hW, h]
      by_cases hij : i = j
      · simp [hij]
      · simp only [hij, decide_false]
        symm; simp only [decide_eq_false_iff_not]; omega
    · simp [hj, hjW, BitVec.getLsbD_twoPow, hW, h, eq_comm]
  · by_cases h : i + 1 = W
    · have h1 : i = W - 1 := by omega
      have h2 : 0 < W := by omega
      simp only [hj, hjW, decide_true, Bool.true_and, if_false, h, if_true]
      simp only [h1, h2, decide_true, Bool.true_and]
      have : W - 1 ≤ j := by omega
      simp [this]
      omega
    · have h1 : ¬ i = W - 1 := by omega
      have h2 : ¬ j = i := by omega
      simp [hj, hjW, h, h1, h2]

theorem mask_not {W n i : Nat} (hW : i < W) (j : Nat) (hj : j < n) : (intToT n (~~~(1#W <<< i))).getLsbD j = !decide (Touched W i j) := by
  rw [← mask_touched hW j hj]
  unfold intToT
  rw [BitVec.getLsbD_signExtend, BitVec.getLsbD_signExtend]
  have hm : (~~~(1#W <<< i)).msb = !(1#W <<< i).msb := by
    rw [BitVec.msb_not]
    have : 0 < W := by omega
    simp [this]
  by_cases hjW : j < W
  · simp [hj, hjW]
  · simp [hj, hjW, hm]

/-- What the operations on one bit do, when index `i` stands for the bits `M`. -/
structure ActsOn {n : Nat} (t : BitVec n) (M : Nat → Prop) [DecidablePred M] (set reset : Res (BitVec n)) (setBool : Bool → Res (BitVec n)) (isTrue isFalse : Res Bool) : Prop where
  set : ∃ r, set = .ok r ∧ ∀ j, j < n → r.getLsbD j = if M j then true else t.getLsbD j
  reset : ∃ r, reset = .ok r ∧ ∀ j, j < n → r.getLsbD j = if M j then false else t.getLsbD j
  setBool : ∀ v, ∃ r, setBool v = .ok r ∧ ∀ j, j < n → r.getLsbD j = if M j then v else t.getLsbD j
  isTrue : ∃ b, isTrue = .ok b ∧ (b = true ↔ ∃ j, j < n ∧ M j ∧ t.getLsbD j = true)
  isFalse : ∃ b, isFalse = .ok b ∧ (b = true ↔ ∀ j, j < n → M j → t.getLsbD j = false)

theorem and_zero_iff {n : Nat} (t m : BitVec n) (M : Nat → Prop) [DecidablePred M] (hm : ∀ j, j < n → m.getLsbD j = decide (M j)) :
    t &&& m = 0 ↔ ∀ j, j < n → M j → t.getLsbD j = false := by
  constructor
  · intro h j hj hM
    have := congrArg (fun x => BitVec.getLsbD x j) h
    simpa [hm j hj, hM] using this
  · intro h
    apply BitVec.eq_of_getLsbD_eq
    intro j hj
    rw [BitVec.getLsbD_and, hm j hj]
    by_cases hM : M j
    · simp [h j hj hM]
    · simp [hM]

theorem not_all {n : Nat} (t : BitVec n) (M : Nat → Prop) : (¬ ∀ j, j < n → M j → t.getLsbD j = false) ↔ ∃ j, j < n ∧ M j ∧ t.getLsbD j = true := by
  constructor
  · intro h
    apply Classical.byContradiction
    intro hc
    apply h
    intro j hj hM
    cases hb : t.getLsbD j with
    | false => rfl
    | true => exact absurd ⟨j, hj, hM, hb⟩ hc
  · rintro ⟨j, hj, hM, hb⟩ h
    rw [h j hj hM] at hb
    exact absurd hb (by decide)

/-- A word and a mask of the word's type. -/
theorem acts_mask {n : Nat} (t m : BitVec n) (M : Nat → Prop) [DecidablePred M] (hm : ∀ j, j < n → m.getLsbD j = decide (M j)) :
    ActsOn t M (.ok (t ||| m)) (.ok (t &&& ~~~m)) (fun v => .ok (if v then (t &&& ~~~m) ||| m else t &&& ~~~m)) (.ok (decide (t &&& m ≠ 0))) (.ok (decide (t &&& m = 0))) := by
  refine ⟨⟨_, rfl, fun j hj => ?_⟩, ⟨_, rfl, fun j hj => ?_⟩, fun v => ⟨_, rfl, fun j hj => ?_⟩, ⟨_, rfl, ?_⟩, ⟨_, rfl, ?_⟩⟩
  · rw [BitVec.getLsbD_or, hm j hj]; by_cases h : M j <;> simp [h]
  · rw [BitVec.getLsbD_and, BitVec.getLsbD_not, hm j hj]; by_cases h : M j <;> simp [h, hj]
  · cases v
    · rw [if_neg (by decide), BitVec.getLsbD_and, BitVec.getLsbD_not, hm j hj]; by_cases h : M j <;> simp [h, hj]
    · rw [if_pos rfl, BitVec.getLsbD_or, BitVec.getLsbD_and, BitVec.getLsbD_not, hm j hj]; by_cases h : M j <;> simp [h, hj]
  · rw [decide_eq_true_iff, ne_eq, and_zero_iff t m M hm, not_all]
  · rw [decide_eq_true_iff, and_zero_iff t m M hm]

/-- **C08, all indices (Bit).** Below the width of `int` the index stands for the bit of that number, the last one for all bits from there on; from the width
    of `int` on everything is undefined. -/
theorem c08_bit_exact (W : Nat) {n : Nat} (t : BitVec n) (i : Nat) :
    (i < W → ActsOn t (Touched W i) (Bit.set W i t) (Bit.reset W i t) (Bit.setBool W i t) (Bit.isTrue W i t) (Bit.isFalse W i t)) ∧
    (W ≤ i → Bit.set W i t = .ub ∧ Bit.reset W i t = .ub ∧ (∀ v, Bit.setBool W i t v = .ub) ∧ Bit.isTrue W i t = .ub ∧ Bit.isFalse W i t = .ub) := by
  constructor
  · intro h
    have := acts_mask t (intToT n (1#W <<< i)) (Touched W i) (fun j hj => mask_touched h j hj)
    unfold Bit.set Bit.reset Bit.setBool Bit.isTrue Bit.isFalse Bit.getMask
    simpa only [shlOne_ok h, Res.bind_ok] using this
  · intro h
    have hs : shlOne W i = .ub := by simp [shlOne]; omega
    simp [Bit.set, Bit.reset, Bit.setBool, Bit.isTrue, Bit.isFalse, Bit.getMask, hs]

/-- **C08, all indices (BitFlag).** Beyond the width of the word an index is refused; otherwise as for `Bit`, the index equal to the width included: it stands
    for no bit, so that `IsFalse` is true, or it is undefined. -/
theorem c08_bitflag_exact (W : Nat) {n : Nat} (t : BitVec n) (i : Nat) :
    (i ≤ n → i < W →
      ActsOn t (Touched W i) (BitFlag.set W t i) (BitFlag.reset W t i) (BitFlag.setBool W t i) (BitFlag.isTrue W t i) (BitFlag.isFalse W t i)) ∧
    (i ≤ n → W ≤ i → BitFlag.set W t i = .ub ∧ BitFlag.reset W t i = .ub ∧ (∀ v, BitFlag.setBool W t i v = .ub) ∧ BitFlag.isTrue W t i = .ub ∧
      BitFlag.isFalse W t i = .ub) ∧
    (n < i → BitFlag.set W t i = .ok t ∧ BitFlag.reset W t i = .ok t ∧ (∀ v, BitFlag.setBool W t i v = .ok t) ∧ BitFlag.isTrue W t i = .ok false ∧
      BitFlag.isFalse W t i = .ok false) := by
  refine ⟨fun hn h => ?_, fun hn h => ?_, fun hn => ?_⟩
  · have := acts_mask t (intToT n (1#W <<< i)) (Touched W i) (fun j hj => mask_touched h j hj)
    have hr : BitFlag.rejects n i = false := by simp [BitFlag.rejects]; omega
    unfold BitFlag.set BitFlag.reset BitFlag.setBool BitFlag.isTrue BitFlag.isFalse BitFlag.bitToMask
    simpa only [hr, Bool.false_eq_true, if_false, shlOne_ok h, Res.bind_ok] using this
  · have hs : shlOne W i = .ub := by simp [shlOne]; omega
    have hr : BitFlag.rejects n i = false := by simp [BitFlag.rejects]; omega
    simp [BitFlag.set, BitFlag.reset, BitFlag.setBool, BitFlag.isTrue, BitFlag.isFalse, BitFlag.bitToMask, hs, hr]
  · have hr : BitFlag.rejects n i = true := by simp [BitFlag.rejects]; omega
    simp [BitFlag.set, BitFlag.reset, BitFlag.setBool, BitFlag.isTrue, BitFlag.isFalse, hr]

theorem common_touched {W n i : Nat} (bits : BitVec n) (h : i < W) :
    (bits.setWidth (max n W) &&& (1#W <<< i).signExtend (max n W) = 0) ↔ ∀ j, j < n → Touched W i j → bits.getLsbD j = false := by
  constructor
  · intro he j hj hM
    have := congrArg (fun x => BitVec.getLsbD x j) he
    have hm := mask_touched (n := max n W) h j (by omega)
    unfold intToT at hm
    simp only [BitVec.getLsbD_and, hm, hM, decide_true, Bool.and_true, BitVec.getLsbD_setWidth] at this
    simpa [show j < max n W by omega] using this
  · intro hb
    apply BitVec.eq_of_getLsbD_eq
    intro j hj
    have hm := mask_touched (n := max n W) h j hj
    unfold intToT at hm
    rw [BitVec.getLsbD_and, hm, BitVec.getLsbD_setWidth]
    by_cases hjn : j < n
    · by_cases hM : Touched W i j
      · simp [hb j hjn hM]
      · simp [hM]
    · simp [BitVec.getLsbD_of_ge bits j (by omega)]

/-- The word and the flag of the result: only successful calls. -/
def accepted {n : Nat} (x : Res (BitVec n × Bool)) : Res (BitVec n) := do
  let (r, b) ← x
  if b then .ok r else .ub

/-- **C06, all indices.** A valid index stands for the bit of that number where `int` is wide enough; on a target with a narrower `int` the index of its sign
    bit stands for all bits from there on, and the ones above are undefined. -/
theorem c06_exact (W : Nat) {n : Nat} (bits : BitVec n) (i : Nat) (hi : i < n) :
    (i < W → ActsOn bits (Touched W i) (accepted (BitArray.set W bits i)) (accepted (BitArray.reset W bits i)) (fun v => accepted (BitArray.setBool W bits i v))
      (BitArray.isTrue W bits i) (BitArray.isFalse W bits i)) ∧
    (W ≤ i → BitArray.set W bits i = .ub ∧ BitArray.reset W bits i = .ub ∧ (∀ v, BitArray.setBool W bits i v = .ub) ∧ BitArray.isTrue W bits i = .ub ∧
      BitArray.isFalse W bits i = .ub) := by
  have hv : BitArray.isValidIndex n i 1 = true := by simp [BitArray.isValidIndex]; omega
  constructor
  · intro h
    have key := acts_mask bits (intToT n (1#W <<< i)) (Touched W i) (fun j hj => mask_touched h j hj)
    refine ⟨?_, ?_, fun v => ?_, ?_, ?_⟩
    · simpa only [accepted, BitArray.set, hv, Bool.not_true, Bool.false_eq_true, if_false, shlOne_ok h, Res.bind_ok, if_true] using key.set
    · refine ⟨bits &&& intToT n (~~~(1#W <<< i)), by
        simp only [accepted, BitArray.reset, hv, Bool.not_true, Bool.false_eq_true, if_false, shlOne_ok h, Res.bind_ok, if_true], fun j hj => ?_⟩
      rw [BitVec.getLsbD_and, mask_not h j hj]
      by_cases hM : Touched W i j <;> simp [hM]
    · simpa only [accepted, BitArray.setBool, hv, Bool.not_true, Bool.false_eq_true, if_false, shlOne_ok h, Res.bind_ok, if_true] using key.setBool v
    · refine ⟨andIntGt0 bits (1#W <<< i), by
        simp only [BitArray.isTrue, hv, Bool.not_true, Bool.false_eq_true, if_false, shlOne_ok h, Res.bind_ok], ?_⟩
      rw [← not_all, ← common_touched bits h]
      unfold andIntGt0
      simp only
      split
      · next hn =>
        have hmsb : (bits.setWidth (max n W) &&& (1#W <<< i).signExtend (max n W)).msb = false := by
          rw [BitVec.msb_and, BitVec.msb_eq_getLsbD_last, BitVec.getLsbD_setWidth, BitVec.getLsbD_of_ge bits _ (by omega)]
          simp
        rw [decide_eq_true_iff, BitVec.toInt_eq_toNat_of_msb hmsb]
        constructor
        · intro h0 he
          rw [he] at h0
          simp at h0
        · intro h0
          have : (bits.setWidth (max n W) &&& (1#W <<< i).signExtend (max n W)).toNat ≠ 0 := fun hz => h0 (by
            apply BitVec.eq_of_toNat_eq; simpa using hz)
          omega
      · rw [decide_eq_true_iff]
    · refine ⟨andIntEq0 bits (1#W <<< i), by
        simp only [BitArray.isFalse, hv, Bool.not_true, Bool.false_eq_true, if_false, shlOne_ok h, Res.bind_ok], ?_⟩
      unfold andIntEq0
      rw [decide_eq_true_iff, common_touched bits h]
  · intro h
    have hs : shlOne W i = .ub := by simp [shlOne]; omega
    simp [BitArray.set, BitArray.reset, BitArray.setBool, BitArray.isTrue, BitArray.isFalse, hs, hv]

/-- A word not wider than `int`: each index stands for exactly its bit; on a 16-bit `int` index 15 of a longer word stands for more. -/
example : (∀ j, j < 16 → (Touched 16 15 j ↔ j = 15)) ∧ Touched 16 15 20 ∧ (∀ j, j < 32 → (Touched 16 14 j ↔ j = 14)) := by decide

/-- **C06, where it holds.** Setting a bit is right for every word exactly if the word is not wider than `int` or the bit is below the sign bit of `int`. -/
theorem c06_set_iff (W n i : Nat) (hi : i < n) :
    (∀ bits : BitVec n, ∃ r, BitArray.set W bits i = .ok (r, true) ∧ ∀ j, j < n → r.getLsbD j = if j = i then true else bits.getLsbD j) ↔
      (n ≤ W ∨ i + 1 < W) := by
  constructor
  · intro h
    by_cases hW : i < W
    · by_cases hc : n ≤ W ∨ i + 1 < W
      · exact hc
      · obtain ⟨r, h1, h2⟩ := h 0
        obtain ⟨r', g1, g2⟩ := ((c06_exact W (0 : BitVec n) i hi).1 hW).set
        rw [h1] at g1
        simp only [accepted, Res.bind_ok, if_true, Res.ok.injEq] at g1
        subst g1
        have e1 := h2 (i + 1) (by omega)
        rw [g2 (i + 1) (by omega)] at e1
        have hT : Touched W i (i + 1) := by unfold Touched; rw [if_pos (by omega)]; omega
        rw [if_pos hT, if_neg (by omega)] at e1
        simp at e1
    · obtain ⟨r, h1, -⟩ := h 0
      rw [((c06_exact W (0 : BitVec n) i hi).2 (by omega)).1] at h1
      exact absurd h1 (by simp)
  · intro h bits
    exact (c06_single_bit_partial W bits i hi h).1

/-! ### C37: every wider word -/

/-- **C37, where it holds.** `WriteReverse` is defined exactly for the words not wider than `int`. -/
theorem c37_defined_iff (W : Nat) {n : Nat} (bits : BitVec n) : (∃ tr, Serial3Wire.writeReverse W bits = .ok tr) ↔ n ≤ W := by
  constructor
  · rintro ⟨tr, h⟩
    apply Classical.byContradiction
    intro hn
    have key : ∀ k i, i ≤ W → W < i + k → i + k = n → Serial3Wire.reverseLoop W bits k i = .ub := by
      intro k
      induction k with
      | zero => intro i h1 h2; omega
      | succ k ih =>
        intro i h1 h2 h3
        simp only [Serial3Wire.reverseLoop]
        by_cases hi : i = W
        · subst hi
          simp only [Serial3Wire.body, ((c06_exact i bits i (by omega)).2 (by omega)).2.2.2.1]; rfl
        · rw [ih (i + 1) (by omega) (by omega) (by omega)]
          cases Serial3Wire.body W bits i <;> rfl
    rw [Serial3Wire.writeReverse, key n 0 (by omega) (by omega) (by omega)] at h
    exact absurd h (by simp)
  · intro hn
    exact ⟨_, by simp only [Serial3Wire.writeReverse, reverseLoop_ok W hn bits n 0 (by omega), Res.bind_ok]; rfl⟩

/-! ### C79: any number of bytes -/

/-- **C79, all histories.** getLength is the number of accepted bytes not handed to the transmitter, modulo 256. -/
theorem c79_length_exact (g : List Nat) (b : BitVec 8) (hg : 0 < g.length) (hn : g.length < 65536) (es : List Usart.OutEv) :
    ∃ y, (outInit g b).run es = .ok y ∧
      y.s.getLength = (y.accepted.length - (y.s.hw.line ++ y.s.hw.shift.toList ++ y.s.hw.tx.toList).length) % 256 := by
  obtain ⟨y, q, h1, h2, h3, _⟩ := c59_order g b hg hn es
  refine ⟨y, h1, ?_⟩
  have := congrArg List.length h2
  rw [List.length_append] at this
  unfold Usart.OutStream.getLength
  rw [h3]
  congr 1
  omega

example := c79_length_exact [0, 0, 0, 0] 0x08#8 (by decide) (by decide) [.write 72, .main, .main, .main, .main, .isr, .write 105, .main, .main, .main, .main]

/-! ### C85: shifts by the width and more -/

/-- **C85, all shifts.** Shifting down is right for every shift below the wider of the array and `int`, shifting up for every shift that stays in `int` (or in
    the array, if that is wider); everything else is undefined. -/
theorem c85_shift_exact (W : Nat) {n : Nat} (bits : BitVec n) (k : Nat) :
    (∀ r, BitArray.shiftDown W bits k = .ok r → ∀ j, j < n → r.getLsbD j = if j + k < n then bits.getLsbD (j + k) else false) ∧
    (BitArray.shiftDown W bits k = .ub ↔ max n W ≤ k) ∧
    (∀ r, BitArray.shiftUp W bits k = .ok r → ∀ j, j < n → r.getLsbD j = if j < k then false else bits.getLsbD (j - k)) ∧
    (BitArray.shiftUp W bits k = .ub ↔ if n < W then W ≤ k ∨ 2 ^ W ≤ bits.toNat * 2 ^ k else n ≤ k) := by
  refine ⟨fun r h j hj => ?_, ?_, fun r h j hj => ?_, ?_⟩
  · unfold BitArray.shiftDown shrT at h
    split at h
    · cases h
      rw [BitVec.getLsbD_ushiftRight, Nat.add_comm k j]
      split
      · rfl
      · exact BitVec.getLsbD_of_ge _ _ (by omega)
    · cases h
  · unfold BitArray.shiftDown shrT
    split
    · simp; omega
    · simp; omega
  · have : r = bits <<< k := by
      unfold BitArray.shiftUp shlT at h
      split at h <;> split at h <;> cases h <;> rfl
    subst this
    rw [BitVec.getLsbD_shiftLeft]
    by_cases hk : j < k <;> simp [hk, hj]
  · unfold BitArray.shiftUp shlT
    split
    · split
      · next h1 h2 => simp; omega
      · next h1 h2 => simp; omega
    · split
      · simp; omega
      · simp; omega

/-! ### C91: arrays of any length -/

/-- **C91, all lengths.** Of any array the slave gets the first 32 bytes at most; the result is true exactly when it took all of these. -/
theorem c91_write_exact (s : Spec.Arduino.Slave) (w : Spec.Arduino.Wire) (data : List Nat) (length : Nat) (hd : length ≤ data.length) :
    ((Arduino.i2cWriteAll s w data length).1 = true ↔ s ≠ .absent ∧ (Arduino.i2cWriteAll s w data length).2 = data.take (min length 32)) ∧
    (Arduino.i2cWriteAll s w data length).2 <+: data.take (min length 32) := by
  have e : Arduino.i2cWriteAll s w data length = Arduino.i2cWriteAll s w data (min length 32) := by
    unfold Arduino.i2cWriteAll Spec.Arduino.beginTransmission
    rw [wire_all _ [] (by simp), wire_all _ [] (by simp)]
    simp only [List.nil_append, List.take_take, Spec.Arduino.bufferLength]
    rw [show min 32 (min length 32) = min 32 length by omega]
  rw [e]
  exact c91_write_partial s w data (min length 32) (by omega) (by omega)

example := c91_write_exact (.takes 100) ⟨[1, 2]⟩ (List.range 40) 40 (by decide)

/-! ### C92, C95, C97 -/

/-- **C92, all times.** -/
theorem c92_wait_exact (t : Nat) (ht : t < 2 ^ 32) : Arduino.waitMilliseconds t = t ∧ Arduino.waitMicroseconds t = t % 65536 := by
  unfold Arduino.waitMilliseconds Arduino.waitMicroseconds toU
  constructor <;> omega

example := c92_wait_exact 70000 (by decide)

/-- **C97, all addresses.** Two objects have the same id exactly when their addresses differ by a multiple of 64 KB. -/
theorem c97_exact (a b : Nat) : Misc.getId a = Misc.getId b ↔ a % 65536 = b % 65536 := by
  unfold Misc.getId toU
  omega

/-! ### C77: port D -/

/-- **C77, all ports.** Port D: whatever pins are flagged, the pins selected before (by other means) raise the interrupt, or none if no pin is flagged; the
    other ports are as before. -/
theorem c77_portD_exact (flags : BitVec 8) (m : Usart.Mem) (port' j : Nat) (hp' : port' < 4) :
    pinChangeOn (Port.enablePinChange 3 flags m) port' j =
      if port' = 3 then decide (flags ≠ 0#8) && pinAt m 0x73 j else pinChangeOn m port' j := by
  unfold Port.enablePinChange
  have e1 := fun t j => bit_set 3 (by omega) t j
  have e2 := fun t j => bit_clear 3 (by omega) t j
  unfold Usart.setBit at e1
  unfold Usart.clearBit at e2
  have hne : (if port' < 3 then 0x6B + port' else 0x73) ≠ 0x68 := by split <;> omega
  by_cases hf : flags = 0#8
  · rw [if_pos hf, hf]
    unfold pinChangeOn pinAt Usart.Mem.put Port.aPCICR
    rw [if_pos rfl, e2, if_neg hne]
    by_cases hpp : port' = 3
    · simp [hpp]
    · simp only [hpp, if_false]
  · rw [if_neg hf, if_neg (by omega)]
    unfold pinChangeOn pinAt Usart.Mem.put Port.aPCICR
    rw [if_pos rfl, e1, if_neg hne]
    by_cases hpp : port' = 3
    · simp [hpp, hf]
    · simp only [hpp, if_false]

/-! ### C48: every speed -/

/-- What a request becomes: no motor turns slower than speed 1. -/
def atLeastOne : Spec.Motor.Request → Spec.Motor.Request
  | .turn cw s => .turn cw (max s 1)
  | r => r

theorem command_atLeastOne (p : Motor.Pins) (r : Spec.Motor.Request) : Motor.command p (motorCmd r) = Motor.command p (motorCmd (atLeastOne r)) := by
  cases r with
  | stop => rfl
  | brake => rfl
  | turn cw s =>
    cases s with
    | zero => cases cw <;> rfl
    | succ s => rw [show atLeastOne (.turn cw (s + 1)) = .turn cw (s + 1) by simp [atLeastOne]]

/-- **C48, every speed.** For every history on distinct pins, speed 0 included: the lines of every motor carry the last request made to it, with speed 1
    instead of 0. -/
theorem c48_direct_exact (ps : Nat → Motor.Pins) (hd : DistinctPins ps) (l : List (Nat × Spec.Motor.Request)) (f : Nat → Nat) (m : Nat)
    (r : Spec.Motor.Request) (hr : lastRequest m l none = some r) : PinsServe (board f (drive ps l)) (ps m) (atLeastOne r) := by
  have e : drive ps l = drive ps (l.map fun x => (x.1, atLeastOne x.2)) := by
    unfold drive
    rw [List.flatMap_map]
    exact List.flatMap_congr fun x _ => command_atLeastOne _ _
  have hl : ∀ (l : List (Nat × Spec.Motor.Request)) (o : Option Spec.Motor.Request),
      lastRequest m (l.map fun x => (x.1, atLeastOne x.2)) (o.map atLeastOne) = (lastRequest m l o).map atLeastOne := by
    intro l
    induction l with
    | nil => intro o; rfl
    | cons x l ih =>
      intro o
      simp only [List.map_cons, lastRequest, ← ih]
      congr 1
      split <;> rfl
  rw [e]
  refine c48_direct_partial ps hd _ ?_ f m none (by simp) _ ?_
  · intro x hx
    obtain ⟨y, -, rfl⟩ := List.mem_map.1 hx
    cases h : y.2 with
    | turn cw s => simp [atLeastOne, moving]; omega
    | stop => trivial
    | brake => trivial
  · have := hl l none
    simp only [Option.map_none] at this
    rw [this, hr]
    rfl

example := c48_direct_exact (fun m => ⟨3 * m, 3 * m + 1, 3 * m + 2⟩) ⟨by intro m; dsimp only; omega, by intro m k h x hx y hy; simp at hx hy; omega⟩
  [(0, .turn true 0), (1, .turn false 200), (0, .turn false 0)] (fun _ => 9) 0 (.turn false 0) (by decide)

/-! ### C66: every stream -/

/-- **C66, every stream, every loss.** Whatever bytes the driver gets, it takes them in groups of four from the first one on; each reading is the group of its
    number, successful exactly if its fourth byte is the sum of the others. -/
theorem c66_exact (n : Nat) (s : List Nat) (hs : 4 * n ≤ s.length) (o : Sonar.Out) (i : Nat) (hi : i < n) :
    (readN o s n).1[i]? = some (if (s[4 * i] + s[4 * i + 1] + s[4 * i + 2]) % 256 = s[4 * i + 3] then .success else .checksumError,
      ⟨s[4 * i], s[4 * i + 1], s[4 * i + 2]⟩) ∧ (readN o s n).2 = s.drop (4 * n) := by
  induction n generalizing s o i with
  | zero => omega
  | succ n ih =>
    match s, hs with
    | a :: b :: c :: d :: t, hs =>
      have ht : 4 * n ≤ t.length := by simp only [List.length_cons] at hs; omega
      have hr : Sonar.receiveResponse o (a :: b :: c :: d :: t) = (if (a + b + c) % 256 = d then .success else .checksumError, ⟨a, b, c⟩, t) := by
        simp only [Sonar.receiveResponse, checksum_eq]
      have hd : (a :: b :: c :: d :: t).drop (4 * (n + 1)) = t.drop (4 * n) := by
        rw [show 4 * (n + 1) = 4 * n + 4 by omega]; rfl
      rw [hd]
      simp only [readN, hr]
      cases i with
      | zero =>
        refine ⟨rfl, ?_⟩
        cases n with
        | zero => rfl
        | succ n => exact (ih t ht ⟨a, b, c⟩ 0 (by omega)).2
      | succ i =>
        have := ih t ht ⟨a, b, c⟩ i (by omega)
        refine ⟨?_, this.2⟩
        rw [List.getElem?_cons_succ, this.1]
        have e : 4 * (i + 1) = 4 * i + 4 := by omega
        simp only [e]
        rfl

example : (readN ⟨0, 0, 0⟩ [1, 44, 79, 0x22, 1, 44, 79, 0x22] 2).1 = [(.checksumError, ⟨1, 44, 79⟩), (.checksumError, ⟨1, 44, 79⟩)] := by decide

/-! ### C94: every string and length -/

/-- **C94, all cases.** The target gets the first characters of the string, zeros behind it, and nothing is changed from the given length on; there is a
    terminator exactly if the string is shorter than the length (or what lies behind has one). -/
theorem c94_read_exact (target str : List Int) (n : Nat) (hn : n ≤ target.length) :
    Misc.staticRead target str n = .ok (str.take n ++ List.replicate (n - str.length) 0 ++ target.drop n) := by
  have := FixedString.strncpyLoop_spec n n str target 0 (by omega) hn (by omega)
  unfold Misc.staticRead
  rw [this]
  simp

/-- **C95, everywhere.** What is read is what is stored 64 KB times further down, so exactly the tables in the first 64 KB are read back. -/
theorem c95_read_exact (flash : Nat → Nat) (base size i : Nat) :
    Misc.readUnsigned flash base size i = Misc.readUnsigned flash (base % 65536) size i ∧ Misc.readSigned flash base size i = Misc.readSigned flash (base % 65536) size i := by
  have e : Misc.itemAddress base size i = Misc.itemAddress (base % 65536) size i := by
    unfold Misc.itemAddress toU
    generalize size * i = z
    omega
  unfold Misc.readUnsigned Misc.readSigned
  rw [e]
  exact ⟨rfl, rfl⟩

end Atl.Props
