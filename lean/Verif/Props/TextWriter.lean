import Verif.Proof.TextWriter
import Verif.Proof.Float
import Mathlib.Data.Rat.Floor
import Mathlib.Tactic.Linarith
import Mathlib.Tactic.FieldSimp
import Mathlib.Tactic.Positivity
import Mathlib.Tactic.SplitIfs

/- C32 integer text, C33 characters and strings, C34 real numbers. -/
namespace Atl.Props
open Atl Atl.Text Atl.Spec.Text

/-! The specification determines the text completely. -/

theorem digitVal_inj {c c' d : Nat} (h : digitVal c = some d) (h' : digitVal c' = some d) : c = c' := by
  unfold digitVal at h h'
  split_ifs at h h' <;> simp only [Option.some.injEq, reduceCtorEq] at h h' <;> omega

theorem readFrom_cons {b acc m c : Nat} {s : List Nat} (h : readFrom b acc (c :: s) = some m) :
    ∃ d, digitVal c = some d ∧ d < b ∧ readFrom b (acc * b + d) s = some m := by
  simp only [readFrom] at h
  cases hd : digitVal c with
  | none => rw [hd] at h; cases h
  | some d =>
    rw [hd] at h; simp only at h
    split at h
    · exact ⟨d, rfl, ‹_›, h⟩
    · cases h

theorem readFrom_bounds (b : Nat) (hb : 0 < b) (s : List Nat) (acc m : Nat) (h : readFrom b acc s = some m) :
    acc * b ^ s.length ≤ m ∧ m < (acc + 1) * b ^ s.length := by
  induction s generalizing acc with
  | nil => simp [readFrom] at h; simp [h]
  | cons c s ih =>
    obtain ⟨d, _, hlt, h⟩ := readFrom_cons h
    obtain ⟨h1, h2⟩ := ih _ h
    have hp : 0 < b ^ s.length := Nat.pow_pos hb
    have e1 : acc * b ^ (s.length + 1) ≤ (acc * b + d) * b ^ s.length := by
      rw [Nat.pow_succ, Nat.mul_comm (b ^ _), ← Nat.mul_assoc]; exact Nat.mul_le_mul_right _ (by omega)
    have e2 : (acc * b + d + 1) * b ^ s.length ≤ (acc + 1) * b ^ (s.length + 1) := by
      rw [Nat.pow_succ, Nat.mul_comm (b ^ _), ← Nat.mul_assoc]; exact Nat.mul_le_mul_right _ (by rw [Nat.add_mul]; omega)
    simp only [List.length_cons]
    omega

theorem readFrom_inj (b : Nat) (hb : 0 < b) (s t : List Nat) (a a' m : Nat) (hl : s.length = t.length)
    (h : readFrom b a s = some m) (h' : readFrom b a' t = some m) : a = a' ∧ s = t := by
  induction s generalizing t a a' with
  | nil =>
    have : t = [] := List.length_eq_zero_iff.1 hl.symm
    subst this
    simp only [readFrom, Option.some.injEq] at h h'
    exact ⟨by omega, rfl⟩
  | cons c s ih =>
    cases t with
    | nil => simp at hl
    | cons c' t =>
      obtain ⟨d, hd, hlt, h⟩ := readFrom_cons h
      obtain ⟨d', hd', hlt', h'⟩ := readFrom_cons h'
      obtain ⟨e, rfl⟩ := ih t _ _ (by simpa using hl) h h'
      have hd2 : d = d' := by
        have := congrArg (· % b) e
        simpa [Nat.add_mod, Nat.mod_eq_of_lt hlt, Nat.mod_eq_of_lt hlt'] using this
      subst hd2
      refine ⟨?_, by rw [digitVal_inj hd hd']⟩
      exact Nat.eq_of_mul_eq_mul_right hb (by omega)

theorem digitVal_zero {c : Nat} (h : digitVal c = some 0) : c = 48 := digitVal_inj h (by decide)

/-- There is only one numeral of a number in a base: the specification fixes every character. -/
theorem numeral_unique (b : Nat) (hb : 2 ≤ b) (s t : List Nat) (v : Nat) (hs : Numeral b s v) (ht : Numeral b t v) : s = t := by
  have len : ∀ s t, Numeral b s v → Numeral b t v → s.length ≤ t.length := by
    intro s t hs ht
    obtain ⟨p1, z1⟩ := hs
    obtain ⟨p2, z2⟩ := ht
    unfold parse at p1 p2
    split at p1 <;> [cases p1; skip]
    split at p2 <;> [cases p2; skip]
    rename_i hs0 ht0
    cases s with
    | nil => exact absurd rfl hs0
    | cons c s =>
      by_cases hc : c = 48
      · have := z1 (by simp [hc])
        rw [this]
        cases t with
        | nil => exact absurd rfl ht0
        | cons => simp
      · obtain ⟨d, hd, _, h1⟩ := readFrom_cons p1
        have hd0 : d ≠ 0 := by rintro rfl; exact hc (digitVal_zero hd)
        have b1 := (readFrom_bounds b (by omega) s _ _ h1).1
        have b2 := (readFrom_bounds b (by omega) t _ _ p2).2
        by_contra hlt
        have hp : b ^ t.length ≤ b ^ s.length := Nat.pow_le_pow_right (by omega) (by simp at hlt; omega)
        have : b ^ s.length ≤ (0 * b + d) * b ^ s.length := Nat.le_mul_of_pos_left _ (by omega)
        omega
  have hl := Nat.le_antisymm (len s t hs ht) (len t s ht hs)
  obtain ⟨p1, z1⟩ := hs
  obtain ⟨p2, z2⟩ := ht
  unfold parse at p1 p2
  split at p1 <;> [cases p1; skip]
  split at p2 <;> [cases p2; skip]
  exact (readFrom_inj b (by omega) s t 0 0 v hl p1 p2).2

example := numeral_unique 10 (by decide) [52, 50] [52, 50] 42

/-! C32 -/

/-- **C32, unsigned 8/16 bits.** For every base from 2 to 36 the text is the numeral of the value if it has at most ten digits; otherwise
    the conversion writes outside its buffer. -/
theorem c32_u16_exact_iff (W : Nat) (hW : 16 ≤ W) (f : Format) (hb : 2 ≤ f.defaultBase) (hb' : f.defaultBase ≤ 36) (v : Nat) (hv : v < 2 ^ 16) :
    (v < f.defaultBase ^ 10 → ∃ s, writeU16 W f v = .ok s ∧ Numeral f.defaultBase s v) ∧
    (f.defaultBase ^ 10 ≤ v → writeU16 W f v = .ub) := by
  refine ⟨fun h => ?_, fun h => writeInternal_ub W 11 _ v _ hb h⟩
  obtain ⟨s, e, n, _⟩ := writeInternal_ok W 11 f.defaultBase v (junkBuf 11) (by simp [junkBuf]) (by omega) hb hb' h
    (Nat.lt_of_lt_of_le hv (Nat.pow_le_pow_right (by omega) hW))
  exact ⟨s, e, n⟩

example := c32_u16_exact_iff 16 (by decide) { defaultBase := 2 } (by decide) (by decide) 0xBEEF (by decide)

/-- **C32, unsigned 32 bits.** -/
theorem c32_u32_exact_iff (f : Format) (hb : 2 ≤ f.defaultBase) (hb' : f.defaultBase ≤ 36) (v : Nat) (hv : v < 2 ^ 32) :
    (v < f.defaultBase ^ 20 → ∃ s, writeU32 f v = .ok s ∧ Numeral f.defaultBase s v) ∧
    (f.defaultBase ^ 20 ≤ v → writeU32 f v = .ub) := by
  refine ⟨fun h => ?_, fun h => writeInternal_ub 32 21 _ v _ hb h⟩
  obtain ⟨s, e, n, _⟩ := writeInternal_ok 32 21 f.defaultBase v (junkBuf 21) (by simp [junkBuf]) (by omega) hb hb' h hv
  exact ⟨s, e, n⟩

example := c32_u32_exact_iff { defaultBase := 3 } (by decide) (by decide) 1234567 (by decide)

/-- **C32, partial: unsigned values in every base from 4 to 36** (missing: bases 2 and 3, see `c32_base2_fails`). -/
theorem c32_unsigned_partial (W : Nat) (hW : 16 ≤ W) (f : Format) (hb : 4 ≤ f.defaultBase) (hb' : f.defaultBase ≤ 36) :
    (∀ v, v < 2 ^ 8 → ∃ s, writeU8 W f v = .ok s ∧ Numeral f.defaultBase s v) ∧
    (∀ v, v < 2 ^ 16 → ∃ s, writeU16 W f v = .ok s ∧ Numeral f.defaultBase s v) ∧
    (∀ v, v < 2 ^ 32 → ∃ s, writeU32 f v = .ok s ∧ Numeral f.defaultBase s v) := by
  have h10 : 2 ^ 16 ≤ f.defaultBase ^ 10 := Nat.le_trans (by norm_num : 2 ^ 16 ≤ 4 ^ 10) (Nat.pow_le_pow_left hb 10)
  have h20 : 2 ^ 32 ≤ f.defaultBase ^ 20 := Nat.le_trans (by norm_num : 2 ^ 32 ≤ 4 ^ 20) (Nat.pow_le_pow_left hb 20)
  refine ⟨fun v hv => ?_, fun v hv => ?_, fun v hv => ?_⟩
  · exact (c32_u16_exact_iff W hW f (by omega) hb' v (by omega)).1 (by omega)
  · exact (c32_u16_exact_iff W hW f (by omega) hb' v hv).1 (by omega)
  · exact (c32_u32_exact_iff f (by omega) hb' v hv).1 (by omega)

example := c32_unsigned_partial 16 (by decide) { defaultBase := 16 } (by decide) (by decide)

/-- Without the restriction on the base the claim is false: binary 1024, base 3 59049 (16 bits), binary 2^20, base 3 3^20 (32 bits). -/
theorem c32_base2_fails (W : Nat) :
    writeU16 W { defaultBase := 2 } 1024 = .ub ∧ writeU16 W { defaultBase := 3 } 59049 = .ub ∧
    writeU32 { defaultBase := 2 } 1048576 = .ub ∧ writeU32 { defaultBase := 3 } 3486784401 = .ub :=
  ⟨writeInternal_ub W 11 2 _ _ (by decide) (by norm_num), writeInternal_ub W 11 3 _ _ (by decide) (by norm_num),
   writeInternal_ub 32 21 2 _ _ (by decide) (by norm_num), writeInternal_ub 32 21 3 _ _ (by decide) (by norm_num)⟩

theorem parse_digits_head {b v : Nat} {s : List Nat} (h : parse b s = some v) : ∃ c cs d, s = c :: cs ∧ digitVal c = some d := by
  unfold parse at h
  split at h <;> [cases h; skip]
  cases s with
  | nil => contradiction
  | cons c cs => obtain ⟨d, hd, _⟩ := readFrom_cons h; exact ⟨c, cs, d, rfl, hd⟩

theorem parseSigned_pos {minus b v : Nat} {s : List Nat} (hm : digitVal minus = none) (h : parse b s = some v) :
    parseSigned minus b s = some (v : Int) := by
  obtain ⟨c, cs, d, rfl, hd⟩ := parse_digits_head h
  have : c ≠ minus := by rintro rfl; rw [hd] at hm; cases hm
  simp [parseSigned, this, h]

theorem parseSigned_neg {minus b v : Nat} {s : List Nat} (h : parse b s = some v) :
    parseSigned minus b (minus :: s) = some (-(v : Int)) := by
  simp [parseSigned, h]

/-- A signed decimal text: sign only for negative numbers, no leading zero. -/
def Decimal (minus : Nat) (s : List Nat) (x : Int) : Prop :=
  parseSigned minus 10 s = some x ∧ ∃ t, Numeral 10 t x.natAbs ∧ s = (if x < 0 then [minus] else []) ++ t

theorem toU_nonneg {n : Nat} {x : Int} (h0 : 0 ≤ x) (h : x < 2 ^ n) : toU n x = x.toNat := by
  obtain ⟨k, rfl⟩ := Int.eq_ofNat_of_zero_le h0
  rw [toU_small (by exact_mod_cast h)]; rfl

/-- **C32, signed decimal 16 bits**: exact for every value but -32768; also for -32768 where `int` is wider than 16 bits or
    the compiler lets signed arithmetic wrap. -/
theorem c32_i16_decimal_partial (W : Nat) (hW : 16 ≤ W) (wrapv : Bool) (f : Format) (hb : f.defaultBase = 10) (hm : digitVal f.negativeSign = none)
    (x : Int) (h1 : -(2 ^ 15) ≤ x) (h2 : x < 2 ^ 15) (hmin : x = -(2 ^ 15) → 16 < W ∨ wrapv = true) :
    ∃ s, writeI16 W wrapv f x = .ok s ∧ Decimal f.negativeSign s x := by
  have num : ∀ v, v < 2 ^ 16 → ∃ s, writeInt W v 10 = .ok s ∧ Numeral 10 s v := by
    intro v hv
    obtain ⟨s, e, n, _⟩ := writeInternal_ok W 11 10 v (junkBuf 11) (by simp [junkBuf]) (by omega) (by omega) (by omega)
      (by omega) (Nat.lt_of_lt_of_le hv (Nat.pow_le_pow_right (by omega) hW))
    exact ⟨s, e, n⟩
  simp only [writeI16, hb, if_true]
  split
  · rename_i hneg
    have key : ∃ m, neg wrapv W x = .ok m ∧ toU 16 m = x.natAbs := by
      unfold neg
      split
      · rename_i heq
        have hW2 : 2 ^ (W - 1) ≤ (2 : Int) ^ 15 := by omega
        have hW3 : W = 16 := by
          by_contra hne
          have : (2 : Int) ^ 16 ≤ 2 ^ (W - 1) := by
            exact_mod_cast Nat.pow_le_pow_right (n := 2) (by omega) (show 16 ≤ W - 1 by omega)
          omega
        subst hW3
        have hx : x = -32768 := by rw [heq]; norm_num
        rcases hmin (by rw [hx]; norm_num) with h | h
        · omega
        · rw [h, hx]; exact ⟨-32768, rfl, by decide⟩
      · refine ⟨-x, rfl, ?_⟩
        rw [toU_nonneg (by omega) (by omega)]; omega
    obtain ⟨m, e, hm'⟩ := key
    obtain ⟨s, es, n⟩ := num x.natAbs (by omega)
    refine ⟨f.negativeSign :: s, by simp only [e, Res.bind_ok, hm', es], ?_, s, n, by simp [hneg]⟩
    rw [parseSigned_neg n.1]; exact congrArg some (by omega)
  · rename_i hneg
    obtain ⟨s, es, n⟩ := num x.natAbs (by omega)
    refine ⟨s, by rw [toU_nonneg (by omega) (by omega), show x.toNat = x.natAbs by omega, es], ?_, s, n, by simp [hneg]⟩
    rw [parseSigned_pos hm n.1]; exact congrArg some (by omega)

example := c32_i16_decimal_partial 16 (by decide) false {} rfl (by decide) (-32767) (by decide) (by decide) (by decide)

/-- **C32, signed decimal 32 bits**: exact for every value but -2147483648, and there if signed arithmetic wraps. -/
theorem c32_i32_decimal_partial (wrapv : Bool) (f : Format) (hb : f.defaultBase = 10) (hm : digitVal f.negativeSign = none)
    (x : Int) (h1 : -(2 ^ 31) ≤ x) (h2 : x < 2 ^ 31) (hmin : x = -(2 ^ 31) → wrapv = true) :
    ∃ s, writeI32 wrapv f x = .ok s ∧ Decimal f.negativeSign s x := by
  have num : ∀ v, v < 2 ^ 32 → ∃ s, writeLong v 10 = .ok s ∧ Numeral 10 s v := by
    intro v hv
    obtain ⟨s, e, n, _⟩ := writeInternal_ok 32 21 10 v (junkBuf 21) (by simp [junkBuf]) (by omega) (by omega) (by omega)
      (by omega) hv
    exact ⟨s, e, n⟩
  simp only [writeI32, hb, if_true]
  split
  · rename_i hneg
    have key : ∃ m, neg wrapv 32 x = .ok m ∧ toU 32 m = x.natAbs := by
      unfold neg
      split
      · rename_i heq
        have hx : x = -2147483648 := by rw [heq]; norm_num
        rw [hmin (by rw [hx]; norm_num), hx]
        exact ⟨-2147483648, rfl, by decide⟩
      · refine ⟨-x, rfl, ?_⟩
        rw [toU_nonneg (by omega) (by omega)]; omega
    obtain ⟨m, e, hm'⟩ := key
    obtain ⟨s, es, n⟩ := num x.natAbs (by omega)
    refine ⟨f.negativeSign :: s, by simp only [e, Res.bind_ok, hm', es], ?_, s, n, by simp [hneg]⟩
    rw [parseSigned_neg n.1]; exact congrArg some (by omega)
  · rename_i hneg
    obtain ⟨s, es, n⟩ := num x.natAbs (by omega)
    refine ⟨s, by rw [toU_nonneg (by omega) (by omega), show x.toNat = x.natAbs by omega, es], ?_, s, n, by simp [hneg]⟩
    rw [parseSigned_pos hm n.1]; exact congrArg some (by omega)

example := c32_i32_decimal_partial false {} rfl (by decide) (-1234567) (by decide) (by decide) (by decide)

/-- The smallest value of each signed type overflows when negated: undefined behaviour in standard C++ (16-bit `int`). -/
theorem c32_smallest_fails : writeI16 16 false {} (-32768) = .ub ∧ writeI32 false {} (-2147483648) = .ub := by
  constructor <;> decide +kernel

/-- **C32, signed values in other bases** (4 to 36) are written as their two's complement bit pattern, without sign. -/
theorem c32_signed_other_base (W : Nat) (hW : 16 ≤ W) (wrapv : Bool) (f : Format) (hb : 4 ≤ f.defaultBase) (hb' : f.defaultBase ≤ 36)
    (h10 : f.defaultBase ≠ 10) (x : Int) :
    (∃ s, writeI16 W wrapv f x = .ok s ∧ Numeral f.defaultBase s (x % 2 ^ 16).toNat) ∧
    (∃ s, writeI32 wrapv f x = .ok s ∧ Numeral f.defaultBase s (x % 2 ^ 32).toNat) := by
  obtain ⟨_, u16, u32⟩ := c32_unsigned_partial W hW f hb hb'
  simp only [writeI16, writeI32, h10, if_false]
  have e16 : toU 16 x = (x % 2 ^ 16).toNat := by unfold toU; norm_num
  have e32 : toU 32 x = (x % 2 ^ 32).toNat := by unfold toU; norm_num
  rw [e16, e32]
  exact ⟨u16 _ (by omega), u32 _ (by omega)⟩

example := c32_signed_other_base 16 (by decide) false { defaultBase := 16 } (by decide) (by decide) (by decide) (-5)

/-- The default base 0 or 1 falls back to decimal (TextWriter.h 253), but only after the sign test: -1 is written as 65535. -/
theorem c32_base_fallback_fails : writeI16 16 false { defaultBase := 0 } (-1) = .ok [54, 53, 53, 51, 53] := by decide +kernel

example : writeI32 false {} (-1234567) = .ok [45, 49, 50, 51, 52, 53, 54, 55] := by decide +kernel
example : writeU16 16 { defaultBase := 16 } 0xBEEF = .ok [66, 69, 69, 70] := by decide +kernel
example : digitVal ({} : Format).negativeSign = none := by decide

/-! C33 -/

/-- **C33, strings.** Every character up to the terminator is written, in order, and nothing else - wherever the string is in memory. -/
theorem c33_string_partial (s rest : List Nat) (h : 0 ∉ s) : writePtr (some (s ++ 0 :: rest)) = .ok s :=
  writeStr_ok s rest fun _ hc e => h (e ▸ hc)

/-- `WriteLine` adds the new line characters. -/
theorem c33_line (f : Format) (hf : 0 ∉ f.newLine) (s rest : List Nat) (h : 0 ∉ s) :
    withLine f (writePtr (some (s ++ 0 :: rest))) = .ok (s ++ f.newLine) := by
  rw [withLine, c33_string_partial s rest h, writeLine]
  simp only [Res.bind_ok]
  rw [writeStr_ok f.newLine [] fun _ hc e => hf (e ▸ hc)]; rfl

example : withLine {} (writePtr (some [72, 105, 0, 99])) = .ok [72, 105, 10, 13] := by decide

/-- **C33, exact for every memory.** The call is defined exactly if there is a terminator in the object pointed to; then what is written is determined by it. -/
theorem c33_string_exact (mem : List Nat) :
    (writePtr (some mem) = .ub ↔ 0 ∉ mem) ∧ ∀ out, writePtr (some mem) = .ok out ↔ 0 ∉ out ∧ ∃ rest, mem = out ++ 0 :: rest := by
  have ubOf : ∀ m : List Nat, 0 ∉ m → writeStr m = .ub := by
    intro m
    induction m with
    | nil => intro _; rfl
    | cons c cs ih =>
      intro h
      simp only [List.mem_cons, not_or] at h
      simp only [writeStr, if_neg (Ne.symm h.1), ih h.2, Res.bind_ub]
  have split : 0 ∈ mem → ∃ s rest, 0 ∉ s ∧ mem = s ++ 0 :: rest := by
    intro h
    obtain ⟨s, rest, e, n⟩ := List.eq_append_cons_of_mem h
    exact ⟨s, rest, n, e⟩
  refine ⟨⟨fun h hm => ?_, ubOf mem⟩, fun out => ⟨fun h => ?_, fun ⟨n, rest, e⟩ => e ▸ c33_string_partial out rest n⟩⟩
  · obtain ⟨s, rest, n, e⟩ := split hm
    rw [e, c33_string_partial s rest n] at h; cases h
  · by_cases hm : 0 ∈ mem
    · obtain ⟨s, rest, n, e⟩ := split hm
      rw [e, c33_string_partial s rest n] at h
      cases h
      exact ⟨n, rest, e⟩
    · have : writePtr (some mem) = .ub := ubOf mem hm
      rw [this] at h; cases h

example : writePtr (some [72, 105]) = .ub := by decide

/-- **C33 is false for NULL**: the pointer is dereferenced. -/
theorem c33_null_fails : writePtr none = .ub := rfl

/-- **C33 is false for characters**: no character at all is written as itself. -/
theorem c33_char_fails (c : Nat) (hc : c < 256) : writeChar 16 {} c ≠ .ok [c] := by
  have : ∀ c, c < 256 → writeChar 16 {} c ≠ .ok [c] := by decide +kernel
  exact this c hc

/-- What is written instead: the decimal number of the (signed) character. -/
theorem c33_char_is_number (W : Nat) (hW : 16 ≤ W) (f : Format) (hb : f.defaultBase = 10) (hm : digitVal f.negativeSign = none) (c : Nat) :
    ∃ s, writeChar W f c = .ok s ∧ Decimal f.negativeSign s (toS 8 c) :=
  c32_i16_decimal_partial W hW false f hb hm _ (by unfold toS; omega) (by unfold toS; omega) (by unfold toS; omega)

example := c33_char_is_number 16 (by decide) {} rfl (by decide) 200

/-! C34 -/

theorem rounding_id (d : Nat) : rounding id d = 1 / (2 * 10 ^ d) := by
  induction d with
  | zero => norm_num [rounding]
  | succ d ih => simp only [rounding, ih, id]; rw [pow_succ]; field_simp

theorem toUnsigned_ok (w : Nat) (x : Rat) (h0 : 0 ≤ x) (h : x < 2 ^ w) : toUnsigned w x = .ok ⌊x⌋.toNat := by
  unfold toUnsigned
  rw [if_neg (by rintro (h1 | h1) <;> linarith), if_neg (by linarith)]; rfl

theorem writeInt_digit (W : Nat) (hW : 16 ≤ W) (k : Nat) (hk : k < 10) : writeInt W k 10 = .ok [48 + k] := by
  obtain ⟨s, e, n, _⟩ := writeInternal_ok W 11 10 k (junkBuf 11) (by simp [junkBuf]) (by omega) (by omega) (by omega)
    (by omega) (Nat.lt_of_lt_of_le (show k < 2 ^ 16 by omega) (Nat.pow_le_pow_right (by omega) hW))
  have : Numeral 10 [48 + k] k := by
    constructor
    · simp only [parse, List.cons_ne_nil, if_false, readFrom]
      have : digitVal (48 + k) = some k := by unfold digitVal; rw [if_pos (by omega)]; simp
      simp [this, hk]
    · intro h; simpa using h
  rw [numeral_unique 10 (by omega) _ _ k this n]; exact e

/-- The decimals loop in exact arithmetic writes exactly `d` digits, the first `d` decimals. -/
theorem decimals_ok (W : Nat) (hW : 16 ≤ W) (d : Nat) (r : Rat) (h0 : 0 ≤ r) (h1 : r < 1) :
    ∃ b, decimals id W d r = .ok b ∧ b.length = d ∧
      ∀ acc, readFrom 10 acc b = some (acc * 10 ^ d + ⌊r * 10 ^ d⌋.toNat) := by
  induction d generalizing r with
  | zero =>
    refine ⟨[], rfl, rfl, fun acc => ?_⟩
    have : ⌊r⌋ = 0 := Int.floor_eq_iff.2 ⟨by simpa using h0, by simpa using h1⟩
    simp [readFrom, this]
  | succ d ih =>
    have hk0 : 0 ≤ ⌊r * 10⌋ := Int.floor_nonneg.2 (by linarith)
    have hk1 : ⌊r * 10⌋ < 10 := Int.floor_lt.2 (by push_cast; linarith)
    obtain ⟨k, hk⟩ := Int.eq_ofNat_of_zero_le hk0
    have hk10 : k < 10 := by omega
    have hfl := Int.floor_le (r * 10)
    have hlt := Int.lt_floor_add_one (r * 10)
    rw [hk] at hfl hlt
    push_cast at hfl hlt
    obtain ⟨b, e, hlen, hread⟩ := ih (r * 10 - k) (by linarith) (by linarith)
    have hW' : r * 10 < 2 ^ W := by
      have : (2 : Rat) ^ 16 ≤ 2 ^ W := pow_le_pow_right₀ (by norm_num) hW
      have : (10 : Rat) ≤ 2 ^ 16 := by norm_num
      linarith
    refine ⟨(48 + k) :: b, ?_, by simp [hlen], fun acc => ?_⟩
    · simp only [decimals, id, toUnsigned_ok W (r * 10) (by linarith) hW', Res.bind_ok, hk]
      have hkn : (Int.ofNat k).toNat = k := rfl
      have : toU 16 (((k : Int).toNat : Nat) : Int) = k := by
        rw [show (k : Int).toNat = k from rfl, toU_small (by omega)]
      rw [this, writeInt_digit W hW k hk10]
      simp [e]
    · simp only [readFrom]
      have hd : digitVal (48 + k) = some k := by unfold digitVal; rw [if_pos (by omega)]; simp
      simp only [hd, if_pos hk10]
      rw [hread]
      have hfl2 : ⌊(r * 10 - k) * 10 ^ d⌋ = ⌊r * 10 ^ (d + 1)⌋ - k * 10 ^ d := by
        rw [← Int.floor_sub_intCast]
        congr 1
        push_cast; ring
      have hnn : 0 ≤ ⌊(r * 10 - k) * 10 ^ d⌋ := Int.floor_nonneg.2 (mul_nonneg (by linarith) (by positivity))
      obtain ⟨m, hm⟩ := Int.eq_ofNat_of_zero_le hnn
      rw [hm] at hfl2
      have : ⌊r * 10 ^ (d + 1)⌋ = ((m + k * 10 ^ d : Nat) : Int) := by push_cast; omega
      rw [hm, this]
      simp only [Int.toNat_natCast, Option.some.injEq]
      ring

/-- **C34 in exact arithmetic.** For every value whose magnitude (rounded) fits the 32-bit integer part and every number of digits: the text is the
    sign (for negative values), a numeral, the separator and exactly `d` digits, and denotes the value rounded half away from zero.
    Floating point: `c34_float_partial` and `c34_binary_fails`. -/
theorem c34_exact_partial (W : Nat) (hW : 16 ≤ W) (f : Format) (x : Rat) (d : Nat) (hx : |x| + 1 / (2 * 10 ^ d) < 2 ^ 32) :
    ∃ s n, writeReal id W f x d = .ok ((if x < 0 then [f.negativeSign] else []) ++ s) ∧
      FixedPoint f.decimalSeparator d s n ∧ (n : Rat) - 1 / 2 ≤ |x| * 10 ^ d ∧ |x| * 10 ^ d < n + 1 / 2 := by
  have habs : (if x < 0 then -x else x) = |x| := by
    split
    · rw [abs_of_neg ‹_›]
    · rw [abs_of_nonneg (by linarith)]
  have hp : (0 : Rat) < 10 ^ d := by positivity
  have hr0 : 0 ≤ |x| + 1 / (2 * 10 ^ d) := by positivity
  generalize hreal : |x| + 1 / (2 * 10 ^ d) = real at hx hr0
  have hI0 : 0 ≤ ⌊real⌋ := Int.floor_nonneg.2 hr0
  obtain ⟨I, hI⟩ := Int.eq_ofNat_of_zero_le hI0
  have hfl := Int.floor_le real
  have hlt := Int.lt_floor_add_one real
  rw [hI] at hfl hlt
  push_cast at hfl hlt
  have hI32 : I < 2 ^ 32 := by
    have : (I : Rat) < 2 ^ 32 := by linarith
    exact_mod_cast this
  obtain ⟨a, ea, na, _, ra, hane⟩ := writeInternal_ok 32 21 10 I (junkBuf 21) (by simp [junkBuf]) (by omega) (by omega) (by omega)
    (by omega) hI32
  have ea' : writeLong I 10 = .ok a := ea
  obtain ⟨b, eb, hlen, rb⟩ := decimals_ok W hW d (real - I) (by linarith) (by linarith)
  have hfl2 : ⌊(real - I) * 10 ^ d⌋ = ⌊real * 10 ^ d⌋ - I * 10 ^ d := by
    rw [← Int.floor_sub_intCast]
    congr 1
    push_cast; ring
  have hnn : 0 ≤ ⌊(real - I) * 10 ^ d⌋ := Int.floor_nonneg.2 (mul_nonneg (by linarith) (by positivity))
  obtain ⟨m, hm⟩ := Int.eq_ofNat_of_zero_le hnn
  have hN : ⌊real * 10 ^ d⌋ = ((I * 10 ^ d + m : Nat) : Int) := by rw [hm] at hfl2; push_cast; omega
  have hb1 := Int.floor_le (real * 10 ^ d)
  have hb2 := Int.lt_floor_add_one (real * 10 ^ d)
  rw [hN] at hb1 hb2
  have hscale : real * 10 ^ d = |x| * 10 ^ d + 1 / 2 := by rw [← hreal]; field_simp
  rw [hscale] at hb1 hb2
  refine ⟨a ++ (if d = 0 then [] else f.decimalSeparator :: b), I * 10 ^ d + m, ?_, ⟨a, b, rfl, hlen, na.2, ?_, hane⟩, ?_, ?_⟩
  · simp only [writeReal, habs, rounding_id, hreal, id, toUnsigned_ok 32 real hr0 hx, Res.bind_ok, hI]
    have : (Int.ofNat I).toNat = I := rfl
    simp only [Int.toNat_natCast, ea', Res.bind_ok]
    by_cases hd : d = 0
    · simp [hd]
    · rw [if_pos (by omega)]
      simp only [eb, Res.bind_ok, if_neg hd, List.append_assoc]
  · have hne : a ++ b ≠ [] := by simp [hane]
    simp only [parse, if_neg hne]
    rw [readFrom_append 10 a b 0 _ (ra 0), rb]
    simp [hm]
  · push_cast at hb1 ⊢; linarith
  · push_cast at hb2 ⊢; linarith

/-- 0.375 with two digits, exactly, and -2.5 with none. -/
example : writeReal id 16 {} (3 / 8) 2 = .ok [48, 46, 51, 56] := by decide +kernel
example : writeReal id 16 {} (-5 / 2) 0 = .ok [45, 51] := by decide +kernel
example : writeReal id 16 {} (-1 / 1000) 2 = .ok [45, 48, 46, 48, 48] := by decide +kernel

/-- **C34 is false in floating point**: 0.375 is represented exactly in both formats and is written as "0.37", not "0.38",
    with 32-bit floats (AVR) and with 64-bit doubles. -/
theorem c34_binary_fails :
    (roundBin 24 126 (3 / 8) = 3 / 8 ∧ writeFloat (roundBin 24 126) 16 {} (3 / 8) = .ok [48, 46, 51, 55]) ∧
    (roundBin 53 1022 (3 / 8) = 3 / 8 ∧ writeFloat (roundBin 53 1022) 32 {} (3 / 8) = .ok [48, 46, 51, 55]) := by
  decide +kernel

section
open Atl.Spec.Float Atl.Proof.Float
variable {p : Nat} {emin : Int} {rnd : Rat → Rat}

theorem tiny_le (he : emin ≤ -2 * p) (hp : 2 ≤ p) : (2 : Rat) ^ (emin - 1) ≤ 1 / 2 ^ p / 8 := by
  calc (2 : Rat) ^ (emin - 1) ≤ 2 ^ (-(p : Int) + -3) := zpow_le_zpow_right₀ (by norm_num) (by omega)
    _ = 1 / 2 ^ p / 8 := by rw [zpow_add₀ (by norm_num), zpow_neg, zpow_natCast]; norm_num; ring

theorem unit_le_half (hp : 2 ≤ p) : (1 : Rat) / 2 ^ p ≤ 1 / 4 := by
  apply one_div_le_one_div_of_le (by norm_num)
  calc (4 : Rat) = 2 ^ 2 := by norm_num
    _ ≤ 2 ^ p := pow_le_pow_right₀ (by norm_num) hp

/-- The rounding constant. -/
theorem rounding_float (h : Rounding p emin rnd) (hp : 2 ≤ p) (he : emin ≤ -2 * p) (d : Nat) :
    0 ≤ rounding rnd d ∧ |rounding rnd d - 1 / (2 * 10 ^ d)| ≤ 1 / 2 ^ p / 4 := by
  have ht := tiny_le he hp
  have hu := unit_le_half hp
  have hu0 : (0 : Rat) < 1 / 2 ^ p := by positivity
  induction d with
  | zero => exact ⟨by norm_num [rounding], by simp only [rounding, pow_zero, mul_one, sub_self, abs_zero]; linarith⟩
  | succ d ih =>
    obtain ⟨h0, h1⟩ := ih
    simp only [rounding]
    refine ⟨rnd_nonneg h (by linarith), ?_⟩
    have e := rnd_error h (by omega) (show 0 ≤ rounding rnd d / 10 by linarith)
    have hten : (1 : Rat) / (2 * 10 ^ d) ≤ 1 / 2 := by
      apply one_div_le_one_div_of_le (by norm_num)
      have : (1 : Rat) ≤ 10 ^ d := one_le_pow₀ (by norm_num)
      linarith
    have hle : rounding rnd d ≤ 1 := by
      have := (abs_le.1 h1).2
      linarith
    have e2 : rounding rnd d / 10 / 2 ^ p ≤ 1 / 2 ^ p / 10 := by
      have : rounding rnd d * (1 / 2 ^ p) ≤ 1 * (1 / 2 ^ p) := mul_le_mul_of_nonneg_right hle hu0.le
      have e : rounding rnd d / 10 / 2 ^ p = rounding rnd d * (1 / 2 ^ p) / 10 := by ring
      rw [e]; linarith
    have e3 : (1 : Rat) / (2 * 10 ^ (d + 1)) = 1 / (2 * 10 ^ d) / 10 := by rw [pow_succ]; field_simp
    rw [e3]
    rw [abs_le] at e h1 ⊢
    constructor <;> linarith [e.1, e.2, h1.1, h1.2]

/-- The decimals loop in floating point: exactly `d` digits, never a two digit number. -/
theorem decimals_float (h : Rounding p emin rnd) (hp : 2 ≤ p) (he : emin ≤ -2 * p) (W : Nat) (hW : 16 ≤ W) (d : Nat) (r : Rat)
    (hr : Representable p emin r) (h0 : 0 ≤ r) (h1 : r < 1) :
    ∃ b m, decimals rnd W d r = .ok b ∧ b.length = d ∧ (∀ acc, readFrom 10 acc b = some (acc * 10 ^ d + m)) ∧
      (m : Rat) / 10 ^ d ≤ r + 5 / 4 * (1 / 2 ^ p) ∧ r - 1 / 10 ^ d - 5 / 4 * (1 / 2 ^ p) ≤ (m : Rat) / 10 ^ d := by
  have ht := tiny_le he hp
  have hu0 : (0 : Rat) < 1 / 2 ^ p := by positivity
  induction d generalizing r with
  | zero => exact ⟨[], 0, rfl, rfl, fun acc => by simp [readFrom], by simp only [Nat.cast_zero, zero_div]; linarith, by simp only [Nat.cast_zero, zero_div, pow_zero]; linarith⟩
  | succ d ih =>
    have t0 := rnd_nonneg h (show 0 ≤ r * 10 by linarith)
    have t1 := rnd_ten h (by omega) he hr h0 h1
    have trep := h.rep (r * 10)
    have terr := rnd_error h (by omega) (show 0 ≤ r * 10 by linarith)
    generalize ht' : rnd (r * 10) = t at *
    have hk0 : 0 ≤ ⌊t⌋ := Int.floor_nonneg.2 t0
    have hk1 : ⌊t⌋ < 10 := Int.floor_lt.2 (by push_cast; linarith)
    obtain ⟨k, hk⟩ := Int.eq_ofNat_of_zero_le hk0
    have hk10 : k < 10 := by omega
    have hfl := Int.floor_le t
    have hlt := Int.lt_floor_add_one t
    have hparts := (rep_parts (by omega) trep t0).2
    rw [hk] at hfl hlt hparts
    push_cast at hfl hlt hparts
    obtain ⟨b, m, e, hlen, hread, hm1, hm2⟩ := ih (t - k) hparts (by linarith) (by linarith)
    have hW' : t < 2 ^ W := by
      have : (2 : Rat) ^ 16 ≤ 2 ^ W := pow_le_pow_right₀ (by norm_num) hW
      have : (10 : Rat) ≤ 2 ^ 16 := by norm_num
      linarith
    have terr' : |t - r * 10| ≤ 10 * (1 / 2 ^ p) + 1 / 2 ^ p / 8 := by
      refine terr.trans ?_
      have : r * (1 / 2 ^ p) ≤ 1 * (1 / 2 ^ p) := mul_le_mul_of_nonneg_right h1.le hu0.le
      have e : r * 10 / 2 ^ p = 10 * (r * (1 / 2 ^ p)) := by ring
      rw [e]; linarith
    have hval : ((k * 10 ^ d + m : Nat) : Rat) / 10 ^ (d + 1) = (k + (m : Rat) / 10 ^ d) / 10 := by
      push_cast; rw [pow_succ]; field_simp
    have hunit : (1 : Rat) / 10 ^ (d + 1) = 1 / 10 ^ d / 10 := by rw [pow_succ]; field_simp
    refine ⟨(48 + k) :: b, k * 10 ^ d + m, ?_, by simp [hlen], fun acc => ?_, ?_, ?_⟩
    · simp only [decimals, ht', toUnsigned_ok W t t0 hW', Res.bind_ok, hk]
      have : toU 16 (((k : Int).toNat : Nat) : Int) = k := by
        rw [show (k : Int).toNat = k from rfl, toU_small (by omega)]
      rw [this, writeInt_digit W hW k hk10]
      rw [rnd_exact h hparts]
      simp [e]
    · simp only [readFrom]
      have hd : digitVal (48 + k) = some k := by unfold digitVal; rw [if_pos (by omega)]; simp
      simp only [hd, if_pos hk10]
      rw [hread]
      simp only [Option.some.injEq]
      ring
    · rw [hval]
      have := (abs_le.1 terr').2
      linarith
    · rw [hval, hunit]
      have := (abs_le.1 terr').1
      linarith

/-- **C34 in floating point, partial.** For every binary format and every way to round to nearest - AVR's 32-bit `double` and IEEE binary64 among them - every
    value, every number of digits: the text is well formed with exactly `d` digits, and is the value rounded to within half a unit of the last place
    plus `(|x| + 3) / 2 ^ p`. Missing: without that term it is false (next theorem). -/
theorem c34_float_partial (h : Rounding p emin rnd) (hp : 2 ≤ p) (he : emin ≤ -2 * p) (W : Nat) (hW : 16 ≤ W) (f : Format) (x : Rat) (d : Nat)
    (hx : |x| + 1 ≤ 2 ^ 32 - (2 : Rat) ^ (32 - (p : Int))) :
    ∃ s n, writeReal rnd W f x d = .ok ((if x < 0 then [f.negativeSign] else []) ++ s) ∧
      FixedPoint f.decimalSeparator d s n ∧ |(n : Rat) / 10 ^ d - (|x|)| ≤ 1 / (2 * 10 ^ d) + (|x| + 3) / 2 ^ p := by
  have habs : (if x < 0 then -x else x) = |x| := by
    split
    · rw [abs_of_neg ‹_›]
    · rw [abs_of_nonneg (by linarith)]
  have ht := tiny_le he hp
  have hu := unit_le_half hp
  have hu0 : (0 : Rat) < 1 / 2 ^ p := by positivity
  have hx0 := abs_nonneg x
  obtain ⟨r0, r1⟩ := rounding_float h hp he d
  have hten : (1 : Rat) / (2 * 10 ^ d) ≤ 1 / 2 := by
    apply one_div_le_one_div_of_le (by norm_num)
    have : (1 : Rat) ≤ 10 ^ d := one_le_pow₀ (by norm_num)
    linarith
  have hR : rounding rnd d ≤ 1 := by
    have := (abs_le.1 r1).2
    linarith
  have s0 : 0 ≤ |x| + rounding rnd d := by linarith
  have q0 := rnd_nonneg h s0
  have qrep := h.rep (|x| + rounding rnd d)
  have qerr := rnd_error h (by omega) s0
  have hmax : Representable p emin (2 ^ 32 - (2 : Rat) ^ (32 - (p : Int))) := by
    refine ⟨2 ^ p - 1, 32 - (p : Int), ?_, by omega, ?_⟩
    · have : (1 : Int) ≤ 2 ^ p := one_le_pow₀ (by norm_num)
      rw [abs_of_nonneg (by omega)]; omega
    · push_cast
      rw [sub_mul, one_mul, ← zpow_natCast (2 : Rat) p, ← zpow_add₀ (by norm_num : (2 : Rat) ≠ 0), show (p : Int) + (32 - p) = (32 : Nat) by omega,
        zpow_natCast]
  have q32 : rnd (|x| + rounding rnd d) < 2 ^ 32 := by
    have := rnd_le h hmax (show |x| + rounding rnd d ≤ _ by linarith)
    have : (0 : Rat) < 2 ^ (32 - (p : Int)) := by positivity
    linarith
  generalize hreal : rnd (|x| + rounding rnd d) = real at *
  have hI0 : 0 ≤ ⌊real⌋ := Int.floor_nonneg.2 q0
  obtain ⟨I, hI⟩ := Int.eq_ofNat_of_zero_le hI0
  have hfl := Int.floor_le real
  have hlt := Int.lt_floor_add_one real
  obtain ⟨hp1, hp2⟩ := rep_parts (show emin ≤ 0 by omega) qrep q0
  rw [hI] at hfl hlt hp1 hp2
  push_cast at hfl hlt hp1 hp2
  have hI32 : I < 2 ^ 32 := by
    have : (I : Rat) < 2 ^ 32 := by linarith
    exact_mod_cast this
  obtain ⟨a, ea, na, _, ra, hane⟩ := writeInternal_ok 32 21 10 I (junkBuf 21) (by simp [junkBuf]) (by omega) (by omega) (by omega)
    (by omega) hI32
  have ea' : writeLong I 10 = .ok a := ea
  obtain ⟨b, m, eb, hlen, rb, hm1, hm2⟩ := decimals_float h hp he W hW d (real - I) hp2 (by linarith) (by linarith)
  have hval : ((I * 10 ^ d + m : Nat) : Rat) / 10 ^ d = I + (m : Rat) / 10 ^ d := by push_cast; field_simp
  refine ⟨a ++ (if d = 0 then [] else f.decimalSeparator :: b), I * 10 ^ d + m, ?_, ⟨a, b, rfl, hlen, na.2, ?_, hane⟩, ?_⟩
  · simp only [writeReal, habs, hreal, toUnsigned_ok 32 real q0 q32, Res.bind_ok, hI]
    simp only [Int.toNat_natCast, ea', Res.bind_ok]
    rw [rnd_exact h hp1, rnd_exact h hp2]
    by_cases hd : d = 0
    · simp [hd]
    · rw [if_pos (by omega)]
      simp only [eb, Res.bind_ok, if_neg hd, List.append_assoc]
  · have hne : a ++ b ≠ [] := by simp [hane]
    simp only [parse, if_neg hne]
    rw [readFrom_append 10 a b 0 _ (ra 0), rb]
    simp
  · rw [hval]
    have e1 : (|x| + rounding rnd d) / 2 ^ p ≤ (|x| + 1) * (1 / 2 ^ p) := by
      have : (|x| + rounding rnd d) / 2 ^ p = (|x| + rounding rnd d) * (1 / 2 ^ p) := by ring
      rw [this]
      exact mul_le_mul_of_nonneg_right (by linarith) hu0.le
    have e2 : (|x| + 3) / 2 ^ p = (|x| + 1) * (1 / 2 ^ p) + 2 * (1 / 2 ^ p) := by ring
    have e3 : (1 : Rat) / 10 ^ d = 1 / (2 * 10 ^ d) + 1 / (2 * 10 ^ d) := by field_simp; norm_num
    rw [e2]
    rw [abs_le] at qerr r1 ⊢
    constructor <;> linarith [qerr.1, qerr.2, r1.1, r1.2]

/-- **C34.** So in floating point the text is the correctly rounded value whenever the value is not that close to the middle between two texts. -/
theorem c34_float_nearest (h : Rounding p emin rnd) (hp : 2 ≤ p) (he : emin ≤ -2 * p) (W : Nat) (hW : 16 ≤ W) (f : Format) (x : Rat) (d : Nat)
    (hx : |x| + 1 ≤ 2 ^ 32 - (2 : Rat) ^ (32 - (p : Int))) (N : Nat) (hN : |(N : Rat) / 10 ^ d - (|x|)| < 1 / (2 * 10 ^ d) - (|x| + 3) / 2 ^ p) :
    ∃ s, writeReal rnd W f x d = .ok ((if x < 0 then [f.negativeSign] else []) ++ s) ∧ FixedPoint f.decimalSeparator d s N := by
  obtain ⟨s, n, e, hf, hn⟩ := c34_float_partial h hp he W hW f x d hx
  have : n = N := by
    have e3 : (1 : Rat) / 10 ^ d = 1 / (2 * 10 ^ d) + 1 / (2 * 10 ^ d) := by field_simp; norm_num
    have h10 : (0 : Rat) < 10 ^ d := by positivity
    have hd : |((n : Rat) - N) / 10 ^ d| < 1 / 10 ^ d := by
      have e4 : ((n : Rat) - N) / 10 ^ d = ((n : Rat) / 10 ^ d - (|x|)) - ((N : Rat) / 10 ^ d - (|x|)) := by ring
      rw [e4, e3]
      refine lt_of_le_of_lt (abs_sub _ _) ?_
      linarith
    rw [abs_div, abs_of_pos h10, div_lt_div_iff_of_pos_right h10] at hd
    have hz : |(n : Int) - N| < 1 := by exact_mod_cast hd
    have := Int.abs_lt_one_iff.1 hz
    omega
  exact ⟨s, e, this ▸ hf⟩

/-- The formats of AVR and of the host, with ties to even. -/
theorem c34_formats : Rounding 24 (-149) (roundBin 24 126) ∧ Rounding 53 (-1074) (roundBin 53 1022) :=
  ⟨roundBin_rounding 24 126 (by omega), roundBin_rounding 53 1022 (by omega)⟩

/-- Both break ties towards the even significand, as IEEE 754 requires: 2^24 + 1 rounds down, 2^24 + 3 up. -/
theorem c34_ties (p b : Nat) {y : Rat} (hy : 0 < y) (k : Int) (h : y / (2 : Rat) ^ unit p (1 - (p : Int) - b) y = k + 1 / 2) :
    ∃ m : Int, 2 ∣ m ∧ roundBin p b y = m * (2 : Rat) ^ unit p (1 - (p : Int) - b) y := roundBin_tie p b hy k h

example : roundBin 24 126 (2 ^ 24 + 1) = 2 ^ 24 ∧ roundBin 24 126 (2 ^ 24 + 3) = 2 ^ 24 + 4 := by decide +kernel

/-- 123.456 as a 32-bit float, three digits. -/
example : (∃ s n, writeReal (roundBin 24 126) 16 {} (16181625 / 131072) 3 = .ok ([] ++ s) ∧ FixedPoint 46 3 s n ∧
    |(n : Rat) / 10 ^ 3 - 16181625 / 131072| ≤ 1 / 2000 + (16181625 / 131072 + 3) / 2 ^ 24) ∧
    writeReal (roundBin 24 126) 16 {} (16181625 / 131072) 3 = .ok [49, 50, 51, 46, 52, 53, 54] := by
  refine ⟨?_, by decide +kernel⟩
  have h := c34_float_partial c34_formats.1 (by omega) (by omega) 16 (by omega) {} (16181625 / 131072) 3 (by
    rw [abs_of_nonneg (by norm_num)]; norm_num)
  rw [abs_of_nonneg (show (0 : Rat) ≤ 16181625 / 131072 by norm_num), if_neg (by norm_num)] at h
  convert h using 8
  norm_num

/-- -0.1 as a 32-bit float is written as "-0.10". -/
example : ∃ s, writeReal (roundBin 24 126) 16 {} (-13421773 / 134217728) 2 = .ok ((if (-13421773 / 134217728 : Rat) < 0 then [45] else []) ++ s) ∧
    FixedPoint 46 2 s 10 :=
  c34_float_nearest c34_formats.1 (by omega) (by omega) 16 (by omega) {} _ 2 (by rw [abs_of_neg (by norm_num)]; norm_num) 10 (by
    rw [abs_of_neg (show (-13421773 / 134217728 : Rat) < 0 by norm_num)]; norm_num [abs_lt])

end

/-- The integer part must fit: a magnitude that rounds to 2^32 or more is undefined behaviour, for every number of digits. -/
theorem c34_too_large_fails (W : Nat) (f : Format) (x : Rat) (d : Nat) (hx : 2 ^ 32 ≤ |x| + 1 / (2 * 10 ^ d)) : writeReal id W f x d = .ub := by
  have habs : (if x < 0 then -x else x) = |x| := by
    split
    · rw [abs_of_neg ‹_›]
    · rw [abs_of_nonneg (by linarith)]
  have : toUnsigned 32 (|x| + 1 / (2 * 10 ^ d)) = .ub := by
    unfold toUnsigned
    rw [if_pos (Or.inr (by exact_mod_cast hx))]
  simp only [writeReal, habs, rounding_id, id, this, Res.bind_ub]

example : writeFloat id 16 {} 4294967296 = .ub ∧ writeReal id 16 {} (4294967295 + 1 / 2) 0 = .ub := by decide +kernel

end Atl.Props
