import Verif.Model.Misc
import Verif.Proof.Array

/- Property theorems C93-C97: Math, StaticString, program memory, Debug, object ids. -/
namespace Atl.Props
open Atl.Misc

/-! ### C93 Math::Abs -/

/-- **C93, partial.** For every signed type of 1 to `n` bits, narrower or wider than `int`, and every value but the smallest: the absolute value, no overflow; unsigned
    values are returned as they are. Missing: the smallest value. -/
theorem c93_abs_partial (W n : Nat) (hn : 1 ≤ n) (x : Int) (h : -(2 ^ (n - 1) : Nat) < x ∧ x < (2 ^ (n - 1) : Nat)) :
    absSigned W n x = .ok (x.natAbs : Int) ∧ ∀ u, absUnsigned u = u := by
  refine ⟨?_, fun _ => rfl⟩
  have e2 : (2 : Nat) ^ n = 2 ^ (n - 1) + 2 ^ (n - 1) := by
    obtain ⟨k, rfl⟩ : ∃ k, n = k + 1 := ⟨n - 1, by omega⟩
    simp [Nat.pow_succ]; omega
  unfold absSigned
  by_cases h0 : 0 ≤ x
  · rw [if_pos h0]; congr 1; omega
  · rw [if_neg h0, show (x.natAbs : Int) = -x by omega]
    by_cases hw : n < W
    · rw [if_pos hw]
      congr 1
      unfold toS
      rw [e2, Int.emod_eq_of_lt (by omega) (by omega)]
      omega
    · rw [if_neg hw, if_neg (by omega)]

example : absSigned 16 8 (-5) = .ok 5 ∧ absSigned 16 16 (-32767) = .ok 32767 := by decide +kernel

/-- **C93 fails** ("Returns the non-negative value") for the smallest value of every signed type: a type narrower than `int` returns it unchanged, still negative;
    in the others the negation overflows. -/
theorem c93_smallest_fails (W n : Nat) (hn : 1 ≤ n) :
    absSigned W n (-(2 ^ (n - 1) : Nat)) = if n < W then .ok (-(2 ^ (n - 1) : Nat)) else .ub := by
  have hp : 0 < (2 : Nat) ^ (n - 1) := Nat.two_pow_pos _
  have e2 : (2 : Nat) ^ n = 2 ^ (n - 1) + 2 ^ (n - 1) := by
    obtain ⟨k, rfl⟩ : ∃ k, n = k + 1 := ⟨n - 1, by omega⟩
    simp [Nat.pow_succ]; omega
  unfold absSigned
  rw [if_neg (by omega)]
  by_cases hw : n < W
  · rw [if_pos hw, if_pos hw]
    congr 1
    unfold toS
    rw [e2, show (- -((2 ^ (n - 1) : Nat) : Int) + ((2 ^ (n - 1) : Nat) : Int)) = ((2 ^ (n - 1) + 2 ^ (n - 1) : Nat) : Int) by omega, Int.emod_self]
    omega
  · rw [if_neg hw, if_neg hw, if_pos rfl]

/-! ### C94 StaticString -/

/-- **C94, partial.** A string shorter than the target buffer arrives completely with its terminator, the rest of the buffer is zero; nothing outside is
    written. Missing: strings that do not fit. -/
theorem c94_read_partial (target str : List Int) (hlen : str.length < target.length) :
    staticRead target str target.length = .ok (str ++ List.replicate (target.length - str.length) 0) := by
  have := FixedString.strncpyLoop_spec target.length target.length str target 0 (by omega) (by omega) (by omega)
  unfold staticRead
  rw [this]
  simp [List.take_of_length_le (by omega : str.length ≤ target.length)]

example := c94_read_partial [7, 7, 7] [65, 66] (by decide)

/-- **C94.** A length below the size of the buffer is respected: what lies behind stays. -/
theorem c94_length (target str : List Int) (n : Nat) (hn : n ≤ target.length) :
    ∃ r, staticRead target str n = .ok r ∧ r.length = target.length ∧ r.drop n = target.drop n := by
  have := FixedString.strncpyLoop_spec n n str target 0 (by omega) hn (by omega)
  refine ⟨_, this, ?_, ?_⟩
  · simp; omega
  · have hl : (target.take 0 ++ (str.take n ++ List.replicate (n - str.length) 0)).length = n := by simp; omega
    rw [List.drop_append, hl]
    simp [List.drop_eq_nil_of_le (show (str.take n ++ List.replicate (n - str.length) 0).length ≤ n by simp; omega)]

example := c94_length [7, 7, 7] [65, 66, 67] 2 (by decide)

/-- **C94 fails**: a string (without zero characters) that does not fit leaves the buffer without any terminator: the string in it does not end. -/
theorem c94_read_fails (target str : List Int) (hs : 0 ∉ str) (hlen : target.length ≤ str.length) :
    ∃ r, staticRead target str target.length = .ok r ∧ r.length = target.length ∧ 0 ∉ r := by
  have := FixedString.strncpyLoop_spec target.length target.length str target 0 (by omega) (by omega) (by omega)
  refine ⟨str.take target.length, ?_, by simp; omega, fun h => hs (List.mem_of_mem_take h)⟩
  unfold staticRead
  rw [this]
  simp [Nat.sub_eq_zero_of_le hlen]

example : staticRead [7, 7, 7] [65, 66] 3 = .ok [65, 66, 0] ∧ staticRead [7, 7, 7] [65, 66, 67] 3 = .ok [65, 66, 67] := by
  constructor
  · exact c94_read_partial [7, 7, 7] [65, 66] (by decide)
  · have := FixedString.strncpyLoop_spec 3 3 [65, 66, 67] [7, 7, 7] 0 (by omega) (by decide) (by omega)
    unfold staticRead; rw [this]; decide

/-! ### C95 program memory -/

/-- A table of `size`-byte numbers, least significant byte first. -/
def InFlash (flash : Nat → Nat) (base size : Nat) (values : List Nat) : Prop :=
  ∀ i, (h : i < values.length) → ∀ k, k < size → flash (base + size * i + k) = values[i] / 256 ^ k % 256

theorem pgm_bytes (flash : Nat → Nat) (v : Nat) : ∀ (size a j : Nat), a + size ≤ 65536 →
    (∀ k, k < size → flash (a + k) = v / 256 ^ (j + k) % 256) → pgmRead flash size a = v / 256 ^ j % 256 ^ size := by
  intro size
  induction size with
  | zero => intro a j _ _; simp [pgmRead, Nat.mod_one]
  | succ n ih =>
    intro a j ha hk
    have e : toU 16 (a : Int) = a := by unfold toU; omega
    unfold pgmRead
    rw [e, ih (a + 1) (j + 1) (by omega) (fun k hk' => by rw [show a + 1 + k = a + (k + 1) by omega, hk (k + 1) (by omega)]; congr 3; omega)]
    have h0 := hk 0 (by omega)
    simp only [Nat.add_zero] at h0
    rw [h0, Nat.pow_succ, ← Nat.div_div_eq_div_mul, Nat.pow_succ 256 n, Nat.mul_comm (256 ^ n) 256, Nat.mod_mul]

/-- **C95, partial.** Every item of a table of numbers of 1, 2 or 4 bytes in the first 64 KB of program memory reads back as stored, unsigned and signed.
    Missing: tables above 64 KB (see the `_fails` theorem). -/
theorem c95_read_partial (flash : Nat → Nat) (base size : Nat) (values : List Nat) (hs : size = 1 ∨ size = 2 ∨ size = 4)
    (hf : InFlash flash base size values) (hb : base + size * values.length ≤ 65536) (i : Nat) (hi : i < values.length) (hv : values[i] < 256 ^ size) :
    readUnsigned flash base size i = values[i] ∧
    ∀ x : Int, -(2 ^ (8 * size - 1) : Nat) ≤ x → x < (2 ^ (8 * size - 1) : Nat) → values[i] = toU (8 * size) x → readSigned flash base size i = x := by
  have hend : base + size * i + size ≤ 65536 := by
    have : size * (i + 1) ≤ size * values.length := Nat.mul_le_mul_left _ hi
    rw [Nat.mul_add] at this
    omega
  have ha : itemAddress base size i = base + size * i := by unfold itemAddress toU; rcases hs with h | h | h <;> subst h <;> omega
  have hr : pgmRead flash size (base + size * i) = values[i] := by
    rw [pgm_bytes flash values[i] size (base + size * i) 0 hend (fun k hk => by rw [hf i hi k hk, Nat.zero_add])]
    simp [Nat.mod_eq_of_lt hv]
  unfold readUnsigned readSigned
  rw [ha, hr]
  constructor
  · unfold toU
    rcases hs with h | h | h <;> subst h <;> simp only [Nat.reducePow, Nat.reduceMul] at hv ⊢ <;> omega
  · intro x h1 h2 hx
    rw [hx]
    unfold toU toS
    rcases hs with h | h | h <;> subst h <;> simp only [Nat.reducePow, Nat.reduceMul, Nat.reduceSub] at h1 h2 ⊢ <;> omega

/-- Two words at 0x100, the second one -2. -/
example : InFlash (fun a => [0x34, 0x12, 0xFE, 0xFF].getD (a - 0x100) 0) 0x100 2 [0x1234, 0xFFFE] := by
  unfold InFlash; decide +kernel

/-- **C95 fails** above 64 KB: a byte stored there is not read, another one is. -/
theorem c95_far_fails (base : Nat) (h : 65536 ≤ base) (hb : base < 131072) : ∃ flash : Nat → Nat, InFlash flash base 1 [1] ∧ readUnsigned flash base 1 0 = 0 := by
  refine ⟨fun a => if a = base then 1 else 0, ?_, ?_⟩
  · intro i hi k hk
    obtain rfl : i = 0 := by simpa using hi
    obtain rfl : k = 0 := by omega
    simp
  · have e : itemAddress base 1 0 = base - 65536 := by unfold itemAddress toU; omega
    unfold readUnsigned
    rw [e]
    have e2 : toU 16 ((base - 65536 : Nat) : Int) = base - 65536 := by unfold toU; omega
    simp only [pgmRead, e2]
    rw [if_neg (by omega)]
    rfl

/-! ### C96 Debug -/

/-- **C96.** In a debug build the message is handed on, once and unchanged, exactly if there is a writer and the filter, if there is one, lets this component and
    level pass; CanLog tells whether the filter does. In a release build nothing is ever written. -/
theorem c96_log (w : Bool) (f : Option (Nat → Nat → Bool)) (c l : Nat) (m : List Nat) :
    (log w f c l m = if w = true ∧ ∀ g, f = some g → g c l = true then [m] else []) ∧
    (canLog f c l = true ↔ ∀ g, f = some g → g c l = true) ∧ logRelease m = [] ∧ canLogRelease = false := by
  refine ⟨?_, ?_, rfl, rfl⟩
  · unfold log canLog
    cases w <;> cases f with
    | none => simp
    | some g => cases hg : g c l <;> simp [hg]
  · cases f <;> simp [canLog]

/-! ### C97 object ids -/

/-- Objects are ranges of memory; two objects are apart when the ranges do not overlap. -/
def Apart (a n b m : Nat) : Prop := a + n ≤ b ∨ b + m ≤ a

/-- **C97, partial.** Objects (not empty) that do not overlap have different ids on a processor with 16-bit addresses. Missing: overlapping objects (a member at
    the start of another object) and wider addresses. -/
theorem c97_unique_partial (a n b m : Nat) (ha : a < 65536) (hb : b < 65536) (hn : 0 < n) (hm : 0 < m) (h : Apart a n b m) : getId a ≠ getId b := by
  unfold getId toU
  unfold Apart at h
  omega

example : Apart 0x100 4 0x104 2 := by unfold Apart; omega

/-- **C97.** The id of an object in memory (not at address 0) is not 0, the mark of a free place in the table of delays. -/
theorem c97_nonzero (a : Nat) (h0 : 0 < a) (ha : a < 65536) : getId a ≠ 0 := by unfold getId toU; omega

/-- **C97 fails** ("Returns a unique id"): an object and a smaller one that is its first member have the same id; with wider addresses so have objects
    64 KB apart. -/
theorem c97_unique_fails (a : Nat) :
    (∀ n m, 0 < m → m < n → ∃ member, a ≤ member ∧ member + m ≤ a + n ∧ getId member = getId a) ∧
    (∀ n m, n ≤ 65536 → ∃ b, Apart a n b m ∧ getId b = getId a) := by
  refine ⟨fun n m _ h => ⟨a, by omega, by omega, rfl⟩, fun n m hs => ⟨a + 65536, Or.inl (by omega), ?_⟩⟩
  unfold getId toU
  omega

end Atl.Props
