import Verif.Model.DelayAvr
import Verif.Proof.Float
import Mathlib.Tactic.IntervalCases
import Mathlib.Tactic.GCongr

/- Property theorems C116: `Delay::Wait` on AVR. -/
namespace Atl.Props
open Atl.Spec.Float Atl.Proof.Float Atl.DelayAvr
open Atl.Text (roundBin)

/-- Specification: `c` cycles of a clock of `fcpu` Hz are the time `t / unit` seconds, and less than one cycle more. -/
def WaitsFor (fcpu unit t c : Nat) : Prop := fcpu * t ≤ c * unit ∧ c * unit < fcpu * t + unit

/-- The full claim, for a clock: every time the parameter can hold. -/
def DelayClaim (rnd : Rat → Rat) (fcpu : Nat) : Prop :=
  ∀ t < 2 ^ 32, (∃ c, waitMilliseconds rnd fcpu t = .ok c ∧ WaitsFor fcpu 1000 t c) ∧
    ∃ c, waitMicroseconds rnd fcpu t = .ok c ∧ WaitsFor fcpu 1000000 t c

theorem le_rnd {p : Nat} {emin : Int} {rnd : Rat → Rat} (h : Rounding p emin rnd) {y z : Rat} (hz : Representable p emin z) (hy : z ≤ y) : z ≤ rnd y := by
  have h1 := h.nearest y z hz
  rw [abs_sub_comm z y, abs_of_nonneg (by linarith : (0 : Rat) ≤ y - z)] at h1
  have := (abs_le.1 h1).1
  linarith

/-- A number of `k` binary zeros behind at most 24 bits. -/
theorem rep_nat (m k : Nat) (hm : m < 2 ^ 24) : Representable 24 (-149) ((m * 2 ^ k : Nat) : Rat) :=
  ⟨m, k, by rw [abs_of_nonneg (by omega)]; exact_mod_cast hm, by omega, by push_cast; rw [zpow_natCast]⟩

theorem cycles_exact {rnd : Rat → Rat} (h : Rounding 24 (-149) rnd) {fcpu div t : Nat} (h1 : Representable 24 (-149) fcpu)
    (h2 : Representable 24 (-149) ((fcpu : Rat) / div)) (h3 : Representable 24 (-149) t) (h4 : Representable 24 (-149) ((fcpu : Rat) / div * t))
    (hd : 0 < div) (hlt : fcpu * t ≤ (2 ^ 32 - 1) * div) : ∃ c, delayCycles rnd fcpu div (rnd t) = .ok c ∧ WaitsFor fcpu div t c := by
  unfold delayCycles
  simp only [rnd_exact h h1, rnd_exact h h2, rnd_exact h h3, rnd_exact h h4]
  have hdq : (0 : Rat) < div := by exact_mod_cast hd
  have h0 : (0 : Rat) ≤ (fcpu : Rat) / div * t := by positivity
  rw [abs_of_nonneg h0]
  have e : (fcpu : Rat) / div * t = ((fcpu * t : Nat) : Rat) / div := by push_cast; ring
  have hle : ⌈(fcpu : Rat) / div * t⌉ ≤ 2 ^ 32 - 1 := by
    rw [Int.ceil_le, e, div_le_iff₀ hdq]
    have : ((fcpu * t : Nat) : Rat) ≤ (((2 ^ 32 - 1) * div : Nat) : Rat) := by exact_mod_cast hlt
    norm_num at this ⊢
    exact this
  have hc0 : 0 ≤ ⌈(fcpu : Rat) / div * t⌉ := Int.ceil_nonneg h0
  rw [if_pos (by omega)]
  refine ⟨_, rfl, ?_⟩
  obtain ⟨c, hc⟩ : ∃ c : Nat, ⌈(fcpu : Rat) / div * t⌉ = c := ⟨_, (Int.toNat_of_nonneg hc0).symm⟩
  rw [hc, Int.toNat_natCast]
  have a1 := Int.le_ceil ((fcpu : Rat) / div * t)
  have a2 := Int.ceil_lt_add_one ((fcpu : Rat) / div * t)
  rw [hc, e] at a1 a2
  rw [div_le_iff₀ hdq] at a1
  rw [← sub_lt_iff_lt_add, lt_div_iff₀ hdq] at a2
  refine ⟨by exact_mod_cast a1, ?_⟩
  have : ((c : Int) : Rat) * div < ((fcpu * t : Nat) : Rat) + div := by linarith
  exact_mod_cast this

/-- **C116, partial.** For a clock of `m * 2 ^ k` MHz (16 MHz: m = 1, k = 4) and every rounding to nearest: the wait in milliseconds is exact as long as
    `125 * m * t` has at most 24 bits, the one in microseconds as long as `m * t` has (and the number of cycles fits in 32 bits).
    Missing: longer times, see `c116_close_partial` and the `_fails` theorems. -/
theorem c116_exact_partial (rnd : Rat → Rat) (h : Rounding 24 (-149) rnd) (m k t : Nat) (hm : 15625 * m < 2 ^ 24) (ht : t < 2 ^ 24) :
    (125 * m * t < 2 ^ 24 → m * 2 ^ k * 1000 * t < 2 ^ 32 → waitMilliseconds rnd (m * 2 ^ k * 1000000) t = .ok (m * 2 ^ k * 1000 * t)) ∧
    (m * t < 2 ^ 24 → m * 2 ^ k * t < 2 ^ 32 → waitMicroseconds rnd (m * 2 ^ k * 1000000) t = .ok (m * 2 ^ k * t)) := by
  have r1 : Representable 24 (-149) ((m * 2 ^ k * 1000000 : Nat) : Rat) := by
    have := rep_nat (15625 * m) (k + 6) hm
    convert this using 2; ring
  have r3 : Representable 24 (-149) (t : Rat) := by have := rep_nat t 0 ht; simpa using this
  constructor
  · intro h1 h2
    obtain ⟨c, hc, w1, w2⟩ := cycles_exact h (fcpu := m * 2 ^ k * 1000000) (div := 1000) (t := t) r1
      (by have := rep_nat (125 * m) (k + 3) (by omega); convert this using 1; push_cast; ring) r3
      (by have := rep_nat (125 * m * t) (k + 3) h1; convert this using 1; push_cast; ring) (by omega) (by
        have e : m * 2 ^ k * 1000000 * t = m * 2 ^ k * 1000 * t * 1000 := by ring
        omega)
    have e : m * 2 ^ k * 1000000 * t = m * 2 ^ k * 1000 * t * 1000 := by ring
    have : c = m * 2 ^ k * 1000 * t := by omega
    rw [← this]; exact hc
  · intro h1 h2
    obtain ⟨c, hc, w1, w2⟩ := cycles_exact h (fcpu := m * 2 ^ k * 1000000) (div := 1000000) (t := t) r1
      (by have := rep_nat m k (by omega); convert this using 1; push_cast; ring) r3
      (by have := rep_nat (m * t) k h1; convert this using 1; push_cast; ring) (by omega) (by
        have e : m * 2 ^ k * 1000000 * t = m * 2 ^ k * t * 1000000 := by ring
        omega)
    have e : m * 2 ^ k * 1000000 * t = m * 2 ^ k * t * 1000000 := by ring
    have : c = m * 2 ^ k * t := by omega
    rw [← this]; exact hc

-- 16 MHz: exact for 134217 ms and for 16 s in microseconds
example : waitMilliseconds (roundBin 24 126) 16000000 134217 = .ok 2147472000 ∧ waitMicroseconds (roundBin 24 126) 16000000 16777215 = .ok 268435440 :=
  ⟨(c116_exact_partial (roundBin 24 126) (roundBin_rounding 24 126 (by omega)) 1 4 134217 (by omega) (by omega)).1 (by omega) (by omega),
   (c116_exact_partial (roundBin 24 126) (roundBin_rounding 24 126 (by omega)) 1 4 16777215 (by omega) (by omega)).2 (by omega) (by omega)⟩

/-! ### Every time: relative error -/

/-- `x` is `y` up to a factor between `l` and `u`. -/
def Within (l u y x : Rat) : Prop := y * l ≤ x ∧ x ≤ y * u

theorem rnd_within {rnd : Rat → Rat} (h : Rounding 24 (-149) rnd) {y : Rat} (hy : 1 / 2 ^ 100 ≤ y) : Within (1 - 1 / 2 ^ 23) (1 + 1 / 2 ^ 23) y (rnd y) := by
  have h0 : (0 : Rat) ≤ y := le_trans (by norm_num) hy
  have e := rnd_error h (by omega) h0
  have e2 : (2 : Rat) ^ (-149 - 1 : Int) ≤ y / 2 ^ 24 := by
    have : (2 : Rat) ^ (-149 - 1 : Int) ≤ 1 / 2 ^ 100 / 2 ^ 24 := by norm_num
    exact this.trans (div_le_div_of_nonneg_right hy (by norm_num))
  obtain ⟨a, b⟩ := abs_le.1 e
  constructor
  · norm_num at *; linarith
  · norm_num at *; linarith

theorem within_trans {l u l' u' x y z : Rat} (hl : 0 ≤ l') (hu : 0 ≤ u') (h1 : Within l u x y) (h2 : Within l' u' y z) : Within (l * l') (u * u') x z := by
  obtain ⟨a, b⟩ := h1
  obtain ⟨c, d⟩ := h2
  have := mul_le_mul_of_nonneg_right a hl
  have := mul_le_mul_of_nonneg_right b hu
  constructor
  · linarith
  · linarith

theorem within_mul {l u l' u' x y x' y' : Rat} (hx : 0 ≤ x) (hx' : 0 ≤ x') (hl : 0 ≤ l) (hl' : 0 ≤ l') (hu : 0 ≤ u)
    (h1 : Within l u x y) (h2 : Within l' u' x' y') : Within (l * l') (u * u') (x * x') (y * y') := by
  obtain ⟨a, b⟩ := h1
  obtain ⟨c, d⟩ := h2
  have k1 : 0 ≤ x * l := mul_nonneg hx hl
  have k2 : 0 ≤ x' * l' := mul_nonneg hx' hl'
  constructor
  · calc x * x' * (l * l') = (x * l) * (x' * l') := by ring
      _ ≤ y * y' := mul_le_mul a c k2 (k1.trans a)
  · calc y * y' ≤ (x * u) * (x' * u') := mul_le_mul b d (k2.trans c) (mul_nonneg hx hu)
      _ = x * x' * (u * u') := by ring

/-- The number computed in `double` is right up to one part in 2^20. -/
theorem tmp_within {rnd : Rat → Rat} (h : Rounding 24 (-149) rnd) {fcpu div t : Nat} (hf : 0 < fcpu) (ht : 0 < t) (hd : 0 < div) (hd2 : div ≤ 1000000) :
    Within (1 - 1 / 2 ^ 20) (1 + 1 / 2 ^ 20) ((fcpu : Rat) * t / div) (rnd (rnd (rnd fcpu / div) * rnd t)) := by
  have f1 : (1 : Rat) ≤ fcpu := by exact_mod_cast hf
  have t1 : (1 : Rat) ≤ t := by exact_mod_cast ht
  have d1 : (1 : Rat) ≤ div := by exact_mod_cast hd
  have d2 : (div : Rat) ≤ 1000000 := by exact_mod_cast hd2
  have d0 : (0 : Rat) < div := by linarith
  have a1 := rnd_within h (y := fcpu) (by linarith [show (1 : Rat) / 2 ^ 100 ≤ 1 by norm_num])
  have a2 : Within (1 - 1 / 2 ^ 23) (1 + 1 / 2 ^ 23) ((fcpu : Rat) / div) (rnd fcpu / div) := by
    obtain ⟨x, y⟩ := a1
    exact ⟨by rw [div_mul_eq_mul_div]; exact div_le_div_of_nonneg_right x d0.le, by rw [div_mul_eq_mul_div]; exact div_le_div_of_nonneg_right y d0.le⟩
  have q1 : (1 : Rat) / 1000000 ≤ (fcpu : Rat) / div := div_le_div₀ (by linarith) f1 d0 d2
  have a3 : (1 : Rat) / 2 ^ 100 ≤ rnd fcpu / div := by
    have := a2.1
    norm_num at *; linarith
  have a4 := within_trans (by norm_num) (by norm_num) a2 (rnd_within h a3)
  have a5 := rnd_within h (y := t) (by linarith [show (1 : Rat) / 2 ^ 100 ≤ 1 by norm_num])
  have a6 := within_mul (by positivity) (by positivity) (by norm_num) (by norm_num) (by norm_num) a4 a5
  have a7 : (1 : Rat) / 2 ^ 100 ≤ rnd (rnd fcpu / div) * rnd t := by
    have b1 : (1 : Rat) / 1000000 * 1 ≤ (fcpu : Rat) / div * t := mul_le_mul q1 t1 (by norm_num) (by positivity)
    have := a6.1
    norm_num at *; linarith
  obtain ⟨x, y⟩ := within_trans (by norm_num) (by norm_num) a6 (rnd_within h a7)
  have e : (fcpu : Rat) * t / div = (fcpu : Rat) / div * t := by ring
  have p0 : (0 : Rat) ≤ (fcpu : Rat) / div * t := by positivity
  rw [e]
  constructor
  · refine le_trans (mul_le_mul_of_nonneg_left ?_ p0) x; norm_num
  · refine le_trans y (mul_le_mul_of_nonneg_left ?_ p0); norm_num

/-- What is waited for any time, or undefined. -/
theorem cycles_close {rnd : Rat → Rat} (h : Rounding 24 (-149) rnd) {fcpu div t : Nat} (hf : 0 < fcpu) (ht : 0 < t) (hd : 0 < div) (hd2 : div ≤ 1000000) :
    (fcpu * t * (2 ^ 20 + 1) ≤ (2 ^ 32 - 1) * div * 2 ^ 20 → ∃ c, delayCycles rnd fcpu div (rnd t) = .ok c ∧
      fcpu * t * (2 ^ 20 - 1) ≤ c * div * 2 ^ 20 ∧ c * div * 2 ^ 20 < fcpu * t * (2 ^ 20 + 1) + div * 2 ^ 20) ∧
    ((2 ^ 32 - 1) * div * 2 ^ 20 < fcpu * t * (2 ^ 20 - 1) → delayCycles rnd fcpu div (rnd t) = .ub) := by
  have w := tmp_within h hf ht hd hd2
  unfold delayCycles
  simp only
  generalize rnd (rnd (rnd fcpu / div) * rnd t) = x at w
  have d0 : (0 : Rat) < div := by exact_mod_cast hd
  have p0 : (0 : Rat) ≤ (fcpu : Rat) * t / div := by positivity
  obtain ⟨w1, w2⟩ := w
  have x0 : 0 ≤ x := le_trans (mul_nonneg p0 (by norm_num)) w1
  rw [abs_of_nonneg x0]
  rw [div_mul_eq_mul_div, div_le_iff₀ d0] at w1
  rw [div_mul_eq_mul_div, le_div_iff₀ d0] at w2
  have c0 : 0 ≤ ⌈x⌉ := Int.ceil_nonneg x0
  constructor
  · intro hle
    have hleq : (fcpu : Rat) * t * (2 ^ 20 + 1) ≤ 4294967295 * div * 2 ^ 20 := by
      have : ((fcpu * t * (2 ^ 20 + 1) : Nat) : Rat) ≤ (((2 ^ 32 - 1) * div * 2 ^ 20 : Nat) : Rat) := by exact_mod_cast hle
      norm_num at this ⊢
      exact this
    have hc : ⌈x⌉ ≤ 4294967295 := by
      rw [Int.ceil_le]
      have : x * div ≤ 4294967295 * div := by norm_num at *; linarith
      have := le_of_mul_le_mul_right this d0
      norm_num; exact this
    rw [if_pos (by omega)]
    refine ⟨_, rfl, ?_⟩
    obtain ⟨c, hcc⟩ : ∃ c : Nat, ⌈x⌉ = c := ⟨_, (Int.toNat_of_nonneg c0).symm⟩
    rw [hcc, Int.toNat_natCast]
    have a1 := Int.le_ceil x
    have a2 := Int.ceil_lt_add_one x
    rw [hcc] at a1 a2
    have b1 := mul_le_mul_of_nonneg_right a1 d0.le
    have b2 := mul_lt_mul_of_pos_right a2 d0
    constructor
    · have : ((fcpu * t * (2 ^ 20 - 1) : Nat) : Rat) ≤ ((c * div * 2 ^ 20 : Nat) : Rat) := by
        push_cast at *; norm_num at *; linarith
      exact_mod_cast this
    · have : ((c * div * 2 ^ 20 : Nat) : Rat) < ((fcpu * t * (2 ^ 20 + 1) + div * 2 ^ 20 : Nat) : Rat) := by
        push_cast at *; norm_num at *; linarith
      exact_mod_cast this
  · intro hlt
    have hltq : 4294967295 * (div : Rat) * 2 ^ 20 < (fcpu : Rat) * t * (2 ^ 20 - 1) := by
      have : (((2 ^ 32 - 1) * div * 2 ^ 20 : Nat) : Rat) < ((fcpu * t * (2 ^ 20 - 1) : Nat) : Rat) := by exact_mod_cast hlt
      push_cast at this
      norm_num at this ⊢
      exact this
    have hc : 4294967295 < ⌈x⌉ := by
      rw [Int.lt_ceil]
      have : 4294967295 * div < x * div := by norm_num at *; linarith
      have := lt_of_mul_lt_mul_right this d0.le
      norm_num; exact this
    rw [if_neg (by omega)]

/-- **C116, partial.** Every clock and every time that takes fewer than about 2^32 cycles: the wait is right up to one part in 2^20 and one cycle.
    Missing: a wait is not always as long as asked for (`c116_short_fails`), and longer waits are undefined (`c116_too_long_fails`). -/
theorem c116_close_partial (rnd : Rat → Rat) (h : Rounding 24 (-149) rnd) (fcpu t : Nat) (hf : 0 < fcpu) (ht : 0 < t) :
    (fcpu * t * (2 ^ 20 + 1) ≤ (2 ^ 32 - 1) * 1000 * 2 ^ 20 → ∃ c, waitMilliseconds rnd fcpu t = .ok c ∧
      fcpu * t * (2 ^ 20 - 1) ≤ c * 1000 * 2 ^ 20 ∧ c * 1000 * 2 ^ 20 < fcpu * t * (2 ^ 20 + 1) + 1000 * 2 ^ 20) ∧
    (fcpu * t * (2 ^ 20 + 1) ≤ (2 ^ 32 - 1) * 1000000 * 2 ^ 20 → ∃ c, waitMicroseconds rnd fcpu t = .ok c ∧
      fcpu * t * (2 ^ 20 - 1) ≤ c * 1000000 * 2 ^ 20 ∧ c * 1000000 * 2 ^ 20 < fcpu * t * (2 ^ 20 + 1) + 1000000 * 2 ^ 20) :=
  ⟨(cycles_close h hf ht (by omega) (by omega)).1, (cycles_close h hf ht (by omega) (by omega)).1⟩

-- 4 minutes with 16 MHz
example : 16000000 * 240000 * (2 ^ 20 + 1) ≤ (2 ^ 32 - 1) * 1000 * 2 ^ 20 ∧ waitMilliseconds (roundBin 24 126) 16000000 240000 = .ok 3840000000 := by
  constructor
  · norm_num
  · decide +kernel

/-- **C116 fails** for long times: the number of cycles does not fit and the conversion is undefined; with 16 MHz from 268436 ms (4.5 minutes) on. -/
theorem c116_too_long_fails (rnd : Rat → Rat) (h : Rounding 24 (-149) rnd) (fcpu t : Nat) :
    ((2 ^ 32 - 1) * 1000 * 2 ^ 20 < fcpu * t * (2 ^ 20 - 1) → waitMilliseconds rnd fcpu t = .ub) ∧
    ((2 ^ 32 - 1) * 1000000 * 2 ^ 20 < fcpu * t * (2 ^ 20 - 1) → waitMicroseconds rnd fcpu t = .ub) ∧
    (268436 ≤ t → waitMilliseconds rnd 16000000 t = .ub) ∧ (268436000 ≤ t → waitMicroseconds rnd 16000000 t = .ub) := by
  have pos : ∀ {a b : Nat}, a < fcpu * t * b → 0 < fcpu ∧ 0 < t := by
    intro a b hab
    constructor
    · rcases Nat.eq_zero_or_pos fcpu with h0 | h0
      · simp [h0] at hab
      · exact h0
    · rcases Nat.eq_zero_or_pos t with h0 | h0
      · simp [h0] at hab
      · exact h0
  refine ⟨fun hl => (cycles_close h (pos hl).1 (pos hl).2 (by omega) (by omega)).2 hl, fun hl => (cycles_close h (pos hl).1 (pos hl).2 (by omega) (by omega)).2 hl,
    fun hl => (cycles_close h (by omega) (by omega) (by omega) (by omega)).2 (by omega), fun hl => (cycles_close h (by omega) (by omega) (by omega) (by omega)).2 (by omega)⟩

/-- **C116 fails**: some waits are shorter than asked for, by 8 us of 134221 ms and by 1 us of 16777217 us with 16 MHz. -/
theorem c116_short_fails : waitMilliseconds (roundBin 24 126) 16000000 134221 = .ok (16000 * 134221 - 128) ∧
    waitMicroseconds (roundBin 24 126) 16000000 16777217 = .ok (16 * 16777217 - 16) := by
  constructor <;> decide +kernel

/-- The full claim is false, for each rounding to nearest. -/
theorem c116_full_claim_is_false (rnd : Rat → Rat) (h : Rounding 24 (-149) rnd) : ¬ DelayClaim rnd 16000000 := by
  intro hc
  obtain ⟨⟨c, h1, _⟩, _⟩ := hc 268436 (by norm_num)
  rw [(c116_too_long_fails rnd h 16000000 268436).2.2.1 le_rfl] at h1
  cases h1

end Atl.Props
