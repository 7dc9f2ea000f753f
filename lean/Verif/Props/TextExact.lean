import Verif.Props.TextWriter
import Verif.Spec.RealText
import Mathlib.RingTheory.Coprime.Lemmas
import Mathlib.Tactic.IntervalCases

/- C34: exactly what is written for a real number, in every binary floating point arithmetic. -/
namespace Atl.Props
open Atl Atl.Text Atl.Spec.Text Atl.Spec.Float Atl.Spec.RealText Atl.Proof.Float

variable {p : Nat} {emin : Int} {rnd : Rat → Rat}

theorem rounding_halfUnit (rnd : Rat → Rat) (d : Nat) : rounding rnd d = halfUnit rnd d := by
  induction d with
  | zero => rfl
  | succ d ih => simp only [rounding, halfUnit, Function.iterate_succ_apply', ih]

/-- Numbers from four on are multiples of eight in the last place of numbers below one. -/
theorem rep_grid (hp : 3 ≤ p) {y : Rat} (hy : Representable p emin y) (h4 : 4 ≤ y) : ∃ j : Int, y = j * (2 : Rat) ^ (3 - (p : Int)) := by
  obtain ⟨m, k, hm, hk, rfl⟩ := hy
  have hm' : (m : Rat) < 2 ^ p := by
    have : m < 2 ^ p := lt_of_le_of_lt (le_abs_self m) hm
    exact_mod_cast this
  have h2 : (4 : Rat) < 2 ^ ((p : Int) + k) := by
    rw [zpow_add₀ (by norm_num), zpow_natCast]
    exact lt_of_le_of_lt h4 (mul_lt_mul_of_pos_right hm' (by positivity))
  have hk3 : 3 ≤ (p : Int) + k := by
    by_contra hc
    have : (2 : Rat) ^ ((p : Int) + k) ≤ 2 ^ (2 : Int) := zpow_le_zpow_right₀ (by norm_num) (by omega)
    norm_num at this
    linarith
  obtain ⟨i, hi⟩ : ∃ i : Nat, k = (3 - (p : Int)) + i := ⟨(k - (3 - (p : Int))).toNat, by omega⟩
  refine ⟨m * 2 ^ i, ?_⟩
  rw [hi, zpow_add₀ (by norm_num), zpow_natCast]
  push_cast; ring

/-- On that grid the decimals loop makes no error. -/
theorem decimals_grid (h : Rounding p emin rnd) (hp : 4 ≤ p) (he : emin ≤ 3 - (p : Int)) (W : Nat) (hW : 16 ≤ W) (d : Nat) (r : Rat) (h0 : 0 ≤ r) (h1 : r < 1)
    (hg : ∃ j : Int, r = j * (2 : Rat) ^ (3 - (p : Int))) : decimals rnd W d r = decimals id W d r := by
  induction d generalizing r with
  | zero => rfl
  | succ d ih =>
    obtain ⟨j, hj⟩ := hg
    have hpow : (2 : Rat) ^ (p : Nat) * 2 ^ (3 - (p : Int)) = 8 := by
      rw [← zpow_natCast, ← zpow_add₀ (by norm_num)]
      rw [show (p : Int) + (3 - p) = 3 by omega]; norm_num
    have hu : (0 : Rat) < 2 ^ (3 - (p : Int)) := by positivity
    have hj0 : 0 ≤ j := by
      by_contra hc
      have : (j : Rat) < 0 := by exact_mod_cast (by omega : j < 0)
      have := mul_neg_of_neg_of_pos this hu
      linarith
    have hj8 : j * 8 < 2 ^ p := by
      have : (j : Rat) * 8 < 2 ^ p := by
        have e : (j : Rat) * 2 ^ (3 - (p : Int)) * 2 ^ p = j * 8 := by rw [← hpow]; ring
        rw [← e, ← hj]
        have : (0 : Rat) < 2 ^ p := by positivity
        nlinarith
      exact_mod_cast this
    have hrep : Representable p emin (r * 10) := by
      refine ⟨j * 5, (3 - (p : Int)) + 1, ?_, by omega, ?_⟩
      · rw [abs_of_nonneg (by omega)]; omega
      · rw [hj, zpow_add₀ (by norm_num)]; push_cast; ring
    have hex := rnd_exact h hrep
    have hk0 : 0 ≤ ⌊r * 10⌋ := Int.floor_nonneg.2 (by linarith)
    have hk1 : ⌊r * 10⌋ < 10 := Int.floor_lt.2 (by push_cast; linarith)
    obtain ⟨k, hk⟩ := Int.eq_ofNat_of_zero_le hk0
    have hk10 : k < 10 := by omega
    have hfl := Int.floor_le (r * 10)
    have hlt := Int.lt_floor_add_one (r * 10)
    have hparts := (rep_parts (by omega) hrep (by linarith)).2
    rw [hk] at hfl hlt hparts
    push_cast at hfl hlt hparts
    have hW' : r * 10 < 2 ^ W := by
      have : (2 : Rat) ^ 16 ≤ 2 ^ W := pow_le_pow_right₀ (by norm_num) hW
      have : (10 : Rat) ≤ 2 ^ 16 := by norm_num
      linarith
    have hone : (1 : Rat) = (2 ^ (p - 3) : Nat) * (2 : Rat) ^ (3 - (p : Int)) := by
      push_cast
      rw [← zpow_natCast, ← zpow_add₀ (by norm_num), show ((p - 3 : Nat) : Int) + (3 - p) = 0 by omega, zpow_zero]
    have := ih (r * 10 - k) (by linarith) (by linarith) ⟨j * 10 - k * (2 ^ (p - 3) : Nat), by
      push_cast
      have e : (k : Rat) = k * ((2 ^ (p - 3) : Nat) * (2 : Rat) ^ (3 - (p : Int))) := by rw [← hone, mul_one]
      push_cast at e
      rw [sub_mul, mul_assoc (k : Rat), ← e, hj]; ring⟩
    simp only [decimals, hex, id, toUnsigned_ok W (r * 10) (by linarith) hW', Res.bind_ok, hk]
    have e : toU 16 (((k : Int).toNat : Nat) : Int) = k := by
      rw [show (k : Int).toNat = k from rfl, toU_small (by omega)]
    rw [e, rnd_exact h hparts, this]

/-- **C34, exactly, in floating point.** For every binary format, every way to round to nearest and every number of digits: the text of a number is the sum of its magnitude and
    half a unit of the last decimal - both the half unit and the sum as the arithmetic finds them - cut after the last decimal. The digits themselves are taken without any further
    error, if the sum is four or more or no decimals are asked for. -/
theorem c34_float_exact (h : Rounding p emin rnd) (hp : 4 ≤ p) (he : emin ≤ -2 * p) (W : Nat) (hW : 16 ≤ W) (f : Format) (x : Rat) (d : Nat)
    (h4 : d = 0 ∨ 4 ≤ rnd (|x| + halfUnit rnd d)) (h32 : rnd (|x| + halfUnit rnd d) < 2 ^ 32) :
    ∃ s, writeReal rnd W f x d = .ok ((if x < 0 then [f.negativeSign] else []) ++ s) ∧
      FixedPoint f.decimalSeparator d s ⌊rnd (|x| + halfUnit rnd d) * 10 ^ d⌋.toNat := by
  have habs : (if x < 0 then -x else x) = |x| := by
    split
    · rw [abs_of_neg ‹_›]
    · rw [abs_of_nonneg (by linarith)]
  rw [← rounding_halfUnit] at *
  have r0 := (rounding_float h (by omega) he d).1
  have q0 := rnd_nonneg h (show 0 ≤ |x| + rounding rnd d by have := abs_nonneg x; linarith)
  have qrep := h.rep (|x| + rounding rnd d)
  generalize hreal : rnd (|x| + rounding rnd d) = real at *
  have hI0 : 0 ≤ ⌊real⌋ := Int.floor_nonneg.2 q0
  obtain ⟨I, hI⟩ := Int.eq_ofNat_of_zero_le hI0
  have hfl := Int.floor_le real
  have hlt := Int.lt_floor_add_one real
  obtain ⟨hp1, hp2⟩ := rep_parts (show emin ≤ 0 by omega) qrep q0
  rw [hI] at hfl hlt hp1 hp2
  push_cast at hfl hlt hp1 hp2
  have hI32 : I < 2 ^ 32 := by
    have : (I : Rat) < 2 ^ 32 := by linarith
    exact_mod_cast this
  obtain ⟨a, ea, na, _, ra, hane⟩ := writeInternal_ok 32 21 10 I (junkBuf 21) (by simp [junkBuf]) (by omega) (by omega) (by omega)
    (by omega) hI32
  have ea' : writeLong I 10 = .ok a := ea
  obtain ⟨b, eb, hlen, rb⟩ := decimals_ok W hW d (real - I) (by linarith) (by linarith)
  have eb' : d ≠ 0 → decimals rnd W d (real - I) = .ok b := by
    intro hd
    rw [decimals_grid h hp (by omega) W hW d (real - I) (by linarith) (by linarith), eb]
    obtain ⟨j, hj⟩ := rep_grid (by omega) qrep (h4.resolve_left hd)
    have hone : (1 : Rat) = (2 ^ (p - 3) : Nat) * (2 : Rat) ^ (3 - (p : Int)) := by
      push_cast
      rw [← zpow_natCast, ← zpow_add₀ (by norm_num), show ((p - 3 : Nat) : Int) + (3 - p) = 0 by omega, zpow_zero]
    refine ⟨j - I * (2 ^ (p - 3) : Nat), ?_⟩
    push_cast at hone ⊢
    rw [sub_mul, mul_assoc (I : Rat), ← hone, ← hj, mul_one]
  have hfl2 : ⌊(real - I) * 10 ^ d⌋ = ⌊real * 10 ^ d⌋ - I * 10 ^ d := by
    rw [← Int.floor_sub_intCast]
    congr 1
    push_cast; ring
  have hnn : 0 ≤ ⌊(real - I) * 10 ^ d⌋ := Int.floor_nonneg.2 (mul_nonneg (by linarith) (by positivity))
  obtain ⟨m, hm⟩ := Int.eq_ofNat_of_zero_le hnn
  have hN : ⌊real * 10 ^ d⌋ = ((I * 10 ^ d + m : Nat) : Int) := by rw [hm] at hfl2; push_cast; omega
  refine ⟨a ++ (if d = 0 then [] else f.decimalSeparator :: b), ?_, ⟨a, b, rfl, hlen, na.2, ?_, hane⟩⟩
  · simp only [writeReal, habs, hreal, toUnsigned_ok 32 real q0 h32, Res.bind_ok, hI]
    simp only [Int.toNat_natCast, ea', Res.bind_ok]
    rw [rnd_exact h hp1, rnd_exact h hp2]
    by_cases hd : d = 0
    · simp [hd]
    · rw [if_pos (by omega)]
      simp only [eb' hd, Res.bind_ok, if_neg hd, List.append_assoc]
  · have hne : a ++ b ≠ [] := by simp [hane]
    simp only [parse, if_neg hne]
    rw [readFrom_append 10 a b 0 _ (ra 0), rb, hN, hm, Int.toNat_natCast, Int.toNat_natCast]
    simp

example := c34_float_exact c34_formats.1 (by omega) (by omega) 16 (by omega) {} (129 / 8) 2 (.inr (by decide +kernel)) (by decide +kernel)

/-- **C34 fails** in another way below four: 0.69499999 (a `float`) plus half a unit is 0.69999999, which is below 0.70, but its product with ten rounds to 7: the text is 0.70. The
    limit of four in `c34_float_exact` cannot be left out. -/
theorem c34_small_sum_fails : (roundBin 24 126) (11660165 / 2 ^ 24) = 11660165 / 2 ^ 24 ∧ (11660165 / 2 ^ 24 : Rat) < 695 / 1000 ∧
    ⌊(roundBin 24 126) (11660165 / 2 ^ 24 + halfUnit (roundBin 24 126) 2) * 10 ^ 2⌋ = 69 ∧ writeReal (roundBin 24 126) 16 {} (11660165 / 2 ^ 24) 2 = .ok [48, 46, 55, 48] := by
  refine ⟨by decide +kernel, by norm_num, ?_, by decide +kernel⟩
  rw [Int.floor_eq_iff]
  have : (roundBin 24 126) (11660165 / 2 ^ 24 + halfUnit (roundBin 24 126) 2) = 11744051 / 2 ^ 24 := by decide +kernel
  rw [this]
  norm_num

/-- **C34.** So the text is the correctly rounded value exactly if no value half-way between two texts lies between the number and the number moved by the error `e` of the sum. -/
theorem c34_correct_iff (h : Rounding p emin rnd) (hp : 4 ≤ p) (he : emin ≤ -2 * p) (W : Nat) (hW : 16 ≤ W) (f : Format) (x : Rat) (d : Nat)
    (h4 : d = 0 ∨ 4 ≤ rnd (|x| + halfUnit rnd d)) (h32 : rnd (|x| + halfUnit rnd d) < 2 ^ 32) (e : Rat)
    (hE : rnd (|x| + halfUnit rnd d) = |x| + 1 / (2 * 10 ^ d) + e) :
    ∃ s n, writeReal rnd W f x d = .ok ((if x < 0 then [f.negativeSign] else []) ++ s) ∧ FixedPoint f.decimalSeparator d s n ∧
      (RoundsHalfUp d |x| n ↔ ∀ y, HalfWay d y → ((|x| < y ↔ |x| + e < y))) := by
  obtain ⟨s, e1, e2⟩ := c34_float_exact h hp he W hW f x d h4 h32
  refine ⟨s, _, e1, e2, ?_⟩
  have hten : (0 : Rat) < 10 ^ d := by positivity
  have q0 : 0 ≤ rnd (|x| + halfUnit rnd d) := by
    have := (rounding_float h (by omega) he d).1
    rw [rounding_halfUnit] at this
    exact rnd_nonneg h (by have := abs_nonneg x; linarith)
  have hn : (((⌊rnd (|x| + halfUnit rnd d) * 10 ^ d⌋.toNat : Nat) : Int) : Rat) = ⌊rnd (|x| + halfUnit rnd d) * 10 ^ d⌋ := by
    rw [Int.toNat_of_nonneg (Int.floor_nonneg.2 (mul_nonneg q0 hten.le))]
  have f1 := Int.floor_le (rnd (|x| + halfUnit rnd d) * 10 ^ d)
  have f2 := Int.lt_floor_add_one (rnd (|x| + halfUnit rnd d) * 10 ^ d)
  rw [← hn] at f1 f2
  generalize ⌊rnd (|x| + halfUnit rnd d) * 10 ^ d⌋.toNat = n at *
  push_cast at f1 f2
  rw [hE] at f1 f2
  have hs : (|x| + 1 / (2 * 10 ^ d) + e) * 10 ^ d = (|x| + e) * 10 ^ d + 1 / 2 := by field_simp; ring
  rw [hs] at f1 f2
  constructor
  · rintro ⟨a1, a2⟩ y ⟨k, hy⟩
    have l1 : ∀ z : Rat, z < y ↔ z * 10 ^ d < k + 1 / 2 := fun z => by rw [← hy]; exact (mul_lt_mul_iff_left₀ hten).symm
    rw [l1, l1]
    have key : ∀ z : Rat, (n : Rat) - 1 / 2 ≤ z → z < n + 1 / 2 → (z < k + 1 / 2 ↔ (n : Int) ≤ k) := by
      intro z z1 z2
      constructor
      · intro hz
        have : ((n : Int) : Rat) < k + 1 := by push_cast; linarith
        have : (n : Int) < k + 1 := by exact_mod_cast this
        omega
      · intro hz
        have : ((n : Int) : Rat) ≤ k := by exact_mod_cast hz
        push_cast at this
        linarith
    rw [key _ a1 a2, key _ (by linarith) (by linarith)]
  · intro hy
    have t1 := hy ((n - 1 / 2) / 10 ^ d) ⟨(n : Int) - 1, by push_cast; field_simp; ring⟩
    have t2 := hy ((n + 1 / 2) / 10 ^ d) ⟨(n : Int), by push_cast; field_simp⟩
    simp only [lt_div_iff₀ hten] at t1 t2
    refine ⟨?_, t2.2 (by linarith)⟩
    by_contra hc
    have := t1.1 (by linarith)
    linarith

example := c34_correct_iff c34_formats.1 (by omega) (by omega) 16 (by omega) {} (129 / 8) 2 (.inr (by decide +kernel)) (by decide +kernel) _ (add_sub_cancel _ _).symm

/-! The half-way values of the default format on AVR, all of them. -/

/-- A half-way value with two decimals that a binary format can represent is an odd number of eighths. -/
theorem halfWay_eighths {y : Rat} (hy : Representable 24 (-149) y) (h0 : 0 ≤ y) (hh : HalfWay 2 y) :
    ∃ j : Nat, y = j / 8 ∧ j % 2 = 1 ∧ j < 2 ^ 24 := by
  obtain ⟨m, k, hm, hk, rfl⟩ := hy
  obtain ⟨K, hK⟩ := hh
  have hm0 : 0 ≤ m := by
    by_contra hc
    have : (m : Rat) < 0 := by exact_mod_cast (by omega : m < 0)
    have : m * (2 : Rat) ^ k < 0 := mul_neg_of_neg_of_pos this (by positivity)
    linarith
  rw [abs_of_nonneg hm0] at hm
  by_cases hk0 : 0 ≤ k
  · obtain ⟨i, rfl⟩ := Int.eq_ofNat_of_zero_le hk0
    exfalso
    have : (m * 2 ^ i * 200 : Int) = 2 * K + 1 := by
      have : (m : Rat) * 2 ^ i * 200 = 2 * K + 1 := by rw [zpow_natCast] at hK; linarith
      exact_mod_cast this
    omega
  · obtain ⟨t, ht⟩ : ∃ t : Nat, k = -(t : Int) := ⟨(-k).toNat, by omega⟩
    subst ht
    have h1 : (25 * (8 * m) : Int) = (2 * K + 1) * 2 ^ t := by
      have h2 : (0 : Rat) < 2 ^ t := by positivity
      have : (25 * (8 * m) : Rat) = (2 * K + 1) * 2 ^ t := by
        rw [zpow_neg, zpow_natCast] at hK
        field_simp at hK
        linarith
      exact_mod_cast this
    have hco : IsCoprime ((2 : Int) ^ t) 25 := IsCoprime.pow_left ⟨-12, 1, by norm_num⟩
    obtain ⟨j, hj⟩ : (2 : Int) ^ t ∣ 8 * m := hco.dvd_of_dvd_mul_left ⟨2 * K + 1, by rw [h1]; ring⟩
    have hpos : (0 : Int) < 2 ^ t := by positivity
    have hjo : 25 * j = 2 * K + 1 := by
      have : (2 : Int) ^ t * (25 * j) = 2 ^ t * (2 * K + 1) := by rw [mul_comm (2 ^ t) (2 * K + 1), ← h1, hj]; ring
      exact mul_left_cancel₀ hpos.ne' this
    have hj0 : 0 ≤ j := by
      by_contra hc
      have : (2 : Int) ^ t * j < 0 := mul_neg_of_pos_of_neg hpos (by omega)
      omega
    have ht3 : 3 ≤ t := by
      by_contra hc
      have : t = 0 ∨ t = 1 ∨ t = 2 := by omega
      rcases this with rfl | rfl | rfl <;> omega
    obtain ⟨i, rfl⟩ : ∃ i, t = 3 + i := ⟨t - 3, by omega⟩
    have hjm : 2 ^ i * j = m := by
      have : 8 * m = 8 * (2 ^ i * j) := by rw [hj, pow_add]; ring
      omega
    have hlt : j < 2 ^ 24 := by
      have : (1 : Int) ≤ 2 ^ i := one_le_pow₀ (by norm_num)
      have : j ≤ 2 ^ i * j := by nlinarith
      omega
    refine ⟨j.toNat, ?_, by omega, by omega⟩
    have hjn : ((j.toNat : Nat) : Rat) = j := by
      have : ((j.toNat : Nat) : Int) = j := Int.toNat_of_nonneg hj0
      exact_mod_cast congrArg (Int.cast (R := Rat)) this
    rw [hjn, ← hjm, zpow_neg, zpow_natCast, pow_add]
    push_cast
    field_simp
    norm_num

/-- A nearest multiple of the unit is found, if there is only one. -/
theorem rnd_unit (h : Rounding p emin rnd) (hp : 1 ≤ p) (k m q : Int) (R : Rat) (hk : emin ≤ k) (hm : 2 ^ (p - 1) ≤ m) (hm2 : m + q ≤ 2 ^ p) (hR : 0 ≤ R) (hq : 0 ≤ q)
    (hn : |q * (2 : Rat) ^ k - R| < (2 : Rat) ^ k / 2) : rnd (m * (2 : Rat) ^ k + R) = (m + q) * (2 : Rat) ^ k := by
  have hu : (0 : Rat) < 2 ^ k := by positivity
  have hm1 : (1 : Int) ≤ 2 ^ (p - 1) := one_le_pow₀ (by norm_num)
  have hz : Representable p emin (((m + q : Int) : Rat) * (2 : Rat) ^ k) := rep_mul _ _ (by rw [abs_of_nonneg (by omega)]; exact hm2) hp hk
  have hlow : Representable p emin (((2 ^ (p - 1) : Int) : Rat) * (2 : Rat) ^ k) :=
    rep_mul _ _ (by rw [abs_of_nonneg (by positivity)]; exact pow_le_pow_right₀ (by norm_num) (by omega)) hp hk
  have near := h.nearest (m * (2 : Rat) ^ k + R) _ hz
  have hlow' : ((2 ^ (p - 1) : Int) : Rat) * 2 ^ k ≤ rnd (m * (2 : Rat) ^ k + R) := by
    by_contra hc
    have := h.nearest (m * (2 : Rat) ^ k + R) _ hlow
    have h3 : ((2 ^ (p - 1) : Int) : Rat) * 2 ^ k ≤ m * 2 ^ k := mul_le_mul_of_nonneg_right (by exact_mod_cast hm) hu.le
    rw [abs_of_nonpos (by linarith), abs_of_nonpos (by linarith)] at this
    linarith
  obtain ⟨a, c, ha, hc, hac⟩ := h.rep (m * (2 : Rat) ^ k + R)
  rw [hac] at near hlow' ⊢
  have hkc : k ≤ c := by
    by_contra hlt
    have ha' : (a : Rat) < 2 ^ p := by
      have : a < 2 ^ p := lt_of_le_of_lt (le_abs_self a) ha
      exact_mod_cast this
    have hc0 : (0 : Rat) < 2 ^ c := by positivity
    have h5 : (a : Rat) * 2 ^ c < 2 ^ p * 2 ^ c := mul_lt_mul_of_pos_right ha' hc0
    have h6 : (2 : Rat) ^ p * 2 ^ c ≤ ((2 ^ (p - 1) : Int) : Rat) * 2 ^ k := by
      push_cast
      rw [← zpow_natCast, ← zpow_natCast, ← zpow_add₀ (by norm_num), ← zpow_add₀ (by norm_num)]
      exact zpow_le_zpow_right₀ (by norm_num) (by omega)
    linarith
  obtain ⟨i, rfl⟩ : ∃ i : Nat, c = k + i := ⟨(c - k).toNat, by omega⟩
  have e : (a : Rat) * 2 ^ (k + (i : Int)) = ((a * 2 ^ i : Int) : Rat) * 2 ^ k := by
    rw [zpow_add₀ (by norm_num), zpow_natCast]; push_cast; ring
  rw [e] at near ⊢
  have h7 : |((a * 2 ^ i - (m + q) : Int) : Rat) * 2 ^ k| < 1 * 2 ^ k := by
    have e1 : ((a * 2 ^ i - (m + q) : Int) : Rat) * 2 ^ k = (((a * 2 ^ i : Int) : Rat) * 2 ^ k - (m * 2 ^ k + R)) - (q * 2 ^ k - R) := by push_cast; ring
    have e2 : ((m + q : Int) : Rat) * 2 ^ k - (m * 2 ^ k + R) = q * 2 ^ k - R := by push_cast; ring
    rw [e2] at near
    rw [e1]
    refine lt_of_le_of_lt (abs_sub _ _) ?_
    linarith
  rw [abs_mul, abs_of_pos hu, mul_lt_mul_iff_left₀ hu] at h7
  have h8 : |a * 2 ^ i - (m + q)| < 1 := by exact_mod_cast h7
  have := Int.abs_lt_one_iff.1 h8
  have h9 : a * 2 ^ i = m + q := by omega
  rw [h9]; push_cast; rfl

/-- Half a unit of the second decimal in binary32. -/
theorem halfUnit_two : halfUnit (roundBin 24 126) 2 = 5368709 / 1073741824 := by decide +kernel

/-- Below four. -/
theorem ties_small (x : Rat) (j : Nat) (hj : |x| = j / 8) (ho : j % 2 = 1) (hlt : j < 32) :
    ∃ s n, writeFloat (roundBin 24 126) 16 {} x = .ok ((if x < 0 then [45] else []) ++ s) ∧ FixedPoint 46 2 s n ∧
      |x| * 100 = if roundedUp |x| then (n : Rat) - 1 / 2 else n + 1 / 2 := by
  have key : ∀ j : Nat, j < 32 → j % 2 = 1 →
      let n : Nat := if roundedUp ((j : Rat) / 8) then (25 * j + 1) / 2 else 25 * j / 2
      let s := [48 + n / 100, 46, 48 + n / 10 % 10, 48 + n % 10]
      writeFloat (roundBin 24 126) 16 {} ((j : Rat) / 8) = .ok s ∧ writeFloat (roundBin 24 126) 16 {} (-((j : Rat) / 8)) = .ok (45 :: s) ∧ n < 1000 ∧
      ((j : Rat) / 8) * 100 = if roundedUp ((j : Rat) / 8) then (n : Rat) - 1 / 2 else n + 1 / 2 := by decide +kernel
  obtain ⟨k1, k2, k3, k4⟩ := key j hlt ho
  generalize hn : (if roundedUp ((j : Rat) / 8) then (25 * j + 1) / 2 else 25 * j / 2) = n at *
  rw [hj]
  refine ⟨[48 + n / 100, 46, 48 + n / 10 % 10, 48 + n % 10], n, ?_, ⟨[48 + n / 100], [48 + n / 10 % 10, 48 + n % 10], rfl, rfl, ?_, ?_, by simp⟩, k4⟩
  · by_cases hx : x < 0
    · rw [abs_of_neg hx] at hj
      rw [show x = -((j : Rat) / 8) by linarith, k2, ← hj, if_pos (by linarith)]; rfl
    · rw [abs_of_nonneg (by linarith)] at hj
      rw [if_neg hx, hj, k1]; rfl
  · intro h; simpa using h
  · have hd : ∀ c < 10, digitVal (48 + c) = some c := by
      intro c hc; unfold digitVal; rw [if_pos (by omega)]; simp
    simp only [parse, List.cons_append, List.nil_append, List.cons_ne_nil, if_false, readFrom, hd _ (show n / 100 < 10 by omega),
      hd _ (show n / 10 % 10 < 10 by omega), hd _ (show n % 10 < 10 by omega), if_pos (show n / 100 < 10 by omega), if_pos (show n / 10 % 10 < 10 by omega),
      if_pos (show n % 10 < 10 by omega), Option.some.injEq]
    omega

/-- **C34, all half-way values of the default format on AVR.** Every `float` that lies half-way between two texts with two decimals: it is written rounded away from zero if its
    magnitude is 0.625, 0.875, 1.625 or 1.875, from 2 to 16, from 32 to 64, from 128 to 2048, from 16384 to 32768 or from 65536 to 131072, and rounded towards zero otherwise. -/
theorem c34_default_ties (x : Rat) (hx : Representable 24 (-149) x) (hh : HalfWay 2 |x|) :
    ∃ s n, writeFloat (roundBin 24 126) 16 {} x = .ok ((if x < 0 then [45] else []) ++ s) ∧ FixedPoint 46 2 s n ∧
      |x| * 100 = if roundedUp |x| then (n : Rat) - 1 / 2 else n + 1 / 2 := by
  have hrep : Representable 24 (-149) |x| := by
    rcases abs_choice x with h | h <;> rw [h]
    · exact hx
    · exact rep_neg hx
  obtain ⟨j, hj, ho, hlt⟩ := halfWay_eighths hrep (abs_nonneg x) hh
  by_cases h32 : j < 32
  · exact ties_small x j hj ho h32
  obtain ⟨e, he1, he2⟩ : ∃ e, 2 ^ e ≤ j ∧ j < 2 ^ (e + 1) := ⟨Nat.log2 j, Nat.log2_self_le (by omega), Nat.lt_log2_self⟩
  have hel : 5 ≤ e := by
    by_contra hc
    have : 2 ^ (e + 1) ≤ 2 ^ 5 := Nat.pow_le_pow_right (by omega) (by omega)
    omega
  have heh : e < 24 := by
    by_contra hc
    have : 2 ^ 24 ≤ 2 ^ e := Nat.pow_le_pow_right (by omega) (by omega)
    omega
  -- the table
  have table : ∀ i < 19, let u : Rat := 2 ^ i / 2 ^ 21
      let q : Int := ⌊(5368709 / 1073741824 : Rat) / u + 1 / 2⌋
      0 ≤ q ∧ |q * u - 5368709 / 1073741824| < u / 2 ∧ q ≤ 2 ^ (18 - i) ∧ q * u * 200 < 3 ∧
      (1 ≤ q * u * 200 ↔ (i = 0 ∨ i = 1 ∨ i = 3 ∨ i = 5 ∨ i = 6 ∨ i = 7 ∨ i = 8 ∨ i = 12 ∨ i = 14)) := by decide +kernel
  obtain ⟨i, rfl⟩ : ∃ i, e = 5 + i := ⟨e - 5, by omega⟩
  obtain ⟨q0, q1, q2, q3, q4⟩ := table i (by omega)
  clear table
  generalize ⌊(5368709 / 1073741824 : Rat) / (2 ^ i / 2 ^ 21) + 1 / 2⌋ = q at *
  have hu : (2 : Rat) ^ i / 2 ^ 21 = 2 ^ ((i : Int) - 21) := by
    rw [zpow_sub₀ (by norm_num), zpow_natCast]; norm_num
  rw [hu] at q1 q3 q4
  have hsplit : (2 : Rat) ^ (18 - i) * 2 ^ ((i : Int) - 21) = 1 / 8 := by
    rw [← zpow_natCast, ← zpow_add₀ (by norm_num), show ((18 - i : Nat) : Int) + ((i : Int) - 21) = -3 by omega]; norm_num
  have hp18 : 2 ^ i * 2 ^ (18 - i) = 2 ^ 18 := by rw [← pow_add]; congr 1; omega
  have hxm : |x| = ((j * 2 ^ (18 - i) : Nat) : Int) * (2 : Rat) ^ ((i : Int) - 21) := by
    push_cast
    rw [mul_assoc, hsplit, hj]; ring
  have hpp : 0 < 2 ^ (18 - i) := by positivity
  have hsum : roundBin 24 126 (|x| + halfUnit (roundBin 24 126) 2) = (((j * 2 ^ (18 - i) : Nat) : Int) + q) * (2 : Rat) ^ ((i : Int) - 21) := by
    rw [halfUnit_two, hxm]
    refine rnd_unit c34_formats.1 (by omega) _ _ _ _ (by omega) ?_ ?_ (by norm_num) q0 q1
    · have h1 : 2 ^ (5 + i) * 2 ^ (18 - i) ≤ j * 2 ^ (18 - i) := Nat.mul_le_mul_right _ he1
      rw [pow_add, mul_assoc, hp18] at h1
      exact_mod_cast h1
    · have h1 : (j + 1) * 2 ^ (18 - i) ≤ 2 ^ (5 + i + 1) * 2 ^ (18 - i) := Nat.mul_le_mul_right _ he2
      rw [show 2 ^ (5 + i + 1) = 2 ^ 6 * 2 ^ i by rw [← pow_add]; congr 1; omega, mul_assoc, hp18] at h1
      have h2 : ((j * 2 ^ (18 - i) : Nat) : Int) + 2 ^ (18 - i) ≤ 2 ^ 24 := by
        have : j * 2 ^ (18 - i) + 2 ^ (18 - i) ≤ 2 ^ 24 := by rw [add_mul] at h1; omega
        exact_mod_cast this
      linarith
  have hsum' : roundBin 24 126 (|x| + halfUnit (roundBin 24 126) 2) = |x| + q * (2 : Rat) ^ ((i : Int) - 21) := by
    rw [hsum, hxm]; ring
  have hj4 : (4 : Rat) ≤ |x| := by
    rw [hj]
    have : (32 : Rat) ≤ j := by exact_mod_cast (by omega : 32 ≤ j)
    linarith
  have hjh : |x| < 2 ^ 21 := by
    rw [hj]
    have : (j : Rat) < 2 ^ 24 := by exact_mod_cast hlt
    linarith
  have hq0 : (0 : Rat) ≤ q * (2 : Rat) ^ ((i : Int) - 21) := mul_nonneg (by exact_mod_cast q0) (by positivity)
  obtain ⟨s, e1, e2⟩ := c34_float_exact c34_formats.1 (by omega) (by omega) 16 (by omega) {} x 2 (Or.inr (by rw [hsum']; linarith)) (by rw [hsum']; linarith)
  refine ⟨s, _, e1, e2, ?_⟩
  rw [hsum']
  obtain ⟨K, hK⟩ : ∃ K, 25 * j = 2 * K + 1 := ⟨25 * j / 2, by omega⟩
  have hK' : |x| * 100 = K + 1 / 2 := by
    have : (25 * j : Rat) = 2 * K + 1 := by exact_mod_cast hK
    rw [hj]; linarith
  generalize hc : (q : Rat) * 2 ^ ((i : Int) - 21) = c at *
  have hup : roundedUp |x| ↔ (i = 0 ∨ i = 1 ∨ i = 3 ∨ i = 5 ∨ i = 6 ∨ i = 7 ∨ i = 8 ∨ i = 12 ∨ i = 14) := by
    have b1 : (2 ^ (5 + i) : Rat) / 8 ≤ |x| := by
      rw [hj]
      have : (2 ^ (5 + i) : Rat) ≤ j := by exact_mod_cast he1
      linarith
    have b2 : |x| < (2 ^ (5 + i + 1) : Rat) / 8 := by
      rw [hj]
      have : (j : Rat) < 2 ^ (5 + i + 1) := by exact_mod_cast he2
      linarith
    have hi : i < 19 := by omega
    clear q1 q2 q3 q4 hsum hsum' hc hxm hsplit hp18 e1 e2 hK hK' hj he1 he2 hu hpp hh hrep
    generalize |x| = y at *
    interval_cases i <;> norm_num at b1 b2 <;> simp only [roundedUp] <;> norm_num <;>
      first
      | (refine ⟨?_, ?_, ?_, ?_, ?_, ?_, ?_, ?_, ?_⟩ <;> first | (intro h; linarith) | (rintro rfl; linarith))
      | (by_contra hcon
         simp only [not_or, not_and, not_lt] at hcon
         obtain ⟨_, _, _, _, c1, c2, c3, c4, c5⟩ := hcon
         first
         | (have := c1 (by linarith); linarith)
         | (have := c2 (by linarith); linarith)
         | (have := c3 (by linarith); linarith)
         | (have := c4 (by linarith); linarith)
         | (have := c5 (by linarith); linarith))
  by_cases hr : 1 ≤ c * 200
  · rw [if_pos (hup.2 (q4.1 hr))]
    have : ⌊(|x| + c) * 10 ^ 2⌋ = (K : Int) + 1 := by
      rw [Int.floor_eq_iff]; push_cast; constructor <;> linarith
    rw [this, hK', show ((K : Int) + 1).toNat = K + 1 by omega]
    push_cast; ring
  · rw [if_neg (fun h => hr (q4.2 (hup.1 h)))]
    have : ⌊(|x| + c) * 10 ^ 2⌋ = (K : Int) := by
      rw [Int.floor_eq_iff]; push_cast; constructor <;> linarith
    rw [this, hK', show ((K : Int)).toNat = K by omega]

/-- 16.125 is written as "16.12", -4.125 as "-4.13", and both meet the hypotheses. -/
example : Representable 24 (-149) (129 / 8) ∧ HalfWay 2 |129 / 8| ∧ ¬ roundedUp |129 / 8| ∧ roundedUp |-33 / 8| ∧
    writeFloat (roundBin 24 126) 16 {} (129 / 8) = .ok [49, 54, 46, 49, 50] ∧ writeFloat (roundBin 24 126) 16 {} (-33 / 8) = .ok [45, 52, 46, 49, 51] :=
  ⟨⟨129, -3, by decide, by decide, by norm_num⟩, ⟨1612, by norm_num⟩, by decide +kernel, by decide +kernel, by decide +kernel, by decide +kernel⟩

/-- The `float` next to 16.045 lies above it, but its sum with half a unit is rounded to less than 16.05: "16.04". -/
example : (16045 / 1000 : Rat) < 8412201 / 524288 ∧ 4 ≤ roundBin 24 126 (|8412201 / 524288| + halfUnit (roundBin 24 126) 2) ∧
    roundBin 24 126 (|8412201 / 524288| + halfUnit (roundBin 24 126) 2) < 2 ^ 32 ∧
    writeFloat (roundBin 24 126) 16 {} (8412201 / 524288) = .ok [49, 54, 46, 48, 52] := by decide +kernel

end Atl.Props
