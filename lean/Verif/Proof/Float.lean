import Verif.Spec.Float
import Verif.Model.TextWriter
import Mathlib.Data.Int.Log
import Mathlib.Tactic.Linarith
import Mathlib.Tactic.FieldSimp
import Mathlib.Tactic.Positivity
import Mathlib.Tactic.Push
import Mathlib.Tactic.NormNum
import Mathlib.Algebra.Order.Round
import Mathlib.Algebra.Order.Field.Power

/- Facts about rounding to nearest. -/
namespace Atl.Proof.Float
open Atl.Spec.Float

variable {p : Nat} {emin : Int}

theorem rep_mul (m k : Int) (hm : |m| ≤ 2 ^ p) (hp : 1 ≤ p) (hk : emin ≤ k) : Representable p emin (m * (2 : Rat) ^ k) := by
  rcases lt_or_eq_of_le hm with h | h
  · exact ⟨m, k, h, hk, rfl⟩
  · obtain ⟨q, rfl⟩ : ∃ q, p = q + 1 := ⟨p - 1, by omega⟩
    rcases abs_eq (by positivity) |>.1 h with h | h
    · refine ⟨2 ^ q, k + 1, ?_, by omega, ?_⟩
      · rw [abs_of_nonneg (by positivity)]; exact pow_lt_pow_right₀ (by omega) (by omega)
      · rw [h, zpow_add₀ (by norm_num)]; push_cast; ring
    · refine ⟨-2 ^ q, k + 1, ?_, by omega, ?_⟩
      · rw [abs_neg, abs_of_nonneg (by positivity)]; exact pow_lt_pow_right₀ (by omega) (by omega)
      · rw [h, zpow_add₀ (by norm_num)]; push_cast; ring

theorem rep_neg {y : Rat} (h : Representable p emin y) : Representable p emin (-y) := by
  obtain ⟨m, k, h1, h2, rfl⟩ := h
  exact ⟨-m, k, by rwa [abs_neg], h2, by push_cast; ring⟩

/-- The exponent of the last bit of the numbers around `y`. -/
def unit (p : Nat) (emin : Int) (y : Rat) : Int := max emin (Int.log 2 y + 1 - p)

theorem lt_unit {y : Rat} (p : Nat) (emin : Int) : y < 2 ^ p * (2 : Rat) ^ unit p emin y := by
  refine lt_of_lt_of_le (Int.lt_zpow_succ_log_self (b := 2) (by omega) y) ?_
  rw [← zpow_natCast, ← zpow_add₀ (by norm_num)]
  push_cast
  exact zpow_le_zpow_right₀ (by norm_num) (by unfold unit; omega)

/-- A multiple of the unit, rounded either way, is representable. -/
theorem rep_unit (hp : 1 ≤ p) {y : Rat} (m : Int) (h0 : 0 ≤ m) (h : m < y / (2 : Rat) ^ unit p emin y + 1) :
    Representable p emin (m * (2 : Rat) ^ unit p emin y) := by
  refine rep_mul m _ ?_ hp (le_max_left _ _)
  rw [abs_of_nonneg h0]
  have hu : (0 : Rat) < 2 ^ unit p emin y := by positivity
  have h1 : y / (2 : Rat) ^ unit p emin y < 2 ^ p := by
    rw [div_lt_iff₀ hu]; exact lt_unit p emin
  have : (m : Rat) < 2 ^ p + 1 := by linarith
  have : m < 2 ^ p + 1 := by exact_mod_cast this
  omega

/-- A nearest multiple of the unit is a nearest representable number. -/
theorem unit_nearest (hp : 1 ≤ p) {y : Rat} (hy : 0 < y) (m : Int) (hm : |(m : Rat) - y / (2 : Rat) ^ unit p emin y| ≤ 1 / 2) (z : Rat)
    (hz : Representable p emin z) : |m * (2 : Rat) ^ unit p emin y - y| ≤ |z - y| := by
  have hu : (0 : Rat) < 2 ^ unit p emin y := by positivity
  -- against any multiple of the unit
  have key : ∀ n : Int, |m * (2 : Rat) ^ unit p emin y - y| ≤ |n * (2 : Rat) ^ unit p emin y - y| := by
    intro n
    have e : ∀ j : Int, |j * (2 : Rat) ^ unit p emin y - y| = |(j : Rat) - y / (2 : Rat) ^ unit p emin y| * (2 : Rat) ^ unit p emin y := by
      intro j
      rw [← abs_of_pos hu, ← abs_mul, abs_of_pos hu]
      congr 1; field_simp
    rw [e, e]
    refine mul_le_mul_of_nonneg_right ?_ hu.le
    by_cases hn : n = m
    · rw [hn]
    · have h1 : (1 : Rat) ≤ |(n : Rat) - m| := by
        have : 1 ≤ |n - m| := Int.one_le_abs (sub_ne_zero.2 hn)
        exact_mod_cast this
      have h2 : |(n : Rat) - m| ≤ |(n : Rat) - y / (2 : Rat) ^ unit p emin y| + |(m : Rat) - y / (2 : Rat) ^ unit p emin y| := by
        have := abs_sub_le (n : Rat) (y / (2 : Rat) ^ unit p emin y) m
        rwa [abs_sub_comm (y / (2 : Rat) ^ unit p emin y)] at this
      linarith
  obtain ⟨m', k', h1, h2, rfl⟩ := hz
  by_cases hk : unit p emin y ≤ k'
  · have := key (m' * 2 ^ (k' - unit p emin y).toNat)
    refine this.trans (le_of_eq ?_)
    congr 2
    push_cast
    rw [mul_assoc, ← zpow_natCast, ← zpow_add₀ (by norm_num)]
    congr 2
    omega
  · -- a smaller exponent: below the power of two that is not above y
    have hlog : unit p emin y = Int.log 2 y + 1 - p := by
      unfold unit at hk ⊢
      omega
    have hpow : (2 : Rat) ^ Int.log 2 y ≤ y := by exact_mod_cast Int.zpow_log_le_self (b := 2) (by omega) hy
    have hz' : m' * (2 : Rat) ^ k' ≤ (2 : Rat) ^ Int.log 2 y := by
      have hmq : (m' : Rat) ≤ 2 ^ p := by
        have : m' ≤ 2 ^ p := (le_abs_self m').trans h1.le
        exact_mod_cast this
      calc (m' : Rat) * 2 ^ k' ≤ 2 ^ p * 2 ^ k' := mul_le_mul_of_nonneg_right hmq (by positivity)
        _ = (2 : Rat) ^ ((p : Int) + k') := by rw [zpow_add₀ (by norm_num), zpow_natCast]
        _ ≤ (2 : Rat) ^ Int.log 2 y := zpow_le_zpow_right₀ (by norm_num) (by omega)
    have hk2 := key (2 ^ (p - 1))
    have he : (((2 : Int) ^ (p - 1) : Int) : Rat) * (2 : Rat) ^ unit p emin y = (2 : Rat) ^ Int.log 2 y := by
      push_cast
      rw [← zpow_natCast, ← zpow_add₀ (by norm_num)]
      congr 1
      omega
    rw [he] at hk2
    refine hk2.trans ?_
    rw [abs_of_nonpos (by linarith), abs_of_nonpos (by linarith)]
    linarith

section
variable {rnd : Rat → Rat} (h : Rounding p emin rnd)
include h

theorem rnd_exact {y : Rat} (hy : Representable p emin y) : rnd y = y := by
  have := h.nearest y y hy
  rw [sub_self, abs_zero] at this
  exact sub_eq_zero.1 (abs_eq_zero.1 (le_antisymm this (abs_nonneg _)))

theorem rnd_nonneg {y : Rat} (hy : 0 ≤ y) : 0 ≤ rnd y := by
  have := h.nearest y 0 ⟨0, emin, by simp, le_rfl, by simp⟩
  rw [zero_sub, abs_neg, abs_of_nonneg hy] at this
  have := (abs_le.1 this).1
  linarith

/-- The error is at most half a unit. -/
theorem rnd_error (hp : 1 ≤ p) {y : Rat} (hy : 0 ≤ y) : |rnd y - y| ≤ y / 2 ^ p + (2 : Rat) ^ (emin - 1) := by
  rcases hy.eq_or_lt with rfl | hy
  · rw [rnd_exact h ⟨0, emin, by simp, le_rfl, by simp⟩]
    simp; positivity
  have hu : (0 : Rat) < 2 ^ unit p emin y := by positivity
  have hr := abs_sub_round (y / (2 : Rat) ^ unit p emin y)
  rw [abs_sub_comm] at hr
  have h0 : 0 ≤ y / (2 : Rat) ^ unit p emin y := by positivity
  have hrep : Representable p emin (round (y / (2 : Rat) ^ unit p emin y) * (2 : Rat) ^ unit p emin y) := by
    refine rep_unit hp _ ?_ ?_
    · by_contra hc
      have : ((round (y / (2 : Rat) ^ unit p emin y) : Int) : Rat) ≤ -1 := by
        have : round (y / (2 : Rat) ^ unit p emin y) ≤ -1 := by omega
        exact_mod_cast this
      have := (abs_le.1 hr).1
      linarith
    · have := (abs_le.1 hr).2
      linarith
  refine (h.nearest y _ hrep).trans ?_
  have e : |round (y / (2 : Rat) ^ unit p emin y) * (2 : Rat) ^ unit p emin y - y| =
      |((round (y / (2 : Rat) ^ unit p emin y) : Int) : Rat) - y / (2 : Rat) ^ unit p emin y| * (2 : Rat) ^ unit p emin y := by
    rw [← abs_of_pos hu, ← abs_mul, abs_of_pos hu]
    congr 1; field_simp
  rw [e]
  have h2 : |((round (y / (2 : Rat) ^ unit p emin y) : Int) : Rat) - y / (2 : Rat) ^ unit p emin y| * (2 : Rat) ^ unit p emin y ≤
      1 / 2 * (2 : Rat) ^ unit p emin y := mul_le_mul_of_nonneg_right hr hu.le
  refine h2.trans ?_
  have half : ∀ k : Int, 1 / 2 * (2 : Rat) ^ k = 2 ^ (k - 1) := by
    intro k
    rw [zpow_sub₀ (by norm_num)]; ring
  rw [half]
  have hpow : (2 : Rat) ^ Int.log 2 y ≤ y := by exact_mod_cast Int.zpow_log_le_self (b := 2) (by omega) hy
  have hd : (2 : Rat) ^ (Int.log 2 y - p) ≤ y / 2 ^ p := by
    rw [zpow_sub₀ (by norm_num), zpow_natCast]
    exact div_le_div_of_nonneg_right hpow (by positivity)
  have p1 : (0 : Rat) < 2 ^ (emin - 1) := by positivity
  have p2 : (0 : Rat) < y / 2 ^ p := by positivity
  by_cases hc : emin ≤ Int.log 2 y + 1 - p
  · have : unit p emin y - 1 = Int.log 2 y - p := by unfold unit; omega
    rw [this]; linarith
  · have : unit p emin y - 1 = emin - 1 := by unfold unit; omega
    rw [this]; linarith

/-- Rounding does not leave a representable bound. -/
theorem rnd_le {y z : Rat} (hz : Representable p emin z) (hy : y ≤ z) : rnd y ≤ z := by
  by_contra hc
  have := h.nearest y z hz
  rw [abs_of_nonneg (by linarith), abs_of_nonneg (by linarith)] at this
  linarith

end

/-- The integral and the fractional part of a representable number are representable. -/
theorem rep_parts (he : emin ≤ 0) {y : Rat} (hy : Representable p emin y) (h0 : 0 ≤ y) :
    Representable p emin ⌊y⌋ ∧ Representable p emin (y - ⌊y⌋) := by
  obtain ⟨m, k, h1, h2, rfl⟩ := hy
  have hm : 0 ≤ m := by
    by_contra hc
    have : (m : Rat) < 0 := by exact_mod_cast (by omega : m < 0)
    have : m * (2 : Rat) ^ k < 0 := mul_neg_of_neg_of_pos this (by positivity)
    linarith
  rw [abs_of_nonneg hm] at h1
  by_cases hk : 0 ≤ k
  · obtain ⟨j, rfl⟩ := Int.eq_ofNat_of_zero_le hk
    have e : (m : Rat) * 2 ^ (j : Int) = ((m * 2 ^ j : Int) : Rat) := by push_cast; rw [zpow_natCast]
    rw [e, Int.floor_intCast]
    refine ⟨⟨m, j, by rwa [abs_of_nonneg hm], h2, by push_cast; rw [zpow_natCast]⟩, ⟨0, j, by simp, h2, by simp⟩⟩
  · obtain ⟨j, hj⟩ : ∃ j : Nat, k = -(j : Int) := ⟨(-k).toNat, by omega⟩
    subst hj
    have e : (m : Rat) * 2 ^ (-(j : Int)) = (m : Rat) / ((2 ^ j : Nat) : Rat) := by rw [zpow_neg, zpow_natCast]; push_cast; field_simp
    have hf : ⌊(m : Rat) * 2 ^ (-(j : Int))⌋ = m / ((2 ^ j : Nat) : Int) := by rw [e]; exact Rat.floor_intCast_div_natCast m (2 ^ j)
    have hpos : (0 : Int) < ((2 ^ j : Nat) : Int) := by positivity
    rw [hf]
    refine ⟨⟨m / ((2 ^ j : Nat) : Int), 0, ?_, he, by simp⟩, ⟨m % ((2 ^ j : Nat) : Int), -(j : Int), ?_, h2, ?_⟩⟩
    · rw [abs_of_nonneg (Int.ediv_nonneg hm hpos.le)]
      exact lt_of_le_of_lt (Int.ediv_le_self _ hm) h1
    · rw [abs_of_nonneg (Int.emod_nonneg _ hpos.ne')]
      refine lt_of_le_of_lt ?_ h1
      have := Int.mul_ediv_add_emod m ((2 ^ j : Nat) : Int)
      have := mul_nonneg hpos.le (Int.ediv_nonneg hm hpos.le)
      omega
    · rw [Int.emod_def]
      push_cast
      rw [zpow_neg, zpow_natCast]
      field_simp

/-- Below one means one unit below one. -/
theorem rep_below_one (hp : 1 ≤ p) {r : Rat} (hr : Representable p emin r) (h1 : r < 1) : r ≤ 1 - 1 / 2 ^ p := by
  obtain ⟨m, k, hm, hk, rfl⟩ := hr
  have hm' : (m : Rat) ≤ 2 ^ p := by
    have : m ≤ 2 ^ p := (le_abs_self m).trans hm.le
    exact_mod_cast this
  by_cases hc : -(p : Int) ≤ k
  · obtain ⟨j, hj⟩ : ∃ j : Nat, k = j - (p : Int) := ⟨(k + p).toNat, by omega⟩
    subst hj
    have e : (m : Rat) * 2 ^ ((j : Int) - p) = ((m * 2 ^ j : Int) : Rat) / 2 ^ p := by
      rw [zpow_sub₀ (by norm_num), zpow_natCast, zpow_natCast]; push_cast; ring
    rw [e] at h1 ⊢
    have hp0 : (0 : Rat) < 2 ^ p := by positivity
    rw [div_lt_one hp0] at h1
    have : m * 2 ^ j < 2 ^ p := by exact_mod_cast h1
    have : ((m * 2 ^ j : Int) : Rat) ≤ 2 ^ p - 1 := by
      have : m * 2 ^ j ≤ 2 ^ p - 1 := by omega
      exact_mod_cast this
    rw [div_le_iff₀ hp0]
    have : (1 - 1 / 2 ^ p) * 2 ^ p = (2 : Rat) ^ p - 1 := by field_simp
    linarith
  · have h2 : (m : Rat) * 2 ^ k ≤ 1 / 2 := by
      calc (m : Rat) * 2 ^ k ≤ 2 ^ p * 2 ^ k := mul_le_mul_of_nonneg_right hm' (by positivity)
        _ = (2 : Rat) ^ ((p : Int) + k) := by rw [zpow_add₀ (by norm_num), zpow_natCast]
        _ ≤ (2 : Rat) ^ (-1 : Int) := zpow_le_zpow_right₀ (by norm_num) (by omega)
        _ = 1 / 2 := by norm_num
    have h3 : (1 : Rat) / 2 ^ p ≤ 1 / 2 := by
      apply one_div_le_one_div_of_le (by norm_num)
      calc (2 : Rat) = 2 ^ 1 := by norm_num
        _ ≤ 2 ^ p := pow_le_pow_right₀ (by norm_num) hp
    linarith

/-- Ten times a fraction stays below ten. -/
theorem rnd_ten {rnd : Rat → Rat} (h : Rounding p emin rnd) (hp : 1 ≤ p) (he : emin ≤ -2 * p) {r : Rat} (hr : Representable p emin r) (h0 : 0 ≤ r) (h1 : r < 1) :
    rnd (r * 10) < 10 := by
  by_contra hc
  have e1 := rnd_error h hp (show 0 ≤ r * 10 by linarith)
  rw [abs_of_nonneg (by linarith)] at e1
  have e2 := rep_below_one hp hr h1
  have hu : (0 : Rat) < 1 / 2 ^ p := by positivity
  have e3 : (2 : Rat) ^ (emin - 1) ≤ (1 / 2 ^ p) * (1 / 2 ^ p) := by
    calc (2 : Rat) ^ (emin - 1) ≤ 2 ^ (-(p : Int) + -(p : Int)) := zpow_le_zpow_right₀ (by norm_num) (by omega)
      _ = (1 / 2 ^ p) * (1 / 2 ^ p) := by rw [zpow_add₀ (by norm_num), zpow_neg, zpow_natCast, one_div]
  have e4 : r * 10 / 2 ^ p = r * 10 * (1 / 2 ^ p) := by ring
  rw [e4] at e1
  generalize (1 : Rat) / 2 ^ p = u at *
  nlinarith

open Atl.Text

theorem log2_spec (b : Nat) {y : Rat} (hy : 0 < y) : ((log2 (y * 2 ^ b) : Nat) : Int) - b = max (-(b : Int)) (Int.log 2 y) := by
  have hb : (0 : Rat) < 2 ^ b := by positivity
  unfold log2
  by_cases h1 : y * 2 ^ b < 1
  · have : (y * 2 ^ b).floor = 0 := by
      have : ⌊y * 2 ^ b⌋ = 0 := Int.floor_eq_iff.2 ⟨by simp; positivity, by simpa using h1⟩
      exact this
    rw [this]
    have : Int.log 2 y < -(b : Int) := by
      rw [← Int.lt_zpow_iff_log_lt (by omega) hy, zpow_neg, zpow_natCast, ← one_div]
      push_cast
      rwa [lt_div_iff₀ hb]
    simp; omega
  · have h1 : 1 ≤ y * 2 ^ b := not_lt.1 h1
    have hl := Int.log_of_one_le_right 2 h1
    have e1 : ((y * 2 ^ b).floor.toNat.log2 : Int) = Int.log 2 (y * 2 ^ b) := by
      rw [hl, Nat.log2_eq_log_two]
      rfl
    have hyb : 0 < y * 2 ^ b := by positivity
    have e2 : Int.log 2 (y * 2 ^ b) - b = Int.log 2 y := by
      have lo := Int.zpow_log_le_self (b := 2) (by omega) hyb
      have hi := Int.lt_zpow_succ_log_self (b := 2) (by omega) (y * 2 ^ b)
      push_cast at lo hi
      apply le_antisymm
      · rw [← Int.zpow_le_iff_le_log (by omega) hy]
        push_cast
        rw [zpow_sub₀ (by norm_num), zpow_natCast, div_le_iff₀ hb]
        exact lo
      · have : Int.log 2 y < Int.log 2 (y * 2 ^ b) + 1 - b := by
          rw [← Int.lt_zpow_iff_log_lt (by omega) hy]
          push_cast
          rw [zpow_sub₀ (by norm_num), zpow_natCast, lt_div_iff₀ hb]
          exact hi
        omega
    have e3 : 0 ≤ Int.log 2 (y * 2 ^ b) := by rw [hl]; omega
    rw [e1]
    omega

theorem roundEven_near (x : Rat) : |((roundEven x : Int) : Rat) - x| ≤ 1 / 2 := by
  have h1 : ((x.floor : Int) : Rat) ≤ x := Int.floor_le x
  have h2 : x < x.floor + 1 := Int.lt_floor_add_one x
  unfold roundEven
  rw [abs_le]
  dsimp only
  split
  · constructor <;> linarith
  · split
    · push_cast; constructor <;> linarith
    · split <;> push_cast <;> constructor <;> linarith

theorem roundBin_pos (p b : Nat) {y : Rat} (hy : 0 < y) :
    ∃ m : Int, roundBin p b y = m * (2 : Rat) ^ unit p (1 - (p : Int) - b) y ∧ |(m : Rat) - y / (2 : Rat) ^ unit p (1 - (p : Int) - b) y| ≤ 1 / 2 := by
  have hl := log2_spec b hy
  have hu : unit p (1 - (p : Int) - b) y = ((log2 (y * 2 ^ b) : Nat) : Int) - b + 1 - p := by
    rw [hl]; unfold unit; omega
  have hs : (if 0 ≤ (p : Int) - 1 - (((log2 (y * 2 ^ b) : Nat) : Int) - b) then (2 : Rat) ^ ((p : Int) - 1 - (((log2 (y * 2 ^ b) : Nat) : Int) - b)).toNat
      else 1 / 2 ^ ((((log2 (y * 2 ^ b) : Nat) : Int) - b) + 1 - p).toNat) = (2 : Rat) ^ (-(unit p (1 - (p : Int) - b) y)) := by
    rw [hu]
    split
    · rw [← zpow_natCast]; congr 1; omega
    · rw [one_div, ← zpow_natCast, ← zpow_neg]; congr 1; omega
  refine ⟨roundEven (y * (2 : Rat) ^ (-(unit p (1 - (p : Int) - b) y))), ?_, ?_⟩
  · unfold roundBin
    rw [if_neg (by linarith), if_neg (by linarith)]
    rw [hs, zpow_neg, div_inv_eq_mul]
  · have := roundEven_near (y * (2 : Rat) ^ (-(unit p (1 - (p : Int) - b) y)))
    rwa [zpow_neg, ← div_eq_mul_inv] at this ⊢

theorem roundEven_tie (k : Int) : 2 ∣ roundEven ((k : Rat) + 1 / 2) := by
  have hf : ((k : Rat) + 1 / 2).floor = k := by
    have h : ⌊(k : Rat) + 1 / 2⌋ = k := by rw [Int.floor_eq_iff]; constructor <;> norm_num
    exact h
  unfold roundEven
  dsimp only
  rw [hf, show (k : Rat) + 1 / 2 - k = 1 / 2 by ring, if_neg (lt_irrefl _), if_neg (lt_irrefl _)]
  split <;> omega

/-- Half way between two neighbours the one with the even significand is taken. -/
theorem roundBin_tie (p b : Nat) {y : Rat} (hy : 0 < y) (k : Int) (h : y / (2 : Rat) ^ unit p (1 - (p : Int) - b) y = k + 1 / 2) :
    ∃ m : Int, 2 ∣ m ∧ roundBin p b y = m * (2 : Rat) ^ unit p (1 - (p : Int) - b) y := by
  have hl := log2_spec b hy
  have hu : unit p (1 - (p : Int) - b) y = ((log2 (y * 2 ^ b) : Nat) : Int) - b + 1 - p := by
    rw [hl]; unfold unit; omega
  have hs : (if 0 ≤ (p : Int) - 1 - (((log2 (y * 2 ^ b) : Nat) : Int) - b) then (2 : Rat) ^ ((p : Int) - 1 - (((log2 (y * 2 ^ b) : Nat) : Int) - b)).toNat
      else 1 / 2 ^ ((((log2 (y * 2 ^ b) : Nat) : Int) - b) + 1 - p).toNat) = (2 : Rat) ^ (-(unit p (1 - (p : Int) - b) y)) := by
    rw [hu]
    split
    · rw [← zpow_natCast]; congr 1; omega
    · rw [one_div, ← zpow_natCast, ← zpow_neg]; congr 1; omega
  refine ⟨roundEven ((k : Rat) + 1 / 2), roundEven_tie k, ?_⟩
  unfold roundBin
  rw [if_neg (by linarith), if_neg (by linarith)]
  rw [hs, ← h, zpow_neg, div_inv_eq_mul, ← div_eq_mul_inv]

/-- The floating point model rounds to nearest. -/
theorem roundBin_rounding (p b : Nat) (hp : 1 ≤ p) : Rounding p (1 - (p : Int) - b) (roundBin p b) := by
  have pos : ∀ y : Rat, 0 < y → Representable p (1 - (p : Int) - b) (roundBin p b y) ∧
      ∀ z, Representable p (1 - (p : Int) - b) z → |roundBin p b y - y| ≤ |z - y| := by
    intro y hy
    obtain ⟨m, e, hm⟩ := roundBin_pos p b hy
    rw [e]
    have h0 : 0 ≤ y / (2 : Rat) ^ unit p (1 - (p : Int) - b) y := by positivity
    refine ⟨rep_unit hp m ?_ ?_, fun z hz => unit_nearest hp hy m hm z hz⟩
    · by_contra hc
      have : (m : Rat) ≤ -1 := by exact_mod_cast (by omega : m ≤ -1)
      have := (abs_le.1 hm).1
      linarith
    · have := (abs_le.1 hm).2
      linarith
  have zero : roundBin p b 0 = 0 := by
    have : roundEven 0 = 0 := by decide +kernel
    unfold roundBin
    simp [this]
  have neg : ∀ y : Rat, y < 0 → roundBin p b y = -roundBin p b (-y) := by
    intro y hy
    unfold roundBin
    have hn : ¬ -y < 0 := by linarith
    simp only [if_pos hy, if_neg hn]
  constructor
  · intro y
    rcases lt_trichotomy y 0 with h | h | h
    · rw [neg y h]; exact rep_neg (pos (-y) (by linarith)).1
    · rw [h, zero]; exact ⟨0, 1 - (p : Int) - b, by simp, le_rfl, by simp⟩
    · exact (pos y h).1
  · intro y z hz
    rcases lt_trichotomy y 0 with h | h | h
    · rw [neg y h]
      have := (pos (-y) (by linarith)).2 (-z) (rep_neg hz)
      rw [← abs_neg, ← abs_neg (z - y)]
      convert this using 2 <;> ring
    · rw [h, zero]; simp
    · exact (pos y h).2 z hz

end Atl.Proof.Float
