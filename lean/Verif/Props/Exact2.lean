import Verif.Props.UsartConfig
import Verif.Props.Delays

/- More completions of partial theorems: C55 for every rate and clock, C84 for every time. -/
namespace Atl.Props
open Atl

/-! ### C84: the milliseconds of a microseconds clock at every time -/

/-- **C84, at every time.** With microseconds resolution `getMilliseconds` is right (modulo 2^32) exactly in the first 71 minutes of every 49.7 days: while the true time
    modulo 1000 * 2^32 microseconds is below 2^32. -/
theorem c84_microseconds_exact (t : Nat) :
    Time.getMilliseconds .microseconds (t % 2 ^ 32) = t / 1000 % 2 ^ 32 ↔ t % (1000 * 2 ^ 32) < 2 ^ 32 := by
  show t % 2 ^ 32 / 1000 = t / 1000 % 2 ^ 32 ↔ _
  omega

example : Time.getMilliseconds .microseconds (4294968000 % 2 ^ 32) = 0 ∧ 4294968000 / 1000 = 4294968 ∧ ¬ (4294968000 % (1000 * 2 ^ 32) < 2 ^ 32) := by
  refine ⟨by decide, by decide, by decide⟩

/-! ### C55: every rate and clock -/

open Atl.Usart Atl.Usart.Config Atl.Spec.Usart

/-- The divider the code works with: the quotient of clock and rate cut to 16 bits. -/
def cutDivider (F d b : Nat) : Nat := F / (d * b) % 65536

/-- A divider the hardware can take. -/
def Usable (F d b : Nat) : Prop := 1 ≤ cutDivider F d b ∧ cutDivider F d b ≤ 4096

instance (F d b : Nat) : Decidable (Usable F d b) := by unfold Usable; infer_instance

/-- The deviation of the rate of that divider, cut to 16 bits. -/
def cutDeviation (F d b : Nat) : Int := (((b : Int) - rate F d (cutDivider F d b - 1)) + 32768) % 65536 - 32768

theorem calcUBRR_all (F d b : Nat) (hd : 0 < d) (hb : 0 < b) :
    ∃ u, calcUBRR F d b = .ok u ∧ (isValid u = true ↔ Usable F d b) ∧ (Usable F d b → u = (cutDivider F d b : Int) - 1) := by
  unfold calcUBRR
  rw [if_neg (Nat.ne_of_gt (Nat.mul_pos hd hb))]
  refine ⟨_, rfl, ?_, ?_⟩
  · unfold isValid Usable cutDivider toS
    generalize F / (d * b) = k
    simp only [Nat.reducePow, Nat.reduceSub, Bool.and_eq_true, decide_eq_true_eq]
    omega
  · unfold Usable cutDivider toS
    generalize F / (d * b) = k
    simp only [Nat.reducePow, Nat.reduceSub]
    omega

theorem deviation_all (F d b : Nat) (hd : 0 < d) (h : Usable F d b) :
    ∃ r, calcBaud F d ((cutDivider F d b : Int) - 1) = .ok r ∧ toS 16 (b - r) = cutDeviation F d b := by
  have h1 := h.1
  have h2 := h.2
  unfold cutDeviation
  generalize hk : cutDivider F d b = k at *
  have hu : toU 16 ((k : Int) - 1 + 1) = k := by unfold toU; simp only [Nat.reducePow]; omega
  unfold calcBaud
  simp only [hu]
  rw [if_neg (Nat.ne_of_gt (Nat.mul_pos hd (by omega)))]
  refine ⟨_, rfl, ?_⟩
  rw [toS16_sub]
  unfold rate
  rw [show k - 1 + 1 = k by omega]
  unfold toS
  simp only [Nat.reducePow, Nat.reduceSub]
  omega

theorem abs16_all (x : Int) (h : -32768 ≤ x) : abs16 x = if x = -32768 then .ub else .ok (x.natAbs : Int) := by
  unfold abs16
  by_cases h0 : 0 ≤ x
  · rw [if_pos h0, if_neg (by omega)]; congr 1; omega
  · rw [if_neg h0]
    by_cases h1 : x = -32768
    · simp [h1]
    · rw [if_neg h1, if_neg h1]; congr 1; omega

/-- **C55, every clock and every rate but 0.** `InitAsync` takes the quotients of clock and rate modulo 65536 as dividers. If neither can be set (1 to 4096) it fails and clears
    the setting; if one can, it takes that; if both can, it takes double speed exactly if its deviation, cut to 16 bits, is the smaller one; and only there can it be undefined:
    exactly if such a deviation is 32768. -/
theorem c55_init_exact (F b : Nat) (c : Config) (hb : 0 < b) :
    initAsync F b c =
      if Usable F 8 b ∧ Usable F 16 b then
        if cutDeviation F 8 b = -32768 ∨ cutDeviation F 16 b = -32768 then .ub
        else if (cutDeviation F 8 b).natAbs < (cutDeviation F 16 b).natAbs then .ok ({ c with div := 8, ubrr := cutDivider F 8 b - 1 }, true)
        else .ok ({ c with div := 16, ubrr := cutDivider F 16 b - 1 }, true)
      else if Usable F 16 b then .ok ({ c with div := 16, ubrr := cutDivider F 16 b - 1 }, true)
      else if Usable F 8 b then .ok ({ c with div := 8, ubrr := cutDivider F 8 b - 1 }, true)
      else .ok ({ c with div := 0, ubrr := 0 }, false) := by
  obtain ⟨u8, e8, v8, w8⟩ := calcUBRR_all F 8 b (by omega) hb
  obtain ⟨u16, e16, v16, w16⟩ := calcUBRR_all F 16 b (by omega) hb
  have b8 : Usable F 8 b → isValid u8 = true := v8.2
  have n8 : ¬ Usable F 8 b → isValid u8 = false := fun h => by simpa using fun hh => h (v8.1 hh)
  have b16 : Usable F 16 b → isValid u16 = true := v16.2
  have n16 : ¬ Usable F 16 b → isValid u16 = false := fun h => by simpa using fun hh => h (v16.1 hh)
  unfold initAsync
  rw [e8, e16]
  simp only [Res.bind_ok]
  by_cases g8 : Usable F 8 b <;> by_cases g16 : Usable F 16 b
  · have t8 := w8 g8
    have t16 := w16 g16
    have i8 := g8.1
    have i16 := g16.1
    obtain ⟨r8, x8, y8⟩ := deviation_all F 8 b (by omega) g8
    obtain ⟨r16, x16, y16⟩ := deviation_all F 16 b (by omega) g16
    simp only [b8 g8, b16 g16, Bool.not_true, Bool.or_self, Bool.false_eq_true, if_false, g8, g16, and_self, if_true]
    subst t8 t16
    have z8 : -32768 ≤ cutDeviation F 8 b := by unfold cutDeviation; omega
    have z16 : -32768 ≤ cutDeviation F 16 b := by unfold cutDeviation; omega
    rw [x8, x16]
    simp only [Res.bind_ok, y8, y16, abs16_all _ z8, abs16_all _ z16]
    by_cases k8 : cutDeviation F 8 b = -32768
    · simp [k8]
    · by_cases k16 : cutDeviation F 16 b = -32768
      · simp [k8, k16]
      · simp only [k8, k16, if_false, Res.bind_ok, or_self]
        have n : ∀ n : Nat, ((n : Int) - 1).toNat = n - 1 := fun n => by omega
        simp only [n]
        by_cases hgt : (cutDeviation F 8 b).natAbs < (cutDeviation F 16 b).natAbs
        · rw [if_pos hgt, if_pos (by omega)]
        · rw [if_neg hgt, if_neg (by omega)]
  · simp only [b8 g8, n16 g16, Bool.not_false, Bool.or_true, if_true, Bool.false_eq_true, if_false, g8, g16, and_false, if_false]
    rw [w8 g8, show ((cutDivider F 8 b : Int) - 1).toNat = cutDivider F 8 b - 1 by have := g8.1; omega]
  · simp only [n8 g8, b16 g16, Bool.not_false, Bool.true_or, if_true, g8, g16, false_and, if_false]
    rw [w16 g16, show ((cutDivider F 16 b : Int) - 1).toNat = cutDivider F 16 b - 1 by have := g16.1; omega]
  · simp only [n8 g8, n16 g16, Bool.not_false, Bool.true_or, if_true, g8, g16, false_and, Bool.false_eq_true, if_false]
    rfl

/-- **C55, every setting.** `getBaudRate` returns the rate modulo 65536, but 0 for the fastest setting. -/
theorem c55_getBaudRate_exact (F : Nat) (c : Config) (h : Setting c.div c.ubrr) :
    getBaudRate F c = .ok (if c.ubrr = 0 then 0 else rate F c.div c.ubrr % 65536) := by
  obtain ⟨hd, hu⟩ := h
  have hd0 : c.div ≠ 0 := by omega
  unfold getBaudRate
  by_cases h0 : c.ubrr = 0
  · rw [if_pos (Or.inl h0), if_pos h0]
  · have hk : toU 16 ((c.ubrr : Int) + 1) = c.ubrr + 1 := by unfold toU; simp only [Nat.reducePow]; omega
    have hne : c.div * (c.ubrr + 1) ≠ 0 := Nat.ne_of_gt (Nat.mul_pos (by omega) (by omega))
    rw [if_neg (by omega), if_neg h0]
    unfold calcBaud
    simp only [hk, if_neg hne, Res.bind_ok]
    congr 1
    unfold rate
    generalize F / (c.div * (c.ubrr + 1)) = r
    unfold toU toS
    simp only [Nat.reducePow, Nat.reduceSub]
    omega

/-- Standard case, only one divider, none, and a rate whose quotient was cut. -/
example : initAsync 16000000 9600 {} = .ok ({ div := 16, ubrr := 103 }, true) ∧ Usable 16000000 8 9600 ∧ Usable 16000000 16 9600 ∧
    ¬ Usable 1000000 16 65000 ∧ cutDivider 16000000 8 30 = 1130 ∧ cutDeviation 1164288 16 40000 = -32768 := by decide +kernel

end Atl.Props
