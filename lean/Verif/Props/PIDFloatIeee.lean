import Verif.Model.PIDFloat
import Mathlib.Order.WithBot
/- Property theorems C113: the floating point numbers of the model are those of IEEE 754. -/
namespace Atl.Props
open Atl.PIDFloat

/-- The number a floating point number stands for: a real number or one of the two ends of the line; none for NaN. -/
def numberOf : Fl → Option (WithBot (WithTop Rat))
  | .nan => none
  | .inf true => some ⊥
  | .inf false => some ((⊤ : WithTop Rat) : WithBot (WithTop Rat))
  | .fin q => some ((q : WithTop Rat) : WithBot (WithTop Rat))

/-- A floating point number is below zero. -/
def Negative (a : Fl) : Prop := ∃ x, numberOf a = some x ∧ x < ((0 : Rat) : WithTop Rat)

/-- **C113.** Comparisons are those of the numbers, and false if one is NaN (IEEE 754, 5.11). -/
theorem c113_compare (a b : Fl) :
    (a.lt b = true ↔ ∃ x y, numberOf a = some x ∧ numberOf b = some y ∧ x < y) ∧
    (a.le b = true ↔ ∃ x y, numberOf a = some x ∧ numberOf b = some y ∧ x ≤ y) ∧
    (a.isZero = true ↔ numberOf a = some ((0 : Rat) : WithTop Rat)) := by
  rcases a with _ | (_ | _) | p <;> rcases b with _ | (_ | _) | q <;> simp [Fl.lt, Fl.le, Fl.isZero, numberOf]
  exact WithBot.coe_lt_coe.2 (WithTop.coe_lt_top p)

/-- **C113.** The invalid operations are exactly those of IEEE 754, 7.2: infinities of different sign added, zero times infinity, zero divided by zero; and whatever NaN goes into. -/
theorem c113_invalid (f : Fmt) (a b : Fl) (n : Nat) :
    (Fl.add f a b = .nan ↔ a = .nan ∨ b = .nan ∨ ∃ s, a = .inf s ∧ b = .inf (!s)) ∧
    (Fl.sub f a b = .nan ↔ a = .nan ∨ b = .nan ∨ ∃ s, a = .inf s ∧ b = .inf s) ∧
    (Fl.mul f a b = .nan ↔ a = .nan ∨ b = .nan ∨ (∃ s, a = .inf s ∧ b = .fin 0) ∨ (∃ s, a = .fin 0 ∧ b = .inf s)) ∧
    (Fl.divNat f a n = .nan ↔ a = .nan ∨ (a = .fin 0 ∧ n = 0)) := by
  have h : ∀ q, Fl.ofReal f q ≠ .nan := fun q => by unfold Fl.ofReal; split <;> simp
  have h' : ∀ q (c : Prop) [Decidable c], (if c then Fl.nan else Fl.inf q) = .nan ↔ c := fun q c _ => by split <;> simp_all
  refine ⟨?_, ?_, ?_, ?_⟩
  · rcases a with _ | (_ | _) | p <;> rcases b with _ | (_ | _) | q <;> simp [Fl.add, h]
  · rcases a with _ | (_ | _) | p <;> rcases b with _ | (_ | _) | q <;> simp [Fl.sub, Fl.neg, Fl.add, h]
  · rcases a with _ | (_ | _) | p <;> rcases b with _ | (_ | _) | q <;> simp [Fl.mul, h, h']
  · rcases a with _ | (_ | _) | p <;> simp only [Fl.divNat]
    · simp
    · simp
    · simp
    · by_cases hn : n = 0
      · by_cases hp : p = 0 <;> simp [hn, hp]
      · simp [hn, h]

/-- **C113.** Otherwise a product is negative exactly if one of its factors is (and not rounded to zero), and a quotient has the sign of the dividend: stated for infinite results, finite ones
    are the rounded real number. -/
theorem c113_infinite (f : Fmt) (h0 : |f.round 0| ≤ f.top) (a b : Fl) (n : Nat) (s : Bool) :
    (Fl.mul f a b = .inf s → (s = true ↔ (Negative a ↔ ¬ Negative b))) ∧
    (Fl.divNat f a n = .inf s → (s = true ↔ Negative a)) ∧
    (∀ s', a = .inf s' → b ≠ .nan → b ≠ .inf (!s') → Fl.add f a b = a ∧ Fl.add f b a = a) ∧
    (∀ p q, a = .fin p → b = .fin q → (Fl.add f a b = Fl.ofReal f (p + q) ∧ Fl.sub f a b = Fl.ofReal f (p - q) ∧ Fl.mul f a b = Fl.ofReal f (p * q) ∧
      (n ≠ 0 → Fl.divNat f a n = Fl.ofReal f (p / n)))) := by
  have neg0 : ∀ q : Rat, Negative (.fin q) ↔ q < 0 := fun q => by simp [Negative, numberOf]
  have negt : Negative (.inf true) := by simp [Negative, numberOf]
  have negf : ¬ Negative (.inf false) := by simp [Negative, numberOf]
  refine ⟨?_, ?_, ?_, ?_⟩
  · have fin : ∀ p : Rat, ∀ u : Bool, (if p = 0 then Fl.nan else Fl.inf (u != decide (p < 0))) = .inf s → s = (u != decide (p < 0)) := by
      intro p u h
      by_cases hp : p = 0
      · rw [if_pos hp] at h; cases h
      · rw [if_neg hp] at h; cases h; rfl
    rcases a with _ | (_ | _) | p <;> rcases b with _ | (_ | _) | q <;> simp only [Fl.mul] <;> intro h
    · cases h
    · cases h
    · cases h
    · cases h
    · cases h
    · cases h; simp [negf]
    · cases h; simp [negf, negt]
    · rw [fin q _ h, neg0]; simp [negf]
    · cases h
    · cases h; simp [negf, negt]
    · cases h; simp [negt]
    · rw [fin q _ h, neg0]; simp [negt]
    · cases h
    · rw [fin p _ h, neg0]; simp [negf]
    · rw [fin p _ h, neg0]; simp [negt]
    · unfold Fl.ofReal at h
      split at h
      · cases h
      · rename_i ht
        cases h
        have hne : p * q ≠ 0 := fun e => ht (by rw [e]; exact h0)
        rw [neg0, neg0, decide_eq_true_eq]
        rcases lt_or_gt_of_ne (left_ne_zero_of_mul hne) with hp | hp <;> rcases lt_or_gt_of_ne (right_ne_zero_of_mul hne) with hq | hq
        · have := mul_pos_of_neg_of_neg hp hq
          simp [hp, hq, this.le]
        · have := mul_neg_of_neg_of_pos hp hq
          simp [hp, hq.le, this]
        · have := mul_neg_of_pos_of_neg hp hq
          simp [hp.le, hq, this]
        · have := mul_pos hp hq
          simp [not_lt.2 hp.le, not_lt.2 hq.le, not_lt.2 this.le]
  · rcases a with _ | (_ | _) | p <;> simp only [Fl.divNat] <;> intro h
    · cases h
    · cases h; simp [negf]
    · cases h; simp [negt]
    · rw [neg0]
      split at h
      · split at h
        · cases h
        · cases h; simp
      · rename_i hn
        unfold Fl.ofReal at h
        split at h
        · cases h
        · cases h
          have : (0 : Rat) < n := by exact_mod_cast Nat.pos_of_ne_zero hn
          rw [decide_eq_true_eq]
          constructor
          · intro hlt
            by_contra hp
            exact absurd (div_nonneg (not_lt.1 hp) this.le) (not_le.2 hlt)
          · intro hp
            rw [div_eq_mul_inv]
            exact mul_neg_of_neg_of_pos hp (Rat.inv_pos.2 this)
  · rintro s' rfl hb1 hb2
    rcases b with _ | s'' | q
    · exact absurd rfl hb1
    · have : s'' = s' := by cases s' <;> cases s'' <;> simp_all
      subst this
      simp [Fl.add]
    · simp [Fl.add]
  · rintro p q rfl rfl
    refine ⟨rfl, ?_, rfl, fun hn => ?_⟩
    · simp only [Fl.sub, Fl.neg, Fl.add, sub_eq_add_neg]
    · simp only [Fl.divNat, if_neg hn]

example : Fl.mul binary32 (.fin (-2 ^ 100)) (.fin (2 ^ 100)) = .inf true ∧ Fl.divNat binary32 (.fin (-1)) 0 = .inf true ∧ Fl.add binary32 (.inf true) (.fin 5) = .inf true := by decide +kernel
example : |binary32.round 0| ≤ binary32.top := by decide +kernel

end Atl.Props
