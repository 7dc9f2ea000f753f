import Verif.Model.Range
import Mathlib.Order.Lattice
import Mathlib.Order.MinMax

/-
  C16 Range, C17 ValueContainer.
-/
namespace Atl.Props

open Atl Range

variable {α : Type} [LinearOrder α]

/-- Membership between two bounds given in either order. -/
def Between (a b v : α) : Prop := min a b ≤ v ∧ v ≤ max a b

/-- **C16 (membership).** -/
theorem c16_membership (r : Rng α) (v : α) : isInRange r v = true ↔ Between r.begin' r.end' v := by
  unfold isInRange Between
  split
  · rename_i h
    rw [min_eq_right (le_of_lt h), max_eq_left (le_of_lt h)]; simp
  · rename_i h
    rw [min_eq_left (not_lt.1 h), max_eq_right (not_lt.1 h)]; simp

/-- **C16 (normalisation).** Begin ≤ End afterwards, the same bounds, and membership is unchanged. -/
theorem c16_normalize (r : Rng α) :
    (normalize r).begin' ≤ (normalize r).end' ∧ isNormalized (normalize r) = true ∧
    (∀ v, isInRange (normalize r) v = isInRange r v) ∧
    (isNormalized r = true → normalize r = r) := by
  have hb : (normalize r).begin' = min r.begin' r.end' ∧ (normalize r).end' = max r.begin' r.end' := by
    unfold normalize
    split
    · rename_i h
      exact ⟨(min_eq_right (le_of_lt h)).symm, (max_eq_left (le_of_lt h)).symm⟩
    · rename_i h
      exact ⟨(min_eq_left (not_lt.1 h)).symm, (max_eq_right (not_lt.1 h)).symm⟩
  have hle : (normalize r).begin' ≤ (normalize r).end' := by rw [hb.1, hb.2]; exact min_le_max
  refine ⟨hle, by simpa [isNormalized] using hle, fun v => ?_, fun h => ?_⟩
  · rw [Bool.eq_iff_iff, c16_membership, c16_membership]
    unfold Between
    rw [min_eq_left hle, max_eq_right hle, hb.1, hb.2]
  · unfold normalize
    rw [if_neg (not_lt.2 (by simpa [isNormalized] using h))]

example : isInRange (⟨9, 3⟩ : Rng Int) 5 = true ∧ normalize (⟨9, 3⟩ : Rng Int) = ⟨3, 9⟩ := by decide

/-- **C16 (clipping).** For a normalised range the clipped value is a member, members are unchanged, clipping is idempotent and
    monotone, and the result is the nearest member: it lies between the value and every member. -/
theorem c16_clip (r : Rng α) (h : isNormalized r = true) (v w : α) :
    isInRange r (clipValue r v) = true ∧
    (isInRange r v = true → clipValue r v = v) ∧
    clipValue r (clipValue r v) = clipValue r v ∧
    (v ≤ w → clipValue r v ≤ clipValue r w) ∧
    (∀ m, isInRange r m = true → Between v m (clipValue r v)) := by
  have hle : r.begin' ≤ r.end' := by simpa [isNormalized] using h
  have hc : ∀ v, clipValue r v = max r.begin' (min v r.end') := by
    intro v
    unfold clipValue
    have h1 : (if v > r.end' then r.end' else v) = min v r.end' := by
      split
      · rename_i h; exact (min_eq_right (le_of_lt h)).symm
      · rename_i h; exact (min_eq_left (not_lt.1 h)).symm
    simp only [h1]
    split
    · rename_i h; exact (max_eq_left (le_of_lt h)).symm
    · rename_i h; exact (max_eq_right (not_lt.1 h)).symm
  have hmem : ∀ m, isInRange r m = true ↔ r.begin' ≤ m ∧ m ≤ r.end' := by
    intro m; rw [c16_membership]; unfold Between; rw [min_eq_left hle, max_eq_right hle]
  have hin : ∀ v, isInRange r (clipValue r v) = true := by
    intro v; rw [hmem, hc]
    exact ⟨le_max_left _ _, max_le hle (min_le_right _ _)⟩
  have hfix : ∀ v, isInRange r v = true → clipValue r v = v := by
    intro v hv; rw [hmem] at hv; rw [hc, min_eq_left hv.2, max_eq_right hv.1]
  refine ⟨hin v, hfix v, hfix _ (hin v), fun hvw => ?_, fun m hm => ?_⟩
  · rw [hc, hc]; exact max_le_max le_rfl (min_le_min hvw le_rfl)
  · rw [hmem] at hm
    rw [hc]
    unfold Between
    constructor
    · rcases le_total v r.end' with hv | hv
      · rw [min_eq_left hv]
        exact le_trans (min_le_left _ _) (le_max_right _ _)
      · rw [min_eq_right hv]
        exact le_trans (le_trans (min_le_right _ _) hm.2) (le_max_right _ _)
    · refine max_le (le_trans hm.1 (le_max_right _ _)) (le_trans (min_le_left _ _) (le_max_left _ _))

example : isNormalized (⟨3, 9⟩ : Rng Int) = true ∧ clipValue (⟨3, 9⟩ : Rng Int) 12 = 9 ∧
    clipValue (⟨3, 9⟩ : Rng Int) (-2) = 3 ∧ clipValue (⟨3, 9⟩ : Rng Int) 5 = 5 := by decide

/-- The normalisation hypothesis is needed: on a reversed range every value, members included, is clipped to `Begin`. -/
theorem c16_reversed_clip (r : Rng α) (h : r.end' < r.begin') (v : α) : clipValue r v = r.begin' := by
  unfold clipValue
  simp only
  split
  · first | rfl | rw [if_pos h]
  · rename_i h1
    have : v < r.begin' := lt_of_le_of_lt (not_lt.1 h1) h
    rw [if_pos this]

/-- Distance version of "nearest" for integers. -/
theorem c16_clip_nearest (r : Rng Int) (h : isNormalized r = true) (v m : Int) (hm : isInRange r m = true) :
    (v - clipValue r v).natAbs ≤ (v - m).natAbs := by
  have := (c16_clip r h v v).2.2.2.2 m hm
  unfold Between at this
  omega

example := c16_clip_nearest ⟨3, 9⟩ (by decide) 12 7 (by decide)

/-! ### C17 -/

open ValueContainer

inductive VOp (α : Type) where
  | setSingle (v : α)
  | setRange (b e : α)
  | setAny
  | setNone
  | normalize
  deriving Repr

def vstep (s : VC α) : VOp α → VC α
  | .setSingle v => ValueContainer.setSingle s v
  | .setRange b e => ValueContainer.setRange s b e
  | .setAny => ValueContainer.setAny s
  | .setNone => ValueContainer.setNone s
  | .normalize => ValueContainer.normalize s

/-- What the last mode-changing operation of a history says about membership (Normalize never matters). -/
def Means (v : α) : List (VOp α) → Prop → Prop
  | [], p => p
  | .setSingle x :: os, _ => Means v os (v = x)
  | .setRange b e :: os, _ => Means v os (Between b e v)
  | .setAny :: os, _ => Means v os True
  | .setNone :: os, _ => Means v os False
  | .normalize :: os, p => Means v os p

theorem vc_step_normalize (s : VC α) (v : α) :
    ValueContainer.isInRange (ValueContainer.normalize s) v = ValueContainer.isInRange s v := by
  unfold ValueContainer.normalize
  by_cases h : s.begin' > s.end'
  · rw [if_pos h]
    unfold ValueContainer.isInRange
    simp only
    have : ¬ s.end' > s.begin' := not_lt.2 (le_of_lt h)
    rw [if_neg this, if_pos h]
  · rw [if_neg h]

theorem vc_between (s : VC α) (v : α) (h1 : s.mode ≠ .none) (h2 : s.mode ≠ .any) :
    ValueContainer.isInRange s v = true ↔ Between s.begin' s.end' v := by
  have := c16_membership (⟨s.begin', s.end'⟩ : Rng α) v
  unfold ValueContainer.isInRange
  rw [if_neg h1, if_neg h2]
  exact this

theorem vc_means (v : α) (os : List (VOp α)) (s : VC α) (p : Prop)
    (hp : ValueContainer.isInRange s v = true ↔ p) :
    ValueContainer.isInRange (os.foldl vstep s) v = true ↔ Means v os p := by
  induction os generalizing s p with
  | nil => exact hp
  | cons o os ih =>
    cases o with
    | setSingle x =>
      refine ih _ _ ?_
      refine (vc_between (ValueContainer.setSingle s x) v (by simp [ValueContainer.setSingle])
        (by simp [ValueContainer.setSingle])).trans ?_
      simp only [ValueContainer.setSingle, Between, min_self, max_self]
      exact ⟨fun h => le_antisymm h.2 h.1, fun h => ⟨le_of_eq h.symm, le_of_eq h⟩⟩
    | setRange b e =>
      refine ih _ _ ?_
      exact vc_between (ValueContainer.setRange s b e) v (by simp [ValueContainer.setRange])
        (by simp [ValueContainer.setRange])
    | setAny => exact ih _ _ (by simp [vstep, ValueContainer.setAny, ValueContainer.isInRange])
    | setNone => exact ih _ _ (by simp [vstep, ValueContainer.setNone, ValueContainer.isInRange])
    | normalize => exact ih _ _ (by rw [vstep, vc_step_normalize]; exact hp)

/-- **C17.** After construction and any history of SetSingle, SetRange, SetAny, SetNone and Normalize, membership is what
    the last mode-setting operation says: never for None, equality for Single, between the bounds (either order)
    for Range, always for Any. -/
theorem c17_modes (g : α × α) (os : List (VOp α)) (v : α) :
    ValueContainer.isInRange (os.foldl vstep (ValueContainer.init g)) v = true ↔ Means v os False :=
  vc_means v os _ _ (by simp [ValueContainer.init, ValueContainer.isInRange])

example : Means 5 [.setSingle 3, .normalize, .setRange 9 2, .normalize] False ↔ (2 : Int) ≤ 5 ∧ (5 : Int) ≤ 9 := by
  simp [Means, Between]

/-- What the getters report after a history: the mode of the last operation that set one, and the bounds of the last SetSingle or SetRange (SetAny and SetNone
    keep them), put in order by a Normalize. -/
def Reports : List (VOp α) → Mode × α × α → Mode × α × α
  | [], r => r
  | .setSingle x :: os, _ => Reports os (.single, x, x)
  | .setRange b e :: os, _ => Reports os (.range, b, e)
  | .setAny :: os, r => Reports os (.any, r.2)
  | .setNone :: os, r => Reports os (.none, r.2)
  | .normalize :: os, r => Reports os (r.1, min r.2.1 r.2.2, max r.2.1 r.2.2)

/-- **C17 (the getters).** After construction and any history, `getMode`, `getBegin` (`getValue`) and `getEnd` report the mode last set and the bounds last
    given, in order once Normalize was called. -/
theorem c17_getters (g : α × α) (os : List (VOp α)) :
    let s := os.foldl vstep (ValueContainer.init g)
    (s.mode, s.begin', s.end') = Reports os (.none, g) := by
  have key : ∀ (os : List (VOp α)) (s : VC α),
      ((os.foldl vstep s).mode, (os.foldl vstep s).begin', (os.foldl vstep s).end') = Reports os (s.mode, s.begin', s.end') := by
    intro os
    induction os with
    | nil => intro s; rfl
    | cons o os ih =>
      intro s
      cases o with
      | normalize =>
        refine (ih (ValueContainer.normalize s)).trans ?_
        unfold ValueContainer.normalize
        split
        · rename_i h; simp only [Reports, min_eq_right (le_of_lt h), max_eq_left (le_of_lt h)]
        · rename_i h; simp only [Reports, min_eq_left (not_lt.1 h), max_eq_right (not_lt.1 h)]
      | setSingle x => exact ih _
      | setRange b e => exact ih _
      | setAny => exact ih _
      | setNone => exact ih _
  exact key os _

example : Reports [.setRange 9 2, .setAny, .normalize] (Mode.none, ((7 : Int), 0)) = (.any, 2, 9) := by decide
example := c17_getters ((7 : Int), 0) [.setRange 9 2, .setAny, .normalize, .setSingle 4]

/-- Normalize orders the bounds in every mode. -/
theorem c17_normalize_ordered (s : VC α) :
    (ValueContainer.normalize s).begin' ≤ (ValueContainer.normalize s).end' ∧
    (ValueContainer.normalize s).mode = s.mode := by
  unfold ValueContainer.normalize
  split
  · rename_i h; exact ⟨le_of_lt h, rfl⟩
  · rename_i h; exact ⟨not_lt.1 h, rfl⟩

end Atl.Props
