import Verif.Model.UI
import Verif.Spec.UI
import Verif.Proof.Array

/- Laws of the control classes and lemmas on panels. -/
namespace Atl.UI
open Control

/-- What a panel needs from its children. -/
class Lawful (α : Type) [Control α] : Prop where
  normal_inactive : ∀ x : α, (state (setState .normal x).2).active = false
  focus_state : ∀ x : α, state (setState .focused x).2 = .focused ∨ state (setState .focused x).2 = state x
  focus_ok : ∀ x : α, isOfType tInput x = true → state x = .normal → state (setState .focused x).2 = .focused
  type_set : ∀ (t : Nat) (s : CState) (x : α), isOfType t (setState s x).2 = isOfType t x
  type_nav : ∀ (t : Nat) (c : Nav) (x : α), isOfType t (nav c x).2 = isOfType t x

instance : Lawful Label where
  normal_inactive x := by obtain ⟨s⟩ := x; cases s <;> rfl
  focus_state x := by obtain ⟨s⟩ := x; cases s <;> first | exact Or.inl rfl | exact Or.inr rfl
  focus_ok x h := by exfalso; revert h; show ¬ controlIs 2 = true; decide
  type_set _ _ _ := rfl
  type_nav _ _ _ := rfl

instance : Lawful Input where
  normal_inactive x := by obtain ⟨s⟩ := x; cases s <;> rfl
  focus_state x := by obtain ⟨s⟩ := x; cases s <;> first | exact Or.inl rfl | exact Or.inr rfl
  focus_ok x _ h := by
    obtain ⟨s⟩ := x
    change s = .normal at h
    subst h
    rfl
  type_set _ _ _ := rfl
  type_nav _ _ _ := rfl

instance {ν : Type} : Lawful (UpDown ν) where
  normal_inactive x := by
    obtain ⟨s, v, i, d⟩ := x
    cases s <;> rfl
  focus_state x := by
    obtain ⟨s, v, i, d⟩ := x
    cases s <;> first | exact Or.inl rfl | exact Or.inr rfl
  focus_ok x _ h := by
    obtain ⟨s, v, i, d⟩ := x
    change s = .normal at h
    subst h
    rfl
  type_set _ _ _ := rfl
  type_nav _ _ _ := rfl

instance {ι : Type} : Lawful (Text ι) where
  normal_inactive x := by
    obtain ⟨s, t, c, o, i, e⟩ := x
    cases s <;> rfl
  focus_state x := by
    obtain ⟨s, t, c, o, i, e⟩ := x
    cases s <;> first | exact Or.inl rfl | exact Or.inr rfl
  focus_ok x _ h := by
    obtain ⟨s, t, c, o, i, e⟩ := x
    change s = .normal at h
    subst h
    rfl
  type_set _ _ _ := rfl
  type_nav _ _ _ := rfl

instance {α β : Type} [Control α] [Control β] [Lawful α] [Lawful β] : Lawful (α ⊕ β) where
  normal_inactive
    | .inl x => Lawful.normal_inactive x
    | .inr x => Lawful.normal_inactive x
  focus_state
    | .inl x => Lawful.focus_state x
    | .inr x => Lawful.focus_state x
  focus_ok
    | .inl x => Lawful.focus_ok x
    | .inr x => Lawful.focus_ok x
  type_set
    | t, s, .inl x => Lawful.type_set t s x
    | t, s, .inr x => Lawful.type_set t s x
  type_nav
    | t, s, .inl x => Lawful.type_nav t s x
    | t, s, .inr x => Lawful.type_nav t s x

theorem panel_set_st {α : Type} (s : CState) (p : Panel α) : (Panel.set s p).2.st = if beforePanel p.st s then s else p.st := by
  unfold Panel.set; split <;> rfl

theorem panel_normal {α : Type} (p : Panel α) : (Panel.set .normal p).2.st.active = false := by
  rw [panel_set_st]
  cases p.st <;> rfl

theorem panel_focus {α : Type} (p : Panel α) : (Panel.set .focused p).2.st = .focused ∨ (Panel.set .focused p).2.st = p.st := by
  rw [panel_set_st]
  cases p.st <;> first | exact Or.inl rfl | exact Or.inr rfl

instance {α : Type} [Control α] : Lawful (Panel α) where
  normal_inactive p := panel_normal p
  focus_state p := panel_focus p
  focus_ok p _ h := by
    change p.st = _ at h
    show (Panel.set .focused p).2.st = _
    rw [panel_set_st, h]; rfl
  type_set _ _ _ := rfl
  type_nav _ _ _ := rfl

instance {α : Type} [Control α] : Lawful (Page α) where
  normal_inactive p := panel_normal p.panel
  focus_state p := panel_focus p.panel
  focus_ok p _ h := by
    change p.panel.st = _ at h
    show (Panel.set .focused p.panel).2.st = _
    rw [panel_set_st, h]; rfl
  type_set _ _ _ := rfl
  type_nav _ _ _ := rfl

/-- Controls that are not panels: without the selection they ignore the arrow commands. -/
class Leaf (α : Type) [Control α] : Prop extends Lawful α where
  idle : ∀ (x : α) (c : Nav), state x ≠ .selected → c ∈ [Nav.up, .down, .left, .right] → nav c x = (false, x)

theorem arrows (c : Nav) (h : c ∈ [Nav.up, .down, .left, .right]) : c = .up ∨ c = .down ∨ c = .left ∨ c = .right := by simpa using h

instance : Leaf Label where
  idle _ _ _ _ := rfl

instance : Leaf Input where
  idle x c _ h := by rcases arrows c h with rfl | rfl | rfl | rfl <;> rfl

instance {ν : Type} : Leaf (UpDown ν) where
  idle x c hs h := by
    have : (x.st == CState.selected) = false := beq_eq_false_iff_ne.2 hs
    rcases arrows c h with rfl | rfl | rfl | rfl <;> simp [nav, UpDown.onNav, UpDown.tryUp, UpDown.tryDown, UpDown.inputNav, this]

instance {ι : Type} : Leaf (Text ι) where
  idle x c hs h := by
    have : (x.st == CState.selected) = false := beq_eq_false_iff_ne.2 hs
    rcases arrows c h with rfl | rfl | rfl | rfl <;> simp [nav, Text.onNav, Text.upDownNav, Text.tryLeft, Text.tryRight, Text.inputNav, this]

instance {α β : Type} [Control α] [Control β] [Leaf α] [Leaf β] : Leaf (α ⊕ β) where
  idle
    | .inl x, c, hs, h => by
      have := Leaf.idle x c hs h
      show ((nav c x).1, Sum.inl (nav c x).2) = _
      rw [this]
    | .inr x, c, hs, h => by
      have := Leaf.idle x c hs h
      show ((nav c x).1, Sum.inr (nav c x).2) = _
      rw [this]

theorem modify_ne {α : Type} (l : List α) (f : α → α) {i j : Nat} (h : i ≠ j) : (l.modify i f)[j]? = l[j]? := by
  simp [List.getElem?_modify, h]

theorem modify_eq {α : Type} (l : List α) (f : α → α) (i : Nat) : (l.modify i f)[i]? = l[i]?.map f := by
  simp [List.getElem?_modify]

namespace Panel
variable {α : Type} [Control α]

/-- Child `i` is an input control. -/
def IsInput (kids : List α) (i : Nat) : Prop := ∃ k, kids[i]? = some k ∧ isOfType tInput k = true

theorem cast_some (kids : List α) (i : Nat) : (∃ x, dynamicCast kids[i]? tInput = some x) ↔ IsInput kids i := by
  cases h : kids[i]? with
  | none => simp [dynamicCast, IsInput, h]
  | some k =>
    cases ht : isOfType tInput k <;> simp [dynamicCast, IsInput, h, ht]

theorem toS8_small (x : Int) (h : -128 ≤ x ∧ x ≤ 127) : toS 8 x = x := by
  unfold toS
  simp only [Nat.reducePow, Nat.reduceSub]
  omega

theorem scanUp_some (kids : List α) (f : Nat) (i : Nat) (hi : i ≤ 127) (j : Nat) (h : scanUp kids tInput f i = some j) :
    i ≤ j ∧ IsInput kids j ∧ ∀ m, i ≤ m → m < j → ¬ IsInput kids m := by
  induction f generalizing i with
  | zero => simp [scanUp] at h
  | succ f ih =>
    rw [scanUp] at h
    split at h
    · rename_i hb
      have hin := cast_some kids i
      simp only [Int.toNat_natCast] at h
      cases hc : dynamicCast kids[i]? tInput with
      | some x =>
        rw [hc] at h hin
        simp only [Option.some.injEq] at h
        subst h
        exact ⟨Nat.le_refl _, hin.1 ⟨x, rfl⟩, fun m h1 h2 => by omega⟩
      | none =>
        rw [hc] at h hin
        have hno : ¬ IsInput kids i := fun hx => by
          obtain ⟨x, hx⟩ := hin.2 hx
          cases hx
        by_cases h127 : i = 127
        · subst h127
          have : toS 8 (((127 : Nat) : Int) + 1) = -128 := by decide +kernel
          simp only [this] at h
          cases f <;> simp [scanUp] at h
        · have he : toS 8 ((i : Int) + 1) = ((i + 1 : Nat) : Int) := by
            rw [toS8_small _ (by omega)]; omega
          simp only [he] at h
          obtain ⟨a, b, c⟩ := ih (i + 1) (by omega) h
          refine ⟨by omega, b, fun m h1 h2 => ?_⟩
          by_cases hm : m = i
          · exact hm ▸ hno
          · exact c m (by omega) h2
    · simp at h

theorem scanUp_none (kids : List α) (hl : kids.length ≤ 128) (f : Nat) (i : Nat) (hf : kids.length < f + i) (h : scanUp kids tInput f i = none) :
    ∀ m, i ≤ m → ¬ IsInput kids m := by
  induction f generalizing i with
  | zero =>
    intro m hm ⟨k, hk, _⟩
    have := (List.getElem?_eq_some_iff.1 hk).1
    omega
  | succ f ih =>
    rw [scanUp] at h
    split at h
    · rename_i hb
      have hin := cast_some kids i
      simp only [Int.toNat_natCast] at h
      cases hc : dynamicCast kids[i]? tInput with
      | some x => rw [hc] at h; simp at h
      | none =>
        rw [hc] at h hin
        have hno : ¬ IsInput kids i := fun hx => by
          obtain ⟨x, hx⟩ := hin.2 hx
          cases hx
        intro m hm
        by_cases hm' : m = i
        · exact hm' ▸ hno
        · by_cases h127 : i = 127
          · rintro ⟨k, hk, _⟩
            have := (List.getElem?_eq_some_iff.1 hk).1
            omega
          · have he : toS 8 ((i : Int) + 1) = ((i + 1 : Nat) : Int) := by
              rw [toS8_small _ (by omega)]; omega
            simp only [he] at h
            exact ih (i + 1) (by omega) h m (by omega)
    · intro m hm ⟨k, hk, _⟩
      have := (List.getElem?_eq_some_iff.1 hk).1
      omega

theorem scanDown_some (kids : List α) (f : Nat) (i : Nat) (hi : i ≤ 127) (hl : i < kids.length) (j : Nat) (h : scanDown kids tInput f i = some j) :
    j ≤ i ∧ IsInput kids j ∧ ∀ m, m ≤ i → j < m → ¬ IsInput kids m := by
  induction f generalizing i with
  | zero => simp [scanDown] at h
  | succ f ih =>
    rw [scanDown, if_pos (by omega)] at h
    have hin := cast_some kids i
    simp only [Int.toNat_natCast] at h
    cases hc : dynamicCast kids[i]? tInput with
    | some x =>
      rw [hc] at h hin
      simp only [Option.some.injEq] at h
      subst h
      exact ⟨Nat.le_refl _, hin.1 ⟨x, rfl⟩, fun m h1 h2 => by omega⟩
    | none =>
      rw [hc] at h hin
      have hno : ¬ IsInput kids i := fun hx => by
        obtain ⟨x, hx⟩ := hin.2 hx
        cases hx
      cases i with
      | zero =>
        have : toS 8 (((0 : Nat) : Int) - 1) = -1 := by decide +kernel
        simp only [this] at h
        cases f <;> simp [scanDown] at h
      | succ i =>
        have he : toS 8 (((i + 1 : Nat) : Int) - 1) = (i : Int) := by
          rw [toS8_small _ (by omega)]; omega
        simp only [he] at h
        obtain ⟨a, b, c⟩ := ih i (by omega) (by omega) h
        refine ⟨by omega, b, fun m h1 h2 => ?_⟩
        by_cases hm : m = i + 1
        · exact hm ▸ hno
        · exact c m (by omega) h2

theorem scanDown_none (kids : List α) (f : Nat) (i : Nat) (hi : i ≤ 127) (hl : i < kids.length) (hf : i < f) (h : scanDown kids tInput f i = none) :
    ∀ m, m ≤ i → ¬ IsInput kids m := by
  induction f generalizing i with
  | zero => omega
  | succ f ih =>
    rw [scanDown, if_pos (by omega)] at h
    have hin := cast_some kids i
    simp only [Int.toNat_natCast] at h
    cases hc : dynamicCast kids[i]? tInput with
    | some x => rw [hc] at h; simp at h
    | none =>
      rw [hc] at h hin
      have hno : ¬ IsInput kids i := fun hx => by
        obtain ⟨x, hx⟩ := hin.2 hx
        cases hx
      intro m hm
      by_cases hm' : m = i
      · exact hm' ▸ hno
      · cases i with
        | zero => omega
        | succ i =>
          have he : toS 8 (((i + 1 : Nat) : Int) - 1) = (i : Int) := by
            rw [toS8_small _ (by omega)]; omega
          simp only [he] at h
          exact ih i (by omega) (by omega) (by omega) h m (by omega)

/-- The children after `setCurrentControl`. -/
theorem setCurrent_kids (new : Nat) (p : Panel α) :
    (setCurrent (some new) p).kids = (match p.cur with
      | some i => p.kids.modify i fun k => (setState .normal k).2
      | none => p.kids).modify new fun k => (setState .focused k).2 := by
  have hk : ∀ (s : CState) (q : Panel α), (set s q).2.kids = q.kids := by
    intro s q; unfold set; split <;> rfl
  unfold setCurrent
  cases p.cur with
  | none => simp only [hk, setKid]
  | some i => simp only [hk, setKid]

theorem setCurrent_cur (new : Nat) (p : Panel α) : (setCurrent (some new) p).cur = some new := by
  have hk : ∀ (s : CState) (q : Panel α), (set s q).2.cur = q.cur := by
    intro s q; unfold set; split <;> rfl
  unfold setCurrent
  simp only [hk, setKid]

theorem setCurrent_kind (new : Nat) (p : Panel α) : (setCurrent (some new) p).kind = p.kind := by
  have hk : ∀ (s : CState) (q : Panel α), (set s q).2.kind = q.kind := by
    intro s q; unfold set; split <;> rfl
  unfold setCurrent
  cases h : p.cur <;> simp only [hk, setKid]

end Panel
end Atl.UI
