import Verif.Props.UILong
import Verif.Spec.UIVisit

/- Property theorems C49 and C52, exactly: the state of every control of a panel or page at every moment, told from where the panels have been. -/
namespace Atl.Props
open Atl.UI Atl.UI.Control Atl.Spec.UI Atl.Spec.UIVisit

namespace Visit

/-- Controls that are not panels, as far as their state goes. -/
class Plain (α : Type) [Control α] : Prop extends Lawful α where
  normal : ∀ x : α, state (setState .normal x).2 = .normal
  focus : ∀ x : α, isOfType tInput x = true → state (setState .focused x).2 = if state x = .disabled ∨ state x = .hidden then state x else .focused
  refused : ∀ (c : Nav) (x : α), (nav c x).1 = false → (nav c x).2 = x
  active : ∀ (c : Nav) (x : α), (state x).active = true → (state (nav c x).2).active = true
  inactive : ∀ (c : Nav) (x : α), (state x).active = false → state (nav c x).2 = state x

instance : Plain Label where
  normal x := by obtain ⟨s⟩ := x; cases s <;> rfl
  focus x h := by exfalso; revert h; show ¬ controlIs 2 = true; decide
  refused _ _ _ := rfl
  active _ _ h := h
  inactive _ _ _ := rfl

instance : Plain Input where
  normal x := by obtain ⟨s⟩ := x; cases s <;> rfl
  focus x _ := by obtain ⟨s⟩ := x; cases s <;> rfl
  refused c x h := by
    obtain ⟨s⟩ := x
    cases s <;> cases c <;> first | rfl | exact absurd (show true = false from h) (by decide) | exact absurd (show false = true from h) (by decide)
  active c x h := by
    obtain ⟨s⟩ := x
    cases s <;> cases c <;> first | rfl | exact absurd (show true = false from h) (by decide) | exact absurd (show false = true from h) (by decide)
  inactive c x h := by
    obtain ⟨s⟩ := x
    cases s <;> cases c <;> first | rfl | exact absurd (show true = false from h) (by decide) | exact absurd (show false = true from h) (by decide)

instance {ν : Type} : Plain (UpDown ν) where
  normal x := by obtain ⟨s⟩ := x; cases s <;> rfl
  focus x _ := by obtain ⟨s⟩ := x; cases s <;> rfl
  refused c x h := by
    obtain ⟨s⟩ := x
    cases s <;> cases c <;> first | rfl | exact absurd (show true = false from h) (by decide)
  active c x h := by
    obtain ⟨s⟩ := x
    cases s <;> cases c <;> first | rfl | exact absurd (show true = false from h) (by decide) | exact absurd (show false = true from h) (by decide)
  inactive c x h := by
    obtain ⟨s⟩ := x
    cases s <;> cases c <;> first | rfl | exact absurd (show true = false from h) (by decide) | exact absurd (show false = true from h) (by decide)

theorem text_move {ι : Type} (x : Text ι) : x.reposition.st = x.st ∧ x.increment.st = x.st ∧ x.decrement.st = x.st := ⟨rfl, rfl, rfl⟩

instance {ι : Type} : Plain (Text ι) where
  normal x := by obtain ⟨s⟩ := x; cases s <;> rfl
  focus x _ := by obtain ⟨s⟩ := x; cases s <;> rfl
  refused c x h := by
    obtain ⟨s⟩ := x
    cases s <;> cases c <;> first | rfl | exact absurd (show true = false from h) (by decide)
  active c x h := by
    obtain ⟨s⟩ := x
    cases s <;> cases c <;> first
      | rfl
      | exact absurd (show true = false from h) (by decide) | exact absurd (show false = true from h) (by decide)
      | (simp only [nav, Text.onNav, Text.tryLeft, Text.tryRight, state]; simp only [beq_self_eq_true, if_true]; split <;> rfl)
  inactive c x h := by
    obtain ⟨s⟩ := x
    cases s <;> cases c <;> first | rfl | exact absurd (show true = false from h) (by decide) | exact absurd (show false = true from h) (by decide)

instance {α β : Type} [Control α] [Control β] [Plain α] [Plain β] : Plain (α ⊕ β) where
  normal
    | .inl x => Plain.normal x
    | .inr x => Plain.normal x
  focus
    | .inl x => Plain.focus x
    | .inr x => Plain.focus x
  refused
    | c, .inl x => fun h => congrArg Sum.inl (Plain.refused c x h)
    | c, .inr x => fun h => congrArg Sum.inr (Plain.refused c x h)
  active
    | c, .inl x => Plain.active c x
    | c, .inr x => Plain.active c x
  inactive
    | c, .inl x => Plain.inactive c x
    | c, .inr x => Plain.inactive c x

variable {α : Type} [Control α]

/-- The panel stays where it is, and its control there gets the command or nothing. -/
def Stays (c : Nav) (p q : Panel α) : Prop :=
  q.cur = p.cur ∧ ∀ j k', q.kids[j]? = some k' → ∃ k, p.kids[j]? = some k ∧ (k' = k ∨ (p.cur = some j ∧ k' = (nav c k).2))

/-- The panel moves. -/
def Moves (p q : Panel α) : Prop :=
  ∃ b, q.cur = some b ∧ p.cur ≠ some b ∧ Panel.IsInput p.kids b ∧
    ∀ j k', q.kids[j]? = some k' → ∃ k, p.kids[j]? = some k ∧
      k' = if j = b then (setState .focused k).2 else if p.cur = some j then (setState .normal k).2 else k

theorem stays_refl (c : Nav) (p : Panel α) : Stays c p p := ⟨rfl, fun _ k hk => ⟨k, hk, .inl rfl⟩⟩

theorem stays_toCurrent (c : Nav) (p : Panel α) : Stays c p (Panel.toCurrent c p).2 := by
  unfold Panel.toCurrent
  cases hc : p.cur with
  | none => exact stays_refl c p
  | some i =>
    simp only
    cases hk : p.kids[i]? with
    | none => exact stays_refl c p
    | some k =>
      refine ⟨hc.symm ▸ rfl, fun j k' hj => ?_⟩
      simp only at hj
      by_cases hij : i = j
      · subst hij
        have hlt := (List.getElem?_eq_some_iff.1 hk).1
        rw [List.getElem?_set_self hlt] at hj
        simp only [Option.some.injEq] at hj
        exact ⟨k, hk, .inr ⟨hc, hj.symm⟩⟩
      · rw [List.getElem?_set_ne hij] at hj
        exact ⟨k', hj, .inl rfl⟩

theorem toCurrent_refused [Plain α] (c : Nav) (p : Panel α) (h : (Panel.toCurrent c p).1 = false) : (Panel.toCurrent c p).2 = p := by
  unfold Panel.toCurrent at h ⊢
  cases hc : p.cur with
  | none => rfl
  | some i =>
    rw [hc] at h
    simp only at h ⊢
    cases hk : p.kids[i]? with
    | none => rfl
    | some k =>
      rw [hk] at h
      simp only at h ⊢
      have hlt := (List.getElem?_eq_some_iff.1 hk).1
      have hke := (List.getElem?_eq_some_iff.1 hk).2
      have : p.kids.set i (nav c k).2 = p.kids := by
        rw [Plain.refused c k h, ← hke]
        exact List.set_getElem_self hlt
      rw [this, ← hc]

theorem moves_setCurrent (p : Panel α) (b : Nat) (hb : p.cur ≠ some b) (hi : Panel.IsInput p.kids b) : Moves p (Panel.setCurrent (some b) p) := by
  refine ⟨b, Panel.setCurrent_cur b p, hb, hi, fun j k' hj => ?_⟩
  rw [Panel.setCurrent_kids] at hj
  cases hc : p.cur with
  | none =>
    rw [hc] at hj
    simp only at hj
    by_cases hjb : b = j
    · subst hjb
      rw [modify_eq, Option.map_eq_some_iff] at hj
      obtain ⟨k, hk, rfl⟩ := hj
      exact ⟨k, hk, by simp⟩
    · rw [modify_ne _ _ hjb] at hj
      exact ⟨k', hj, by rw [if_neg (fun h => hjb h.symm), if_neg (by simp)]⟩
  | some a =>
    rw [hc] at hj hb
    simp only at hj
    have hab : a ≠ b := fun h => hb (by rw [h])
    by_cases hjb : b = j
    · subst hjb
      rw [modify_eq, Option.map_eq_some_iff] at hj
      obtain ⟨k, hk, rfl⟩ := hj
      rw [modify_ne _ _ hab] at hk
      exact ⟨k, hk, by simp⟩
    · rw [modify_ne _ _ hjb] at hj
      have hjb' : ¬ j = b := fun h => hjb h.symm
      by_cases haj : a = j
      · subst haj
        rw [modify_eq, Option.map_eq_some_iff] at hj
        obtain ⟨k, hk, rfl⟩ := hj
        exact ⟨k, hk, by simp [hab]⟩
      · rw [modify_ne _ _ haj] at hj
        exact ⟨k', hj, by simp [hjb', haj]⟩

theorem next_or (p : Panel α) (h : LongPanel.Inv p) : (Panel.setNext p).2 = p ∨ Moves p (Panel.setNext p).2 := by
  rcases c51_next_exact p h.2.1 with ⟨i, h1, h2⟩ | ⟨_, h2⟩
  · rw [h2]
    exact .inr (moves_setCurrent p i (fun hc => Nat.lt_irrefl _ (h1.2.1 i hc)) h1.1.2)
  · rw [h2]; exact .inl rfl

theorem previous_or (p : Panel α) (h : LongPanel.Inv p) : (Panel.setPrevious p).2 = p ∨ Moves p (Panel.setPrevious p).2 := by
  cases hc : p.cur with
  | none =>
    by_cases h128 : p.kids.length ≤ 128
    · rcases c51_previous_partial p h128 (by simp [hc]) with ⟨i, h1, h2⟩ | ⟨_, h2⟩
      · rw [h2]
        exact .inr (moves_setCurrent p i (by simp [hc]) h1.1)
      · rw [h2]; exact .inl rfl
    · rw [(c51_long_fails p ⟨by omega, h.2.2⟩).2 hc]; exact .inl rfl
  | some c =>
    obtain ⟨k, hk, _⟩ := h.1.1 c hc
    rcases c51_previous_exact p c hc (h.2.1 c hc) (List.getElem?_eq_some_iff.1 hk).1 with ⟨i, h1, h2⟩ | ⟨_, h2⟩
    · rw [h2]
      exact .inr (moves_setCurrent p i (fun hi => Nat.lt_irrefl _ (h1.2.1 i hi)) h1.1)
    · rw [h2]; exact .inl rfl

theorem nav_or [Plain α] (c : Nav) (p : Panel α) (h : LongPanel.Inv p) : Stays c p (nav c p).2 ∨ Moves p (nav c p).2 := by
  have hs := stays_toCurrent c p
  have hn : Stays c p (Panel.setNext p).2 ∨ Moves p (Panel.setNext p).2 := (next_or p h).imp (fun e => by rw [e]; exact stays_refl c p) id
  have hp : Stays c p (Panel.setPrevious p).2 ∨ Moves p (Panel.setPrevious p).2 := (previous_or p h).imp (fun e => by rw [e]; exact stays_refl c p) id
  show Stays c p (match p.kind with
    | .horizontal => Panel.navHorizontal c p
    | .vertical => Panel.navVertical c p
    | .controller => Panel.navController c p
    | _ => Panel.toCurrent c p).2 ∨ Moves p (match p.kind with
    | .horizontal => Panel.navHorizontal c p
    | .vertical => Panel.navVertical c p
    | .controller => Panel.navController c p
    | _ => Panel.toCurrent c p).2
  cases p.kind with
  | plain => exact .inl hs
  | horizontal =>
    simp only [Panel.navHorizontal]
    split
    · exact .inl hs
    · rename_i hf
      have e := toCurrent_refused c p (by simpa using hf)
      rw [e]
      cases c <;> first | exact hp | exact hn | exact .inl (stays_refl _ p)
  | vertical =>
    cases c <;> first | exact hp | exact hn | exact .inl hs
  | controller =>
    simp only [Panel.navController]
    split
    · exact .inl hs
    · rename_i hf
      have e := toCurrent_refused c p (by simpa using hf)
      rw [e]
      cases c <;> first | exact hp | exact hn | exact .inl (stays_refl _ p)

theorem past_succ (f : Nat → Option Nat) (n : Nat) : past f (n + 1) = f (n + 1) :: past f n := by
  simp [past, List.range_succ]

theorem past_head (f : Nat → Option Nat) (n : Nat) : (past f n).head? = some (f n) := by
  cases n with
  | zero => simp [past]
  | succ n => rw [past_succ]; rfl

theorem left_mem (i : Nat) (l : List (Option Nat)) (h : Left i l) : some i ∈ l := by
  induction l with
  | nil => exact h.elim
  | cons x l ih =>
    rcases h with h | ⟨_, h⟩
    · exact List.mem_cons_of_mem _ (ih h)
    · exact List.mem_cons_of_mem _ h

theorem left_again (i : Nat) (x : Option Nat) (l : List (Option Nat)) (hx : l.head? = some x) : Left i (x :: l) ↔ Left i l := by
  refine ⟨?_, .inl⟩
  rintro (h | ⟨h1, h2⟩)
  · exact h
  · cases l with
    | nil => cases hx
    | cons y l =>
      simp only [List.head?_cons, Option.some.injEq] at hx
      subst hx
      rcases List.mem_cons.1 h2 with h2 | h2
      · exact absurd h2.symm h1
      · exact .inr ⟨h1, h2⟩

theorem active_iff (s : CState) : s.active = true ↔ s = .focused ∨ s = .selected := by cases s <;> simp [CState.active]

/-- Where nothing moves. -/
theorem looks_stay (s0 : CState) (h0 : s0.active = false) (i : Nat) (x : Option Nat) (l : List (Option Nat)) (hx : l.head? = some x) (s s' : CState) (h : Looks s0 i l s)
    (ha : s.active = true → s'.active = true) (hi : s.active = false → s' = s) : Looks s0 i (x :: l) s' := by
  unfold Looks at h ⊢
  simp only [left_again i x l hx]
  rw [hx] at h
  simp only [List.head?_cons] at h ⊢
  by_cases hxi : x = some i
  · subst hxi
    simp only [if_true] at h ⊢
    split
    · rename_i hc
      rw [if_pos hc] at h
      rw [← active_iff] at h ⊢
      exact ha h
    · rename_i hc
      rw [if_neg hc] at h
      rw [hi (by rw [h]; exact h0), h]
  · simp only [Option.some.injEq, hxi, if_false] at h ⊢
    have hm : some i ∈ x :: l ↔ some i ∈ l := ⟨fun h => (List.mem_cons.1 h).resolve_left (fun e => hxi e.symm), List.mem_cons_of_mem _⟩
    simp only [hm]
    split
    · rename_i hc
      rw [if_pos hc] at h
      rw [hi (by rw [h]; rfl), h]
    · rename_i hc
      rw [if_neg hc] at h
      rw [hi (by rw [h]; exact h0), h]

/-- Where the panel moves to `b`. -/
theorem looks_move (s0 : CState) (h0 : s0.active = false) (i b : Nat) (x : Option Nat) (l : List (Option Nat)) (hx : l.head? = some x) (hxb : x ≠ some b) (s s' : CState)
    (h : Looks s0 i l s)
    (hs : s' = if i = b then (if s = .disabled ∨ s = .hidden then s else .focused) else if x = some i then .normal else s) :
    Looks s0 i (some b :: l) s' := by
  unfold Looks at h ⊢
  rw [hx] at h
  simp only [List.head?_cons, Option.some.injEq] at h ⊢
  by_cases hib : i = b
  · subst hib
    simp only [if_true] at hs ⊢
    rw [if_neg hxb] at h
    by_cases hm : some i ∈ l
    · rw [if_pos hm] at h
      have hleft : Left i (some i :: l) := by
        left
        cases l with
        | nil => cases hm
        | cons y l =>
          simp only [List.head?_cons, Option.some.injEq] at hx
          subst hx
          rcases List.mem_cons.1 hm with h' | h'
          · exact absurd h'.symm hxb
          · exact .inr ⟨hxb, h'⟩
      rw [if_pos (.inr hleft), hs, h]
      simp
    · rw [if_neg hm] at h
      subst h
      have hnl : ¬ Left i (some i :: l) := by
        rintro (h' | ⟨h', _⟩)
        · exact hm (left_mem i l h')
        · exact h' rfl
      rw [hs]
      by_cases hd : s = .disabled ∨ s = .hidden
      · rw [if_pos hd, if_neg]
        rintro (⟨a, c⟩ | h')
        · rcases hd with hd | hd
          · exact a hd
          · exact c hd
        · exact hnl h'
      · rw [if_neg hd, if_pos (.inl ⟨fun e => hd (.inl e), fun e => hd (.inr e)⟩)]
        exact .inl rfl
  · have hbi : ¬ b = i := fun e => hib e.symm
    simp only [hbi, hib, if_false] at hs ⊢
    have hm : some i ∈ some b :: l ↔ some i ∈ l := by simp [hib]
    simp only [hm]
    by_cases hxi : x = some i
    · subst hxi
      have : some i ∈ l := by
        cases l with
        | nil => cases hx
        | cons y l => simp only [List.head?_cons, Option.some.injEq] at hx; subst hx; exact List.mem_cons_self
      rw [if_pos this, hs, if_pos rfl]
    · rw [if_neg hxi] at h hs
      rw [hs]
      exact h

/-- The states of a panel's children fit its past. -/
def Fits (s0 : Nat → Option CState) (l : List (Option Nat)) (p : Panel α) : Prop :=
  l.head? = some p.cur ∧ ∀ i k, p.kids[i]? = some k → ∃ s, s0 i = some s ∧ Looks s i l (state k)

theorem fits_stays [Plain α] (s0 : Nat → Option CState) (h0 : ∀ i s, s0 i = some s → s.active = false) (l : List (Option Nat)) (c : Nav) (p q : Panel α)
    (h : Fits s0 l p) (hq : Stays c p q) : Fits s0 (q.cur :: l) q := by
  refine ⟨rfl, fun i k' hk' => ?_⟩
  obtain ⟨hc, hq⟩ := hq
  obtain ⟨k, hk, hkk⟩ := hq i k' hk'
  obtain ⟨s, hs, hl⟩ := h.2 i k hk
  refine ⟨s, hs, ?_⟩
  rw [hc]
  refine looks_stay s (h0 i s hs) i p.cur l h.1 (state k) (state k') hl ?_ ?_
  · intro ha
    rcases hkk with rfl | ⟨_, rfl⟩
    · exact ha
    · exact Plain.active c k ha
  · intro ha
    rcases hkk with rfl | ⟨_, rfl⟩
    · rfl
    · exact Plain.inactive c k ha

theorem fits_moves [Plain α] (s0 : Nat → Option CState) (h0 : ∀ i s, s0 i = some s → s.active = false) (l : List (Option Nat)) (p q : Panel α)
    (h : Fits s0 l p) (hq : Moves p q) : Fits s0 (q.cur :: l) q := by
  refine ⟨rfl, fun i k' hk' => ?_⟩
  obtain ⟨b, hb, hcb, ⟨kb, hkb, hib⟩, hq⟩ := hq
  obtain ⟨k, hk, hkk⟩ := hq i k' hk'
  obtain ⟨s, hs, hl⟩ := h.2 i k hk
  refine ⟨s, hs, ?_⟩
  rw [hb]
  refine looks_move s (h0 i s hs) i b p.cur l h.1 hcb (state k) (state k') hl ?_
  rw [hkk]
  by_cases h1 : i = b
  · subst h1
    have e : k = kb := Option.some.inj (hk.symm.trans hkb)
    subst e
    rw [if_pos rfl, if_pos rfl]
    exact Plain.focus k hib
  · rw [if_neg h1, if_neg h1]
    split
    · exact Plain.normal k
    · rfl

theorem fits_start (p : Panel α) (h0 : p.cur = none) : Fits (fun i => (p.kids[i]?).map state) [none] p := by
  refine ⟨by rw [h0]; rfl, fun i k hk => ⟨state k, by simp [hk], ?_⟩⟩
  simp [Looks]

theorem moved_lines (p : Panel (Panel α)) (h : ∀ l ∈ p.kids, Single l) :
    (∀ (a : Nat) (l' : Panel α), (Panel.setNext p).2.kids[a]? = some l' → ∃ l : Panel α, p.kids[a]? = some l ∧ l.kids = l'.kids ∧ l.cur = l'.cur) ∧
    (∀ (a : Nat) (l' : Panel α), (Panel.setPrevious p).2.kids[a]? = some l' → ∃ l : Panel α, p.kids[a]? = some l ∧ l.kids = l'.kids ∧ l.cur = l'.cur) ∧
    ((Panel.setNext p).1 = false → (Panel.setNext p).2 = p) ∧ ((Panel.setPrevious p).1 = false → (Panel.setPrevious p).2 = p) := by
  unfold Panel.setNext Panel.setPrevious
  refine ⟨?_, ?_, ?_, ?_⟩
  · split
    · exact (setCurrent_lines p _ h).2
    · exact fun a l' hl => ⟨l', hl, rfl, rfl⟩
  · split
    · exact (setCurrent_lines p _ h).2
    · exact fun a l' hl => ⟨l', hl, rfl, rfl⟩
  · split
    · intro h; cases h
    · exact fun _ => rfl
  · split
    · intro h; cases h
    · exact fun _ => rfl

/-- What a command does to a line of a page. -/
theorem line_step (c : Nav) (p : Page α) (h : ∀ l ∈ p.panel.kids, Single l) (a : Nat) (l' : Panel α) (hl : (nav c p).2.panel.kids[a]? = some l') :
    ∃ l, p.panel.kids[a]? = some l ∧ ((l.kids = l'.kids ∧ l.cur = l'.cur) ∨ l' = (nav c l).2) := by
  have hc : ∀ l', (Panel.toCurrent c p.panel).2.kids[a]? = some l' → ∃ l, p.panel.kids[a]? = some l ∧ ((l.kids = l'.kids ∧ l.cur = l'.cur) ∨ l' = (nav c l).2) := by
    intro l' hl
    obtain ⟨l, h1, h2⟩ := (stays_toCurrent c p.panel).2 a l' hl
    rcases h2 with rfl | ⟨_, h2⟩
    · exact ⟨l', h1, .inl ⟨rfl, rfl⟩⟩
    · exact ⟨l, h1, .inr h2⟩
  obtain ⟨hn, hp, hn0, hp0⟩ := moved_lines p.panel h
  change (Panel.navPage Page.editing c p.panel).2.kids[a]? = some l' at hl
  have move : ∀ r : Bool × Panel (Panel α), (∀ (a : Nat) (l' : Panel α), r.2.kids[a]? = some l' → ∃ l : Panel α, p.panel.kids[a]? = some l ∧ l.kids = l'.kids ∧ l.cur = l'.cur) →
      (r.1 = false → r.2 = p.panel) → (if r.1 = true then (true, r.2) else Panel.toCurrent c r.2).2.kids[a]? = some l' →
      ∃ l, p.panel.kids[a]? = some l ∧ ((l.kids = l'.kids ∧ l.cur = l'.cur) ∨ l' = (nav c l).2) := by
    intro r h1 h2 h3
    cases hr : r.1 with
    | true =>
      rw [hr, if_pos rfl] at h3
      obtain ⟨l, e1, e2⟩ := h1 a l' h3
      exact ⟨l, e1, .inl e2⟩
    | false =>
      rw [hr, if_neg (by decide), h2 hr] at h3
      exact hc l' h3
  have stay : ∀ (a : Nat) (l' : Panel α), p.panel.kids[a]? = some l' → ∃ l : Panel α, p.panel.kids[a]? = some l ∧ l.kids = l'.kids ∧ l.cur = l'.cur :=
    fun a l' hl => ⟨l', hl, rfl, rfl⟩
  unfold Panel.navPage at hl
  cases c <;> simp only at hl
  case up =>
    refine move _ ?_ ?_ hl
    · split
      · exact stay
      · exact hp
    · split
      · exact fun _ => rfl
      · exact hp0
  case down =>
    refine move _ ?_ ?_ hl
    · split
      · exact stay
      · exact hn
    · split
      · exact fun _ => rfl
      · exact hn0
  all_goals exact hc l' hl

end Visit
open Visit

/-- **C49, exactly.** Any panel of up to 255 controls that are not panels, none of them active and the panel nowhere at first, any history of navigation commands, any moment
    `n`: the state of every control is told by where the panel has been. A disabled or hidden control is left alone until the panel, having come to it, moves on: that makes it
    normal, and from the next visit on it gets the focus. -/
theorem c49_exact {α : Type} [Control α] [Plain α] (p : Panel α) (hl : p.kids.length ≤ 255) (h0 : p.cur = none) (hk : ∀ k ∈ p.kids, (state k).active = false)
    (cs : List Nav) (n i : Nat) (k0 k : α) (hi : p.kids[i]? = some k0) (h : (navs (cs.take n) p).kids[i]? = some k) :
    Looks (state k0) i (past (fun m => (navs (cs.take m) p).cur) n) (state k) := by
  have key : ∀ n, LongPanel.Inv (navs (cs.take n) p) ∧
      Fits (fun i => (p.kids[i]?).map state) (past (fun m => (navs (cs.take m) p).cur) n) (navs (cs.take n) p) := by
    intro n
    induction n with
    | zero =>
      refine ⟨⟨c51_start p h0 hk, fun i hi => absurd (h0.symm.trans hi) (by simp), hl⟩, ?_⟩
      have := fits_start p h0
      have e : past (fun m => (navs (cs.take m) p).cur) 0 = [none] := by
        show [(navs (cs.take 0) p).cur] = _
        rw [List.take_zero]
        show [p.cur] = _
        rw [h0]
      rw [e, List.take_zero]
      exact this
    | succ n ih =>
      rw [past_succ]
      have hact : ∀ (i : Nat) (s : CState), (p.kids[i]?).map (state : α → CState) = some s → s.active = false := by
        intro i s hs
        obtain ⟨k, hk', rfl⟩ := Option.map_eq_some_iff.1 hs
        exact hk k (List.mem_of_getElem? hk')
      by_cases hn : n < cs.length
      · have e : navs (cs.take (n + 1)) p = (nav cs[n] (navs (cs.take n) p)).2 := by
          rw [List.take_succ_eq_append_getElem hn]
          simp only [navs, List.foldl_append]
          rfl
        rw [e]
        refine ⟨LongPanel.inv_nav _ _ ih.1, ?_⟩
        rcases nav_or cs[n] _ ih.1 with hs | hm
        · exact fits_stays _ hact _ _ _ _ ih.2 hs
        · exact fits_moves _ hact _ _ _ ih.2 hm
      · have e : cs.take (n + 1) = cs.take n := by rw [List.take_of_length_le (by omega), List.take_of_length_le (by omega)]
        rw [e]
        exact ⟨ih.1, fits_stays _ hact _ .none _ _ ih.2 (stays_refl _ _)⟩
  obtain ⟨s, hs, hlk⟩ := (key n).2.2 i k h
  simp only [hi, Option.map_some, Option.some.injEq] at hs
  rw [hs]
  exact hlk

/-- Three controls, the middle one hidden: to it, on, and back to it. -/
example := c49_exact ({ kind := .horizontal, kids := [{}, { st := .hidden }, {}] } : Panel Input) (by decide) rfl (by decide) [.right, .right, .right, .left, .enter] 4 1
  { st := .hidden } { st := .focused } rfl (by decide +kernel)

/-- What the theorem says there: after 2 commands it is being visited for the first time and still hidden, after 3 it has been left and is normal, after 4 it has been left and
    is visited again. -/
example : let at' := fun m => (navs (([.right, .right, .right, .left, .enter] : List Nav).take m) ({ kind := .horizontal, kids := [{}, { st := .hidden }, {}] } : Panel Input)).cur
    past at' 2 = [some 1, some 0, none] ∧ ¬ Left 1 (past at' 2) ∧ past at' 3 = [some 2, some 1, some 0, none] ∧ Left 1 (past at' 4) ∧
    Looks .hidden 1 (past at' 2) .hidden ∧ Looks .hidden 1 (past at' 3) .normal ∧ Looks .hidden 1 (past at' 4) .focused ∧ ¬ Looks .hidden 1 (past at' 4) .hidden := by
  decide +kernel

/-- **C52, exactly.** Any page, its lines of up to 255 controls, none of them active and each line nowhere at first, any history of commands, any moment `n`: the state of
    every control is told by where its own line has been, whatever the other lines do. So every line the user has moved on keeps one active control, unless that is
    disabled or hidden and visited for the first time. -/
theorem c52_exact {α : Type} [Control α] [Plain α] (p : Page α)
    (hp : ∀ l ∈ p.panel.kids, l.kids.length ≤ 255 ∧ l.cur = none ∧ ∀ k ∈ l.kids, (state k).active = false)
    (cs : List Nav) (n a i : Nat) (k0 k : α) (hi : Page.At p a i k0) (h : Page.At (navs (cs.take n) p) a i k) :
    Looks (state k0) i (past (fun m => ((navs (cs.take m) p).panel.kids[a]?).bind Panel.cur) n) (state k) := by
  obtain ⟨l0, hl0, hi⟩ := hi
  obtain ⟨l, hl, h⟩ := h
  have key : ∀ (n a : Nat) (l : Panel α), (navs (cs.take n) p).panel.kids[a]? = some l → ∃ l0 : Panel α, p.panel.kids[a]? = some l0 ∧ LongPanel.Inv l ∧
      Fits (fun i => (l0.kids[i]?).map state) (past (fun m => ((navs (cs.take m) p).panel.kids[a]?).bind Panel.cur) n) l := by
    intro n
    induction n with
    | zero =>
      intro a l hl
      rw [List.take_zero] at hl
      change p.panel.kids[a]? = some l at hl
      obtain ⟨h1, h2, h3⟩ := hp l (List.mem_of_getElem? hl)
      refine ⟨l, hl, ⟨c51_start l h2 h3, fun i hi => absurd (h2.symm.trans hi) (by simp), h1⟩, ?_⟩
      have e : past (fun m => ((navs (cs.take m) p).panel.kids[a]?).bind Panel.cur) 0 = [none] := by
        show [((navs (cs.take 0) p).panel.kids[a]?).bind Panel.cur] = _
        rw [List.take_zero]
        show [(p.panel.kids[a]?).bind Panel.cur] = _
        rw [hl]
        show [l.cur] = _
        rw [h2]
      rw [e]
      exact fits_start l h2
    | succ n ih =>
      intro a l hl
      rw [past_succ, hl]
      show ∃ l0, _ ∧ _ ∧ Fits _ (l.cur :: _) l
      have hact : ∀ l0 : Panel α, p.panel.kids[a]? = some l0 → ∀ (i : Nat) (s : CState), (l0.kids[i]?).map (state : α → CState) = some s → s.active = false := by
        intro l0 hl0 i s hs
        obtain ⟨k, hk', rfl⟩ := Option.map_eq_some_iff.1 hs
        exact (hp l0 (List.mem_of_getElem? hl0)).2.2 k (List.mem_of_getElem? hk')
      by_cases hn : n < cs.length
      · have e : navs (cs.take (n + 1)) p = (nav cs[n] (navs (cs.take n) p)).2 := by
          rw [List.take_succ_eq_append_getElem hn]
          simp only [navs, List.foldl_append]
          rfl
        rw [e] at hl
        have hs : ∀ l ∈ (navs (cs.take n) p).panel.kids, Single l := by
          intro l hl
          obtain ⟨a, ha⟩ := List.mem_iff_getElem?.1 hl
          obtain ⟨_, _, hinv, _⟩ := ih a l ha
          exact hinv.1
        obtain ⟨m, hm, hstep⟩ := line_step cs[n] _ hs a l hl
        obtain ⟨l0, e0, hinv, hf⟩ := ih a m hm
        refine ⟨l0, e0, ?_⟩
        rcases hstep with ⟨h1, h2⟩ | rfl
        · refine ⟨?_, ?_⟩
          · obtain ⟨i1, i2, i3⟩ := hinv
            unfold Single at i1
            unfold LongPanel.Low at i2
            rw [h1, h2] at i1
            rw [h2] at i2
            rw [h1] at i3
            exact ⟨i1, i2, i3⟩
          · refine fits_stays _ (hact l0 e0) _ .none m l hf ⟨h2.symm, fun j k' hk' => ⟨k', ?_, .inl rfl⟩⟩
            rw [h1]; exact hk'
        · refine ⟨LongPanel.inv_nav _ _ hinv, ?_⟩
          rcases nav_or cs[n] _ hinv with hs | hm
          · exact fits_stays _ (hact l0 e0) _ _ _ _ hf hs
          · exact fits_moves _ (hact l0 e0) _ _ _ hf hm
      · have e : cs.take (n + 1) = cs.take n := by rw [List.take_of_length_le (by omega), List.take_of_length_le (by omega)]
        rw [e] at hl
        obtain ⟨l0, e0, hinv, hf⟩ := ih a l hl
        exact ⟨l0, e0, hinv, fits_stays _ (hact l0 e0) _ .none _ _ hf (stays_refl _ _)⟩
  obtain ⟨l1, e1, _, hf⟩ := key n a l hl
  have e : l1 = l0 := Option.some.inj (e1.symm.trans hl0)
  subst e
  obtain ⟨s, hs, hlk⟩ := hf.2 i k h
  simp only [hi, Option.map_some, Option.some.injEq] at hs
  rw [hs]
  exact hlk

example (k : Input) (h : Page.At (navs (([.down, .right, .down, .right] : List Nav).take 4) twoLines) 0 0 k) : k.st = .focused ∨ k.st = .selected := by
  have := c52_exact twoLines (by decide) [.down, .right, .down, .right] 4 0 0 {} k ⟨_, rfl, rfl⟩ h
  have e : past (fun m => ((navs (([.down, .right, .down, .right] : List Nav).take m) twoLines).panel.kids[0]?).bind Panel.cur) 4 =
      [some 0, some 0, some 0, none, none] := by decide +kernel
  rw [e] at this
  exact this

end Atl.Props
