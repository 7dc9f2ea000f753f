import Verif.Props.UIEdit

/- Property theorems C51, all panels: which children the moves visit when there are more than 128 of them. -/
namespace Atl.Props
open Atl.UI Atl.UI.Control Atl.Spec.UI

namespace LongPanel
variable {α : Type} [Control α]

theorem scanUp_low (kids : List α) (f i : Nat) (hi : i ≤ 127) (j : Nat) (h : Panel.scanUp kids tInput f i = some j) : j ≤ 127 := by
  induction f generalizing i with
  | zero => simp [Panel.scanUp] at h
  | succ f ih =>
    rw [Panel.scanUp] at h
    split at h
    · simp only [Int.toNat_natCast] at h
      cases hc : dynamicCast kids[i]? tInput with
      | some x =>
        rw [hc] at h
        simp only [Option.some.injEq] at h
        omega
      | none =>
        rw [hc] at h
        by_cases h127 : i = 127
        · subst h127
          have : toS 8 (((127 : Nat) : Int) + 1) = -128 := by decide +kernel
          simp only [this] at h
          cases f <;> simp [Panel.scanUp] at h
        · have he : toS 8 ((i : Int) + 1) = ((i + 1 : Nat) : Int) := by
            rw [Panel.toS8_small _ (by omega)]; omega
          simp only [he] at h
          exact ih (i + 1) (by omega) h
    · simp at h

theorem scanUp_none (kids : List α) (f i : Nat) (hi : i ≤ 127) (hf : 128 < f + i) (h : Panel.scanUp kids tInput f i = none) :
    ∀ m, i ≤ m → m < 128 → ¬ Panel.IsInput kids m := by
  induction f generalizing i with
  | zero => omega
  | succ f ih =>
    rw [Panel.scanUp] at h
    split at h
    · have hin := Panel.cast_some kids i
      simp only [Int.toNat_natCast] at h
      cases hc : dynamicCast kids[i]? tInput with
      | some x => rw [hc] at h; simp at h
      | none =>
        rw [hc] at h hin
        have hno : ¬ Panel.IsInput kids i := fun hx => by
          obtain ⟨x, hx⟩ := hin.2 hx
          cases hx
        intro m hm hm2
        by_cases hm' : m = i
        · exact hm' ▸ hno
        · have he : toS 8 ((i : Int) + 1) = ((i + 1 : Nat) : Int) := by
            rw [Panel.toS8_small _ (by omega)]; omega
          simp only [he] at h
          exact ih (i + 1) (by omega) (by omega) h m (by omega) hm2
    · rintro m hm _ ⟨k, hk, _⟩
      have := (List.getElem?_eq_some_iff.1 hk).1
      omega

/-- An input control among the first 128 children: those whose index an `int8_t` can hold. -/
def Reachable (kids : List α) (i : Nat) : Prop := i < 128 ∧ Panel.IsInput kids i

theorem indexOf_low (p : Panel α) (c : Nat) (hc : p.cur = some c) (h : c < 128) : p.indexOf = (c : Int) := by
  unfold Panel.indexOf
  rw [hc]
  exact Panel.toS8_small _ (by omega)

end LongPanel

open LongPanel
variable {α : Type} [Control α]

/-- **C51.** Moving forward, panels of any size: it goes to the next input control among the first 128 children, skipping none of them, and otherwise changes
    nothing. Children from the 129th on are never visited. -/
theorem c51_next_exact (p : Panel α) (hv : ∀ i, p.cur = some i → i < 128) :
    (∃ i, FirstAfter (Reachable p.kids) p.cur i ∧ Panel.setNext p = (true, Panel.setCurrent (some i) p)) ∨
    ((∀ i, (∀ c, p.cur = some c → c < i) → ¬ Reachable p.kids i) ∧ Panel.setNext p = (false, p)) := by
  unfold Panel.setNext
  cases hc : p.cur with
  | none =>
    have hidx : p.indexOf = -1 := by unfold Panel.indexOf; rw [hc]
    rw [hidx]
    by_cases hlen : p.kids.length = 0
    · right
      have hnil : p.kids = [] := List.length_eq_zero_iff.1 hlen
      refine ⟨?_, ?_⟩
      · rintro i _ ⟨_, k, hk, _⟩
        rw [hnil] at hk; simp at hk
      · simp [Panel.getNext, hnil, Panel.scanUp]
    · have he : Panel.getNext p (-1) tInput = Panel.scanUp p.kids tInput 200 ((0 : Nat) : Int) := by
        simp [Panel.getNext, Nat.pos_of_ne_zero hlen]
      rw [he]
      cases hs : Panel.scanUp p.kids tInput 200 ((0 : Nat) : Int) with
      | some i =>
        left
        obtain ⟨h1, h2, h3⟩ := Panel.scanUp_some p.kids 200 0 (by omega) i hs
        have h4 := scanUp_low p.kids 200 0 (by omega) i hs
        refine ⟨i, ⟨⟨by omega, h2⟩, ?_, fun j hj _ hx => h3 j (by omega) hj hx.2⟩, rfl⟩
        intro c hx; cases hx
      | none =>
        right
        have := scanUp_none p.kids 200 0 (by omega) (by omega) hs
        exact ⟨fun i _ hx => this i (by omega) hx.1 hx.2, rfl⟩
  | some c =>
    have hcl := hv c hc
    rw [indexOf_low p c hc hcl]
    have hne : (c : Int) ≠ -1 := by omega
    by_cases h127 : c = 127
    · right
      subst h127
      have ht : toS 8 (((127 : Nat) : Int) + 1) = -128 := by decide +kernel
      refine ⟨?_, ?_⟩
      · rintro i hi ⟨h1, _⟩
        have h2 := hi _ rfl
        omega
      · unfold Panel.getNext
        simp only [if_pos hne, ht]
        rw [Panel.scanUp, if_neg (by omega)]
    · have he : Panel.getNext p (c : Int) tInput = Panel.scanUp p.kids tInput 200 ((c + 1 : Nat) : Int) := by
        unfold Panel.getNext
        simp only [if_pos hne]
        rw [Panel.toS8_small _ (by omega)]
        congr 1
      rw [he]
      cases hs : Panel.scanUp p.kids tInput 200 ((c + 1 : Nat) : Int) with
      | some i =>
        left
        obtain ⟨h1, h2, h3⟩ := Panel.scanUp_some p.kids 200 (c + 1) (by omega) i hs
        have h4 := scanUp_low p.kids 200 (c + 1) (by omega) i hs
        refine ⟨i, ⟨⟨by omega, h2⟩, ?_, ?_⟩, rfl⟩
        · intro d hd; cases hd; omega
        · intro j hj hd hx
          exact h3 j (hd c rfl) hj hx.2
      | none =>
        right
        have := scanUp_none p.kids 200 (c + 1) (by omega) (by omega) hs
        exact ⟨fun i hi hx => this i (hi c rfl) hx.1 hx.2, rfl⟩

example := c51_next_exact ({ kind := .horizontal, cur := some 100, kids := List.replicate 200 {} } : Panel Input) (by simp)

/-- **C51.** Moving back from a current control, panels of any size: it goes to the input control before it, skipping none, and changes nothing when there
    is none. -/
theorem c51_previous_exact (p : Panel α) (c : Nat) (hc : p.cur = some c) (hv : c < 128) (hcl : c < p.kids.length) :
    (∃ i, LastBefore (Panel.IsInput p.kids) p.cur i ∧ Panel.setPrevious p = (true, Panel.setCurrent (some i) p)) ∨
    ((∀ i, i < c → ¬ Panel.IsInput p.kids i) ∧ Panel.setPrevious p = (false, p)) := by
  unfold Panel.setPrevious
  rw [indexOf_low p c hc hv, hc]
  have hne : (c : Int) ≠ -1 := by omega
  cases c with
  | zero =>
    right
    have ht : toS 8 (((0 : Nat) : Int) - 1) = -1 := by decide +kernel
    refine ⟨fun i hi => by omega, ?_⟩
    unfold Panel.getPrevious
    simp only [if_pos hne, ht]
    rw [Panel.scanDown, if_neg (by omega)]
  | succ c =>
    have he : Panel.getPrevious p ((c + 1 : Nat) : Int) tInput = Panel.scanDown p.kids tInput 200 (c : Int) := by
      unfold Panel.getPrevious
      simp only [if_pos hne]
      rw [Panel.toS8_small _ (by omega)]
      congr 1
      omega
    rw [he]
    cases hs : Panel.scanDown p.kids tInput 200 (c : Int) with
    | some i =>
      left
      obtain ⟨h1, h2, h3⟩ := Panel.scanDown_some p.kids 200 c (by omega) (by omega) i hs
      refine ⟨i, ⟨h2, ?_, ?_⟩, rfl⟩
      · intro d hd; cases hd; omega
      · intro j hj hd
        have := hd _ rfl
        exact h3 j (by omega) hj
    | none =>
      right
      have := Panel.scanDown_none p.kids 200 c (by omega) (by omega) (by omega) hs
      exact ⟨fun i hi => this i (by omega), rfl⟩

example := c51_previous_exact ({ kind := .horizontal, cur := some 100, kids := List.replicate 200 {} } : Panel Input) 100 rfl (by decide) (by rw [List.length_replicate]; decide)

namespace LongPanel

/-- The current control is none or one of the first 128 children. -/
def Low (p : Panel α) : Prop := ∀ i, p.cur = some i → i < 128

theorem low_next (p : Panel α) (h : Low p) : Low (Panel.setNext p).2 := by
  rcases c51_next_exact p h with ⟨i, h1, h2⟩ | ⟨_, h2⟩
  · rw [h2]
    intro j hj
    rw [Panel.setCurrent_cur, Option.some.injEq] at hj
    exact hj ▸ h1.1.1
  · rw [h2]; exact h

theorem low_previous (p : Panel α) (hl : p.kids.length ≤ 255) (hs : Single p) (h : Low p) : Low (Panel.setPrevious p).2 := by
  cases hc : p.cur with
  | none =>
    by_cases h128 : p.kids.length ≤ 128
    · rcases c51_previous_partial p h128 (by simp [hc]) with ⟨i, h1, h2⟩ | ⟨_, h2⟩
      · rw [h2]
        intro j hj
        rw [Panel.setCurrent_cur, Option.some.injEq] at hj
        subst hj
        obtain ⟨⟨k, hk, _⟩, _⟩ := h1
        have := (List.getElem?_eq_some_iff.1 hk).1
        omega
      · rw [h2]; exact h
    · rw [(c51_long_fails p ⟨by omega, hl⟩).2 hc]; exact h
  | some c =>
    have hcl : c < p.kids.length := by
      obtain ⟨k, hk, _⟩ := hs.1 c hc
      exact (List.getElem?_eq_some_iff.1 hk).1
    rcases c51_previous_exact p c hc (h c hc) hcl with ⟨i, h1, h2⟩ | ⟨_, h2⟩
    · rw [h2]
      intro j hj
      rw [Panel.setCurrent_cur, Option.some.injEq] at hj
      subst hj
      have := h1.2.1 c hc
      have := h c hc
      omega
    · rw [h2]; exact h

theorem low_toCurrent (c : Nav) (p : Panel α) (h : Low p) : Low (Panel.toCurrent c p).2 := by
  intro i hi
  rw [(toCurrent_cur c p).1] at hi
  exact h i hi

theorem toCurrent_length (c : Nav) (p : Panel α) : (Panel.toCurrent c p).2.kids.length = p.kids.length := by
  unfold Panel.toCurrent
  split
  · split
    · simp
    · rfl
  · rfl

theorem setNext_length (p : Panel α) : (Panel.setNext p).2.kids.length = p.kids.length := by
  unfold Panel.setNext
  split
  · exact length_setCurrent p _
  · rfl

theorem setPrevious_length (p : Panel α) : (Panel.setPrevious p).2.kids.length = p.kids.length := by
  unfold Panel.setPrevious
  split
  · exact length_setCurrent p _
  · rfl

/-- What stays true during navigation. -/
def Inv (p : Panel α) : Prop := Single p ∧ Low p ∧ p.kids.length ≤ 255

theorem inv_next [Lawful α] (p : Panel α) (h : Inv p) : Inv (Panel.setNext p).2 :=
  ⟨single_setNext p h.1, low_next p h.2.1, by rw [setNext_length]; exact h.2.2⟩

theorem inv_previous [Lawful α] (p : Panel α) (h : Inv p) : Inv (Panel.setPrevious p).2 :=
  ⟨single_setPrevious p h.1, low_previous p h.2.2 h.1 h.2.1, by rw [setPrevious_length]; exact h.2.2⟩

theorem inv_toCurrent [Lawful α] (c : Nav) (p : Panel α) (h : Inv p) : Inv (Panel.toCurrent c p).2 :=
  ⟨single_toCurrent c p h.1, low_toCurrent c p h.2.1, by rw [toCurrent_length]; exact h.2.2⟩

theorem inv_nav [Lawful α] (c : Nav) (p : Panel α) (h : Inv p) : Inv (nav c p).2 := by
  have hc := inv_toCurrent c p h
  show Inv (match p.kind with
    | .horizontal => Panel.navHorizontal c p
    | .vertical => Panel.navVertical c p
    | .controller => Panel.navController c p
    | _ => Panel.toCurrent c p).2
  cases p.kind with
  | plain => exact hc
  | horizontal =>
    simp only [Panel.navHorizontal]
    split
    · exact hc
    · cases c <;> first | exact hc | exact inv_previous _ hc | exact inv_next _ hc
  | vertical =>
    cases c <;> first | exact hc | exact inv_previous _ h | exact inv_next _ h
  | controller =>
    simp only [Panel.navController]
    split
    · exact hc
    · cases c <;> first | exact hc | exact inv_previous _ hc | exact inv_next _ hc

end LongPanel

/-- **C51 fails** beyond 128 children, exactly: whatever the user does, no child from the 129th on ever becomes current, and so none of them is ever focused
    or selected. -/
theorem c51_unreached_fails [Lawful α] (p : Panel α) (hl : p.kids.length ≤ 255) (h0 : p.cur = none) (hk : ∀ k ∈ p.kids, (state k).active = false)
    (cs : List Nav) :
    (∀ i, (navs cs p).cur = some i → i < 128) ∧
    ∀ i k, (navs cs p).kids[i]? = some k → 128 ≤ i → (state k).active = false := by
  have key : ∀ (cs : List Nav) (q : Panel α), Inv q → Inv (navs cs q) := by
    intro cs
    induction cs with
    | nil => intro q h; exact h
    | cons c cs ih => intro q h; exact ih _ (inv_nav c q h)
  have h := key cs p ⟨c51_start p h0 hk, ⟨fun i hi => absurd (h0.symm.trans hi) (by simp), hl⟩⟩
  refine ⟨h.2.1, fun i k hik hi => ?_⟩
  cases ha : (state k).active with
  | false => rfl
  | true =>
    have := h.2.1 i (h.1.2 i k hik ha)
    omega

theorem LongPanel.mem_lows (kids : List α) (i : Nat) : i ∈ inputs (kids.take 128) ↔ Reachable kids i := by
  rw [mem_inputs]
  unfold Panel.IsInput Reachable Panel.IsInput
  rw [List.getElem?_take]
  by_cases h : i < 128 <;> simp [h]

theorem LongPanel.lows_setCurrent [Lawful α] (q : Panel α) (i : Nat) :
    inputs ((Panel.setCurrent (some i) q).kids.take 128) = inputs (q.kids.take 128) := by
  refine inputs_congr _ _ (by rw [List.length_take, List.length_take, length_setCurrent]) fun j => ?_
  rw [← mem_inputs, ← mem_inputs, LongPanel.mem_lows, LongPanel.mem_lows]
  unfold Reachable
  rw [isInput_setCurrent]

/-- **C51, exact.** On a line where nothing is being edited, Right visits the input controls among the first 128 children one by one in order: after `n` times
    the current control is the `n`-th of them, and it stays on the last. -/
theorem c51_visits_exact [Leaf α] (p : Panel α) (hk : p.kind = .horizontal) (h0 : p.cur = none)
    (hs : ∀ k ∈ p.kids, state k ≠ .selected) (n : Nat) :
    (navs (List.replicate (n + 1) .right) p).cur =
      (inputs (p.kids.take 128))[min n ((inputs (p.kids.take 128)).length - 1)]? := by
  have key : ∀ (n : Nat) (q : Panel α), q.kind = .horizontal → (∀ k ∈ q.kids, state k ≠ .selected) →
      (∀ m : Nat, (inputs (q.kids.take 128))[m]? = q.cur → q.cur ≠ none → (navs (List.replicate n .right) q).cur = (inputs (q.kids.take 128))[min (m + n) ((inputs (q.kids.take 128)).length - 1)]?) ∧
      (q.cur = none → (navs (List.replicate (n + 1) .right) q).cur = (inputs (q.kids.take 128))[min n ((inputs (q.kids.take 128)).length - 1)]?) := by
    intro n
    have step : ∀ q : Panel α, q.kind = .horizontal → (∀ k ∈ q.kids, state k ≠ .selected) → nav .right q = Panel.setNext q := by
      intro q hk hs
      have : nav .right q = Panel.navHorizontal .right q := by show (match q.kind with
        | .horizontal => Panel.navHorizontal .right q
        | .vertical => Panel.navVertical .right q
        | .controller => Panel.navController .right q
        | _ => Panel.toCurrent .right q) = _
                                                               rw [hk]
      rw [this, Panel.navHorizontal, toCurrent_idle q hs .right (by simp)]
      simp
    have one : ∀ (n : Nat) (q : Panel α), q.kind = .horizontal → (∀ k ∈ q.kids, state k ≠ .selected) →
        ∀ m : Nat, (inputs (q.kids.take 128))[m]? = q.cur → q.cur ≠ none →
          (navs (List.replicate n .right) q).cur = (inputs (q.kids.take 128))[min (m + n) ((inputs (q.kids.take 128)).length - 1)]? := by
      intro n
      induction n with
      | zero =>
        intro q _ _ m hm hne
        show q.cur = _
        rw [← hm]
        have : m < (inputs (q.kids.take 128)).length := by
          by_contra hx
          rw [List.getElem?_eq_none (by omega)] at hm
          exact hne hm.symm
        congr 1
        omega
      | succ n ih =>
        intro q hk hs m hm hne
        obtain ⟨a, ha⟩ : ∃ a, q.cur = some a := by
          cases hq : q.cur with
          | none => exact absurd hq hne
          | some a => exact ⟨a, rfl⟩
        rw [ha] at hm
        have hain : a ∈ inputs (q.kids.take 128) := List.mem_of_getElem? hm
        have hval : ∀ i, q.cur = some i → i < 128 := by
          intro i hi
          rw [ha] at hi
          cases hi
          exact ((mem_lows q.kids a).1 hain).1
        have hrun : navs (List.replicate (n + 1) .right) q = navs (List.replicate n .right) (nav .right q).2 := rfl
        rw [hrun, step q hk hs]
        rcases c51_next_exact q hval with ⟨i, hf, he⟩ | ⟨hno, he⟩
        · rw [he]
          have hf' : FirstAfter (· ∈ inputs (q.kids.take 128)) (some a) i := by
            obtain ⟨f1, f2, f3⟩ := hf
            rw [ha] at f2 f3
            exact ⟨(mem_lows _ _).2 f1, f2, fun j hj hc hm => f3 j hj hc ((mem_lows _ _).1 hm)⟩
          have hnext := firstAfter_next _ (inputs_sorted (q.kids.take 128)) m a i hm hf'
          have hin : inputs ((Panel.setCurrent (some i) q).kids.take 128) = inputs (q.kids.take 128) :=
            lows_setCurrent q i
          have := ih (Panel.setCurrent (some i) q) (by rw [Panel.setCurrent_kind, hk]) 
            (notSelected_setCurrent q hs i) (m + 1) (by rw [hin, Panel.setCurrent_cur, hnext]) (by rw [Panel.setCurrent_cur]; simp)
          rw [this, hin]
          congr 2
          omega
        · rw [he]
          have hlast : m + 1 = (inputs (q.kids.take 128)).length := by
            have hmlt := (List.getElem?_eq_some_iff.1 hm).1
            by_contra hx
            have hlt : m + 1 < (inputs (q.kids.take 128)).length := by omega
            have hsort := List.pairwise_iff_getElem.1 (inputs_sorted (q.kids.take 128)) m (m + 1) hmlt hlt (by omega)
            obtain ⟨_, hea⟩ := List.getElem?_eq_some_iff.1 hm
            refine hno (inputs (q.kids.take 128))[m + 1] ?_ ((mem_lows _ _).1 (List.getElem_mem hlt))
            intro c hc
            rw [ha] at hc
            cases hc
            rw [← hea]; exact hsort
          have := ih q hk hs m (by rw [ha, hm]) hne
          rw [this]
          congr 1
          omega
    intro q hk hs
    refine ⟨one n q hk hs, fun h0 => ?_⟩
    have hrun : navs (List.replicate (n + 1) .right) q = navs (List.replicate n .right) (nav .right q).2 := rfl
    rw [hrun, step q hk hs]
    rcases c51_next_exact q (by intro i hi; rw [h0] at hi; cases hi) with ⟨i, hf, he⟩ | ⟨hno, he⟩
    · rw [he]
      have hf' : FirstAfter (· ∈ inputs (q.kids.take 128)) none i := by
        obtain ⟨f1, f2, f3⟩ := hf
        rw [h0] at f2 f3
        exact ⟨(mem_lows _ _).2 f1, f2, fun j hj hc hm => f3 j hj hc ((mem_lows _ _).1 hm)⟩
      have hnext := firstAfter_start _ (inputs_sorted (q.kids.take 128)) i hf'
      have hin : inputs ((Panel.setCurrent (some i) q).kids.take 128) = inputs (q.kids.take 128) :=
        lows_setCurrent q i
      have := one n (Panel.setCurrent (some i) q) (by rw [Panel.setCurrent_kind, hk]) 
        (notSelected_setCurrent q hs i) 0 (by rw [hin, Panel.setCurrent_cur, hnext]) (by rw [Panel.setCurrent_cur]; simp)
      rw [this, hin]
      congr 2
      omega
    · rw [he]
      have hemp : inputs (q.kids.take 128) = [] := by
        rw [List.eq_nil_iff_forall_not_mem]
        intro i hi
        exact hno i (by intro c hc; rw [h0] at hc; cases hc) ((mem_lows _ _).1 hi)
      rw [hemp]
      simp only [List.getElem?_nil]
      clear hrun he hno
      induction n with
      | zero => exact h0
      | succ n ih =>
        have : navs (List.replicate (n + 1) .right) q = navs (List.replicate n .right) (nav .right q).2 := rfl
        rw [this, step q hk hs]
        rcases c51_next_exact q (by intro i hi; rw [h0] at hi; cases hi) with ⟨i, hf, _⟩ | ⟨_, he⟩
        · have := (mem_lows q.kids i).2 hf.1
          rw [hemp] at this
          simp at this
        · rw [he]; exact ih
  exact (key n p hk hs).2 h0

/-- A line of 200 input controls. -/
def longLine : Panel Input := { kind := .horizontal, kids := List.replicate 200 {} }

/- 128 times Right reaches the last control that can be reached, the 129th time and all later ones change nothing. -/
example : longLine.kids.length ≤ 255 ∧ longLine.cur = none ∧ (∀ k ∈ longLine.kids, (state k).active = false) ∧ (∀ k ∈ longLine.kids, state k ≠ .selected) := by
  refine ⟨Nat.le_trans (Nat.le_of_eq (List.length_replicate ..)) (by omega), rfl, fun k hk => ?_, fun k hk => ?_⟩ <;> rw [(List.mem_replicate.1 hk).2] <;> decide
example : (navs (List.replicate 3 .right) longLine).cur = some 2 ∧ (navs (List.replicate 128 .right) longLine).cur = some 127 ∧
    (navs (List.replicate 150 .right) longLine).cur = some 127 ∧ Panel.IsInput longLine.kids 128 := by
  have h : ∀ n, (navs (List.replicate (n + 1) .right) longLine).cur = _ :=
    c51_visits_exact longLine rfl rfl fun k hk => by rw [(List.mem_replicate.1 hk).2]; decide
  refine ⟨(h 2).trans (by decide +kernel), (h 127).trans (by decide +kernel), (h 149).trans (by decide +kernel), {}, by decide +kernel, rfl⟩
example : (navs [.right, .right, .left] longLine).cur = some 0 := by decide +kernel

end Atl.Props
