import Verif.Props.Array
import Verif.Model.Iterator
import Mathlib.Data.List.Basic

/-
  C14 iterator, C15 wrap-around iterator.
-/
namespace Atl.Props

open Atl Iterator

variable {α : Type}

/-- The container behaves as the list `l` (of at most 32767 items). -/
structure IsList (b : Base α) (l : List α) : Prop where
  valid : ∀ i : Int, b.isValidIndex i = true ↔ 0 ≤ i ∧ i < l.length
  get : ∀ i : Int, b.getAt i = .ok (Spec.getD b.default l i)
  count : b.getCount = l.length
  small : l.length ≤ 32767

theorem isList_ofArray [DecidableEq α] (d : α) (a : List α) (h : a.length ≤ 32767) : IsList (ofArray d a) a :=
  ⟨Arr.isValidIndex_iff h, Arr.getAt_spec d a h, rfl, h⟩

theorem isList_ofCollection [DecidableEq α] (d : α) {cap : Nat} {c : Collection.Coll α} {l : List α}
    (h : Collection.Rel cap c l) : IsList (ofCollection d c) l :=
  ⟨fun i => by simp [ofCollection, Collection.isValidIndex, h.hcnt], Collection.getAt_rel h d, h.hcnt,
    Nat.le_trans h.hlen h.hle⟩

theorem IsList.invalid {b : Base α} {l : List α} (h : IsList b l) {i : Int} (hi : ¬ (0 ≤ i ∧ i < l.length)) :
    b.isValidIndex i = false := by
  cases hv : b.isValidIndex i with
  | false => rfl
  | true => exact absurd ((h.valid i).1 hv) hi

theorem moveNext_in {b : Base α} {l : List α} (h : IsList b l) {i : Int} (h0 : -1 ≤ i) (h1 : i + 1 < l.length) :
    moveNext b i = .ok (i + 1, true) := by
  have hs := h.small
  unfold moveNext addIdx
  rw [if_pos (by omega)]
  simp [(h.valid (i + 1)).2 ⟨by omega, h1⟩]

theorem moveNext_end {b : Base α} {l : List α} (h : IsList b l) {i : Int} (h0 : -1 ≤ i) (h1 : (l.length : Int) ≤ i + 1)
    (h2 : i ≤ 32766) :
    moveNext b i = .ok (i, false) := by
  have hs := h.small
  unfold moveNext addIdx
  rw [if_pos (by omega)]
  simp [h.invalid (i := i + 1) (by omega)]

theorem moveBack_in {b : Base α} {l : List α} (h : IsList b l) {i : Int} (h0 : 1 ≤ i) (h1 : i ≤ l.length) :
    moveBack b i = .ok (i - 1, true) := by
  have hs := h.small
  unfold moveBack addIdx
  rw [if_pos (by omega)]
  simp [show i + -1 = i - 1 by omega, (h.valid (i - 1)).2 ⟨by omega, by omega⟩]

theorem moveBack_end {b : Base α} {l : List α} (h : IsList b l) {i : Int} (h0 : -1 ≤ i) (h1 : i ≤ 0) :
    moveBack b i = .ok (i, false) := by
  unfold moveBack addIdx
  rw [if_pos (by omega)]
  simp [h.invalid (i := i + -1) (by omega)]

theorem getCurrent_spec {b : Base α} {l : List α} (h : IsList b l) (i : Int) :
    getCurrent b i = .ok (Spec.getD b.default l i) := by
  unfold getCurrent
  by_cases hi : 0 ≤ i ∧ i < l.length
  · simp [(h.valid i).2 hi, h.get]
  · simp only [h.invalid hi, Bool.not_false, if_true]
    unfold Spec.getD
    split
    · rw [List.getElem?_eq_none (by omega)]; rfl
    · rfl

/-- `while (it.MoveNext()) yield it.getCurrent();` for at most `fuel` rounds; `none` = not finished. -/
def walk (b : Base α) (move : Int → Res (Int × Bool)) : Nat → Int → Option (Res (List α))
  | 0, _ => none
  | fuel + 1, i =>
    match move i with
    | .ub => some .ub
    | .ok (_, false) => some (.ok [])
    | .ok (j, true) =>
      match getCurrent b j, walk b move fuel j with
      | .ub, _ => some .ub
      | _, none => none
      | _, some .ub => some .ub
      | .ok v, some (.ok vs) => some (.ok (v :: vs))

theorem walkNext {b : Base α} {l : List α} (h : IsList b l) : ∀ (m : Nat) (i : Int), -1 ≤ i → i + 1 + m = l.length →
    walk b (moveNext b) (m + 1) i = some (.ok (l.drop (i + 1).toNat)) := by
  have hs := h.small
  intro m
  induction m with
  | zero =>
    intro i h0 h1
    rw [walk, moveNext_end h h0 (by omega) (by omega), List.drop_of_length_le (by omega)]
  | succ m ih =>
    intro i h0 h1
    rw [walk, moveNext_in h h0 (by omega)]
    simp only
    rw [getCurrent_spec h, ih (i + 1) (by omega) (by omega)]
    simp only
    have hlt : (i + 1).toNat < l.length := by omega
    rw [List.drop_eq_getElem_cons hlt, show (i + 1 + 1).toNat = (i + 1).toNat + 1 by omega]
    simp only [Spec.getD, if_pos (show 0 ≤ i + 1 by omega), List.getElem?_eq_getElem hlt, Option.getD_some]

theorem walkBack {b : Base α} {l : List α} (h : IsList b l) : ∀ (m : Nat), m ≤ l.length →
    walk b (moveBack b) (m + 1) m = some (.ok (l.take m).reverse) := by
  intro m
  induction m with
  | zero =>
    intro h1
    rw [walk]
    simp [moveBack_end h (i := 0)]
  | succ m ih =>
    intro h1
    have e : (((m + 1 : Nat) : Int)) - 1 = (m : Nat) := by omega
    have hlt : m < l.length := by omega
    rw [walk, moveBack_in h (by omega) (by omega), e]
    simp only
    rw [getCurrent_spec h, ih (by omega)]
    simp only [Spec.getD, if_pos (show (0 : Int) ≤ m by omega), Int.toNat_natCast, List.getElem?_eq_getElem hlt,
      Option.getD_some, List.take_add_one, Option.toList_some, List.reverse_append, List.reverse_cons, List.reverse_nil,
      List.nil_append, List.cons_append]

/-- **C14 (forward).** A new iterator and one after Reset: `while (MoveNext()) getCurrent()` ends after `n` successful moves and yields the `n` items in order. -/
theorem c14_forward {b : Base α} {l : List α} (h : IsList b l) :
    walk b (moveNext b) (l.length + 1) reset = some (.ok l) ∧ walk b (moveNext b) (l.length + 1) init = some (.ok l) := by
  have := walkNext h l.length (-1) (by omega) (by omega)
  exact ⟨by simpa [reset] using this, by simpa [init] using this⟩

example := c14_forward (isList_ofArray 0 [5, 6, 7] (by decide))

/-- **C14 (backward).** From ResetToEnd, `while (MoveBack()) getCurrent()` yields the items in reverse order. -/
theorem c14_backward {b : Base α} {l : List α} (h : IsList b l) :
    walk b (moveBack b) (l.length + 1) (resetToEnd b) = some (.ok l.reverse) := by
  have := walkBack h l.length (Nat.le_refl _)
  rw [resetToEnd, h.count, toS16_small h.small]
  simpa using this

example := c14_backward (isList_ofArray 0 [5, 6, 7] (by decide))

/-- The forward walk over an actual FixedArray and over an actual Collection after any history. -/
theorem c14_forward_array [DecidableEq α] (d : α) (a : List α) (h : a.length ≤ 32767) :
    walk (ofArray d a) (moveNext (ofArray d a)) (a.length + 1) reset = some (.ok a) :=
  (c14_forward (isList_ofArray d a h)).1

example := c14_forward_array 0 [5, 6, 7] (by decide)

theorem c14_forward_collection [DecidableEq α] (d : α) (arr : FixedArray.FA α) (h : arr.items.length ≤ 32767)
    (os : List (Spec.LOp α)) :
    ∃ c, collRun (Collection.init arr) os = .ok c ∧
      walk (ofCollection d c) (moveNext (ofCollection d c)) ((Spec.lrun arr.items.length [] os).length + 1) reset
        = some (.ok (Spec.lrun arr.items.length [] os)) := by
  obtain ⟨c, e, hr⟩ := collRun_rel (collInit_rel arr h) os
  exact ⟨c, e, (c14_forward (isList_ofCollection d hr)).1⟩

example := c14_forward_collection 0 (⟨[0, 0, 0], 0⟩ : FixedArray.FA Nat) (by decide) [.add 5, .add 6, .clear, .add 7]

/-- **C14 (undo).** Inside the array MoveNext and MoveBack undo each other. -/
theorem c14_next_back {b : Base α} {l : List α} (h : IsList b l) {i : Int} (h0 : 0 ≤ i) (h1 : i + 1 < l.length) :
    moveNext b i = .ok (i + 1, true) ∧ moveBack b (i + 1) = .ok (i, true) := by
  refine ⟨moveNext_in h (by omega) h1, ?_⟩
  rw [moveBack_in h (by omega) (by omega)]
  simp

example := c14_next_back (isList_ofArray 0 [5, 6, 7] (by decide)) (i := 1) (by decide) (by decide)

/-- **C14 (default).** getCurrent is the item at a valid position and the default at every other index. -/
theorem c14_current {b : Base α} {l : List α} (h : IsList b l) (i : Int) :
    getCurrent b i = .ok (if h : 0 ≤ i ∧ i < l.length then l[i.toNat]'(by omega) else b.default) ∧
    (getIsValidPosition b i = true ↔ 0 ≤ i ∧ i < l.length) := by
  refine ⟨?_, h.valid i⟩
  rw [getCurrent_spec h]
  congr 1
  unfold Spec.getD
  by_cases h0 : 0 ≤ i
  · by_cases h1 : i < l.length
    · simp [h0, h1, List.getElem?_eq_getElem (show i.toNat < l.length by omega)]
    · simp only [h0, h1, if_true, and_false, dite_false]
      rw [List.getElem?_eq_none (by omega)]; rfl
  · simp [h0]

example := c14_current (isList_ofArray 0 [5, 6, 7] (by decide)) 3

/-- Moves available on an iterator. -/
inductive Move where
  | next | back | reset | toEnd
  deriving Repr, DecidableEq

def moveStep (b : Base α) (i : Int) : Move → Res Int
  | .next => do let r ← moveNext b i; pure r.1
  | .back => do let r ← moveBack b i; pure r.1
  | .reset => .ok Iterator.reset
  | .toEnd => .ok (resetToEnd b)

def moveRun (b : Base α) (i : Int) : List Move → Res Int
  | [] => .ok i
  | m :: ms => do let i ← moveStep b i m; moveRun b i ms

/-- The specification: a cursor on `-1 .. n` that stops at both ends; only the resets go before the first item or behind the last. -/
def cursorStep (n : Nat) (i : Int) : Move → Int
  | .next => if i + 1 < n then i + 1 else i
  | .back => if 0 < i then i - 1 else i
  | .reset => -1
  | .toEnd => n

/-- **C14 (any sequence of moves).** No overflow, no invalid access: the position follows the stopping cursor. The largest possible container must not be
    reset to its end (next theorem). -/
theorem c14_moves_partial {b : Base α} {l : List α} (h : IsList b l) (ms : List Move) (hm : l.length < 32767 ∨ .toEnd ∉ ms) (i : Int) (h0 : -1 ≤ i)
    (h1 : i ≤ l.length) (h2 : i < 32767) :
    moveRun b i ms = .ok (ms.foldl (cursorStep l.length) i) ∧ -1 ≤ ms.foldl (cursorStep l.length) i ∧
      ms.foldl (cursorStep l.length) i ≤ l.length := by
  have hs := h.small
  induction ms generalizing i with
  | nil => exact ⟨rfl, h0, h1⟩
  | cons m ms ih =>
    have hstep : moveStep b i m = .ok (cursorStep l.length i m) ∧ -1 ≤ cursorStep l.length i m ∧
        cursorStep l.length i m ≤ l.length ∧ cursorStep l.length i m < 32767 := by
      cases m with
      | next =>
        simp only [moveStep, cursorStep]
        split
        · rename_i hn; rw [moveNext_in h h0 hn]; exact ⟨rfl, by omega, by omega, by omega⟩
        · rw [moveNext_end h h0 (by omega) (by omega)]; exact ⟨rfl, by omega, by omega, by omega⟩
      | back =>
        simp only [moveStep, cursorStep]
        split
        · rename_i hn; rw [moveBack_in h (by omega) (by omega)]; exact ⟨rfl, by omega, by omega, by omega⟩
        · rw [moveBack_end h h0 (by omega)]; exact ⟨rfl, by omega, by omega, by omega⟩
      | reset => exact ⟨rfl, by simp only [cursorStep]; omega, by simp only [cursorStep]; omega, by simp only [cursorStep]; omega⟩
      | toEnd =>
        have : l.length < 32767 := by
          rcases hm with hm | hm
          · exact hm
          · exact absurd List.mem_cons_self hm
        refine ⟨?_, by simp only [cursorStep]; omega, by simp only [cursorStep]; omega, by simp only [cursorStep]; omega⟩
        simp only [moveStep, cursorStep, resetToEnd, h.count, toS16_small h.small]
    obtain ⟨e, g0, g1, g2⟩ := hstep
    have := ih (hm.imp id fun hm hi => hm (List.mem_cons_of_mem _ hi)) (cursorStep l.length i m) g0 g1 g2
    refine ⟨?_, this.2⟩
    simp only [moveRun, e, Res.bind_ok, List.foldl_cons]
    exact this.1

example := c14_moves_partial (isList_ofArray 0 [5, 6, 7] (by decide)) [.next, .next, .toEnd, .back, .next] (.inl (by decide)) (-1) (by decide) (by decide) (by decide)

/-- **C14 fails** for 32767 items: MoveNext behind the end overflows. -/
theorem c14_end_fails {b : Base α} {l : List α} (h : IsList b l) (hl : l.length = 32767) (i : Int) : moveRun b i [.toEnd, .next] = .ub := by
  have e : resetToEnd b = 32767 := by rw [resetToEnd, h.count, toS16_small h.small, hl]; rfl
  simp only [moveRun, moveStep, e, Res.bind_ok]
  simp [moveNext, addIdx]

/-- **C14 (MoveTo)** on an Array: moves to the first occurrence, and fails (staying put) exactly when the item is absent. -/
theorem c14_moveTo [DecidableEq α] (d : α) (a : List α) (h : a.length ≤ 32767) (x : α) (i : Int) :
    ∃ j r, moveTo (ofArray d a) x i = .ok (j, r) ∧ (r = true ↔ x ∈ a) ∧
      (r = true → Spec.IsFirstIndex a x j) ∧ (r = false → j = i) := by
  obtain ⟨k, e, hk⟩ := c11_array_indexOf a h x
  unfold moveTo
  simp only [ofArray, e, Res.bind_ok]
  rcases hk with ⟨rfl, hn⟩ | ⟨k', rfl, hk1, hk2⟩
  · refine ⟨i, false, by simp, by simp [hn], by simp, by simp⟩
  · refine ⟨k', true, by simp, ?_, ?_, by simp⟩
    · simp [List.mem_of_getElem? hk1]
    · intro _; exact .inr ⟨k', rfl, hk1, hk2⟩

example : moveRun (ofArray 0 [5, 6, 7]) reset [.next, .next, .back, .back, .next, .next, .next] = .ok 2 := by decide +kernel
example : moveRun (ofArray 0 [5, 6, 7]) init [.toEnd, .next, .back, .back] = .ok 1 := by decide +kernel
example : ∃ b : Base Nat, ∃ l, IsList b l ∧ l.length = 32767 := ⟨_, _, isList_ofArray 0 (List.replicate 32767 0) (Nat.le_of_eq List.length_replicate), List.length_replicate⟩
example : walk (ofArray 0 [5, 6, 7]) (moveNext (ofArray 0 [5, 6, 7])) 4 reset = some (.ok [5, 6, 7]) := by decide +kernel

/-! ### C15 -/

def wrapStep (b : Base α) (i : Int) (fwd : Bool) : Res (Int × Bool) := if fwd then wrapNext b i else wrapBack b i

/-- Run a sequence of wrap-around moves (`true` = MoveNext); also checks that each call returned true. -/
def wrapRun (b : Base α) (i : Int) : List Bool → Res (Int × Bool)
  | [] => .ok (i, true)
  | m :: ms => do
    let (j, r) ← wrapStep b i m
    let (k, rs) ← wrapRun b j ms
    pure (k, r && rs)

theorem wrapNext_spec {b : Base α} {l : List α} (h : IsList b l) (hl : 0 < l.length) {i : Int} (h0 : -1 ≤ i)
    (h1 : i < l.length) : wrapNext b i = .ok ((i + 1) % l.length, true) := by
  have hs := h.small
  unfold wrapNext
  by_cases hn : i + 1 < l.length
  · rw [moveNext_in h h0 hn, Int.emod_eq_of_lt (by omega) hn]; rfl
  · rw [moveNext_end h h0 (by omega) (by omega)]
    simp only [Res.bind_ok, Bool.not_false, if_true]
    rw [show reset = -1 from rfl, moveNext_in h (by omega) (by omega)]
    have : i + 1 = l.length := by omega
    rw [this, Int.emod_self]; rfl

theorem wrapBack_spec {b : Base α} {l : List α} (h : IsList b l) (hl : 0 < l.length) {i : Int} (h0 : 0 ≤ i)
    (h1 : i < l.length) : wrapBack b i = .ok ((i - 1) % l.length, true) := by
  have hs := h.small
  unfold wrapBack
  by_cases hn : 1 ≤ i
  · rw [moveBack_in h hn (by omega), Int.emod_eq_of_lt (by omega) (by omega)]; rfl
  · rw [moveBack_end h (by omega) (by omega)]
    simp only [Res.bind_ok, Bool.not_false, if_true]
    rw [resetToEnd, h.count, toS16_small h.small, moveBack_in h (by omega) (by omega)]
    have : i - 1 = -1 := by omega
    rw [this, Int.emod_def]
    have : (-1 : Int) / (l.length : Int) = -1 := by
      apply Int.ediv_eq_iff_of_pos (by omega) |>.2
      omega
    rw [this]
    simp; omega

/-- **C15.** On a non-empty container, after any sequence of MoveNext / MoveBack calls from a valid position the iterator
    stands on the valid position `(start + k - m) mod n`, where `k` and `m` are the numbers of MoveNext and MoveBack calls, and every
    call returned true. -/
theorem c15_cyclic {b : Base α} {l : List α} (h : IsList b l) (hl : 0 < l.length) (ms : List Bool) (i : Int)
    (h0 : 0 ≤ i) (h1 : i < l.length) :
    wrapRun b i ms = .ok ((i + ms.count true - ms.count false) % l.length, true) ∧
    getIsValidPosition b ((i + ms.count true - ms.count false) % l.length) = true := by
  have hpos : (0 : Int) < l.length := by omega
  refine ⟨?_, (h.valid _).2 ⟨Int.emod_nonneg _ (by omega), Int.emod_lt_of_pos _ hpos⟩⟩
  induction ms generalizing i with
  | nil =>
    simp only [wrapRun, List.count_nil]
    rw [Int.emod_eq_of_lt (by omega) (by omega)]; simp
  | cons m ms ih =>
    cases m with
    | true =>
      have e := wrapNext_spec h hl (i := i) (by omega) h1
      have := ih ((i + 1) % l.length) (Int.emod_nonneg _ (by omega)) (Int.emod_lt_of_pos _ hpos)
      simp only [wrapRun, wrapStep, if_true, e, Res.bind_ok, this]
      simp only [List.count_cons, Res.pure_eq]
      have hm : ((i + 1) % (l.length : Int) + (ms.count true : Int) - (ms.count false : Int)) % l.length =
          (i + ((ms.count true + 1 : Nat) : Int) - (ms.count false : Int)) % l.length := by
        rw [show (i + 1) % (l.length : Int) + (ms.count true : Int) - (ms.count false : Int) =
          (i + 1) % (l.length : Int) + ((ms.count true : Int) - (ms.count false : Int)) by omega, Int.emod_add_emod]
        congr 1; omega
      simp [hm]
    | false =>
      have e := wrapBack_spec h hl (i := i) h0 h1
      have := ih ((i - 1) % l.length) (Int.emod_nonneg _ (by omega)) (Int.emod_lt_of_pos _ hpos)
      simp only [wrapRun, wrapStep, Bool.false_eq_true, if_false, e, Res.bind_ok, this]
      simp only [List.count_cons, Res.pure_eq]
      have hm : ((i - 1) % (l.length : Int) + (ms.count true : Int) - (ms.count false : Int)) % l.length =
          (i + (ms.count true : Int) - ((ms.count false + 1 : Nat) : Int)) % l.length := by
        rw [show (i - 1) % (l.length : Int) + (ms.count true : Int) - (ms.count false : Int) =
          (i - 1) % (l.length : Int) + ((ms.count true : Int) - (ms.count false : Int)) by omega, Int.emod_add_emod]
        congr 1; omega
      simp [hm]

/-- **C15 (full turn).** `n` MoveNext calls return to the same item; likewise `n` MoveBack calls. -/
theorem c15_full_turn {b : Base α} {l : List α} (h : IsList b l) (hl : 0 < l.length) (fwd : Bool) (i : Int)
    (h0 : 0 ≤ i) (h1 : i < l.length) :
    wrapRun b i (List.replicate l.length fwd) = .ok (i, true) := by
  rw [(c15_cyclic h hl _ i h0 h1).1]
  cases fwd
  · simp only [List.count_replicate]
    simp [Int.emod_eq_of_lt h0 h1]
  · simp only [List.count_replicate]
    simp [Int.emod_eq_of_lt h0 h1]

example := c15_full_turn (isList_ofArray 0 [5, 6, 7] (by decide)) (by decide) false 1 (by decide) (by decide)

/-- **C15 (start).** From Reset the first MoveNext reaches the first item and the first MoveBack the last one. -/
theorem c15_from_reset {b : Base α} {l : List α} (h : IsList b l) (hl : 0 < l.length) :
    wrapNext b reset = .ok (0, true) ∧ wrapBack b reset = .ok ((l.length : Int) - 1, true) := by
  constructor
  · rw [show reset = -1 from rfl, wrapNext_spec h hl (by omega) (by omega)]; simp
  · unfold wrapBack
    rw [show reset = -1 from rfl, moveBack_end h (by omega) (by omega)]
    simp only [Res.bind_ok, Bool.not_false, if_true]
    rw [resetToEnd, h.count, toS16_small h.small, moveBack_in h (by omega) (by omega)]; rfl

example := c15_from_reset (isList_ofArray 0 [5, 6, 7] (by decide)) (by decide)

/-- On an empty container the wrap-around iterator still reports success but has no valid position. -/
theorem c15_empty {b : Base α} (h : IsList b ([] : List α)) :
    wrapNext b reset = .ok (-1, true) ∧ wrapBack b reset = .ok (0, true) ∧
      getIsValidPosition b (-1) = false ∧ getIsValidPosition b 0 = false := by
  refine ⟨?_, ?_, h.invalid (by simp), h.invalid (by simp)⟩
  · unfold wrapNext
    rw [show reset = -1 from rfl, moveNext_end h (by omega) (by simp) (by omega)]; rfl
  · unfold wrapBack
    rw [show reset = -1 from rfl, moveBack_end h (by omega) (by omega)]
    simp only [Res.bind_ok, Bool.not_false, if_true]
    rw [resetToEnd, h.count, toS16_small h.small, moveBack_end h (by simp) (by simp)]; rfl

example : wrapRun (ofArray 0 [5, 6, 7]) 1 [true, true, true, false, false, false, false, false] = .ok (2, true) := by
  decide +kernel

end Atl.Props
