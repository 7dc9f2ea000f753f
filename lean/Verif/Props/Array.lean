import Verif.Proof.Array
import Mathlib.Tactic.ByContra

/-
  C09 bounds-safe accessors, C10 collection, C11 IndexOf, C12 fixed string, C13 Clear.
-/
namespace Atl.Props

open Atl

variable {α : Type}

/-! ### C09 -/

/-- One store into a FixedArray: by `SetAt` or through `operator[]`. -/
inductive Store (α : Type) where
  | setAt (i : Int) (v : α)
  | index (i : Int) (v : α)
  deriving Repr

def Store.pos : Store α → Int × α
  | .setAt i v => (i, v)
  | .index i v => (i, v)

def storeStep (s : FixedArray.FA α) : Store α → Res (FixedArray.FA α)
  | .setAt i v => FixedArray.setAt s i v
  | .index i v => FixedArray.writeIdx s i v

def storeRun (s : FixedArray.FA α) : List (Store α) → Res (FixedArray.FA α)
  | [] => .ok s
  | o :: os => do let s ← storeStep s o; storeRun s os

theorem storeStep_ok (s : FixedArray.FA α) (o : Store α) (h : s.items.length < 65536) :
    ∃ s', storeStep s o = .ok s' ∧ s'.items =
      if Arr.isValidIndex s.items.length o.pos.1 then s.items.set o.pos.1.toNat o.pos.2 else s.items := by
  cases o with
  | setAt i v =>
    refine ⟨_, FixedArray.setAt_ok s h i v, ?_⟩
    simp only [Store.pos]; split <;> simp_all
  | index i v =>
    refine ⟨_, FixedArray.writeIdx_ok s h i v, ?_⟩
    simp only [Store.pos]; split <;> simp_all

/-- **C09.** For every array size up to 32767, every history of stores at arbitrary signed positions (by SetAt or through
    `operator[]`) and every position: no undefined behaviour; a position inside the array reads the last value
    stored there (else the initial one), any other position reads the default; the size never changes. -/
theorem c09_accessors (d : α) (s : FixedArray.FA α) (h : s.items.length ≤ 32767) (os : List (Store α)) :
    ∃ s', storeRun s os = .ok s' ∧ s'.items.length = s.items.length ∧
      ∀ i : Int, Arr.getAt d s'.items i =
        .ok (if 0 ≤ i ∧ i < s.items.length
          then (Spec.lastStore (os.map Store.pos) i).getD (Spec.getD d s.items i) else d) := by
  induction os generalizing s with
  | nil =>
    refine ⟨s, rfl, rfl, fun i => ?_⟩
    rw [Arr.getAt_spec d _ h]
    simp only [List.map_nil, Spec.lastStore, Option.getD_none, Spec.getD]
    congr 1
    by_cases h0 : 0 ≤ i <;> by_cases h1 : i < s.items.length <;> simp [h0, h1]
  | cons o os ih =>
    obtain ⟨s1, e1, hs1⟩ := storeStep_ok s o (by omega)
    have hl1 : s1.items.length = s.items.length := by rw [hs1]; split <;> simp
    obtain ⟨s2, e2, hl2, hg⟩ := ih s1 (by omega)
    refine ⟨s2, by simp [storeRun, e1, e2], by omega, fun i => ?_⟩
    rw [hg i, hl1]
    congr 1
    by_cases hi : 0 ≤ i ∧ i < s.items.length
    · rw [if_pos hi, if_pos hi]
      have hc : os.map Store.pos = List.map Store.pos os := rfl
      simp only [List.map_cons]
      rw [show Store.pos o :: List.map Store.pos os = ((Store.pos o).1, (Store.pos o).2) :: List.map Store.pos os from rfl]
      rw [Spec.lastStore]
      cases hL : Spec.lastStore (os.map Store.pos) i with
      | some w => simp
      | none =>
        simp only [Option.getD_none]
        rw [hs1]
        unfold Spec.getD
        rw [if_pos hi.1, if_pos hi.1]
        by_cases hp : (Store.pos o).1 = i
        · rw [if_pos hp]
          have hv := (Arr.isValidIndex_iff h i).2 hi
          rw [hp, hv]
          simp [show i.toNat < s.items.length by omega]
        · rw [if_neg hp]
          split
          · rename_i hv
            have hv' := (Arr.isValidIndex_iff h _).1 hv
            rw [List.getElem?_set_ne (by omega)]
            rfl
          · rfl
    · rw [if_neg hi, if_neg hi]

example : ∃ s', storeRun ⟨[10, 20, 30], 0⟩ [.setAt 1 5, .index (-1) 9, .setAt 3 8, .index 2 6, .setAt 1 7] = .ok s' ∧
    s' = ⟨[10, 7, 6], 9⟩ := ⟨⟨[10, 7, 6], 9⟩, by decide +kernel, rfl⟩

/-- C09 for the sizes above 32767 that the template also admits: `(int16_t)MaxItems` is negative, so every index is
    rejected: still no access outside the storage, but no element can be changed or read. -/
theorem c09_oversized (d : α) (s : FixedArray.FA α) (h : 32767 < s.items.length) (h2 : s.items.length < 65536)
    (o : Store α) (i : Int) :
    (∃ s', storeStep s o = .ok s' ∧ s'.items = s.items) ∧ Arr.getAt d s.items i = .ok d := by
  have hv : ∀ j, Arr.isValidIndex s.items.length j = false := by
    intro j
    by_contra hc
    have := Arr.isValidIndex_true h2 (i := j) (by simpa using hc)
    omega
  constructor
  · obtain ⟨s', e, hs⟩ := storeStep_ok s o h2
    exact ⟨s', e, by rw [hs, hv]; simp⟩
  · simp [Arr.getAt, hv]

/-- Extra: reading `arr[i]` with an invalid index on a mutable FixedArray does not give the default but whatever was
    last stored through any invalid index (the shared dummy element). -/
theorem c09_dummy_is_shared :
    ∃ s', FixedArray.writeIdx (⟨[1, 2], 0⟩ : FixedArray.FA Nat) (-1) 42 = .ok s' ∧
      FixedArray.readIdx s' 7 = .ok 42 ∧ Arr.getAt 0 s'.items 7 = .ok 0 :=
  ⟨⟨[1, 2], 42⟩, by decide +kernel, by decide +kernel, by decide +kernel⟩

/-! ### C10 -/

def collStep (c : Collection.Coll α) : Spec.LOp α → Res (Collection.Coll α)
  | .add x => Collection.add c x
  | .setAt i x => Collection.setAt c i x
  | .clear => .ok (Collection.clear c)

def collRun (c : Collection.Coll α) : List (Spec.LOp α) → Res (Collection.Coll α)
  | [] => .ok c
  | o :: os => do let c ← collStep c o; collRun c os

theorem collRun_rel {cap : Nat} {c : Collection.Coll α} {l : List α} (h : Collection.Rel cap c l)
    (os : List (Spec.LOp α)) : ∃ c', collRun c os = .ok c' ∧ Collection.Rel cap c' (Spec.lrun cap l os) := by
  induction os generalizing c l with
  | nil => exact ⟨c, rfl, h⟩
  | cons o os ih =>
    have : ∃ c1, collStep c o = .ok c1 ∧ Collection.Rel cap c1 (Spec.lstep cap l o) := by
      cases o with
      | add x => exact Collection.add_rel h x
      | setAt i x => exact Collection.setAt_rel h i x
      | clear => exact ⟨_, rfl, Collection.clear_rel h⟩
    obtain ⟨c1, e1, h1⟩ := this
    obtain ⟨c2, e2, h2⟩ := ih h1
    exact ⟨c2, by simp [collRun, e1, e2], h2⟩

theorem collInit_rel (arr : FixedArray.FA α) (h : arr.items.length ≤ 32767) :
    Collection.Rel arr.items.length (Collection.init arr) ([] : List α) :=
  ⟨rfl, h, rfl, by simp, by simp [Collection.init]⟩

/-- **C10.** A Collection over uninitialised storage of capacity up to 32767 answers, after any history of Add, SetAt and
    Clear, exactly as a list bounded by the capacity: same count, same item or default at every signed index. -/
theorem c10_bounded_list (d : α) (arr : FixedArray.FA α) (h : arr.items.length ≤ 32767) (os : List (Spec.LOp α)) :
    ∃ c, collRun (Collection.init arr) os = .ok c ∧
      Collection.getCount c = (Spec.lrun arr.items.length [] os).length ∧
      Collection.getCapacity c = arr.items.length ∧
      Collection.getCount c ≤ arr.items.length ∧
      ∀ i : Int, Collection.getAt d c i = .ok (Spec.getD d (Spec.lrun arr.items.length [] os) i) := by
  obtain ⟨c, e, hr⟩ := collRun_rel (collInit_rel arr h) os
  refine ⟨c, e, hr.hcnt, hr.hcap, ?_, Collection.getAt_rel hr d⟩
  rw [Collection.getCount, hr.hcnt]; exact hr.hlen

example : Spec.lrun 2 [] [.add 5, .add 6, .add 7, .setAt 1 9, .setAt 2 1, .setAt (-1) 3] = [5, 9] := rfl
example : Spec.lrun 3 [] [.add 5, .clear, .add 7] = [7] := rfl

/-- Beyond 32767 the claim fails: `Add` counts the item but stores nothing. -/
theorem c10_oversized_fails (arr : FixedArray.FA Nat) (h : 32767 < arr.items.length) (h2 : arr.items.length < 65536) :
    ∃ c, collRun (Collection.init arr) [.add 5] = .ok c ∧ Collection.getCount c = 1 ∧
      Collection.getAt 0 c 0 = .ok 0 ∧ c.arr.items = arr.items := by
  have hv : ∀ j, Arr.isValidIndex arr.items.length j = false := by
    intro j
    by_contra hc
    have := Arr.isValidIndex_true h2 (i := j) (by simpa using hc)
    omega
  refine ⟨⟨arr, 1⟩, ?_, rfl, ?_, rfl⟩
  · have hadd : Collection.add (Collection.init arr) 5 = .ok ⟨arr, 1⟩ := by
      unfold Collection.add
      rw [if_pos (show (Collection.init arr).count < Collection.getCapacity (Collection.init arr) from
        (by omega : 0 < arr.items.length)),
        show (Collection.init arr).arr = arr from rfl, FixedArray.setAt_ok _ h2, hv]
      rfl
    simp only [collRun, collStep, hadd]
    rfl
  · simp [Collection.getAt, Collection.isValidIndex, Arr.getAt, hv]

/-! ### C11 -/

/-- **C11 (Array, ArrayRef, FixedArray).** For every content of an array of up to 32767 items. -/
theorem c11_array_indexOf [DecidableEq α] (a : List α) (h : a.length ≤ 32767) (x : α) :
    ∃ r, Arr.indexOf a x = .ok r ∧ Spec.IsFirstIndex a x r :=
  by
    unfold Arr.indexOf
    rw [toS16_small h]
    exact Arr.indexOfLoop_spec a x h _ 0 rfl (by simp)

example := c11_array_indexOf (List.range 300) (by simp) 299

/-- **C11 (Collection), partial.** Holds after every history as long as at most 128 items are held.
    Missing: more than 128 items, where it is false (`c11_collection_indexOf_fails`). -/
theorem c11_collection_indexOf_partial [DecidableEq α] (d : α) (arr : FixedArray.FA α) (h : arr.items.length ≤ 32767)
    (os : List (Spec.LOp α)) (x : α) :
    ∃ c, collRun (Collection.init arr) os = .ok c ∧
      (Collection.getCount c ≤ 128 →
        ∃ r, Collection.indexOf d c x = .ok r ∧ Spec.IsFirstIndex (Spec.lrun arr.items.length [] os) x r) := by
  obtain ⟨c, e, hr⟩ := collRun_rel (collInit_rel arr h) os
  refine ⟨c, e, fun h128 => ?_⟩
  have hc := hr.hcnt
  rw [Collection.getCount, hc] at h128
  rcases Collection.indexOfLoop_spec d x hr c.count 0 hr.hcnt.symm (by simp) with ⟨k, e1, h1⟩ | ⟨e1, h1⟩
  · refine ⟨_, e1, ?_⟩
    have hk : k ≤ 127 := by
      rcases h1 with ⟨h1, _⟩ | ⟨k', h1, h2, _⟩
      · omega
      · have h3 : k = k' := by exact_mod_cast h1
        subst h3
        rcases Nat.lt_or_ge k (Spec.lrun arr.items.length [] os).length with h3 | h3
        · omega
        · rw [List.getElem?_eq_none h3] at h2; cases h2
    rw [toS8_small hk]
    exact h1
  · exact ⟨-1, e1, .inl ⟨rfl, h1⟩⟩

example := c11_collection_indexOf_partial 0 ⟨List.replicate 200 0, 0⟩ (by rw [List.length_replicate]; decide) [.add 5, .add 6, .setAt 1 9] 9

/-- **C11 fails for collections**: in *every* collection whose first occurrence of `x` is at 128..255 the result
    is negative, in particular it is -1 ("not there") at index 255. -/
theorem c11_collection_indexOf_fails [DecidableEq α] (d : α) (arr : FixedArray.FA α) (h : arr.items.length ≤ 32767)
    (os : List (Spec.LOp α)) (x : α) (k : Nat) (h1 : 128 ≤ k) (h2 : k ≤ 255)
    (hk : Spec.IsFirstIndex (Spec.lrun arr.items.length [] os) x k) :
    ∃ c, collRun (Collection.init arr) os = .ok c ∧ Collection.indexOf d c x = .ok ((k : Int) - 256) := by
  obtain ⟨c, e, hr⟩ := collRun_rel (collInit_rel arr h) os
  refine ⟨c, e, ?_⟩
  rcases hk with ⟨hk, _⟩ | ⟨k', hk, hk1, hk2⟩
  · omega
  have h3 : k = k' := by exact_mod_cast hk
  subst h3
  rcases Collection.indexOfLoop_spec d x hr c.count 0 hr.hcnt.symm (by simp) with ⟨j, e1, hj⟩ | ⟨e1, hj⟩
  · rcases hj with ⟨hj, _⟩ | ⟨j', hj, hj1, hj2⟩
    · omega
    have h3 : j = j' := by exact_mod_cast hj
    subst h3
    have : j = k := by
      rcases Nat.lt_trichotomy j k with h4 | h4 | h4
      · exact absurd hj1 (hk2 j h4)
      · exact h4
      · exact absurd hk1 (hj2 k h4)
    subst this
    rw [Collection.indexOf, e1]
    congr 1
    unfold toS; omega
  · exact absurd (List.mem_of_getElem? hk1) hj

/-- The hypotheses of the failure are met by a collection of 129 distinct items. -/
example : Spec.IsFirstIndex (Spec.lrun 200 [] ((List.range 129).map (Spec.LOp.add ·))) 128 (128 : Nat) :=
  .inr ⟨128, rfl, by decide +kernel, by decide +kernel⟩

/-- **C11 (Collection), what it returns.** After every history, for every number of items: -1 when the item is absent, and otherwise the first index as an 8-bit signed
    number. So it is right wherever the first occurrence is below 128 or there is none, and wrong everywhere else (from 256 on another index). -/
theorem c11_collection_indexOf_exact [DecidableEq α] (d : α) (arr : FixedArray.FA α) (h : arr.items.length ≤ 32767) (os : List (Spec.LOp α)) (x : α) :
    ∃ c r, collRun (Collection.init arr) os = .ok c ∧ Collection.indexOf d c x = .ok r ∧
      ((x ∉ Spec.lrun arr.items.length [] os ∧ r = -1) ∨
        ∃ k : Nat, Spec.IsFirstIndex (Spec.lrun arr.items.length [] os) x k ∧ r = ((k : Int) + 128) % 256 - 128) := by
  obtain ⟨c, e, hr⟩ := collRun_rel (collInit_rel arr h) os
  rcases Collection.indexOfLoop_spec d x hr c.count 0 hr.hcnt.symm (by simp) with ⟨k, e1, h1⟩ | ⟨e1, h1⟩
  · refine ⟨c, _, e, e1, .inr ⟨k, h1, ?_⟩⟩
    unfold toS; omega
  · exact ⟨c, _, e, e1, .inl ⟨h1, rfl⟩⟩

/-- **C11 (StaticArray), what it returns.** An item first found at `k < 256`: the search ends in round `k + 1` with `k` as an 8-bit signed number; an item that is not
    in an array of up to 255 items: -1 after all of them. (In the other cases it does not end, see below.) -/
theorem c11_static_indexOf_exact [DecidableEq α] (d : α) (a : List α) (x : α) :
    (∀ k < 256, a[k]? = some x → (∀ j < k, a[j]? ≠ some x) →
      StaticArray.indexOfRun d a x (k + 1) 0 = some (.ok (((k : Int) + 128) % 256 - 128))) ∧
    (a.length < 256 → x ∉ a → StaticArray.indexOfRun d a x (a.length + 1) 0 = some (.ok (-1))) := by
  constructor
  · intro k hk h1 h2
    have hl : k < a.length := by
      rcases Nat.lt_or_ge k a.length with h3 | h3
      · exact h3
      · rw [List.getElem?_eq_none h3] at h1; cases h1
    have := StaticArray.indexOfRun_exact d a x k hk h2 (by omega) (.inl h1) k 0 (by omega)
    rw [this, if_neg (by omega)]
    congr 2
    unfold toS; omega
  · intro hl hx
    have := StaticArray.indexOfRun_exact d a x a.length hl (fun j _ hj => hx (List.mem_of_getElem? hj)) (Nat.le_refl _) (.inr rfl) a.length 0 (by omega)
    rw [this, if_pos rfl]

example : (List.range 300)[200]? = some 200 ∧ ∀ j < 200, (List.range 300)[j]? ≠ some 200 := by decide +kernel

/-- **C11 (StaticArray), partial.** Up to 128 items the loop ends within one round per item and finds the first occurrence. -/
theorem c11_static_indexOf_partial [DecidableEq α] (d : α) (a : List α) (h : a.length ≤ 128) (x : α) :
    ∃ r, StaticArray.indexOfRun d a x (a.length + 1) 0 = some (.ok r) ∧ Spec.IsFirstIndex a x r :=
  StaticArray.indexOfRun_spec d a x h a.length 0 rfl (by simp)

/-- **C11 fails for StaticArray**: with 256 items or more and the item not among the first 256 the search never ends, even
    when the item is present further on. -/
theorem c11_static_indexOf_hangs [DecidableEq α] (d : α) (a : List α) (h : 256 ≤ a.length) (x : α)
    (hx : ∀ j < 256, a[j]? ≠ some x) (fuel : Nat) : StaticArray.indexOfRun d a x fuel 0 = none :=
  StaticArray.indexOfRun_forever d a x h hx fuel 0 (by decide)

example : ∀ j < 256, (List.range 300)[j]? ≠ some 299 := by decide +kernel

/-! ### C12 -/

/-- What a program may do to a fixed string. -/
inductive SOp where
  | copyFrom (text : List Int)
  | clear
  | setAt (i : Int) (c : Int)
  | index (i : Int) (c : Int)
  deriving Repr

def strStep (n : Nat) (s : FixedArray.FA Int) : SOp → Res (FixedArray.FA Int)
  | .copyFrom t => FixedString.copyFrom n s t
  | .clear => FixedString.clear n s
  | .setAt i c => FixedArray.setAt s i c
  | .index i c => FixedArray.writeIdx s i c

def strRun (n : Nat) (s : FixedArray.FA Int) : List SOp → Res (FixedArray.FA Int)
  | [] => .ok s
  | o :: os => do let s ← strStep n s o; strRun n s os

/-- Element writes are at positions below the capacity (or invalid). -/
def SOp.Below (n : Nat) : SOp → Prop
  | .setAt i _ => i < n
  | .index i _ => i < n
  | _ => True

/-- The C string held in a buffer: the characters before the first zero. -/
def text (buf : List Int) : List Int := buf.takeWhile (· ≠ 0)

/-- Zero-terminated within the storage. -/
def Terminated (buf : List Int) : Prop := 0 ∈ buf

theorem copyFrom_eq (n : Nat) (s : FixedArray.FA Int) (t : List Int) (hl : s.items.length = n + 1) :
    FixedString.copyFrom n s t =
      .ok { s with items := (t.take n ++ List.replicate (n - t.length) 0) ++ s.items.drop n } := by
  unfold FixedString.copyFrom
  rw [FixedString.strncpyLoop_spec n n t s.items 0 (by omega) (by omega) (by omega)]
  simp

theorem strStep_inv (n : Nat) (hn : n + 1 < 65536) (s : FixedArray.FA Int) (o : SOp) (hl : s.items.length = n + 1)
    (h0 : s.items[n]? = some 0) (ho : o.Below n) :
    ∃ s', strStep n s o = .ok s' ∧ s'.items.length = n + 1 ∧ s'.items[n]? = some 0 := by
  cases o with
  | copyFrom t =>
    refine ⟨_, copyFrom_eq n s t hl, ?_, ?_⟩
    · simp; omega
    · simp only
      rw [List.getElem?_append_right (by simp; omega), List.getElem?_drop]
      have : n + (n - (t.take n ++ List.replicate (n - t.length) 0).length) = n := by simp; omega
      rw [this, h0]
  | clear =>
    simp only [strStep, FixedString.clear, hl, Nat.le_refl, if_true]
    refine ⟨_, rfl, ?_, ?_⟩
    · simp [hl]
    · simp only [List.drop_of_length_le (Nat.le_of_eq hl), List.append_nil]
      rw [List.getElem?_replicate]; simp
  | setAt i c =>
    refine ⟨_, FixedArray.setAt_ok s (by omega) i c, ?_, ?_⟩
    · split <;> simp [hl]
    · split
      · rename_i hv
        have hv' := Arr.isValidIndex_true (by omega) hv
        simp only [SOp.Below] at ho
        simp only
        rw [List.getElem?_set_ne (by omega), h0]
      · exact h0
  | index i c =>
    refine ⟨_, FixedArray.writeIdx_ok s (by omega) i c, ?_, ?_⟩
    · split <;> simp [hl]
    · split
      · rename_i hv
        have hv' := Arr.isValidIndex_true (by omega) hv
        simp only [SOp.Below] at ho
        simp only
        rw [List.getElem?_set_ne (by omega), h0]
      · exact h0

theorem strRun_inv (n : Nat) (hn : n + 1 < 65536) (s : FixedArray.FA Int) (os : List SOp)
    (hl : s.items.length = n + 1) (h0 : s.items[n]? = some 0) (ho : ∀ o ∈ os, o.Below n) :
    ∃ s', strRun n s os = .ok s' ∧ s'.items.length = n + 1 ∧ s'.items[n]? = some 0 := by
  induction os generalizing s with
  | nil => exact ⟨s, rfl, hl, h0⟩
  | cons o os ih =>
    obtain ⟨s1, e1, hl1, h1⟩ := strStep_inv n hn s o hl h0 (ho o (by simp))
    obtain ⟨s2, e2, h2⟩ := ih s1 hl1 h1 (fun o' h' => ho o' (by simp [h']))
    exact ⟨s2, by simp [strRun, e1, e2], h2⟩

theorem init_inv (n : Nat) (g : FixedArray.FA Int) (hg : g.items.length = n + 1) :
    ∃ s, FixedString.init n g = .ok s ∧ s.items.length = n + 1 ∧ s.items[n]? = some 0 ∧ text s.items = [] := by
  simp only [FixedString.init, FixedString.clear, hg, Nat.le_refl, if_true]
  refine ⟨_, rfl, ?_, ?_, ?_⟩
  · simp [hg]
  · simp only [List.drop_of_length_le (Nat.le_of_eq hg), List.append_nil]
    rw [List.getElem?_replicate]; simp
  · simp [text, List.replicate_succ]

/-- **C12.** Over any storage garbage, for every capacity and every history of CopyFrom, Clear and element writes
    below the capacity: no undefined behaviour and the buffer is zero-terminated. -/
theorem c12_terminated (n : Nat) (hn : n + 1 < 65536) (g : FixedArray.FA Int) (hg : g.items.length = n + 1)
    (os : List SOp) (ho : ∀ o ∈ os, o.Below n) :
    ∃ s0 s, FixedString.init n g = .ok s0 ∧ strRun n s0 os = .ok s ∧
      s.items.length = n + 1 ∧ Terminated s.items ∧ (text s.items).length ≤ n := by
  obtain ⟨s0, e0, hl, h0, _⟩ := init_inv n g hg
  obtain ⟨s, e, hl', h0'⟩ := strRun_inv n hn s0 os hl h0 ho
  have hmem : (0 : Int) ∈ s.items := List.mem_of_getElem? h0'
  refine ⟨s0, s, e0, e, hl', hmem, ?_⟩
  have hlt : (text s.items).length < s.items.length := by
    have hle : (text s.items).length ≤ s.items.length := by
      unfold text; exact (List.takeWhile_prefix _).length_le
    rcases Nat.lt_or_ge (text s.items).length s.items.length with h | h
    · exact h
    · exfalso
      have heq : text s.items = s.items := (List.takeWhile_prefix _).eq_of_length (Nat.le_antisymm hle h)
      have hm : (0 : Int) ∈ text s.items := by rw [heq]; exact hmem
      have hall := List.all_takeWhile (p := fun x : Int => decide (x ≠ 0)) (l := s.items)
      have := List.all_eq_true.1 hall 0 hm
      simp at this
  omega

example : ∀ o ∈ ([.copyFrom [65, 66, 67, 68], .setAt 2 90, .index 7 1, .clear, .index (-1) 5] : List SOp), o.Below 8 := by
  simp [SOp.Below]

theorem takeWhile_all {t : List Int} (ht : (0 : Int) ∉ t) (r : List Int) :
    (t ++ 0 :: r).takeWhile (· ≠ 0) = t := by
  rw [List.takeWhile_append_of_pos]
  · simp
  · intro a ha
    have : a ≠ 0 := fun h => ht (h ▸ ha)
    simpa using this

/-- **C12 (content).** In every state reached as above, CopyFrom of a C string stores its longest prefix that fits. -/
theorem c12_copyFrom_text (n : Nat) (hn : n + 1 < 65536) (g : FixedArray.FA Int) (hg : g.items.length = n + 1)
    (os : List SOp) (ho : ∀ o ∈ os, o.Below n) (t : List Int) (ht : (0 : Int) ∉ t) :
    ∃ s0 s, FixedString.init n g = .ok s0 ∧ strRun n s0 (os ++ [.copyFrom t]) = .ok s ∧
      text s.items = t.take n := by
  obtain ⟨s0, e0, hl, h0, _⟩ := init_inv n g hg
  obtain ⟨s, e, hl', h0'⟩ := strRun_inv n hn s0 os hl h0 ho
  have hrun : ∀ (os : List SOp) (s0 s : FixedArray.FA Int) (o : SOp), strRun n s0 os = .ok s →
      strRun n s0 (os ++ [o]) = strStep n s o := by
    intro os
    induction os with
    | nil =>
      intro s0 s o h; cases h
      simp only [strRun, List.nil_append]
      cases strStep n s0 o <;> rfl
    | cons a as ih =>
      intro s0 s o h
      simp only [strRun, List.cons_append] at h ⊢
      cases ha : strStep n s0 a with
      | ub => rw [ha] at h; cases h
      | ok s1 => rw [ha] at h; exact ih s1 s o h
  refine ⟨s0, _, e0, (hrun os s0 s _ e).trans (copyFrom_eq n s t hl'), ?_⟩
  have hd : s.items.drop n = [0] := by
    rw [List.drop_eq_getElem_cons (by omega), List.drop_of_length_le (by omega)]
    rw [List.getElem?_eq_getElem (by omega)] at h0'
    simpa using h0'
  simp only [hd]
  unfold text
  have hr : ∀ m, List.replicate m (0 : Int) ++ [0] = 0 :: List.replicate m 0 := by
    intro m
    induction m with
    | zero => rfl
    | succ m ih => rw [List.replicate_succ, List.cons_append, ih]
  rw [List.append_assoc, hr]
  exact takeWhile_all (fun h => ht (List.mem_of_mem_take h)) _

/-- Construction from text (FixedString.h 53-57). -/
theorem c12_construct_text (n : Nat) (g : FixedArray.FA Int) (hg : g.items.length = n + 1)
    (t : List Int) (ht : (0 : Int) ∉ t) :
    ∃ s, FixedString.initText n g t = .ok s ∧ s.items.length = n + 1 ∧ Terminated s.items ∧
      text s.items = t.take n := by
  obtain ⟨s0, e0, hl, h0, _⟩ := init_inv n g hg
  have hd : s0.items.drop n = [0] := by
    rw [List.drop_eq_getElem_cons (by omega), List.drop_of_length_le (by omega)]
    rw [List.getElem?_eq_getElem (by omega)] at h0
    simpa using h0
  refine ⟨_, by rw [FixedString.initText, show FixedString.clear n g = .ok s0 from e0]; exact copyFrom_eq n s0 t hl, ?_, ?_, ?_⟩
  · simp [hd]; omega
  · simp [hd, Terminated]
  · simp only [hd]
    unfold text
    have hr : ∀ m, List.replicate m (0 : Int) ++ [0] = 0 :: List.replicate m 0 := by
      intro m
      induction m with
      | zero => rfl
      | succ m ih => rw [List.replicate_succ, List.cons_append, ih]
    rw [List.append_assoc, hr]
    exact takeWhile_all (fun h => ht (List.mem_of_mem_take h)) _

example : FixedString.initText 3 ⟨[9, 9, 9, 9], 0⟩ [65, 66, 67, 68] = .ok ⟨[65, 66, 67, 0], 0⟩ := by decide +kernel

/-- The bound on element writes in C12 is needed: `SetAt(capacity, c)` is accepted and removes the terminator. -/
theorem c12_write_at_capacity_fails :
    ∃ s0 s, FixedString.init 2 ⟨[9, 9, 9], 0⟩ = .ok s0 ∧
      strRun 2 s0 [.copyFrom [65, 66], .setAt 2 67] = .ok s ∧ ¬ Terminated s.items :=
  ⟨⟨[0, 0, 0], 0⟩, ⟨[65, 66, 67], 0⟩, by decide +kernel, by decide +kernel, by simp [Terminated]⟩

/-- Also, the reported capacity is the real one only up to 255 characters. -/
theorem c12_capacity (n : Nat) : FixedString.getCapacity n = n ↔ n < 256 := by
  unfold FixedString.getCapacity toU
  omega

/-! ### C13 -/

/-- The bytes of element `i` of an array of `sz`-byte elements. -/
def elemBytes (sz : Nat) (bytes : List Nat) (i : Nat) : List Nat := (bytes.drop (i * sz)).take sz

/-- Element `i` reads as zero. -/
def ElemZero (sz : Nat) (bytes : List Nat) (i : Nat) : Prop := ∀ b ∈ elemBytes sz bytes i, b = 0

/-- The full claim of C13 for elements of `sz` bytes. -/
def C13Full (sz : Nat) : Prop :=
  ∀ (n : Nat) (bytes : List Nat), n < 65536 → bytes.length = n * sz →
    ∃ b', FixedArray.clearBytes n bytes = .ok b' ∧ ∀ i < n, ElemZero sz b' i

theorem elem_get (sz : Nat) (bytes : List Nat) (i k : Nat) (hk : k < sz) :
    (elemBytes sz bytes i)[k]? = bytes[i * sz + k]? := by
  unfold elemBytes
  rw [List.getElem?_take_of_lt hk, List.getElem?_drop]

/-- **C13, partial.** For one-byte elements (`char`, `uint8_t`, ...) every element is cleared.
    Missing: larger elements, for which the claim is false. -/
theorem c13_clear_partial : C13Full 1 := by
  intro n bytes hn hl
  refine ⟨_, by rw [FixedArray.clearBytes, FixedArray.memset0, if_pos (by omega)], ?_⟩
  intro i hi b hb
  rw [List.drop_of_length_le (by omega), List.append_nil] at hb
  exact List.eq_of_mem_replicate (List.mem_of_mem_drop (List.mem_of_mem_take hb))

/-- Exactly which elements are certain to be cleared: those lying entirely in the first `MaxItems` bytes. -/
theorem c13_which_elements (sz n i : Nat) (hsz : 0 < sz) (hi : i < n) :
    (∀ bytes : List Nat, bytes.length = n * sz →
      ∃ b', FixedArray.clearBytes n bytes = .ok b' ∧ ElemZero sz b' i) ↔ (i + 1) * sz ≤ n := by
  constructor
  · intro h
    obtain ⟨b', e, hz⟩ := h (List.replicate (n * sz) 1) (by simp)
    by_contra hc
    unfold FixedArray.clearBytes FixedArray.memset0 at e
    have hns : n ≤ n * sz := Nat.le_mul_of_pos_right n hsz
    rw [if_pos (by simpa using hns)] at e
    cases e
    have hpos : (i + 1) * sz - 1 < n * sz := by
      have : (i + 1) * sz ≤ n * sz := Nat.mul_le_mul_right sz hi
      have : 0 < (i + 1) * sz := Nat.mul_pos (by omega) hsz
      omega
    have hidx : i * sz + (sz - 1) = (i + 1) * sz - 1 := by rw [Nat.succ_mul]; omega
    have hg := elem_get sz (List.replicate n 0 ++ (List.replicate (n * sz) 1).drop n) i (sz - 1) (by omega)
    rw [hidx, List.getElem?_append_right (by simp; omega), List.getElem?_drop] at hg
    simp only [List.length_replicate] at hg
    rw [List.getElem?_replicate, if_pos (by omega)] at hg
    exact absurd (hz 1 (List.mem_of_getElem? hg)) (by decide)
  · intro h bytes hl
    refine ⟨_, by rw [FixedArray.clearBytes, FixedArray.memset0, if_pos (by rw [hl]; exact Nat.le_mul_of_pos_right n hsz)], ?_⟩
    intro b hb
    obtain ⟨k, hk, he⟩ := List.getElem_of_mem hb
    have hks : k < sz := by
      have : (elemBytes sz (List.replicate n 0 ++ bytes.drop n) i).length ≤ sz := by simp [elemBytes]; omega
      omega
    have hg := elem_get sz (List.replicate n 0 ++ bytes.drop n) i k hks
    rw [List.getElem?_eq_getElem hk, he] at hg
    have : i * sz + k < n := by rw [Nat.succ_mul] at h; omega
    rw [List.getElem?_append_left (by simpa using this), List.getElem?_replicate, if_pos this] at hg
    simpa using hg

example : (0 + 1) * 2 ≤ 4 ∧ ¬ (2 + 1) * 2 ≤ 4 := by decide

/-- **C13 fails** for every element type of more than one byte. -/
theorem c13_clear_fails (sz : Nat) (h : 2 ≤ sz) : ¬ C13Full sz := by
  intro hf
  have := (c13_which_elements sz 1 0 (by omega) (by decide)).1 (fun bytes hl => by
    obtain ⟨b', e, hz⟩ := hf 1 bytes (by decide) hl
    exact ⟨b', e, hz 0 (by decide)⟩)
  omega

end Atl.Props
