import Verif.Model.CoreSketch
import Verif.Props.Array
import Verif.Props.BitsSigned
/- Property theorems C110: the examples of the ATL library itself. -/
namespace Atl.Props
open Atl Atl.CoreSketch

/-- **C110, Array example.** For every array and every position that is read and written back, in or out of range: the program meets no undefined behaviour, the
    value is in both places and every other element is as before. -/
theorem c110_array (s : FixedArray.FA Int) (h : s.items.length ≤ 32767) (i j : Nat) (hi : i < s.items.length) (hj : j < s.items.length) (v k : Int) :
    ∃ s', arraySetup s i v j k = .ok s' ∧ s'.items.length = s.items.length ∧
      (∀ m, s'.items[m]? = if m = i ∨ m = j then some v else s.items[m]?) ∧ s'.dummy = s.dummy := by
  have vi : Arr.isValidIndex s.items.length i = true := (Arr.isValidIndex_iff h _).2 (by omega)
  have vj : Arr.isValidIndex s.items.length j = true := (Arr.isValidIndex_iff h _).2 (by omega)
  have e1 : FixedArray.writeIdx s i v = .ok { s with items := s.items.set i v } := by
    rw [FixedArray.writeIdx_ok s (by omega)]; simp [vi]
  have e2 : FixedArray.readIdx { s with items := s.items.set i v } i = .ok v := by
    simp only [FixedArray.readIdx, List.length_set, vi, Bool.not_true, Bool.false_eq_true, if_false]
    rw [cGetI_ok (by omega) (by simpa using hi)]
    simp
  have e3 : FixedArray.setAt { s with items := s.items.set i v } j v = .ok { s with items := (s.items.set i v).set j v } := by
    rw [FixedArray.setAt_ok _ (by simp; omega)]; simp [vj]
  have e4 : ∀ u : FixedArray.FA Int, u.items.length ≤ 32767 → ∃ y, FixedArray.readIdx u k = .ok y ∧ FixedArray.writeIdx u k y = .ok u := by
    intro u hu
    by_cases hk : 0 ≤ k ∧ k < u.items.length
    · have vk : Arr.isValidIndex u.items.length k = true := (Arr.isValidIndex_iff hu _).2 hk
      refine ⟨u.items[k.toNat]'(by omega), ?_, ?_⟩
      · simp only [FixedArray.readIdx, vk, Bool.not_true, Bool.false_eq_true, if_false]
        rw [cGetI_ok hk.1 hk.2]
      · rw [FixedArray.writeIdx_ok _ (by omega)]; simp [vk]
    · have vk : Arr.isValidIndex u.items.length k = false := by
        rw [← Bool.not_eq_true, Arr.isValidIndex_iff hu]; exact hk
      exact ⟨u.dummy, by simp [FixedArray.readIdx, vk], by simp [FixedArray.writeIdx, vk]⟩
  obtain ⟨y, e5, e6⟩ := e4 { s with items := (s.items.set i v).set j v } (by simpa using h)
  refine ⟨{ s with items := (s.items.set i v).set j v }, by simp only [arraySetup, e1, e2, e3, e5, e6, Res.bind_ok], by simp, fun m => ?_, rfl⟩
  simp only
  by_cases h1 : m = j
  · subst h1; simp [hj]
  · by_cases h2 : m = i
    · subst h2
      rw [List.getElem?_set_ne (by omega)]; simp [hi]
    · rw [List.getElem?_set_ne (by omega), List.getElem?_set_ne (by omega)]; simp [h1, h2]

/-- The sketch. -/
example : arraySetup ⟨[0, 0, 0, 0], 0⟩ 0 42 2 10 = .ok ⟨[42, 0, 42, 0], 0⟩ := by decide +kernel

/-- **C110, Bit example.** Bit `i` (below 8) of both values is false in the end and no other bit has changed. -/
theorem c110_bit (W : Nat) (hW : 8 ≤ W) (i : Nat) (hi : i < 8) (x : BitVec W) (y : BitVec 8) :
    ∃ x' y', bitSetup W i x y = .ok (x', y') ∧ (∀ j < W, x'.getLsbD j = (x.getLsbD j && decide (j ≠ i))) ∧
      ∀ j < 8, y'.getLsbD j = (y.getLsbD j && decide (j ≠ i)) := by
  obtain ⟨x1, e1, b1⟩ := (c109_bit_partial W x i (by omega) (.inl (by omega))).1.1
  obtain ⟨y1, e2, b2⟩ := (c08_bit_partial W y i hi (.inl hW)).1
  obtain ⟨x2, e3, b3⟩ := ((c109_bitflag_partial W x1 i).1 (by omega) (.inl (by omega))).1.2.2.1 false
  obtain ⟨y2, e4, b4⟩ := (c08_bitflag_partial W y1 i hi (.inl hW)).2.2.1 false
  refine ⟨x2, y2, by simp only [bitSetup, e1, e2, e3, e4, Res.bind_ok], fun j hj => ?_, fun j hj => ?_⟩
  · rw [b3 j hj, b1 j hj]; by_cases h : j = i <;> simp [h]
  · rw [b4 j hj, b2 j hj]; by_cases h : j = i <;> simp [h]

/-- The sketch, on AVR. -/
example : bitSetup 16 3 0 0 = .ok (0, 0) := by decide +kernel

/-- **C110, BitArray example.** With `int` of 16 or 32 bits: the bit that was set is reported, the field reads back the low `c` bits of the value, and in the end
    the array holds exactly the bits of the field, mirrored and moved down by `k`. -/
theorem c110_bitarray (W : Nat) (hW : W = 16 ∨ W = 32) (bits : BitVec 16) (i : Nat) (hi : i < 16) (p : Nat) (v : BitVec 16) (c : Nat) (hp : p < 16)
    (hc : p + c ≤ 16) (k : Nat) (hk : k < 16) :
    ∃ nibble r, bitArraySetup W bits i p v c k = .ok (true, nibble, r) ∧ nibble.toNat = v.toNat % 2 ^ c ∧
      ∀ j < 16, r.getLsbD j = (decide (j + k < 16) && (decide (p ≤ 15 - (j + k)) && decide (15 - (j + k) < p + c) && v.getLsbD (15 - (j + k) - p))) := by
  obtain ⟨b1, e1, h1⟩ := (c06_single_bit_partial W bits i hi (.inl (by omega))).1
  have e2 := (c06_single_bit_partial W b1 i hi (.inl (by omega))).2.2.2.1
  rw [h1 i hi, if_pos rfl] at e2
  obtain ⟨b3, g, e3, e4, hg⟩ := c05_get_after_set W (0 : BitVec 16) v p c hc (.inl hp)
  obtain ⟨b3', e3', h3⟩ := c05_set_field W (0 : BitVec 16) v p c hc (.inl hp)
  have : b3' = b3 := by rw [e3] at e3'; injection e3' with e; injection e with e _; exact e.symm
  subst this
  obtain ⟨r, e5, h5⟩ := (c85_shift_partial W 16 (by decide) hW (Bits.BitArray.reverse b3') k hk).2
  refine ⟨g, r, by simp only [bitArraySetup, e1, e2, e3, e4, e5, Res.bind_ok], hg, fun j hj => ?_⟩
  rw [h5 j hj]
  by_cases h : j + k < 16
  · rw [if_pos h, c07_reverse _ _ h, h3 _ (by omega)]
    have e : 16 - 1 - (j + k) = 15 - (j + k) := rfl
    rw [e]
    by_cases q : p ≤ 15 - (j + k) ∧ 15 - (j + k) < p + c
    · rw [if_pos q]; simp [q, h]
    · rw [if_neg q, decide_eq_true h]
      have : (decide (p ≤ 15 - (j + k)) && decide (15 - (j + k) < p + c)) = false := by rw [← Bool.decide_and, decide_eq_false q]
      simp [this]
  · rw [if_neg h]; simp [h]

/-- The sketch: the nibble at the bottom goes to the top and then down by four. -/
example : bitArraySetup 16 0 2 0 0xF 4 4 = .ok (true, 0xF, 0x0F00) := by decide +kernel

theorem addAll_rel {cap : Nat} {c : Collection.Coll Int} {l : List Int} (h : Collection.Rel cap c l) (vs : List Int) :
    ∃ c', addAll c vs = .ok c' ∧ Collection.Rel cap c' ((l ++ vs).take (max cap l.length)) := by
  induction vs generalizing c l with
  | nil => exact ⟨c, rfl, by simpa [List.take_of_length_le (by omega : l.length ≤ max cap l.length)] using h⟩
  | cons v vs ih =>
    obtain ⟨c1, e1, h1⟩ := Collection.add_rel h v
    obtain ⟨c2, e2, h2⟩ := ih h1
    refine ⟨c2, by simp only [addAll, e1, e2, Res.bind_ok], ?_⟩
    have hl := h.hlen
    have : ((Spec.lstep cap l (.add v)) ++ vs).take (max cap (Spec.lstep cap l (.add v)).length) = (l ++ v :: vs).take (max cap l.length) := by
      simp only [Spec.lstep]
      split
      · rename_i hlt
        have e1 : max cap (l ++ [v]).length = cap := by simp; omega
        have e2 : max cap l.length = cap := by omega
        rw [e1, e2]; simp
      · have e2 : max cap l.length = l.length := by omega
        rw [e2]; simp
    rwa [this] at h2

theorem readLoop_ok {cap : Nat} {c : Collection.Coll Int} {l : List Int} (h : Collection.Rel cap c l) (hl : l.length ≤ 255) :
    ∀ (fuel i : Nat), i ≤ l.length → l.length - i < fuel → readLoop c fuel i = some (.ok (l.drop i)) := by
  intro fuel
  induction fuel with
  | zero => intro i hi hf; omega
  | succ fuel ih =>
    intro i hi hf
    by_cases hlt : i < l.length
    · have hc : i < Collection.getCount c := by rw [Collection.getCount, h.hcnt]; omega
      have hu : toU 8 ((i : Int) + 1) = i + 1 := by unfold toU; omega
      rw [readLoop, if_pos hc, Collection.getAt_rel h, hu, ih (i + 1) (by omega) (by omega)]
      rw [List.drop_eq_getElem_cons hlt]
      simp [Spec.getD, hlt]
    · have : ¬ i < Collection.getCount c := by rw [Collection.getCount, h.hcnt]; omega
      rw [readLoop, if_neg this, List.drop_of_length_le (by omega)]

/-- **C110, CollectionRef example, partial.** With an array of up to 255 elements: however many values are added, the loop ends and reads exactly the values that
    fitted, in the order in which they were added. Missing: larger arrays, where the loop does not end. -/
theorem c110_collection_partial (arr : FixedArray.FA Int) (h : arr.items.length ≤ 255) (vs : List Int) (fuel : Nat) (hf : 256 ≤ fuel) :
    collectionSetup arr vs fuel = some (.ok (vs.take arr.items.length)) := by
  obtain ⟨c, e, hr⟩ := addAll_rel (collInit_rel arr (by omega)) vs
  simp only [List.nil_append, List.length_nil, Nat.max_zero] at hr
  have hl : (vs.take arr.items.length).length ≤ 255 := by simp; omega
  simp only [collectionSetup, e]
  rw [readLoop_ok hr hl fuel 0 (by omega) (by omega)]
  simp

/-- The sketch: two of the four values fit. -/
example : collectionSetup ⟨[7, 7], 0⟩ [42, 42, 42, 42] 256 = some (.ok [42, 42]) := c110_collection_partial _ (by decide) _ _ (by decide)

/-- **C110 fails** for the loop of the CollectionRef example with 256 items or more: its counter is an `unsigned char`, so it starts again at 0 and never ends. -/
theorem c110_collection_fails (arr : FixedArray.FA Int) (h : arr.items.length ≤ 32767) (h2 : 256 ≤ arr.items.length) (vs : List Int) (hv : 256 ≤ vs.length)
    (fuel : Nat) : collectionSetup arr vs fuel = none := by
  obtain ⟨c, e, hr⟩ := addAll_rel (collInit_rel arr h) vs
  simp only [List.nil_append, List.length_nil, Nat.max_zero] at hr
  have hl : 256 ≤ Collection.getCount c := by rw [Collection.getCount, hr.hcnt]; simp; omega
  have hloop : ∀ fuel i, i < 256 → readLoop c fuel i = none := by
    intro fuel
    induction fuel with
    | zero => intro i _; rfl
    | succ fuel ih =>
      intro i hi
      have hc : i < Collection.getCount c := by omega
      have hu : toU 8 ((i : Int) + 1) < 256 := by unfold toU; omega
      rw [readLoop, if_pos hc, Collection.getAt_rel hr, ih _ hu]
  simp only [collectionSetup, e]
  exact hloop fuel 0 (by omega)

end Atl.Props
