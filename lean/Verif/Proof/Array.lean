import Verif.Model.Array
import Verif.Spec.Lists

namespace Atl

variable {α : Type}

theorem toS16_small {n : Nat} (h : n ≤ 32767) : toS 16 n = n := by
  unfold toS; omega

theorem toS16_big {n : Nat} (h : 32767 < n) (h2 : n < 65536) : toS 16 n < 0 := by
  unfold toS; omega

theorem toS8_small {n : Nat} (h : n ≤ 127) : toS 8 n = n := by
  unfold toS; omega

theorem toU16_small {n : Nat} (h : n < 65536) : toU 16 n = n := by
  unfold toU; omega

theorem cGetI_ok {a : List α} {i : Int} (h0 : 0 ≤ i) (h : i < a.length) :
    cGetI a i = .ok (a[i.toNat]'(by omega)) := by
  have h1 : ¬ i < 0 := by omega
  simp only [cGetI, h1, if_false]
  exact cGet_ok (by omega)

theorem cSetI_ok {a : List α} {i : Int} (v : α) (h0 : 0 ≤ i) (h : i < a.length) :
    cSetI a i v = .ok (a.set i.toNat v) := by
  have h1 : ¬ i < 0 := by omega
  simp only [cSetI, h1, if_false]
  exact cSet_ok v (by omega)

namespace Arr

theorem isValidIndex_true {n : Nat} (hn : n < 65536) {i : Int} (h : isValidIndex n i = true) :
    n ≤ 32767 ∧ 0 ≤ i ∧ i < n := by
  simp only [isValidIndex, Bool.and_eq_true, decide_eq_true_eq] at h
  by_cases hb : n ≤ 32767
  · rw [toS16_small hb] at h; omega
  · have := toS16_big (n := n) (by omega) hn; omega

theorem isValidIndex_iff {n : Nat} (hn : n ≤ 32767) (i : Int) :
    isValidIndex n i = true ↔ 0 ≤ i ∧ i < n := by
  simp [isValidIndex, toS16_small hn]

theorem getAt_spec (d : α) (a : List α) (h : a.length ≤ 32767) (i : Int) :
    getAt d a i = .ok (Spec.getD d a i) := by
  unfold getAt Spec.getD
  by_cases hv : isValidIndex a.length i = true
  · have h' := (isValidIndex_iff h i).1 hv
    rw [hv, cGetI_ok h'.1 h'.2, if_pos h'.1, List.getElem?_eq_getElem (by omega)]
    simp
  · have h' : ¬ (0 ≤ i ∧ i < a.length) := fun x => hv ((isValidIndex_iff h i).2 x)
    simp only [Bool.not_eq_true] at hv
    rw [hv]
    simp only [Bool.not_false, if_true]
    split
    · rw [List.getElem?_eq_none (by omega)]; rfl
    · rfl

theorem getAt_safe (d : α) (a : List α) (h : a.length < 65536) (i : Int) :
    ∃ v, getAt d a i = .ok v := by
  unfold getAt
  by_cases hv : isValidIndex a.length i = true
  · have h' := isValidIndex_true h hv
    rw [hv, cGetI_ok h'.2.1 h'.2.2]
    simp
  · simp only [Bool.not_eq_true] at hv
    simp [hv]

theorem indexOfLoop_spec [DecidableEq α] (a : List α) (x : α) (h : a.length ≤ 32767) :
    ∀ (m i : Nat), a.length - i = m → (∀ j < i, a[j]? ≠ some x) →
      ∃ r, indexOfLoop a x a.length i = .ok r ∧ Spec.IsFirstIndex a x r := by
  intro m
  induction m with
  | zero =>
    intro i hi hj
    unfold indexOfLoop
    rw [if_neg (by omega)]
    refine ⟨-1, rfl, .inl ⟨rfl, fun hm => ?_⟩⟩
    obtain ⟨k, hk, he⟩ := List.getElem_of_mem hm
    exact hj k (by omega) (by rw [List.getElem?_eq_getElem hk, he])
  | succ m ih =>
    intro i hi hj
    unfold indexOfLoop
    have hl : i < a.length := by omega
    rw [if_pos hl, cGet_ok hl]
    simp only
    split
    · rename_i he
      exact ⟨i, rfl, .inr ⟨i, rfl, by rw [List.getElem?_eq_getElem hl, he], hj⟩⟩
    · rename_i hne
      refine ih (i + 1) (by omega) (fun j hj' => ?_)
      rcases Nat.lt_succ_iff_lt_or_eq.1 hj' with h1 | h1
      · exact hj j h1
      · subst h1; rw [List.getElem?_eq_getElem hl]; simpa using hne

end Arr

namespace FixedArray

theorem setAt_ok (s : FA α) (h : s.items.length < 65536) (i : Int) (v : α) :
    setAt s i v = .ok (if Arr.isValidIndex s.items.length i then { s with items := s.items.set i.toNat v } else s) := by
  unfold setAt
  by_cases hv : Arr.isValidIndex s.items.length i = true
  · have h' := Arr.isValidIndex_true h hv
    rw [hv, cSetI_ok v h'.2.1 h'.2.2]; simp
  · simp only [Bool.not_eq_true] at hv; simp [hv]

theorem writeIdx_ok (s : FA α) (h : s.items.length < 65536) (i : Int) (v : α) :
    writeIdx s i v = .ok (if Arr.isValidIndex s.items.length i then { s with items := s.items.set i.toNat v }
      else { s with dummy := v }) := by
  unfold writeIdx
  by_cases hv : Arr.isValidIndex s.items.length i = true
  · have h' := Arr.isValidIndex_true h hv
    rw [hv, cSetI_ok v h'.2.1 h'.2.2]; simp
  · simp only [Bool.not_eq_true] at hv; simp [hv]

end FixedArray

namespace Collection

/-- The collection `c` holds exactly the list `l`. -/
structure Rel (cap : Nat) (c : Coll α) (l : List α) : Prop where
  hcap : c.arr.items.length = cap
  hle : cap ≤ 32767
  hcnt : c.count = l.length
  hlen : l.length ≤ cap
  hpre : c.arr.items.take c.count = l

theorem Rel.get {cap : Nat} {c : Coll α} {l : List α} (h : Rel cap c l) {k : Nat} (hk : k < c.count) :
    c.arr.items[k]? = l[k]? := by
  rw [← h.hpre, List.getElem?_take_of_lt hk]

theorem getAt_rel {cap : Nat} {c : Coll α} {l : List α} (h : Rel cap c l) (d : α) (i : Int) :
    getAt d c i = .ok (Spec.getD d l i) := by
  have hc := h.hcnt; have hl := h.hlen; have hcap := h.hcap; have hle := h.hle
  unfold getAt isValidIndex
  by_cases h0 : 0 ≤ i
  · by_cases h1 : i < c.count
    · simp only [h0, h1, decide_true, Bool.and_self, Bool.not_true, Bool.false_eq_true, if_false]
      rw [Arr.getAt_spec d _ (by omega)]
      unfold Spec.getD
      rw [h.get (k := i.toNat) (by omega)]
    · simp only [h0, h1, decide_true, decide_false, Bool.and_false, Bool.not_false, if_true]
      unfold Spec.getD
      rw [if_pos h0, List.getElem?_eq_none (by omega)]; rfl
  · simp [h0, Spec.getD]

theorem add_rel {cap : Nat} {c : Coll α} {l : List α} (h : Rel cap c l) (x : α) :
    ∃ c', add c x = .ok c' ∧ Rel cap c' (Spec.lstep cap l (.add x)) := by
  have hc := h.hcnt; have hl := h.hlen; have hcap := h.hcap; have hle := h.hle
  unfold add getCapacity
  by_cases hr : c.count < c.arr.items.length
  · rw [if_pos hr, FixedArray.setAt_ok _ (by omega), toS16_small (by omega)]
    have hv : Arr.isValidIndex c.arr.items.length (c.count : Int) = true :=
      (Arr.isValidIndex_iff (by omega) _).2 ⟨by omega, by omega⟩
    rw [hv]
    refine ⟨_, rfl, ?_⟩
    simp only [Spec.lstep, if_pos (show l.length < cap by omega), if_true]
    have ht : toU 16 ((c.count : Int) + 1) = c.count + 1 := by unfold toU; omega
    rw [ht]
    refine ⟨by simp [hcap], hle, by simp [hc], by simp; omega, ?_⟩
    simp only [Int.toNat_natCast]
    rw [List.take_add_one, List.take_set, h.hpre, List.set_eq_of_length_le (by omega)]
    simp [hr]
  · rw [if_neg hr]
    refine ⟨_, rfl, ?_⟩
    simp only [Spec.lstep, if_neg (show ¬ l.length < cap by omega)]
    exact h

theorem setAt_rel {cap : Nat} {c : Coll α} {l : List α} (h : Rel cap c l) (i : Int) (x : α) :
    ∃ c', setAt c i x = .ok c' ∧ Rel cap c' (Spec.lstep cap l (.setAt i x)) := by
  have hc := h.hcnt; have hl := h.hlen; have hcap := h.hcap; have hle := h.hle
  unfold setAt isValidIndex
  by_cases h0 : 0 ≤ i
  · by_cases h1 : i < c.count
    · simp only [h0, h1, decide_true, Bool.and_self, Bool.not_true, Bool.false_eq_true, if_false]
      rw [FixedArray.setAt_ok _ (by omega)]
      have hv : Arr.isValidIndex c.arr.items.length i = true :=
        (Arr.isValidIndex_iff (by omega) _).2 ⟨by omega, by omega⟩
      rw [hv]
      refine ⟨_, rfl, ?_⟩
      simp only [Spec.lstep, if_pos h0, if_true]
      exact ⟨by simp [hcap], hle, by simp [hc], by simp; omega, by simp [List.take_set, h.hpre]⟩
    · simp only [h0, h1, decide_true, decide_false, Bool.and_false, Bool.not_false, if_true]
      refine ⟨_, rfl, ?_⟩
      simp only [Spec.lstep, if_pos h0]
      rw [List.set_eq_of_length_le (by omega)]
      exact h
  · simp only [h0, decide_false, Bool.false_and, Bool.not_false, if_true]
    exact ⟨_, rfl, by simpa [Spec.lstep, h0] using h⟩

theorem clear_rel {cap : Nat} {c : Coll α} {l : List α} (h : Rel cap c l) :
    Rel cap (clear c) (Spec.lstep cap l .clear) :=
  ⟨h.hcap, h.hle, rfl, by simp [Spec.lstep], by simp [Spec.lstep, clear]⟩

theorem indexOfLoop_spec [DecidableEq α] (d : α) {cap : Nat} {c : Coll α} {l : List α} (x : α) (h : Rel cap c l) :
    ∀ (m i : Nat), l.length - i = m → (∀ j < i, l[j]? ≠ some x) →
      (∃ k : Nat, indexOfLoop d c x m i = .ok (toS 8 k) ∧ Spec.IsFirstIndex l x k) ∨
      (indexOfLoop d c x m i = .ok (-1) ∧ x ∉ l) := by
  have hc := h.hcnt; have hl := h.hlen; have hcap := h.hcap; have hle := h.hle
  intro m
  induction m with
  | zero =>
    intro i hi hj
    unfold indexOfLoop
    refine .inr ⟨rfl, fun hm => ?_⟩
    obtain ⟨k, hk, he⟩ := List.getElem_of_mem hm
    exact hj k (by omega) (by rw [List.getElem?_eq_getElem hk, he])
  | succ m ih =>
    intro i hi hj
    unfold indexOfLoop
    have hil : i < l.length := by omega
    rw [toS16_small (by omega), Arr.getAt_spec d _ (by omega)]
    unfold Spec.getD
    rw [if_pos (by omega), Int.toNat_natCast, h.get (by omega), List.getElem?_eq_getElem hil]
    simp only [Option.getD_some]
    split
    · rename_i he
      exact .inl ⟨i, rfl, .inr ⟨i, rfl, by rw [List.getElem?_eq_getElem hil, he], hj⟩⟩
    · rename_i hne
      refine ih (i + 1) (by omega) (fun j hj' => ?_)
      rcases Nat.lt_succ_iff_lt_or_eq.1 hj' with h1 | h1
      · exact hj j h1
      · subst h1; rw [List.getElem?_eq_getElem hil]; simpa using hne

end Collection

namespace StaticArray

theorem getAt_spec (d : α) (a : List α) (i : Nat) (h : i < a.length) : getAt d a i = .ok a[i] := by
  unfold getAt isValidIndex
  rw [cGetI_ok (by omega) (by omega)]
  simp; omega

theorem indexOfRun_spec [DecidableEq α] (d : α) (a : List α) (x : α) (h : a.length ≤ 128) :
    ∀ (m i : Nat), a.length - i = m → (∀ j < i, a[j]? ≠ some x) →
      ∃ r, indexOfRun d a x (m + 1) i = some (.ok r) ∧ Spec.IsFirstIndex a x r := by
  intro m
  induction m with
  | zero =>
    intro i hi hj
    unfold indexOfRun indexOfStep
    rw [if_neg (by omega)]
    refine ⟨-1, rfl, .inl ⟨rfl, fun hm => ?_⟩⟩
    obtain ⟨k, hk, he⟩ := List.getElem_of_mem hm
    exact hj k (by omega) (by rw [List.getElem?_eq_getElem hk, he])
  | succ m ih =>
    intro i hi hj
    unfold indexOfRun indexOfStep
    have hl : i < a.length := by omega
    rw [if_pos hl, getAt_spec d a i hl]
    simp only
    by_cases he : a[i] = x
    · rw [if_pos he]
      refine ⟨toS 8 i, rfl, ?_⟩
      rw [toS8_small (by omega)]
      exact .inr ⟨i, rfl, by rw [List.getElem?_eq_getElem hl, he], hj⟩
    · rw [if_neg he]
      have ht : toU 8 ((i : Int) + 1) = i + 1 := by unfold toU; omega
      rw [ht]
      refine ih (i + 1) (by omega) (fun j hj' => ?_)
      rcases Nat.lt_succ_iff_lt_or_eq.1 hj' with h1 | h1
      · exact hj j h1
      · subst h1; rw [List.getElem?_eq_getElem hl]; simpa using he

/-- The search reaches the first occurrence when it is among the first 256 items, and the end of an array of up to 255 items. -/
theorem indexOfRun_exact [DecidableEq α] (d : α) (a : List α) (x : α) (n : Nat) (hn : n < 256)
    (hx : ∀ j < n, a[j]? ≠ some x) (hle : n ≤ a.length) (hend : a[n]? = some x ∨ n = a.length) :
    ∀ (m i : Nat), i + m = n → indexOfRun d a x (m + 1) i = some (.ok (if n = a.length then -1 else toS 8 n)) := by
  intro m
  induction m with
  | zero =>
    intro i hi
    have : i = n := by omega
    subst this
    unfold indexOfRun indexOfStep
    by_cases he : i = a.length
    · rw [if_neg (by omega), if_pos he]
    · rcases hend with h1 | h1
      · have hl : i < a.length := by omega
        rw [List.getElem?_eq_getElem hl] at h1
        rw [if_pos hl, getAt_spec d a i hl, if_neg he]
        simp only [Option.some.injEq] at h1
        simp only [h1, if_true]
      · exact absurd h1 he
  | succ m ih =>
    intro i hi
    have hl : i < a.length := by omega
    rw [indexOfRun]
    unfold indexOfStep
    rw [if_pos hl, getAt_spec d a i hl]
    have hne : ¬ a[i] = x := by
      have := hx i (by omega)
      rw [List.getElem?_eq_getElem hl] at this
      simpa using this
    have ht : toU 8 ((i : Int) + 1) = i + 1 := by unfold toU; omega
    simp only [if_neg hne, ht]
    exact ih (i + 1) (by omega)

theorem indexOfRun_forever [DecidableEq α] (d : α) (a : List α) (x : α) (h : 256 ≤ a.length)
    (hx : ∀ j < 256, a[j]? ≠ some x) : ∀ (fuel i : Nat), i < 256 → indexOfRun d a x fuel i = none := by
  intro fuel
  induction fuel with
  | zero => intro i _; rfl
  | succ fuel ih =>
    intro i hi
    unfold indexOfRun indexOfStep
    have hl : i < a.length := by omega
    rw [if_pos hl, getAt_spec d a i hl]
    have hne : ¬ a[i] = x := by
      have := hx i hi
      rw [List.getElem?_eq_getElem hl] at this
      simpa using this
    simp only [if_neg hne]
    exact ih _ (by unfold toU; omega)

end StaticArray

namespace FixedString

theorem strncpyLoop_spec (n : Nat) : ∀ (m : Nat) (src buf : List Int) (i : Nat), n - i = m → n ≤ buf.length → i ≤ n →
    strncpyLoop buf src n i =
      .ok (buf.take i ++ (src.take m ++ List.replicate (m - src.length) 0) ++ buf.drop n) := by
  intro m
  induction m with
  | zero =>
    intro src buf i hi hb hin
    unfold strncpyLoop
    have : i = n := by omega
    subst this
    simp
  | succ m ih =>
    intro src buf i hi hb hin
    unfold strncpyLoop
    rw [if_pos (by omega), cSet_ok _ (by omega)]
    simp only
    rw [ih src.tail _ (i + 1) (by omega) (by simpa using hb) (by omega)]
    congr 1
    have hil : i < buf.length := by omega
    rw [List.drop_set_of_lt (by omega)]
    rw [List.take_add_one, List.take_set]
    rw [List.set_eq_of_length_le (l := buf.take i) (by simp; omega)]
    cases src with
    | nil => simp [hil, List.replicate_succ]
    | cons c cs => simp [hil]

end FixedString
end Atl
