import Verif.Model.CollectionInterrupt
import Verif.Props.Array

/-!
  C150: one `Collection` used by main code and by interrupt handlers.
-/
namespace Atl.Props
open Atl.Collection Atl.CollectionInterrupt

namespace SharedColl
variable {α : Type}

/-! ### Specification -/

/-- A call as an operation on bounded lists. -/
def spec : Op α → Spec.LOp α
  | .add x => .add x
  | .setAt i x => .setAt i x
  | .clear => .clear

/-- The list that these calls, one after the other, make of the empty list. -/
def listOf (cap : Nat) (l : List (Bool × Op α)) : List α := Spec.lrun cap [] (l.map fun p => spec p.2)

/-- The collection holds these items: its count, and at every signed index the item or the default. -/
def Holds (d : α) (c : Coll α) (l : List α) : Prop := getCount c = l.length ∧ ∀ i : Int, getAt d c i = .ok (Spec.getD d l i)

/-- Main code is in `Add`. -/
def adding : Pc α → Bool
  | .index _ | .place _ _ | .bump _ | .store _ _ | .first _ _ | .late _ _ => true
  | _ => false

/-- Main code has counted an item it has not stored. -/
def ahead : Pc α → Bool
  | .late _ _ => true
  | _ => false

/-- Main code makes its calls one after the other, and while it is in `Add` handlers call `SetAt` only. -/
def Fair [DecidableEq α] (once early : Bool) (d : α) : St α → List (Ev α) → Prop
  | _, [] => True
  | s, e :: es => (match e with
      | .call _ | .find _ => s.pc = .idle
      | .main => True
      | .handler o => adding s.pc = true → ∃ i x, o = .setAt i x) ∧ ∀ s', step once early d s e = .ok s' → Fair once early d s' es

/-- Handlers add, and main code goes on. -/
def Adds (es : List (Ev α)) : Prop := ∀ e ∈ es, e = .main ∨ ∃ x, e = .handler (.add x)

/-- `r` is what `IndexOf` returns for `y` in `l`: the first position, converted to `char`, or -1. -/
def Found (l : List α) (y : α) (r : Int) : Prop := (r = -1 ∧ y ∉ l) ∨ ∃ k : Nat, r = toS 8 k ∧ l[k]? = some y ∧ ∀ j < k, l[j]? ≠ some y

/-- The calls of main code in a history that change the collection. -/
def mainOps (es : List (Ev α)) : List (Op α) := es.filterMap fun | .call o => some o | _ => none
/-- The calls of handlers. -/
def handlerOps (es : List (Ev α)) : List (Op α) := es.filterMap fun | .handler o => some o | _ => none

/-! ### Proofs -/

theorem whole_rel {cap : Nat} {c : Coll α} {l : List α} (h : Rel cap c l) (o : Op α) : ∃ c', whole c o = .ok c' ∧ Rel cap c' (Spec.lstep cap l (spec o)) := by
  cases o with
  | add x => exact Collection.add_rel h x
  | setAt i x => exact Collection.setAt_rel h i x
  | clear => exact ⟨_, rfl, Collection.clear_rel h⟩

theorem listOf_append (cap : Nat) (l : List (Bool × Op α)) (p : Bool × Op α) : listOf cap (l ++ [p]) = Spec.lstep cap (listOf cap l) (spec p.2) := by
  simp [listOf, Spec.lrun]

/-- `SetAt` leaves the count and what is behind it. -/
theorem setAt_keeps {c c' : Coll α} (hc : c.arr.items.length ≤ 32767) {i : Int} {x : α} (h : whole c (.setAt i x) = .ok c') :
    c'.count = c.count ∧ ∀ k, c.count ≤ k → c'.arr.items[k]? = c.arr.items[k]? := by
  simp only [whole, Collection.setAt] at h
  split at h
  · cases h; exact ⟨rfl, fun _ _ => rfl⟩
  · rename_i hv
    rw [FixedArray.setAt_ok _ (by omega)] at h
    cases h
    refine ⟨rfl, fun k hk => ?_⟩
    simp only [Collection.isValidIndex, Bool.not_eq_true, Bool.not_eq_false', Bool.and_eq_true, decide_eq_true_eq] at hv
    simp only
    split
    · rw [List.getElem?_set_ne (by omega)]
    · rfl

theorem rel_bump {cap : Nat} {c : Coll α} {l : List α} {x : α} (h : Rel cap c l) (hn : c.count < cap) (hx : c.arr.items[c.count]? = some x) :
    Rel cap { c with count := c.count + 1 } (l ++ [x]) := by
  have hc := h.hcnt; have hl := h.hlen
  refine ⟨h.hcap, h.hle, by simp [hc], by simp; omega, ?_⟩
  simp only
  rw [List.take_add_one, h.hpre, hx]
  rfl

theorem set_behind {cap : Nat} {c : Coll α} {l : List α} (h : Rel cap c l) (hn : c.count < cap) (x : α) :
    ∃ arr, FixedArray.setAt c.arr (toS 16 c.count) x = .ok arr ∧ Rel cap { c with arr := arr } l ∧ arr.items[c.count]? = some x := by
  have hcap := h.hcap; have hle := h.hle
  rw [FixedArray.setAt_ok _ (by omega), toS16_small (by omega)]
  have hv : Arr.isValidIndex c.arr.items.length (c.count : Int) = true := (Arr.isValidIndex_iff (by omega) _).2 ⟨by omega, by omega⟩
  rw [hv]
  refine ⟨_, rfl, ⟨by simp [hcap], hle, h.hcnt, h.hlen, ?_⟩, ?_⟩
  · simp only [if_true, Int.toNat_natCast]
    rw [List.take_set, h.hpre, List.set_eq_of_length_le (by rw [← h.hcnt]; omega)]
  · simp only [if_true, Int.toNat_natCast]
    rw [List.getElem?_set_self (by omega)]

/-- The place of main code in `Add`. -/
def Placed (cap : Nat) (c : Coll α) : Pc α → Prop
  | .index _ => c.count < cap
  | .place _ n | .first _ n => n = c.count ∧ c.count < cap
  | .bump x => c.count < cap ∧ c.arr.items[c.count]? = some x
  | .store x v => c.count < cap ∧ c.arr.items[c.count]? = some x ∧ v = c.count + 1
  | _ => True

/-- The invariant. -/
def Inv (cap : Nat) (s : St α) : Prop :=
  match s.pc with
  | .late _ n => s.coll.count = n + 1 ∧ n < cap ∧ Rel cap { s.coll with count := n } (listOf cap s.done)
  | pc => Rel cap s.coll (listOf cap s.done) ∧ Placed cap s.coll pc

theorem inv_of {cap : Nat} {s : St α} (hn : ahead s.pc = false) : Inv cap s ↔ Rel cap s.coll (listOf cap s.done) ∧ Placed cap s.coll s.pc := by
  obtain ⟨c, pc, a, l⟩ := s
  cases pc <;> first | rfl | simp [ahead] at hn

theorem lstep_add {cap : Nat} {l : List α} (x : α) (h : l.length < cap) : Spec.lstep cap l (.add x) = l ++ [x] := by simp [Spec.lstep, h]

variable [DecidableEq α]

theorem inv_step {once early : Bool} {d : α} {cap : Nat} {s : St α} {e : Ev α} (h : Inv cap s)
    (hf : match e with
      | .call _ | .find _ => s.pc = .idle
      | .main => True
      | .handler o => adding s.pc = true → ∃ i x, o = .setAt i x) : ∃ s', step once early d s e = .ok s' ∧ Inv cap s' := by
  obtain ⟨c, pc, a, l⟩ := s
  cases e with
  | call o =>
    simp only at hf
    subst hf
    have hr : Rel cap c (listOf cap l) := h.1
    have rest : ∀ o : Op α, ∃ s', (do let c ← whole c o; .ok ⟨c, .idle, a, l ++ [(false, o)]⟩ : Res (St α)) = .ok s' ∧ Inv cap s' := by
      intro o
      obtain ⟨c', h1, h2⟩ := whole_rel hr o
      refine ⟨_, by rw [h1]; rfl, ?_⟩
      exact ⟨by rw [listOf_append]; exact h2, trivial⟩
    cases o with
    | add x =>
      simp only [step, begin]
      have hc : getCapacity c = cap := hr.hcap
      by_cases hlt : c.count < getCapacity c
      · rw [if_pos hlt]
        rw [hc] at hlt
        refine ⟨_, rfl, ?_⟩
        cases once
        · exact ⟨hr, hlt⟩
        · cases early
          · exact ⟨hr, rfl, hlt⟩
          · exact ⟨hr, rfl, hlt⟩
      · rw [if_neg hlt]
        refine ⟨_, rfl, ?_, trivial⟩
        rw [hc] at hlt
        have : ¬ (listOf cap l).length < cap := by rw [← hr.hcnt]; exact hlt
        rw [listOf_append]
        simp only [spec, Spec.lstep, if_neg this]
        exact hr
    | setAt i x => exact rest (.setAt i x)
    | clear => exact rest .clear
  | find y =>
    simp only at hf
    subst hf
    exact ⟨_, rfl, h⟩
  | handler o =>
    simp only [step]
    by_cases hl : ∃ x n, pc = .late x n
    · obtain ⟨x, n, rfl⟩ := hl
      obtain ⟨i, y, rfl⟩ := hf rfl
      obtain ⟨h1, h2, h3⟩ := h
      simp only at h1 h2 h3
      have hcap : c.arr.items.length = cap := h3.hcap
      have hle := h3.hle
      have hcnt : n = (listOf cap l).length := h3.hcnt
      have hpre : c.arr.items.take n = listOf cap l := h3.hpre
      simp only [whole, Collection.setAt]
      by_cases hv : Collection.isValidIndex c i = true
      · rw [hv, FixedArray.setAt_ok _ (by omega)]
        refine ⟨_, rfl, h1, h2, ?_⟩
        simp only [Collection.isValidIndex, Bool.and_eq_true, decide_eq_true_eq] at hv
        have hv' : Arr.isValidIndex c.arr.items.length i = true := (Arr.isValidIndex_iff (by omega) _).2 ⟨by omega, by omega⟩
        rw [listOf_append]
        simp only [spec, Spec.lstep, hv', if_true, if_pos hv.1]
        exact ⟨by simp [hcap], hle, by simp [hcnt], by simpa using h3.hlen, by simp [List.take_set, hpre]⟩
      · simp only [Bool.not_eq_true] at hv
        rw [hv]
        refine ⟨_, rfl, h1, h2, ?_⟩
        rw [listOf_append]
        simp only [spec, Spec.lstep]
        have e : (if 0 ≤ i then (listOf cap l).set i.toNat y else listOf cap l) = listOf cap l := by
          split
          · rename_i h0
            simp only [Collection.isValidIndex, Bool.and_eq_false_iff, decide_eq_false_iff_not] at hv
            rw [List.set_eq_of_length_le]
            omega
          · rfl
        rw [e]
        exact h3
    · have hn : ahead pc = false := by cases pc <;> first | rfl | exact absurd ⟨_, _, rfl⟩ hl
      obtain ⟨hr, hp⟩ := (inv_of (s := ⟨c, pc, a, l⟩) hn).1 h
      simp only at hr hp
      obtain ⟨c', h1, h2⟩ := whole_rel hr o
      refine ⟨⟨c', pc, a, l ++ [(true, o)]⟩, by rw [h1]; rfl, (inv_of (s := ⟨c', pc, a, l ++ [(true, o)]⟩) hn).2 ⟨by rw [listOf_append]; exact h2, ?_⟩⟩
      by_cases ha : adding pc = true
      · obtain ⟨i, y, rfl⟩ := hf ha
        have hcap : c.arr.items.length ≤ 32767 := by rw [hr.hcap]; exact hr.hle
        obtain ⟨g1, g2⟩ := setAt_keeps hcap h1
        have g3 := g2 c.count (by omega)
        cases pc <;> simp only [Placed, g1, g3] at hp ⊢ <;> exact hp
      · cases pc <;> simp [adding, Placed] at ha ⊢
  | main =>
    simp only [step]
    cases pc with
    | idle => exact ⟨_, rfl, h⟩
    | index x => exact ⟨_, rfl, h.1, rfl, h.2⟩
    | place x n =>
      obtain ⟨hr, hp, hlt⟩ := h
      simp only at hr hp hlt
      subst hp
      obtain ⟨arr, h1, h2, h3⟩ := set_behind hr hlt x
      simp only [mainStep, h1, Res.bind_ok]
      refine ⟨_, rfl, ?_⟩
      cases once
      · exact ⟨h2, hlt, h3⟩
      · have ht : toU 16 ((c.count : Int) + 1) = c.count + 1 := by have := hr.hle; unfold toU; omega
        exact ⟨h2, hlt, h3, ht⟩
    | bump x =>
      obtain ⟨hr, hlt, hx⟩ := h
      simp only at hr hlt hx
      have ht : toU 16 ((c.count : Int) + 1) = c.count + 1 := by have := hr.hle; unfold toU; omega
      exact ⟨_, rfl, hr, hlt, hx, ht⟩
    | store x v =>
      obtain ⟨hr, hlt, hx, hv⟩ := h
      simp only at hr hlt hx hv
      subst hv
      refine ⟨_, rfl, ?_, trivial⟩
      rw [listOf_append]
      simp only [spec]
      rw [lstep_add x (by rw [← hr.hcnt]; exact hlt)]
      exact rel_bump hr hlt hx
    | first x n =>
      obtain ⟨hr, hp, hlt⟩ := h
      simp only at hr hp hlt
      subst hp
      have ht : toU 16 ((c.count : Int) + 1) = c.count + 1 := by have := hr.hle; unfold toU; omega
      exact ⟨_, rfl, ht, hlt, hr⟩
    | late x n =>
      obtain ⟨h1, h2, h3⟩ := h
      simp only at h1 h2 h3
      obtain ⟨arr, g1, g2, g3⟩ := set_behind h3 h2 x
      simp only at g1 g2 g3
      simp only [mainStep, g1, Res.bind_ok]
      refine ⟨_, rfl, ?_, trivial⟩
      rw [listOf_append]
      simp only [spec]
      have hcnt : n = (listOf cap l).length := h3.hcnt
      rw [lstep_add x (by rw [← hcnt]; exact h2)]
      have := rel_bump g2 h2 g3
      simp only at this
      rw [h1]
      exact this
    | test y i n =>
      simp only [mainStep]
      split
      · exact ⟨_, rfl, h⟩
      · exact ⟨_, rfl, h⟩
    | item y i n =>
      have hr : Rel cap c (listOf cap l) := h.1
      simp only [mainStep]
      rw [Arr.getAt_spec d _ (by rw [hr.hcap]; exact hr.hle), Res.bind_ok]
      split
      · exact ⟨_, rfl, h⟩
      · exact ⟨_, rfl, h⟩

theorem inv_run {once early : Bool} {d : α} {cap : Nat} (es : List (Ev α)) : ∀ s : St α, Inv cap s → Fair once early d s es → ∃ s', run once early d s es = .ok s' ∧ Inv cap s' := by
  induction es with
  | nil => intro s h _; exact ⟨s, rfl, h⟩
  | cons e es ih =>
    intro s h hf
    obtain ⟨s1, h1, h2⟩ := inv_step (once := once) (early := early) (d := d) h hf.1
    obtain ⟨s2, g1, g2⟩ := ih s1 h2 (hf.2 s1 h1)
    exact ⟨s2, by simp only [run, h1, Res.bind_ok, g1], g2⟩

/-- Main code's call that has not taken effect yet. -/
def pending : Pc α → List (Op α)
  | .index x | .place x _ | .bump x | .store x _ | .first x _ | .late x _ => [.add x]
  | _ => []

/-- The calls of main code so far are `M`, those of handlers `H`. -/
def Known (M H : List (Op α)) (s : St α) : Prop :=
  M = (s.done.filter fun p => !p.1).map Prod.snd ++ pending s.pc ∧ H = (s.done.filter fun p => p.1).map Prod.snd

theorem known_step {once early : Bool} {d : α} {M H : List (Op α)} {s s' : St α} {e : Ev α} (h : Known M H s) (hs : step once early d s e = .ok s')
    (hf : match e with
      | .call _ | .find _ => s.pc = .idle
      | _ => True) : Known (M ++ mainOps [e]) (H ++ handlerOps [e]) s' := by
  obtain ⟨c, pc, a, l⟩ := s
  obtain ⟨h1, h2⟩ := h
  simp only at h1 h2
  subst h1 h2
  cases e with
  | call o =>
    simp only at hf
    subst hf
    have rest : ∀ o : Op α, (do let c ← whole c o; .ok ⟨c, .idle, a, l ++ [(false, o)]⟩ : Res (St α)) = .ok s' →
        Known ((l.filter fun p => !p.1).map Prod.snd ++ pending (.idle : Pc α) ++ mainOps [.call o]) ((l.filter fun p => p.1).map Prod.snd ++ handlerOps [.call o]) s' := by
      intro o hs
      cases hw : whole c o with
      | ub => rw [hw] at hs; simp at hs
      | ok c' => rw [hw] at hs; simp only [Res.bind_ok, Res.ok.injEq] at hs; subst hs; simp [Known, pending, mainOps, handlerOps]
    cases o with
    | add x =>
      simp only [step, begin] at hs
      split at hs
      · simp only [Res.ok.injEq] at hs
        subst hs
        cases once <;> cases early <;> simp [Known, pending, mainOps, handlerOps]
      · simp only [Res.ok.injEq] at hs
        subst hs
        simp [Known, pending, mainOps, handlerOps]
    | setAt i x => exact rest (.setAt i x) hs
    | clear => exact rest .clear hs
  | find y =>
    simp only at hf
    subst hf
    simp only [step, Res.ok.injEq] at hs
    subst hs
    simp [Known, pending, mainOps, handlerOps]
  | handler o =>
    simp only [step] at hs
    cases hw : whole c o with
    | ub => rw [hw] at hs; simp at hs
    | ok c' => rw [hw] at hs; simp only [Res.bind_ok, Res.ok.injEq] at hs; subst hs; simp [Known, mainOps, handlerOps]
  | main =>
    simp only [step] at hs
    cases pc with
    | idle => simp only [mainStep, Res.ok.injEq] at hs; subst hs; simp [Known, pending, mainOps, handlerOps]
    | index x => simp only [mainStep, Res.ok.injEq] at hs; subst hs; simp [Known, pending, mainOps, handlerOps]
    | place x n =>
      simp only [mainStep] at hs
      cases hw : FixedArray.setAt c.arr (toS 16 n) x with
      | ub => rw [hw] at hs; simp at hs
      | ok c' => rw [hw] at hs; simp only [Res.bind_ok, Res.ok.injEq] at hs; subst hs; cases once <;> simp [Known, pending, mainOps, handlerOps]
    | bump x => simp only [mainStep, Res.ok.injEq] at hs; subst hs; simp [Known, pending, mainOps, handlerOps]
    | store x v => simp only [mainStep, Res.ok.injEq] at hs; subst hs; simp [Known, pending, mainOps, handlerOps]
    | first x n => simp only [mainStep, Res.ok.injEq] at hs; subst hs; simp [Known, pending, mainOps, handlerOps]
    | late x n =>
      simp only [mainStep] at hs
      cases hw : FixedArray.setAt c.arr (toS 16 n) x with
      | ub => rw [hw] at hs; simp at hs
      | ok c' => rw [hw] at hs; simp only [Res.bind_ok, Res.ok.injEq] at hs; subst hs; simp [Known, pending, mainOps, handlerOps]
    | test y i n =>
      simp only [mainStep] at hs
      split at hs <;> simp only [Res.ok.injEq] at hs <;> subst hs <;> simp [Known, pending, mainOps, handlerOps]
    | item y i n =>
      simp only [mainStep] at hs
      cases hw : Arr.getAt d c.arr.items (toS 16 i) with
      | ub => rw [hw] at hs; simp at hs
      | ok v =>
        rw [hw] at hs; simp only [Res.bind_ok, Res.ok.injEq] at hs; subst hs
        split <;> simp [Known, pending, mainOps, handlerOps]

theorem known_run {once early : Bool} {d : α} (es : List (Ev α)) : ∀ M H (s s' : St α), Known M H s → Fair once early d s es → run once early d s es = .ok s' →
    Known (M ++ mainOps es) (H ++ handlerOps es) s' := by
  induction es with
  | nil => intro M H s s' h _ hr; simp only [run, Res.ok.injEq] at hr; subst hr; simpa [mainOps, handlerOps] using h
  | cons e es ih =>
    intro M H s s' h hf hr
    cases hs : step once early d s e with
    | ub => simp [run, hs] at hr
    | ok s1 =>
      simp only [run, hs, Res.bind_ok] at hr
      have hk := known_step h hs (by cases e <;> first | exact hf.1 | trivial)
      have := ih _ _ _ _ hk (hf.2 s1 hs) hr
      simpa only [mainOps, handlerOps, List.append_assoc, ← List.filterMap_append, List.singleton_append] using this

/-! ### Adding in the middle of `Add` -/

theorem lrun_adds (cap : Nat) (hs : List α) : ∀ l : List α, l.length ≤ cap → Spec.lrun cap l (hs.map .add) = l ++ hs.take (cap - l.length) := by
  induction hs with
  | nil => intro l _; simp [Spec.lrun]
  | cons x hs ih =>
    intro l hl
    show Spec.lrun cap (Spec.lstep cap l (.add x)) (hs.map .add) = _
    by_cases h : l.length < cap
    · rw [lstep_add x h, ih _ (by simp; omega)]
      have e : cap - l.length = cap - (l.length + 1) + 1 := by omega
      simp [e]
    · have e : cap - l.length = 0 := by omega
      have e1 : Spec.lstep cap l (.add x) = l := by simp [Spec.lstep, h]
      rw [e1, ih _ hl, e]
      simp

theorem run_append {once early : Bool} {d : α} (l r : List (Ev α)) : ∀ s : St α, run once early d s (l ++ r) = (run once early d s l >>= fun s => run once early d s r) := by
  induction l with
  | nil => intro s; rfl
  | cons e l ih =>
    intro s
    show (step once early d s e >>= fun s => run once early d s (l ++ r)) = ((step once early d s e >>= fun s => run once early d s l) >>= _)
    cases step once early d s e with
    | ub => rfl
    | ok s' => exact ih s'

theorem run_adds {once early : Bool} {d : α} {cap : Nat} (hs : List α) : ∀ (s : St α) (l : List α), Rel cap s.coll l →
    ∃ c, run once early d s (hs.map fun x => .handler (.add x)) = .ok { s with coll := c, done := s.done ++ hs.map fun x => (true, .add x) } ∧ Rel cap c (l ++ hs.take (cap - l.length)) := by
  induction hs with
  | nil => intro s l h; exact ⟨s.coll, by simp [run], by simpa using h⟩
  | cons x hs ih =>
    intro s l h
    obtain ⟨c, h1, h2⟩ := whole_rel h (.add x)
    obtain ⟨c', g1, g2⟩ := ih { s with coll := c, done := s.done ++ [(true, .add x)] } _ h2
    refine ⟨c', ?_, ?_⟩
    · simp only [List.map_cons, run, step, h1, Res.bind_ok]
      rw [g1]
      simp
    · have e := lrun_adds cap (x :: hs) l h.hlen
      have e1 := lrun_adds cap hs (Spec.lstep cap l (spec (.add x))) h2.hlen
      have e2 : Spec.lrun cap l ((x :: hs).map .add) = Spec.lrun cap (Spec.lstep cap l (spec (.add x))) (hs.map .add) := rfl
      rw [← e, e2, e1]
      exact g2

theorem rel_take {cap : Nat} {c : Coll α} {l : List α} (h : Rel cap c l) {k : Nat} (hk : k ≤ l.length) : Rel cap { c with count := k } (l.take k) := by
  have hc := h.hcnt; have hl := h.hlen
  refine ⟨h.hcap, h.hle, by simp; omega, by simp; omega, ?_⟩
  simp only
  rw [← h.hpre, List.take_take]
  congr 1
  omega

/-! ### `IndexOf` -/

theorem getAt_item {cap : Nat} {c : Coll α} {l : List α} (h : Rel cap c l) (d : α) {i : Nat} (hi : i < l.length) : Arr.getAt d c.arr.items (toS 16 i) = .ok l[i] := by
  have hl := h.hlen; have hle := h.hle; have hcap := h.hcap; have hc := h.hcnt
  rw [toS16_small (by omega), Arr.getAt_spec d _ (by omega)]
  unfold Spec.getD
  rw [if_pos (by omega), Int.toNat_natCast, h.get (by omega), List.getElem?_eq_getElem hi]
  rfl

/-- The list after these additions by handlers. -/
def plus (cap : Nat) (l : List α) (es : List (Ev α)) : List α := Spec.lrun cap l ((handlerOps es).map spec)

/-- The part of the list that is looked at. -/
def seen : Option Nat → List α → List α
  | none, l => l
  | some m, l => l.take m

theorem adds_tail {e : Ev α} {es : List (Ev α)} (h : Adds (e :: es)) : Adds es := fun e' h' => h e' (List.mem_cons_of_mem _ h')

theorem idle_run [DecidableEq α] {once early : Bool} {d : α} {es : List (Ev α)} : Adds es → ∀ s s' : St α, s.pc = .idle → run once early d s es = .ok s' → s'.pc = .idle ∧ s'.answers = s.answers := by
  induction es with
  | nil => intro _ s s' h hr; simp only [run, Res.ok.injEq] at hr; subst hr; exact ⟨h, rfl⟩
  | cons e es ih =>
    intro ha s s' h hr
    rcases ha e (by simp) with rfl | ⟨x, rfl⟩
    · simp only [run, step, mainStep, h, Res.bind_ok] at hr
      exact ih (adds_tail ha) s s' h hr
    · simp only [run, step] at hr
      cases hw : whole s.coll (.add x) with
      | ub => rw [hw] at hr; simp at hr
      | ok c =>
        rw [hw] at hr
        simp only [Res.bind_ok] at hr
        exact ih (adds_tail ha) { s with coll := c, done := s.done ++ [(true, .add x)] } s' h hr

theorem mem_index {l : List α} {y : α} (h : y ∈ l) : ∃ k, k < l.length ∧ l[k]? = some y := by
  obtain ⟨k, hk, he⟩ := List.getElem_of_mem h
  exact ⟨k, hk, by rw [List.getElem?_eq_getElem hk, he]⟩

theorem seen_getElem (n : Option Nat) (l : List α) (k : Nat) : (seen n l)[k]? = if k < n.getD l.length then l[k]? else none := by
  cases n with
  | none =>
    simp only [seen, Option.getD_none]
    split
    · rfl
    · exact List.getElem?_eq_none (by omega)
  | some m => simp only [seen, Option.getD_some, List.getElem?_take]

theorem lstep_get {cap : Nat} {l : List α} (x : α) {j : Nat} (hj : j < l.length) : (Spec.lstep cap l (.add x))[j]? = l[j]? ∧ l.length ≤ (Spec.lstep cap l (.add x)).length := by
  by_cases h : l.length < cap
  · rw [lstep_add x h]; simp [List.getElem?_append_left hj]
  · simp [Spec.lstep, h]

theorem lstep_len {cap : Nat} {l : List α} (x : α) : l.length ≤ (Spec.lstep cap l (.add x)).length := by
  by_cases h : l.length < cap
  · rw [lstep_add x h]; simp
  · simp [Spec.lstep, h]

/-- Where the search is. -/
def At (y : α) (n : Option Nat) (l : List α) (pc : Pc α) : Prop := n.getD 0 ≤ l.length ∧
  ((∃ i, pc = .test y i n ∧ i ≤ n.getD l.length ∧ ∀ j < i, l[j]? ≠ some y) ∨ ∃ i, pc = .item y i n ∧ i < n.getD l.length ∧ ∀ j < i, l[j]? ≠ some y)

theorem find_run [DecidableEq α] {once early : Bool} {d y : α} {n : Option Nat} {cap : Nat} (es : List (Ev α)) : Adds es → ∀ (s s' : St α) (l : List α), Rel cap s.coll l → At y n l s.pc →
    run once early d s es = .ok s' → s'.pc = .idle →
    ∃ es1 es2 r, es = es1 ++ es2 ∧ s'.answers = s.answers ++ [r] ∧ Found (seen n (plus cap l es1)) y r := by
  induction es with
  | nil =>
    intro _ s s' l _ h hr hi
    simp only [run, Res.ok.injEq] at hr
    subst hr
    rcases h.2 with ⟨i, h1, _⟩ | ⟨i, h1, _⟩ <;> rw [hi] at h1 <;> cases h1
  | cons e es ih =>
    intro ha s s' l hrel h hr hi
    obtain ⟨c, pc, a, dn⟩ := s
    obtain ⟨h0, h⟩ := h
    simp only at h hrel
    have hcnt := hrel.hcnt
    rcases ha e (by simp) with rfl | ⟨x, rfl⟩
    · rcases h with ⟨i, rfl, h1, h2⟩ | ⟨i, rfl, h1, h2⟩
      · simp only [run, step, mainStep] at hr
        have hb : n.getD c.count = n.getD l.length := by rw [hcnt]
        by_cases hlt : i < n.getD c.count
        · simp only [hlt, if_true, Res.bind_ok] at hr
          obtain ⟨es1, es2, r, g1, g2, g3⟩ := ih (adds_tail ha) _ s' l hrel ⟨h0, .inr ⟨i, rfl, by omega, h2⟩⟩ hr hi
          exact ⟨.main :: es1, es2, r, by simp [g1], g2, by simpa [plus, handlerOps] using g3⟩
        · simp only [hlt, if_false, Res.bind_ok] at hr
          obtain ⟨_, g⟩ := idle_run (adds_tail ha) _ s' rfl hr
          refine ⟨[], .main :: es, -1, rfl, g, .inl ⟨rfl, fun hm => ?_⟩⟩
          obtain ⟨k, _, hk⟩ := mem_index hm
          rw [seen_getElem] at hk
          split at hk
          · rename_i hk'
            exact h2 k (by simp only [plus, handlerOps, List.filterMap_nil, List.map_nil, Spec.lrun, List.foldl_nil] at hk'; omega) hk
          · cases hk
      · have hil : i < l.length := by
          cases n with
          | none => exact h1
          | some m => simp only [Option.getD_some] at h0 h1; omega
        simp only [run, step, mainStep, getAt_item hrel d hil, Res.bind_ok] at hr
        by_cases he : l[i] = y
        · rw [if_pos he] at hr
          obtain ⟨_, g⟩ := idle_run (adds_tail ha) _ s' rfl hr
          refine ⟨[], .main :: es, toS 8 i, rfl, g, .inr ⟨i, rfl, ?_, fun j hj => ?_⟩⟩
          · rw [seen_getElem]
            simp only [plus, handlerOps, List.filterMap_nil, List.map_nil, Spec.lrun, List.foldl_nil]
            rw [if_pos h1, List.getElem?_eq_getElem hil, he]
          · rw [seen_getElem]
            simp only [plus, handlerOps, List.filterMap_nil, List.map_nil, Spec.lrun, List.foldl_nil]
            rw [if_pos (by omega)]
            exact h2 j hj
        · rw [if_neg he] at hr
          obtain ⟨es1, es2, r, g1, g2, g3⟩ := ih (adds_tail ha) _ s' l hrel ⟨h0, .inl ⟨i + 1, rfl, by omega, fun j hj => by
            rcases Nat.lt_succ_iff_lt_or_eq.1 hj with h3 | rfl
            · exact h2 j h3
            · rw [List.getElem?_eq_getElem hil]; simpa using he⟩⟩ hr hi
          exact ⟨.main :: es1, es2, r, by simp [g1], g2, by simpa [plus, handlerOps] using g3⟩
    · obtain ⟨c', e1, e2⟩ := whole_rel hrel (.add x)
      simp only [run, step, e1, Res.bind_ok] at hr
      have hlen := lstep_len (cap := cap) (l := l) x
      have hat : At y n (Spec.lstep cap l (spec (.add x))) pc := by
        have hmono : n.getD l.length ≤ n.getD (Spec.lstep cap l (spec (.add x))).length := by cases n <;> simp [spec, hlen]
        have hold : ∀ j, j < n.getD l.length → (Spec.lstep cap l (spec (.add x)))[j]? = l[j]? := fun j hj => (lstep_get x (by
          cases n with
          | none => exact hj
          | some m => simp only [Option.getD_some] at h0 hj; omega)).1
        refine ⟨Nat.le_trans h0 hlen, ?_⟩
        rcases h with ⟨i, rfl, h1, h2⟩ | ⟨i, rfl, h1, h2⟩
        · exact .inl ⟨i, rfl, by omega, fun j hj => by rw [hold j (by omega)]; exact h2 j hj⟩
        · exact .inr ⟨i, rfl, by omega, fun j hj => by rw [hold j (by omega)]; exact h2 j hj⟩
      obtain ⟨es1, es2, r, g1, g2, g3⟩ := ih (adds_tail ha) _ s' _ e2 hat hr hi
      exact ⟨.handler (.add x) :: es1, es2, r, by simp [g1], g2, by simpa [plus, handlerOps, Spec.lrun] using g3⟩

theorem plus_take {cap : Nat} (es : List (Ev α)) : Adds es → ∀ l : List α, (plus cap l es).take l.length = l := by
  induction es with
  | nil => intro _ l; simp [plus, handlerOps, Spec.lrun]
  | cons e es ih =>
    intro ha l
    rcases ha e (by simp) with rfl | ⟨x, rfl⟩
    · exact ih (adds_tail ha) l
    · have := ih (adds_tail ha) (Spec.lstep cap l (.add x))
      have e1 : plus cap l (.handler (.add x) :: es) = plus cap (Spec.lstep cap l (.add x)) es := by simp [plus, handlerOps, Spec.lrun, spec]
      rw [e1]
      generalize plus cap (Spec.lstep cap l (.add x)) es = p at this
      by_cases h : l.length < cap
      · rw [lstep_add x h] at this
        have h2 := congrArg (List.take l.length) this
        rw [List.take_take] at h2
        simpa using h2
      · simpa [Spec.lstep, h] using this

theorem loop_mains [DecidableEq α] {once early : Bool} {d y : α} {c : Coll α} {a : List Int} {dn : List (Bool × Op α)} {n : Option Nat} (hn : n.getD c.count = c.count) (m : Nat) :
    ∀ (i : Nat) (r : Int), i + m = c.count → indexOfLoop d c y m i = .ok r →
      run once early d ⟨c, .test y i n, a, dn⟩ (List.replicate (2 * m + 1) .main) = .ok ⟨c, .idle, a ++ [r], dn⟩ := by
  have idle : ∀ (k : Nat) (s : St α), s.pc = .idle → run once early d s (List.replicate k .main) = .ok s := by
    intro k
    induction k with
    | zero => intro s _; rfl
    | succ k ih => intro s h; simp only [List.replicate_succ, run, step, mainStep, h, Res.bind_ok]; exact ih s h
  induction m with
  | zero =>
    intro i r hi h
    simp only [indexOfLoop, Res.ok.injEq] at h
    subst h
    have : ¬ i < c.count := by omega
    simp [run, step, mainStep, hn, this]
  | succ m ih =>
    intro i r hi h
    have : i < c.count := by omega
    have e : 2 * (m + 1) + 1 = (2 * m + 1) + 1 + 1 := by omega
    rw [e, List.replicate_succ, List.replicate_succ]
    simp only [indexOfLoop] at h
    cases hg : Arr.getAt d c.arr.items (toS 16 i) with
    | ub => rw [hg] at h; simp at h
    | ok v =>
      rw [hg] at h
      simp only at h
      simp only [run, step, mainStep, hn, this, if_true, Res.bind_ok, hg]
      by_cases hv : v = y
      · rw [if_pos hv] at h ⊢
        simp only [Res.ok.injEq] at h
        subst h
        exact idle _ _ rfl
      · rw [if_neg hv] at h ⊢
        exact ih (i + 1) r (by omega) h

end SharedColl
open SharedColl

/-- **C150, partial.** For every history in which handlers call `SetAt` only while main code is in `Add` (and anything elsewhere): at every moment but the one at which main code has counted an item that it
    has not stored yet (if the compiler stores the count first), the collection holds the list that the calls, in the order in which they took effect, make; so a handler that reads in the middle of
    `Add` finds the list before the call.  In full (false, `c150_lost_fails`): handlers call anything at any moment. -/
theorem c150_list_partial {α : Type} [DecidableEq α] (once early : Bool) (d : α) (arr : FixedArray.FA α) (hn : arr.items.length ≤ 32767) (es : List (Ev α))
    (hf : Fair once early d (St.init arr) es) : ∃ s, run once early d (St.init arr) es = .ok s ∧ getCapacity s.coll = arr.items.length ∧
      (ahead s.pc = false → Holds d s.coll (listOf arr.items.length s.done)) := by
  have h0 : SharedColl.Inv arr.items.length (St.init arr) := ⟨collInit_rel arr hn, trivial⟩
  obtain ⟨s, h1, h2⟩ := inv_run es _ h0 hf
  refine ⟨s, h1, ?_, fun ha => ?_⟩
  · unfold SharedColl.Inv at h2
    split at h2
    · exact h2.2.2.hcap
    · exact h2.1.hcap
  · have hr := ((inv_of ha).1 h2).1
    exact ⟨hr.hcnt, Collection.getAt_rel hr d⟩

/-- `Fair`, calculated. -/
def fairB (once early : Bool) (d : Int) : St Int → List (Ev Int) → Bool
  | _, [] => true
  | s, e :: es => (match e with
      | .call _ | .find _ => decide (s.pc = .idle)
      | .main => true
      | .handler o => !adding s.pc || (o matches .setAt _ _)) && match step once early d s e with
        | .ok s' => fairB once early d s' es
        | .ub => true

theorem fair_of_fairB {once early : Bool} {d : Int} (es : List (Ev Int)) : ∀ s : St Int, fairB once early d s es = true → Fair once early d s es := by
  induction es with
  | nil => intro _ _; trivial
  | cons e es ih =>
    intro s h
    simp only [fairB, Bool.and_eq_true] at h
    refine ⟨?_, fun s' hs => ih s' (by rw [hs] at h; exact h.2)⟩
    cases e with
    | call o => simpa using h.1
    | find y => simpa using h.1
    | main => trivial
    | handler o =>
      intro ha
      cases o with
      | setAt i x => exact ⟨i, x, rfl⟩
      | add x => simp [ha] at h
      | clear => simp [ha] at h

/-- Main code adds 1, 2 and searches; handlers change item 0 while 2 is being added, add 3 during the search and clear afterwards. -/
example : Fair false false (0 : Int) (St.init ⟨[9, 9, 9, 9], 0⟩) [.call (.add 1), .main, .main, .main, .main, .call (.add 2), .main, .handler (.setAt 0 7), .main, .main, .main, .find 3, .main, .main,
    .handler (.add 3), .main, .main, .main, .main, .main, .handler .clear] := by apply fair_of_fairB; decide +kernel
/-- With the count stored first: handlers change an item before and after the store of the count. -/
example : Fair true true (0 : Int) (St.init ⟨[9, 9, 9, 9], 0⟩) [.call (.add 1), .main, .main, .handler (.add 3), .call (.add 2), .handler (.setAt 0 7), .main, .handler (.setAt 1 6), .main] :=
  by apply fair_of_fairB; decide +kernel

/-- **C150.** The calls of `c150_list_partial` are those of main code, in order (all of them once `Add` has returned), and those of handlers, in order. -/
theorem c150_calls {α : Type} [DecidableEq α] (once early : Bool) (d : α) (arr : FixedArray.FA α) (es : List (Ev α)) (s : St α) (hf : Fair once early d (St.init arr) es)
    (h : run once early d (St.init arr) es = .ok s) : ((s.done.filter fun p => p.1).map Prod.snd = handlerOps es) ∧
      (adding s.pc = false → (s.done.filter fun p => !p.1).map Prod.snd = mainOps es) := by
  obtain ⟨h1, h2⟩ := known_run es [] [] _ _ ⟨rfl, rfl⟩ hf h
  refine ⟨by simpa using h2.symm, fun ha => ?_⟩
  have hp : pending s.pc = [] := by revert ha; cases s.pc <;> simp [adding, pending]
  rw [hp] at h1
  simpa using h1.symm

/-- **C150.** If the compiler loads the count once and stores it last: with handlers adding `h1` before and `h2` after main code's store of the item, of all these items one stays: the first of `h2` if `h1` is
    empty, otherwise main code's. -/
theorem c150_one_stays {α : Type} [DecidableEq α] (d : α) {cap : Nat} (c : Coll α) (a : List Int) (done : List (Bool × Op α)) (l : List α) (hr : Rel cap c l) (hl : l.length < cap) (x : α)
    (h1 h2 : List α) : ∃ s, run true false d ⟨c, .idle, a, done⟩ (.call (.add x) :: h1.map (fun y => .handler (.add y)) ++ .main :: h2.map (fun y => .handler (.add y)) ++ [.main]) = .ok s ∧
      s.pc = .idle ∧ Holds d s.coll (l ++ [if h1 = [] then h2.head?.getD x else x]) := by
  have hc : c.count < getCapacity c := by rw [hr.hcnt]; show l.length < c.arr.items.length; rw [hr.hcap]; exact hl
  have hcnt := hr.hcnt
  have hle := hr.hle
  have ht : toU 16 ((c.count : Int) + 1) = c.count + 1 := by unfold toU; omega
  obtain ⟨c1, e1, r1⟩ := run_adds (once := true) (early := false) (d := d) h1 ⟨c, .place x c.count, a, done⟩ l hr
  -- the store of the item
  have key : ∃ arr l1, FixedArray.setAt c1.arr (toS 16 c.count) x = .ok arr ∧ Rel cap { c1 with arr := arr } l1 ∧
      (h1 = [] → l1 = l ∧ arr.items[c.count]? = some x) ∧ (h1 ≠ [] → l.length + 1 ≤ l1.length ∧ l1.take (l.length + 1) = l ++ [x]) := by
    cases h1 with
    | nil =>
      simp only [List.take_nil, List.append_nil] at r1
      have ec : c1.count = c.count := by rw [r1.hcnt, hcnt]
      obtain ⟨arr, g1, g2, g3⟩ := set_behind r1 (by rw [r1.hcnt]; exact hl) x
      rw [ec] at g1 g3
      exact ⟨arr, l, g1, g2, fun _ => ⟨rfl, g3⟩, fun h => absurd rfl h⟩
    | cons y ys =>
      have e : cap - l.length = cap - l.length - 1 + 1 := by omega
      rw [e, List.take_succ_cons] at r1
      generalize ys.take (cap - l.length - 1) = zs at r1
      have hlen := r1.hlen
      have hcap := r1.hcap
      simp only [List.length_append, List.length_cons] at hlen
      have hv : Arr.isValidIndex c1.arr.items.length (c.count : Int) = true := (Arr.isValidIndex_iff (by omega) _).2 ⟨by omega, by omega⟩
      refine ⟨{ c1.arr with items := c1.arr.items.set c.count x }, l ++ x :: zs, ?_, ?_, fun h => by simp at h, fun _ => ⟨by simp, ?_⟩⟩
      · rw [FixedArray.setAt_ok _ (by omega), toS16_small (by omega), hv, if_pos rfl, Int.toNat_natCast]
      · refine ⟨by simp [hcap], hle, by simp [r1.hcnt], by simp; omega, ?_⟩
        simp only
        rw [List.take_set, r1.hpre, hcnt]
        simp
      · rw [List.take_append]
        simp [List.take_of_length_le]
  obtain ⟨arr, l1, g1, g2, g3, g4⟩ := key
  obtain ⟨c2, e2, r2⟩ := run_adds (once := true) (early := false) (d := d) h2 ⟨{ c1 with arr := arr }, .store x (c.count + 1), a, done ++ h1.map fun x => (true, .add x)⟩ l1 g2
  refine ⟨⟨{ c2 with count := c.count + 1 }, .idle, a, (done ++ h1.map fun x => (true, .add x)) ++ (h2.map fun x => (true, .add x)) ++ [(false, .add x)]⟩, ?_, rfl, ?_⟩
  rotate_left
  · have fin : Rel cap { c2 with count := c.count + 1 } (l ++ [if h1 = [] then h2.head?.getD x else x]) := by
      by_cases hh : h1 = []
      · obtain ⟨rfl, g5⟩ := g3 hh
        rw [if_pos hh]
        cases h2 with
        | nil =>
          simp only [List.map_nil, run, Res.ok.injEq, St.mk.injEq, true_and] at e2
          rw [← e2.1]
          have ec : c1.count = c.count := by rw [hcnt]; exact g2.hcnt
          have := rel_bump g2 (by show c1.count < cap; rw [ec, hcnt]; exact hl) (by show arr.items[c1.count]? = some x; rw [ec]; exact g5)
          simp only [ec] at this
          simpa using this
        | cons y ys =>
          have e : cap - l1.length = cap - l1.length - 1 + 1 := by omega
          rw [e, List.take_succ_cons] at r2
          have := rel_take r2 (k := l1.length + 1) (by simp)
          rw [hcnt]
          rw [List.take_append] at this
          simpa [List.take_of_length_le] using this
      · obtain ⟨g5, g6⟩ := g4 hh
        rw [if_neg hh]
        have := rel_take r2 (k := l.length + 1) (by simp; omega)
        rw [List.take_append_of_le_length g5, g6] at this
        rw [hcnt]
        exact this
    exact ⟨fin.hcnt, Collection.getAt_rel fin d⟩
  · simp only [List.cons_append, List.append_assoc, run, step, begin, if_pos hc, Res.bind_ok, if_true, Bool.false_eq_true, if_false]
    rw [run_append, e1, Res.bind_ok]
    simp only [run, step, mainStep, g1, Res.bind_ok, if_true, ht]
    rw [run_append, e2, Res.bind_ok]
    simp only [run, step, mainStep, Res.bind_ok, List.append_assoc]

/-- An `Add` in a collection of four with one item, a handler adding before, one adding twice after the item has been stored. -/
example : ∃ (c : Coll Int) (l : List Int), Rel 4 c l ∧ l.length < 4 ∧ l ≠ [] :=
  ⟨⟨⟨[5, 0, 0, 0], 0⟩, 1⟩, [5], ⟨rfl, by decide, rfl, by decide, rfl⟩, by decide, by decide⟩

/-- **C150.** While main code searches with `IndexOf` and handlers only add, the result is that of the list at one moment of the search; if the compiler loads the count once, that of the list at the
    call. -/
theorem c150_find_partial {α : Type} [DecidableEq α] (once early : Bool) (d y : α) {cap : Nat} (s s' : St α) (l : List α) (es : List (Ev α)) (hrel : Rel cap s.coll l) (ha : Adds es)
    (hr : run once early d s (.find y :: es) = .ok s') (hi : s'.pc = .idle) :
    ∃ es1 es2 r, es = es1 ++ es2 ∧ s'.answers = s.answers ++ [r] ∧ Found (Spec.lrun cap l ((handlerOps es1).map spec)) y r ∧ (once = true → es1 = []) := by
  obtain ⟨c, pc, a, dn⟩ := s
  simp only [run, step, Res.bind_ok] at hr
  simp only at hrel
  cases once with
  | false =>
    obtain ⟨es1, es2, r, g1, g2, g3⟩ := find_run (n := none) es ha _ s' l hrel ⟨by simp, .inl ⟨0, rfl, by simp, fun j hj => by omega⟩⟩ hr hi
    exact ⟨es1, es2, r, g1, g2, g3, fun h => by cases h⟩
  | true =>
    have hcnt : c.count = l.length := hrel.hcnt
    obtain ⟨es1, es2, r, g1, g2, g3⟩ := find_run (y := y) (n := some l.length) es ha _ s' l hrel ⟨by simp, .inl ⟨0, by simp [hcnt], by simp, fun j hj => by omega⟩⟩ hr hi
    refine ⟨[], es, r, rfl, g2, ?_, fun _ => rfl⟩
    have := plus_take (cap := cap) es1 (fun e he => ha e (by rw [g1]; simp [he])) l
    simp only [seen] at g3
    rw [this] at g3
    simpa [handlerOps, Spec.lrun] using g3

/-- A search for 7 in [5, 6] while a handler adds 7: found at 2 if the count is loaded every time, otherwise not. -/
example : (match run false false (0 : Int) ⟨⟨⟨[5, 6, 0, 0], 0⟩, 2⟩, .idle, [], []⟩ [.find 7, .main, .main, .main, .handler (.add 7), .main, .main, .main] with
    | .ok s => some (s.answers, s.pc matches .idle) | .ub => none) = some ([2], true) ∧
    (match run true false (0 : Int) ⟨⟨⟨[5, 6, 0, 0], 0⟩, 2⟩, .idle, [], []⟩ [.find 7, .main, .main, .main, .handler (.add 7), .main, .main, .main] with
    | .ok s => some (s.answers, s.pc matches .idle) | .ub => none) = some ([-1], true) := by decide +kernel

/-- **C150.** `Add` without interrupts is the `Add` of C10. -/
theorem c150_add_alone {α : Type} [DecidableEq α] (once early : Bool) (d : α) (s : St α) (hi : s.pc = .idle) (c : Coll α) (x : α) (h : Collection.add s.coll x = .ok c) :
    run once early d s [.call (.add x), .main, .main, .main, .main] = .ok ⟨c, .idle, s.answers, s.done ++ [(false, .add x)]⟩ := by
  obtain ⟨c0, pc, a, dn⟩ := s
  simp only at hi h
  subst hi
  unfold Collection.add at h
  by_cases hc : c0.count < getCapacity c0
  · rw [if_pos hc] at h
    cases hs : FixedArray.setAt c0.arr (toS 16 c0.count) x with
    | ub => rw [hs] at h; simp at h
    | ok arr =>
      rw [hs] at h
      simp only [Res.bind_ok] at h
      cases h
      cases once <;> cases early <;> simp [run, step, begin, hc, mainStep, hs]
  · rw [if_neg hc] at h
    cases h
    cases once <;> cases early <;> simp [run, step, begin, hc, mainStep]

/-- **C150.** `IndexOf` without interrupts is the `IndexOf` of C11. -/
theorem c150_find_alone {α : Type} [DecidableEq α] (once early : Bool) (d y : α) (s : St α) (r : Int) (h : Collection.indexOf d s.coll y = .ok r) :
    run once early d s (.find y :: List.replicate (2 * s.coll.count + 1) .main) = .ok { s with pc := .idle, answers := s.answers ++ [r] } := by
  obtain ⟨c, pc, a, dn⟩ := s
  simp only [run, step, Res.bind_ok]
  exact loop_mains (by cases once <;> rfl) c.count 0 r (by omega) h

example := c150_add_alone true true 0 (St.init ⟨[9, 9], 0⟩) rfl ⟨⟨[4, 9], 0⟩, 1⟩ 4 (by decide +kernel)
example := c150_find_alone false false (0 : Int) 6 ⟨⟨⟨[5, 6, 9, 9], 0⟩, 2⟩, .idle, [], []⟩ 1 (by decide +kernel)

/-- **C150 fails:** the count loaded once. Main code adds 1 and a handler in between adds 2: there is one item. -/
theorem c150_lost_fails : ∃ s, run true false (0 : Int) (St.init ⟨[9, 9, 9, 9], 0⟩) [.call (.add 1), .handler (.add 2), .main, .main] = .ok s ∧ (s.pc matches .idle) ∧
    s.done.length = 2 ∧ s.coll.count = 1 ∧ s.coll.arr.items = [1, 9, 9, 9] := by
  refine ⟨⟨⟨⟨[1, 9, 9, 9], 0⟩, 1⟩, .idle, [], [(true, .add 2), (false, .add 1)]⟩, ?_, ?_⟩ <;> decide +kernel

/-- **C150 fails:** the count loaded again. Main code adds 1 and a handler in between adds 2: there are two items, the second one nobody has added. -/
theorem c150_garbage_fails : ∃ s, run false false (0 : Int) (St.init ⟨[9, 9, 9, 9], 0⟩) [.call (.add 1), .main, .handler (.add 2), .main, .main, .main] = .ok s ∧ (s.pc matches .idle) ∧
    s.done.length = 2 ∧ s.coll.count = 2 ∧ getAt 0 s.coll 0 = .ok 1 ∧ getAt 0 s.coll 1 = .ok 9 := by
  refine ⟨⟨⟨⟨[1, 9, 9, 9], 0⟩, 2⟩, .idle, [], [(true, .add 2), (false, .add 1)]⟩, ?_, ?_⟩ <;> decide +kernel

/-- **C150 fails:** the count loaded again. A handler fills the collection after main code's test of the capacity: the count exceeds the capacity, and main code's item is not there. -/
theorem c150_overfull_fails : ∃ s, run false false (0 : Int) (St.init ⟨[9], 0⟩) [.call (.add 1), .handler (.add 2), .main, .main, .main, .main] = .ok s ∧ (s.pc matches .idle) ∧
    getCapacity s.coll < getCount s.coll ∧ getAt 0 s.coll 0 = .ok 2 ∧ getAt 0 s.coll 1 = .ok 0 := by
  refine ⟨⟨⟨⟨[2], 0⟩, 2⟩, .idle, [], [(true, .add 2), (false, .add 1)]⟩, ?_, ?_⟩ <;> decide +kernel

/-- **C150 fails:** the count stored before the item. A handler sees an item nobody has added. -/
theorem c150_early_fails : ∃ s, run true true (0 : Int) (St.init ⟨[9, 9, 9, 9], 0⟩) [.call (.add 1), .main] = .ok s ∧ getCount s.coll = 1 ∧ getAt 0 s.coll 0 = .ok 9 := by
  refine ⟨⟨⟨⟨[9, 9, 9, 9], 0⟩, 1⟩, .late 1 0, [], []⟩, ?_, ?_⟩ <;> decide +kernel

/-- **C150 fails:** `IndexOf` while a handler exchanges two items with `SetAt`. The item searched for is there all the time, and is not found. -/
theorem c150_find_fails : ∃ s, run false false (0 : Int) ⟨⟨⟨[5, 6, 9, 9], 0⟩, 2⟩, .idle, [], []⟩ [.find 6, .main, .main, .handler (.setAt 0 6), .handler (.setAt 1 5), .main, .main, .main] = .ok s ∧
    (s.pc matches .idle) ∧ s.answers = [-1] ∧ (6 : Int) ∈ ([5, 6] : List Int) ∧ 6 ∈ Spec.lrun 4 [5, 6] ([.setAt 0 6].map (spec (α := Int))) ∧
    6 ∈ Spec.lrun 4 [5, 6] ([.setAt 0 6, .setAt 1 5].map (spec (α := Int))) := by
  refine ⟨⟨⟨⟨[6, 5, 9, 9], 0⟩, 2⟩, .idle, [-1], [(true, .setAt 0 6), (true, .setAt 1 5)]⟩, ?_, ?_⟩ <;> decide +kernel

/-- **C150, the full claim.** Between main code's calls the collection holds the list that all calls so far, in the order in which they took effect, make: false. -/
theorem c150_full_claim_is_false : ¬ ∀ (once early : Bool) (arr : FixedArray.FA Int) (es : List (Ev Int)) (s : St Int), arr.items.length ≤ 32767 →
    run once early 0 (St.init arr) es = .ok s → s.pc = .idle → Holds 0 s.coll (listOf arr.items.length s.done) := by
  intro h
  have := h true false ⟨[9, 9, 9, 9], 0⟩ [.call (.add 1), .handler (.add 2), .main, .main] ⟨⟨⟨[1, 9, 9, 9], 0⟩, 1⟩, .idle, [], [(true, .add 2), (false, .add 1)]⟩ (by decide) (by decide +kernel) rfl
  exact absurd this.1 (by decide +kernel)

end Atl.Props
