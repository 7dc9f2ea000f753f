import Verif.Model.IteratorInterrupt
import Verif.Props.CollectionInterrupt
import Verif.Props.CriticalSectionUse

/-!
  C165: main code goes through a collection with an iterator while interrupt handlers change it.
-/
namespace Atl.Props
open Atl.Collection Atl.IteratorInterrupt
open Atl.CollectionInterrupt (Op whole)

namespace IteratorShared
variable {α : Type}

/-! ### Specification -/

/-- The calls of handlers, as operations on bounded lists. -/
def changes (es : List (IteratorInterrupt.Ev α)) : List (Spec.LOp α) := es.filterMap fun | .handler o => some (SharedColl.spec o) | _ => none

/-- Handlers add, and main code goes on with its loop. -/
def Adds (es : List (IteratorInterrupt.Ev α)) : Prop := ∀ e ∈ es, e = .main ∨ ∃ x, e = .handler (.add x)

/-- Handlers add and replace items but do not clear, and main code goes on with its loop. -/
def NoClear (es : List (IteratorInterrupt.Ev α)) : Prop := ∀ e ∈ es, e = .main ∨ (∃ x, e = .handler (.add x)) ∨ ∃ i x, e = .handler (.setAt i x)

/-- Main code does not begin another loop. -/
def OneLoop (es : List (IteratorInterrupt.Ev α)) : Prop := ∀ e ∈ es, e ≠ .loop

/-- The accesses of main code. -/
def accesses : List (IteratorInterrupt.Ev α) → Nat
  | [] => 0
  | .main :: es => accesses es + 1
  | _ :: es => accesses es

/-- The items main code gets if every loop is made as a whole. -/
def wholeLoops (cap : Nat) (l : List α) : List (IteratorInterrupt.Ev α) → List α
  | [] => []
  | .loop :: es => l ++ wholeLoops cap l es
  | .main :: es => wholeLoops cap l es
  | .handler o :: es => wholeLoops cap (Spec.lstep cap l (SharedColl.spec o)) es

/-! ### Proofs -/

variable [DecidableEq α] {again : Bool} {d : α} {cap : Nat}

theorem test_step {c : Coll α} {l : List α} (h : Rel cap c l) (k : Nat) (hk : k ≤ cap) (v : List α) :
    mainStep again d ⟨c, (k : Int) - 1, .test, v⟩ = .ok (if k < l.length then ⟨c, k, .current, v⟩ else ⟨c, (k : Int) - 1, .idle, v⟩) := by
  have hle := h.hle
  have hc := h.hcnt
  have ha : Iterator.addIdx ((k : Int) - 1) 1 = .ok (k : Int) := by
    have e : (k : Int) - 1 + 1 = k := by omega
    unfold Iterator.addIdx
    rw [e, if_pos (by omega)]
  have hv : (Iterator.ofCollection d c).isValidIndex (k : Int) = decide (k < l.length) := by
    simp only [Iterator.ofCollection, Collection.isValidIndex, hc]
    simp
  simp only [mainStep, Iterator.moveNext, ha, Res.bind_ok, hv]
  by_cases hl : k < l.length
  · simp only [hl, decide_true, if_true]; rfl
  · simp only [hl, decide_false, Bool.false_eq_true, if_false]; rfl

theorem current_step {c : Coll α} {l : List α} (h : Rel cap c l) (k : Nat) (v : List α) :
    mainStep again d ⟨c, (k : Int), .current, v⟩ = .ok (if k < l.length then ⟨c, k, .item, v⟩ else ⟨c, k, .test, v ++ [d]⟩) := by
  have hv : Iterator.getIsValidPosition (Iterator.ofCollection d c) (k : Int) = decide (k < l.length) := by
    simp only [Iterator.getIsValidPosition, Iterator.ofCollection, Collection.isValidIndex, h.hcnt]
    simp
  simp only [mainStep, hv]
  by_cases hl : k < l.length <;> simp [hl]

theorem item_step {c : Coll α} {l : List α} (h : Rel cap c l) (k : Nat) (v : List α) :
    ∃ w, mainStep again d ⟨c, (k : Int), .item, v⟩ = .ok ⟨c, k, .test, v ++ [w]⟩ ∧ ∀ hk : k < l.length, w = l[k] := by
  have hle := h.hle
  have hcap := h.hcap
  have hc := h.hcnt
  cases again with
  | true =>
    refine ⟨Spec.getD d l k, ?_, fun hk => ?_⟩
    · simp only [mainStep, if_true, Collection.getAt_rel h, Res.bind_ok]
    · simp [Spec.getD, hk]
  | false =>
    refine ⟨Spec.getD d c.arr.items k, by simp only [mainStep, Bool.false_eq_true, if_false, Arr.getAt_spec d c.arr.items (by omega), Res.bind_ok], fun hk => ?_⟩
    have := h.get (k := k) (by omega)
    simp [Spec.getD, this, hk]

theorem run_cons (y : IteratorInterrupt.St α) (e : IteratorInterrupt.Ev α) (es : List (IteratorInterrupt.Ev α)) (y' : IteratorInterrupt.St α)
    (h : step again d y e = .ok y') : run again d y (e :: es) = run again d y' es := by
  simp only [run, h, Res.bind_ok]

theorem handler_step {y : IteratorInterrupt.St α} {l : List α} (h : Rel cap y.coll l) (o : Op α) :
    ∃ c, step again d y (.handler o) = .ok { y with coll := c } ∧ Rel cap c (Spec.lstep cap l (SharedColl.spec o)) := by
  obtain ⟨c, h1, h2⟩ := SharedColl.whole_rel h o
  exact ⟨c, by simp only [step, h1, Res.bind_ok], h2⟩

/-- The index is in the array. -/
def Within (cap : Nat) (y : IteratorInterrupt.St α) : Prop :=
  match y.pc with
  | .idle => True
  | .test => ∃ k : Nat, k ≤ cap ∧ y.index = (k : Int) - 1
  | _ => ∃ k : Nat, k < cap ∧ y.index = k

/-- The accesses main code may still make. -/
def toGo (cap : Nat) (y : IteratorInterrupt.St α) : Nat :=
  match y.pc with
  | .idle => 0
  | .test => 3 * (cap - (y.index + 1).toNat) + 1
  | .current => 3 * (cap - (y.index + 1).toNat) + 3
  | .item => 3 * (cap - (y.index + 1).toNat) + 2

theorem main_step {y : IteratorInterrupt.St α} {l : List α} (h : Rel cap y.coll l) (hw : Within cap y) :
    ∃ y', step again d y .main = .ok y' ∧ y'.coll = y.coll ∧ Within cap y' ∧ toGo cap y' ≤ toGo cap y - 1 := by
  obtain ⟨c, i, pc, v⟩ := y
  have hlen := h.hlen
  cases pc with
  | idle => exact ⟨_, rfl, rfl, trivial, Nat.le_refl _⟩
  | test =>
    obtain ⟨k, hk, hi⟩ := hw
    change i = _ at hi
    subst hi
    refine ⟨_, test_step (again := again) (d := d) h k hk v, ?_⟩
    split
    · refine ⟨rfl, ⟨k, by omega, rfl⟩, ?_⟩
      simp only [toGo]
      omega
    · exact ⟨rfl, trivial, Nat.zero_le _⟩
  | current =>
    obtain ⟨k, hk, hi⟩ := hw
    change i = _ at hi
    subst hi
    refine ⟨_, current_step (again := again) (d := d) h k v, ?_⟩
    split
    · refine ⟨rfl, ⟨k, hk, rfl⟩, ?_⟩
      simp only [toGo]
      omega
    · refine ⟨rfl, ⟨k + 1, hk, by simp⟩, ?_⟩
      simp only [toGo]
      omega
  | item =>
    obtain ⟨k, hk, hi⟩ := hw
    change i = _ at hi
    subst hi
    obtain ⟨w, h1, _⟩ := item_step (again := again) (d := d) h k v
    refine ⟨_, h1, rfl, ⟨k + 1, hk, by simp⟩, ?_⟩
    simp only [toGo]
    omega

theorem loop_step (y : IteratorInterrupt.St α) (hw : Within cap y) : ∃ y', step again d y .loop = .ok y' ∧ y'.coll = y.coll ∧ Within cap y' := by
  refine ⟨_, rfl, ?_⟩
  split
  · exact ⟨rfl, 0, Nat.zero_le _, rfl⟩
  · exact ⟨rfl, hw⟩

theorem safe_run (es : List (IteratorInterrupt.Ev α)) : ∀ (y : IteratorInterrupt.St α) (l : List α), Rel cap y.coll l → Within cap y →
    ∃ y', run again d y es = .ok y' ∧ Rel cap y'.coll (Spec.lrun cap l (changes es)) ∧ Within cap y' ∧ (OneLoop es → toGo cap y' ≤ toGo cap y - accesses es) := by
  induction es with
  | nil => exact fun y l h hw => ⟨y, rfl, h, hw, fun _ => Nat.le_refl _⟩
  | cons e es ih =>
    intro y l h hw
    cases e with
    | loop =>
      obtain ⟨y1, e1, e2, e3⟩ := loop_step (again := again) (d := d) y hw
      obtain ⟨y', f1, f2, f3, _⟩ := ih y1 l (e2 ▸ h) e3
      exact ⟨y', (run_cons y _ es y1 e1).trans f1, f2, f3, fun ho => absurd rfl (ho .loop List.mem_cons_self)⟩
    | main =>
      obtain ⟨y1, e1, e2, e3, e4⟩ := main_step (again := again) (d := d) h hw
      obtain ⟨y', f1, f2, f3, f4⟩ := ih y1 l (e2 ▸ h) e3
      refine ⟨y', (run_cons y _ es y1 e1).trans f1, f2, f3, fun ho => ?_⟩
      have := f4 fun e he => ho e (List.mem_cons_of_mem _ he)
      simp only [accesses]
      omega
    | handler o =>
      obtain ⟨c, e1, e2⟩ := handler_step (again := again) (d := d) h o
      obtain ⟨y', f1, f2, f3, f4⟩ := ih { y with coll := c } _ e2 hw
      exact ⟨y', (run_cons y _ es _ e1).trans f1, f2, f3, fun ho => f4 fun e he => ho e (List.mem_cons_of_mem _ he)⟩

/-- What main code has got in this loop: the first items of the list. -/
def Sofar (v : List α) (l : List α) (y : IteratorInterrupt.St α) : Prop :=
  match y.pc with
  | .idle => False
  | .test => ∃ k : Nat, k ≤ l.length ∧ y.index = (k : Int) - 1 ∧ y.visited = v ++ l.take k
  | _ => ∃ k : Nat, k < l.length ∧ y.index = k ∧ y.visited = v ++ l.take k

theorem idle_run (es : List (IteratorInterrupt.Ev α)) : ∀ (y y' : IteratorInterrupt.St α), OneLoop es → y.pc = .idle → run again d y es = .ok y' → y'.visited = y.visited := by
  induction es with
  | nil => intro y y' _ _ h; injection h with h; rw [h]
  | cons e es ih =>
    intro y y' ho hp h
    have ho' : OneLoop es := fun e he => ho e (List.mem_cons_of_mem _ he)
    cases e with
    | loop => exact absurd rfl (ho .loop List.mem_cons_self)
    | main =>
      have : step again d y .main = .ok y := by simp only [step, mainStep, hp]
      rw [run_cons y _ es y this] at h
      exact ih y y' ho' hp h
    | handler o =>
      cases hw : whole y.coll o with
      | ub => simp only [run, step, hw] at h; cases h
      | ok c =>
        have : step again d y (.handler o) = .ok { y with coll := c } := by simp only [step, hw, Res.bind_ok]
        rw [run_cons y _ es _ this] at h
        exact ih { y with coll := c } y' ho' hp h

theorem adds_one {es : List (IteratorInterrupt.Ev α)} (h : Adds es) : OneLoop es := by
  intro e he hl
  rcases h e he with h | ⟨x, h⟩ <;> rw [h] at hl <;> cases hl

theorem adds_run (es : List (IteratorInterrupt.Ev α)) : ∀ (y : IteratorInterrupt.St α) (v l : List α), Rel cap y.coll l → Sofar v l y → Adds es →
    ∃ y', run again d y es = .ok y' ∧ (Sofar v (Spec.lrun cap l (changes es)) y' ∨ (y'.pc = .idle ∧ ∃ es1 es2, es = es1 ++ es2 ∧ y'.visited = v ++ Spec.lrun cap l (changes es1))) := by
  induction es with
  | nil => exact fun y v l h hs _ => ⟨y, rfl, .inl hs⟩
  | cons e es ih =>
    intro y v l h hs ha
    have ha' : Adds es := fun e he => ha e (List.mem_cons_of_mem _ he)
    have hlen := h.hlen
    have next : ∀ (y1 : IteratorInterrupt.St α) l1, step again d y e = .ok y1 → Rel cap y1.coll l1 → Sofar v l1 y1 → (∀ fs, Spec.lrun cap l (changes (e :: fs)) = Spec.lrun cap l1 (changes fs)) →
        ∃ y', run again d y (e :: es) = .ok y' ∧
          (Sofar v (Spec.lrun cap l (changes (e :: es))) y' ∨ (y'.pc = .idle ∧ ∃ es1 es2, e :: es = es1 ++ es2 ∧ y'.visited = v ++ Spec.lrun cap l (changes es1))) := by
      intro y1 l1 h1 h2 h3 h4
      obtain ⟨y', f1, f2⟩ := ih y1 v l1 h2 h3 ha'
      refine ⟨y', (run_cons y e es y1 h1).trans f1, ?_⟩
      rcases f2 with f2 | ⟨f2, es1, es2, f3, f4⟩
      · left; rw [h4]; exact f2
      · exact .inr ⟨f2, e :: es1, es2, by rw [f3]; rfl, by rw [h4]; exact f4⟩
    rcases ha e List.mem_cons_self with rfl | ⟨x, rfl⟩
    · obtain ⟨c, i, pc, w⟩ := y
      cases pc with
      | idle => exact hs.elim
      | test =>
        obtain ⟨k, hk, hi, hv⟩ := hs
        change i = _ at hi
        change w = _ at hv
        subst hi hv
        by_cases hl : k < l.length
        · exact next ⟨c, k, .current, _⟩ l ((test_step (again := again) (d := d) h k (by omega) _).trans (by rw [if_pos hl])) h ⟨k, hl, rfl, rfl⟩ fun _ => rfl
        · have e1 : step again d ⟨c, (k : Int) - 1, .test, v ++ l.take k⟩ .main = .ok ⟨c, (k : Int) - 1, .idle, v ++ l.take k⟩ := (test_step (again := again) (d := d) h k (by omega) _).trans (by rw [if_neg hl])
          obtain ⟨y', f1, _, _, f4⟩ := safe_run (again := again) (d := d) es ⟨c, (k : Int) - 1, .idle, v ++ l.take k⟩ l h trivial
          have hidle : y'.pc = .idle := by
            have := f4 (adds_one ha')
            have z : toGo cap (⟨c, (k : Int) - 1, .idle, v ++ l.take k⟩ : IteratorInterrupt.St α) = 0 := rfl
            rw [z] at this
            have hz : toGo cap y' = 0 := by omega
            revert hz
            cases hpc : y'.pc <;> simp only [toGo, hpc] <;> intro hz <;> first | rfl | omega
          refine ⟨y', (run_cons _ _ es _ e1).trans f1, .inr ⟨hidle, [], _, rfl, ?_⟩⟩
          rw [idle_run es _ y' (adds_one ha') rfl f1]
          change v ++ l.take k = v ++ l
          rw [List.take_of_length_le (by omega)]
      | current =>
        obtain ⟨k, hk, hi, hv⟩ := hs
        change i = _ at hi
        change w = _ at hv
        subst hi hv
        exact next ⟨c, k, .item, _⟩ l ((current_step (again := again) (d := d) h k _).trans (by rw [if_pos hk])) h ⟨k, hk, rfl, rfl⟩ fun _ => rfl
      | item =>
        obtain ⟨k, hk, hi, hv⟩ := hs
        change i = _ at hi
        change w = _ at hv
        subst hi hv
        obtain ⟨u, e1, e2⟩ := item_step (again := again) (d := d) h k (v ++ l.take k)
        refine next ⟨c, k, .test, v ++ l.take k ++ [u]⟩ l e1 h ⟨k + 1, hk, by simp, ?_⟩ fun _ => rfl
        change v ++ l.take k ++ [u] = v ++ l.take (k + 1)
        rw [e2 hk, List.take_add_one, List.getElem?_eq_getElem hk, List.append_assoc]
        rfl
    · obtain ⟨c, e1, e2⟩ := handler_step (again := again) (d := d) h (.add x)
      refine next { y with coll := c } _ e1 e2 ?_ fun _ => rfl
      have hl : ∃ m, Spec.lstep cap l (SharedColl.spec (.add x)) = l ++ m := by
        simp only [SharedColl.spec, Spec.lstep]
        split
        · exact ⟨[x], rfl⟩
        · exact ⟨[], by simp⟩
      obtain ⟨m, hm⟩ := hl
      rw [hm]
      obtain ⟨c0, i, pc, w⟩ := y
      cases pc with
      | idle => exact hs.elim
      | test =>
        obtain ⟨k, hk, hi, hv⟩ := hs
        exact ⟨k, by simp; omega, hi, by rw [List.take_append_of_le_length hk]; exact hv⟩
      | current =>
        obtain ⟨k, hk, hi, hv⟩ := hs
        exact ⟨k, by simp; omega, hi, by rw [List.take_append_of_le_length (by omega)]; exact hv⟩
      | item =>
        obtain ⟨k, hk, hi, hv⟩ := hs
        exact ⟨k, by simp; omega, hi, by rw [List.take_append_of_le_length (by omega)]; exact hv⟩

/-- As many items as places passed, and only items that have been in the list. -/
def Got (P : α → Prop) (n : Nat) (l : List α) (y : IteratorInterrupt.St α) : Prop :=
  (∀ x ∈ l, P x) ∧ (∀ x ∈ y.visited, P x) ∧
    match y.pc with
    | .idle => False
    | .test => ∃ k : Nat, k ≤ l.length ∧ y.index = (k : Int) - 1 ∧ y.visited.length = n + k
    | _ => ∃ k : Nat, k < l.length ∧ y.index = k ∧ y.visited.length = n + k

theorem noClear_one {es : List (IteratorInterrupt.Ev α)} (h : NoClear es) : OneLoop es := by
  intro e he hl
  rcases h e he with h | ⟨x, h⟩ | ⟨i, x, h⟩ <;> rw [h] at hl <;> cases hl

theorem got_run {P : α → Prop} {n : Nat} (es : List (IteratorInterrupt.Ev α)) : ∀ (y : IteratorInterrupt.St α) (l : List α), Rel cap y.coll l → Got P n l y → NoClear es →
    (∀ x, Spec.LOp.add x ∈ changes es → P x) → (∀ i x, Spec.LOp.setAt i x ∈ changes es → P x) →
    ∃ y', run again d y es = .ok y' ∧ (∀ x ∈ y'.visited, P x) ∧ (y'.pc = .idle → ∃ es1 es2, es = es1 ++ es2 ∧ y'.visited.length = n + (Spec.lrun cap l (changes es1)).length) := by
  induction es with
  | nil =>
    intro y l h hg _ _ _
    refine ⟨y, rfl, hg.2.1, fun hi => ?_⟩
    have := hg.2.2
    simp only [hi] at this
  | cons e es ih =>
    intro y l h hg hn ha hset
    have hn' : NoClear es := fun e he => hn e (List.mem_cons_of_mem _ he)
    have sub : ∀ o, o ∈ changes es → o ∈ changes (e :: es) := by
      intro o ho
      cases e with
      | handler p => exact List.mem_cons_of_mem _ ho
      | _ => exact ho
    have hlen := h.hlen
    have next : ∀ (y1 : IteratorInterrupt.St α) l1, step again d y e = .ok y1 → Rel cap y1.coll l1 → Got P n l1 y1 → (∀ fs, Spec.lrun cap l (changes (e :: fs)) = Spec.lrun cap l1 (changes fs)) →
        ∃ y', run again d y (e :: es) = .ok y' ∧ (∀ x ∈ y'.visited, P x) ∧ (y'.pc = .idle → ∃ es1 es2, e :: es = es1 ++ es2 ∧ y'.visited.length = n + (Spec.lrun cap l (changes es1)).length) := by
      intro y1 l1 h1 h2 h3 h4
      obtain ⟨y', f1, f2, f3⟩ := ih y1 l1 h2 h3 hn' (fun x hx => ha x (sub _ hx)) fun i x hx => hset i x (sub _ hx)
      refine ⟨y', (run_cons y e es y1 h1).trans f1, f2, fun hi => ?_⟩
      obtain ⟨es1, es2, g1, g2⟩ := f3 hi
      exact ⟨e :: es1, es2, by rw [g1]; rfl, by rw [h4]; exact g2⟩
    have change : ∀ o : Op α, e = .handler o → (∀ x ∈ Spec.lstep cap l (SharedColl.spec o), P x) → l.length ≤ (Spec.lstep cap l (SharedColl.spec o)).length →
        ∃ y', run again d y (e :: es) = .ok y' ∧ (∀ x ∈ y'.visited, P x) ∧ (y'.pc = .idle → ∃ es1 es2, e :: es = es1 ++ es2 ∧ y'.visited.length = n + (Spec.lrun cap l (changes es1)).length) := by
      intro o he hp hl
      subst he
      obtain ⟨c, e1, e2⟩ := handler_step (again := again) (d := d) h o
      refine next { y with coll := c } _ e1 e2 ⟨hp, hg.2.1, ?_⟩ fun _ => rfl
      obtain ⟨c0, i, pc, w⟩ := y
      have hq := hg.2.2
      cases pc with
      | idle => exact hq
      | test => obtain ⟨k, hk, r⟩ := hq; exact ⟨k, by omega, r⟩
      | current => obtain ⟨k, hk, r⟩ := hq; exact ⟨k, by omega, r⟩
      | item => obtain ⟨k, hk, r⟩ := hq; exact ⟨k, by omega, r⟩
    rcases hn e List.mem_cons_self with rfl | ⟨x, rfl⟩ | ⟨j, x, rfl⟩
    · obtain ⟨c, i, pc, w⟩ := y
      obtain ⟨g1, g2, g3⟩ := hg
      cases pc with
      | idle => exact g3.elim
      | test =>
        obtain ⟨k, hk, hi, hv⟩ := g3
        change i = _ at hi
        change w.length = _ at hv
        subst hi
        by_cases hl : k < l.length
        · exact next ⟨c, k, .current, w⟩ l ((test_step (again := again) (d := d) h k (by omega) _).trans (by rw [if_pos hl])) h ⟨g1, g2, k, hl, rfl, hv⟩ fun _ => rfl
        · have e1 : step again d ⟨c, (k : Int) - 1, .test, w⟩ .main = .ok ⟨c, (k : Int) - 1, .idle, w⟩ := (test_step (again := again) (d := d) h k (by omega) _).trans (by rw [if_neg hl])
          obtain ⟨y', f1, _⟩ := safe_run (again := again) (d := d) es ⟨c, (k : Int) - 1, .idle, w⟩ l h trivial
          have hv' := idle_run es _ y' (noClear_one hn') rfl f1
          change y'.visited = w at hv'
          refine ⟨y', (run_cons _ _ es _ e1).trans f1, by rw [hv']; exact g2, fun _ => ⟨[], _, rfl, ?_⟩⟩
          change y'.visited.length = n + l.length
          rw [hv', hv]
          omega
      | current =>
        obtain ⟨k, hk, hi, hv⟩ := g3
        change i = _ at hi
        subst hi
        exact next ⟨c, k, .item, w⟩ l ((current_step (again := again) (d := d) h k _).trans (by rw [if_pos hk])) h ⟨g1, g2, k, hk, rfl, hv⟩ fun _ => rfl
      | item =>
        obtain ⟨k, hk, hi, hv⟩ := g3
        change i = _ at hi
        change w.length = _ at hv
        subst hi
        obtain ⟨u, e1, e2⟩ := item_step (again := again) (d := d) h k w
        refine next ⟨c, k, .test, w ++ [u]⟩ l e1 h ⟨g1, fun x hx => ?_, k + 1, hk, by simp, ?_⟩ fun _ => rfl
        · rcases List.mem_append.1 hx with hx | hx
          · exact g2 x hx
          · rw [List.mem_singleton.1 hx, e2 hk]; exact g1 _ (List.getElem_mem hk)
        · change (w ++ [u]).length = n + (k + 1)
          simp [hv, Nat.add_assoc]
    · refine change (.add x) rfl (fun z hz => ?_) ?_
      · simp only [SharedColl.spec, Spec.lstep] at hz
        split at hz
        · rcases List.mem_append.1 hz with hz | hz
          · exact hg.1 z hz
          · rw [List.mem_singleton.1 hz]; exact ha x List.mem_cons_self
        · exact hg.1 z hz
      · simp only [SharedColl.spec, Spec.lstep]
        split <;> simp
    · refine change (.setAt j x) rfl (fun z hz => ?_) ?_
      · simp only [SharedColl.spec, Spec.lstep] at hz
        split at hz
        · rcases List.mem_or_eq_of_mem_set hz with hz | hz
          · exact hg.1 z hz
          · rw [hz]; exact hset j x List.mem_cons_self
        · exact hg.1 z hz
      · simp only [SharedColl.spec, Spec.lstep]
        split <;> simp

end IteratorShared
open IteratorShared

/-- **C165.** Whatever handlers do, every history is defined, and the collection holds the list that the handlers' calls make. -/
theorem c165_safe {α : Type} [DecidableEq α] (again : Bool) (d : α) (arr : FixedArray.FA α) (hn : arr.items.length ≤ 32767) (es : List (IteratorInterrupt.Ev α)) :
    ∃ y, run again d (St.init arr) es = .ok y ∧ SharedColl.Holds d y.coll (Spec.lrun arr.items.length [] (changes es)) := by
  obtain ⟨y, h1, h2, _⟩ := safe_run (again := again) (d := d) es (St.init arr) [] (collInit_rel arr hn) trivial
  exact ⟨y, h1, h2.hcnt, fun i => Collection.getAt_rel h2 d i⟩

/-- **C165.** Whatever handlers do, a loop ends: main code makes at most three accesses for every place of the array, and one more. -/
theorem c165_ends {α : Type} [DecidableEq α] (again : Bool) (d : α) {cap : Nat} (y : IteratorInterrupt.St α) (l : List α) (h : Rel cap y.coll l) (hp : y.pc = .idle) (es : List (IteratorInterrupt.Ev α))
    (ho : OneLoop es) (ha : 3 * cap + 1 ≤ accesses es) : ∃ y', run again d y (.loop :: es) = .ok y' ∧ y'.pc = .idle := by
  obtain ⟨c, i, pc, v⟩ := y
  change pc = _ at hp
  subst hp
  obtain ⟨y', h1, _, _, h4⟩ := safe_run (again := again) (d := d) es ⟨c, -1, .test, v⟩ l h ⟨0, Nat.zero_le _, rfl⟩
  refine ⟨y', h1, ?_⟩
  have hg := h4 ho
  have z : toGo cap (⟨c, -1, .test, v⟩ : IteratorInterrupt.St α) = 3 * cap + 1 := rfl
  rw [z] at hg
  have hz : toGo cap y' = 0 := by omega
  revert hz
  cases hpc : y'.pc <;> simp only [toGo, hpc] <;> intro hz <;> first | rfl | omega

/-- **C165.** If handlers only add: while the loop runs main code has got the first items of the list, each once and in order, and when it has ended all the items of the list there was at its end, also those that
    were added on the way. -/
theorem c165_adds_partial {α : Type} [DecidableEq α] (again : Bool) (d : α) {cap : Nat} (y : IteratorInterrupt.St α) (l : List α) (h : Rel cap y.coll l) (hp : y.pc = .idle) (es : List (IteratorInterrupt.Ev α))
    (ha : Adds es) : ∃ y', run again d y (.loop :: es) = .ok y' ∧
      ((y'.pc ≠ .idle ∧ ∃ k, y'.visited = y.visited ++ (Spec.lrun cap l (changes es)).take k) ∨
        (y'.pc = .idle ∧ ∃ es1 es2, es = es1 ++ es2 ∧ y'.visited = y.visited ++ Spec.lrun cap l (changes es1))) := by
  obtain ⟨c, i, pc, v⟩ := y
  change pc = _ at hp
  subst hp
  obtain ⟨y', h1, h2⟩ := adds_run (again := again) (d := d) es ⟨c, -1, .test, v⟩ v l h ⟨0, Nat.zero_le _, rfl, by simp⟩ ha
  refine ⟨y', h1, ?_⟩
  rcases h2 with h2 | h2
  · left
    simp only [Sofar] at h2
    cases hpc : y'.pc <;> simp only [hpc] at h2
    all_goals
      obtain ⟨k, _, _, hv⟩ := h2
      exact ⟨nofun, k, hv⟩
  · exact .inr h2

/-- **C165.** If handlers do not clear: main code gets only what was an item when the loop began or was added or set since, and when the loop has ended it has got as many items as there were at its end. -/
theorem c165_items_partial {α : Type} [DecidableEq α] (again : Bool) (d : α) {cap : Nat} (y : IteratorInterrupt.St α) (l : List α) (h : Rel cap y.coll l) (hp : y.pc = .idle) (es : List (IteratorInterrupt.Ev α))
    (hn : NoClear es) : ∃ y', run again d y (.loop :: es) = .ok y' ∧
      (∀ x ∈ y'.visited, x ∈ y.visited ∨ x ∈ l ∨ Spec.LOp.add x ∈ changes es ∨ ∃ i, Spec.LOp.setAt i x ∈ changes es) ∧
      (y'.pc = .idle → ∃ es1 es2, es = es1 ++ es2 ∧ y'.visited.length = y.visited.length + (Spec.lrun cap l (changes es1)).length) := by
  obtain ⟨c, i, pc, v⟩ := y
  change pc = _ at hp
  subst hp
  exact got_run (again := again) (d := d) (P := fun x => x ∈ v ∨ x ∈ l ∨ Spec.LOp.add x ∈ changes es ∨ ∃ i, Spec.LOp.setAt i x ∈ changes es) (n := v.length) es ⟨c, -1, .test, v⟩ l h
    ⟨fun x hx => .inr (.inl hx), fun x hx => .inl hx, 0, Nat.zero_le _, rfl, rfl⟩ hn (fun x hx => .inr (.inr (.inl hx))) fun i x hx => .inr (.inr (.inr ⟨i, hx⟩))

/-- **C165.** A handler's `Clear` behind `MoveNext`: main code gets the default value, which nobody has added, as an item. -/
theorem c165_default_fails {α : Type} [DecidableEq α] (again : Bool) (d : α) {cap : Nat} (c : Coll α) (i : Int) (v l : List α) (h : Rel cap c l) (hl : l ≠ []) :
    run again d ⟨c, i, .idle, v⟩ [.loop, .main, .handler .clear, .main, .main] = .ok ⟨Collection.clear c, 0, .idle, v ++ [d]⟩ := by
  have hpos : 0 < l.length := List.length_pos_iff.2 hl
  have h1 : step again d ⟨c, -1, .test, v⟩ .main = .ok ⟨c, 0, .current, v⟩ := (test_step (again := again) (d := d) h 0 (Nat.zero_le _) v).trans (by rw [if_pos hpos]; rfl)
  have hc : Rel cap (Collection.clear c) [] := Collection.clear_rel h
  have h2 : step again d ⟨Collection.clear c, 0, .current, v⟩ .main = .ok ⟨Collection.clear c, 0, .test, v ++ [d]⟩ := current_step (again := again) (d := d) hc 0 v
  have h3 : step again d ⟨Collection.clear c, 0, .test, v ++ [d]⟩ .main = .ok ⟨Collection.clear c, 0, .idle, v ++ [d]⟩ :=
    test_step (again := again) (d := d) hc 1 (by have := h.hlen; omega) (v ++ [d])
  rw [run_cons _ _ _ ⟨c, -1, .test, v⟩ rfl, run_cons _ _ _ _ h1,
    run_cons _ _ _ ⟨Collection.clear c, 0, .current, v⟩ rfl, run_cons _ _ _ _ h2, run_cons _ _ _ _ h3]
  rfl

/-- **C165.** A handler that clears the collection and adds an item while main code uses the first one: the loop ends, and main code never gets the item that is in the collection. -/
theorem c165_skip_fails {α : Type} [DecidableEq α] (again : Bool) (d : α) {cap : Nat} (c : Coll α) (i : Int) (v l : List α) (h : Rel cap c l) (a : α) (m : List α) (hl : l = a :: m) (x : α) :
    ∃ c', run again d ⟨c, i, .idle, v⟩ [.loop, .main, .main, .main, .handler .clear, .handler (.add x), .main] = .ok ⟨c', 0, .idle, v ++ [a]⟩ ∧ Rel cap c' [x] := by
  subst hl
  have hcap : 1 ≤ cap := by have := h.hlen; simp at this; omega
  have h1 : step again d ⟨c, -1, .test, v⟩ .main = .ok ⟨c, 0, .current, v⟩ := test_step (again := again) (d := d) h 0 (Nat.zero_le _) v
  have h2 : step again d ⟨c, 0, .current, v⟩ .main = .ok ⟨c, 0, .item, v⟩ := current_step (again := again) (d := d) h 0 v
  obtain ⟨w, h3, hw⟩ := item_step (again := again) (d := d) h 0 v
  have hw : w = a := hw (by simp)
  have h3 : step again d ⟨c, 0, .item, v⟩ .main = .ok ⟨c, 0, .test, v ++ [w]⟩ := h3
  subst hw
  have hc : Rel cap (Collection.clear c) [] := Collection.clear_rel h
  obtain ⟨c', h4, h5⟩ := handler_step (again := again) (d := d) (y := ⟨Collection.clear c, 0, .test, v ++ [w]⟩) hc (.add x)
  have h5 : Rel cap c' [x] := by
    have e : Spec.lstep cap [] (SharedColl.spec (.add x)) = [x] := by
      simp only [SharedColl.spec, Spec.lstep]
      rw [if_pos (by simp; omega)]
      rfl
    rw [e] at h5
    exact h5
  have h6 : step again d ⟨c', 0, .test, v ++ [w]⟩ .main = .ok ⟨c', 0, .idle, v ++ [w]⟩ := test_step (again := again) (d := d) h5 1 hcap (v ++ [w])
  refine ⟨c', ?_, h5⟩
  rw [run_cons _ _ _ ⟨c, -1, .test, v⟩ rfl, run_cons _ _ _ _ h1, run_cons _ _ _ _ h2,
    run_cons _ _ _ _ h3,
    run_cons _ _ _ ⟨Collection.clear c, 0, .test, v ++ [w]⟩ rfl, run_cons _ _ _ _ h4, run_cons _ _ _ _ h6]
  rfl

/-! ### In sections -/

namespace IteratorShared
variable {α : Type} [DecidableEq α]

/-- The collection with its iterator as a shared object (Iterator.h 64-130). -/
abbrev walk (again : Bool) (d : α) : CriticalSection.Machine where
  St := IteratorInterrupt.St α
  Ev := IteratorInterrupt.Ev α
  step := IteratorInterrupt.step again d
  kind := fun | .loop => .enter | .main => .within | .handler _ => .handler
  idle := fun y => y.pc = .idle
  proper := fun _ => True

theorem lawful_walk (again : Bool) (d : α) : Sections.Lawful (walk again d) := by
  intro (y : IteratorInterrupt.St α) (e : IteratorInterrupt.Ev α) (y' : IteratorInterrupt.St α) (hi : y.pc = .idle) hk h
  change IteratorInterrupt.step again d y e = .ok y' at h
  change y'.pc = .idle
  cases e with
  | loop => exact absurd rfl hk
  | main => simp only [step, mainStep, hi] at h; injection h with h; exact h ▸ hi
  | handler o =>
    cases hw : whole y.coll o with
    | ub => simp only [step, hw] at h; cases h
    | ok c => simp only [step, hw, Res.bind_ok] at h; injection h with h; subst h; exact hi

theorem run_walk (again : Bool) (d : α) (es : List (IteratorInterrupt.Ev α)) (y : IteratorInterrupt.St α) : (walk again d).run y es = IteratorInterrupt.run again d y es :=
  Sections.run_is (M := walk again d) (R := IteratorInterrupt.run again d) (fun _ => rfl) (fun _ _ _ => rfl) es y

/-- The items main code has still to get. -/
def Rest (l : List α) (y : IteratorInterrupt.St α) (p : List α) : Prop :=
  match y.pc with
  | .idle => p = []
  | .test => ∃ k : Nat, k ≤ l.length ∧ y.index = (k : Int) - 1 ∧ p = l.drop k
  | _ => ∃ k : Nat, k < l.length ∧ y.index = k ∧ p = l.drop k

theorem turn_run {again : Bool} {d : α} {cap : Nat} (es : List (IteratorInterrupt.Ev α)) : ∀ (y y' : IteratorInterrupt.St α) (l p : List α), Rel cap y.coll l → Rest l y p →
    Sections.Clean (walk again d) y es → run again d y es = .ok y' → y'.pc = .idle → y'.visited = y.visited ++ p ++ wholeLoops cap l es := by
  induction es with
  | nil =>
    intro y y' l p _ hr _ h hi
    injection h with h
    subst h
    simp only [Rest, hi] at hr
    simp [hr, wholeLoops]
  | cons e es ih =>
    intro y y' l p hR hr hc h hi
    have hid : (walk again d).kind e ≠ .within → y.pc = .idle := hc.1.2
    have hlen := hR.hlen
    have next : ∀ (y1 : IteratorInterrupt.St α) l1 p1, step again d y e = .ok y1 → Rel cap y1.coll l1 → Rest l1 y1 p1 → y1.visited ++ p1 ++ wholeLoops cap l1 es = y.visited ++ p ++ wholeLoops cap l (e :: es) →
        y'.visited = y.visited ++ p ++ wholeLoops cap l (e :: es) := by
      intro y1 l1 p1 h1 h2 h3 h4
      rw [run_cons y e es y1 h1] at h
      exact (ih y1 y' l1 p1 h2 h3 (hc.2 y1 h1) h hi).trans h4
    cases e with
    | loop =>
      have hp := hid nofun
      obtain ⟨c, i, pc, v⟩ := y
      change pc = _ at hp
      subst hp
      change p = [] at hr
      subst hr
      exact next ⟨c, -1, .test, v⟩ l l rfl hR ⟨0, Nat.zero_le _, rfl, rfl⟩ (by simp [wholeLoops])
    | handler o =>
      have hp := hid nofun
      obtain ⟨c1, h1, h2⟩ := handler_step (again := again) (d := d) hR o
      obtain ⟨c, i, pc, v⟩ := y
      change pc = _ at hp
      subst hp
      change p = [] at hr
      subst hr
      exact next _ _ [] h1 h2 rfl rfl
    | main =>
      obtain ⟨c, i, pc, v⟩ := y
      cases pc with
      | idle => exact next ⟨c, i, .idle, v⟩ l p rfl hR hr rfl
      | test =>
        obtain ⟨k, hk, hx, hq⟩ := hr
        change i = _ at hx
        subst hx hq
        by_cases hl : k < l.length
        · exact next ⟨c, k, .current, v⟩ l _ ((test_step (again := again) (d := d) hR k (by omega) v).trans (by rw [if_pos hl])) hR ⟨k, hl, rfl, rfl⟩ rfl
        · refine next ⟨c, (k : Int) - 1, .idle, v⟩ l [] ((test_step (again := again) (d := d) hR k (by omega) v).trans (by rw [if_neg hl])) hR rfl ?_
          rw [List.drop_eq_nil_of_le (by omega)]
          rfl
      | current =>
        obtain ⟨k, hk, hx, hq⟩ := hr
        change i = _ at hx
        subst hx hq
        exact next ⟨c, k, .item, v⟩ l _ ((current_step (again := again) (d := d) hR k v).trans (by rw [if_pos hk])) hR ⟨k, hk, rfl, rfl⟩ rfl
      | item =>
        obtain ⟨k, hk, hx, hq⟩ := hr
        change i = _ at hx
        subst hx hq
        obtain ⟨u, e1, e2⟩ := item_step (again := again) (d := d) hR k v
        refine next ⟨c, k, .test, v ++ [u]⟩ l (l.drop (k + 1)) e1 hR ⟨k + 1, hk, by simp, rfl⟩ ?_
        change v ++ [u] ++ l.drop (k + 1) ++ _ = v ++ l.drop k ++ _
        rw [e2 hk, List.append_assoc v, List.singleton_append, List.getElem_cons_drop]
        rfl

end IteratorShared

/-- **C165.** Main code that goes through the collection only with interrupts off: after its loops it has got, for every one, all the items there were at its beginning, each once and in order. -/
theorem c165_sections {α : Type} [DecidableEq α] (again on : Bool) (d : α) (arr : FixedArray.FA α) (hn : arr.items.length ≤ 32767) (es : List (CriticalSection.Ev (IteratorInterrupt.Ev α)))
    (hs : Sections.Sectioned (walk again d) (CriticalSection.Board.init _ (St.init arr) on) es) :
    ∃ b, CriticalSection.run (walk again d) (CriticalSection.Board.init _ (St.init arr) on) es = .ok b ∧ run again d (St.init arr) b.trace = .ok b.obj ∧
      (b.obj.pc = .idle → b.obj.visited = wholeLoops arr.items.length [] b.trace) := by
  obtain ⟨b, hb⟩ := c151_defined _ (lawful_walk again d) (St.init arr) on (fun _ => rfl) es hs fun tr _ => by
    obtain ⟨y, hy, _⟩ := c165_safe again d arr hn tr
    exact ⟨y, (run_walk again d tr _).trans hy⟩
  obtain ⟨h1, h2⟩ := c151_apart _ (lawful_walk again d) (St.init arr) on (fun _ => rfl) es hs b hb
  have h3 : run again d (St.init arr) b.trace = .ok b.obj := (run_walk again d b.trace _).symm.trans h2
  exact ⟨b, hb, h3, fun hp => turn_run b.trace (St.init arr) b.obj [] [] (collInit_rel arr hn) rfl h1 h3 hp⟩

/-- **C165.** The full claim, that main code gets no item that was never in the collection, is false of the code. -/
theorem c165_full_claim_is_false :
    ¬ ∀ (again : Bool) (arr : FixedArray.FA Nat) (es : List (IteratorInterrupt.Ev Nat)) (y : IteratorInterrupt.St Nat), run again 0 (St.init arr) es = .ok y →
      ∀ x ∈ y.visited, Spec.LOp.add x ∈ changes es ∨ ∃ i, Spec.LOp.setAt i x ∈ changes es := by
  intro h
  have := h true ⟨[9, 9], 0⟩ [.handler (.add 5), .loop, .main, .handler .clear, .main, .main] ⟨⟨⟨[5, 9], 0⟩, 0⟩, 0, .idle, [0]⟩ (by decide +kernel) 0 (by decide)
  rcases this with h | ⟨i, h⟩
  · revert h; simp [changes, SharedColl.spec]
  · revert h; simp [changes, SharedColl.spec]

/-! ### Cases -/

namespace IteratorShared
/-- Two items in four places. -/
def two : Coll Nat := ⟨⟨[5, 6, 9, 9], 0⟩, 2⟩
theorem rel_two : Rel 4 two [5, 6] := ⟨rfl, by decide, rfl, by decide, rfl⟩
/-- A loop in a section; the request of a handler waits. -/
def inSections : List (CriticalSection.Ev (IteratorInterrupt.Ev Nat)) :=
  [.request 0, .serve 0 [.handler (.add 7)], .other, .off, .main .loop, .main .main, .request 0, .serve 0 [.handler .clear], .main .main, .main .main, .main .main, .on, .other, .serve 0 [.handler .clear]]
instance (again : Bool) (d : Nat) : DecidablePred (walk again d).proper := fun _ => inferInstanceAs (Decidable True)
instance (again : Bool) (d : Nat) : DecidablePred (walk again d).idle := fun y => inferInstanceAs (Decidable (y.pc = .idle))
end IteratorShared

example := c165_safe true 0 ⟨[9, 9], 0⟩ (by decide) [.handler (.add 5), .loop, .main, .handler .clear, .main, .main]
example := c165_ends false 0 ⟨two, -1, .idle, []⟩ [5, 6] rel_two rfl (List.replicate 13 .main) (by unfold OneLoop; decide) (by decide)
example := c165_adds_partial false 0 ⟨two, -1, .idle, []⟩ [5, 6] rel_two rfl [.main, .handler (.add 7), .main] (by simp [Adds])
example : ∃ y, run false 0 ⟨two, -1, .idle, []⟩ (.loop :: .main :: .handler (.add 7) :: List.replicate 12 .main) = .ok y ∧ y.visited = [5, 6, 7] ∧ y.pc = .idle := 
  ⟨⟨⟨⟨[5, 6, 7, 9], 0⟩, 3⟩, 2, .idle, [5, 6, 7]⟩, by decide +kernel, rfl, rfl⟩
example := c165_items_partial true 0 ⟨two, -1, .idle, []⟩ [5, 6] rel_two rfl [.main, .handler (.setAt 0 7), .main, .handler (.add 8), .main] (by simp [NoClear])
example := c165_default_fails true 0 two (-1) [] [5, 6] rel_two (by decide)
example := c165_skip_fails false 0 two (-1) [] [5, 6] rel_two 5 [6] rfl 8
example := c165_sections true true 0 ⟨[9, 9], 0⟩ (by decide) inSections (by decide +kernel)
example : (match CriticalSection.run (walk true 0) (CriticalSection.Board.init _ (St.init ⟨[9, 9], 0⟩) true) inSections with
    | .ok b => some (b.obj.visited, b.obj.pc, b.obj.coll.count)
    | .ub => none) = some ([7], .idle, 0) := by decide +kernel

end Atl.Props
