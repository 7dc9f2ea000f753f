import Verif.Spec.DelayBook
import Verif.Props.Delays

/- Property theorems C24, C26: every history with nonzero ids, any number of different ids. -/
namespace Atl.Props
open Atl.Delays Atl.Spec.Delays

namespace DelayBook

/-- The book and the map say the same; no line is for id 0 and none is double. -/
structure Same (b : Book) (t : Table) : Prop where
  delta : t.delta = b.delta
  left : ∀ id, t.left id = b.left id
  nodup : (b.lines.map (·.1)).Nodup
  nz : 0 ∉ b.lines.map (·.1)

theorem left_none {b : Book} {id : Nat} : b.left id = none ↔ id ∉ b.lines.map (·.1) := by
  simp only [Book.left, Option.map_eq_none_iff, List.find?_eq_none, decide_eq_true_eq, List.mem_map, not_exists, not_and]

theorem left_append {b : Book} {id time : Nat} (h : b.left id = none) (j : Nat) :
    Book.left { b with lines := b.lines ++ [(id, time)] } j = if j = id then some time else b.left j := by
  simp only [Book.left, List.find?_append, List.find?_cons, List.find?_nil] at h ⊢
  by_cases hj : j = id
  · subst hj
    rw [Option.map_eq_none_iff] at h
    simp [h]
  · have : ¬ id = j := fun e => hj e.symm
    simp [hj, this]

theorem left_strike (b : Book) (id j : Nat) : (b.strike id).left j = if j = id then none else b.left j := by
  simp only [Book.left, Book.strike, List.find?_filter]
  by_cases hj : j = id
  · subst hj
    simp only [if_true, Option.map_eq_none_iff, List.find?_eq_none]
    intro p _; simp
  · rw [if_neg hj]
    congr 2
    funext p
    by_cases hp : p.1 = j
    · simp [hp, hj]
    · simp [hp]

theorem keys_rewrite (b : Book) (id v : Nat) : (b.rewrite id v).lines.map (·.1) = b.lines.map (·.1) := by
  simp only [Book.rewrite, List.map_map]
  apply List.map_congr_left
  intro p _
  simp only [Function.comp]
  split
  · next h => exact h.symm
  · rfl

theorem left_rewrite (b : Book) (id v j : Nat) : (b.rewrite id v).left j = if j = id then (b.left id).map fun _ => v else b.left j := by
  simp only [Book.left, Book.rewrite]
  generalize b.lines = l
  induction l with
  | nil => by_cases hj : j = id <;> simp
  | cons p l ih =>
    simp only [List.map_cons, List.find?_cons]
    by_cases hp : p.1 = id
    · by_cases hj : j = id
      · simp [hp, hj]
      · have : ¬ id = j := fun e => hj e.symm
        rw [if_neg hj] at ih ⊢
        simp only [hp, if_true, this, decide_false]
        exact ih
    · by_cases hj : p.1 = j
      · have : ¬ j = id := fun e => hp (hj.trans e)
        simp [hp, hj, this]
      · simp only [hp, hj, if_false, decide_false]
        exact ih

/-- A free slot is a free line. -/
theorem free_iff {N : Nat} {s : State} {t : Table} {b : Book} (h : Ref N s t) (hb : Same b t) : (∃ j, j < N ∧ s.ids j = 0) ↔ b.lines.length < N := by
  have key : ∀ id ∈ b.lines.map (·.1), ∃ i, i < N ∧ s.ids i = id := by
    intro id hid
    refine h.complete id (fun e => hb.nz (e ▸ hid)) ?_
    rw [hb.left]
    exact fun e => left_none.1 e hid
  constructor
  · rintro ⟨j, hj, h0⟩
    have hsub : b.lines.map (·.1) ⊆ ((List.range N).erase j).map s.ids := by
      intro id hid
      obtain ⟨i, hi, e⟩ := key id hid
      refine List.mem_map.2 ⟨i, ?_, e⟩
      rw [List.Nodup.mem_erase_iff List.nodup_range]
      exact ⟨fun e' => hb.nz (by rw [← h0, ← e', e]; exact hid), List.mem_range.2 hi⟩
    have := (List.subperm_of_subset hb.nodup hsub).length_le
    rw [List.length_map, List.length_map, List.length_erase_of_mem (List.mem_range.2 hj), List.length_range] at this
    omega
  · intro hl
    by_contra hc
    have hnz : ∀ j, j < N → s.ids j ≠ 0 := fun j hj e => hc ⟨j, hj, e⟩
    have hnd : ((List.range N).map s.ids).Nodup := by
      refine List.Nodup.map_on ?_ List.nodup_range
      intro i hi j hj he
      exact h.inj i j (List.mem_range.1 hi) (List.mem_range.1 hj) (hnz i (List.mem_range.1 hi)) he
    have hsub : (List.range N).map s.ids ⊆ b.lines.map (·.1) := by
      intro x hx
      obtain ⟨j, hj, rfl⟩ := List.mem_map.1 hx
      have hj := List.mem_range.1 hj
      by_contra hm
      have := h.sound j hj (hnz j hj)
      rw [hb.left, left_none.2 hm] at this
      cases this
    have := (List.subperm_of_subset hnd hsub).length_le
    rw [List.length_map, List.length_map, List.length_range] at this
    omega

theorem strike_same {b : Book} {t : Table} (hb : Same b t) (id : Nat) : Same (b.strike id) (t.put id none) := by
  refine ⟨hb.delta, fun j => ?_, ?_, fun hm => ?_⟩
  · rw [left_strike, ← hb.left]; rfl
  · exact hb.nodup.sublist (List.Sublist.map _ List.filter_sublist)
  · exact hb.nz ((List.Sublist.map _ List.filter_sublist).subset hm)

theorem rewrite_same {b : Book} {t : Table} (hb : Same b t) (id v : Nat) (hl : t.left id ≠ none) : Same (b.rewrite id v) (t.put id (some v)) := by
  refine ⟨hb.delta, fun j => ?_, by rw [keys_rewrite]; exact hb.nodup, by rw [keys_rewrite]; exact hb.nz⟩
  rw [left_rewrite, ← hb.left, ← hb.left]
  show (if j = id then some v else t.left j) = _
  obtain ⟨r, hr⟩ := Option.ne_none_iff_exists'.1 hl
  rw [hr]; rfl

/-- One call: the book's answer, or undefined when there is no line. -/
theorem step_book {N : Nat} {s : State} {t : Table} {b : Book} (h : Ref N s t) (hb : Same b t) (op : Op) (h0 : op.call.id? ≠ some 0) :
    match b.step N op.call with
    | none => s.step N op = .ub
    | some (o, b') => ∃ s' t', s.step N op = .ok (o, s') ∧ Ref N s' t' ∧ Same b' t' := by
  have go : (∀ id time, op = .wait id time → t.left id = none → ∃ j, j < N ∧ s.ids j = 0) → ∀ o b', b.step N op.call = some (o, b') →
      (t.step op.call).1 = o → Same b' (t.step op.call).2 → ∃ s' t', s.step N op = .ok (o, s') ∧ Ref N s' t' ∧ Same b' t' := by
    intro hroom o b' _ ho hs
    obtain ⟨s', e1, e2, _⟩ := step_ref N s t h op h0 hroom
    exact ⟨s', _, by rw [e1, ho], e2, hs⟩
  cases op with
  | update d => exact go (by intro _ _ e; cases e) _ _ rfl rfl ⟨rfl, hb.left, hb.nodup, hb.nz⟩
  | wait id time =>
    simp only [Op.call, Call.id?, ne_eq, Option.some.injEq] at h0
    cases hl : b.left id with
    | none =>
      have tl : t.left id = none := by rw [hb.left, hl]
      by_cases hf : b.lines.length < N
      · have e : b.step N (Op.wait id time).call = some (some false, { b with lines := b.lines ++ [(id, time)] }) := by
          simp only [Op.call, Book.step, hl, if_pos hf]
        rw [e]
        refine go (fun _ _ _ _ => (free_iff h hb).2 hf) _ _ e (by simp only [Op.call, Table.step, tl]) ?_
        simp only [Op.call, Table.step, tl]
        refine ⟨hb.delta, fun j => ?_, ?_, ?_⟩
        · rw [left_append hl, ← hb.left]; rfl
        · simp only [List.map_append, List.map_cons, List.map_nil]
          rw [List.nodup_append]
          exact ⟨hb.nodup, by simp, by rintro x hx y hy rfl; exact left_none.1 hl (by simp at hy; exact hy ▸ hx)⟩
        · simp only [List.map_append, List.map_cons, List.map_nil, List.mem_append, List.mem_singleton]
          rintro (hm | hm)
          · exact hb.nz hm
          · exact h0 hm.symm
      · have e : b.step N (Op.wait id time).call = none := by simp only [Op.call, Book.step, hl, if_neg hf]
        rw [e]
        have hu : s.wait N id time = .ub := by
          rw [c26_wait_iff]
          intro j hj
          refine ⟨fun e0 => hf ((free_iff h hb).1 ⟨j, hj, e0⟩), fun e1 => ?_⟩
          have := h.sound j hj (by rw [e1]; exact h0)
          rw [e1, tl] at this
          cases this
        simp only [State.step, hu]
        rfl
    | some r =>
      have tl : t.left id = some r := by rw [hb.left, hl]
      by_cases hd : r ≤ b.delta
      · have e : b.step N (Op.wait id time).call = some (some true, b.strike id) := by simp only [Op.call, Book.step, hl, if_pos hd]
        rw [e]
        refine go (by rintro _ _ ⟨⟩ e; rw [tl] at e; cases e) _ _ e ?_ ?_
        · simp only [Op.call, Table.step, tl, hb.delta, if_pos hd]
        · simp only [Op.call, Table.step, tl, hb.delta, if_pos hd]
          exact strike_same hb id
      · have e : b.step N (Op.wait id time).call = some (some false, b.rewrite id (r - b.delta)) := by simp only [Op.call, Book.step, hl, if_neg hd]
        rw [e]
        refine go (by rintro _ _ ⟨⟩ e; rw [tl] at e; cases e) _ _ e ?_ ?_
        · simp only [Op.call, Table.step, tl, hb.delta, if_neg hd]
        · simp only [Op.call, Table.step, tl, hb.delta, if_neg hd]
          exact rewrite_same hb id _ (by simp [tl])
  | abort id =>
    refine go (by intro _ _ e; cases e) _ _ rfl rfl ?_
    simp only [Op.call, Table.step]
    by_cases tl : t.left id = none
    · rw [if_pos tl]
      refine ⟨hb.delta, fun j => ?_, by rw [keys_rewrite]; exact hb.nodup, by rw [keys_rewrite]; exact hb.nz⟩
      rw [left_rewrite, ← hb.left, ← hb.left, tl]
      by_cases hj : j = id
      · simp [hj, tl]
      · simp [hj]
    · rw [if_neg tl]
      exact rewrite_same hb id 0 tl
  | clear id => exact go (by intro _ _ e; cases e) _ _ rfl rfl (strike_same hb id)
  | isWaiting id =>
    refine go (by intro _ _ e; cases e) _ _ rfl ?_ hb
    simp only [Op.call, Table.step, Option.some.injEq, hb.left]
    simp only [Book.left, Option.isSome_map]
    rw [Bool.eq_iff_iff]; simp [List.find?_isSome]

theorem run_book {N : Nat} : ∀ (ops : List Op), (∀ op ∈ ops, op.call.id? ≠ some 0) → ∀ (s : State) (t : Table) (b : Book), Ref N s t → Same b t →
    match b.run N (ops.map Op.call) with
    | none => s.run N ops = .ub
    | some (os, b') => ∃ s', s.run N ops = .ok (os, s') ∧ ∃ t', Ref N s' t' ∧ Same b' t'
  | [], _, s, t, b, h, hb => ⟨s, rfl, t, h, hb⟩
  | op :: ops, h0, s, t, b, h, hb => by
    have st := step_book h hb op (h0 op (by simp))
    simp only [List.map_cons, Book.run]
    cases e : b.step N op.call with
    | none =>
      rw [e] at st
      simp only [State.run, st]
      rfl
    | some p =>
      obtain ⟨o, b1⟩ := p
      rw [e] at st
      obtain ⟨s1, t1, e1, r1, k1⟩ := st
      have ih := run_book ops (fun o ho => h0 o (by simp [ho])) s1 t1 b1 r1 k1
      simp only
      cases e2 : b1.run N (ops.map Op.call) with
      | none =>
        rw [e2] at ih
        simp only [State.run, e1, Res.bind_ok, ih]
        rfl
      | some q =>
        obtain ⟨os, b2⟩ := q
        rw [e2] at ih
        obtain ⟨s2, e3, t2, r2, k2⟩ := ih
        exact ⟨s2, by simp only [State.run, e1, Res.bind_ok, e3], t2, r2, k2⟩
end DelayBook

/-- **C24, C26, exactly.** Every history with nonzero ids, of any number of different ids, for every size of the table: the answers are those of the notebook with that many lines,
    and exactly the ids in the book are listed at the end; and when the book has no free line for a delay, the code writes outside its table. -/
theorem c24_capacity_exact (N : Nat) (ops : List Op) (h0 : ∀ op ∈ ops, op.call.id? ≠ some 0) :
    (Book.run N ⟨0, []⟩ (ops.map Op.call) = none ↔ State.init.run N ops = .ub) ∧
    ∀ os b, Book.run N ⟨0, []⟩ (ops.map Op.call) = some (os, b) →
      ∃ s, State.init.run N ops = .ok (os, s) ∧ ∀ id, id ≠ 0 → s.isWaiting N id = b.lines.any (·.1 = id) := by
  have h := DelayBook.run_book ops h0 State.init Table.init ⟨0, []⟩ (init_ref N) ⟨rfl, fun _ => rfl, List.nodup_nil, by simp⟩
  cases e : Book.run N ⟨0, []⟩ (ops.map Op.call) with
  | none =>
    rw [e] at h
    exact ⟨⟨fun _ => h, fun _ => rfl⟩, fun _ _ e' => by cases e'⟩
  | some p =>
    obtain ⟨os, b⟩ := p
    rw [e] at h
    obtain ⟨s, e1, t, r, k⟩ := h
    refine ⟨⟨fun e' => (by cases e'), fun e' => (by rw [e1] at e'; cases e')⟩, ?_⟩
    rintro os' b' ⟨⟩
    refine ⟨s, e1, fun id hid => ?_⟩
    rw [waits_spec hid s t r, k.left]
    simp only [Book.left, Option.isSome_map]
    rw [Bool.eq_iff_iff]; simp [List.find?_isSome]

/-- Three ids share a table of two slots one after the other; a third delay at the same time has no line. -/
example : Book.run 2 ⟨0, []⟩ [.wait 3 10, .wait 4 10, .update 10, .wait 3 10, .wait 5 7, .isWaiting 3, .isWaiting 5] =
      some ([some false, some false, none, some true, some false, some false, some true], ⟨10, [(4, 10), (5, 7)]⟩) ∧
    Book.run 2 ⟨0, []⟩ [.wait 3 10, .wait 4 10, .wait 5 7] = none := by decide +kernel

end Atl.Props
