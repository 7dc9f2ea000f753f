import Verif.Spec.DelayAny
import Verif.Props.DelayBook

/- Property theorems C24, C25, C26: every history, also with id 0. -/
namespace Atl.Props
open Atl.Delays Atl.Spec.Delays

namespace DelayBook

/-- What the search for id 0 finds: the second free slot, or the one there is. -/
theorem scan_zero (ids : Nat → Nat) : ∀ (k i : Nat) (e : Int), match scan ids 0 k i e with
    | .hit j => i ≤ j ∧ j < i + k ∧ ids j = 0 ∧ (e = -1 → ∃ j', i ≤ j' ∧ j' < j ∧ ids j' = 0)
    | .miss e' => (e ≠ -1 → e' = e) ∧ (e = -1 → (e' = -1 ∧ ∀ j, i ≤ j → j < i + k → ids j ≠ 0) ∨ ∃ j : Nat, e' = j ∧ i ≤ j ∧ j < i + k ∧ ids j = 0)
  | 0, i, e => ⟨fun _ => rfl, fun h => Or.inl ⟨h, fun j a b => by omega⟩⟩
  | k + 1, i, e => by
    rw [scan]
    by_cases h0 : ids i = 0
    · by_cases he : e = -1
      · rw [if_pos ⟨he, h0⟩]
        have := scan_zero ids k (i + 1) i
        revert this
        cases scan ids 0 k (i + 1) i with
        | hit j =>
          rintro ⟨a, b, c, -⟩
          exact ⟨by omega, by omega, c, fun _ => ⟨i, by omega, by omega, h0⟩⟩
        | miss e' =>
          rintro ⟨a, -⟩
          exact ⟨fun h => absurd he h, fun _ => Or.inr ⟨i, a (by omega), by omega, by omega, h0⟩⟩
      · rw [if_neg (fun h => he h.1), if_pos h0]
        exact ⟨by omega, by omega, h0, fun h => absurd h he⟩
    · rw [if_neg (fun h => h0 h.2), if_neg h0]
      have := scan_zero ids k (i + 1) e
      revert this
      cases scan ids 0 k (i + 1) e with
      | hit j =>
        rintro ⟨a, b, c, d⟩
        refine ⟨by omega, by omega, c, fun h => ?_⟩
        obtain ⟨j', x, y, z⟩ := d h
        exact ⟨j', by omega, y, z⟩
      | miss e' =>
        rintro ⟨a, b⟩
        refine ⟨a, fun h => ?_⟩
        rcases b h with ⟨x, y⟩ | ⟨j, x, y, z, w⟩
        · refine Or.inl ⟨x, fun j p q => ?_⟩
          by_cases hj : j = i
          · rw [hj]; exact h0
          · exact y j (by omega) (by omega)
        · exact Or.inr ⟨j, x, by omega, by omega, w⟩

theorem upd_same {f : Nat → Nat} {i v : Nat} (h : f i = v) : upd f i v = f := by
  funext j; unfold upd; split
  · next e => rw [e, h]
  · rfl

/-- `Wait` for id 0 while a slot is free. -/
theorem wait_zero (N : Nat) (s : State) (t : Nat) (hf : ∃ j, j < N ∧ s.ids j = 0) :
    ∃ j a s', j < N ∧ s.ids j = 0 ∧ s.wait N 0 t = .ok (a, s') ∧ s'.delta = s.delta ∧ s'.ids = s.ids ∧ (∀ i, i ≠ j → s'.delays i = s.delays i) ∧
      (a = true → ∃ j', j' < N ∧ j' ≠ j ∧ s.ids j' = 0) := by
  have h := scan_zero s.ids N 0 (-1)
  unfold State.wait
  revert h
  cases scan s.ids 0 N 0 (-1) with
  | hit j =>
    rintro ⟨a, b, c, d⟩
    obtain ⟨j', x, y, z⟩ := d rfl
    dsimp only
    split
    · exact ⟨j, _, _, by omega, c, rfl, rfl, upd_same c, fun _ _ => rfl, fun _ => ⟨j', by omega, by omega, z⟩⟩
    · exact ⟨j, _, _, by omega, c, rfl, rfl, rfl, fun i hi => by simp [upd, hi], fun _ => ⟨j', by omega, by omega, z⟩⟩
  | miss e =>
    rintro ⟨-, b⟩
    rcases b rfl with ⟨-, y⟩ | ⟨j, rfl, y, z, w⟩
    · obtain ⟨j, hj, h0⟩ := hf
      exact absurd h0 (y j (by omega) (by omega))
    · have h1 : ¬ ((j : Int) = -1) := by omega
      have h2 : ¬ ((j : Int) < 0) := by omega
      dsimp only
      rw [if_neg h1, if_neg h2]
      exact ⟨j, _, _, by omega, w, rfl, rfl, upd_same w, fun i hi => by simp [upd, hi], fun h => by cases h⟩

/-- Free slots do not matter. -/
theorem ref_free {N : Nat} {s s' : State} {t : Table} (h : Ref N s t) (h1 : s'.delta = s.delta) (h2 : ∀ i, i < N → s'.ids i = s.ids i)
    (h3 : ∀ i, i < N → s.ids i ≠ 0 → s'.delays i = s.delays i) : Ref N s' t := by
  refine ⟨by rw [h.delta, h1], fun i hi h0 => ?_, fun id h0 hl => ?_, fun i j hi hj h0 e => ?_⟩
  · rw [h2 i hi] at h0 ⊢; rw [h3 i hi h0]; exact h.sound i hi h0
  · obtain ⟨i, hi, e⟩ := h.complete id h0 hl
    exact ⟨i, hi, by rw [h2 i hi, e]⟩
  · rw [h2 i hi] at h0 e; rw [h2 j hj] at e; exact h.inj i j hi hj h0 e

theorem abort_zero {N : Nat} {s : State} {t : Table} (h : Ref N s t) : Ref N (s.abort N 0) t := by
  refine ref_free h rfl (fun _ _ => rfl) (fun i hi h0 => ?_)
  show forUp _ N 0 s.delays i = _
  rw [abort_loop, if_neg (fun h => h0 h.2.2)]

theorem clear_zero {N : Nat} {s : State} {t : Table} (h : Ref N s t) : Ref N (s.clear N 0) t := by
  refine ref_free h rfl (fun i _ => ?_) (fun _ _ _ => rfl)
  show forUp _ N 0 s.ids i = _
  rw [clear_loop]
  split
  · next h => rw [h.2.2]
  · rfl

/-- Two free slots are two free lines. -/
theorem two_free {N : Nat} {s : State} {t : Table} {b : Book} (h : Ref N s t) (hb : Same b t) {j j' : Nat} (hj : j < N) (hj' : j' < N) (hne : j' ≠ j)
    (h0 : s.ids j = 0) (h0' : s.ids j' = 0) : b.lines.length + 2 ≤ N := by
  have hsub : b.lines.map (·.1) ⊆ (((List.range N).erase j).erase j').map s.ids := by
    intro id hid
    have hz : id ≠ 0 := fun e => hb.nz (e ▸ hid)
    obtain ⟨i, hi, e⟩ := h.complete id hz (by rw [hb.left]; exact fun e => left_none.1 e hid)
    refine List.mem_map.2 ⟨i, ?_, e⟩
    rw [List.Nodup.mem_erase_iff (List.nodup_range.erase j), List.Nodup.mem_erase_iff List.nodup_range]
    exact ⟨fun e' => hz (by rw [← e, e', h0']), fun e' => hz (by rw [← e, e', h0]), List.mem_range.2 hi⟩
  have := (List.subperm_of_subset hb.nodup hsub).length_le
  rw [List.length_map, List.length_map, List.length_erase_of_mem, List.length_erase_of_mem (List.mem_range.2 hj), List.length_range] at this
  · omega
  · rw [List.Nodup.mem_erase_iff List.nodup_range]; exact ⟨hne, List.mem_range.2 hj'⟩

/-- One call, any id. -/
theorem step_any {N : Nat} {s : State} {t : Table} {b : Book} (h : Ref N s t) (hb : Same b t) (op : Op) :
    match b.stepAny N op.call with
    | none => s.step N op = .ub
    | some (ps, b') => ∃ o ∈ ps, ∃ s' t', s.step N op = .ok (o, s') ∧ Ref N s' t' ∧ Same b' t' := by
  have nz : op.call.id? ≠ some 0 → b.stepAny N op.call = (b.step N op.call).map (fun p => ([p.1], p.2)) →
      match b.stepAny N op.call with
      | none => s.step N op = .ub
      | some (ps, b') => ∃ o ∈ ps, ∃ s' t', s.step N op = .ok (o, s') ∧ Ref N s' t' ∧ Same b' t' := by
    intro h0 e
    have := step_book h hb op h0
    rw [e]
    revert this
    cases b.step N op.call with
    | none => exact id
    | some p => rintro ⟨s', t', x⟩; exact ⟨p.1, by simp, s', t', x⟩
  cases op with
  | update d => exact nz (by simp [Op.call, Call.id?]) rfl
  | wait id time =>
    cases id with
    | succ n => exact nz (by simp [Op.call, Call.id?]) rfl
    | zero =>
      simp only [Op.call, Book.stepAny]
      by_cases hf : b.lines.length < N
      · rw [if_pos hf]
        obtain ⟨j, a, s', hj, h0, e, e1, e2, e3, e4⟩ := wait_zero N s time ((free_iff h hb).2 hf)
        refine ⟨some a, ?_, s', t, by simp only [State.step, e, Res.bind_ok], ref_free h e1 (fun i _ => by rw [e2]) (fun i _ hi => e3 i (fun e => hi (by rw [e, h0]))), hb⟩
        split
        · cases a with
          | false => simp
          | true =>
            obtain ⟨j', hj', hne, h0'⟩ := e4 rfl
            have := two_free h hb hj hj' hne h0 h0'
            omega
        · cases a <;> simp
      · rw [if_neg hf]
        have : s.wait N 0 time = .ub := by
          rw [c26_wait_iff]
          have : ∀ j, j < N → s.ids j ≠ 0 := fun j hj e => hf ((free_iff h hb).1 ⟨j, hj, e⟩)
          exact fun j hj => ⟨this j hj, this j hj⟩
        simp only [State.step, this]
        rfl
  | abort id =>
    cases id with
    | succ n => exact nz (by simp [Op.call, Call.id?]) rfl
    | zero => exact ⟨none, by simp, _, t, rfl, abort_zero h, hb⟩
  | clear id =>
    cases id with
    | succ n => exact nz (by simp [Op.call, Call.id?]) rfl
    | zero => exact ⟨none, by simp, _, t, rfl, clear_zero h, hb⟩
  | isWaiting id =>
    cases id with
    | succ n => exact nz (by simp [Op.call, Call.id?]) rfl
    | zero =>
      refine ⟨some (s.isWaiting N 0), ?_, s, t, rfl, h, hb⟩
      simp only [List.mem_singleton, Option.some.injEq]
      rw [Bool.eq_iff_iff, decide_eq_true_iff, ← free_iff h hb, State.isWaiting, isWaiting_loop]
      constructor
      · rintro ⟨j, -, a, b⟩; exact ⟨j, by omega, b⟩
      · rintro ⟨j, a, b⟩; exact ⟨j, by omega, by omega, b⟩

theorem run_any {N : Nat} : ∀ (ops : List Op) (s : State) (t : Table) (b : Book), Ref N s t → Same b t →
    match b.runAny N (ops.map Op.call) with
    | none => s.run N ops = .ub
    | some (ps, b') => ∃ os s', s.run N ops = .ok (os, s') ∧ List.Forall₂ (· ∈ ·) os ps ∧ ∃ t', Ref N s' t' ∧ Same b' t'
  | [], s, t, b, h, hb => ⟨[], s, rfl, .nil, t, h, hb⟩
  | op :: ops, s, t, b, h, hb => by
    have st := step_any h hb op
    simp only [List.map_cons, Book.runAny]
    revert st
    cases b.stepAny N op.call with
    | none =>
      intro st
      simp only [State.run, st]
      rfl
    | some p =>
      obtain ⟨o, b1⟩ := p
      rintro ⟨x, hx, s1, t1, e1, r1, k1⟩
      have ih := run_any ops s1 t1 b1 r1 k1
      simp only
      revert ih
      cases b1.runAny N (ops.map Op.call) with
      | none =>
        intro ih
        simp only [State.run, e1, Res.bind_ok, ih]
        rfl
      | some q =>
        obtain ⟨os, b2⟩ := q
        rintro ⟨xs, s2, e3, f, t2, r2, k2⟩
        exact ⟨x :: xs, s2, by simp only [State.run, e1, Res.bind_ok, e3], .cons hx f, t2, r2, k2⟩

/-- As long as nothing goes wrong the table of the specification is followed, whatever is called with id 0. -/
theorem run_table {N : Nat} : ∀ (ops : List Op) (s : State) (t : Table) (os : List (Option Bool)) (s' : State), Ref N s t → s.run N ops = .ok (os, s') →
    Ref N s' (t.run (ops.map Op.call)).2 ∧ ∀ id, id ≠ 0 → seenBy id (ops.map Op.call) os = seenBy id (ops.map Op.call) (t.run (ops.map Op.call)).1
  | [], s, t, os, s', h, e => by
    injection e with e; injection e with e1 e2; subst e1; subst e2
    exact ⟨h, fun _ _ => rfl⟩
  | op :: ops, s, t, os, s', h, e => by
    rw [State.run] at e
    cases e1 : s.step N op with
    | ub => rw [e1] at e; cases e
    | ok p =>
      obtain ⟨o, s1⟩ := p
      rw [e1, Res.bind_ok] at e
      cases e2 : s1.run N ops with
      | ub => simp only [e2] at e; cases e
      | ok q =>
        obtain ⟨xs, s2⟩ := q
        simp only [e2, Res.bind_ok] at e
        injection e with e; injection e with a1 a2; subst a1; subst a2
        have key : Ref N s1 (t.step op.call).2 ∧ (op.call.id? ≠ some 0 → o = (t.step op.call).1) := by
          by_cases h0 : op.call.id? = some 0
          · refine ⟨?_, fun x => absurd h0 x⟩
            have hr : Ref N s1 t := by
              cases op with
              | update d => simp [Op.call, Call.id?] at h0
              | wait id time =>
                simp only [Op.call, Call.id?, Option.some.injEq] at h0; subst h0
                by_cases hf : ∃ j, j < N ∧ s.ids j = 0
                · obtain ⟨j, a, s3, hj, h0, e, d1, d2, d3, -⟩ := wait_zero N s time hf
                  simp only [State.step, e, Res.bind_ok] at e1
                  injection e1 with e1; injection e1 with _ e1; subst e1
                  exact ref_free h d1 (fun i _ => by rw [d2]) (fun i _ hi => d3 i (fun e => hi (by rw [e, h0])))
                · have : s.wait N 0 time = .ub := by
                    rw [c26_wait_iff]
                    have : ∀ j, j < N → s.ids j ≠ 0 := fun j hj e => hf ⟨j, hj, e⟩
                    exact fun j hj => ⟨this j hj, this j hj⟩
                  simp only [State.step, this] at e1
                  cases e1
              | abort id =>
                simp only [Op.call, Call.id?, Option.some.injEq] at h0; subst h0
                injection e1 with e1; injection e1 with _ e1; subst e1
                exact abort_zero h
              | clear id =>
                simp only [Op.call, Call.id?, Option.some.injEq] at h0; subst h0
                injection e1 with e1; injection e1 with _ e1; subst e1
                exact clear_zero h
              | isWaiting id =>
                injection e1 with e1; injection e1 with _ e1; subst e1
                exact h
            have hd : (t.step op.call).2.delta = t.delta ∧ ∀ id, id ≠ 0 → (t.step op.call).2.left id = t.left id := by
              cases op with
              | update d => simp [Op.call, Call.id?] at h0
              | wait id time =>
                simp only [Op.call, Call.id?, Option.some.injEq] at h0; subst h0
                simp only [Op.call, Table.step]
                split
                · exact ⟨rfl, fun id hid => if_neg hid⟩
                · split
                  · exact ⟨rfl, fun id hid => if_neg hid⟩
                  · exact ⟨rfl, fun id hid => if_neg hid⟩
              | abort id =>
                simp only [Op.call, Call.id?, Option.some.injEq] at h0; subst h0
                simp only [Op.call, Table.step]
                split
                · exact ⟨rfl, fun id hid => rfl⟩
                · exact ⟨rfl, fun id hid => if_neg hid⟩
              | clear id =>
                simp only [Op.call, Call.id?, Option.some.injEq] at h0; subst h0
                exact ⟨rfl, fun id hid => if_neg hid⟩
              | isWaiting id => exact ⟨rfl, fun _ _ => rfl⟩
            refine ⟨by rw [hd.1, hr.delta], fun i hi hz => by rw [hd.2 _ hz]; exact hr.sound i hi hz, fun id hz hl => ?_, hr.inj⟩
            rw [hd.2 id hz] at hl
            exact hr.complete id hz hl
          · by_cases hf : ∀ id time, op = .wait id time → t.left id = none → ∃ j, j < N ∧ s.ids j = 0
            · obtain ⟨s3, f1, f2, -⟩ := step_ref N s t h op h0 hf
              rw [e1] at f1
              injection f1 with f1; injection f1 with f1 f3; subst f3
              exact ⟨f2, fun _ => f1⟩
            · exfalso
              apply hf
              rintro id time rfl hl
              by_contra hc
              have hid : id ≠ 0 := fun e => h0 (by rw [e]; rfl)
              have : s.wait N id time = .ub := by
                rw [c26_wait_iff]
                refine fun j hj => ⟨fun e => hc ⟨j, hj, e⟩, fun e => ?_⟩
                have := h.sound j hj (by rw [e]; exact hid)
                rw [e, hl] at this; cases this
              simp only [State.step, this] at e1
              cases e1
        obtain ⟨f1, f2⟩ := run_table ops s1 _ xs s2 key.1 e2
        refine ⟨by simpa only [List.map_cons, Table.run] using f1, fun id hid => ?_⟩
        simp only [List.map_cons, Table.run, seenBy_cons]
        rw [f2 id hid]
        split
        · next hi => rw [key.2 (by rw [hi]; simpa using hid)]
        · rfl

end DelayBook

/-- **C24, C26, every history**, id 0 included, with any number of different ids, for every size of the table: the code writes outside its table exactly if the book has no free line
    for a delay; otherwise every answer is one the book allows, and at the end exactly the ids in the book are listed, and id 0 while a slot is free. -/
theorem c24_any_history (N : Nat) (ops : List Op) :
    (Book.runAny N ⟨0, []⟩ (ops.map Op.call) = none ↔ State.init.run N ops = .ub) ∧
    ∀ ps b, Book.runAny N ⟨0, []⟩ (ops.map Op.call) = some (ps, b) →
      ∃ os s, State.init.run N ops = .ok (os, s) ∧ List.Forall₂ (· ∈ ·) os ps ∧
        ∀ id, s.isWaiting N id = if id = 0 then decide (b.lines.length < N) else b.lines.any (·.1 = id) := by
  have h := DelayBook.run_any ops State.init Table.init ⟨0, []⟩ (init_ref N) ⟨rfl, fun _ => rfl, List.nodup_nil, by simp⟩
  cases e : Book.runAny N ⟨0, []⟩ (ops.map Op.call) with
  | none =>
    rw [e] at h
    exact ⟨⟨fun _ => h, fun _ => rfl⟩, fun _ _ e' => by cases e'⟩
  | some p =>
    obtain ⟨ps, b⟩ := p
    rw [e] at h
    obtain ⟨os, s, e1, f, t, r, k⟩ := h
    refine ⟨⟨fun e' => (by cases e'), fun e' => (by rw [e1] at e'; cases e')⟩, ?_⟩
    rintro ps' b' ⟨⟩
    refine ⟨os, s, e1, f, fun id => ?_⟩
    split
    · next hid =>
      subst hid
      rw [Bool.eq_iff_iff, decide_eq_true_iff, ← DelayBook.free_iff r k, State.isWaiting, isWaiting_loop]
      constructor
      · rintro ⟨j, -, a, b⟩; exact ⟨j, by omega, b⟩
      · rintro ⟨j, a, b⟩; exact ⟨j, by omega, by omega, b⟩
    · next hid =>
      rw [waits_spec hid s t r, k.left]
      simp only [Book.left, Option.isSome_map]
      rw [Bool.eq_iff_iff]; simp [List.find?_isSome]

/-- Both answers to a `Wait` for id 0 with two free slots occur: "done" on a new table, "not yet" when an older delay left its number there; with one free slot "not yet" without end. -/
example : ((State.init.run 2 [.wait 0 9]).bind fun r => .ok r.1) = .ok [some true] ∧
    ((State.init.run 2 [.wait 7 50, .wait 9 50, .clear 7, .clear 9, .wait 0 9]).bind fun r => .ok r.1) = .ok [some false, some false, none, none, some false] ∧
    ((State.init.run 2 [.wait 7 50, .wait 0 9, .update 10, .wait 0 9, .isWaiting 0]).bind fun r => .ok r.1) = .ok [some false, some false, none, some false, some true] ∧
    Book.runAny 2 ⟨0, []⟩ [.wait 7 50, .wait 0 9, .update 10, .wait 0 9, .isWaiting 0] =
      some ([[some false], [some false], [none], [some false], [some true]], ⟨10, [(7, 50)]⟩) := by decide +kernel

/-- **C25, every history.** In every history in which the table never runs out of slots, whatever ids are used in it, 0 included: what a client with an id other than 0 sees is exactly
    what it sees when every call with another id is left out. -/
theorem c25_any_history (N : Nat) (h : List Op) (os : List (Option Bool)) (s : State) (hr : State.init.run N h = .ok (os, s)) (id : Nat) (hid : id ≠ 0) :
    ∃ os' s', State.init.run N (h.filter (fun op => Call.concerns id op.call)) = .ok (os', s') ∧
      seenBy id (h.map Op.call) os = seenBy id ((h.filter (fun op => Call.concerns id op.call)).map Op.call) os' ∧
      s.isWaiting N id = s'.isWaiting N id := by
  have hm : (h.filter (fun op => Call.concerns id op.call)).map Op.call = (h.map Op.call).filter (Call.concerns id) := by
    rw [List.filter_map]; rfl
  have ok : ∃ os' s', State.init.run N (h.filter (fun op => Call.concerns id op.call)) = .ok (os', s') := by
    by_cases hN : N = 0
    · subst hN
      have : ∀ (l : List Op) (s : State) (r : List (Option Bool) × State), s.run 0 l = .ok r → ∀ s1 : State, ∃ os' s', s1.run 0 (l.filter (fun op => Call.concerns id op.call)) = .ok (os', s') := by
        intro l
        induction l with
        | nil => intro _ _ _ s1; exact ⟨_, _, rfl⟩
        | cons op l ih =>
          intro s r e s1
          rw [State.run] at e
          have nowait : ∀ i t, op ≠ .wait i t := by
            rintro i t rfl
            have : s.wait 0 i t = .ub := (c26_wait_iff 0 s i t).2 (fun j hj => by omega)
            simp only [State.step, this] at e
            cases e
          cases e1 : s.step 0 op with
          | ub => rw [e1] at e; cases e
          | ok p =>
            rw [e1, Res.bind_ok] at e
            cases e2 : p.2.run 0 l with
            | ub => simp only [e2] at e; cases e
            | ok q =>
              have ih := ih p.2 q e2
              by_cases hc : Call.concerns id op.call = true
              · rw [List.filter_cons_of_pos (p := fun op : Op => Call.concerns id op.call) hc, State.run]
                have : ∃ o s2, s1.step 0 op = .ok (o, s2) := by
                  cases op with
                  | wait i t => exact absurd rfl (nowait i t)
                  | update _ => exact ⟨_, _, rfl⟩
                  | abort _ => exact ⟨_, _, rfl⟩
                  | clear _ => exact ⟨_, _, rfl⟩
                  | isWaiting _ => exact ⟨_, _, rfl⟩
                obtain ⟨o, s2, e3⟩ := this
                obtain ⟨xs, s3, e4⟩ := ih s2
                rw [e3, Res.bind_ok]
                simp only
                rw [e4, Res.bind_ok]
                exact ⟨_, _, rfl⟩
              · rw [List.filter_cons_of_neg (p := fun op : Op => Call.concerns id op.call) hc]; exact ih s1
      exact this h _ _ hr State.init
    · obtain ⟨s', e, -⟩ := run_ref (S := [id]) ⟨by simpa using hid.symm, by simp; omega⟩ (h.filter (fun op => Call.concerns id op.call)) (by
        intro op hop i hi
        have := (List.mem_filter.1 hop).2
        unfold Call.concerns at this
        rw [hi] at this
        simpa using this) State.init Table.init (init_ref N) (fun _ _ => .inl rfl)
      exact ⟨_, s', e⟩
  obtain ⟨os', s', e'⟩ := ok
  obtain ⟨r1, f1⟩ := DelayBook.run_table h State.init Table.init os s (init_ref N) hr
  obtain ⟨r2, f2⟩ := DelayBook.run_table _ State.init Table.init os' s' (init_ref N) e'
  refine ⟨os', s', e', ?_, ?_⟩
  · rw [f1 id hid, f2 id hid, hm]; exact (spec_independent id (h.map Op.call) _ _ rfl rfl).1
  · rw [waits_spec hid s _ r1, waits_spec hid s' _ r2, hm, (spec_independent id (h.map Op.call) _ _ rfl rfl).2.2]

/-- Calls with id 0 between those of clients 7 and 9. -/
example : ∃ os s, State.init.run 3 [.wait 7 50, .wait 0 10, .abort 0, .wait 9 20, .update 20, .wait 0 1, .wait 7 50, .clear 0, .update 30, .wait 7 50] = .ok (os, s) ∧
    seenBy 7 [.wait 7 50, .wait 0 10, .abort 0, .wait 9 20, .update 20, .wait 0 1, .wait 7 50, .clear 0, .update 30, .wait 7 50] os = [some false, some false, some true] :=
  ⟨_, _, rfl, by decide +kernel⟩

/-- **C25 fails for id 0**: what a client with id 0 sees depends on the others: "done" alone, "not yet" beside another delay. -/
theorem c25_id_zero_fails : ((State.init.run 2 [.wait 0 9]).bind fun r => .ok r.1) = .ok [some true] ∧
    ((State.init.run 2 [.wait 7 50, .wait 0 9]).bind fun r => .ok r.1) = .ok [some false, some false] := by decide +kernel

end Atl.Props
