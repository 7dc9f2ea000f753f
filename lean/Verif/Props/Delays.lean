import Verif.Proof.Delays

/- C24-C26 delay table, C27 elapsed time, C28 timeout task. -/
namespace Atl.Props
open Atl Atl.Delays Atl.Spec.Delays

/-! ### Specification level: what one client sees -/

theorem seenBy_cons (id : Nat) (c : Call) (o : Option Bool) (cs : List Call) (os : List (Option Bool)) :
    seenBy id (c :: cs) (o :: os) = if c.id? = some id then o :: seenBy id cs os else seenBy id cs os := by
  unfold seenBy
  by_cases h : c.id? = some id <;> simp [List.zip_cons_cons, h]

/-- The specification has no interference between ids. -/
theorem spec_independent (id : Nat) (cs : List Call) (t1 t2 : Table) (hd : t1.delta = t2.delta)
    (hl : t1.left id = t2.left id) :
    seenBy id cs (t1.run cs).1 = seenBy id (cs.filter (Call.concerns id)) (t2.run (cs.filter (Call.concerns id))).1 ∧
    (t1.run cs).2.delta = (t2.run (cs.filter (Call.concerns id))).2.delta ∧
    (t1.run cs).2.left id = (t2.run (cs.filter (Call.concerns id))).2.left id := by
  induction cs generalizing t1 t2 with
  | nil => exact ⟨rfl, hd, hl⟩
  | cons c cs ih =>
    by_cases hc : Call.concerns id c = true
    · have hstep : (t1.step c).1 = (t2.step c).1 ∧ (t1.step c).2.delta = (t2.step c).2.delta ∧
          (t1.step c).2.left id = (t2.step c).2.left id := by
        cases c with
        | update d => exact ⟨rfl, rfl, hl⟩
        | wait i x =>
          simp only [Call.concerns, Call.id?, beq_iff_eq] at hc
          subst hc
          simp only [Table.step]
          rw [hl, hd]
          cases t2.left i with
          | none => simp [Table.put, hd]
          | some r => simp only; split <;> simp [Table.put, hd]
        | abort i =>
          simp only [Call.concerns, Call.id?, beq_iff_eq] at hc
          subst hc
          simp only [Table.step]
          rw [hl]
          split
          · exact ⟨trivial, hd, hl⟩
          · simp [Table.put, hd]
        | clear i =>
          simp only [Call.concerns, Call.id?, beq_iff_eq] at hc
          subst hc
          simp [Table.step, Table.put, hd]
        | isWaiting i =>
          simp only [Call.concerns, Call.id?, beq_iff_eq] at hc
          subst hc
          simp [Table.step, hd, hl]
      obtain ⟨g1, g2, g3⟩ := ih (t1.step c).2 (t2.step c).2 hstep.2.1 hstep.2.2
      rw [List.filter_cons_of_pos hc]
      simp only [Table.run]
      refine ⟨?_, g2, g3⟩
      rw [seenBy_cons, seenBy_cons, g1, hstep.1]
    · have hne : c.id? ≠ some id := by
        intro e; simp [Call.concerns, e] at hc
      have hstep : (t1.step c).2.delta = t1.delta ∧ (t1.step c).2.left id = t1.left id := by
        cases c with
        | update d => simp [Call.concerns, Call.id?] at hc
        | wait i x =>
          have hi : id ≠ i := fun e => hne (by simp [Call.id?, e])
          simp only [Table.step]
          cases t1.left i with
          | none => simp [Table.put, hi]
          | some r => simp only; split <;> simp [Table.put, hi]
        | abort i =>
          have hi : id ≠ i := fun e => hne (by simp [Call.id?, e])
          simp only [Table.step]
          split <;> simp [Table.put, hi]
        | clear i =>
          have hi : id ≠ i := fun e => hne (by simp [Call.id?, e])
          simp [Table.step, Table.put, hi]
        | isWaiting i => exact ⟨rfl, rfl⟩
      obtain ⟨g1, g2, g3⟩ := ih (t1.step c).2 t2 (by rw [hstep.1, hd]) (by rw [hstep.2, hl])
      rw [List.filter_cons_of_neg hc]
      simp only [Table.run]
      refine ⟨?_, g2, g3⟩
      rw [seenBy_cons, if_neg hne, g1]

/-- Total time of some rounds. -/
def total (ps : List (Nat × Nat)) : Nat := (ps.map (·.1)).sum

theorem spec_rounds_short (id : Nat) (ps : List (Nat × Nat)) (t : Table) (T : Nat) (hl : t.left id = some T)
    (hs : ps = [] ∨ total ps < T) :
    seenBy id (rounds id ps) (t.run (rounds id ps)).1 = List.replicate ps.length (some false) ∧
    (t.run (rounds id ps)).2.left id = some (T - total ps) := by
  induction ps generalizing t T with
  | nil => exact ⟨rfl, hl⟩
  | cons p ps ih =>
    obtain ⟨d, x⟩ := p
    have hsum : d + total ps < T := by
      rcases hs with h | h
      · cases h
      · simpa [total] using h
    have e : rounds id ((d, x) :: ps) = .update d :: .wait id x :: rounds id ps := rfl
    rw [e]
    have hw : ({ t with delta := d } : Table).step (.wait id x) =
        (some false, ({ t with delta := d } : Table).put id (some (T - d))) := by
      simp only [Table.step, hl]
      rw [if_neg (by omega)]
    simp only [Table.run]
    rw [show ∀ t : Table, t.step (.update d) = (none, { t with delta := d }) from fun _ => rfl]
    simp only
    rw [hw]
    simp only
    obtain ⟨g1, g2⟩ := ih (({ t with delta := d } : Table).put id (some (T - d))) (T - d) (by simp [Table.put])
      (.inr (by omega))
    rw [seenBy_cons, seenBy_cons, g1, g2]
    refine ⟨by simp [Call.id?, List.replicate_succ], ?_⟩
    simp only [total, List.map_cons, List.sum_cons] at hsum ⊢
    congr 1; omega

theorem run_append (t : Table) (xs ys : List Call) :
    t.run (xs ++ ys) = ((t.run xs).1 ++ ((t.run xs).2.run ys).1, ((t.run xs).2.run ys).2) := by
  induction xs generalizing t with
  | nil => rfl
  | cons x xs ih => simp only [List.cons_append, Table.run]; rw [ih]

theorem run_length (t : Table) (xs : List Call) : (t.run xs).1.length = xs.length := by
  induction xs generalizing t with
  | nil => rfl
  | cons x xs ih => simp only [Table.run, List.length_cons]; rw [ih]

theorem seenBy_append (id : Nat) (xs ys : List Call) (as bs : List (Option Bool)) (h : xs.length = as.length) :
    seenBy id (xs ++ ys) (as ++ bs) = seenBy id xs as ++ seenBy id ys bs := by
  unfold seenBy
  rw [List.zip_append h]; simp

theorem spec_rounds_expire (id : Nat) (ps : List (Nat × Nat)) (d x : Nat) (t : Table) (T : Nat) (hl : t.left id = some T)
    (hs : ps = [] ∨ total ps < T) (hd : T ≤ total ps + d) :
    seenBy id (rounds id (ps ++ [(d, x)])) (t.run (rounds id (ps ++ [(d, x)]))).1 =
      List.replicate ps.length (some false) ++ [some true] ∧
    (t.run (rounds id (ps ++ [(d, x)]))).2.left id = none := by
  obtain ⟨g1, g2⟩ := spec_rounds_short id ps t T hl hs
  have e : rounds id (ps ++ [(d, x)]) = rounds id ps ++ [.update d, .wait id x] := by simp [rounds]
  rw [e, run_append, seenBy_append _ _ _ _ _ (run_length _ _).symm, g1]
  generalize hR : (t.run (rounds id ps)).2 = r at g2
  have hw : ({ r with delta := d } : Table).step (.wait id x) =
      (some true, ({ r with delta := d } : Table).put id none) := by
    simp only [Table.step, g2]
    rw [if_pos (by omega)]
  simp only [Table.run]
  rw [show ∀ t : Table, t.step (.update d) = (none, { t with delta := d }) from fun _ => rfl]
  simp only
  rw [hw]
  simp [seenBy, Call.id?, Table.put]

/-! ### C24 -/

theorem waits_spec {N : Nat} {id : Nat} (hid0 : id ≠ 0) (s : State) (t : Table) (h : Ref N s t) :
    s.isWaiting N id = (t.left id).isSome := by
  obtain ⟨s', e, _⟩ := step_ref N s t h (.isWaiting id) (by simp [Op.call, Call.id?, hid0]) (by intro _ _ e; cases e)
  simp only [State.step, Table.step, Op.call, Res.ok.injEq, Prod.mk.injEq, Option.some.injEq] at e
  exact e.1

/-- A program state reached within capacity in which `id` is free: the specification table agrees. -/
theorem reach_free {N : Nat} {S : List Nat} (hS : Room N S) {h0 : List Op} (hu0 : Uses S h0) {id : Nat} (hid : id ∈ S)
    {os0 : List (Option Bool)} {s0 : State} (hrun : State.init.run N h0 = .ok (os0, s0)) (hfree : s0.isWaiting N id = false) :
    ∃ t0, Ref N s0 t0 ∧ (∀ i, i < N → s0.ids i = 0 ∨ s0.ids i ∈ S) ∧ t0.left id = none := by
  obtain ⟨s0', e0, r0, in0⟩ := run_ref hS h0 hu0 State.init Table.init (init_ref N) (fun _ _ => .inl rfl)
  rw [hrun] at e0
  obtain ⟨rfl, rfl⟩ : os0 = _ ∧ s0 = s0' := by simpa using e0
  refine ⟨_, r0, in0, ?_⟩
  have := waits_spec (fun e => hS.nz (e ▸ hid)) s0 _ r0
  rw [hfree] at this
  cases h : (Table.init.run (h0.map Op.call)).2.left id with
  | none => rfl
  | some r => rw [h] at this; cases this

/-- **C24, partial (not early).** Any program state reached within capacity (`h0`) in which `id` is not waiting, and any further history within
    capacity in which this client registers a delay of `T` and then calls `Wait` once per time update (other clients may do anything in
    between, with their own ids): while the elapsed time stays below `T` every call answers "not yet" and the delay stays listed. -/
theorem c24_waits_partial (N : Nat) (S : List Nat) (hS : Room N S) (h0 h1 : List Op) (hu0 : Uses S h0) (hu1 : Uses S h1)
    (id : Nat) (hid : id ∈ S) (T : Nat) (ps : List (Nat × Nat)) (os0 : List (Option Bool)) (s0 : State)
    (hrun : State.init.run N h0 = .ok (os0, s0)) (hfree : s0.isWaiting N id = false)
    (hf : (h1.map Op.call).filter (Call.concerns id) = .wait id T :: rounds id ps) (hs : ps = [] ∨ total ps < T) :
    ∃ os s1, s0.run N h1 = .ok (os, s1) ∧
      seenBy id (h1.map Op.call) os = List.replicate (ps.length + 1) (some false) ∧ s1.isWaiting N id = true := by
  obtain ⟨t0, r0, in0, hl0⟩ := reach_free hS hu0 hid hrun hfree
  have hreg : (t0.step (.wait id T)) = (some false, t0.put id (some T)) := by simp [Table.step, hl0]
  obtain ⟨s1, e1, r1, _⟩ := run_ref hS h1 hu1 s0 t0 r0 in0
  refine ⟨_, s1, e1, ?_, ?_⟩
  · rw [(spec_independent id (h1.map Op.call) t0 t0 rfl rfl).1, hf]
    simp only [Table.run]
    rw [hreg]
    simp only
    rw [seenBy_cons, (spec_rounds_short id ps (t0.put id (some T)) T (by simp [Table.put]) hs).1]
    simp [Call.id?, List.replicate_succ]
  · rw [waits_spec (fun e => hS.nz (e ▸ hid)) s1 _ r1, (spec_independent id (h1.map Op.call) t0 t0 rfl rfl).2.2, hf]
    simp only [Table.run]
    rw [hreg]
    simp only
    rw [(spec_rounds_short id ps (t0.put id (some T)) T (by simp [Table.put]) hs).2]
    rfl

example := c24_waits_partial 3 [7, 9, 4] ⟨by decide, by decide⟩ [.wait 9 10] [.wait 7 50, .update 20, .clear 9, .wait 7 50, .update 20, .wait 4 5, .wait 7 50]
  (by simp [Uses, Op.call, Call.id?]) (by simp [Uses, Op.call, Call.id?]) 7 (by decide) 50 [(20, 50), (20, 50)] _ _ rfl (by decide) (by decide) (by decide)

/-- **C24, partial (not late).** In the same setting, the call at the first update at which the elapsed time reaches `T` answers "done" (all calls
    before it "not yet"), and afterwards the id is free again, so it can be started again.
    Missing from the full claim: id 0 (`c24_id_zero_fails`). -/
theorem c24_expires_partial (N : Nat) (S : List Nat) (hS : Room N S) (h0 h1 : List Op) (hu0 : Uses S h0) (hu1 : Uses S h1)
    (id : Nat) (hid : id ∈ S) (T x : Nat) (ps : List (Nat × Nat)) (d : Nat) (os0 : List (Option Bool)) (s0 : State)
    (hrun : State.init.run N h0 = .ok (os0, s0)) (hfree : s0.isWaiting N id = false)
    (hf : (h1.map Op.call).filter (Call.concerns id) = .wait id T :: rounds id (ps ++ [(d, x)]))
    (hs : ps = [] ∨ total ps < T) (hd : T ≤ total ps + d) :
    ∃ os s1, s0.run N h1 = .ok (os, s1) ∧
      seenBy id (h1.map Op.call) os = List.replicate (ps.length + 1) (some false) ++ [some true] ∧
      s1.isWaiting N id = false := by
  obtain ⟨t0, r0, in0, hl0⟩ := reach_free hS hu0 hid hrun hfree
  have hreg : (t0.step (.wait id T)) = (some false, t0.put id (some T)) := by simp [Table.step, hl0]
  obtain ⟨s1, e1, r1, _⟩ := run_ref hS h1 hu1 s0 t0 r0 in0
  refine ⟨_, s1, e1, ?_, ?_⟩
  · rw [(spec_independent id (h1.map Op.call) t0 t0 rfl rfl).1, hf]
    simp only [Table.run]
    rw [hreg]
    simp only
    rw [seenBy_cons, (spec_rounds_expire id ps d x (t0.put id (some T)) T (by simp [Table.put]) hs hd).1]
    simp [Call.id?, List.replicate_succ]
  · rw [waits_spec (fun e => hS.nz (e ▸ hid)) s1 _ r1, (spec_independent id (h1.map Op.call) t0 t0 rfl rfl).2.2, hf]
    simp only [Table.run]
    rw [hreg]
    simp only
    rw [(spec_rounds_expire id ps d x (t0.put id (some T)) T (by simp [Table.put]) hs hd).2]
    rfl

/-- Non-vacuity of C24: three clients, client 7 waits 50 units and others use the table in between. -/
example : (State.init.run 3 [.wait 7 50, .wait 9 10, .update 20, .clear 9, .wait 7 50, .update 20, .wait 4 5, .wait 7 50, .update 20,
    .wait 7 50, .isWaiting 7]).bind (fun r => .ok r.1) =
    .ok [some false, some false, none, none, some false, none, some false, some false, none, some true, some false] := by
  decide +kernel
example : ([Op.wait 7 50, .wait 9 10, .update 20, .clear 9, .wait 7 50, .update 20, .wait 4 5, .wait 7 50].map Op.call).filter
    (Call.concerns 7) = .wait 7 50 :: rounds 7 [(20, 50), (20, 50)] := by decide +kernel
example : Room 3 [7, 9, 4] := ⟨by decide, by decide⟩

/-- **C24 fails for id 0** (0 marks a free slot): on a fresh table with at least two slots the very first `Wait(0, T)` answers "done",
    whatever `T`. -/
theorem c24_id_zero_fails (N T : Nat) (hN : 2 ≤ N) : ∃ s, State.init.wait N 0 T = .ok (true, s) := by
  obtain ⟨k, rfl⟩ : ∃ k, N = k + 2 := ⟨N - 2, by omega⟩
  have : scan State.init.ids 0 (k + 2) 0 (-1) = .hit 1 := by
    rw [scan, if_pos ⟨rfl, rfl⟩, scan, if_neg (by simp), if_pos (show State.init.ids (0 + 1) = 0 from rfl)]
  refine ⟨{ State.init with ids := upd State.init.ids 1 0 }, ?_⟩
  unfold State.wait
  rw [this]
  rfl

/-! ### C25 -/

/-- **C25.** In every history within capacity, what client `id` sees (the results of its `Wait` and `IsWaiting` calls, in order, and whether
    it is listed at the end) is exactly what it sees when every call with another id is left out. -/
theorem c25_independent (N : Nat) (S : List Nat) (hS : Room N S) (h : List Op) (hu : Uses S h) (id : Nat) (hid : id ∈ S) :
    ∃ os s os' s', State.init.run N h = .ok (os, s) ∧
      State.init.run N (h.filter (fun op => Call.concerns id op.call)) = .ok (os', s') ∧
      seenBy id (h.map Op.call) os = seenBy id ((h.filter (fun op => Call.concerns id op.call)).map Op.call) os' ∧
      s.isWaiting N id = s'.isWaiting N id := by
  have hid0 : id ≠ 0 := fun e => hS.nz (e ▸ hid)
  have waits := fun (s : State) (t : Table) => waits_spec (N := N) hid0 s t
  have hm : (h.filter (fun op => Call.concerns id op.call)).map Op.call = (h.map Op.call).filter (Call.concerns id) := by
    rw [List.filter_map]; rfl
  obtain ⟨s, e1, r1, _⟩ := run_ref hS h hu State.init Table.init (init_ref N) (fun _ _ => .inl rfl)
  obtain ⟨s', e2, r2, _⟩ := run_ref hS (h.filter (fun op => Call.concerns id op.call))
    (fun op hop => hu op (List.mem_filter.1 hop).1) State.init Table.init (init_ref N) (fun _ _ => .inl rfl)
  refine ⟨_, s, _, s', e1, e2, ?_, ?_⟩
  · rw [hm]; exact (spec_independent id (h.map Op.call) _ _ rfl rfl).1
  · rw [waits s _ r1, waits s' _ r2, hm, (spec_independent id (h.map Op.call) _ _ rfl rfl).2.2]

example := c25_independent 3 [7, 9, 4] ⟨by decide, by decide⟩ [.wait 7 50, .wait 9 10, .update 20, .clear 9, .wait 7 50, .update 20, .wait 4 5, .wait 7 50]
  (by simp [Uses, Op.call, Call.id?]) 9 (by decide)

/-! ### C26 -/

/-- **C26, partial.** A program that uses no more distinct nonzero ids than the table has slots never leaves the table.
    Missing from the full claim: more ids than slots (`c26_full_table_fails`). -/
theorem c26_within_capacity_partial (N : Nat) (S : List Nat) (hS : Room N S) (h : List Op) (hu : Uses S h) :
    ∃ r, State.init.run N h = .ok r := by
  obtain ⟨s, e, _⟩ := run_ref hS h hu State.init Table.init (init_ref N) (fun _ _ => .inl rfl)
  exact ⟨_, e⟩

example := c26_within_capacity_partial 2 [7, 9] ⟨by decide, by decide⟩ [.wait 7 50, .wait 9 10, .update 20, .clear 9, .wait 7 50, .wait 9 1] (by simp [Uses, Op.call, Call.id?])

/-- C26, exactly when it goes wrong: `Wait` leaves the table iff every slot is taken and none by this id (any state, any id, 0 included). -/
theorem c26_wait_iff (N : Nat) (s : State) (id t : Nat) :
    s.wait N id t = .ub ↔ ∀ j, j < N → s.ids j ≠ 0 ∧ s.ids j ≠ id := by
  constructor
  · intro h
    by_cases hl : ∀ j, j < N → s.ids j ≠ id
    · rcases wait_new N s id t hl with ⟨_, hf⟩ | ⟨j, _, _, e⟩
      · exact fun j hj => ⟨hf j hj, hl j hj⟩
      · rw [h] at e; cases e
    · exfalso
      -- an id that is listed: the scan hits it, or (for id 0) has passed an empty slot
      have key : ∀ k i e, (∃ j, i ≤ j ∧ j < i + k ∧ s.ids j = id) →
          (∃ n, scan s.ids id k i e = .hit n) ∨ ∃ n : Nat, scan s.ids id k i e = .miss n := by
        intro k
        induction k with
        | zero => rintro i e ⟨j, a, b, _⟩; omega
        | succ k ih =>
          rintro i e ⟨j, a, b, hj⟩
          have pass : ∀ k i (e : Nat), (∃ n, scan s.ids id k i e = .hit n) ∨ ∃ n : Nat, scan s.ids id k i e = .miss n := by
            intro k
            induction k with
            | zero => intro i e; exact .inr ⟨e, rfl⟩
            | succ k ih =>
              intro i e
              rw [scan, if_neg (by omega)]
              split
              · exact .inl ⟨i, rfl⟩
              · exact ih _ _
          rw [scan]
          split
          · exact pass _ _ _
          · split
            · exact .inl ⟨i, rfl⟩
            · rename_i hne
              have : i ≠ j := fun h => hne (h ▸ hj)
              exact ih _ _ ⟨j, by omega, by omega, hj⟩
      obtain ⟨j, hj, he⟩ : ∃ j, j < N ∧ s.ids j = id := by
        by_contra hc
        exact hl (fun j hj he => hc ⟨j, hj, he⟩)
      rcases key N 0 (-1) ⟨j, by omega, by omega, he⟩ with ⟨n, e⟩ | ⟨n, e⟩
      · simp only [State.wait, e] at h
        split at h <;> cases h
      · have h1 : ¬ ((n : Int) = -1) := by omega
        have h2 : ¬ ((n : Int) < 0) := by omega
        simp [State.wait, e, h1] at h
  · intro h
    rcases wait_new N s id t (fun j hj => (h j hj).2) with ⟨e, _⟩ | ⟨j, hj, hz, _⟩
    · exact e
    · exact absurd hz (h j hj).1

/-- Delays `1 .. n` started on a fresh table. -/
def fill (n : Nat) : List Op := (List.range n).map (fun k => .wait (k + 1) 100)

/-- **C26 fails** for every capacity: one delay more than the table has slots, and `Wait` writes outside it. -/
theorem c26_full_table_fails (N : Nat) : State.init.run N (fill (N + 1)) = .ub := by
  have hS : Room N ((List.range N).map (· + 1)) := ⟨by simp, by simp⟩
  have hu : Uses ((List.range N).map (· + 1)) (fill N) := by
    intro op hop id hid
    obtain ⟨k, hk, rfl⟩ := List.mem_map.1 hop
    simp only [Op.call, Call.id?, Option.some.injEq] at hid
    exact List.mem_map.2 ⟨k, hk, hid⟩
  obtain ⟨s, e, r, hin⟩ := run_ref hS (fill N) hu State.init Table.init (init_ref N) (fun _ _ => .inl rfl)
  -- all ids 1..N are listed in the specification, hence all slots are taken
  have hspec : ∀ n, (∀ k, k < n → ((Table.init.run ((fill n).map Op.call)).2.left (k + 1)) ≠ none) ∧
      (∀ k, n ≤ k → ((Table.init.run ((fill n).map Op.call)).2.left (k + 1)) = none) := by
    intro n
    induction n with
    | zero => exact ⟨fun k hk => by omega, fun k _ => rfl⟩
    | succ n ih =>
      have hf : (fill (n + 1)).map Op.call = (fill n).map Op.call ++ [.wait (n + 1) 100] := by
        simp [fill, List.range_succ, Op.call]
      rw [hf, run_append]
      have hn := ih.2 n (Nat.le_refl n)
      have hst : ((Table.init.run ((fill n).map Op.call)).2.run [.wait (n + 1) 100]).2 =
          (Table.init.run ((fill n).map Op.call)).2.put (n + 1) (some 100) := by
        simp [Table.run, Table.step, hn]
      simp only [hst, Table.put]
      constructor
      · intro k hk
        by_cases hkn : k = n
        · simp [hkn]
        · rw [if_neg (by omega)]; exact ih.1 k (by omega)
      · intro k hk
        rw [if_neg (by omega)]; exact ih.2 k (by omega)
  have hfull : ∀ j, j < N → s.ids j ≠ 0 ∧ s.ids j ≠ N + 1 := by
    intro j hj
    have hne : s.ids j ≠ 0 := by
      intro hz
      -- pigeonhole: N distinct ids sit in slots other than j
      have hsub : ∀ k, k < N → ∃ i, i < N ∧ s.ids i = k + 1 := fun k hk =>
        r.complete (k + 1) (by omega) ((hspec N).1 k hk)
      have hmem : ((List.range N).map (· + 1)) ⊆ ((List.range N).erase j).map s.ids := by
        intro x hx
        obtain ⟨k, hk, rfl⟩ := List.mem_map.1 hx
        obtain ⟨i, hi, he⟩ := hsub k (List.mem_range.1 hk)
        refine List.mem_map.2 ⟨i, ?_, he⟩
        have hij : i ≠ j := by rintro rfl; omega
        exact (List.mem_erase_of_ne hij).2 (List.mem_range.2 hi)
      have hnd : ((List.range N).map (· + 1)).Nodup :=
        List.Nodup.map_on (fun _ _ _ _ h => by simpa using h) List.nodup_range
      have := (List.subperm_of_subset hnd hmem).length_le
      rw [List.length_map, List.length_map, List.length_range,
        List.length_erase_of_mem (List.mem_range.2 hj), List.length_range] at this
      omega
    refine ⟨hne, ?_⟩
    rcases hin j hj with h | h
    · exact absurd h hne
    · obtain ⟨k, hk, e⟩ := List.mem_map.1 h
      have := List.mem_range.1 hk
      omega
  have happ : ∀ (xs ys : List Op) (s0 : State), s0.run N (xs ++ ys) =
      (s0.run N xs >>= fun r => r.2.run N ys >>= fun r2 => .ok (r.1 ++ r2.1, r2.2)) := by
    intro xs
    induction xs with
    | nil =>
      intro ys s0
      simp only [List.nil_append, State.run, Res.bind_ok, List.nil_append]
      cases s0.run N ys <;> rfl
    | cons x xs ih =>
      intro ys s0
      simp only [List.cons_append, State.run]
      cases s0.step N x with
      | ub => rfl
      | ok a =>
        simp only [Res.bind_ok]
        rw [ih]
        cases a.2.run N xs with
        | ub => rfl
        | ok b =>
          simp only [Res.bind_ok]
          cases b.2.run N ys <;> rfl
  have hf : fill (N + 1) = fill N ++ [.wait (N + 1) 100] := by simp [fill, List.range_succ]
  rw [hf, happ, e]
  simp only [Res.bind_ok, State.run, State.step]
  rw [(c26_wait_iff N s (N + 1) 100).2 hfull]
  rfl

/-! ### C27 -/

/-- Counter readings (modulo 2^32) when the true times are `t`, `t + g1`, `t + g1 + g2`, ... -/
def readings (t : Nat) : List Nat → List Nat
  | [] => []
  | g :: gs => ((t + g) % 2 ^ 32) :: readings (t + g) gs

theorem update_gap (t g : Nat) (hg : g < 2 ^ 32) : Time.update (t % 2 ^ 32) ((t + g) % 2 ^ 32) = (g, (t + g) % 2 ^ 32) := by
  unfold Time.update toU
  congr 1
  omega

/-- **C27.** From any true time `t` and for any gaps below 2^32 between updates, the deltas returned are exactly the gaps (so their sum is the
    real elapsed time), however often the counter wraps. -/
theorem c27_deltas (t : Nat) (gs : List Nat) (hg : ∀ g ∈ gs, g < 2 ^ 32) :
    (Time.updates (t % 2 ^ 32) (readings t gs)).1 = gs ∧
    (Time.updates (t % 2 ^ 32) (readings t gs)).1.sum = gs.sum := by
  have : (Time.updates (t % 2 ^ 32) (readings t gs)).1 = gs := by
    induction gs generalizing t with
    | nil => rfl
    | cons g gs ih =>
      simp only [readings, Time.updates]
      rw [update_gap t g (hg g (by simp))]
      simp only
      rw [ih (t + g) (fun g' h' => hg g' (by simp [h']))]
  exact ⟨this, by rw [this]⟩

example := c27_deltas 4294967290 [11, 4294967290, 101] (by decide)

/-- C27 for `TimeEx`: the delta returned by `Update` is the gap; `getDeltaTime` is the gap as long as that fits 16 bits. -/
theorem c27_timeEx (t g : Nat) (hg : g < 2 ^ 32) (start prev : Nat) :
    ((Time.Ex.mk (t % 2 ^ 32) start prev).update ((t + g) % 2 ^ 32)).1 = g ∧
    ((Time.Ex.mk (t % 2 ^ 32) start prev).update ((t + g) % 2 ^ 32)).2.getDeltaTime = g % 2 ^ 16 := by
  simp only [Time.Ex.update, Time.Ex.getDeltaTime, update_gap t g hg, true_and]
  unfold toU
  omega

example := c27_timeEx 4294967290 70000 (by decide) 5 9

/-- `getDeltaTime` (and `getLastDeltaTime`) disagree with `Update` for every gap of 2^16 or more. -/
theorem c27_getDeltaTime_truncates_fails (t g : Nat) (hg : g < 2 ^ 32) (h16 : 2 ^ 16 ≤ g) (start prev : Nat) (s : Delays.State) :
    ((Time.Ex.mk (t % 2 ^ 32) start prev).update ((t + g) % 2 ^ 32)).2.getDeltaTime ≠ g ∧
    (s.update g).getLastDeltaTime ≠ g := by
  rw [(c27_timeEx t g hg start prev).2]
  simp only [State.update, State.getLastDeltaTime]
  omega

/-- C27: below 2^16 the 16-bit results are right, and `Wait`, `Abort`, `Clear`, `IsWaiting` in between leave the delta alone. -/
theorem c27_lastDelta (N d : Nat) (s : Delays.State) (hd : d < 2 ^ 16) (l : List Op) (hl : ∀ x ∈ l, ∀ d', x ≠ .update d') (os : List (Option Bool))
    (s' : Delays.State) (h : (s.update d).run N l = .ok (os, s')) : s'.getLastDeltaTime = d := by
  have keep : ∀ (l : List Op) (s : Delays.State), (∀ x ∈ l, ∀ d', x ≠ .update d') → ∀ os s', s.run N l = .ok (os, s') → s'.delta = s.delta := by
    intro l
    induction l with
    | nil =>
      intro s _ os s' h
      simp only [State.run, Res.ok.injEq, Prod.mk.injEq] at h
      rw [← h.2]
    | cons x l ih =>
      intro s hl os s' h
      simp only [State.run] at h
      cases hs : s.step N x with
      | ub => rw [hs] at h; cases h
      | ok y =>
        obtain ⟨o, s1⟩ := y
        rw [hs] at h
        simp only [Res.bind_ok] at h
        cases hr : s1.run N l with
        | ub => rw [hr] at h; cases h
        | ok y =>
          obtain ⟨os1, s2⟩ := y
          rw [hr] at h
          simp only [Res.bind_ok, Res.ok.injEq, Prod.mk.injEq] at h
          obtain ⟨_, rfl⟩ := h
          rw [ih s1 (fun y hy => hl y (List.mem_cons_of_mem _ hy)) _ _ hr]
          cases x with
          | update d' => exact absurd rfl (hl _ (by simp) d')
          | abort id => simp only [State.step, Res.ok.injEq, Prod.mk.injEq] at hs; rw [← hs.2]; rfl
          | clear id => simp only [State.step, Res.ok.injEq, Prod.mk.injEq] at hs; rw [← hs.2]; rfl
          | isWaiting id => simp only [State.step, Res.ok.injEq, Prod.mk.injEq] at hs; rw [← hs.2]
          | wait id t =>
            simp only [State.step] at hs
            cases hw : s.wait N id t with
            | ub => rw [hw] at hs; cases hs
            | ok y =>
              obtain ⟨b, s3⟩ := y
              rw [hw] at hs
              simp only [Res.bind_ok, Res.ok.injEq, Prod.mk.injEq] at hs
              rw [← hs.2]
              unfold State.wait at hw
              split at hw
              · split at hw <;> (simp only [Res.ok.injEq, Prod.mk.injEq] at hw; rw [← hw.2])
              · simp only at hw
                generalize (if _ = (-1 : Int) then _ else _ : Int) = e at hw
                split at hw
                · cases hw
                · simp only [Res.ok.injEq, Prod.mk.injEq] at hw; rw [← hw.2]
  have := keep l _ hl os s' h
  simp only [State.getLastDeltaTime, this, State.update]
  omega

example : ∃ s', (Delays.State.init.update 500).run 2 [.wait 7 100, .wait 7 100, .clear 7] = .ok ([some false, some true, none], s') ∧
    s'.getLastDeltaTime = 500 := ⟨_, rfl, rfl⟩

/-! ### C84 the clock -/

open Time

/-- A clock in the sense of the documentation: true times, in ticks and without bound, of the last capture, the start and the capture before. -/
structure Clock where
  now : Nat
  start : Nat
  previous : Nat

/-- What a program does, with the true time (in ticks) of each capture. -/
inductive ClockOp where
  | update (time : Nat)
  | reset

def Clock.step (c : Clock) : ClockOp → Clock
  | .update t => { c with now := t, previous := c.now }
  | .reset => { c with start := c.now, previous := c.now }

/-- The library's call: the counter shows the time modulo 2^32. -/
def clockOp : ClockOp → Ex.Op
  | .update t => .update (t % 2 ^ 32)
  | .reset => .reset

/-- **C84.** After any history of `Update` and `Reset` the captured time, the start time and the time before are the true ones modulo 2^32. -/
theorem c84_history (t0 : Nat) (l : List ClockOp) :
    let c := l.foldl Clock.step ⟨t0, t0, t0⟩
    Ex.run (t0 % 2 ^ 32) (l.map clockOp) = ⟨c.now % 2 ^ 32, c.start % 2 ^ 32, c.previous % 2 ^ 32⟩ := by
  have key : ∀ (l : List ClockOp) (c : Clock), (l.map clockOp).foldl Ex.step ⟨c.now % 2 ^ 32, c.start % 2 ^ 32, c.previous % 2 ^ 32⟩ =
      ⟨(l.foldl Clock.step c).now % 2 ^ 32, (l.foldl Clock.step c).start % 2 ^ 32, (l.foldl Clock.step c).previous % 2 ^ 32⟩ := by
    intro l
    induction l with
    | nil => intro c; rfl
    | cons x l ih =>
      intro c
      cases x with
      | update t => exact ih ⟨t, c.start, c.now⟩
      | reset => exact ih ⟨c.now, c.now, c.now⟩
  exact key l ⟨t0, t0, t0⟩

/-- **C84.** `getDeltaTime` is the time between the last two captures (0 after a reset) when that fits 16 bits. -/
theorem c84_delta (t0 : Nat) (l : List ClockOp) (c : Clock) (hc : c = l.foldl Clock.step ⟨t0, t0, t0⟩) (hm : c.previous ≤ c.now)
    (hs : c.now - c.previous < 2 ^ 16) : (Ex.run (t0 % 2 ^ 32) (l.map clockOp)).getDeltaTime = c.now - c.previous := by
  have h := c84_history t0 l
  rw [← hc] at h
  simp only at h
  rw [h]
  unfold Ex.getDeltaTime toU
  simp only
  omega

example := c84_delta 4294967290 [.update 4294967301, .reset, .update 4294967396] _ rfl (by decide) (by decide)

/-- **C84.** With milliseconds resolution both readings are the true time in their unit modulo 2^32, so differences of two readings are the time
    between them. -/
theorem c84_milliseconds (t : Nat) :
    getMilliseconds .milliseconds (t % 2 ^ 32) = t % 2 ^ 32 ∧ getMicroseconds .milliseconds (t % 2 ^ 32) = 1000 * t % 2 ^ 32 := by
  refine ⟨rfl, ?_⟩
  show toU 32 (((t % 2 ^ 32 : Nat) : Int) * 1000) = _
  unfold toU
  omega

/-- **C84, partial.** With microseconds resolution the microseconds are the true time modulo 2^32; the milliseconds are right until the counter wraps,
    after about 71 minutes. Missing: later times. -/
theorem c84_microseconds_partial (t : Nat) :
    getMicroseconds .microseconds (t % 2 ^ 32) = t % 2 ^ 32 ∧ (t < 2 ^ 32 → getMilliseconds .microseconds (t % 2 ^ 32) = t / 1000) := by
  refine ⟨rfl, fun h => ?_⟩
  rw [Nat.mod_eq_of_lt h]
  rfl

/-- **C84 fails** for the milliseconds of a microseconds clock: from 2^32 microseconds on every reading is wrong, also modulo 2^32 (up to 2^32
    milliseconds), and the difference of readings 1 ms apart is not 1. -/
theorem c84_microseconds_fails :
    (∀ t, 2 ^ 32 ≤ t → t < 1000 * 2 ^ 32 → getMilliseconds .microseconds (t % 2 ^ 32) ≠ t / 1000) ∧
    toU 32 ((getMilliseconds .microseconds ((4294967000 + 1000) % 2 ^ 32) : Int) - getMilliseconds .microseconds 4294967000) = 4290672329 := by
  refine ⟨fun t h1 h2 => ?_, by decide +kernel⟩
  show (t % 2 ^ 32) / 1000 ≠ t / 1000
  omega

example : Ex.run 4294967290 [.update 5, .reset, .update 100] = ⟨100, 5, 5⟩ := by decide +kernel

example : Time.updates (4294967290) [5, 4294967295, 100] = ([11, 4294967290, 101], 100) := by decide +kernel

/-! ### C28 -/

open TimeoutTask in
/-- The call on the delay table that one step of a running timeout task amounts to. -/
def sopCall (id T : Nat) : SOp → Op
  | .execute => .wait id T
  | .other op => op

open TimeoutTask in
/-- Number of `OnTimeout` calls a table result amounts to. -/
def fired : SOp → Option Bool → Nat
  | .execute, some true => 1
  | _, _ => 0

/-- A timeout task past its first `Execute` is the delay table with `Execute` as `Wait(id, Timeout)`. -/
theorem task_is_wait (N id T : Nat) (ops : List TimeoutTask.SOp) (d : Delays.State) :
    (TimeoutTask.State.mk 56 d).run N id T ops =
      (d.run N (ops.map (sopCall id T)) >>= fun r => .ok (List.zipWith fired ops r.1, ⟨56, r.2⟩)) := by
  induction ops generalizing d with
  | nil => rfl
  | cons op ops ih =>
    cases op with
    | execute =>
      simp only [TimeoutTask.State.run, TimeoutTask.State.step, TimeoutTask.State.execute, List.map_cons, sopCall, State.run,
        State.step]
      rw [if_neg (by decide), if_pos trivial]
      cases hw : d.wait N id T with
      | ub => rfl
      | ok r =>
        obtain ⟨b, d'⟩ := r
        simp only [Res.bind_ok]
        cases b
        · simp only [Bool.not_false, if_true, Res.bind_ok]
          rw [ih]
          cases d'.run N (ops.map (sopCall id T)) <;> rfl
        · simp only [Bool.not_true, Bool.false_eq_true, if_false, Res.bind_ok]
          rw [ih]
          cases d'.run N (ops.map (sopCall id T)) <;> rfl
    | other op =>
      simp only [TimeoutTask.State.run, TimeoutTask.State.step, List.map_cons, sopCall, State.run]
      cases hw : d.step N op with
      | ub => rfl
      | ok r =>
        simp only [Res.bind_ok]
        rw [ih]
        cases r.2.run N (ops.map (sopCall id T)) <;> rfl

/-- True times (sum of all deltas so far) at which `OnTimeout` was called. -/
def fireTimes (now : Nat) : List TimeoutTask.SOp → List Nat → List Nat
  | .other (.update d) :: ops, _ :: ns => fireTimes (now + d) ops ns
  | _ :: ops, n :: ns => List.replicate n now ++ fireTimes now ops ns
  | _, _ => []

/-- `Execute` is called at most once per time update. -/
def OncePerUpdate : Bool → List TimeoutTask.SOp → Prop
  | _, [] => True
  | fresh, .execute :: ops => fresh = true ∧ OncePerUpdate false ops
  | _, .other (.update _) :: ops => OncePerUpdate true ops
  | fresh, .other _ :: ops => OncePerUpdate fresh ops

/-- Others use other ids. -/
def OthersOnly (id : Nat) (S : List Nat) (ops : List TimeoutTask.SOp) : Prop :=
  ∀ op, TimeoutTask.SOp.other op ∈ ops → ∀ i, op.call.id? = some i → i ∈ S ∧ i ≠ id

theorem spec_never_early (id T : Nat) (S : List Nat) (ops : List TimeoutTask.SOp) (hother : OthersOnly id S ops) (fresh : Bool)
    (hone : OncePerUpdate fresh ops) (t : Table) (now last : Nat) (hlast : last ≤ now)
    (hinv : ∀ r, t.left id = some r → T + last + (if fresh then t.delta else 0) ≤ r + now) :
    (∀ x ∈ fireTimes now ops (List.zipWith fired ops (t.run ((ops.map (sopCall id T)).map Op.call)).1), last + T ≤ x) ∧
    (fireTimes now ops (List.zipWith fired ops (t.run ((ops.map (sopCall id T)).map Op.call)).1)).Pairwise
      (fun a b => a + T ≤ b) := by
  induction ops generalizing fresh t now last with
  | nil => simp [fireTimes]
  | cons op ops ih =>
    have hother' : OthersOnly id S ops := fun o ho => hother o (by simp [ho])
    cases op with
    | execute =>
      simp only [OncePerUpdate] at hone
      obtain ⟨rfl, hone⟩ := hone
      simp only [List.map_cons, sopCall, Op.call, Table.run, List.zipWith_cons_cons]
      cases hl : t.left id with
      | none =>
        have hst : t.step (.wait id T) = (some false, t.put id (some T)) := by simp [Table.step, hl]
        rw [hst]
        have := ih hother' false hone (t.put id (some T)) now last hlast (by
          intro r hr
          simp only [Table.put, if_true, Option.some.injEq] at hr
          simp only [Bool.false_eq_true, if_false]; omega)
        simpa [fireTimes, fired] using this
      | some r =>
        have hr := hinv r hl
        simp only [if_true] at hr
        by_cases hd : r ≤ t.delta
        · have hst : t.step (.wait id T) = (some true, t.put id none) := by simp [Table.step, hl, hd]
          rw [hst]
          have := ih hother' false hone (t.put id none) now now (Nat.le_refl _) (by
            intro r hr
            simp [Table.put] at hr)
          simp only [fireTimes, fired, List.replicate_one, List.singleton_append, List.mem_cons, forall_eq_or_imp,
            List.pairwise_cons]
          refine ⟨⟨by omega, fun x hx => ?_⟩, this⟩
          have := this.1 x hx
          omega
        · have hst : t.step (.wait id T) = (some false, t.put id (some (r - t.delta))) := by simp [Table.step, hl, hd]
          rw [hst]
          have := ih hother' false hone (t.put id (some (r - t.delta))) now last hlast (by
            intro r' hr'
            simp only [Table.put, if_true, Option.some.injEq] at hr'
            simp only [Bool.false_eq_true, if_false]; omega)
          simpa [fireTimes, fired] using this
    | other op =>
      simp only [List.map_cons, sopCall, Table.run, List.zipWith_cons_cons]
      by_cases hup : ∃ d, op = .update d
      · obtain ⟨d, rfl⟩ := hup
        simp only [OncePerUpdate] at hone
        have := ih hother' true hone { t with delta := d } (now + d) last (by omega) (by
          intro r hr
          have := hinv r hr
          simp only [if_true]; omega)
        simpa [fireTimes, Op.call, Table.step] using this
      · have hone' : OncePerUpdate fresh ops := by
          cases op <;> simp only [OncePerUpdate] at hone <;> first | exact hone | exact absurd ⟨_, rfl⟩ hup
        have hne : ∀ i, op.call.id? = some i → i ≠ id := fun i hi => (hother op (by simp) i hi).2
        have hkeep : (t.step op.call).2.delta = t.delta ∧ (t.step op.call).2.left id = t.left id := by
          cases op with
          | update d => exact absurd ⟨_, rfl⟩ hup
          | wait i x =>
            have hi : id ≠ i := (hne i rfl).symm
            simp only [Op.call, Table.step]
            cases t.left i with
            | none => simp [Table.put, hi]
            | some r => simp only; split <;> simp [Table.put, hi]
          | abort i =>
            have hi : id ≠ i := (hne i rfl).symm
            simp only [Op.call, Table.step]
            split <;> simp [Table.put, hi]
          | clear i =>
            have hi : id ≠ i := (hne i rfl).symm
            simp [Op.call, Table.step, Table.put, hi]
          | isWaiting i => exact ⟨rfl, rfl⟩
        have hg := ih hother' fresh hone' (t.step op.call).2 now last hlast (by
          intro r hr
          rw [hkeep.2] at hr
          rw [hkeep.1]; exact hinv r hr)
        have hft : ∀ ns, fireTimes now (.other op :: ops) (0 :: ns) = fireTimes now ops ns := by
          intro ns
          cases op <;> first | (simp [fireTimes]; done) | exact absurd ⟨_, rfl⟩ hup
        have hfd : fired (.other op) (t.step op.call).1 = 0 := by simp [fired]
        rw [hfd, hft]
        exact hg

/-- `Execute` calls of a task before its first run only arm it. -/
theorem task_first (N id T : Nat) (ops : List TimeoutTask.SOp) (d : Delays.State) :
    (TimeoutTask.State.mk 0 d).run N id T (.execute :: ops) =
      ((TimeoutTask.State.mk 56 d).run N id T ops >>= fun r => .ok (0 :: r.1, r.2)) := by
  simp only [TimeoutTask.State.run, TimeoutTask.State.step, TimeoutTask.State.execute, if_true, Res.bind_ok]

/-- Use of `S` by the table calls of a schedule. -/
theorem uses_map {id T : Nat} {S : List Nat} (hid : id ∈ S) {ops : List TimeoutTask.SOp} (h : OthersOnly id S ops) :
    Uses S (ops.map (sopCall id T)) := by
  intro op hop i hi
  obtain ⟨o, ho, rfl⟩ := List.mem_map.1 hop
  cases o with
  | execute =>
    simp only [sopCall, Op.call, Call.id?, Option.some.injEq] at hi
    exact hi ▸ hid
  | other o => exact (h o ho i hi).1

theorem fired_le (ops : List TimeoutTask.SOp) (os : List (Option Bool)) : ∀ n ∈ List.zipWith fired ops os, n ≤ 1 := by
  intro n hn
  obtain ⟨i, hi, e⟩ := List.mem_iff_getElem.1 hn
  rw [List.getElem_zipWith] at e
  rw [← e]
  unfold fired
  split <;> omega

theorem running_never_early (N id T : Nat) (S : List Nat) (hS : Room N S) (hid : id ∈ S) (ops : List TimeoutTask.SOp)
    (hother : OthersOnly id S ops) (fresh : Bool) (hone : OncePerUpdate fresh ops) (d : Delays.State) (t : Table)
    (href : Ref N d t) (hin : ∀ i, i < N → d.ids i = 0 ∨ d.ids i ∈ S) (hfree : t.left id = none) (now : Nat) :
    ∃ ns s, (TimeoutTask.State.mk 56 d).run N id T ops = .ok (ns, s) ∧ (∀ n ∈ ns, n ≤ 1) ∧
      (∀ x ∈ fireTimes now ops ns, T ≤ x) ∧ (fireTimes now ops ns).Pairwise (fun a b => a + T ≤ b) := by
  obtain ⟨s1, e1, _, _⟩ := run_ref hS (ops.map (sopCall id T)) (uses_map hid hother) d t href hin
  refine ⟨List.zipWith fired ops (t.run ((ops.map (sopCall id T)).map Op.call)).1, ⟨56, s1⟩, ?_, fired_le _ _, ?_⟩
  · rw [task_is_wait, e1]; rfl
  · have := spec_never_early id T S ops hother fresh hone t now 0 (Nat.zero_le _) (by intro r hr; rw [hfree] at hr; cases hr)
    simpa using this

theorem started_never_early (N id T : Nat) (S : List Nat) (hS : Room N S) (hid : id ∈ S) (ops : List TimeoutTask.SOp)
    (hother : OthersOnly id S ops) (fresh : Bool) (hone : OncePerUpdate fresh ops) (d : Delays.State) (t : Table)
    (href : Ref N d t) (hin : ∀ i, i < N → d.ids i = 0 ∨ d.ids i ∈ S) (hfree : t.left id = none) (now : Nat) :
    ∃ ns s, (TimeoutTask.State.mk 0 d).run N id T ops = .ok (ns, s) ∧ (∀ n ∈ ns, n ≤ 1) ∧
      (∀ x ∈ fireTimes now ops ns, T ≤ x) ∧ (fireTimes now ops ns).Pairwise (fun a b => a + T ≤ b) := by
  induction ops generalizing fresh d t now with
  | nil => exact ⟨[], _, rfl, by simp, by simp [fireTimes], by simp [fireTimes]⟩
  | cons op ops ih =>
    have hother' : OthersOnly id S ops := fun o ho => hother o (by simp [ho])
    cases op with
    | execute =>
      simp only [OncePerUpdate] at hone
      obtain ⟨ns, s, h1, h2, h3⟩ := running_never_early N id T S hS hid ops hother' false hone.2 d t href hin hfree now
      refine ⟨0 :: ns, s, ?_, by simpa using h2, by simpa [fireTimes] using h3⟩
      rw [task_first, h1]; rfl
    | other op =>
      have hmem : ∀ i, op.call.id? = some i → i ∈ S ∧ i ≠ id := hother op (by simp)
      obtain ⟨d1, e1, r1, k1⟩ := step_ref N d t href op (fun e => hS.nz (hmem 0 e).1) (by
        rintro i time rfl hl
        exact room_empty hS d t href hin i (hmem i rfl).1 hl)
      have hin1 : ∀ i, i < N → d1.ids i = 0 ∨ d1.ids i ∈ S := by
        intro i hi
        rcases k1 i hi with e | e | e
        · rw [e]; exact hin i hi
        · exact .inl e
        · exact .inr (hmem _ e.symm).1
      have hfree1 : (t.step op.call).2.left id = none := by
        cases op with
        | update d => exact hfree
        | wait i x =>
          have hi : id ≠ i := (hmem i rfl).2.symm
          simp only [Op.call, Table.step]
          cases t.left i with
          | none => simpa [Table.put, hi] using hfree
          | some r => simp only; split <;> simpa [Table.put, hi] using hfree
        | abort i =>
          have hi : id ≠ i := (hmem i rfl).2.symm
          simp only [Op.call, Table.step]
          split
          · exact hfree
          · simpa [Table.put, hi] using hfree
        | clear i =>
          have hi : id ≠ i := (hmem i rfl).2.symm
          simpa [Op.call, Table.step, Table.put, hi] using hfree
        | isWaiting i => exact hfree
      have hrun : ∀ r, (TimeoutTask.State.mk 0 d1).run N id T ops = .ok r →
          (TimeoutTask.State.mk 0 d).run N id T (.other op :: ops) = .ok (0 :: r.1, r.2) := by
        intro r hr
        simp only [TimeoutTask.State.run, TimeoutTask.State.step, e1, Res.bind_ok, hr]
      by_cases hup : ∃ x, op = .update x
      · obtain ⟨x, rfl⟩ := hup
        simp only [OncePerUpdate] at hone
        obtain ⟨ns, s, h1, h2, h3⟩ := ih hother' true hone d1 _ r1 hin1 hfree1 (now + x)
        exact ⟨0 :: ns, s, hrun _ h1, by simpa using h2, by simpa [fireTimes] using h3⟩
      · have hone' : OncePerUpdate fresh ops := by
          cases op <;> simp only [OncePerUpdate] at hone <;> first | exact hone | exact absurd ⟨_, rfl⟩ hup
        obtain ⟨ns, s, h1, h2, h3⟩ := ih hother' fresh hone' d1 _ r1 hin1 hfree1 now
        have hft : fireTimes now (.other op :: ops) (0 :: ns) = fireTimes now ops ns := by
          cases op <;> first | (simp [fireTimes]; done) | exact absurd ⟨_, rfl⟩ hup
        exact ⟨0 :: ns, s, hrun _ h1, by simpa using h2, by simpa [hft] using h3⟩

/-- **C28, partial (never early, at most once).** A new timeout task, and any schedule of time updates, `Execute` calls (at most one per update)
    and use of the delay table by others with their own ids, within capacity: no `Execute` calls `OnTimeout` more than once, and
    between two consecutive calls of `OnTimeout` (also before the first) at least `T` time units have passed.
    Missing from the full claim: several `Execute` calls per update (`c28_repeated_execute_fails`). -/
theorem c28_never_early_partial (N id T : Nat) (S : List Nat) (hS : Room N S) (hid : id ∈ S) (ops : List TimeoutTask.SOp)
    (hother : OthersOnly id S ops) (hone : OncePerUpdate true ops) :
    ∃ ns s, TimeoutTask.State.init.run N id T ops = .ok (ns, s) ∧
      (∀ n ∈ ns, n ≤ 1) ∧
      (∀ x ∈ fireTimes 0 ops ns, T ≤ x) ∧ (fireTimes 0 ops ns).Pairwise (fun a b => a + T ≤ b) :=
  started_never_early N id T S hS hid ops hother true hone State.init Table.init (init_ref N) (fun _ _ => .inl rfl) rfl 0

example := c28_never_early_partial 2 1 100 [1, 5] ⟨by decide, by decide⟩ (by decide) [.execute, .other (.update 0), .execute, .other (.wait 5 10), .other (.update 60), .execute,
  .other (.update 60), .execute] (by simp [OthersOnly, Op.call, Call.id?]) (by simp [OncePerUpdate])

/-- **C28, partial (fires in time).** If the task (past its first `Execute`, delay free) is executed exactly once per time update, the first of these calls
    arms it, the following ones do not fire while the time since arming is below `T`, and the call at the first update at which
    it reaches `T` fires. -/
theorem c28_fires_in_time_partial (N id T : Nat) (S : List Nat) (hS : Room N S) (hid : id ∈ S) (ops : List TimeoutTask.SOp)
    (hother : OthersOnly id S ops) (d0 : List Op) (hd0 : Uses S d0) (os0 : List (Option Bool))
    (s0 : Delays.State) (hs0 : State.init.run N d0 = .ok (os0, s0)) (hfree : s0.isWaiting N id = false)
    (ps : List (Nat × Nat)) (d : Nat) (hs : ps = [] ∨ total ps < T) (hd : T ≤ total ps + d)
    (hsched : ((ops.map (sopCall id T)).map Op.call).filter (Call.concerns id) = .wait id T :: rounds id (ps ++ [(d, T)])) :
    ∃ os s, (TimeoutTask.State.mk 56 s0).run N id T ops = .ok (List.zipWith fired ops os, s) ∧
      seenBy id ((ops.map (sopCall id T)).map Op.call) os = List.replicate (ps.length + 1) (some false) ++ [some true] := by
  obtain ⟨os, s1, e1, g1, _⟩ := c24_expires_partial N S hS d0 (ops.map (sopCall id T)) hd0 (uses_map hid hother) id hid T T ps d os0 s0
    hs0 hfree hsched hs hd
  exact ⟨os, ⟨56, s1⟩, by rw [task_is_wait, e1]; rfl, g1⟩

example := c28_fires_in_time_partial 2 1 100 [1, 5] ⟨by decide, by decide⟩ (by decide) [.execute, .other (.wait 5 10), .other (.update 60), .execute, .other (.update 60), .execute]
  (by simp [OthersOnly, Op.call, Call.id?]) [.wait 5 7, .update 20] (by simp [Uses, Op.call, Call.id?]) _ _ rfl (by decide) [(60, 100)] 60 (by decide) (by decide) (by decide)

/-- **C28 fails** when `Execute` is called more than once per time update: the same delta is counted again.  Timeout 100, one
    update of 50 units, and `OnTimeout` is called. -/
theorem c28_repeated_execute_fails :
    (TimeoutTask.State.init.run 1 1 100 [.execute, .execute, .other (.update 50), .execute, .execute]).bind (fun r => .ok r.1) =
      .ok [0, 0, 0, 0, 1] := by decide +kernel

/-- Non-vacuity of C28: a timeout of 100 with updates of 40, another client using the table; it fires after 120, 280. -/
example : (TimeoutTask.State.init.run 2 1 100 ([.execute, .other (.update 0), .execute, .other (.wait 5 10), .other (.update 40), .execute,
    .other (.update 40), .other (.wait 5 10), .execute, .other (.update 40), .execute, .other (.update 40), .execute,
    .other (.update 99), .execute, .other (.update 1), .execute])).bind (fun r => .ok r.1) =
    .ok [0, 0, 0, 0, 0, 0, 0, 0, 0, 0, 1, 0, 0, 0, 0, 0, 1] := by decide +kernel

end Atl.Props
