import Verif.Spec.Timer
import Verif.Props.Delays

/- Property theorems C24, C28: the exact results of every history within capacity. -/
namespace Atl.Props
open Atl.Delays Atl.Spec.Delays Atl.Spec.Timer

/-- **C24, C25, exactly.** Every history of updates, `Wait` (also several or none per update), `Abort`, `Clear` and `IsWaiting` that uses no more nonzero ids than there are slots:
    the results are those of a map from ids to remaining times, and at the end exactly the ids of the map are listed. -/
theorem c24_exact (N : Nat) (S : List Nat) (hS : Room N S) (h : List Op) (hu : Uses S h) :
    ∃ s, State.init.run N h = .ok ((Table.init.run (h.map Op.call)).1, s) ∧
      ∀ id ∈ S, s.isWaiting N id = ((Table.init.run (h.map Op.call)).2.left id).isSome := by
  obtain ⟨s, h1, h2, -⟩ := run_ref hS h hu State.init Table.init (init_ref N) (fun _ _ => .inl rfl)
  exact ⟨s, h1, fun id hid => waits_spec (fun e => hS.nz (e ▸ hid)) s _ h2⟩

example := c24_exact 2 [3, 4] ⟨by decide, by decide⟩ [.wait 3 10, .wait 3 10, .update 5, .wait 4 10, .wait 3 10, .wait 3 10, .isWaiting 3] (by simp [Uses, Op.call, Call.id?])

/-- **C24.** "The next call to Wait will report done": in any state reached within capacity, after `Abort` the next `Wait` of a listed id answers "done", whatever
    update comes in between, and the id is free. After `Clear` the next `Wait` starts a new delay. -/
theorem c24_abort (N : Nat) (S : List Nat) (hS : Room N S) (h : List Op) (hu : Uses S h) (os : List (Option Bool)) (s : State)
    (hr : State.init.run N h = .ok (os, s)) (id : Nat) (hid : id ∈ S) (d t : Nat) :
    (s.isWaiting N id = true → ∃ s', s.run N [.abort id, .update d, .wait id t] = .ok ([none, none, some true], s') ∧ s'.isWaiting N id = false) ∧
    (∃ s', s.run N [.clear id, .update d, .wait id t] = .ok ([none, none, some false], s') ∧ s'.isWaiting N id = true) := by
  obtain ⟨s0, h1, h2, h3⟩ := run_ref hS h hu State.init Table.init (init_ref N) (fun _ _ => .inl rfl)
  rw [hr] at h1
  injection h1 with h1
  injection h1 with _ h1
  subst h1
  have h0 : id ≠ 0 := fun e => hS.nz (e ▸ hid)
  have hw := waits_spec h0 s _ h2
  constructor
  · intro hl
    rw [hl] at hw
    obtain ⟨s', g1, g2, -⟩ := run_ref hS [.abort id, .update d, .wait id t] (by
      intro op hop i hi
      simp only [List.mem_cons, List.not_mem_nil, or_false] at hop
      rcases hop with rfl | rfl | rfl <;> simp [Op.call, Call.id?] at hi <;> exact hi ▸ hid) s _ h2 h3
    have hn : (Table.init.run (h.map Op.call)).2.left id ≠ none := by
      intro e; rw [e] at hw; cases hw
    have e1 := waits_spec h0 s' _ g2
    simp only [List.map_cons, List.map_nil, Op.call, Table.run, Table.step, if_neg hn, Table.put, if_true, Nat.zero_le] at g1 e1
    exact ⟨s', g1, e1⟩
  · obtain ⟨s', g1, g2, -⟩ := run_ref hS [.clear id, .update d, .wait id t] (by
      intro op hop i hi
      simp only [List.mem_cons, List.not_mem_nil, or_false] at hop
      rcases hop with rfl | rfl | rfl <;> simp [Op.call, Call.id?] at hi <;> exact hi ▸ hid) s _ h2 h3
    have e1 := waits_spec h0 s' _ g2
    simp only [List.map_cons, List.map_nil, Op.call, Table.run, Table.step, Table.put, if_true] at g1 e1
    exact ⟨s', g1, e1⟩

example := c24_abort 2 [3, 4] ⟨by decide, by decide⟩ [.wait 3 10, .wait 4 20, .update 5] (by simp [Uses, Op.call, Call.id?]) _ _ rfl 3 (by decide) 1 10

/-- The meaning of a step for the timeout: what others do with the table does not concern it. -/
def timerEv : TimeoutTask.SOp → Ev
  | .execute => .poll
  | .other (.update d) => .passed d
  | .other _ => .other

/-- The table's entry of the task against the time counted. -/
structure Counts (N id T : Nat) (S : List Nat) (s : TimeoutTask.State) (t : Table) (x : Timer) : Prop where
  ref : Ref N s.delays t
  ids : ∀ i, i < N → s.delays.ids i = 0 ∨ s.delays.ids i ∈ S
  task : s.task = if x.started then 56 else 0
  delta : t.delta = x.delta
  left : t.left id = x.counted.map (T - ·)
  le : ∀ c, x.counted = some c → c ≤ T

theorem counts_step {N id T : Nat} {S : List Nat} (hS : Room N S) (hid : id ∈ S) {s : TimeoutTask.State} {t : Table} {x : Timer} (h : Counts N id T S s t x)
    (op : TimeoutTask.SOp) (ho : ∀ o, op = .other o → ∀ i, o.call.id? = some i → i ∈ S ∧ i ≠ id) :
    ∃ s' t', s.step N id T op = .ok ((x.step T (timerEv op)).1, s') ∧ Counts N id T S s' t' (x.step T (timerEv op)).2 := by
  obtain ⟨task, d⟩ := s
  obtain ⟨ref, ids, htask, delta, left, le⟩ := h
  dsimp only at ref ids htask
  have go : ∀ o : Op, (∀ i, o.call.id? = some i → i ∈ S) → ∃ d1, d.step N o = .ok ((t.step o.call).1, d1) ∧ Ref N d1 (t.step o.call).2 ∧
      ∀ i, i < N → d1.ids i = 0 ∨ d1.ids i ∈ S := by
    intro o hm
    obtain ⟨d1, e1, r1, k1⟩ := step_ref N d t ref o (fun e => hS.nz (hm 0 e)) (by
      rintro i time rfl hl
      exact room_empty hS d t ref ids i (hm i rfl) hl)
    refine ⟨d1, e1, r1, fun i hi => ?_⟩
    rcases k1 i hi with e | e | e
    · rw [e]; exact ids i hi
    · exact .inl e
    · exact .inr (hm _ e.symm)
  cases op with
  | execute =>
    cases hst : x.started with
    | false =>
      rw [hst] at htask
      refine ⟨⟨56, d⟩, t, ?_, ?_⟩
      · simp only [TimeoutTask.State.step, TimeoutTask.State.execute, htask, timerEv, Timer.step, hst]
        rfl
      · simp only [timerEv, Timer.step, hst]
        exact ⟨ref, ids, rfl, delta, left, le⟩
    | true =>
      rw [hst] at htask
      obtain ⟨d1, e1, r1, k1⟩ := go (.wait id T) (by intro i hi; simp [Op.call, Call.id?] at hi; exact hi ▸ hid)
      have run : ∀ b, (t.step (Op.wait id T).call).1 = some b →
          TimeoutTask.State.step N id T ⟨task, d⟩ .execute = .ok (if b then 1 else 0, ⟨56, d1⟩) := by
        intro b hb
        rw [hb] at e1
        have hw : d.wait N id T = .ok (b, d1) := by
          simp only [State.step] at e1
          cases hw : d.wait N id T with
          | ub => rw [hw] at e1; cases e1
          | ok r =>
            rw [hw] at e1
            simp only [Res.bind_ok] at e1
            injection e1 with e1
            injection e1 with e2 e3
            injection e2 with e2
            rw [← e2, ← e3]
        have h56 : task = 56 := htask
        subst h56
        simp only [TimeoutTask.State.step, TimeoutTask.State.execute, hw, Res.bind_ok]
        cases b <;> rfl
      cases hc : x.counted with
      | none =>
        rw [hc] at left
        have left' : t.left id = none := left
        simp only [Op.call, Table.step, left'] at e1 r1 run
        refine ⟨⟨56, d1⟩, t.put id (some T), ?_, ?_⟩
        · simp only [timerEv, Timer.step, hst, hc, if_true]
          exact run false rfl
        · simp only [timerEv, Timer.step, hst, hc, if_true]
          exact ⟨r1, k1, rfl, delta, by simp [Table.put], by intro c h; simp at h; omega⟩
      | some c =>
        have hcT := le c hc
        rw [hc] at left
        have left' : t.left id = some (T - c) := left
        simp only [Op.call, Table.step, left'] at e1 r1 run
        by_cases hf : T ≤ c + x.delta
        · have hf' : T - c ≤ t.delta := by omega
          simp only [hf', if_true] at r1 run
          refine ⟨⟨56, d1⟩, t.put id none, ?_, ?_⟩
          · simp only [timerEv, Timer.step, hst, hc, if_true, hf]
            exact run true rfl
          · simp only [timerEv, Timer.step, hst, hc, if_true, hf]
            exact ⟨r1, k1, rfl, delta, by simp [Table.put], by simp⟩
        · have hf' : ¬ T - c ≤ t.delta := by omega
          simp only [hf', if_false] at r1 run
          refine ⟨⟨56, d1⟩, t.put id (some (T - c - t.delta)), ?_, ?_⟩
          · simp only [timerEv, Timer.step, hst, hc, if_true, hf, if_false]
            exact run false rfl
          · simp only [timerEv, Timer.step, hst, hc, if_true, hf, if_false]
            refine ⟨r1, k1, rfl, delta, ?_, by intro c' h'; simp at h'; omega⟩
            simp only [Table.put, if_true, Option.map_some, Option.some.injEq]
            omega
  | other o =>
    have hm := ho o rfl
    obtain ⟨d1, e1, r1, k1⟩ := go o fun i hi => (hm i hi).1
    have st : TimeoutTask.State.step N id T ⟨task, d⟩ (.other o) = .ok (0, ⟨task, d1⟩) := by
      simp only [TimeoutTask.State.step, e1, Res.bind_ok]
    cases o with
    | update v => exact ⟨_, _, st, r1, k1, htask, rfl, left, le⟩
    | wait i v =>
      have hi : id ≠ i := (hm i rfl).2.symm
      refine ⟨_, _, st, r1, k1, htask, ?_, ?_, le⟩
      · simp only [Op.call, Table.step]
        cases t.left i with
        | none => exact delta
        | some r => simp only; split <;> exact delta
      · simp only [Op.call, Table.step]
        cases t.left i with
        | none => simpa [Table.put, hi, timerEv, Timer.step] using left
        | some r => simp only; split <;> simpa [Table.put, hi, timerEv, Timer.step] using left
    | abort i =>
      have hi : id ≠ i := (hm i rfl).2.symm
      refine ⟨_, _, st, r1, k1, htask, ?_, ?_, le⟩
      · simp only [Op.call, Table.step]
        split <;> exact delta
      · simp only [Op.call, Table.step]
        split
        · exact left
        · simpa [Table.put, hi, timerEv, Timer.step] using left
    | clear i =>
      have hi : id ≠ i := (hm i rfl).2.symm
      exact ⟨_, _, st, r1, k1, htask, delta, by simpa [Op.call, Table.step, Table.put, hi, timerEv, Timer.step] using left, le⟩
    | isWaiting i => exact ⟨_, _, st, r1, k1, htask, delta, left, le⟩

/-- **C28, exactly.** A new timeout task and any schedule at all of time updates, `Execute` calls (any number per update) and use of the table by others, within capacity:
    `OnTimeout` is called exactly as the polled timeout of the specification fires. The time counted is the sum, over the `Execute` calls since it was armed, of the
    last update; that is the time passed exactly when every update is polled once. -/
theorem c28_exact (N id T : Nat) (S : List Nat) (hS : Room N S) (hid : id ∈ S) (ops : List TimeoutTask.SOp) (hother : OthersOnly id S ops) :
    ∃ s, TimeoutTask.State.init.run N id T ops = .ok (Timer.run T {} (ops.map timerEv), s) := by
  have : ∀ (ops : List TimeoutTask.SOp), OthersOnly id S ops → ∀ s t x, Counts N id T S s t x →
      ∃ s', s.run N id T ops = .ok (Timer.run T x (ops.map timerEv), s') := by
    intro ops
    induction ops with
    | nil => intro _ s t x _; exact ⟨s, rfl⟩
    | cons op ops ih =>
      intro ho s t x h
      obtain ⟨s1, t1, e1, h1⟩ := counts_step hS hid h op (by rintro o rfl; exact ho o (by simp))
      obtain ⟨s2, e2⟩ := ih (fun o h => ho o (by simp [h])) s1 t1 _ h1
      exact ⟨s2, by simp only [TimeoutTask.State.run, e1, Res.bind_ok, e2, List.map_cons, Timer.run]⟩
  exact this ops hother _ Table.init {} ⟨init_ref N, fun _ _ => .inl rfl, rfl, rfl, rfl, by simp⟩

/-- Two polls per update: the timeout of 100 fires after 50. -/
example : Room 2 [1, 5] ∧ OthersOnly 1 [1, 5] [.execute, .execute, .other (.wait 5 7), .other (.update 50), .execute, .execute] ∧
    Timer.run 100 {} ([TimeoutTask.SOp.execute, .execute, .other (.wait 5 7), .other (.update 50), .execute, .execute].map timerEv) = [0, 0, 0, 0, 0, 1] := by
  refine ⟨⟨by decide, by decide⟩, ?_, by decide⟩
  intro op hop i hi
  simp only [List.mem_cons, reduceCtorEq, TimeoutTask.SOp.other.injEq, List.not_mem_nil, or_false, false_or] at hop
  rcases hop with rfl | rfl <;> simp [Op.call, Call.id?] at hi
  exact hi ▸ by decide

/-- A history of the table with an aborted and a cleared delay. -/
example : Room 2 [3, 4] ∧ Uses [3, 4] [.wait 3 10, .wait 4 10, .abort 3, .clear 4, .isWaiting 4, .wait 3 10] ∧
    (Table.init.run ([Op.wait 3 10, .wait 4 10, .abort 3, .clear 4, .isWaiting 4, .wait 3 10].map Op.call)).1 =
      [some false, some false, none, none, some false, some true] := by
  refine ⟨⟨by decide, by decide⟩, ?_, by decide⟩
  intro op hop i hi
  simp only [List.mem_cons, List.not_mem_nil, or_false] at hop
  rcases hop with rfl | rfl | rfl | rfl | rfl | rfl <;> simp [Op.call, Call.id?] at hi <;> exact hi ▸ by decide

end Atl.Props
