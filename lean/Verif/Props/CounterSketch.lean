import Verif.Model.CounterSketch
import Verif.Props.Task

/- C102: the counter task example; the hand-expanded models of TimeoutTask and PushButton are what the macros yield. -/
namespace Atl.Props
open Atl.Task Atl.CounterSketch

/-! ### C102 the counter task example -/

/-- A task counts this many calls. -/
def period (m : Int) : Nat := max 1 (m + 1).toNat

theorem counter_first (fuel : Nat) (m : Int) (o : Bool) (out : List String) : execute (fuel + 30) (0, 0, m) o out = some ((22, 0, m), o, out) := by
  simp [execute, call, body, Prog.expand, Stmt.yieldUntil, exec, Stmt.yieldOrNot]

theorem counter_next (fuel : Nat) (j m : Int) (o : Bool) (out : List String) : execute (fuel + 30) (22, j, m) o out =
    some (if m < j + 1 then ((22, 0, m), o || decide (2147483647 < j + 1), out ++ ["Counted to ", toString m ++ "\r\n"])
      else ((22, j + 1, m), o || decide (2147483647 < j + 1), out)) := by
  by_cases h : m < j + 1 <;>
    simp [execute, call, body, Prog.expand, Stmt.yieldUntil, exec, Stmt.yieldOrNot, Stmt.find, increment, h]

/-- The object after `k` calls. -/
def objAt (k : Nat) (m : Int) : Obj := if k = 0 then (0, 0, m) else (22, ((k - 1) % period m : Nat), m)

/-- What a task prints in its call number `k` (counted from 0). -/
def prints (k : Nat) (m : Int) : List String := if 0 < k ∧ k % period m = 0 then ["Counted to ", toString m ++ "\r\n"] else []

theorem counter_step (fuel k : Nat) (m : Int) (hm : m < 2147483647) (o : Bool) (out : List String) :
    execute (fuel + 30) (objAt k m) o out = some (objAt (k + 1) m, o, out ++ prints k m) := by
  cases k with
  | zero => simpa [objAt, prints] using counter_first fuel m o out
  | succ k =>
    have hp : 0 < period m := by unfold period; omega
    have hlt : k % period m < period m := Nat.mod_lt _ hp
    have hsucc : (k + 1) % period m = if k % period m + 1 = period m then 0 else k % period m + 1 := by
      by_cases h : k % period m + 1 = period m
      · rw [if_pos h, ← Nat.mod_add_mod, h, Nat.mod_self]
      · rw [if_neg h, ← Nat.mod_add_mod, Nat.mod_eq_of_lt (by omega)]
    have hc : m < (k % period m : Nat) + 1 ↔ k % period m + 1 = period m := by
      generalize k % period m = j at *
      unfold period at *
      omega
    have ho : ¬ (2147483647 : Int) < (k % period m : Nat) + 1 := by
      generalize k % period m = j at *
      unfold period at *
      omega
    simp only [objAt, Nat.succ_ne_zero, if_false, Nat.add_sub_cancel, prints, counter_next, hc, hsucc, Nat.succ_pos, true_and]
    simp only [ho, decide_false, Bool.or_false]
    by_cases h : k % period m + 1 = period m
    · simp [h]
    · simp [h]

theorem counter_loop (fuel k : Nat) (ms : List Int) (hm : ∀ m ∈ ms, m < 2147483647) (o : Bool) (out : List String) :
    loop (fuel + 30) (ms.map (objAt k)) o out = some (ms.map (objAt (k + 1)), o, out ++ ms.flatMap (prints k)) := by
  induction ms generalizing out with
  | nil => simp [loop]
  | cons m ms ih =>
    simp only [List.map_cons, loop, counter_step fuel k m (hm m (by simp)), Option.bind_some]
    rw [ih (fun x hx => hm x (by simp [hx]))]
    simp [List.append_assoc]

theorem counter_rounds (fuel n k : Nat) (ms : List Int) (hm : ∀ m ∈ ms, m < 2147483647) (o : Bool) (out : List String) :
    CounterSketch.rounds (fuel + 30) n (ms.map (objAt k)) o out =
      some (ms.map (objAt (k + n)), o, out ++ (List.range n).flatMap fun i => ms.flatMap (prints (k + i))) := by
  induction n generalizing k out with
  | zero => simp [CounterSketch.rounds]
  | succ n ih =>
    simp only [CounterSketch.rounds, counter_loop fuel k ms hm, Option.bind_some]
    rw [ih (k + 1), List.range_succ_eq_map, List.flatMap_cons, List.flatMap_map]
    simp only [List.append_assoc, Nat.add_zero, Nat.succ_eq_add_one]
    rw [show k + 1 + n = k + (n + 1) by omega]
    simp only [show ∀ i, k + 1 + i = k + (i + 1) from fun i => by omega]

/-- **C102, partial.** The counter example with any number of tasks and any limits below 2^31 - 1: every call returns, nothing overflows, and after any number of rounds the output is
    exactly this: in round `k` (counted from 0) a task with limit `m` prints its message if `k` is a positive multiple of `m + 1` (of 1 if `m` is negative), the
    tasks in their order. Missing: the limit 2^31 - 1 (`c102_overflow_fails`). -/
theorem c102_output_partial (fuel n : Nat) (ms : List Int) (hm : ∀ m ∈ ms, m < 2147483647) :
    program (fuel + 30) n ms = some (false, "Counter Task demo:\r\n" ::
      (List.range n).flatMap fun k => ms.flatMap fun m => if 0 < k ∧ k % max 1 (m + 1).toNat = 0 then ["Counted to ", toString m ++ "\r\n"] else []) := by
  have h := counter_rounds fuel n 0 ms hm false ["Counter Task demo:\r\n"]
  have h0 : ms.map (objAt 0) = ms.map fun m => (0, 0, m) := rfl
  rw [h0] at h
  simp only [program, h, Option.map_some, Nat.zero_add, List.cons_append, List.nil_append]
  rfl

example := c102_output_partial 0 5 [2, 1, -3] (by decide)

/-- **C102 fails** for the limit 2^31 - 1: the counter overflows (undefined behaviour) in round 2^31. -/
theorem c102_overflow_fails (fuel M : Nat) (hM : M = 2147483647) : ∃ out, program (fuel + 30) (M + 1 + 1) [(M : Int)] = some (true, out) := by
  have count : ∀ (n : Nat) (j : Int) (out : List String), j + n ≤ M →
      CounterSketch.rounds (fuel + 30) (n + 1) [(22, j, (M : Int))] false out =
        CounterSketch.rounds (fuel + 30) 1 [(22, j + n, (M : Int))] false out := by
    intro n
    induction n with
    | zero => intro j out _; simp
    | succ n ih =>
      intro j out h
      rw [CounterSketch.rounds]
      simp only [loop, counter_next, Option.bind_some]
      rw [if_neg (by omega)]
      simp only [Option.map_some, Option.bind_some, Bool.false_or]
      rw [show decide ((2147483647 : Int) < j + 1) = false from decide_eq_false (by omega), ih (j + 1) out (by omega)]
      rw [show j + 1 + (n : Int) = j + ((n + 1 : Nat) : Int) by omega]
  have e : ∀ out, CounterSketch.rounds (fuel + 30) (M + 1 + 1) [(0, 0, (M : Int))] false out =
      some ([(22, 0, (M : Int))], true, out ++ ["Counted to ", toString (M : Int) ++ "\r\n"]) := by
    intro out
    rw [CounterSketch.rounds]
    simp only [loop, counter_first, Option.bind_some, Option.map_some]
    rw [count M 0 out (by omega)]
    simp only [CounterSketch.rounds, loop, counter_next, Option.bind_some]
    rw [if_pos (by omega), show decide ((2147483647 : Int) < 0 + (M : Int) + 1) = true from decide_eq_true (by omega)]
    simp
  refine ⟨["Counter Task demo:\r\n"] ++ ["Counted to ", toString (M : Int) ++ "\r\n"], ?_⟩
  simp only [program, List.map_cons, List.map_nil, e, Option.map_some]

/-- Non-vacuity of C102: limits 2 and 1, five rounds. -/
example : program 30 5 [2, 1] = some (false, ["Counter Task demo:\r\n", "Counted to ", "1\r\n", "Counted to ", "2\r\n", "Counted to ", "1\r\n"]) := by decide +kernel

/-! ### The other task bodies of the library -/

/-- **C102.** `TimeoutTask::Execute` as modelled for C28 and C99 is what the macros make of its source. -/
theorem c102_timeout_task (fuel N id T task n : Nat) (d : Delays.State) :
    call 16 (fuel + 30) (timeoutBody N id T).expand task (.ok (d, n)) =
      match (TimeoutTask.State.mk task d).execute N id T with
      | .ok ((r, k), s) => some (r, s.task, .ok (s.delays, n + k))
      | .ub => some (true, 56, .ub) := by
  by_cases h : task = 0 ∨ task = 56
  rotate_left
  · simp only [not_or] at h
    simp [TimeoutTask.State.execute, call, timeoutBody, Prog.expand, Stmt.yieldUntil, exec, Stmt.find, h.1, h.2]
  rcases h with rfl | rfl
  · simp [TimeoutTask.State.execute, call, timeoutBody, Prog.expand, Stmt.yieldUntil, exec, Stmt.yieldOrNot]
  · cases hw : d.wait N id T with
    | ub => simp [TimeoutTask.State.execute, call, timeoutBody, Prog.expand, Stmt.yieldUntil, exec, Stmt.yieldOrNot, Stmt.find, hw]
    | ok r =>
      obtain ⟨b, d'⟩ := r
      cases b <;> simp [TimeoutTask.State.execute, call, timeoutBody, Prog.expand, Stmt.yieldUntil, exec, Stmt.yieldOrNot, Stmt.find, hw]

section
variable {σ : Type} (w n : Nat) (k : List (Stmt σ)) (st : St σ)
theorem ex_skip : exec w (n + 1) (.skip :: k) st = exec w n k st := rfl
theorem ex_act (f : σ → σ) : exec w (n + 1) (.act f :: k) st = exec w n k ⟨st.task, st.yield, f st.s⟩ := rfl
theorem ex_seq (a b : Stmt σ) : exec w (n + 1) (.seq a b :: k) st = exec w n (a :: b :: k) st := rfl
theorem ex_ite (e : Bool → Expr σ) (a b : Stmt σ) : exec w (n + 1) (.ite e a b :: k) st =
    exec w n ((if (e st.yield st.s).1 then a else b) :: k) ⟨st.task, st.yield, (e st.yield st.s).2⟩ := rfl
end

/-- **C102.** `PushButton::ScanButton` as modelled for C29, C30 and C100 is what the macros make of its source. -/
theorem c102_scan_button (fuel N id D H : Nat) (inverse pin : Bool) (s : PushButton.State) :
    ∃ r, call 16 (fuel + 40) (scanBody N id D H inverse pin).expand s.task (.ok (PB.ofState s)) = some r ∧
      match s.scan N id D H inverse pin with
      | .ok (y, s') => r = (y, s'.task, .ok (PB.ofState s'))
      | .ub => r.2.2 = .ub := by
  obtain ⟨task, cur, prev, d⟩ := s
  by_cases h : task = 0 ∨ task = 113
  rotate_left
  · simp only [not_or] at h
    refine ⟨(false, 0, .ok ⟨cur, prev, d⟩), ?_, ?_⟩
    · simp [call, scanBody, holdBody, pbAct, Prog.expand, Stmt.yieldUntil, exec, Stmt.find, h.1, h.2, PB.ofState]
    · simp [PushButton.State.scan, h.1, h.2, PB.ofState]
  -- the part after debouncing, from any state
  have tail : ∀ (fuel t : Nat) (y : Bool) (c p : PushButton.BState) (d : Delays.State),
      ∃ r, exec 16 (fuel + 20) [(holdBody N id H).expand] ⟨t, y, .ok ⟨c, p, d⟩⟩ = some r ∧
      match (PushButton.State.mk t c p d).tail N id H with
      | .ok (x, s') => r.1 = x ∧ r.2.task = s'.task ∧ r.2.s = .ok (PB.ofState s')
      | .ub => r.2.s = .ub := by
    intro fuel t y c p d
    by_cases hc : c = .closed
    · subst hc
      cases hw : d.wait N id H with
      | ub =>
        refine ⟨(false, ⟨0, y, .ub⟩), ?_, ?_⟩
        · simp [holdBody, Prog.expand, exec, pbCond, pbAct, hw, Res.bind]
        · simp only [PushButton.State.tail, if_true, hw, Res.bind_ub]
      | ok r =>
        obtain ⟨b, d'⟩ := r
        cases b <;> simp [holdBody, PushButton.State.tail, Prog.expand, exec, pbCond, pbAct, hw, Res.bind, PB.ofState]
    · cases hi : d.isWaiting N id <;> simp [holdBody, PushButton.State.tail, Prog.expand, exec, pbCond, pbAct, hc, hi, PB.ofState]
  -- from there to the claim
  have fin : ∀ (st : PushButton.State) (f t : Nat) (k : List (Stmt (Res PB))) (x : St (Res PB)), (f = fuel + 40) →
      exec 16 f k x = exec 16 (t + 20) [(holdBody N id H).expand] ⟨st.task, x.yield, .ok ⟨st.cur, st.prev, st.delays⟩⟩ →
      ∃ r, (exec 16 f k x).map (fun r => (r.1, r.2.task, r.2.s)) = some r ∧
        match st.tail N id H with
        | .ok (y, s') => r = (y, s'.task, .ok (PB.ofState s'))
        | .ub => r.2.2 = .ub := by
    intro st f t k x _ h
    obtain ⟨r, h1, h2⟩ := tail t st.task x.yield st.cur st.prev st.delays
    refine ⟨(r.1, r.2.task, r.2.s), by rw [h, h1]; rfl, ?_⟩
    cases hs : st.tail N id H with
    | ub =>
      have : (PushButton.State.mk st.task st.cur st.prev st.delays).tail N id H = .ub := hs
      rw [this] at h2
      exact h2
    | ok q =>
      have : (PushButton.State.mk st.task st.cur st.prev st.delays).tail N id H = .ok q := hs
      rw [this] at h2
      obtain ⟨q1, q2⟩ := q
      simp only at h2 ⊢
      rw [h2.1, h2.2.1, h2.2.2]
  rcases h with rfl | rfl
  · obtain ⟨c1, p1, hs⟩ : ∃ c1 p1, (PushButton.State.mk 0 cur prev d).sample inverse pin = ⟨0, c1, p1, d⟩ := by
      unfold PushButton.State.sample
      dsimp only
      split <;> exact ⟨_, _, rfl⟩
    by_cases hd : (PushButton.State.mk 0 c1 p1 d).mustDebounce = true
    · refine ⟨(true, 113, .ok ⟨.pending, p1, d.clear N id⟩), ?_, ?_⟩
      · simp [call, scanBody, Prog.expand, exec, pbCond, pbAct, PB.toState, PB.ofState, hs, hd, Stmt.yieldUntil, Stmt.yieldOrNot]
      · simp [PushButton.State.scan, hs, hd, PB.ofState]
    · have hscan : (PushButton.State.mk 0 cur prev d).scan N id D H inverse pin = (PushButton.State.mk 0 c1 p1 d).tail N id H := by
        simp [PushButton.State.scan, hs, hd]
      rw [hscan]
      refine fin ⟨0, c1, p1, d⟩ _ (fuel + 15) _ _ rfl ?_
      simp only [scanBody, Prog.expand]
      generalize (holdBody N id H).expand = hb
      simp [pbAct, Prog.expand, ex_seq, ex_act, ex_ite, ex_skip, pbCond, PB.toState, PB.ofState, hs, hd]
  · cases hw : d.wait N id D with
    | ub =>
      refine ⟨(false, 0, .ub), ?_, ?_⟩
      · simp [call, scanBody, holdBody, Prog.expand, exec, pbCond, pbAct, PB.ofState, Stmt.yieldUntil, Stmt.yieldOrNot, Stmt.find, hw, Res.bind]
      · simp [PushButton.State.scan, hw]
    | ok r =>
      obtain ⟨b, d'⟩ := r
      cases b
      · refine ⟨(true, 113, .ok ⟨cur, prev, d'⟩), ?_, ?_⟩
        · simp [call, scanBody, Prog.expand, exec, pbCond, pbAct, PB.ofState, Stmt.yieldUntil, Stmt.yieldOrNot, Stmt.find, hw, Res.bind]
        · simp [PushButton.State.scan, hw, PB.ofState]
      · have hscan : (PushButton.State.mk 113 cur prev d).scan N id D H inverse pin = (PushButton.State.mk 113 (PushButton.convert inverse pin) cur d').tail N id H := by
          simp [PushButton.State.scan, hw]
        rw [hscan]
        refine fin ⟨113, PushButton.convert inverse pin, cur, d'⟩ _ (fuel + 15) _ _ rfl ?_
        simp only [scanBody, Prog.expand]
        generalize (holdBody N id H).expand = hb
        simp [pbAct, Prog.expand, ex_seq, ex_act, ex_ite, ex_skip, pbCond, PB.ofState, Stmt.yieldUntil, Stmt.yieldOrNot, Stmt.find, hw, Res.bind]

end Atl.Props
