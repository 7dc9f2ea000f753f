import Verif.Props.Task

/- Property theorems C129: control statements in task bodies, several tasks together. -/
namespace Atl.Props
open Atl.Task Atl.Spec.Task

variable {σ : Type}

/-- **C129, several tasks.** Any number of tasks, each with a task variable of its own and called in any order, with any changes of the common program state by the tasks
    and between the calls: every call returns what the coroutine of that task returns, with the same state. -/
theorem c129_together {ι : Type} [DecidableEq ι] (w : Nat) (body : ι → Prog σ) (hv : ∀ i, ValidLines w (body i)) (s : σ) (l : List (ι × (σ → σ))) (outs : List (Bool × σ)) :
    Together (fun i => Calls w (body i).expand) (fun _ => 0) s l outs ↔ Together (fun i => Resumes (body i)) (fun _ => .start) s l outs := by
  have key : ∀ (ts : ι → Nat) (us : ι → Susp σ), (∀ i, Stands (body i) (ts i) (us i)) → ∀ s l outs,
      Together (fun i => Calls w (body i).expand) ts s l outs ↔ Together (fun i => Resumes (body i)) us s l outs := by
    intro ts us hs s l
    induction l generalizing ts us s with
    | nil =>
      intro outs
      constructor <;> intro h <;> cases h <;> constructor
    | cons x l ih =>
      intro outs
      have after : ∀ i t' u', Stands (body i) t' u' → ∀ j, Stands (body j) (if j = i then t' else ts j) (if j = i then u' else us j) := by
        intro i t' u' h j
        by_cases hj : j = i
        · subst hj; simpa using h
        · simpa [hj] using hs j
      constructor
      · intro h
        cases h with
        | @cons _ _ i f b t' s' _ outs h1 h2 =>
          obtain ⟨b', u', s'', hr⟩ := task_returns w (body i) (hv i) (ts i) (us i) (hs i) _ _ _ _ h1
          obtain ⟨t'', g1, g2⟩ := task_call w (body i) (hv i) (ts i) (us i) (hs i) _ _ _ _ hr
          obtain ⟨rfl, rfl, rfl⟩ := calls_unique h1 g1
          exact .cons hr ((ih _ _ (after i _ _ g2) _ _).1 h2)
      · intro h
        cases h with
        | @cons _ _ i f b u' s' _ outs h1 h2 =>
          obtain ⟨t', g1, g2⟩ := task_call w (body i) (hv i) (ts i) (us i) (hs i) _ _ _ _ h1
          exact .cons g1 ((ih _ _ (after i _ _ g2) _ _).2 h2)
  exact key _ _ (fun _ => .start) s l outs

example := c129_together 16 (fun i : Fin 2 => (.seq (.act (· + i.val)) (.seq (.yield (21 + i.val)) (.act (· + 10))) : Prog Nat))
  (fun i => match i with | 0 => ⟨by decide, by decide, by simp [Nested]⟩ | 1 => ⟨by decide, by decide, by simp [Nested]⟩) 0 [(1, id), (0, id), (0, id), (1, id)]

/-- **C129.** `break` behind a resumption leaves the loop it stands in, and what follows the loop is done in the same call. -/
theorem c129_break (w line : Nat) (h0 : line ≠ 0) (h1 : line < 2 ^ w) (e : Expr σ) (f g : σ → σ) (s : σ) (env : σ → σ) (he : (e s).1 = true) :
    History (Calls w (Prog.expand (.seq (.while e (.seq (.yield line) (.seq .brk (.act f)))) (.act g)))) 0 s [id, env] [(true, (e s).2), (false, g (env (e s).2))] := by
  rw [c62_coroutine w _ (by simp [ValidLines, Prog.lines, Nested, h0, h1])]
  refine .cons (t' := .waiting (fun s => (true, s)) [.seq .brk (.act f), .again e id (.seq (.yield line) (.seq .brk (.act f))), .act g]) ⟨9, ?_⟩
    (.cons (t' := .start) ⟨9, rfl⟩ (.nil _ _))
  cases hb : e s with
  | mk v s' =>
    rw [hb] at he
    simp only at he
    subst he
    simp [resume, run, hb]

example := c129_break 16 42 (by decide) (by decide) (fun s : Nat => (s < 7, s)) (· + 1) (· + 100) 2 (· + 3) (by decide)

/-- **C129.** `continue` behind a resumption goes on with the third expression of the `for` and its condition; the rest of the body is not done. -/
theorem c129_continue (w line : Nat) (h0 : line ≠ 0) (h1 : line < 2 ^ w) (e : Expr σ) (f g h : σ → σ) (s : σ) (env : σ → σ) (he : (e s).1 = true)
    (he' : (e (f (env (e s).2))).1 = false) :
    History (Calls w (Prog.expand (.seq (.for e f (.seq (.yield line) (.seq .cont (.act h)))) (.act g)))) 0 s [id, env]
      [(true, (e s).2), (false, g (e (f (env (e s).2))).2)] := by
  rw [c62_coroutine w _ (by simp [ValidLines, Prog.lines, Nested, h0, h1])]
  refine .cons (t' := .waiting (fun s => (true, s)) [.seq .cont (.act h), .again e f (.seq (.yield line) (.seq .cont (.act h))), .act g]) ⟨9, ?_⟩
    (.cons (t' := .start) ⟨9, ?_⟩ (.nil _ _))
  · cases hb : e s with
    | mk v s' =>
      rw [hb] at he
      simp only at he
      subst he
      simp [resume, run, hb]
  · cases hb : e (f (env (e s).2)) with
    | mk v s' =>
      rw [hb] at he'
      simp only at he'
      subst he'
      simp [resume, test, run, next, hb]

/-- Two tasks on a common state: a `for` with a nested `switch`, `continue` and `break`, and a `do` that waits and is left by `break`. -/
def mixed : Fin 2 → Prog (Nat × Nat)
  | 0 => .for (fun s => (s.1 < 6, s)) (fun s => (s.1 + 1, s.2))
      (.seq (.switch (fun s => (s.1 % 3, s)) (.seq (.case 0) (.seq .cont (.seq (.case 1) (.seq (.act fun s => (s.1, s.2 + 10)) .brk)))))
        (.seq (.yield 21) (.act fun s => (s.1, s.2 + 1))))
  | 1 => .doWhile (.seq (.waitUntil 31 fun s => (s.2 > 10, s)) (.ite (fun s => (s.2 > 100, s)) .brk (.act fun s => (s.1, s.2 + 50)))) (fun s => (true, s))

example : ∀ i, ValidLines 16 (mixed i) := by
  intro i
  match i with
  | 0 => exact ⟨by decide, by decide, by simp [mixed, Nested]⟩
  | 1 => exact ⟨by decide, by decide, by simp [mixed, Nested]⟩

/-- The second task waits; the first yields in round 1 (after adding 10) and in round 2 (after adding 1); then the second adds 50 twice, leaves its loop and ends. -/
example : Together (fun i => Calls 16 (mixed i).expand) (fun _ => 0) (0, 0) [(1, id), (0, id), (0, id), (1, id)]
    [(true, 0, 0), (true, 1, 10), (true, 2, 11), (false, 2, 111)] :=
  .cons (t' := 31) ⟨60, by decide +kernel⟩ (.cons (t' := 21) ⟨60, by decide +kernel⟩ (.cons (t' := 21) ⟨60, by decide +kernel⟩
    (.cons (t' := 0) ⟨90, by decide +kernel⟩ (.nil _ _))))

/-- **C129 fails for a macro in a nested `switch`.** It compiles, and the first call yields; but the label belongs to the nested `switch`, so the next call finds none, does nothing
    and ends the task: what follows the yield is never done, whatever is before, inside and behind it. -/
theorem c129_switch_fails (w line v : Nat) (h0 : line ≠ 0) (h1 : line < 2 ^ w) (f g h : σ → σ) (s : σ) (env : σ → σ) :
    History (Calls w (Prog.expand (.seq (.act f) (.seq (.switch (fun s => (v, s)) (.seq (.case v) (.seq (.yield line) (.act g)))) (.act h))))) 0 s [id, env]
      [(true, f s), (false, env (f s))] := by
  refine .cons (t' := line) ⟨15, ?_⟩ (.cons (t' := 0) ⟨15, ?_⟩ (.nil _ _))
  · simp [call, exec, Prog.expand, Stmt.find, Stmt.yield, Stmt.yieldUntil, Stmt.yieldOrNot, Nat.mod_eq_of_lt h1]
  · simp [call, exec, Prog.expand, Stmt.find, h0]

/-- **C129 fails for two task methods of one class**, which share `_task`: when one of them has yielded, the next call of the other does nothing at all, reports that it has ended and
    makes the first start from the beginning. -/
theorem c129_shared_variable_fails (w : Nat) (a b : Prog σ) (ha : ValidLines w a) (hb : ValidLines w b) (hd : ∀ n ∈ a.lines, n ∉ b.lines) (s : σ) (t' : Nat) (s' : σ)
    (h : Calls w a.expand 0 s true t' s') (s'' : σ) : Calls w b.expand t' s'' false 0 s'' := by
  obtain ⟨b', u', s1, hr⟩ := task_returns w a ha 0 .start .start _ _ _ _ h
  obtain ⟨t1, g1, g2⟩ := task_call w a ha 0 .start .start _ _ _ _ hr
  obtain ⟨rfl, rfl, rfl⟩ := calls_unique h g1
  have hw : ∃ e k, u' = .waiting e k := by
    cases u' with
    | waiting e k => exact ⟨e, k, rfl⟩
    | start =>
      exfalso
      obtain ⟨n, hn⟩ := hr
      have : ∀ (n : Nat) (k : List (Prog σ)) (s s' : σ), run n k s ≠ some (true, Susp.start, s') := by
        intro n
        induction n with
        | zero => intro k s s' h; simp [run] at h
        | succ n ih =>
          intro k s s' h
          cases k with
          | nil => simp [run] at h
          | cons p k =>
            cases p <;> simp only [run, test] at h <;> first
              | exact ih _ _ _ h
              | (split at h <;> first | exact ih _ _ _ h | simp at h)
              | simp at h
      exact this n _ _ _ hn
  obtain ⟨e, k, rfl⟩ := hw
  cases g2 with
  | waiting h0 hk hc hf =>
    have hl : t' ∈ a.lines := by
      refine Classical.byContradiction fun hx => ?_
      rw [find_none t' a ha.2.2 _ hx] at hf
      cases hf
    refine ⟨1, ?_⟩
    simp [call, if_neg h0, find_none t' b hb.2.2 _ (hd _ hl), exec]

example : ∃ t' s', Calls 16 (mixed 0).expand 0 (0, 0) true t' s' ∧ ∀ n ∈ (mixed 0).lines, n ∉ (mixed 1).lines :=
  ⟨21, (1, 10), ⟨60, by decide +kernel⟩, by decide⟩

end Atl.Props
