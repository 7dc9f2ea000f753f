/-
  Model of Task.h: the statements the task macros expand to, and the meaning of a C `switch` that jumps into nested
  statements (C11 6.8.4.2). The state of the program outside the task variable is any type `σ`; an expression may change it.
  Simplified: a nested `switch` has no `default:` and its expression is a natural number.
  Not modelled: `goto`, exceptions, local variables of the task method (C++ forbids to jump past their initialisation).
-/
namespace Atl.Task

/-- A condition: its value and the state after its evaluation (Task.h 43-118). -/
abbrev Expr (σ : Type) := σ → Bool × σ

/-- The C statements that occur in an expanded task body (Task.h 43-118). -/
inductive Stmt (σ : Type) where
  | skip
  /-- An expression statement. -/
  | act (f : σ → σ)
  /-- `_yield_ = true;` -/
  | setYield
  /-- `_task = n;` -/
  | setTask (n : Nat)
  /-- `case n:` -/
  | label (n : Nat)
  /-- `return b;` -/
  | ret (b : Bool)
  | seq (a b : Stmt σ)
  /-- `if (e) a else b`; the condition may read `_yield_`. -/
  | ite (e : Bool → Expr σ) (a b : Stmt σ)
  | while (e : Expr σ) (a : Stmt σ)
  /-- `for (; e; f) a`; the initialisation is a statement before it. -/
  | for (e : Expr σ) (f : σ → σ) (a : Stmt σ)
  /-- `do a while (e);` -/
  | doWhile (a : Stmt σ) (e : Expr σ)
  /-- `break;` -/
  | brk
  /-- `continue;` -/
  | cont
  /-- `switch (v) { a }` in the task body: the labels in `a` belong to it. -/
  | switch (v : σ → Nat × σ) (a : Stmt σ)
  /-- Not written in a program: where the body of a loop ends that is being executed (`f` is the third expression of a `for`). -/
  | again (e : Expr σ) (f : σ → σ) (a : Stmt σ)
  /-- Not written in a program: where a nested `switch` ends that is being executed. -/
  | swEnd

namespace Stmt
variable {σ : Type}

/-- `Task_WaitUntil(e)` (Task.h 79-85) on source line `n`. -/
def waitUntil (n : Nat) (e : Expr σ) : Stmt σ :=
  .seq (.setTask n) (.seq (.label n) (.ite (fun _ s => (!(e s).1, (e s).2)) (.ret true) .skip))

/-- `Task_Return()` (Task.h 91-94). -/
def taskReturn : Stmt σ := .seq (.setTask 0) (.ret false)

/-- `_yield_ || !(e)` (Task.h 105): `e` is not evaluated when `_yield_` is set. -/
def yieldOrNot (e : Expr σ) (y : Bool) : Expr σ := fun s => if y then (true, s) else (!(e s).1, (e s).2)

/-- `Task_YieldUntil(e)` (Task.h 101-108) on source line `n`. -/
def yieldUntil (n : Nat) (e : Expr σ) : Stmt σ :=
  .seq .setYield (.seq (.setTask n) (.seq (.label n) (.ite (yieldOrNot e) (.ret true) .skip)))

/-- `Task_Yield()` (Task.h 115-117). -/
def yield (n : Nat) : Stmt σ := yieldUntil n (fun s => (true, s))

/-- What is left to execute when `switch` jumps to `case n:`; `k` is what follows the statement (Task.h 43-118). -/
def find (n : Nat) : Stmt σ → List (Stmt σ) → Option (List (Stmt σ))
  | .label m, k => if n = m then some k else none
  | .seq a b, k => match find n a (b :: k) with
    | some r => some r
    | none => find n b k
  | .ite _ a b, k => match find n a k with
    | some r => some r
    | none => find n b k
  | .while e a, k => find n a (.again e id a :: k)
  | .for e f a, k => find n a (.again e f a :: k)
  | .doWhile a e, k => find n a (.again e id a :: k)
  | .again e f a, k => find n a (.again e f a :: k)
  | _, _ => none

/-- What is left after `break;`: what follows the innermost loop or nested `switch`; outside of these the `switch` of the task itself is left (Task.h 43-50, 68-73). -/
def leave : List (Stmt σ) → List (Stmt σ)
  | [] => []
  | .again _ _ _ :: k => k
  | .swEnd :: k => k
  | _ :: k => leave k

/-- What is left after `continue;`: the end of the body of the innermost loop (Task.h 43-50, 68-73; outside of a loop it does not compile). -/
def next : List (Stmt σ) → List (Stmt σ)
  | [] => []
  | .again e f a :: k => .again e f a :: k
  | _ :: k => next k

end Stmt

/-- `_task`, the local `_yield_`, and the rest of the program state (Task.h 43-118). -/
structure St (σ : Type) where
  task : Nat
  yield : Bool
  s : σ

variable {σ : Type}

/-- Executes statements for at most `fuel` steps; `none`: has not returned. `width`: bits of the variable `_task`.
    After the last statement `Task_End` (Task.h 68-73): `_task = 0; return false;`. -/
def exec (width : Nat) : Nat → List (Stmt σ) → St σ → Option (Bool × St σ)
  | 0, _, _ => none
  | _ + 1, [], st => some (false, { st with task := 0 })
  | n + 1, c :: k, st => match c with
    | .skip => exec width n k st
    | .act f => exec width n k { st with s := f st.s }
    | .setYield => exec width n k { st with yield := true }
    | .setTask m => exec width n k { st with task := m % 2 ^ width }
    | .label _ => exec width n k st
    | .ret b => some (b, st)
    | .seq a b => exec width n (a :: b :: k) st
    | .ite e a b => exec width n ((if (e st.yield st.s).1 then a else b) :: k) { st with s := (e st.yield st.s).2 }
    | .while e a => exec width n (if (e st.s).1 then a :: .again e id a :: k else k) { st with s := (e st.s).2 }
    | .for e f a => exec width n (if (e st.s).1 then a :: .again e f a :: k else k) { st with s := (e st.s).2 }
    | .doWhile a e => exec width n (a :: .again e id a :: k) st
    | .brk => exec width n (Stmt.leave k) st
    | .cont => exec width n (Stmt.next k) st
    | .switch v a => exec width n ((Stmt.find (v st.s).1 a (.swEnd :: k)).getD k) { st with s := (v st.s).2 }
    | .again e f a => exec width n (if (e (f st.s)).1 then a :: .again e f a :: k else k) { st with s := (e (f st.s)).2 }
    | .swEnd => exec width n k st

/-- A call of the method declared with `Task_Begin` .. `Task_End` (Task.h 43-50, 68-73): `bool _yield_ = false; switch (_task) { case 0: body }`;
    a value without a label skips the body. -/
def call (width fuel : Nat) (body : Stmt σ) (task : Nat) (s : σ) : Option (Bool × Nat × σ) :=
  let start := if task = 0 then [body] else (Stmt.find task body []).getD []
  (exec width fuel start ⟨task, false, s⟩).map fun r => (r.1, r.2.task, r.2.s)

/-- A task body as the programmer writes it; the macros carry their source line (Task.h 43-118). -/
inductive Prog (σ : Type) where
  | skip
  | act (f : σ → σ)
  | yield (line : Nat)
  | yieldUntil (line : Nat) (e : Expr σ)
  | waitUntil (line : Nat) (e : Expr σ)
  | ret
  | seq (a b : Prog σ)
  | ite (e : Expr σ) (a b : Prog σ)
  | while (e : Expr σ) (a : Prog σ)
  | for (e : Expr σ) (f : σ → σ) (a : Prog σ)
  | doWhile (a : Prog σ) (e : Expr σ)
  | brk
  | cont
  | switch (v : σ → Nat × σ) (a : Prog σ)
  /-- `case n:` of a nested `switch`. -/
  | case (n : Nat)
  /-- Not written in a program (see `Stmt`). -/
  | again (e : Expr σ) (f : σ → σ) (a : Prog σ)
  /-- Not written in a program (see `Stmt`). -/
  | swEnd

namespace Prog

/-- The preprocessor (branches of `if` and bodies of loops are blocks in braces) (Task.h 43-118). -/
def expand : Prog σ → Stmt σ
  | .skip => .skip
  | .act f => .act f
  | .yield n => .yield n
  | .yieldUntil n e => .yieldUntil n e
  | .waitUntil n e => .waitUntil n e
  | .ret => .taskReturn
  | .seq a b => .seq a.expand b.expand
  | .ite e a b => .ite (fun _ => e) a.expand b.expand
  | .while e a => .while e a.expand
  | .for e f a => .for e f a.expand
  | .doWhile a e => .doWhile a.expand e
  | .brk => .brk
  | .cont => .cont
  | .switch v a => .switch v a.expand
  | .case n => .label n
  | .again e f a => .again e f a.expand
  | .swEnd => .swEnd

/-- The source lines of the macros with a label (Task.h 43-118). -/
def lines : Prog σ → List Nat
  | .yield n => [n]
  | .yieldUntil n _ => [n]
  | .waitUntil n _ => [n]
  | .seq a b => a.lines ++ b.lines
  | .ite _ a b => a.lines ++ b.lines
  | .while _ a => a.lines
  | .for _ _ a => a.lines
  | .doWhile a _ => a.lines
  | .switch _ a => a.lines
  | .again _ _ a => a.lines
  | _ => []

end Prog
end Atl.Task
