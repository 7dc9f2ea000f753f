import Verif.Model.Task

/-
  Specification of a task as a coroutine: a suspended task is the condition it waits for and the part of the program
  that is left. No labels, no task variable, no source lines.
-/
namespace Atl.Spec.Task
open Atl.Task

variable {σ : Type}

/-- A task between two calls. -/
inductive Susp (σ : Type) where
  /-- Not started, or ended. -/
  | start
  /-- Suspended: continues with `k` as soon as `e` holds. -/
  | waiting (e : Expr σ) (k : List (Prog σ))

/-- What a `break` leaves to do: what follows the innermost loop or `switch` (outside of them: nothing, the task ends). -/
def leave : List (Prog σ) → List (Prog σ)
  | [] => []
  | .again _ _ _ :: k => k
  | .swEnd :: k => k
  | _ :: k => leave k

/-- What a `continue` leaves to do: the next round of the innermost loop. -/
def next : List (Prog σ) → List (Prog σ)
  | [] => []
  | .again e f a :: k => .again e f a :: k
  | _ :: k => next k

/-- What a `switch` has to do: everything behind `case n:`, also inside blocks and loops, but not in another `switch`. -/
def behind (n : Nat) : Prog σ → List (Prog σ) → Option (List (Prog σ))
  | .case m, k => if n = m then some k else none
  | .seq a b, k => match behind n a (b :: k) with
    | some r => some r
    | none => behind n b k
  | .ite _ a b, k => match behind n a k with
    | some r => some r
    | none => behind n b k
  | .while e a, k => behind n a (.again e id a :: k)
  | .for e f a, k => behind n a (.again e f a :: k)
  | .doWhile a e, k => behind n a (.again e id a :: k)
  | .again e f a, k => behind n a (.again e f a :: k)
  | _, _ => none

/-- Tests the condition once: goes on when it holds, else stays suspended. -/
def test (run : List (Prog σ) → σ → Option (Bool × Susp σ × σ)) (e : Expr σ) (k : List (Prog σ)) (s : σ) : Option (Bool × Susp σ × σ) :=
  match e s with
  | (true, s') => run k s'
  | (false, s') => some (true, .waiting e k, s')

/-- Runs a program until it yields (true) or ends (false). -/
def run : Nat → List (Prog σ) → σ → Option (Bool × Susp σ × σ)
  | 0, _, _ => none
  | _ + 1, [], s => some (false, .start, s)
  | n + 1, p :: k, s => match p with
    | .skip => run n k s
    | .act f => run n k (f s)
    | .yield _ => some (true, .waiting (fun s => (true, s)) k, s)
    | .yieldUntil _ e => some (true, .waiting e k, s)
    | .waitUntil _ e => test (run n) e k s
    | .ret => some (false, .start, s)
    | .seq a b => run n (a :: b :: k) s
    | .ite e a b => match e s with
      | (true, s') => run n (a :: k) s'
      | (false, s') => run n (b :: k) s'
    | .while e a => match e s with
      | (true, s') => run n (a :: .again e id a :: k) s'
      | (false, s') => run n k s'
    | .for e f a => match e s with
      | (true, s') => run n (a :: .again e f a :: k) s'
      | (false, s') => run n k s'
    | .doWhile a e => run n (a :: .again e id a :: k) s
    | .again e f a => match e (f s) with
      | (true, s') => run n (a :: .again e f a :: k) s'
      | (false, s') => run n k s'
    | .brk => run n (leave k) s
    | .cont => run n (next k) s
    | .switch v a => run n ((behind (v s).1 a (.swEnd :: k)).getD k) (v s).2
    | .case _ => run n k s
    | .swEnd => run n k s

/-- A call of the task. -/
def resume (n : Nat) (body : Prog σ) (t : Susp σ) (s : σ) : Option (Bool × Susp σ × σ) :=
  match t with
  | .start => run n [body] s
  | .waiting e k => test (run n) e k s

/-- A history of calls: before each call the rest of the program changes the state; `outs` are the results and the states after each call. -/
inductive History {τ : Type} (call : τ → σ → Bool → τ → σ → Prop) : τ → σ → List (σ → σ) → List (Bool × σ) → Prop where
  | nil (t : τ) (s : σ) : History call t s [] []
  | cons {t t' : τ} {s s' : σ} {b : Bool} {f : σ → σ} {fs : List (σ → σ)} {outs : List (Bool × σ)} :
    call t (f s) b t' s' → History call t' s' fs outs → History call t s (f :: fs) ((b, s') :: outs)

/-- A history of calls of several tasks in any order; `ts` is what each task keeps between its calls. -/
inductive Together {ι τ : Type} [DecidableEq ι] (call : ι → τ → σ → Bool → τ → σ → Prop) : (ι → τ) → σ → List (ι × (σ → σ)) → List (Bool × σ) → Prop where
  | nil (ts s) : Together call ts s [] []
  | cons {ts s i f b t' s' l outs} : call i (ts i) (f s) b t' s' → Together call (fun j => if j = i then t' else ts j) s' l outs →
      Together call ts s ((i, f) :: l) ((b, s') :: outs)

end Atl.Spec.Task
