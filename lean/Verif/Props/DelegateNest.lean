import Verif.Spec.DelegateNest

namespace Atl.Props
open Atl.Delegate (Heap Args Dele)
open Atl.DelegateLife (Op State)
open Atl.DelegateNest Atl.Spec.DelegateNest
open Atl.Spec.DelegateLife (address)

namespace DeleNest
variable {σ α ρ : Type}

theorem invoke_method (ms : DelegateNest.Methods σ α ρ) (h : Heap σ) (d : Dele) (x : Args α) :
    DelegateNest.invoke ms h d x = if h d.inst = none then none else some (method ms d.inst x) := by
  cases e : h d.inst <;> cases x <;> simp [DelegateNest.invoke, DelegateNest.callOn, e, method]

theorem static_method (ms : DelegateNest.Methods σ α ρ) (h : Heap σ) (a : Nat) (x : Args α) :
    DelegateNest.invokeStatic ms h a x = if h a = none then none else some (method ms a x) := by
  cases e : h a <;> cases x <;> simp [DelegateNest.invokeStatic, DelegateNest.callOn, e, method]

/-- The delegates hold the addresses they were last given. -/
def Names (t : List (Op σ α)) (s : State σ) : Prop := ∀ k, (s.deles k).map Dele.inst = address k t

/-- How the outcome of the model shows an outcome of the specification. -/
def Shows : Res (State σ × ρ) → Res (List (Op σ α) × Heap σ × ρ) → Prop
  | .ub, .ub => True
  | .ok (s, r), .ok (t, h, r') => Names t s ∧ s.heap = h ∧ r = r'
  | _, _ => False

theorem names_make {t : List (Op σ α)} {s : State σ} (hn : Names t s) (i a : Nat) :
    Names (.make i a :: t) { s with deles := fun k => if k = i then some (.mk' a) else s.deles k } := by
  intro k
  show (if k = i then some _ else s.deles k).map _ = if i = k then some a else address k t
  by_cases hk : k = i
  · subst hk; rw [if_pos rfl, if_pos rfl]; rfl
  · rw [if_neg hk, if_neg (Ne.symm hk), hn]

theorem names_assign {t : List (Op σ α)} {s : State σ} (hn : Names t s) (i j : Nat) (d : Dele) (e : s.deles j = some d) :
    Names (.assign i j :: t) { s with deles := fun k => if k = i then some d else s.deles k } := by
  have hj := hn j
  rw [e] at hj
  intro k
  show (if k = i then some d else s.deles k).map _ = if i = k then address j t else address k t
  by_cases hk : k = i
  · subst hk; rw [if_pos rfl, if_pos rfl, ← hj]
  · rw [if_neg hk, if_neg (Ne.symm hk), hn]

/-- What happens first in a call on the address `oa`. -/
def first (ms : DelegateNest.Methods σ α ρ) (h : Heap σ) (x : Args α) : Option Nat → Next σ α ρ
  | none => .ub
  | some a => if h a = none then .ub else .body (method ms a x)

/-- What `begin` says about a call. -/
theorem begin_call (ms : DelegateNest.Methods σ α ρ) {t : List (Op σ α)} {s : State σ} (hn : Names t s) {o : Op σ α} {oa : Option Nat} {x : Args α} (c : Calls t o oa x) :
    Names (o :: t) s ∧ DelegateNest.begin ms s o = first ms s.heap x oa := by
  cases c with
  | invoke k x =>
    refine ⟨hn, ?_⟩
    rw [← hn k]
    cases e : s.deles k with
    | none => simp [DelegateNest.begin, e, first]
    | some d =>
      simp only [DelegateNest.begin, e, invoke_method, Option.map_some, first]
      by_cases hd : s.heap d.inst = none <;> simp [hd]
  | static a x =>
    refine ⟨hn, ?_⟩
    simp only [DelegateNest.begin, static_method, first]
    by_cases hd : s.heap a = none <;> simp [hd]

theorem exec_does (ms : DelegateNest.Methods σ α ρ) : ∀ (n : Nat) (t : List (Op σ α)) (s : State σ) (p : Prog σ α ρ) (e : Res (State σ × ρ)), Names t s →
    exec ms n s p = some e → ∃ e', Does ms t s.heap p e' ∧ Shows e e'
  | 0, _, _, _, _, _, h => by cases h
  | n + 1, t, s, .ret r, e, hn, h => by
    simp only [exec, Option.some.injEq] at h
    subst h
    exact ⟨_, .ret _ _ _, hn, rfl, rfl⟩
  | n + 1, t, s, .look k, e, hn, h => by
    obtain ⟨e', q1, q2⟩ := exec_does ms n t s _ e hn h
    exact ⟨e', .look _ _ _ _ q1, q2⟩
  | n + 1, t, s, .op o k, e, hn, h => by
    have hcall : ∀ oa x, Calls t o oa x → ∃ e', Does ms t s.heap (.op o k) e' ∧ Shows e e' := by
      intro oa x c
      obtain ⟨n1, hb⟩ := begin_call ms hn c
      simp only [exec, hb, first] at h
      cases oa with
      | none =>
        simp only [Option.some.injEq] at h
        subst h
        exact ⟨.ub, .nobody _ _ _ _ _ c, trivial⟩
      | some a =>
        by_cases hd : s.heap a = none
        · simp only [hd, if_true, Option.some.injEq] at h
          subst h
          exact ⟨.ub, .dead _ _ _ _ _ _ c hd, trivial⟩
        · simp only [hd, if_false] at h
          cases hx : exec ms n s (method ms a x) with
          | none => rw [hx] at h; cases h
          | some y =>
            obtain ⟨y', q1, q2⟩ := exec_does ms n (o :: t) s _ y n1 hx
            rw [hx] at h
            cases y with
            | ub =>
              simp only [Option.some.injEq] at h
              subst h
              cases y' with
              | ub => exact ⟨.ub, .inside _ _ _ _ _ _ c hd q1, trivial⟩
              | ok z => exact q2.elim
            | ok z =>
              cases y' with
              | ub => exact q2.elim
              | ok w =>
                obtain ⟨w1, w2, w3⟩ := w
                obtain ⟨n2, hh, hr⟩ := q2
                obtain ⟨e', q3, q4⟩ := exec_does ms n w1 z.1 _ e n2 h
                exact ⟨e', .call _ _ _ _ _ _ _ _ _ _ c hd q1 (by rw [← hh, ← hr]; exact q3), q4⟩
    cases o with
    | invoke d x => exact hcall _ _ (.invoke d x)
    | static a x => exact hcall _ _ (.static a x)
    | create a x =>
      obtain ⟨e', q1, q2⟩ := exec_does ms n (.create a x :: t) { s with heap := fun b => if b = a then some x else s.heap b } _ e hn h
      exact ⟨e', .born _ _ _ _ _ _ _ (by simp) (fun b hb => by simp [hb]) q1, q2⟩
    | destroy a =>
      cases ha : s.heap a with
      | none =>
        simp only [exec, DelegateNest.begin, ha, Option.some.injEq] at h
        subst h
        exact ⟨.ub, .nothing _ _ _ _ ha, trivial⟩
      | some y =>
        simp only [exec, DelegateNest.begin, ha] at h
        obtain ⟨e', q1, q2⟩ := exec_does ms n (.destroy a :: t) { s with heap := fun b => if b = a then none else s.heap b } _ e hn h
        exact ⟨e', .dies _ _ _ _ _ _ (by simp [ha]) (by simp) (fun b hb => by simp [hb]) q1, q2⟩
    | make i a =>
      obtain ⟨e', q1, q2⟩ := exec_does ms n (.make i a :: t) _ _ e (names_make hn i a) h
      exact ⟨e', .made _ _ _ _ _ _ q1, q2⟩
    | assign i j =>
      have hj := hn j
      cases ej : s.deles j with
      | none =>
        simp only [exec, DelegateNest.begin, ej, Option.some.injEq] at h
        subst h
        exact ⟨.ub, .unknown _ _ _ _ _ (by rw [← hj, ej]; rfl), trivial⟩
      | some d =>
        simp only [exec, DelegateNest.begin, ej] at h
        obtain ⟨e', q1, q2⟩ := exec_does ms n (.assign i j :: t) _ _ e (names_assign hn i j d ej) h
        exact ⟨e', .copied _ _ _ _ _ _ (by rw [← hj, ej]; simp) q1, q2⟩

theorem exec_mono (ms : DelegateNest.Methods σ α ρ) : ∀ (n m : Nat) (s : State σ) (p : Prog σ α ρ) (e : Res (State σ × ρ)), n ≤ m →
    exec ms n s p = some e → exec ms m s p = some e
  | 0, _, _, _, _, _, h => by cases h
  | n + 1, 0, _, _, _, hm, _ => by omega
  | n + 1, m + 1, s, .ret r, e, _, h => h
  | n + 1, m + 1, s, .look k, e, hm, h => exec_mono ms n m s _ e (by omega) h
  | n + 1, m + 1, s, .op o k, e, hm, h => by
    simp only [exec] at h ⊢
    cases hb : DelegateNest.begin ms s o with
    | state s' => rw [hb] at h; exact exec_mono ms n m s' _ e (by omega) h
    | ub => rw [hb] at h; exact h
    | body p =>
      rw [hb] at h
      simp only at h ⊢
      cases hx : exec ms n s p with
      | none => rw [hx] at h; cases h
      | some y =>
        rw [exec_mono ms n m s p y (by omega) hx]
        rw [hx] at h
        cases y with
        | ub => exact h
        | ok z => exact exec_mono ms n m z.1 _ e (by omega) h

theorem does_exec (ms : DelegateNest.Methods σ α ρ) {t : List (Op σ α)} {h : Heap σ} {p : Prog σ α ρ} {e' : Res (List (Op σ α) × Heap σ × ρ)} (d : Does ms t h p e') :
    ∀ s : State σ, Names t s → s.heap = h → ∃ n e, exec ms n s p = some e ∧ Shows e e' := by
  induction d with
  | ret t h r => exact fun s hn hh => ⟨1, _, rfl, hn, hh, rfl⟩
  | look t h k e _ ih =>
    intro s hn hh
    obtain ⟨n, e, q1, q2⟩ := ih s hn hh
    exact ⟨n + 1, e, by simp only [exec, hh]; exact q1, q2⟩
  | born t h a x k h' e here else_ _ ih =>
    intro s hn hh
    obtain ⟨n, e, q1, q2⟩ := ih { s with heap := fun b => if b = a then some x else s.heap b } hn (funext fun b => by
      by_cases hb : b = a
      · subst hb; simp [here]
      · simp [hb, else_ b hb, hh])
    exact ⟨n + 1, e, q1, q2⟩
  | dies t h a k h' e lives here else_ _ ih =>
    intro s hn hh
    obtain ⟨n, e, q1, q2⟩ := ih { s with heap := fun b => if b = a then none else s.heap b } hn (funext fun b => by
      by_cases hb : b = a
      · subst hb; simp [here]
      · simp [hb, else_ b hb, hh])
    subst hh
    obtain ⟨y, hy⟩ := Option.ne_none_iff_exists'.1 lives
    exact ⟨n + 1, e, by simp only [exec, DelegateNest.begin, hy]; exact q1, q2⟩
  | nothing t h a k dead =>
    intro s hn hh
    exact ⟨1, .ub, by simp [exec, DelegateNest.begin, hh, dead], trivial⟩
  | made t h i a k e _ ih =>
    intro s hn hh
    obtain ⟨n, e, q1, q2⟩ := ih _ (names_make hn i a) hh
    exact ⟨n + 1, e, q1, q2⟩
  | copied t h i j k e known _ ih =>
    intro s hn hh
    have hj := hn j
    cases ej : s.deles j with
    | none => rw [ej] at hj; exact absurd hj.symm known
    | some d =>
      obtain ⟨n, e, q1, q2⟩ := ih _ (names_assign hn i j d ej) hh
      exact ⟨n + 1, e, by simp only [exec, DelegateNest.begin, ej]; exact q1, q2⟩
  | unknown t h i j k no =>
    intro s hn hh
    have hj := hn j
    cases ej : s.deles j with
    | none => exact ⟨1, .ub, by simp [exec, DelegateNest.begin, ej], trivial⟩
    | some d => rw [ej, no] at hj; cases hj
  | call t h o k a x t' h' r e c lives _ _ ih1 ih2 =>
    intro s hn hh
    obtain ⟨n1, hb⟩ := begin_call ms hn c
    obtain ⟨n, e1, q1, q2⟩ := ih1 s n1 hh
    cases e1 with
    | ub => exact q2.elim
    | ok z =>
      obtain ⟨n2, hz, hr⟩ := q2
      obtain ⟨m, e2, q3, q4⟩ := ih2 z.1 n2 hz
      refine ⟨max n m + 1, e2, ?_, q4⟩
      simp only [exec, hb, first, hh, lives, if_false]
      rw [exec_mono ms n _ s _ _ (Nat.le_max_left n m) q1]
      show exec ms (max n m) z.1 (k (some z.2)) = some e2
      rw [hr]
      exact exec_mono ms m _ _ _ _ (Nat.le_max_right n m) q3
  | inside t h o k a x c lives _ ih =>
    intro s hn hh
    obtain ⟨n1, hb⟩ := begin_call ms hn c
    obtain ⟨n, e1, q1, q2⟩ := ih s n1 hh
    cases e1 with
    | ok z => exact q2.elim
    | ub => exact ⟨n + 1, .ub, by simp [exec, hb, first, hh, lives, q1], trivial⟩
  | dead t h o k a x c no =>
    intro s hn hh
    obtain ⟨_, hb⟩ := begin_call ms hn c
    exact ⟨1, .ub, by simp [exec, hb, first, hh, no], trivial⟩
  | nobody t h o k x c =>
    intro s hn hh
    obtain ⟨_, hb⟩ := begin_call ms hn c
    exact ⟨1, .ub, by simp [exec, hb, first], trivial⟩
end DeleNest

/-- **C134** with methods that are programs themselves, may change every object and every delegate (also the one they were called through) and invoke delegates to any
    depth: the program ends with these objects and this result exactly if the one does that calls the methods directly on the address each delegate was last given. -/
theorem c134_nested {σ α ρ : Type} (ms : DelegateNest.Methods σ α ρ) (start : Heap σ) (p : Prog σ α ρ) (h' : Heap σ) (r : ρ) :
    (∃ n s, exec ms n ⟨start, fun _ => none⟩ p = some (.ok (s, r)) ∧ s.heap = h') ↔ ∃ t, Does ms [] start p (.ok (t, h', r)) := by
  have n0 : DeleNest.Names ([] : List (Op σ α)) ⟨start, fun _ => none⟩ := fun _ => rfl
  constructor
  · rintro ⟨n, s, e, rfl⟩
    obtain ⟨e', q1, q2⟩ := DeleNest.exec_does ms n [] _ p _ n0 e
    cases e' with
    | ub => exact q2.elim
    | ok w =>
      obtain ⟨w1, w2, w3⟩ := w
      obtain ⟨_, hh, hr⟩ := q2
      subst hh hr
      exact ⟨w1, q1⟩
  · rintro ⟨t, d⟩
    obtain ⟨n, e, q1, q2⟩ := DeleNest.does_exec ms d ⟨start, fun _ => none⟩ n0 rfl
    cases e with
    | ub => exact q2.elim
    | ok z =>
      obtain ⟨_, hh, hr⟩ := q2
      exact ⟨n, z.1, by rw [← hr]; exact q1, hh⟩

/-- **C134**, the undefined programs: exactly those are undefined that use a delegate never constructed, or call or destroy where no object lives, without delegates too. -/
theorem c134_nested_undefined {σ α ρ : Type} (ms : DelegateNest.Methods σ α ρ) (start : Heap σ) (p : Prog σ α ρ) :
    (∃ n, exec ms n ⟨start, fun _ => none⟩ p = some .ub) ↔ Does ms [] start p .ub := by
  have n0 : DeleNest.Names ([] : List (Op σ α)) ⟨start, fun _ => none⟩ := fun _ => rfl
  constructor
  · rintro ⟨n, e⟩
    obtain ⟨e', q1, q2⟩ := DeleNest.exec_does ms n [] _ p _ n0 e
    cases e' with
    | ub => exact q1
    | ok w => exact q2.elim
  · intro d
    obtain ⟨n, e, q1, q2⟩ := DeleNest.does_exec ms d ⟨start, fun _ => none⟩ n0 rfl
    cases e with
    | ub => exact ⟨n, q1⟩
    | ok z => exact q2.elim

/-- A method that points the delegate it was called through to the next object and invokes it, until the last: `m1` of the object at `a` adds its argument to the object. -/
def DeleNest.chain : DelegateNest.Methods Nat Nat Nat where
  m0 := fun a => .ret a
  m1 := fun a x => .look fun h => .op (.create a ((h a).getD 0 + x)) fun _ =>
    if a = 0 then .ret x else .op (.make 7 (a - 1)) fun _ => .op (.invoke 7 (.a1 (x + 1))) fun r => .ret (r.getD 0)
  m2 := fun _ _ _ => .ret 0
  m3 := fun _ _ _ _ => .ret 0
  m4 := fun _ _ _ _ _ => .ret 0
  m5 := fun _ _ _ _ _ _ => .ret 0

-- Three objects, one delegate that its own method moves on: each object gets its number, the result is that of the last call.
example : ∃ n s, exec DeleNest.chain n ⟨fun a => if a < 3 then some (10 * a) else none, fun _ => none⟩ (.op (.make 7 2) fun _ => .op (.invoke 7 (.a1 5)) fun r => .ret (r.getD 0)) =
    some (.ok (s, 7)) ∧ s.heap 2 = some 25 ∧ s.heap 1 = some 16 ∧ s.heap 0 = some 7 :=
  ⟨20, _, rfl, rfl, rfl, rfl⟩

-- A method destroys its own object; the second call through the delegate is undefined.
example : ∃ n, exec (σ := Nat) (α := Nat) (ρ := Nat) ⟨fun a => .op (.destroy a) fun _ => .ret 1, fun _ _ => .ret 0, fun _ _ _ => .ret 0, fun _ _ _ _ => .ret 0, fun _ _ _ _ _ => .ret 0,
    fun _ _ _ _ _ _ => .ret 0⟩ n ⟨fun _ => some 4, fun _ => none⟩ (.op (.make 0 3) fun _ => .op (.invoke 0 .a0) fun _ => .op (.invoke 0 .a0) fun _ => .ret 9) = some .ub :=
  ⟨20, rfl⟩

end Atl.Props
