import Verif.Spec.DelegateLife

namespace Atl.Props
open Atl.Delegate (Heap Args)
open Atl.DelegateLife Atl.Spec.DelegateLife

namespace DeleLife
variable {σ α ρ : Type}

theorem invoke_method (ms : Methods σ α ρ) (h : Heap σ) (d : Delegate.Dele) (x : Args α) : DelegateLife.invoke ms h d x = callOn h d.inst (method ms · x) := by
  cases x <;> rfl

theorem static_method (ms : Methods σ α ρ) (h : Heap σ) (a : Nat) (x : Args α) : invokeStatic ms h a x = callOn h a (method ms · x) := by
  cases x <;> rfl

/-- The delegates hold the addresses they were last given. -/
def Names (before : List (Op σ α)) (s : DelegateLife.State σ) : Prop := ∀ k, (s.deles k).map Delegate.Dele.inst = address k before

theorem call_iff (ms : Methods σ α ρ) (h : Heap σ) (a : Nat) (x : Args α) (h' : Heap σ) (r : ρ) :
    callOn h a (method ms · x) = .ok (h', r) ↔ h a ≠ none ∧ method ms a x h = .ok (h', r) := by
  cases e : h a <;> simp [callOn, e]

/-- One operation does what it does without delegates, and is undefined otherwise. -/
theorem step_iff (ms : Methods σ α ρ) {before : List (Op σ α)} {s : DelegateLife.State σ} (hn : Names before s) (o : Op σ α) (s' : DelegateLife.State σ) (r : Option ρ) :
    s.step ms o = .ok (s', r) → Names (o :: before) s' ∧
      ((without before o = some none ∧ s'.heap = s.heap ∧ r = none) ∨ ∃ e, without before o = some (some e) ∧ Meets ms s.heap e s'.heap r) := by
  intro hs
  cases o with
  | create a x =>
    simp only [DelegateLife.State.step, Res.ok.injEq, Prod.mk.injEq] at hs
    obtain ⟨rfl, rfl⟩ := hs
    exact ⟨hn, .inr ⟨_, rfl, .born a x _ (by simp) (fun b hb => by simp [hb])⟩⟩
  | destroy a =>
    cases e : s.heap a with
    | none => simp [DelegateLife.State.step, e] at hs
    | some y =>
      simp only [DelegateLife.State.step, e, Res.ok.injEq, Prod.mk.injEq] at hs
      obtain ⟨rfl, rfl⟩ := hs
      exact ⟨hn, .inr ⟨_, rfl, .dies a _ (by simp [e]) (by simp) (fun b hb => by simp [hb])⟩⟩
  | make k inst =>
    simp only [DelegateLife.State.step, Res.ok.injEq, Prod.mk.injEq] at hs
    obtain ⟨rfl, rfl⟩ := hs
    refine ⟨fun i => ?_, .inl ⟨rfl, rfl, rfl⟩⟩
    show (if i = k then some _ else s.deles i).map _ = if k = i then some inst else address i before
    by_cases hk : i = k
    · subst hk; rw [if_pos rfl, if_pos rfl]; rfl
    · rw [if_neg hk, if_neg (Ne.symm hk), hn]
  | assign k j =>
    cases e : s.deles j with
    | none => simp [DelegateLife.State.step, e] at hs
    | some d =>
      simp only [DelegateLife.State.step, e, Res.ok.injEq, Prod.mk.injEq] at hs
      obtain ⟨rfl, rfl⟩ := hs
      have hj := hn j
      rw [e] at hj
      refine ⟨fun i => ?_, .inl ⟨by simp [without, ← hj], rfl, rfl⟩⟩
      show (if i = k then some d else s.deles i).map _ = if k = i then address j before else address i before
      by_cases hk : i = k
      · subst hk; rw [if_pos rfl, if_pos rfl, ← hj]
      · rw [if_neg hk, if_neg (Ne.symm hk), hn]
  | invoke k x =>
    cases e : s.deles k with
    | none => simp [DelegateLife.State.step, e] at hs
    | some d =>
      have hj := hn k
      rw [e] at hj
      simp only [DelegateLife.State.step, e, invoke_method] at hs
      cases c : callOn s.heap d.inst (method ms · x) with
      | ub => rw [c] at hs; cases hs
      | ok p =>
        rw [c] at hs
        simp only [Res.bind_ok, Res.ok.injEq, Prod.mk.injEq] at hs
        obtain ⟨rfl, rfl⟩ := hs
        obtain ⟨q1, q2⟩ := (call_iff ms _ _ _ p.1 p.2).1 c
        exact ⟨hn, .inr ⟨.call d.inst x, by simp [without, ← hj], .call _ _ _ _ q1 q2⟩⟩
  | static a x =>
    simp only [DelegateLife.State.step, static_method] at hs
    cases c : callOn s.heap a (method ms · x) with
    | ub => rw [c] at hs; cases hs
    | ok p =>
      rw [c] at hs
      simp only [Res.bind_ok, Res.ok.injEq, Prod.mk.injEq] at hs
      obtain ⟨rfl, rfl⟩ := hs
      obtain ⟨q1, q2⟩ := (call_iff ms _ _ _ p.1 p.2).1 c
      exact ⟨hn, .inr ⟨.call a x, rfl, .call _ _ _ _ q1 q2⟩⟩

theorem step_quiet (ms : Methods σ α ρ) {before : List (Op σ α)} {s : DelegateLife.State σ} (hn : Names before s) (o : Op σ α) (w : without before o = some none) :
    ∃ s', s.step ms o = .ok (s', none) ∧ s'.heap = s.heap := by
  cases o with
  | make k inst => exact ⟨_, rfl, rfl⟩
  | assign k j =>
    cases e : s.deles j with
    | none => have := hn j; rw [e] at this; simp [without, ← this] at w
    | some d => exact ⟨{ s with deles := fun i => if i = k then some d else s.deles i }, by simp [DelegateLife.State.step, e], rfl⟩
  | invoke k x => cases e : address k before <;> simp [without, e] at w
  | _ => simp [without] at w

theorem step_act (ms : Methods σ α ρ) {before : List (Op σ α)} {s : DelegateLife.State σ} (hn : Names before s) (o : Op σ α) (e : Act σ α) (h1 : Heap σ) (r : Option ρ)
    (w : without before o = some (some e)) (m : Meets ms s.heap e h1 r) : ∃ s', s.step ms o = .ok (s', r) ∧ s'.heap = h1 := by
  cases o with
  | create a x =>
    simp only [without, Option.some.injEq] at w
    subst w
    cases m with
    | born _ _ _ q1 q2 =>
      refine ⟨_, rfl, funext fun b => ?_⟩
      show (if b = a then some x else s.heap b) = h1 b
      by_cases hb : b = a
      · subst hb; rw [if_pos rfl, q1]
      · rw [if_neg hb, q2 b hb]
  | destroy a =>
    simp only [without, Option.some.injEq] at w
    subst w
    cases m with
    | dies _ _ q0 q1 q2 =>
      obtain ⟨y, hy⟩ := Option.ne_none_iff_exists'.1 q0
      refine ⟨{ s with heap := fun b => if b = a then none else s.heap b }, by simp [DelegateLife.State.step, hy], funext fun b => ?_⟩
      show (if b = a then none else s.heap b) = h1 b
      by_cases hb : b = a
      · subst hb; rw [if_pos rfl, q1]
      · rw [if_neg hb, q2 b hb]
  | make k inst => simp [without] at w
  | assign k j => cases e : address j before <;> simp [without, e] at w
  | invoke k x =>
    cases ea : address k before with
    | none => simp [without, ea] at w
    | some a =>
      simp only [without, ea, Option.map_some, Option.some.injEq] at w
      subst w
      have hk := hn k
      rw [ea] at hk
      obtain ⟨d, ed, rfl⟩ := Option.map_eq_some_iff.1 hk
      cases m with
      | call _ _ _ r q1 q2 =>
        have c := (call_iff ms s.heap d.inst x h1 r).2 ⟨q1, q2⟩
        exact ⟨{ s with heap := h1 }, by simp [DelegateLife.State.step, ed, invoke_method, c], rfl⟩
  | static a x =>
    simp only [without, Option.some.injEq] at w
    subst w
    cases m with
    | call _ _ _ r q1 q2 =>
      have c := (call_iff ms s.heap a x h1 r).2 ⟨q1, q2⟩
      exact ⟨{ s with heap := h1 }, by simp [DelegateLife.State.step, static_method, c], rfl⟩

theorem run_does (ms : Methods σ α ρ) : ∀ (os : List (Op σ α)) (before : List (Op σ α)) (s : DelegateLife.State σ), Names before s → ∀ s' rs,
    s.run ms os = .ok (s', rs) → Does ms before s.heap os s'.heap rs
  | [], before, s, _, s', rs, h => by
    simp only [DelegateLife.State.run, Res.ok.injEq, Prod.mk.injEq] at h
    obtain ⟨rfl, rfl⟩ := h
    exact .done _ _
  | o :: os, before, s, hn, s', rs, h => by
    simp only [DelegateLife.State.run] at h
    cases e1 : s.step ms o with
    | ub => rw [e1] at h; cases h
    | ok p =>
      rw [e1] at h
      simp only [Res.bind_ok] at h
      cases e2 : p.1.run ms os with
      | ub => rw [e2] at h; cases h
      | ok q =>
        rw [e2] at h
        simp only [Res.bind_ok, Res.ok.injEq, Prod.mk.injEq] at h
        obtain ⟨rfl, rfl⟩ := h
        obtain ⟨n1, c⟩ := step_iff ms hn o p.1 p.2 e1
        have ih := run_does ms os _ p.1 n1 q.1 q.2 e2
        rcases c with ⟨w, hh, hr⟩ | ⟨e, w, m⟩
        · rw [hr]
          rw [hh] at ih
          exact .quiet _ _ _ _ _ _ w ih
        · exact .act _ _ _ _ e _ _ _ _ w m ih

theorem does_run (ms : Methods σ α ρ) {before os : List (Op σ α)} {h h' : Heap σ} {rs : List ρ} (d : Does ms before h os h' rs) :
    ∀ s : DelegateLife.State σ, Names before s → s.heap = h → ∃ s', s.run ms os = .ok (s', rs) ∧ s'.heap = h' := by
  induction d with
  | done before h => exact fun s _ hh => ⟨s, rfl, hh⟩
  | quiet before h o os h' rs w _ ih =>
    intro s hn hh
    obtain ⟨s1, q1, q2⟩ := step_quiet ms hn o w
    obtain ⟨s2, q3, q4⟩ := ih s1 (step_iff ms hn o _ _ q1).1 (q2.trans hh)
    exact ⟨s2, by simp [DelegateLife.State.run, q1, q3], q4⟩
  | act before h o os e h1 h' r rs w m _ ih =>
    intro s hn hh
    subst hh
    obtain ⟨s1, q1, q2⟩ := step_act ms hn o e h1 r w m
    obtain ⟨s2, q3, q4⟩ := ih s1 (step_iff ms hn o _ _ q1).1 q2
    exact ⟨s2, by simp [DelegateLife.State.run, q1, q3], q4⟩
end DeleLife

/-- **C134** with objects that come and go and methods that may do anything to any object: a program with delegates is defined, with these objects and results at the
    end, exactly if the program is that calls the methods directly on the address each delegate was last given. -/
theorem c134_lifetimes {σ α ρ : Type} (ms : Methods σ α ρ) (start : Heap σ) (os : List (Op σ α)) (h' : Heap σ) (rs : List ρ) :
    (∃ s, DelegateLife.State.run ms ⟨start, fun _ => none⟩ os = .ok (s, rs) ∧ s.heap = h') ↔ Does ms [] start os h' rs := by
  have n0 : DeleLife.Names ([] : List (Op σ α)) ⟨start, fun _ => none⟩ := fun _ => rfl
  constructor
  · rintro ⟨s, e, rfl⟩
    exact DeleLife.run_does ms os [] _ n0 s rs e
  · exact fun d => DeleLife.does_run ms d _ n0 rfl

/-- **C134**, false for objects that die: a delegate whose object was destroyed is undefined to invoke, and when a new object lies at that address, the call reaches
    the new object: the delegate does what the static call on it does, whatever the first object was. -/
theorem c134_dangling_fails {σ α ρ : Type} (ms : Methods σ α ρ) (start : Heap σ) (p : Nat) (s s' : σ) (x : Args α) :
    DelegateLife.State.run ms ⟨start, fun _ => none⟩ [.create p s, .make 0 p, .destroy p, .invoke 0 x] = .ub ∧
    ∀ h rs, (∃ t, DelegateLife.State.run ms ⟨start, fun _ => none⟩ [.create p s, .make 0 p, .destroy p, .create p s', .invoke 0 x] = .ok (t, rs) ∧ t.heap = h) ↔
      ∃ t, DelegateLife.State.run ms ⟨start, fun _ => none⟩ [.create p s', .static p x] = .ok (t, rs) ∧ t.heap = h := by
  refine ⟨by simp [DelegateLife.State.run, DelegateLife.State.step, Delegate.Dele.mk', DeleLife.invoke_method, callOn], fun h rs => ?_⟩
  have hh : (fun b => if b = p then some s' else if b = p then none else if b = p then some s else start b) = fun b => if b = p then some s' else start b := by
    funext b
    by_cases hb : b = p <;> simp [hb]
  simp only [DelegateLife.State.run, DelegateLife.State.step, Delegate.Dele.mk', DeleLife.invoke_method, DeleLife.static_method, Res.bind_ok, if_true, hh]
  cases callOn (fun b => if b = p then some s' else start b) p (method ms · x) with
  | ub => constructor <;> (rintro ⟨t, e, -⟩; cases e)
  | ok q =>
    simp only [Res.bind_ok, Res.ok.injEq, Prod.mk.injEq]
    constructor
    · rintro ⟨t, ⟨rfl, er⟩, eh⟩
      exact ⟨_, ⟨rfl, er⟩, eh⟩
    · rintro ⟨t, ⟨rfl, er⟩, eh⟩
      exact ⟨_, ⟨rfl, er⟩, eh⟩

/-- A class for the examples (its methods are the `Callback`s of Delegate.h 42, 65): method 0 destroys the next object, method 1 adds to its own. -/
def deleDemo : Methods Int Int Int :=
  ⟨fun t h => .ok (fun b => if b = t + 2 then none else h b, 0), fun t x h => .ok (fun b => if b = t then (h b).map (· + x) else h b, (h t).getD 0),
   fun _ _ _ h => .ok (h, 0), fun _ _ _ _ h => .ok (h, 0), fun _ _ _ _ _ h => .ok (h, 0), fun _ _ _ _ _ _ h => .ok (h, 0)⟩

example : (match DelegateLife.State.run deleDemo ⟨fun _ => none, fun _ => none⟩
      [.create 4 10, .create 6 20, .make 0 4, .make 1 6, .invoke 1 (.a1 5), .invoke 0 .a0, .assign 2 0, .invoke 2 (.a1 7), .create 6 1, .invoke 1 (.a1 2)] with
    | .ok (s, rs) => some (s.heap 4, s.heap 6, rs)
    | .ub => none) = some (some 17, some 3, [20, 0, 10, 1]) := by decide

example : (match DelegateLife.State.run deleDemo ⟨fun _ => none, fun _ => none⟩ [.create 4 10, .create 6 20, .make 0 4, .make 1 6, .invoke 0 .a0, .invoke 1 (.a1 5)] with
    | .ok _ => false
    | .ub => true) = true := by decide

end Atl.Props
