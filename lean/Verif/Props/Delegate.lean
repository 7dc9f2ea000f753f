import Verif.Spec.Delegate

namespace Atl.Props
open Atl.Delegate Atl.Spec.Delegate

namespace Dele
variable {σ α ρ : Type}

theorem invoke_direct (ms : Methods σ α ρ) (h : Heap σ) (d : Delegate.Dele) (a : Args α) : d.invoke ms h a = callOn h d.inst (direct ms a) := by
  cases a <;> rfl

theorem static_direct (ms : Methods σ α ρ) (h : Heap σ) (o : Nat) (a : Args α) : invokeStatic ms h o a = callOn h o (direct ms a) := by
  cases a <;> rfl

theorem sees_append (ms : Methods σ α ρ) (s : σ) (l k : List (Args α)) : sees ms s (l ++ k) = sees ms (sees ms s l) k := List.foldl_append

theorem mine_append (o : Nat) (l k : List (Nat × Args α)) : mine o (l ++ k) = mine o l ++ mine o k := by simp [mine]

/-- The state of the program after `before` (last first), in which the calls `c` were made. -/
structure After (ms : Methods σ α ρ) (start : Nat → Option σ) (before : List (Op α)) (c : List (Nat × Args α)) (s : Delegate.State σ) : Prop where
  deles : ∀ k, (s.deles k).map Delegate.Dele.inst = standsFor k before
  heap : ∀ a, s.heap a = (start a).map fun x => sees ms x (mine a c)

theorem after_call {ms : Methods σ α ρ} {start : Nat → Option σ} {before : List (Op α)} {c : List (Nat × Args α)} {s : Delegate.State σ} (h : After ms start before c s)
    (o : Op α) (hs : ∀ k, standsFor k (o :: before) = standsFor k before) (inst : Nat) (a : Args α) (x : σ) (hx : start inst = some x) :
    ∃ hp, callOn s.heap inst (direct ms a) = .ok (hp, (direct ms a (sees ms x (mine inst c))).2) ∧
      After ms start (o :: before) (c ++ [(inst, a)]) { s with heap := hp } := by
  have e : s.heap inst = some (sees ms x (mine inst c)) := by rw [h.heap, hx]; rfl
  refine ⟨_, by simp only [callOn, e]; rfl, fun k => by rw [hs]; exact h.deles k, fun b => ?_⟩
  show (if b = inst then _ else s.heap b) = _
  by_cases hb : b = inst
  · subst hb
    rw [if_pos rfl, hx, mine_append]
    simp only [Option.map_some, sees_append]
    simp [mine, sees]
  · rw [if_neg hb, h.heap, mine_append]
    have : mine b [(inst, a)] = [] := by simp [mine, Ne.symm hb]
    rw [this, List.append_nil]

theorem run_sound {ms : Methods σ α ρ} {start : Nat → Option σ} : ∀ (os : List (Op α)) {before : List (Op α)} {c : List (Nat × Args α)} {s : Delegate.State σ},
    After ms start before c s → Sound start before os →
    ∃ s' rs, s.run ms os = .ok (s', rs) ∧ After ms start (os.reverse ++ before) (c ++ calls before os) s' ∧ rs.length = (calls before os).length ∧
      ∀ i, i < rs.length → rs[i]? = result ms start (c ++ calls before os) (c.length + i)
  | [], before, c, s, h, _ => ⟨s, [], rfl, by simpa [calls] using h, rfl, fun i hi => by simp at hi⟩
  | o :: os, before, c, s, h, hs => by
    obtain ⟨h1, h2⟩ := hs
    have quiet : ∀ s', s.step ms o = .ok (s', none) → meant before o = none → After ms start (o :: before) c s' →
        ∃ s' rs, s.run ms (o :: os) = .ok (s', rs) ∧ After ms start ((o :: os).reverse ++ before) (c ++ calls before (o :: os)) s' ∧
          rs.length = (calls before (o :: os)).length ∧ ∀ i, i < rs.length → rs[i]? = result ms start (c ++ calls before (o :: os)) (c.length + i) := by
      intro s1 e1 e2 a1
      obtain ⟨s', rs, q1, q2, q3, q4⟩ := run_sound os a1 h2
      refine ⟨s', rs, by simp only [Delegate.State.run, e1, Res.bind_ok, q1]; rfl, ?_, ?_, ?_⟩
      · simpa [calls, e2] using q2
      · simpa [calls, e2] using q3
      · simpa [calls, e2] using q4
    have loud : ∀ s' inst a x r, s.step ms o = .ok (s', some r) → meant before o = some (inst, a) → start inst = some x →
        r = (direct ms a (sees ms x (mine inst c))).2 → After ms start (o :: before) (c ++ [(inst, a)]) s' →
        ∃ s' rs, s.run ms (o :: os) = .ok (s', rs) ∧ After ms start ((o :: os).reverse ++ before) (c ++ calls before (o :: os)) s' ∧
          rs.length = (calls before (o :: os)).length ∧ ∀ i, i < rs.length → rs[i]? = result ms start (c ++ calls before (o :: os)) (c.length + i) := by
      intro s1 inst a x r e1 e2 hx hr a1
      obtain ⟨s', rs, q1, q2, q3, q4⟩ := run_sound os a1 h2
      refine ⟨s', r :: rs, by simp only [Delegate.State.run, e1, Res.bind_ok, q1]; rfl, ?_, ?_, ?_⟩
      · simpa [calls, e2] using q2
      · simp [calls, e2, q3]
      · intro i hi
        have ec : c ++ calls before (o :: os) = c ++ [(inst, a)] ++ calls (o :: before) os := by simp [calls, e2]
        rw [ec]
        rcases i with _ | i
        · unfold result
          have : (c ++ [(inst, a)] ++ calls (o :: before) os)[c.length + 0]? = some (inst, a) := by simp
          rw [this]
          simp [hx, hr]
        · have := q4 i (by simpa using hi)
          simp only [List.length_append, List.length_cons, List.length_nil] at this
          rw [List.getElem?_cons_succ, this]
          congr 1
          omega
    cases o with
    | make k inst =>
      refine quiet _ rfl rfl ⟨fun i => ?_, h.heap⟩
      show (if i = k then some _ else s.deles i).map _ = if k = i then some inst else standsFor i before
      by_cases hk : i = k
      · subst hk; rw [if_pos rfl, if_pos rfl]; rfl
      · rw [if_neg hk, if_neg (Ne.symm hk), h.deles]
    | assign k j =>
      have hj := h.deles j
      cases e : s.deles j with
      | none => rw [e] at hj; exact absurd hj.symm h1
      | some d =>
        refine quiet { s with deles := fun i => if i = k then some d else s.deles i } (by simp only [State.step, e]) rfl ⟨fun i => ?_, h.heap⟩
        show (if i = k then some d else s.deles i).map _ = if k = i then standsFor j before else standsFor i before
        by_cases hk : i = k
        · subst hk; rw [if_pos rfl, if_pos rfl, ← hj, e]
        · rw [if_neg hk, if_neg (Ne.symm hk), h.deles]
    | invoke k a =>
      obtain ⟨inst, hi, hl⟩ := h1
      obtain ⟨x, hx⟩ := Option.ne_none_iff_exists'.1 hl
      have hk := h.deles k
      rw [hi] at hk
      obtain ⟨d, e, rfl⟩ := Option.map_eq_some_iff.1 hk
      obtain ⟨hp, p1, p2⟩ := after_call h (.invoke k a) (fun _ => rfl) d.inst a x hx
      exact loud _ d.inst a x _ (by simp only [State.step, e, invoke_direct, p1]; rfl) (by simp [meant, hi]) hx rfl p2
    | static inst a =>
      obtain ⟨x, hx⟩ := Option.ne_none_iff_exists'.1 h1
      obtain ⟨hp, p1, p2⟩ := after_call h (.static inst a) (fun _ => rfl) inst a x hx
      exact loud _ inst a x _ (by simp only [State.step, static_direct, p1]; rfl) rfl hx rfl p2

theorem run_unsound {ms : Methods σ α ρ} {start : Nat → Option σ} : ∀ (os : List (Op α)) {before : List (Op α)} {c : List (Nat × Args α)} {s : Delegate.State σ},
    After ms start before c s → ¬ Sound start before os → s.run ms os = .ub
  | [], _, _, _, _, hs => absurd trivial hs
  | o :: os, before, c, s, h, hs => by
    by_cases h1 : Sound start before [o]
    · obtain ⟨s1, r1, q1, q2, -⟩ := run_sound [o] h h1
      have hn : ¬ Sound start (o :: before) os := fun h2 => hs ⟨h1.1, h2⟩
      have := run_unsound os q2 hn
      cases e : s.step ms o with
      | ub => simp only [State.run, e]; rfl
      | ok p =>
        simp only [State.run, e, Res.bind_ok] at q1
        have e2 : p.1 = s1 := by injection q1 with q1; exact (Prod.mk.inj q1).1
        simp only [State.run, e, Res.bind_ok, e2, this]
        rfl
    · have heap_none : ∀ a, start a = none → s.heap a = none := fun a ha => by rw [h.heap, ha]; rfl
      have bad : s.step ms o = .ub := by
        cases o with
        | make k inst => exact absurd ⟨trivial, trivial⟩ h1
        | assign k j =>
          have : standsFor j before = none := Classical.not_not.1 fun hn => h1 ⟨hn, trivial⟩
          rw [← h.deles, Option.map_eq_none_iff] at this
          simp only [State.step, this]
        | invoke k a =>
          cases e : s.deles k with
          | none => simp only [State.step, e]
          | some d =>
            have hd : standsFor k before = some d.inst := by rw [← h.deles, e]; rfl
            have hl : start d.inst = none := Classical.not_not.1 fun hn => h1 ⟨⟨_, hd, hn⟩, trivial⟩
            simp only [State.step, e, invoke_direct, callOn, heap_none _ hl]
            rfl
        | static inst a =>
          have hl : start inst = none := Classical.not_not.1 fun hn => h1 ⟨hn, trivial⟩
          simp only [State.step, static_direct, callOn, heap_none _ hl]
          rfl
      simp only [State.run, bad]
      rfl
end Dele

/-- **C134.** Any program with delegates, any objects, methods and arguments: it is defined exactly when every delegate used was constructed and every object called
    lives; then every object has seen exactly the calls meant for it, in order, with the arguments in order, and every call returns what the method returns there. -/
theorem c134_delegates {σ α ρ : Type} (ms : Methods σ α ρ) (start : Nat → Option σ) (os : List (Op α)) :
    (Sound start [] os → ∃ s rs, Delegate.State.run ms ⟨start, fun _ => none⟩ os = .ok (s, rs) ∧
      (∀ a, s.heap a = (start a).map fun x => sees ms x (mine a (calls [] os))) ∧
      rs.length = (calls [] os).length ∧ ∀ i, i < rs.length → rs[i]? = result ms start (calls [] os) i) ∧
    (¬ Sound start [] os → Delegate.State.run ms ⟨start, fun _ => none⟩ os = .ub) := by
  have h0 : Dele.After ms start ([] : List (Op α)) [] ⟨start, fun _ => none⟩ := ⟨fun _ => rfl, fun a => by
    show start a = _
    cases start a <;> rfl⟩
  refine ⟨fun h => ?_, fun h => Dele.run_unsound os h0 h⟩
  obtain ⟨s, rs, q1, q2, q3, q4⟩ := Dele.run_sound os h0 h
  exact ⟨s, rs, q1, q2.heap, q3, by simpa using q4⟩

/-- Two objects, three delegates, one of them assigned to another: the calls reach the right objects with the right arguments. -/
example : Sound (fun a => if a = 0x100 ∨ a = 0x110 then some (0 : Int) else none)
    [] [.make 0 0x100, .make 1 0x110, .invoke 0 (.a2 7 3), .assign 2 1, .make 1 0x100, .invoke 2 (.a1 5), .invoke 1 .a0, .static 0x110 (.a2 (1 : Int) 2)] := by
  simp [Sound, standsFor]

example : (match Delegate.State.run ⟨fun s => (s, s), fun a s => (s + a, s), fun a b s => (s + a - b, s), fun _ _ _ s => (s, 0), fun _ _ _ _ s => (s, 0), fun _ _ _ _ _ s => (s, 0)⟩
      ⟨fun a => if a = 0x100 ∨ a = 0x110 then some (0 : Int) else none, fun _ => none⟩
      [.make 0 0x100, .make 1 0x110, .invoke 0 (.a2 7 3), .assign 2 1, .make 1 0x100, .invoke 2 (.a1 5), .invoke 1 .a0, .static 0x110 (.a2 (1 : Int) 2)] with
    | .ok (s, rs) => some (s.heap 0x100, s.heap 0x110, rs)
    | .ub => none) = some (some 4, some 4, [(0 : Int), 0, 4, 5]) := by decide

end Atl.Props
