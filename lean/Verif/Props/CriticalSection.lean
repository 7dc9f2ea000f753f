import Verif.Model.CriticalSection

/-!
  C151: main code that uses shared objects between `EnableAll(false)` and `EnableAll()`.
-/
namespace Atl.Props
open Atl.CriticalSection

namespace Sections

/-! ### Specification -/

/-- Main code enters calls of the object only with interrupts off and outside of another call, turns them on only outside of calls; handlers make handlers' calls; all calls are proper. -/
def Now (M : Machine) (b : Board M) : Ev M.Ev → Prop
  | .on => M.idle b.obj
  | .main e => M.proper e ∧ M.kind e ≠ .handler ∧ (M.kind e = .enter → b.on = false ∧ M.idle b.obj)
  | .serve _ as => ∀ a ∈ as, M.proper a ∧ M.kind a = .handler
  | _ => True

/-- So at each event of a history. -/
def Sectioned (M : Machine) : Board M → List (Ev M.Ev) → Prop
  | _, [] => True
  | b, e :: es => Now M b e ∧ ∀ b', step M b e = .ok b' → Sectioned M b' es

/-- A history of the object alone in which calls do not overlap: main code enters a call, and handlers do something, only while main code is outside. -/
def Clean (M : Machine) : M.St → List M.Ev → Prop
  | _, [] => True
  | s, e :: es => (M.proper e ∧ (M.kind e ≠ .within → M.idle s)) ∧ ∀ s', M.step s e = .ok s' → Clean M s' es

/-- Outside of its calls nothing but entering one takes main code into one. -/
def Lawful (M : Machine) : Prop := ∀ s e s', M.idle s → M.kind e ≠ .enter → M.step s e = .ok s' → M.idle s'

/-- What main code does with the object in a history. -/
def ofMain {E : Type} (es : List (Ev E)) : List E := es.filterMap fun | .main e => some e | _ => none

/-- How often source `k` requests. -/
def requests {E : Type} (k : Nat) (es : List (Ev E)) : Nat := (es.filter fun | .request j => j == k | _ => false).length

/-- Interrupts are on after a history: what the last `EnableAll` said, `on` before the first. -/
def turnedOn {E : Type} (on : Bool) : List (Ev E) → Bool
  | [] => on
  | .on :: es => turnedOn true es
  | .off :: es => turnedOn false es
  | _ :: es => turnedOn on es

/-- After a history main code has yet to execute an instruction behind the last `EnableAll()` or opportunity for a handler (`p`: before it). -/
def owed {E : Type} (p : Bool) : List (Ev E) → Bool
  | [] => p
  | .on :: es | .serve _ _ :: es => owed true es
  | .off :: es | .main _ :: es | .other :: es => owed false es
  | .request _ :: es => owed p es

/-- Behind every `EnableAll()` the next instruction of main code is `EnableAll(false)`; `p`: it was the last instruction. -/
def BackToBack {E : Type} : Bool → List (Ev E) → Prop
  | _, [] => True
  | _, .on :: es => BackToBack true es
  | _, .off :: es => BackToBack false es
  | p, .main _ :: es => p = false ∧ BackToBack false es
  | p, .other :: es => p = false ∧ BackToBack false es
  | p, .request _ :: es => BackToBack p es
  | p, .serve _ _ :: es => BackToBack p es

/-! ### Proofs -/

variable {M : Machine}

theorem run_append (s : M.St) (l r : List M.Ev) : M.run s (l ++ r) = (M.run s l >>= fun s => M.run s r) := by
  induction l generalizing s with
  | nil => rfl
  | cons e l ih =>
    show (M.step s e >>= fun s => M.run s (l ++ r)) = ((M.step s e >>= fun s => M.run s l) >>= _)
    cases M.step s e with
    | ub => rfl
    | ok s' => exact ih s'

theorem clean_append {s s' : M.St} {l r : List M.Ev} (h : Clean M s l) (hl : M.run s l = .ok s') (hr : Clean M s' r) : Clean M s (l ++ r) := by
  induction l generalizing s with
  | nil => simp only [Machine.run, Res.ok.injEq] at hl; subst hl; exact hr
  | cons e l ih =>
    refine ⟨h.1, fun s1 h1 => ?_⟩
    simp only [Machine.run, h1, Res.bind_ok] at hl
    exact ih (h.2 s1 h1) hl

theorem clean_handlers (hM : Lawful M) (as : List M.Ev) : ∀ s : M.St, M.idle s → (∀ a ∈ as, M.proper a ∧ M.kind a = .handler) → Clean M s as ∧ ∀ s', M.run s as = .ok s' → M.idle s' := by
  induction as with
  | nil => intro s hi _; exact ⟨trivial, fun s' h => by simp only [Machine.run, Res.ok.injEq] at h; exact h ▸ hi⟩
  | cons a as ih =>
    intro s hi h
    have ha := h a (by simp)
    have hk : M.kind a ≠ .enter := by rw [ha.2]; decide
    have hrest : ∀ b ∈ as, M.proper b ∧ M.kind b = .handler := fun b hb => h b (by simp [hb])
    refine ⟨⟨⟨ha.1, fun _ => hi⟩, fun s' h' => (ih s' (hM s a s' hi hk h') hrest).1⟩, fun s' h' => ?_⟩
    cases h1 : M.step s a with
    | ub => simp [Machine.run, h1] at h'
    | ok s1 =>
      simp only [Machine.run, h1, Res.bind_ok] at h'
      exact (ih s1 (hM s a s1 hi hk h1) hrest).2 s' h'

/-- What is true of a board in every moment. -/
structure Inv (M : Machine) (s0 : M.St) (b : Board M) : Prop where
  same : M.run s0 b.trace = .ok b.obj
  clean : Clean M s0 b.trace
  out : b.on = true → M.idle b.obj

theorem inv_init {s0 : M.St} {on : Bool} (h : on = true → M.idle s0) : Inv M s0 (Board.init M s0 on) := ⟨rfl, trivial, h⟩

theorem inv_step (hM : Lawful M) {s0 : M.St} {b b' : Board M} {e : Ev M.Ev} (h : Inv M s0 b) (hs : step M b e = .ok b') (hf : Now M b e) : Inv M s0 b' := by
  cases e with
  | off => simp only [step, Res.ok.injEq] at hs; subst hs; exact ⟨h.same, h.clean, fun h => by cases h⟩
  | on => simp only [step, Res.ok.injEq] at hs; subst hs; exact ⟨h.same, h.clean, fun _ => hf⟩
  | other => simp only [step, Res.ok.injEq] at hs; subst hs; exact ⟨h.same, h.clean, h.out⟩
  | request k => simp only [step, Res.ok.injEq] at hs; subst hs; exact ⟨h.same, h.clean, h.out⟩
  | main e =>
    simp only [step] at hs
    cases h1 : M.step b.obj e with
    | ub => rw [h1] at hs; simp at hs
    | ok s =>
      rw [h1] at hs
      simp only [Res.bind_ok, Res.ok.injEq] at hs
      subst hs
      refine ⟨?_, clean_append h.clean h.same ⟨⟨hf.1, fun hk => ?_⟩, fun _ _ => trivial⟩, fun ho => ?_⟩
      · simp only [run_append, h.same, Res.bind_ok, Machine.run, h1]
      · cases hkk : M.kind e with
        | enter => exact (hf.2.2 hkk).2
        | within => exact absurd hkk hk
        | handler => exact absurd hkk hf.2.1
      · by_cases hk : M.kind e = .enter
        · have := (hf.2.2 hk).1
          simp only at ho
          rw [this] at ho
          cases ho
        · exact hM _ e s (h.out ho) hk h1
  | serve k as =>
    simp only [step] at hs
    by_cases hc : (b.on && !b.first && b.flags.contains k) = true
    · rw [if_pos hc] at hs
      simp only [Bool.and_eq_true] at hc
      have hi := h.out hc.1.1
      obtain ⟨g1, g2⟩ := clean_handlers hM as b.obj hi hf
      cases h1 : M.run b.obj as with
      | ub => rw [h1] at hs; simp at hs
      | ok s =>
        rw [h1] at hs
        simp only [Res.bind_ok, Res.ok.injEq] at hs
        subst hs
        exact ⟨by simp only [run_append, h.same, Res.bind_ok, h1], clean_append h.clean h.same g1, fun _ => g2 s h1⟩
    · rw [if_neg hc] at hs
      simp only [Res.ok.injEq] at hs
      subst hs
      exact h

theorem inv_run (hM : Lawful M) {s0 : M.St} (es : List (Ev M.Ev)) : ∀ b b' : Board M, Inv M s0 b → Sectioned M b es → run M b es = .ok b' → Inv M s0 b' := by
  induction es with
  | nil => intro b b' h _ hr; simp only [run, Res.ok.injEq] at hr; exact hr ▸ h
  | cons e es ih =>
    intro b b' h hs hr
    cases h1 : step M b e with
    | ub => simp [run, h1] at hr
    | ok b1 =>
      simp only [run, h1, Res.bind_ok] at hr
      exact ih b1 b' (inv_step hM h h1 hs.1) (hs.2 b1 h1) hr

/-- If the object is never undefined in clean histories, the board is not either. -/
theorem defined_run (hM : Lawful M) {s0 : M.St} (hok : ∀ tr, Clean M s0 tr → ∃ s, M.run s0 tr = .ok s) (es : List (Ev M.Ev)) :
    ∀ b : Board M, Inv M s0 b → Sectioned M b es → ∃ b', run M b es = .ok b' := by
  induction es with
  | nil => intro b _ _; exact ⟨b, rfl⟩
  | cons e es ih =>
    intro b h hs
    have key : ∃ b1, step M b e = .ok b1 := by
      cases e with
      | off => exact ⟨_, rfl⟩
      | on => exact ⟨_, rfl⟩
      | other => exact ⟨_, rfl⟩
      | request k => exact ⟨_, rfl⟩
      | main e =>
        have hf := hs.1
        have hc : Clean M s0 (b.trace ++ [e]) := clean_append h.clean h.same ⟨⟨hf.1, fun hk => by
          cases hkk : M.kind e with
          | enter => exact (hf.2.2 hkk).2
          | within => exact absurd hkk hk
          | handler => exact absurd hkk hf.2.1⟩, fun _ _ => trivial⟩
        obtain ⟨s, hr⟩ := hok _ hc
        simp only [run_append, h.same, Res.bind_ok, Machine.run] at hr
        cases h1 : M.step b.obj e with
        | ub => rw [h1] at hr; cases hr
        | ok s1 => exact ⟨_, by simp only [step, h1, Res.bind_ok]; rfl⟩
      | serve k as =>
        by_cases hcc : (b.on && !b.first && b.flags.contains k) = true
        · simp only [Bool.and_eq_true] at hcc
          obtain ⟨g1, g2⟩ := clean_handlers hM as b.obj (h.out hcc.1.1) hs.1
          obtain ⟨s, hr⟩ := hok _ (clean_append h.clean h.same g1)
          simp only [run_append, h.same, Res.bind_ok] at hr
          exact ⟨_, by simp only [step]; rw [if_pos (by simpa using hcc), hr, Res.bind_ok]⟩
        · exact ⟨b, by simp only [step]; rw [if_neg hcc]⟩
    obtain ⟨b1, h1⟩ := key
    obtain ⟨b2, h2⟩ := ih b1 (inv_step hM h h1 hs.1) (hs.2 b1 h1)
    exact ⟨b2, by simp only [run, h1, Res.bind_ok, h2]⟩

theorem trace_step {b b' : Board M} {e : Ev M.Ev} (h : step M b e = .ok b')
 (hf : Now M b e) :
    b'.trace.filter (fun e => decide (M.kind e ≠ .handler)) = b.trace.filter (fun e => decide (M.kind e ≠ .handler)) ++ ofMain [e] := by
  cases e with
  | off | on | other | request k => simp only [step, Res.ok.injEq] at h; subst h; simp [ofMain]
  | main e =>
    simp only [step] at h
    cases h1 : M.step b.obj e with
    | ub => rw [h1] at h; simp at h
    | ok s =>
      rw [h1] at h
      simp only [Res.bind_ok, Res.ok.injEq] at h
      subst h
      simp [ofMain, List.filter_append, hf.2.1]
  | serve k as =>
    simp only [step] at h
    split at h
    · cases h1 : M.run b.obj as with
      | ub => rw [h1] at h; simp at h
      | ok s =>
        rw [h1] at h
        simp only [Res.bind_ok, Res.ok.injEq] at h
        subst h
        have : as.filter (fun e => decide (M.kind e ≠ .handler)) = [] := by
          rw [List.filter_eq_nil_iff]
          intro a ha
          simp [(hf a ha).2]
        simp only [ofMain, List.filter_append, this, List.append_nil, List.filterMap_cons, List.filterMap_nil]
    · simp only [Res.ok.injEq] at h
      subst h
      simp [ofMain]

theorem flags_nodup {b b' : Board M} {e : Ev M.Ev} (h : step M b e = .ok b') (hn : b.flags.Nodup) : b'.flags.Nodup := by
  cases e with
  | off | on | other => simp only [step, Res.ok.injEq] at h; subst h; exact hn
  | main e =>
    simp only [step] at h
    cases h1 : M.step b.obj e with
    | ub => rw [h1] at h; simp at h
    | ok s => rw [h1] at h; simp only [Res.bind_ok, Res.ok.injEq] at h; subst h; exact hn
  | request k =>
    simp only [step, Res.ok.injEq] at h
    subst h
    simp only
    split
    · exact hn
    · rename_i hk
      exact List.nodup_append.2 ⟨hn, by simp, fun a ha c hc => by simp at hc; subst hc; exact fun h => hk (h ▸ ha)⟩
  | serve k as =>
    simp only [step] at h
    split at h
    · cases h1 : M.run b.obj as with
      | ub => rw [h1] at h; simp at h
      | ok s => rw [h1] at h; simp only [Res.bind_ok, Res.ok.injEq] at h; subst h; exact hn.erase k
    · simp only [Res.ok.injEq] at h; subst h; exact hn

/-- The runs of the handler of `k`, and one more if it is requested. -/
def due (k : Nat) (b : Board M) : Nat := b.served.count k + if k ∈ b.flags then 1 else 0

theorem due_step {b b' : Board M} {e : Ev M.Ev} (k : Nat) (hn : b.flags.Nodup) (h : step M b e = .ok b') : due k b' ≤ due k b + requests k [e] := by
  cases e with
  | off | on | other => simp only [step, Res.ok.injEq] at h; subst h; simp [due]
  | main e =>
    simp only [step] at h
    cases h1 : M.step b.obj e with
    | ub => rw [h1] at h; simp at h
    | ok s => rw [h1] at h; simp only [Res.bind_ok, Res.ok.injEq] at h; subst h; simp [due]
  | request j =>
    simp only [step, Res.ok.injEq] at h
    subst h
    by_cases hj : j = k
    · subst hj
      by_cases hm : j ∈ b.flags <;> simp [due, requests, hm]
    · have hj' : k ≠ j := fun h => hj h.symm
      by_cases hm : j ∈ b.flags <;> simp [due, requests, hm, hj']
  | serve j as =>
    simp only [step] at h
    split at h
    · rename_i hc
      simp only [Bool.and_eq_true] at hc
      have hmem : j ∈ b.flags := by simpa using hc.2
      cases h1 : M.run b.obj as with
      | ub => rw [h1] at h; simp at h
      | ok s =>
        rw [h1] at h
        simp only [Res.bind_ok, Res.ok.injEq] at h
        subst h
        by_cases hj : j = k
        · subst hj
          simp [due, hmem, hn.not_mem_erase]
        · have hj' : k ≠ j := fun h => hj h.symm
          have e1 : (k ∈ b.flags.erase j) ↔ k ∈ b.flags := List.mem_erase_of_ne hj'
          simp [due, e1, List.count_singleton, hj]
    · simp only [Res.ok.injEq] at h; subst h; simp [due]

theorem kept_step {b b' : Board M} {e : Ev M.Ev} (k n : Nat) (h : step M b e = .ok b') (hk : n ≤ b.served.count k ∧ (k ∈ b.flags ∨ n < b.served.count k)) :
    n ≤ b'.served.count k ∧ (k ∈ b'.flags ∨ n < b'.served.count k) := by
  cases e with
  | off | on | other => simp only [step, Res.ok.injEq] at h; subst h; exact hk
  | main e =>
    simp only [step] at h
    cases h1 : M.step b.obj e with
    | ub => rw [h1] at h; simp at h
    | ok s => rw [h1] at h; simp only [Res.bind_ok, Res.ok.injEq] at h; subst h; exact hk
  | request j =>
    simp only [step, Res.ok.injEq] at h
    subst h
    refine ⟨hk.1, hk.2.imp (fun h => ?_) id⟩
    simp only
    split
    · exact h
    · exact List.mem_append_left _ h
  | serve j as =>
    simp only [step] at h
    split at h
    · cases h1 : M.run b.obj as with
      | ub => rw [h1] at h; simp at h
      | ok s =>
        rw [h1] at h
        simp only [Res.bind_ok, Res.ok.injEq] at h
        subst h
        by_cases hj : j = k
        · subst hj
          simp only [List.count_append, List.count_singleton, beq_self_eq_true, if_true]
          omega
        · have hj' : k ≠ j := fun h => hj h.symm
          have e1 : (k ∈ b.flags.erase j) ↔ k ∈ b.flags := List.mem_erase_of_ne hj'
          simpa [e1, List.count_singleton, hj] using hk
    · simp only [Res.ok.injEq] at h; subst h; exact hk

theorem run_induct {P : Board M → List (Ev M.Ev) → Prop} (hP : ∀ b b' e es, step M b e = .ok b' → P b (e :: es) → P b' es) (es : List (Ev M.Ev)) : ∀ b b', P b es → run M b es = .ok b' → P b' [] := by
  induction es with
  | nil => intro b b' h hr; simp only [run, Res.ok.injEq] at hr; exact hr ▸ h
  | cons e es ih =>
    intro b b' h hr
    cases h1 : step M b e with
    | ub => simp [run, h1] at hr
    | ok b1 => simp only [run, h1, Res.bind_ok] at hr; exact ih b1 b' (hP b b1 e es h1 h) hr

end Sections
open Sections

/-- **C151.** Sections around all calls of main code: what the object sees is a history in which calls do not overlap, and it is in the state of this history. -/
theorem c151_apart (M : Machine) (hM : Lawful M) (s0 : M.St) (on : Bool) (h0 : on = true → M.idle s0) (es : List (Ev M.Ev)) (hs : Sectioned M (Board.init M s0 on) es) (b : Board M)
    (h : run M (Board.init M s0 on) es = .ok b) : Clean M s0 b.trace ∧ M.run s0 b.trace = .ok b.obj := by
  have := inv_run hM es _ b (inv_init h0) hs h
  exact ⟨this.clean, this.same⟩

/-- **C151.** If the object is defined in all histories in which calls do not overlap, it is defined here. -/
theorem c151_defined (M : Machine) (hM : Lawful M) (s0 : M.St) (on : Bool) (h0 : on = true → M.idle s0) (es : List (Ev M.Ev)) (hs : Sectioned M (Board.init M s0 on) es)
    (hok : ∀ tr, Clean M s0 tr → ∃ s, M.run s0 tr = .ok s) : ∃ b, run M (Board.init M s0 on) es = .ok b :=
  defined_run hM hok es _ (inv_init h0) hs

/-- **C151.** The object sees everything main code does, in order. -/
theorem c151_mains (M : Machine) (s0 : M.St) (on : Bool) (es : List (Ev M.Ev)) (hs : Sectioned M (Board.init M s0 on) es) (b : Board M)
    (h : run M (Board.init M s0 on) es = .ok b) : b.trace.filter (fun e => decide (M.kind e ≠ .handler)) = ofMain es := by
  have := run_induct (P := fun b fs => Sectioned M b fs ∧ ofMain es = b.trace.filter (fun e => decide (M.kind e ≠ .handler)) ++ ofMain fs) (fun b b' e fs h1 hp => by
    refine ⟨hp.1.2 b' h1, ?_⟩
    rw [trace_step h1 hp.1.1, hp.2, List.append_assoc]
    simp [ofMain, ← List.filterMap_append]) es _ b ⟨hs, by simp [Board.init]⟩ h
  simpa [ofMain] using this.2.symm

/-- **C151.** With or without sections: a request stays until its handler has run. -/
theorem c151_kept (M : Machine) (b0 b1 b2 : Board M) (k : Nat) (es : List (Ev M.Ev)) (h1 : step M b0 (.request k) = .ok b1) (h2 : run M b1 es = .ok b2) :
    k ∈ b2.flags ∨ b1.served.count k < b2.served.count k := by
  have h0 : k ∈ b1.flags := by
    simp only [step, Res.ok.injEq] at h1
    subst h1
    simp only
    split
    · assumption
    · simp
  have := run_induct (P := fun b _ => b1.served.count k ≤ b.served.count k ∧ (k ∈ b.flags ∨ b1.served.count k < b.served.count k)) (fun b b' e fs hs hp => kept_step k _ hs hp) es b1 b2
    ⟨Nat.le_refl _, .inl h0⟩ h2
  exact this.2

/-- **C151.** With or without sections: with interrupts on and an instruction of main code behind the last `EnableAll()` or opportunity for a handler (or none of these yet), the processor runs a
    handler that has been requested as soon as it comes to that, and that is what the object sees. -/
theorem c151_prompt (M : Machine) (s0 : M.St) (on : Bool) (es : List (Ev M.Ev)) (b : Board M) (h : run M (Board.init M s0 on) es = .ok b) (hon : turnedOn on es = true) (hw : owed false es = false) (k : Nat)
    (hk : k ∈ b.flags) (acts : List M.Ev) (s : M.St) (hr : M.run b.obj acts = .ok s) :
    ∃ b', step M b (.serve k acts) = .ok b' ∧ b'.obj = s ∧ b'.trace = b.trace ++ acts ∧ b'.served = b.served ++ [k] ∧ b'.on = true := by
  have := run_induct (P := fun b fs => turnedOn b.on fs = true ∧ ∃ p, owed p fs = false ∧ (b.first = true → p = true)) (fun b b' e fs h1 hp => by
    obtain ⟨hp1, p, hp2, hp3⟩ := hp
    cases e with
    | off => simp only [step, Res.ok.injEq] at h1; subst h1; exact ⟨hp1, false, hp2, fun h => by cases h⟩
    | on => simp only [step, Res.ok.injEq] at h1; subst h1; exact ⟨hp1, true, hp2, fun _ => rfl⟩
    | other => simp only [step, Res.ok.injEq] at h1; subst h1; exact ⟨hp1, false, hp2, fun h => by cases h⟩
    | main e =>
      simp only [step] at h1
      cases h2 : M.step b.obj e with
      | ub => rw [h2] at h1; cases h1
      | ok s => rw [h2] at h1; simp only [Res.bind_ok, Res.ok.injEq] at h1; subst h1; exact ⟨hp1, false, hp2, fun h => by cases h⟩
    | request k => simp only [step, Res.ok.injEq] at h1; subst h1; exact ⟨hp1, p, hp2, hp3⟩
    | serve k acts =>
      simp only [step] at h1
      split at h1
      · cases h2 : M.run b.obj acts with
        | ub => rw [h2] at h1; cases h1
        | ok s => rw [h2] at h1; simp only [Res.bind_ok, Res.ok.injEq] at h1; subst h1; exact ⟨hp1, true, hp2, fun _ => rfl⟩
      · simp only [Res.ok.injEq] at h1; subst h1; exact ⟨hp1, true, hp2, fun _ => rfl⟩) es _ b ⟨hon, false, hw, fun h => by cases h⟩ h
  obtain ⟨h1, p, h2, h3⟩ := this
  have h4 : b.on = true := h1
  have h5 : b.first = false := by
    cases hf : b.first with
    | false => rfl
    | true => rw [h3 hf] at h2; cases h2
  simp only [step]
  rw [if_pos (by rw [h4, h5]; simpa using hk), hr]
  exact ⟨_, rfl, rfl, rfl, rfl, h4⟩

/-- **C151.** A handler runs at most once for each request. -/
theorem c151_no_more (M : Machine) (s0 : M.St) (on : Bool) (es : List (Ev M.Ev)) (b : Board M) (h : run M (Board.init M s0 on) es = .ok b) (k : Nat) :
    b.served.count k + (if k ∈ b.flags then 1 else 0) ≤ requests k es := by
  have := run_induct (P := fun b fs => b.flags.Nodup ∧ due k b + requests k fs ≤ requests k es) (fun b b' e fs h1 hp => by
    refine ⟨flags_nodup h1 hp.1, ?_⟩
    have h2 := due_step k hp.1 h1
    have h3 : requests k (e :: fs) = requests k [e] + requests k fs := by
      have : e :: fs = [e] ++ fs := rfl
      rw [this, requests, List.filter_append, List.length_append]; rfl
    omega) es _ b ⟨by simp [Board.init], by simp [due, Board.init]⟩ h
  simpa [due, requests] using this.2

/-- **C151.** Sections that follow immediately upon each other: however many there are, no handler runs. -/
theorem c151_starved_fails (M : Machine) (s0 : M.St) (es : List (Ev M.Ev)) (hb : BackToBack false es) (b : Board M) (h : run M (Board.init M s0 false) es = .ok b) : b.served = [] := by
  have := run_induct (P := fun b fs => b.served = [] ∧ ∃ p, BackToBack p fs ∧ (b.on = true → p = true ∧ b.first = true)) (fun b b' e fs h1 hp => by
    obtain ⟨hp1, p, hp2, hp3⟩ := hp
    cases e with
    | off => simp only [step, Res.ok.injEq] at h1; subst h1; exact ⟨hp1, false, hp2, fun h => by cases h⟩
    | on => simp only [step, Res.ok.injEq] at h1; subst h1; exact ⟨hp1, true, hp2, fun _ => ⟨rfl, rfl⟩⟩
    | other =>
      simp only [step, Res.ok.injEq] at h1; subst h1
      exact ⟨hp1, false, hp2.2, fun h => by have := (hp3 h).1; rw [hp2.1] at this; cases this⟩
    | request k => simp only [step, Res.ok.injEq] at h1; subst h1; exact ⟨hp1, p, hp2, hp3⟩
    | main e =>
      simp only [step] at h1
      cases h2 : M.step b.obj e with
      | ub => rw [h2] at h1; simp at h1
      | ok s =>
        rw [h2] at h1; simp only [Res.bind_ok, Res.ok.injEq] at h1; subst h1
        exact ⟨hp1, false, hp2.2, fun h => by have := (hp3 h).1; rw [hp2.1] at this; cases this⟩
    | serve k as =>
      simp only [step] at h1
      split at h1
      · rename_i hc
        simp only [Bool.and_eq_true] at hc
        have := (hp3 hc.1.1).2
        rw [this] at hc
        simp at hc
      · simp only [Res.ok.injEq] at h1; subst h1; exact ⟨hp1, p, hp2, hp3⟩) es _ b ⟨rfl, false, hb, fun h => by cases h⟩ h
  exact this.1

end Atl.Props
