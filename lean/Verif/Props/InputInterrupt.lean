import Verif.Model.InputInterrupt
import Verif.Props.CriticalSectionUse

/-!
  C162: one digital input read by main code and by interrupt handlers.
-/
namespace Atl.Props
open Atl.InputInterrupt

namespace InputShared

/-! ### Specification -/

/-- Every call reports a new value exactly if it found another level than the call before; `v` the value at the beginning. -/
def InOrder (v : Bool) : List Report → Prop
  | [] => True
  | q :: l => (q.new = true ↔ q.level ≠ v) ∧ InOrder q.level l

/-- The level of the last call. -/
def lastLevel (v : Bool) (l : List Report) : Bool := l.foldl (fun _ q => q.level) v

/-- The value last reported as new. -/
def lastNew (v : Bool) (l : List Report) : Bool := lastLevel v (l.filter (·.new))

/-- Main code has read the pin and not returned. -/
def Open : Pc → Prop
  | .sampled _ | .loaded _ _ => True
  | _ => False

instance : DecidablePred Open := fun p => by cases p <;> simp only [Open] <;> infer_instance

/-- No handler reads between main code's reading of the pin and its return. -/
def Quiet : InputInterrupt.St → List InputInterrupt.Ev → Prop
  | _, [] => True
  | y, e :: es => (e = .handler → ¬ Open y.pc) ∧ Quiet (step y e) es

/-! ### Proofs -/

theorem lastLevel_append (v : Bool) (l : List Report) (q : Report) : lastLevel v (l ++ [q]) = q.level := by simp [lastLevel]

theorem lastNew_true (v : Bool) (l : List Report) (q : Report) (h : q.new = true) : lastNew v (l ++ [q]) = q.level := by
  simp only [lastNew, List.filter_append, List.filter_cons, List.filter_nil, h, if_true, lastLevel_append]

theorem lastNew_false (v : Bool) (l : List Report) (q : Report) (h : q.new = false) : lastNew v (l ++ [q]) = lastNew v l := by
  simp [lastNew, List.filter_append, h]

theorem inOrder_append (q : Report) (l : List Report) : ∀ v : Bool, InOrder v (l ++ [q]) ↔ InOrder v l ∧ (q.new = true ↔ q.level ≠ lastLevel v l) := by
  induction l with
  | nil => intro v; simp [InOrder, lastLevel]
  | cons x l ih =>
    intro v
    have e : lastLevel v (x :: l) = lastLevel x.level l := rfl
    simp only [List.cons_append, InOrder, ih, e, and_assoc]

theorem run_cons (y : InputInterrupt.St) (e : InputInterrupt.Ev) (es : List InputInterrupt.Ev) : run y (e :: es) = run (step y e) es := rfl

/-- The value is the one last reported. -/
theorem value_step {v0 : Bool} {y : InputInterrupt.St} (h : y.value = lastNew v0 y.log) (e : InputInterrupt.Ev) : (step y e).value = lastNew v0 (step y e).log := by
  obtain ⟨p, v, pc, l, ls⟩ := y
  change v = lastNew v0 l at h
  cases e with
  | read => simp only [step]; split <;> exact h
  | pin b => exact h
  | handler =>
    simp only [step, DigitalInput.read]
    split
    · exact (lastNew_true v0 l ⟨false, p, true⟩ rfl).symm
    · exact h.trans (lastNew_false v0 l ⟨false, p, false⟩ rfl).symm
  | main =>
    cases pc with
    | idle => exact h
    | begin_ => exact h
    | sampled w => exact h
    | loaded w old =>
      simp only [step, mainStep]
      split
      · exact (lastNew_true v0 l ⟨true, w, true⟩ rfl).symm
      · exact h.trans (lastNew_false v0 l ⟨true, w, false⟩ rfl).symm

/-- Every level read was there. -/
def Had (y : InputInterrupt.St) : Prop := y.pin ∈ y.levels ∧ (∀ q ∈ y.log, q.level ∈ y.levels) ∧ ∀ v, (y.pc = .sampled v ∨ ∃ old, y.pc = .loaded v old) → v ∈ y.levels

theorem had_step {y : InputInterrupt.St} (h : Had y) (e : InputInterrupt.Ev) : Had (step y e) := by
  obtain ⟨p, v, pc, l, ls⟩ := y
  obtain ⟨h1, h2, h3⟩ := h
  change p ∈ ls at h1
  change ∀ q ∈ l, q.level ∈ ls at h2
  change ∀ v, (pc = .sampled v ∨ ∃ old, pc = .loaded v old) → v ∈ ls at h3
  have two : ∀ q : Report, q.level ∈ ls → ∀ q' ∈ l ++ [q], q'.level ∈ ls := by
    intro q hq q' hq'
    rcases List.mem_append.1 hq' with h | h
    · exact h2 q' h
    · rw [List.mem_singleton.1 h]; exact hq
  cases e with
  | read =>
    simp only [step]
    split
    · refine ⟨h1, h2, fun v hv => ?_⟩
      rcases hv with hv | ⟨_, hv⟩ <;> cases hv
    · exact ⟨h1, h2, h3⟩
  | pin b => exact ⟨by simp [step], fun q hq => by simp [step, h2 q hq], fun v hv => by simp [step, h3 v hv]⟩
  | handler => exact ⟨h1, two _ h1, h3⟩
  | main =>
    cases pc with
    | idle => exact ⟨h1, h2, h3⟩
    | begin_ =>
      refine ⟨h1, h2, fun v hv => ?_⟩
      rcases hv with hv | ⟨_, hv⟩
      · injection hv with hv; exact hv ▸ h1
      · cases hv
    | sampled w =>
      refine ⟨h1, h2, fun v hv => ?_⟩
      rcases hv with hv | ⟨_, hv⟩
      · cases hv
      · injection hv with hv; exact hv ▸ h3 w (.inl rfl)
    | loaded w old =>
      have hw := h3 w (.inr ⟨old, rfl⟩)
      simp only [step, mainStep]
      split
      · refine ⟨h1, two _ hw, fun v hv => ?_⟩
        rcases hv with hv | ⟨_, hv⟩ <;> cases hv
      · refine ⟨h1, two _ hw, fun v hv => ?_⟩
        rcases hv with hv | ⟨_, hv⟩ <;> cases hv

/-- Without handlers in between. -/
def Inv (v0 : Bool) (y : InputInterrupt.St) : Prop := InOrder v0 y.log ∧ y.value = lastLevel v0 y.log ∧ ∀ v old, y.pc = .loaded v old → old = y.value

theorem inv_step {v0 : Bool} {y : InputInterrupt.St} (h : Inv v0 y) (e : InputInterrupt.Ev) (hq : e = .handler → ¬ Open y.pc) : Inv v0 (step y e) := by
  obtain ⟨p, v, pc, l, ls⟩ := y
  obtain ⟨h1, h2, h3⟩ := h
  change InOrder v0 l at h1
  change v = lastLevel v0 l at h2
  cases e with
  | read =>
    simp only [step]
    split
    · exact ⟨h1, h2, fun _ _ h => nomatch h⟩
    · exact ⟨h1, h2, h3⟩
  | pin b => exact ⟨h1, h2, h3⟩
  | handler =>
    have hpc := hq rfl
    have hno : ∀ w old, pc ≠ .loaded w old := fun w old he => hpc (by rw [he]; trivial)
    simp only [step, DigitalInput.read]
    split
    · next hne => exact ⟨(inOrder_append _ _ _).2 ⟨h1, by rw [← h2]; simp [Ne.symm hne]⟩, (lastLevel_append v0 l ⟨false, p, true⟩).symm, fun w old he => absurd he (hno w old)⟩
    · next hne =>
      have hne : v = p := Decidable.byContradiction fun h => hne h
      refine ⟨(inOrder_append _ _ _).2 ⟨h1, by rw [← h2]; simp [hne]⟩, ?_, fun w old he => absurd he (hno w old)⟩
      rw [lastLevel_append]; exact hne
  | main =>
    cases pc with
    | idle => exact ⟨h1, h2, h3⟩
    | begin_ => exact ⟨h1, h2, fun _ _ h => nomatch h⟩
    | sampled w => exact ⟨h1, h2, fun _ _ h => by injection h with _ h; exact h.symm⟩
    | loaded w old =>
      have ho : old = v := h3 w old rfl
      subst ho
      simp only [step, mainStep]
      split
      · next hne => exact ⟨(inOrder_append _ _ _).2 ⟨h1, by rw [← h2]; simp [Ne.symm hne]⟩, (lastLevel_append v0 l ⟨true, w, true⟩).symm, fun _ _ h => nomatch h⟩
      · next hne =>
        have hne : old = w := Decidable.byContradiction fun h => hne h
        refine ⟨(inOrder_append _ _ _).2 ⟨h1, by rw [← h2]; simp [hne]⟩, ?_, fun _ _ h => nomatch h⟩
        rw [lastLevel_append]; exact hne

end InputShared
open InputShared

/-- **C162.** In every history the value is the one last reported as new (by main code or by a handler), so no change of the value goes unreported; and every level reported was at the pin. -/
theorem c162_value (pin : Bool) (es : List InputInterrupt.Ev) :
    (run (St.init pin) es).value = lastNew false (run (St.init pin) es).log ∧ ∀ q ∈ (run (St.init pin) es).log, q.level ∈ (run (St.init pin) es).levels := by
  have h1 : ∀ (es : List InputInterrupt.Ev) (y : InputInterrupt.St), y.value = lastNew false y.log → (run y es).value = lastNew false (run y es).log := by
    intro es
    induction es with
    | nil => exact fun y h => h
    | cons e es ih => exact fun y h => ih _ (value_step h e)
  have h2 : ∀ (es : List InputInterrupt.Ev) (y : InputInterrupt.St), Had y → Had (run y es) := by
    intro es
    induction es with
    | nil => exact fun y h => h
    | cons e es ih => exact fun y h => ih _ (had_step h e)
  refine ⟨h1 es _ rfl, (h2 es _ ⟨by simp [St.init], fun _ h => (by cases h), fun v hv => ?_⟩).2.1⟩
  rcases hv with hv | ⟨_, hv⟩ <;> cases hv

/-- **C162.** If no handler reads between main code's reading of the pin and its return: every call reports a new value exactly if it found another level than the call before, and the value is the level
    last found. -/
theorem c162_order_partial (pin : Bool) (es : List InputInterrupt.Ev) (hq : Quiet (St.init pin) es) :
    InOrder false (run (St.init pin) es).log ∧ (run (St.init pin) es).value = lastLevel false (run (St.init pin) es).log := by
  have h : ∀ (es : List InputInterrupt.Ev) (y : InputInterrupt.St), Inv false y → Quiet y es → Inv false (run y es) := by
    intro es
    induction es with
    | nil => exact fun y h _ => h
    | cons e es ih => exact fun y h hq => ih _ (inv_step h e hq.1) hq.2
  have := h es (St.init pin) ⟨trivial, rfl, fun _ _ h => nomatch h⟩ hq
  exact ⟨this.1, this.2.1⟩

/-- **C162.** A handler that reads between main code's load and its store: one change of the level is reported twice. -/
theorem c162_twice_fails (y : InputInterrupt.St) (hp : y.pc = .idle) (hv : y.value ≠ y.pin) :
    run y [.read, .main, .main, .handler, .main] = { y with value := y.pin, log := y.log ++ [⟨false, y.pin, true⟩, ⟨true, y.pin, true⟩] } := by
  obtain ⟨p, v, pc, l, ls⟩ := y
  change pc = .idle at hp
  change v ≠ p at hv
  subst hp
  cases p <;> cases v <;> first | exact absurd rfl hv | simp [run, step, mainStep, DigitalInput.read]

/-- **C162.** The level changes behind main code's reading of the pin and a handler reads it: main code reports the old level as new and leaves it as the value, although the pin has the new one. -/
theorem c162_stale_fails (y : InputInterrupt.St) (hp : y.pc = .idle) (hv : y.value = y.pin) :
    run y [.read, .main, .pin (!y.pin), .handler, .main, .main] =
      { y with pin := !y.pin, value := y.pin, log := y.log ++ [⟨false, !y.pin, true⟩, ⟨true, y.pin, true⟩], levels := y.levels ++ [!y.pin] } := by
  obtain ⟨p, v, pc, l, ls⟩ := y
  change pc = .idle at hp
  change v = p at hv
  subst hp
  subst hv
  cases v <;> simp [run, step, mainStep, DigitalInput.read]

/-- **C162.** Whatever has happened, an undisturbed call leaves the level of the pin as the value, and reports it exactly if it was not the value. -/
theorem c162_heals (y : InputInterrupt.St) (hp : y.pc = .idle) :
    run y [.read, .main, .main, .main] = { y with value := y.pin, log := y.log ++ [⟨true, y.pin, y.pin != y.value⟩] } := by
  obtain ⟨p, v, pc, l, ls⟩ := y
  change pc = .idle at hp
  subst hp
  cases p <;> cases v <;> simp [run, step, mainStep]

/-! ### In sections -/

namespace InputShared

/-- The input as a shared object (DigitalInput.h 44-63). -/
abbrev input : CriticalSection.Machine where
  St := InputInterrupt.St
  Ev := InputInterrupt.Ev
  step := fun y e => .ok (InputInterrupt.step y e)
  kind := fun | .read => .enter | .main | .pin _ => .within | .handler => .handler
  idle := fun y => y.pc = .idle
  proper := fun _ => True

theorem lawful_input : Sections.Lawful input := by
  intro (y : InputInterrupt.St) (e : InputInterrupt.Ev) (y' : InputInterrupt.St) (hi : y.pc = .idle) hk h
  change Res.ok (InputInterrupt.step y e) = .ok y' at h
  injection h with h
  subst h
  change (InputInterrupt.step y e).pc = .idle
  cases e with
  | read => exact absurd rfl hk
  | main => simp only [step, mainStep, hi]
  | handler => exact hi
  | pin b => exact hi

theorem run_input (es : List InputInterrupt.Ev) (y : InputInterrupt.St) : input.run y es = .ok (InputInterrupt.run y es) :=
  Sections.run_is (M := input) (R := fun y es => .ok (InputInterrupt.run y es)) (fun _ => rfl) (fun _ _ _ => rfl) es y

theorem clean_quiet (es : List InputInterrupt.Ev) : ∀ y : InputInterrupt.St, Sections.Clean input y es → Quiet y es := by
  induction es with
  | nil => exact fun _ _ => trivial
  | cons e es ih =>
    intro y h
    refine ⟨fun he ho => ?_, ih _ (h.2 _ rfl)⟩
    subst he
    have : y.pc = .idle := h.1.2 (fun h => nomatch h)
    rw [this] at ho
    exact ho

end InputShared

/-- **C162.** Main code that reads only with interrupts off: every call reports a new value exactly if it found another level than the call before, whoever made it. -/
theorem c162_sections (pin on : Bool) (es : List (CriticalSection.Ev InputInterrupt.Ev)) (hs : Sections.Sectioned input (CriticalSection.Board.init _ (St.init pin) on) es) :
    ∃ d, CriticalSection.run input (CriticalSection.Board.init _ (St.init pin) on) es = .ok d ∧ d.obj = run (St.init pin) d.trace ∧ InOrder false d.obj.log ∧ d.obj.value = lastLevel false d.obj.log := by
  obtain ⟨d, hd⟩ := c151_defined _ lawful_input (St.init pin) on (fun _ => rfl) es hs fun tr _ => ⟨_, run_input tr _⟩
  obtain ⟨h1, h2⟩ := c151_apart _ lawful_input (St.init pin) on (fun _ => rfl) es hs d hd
  have h3 : run (St.init pin) d.trace = d.obj := by
    have := (run_input d.trace (St.init pin)).symm.trans h2
    injection this
  refine ⟨d, hd, h3.symm, ?_⟩
  rw [← h3]
  exact c162_order_partial pin d.trace (clean_quiet _ _ h1)

/-- **C162.** The full claim, that every call reports a new value exactly if it found another level than the call before, is false of the code. -/
theorem c162_full_claim_is_false : ¬ ∀ (pin : Bool) (es : List InputInterrupt.Ev), (run (St.init pin) es).pc = .idle → InOrder false (run (St.init pin) es).log := by
  intro h
  have := h true [.read, .main, .main, .handler, .main] rfl
  revert this
  simp [run, step, mainStep, St.init, DigitalInput.read, InOrder]

/-! ### Cases -/

namespace InputShared
/-- Main code reads in sections while the level changes, a handler reads in between. -/
def inTurn : List (CriticalSection.Ev InputInterrupt.Ev) :=
  [.request 0, .off, .main .read, .main .main, .main (.pin true), .serve 0 [.handler], .main .main, .main .main, .on, .other, .serve 0 [.handler], .other, .off, .main .read, .main .main, .main .main, .main .main, .on]
instance : DecidablePred input.proper := fun _ => inferInstanceAs (Decidable True)
instance : DecidablePred input.idle := fun y => inferInstanceAs (Decidable (y.pc = .idle))
end InputShared

example := c162_value false [.read, .main, .pin true, .handler, .main, .main, .handler]
example : (run (St.init false) [.read, .main, .pin true, .handler, .main, .main, .handler]).log = [⟨false, true, true⟩, ⟨true, false, true⟩, ⟨false, true, true⟩] := by decide
example := c162_order_partial false [.read, .handler, .pin true, .main, .pin false, .main, .main, .handler] ⟨nofun, fun _ h => h, nofun, nofun, nofun, nofun, nofun, fun _ h => h, trivial⟩
example := c162_twice_fails (St.init true) rfl (by decide)
example := c162_stale_fails (St.init false) rfl rfl
example := c162_heals ⟨true, false, .idle, [⟨true, false, true⟩], [false, true]⟩ rfl
example := c162_sections false true inTurn (by decide +kernel)
example : ∃ d, CriticalSection.run input (CriticalSection.Board.init _ (St.init false) true) inTurn = .ok d ∧ d.obj.log = [⟨true, false, false⟩, ⟨false, true, true⟩, ⟨true, true, false⟩] := ⟨_, rfl, rfl⟩

end Atl.Props
