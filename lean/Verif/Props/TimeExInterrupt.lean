import Verif.Model.TimeExInterrupt

/- Property theorems C147: the delta time of one `TimeEx` object used by main code and by interrupt handlers. -/
namespace Atl.Props
open Atl Atl.TimeExInterrupt
open Atl.TimeInterrupt (clock)

namespace SharedDelta

/-! ### Specification -/

/-- An observer who knows the true times: the last two captured, and the same when main code began to read. -/
structure Obs where
  prev : Nat
  last : Nat
  prev0 : Nat
  last0 : Nat
  deriving Repr, DecidableEq

/-- What the observer notes. -/
def Obs.note (o : Obs) : Entry → Obs
  | .captured t _ => { o with prev := o.last, last := t }
  | .reset => { o with prev := o.last }
  | .look => { o with prev0 := o.prev, last0 := o.last }
  | _ => o

/-- After a whole log, begun at time `t0`. -/
def seen (t0 : Nat) (l : List Entry) : Obs := l.foldl Obs.note ⟨t0, t0, t0, t0⟩

/-- The time between the last two captures. -/
def Obs.delta (o : Obs) : Int := o.last - o.prev

/-- What an answer is, in true times. -/
def Answer (ticksFirst : Bool) (o : Obs) : Entry → Prop
  | .captured t d => (d : Int) = ((t : Int) - o.last) % 2 ^ 32
  | .read v => (v : Int) = (if ticksFirst then (o.last0 : Int) - o.prev else (o.last : Int) - o.prev0) % 2 ^ 16
  | .heard inside v => (v : Int) = if inside then 0 else o.delta % 2 ^ 16
  | _ => True

/-- All answers of a log. -/
def Answers (ticksFirst : Bool) (t0 : Nat) (l : List Entry) : Prop := ∀ l1 e l2, l = l1 ++ e :: l2 → Answer ticksFirst (seen t0 l1) e

/-- Handlers update and reset, main code reads. -/
def HandlersUpdate : List TimeExInterrupt.Ev → Prop
  | [] => True
  | .update :: _ | .reset :: _ => False
  | _ :: es => HandlersUpdate es

/-- Main code updates, resets and reads, handlers read. -/
def MainUpdatesEx : List TimeExInterrupt.Ev → Prop
  | [] => True
  | .tick _ :: _ | .clear :: _ => False
  | _ :: es => MainUpdatesEx es

/-- Main code makes one call after the other. -/
def CallByCall (keep tf : Bool) (s : St) : List TimeExInterrupt.Ev → Prop
  | [] => True
  | e :: es => (e = .update ∨ e = .reset ∨ e = .read → s.pc = .idle) ∧ CallByCall keep tf (step keep tf s e) es

/-- Main code does not read while handlers update: nothing is captured or reset between the two loads. -/
def Unchanged (l : List Entry) : Prop := ∀ e ∈ l, ∃ i v, e = Entry.heard i v

/-! ### Proofs -/

theorem seen_snoc (t0 : Nat) (l : List Entry) (e : Entry) : seen t0 (l ++ [e]) = (seen t0 l).note e := by simp [seen]

theorem split_snoc {α : Type} {l l1 l2 : List α} {e x : α} (h : l ++ [e] = l1 ++ x :: l2) : (l2 = [] ∧ l = l1 ∧ e = x) ∨ ∃ m, l2 = m ++ [e] ∧ l = l1 ++ x :: m := by
  rcases List.eq_nil_or_concat l2 with rfl | ⟨m, y, rfl⟩
  · have := List.append_inj' h rfl
    simp at this
    exact .inl ⟨rfl, this.1, this.2⟩
  · have h2 : l ++ [e] = (l1 ++ x :: m) ++ [y] := by simpa using h
    have := List.append_inj' h2 rfl
    simp at this
    exact .inr ⟨m, by simp [this.2], this.1⟩

theorem answers_snoc {tf : Bool} {t0 : Nat} {l : List Entry} {e : Entry} (h : Answers tf t0 l) (he : Answer tf (seen t0 l) e) : Answers tf t0 (l ++ [e]) := by
  intro l1 x l2 hl
  rcases split_snoc hl with ⟨_, rfl, rfl⟩ | ⟨m, _, rfl⟩
  · exact he
  · exact h l1 x m rfl

theorem wrap32 (a b : Nat) : ((toU 32 ((clock a : Int) - clock b) : Nat) : Int) = ((a : Int) - b) % 2 ^ 32 := by unfold toU clock; omega
theorem wrap16 (a b : Nat) : ((toU 16 (toU 32 ((clock a : Int) - clock b)) : Nat) : Int) = ((a : Int) - b) % 2 ^ 16 := by unfold toU clock; omega

/-- The object agrees with the observer. -/
def InvA (tf : Bool) (t0 : Nat) (s : St) : Prop :=
  Answers tf t0 s.log ∧ s.ex.ticks = clock (seen t0 s.log).last ∧ s.ex.previous = clock (seen t0 s.log).prev ∧
  (s.pc = .idle ∨ s.pc = .reading (clock (if tf then (seen t0 s.log).last0 else (seen t0 s.log).prev0)))

theorem invA_step (keep tf : Bool) (t0 : Nat) (s : St) (e : TimeExInterrupt.Ev) (h : InvA tf t0 s) (h1 : e ≠ .update) (h2 : e ≠ .reset) : InvA tf t0 (step keep tf s e) := by
  obtain ⟨⟨ticks, start, previous⟩, pc, log⟩ := s
  obtain ⟨ha, ht, hp, hc⟩ := h
  simp only at ha ht hp hc
  subst ht hp
  cases e with
  | update => exact absurd rfl h1
  | reset => exact absurd rfl h2
  | read =>
    refine ⟨answers_snoc ha trivial, ?_, ?_, .inr ?_⟩
    · simp [step, seen_snoc, Obs.note]
    · simp [step, seen_snoc, Obs.note]
    · cases tf <;> simp [step, seen_snoc, Obs.note]
  | main t =>
    rcases hc with rfl | rfl
    · exact ⟨ha, rfl, rfl, .inl rfl⟩
    · refine ⟨answers_snoc ha ?_, ?_, ?_, .inl rfl⟩
      · cases tf with
        | true => simpa [Answer, difference] using wrap16 (seen t0 log).last0 (seen t0 log).prev
        | false => simpa [Answer, difference] using wrap16 (seen t0 log).last (seen t0 log).prev0
      · simp [step, mainStep, seen_snoc, Obs.note]
      · simp [step, mainStep, seen_snoc, Obs.note]
  | tick t =>
    refine ⟨answers_snoc ha ?_, ?_, ?_, ?_⟩
    · simpa [Answer, Time.Ex.update, Time.update] using wrap32 t (seen t0 log).last
    · simp [step, seen_snoc, Obs.note, Time.Ex.update, Time.update]
    · simp [step, seen_snoc, Obs.note, Time.Ex.update, Time.update]
    · cases tf <;> simpa [step, seen_snoc, Obs.note] using hc
  | clear =>
    refine ⟨answers_snoc ha trivial, ?_, ?_, ?_⟩
    · simp [step, seen_snoc, Obs.note, Time.Ex.reset]
    · simp [step, seen_snoc, Obs.note, Time.Ex.reset]
    · cases tf <;> simpa [step, seen_snoc, Obs.note] using hc
  | ask =>
    refine ⟨answers_snoc ha ?_, ?_, ?_, ?_⟩
    · have hi : pc.inside = false := by rcases hc with rfl | rfl <;> rfl
      simpa [Answer, Time.Ex.getDeltaTime, hi, Obs.delta] using wrap16 (seen t0 log).last (seen t0 log).prev
    · simp [step, seen_snoc, Obs.note]
    · simp [step, seen_snoc, Obs.note]
    · cases tf <;> simpa [step, seen_snoc, Obs.note] using hc

theorem invA_run (keep tf : Bool) (t0 : Nat) (es : List TimeExInterrupt.Ev) : ∀ s, InvA tf t0 s → HandlersUpdate es → InvA tf t0 (run keep tf s es) := by
  induction es with
  | nil => intro s h _; exact h
  | cons e es ih =>
    intro s h hu
    cases e with
    | update => exact hu.elim
    | reset => exact hu.elim
    | read => exact ih _ (invA_step keep tf t0 s _ h (by simp) (by simp)) hu
    | main t => exact ih _ (invA_step keep tf t0 s _ h (by simp) (by simp)) hu
    | tick t => exact ih _ (invA_step keep tf t0 s _ h (by simp) (by simp)) hu
    | clear => exact ih _ (invA_step keep tf t0 s _ h (by simp) (by simp)) hu
    | ask => exact ih _ (invA_step keep tf t0 s _ h (by simp) (by simp)) hu

theorem inv_init (tf : Bool) (t0 : Nat) : InvA tf t0 (St.init t0) :=
  ⟨by intro l1 e l2 h; simp [St.init] at h, rfl, rfl, .inl rfl⟩

/-- Main code updates: the object agrees with the observer but for `_previous` in `Update`. -/
def InvB (tf : Bool) (t0 : Nat) (s : St) : Prop :=
  let o := seen t0 s.log
  Answers tf t0 s.log ∧ s.ex.ticks = clock o.last ∧ s.ex.previous = clock (if s.pc.inside then o.last else o.prev) ∧
  match s.pc with
  | .idle => True
  | .looked v | .saved v | .loaded v | .clocked v _ | .resetting v | .half v => v = clock o.last
  | .reading x => x = clock (if tf then o.last else o.prev) ∧ o.last0 = o.last ∧ o.prev0 = o.prev

theorem invB_main (keep tf : Bool) (t0 t : Nat) (s : St) (h : InvB tf t0 s) : InvB tf t0 (mainStep keep tf s t) := by
  obtain ⟨⟨ticks, start, previous⟩, pc, log⟩ := s
  obtain ⟨ha, ht, hp, hc⟩ := h
  simp only at ha ht hp hc
  cases pc with
  | idle => exact ⟨ha, ht, hp, trivial⟩
  | looked v => subst hc; exact ⟨ha, ht, rfl, rfl⟩
  | saved v =>
    subst hc
    refine ⟨ha, ht, hp, ?_⟩
    cases keep
    · exact ht
    · rfl
  | loaded p => exact ⟨ha, ht, hp, hc⟩
  | clocked p u =>
    subst hc
    refine ⟨answers_snoc ha ?_, ?_, ?_, trivial⟩
    · simpa [Answer] using wrap32 u (seen t0 log).last
    · simp [mainStep, seen_snoc, Obs.note]
    · simpa [mainStep, seen_snoc, Obs.note, Pc.inside] using hp
  | resetting v =>
    subst hc
    refine ⟨answers_snoc ha trivial, ?_, ?_, ?_⟩
    · simpa [mainStep, seen_snoc, Obs.note] using ht
    · simp [mainStep, seen_snoc, Obs.note, Pc.inside]
    · simp [mainStep, seen_snoc, Obs.note]
  | half v => exact ⟨ha, ht, hp, trivial⟩
  | reading x =>
    obtain ⟨rfl, h1, h2⟩ := hc
    simp only [Pc.inside, Bool.false_eq_true, if_false] at hp
    subst hp ht
    refine ⟨answers_snoc ha ?_, ?_, ?_, trivial⟩
    · cases tf with
      | true => simpa [Answer, difference, h1] using wrap16 (seen t0 log).last (seen t0 log).prev
      | false => simpa [Answer, difference, h2] using wrap16 (seen t0 log).last (seen t0 log).prev
    · simp [mainStep, seen_snoc, Obs.note]
    · simp [mainStep, seen_snoc, Obs.note, Pc.inside]

theorem invB_run (keep tf : Bool) (t0 : Nat) (es : List TimeExInterrupt.Ev) : ∀ s, InvB tf t0 s → MainUpdatesEx es → CallByCall keep tf s es → InvB tf t0 (run keep tf s es) := by
  induction es with
  | nil => intro s h _ _; exact h
  | cons e es ih =>
    intro s h hu ho
    have hi := ho.1
    refine ih _ ?_ (by cases e <;> first | exact hu | exact hu.elim) ho.2
    clear ih
    obtain ⟨⟨ticks, start, previous⟩, pc, log⟩ := s
    cases e with
    | tick t => exact hu.elim
    | clear => exact hu.elim
    | main t => exact invB_main keep tf t0 t _ h
    | update =>
      obtain ⟨ha, ht, hp, hc⟩ := h
      have := hi (.inl rfl)
      simp only at this
      subst this
      exact ⟨ha, ht, hp, ht⟩
    | reset =>
      obtain ⟨ha, ht, hp, hc⟩ := h
      have := hi (.inr (.inl rfl))
      simp only at this
      subst this
      exact ⟨ha, ht, hp, ht⟩
    | read =>
      obtain ⟨ha, ht, hp, hc⟩ := h
      have := hi (.inr (.inr rfl))
      simp only at this ht hp
      subst this
      simp only [Pc.inside, Bool.false_eq_true, if_false] at hp
      refine ⟨answers_snoc ha trivial, ?_, ?_, ?_⟩
      · simpa [step, seen_snoc, Obs.note] using ht
      · simpa [step, seen_snoc, Obs.note, Pc.inside] using hp
      · cases tf <;> simp [step, seen_snoc, Obs.note, ht, hp]
    | ask =>
      obtain ⟨ha, ht, hp, hc⟩ := h
      simp only at ha ht hp hc
      subst ht
      refine ⟨answers_snoc ha ?_, ?_, ?_, ?_⟩
      · cases hin : pc.inside with
        | false =>
          rw [hin] at hp
          simp only [Bool.false_eq_true, if_false] at hp
          subst hp
          simpa [Answer, Time.Ex.getDeltaTime, hin, Obs.delta] using wrap16 (seen t0 log).last (seen t0 log).prev
        | true =>
          rw [hin] at hp
          simp only [if_true] at hp
          subst hp
          have := wrap16 (seen t0 log).last (seen t0 log).last
          simp only [Int.sub_self] at this
          simp [Answer, Time.Ex.getDeltaTime, hin]
          simpa using this
      · simp [step, seen_snoc, Obs.note]
      · simpa [step, seen_snoc, Obs.note] using hp
      · cases pc <;> simpa [step, seen_snoc, Obs.note] using hc

theorem invB_init (tf : Bool) (t0 : Nat) : InvB tf t0 (St.init t0) :=
  ⟨by intro l1 e l2 h; simp [St.init] at h, rfl, rfl, trivial⟩

/-- Answers that others hear change nothing for the observer. -/
theorem seen_unchanged (t0 : Nat) (l m : List Entry) (h : Unchanged m) : seen t0 (l ++ m) = seen t0 l := by
  induction m generalizing l with
  | nil => simp
  | cons e m ih =>
    obtain ⟨i, v, rfl⟩ := h _ (List.mem_cons_self ..)
    have h2 := ih (l ++ [.heard i v]) (fun e he => h e (List.mem_cons_of_mem _ he))
    rw [List.append_assoc] at h2
    have h3 : seen t0 (l ++ [.heard i v]) = seen t0 l := by rw [seen_snoc]; rfl
    rw [← h3, ← h2]; rfl

end SharedDelta

open SharedDelta

/-- **C147.** Handlers update or reset, main code reads: every answer of every history in true times, for any number of wraps of the counter. -/
theorem c147_handlers_update (keep tf : Bool) (t0 : Nat) (es : List TimeExInterrupt.Ev) (h : HandlersUpdate es) : Answers tf t0 (run keep tf (St.init t0) es).log :=
  (invA_run keep tf t0 es _ (inv_init tf t0) h).1

/-- **C147.** Main code updates, resets and reads, handlers read: every answer of every history in true times. -/
theorem c147_main_updates (keep tf : Bool) (t0 : Nat) (es : List TimeExInterrupt.Ev) (h : MainUpdatesEx es) (ho : CallByCall keep tf (St.init t0) es) :
    Answers tf t0 (run keep tf (St.init t0) es).log :=
  (invB_run keep tf t0 es _ (invB_init tf t0) h ho).1

/-- **C147, partial.** Handlers update, main code reads: if no handler updates or resets between its two loads, main code reads the time between the last two captures, modulo 2^16.
    In full (false, `c147_full_claim_is_false`): whatever handlers do. -/
theorem c147_read_partial (keep tf : Bool) (t0 : Nat) (es : List TimeExInterrupt.Ev) (h : HandlersUpdate es) (l1 mid l2 : List Entry) (v : Nat)
    (hl : (run keep tf (St.init t0) es).log = l1 ++ .look :: mid ++ .read v :: l2) (hm : Unchanged mid) : (v : Int) = (seen t0 l1).delta % 2 ^ 16 := by
  have h1 := c147_handlers_update keep tf t0 es h (l1 ++ .look :: mid) (.read v) l2 hl
  have h2 : seen t0 (l1 ++ .look :: mid) = (seen t0 l1).note .look := by
    have h3 := seen_unchanged t0 (l1 ++ [.look]) mid hm
    rw [seen_snoc, List.append_assoc] at h3
    exact h3
  simp only [Answer, h2, Obs.note] at h1
  rw [h1]
  cases tf <;> rfl

/-- **C147.** One handler's `Update` between the two loads: main code reads 0 if it loads the count first, else the time of the last two periods together. -/
theorem c147_one_update (keep tf : Bool) (t0 : Nat) (es : List TimeExInterrupt.Ev) (h : HandlersUpdate es) (l1 l2 : List Entry) (t d v : Nat)
    (hl : (run keep tf (St.init t0) es).log = l1 ++ [.look, .captured t d] ++ .read v :: l2) :
    (v : Int) = if tf then 0 else ((t : Int) - (seen t0 l1).prev) % 2 ^ 16 := by
  have h1 := c147_handlers_update keep tf t0 es h (l1 ++ [.look, .captured t d]) (.read v) l2 hl
  have h2 : seen t0 (l1 ++ [.look, .captured t d]) = ((seen t0 l1).note .look).note (.captured t d) := by
    rw [← seen_snoc, ← seen_snoc]; simp
  simp only [Answer, h2, Obs.note] at h1
  rw [h1]
  cases tf <;> simp

/-- **C147.** Two updates between the two loads, the count first: main code reads the period before last with the wrong sign. -/
theorem c147_two_updates (keep : Bool) (t0 : Nat) (es : List TimeExInterrupt.Ev) (h : HandlersUpdate es) (l1 l2 : List Entry) (t u d e v : Nat)
    (hl : (run keep true (St.init t0) es).log = l1 ++ [.look, .captured t d, .captured u e] ++ .read v :: l2) :
    (v : Int) = ((seen t0 l1).last - (t : Int)) % 2 ^ 16 := by
  have h1 := c147_handlers_update keep true t0 es h (l1 ++ [.look, .captured t d, .captured u e]) (.read v) l2 hl
  have h2 : seen t0 (l1 ++ [.look, .captured t d, .captured u e]) = (((seen t0 l1).note .look).note (.captured t d)).note (.captured u e) := by
    rw [← seen_snoc, ← seen_snoc, ← seen_snoc]; simp
  simp only [Answer, h2, Obs.note, if_true] at h1
  exact h1

/-- **C147.** Main code updates: a handler reads the time between the last two captures, modulo 2^16, except between main code's two stores in `Update`, where it reads 0. -/
theorem c147_heard (keep tf : Bool) (t0 : Nat) (es : List TimeExInterrupt.Ev) (h : MainUpdatesEx es) (ho : CallByCall keep tf (St.init t0) es) (l1 l2 : List Entry) (inside : Bool) (v : Nat)
    (hl : (run keep tf (St.init t0) es).log = l1 ++ .heard inside v :: l2) : (v : Int) = if inside then 0 else (seen t0 l1).delta % 2 ^ 16 :=
  c147_main_updates keep tf t0 es h ho l1 _ l2 hl

/-- **C147.** Main code alone in updating: its `Update` answers the time since the last capture, modulo 2^32, and so do handlers alone in updating. -/
theorem c147_told (keep tf : Bool) (t0 : Nat) (es : List TimeExInterrupt.Ev) (h : HandlersUpdate es ∨ (MainUpdatesEx es ∧ CallByCall keep tf (St.init t0) es)) (l1 l2 : List Entry) (t d : Nat)
    (hl : (run keep tf (St.init t0) es).log = l1 ++ .captured t d :: l2) : (d : Int) = ((t : Int) - (seen t0 l1).last) % 2 ^ 32 := by
  rcases h with h | ⟨h, ho⟩
  · exact c147_handlers_update keep tf t0 es h l1 _ l2 hl
  · exact c147_main_updates keep tf t0 es h ho l1 _ l2 hl

/-- **C147.** Without handlers main code's accesses are the functions of `TimeEx`. -/
theorem c147_alone (keep tf : Bool) (e : Time.Ex) (log : List Entry) (t : Nat) :
    (run keep tf ⟨e, .idle, log⟩ (.update :: List.replicate 4 (.main t))).ex = (e.update (clock t)).2 ∧
    (run keep tf ⟨e, .idle, log⟩ (.update :: List.replicate 4 (.main t))).log = log ++ [.captured t (e.update (clock t)).1] ∧
    run keep tf ⟨e, .idle, log⟩ [.reset, .main t, .main t] = ⟨e.reset, .idle, log ++ [.reset]⟩ ∧
    run keep tf ⟨e, .idle, log⟩ [.read, .main t] = ⟨e, .idle, log ++ [.look, .read e.getDeltaTime]⟩ := by
  cases keep <;> cases tf <;>
    simp [run, step, mainStep, List.replicate, Time.Ex.update, Time.update, Time.Ex.reset, Time.Ex.getDeltaTime, difference]

/-- Handlers update every 100 ticks; main code reads, and `n` updates come between its loads. -/
def updatesBetween (n : Nat) : List TimeExInterrupt.Ev := [.tick 100, .tick 200, .read] ++ (List.range n).map (fun i => .tick (300 + 100 * i)) ++ [.main 0]

/-- **C147 fails**: with 100 ticks from update to update main code reads 0, 65436 or 200. -/
theorem c147_read_fails (keep : Bool) :
    (run keep true (St.init 0) (updatesBetween 1)).log = [.captured 100 100, .captured 200 100, .look, .captured 300 100, .read 0] ∧
    (run keep true (St.init 0) (updatesBetween 2)).log = [.captured 100 100, .captured 200 100, .look, .captured 300 100, .captured 400 100, .read 65436] ∧
    (run keep false (St.init 0) (updatesBetween 1)).log = [.captured 100 100, .captured 200 100, .look, .captured 300 100, .read 200] := by
  cases keep <;> refine ⟨?_, ?_, ?_⟩ <;> decide +kernel

/-- Main code updates at 100 and at 200; a handler reads before, inside and after the second call. -/
def readsInside : List TimeExInterrupt.Ev :=
  [.update] ++ List.replicate 4 (.main 100) ++ [.ask, .update, .main 200, .ask, .main 200, .main 200, .ask, .main 200, .ask, .read, .ask, .main 250]

/-- **C147 fails**: the handler inside reads 0. -/
theorem c147_heard_fails (keep tf : Bool) : (run keep tf (St.init 0) readsInside).log =
    [.captured 100 100, .heard false 100, .heard true 0, .heard true 0, .captured 200 100, .heard false 100, .look, .heard false 100, .read 100] := by
  cases keep <;> cases tf <;> decide +kernel

/-- **C147.** The claim in full is false for both roles. -/
theorem c147_full_claim_is_false (keep tf : Bool) :
    (¬ ∀ (t0 : Nat) (es : List TimeExInterrupt.Ev) (l1 l2 : List Entry) (v : Nat), HandlersUpdate es → (run keep tf (St.init t0) es).log = l1 ++ .read v :: l2 →
      (v : Int) = (seen t0 l1).delta % 2 ^ 16) ∧
    (¬ ∀ (t0 : Nat) (es : List TimeExInterrupt.Ev) (l1 l2 : List Entry) (i : Bool) (v : Nat), MainUpdatesEx es → CallByCall keep tf (St.init t0) es →
      (run keep tf (St.init t0) es).log = l1 ++ .heard i v :: l2 → (v : Int) = (seen t0 l1).delta % 2 ^ 16) := by
  constructor
  · intro h
    cases tf with
    | true =>
      have := h 0 (updatesBetween 1) [.captured 100 100, .captured 200 100, .look, .captured 300 100] [] 0 (by simp [HandlersUpdate, updatesBetween, List.range_succ]) (c147_read_fails keep).1
      revert this; decide +kernel
    | false =>
      have := h 0 (updatesBetween 1) [.captured 100 100, .captured 200 100, .look, .captured 300 100] [] 200 (by simp [HandlersUpdate, updatesBetween, List.range_succ])
        (c147_read_fails keep).2.2
      revert this; decide +kernel
  · intro h
    have := h 0 readsInside [.captured 100 100, .heard false 100] _ true 0 (by simp [MainUpdatesEx, readsInside, List.replicate])
      (by cases keep <;> cases tf <;> simp [CallByCall, readsInside, List.replicate, St.init, step, mainStep]) (c147_heard_fails keep tf)
    revert this; decide +kernel

example (keep tf : Bool) : MainUpdatesEx readsInside ∧ CallByCall keep tf (St.init 0) readsInside :=
  ⟨by simp [MainUpdatesEx, readsInside, List.replicate], by cases keep <;> cases tf <;> simp [CallByCall, readsInside, List.replicate, St.init, step, mainStep]⟩

/-- Handlers update across a wrap of the counter, reset and read; main code reads with a handler reading in between. -/
def acrossWrapEx : List TimeExInterrupt.Ev := [.tick 4294967290, .tick 4294967310, .read, .ask, .main 0, .clear, .ask]

example (keep tf : Bool) : HandlersUpdate acrossWrapEx ∧ Unchanged [.heard false 20] ∧ (run keep tf (St.init 4294967200) acrossWrapEx).log =
    [.captured 4294967290 90, .captured 4294967310 20] ++ .look :: [.heard false 20] ++ .read 20 :: [.reset, .heard false 0] := by
  cases keep <;> cases tf <;> refine ⟨?_, ?_, ?_⟩ <;> first | decide +kernel | simp [HandlersUpdate, acrossWrapEx] | simp [Unchanged]
example (keep : Bool) : HandlersUpdate (updatesBetween 1) ∧ HandlersUpdate (updatesBetween 2) ∧
    (run keep true (St.init 0) (updatesBetween 1)).log = [.captured 100 100, .captured 200 100] ++ [.look, .captured 300 100] ++ .read 0 :: [] ∧
    (run keep true (St.init 0) (updatesBetween 2)).log = [.captured 100 100, .captured 200 100] ++ [.look, .captured 300 100, .captured 400 100] ++ .read 65436 :: [] :=
  ⟨by simp [HandlersUpdate, updatesBetween, List.range_succ], by simp [HandlersUpdate, updatesBetween, List.range_succ], (c147_read_fails keep).1, (c147_read_fails keep).2.1⟩

end Atl.Props
