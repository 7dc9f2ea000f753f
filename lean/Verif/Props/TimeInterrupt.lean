import Verif.Model.TimeInterrupt

/- Property theorems C145: one clock object updated by main code and by interrupt handlers. -/
namespace Atl.Props
open Atl Atl.TimeInterrupt

namespace SharedClock

/-! ### Specification -/

/-- The sum of all deltas returned so far. -/
def reported (s : St) : Nat := (s.log.map (·.delta)).sum

/-- The sum of those returned to handlers while main code was in `Update`. -/
def reportedInside (s : St) : Nat := ((s.log.filter (·.inside)).map (·.delta)).sum

/-- Main code makes one call after the other. -/
def Sensible (keep : Bool) (s : St) : List TimeInterrupt.Ev → Prop
  | [] => True
  | e :: es => (e = .start → s.pc = .idle) ∧ Sensible keep (step keep s e) es

/-- Handlers stay outside of main code's `Update`. -/
def Outside (keep : Bool) (s : St) : List TimeInterrupt.Ev → Prop
  | [] => True
  | e :: es => (∀ t, e = .handler t → s.pc = .idle) ∧ Outside keep (step keep s e) es

/-- The time goes on: no event is earlier than the one before, the first not before `t`, and all within 2^32 ticks of `t0`. -/
def Onwards (t0 : Nat) : Nat → List TimeInterrupt.Ev → Prop
  | _, [] => True
  | t, .start :: es => Onwards t0 t es
  | t, .main t' :: es => t ≤ t' ∧ t' < t0 + 2 ^ 32 ∧ Onwards t0 t' es
  | t, .handler t' :: es => t ≤ t' ∧ t' < t0 + 2 ^ 32 ∧ Onwards t0 t' es

/-! ### Proofs -/

/-- What the answers add up to, seen from main code's place. -/
def owed (s : St) : Int := match s.pc with
  | .idle => 0
  | .loaded p | .clocked p _ | .stored p => (s.ticks : Int) - p

theorem toU_mod (x : Int) : ((toU 32 x : Nat) : Int) % 2 ^ 32 = x % 2 ^ 32 := by
  unfold toU; omega

theorem reported_snoc (l : List Entry) (e : Entry) (a : Nat) (p : Pc) : reported ⟨a, p, l ++ [e]⟩ = reported ⟨a, p, l⟩ + e.delta := by
  simp [reported]

theorem inside_snoc (l : List Entry) (e : Entry) (a : Nat) (p : Pc) : reportedInside ⟨a, p, l ++ [e]⟩ = reportedInside ⟨a, p, l⟩ + if e.inside then e.delta else 0 := by
  cases h : e.inside <;> simp [reportedInside, h]

/-- The books: modulo 2^32. -/
def Books (a : Nat) (s : St) : Prop := ((reported s : Int) - reportedInside s - ((s.ticks : Int) - a) + owed s) % 2 ^ 32 = 0

theorem books_step (keep : Bool) (a : Nat) (s : St) (e : TimeInterrupt.Ev) (h : Books a s) (hs : e = .start → s.pc = .idle) : Books a (step keep s e) := by
  obtain ⟨ticks, pc, log⟩ := s
  unfold Books at h ⊢
  cases e with
  | start =>
    have hi := hs rfl
    simp only at hi
    subst hi
    simp only [step, owed, reported, reportedInside] at h ⊢
    omega
  | main t =>
    cases pc with
    | idle => exact h
    | loaded p => exact h
    | clocked p n =>
      cases keep with
      | true =>
        have h1 := toU_mod ((n : Int) - p)
        simp only [step, mainStep, if_true, owed, reported_snoc, inside_snoc, Bool.false_eq_true, if_false] at h ⊢
        simp only [reported, reportedInside] at h ⊢
        omega
      | false =>
        simp only [step, mainStep, Bool.false_eq_true, if_false, owed, reported, reportedInside] at h ⊢
        omega
    | stored p =>
      have h1 := toU_mod ((ticks : Int) - p)
      simp only [step, mainStep, owed, reported_snoc, inside_snoc, Bool.false_eq_true, if_false] at h ⊢
      simp only [reported, reportedInside] at h ⊢
      omega
  | handler t =>
    have h1 := toU_mod ((clock t : Int) - ticks)
    cases pc <;> simp only [step, Time.update, owed, reported_snoc, inside_snoc, ne_eq, not_true_eq_false, decide_false, reduceCtorEq, not_false_eq_true, decide_true, Bool.false_eq_true, if_false, if_true] at h ⊢ <;>
      simp only [reported, reportedInside] at h ⊢ <;> omega

theorem books_run (keep : Bool) (a : Nat) (es : List TimeInterrupt.Ev) : ∀ s, Books a s → Sensible keep s es → Books a (run keep s es) := by
  induction es with
  | nil => intro s h _; exact h
  | cons e es ih => intro s h hs; exact ih _ (books_step keep a s e h hs.1) hs.2

theorem toU_diff (a b : Nat) (h : a ≤ b) (h2 : b < a + 2 ^ 32) : toU 32 ((clock b : Int) - clock a) = b - a := by
  unfold toU clock; omega

/-- The books in true time: `T` is the time captured in `_ticks`. -/
def Paid (t0 t : Nat) (s : St) : Prop := ∃ T : Nat, s.ticks = clock T ∧ t0 ≤ T ∧ T ≤ t ∧
  match s.pc with
  | .idle => (reported s : Int) = reportedInside s + (T - t0)
  | .loaded p => ∃ P : Nat, p = clock P ∧ t0 ≤ P ∧ P ≤ T ∧ (reported s : Int) = reportedInside s + (P - t0)
  | .clocked p n => ∃ P M : Nat, p = clock P ∧ n = clock M ∧ t0 ≤ P ∧ P ≤ T ∧ P ≤ M ∧ M ≤ t ∧ (reported s : Int) = reportedInside s + (P - t0)
  | .stored p => ∃ P : Nat, p = clock P ∧ t0 ≤ P ∧ P ≤ T ∧ (reported s : Int) = reportedInside s + (P - t0)

theorem paid_main (keep : Bool) (t0 t t' : Nat) (s : St) (h : Paid t0 t s) (h1 : t ≤ t') (h2 : t' < t0 + 2 ^ 32) : Paid t0 t' (mainStep keep s t') := by
  obtain ⟨ticks, pc, log⟩ := s
  obtain ⟨T, hT, h3, h4, h5⟩ := h
  cases pc with
  | idle => exact ⟨T, hT, h3, by omega, h5⟩
  | loaded p =>
    obtain ⟨P, h6, h7, h8, h9⟩ := h5
    exact ⟨T, hT, h3, by omega, P, t', h6, rfl, h7, h8, by omega, by omega, h9⟩
  | clocked p n =>
    obtain ⟨P, M, h6, h7, h8, h9, h10, h11, h12⟩ := h5
    cases keep with
    | true =>
      refine ⟨M, h7, by omega, by omega, ?_⟩
      simp only [mainStep, if_true, reported_snoc, inside_snoc, Bool.false_eq_true, if_false, h6, h7, toU_diff P M h10 (by omega)]
      simp only [reported, reportedInside] at h12 ⊢
      omega
    | false =>
      refine ⟨M, h7, by omega, by omega, P, h6, h8, by omega, ?_⟩
      exact h12
  | stored p =>
    obtain ⟨P, h6, h7, h8, h9⟩ := h5
    refine ⟨T, hT, h3, by omega, ?_⟩
    simp only at hT
    simp only [mainStep, reported_snoc, inside_snoc, Bool.false_eq_true, if_false, h6, hT, toU_diff P T h8 (by omega)]
    simp only [reported, reportedInside] at h9 ⊢
    omega

theorem paid_handler (keep : Bool) (t0 t t' : Nat) (s : St) (h : Paid t0 t s) (h1 : t ≤ t') (h2 : t' < t0 + 2 ^ 32) : Paid t0 t' (step keep s (.handler t')) := by
  obtain ⟨ticks, pc, log⟩ := s
  obtain ⟨T, hT, h3, h4, h5⟩ := h
  simp only at hT
  have hd := toU_diff T t' (by omega) (by omega)
  refine ⟨t', rfl, by omega, Nat.le_refl _, ?_⟩
  cases pc with
  | idle =>
    simp only [step, Time.update, hT, hd, reported_snoc, inside_snoc, ne_eq, not_true_eq_false, decide_false, Bool.false_eq_true, if_false]
    simp only [reported, reportedInside] at h5 ⊢
    omega
  | loaded p =>
    obtain ⟨P, h6, h7, h8, h9⟩ := h5
    refine ⟨P, h6, h7, by omega, ?_⟩
    simp only [step, Time.update, hT, hd, reported_snoc, inside_snoc, ne_eq, reduceCtorEq, not_false_eq_true, decide_true, if_true]
    simp only [reported, reportedInside] at h9 ⊢
    omega
  | clocked p n =>
    obtain ⟨P, M, h6, h7, h8, h9, h10, h11, h12⟩ := h5
    refine ⟨P, M, h6, h7, h8, by omega, h10, by omega, ?_⟩
    simp only [step, Time.update, hT, hd, reported_snoc, inside_snoc, ne_eq, reduceCtorEq, not_false_eq_true, decide_true, if_true]
    simp only [reported, reportedInside] at h12 ⊢
    omega
  | stored p =>
    obtain ⟨P, h6, h7, h8, h9⟩ := h5
    refine ⟨P, h6, h7, by omega, ?_⟩
    simp only [step, Time.update, hT, hd, reported_snoc, inside_snoc, ne_eq, reduceCtorEq, not_false_eq_true, decide_true, if_true]
    simp only [reported, reportedInside] at h9 ⊢
    omega

theorem paid_run (keep : Bool) (t0 : Nat) (es : List TimeInterrupt.Ev) : ∀ t s, t < t0 + 2 ^ 32 → Paid t0 t s → Sensible keep s es → Onwards t0 t es → ∃ t', t' < t0 + 2 ^ 32 ∧ Paid t0 t' (run keep s es) := by
  induction es with
  | nil => intro t s hb h _ _; exact ⟨t, hb, h⟩
  | cons e es ih =>
    intro t s hb h hs ho
    cases e with
    | start =>
      refine ih t _ hb ?_ hs.2 ho
      have hi := hs.1 rfl
      obtain ⟨ticks, pc, log⟩ := s
      simp only at hi
      subst hi
      obtain ⟨T, hT, h3, h4, h5⟩ := h
      exact ⟨T, hT, h3, h4, T, hT, h3, Nat.le_refl _, h5⟩
    | main t' => exact ih t' _ ho.2.1 (paid_main keep t0 t t' s h ho.1 ho.2.1) hs.2 ho.2.2
    | handler t' => exact ih t' _ ho.2.1 (paid_handler keep t0 t t' s h ho.1 ho.2.1) hs.2 ho.2.2

theorem paid_init (t : Nat) : Paid t t (St.init t) :=
  ⟨t, rfl, Nat.le_refl _, Nat.le_refl _, by simp [St.init, reported, reportedInside]⟩

/-- Without handlers inside nothing is reported inside. -/
theorem outside_run (keep : Bool) (es : List TimeInterrupt.Ev) : ∀ s, Outside keep s es → reportedInside (run keep s es) = reportedInside s := by
  induction es with
  | nil => intro s _; rfl
  | cons e es ih =>
    intro s h
    have h1 := ih _ h.2
    show reportedInside (run keep (step keep s e) es) = _
    rw [h1]
    obtain ⟨ticks, pc, log⟩ := s
    cases e with
    | start => rfl
    | main t =>
      cases pc with
      | idle => rfl
      | loaded p => rfl
      | clocked p n => cases keep <;> simp [step, mainStep, reportedInside]
      | stored p => simp [step, mainStep, reportedInside]
    | handler t =>
      have h2 := h.1 t rfl
      simp only at h2
      subst h2
      simp [step, reportedInside]

end SharedClock

open SharedClock

/-- **C145.** For every history, however long: when main code is outside `Update`, the deltas reported are the time between the first and the last capture plus the deltas
    reported to handlers inside main code's `Update`, modulo 2^32. -/
theorem c145_balance (keep : Bool) (t0 : Nat) (es : List TimeInterrupt.Ev) (hs : Sensible keep (St.init t0) es) (hi : (run keep (St.init t0) es).pc = .idle) :
    ((reported (run keep (St.init t0) es) : Int) - ((run keep (St.init t0) es).ticks - clock t0 + reportedInside (run keep (St.init t0) es))) % 2 ^ 32 = 0 := by
  have h := books_run keep (clock t0) es (St.init t0) (by simp [Books, St.init, reported, reportedInside, owed, Time.create, Time.update]) hs
  unfold Books at h
  simp only [owed, hi] at h
  omega

/-- **C145.** For every history of less than 2^32 ticks (with or without a wrap of the counter): the deltas reported are exactly the time from the construction to some time `T` (the one
    in `_ticks`) plus the deltas reported to handlers inside main code's `Update`. So these are counted twice. -/
theorem c145_counted_twice (keep : Bool) (t0 : Nat) (es : List TimeInterrupt.Ev) (hs : Sensible keep (St.init t0) es) (ho : Onwards t0 t0 es)
    (hi : (run keep (St.init t0) es).pc = .idle) : ∃ T, t0 ≤ T ∧ T < t0 + 2 ^ 32 ∧ (run keep (St.init t0) es).ticks = clock T ∧
      reported (run keep (St.init t0) es) = (T - t0) + reportedInside (run keep (St.init t0) es) := by
  obtain ⟨t', hb, T, h1, h2, h3, h4⟩ := paid_run keep t0 es t0 _ (by omega) (paid_init t0) hs ho
  refine ⟨T, h2, by omega, h1, ?_⟩
  simp only [hi] at h4
  omega

/-- **C145, partial.** Handlers outside of main code's `Update`: the deltas reported are exactly the time passed between construction and the last capture. -/
theorem c145_outside_partial (keep : Bool) (t0 : Nat) (es : List TimeInterrupt.Ev) (hs : Sensible keep (St.init t0) es) (ho : Onwards t0 t0 es) (hq : Outside keep (St.init t0) es)
    (hi : (run keep (St.init t0) es).pc = .idle) : ∃ T, t0 ≤ T ∧ T < t0 + 2 ^ 32 ∧ (run keep (St.init t0) es).ticks = clock T ∧ reported (run keep (St.init t0) es) = T - t0 := by
  obtain ⟨T, h1, hb, h2, h3⟩ := c145_counted_twice keep t0 es hs ho hi
  have h4 : reportedInside (run keep (St.init t0) es) = 0 := outside_run keep es _ hq
  exact ⟨T, h1, hb, h2, by omega⟩

/-- **C145.** Without handlers main code's accesses are `Time::Update`. -/
theorem c145_alone (keep : Bool) (s : St) (a b c : Nat) : run keep s [.start, .main a, .main b, .main c] =
    ⟨(Time.update s.ticks (clock a)).2, .idle, s.log ++ [⟨true, false, (Time.update s.ticks (clock a)).1⟩]⟩ := by
  cases keep <;> rfl

/-- **C145.** A handler at time `u` behind main code's load or its reading of the clock at time `a`: it is told the time since the last capture, and main code too. In the second case
    `_ticks` is behind, and the time since `a` will be reported once more. -/
theorem c145_places (keep : Bool) (s : St) (a u b c : Nat) :
    (∃ es, es = [.start, .handler u, .main a, .main b, .main c] ∧ run keep s es =
      ⟨clock a, .idle, s.log ++ [⟨false, true, toU 32 ((clock u : Int) - s.ticks)⟩, ⟨true, false, toU 32 ((clock a : Int) - s.ticks)⟩]⟩) ∧
    (∃ es, es = [.start, .main a, .handler u, .main b, .main c] ∧ run keep s es =
      ⟨clock a, .idle, s.log ++ [⟨false, true, toU 32 ((clock u : Int) - s.ticks)⟩, ⟨true, false, toU 32 ((clock a : Int) - s.ticks)⟩]⟩) := by
  refine ⟨⟨_, rfl, ?_⟩, ⟨_, rfl, ?_⟩⟩ <;> cases keep <;> simp [run, step, mainStep, Time.update]

/-- Main code updates at 1000; a handler updates at 990, inside main code's call; main code updates at 2000. -/
def twice : List TimeInterrupt.Ev := [.start, .handler 990, .main 1000, .main 1000, .main 1000, .start, .main 2000, .main 2000, .main 2000]

/-- **C145 fails**: 2000 ticks have passed, 2990 are reported. -/
theorem c145_twice_fails (keep : Bool) : (run keep (St.init 0) twice).ticks = 2000 ∧ reported (run keep (St.init 0) twice) = 2990 := by
  cases keep <;> decide +kernel

/-- **C145.** The claim in full, for handlers at any place, is false. -/
theorem c145_full_claim_is_false (keep : Bool) : ¬ ∀ (t0 : Nat) (es : List TimeInterrupt.Ev), Sensible keep (St.init t0) es → Onwards t0 t0 es → (run keep (St.init t0) es).pc = .idle →
    ∃ T, t0 ≤ T ∧ T < t0 + 2 ^ 32 ∧ (run keep (St.init t0) es).ticks = clock T ∧ reported (run keep (St.init t0) es) = T - t0 := by
  intro h
  obtain ⟨T, _, h3, h2, h4⟩ := h 0 twice (by cases keep <;> simp [Sensible, twice, St.init, step, mainStep]) (by simp [Onwards, twice]) (by cases keep <;> decide +kernel)
  have h5 := c145_twice_fails keep
  rw [h5.1] at h2
  rw [h5.2] at h4
  unfold clock at h2
  omega

/-- The counter wraps between two updates of main code, handlers update in between. -/
def acrossWrap : List TimeInterrupt.Ev := [.handler 4294967290, .start, .main 4294967300, .main 4294967301, .main 4294967302, .handler 4294967310]

example (keep : Bool) : Sensible keep (St.init 4294967200) acrossWrap ∧ Onwards 4294967200 4294967200 acrossWrap ∧ Outside keep (St.init 4294967200) acrossWrap ∧
    (run keep (St.init 4294967200) acrossWrap).pc = .idle ∧ reported (run keep (St.init 4294967200) acrossWrap) = 110 ∧ (run keep (St.init 4294967200) acrossWrap).ticks = 14 := by
  cases keep <;> refine ⟨?_, ?_, ?_, ?_, ?_, ?_⟩ <;> first | decide +kernel | simp [Sensible, Onwards, Outside, acrossWrap, St.init, step, mainStep]
example (keep : Bool) : Sensible keep (St.init 0) twice ∧ Onwards 0 0 twice ∧ (run keep (St.init 0) twice).pc = .idle ∧ reportedInside (run keep (St.init 0) twice) = 990 := by
  cases keep <;> refine ⟨?_, ?_, ?_, ?_⟩ <;> first | decide +kernel | simp [Sensible, Onwards, twice, St.init, step, mainStep]

end Atl.Props
