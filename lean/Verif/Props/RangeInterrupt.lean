import Verif.Model.RangeInterrupt
import Verif.Props.CriticalSectionUse

/-!
  C163: one value container used by main code and by interrupt handlers.
-/
namespace Atl.Props
open Atl.RangeInterrupt Atl.ValueContainer

namespace RangeShared

/-! ### Specification -/

/-- The values from the one bound to the other. -/
def between (b e v : Int) : Bool := decide (min b e ≤ v ∧ v ≤ max b e)

/-- The values a container accepts. -/
def accepts (s : VC Int) (v : Int) : Bool :=
  match s.mode with
  | .none => false
  | .any => true
  | _ => between s.begin' s.end' v

/-- The values accepted behind a call, `m` those accepted before. -/
def meant (m : Int → Bool) : Call → Int → Bool
  | .single x => fun v => decide (v = x)
  | .range b e => between b e
  | .any => fun _ => true
  | .none => fun _ => false
  | .normalize => m

/-- Calls made as a whole, one behind the other: the values accepted, the answers main code and handlers get. -/
structure Serial where
  accepted : Int → Bool
  answers : List Bool
  seen : List Bool

/-- A call made as a whole. -/
def Serial.step (x : Serial) : RangeInterrupt.Ev → Serial
  | .ask v => { x with answers := x.answers ++ [x.accepted v] }
  | .set c => { x with accepted := meant x.accepted c }
  | .main => x
  | .handler c => { x with accepted := meant x.accepted c }
  | .look v => { x with seen := x.seen ++ [x.accepted v] }

/-- All calls of a history made as a whole. -/
def Serial.run (x : Serial) (es : List RangeInterrupt.Ev) : Serial := es.foldl Serial.step x

/-- The container has bounds. -/
def Bounded (s : VC Int) : Prop := s.mode = .single ∨ s.mode = .range

/-- Main code asks; behind `k` accesses a handler changes the container. -/
def askAround (k : Nat) (v : Int) (c : Call) : List RangeInterrupt.Ev := .ask v :: (List.replicate k .main ++ .handler c :: List.replicate (3 - k) .main)

/-- Main code changes the container; behind `k` stores a handler asks. -/
def setAround (k : Nat) (v : Int) (c : Call) : List RangeInterrupt.Ev := .set c :: (List.replicate k .main ++ [.look v])

/-- Two ranges overlap, or the one begins right behind the other. -/
def Touching (b e b' e' : Int) : Prop := b' ≤ e + 1 ∧ b ≤ e' + 1

/-! ### Proofs -/

theorem test_between (b e v : Int) : (if b > e then decide (e ≤ v) && decide (v ≤ b) else decide (b ≤ v) && decide (v ≤ e)) = between b e v := by
  unfold between
  split <;> rw [← Bool.decide_and, decide_eq_decide] <;> omega

theorem isInRange_accepts (s : VC Int) (v : Int) : isInRange s v = accepts s v := by
  obtain ⟨m, b, e⟩ := s
  have := test_between b e v
  cases m <;> simp [isInRange, accepts] <;> simpa using this

theorem accepts_apply (s : VC Int) (c : Call) : accepts (c.apply s) = meant (accepts s) c := by
  obtain ⟨m, b, e⟩ := s
  funext v
  cases c with
  | single x =>
    change between x x v = decide (v = x)
    unfold between
    rw [decide_eq_decide]
    omega
  | range x y => rfl
  | any => rfl
  | none => rfl
  | normalize =>
    simp only [Call.apply, ValueContainer.normalize, meant]
    split
    · cases m <;> simp only [accepts, between, Int.min_comm, Int.max_comm]
    · rfl

theorem apply_stores (s : VC Int) (c : Call) : (stores s c).foldl Store.make s = c.apply s := by
  obtain ⟨m, b, e⟩ := s
  cases c with
  | normalize =>
    simp only [stores, Call.apply, ValueContainer.normalize]
    split <;> rfl
  | _ => rfl

theorem bounded_modes {s : VC Int} (h : Bounded s) : s.mode ≠ .none ∧ s.mode ≠ .any := by
  rcases h with h | h <;> rw [h] <;> exact ⟨nofun, nofun⟩

theorem bounded_accepts {s : VC Int} (h : Bounded s) (v : Int) : accepts s v = between s.begin' s.end' v := by
  rcases h with h | h <;> simp only [accepts, h]

theorem not_bounded {s : VC Int} (h1 : s.mode ≠ .none) (h2 : s.mode ≠ .any) : Bounded s := by
  obtain ⟨m, b, e⟩ := s
  cases m
  · exact absurd rfl h1
  · exact .inl rfl
  · exact .inr rfl
  · exact absurd rfl h2

theorem half_step (ef : Bool) (y : RangeInterrupt.St) (v x : Int) (h : y.pc = .half v x) :
    mainStep ef y = { y with pc := .idle, answers := y.answers ++ [if ef then between y.vc.begin' x v else between x y.vc.end' v] } := by
  obtain ⟨s, pc, a, l⟩ := y
  change pc = _ at h
  subst h
  simp only [mainStep, test_between]
  cases ef <;> rfl

theorem mixture (b e b' e' : Int) (h : b ≤ e) (h' : b' ≤ e') : (∀ v, between b e' v = between b e v ∨ between b e' v = between b' e' v) ↔ Touching b e b' e' := by
  simp only [between, Touching, decide_eq_decide]
  constructor
  · intro hv
    have h1 := hv (e + 1)
    have h2 := hv (e' + 1)
    omega
  · intro ht v
    omega

end RangeShared
open RangeShared

/-- **C163.** An undisturbed `IsInRange` of main code gives what the container accepts, for each of the modes. -/
theorem c163_alone (ef : Bool) (y : RangeInterrupt.St) (hp : y.pc = .idle) (v : Int) :
    run ef y [.ask v, .main, .main, .main] = { y with answers := y.answers ++ [accepts y.vc v] } := by
  obtain ⟨⟨m, b, e⟩, pc, a, l⟩ := y
  change pc = .idle at hp
  subst hp
  cases m
  · rfl
  all_goals first | rfl | (cases ef <;> simp only [run, List.foldl, step, mainStep, test_between] <;> simp [test_between, accepts])

/-- **C163.** A handler's change behind main code's load of the mode: a container without bounds gives the old answer, any other one the answer of the new bounds, whatever the new mode. -/
theorem c163_ask_mode (ef : Bool) (y : RangeInterrupt.St) (hp : y.pc = .idle) (v : Int) (c : Call) :
    run ef y (askAround 1 v c) =
      { y with vc := c.apply y.vc
               answers := y.answers ++ [match y.vc.mode with | .none => false | .any => true | _ => between (c.apply y.vc).begin' (c.apply y.vc).end' v] } := by
  obtain ⟨⟨m, b, e⟩, pc, a, l⟩ := y
  change pc = .idle at hp
  subst hp
  cases m
  · rfl
  all_goals first | rfl | (cases ef <;> simp only [askAround, List.replicate, List.cons_append, List.nil_append, run, List.foldl, step, mainStep, test_between] <;> simp [test_between])

/-- **C163.** A handler's change between main code's loads of the bounds: the answer is that of a range with one old and one new bound. -/
theorem c163_ask_bounds (ef : Bool) (y : RangeInterrupt.St) (hp : y.pc = .idle) (hb : Bounded y.vc) (v : Int) (c : Call) :
    run ef y (askAround 2 v c) =
      { y with vc := c.apply y.vc
               answers := y.answers ++ [if ef then between (c.apply y.vc).begin' y.vc.end' v else between y.vc.begin' (c.apply y.vc).end' v] } := by
  obtain ⟨⟨m, b, e⟩, pc, a, l⟩ := y
  change pc = .idle at hp
  subst hp
  rcases hb with hb | hb <;> change m = _ at hb <;> subst hb <;> cases ef <;>
    simp only [askAround, List.replicate, List.cons_append, List.nil_append, run, List.foldl, step, mainStep, test_between] <;> simp [test_between]

/-- **C163.** A handler's `SetAny` or `SetNone` wherever it comes: main code's answer is the one before or the one behind it. -/
theorem c163_ask_switch (ef : Bool) (y : RangeInterrupt.St) (hp : y.pc = .idle) (v : Int) (k : Nat) (hk : k ≤ 3) (c : Call) (hc : c = .any ∨ c = .none) :
    (run ef y (askAround k v c)).answers = y.answers ++ [accepts y.vc v] ∨ (run ef y (askAround k v c)).answers = y.answers ++ [accepts (c.apply y.vc) v] := by
  obtain ⟨⟨m, b, e⟩, pc, a, l⟩ := y
  change pc = .idle at hp
  subst hp
  obtain rfl | rfl | rfl | rfl : k = 0 ∨ k = 1 ∨ k = 2 ∨ k = 3 := by omega
  · right
    rcases hc with rfl | rfl <;> cases m <;> rfl
  · left
    rw [c163_ask_mode ef _ rfl]
    rcases hc with rfl | rfl <;> cases m <;> rfl
  · left
    cases m
    · rfl
    · rw [c163_ask_bounds ef _ rfl (.inl rfl)]; rcases hc with rfl | rfl <;> cases ef <;> rfl
    · rw [c163_ask_bounds ef _ rfl (.inr rfl)]; rcases hc with rfl | rfl <;> cases ef <;> rfl
    · rfl
  · left
    have := congrArg St.answers (c163_alone ef ⟨⟨m, b, e⟩, .idle, a, l⟩ rfl v)
    have e : run ef ⟨⟨m, b, e⟩, .idle, a, l⟩ (askAround 3 v c) = step ef (run ef ⟨⟨m, b, e⟩, .idle, a, l⟩ [.ask v, .main, .main, .main]) (.handler c) := rfl
    rw [e]
    exact this

/-- **C163.** A handler's `SetRange` while main code asks for a range: main code's answer is the one before or the one behind it, for all values and wherever the handler comes, exactly if the two ranges
    overlap or touch. -/
theorem c163_ask_once (ef : Bool) (b e b' e' : Int) (h : b ≤ e) (h' : b' ≤ e') (a l : List Bool) :
    (∀ v k, k ≤ 3 → (run ef ⟨⟨.range, b, e⟩, .idle, a, l⟩ (askAround k v (.range b' e'))).answers = a ++ [between b e v] ∨
      (run ef ⟨⟨.range, b, e⟩, .idle, a, l⟩ (askAround k v (.range b' e'))).answers = a ++ [between b' e' v]) ↔ Touching b e b' e' := by
  have key : (∀ v, (if ef then between b' e v else between b e' v) = between b e v ∨ (if ef then between b' e v else between b e' v) = between b' e' v) ↔ Touching b e b' e' := by
    cases ef
    · exact mixture b e b' e' h h'
    · refine Iff.trans ⟨fun hv v => (hv v).symm, fun hv v => (hv v).symm⟩ ((mixture b' e' b e h' h).trans ?_)
      exact And.comm
  have hmix : ∀ v, (run ef ⟨⟨.range, b, e⟩, .idle, a, l⟩ (askAround 2 v (.range b' e'))).answers = a ++ [if ef then between b' e v else between b e' v] :=
    fun v => congrArg St.answers (c163_ask_bounds ef ⟨⟨.range, b, e⟩, .idle, a, l⟩ rfl (.inr rfl) v (.range b' e'))
  rw [← key]
  constructor
  · intro hv v
    have := hv v 2 (by omega)
    rw [hmix] at this
    simpa using this
  · intro hv v k hk
    obtain rfl | rfl | rfl | rfl : k = 0 ∨ k = 1 ∨ k = 2 ∨ k = 3 := by omega
    · right
      have := congrArg St.answers (c163_alone ef ⟨⟨.range, b', e'⟩, .idle, a, l⟩ rfl v)
      exact this
    · right
      rw [c163_ask_mode ef _ rfl]
      rfl
    · rw [hmix]
      rcases hv v with hv | hv
      · left; rw [hv]
      · right; rw [hv]
    · left
      have := congrArg St.answers (c163_alone ef ⟨⟨.range, b, e⟩, .idle, a, l⟩ rfl v)
      have e1 : run ef ⟨⟨.range, b, e⟩, .idle, a, l⟩ (askAround 3 v (.range b' e')) = step ef (run ef ⟨⟨.range, b, e⟩, .idle, a, l⟩ [.ask v, .main, .main, .main]) (.handler (.range b' e')) := rfl
      rw [e1]
      exact this

/-- **C163.** A handler's `Normalize`, that changes no answer, between main code's loads of the bounds: main code is told that a value is not in the range although it is, before and behind the call, unless
    it is the bound loaded first. -/
theorem c163_normalize_fails (ef : Bool) (b e v : Int) (hb : e < b) (hv : e ≤ v ∧ v ≤ b) (hn : v ≠ if ef then e else b) (a l : List Bool) :
    (run ef ⟨⟨.range, b, e⟩, .idle, a, l⟩ (askAround 2 v .normalize)).answers = a ++ [false] ∧ accepts ⟨.range, b, e⟩ v = true ∧ accepts (Call.normalize.apply ⟨.range, b, e⟩) v = true := by
  have h3 : accepts ⟨.range, b, e⟩ v = true := by
    change between b e v = true
    unfold between
    rw [decide_eq_true_eq]
    omega
  refine ⟨?_, h3, (congrFun (accepts_apply _ _) v).trans h3⟩
  have hap : Call.normalize.apply ⟨.range, b, e⟩ = ⟨.range, e, b⟩ := by simp [Call.apply, ValueContainer.normalize, hb]
  rw [c163_ask_bounds ef ⟨⟨.range, b, e⟩, .idle, a, l⟩ rfl (.inr rfl) v .normalize]
  simp only [hap]
  cases ef
  · have : between b b v = false := by
      change v ≠ b at hn
      unfold between
      rw [decide_eq_false_iff_not]
      omega
    simp [this]
  · have : between e e v = false := by
      change v ≠ e at hn
      unfold between
      rw [decide_eq_false_iff_not]
      omega
    simp [this]

/-- **C163.** A handler that asks between the two stores of main code's `Normalize`: of all the values in the range, only the one that was `_begin` is still accepted. -/
theorem c163_normalize_half_fails (ef : Bool) (b e : Int) (h : e < b) (a l : List Bool) (v : Int) :
    (run ef ⟨⟨.range, b, e⟩, .idle, a, l⟩ (setAround 1 v .normalize)).seen = l ++ [decide (v = b)] ∧ (accepts ⟨.range, b, e⟩ v = true ↔ e ≤ v ∧ v ≤ b) := by
  have hb : accepts ⟨.range, b, e⟩ v = between b e v := bounded_accepts (s := ⟨.range, b, e⟩) (.inr rfl) v
  have hs : stores ⟨.range, b, e⟩ .normalize = [.end_ b, .begin_ e] := if_pos h
  have h1 : (run ef ⟨⟨.range, b, e⟩, .idle, a, l⟩ (setAround 1 v .normalize)).seen = l ++ [isInRange ⟨.range, b, b⟩ v] := by
    simp only [setAround, run, List.replicate, List.cons_append, List.nil_append, List.foldl, step, if_true, hs, mainStep, Store.make]
  refine ⟨?_, ?_⟩
  · rw [h1, isInRange_accepts, bounded_accepts (.inr rfl)]
    have : between b b v = decide (v = b) := by
      unfold between
      rw [decide_eq_decide]
      omega
    rw [this]
  · rw [hb]
    unfold between
    rw [decide_eq_true_eq]
    omega

/-- **C163.** Main code's `SetRange` while handlers ask: a handler gets the answer before or the one behind it, for all values and wherever it comes, exactly if the two ranges overlap or touch. -/
theorem c163_set_once (ef : Bool) (b e b' e' : Int) (h : b ≤ e) (h' : b' ≤ e') (a l : List Bool) :
    (∀ v k, k ≤ 3 → (run ef ⟨⟨.range, b, e⟩, .idle, a, l⟩ (setAround k v (.range b' e'))).seen = l ++ [between b e v] ∨
      (run ef ⟨⟨.range, b, e⟩, .idle, a, l⟩ (setAround k v (.range b' e'))).seen = l ++ [between b' e' v]) ↔ Touching b e b' e' := by
  have key : (∀ v, between b' e v = between b e v ∨ between b' e v = between b' e' v) ↔ Touching b e b' e' :=
    Iff.trans ⟨fun hv v => (hv v).symm, fun hv v => (hv v).symm⟩ ((mixture b' e' b e h' h).trans And.comm)
  have at' : ∀ (s : VC Int) v, s.mode = .range → l ++ [isInRange s v] = l ++ [between s.begin' s.end' v] := fun s v hs => by rw [isInRange_accepts, bounded_accepts (.inr hs)]
  rw [← key]
  constructor
  · intro hv v
    have := hv v 2 (by omega)
    have hm : (run ef ⟨⟨.range, b, e⟩, .idle, a, l⟩ (setAround 2 v (.range b' e'))).seen = l ++ [between b' e v] := at' ⟨.range, b', e⟩ v rfl
    rw [hm] at this
    simpa using this
  · intro hv v k hk
    obtain rfl | rfl | rfl | rfl : k = 0 ∨ k = 1 ∨ k = 2 ∨ k = 3 := by omega
    · left; exact at' ⟨.range, b, e⟩ v rfl
    · left; exact at' ⟨.range, b, e⟩ v rfl
    · have hm : (run ef ⟨⟨.range, b, e⟩, .idle, a, l⟩ (setAround 2 v (.range b' e'))).seen = l ++ [between b' e v] := at' ⟨.range, b', e⟩ v rfl
      rw [hm]
      rcases hv v with hv | hv
      · left; rw [hv]
      · right; rw [hv]
    · right; exact at' ⟨.range, b', e'⟩ v rfl

/-- **C163.** Main code gives a new container its first range: a handler behind the store of the mode is answered from what was in memory, also for a value neither accepted before nor behind the call. -/
theorem c163_stale_fails (ef : Bool) (g : Int × Int) (b e v : Int) : (run ef (St.init g) (setAround 1 v (.range b e))).seen = [between g.1 g.2 v] := by
  have : [isInRange ⟨.range, g.1, g.2⟩ v] = [between g.1 g.2 v] := by rw [isInRange_accepts]; rfl
  exact this

/-- **C163.** A handler's `SetRange` behind main code's store of `_begin`: a range that nobody has set stays. -/
theorem c163_lasting_fails (ef : Bool) (y : RangeInterrupt.St) (hp : y.pc = .idle) (b e b' e' : Int) :
    run ef y [.set (.range b e), .main, .main, .handler (.range b' e'), .main, .main] = { y with vc := ⟨.range, b', e⟩ } := by
  obtain ⟨s, pc, a, l⟩ := y
  change pc = .idle at hp
  subst hp
  rfl

/-! ### In sections -/

namespace RangeShared

/-- The container as a shared object (ValueContainer.h 56-106). -/
abbrev container (ef : Bool) : CriticalSection.Machine where
  St := RangeInterrupt.St
  Ev := RangeInterrupt.Ev
  step := fun y e => .ok (RangeInterrupt.step ef y e)
  kind := fun | .ask _ | .set _ => .enter | .main => .within | .handler _ | .look _ => .handler
  idle := fun y => y.pc = .idle
  proper := fun _ => True

theorem lawful_container (ef : Bool) : Sections.Lawful (container ef) := by
  intro (y : RangeInterrupt.St) (e : RangeInterrupt.Ev) (y' : RangeInterrupt.St) (hi : y.pc = .idle) hk h
  change Res.ok (RangeInterrupt.step ef y e) = .ok y' at h
  injection h with h
  subst h
  change (RangeInterrupt.step ef y e).pc = .idle
  cases e with
  | ask v => exact absurd rfl hk
  | set c => exact absurd rfl hk
  | main => simp only [step, mainStep, hi]
  | handler c => exact hi
  | look v => exact hi

theorem run_container (ef : Bool) (es : List RangeInterrupt.Ev) (y : RangeInterrupt.St) : (container ef).run y es = .ok (RangeInterrupt.run ef y es) :=
  Sections.run_is (M := container ef) (R := fun y es => .ok (RangeInterrupt.run ef y es)) (fun _ => rfl) (fun _ _ _ => rfl) es y

/-- What main code's call has still to do. -/
def Rest (ef : Bool) (s : VC Int) (a : List Bool) (x : Serial) : Pc → Prop
  | .idle => accepts s = x.accepted ∧ a = x.answers
  | .mode v => accepts s = x.accepted ∧ a ++ [x.accepted v] = x.answers
  | .bounds v => Bounded s ∧ accepts s = x.accepted ∧ a ++ [x.accepted v] = x.answers
  | .half v w => Bounded s ∧ accepts s = x.accepted ∧ a ++ [x.accepted v] = x.answers ∧ w = if ef then s.end' else s.begin'
  | .storing st => accepts (st.foldl Store.make s) = x.accepted ∧ a = x.answers

/-- The container and the calls made as a whole. -/
def Rel (ef : Bool) (y : RangeInterrupt.St) (x : Serial) : Prop := y.seen = x.seen ∧ Rest ef y.vc y.answers x y.pc

theorem rel_step {ef : Bool} {y : RangeInterrupt.St} {x : Serial} (h : Rel ef y x) (e : RangeInterrupt.Ev) (hq : (container ef).kind e ≠ .within → y.pc = .idle) :
    Rel ef (step ef y e) (x.step e) := by
  obtain ⟨s, pc, a, l⟩ := y
  obtain ⟨h1, h2⟩ := h
  change l = x.seen at h1
  change Rest ef s a x pc at h2
  cases e with
  | ask v =>
    have hp : pc = .idle := hq nofun
    subst hp
    refine ⟨h1, h2.1, ?_⟩
    change a ++ [x.accepted v] = x.answers ++ [x.accepted v]
    rw [h2.2]
  | set c =>
    have hp : pc = .idle := hq nofun
    subst hp
    refine ⟨h1, ?_, h2.2⟩
    change accepts ((stores s c).foldl Store.make s) = meant x.accepted c
    rw [apply_stores, accepts_apply, h2.1]
  | handler c =>
    have hp : pc = .idle := hq nofun
    subst hp
    refine ⟨h1, ?_, h2.2⟩
    change accepts (c.apply s) = meant x.accepted c
    rw [accepts_apply, h2.1]
  | look v =>
    have hp : pc = .idle := hq nofun
    subst hp
    refine ⟨?_, h2⟩
    change l ++ [isInRange s v] = x.seen ++ [x.accepted v]
    rw [isInRange_accepts, h1, h2.1]
  | main =>
    cases pc with
    | idle => exact ⟨h1, h2⟩
    | mode v =>
      change Rel ef (mainStep ef ⟨s, .mode v, a, l⟩) x
      simp only [mainStep]
      split
      · next hm =>
        refine ⟨h1, h2.1, ?_⟩
        rw [← h2.2, ← h2.1]
        simp only [accepts, hm]
      · next hm =>
        split
        · next hm' =>
          refine ⟨h1, h2.1, ?_⟩
          rw [← h2.2, ← h2.1]
          simp only [accepts, hm']
        · next hm' => exact ⟨h1, not_bounded hm hm', h2⟩
    | bounds v => exact ⟨h1, h2.1, h2.2.1, h2.2.2, rfl⟩
    | half v w =>
      obtain ⟨hb, ha, hr, hw⟩ := h2
      change Rel ef (mainStep ef ⟨s, .half v w, a, l⟩) x
      rw [half_step ef _ v w rfl]
      refine ⟨h1, ha, ?_⟩
      rw [← hr, ← ha, bounded_accepts hb]
      subst hw
      cases ef <;> rfl
    | storing st =>
      cases st with
      | nil => exact ⟨h1, h2⟩
      | cons t st => exact ⟨h1, h2⟩

theorem rel_run {ef : Bool} (es : List RangeInterrupt.Ev) : ∀ (y : RangeInterrupt.St) (x : Serial), Rel ef y x → Sections.Clean (container ef) y es → Rel ef (run ef y es) (x.run es) := by
  induction es with
  | nil => exact fun _ _ h _ => h
  | cons e es ih => exact fun y x h hc => ih _ _ (rel_step h e hc.1.2) (hc.2 _ rfl)

end RangeShared

/-- **C163.** Main code that uses the container only with interrupts off: outside of calls every answer got, and what the container accepts, is as if every call had been made as a whole. -/
theorem c163_sections (ef on : Bool) (g : Int × Int) (es : List (CriticalSection.Ev RangeInterrupt.Ev)) (hs : Sections.Sectioned (container ef) (CriticalSection.Board.init _ (St.init g) on) es) :
    ∃ d, CriticalSection.run (container ef) (CriticalSection.Board.init _ (St.init g) on) es = .ok d ∧ d.obj = run ef (St.init g) d.trace ∧
      (d.obj.pc = .idle → d.obj.answers = (Serial.run ⟨fun _ => false, [], []⟩ d.trace).answers ∧ d.obj.seen = (Serial.run ⟨fun _ => false, [], []⟩ d.trace).seen ∧
        accepts d.obj.vc = (Serial.run ⟨fun _ => false, [], []⟩ d.trace).accepted) := by
  obtain ⟨d, hd⟩ := c151_defined _ (lawful_container ef) (St.init g) on (fun _ => rfl) es hs fun tr _ => ⟨_, run_container ef tr _⟩
  obtain ⟨h1, h2⟩ := c151_apart _ (lawful_container ef) (St.init g) on (fun _ => rfl) es hs d hd
  have h3 : run ef (St.init g) d.trace = d.obj := by
    have := (run_container ef d.trace (St.init g)).symm.trans h2
    injection this
  have hr := rel_run d.trace (St.init g) ⟨fun _ => false, [], []⟩ ⟨rfl, rfl, rfl⟩ h1
  rw [h3] at hr
  refine ⟨d, hd, h3.symm, fun hp => ?_⟩
  obtain ⟨hs', hrest⟩ := hr
  rw [hp] at hrest
  exact ⟨hrest.2, hs', hrest.1⟩

/-- **C163.** The full claim, that main code is given the answer before or the one behind a handler's call, is false of the code. -/
theorem c163_full_claim_is_false :
    ¬ ∀ (ef : Bool) (y : RangeInterrupt.St) (v : Int) (k : Nat) (c : Call), y.pc = .idle → k ≤ 3 →
      (run ef y (askAround k v c)).answers = y.answers ++ [accepts y.vc v] ∨ (run ef y (askAround k v c)).answers = y.answers ++ [accepts (c.apply y.vc) v] := by
  intro h
  have := h false ⟨⟨.range, 0, 1⟩, .idle, [], []⟩ 5 2 (.range 8 9) rfl (by decide)
  revert this
  decide

/-! ### Cases -/

namespace RangeShared
/-- Main code sets a range and asks in sections; a handler's request waits, then it sets another one. -/
def inTurn : List (CriticalSection.Ev RangeInterrupt.Ev) :=
  [.off, .main (.set (.range 5 2)), .main .main, .request 0, .main .main, .serve 0 [.handler (.range 8 9)], .main .main, .main .main, .on, .other, .serve 0 [.look 3, .handler (.range 8 9)], .other, .off,
    .main (.ask 3), .main .main, .main .main, .main .main, .on]
instance (ef : Bool) : DecidablePred (container ef).proper := fun _ => inferInstanceAs (Decidable True)
instance (ef : Bool) : DecidablePred (container ef).idle := fun y => inferInstanceAs (Decidable (y.pc = .idle))
end RangeShared

example := c163_alone true ⟨⟨.range, 5, 2⟩, .idle, [], []⟩ rfl 3
example := c163_ask_mode false ⟨⟨.single, 5, 5⟩, .idle, [true], []⟩ rfl 3 (.range 1 4)
example := c163_ask_bounds false ⟨⟨.range, 0, 1⟩, .idle, [], []⟩ rfl (.inr rfl) 5 (.range 8 9)
example : (run false ⟨⟨.range, 0, 1⟩, .idle, [], []⟩ (askAround 2 5 (.range 8 9))).answers = [true] := by decide
example := c163_ask_switch true ⟨⟨.range, 0, 1⟩, .idle, [], []⟩ rfl 1 2 (by decide) .none (.inr rfl)
example := (c163_ask_once false 0 4 5 9 (by decide) (by decide) [] []).2 ⟨by decide, by decide⟩
example : ¬ Touching 0 3 5 9 := by unfold Touching; decide
example := c163_normalize_fails true 9 2 5 (by decide) (by decide) (by decide) [] []
example := (c163_normalize_half_fails false 9 2 (by decide) [] [] 5).1
example := (c163_set_once true 0 4 3 9 (by decide) (by decide) [] []).2 ⟨by decide, by decide⟩
example : (run false (St.init (7, 7)) (setAround 1 7 (.range 0 3))).seen = [true] ∧ between 0 3 7 = false := ⟨c163_stale_fails false (7, 7) 0 3 7, by decide⟩
example := c163_lasting_fails false (St.init (0, 0)) rfl 1 2 8 9
example := c163_sections false true (0, 0) inTurn (by decide +kernel)
example : ∃ d, CriticalSection.run (container false) (CriticalSection.Board.init _ (St.init (0, 0)) true) inTurn = .ok d ∧ d.obj.answers = [false] ∧ d.obj.seen = [true] ∧ d.obj.pc = .idle := ⟨_, rfl, rfl, rfl, rfl⟩

end Atl.Props
