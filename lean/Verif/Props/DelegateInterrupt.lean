import Verif.Model.DelegateInterrupt
import Verif.Props.Delegate
import Verif.Props.CriticalSectionUse

/-!
  C164: one delegate given objects and invoked by main code and by interrupt handlers.
-/
namespace Atl.Props
open Atl.Delegate Atl.DelegateInterrupt Atl.Spec.Delegate

namespace DelegateShared
variable {σ α ρ : Type}

/-! ### Specification -/

/-- The address with the first byte of `n`, the other one of `o`. -/
def torn (lowFirst : Bool) (n o : Nat) : Nat := if lowFirst then n % 256 + 256 * (o / 256) else o % 256 + 256 * (n / 256)

/-- Two addresses have a byte in common. -/
def Common (a b : Nat) : Prop := a % 256 = b % 256 ∨ a / 256 = b / 256

/-- The objects given to the delegate. -/
def given (es : List (DelegateInterrupt.Ev α)) : List Nat := es.filterMap fun | .give a | .handlerGive a => some a | _ => none

/-- Every object is what its calls have made of it, and every call has had its result. -/
def Effects (ms : Methods σ α ρ) (start : Heap σ) (y : DelegateInterrupt.St σ α ρ) : Prop :=
  (∀ a, y.heap a = (start a).map fun s => sees ms s (mine a y.calls)) ∧ y.results.length = y.calls.length ∧ ∀ i, y.results[i]? = result ms start y.calls i

/-- The calls, if every one is made as a whole: `a` the object last given. -/
def inTurn (a : Nat) : List (DelegateInterrupt.Ev α) → List (Nat × Args α)
  | [] => []
  | .give b :: es | .handlerGive b :: es => inTurn b es
  | .invoke x :: es | .handlerInvoke x :: es => (a, x) :: inTurn a es
  | .main :: es => inTurn a es

/-! ### Proofs -/

theorem result_append (ms : Methods σ α ρ) (start : Heap σ) (l : List (Nat × Args α)) (c : Nat × Args α) (i : Nat) (h : i < l.length) :
    result ms start (l ++ [c]) i = result ms start l i := by
  simp only [result, List.getElem?_append_left h, List.take_append_of_le_length (Nat.le_of_lt h)]

theorem call_ok {ms : Methods σ α ρ} {start : Heap σ} {y : DelegateInterrupt.St σ α ρ} (h : Effects ms start y) (a : Nat) (x : Args α) (ha : start a ≠ none) :
    ∃ hp r, call ms y a x = .ok { y with heap := hp, calls := y.calls ++ [(a, x)], results := y.results ++ [r] } ∧
      Effects ms start { y with heap := hp, calls := y.calls ++ [(a, x)], results := y.results ++ [r] } := by
  obtain ⟨s, hs⟩ := Option.ne_none_iff_exists'.1 ha
  obtain ⟨h1, h2, h3⟩ := h
  have e : y.heap a = some (sees ms s (mine a y.calls)) := by rw [h1, hs]; rfl
  refine ⟨_, _, by simp only [call, Delegate.Dele.mk', Dele.invoke_direct, callOn, e]; rfl, fun b => ?_, by simp [h2], fun i => ?_⟩
  · show (if b = a then _ else y.heap b) = _
    by_cases hb : b = a
    · subst hb
      rw [if_pos rfl, hs, Dele.mine_append]
      simp only [Option.map_some, Dele.sees_append]
      simp [mine, sees]
    · rw [if_neg hb, h1, Dele.mine_append]
      have : mine b [(a, x)] = [] := by simp [mine, Ne.symm hb]
      rw [this, List.append_nil]
  · rcases Nat.lt_trichotomy i y.calls.length with hi | hi | hi
    · rw [result_append ms start _ _ _ hi, List.getElem?_append_left (h2 ▸ hi)]
      exact h3 i
    · subst hi
      rw [← h2, List.getElem?_concat_length, h2]
      simp [result, hs]
    · rw [List.getElem?_eq_none (by simp; omega)]
      simp only [result]
      rw [List.getElem?_eq_none (by simp; omega)]
      rfl

theorem call_ub {ms : Methods σ α ρ} {start : Heap σ} {y : DelegateInterrupt.St σ α ρ} (h : Effects ms start y) (a : Nat) (x : Args α) (ha : start a = none) : call ms y a x = .ub := by
  have e : y.heap a = none := by rw [h.1, ha]; rfl
  simp only [call, Delegate.Dele.mk', Dele.invoke_direct, callOn, e]
  rfl

theorem effects_call {ms : Methods σ α ρ} {start : Heap σ} {y y' : DelegateInterrupt.St σ α ρ} (h : Effects ms start y) (a : Nat) (x : Args α) (hy : call ms y a x = .ok y') : Effects ms start y' := by
  by_cases ha : start a = none
  · rw [call_ub h a x ha] at hy; cases hy
  · obtain ⟨hp, r, h1, h2⟩ := call_ok h a x ha
    rw [h1] at hy
    injection hy with hy
    exact hy ▸ h2

theorem effects_step {lf : Bool} {ms : Methods σ α ρ} {start : Heap σ} {y y' : DelegateInterrupt.St σ α ρ} (h : Effects ms start y) (e : DelegateInterrupt.Ev α) (hy : step lf ms y e = .ok y') :
    Effects ms start y' := by
  cases e with
  | give a => simp only [step] at hy; injection hy with hy; subst hy; split <;> exact h
  | invoke x => simp only [step] at hy; injection hy with hy; subst hy; split <;> exact h
  | handlerGive a => simp only [step] at hy; injection hy with hy; subst hy; exact h
  | handlerInvoke x => exact effects_call h _ x hy
  | main =>
    simp only [step, mainStep] at hy
    split at hy
    · injection hy with hy; subst hy; exact h
    · injection hy with hy; subst hy; split <;> exact h
    · injection hy with hy; subst hy; split <;> exact h
    · injection hy with hy; subst hy; exact h
    · exact effects_call (y := { y with pc := .idle }) h _ _ hy

theorem run_cons (lf : Bool) (ms : Methods σ α ρ) (y : DelegateInterrupt.St σ α ρ) (e : DelegateInterrupt.Ev α) (es : List (DelegateInterrupt.Ev α)) (y' : DelegateInterrupt.St σ α ρ)
    (h : step lf ms y e = .ok y') : run lf ms y (e :: es) = run lf ms y' es := by
  simp only [run, h]
  rfl

theorem effects_init (ms : Methods σ α ρ) (start : Heap σ) (a : Nat) : Effects ms start (St.init start a : DelegateInterrupt.St σ α ρ) := by
  refine ⟨fun b => ?_, rfl, fun i => ?_⟩
  · change start b = _
    cases start b <;> rfl
  · simp [St.init, result]

theorem torn_iff (lf : Bool) (a b : Nat) : (torn lf b a = a ∨ torn lf b a = b) ↔ Common a b := by
  unfold torn Common
  cases lf
  · simp only [Bool.false_eq_true, if_false]; omega
  · simp only [if_true]; omega

/-- All objects in one page. -/
def Page (ms : Methods σ α ρ) (start : Heap σ) (lf : Bool) (p : Nat) (ok : Nat → Prop) (y : DelegateInterrupt.St σ α ρ) : Prop :=
  Effects ms start y ∧ y.hi = p ∧ ok (y.lo + 256 * p) ∧ (∀ c ∈ y.calls, ok c.1) ∧
    match y.pc with
    | .store a | .stored a => ok a
    | .loaded _ w => if lf then ok (w + 256 * p) else w = p
    | _ => True

theorem page_call {ms : Methods σ α ρ} {start : Heap σ} {lf : Bool} {p : Nat} {ok : Nat → Prop} (hl : ∀ a, ok a → start a ≠ none) {y : DelegateInterrupt.St σ α ρ} (h : Page ms start lf p ok y)
    (a : Nat) (ha : ok a) (x : Args α) : ∃ y', call ms y a x = .ok y' ∧ Page ms start lf p ok y' := by
  obtain ⟨h1, h2, h3, h4, h5⟩ := h
  obtain ⟨hp, r, e1, e2⟩ := call_ok h1 a x (hl a ha)
  refine ⟨_, e1, e2, h2, h3, fun c hc => ?_, h5⟩
  rcases List.mem_append.1 hc with hc | hc
  · exact h4 c hc
  · rw [List.mem_singleton.1 hc]; exact ha

theorem page_step {ms : Methods σ α ρ} {start : Heap σ} {lf : Bool} {p : Nat} {ok : Nat → Prop} (hl : ∀ a, ok a → start a ≠ none) (hp : ∀ a, ok a → a / 256 = p)
    {y : DelegateInterrupt.St σ α ρ} (h : Page ms start lf p ok y) (e : DelegateInterrupt.Ev α) (he : ∀ a ∈ given [e], ok a) : ∃ y', step lf ms y e = .ok y' ∧ Page ms start lf p ok y' := by
  have whole : ∀ a, ok a → a % 256 + 256 * p = a := fun a ha => by have := hp a ha; omega
  obtain ⟨lo, hi, heap, pc, cs, rs⟩ := y
  cases e with
  | give a =>
    have ha : ok a := he a (by simp [given])
    obtain ⟨h1, h2, h3, h4, h5⟩ := h
    refine ⟨_, rfl, ?_⟩
    cases pc with
    | idle => exact ⟨h1, h2, h3, h4, ha⟩
    | _ => exact ⟨h1, h2, h3, h4, h5⟩
  | invoke x =>
    obtain ⟨h1, h2, h3, h4, h5⟩ := h
    refine ⟨_, rfl, ?_⟩
    cases pc with
    | idle => exact ⟨h1, h2, h3, h4, trivial⟩
    | _ => exact ⟨h1, h2, h3, h4, h5⟩
  | handlerGive a =>
    have ha : ok a := he a (by simp [given])
    obtain ⟨h1, h2, h3, h4, h5⟩ := h
    refine ⟨_, rfl, h1, hp a ha, ?_, h4, h5⟩
    change ok (a % 256 + 256 * p)
    rw [whole a ha]; exact ha
  | handlerInvoke x =>
    obtain ⟨h1, h2, h3, h4, h5⟩ := h
    change hi = p at h2
    subst h2
    exact page_call hl ⟨h1, rfl, h3, h4, h5⟩ _ h3 x
  | main =>
    obtain ⟨h1, h2, h3, h4, h5⟩ := h
    change hi = p at h2
    subst h2
    cases pc with
    | idle => exact ⟨_, rfl, h1, rfl, h3, h4, h5⟩
    | store a =>
      change ok a at h5
      cases lf
      · exact ⟨_, rfl, h1, hp a h5, h3, h4, h5⟩
      · refine ⟨_, rfl, h1, rfl, ?_, h4, h5⟩
        change ok (a % 256 + 256 * hi)
        rw [whole a h5]; exact h5
    | stored a =>
      change ok a at h5
      cases lf
      · refine ⟨_, rfl, h1, rfl, ?_, h4, trivial⟩
        change ok (a % 256 + 256 * hi)
        rw [whole a h5]; exact h5
      · exact ⟨_, rfl, h1, hp a h5, h3, h4, trivial⟩
    | load x =>
      refine ⟨_, rfl, h1, rfl, h3, h4, ?_⟩
      cases lf
      · rfl
      · exact h3
    | loaded x w =>
      cases lf
      · have h5 : w = hi := h5
        subst h5
        exact page_call (lf := false) (y := ⟨lo, w, heap, .idle, cs, rs⟩) hl ⟨h1, rfl, h3, h4, trivial⟩ _ h3 x
      · have h5 : ok (w + 256 * hi) := h5
        exact page_call (lf := true) (y := ⟨lo, hi, heap, .idle, cs, rs⟩) hl ⟨h1, rfl, h3, h4, trivial⟩ _ h5 x

end DelegateShared
open DelegateShared

/-- **C164.** In every history that is defined every object is what the calls made of it have made of it, in order, and every call has had the result of the method: no call is lost, none half made. -/
theorem c164_effects {σ α ρ : Type} (lf : Bool) (ms : Methods σ α ρ) (start : Heap σ) (a : Nat) (es : List (DelegateInterrupt.Ev α)) (y : DelegateInterrupt.St σ α ρ)
    (h : run lf ms (St.init start a) es = .ok y) : Effects ms start y := by
  have gen : ∀ (es : List (DelegateInterrupt.Ev α)) (z : DelegateInterrupt.St σ α ρ), Effects ms start z → run lf ms z es = .ok y → Effects ms start y := by
    intro es
    induction es with
    | nil => intro z hz hr; injection hr with hr; exact hr ▸ hz
    | cons e es ih =>
      intro z hz hr
      cases hs : step lf ms z e with
      | ub => simp only [run, hs] at hr; cases hr
      | ok z' => exact ih z' (effects_step hz e hs) (run_cons lf ms z e es z' hs ▸ hr)
  exact gen es _ (effects_init ms start a) h

/-- **C164.** Objects that live and whose addresses have the same high byte: every history of main code and handlers is defined, and every call reaches an object that was given to the delegate. -/
theorem c164_page_partial {σ α ρ : Type} (lf : Bool) (ms : Methods σ α ρ) (start : Heap σ) (a : Nat) (es : List (DelegateInterrupt.Ev α))
    (hl : ∀ b ∈ a :: given es, start b ≠ none) (hp : ∀ b ∈ given es, b / 256 = a / 256) :
    ∃ y, run lf ms (St.init start a : DelegateInterrupt.St σ α ρ) es = .ok y ∧ ∀ c ∈ y.calls, c.1 ∈ a :: given es := by
  have gen : ∀ (fs : List (DelegateInterrupt.Ev α)) (z : DelegateInterrupt.St σ α ρ), Page ms start lf (a / 256) (· ∈ a :: given es) z → (∀ b ∈ given fs, b ∈ a :: given es) →
      ∃ y, run lf ms z fs = .ok y ∧ Page ms start lf (a / 256) (· ∈ a :: given es) y := by
    intro fs
    induction fs with
    | nil => exact fun z hz _ => ⟨z, rfl, hz⟩
    | cons f fs ih =>
      intro z hz hg
      have split : given (f :: fs) = given [f] ++ given fs := by rw [given, given, given, ← List.filterMap_append]; rfl
      rw [split] at hg
      obtain ⟨z', e1, e2⟩ := page_step hl (fun b hb => by rcases List.mem_cons.1 hb with hb | hb; exacts [hb ▸ rfl, hp b hb]) hz f fun b hb => hg b (List.mem_append.2 (.inl hb))
      obtain ⟨y, e3, e4⟩ := ih z' e2 fun b hb => hg b (List.mem_append.2 (.inr hb))
      exact ⟨y, (run_cons lf ms z f fs z' e1).trans e3, e4⟩
  obtain ⟨y, h1, h2⟩ := gen es (St.init start a) ⟨effects_init ms start a, rfl, by
    change a % 256 + 256 * (a / 256) ∈ _
    rw [Nat.mod_add_div]
    exact List.mem_cons_self, (fun c hc => nomatch hc), trivial⟩ fun b hb => List.mem_cons_of_mem _ hb
  exact ⟨y, h1, h2.2.2.2.1⟩

/-- **C164.** A handler that invokes the delegate between main code's stores calls the method on the address made of a byte of the new object's and one of the old one's. -/
theorem c164_give_torn {σ α ρ : Type} (lf : Bool) (ms : Methods σ α ρ) (y : DelegateInterrupt.St σ α ρ) (hp : y.pc = .idle) (a b : Nat) (hlo : y.lo = a % 256) (hhi : y.hi = a / 256) (x : Args α) :
    run lf ms y [.give b, .main, .handlerInvoke x] = (call ms (if lf then { y with lo := b % 256, pc := .stored b } else { y with hi := b / 256, pc := .stored b }) (torn lf b a) x) := by
  obtain ⟨lo, hi, heap, pc, cs, rs⟩ := y
  change pc = _ at hp
  change lo = _ at hlo
  change hi = _ at hhi
  subst hp hlo hhi
  have e : ∀ r : Res (DelegateInterrupt.St σ α ρ), (r >>= fun y => .ok y) = r := fun r => by cases r <;> rfl
  cases lf
  · exact e _
  · exact e _

/-- **C164.** Main code that is interrupted between its loads by a handler that gives the delegate another object calls the method on an address made of both. -/
theorem c164_invoke_torn {σ α ρ : Type} (lf : Bool) (ms : Methods σ α ρ) (y : DelegateInterrupt.St σ α ρ) (hp : y.pc = .idle) (a b : Nat) (hlo : y.lo = a % 256) (hhi : y.hi = a / 256) (x : Args α) :
    run lf ms y [.invoke x, .main, .handlerGive b, .main] = call ms { y with lo := b % 256, hi := b / 256 } (torn lf a b) x := by
  obtain ⟨lo, hi, heap, pc, cs, rs⟩ := y
  change pc = _ at hp
  change lo = _ at hlo
  change hi = _ at hhi
  subst hp hlo hhi
  have e : ∀ r : Res (DelegateInterrupt.St σ α ρ), (r >>= fun y => .ok y) = r := fun r => by cases r <;> rfl
  cases lf
  · exact e _
  · exact e _

namespace DelegateShared
variable {σ α ρ : Type}

theorem call_alive (ms : Methods σ α ρ) (y : DelegateInterrupt.St σ α ρ) (a : Nat) (x : Args α) (s : σ) (h : y.heap a = some s) :
    call ms y a x = .ok { y with heap := fun b => if b = a then some (direct ms x s).1 else y.heap b, calls := y.calls ++ [(a, x)], results := y.results ++ [(direct ms x s).2] } := by
  simp only [call, Delegate.Dele.mk', Dele.invoke_direct, callOn, h]
  rfl

theorem call_dead (ms : Methods σ α ρ) (y : DelegateInterrupt.St σ α ρ) (a : Nat) (x : Args α) (h : y.heap a = none) : call ms y a x = .ub := by
  simp only [call, Delegate.Dele.mk', Dele.invoke_direct, callOn, h]
  rfl

/-- The call is made, on the one object or the other. -/
def Reaches (l : List (Nat × Args α)) (a b : Nat) (x : Args α) (r : Res (DelegateInterrupt.St σ α ρ)) : Prop := ∃ y, r = .ok y ∧ (y.calls = l ++ [(a, x)] ∨ y.calls = l ++ [(b, x)])

theorem reaches_call (ms : Methods σ α ρ) (y : DelegateInterrupt.St σ α ρ) (a b t : Nat) (x : Args α) (ha : y.heap a ≠ none) (hb : y.heap b ≠ none) :
    Reaches y.calls a b x (call ms y t x) ↔ t = a ∨ t = b := by
  constructor
  · rintro ⟨y', h, hc⟩
    cases ht : y.heap t with
    | none => rw [call_dead ms y t x ht] at h; cases h
    | some s =>
      rw [call_alive ms y t x s ht] at h
      injection h with h
      subst h
      simpa using hc
  · intro h
    have ht : y.heap t ≠ none := by rcases h with h | h <;> rw [h] <;> assumption
    obtain ⟨s, hs⟩ := Option.ne_none_iff_exists'.1 ht
    refine ⟨_, call_alive ms y t x s hs, ?_⟩
    rcases h with h | h <;> subst h <;> simp

theorem bind_id (r : Res (DelegateInterrupt.St σ α ρ)) : (r >>= fun y => .ok y) = r := by cases r <;> rfl

end DelegateShared

/-- **C164.** Main code gives the delegate another object: a handler's call reaches the old or the new one, wherever it comes, exactly if their addresses have a byte in common. -/
theorem c164_give_once {σ α ρ : Type} (lf : Bool) (ms : Methods σ α ρ) (y : DelegateInterrupt.St σ α ρ) (hp : y.pc = .idle) (a b : Nat) (hlo : y.lo = a % 256) (hhi : y.hi = a / 256) (x : Args α)
    (ha : y.heap a ≠ none) (hb : y.heap b ≠ none) :
    (∀ k, k ≤ 2 → Reaches y.calls a b x (run lf ms y (.give b :: (List.replicate k .main ++ [.handlerInvoke x])))) ↔ Common a b := by
  rw [← torn_iff lf a b]
  have mid : Reaches y.calls a b x (run lf ms y [.give b, .main, .handlerInvoke x]) ↔ torn lf b a = a ∨ torn lf b a = b := by
    rw [c164_give_torn lf ms y hp a b hlo hhi x]
    cases lf
    · exact reaches_call ms { y with hi := b / 256, pc := .stored b } a b _ x ha hb
    · exact reaches_call ms { y with lo := b % 256, pc := .stored b } a b _ x ha hb
  constructor
  · exact fun h => mid.1 (h 1 (by omega))
  · intro h k hk
    obtain rfl | rfl | rfl : k = 0 ∨ k = 1 ∨ k = 2 := by omega
    · obtain ⟨lo, hi, heap, pc, cs, rs⟩ := y
      change pc = _ at hp
      change lo = _ at hlo
      change hi = _ at hhi
      subst hp hlo hhi
      have e : run lf ms ⟨a % 256, a / 256, heap, .idle, cs, rs⟩ (.give b :: (List.replicate 0 .main ++ [.handlerInvoke x])) = call ms ⟨a % 256, a / 256, heap, .store b, cs, rs⟩ (a % 256 + 256 * (a / 256)) x :=
        bind_id _
      rw [e]
      exact (reaches_call ms ⟨a % 256, a / 256, heap, .store b, cs, rs⟩ a b _ x ha hb).2 (.inl (Nat.mod_add_div a 256))
    · exact mid.2 h
    · obtain ⟨lo, hi, heap, pc, cs, rs⟩ := y
      change pc = _ at hp
      subst hp
      have e : run lf ms ⟨lo, hi, heap, .idle, cs, rs⟩ (.give b :: (List.replicate 2 .main ++ [.handlerInvoke x])) = call ms ⟨b % 256, b / 256, heap, .idle, cs, rs⟩ (b % 256 + 256 * (b / 256)) x := by
        cases lf <;> exact bind_id _
      rw [e]
      exact (reaches_call ms ⟨b % 256, b / 256, heap, .idle, cs, rs⟩ a b _ x ha hb).2 (.inr (Nat.mod_add_div b 256))

/-- **C164.** Main code invokes the delegate: its call reaches the object before or behind a handler's change, wherever the handler comes, exactly if their addresses have a byte in common. -/
theorem c164_invoke_once {σ α ρ : Type} (lf : Bool) (ms : Methods σ α ρ) (y : DelegateInterrupt.St σ α ρ) (hp : y.pc = .idle) (a b : Nat) (hlo : y.lo = a % 256) (hhi : y.hi = a / 256) (x : Args α)
    (ha : y.heap a ≠ none) (hb : y.heap b ≠ none) :
    (∀ k, k ≤ 2 → Reaches y.calls a b x (run lf ms y (.invoke x :: (List.replicate k .main ++ .handlerGive b :: List.replicate (2 - k) .main)))) ↔ Common a b := by
  have mid : Reaches y.calls a b x (run lf ms y [.invoke x, .main, .handlerGive b, .main]) ↔ Common a b := by
    rw [c164_invoke_torn lf ms y hp a b hlo hhi x, reaches_call ms { y with lo := b % 256, hi := b / 256 } a b _ x ha hb, or_comm, torn_iff lf b a]
    exact ⟨fun h => h.imp Eq.symm Eq.symm, fun h => h.imp Eq.symm Eq.symm⟩
  constructor
  · exact fun h => mid.1 (h 1 (by omega))
  · intro h k hk
    obtain ⟨lo, hi, heap, pc, cs, rs⟩ := y
    change pc = _ at hp
    change lo = _ at hlo
    change hi = _ at hhi
    subst hp hlo hhi
    obtain rfl | rfl | rfl : k = 0 ∨ k = 1 ∨ k = 2 := by omega
    · have e : run lf ms ⟨a % 256, a / 256, heap, .idle, cs, rs⟩ (.invoke x :: (List.replicate 0 .main ++ .handlerGive b :: List.replicate (2 - 0) .main)) =
          call ms ⟨b % 256, b / 256, heap, .idle, cs, rs⟩ (b % 256 + 256 * (b / 256)) x := by cases lf <;> exact bind_id _
      rw [e]
      exact (reaches_call ms ⟨b % 256, b / 256, heap, .idle, cs, rs⟩ a b _ x ha hb).2 (.inr (Nat.mod_add_div b 256))
    · exact mid.2 h
    · obtain ⟨s, hs⟩ := Option.ne_none_iff_exists'.1 ha
      have e : run lf ms ⟨a % 256, a / 256, heap, .idle, cs, rs⟩ (.invoke x :: (List.replicate 2 .main ++ .handlerGive b :: List.replicate (2 - 2) .main)) =
          (call ms ⟨a % 256, a / 256, heap, .idle, cs, rs⟩ (a % 256 + 256 * (a / 256)) x >>= fun y => .ok { y with lo := b % 256, hi := b / 256 }) := by cases lf <;> rfl
      rw [e, Nat.mod_add_div, call_alive ms _ a x s hs]
      exact ⟨_, rfl, .inl rfl⟩

/-- **C164.** If an object lives at the address made of both, its method is called although it was never given to the delegate, and neither of the two objects sees the call. -/
theorem c164_third_fails {σ α ρ : Type} (lf : Bool) (ms : Methods σ α ρ) (start : Heap σ) (a b : Nat) (x : Args α) (s : σ) (hn : ¬ Common a b) (hs : start (torn lf b a) = some s) :
    ∃ y : DelegateInterrupt.St σ α ρ, run lf ms (St.init start a) [.give b, .main, .handlerInvoke x] = .ok y ∧ y.heap (torn lf b a) = some (direct ms x s).1 ∧ y.heap a = start a ∧ y.heap b = start b := by
  have hne : torn lf b a ≠ a ∧ torn lf b a ≠ b := not_or.1 fun h => hn ((torn_iff lf a b).1 h)
  rw [c164_give_torn lf ms (St.init start a) rfl a b rfl rfl x]
  cases lf
  · exact ⟨_, call_alive ms _ _ x s hs, if_pos rfl, if_neg hne.1.symm, if_neg hne.2.symm⟩
  · exact ⟨_, call_alive ms _ _ x s hs, if_pos rfl, if_neg hne.1.symm, if_neg hne.2.symm⟩

/-- **C164.** If no object lives there the call is undefined. -/
theorem c164_wild_fails {σ α ρ : Type} (lf : Bool) (ms : Methods σ α ρ) (start : Heap σ) (a b : Nat) (x : Args α) (hs : start (torn lf b a) = none) :
    run lf ms (St.init start a : DelegateInterrupt.St σ α ρ) [.give b, .main, .handlerInvoke x] = .ub := by
  rw [c164_give_torn lf ms (St.init start a) rfl a b rfl rfl x]
  cases lf
  · exact call_dead ms _ _ x hs
  · exact call_dead ms _ _ x hs

/-! ### In sections -/

namespace DelegateShared

/-- The delegate as a shared object (Delegate.h 46-54). -/
abbrev delegate {σ α ρ : Type} (lf : Bool) (ms : Methods σ α ρ) (start : Heap σ) : CriticalSection.Machine where
  St := DelegateInterrupt.St σ α ρ
  Ev := DelegateInterrupt.Ev α
  step := DelegateInterrupt.step lf ms
  kind := fun | .give _ | .invoke _ => .enter | .main => .within | .handlerGive _ | .handlerInvoke _ => .handler
  idle := fun y => y.pc = .idle
  proper := fun e => ∀ a ∈ given [e], (start a).isSome = true

variable {σ α ρ : Type}

theorem call_pc {ms : Methods σ α ρ} {y y' : DelegateInterrupt.St σ α ρ} {a : Nat} {x : Args α} (h : call ms y a x = .ok y') : y'.pc = y.pc := by
  cases hs : y.heap a with
  | none => rw [call_dead ms y a x hs] at h; cases h
  | some s => rw [call_alive ms y a x s hs] at h; injection h with h; subst h; rfl

theorem lawful_delegate (lf : Bool) (ms : Methods σ α ρ) (start : Heap σ) : Sections.Lawful (delegate lf ms start) := by
  intro (y : DelegateInterrupt.St σ α ρ) (e : DelegateInterrupt.Ev α) (y' : DelegateInterrupt.St σ α ρ) (hi : y.pc = .idle) hk h
  change DelegateInterrupt.step lf ms y e = .ok y' at h
  change y'.pc = .idle
  cases e with
  | give a => exact absurd rfl hk
  | invoke a => exact absurd rfl hk
  | main => simp only [step, mainStep, hi] at h; injection h with h; exact h ▸ hi
  | handlerGive a => injection h with h; subst h; exact hi
  | handlerInvoke x => exact (call_pc h).trans hi

theorem run_delegate (lf : Bool) (ms : Methods σ α ρ) (start : Heap σ) (es : List (DelegateInterrupt.Ev α)) (y : DelegateInterrupt.St σ α ρ) :
    (delegate lf ms start).run y es = DelegateInterrupt.run lf ms y es :=
  Sections.run_is (M := delegate lf ms start) (R := DelegateInterrupt.run lf ms) (fun _ => rfl) (fun _ _ _ => rfl) es y

/-- What main code's call has still to do: `a` the object given, `p` the call to come. -/
def Rest (lf : Bool) (y : DelegateInterrupt.St σ α ρ) (a : Nat) (p : List (Nat × Args α)) : Prop :=
  match y.pc with
  | .idle => y.lo = a % 256 ∧ y.hi = a / 256 ∧ p = []
  | .store b => b = a ∧ p = []
  | .stored b => b = a ∧ (if lf then y.lo = a % 256 else y.hi = a / 256) ∧ p = []
  | .load x => y.lo = a % 256 ∧ y.hi = a / 256 ∧ p = [(a, x)]
  | .loaded x w => y.lo = a % 256 ∧ y.hi = a / 256 ∧ (w = if lf then a % 256 else a / 256) ∧ p = [(a, x)]

theorem turn_run {lf : Bool} {ms : Methods σ α ρ} {start : Heap σ} (es : List (DelegateInterrupt.Ev α)) : ∀ (y : DelegateInterrupt.St σ α ρ) (a : Nat) (p : List (Nat × Args α)),
    Effects ms start y → start a ≠ none → Rest lf y a p → Sections.Clean (delegate lf ms start) y es →
      ∃ y', run lf ms y es = .ok y' ∧ (y'.pc = .idle → y'.calls = y.calls ++ p ++ inTurn a es) := by
  induction es with
  | nil =>
    intro y a p _ _ hr _
    refine ⟨y, rfl, fun hi => ?_⟩
    simp only [Rest, hi] at hr
    simp [hr.2.2, inTurn]
  | cons e es ih =>
    intro y a p hE hl hr hc
    obtain ⟨lo, hi, heap, pc, cs, rs⟩ := y
    have hid : (delegate lf ms start).kind e ≠ .within → pc = .idle := hc.1.2
    have next : ∀ (y' : DelegateInterrupt.St σ α ρ) a' p', step lf ms ⟨lo, hi, heap, pc, cs, rs⟩ e = .ok y' → start a' ≠ none → Rest lf y' a' p' →
        y'.calls ++ p' ++ inTurn a' es = cs ++ p ++ inTurn a (e :: es) → ∃ y', run lf ms ⟨lo, hi, heap, pc, cs, rs⟩ (e :: es) = .ok y' ∧ (y'.pc = .idle → y'.calls = cs ++ p ++ inTurn a (e :: es)) := by
      intro y' a' p' h1 h2 h3 h4
      obtain ⟨z, e1, e2⟩ := ih y' a' p' (effects_step hE e h1) h2 h3 (hc.2 y' h1)
      exact ⟨z, (run_cons lf ms _ e es y' h1).trans e1, fun hz => (e2 hz).trans h4⟩
    have alive : ∀ b, b ∈ given [e] → start b ≠ none := fun b hb hn => by have := hc.1.1 b hb; rw [hn] at this; cases this
    cases e with
    | give b =>
      have := hid nofun
      subst this
      obtain ⟨h1, h2, h3⟩ := hr
      subst h3
      exact next ⟨lo, hi, heap, .store b, cs, rs⟩ b [] rfl (alive b (by simp [given])) ⟨rfl, rfl⟩ rfl
    | invoke x =>
      have := hid nofun
      subst this
      obtain ⟨h1, h2, h3⟩ := hr
      subst h3
      exact next ⟨lo, hi, heap, .load x, cs, rs⟩ a [(a, x)] rfl hl ⟨h1, h2, rfl⟩ (by simp [inTurn])
    | handlerGive b =>
      have := hid nofun
      subst this
      obtain ⟨h1, h2, h3⟩ := hr
      subst h3
      exact next ⟨b % 256, b / 256, heap, .idle, cs, rs⟩ b [] rfl (alive b (by simp [given])) ⟨rfl, rfl, rfl⟩ rfl
    | handlerInvoke x =>
      have := hid nofun
      subst this
      obtain ⟨h1, h2, h3⟩ := hr
      change lo = _ at h1
      change hi = _ at h2
      subst h1 h2 h3
      obtain ⟨hp, r, e1, _⟩ := call_ok hE a x hl
      refine next ⟨a % 256, a / 256, hp, .idle, cs ++ [(a, x)], rs ++ [r]⟩ a [] ?_ hl ⟨rfl, rfl, rfl⟩ (by simp [inTurn])
      change call ms _ (a % 256 + 256 * (a / 256)) x = _
      rw [Nat.mod_add_div]
      exact e1
    | main =>
      cases pc with
      | idle => exact next _ a p rfl hl hr rfl
      | store b =>
        obtain ⟨h1, h2⟩ := hr
        subst h1 h2
        cases lf
        · exact next ⟨lo, b / 256, heap, .stored b, cs, rs⟩ b [] rfl hl ⟨rfl, rfl, rfl⟩ rfl
        · exact next ⟨b % 256, hi, heap, .stored b, cs, rs⟩ b [] rfl hl ⟨rfl, rfl, rfl⟩ rfl
      | stored b =>
        obtain ⟨h1, h2, h3⟩ := hr
        subst h1 h3
        cases lf
        · exact next ⟨b % 256, hi, heap, .idle, cs, rs⟩ b [] rfl hl ⟨rfl, h2, rfl⟩ rfl
        · exact next ⟨lo, b / 256, heap, .idle, cs, rs⟩ b [] rfl hl ⟨h2, rfl, rfl⟩ rfl
      | load x =>
        obtain ⟨h1, h2, h3⟩ := hr
        change lo = _ at h1
        change hi = _ at h2
        subst h1 h2 h3
        exact next ⟨a % 256, a / 256, heap, .loaded x (if lf then a % 256 else a / 256), cs, rs⟩ a [(a, x)] rfl hl ⟨rfl, rfl, rfl, rfl⟩ rfl
      | loaded x w =>
        obtain ⟨h1, h2, h3, h4⟩ := hr
        change lo = _ at h1
        change hi = _ at h2
        subst h1 h2 h3 h4
        obtain ⟨hp, r, e1, _⟩ := call_ok (y := ⟨a % 256, a / 256, heap, .idle, cs, rs⟩) hE a x hl
        refine next ⟨a % 256, a / 256, hp, .idle, cs ++ [(a, x)], rs ++ [r]⟩ a [] ?_ hl ⟨rfl, rfl, rfl⟩ (by simp [inTurn])
        change call ms _ (if lf then (if lf then a % 256 else a / 256) + 256 * (a / 256) else a % 256 + 256 * (if lf then a % 256 else a / 256)) x = _
        have : (if lf then (if lf then a % 256 else a / 256) + 256 * (a / 256) else a % 256 + 256 * (if lf then a % 256 else a / 256)) = a := by
          cases lf
          · exact Nat.mod_add_div a 256
          · exact Nat.mod_add_div a 256
        rw [this]
        exact e1

end DelegateShared

/-- **C164.** Main code that uses the delegate only with interrupts off: with objects that live everything is defined, and outside of calls all calls made are, in order, on the objects last given. -/
theorem c164_sections {σ α ρ : Type} (lf on : Bool) (ms : Methods σ α ρ) (start : Heap σ) (a : Nat) (ha : start a ≠ none) (es : List (CriticalSection.Ev (DelegateInterrupt.Ev α)))
    (hs : Sections.Sectioned (delegate lf ms start) (CriticalSection.Board.init _ (St.init start a) on) es) :
    ∃ d, CriticalSection.run (delegate lf ms start) (CriticalSection.Board.init _ (St.init start a) on) es = .ok d ∧ (d.obj.pc = .idle → d.obj.calls = inTurn a d.trace) ∧ Effects ms start d.obj := by
  have all : ∀ tr, Sections.Clean (delegate lf ms start) (St.init start a) tr → ∃ y : DelegateInterrupt.St σ α ρ, run lf ms (St.init start a) tr = .ok y ∧ (y.pc = .idle → y.calls = inTurn a tr) :=
    fun tr hc => turn_run tr (St.init start a) a [] (effects_init ms start a) ha ⟨rfl, rfl, rfl⟩ hc
  obtain ⟨d, hd⟩ := c151_defined _ (lawful_delegate lf ms start) (St.init start a) on (fun _ => rfl) es hs fun tr hc => by
    obtain ⟨y, hy, _⟩ := all tr hc
    exact ⟨y, (run_delegate lf ms start tr _).trans hy⟩
  obtain ⟨h1, h2⟩ := c151_apart _ (lawful_delegate lf ms start) (St.init start a) on (fun _ => rfl) es hs d hd
  have h3 : run lf ms (St.init start a) d.trace = .ok d.obj := (run_delegate lf ms start d.trace _).symm.trans h2
  obtain ⟨y, hy, hc⟩ := all d.trace h1
  have h4 : y = d.obj := by
    have := hy.symm.trans h3
    injection this
  subst h4
  exact ⟨d, hd, hc, c164_effects lf ms start a d.trace _ h3⟩

/-- **C164.** The full claim, that every call reaches an object that was given to the delegate if all of them live, is false of the code. -/
theorem c164_full_claim_is_false :
    ¬ ∀ (lf : Bool) (ms : Methods Nat Nat Nat) (start : Heap Nat) (a : Nat) (es : List (DelegateInterrupt.Ev Nat)), (∀ b ∈ a :: given es, start b ≠ none) →
      ∃ y : DelegateInterrupt.St Nat Nat Nat, run lf ms (St.init start a) es = .ok y ∧ ∀ c ∈ y.calls, c.1 ∈ a :: given es := by
  intro h
  obtain ⟨y, hy, hc⟩ := h true ⟨fun s => (s, s), fun _ s => (s, s), fun _ _ s => (s, s), fun _ _ _ s => (s, s), fun _ _ _ _ s => (s, s), fun _ _ _ _ _ s => (s, s)⟩ (fun _ => some 0) 511
    [.give 512, .main, .handlerInvoke .a0] (fun _ _ => nofun)
  injection hy with hy
  subst hy
  have := hc (256, .a0) (by decide)
  revert this
  decide

/-! ### Cases -/

namespace DelegateShared
/-- A counter: calls count, or add what they are given. -/
def counter : Methods Nat Nat Nat := ⟨fun s => (s + 1, s), fun x s => (s + x, s), fun x _ s => (s + x, s), fun x _ _ s => (s + x, s), fun x _ _ _ s => (s + x, s), fun x _ _ _ _ s => (s + x, s)⟩
/-- Counters at 511, 512 and 256. -/
def counters : Heap Nat := fun a => if a = 511 ∨ a = 512 ∨ a = 256 then some 0 else none
/-- Main code gives the delegate another object and invokes it in sections; a handler's request waits. -/
def inSections : List (CriticalSection.Ev (DelegateInterrupt.Ev Nat)) :=
  [.off, .main (.give 512), .main .main, .request 0, .serve 0 [.handlerInvoke (.a1 3)], .main .main, .on, .other, .serve 0 [.handlerInvoke (.a1 3), .handlerGive 256], .other, .off, .main (.invoke .a0), .main .main,
    .main .main, .on]
instance (lf : Bool) : DecidablePred (delegate lf counter counters).proper := fun e => inferInstanceAs (Decidable (∀ a ∈ given [e], (counters a).isSome = true))
instance (lf : Bool) : DecidablePred (delegate lf counter counters).idle := fun y => inferInstanceAs (Decidable (y.pc = .idle))
end DelegateShared

example := c164_effects true counter counters 511 [.give 512, .main, .handlerInvoke (.a1 7)] _ rfl
example := c164_page_partial false counter counters 511 [.give 256, .main, .handlerInvoke (.a1 7), .handlerGive 511, .main, .invoke .a0, .main, .handlerGive 256, .main] (by decide) (by decide)
example := c164_give_torn true counter (St.init counters 511) rfl 511 512 rfl rfl (.a1 7)
example := c164_invoke_torn true counter (St.init counters 512) rfl 512 511 rfl rfl (.a1 7)
example : torn true 512 511 = 256 := by decide
example := (c164_give_once true counter (St.init counters 511) rfl 511 256 rfl rfl .a0 (by decide) (by decide)).2 (.inr (by decide))
example : ¬ Common 511 512 := by unfold Common; decide
example := (c164_invoke_once false counter (St.init counters 512) rfl 512 256 rfl rfl .a0 (by decide) (by decide)).2 (.inl (by decide))
example := c164_third_fails true counter counters 511 512 (.a1 7) 0 (by unfold Common; decide) (by decide)
example := c164_wild_fails false counter counters 511 512 (.a1 7) (by decide)
example := c164_sections true true counter counters 511 (by decide) inSections (by decide +kernel)
example : ∃ d, CriticalSection.run (delegate true counter counters) (CriticalSection.Board.init _ (St.init counters 511) true) inSections = .ok d ∧ d.obj.calls = [(512, .a1 3), (256, .a0)] ∧ d.obj.heap 512 = some 3 :=
  ⟨_, rfl, rfl, rfl⟩

end Atl.Props
