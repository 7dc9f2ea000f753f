import Verif.Model.ButtonInterrupt
import Verif.Props.PushButton
import Verif.Props.CriticalSectionUse

/-!
  C161: a push button scanned by main code whose state interrupt handlers ask for.
-/
namespace Atl.Props
open Atl.ButtonInterrupt

namespace ButtonShared
open PushButton (BState convert)

/-! ### Specification -/

/-- `_states` with a current and a previous state: numbers from 0 in the order of declaration, in bits 0 to 2 and 3 to 5. -/
def pack (c p : BState) : BitVec 8 :=
  let n : BState → Nat := fun | .unknown => 0 | .opened => 1 | .closed => 2 | .hold => 3 | .pending => 4
  BitVec.ofNat 8 (n c + 8 * n p)

/-- The button, outside of calls, in the state `a` of the model of undisturbed buttons. -/
def at_ (a : PushButton.State) (rs : List Bool) (s : List BState) : St := ⟨pack a.cur a.prev, a.task, a.delays, .idle, rs, s⟩

/-- One call of the undisturbed button. -/
def scanOf (k : Cfg) (a : PushButton.State) (pin : Bool) : Res (Bool × PushButton.State) := a.scan k.N k.id k.debounce k.hold k.inverse pin

/-- The button if every call were indivisible: its state, the results, what handlers get. -/
def inOneGo (k : Cfg) : PushButton.State × List Bool × List BState → List ButtonInterrupt.Ev → Res (PushButton.State × List Bool × List BState)
  | x, [] => .ok x
  | (a, rs, s), .scan pin :: es => do
    let (r, a') ← scanOf k a pin
    inOneGo k (a', rs ++ [r], s) es
  | x, .main :: es => inOneGo k x es
  | (a, rs, s), .other op :: es => do
    let (_, d) ← a.delays.step k.N op
    inOneGo k ({ a with delays := d }, rs, s) es
  | (a, rs, s), .look :: es => inOneGo k (a, rs, s ++ [a.cur]) es

/-- Only main code going on and handlers asking. -/
def Within (es : List ButtonInterrupt.Ev) : Prop := ∀ e ∈ es, e = .main ∨ e = .look

/-- How often main code goes on. -/
def steps (es : List ButtonInterrupt.Ev) : Nat := (es.filter fun | .main => true | _ => false).length

/-! ### Proofs -/

theorem get_pack (c p : BState) : getState (pack c p) = .ok c := by cases c <;> cases p <;> rfl
theorem getPrev_pack (c p : BState) : getPrevState (pack c p) = .ok p := by cases c <;> cases p <;> rfl

/-- The stores of `setState`. -/
def curStores (j : Bool) (v : BState) : List (BitArrayInterrupt.Assign 8) := if j then [⟨0xF8, pack v .unknown⟩] else [⟨0xF8, 0⟩, ⟨0xFF, pack v .unknown⟩]
/-- The stores of `setPrevState`. -/
def prevStores (j : Bool) (v : BState) : List (BitArrayInterrupt.Assign 8) := if j then [⟨0xC7, pack .unknown v⟩] else [⟨0xC7, 0⟩, ⟨0xFF, pack .unknown v⟩]

theorem setState_is (k : Cfg) (v : BState) : setState k v = .ok (curStores k.join v) := by
  obtain ⟨a, b, c, d, e, j⟩ := k
  cases j <;> cases v <;> rfl
theorem setPrev_is (k : Cfg) (v : BState) : setPrevState k v = .ok (prevStores k.join v) := by
  obtain ⟨a, b, c, d, e, j⟩ := k
  cases j <;> cases v <;> rfl

theorem store_cur (c p v : BState) : (pack c p &&& 0xF8) ||| pack v .unknown = pack v p := by cases c <;> cases p <;> cases v <;> rfl
theorem store_cur0 (c p : BState) : (pack c p &&& 0xF8) ||| 0 = pack .unknown p := by cases c <;> cases p <;> rfl
theorem store_cur1 (p v : BState) : (pack .unknown p &&& 0xFF) ||| pack v .unknown = pack v p := by cases p <;> cases v <;> rfl
theorem store_prev (c p v : BState) : (pack c p &&& 0xC7) ||| pack .unknown v = pack c v := by cases c <;> cases p <;> cases v <;> rfl
theorem store_prev0 (c p : BState) : (pack c p &&& 0xC7) ||| 0 = pack c .unknown := by cases c <;> cases p <;> rfl
theorem store_prev1 (c v : BState) : (pack c .unknown &&& 0xFF) ||| pack .unknown v = pack c v := by cases c <;> cases v <;> rfl

/-- Stores that leave `c` and `p`, with only states of `V` to be seen on the way. -/
def Leaves (V : BState → Prop) (c p : BState) : BitVec 8 → List (BitArrayInterrupt.Assign 8) → Prop
  | b, [] => b = pack c p ∧ V c
  | b, a :: l => (∃ c' p', b = pack c' p' ∧ V c') ∧ Leaves V c p ((b &&& a.keep) ||| a.put) l

theorem leaves_cur {V : BState → Prop} {j : Bool} {c p v : BState} (hc : V c) (hv : V v) (hu : j = false → V .unknown) : Leaves V v p (pack c p) (curStores j v) := by
  cases j with
  | true =>
    refine ⟨⟨c, p, rfl, hc⟩, ?_, hv⟩
    exact store_cur c p v
  | false =>
    refine ⟨⟨c, p, rfl, hc⟩, ⟨.unknown, p, store_cur0 c p, hu rfl⟩, ?_, hv⟩
    change ((pack c p &&& 0xF8 ||| 0) &&& 0xFF) ||| pack v .unknown = pack v p
    rw [store_cur0, store_cur1]

theorem leaves_both {V : BState → Prop} {j : Bool} {c p q v : BState} (hc : V c) (hv : V v) (hu : j = false → V .unknown) : Leaves V v q (pack c p) (prevStores j q ++ curStores j v) := by
  have h := leaves_cur (p := q) hc hv hu
  cases j with
  | true =>
    refine ⟨⟨c, p, rfl, hc⟩, ?_⟩
    change Leaves V v q ((pack c p &&& 0xC7) ||| pack .unknown q) (curStores true v)
    rw [store_prev]; exact h
  | false =>
    refine ⟨⟨c, p, rfl, hc⟩, ⟨c, .unknown, store_prev0 c p, hc⟩, ?_⟩
    change Leaves V v q (((pack c p &&& 0xC7) ||| 0) &&& 0xFF ||| pack .unknown q) (curStores false v)
    rw [store_prev0, store_prev1]; exact h

/-- What is left of a call, on the undisturbed button. -/
def rest (k : Cfg) (a : PushButton.State) : Next → Res (Bool × PushButton.State)
  | .sample pin => rest0 (a.sample k.inverse pin)
  | .debounce => rest0 a
  | .yield => .ok (true, { a with task := 113 })
  | .wait pin => do
    let (b, d) ← a.delays.wait k.N k.id k.debounce
    if !b then .ok (true, { a with delays := d })
    else ({ a with delays := d, prev := a.cur, cur := convert k.inverse pin } : PushButton.State).tail k.N k.id k.hold
  | .hold => a.tail k.N k.id k.hold
  | .finish => .ok (false, { a with task := 0 })
where rest0 (a : PushButton.State) : Res (Bool × PushButton.State) :=
  if a.mustDebounce then .ok (true, { a with delays := a.delays.clear k.N k.id, cur := .pending, task := 113 }) else a.tail k.N k.id k.hold

theorem rest_entry (k : Cfg) (a : PushButton.State) (pin : Bool) : rest k a (entry a.task pin) = scanOf k a pin := by
  unfold entry scanOf PushButton.State.scan
  split
  · rfl
  · split
    · rfl
    · rfl

/-- The pin of what comes next. -/
def Level (w : BState) (inverse : Bool) : Next → Prop
  | .sample pin | .wait pin => convert inverse pin = w
  | _ => True

/-- How many steps are left at most. -/
def size : Next → Nat
  | .sample _ => 12
  | .debounce => 7
  | .yield => 1
  | .wait _ => 11
  | .hold => 6
  | .finish => 1

def left : Pc → Nat
  | .idle => 0
  | .go l next => l.length + size next

theorem stores_length (j : Bool) (v : BState) : (curStores j v).length ≤ 2 ∧ (prevStores j v).length ≤ 2 := by cases j <;> exact ⟨by simp [curStores], by simp [prevStores]⟩

/-- In a call that ends with result `r` and leaves the button in `a'`. -/
def Mid (k : Cfg) (V : BState → Prop) (w : BState) (r : Bool) (a' : PushButton.State) (y : St) : Prop :=
  ∃ l next c p, y.pc = .go l next ∧ Leaves V c p y.bits l ∧ rest k ⟨y.task, c, p, y.delays⟩ next = .ok (r, a') ∧ Level w k.inverse next

theorem must_iff (a : PushButton.State) : a.mustDebounce = true ↔ a.prev ≠ a.cur ∧ a.cur ≠ .hold ∧ a.prev ≠ .unknown ∧ a.prev ≠ .pending := by
  simp only [PushButton.State.mustDebounce, Bool.and_eq_true, decide_eq_true_eq, and_assoc]

/-- One step of main code in a call: it goes on to the same end, or is there. -/
theorem mid_step {k : Cfg} {V : BState → Prop} {w : BState} {r : Bool} {a' : PushButton.State} {y : St} (hw : V w) (ha : V a'.cur) (hu : k.join = false → V .unknown) (h : Mid k V w r a' y) :
    ∃ y', mainStep k y = .ok y' ∧ y'.seen = y.seen ∧ left y'.pc < left y.pc ∧ ((Mid k V w r a' y' ∧ y'.results = y.results) ∨ y' = at_ a' (y.results ++ [r]) y.seen) := by
  obtain ⟨b, task, d, pc, rs, s⟩ := y
  obtain ⟨l, next, c, p, h1, h2, h3, h4⟩ := h
  change pc = .go l next at h1
  change Leaves V c p b l at h2
  change rest k ⟨task, c, p, d⟩ next = .ok (r, a') at h3
  subst h1
  cases l with
  | cons a l =>
    refine ⟨_, rfl, rfl, ?_, .inl ⟨⟨l, next, c, p, rfl, h2.2, h3, h4⟩, rfl⟩⟩
    simp only [left, List.length_cons]; omega
  | nil =>
    obtain ⟨rfl, hc⟩ := h2
    cases next with
    | sample pin =>
      have h4 : convert k.inverse pin = w := h4
      simp only [mainStep, act, get_pack, setPrev_is, setState_is, Res.bind_ok]
      split
      · next hif =>
        refine ⟨_, rfl, rfl, ?_, .inl ⟨⟨_, .debounce, convert k.inverse pin, c, rfl, leaves_both hc (h4 ▸ hw) hu, ?_, trivial⟩, rfl⟩⟩
        · have := stores_length k.join c
          have := stores_length k.join (convert k.inverse pin)
          simp only [left, size, List.length_append, List.length_nil]; omega
        · have e : (⟨task, c, p, d⟩ : PushButton.State).sample k.inverse pin = ⟨task, convert k.inverse pin, c, d⟩ := by
            simp only [PushButton.State.sample, if_pos hif]
          change rest.rest0 k ((⟨task, c, p, d⟩ : PushButton.State).sample k.inverse pin) = _ at h3
          rw [e] at h3
          exact h3
      · next hif =>
        refine ⟨_, rfl, rfl, by simp only [left, size]; omega, .inl ⟨⟨_, .debounce, c, p, rfl, ⟨rfl, hc⟩, ?_, trivial⟩, rfl⟩⟩
        have e : (⟨task, c, p, d⟩ : PushButton.State).sample k.inverse pin = ⟨task, c, p, d⟩ := by
          simp only [PushButton.State.sample, if_neg hif]
        change rest.rest0 k ((⟨task, c, p, d⟩ : PushButton.State).sample k.inverse pin) = _ at h3
        rw [e] at h3
        exact h3
    | debounce =>
      change rest.rest0 k ⟨task, c, p, d⟩ = _ at h3
      have hm := must_iff ⟨task, c, p, d⟩
      simp only [mainStep, act, get_pack, getPrev_pack, setState_is, Res.bind_ok]
      split
      · next hif =>
        rw [rest.rest0, if_pos (hm.2 hif)] at h3
        injection h3 with h3
        injection h3 with h3 h5
        subst h3
        subst h5
        refine ⟨_, rfl, rfl, ?_, .inl ⟨⟨_, .yield, .pending, p, rfl, leaves_cur hc ha hu, rfl, trivial⟩, rfl⟩⟩
        have := stores_length k.join .pending
        simp only [left, size, List.length_nil]; omega
      · next hif =>
        rw [rest.rest0, if_neg (fun h => hif (hm.1 h))] at h3
        exact ⟨_, rfl, rfl, by simp only [left, size]; omega, .inl ⟨⟨_, .hold, c, p, rfl, ⟨rfl, hc⟩, h3, trivial⟩, rfl⟩⟩
    | yield =>
      simp only [rest, Res.ok.injEq, Prod.mk.injEq] at h3
      obtain ⟨rfl, rfl⟩ := h3
      exact ⟨_, rfl, rfl, by simp only [left, size]; omega, .inr rfl⟩
    | wait pin =>
      have h4 : convert k.inverse pin = w := h4
      simp only [mainStep, act]
      cases hwt : d.wait k.N k.id k.debounce with
      | ub => simp only [rest, hwt] at h3; cases h3
      | ok x =>
        obtain ⟨q, d'⟩ := x
        simp only [rest, hwt, Res.bind_ok] at h3
        simp only [Res.bind_ok]
        cases q with
        | false =>
          simp only [Bool.not_false, if_true, Res.ok.injEq, Prod.mk.injEq] at h3
          obtain ⟨rfl, rfl⟩ := h3
          exact ⟨_, rfl, rfl, by simp only [left, size]; omega, .inr rfl⟩
        | true =>
          simp only [Bool.not_true, if_false, Bool.false_eq_true] at h3
          simp only [if_true, get_pack, setPrev_is, setState_is, Res.bind_ok]
          refine ⟨_, rfl, rfl, ?_, .inl ⟨⟨_, .hold, convert k.inverse pin, c, rfl, leaves_both hc (h4 ▸ hw) hu, h3, trivial⟩, rfl⟩⟩
          have := stores_length k.join c
          have := stores_length k.join (convert k.inverse pin)
          simp only [left, size, List.length_append, List.length_nil]; omega
    | hold =>
      change PushButton.State.tail k.N k.id k.hold ⟨task, c, p, d⟩ = _ at h3
      simp only [mainStep, act, get_pack, Res.bind_ok]
      simp only [PushButton.State.tail] at h3
      by_cases hcl : c = .closed
      · subst hcl
        rw [if_pos rfl] at h3 ⊢
        cases hwt : d.wait k.N k.id k.hold with
        | ub => rw [hwt] at h3; cases h3
        | ok x =>
          obtain ⟨q, d'⟩ := x
          simp only [hwt, Res.bind_ok] at h3
          simp only [Res.bind_ok]
          cases q with
          | false =>
            simp only [Bool.false_eq_true, if_false] at h3 ⊢
            exact ⟨_, rfl, rfl, by simp only [left, size]; omega, .inl ⟨⟨_, .finish, .closed, p, rfl, ⟨rfl, hc⟩, h3, trivial⟩, rfl⟩⟩
          | true =>
            simp only [if_true] at h3 ⊢
            simp only [setPrev_is, setState_is, Res.bind_ok]
            have e : a'.cur = .hold := by
              injection h3 with h3
              injection h3 with _ h3
              rw [← h3]
            refine ⟨_, rfl, rfl, ?_, .inl ⟨⟨_, .finish, .hold, .closed, rfl, leaves_both hc (e ▸ ha) hu, h3, trivial⟩, rfl⟩⟩
            have := stores_length k.join .closed
            have := stores_length k.join .hold
            simp only [left, size, List.length_append, List.length_nil]; omega
      · rw [if_neg hcl] at h3 ⊢
        split at h3
        · next hi =>
          rw [if_pos hi]
          exact ⟨_, rfl, rfl, by simp only [left, size]; omega, .inl ⟨⟨_, .finish, c, p, rfl, ⟨rfl, hc⟩, h3, trivial⟩, rfl⟩⟩
        · next hi =>
          rw [if_neg hi]
          exact ⟨_, rfl, rfl, by simp only [left, size]; omega, .inl ⟨⟨_, .finish, c, p, rfl, ⟨rfl, hc⟩, h3, trivial⟩, rfl⟩⟩
    | finish =>
      simp only [rest, Res.ok.injEq, Prod.mk.injEq] at h3
      obtain ⟨rfl, rfl⟩ := h3
      exact ⟨_, rfl, rfl, by simp only [left, size]; omega, .inr rfl⟩

theorem leaves_now {V : BState → Prop} {c p : BState} {b : BitVec 8} {l : List (BitArrayInterrupt.Assign 8)} (h : Leaves V c p b l) : ∃ c' p', b = pack c' p' ∧ V c' := by
  cases l with
  | nil => exact ⟨c, p, h.1, h.2⟩
  | cons a l => exact h.1

/-- A call with handlers asking in between. -/
theorem within {k : Cfg} {V : BState → Prop} {w : BState} {r : Bool} {a' : PushButton.State} (hw : V w) (ha : V a'.cur) (hu : k.join = false → V .unknown) (es : List ButtonInterrupt.Ev) : ∀ y : St, Within es →
    (∀ rs s, (Mid k V w r a' y ∧ y.results = rs ∧ y.seen = s) ∨ y = at_ a' (rs ++ [r]) s →
      ∃ y' vs, run k y es = .ok y' ∧ (∀ v ∈ vs, V v) ∧ ((Mid k V w r a' y' ∧ y'.results = rs ∧ y'.seen = s ++ vs ∧ left y'.pc + steps es ≤ left y.pc) ∨ y' = at_ a' (rs ++ [r]) (s ++ vs))) := by
  induction es with
  | nil =>
    intro y _ rs s h
    refine ⟨y, [], rfl, (fun _ hv => nomatch hv), ?_⟩
    rcases h with ⟨h1, h2, h3⟩ | h
    · exact .inl ⟨h1, h2, by rw [h3, List.append_nil], Nat.le_refl _⟩
    · exact .inr (by rw [h, List.append_nil])
  | cons e es ih =>
    intro y hes rs s h
    have hes' : Within es := fun e he => hes e (by simp [he])
    rcases hes e (by simp) with rfl | rfl
    · rcases h with ⟨h1, h2, h3⟩ | h
      · obtain ⟨y1, e1, e2, e3, e4⟩ := mid_step hw ha hu h1
        obtain ⟨y', vs, f1, f2, f3⟩ := ih y1 hes' rs s (by
          rcases e4 with ⟨e4, e5⟩ | e4
          · exact .inl ⟨e4, e5.trans h2, e2.trans h3⟩
          · exact .inr (by rw [e4, h2, h3]))
        refine ⟨y', vs, by simp only [run, step, e1, Res.bind_ok]; exact f1, f2, f3.imp (fun f => ⟨f.1, f.2.1, f.2.2.1, ?_⟩) id⟩
        have h4 := f.2.2.2
        have : steps (.main :: es) = steps es + 1 := rfl
        omega
      · subst h
        obtain ⟨y', vs, f1, f2, f3⟩ := ih (at_ a' (rs ++ [r]) s) hes' rs s (.inr rfl)
        refine ⟨y', vs, f1, f2, f3.imp (fun f => ?_) id⟩
        obtain ⟨⟨l, next, c, p, g1, -⟩, g2⟩ := f
        have h5 := g2.2.2
        rw [g1] at h5
        exfalso
        change l.length + size next + steps es ≤ 0 at h5
        cases next <;> simp only [size] at h5 <;> omega
    · rcases h with ⟨h1, h2, h3⟩ | h
      · have hmid := h1
        obtain ⟨l, next, c, p, g1, g2, g3, g4⟩ := h1
        obtain ⟨c', p', g5, g6⟩ := leaves_now g2
        have e1 : step k y .look = .ok { y with seen := y.seen ++ [c'] } := by simp only [step, g5, get_pack, Res.bind_ok]
        obtain ⟨y', vs, f1, f2, f3⟩ := ih { y with seen := y.seen ++ [c'] } hes' rs (s ++ [c']) (.inl ⟨⟨l, next, c, p, g1, g2, g3, g4⟩, h2, by rw [← h3]⟩)
        refine ⟨y', c' :: vs, by simp only [run, e1, Res.bind_ok]; exact f1, fun v hv => (List.mem_cons.1 hv).elim (fun e => e ▸ g6) (f2 v), ?_⟩
        rw [List.append_assoc] at f3
        exact f3
      · subst h
        have e1 : step k (at_ a' (rs ++ [r]) s) .look = .ok (at_ a' (rs ++ [r]) (s ++ [a'.cur])) := by simp only [step, at_, get_pack, Res.bind_ok]
        obtain ⟨y', vs, f1, f2, f3⟩ := ih (at_ a' (rs ++ [r]) (s ++ [a'.cur])) hes' rs (s ++ [a'.cur]) (.inr rfl)
        refine ⟨y', a'.cur :: vs, by simp only [run, e1, Res.bind_ok]; exact f1, fun v hv => (List.mem_cons.1 hv).elim (fun e => e ▸ ha) (f2 v), ?_⟩
        rw [List.append_assoc] at f3
        exact f3

theorem left_entry (t : Nat) (pin : Bool) : left (.go [] (entry t pin)) ≤ 12 := by
  unfold entry
  split
  · simp [left, size]
  · split <;> simp [left, size]

end ButtonShared
open ButtonShared

/-- **C161.** A call of `ScanButton` does what it does undisturbed, wherever handlers ask for the state; and a handler gets the state before the call, the one behind it, the level of the pin without
    debouncing, or, if the compiler does not join the assignments of `Set`, `stateUnknown`. -/
theorem c161_scan (k : Cfg) (a a' : PushButton.State) (pin r : Bool) (h : scanOf k a pin = .ok (r, a')) (rs : List Bool) (s : List PushButton.BState) (es : List ButtonInterrupt.Ev) (hes : Within es) :
    ∃ y vs, run k (at_ a rs s) (.scan pin :: es) = .ok y ∧ (y.seen = s ++ vs) ∧ (∀ v ∈ vs, v = a.cur ∨ v = a'.cur ∨ v = PushButton.convert k.inverse pin ∨ (k.join = false ∧ v = .unknown)) ∧
      (12 ≤ steps es → y = at_ a' (rs ++ [r]) (s ++ vs)) := by
  let V : PushButton.BState → Prop := fun v => v = a.cur ∨ v = a'.cur ∨ v = PushButton.convert k.inverse pin ∨ (k.join = false ∧ v = .unknown)
  have hm : Mid k V (PushButton.convert k.inverse pin) r a' ⟨pack a.cur a.prev, a.task, a.delays, .go [] (entry a.task pin), rs, s⟩ := by
    refine ⟨[], _, a.cur, a.prev, rfl, ⟨rfl, .inl rfl⟩, (rest_entry k a pin).trans h, ?_⟩
    unfold entry
    split
    · rfl
    · split
      · rfl
      · trivial
  obtain ⟨y, vs, h1, h2, h3⟩ := within (k := k) (V := V) (.inr (.inr (.inl rfl))) (.inr (.inl rfl)) (fun h => .inr (.inr (.inr ⟨h, rfl⟩))) es _ hes rs s (.inl ⟨hm, rfl, rfl⟩)
  refine ⟨y, vs, h1, ?_, h2, fun h11 => ?_⟩
  · rcases h3 with h3 | h3
    · exact h3.2.2.1
    · rw [h3]; rfl
  · rcases h3 with h3 | h3
    · exfalso
      obtain ⟨⟨l, next, c, p, g1, -⟩, -, -, g2⟩ := h3
      have g3 := left_entry a.task pin
      change left y.pc + steps es ≤ left (.go [] (entry a.task pin)) at g2
      rw [g1] at g2
      have : 0 < left (.go l next) := by cases next <;> simp only [left, size] <;> omega
      omega
    · exact h3

namespace ButtonShared
open PushButton (BState convert)

theorem convert_known (i pin : Bool) : convert i pin ≠ .unknown := by cases i <;> cases pin <;> exact fun h => nomatch h

theorem tail_known {N id H : Nat} {a a' : PushButton.State} {r : Bool} (h : a.cur ≠ .unknown) (e : a.tail N id H = .ok (r, a')) : a'.cur ≠ .unknown := by
  simp only [PushButton.State.tail] at e
  split at e
  · cases hw : a.delays.wait N id H with
    | ub => rw [hw] at e; cases e
    | ok x =>
      obtain ⟨q, d⟩ := x
      simp only [hw, Res.bind_ok, Res.ok.injEq, Prod.mk.injEq] at e
      rw [← e.2]
      cases q with
      | true => exact fun h => nomatch h
      | false => exact h
  · split at e
    · simp only [Res.ok.injEq, Prod.mk.injEq] at e; rw [← e.2]; exact h
    · simp only [Res.ok.injEq, Prod.mk.injEq] at e; rw [← e.2]; exact h

theorem scan_known {k : Cfg} {a a' : PushButton.State} {pin r : Bool} (h : a.cur ≠ .unknown) (e : scanOf k a pin = .ok (r, a')) : a'.cur ≠ .unknown := by
  simp only [scanOf, PushButton.State.scan] at e
  split at e
  · have hs : (a.sample k.inverse pin).cur ≠ .unknown := by
      simp only [PushButton.State.sample]
      split
      · exact convert_known _ _
      · exact h
    split at e
    · simp only [Res.ok.injEq, Prod.mk.injEq] at e; rw [← e.2]; exact fun h => nomatch h
    · exact tail_known hs e
  · split at e
    · cases hw : a.delays.wait k.N k.id k.debounce with
      | ub => rw [hw] at e; cases e
      | ok x =>
        obtain ⟨q, d⟩ := x
        simp only [hw, Res.bind_ok] at e
        cases q with
        | false => simp only [Bool.not_false, if_true, Res.ok.injEq, Prod.mk.injEq] at e; rw [← e.2]; exact h
        | true => simp only [Bool.not_true, Bool.false_eq_true, if_false] at e; exact tail_known (convert_known _ _) e
    · simp only [Res.ok.injEq, Prod.mk.injEq] at e; rw [← e.2]; exact h

theorem run_append (k : Cfg) (l r : List ButtonInterrupt.Ev) (y : St) : run k y (l ++ r) = (run k y l >>= fun y => run k y r) := by
  induction l generalizing y with
  | nil => rfl
  | cons e l ih =>
    show (step k y e >>= fun y => run k y (l ++ r)) = ((step k y e >>= fun y => run k y l) >>= _)
    cases step k y e with
    | ub => rfl
    | ok y' => exact ih y'

theorem stores_run {k : Cfg} {t : Nat} {d : Delays.State} {next : Next} {rs : List Bool} {s : List BState} (l l' : List (BitArrayInterrupt.Assign 8)) : ∀ b : BitVec 8,
    run k ⟨b, t, d, .go (l ++ l') next, rs, s⟩ (List.replicate l.length .main) = .ok ⟨l.foldl (fun b a => (b &&& a.keep) ||| a.put) b, t, d, .go l' next, rs, s⟩ := by
  induction l with
  | nil => intro b; rfl
  | cons a l ih => intro b; exact ih _

theorem leaves_end {V : BState → Prop} {c p : BState} (l : List (BitArrayInterrupt.Assign 8)) : ∀ b : BitVec 8, Leaves V c p b l → l.foldl (fun b a => (b &&& a.keep) ||| a.put) b = pack c p := by
  induction l with
  | nil => exact fun b h => h.1
  | cons a l ih => exact fun b h => ih _ h.2

/-- The first step of a call that finds a new level. -/
theorem sampled {k : Cfg} {a : PushButton.State} {pin : Bool} (ht : a.task = 0) (hn : convert k.inverse pin ≠ a.cur) (hh : ¬ (convert k.inverse pin = .closed ∧ a.cur = .hold)) (rs : List Bool) (s : List BState) :
    run k (at_ a rs s) [.scan pin, .main] = .ok ⟨pack a.cur a.prev, 0, a.delays, .go (prevStores k.join a.cur ++ curStores k.join (convert k.inverse pin)) .debounce, rs, s⟩ := by
  have hif : a.cur ≠ convert k.inverse pin ∧ ¬ (convert k.inverse pin = .closed ∧ a.cur = .hold) := ⟨Ne.symm hn, hh⟩
  simp only [run, step, at_, ht, entry, if_true, Res.bind_ok, mainStep, act, get_pack, setPrev_is, setState_is]
  rw [if_pos hif]
  rfl

end ButtonShared

/-- **C161.** The theorems are about the button as it is constructed too, and however often handlers ask before the first call, they get `stateUnknown`. -/
theorem c161_new (k : Cfg) (n : Nat) : St.init = at_ PushButton.State.init [] [] ∧ run k St.init (List.replicate n .look) = .ok { St.init with seen := List.replicate n .unknown } := by
  have h : ∀ n s, run k { St.init with seen := s } (List.replicate n .look) = .ok { St.init with seen := s ++ List.replicate n .unknown } := by
    intro n
    induction n with
    | zero => intro s; simp [run]
    | succ n ih =>
      intro s
      have e : run k { St.init with seen := s } (.look :: List.replicate n .look) = run k { St.init with seen := s ++ [.unknown] } (List.replicate n .look) := by
        have e1 : getState St.init.bits = .ok .unknown := by decide +kernel
        simp only [run, step, e1, Res.bind_ok]
      rw [List.replicate_succ, e, ih, List.append_assoc]
      rfl
  exact ⟨rfl, h n []⟩

/-- **C161.** If the compiler joins the assignments of `Set`, a handler never gets `stateUnknown` from a button that has been scanned. -/
theorem c161_joined (k : Cfg) (hj : k.join = true) (a a' : PushButton.State) (pin r : Bool) (h : scanOf k a pin = .ok (r, a')) (ha : a.cur ≠ .unknown) (rs : List Bool) (s : List PushButton.BState)
    (es : List ButtonInterrupt.Ev) (hes : Within es) : ∃ y vs, run k (at_ a rs s) (.scan pin :: es) = .ok y ∧ y.seen = s ++ vs ∧ .unknown ∉ vs := by
  obtain ⟨y, vs, h1, h2, h3, -⟩ := c161_scan k a a' pin r h rs s es hes
  refine ⟨y, vs, h1, h2, fun hu => ?_⟩
  rcases h3 _ hu with e | e | e | e
  · exact ha e.symm
  · exact scan_known ha h e.symm
  · exact convert_known _ _ e.symm
  · rw [hj] at e; cases e.1

/-- **C161.** Whenever a call of `ScanButton` starts debouncing there is a moment in it at which a handler gets the level of the pin as the state of the button, although the call leaves `statePending`. -/
theorem c161_glitch_fails (k : Cfg) (a : PushButton.State) (pin : Bool) (ht : a.task = 0) (hc : a.cur = .opened ∨ a.cur = .closed ∨ a.cur = .hold) (hn : PushButton.convert k.inverse pin ≠ a.cur)
    (hh : ¬ (PushButton.convert k.inverse pin = .closed ∧ a.cur = .hold)) (rs : List Bool) (s : List PushButton.BState) :
    (∃ a', scanOf k a pin = .ok (true, a') ∧ a'.cur = .pending) ∧ ∃ n y, run k (at_ a rs s) (.scan pin :: List.replicate n .main ++ [.look]) = .ok y ∧ y.seen = s ++ [PushButton.convert k.inverse pin] := by
  constructor
  · have hif : a.cur ≠ PushButton.convert k.inverse pin ∧ ¬ (PushButton.convert k.inverse pin = .closed ∧ a.cur = .hold) := ⟨Ne.symm hn, hh⟩
    have hm : (⟨0, PushButton.convert k.inverse pin, a.cur, a.delays⟩ : PushButton.State).mustDebounce = true := by
      rw [must_iff]
      refine ⟨Ne.symm hn, ?_, ?_, ?_⟩
      · show PushButton.convert k.inverse pin ≠ .hold
        cases k.inverse <;> cases pin <;> exact fun h => nomatch h
      · show a.cur ≠ .unknown
        rcases hc with h | h | h <;> rw [h] <;> exact fun h => nomatch h
      · show a.cur ≠ .pending
        rcases hc with h | h | h <;> rw [h] <;> exact fun h => nomatch h
    simp only [scanOf, PushButton.State.scan, ht, if_true, PushButton.State.sample, if_pos hif]
    rw [if_pos hm]
    exact ⟨_, rfl, rfl⟩
  · let l := prevStores k.join a.cur ++ curStores k.join (PushButton.convert k.inverse pin)
    have e := leaves_end l (pack a.cur a.prev) (leaves_both (V := fun _ => True) (j := k.join) (p := a.prev) (q := a.cur) (v := PushButton.convert k.inverse pin) trivial trivial fun _ => trivial)
    have h1 := stores_run (k := k) (t := 0) (d := a.delays) (next := .debounce) (rs := rs) (s := s) l [] (pack a.cur a.prev)
    rw [e, List.append_nil] at h1
    refine ⟨1 + l.length, ⟨pack (PushButton.convert k.inverse pin) a.cur, 0, a.delays, .go [] .debounce, rs, s ++ [PushButton.convert k.inverse pin]⟩, ?_, rfl⟩
    rw [← List.replicate_append_replicate]
    show run k (at_ a rs s) ([.scan pin, .main] ++ List.replicate l.length .main ++ [.look]) = _
    rw [ButtonShared.run_append, ButtonShared.run_append, sampled ht hn hh, Res.bind_ok, h1, Res.bind_ok]
    simp only [run, step, get_pack, Res.bind_ok]

/-- **C161.** If the compiler does not join the assignments of `Set` there is also a moment at which a handler gets `stateUnknown`. -/
theorem c161_unknown_fails (k : Cfg) (hj : k.join = false) (a : PushButton.State) (pin : Bool) (ht : a.task = 0) (hn : PushButton.convert k.inverse pin ≠ a.cur)
    (hh : ¬ (PushButton.convert k.inverse pin = .closed ∧ a.cur = .hold)) (rs : List Bool) (s : List PushButton.BState) :
    ∃ y, run k (at_ a rs s) (.scan pin :: List.replicate 4 .main ++ [.look]) = .ok y ∧ y.seen = s ++ [.unknown] := by
  have hl : prevStores k.join a.cur ++ curStores k.join (PushButton.convert k.inverse pin) =
      [⟨0xC7, 0⟩, ⟨0xFF, pack .unknown a.cur⟩, ⟨0xF8, 0⟩] ++ [⟨0xFF, pack (PushButton.convert k.inverse pin) .unknown⟩] := by rw [hj]; rfl
  have h1 := stores_run (k := k) (t := 0) (d := a.delays) (next := .debounce) (rs := rs) (s := s) [⟨0xC7, 0⟩, ⟨0xFF, pack .unknown a.cur⟩, ⟨0xF8, 0⟩] [⟨0xFF, pack (PushButton.convert k.inverse pin) .unknown⟩] (pack a.cur a.prev)
  have e : List.foldl (fun (b : BitVec 8) (x : BitArrayInterrupt.Assign 8) => (b &&& x.keep) ||| x.put) (pack a.cur a.prev) [⟨0xC7, 0⟩, ⟨0xFF, pack .unknown a.cur⟩, ⟨0xF8, 0⟩] = pack .unknown a.cur := by
    simp only [List.foldl_cons, List.foldl_nil]
    rw [store_prev0, store_prev1, store_cur0]
  rw [e] at h1
  refine ⟨⟨pack .unknown a.cur, 0, a.delays, .go [⟨0xFF, pack (PushButton.convert k.inverse pin) .unknown⟩] .debounce, rs, s ++ [.unknown]⟩, ?_, rfl⟩
  show run k (at_ a rs s) ([.scan pin, .main] ++ List.replicate 3 .main ++ [.look]) = _
  rw [ButtonShared.run_append, ButtonShared.run_append, sampled ht hn hh, Res.bind_ok, hl]
  have h2 : (List.replicate 3 .main : List ButtonInterrupt.Ev) = List.replicate ([⟨0xC7, 0⟩, ⟨0xFF, pack .unknown a.cur⟩, ⟨0xF8, 0⟩] : List (BitArrayInterrupt.Assign 8)).length .main := rfl
  rw [h2, h1, Res.bind_ok]
  simp only [run, step, get_pack, Res.bind_ok]

/-! ### In sections -/

namespace ButtonShared
open PushButton (BState convert)

/-- The button as a shared object (PushButton.h 106-141). -/
abbrev button (k : Cfg) : CriticalSection.Machine where
  St := ButtonInterrupt.St
  Ev := ButtonInterrupt.Ev
  step := ButtonInterrupt.step k
  kind := fun | .scan _ | .other _ => .enter | .main => .within | .look => .handler
  idle := fun y => y.pc = .idle
  proper := fun _ => True

theorem lawful_button (k : Cfg) : Sections.Lawful (button k) := by
  intro (y : ButtonInterrupt.St) (e : ButtonInterrupt.Ev) (y' : ButtonInterrupt.St) (hi : y.pc = .idle) hk h
  change ButtonInterrupt.step k y e = .ok y' at h
  change y'.pc = .idle
  cases e with
  | scan pin => exact absurd rfl hk
  | other op => exact absurd rfl hk
  | main => simp only [step, mainStep, hi, Res.ok.injEq] at h; subst h; exact hi
  | look =>
    simp only [step] at h
    cases hc : getState y.bits with
    | ub => rw [hc] at h; cases h
    | ok x => rw [hc] at h; simp only [Res.bind_ok, Res.ok.injEq] at h; subst h; exact hi

theorem run_button (k : Cfg) (es : List ButtonInterrupt.Ev) (y : ButtonInterrupt.St) : (button k).run y es = ButtonInterrupt.run k y es :=
  Sections.run_is (M := button k) (R := ButtonInterrupt.run k) (fun _ => rfl) (fun _ _ _ => rfl) es y

/-- The button and the one of which every call is indivisible. -/
def Rel (k : Cfg) (y : ButtonInterrupt.St) (x : PushButton.State × List Bool × List BState) : Prop :=
  y = at_ x.1 x.2.1 x.2.2 ∨ ∃ w r, Mid k (fun _ => True) w r x.1 y ∧ y.results ++ [r] = x.2.1 ∧ y.seen = x.2.2

theorem mid_busy {k : Cfg} {V : BState → Prop} {w : BState} {r : Bool} {a' : PushButton.State} {y : St} (h : Mid k V w r a' y) : y.pc ≠ .idle := by
  obtain ⟨l, next, c, p, h1, -⟩ := h
  rw [h1]; exact fun h => nomatch h

theorem clean_rel {k : Cfg} (es : List ButtonInterrupt.Ev) : ∀ (y : ButtonInterrupt.St) (x x' : PushButton.State × List Bool × List BState), Rel k y x → Sections.Clean (button k) y es →
    inOneGo k x es = .ok x' → ∃ y', ButtonInterrupt.run k y es = .ok y' ∧ Rel k y' x' := by
  induction es with
  | nil => intro y x x' h _ hx; simp only [inOneGo, Res.ok.injEq] at hx; subst hx; exact ⟨y, rfl, h⟩
  | cons e es ih =>
    intro y x x' h hc hx
    have next : ∀ y1 x1, step k y e = .ok y1 → Rel k y1 x1 → inOneGo k x1 es = .ok x' → ∃ y', ButtonInterrupt.run k y (e :: es) = .ok y' ∧ Rel k y' x' := by
      intro y1 x1 e1 r1 hx1
      obtain ⟨y', f1, f2⟩ := ih y1 x1 x' r1 (hc.2 _ e1) hx1
      exact ⟨y', by simp only [run, e1, Res.bind_ok]; exact f1, f2⟩
    have hat : e ≠ .main → y = at_ x.1 x.2.1 x.2.2 := by
      intro he
      rcases h with h | ⟨w, r, h, -⟩
      · exact h
      · refine absurd (hc.1.2 ?_) (mid_busy h)
        cases e with
        | main => exact absurd rfl he
        | _ => exact fun h => nomatch h
    obtain ⟨a, rs, s⟩ := x
    cases e with
    | main =>
      rcases h with h | ⟨w, r, h1, h2, h3⟩
      · subst h; exact next _ _ rfl (.inl rfl) hx
      · obtain ⟨y1, e1, e2, -, e4⟩ := mid_step (V := fun _ => True) trivial trivial (fun _ => trivial) h1
        refine next y1 (a, rs, s) e1 ?_ hx
        rcases e4 with ⟨e4, e5⟩ | e4
        · exact .inr ⟨w, r, e4, by rw [e5]; exact h2, e2.trans h3⟩
        · left; rw [e4, h2, h3]
    | scan pin =>
      have hy := hat (fun h => nomatch h)
      subst hy
      simp only [inOneGo] at hx
      cases hs : scanOf k a pin with
      | ub => rw [hs] at hx; cases hx
      | ok z =>
        obtain ⟨r, a'⟩ := z
        simp only [hs, Res.bind_ok] at hx
        refine next _ _ rfl (.inr ⟨convert k.inverse pin, r, ⟨[], _, a.cur, a.prev, rfl, ⟨rfl, trivial⟩, (rest_entry k a pin).trans hs, ?_⟩, rfl, rfl⟩) hx
        show Level _ _ (entry a.task pin)
        unfold entry
        split
        · rfl
        · split
          · rfl
          · trivial
    | other op =>
      have hy := hat (fun h => nomatch h)
      subst hy
      simp only [inOneGo] at hx
      cases hs : a.delays.step k.N op with
      | ub => rw [hs] at hx; cases hx
      | ok z =>
        obtain ⟨r, d⟩ := z
        simp only [hs, Res.bind_ok] at hx
        refine next (at_ { a with delays := d } rs s) _ ?_ (.inl rfl) hx
        simp only [step, at_, hs, Res.bind_ok]
    | look =>
      have hy := hat (fun h => nomatch h)
      subst hy
      refine next (at_ a rs (s ++ [a.cur])) _ ?_ (.inl rfl) hx
      simp only [step, at_, get_pack, Res.bind_ok]

end ButtonShared

/-- **C161.** Main code that scans the button only with interrupts off: outside of its calls the button, the results and everything handlers have got are those of indivisible calls, in the order in which
    they came. -/
theorem c161_sections (k : Cfg) (a : PushButton.State) (on : Bool) (es : List (CriticalSection.Ev ButtonInterrupt.Ev)) (hs : Sections.Sectioned (button k) (CriticalSection.Board.init _ (at_ a [] []) on) es)
    (d : CriticalSection.Board (button k)) (hd : CriticalSection.run (button k) (CriticalSection.Board.init _ (at_ a [] []) on) es = .ok d) (x : PushButton.State × List Bool × List PushButton.BState)
    (hx : inOneGo k (a, [], []) d.trace = .ok x) (hp : d.obj.pc = .idle) : d.obj = at_ x.1 x.2.1 x.2.2 := by
  obtain ⟨h1, h2⟩ := c151_apart _ (lawful_button k) (at_ a [] []) on (fun _ => rfl) es hs d hd
  obtain ⟨y, h3, h4⟩ := clean_rel d.trace (at_ a [] []) (a, [], []) x (.inl rfl) h1 hx
  have h5 : y = d.obj := by
    have := h3.symm.trans ((run_button k d.trace _).symm.trans h2)
    injection this
  subst h5
  rcases h4 with h4 | ⟨w, r, h4, -⟩
  · exact h4
  · exact absurd hp (mid_busy h4)

namespace ButtonShared
/-- A table of two delays, debouncing for 5 and holding for 10 ticks, assignments joined or not. -/
def cfg (join : Bool) : Cfg := ⟨2, 1, 5, 10, false, join⟩
/-- The button is open; main code scans it while the contact bounces; a handler asks. -/
def bounce : List ButtonInterrupt.Ev := .scan false :: List.replicate 6 .main ++ .scan true :: List.replicate 3 .main ++ [.look]
def curAfter (n : Nat) : Option PushButton.BState :=
  match inOneGo (cfg true) (PushButton.State.init, [], []) (bounce.take n) with
  | .ok x => some x.1.cur
  | .ub => none
end ButtonShared

/-- **C161.** The full claim, that handlers get only states that calls of `ScanButton` leave, is false of the code. -/
theorem c161_full_claim_is_false : ¬ ∀ (k : Cfg) (es : List ButtonInterrupt.Ev) (y : St), run k St.init es = .ok y →
    ∀ v ∈ y.seen, ∃ n ≤ es.length, ∃ x, inOneGo k (PushButton.State.init, [], []) (es.take n) = .ok x ∧ x.1.cur = v := by
  intro h
  obtain ⟨n, h1, x, h2, h3⟩ := h (cfg true) bounce ⟨pack .closed .opened, 0, Delays.State.init, .go [] .debounce, [false], [.closed]⟩ rfl .closed (by simp)
  have key : ∀ n ≤ 12, curAfter n ≠ some .closed := by decide
  refine key n h1 ?_
  simp only [curAfter, h2, h3]

/-! ### Cases -/

namespace ButtonShared
/-- The button known to be open. -/
def opened : PushButton.State := ⟨0, .opened, .unknown, Delays.State.init⟩

/-- Main code scans in sections, a handler asks in between. -/
def inTurn : List (CriticalSection.Ev ButtonInterrupt.Ev) :=
  [.request 0, .off, .main (.scan true), .main .main, .serve 0 [.look]] ++ List.replicate 8 (.main .main) ++ [.on, .other, .serve 0 [.look], .other, .off, .main (.scan true)] ++ List.replicate 2 (.main .main) ++ [.on]
instance (k : Cfg) : DecidablePred (button k).proper := fun _ => inferInstanceAs (Decidable True)
instance (k : Cfg) : DecidablePred (button k).idle := fun y => match h : y.pc with
  | .idle => .isTrue h
  | .go _ _ => .isFalse fun h' => by have h' : y.pc = .idle := h'; rw [h] at h'; cases h'
end ButtonShared

example := c161_scan (cfg false) opened _ true true rfl [] [] [.main, .look, .main, .main, .main, .look, .main, .look, .main] (by intro e he; simp at he; grind)
/-- The scan of an open button whose contact bounces: a handler that asks everywhere sees open, unknown, closed, unknown, pending. -/
example : ∃ y, run (cfg false) (at_ opened [] []) (.scan true :: (List.replicate 9 [.look, .main]).flatten ++ [.look]) = .ok y ∧
    y.seen = [.opened, .opened, .opened, .opened, .unknown, .closed, .closed, .unknown, .pending, .pending] := ⟨_, rfl, rfl⟩
example := c161_new (cfg true) 3
example := c161_joined (cfg true) rfl opened _ true true rfl (by decide) [] [] [.main, .look, .main, .main, .look] (by intro e he; simp at he; grind)
example := c161_glitch_fails (cfg true) opened true rfl (.inl rfl) (by decide) (by decide) [] []
example := c161_unknown_fails (cfg false) rfl opened true rfl (by decide) (by decide) [] []
example := fun d hd x hx hp => c161_sections (cfg false) opened true inTurn (by decide +kernel) d hd x hx hp
/-- There the handler sees pending, and the second scan finds the delay running. -/
example : ∃ d x, CriticalSection.run (button (cfg false)) (CriticalSection.Board.init _ (at_ opened [] []) true) inTurn = .ok d ∧ inOneGo (cfg false) (opened, [], []) d.trace = .ok x ∧ d.obj.pc = .idle ∧
    x.2 = ([true, true], [.pending]) := ⟨_, _, rfl, rfl, rfl, rfl⟩

end Atl.Props
