import Verif.Model.Port
import Mathlib.Data.List.Induction
import Verif.Props.UsartConfig

/- Property theorems C60, C77, C78: AVR ports, interrupt enabling, buttons. -/
namespace Atl.Props
open Atl.Usart (Mem) 
open Atl.Port

/-- The pin of a register at an address. -/
def pinAt (m : Mem) (a j : Nat) : Bool := (m a).getLsbD j

theorem or_mask (t : BitVec 8) (i j : Nat) (hi : i < 8) : (t ||| mask i).getLsbD j = (if j = i then true else t.getLsbD j) := bit_set i hi t j
theorem and_mask (t : BitVec 8) (i j : Nat) (hi : i < 8) : (t &&& ~~~mask i).getLsbD j = (if j = i then false else t.getLsbD j) := bit_clear i hi t j

theorem and_mask_zero : ∀ (i : Fin 8) (t : BitVec 8), (t &&& mask i = 0#8) ↔ t.getLsbD i = false := by decide +kernel
theorem and_mask_pos : ∀ (i : Fin 8) (t : BitVec 8), decide (0 < (t &&& mask i).toNat) = t.getLsbD i := by decide +kernel

/-! ### C60 -/

/-- **C60.** Setting the direction of a pin sets its bit of the direction register (address 0x21 + 3 * port) and nothing else in memory. -/
theorem c60_direction (port pin : Nat) (hp : pin < 8) (out : Bool) (m : Mem) (a j : Nat) :
    pinAt (setDirection port pin out m) a j = if a = 0x21 + 3 * port ∧ j = pin then out else pinAt m a j := by
  unfold setDirection pinAt Mem.put aDdr
  have ha : (0x20 + (port * 3 + 1)) = 0x21 + 3 * port := by omega
  rw [ha]
  by_cases h : a = 0x21 + 3 * port
  · subst h
    cases out
    · simp only [Bool.false_eq_true, if_false, if_true, true_and]; exact and_mask _ pin j hp
    · simp only [if_true, true_and]; exact or_mask _ pin j hp
  · cases out <;> simp [h]

example := c60_direction 1 5 (by decide) true (fun _ => 0xA5#8) 0x24 4

/-- **C60.** Writing a level sets the pin's bit of the output register (0x22 + 3 * port) and nothing else. -/
theorem c60_write (port pin : Nat) (hp : pin < 8) (v : Bool) (m : Mem) (a j : Nat) :
    pinAt (write port pin v m) a j = if a = 0x22 + 3 * port ∧ j = pin then v else pinAt m a j := by
  unfold write pinAt Mem.put aPort
  have ha : (0x20 + (port * 3 + 2)) = 0x22 + 3 * port := by omega
  rw [ha]
  by_cases h : a = 0x22 + 3 * port
  · subst h
    cases v
    · simp only [Bool.false_eq_true, if_false, if_true, true_and]; exact and_mask _ pin j hp
    · simp only [if_true, true_and]; exact or_mask _ pin j hp
  · cases v <;> simp [h]

example := c60_write 1 5 (by decide) true (fun _ => 0xA5#8) 0x25 5

/-- **C60.** Reading returns the pin's bit of the input register (0x20 + 3 * port). -/
theorem c60_read (port pin : Nat) (hp : pin < 8) (m : Mem) : Port.read port pin m = pinAt m (0x20 + 3 * port) pin := by
  unfold Port.read pinAt aPin
  rw [Nat.mul_comm port]
  exact and_mask_pos ⟨pin, hp⟩ _

example := c60_read 1 5 (by decide) (fun _ => 0xA5#8)

/-- **C60.** The eight-argument form gives each pin its own direction. -/
theorem c60_directions (port : Nat) (f : Fin 8 → Bool) (m : Mem) (a j : Nat) (hj : j < 8) :
    pinAt (setDirections port (f 7) (f 6) (f 5) (f 4) (f 3) (f 2) (f 1) (f 0) m) a j =
      if a = 0x21 + 3 * port then f ⟨j, hj⟩ else pinAt m a j := by
  unfold setDirections pinAt Mem.put aDdr
  have ha : (0x20 + (port * 3 + 1)) = 0x21 + 3 * port := by omega
  rw [ha]
  by_cases h : a = 0x21 + 3 * port
  · simp only [h, if_true]
    have key : ∀ (b7 b6 b5 b4 b3 b2 b1 b0 : Bool) (j : Fin 8),
        (io b7 <<< 7 ||| io b6 <<< 6 ||| io b5 <<< 5 ||| io b4 <<< 4 ||| io b3 <<< 3 ||| io b2 <<< 2 ||| io b1 <<< 1 ||| io b0).getLsbD j =
          [b0, b1, b2, b3, b4, b5, b6, b7][j] := by decide +kernel
    rw [key (f 7) (f 6) (f 5) (f 4) (f 3) (f 2) (f 1) (f 0) ⟨j, hj⟩]
    have : j = 0 ∨ j = 1 ∨ j = 2 ∨ j = 3 ∨ j = 4 ∨ j = 5 ∨ j = 6 ∨ j = 7 := by omega
    rcases this with rfl | rfl | rfl | rfl | rfl | rfl | rfl | rfl <;> rfl
  · simp only [h, if_false]

example := c60_directions 1 (fun i => i.val % 2 = 0) (fun _ => 0xA5#8) 0x24 6 (by decide)

/-- **C60, partial.** EnablePullup on an output refuses and changes nothing; on an input it returns true and sets the pin's pull-up bit and nothing else.
    Missing: off. -/
theorem c60_pullup_partial (port pin : Nat) (hp : pin < 8) (e : Bool) (m : Mem) :
    (pinAt m (0x21 + 3 * port) pin = true → enablePullup port pin e m = (m, false)) ∧
    (pinAt m (0x21 + 3 * port) pin = false → (enablePullup port pin e m).2 = true ∧
      ∀ a j, pinAt (enablePullup port pin e m).1 a j = if a = 0x22 + 3 * port ∧ j = pin then true else pinAt m a j) := by
  have ha : aDdr port = 0x21 + 3 * port := by unfold aDdr; omega
  have hb : aPort port = 0x22 + 3 * port := by unfold aPort; omega
  have hz := and_mask_zero ⟨pin, hp⟩ (m (0x21 + 3 * port))
  unfold enablePullup
  rw [ha, hb]
  refine ⟨fun h => ?_, fun h => ?_⟩
  · rw [if_neg]
    rw [hz]; unfold pinAt at h; rw [h]; simp
  · rw [if_pos (hz.2 h)]
    refine ⟨rfl, fun a j => ?_⟩
    unfold pinAt Mem.put
    by_cases h2 : a = 0x22 + 3 * port
    · subst h2
      simp only [if_true, true_and]; exact or_mask _ pin j hp
    · simp [h2]

example := c60_pullup_partial 1 5 (by decide) true (fun _ => 0x5A#8)

/-- **C60 fails.** EnablePullup(pin, false) on an input switches the pull-up on. -/
theorem c60_pullup_fails (port pin : Nat) (hp : pin < 8) (m : Mem) (h : pinAt m (0x21 + 3 * port) pin = false) :
    pinAt (enableInternalPullup port pin false m) (0x22 + 3 * port) pin = true := by
  have := ((c60_pullup_partial port pin hp false m).2 h).2 (0x22 + 3 * port) pin
  rw [if_pos ⟨rfl, rfl⟩] at this
  exact this

example : pinAt (fun _ => 0#8) (0x21 + 3 * 1) 5 = false := by decide

/-- **C60.** Constructing an input pin makes that pin an input and changes nothing else. -/
theorem c60_inputPin (port pin : Nat) (hp : pin < 8) (m : Mem) (a j : Nat) :
    pinAt (inputPin port pin m) a j = if a = 0x21 + 3 * port ∧ j = pin then false else pinAt m a j :=
  c60_direction port pin hp false m a j

example : pinAt (inputPin 1 5 (fun _ => 0xFF#8)) 0x24 5 = false ∧ pinAt (inputPin 1 5 (fun _ => 0xFF#8)) 0x24 4 = true := by decide

/-- **C60.** Setting all directions by one value gives every pin of the port the direction of its bit and changes nothing else. -/
theorem c60_directionAll (port : Nat) (v : BitVec 8) (m : Mem) (a j : Nat) :
    pinAt (setDirectionAll port v m) a j = if a = 0x21 + 3 * port then v.getLsbD j else pinAt m a j := by
  unfold setDirectionAll pinAt Mem.put aDdr
  by_cases h : a = 0x21 + 3 * port
  · rw [if_pos h, if_pos (by omega)]
  · rw [if_neg h, if_neg (by omega)]

/-- **C60.** An output pin constructed with a value ends as output with that level, nothing else changed. -/
theorem c60_outputPin (port pin : Nat) (hp : pin < 8) (v : Bool) (m : Mem) (a j : Nat) :
    ((outputPin port pin v m).getLast?.map fun m => pinAt m a j) = some
      (if a = 0x21 + 3 * port ∧ j = pin then true else if a = 0x22 + 3 * port ∧ j = pin then v else pinAt m a j) := by
  unfold outputPin
  simp only [List.getLast?_cons_cons, List.getLast?_singleton, Option.map_some]
  rw [c60_write port pin hp, c60_direction port pin hp]
  by_cases h : a = 0x22 + 3 * port ∧ j = pin
  · rw [if_pos h, if_neg (by omega), if_pos h]
  · rw [if_neg h, if_neg h]

example := c60_outputPin 1 5 (by decide) true (fun _ => 0xA5#8) 0x24 5

/-- **C60 fails** (glitch): the direction is switched before the level, so between the two stores the pin drives the old level, the opposite of the requested one. -/
theorem c60_outputPin_fails (port pin : Nat) (hp : pin < 8) (m : Mem) (h : pinAt m (0x22 + 3 * port) pin = false) :
    ∃ m1 m2, outputPin port pin true m = [m1, m2] ∧ pinAt m1 (0x21 + 3 * port) pin = true ∧ pinAt m1 (0x22 + 3 * port) pin = false := by
  refine ⟨_, _, rfl, ?_, ?_⟩
  · rw [c60_direction port pin hp, if_pos ⟨rfl, rfl⟩]
  · rw [c60_direction port pin hp, if_neg (by omega), h]

/-! ### C77 interrupt enabling -/

/-- Data sheet: a change of pin `j` of port A..D (0..3) raises its pin change interrupt: PCICR (0x68) bit of the port and PCMSK0..2 (0x6B..0x6D), PCMSK3 (0x73). -/
def pinChangeOn (m : Mem) (port j : Nat) : Bool := pinAt m 0x68 port && pinAt m (if port < 3 then 0x6B + port else 0x73) j

/-- **C77, partial.** For ports A to C: afterwards exactly the flagged pins of the port raise the interrupt and the other ports are as before.
    Missing: port D. -/
theorem c77_pinChange_partial (port : Nat) (hp : port < 3) (flags : BitVec 8) (m : Mem) (port' j : Nat) (hp' : port' < 4) :
    pinChangeOn (enablePinChange port flags m) port' j = if port' = port then flags.getLsbD j else pinChangeOn m port' j := by
  unfold enablePinChange
  have e1 := fun t j => bit_set port (by omega) t j
  have e2 := fun t j => bit_clear port (by omega) t j
  unfold Usart.setBit at e1
  unfold Usart.clearBit at e2
  by_cases hf : flags = 0#8
  · rw [if_pos hf, hf]
    unfold pinChangeOn pinAt Mem.put aPCICR
    rw [if_pos rfl, e2]
    have : (if port' < 3 then 0x6B + port' else 0x73) ≠ 0x68 := by split <;> omega
    rw [if_neg this]
    by_cases hpp : port' = port
    · simp [hpp]
    · simp only [hpp, if_false]
  · rw [if_neg hf]
    simp only [hp, if_true]
    unfold pinChangeOn pinAt Mem.put aPCICR
    rw [if_neg (by omega), if_pos rfl, e1]
    by_cases hpp : port' = port
    · subst hpp
      simp only [hp, if_true, Bool.true_and]
    · have h1 : (if port' < 3 then 0x6B + port' else 0x73) ≠ 0x6B + port := by split <;> omega
      have h2 : (if port' < 3 then 0x6B + port' else 0x73) ≠ 0x68 := by split <;> omega
      rw [if_neg h1, if_neg h2]
      simp only [hpp, if_false]

example := c77_pinChange_partial 1 (by decide) 0x81#8 (fun _ => 0#8) 1 7 (by decide)

/-- **C77 fails.** For port D the flags have no effect: with an initially zero mask no pin raises the interrupt, whatever is asked for. -/
theorem c77_pinChange_fails (flags : BitVec 8) (m : Mem) (hm : m 0x73 = 0#8) (j : Nat) : pinChangeOn (enablePinChange 3 flags m) 3 j = false := by
  have h : (enablePinChange 3 flags m) 0x73 = 0#8 := by
    unfold enablePinChange Mem.put aPCICR
    split
    · simpa using hm
    · simpa using hm
  unfold pinChangeOn
  have : pinAt (enablePinChange 3 flags m) (if 3 < 3 then 0x6B + 3 else 0x73) j = false := by
    show ((enablePinChange 3 flags m) 0x73).getLsbD j = false
    rw [h]; simp
  rw [this, Bool.and_false]

theorem timer_bit (i : Nat) (hi : i < 8) (idx : Nat) (e : Bool) (m : Mem) (a j : Nat) :
    pinAt (enableTimer (mask i) idx e m) a j = if a = 0x6E + idx ∧ j = i then e else pinAt m a j := by
  unfold enableTimer pinAt Mem.put
  by_cases h : a = 0x6E + idx
  · subst h
    cases e
    · simp only [Bool.false_eq_true, if_false, if_true, true_and]; exact and_mask _ i j hi
    · simp only [if_true, true_and]; exact or_mask _ i j hi
  · cases e <;> simp [h]

/-- **C77.** The timer interrupts: overflow is bit 0, compare A bit 1, compare B bit 2 of the timer's TIMSK register (0x6E + index); nothing else changes. -/
theorem c77_timers (idx : Nat) (e : Bool) (m : Mem) (a j : Nat) :
    pinAt (enableOverflow idx e m) a j = (if a = 0x6E + idx ∧ j = 0 then e else pinAt m a j) ∧
    pinAt (enableCompareA idx e m) a j = (if a = 0x6E + idx ∧ j = 1 then e else pinAt m a j) ∧
    pinAt (enableCompareB idx e m) a j = (if a = 0x6E + idx ∧ j = 2 then e else pinAt m a j) :=
  ⟨timer_bit 0 (by omega) idx e m a j, timer_bit 1 (by omega) idx e m a j, timer_bit 2 (by omega) idx e m a j⟩

example : pinChangeOn (enablePinChange 1 0x81#8 fun _ => 0#8) 1 7 = true ∧ pinChangeOn (enablePinChange 1 0x81#8 fun _ => 0#8) 1 6 = false := by decide +kernel

/-! ### C78 button -/

/-- A button as the user sees it: its state and the state before it. -/
structure BView where
  cur : BState
  prev : BState
  deriving DecidableEq

/-- What the bits stand for. -/
def BView.bits (v : BView) : BitVec 8 := v.prev.val <<< 3 ||| v.cur.val

/-- Specification: a new state replaces the current one, which becomes the previous; hold is a form of closed. -/
def bSet (new : BState) (v : BView) : BView × Bool :=
  if new = v.cur ∨ (new = .closed ∧ v.cur = .hold) then (v, false) else (⟨new, v.cur⟩, true)

/-- **C78.** SetButtonState follows the specification in every state, and the accessors return the two states. -/
theorem c78_state (new : BState) (v : BView) :
    setButtonState new v.bits = .ok ((bSet new v).1.bits, (bSet new v).2) ∧ getState v.bits = .ok v.cur.val ∧ getPrev v.bits = .ok v.prev.val := by
  obtain ⟨c, p⟩ := v
  cases new <;> cases c <;> cases p <;> decide +kernel

/-- **C78.** The numbers the accessors return are the named states. -/
theorem c78_names (v : BView) : (do let s ← getState v.bits; .ok (BState.of s)) = Res.ok (some v.cur) ∧
    (do let s ← getPrev v.bits; .ok (BState.of s)) = Res.ok (some v.prev) := by
  obtain ⟨c, p⟩ := v
  cases c <;> cases p <;> decide +kernel

/-- **C78.** After any readings (at least one) of a new button the state is closed exactly if the last reading, or its inverse, is true; the state before it is a different one. -/
theorem c78_readings (inverse : Bool) (vs : List Bool) (v : Bool) :
    ∃ w : BView, readings inverse 0#8 (vs ++ [v]) = .ok w.bits ∧ w.cur = (if v ≠ inverse then .closed else .opened) ∧ w.prev ≠ w.cur ∧
      (w.prev = .unknown ↔ ∀ x ∈ vs, x = v) := by
  have step1 : ∀ (w : BView) (x : Bool), setButtonValue inverse w.bits x = .ok (bSet (convert inverse x) w).1.bits := by
    intro w x
    unfold setButtonValue
    rw [(c78_state (convert inverse x) w).1]
    rfl
  have conv : ∀ x, convert inverse x = if x ≠ inverse then .closed else .opened := by
    intro x; cases inverse <;> cases x <;> rfl
  have app : ∀ (as bs : List Bool) (s s' : BitVec 8), readings inverse s as = .ok s' → readings inverse s (as ++ bs) = readings inverse s' bs := by
    intro as
    induction as with
    | nil => intro bs s s' h; injection h with h; rw [h]; rfl
    | cons a as ih =>
      intro bs s s' h
      unfold readings at h
      show (do let s ← setButtonValue inverse s a; readings inverse s (as ++ bs)) = _
      cases hs : setButtonValue inverse s a with
      | ub => rw [hs] at h; cases h
      | ok t => rw [hs] at h; exact ih bs t s' h
  have one : ∀ (w : BView) (x : Bool), readings inverse w.bits [x] = .ok (bSet (convert inverse x) w).1.bits := by
    intro w x
    unfold readings
    rw [step1]; rfl
  induction vs using List.reverseRecOn generalizing v with
  | nil =>
    refine ⟨⟨convert inverse v, .unknown⟩, ?_, conv v, ?_, by simp⟩
    · rw [List.nil_append]
      have := one ⟨.unknown, .unknown⟩ v
      rw [show BView.bits ⟨.unknown, .unknown⟩ = 0#8 by decide] at this
      rw [this]
      cases inverse <;> cases v <;> rfl
    · cases inverse <;> cases v <;> simp [convert]
  | append_singleton us u ih =>
    obtain ⟨w, h1, h2, h3, h4⟩ := ih u
    have hr := app (us ++ [u]) [v] 0#8 _ h1
    rw [one] at hr
    by_cases huv : v = u
    · subst huv
      refine ⟨w, ?_, h2, h3, ?_⟩
      · rw [hr]
        have : (bSet (convert inverse v) w).1 = w := by
          unfold bSet
          rw [conv, ← h2]; simp
        rw [this]
      · rw [h4]
        simp only [List.mem_append, List.mem_singleton]
        exact ⟨fun h x hx => hx.elim (h x) id, fun h x hx => h x (Or.inl hx)⟩
    · refine ⟨⟨convert inverse v, w.cur⟩, ?_, conv v, ?_, ?_⟩
      · rw [hr]
        have : (bSet (convert inverse v) w).1 = ⟨convert inverse v, w.cur⟩ := by
          unfold bSet
          rw [conv, h2]
          cases inverse <;> cases v <;> cases u <;> simp_all
        rw [this]
      · show w.cur ≠ convert inverse v
        rw [conv, h2]
        cases inverse <;> cases v <;> cases u <;> simp_all
      · show w.cur = .unknown ↔ _
        rw [h2]
        constructor
        · intro h; split at h <;> cases h
        · intro h; exact absurd (h u (by simp)).symm huv

example : ∃ s, readings true 0#8 [true, false] = .ok s ∧ s = BView.bits ⟨.closed, .opened⟩ := ⟨_, rfl, by decide +kernel⟩

end Atl.Props
