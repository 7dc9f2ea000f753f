import Verif.Props.LcdSerial

/- Property theorem C123: the display does not depend on the driver. -/
namespace Atl.Props
open Atl.Lcd Atl.Spec.Lcd Atl.LcdSerial

/-- The calls every driver knows (all but switching the backlight). -/
def commonCalls (ops : List I2C.Op) : List Call :=
  ops.filterMap fun | .call c => some c | .backlight _ => none

/-- The sequence does not begin with a bare nibble. -/
def StartsWithByte (cs : List Call) : Prop := ∀ n, cs.head? ≠ some (.write4 n)

theorem commonCalls_eq (ops : List I2C.Op) : commonCalls ops = I2C.callsOf ops := by
  induction ops with
  | nil => rfl
  | cons op ops ih =>
    cases op with
    | call c => simp only [commonCalls, List.filterMap_cons, I2C.callsOf] at ih ⊢; rw [ih]
    | backlight b => simp only [commonCalls, List.filterMap_cons, I2C.callsOf] at ih ⊢; rw [ih]

theorem nibbles_any_rs (cs : List Call) (h : StartsWithByte cs) (a b : Bool) : nibbles a cs = nibbles b cs := by
  cases cs with
  | nil => rfl
  | cons c cs =>
    cases c with
    | write4 n => exact absurd rfl (h n)
    | command n => rfl
    | data n => rfl

theorem receive_some (low : Nat → Nat) (amb : Nat → Bool) (l : List (Option (Bool × Nat))) (h : none ∉ l) (t : Nat) (d : Device) :
    ∃ d', receiveAll low amb t d l = some d' := by
  induction l generalizing t d with
  | nil => exact ⟨d, rfl⟩
  | cons x l ih =>
    cases x with
    | none => simp at h
    | some x => exact ih (fun hl => h (List.mem_cons_of_mem _ hl)) _ _

theorem nibbles_some (rs : Bool) (cs : List Call) : none ∉ nibbles rs cs := by
  induction cs generalizing rs with
  | nil => simp [nibbles]
  | cons c cs ih => cases c <;> simp [nibbles, ih]

theorem parallel_built (a : Lines) (hw : a.rw = false) (cs : List Call) :
    latches a (Parallel.levels a (Parallel.init ++ Parallel.calls cs)) = nibbles a.rs cs := by
  obtain ⟨h1, h2⟩ := c39_constructor a
  rw [Parallel.levels_append, h1, List.nil_append, Parallel.calls_spec _ h2 (by simpa [Parallel.final, Parallel.init, Parallel.apply] using hw)]
  rfl

/-- What the three drivers do for a sequence of calls, each from its construction: the display gets the same state `d'` over the pins, over the port
    expander and over the shift register (with a base class that shows the register), starting from the state `d` in all cases. -/
def SameDisplay (low : Nat → Nat) (amb : Nat → Bool) (d d' : Device) (ops : List I2C.Op) (a : Lines) : Prop :=
  receiveAll low amb 0 d (latches a (Parallel.levels a (Parallel.init ++ Parallel.calls (commonCalls ops)))) = some d' ∧
  (∃ reg r sent, I2C.init = .ok reg ∧ I2C.run reg ops = .ok (r, sent) ∧
    ∀ b, receiveAll low amb 0 d (latches b (sent.map I2C.lines)) = some d') ∧
  ∀ (W n : Nat) (x : Idx) (reg : BitVec n), n ≤ W → ValidIdx n x →
    ∃ r0 r ws, attach W x reg = .ok (r0, [r0]) ∧ LcdSerial.calls W x r0 (commonCalls ops) = .ok (r, ws) ∧
      ∀ b, receiveAll low amb 0 d (latches b ((r0 :: ws).map (serialLines x))) = some d'

theorem same_display (low : Nat → Nat) (amb : Nat → Bool) (d : Device) (ops : List I2C.Op) (a : Lines) (hw : a.rw = false)
    (h : nibbles a.rs (commonCalls ops) = nibbles false (commonCalls ops)) : ∃ d', SameDisplay low amb d d' ops a := by
  obtain ⟨d', hd⟩ := receive_some low amb _ (nibbles_some false (commonCalls ops)) 0 d
  refine ⟨d', ?_, ?_, ?_⟩
  · rw [parallel_built a hw, h, hd]
  · obtain ⟨r, sent, h1, -, -, h4⟩ := I2C.run_spec (0x0C#8) (by unfold I2C.Rest; decide) ops
    refine ⟨0x0C#8, r, sent, by decide, h1, fun b => ?_⟩
    rw [h4, ← commonCalls_eq]
    exact hd
  · intro W n x reg hW hx
    obtain ⟨r0, h1, h2, h3⟩ := serial_attach W hW x hx reg
    have he : r0.getLsbD x.e = true := congrArg Lines.e h3
    have hrs : r0.getLsbD x.rs = false := congrArg Lines.rs h3
    obtain ⟨r, ws, g1, -, -, g4⟩ := serial_calls W hW x hx r0 he (commonCalls ops)
    refine ⟨r0, r, ws, h1, g1, fun b => ?_⟩
    rw [List.map_cons, latches, g4]
    have : latch b (serialLines x r0) = [] := by rw [h3]; simp [latch]
    rw [this, hrs, List.nil_append, hd]

/-- **C123, partial.** For every sequence of nibbles, commands and data (the initialisation included) with backlight switches in between, and a display in
    any state, in step or not: the display ends in the same state over the three drivers, when the RS pin is low as the parallel driver is constructed
    (the state of a pin after reset) and whatever the other lines were. -/
theorem c123_same_partial (low : Nat → Nat) (amb : Nat → Bool) (d : Device) (ops : List I2C.Op) (a : Lines) (hw : a.rw = false) (hrs : a.rs = false) :
    ∃ d', SameDisplay low amb d d' ops a :=
  same_display low amb d ops a hw (by rw [hrs])

example := c123_same_partial (fun _ => 0) (fun _ => false) powerUp [.backlight false, .call (.command 1), .call (.write4 3), .call (.data 65)]
  ⟨false, false, true, true, false, true, true⟩ rfl rfl

/-- **C123.** Whatever the RS pin was, when the first call is a command or data. -/
theorem c123_byte_first (low : Nat → Nat) (amb : Nat → Bool) (d : Device) (ops : List I2C.Op) (a : Lines) (hw : a.rw = false)
    (hb : StartsWithByte (commonCalls ops)) : ∃ d', SameDisplay low amb d d' ops a :=
  same_display low amb d ops a hw (nibbles_any_rs _ hb _ _)

example := c123_byte_first (fun _ => 0) (fun _ => false) powerUp [.backlight false, .call (.command 1), .call (.write4 3), .call (.data 65)]
  ⟨true, false, true, true, false, true, true⟩ rfl (by intro n h; simp [commonCalls] at h)

theorem data_stays8 (low : Nat) (amb : Bool) (d : Device) (h : d.four = false) (n : Nat) : (receive low amb d true n).four = false := by
  simp only [receive, h, Bool.false_eq_true, if_false, exec, if_true]
  split <;> rfl

/-- `Initialize(true)` sent with RS high to a display with the 8 bit interface leaves half a byte behind. -/
theorem rs_high_half (low : Nat → Nat) (amb : Nat → Bool) (d d' : Device) (h : d.four = false)
    (hr : receiveAll low amb 0 d (nibbles true (Controller.startUp true)) = some d') : d'.half = some (false, 2) := by
  simp only [Controller.startUp, if_true, driverInit, Controller.clearDisplay, Controller.returnHome, List.cons_append, List.nil_append,
    nibbles, Nat.reduceMod, Nat.reduceDiv, receiveAll, Nat.zero_add, Nat.reduceAdd, Option.some.injEq] at hr
  have h4 := data_stays8 (low 3 % 16) (amb 3) _ (data_stays8 (low 2 % 16) (amb 2) _ (data_stays8 (low 1 % 16) (amb 1) _
    (data_stays8 (low 0 % 16) (amb 0) d h 3) 3) 3) 2
  generalize receive (low 3 % 16) (amb 3) (receive (low 2 % 16) (amb 2) (receive (low 1 % 16) (amb 1)
    (receive (low 0 % 16) (amb 0) d true 3) true 3) true 3) true 2 = d4 at hr h4
  have hn : low 4 % 16 < 16 := Nat.mod_lt _ (by omega)
  generalize low 4 % 16 = n at hr hn
  have e : receive n (amb 4) d4 false 2 = { d4 with half := none, four := true, twoLine := bit (16 * 2 + n) 3 } := by
    simp only [receive, h4, exec, Bool.false_eq_true, if_false]
    rw [if_neg (by omega), if_neg (by omega), if_pos (by omega)]
    have : (!bit (16 * 2 + n) 4) = true := by
      simp only [bit, Bool.not_eq_true', decide_eq_false_iff_not]; omega
    rw [this]
  have b : ∀ x : Bool, (if x = true then false else false) = false := by intro x; cases x <;> rfl
  rw [e] at hr
  rw [← hr]
  simp [receive, b, exec, bit]

/-- **C123 fails** when the RS pin was high: the parallel constructor sets Enable only, so `Initialize(true)` begins with nibbles sent as text. Any display
    with the 8 bit interface, as after power up, is then left out of step, while over I2C it is initialised. -/
theorem c123_rs_pin_fails (low : Nat → Nat) (amb : Nat → Bool) (a : Lines) (hw : a.rw = false) (hrs : a.rs = true) (d : Device) (h8 : d.four = false) :
    ¬ ∃ d', SameDisplay low amb d d' ((Controller.startUp true).map I2C.Op.call) a := by
  rintro ⟨d', hp, ⟨reg, r, sent, h1, h2, h3⟩, -⟩
  have hc : commonCalls ((Controller.startUp true).map I2C.Op.call) = Controller.startUp true := by decide
  rw [parallel_built a hw, hc, hrs] at hp
  have := rs_high_half low amb d d' h8 hp
  obtain ⟨r', sent', g1, -, -, g4⟩ := I2C.run_spec (0x0C#8) (by unfold I2C.Rest; decide) ((Controller.startUp true).map I2C.Op.call)
  rw [show I2C.init = .ok (0x0C#8) by decide, Res.ok.injEq] at h1
  rw [← h1, g1] at h2
  simp only [Res.ok.injEq, Prod.mk.injEq] at h2
  have h3 := h3 a
  rw [← h2.2, g4, ← commonCalls_eq, hc] at h3
  obtain ⟨d2, k1, k2⟩ := c41_controller_partial low amb 0 d
  rw [show (0x0C#8).getLsbD 0 = false by decide, k1, Option.some.injEq] at h3
  rw [← h3, k2.1.2] at this
  simp at this

/-- The hypotheses of the theorems hold, e.g., for these. -/
example : StartsWithByte (commonCalls [.backlight false, .call (.command 1), .call (.write4 3), .call (.data 65)]) := by
  intro n h; simp [commonCalls] at h
example : (⟨false, false, false, true, false, true, false⟩ : Lines).rw = false ∧ (⟨true, false, true, false, false, false, false⟩ : Lines).rs = true ∧
    powerUp.four = false := by decide

end Atl.Props
