import Verif.Proof.Lcd

/- Property theorems C39-C44, C63: HD44780 drivers, controller, view, view port and display writer against the display of Spec/Lcd.lean. -/
namespace Atl.Props
open Atl.Lcd Atl.Spec.Lcd

/-! ### C39, C40: delivery -/

/-- The library call that sends a byte with a register select. -/
def toCall (x : Bool × Nat) : Call := if x.1 then .data x.2 else .command x.2

theorem toCall_inj {x y : Bool × Nat} (h : toCall x = toCall y) : x = y := by
  obtain ⟨a, b⟩ := x
  obtain ⟨c, d⟩ := y
  cases a <;> cases c <;> simp_all [toCall]

theorem pairUp_nibbles (rs : Bool) (l : List (Bool × Nat)) (hl : ∀ x ∈ l, x.2 < 256) :
    pairUp (nibbles rs (l.map toCall)) = some l := by
  induction l generalizing rs with
  | nil => rfl
  | cons x l ih =>
    obtain ⟨r, b⟩ := x
    have hb : b < 256 := hl (r, b) (by simp)
    have e : 16 * (b / 16 % 16) + b % 16 = b := by omega
    have := fun rs => ih rs (fun x hx => hl x (by simp [hx]))
    cases r <;> simp [toCall, nibbles, pairUp, this, e]

theorem exec_half (d : Device) (rs : Bool) (b : Nat) : (exec d rs b).half = d.half := by
  simp only [exec]; split_ifs <;> rfl

theorem exec_four (d : Device) (rs : Bool) (b : Nat) (h : d.four = true) (hb : ¬ selects8 (rs, b)) : (exec d rs b).four = true := by
  simp only [selects8, not_and, not_lt] at hb
  cases rs with
  | true => simp only [exec, if_true]; split_ifs <;> exact h
  | false =>
    simp only [exec, Bool.false_eq_true, if_false]
    split_ifs with h1 h2 h3
    all_goals try exact h
    have : b < 48 := by
      rcases Nat.lt_or_ge b 48 with h5 | h5
      · exact h5
      · have := hb rfl h5; omega
    simp only [bit, Bool.not_eq_true', decide_eq_false_iff_not]
    omega

theorem receive_nibbles (low : Nat → Nat) (amb : Nat → Bool) (t : Nat) (d : Device) (h : Aligned d) (rs : Bool)
    (l : List (Bool × Nat)) (hl : ∀ x ∈ l, x.2 < 256 ∧ ¬ selects8 x) :
    receiveAll low amb t d (nibbles rs (l.map toCall)) = some (execAll d l) := by
  induction l generalizing rs d t with
  | nil => rfl
  | cons x l ih =>
    obtain ⟨r, b⟩ := x
    obtain ⟨hb, hs⟩ := hl (r, b) (by simp)
    have e : 16 * (b / 16 % 16) + b % 16 = b := by omega
    have ha : Aligned (exec d r b) := ⟨exec_four d r b h.1 hs, by rw [exec_half, h.2]⟩
    have hd : ({ d with half := none } : Device) = d := by
      obtain ⟨h1, h2⟩ := h
      cases d; simp_all
    have key := fun rs t => ih t (exec d r b) ha rs (fun x hx => hl x (by simp [hx]))
    have step : ∀ t r', receiveAll low amb t d (some (r', b / 16 % 16) :: some (r', b % 16) :: nibbles r (l.map toCall)) =
        receiveAll low amb (t + 2) (exec d r' b) (nibbles r (l.map toCall)) := by
      intro t r'
      simp only [receiveAll, receive, h.1, h.2, if_true]
      rw [show (if amb (t + 1) = true then r' else r') = r' by split_ifs <;> rfl, e]
      congr 2
      rw [h.1] at hd
      exact hd
    cases r
    · simp only [List.map_cons, toCall, Bool.false_eq_true, if_false, nibbles]
      rw [step, key]; rfl
    · simp only [List.map_cons, toCall, if_true, nibbles]
      rw [step, key]; rfl

/-- **C39.** Whatever the levels before (Enable high, as the constructor and every call leave it), the lines driven for any sequence
    of commands and data make the display latch exactly the nibbles of those bytes, undisturbed, in order: the 4 bit interface
    receives exactly that sequence. -/
theorem c39_delivery (a : Lines) (he : a.e = true) (hw : a.rw = false) (l : List (Bool × Nat)) (hl : ∀ x ∈ l, x.2 < 256) :
    pairUp (latches a (Parallel.levels a (Parallel.calls (l.map toCall)))) = some l := by
  rw [Parallel.calls_spec a he hw, pairUp_nibbles _ _ hl]

example := c39_delivery ⟨true, false, true, true, false, true, true⟩ rfl rfl [(false, 0x28), (true, 0x41)] (by decide)

/-- **C39.** And a display in 4 bit mode executes exactly them. -/
theorem c39_device (a : Lines) (he : a.e = true) (hw : a.rw = false) (l : List (Bool × Nat))
    (hl : ∀ x ∈ l, x.2 < 256 ∧ ¬ selects8 x) (d : Device) (hd : Aligned d) (low : Nat → Nat) (amb : Nat → Bool) :
    receiveAll low amb 0 d (latches a (Parallel.levels a (Parallel.calls (l.map toCall)))) = some (execAll d l) := by
  rw [Parallel.calls_spec a he hw, receive_nibbles low amb 0 d hd _ _ hl]

example := fun d hd => c39_device ⟨true, false, true, true, false, true, true⟩ rfl rfl [(false, 0x28), (true, 0x41)] (by unfold selects8; decide)
  { (d : Device) with four := true, half := none } hd (fun _ => 0) (fun _ => false)
example : Aligned ⟨true, none, false, false, false, false, true, false, 0, false, fun _ => 0x20, fun _ => 0, 0⟩ := ⟨rfl, rfl⟩

/-- **C39.** The constructor raises Enable without the display latching anything, from any levels. -/
theorem c39_constructor (a : Lines) : latches a (Parallel.levels a Parallel.init) = [] ∧ (Parallel.final a Parallel.init).e = true := by
  simp [Parallel.init, Parallel.levels, Parallel.apply, Parallel.final, latches, latch]

example : pairUp (latches ⟨true, false, true, true, false, true, true⟩
    (Parallel.levels ⟨true, false, true, true, false, true, true⟩ (Parallel.calls [.command 0x28, .data 0x41]))) =
    some [(false, 0x28), (true, 0x41)] := by decide

/-- The bytes among the operations on the I2C driver. -/
def i2cOp : Sum (Bool × Nat) Bool → I2C.Op
  | .inl x => .call (toCall x)
  | .inr v => .backlight v

def bytesOf : List (Sum (Bool × Nat) Bool) → List (Bool × Nat)
  | [] => []
  | .inl x :: l => x :: bytesOf l
  | .inr _ :: l => bytesOf l

/-- The last value given to the backlight, `v` if none. -/
def lastLight (v : Bool) : List (Sum (Bool × Nat) Bool) → Bool
  | [] => v
  | .inl _ :: l => lastLight v l
  | .inr b :: l => lastLight b l

theorem callsOf_map (l : List (Sum (Bool × Nat) Bool)) : I2C.callsOf (l.map i2cOp) = (bytesOf l).map toCall := by
  induction l with
  | nil => rfl
  | cons x l ih => cases x <;> simp [i2cOp, I2C.callsOf, bytesOf, ih]

theorem light_map (v : Bool) (l : List (Sum (Bool × Nat) Bool)) : (l.map i2cOp).foldl I2C.light v = lastLight v l := by
  induction l generalizing v with
  | nil => rfl
  | cons x l ih => cases x <;> simp [i2cOp, I2C.light, lastLight, ih]

/-- **C40.** From construction, for every sequence of commands, data and backlight switches and any state of the port expander before:
    the driver sends bytes whose lines make the display receive exactly the commands and data, and nothing undetermined (no other line
    moves with a falling Enable). -/
theorem c40_delivery (l : List (Sum (Bool × Nat) Bool)) (hl : ∀ x ∈ bytesOf l, x.2 < 256) :
    ∃ reg r sent, I2C.init = .ok reg ∧ I2C.run reg (l.map i2cOp) = .ok (r, sent) ∧
      (∀ a, pairUp (latches a (sent.map I2C.lines)) = some (bytesOf l)) ∧ I2C.getBacklight r = .ok (lastLight true l) := by
  obtain ⟨r, sent, h1, h2, h3, h4⟩ := I2C.run_spec (0x0C#8) (by unfold I2C.Rest; decide) (l.map i2cOp)
  refine ⟨0x0C#8, r, sent, by decide, h1, fun a => ?_, ?_⟩
  · rw [h4, callsOf_map, pairUp_nibbles _ _ hl]
  · rw [I2C.getBacklight, (c06_single_bit_partial 16 r 3 (by omega) (by omega)).2.2.2.1, h3, light_map]
    rfl

/-- **C40.** Every byte sent by any operation of a history carries the backlight as last switched. -/
theorem c40_backlight (l : List (Sum (Bool × Nat) Bool)) (x : Sum (Bool × Nat) Bool) :
    ∃ reg r sent r' sent', I2C.init = .ok reg ∧ I2C.run reg (l.map i2cOp) = .ok (r, sent) ∧
      I2C.step r (i2cOp x) = .ok (r', sent') ∧ sent' ≠ [] ∧ ∀ b ∈ sent', b.getLsbD 3 = lastLight true (l ++ [x]) := by
  obtain ⟨r, sent, h1, h2, h3, -⟩ := I2C.run_spec (0x0C#8) (by unfold I2C.Rest; decide) (l.map i2cOp)
  obtain ⟨r', sent', g1, g2, g3, g4, g5⟩ := I2C.step_spec r h2 (i2cOp x)
  refine ⟨0x0C#8, r, sent, r', sent', by decide, h1, g1, ?_, fun b hb => ?_⟩
  · rintro rfl
    cases x with
    | inl x =>
      have := g5 ⟨false, false, false, false, false, false, false⟩ []
      obtain ⟨rs, b⟩ := x
      cases rs <;> simp [latches, i2cOp, toCall, I2C.callsOf, nibbles] at this
    | inr v =>
      simp only [i2cOp, I2C.step, I2C.setBacklight] at g1
      obtain ⟨y, hy, -⟩ := (c06_single_bit_partial 16 r 3 (by omega) (by omega)).2.2.1 v
      obtain ⟨z, hz, -⟩ := I2C.clear_spec y
      simp [hy, I2C.drop1_ok, hz] at g1
  · rw [g4 b hb, h3, light_map, ← light_map, ← light_map true (l ++ [x]), List.map_append, List.foldl_append]
    rfl

/-- **C40.** The display behind the expander executes exactly the commands and data. -/
theorem c40_device (l : List (Sum (Bool × Nat) Bool)) (hl : ∀ x ∈ bytesOf l, x.2 < 256 ∧ ¬ selects8 x)
    (d : Device) (hd : Aligned d) (low : Nat → Nat) (amb : Nat → Bool) :
    ∃ reg r sent, I2C.init = .ok reg ∧ I2C.run reg (l.map i2cOp) = .ok (r, sent) ∧
      ∀ a, receiveAll low amb 0 d (latches a (sent.map I2C.lines)) = some (execAll d (bytesOf l)) := by
  obtain ⟨r, sent, h1, h2, h3, h4⟩ := I2C.run_spec (0x0C#8) (by unfold I2C.Rest; decide) (l.map i2cOp)
  refine ⟨0x0C#8, r, sent, by decide, h1, fun a => ?_⟩
  rw [h4, callsOf_map, receive_nibbles low amb 0 d hd _ _ hl]

example : I2C.run (0x0C#8) [.backlight false, .call (.data 0x41)] =
    .ok (0x15#8, [0x04#8, 0x05#8, 0x45#8, 0x41#8, 0x45#8, 0x15#8, 0x11#8, 0x15#8]) := by decide

/-! ### C41: initialisation -/

/-- Whatever state the interface is in, after three times 3 with RS low it is the 8 bit interface. -/
theorem three_pulses (low : Nat → Nat) (amb : Nat → Bool) (t : Nat) (d : Device) (l : List (Option (Bool × Nat))) :
    ∃ d', receiveAll low amb t d (some (false, 3) :: some (false, 3) :: some (false, 3) :: l) = receiveAll low amb (t + 3) d' l ∧
      d'.four = false := by
  have h8 : ∀ (d : Device) (n : Nat), n < 16 → (exec d false (16 * 3 + n)).four = false := by
    intro d n hn
    simp only [exec, Bool.false_eq_true, if_false]
    rw [if_neg (by omega), if_neg (by omega), if_pos (by omega)]
    simp only [bit, Bool.not_eq_false', decide_eq_true_eq]
    omega
  have two : ∀ (t : Nat) (d : Device), d.half = none →
      (receive (low (t + 1) % 16) (amb (t + 1)) (receive (low t % 16) (amb t) d false 3) false 3).four = false := by
    intro t d hd
    cases hf : d.four with
    | true =>
      simp only [receive, hf, hd, if_true]
      rw [show (if amb (t + 1) = true then false else false) = false by split_ifs <;> rfl]
      exact h8 _ 3 (by omega)
    | false =>
      simp only [receive, hf, Bool.false_eq_true, if_false]
      rw [h8 _ _ (Nat.mod_lt _ (by omega))]
      simp only [Bool.false_eq_true, if_false]
      exact h8 _ _ (Nat.mod_lt _ (by omega))
  have one : ∀ (t : Nat) (d : Device), d.four = false → (receive (low t % 16) (amb t) d false 3).four = false := by
    intro t d hd
    simp only [receive, hd, Bool.false_eq_true, if_false]
    exact h8 _ _ (Nat.mod_lt _ (by omega))
  refine ⟨_, rfl, ?_⟩
  cases hh : d.half with
  | none => exact one _ _ (two t d hh)
  | some x =>
    obtain ⟨rs, h⟩ := x
    apply two (t + 1)
    cases hf : d.four <;> simp only [receive, hf, hh, Bool.false_eq_true, if_false, if_true, exec_half]

/-- A state the display is left in by an initialisation: 4 bit interface at a byte boundary, two lines, cleared, at home. -/
def Initialised (d : Device) : Prop :=
  Aligned d ∧ d.twoLine = true ∧ d.ac = 0 ∧ d.cg = false ∧ d.ddram = (fun _ => 0x20) ∧ d.window = 0 ∧ d.increment = true

/-- **C41, partial.** `HD44780_Controller::Initialize(true)` with RS low brings the display from every state of its interface (8 bit, 4 bit,
    4 bit with half a byte received, whatever the unconnected lines read) into the initialised state. Missing from the full claim:
    the display is not switched off, the entry mode is left to the view, and RS must be low already (see the `_fails` theorems). -/
theorem c41_controller_partial (low : Nat → Nat) (amb : Nat → Bool) (t : Nat) (d : Device) :
    ∃ d', receiveAll low amb t d (nibbles false (Controller.startUp true)) = some d' ∧ Initialised d' := by
  simp only [Controller.startUp, if_true, driverInit, Controller.clearDisplay, Controller.returnHome, List.cons_append, List.nil_append,
    nibbles, Nat.reduceMod, Nat.reduceDiv]
  obtain ⟨d3, h3, h4⟩ := three_pulses low amb t d
    (some (false, 2) :: some (false, 2) :: some (false, 8) :: some (false, 0) :: some (false, 1) :: some (false, 0) :: some (false, 2) :: [])
  rw [h3]
  have hn : low (t + 3) % 16 < 16 := Nat.mod_lt _ (by omega)
  generalize hlow : low (t + 3) % 16 = n at hn
  have e : exec { d3 with half := none } false (16 * 2 + n) = { d3 with half := none, four := true, twoLine := bit (32 + n) 3 } := by
    simp only [exec, Bool.false_eq_true, if_false]
    rw [if_neg (by omega), if_neg (by omega), if_pos (by omega)]
    have : (!bit (16 * 2 + n) 4) = true := by
      simp only [bit, Bool.not_eq_true', decide_eq_false_iff_not]; omega
    rw [this]
  have b : ∀ x : Bool, (if x = true then false else false) = false := by intro x; split_ifs <;> rfl
  refine ⟨{ d3 with half := none, four := true, twoLine := true, ac := 0, cg := false, ddram := fun _ => 0x20, window := 0,
                    increment := true }, ?_, ⟨⟨rfl, rfl⟩, rfl, rfl, rfl, rfl, rfl, rfl⟩⟩
  simp only [receiveAll, hlow]
  rw [show receive n (amb (t + 3)) d3 false 2 = exec { d3 with half := none } false (16 * 2 + n) by simp [receive, h4], e]
  simp [receive, b, exec, bit]

/-! ### C42: settings -/

/-- What the getters of the controller report. -/
def Reads (r : Controller.Regs) (f : Flags) : Prop :=
  Controller.getBlink r = .ok f.blink ∧ Controller.getCursor r = .ok f.cursor ∧ Controller.getDisplay r = .ok f.display ∧
  Controller.getDisplayShift r = .ok f.shift ∧ Controller.getEntryLeft r = .ok f.left

/-- What a setter is to do to the flags. -/
def setFlags (f : Flags) : Controller.Setting → Flags
  | .enableBlink v => { f with blink := v }
  | .enableCursor v => { f with cursor := v }
  | .enableDisplay v => { f with display := v }
  | .displayControl d c b => { f with display := d, cursor := c, blink := b }
  | .entryDirection l => { f with left := l }
  | .displayShift v => { f with shift := v }
  | .entryMode l v => { f with left := l, shift := v }

/-- Setters that concern the entry mode. -/
def isEntry : Controller.Setting → Bool
  | .entryDirection _ => true
  | .displayShift _ => true
  | .entryMode _ _ => true
  | _ => false

/-- What the display is to look like after a setter: only the flags of that group follow. -/
def follows (d : Device) (f : Flags) (entry : Bool) : Device :=
  if entry then { d with increment := f.left, shift := f.shift } else { d with on := f.display, cursor := f.cursor, blink := f.blink }

theorem reads_iff (r : Controller.Regs) (f : Flags) : Reads r f ↔
    r.getLsbD 0 = f.blink ∧ r.getLsbD 1 = f.cursor ∧ r.getLsbD 2 = f.display ∧ r.getLsbD 3 = f.shift ∧ r.getLsbD 4 = f.left := by
  have h (i : Nat) (hi : i < 8) := (c06_single_bit_partial 16 r i hi (by omega)).2.2.2
  simp only [Reads, Controller.getBlink, Controller.getCursor, Controller.getDisplay, Controller.getDisplayShift, Controller.getEntryLeft,
    Controller.blink, Controller.cursor, Controller.display, Controller.entryDisplayShift, Controller.entryCursorDirection,
    (h 0 (by omega)).1, (h 1 (by omega)).1, (h 2 (by omega)).1, (h 3 (by omega)).1, (h 4 (by omega)).2, Res.bind_ok, Res.ok.injEq,
    Bool.not_not]

theorem setReg_bits (r : Controller.Regs) (i : Nat) (hi : i < 8) (v : Bool) :
    ∃ r', Controller.setReg r i v = .ok r' ∧ ∀ j, j < 8 → r'.getLsbD j = if j = i then v else r.getLsbD j := by
  obtain ⟨r', h1, h2⟩ := (c06_single_bit_partial 16 r i hi (by omega)).2.2.1 v
  exact ⟨r', by simp only [Controller.setReg, h1, Res.bind_ok], h2⟩

theorem displayControl_exec (r : Controller.Regs) (f : Flags) (h : Reads r f) (d : Device) :
    ∃ b, Controller.displayControl r = .command b ∧ b < 256 ∧ ¬ selects8 (false, b) ∧ exec d false b = follows d f false := by
  have key : ∀ r : BitVec 8, 8 ≤ (r.toNat &&& 7 ||| 8) ∧ (r.toNat &&& 7 ||| 8) < 16 ∧ bit (r.toNat &&& 7 ||| 8) 0 = r.getLsbD 0 ∧
      bit (r.toNat &&& 7 ||| 8) 1 = r.getLsbD 1 ∧ bit (r.toNat &&& 7 ||| 8) 2 = r.getLsbD 2 := by decide +kernel
  obtain ⟨k1, k2, k3, k4, k5⟩ := key r
  obtain ⟨h1, h2, h3, h4, h5⟩ := (reads_iff r f).1 h
  refine ⟨_, rfl, by omega, by simp only [selects8]; omega, ?_⟩
  simp only [exec, Bool.false_eq_true, if_false]
  rw [if_neg (by omega), if_neg (by omega), if_neg (by omega), if_neg (by omega), if_pos k1, k3, k4, k5, h1, h2, h3]
  rfl

theorem entryMode_exec (r : Controller.Regs) (f : Flags) (h : Reads r f) (d : Device) :
    ∃ b, Controller.entryMode r = .command b ∧ b < 256 ∧ ¬ selects8 (false, b) ∧ exec d false b = follows d f true := by
  have key : ∀ r : BitVec 8, 4 ≤ ((r.toNat &&& 0x18) >>> 3 ||| 4) ∧ ((r.toNat &&& 0x18) >>> 3 ||| 4) < 8 ∧
      bit ((r.toNat &&& 0x18) >>> 3 ||| 4) 0 = r.getLsbD 3 ∧
      bit ((r.toNat &&& 0x18) >>> 3 ||| 4) 1 = r.getLsbD 4 := by decide +kernel
  obtain ⟨k1, k2, k3, k4⟩ := key r
  obtain ⟨h1, h2, h3, h4, h5⟩ := (reads_iff r f).1 h
  refine ⟨_, rfl, by omega, by simp only [selects8]; omega, ?_⟩
  simp only [exec, Bool.false_eq_true, if_false]
  rw [if_neg (by omega), if_neg (by omega), if_neg (by omega), if_neg (by omega), if_neg (by omega), if_pos k1, k3, k4, h4, h5]
  rfl

/-- **C42.** Every setter, in every state: the getters then report the flag(s) as set and every other flag as before, and exactly one
    command is sent, whose effect on any display is that the flags of its group (display control or entry mode) become the current
    ones; nothing else of the display changes. -/
theorem c42_setter (r : Controller.Regs) (f : Flags) (h : Reads r f) (x : Controller.Setting) :
    ∃ r' b, Controller.set r x = .ok (r', [.command b]) ∧ Reads r' (setFlags f x) ∧ b < 256 ∧ ¬ selects8 (false, b) ∧
      ∀ d, exec d false b = follows d (setFlags f x) (isEntry x) := by
  have hr := (reads_iff r f).1 h
  obtain ⟨h1, h2, h3, h4, h5⟩ := hr
  have fin1 : ∀ (r' : Controller.Regs), Reads r' (setFlags f x) → isEntry x = false → Controller.set r x = .ok (r', [Controller.displayControl r']) →
      ∃ r' b, Controller.set r x = .ok (r', [.command b]) ∧ Reads r' (setFlags f x) ∧ b < 256 ∧ ¬ selects8 (false, b) ∧
      ∀ d, exec d false b = follows d (setFlags f x) (isEntry x) := by
    intro r' hr' hx hs
    obtain ⟨b, b1, b2, b3, -⟩ := displayControl_exec r' _ hr' ⟨true, none, true, true, true, true, true, true, 0, true, id, id, 0⟩
    refine ⟨r', b, by rw [hs, b1], hr', b2, b3, fun d => ?_⟩
    obtain ⟨b', c1, -, -, c4⟩ := displayControl_exec r' _ hr' d
    rw [b1] at c1
    cases c1
    rw [c4, hx]
  have fin2 : ∀ (r' : Controller.Regs), Reads r' (setFlags f x) → isEntry x = true → Controller.set r x = .ok (r', [Controller.entryMode r']) →
      ∃ r' b, Controller.set r x = .ok (r', [.command b]) ∧ Reads r' (setFlags f x) ∧ b < 256 ∧ ¬ selects8 (false, b) ∧
      ∀ d, exec d false b = follows d (setFlags f x) (isEntry x) := by
    intro r' hr' hx hs
    obtain ⟨b, b1, b2, b3, -⟩ := entryMode_exec r' _ hr' ⟨true, none, true, true, true, true, true, true, 0, true, id, id, 0⟩
    refine ⟨r', b, by rw [hs, b1], hr', b2, b3, fun d => ?_⟩
    obtain ⟨b', c1, -, -, c4⟩ := entryMode_exec r' _ hr' d
    rw [b1] at c1
    cases c1
    rw [c4, hx]
  cases x with
  | enableBlink v =>
    obtain ⟨r', e, hb⟩ := setReg_bits r 0 (by omega) v
    refine fin1 r' ((reads_iff _ _).2 ?_) rfl (by simp only [Controller.set, Controller.blink, e, Res.bind_ok])
    simp only [hb _ (show 0 < 8 by omega), hb _ (show 1 < 8 by omega), hb _ (show 2 < 8 by omega), hb _ (show 3 < 8 by omega),
      hb _ (show 4 < 8 by omega), setFlags]
    exact ⟨rfl, h2, h3, h4, h5⟩
  | enableCursor v =>
    obtain ⟨r', e, hb⟩ := setReg_bits r 1 (by omega) v
    refine fin1 r' ((reads_iff _ _).2 ?_) rfl (by simp only [Controller.set, Controller.cursor, e, Res.bind_ok])
    simp only [hb _ (show 0 < 8 by omega), hb _ (show 1 < 8 by omega), hb _ (show 2 < 8 by omega), hb _ (show 3 < 8 by omega),
      hb _ (show 4 < 8 by omega), setFlags]
    exact ⟨h1, rfl, h3, h4, h5⟩
  | enableDisplay v =>
    obtain ⟨r', e, hb⟩ := setReg_bits r 2 (by omega) v
    refine fin1 r' ((reads_iff _ _).2 ?_) rfl (by simp only [Controller.set, Controller.display, e, Res.bind_ok])
    simp only [hb _ (show 0 < 8 by omega), hb _ (show 1 < 8 by omega), hb _ (show 2 < 8 by omega), hb _ (show 3 < 8 by omega),
      hb _ (show 4 < 8 by omega), setFlags]
    exact ⟨h1, h2, rfl, h4, h5⟩
  | displayControl d c b =>
    obtain ⟨r1, e1, g1⟩ := setReg_bits r 0 (by omega) b
    obtain ⟨r2, e2, g2⟩ := setReg_bits r1 1 (by omega) c
    obtain ⟨r', e, hb⟩ := setReg_bits r2 2 (by omega) d
    refine fin1 r' ((reads_iff _ _).2 ?_) rfl
      (by simp only [Controller.set, Controller.blink, Controller.cursor, Controller.display, e1, e2, e, Res.bind_ok])
    simp only [hb _ (show 0 < 8 by omega), hb _ (show 1 < 8 by omega), hb _ (show 2 < 8 by omega), hb _ (show 3 < 8 by omega),
      hb _ (show 4 < 8 by omega), g2 _ (show 0 < 8 by omega), g2 _ (show 1 < 8 by omega), g2 _ (show 3 < 8 by omega),
      g2 _ (show 4 < 8 by omega), g1 _ (show 0 < 8 by omega), g1 _ (show 3 < 8 by omega), g1 _ (show 4 < 8 by omega), setFlags]
    exact ⟨rfl, rfl, rfl, h4, h5⟩
  | entryDirection v =>
    obtain ⟨r', e, hb⟩ := setReg_bits r 4 (by omega) v
    refine fin2 r' ((reads_iff _ _).2 ?_) rfl (by simp only [Controller.set, Controller.entryCursorDirection, e, Res.bind_ok])
    simp only [hb _ (show 0 < 8 by omega), hb _ (show 1 < 8 by omega), hb _ (show 2 < 8 by omega), hb _ (show 3 < 8 by omega),
      hb _ (show 4 < 8 by omega), setFlags]
    exact ⟨h1, h2, h3, h4, rfl⟩
  | displayShift v =>
    obtain ⟨r', e, hb⟩ := setReg_bits r 3 (by omega) v
    refine fin2 r' ((reads_iff _ _).2 ?_) rfl (by simp only [Controller.set, Controller.entryDisplayShift, e, Res.bind_ok])
    simp only [hb _ (show 0 < 8 by omega), hb _ (show 1 < 8 by omega), hb _ (show 2 < 8 by omega), hb _ (show 3 < 8 by omega),
      hb _ (show 4 < 8 by omega), setFlags]
    exact ⟨h1, h2, h3, rfl, h5⟩
  | entryMode l v =>
    obtain ⟨r1, e1, g1⟩ := setReg_bits r 4 (by omega) l
    obtain ⟨r', e, hb⟩ := setReg_bits r1 3 (by omega) v
    refine fin2 r' ((reads_iff _ _).2 ?_) rfl
      (by simp only [Controller.set, Controller.entryCursorDirection, Controller.entryDisplayShift, e1, e, Res.bind_ok])
    simp only [hb _ (show 0 < 8 by omega), hb _ (show 1 < 8 by omega), hb _ (show 2 < 8 by omega), hb _ (show 3 < 8 by omega),
      hb _ (show 4 < 8 by omega), g1 _ (show 0 < 8 by omega), g1 _ (show 1 < 8 by omega), g1 _ (show 2 < 8 by omega),
      g1 _ (show 4 < 8 by omega), setFlags]
    exact ⟨h1, h2, h3, rfl, rfl⟩

example := c42_setter 0 ⟨false, false, false, false, false⟩ (by unfold Reads; decide) (.displayControl true false true)

/-- Every register value reads as some flags. -/
theorem reads_exists (r : Controller.Regs) : ∃ f, Reads r f :=
  ⟨⟨r.getLsbD 0, r.getLsbD 1, r.getLsbD 2, r.getLsbD 3, r.getLsbD 4⟩, (reads_iff _ _).2 ⟨rfl, rfl, rfl, rfl, rfl⟩⟩

/-- **C42.** Any history of setters: each flag reads back as last set, and a display that agreed with the flags still does. -/
theorem c42_history (r : Controller.Regs) (f : Flags) (h : Reads r f) (l : List Controller.Setting) :
    ∃ r', ∃ bs : List Nat, Controller.sets r l = .ok (r', bs.map Call.command) ∧ bs.length = l.length ∧ Reads r' (l.foldl setFlags f) ∧
      ∀ d : Device, d.showsDisplay f → d.showsEntry f →
        (execAll d (bs.map (false, ·))).showsDisplay (l.foldl setFlags f) ∧ (execAll d (bs.map (false, ·))).showsEntry (l.foldl setFlags f) := by
  induction l generalizing r f with
  | nil => exact ⟨r, [], rfl, rfl, h, fun d h1 h2 => ⟨h1, h2⟩⟩
  | cons x l ih =>
    obtain ⟨r1, b, e1, h1, -, -, k⟩ := c42_setter r f h x
    obtain ⟨r', bs, e2, e3, h2, k2⟩ := ih r1 _ h1
    refine ⟨r', b :: bs, ?_, by simp [e3], h2, fun d g1 g2 => ?_⟩
    · simp only [Controller.sets, e1, e2, Res.bind_ok]; rfl
    · simp only [List.map_cons, execAll, List.foldl_cons]
      rw [k d]
      refine k2 _ ?_ ?_
      · simp only [follows, Device.showsDisplay] at *
        cases x <;> simp_all [isEntry, setFlags]
      · simp only [follows, Device.showsEntry] at *
        cases x <;> simp_all [isEntry, setFlags]

/-- Initially (`_registers` zero) everything reads false; in particular the entry direction reads `Right`. -/
example : Reads 0 ⟨false, false, false, false, false⟩ := by unfold Reads; decide
example : Controller.sets 0 [.enableDisplay true, .entryMode true false, .enableBlink true] =
    .ok (0x15#8, [.command 0x0C, .command 0x06, .command 0x0D]) := by decide

/-! ### C41 continued -/

theorem receiveAll_append (low : Nat → Nat) (amb : Nat → Bool) (t : Nat) (d : Device) (l m : List (Option (Bool × Nat))) (d' : Device)
    (h : receiveAll low amb t d l = some d') : receiveAll low amb t d (l ++ m) = receiveAll low amb (t + l.length) d' m := by
  induction l generalizing t d with
  | nil => cases h; rfl
  | cons x l ih =>
    cases x with
    | none => cases h
    | some x =>
      simp only [List.cons_append, receiveAll, List.length_cons] at *
      rw [ih _ _ h, Nat.add_assoc, Nat.add_comm 1]

/-- **C41, partial.** `HD44780_View::Initialize(true)` also selects entry from the left without display shift. -/
theorem c41_view_partial (low : Nat → Nat) (amb : Nat → Bool) (t : Nat) (d : Device) (s : View.State) :
    ∃ s' cs d', View.startUp s true = .ok (s', cs) ∧ receiveAll low amb t d (nibbles false cs) = some d' ∧ Initialised d' ∧
      d'.shift = false := by
  obtain ⟨d1, h1, hi⟩ := c41_controller_partial low amb t d
  obtain ⟨f, hf⟩ := reads_exists s.regs
  obtain ⟨r', b, e, -, hb, hs, k⟩ := c42_setter s.regs f hf (.entryMode true false)
  have hk := k d1
  refine ⟨{ s with regs := r' }, Controller.startUp true ++ [.command b], exec d1 false b, ?_, ?_, ?_, ?_⟩
  · simp only [View.startUp, if_true, e, Res.bind_ok]
  · rw [show nibbles false (Controller.startUp true ++ [.command b]) =
      nibbles false (Controller.startUp true) ++ nibbles false ([(false, b)].map toCall) from rfl, receiveAll_append _ _ _ _ _ _ _ h1,
      receive_nibbles _ _ _ _ hi.1 _ _ (by simp [hb, hs])]
    rfl
  · rw [hk]
    exact ⟨hi.1, hi.2.1, hi.2.2.1, hi.2.2.2.1, hi.2.2.2.2.1, hi.2.2.2.2.2.1, rfl⟩
  · rw [hk]; rfl

/-- **C41.** End to end over the parallel driver: with Enable high and RS low on the lines. -/
theorem c41_lines_partial (low : Nat → Nat) (amb : Nat → Bool) (d : Device) (s : View.State) (a : Lines) (he : a.e = true)
    (hw : a.rw = false) (hrs : a.rs = false) :
    ∃ s' cs d', View.startUp s true = .ok (s', cs) ∧
      receiveAll low amb 0 d (latches a (Parallel.levels a (Parallel.calls cs))) = some d' ∧ Initialised d' ∧ d'.shift = false := by
  obtain ⟨s', cs, d', h1, h2, h3, h4⟩ := c41_view_partial low amb 0 d s
  exact ⟨s', cs, d', h1, by rw [Parallel.calls_spec a he hw, hrs, h2], h3, h4⟩

example := fun d => c41_lines_partial (fun _ => 0) (fun _ => false) d ⟨1, 3, 0x14#8⟩ ⟨false, false, true, true, false, true, true⟩ rfl rfl rfl

/-- **C41 fails**: the display is not switched off: one that was on (and in step) is still on. -/
theorem c41_display_off_fails (amb : Nat → Bool) (d : Device) (hd : Aligned d) (hon : d.on = true) :
    ∃ d', receiveAll (fun _ => 0) amb 0 d (nibbles false (Controller.startUp true)) = some d' ∧ d'.on = true := by
  have b : ∀ x : Bool, (if x = true then false else false) = false := by intro x; split_ifs <;> rfl
  refine ⟨_, rfl, ?_⟩
  simp [Controller.startUp, driverInit, Controller.clearDisplay, Controller.returnHome, nibbles, receiveAll, receive, hd.1, hd.2, b, exec, bit, hon]

/-- A display after power up. -/
def powerUp : Device := ⟨false, none, false, false, false, false, true, false, 0, false, fun _ => 0x20, fun _ => 0, 0⟩

/-- **C41 fails** when RS is high: a display after power up (8 bit interface) takes the sequence for text and ends up out of step, with half a
    byte received. -/
theorem c41_rs_high_fails :
    (receiveAll (fun _ => 0) (fun _ => false) 0 powerUp (nibbles true (Controller.startUp true))).map (·.half) = some (some (false, 2)) := by
  decide

/-- **C41.** With RS high (text was written before) a second initialisation still works if the display is in step. -/
theorem c41_again (low : Nat → Nat) (amb : Nat → Bool) (rs : Bool) (d : Device) (h : Aligned d) :
    ∃ d', receiveAll low amb 0 d (nibbles rs (Controller.startUp true)) = some d' ∧ Initialised d' := by
  cases rs with
  | false => exact c41_controller_partial low amb 0 d
  | true =>
    rw [show nibbles true (Controller.startUp true) =
      nibbles true ([(true, 0x33), (true, 0x32), (false, 0x28), (false, 1), (false, 2)].map toCall) by decide,
      receive_nibbles low amb 0 d h true _ (by simp [selects8])]
    refine ⟨_, rfl, ⟨⟨?_, ?_⟩, ?_, ?_, ?_, ?_, ?_, ?_⟩⟩
    · simp [execAll, exec, bit]
    · simp only [execAll, List.foldl_cons, List.foldl_nil, exec_half]; exact h.2
    all_goals simp [execAll, exec, bit]

example := c41_again (fun _ => 0) (fun _ => false) true { powerUp with four := true } ⟨rfl, rfl⟩

/-! ### C43: the view's cursor -/

/-- The library operation for a text operation. -/
def viewOp : TextOp → View.Op
  | .char c => .put c
  | .lineFeed => .put 10
  | .carriageReturn => .put 13
  | .moveTo r c => .setCursor r c
  | .home => .home

/-- A character that is not a control character of the view. -/
def Plain : TextOp → Prop
  | .char c => c < 256 ∧ c ≠ 10 ∧ c ≠ 13
  | _ => True

/-- The view and the display agree with the screen. -/
structure Tracks (rows : Nat) (s : View.State) (d : Device) (z : Screen) : Prop where
  row : s.row = z.row
  col : s.col = z.col
  rowLt : z.row < rows
  colLe : z.col ≤ columns rows
  ac : z.col < columns rows → d.ac = cell z.row z.col
  cg : d.cg = false
  inc : d.increment = true
  two : d.twoLine = true
  text : ∀ r c, r < rows → c < columns rows → d.ddram (cell r c) = z.text r c

theorem cell_lt (rows : Nat) (h4 : rows ≤ 4) (r c : Nat) (hr : r < rows) (hc : c < columns rows) : cell r c < 0x68 := by
  simp only [cell, columns] at *
  split_ifs at * <;> omega

theorem cell_inj (rows : Nat) (h4 : rows ≤ 4) (r c r' c' : Nat) (hr : r < rows) (hc : c < columns rows) (hr' : r' < rows)
    (hc' : c' < columns rows) (h : cell r c = cell r' c') : r = r' ∧ c = c' := by
  simp only [cell, columns] at *
  split_ifs at * <;> omega

theorem columns_le (rows : Nat) (h1 : 1 ≤ rows) (h4 : rows ≤ 4) : columns rows ≤ View.totalColumns rows ∧ columns rows ≤ 40 := by
  have : rows = 1 ∨ rows = 2 ∨ rows = 3 ∨ rows = 4 := by omega
  rcases this with rfl | rfl | rfl | rfl <;> decide

theorem calcAddress_cell (rows : Nat) (h4 : rows ≤ 4) (r c : Nat) (hr : r < rows) (hc : c < columns rows) :
    View.calcAddress rows r c = .ok (cell r c) := by
  have hlt := cell_lt rows h4 r c hr hc
  have : r = 0 ∨ r = 1 ∨ r = 2 ∨ r = 3 := by omega
  simp only [View.calcAddress, if_neg (show ¬ r ≥ rows by omega)]
  rcases this with rfl | rfl | rfl | rfl <;>
  · simp only [cGet, View.rowOffsets, List.length_cons, List.length_nil]
    simp [cell] at *
    unfold toU
    omega

theorem or128 (a : Nat) (h : a < 128) : a ||| 0x80 = a + 128 := by
  have : ∀ a : Fin 128, a.val ||| 0x80 = a.val + 128 := by decide +kernel
  exact this ⟨a, h⟩

theorem u8_succ (x : Nat) (h : x + 1 < 256) : toU 8 ((x : Int) + 1) = x + 1 := by unfold toU; omega

/-- Setting the display address of a valid position. -/
theorem address_exec (rows : Nat) (h4 : rows ≤ 4) (s : View.State) (hr : s.row < rows) (hc : s.col < columns rows) :
    View.writeAddress rows s = .ok [toCall (false, cell s.row s.col + 128)] ∧ cell s.row s.col + 128 < 256 ∧
    ¬ selects8 (false, cell s.row s.col + 128) ∧ ∀ d, exec d false (cell s.row s.col + 128) = { d with ac := cell s.row s.col, cg := false } := by
  have hlt := cell_lt rows h4 s.row s.col hr hc
  refine ⟨?_, by omega, by simp only [selects8]; omega, fun d => ?_⟩
  · simp only [View.writeAddress, calcAddress_cell rows h4 s.row s.col hr hc, Res.bind_ok, Controller.writeDisplayAddress,
      or128 _ (show cell s.row s.col < 128 by omega)]
    rfl
  · simp only [exec, Bool.false_eq_true, if_false]
    rw [if_pos (by omega), show (cell s.row s.col + 128) % 128 = cell s.row s.col by omega]

/-- One text operation that fits. -/
theorem c43_step (rows : Nat) (h1 : 1 ≤ rows) (h4 : rows ≤ 4) (s : View.State) (d : Device) (z : Screen) (x : TextOp)
    (h : Tracks rows s d z) (hx : Plain x) (hf : z.fits rows x) :
    ∃ s' b, View.step rows s (viewOp x) = .ok (s', [toCall b]) ∧ b.2 < 256 ∧ ¬ selects8 b ∧ Tracks rows s' (exec d b.1 b.2) (z.step x) := by
  obtain ⟨hc, hc40⟩ := columns_le rows h1 h4
  have hpos : 0 < columns rows := by simp only [columns]; split_ifs <;> omega
  have move : ∀ s1 : View.State, ∀ z1 : Screen, s1.row = z1.row → s1.col = z1.col → z1.row < rows → z1.col < columns rows → z1.text = z.text →
      ∃ b, View.writeAddress rows s1 = .ok [toCall b] ∧ b.2 < 256 ∧ ¬ selects8 b ∧ Tracks rows s1 (exec d b.1 b.2) z1 := by
    intro s1 z1 e1 e2 e3 e4 e5
    obtain ⟨a1, a2, a3, a4⟩ := address_exec rows h4 s1 (e1 ▸ e3) (e2 ▸ e4)
    refine ⟨_, a1, a2, a3, ?_⟩
    rw [a4]
    exact ⟨e1, e2, e3, by omega, fun _ => by rw [← e1, ← e2], rfl, h.inc, h.two, fun r c hr hcc => by rw [e5]; exact h.text r c hr hcc⟩
  cases x with
  | char c =>
    obtain ⟨c1, c2, c3⟩ := hx
    simp only [Screen.fits] at hf
    have hac := h.ac hf
    refine ⟨View.incCol rows s, (true, c), ?_, c1, by simp [selects8], ?_⟩
    · simp only [viewOp, View.step, View.write, if_neg c2, if_neg c3]; rfl
    · have e : View.incCol rows s = { s with col := s.col + 1 } := by
        have hcol := h.col
        simp only [View.incCol]
        rw [if_neg (by omega), u8_succ _ (by omega)]
      rw [e]
      have ex : exec d true c = { d with
          ddram := setAt d.ddram d.ac c
          ac := nextAddress true false d.ac
          window := if d.shift && true then moveWindow d false else d.window } := by
        simp only [exec, if_true, h.inc, h.two, h.cg, Bool.false_eq_true, if_false, Bool.not_true, Bool.not_false]
      rw [ex]
      refine ⟨h.row, by simp [Screen.step, h.col], h.rowLt, ?_, ?_, h.cg, h.inc, h.two, ?_⟩
      · simp only [Screen.step]; omega
      · intro hlt
        simp only [Screen.step] at hlt ⊢
        have hl := cell_lt rows h4 z.row (z.col + 1) h.rowLt hlt
        have hrow := h.rowLt
        rw [hac]
        simp only [nextAddress, Bool.false_eq_true, if_false, if_true]
        simp only [cell, columns] at *
        split_ifs at * <;> omega
      · intro r cc hr hcc
        simp only [Screen.step, setAt]
        rw [hac]
        by_cases he : r = z.row ∧ cc = z.col
        · rw [if_pos he, he.1, he.2, if_pos rfl]
        · rw [if_neg he, if_neg (fun hce => he (cell_inj rows h4 _ _ _ _ hr hcc h.rowLt hf hce))]
          exact h.text r cc hr hcc
  | lineFeed =>
    obtain ⟨f1, f2⟩ := hf
    have hrow := h.row
    have e : View.incRow rows s = { s with row := s.row + 1 } := by
      simp only [View.incRow]
      rw [if_neg (by omega), u8_succ _ (by omega)]
    obtain ⟨b, b1, b2, b3, b4⟩ := move { s with row := s.row + 1 } (z.step .lineFeed) (by simp [Screen.step, h.row]) h.col f1 f2 rfl
    refine ⟨_, b, ?_, b2, b3, b4⟩
    simp only [viewOp, View.step, View.write, if_true, e, b1, Res.bind_ok]
  | carriageReturn =>
    obtain ⟨b, b1, b2, b3, b4⟩ := move { s with col := 0 } (z.step .carriageReturn) h.row rfl h.rowLt hpos rfl
    refine ⟨_, b, ?_, b2, b3, b4⟩
    simp only [viewOp, View.step, View.write, if_neg (show ¬ (13 : Nat) = 10 by omega), if_true, b1, Res.bind_ok]
  | moveTo r c =>
    obtain ⟨b, b1, b2, b3, b4⟩ := move { s with row := r, col := c } (z.step (.moveTo r c)) rfl rfl hf.1 hf.2 rfl
    refine ⟨_, b, ?_, b2, b3, b4⟩
    simp only [viewOp, View.step, View.setCursor, b1, Res.bind_ok]
  | home =>
    refine ⟨{ s with row := 0, col := 0 }, (false, 2), rfl, by omega, by simp [selects8], ?_⟩
    exact ⟨rfl, rfl, by simp only [Screen.step]; omega, by simp [Screen.step], fun _ => rfl, rfl, h.inc, h.two, h.text⟩

example := c43_step 2 (by decide) (by decide) ⟨1, 3, 0x14#8⟩ ⟨true, none, true, true, false, false, true, false, 0x43, false, fun _ => 0x20, fun _ => 0, 0⟩ ⟨1, 3, fun _ _ => 0x20⟩ (.char 72)
  ⟨rfl, rfl, by decide, by decide, fun _ => rfl, rfl, rfl, rfl, fun _ _ _ _ => rfl⟩ (by simp [Plain]) (by simp [Screen.fits, columns])

/-- Text operations leave the settings alone. -/
theorem step_keeps {rows : Nat} {s s' : View.State} {x : TextOp} {b : Bool × Nat} (h : View.step rows s (viewOp x) = .ok (s', [toCall b])) :
    s'.regs = s.regs ∧ ∀ d f, d.showsDisplay f → (exec d b.1 b.2).showsDisplay f := by
  have key : s'.regs = s.regs ∧ (b.1 = true ∨ (b.1 = false ∧ 128 ≤ b.2) ∨ b = (false, 2)) := by
    have addr : ∀ t : View.State, t.regs = s.regs → ((View.writeAddress rows t).bind fun y => .ok (t, y)) = .ok (s', [toCall b]) →
        s'.regs = s.regs ∧ (b.1 = true ∨ (b.1 = false ∧ 128 ≤ b.2) ∨ b = (false, 2)) := by
      intro t ht e
      unfold View.writeAddress at e
      cases ha : View.calcAddress rows t.row t.col with
      | ub => rw [ha] at e; exact absurd e (by simp [Res.bind_ub, Res.bind])
      | ok a =>
        rw [ha] at e
        simp only [Res.bind_ok, Res.bind, Res.ok.injEq, Prod.mk.injEq, Controller.writeDisplayAddress, List.cons.injEq, and_true] at e
        obtain ⟨e1, e2⟩ := e
        have : b = (false, a ||| 128) := (toCall_inj (x := (false, a ||| 128)) e2).symm
        refine ⟨by rw [← e1, ht], Or.inr (Or.inl ?_)⟩
        rw [this]
        exact ⟨rfl, Nat.right_le_or⟩
    have put : ∀ c, View.write rows s c = .ok (s', [toCall b]) → s'.regs = s.regs ∧ (b.1 = true ∨ (b.1 = false ∧ 128 ≤ b.2) ∨ b = (false, 2)) := by
      intro c e
      unfold View.write at e
      split at e
      · exact addr (View.incRow rows s) (by unfold View.incRow; split <;> rfl) e
      · split at e
        · exact addr { s with col := 0 } rfl e
        · simp only [Res.ok.injEq, Prod.mk.injEq, List.cons.injEq, and_true] at e
          have : b = (true, c) := (toCall_inj (x := (true, c)) e.2).symm
          refine ⟨?_, Or.inl (by rw [this])⟩
          rw [← e.1]
          unfold View.incCol View.incRow
          split
          · split <;> rfl
          · rfl
    cases x with
    | char c => exact put c h
    | lineFeed => exact put 10 h
    | carriageReturn => exact put 13 h
    | moveTo r c => exact addr { s with row := r, col := c } rfl h
    | home =>
      simp only [viewOp, View.step, View.returnHome, Controller.returnHome, Res.ok.injEq, Prod.mk.injEq, List.cons.injEq, and_true] at h
      have : b = (false, 2) := (toCall_inj (x := (false, 2)) h.2).symm
      exact ⟨by rw [← h.1], Or.inr (Or.inr this)⟩
  refine ⟨key.1, fun d f hd => ?_⟩
  obtain ⟨rs, v⟩ := b
  rcases key.2 with h | ⟨h, h'⟩ | h
  · simp only at h
    subst h
    simp only [exec, if_true]
    cases d.cg <;> exact hd
  · simp only at h h'
    subst h
    simp only [exec, Bool.false_eq_true, if_false, if_pos h']
    exact hd
  · simp only [Prod.mk.injEq] at h
    obtain ⟨rfl, rfl⟩ := h
    exact hd

/-- **C43, partial.** On displays of 1-4 rows, from a state where the view and the display agree, any text that fits the screen (text,
    line feeds, carriage returns, cursor moves, home) leaves them in agreement: row and column are the display's address, and every
    character stands in the display memory where the screen has it. Missing from the full claim: text that runs over the end of a line
    or below the last row, and the state just after `Initialize` (see the `_fails` theorems). -/
theorem c43_tracks_partial (rows : Nat) (h1 : 1 ≤ rows) (h4 : rows ≤ 4) (s : View.State) (d : Device) (z : Screen) (l : List TextOp)
    (h : Tracks rows s d z) (hp : ∀ x ∈ l, Plain x) (hf : z.fitsAll rows l) :
    ∃ s' bs, View.run rows s (l.map viewOp) = .ok (s', bs.map toCall) ∧ (∀ b ∈ bs, b.2 < 256 ∧ ¬ selects8 b) ∧
      Tracks rows s' (execAll d bs) (z.run l) := by
  induction l generalizing s d z with
  | nil => exact ⟨s, [], rfl, by simp, h⟩
  | cons x l ih =>
    obtain ⟨s1, b, e1, b1, b2, t1⟩ := c43_step rows h1 h4 s d z x h (hp x (by simp)) hf.1
    obtain ⟨s', bs, e2, k, t2⟩ := ih s1 _ _ t1 (fun y hy => hp y (by simp [hy])) hf.2
    refine ⟨s', b :: bs, ?_, ?_, t2⟩
    · simp only [List.map_cons, View.run, e1, e2, Res.bind_ok]; rfl
    · intro y hy
      rcases List.mem_cons.1 hy with rfl | hy
      · exact ⟨b1, b2⟩
      · exact k y hy

example := c43_tracks_partial 2 (by decide) (by decide) ⟨1, 3, 0x14#8⟩ ⟨true, none, true, true, false, false, true, false, 0x43, false, fun _ => 0x20, fun _ => 0, 0⟩ ⟨1, 3, fun _ _ => 0x20⟩
  [.moveTo 0 0, .char 72, .carriageReturn, .lineFeed, .char 33, .moveTo 0 39, .char 46, .home]
  ⟨rfl, rfl, by decide, by decide, fun _ => rfl, rfl, rfl, rfl, fun _ _ _ _ => rfl⟩ (by simp [Plain]) (by simp [Screen.fitsAll, Screen.fits, Screen.step, columns])

/-- The initialised display agrees with an empty screen once `ReturnHome` or a `SetCursor` gave the view a position. -/
theorem tracks_home (rows : Nat) (h1 : 1 ≤ rows) (s : View.State) (d : Device) (h : Initialised d) :
    Tracks rows { s with row := 0, col := 0 } (execAll d [(false, 2)]) ⟨0, 0, fun _ _ => 0x20⟩ := by
  obtain ⟨_, h2, h3, h4, h5, h6, h7⟩ := h
  exact ⟨rfl, rfl, h1, by simp, fun _ => rfl, rfl, h7, h2, fun r c _ _ => by
    show d.ddram (cell r c) = 0x20
    rw [h5]⟩

/-- **C43, partial, end to end.** Over the parallel driver, from any state of the display (RS low): `Initialize(true)`, `ReturnHome()` and any text
    that fits leave the text in the display where the screen has it, and the view's cursor at the display's address. -/
theorem c43_end_to_end_partial (rows : Nat) (h1 : 1 ≤ rows) (h4 : rows ≤ 4) (s : View.State) (d : Device) (a : Lines) (he : a.e = true)
    (hw : a.rw = false) (hrs : a.rs = false) (low : Nat → Nat) (amb : Nat → Bool) (l : List TextOp) (hp : ∀ x ∈ l, Plain x)
    (hf : Screen.fitsAll rows ⟨0, 0, fun _ _ => 0x20⟩ l) :
    ∃ s' cs d', View.run rows s (.startUp true :: .home :: l.map viewOp) = .ok (s', cs) ∧
      receiveAll low amb 0 d (latches a (Parallel.levels a (Parallel.calls cs))) = some d' ∧
      Tracks rows s' d' (Screen.run ⟨0, 0, fun _ _ => 0x20⟩ l) := by
  obtain ⟨f, hfl⟩ := reads_exists s.regs
  obtain ⟨s1, cs1, d1, e1, r1, i1, -⟩ := c41_view_partial low amb 0 d s
  have hcs : ∃ b, cs1 = Controller.startUp true ++ [.command b] := by
    obtain ⟨r', b, e, -⟩ := c42_setter s.regs f hfl (.entryMode true false)
    simp only [View.startUp, if_true, e, Res.bind_ok, Res.ok.injEq, Prod.mk.injEq] at e1
    exact ⟨b, e1.2.symm⟩
  obtain ⟨b, rfl⟩ := hcs
  obtain ⟨s', bs, e2, k, t⟩ := c43_tracks_partial rows h1 h4 _ _ _ l (tracks_home rows h1 s1 d1 i1) hp hf
  refine ⟨s', Controller.startUp true ++ [.command b] ++ (Controller.returnHome ++ bs.map toCall), execAll d1 ((false, 2) :: bs), ?_, ?_, t⟩
  · simp only [View.run, View.step, e1, View.returnHome, e2, Res.bind_ok]
  · rw [Parallel.calls_spec a he hw, hrs]
    rw [show nibbles false (Controller.startUp true ++ [.command b] ++ (Controller.returnHome ++ bs.map toCall)) =
      nibbles false (Controller.startUp true ++ [.command b]) ++ nibbles false (((false, 2) :: bs).map toCall) from rfl,
      receiveAll_append _ _ _ _ _ _ _ r1, receive_nibbles _ _ _ _ i1.1 _ _ (by
        intro x hx
        rcases List.mem_cons.1 hx with rfl | hx
        · exact ⟨by omega, by simp [selects8]⟩
        · exact k x hx)]

/-- The screen of a 2 row display: "Hi", next line from the left, "!", then the last column of the first row. -/
example : Screen.fitsAll 2 ⟨0, 0, fun _ _ => 0x20⟩
    [.char 72, .char 105, .carriageReturn, .lineFeed, .char 33, .moveTo 0 39, .char 46, .home] := by
  simp [Screen.fitsAll, Screen.fits, Screen.step, columns]

/-- The display executes what the view sends. -/
def viewExec (rows : Nat) (s : View.State) (d : Device) (ops : List View.Op) : Res (Nat × Nat × Nat) := do
  let (s, cs) ← View.run rows s ops
  let d := cs.foldl (fun d c => match c with
    | .command b => exec d false b
    | .data b => exec d true b
    | .write4 _ => d) d
  .ok (s.row, s.col, d.ac)

/-- **C43 fails** after `Initialize`: the view's row and column are what the memory held before (here 3 and 17) while the display is at 0. -/
theorem c43_initialize_fails : viewExec 2 ⟨3, 17, 0⟩ powerUp [.startUp false] = .ok (3, 17, 0) := by decide

/-- **C43 fails** at the end of a line, on every number of rows: after the last character of row 0 the display is at another place than the
    view says (`CalcAddress` of the view's row and column), and stays so for the text that follows. -/
theorem c43_line_end_fails :
    viewExec 2 ⟨0, 0, 0⟩ { powerUp with twoLine := true } [.setCursor 0 39, .put 65, .put 66] = .ok (1, 0, 0x41) ∧
    viewExec 4 ⟨0, 0, 0⟩ { powerUp with twoLine := true } [.setCursor 0 19, .put 65, .put 66] = .ok (1, 0, 0x15) ∧
    viewExec 1 ⟨0, 0, 0⟩ { powerUp with twoLine := true } [.setCursor 0 39, .put 65, .put 66] = .ok (0, 41, 0x41) := by decide

/-- **C43 fails** below the last row: after a line feed in the last row the view's row does not exist, the display is in row 0. -/
theorem c43_last_row_fails (rows : Nat) (h1 : 1 ≤ rows) (h4 : rows ≤ 4) :
    viewExec rows ⟨rows - 1, 0, 0⟩ { powerUp with twoLine := true } [.put 10] = .ok (rows, 0, 0) := by
  have : rows = 1 ∨ rows = 2 ∨ rows = 3 ∨ rows = 4 := by omega
  rcases this with rfl | rfl | rfl | rfl <;> decide

/-- **C43 fails** on three rows, where the library allows 26 columns: row 0 column 20 and row 2 column 0 are the same memory. -/
theorem c43_three_rows_fails : View.totalColumns 3 = 26 ∧ View.calcAddress 3 0 20 = View.calcAddress 3 2 0 := by decide

/-- **C43 fails** for the inherited `ClearDisplay`: the display goes home, the view does not know. -/
theorem c43_clear_fails : viewExec 2 ⟨0, 0, 0⟩ { powerUp with twoLine := true } [.setCursor 1 5, .clear] = .ok (1, 5, 0) := by decide

/-! ### C44: the view port -/

/-- **C44 fails.** From construction no scroll ever happens: whatever is asked, on whatever display, every call reports failure, nothing is
    sent and the offset stays 0. -/
theorem c44_scroll_fails (total : Nat) (l : List Bool) : ViewPort.run total 0 l = (0, List.replicate l.length false, []) := by
  induction l with
  | nil => rfl
  | cons x l ih => cases x <;> simp [ViewPort.run, ViewPort.scrollLeft, ViewPort.scrollRight, ih, List.replicate_succ]

/-- **C44, partial.** What holds: the command sent by a scroll that does happen moves the window one position in that direction, and a left
    scroll followed by a right scroll restores offset and window. Missing: `ScrollLeft` happens only when the offset is already beyond
    the last column. -/
theorem c44_there_and_back_partial (total offset : Nat) (ho : offset + 1 < 256) (h : total < offset) (d : Device) (hw : d.window < lineLength d.twoLine) :
    ∃ b1 b2, ViewPort.run total offset [true, false] = (offset, [true, true], [.command b1, .command b2]) ∧
      (exec d false b1).window = (d.window + 1) % lineLength d.twoLine ∧ exec (exec d false b1) false b2 = d := by
  refine ⟨0x18, 0x1C, ?_, ?_, ?_⟩
  · simp only [ViewPort.run, ViewPort.scrollLeft, ViewPort.scrollRight, if_true, if_pos h, u8_succ _ ho]
    simp [Controller.writeCursorShift]
  · simp [exec, bit, moveWindow]
  · have : lineLength d.twoLine = 40 ∨ lineLength d.twoLine = 80 := by simp only [lineLength]; split_ifs <;> simp
    have e : ((d.window + 1) % lineLength d.twoLine + lineLength d.twoLine - 1) % lineLength d.twoLine = d.window := by
      rcases this with h | h <;> rw [h] at hw ⊢ <;> omega
    simp [exec, bit, moveWindow, e]

example := c44_there_and_back_partial 3 5 (by decide) (by decide) powerUp (by decide)

/-! ### C87 custom characters -/

/-- **C87.** Setting the character address and writing rows of a pattern (any bytes, at most the 64 bytes there are) stores them at this and the following
    addresses of the character memory, modulo its size; nothing else of the memories, the window or the settings changes, and setting a display address
    afterwards continues the text there. -/
theorem c87_pattern (d : Device) (hi : d.increment = true) (a : Nat) (l : List Nat) (hl : l.length ≤ 64) (back : Nat) (hb : back < 128) :
    let calls := Controller.writeCharacterAddress a ++ l.map Call.data ++ Controller.writeDisplayAddress back
    ∃ bytes, calls = bytes.map toCall ∧ ∃ d', execAll d bytes = d' ∧
      (∀ i, (h : i < l.length) → d'.cgram ((a + i) % 64) = l[i]) ∧
      (∀ x, (∀ i, i < l.length → x ≠ (a + i) % 64) → d'.cgram x = d.cgram x) ∧
      d' = { d with cgram := d'.cgram, ac := back, cg := false } := by
  have e40 : ∀ x : Fin 64, (x.val ||| 0x40) = x.val + 64 := by decide
  have em : a &&& 0x3F = a % 64 := Nat.and_two_pow_sub_one_eq_mod a 6
  have h40 : (a &&& 0x3F) ||| 0x40 = a % 64 + 64 := by rw [em]; exact e40 ⟨a % 64, by omega⟩
  have hb80 : back ||| 0x80 = back + 128 := or128 back hb
  -- the data part
  have data : ∀ (l : List Nat) (d : Device) (a : Nat), d.increment = true → d.cg = true → d.ac = a % 64 → l.length ≤ 64 →
      let d' := execAll d (l.map fun b => (true, b))
      (∀ i, (h : i < l.length) → d'.cgram ((a + i) % 64) = l[i]) ∧ (∀ x, (∀ i, i < l.length → x ≠ (a + i) % 64) → d'.cgram x = d.cgram x) ∧
      d' = { d with cgram := d'.cgram, ac := d'.ac } := by
    intro l
    induction l with
    | nil => intro d a _ _ _ _; exact ⟨fun i h => absurd h (by simp), fun x _ => rfl, rfl⟩
    | cons b l ih =>
      intro d a h1 h2 h3 h4
      simp only [List.length_cons] at h4
      have ex : exec d true b = { d with cgram := setAt d.cgram (a % 64) b, ac := (a + 1) % 64 } := by
        simp only [exec, h1, h2, h3, if_true, nextAddress, Bool.not_true, Bool.and_false, Bool.false_eq_true, if_false, Nat.mod_add_mod]
      have hd := ih { d with cgram := setAt d.cgram (a % 64) b, ac := (a + 1) % 64 } (a + 1) h1 h2 rfl (by omega)
      simp only at hd
      have run : execAll d ((b :: l).map fun b => (true, b)) = execAll { d with cgram := setAt d.cgram (a % 64) b, ac := (a + 1) % 64 } (l.map fun b => (true, b)) := by
        simp only [execAll, List.map_cons, List.foldl_cons, ex]
      simp only [run]
      obtain ⟨k1, k2, k3⟩ := hd
      refine ⟨?_, ?_, ?_⟩
      · intro i hi
        cases i with
        | zero =>
          rw [k2 ((a + 0) % 64) (by intro i hi'; omega)]
          simp [setAt]
        | succ i =>
          simp only [List.length_cons] at hi
          rw [show a + (i + 1) = a + 1 + i by omega, k1 i (by omega)]; rfl
      · intro x hx
        rw [k2 x (by intro i hi'; have := hx (i + 1) (by simp; omega); rwa [show a + (i + 1) = a + 1 + i by omega] at this)]
        have := hx 0 (by simp)
        simp only [Nat.add_zero] at this
        simp [setAt, this]
      · rw [k3]
  refine ⟨(false, a % 64 + 64) :: (l.map fun b => (true, b)) ++ [(false, back + 128)], ?_, _, rfl, ?_⟩
  · simp [Controller.writeCharacterAddress, Controller.writeDisplayAddress, h40, hb80, toCall, Function.comp_def]
  · have e1 : exec d false (a % 64 + 64) = { d with ac := a % 64, cg := true } := by
      simp only [exec, Bool.false_eq_true, if_false]
      rw [if_neg (by omega), if_pos (by omega)]
      congr 1; omega
    have e2 : ∀ d : Device, exec d false (back + 128) = { d with ac := back, cg := false } := by
      intro d
      simp only [exec, Bool.false_eq_true, if_false]
      rw [if_pos (by omega)]
      congr 1; omega
    have run : execAll d ((false, a % 64 + 64) :: (l.map fun b => (true, b)) ++ [(false, back + 128)]) =
        { execAll { d with ac := a % 64, cg := true } (l.map fun b => (true, b)) with ac := back, cg := false } := by
      simp only [execAll, List.foldl_append, List.foldl_cons, List.foldl_nil, e1, e2, List.cons_append]
    obtain ⟨k1, k2, k3⟩ := data l { d with ac := a % 64, cg := true } a hi rfl rfl hl
    simp only [run]
    refine ⟨k1, k2, ?_⟩
    rw [k3]

/-- A pattern of eight rows for character 2, then back to the second line. -/
example : (execAll powerUp [(false, 0x50), (true, 4), (true, 14), (true, 31), (true, 4), (true, 4), (true, 4), (true, 4), (true, 0), (false, 0xC0)]).cgram 18 = 31 := by
  decide

/-! ### C63: display writer -/

/-- **C63.** `GoTo`: a don't-care coordinate keeps the current one, for every position and every pair of coordinates on the screen; the
    display's address is that of the position. -/
theorem c63_goTo (rows : Nat) (h1 : 1 ≤ rows) (h4 : rows ≤ 4) (s : View.State) (d : Device) (z : Screen) (h : Tracks rows s d z)
    (r c : Option Nat) (hr : ∀ x, r = some x → x < rows) (hc : ∀ x, c = some x → x < columns rows)
    (hz : c = none → z.col < columns rows) :
    ∃ s' b, Writer.goTo rows s (r.getD 0xFF) (c.getD 0xFF) = .ok (s', [toCall b]) ∧ (b.2 < 256 ∧ ¬ selects8 b) ∧
      Tracks rows s' (exec d b.1 b.2) { z with row := r.getD z.row, col := c.getD z.col } ∧ s'.regs = s.regs ∧
      ∀ f, d.showsDisplay f → (exec d b.1 b.2).showsDisplay f := by
  obtain ⟨hcl, hc40⟩ := columns_le rows h1 h4
  have er : (if r.getD 0xFF = Writer.dontCare then s.row else r.getD 0xFF) = r.getD z.row := by
    cases r with
    | none => simp [Writer.dontCare, h.row]
    | some x => have := hr x rfl; exact if_neg (show x ≠ 255 by omega)
  have ec : (if c.getD 0xFF = Writer.dontCare then s.col else c.getD 0xFF) = c.getD z.col := by
    cases c with
    | none => simp [Writer.dontCare, h.col]
    | some x => have := hc x rfl; exact if_neg (show x ≠ 255 by omega)
  have f : z.fits rows (.moveTo (r.getD z.row) (c.getD z.col)) := by
    constructor
    · cases r with
      | none => exact h.rowLt
      | some x => exact hr x rfl
    · cases c with
      | none => exact hz rfl
      | some x => exact hc x rfl
  obtain ⟨s', b, e, k1, k2, t⟩ := c43_step rows h1 h4 s d z (.moveTo (r.getD z.row) (c.getD z.col)) h trivial f
  obtain ⟨k3, k4⟩ := step_keeps e
  refine ⟨s', b, ?_, ⟨k1, k2⟩, t, k3, k4 d⟩
  simp only [Writer.goTo, er, ec]
  exact e

/-- **C63.** `SetCursor` without coordinates hides the cursor and changes nothing else. -/
theorem c63_cursorOff (rows : Nat) (s : View.State) (f : Flags) (hf : Reads s.regs f) (d : Device) (hsd : d.showsDisplay f) (edit : Bool) :
    ∃ r b, Writer.setCursor rows s 0xFF 0xFF edit = .ok ({ s with regs := r }, [toCall b]) ∧ (b.2 < 256 ∧ ¬ selects8 b) ∧
      Reads r { f with cursor := false } ∧ exec d b.1 b.2 = { d with cursor := false } := by
  obtain ⟨r, b, g1, g2, g3, g4, g5⟩ := c42_setter s.regs f hf (.enableCursor false)
  refine ⟨r, (false, b), ?_, ⟨g3, g4⟩, g2, ?_⟩
  · simp only [Writer.setCursor, Writer.dontCare, and_self, if_true, g1, Res.bind_ok]
    rfl
  · show exec d false b = _
    rw [g5]
    obtain ⟨a1, a2, a3⟩ := hsd
    simp only [follows, isEntry, setFlags, ← a1, ← a3]
    rfl

example := c63_cursorOff 2 ⟨1, 3, 0x14#8⟩ ⟨false, false, true, false, true⟩ (by unfold Reads; decide +kernel) { powerUp with twoLine := true, on := true }
  (by unfold Device.showsDisplay; decide +kernel) true

/-- **C63, partial.** `SetCursor` with both coordinates given: cursor on, blinking as asked, position taken. Missing: a don't-care coordinate
    (see the `_fails` theorems). -/
theorem c63_setCursor_partial (rows : Nat) (h1 : 1 ≤ rows) (h4 : rows ≤ 4) (s : View.State) (f : Flags) (hf : Reads s.regs f) (d : Device)
    (hsd : d.showsDisplay f) (z : Screen) (h : Tracks rows s d z) (r c : Nat) (hr : r < rows) (hc : c < columns rows) (edit : Bool) :
    ∃ s' bs, Writer.setCursor rows s r c edit = .ok (s', bs.map toCall) ∧ (∀ b ∈ bs, b.2 < 256 ∧ ¬ selects8 b) ∧
      Tracks rows s' (execAll d bs) { z with row := r, col := c } ∧ (execAll d bs).showsDisplay { f with cursor := true, blink := edit } ∧
      Reads s'.regs { f with cursor := true, blink := edit } := by
  obtain ⟨hcl, hc40⟩ := columns_le rows h1 h4
  have n1 : ¬ (r = Writer.dontCare ∧ c = Writer.dontCare) := by simp only [Writer.dontCare]; omega
  -- cursor
  obtain ⟨r1, bs1, e1, v1, hr1, d1, t1⟩ : ∃ r1 bs1, (if (!f.cursor) = true then Controller.set s.regs (.enableCursor true) else .ok (s.regs, []))
      = .ok (r1, bs1.map toCall) ∧ (∀ b ∈ bs1, b.2 < 256 ∧ ¬ selects8 b) ∧ Reads r1 { f with cursor := true } ∧ (execAll d bs1).showsDisplay { f with cursor := true } ∧
      ∀ s' : View.State, s'.row = s.row → s'.col = s.col → Tracks rows s' (execAll d bs1) z := by
    have tr : ∀ (d' : Device), d'.ac = d.ac → d'.cg = d.cg → d'.increment = d.increment → d'.twoLine = d.twoLine → d'.ddram = d.ddram →
        ∀ s' : View.State, s'.row = s.row → s'.col = s.col → Tracks rows s' d' z := by
      intro d' e1 e2 e3 e4 e5 s' f1 f2
      exact ⟨f1.trans h.row, f2.trans h.col, h.rowLt, h.colLe, fun hh => e1.trans (h.ac hh), e2.trans h.cg, e3.trans h.inc, e4.trans h.two,
        fun r c a b => by rw [e5]; exact h.text r c a b⟩
    cases hcur : f.cursor with
    | true =>
      refine ⟨s.regs, [], rfl, by simp, ?_, ?_, tr d rfl rfl rfl rfl rfl⟩
      · rw [← hcur]; exact hf
      · rw [← hcur]; exact hsd
    | false =>
      obtain ⟨r', b, g1, g2, g4, g5, g3⟩ := c42_setter s.regs f hf (.enableCursor true)
      refine ⟨r', [(false, b)], g1, by simpa using ⟨g4, g5⟩, g2, ?_, ?_⟩
      · rw [show execAll d [(false, b)] = exec d false b from rfl, g3]
        exact ⟨rfl, rfl, rfl⟩
      · rw [show execAll d [(false, b)] = exec d false b from rfl, g3]
        exact tr _ rfl rfl rfl rfl rfl
  -- blink
  obtain ⟨r2, bs2, e2, v2, hr2, d2, t2⟩ : ∃ r2 bs2, (if f.blink ≠ edit then Controller.set r1 (.enableBlink edit) else .ok (r1, []))
      = .ok (r2, bs2.map toCall) ∧ (∀ b ∈ bs2, b.2 < 256 ∧ ¬ selects8 b) ∧ Reads r2 { f with cursor := true, blink := edit } ∧
      (execAll (execAll d bs1) bs2).showsDisplay { f with cursor := true, blink := edit } ∧
      ∀ s' : View.State, s'.row = s.row → s'.col = s.col → Tracks rows s' (execAll (execAll d bs1) bs2) z := by
    by_cases hb : f.blink = edit
    · refine ⟨r1, [], by simp [hb], by simp, ?_, ?_, t1⟩
      · rw [← hb]; exact hr1
      · rw [← hb]; exact d1
    · obtain ⟨r', b, g1, g2, g4, g5, g3⟩ := c42_setter r1 _ hr1 (.enableBlink edit)
      refine ⟨r', [(false, b)], by rw [if_pos hb]; exact g1, by simpa using ⟨g4, g5⟩, g2, ?_, ?_⟩
      · rw [show execAll (execAll d bs1) [(false, b)] = exec (execAll d bs1) false b from rfl, g3]
        exact ⟨rfl, rfl, rfl⟩
      · rw [show execAll (execAll d bs1) [(false, b)] = exec (execAll d bs1) false b from rfl, g3]
        intro s' f1 f2
        have := t1 s' f1 f2
        exact ⟨this.row, this.col, this.rowLt, this.colLe, this.ac, this.cg, this.inc, this.two, this.text⟩
  obtain ⟨s', b, e3, v3, v4, t3⟩ := c43_step rows h1 h4 { s with regs := r2 } _ z (.moveTo r c) (t2 _ rfl rfl) trivial ⟨hr, hc⟩
  obtain ⟨a1, -, -, a4⟩ := address_exec rows h4 { row := r, col := c, regs := r2 } hr hc
  have hs' : s'.regs = r2 ∧ b = (false, cell r c + 128) := by
    have e4 := e3
    simp only [viewOp, View.step, View.setCursor, a1, Res.bind_ok, Res.ok.injEq, Prod.mk.injEq, List.cons.injEq, and_true] at e4
    exact ⟨by rw [← e4.1], (toCall_inj e4.2).symm⟩
  obtain ⟨hs', rfl⟩ := hs'
  have ed : execAll d (bs1 ++ bs2 ++ [(false, cell r c + 128)]) = { execAll (execAll d bs1) bs2 with ac := cell r c, cg := false } := by
    simp only [execAll, List.foldl_append, List.foldl_cons, List.foldl_nil]
    exact a4 _
  obtain ⟨rc1, rc2, -⟩ := hf
  obtain ⟨rb1, -⟩ := hr1
  refine ⟨s', bs1 ++ bs2 ++ [(false, cell r c + 128)], ?_, ?_, ?_, ?_, ?_⟩
  · simp only [Writer.setCursor, if_neg n1, rc2, Res.bind_ok, id, e1, rb1, e2]
    simp only [viewOp, View.step] at e3
    simp only [e3, Res.bind_ok, List.map_append]
    rfl
  · intro y hy
    simp only [List.mem_append, List.mem_singleton] at hy
    rcases hy with (hy | hy) | rfl
    · exact v1 y hy
    · exact v2 y hy
    · exact ⟨v3, v4⟩
  · simp only [execAll, List.foldl_append] at *
    exact t3
  · rw [ed]; exact d2
  · rw [hs']; exact hr2

example : ∃ (s' : View.State) (bs : List (Bool × Nat)), Writer.setCursor 2 ⟨1, 3, 0x14#8⟩ 0 7 true = .ok (s', bs.map toCall) ∧ s'.row = 0 ∧ s'.col = 7 := by
  let d : Device := { powerUp with twoLine := true, on := true, ac := 0x43 }
  have hf : Reads (0x14#8) ⟨false, false, true, false, true⟩ := by unfold Reads; decide +kernel
  have hd : d.showsDisplay ⟨false, false, true, false, true⟩ := by unfold Device.showsDisplay; decide +kernel
  have ht : Tracks 2 ⟨1, 3, 0x14#8⟩ d ⟨1, 3, fun _ _ => 0x20⟩ :=
    ⟨rfl, rfl, by decide, by decide, fun _ => rfl, rfl, rfl, rfl, fun _ _ _ _ => rfl⟩
  obtain ⟨s', bs, h, -, t, -⟩ := c63_setCursor_partial 2 (by decide) (by decide) ⟨1, 3, 0x14#8⟩ _ hf d hd _ ht 0 7 (by decide) (by decide) true
  exact ⟨s', bs, h, t.row, t.col⟩

/-- **C63 fails**: a don't-care line puts the edit cursor on line 0, whatever the current line; a don't-care column puts it one position left of the line
    (on the first line: the last address 0x7F, which is no place of the display). -/
theorem c63_setCursor_fails (s : View.State) (hr : s.regs = 0x06#8) :
    Writer.setCursor 2 s 0xFF 5 false = .ok ({ s with row := 0xFF, col := 5 }, [.command 0x85]) ∧
    Writer.setCursor 2 s 1 0xFF false = .ok ({ s with row := 1, col := 0xFF }, [.command 0xBF]) ∧
    Writer.setCursor 2 s 0 0xFF false = .ok ({ s with row := 0, col := 0xFF }, [.command 0xFF]) := by
  obtain ⟨_, _, _⟩ := s
  simp only at hr
  subst hr
  have h1 : Controller.getCursor 0x06#8 = .ok true := by decide
  have h2 : Controller.getBlink 0x06#8 = .ok false := by decide
  have a1 : View.calcAddress 2 0xFF 5 = .ok 0x05 := by decide
  have a2 : View.calcAddress 2 1 0xFF = .ok 0x3F := by decide
  have a3 : View.calcAddress 2 0 0xFF = .ok 0xFF := by decide
  refine ⟨?_, ?_, ?_⟩
  all_goals simp [Writer.setCursor, Writer.dontCare, h1, h2, View.setCursor, View.writeAddress, a1, a2, a3, Controller.writeDisplayAddress]

end Atl.Props
