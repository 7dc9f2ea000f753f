import Verif.Model.AnalogPin
import Verif.Props.Arduino

/- Property theorems C115: an analog output pin can also be used as a digital pin. -/
namespace Atl.Props
open Atl.Spec.Arduino

/-! ### Specification: a pin is a duty in 255ths, low is 0 and high is 255. -/

def dutyStep (f : Nat → Nat) : Arduino.AnalogOp → (Nat → Nat) × List Bool
  | .writeBool p v | .writeBase p v => (fun x => if x = p then (if v then 255 else 0) else f x, [])
  | .writeDuty p v => (fun x => if x = p then v else f x, [])
  | .toggle p => (fun x => if x = p then 255 - f x else f x, [])
  | .getValue p => (f, [decide (f p = 255)])

def duties : List Arduino.AnalogOp → (Nat → Nat) → (Nat → Nat) × List Bool
  | [], f => (f, [])
  | o :: l, f =>
    let r := dutyStep f o
    let s := duties l r.1
    (s.1, r.2 ++ s.2)

def analogPinOf : Arduino.AnalogOp → Nat
  | .writeBool p _ | .writeDuty p _ | .writeBase p _ | .toggle p | .getValue p => p

/-- Duties are bytes, and Toggle and getValue are used only while the pin is low or high: then it is clear what they should do. -/
def DutyUse : List Arduino.AnalogOp → (Nat → Nat) → Prop
  | [], _ => True
  | o :: l, f =>
    (match o with
      | .writeDuty _ v => v < 256
      | .toggle p | .getValue p => f p = 0 ∨ f p = 255
      | _ => True) ∧ DutyUse l (dutyStep f o).1

/-- The full claim: on pins with a timer, every such history drives the duties of the specification and returns its values. -/
def AnalogClaim : Prop :=
  ∀ (l : List ((Nat → Bool) × Arduino.AnalogOp)) (b : Board) (f : Nat → Nat),
    (∀ o ∈ l, (b (analogPinOf o.2)).hasTimer = true ∧ OutputOk (b (analogPinOf o.2)) ∧ drives (b (analogPinOf o.2)) = some (f (analogPinOf o.2))) →
    DutyUse (l.map Prod.snd) f →
    (Arduino.analogRun l b).2 = (duties (l.map Prod.snd) f).2 ∧
    ∀ p, if p ∈ l.map (fun o => analogPinOf o.2) then drives ((Arduino.analogRun l b).1 p) = some ((duties (l.map Prod.snd) f).1 p)
      else (Arduino.analogRun l b).1 p = b p

/-- A pin that drives the duty `d`. -/
def AnalogOk (x : Pin) (d : Nat) : Prop :=
  x.output = true ∧ x.hasTimer = true ∧ ((x.pwm = some d ∧ 0 < d ∧ d < 255) ∨ (x.pwm = none ∧ d = if x.latch then 255 else 0))

theorem AnalogOk.drives {x : Pin} {d : Nat} (h : AnalogOk x d) : drives x = some d := by
  obtain ⟨h1, _, ⟨h3, _⟩ | ⟨h3, h4⟩⟩ := h
  · simp [Spec.Arduino.drives, h1, h3]
  · simp [Spec.Arduino.drives, h1, h3, h4]

theorem analogOk_write {p v : Nat} {b : Board} (hv : v < 256) (ht : (b p).hasTimer = true) : AnalogOk (analogWrite p v b p) v := by
  by_cases h0 : v = 0
  · simp [analogWrite, pinModeOutput, digitalWrite, Board.upd, AnalogOk, h0, ht]
  · by_cases h1 : v = 255
    · simp [analogWrite, pinModeOutput, digitalWrite, Board.upd, AnalogOk, h1, ht]
    · simp [analogWrite, pinModeOutput, digitalWrite, Board.upd, AnalogOk, h0, h1, ht]; omega

theorem analogWrite_other (p v : Nat) (b : Board) (q : Nat) (hq : q ≠ p) : analogWrite p v b q = b q := by
  by_cases h0 : v = 0
  · simp [analogWrite, pinModeOutput, digitalWrite, Board.upd, h0, hq]
  · by_cases h1 : v = 255
    · simp [analogWrite, pinModeOutput, digitalWrite, Board.upd, h1, hq]
    · cases h2 : (b p).hasTimer <;> simp [analogWrite, pinModeOutput, digitalWrite, Board.upd, h0, h1, h2, hq]

theorem analog_step (ext : Nat → Bool) (b : Board) (f : Nat → Nat) (o : Arduino.AnalogOp) (hn : ∀ p, o ≠ .writeBool p true)
    (hok : AnalogOk (b (analogPinOf o)) (f (analogPinOf o))) (hu : DutyUse [o] f) :
    (Arduino.analogStep ext b o).2 = (dutyStep f o).2 ∧
    AnalogOk ((Arduino.analogStep ext b o).1 (analogPinOf o)) ((dutyStep f o).1 (analogPinOf o)) ∧
    ∀ q, q ≠ analogPinOf o → (Arduino.analogStep ext b o).1 q = b q ∧ (dutyStep f o).1 q = f q := by
  cases o with
  | writeBool p v =>
    cases v with
    | true => exact absurd rfl (hn p)
    | false =>
      refine ⟨rfl, ?_, fun q hq => ⟨analogWrite_other p 0 b q hq, if_neg hq⟩⟩
      have h := analogOk_write (p := p) (v := 0) (b := b) (by omega) hok.2.1
      simpa [dutyStep, analogPinOf, Arduino.analogStep, Arduino.writeBool, Arduino.writeAnalog] using h
  | writeDuty p v =>
    refine ⟨rfl, ?_, fun q hq => ⟨analogWrite_other p v b q hq, if_neg hq⟩⟩
    have h := analogOk_write (p := p) (v := v) (b := b) hu.1 hok.2.1
    simpa [dutyStep, analogPinOf, Arduino.analogStep, Arduino.writeBool, Arduino.writeAnalog] using h
  | writeBase p v =>
    refine ⟨rfl, ?_, fun q hq => ⟨by simp only [analogPinOf] at hq; simp [Arduino.analogStep, Arduino.write, digitalWrite, Board.upd, hq], if_neg hq⟩⟩
    obtain ⟨h1, h2, _⟩ := hok
    simp only [analogPinOf] at h1 h2
    simp [AnalogOk, Arduino.analogStep, Arduino.write, digitalWrite, Board.upd, dutyStep, analogPinOf, h1, h2]
  | toggle p =>
    refine ⟨rfl, ?_, fun q hq => ⟨by
      simp only [analogPinOf] at hq
      simp [Arduino.analogStep, Arduino.toggle, Arduino.getValue, digitalRead, Arduino.write, digitalWrite, Board.upd, hq], if_neg hq⟩⟩
    obtain ⟨h1, h2, h3⟩ := hok
    simp only [analogPinOf] at h1 h2 h3
    have hd : f p = 0 ∨ f p = 255 := hu.1
    have h4 : f p = if (b p).latch then 255 else 0 := by
      rcases h3 with ⟨_, _, _⟩ | ⟨_, h⟩
      · omega
      · exact h
    cases hl : (b p).latch <;>
      simp [AnalogOk, Arduino.analogStep, Arduino.toggle, Arduino.getValue, digitalRead, Arduino.write, digitalWrite, Board.upd, dutyStep, analogPinOf, h1, h2, h4, hl]
  | getValue p =>
    obtain ⟨h1, h2, h3⟩ := hok
    simp only [analogPinOf] at h1 h2 h3
    have hd : f p = 0 ∨ f p = 255 := hu.1
    have h4 : f p = if (b p).latch then 255 else 0 := by
      rcases h3 with ⟨_, _, _⟩ | ⟨_, h⟩
      · omega
      · exact h
    refine ⟨?_, ?_, fun q hq => ⟨by simp only [analogPinOf] at hq; simp [Arduino.analogStep, Arduino.getValue, digitalRead, Board.upd, hq], rfl⟩⟩
    · cases hl : (b p).latch <;> simp [Arduino.analogStep, Arduino.getValue, digitalRead, dutyStep, h1, h4, hl]
    · cases hl : (b p).latch <;>
        simp [AnalogOk, Arduino.analogStep, Arduino.getValue, digitalRead, Board.upd, dutyStep, analogPinOf, h1, h2, h4, hl]

/-- **C115, partial.** Every history of duty writes, Write of the base class, Toggle, getValue and Write(false), on any set of pins with a timer: each pin
    drives the level or duty last written, getValue returns the level, other pins are untouched. Missing: `Write(true)`, see the `_fails` theorem. -/
theorem c115_analog_partial (l : List ((Nat → Bool) × Arduino.AnalogOp)) (b : Board) (f : Nat → Nat)
    (hn : ∀ o ∈ l, ∀ p, o.2 ≠ .writeBool p true)
    (hb : ∀ o ∈ l, (b (analogPinOf o.2)).hasTimer = true ∧ OutputOk (b (analogPinOf o.2)) ∧ drives (b (analogPinOf o.2)) = some (f (analogPinOf o.2)))
    (hu : DutyUse (l.map Prod.snd) f) :
    (Arduino.analogRun l b).2 = (duties (l.map Prod.snd) f).2 ∧
    ∀ p, if p ∈ l.map (fun o => analogPinOf o.2) then drives ((Arduino.analogRun l b).1 p) = some ((duties (l.map Prod.snd) f).1 p)
      else (Arduino.analogRun l b).1 p = b p := by
  have key : ∀ (l : List ((Nat → Bool) × Arduino.AnalogOp)) (b : Board) (f : Nat → Nat), (∀ o ∈ l, ∀ p, o.2 ≠ .writeBool p true) →
      (∀ o ∈ l, AnalogOk (b (analogPinOf o.2)) (f (analogPinOf o.2))) → DutyUse (l.map Prod.snd) f →
      (Arduino.analogRun l b).2 = (duties (l.map Prod.snd) f).2 ∧
      (∀ p, AnalogOk (b p) (f p) → AnalogOk ((Arduino.analogRun l b).1 p) ((duties (l.map Prod.snd) f).1 p)) ∧
      ∀ p, p ∉ l.map (fun o => analogPinOf o.2) → (Arduino.analogRun l b).1 p = b p := by
    intro l
    induction l with
    | nil => intro b f _ _ _; exact ⟨rfl, fun p h => h, fun p _ => rfl⟩
    | cons o l ih =>
      intro b f hn hok hu
      obtain ⟨ext, o⟩ := o
      obtain ⟨k1, k2, k3⟩ := analog_step ext b f o (hn (ext, o) List.mem_cons_self) (hok (ext, o) List.mem_cons_self) ⟨hu.1, trivial⟩
      have keep : ∀ p, AnalogOk (b p) (f p) → AnalogOk ((Arduino.analogStep ext b o).1 p) ((dutyStep f o).1 p) := by
        intro p hp
        by_cases hx : p = analogPinOf o
        · rw [hx]; exact k2
        · rw [(k3 p hx).1, (k3 p hx).2]; exact hp
      obtain ⟨i1, i2, i3⟩ := ih (Arduino.analogStep ext b o).1 (dutyStep f o).1 (fun q hq => hn q (List.mem_cons_of_mem _ hq))
        (fun q hq => keep _ (hok q (List.mem_cons_of_mem _ hq))) hu.2
      refine ⟨?_, fun p hp => i2 p (keep p hp), fun p hp => ?_⟩
      · show (Arduino.analogStep ext b o).2 ++ (Arduino.analogRun l (Arduino.analogStep ext b o).1).2 = _
        rw [k1, i1]; rfl
      · rw [List.map_cons, List.mem_cons, not_or] at hp
        show (Arduino.analogRun l (Arduino.analogStep ext b o).1).1 p = _
        rw [i3 p hp.2, (k3 p hp.1).1]
  obtain ⟨k1, k2, k3⟩ := key l b f hn (fun o ho => by
    obtain ⟨h1, ⟨h2, h3⟩, h4⟩ := hb o ho
    refine ⟨h2, h1, .inr ⟨h3, ?_⟩⟩
    simp only [Spec.Arduino.drives, h2, h3, if_true, Option.some.injEq] at h4
    exact h4.symm) hu
  refine ⟨k1, fun p => ?_⟩
  split
  · next hp =>
    rw [List.mem_map] at hp
    obtain ⟨o, ho, rfl⟩ := hp
    refine (k2 _ ?_).drives
    obtain ⟨h1, ⟨h2, h3⟩, h4⟩ := hb o ho
    refine ⟨h2, h1, .inr ⟨h3, ?_⟩⟩
    simp only [Spec.Arduino.drives, h2, h3, if_true, Option.some.injEq] at h4
    exact h4.symm
  · next hp => exact k3 p hp

/-- A board with low output pins, all with a timer. -/
def analogBoard : Board := fun _ => ⟨true, false, none, true⟩

-- fade to 200, switch fully on, toggle, read: the pin ends low
example : (∀ o ∈ [((fun _ => false : Nat → Bool), Arduino.AnalogOp.writeDuty 9 200), (fun _ => false, .writeBase 9 true), (fun _ => false, .toggle 9), (fun _ => false, .getValue 9)],
      (analogBoard (analogPinOf o.2)).hasTimer = true ∧ OutputOk (analogBoard (analogPinOf o.2)) ∧ drives (analogBoard (analogPinOf o.2)) = some 0) ∧
    DutyUse [.writeDuty 9 200, .writeBase 9 true, .toggle 9, .getValue 9] (fun _ => 0) ∧
    (Arduino.analogRun [(fun _ => false, .writeDuty 9 200), (fun _ => false, .writeBase 9 true), (fun _ => false, .toggle 9), (fun _ => false, .getValue 9)]
      analogBoard).2 = [false] := by
  refine ⟨by simp [analogBoard, OutputOk, drives], by simp [DutyUse, dutyStep], by decide⟩

/-- **C115 fails** for `Write(true)`, on every board: with a timer the pin is high for one 255th of the time, without it is low; it is never high. -/
theorem c115_write_true_fails (ext : Nat → Bool) (p : Nat) (b : Board) :
    drives ((Arduino.analogStep ext b (.writeBool p true)).1 p) = some (if (b p).hasTimer then 1 else 0) := by
  cases ht : (b p).hasTimer <;>
    simp [Arduino.analogStep, Arduino.writeBool, Arduino.writeAnalog, analogWrite, pinModeOutput, digitalWrite, Board.upd, drives, ht]

/-- **C115 fails** for `Write(true)` then `Toggle()`: the pin ends high when it was low before, on every board with a timer. -/
theorem c115_toggle_fails (e1 e2 : Nat → Bool) (p : Nat) (b : Board) (ht : (b p).hasTimer = true) (hl : (b p).latch = false) :
    drives ((Arduino.analogRun [(e1, .writeBool p true), (e2, .toggle p)] b).1 p) = some 255 := by
  simp [Arduino.analogRun, Arduino.analogStep, Arduino.writeBool, Arduino.writeAnalog, analogWrite, pinModeOutput, Arduino.toggle, Arduino.getValue, digitalRead,
    Arduino.write, digitalWrite, Board.upd, drives, ht, hl]

/-- **C115 fails** for Toggle and getValue on a dimmed pin: both stop the PWM; Toggle drives the opposite of the level the latch had before the dimming. -/
theorem c115_dimmed_fails (ext : Nat → Bool) (p v : Nat) (b : Board) (h0 : 0 < v) (hv : v < 255) (ht : (b p).hasTimer = true) :
    drives ((Arduino.analogRun [(ext, .writeDuty p v), (ext, .toggle p)] b).1 p) = some (if (b p).latch then 0 else 255) ∧
    drives ((Arduino.analogRun [(ext, .writeDuty p v), (ext, .getValue p)] b).1 p) = some (if (b p).latch then 255 else 0) := by
  have h1 : v ≠ 0 := by omega
  have h2 : v ≠ 255 := by omega
  cases hl : (b p).latch <;>
    simp [Arduino.analogRun, Arduino.analogStep, Arduino.writeAnalog, analogWrite, pinModeOutput, Arduino.toggle, Arduino.getValue, digitalRead,
      Arduino.write, digitalWrite, Board.upd, drives, ht, hl, h1, h2]

/-- The full claim is false. -/
theorem c115_full_claim_is_false : ¬ AnalogClaim := by
  intro h
  have := (h [(fun _ => false, .writeBool 9 true)] analogBoard (fun _ => 0) (by simp [analogBoard, OutputOk, drives]) (by simp [DutyUse])).2 9
  rw [if_pos (by simp [analogPinOf])] at this
  have h2 := c115_write_true_fails (fun _ => false) 9 analogBoard
  have h3 : (Arduino.analogRun [(fun _ => false, .writeBool 9 true)] analogBoard).1 = (Arduino.analogStep (fun _ => false) analogBoard (.writeBool 9 true)).1 := rfl
  rw [h3, h2] at this
  simp [analogBoard, duties, dutyStep] at this

end Atl.Props
