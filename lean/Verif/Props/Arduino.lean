import Verif.Model.Arduino

/- Property theorems C89-C92: the Arduino adapters. -/
namespace Atl.Props
open Atl.Spec.Arduino

/-! ### C89 pins -/

/-- Specification: output pins are named levels. -/
def levelStep (f : Nat → Bool) : Arduino.PinOp → (Nat → Bool) × List Bool
  | .write p v => (fun x => if x = p then v else f x, [])
  | .toggle p => (fun x => if x = p then !f x else f x, [])
  | .getValue p => (f, [f p])

def levels : List Arduino.PinOp → (Nat → Bool) → (Nat → Bool) × List Bool
  | [], f => (f, [])
  | o :: l, f =>
    let r := levelStep f o
    let s := levels l r.1
    (s.1, r.2 ++ s.2)

def pinOf : Arduino.PinOp → Nat
  | .write p _ | .toggle p | .getValue p => p

def setLatch (x : Pin) (v : Bool) : Pin := ⟨x.output, v, x.pwm, x.hasTimer⟩

/-- A pin in use as digital output. -/
def OutputOk (x : Pin) : Prop := x.output = true ∧ x.pwm = none

theorem pin_step (ext : Nat → Bool) (b : Board) (o : Arduino.PinOp) (f : Nat → Bool) (ho : OutputOk (b (pinOf o))) (hf : (b (pinOf o)).latch = f (pinOf o)) :
    (Arduino.step ext b o).2 = (levelStep f o).2 ∧
    (Arduino.step ext b o).1 = fun x => if x = pinOf o then setLatch (b x) ((levelStep f o).1 x) else b x := by
  obtain ⟨h1, h2⟩ := ho
  cases o with
  | write p v =>
    simp only [pinOf] at h1 h2 hf
    refine ⟨rfl, funext fun x => ?_⟩
    simp only [Arduino.step, Arduino.write, digitalWrite, Board.upd, levelStep, pinOf]
    by_cases hx : x = p
    · subst hx; simp [setLatch, h2]
    · simp [hx]
  | toggle p =>
    simp only [pinOf] at h1 h2 hf
    refine ⟨rfl, funext fun x => ?_⟩
    simp only [Arduino.step, Arduino.toggle, Arduino.getValue, digitalRead, h1, if_true, Arduino.write, digitalWrite, Board.upd, levelStep, pinOf]
    by_cases hx : x = p
    · subst hx; simp [setLatch, h2, hf]
    · simp [hx]
  | getValue p =>
    simp only [pinOf] at h1 h2 hf
    refine ⟨?_, funext fun x => ?_⟩
    · simp only [Arduino.step, Arduino.getValue, digitalRead, h1, if_true, hf, levelStep]
    · simp only [Arduino.step, Arduino.getValue, digitalRead, Board.upd, levelStep, pinOf]
      by_cases hx : x = p
      · subst hx; simp [setLatch, h2, ← hf]
      · simp [hx]

/-- **C89, partial.** Every history of Write, Toggle and getValue on constructed output pins, with any levels on the other pins: getValue is always the value
    last written (toggled), the pins drive these levels, and pins that are not mentioned are untouched. Missing: PWM pins (see the `_fails` theorems). -/
theorem c89_output_partial (l : List ((Nat → Bool) × Arduino.PinOp)) (b : Board) (ho : ∀ o ∈ l, OutputOk (b (pinOf o.2))) :
    (Arduino.run l b).2 = (levels (l.map Prod.snd) fun p => (b p).latch).2 ∧
    ∀ p, if p ∈ l.map (fun o => pinOf o.2) then drives ((Arduino.run l b).1 p) = some (if (levels (l.map Prod.snd) fun p => (b p).latch).1 p then 255 else 0)
      else (Arduino.run l b).1 p = b p := by
  -- the board is the old one with the latches of the specification
  have key : ∀ (l : List ((Nat → Bool) × Arduino.PinOp)) (b : Board) (f : Nat → Bool), (∀ o ∈ l, OutputOk (b (pinOf o.2)) ∧ (b (pinOf o.2)).latch = f (pinOf o.2)) →
      (Arduino.run l b).2 = (levels (l.map Prod.snd) f).2 ∧
      (Arduino.run l b).1 = fun x => if x ∈ l.map (fun o => pinOf o.2) then setLatch (b x) ((levels (l.map Prod.snd) f).1 x) else b x := by
    intro l
    induction l with
    | nil => intro b f _; exact ⟨rfl, funext fun x => by simp [Arduino.run]⟩
    | cons o l ih =>
      intro b f h
      obtain ⟨ext, o⟩ := o
      obtain ⟨k1, k2⟩ := pin_step ext b o f (h (ext, o) (by simp)).1 (h (ext, o) (by simp)).2
      have hb : ∀ x, (Arduino.step ext b o).1 x = if x = pinOf o then setLatch (b x) ((levelStep f o).1 x) else b x := fun x => congrFun k2 x
      have hoth : ∀ x, x ≠ pinOf o → (levelStep f o).1 x = f x := by
        intro x hx
        cases o <;> simp_all [levelStep, pinOf]
      obtain ⟨i1, i2⟩ := ih (Arduino.step ext b o).1 (levelStep f o).1 (by
        intro q hq
        obtain ⟨⟨q1, q2⟩, q3⟩ := h q (List.mem_cons_of_mem _ hq)
        rw [hb]
        by_cases hx : pinOf q.2 = pinOf o
        · rw [if_pos hx]; exact ⟨⟨q1, q2⟩, rfl⟩
        · rw [if_neg hx]; exact ⟨⟨q1, q2⟩, by rw [hoth _ hx]; exact q3⟩)
      refine ⟨?_, ?_⟩
      · show (Arduino.step ext b o).2 ++ (Arduino.run l (Arduino.step ext b o).1).2 = _
        rw [k1, i1]; rfl
      · show (Arduino.run l (Arduino.step ext b o).1).1 = _
        rw [i2]
        funext x
        have hl : (levels (((ext, o) :: l).map Prod.snd) f).1 = (levels (l.map Prod.snd) (levelStep f o).1).1 := rfl
        rw [hl, hb]
        by_cases h1 : x ∈ l.map (fun o => pinOf o.2)
        · have hm : x ∈ ((ext, o) :: l).map (fun o => pinOf o.2) := by rw [List.map_cons]; exact List.mem_cons_of_mem _ h1
          rw [if_pos h1, if_pos hm]
          by_cases h2 : x = pinOf o
          · rw [if_pos h2]; rfl
          · rw [if_neg h2]
        · rw [if_neg h1]
          have keep : ∀ (l : List Arduino.PinOp) (g : Nat → Bool), x ∉ l.map pinOf → (levels l g).1 x = g x := by
            intro l
            induction l with
            | nil => intro g _; rfl
            | cons o l ih =>
              intro g hx
              simp only [List.map_cons, List.mem_cons, not_or] at hx
              show (levels l (levelStep g o).1).1 x = _
              rw [ih _ hx.2]
              obtain ⟨hx, _⟩ := hx
              cases o <;> simp_all [levelStep, pinOf]
          by_cases h2 : x = pinOf o
          · have hm : x ∈ ((ext, o) :: l).map (fun o => pinOf o.2) := by rw [List.map_cons, h2]; exact List.mem_cons_self
            rw [if_pos h2, if_pos hm, keep _ _ (by simpa [Function.comp_def] using h1)]
          · have hm : x ∉ ((ext, o) :: l).map (fun o => pinOf o.2) := by rw [List.map_cons, List.mem_cons, not_or]; exact ⟨h2, h1⟩
            rw [if_neg h2, if_neg hm]
  obtain ⟨k1, k2⟩ := key l b (fun p => (b p).latch) fun o hol => ⟨ho o hol, rfl⟩
  refine ⟨k1, fun p => ?_⟩
  rw [k2]
  split
  · next hp =>
    simp only [List.mem_map] at hp
    obtain ⟨o, hol, rfl⟩ := hp
    obtain ⟨q1, q2⟩ := ho o hol
    simp only [if_pos (show pinOf o.2 ∈ l.map (fun o => pinOf o.2) from List.mem_map_of_mem hol)]
    simp only [drives, setLatch, q1, q2, if_true]
  · next hp => exact if_neg hp

example := c89_output_partial [((fun _ => true), .write 3 true), ((fun _ => false), .getValue 3), ((fun _ => false), .toggle 3), ((fun _ => true), .getValue 3)]
  (Arduino.outputPin 3 fun _ => ⟨false, false, none, true⟩) (by simp only [List.forall_mem_cons, List.not_mem_nil, false_implies, implies_true, and_true, pinOf]; exact ⟨⟨by decide, by decide⟩, ⟨by decide, by decide⟩, ⟨by decide, by decide⟩, by decide, by decide⟩)

/-- **C89.** The constructors make an output pin (without a value the old latch is the level) that meets the premise of the histories. -/
theorem c89_construct (p : Nat) (v : Bool) (b : Board) (hb : (b p).pwm = none) :
    OutputOk (Arduino.outputPin p b p) ∧ (Arduino.outputPin p b p).latch = (b p).latch ∧ (∀ q, q ≠ p → Arduino.outputPin p b q = b q) ∧
    ∃ b1 b2, Arduino.outputPinWith p v b = [b1, b2] ∧ drives (b2 p) = some (if v then 255 else 0) ∧ OutputOk (b2 p) ∧ ∀ q, q ≠ p → b2 q = b q := by
  refine ⟨by simp [OutputOk, Arduino.outputPin, pinModeOutput, Board.upd, hb], by simp [Arduino.outputPin, pinModeOutput, Board.upd],
    fun q hq => by simp [Arduino.outputPin, pinModeOutput, Board.upd, hq], _, _, rfl, ?_, ?_, ?_⟩
  · simp [drives, digitalWrite, pinModeOutput, Board.upd]
  · simp [OutputOk, digitalWrite, pinModeOutput, Board.upd]
  · intro q hq; simp [digitalWrite, pinModeOutput, Board.upd, hq]

example := c89_construct 9 true (fun _ => ⟨false, true, none, true⟩) rfl

/-- **C89 fails** (glitch): a pin constructed with the value true drives low first, from any board where its latch is low. -/
theorem c89_glitch_fails (p : Nat) (b : Board) (h : (b p).latch = false) (hp : (b p).pwm = none) :
    ∃ b1 b2, Arduino.outputPinWith p true b = [b1, b2] ∧ drives (b1 p) = some 0 ∧ drives (b2 p) = some 255 :=
  ⟨_, _, rfl, by simp [drives, pinModeOutput, Board.upd, h, hp], by simp [drives, digitalWrite, pinModeOutput, Board.upd]⟩

/-- **C89.** An input pin reads the outside level, with and without pull-up; the constructor switches the pull-up off, EnableInternalPullup switches
    it as asked; the pin drives nothing and no other pin changes. -/
theorem c89_input (ext : Nat → Bool) (p : Nat) (e : Bool) (b : Board) :
    (Arduino.inputPin p b p).latch = false ∧ (Arduino.enablePullup p e (Arduino.inputPin p b) p).latch = e ∧
    (Arduino.readInput ext p (Arduino.inputPin p b)).1 = ext p ∧ (Arduino.readInput ext p (Arduino.enablePullup p e (Arduino.inputPin p b))).1 = ext p ∧
    drives ((Arduino.readInput ext p (Arduino.enablePullup p e (Arduino.inputPin p b))).2 p) = none ∧
    ∀ q, q ≠ p → (Arduino.readInput ext p (Arduino.enablePullup p e (Arduino.inputPin p b))).2 q = b q := by
  refine ⟨?_, ?_, ?_, ?_, ?_, fun q hq => ?_⟩ <;>
    simp_all [Arduino.inputPin, Arduino.enablePullup, Arduino.readInput, pinModeInput, digitalWrite, digitalRead, Board.upd, drives]

/-- **C89.** An input pin object whose pin another object has made an output: `Read` returns the level last put into the latch (not the outside level), a PWM on it stops,
    and the pull-up switch drives the pin. From any state of the pin; no other pin changes. -/
theorem c89_input_shared (ext : Nat → Bool) (p : Nat) (e : Bool) (b : Board) (h : (b p).output = true) :
    (Arduino.readInput ext p b).1 = (b p).latch ∧ drives ((Arduino.readInput ext p b).2 p) = some (if (b p).latch then 255 else 0) ∧
    drives (Arduino.enablePullup p e b p) = some (if e then 255 else 0) ∧ ∀ q, q ≠ p → (Arduino.readInput ext p b).2 q = b q := by
  refine ⟨?_, ?_, ?_, fun q hq => ?_⟩ <;> simp_all [Arduino.enablePullup, Arduino.readInput, digitalWrite, digitalRead, Board.upd, drives]

example := c89_input_shared (fun _ => false) 3 true (Arduino.outputPin 3 (fun _ => ⟨false, true, none, true⟩)) (by decide)

/-- **C89.** A pin with a timer drives the duty written to it, all values. -/
theorem c89_pwm (p v : Nat) (hv : v < 256) (b : Board) (ht : (b p).hasTimer = true) :
    drives (Arduino.writeAnalog p v b p) = some v ∧ ∀ q, q ≠ p → Arduino.writeAnalog p v b q = b q := by
  unfold Arduino.writeAnalog analogWrite
  by_cases h0 : v = 0
  · subst h0
    exact ⟨by simp [drives, digitalWrite, pinModeOutput, Board.upd], fun q hq => by simp [digitalWrite, pinModeOutput, Board.upd, hq]⟩
  · by_cases h255 : v = 255
    · subst h255
      exact ⟨by simp [drives, digitalWrite, pinModeOutput, Board.upd], fun q hq => by simp [digitalWrite, pinModeOutput, Board.upd, hq]⟩
    · have t : (pinModeOutput p b p).hasTimer = true := by simp [pinModeOutput, Board.upd, ht]
      simp only [if_neg h0, if_neg h255, t, if_true]
      exact ⟨by simp [drives, pinModeOutput, Board.upd], fun q hq => by simp [pinModeOutput, Board.upd, hq]⟩

example := c89_pwm 9 128 (by decide) (fun _ => ⟨false, true, none, true⟩) rfl

/-- **C89 fails** for PWM pins: asking for "the value that was last written" stops the PWM, whatever was written between 1 and 254. -/
theorem c89_pwm_read_fails (ext : Nat → Bool) (p v : Nat) (h0 : 0 < v) (hv : v < 255) (b : Board) (ht : (b p).hasTimer = true) :
    drives ((Arduino.getValue ext p (Arduino.writeAnalog p v b)).2 p) ≠ drives (Arduino.writeAnalog p v b p) := by
  rw [(c89_pwm p v (by omega) b ht).1]
  have t : (pinModeOutput p b p).hasTimer = true := by simp [pinModeOutput, Board.upd, ht]
  have e : Arduino.writeAnalog p v b = (pinModeOutput p b).upd p fun x => { x with pwm := some v } := by
    simp only [Arduino.writeAnalog, analogWrite, if_neg (show v ≠ 0 by omega), if_neg (show v ≠ 255 by omega), t, if_true]
  rw [e]
  simp only [Arduino.getValue, digitalRead, Board.upd, if_true, drives, pinModeOutput, ne_eq, Option.some.injEq]
  split <;> omega

/-- A board with idle pins that all have a timer. -/
def idleBoard : Board := fun _ => ⟨false, false, none, true⟩

example : (Arduino.run [((fun _ => true), .write 3 true), ((fun _ => false), .getValue 3), ((fun _ => false), .toggle 3), ((fun _ => true), .getValue 3)]
    (Arduino.outputPin 3 idleBoard)).2 = [true, false] := by decide
example : (Arduino.readInput (fun _ => false) 3 (Arduino.outputPin 3 (fun _ => ⟨false, true, none, true⟩))).1 = true := by decide
example : OutputOk (Arduino.outputPin 3 idleBoard 3) := ⟨by decide, by decide⟩

/-! ### C90 streams -/

/-- `n` reads: the results and what is left. -/
def streamReads : Nat → Option (List Nat) → List Int × Option (List Nat)
  | 0, s => ([], s)
  | n + 1, s =>
    let r := Arduino.read s
    let q := streamReads n r.2
    (r.1 :: q.1, q.2)

/-- **C90.** The input adapter: reading delivers the bytes of the Arduino stream in order, then -1, and getLength is the number of bytes (up to the
    65535 that fit the result). -/
theorem c90_read (n : Nat) (l : List Nat) :
    streamReads n (some l) = ((l.take n).map (fun (b : Nat) => (b : Int)) ++ List.replicate (n - l.length) (-1), some (l.drop n)) ∧
    (l.length < 65536 → Arduino.getLength (some l) = l.length) := by
  refine ⟨?_, fun h => by simp only [Arduino.getLength]; unfold toU toS; omega⟩
  induction n generalizing l with
  | zero => simp [streamReads]
  | succ n ih =>
    cases l with
    | nil => simp [streamReads, Arduino.read, Arduino.coreRead, ih, List.replicate_succ]
    | cons b l => simp [streamReads, Arduino.read, Arduino.coreRead, ih]

/-- **C90.** Without a stream (NULL) everything is defined: nothing to read, nothing is written, Clear and Flush return. -/
theorem c90_null (as : List (List Nat)) (v : Nat) : Arduino.read none = (-1, none) ∧ Arduino.getLength none = 0 ∧ Arduino.clear as none = some none ∧
    Arduino.writeStream v none = none ∧ Arduino.flush none = none := ⟨rfl, rfl, rfl, rfl, rfl⟩

/-- **C90.** Clear returns at the first poll that finds the stream empty, and only then; when bytes keep coming as fast as they are read it does not. With
    nothing arriving it needs one poll more than there are bytes. -/
theorem c90_clear (as : List (List Nat)) (l : List Nat) :
    Arduino.clear as (some l) = (if ∃ k, k < as.length ∧ (l ++ (as.take (k + 1)).flatten).length = k then some (some []) else none) := by
  have key : ∀ (as : List (List Nat)) (l : List Nat), Arduino.clearLoop as l =
      (if ∃ k, k < as.length ∧ (l ++ (as.take (k + 1)).flatten).length = k then some [] else none) := by
    intro as
    induction as with
    | nil => intro l; rw [if_neg (by simp)]; rfl
    | cons a as ih =>
      intro l
      unfold Arduino.clearLoop
      cases hla : l ++ a with
      | nil =>
        have h1 : l = [] ∧ a = [] := by simpa using hla
        have hc : ∃ k, k < (a :: as).length ∧ (l ++ ((a :: as).take (k + 1)).flatten).length = k := ⟨0, by simp, by simp [h1]⟩
        rw [if_pos hc]
        simp [Arduino.coreRead]
      | cons b r =>
        have hlen : l.length + a.length = r.length + 1 := by rw [← List.length_append, hla]; rfl
        have hb : (Arduino.coreRead (b :: r)).1 ≠ -1 := by simp only [Arduino.coreRead]; omega
        rw [if_pos hb, show (Arduino.coreRead (b :: r)).2 = r from rfl, ih r]
        refine if_congr ?_ rfl rfl
        constructor
        · rintro ⟨k, hk, e⟩
          refine ⟨k + 1, by simp; omega, ?_⟩
          simp only [List.take_succ_cons, List.flatten_cons, List.length_append] at e ⊢
          omega
        · rintro ⟨k, hk, e⟩
          cases k with
          | zero => simp only [Nat.zero_add, List.take_succ_cons, List.take_zero, List.flatten_cons, List.flatten_nil, List.append_nil, List.length_append] at e; omega
          | succ k =>
            refine ⟨k, by simpa using hk, ?_⟩
            simp only [List.take_succ_cons, List.flatten_cons, List.length_append] at e ⊢
            omega
  show (Arduino.clearLoop as l).map some = _
  rw [key]
  split <;> rfl

example : Arduino.clear (List.replicate 4 []) (some [1, 2, 3]) = some (some []) ∧ Arduino.clear [[], [7], [], [8], []] (some [1]) = some (some []) := by decide

/-- What a program does with an output stream. -/
inductive StreamOp where
  | write (v : Nat)
  | flush

def streamStep (s : Option Arduino.OutCore) : StreamOp → Option Arduino.OutCore
  | .write v => Arduino.writeStream v s
  | .flush => Arduino.flush s

def writtenOf : List StreamOp → List Nat
  | [] => []
  | .write v :: l => v :: writtenOf l
  | .flush :: l => writtenOf l

/-- **C90, partial.** The output adapter: after any history the bytes written are, in order, out or waiting, none lost; after a Flush all are out; the
    length is always 0. Missing: "Removes all content" of Flush (see the `_fails` theorem). -/
theorem c90_write_partial (l : List StreamOp) (s : Arduino.OutCore) :
    ∃ s', l.foldl streamStep (some s) = some s' ∧ s'.out ++ s'.waiting = s.out ++ s.waiting ++ writtenOf l ∧ Arduino.outLength (some s') = 0 ∧
      streamStep (some s') .flush = some ⟨[], s'.out ++ s'.waiting⟩ := by
  induction l generalizing s with
  | nil => exact ⟨s, rfl, by simp [writtenOf], rfl, rfl⟩
  | cons o l ih =>
    cases o with
    | write v =>
      obtain ⟨s', h1, h2, h3⟩ := ih { s with waiting := s.waiting ++ [v] }
      exact ⟨s', h1, by rw [h2]; simp [writtenOf], h3⟩
    | flush =>
      obtain ⟨s', h1, h2, h3⟩ := ih ⟨[], s.out ++ s.waiting⟩
      exact ⟨s', h1, by rw [h2]; simp [writtenOf], h3⟩

/-- **C90 fails** ("Removes all content from the output stream"): Flush sends the content. -/
theorem c90_flush_fails (v : Nat) (l : List Nat) : ∃ s', Arduino.flush (some ⟨v :: l, []⟩) = some s' ∧ s'.out = v :: l := ⟨_, rfl, rfl⟩

/-! ### C91 I2C -/

theorem wire_all (l : List Nat) (t : List Nat) (ht : t.length ≤ bufferLength) : wireWriteAll ⟨t⟩ l = ⟨(t ++ l).take bufferLength⟩ := by
  unfold wireWriteAll
  induction l generalizing t with
  | nil => rw [List.append_nil, List.take_of_length_le ht]; rfl
  | cons b l ih =>
    rw [List.foldl_cons]
    by_cases h : t.length < bufferLength
    · rw [show wireWrite ⟨t⟩ b = ⟨t ++ [b]⟩ from if_pos h, ih (t ++ [b]) (by simp; omega)]; simp
    · rw [show wireWrite ⟨t⟩ b = ⟨t⟩ from if_neg h, ih t ht]
      congr 1
      rw [List.take_append_of_le_length (by omega), List.take_append_of_le_length (by omega)]

/-- **C91, partial.** Up to 32 bytes, whatever Wire held before: the result is true exactly when the slave took all of the bytes, in order; otherwise it took
    a first part of them. Missing: longer arrays (see the `_fails` theorem). -/
theorem c91_write_partial (s : Slave) (w : Wire) (data : List Nat) (length : Nat) (hd : length ≤ data.length) (hl : length ≤ 32) :
    ((Arduino.i2cWriteAll s w data length).1 = true ↔ s ≠ .absent ∧ (Arduino.i2cWriteAll s w data length).2 = data.take length) ∧
    (Arduino.i2cWriteAll s w data length).2 <+: data.take length := by
  have e : wireWriteAll (beginTransmission w) (data.take length) = ⟨data.take length⟩ := by
    unfold beginTransmission
    rw [wire_all _ [] (by simp [bufferLength]), List.nil_append, List.take_of_length_le (by simp [bufferLength]; omega)]
  unfold Arduino.i2cWriteAll
  simp only [e]
  cases s with
  | absent => simp [endTransmission]
  | takes n =>
    simp only [endTransmission]
    split
    · simp
    · next h =>
      simp only [List.length_take, Nat.not_le] at h
      simp only [decide_false, ne_eq, reduceCtorEq, not_false_eq_true, true_and, false_iff, Nat.reduceEqDiff, Bool.false_eq_true]
      refine ⟨fun hh => ?_, List.take_prefix _ _⟩
      have := congrArg List.length hh
      simp only [List.length_take] at this
      omega

example := c91_write_partial (.takes 2) ⟨[1, 2]⟩ [5, 6, 7] 3 (by decide) (by decide)

/-- **C91.** A single byte: true exactly when the slave took it. -/
theorem c91_byte (s : Slave) (w : Wire) (v : Nat) :
    (Arduino.i2cWrite s w v).1 = decide ((Arduino.i2cWrite s w v).2 = [v]) := by
  have e : wireWrite (beginTransmission w) v = ⟨[v]⟩ := by simp [wireWrite, beginTransmission, bufferLength]
  unfold Arduino.i2cWrite
  simp only [e]
  cases s with
  | absent => simp [endTransmission]
  | takes n =>
    simp only [endTransmission]
    cases n <;> simp

/-- **C91 fails** for every array of more than 32 bytes: only the first 32 are sent and the result is still true. -/
theorem c91_long_fails (w : Wire) (data : List Nat) (length n : Nat) (hd : length ≤ data.length) (hl : 32 < length) (hn : 32 ≤ n) :
    Arduino.i2cWriteAll (.takes n) w data length = (true, data.take 32) ∧ data.take 32 ≠ data.take length := by
  have e : wireWriteAll (beginTransmission w) (data.take length) = ⟨data.take 32⟩ := by
    unfold beginTransmission
    rw [wire_all _ [] (by simp [bufferLength]), List.nil_append, List.take_take]
    rw [show min bufferLength length = 32 by unfold bufferLength; omega]
  unfold Arduino.i2cWriteAll
  simp only [e, endTransmission, List.length_take]
  rw [if_pos (by omega)]
  refine ⟨rfl, fun h => ?_⟩
  have := congrArg List.length h
  simp only [List.length_take] at this
  omega

example : 33 ≤ (List.range 33).length ∧ Arduino.i2cWriteAll (.takes 100) ⟨[1, 2]⟩ [5, 6, 7] 3 = (true, [5, 6, 7]) := by decide

/-! ### C92 delays -/

/-- **C92, partial.** Milliseconds are passed on exactly, microseconds up to 65535. -/
theorem c92_wait_partial (t : Nat) (ht : t < 2 ^ 32) : Arduino.waitMilliseconds t = t ∧ (t < 65536 → Arduino.waitMicroseconds t = t) := by
  unfold Arduino.waitMilliseconds Arduino.waitMicroseconds toU
  omega

/-- **C92 fails** for every longer wait in microseconds: it is shorter than asked for. -/
theorem c92_wait_fails (t : Nat) (ht : t < 2 ^ 32) (h : 65536 ≤ t) : Arduino.waitMicroseconds t < t ∧ Arduino.waitMicroseconds 65536 = 0 := by
  unfold Arduino.waitMicroseconds toU
  omega

end Atl.Props
