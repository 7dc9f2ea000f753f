import Verif.Model.MotorBoard
import Verif.Props.Motor
import Verif.Props.AnalogPin

/- Property theorems C136: the motors of a car on the pins of an Arduino board. -/
namespace Atl.Props
open Atl.Motor Atl.Spec.Motor Atl.Spec.Arduino Atl.MotorBoard

/-! ### Specification: what the chip sees on three pins of the board. -/

/-- The chip sees these levels on IN1 and IN2 and this duty (in 255ths) on PWM. -/
structure Sees (b : Board) (p : Pins) (in1 in2 : Bool) (duty : Nat) : Prop where
  in1 : drives (b p.in1) = some (if in1 then 255 else 0)
  in2 : drives (b p.in2) = some (if in2 then 255 else 0)
  pwm : drives (b p.pwm) = some duty

/-- The motor turns in the direction `cw` with this duty. -/
def Turns (b : Board) (p : Pins) (cw : Bool) (duty : Nat) : Prop := 0 < duty ∧ ∃ i1 i2, Sees b p i1 i2 duty ∧ mode i1 i2 = (if cw then .cw else .ccw)

/-- A request with speed 1 for 0, the slowest the driver can do. -/
def slowest : Request → Request
  | .turn cw s => .turn cw (max s 1)
  | r => r

/-- Speeds are bytes. -/
def byteSpeed : Request → Prop
  | .turn _ s => s < 256
  | _ => True

/-- The chip serves a request, the slowest speed for 0. -/
def ChipServes (b : Board) (p : Pins) (r : Request) : Prop := ∃ i1 i2 d, Sees b p i1 i2 d ∧ Serves i1 i2 d (slowest r)

/-- The pin numbers of a motor. -/
def motorPins (p : Pins) : List Nat := [p.in1, p.in2, p.pwm]

namespace Car

/-- The levels a request asks for. -/
def ins : Request → Bool × Bool
  | .stop => (false, false)
  | .brake => (true, true)
  | .turn cw _ => (cw, !cw)

def speed : Request → Nat
  | .turn _ s => max s 1
  | _ => 1

theorem send_args (p : Pins) (r : Request) (b : Board) : command p (motorCmd r) b =
    [digitalWrite p.in1 (ins r).1 b, digitalWrite p.in2 (ins r).2 (digitalWrite p.in1 (ins r).1 b),
     analogWrite p.pwm (speed r) (digitalWrite p.in2 (ins r).2 (digitalWrite p.in1 (ins r).1 b))] := by
  cases r with
  | stop => rfl
  | brake => rfl
  | turn cw s =>
    rcases Nat.eq_zero_or_pos s with h | h
    · subst h; cases cw <;> rfl
    · have : max s 1 = s := by omega
      cases cw <;> simp [MotorBoard.command, MotorBoard.send, motorCmd, args, ins, speed, Arduino.write, Arduino.writeAnalog, h, this]

theorem dw_same (p : Nat) (v : Bool) (b : Board) (h : (b p).output = true) : drives (digitalWrite p v b p) = some (if v then 255 else 0) := by
  simp [digitalWrite, Board.upd, drives, h]

theorem dw_other (p : Nat) (v : Bool) (b : Board) (q : Nat) (h : q ≠ p) : digitalWrite p v b q = b q := by simp [digitalWrite, Board.upd, h]

/-- The pins of a motor are outputs, the PWM pin has a timer. -/
structure Ready (b : Board) (p : Pins) : Prop where
  in1 : (b p.in1).output = true
  in2 : (b p.in2).output = true
  timer : (b p.pwm).hasTimer = true

theorem speed_byte {r : Request} (h : byteSpeed r) : speed r < 256 := by
  cases r with
  | turn cw s => simp only [byteSpeed] at h; simp only [speed]; omega
  | _ => decide

theorem out_kept (p v : Nat) (b : Board) (q : Nat) : ((analogWrite p v b q).output = ((b q).output || decide (q = p))) ∧ (analogWrite p v b q).hasTimer = (b q).hasTimer := by
  by_cases h : q = p
  · subst h
    unfold analogWrite pinModeOutput digitalWrite
    simp only
    split_ifs <;> simp [Board.upd]
  · rw [analogWrite_other _ _ _ _ h]; simp [h]

theorem dw_kept (p : Nat) (v : Bool) (b : Board) (q : Nat) : (digitalWrite p v b q).output = (b q).output ∧ (digitalWrite p v b q).hasTimer = (b q).hasTimer := by
  by_cases h : q = p <;> simp [digitalWrite, Board.upd, h]

/-- The three moments of a command. -/
theorem command_moments (p : Pins) (hp : p.in1 ≠ p.in2 ∧ p.in1 ≠ p.pwm ∧ p.in2 ≠ p.pwm) (r : Request) (hr : byteSpeed r) (b : Board) (hb : Ready b p) :
    ∃ b1 b2 b3, command p (motorCmd r) b = [b1, b2, b3] ∧
      (∀ i1 i2 d, Sees b p i1 i2 d → Sees b1 p (ins r).1 i2 d ∧ Sees b2 p (ins r).1 (ins r).2 d) ∧ Sees b3 p (ins r).1 (ins r).2 (speed r) ∧
      (∀ x ∈ [b1, b2, b3], ∀ q, q ∉ motorPins p → x q = b q) ∧
      (∀ x ∈ [b1, b2, b3], ∀ q, ((b q).output = true → (x q).output = true) ∧ (x q).hasTimer = (b q).hasTimer) := by
  obtain ⟨n1, n2, n3⟩ := hp
  obtain ⟨o1, o2, ot⟩ := hb
  refine ⟨_, _, _, send_args p r b, ?_, ?_, ?_, ?_⟩
  · rintro i1 i2 d ⟨s1, s2, s3⟩
    have e1 := dw_same p.in1 (ins r).1 b o1
    refine ⟨⟨e1, ?_, ?_⟩, ⟨?_, ?_, ?_⟩⟩
    · rw [dw_other _ _ _ _ (Ne.symm n1)]; exact s2
    · rw [dw_other _ _ _ _ (Ne.symm n2)]; exact s3
    · rw [dw_other _ _ _ _ n1]; exact e1
    · exact dw_same _ _ _ (by rw [(dw_kept _ _ _ _).1]; exact o2)
    · rw [dw_other _ _ _ _ (Ne.symm n3), dw_other _ _ _ _ (Ne.symm n2)]; exact s3
  · refine ⟨?_, ?_, ?_⟩
    · rw [analogWrite_other _ _ _ _ n2, dw_other _ _ _ _ n1]; exact dw_same _ _ _ o1
    · rw [analogWrite_other _ _ _ _ n3]; exact dw_same _ _ _ (by rw [(dw_kept _ _ _ _).1]; exact o2)
    · exact (analogOk_write (speed_byte hr) (by rw [(dw_kept _ _ _ _).2, (dw_kept _ _ _ _).2]; exact ot)).drives
  · intro x hx q hq
    simp only [motorPins, List.mem_cons, List.not_mem_nil, or_false, not_or] at hq
    simp only [List.mem_cons, List.not_mem_nil, or_false] at hx
    rcases hx with rfl | rfl | rfl
    · exact dw_other _ _ _ _ hq.1
    · rw [dw_other _ _ _ _ hq.2.1, dw_other _ _ _ _ hq.1]
    · rw [analogWrite_other _ _ _ _ hq.2.2, dw_other _ _ _ _ hq.2.1, dw_other _ _ _ _ hq.1]
  · intro x hx q
    simp only [List.mem_cons, List.not_mem_nil, or_false] at hx
    rcases hx with rfl | rfl | rfl
    · exact ⟨fun h => by rw [(dw_kept _ _ _ _).1]; exact h, (dw_kept _ _ _ _).2⟩
    · exact ⟨fun h => by rw [(dw_kept _ _ _ _).1, (dw_kept _ _ _ _).1]; exact h, by rw [(dw_kept _ _ _ _).2, (dw_kept _ _ _ _).2]⟩
    · exact ⟨fun h => by rw [(out_kept _ _ _ _).1, (dw_kept _ _ _ _).1, (dw_kept _ _ _ _).1, h]; rfl,
        by rw [(out_kept _ _ _ _).2, (dw_kept _ _ _ _).2, (dw_kept _ _ _ _).2]⟩

theorem ins_serves (r : Request) : Serves (ins r).1 (ins r).2 (speed r) (slowest r) := by
  cases r with
  | turn cw s => cases cw <;> exact ⟨rfl, rfl⟩
  | _ => rfl

theorem Sees.congr {b b' : Board} {p : Pins} (h : ∀ q ∈ motorPins p, b' q = b q) {i1 i2 : Bool} {d : Nat} (s : Sees b p i1 i2 d) : Sees b' p i1 i2 d :=
  ⟨by rw [h _ (by simp [motorPins])]; exact s.in1, by rw [h _ (by simp [motorPins])]; exact s.in2, by rw [h _ (by simp [motorPins])]; exact s.pwm⟩

theorem not_mine {ps : Nat → Pins} (hd : DistinctPins ps) {m k : Nat} (h : m ≠ k) {q : Nat} (hq : q ∈ motorPins (ps m)) : q ∉ motorPins (ps k) :=
  fun hk => hd.2 m k h q hq q hk rfl

theorem after_history (ps : Nat → Pins) (m : Nat) (c : Cmd) (l : List (Nat × Cmd)) (b : Board) :
    after b (history ps ((m, c) :: l) b) = after (after b (command (ps m) c b)) (history ps l (after b (command (ps m) c b))) := by
  simp only [history, after, List.getLast?_append]
  cases (history ps l _).getLast? <;> simp

/-- What a history of requests leaves at the end. -/
theorem history_end (ps : Nat → Pins) (hd : DistinctPins ps) : ∀ (l : List (Nat × Request)) (b : Board) (o : Nat → Option Request),
    (∀ x ∈ l, byteSpeed x.2) → (∀ x ∈ l, Ready b (ps x.1)) → (∀ m r, o m = some r → ChipServes b (ps m) r) →
    (∀ m r, lastRequest m l (o m) = some r → ChipServes (after b (history ps (l.map fun x => (x.1, motorCmd x.2)) b)) (ps m) r) ∧
    ∀ q, (∀ x ∈ l, q ∉ motorPins (ps x.1)) → after b (history ps (l.map fun x => (x.1, motorCmd x.2)) b) q = b q
  | [], b, o, _, _, h => ⟨h, fun _ _ => rfl⟩
  | (k, r) :: l, b, o, hs, hb, h => by
    obtain ⟨b1, b2, b3, e, -, c3, c4, c5⟩ := command_moments (ps k) (hd.1 k) r (hs (k, r) (by simp)) b (hb (k, r) (by simp))
    have ea : after b (command (ps k) (motorCmd r) b) = b3 := by rw [e]; rfl
    have step := history_end ps hd l b3 (fun m => if k = m then some r else o m) (fun x hx => hs x (by simp [hx])) (fun x hx => by
      have hx := hb x (by simp [hx])
      exact ⟨(c5 b3 (by simp) _).1 hx.in1, (c5 b3 (by simp) _).1 hx.in2, by rw [(c5 b3 (by simp) _).2]; exact hx.timer⟩) (fun m q hq => by
      by_cases hm : k = m
      · subst hm
        simp only [if_true, Option.some.injEq] at hq
        subst hq
        exact ⟨_, _, _, c3, ins_serves r⟩
      · rw [if_neg hm] at hq
        obtain ⟨i1, i2, d, s1, s2⟩ := h m q hq
        exact ⟨i1, i2, d, Sees.congr (fun x hx => c4 b3 (by simp) x (not_mine hd (Ne.symm hm) hx)) s1, s2⟩)
    rw [List.map_cons, after_history, ea]
    refine ⟨fun m q hq => step.1 m q hq, fun q hq => ?_⟩
    rw [step.2 q (fun x hx => hq x (by simp [hx])), c4 b3 (by simp) q (hq (k, r) (by simp))]

theorem construct_eq (p : Pins) (b : Board) : ∃ b1 b2 b3, construct p b = [b1, b2, b3] ∧
    (∀ x ∈ [b1, b2, b3], ∀ q, ((b q).output = true → (x q).output = true) ∧ (x q).latch = (b q).latch ∧ (x q).pwm = (b q).pwm ∧ (x q).hasTimer = (b q).hasTimer) ∧
    (∀ x ∈ [b1, b2, b3], ∀ q, q ∉ motorPins p → x q = b q) ∧ ∀ q ∈ motorPins p, (b3 q).output = true := by
  refine ⟨_, _, _, rfl, ?_, ?_, ?_⟩
  · intro x hx q
    simp only [List.mem_cons, List.not_mem_nil, or_false] at hx
    rcases hx with rfl | rfl | rfl <;> simp only [Arduino.outputPin, pinModeOutput, Board.upd] <;> split_ifs <;> simp
  · intro x hx q hq
    simp only [motorPins, List.mem_cons, List.not_mem_nil, or_false, not_or] at hq
    simp only [List.mem_cons, List.not_mem_nil, or_false] at hx
    rcases hx with rfl | rfl | rfl <;> simp [Arduino.outputPin, pinModeOutput, Board.upd, hq.1, hq.2.1, hq.2.2]
  · intro q hq
    simp only [motorPins, List.mem_cons, List.not_mem_nil, or_false] at hq
    rcases hq with rfl | rfl | rfl <;> simp only [Arduino.outputPin, pinModeOutput, Board.upd] <;> split_ifs <;> simp_all

theorem setup_spec (ps : Nat → Pins) : ∀ (ms : List Nat) (b : Board),
    (∀ x ∈ setup ps ms b, ∀ q, ((b q).output = true → (x q).output = true) ∧ (x q).latch = (b q).latch ∧ (x q).pwm = (b q).pwm ∧ (x q).hasTimer = (b q).hasTimer) ∧
    (∀ q, (after b (setup ps ms b) q).hasTimer = (b q).hasTimer ∧ ((b q).output = true → (after b (setup ps ms b) q).output = true)) ∧
    (∀ m ∈ ms, ∀ q ∈ motorPins (ps m), (after b (setup ps ms b) q).output = true) ∧
    ∀ q, (∀ m ∈ ms, q ∉ motorPins (ps m)) → after b (setup ps ms b) q = b q
  | [], b => ⟨fun x hx => by simp [setup] at hx, fun q => ⟨rfl, fun h => h⟩, fun m hm => by simp at hm, fun _ _ => rfl⟩
  | m :: ms, b => by
    obtain ⟨b1, b2, b3, e, c1, c2, c3⟩ := construct_eq (ps m) b
    have ea : after b (construct (ps m) b) = b3 := by rw [e]; rfl
    have ef : after b (setup ps (m :: ms) b) = after b3 (setup ps ms b3) := by
      have e1 : setup ps (m :: ms) b = construct (ps m) b ++ setup ps ms b3 := by rw [setup, ea]
      rw [e1, e]
      unfold after
      rw [List.getLast?_append]
      cases (setup ps ms b3).getLast? <;> simp
    obtain ⟨s1, s2, s3, s4⟩ := setup_spec ps ms b3
    have k := c1 b3 (by simp)
    refine ⟨?_, ?_, ?_, ?_⟩
    · intro x hx q
      simp only [setup, ea, e, List.mem_append] at hx
      rcases hx with hx | hx
      · exact c1 x hx q
      · obtain ⟨t1, t2, t3, t4⟩ := s1 x hx q
        exact ⟨fun h => t1 ((k q).1 h), t2.trans (k q).2.1, t3.trans (k q).2.2.1, t4.trans (k q).2.2.2⟩
    · intro q
      rw [ef]
      exact ⟨(s2 q).1.trans (k q).2.2.2, fun h => (s2 q).2 ((k q).1 h)⟩
    · intro i hi q hq
      rw [ef]
      rcases List.mem_cons.1 hi with rfl | hi
      · exact (s2 q).2 (c3 q hq)
      · exact s3 i hi q hq
    · intro q hq
      rw [ef, s4 q (fun i hi => hq i (by simp [hi])), c2 b3 (by simp) q (hq m (by simp))]
end Car

/-- **C136, partial.** Any motors on distinct pins of any board in any state, the PWM pins with timers: after the constructors and any history of commands to them the chip
    sees at every motor the last request made to it, and pins of no motor are untouched. Missing: speed 0, which is speed 1 (`slowest`, C48). -/
theorem c136_car_partial (ps : Nat → Pins) (hd : DistinctPins ps) (ms : List Nat) (b : Board) (ht : ∀ m ∈ ms, (b (ps m).pwm).hasTimer = true)
    (l : List (Nat × Request)) (hm : ∀ x ∈ l, x.1 ∈ ms) (hs : ∀ x ∈ l, byteSpeed x.2) :
    (∀ m r, lastRequest m l none = some r →
      ChipServes (after (after b (setup ps ms b)) (history ps (l.map fun x => (x.1, motorCmd x.2)) (after b (setup ps ms b)))) (ps m) r) ∧
    ∀ q, (∀ m ∈ ms, q ∉ motorPins (ps m)) → after (after b (setup ps ms b)) (history ps (l.map fun x => (x.1, motorCmd x.2)) (after b (setup ps ms b))) q = b q := by
  obtain ⟨-, s2, s3, s4⟩ := Car.setup_spec ps ms b
  have h := Car.history_end ps hd l (after b (setup ps ms b)) (fun _ => none) hs
    (fun x hx => ⟨s3 _ (hm x hx) _ (by simp [motorPins]), s3 _ (hm x hx) _ (by simp [motorPins]), by rw [(s2 _).1]; exact ht _ (hm x hx)⟩) (by simp)
  exact ⟨h.1, fun q hq => by rw [h.2 q (fun x hx => hq _ (hm x hx)), s4 q hq]⟩

/-- **C136.** After a reset (no pin pulled up or with a running timer) no motor turns at any moment of the constructors. -/
theorem c136_start (ps : Nat → Pins) (ms : List Nat) (b : Board) (hb : ∀ q, (b q).latch = false ∧ (b q).pwm = none) :
    ∀ x ∈ setup ps ms b, ∀ p cw d, ¬ Turns x p cw d := by
  rintro x hx p cw d ⟨hd, i1, i2, s, -⟩
  obtain ⟨-, t2, t3, -⟩ := (Car.setup_spec ps ms b).1 x hx p.pwm
  have := s.pwm
  rw [drives, t2, t3, (hb _).1, (hb _).2] at this
  cases ho : (x p.pwm).output
  · simp [ho] at this
  · simp [ho] at this
    omega

/-- **C136.** The moments of a command: the other pins never change; the motor first sees the new IN1 with the old IN2, then the new function, both with the old duty, and then
    the new duty. -/
theorem c136_moments (p : Pins) (hp : p.in1 ≠ p.in2 ∧ p.in1 ≠ p.pwm ∧ p.in2 ≠ p.pwm) (r : Request) (hr : byteSpeed r) (b : Board)
    (ho : (b p.in1).output = true ∧ (b p.in2).output = true) (ht : (b p.pwm).hasTimer = true) (i1 i2 : Bool) (d : Nat) (hs : Sees b p i1 i2 d) :
    ∃ b1 b2 b3 n1 n2 e, command p (motorCmd r) b = [b1, b2, b3] ∧ Serves n1 n2 e (slowest r) ∧
      Sees b1 p n1 i2 d ∧ Sees b2 p n1 n2 d ∧ Sees b3 p n1 n2 e ∧ ∀ x ∈ [b1, b2, b3], ∀ q, q ∉ motorPins p → x q = b q := by
  obtain ⟨b1, b2, b3, e, c1, c3, c4, -⟩ := Car.command_moments p hp r hr b ⟨ho.1, ho.2, ht⟩
  exact ⟨b1, b2, b3, _, _, _, e, Car.ins_serves r, (c1 i1 i2 d hs).1, (c1 i1 i2 d hs).2, c3, c4⟩

theorem Sees.unique {b : Board} {p : Pins} {i1 i2 j1 j2 : Bool} {d e : Nat} (h : Sees b p i1 i2 d) (k : Sees b p j1 j2 e) : i1 = j1 ∧ i2 = j2 ∧ d = e := by
  have h1 := h.in1.symm.trans k.in1
  have h2 := h.in2.symm.trans k.in2
  have h3 := h.pwm.symm.trans k.pwm
  refine ⟨?_, ?_, by simpa using h3⟩
  · cases i1 <;> cases j1 <;> simp_all
  · cases i2 <;> cases j2 <;> simp_all

/-- **C136, exact.** A motor serving `old` with a duty is given `r`: at some moment of the command it turns in a direction that neither of the two asks for exactly if it goes from
    Stop to Break or back. -/
theorem c136_direction_iff (p : Pins) (hp : p.in1 ≠ p.in2 ∧ p.in1 ≠ p.pwm ∧ p.in2 ≠ p.pwm) (r old : Request) (hr : byteSpeed r) (b : Board)
    (ho : (b p.in1).output = true ∧ (b p.in2).output = true) (ht : (b p.pwm).hasTimer = true) (i1 i2 : Bool) (d : Nat) (hd : 0 < d) (hs : Sees b p i1 i2 d)
    (hold : Serves i1 i2 d old) :
    (∃ x ∈ command p (motorCmd r) b, ∃ cw s, Turns x p cw s ∧ (∀ v, old ≠ .turn cw v) ∧ ∀ v, r ≠ .turn cw v) ↔ (old = .stop ∧ r = .brake) ∨ (old = .brake ∧ r = .stop) := by
  obtain ⟨b1, b2, b3, n1, n2, e, e0, sv, s1, s2, s3, -⟩ := c136_moments p hp r hr b ho ht i1 i2 d hs
  rw [e0]
  constructor
  · rintro ⟨x, hx, cw, s, ⟨hpos, j1, j2, sj, mj⟩, h1, h2⟩
    simp only [List.mem_cons, List.not_mem_nil, or_false] at hx
    rcases hx with rfl | rfl | rfl
    · obtain ⟨rfl, rfl, rfl⟩ := s1.unique sj
      cases old with
      | turn c v => cases r with
        | turn c' v' =>
          have a1 : c ≠ cw := fun h => h1 v (by rw [h])
          have a2 : c' ≠ cw := fun h => h2 v' (by rw [h])
          revert a1 a2 mj
          obtain ⟨hold, -⟩ := hold
          obtain ⟨sv, -⟩ := sv
          revert hold sv
          cases c <;> cases c' <;> cases cw <;> cases i1 <;> cases i2 <;> cases n1 <;> cases n2 <;> simp [mode]
        | stop =>
          have a1 : c ≠ cw := fun h => h1 v (by rw [h])
          obtain ⟨hold, -⟩ := hold
          revert a1 mj hold sv
          cases c <;> cases cw <;> cases i1 <;> cases i2 <;> cases n1 <;> cases n2 <;> simp [mode, Serves, slowest]
        | brake =>
          have a1 : c ≠ cw := fun h => h1 v (by rw [h])
          obtain ⟨hold, -⟩ := hold
          revert a1 mj hold sv
          cases c <;> cases cw <;> cases i1 <;> cases i2 <;> cases n1 <;> cases n2 <;> simp [mode, Serves, slowest]
      | stop => cases r with
        | turn c' v' =>
          have a2 : c' ≠ cw := fun h => h2 v' (by rw [h])
          obtain ⟨sv, -⟩ := sv
          revert a2 mj hold sv
          cases c' <;> cases cw <;> cases i1 <;> cases i2 <;> cases n1 <;> cases n2 <;> simp [mode, Serves]
        | stop =>
          revert mj hold sv
          cases cw <;> cases i1 <;> cases i2 <;> cases n1 <;> cases n2 <;> simp [mode, Serves, slowest]
        | brake => simp
      | brake => cases r with
        | turn c' v' =>
          have a2 : c' ≠ cw := fun h => h2 v' (by rw [h])
          obtain ⟨sv, -⟩ := sv
          revert a2 mj hold sv
          cases c' <;> cases cw <;> cases i1 <;> cases i2 <;> cases n1 <;> cases n2 <;> simp [mode, Serves]
        | stop => simp
        | brake =>
          revert mj hold sv
          cases cw <;> cases i1 <;> cases i2 <;> cases n1 <;> cases n2 <;> simp [mode, Serves, slowest]
    all_goals
      exfalso
      first
        | obtain ⟨rfl, rfl, rfl⟩ := s2.unique sj
        | obtain ⟨rfl, rfl, rfl⟩ := s3.unique sj
      cases r with
      | turn c' v' =>
        have a2 : c' ≠ cw := fun h => h2 v' (by rw [h])
        obtain ⟨sv, -⟩ := sv
        revert a2 mj sv
        cases c' <;> cases cw <;> cases n1 <;> cases n2 <;> simp [mode]
      | stop => revert mj sv; cases cw <;> cases n1 <;> cases n2 <;> simp [mode, Serves, slowest]
      | brake => revert mj sv; cases cw <;> cases n1 <;> cases n2 <;> simp [mode, Serves, slowest]
  · rintro (⟨rfl, rfl⟩ | ⟨rfl, rfl⟩)
    · refine ⟨b1, by simp, true, d, ⟨hd, _, _, s1, ?_⟩, by simp, by simp⟩
      revert hold sv
      cases i1 <;> cases i2 <;> cases n1 <;> cases n2 <;> simp [mode, Serves, slowest]
    · refine ⟨b1, by simp, false, d, ⟨hd, _, _, s1, ?_⟩, by simp, by simp⟩
      revert hold sv
      cases i1 <;> cases i2 <;> cases n1 <;> cases n2 <;> simp [mode, Serves, slowest]

/-- **C136 fails** between commands: after Break a Stop turns the motor counter-clockwise for a moment, after Stop a Break clockwise, and reversing a motor runs it with the old
    speed in the new direction for a moment; on every board and all pins. -/
theorem c136_jerk_fails (p : Pins) (hp : p.in1 ≠ p.in2 ∧ p.in1 ≠ p.pwm ∧ p.in2 ≠ p.pwm) (b : Board) (ho : (b p.in1).output = true ∧ (b p.in2).output = true)
    (ht : (b p.pwm).hasTimer = true) :
    (∃ x ∈ command p .stop (after b (command p .brake b)), Turns x p false 1) ∧ (∃ x ∈ command p .brake (after b (command p .stop b)), Turns x p true 1) ∧
    ∀ s t, 0 < s → s < 256 → t < 256 → ∃ x ∈ command p (.counterClockwise t) (after b (command p (.clockwise s) b)), Turns x p false s := by
  have base : ∀ r, byteSpeed r → ∃ c, after b (command p (motorCmd r) b) = c ∧ Sees c p (Car.ins r).1 (Car.ins r).2 (Car.speed r) ∧ Car.Ready c p := by
    intro r hr
    obtain ⟨b1, b2, b3, e, -, c3, -, c5⟩ := Car.command_moments p hp r hr b ⟨ho.1, ho.2, ht⟩
    refine ⟨b3, by rw [e]; rfl, c3, (c5 b3 (by simp) _).1 ho.1, (c5 b3 (by simp) _).1 ho.2, by rw [(c5 b3 (by simp) _).2]; exact ht⟩
  refine ⟨?_, ?_, ?_⟩
  · obtain ⟨c, hc, h1, h2⟩ := base .brake trivial
    obtain ⟨b1, b2, b3, e, c1, -⟩ := Car.command_moments p hp .stop trivial c h2
    refine ⟨b1, ?_, by decide, _, _, (c1 _ _ _ h1).1, rfl⟩
    rw [show command p .brake b = command p (motorCmd .brake) b from rfl, hc, show command p .stop c = command p (motorCmd .stop) c from rfl, e]
    simp
  · obtain ⟨c, hc, h1, h2⟩ := base .stop trivial
    obtain ⟨b1, b2, b3, e, c1, -⟩ := Car.command_moments p hp .brake trivial c h2
    refine ⟨b1, ?_, by decide, _, _, (c1 _ _ _ h1).1, rfl⟩
    rw [show command p .stop b = command p (motorCmd .stop) b from rfl, hc, show command p .brake c = command p (motorCmd .brake) c from rfl, e]
    simp
  · intro s t h0 h1' h2'
    obtain ⟨c, hc, h1, h2⟩ := base (.turn true s) h1'
    obtain ⟨b1, b2, b3, e, c1, -⟩ := Car.command_moments p hp (.turn false t) h2' c h2
    have hsp : Car.speed (.turn true s) = s := by simp only [Car.speed]; omega
    rw [hsp] at h1
    refine ⟨b2, ?_, h0, _, _, (c1 _ _ _ h1).2, rfl⟩
    rw [show command p (.clockwise s) b = command p (motorCmd (.turn true s)) b from rfl, hc,
      show command p (.counterClockwise t) c = command p (motorCmd (.turn false t)) c from rfl, e]
    simp

/-- **C136 fails** on a pin without timer: every speed below 128 stands still and every other is full speed. -/
theorem c136_no_timer_fails (p : Pins) (s : Nat) (hs : s < 256) (b : Board) (ht : (b p.pwm).hasTimer = false) :
    drives (after b (command p (.clockwise s) b) p.pwm) = some (if s < 128 then 0 else 255) := by
  rw [show command p (.clockwise s) b = command p (motorCmd (.turn true s)) b from rfl, Car.send_args]
  have hk : ∀ c : Board, (c p.pwm).hasTimer = false → ∀ v, 0 < v → v < 256 → drives (analogWrite p.pwm v c p.pwm) = some (if v < 128 then 0 else 255) := by
    intro c hc v h0 hv
    have h0' : v ≠ 0 := by omega
    by_cases h1 : v = 255
    · simp [analogWrite, pinModeOutput, digitalWrite, Board.upd, drives, h1]
    · by_cases h2 : 128 ≤ v
      · have : ¬ v < 128 := by omega
        simp [analogWrite, pinModeOutput, digitalWrite, Board.upd, drives, h0', h1, hc, h2, this]
      · have : v < 128 := by omega
        simp [analogWrite, pinModeOutput, digitalWrite, Board.upd, drives, h0', h1, hc, h2, this]
  have := hk (digitalWrite p.in2 (Car.ins (.turn true s)).2 (digitalWrite p.in1 (Car.ins (.turn true s)).1 b))
    (by rw [(Car.dw_kept _ _ _ _).2, (Car.dw_kept _ _ _ _).2]; exact ht) (Car.speed (.turn true s)) (by simp only [Car.speed]; omega) (Car.speed_byte (r := .turn true s) hs)
  simp only [after, List.getLast?_cons_cons, List.getLast?_singleton, Option.getD_some]
  rw [this]
  have e : (max s 1 < 128) = (s < 128) := propext (by omega)
  simp only [Car.speed, e]

/-! ### The car of docs/Principles and Practices.md on an Arduino Uno -/

/-- `TB6612FNG_Driver<8, 9, 10>` and `TB6612FNG_Driver<7, 6, 5>`; further motors would sit elsewhere. -/
def carPins : Nat → Pins
  | 0 => ⟨8, 9, 10⟩
  | 1 => ⟨7, 6, 5⟩
  | m => ⟨3 * m + 20, 3 * m + 21, 3 * m + 22⟩

/-- An Uno after reset: timers on 3, 5, 6, 9, 10, 11. -/
def uno : Board := fun p => ⟨false, false, none, p == 3 || p == 5 || p == 6 || p == 9 || p == 10 || p == 11⟩

theorem carPins_distinct : DistinctPins carPins := by
  refine ⟨fun m => ?_, fun m k h x hx y hy => ?_⟩
  · rcases m with _ | _ | m <;> simp [carPins]
  · rcases m with _ | _ | m <;> rcases k with _ | _ | k <;> simp [carPins] at hx hy h <;> rcases hx with rfl | rfl | rfl <;> rcases hy with rfl | rfl | rfl <;> omega

/-- The car drives forward, turns and stops: hypotheses of `c136_car_partial` and what the chip sees. -/
example : (∀ m ∈ [0, 1], (uno (carPins m).pwm).hasTimer = true) ∧
    ∀ m r, lastRequest m [(0, .turn true 200), (1, .turn false 200), (0, .turn true 80), (1, .stop)] none = some r →
      ChipServes (after (after uno (setup carPins [0, 1] uno)) (history carPins
        ([(0, .turn true 200), (1, .turn false 200), (0, .turn true 80), (1, .stop)].map fun x => (x.1, motorCmd x.2)) (after uno (setup carPins [0, 1] uno)))) (carPins m) r :=
  ⟨by decide, (c136_car_partial carPins carPins_distinct [0, 1] uno (by decide) _ (by decide) (by simp [byteSpeed])).1⟩

example : ((history carPins [(0, .clockwise 200), (1, .counterClockwise 30), (0, .counterClockwise 80)] (after uno (setup carPins [0, 1] uno))).map
    fun b => [8, 9, 10, 7, 6, 5].map fun q => drives (b q)) =
    [[some 255, some 0, some 0, some 0, some 0, some 0], [some 255, some 0, some 0, some 0, some 0, some 0], [some 255, some 0, some 200, some 0, some 0, some 0],
     [some 255, some 0, some 200, some 0, some 0, some 0], [some 255, some 0, some 200, some 0, some 255, some 0], [some 255, some 0, some 200, some 0, some 255, some 30],
     [some 0, some 0, some 200, some 0, some 255, some 30], [some 0, some 255, some 200, some 0, some 255, some 30], [some 0, some 255, some 80, some 0, some 255, some 30]] := by
  decide

/-- A turning motor of the car is reversed, and a braking one stopped (`c136_moments`, `c136_direction_iff`). -/
example : let b := after (after uno (setup carPins [0, 1] uno)) (history carPins [(0, .clockwise 200), (1, .brake)] (after uno (setup carPins [0, 1] uno)))
    ((b 8).output = true ∧ (b 9).output = true) ∧ ((b 7).output = true ∧ (b 6).output = true) ∧ (b 10).hasTimer = true ∧ (b 5).hasTimer = true ∧
    Sees b ⟨8, 9, 10⟩ true false 200 ∧ Serves true false 200 (.turn true 200) ∧ Sees b ⟨7, 6, 5⟩ true true 1 ∧ Serves true true 1 .brake :=
  ⟨by decide, by decide, by decide, by decide, ⟨by decide, by decide, by decide⟩, ⟨by decide, by decide⟩, ⟨by decide, by decide, by decide⟩, by unfold Serves; decide⟩

/-- After a reset the constructors start no motor (`c136_start`). -/
example : ∀ q, (uno q).latch = false ∧ (uno q).pwm = none := fun _ => ⟨rfl, rfl⟩

end Atl.Props
