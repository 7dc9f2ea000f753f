import Verif.Model.Motor
import Verif.Spec.Motor
import Verif.Props.Bits
import Verif.Props.Serial3Wire

/- Property theorem C48: TB6612FNG motor drivers. -/
namespace Atl.Props
open Atl.Motor Atl.Spec.Motor Atl.Bits

/-- The command of the library for a request. -/
def motorCmd : Request → Cmd
  | .stop => .stop
  | .brake => .brake
  | .turn true s => .clockwise s
  | .turn false s => .counterClockwise s

/-- The levels of the board pins after writes. -/
def board (f : Nat → Nat) (l : List PinWrite) : Nat → Nat := l.foldl (fun f w => fun p => if p = w.pin then w.value else f p) f

/-- The pins of a motor carry a request. -/
def PinsServe (f : Nat → Nat) (p : Pins) (r : Request) : Prop :=
  ∃ a b : Bool, f p.in1 = a.toNat ∧ f p.in2 = b.toNat ∧ Serves a b (f p.pwm) r

/-- A history of requests to motors with the pins `ps`: which motor, what. -/
def drive (ps : Nat → Pins) (l : List (Nat × Request)) : List PinWrite := l.flatMap (fun x => command (ps x.1) (motorCmd x.2))

/-- All pins of all motors are different. -/
def DistinctPins (ps : Nat → Pins) : Prop :=
  (∀ m, (ps m).in1 ≠ (ps m).in2 ∧ (ps m).in1 ≠ (ps m).pwm ∧ (ps m).in2 ≠ (ps m).pwm) ∧
  ∀ m k, m ≠ k → ∀ x ∈ [(ps m).in1, (ps m).in2, (ps m).pwm], ∀ y ∈ [(ps k).in1, (ps k).in2, (ps k).pwm], x ≠ y

/-- The last request to motor `m`. -/
def lastRequest (m : Nat) : List (Nat × Request) → Option Request → Option Request
  | [], o => o
  | (k, r) :: l, o => lastRequest m l (if k = m then some r else o)

def moving : Request → Prop
  | .turn _ s => 0 < s
  | _ => True

theorem board_command (f : Nat → Nat) (p : Pins) (r : Request) (hp : p.in1 ≠ p.in2 ∧ p.in1 ≠ p.pwm ∧ p.in2 ≠ p.pwm) (hr : moving r) :
    PinsServe (board f (command p (motorCmd r))) p r := by
  obtain ⟨h1, h2, h3⟩ := hp
  cases r with
  | stop => exact ⟨false, false, by simp [board, command, motorCmd, args, send, h1, h2], by simp [board, command, motorCmd, args, send, h3], rfl⟩
  | brake => exact ⟨true, true, by simp [board, command, motorCmd, args, send, h1, h2], by simp [board, command, motorCmd, args, send, h3], rfl⟩
  | turn cw s =>
    have hs : 0 < s := hr
    cases cw with
    | true =>
      exact ⟨true, false, by simp [board, command, motorCmd, args, send, h1, h2], by simp [board, command, motorCmd, args, send, h3], rfl,
        by simp [board, command, motorCmd, args, send, duty, hs]⟩
    | false =>
      exact ⟨false, true, by simp [board, command, motorCmd, args, send, h1, h2], by simp [board, command, motorCmd, args, send, h3], rfl,
        by simp [board, command, motorCmd, args, send, duty, hs]⟩

theorem board_other (f : Nat → Nat) (p : Pins) (c : Cmd) (x : Nat) (hx : ∀ y ∈ [p.in1, p.in2, p.pwm], x ≠ y) : board f (command p c) x = f x := by
  have h1 := hx p.in1 (by simp)
  have h2 := hx p.in2 (by simp)
  have h3 := hx p.pwm (by simp)
  simp [board, command, send, h1, h2, h3]

/-- **C48, partial.** Any number of motors on distinct pins and any history of requests with nonzero speeds: the lines of every motor carry the last
    request made to it (function and speed), whatever was asked of the others. Missing: speed 0 (see `c48_speed_zero_fails`). -/
theorem c48_direct_partial (ps : Nat → Pins) (hd : DistinctPins ps) (l : List (Nat × Request)) (hl : ∀ x ∈ l, moving x.2) (f : Nat → Nat)
    (m : Nat) (o : Option Request) (ho : ∀ r, o = some r → PinsServe f (ps m) r) :
    ∀ r, lastRequest m l o = some r → PinsServe (board f (drive ps l)) (ps m) r := by
  induction l generalizing f o with
  | nil => exact ho
  | cons x l ih =>
    obtain ⟨k, q⟩ := x
    have e : board f (drive ps ((k, q) :: l)) = board (board f (command (ps k) (motorCmd q))) (drive ps l) := by
      simp [board, drive]
    rw [e, lastRequest]
    apply ih (fun y hy => hl y (by simp [hy]))
    intro r hr
    by_cases hk : k = m
    · subst hk
      rw [if_pos rfl] at hr
      cases hr
      exact board_command f _ _ (hd.1 k) (hl (k, q) (by simp))
    · rw [if_neg hk] at hr
      obtain ⟨a, b, h1, h2, h3⟩ := ho r hr
      have ne := hd.2 m k (fun h => hk h.symm)
      have g := fun x hx => board_other f (ps k) (motorCmd q) x (fun y hy => ne x hx y hy)
      refine ⟨a, b, ?_, ?_, ?_⟩
      · rw [g _ (by simp), h1]
      · rw [g _ (by simp), h2]
      · rw [g _ (by simp)]; exact h3

example := fun ps hd => c48_direct_partial ps hd [(0, .turn true 100), (1, .turn false 50), (0, .turn false 20)] (by simp [moving]) (fun _ => 0) 0 none (by simp)

/-- **C48.** Different requests give different lines (nonzero speeds). -/
theorem c48_unambiguous (f : Nat → Nat) (p : Pins) (q r : Request) (hq : PinsServe f p q) (hr : PinsServe f p r) : q = r := by
  obtain ⟨a, b, h1, h2, h3⟩ := hq
  obtain ⟨a', b', g1, g2, g3⟩ := hr
  have ea : a = a' := by rw [h1] at g1; revert g1; cases a <;> cases a' <;> simp
  have eb : b = b' := by rw [h2] at g2; revert g2; cases b <;> cases b' <;> simp
  subst ea eb
  cases q with
  | stop =>
    cases r with
    | stop => rfl
    | brake => simp only [Serves] at h3 g3; simp [h3] at g3
    | turn cw s => obtain ⟨g3, -⟩ := g3; simp only [Serves] at h3; rw [h3] at g3; cases cw <;> simp at g3
  | brake =>
    cases r with
    | stop => simp only [Serves] at h3 g3; simp [h3] at g3
    | brake => rfl
    | turn cw s => obtain ⟨g3, -⟩ := g3; simp only [Serves] at h3; rw [h3] at g3; cases cw <;> simp at g3
  | turn cw s =>
    obtain ⟨h3, h4⟩ := h3
    cases r with
    | stop => simp only [Serves] at g3; rw [h3] at g3; cases cw <;> simp at g3
    | brake => simp only [Serves] at g3; rw [h3] at g3; cases cw <;> simp at g3
    | turn cw' s' =>
      obtain ⟨g3, g4⟩ := g3
      rw [h3] at g3
      rw [← h4, ← g4]
      cases cw <;> cases cw' <;> simp at g3 ⊢

/-- Two motors, the pins of an Arduino motor shield. -/
example : DistinctPins (fun m => ⟨10 * m + 2, 10 * m + 4, 10 * m + 3⟩) := by
  constructor
  · intro m; simp
  · intro m k h x hx y hy
    simp only [List.mem_cons, List.not_mem_nil, or_false] at hx hy
    omega

/-- **C48 fails** for speed 0: the speed line carries 1, the lines are those of speed 1. -/
theorem c48_speed_zero_fails (p : Pins) : command p (.clockwise 0) = command p (.clockwise 1) ∧
    command p (.counterClockwise 0) = command p (.counterClockwise 1) ∧ (board (fun _ => 0) (command p (.clockwise 0))) p.pwm = 1 := by
  refine ⟨rfl, rfl, by simp [board, command, args, send, duty]⟩

/-- **C48.** The serial variant: in a register not wider than `int` each `Send` sets exactly the two bits of its motor and hands the register on; all
    other bits (other motors, other devices) are untouched. -/
theorem c48_serial (W : Nat) {n : Nat} (hW : n ≤ W) (i1 i2 : Nat) (h1 : i1 < n) (h2 : i2 < n) (hne : i1 ≠ i2) (reg : BitVec n) (c : Cmd) :
    ∃ r, sendSerial W i1 i2 (some reg) (args c).1 (args c).2.1 (args c).2.2 = .ok (r, [.word r, .pwm (duty (args c).2.2)]) ∧
      r.getLsbD i1 = (args c).1 ∧ r.getLsbD i2 = (args c).2.1 ∧ ∀ j, j ≠ i1 → j ≠ i2 → r.getLsbD j = reg.getLsbD j := by
  obtain ⟨a, ha, hab⟩ := (c06_single_bit_partial W reg i1 h1 (Or.inl hW)).2.2.1 (args c).1
  obtain ⟨b, hb, hbb⟩ := (c06_single_bit_partial W a i2 h2 (Or.inl hW)).2.2.1 (args c).2.1
  refine ⟨b, ?_, ?_, ?_, ?_⟩
  · simp only [sendSerial, ha, hb, Res.bind_ok]
  · rw [hbb i1 h1, if_neg hne, hab i1 h1, if_pos rfl]
  · rw [hbb i2 h2, if_pos rfl]
  · intro j hj1 hj2
    by_cases hj : j < n
    · rw [hbb j hj, if_neg hj2, hab j hj, if_neg hj1]
    · rw [BitVec.getLsbD_of_ge _ _ (by omega), BitVec.getLsbD_of_ge _ _ (by omega)]

example := c48_serial 16 (n := 8) (by decide) 1 2 (by decide) (by decide) (by decide) 0xFF#8 (.clockwise 100)

/-- **C48 fails** for the serial variant before `setDataRegister`: the NULL pointer is dereferenced. -/
theorem c48_serial_null_fails (W n i1 i2 : Nat) (a b : Bool) (s : Nat) : sendSerial W (n := n) i1 i2 none a b s = .ub := rfl

/-- **C48.** Attaching the register stops the motor: its two bits become false, the register is handed on once, all other bits are untouched. -/
theorem c48_attach (W : Nat) {n : Nat} (hW : n ≤ W) (i1 i2 : Nat) (h1 : i1 < n) (h2 : i2 < n) (reg : BitVec n) :
    ∃ r, attach W i1 i2 reg = .ok (r, [.word r]) ∧ ∀ j, r.getLsbD j = (if j = i1 ∨ j = i2 then false else reg.getLsbD j) := by
  obtain ⟨a, ha, hab⟩ := (c06_single_bit_partial W reg i1 h1 (Or.inl hW)).2.2.1 false
  obtain ⟨b, hb, hbb⟩ := (c06_single_bit_partial W a i2 h2 (Or.inl hW)).2.2.1 false
  refine ⟨b, by simp only [attach, ha, hb, Res.bind_ok], fun j => ?_⟩
  by_cases hj : j < n
  · rw [hbb j hj, hab j hj]
    by_cases e1 : j = i1 <;> by_cases e2 : j = i2 <;> simp [e1, e2]
  · rw [BitVec.getLsbD_of_ge _ _ (by omega), BitVec.getLsbD_of_ge _ _ (by omega)]
    simp

example : attach 16 1 2 0xFF#8 = .ok (0xF9#8, [.word 0xF9#8]) := by decide

end Atl.Props
