import Verif.Props.SharedRegister
import Verif.Props.Exact

/- Property theorem C125 for all speeds, 0 included. -/
namespace Atl.Props
open Atl.Lcd Atl.Spec.Lcd Atl.LcdSerial Atl.Motor Atl.Spec.Motor Atl.Shared Atl.Spec.ShiftRegister

namespace SharedSpeed

/-- A wish with speed 1 instead of 0. -/
def fixWish : Wish → Wish
  | .inl c => .inl c
  | .inr (m, r) => .inr (m, atLeastOne r)

theorem moving_fix (r : Request) : moving (atLeastOne r) := by
  cases r with
  | turn cw s => simp [atLeastOne, moving]; omega
  | stop => trivial
  | brake => trivial

theorem step_fix (W : Nat) {n : Nat} (x : Wiring) (reg : BitVec n) (y : Wish) : step W x reg (wishOp (fixWish y)) = step W x reg (wishOp y) := by
  cases y with
  | inl c => rfl
  | inr p =>
    obtain ⟨m, r⟩ := p
    cases r with
    | stop => rfl
    | brake => rfl
    | turn cw s =>
      cases s with
      | zero => cases cw <;> rfl
      | succ s =>
        have : atLeastOne (.turn cw (s + 1)) = .turn cw (s + 1) := by simp [atLeastOne]
        simp only [fixWish, this]

theorem run_fix (W : Nat) {n : Nat} (x : Wiring) (reg : BitVec n) (l : List Wish) : run W x reg ((l.map fixWish).map wishOp) = run W x reg (l.map wishOp) := by
  induction l generalizing reg with
  | nil => rfl
  | cons y l ih =>
    simp only [List.map_cons, run, step_fix]
    cases step W x reg (wishOp y) with
    | ub => rfl
    | ok p => simp only [Res.bind_ok]; rw [ih]

theorem program_fix (W : Nat) {n : Nat} (x : Wiring) (ms : List Nat) (reg : BitVec n) (l : List Wish) :
    program W x ms reg ((l.map fixWish).map wishOp) = program W x ms reg (l.map wishOp) := by
  unfold program
  cases setup W x ms reg with
  | ub => rfl
  | ok p => simp only [Res.bind_ok]; rw [run_fix]

theorem forMotors_fix (l : List Wish) : forMotors (l.map fixWish) = (forMotors l).map fun y => (y.1, atLeastOne y.2) := by
  induction l with
  | nil => rfl
  | cons y l ih => cases y <;> simpa [forMotors, fixWish] using ih

theorem forDisplay_fix (l : List Wish) : forDisplay (l.map fixWish) = forDisplay l := by
  induction l with
  | nil => rfl
  | cons y l ih => cases y <;> simpa [forDisplay, fixWish] using ih

theorem last_fix (m : Nat) (l : List (Nat × Request)) (o : Option Request) :
    lastRequest m (l.map fun y => (y.1, atLeastOne y.2)) (o.map atLeastOne) = (lastRequest m l o).map atLeastOne := by
  induction l generalizing o with
  | nil => rfl
  | cons y l ih =>
    simp only [List.map_cons, lastRequest, ← ih]
    congr 1
    split <;> rfl

theorem ok_fix (ms : List Nat) (l : List Wish) (hl : ∀ y ∈ forMotors l, y.1 ∈ ms) : ∀ y ∈ forMotors (l.map fixWish), y.1 ∈ ms ∧ moving y.2 := by
  intro y hy
  rw [forMotors_fix] at hy
  obtain ⟨z, hz, rfl⟩ := List.mem_map.1 hy
  exact ⟨hl z hz, moving_fix _⟩

end SharedSpeed
open SharedSpeed

/-- **C125, partial, every speed.** As `c125_shared_partial` for requests with any speed: every motor has its last request at the outputs of the chain, with speed 1
    instead of 0. Missing: the library's own `Serial3WireOutput::Write`, which does not return (`c65_hangs_fails`); registers wider than `int` (`c125_wide_fails`). -/
theorem c125_shared_speed_partial (W : Nat) {n : Nat} (hW : n ≤ W) (x : Wiring) (ms : List Nat) (hx : ValidWiring n x ms) (reg : BitVec n) (l : List Wish)
    (hl : ∀ y ∈ forMotors l, y.1 ∈ ms) (c : Chain) (hc : c.clock = false) (hla : c.latch = false) (hn : n ≤ c.stages.length)
    (a : Lines) (hrw : a.rw = false) (hrs : a.rs = false) (low : Nat → Nat) (amb : Nat → Bool) (d : Device) :
    ∃ r outs tr, program W x ms reg (l.map wishOp) = .ok (r, outs) ∧ pins W (words outs) = .ok tr ∧
      (∀ m ∈ ms, ∀ v, ∃ in1 in2, (c.run (seen tr)).out[n - 1 - (x.motor m).1]? = some in1 ∧ (c.run (seen tr)).out[n - 1 - (x.motor m).2]? = some in2 ∧
        Serves in1 in2 (pwmAfter m v outs) (atLeastOne ((lastRequest m (forMotors l) none).getD .stop))) ∧
      receiveAll low amb 0 d (latches (chainLines n x.lcd c) ((chainTrace c (seen tr)).map (chainLines n x.lcd))) =
        receiveAll low amb 0 d (latches a (Parallel.levels a (Parallel.init ++ Parallel.calls (forDisplay l)))) := by
  obtain ⟨r, outs, tr, h1, h2, h3, h4⟩ := c125_shared_partial W hW x ms hx reg (l.map fixWish) (ok_fix ms l hl) c hc hla hn a hrw hrs low amb d
  rw [program_fix] at h1
  rw [forDisplay_fix] at h4
  refine ⟨r, outs, tr, h1, h2, fun m hm v => ?_, h4⟩
  obtain ⟨in1, in2, k1, k2, k3⟩ := h3 m hm v
  refine ⟨in1, in2, k1, k2, ?_⟩
  rw [forMotors_fix] at k3
  have e := last_fix m (forMotors l) none
  rw [Option.map_none] at e
  rw [e] at k3
  cases h : lastRequest m (forMotors l) none with
  | none => rw [h] at k3; exact k3
  | some q => rw [h] at k3; exact k3

example := c125_shared_speed_partial 16 (n := 16) (by decide) ⟨⟨0, 1, 2, 3, 4, 5⟩, fun m => (6 + 2 * m, 7 + 2 * m)⟩ [0, 1] ⟨⟨by decide, by decide⟩, by decide, by decide, by decide, by decide⟩ 0xA5#16
  [.inl (.command 1), .inr (0, .turn true 0), .inl (.data 65), .inr (1, .brake)] (by simp [forMotors]) ⟨List.replicate 16 false, List.replicate 16 true, true, false, false⟩ rfl rfl
  (by decide) ⟨false, false, true, true, false, true, true⟩ rfl rfl (fun _ => 0) (fun _ => false) powerUp

/-- **C125, partial, every speed.** No glitches, for requests with any speed. -/
theorem c125_no_glitch_speed_partial (W : Nat) {n : Nat} (hW : n ≤ W) (x : Wiring) (ms : List Nat) (hx : ValidWiring n x ms) (reg : BitVec n) (l : List Wish)
    (y : Wish) (hl : ∀ z ∈ forMotors (l ++ [y]), z.1 ∈ ms) (c : Chain) (hc : c.clock = false) (hla : c.latch = false) (hn : n ≤ c.stages.length) :
    ∃ r outs tr r' more tr', program W x ms reg (l.map wishOp) = .ok (r, outs) ∧ pins W (words outs) = .ok tr ∧
      program W x ms reg ((l ++ [y]).map wishOp) = .ok (r', outs ++ more) ∧ pins W (words (outs ++ more)) = .ok (tr ++ tr') ∧
      ∀ c' ∈ chainTrace (c.run (seen tr)) (seen tr'), ∀ i, i < n → i ∉ ownOuts x y →
        c'.out[n - 1 - i]? = (c.run (seen tr)).out[n - 1 - i]? := by
  have e : l.map fixWish ++ [fixWish y] = (l ++ [y]).map fixWish := by simp
  obtain ⟨r, outs, tr, r', more, tr', h1, h2, h3, h4, h5⟩ := c125_no_glitch_partial W hW x ms hx reg (l.map fixWish) (fixWish y)
    (by rw [e]; exact ok_fix ms _ hl) c hc hla hn
  rw [program_fix] at h1
  rw [e, program_fix] at h3
  refine ⟨r, outs, tr, r', more, tr', h1, h2, h3, h4, fun c' hc' i hi ho => h5 c' hc' i hi ?_⟩
  cases y with
  | inl _ => exact ho
  | inr p => exact ho

/- The hypotheses hold for a history with speed 0. -/
example : ∀ y ∈ forMotors [.inl (.command 1), .inr (0, .turn true 0), .inl (.data 65), .inr (1, .brake)], y.1 ∈ [0, 1] := by
  simp [forMotors]
example : atLeastOne ((lastRequest 0 (forMotors [.inl (.command 1), .inr (0, .turn true 0), .inl (.data 65), .inr (1, .brake)]) none).getD .stop) = .turn true 1 := rfl

theorem SharedSpeed.ok_of_bind {α β : Type} {a : Res α} {f : α → Res β} {b : β} (h : (a >>= f) = .ok b) : ∃ x, a = .ok x ∧ f x = .ok b := by
  cases a with
  | ok x => exact ⟨x, rfl, h⟩
  | ub => cases h

/-- **C125 fails** for every register wider than `int`, every wiring and every history: whatever `setDataRegister` and the calls hand to the base class, showing it is undefined. So
    the width in `c125_shared_partial` cannot be left out. -/
theorem c125_wide_fails (W : Nat) {n : Nat} (hW : W < n) (x : Wiring) (ms : List Nat) (reg : BitVec n) (ops : List Shared.Op) (r : BitVec n) (outs : List (Shared.Out n))
    (h : program W x ms reg ops = .ok (r, outs)) : pins W (words outs) = .ub := by
  obtain ⟨⟨r1, a⟩, h1, h2⟩ := SharedSpeed.ok_of_bind h
  obtain ⟨⟨r2, b⟩, -, h3⟩ := SharedSpeed.ok_of_bind h2
  obtain ⟨⟨r3, c⟩, h4, h5⟩ := SharedSpeed.ok_of_bind h1
  obtain ⟨⟨r4, e⟩, -, h6⟩ := SharedSpeed.ok_of_bind h5
  have hc : ∃ w, c = [w] := by
    unfold LcdSerial.attach at h4
    obtain ⟨_, -, h4⟩ := SharedSpeed.ok_of_bind h4
    obtain ⟨_, -, h4⟩ := SharedSpeed.ok_of_bind h4
    obtain ⟨_, -, h4⟩ := SharedSpeed.ok_of_bind h4
    obtain ⟨_, -, h4⟩ := SharedSpeed.ok_of_bind h4
    obtain ⟨_, -, h4⟩ := SharedSpeed.ok_of_bind h4
    obtain ⟨y, -, h4⟩ := SharedSpeed.ok_of_bind h4
    injection h4 with h4
    exact ⟨y, (Prod.mk.inj h4).2.symm⟩
  obtain ⟨w, rfl⟩ := hc
  injection h6 with h6
  injection h3 with h3
  have ho : outs = .word w :: (e ++ b) := by rw [← (Prod.mk.inj h3).2, ← (Prod.mk.inj h6).2]; rfl
  rw [ho]
  show (Serial3Wire.writeReverse W w >>= _) = _
  cases hw : Serial3Wire.writeReverse W w with
  | ub => rfl
  | ok tr => exact absurd ((c37_defined_iff W w).1 ⟨tr, hw⟩) (by omega)

/- On AVR a register of 24 bits, the display on the lowest six: the calls themselves are defined. -/
example : 0 < (match program 16 ⟨⟨0, 1, 2, 3, 4, 5⟩, fun m => (6 + 2 * m, 7 + 2 * m)⟩ [0] (0 : BitVec 24) [.lcd (.data 65), .motor 0 .stop] with | .ok (_, outs) => outs.length | .ub => 0) := by decide +kernel

end Atl.Props
