import Verif.Model.Lcd
import Verif.Spec.Lcd
import Verif.Props.Bits
import Mathlib.Tactic.SplitIfs
import Mathlib.Data.Nat.Bitwise

/- Lemmas for the HD44780 properties: what the drivers' lines make the display latch. -/
namespace Atl.Lcd
open Atl.Bits Atl.Spec.Lcd

/-- Effect of one pin write on the lines; R/W is tied to ground. -/
def Parallel.apply (a : Lines) : Parallel.Pin × Bool → Lines
  | (.rs, v) => { a with rs := v }
  | (.e, v) => { a with e := v }
  | (.d4, v) => { a with d4 := v }
  | (.d5, v) => { a with d5 := v }
  | (.d6, v) => { a with d6 := v }
  | (.d7, v) => { a with d7 := v }

/-- The successive line levels. -/
def Parallel.levels (a : Lines) : List (Parallel.Pin × Bool) → List Lines
  | [] => []
  | x :: l => Parallel.apply a x :: Parallel.levels (Parallel.apply a x) l

def Parallel.final (a : Lines) (l : List (Parallel.Pin × Bool)) : Lines := l.foldl Parallel.apply a

/-- The lines behind the port expander (HD44780_DriverI2C.h 34-38). -/
def I2C.lines (b : BitVec 8) : Lines :=
  ⟨b.getLsbD 0, b.getLsbD 1, b.getLsbD 2, b.getLsbD 4, b.getLsbD 5, b.getLsbD 6, b.getLsbD 7⟩

/-- The nibbles of the calls, with the register select: `rs` is the level before. -/
def nibbles (rs : Bool) : List Call → List (Option (Bool × Nat))
  | [] => []
  | .write4 n :: l => some (rs, n % 16) :: nibbles rs l
  | .command b :: l => some (false, b / 16 % 16) :: some (false, b % 16) :: nibbles false l
  | .data b :: l => some (true, b / 16 % 16) :: some (true, b % 16) :: nibbles true l

theorem testBit_and (n k : Nat) : (n &&& 2 ^ k != 0) = n.testBit k := by
  rw [Nat.and_two_pow]
  have := Nat.pow_pos (n := k) (show 0 < 2 by omega)
  cases h : n.testBit k <;> simp

theorem nibble_bits (n : Nat) : (n.testBit 0).toNat + 2 * (n.testBit 1).toNat + 4 * (n.testBit 2).toNat + 8 * (n.testBit 3).toNat
    = n % 16 := by
  have h (k : Nat) : (n.testBit k).toNat = n / 2 ^ k % 2 := Nat.toNat_testBit n k
  rw [h, h, h, h]
  simp only [Nat.pow_zero, Nat.div_one, Nat.reducePow, Nat.pow_one]
  omega

namespace Parallel

theorem levels_append (a : Lines) (l m : List (Pin × Bool)) :
    latches a (levels a (l ++ m)) = latches a (levels a l) ++ latches (final a l) (levels (final a l) m) := by
  induction l generalizing a with
  | nil => simp [levels, latches, final]
  | cons x l ih =>
    simp only [List.cons_append, levels, latches, ih, List.append_assoc]
    rfl

theorem final_append (a : Lines) (l m : List (Pin × Bool)) : final a (l ++ m) = final (final a l) m := by
  simp [final]

theorem write4_spec (a : Lines) (he : a.e = true) (hw : a.rw = false) (n : Nat) :
    latches a (levels a (write4 n)) = [some (a.rs, n % 16)] ∧
    (final a (write4 n)).e = true ∧ (final a (write4 n)).rw = false ∧ (final a (write4 n)).rs = a.rs := by
  obtain ⟨rs, rw, e, _, _, _, _⟩ := a
  simp only at he hw
  subst he hw
  have h0 := testBit_and n 0
  have h1 := testBit_and n 1
  have h2 := testBit_and n 2
  have h3 := testBit_and n 3
  simp only [Nat.pow_zero, Nat.pow_one, Nat.reducePow] at h0 h1 h2 h3
  have hb := nibble_bits n
  refine ⟨?_, rfl, rfl, rfl⟩
  simp only [write4, levels, apply, latches, latch, h0, h1, h2, h3]
  simp [Lines.nibble]
  simpa using hb

theorem write8_spec (a : Lines) (he : a.e = true) (hw : a.rw = false) (n : Nat) :
    latches a (levels a (write8 n)) = [some (a.rs, n / 16 % 16), some (a.rs, n % 16)] ∧
    (final a (write8 n)).e = true ∧ (final a (write8 n)).rw = false ∧ (final a (write8 n)).rs = a.rs := by
  obtain ⟨h1, h2, h3, h4⟩ := write4_spec a he hw (n >>> 4)
  obtain ⟨g1, g2, g3, g4⟩ := write4_spec _ h2 h3 n
  have hs : n >>> 4 = n / 16 := by rw [Nat.shiftRight_eq_div_pow]
  rw [write8, levels_append, final_append]
  refine ⟨?_, g2, g3, g4.trans h4⟩
  rw [h1, g1, h4, hs]
  rfl

theorem call_spec (a : Lines) (he : a.e = true) (hw : a.rw = false) (c : Call) (l : List Call) :
    latches a (levels a (call c)) ++ nibbles (final a (call c)).rs l = nibbles a.rs (c :: l) ∧
    (final a (call c)).e = true ∧ (final a (call c)).rw = false := by
  cases c with
  | write4 n =>
    obtain ⟨h1, h2, h3, h4⟩ := write4_spec a he hw n
    refine ⟨?_, h2, h3⟩
    simp only [call, nibbles, h1, h4]
    rfl
  | command b =>
    obtain ⟨h1, h2, h3, h4⟩ := write8_spec { a with rs := false } he hw b
    have hl : latch a { a with rs := false } = [] := by simp [latch, he]
    refine ⟨?_, h2, h3⟩
    simp only [call, writeCommand, levels, latches, apply, h1, nibbles, hl, List.nil_append, List.cons_append]
    rw [show final a ((Pin.rs, false) :: write8 b) = final { a with rs := false } (write8 b) from rfl, h4]
  | data b =>
    obtain ⟨h1, h2, h3, h4⟩ := write8_spec { a with rs := true } he hw b
    have hl : latch a { a with rs := true } = [] := by simp [latch, he]
    refine ⟨?_, h2, h3⟩
    simp only [call, writeData, levels, latches, apply, h1, nibbles, hl, List.nil_append, List.cons_append]
    rw [show final a ((Pin.rs, true) :: write8 b) = final { a with rs := true } (write8 b) from rfl, h4]

theorem calls_spec (a : Lines) (he : a.e = true) (hw : a.rw = false) (l : List Call) :
    latches a (levels a (calls l)) = nibbles a.rs l := by
  induction l generalizing a with
  | nil => rfl
  | cons c l ih =>
    obtain ⟨h1, h2, h3⟩ := call_spec a he hw c l
    rw [show calls (c :: l) = call c ++ calls l from by simp [calls], levels_append, ih _ h2 h3, h1]

end Parallel

namespace I2C

theorem latches_append (a : Lines) (l m : List Lines) :
    latches a (l ++ m) = latches a l ++ latches (l.foldl (fun _ x => x) a) m := by
  induction l generalizing a with
  | nil => rfl
  | cons x l ih => simp [-BitVec.getLsbD_eq_getElem, latches, ih]

theorem drop1_ok (r : BitVec 8) (b : Bool) : drop1 (.ok (r, b)) = .ok r := rfl

/-- A driver register at rest: E high, R/W low. -/
def Rest (r : BitVec 8) : Prop := r.getLsbD 2 = true ∧ r.getLsbD 1 = false

theorem write4_spec (reg : BitVec 8) (h : Rest reg) (n : Nat) :
    ∃ r l, write4 reg n = .ok (r, l) ∧ Rest r ∧ r.getLsbD 0 = reg.getLsbD 0 ∧ r.getLsbD 3 = reg.getLsbD 3 ∧
      (∀ a, latches a (l.map lines) = [some (reg.getLsbD 0, n % 16)]) ∧ (∀ x ∈ l, x.getLsbD 3 = reg.getLsbD 3) := by
  obtain ⟨a, ha, hab⟩ := Props.c05_set_field 16 reg (BitVec.ofNat 8 n) 4 4 (by omega) (by omega)
  obtain ⟨-, ⟨b, hb, hbb⟩, -⟩ := Props.c06_single_bit_partial 16 a 2 (by omega) (by omega)
  obtain ⟨⟨c, hc, hcb⟩, -⟩ := Props.c06_single_bit_partial 16 b 2 (by omega) (by omega)
  refine ⟨c, [a, b, c], ?_, ?_, ?_, ?_, ?_, ?_⟩
  · simp only [write4, pulseEnable, ha, hb, hc, drop1_ok, Res.bind_ok]
  · constructor
    · simp [-BitVec.getLsbD_eq_getElem, hcb 2]
    · simp [-BitVec.getLsbD_eq_getElem, hcb 1, hbb 1, hab 1, h.2]
  · simp [-BitVec.getLsbD_eq_getElem, hcb 0, hbb 0, hab 0]
  · simp [-BitVec.getLsbD_eq_getElem, hcb 3, hbb 3, hab 3]
  · intro p
    have e (k : Nat) (hk : k < 8) : (BitVec.ofNat 8 n).getLsbD k = n.testBit k := by simp [-BitVec.getLsbD_eq_getElem, BitVec.getLsbD_ofNat, hk]
    have hn := nibble_bits n
    simp [-BitVec.getLsbD_eq_getElem, List.map, latches, latch, lines, hcb, hbb, hab, h.1, h.2, e, Lines.nibble]
    simpa using hn
  · intro x hx
    simp only [List.mem_cons, List.not_mem_nil, or_false] at hx
    rcases hx with rfl | rfl | rfl <;> simp [-BitVec.getLsbD_eq_getElem, hcb, hbb, hab]

theorem write8_spec (reg : BitVec 8) (h : Rest reg) (n : Nat) :
    ∃ r l, write8 reg n = .ok (r, l) ∧ Rest r ∧ r.getLsbD 0 = reg.getLsbD 0 ∧ r.getLsbD 3 = reg.getLsbD 3 ∧
      (∀ a, latches a (l.map lines) = [some (reg.getLsbD 0, n / 16 % 16), some (reg.getLsbD 0, n % 16)]) ∧
      (∀ x ∈ l, x.getLsbD 3 = reg.getLsbD 3) := by
  obtain ⟨a, l, h1, h2, h3, h4, h5, h6⟩ := write4_spec reg h (n >>> 4)
  obtain ⟨b, m, g1, g2, g3, g4, g5, g6⟩ := write4_spec a h2 n
  have hs : n >>> 4 = n / 16 := by rw [Nat.shiftRight_eq_div_pow]
  refine ⟨b, l ++ m, ?_, g2, g3.trans h3, g4.trans h4, ?_, ?_⟩
  · simp only [write8, h1, g1, Res.bind_ok]
  · intro p
    rw [List.map_append, latches_append, h5, g5, h3, hs]
    rfl
  · intro x hx
    rcases List.mem_append.1 hx with hx | hx
    · exact h6 x hx
    · exact (g6 x hx).trans h4

theorem clear_spec (reg : BitVec 8) :
    ∃ r, clearData reg = .ok r ∧ ∀ j, j < 8 → r.getLsbD j = if 4 ≤ j then false else reg.getLsbD j := by
  obtain ⟨a, ha, hab⟩ := Props.c05_set_field 16 reg (0 : BitVec 8) 4 4 (by omega) (by omega)
  refine ⟨a, by simp only [clearData, ha, drop1_ok], fun j hj => ?_⟩
  rw [hab j hj]
  by_cases hj4 : 4 ≤ j
  · rw [if_pos ⟨hj4, by omega⟩, if_pos hj4]; simp
  · rw [if_neg (by omega), if_neg hj4]

/-- The calls among the operations. -/
def callsOf : List Op → List Call
  | [] => []
  | .call c :: l => c :: callsOf l
  | .backlight _ :: l => callsOf l

/-- The backlight as last switched. -/
def light (v : Bool) : Op → Bool
  | .call _ => v
  | .backlight b => b

theorem step_spec (reg : BitVec 8) (h : Rest reg) (op : Op) :
    ∃ r l, step reg op = .ok (r, l) ∧ Rest r ∧ r.getLsbD 3 = light (reg.getLsbD 3) op ∧
      (∀ x ∈ l, x.getLsbD 3 = light (reg.getLsbD 3) op) ∧
      (∀ a ops, latches a (l.map lines) ++ nibbles (r.getLsbD 0) (callsOf ops) =
        nibbles (reg.getLsbD 0) (callsOf (op :: ops))) := by
  cases op with
  | call c =>
    cases c with
    | write4 n =>
      obtain ⟨r, l, h1, h2, h3, h4, h5, h6⟩ := write4_spec reg h n
      refine ⟨r, l, h1, h2, h4, h6, fun a ops => ?_⟩
      rw [h5, h3]; rfl
    | command b =>
      obtain ⟨-, ⟨x, hx, hxb⟩, -⟩ := Props.c06_single_bit_partial 16 reg 0 (by omega) (by omega)
      obtain ⟨y, hy, hyb⟩ := clear_spec x
      have hr : Rest y := by constructor <;> simp [-BitVec.getLsbD_eq_getElem, hyb, hxb, h.1, h.2]
      obtain ⟨r, l, h1, h2, h3, h4, h5, h6⟩ := write8_spec y hr b
      have y3 : y.getLsbD 3 = reg.getLsbD 3 := by simp [-BitVec.getLsbD_eq_getElem, hyb, hxb]
      have y0 : y.getLsbD 0 = false := by simp [-BitVec.getLsbD_eq_getElem, hyb, hxb]
      refine ⟨r, y :: l, ?_, h2, h4.trans y3, ?_, fun a ops => ?_⟩
      · simp only [step, writeCommand, hx, drop1_ok, hy, h1, Res.bind_ok]
      · intro z hz
        rcases List.mem_cons.1 hz with rfl | hz
        · exact y3
        · exact (h6 z hz).trans y3
      · rw [List.map_cons, latches, h5, h3, y0]
        have : latch a (lines y) = [] := by simp [-BitVec.getLsbD_eq_getElem, latch, lines, hr.1]
        rw [this]; rfl
    | data b =>
      obtain ⟨⟨x, hx, hxb⟩, -, -⟩ := Props.c06_single_bit_partial 16 reg 0 (by omega) (by omega)
      obtain ⟨y, hy, hyb⟩ := clear_spec x
      have hr : Rest y := by constructor <;> simp [-BitVec.getLsbD_eq_getElem, hyb, hxb, h.1, h.2]
      obtain ⟨r, l, h1, h2, h3, h4, h5, h6⟩ := write8_spec y hr b
      have y3 : y.getLsbD 3 = reg.getLsbD 3 := by simp [-BitVec.getLsbD_eq_getElem, hyb, hxb]
      have y0 : y.getLsbD 0 = true := by simp [-BitVec.getLsbD_eq_getElem, hyb, hxb]
      refine ⟨r, y :: l, ?_, h2, h4.trans y3, ?_, fun a ops => ?_⟩
      · simp only [step, writeData, hx, drop1_ok, hy, h1, Res.bind_ok]
      · intro z hz
        rcases List.mem_cons.1 hz with rfl | hz
        · exact y3
        · exact (h6 z hz).trans y3
      · rw [List.map_cons, latches, h5, h3, y0]
        have : latch a (lines y) = [] := by simp [-BitVec.getLsbD_eq_getElem, latch, lines, hr.1]
        rw [this]; rfl
  | backlight v =>
    obtain ⟨x, hx, hxb⟩ := (Props.c06_single_bit_partial 16 reg 3 (by omega) (by omega)).2.2.1 v
    obtain ⟨y, hy, hyb⟩ := clear_spec x
    have hr : Rest y := by constructor <;> simp [-BitVec.getLsbD_eq_getElem, hyb, hxb, h.1, h.2]
    have y3 : y.getLsbD 3 = v := by simp [-BitVec.getLsbD_eq_getElem, hyb, hxb]
    have y0 : y.getLsbD 0 = reg.getLsbD 0 := by simp [-BitVec.getLsbD_eq_getElem, hyb, hxb]
    refine ⟨y, [y], ?_, hr, y3, ?_, fun a ops => ?_⟩
    · simp only [step, setBacklight, hx, drop1_ok, hy, Res.bind_ok]
    · intro z hz
      rw [List.mem_singleton.1 hz]
      exact y3
    · rw [List.map_cons, latches, y0]
      have : latch a (lines y) = [] := by simp [-BitVec.getLsbD_eq_getElem, latch, lines, hr.1]
      rw [this]; rfl

theorem run_spec (reg : BitVec 8) (h : Rest reg) (ops : List Op) :
    ∃ r l, run reg ops = .ok (r, l) ∧ Rest r ∧ r.getLsbD 3 = ops.foldl light (reg.getLsbD 3) ∧
      (∀ a, latches a (l.map lines) = nibbles (reg.getLsbD 0) (callsOf ops)) := by
  induction ops generalizing reg with
  | nil => exact ⟨reg, [], rfl, h, rfl, fun a => rfl⟩
  | cons op ops ih =>
    obtain ⟨r, l, h1, h2, h3, -, h5⟩ := step_spec reg h op
    obtain ⟨r', l', g1, g2, g3, g4⟩ := ih r h2
    refine ⟨r', l ++ l', ?_, g2, ?_, fun a => ?_⟩
    · simp only [run, h1, g1, Res.bind_ok]
    · rw [g3, h3]; rfl
    · rw [List.map_append, latches_append, g4, h5]

end I2C

end Atl.Lcd
