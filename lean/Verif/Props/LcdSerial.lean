import Verif.Model.LcdSerial
import Verif.Props.Lcd
import Verif.Props.Serial3Wire

/- Property theorem C65: HD44780 over shift registers. -/
namespace Atl.Props
open Atl.LcdSerial Atl.Lcd Atl.Spec.Lcd

/-- The lines of the display on the outputs of the registers; all outputs change together (store clock). -/
def serialLines {n : Nat} (x : Idx) (w : BitVec n) : Lines :=
  ⟨w.getLsbD x.rs, false, w.getLsbD x.e, w.getLsbD x.d4, w.getLsbD x.d5, w.getLsbD x.d6, w.getLsbD x.d7⟩

def idxList (x : Idx) : List Nat := [x.rs, x.e, x.d4, x.d5, x.d6, x.d7]

/-- Six different outputs of a register of `n` bits. -/
def ValidIdx (n : Nat) (x : Idx) : Prop := (idxList x).Nodup ∧ ∀ i ∈ idxList x, i < n

/-- The outputs that do not belong to the display. -/
def SameElsewhere {n : Nat} (x : Idx) (a b : BitVec n) : Prop := ∀ j, j ∉ idxList x → a.getLsbD j = b.getLsbD j

theorem put_bits (W : Nat) {n : Nat} (hW : n ≤ W) (reg : BitVec n) (i : Nat) (hi : i < n) (v : Bool) :
    ∃ r, put W reg i v = .ok r ∧ ∀ j, r.getLsbD j = if j = i then v else reg.getLsbD j := by
  obtain ⟨r, h1, h2⟩ := (c06_single_bit_partial W reg i hi (Or.inl hW)).2.2.1 v
  refine ⟨r, by simp only [put, h1, Res.bind_ok], fun j => ?_⟩
  by_cases hj : j < n
  · exact h2 j hj
  · rw [BitVec.getLsbD_of_ge _ _ (by omega), BitVec.getLsbD_of_ge _ _ (by omega), if_neg (by omega)]

theorem serial_write4 (W : Nat) {n : Nat} (hW : n ≤ W) (x : Idx) (hx : ValidIdx n x) (reg : BitVec n) (he : reg.getLsbD x.e = true) (d : Nat) :
    ∃ r l, write4 W x reg d = .ok (r, l) ∧ r.getLsbD x.e = true ∧ r.getLsbD x.rs = reg.getLsbD x.rs ∧
      (∀ w ∈ l, SameElsewhere x w reg) ∧ SameElsewhere x r reg ∧
      ∀ a : Lines, latches a (l.map (serialLines x)) = [some (reg.getLsbD x.rs, d % 16)] := by
  obtain ⟨hnd, hlt⟩ := hx
  simp only [idxList, List.nodup_cons, List.mem_cons, List.not_mem_nil, or_false, not_or, List.nodup_nil, and_true, not_false_eq_true] at hnd
  obtain ⟨⟨n1, n2, n3, n4, n5⟩, ⟨n6, n7, n8, n9⟩, ⟨n10, n11, n12⟩, ⟨n13, n14⟩, n15⟩ := hnd
  simp only [idxList, List.mem_cons, List.not_mem_nil, or_false, forall_eq_or_imp, forall_eq] at hlt
  obtain ⟨l1, l2, l3, l4, l5, l6⟩ := hlt
  obtain ⟨r1, e1, b1⟩ := put_bits W hW reg x.d4 l3 (d &&& 1 != 0)
  obtain ⟨r2, e2, b2⟩ := put_bits W hW r1 x.d5 l4 (d &&& 2 != 0)
  obtain ⟨r3, e3, b3⟩ := put_bits W hW r2 x.d6 l5 (d &&& 4 != 0)
  obtain ⟨r4, e4, b4⟩ := put_bits W hW r3 x.d7 l6 (d &&& 8 != 0)
  obtain ⟨r5, e5, b5⟩ := put_bits W hW r4 x.e l2 false
  obtain ⟨r6, e6, b6⟩ := put_bits W hW r5 x.e l2 true
  have h0 := testBit_and d 0
  have h1 := testBit_and d 1
  have h2 := testBit_and d 2
  have h3 := testBit_and d 3
  simp only [Nat.pow_zero, Nat.pow_one, Nat.reducePow] at h0 h1 h2 h3
  rw [h0] at b1
  rw [h1] at b2
  rw [h2] at b3
  rw [h3] at b4
  have s4 : ∀ j, j ∉ idxList x → r4.getLsbD j = reg.getLsbD j := by
    intro j hj
    simp only [idxList, List.mem_cons, List.not_mem_nil, or_false, not_or] at hj
    rw [b4, if_neg hj.2.2.2.2.2, b3, if_neg hj.2.2.2.2.1, b2, if_neg hj.2.2.2.1, b1, if_neg hj.2.2.1]
  have s5 : ∀ j, j ∉ idxList x → r5.getLsbD j = reg.getLsbD j := by
    intro j hj
    rw [b5, if_neg, s4 j hj]
    simp only [idxList, List.mem_cons, List.not_mem_nil, or_false, not_or] at hj
    exact hj.2.1
  have s6 : ∀ j, j ∉ idxList x → r6.getLsbD j = reg.getLsbD j := by
    intro j hj
    rw [b6, if_neg, s5 j hj]
    simp only [idxList, List.mem_cons, List.not_mem_nil, or_false, not_or] at hj
    exact hj.2.1
  refine ⟨r6, [r4, r5, r6], ?_, ?_, ?_, ?_, s6, ?_⟩
  · simp only [write4, pulseEnable, e1, e2, e3, e4, e5, e6, Res.bind_ok]
  · rw [b6, if_pos rfl]
  · rw [b6, if_neg n1, b5, if_neg n1, b4, if_neg n5, b3, if_neg n4, b2, if_neg n3, b1, if_neg n2]
  · intro w hw
    simp only [List.mem_cons, List.not_mem_nil, or_false] at hw
    rcases hw with rfl | rfl | rfl
    · exact s4
    · exact s5
    · exact s6
  · intro a
    have E4 : r4.getLsbD x.e = true := by rw [b4, if_neg n9, b3, if_neg n8, b2, if_neg n7, b1, if_neg n6, he]
    have E5 : r5.getLsbD x.e = false := by rw [b5, if_pos rfl]
    have R4 : r4.getLsbD x.rs = reg.getLsbD x.rs := by rw [b4, if_neg n5, b3, if_neg n4, b2, if_neg n3, b1, if_neg n2]
    have D4 : r4.getLsbD x.d4 = d.testBit 0 := by rw [b4, if_neg n12, b3, if_neg n11, b2, if_neg n10, b1, if_pos rfl]
    have D5 : r4.getLsbD x.d5 = d.testBit 1 := by rw [b4, if_neg n14, b3, if_neg n13, b2, if_pos rfl]
    have D6 : r4.getLsbD x.d6 = d.testBit 2 := by rw [b4, if_neg n15, b3, if_pos rfl]
    have D7 : r4.getLsbD x.d7 = d.testBit 3 := by rw [b4, if_pos rfl]
    have R5 : r5.getLsbD x.rs = r4.getLsbD x.rs := by rw [b5, if_neg n1]
    have F4 : r5.getLsbD x.d4 = r4.getLsbD x.d4 := by rw [b5, if_neg (Ne.symm n6)]
    have F5 : r5.getLsbD x.d5 = r4.getLsbD x.d5 := by rw [b5, if_neg (Ne.symm n7)]
    have F6 : r5.getLsbD x.d6 = r4.getLsbD x.d6 := by rw [b5, if_neg (Ne.symm n8)]
    have F7 : r5.getLsbD x.d7 = r4.getLsbD x.d7 := by rw [b5, if_neg (Ne.symm n9)]
    have E6 : r6.getLsbD x.e = true := by rw [b6, if_pos rfl]
    have hn := nibble_bits d
    simp only [List.map_cons, List.map_nil, latches, latch, serialLines, E4, E5, E6, R5, F4, F5, F6, F7, R4, D4, D5, D6, D7, Lines.nibble]
    simp
    simpa using hn

theorem serial_write8 (W : Nat) {n : Nat} (hW : n ≤ W) (x : Idx) (hx : ValidIdx n x) (reg : BitVec n) (he : reg.getLsbD x.e = true) (d : Nat) :
    ∃ r l, write8 W x reg d = .ok (r, l) ∧ r.getLsbD x.e = true ∧ r.getLsbD x.rs = reg.getLsbD x.rs ∧
      (∀ w ∈ l, SameElsewhere x w reg) ∧ SameElsewhere x r reg ∧
      ∀ a : Lines, latches a (l.map (serialLines x)) = [some (reg.getLsbD x.rs, d / 16 % 16), some (reg.getLsbD x.rs, d % 16)] := by
  obtain ⟨a, l, h1, h2, h3, h4, h5, h6⟩ := serial_write4 W hW x hx reg he (d >>> 4)
  obtain ⟨b, m, g1, g2, g3, g4, g5, g6⟩ := serial_write4 W hW x hx a h2 d
  have hs : d >>> 4 = d / 16 := by rw [Nat.shiftRight_eq_div_pow]
  refine ⟨b, l ++ m, ?_, g2, g3.trans h3, ?_, ?_, ?_⟩
  · simp only [write8, h1, g1, Res.bind_ok]
  · intro w hw
    rcases List.mem_append.1 hw with hw | hw
    · exact h4 w hw
    · exact fun j hj => (g4 w hw j hj).trans (h5 j hj)
  · exact fun j hj => (g5 j hj).trans (h5 j hj)
  · intro p
    rw [List.map_append, I2C.latches_append, h6, g6, h3, hs]
    rfl

theorem serial_calls (W : Nat) {n : Nat} (hW : n ≤ W) (x : Idx) (hx : ValidIdx n x) (reg : BitVec n) (he : reg.getLsbD x.e = true) (cs : List Call) :
    ∃ r l, calls W x reg cs = .ok (r, l) ∧ (∀ w ∈ l, SameElsewhere x w reg) ∧ SameElsewhere x r reg ∧
      ∀ a : Lines, latches a (l.map (serialLines x)) = nibbles (reg.getLsbD x.rs) cs := by
  induction cs generalizing reg with
  | nil => exact ⟨reg, [], rfl, by simp, fun _ _ => rfl, fun _ => rfl⟩
  | cons c cs ih =>
    have key : ∃ r l, call W x reg c = .ok (r, l) ∧ r.getLsbD x.e = true ∧ (∀ w ∈ l, SameElsewhere x w reg) ∧ SameElsewhere x r reg ∧
        ∀ a : Lines, latches a (l.map (serialLines x)) ++ nibbles (r.getLsbD x.rs) cs = nibbles (reg.getLsbD x.rs) (c :: cs) := by
      have rsl : x.rs < n := hx.2 _ (by simp [idxList])
      have ers : x.e ≠ x.rs := by
        have := hx.1
        simp only [idxList, List.nodup_cons, List.mem_cons, not_or] at this
        exact Ne.symm this.1.1
      cases c with
      | write4 d =>
        obtain ⟨r, l, h1, h2, h3, h4, h5, h6⟩ := serial_write4 W hW x hx reg he d
        exact ⟨r, l, h1, h2, h4, h5, fun a => by rw [h6, h3]; rfl⟩
      | command b =>
        obtain ⟨q, e1, b1⟩ := put_bits W hW reg x.rs rsl false
        obtain ⟨r, l, h1, h2, h3, h4, h5, h6⟩ := serial_write8 W hW x hx q (by rw [b1, if_neg ers, he]) b
        have sq : SameElsewhere x q reg := fun j hj => by
          rw [b1, if_neg]; rintro rfl; exact hj (by simp [idxList])
        have q0 : q.getLsbD x.rs = false := by rw [b1, if_pos rfl]
        refine ⟨r, l, by simp only [call, e1, Res.bind_ok, h1], h2, fun w hw j hj => (h4 w hw j hj).trans (sq j hj),
          fun j hj => (h5 j hj).trans (sq j hj), fun a => by rw [h6, h3, q0]; rfl⟩
      | data b =>
        obtain ⟨q, e1, b1⟩ := put_bits W hW reg x.rs rsl true
        obtain ⟨r, l, h1, h2, h3, h4, h5, h6⟩ := serial_write8 W hW x hx q (by rw [b1, if_neg ers, he]) b
        have sq : SameElsewhere x q reg := fun j hj => by
          rw [b1, if_neg]; rintro rfl; exact hj (by simp [idxList])
        have q0 : q.getLsbD x.rs = true := by rw [b1, if_pos rfl]
        refine ⟨r, l, by simp only [call, e1, Res.bind_ok, h1], h2, fun w hw j hj => (h4 w hw j hj).trans (sq j hj),
          fun j hj => (h5 j hj).trans (sq j hj), fun a => by rw [h6, h3, q0]; rfl⟩
    obtain ⟨r, l, h1, h2, h3, h4, h5⟩ := key
    obtain ⟨r', l', g1, g2, g3, g4⟩ := ih r h2
    refine ⟨r', l ++ l', ?_, ?_, fun j hj => (g3 j hj).trans (h4 j hj), ?_⟩
    · simp only [calls, h1, g1, Res.bind_ok]
    · intro w hw
      rcases List.mem_append.1 hw with hw | hw
      · exact h3 w hw
      · exact fun j hj => (g2 w hw j hj).trans (h4 j hj)
    · intro a
      rw [List.map_append, I2C.latches_append, g4, h5]

theorem serial_attach (W : Nat) {n : Nat} (hW : n ≤ W) (x : Idx) (hx : ValidIdx n x) (reg : BitVec n) :
    ∃ r, attach W x reg = .ok (r, [r]) ∧ SameElsewhere x r reg ∧ serialLines x r = ⟨false, false, true, false, false, false, false⟩ := by
  obtain ⟨hnd, hlt⟩ := hx
  simp only [idxList, List.nodup_cons, List.mem_cons, List.not_mem_nil, or_false, not_or, List.nodup_nil, and_true, not_false_eq_true] at hnd
  obtain ⟨⟨n1, n2, n3, n4, n5⟩, ⟨n6, n7, n8, n9⟩, ⟨n10, n11, n12⟩, ⟨n13, n14⟩, n15⟩ := hnd
  simp only [idxList, List.mem_cons, List.not_mem_nil, or_false, forall_eq_or_imp, forall_eq] at hlt
  obtain ⟨l1, l2, l3, l4, l5, l6⟩ := hlt
  obtain ⟨r1, e1, b1⟩ := put_bits W hW reg x.rs l1 false
  obtain ⟨r2, e2, b2⟩ := put_bits W hW r1 x.e l2 true
  obtain ⟨r3, e3, b3⟩ := put_bits W hW r2 x.d4 l3 false
  obtain ⟨r4, e4, b4⟩ := put_bits W hW r3 x.d5 l4 false
  obtain ⟨r5, e5, b5⟩ := put_bits W hW r4 x.d6 l5 false
  obtain ⟨r6, e6, b6⟩ := put_bits W hW r5 x.d7 l6 false
  refine ⟨r6, by simp only [attach, e1, e2, e3, e4, e5, e6, Res.bind_ok], ?_, ?_⟩
  · intro j hj
    simp only [idxList, List.mem_cons, List.not_mem_nil, or_false, not_or] at hj
    rw [b6, if_neg hj.2.2.2.2.2, b5, if_neg hj.2.2.2.2.1, b4, if_neg hj.2.2.2.1, b3, if_neg hj.2.2.1, b2, if_neg hj.2.1, b1, if_neg hj.1]
  · simp only [serialLines, Lines.mk.injEq, true_and]
    refine ⟨?_, ?_, ?_, ?_, ?_, ?_⟩
    · rw [b6, if_neg n5, b5, if_neg n4, b4, if_neg n3, b3, if_neg n2, b2, if_neg n1, b1, if_pos rfl]
    · rw [b6, if_neg n9, b5, if_neg n8, b4, if_neg n7, b3, if_neg n6, b2, if_pos rfl]
    · rw [b6, if_neg n12, b5, if_neg n11, b4, if_neg n10, b3, if_pos rfl]
    · rw [b6, if_neg n14, b5, if_neg n13, b4, if_pos rfl]
    · rw [b6, if_neg n15, b5, if_pos rfl]
    · rw [b6, if_pos rfl]

/-- **C65, partial.** With a base class whose `Write` shows the register on the outputs (as `WriteReverse` does, C37), in a register not wider than
    `int`: after `setDataRegister` every sequence of commands and data is received by the display exactly, from any earlier levels, and no
    output of another device ever changes. Missing: the base class the library offers never returns from `Write` (next theorem). -/
theorem c65_delivery_partial (W : Nat) {n : Nat} (hW : n ≤ W) (x : Idx) (hx : ValidIdx n x) (reg : BitVec n) (l : List (Bool × Nat))
    (hl : ∀ y ∈ l, y.2 < 256) :
    ∃ r0 r ws, attach W x reg = .ok (r0, [r0]) ∧ calls W x r0 (l.map toCall) = .ok (r, ws) ∧
      (∀ w ∈ r0 :: ws, SameElsewhere x w reg) ∧
      ∀ a : Lines, pairUp (latches a ((r0 :: ws).map (serialLines x))) = some l := by
  obtain ⟨r0, h1, h2, h3⟩ := serial_attach W hW x hx reg
  have he : r0.getLsbD x.e = true := congrArg Lines.e h3
  have hrs : r0.getLsbD x.rs = false := congrArg Lines.rs h3
  obtain ⟨r, ws, g1, g2, g3, g4⟩ := serial_calls W hW x hx r0 he (l.map toCall)
  refine ⟨r0, r, ws, h1, g1, ?_, ?_⟩
  · intro w hw
    rcases List.mem_cons.1 hw with rfl | hw
    · exact h2
    · exact fun j hj => (g2 w hw j hj).trans (h2 j hj)
  · intro a
    rw [List.map_cons, latches, g4]
    have : latch a (serialLines x r0) = [] := by rw [h3]; simp [latch]
    rw [this, hrs, List.nil_append, pairUp_nibbles _ _ hl]

example := c65_delivery_partial 16 (n := 8) (by decide) ⟨2, 3, 4, 5, 6, 7⟩ (by unfold ValidIdx; decide) 0x09#8 [(false, 0x28), (true, 0x41)] (by decide)

/-- **C65 fails** with the library's own `Serial3WireOutput` as base: `setDataRegister` never returns. -/
theorem c65_hangs_fails (W : Nat) {n : Nat} (x : Idx) (reg : BitVec n) (fuel : Nat) : attachReal W x reg fuel ≠ .ok true := by
  intro h
  simp only [attachReal] at h
  cases ha : attach W x reg with
  | ub => rw [ha] at h; simp at h
  | ok p =>
    rw [ha] at h
    simp only [Res.bind_ok] at h
    cases hw : Serial3Wire.write W p.1 fuel with
    | ub => rw [hw] at h; simp at h
    | ok q =>
      rw [hw] at h
      simp only [Res.bind_ok, Res.ok.injEq] at h
      exact c38_never_returns_fails W p.1 fuel q.1 (by rw [hw, ← h])

/-- An 8 bit register, outputs Q1 and Q0 used by other devices. -/
example : ValidIdx 8 ⟨2, 3, 4, 5, 6, 7⟩ := by unfold ValidIdx; decide
example : calls 16 ⟨2, 3, 4, 5, 6, 7⟩ (0x09#8) [.data 0x41] = .ok (0x1D#8, [0x4D#8, 0x45#8, 0x4D#8, 0x1D#8, 0x15#8, 0x1D#8]) := by decide

end Atl.Props
