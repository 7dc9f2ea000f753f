import Verif.Model.Serial3Wire
import Verif.Spec.ShiftRegister
import Verif.Props.Bits

/- C37 reverse order output, C38 Write never returns. -/
namespace Atl.Props
open Atl Atl.Bits Atl.Serial3Wire
open Atl.Spec.ShiftRegister

/-- How the pins are wired to the chain. -/
def wire : Pin → Wire
  | .data => .data | .clock => .clock | .latch => .latch

/-- The trace as seen by the chain. -/
def seen (l : List Ev) : List (Wire × Bool) := l.map fun e => (wire e.1, e.2)

/-- Writes for a list of bits. -/
def shiftOut (bs : List Bool) : List Ev := bs.flatMap fun b => (.data, b) :: pulseClock

theorem body_ok (W : Nat) {n : Nat} (hW : n ≤ W) (bits : BitVec n) (i : Nat) (hi : i < n) :
    body W bits i = .ok ((.data, bits.getLsbD i) :: pulseClock) := by
  simp only [body, (c06_single_bit_partial W bits i hi (.inl hW)).2.2.2.1, Res.bind_ok]

theorem reverseLoop_ok (W : Nat) {n : Nat} (hW : n ≤ W) (bits : BitVec n) (k i : Nat) (h : i + k = n) :
    reverseLoop W bits k i = .ok (shiftOut ((List.range' i k).map bits.getLsbD)) := by
  induction k generalizing i with
  | zero => rfl
  | succ k ih =>
    simp only [reverseLoop, body_ok W hW bits i (by omega), ih (i + 1) (by omega), Res.bind_ok, List.range'_succ, List.map_cons]
    rfl

theorem run_shiftOut (c : Chain) (bs : List Bool) (hc : c.clock = false) (hl : bs.length ≤ c.stages.length) :
    ∃ d, c.run (seen (shiftOut bs)) = { c with stages := (bs.reverse ++ c.stages).take c.stages.length, data := d } := by
  induction bs generalizing c with
  | nil => exact ⟨c.data, by simp [seen, shiftOut, Chain.run]⟩
  | cons b bs ih =>
    have e : c.run (seen (shiftOut (b :: bs))) =
        ({ c with stages := (b :: c.stages).take c.stages.length, data := b } : Chain).run (seen (shiftOut bs)) := by
      simp [seen, shiftOut, Chain.run, pulseClock, wire, Chain.step, hc]
    simp only [List.length_cons] at hl
    obtain ⟨d, e2⟩ := ih { c with stages := (b :: c.stages).take c.stages.length, data := b } hc (by simp; omega)
    refine ⟨d, ?_⟩
    rw [e, e2]
    have hlen : ((b :: c.stages).take c.stages.length).length = c.stages.length := by simp
    simp only [hlen, List.reverse_cons, List.append_assoc, List.singleton_append]
    congr 1
    simp only [List.take_append, List.length_reverse]
    congr 1
    rw [List.take_take]
    congr 1
    omega

theorem wellTimed_shiftOut (bs : List Bool) (rest : List (Wire × Bool)) (h : WellTimed false false rest) :
    WellTimed false false (seen (shiftOut bs) ++ rest) := by
  induction bs with
  | nil => exact h
  | cons b bs ih => simpa [seen, shiftOut, pulseClock, wire, WellTimed] using ih

/-- **C37 (partial: words not wider than `int`; 8 and 16 bits on AVR).** For every word and every chain at least as long, whatever it held, with clock and latch low: after
    `WriteReverse` the first `n` outputs show the word, bit 0 at the far end (output `k` is bit `n-1-k`), later outputs show what was shifted
    along; clock and latch are low again, so writes can be repeated; all edges respect the timing rules. -/
theorem c37_word_shown_partial (W : Nat) {n : Nat} (hW : n ≤ W) (bits : BitVec n) (c : Chain) (hc : c.clock = false) (hla : c.latch = false)
    (hl : n ≤ c.stages.length) :
    ∃ tr, writeReverse W bits = .ok tr ∧ WellTimed false false (seen tr) ∧
      (c.run (seen tr)).clock = false ∧ (c.run (seen tr)).latch = false ∧
      (c.run (seen tr)).stages.length = c.stages.length ∧
      (∀ k, k < n → (c.run (seen tr)).out[k]? = some (bits.getLsbD (n - 1 - k))) ∧
      (∀ k, n ≤ k → (c.run (seen tr)).out[k]? = if k < c.stages.length then c.stages[k - n]? else none) := by
  have hlen : ((List.range' 0 n).map bits.getLsbD).length = n := by simp
  refine ⟨shiftOut ((List.range' 0 n).map bits.getLsbD) ++ pulseLatch, ?_, ?_, ?_⟩
  · simp only [writeReverse, reverseLoop_ok W hW bits n 0 (by omega), Res.bind_ok]
  · have := wellTimed_shiftOut ((List.range' 0 n).map bits.getLsbD) (seen pulseLatch) (by simp [seen, pulseLatch, wire, WellTimed])
    simpa [seen] using this
  · obtain ⟨d, e⟩ := run_shiftOut c ((List.range' 0 n).map bits.getLsbD) hc (by rw [hlen]; exact hl)
    have e2 : c.run (seen (shiftOut ((List.range' 0 n).map bits.getLsbD) ++ pulseLatch)) =
        (c.run (seen (shiftOut ((List.range' 0 n).map bits.getLsbD)))).run (seen pulseLatch) := by
      simp [seen, Chain.run, List.foldl_append]
    rw [e2, e]
    simp only [seen, pulseLatch, wire, Chain.run, List.map_cons, List.map_nil, List.foldl_cons, List.foldl_nil, Chain.step, hla, hc,
      Bool.not_false, Bool.and_true, Bool.false_and, if_true, true_and]
    refine ⟨by simp, fun k hk => ?_, fun k hk => ?_⟩
    · rw [if_neg (by decide)]
      rw [List.getElem?_take, if_pos (by omega), List.getElem?_append_left (by simp; omega), List.getElem?_reverse (by simp; omega)]
      simp only [hlen, List.getElem?_map]
      rw [List.getElem?_range' (by omega)]
      simp
    · rw [if_neg (by decide)]
      rw [List.getElem?_take]
      split
      · rw [List.getElem?_append_right (by simp; omega)]; simp
      · rfl

/-- Byte 0xB1 on a chain of eight. -/
example : (Chain.run ⟨[true, true, false, true, false, false, true, true], [], true, false, false⟩
    (seen (shiftOut ((List.range' 0 8).map (0xB1#8).getLsbD) ++ pulseLatch))).out =
    [true, false, true, true, false, false, false, true] := by decide
example : writeReverse 16 (0xB1#8) = .ok (shiftOut ((List.range' 0 8).map (0xB1#8).getLsbD) ++ pulseLatch) := by decide

/-- **C37 fails for 32-bit words on AVR**: bit 16 is tested with an undefined shift. -/
theorem c37_wide_word_fails (bits : BitVec 32) : writeReverse 16 bits = .ub := by
  have key : ∀ k i, i ≤ 16 → 16 < i + k → reverseLoop 16 bits k i = .ub := by
    intro k
    induction k with
    | zero => intro i h1 h2; omega
    | succ k ih =>
      intro i h1 h2
      simp only [reverseLoop]
      by_cases hi : i = 16
      · subst hi
        simp only [body, (c06_avr_bit16_fails 16 (by omega) (by omega) bits).2.2]; rfl
      · rw [ih (i + 1) (by omega) (by omega)]
        cases body 16 bits i <;> rfl
  simp only [writeReverse, key 32 0 (by omega) (by omega)]; rfl

/-- **C38 is false**: however long it runs, `Write` has not returned. -/
theorem c38_never_returns_fails (W : Nat) {n : Nat} (bits : BitVec n) (fuel : Nat) :
    ∀ tr, write W bits fuel ≠ .ok (tr, true) := by
  have key : ∀ fuel i tr, writeLoop W bits fuel i ≠ .ok (tr, true) := by
    intro fuel
    induction fuel with
    | zero => intro i tr h; simp [writeLoop] at h
    | succ fuel ih =>
      intro i tr h
      simp only [writeLoop, Nat.zero_le, if_true] at h
      cases hb : body W bits i with
      | ub => rw [hb] at h; cases h
      | ok a =>
        rw [hb] at h; simp only [Res.bind_ok] at h
        cases hr : writeLoop W bits fuel (toU 8 ((i : Int) - 1)) with
        | ub => rw [hr] at h; cases h
        | ok x =>
          rw [hr] at h
          simp only [Res.bind_ok, Res.ok.injEq, Prod.mk.injEq] at h
          exact ih _ x.1 (by rw [hr, ← h.2])
  exact fun tr => key fuel _ tr

/-- ... and never touches the latch, so the outputs never change. -/
theorem c38_never_latches_fails (W : Nat) {n : Nat} (bits : BitVec n) (fuel : Nat) (tr : List Ev) (fin : Bool)
    (h : write W bits fuel = .ok (tr, fin)) : ∀ e ∈ tr, e.1 ≠ Pin.latch := by
  have key : ∀ fuel i tr fin, writeLoop W bits fuel i = .ok (tr, fin) → ∀ e ∈ tr, e.1 ≠ Pin.latch := by
    intro fuel
    induction fuel with
    | zero => intro i tr fin h; simp [writeLoop] at h; simp [h.1]
    | succ fuel ih =>
      intro i tr fin h
      simp only [writeLoop, Nat.zero_le, if_true, body] at h
      cases hb : BitArray.isTrue W bits i with
      | ub => rw [hb] at h; cases h
      | ok a =>
        rw [hb] at h; simp only [Res.bind_ok] at h
        cases hr : writeLoop W bits fuel (toU 8 ((i : Int) - 1)) with
        | ub => rw [hr] at h; cases h
        | ok x =>
          rw [hr] at h
          simp only [Res.bind_ok, Res.ok.injEq, Prod.mk.injEq] at h
          rw [← h.1]
          intro e he
          simp only [pulseClock, List.cons_append, List.nil_append, List.mem_cons] at he
          rcases he with rfl | rfl | rfl | he
          · simp
          · simp
          · simp
          · exact ih _ x.1 x.2 hr e he
  exact key fuel _ tr fin h

/-- **C38, what does hold**: the first `n` passes clock every bit once, most significant first. -/
theorem c38_first_pass_partial (W : Nat) {n : Nat} (hW : n ≤ W) (hn : n ≤ 64) (bits : BitVec n) :
    write W bits n = .ok (shiftOut ((List.range n).reverse.map bits.getLsbD), false) := by
  have key : ∀ k, k ≤ n → writeLoop W bits k (toU 8 ((k : Int) - 1)) = .ok (shiftOut ((List.range k).reverse.map bits.getLsbD), false) := by
    intro k
    induction k with
    | zero => intro _; rfl
    | succ k ih =>
      intro hk
      have hi : toU 8 (((k + 1 : Nat) : Int) - 1) = k := by unfold toU; omega
      rw [hi]
      simp only [writeLoop, Nat.zero_le, if_true, body_ok W hW bits k (by omega), ih (by omega), Res.bind_ok, List.range_succ,
        List.reverse_append, List.reverse_singleton, List.singleton_append, List.map_cons]
      rfl
  exact key n (Nat.le_refl n)

example : write 16 (0xB1#8) 8 = .ok (shiftOut [true, false, true, true, false, false, false, true], false) := by decide

end Atl.Props
