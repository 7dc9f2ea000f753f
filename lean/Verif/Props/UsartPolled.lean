import Verif.Model.UsartPolled
import Verif.Props.UsartData
import Verif.Props.CriticalSectionUse

/-!
  C158: the polled transmitter used by main code and by interrupt handlers.
-/
namespace Atl.Props
open Atl.Usart Atl.UsartPolled

namespace Polled

/-! ### Specification -/

/-- Everything given to the line, oldest first: sent, being sent, waiting in the data register. -/
def given (h : Hw) : List Nat := h.line ++ h.shift.toList ++ h.tx.toList

/-- The data of the writes that reported success, in the order in which they returned. -/
def succeeded (log : List (Bool × Nat × Bool)) : List Nat := (log.filter fun c => c.2.2).map fun c => c.2.1

/-- What of a value is to be sent: nine bits or eight. -/
def frameOf (nine : Bool) (d : Nat) : Nat := if nine then d % 512 else d % 256

/-- Main code is outside of its calls, or has not yet seen the data register empty. -/
def Before : Pc → Prop
  | .idle | .waiting _ | .trying _ => True
  | _ => False

/-- Handlers write only then. -/
def Calm : St → List Ev → Prop
  | _, [] => True
  | y, e :: es => (∀ d, e = .handler d → Before y.pc) ∧ Calm (step y e) es

/-- How often in a history main code stores to a data register that is full. -/
def ignored : St → List Ev → Nat
  | _, [] => 0
  | y, e :: es => (match e, y.pc with | .main, .ready _ => if y.hw.tx = none then 0 else 1 | _, _ => 0) + ignored (step y e) es

/-! ### Proofs -/

theorem run_append (y : St) (l r : List Ev) : UsartPolled.run y (l ++ r) = UsartPolled.run (UsartPolled.run y l) r := by
  induction l generalizing y with
  | nil => rfl
  | cons e l ih => exact ih _

theorem given_frame (h : Hw) : given h.frameTime = given h := by simp [given, Hw.frameTime]

theorem given_load (h : Hw) : given h.load = given h := by
  unfold Hw.load
  split
  · next hs => simp [given, hs]
  · rfl

theorem writeB_empty {h : Hw} (hr : h.rx = []) (v : BitVec 8) : (h.writeB v).rx = [] := by
  show (if Usart.isTrue 4 v = true then h.rx else []) = []
  rw [hr]; exact ite_self _

theorem try_full {h : Hw} {d : Nat} (ht : h.tx ≠ none) : Usart.tryWrite d h = (h, false) := by
  unfold Usart.tryWrite
  rw [accept_iff, decide_eq_false ht]; rfl

theorem try_empty {h : Hw} {d : Nat} (ht : h.tx = none) : Usart.tryWrite d h = (writeInternal d h, true) := by
  unfold Usart.tryWrite
  rw [accept_iff, decide_eq_true ht]; rfl

theorem succ_yes (l : List (Bool × Nat × Bool)) (m : Bool) (d : Nat) : succeeded (l ++ [(m, d, true)]) = succeeded l ++ [d] := by simp [succeeded]

theorem succ_no (l : List (Bool × Nat × Bool)) (m : Bool) (d : Nat) : succeeded (l ++ [(m, d, false)]) = succeeded l := by simp [succeeded]

theorem given_write {h : Hw} {d : Nat} (hr : h.rx = []) (ht : h.tx = none) : given (writeInternal d h) = given h ++ [frameOf (h.ucsrb.getLsbD 2) d] := by
  obtain ⟨e1, _, _, _, e5, e6⟩ := c57_write d h (.inr hr) ht
  unfold given frameOf
  rw [e1, e5, e6, ht]
  simp

/-- The USART keeps its mode, and where main code has seen the register empty, it is. -/
structure Inv (nine : Bool) (y : St) : Prop where
  rx : y.hw.rx = []
  mode : y.hw.ucsrb.getLsbD 2 = nine
  given : given y.hw = (succeeded y.log).map (frameOf nine)
  at_ : match y.pc with
    | .idle | .waiting _ | .trying _ => True
    | .accepted _ => y.hw.tx = none
    | .nine _ => y.hw.tx = none ∧ nine = true
    | .cleared d => y.hw.tx = none ∧ nine = true ∧ d.testBit 8 = true
    | .loaded1 _ v => y.hw.tx = none ∧ nine = true ∧ v.getLsbD 2 = true
    | .loaded2 d v => y.hw.tx = none ∧ nine = true ∧ v.getLsbD 2 = true ∧ d.testBit 8 = true
    | .ready d => y.hw.tx = none ∧ (nine = true → y.hw.ucsrb.getLsbD 0 = d.testBit 8)

theorem frame_nine (d : Nat) : d % 256 + (if d.testBit 8 then 256 else 0) = d % 512 := by
  rw [Nat.testBit_eq_decide_div_mod_eq]
  by_cases hb : d / 2 ^ 8 % 2 = 1
  · rw [if_pos (by simpa using hb)]; omega
  · rw [if_neg (by simpa using hb)]; omega

theorem udr_tx {h : Hw} (ht : h.tx = none) (v : Nat) :
    given (h.writeUDR v) = given h ++ [v + if h.ucsrb.getLsbD 2 && h.ucsrb.getLsbD 0 then 256 else 0] := by
  simp only [Hw.writeUDR, ht, if_true, isTrue_bit 2 (by omega : 2 < 8), isTrue_bit 0 (by omega : 0 < 8), given, Option.toList_none, List.append_nil, Option.toList_some]

theorem udr_rx (h : Hw) (v : Nat) : (h.writeUDR v).rx = h.rx ∧ (h.writeUDR v).ucsrb = h.ucsrb := by
  unfold Hw.writeUDR
  split <;> exact ⟨rfl, rfl⟩

theorem inv_main {nine : Bool} {y : St} (h : Inv nine y) : Inv nine (mainStep y) := by
  obtain ⟨hw, pc, log⟩ := y
  obtain ⟨h1, h2, h3, h4⟩ := h
  cases pc with
  | idle => exact ⟨h1, h2, h3, trivial⟩
  | waiting d =>
    simp only [mainStep, accept_iff]
    split
    · next ht => exact ⟨h1, h2, h3, of_decide_eq_true ht⟩
    · exact ⟨h1, h2, h3, trivial⟩
  | trying d =>
    simp only [mainStep, accept_iff]
    split
    · next ht => exact ⟨h1, h2, h3, of_decide_eq_true ht⟩
    · refine ⟨h1, h2, ?_, trivial⟩
      show given hw = _
      rw [succ_no]; exact h3
  | accepted d =>
    simp only [mainStep, is9_eq]
    refine ⟨h1, h2, h3, ?_⟩
    change hw.ucsrb.getLsbD 2 = nine at h2
    cases nine with
    | true => simp only [h2, if_true]; exact ⟨h4, trivial⟩
    | false => simp only [h2, Bool.false_eq_true, if_false]; exact ⟨h4, fun h => nomatch h⟩
  | nine d =>
    refine ⟨h1, h2, h3, h4.1, h4.2, ?_⟩
    rw [readB_bit _ 2 (by omega)]
    exact h2.trans h4.2
  | loaded1 d v =>
    obtain ⟨k1, k2, k3⟩ := h4
    refine ⟨writeB_empty h1 _, ?_, h3, ?_⟩
    · show (clearBit 0 v).getLsbD 2 = nine
      rw [bit_clear 0 (by omega), if_neg (by omega), k3, k2]
    · simp only [mainStep]
      split
      · next hd =>
        cases hb : d.testBit 8 with
        | true => rw [hb] at hd; cases hd
        | false => rw [hb] at hd; cases hd
      · next hd =>
        cases hb : d.testBit 8 with
        | true => rw [hb] at hd; cases hd
        | false => rw [hb] at hd; cases hd
      · next hd =>
        cases hb : d.testBit 8 with
        | true => rw [hb] at hd; cases hd
        | false => rw [hb] at hd; cases hd
      · next hd =>
        cases hb : d.testBit 8 with
        | true => rw [hb] at hd; cases hd
        | false => rw [hb] at hd; cases hd
      · next hd =>
        cases hb : d.testBit 8 with
        | true => rw [hb] at hd; cases hd
        | false => rw [hb] at hd; cases hd
      · next hd =>
        cases hb : d.testBit 8 with
        | true => rw [hb] at hd; injection hd with hd; exact ⟨k1, k2, hd ▸ hb⟩
        | false => rw [hb] at hd; cases hd
      · next hd =>
        cases hb : d.testBit 8 with
        | true => rw [hb] at hd; cases hd
        | false => rw [hb] at hd; cases hd
      · next hd =>
        cases hb : d.testBit 8 with
        | true => rw [hb] at hd; cases hd
        | false => rw [hb] at hd; cases hd
      · next hd =>
        cases hb : d.testBit 8 with
        | true => rw [hb] at hd; cases hd
        | false =>
          rw [hb] at hd; injection hd with hd
          refine ⟨k1, fun _ => ?_⟩
          show (clearBit 0 v).getLsbD 0 = _
          rw [bit_clear 0 (by omega), if_pos rfl, ← hd, hb]
  | cleared d =>
    obtain ⟨k1, k2, k3⟩ := h4
    refine ⟨h1, h2, h3, k1, k2, ?_, k3⟩
    rw [readB_bit _ 2 (by omega)]
    exact h2.trans k2
  | loaded2 d v =>
    obtain ⟨k1, k2, k3, k4⟩ := h4
    refine ⟨writeB_empty h1 _, ?_, h3, k1, fun _ => ?_⟩
    · show (setBit 0 v).getLsbD 2 = nine
      rw [bit_set 0 (by omega), if_neg (by omega), k3, k2]
    · show (setBit 0 v).getLsbD 0 = _
      rw [bit_set 0 (by omega), if_pos rfl, k4]
  | ready d =>
    obtain ⟨k1, k2⟩ := h4
    obtain ⟨u1, u2⟩ := udr_rx hw (d % 256)
    refine ⟨u1.trans h1, by show (hw.writeUDR (d % 256)).ucsrb.getLsbD 2 = nine; rw [u2]; exact h2, ?_, trivial⟩
    show given (hw.writeUDR (d % 256)) = (succeeded (log ++ [(true, d, true)])).map (frameOf nine)
    change hw.tx = none at k1
    change given hw = (succeeded log).map (frameOf nine) at h3
    change nine = true → hw.ucsrb.getLsbD 0 = d.testBit 8 at k2
    rw [udr_tx k1, succ_yes, List.map_append, ← h3]
    congr 1
    show [_] = [frameOf nine d]
    congr 1
    change hw.ucsrb.getLsbD 2 = nine at h2
    rw [h2]
    cases nine with
    | false => rfl
    | true => rw [k2 rfl, Bool.true_and]; exact frame_nine d

theorem inv_step {nine : Bool} {y : St} {e : Ev} (h : Inv nine y) (hc : ∀ d, e = .handler d → Before y.pc) : Inv nine (UsartPolled.step y e) := by
  obtain ⟨h1, h2, h3, h4⟩ := h
  cases e with
  | write d => simp only [UsartPolled.step]; split <;> [exact ⟨h1, h2, h3, trivial⟩; exact ⟨h1, h2, h3, h4⟩]
  | tryWrite d => simp only [UsartPolled.step]; split <;> [exact ⟨h1, h2, h3, trivial⟩; exact ⟨h1, h2, h3, h4⟩]
  | main => exact inv_main ⟨h1, h2, h3, h4⟩
  | handler d =>
    have hb := hc d rfl
    have at' : ∀ h' l', (match (⟨h', y.pc, l'⟩ : St).pc with
        | .idle | .waiting _ | .trying _ => True
        | .accepted _ => h'.tx = none
        | .nine _ => h'.tx = none ∧ nine = true
        | .cleared d => h'.tx = none ∧ nine = true ∧ d.testBit 8 = true
        | .loaded1 _ v => h'.tx = none ∧ nine = true ∧ v.getLsbD 2 = true
        | .loaded2 d v => h'.tx = none ∧ nine = true ∧ v.getLsbD 2 = true ∧ d.testBit 8 = true
        | .ready d => h'.tx = none ∧ (nine = true → h'.ucsrb.getLsbD 0 = d.testBit 8)) := by
      intro h' _
      unfold Before at hb
      revert hb
      cases y.pc <;> first | exact fun _ => trivial | exact fun h => h.elim
    by_cases ht : y.hw.tx = none
    · have e : UsartPolled.step y (.handler d) = { y with hw := writeInternal d y.hw, log := y.log ++ [(false, d, true)] } := by
        simp only [UsartPolled.step, try_empty ht]
      rw [e]
      obtain ⟨_, w2, _, w4, _⟩ := c57_write d y.hw (.inr h1) ht
      refine ⟨w4.trans h1, (w2 2 (by omega) (by omega)).trans h2, ?_, at' _ _⟩
      show given (writeInternal d y.hw) = _
      rw [given_write h1 ht, succ_yes, List.map_append, h3, h2]; rfl
    · have e : UsartPolled.step y (.handler d) = { y with log := y.log ++ [(false, d, false)] } := by
        simp only [UsartPolled.step, try_full ht]
      rw [e]
      refine ⟨h1, h2, ?_, at' _ _⟩
      show given y.hw = _
      rw [succ_no]; exact h3
  | frame =>
    refine ⟨h1, h2, (given_frame _).trans h3, ?_⟩
    revert h4
    simp only [UsartPolled.step]
    cases y.pc <;> first | exact fun _ => trivial | exact fun _ => rfl | exact fun h => ⟨rfl, h.2⟩
  | load =>
    have l1 : y.hw.load.rx = y.hw.rx ∧ y.hw.load.ucsrb = y.hw.ucsrb ∧ (y.hw.tx = none → y.hw.load.tx = none) := by
      unfold Hw.load
      split
      · exact ⟨rfl, rfl, fun _ => rfl⟩
      · exact ⟨rfl, rfl, id⟩
    refine ⟨l1.1.trans h1, by show y.hw.load.ucsrb.getLsbD 2 = nine; rw [l1.2.1]; exact h2, (given_load _).trans h3, ?_⟩
    revert h4
    simp only [UsartPolled.step]
    cases y.pc <;> first | exact fun _ => trivial | exact fun h => l1.2.2 h | exact fun h => ⟨l1.2.2 h.1, by rw [l1.2.1]; exact h.2⟩ | exact fun h => ⟨l1.2.2 h.1, h.2⟩

theorem inv_run {nine : Bool} (es : List Ev) : ∀ y : St, Inv nine y → Calm y es → Inv nine (UsartPolled.run y es) := by
  induction es with
  | nil => exact fun y h _ => h
  | cons e es ih => exact fun y h hc => ih _ (inv_step h hc.1) hc.2

/-! Handlers at any moment -/

/-- Low bits and number. -/
structure Low (n : Nat) (y : St) : Prop where
  rx : y.hw.rx = []
  sub : ((given y.hw).map (· % 256)).Sublist ((succeeded y.log).map (· % 256))
  len : (given y.hw).length + n = (succeeded y.log).length

theorem low_same {n : Nat} {y y' : St} (h : Low n y) (h1 : y'.hw.rx = []) (h2 : given y'.hw = given y.hw) (h3 : succeeded y'.log = succeeded y.log) : Low n y' :=
  ⟨h1, by rw [h2, h3]; exact h.sub, by rw [h2, h3]; exact h.len⟩

theorem low_more {n : Nat} {y y' : St} {x d : Nat} (h : Low n y) (h1 : y'.hw.rx = []) (h2 : given y'.hw = given y.hw ++ [x]) (h3 : succeeded y'.log = succeeded y.log ++ [d]) (hx : x % 256 = d % 256) :
    Low n y' := by
  refine ⟨h1, ?_, ?_⟩
  · rw [h2, h3, List.map_append, List.map_append]
    exact h.sub.append (by simp [hx])
  · have := h.len
    rw [h2, h3, List.length_append, List.length_append, List.length_singleton, List.length_singleton]
    omega

theorem low_lost {n : Nat} {y y' : St} {d : Nat} (h : Low n y) (h1 : y'.hw.rx = []) (h2 : given y'.hw = given y.hw) (h3 : succeeded y'.log = succeeded y.log ++ [d]) : Low (n + 1) y' := by
  refine ⟨h1, ?_, ?_⟩
  · rw [h2, h3, List.map_append]
    exact h.sub.trans (List.sublist_append_left _ _)
  · have := h.len
    rw [h2, h3, List.length_append, List.length_singleton]
    omega

/-- One event's part of `ignored`. -/
def ignored1 (y : St) (e : Ev) : Nat := match e, y.pc with | .main, .ready _ => if y.hw.tx = none then 0 else 1 | _, _ => 0

theorem low_step {n : Nat} {y : St} (h : Low n y) (e : Ev) : Low (n + ignored1 y e) (UsartPolled.step y e) := by
  cases e with
  | write d => simp only [UsartPolled.step]; split <;> exact low_same h h.rx rfl rfl
  | tryWrite d => simp only [UsartPolled.step]; split <;> exact low_same h h.rx rfl rfl
  | frame => exact low_same h h.rx (given_frame _) rfl
  | load =>
    refine low_same h ?_ (given_load _) rfl
    show y.hw.load.rx = []
    unfold Hw.load
    split <;> exact h.rx
  | handler d =>
    by_cases ht : y.hw.tx = none
    · have e : UsartPolled.step y (.handler d) = { y with hw := writeInternal d y.hw, log := y.log ++ [(false, d, true)] } := by
        simp only [UsartPolled.step, try_empty ht]
      rw [e]
      refine low_more h ((c57_write d y.hw (.inr h.rx) ht).2.2.2.1.trans h.rx) (given_write h.rx ht) (succ_yes _ _ _) ?_
      unfold frameOf
      split <;> omega
    · have e : UsartPolled.step y (.handler d) = { y with log := y.log ++ [(false, d, false)] } := by
        simp only [UsartPolled.step, try_full ht]
      rw [e]
      exact low_same h h.rx rfl (succ_no _ _ _)
  | main =>
    obtain ⟨hw, pc, log⟩ := y
    cases pc with
    | idle => exact low_same h h.rx rfl rfl
    | waiting d => simp only [UsartPolled.step, mainStep]; split <;> exact low_same h h.rx rfl rfl
    | trying d =>
      simp only [UsartPolled.step, mainStep]
      split
      · exact low_same h h.rx rfl rfl
      · exact low_same h h.rx rfl (succ_no _ _ _)
    | accepted d => exact low_same h h.rx rfl rfl
    | nine d => exact low_same h h.rx rfl rfl
    | loaded1 d v => exact low_same h (writeB_empty h.rx _) rfl rfl
    | cleared d => exact low_same h h.rx rfl rfl
    | loaded2 d v => exact low_same h (writeB_empty h.rx _) rfl rfl
    | ready d =>
      obtain ⟨u1, u2⟩ := udr_rx hw (d % 256)
      by_cases ht : hw.tx = none
      · have e0 : ignored1 ⟨hw, .ready d, log⟩ .main = 0 := if_pos ht
        rw [e0]
        refine low_more h (u1.trans h.rx) (udr_tx ht _) (succ_yes _ _ _) ?_
        split <;> omega
      · have e0 : ignored1 ⟨hw, .ready d, log⟩ .main = 1 := if_neg ht
        rw [e0]
        refine low_lost h (u1.trans h.rx) ?_ (succ_yes _ _ _)
        show given (hw.writeUDR (d % 256)) = given hw
        rw [show hw.writeUDR (d % 256) = hw from if_neg ht]

theorem low_run (es : List Ev) : ∀ (n : Nat) (y : St), Low n y → Low (n + ignored y es) (UsartPolled.run y es) := by
  induction es with
  | nil => exact fun n y h => h
  | cons e es ih =>
    intro n y h
    have := ih _ _ (low_step h e)
    rw [Nat.add_assoc] at this
    exact this

/-- Eight bits: nothing on the line has a ninth bit. -/
structure Small (y : St) : Prop where
  rx : y.hw.rx = []
  mode : y.hw.ucsrb.getLsbD 2 = false
  small : ∀ x ∈ given y.hw, x < 256
  at_ : match y.pc with | .nine _ | .loaded1 _ _ | .cleared _ | .loaded2 _ _ => False | _ => True

theorem small_step {y : St} (h : Small y) (e : Ev) : Small (UsartPolled.step y e) := by
  obtain ⟨h1, h2, h3, h4⟩ := h
  cases e with
  | write d => simp only [UsartPolled.step]; split <;> [exact ⟨h1, h2, h3, trivial⟩; exact ⟨h1, h2, h3, h4⟩]
  | tryWrite d => simp only [UsartPolled.step]; split <;> [exact ⟨h1, h2, h3, trivial⟩; exact ⟨h1, h2, h3, h4⟩]
  | frame => exact ⟨h1, h2, by rw [show given (UsartPolled.step y .frame).hw = given y.hw from given_frame _]; exact h3, h4⟩
  | load =>
    have l1 : y.hw.load.rx = y.hw.rx ∧ y.hw.load.ucsrb = y.hw.ucsrb := by
      unfold Hw.load
      split <;> exact ⟨rfl, rfl⟩
    exact ⟨l1.1.trans h1, by show y.hw.load.ucsrb.getLsbD 2 = false; rw [l1.2]; exact h2, by rw [show given (UsartPolled.step y .load).hw = given y.hw from given_load _]; exact h3, h4⟩
  | handler d =>
    by_cases ht : y.hw.tx = none
    · have e : UsartPolled.step y (.handler d) = { y with hw := writeInternal d y.hw, log := y.log ++ [(false, d, true)] } := by
        simp only [UsartPolled.step, try_empty ht]
      rw [e]
      obtain ⟨_, w2, _, w4, _⟩ := c57_write d y.hw (.inr h1) ht
      refine ⟨w4.trans h1, (w2 2 (by omega) (by omega)).trans h2, ?_, h4⟩
      show ∀ x ∈ given (writeInternal d y.hw), x < 256
      rw [given_write h1 ht, h2]
      intro x hx
      rw [List.mem_append, List.mem_singleton] at hx
      rcases hx with hx | rfl
      · exact h3 x hx
      · exact Nat.mod_lt _ (by omega)
    · have e : UsartPolled.step y (.handler d) = { y with log := y.log ++ [(false, d, false)] } := by
        simp only [UsartPolled.step, try_full ht]
      rw [e]
      exact ⟨h1, h2, h3, h4⟩
  | main =>
    obtain ⟨hw, pc, log⟩ := y
    change hw.ucsrb.getLsbD 2 = false at h2
    cases pc with
    | idle => exact ⟨h1, h2, h3, trivial⟩
    | waiting d => simp only [UsartPolled.step, mainStep]; split <;> exact ⟨h1, h2, h3, trivial⟩
    | trying d => simp only [UsartPolled.step, mainStep]; split <;> exact ⟨h1, h2, h3, trivial⟩
    | accepted d => simp only [UsartPolled.step, mainStep, is9_eq, h2, Bool.false_eq_true, if_false]; exact ⟨h1, h2, h3, trivial⟩
    | nine d => exact h4.elim
    | loaded1 d v => exact h4.elim
    | cleared d => exact h4.elim
    | loaded2 d v => exact h4.elim
    | ready d =>
      obtain ⟨u1, u2⟩ := udr_rx hw (d % 256)
      refine ⟨u1.trans h1, by show (hw.writeUDR (d % 256)).ucsrb.getLsbD 2 = false; rw [u2]; exact h2, ?_, trivial⟩
      show ∀ x ∈ given (hw.writeUDR (d % 256)), x < 256
      by_cases ht : hw.tx = none
      · rw [udr_tx ht, h2]
        intro x hx
        rw [List.mem_append, List.mem_singleton] at hx
        rcases hx with hx | rfl
        · exact h3 x hx
        · show d % 256 + 0 < 256
          omega
      · rw [show hw.writeUDR (d % 256) = hw from if_neg ht]; exact h3

theorem small_run (es : List Ev) : ∀ y : St, Small y → Small (UsartPolled.run y es) := by
  induction es with
  | nil => exact fun y h => h
  | cons e es ih => exact fun y h => ih _ (small_step h e)

theorem mains_idle (n : Nat) (h : Hw) (l : List (Bool × Nat × Bool)) : UsartPolled.run ⟨h, .idle, l⟩ (List.replicate n .main) = ⟨h, .idle, l⟩ := by
  induction n with
  | zero => rfl
  | succ n ih => exact ih

theorem ready_run (n : Nat) (h : Hw) (d : Nat) (l : List (Bool × Nat × Bool)) :
    UsartPolled.run ⟨h, .ready d, l⟩ (List.replicate (n + 1) .main) = ⟨h.writeUDR (d % 256), .idle, l ++ [(true, d, true)]⟩ := mains_idle n _ _

theorem main_run (y : St) (n : Nat) : UsartPolled.run y (List.replicate (n + 1) .main) = UsartPolled.run (mainStep y) (List.replicate n .main) := rfl

theorem accepted_run (h : Hw) (d : Nat) (l : List (Bool × Nat × Bool)) :
    UsartPolled.run ⟨h, .accepted d, l⟩ (List.replicate 7 .main) = ⟨writeInternal d h, .idle, l ++ [(true, d, true)]⟩ := by
  rw [main_run]
  simp only [mainStep, writeInternal]
  cases is9 h with
  | false => exact ready_run 5 _ _ _
  | true =>
    simp only [if_true]
    rw [main_run, main_run]
    simp only [mainStep, Hw.bitB]
    cases d.testBit 8 with
    | false => exact ready_run 3 _ _ _
    | true =>
      simp only [if_true]
      rw [main_run, main_run]
      exact ready_run 1 _ _ _

end Polled
open Polled

/-- **C158.** Called without interruption, main code's `TryWrite` is the function of C57 and C73. -/
theorem c158_alone (y : St) (hi : y.pc = .idle) (d : Nat) :
    run y (.tryWrite d :: List.replicate 8 .main) = ⟨(tryWrite d y.hw).1, .idle, y.log ++ [(true, d, (tryWrite d y.hw).2)]⟩ := by
  obtain ⟨hw, pc, log⟩ := y
  change pc = .idle at hi
  subst hi
  have e : run ⟨hw, .idle, log⟩ (.tryWrite d :: List.replicate 8 .main) = run (mainStep ⟨hw, .trying d, log⟩) (List.replicate 7 .main) := rfl
  rw [e]
  simp only [mainStep, Usart.tryWrite]
  cases getAcceptData hw with
  | false => exact mains_idle 7 _ _
  | true => exact accepted_run _ _ _

/-- **C158.** Main code's `Write`, once it waits: after one frame and without interruption it returns `Success`, and its value is given to the line. -/
theorem c158_returns (y : St) (d : Nat) (hw : y.pc = .waiting d) (hr : y.hw.rx = []) :
    (run y (.frame :: List.replicate 8 .main)).pc = .idle ∧ (run y (.frame :: List.replicate 8 .main)).log = y.log ++ [(true, d, true)] ∧
    given (run y (.frame :: List.replicate 8 .main)).hw = given y.hw ++ [frameOf (y.hw.ucsrb.getLsbD 2) d] := by
  have key : run y (.frame :: List.replicate 8 .main) = ⟨writeInternal d y.hw.frameTime, .idle, y.log ++ [(true, d, true)]⟩ := by
    obtain ⟨hw', pc, log⟩ := y
    change pc = .waiting d at hw
    subst hw
    have e : run ⟨hw', .waiting d, log⟩ (.frame :: List.replicate 8 .main) = run (mainStep ⟨hw'.frameTime, .waiting d, log⟩) (List.replicate 7 .main) := rfl
    rw [e]
    have t : getAcceptData hw'.frameTime = true := by rw [accept_iff]; rfl
    simp only [mainStep, t, if_true]
    exact accepted_run _ _ _
  rw [key]
  refine ⟨rfl, rfl, ?_⟩
  show given (writeInternal d y.hw.frameTime) = _
  rw [given_write (show y.hw.frameTime.rx = [] from hr) rfl, given_frame]
  rfl

/-- **C158.** The part of the claim that holds: handlers that write only while main code is outside of its calls or has not yet seen the data register empty.  Every write that reported success is given to the
    line once, in the order in which they returned, nine bits of it in nine bit mode and eight otherwise, and nothing else is; two frames later all of it is on the line.
    Missing for the full claim: handlers that write between main code's test and its store (`c158_lost_fails`, `c158_ninth_fails`). -/
theorem c158_order_partial (b : BitVec 8) (es : List Ev) (hc : Calm (St.init b) es) :
    given (run (St.init b) es).hw = (succeeded (run (St.init b) es).log).map (frameOf (b.getLsbD 2)) ∧
    (run (St.init b) (es ++ [.frame, .frame])).hw.line = (succeeded (run (St.init b) es).log).map (frameOf (b.getLsbD 2)) := by
  have h := inv_run es (St.init b) (nine := b.getLsbD 2) ⟨rfl, rfl, rfl, trivial⟩ hc
  refine ⟨h.given, ?_⟩
  rw [Polled.run_append, ← h.given]
  show ((run (St.init b) es).hw.line ++ (run (St.init b) es).hw.shift.toList) ++ (run (St.init b) es).hw.tx.toList = _
  rfl

/-- **C158.** Handlers at any moment: exactly as many successful writes are lost as main code stored to a full data register; of the others the low eight bits are sent, in the order of their return. -/
theorem c158_count (b : BitVec 8) (es : List Ev) :
    (given (run (St.init b) es).hw).length + ignored (St.init b) es = (succeeded (run (St.init b) es).log).length ∧
    ((given (run (St.init b) es).hw).map (· % 256)).Sublist ((succeeded (run (St.init b) es).log).map (· % 256)) := by
  have h := low_run es 0 (St.init b) ⟨rfl, .slnil, rfl⟩
  rw [Nat.zero_add] at h
  exact ⟨h.len, h.sub⟩

/-- **C158.** In the modes of at most eight bits that is all that can happen: the line gets part of the successful writes, and all of them exactly if main code never stored to a full data register. -/
theorem c158_eight (b : BitVec 8) (hb : b.getLsbD 2 = false) (es : List Ev) :
    (given (run (St.init b) es).hw).Sublist ((succeeded (run (St.init b) es).log).map (· % 256)) ∧
    (given (run (St.init b) es).hw = (succeeded (run (St.init b) es).log).map (· % 256) ↔ ignored (St.init b) es = 0) := by
  obtain ⟨h1, h2⟩ := c158_count b es
  have h3 := (small_run es (St.init b) ⟨rfl, hb, (fun _ h => nomatch h), trivial⟩).small
  have h4 : (given (run (St.init b) es).hw).map (· % 256) = given (run (St.init b) es).hw :=
    (List.map_congr_left (g := id) fun x hx => Nat.mod_eq_of_lt (h3 x hx)).trans (List.map_id _)
  rw [h4] at h2
  refine ⟨h2, fun h => ?_, fun h => ?_⟩
  · rw [h, List.length_map] at h1; omega
  · exact h2.eq_of_length (by rw [List.length_map]; omega)

/-- **C158.** Where the claim fails, whatever was sent before and whatever is written (eight bits): a handler's `TryWrite` between main code's test and its store.  Both report success, the handler's value is sent
    and main code's is not. -/
theorem c158_lost_fails (y : St) (hi : y.pc = .idle) (hr : y.hw.rx = []) (ht : y.hw.tx = none) (h8 : y.hw.ucsrb.getLsbD 2 = false) (d e : Nat) :
    let y' := run y [.write d, .main, .main, .handler e, .main]
    y'.pc = .idle ∧ y'.log = y.log ++ [(false, e, true), (true, d, true)] ∧ given y'.hw = given y.hw ++ [e % 256] := by
  have key : run y [.write d, .main, .main, .handler e, .main] = ⟨writeInternal e y.hw, .idle, y.log ++ [(false, e, true), (true, d, true)]⟩ := by
    obtain ⟨hw, pc, log⟩ := y
    change pc = .idle at hi
    change hw.tx = none at ht
    change hw.ucsrb.getLsbD 2 = false at h8
    subst hi
    have hf : (writeInternal e hw).tx ≠ none := by
      rw [(c57_write e hw (.inr hr) ht).1]; exact fun h => nomatch h
    simp only [run, UsartPolled.step, if_true, mainStep, accept_iff, ht, decide_true, is9_eq, h8, Bool.false_eq_true, if_false, try_empty ht, List.append_assoc, List.cons_append, List.nil_append]
    rw [show (writeInternal e hw).writeUDR (d % 256) = writeInternal e hw from if_neg hf]
  simp only [key]
  refine ⟨trivial, trivial, ?_⟩
  rw [given_write hr ht, h8]; rfl

namespace Polled

theorem write_bit0 {h : Hw} (hr : h.rx = []) (h9 : h.ucsrb.getLsbD 2 = true) (e : Nat) : (writeInternal e h).ucsrb.getLsbD 0 = e.testBit 8 := by
  unfold writeInternal
  rw [is9_eq, h9]
  simp only [if_true]
  rw [(udr_rx _ _).2, (bitB_effect 0 (by omega) (by omega) (e.testBit 8) h (.inr hr)).1 0 (by omega), if_pos rfl]

/-- The accesses of main code until it has set the ninth bit. -/
def setting (d : Nat) : List Ev := List.replicate (if d.testBit 8 then 6 else 4) .main

theorem setting_run {h : Hw} {d : Nat} {l : List (Bool × Nat × Bool)} (ht : h.tx = none) (h9 : h.ucsrb.getLsbD 2 = true) :
    UsartPolled.run ⟨h, .idle, l⟩ (.write d :: setting d) = ⟨h.bitB 0 (d.testBit 8), .ready d, l⟩ := by
  have t : getAcceptData h = true := by rw [accept_iff, ht]; rfl
  have t9 : is9 h = true := by rw [is9_eq, h9]
  have e : UsartPolled.run ⟨h, .idle, l⟩ (.write d :: setting d) = UsartPolled.run ⟨h, .waiting d, l⟩ (setting d) := rfl
  rw [e]
  unfold setting Hw.bitB
  cases hb : d.testBit 8 with
  | false =>
    simp only [Bool.false_eq_true, if_false]
    rw [main_run, main_run, main_run, main_run]
    simp only [mainStep, t, t9, hb, if_true, Bool.false_eq_true, if_false]
    rfl
  | true =>
    simp only [if_true]
    rw [main_run, main_run, main_run, main_run, main_run, main_run]
    simp only [mainStep, t, t9, hb, if_true]
    rfl

end Polled

/-- **C158.** Nine bits: a handler's `TryWrite` between main code's setting of the ninth bit and its store, with the shift register empty.  Both values are sent, main code's with the ninth bit of the handler's. -/
theorem c158_ninth_fails (y : St) (hi : y.pc = .idle) (hr : y.hw.rx = []) (ht : y.hw.tx = none) (hs : y.hw.shift = none) (h9 : y.hw.ucsrb.getLsbD 2 = true) (d e : Nat) :
    let y' := run y (.write d :: setting d ++ [.handler e, .load, .main])
    y'.pc = .idle ∧ y'.log = y.log ++ [(false, e, true), (true, d, true)] ∧ given y'.hw = given y.hw ++ [e % 512, d % 256 + if e.testBit 8 then 256 else 0] := by
  obtain ⟨hw, pc, log⟩ := y
  change pc = .idle at hi
  subst hi
  intro y'
  have hy : y' = run ⟨hw.bitB 0 (d.testBit 8), .ready d, log⟩ [.handler e, .load, .main] := by
    show run _ _ = _
    rw [Polled.run_append, setting_run ht h9]
  obtain ⟨e1, e2, e3, e4, e5⟩ := bitB_effect 0 (by omega) (by omega) (d.testBit 8) hw (.inr hr)
  have eg : given (hw.bitB 0 (d.testBit 8)) = given hw := by unfold given; rw [e3, e4, e5]
  generalize hw.bitB 0 (d.testBit 8) = h1 at *
  have g2 : h1.ucsrb.getLsbD 2 = true := by rw [e1 2 (by omega), if_neg (by omega)]; exact h9
  have gr : h1.rx = [] := e2.trans hr
  have gt : h1.tx = none := e3.trans ht
  have gs : h1.shift = none := e4.trans hs
  obtain ⟨w1, w2, _, _, w5, _⟩ := c57_write e h1 (.inr gr) gt
  have w0 := write_bit0 gr g2 e
  have wg := given_write (d := e) gr gt
  have hy2 : y' = ⟨((writeInternal e h1).load).writeUDR (d % 256), .idle, log ++ [(false, e, true), (true, d, true)]⟩ := by
    rw [hy]
    simp only [run, UsartPolled.step, mainStep, try_empty gt, List.append_assoc, List.cons_append, List.nil_append]
  rw [hy2]
  refine ⟨rfl, rfl, ?_⟩
  have l1 : (writeInternal e h1).load.tx = none ∧ (writeInternal e h1).load.ucsrb = (writeInternal e h1).ucsrb := by
    unfold Hw.load
    rw [if_pos (w5.trans gs)]
    exact ⟨rfl, rfl⟩
  show given (((writeInternal e h1).load).writeUDR (d % 256)) = given hw ++ _
  rw [udr_tx l1.1, l1.2, w0, w2 2 (by omega) (by omega), g2, given_load, wg, g2, eg]
  simp [frameOf]

/-! ### In sections -/

namespace Polled

/-- The transmitter as a shared object; the hardware goes on sending at any time (AVR/UsartTransmit.h 147-171). -/
abbrev transmitter : CriticalSection.Machine where
  St := UsartPolled.St
  Ev := UsartPolled.Ev
  step := fun y e => .ok (UsartPolled.step y e)
  kind := fun | .write _ | .tryWrite _ => .enter | .main | .frame | .load => .within | .handler _ => .handler
  idle := fun y => y.pc = .idle
  proper := fun _ => True

theorem lawful_transmitter : Sections.Lawful transmitter := by
  intro (y : UsartPolled.St) (e : UsartPolled.Ev) (y' : UsartPolled.St) (hi : y.pc = .idle) hk h
  change Res.ok (UsartPolled.step y e) = .ok y' at h
  injection h with h
  subst h
  change (UsartPolled.step y e).pc = .idle
  cases e with
  | write => exact absurd rfl hk
  | tryWrite => exact absurd rfl hk
  | main => simp only [UsartPolled.step, mainStep, hi]
  | handler => exact hi
  | frame => exact hi
  | load => exact hi

theorem run_transmitter (es : List UsartPolled.Ev) (y : UsartPolled.St) : transmitter.run y es = .ok (UsartPolled.run y es) :=
  Sections.run_is (M := transmitter) (R := fun y es => .ok (UsartPolled.run y es)) (fun _ => rfl) (fun _ _ _ => rfl) es y

end Polled

/-- **C158.** Main code that writes only with interrupts off, handlers that write whenever they run: every write that reported success is sent once, in order, whole. -/
theorem c158_sections (b : BitVec 8) (on : Bool) (es : List (CriticalSection.Ev UsartPolled.Ev)) (hs : Sections.Sectioned transmitter (CriticalSection.Board.init _ (St.init b) on) es) :
    ∃ d, CriticalSection.run transmitter (CriticalSection.Board.init _ (St.init b) on) es = .ok d ∧ d.obj = run (St.init b) d.trace ∧ Calm (St.init b) d.trace ∧
      given d.obj.hw = (succeeded d.obj.log).map (frameOf (b.getLsbD 2)) := by
  have hc : ∀ tr, Sections.Clean transmitter (St.init b) tr → Calm (St.init b) tr := fun tr h =>
    Sections.clean_imp (M := transmitter) (Q := fun y es => Calm y es) (fun _ => trivial) (fun y e es _ hk h => ⟨(by
      intro v he
      subst he
      rw [show y.pc = .idle from hk (by intro h; cases h)]
      trivial), h _ rfl⟩) tr _ h
  obtain ⟨d, hd⟩ := c151_defined _ lawful_transmitter (St.init b) on (fun _ => rfl) es hs fun tr _ => ⟨_, run_transmitter tr _⟩
  obtain ⟨h1, h2⟩ := c151_apart _ lawful_transmitter (St.init b) on (fun _ => rfl) es hs d hd
  have h4 : run (St.init b) d.trace = d.obj := by
    have := (run_transmitter d.trace (St.init b)).symm.trans h2
    injection this
  refine ⟨d, hd, h4.symm, hc _ h1, ?_⟩
  rw [← h4]
  exact (c158_order_partial b d.trace (hc _ h1)).1

/-- **C158.** The full claim, every successful write of main code and handlers is sent, is false. -/
theorem c158_full_claim_is_false : ¬ ∀ (b : BitVec 8) (es : List Ev), (run (St.init b) es).pc = .idle →
    (given (run (St.init b) es).hw).Perm ((succeeded (run (St.init b) es).log).map (frameOf (b.getLsbD 2))) := by
  intro h
  have k := c158_lost_fails (St.init 8#8) rfl rfl rfl (by decide) 65 66
  have := (h 8#8 _ k.1).length_eq
  rw [k.2.1, k.2.2] at this
  simp [St.init, given, succeeded] at this

/-! ### Examples -/

namespace Polled

instance decBefore (p : Pc) : Decidable (Before p) := by unfold Before; split <;> infer_instance

instance decCalm : (es : List Ev) → (y : St) → Decidable (Calm y es)
  | [], _ => .isTrue trivial
  | e :: es, y =>
    have d1 : Decidable (∀ d, e = .handler d → Before y.pc) :=
      match e with
      | .handler v => decidable_of_iff (Before y.pc) ⟨fun h _ _ => h, fun h => h v rfl⟩
      | .write _ => .isTrue fun _ h => by cases h
      | .tryWrite _ => .isTrue fun _ h => by cases h
      | .main => .isTrue fun _ h => by cases h
      | .frame => .isTrue fun _ h => by cases h
      | .load => .isTrue fun _ h => by cases h
    have d2 : Decidable (Calm (UsartPolled.step y e) es) := decCalm es _
    instDecidableAnd

instance : DecidablePred transmitter.proper := fun _ => .isTrue trivial
instance : DecidablePred transmitter.idle := fun y => inferInstanceAs (Decidable (UsartPolled.St.pc y = .idle))

/-- Nine bits: a handler writes before main code's call and while main code waits, main code's `TryWrite` is refused. -/
def busy : List Ev := [.handler 0x141, .load, .write 0x0FF, .handler 0x042, .main, .handler 0x043, .frame, .main, .main, .main, .load, .main, .main, .tryWrite 0x180, .main, .handler 0x099]

end Polled

example := c158_order_partial 0x1C#8 busy (by decide +kernel)
example : succeeded (run (St.init 0x1C#8) busy).log = [0x141, 0x042, 0x0FF] ∧ (run (St.init 0x1C#8) busy).log.length = 6 ∧ given (run (St.init 0x1C#8) busy).hw = [0x141, 0x042, 0x0FF] := by decide +kernel
example := c158_alone (run (St.init 0x1C#8) busy) (by decide +kernel) 0x1A5
example := c158_returns (run (St.init 0x1C#8) (busy ++ [.write 0x1A5, .main])) 0x1A5 (by decide +kernel) (by decide +kernel)
/-- Eight bits: two handlers behind the test; the shift register takes the first one's value, the second one's takes main code's place. -/
example : ignored (St.init 0x18#8) [.write 65, .main, .handler 66, .load, .handler 67, .main, .main] = 1 ∧
    given (run (St.init 0x18#8) [.write 65, .main, .handler 66, .load, .handler 67, .main, .main]).hw = [66, 67] := by decide +kernel
example := c158_eight 0x18#8 (by decide) [.write 65, .main, .handler 66, .load, .main, .main]
example : given (run (St.init 0x18#8) [.write 65, .main, .handler 66, .load, .main, .main]).hw = [66, 65] := by decide +kernel
example := c158_count 0x1C#8 busy
example := c158_lost_fails (run (St.init 0x18#8) [.handler 64, .load]) rfl (by decide +kernel) (by decide +kernel) (by decide +kernel) 65 66
example := c158_ninth_fails (run (St.init 0x1C#8) [.handler 64, .load, .frame]) rfl (by decide +kernel) (by decide +kernel) (by decide +kernel) (by decide +kernel) 0x141 0x042
example : given (run (St.init 0x1C#8) (.write 0x141 :: setting 0x141 ++ [.handler 0x042, .load, .main])).hw = [0x042, 0x041] := by decide +kernel

/-- Main code in a section, a handler behind it. -/
def polledSections : List (CriticalSection.Ev UsartPolled.Ev) :=
  [.off, .main (.tryWrite 0x141), .request 0, .main .main, .main .main, .serve 0 [.handler 0x042], .main .main, .main .main, .main .main, .main .main, .main .main, .on, .other, .main .load,
    .serve 0 [.handler 0x042]]

example := c158_sections 0x1C#8 true polledSections (by decide +kernel)
example : Sections.okB (fun d => decide (given d.obj.hw = [0x141, 0x042])) (CriticalSection.run transmitter (CriticalSection.Board.init _ (St.init 0x1C#8) true) polledSections) = true := by decide +kernel

end Atl.Props
