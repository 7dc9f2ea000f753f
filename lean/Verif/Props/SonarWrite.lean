import Verif.Props.Sonar

/- Property theorem C67 for every stream of answers. -/
namespace Atl.Props
open Atl.Sonar Atl.Spec.Sonar

/-- By the protocol, taking the bytes in frames of four: the first frame with the right sum. -/
def firstGood : List Nat → Option (Nat × Nat × Nat)
  | c :: a :: b :: s :: rest => if (c + a + b) % 256 = s then some (c, a, b) else firstGood rest
  | _ => none

namespace SonarWrite

theorem four (l : List Nat) (h : 4 ≤ l.length) : ∃ c a b s rest, l = c :: a :: b :: s :: rest := by
  match l, h with
  | c :: a :: b :: s :: rest, _ => exact ⟨c, a, b, s, rest, rfl⟩

theorem firstGood_short (l : List Nat) (h : l.length < 4) : firstGood l = none := by
  match l, h with
  | [], _ => rfl
  | [_], _ => rfl
  | [_, _], _ => rfl
  | [_, _, _], _ => rfl

theorem receive_good (o : Out) (c a b s : Nat) (rest : List Nat) (h : (c + a + b) % 256 = s) :
    receiveResponse o (c :: a :: b :: s :: rest) = (.success, ⟨c, a, b⟩, rest) := by
  simp [receiveResponse, checksum_eq, h]

theorem receive_bad (o : Out) (c a b s : Nat) (rest : List Nat) (h : (c + a + b) % 256 ≠ s) :
    receiveResponse o (c :: a :: b :: s :: rest) = (.checksumError, ⟨c, a, b⟩, rest) := by
  simp [receiveResponse, checksum_eq, h]

theorem wait_step (o : Out) (s p : List Nat) (ps : List (List Nat)) :
    ((s ++ p).length < 4 ∧ waitResponse o s (p :: ps) = waitResponse o (s ++ p) ps) ∨
    (∃ c a b k rest, s ++ p = c :: a :: b :: k :: rest ∧
      ((c + a + b) % 256 = k ∧ waitResponse o s (p :: ps) = some (⟨c, a, b⟩, rest) ∨
       (c + a + b) % 256 ≠ k ∧ waitResponse o s (p :: ps) = waitResponse ⟨c, a, b⟩ rest ps)) := by
  by_cases h : (s ++ p).length < 4
  · left
    refine ⟨h, ?_⟩
    have hr := c45_short o (s ++ p) h
    simp only [waitResponse, hr]
    rw [if_neg (by split_ifs <;> simp)]
  · right
    obtain ⟨c, a, b, k, rest, e⟩ := four (s ++ p) (by omega)
    refine ⟨c, a, b, k, rest, e, ?_⟩
    by_cases hk : (c + a + b) % 256 = k
    · left
      refine ⟨hk, ?_⟩
      simp only [waitResponse, e, receive_good o c a b k rest hk, if_true]
    · right
      refine ⟨hk, ?_⟩
      simp only [waitResponse, e, receive_bad o c a b k rest hk]
      rw [if_neg (by simp)]

theorem wait_sound (o : Out) (s : List Nat) (ps : List (List Nat)) (o' : Out) (rest : List Nat) (h : waitResponse o s ps = some (o', rest)) :
    firstGood (s ++ ps.flatten) = some (o'.command, o'.data1, o'.data2) := by
  induction ps generalizing o s with
  | nil => simp [waitResponse] at h
  | cons p ps ih =>
    rw [List.flatten_cons, ← List.append_assoc]
    rcases wait_step o s p ps with ⟨_, e⟩ | ⟨c, a, b, k, r, e1, ⟨hk, e⟩ | ⟨hk, e⟩⟩
    · rw [e] at h; exact ih _ _ h
    · rw [e, Option.some.injEq, Prod.mk.injEq] at h
      rw [e1, ← h.1]
      simp [firstGood, hk]
    · rw [e] at h
      rw [e1, List.cons_append, List.cons_append, List.cons_append, List.cons_append, firstGood, if_neg hk]
      exact ih _ _ h

theorem wait_quiet (o : Out) (s : List Nat) (n : Nat) (hn : s.length / 4 ≤ n) (x : Nat × Nat × Nat) (hx : firstGood s = some x) :
    ∃ rest, waitResponse o s (List.replicate n []) = some (⟨x.1, x.2.1, x.2.2⟩, rest) := by
  induction n generalizing o s with
  | zero => rw [firstGood_short s (by omega)] at hx; cases hx
  | succ n ih =>
    rw [List.replicate_succ]
    rcases wait_step o s [] (List.replicate n []) with ⟨h4, e⟩ | ⟨c, a, b, k, r, e1, ⟨hk, e⟩ | ⟨hk, e⟩⟩
    · rw [List.append_nil] at h4
      rw [firstGood_short s h4] at hx; cases hx
    · rw [List.append_nil] at e1
      rw [e1, firstGood, if_pos hk, Option.some.injEq] at hx
      exact ⟨r, by rw [e, ← hx]⟩
    · rw [List.append_nil] at e1
      rw [e1, firstGood, if_neg hk] at hx
      rw [e]
      refine ih _ r ?_ hx
      rw [e1] at hn
      simp only [List.length_cons] at hn
      omega

theorem wait_complete (o : Out) (s : List Nat) (ps : List (List Nat)) (n : Nat) (hn : (s ++ ps.flatten).length / 4 ≤ n) (x : Nat × Nat × Nat)
    (hx : firstGood (s ++ ps.flatten) = some x) :
    ∃ rest, waitResponse o s (ps ++ List.replicate n []) = some (⟨x.1, x.2.1, x.2.2⟩, rest) := by
  induction ps generalizing o s with
  | nil =>
    rw [List.flatten_nil, List.append_nil] at hn hx
    exact wait_quiet o s n hn x hx
  | cons p ps ih =>
    rw [List.flatten_cons, ← List.append_assoc] at hx hn
    rw [List.cons_append]
    rcases wait_step o s p (ps ++ List.replicate n []) with ⟨_, e⟩ | ⟨c, a, b, k, r, e1, ⟨hk, e⟩ | ⟨hk, e⟩⟩
    · rw [e]; exact ih _ _ hn hx
    · rw [e1] at hx
      simp only [List.cons_append, firstGood, if_pos hk, Option.some.injEq] at hx
      exact ⟨r, by rw [e, ← hx]⟩
    · rw [e1] at hx hn
      simp only [List.cons_append, firstGood, if_neg hk] at hx
      rw [e]
      refine ih _ r ?_ hx
      simp only [List.cons_append, List.length_cons] at hn
      omega

end SonarWrite
open SonarWrite

/-- **C67, every answer.** Whatever bytes are left in the stream and come in, in whatever pieces: when `WriteEEPROM` returns, it returns true exactly if the first frame
    with a right sum, counting from the bytes that were left, is the echo of address and value. If there is such a frame it returns, after
    at most as many further polls as there are frames; if there is none it does not return, however long it polls. -/
theorem c67_exact (o : Out) (a b : Nat) (s : List Nat) (pieces : List (List Nat)) :
    (∀ r rest, writeEeprom o a b s pieces = some (r, rest) →
      ∃ x, firstGood (s ++ pieces.flatten) = some x ∧ (r = true ↔ x = (0x44, a, b))) ∧
    (∀ x, firstGood (s ++ pieces.flatten) = some x → ∀ n, (s ++ pieces.flatten).length / 4 ≤ n →
      ∃ rest, writeEeprom o a b s (pieces ++ List.replicate n []) = some (decide (x = (0x44, a, b)), rest)) ∧
    (firstGood (s ++ pieces.flatten) = none → ∀ n, writeEeprom o a b s (pieces ++ List.replicate n []) = none) := by
  refine ⟨fun r rest h => ?_, fun x hx n hn => ?_, fun hx n => ?_⟩
  · unfold writeEeprom at h
    cases hw : waitResponse o s pieces with
    | none => rw [hw] at h; cases h
    | some q =>
      obtain ⟨o', rest'⟩ := q
      rw [hw] at h
      simp only [Option.some.injEq, Prod.mk.injEq] at h
      refine ⟨_, wait_sound o s pieces o' rest' hw, ?_⟩
      rw [← h.1, decide_eq_true_eq, Prod.mk.injEq, Prod.mk.injEq]
  · obtain ⟨rest, e⟩ := wait_complete o s pieces n hn x hx
    refine ⟨rest, ?_⟩
    unfold writeEeprom
    rw [e]
    obtain ⟨x1, x2, x3⟩ := x
    simp only [Prod.mk.injEq]
  · unfold writeEeprom
    cases hw : waitResponse o s (pieces ++ List.replicate n []) with
    | none => rfl
    | some q =>
      obtain ⟨o', rest'⟩ := q
      have := wait_sound o s _ o' rest' hw
      have e : (pieces ++ List.replicate n []).flatten = pieces.flatten := by simp
      rw [e, hx] at this
      cases this

/-- A distance response that was still on its way is taken for the answer to the write; the echo after it is not looked at. -/
example : firstGood (frame 0x22 0 100 ++ frame 0x44 2 0xAA) = some (0x22, 0, 100) ∧
    writeEeprom ⟨0, 0, 0⟩ 2 0xAA (frame 0x22 0 100) [frame 0x44 2 0xAA] = some (false, frame 0x44 2 0xAA) := by decide
/-- A corrupted echo and a good one. -/
example : firstGood ([0x44, 2, 0xAA, 0xF1] ++ frame 0x44 2 0xAA) = some (0x44, 2, 0xAA) ∧
    writeEeprom ⟨0, 0, 0⟩ 2 0xAA [] [[0x44, 2, 0xAA], [0xF1], frame 0x44 2 0xAA] = some (true, []) := by decide

end Atl.Props
