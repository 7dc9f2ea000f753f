import Verif.Model.TextWriter
import Verif.Spec.Text
import Mathlib.Tactic.Ring

namespace Atl.Text
open Atl.Spec.Text

theorem digitChar_spec : ∀ d : Nat, d < 36 →
    digitVal (digitChar d) = some d ∧ digitChar d ≠ 0 ∧ (digitChar d = 48 → d = 0) ∧ (digitChar d = 45 → False) := by
  decide +kernel

theorem toU_small {n : Nat} {x : Nat} (h : x < 2 ^ n) : toU n (x : Int) = x := by
  unfold toU
  rw [← Int.natCast_emod, Nat.mod_eq_of_lt h]; rfl

theorem readFrom_append (b : Nat) (s t : List Nat) (acc m : Nat) (h : readFrom b acc s = some m) :
    readFrom b acc (s ++ t) = readFrom b m t := by
  induction s generalizing acc with
  | nil => simp [readFrom] at h; simp [h]
  | cons c s ih =>
    simp only [List.cons_append, readFrom] at h ⊢
    cases hd : digitVal c with
    | none => rw [hd] at h; cases h
    | some d =>
      rw [hd] at h
      simp only at h ⊢
      split at h
      · rename_i hlt; rw [if_pos hlt]; exact ih _ h
      · cases h

/-- What the digit loop leaves in the buffer. -/
theorem digitLoop_ok (n b : Nat) (hb : 2 ≤ b) (hb' : b ≤ 36) : ∀ (pos : Nat) (buf : List Nat) (v : Nat),
    pos < buf.length → 1 ≤ pos → v < b ^ pos → v < 2 ^ n →
    ∃ pos' s buf', digitLoop n b pos buf v = .ok (pos', buf') ∧ buf'.drop pos' = s ++ buf.drop pos ∧ s ≠ [] ∧
      (∀ acc, readFrom b acc s = some (acc * b ^ s.length + v)) ∧ (s.head? = some 48 → s = [48]) ∧ (∀ c ∈ s, c ≠ 0) ∧
      (∀ c ∈ s, c ≠ 45) := by
  intro pos
  induction pos with
  | zero => intro _ _ _ h; omega
  | succ pos ih =>
    intro buf v hlen _ hv hn
    have hmod : (v : Int) - b * (v / b : Nat) = ((v % b : Nat) : Int) := by
      have := Nat.div_add_mod v b
      push_cast [Int.emod_def]; ring
    have hlt : v % b < b := Nat.mod_lt _ (by omega)
    have hU : toU n ((v : Int) - b * (v / b : Nat)) = v % b := by
      rw [hmod, toU_small (Nat.lt_of_le_of_lt (Nat.mod_le _ _) hn)]
    obtain ⟨hd1, hd2, hd3, hd4⟩ := digitChar_spec (v % b) (by omega)
    simp only [digitLoop, hU]
    rw [cSet_ok _ (by omega)]
    simp only [Res.bind_ok]
    have hset : (buf.set pos (digitChar ((v % b : Nat) : Int))).drop pos = digitChar ((v % b : Nat) : Int) :: buf.drop (pos + 1) := by
      rw [List.drop_eq_getElem_cons (by simp; omega)]
      simp [List.drop_set_of_lt]
    by_cases hq : v / b = 0
    · have hvb : v < b := by
        rcases Nat.div_eq_zero_iff.1 hq with h | h <;> omega
      have hvm : v % b = v := Nat.mod_eq_of_lt hvb
      refine ⟨pos, [digitChar ((v % b : Nat) : Int)], buf.set pos (digitChar ((v % b : Nat) : Int)), by simp [hq], hset, by simp, ?_, ?_, ?_, ?_⟩
      · intro acc
        simp only [readFrom, hd1, if_pos hlt]
        simp [hvm]
      · simp
      · simpa using hd2
      · simpa using hd4
    · have hq' : v / b < b ^ pos := by
        apply Nat.div_lt_of_lt_mul; rw [Nat.pow_succ, Nat.mul_comm] at hv; exact hv
      have hpos : 1 ≤ pos := by
        rcases pos with _ | p
        · exact absurd (Nat.lt_one_iff.1 hq') hq
        · omega
      obtain ⟨pos', s, buf', e, hdrop, hne, hread, hhead, hnz, hnm⟩ := ih (buf.set pos (digitChar ((v % b : Nat) : Int))) (v / b)
        (by simp; omega) hpos hq' (Nat.lt_of_le_of_lt (Nat.div_le_self _ _) hn)
      refine ⟨pos', s ++ [digitChar ((v % b : Nat) : Int)], buf', ?_, ?_, by simp, ?_, ?_, ?_, ?_⟩
      · simp only [ne_eq, hq, not_false_eq_true, if_true, e]
      · rw [hdrop, hset]; simp
      · intro acc
        rw [readFrom_append b s _ acc _ (hread acc)]
        simp only [readFrom, hd1, if_pos hlt, List.length_append, List.length_singleton, Option.some.injEq]
        have := Nat.div_add_mod v b
        calc (acc * b ^ s.length + v / b) * b + v % b = acc * b ^ (s.length + 1) + (b * (v / b) + v % b) := by ring
          _ = _ := by rw [this]
      · intro h
        have hs : s.head? = some 48 := by
          cases s with
          | nil => exact absurd rfl hne
          | cons a s => simpa using h
        have := hhead hs
        subst this
        have h0 := hread 0
        simp [readFrom, digitVal] at h0
        omega
      · intro c hc
        rcases List.mem_append.1 hc with h | h
        · exact hnz c h
        · rw [List.mem_singleton.1 h]; exact hd2
      · intro c hc
        rcases List.mem_append.1 hc with h | h
        · exact hnm c h
        · rw [List.mem_singleton.1 h]; exact hd4

theorem digitLoop_ub (n b : Nat) (hb : 2 ≤ b) : ∀ (pos : Nat) (buf : List Nat) (v : Nat),
    b ^ pos ≤ v → digitLoop n b pos buf v = .ub := by
  intro pos
  induction pos with
  | zero => intros; rfl
  | succ pos ih =>
    intro buf v hv
    have hq : b ^ pos ≤ v / b := by
      rw [Nat.le_div_iff_mul_le (by omega)]; rw [Nat.pow_succ] at hv; exact hv
    have h0 : v / b ≠ 0 := by exact Nat.ne_of_gt (Nat.lt_of_lt_of_le (Nat.pow_pos (by omega)) hq)
    simp only [digitLoop]
    unfold cSet
    split
    · simp only [Res.bind_ok, ne_eq, h0, not_false_eq_true, if_true]; exact ih _ _ hq
    · rfl

theorem writeStr_ok (s rest : List Nat) (h : ∀ c ∈ s, c ≠ 0) : writeStr (s ++ 0 :: rest) = .ok s := by
  induction s with
  | nil => rfl
  | cons c s ih =>
    simp only [List.cons_append, writeStr, h c (by simp), if_false, ih fun x hx => h x (by simp [hx]), Res.bind_ok]

/-- `WriteInternal` writes a numeral of the value whenever it fits. -/
theorem writeInternal_ok (n size b v : Nat) (junk : List Nat) (hj : junk.length = size) (hs : 2 ≤ size) (hb : 2 ≤ b) (hb' : b ≤ 36)
    (hv : v < b ^ (size - 1)) (hn : v < 2 ^ n) :
    ∃ s, writeInternal n size junk v b = .ok s ∧ Numeral b s v ∧ (∀ c ∈ s, c ≠ 45) ∧
      (∀ acc, readFrom b acc s = some (acc * b ^ s.length + v)) ∧ s ≠ [] := by
  have h0 : cSet junk (size - 1) 0 = .ok (junk.set (size - 1) 0) := cSet_ok _ (by omega)
  obtain ⟨pos', s, buf', e, hdrop, hne, hread, hhead, hnz, hnm⟩ := digitLoop_ok n b hb hb' (size - 1) (junk.set (size - 1) 0) v
    (by simp; omega) (by omega) hv hn
  have hlast : (junk.set (size - 1) 0).drop (size - 1) = [0] := by
    rw [List.drop_eq_getElem_cons (by simp; omega)]
    simp; omega
  refine ⟨s, ?_, ⟨?_, hhead⟩, hnm, hread, hne⟩
  · simp only [writeInternal, h0, Res.bind_ok, if_neg (show ¬ b < 2 by omega), e, hdrop, hlast]
    exact writeStr_ok s [] hnz
  · simp only [parse, hne, if_false]
    rw [hread 0]; simp

theorem writeInternal_ub (n size b v : Nat) (junk : List Nat) (hb : 2 ≤ b) (hv : b ^ (size - 1) ≤ v) :
    writeInternal n size junk v b = .ub := by
  simp only [writeInternal]
  unfold cSet
  split
  · simp only [Res.bind_ok, if_neg (show ¬ b < 2 by omega)]
    rw [digitLoop_ub n b hb _ _ _ hv]; rfl
  · rfl

end Atl.Text
