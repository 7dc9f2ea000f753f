import Verif.Props.LcdTiming

/- C98: the seven conditions on a timing profile are necessary as well. -/
namespace Atl.Props
open Atl.Spec.Lcd Atl.Lcd

theorem zero_wait (c : Nat) (w : LcdWorld) (us : Nat) (rest : List Timing.Act) (h : (lcdPlay c (fun _ => 0) w (.wait us :: rest)).isSome = true) :
    (lcdPlay c (fun _ => 0) ⟨w.now + us, w.k + 1, w.lines, w.busy⟩ rest).isSome = true := h

/-- A nibble of the start phase, without any extra time: the display must be free, and when it is free again. -/
theorem zero_phase (P : Timing.Profile) (c : Nat) (w : LcdWorld) (hr : AtRest w.lines) (hrs : w.lines.rs = false) (h4 : w.busy.four = false)
    (us n : Nat) (hn : n < 16) (rest : List Timing.Act)
    (h : (lcdPlay c (fun _ => 0) w ((.wait us :: Timing.write4 P n) ++ rest)).isSome = true) :
    w.busy.free ≤ w.now + us + 5 * c ∧ ∃ w', AtRest w'.lines ∧ w'.lines.rs = false ∧ w'.now = w.now + us + 6 * c + P.pulse ∧
      w'.busy = ⟨n == 2, none, w.busy.boot + 1, w.now + us + 5 * c + bootDuration w.busy.boot false n⟩ ∧ (lcdPlay c (fun _ => 0) w' rest).isSome = true := by
  obtain ⟨t, now', k', l', a1, a2, a3, a4, a5, a6⟩ := play_write4 P c (fun _ => 0) ⟨w.now + us, w.k + 1, w.lines, w.busy⟩ hr n
  obtain ⟨e1, e2⟩ := a5 fun _ => rfl
  dsimp only at e1 e2 a4
  rw [List.cons_append] at h
  have h := zero_wait c w us _ h
  rw [play_append, a6] at h
  dsimp only at h
  have hf : w.busy.free ≤ t := by
    refine Classical.byContradiction fun hx => ?_
    have : w.busy.accept t w.lines.rs (n % 16) = none := by
      unfold Busy.accept; rw [if_pos (by omega)]
    rw [this] at h
    cases h
  have hacc : w.busy.accept t w.lines.rs (n % 16) = some ⟨n == 2, none, w.busy.boot + 1, t + bootDuration w.busy.boot false n⟩ := by
    unfold Busy.accept
    rw [if_neg (by omega), hrs, h4, Nat.mod_eq_of_lt hn]
    rfl
  rw [hacc] at h
  refine ⟨by omega, ⟨now', k', l', ⟨n == 2, none, w.busy.boot + 1, t + bootDuration w.busy.boot false n⟩⟩, a3, a4.trans hrs, by dsimp only; omega, ?_, h⟩
  rw [e1]

/-- A byte, without any extra time. -/
theorem zero_byte (P : Timing.Profile) (c : Nat) (w : LcdWorld) (hw : BetweenBytes w) (rs : Bool) (b : Nat) (hb : b < 256) (rest : List Timing.Act)
    (h : (lcdPlay c (fun _ => 0) w (Timing.writeByte P rs b ++ rest)).isSome = true) :
    w.busy.free ≤ w.now + 6 * c ∧ ∃ w', AtRest w'.lines ∧ w'.now = w.now + 13 * c + 2 * P.pulse ∧
      w'.busy = ⟨rs || b / 16 != 3, none, w.busy.boot, w.now + 12 * c + P.pulse + duration rs b⟩ ∧ (lcdPlay c (fun _ => 0) w' rest).isSome = true := by
  obtain ⟨t1, t2, now', k', l', a1, a2, a3, a4, a5, a6⟩ := play_byte P c (fun _ => 0) w hw rs b hb
  obtain ⟨e1, e2, e3⟩ := a5 fun _ => rfl
  rw [play_append, a6] at h
  by_cases hf : w.busy.free ≤ t1
  · rw [if_pos hf] at h
    refine ⟨by omega, _, a4, ?_, ?_, h⟩
    · dsimp only; omega
    · dsimp only; congr 1; omega
  · rw [if_neg hf] at h
    cases h

/-- **C98, exactly which profiles.** All programs that start with a full initialisation leave a busy display alone, whatever takes longer, exactly when the profile and the
    speed of the processor meet the seven conditions. (Not slow enough: a program that writes two characters already goes wrong.) -/
theorem c98_busy_iff (P : Timing.Profile) (c : Nat) :
    (∀ (x : Nat → Nat) (rows : Nat) (s s' : View.State) (ops : List View.Op), (∀ o ∈ ops, ByteOp o ∧ o ≠ .startUp true) → ∀ l : List Timing.TCall,
      Timing.run P rows s (.startUp true :: ops) = .ok (s', l) → ∀ (now k : Nat) (a : Lines), AtRest a → a.rs = false →
      (lcdPlay c x ⟨now, k, a, powerOn⟩ (l.flatMap (Timing.act P))).isSome = true) ↔ SlowEnough P c := by
  constructor
  · intro hall
    have hrun : ∃ s' l, Timing.run P 2 ⟨0, 0, 0⟩ [.startUp true, .put 65, .put 66] = .ok (s', l) ∧ l.flatMap (Timing.act P) =
        (.wait P.powerUp :: Timing.write4 P 3) ++ ((.wait P.initLong :: Timing.write4 P 3) ++ ((.wait P.initMid :: Timing.write4 P 3) ++
        ((.wait P.initShort :: Timing.write4 P 2) ++ (Timing.writeByte P false 0x28 ++ (Timing.writeByte P false 1 ++ (.wait P.commandLong ::
        (Timing.writeByte P false 2 ++ (.wait P.commandLong :: (Timing.writeByte P false 6 ++ (.wait P.command :: (Timing.writeByte P true 65 ++
        (Timing.writeByte P true 66 ++ [])))))))))))) := by
      refine ⟨_, _, rfl, ?_⟩
      rfl
    obtain ⟨s', l, hr, hl⟩ := hrun
    have h := hall (fun _ => 0) 2 ⟨0, 0, 0⟩ s' [.put 65, .put 66] (by
      intro o ho
      simp only [List.mem_cons, List.not_mem_nil, or_false] at ho
      rcases ho with rfl | rfl <;> exact ⟨by unfold ByteOp; omega, by simp⟩) l hr 0 0 ⟨false, false, true, false, false, false, false⟩ ⟨rfl, rfl⟩ rfl
    rw [hl] at h
    obtain ⟨f1, w1, r1, s1, n1, b1, h⟩ := zero_phase P c _ ⟨rfl, rfl⟩ rfl rfl _ 3 (by omega) _ h
    obtain ⟨f2, w2, r2, s2, n2, b2, h⟩ := zero_phase P c w1 r1 s1 (by rw [b1]; rfl) _ 3 (by omega) _ h
    obtain ⟨f3, w3, r3, s3, n3, b3, h⟩ := zero_phase P c w2 r2 s2 (by rw [b2]; rfl) _ 3 (by omega) _ h
    obtain ⟨f4, w4, r4, s4, n4, b4, h⟩ := zero_phase P c w3 r3 s3 (by rw [b3]; rfl) _ 2 (by omega) _ h
    obtain ⟨f5, w5, r5, n5, b5, h⟩ := zero_byte P c w4 ⟨r4, by rw [b4]; rfl, by rw [b4]⟩ false 0x28 (by omega) _ h
    obtain ⟨f6, w6, r6, n6, b6, h⟩ := zero_byte P c w5 ⟨r5, by rw [b5]; rfl, by rw [b5]⟩ false 1 (by omega) _ h
    have h := zero_wait _ _ _ _ h
    obtain ⟨f7, w7, r7, n7, b7, h⟩ := zero_byte P c ⟨w6.now + P.commandLong, w6.k + 1, w6.lines, w6.busy⟩ ⟨r6, by rw [b6]; rfl, by rw [b6]⟩ false 2 (by omega) _ h
    have h := zero_wait _ _ _ _ h
    obtain ⟨f8, w8, r8, n8, b8, h⟩ := zero_byte P c ⟨w7.now + P.commandLong, w7.k + 1, w7.lines, w7.busy⟩ ⟨r7, by rw [b7]; rfl, by rw [b7]⟩ false 6 (by omega) _ h
    have h := zero_wait _ _ _ _ h
    obtain ⟨f9, w9, r9, n9, b9, h⟩ := zero_byte P c ⟨w8.now + P.command, w8.k + 1, w8.lines, w8.busy⟩ ⟨r8, by rw [b8]; rfl, by rw [b8]⟩ true 65 (by omega) _ h
    obtain ⟨f10, _⟩ := zero_byte P c w9 ⟨r9, by rw [b9]; rfl, by rw [b9]⟩ true 66 (by omega) _ h
    have k1 : w1.busy.boot = 1 := by rw [b1]; rfl
    have k2 : w2.busy.boot = 2 := by rw [b2, k1]
    have k3 : w3.busy.boot = 3 := by rw [b3, k2]
    rw [b1, show bootDuration powerOn.boot false 3 = 4100 from rfl] at f2
    rw [b2, k1, show bootDuration 1 false 3 = 100 from rfl] at f3
    rw [b3, k2, show bootDuration 2 false 3 = 37 from rfl] at f4
    rw [b6, show duration false 1 = 1520 from rfl] at f7
    rw [b8, show duration false 6 = 37 from rfl] at f9
    rw [b9, show duration true 65 = 41 from rfl] at f10
    rw [show powerOn.free = 40000 from rfl] at f1
    dsimp only at *
    exact ⟨by omega, by omega, by omega, by omega, by omega, by omega, by omega⟩
  · intro hp x rows s s' ops hb l h now k a ha hrs
    exact c98_busy_partial P c hp x rows s s' ops hb l h now k a ha hrs

end Atl.Props
