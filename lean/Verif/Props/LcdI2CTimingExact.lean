import Verif.Props.LcdI2CTiming

/- C117: the conditions on profile and bus are necessary as well. -/
namespace Atl.Props
open Atl.Spec.Lcd Atl.Lcd

/-- The calls go over the bus, without any extra time, and no write meets a busy display. -/
def GoesWell (P : Timing.Profile) (c : Nat) (reg : BitVec 8) (w : LcdWorld) (l : List Timing.TCall) : Prop :=
  ∃ r m, Timing.I2C.acts P reg l = .ok (r, m) ∧ (busPlay c (fun _ => 0) w m).isSome = true

theorem well_wait (P : Timing.Profile) (c : Nat) (reg : BitVec 8) (w : LcdWorld) (us : Nat) (rest : List Timing.TCall) (h : GoesWell P c reg w (.wait us :: rest)) :
    GoesWell P c reg ⟨w.now + us, w.k + 1, w.lines, w.busy⟩ rest := by
  obtain ⟨r, m, e, g⟩ := h
  simp only [Timing.I2C.acts, Timing.I2C.act, Res.bind_ok] at e
  obtain ⟨⟨r', m'⟩, e', e⟩ := okBind e
  simp only [Res.ok.injEq, Prod.mk.injEq] at e
  obtain ⟨rfl, rfl⟩ := e
  exact ⟨r', m', e', g⟩

theorem well_phase (P : Timing.Profile) (c : Nat) (reg : BitVec 8) (hr : I2C.Rest reg) (hrs : reg.getLsbD 0 = false) (w : LcdWorld)
    (h4 : w.busy.four = false) (us n : Nat) (hn : n < 16) (rest : List Timing.TCall) (h : GoesWell P c reg w ([.wait us, .call (.write4 n)] ++ rest)) :
    w.busy.free ≤ w.now + us + 2 * c ∧ ∃ r w', I2C.Rest r ∧ r.getLsbD 0 = false ∧ w'.now = w.now + us + 3 * c + P.pulse ∧
      w'.busy = ⟨n == 2, none, w.busy.boot + 1, w.now + us + 2 * c + bootDuration w.busy.boot false n⟩ ∧ GoesWell P c r w' rest := by
  obtain ⟨r, l, t, now', k', a, e, s, z, -, -, o, g⟩ := bus_phase P c (fun _ => 0) reg hr hrs w h4 us n hn
  obtain ⟨o1, o2⟩ := o fun _ => rfl
  obtain ⟨r', m, e', g'⟩ := h
  rw [acts_append, e] at e'
  simp only [Res.bind_ok] at e'
  obtain ⟨⟨r2, m2⟩, e2, e'⟩ := okBind e'
  simp only [Res.ok.injEq, Prod.mk.injEq] at e'
  obtain ⟨rfl, rfl⟩ := e'
  rw [bus_append, g] at g'
  by_cases hf : w.busy.free ≤ t
  · rw [if_pos hf] at g'
    exact ⟨by omega, r, _, s, z, by dsimp only; omega, by rw [o1], r2, m2, e2, g'⟩
  · rw [if_neg hf] at g'
    cases g'

theorem well_byte (P : Timing.Profile) (c : Nat) (reg : BitVec 8) (hr : I2C.Rest reg) (w : LcdWorld) (hw : BusBetween w) (rs : Bool) (b : Nat) (hb : b < 256)
    (rest : List Timing.TCall) (h : GoesWell P c reg w (byteCall rs b :: rest)) :
    w.busy.free ≤ w.now + 3 * c ∧ ∃ r w', I2C.Rest r ∧ w'.now = w.now + 7 * c + 2 * P.pulse ∧
      w'.busy = ⟨rs || b / 16 != 3, none, w.busy.boot, w.now + 6 * c + P.pulse + duration rs b⟩ ∧ GoesWell P c r w' rest := by
  obtain ⟨r, l, t1, t2, now', k', a, e, s, z, -, -, -, o, g⟩ := busPlay_byte P c (fun _ => 0) w hw reg hr rs b hb
  obtain ⟨o1, o2, o3⟩ := o fun _ => rfl
  obtain ⟨r', m, e', g'⟩ := h
  simp only [Timing.I2C.acts, e, Res.bind_ok] at e'
  obtain ⟨⟨r2, m2⟩, e2, e'⟩ := okBind e'
  simp only [Res.ok.injEq, Prod.mk.injEq] at e'
  obtain ⟨rfl, rfl⟩ := e'
  rw [bus_append, g] at g'
  by_cases hf : w.busy.free ≤ t1
  · rw [if_pos hf] at g'
    refine ⟨by omega, r, _, s, by dsimp only; omega, ?_, r2, m2, e2, g'⟩
    dsimp only; congr 1; omega
  · rw [if_neg hf] at g'
    cases g'

/-- **C117, exactly which profiles and buses.** All programs (backlight, initialisation after power up, then any use of view and backlight) leave a busy display alone,
    whatever takes longer, exactly when the profile together with the bus meets the seven conditions. (Otherwise a program that writes two characters goes wrong.) -/
theorem c117_busy_iff (P : Timing.Profile) (c : Nat) :
    (∀ (x : Nat → Nat) (rows : Nat) (v : View.State) (reg : BitVec 8), I2C.init = .ok reg → ∀ (before : List Bool) (ops : List Timing.I2C.Op),
      (∀ o ∈ ops, RunningOp o) → ∀ (s' : Timing.I2C.State) (l : List Timing.I2C.Act),
      Timing.I2C.run P rows ⟨v, reg⟩ (before.map .backlight ++ .view (.startUp true) :: ops) = .ok (s', l) → ∀ (now k : Nat) (a : Lines),
      (busPlay c x ⟨now, k, a, powerOn⟩ l).isSome = true) ↔ SlowBus P c ∧ SlowStart P c := by
  constructor
  · intro hall
    have hrun : ∃ r m s', Timing.I2C.acts P (0x0C#8)
          ([.wait P.powerUp, .call (.write4 3)] ++ ([.wait P.initLong, .call (.write4 3)] ++ ([.wait P.initMid, .call (.write4 3)] ++
          ([.wait P.initShort, .call (.write4 2)] ++ [byteCall false 0x28, byteCall false 1, .wait P.commandLong, byteCall false 2, .wait P.commandLong,
            byteCall false 6, .wait P.command, byteCall true 65, byteCall true 66])))) = .ok (r, m) ∧
        Timing.I2C.run P 2 ⟨⟨0, 0, 0⟩, 0x0C#8⟩ (List.map .backlight [] ++ .view (.startUp true) :: [.view (.put 65), .view (.put 66)]) = .ok (s', m) :=
      ⟨_, _, _, rfl, rfl⟩
    obtain ⟨r, m, s', e, hr⟩ := hrun
    have hs := hall (fun _ => 0) 2 ⟨0, 0, 0⟩ (0x0C#8) (by decide +kernel) [] [.view (.put 65), .view (.put 66)] (by
      intro o ho
      simp only [List.mem_cons, List.not_mem_nil, or_false] at ho
      rcases ho with rfl | rfl <;> exact ⟨by unfold ByteOp; omega, by simp⟩) s' m hr 0 0 ⟨false, false, true, false, false, false, false⟩
    have h : GoesWell P c (0x0C#8) ⟨0, 0, ⟨false, false, true, false, false, false, false⟩, powerOn⟩ _ := ⟨r, m, e, hs⟩
    obtain ⟨f1, r1, w1, s1, z1, n1, b1, h⟩ := well_phase P c _ (by unfold I2C.Rest; decide) (by decide) _ rfl _ 3 (by omega) _ h
    obtain ⟨f2, r2, w2, s2, z2, n2, b2, h⟩ := well_phase P c r1 s1 z1 w1 (by rw [b1]; rfl) _ 3 (by omega) _ h
    obtain ⟨f3, r3, w3, s3, z3, n3, b3, h⟩ := well_phase P c r2 s2 z2 w2 (by rw [b2]; rfl) _ 3 (by omega) _ h
    obtain ⟨f4, r4, w4, s4, z4, n4, b4, h⟩ := well_phase P c r3 s3 z3 w3 (by rw [b3]; rfl) _ 2 (by omega) _ h
    obtain ⟨f5, r5, w5, s5, n5, b5, h⟩ := well_byte P c r4 s4 w4 ⟨by rw [b4]; rfl, by rw [b4]⟩ false 0x28 (by omega) _ h
    obtain ⟨f6, r6, w6, s6, n6, b6, h⟩ := well_byte P c r5 s5 w5 ⟨by rw [b5]; rfl, by rw [b5]⟩ false 1 (by omega) _ h
    have h := well_wait _ _ _ _ _ _ h
    obtain ⟨f7, r7, w7, s7, n7, b7, h⟩ := well_byte P c r6 s6 ⟨w6.now + P.commandLong, w6.k + 1, w6.lines, w6.busy⟩
      ⟨by rw [b6]; rfl, by rw [b6]⟩ false 2 (by omega) _ h
    have h := well_wait _ _ _ _ _ _ h
    obtain ⟨f8, r8, w8, s8, n8, b8, h⟩ := well_byte P c r7 s7 ⟨w7.now + P.commandLong, w7.k + 1, w7.lines, w7.busy⟩
      ⟨by rw [b7]; rfl, by rw [b7]⟩ false 6 (by omega) _ h
    have h := well_wait _ _ _ _ _ _ h
    obtain ⟨f9, r9, w9, s9, n9, b9, h⟩ := well_byte P c r8 s8 ⟨w8.now + P.command, w8.k + 1, w8.lines, w8.busy⟩
      ⟨by rw [b8]; rfl, by rw [b8]⟩ true 65 (by omega) _ h
    obtain ⟨f10, _⟩ := well_byte P c r9 s9 w9 ⟨by rw [b9]; rfl, by rw [b9]⟩ true 66 (by omega) _ h
    have k1 : w1.busy.boot = 1 := by rw [b1]; rfl
    have k2 : w2.busy.boot = 2 := by rw [b2, k1]
    rw [b1, show bootDuration powerOn.boot false 3 = 4100 from rfl] at f2
    rw [b2, k1, show bootDuration 1 false 3 = 100 from rfl] at f3
    rw [b3, k2, show bootDuration 2 false 3 = 37 from rfl] at f4
    rw [b6, show duration false 1 = 1520 from rfl] at f7
    rw [b8, show duration false 6 = 37 from rfl] at f9
    rw [b9, show duration true 65 = 41 from rfl] at f10
    rw [show powerOn.free = 40000 from rfl] at f1
    dsimp only at *
    exact ⟨⟨by omega, by omega, by omega⟩, ⟨by omega, by omega, by omega, by omega⟩⟩
  · intro ⟨hp, hq⟩ x rows v reg hreg before ops hb s' l h now k a
    exact c117_busy_partial P c hp hq x rows v reg hreg before ops hb s' l h now k a

end Atl.Props
