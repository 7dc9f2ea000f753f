import Verif.Props.LcdTiming

/- Property theorem C117: the timing of a display behind an I2C port expander. -/
namespace Atl.Props
open Atl.Spec.Lcd Atl.Lcd

/-- One step on a bus that needs at least `c` from the change of the expander's port by one byte to the change by the next; `x` is what each step takes longer.
    `none`: the display was written to while busy, or latched something undetermined. -/
def busStep (c : Nat) (x : Nat → Nat) (w : LcdWorld) : Timing.I2C.Act → Option LcdWorld
  | .wait us => some ⟨w.now + us + x w.k, w.k + 1, w.lines, w.busy⟩
  | .send b =>
    let t := w.now + c + x w.k
    let l := I2C.lines b
    match latch w.lines l with
    | [] => some ⟨t, w.k + 1, l, w.busy⟩
    | [some (rs, n)] => (w.busy.accept t rs n).map (⟨t, w.k + 1, l, ·⟩)
    | _ => none

def busPlay (c : Nat) (x : Nat → Nat) (w : LcdWorld) : List Timing.I2C.Act → Option LcdWorld
  | [] => some w
  | a :: l => (busStep c x w a).bind (busPlay c x · l)

theorem bus_append (c : Nat) (x : Nat → Nat) (w : LcdWorld) (l m : List Timing.I2C.Act) :
    busPlay c x w (l ++ m) = (busPlay c x w l).bind (busPlay c x · m) := by
  induction l generalizing w with
  | nil => rfl
  | cons a l ih =>
    show (busStep c x w a).bind _ = ((busStep c x w a).bind _).bind _
    cases busStep c x w a with
    | none => rfl
    | some w' => exact ih w'

theorem bus_write4 (P : Timing.Profile) (reg : BitVec 8) (h : I2C.Rest reg) (n : Nat) :
    ∃ a b r, Timing.I2C.write4 P reg n = .ok (r, [.send a, .send b, .wait P.pulse, .send r]) ∧ I2C.write4 reg n = .ok (r, [a, b, r]) ∧
      I2C.Rest r ∧ r.getLsbD 0 = reg.getLsbD 0 ∧ (∀ l, latch l (I2C.lines a) = []) ∧
      latch (I2C.lines a) (I2C.lines b) = [some (reg.getLsbD 0, n % 16)] ∧ latch (I2C.lines b) (I2C.lines r) = [] := by
  obtain ⟨a, ha, hab⟩ := c05_set_field 16 reg (BitVec.ofNat 8 n) 4 4 (by omega) (by omega)
  obtain ⟨-, ⟨b, hb, hbb⟩, -⟩ := c06_single_bit_partial 16 a 2 (by omega) (by omega)
  obtain ⟨⟨r, hr, hrb⟩, -⟩ := c06_single_bit_partial 16 b 2 (by omega) (by omega)
  refine ⟨a, b, r, ?_, ?_, ⟨?_, ?_⟩, ?_, ?_, ?_, ?_⟩
  · simp only [Timing.I2C.write4, Timing.I2C.pulseEnable, ha, hb, hr, I2C.drop1_ok, Res.bind_ok]
  · simp only [I2C.write4, I2C.pulseEnable, ha, hb, hr, I2C.drop1_ok, Res.bind_ok]
  · simp [-BitVec.getLsbD_eq_getElem, hrb 2]
  · simp [-BitVec.getLsbD_eq_getElem, hrb 1, hbb 1, hab 1, h.2]
  · simp [-BitVec.getLsbD_eq_getElem, hrb 0, hbb 0, hab 0]
  · intro l
    simp [-BitVec.getLsbD_eq_getElem, latch, I2C.lines, hab, h.1]
  · have e (k : Nat) (hk : k < 8) : (BitVec.ofNat 8 n).getLsbD k = n.testBit k := by simp [-BitVec.getLsbD_eq_getElem, BitVec.getLsbD_ofNat, hk]
    have hn := nibble_bits n
    simp [-BitVec.getLsbD_eq_getElem, latch, I2C.lines, hbb, hab, h.1, h.2, e, Lines.nibble]
    simpa using hn
  · simp [-BitVec.getLsbD_eq_getElem, latch, I2C.lines, hbb]

theorem busPlay_write4 (P : Timing.Profile) (c : Nat) (x : Nat → Nat) (w : LcdWorld) (reg : BitVec 8) (h : I2C.Rest reg) (n : Nat) :
    ∃ r l t now' k' a, Timing.I2C.write4 P reg n = .ok (r, l) ∧ I2C.Rest r ∧ r.getLsbD 0 = reg.getLsbD 0 ∧
      w.now + 2 * c ≤ t ∧ t + P.pulse + c ≤ now' ∧ ((∀ i, x i = 0) → t = w.now + 2 * c ∧ now' = t + P.pulse + c) ∧
      busPlay c x w l = (w.busy.accept t (reg.getLsbD 0) (n % 16)).map (⟨now', k', a, ·⟩) := by
  obtain ⟨a, b, r, h1, -, h2, h3, h4, h5, h6⟩ := bus_write4 P reg h n
  obtain ⟨now, k, l, bz⟩ := w
  refine ⟨r, _, now + c + x k + c + x (k + 1), now + c + x k + c + x (k + 1) + P.pulse + x (k + 2) + c + x (k + 3), k + 4, I2C.lines r, h1, h2, h3,
    by dsimp only; omega, by omega, fun hx => by simp only [hx]; omega, ?_⟩
  simp only [busPlay, busStep, h4, h5, h6, Option.bind_some]
  cases bz.accept (now + c + x k + c + x (k + 1)) (reg.getLsbD 0) (n % 16) <;> simp [h6]

/-- In the 4 bit interface, between bytes. -/
def BusBetween (w : LcdWorld) : Prop := w.busy.four = true ∧ w.busy.half = none

/-- The driver call for one byte. -/
def byteCall (rs : Bool) (b : Nat) : Timing.TCall := .call (if rs then .data b else .command b)

theorem busPlay_byte (P : Timing.Profile) (c : Nat) (x : Nat → Nat) (w : LcdWorld) (hw : BusBetween w) (reg : BitVec 8) (h : I2C.Rest reg) (rs : Bool) (b : Nat)
    (hb : b < 256) :
    ∃ r l t1 t2 now' k' a, Timing.I2C.act P reg (byteCall rs b) = .ok (r, l) ∧ I2C.Rest r ∧ r.getLsbD 0 = rs ∧
      w.now + 3 * c ≤ t1 ∧ t1 ≤ t2 ∧ t2 + P.pulse + c ≤ now' ∧
      ((∀ i, x i = 0) → t1 = w.now + 3 * c ∧ t2 = t1 + P.pulse + 3 * c ∧ now' = t2 + P.pulse + c) ∧
      busPlay c x w l = if w.busy.free ≤ t1 then some ⟨now', k', a, ⟨rs || b / 16 != 3, none, w.busy.boot, t2 + duration rs b⟩⟩ else none := by
  obtain ⟨h4, hh⟩ := hw
  have hy : ∃ y, I2C.Rest y ∧ y.getLsbD 0 = rs ∧ Timing.I2C.act P reg (byteCall rs b) =
      (do let (r, l) ← Timing.I2C.write8 P y b; .ok (r, .send y :: l)) := by
    cases rs with
    | false =>
      obtain ⟨-, ⟨z, hz, hzb⟩, -⟩ := c06_single_bit_partial 16 reg 0 (by omega) (by omega)
      obtain ⟨y, hy, hyb⟩ := I2C.clear_spec z
      refine ⟨y, by constructor <;> simp [-BitVec.getLsbD_eq_getElem, hyb, hzb, h.1, h.2], by simp [-BitVec.getLsbD_eq_getElem, hyb, hzb], ?_⟩
      simp only [byteCall, Bool.false_eq_true, if_false, Timing.I2C.act, Timing.I2C.writeCommand, hz, I2C.drop1_ok, hy, Res.bind_ok]
    | true =>
      obtain ⟨⟨z, hz, hzb⟩, -, -⟩ := c06_single_bit_partial 16 reg 0 (by omega) (by omega)
      obtain ⟨y, hy, hyb⟩ := I2C.clear_spec z
      refine ⟨y, by constructor <;> simp [-BitVec.getLsbD_eq_getElem, hyb, hzb, h.1, h.2], by simp [-BitVec.getLsbD_eq_getElem, hyb, hzb], ?_⟩
      simp only [byteCall, if_true, Timing.I2C.act, Timing.I2C.writeData, hz, I2C.drop1_ok, hy, Res.bind_ok]
  obtain ⟨y, yr, y0, hy⟩ := hy
  have hlatch : ∀ l, latch l (I2C.lines y) = [] := fun l => by simp [-BitVec.getLsbD_eq_getElem, latch, I2C.lines, yr.1]
  have hs : busStep c x w (.send y) = some ⟨w.now + c + x w.k, w.k + 1, I2C.lines y, w.busy⟩ := by simp only [busStep, hlatch]
  obtain ⟨r1, l1, t1, n1, k1, a1, e1, s1, z1, p1, q1, o1, g1⟩ := busPlay_write4 P c x ⟨w.now + c + x w.k, w.k + 1, I2C.lines y, w.busy⟩ y yr (b >>> 4)
  obtain ⟨r2, l2, t2, n2, k2, a2, e2, s2, z2, p2, q2, o2, g2⟩ :=
    busPlay_write4 P c x ⟨n1, k1, a1, ⟨true, some (rs, b / 16), w.busy.boot, w.busy.free⟩⟩ r1 s1 b
  have hsh : b >>> 4 = b / 16 := Nat.shiftRight_eq_div_pow b 4
  have hq : b / 16 % 16 = b / 16 := Nat.mod_eq_of_lt (by omega)
  have hacc1 : w.busy.accept t1 rs (b / 16) = if w.busy.free ≤ t1 then some ⟨true, some (rs, b / 16), w.busy.boot, w.busy.free⟩ else none := by
    unfold Busy.accept
    by_cases hf : t1 < w.busy.free
    · rw [if_pos hf, if_neg (by omega)]
    · rw [if_neg hf, if_pos (show w.busy.free ≤ t1 by omega)]; simp [h4, hh]
  refine ⟨r2, .send y :: (l1 ++ l2), t1, t2, n2, k2, a2, ?_, s2, (z2.trans z1).trans y0, ?_, ?_, q2, ?_, ?_⟩
  · rw [hy]
    simp only [Timing.I2C.write8, e1, e2, Res.bind_ok]
  · dsimp only at p1; omega
  · dsimp only at p2; omega
  · intro hx
    obtain ⟨u1, u2⟩ := o1 hx
    obtain ⟨u3, u4⟩ := o2 hx
    have := hx w.k
    dsimp only at u1 u3
    omega
  · show (busStep c x w (.send y)).bind _ = _
    rw [hs, Option.bind_some, bus_append, g1, hsh, hq, y0, hacc1]
    by_cases hf : w.busy.free ≤ t1
    · rw [if_pos hf, if_pos hf, Option.map_some, Option.bind_some, g2]
      rw [z1, y0]
      have e : 16 * (b / 16) + b % 16 = b := by omega
      unfold Busy.accept
      rw [if_neg (by dsimp only at p2 ⊢; omega)]
      simp only [e, Bool.not_true, Bool.false_eq_true, if_false, Option.map_some]
    · rw [if_neg hf, if_neg hf]; rfl

/-- A profile that is slow enough for the instructions on a bus with `c` from port change to port change. -/
structure SlowBus (P : Timing.Profile) (c : Nat) : Prop where
  data : 41 ≤ P.pulse + 4 * c
  command : 37 ≤ P.command + P.pulse + 4 * c
  long : 1520 ≤ P.commandLong + P.pulse + 4 * c

/-- … and for the start after power up. -/
structure SlowStart (P : Timing.Profile) (c : Nat) : Prop where
  powerUp : 40000 ≤ P.powerUp + 2 * c
  initLong : 4100 ≤ P.initLong + P.pulse + 3 * c
  initMid : 100 ≤ P.initMid + P.pulse + 3 * c
  initShort : 37 ≤ P.initShort + P.pulse + 3 * c

/-- Ready for the next byte: it cannot be latched before the display is free. -/
def BusReady (c : Nat) (reg : BitVec 8) (w : LcdWorld) : Prop := I2C.Rest reg ∧ BusBetween w ∧ w.busy.free ≤ w.now + 3 * c

/-- Sequences that keep the display ready. -/
def BusKeeps (P : Timing.Profile) (c : Nat) (x : Nat → Nat) (l : List Timing.TCall) : Prop :=
  ∀ reg w, BusReady c reg w → ∃ r m w', Timing.I2C.acts P reg l = .ok (r, m) ∧ busPlay c x w m = some w' ∧ BusReady c r w'

theorem acts_append (P : Timing.Profile) (reg : BitVec 8) (l m : List Timing.TCall) :
    Timing.I2C.acts P reg (l ++ m) = (do let (r, x) ← Timing.I2C.acts P reg l; let (r', y) ← Timing.I2C.acts P r m; .ok (r', x ++ y)) := by
  induction l generalizing reg with
  | nil =>
    simp only [List.nil_append, Timing.I2C.acts, Res.bind_ok]
    cases Timing.I2C.acts P reg m <;> rfl
  | cons a l ih =>
    simp only [List.cons_append, Timing.I2C.acts]
    cases Timing.I2C.act P reg a with
    | ub => rfl
    | ok r =>
      simp only [Res.bind_ok, ih]
      cases Timing.I2C.acts P r.1 l with
      | ub => rfl
      | ok r' =>
        simp only [Res.bind_ok]
        cases Timing.I2C.acts P r'.1 m with
        | ub => rfl
        | ok r'' => simp only [Res.bind_ok, List.append_assoc]

theorem bus_keeps_append {P : Timing.Profile} {c : Nat} {x : Nat → Nat} {l m : List Timing.TCall} (h : BusKeeps P c x l) (h' : BusKeeps P c x m) :
    BusKeeps P c x (l ++ m) := by
  intro reg w hw
  obtain ⟨r1, m1, w1, e1, p1, q1⟩ := h reg w hw
  obtain ⟨r2, m2, w2, e2, p2, q2⟩ := h' r1 w1 q1
  refine ⟨r2, m1 ++ m2, w2, ?_, ?_, q2⟩
  · rw [acts_append, e1]
    simp only [Res.bind_ok, e2]
  · rw [bus_append, p1]
    exact p2

theorem bus_keeps_nil (P : Timing.Profile) (c : Nat) (x : Nat → Nat) : BusKeeps P c x [] := fun reg w hw => ⟨reg, [], w, rfl, rfl, hw⟩

/-- One byte, then a delay. -/
theorem bus_keeps_byte {P : Timing.Profile} {c : Nat} (x : Nat → Nat) (rs : Bool) (b : Nat) (hb : b < 256) (hs : rs = false → b / 16 ≠ 3)
    (d : Nat) (hd : duration rs b ≤ d + P.pulse + 4 * c) : BusKeeps P c x [byteCall rs b, .wait d] := by
  intro reg w ⟨hr, hw, hf⟩
  obtain ⟨r, l, t1, t2, n, k, a, e, s, z, p1, p2, p3, -, g⟩ := busPlay_byte P c x w hw reg hr rs b hb
  rw [if_pos (by omega)] at g
  refine ⟨r, l ++ [.wait d], ⟨n + d + x k, k + 1, a, ⟨rs || b / 16 != 3, none, w.busy.boot, t2 + duration rs b⟩⟩, ?_, ?_, s, ⟨?_, rfl⟩, ?_⟩
  · have hd : ∀ r, Timing.I2C.act P r (.wait d) = .ok (r, [.wait d]) := fun _ => rfl
    simp only [Timing.I2C.acts, e, Res.bind_ok, hd, List.append_nil]
  · rw [bus_append, g]
    rfl
  · cases rs <;> simp_all
  · dsimp only; omega

/-- One byte without a delay. -/
theorem bus_keeps_bare {P : Timing.Profile} {c : Nat} (x : Nat → Nat) (rs : Bool) (b : Nat) (hb : b < 256) (hs : rs = false → b / 16 ≠ 3)
    (hd : duration rs b ≤ P.pulse + 4 * c) : BusKeeps P c x [byteCall rs b] := by
  intro reg w ⟨hr, hw, hf⟩
  obtain ⟨r, l, t1, t2, n, k, a, e, s, z, p1, p2, p3, -, g⟩ := busPlay_byte P c x w hw reg hr rs b hb
  rw [if_pos (by omega)] at g
  refine ⟨r, l, _, ?_, g, s, ⟨?_, rfl⟩, ?_⟩
  · simp only [Timing.I2C.acts, e, Res.bind_ok, List.append_nil]
  · cases rs <;> simp_all
  · dsimp only; omega

theorem bus_keeps_command {P : Timing.Profile} {c : Nat} (x : Nat → Nat) (hp : SlowBus P c) (b : Nat) (hb : PlainCommand b) :
    BusKeeps P c x (Timing.command P [.command b]) := by
  obtain ⟨h1, h2, h3⟩ := hb
  exact bus_keeps_byte x false b h1 (fun _ => h2) P.command (by
    have := hp.command
    unfold duration
    rw [if_neg (by decide), if_neg (by omega)]
    omega)

theorem bus_keeps_data {P : Timing.Profile} {c : Nat} (x : Nat → Nat) (hp : SlowBus P c) (b : Nat) (hb : b < 256) : BusKeeps P c x [.call (.data b)] :=
  bus_keeps_bare x true b hb (by simp) hp.data

theorem bus_keeps_long {P : Timing.Profile} {c : Nat} (x : Nat → Nat) (hp : SlowBus P c) (b : Nat) (hb : b < 4) :
    BusKeeps P c x [.call (.command b), .wait P.commandLong] :=
  bus_keeps_byte x false b (by omega) (fun _ => by omega) P.commandLong (by
    have := hp.long
    unfold duration
    rw [if_neg (by decide), if_pos hb]
    omega)

/-- What an operation of the view sends is made of plain commands, characters, and clear or home. -/
theorem step_closed (P : Timing.Profile) (K : List Timing.TCall → Prop) (hnil : K []) (happ : ∀ l m, K l → K m → K (l ++ m))
    (hcmd : ∀ b, PlainCommand b → K (Timing.command P [.command b])) (hdata : ∀ b, b < 256 → K [.call (.data b)])
    (hlong : ∀ b, b < 4 → K [.call (.command b), .wait P.commandLong]) (rows : Nat) (s s' : View.State) (op : View.Op) (l : List Timing.TCall)
    (hb : ByteOp op) (hf : op ≠ .startUp true) (h : Timing.step P rows s op = .ok (s', l)) : K l := by
  cases op with
  | put ch =>
    simp only [Timing.step, Timing.write] at h
    obtain ⟨⟨s1, l1⟩, h1, h⟩ := okBind h
    simp only [Res.ok.injEq, Prod.mk.injEq] at h
    obtain ⟨_, rfl⟩ := h
    unfold View.write at h1
    split at h1
    · next hc =>
      rw [if_pos (Or.inl hc)]
      obtain ⟨l2, h2, h1⟩ := okBind h1
      simp only [Res.ok.injEq, Prod.mk.injEq] at h1
      obtain ⟨_, rfl⟩ := h1
      obtain ⟨b, pb, rfl⟩ := writeAddress_plain _ _ _ h2
      exact hcmd b pb
    · split at h1
      · next hc =>
        rw [if_pos (Or.inr hc)]
        obtain ⟨l2, h2, h1⟩ := okBind h1
        simp only [Res.ok.injEq, Prod.mk.injEq] at h1
        obtain ⟨_, rfl⟩ := h1
        obtain ⟨b, pb, rfl⟩ := writeAddress_plain _ _ _ h2
        exact hcmd b pb
      · next hc1 hc2 =>
        simp only [Res.ok.injEq, Prod.mk.injEq] at h1
        obtain ⟨_, rfl⟩ := h1
        rw [if_neg (by omega)]
        exact hdata ch hb
  | setCursor r cc =>
    simp only [Timing.step, View.setCursor] at h
    obtain ⟨⟨s1, l1⟩, h1, h⟩ := okBind h
    simp only [Res.ok.injEq, Prod.mk.injEq] at h
    obtain ⟨_, rfl⟩ := h
    obtain ⟨l2, h2, h1⟩ := okBind h1
    simp only [Res.ok.injEq, Prod.mk.injEq] at h1
    obtain ⟨_, rfl⟩ := h1
    obtain ⟨b, pb, rfl⟩ := writeAddress_plain _ _ _ h2
    exact hcmd b pb
  | home =>
    simp only [Timing.step, Res.ok.injEq, Prod.mk.injEq] at h
    obtain ⟨_, rfl⟩ := h
    exact hlong 2 (by omega)
  | startUp full =>
    cases full with
    | true => exact absurd rfl hf
    | false =>
      simp only [Timing.step, Bool.false_eq_true, if_false, Res.ok.injEq, Prod.mk.injEq] at h
      obtain ⟨_, rfl⟩ := h
      exact happ _ _ (happ _ _ hnil (hlong 1 (by omega))) (hlong 2 (by omega))
  | clear =>
    simp only [Timing.step, Res.ok.injEq, Prod.mk.injEq] at h
    obtain ⟨_, rfl⟩ := h
    exact hlong 1 (by omega)
  | setting y =>
    simp only [Timing.step] at h
    obtain ⟨⟨s1, l1⟩, h1, h⟩ := okBind h
    simp only [Res.ok.injEq, Prod.mk.injEq] at h
    obtain ⟨_, rfl⟩ := h
    obtain ⟨b, pb, rfl⟩ := set_plain _ _ _ _ h1
    exact hcmd b pb

/-- The operations of a running program: bytes, and no second full initialisation. -/
def RunningOp : Timing.I2C.Op → Prop
  | .view o => ByteOp o ∧ o ≠ .startUp true
  | .backlight _ => True

theorem bus_step {P : Timing.Profile} {c : Nat} (x : Nat → Nat) (hp : SlowBus P c) (rows : Nat) (s s' : Timing.I2C.State) (op : Timing.I2C.Op)
    (l : List Timing.I2C.Act) (hb : RunningOp op) (h : Timing.I2C.step P rows s op = .ok (s', l)) (w : LcdWorld) (hw : BusReady c s.reg w) :
    ∃ w', busPlay c x w l = some w' ∧ BusReady c s'.reg w' := by
  cases op with
  | view o =>
    simp only [Timing.I2C.step] at h
    obtain ⟨⟨v, m⟩, h1, h⟩ := okBind h
    obtain ⟨⟨r, y⟩, h2, h⟩ := okBind h
    simp only [Res.ok.injEq, Prod.mk.injEq] at h
    obtain ⟨rfl, rfl⟩ := h
    have hk : BusKeeps P c x m := step_closed P (BusKeeps P c x) (bus_keeps_nil P c x) (fun _ _ => bus_keeps_append) (bus_keeps_command x hp)
      (bus_keeps_data x hp) (bus_keeps_long x hp) rows s.view v o m hb.1 hb.2 h1
    obtain ⟨r', y', w', e, p, q⟩ := hk s.reg w hw
    rw [e] at h2
    simp only [Res.ok.injEq, Prod.mk.injEq] at h2
    obtain ⟨rfl, rfl⟩ := h2
    exact ⟨w', p, q⟩
  | backlight v =>
    simp only [Timing.I2C.step, Timing.I2C.setBacklight] at h
    obtain ⟨z, hz, hzb⟩ := (c06_single_bit_partial 16 s.reg 3 (by omega) (by omega)).2.2.1 v
    obtain ⟨y, hy, hyb⟩ := I2C.clear_spec z
    simp only [hz, I2C.drop1_ok, hy, Res.bind_ok, Res.ok.injEq, Prod.mk.injEq] at h
    obtain ⟨rfl, rfl⟩ := h
    obtain ⟨hr, hbt, hf⟩ := hw
    have yr : I2C.Rest y := by constructor <;> simp [-BitVec.getLsbD_eq_getElem, hyb, hzb, hr.1, hr.2]
    have hlatch : latch w.lines (I2C.lines y) = [] := by simp [-BitVec.getLsbD_eq_getElem, latch, I2C.lines, yr.1]
    refine ⟨⟨w.now + c + x w.k, w.k + 1, I2C.lines y, w.busy⟩, by simp only [busPlay, busStep, hlatch, Option.bind_some], yr, hbt, ?_⟩
    dsimp only; omega

theorem bus_run {P : Timing.Profile} {c : Nat} (x : Nat → Nat) (hp : SlowBus P c) (rows : Nat) (ops : List Timing.I2C.Op) (hb : ∀ o ∈ ops, RunningOp o)
    (s s' : Timing.I2C.State) (l : List Timing.I2C.Act) (h : Timing.I2C.run P rows s ops = .ok (s', l)) (w : LcdWorld) (hw : BusReady c s.reg w) :
    ∃ w', busPlay c x w l = some w' ∧ BusReady c s'.reg w' := by
  induction ops generalizing s l w with
  | nil =>
    simp only [Timing.I2C.run, Res.ok.injEq, Prod.mk.injEq] at h
    obtain ⟨rfl, rfl⟩ := h
    exact ⟨w, rfl, hw⟩
  | cons o ops ih =>
    simp only [Timing.I2C.run] at h
    obtain ⟨⟨s1, l1⟩, h1, h⟩ := okBind h
    obtain ⟨⟨s2, l2⟩, h2, h⟩ := okBind h
    simp only [Res.ok.injEq, Prod.mk.injEq] at h
    obtain ⟨rfl, rfl⟩ := h
    obtain ⟨w1, p1, q1⟩ := bus_step x hp rows s s1 o l1 (hb o (by simp)) h1 w hw
    obtain ⟨w2, p2, q2⟩ := ih (fun o' ho' => hb o' (by simp [ho'])) s1 l2 h2 w1 q1
    exact ⟨w2, by rw [bus_append, p1]; exact p2, q2⟩

/-- Switching the backlight latches nothing and keeps the register at rest and the register select line. -/
theorem bus_backlight (c : Nat) (x : Nat → Nat) (v : Bool) (reg : BitVec 8) (h : I2C.Rest reg) (w : LcdWorld) :
    ∃ y, Timing.I2C.setBacklight reg v = .ok (y, [.send y]) ∧ I2C.Rest y ∧ y.getLsbD 0 = reg.getLsbD 0 ∧
      busPlay c x w [.send y] = some ⟨w.now + c + x w.k, w.k + 1, I2C.lines y, w.busy⟩ := by
  obtain ⟨z, hz, hzb⟩ := (c06_single_bit_partial 16 reg 3 (by omega) (by omega)).2.2.1 v
  obtain ⟨y, hy, hyb⟩ := I2C.clear_spec z
  have yr : I2C.Rest y := by constructor <;> simp [-BitVec.getLsbD_eq_getElem, hyb, hzb, h.1, h.2]
  have hlatch : latch w.lines (I2C.lines y) = [] := by simp [-BitVec.getLsbD_eq_getElem, latch, I2C.lines, yr.1]
  exact ⟨y, by simp only [Timing.I2C.setBacklight, hz, I2C.drop1_ok, hy, Res.bind_ok], yr, by simp [-BitVec.getLsbD_eq_getElem, hyb, hzb],
    by simp only [busPlay, busStep, hlatch, Option.bind_some]⟩

/-- A nibble of the start phase after a delay. -/
theorem bus_phase (P : Timing.Profile) (c : Nat) (x : Nat → Nat) (reg : BitVec 8) (h : I2C.Rest reg) (hrs : reg.getLsbD 0 = false) (w : LcdWorld)
    (h4 : w.busy.four = false) (us n : Nat) (hn : n < 16) :
    ∃ r l t now' k' a, Timing.I2C.acts P reg [.wait us, .call (.write4 n)] = .ok (r, l) ∧ I2C.Rest r ∧ r.getLsbD 0 = false ∧
      w.now + us + 2 * c ≤ t ∧ t + P.pulse + c ≤ now' ∧ ((∀ i, x i = 0) → t = w.now + us + 2 * c ∧ now' = t + P.pulse + c) ∧
      busPlay c x w l =
        if w.busy.free ≤ t then some ⟨now', k', a, ⟨n == 2, none, w.busy.boot + 1, t + bootDuration w.busy.boot false n⟩⟩ else none := by
  obtain ⟨r, l, t, n', k', a, e, s, z, p, q, o, g⟩ := busPlay_write4 P c x ⟨w.now + us + x w.k, w.k + 1, w.lines, w.busy⟩ reg h n
  refine ⟨r, .wait us :: l, t, n', k', a, ?_, s, z.trans hrs, by dsimp only at p; omega, q, fun hx => ?_, ?_⟩
  · have e1 : Timing.I2C.act P reg (.wait us) = .ok (reg, [.wait us]) := rfl
    have e2 : Timing.I2C.act P reg (.call (.write4 n)) = .ok (r, l) := e
    simp only [Timing.I2C.acts, e1, e2, Res.bind_ok, List.append_nil, List.singleton_append]
  · obtain ⟨u1, u2⟩ := o hx
    have := hx w.k
    dsimp only at u1
    omega
  · show busPlay c x ⟨w.now + us + x w.k, w.k + 1, w.lines, w.busy⟩ l = _
    rw [g, hrs, Nat.mod_eq_of_lt hn]
    dsimp only
    unfold Busy.accept
    by_cases hf : t < w.busy.free
    · rw [if_pos hf, if_neg (by omega)]; rfl
    · rw [if_neg hf, if_pos (show w.busy.free ≤ t by omega), h4]; rfl

/-- The start phase in parts. -/
theorem start_parts (P : Timing.Profile) : Timing.startUp P true =
    [.wait P.powerUp, .call (.write4 3)] ++ ([.wait P.initLong, .call (.write4 3)] ++ ([.wait P.initMid, .call (.write4 3)] ++
      ([.wait P.initShort, .call (.write4 2)] ++ ([byteCall false 0x28] ++ ([.call (.command 1), .wait P.commandLong] ++ [.call (.command 2), .wait P.commandLong]))))) := by
  simp [Timing.startUp, driverInit, Timing.clearDisplay, Timing.returnHome, byteCall]

theorem bus_start {P : Timing.Profile} {c : Nat} (x : Nat → Nat) (hp : SlowBus P c) (hq : SlowStart P c) (reg : BitVec 8) (hr : I2C.Rest reg)
    (hrs : reg.getLsbD 0 = false) (w : LcdWorld) (hb : w.busy = powerOn) :
    ∃ r m w', Timing.I2C.acts P reg (Timing.startUp P true) = .ok (r, m) ∧ busPlay c x w m = some w' ∧ BusReady c r w' := by
  obtain ⟨p1, p2, p3⟩ := hp
  obtain ⟨q1, q2, q3, q4⟩ := hq
  obtain ⟨r1, l1, t1, n1, k1, a1, e1, s1, z1, u1, v1, -, g1⟩ := bus_phase P c x reg hr hrs w (by rw [hb]; rfl) P.powerUp 3 (by omega)
  rw [if_pos (by rw [hb]; simp only [powerOn]; omega), hb, show bootDuration powerOn.boot false 3 = 4100 from rfl] at g1
  obtain ⟨r2, l2, t2, n2, k2, a2, e2, s2, z2, u2, v2, -, g2⟩ := bus_phase P c x r1 s1 z1
    ⟨n1, k1, a1, ⟨(3 == 2), none, powerOn.boot + 1, t1 + 4100⟩⟩ rfl P.initLong 3 (by omega)
  rw [if_pos (by dsimp only at u2 ⊢; omega)] at g2
  obtain ⟨r3, l3, t3, n3, k3, a3, e3, s3, z3, u3, v3, -, g3⟩ := bus_phase P c x r2 s2 z2
    ⟨n2, k2, a2, ⟨(3 == 2), none, powerOn.boot + 1 + 1, t2 + 100⟩⟩ rfl P.initMid 3 (by omega)
  rw [if_pos (by dsimp only at u3 ⊢; omega)] at g3
  obtain ⟨r4, l4, t4, n4, k4, a4, e4, s4, z4, u4, v4, -, g4⟩ := bus_phase P c x r3 s3 z3
    ⟨n3, k3, a3, ⟨(3 == 2), none, powerOn.boot + 1 + 1 + 1, t3 + 37⟩⟩ rfl P.initShort 2 (by omega)
  rw [if_pos (by dsimp only at u4 ⊢; omega)] at g4
  have ready4 : BusReady c r4 ⟨n4, k4, a4, ⟨true, none, powerOn.boot + 1 + 1 + 1 + 1, t4 + 37⟩⟩ := ⟨s4, ⟨rfl, rfl⟩, by dsimp only; omega⟩
  have hp' : SlowBus P c := ⟨p1, p2, p3⟩
  obtain ⟨r5, l5, w5, e5, g5, ready5⟩ := bus_keeps_append (bus_keeps_bare x false 0x28 (by omega) (fun _ => by omega) (by
      rw [show duration false 0x28 = 37 from rfl]
      omega)) (bus_keeps_append (bus_keeps_long x hp' 1 (by omega)) (bus_keeps_long x hp' 2 (by omega))) r4 _ ready4
  refine ⟨r5, l1 ++ (l2 ++ (l3 ++ (l4 ++ l5))), w5, ?_, ?_, ready5⟩
  · rw [start_parts, acts_append, e1]
    simp only [Res.bind_ok]
    rw [acts_append, e2]
    simp only [Res.bind_ok]
    rw [acts_append, e3]
    simp only [Res.bind_ok]
    rw [acts_append, e4]
    simp only [Res.bind_ok]
    rw [e5]
    simp only [Res.bind_ok]
  · rw [bus_append, g1, Option.bind_some, bus_append]
    refine (congrArg (Option.bind · _) g2).trans ?_
    rw [Option.bind_some, bus_append]
    refine (congrArg (Option.bind · _) g3).trans ?_
    rw [Option.bind_some, bus_append]
    refine (congrArg (Option.bind · _) g4).trans ?_
    exact g5

/-- **C117, partial.** A display behind a port expander: with a timing profile that is slow enough together with the bus, no program that switches the backlight
    as often as it likes, initialises the view after power up and then uses view and backlight in any way ever writes to a busy display, whatever the
    program and the bus take longer. Missing: the library's own profile during the start (next theorems). -/
theorem c117_busy_partial (P : Timing.Profile) (c : Nat) (hp : SlowBus P c) (hq : SlowStart P c) (x : Nat → Nat) (rows : Nat) (v : View.State)
    (reg : BitVec 8) (hreg : I2C.init = .ok reg) (before : List Bool) (ops : List Timing.I2C.Op) (hb : ∀ o ∈ ops, RunningOp o)
    (s' : Timing.I2C.State) (l : List Timing.I2C.Act)
    (h : Timing.I2C.run P rows ⟨v, reg⟩ (before.map .backlight ++ .view (.startUp true) :: ops) = .ok (s', l)) (now k : Nat) (a : Lines) :
    (busPlay c x ⟨now, k, a, powerOn⟩ l).isSome = true := by
  have hreg' : reg = 0x0C#8 := by
    have e : I2C.init = .ok (0x0C#8) := by decide +kernel
    rw [e] at hreg
    exact (Res.ok.inj hreg).symm
  have hr : I2C.Rest reg := by rw [hreg']; unfold I2C.Rest; decide
  have hrs : reg.getLsbD 0 = false := by rw [hreg']; decide
  clear hreg hreg'
  induction before generalizing reg l now k a with
  | nil =>
    simp only [List.map_nil, List.nil_append, Timing.I2C.run] at h
    obtain ⟨⟨s1, l1⟩, h1, h⟩ := okBind h
    obtain ⟨⟨s2, l2⟩, h2, h⟩ := okBind h
    simp only [Res.ok.injEq, Prod.mk.injEq] at h
    obtain ⟨_, rfl⟩ := h
    simp only [Timing.I2C.step] at h1
    obtain ⟨⟨v1, m⟩, h3, h1⟩ := okBind h1
    obtain ⟨⟨r1, m1⟩, h4, h1⟩ := okBind h1
    simp only [Res.ok.injEq, Prod.mk.injEq] at h1
    obtain ⟨rfl, rfl⟩ := h1
    simp only [Timing.step, if_true] at h3
    obtain ⟨⟨r, l3⟩, h5, h3⟩ := okBind h3
    simp only [Res.ok.injEq, Prod.mk.injEq] at h3
    obtain ⟨rfl, rfl⟩ := h3
    obtain ⟨b, pb, rfl⟩ := set_plain _ _ _ _ h5
    obtain ⟨r2, m2, w2, e2, p2, q2⟩ := bus_start x hp hq reg hr hrs ⟨now, k, a, powerOn⟩ rfl
    obtain ⟨r3, m3, w3, e3, p3, q3⟩ := bus_keeps_command x hp b pb r2 w2 q2
    rw [acts_append, e2] at h4
    simp only [Res.bind_ok, e3, Res.ok.injEq, Prod.mk.injEq] at h4
    obtain ⟨rfl, rfl⟩ := h4
    obtain ⟨w4, p4, -⟩ := bus_run x hp rows ops hb _ s2 l2 h2 w3 q3
    rw [bus_append, bus_append, p2, Option.bind_some, p3, Option.bind_some, p4]
    rfl
  | cons b before ih =>
    simp only [List.map_cons, List.cons_append, Timing.I2C.run] at h
    obtain ⟨⟨s1, l1⟩, h1, h⟩ := okBind h
    obtain ⟨⟨s2, l2⟩, h2, h⟩ := okBind h
    simp only [Res.ok.injEq, Prod.mk.injEq] at h
    obtain ⟨rfl, rfl⟩ := h
    obtain ⟨y, y1, y2, y3, y4⟩ := bus_backlight c x b reg hr ⟨now, k, a, powerOn⟩
    simp only [Timing.I2C.step, y1, Res.bind_ok, Res.ok.injEq, Prod.mk.injEq] at h1
    obtain ⟨rfl, rfl⟩ := h1
    rw [bus_append, y4, Option.bind_some]
    exact ih y l2 h2 _ _ _ y2 (y3.trans hrs)

/-- A program: backlight off and on, characters, a new line, a cursor position and a clear. -/
example : ∃ s' l, Timing.I2C.run ⟨50000, 4100, 100, 40, 40, 1640, 37⟩ 2 ⟨⟨0, 0, 0⟩, 0x0C#8⟩
    ([false].map .backlight ++ .view (.startUp true) :: [.backlight true, .view (.put 72), .view (.put 10), .view (.setCursor 1 5), .view .clear]) = .ok (s', l) ∧
    l.length = 100 := by
  refine ⟨_, _, rfl, ?_⟩
  decide +kernel
example : I2C.init = .ok (0x0C#8) := by decide +kernel
/-- The delays that are commented out in HD44780_Profile.h on a bus that takes 50 microseconds for a byte; they would not do with an infinitely fast one. -/
example : SlowBus ⟨50000, 4100, 100, 40, 40, 1640, 37⟩ 50 ∧ SlowStart ⟨50000, 4100, 100, 40, 40, 1640, 37⟩ 50 ∧ ¬ SlowBus ⟨50000, 4100, 100, 40, 40, 1640, 37⟩ 0 :=
  ⟨⟨by decide, by decide, by decide⟩, ⟨by decide, by decide, by decide, by decide⟩, fun h => absurd h.data (by decide)⟩

/-- **C117.** Once the display has been initialised, the library's own profile is slow enough on a bus that takes at least 178 microseconds from byte to byte, as the
    standard 100 kHz (two times nine bits and start and stop): any use of view and backlight, any number of operations. -/
theorem c117_running (c : Nat) (hc : 178 ≤ c) (x : Nat → Nat) (rows : Nat) (s s' : Timing.I2C.State) (ops : List Timing.I2C.Op) (hb : ∀ o ∈ ops, RunningOp o)
    (l : List Timing.I2C.Act) (h : Timing.I2C.run .default rows s ops = .ok (s', l)) (w : LcdWorld) (hw : BusReady c s.reg w) :
    ∃ w', busPlay c x w l = some w' ∧ BusReady c s'.reg w' :=
  bus_run x ⟨by show 41 ≤ 8 + 4 * c; omega, by show 37 ≤ 15 + 8 + 4 * c; omega, by show 1520 ≤ 800 + 8 + 4 * c; omega⟩ rows ops hb s s' l h w hw

example : BusReady 180 (0x0C#8) ⟨0, 0, I2C.lines (0x0C#8), ⟨true, none, 4, 0⟩⟩ := ⟨by unfold I2C.Rest; decide, ⟨rfl, rfl⟩, by decide⟩
example : ∃ s' l, Timing.I2C.run .default 2 ⟨⟨0, 0, 0⟩, 0x0C#8⟩ [.view .clear, .view .home, .view (.put 65), .view (.put 66), .backlight false] = .ok (s', l) ∧
    l.length = 39 := by
  refine ⟨_, _, rfl, ?_⟩
  decide +kernel

/-- **C117 fails** for the library's own profile. After power up, on any bus that is not absurdly slow, the first nibble comes before the display is ready; when the
    program starts later, the second nibble comes less than 4.1 milliseconds after the first. And on a bus that takes at most 177 microseconds for a byte, as the
    400 kHz of the fast mode, clearing the display, then going home sends the second command while the first is executed. -/
theorem c117_profile_fails (c : Nat) :
    (c < 15000 → ∀ k a, ∃ r l, Timing.I2C.acts .default (0x0C#8) (Timing.startUp .default true) = .ok (r, l) ∧
      busPlay c (fun _ => 0) ⟨0, k, a, powerOn⟩ l = none) ∧
    (c < 1031 → ∀ now k a, ∃ r l, Timing.I2C.acts .default (0x0C#8) (Timing.startUp .default true) = .ok (r, l) ∧
      busPlay c (fun _ => 0) ⟨now, k, a, powerOn⟩ l = none) ∧
    (c < 178 → ∀ reg w, I2C.Rest reg → BusBetween w → ∃ r l, Timing.I2C.acts .default reg (Timing.clearDisplay .default ++ Timing.returnHome .default) = .ok (r, l) ∧
      busPlay c (fun _ => 0) w l = none) := by
  have hr : I2C.Rest (0x0C#8) := by unfold I2C.Rest; decide
  have hp : Timing.Profile.default.pulse = 8 := rfl
  have p1 : Timing.Profile.default.powerUp = 10000 := rfl
  have p2 : Timing.Profile.default.initLong = 1000 := rfl
  have p3 : Timing.Profile.default.commandLong = 800 := rfl
  have hstart : ∃ r l, Timing.I2C.acts .default (0x0C#8) (Timing.startUp .default true) = .ok (r, l) := ⟨_, _, rfl⟩
  refine ⟨fun hc k a => ?_, fun hc now k a => ?_, fun hc reg w hg hw => ?_⟩
  · obtain ⟨r, l, e⟩ := hstart
    refine ⟨r, l, e, ?_⟩
    rw [start_parts, acts_append] at e
    obtain ⟨r1, l1, t1, n1, k1, a1, e1, s1, z1, u1, v1, o1, g1⟩ := bus_phase .default c (fun _ => 0) (0x0C#8) hr rfl ⟨0, k, a, powerOn⟩ rfl Timing.Profile.default.powerUp 3 (by omega)
    rw [e1] at e
    obtain ⟨⟨r2, l2⟩, h2, e⟩ := okBind e
    simp only [Res.ok.injEq, Prod.mk.injEq] at h2
    obtain ⟨rfl, rfl⟩ := h2
    obtain ⟨⟨r3, l3⟩, h3, e⟩ := okBind e
    simp only [Res.ok.injEq, Prod.mk.injEq] at e
    obtain ⟨_, rfl⟩ := e
    have := (o1 fun _ => rfl).1
    rw [if_neg (by simp only [powerOn]; dsimp only at this; omega)] at g1
    rw [bus_append, g1]
    rfl
  · obtain ⟨r, l, e⟩ := hstart
    refine ⟨r, l, e, ?_⟩
    rw [start_parts, acts_append] at e
    obtain ⟨r1, l1, t1, n1, k1, a1, e1, s1, z1, u1, v1, o1, g1⟩ := bus_phase .default c (fun _ => 0) (0x0C#8) hr rfl ⟨now, k, a, powerOn⟩ rfl Timing.Profile.default.powerUp 3 (by omega)
    rw [e1] at e
    obtain ⟨⟨r2, l2⟩, h2, e⟩ := okBind e
    simp only [Res.ok.injEq, Prod.mk.injEq] at h2
    obtain ⟨rfl, rfl⟩ := h2
    obtain ⟨⟨r3, l3⟩, h3, e⟩ := okBind e
    simp only [Res.ok.injEq, Prod.mk.injEq] at e
    obtain ⟨_, rfl⟩ := e
    rw [acts_append] at h3
    obtain ⟨r4, l4, t4, n4, k4, a4, e4, s4, z4, u4, v4, o4, g4⟩ := bus_phase .default c (fun _ => 0) r1 s1 z1
      ⟨n1, k1, a1, ⟨(3 == 2), none, powerOn.boot + 1, t1 + 4100⟩⟩ rfl Timing.Profile.default.initLong 3 (by omega)
    rw [e4] at h3
    obtain ⟨⟨r5, l5⟩, h5, h3⟩ := okBind h3
    simp only [Res.ok.injEq, Prod.mk.injEq] at h5
    obtain ⟨rfl, rfl⟩ := h5
    obtain ⟨⟨r6, l6⟩, h6, h3⟩ := okBind h3
    simp only [Res.ok.injEq, Prod.mk.injEq] at h3
    obtain ⟨_, rfl⟩ := h3
    have y1 := o1 fun _ => rfl
    have y4 := o4 fun _ => rfl
    rw [if_neg (by dsimp only at y4 y1 ⊢; omega)] at g4
    rw [bus_append, g1]
    split
    · rw [Option.bind_some, bus_append]
      exact congrArg (Option.bind · _) g4
    · rfl
  · obtain ⟨r1, l1, t1, t2, n1, k1, a1, e1, s1, z1, u1, v1, o1, y1, g1⟩ := busPlay_byte .default c (fun _ => 0) w hw reg hg false 1 (by omega)
    obtain ⟨r2, l2, t3, t4, n2, k2, a2, e2, s2, z2, u2, v2, o2, y2, g2⟩ := busPlay_byte .default c (fun _ => 0)
      ⟨n1 + 800 + 0, k1 + 1, a1, ⟨true, none, w.busy.boot, t2 + 1520⟩⟩ ⟨rfl, rfl⟩ r1 s1 false 2 (by omega)
    have x1 := y1 fun _ => rfl
    have x2 := y2 fun _ => rfl
    rw [if_neg (by dsimp only at x2 x1 ⊢; omega)] at g2
    have d (r : BitVec 8) : Timing.I2C.act .default r (.wait Timing.Profile.default.commandLong) = .ok (r, [.wait 800]) := rfl
    refine ⟨r2, l1 ++ .wait 800 :: (l2 ++ [.wait 800]), ?_, ?_⟩
    · rw [show Timing.clearDisplay .default ++ Timing.returnHome .default =
        [byteCall false 1, .wait Timing.Profile.default.commandLong, byteCall false 2, .wait Timing.Profile.default.commandLong] from rfl]
      simp only [Timing.I2C.acts, e1, e2, d, Res.bind_ok, List.append_nil, List.singleton_append]
    · rw [bus_append, g1]
      split
      · rw [Option.bind_some]
        show busPlay c (fun _ => 0) _ (l2 ++ [.wait 800]) = none
        rw [bus_append]
        exact congrArg (Option.bind · _) g2
      · rfl

/-- The bytes among what goes over the bus. -/
def sentOf (l : List Timing.I2C.Act) : List (BitVec 8) := l.flatMap fun
  | .send b => [b]
  | .wait _ => []

theorem sentOf_append (l m : List Timing.I2C.Act) : sentOf (l ++ m) = sentOf l ++ sentOf m := by simp [sentOf]
theorem sentOf_send (b : BitVec 8) (l : List Timing.I2C.Act) : sentOf (.send b :: l) = b :: sentOf l := rfl

theorem sent_write4 (P : Timing.Profile) (reg : BitVec 8) (n : Nat) :
    I2C.write4 reg n = (do let (r, l) ← Timing.I2C.write4 P reg n; .ok (r, sentOf l)) := by
  simp only [I2C.write4, Timing.I2C.write4, I2C.pulseEnable, Timing.I2C.pulseEnable]
  cases I2C.drop1 (Atl.Bits.BitArray.setField 16 reg 4 (BitVec.ofNat 8 n) 4) with
  | ub => rfl
  | ok a =>
    simp only [Res.bind_ok]
    cases I2C.drop1 (Atl.Bits.BitArray.reset 16 a 2) with
    | ub => rfl
    | ok b =>
      simp only [Res.bind_ok]
      cases I2C.drop1 (Atl.Bits.BitArray.set 16 b 2) <;> rfl

theorem sent_write8 (P : Timing.Profile) (reg : BitVec 8) (n : Nat) :
    I2C.write8 reg n = (do let (r, l) ← Timing.I2C.write8 P reg n; .ok (r, sentOf l)) := by
  simp only [I2C.write8, Timing.I2C.write8, sent_write4 P]
  cases Timing.I2C.write4 P reg (n >>> 4) with
  | ub => rfl
  | ok a =>
    simp only [Res.bind_ok]
    cases Timing.I2C.write4 P a.1 n with
    | ub => rfl
    | ok b => simp only [Res.bind_ok, sentOf_append]

theorem sent_call (P : Timing.Profile) (reg : BitVec 8) (k : Call) :
    I2C.step reg (.call k) = (do let (r, l) ← Timing.I2C.act P reg (.call k); .ok (r, sentOf l)) := by
  cases k with
  | write4 n => exact sent_write4 P reg n
  | command b =>
    simp only [I2C.step, Timing.I2C.act, I2C.writeCommand, Timing.I2C.writeCommand, sent_write8 P]
    cases I2C.drop1 (Atl.Bits.BitArray.reset 16 reg 0) with
    | ub => rfl
    | ok a =>
      simp only [Res.bind_ok]
      cases I2C.clearData a with
      | ub => rfl
      | ok a' =>
        simp only [Res.bind_ok]
        cases Timing.I2C.write8 P a' b <;> rfl
  | data b =>
    simp only [I2C.step, Timing.I2C.act, I2C.writeData, Timing.I2C.writeData, sent_write8 P]
    cases I2C.drop1 (Atl.Bits.BitArray.set 16 reg 0) with
    | ub => rfl
    | ok a =>
      simp only [Res.bind_ok]
      cases I2C.clearData a with
      | ub => rfl
      | ok a' =>
        simp only [Res.bind_ok]
        cases Timing.I2C.write8 P a' b <;> rfl

theorem sent_acts (P : Timing.Profile) (reg : BitVec 8) (l : List Timing.TCall) :
    I2C.run reg ((untimed l).map .call) = (do let (r, m) ← Timing.I2C.acts P reg l; .ok (r, sentOf m)) := by
  induction l generalizing reg with
  | nil => rfl
  | cons a l ih =>
    cases a with
    | wait us =>
      show I2C.run reg ((untimed l).map .call) = _
      rw [ih]
      simp only [Timing.I2C.acts, show Timing.I2C.act P reg (.wait us) = .ok (reg, [.wait us]) from rfl, Res.bind_ok]
      cases Timing.I2C.acts P reg l <;> rfl
    | call k =>
      show I2C.run reg (.call k :: (untimed l).map .call) = _
      simp only [I2C.run, Timing.I2C.acts, sent_call P]
      cases Timing.I2C.act P reg (.call k) with
      | ub => rfl
      | ok r =>
        simp only [Res.bind_ok, ih]
        cases Timing.I2C.acts P r.1 l with
        | ub => rfl
        | ok r' => simp only [Res.bind_ok, sentOf_append]

/-- **C117.** The delays change nothing of what is sent: the bytes on the bus are those of the view's calls on the driver without delays, so what C40 and C41 say of
    the display's content holds. -/
theorem c117_content (P : Timing.Profile) (rows : Nat) (s : Timing.I2C.State) (o : Timing.I2C.Op) :
    (do let (t, m) ← Timing.I2C.step P rows s o; (.ok (t.view, t.reg, sentOf m) : Res (View.State × BitVec 8 × List (BitVec 8)))) =
      match o with
      | .view o => (do let (v, l) ← View.step rows s.view o; let (r, m) ← I2C.run s.reg (l.map .call); .ok (v, r, m))
      | .backlight b => (do let (r, m) ← I2C.step s.reg (.backlight b); .ok (s.view, r, m)) := by
  cases o with
  | view o =>
    simp only [Timing.I2C.step, c98_content P]
    cases Timing.step P rows s.view o with
    | ub => rfl
    | ok q =>
      simp only [Res.bind_ok, sent_acts P]
      cases Timing.I2C.acts P s.reg q.2 <;> rfl
  | backlight b =>
    simp only [Timing.I2C.step, I2C.step, Timing.I2C.setBacklight, I2C.setBacklight]
    cases I2C.drop1 (Atl.Bits.BitArray.setBool 16 s.reg 3 b) with
    | ub => rfl
    | ok a =>
      simp only [Res.bind_ok]
      cases I2C.clearData a <;> rfl

example : ∃ t m, Timing.I2C.step .default 2 ⟨⟨0, 0, 0⟩, 0x0C#8⟩ (.view (.put 65)) = .ok (t, m) ∧
    sentOf m = [0x0D, 0x4D, 0x49, 0x4D, 0x1D, 0x19, 0x1D] := by
  refine ⟨_, _, rfl, ?_⟩
  decide +kernel

end Atl.Props
