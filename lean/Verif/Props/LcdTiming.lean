import Verif.Model.LcdTiming
import Verif.Spec.LcdTiming
import Verif.Proof.Lcd
import Verif.Props.Lcd

/- Property theorem C98: the display is not written to while it is busy. -/
namespace Atl.Props
open Atl.Spec.Lcd Atl.Lcd

theorem okBind {α β : Type} {x : Res α} {f : α → Res β} {y : β} (h : (x >>= f) = .ok y) : ∃ a, x = .ok a ∧ f a = .ok y := by
  cases x with
  | ub => cases h
  | ok a => exact ⟨a, rfl, h⟩

/-- Time, number of steps so far, lines and display. -/
structure LcdWorld where
  now : Nat
  k : Nat
  lines : Lines
  busy : Busy

/-- One step on a processor that needs at least `c` for a pin write; `x` is what each step takes longer (slower code, interrupts, longer delays).
    `none`: the display was written to while busy. -/
def lcdStep (c : Nat) (x : Nat → Nat) (w : LcdWorld) : Timing.Act → Option LcdWorld
  | .wait us => some ⟨w.now + us + x w.k, w.k + 1, w.lines, w.busy⟩
  | .set p v =>
    let t := w.now + c + x w.k
    let l := Parallel.apply w.lines (p, v)
    match latch w.lines l with
    | [] => some ⟨t, w.k + 1, l, w.busy⟩
    | [some (rs, n)] => (w.busy.accept t rs n).map (⟨t, w.k + 1, l, ·⟩)
    | _ => none

def lcdPlay (c : Nat) (x : Nat → Nat) (w : LcdWorld) : List Timing.Act → Option LcdWorld
  | [] => some w
  | a :: l => (lcdStep c x w a).bind (lcdPlay c x · l)

theorem play_append (c : Nat) (x : Nat → Nat) (w : LcdWorld) (l m : List Timing.Act) :
    lcdPlay c x w (l ++ m) = (lcdPlay c x w l).bind (lcdPlay c x · m) := by
  induction l generalizing w with
  | nil => rfl
  | cons a l ih =>
    show (lcdStep c x w a).bind _ = ((lcdStep c x w a).bind _).bind _
    cases lcdStep c x w a with
    | none => rfl
    | some w' => exact ih w'

theorem play_wait (c : Nat) (x : Nat → Nat) (w : LcdWorld) (us : Nat) (l : List Timing.Act) :
    lcdPlay c x w (.wait us :: l) = lcdPlay c x ⟨w.now + us + x w.k, w.k + 1, w.lines, w.busy⟩ l := rfl

/-- The lines at rest. -/
def AtRest (l : Lines) : Prop := l.e = true ∧ l.rw = false

theorem play_write4 (P : Timing.Profile) (c : Nat) (x : Nat → Nat) (w : LcdWorld) (hr : AtRest w.lines) (n : Nat) :
    ∃ t now' k' l', w.now + 5 * c ≤ t ∧ t + P.pulse + c ≤ now' ∧ AtRest l' ∧ l'.rs = w.lines.rs ∧
      ((∀ i, x i = 0) → t = w.now + 5 * c ∧ now' = t + P.pulse + c) ∧
      lcdPlay c x w (Timing.write4 P n) = (w.busy.accept t w.lines.rs (n % 16)).map (⟨now', k', l', ·⟩) := by
  obtain ⟨now, k, l, b⟩ := w
  obtain ⟨rs, rw, e, a4, a5, a6, a7⟩ := l
  obtain ⟨he, hw⟩ := hr
  simp only at he hw
  subst he hw
  have h0 := testBit_and n 0
  have h1 := testBit_and n 1
  have h2 := testBit_and n 2
  have h3 := testBit_and n 3
  simp only [Nat.pow_zero, Nat.pow_one, Nat.reducePow] at h0 h1 h2 h3
  have hb := nibble_bits n
  refine ⟨now + c + x k + c + x (k + 1) + c + x (k + 2) + c + x (k + 3) + c + x (k + 4),
    now + c + x k + c + x (k + 1) + c + x (k + 2) + c + x (k + 3) + c + x (k + 4) + P.pulse + x (k + 5) + c + x (k + 6), k + 7,
    ⟨rs, false, true, n.testBit 0, n.testBit 1, n.testBit 2, n.testBit 3⟩, by dsimp only; omega, by omega, ⟨rfl, rfl⟩, rfl,
    fun hx => by simp only [hx]; omega, ?_⟩
  simp only [Timing.write4, h0, h1, h2, h3]
  simp only [lcdPlay, lcdStep, Parallel.apply, latch, Bool.not_true, Bool.and_false, Bool.not_false, Bool.and_true, if_true, Option.bind_some, Bool.false_eq_true,
    if_false, and_self, Lines.nibble, hb, Option.bind_some]
  cases b.accept (now + c + x k + c + x (k + 1) + c + x (k + 2) + c + x (k + 3) + c + x (k + 4)) rs (n % 16) <;> rfl

/-- In the 4 bit interface, between bytes. -/
def BetweenBytes (w : LcdWorld) : Prop := AtRest w.lines ∧ w.busy.four = true ∧ w.busy.half = none

theorem play_byte (P : Timing.Profile) (c : Nat) (x : Nat → Nat) (w : LcdWorld) (h : BetweenBytes w) (rs : Bool) (b : Nat) (hb : b < 256) :
    ∃ t1 t2 now' k' l', w.now + 6 * c ≤ t1 ∧ t1 ≤ t2 ∧ t2 + P.pulse + c ≤ now' ∧ AtRest l' ∧
      ((∀ i, x i = 0) → t1 = w.now + 6 * c ∧ t2 = t1 + P.pulse + 6 * c ∧ now' = t2 + P.pulse + c) ∧
      lcdPlay c x w (Timing.writeByte P rs b) = if w.busy.free ≤ t1 then
        some ⟨now', k', l', ⟨rs || b / 16 != 3, none, w.busy.boot, t2 + duration rs b⟩⟩ else none := by
  obtain ⟨hr, h4, hh⟩ := h
  have hs : lcdStep c x w (.set .rs rs) = some ⟨w.now + c + x w.k, w.k + 1, { w.lines with rs := rs }, w.busy⟩ := by
    simp [lcdStep, Parallel.apply, latch, hr.1]
  obtain ⟨t1, n1, k1, l1, a1, a2, a3, a4, a5, a6⟩ :=
    play_write4 P c x ⟨w.now + c + x w.k, w.k + 1, { w.lines with rs := rs }, w.busy⟩ hr (b >>> 4)
  have hsh : b >>> 4 = b / 16 := Nat.shiftRight_eq_div_pow b 4
  have hq : b / 16 % 16 = b / 16 := Nat.mod_eq_of_lt (by omega)
  have hacc1 : w.busy.accept t1 rs (b / 16) = if w.busy.free ≤ t1 then some ⟨true, some (rs, b / 16), w.busy.boot, w.busy.free⟩ else none := by
    unfold Busy.accept
    by_cases hf : t1 < w.busy.free
    · rw [if_pos hf, if_neg (by omega)]
    · rw [if_neg hf, if_pos (show w.busy.free ≤ t1 by omega)]; simp [h4, hh]
  obtain ⟨t2, n2, k2, l2, b1, b2, b3, b4, b5, b6⟩ := play_write4 P c x ⟨n1, k1, l1, ⟨true, some (rs, b / 16), w.busy.boot, w.busy.free⟩⟩ a3 b
  refine ⟨t1, t2, n2, k2, l2, ?_, ?_, b2, b3, ?_, ?_⟩
  · dsimp only at a1; omega
  · dsimp only at b1; omega
  · intro hx
    obtain ⟨e1, e2⟩ := a5 hx
    obtain ⟨e3, e4⟩ := b5 hx
    have := hx w.k
    dsimp only at e1 e3
    omega
  · unfold Timing.writeByte
    show (lcdStep c x w (.set .rs rs)).bind _ = _
    rw [hs, Option.bind_some, play_append, a6, hsh, hq, hacc1]
    by_cases hf : w.busy.free ≤ t1
    · rw [if_pos hf, if_pos hf, Option.map_some, Option.bind_some, b6]
      dsimp only at a4 ⊢
      rw [a4]
      have e : 16 * (b / 16) + b % 16 = b := by omega
      unfold Busy.accept
      rw [if_neg (by dsimp only at b1 ⊢; omega)]
      simp only [e, Bool.not_true, Bool.false_eq_true, if_false, Option.map_some]
    · rw [if_neg hf, if_neg hf]; rfl

/-- The commands the view sends once the display is initialised. -/
def PlainCommand (b : Nat) : Prop := b < 256 ∧ b / 16 ≠ 3 ∧ 4 ≤ b

/-- Ready for the next byte: it cannot be latched before the display is free. -/
def Ready (c : Nat) (w : LcdWorld) : Prop := BetweenBytes w ∧ w.busy.free ≤ w.now + 6 * c

/-- A profile that is slow enough for a processor that needs `c` for a pin write. -/
structure SlowEnough (P : Timing.Profile) (c : Nat) : Prop where
  data : 41 ≤ P.pulse + 7 * c
  command : 37 ≤ P.command + P.pulse + 7 * c
  long : 1520 ≤ P.commandLong + P.pulse + 7 * c
  powerUp : 40000 ≤ P.powerUp + 5 * c
  initLong : 4100 ≤ P.initLong + P.pulse + 6 * c
  initMid : 100 ≤ P.initMid + P.pulse + 6 * c
  initShort : 37 ≤ P.initShort + P.pulse + 6 * c

theorem ready_byte (P : Timing.Profile) (c : Nat) (x : Nat → Nat) (w : LcdWorld) (h : Ready c w) (rs : Bool) (b : Nat) (hb : b < 256) (hs : rs = false → b / 16 ≠ 3)
    (d : Nat) (hd : duration rs b ≤ d + P.pulse + 7 * c) :
    ∃ w', lcdPlay c x w (Timing.writeByte P rs b ++ [.wait d]) = some w' ∧ Ready c w' := by
  obtain ⟨hbt, hf⟩ := h
  obtain ⟨t1, t2, n, k, l, a1, a2, a3, a4, _, a6⟩ := play_byte P c x w hbt rs b hb
  rw [play_append, a6, if_pos (by omega)]
  refine ⟨_, rfl, ⟨a4, ?_, rfl⟩, ?_⟩
  · cases rs <;> simp_all
  · dsimp only; omega

theorem ready_wait (c : Nat) (x : Nat → Nat) (w : LcdWorld) (h : Ready c w) (us : Nat) : ∃ w', lcdPlay c x w [.wait us] = some w' ∧ Ready c w' :=
  ⟨_, rfl, h.1, by have := h.2; dsimp only; omega⟩

/-- Sequences that keep the display ready. -/
def Keeps (P : Timing.Profile) (c : Nat) (x : Nat → Nat) (l : List Timing.TCall) : Prop :=
  ∀ w, Ready c w → ∃ w', lcdPlay c x w (l.flatMap (Timing.act P)) = some w' ∧ Ready c w'

theorem keeps_append {P : Timing.Profile} {c : Nat} {x : Nat → Nat} {l m : List Timing.TCall} (h : Keeps P c x l) (h' : Keeps P c x m) : Keeps P c x (l ++ m) := by
  intro w hw
  obtain ⟨w1, e1, r1⟩ := h w hw
  obtain ⟨w2, e2, r2⟩ := h' w1 r1
  exact ⟨w2, by rw [List.flatMap_append, play_append, e1]; exact e2, r2⟩

theorem keeps_nil (P : Timing.Profile) (c : Nat) (x : Nat → Nat) : Keeps P c x [] := fun w hw => ⟨w, rfl, hw⟩

theorem keeps_command {P : Timing.Profile} {c : Nat} (x : Nat → Nat) (hp : SlowEnough P c) (b : Nat) (hb : PlainCommand b) : Keeps P c x (Timing.command P [.command b]) := by
  intro w hw
  obtain ⟨h1, h2, h3⟩ := hb
  obtain ⟨w', e, r⟩ := ready_byte P c x w hw false b h1 (fun _ => h2) P.command (by
    have := hp.command
    unfold duration
    rw [if_neg (by decide), if_neg (by omega)]
    omega)
  exact ⟨w', by simpa [Timing.command, Timing.act] using e, r⟩

theorem ready_bare (P : Timing.Profile) (c : Nat) (x : Nat → Nat) (w : LcdWorld) (h : Ready c w) (rs : Bool) (b : Nat) (hb : b < 256) (hs : rs = false → b / 16 ≠ 3)
    (hd : duration rs b ≤ P.pulse + 7 * c) : ∃ w', lcdPlay c x w (Timing.writeByte P rs b) = some w' ∧ Ready c w' := by
  obtain ⟨hbt, hf⟩ := h
  obtain ⟨t1, t2, n, k, l, a1, a2, a3, a4, _, a6⟩ := play_byte P c x w hbt rs b hb
  rw [a6, if_pos (by omega)]
  refine ⟨_, rfl, ⟨a4, ?_, rfl⟩, ?_⟩
  · cases rs <;> simp_all
  · dsimp only; omega

theorem keeps_data {P : Timing.Profile} {c : Nat} (x : Nat → Nat) (hp : SlowEnough P c) (b : Nat) (hb : b < 256) : Keeps P c x [.call (.data b)] := by
  intro w hw
  obtain ⟨w', e, r⟩ := ready_bare P c x w hw true b hb (by simp) hp.data
  exact ⟨w', by simpa [Timing.act] using e, r⟩

theorem keeps_long {P : Timing.Profile} {c : Nat} (x : Nat → Nat) (hp : SlowEnough P c) (b : Nat) (hb : b < 4) :
    Keeps P c x [.call (.command b), .wait P.commandLong] := by
  intro w hw
  obtain ⟨w', e, r⟩ := ready_byte P c x w hw false b (by omega) (fun _ => by omega) P.commandLong (by
    have := hp.long
    unfold duration
    rw [if_neg (by decide), if_pos hb]
    omega)
  exact ⟨w', by simpa [Timing.act] using e, r⟩

theorem display_plain (r : BitVec 8) : PlainCommand ((r.toNat &&& 0x07) ||| 0x08) :=
  (by decide +kernel : ∀ r : BitVec 8, (r.toNat &&& 0x07 ||| 0x08) < 256 ∧ (r.toNat &&& 0x07 ||| 0x08) / 16 ≠ 3 ∧ 4 ≤ (r.toNat &&& 0x07 ||| 0x08)) r

theorem entry_plain (r : BitVec 8) : PlainCommand (((r.toNat &&& 0x18) >>> 3) ||| 0x04) :=
  (by decide +kernel : ∀ r : BitVec 8, ((r.toNat &&& 0x18) >>> 3 ||| 0x04) < 256 ∧ ((r.toNat &&& 0x18) >>> 3 ||| 0x04) / 16 ≠ 3 ∧
    4 ≤ ((r.toNat &&& 0x18) >>> 3 ||| 0x04)) r

theorem address_plain (a : Nat) (h : a < 256) : PlainCommand (a ||| 0x80) :=
  (by decide +kernel : ∀ a, a < 256 → (a ||| 0x80) < 256 ∧ (a ||| 0x80) / 16 ≠ 3 ∧ 4 ≤ (a ||| 0x80)) a h

theorem set_plain (r r' : Controller.Regs) (s : Controller.Setting) (l : List Call) (h : Controller.set r s = .ok (r', l)) :
    ∃ b, PlainCommand b ∧ l = [.command b] := by
  cases s <;> simp only [Controller.set] at h
  all_goals (repeat (obtain ⟨_, _, h⟩ := okBind h))
  all_goals (simp only [Res.ok.injEq, Prod.mk.injEq] at h; obtain ⟨_, rfl⟩ := h; first | exact ⟨_, display_plain _, rfl⟩ | exact ⟨_, entry_plain _, rfl⟩)

theorem writeAddress_plain (rows : Nat) (s : View.State) (l : List Call) (h : View.writeAddress rows s = .ok l) : ∃ b, PlainCommand b ∧ l = [.command b] := by
  unfold View.writeAddress View.calcAddress at h
  obtain ⟨a, ha, h⟩ := okBind h
  obtain ⟨o, ho, ha⟩ := okBind ha
  simp only [Res.ok.injEq] at h ha
  subst h ha
  exact ⟨_, address_plain _ (by unfold toU; omega), rfl⟩

/-- The bytes a program passes. -/
def ByteOp : View.Op → Prop
  | .put ch => ch < 256
  | _ => True

theorem keeps_step {P : Timing.Profile} {c : Nat} (x : Nat → Nat) (hp : SlowEnough P c) (rows : Nat) (s s' : View.State) (op : View.Op) (l : List Timing.TCall)
    (hb : ByteOp op) (hf : op ≠ .startUp true) (h : Timing.step P rows s op = .ok (s', l)) : Keeps P c x l := by
  cases op with
  | put ch =>
    simp only [Timing.step, Timing.write] at h
    obtain ⟨⟨s1, l1⟩, h1, h⟩ := okBind h
    simp only [Res.ok.injEq, Prod.mk.injEq] at h
    obtain ⟨_, rfl⟩ := h
    unfold View.write at h1
    split at h1
    · next hc =>
      rw [if_pos (Or.inl hc)]
      obtain ⟨l2, h2, h1⟩ := okBind h1
      simp only [Res.ok.injEq, Prod.mk.injEq] at h1
      obtain ⟨_, rfl⟩ := h1
      obtain ⟨b, pb, rfl⟩ := writeAddress_plain _ _ _ h2
      exact keeps_command x hp b pb
    · split at h1
      · next hc =>
        rw [if_pos (Or.inr hc)]
        obtain ⟨l2, h2, h1⟩ := okBind h1
        simp only [Res.ok.injEq, Prod.mk.injEq] at h1
        obtain ⟨_, rfl⟩ := h1
        obtain ⟨b, pb, rfl⟩ := writeAddress_plain _ _ _ h2
        exact keeps_command x hp b pb
      · next hc1 hc2 =>
        simp only [Res.ok.injEq, Prod.mk.injEq] at h1
        obtain ⟨_, rfl⟩ := h1
        rw [if_neg (by omega)]
        exact keeps_data x hp ch hb
  | setCursor r cc =>
    simp only [Timing.step, View.setCursor] at h
    obtain ⟨⟨s1, l1⟩, h1, h⟩ := okBind h
    simp only [Res.ok.injEq, Prod.mk.injEq] at h
    obtain ⟨_, rfl⟩ := h
    obtain ⟨l2, h2, h1⟩ := okBind h1
    simp only [Res.ok.injEq, Prod.mk.injEq] at h1
    obtain ⟨_, rfl⟩ := h1
    obtain ⟨b, pb, rfl⟩ := writeAddress_plain _ _ _ h2
    exact keeps_command x hp b pb
  | home =>
    simp only [Timing.step, Res.ok.injEq, Prod.mk.injEq] at h
    obtain ⟨_, rfl⟩ := h
    exact keeps_long x hp 2 (by omega)
  | startUp full =>
    cases full with
    | true => exact absurd rfl hf
    | false =>
      simp only [Timing.step, Bool.false_eq_true, if_false, Res.ok.injEq, Prod.mk.injEq] at h
      obtain ⟨_, rfl⟩ := h
      exact keeps_append (keeps_append (keeps_nil P c x) (keeps_long x hp 1 (by omega))) (keeps_long x hp 2 (by omega))
  | clear =>
    simp only [Timing.step, Res.ok.injEq, Prod.mk.injEq] at h
    obtain ⟨_, rfl⟩ := h
    exact keeps_long x hp 1 (by omega)
  | setting y =>
    simp only [Timing.step] at h
    obtain ⟨⟨s1, l1⟩, h1, h⟩ := okBind h
    simp only [Res.ok.injEq, Prod.mk.injEq] at h
    obtain ⟨_, rfl⟩ := h
    obtain ⟨b, pb, rfl⟩ := set_plain _ _ _ _ h1
    exact keeps_command x hp b pb

theorem keeps_run {P : Timing.Profile} {c : Nat} (x : Nat → Nat) (hp : SlowEnough P c) (rows : Nat) (ops : List View.Op) (hb : ∀ o ∈ ops, ByteOp o ∧ o ≠ .startUp true)
    (s s' : View.State) (l : List Timing.TCall) (h : Timing.run P rows s ops = .ok (s', l)) : Keeps P c x l := by
  induction ops generalizing s l with
  | nil =>
    simp only [Timing.run, Res.ok.injEq, Prod.mk.injEq] at h
    obtain ⟨_, rfl⟩ := h
    exact keeps_nil P c x
  | cons o ops ih =>
    unfold Timing.run at h
    obtain ⟨⟨s1, l1⟩, h1, h⟩ := okBind h
    obtain ⟨⟨s2, l2⟩, h2, h⟩ := okBind h
    simp only [Res.ok.injEq, Prod.mk.injEq] at h
    obtain ⟨rfl, rfl⟩ := h
    have ho := hb o (by simp)
    exact keeps_append (keeps_step x hp rows s s1 o l1 ho.1 ho.2 h1) (ih (fun o' ho' => hb o' (by simp [ho'])) s1 l2 h2)

theorem startUp_phase (P : Timing.Profile) (c : Nat) (x : Nat → Nat) (w : LcdWorld) (hr : AtRest w.lines) (hrs : w.lines.rs = false) (h4 : w.busy.four = false)
    (us n : Nat) (hn : n < 16) (hf : w.busy.free ≤ w.now + us + 5 * c) :
    ∃ t w', lcdPlay c x w (.wait us :: Timing.write4 P n) = some w' ∧ AtRest w'.lines ∧ w'.lines.rs = false ∧ t + P.pulse + c ≤ w'.now ∧
      w'.busy = ⟨n == 2, none, w.busy.boot + 1, t + bootDuration w.busy.boot false n⟩ := by
  obtain ⟨t, now', k', l', a1, a2, a3, a4, _, a6⟩ := play_write4 P c x ⟨w.now + us + x w.k, w.k + 1, w.lines, w.busy⟩ hr n
  have hacc : w.busy.accept t w.lines.rs (n % 16) = some ⟨n == 2, none, w.busy.boot + 1, t + bootDuration w.busy.boot false n⟩ := by
    unfold Busy.accept
    rw [if_neg (by dsimp only at a1; omega), hrs, h4, Nat.mod_eq_of_lt hn]
    rfl
  refine ⟨t, ⟨now', k', l', ⟨n == 2, none, w.busy.boot + 1, t + bootDuration w.busy.boot false n⟩⟩, ?_, a3, a4.trans hrs, a2, rfl⟩
  show lcdPlay c x ⟨w.now + us + x w.k, w.k + 1, w.lines, w.busy⟩ _ = _
  rw [a6]
  dsimp only
  rw [hacc]
  rfl

/-- The full start, from power up. -/
theorem startUp_ready {P : Timing.Profile} {c : Nat} (x : Nat → Nat) (hp : SlowEnough P c) (w : LcdWorld) (hr : AtRest w.lines) (hrs : w.lines.rs = false)
    (hb : w.busy = powerOn) : ∃ w', lcdPlay c x w ((Timing.startUp P true).flatMap (Timing.act P)) = some w' ∧ Ready c w' := by
  obtain ⟨p1, p2, p3, p4, p5, p6, p7⟩ := hp
  have e : (Timing.startUp P true).flatMap (Timing.act P) =
      (.wait P.powerUp :: Timing.write4 P 3) ++ ((.wait P.initLong :: Timing.write4 P 3) ++ ((.wait P.initMid :: Timing.write4 P 3) ++
      ((.wait P.initShort :: Timing.write4 P 2) ++ (Timing.writeByte P false 0x28 ++
      ([Timing.TCall.call (.command 1), .wait P.commandLong] ++ [Timing.TCall.call (.command 2), .wait P.commandLong]).flatMap (Timing.act P))))) := by
    simp [Timing.startUp, Timing.act, driverInit, Timing.clearDisplay, Timing.returnHome, List.flatMap]
  obtain ⟨t1, w1, e1, r1, s1, n1, b1⟩ := startUp_phase P c x w hr hrs (by rw [hb]; rfl) P.powerUp 3 (by omega) (by rw [hb]; simp only [powerOn]; omega)
  have d1 : bootDuration w.busy.boot false 3 = 4100 := by rw [hb]; rfl
  have k1 : w1.busy.boot = 1 := by rw [b1, hb]; rfl
  obtain ⟨t2, w2, e2, r2, s2, n2, b2⟩ := startUp_phase P c x w1 r1 s1 (by rw [b1]; rfl) P.initLong 3 (by omega) (by rw [b1, d1]; dsimp only; omega)
  have d2 : bootDuration w1.busy.boot false 3 = 100 := by rw [k1]; rfl
  have k2 : w2.busy.boot = 2 := by rw [b2, k1]
  obtain ⟨t3, w3, e3, r3, s3, n3, b3⟩ := startUp_phase P c x w2 r2 s2 (by rw [b2]; rfl) P.initMid 3 (by omega) (by rw [b2, d2]; dsimp only; omega)
  have d3 : bootDuration w2.busy.boot false 3 = 37 := by rw [k2]; rfl
  have k3 : w3.busy.boot = 3 := by rw [b3, k2]
  obtain ⟨t4, w4, e4, r4, s4, n4, b4⟩ := startUp_phase P c x w3 r3 s3 (by rw [b3]; rfl) P.initShort 2 (by omega) (by rw [b3, d3]; dsimp only; omega)
  have d4 : bootDuration w3.busy.boot false 2 = 37 := by rw [k3]; rfl
  have ready4 : Ready c w4 := ⟨⟨r4, by rw [b4]; rfl, by rw [b4]⟩, by rw [b4, d4]; dsimp only; omega⟩
  obtain ⟨w5, e5, ready5⟩ := ready_bare P c x w4 ready4 false 0x28 (by omega) (fun _ => by omega) (by
    rw [show duration false 0x28 = 37 from rfl]
    omega)
  have hp' : SlowEnough P c := ⟨p1, p2, p3, p4, p5, p6, p7⟩
  obtain ⟨w6, e6, ready6⟩ := keeps_append (keeps_long x hp' 1 (by omega)) (keeps_long x hp' 2 (by omega)) w5 ready5
  refine ⟨w6, ?_, ready6⟩
  rw [e, play_append, e1, Option.bind_some, play_append, e2, Option.bind_some, play_append, e3, Option.bind_some, play_append, e4, Option.bind_some,
    play_append, e5, Option.bind_some]
  exact e6

/-- **C98, partial.** With a timing profile that is slow enough for the processor - seven conditions, the delays and the pin writes together against the data
    sheet - no program that initialises the view after power up ever writes to a busy display: any history of operations, any extra time anywhere.
    Missing: the library's own profile (next theorems). -/
theorem c98_busy_partial (P : Timing.Profile) (c : Nat) (hp : SlowEnough P c) (x : Nat → Nat) (rows : Nat) (s s' : View.State) (ops : List View.Op)
    (hb : ∀ o ∈ ops, ByteOp o ∧ o ≠ .startUp true) (l : List Timing.TCall) (h : Timing.run P rows s (.startUp true :: ops) = .ok (s', l))
    (now k : Nat) (a : Lines) (ha : AtRest a) (hrs : a.rs = false) :
    (lcdPlay c x ⟨now, k, a, powerOn⟩ (l.flatMap (Timing.act P))).isSome = true := by
  unfold Timing.run at h
  obtain ⟨⟨s1, l1⟩, h1, h⟩ := okBind h
  obtain ⟨⟨s2, l2⟩, h2, h⟩ := okBind h
  simp only [Res.ok.injEq, Prod.mk.injEq] at h
  obtain ⟨_, rfl⟩ := h
  simp only [Timing.step, if_true] at h1
  obtain ⟨⟨r, l3⟩, h3, h1⟩ := okBind h1
  simp only [Res.ok.injEq, Prod.mk.injEq] at h1
  obtain ⟨_, rfl⟩ := h1
  obtain ⟨b, pb, rfl⟩ := set_plain _ _ _ _ h3
  obtain ⟨w1, e1, r1⟩ := startUp_ready x hp ⟨now, k, a, powerOn⟩ ha hrs rfl
  obtain ⟨w2, e2, _⟩ := keeps_append (keeps_command x hp b pb) (keeps_run x hp rows ops hb s1 s2 l2 h2) w1 r1
  rw [List.append_assoc, List.flatMap_append, play_append, e1, Option.bind_some, e2]
  rfl

/-- A program: characters, a new line, a cursor position and a clear. -/
example : ∃ s' l, Timing.run ⟨50000, 4100, 100, 40, 40, 1640, 37⟩ 2 ⟨0, 0, 0⟩
    [.startUp true, .put 72, .put 10, .put 73, .setCursor 1 5, .clear] = .ok (s', l) := ⟨_, _, rfl⟩

/-- The delays that are commented out in HD44780_Profile.h, with pin writes of one microsecond. -/
example : SlowEnough ⟨50000, 4100, 100, 40, 40, 1640, 37⟩ 1 := ⟨by decide, by decide, by decide, by decide, by decide, by decide, by decide⟩
/-- Without any time for the pin writes they are not enough: data takes 41 microseconds. -/
example : ¬ SlowEnough ⟨50000, 4100, 100, 40, 40, 1640, 37⟩ 0 := fun h => absurd h.data (by decide)

/-- **C98 fails** for the library's own profile. On every processor that takes at most 101 microseconds for a pin write: clearing the display, then going home, as
    `Initialize` itself does, sends the second command while the first is executed. On one that takes at most 4: the same with the second of two characters.
    And after power up the first instruction comes too early, up to 5.9 milliseconds for a pin write. -/
theorem c98_profile_fails (c : Nat) (w : LcdWorld) (hw : BetweenBytes w) (hf : w.busy.free ≤ w.now) :
    (c ≤ 101 → lcdPlay c (fun _ => 0) w ((Timing.clearDisplay .default ++ Timing.returnHome .default).flatMap (Timing.act .default)) = none) ∧
    (c ≤ 4 → ∀ a b, a < 256 → b < 256 →
      lcdPlay c (fun _ => 0) w ([Timing.TCall.call (.data a), .call (.data b)].flatMap (Timing.act .default)) = none) ∧
    (c < 6000 → ∀ k a, AtRest a → lcdPlay c (fun _ => 0) ⟨0, k, a, powerOn⟩ ((Timing.startUp .default true).flatMap (Timing.act .default)) = none) := by
  refine ⟨fun hc => ?_, fun hc a b ha hb => ?_, fun hc k a ha => ?_⟩
  · obtain ⟨t1, t2, n, k, l, a1, a2, a3, a4, a5, a6⟩ := play_byte .default c (fun _ => 0) w hw false 1 (by omega)
    obtain ⟨x1, x2, x3⟩ := a5 fun _ => rfl
    rw [if_pos (by omega)] at a6
    obtain ⟨t1', t2', n', k', l', b1, b2, b3, b4, b5, b6⟩ := play_byte .default c (fun _ => 0)
      ⟨n + 800 + 0, k + 1, l, ⟨true, none, w.busy.boot, t2 + 1520⟩⟩ ⟨a4, rfl, rfl⟩ false 2 (by omega)
    obtain ⟨y1, y2, y3⟩ := b5 fun _ => rfl
    have hp : Timing.Profile.default.pulse = 8 := rfl
    have hno : ¬ t2 + 1520 ≤ t1' := by dsimp only at y1; omega
    rw [if_neg hno] at b6
    have e : (Timing.clearDisplay .default ++ Timing.returnHome .default).flatMap (Timing.act .default) =
        Timing.writeByte .default false 1 ++ (.wait 800 :: (Timing.writeByte .default false 2 ++ [.wait 800])) := rfl
    rw [e, play_append, a6, Option.bind_some, play_wait, play_append]
    refine (congrArg (Option.bind · _) b6).trans ?_
    rfl
  · obtain ⟨t1, t2, n, k, l, a1, a2, a3, a4, a5, a6⟩ := play_byte .default c (fun _ => 0) w hw true a ha
    obtain ⟨x1, x2, x3⟩ := a5 fun _ => rfl
    rw [if_pos (by omega)] at a6
    obtain ⟨t1', t2', n', k', l', b1, b2, b3, b4, b5, b6⟩ := play_byte .default c (fun _ => 0)
      ⟨n, k, l, ⟨true, none, w.busy.boot, t2 + 41⟩⟩ ⟨a4, rfl, rfl⟩ true b hb
    obtain ⟨y1, y2, y3⟩ := b5 fun _ => rfl
    have hp : Timing.Profile.default.pulse = 8 := rfl
    have hno : ¬ t2 + 41 ≤ t1' := by dsimp only at y1; omega
    rw [if_neg hno] at b6
    have e : [Timing.TCall.call (.data a), .call (.data b)].flatMap (Timing.act .default) =
        Timing.writeByte .default true a ++ Timing.writeByte .default true b := by simp [Timing.act, List.flatMap]
    rw [e, play_append, a6]
    exact b6
  · have e : (Timing.startUp .default true).flatMap (Timing.act .default) =
        .wait 10000 :: (Timing.write4 .default 3 ++ (.wait 1000 :: (Timing.write4 .default 3 ++ (.wait 30 :: (Timing.write4 .default 3 ++ (.wait 20 ::
        (Timing.write4 .default 2 ++ (Timing.writeByte .default false 0x28 ++ (Timing.clearDisplay .default ++ Timing.returnHome .default).flatMap (Timing.act .default))))))))) := by
      simp [Timing.startUp, Timing.act, driverInit, Timing.clearDisplay, Timing.returnHome, List.flatMap, Timing.Profile.default]
    rw [e]
    rw [play_wait]
    obtain ⟨t, now', k', l', a1, a2, a3, a4, a5, a6⟩ := play_write4 .default c (fun _ => 0) ⟨0 + 10000 + 0, k + 1, a, powerOn⟩ ha 3
    obtain ⟨x1, x2⟩ := a5 fun _ => rfl
    rw [play_append, a6]
    have : powerOn.accept t a.rs (3 % 16) = none := by
      unfold Busy.accept
      rw [if_pos (show t < powerOn.free by simp only [powerOn]; dsimp only at x1; omega)]
    dsimp only
    rw [this]
    rfl

/-- The delays leave the calls on the driver as they are in the model without time. -/
def untimed (l : List Timing.TCall) : List Call := l.flatMap fun
  | .call c => [c]
  | .wait _ => []

theorem untimed_command (P : Timing.Profile) (l : List Call) : untimed (Timing.command P l) = l := by
  induction l with
  | nil => rfl
  | cons c l ih =>
    show c :: untimed (Timing.command P l) = _
    rw [ih]

theorem untimed_map (l : List Call) : untimed (l.map .call) = l := by
  induction l with
  | nil => rfl
  | cons c l ih =>
    show c :: untimed (l.map .call) = _
    rw [ih]

theorem untimed_append (l m : List Timing.TCall) : untimed (l ++ m) = untimed l ++ untimed m := by simp [untimed]

/-- **C98.** The operations with delays do what they do without, so the content theorems (C39 to C43) hold for them. -/
theorem c98_content (P : Timing.Profile) (rows : Nat) (s : View.State) (op : View.Op) :
    View.step rows s op = (do let (s', l) ← Timing.step P rows s op; .ok (s', untimed l)) := by
  cases op with
  | put ch =>
    simp only [View.step, Timing.step, Timing.write]
    cases View.write rows s ch with
    | ub => rfl
    | ok r =>
      simp only [Res.bind_ok]
      split
      · rw [untimed_command]
      · rw [untimed_map]
  | setCursor r c =>
    simp only [View.step, Timing.step]
    cases View.setCursor rows s r c with
    | ub => rfl
    | ok r => simp only [Res.bind_ok, untimed_command]
  | home => rfl
  | startUp full =>
    cases full with
    | false => rfl
    | true =>
      simp only [View.step, Timing.step, View.startUp, if_true]
      cases Controller.set s.regs (.entryMode true false) with
      | ub => rfl
      | ok r =>
        simp only [Res.bind_ok, untimed_append, untimed_command]
        rfl
  | clear => rfl
  | setting y =>
    simp only [View.step, Timing.step]
    cases Controller.set s.regs y with
    | ub => rfl
    | ok r => simp only [Res.bind_ok, untimed_command]

end Atl.Props
