import Verif.Model.Midi
import Verif.Spec.Midi

namespace Atl.Midi

open Spec.Midi (realTimes lengthTable)

/-! ### Table facts -/

theorem and127 (x : Nat) : x &&& 127 = x % 128 := Nat.and_two_pow_sub_one_eq_mod x 7

theorem tbl_type_data : ∀ b < 128, getMessageType b = 0 := by decide +kernel
theorem tbl_type_status : ∀ b < 256, 128 ≤ b → getMessageType b > 0 := by decide +kernel
theorem tbl_len : ∀ b < 256, getMessageLength b = lengthTable b := by decide +kernel
theorem tbl_len_type : ∀ b < 256, getMessageLength (getMessageType b) = getMessageLength b := by decide +kernel
theorem tbl_chan : ∀ b < 256, 128 ≤ b → b < 0xF0 → (getMessageType b ||| (b &&& 15)) = b := by decide +kernel
theorem tbl_chan_type : ∀ b < 256, 128 ≤ b → b < 0xF0 →
    isChannelMessage (getMessageType b) = true ∧ isSystemMessage (getMessageType b) = false := by decide +kernel
theorem tbl_sys_type : ∀ b < 256, 0xF0 ≤ b → getMessageType b = b ∧ isSystemMessage b = true ∧
    isChannelMessage b = false := by decide +kernel
theorem tbl_chan_len : ∀ b < 256, 128 ≤ b → b < 0xF0 → getMessageLength b = 2 ∨ getMessageLength b = 3 := by decide +kernel
theorem tbl_rt : ∀ b < 256, b ∈ realTimes → getMessageLength b = 1 ∧ isRealtimeMessage (getMessageType b) = true ∧
    getMessageType b = b ∧ 0xF8 ≤ b := by decide +kernel
theorem tbl_rt_mem {b : Nat} (h : b ∈ realTimes) : b < 256 := by
  simp only [realTimes, List.mem_cons, List.not_mem_nil, or_false] at h
  omega

theorem ty80 : ∀ c < 16, getMessageType (0x80 + c) = 0x80 ∧ (0x80 + c) &&& 15 = c ∧ getMessageLength (0x80 + c) = 3 ∧ (0x80 ||| c) = 0x80 + c := by decide +kernel
theorem ty90 : ∀ c < 16, getMessageType (0x90 + c) = 0x90 ∧ (0x90 + c) &&& 15 = c ∧ getMessageLength (0x90 + c) = 3 ∧ (0x90 ||| c) = 0x90 + c := by decide +kernel
theorem tyA0 : ∀ c < 16, getMessageType (0xA0 + c) = 0xA0 ∧ (0xA0 + c) &&& 15 = c ∧ getMessageLength (0xA0 + c) = 3 ∧ (0xA0 ||| c) = 0xA0 + c := by decide +kernel
theorem tyB0 : ∀ c < 16, getMessageType (0xB0 + c) = 0xB0 ∧ (0xB0 + c) &&& 15 = c ∧ getMessageLength (0xB0 + c) = 3 ∧ (0xB0 ||| c) = 0xB0 + c := by decide +kernel
theorem tyC0 : ∀ c < 16, getMessageType (0xC0 + c) = 0xC0 ∧ (0xC0 + c) &&& 15 = c ∧ getMessageLength (0xC0 + c) = 2 ∧ (0xC0 ||| c) = 0xC0 + c := by decide +kernel
theorem tyD0 : ∀ c < 16, getMessageType (0xD0 + c) = 0xD0 ∧ (0xD0 + c) &&& 15 = c ∧ getMessageLength (0xD0 + c) = 2 ∧ (0xD0 ||| c) = 0xD0 + c := by decide +kernel
theorem tyE0 : ∀ c < 16, getMessageType (0xE0 + c) = 0xE0 ∧ (0xE0 + c) &&& 15 = c ∧ getMessageLength (0xE0 + c) = 3 ∧ (0xE0 ||| c) = 0xE0 + c := by decide +kernel

/-! ### Memory facts -/

theorem load_congr {m m' : Nat → Nat} : ∀ {k o : Nat}, (∀ a, o ≤ a → a < o + k → m a = m' a) →
    load m o k = load m' o k := by
  intro k
  induction k with
  | zero => intros; rfl
  | succ k ih =>
    intro o h
    rw [load, load, h o (by omega) (by omega), ih (fun a h1 h2 => h a (by omega) (by omega))]

theorem store_succ (m : Nat → Nat) (o k v a : Nat) :
    store m o (k + 1) v a = if a = o then v % 256 else store m (o + 1) k (v / 256) a := rfl

theorem store_one (m : Nat → Nat) (o v a : Nat) :
    store m o 1 v a = if a = o then v % 256 else m a := rfl

theorem store_out {m : Nat → Nat} : ∀ {k o v a : Nat}, (a < o ∨ o + k ≤ a) → store m o k v a = m a := by
  intro k
  induction k with
  | zero => intros; rfl
  | succ k ih =>
    intro o v a h
    rw [store_succ, if_neg (by omega), ih (by omega)]

theorem load_store (m : Nat → Nat) : ∀ (k o v : Nat), load (store m o k v) o k = v % 256 ^ k := by
  intro k
  induction k with
  | zero => intro o v; simp [load, Nat.mod_one]
  | succ k ih =>
    intro o v
    rw [load]
    have h1 : load (store m o (k + 1) v) (o + 1) k = load (store m (o + 1) k (v / 256)) (o + 1) k := by
      apply load_congr
      intro a h1 h2
      rw [store_succ, if_neg (by omega)]
    rw [h1, ih]
    have h2 : store m o (k + 1) v o = v % 256 := by rw [store_succ, if_pos rfl]
    rw [h2, Nat.pow_succ, Nat.mul_comm (256 ^ k) 256, Nat.mod_mul]

theorem load_store_small (m : Nat → Nat) (k o v : Nat) (hk : 2 ≤ k) (hv : v < 65536) :
    load (store m o k v) o k = v := by
  rw [load_store]
  apply Nat.mod_eq_of_lt
  have : 256 ^ 2 ≤ 256 ^ k := Nat.pow_le_pow_right (by decide) hk
  omega

theorem or_shift7 {a b : Nat} (ha : a < 128) : (a ||| (b <<< 7)) = a + 128 * b := by
  have := Nat.shiftLeft_add_eq_or_of_lt (i := 7) (b := a) (by simpa using ha) b
  rw [Nat.or_comm, ← this, Nat.shiftLeft_eq]
  omega

theorem hi7 (v : Nat) : ((v &&& 0x3F80) >>> 7) &&& 0x7F = v / 128 % 128 := by
  rw [Nat.shiftRight_and_distrib, show (0x3F80 : Nat) >>> 7 = 127 from rfl, Nat.and_assoc,
    show (127 &&& 0x7F : Nat) = 127 from rfl, and127, Nat.shiftRight_eq_div_pow]

theorem lo7 (v : Nat) : (v &&& 0x7F) &&& 0x7F = v % 128 := by
  rw [Nat.and_assoc, show (127 &&& 0x7F : Nat) = 127 from rfl, and127]

/-- A layout in which the channel does not overlap the data fields and `int` has at least 16 bits. -/
structure Layout.Ok (L : Layout) : Prop where
  off : 1 ≤ L.off
  w : 2 ≤ L.w

theorem Layout.avr_ok : Layout.avr.Ok := ⟨by decide, by decide⟩
theorem Layout.host_ok : Layout.host.Ok := ⟨by decide, by decide⟩

/-! ### Meaning of a message object -/

/-- What the application reads from a message object: the fields documented for its type (MidiMessage.h 34-53). -/
def observe (L : Layout) (m : Msg) : Option Spec.Midi.Msg :=
  match m.type with
  | 0x80 => some (.noteOff m.channel (m.note L) (m.velocity L))
  | 0x90 => some (.noteOn m.channel (m.note L) (m.velocity L))
  | 0xA0 => some (.polyPressure m.channel (m.note L) (m.velocity L))
  | 0xB0 => some (.controlChange m.channel (m.note L) (m.velocity L))
  | 0xC0 => some (.programChange m.channel (m.note L))
  | 0xD0 => some (.channelPressure m.channel (m.velocity L))
  | 0xE0 => some (.pitchBend m.channel (m.bend L))
  | 0xF1 => some (.timeCode m.dataField)
  | 0xF2 => some (.songPosition m.beats)
  | 0xF3 => some (.songSelect m.dataField)
  | 0xF6 => some .tuneRequest
  | t => if t ∈ realTimes then some (.realTime t) else none

/-- Meaning of a reader event. -/
def Ev.meaning (L : Layout) : Ev → Option Spec.Midi.Msg
  | .onMessage m => observe L m
  | .onRealtime t => if t = 0xF6 then some .tuneRequest else if t ∈ realTimes then some (.realTime t) else none
  | .onSysEx => none

/-! ### Decoding into a message object -/

theorem setStatus_type (L : Layout) (m : Msg) (b : Nat) : (m.setStatusByte L b).type = getMessageType b := by
  unfold Msg.setStatusByte; simp only; split <;> rfl

theorem set1_type (L : Layout) (m : Msg) (b : Nat) : (m.setDataByte1 L b).type = m.type := by
  unfold Msg.setDataByte1; split <;> rfl

theorem set2_type (L : Layout) (m : Msg) (b : Nat) : (m.setDataByte2 L b).type = m.type := by
  unfold Msg.setDataByte2; split <;> rfl

/-- Memory after SetStatusByte of a channel status: channel at 0, zeros in the bend field. -/
theorem setStatus_chan (L : Layout) (hL : L.Ok) (m : Msg) (b : Nat) (h : isSystemMessage (getMessageType b) = false) :
    (m.setStatusByte L b).mem 0 = (b &&& 15) ∧ load (m.setStatusByte L b).mem L.off L.w = 0 := by
  have h15 : b &&& 15 < 256 := by
    have : b &&& 15 = b % 16 := Nat.and_two_pow_sub_one_eq_mod b 4
    omega
  unfold Msg.setStatusByte
  simp only [h, Bool.not_false, if_true]
  constructor
  · simp [store, Nat.mod_eq_of_lt h15]
  · have hoff := hL.off
    have : load (store (store (store m.mem L.off L.w 0) 0 2 0) 0 1 (b &&& 15)) L.off L.w =
        load (store m.mem L.off L.w 0) L.off L.w := by
      apply load_congr
      intro a h1 h2
      rw [store_out (by omega)]
      by_cases ha : a = 1
      · subst ha
        have h1' : L.off = 1 := by omega
        have hw := hL.w
        rw [h1']
        obtain ⟨k, hk⟩ : ∃ k, L.w = k + 1 := ⟨L.w - 1, by omega⟩
        simp [store, hk]
      · rw [store_out (by omega)]
    rw [this, load_store]; simp


/-- The object built by SetStatusByte and the two data setters. -/
def build3 (L : Layout) (m : Msg) (st a b : Nat) : Msg := ((m.setStatusByte L st).setDataByte1 L a).setDataByte2 L b
/-- The object built by SetStatusByte and SetDataByte1. -/
def build2 (L : Layout) (m : Msg) (st a : Nat) : Msg := (m.setStatusByte L st).setDataByte1 L a

theorem build3_type (L : Layout) (m : Msg) (st a b : Nat) : (build3 L m st a b).type = getMessageType st := by
  rw [build3, set2_type, set1_type, setStatus_type]

theorem build2_type (L : Layout) (m : Msg) (st a : Nat) : (build2 L m st a).type = getMessageType st := by
  rw [build2, set1_type, setStatus_type]

/-- Note-like messages: two bytes in the note and velocity fields. -/
theorem build3_note (L : Layout) (hL : L.Ok) (m : Msg) (st a b : Nat) (ha : a < 128) (hb : b < 128)
    (ht : getMessageType st = 0x80 ∨ getMessageType st = 0x90 ∨ getMessageType st = 0xA0 ∨ getMessageType st = 0xB0) :
    (build3 L m st a b).channel = (st &&& 15) ∧ (build3 L m st a b).note L = a ∧
    (build3 L m st a b).velocity L = b := by
  have hs : isSystemMessage (getMessageType st) = false := by rcases ht with h | h | h | h <;> rw [h] <;> decide
  have hoff := hL.off
  have h0 := (setStatus_chan L hL m st hs).1
  have ht1 := setStatus_type L m st
  have e1 : (m.setStatusByte L st).setDataByte1 L a =
      { m.setStatusByte L st with mem := store (m.setStatusByte L st).mem L.off 1 a } := by
    unfold Msg.setDataByte1
    rcases ht with h | h | h | h <;> rw [h] at ht1 <;> simp only [ht1]
  have e2 : build3 L m st a b =
      { m.setStatusByte L st with mem := store (store (m.setStatusByte L st).mem L.off 1 a) (L.off + 1) 1 b } := by
    rw [build3, e1]
    unfold Msg.setDataByte2
    rcases ht with h | h | h | h <;> rw [h] at ht1 <;> simp only [ht1]
  rw [e2]
  refine ⟨?_, ?_, ?_⟩
  · simp only [Msg.channel]
    rw [store_out (by omega), store_out (by omega), h0]
  · simp only [Msg.note]
    rw [store_out (by omega), store_one, if_pos rfl]; omega
  · simp only [Msg.velocity]
    rw [store_one, if_pos rfl]; omega

theorem build3_bend (L : Layout) (hL : L.Ok) (m : Msg) (st a b : Nat) (ha : a < 128) (hb : b < 128)
    (ht : getMessageType st = 0xE0) :
    (build3 L m st a b).channel = (st &&& 15) ∧ (build3 L m st a b).bend L = a + 128 * b := by
  have hs : isSystemMessage (getMessageType st) = false := by rw [ht]; decide
  have hoff := hL.off
  have h0 := (setStatus_chan L hL m st hs).1
  have ht1 := setStatus_type L m st
  rw [ht] at ht1
  have e1 : (m.setStatusByte L st).setDataByte1 L a =
      { m.setStatusByte L st with mem := store (m.setStatusByte L st).mem L.off L.w a } := by
    unfold Msg.setDataByte1
    simp only [ht1]
  have e2 : build3 L m st a b =
      { m.setStatusByte L st with
        mem := store (store (m.setStatusByte L st).mem L.off L.w a) L.off L.w (a + 128 * b) } := by
    rw [build3, e1]
    unfold Msg.setDataByte2
    simp only [ht1, Msg.bend]
    rw [load_store_small _ _ _ _ hL.w (by omega), or_shift7 ha]
  rw [e2]
  refine ⟨?_, ?_⟩
  · simp only [Msg.channel]
    rw [store_out (by omega), store_out (by omega), h0]
  · simp only [Msg.bend]
    rw [load_store_small _ _ _ _ hL.w (by omega)]

theorem build3_beats (L : Layout) (m : Msg) (a b : Nat) (ha : a < 128) (hb : b < 128) :
    (build3 L m 0xF2 a b).beats = a + 128 * b := by
  have ht1 : (m.setStatusByte L 0xF2).type = 0xF2 := setStatus_type L m 0xF2
  have e1 : (m.setStatusByte L 0xF2).setDataByte1 L a =
      { m.setStatusByte L 0xF2 with mem := store (m.setStatusByte L 0xF2).mem 0 2 a } := by
    unfold Msg.setDataByte1
    simp only [ht1]
  have e2 : build3 L m 0xF2 a b =
      { m.setStatusByte L 0xF2 with
        mem := store (store (m.setStatusByte L 0xF2).mem 0 2 a) 0 2 (a + 128 * b) } := by
    rw [build3, e1]
    unfold Msg.setDataByte2
    simp only [ht1, Msg.beats]
    rw [load_store_small _ _ _ _ (by omega) (by omega), or_shift7 ha]
  rw [e2]
  simp only [Msg.beats]
  rw [load_store_small _ _ _ _ (by omega) (by omega)]

theorem build2_program (L : Layout) (hL : L.Ok) (m : Msg) (st a : Nat) (ha : a < 128) (ht : getMessageType st = 0xC0) :
    (build2 L m st a).channel = (st &&& 15) ∧ (build2 L m st a).note L = a := by
  have hs : isSystemMessage (getMessageType st) = false := by rw [ht]; decide
  have hoff := hL.off
  have h0 := (setStatus_chan L hL m st hs).1
  have ht1 := setStatus_type L m st
  rw [ht] at ht1
  have e1 : build2 L m st a = { m.setStatusByte L st with mem := store (m.setStatusByte L st).mem L.off 1 a } := by
    unfold build2 Msg.setDataByte1
    simp only [ht1]
  rw [e1]
  refine ⟨?_, ?_⟩
  · simp only [Msg.channel]; rw [store_out (by omega), h0]
  · simp only [Msg.note]; rw [store_one, if_pos rfl]; omega

theorem build2_pressure (L : Layout) (hL : L.Ok) (m : Msg) (st a : Nat) (ha : a < 128) (ht : getMessageType st = 0xD0) :
    (build2 L m st a).channel = (st &&& 15) ∧ (build2 L m st a).velocity L = a := by
  have hs : isSystemMessage (getMessageType st) = false := by rw [ht]; decide
  have hoff := hL.off
  have h0 := (setStatus_chan L hL m st hs).1
  have ht1 := setStatus_type L m st
  rw [ht] at ht1
  have e1 : build2 L m st a =
      { m.setStatusByte L st with mem := store (m.setStatusByte L st).mem (L.off + 1) 1 a } := by
    unfold build2 Msg.setDataByte1
    simp only [ht1]
  rw [e1]
  refine ⟨?_, ?_⟩
  · simp only [Msg.channel]; rw [store_out (by omega), h0]
  · simp only [Msg.velocity]; rw [store_one, if_pos rfl]; omega

theorem build2_data (L : Layout) (m : Msg) (st a : Nat) (ha : a < 128) (ht : st = 0xF1 ∨ st = 0xF3) :
    (build2 L m st a).dataField = a := by
  have ht1 := setStatus_type L m st
  have e1 : build2 L m st a = { m.setStatusByte L st with mem := store (m.setStatusByte L st).mem 0 1 a } := by
    unfold build2 Msg.setDataByte1
    rcases ht with h | h <;> subst h
    · rw [show getMessageType 0xF1 = 0xF1 from by decide +kernel] at ht1; simp only [ht1]
    · rw [show getMessageType 0xF3 = 0xF3 from by decide +kernel] at ht1; simp only [ht1]
  rw [e1]
  simp only [Msg.dataField]; rw [store_one, if_pos rfl]; omega

/-! ### Messages as byte strings -/

/-- The shapes of valid messages: one, two or three bytes. -/
theorem valid_shape (s : Spec.Midi.Msg) (hv : s.Valid) :
    s.status < 256 ∧ 128 ≤ s.status ∧ (∀ d ∈ s.data, d < 128) ∧
    getMessageLength s.status = s.data.length + 1 ∧ s.data.length ≤ 2 ∧
    (s.isChannel = true ↔ s.status < 0xF0) ∧ (s.isRealTime = true ↔ 0xF8 ≤ s.status) ∧
    (s.isChannel = true → 1 ≤ s.data.length) := by
  cases s <;> simp only [Spec.Midi.Msg.Valid] at hv
  case noteOff c a b => have := (ty80 c hv.1).2.2.1; simp [Spec.Midi.Msg.status, Spec.Midi.Msg.data, Spec.Midi.Msg.isChannel, Spec.Midi.Msg.isRealTime, this]; omega
  case noteOn c a b => have := (ty90 c hv.1).2.2.1; simp [Spec.Midi.Msg.status, Spec.Midi.Msg.data, Spec.Midi.Msg.isChannel, Spec.Midi.Msg.isRealTime, this]; omega
  case polyPressure c a b => have := (tyA0 c hv.1).2.2.1; simp [Spec.Midi.Msg.status, Spec.Midi.Msg.data, Spec.Midi.Msg.isChannel, Spec.Midi.Msg.isRealTime, this]; omega
  case controlChange c a b => have := (tyB0 c hv.1).2.2.1; simp [Spec.Midi.Msg.status, Spec.Midi.Msg.data, Spec.Midi.Msg.isChannel, Spec.Midi.Msg.isRealTime, this]; omega
  case programChange c a => have := (tyC0 c hv.1).2.2.1; simp [Spec.Midi.Msg.status, Spec.Midi.Msg.data, Spec.Midi.Msg.isChannel, Spec.Midi.Msg.isRealTime, this]; omega
  case channelPressure c a => have := (tyD0 c hv.1).2.2.1; simp [Spec.Midi.Msg.status, Spec.Midi.Msg.data, Spec.Midi.Msg.isChannel, Spec.Midi.Msg.isRealTime, this]; omega
  case pitchBend c v => have := (tyE0 c hv.1).2.2.1; simp [Spec.Midi.Msg.status, Spec.Midi.Msg.data, Spec.Midi.Msg.isChannel, Spec.Midi.Msg.isRealTime, this]; omega
  case timeCode d =>
    have : getMessageLength 0xF1 = 2 := by decide +kernel
    simp [Spec.Midi.Msg.status, Spec.Midi.Msg.data, Spec.Midi.Msg.isChannel, Spec.Midi.Msg.isRealTime, this]; omega
  case songPosition d =>
    have : getMessageLength 0xF2 = 3 := by decide +kernel
    simp [Spec.Midi.Msg.status, Spec.Midi.Msg.data, Spec.Midi.Msg.isChannel, Spec.Midi.Msg.isRealTime, this]; omega
  case songSelect d =>
    have : getMessageLength 0xF3 = 2 := by decide +kernel
    simp [Spec.Midi.Msg.status, Spec.Midi.Msg.data, Spec.Midi.Msg.isChannel, Spec.Midi.Msg.isRealTime, this]; omega
  case tuneRequest =>
    have : getMessageLength 0xF6 = 1 := by decide +kernel
    simp [Spec.Midi.Msg.status, Spec.Midi.Msg.data, Spec.Midi.Msg.isChannel, Spec.Midi.Msg.isRealTime, this]
  case realTime t =>
    have h1 := tbl_rt_mem hv
    have h2 := tbl_rt t h1 hv
    simp [Spec.Midi.Msg.status, Spec.Midi.Msg.data, Spec.Midi.Msg.isChannel, Spec.Midi.Msg.isRealTime, h2.1]; omega

/-- Decoding a valid three-byte message. -/
theorem observe_build3 (L : Layout) (hL : L.Ok) (m : Msg) (s : Spec.Midi.Msg) (hv : s.Valid) (a b : Nat)
    (hd : s.data = [a, b]) : observe L (build3 L m s.status a b) = some s := by
  have ht := build3_type L m s.status a b
  cases s <;> simp only [Spec.Midi.Msg.Valid] at hv <;>
    simp only [Spec.Midi.Msg.data, List.cons.injEq, and_true, reduceCtorEq, and_false] at hd <;>
    simp only [Spec.Midi.Msg.status] at ht ⊢
  case noteOff c x y =>
    obtain ⟨rfl, rfl⟩ := hd
    have t := ty80 c hv.1
    obtain ⟨h1, h2, h3⟩ := build3_note L hL m (0x80 + c) x y hv.2.1 hv.2.2 (by omega)
    rw [t.1] at ht; simp only [observe, ht, h1, h2, h3, t.2.1]
  case noteOn c x y =>
    obtain ⟨rfl, rfl⟩ := hd
    have t := ty90 c hv.1
    obtain ⟨h1, h2, h3⟩ := build3_note L hL m (0x90 + c) x y hv.2.1 hv.2.2 (by omega)
    rw [t.1] at ht; simp only [observe, ht, h1, h2, h3, t.2.1]
  case polyPressure c x y =>
    obtain ⟨rfl, rfl⟩ := hd
    have t := tyA0 c hv.1
    obtain ⟨h1, h2, h3⟩ := build3_note L hL m (0xA0 + c) x y hv.2.1 hv.2.2 (by omega)
    rw [t.1] at ht; simp only [observe, ht, h1, h2, h3, t.2.1]
  case controlChange c x y =>
    obtain ⟨rfl, rfl⟩ := hd
    have t := tyB0 c hv.1
    obtain ⟨h1, h2, h3⟩ := build3_note L hL m (0xB0 + c) x y hv.2.1 hv.2.2 (by omega)
    rw [t.1] at ht; simp only [observe, ht, h1, h2, h3, t.2.1]
  case pitchBend c v =>
    obtain ⟨rfl, rfl⟩ := hd
    have t := tyE0 c hv.1
    obtain ⟨h1, h2⟩ := build3_bend L hL m (0xE0 + c) (v % 128) (v / 128) (by omega) (by omega) t.1
    rw [t.1] at ht; simp only [observe, ht, h1, h2, t.2.1]
    congr 2; omega
  case songPosition v =>
    obtain ⟨rfl, rfl⟩ := hd
    have h2 := build3_beats L m (v % 128) (v / 128) (by omega) (by omega)
    rw [show getMessageType 0xF2 = 0xF2 from by decide +kernel] at ht
    simp only [observe, ht, h2]
    congr 2; omega

/-- Decoding a valid two-byte message. -/
theorem observe_build2 (L : Layout) (hL : L.Ok) (m : Msg) (s : Spec.Midi.Msg) (hv : s.Valid) (a : Nat)
    (hd : s.data = [a]) : observe L (build2 L m s.status a) = some s := by
  have ht := build2_type L m s.status a
  cases s <;> simp only [Spec.Midi.Msg.Valid] at hv <;>
    simp only [Spec.Midi.Msg.data, List.cons.injEq, and_true, reduceCtorEq, and_false] at hd <;>
    simp only [Spec.Midi.Msg.status] at ht ⊢
  case programChange c x =>
    subst hd
    have t := tyC0 c hv.1
    obtain ⟨h1, h2⟩ := build2_program L hL m (0xC0 + c) x hv.2 t.1
    rw [t.1] at ht; simp only [observe, ht, h1, h2, t.2.1]
  case channelPressure c x =>
    subst hd
    have t := tyD0 c hv.1
    obtain ⟨h1, h2⟩ := build2_pressure L hL m (0xD0 + c) x hv.2 t.1
    rw [t.1] at ht; simp only [observe, ht, h1, h2, t.2.1]
  case timeCode d =>
    subst hd
    have h2 := build2_data L m 0xF1 d hv (.inl rfl)
    rw [show getMessageType 0xF1 = 0xF1 from by decide +kernel] at ht
    simp only [observe, ht, h2]
  case songSelect d =>
    subst hd
    have h2 := build2_data L m 0xF3 d hv (.inr rfl)
    rw [show getMessageType 0xF3 = 0xF3 from by decide +kernel] at ht
    simp only [observe, ht, h2]

/-! ### Reader steps -/

/-- The reader after a completed message object `m` (MidiReader.h 187-205). -/
def done (m : Msg) : Reader := ⟨m, if isChannelMessage m.type then m.type ||| m.channel else 0, .statusByte, .notSet⟩

theorem dispatch_one (L : Layout) (r : Reader) (b : Nat) (hp : r.parse = .statusByte) (hb : b < 256) (h128 : 128 ≤ b)
    (hl : getMessageLength b = 1) : r.dispatch L b = (r, [.onRealtime b], true) := by
  have ht := tbl_type_status b hb h128
  unfold Reader.dispatch
  simp only [hp, if_true]
  rw [if_neg (by omega), if_pos ht]
  simp [Reader.processStatus, hl, Reader.finish, hp]

theorem dispatch_two (L : Layout) (r : Reader) (b : Nat) (hp : r.parse = .statusByte) (hb : b < 256) (h128 : 128 ≤ b)
    (hl : getMessageLength b = 2) : r.dispatch L b =
      (⟨r.msg.setStatusByte L b, r.running, .dataByte1, .dataByte1⟩, [], true) := by
  have ht := tbl_type_status b hb h128
  unfold Reader.dispatch
  simp only [hp, if_true]
  rw [if_neg (by omega), if_pos ht]
  simp [Reader.processStatus, hl, Reader.finish]

theorem dispatch_three (L : Layout) (r : Reader) (b : Nat) (hp : r.parse = .statusByte) (hb : b < 256) (h128 : 128 ≤ b)
    (hl : getMessageLength b = 3) : r.dispatch L b =
      (⟨r.msg.setStatusByte L b, r.running, .dataByte1, .dataByte2⟩, [], true) := by
  have ht := tbl_type_status b hb h128
  unfold Reader.dispatch
  simp only [hp, if_true]
  rw [if_neg (by omega), if_pos ht]
  simp [Reader.processStatus, hl, Reader.finish]

theorem dispatch_d1_end (L : Layout) (m : Msg) (run a : Nat) (ha : a < 128) :
    Reader.dispatch L ⟨m, run, .dataByte1, .dataByte1⟩ a =
      (done (m.setDataByte1 L a), [.onMessage (m.setDataByte1 L a)], true) := by
  unfold Reader.dispatch
  rw [tbl_type_data a ha]
  simp [Reader.processData, Reader.finish, Reader.resetState, done]

theorem dispatch_d1_more (L : Layout) (m : Msg) (run a : Nat) (ha : a < 128) :
    Reader.dispatch L ⟨m, run, .dataByte1, .dataByte2⟩ a =
      (⟨m.setDataByte1 L a, run, .dataByte2, .dataByte2⟩, [], true) := by
  unfold Reader.dispatch
  rw [tbl_type_data a ha]
  simp [Reader.processData, Reader.finish]

theorem dispatch_d2 (L : Layout) (m : Msg) (run a : Nat) (ha : a < 128) :
    Reader.dispatch L ⟨m, run, .dataByte2, .dataByte2⟩ a =
      (done (m.setDataByte2 L a), [.onMessage (m.setDataByte2 L a)], true) := by
  unfold Reader.dispatch
  rw [tbl_type_data a ha]
  simp [Reader.processData, Reader.finish, Reader.resetState, done]

/-- A data byte under running status continues as if the status byte had been sent again. -/
theorem dispatch_running (L : Layout) (r : Reader) (a : Nat) (hp : r.parse = .statusByte) (ha : a < 128)
    (hr : r.running < 256) (h128 : 128 ≤ r.running) (hch : r.running < 0xF0) :
    r.dispatch L a = (r.dispatch L r.running).1.dispatch L a := by
  have h0 : r.running ≠ 0 := by omega
  rcases tbl_chan_len r.running hr h128 hch with hl | hl
  · rw [dispatch_two L r _ hp hr h128 hl, dispatch_d1_end L _ _ _ ha]
    unfold Reader.dispatch
    simp only [hp, if_true, tbl_type_data a ha]
    rw [if_pos (by simp [h0])]
    simp [Reader.processStatus, hl, Reader.processData, Reader.finish, Reader.resetState, done]
  · rw [dispatch_three L r _ hp hr h128 hl, dispatch_d1_more L _ _ _ ha]
    unfold Reader.dispatch
    simp only [hp, if_true, tbl_type_data a ha]
    rw [if_pos (by simp [h0])]
    simp [Reader.processStatus, hl, Reader.processData, Reader.finish]

theorem trace_cons (L : Layout) (r : Reader) (b : Nat) (bs : List Nat) :
    r.trace L (b :: bs) = (((r.dispatch L b).1.trace L bs).1, (r.dispatch L b).2.1 :: ((r.dispatch L b).1.trace L bs).2) := rfl

theorem trace_append (L : Layout) (r : Reader) (xs ys : List Nat) :
    r.trace L (xs ++ ys) = (((r.trace L xs).1.trace L ys).1, (r.trace L xs).2 ++ ((r.trace L xs).1.trace L ys).2) := by
  induction xs generalizing r with
  | nil => simp [Reader.trace]
  | cons b bs ih => rw [List.cons_append, trace_cons, ih, trace_cons]; rfl

theorem events_append (L : Layout) (r : Reader) (xs ys : List Nat) :
    r.events L (xs ++ ys) = r.events L xs ++ (r.after L xs).events L ys := by
  unfold Reader.events Reader.after
  rw [trace_append]; simp

/-- An idle reader. -/
def Idle (r : Reader) : Prop := r.parse = .statusByte

/-- Feeding a complete valid message to an idle reader raises exactly that message and leaves it idle; the running status is
    the message's status for channel messages, cleared for system common messages with data, and unchanged otherwise. -/
theorem feed_message (L : Layout) (hL : L.Ok) (r : Reader) (hi : Idle r) (s : Spec.Midi.Msg) (hv : s.Valid) :
    Idle (r.after L s.bytes) ∧ (r.events L s.bytes).map (Ev.meaning L) = [some s] ∧
    (r.after L s.bytes).running =
      (if s.isChannel then s.status else if s.data = [] then r.running else 0) := by
  obtain ⟨h256, h128, hd, hl, hn, hch, hrt, hne⟩ := valid_shape s hv
  have hchan : ∀ m : Msg, m.type = getMessageType s.status → (s.status < 0xF0 → m.channel = (s.status &&& 15)) →
      (done m).running = if s.isChannel then s.status else 0 := by
    intro m ht hc
    unfold done
    simp only
    by_cases h : s.status < 0xF0
    · rw [hch.2 h, ht, (tbl_chan_type _ h256 h128 h).1, hc h, tbl_chan _ h256 h128 h]
    · have h' : s.isChannel = false := by
        cases hx : s.isChannel
        · rfl
        · exact absurd (hch.1 hx) h
      have t := tbl_sys_type s.status h256 (by omega)
      rw [h', ht, t.1, t.2.2]; rfl
  unfold Reader.after Reader.events Spec.Midi.Msg.bytes
  match hdata : s.data with
  | [] =>
    rw [hdata] at hl
    rw [trace_cons, dispatch_one L r _ hi h256 h128 hl]
    have hnc : s.isChannel = false := by
      cases hx : s.isChannel
      · rfl
      · have h3 := tbl_chan_len s.status h256 h128 (hch.1 hx)
        simp at hl; omega
    refine ⟨hi, ?_, ?_⟩
    · cases s <;> simp only [Spec.Midi.Msg.data, reduceCtorEq] at hdata
      case tuneRequest => simp [Reader.trace, Ev.meaning, Spec.Midi.Msg.status]
      case realTime t =>
        simp only [Spec.Midi.Msg.Valid] at hv
        have : t ≠ 0xF6 := by have := (tbl_rt t (tbl_rt_mem hv) hv).2.2.2; omega
        simp [Reader.trace, Ev.meaning, Spec.Midi.Msg.status, this, hv]
    · simp [Reader.trace, hnc]
  | [a] =>
    rw [hdata] at hl hd
    have ha : a < 128 := hd a (by simp)
    rw [trace_cons, dispatch_two L r _ hi h256 h128 hl, trace_cons]
    simp only
    rw [dispatch_d1_end L _ _ _ ha]
    have hb : (r.msg.setStatusByte L s.status).setDataByte1 L a = build2 L r.msg s.status a := rfl
    rw [hb]
    refine ⟨rfl, ?_, ?_⟩
    · simp [Reader.trace, Ev.meaning, observe_build2 L hL r.msg s hv a hdata]
    · simp only [Reader.trace]
      rw [hchan _ (build2_type L r.msg s.status a)]
      · simp
      · intro h
        have h3 : getMessageLength s.status = 2 := by simpa using hl
        rcases (show getMessageType s.status = 0xC0 ∨ getMessageType s.status = 0xD0 from by
          have : ∀ b < 256, 128 ≤ b → b < 0xF0 → getMessageLength b = 2 →
            getMessageType b = 0xC0 ∨ getMessageType b = 0xD0 := by decide +kernel
          exact this _ h256 h128 h h3) with h4 | h4
        · exact (build2_program L hL r.msg s.status a ha h4).1
        · exact (build2_pressure L hL r.msg s.status a ha h4).1
  | [a, b] =>
    rw [hdata] at hl hd
    have ha : a < 128 := hd a (by simp)
    have hb' : b < 128 := hd b (by simp)
    rw [trace_cons, dispatch_three L r _ hi h256 h128 hl, trace_cons]
    simp only
    rw [dispatch_d1_more L _ _ _ ha, trace_cons]
    simp only
    rw [dispatch_d2 L _ _ _ hb']
    have hb : ((r.msg.setStatusByte L s.status).setDataByte1 L a).setDataByte2 L b = build3 L r.msg s.status a b := rfl
    rw [hb]
    refine ⟨rfl, ?_, ?_⟩
    · simp [Reader.trace, Ev.meaning, observe_build3 L hL r.msg s hv a b hdata]
    · simp only [Reader.trace]
      rw [hchan _ (build3_type L r.msg s.status a b)]
      · simp
      · intro h
        have h3 : getMessageLength s.status = 3 := by simpa using hl
        rcases (show (getMessageType s.status = 0x80 ∨ getMessageType s.status = 0x90 ∨ getMessageType s.status = 0xA0 ∨
            getMessageType s.status = 0xB0) ∨ getMessageType s.status = 0xE0 from by
          have : ∀ b < 256, 128 ≤ b → b < 0xF0 → getMessageLength b = 3 →
            (getMessageType b == 0x80 || getMessageType b == 0x90 || getMessageType b == 0xA0 ||
              getMessageType b == 0xB0 || getMessageType b == 0xE0) = true := by decide +kernel
          have := this _ h256 h128 h h3
          simp only [Bool.or_eq_true, beq_iff_eq] at this
          omega) with h4 | h4
        · exact (build3_note L hL r.msg s.status a b ha hb' h4).1
        · exact (build3_bend L hL r.msg s.status a b ha hb' h4).1
  | _ :: _ :: _ :: _ => rw [hdata] at hn; simp at hn

/-- Under running status the data bytes alone do the same. -/
theorem feed_running (L : Layout) (hL : L.Ok) (r : Reader) (hi : Idle r) (s : Spec.Midi.Msg) (hv : s.Valid)
    (hc : s.isChannel = true) (hr : r.running = s.status) :
    Idle (r.after L s.data) ∧ (r.events L s.data).map (Ev.meaning L) = [some s] ∧
    (r.after L s.data).running = s.status := by
  obtain ⟨h256, h128, hd, hl, hn, hch, hrt, hne⟩ := valid_shape s hv
  have hF0 := hch.1 hc
  obtain ⟨h1, h2, h3⟩ := feed_message L hL r hi s hv
  rw [hc] at h3
  match hdata : s.data with
  | [] => have := hne hc; rw [hdata] at this; simp at this
  | a :: rest =>
    have ha : a < 128 := hd a (by rw [hdata]; simp)
    have hstep := dispatch_running L r a hi ha (by omega) (by omega) (by omega)
    have hev : (r.dispatch L r.running).2.1 = [] := by
      rcases tbl_chan_len r.running (by omega) (by omega) (by omega) with hl | hl
      · rw [dispatch_two L r _ hi (by omega) (by omega) hl]
      · rw [dispatch_three L r _ hi (by omega) (by omega) hl]
    simp only [Reader.after, Reader.events, Spec.Midi.Msg.bytes] at h1 h2 h3
    rw [hdata] at h1 h2 h3
    rw [trace_cons L r s.status, ← hr] at h1 h2 h3
    rw [hev] at h2
    rw [trace_cons, ← hstep] at h1 h2 h3
    unfold Reader.after Reader.events
    rw [trace_cons]
    refine ⟨h1, by simpa using h2, by simpa [hr] using h3⟩

end Atl.Midi
