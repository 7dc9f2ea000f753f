import Verif.Model.Sonar
import Verif.Spec.Sonar
import Mathlib.Tactic.SplitIfs

/- Property theorems C45-C47 and C66-C68: URM37 sonar driver and controller. -/
namespace Atl.Props
open Atl.Sonar Atl.Spec.Sonar

theorem checksum_eq (c a b : Nat) : checksum c a b = (c + a + b) % 256 := by
  simp only [checksum, toU]
  omega

/-- **C45.** The command sent is the frame of the protocol. -/
theorem c45_send (c a b : Nat) : sendCommand c a b = frame c a b := by
  simp only [sendCommand, frame, checksum_eq]

/-- **C45.** A frame is accepted with its values and exactly the frame is consumed, whatever follows. -/
theorem c45_accept (o : Out) (c a b : Nat) (rest : List Nat) :
    receiveResponse o (frame c a b ++ rest) = (.success, ⟨c, a, b⟩, rest) := by
  simp [frame, receiveResponse, checksum_eq]

/-- **C45.** Any frame with exactly one corrupted byte is reported as a checksum error. -/
theorem c45_one_byte (o : Out) (c a b : Nat) (rest g : List Nat) (hf : Bytes (frame c a b)) (hg : Bytes g)
    (h : OneByteChanged (frame c a b) g) : (receiveResponse o (g ++ rest)).1 = .checksumError := by
  obtain ⟨i, x, hi, hx, rfl⟩ := h
  simp only [Bytes, frame, List.mem_cons, List.not_mem_nil, or_false, forall_eq_or_imp, forall_eq] at hf
  simp only [frame, List.length_cons, List.length_nil] at hi
  have : i = 0 ∨ i = 1 ∨ i = 2 ∨ i = 3 := by omega
  rcases this with rfl | rfl | rfl | rfl <;>
  · simp [frame, Bytes] at hx hg
    simp only [frame, List.set_cons_zero, List.set_cons_succ, List.cons_append, List.nil_append, receiveResponse, checksum_eq]
    rw [if_neg (by omega)]

example := c45_one_byte ⟨0, 0, 0⟩ 0x22 1 44 [9] [0x22, 1, 45, 79] (by unfold Bytes; decide) (by unfold Bytes; decide) ⟨2, 45, by decide, by decide, by decide⟩

/-- **C45.** With fewer than four bytes nothing is consumed or reported. -/
theorem c45_short (o : Out) (s : List Nat) (h : s.length < 4) :
    receiveResponse o s = (if s = [] then .none else .pending, o, s) := by
  match s, h with
  | [], _ => rfl
  | [_], _ => rfl
  | [_, _], _ => rfl
  | [_, _, _], _ => rfl
  | _ :: _ :: _ :: _ :: _, h => simp at h; omega

example := c45_short ⟨0, 0, 0⟩ [0x22, 1, 44] (by decide)

/-- Reads `n` responses. -/
def readN (o : Out) (s : List Nat) : Nat → List (Result × Out) × List Nat
  | 0 => ([], s)
  | n + 1 =>
    let (r, o', rest) := receiveResponse o s
    let (l, t) := readN o' rest n
    ((r, o') :: l, t)

/-- **C45.** Any sequence of frames is received in order, one by one. -/
theorem c45_stream (o : Out) (l : List Out) (rest : List Nat) :
    readN o (l.flatMap (fun x => frame x.command x.data1 x.data2) ++ rest) l.length = (l.map (fun x => (.success, x)), rest) := by
  induction l generalizing o with
  | nil => rfl
  | cons x l ih => simp only [List.flatMap_cons, List.append_assoc, List.length_cons, readN, c45_accept, ih, List.map_cons]

example : receiveResponse ⟨0, 0, 0⟩ [0x22, 1, 44, 79, 9] = (.success, ⟨0x22, 1, 44⟩, [9]) := by decide
example : OneByteChanged (frame 0x22 1 44) [0x22, 1, 45, 79] := ⟨2, 45, by decide, by decide, by decide⟩

/-- **C66 fails.** Nothing resynchronises the stream: when the first byte of a response is lost, and the sensor then keeps sending the
    same good response, every single reading is a checksum error, for ever. -/
theorem c66_out_of_step_fails (o : Out) (n : Nat) :
    (readN o ((frame 0x22 0 100).tail ++ (List.replicate n (frame 0x22 0 100)).flatten) n).1.map Prod.fst = List.replicate n .checksumError := by
  induction n generalizing o with
  | zero => rfl
  | succ n ih =>
    have e : (frame 0x22 0 100).tail ++ (List.replicate (n + 1) (frame 0x22 0 100)).flatten =
        [0, 100, 0x86, 0x22] ++ ((frame 0x22 0 100).tail ++ (List.replicate n (frame 0x22 0 100)).flatten) := by
      simp [frame, List.replicate_succ]
    rw [e]
    have r : ∀ t, receiveResponse o ([0, 100, 0x86, 0x22] ++ t) = (.checksumError, ⟨0, 100, 0x86⟩, t) := by
      intro t; simp [receiveResponse, checksum_eq]
    simp only [readN, r, List.map_cons, ih, List.replicate_succ]

/-- **C66, partial.** A loss of a multiple of four bytes keeps the stream in step: `k` garbage groups cost at most `k` readings (each either
    rejected or, by chance of its checksum, accepted) and the response after them is received. -/
theorem c66_groups_partial (o : Out) (g : List (Nat × Nat × Nat × Nat)) (c a b : Nat) (rest : List Nat) :
    ∃ l, l.length = g.length ∧
      readN o (g.flatMap (fun x => [x.1, x.2.1, x.2.2.1, x.2.2.2]) ++ (frame c a b ++ rest)) (g.length + 1) = (l ++ [(.success, ⟨c, a, b⟩)], rest) := by
  induction g generalizing o with
  | nil => exact ⟨[], rfl, by simp only [List.flatMap_nil, List.nil_append, List.length_nil, Nat.zero_add, readN, c45_accept]⟩
  | cons x g ih =>
    obtain ⟨l, h1, h2⟩ := ih ⟨x.1, x.2.1, x.2.2.1⟩
    refine ⟨(if checksum x.1 x.2.1 x.2.2.1 = x.2.2.2 then .success else .checksumError, ⟨x.1, x.2.1, x.2.2.1⟩) :: l, by simp [h1], ?_⟩
    simp only [List.flatMap_cons, List.length_cons, List.cons_append, List.nil_append]
    rw [readN]
    simp only [receiveResponse, h2]

/-- **C46, partial.** Every distance response whose bytes are both different from FF is delivered with its 16-bit reading and consumed; any other
    well-formed response, a wrong command and a failed frame leave the distance alone. Missing: readings with one byte FF (see
    `c46_ff_fails`); the invalid marker FFFF alone should be excluded. -/
theorem c46_distance_partial (o : Out) (dist a b : Nat) (rest : List Nat) (ha : a < 256) (hb : b < 256) (h : a ≠ 0xFF ∧ b ≠ 0xFF) :
    endDistance o dist (frame 0x22 a b ++ rest) = (.success, 256 * a + b, rest) := by
  have e : 256 * a ||| b = 256 * a + b := by
    have := Nat.two_pow_add_eq_or_of_lt (i := 8) (b := b) (by omega) a
    rw [show (256 : Nat) = 2 ^ 8 from rfl]
    omega
  simp only [endDistance, c45_accept, if_true]
  rw [if_pos ⟨trivial, h.1, h.2⟩]
  rw [show toU 16 ((a : Int) * 256) = 256 * a by unfold toU; omega, e]
  rw [show toU 16 ((256 * a + b : Nat) : Int) = 256 * a + b by unfold toU; omega]

example := c46_distance_partial ⟨0, 0, 0⟩ 7 1 44 [9] (by decide) (by decide) (by decide)

/-- **C46.** The exact condition for a reading, for every stream: there is a well-formed distance response without a byte FF. -/
theorem c46_success_iff (o : Out) (dist : Nat) (s : List Nat) :
    (endDistance o dist s).1 = .success ↔ ∃ a b rest, s = frame 0x22 a b ++ rest ∧ a ≠ 0xFF ∧ b ≠ 0xFF := by
  constructor
  · intro h
    match s with
    | [] => simp [endDistance, receiveResponse] at h
    | [_] => simp [endDistance, receiveResponse] at h
    | [_, _] => simp [endDistance, receiveResponse] at h
    | [_, _, _] => simp [endDistance, receiveResponse] at h
    | c :: a :: b :: t :: rest =>
      simp only [endDistance, receiveResponse] at h
      by_cases hc : checksum c a b = t
      · simp only [hc, if_true] at h
        split_ifs at h with hh
        obtain ⟨rfl, h2, h3⟩ := hh
        exact ⟨a, b, rest, by rw [← hc, checksum_eq]; rfl, h2, h3⟩
      · simp [hc] at h
  · rintro ⟨a, b, rest, rfl, h1, h2⟩
    simp only [endDistance, c45_accept, if_true]
    rw [if_pos ⟨trivial, h1, h2⟩]

/-- **C46 fails** for readings with exactly one byte FF, among them 255 cm: the response is consumed, no distance is delivered, and the caller is
    told that nothing was received. -/
theorem c46_ff_fails (o : Out) (dist : Nat) (rest : List Nat) :
    endDistance o dist (frame 0x22 0 0xFF ++ rest) = (.none, dist, rest) ∧
    endDistance o dist (frame 0x22 1 0xFF ++ rest) = (.none, dist, rest) := by
  constructor <;> (simp only [endDistance, c45_accept, if_true]; rw [if_neg (by decide)])

/-- **C46.** A failed or wrong frame never changes the distance. -/
theorem c46_no_change (o : Out) (dist : Nat) (s : List Nat) (h : (endDistance o dist s).1 ≠ .success) : (endDistance o dist s).2.1 = dist := by
  revert h
  simp only [endDistance]
  split_ifs <;> simp_all

example : endDistance ⟨0, 0, 0⟩ 7 [0x22, 1, 44, 79] = (.success, 300, []) := by decide

/-- **C47.** The angle is mapped to the nearest not larger of the 46 steps: monotone, end points exact, always a byte. -/
theorem c47_angle (x : Nat) (h : x ≤ 270) :
    ∃ p, beginDistanceAt x = frame 0x22 p 0 ∧ p ≤ 46 ∧ p * 270 ≤ x * 46 ∧ x * 46 < (p + 1) * 270 := by
  refine ⟨x * 46 / 270, ?_, by omega, by omega, by omega⟩
  rw [beginDistanceAt, c45_send]
  congr 1
  simp only [map]
  have : ((x : Int) - 0) * (46 - 0) = ((x * 46 : Nat) : Int) := by push_cast; omega
  rw [this]
  have e2 : ((270 : Int) - 0) = ((270 : Nat) : Int) := by omega
  rw [e2, ← Int.ofNat_tdiv]
  unfold toU
  omega

theorem c47_monotone (x y p q : Nat) (hxy : x ≤ y) (hy : y ≤ 270) (hp : beginDistanceAt x = frame 0x22 p 0) (hq : beginDistanceAt y = frame 0x22 q 0) :
    p ≤ q := by
  obtain ⟨p', e1, -, h1, h2⟩ := c47_angle x (by omega)
  obtain ⟨q', e2, -, h3, h4⟩ := c47_angle y hy
  have : p = p' := by rw [hp] at e1; simp only [frame, List.cons.injEq] at e1; exact e1.2.1
  have : q = q' := by rw [hq] at e2; simp only [frame, List.cons.injEq] at e2; exact e2.2.1
  subst p q
  rcases Nat.lt_or_ge q' p' with hlt | hge
  · have := Nat.mul_le_mul_right 270 (Nat.succ_le_of_lt hlt)
    have := Nat.mul_le_mul_right 46 hxy
    clear e1 e2 hp hq
    simp only [Nat.succ_eq_add_one] at *
    exact absurd (Nat.lt_of_le_of_lt (Nat.le_trans h1 this) h4) (by omega)
  · exact hge

example := c47_monotone 90 180 15 30 (by decide) (by decide) (by decide +kernel) (by decide +kernel)

theorem c47_end_points : beginDistanceAt 0 = frame 0x22 0 0 ∧ beginDistanceAt 270 = frame 0x22 46 0 ∧
    beginDistanceAt 269 = frame 0x22 45 0 := by decide +kernel

/-- **C67.** The EEPROM write handshake: when the echo arrives, in whatever pieces, the write reports success and consumes exactly the echo.
    `arrivals` cut the echo into pieces. -/
theorem wait_short (o : Out) (s : List Nat) (pieces : List (List Nat)) (c a b : Nat) (rest : List Nat)
    (h : ∃ k, k < pieces.length ∧ s ++ (pieces.take (k + 1)).flatten = frame c a b ++ rest ∧ (s ++ (pieces.take k).flatten).length < 4) :
    waitResponse o s pieces = some (⟨c, a, b⟩, rest) := by
  obtain ⟨k, hk, h1, h2⟩ := h
  induction k generalizing o s pieces with
  | zero =>
    match pieces, hk with
    | p :: ps, _ =>
      simp only [List.take_succ_cons, List.take_zero, List.flatten_cons, List.flatten_nil, List.append_nil] at h1
      simp only [waitResponse, h1, c45_accept, if_true]
  | succ k ih =>
    match pieces, hk with
    | p :: ps, hk =>
      simp only [List.take_succ_cons, List.flatten_cons, ← List.append_assoc] at h1 h2
      have hl : (s ++ p).length < 4 := by
        simp only [List.length_append] at h2 ⊢; omega
      have hr := c45_short o (s ++ p) hl
      simp only [waitResponse, hr]
      rw [if_neg (by split_ifs <;> simp)]
      apply ih
      · simpa using hk
      · exact h1
      · exact h2

/-- **C67.** Write and echo. `k` polls bring less than a response, the next one completes it. -/
theorem c67_echo (o : Out) (a b : Nat) (pieces : List (List Nat)) (k : Nat) (rest : List Nat) (hk : k < pieces.length)
    (h1 : (pieces.take (k + 1)).flatten = frame 0x44 a b ++ rest) (h2 : (pieces.take k).flatten.length < 4) :
    writeEeprom o a b [] pieces = some (true, rest) := by
  rw [writeEeprom, wait_short o [] pieces 0x44 a b rest ⟨k, hk, by simpa using h1, by simpa using h2⟩]
  simp

example := c67_echo ⟨0, 0, 0⟩ 2 0xAA [[0x44, 2], [], [0xAA, 0xF0, 0x22], [7]] 2 [0x22] (by decide) (by decide) (by decide)

/-- **C67.** A different answer, in whatever pieces it arrives, is reported as failure, and exactly the answer is consumed. -/
theorem c67_wrong_echo (o : Out) (a b c a' b' : Nat) (hne : (c, a', b') ≠ (0x44, a, b)) (pieces : List (List Nat)) (k : Nat) (rest : List Nat)
    (hk : k < pieces.length) (h1 : (pieces.take (k + 1)).flatten = frame c a' b' ++ rest) (h2 : (pieces.take k).flatten.length < 4) :
    writeEeprom o a b [] pieces = some (false, rest) := by
  rw [writeEeprom, wait_short o [] pieces c a' b' rest ⟨k, hk, by simpa using h1, by simpa using h2⟩]
  simp only [Option.some.injEq, Prod.mk.injEq, and_true, decide_eq_false_iff_not]
  rintro ⟨rfl, rfl, rfl⟩
  exact hne rfl

/-- A wrong answer in two pieces, with a byte of the next one. -/
example : writeEeprom ⟨0, 0, 0⟩ 2 0xAA [] [[0x44, 2], [], [0xBB, 0x01, 0x22], [7]] = some (false, [0x22]) :=
  c67_wrong_echo _ _ _ 0x44 2 0xBB (by decide) _ 2 [0x22] (by decide) (by decide) (by decide)

/-- **C67.** Over a sensor that echoes every write at once, setting the trigger mode sends exactly three frames: mode, low byte, high byte of the
    threshold, and succeeds. -/
theorem c67_trigger (o : Out) (t : Nat) (ht : t < 65536) :
    setAutonomousTriggerMode o (fun a b => [frame 0x44 a b]) [] t =
      (frame 0x44 2 0xAA ++ frame 0x44 0 (t % 256) ++ frame 0x44 1 (t / 256), some true) := by
  have e1 : toU 8 (t : Int) = t % 256 := by unfold toU; omega
  have e2 : toU 8 ((t >>> 8 : Nat) : Int) = t / 256 := by rw [Nat.shiftRight_eq_div_pow]; unfold toU; omega
  have w : ∀ a b, writeEeprom o a b [] [frame 0x44 a b] = some (true, []) := fun a b =>
    c67_echo o a b [frame 0x44 a b] 0 [] (by simp) (by simp) (by simp)
  simp only [setAutonomousTriggerMode, triggerWrites, writeAll, w, e1, e2, c45_send, List.append_nil, List.append_assoc]

/-- **C67.** Whatever the sensor does, setting the trigger mode sends one, two or all three of these frames, in this order and nothing else, and reports
    success only after all three. -/
theorem c67_trigger_any (o : Out) (t : Nat) (ht : t < 65536) (answer : Nat → Nat → List (List Nat)) (s : List Nat) :
    ∃ k, 1 ≤ k ∧ k ≤ 3 ∧ (setAutonomousTriggerMode o answer s t).1 =
        ([frame 0x44 2 0xAA, frame 0x44 0 (t % 256), frame 0x44 1 (t / 256)].take k).flatten ∧
      ((setAutonomousTriggerMode o answer s t).2 = some true → k = 3) := by
  have e1 : toU 8 (t : Int) = t % 256 := by unfold toU; omega
  have e2 : toU 8 ((t >>> 8 : Nat) : Int) = t / 256 := by rw [Nat.shiftRight_eq_div_pow]; unfold toU; omega
  simp only [setAutonomousTriggerMode, triggerWrites, writeAll, e1, e2, c45_send, List.append_nil]
  rcases writeEeprom o 2 0xAA s (answer 2 0xAA) with _ | ⟨_ | _, s1⟩
  · exact ⟨1, by simp⟩
  · exact ⟨1, by simp⟩
  · simp only
    rcases writeEeprom o 0 (t % 256) s1 (answer 0 (t % 256)) with _ | ⟨_ | _, s2⟩
    · exact ⟨2, by simp⟩
    · exact ⟨2, by simp⟩
    · simp only
      rcases writeEeprom o 1 (t / 256) s2 (answer 1 (t / 256)) with _ | ⟨_ | _, s3⟩
      · exact ⟨3, by simp⟩
      · exact ⟨3, by simp⟩
      · exact ⟨3, by simp⟩

example := c67_trigger_any ⟨0, 0, 0⟩ 300 (by decide) (fun a b => [[0x44, a], [b, (0x44 + a + b) % 256]]) []

/-- **C67.** Setting the passive mode sends exactly one frame and succeeds exactly if it is echoed. -/
theorem c67_passive (o : Out) (c a b : Nat) :
    setPassiveControlMode o (fun _ _ => [frame c a b]) [] = (frame 0x44 2 0xBB, some (decide ((c, a, b) = (0x44, 2, 0xBB)))) := by
  by_cases h : (c, a, b) = (0x44, 2, 0xBB)
  · obtain ⟨rfl, rfl, rfl⟩ : c = 0x44 ∧ a = 2 ∧ b = 0xBB := by simpa using h
    have := c67_echo o 2 0xBB [frame 0x44 2 0xBB] 0 [] (by simp) (by simp) (by simp)
    simp [setPassiveControlMode, writeAll, this, c45_send]
  · simp only [setPassiveControlMode, writeAll, c67_wrong_echo o 2 0xBB c a b h [frame c a b] 0 [] (by simp) (by simp) (by simp), c45_send, h, decide_false]

/-- **C46/C68.** The requests are the frames of the manual: distance without turning the servo and temperature. -/
theorem c46_begin : beginDistance = frame 0x22 0 0 ∧ beginTemperature = frame 0x11 0 0 := ⟨c45_send _ _ _, c45_send _ _ _⟩

/-- **C67 fails** to return at all when the sensor does not answer, however long one waits; and a corrupted echo is waited out like silence. -/
theorem c67_silence_fails (o : Out) (a b n : Nat) : writeEeprom o a b [] (List.replicate n []) = none := by
  have : waitResponse o [] (List.replicate n []) = none := by
    induction n with
    | zero => rfl
    | succ n ih => simp [List.replicate_succ, waitResponse, receiveResponse, ih]
  rw [writeEeprom, this]

theorem c67_corrupted_fails (o : Out) (n : Nat) : writeEeprom o 2 0xAA [] ([0x44, 2, 0xAA, 0xF1] :: List.replicate n []) = none := by
  have : ∀ o, waitResponse o [] (List.replicate n []) = none := by
    intro o
    induction n with
    | zero => rfl
    | succ n ih => simp [List.replicate_succ, waitResponse, receiveResponse, ih]
  simp [writeEeprom, waitResponse, receiveResponse, checksum_eq, this]

/-- **C68.** The temperature as sign and 12 bit magnitude in tenths of a degree (had the method name been spelled right: as written the method
    cannot be instantiated). -/
theorem c68_temperature_partial (o : Out) (temp : Int) (sign m : Nat) (hs : sign < 16) (hm : m < 4096) (rest : List Nat) :
    endTemperature o temp (frame 0x11 (16 * sign + m / 256) (m % 256) ++ rest) = (.success, if sign = 0 then (m : Int) else -(m : Int), rest) := by
  have key : ∀ (s h : Fin 16), (16 * s.val + h.val) &&& 0x0F = h.val ∧ ((16 * s.val + h.val) &&& 0xF0 ≠ 0 ↔ s.val ≠ 0) := by decide +kernel
  obtain ⟨k1, k2⟩ := key ⟨sign, hs⟩ ⟨m / 256, by omega⟩
  simp only at k1 k2
  have e : ((m / 256) <<< 8 ||| m % 256) = m := by
    rw [Nat.shiftLeft_eq]
    have := Nat.two_pow_add_eq_or_of_lt (i := 8) (b := m % 256) (by omega) (m / 256)
    rw [Nat.mul_comm]; omega
  simp only [endTemperature, c45_accept, if_true, k1, e]
  by_cases h0 : sign = 0
  · rw [if_neg (by rw [k2]; omega), if_pos h0]
  · rw [if_pos (by rw [k2]; omega), if_neg h0]

example : endTemperature ⟨0, 0, 0⟩ 0 (frame 0x11 0xF0 105) = (.success, -105, []) := by decide

/-- **C68.** The exact condition for a temperature, for every stream: there is a well-formed temperature response, whatever its bytes. -/
theorem c68_success_iff (o : Out) (temp : Int) (s : List Nat) :
    (endTemperature o temp s).1 = .success ↔ ∃ a b rest, s = frame 0x11 a b ++ rest := by
  constructor
  · intro h
    match s with
    | [] => simp [endTemperature, receiveResponse] at h
    | [_] => simp [endTemperature, receiveResponse] at h
    | [_, _] => simp [endTemperature, receiveResponse] at h
    | [_, _, _] => simp [endTemperature, receiveResponse] at h
    | c :: a :: b :: t :: rest =>
      simp only [endTemperature, receiveResponse] at h
      by_cases hc : checksum c a b = t
      · simp only [hc, if_true] at h
        by_cases hh : c = 0x11
        · exact ⟨a, b, rest, by rw [← hc, checksum_eq, hh]; rfl⟩
        · simp [hh] at h
      · simp [hc] at h
  · rintro ⟨a, b, rest, rfl⟩
    simp only [endTemperature, c45_accept, if_true]

/-- **C68.** A failed frame or one with another command never changes the temperature. -/
theorem c68_no_change (o : Out) (temp : Int) (s : List Nat) (h : (endTemperature o temp s).1 ≠ .success) : (endTemperature o temp s).2.1 = temp := by
  revert h
  simp only [endTemperature]
  split_ifs <;> simp_all

/-- A distance response leaves the temperature alone and is consumed. -/
example : endTemperature ⟨0, 0, 0⟩ 210 (frame 0x22 1 44) = (.none, 210, []) := by decide

/-- **C68 fails** for the invalid marker: FFFF is not reported as an error, it is delivered as -409.5 degrees. -/
theorem c68_invalid_fails (o : Out) (temp : Int) (rest : List Nat) :
    endTemperature o temp (frame 0x11 0xFF 0xFF ++ rest) = (.success, -4095, rest) :=
  c68_temperature_partial o temp 15 4095 (by decide) (by decide) rest

end Atl.Props
