import Verif.Proof.SerialLine
import Verif.Props.Exact2

/- C131: characters on the serial line after `InitAsync` and `OpenAsync`. -/
namespace Atl.Props
open Atl Atl.Usart Atl.Usart.Config Atl.Spec.Usart Atl.Spec.SerialLine

/-- What the registers of USART `id` in memory mean. -/
def lineSetup (id : Nat) (m : Mem) : Option Setup :=
  setup (m (0xC0 + id * 8)) (m (0xC1 + id * 8)) (m (0xC2 + id * 8)) ((m (0xC4 + id * 8)).toNat + 256 * (m (0xC5 + id * 8)).toNat)

/-- The format the user selected. -/
def wantedFormat (c : Config) : Format := ⟨wantedBits c.dataBits, wantedParity c.parity, wantedStop c.stop⟩

/-- The same with the other parity. -/
def otherFormat (c : Config) : Format := ⟨wantedBits c.dataBits, other (wantedParity c.parity), wantedStop c.stop⟩

/-- **C131, sender and receiver in general.** For every format with two data bits or more: all characters, with all pauses, are heard as they were sent exactly if every look of
    the receiver at the line falls in its bit. -/
theorem c131_line_iff (f : Format) (hb : 2 ≤ f.bits) (hs : 1 ≤ f.stop) (T H J : Nat) (hT : 0 < T) (hH : 0 < H) : Understands f T H J ↔ Fits f T H J :=
  understands_iff f hb hs T H J hT hH

example := c131_line_iff (wantedFormat {}) (by decide) (by decide) 3328 1664 16 (by decide) (by decide)

/-- **C131, the line of an open USART.** Whatever is configured: with a baud rate set and up to eight bits, the open USART uses the selected format, but the other parity, and
    bits of divider times UBRR + 1 cycles. -/
theorem c131_setup (id : Nat) (hid : id < 2) (c : Config) (m : Mem) (h : Setting c.div c.ubrr) (h9 : c.dataBits ≠ .bits9) :
    (openAsync id c m).2 = true ∧ lineSetup id (openAsync id c m).1 = some ⟨otherFormat c, c.div * (c.ubrr + 1), c.ubrr + 1⟩ := by
  obtain ⟨o1, o2, o3, o4, o5, _⟩ := c72_open id hid c m h
  obtain ⟨f1, f2, f3, f4, f5⟩ := c56_fields_partial c h
  obtain ⟨p1, p2⟩ := c56_parity_fails c h
  refine ⟨o1, ?_⟩
  have hp : parity c.ucsrc = some (other (wantedParity c.parity)) := by
    cases hc : c.parity with
    | off => exact f5 hc
    | even => exact p1 hc
    | odd => exact p2 hc
  unfold lineSetup setup
  rw [o2, o3, o4, o5, f2, f4 h9, hp, f1]
  have hd : (if doubleSpeed c.ucsra = true then 8 else 16) = c.div := by
    rcases h.1 with e | e
    · rw [if_pos (f3.2 e), e]
    · rw [if_neg (fun hh => by have := f3.1 hh; omega), e]
  dsimp only
  rw [hd]
  rfl

example := c131_setup 0 (by decide) { div := 16, ubrr := 103 } (fun _ => 0) ⟨.inr rfl, by decide⟩ (by decide)

/-- **C131 fails** (nine bits): a reserved size is selected. -/
theorem c131_nine_fails (id : Nat) (hid : id < 2) (c : Config) (m : Mem) (h : Setting c.div c.ubrr) (h9 : c.dataBits = .bits9) :
    lineSetup id (openAsync id c m).1 = none := by
  obtain ⟨o1, o2, o3, o4, o5, _⟩ := c72_open id hid c m h
  unfold lineSetup setup
  rw [o4, o5, (c56_nine_fails c h h9).1]
  cases async c.ucsrc <;> rfl

/-- What `InitAsync` sets, if it succeeds: a bit that is not longer than requested, in every case; and less than 16 cycles shorter unless a quotient was cut. -/
theorem init_bit (F b : Nat) (hb : 0 < b) (c c' : Config) (h : initAsync F b c = .ok (c', true)) :
    Setting c'.div c'.ubrr ∧ b * (c'.div * (c'.ubrr + 1)) ≤ F ∧ (F < 524288 * b → F < b * (c'.div * (c'.ubrr + 1)) + 16 * b) ∧
    c'.dataBits = c.dataBits ∧ c'.parity = c.parity ∧ c'.stop = c.stop := by
  have hset := (c55_valid F b c c' h).1
  refine ⟨hset, ?_⟩
  have key : ∀ d, (d = 8 ∨ d = 16) → Usable F d b → c' = { c with div := d, ubrr := cutDivider F d b - 1 } →
      b * (c'.div * (c'.ubrr + 1)) ≤ F ∧ (F < 524288 * b → F < b * (c'.div * (c'.ubrr + 1)) + 16 * b) ∧
      c'.dataBits = c.dataBits ∧ c'.parity = c.parity ∧ c'.stop = c.stop := by
    rintro d hd ⟨u1, u2⟩ rfl
    refine ⟨?_, ?_, rfl, rfl, rfl⟩
    · show b * (d * (cutDivider F d b - 1 + 1)) ≤ F
      rw [show cutDivider F d b - 1 + 1 = cutDivider F d b by omega]
      have h1 : cutDivider F d b ≤ F / (d * b) := Nat.mod_le _ _
      have h2 := Nat.mul_le_mul_left (d * b) h1
      have h3 := Nat.mul_div_le F (d * b)
      have e : b * (d * cutDivider F d b) = d * b * cutDivider F d b := by ring
      omega
    · intro hF
      show F < b * (d * (cutDivider F d b - 1 + 1)) + 16 * b
      rw [show cutDivider F d b - 1 + 1 = cutDivider F d b by omega]
      have hdb : 0 < d * b := Nat.mul_pos (by omega) hb
      have h0 : F / (d * b) < 65536 := by
        rw [Nat.div_lt_iff_lt_mul hdb]
        rcases hd with rfl | rfl <;> omega
      have h1 : cutDivider F d b = F / (d * b) := Nat.mod_eq_of_lt h0
      have h2 := Nat.lt_mul_div_succ F hdb
      have e : d * b * (F / (d * b) + 1) = b * (d * cutDivider F d b) + d * b := by rw [h1]; ring
      have h3 : d * b ≤ 16 * b := Nat.mul_le_mul_right b (by omega)
      omega
  rw [c55_init_exact F b c hb] at h
  split at h
  · rename_i hu
    split at h
    · cases h
    · split at h
      · injection h with h; injection h with h _
        exact key 8 (Or.inl rfl) hu.1 h.symm
      · injection h with h; injection h with h _
        exact key 16 (Or.inr rfl) hu.2 h.symm
  · split at h
    · rename_i hu
      injection h with h; injection h with h _
      exact key 16 (Or.inr rfl) hu h.symm
    · split at h
      · rename_i hu
        injection h with h; injection h with h _
        exact key 8 (Or.inl rfl) hu h.symm
      · injection h with h; injection h with _ h
        cases h

theorem wanted_stop (c : Config) : wantedStop c.stop = 1 ∨ wantedStop c.stop = 2 := by cases c.stop <;> simp [wantedStop]

theorem wanted_bits (c : Config) : 5 ≤ wantedBits c.dataBits := by cases c.dataBits <;> simp [wantedBits]

theorem wanted_bits8 (c : Config) (h : c.dataBits ≠ .bits9) : wantedBits c.dataBits ≤ 8 := by cases hc : c.dataBits <;> simp [wantedBits]; exact h hc

/-- **C131, sending, exactly.** Every clock, every rate but 0, all configurations without parity and with up to eight bits for which `InitAsync` succeeds: a terminal with the
    requested rate and format, which notices a start bit up to `J` late, receives all that the USART sends exactly if the clock times (2M - 1), plus `J`, is less than the rate
    times the cycles of 2M bits, where M counts the bits up to the stop bit (one stop bit) or up to the one before it (two). (Unit of time: 1 / (2 * rate) cycle; there a bit of the
    terminal is 2 * clock long.) -/
theorem c131_send_iff (F b : Nat) (hb : 0 < b) (c c' : Config) (hi : initAsync F b c = .ok (c', true)) (h9 : c.dataBits ≠ .bits9) (hp : c.parity = .off)
    (id : Nat) (hid : id < 2) (m : Mem) (J : Nat) :
    ∃ su, lineSetup id (openAsync id c' m).1 = some su ∧ su.format = wantedFormat c ∧
      (Understands (wantedFormat c) (2 * (b * su.bit)) F J ↔ (2 * last (wantedFormat c) - 1) * F + J < 2 * last (wantedFormat c) * (b * su.bit)) := by
  obtain ⟨hset, hle, _, e1, e2, e3⟩ := init_bit F b hb c c' hi
  have hs := c131_setup id hid c' m hset (by rw [e1]; exact h9)
  have hof : otherFormat c' = wantedFormat c := by unfold otherFormat wantedFormat; rw [e1, e2, e3, hp]; rfl
  refine ⟨_, hs.2, hof, ?_⟩
  have hD : 0 < b * (c'.div * (c'.ubrr + 1)) := Nat.mul_pos hb (Nat.mul_pos (by have := hset.1; omega) (by omega))
  have hst := wanted_stop c
  have hbt := wanted_bits c
  rw [c131_line_iff (wantedFormat c) (by show 2 ≤ wantedBits _; omega) (by show 1 ≤ wantedStop _; omega) _ F J (Nat.mul_pos (by omega) hD) (by omega)]
  exact fits_fast_iff (wantedFormat c) hst (by show 1 ≤ wantedBits _; omega) _ F J hle

example := c131_send_iff 16000000 57600 (by decide) {} { div := 16, ubrr := 16 } (by decide +kernel) (by decide) rfl 0 (by decide) (fun _ => 0) 2000000

/-- **C131, sending, partial.** Every clock between 366 and 524288 times the rate, no parity, up to eight bits: if `InitAsync` succeeds a terminal with the requested rate and
    format, which notices a start bit up to a sixteenth of a bit late, receives all that is sent, as it is sent. Missing: parity, nine bits and faster rates (see below). -/
theorem c131_send_partial (F b : Nat) (hb : 0 < b) (c c' : Config) (hi : initAsync F b c = .ok (c', true)) (h9 : c.dataBits ≠ .bits9) (hp : c.parity = .off)
    (h1 : 366 * b ≤ F) (h2 : F < 524288 * b) (id : Nat) (hid : id < 2) (m : Mem) (J : Nat) (hJ : 8 * J ≤ F) :
    ∃ su, lineSetup id (openAsync id c' m).1 = some su ∧ su.format = wantedFormat c ∧ Understands (wantedFormat c) (2 * (b * su.bit)) F J := by
  obtain ⟨su, s1, s2, s3⟩ := c131_send_iff F b hb c c' hi h9 hp id hid m J
  refine ⟨su, s1, s2, s3.2 ?_⟩
  obtain ⟨hset, hle, hlt, e1, e2, e3⟩ := init_bit F b hb c c' hi
  have hs := (c131_setup id hid c' m hset (by rw [e1]; exact h9)).2
  rw [hs] at s1
  injection s1 with s1
  subst s1
  have hlt := hlt h2
  dsimp only
  generalize b * (c'.div * (c'.ubrr + 1)) = x at *
  have hb5 := wanted_bits c
  have hb8 := wanted_bits8 c h9
  have hl : 1 ≤ last (wantedFormat c) ∧ last (wantedFormat c) ≤ 10 := by
    unfold last size wantedFormat
    rw [hp]
    simp only [wantedParity, if_true]
    split <;> omega
  generalize last (wantedFormat c) = M at *
  obtain ⟨y, rfl⟩ : ∃ y, F = x + y := ⟨F - x, by omega⟩
  have g1 : (2 * M - 1) * (x + y) = 2 * M * (x + y) - (x + y) := by rw [Nat.sub_mul, Nat.one_mul]
  have g2 : 2 * M * (x + y) = 2 * M * x + 2 * M * y := by ring
  have g3 : 2 * M * y ≤ 20 * y := Nat.mul_le_mul_right y (by omega)
  have g4 : 2 * (x + y) ≤ 2 * M * (x + y) := Nat.mul_le_mul_right _ (by omega)
  omega

example := c131_send_partial 16000000 9600 (by decide) {} { div := 16, ubrr := 103 } (by decide +kernel) (by decide) rfl (by decide) (by decide) 0 (by decide) (fun _ => 0) 2000000 (by decide)

/-- **C131, receiving, exactly.** The same for the other direction: the USART, which looks at the resting line every sample, receives all that such a terminal sends exactly if the
    clock times 2N - 2 is at most the rate times the cycles of 2N - 1 bits, N counting the bits up to the first stop bit. -/
theorem c131_receive_iff (F b : Nat) (hb : 0 < b) (c c' : Config) (hi : initAsync F b c = .ok (c', true)) (h9 : c.dataBits ≠ .bits9) (hp : c.parity = .off)
    (id : Nat) (hid : id < 2) (m : Mem) :
    ∃ su, lineSetup id (openAsync id c' m).1 = some su ∧ su.format = wantedFormat c ∧ ∀ J, J ≤ 2 * (b * su.sample) →
      (Understands (wantedFormat c) (2 * F) (b * su.bit) J ↔ (2 * size (wantedFormat c) - 2) * F ≤ (2 * size (wantedFormat c) - 1) * (b * su.bit)) := by
  obtain ⟨hset, hle, _, e1, e2, e3⟩ := init_bit F b hb c c' hi
  have hs := c131_setup id hid c' m hset (by rw [e1]; exact h9)
  have hof : otherFormat c' = wantedFormat c := by unfold otherFormat wantedFormat; rw [e1, e2, e3, hp]; rfl
  refine ⟨_, hs.2, hof, fun J hJ => ?_⟩
  dsimp only at hJ ⊢
  have hu : 0 < b * (c'.ubrr + 1) := Nat.mul_pos hb (by omega)
  have hD : 8 * (b * (c'.ubrr + 1)) ≤ b * (c'.div * (c'.ubrr + 1)) := by
    have := Nat.mul_le_mul_right (b * (c'.ubrr + 1)) (show 8 ≤ c'.div by have := hset.1; omega)
    calc _ ≤ _ := this
      _ = _ := by ring
  have hst := wanted_stop c
  have hbt := wanted_bits c
  rw [c131_line_iff (wantedFormat c) (by show 2 ≤ wantedBits _; omega) (by show 1 ≤ wantedStop _; omega) _ _ J (by omega) (by omega)]
  exact fits_slow_iff (wantedFormat c) (by show 1 ≤ wantedStop _; omega) _ F J hle (by omega)

example := c131_receive_iff 16000000 57600 (by decide) {} { div := 16, ubrr := 16 } (by decide +kernel) (by decide) rfl 0 (by decide) (fun _ => 0)

/-- **C131, receiving, partial.** Every clock between 304 and 524288 times the rate, no parity, up to eight bits. Missing: parity, nine bits and faster rates. -/
theorem c131_receive_partial (F b : Nat) (hb : 0 < b) (c c' : Config) (hi : initAsync F b c = .ok (c', true)) (h9 : c.dataBits ≠ .bits9) (hp : c.parity = .off)
    (h1 : 304 * b ≤ F) (h2 : F < 524288 * b) (id : Nat) (hid : id < 2) (m : Mem) :
    ∃ su, lineSetup id (openAsync id c' m).1 = some su ∧ su.format = wantedFormat c ∧ ∀ J, J ≤ 2 * (b * su.sample) →
      Understands (wantedFormat c) (2 * F) (b * su.bit) J := by
  obtain ⟨su, s1, s2, s3⟩ := c131_receive_iff F b hb c c' hi h9 hp id hid m
  refine ⟨su, s1, s2, fun J hJ => (s3 J hJ).2 ?_⟩
  obtain ⟨hset, hle, hlt, e1, e2, e3⟩ := init_bit F b hb c c' hi
  have hs := (c131_setup id hid c' m hset (by rw [e1]; exact h9)).2
  rw [hs] at s1
  injection s1 with s1
  subst s1
  have hlt := hlt h2
  clear s3 hJ
  dsimp only
  generalize b * (c'.div * (c'.ubrr + 1)) = x at *
  have hb5 := wanted_bits c
  have hb8 := wanted_bits8 c h9
  have hl : 1 ≤ size (wantedFormat c) ∧ size (wantedFormat c) ≤ 10 := by
    unfold size wantedFormat
    rw [hp]
    simp only [wantedParity, if_true]
    omega
  generalize size (wantedFormat c) = M at *
  obtain ⟨y, rfl⟩ : ∃ y, F = x + y := ⟨F - x, by omega⟩
  have g1 : (2 * M - 1) * x = (2 * M - 2) * x + x := by rw [← Nat.succ_mul]; congr 1; omega
  have g2 : (2 * M - 2) * (x + y) = (2 * M - 2) * x + (2 * M - 2) * y := by ring
  have g3 : (2 * M - 2) * y ≤ 18 * y := Nat.mul_le_mul_right y (by omega)
  omega

example := c131_receive_partial 16000000 9600 (by decide) {} { div := 16, ubrr := 103 } (by decide +kernel) (by decide) rfl (by decide) (by decide) 0 (by decide) (fun _ => 0)

/-- **C131, majority.** The receiver of the USART takes the majority of three looks, one sample apart, in the middle of a bit. Whatever is sent by whomever: as long as a bit is
    two samples long or more this makes no difference to a single look, at no moment. So the theorems hold for it as well. -/
theorem c131_majority (f : Format) (hs : 1 ≤ f.stop) (T : Nat) (hT : 0 < T) (s : List (Nat × Nat)) (w : Nat) (hw : 2 * w ≤ T) (H J : Nat) (rs : List (Option Nat)) :
    (fun t => majority (sent f T s (t - w)) (sent f T s t) (sent f T s (t + w))) = sent f T s ∧
    (Hears f H J (fun t => majority (sent f T s (t - w)) (sent f T s t) (sent f T s (t + w))) rs ↔ Hears f H J (sent f T s) rs) := by
  rw [majority_sent f hs T hT s w hw]
  exact ⟨rfl, Iff.rfl⟩

example := c131_majority (wantedFormat {}) (by decide) 3328 (by decide) [(0, 72), (40000, 105)] 208 (by decide) 1664 16 [some 72]

/-- … and bits are that long for a terminal with the requested rate. -/
theorem c131_samples (F b : Nat) (hb : 0 < b) (c c' : Config) (hi : initAsync F b c = .ok (c', true)) : 2 * (2 * (b * (c'.ubrr + 1))) ≤ 2 * F := by
  obtain ⟨hset, hle, _⟩ := init_bit F b hb c c' hi
  have hD : 8 * (b * (c'.ubrr + 1)) ≤ b * (c'.div * (c'.ubrr + 1)) := by
    have := Nat.mul_le_mul_right (b * (c'.ubrr + 1)) (show 8 ≤ c'.div by have := hset.1; omega)
    calc _ ≤ _ := this
      _ = _ := by ring
  omega

example := c131_samples 16000000 9600 (by decide) {} { div := 16, ubrr := 103 } (by decide +kernel)

/-- **C131, two of them.** Two boards with the same clock and the same configuration, whatever rate, parity and up to eight bits: once open they understand each other (unit of
    time: half a cycle), also where no terminal does. -/
theorem c131_pair (c : Config) (h : Setting c.div c.ubrr) (h9 : c.dataBits ≠ .bits9) (id id' : Nat) (hid : id < 2) (hid' : id' < 2) (m m' : Mem) :
    ∃ su, lineSetup id (openAsync id c m).1 = some su ∧ lineSetup id' (openAsync id' c m').1 = some su ∧ ∀ J, J ≤ 2 * su.sample →
      Understands su.format (2 * su.bit) su.bit J := by
  refine ⟨_, (c131_setup id hid c m h h9).2, (c131_setup id' hid' c m' h h9).2, fun J hJ => ?_⟩
  dsimp only at hJ ⊢
  have hD : 8 * (c.ubrr + 1) ≤ c.div * (c.ubrr + 1) := Nat.mul_le_mul_right _ (by have := h.1; omega)
  generalize c.div * (c.ubrr + 1) = x at *
  have hst := wanted_stop c
  have hbt := wanted_bits c
  refine (c131_line_iff (otherFormat c) (by show 2 ≤ wantedBits _; omega) (by show 1 ≤ wantedStop _; omega) _ _ J (by omega) (by omega)).2 ?_
  exact (fits_slow_iff (otherFormat c) (by show 1 ≤ wantedStop _; omega) x x J (Nat.le_refl x) (by omega)).2 (Nat.mul_le_mul_right x (by omega))

example := c131_pair { div := 16, ubrr := 103 } ⟨.inr rfl, by decide⟩ (by decide) 0 1 (by decide) (by decide) (fun _ => 0) (fun _ => 0)

/-- **C131 fails** (parity): whatever the rate, if parity is selected and the time fits, a terminal with the requested format takes every single character for an error. -/
theorem c131_parity_fails (F b : Nat) (hb : 0 < b) (c c' : Config) (hi : initAsync F b c = .ok (c', true)) (h9 : c.dataBits ≠ .bits9) (hp : c.parity ≠ .off)
    (id : Nat) (hid : id < 2) (m : Mem) (J : Nat) :
    ∃ su, lineSetup id (openAsync id c' m).1 = some su ∧
      ((2 * last (wantedFormat c) - 1) * F + J < 2 * last (wantedFormat c) * (b * su.bit) →
        ∀ s rs, Hears (wantedFormat c) F J (sent su.format (2 * (b * su.bit)) s) rs → rs = s.map fun _ => none) := by
  obtain ⟨hset, hle, _, e1, e2, e3⟩ := init_bit F b hb c c' hi
  have hs := c131_setup id hid c' m hset (by rw [e1]; exact h9)
  have hof : otherFormat c' = otherFormat c := by unfold otherFormat; rw [e1, e2, e3]
  refine ⟨_, hs.2, fun ht s rs hr => ?_⟩
  dsimp only at ht hr
  rw [hof] at hr
  have hd : wantedParity c.parity ≠ .disabled := by
    cases hc : c.parity with
    | off => exact absurd hc hp
    | even => simp [wantedParity]
    | odd => simp [wantedParity]
  have hod : other (wantedParity c.parity) ≠ .disabled := by
    cases hc : c.parity with
    | off => exact absurd hc hp
    | even => simp [wantedParity, other]
    | odd => simp [wantedParity, other]
  have hsz : size (wantedFormat c) = size (otherFormat c) := by
    unfold size wantedFormat otherFormat
    simp only [if_neg hd, if_neg hod]
  have hla : last (otherFormat c) = last (wantedFormat c) := by
    unfold last
    rw [hsz]
    rfl
  have hfit : Fits (otherFormat c) (2 * (b * (c'.div * (c'.ubrr + 1)))) F J :=
    (fits_fast_iff (otherFormat c) (wanted_stop c) (by have := wanted_bits c; show 1 ≤ wantedBits _; omega) _ F J hle).2 (by rw [hla]; exact ht)
  rw [hears_as hfit hsz s.length s rfl rs hr]
  exact List.map_congr_left fun x _ => hear_other (wantedFormat c) (otherFormat c) x.2 rfl rfl hd

/-- **C131 fails** (low rates): where the clock is 524288 times the rate or more and `InitAsync` says it succeeded all the same, no terminal understands the USART. -/
theorem c131_slow_fails (F b : Nat) (hb : 0 < b) (c c' : Config) (hi : initAsync F b c = .ok (c', true)) (h9 : c.dataBits ≠ .bits9) (hp : c.parity = .off)
    (hF : 524288 * b ≤ F) (id : Nat) (hid : id < 2) (m : Mem) (J : Nat) :
    ∃ su, lineSetup id (openAsync id c' m).1 = some su ∧ ¬ Understands (wantedFormat c) (2 * (b * su.bit)) F J := by
  obtain ⟨su, s1, s2, s3⟩ := c131_send_iff F b hb c c' hi h9 hp id hid m J
  refine ⟨su, s1, fun h => ?_⟩
  have h := s3.1 h
  obtain ⟨hset, hle, hlt, e1, e2, e3⟩ := init_bit F b hb c c' hi
  have hs := (c131_setup id hid c' m hset (by rw [e1]; exact h9)).2
  rw [hs] at s1
  injection s1 with s1
  subst s1
  dsimp only at h
  have hD : c'.div * (c'.ubrr + 1) ≤ 65536 := by
    obtain ⟨hd, hu⟩ := hset
    have := Nat.mul_le_mul (show c'.div ≤ 16 by omega) (show c'.ubrr + 1 ≤ 4096 by omega)
    omega
  have hx : b * (c'.div * (c'.ubrr + 1)) ≤ b * 65536 := Nat.mul_le_mul_left b hD
  generalize b * (c'.div * (c'.ubrr + 1)) = x at *
  have hl : 1 ≤ last (wantedFormat c) := by
    unfold last size
    split <;> omega
  generalize last (wantedFormat c) = M at *
  have h8 : 2 * x ≤ F := by omega
  have g1 := Nat.mul_le_mul_left (2 * M - 1) h8
  have g2 : (2 * M - 1) * (2 * x) = (2 * (2 * M - 1)) * x := by ring
  have g3 : 2 * M * x ≤ (2 * (2 * M - 1)) * x := Nat.mul_le_mul_right x (by omega)
  omega

/-- **C131 fails** (high rates): 57600 baud at 4 MHz succeeds with bits of 64 cycles (62500 baud), which no terminal understands; bits of 72 cycles (55555 baud) it would. -/
theorem c131_fast_fails (id : Nat) (hid : id < 2) (m : Mem) (J : Nat) :
    ∃ c', initAsync 4000000 57600 {} = .ok (c', true) ∧ lineSetup id (openAsync id c' m).1 = some ⟨⟨8, .disabled, 1⟩, 64, 4⟩ ∧
      ¬ Understands ⟨8, .disabled, 1⟩ (2 * (57600 * 64)) 4000000 J ∧ (J ≤ 80000 → Understands ⟨8, .disabled, 1⟩ (2 * (57600 * 72)) 4000000 J) := by
  have hi : initAsync 4000000 57600 {} = .ok (({ div := 16, ubrr := 3 } : Config), true) := by decide +kernel
  refine ⟨_, hi, (c131_setup id hid _ m ⟨Or.inr rfl, by decide⟩ (by decide)).2, fun h => ?_, fun hJ => ?_⟩
  · have := ((c131_line_iff ⟨8, .disabled, 1⟩ (by decide) (by decide) _ _ J (by decide) (by decide)).1 h).stop.2
    simp [size] at this
    omega
  · refine (c131_line_iff ⟨8, .disabled, 1⟩ (by decide) (by decide) _ _ J (by decide) (by decide)).2 ⟨fun k hk => ?_, ?_⟩
    · simp [size] at hk
      omega
    · simp [size]
      omega

/-- The usual case: 9600 baud at 16 MHz; and the fastest rate with such a clock is fine too. -/
example : initAsync 16000000 9600 {} = .ok (({ div := 16, ubrr := 103 } : Config), true) ∧ 366 * 9600 ≤ 16000000 ∧
    initAsync 16000000 57600 {} = .ok (({ div := 16, ubrr := 16 } : Config), true) ∧
    (2 * last (wantedFormat {}) - 1) * 16000000 + 2000000 < 2 * last (wantedFormat {}) * (57600 * 272) := by decide +kernel

/-- The rate of MIDI is met exactly with clocks of 8, 16 and 20 MHz. -/
example : initAsync 16000000 31250 {} = .ok (({ div := 16, ubrr := 31 } : Config), true) ∧ 31250 * (16 * 32) = 16000000 ∧
    initAsync 8000000 31250 {} = .ok (({ div := 16, ubrr := 15 } : Config), true) ∧ initAsync 20000000 31250 {} = .ok (({ div := 16, ubrr := 39 } : Config), true) := by
  decide +kernel

/-- Parity selected, and the time fits. -/
example : initAsync 16000000 9600 { parity := .even } = .ok (({ div := 16, ubrr := 103, parity := .even } : Config), true) ∧
    (2 * last (wantedFormat { parity := .even }) - 1) * 16000000 + 2000000 < 2 * last (wantedFormat { parity := .even }) * (9600 * 1664) := by decide +kernel

/-- 30 baud at 16 MHz "succeeds". -/
example : initAsync 16000000 30 {} = .ok (({ div := 8, ubrr := 1129 } : Config), true) ∧ 524288 * 30 ≤ 16000000 := by decide +kernel

end Atl.Props
