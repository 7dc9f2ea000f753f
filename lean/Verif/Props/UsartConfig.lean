import Verif.Model.Usart
import Verif.Spec.Usart
import Verif.Proof.Array
import Verif.Proof.Bits

/- Property theorems C55, C56, C61, C72: USART configuration and power reduction. -/
namespace Atl.Props
open Atl.Usart Atl.Usart.Config Atl.Spec.Usart

/-! ### C55 baud rate -/

theorem toS16_id (x : Int) (h : -32768 ≤ x ∧ x ≤ 32767) : toS 16 x = x := by
  unfold toS; simp only [Nat.reducePow, Nat.reduceSub]; omega

theorem toS16_sub (b r : Int) : toS 16 (b - toS 16 r) = toS 16 (b - r) := by
  unfold toS; simp only [Nat.reducePow, Nat.reduceSub]; omega

theorem calcUBRR_ok (F d b : Nat) (hd : 0 < d) (hb : 0 < b) (hk : F / (d * b) ≤ 32768) : calcUBRR F d b = .ok ((F / (d * b) : Nat) - 1) := by
  unfold calcUBRR
  rw [if_neg (Nat.ne_of_gt (Nat.mul_pos hd hb))]
  generalize F / (d * b) = k at *
  rw [toS16_id _ (by omega)]

theorem isValid_iff (k : Nat) : isValid ((k : Int) - 1) = decide (1 ≤ k ∧ k ≤ 4096) := by
  unfold isValid
  rw [← Bool.decide_and]
  exact decide_eq_decide.2 (by omega)

/-- The deviation the code computes for a valid divider. -/
theorem delta_ok (F d b k : Nat) (hd : 0 < d) (hb : 0 < b) (hb2 : b ≤ 32768) (hk : k = F / (d * b)) (h1 : 1 ≤ k) (h2 : k ≤ 4096) :
    (do let r ← calcBaud F d ((k : Int) - 1); abs16 (toS 16 (b - r))) = .ok ((rate F d (k - 1) - b : Nat) : Int) ∧ b ≤ rate F d (k - 1) := by
  have hk1 : k - 1 + 1 = k := by omega
  have hdb : 0 < d * b := Nat.mul_pos hd hb
  have hdk : 0 < d * k := Nat.mul_pos hd (by omega)
  have hr : rate F d (k - 1) = F / (d * k) := by unfold rate; rw [hk1]
  have hle : b ≤ F / (d * k) := by
    rw [Nat.le_div_iff_mul_le hdk]
    have : k * (d * b) ≤ F := by rw [hk]; exact Nat.div_mul_le_self _ _
    have e : b * (d * k) = k * (d * b) := by rw [Nat.mul_left_comm, Nat.mul_left_comm k, Nat.mul_comm b]
    omega
  have hlt : F / (d * k) < 2 * b := by
    rw [Nat.div_lt_iff_lt_mul hdk]
    have h3 : F < (k + 1) * (d * b) := by
      have := Nat.lt_mul_div_succ F hdb
      rw [← hk, Nat.mul_comm] at this
      exact this
    have h4 : (k + 1) * (d * b) ≤ 2 * k * (d * b) := Nat.mul_le_mul_right _ (by omega)
    have h5 : 2 * k * (d * b) = 2 * b * (d * k) := by
      rw [Nat.mul_assoc, Nat.mul_assoc]; congr 1
      rw [Nat.mul_left_comm, Nat.mul_left_comm b, Nat.mul_comm b k]
    omega
  have hu : toU 16 ((k : Int) - 1 + 1) = k := by unfold toU; simp only [Nat.reducePow]; omega
  refine ⟨?_, by rw [hr]; exact hle⟩
  have hc : calcBaud F d ((k : Int) - 1) = .ok (toS 16 ((F / (d * k) : Nat))) := by
    unfold calcBaud
    simp only [hu]
    rw [if_neg (Nat.ne_of_gt hdk)]
  rw [hc, hr]
  simp only [Res.bind_ok, toS16_sub]
  rw [toS16_id _ (by omega)]
  unfold abs16
  by_cases h0 : F / (d * k) = b
  · rw [if_pos (by omega)]; congr 1; omega
  · rw [if_neg (by omega), if_neg (by omega)]; congr 1; omega

theorem rate_mono (F d u u' : Nat) (hd : 0 < d) (h : u' ≤ u) : rate F d u ≤ rate F d u' :=
  Nat.div_le_div_left (Nat.mul_le_mul_left _ (by omega)) (Nat.mul_pos hd (by omega))

theorem fast_iff (F d b u : Nat) (hd : 0 < d) (hb : 0 < b) : b ≤ rate F d u ↔ u + 1 ≤ F / (d * b) := by
  unfold rate
  rw [Nat.le_div_iff_mul_le (Nat.mul_pos hd (by omega)), Nat.le_div_iff_mul_le (Nat.mul_pos hd hb)]
  have : b * (d * (u + 1)) = (u + 1) * (d * b) := by
    rw [Nat.mul_left_comm, Nat.mul_left_comm (u + 1), Nat.mul_comm b]
  rw [this]

/-- **C55, partial.** For rates up to 32768 baud, whenever no quotient exceeds 16 bits: InitAsync succeeds exactly when the clock is between 8 and 65552
    times the rate, and then sets the divider in 0..4095 that comes nearest among those that are not slower than requested, in both speed modes.
    Missing: nearest on both sides, small and large rates (counterexamples follow). -/
theorem c55_init_partial (F b : Nat) (c : Config) (hb : 0 < b) (hb2 : b ≤ 32768) (hF : F / (8 * b) ≤ 32768) :
    ∃ c' r, initAsync F b c = .ok (c', r) ∧ (r = true ↔ 8 * b ≤ F ∧ F < 65552 * b) ∧
      (r = true → NearestAbove F b c'.div c'.ubrr) ∧ (r = false → c'.div = 0 ∧ c'.ubrr = 0) ∧
      c'.dataBits = c.dataBits ∧ c'.parity = c.parity ∧ c'.stop = c.stop := by
  have hk16 : F / (16 * b) = F / (8 * b) / 2 := by
    rw [Nat.div_div_eq_div_mul]; congr 1; omega
  have e8 := calcUBRR_ok F 8 b (by omega) hb hF
  have e16 := calcUBRR_ok F 16 b (by omega) hb (by omega)
  have hdec : (8 * b ≤ F ∧ F < 65552 * b) ↔ 1 ≤ F / (8 * b) ∧ F / (16 * b) ≤ 4096 := by
    have a1 : 1 ≤ F / (8 * b) ↔ 8 * b ≤ F := by rw [Nat.le_div_iff_mul_le (by omega)]; omega
    have a2 : F / (16 * b) < 4097 ↔ F < 4097 * (16 * b) := Nat.div_lt_iff_lt_mul (by omega)
    have a3 : 4097 * (16 * b) = 65552 * b := by omega
    rw [a3] at a2
    omega
  have f8 := fun u => fast_iff F 8 b u (by omega) hb
  have f16 := fun u => fast_iff F 16 b u (by omega) hb
  have d8 := delta_ok F 8 b _ (by omega) hb hb2 rfl
  have d16 := delta_ok F 16 b _ (by omega) hb hb2 rfl
  unfold initAsync
  rw [e8, e16]
  simp only [Res.bind_ok, isValid_iff]
  generalize hk : F / (8 * b) = k at *
  generalize hl : F / (16 * b) = l at *
  have tn : ∀ n : Nat, ((n : Int) - 1).toNat = n - 1 := fun n => by omega
  by_cases v8 : 1 ≤ k ∧ k ≤ 4096
  · by_cases v16 : 1 ≤ l ∧ l ≤ 4096
    · obtain ⟨x8, y8⟩ := d8 v8.1 v8.2
      obtain ⟨x16, y16⟩ := d16 v16.1 v16.2
      simp only [v8, v16, and_self, decide_true, Bool.not_true, Bool.or_self, Bool.false_eq_true, if_false]
      cases hb8 : calcBaud F 8 ((k : Int) - 1) with
      | ub => rw [hb8] at x8; cases x8
      | ok r8 =>
        cases hb16 : calcBaud F 16 ((l : Int) - 1) with
        | ub => rw [hb16] at x16; cases x16
        | ok r16 =>
          rw [hb8] at x8
          rw [hb16] at x16
          simp only [Res.bind_ok] at x8 x16 ⊢
          rw [x8, x16]
          simp only [Res.bind_ok]
          by_cases hgt : ((rate F 16 (l - 1) - b : Nat) : Int) > ((rate F 8 (k - 1) - b : Nat) : Int)
          · rw [if_pos hgt]
            refine ⟨_, _, rfl, ?_, ?_, by simp, rfl, rfl, rfl⟩
            · rw [hdec]; simp only [true_iff]; omega
            · intro _
              rw [tn]
              refine ⟨⟨Or.inl rfl, by simp only; omega⟩, y8, ?_⟩
              rintro d' u' ⟨rfl | rfl, hu⟩ hfast
              · exact rate_mono F 8 _ u' (by omega) (by have := (f8 u').1 hfast; simp only; omega)
              · have := rate_mono F 16 (l - 1) u' (by omega) (by have := (f16 u').1 hfast; omega)
                simp only
                omega
          · rw [if_neg hgt]
            refine ⟨_, _, rfl, ?_, ?_, by simp, rfl, rfl, rfl⟩
            · rw [hdec]; simp only [true_iff]; omega
            · intro _
              rw [tn]
              refine ⟨⟨Or.inr rfl, by simp only; omega⟩, y16, ?_⟩
              rintro d' u' ⟨rfl | rfl, hu⟩ hfast
              · have := rate_mono F 8 (k - 1) u' (by omega) (by have := (f8 u').1 hfast; omega)
                simp only
                omega
              · exact rate_mono F 16 _ u' (by omega) (by have := (f16 u').1 hfast; simp only; omega)
    · -- only double speed
      have hl0 : l = 0 := by omega
      simp only [v8, v16, and_self, decide_true, decide_false, Bool.not_true, Bool.not_false, Bool.or_true, if_true, Bool.false_eq_true, if_false]
      refine ⟨_, _, rfl, ?_, ?_, by simp, rfl, rfl, rfl⟩
      · rw [hdec]; simp only [true_iff]; omega
      · intro _
        rw [tn]
        refine ⟨⟨Or.inl rfl, by simp only; omega⟩, (f8 (k - 1)).2 (by omega), ?_⟩
        rintro d' u' ⟨rfl | rfl, hu⟩ hfast
        · exact rate_mono F 8 _ u' (by omega) (by have := (f8 u').1 hfast; simp only; omega)
        · have := (f16 u').1 hfast; omega
  · by_cases v16 : 1 ≤ l ∧ l ≤ 4096
    · simp only [v8, v16, and_self, decide_true, decide_false, Bool.not_false, Bool.true_or, if_true]
      refine ⟨_, _, rfl, ?_, ?_, by simp, rfl, rfl, rfl⟩
      · rw [hdec]; simp only [true_iff]; omega
      · intro _
        rw [tn]
        refine ⟨⟨Or.inr rfl, by simp only; omega⟩, (f16 (l - 1)).2 (by omega), ?_⟩
        rintro d' u' ⟨rfl | rfl, hu⟩ hfast
        · show F / (16 * (l - 1 + 1)) ≤ F / (8 * (u' + 1))
          exact Nat.div_le_div_left (by omega) (by omega)
        · exact rate_mono F 16 _ u' (by omega) (by have := (f16 u').1 hfast; simp only; omega)
    · simp only [v8, v16, decide_false, Bool.not_false, Bool.true_or, if_true, Bool.false_eq_true, if_false]
      refine ⟨_, _, rfl, ?_, by simp, fun _ => ⟨rfl, rfl⟩, rfl, rfl, rfl⟩
      rw [hdec]
      simp only [Bool.false_eq_true, false_iff]
      omega

/-- 9600 and 31250 baud at 1 MHz, as in the repository's tests. -/
example : initAsync 1000000 9600 {} = .ok ({ div := 8, ubrr := 12 }, true) ∧ initAsync 1000000 31250 {} = .ok ({ div := 16, ubrr := 1 }, true) := by decide +kernel

/-- **C55 fails** (nearest): 57600 baud at 16 MHz is set to 58823 although 57142 can be had. -/
theorem c55_nearest_fails : initAsync 16000000 57600 {} = .ok ({ div := 16, ubrr := 16 }, true) ∧ Setting 8 34 ∧
    rate 16000000 16 16 = 58823 ∧ rate 16000000 8 34 = 57142 ∧ ¬ Nearest 16000000 57600 16 16 := by
  refine ⟨by decide +kernel, ⟨Or.inl rfl, by omega⟩, by decide +kernel, by decide +kernel, ?_⟩
  rintro ⟨_, h⟩
  have := h 8 34 ⟨Or.inl rfl, by omega⟩
  revert this
  decide +kernel

/-- **C55 fails** (low rates): the quotient is cut to 16 bits; asking for 30 baud at 16 MHz gives 1769 and reports success. -/
theorem c55_truncated_fails : initAsync 16000000 30 {} = .ok ({ div := 8, ubrr := 1129 }, true) ∧ rate 16000000 8 1129 = 1769 := by decide +kernel

/-- **C55 fails** (refused): 244 baud at 16 MHz is refused although the largest divider gives it. -/
theorem c55_refused_fails : initAsync 16000000 244 {} = .ok ({}, false) ∧ Setting 16 4095 ∧ rate 16000000 16 4095 = 244 :=
  ⟨by decide +kernel, ⟨Or.inr rfl, by omega⟩, by decide +kernel⟩

/-- **C55 fails** (high rates): the deviation is cut to 16 bits; at 2 MHz, 62501 baud selects 125000 rather than 83333. -/
theorem c55_deviation_fails : initAsync 2000000 62501 {} = .ok ({ div := 16, ubrr := 0 }, true) ∧ rate 2000000 16 0 = 125000 ∧ rate 2000000 8 2 = 83333 := by
  decide +kernel

/-- **C55 fails** (undefined): baud rate 0 divides by zero for every clock; a deviation of exactly 32768 overflows. -/
theorem c55_undefined_fails (F : Nat) (c : Config) : initAsync F 0 c = .ub ∧ initAsync 1164288 40000 {} = .ub := ⟨rfl, by decide +kernel⟩

/-- **C55.** For every nonzero rate the only undefined case is that overflow; success always means a valid setting. -/
theorem c55_valid (F b : Nat) (c c' : Config) (h : initAsync F b c = .ok (c', true)) : Setting c'.div c'.ubrr ∧ c'.getMode = (if c'.div = 8 then .asyncDouble else .async) := by
  have v : ∀ u : Int, isValid u = true → u.toNat < 4096 := by
    intro u hu
    unfold isValid at hu
    simp only [Bool.and_eq_true, decide_eq_true_eq] at hu
    omega
  have fin : ∀ (d : Nat) (u : Int), (d = 8 ∨ d = 16) → isValid u = true → c' = { c with div := d, ubrr := u.toNat } →
      Setting c'.div c'.ubrr ∧ c'.getMode = (if c'.div = 8 then .asyncDouble else .async) := by
    rintro d u hd hu rfl
    refine ⟨⟨hd, v u hu⟩, ?_⟩
    rcases hd with rfl | rfl <;> rfl
  unfold initAsync at h
  cases h8 : calcUBRR F 8 b with
  | ub => rw [h8] at h; cases h
  | ok u8 =>
    cases h16 : calcUBRR F 16 b with
    | ub => rw [h8, h16] at h; cases h
    | ok u16 =>
      rw [h8, h16] at h
      simp only [Res.bind_ok] at h
      by_cases w8 : isValid u8 = true
      · by_cases w16 : isValid u16 = true
        · simp only [w8, w16, Bool.not_true, Bool.or_self, Bool.false_eq_true, if_false] at h
          cases q1 : calcBaud F 8 u8 with
          | ub => rw [q1] at h; cases h
          | ok r8 =>
            rw [q1] at h
            simp only [Res.bind_ok] at h
            cases q2 : abs16 (toS 16 (b - r8)) with
            | ub => rw [q2] at h; cases h
            | ok e8 =>
              rw [q2] at h
              simp only [Res.bind_ok] at h
              cases q3 : calcBaud F 16 u16 with
              | ub => rw [q3] at h; cases h
              | ok r16 =>
                rw [q3] at h
                simp only [Res.bind_ok] at h
                cases q4 : abs16 (toS 16 (b - r16)) with
                | ub => rw [q4] at h; cases h
                | ok e16 =>
                  rw [q4] at h
                  simp only [Res.bind_ok] at h
                  split at h
                  · injection h with h; injection h with h _
                    exact fin 8 u8 (Or.inl rfl) w8 h.symm
                  · injection h with h; injection h with h _
                    exact fin 16 u16 (Or.inr rfl) w16 h.symm
        · simp only [w8, w16, Bool.not_true, Bool.not_false, Bool.or_true, if_true, Bool.false_eq_true, if_false] at h
          injection h with h; injection h with h _
          exact fin 8 u8 (Or.inl rfl) w8 h.symm
      · by_cases w16 : isValid u16 = true
        · simp only [w8, w16, Bool.not_false, Bool.true_or, if_true] at h
          injection h with h; injection h with h _
          exact fin 16 u16 (Or.inr rfl) w16 h.symm
        · simp only [w8, w16, Bool.not_false, Bool.true_or, if_true, Bool.false_eq_true, if_false] at h
          injection h with h; injection h with _ h
          cases h

example := c55_valid 1000000 9600 {} { div := 8, ubrr := 12 } (by decide +kernel)

/-- **C55, partial.** getBaudRate returns the rate of the setting if UBRR is not 0 and the rate fits in 16 bits ... -/
theorem c55_getBaudRate_partial (F : Nat) (c : Config) (h : Setting c.div c.ubrr) (h0 : c.ubrr ≠ 0) (hr : rate F c.div c.ubrr < 65536) :
    getBaudRate F c = .ok (rate F c.div c.ubrr) := by
  obtain ⟨hd, hu⟩ := h
  have hd0 : c.div ≠ 0 := by omega
  have hk : toU 16 ((c.ubrr : Int) + 1) = c.ubrr + 1 := by unfold toU; simp only [Nat.reducePow]; omega
  have hne : c.div * (c.ubrr + 1) ≠ 0 := Nat.ne_of_gt (Nat.mul_pos (by omega) (by omega))
  unfold getBaudRate calcBaud
  rw [if_neg (by omega)]
  simp only [hk, if_neg hne, Res.bind_ok]
  congr 1
  unfold rate at hr ⊢
  generalize F / (c.div * (c.ubrr + 1)) = r at *
  unfold toU toS
  simp only [Nat.reducePow, Nat.reduceSub]
  omega

example := c55_getBaudRate_partial 1000000 { div := 8, ubrr := 12 } ⟨.inl rfl, by decide⟩ (by decide) (by decide +kernel)

/-- ... **and fails** for the fastest setting, which reads back as 0. -/
theorem c55_getBaudRate_fails : initAsync 1000000 62500 {} = .ok ({ div := 16, ubrr := 0 }, true) ∧ rate 1000000 16 0 = 62500 ∧
    getBaudRate 1000000 { div := 16, ubrr := 0 } = .ok 0 := by decide +kernel

/-! ### C56 frame format -/

/-- What the user selected, in the words of the data sheet. -/
def wantedBits : DataBits → Nat
  | .bits5 => 5
  | .bits6 => 6
  | .bits7 => 7
  | .bits8 => 8
  | .bits9 => 9

def wantedParity : Parity → ParityMode
  | .off => .disabled
  | .even => .even
  | .odd => .odd

def wantedStop : StopBits → Nat
  | .one => 1
  | .two => 2

theorem div_cases (d u : Nat) (h : Setting d u) : d = 8 ∨ d = 16 := h.1

/-- **C56, partial.** Every configuration with a baud rate: stop bits and mode are encoded as selected whatever the rest is; 5 to 8 data bits likewise;
    no parity likewise. Missing: 9 data bits, even and odd parity. -/
theorem c56_fields_partial (c : Config) (h : Setting c.div c.ubrr) :
    stopBits c.ucsrc = wantedStop c.stop ∧ async c.ucsrc = true ∧ (doubleSpeed c.ucsra = true ↔ c.div = 8) ∧
    (c.dataBits ≠ .bits9 → dataBits c.ucsrb c.ucsrc = some (wantedBits c.dataBits)) ∧
    (c.parity = .off → parity c.ucsrc = some .disabled) := by
  have ea : c.ucsra = ({ c with ubrr := 0 } : Config).ucsra := rfl
  have eb : c.ucsrb = ({ c with ubrr := 0 } : Config).ucsrb := rfl
  have ec : c.ucsrc = ({ c with ubrr := 0 } : Config).ucsrc := rfl
  simp only [ea, eb, ec]
  clear ea eb ec
  obtain ⟨d, u, b, p, s⟩ := c
  obtain ⟨hd, _⟩ := h
  simp only at hd
  rcases hd with rfl | rfl <;> cases b <;> cases p <;> cases s <;> dsimp only <;> decide +kernel

example := c56_fields_partial { div := 8, ubrr := 12, dataBits := .bits7, parity := .even, stop := .two } ⟨.inl rfl, by decide⟩

/-- **C56.** No other bits of the registers are set. -/
theorem c56_others (c : Config) (h : Setting c.div c.ubrr) :
    c.ucsra &&& 0xFD#8 = 0 ∧ c.ucsrb &&& 0xFB#8 = 0 ∧ c.ucsrc &&& 0xC1#8 = 0 := by
  have ea : c.ucsra = ({ c with ubrr := 0 } : Config).ucsra := rfl
  have eb : c.ucsrb = ({ c with ubrr := 0 } : Config).ucsrb := rfl
  have ec : c.ucsrc = ({ c with ubrr := 0 } : Config).ucsrc := rfl
  simp only [ea, eb, ec]
  clear ea eb ec
  obtain ⟨d, u, b, p, s⟩ := c
  obtain ⟨hd, _⟩ := h
  simp only at hd
  rcases hd with rfl | rfl <;> cases b <;> cases p <;> cases s <;> dsimp only <;> decide +kernel

example := c56_others { div := 8, ubrr := 12, dataBits := .bits7, parity := .even, stop := .two } ⟨.inl rfl, by decide⟩

/-- **C56, the mode in every configuration,** whatever the divider is: the registers select the asynchronous mode exactly if `getMode` reports one of the two asynchronous modes and
    double speed exactly if it reports that; a configuration without a baud rate (new, or after a failed `InitAsync`) selects the synchronous mode; stop bits, 5 to 8 data bits and "no parity" are as selected also there. -/
theorem c56_mode (c : Config) (h : c.div = 0 ∨ Setting c.div c.ubrr) :
    (async c.ucsrc = true ↔ c.getMode = .async ∨ c.getMode = .asyncDouble) ∧ (doubleSpeed c.ucsra = true ↔ c.getMode = .asyncDouble) ∧
    (c.div = 0 → c.getMode = .syncSlave ∧ c.ucsrc.getLsbD 6 = true ∧ c.ucsrc.getLsbD 7 = false) ∧ stopBits c.ucsrc = wantedStop c.stop ∧
    (c.dataBits ≠ .bits9 → dataBits c.ucsrb c.ucsrc = some (wantedBits c.dataBits)) ∧ (c.parity = .off ↔ parity c.ucsrc = some .disabled) := by
  have ea : c.ucsra = ({ c with ubrr := 0 } : Config).ucsra := rfl
  have eb : c.ucsrb = ({ c with ubrr := 0 } : Config).ucsrb := rfl
  have ec : c.ucsrc = ({ c with ubrr := 0 } : Config).ucsrc := rfl
  have em : c.getMode = ({ c with ubrr := 0 } : Config).getMode := rfl
  simp only [ea, eb, ec, em]
  clear ea eb ec em
  obtain ⟨d, u, b, p, s⟩ := c
  have hd : d = 0 ∨ d = 8 ∨ d = 16 := h.imp id fun h => h.1
  rcases hd with rfl | rfl | rfl <;> cases b <;> cases p <;> cases s <;> dsimp only <;> decide +kernel

/-- A new configuration. -/
example : (({} : Config).div = 0) ∧ ({} : Config).ucsrc = 0x46#8 := by decide +kernel

/-- **C56 fails** (parity): even selects odd and odd selects even, in every configuration. -/
theorem c56_parity_fails (c : Config) (h : Setting c.div c.ubrr) :
    (c.parity = .even → parity c.ucsrc = some .odd) ∧ (c.parity = .odd → parity c.ucsrc = some .even) := by
  have ea : c.ucsra = ({ c with ubrr := 0 } : Config).ucsra := rfl
  have eb : c.ucsrb = ({ c with ubrr := 0 } : Config).ucsrb := rfl
  have ec : c.ucsrc = ({ c with ubrr := 0 } : Config).ucsrc := rfl
  simp only [ea, eb, ec]
  clear ea eb ec
  obtain ⟨d, u, b, p, s⟩ := c
  obtain ⟨hd, _⟩ := h
  simp only at hd
  rcases hd with rfl | rfl <;> cases b <;> cases p <;> cases s <;> dsimp only <;> decide +kernel

/-- **C56 fails** (nine bits): a reserved size (number 5) is selected, in every configuration. -/
theorem c56_nine_fails (c : Config) (h : Setting c.div c.ubrr) (h9 : c.dataBits = .bits9) :
    dataBits c.ucsrb c.ucsrc = none ∧ c.ucsrb = 4#8 ∧ c.ucsrc &&& 6#8 = 2#8 := by
  have ea : c.ucsra = ({ c with ubrr := 0 } : Config).ucsra := rfl
  have eb : c.ucsrb = ({ c with ubrr := 0 } : Config).ucsrb := rfl
  have ec : c.ucsrc = ({ c with ubrr := 0 } : Config).ucsrc := rfl
  simp only [ea, eb, ec]
  clear ea eb ec
  obtain ⟨d, u, b, p, s⟩ := c
  obtain ⟨hd, _⟩ := h
  simp only at hd h9
  subst h9
  rcases hd with rfl | rfl <;> cases p <;> cases s <;> dsimp only <;> decide +kernel

example : Setting ({ div := 8, ubrr := 12, dataBits := .bits7, parity := .even, stop := .two } : Config).div 12 := ⟨Or.inl rfl, by omega⟩

/-! ### C61 power reduction -/

theorem bit_clear (i : Nat) (hi : i < 8) (t : BitVec 8) (j : Nat) : (clearBit i t).getLsbD j = (if j = i then false else t.getLsbD j) := by
  unfold clearBit
  by_cases hj : j < 8
  · simp only [BitVec.getLsbD_and, BitVec.getLsbD_not, BitVec.getLsbD_shiftLeft, BitVec.getLsbD_one, hj, decide_true, Bool.true_and]
    by_cases h : j = i
    · subst h; simp
    · by_cases h2 : j < i
      · simp [h, h2]
      · have : j - i ≠ 0 := by omega
        simp [h, h2, this]
  · have : t.getLsbD j = false := BitVec.getLsbD_of_ge _ _ (by omega)
    simp [BitVec.getLsbD_and, this]

theorem bit_set (i : Nat) (hi : i < 8) (t : BitVec 8) (j : Nat) : (setBit i t).getLsbD j = (if j = i then true else t.getLsbD j) := by
  unfold setBit
  by_cases hj : j < 8
  · simp only [BitVec.getLsbD_or, BitVec.getLsbD_shiftLeft, BitVec.getLsbD_one, hj, decide_true, Bool.true_and]
    by_cases h : j = i
    · subst h; simp
    · by_cases h2 : j < i
      · simp [h, h2]
      · have : j - i ≠ 0 := by omega
        simp [h, h2, this]
  · have : t.getLsbD j = false := BitVec.getLsbD_of_ge _ _ (by omega)
    have h2 : j ≠ i := by omega
    have h3 : (1#8 <<< i).getLsbD j = false := BitVec.getLsbD_of_ge _ _ (by omega)
    simp only [BitVec.getLsbD_or, this, h3, h2, if_false, Bool.or_self]

theorem bit_isTrue : ∀ (i : Fin 8) (t : BitVec 8), isTrue i t = t.getLsbD i := by decide +kernel

/-- The helpers are the functions of Bit.h. -/
theorem bit_model : ∀ (i : Fin 8) (t : BitVec 8), Bits.Bit.set 16 i t = .ok (setBit i t) ∧ Bits.Bit.reset 16 i t = .ok (clearBit i t) ∧
    Bits.Bit.setBool 16 i t true = .ok (setBit i (clearBit i t)) ∧ Bits.Bit.setBool 16 i t false = .ok (clearBit i t) := by decide +kernel

/-- **C61.** Enabling or disabling USART 0 or 1 clears or sets its bit of PRR0 (bit 1, bit 4: "power reduction") and changes nothing else in memory. -/
theorem c61_set (id : Nat) (hid : id < 2) (e : Bool) (m : Mem) (a j : Nat) :
    (setEnableUsart id e m a).getLsbD j = if a = 0x64 ∧ j = (if id = 0 then 1 else 4) then !e else (m a).getLsbD j := by
  have hp : prUsart id < 8 := by unfold prUsart; split <;> omega
  unfold setEnableUsart Mem.put aPRR0
  by_cases ha : a = 0x64
  · subst ha
    cases e
    · simp only [if_true, Bool.false_eq_true, if_false, true_and, Bool.not_false]
      rw [bit_set _ hp]; rfl
    · simp only [if_true, true_and, Bool.not_true]
      rw [bit_clear _ hp]; rfl
  · simp [ha]

/-- **C61 fails.** The getter looks at another bit: after enabling USART 0 it may say disabled, after disabling it may say enabled; what it reports is the
    converter's bit 0 (USART 0) and the SPI's bit 2 (USART 1). -/
theorem c61_get_fails (m : Mem) (e : Bool) :
    getEnableUsart 0 (setEnableUsart 0 e m) = !(m 0x64).getLsbD 0 ∧ getEnableUsart 1 (setEnableUsart 1 e m) = !(m 0x64).getLsbD 2 := by
  have key : ∀ t : BitVec 8,
      ((clearBit 1 t &&& 1#8) == 0#8) = !t.getLsbD 0 ∧ ((setBit 1 t &&& 1#8) == 0#8) = !t.getLsbD 0 ∧
      ((clearBit 4 t &&& 4#8) == 0#8) = !t.getLsbD 2 ∧ ((setBit 4 t &&& 4#8) == 0#8) = !t.getLsbD 2 := by decide +kernel
  obtain ⟨k1, k2, k3, k4⟩ := key (m 0x64)
  cases e
  · exact ⟨k2, k4⟩
  · exact ⟨k1, k3⟩

/-! ### C72 opening and closing -/

/-- **C88, partial.** After a successful InitAsync the mode is asynchronous, double speed exactly if the divider is 8. -/
theorem c88_mode_partial (F b : Nat) (c c' : Config) (h : initAsync F b c = .ok (c', true)) :
    (c'.getMode = .async ∧ c'.div = 16) ∨ (c'.getMode = .asyncDouble ∧ c'.div = 8) := by
  rcases (c55_valid F b c c' h).1.1 with e | e <;> simp [getMode, e]

example := c88_mode_partial 1000000 9600 {} { div := 8, ubrr := 12 } (by decide +kernel)

/-- **C88 fails** ("Returns Invalid if the InitAsync method was not called"): the mode of every configuration without baud rate is synchronous slave;
    invalid is not reported, also not after a refused InitAsync. -/
theorem c88_mode_fails : getMode {} = .syncSlave ∧ ∀ (F b : Nat) (c c' : Config), initAsync F b c = .ok (c', false) → c'.getMode = .syncSlave := by
  refine ⟨rfl, fun F b c c' h => ?_⟩
  unfold initAsync at h
  cases h8 : calcUBRR F 8 b with
  | ub => rw [h8] at h; cases h
  | ok u8 =>
    cases h16 : calcUBRR F 16 b with
    | ub => rw [h8, h16] at h; cases h
    | ok u16 =>
      rw [h8, h16] at h
      simp only [Res.bind_ok] at h
      split at h
      · split at h
        · simp at h
        · split at h
          · simp at h
          · simp only [Res.ok.injEq, Prod.mk.injEq, and_true] at h
            rw [← h]; rfl
      · exfalso
        cases e1 : calcBaud F 8 u8 with
        | ub => rw [e1] at h; cases h
        | ok r8 =>
          rw [e1] at h
          simp only [Res.bind_ok] at h
          cases e2 : abs16 (toS 16 (b - r8)) with
          | ub => rw [e2] at h; cases h
          | ok d8 =>
            rw [e2] at h
            simp only [Res.bind_ok] at h
            cases e3 : calcBaud F 16 u16 with
            | ub => rw [e3] at h; cases h
            | ok r16 =>
              rw [e3] at h
              simp only [Res.bind_ok] at h
              cases e4 : abs16 (toS 16 (b - r16)) with
              | ub => rw [e4] at h; cases h
              | ok d16 =>
                rw [e4] at h
                simp only [Res.bind_ok] at h
                split at h <;> simp at h

example : initAsync 16000000 3 {} = .ok ({}, false) := by decide +kernel

/-- **C72.** OpenAsync refuses a configuration without baud rate and then changes nothing. -/
theorem c72_refused (id : Nat) (c : Config) (m : Mem) (h : c.div = 0) : openAsync id c m = (m, false) := by
  unfold openAsync
  have : c.getMode = .syncSlave := by unfold getMode; simp [h]
  rw [this]; simp

/-- **C72.** With a baud rate it powers the USART, loads its four registers with the configuration, and changes nothing else in memory. -/
theorem c72_open (id : Nat) (hid : id < 2) (c : Config) (m : Mem) (h : Setting c.div c.ubrr) :
    (openAsync id c m).2 = true ∧
    ((openAsync id c m).1 (0xC4 + id * 8)).toNat + 256 * ((openAsync id c m).1 (0xC5 + id * 8)).toNat = c.ubrr ∧
    (openAsync id c m).1 (0xC0 + id * 8) = c.ucsra ∧ (openAsync id c m).1 (0xC1 + id * 8) = c.ucsrb ∧ (openAsync id c m).1 (0xC2 + id * 8) = c.ucsrc ∧
    (openAsync id c m).1 0x64 = clearBit (if id = 0 then 1 else 4) (m 0x64) ∧
    ∀ a, a ≠ 0x64 → a ≠ 0xC0 + id * 8 → a ≠ 0xC1 + id * 8 → a ≠ 0xC2 + id * 8 → a ≠ 0xC4 + id * 8 → a ≠ 0xC5 + id * 8 → (openAsync id c m).1 a = m a := by
  obtain ⟨hd, hu⟩ := h
  have hm : ¬ (c.getMode ≠ .async ∧ c.getMode ≠ .asyncDouble) := by
    unfold getMode
    rcases hd with h | h <;> simp [h]
  unfold openAsync
  rw [if_neg hm]
  simp only [Mem.put, aUCSRA, aUCSRB, aUCSRC, aUBRR, setEnableUsart, aPRR0, prUsart]
  refine ⟨trivial, ?_, ?_, ?_, ?_, ?_, ?_⟩
  · have e1 : ¬ 0xC4 + id * 8 = 0xC2 + id * 8 := by omega
    have e2 : ¬ 0xC4 + id * 8 = 0xC1 + id * 8 := by omega
    have e3 : ¬ 0xC4 + id * 8 = 0xC0 + id * 8 := by omega
    have e4 : ¬ 0xC4 + id * 8 = 0xC4 + id * 8 + 1 := by omega
    have e5 : ¬ 0xC5 + id * 8 = 0xC2 + id * 8 := by omega
    have e6 : ¬ 0xC5 + id * 8 = 0xC1 + id * 8 := by omega
    have e7 : ¬ 0xC5 + id * 8 = 0xC0 + id * 8 := by omega
    have e8 : 0xC5 + id * 8 = 0xC4 + id * 8 + 1 := by omega
    simp only [if_neg e1, if_neg e2, if_neg e3, if_neg e4, if_neg e5, if_neg e6, if_neg e7, if_pos e8, if_true, BitVec.toNat_ofNat]
    omega
  · rw [if_neg (by omega), if_neg (by omega), if_pos trivial]
  · rw [if_neg (by omega), if_pos trivial]
  · rw [if_pos trivial]
  · rw [if_neg (by omega), if_neg (by omega), if_neg (by omega), if_neg (by omega), if_neg (by omega)]
    simp
  · intro a h1 h2 h3 h4 h5 h6
    rw [if_neg h4, if_neg h3, if_neg h2, if_neg (by omega), if_neg h5, if_neg h1]

example := c72_open 1 (by decide) { div := 8, ubrr := 12, dataBits := .bits7, stop := .two } (fun _ => 0xA5#8) ⟨.inl rfl, by decide⟩

/-- **C72.** Close clears exactly the enable bits of receiver, transmitter and the three interrupts, and the power; the frame size bit 2 and TXB8 bit 0 stay. -/
theorem c72_close (id : Nat) (hid : id < 2) (m : Mem) (a j : Nat) :
    (close id m a).getLsbD j =
      if a = 0xC1 + id * 8 ∧ 3 ≤ j ∧ j ≤ 7 then false
      else if a = 0x64 ∧ j = (if id = 0 then 1 else 4) then true else (m a).getLsbD j := by
  have hset := c61_set id hid false
  unfold close
  rw [hset]
  have hb : ∀ (a i : Nat) (m : Mem), memBit a i false m = m.put a (clearBit i (m a)) := fun a i m => rfl
  simp only [hb, Mem.put, aUCSRB, if_true]
  by_cases ha : a = 0xC1 + id * 8
  · subst ha
    rw [if_neg (by omega)]
    simp only [if_true, true_and]
    rw [bit_clear 3 (by omega), bit_clear 5 (by omega), bit_clear 6 (by omega), bit_clear 4 (by omega), bit_clear 7 (by omega)]
    have : ¬ (0xC1 + id * 8 = 0x64 ∧ j = (if id = 0 then 1 else 4)) := by omega
    rw [if_neg this]
    by_cases hj : 3 ≤ j ∧ j ≤ 7
    · rw [if_pos hj]
      have : j = 3 ∨ j = 4 ∨ j = 5 ∨ j = 6 ∨ j = 7 := by omega
      rcases this with rfl | rfl | rfl | rfl | rfl <;> simp
    · rw [if_neg hj, if_neg (by omega), if_neg (by omega), if_neg (by omega), if_neg (by omega), if_neg (by omega)]
  · simp only [ha, if_false, false_and, Bool.not_false]

example := c72_close 1 (by decide) (fun _ => 0xA5#8) 0xC9 5

end Atl.Props
