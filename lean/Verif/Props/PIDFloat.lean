import Verif.Model.PIDFloat
import Verif.Spec.PID
import Mathlib.Tactic.Linarith
import Mathlib.Tactic.Ring
import Mathlib.Tactic.Positivity
import Mathlib.Tactic.SplitIfs
import Mathlib.Tactic.NormNum
import Mathlib.Algebra.Order.Field.Basic
import Mathlib.Data.Rat.Floor

/- C113: the PID controller with `float` values. -/
namespace Atl.Props
open Atl Atl.PIDFloat
open Atl.Text (roundBin roundEven log2)

/-- A number `v` in the range `[lo, hi]`. -/
def FlInRange (lo hi : Rat) (v : Fl) : Prop := ∃ q, v = .fin q ∧ lo ≤ q ∧ q ≤ hi

/-- A finite number of magnitude at most `b`. -/
def FlAtMost (b : Rat) (v : Fl) : Prop := ∃ q, v = .fin q ∧ |q| ≤ b

/-- A format in which rounding at most doubles a number and numbers up to `10^38` are finite. -/
structure FlFmt (f : Fmt) : Prop where
  round : ∀ q, |f.round q| ≤ 2 * |q|
  top : (10 : Rat) ^ 38 ≤ f.top

theorem roundEven_le (y : Rat) (h : 0 ≤ y) : |(roundEven y : Rat)| ≤ 2 * y := by
  have hn : (0 : Int) ≤ y.floor := Rat.le_floor_iff.2 (by simpa using h)
  have hf : (y.floor : Rat) ≤ y := Rat.floor_le _
  have hn' : (0 : Rat) ≤ (y.floor : Rat) := by exact_mod_cast hn
  have key : (0 : Rat) ≤ (roundEven y : Rat) ∧ (roundEven y : Rat) ≤ 2 * y := by
    unfold roundEven
    simp only
    split_ifs with h1 h2 h3
    · exact ⟨hn', by linarith⟩
    · push_cast; constructor <;> linarith
    · exact ⟨hn', by linarith⟩
    · push_cast
      have : y.floor ≠ 0 := by intro h0; rw [h0] at h3; exact h3 rfl
      have h4 : (1 : Int) ≤ y.floor := by omega
      have h5 : (1 : Rat) ≤ (y.floor : Rat) := by exact_mod_cast h4
      constructor <;> linarith
  rw [abs_of_nonneg key.1]; exact key.2

theorem roundBin_le (p b : Nat) (x : Rat) : |roundBin p b x| ≤ 2 * |x| := by
  have ha : (if x < 0 then -x else x) = |x| := by
    split_ifs with h
    · rw [abs_of_neg h]
    · rw [abs_of_nonneg (not_lt.1 h)]
  unfold roundBin
  simp only [ha]
  generalize hs : (if 0 ≤ (p : Int) - 1 - ((log2 (|x| * 2 ^ b) : Int) - b) then
      (2 : Rat) ^ ((p : Int) - 1 - ((log2 (|x| * 2 ^ b) : Int) - b)).toNat
    else 1 / 2 ^ (((log2 (|x| * 2 ^ b) : Int) - b) + 1 - p).toNat) = s
  have hpos : 0 < s := by rw [← hs]; split_ifs <;> positivity
  have h1 := roundEven_le (|x| * s) (by positivity)
  have h2 : |(roundEven (|x| * s) : Rat) / s| ≤ 2 * |x| := by
    rw [abs_div, abs_of_pos hpos, div_le_iff₀ hpos]; linarith
  split_ifs
  · rw [abs_neg]; exact h2
  · exact h2

/-- `float` is such a format. -/
theorem binary32_fmt : FlFmt binary32 := ⟨roundBin_le 24 126, by norm_num [binary32]⟩

theorem ofReal_fin {f : Fmt} (hf : FlFmt f) {q b : Rat} (hq : |q| ≤ b) (hb : 2 * b ≤ 10 ^ 38) : FlAtMost (2 * b) (Fl.ofReal f q) := by
  have h := hf.round q
  have h' : |f.round q| ≤ 2 * b := by linarith
  refine ⟨f.round q, ?_, h'⟩
  unfold Fl.ofReal
  rw [if_pos (h'.trans (hb.trans hf.top))]

theorem add_fin {f : Fmt} (hf : FlFmt f) {u v : Fl} {a b : Rat} (hu : FlAtMost a u) (hv : FlAtMost b v) (h : 2 * (a + b) ≤ 10 ^ 38) :
    FlAtMost (2 * (a + b)) (Fl.add f u v) := by
  obtain ⟨p, rfl, hp⟩ := hu
  obtain ⟨q, rfl, hq⟩ := hv
  exact ofReal_fin hf ((abs_add_le p q).trans (by linarith)) h

theorem sub_fin {f : Fmt} (hf : FlFmt f) {u v : Fl} {a b : Rat} (hu : FlAtMost a u) (hv : FlAtMost b v) (h : 2 * (a + b) ≤ 10 ^ 38) :
    FlAtMost (2 * (a + b)) (Fl.sub f u v) := by
  obtain ⟨q, rfl, hq⟩ := hv
  exact add_fin hf hu ⟨-q, rfl, by rwa [abs_neg]⟩ h

theorem mul_fin {f : Fmt} (hf : FlFmt f) {u v : Fl} {a b : Rat} (hu : FlAtMost a u) (hv : FlAtMost b v) (h : 2 * (a * b) ≤ 10 ^ 38) :
    FlAtMost (2 * (a * b)) (Fl.mul f u v) := by
  obtain ⟨p, rfl, hp⟩ := hu
  obtain ⟨q, rfl, hq⟩ := hv
  refine ofReal_fin hf ?_ h
  rw [abs_mul]
  exact mul_le_mul hp hq (abs_nonneg _) ((abs_nonneg _).trans hp)

theorem div_fin {f : Fmt} (hf : FlFmt f) {u : Fl} {a : Rat} {n : Nat} (hn : 0 < n) (hu : FlAtMost a u) (h : 2 * a ≤ 10 ^ 38) :
    FlAtMost (2 * a) (Fl.divNat f u n) := by
  obtain ⟨p, rfl, hp⟩ := hu
  simp only [Fl.divNat, if_neg (Nat.pos_iff_ne_zero.1 hn)]
  refine ofReal_fin hf ?_ h
  have h1 : (1 : Rat) ≤ n := by exact_mod_cast hn
  rw [abs_div, abs_of_pos (by linarith : (0 : Rat) < n), div_le_iff₀ (by linarith)]
  nlinarith [abs_nonneg p]

theorem FlAtMost.mono {a b : Rat} {v : Fl} (h : FlAtMost a v) (hab : a ≤ b) : FlAtMost b v := by
  obtain ⟨q, rfl, hq⟩ := h; exact ⟨q, rfl, hq.trans hab⟩

theorem clip_fin {lo hi : Rat} (h : lo ≤ hi) {b : Rat} {v : Fl} (hv : FlAtMost b v) : FlInRange lo hi (clip (.fin lo) (.fin hi) v) := by
  obtain ⟨q, rfl, _⟩ := hv
  unfold clip
  by_cases h1 : hi < q
  · have : ¬ hi < lo := not_lt.2 h
    exact ⟨hi, by simp [Fl.lt, h1, this], h, le_refl _⟩
  · by_cases h2 : q < lo
    · exact ⟨lo, by simp [Fl.lt, h1, h2], le_refl _, h⟩
    · exact ⟨q, by simp [Fl.lt, h1, h2], not_lt.1 h2, not_lt.1 h1⟩

theorem FlInRange.atMost {lo hi b : Rat} {v : Fl} (h : FlInRange lo hi v) (hl : |lo| ≤ b) (hh : |hi| ≤ b) : FlAtMost b v := by
  obtain ⟨q, rfl, h1, h2⟩ := h
  exact ⟨q, rfl, abs_le.2 ⟨by have := (abs_le.1 hl).1; linarith, by have := (abs_le.1 hh).2; linarith⟩⟩

/-- **C113, never outside**: whatever the numbers are (infinities and NaN included), the value is in the range or it is NaN. -/
theorem c113_range_or_nan {F : Type} (f : Fmt) (lo hi : Rat) (h : lo ≤ hi) (filter : F → Fl → Nat → Fl × F) (m : Mem F) (xs : List Input) :
    ∀ v ∈ (PIDFloat.run f (.fin lo) (.fin hi) filter m xs).1, v = .nan ∨ FlInRange lo hi v := by
  have key : ∀ w, clip (.fin lo) (.fin hi) w = .nan ∨ FlInRange lo hi (clip (.fin lo) (.fin hi) w) := by
    intro w
    cases w with
    | nan => left; rfl
    | fin q => right; exact clip_fin h ⟨q, rfl, le_refl _⟩
    | inf b =>
      right
      cases b with
      | true => exact ⟨lo, by simp [clip, Fl.lt], le_refl _, h⟩
      | false => exact ⟨hi, by simp [clip, Fl.lt, not_lt.2 h], h, le_refl _⟩
  induction xs generalizing m with
  | nil => intro v hv; simp [PIDFloat.run] at hv
  | cons x xs ih =>
    intro v hv
    simp only [PIDFloat.run, List.mem_cons] at hv
    rcases hv with rfl | hv
    · exact key _
    · exact ih _ v hv

example := c113_range_or_nan binary32 0 255 (by norm_num) noFilter (⟨.fin 0, .fin 0, ()⟩ : Mem Unit)
  [⟨.fin 100, .fin (1 / 2), 20, .fin 200, .fin 1, .fin 1, .fin 1⟩, ⟨.nan, .fin (1 / 2), 20, .fin 200, .fin 1, .fin 1, .fin 1⟩]

/-- The inputs of one call are finite, at most `10^9`, and time has passed. -/
def FlSane (x : Input) : Prop :=
  FlAtMost (10 ^ 9) x.feedback ∧ FlAtMost (10 ^ 9) x.setPoint ∧ FlAtMost (10 ^ 9) x.biasP ∧ FlAtMost (10 ^ 9) x.biasI ∧
    FlAtMost (10 ^ 9) x.biasD ∧ 0 < x.delta ∧ x.delta < 2 ^ 16

/-- The memory is finite. -/
def FlMem {F : Type} (good : F → Prop) (m : Mem F) : Prop := FlAtMost (10 ^ 9) m.acc ∧ FlAtMost (4 * 10 ^ 9) m.last ∧ good m.filt

/-- A filter that keeps finite numbers finite. -/
def FlFilter {F : Type} (good : F → Prop) (filter : F → Fl → Nat → Fl × F) : Prop :=
  ∀ s e n, good s → FlAtMost (4 * 10 ^ 9) e → FlAtMost (4 * 10 ^ 9) (filter s e n).1 ∧ good (filter s e n).2

theorem process_sane {F : Type} {f : Fmt} (hf : FlFmt f) {lo hi : Rat} (h : lo ≤ hi) (hl : |lo| ≤ 10 ^ 9) (hh : |hi| ≤ 10 ^ 9)
    {good : F → Prop} {filter : F → Fl → Nat → Fl × F} (hfil : FlFilter good filter) {x : Input} (hx : FlSane x) {m : Mem F}
    (hm : FlMem good m) : FlInRange lo hi (PIDFloat.process f (.fin lo) (.fin hi) filter x m).1 ∧
      FlMem good (PIDFloat.process f (.fin lo) (.fin hi) filter x m).2 := by
  obtain ⟨hfb, hsp, hp, hi', hd, hdt, hdt'⟩ := hx
  obtain ⟨ha, hlast, hg⟩ := hm
  have herr : FlAtMost (4 * 10 ^ 9) (PIDFloat.calcError f x m).1 ∧ FlAtMost (10 ^ 9) (PIDFloat.calcError f x m).2.acc ∧
      (PIDFloat.calcError f x m).2.last = m.last ∧ (PIDFloat.calcError f x m).2.filt = m.filt := by
    unfold PIDFloat.calcError
    simp only
    split_ifs
    · exact ⟨⟨0, rfl, by norm_num⟩, ⟨0, rfl, by norm_num⟩, rfl, rfl⟩
    · exact ⟨(sub_fin hf hsp hfb (by norm_num)).mono (by norm_num), ha, rfl, rfl⟩
  unfold PIDFloat.process
  simp only
  generalize PIDFloat.calcError f x m = e at *
  obtain ⟨he, hea, hel, hef⟩ := herr
  have hP : FlAtMost (10 ^ 20) (PIDFloat.calcP f e.1 x.biasP) := by
    unfold PIDFloat.calcP
    split_ifs
    · exact ⟨0, rfl, by norm_num⟩
    · exact (mul_fin hf he hp (by norm_num)).mono (by norm_num)
  have hI : FlAtMost (10 ^ 9) (PIDFloat.calcI f (.fin lo) (.fin hi) e.1 x.delta x.biasI e.2).1 ∧
      FlAtMost (10 ^ 9) (PIDFloat.calcI f (.fin lo) (.fin hi) e.1 x.delta x.biasI e.2).2.acc ∧
      (PIDFloat.calcI f (.fin lo) (.fin hi) e.1 x.delta x.biasI e.2).2.last = e.2.last ∧
      (PIDFloat.calcI f (.fin lo) (.fin hi) e.1 x.delta x.biasI e.2).2.filt = e.2.filt := by
    have hn : FlAtMost (2 ^ 16) (.fin (x.delta : Rat)) := by
      refine ⟨_, rfl, ?_⟩
      rw [abs_of_nonneg (Nat.cast_nonneg _)]
      exact_mod_cast le_of_lt hdt'
    unfold PIDFloat.calcI
    split_ifs
    · exact ⟨hea, hea, rfl, rfl⟩
    · have h1 := mul_fin hf he hn (by norm_num)
      have h2 := mul_fin hf h1 hi' (by norm_num)
      have h3 := add_fin hf hea h2 (by norm_num)
      have h4 := (clip_fin h h3).atMost hl hh
      exact ⟨h4, h4, rfl, rfl⟩
  generalize PIDFloat.calcI f (.fin lo) (.fin hi) e.1 x.delta x.biasI e.2 = i at *
  obtain ⟨hI1, hI2, hI3, hI4⟩ := hI
  have hfl : i.2.last = m.last := hI3.trans hel
  have hff : i.2.filt = m.filt := hI4.trans hef
  have hfil' := hfil m.filt e.1 x.delta hg he
  have hD : FlAtMost (10 ^ 21) (PIDFloat.calcD f filter e.1 x.delta x.biasD i.2).1 ∧
      FlMem good (PIDFloat.calcD f filter e.1 x.delta x.biasD i.2).2 := by
    unfold PIDFloat.calcD
    rw [hff, hfl]
    refine ⟨?_, hI2, hfil'.1, hfil'.2⟩
    simp only
    split_ifs
    · exact ⟨0, rfl, by norm_num⟩
    · have h1 := sub_fin hf hfil'.1 hlast (by norm_num)
      have h2 := mul_fin hf h1 hd (by norm_num)
      exact (div_fin hf hdt h2 (by norm_num)).mono (by norm_num)
  have hs := add_fin hf (add_fin hf hP hI1 (by norm_num)) hD.1 (by norm_num)
  exact ⟨clip_fin h hs, hD.2⟩

/-- **C113, partial**: on a `float`-like format, while set point, feedback, gains and range are finite and at most `10^9` and time passes
    between the calls, every value of every history is in the range and the memory stays finite. -/
theorem c113_in_range_partial {F : Type} (f : Fmt) (hf : FlFmt f) (lo hi : Rat) (h : lo ≤ hi) (hl : |lo| ≤ 10 ^ 9) (hh : |hi| ≤ 10 ^ 9)
    (good : F → Prop) (filter : F → Fl → Nat → Fl × F) (hfil : FlFilter good filter) (m : Mem F) (hm : FlMem good m) (xs : List Input)
    (hx : ∀ x ∈ xs, FlSane x) :
    (∀ v ∈ (PIDFloat.run f (.fin lo) (.fin hi) filter m xs).1, FlInRange lo hi v) ∧
      FlMem good (PIDFloat.run f (.fin lo) (.fin hi) filter m xs).2 := by
  induction xs generalizing m with
  | nil => exact ⟨by intro v hv; simp [PIDFloat.run] at hv, hm⟩
  | cons x xs ih =>
    have h1 := process_sane hf h hl hh hfil (hx x (List.mem_cons_self ..)) hm
    have h2 := ih _ h1.2 (fun y hy => hx y (List.mem_cons_of_mem _ hy))
    refine ⟨?_, h2.2⟩
    intro v hv
    simp only [PIDFloat.run, List.mem_cons] at hv
    rcases hv with rfl | hv
    · exact h1.1
    · exact h2.1 v hv

theorem noFilter_ok {F : Type} : FlFilter (F := F) (fun _ => True) noFilter := fun _ _ _ _ h => ⟨h, trivial⟩

/-- The controller of PIDTest.cpp: range 0 to 255, feedback 100, set point 200, all gains 1. -/
example : ∀ n, ∀ v ∈ (PIDFloat.run binary32 (.fin 0) (.fin 255) noFilter (⟨.fin 0, .fin 0, ()⟩ : Mem Unit)
    (List.replicate n ⟨.fin 100, .fin (1 / 2), 20, .fin 200, .fin 1, .fin 1, .fin 1⟩)).1, FlInRange 0 255 v := by
  intro n
  refine (c113_in_range_partial binary32 binary32_fmt 0 255 (by norm_num) (by norm_num) (by norm_num) _ noFilter noFilter_ok _
    ⟨⟨0, rfl, by norm_num⟩, ⟨0, rfl, by norm_num⟩, trivial⟩ _ ?_).1
  intro x hx
  obtain ⟨_, rfl⟩ := List.mem_replicate.1 hx
  exact ⟨⟨100, rfl, by norm_num⟩, ⟨200, rfl, by norm_num⟩, ⟨1, rfl, by norm_num⟩, ⟨1, rfl, by norm_num⟩, ⟨1, rfl, by norm_num⟩,
    by norm_num, by norm_num⟩

/-- A real number that the format represents. -/
def FlExact (f : Fmt) (q : Rat) : Prop := f.round q = q ∧ |q| ≤ f.top

theorem ofReal_exact {f : Fmt} {q : Rat} (h : FlExact f q) : Fl.ofReal f q = .fin q := by
  unfold Fl.ofReal; rw [h.1, if_pos h.2]

theorem clip_clampF (lo hi q : Rat) (h : lo ≤ hi) : clip (.fin lo) (.fin hi) (.fin q) = .fin (Spec.PID.clamp lo hi q) := by
  unfold clip Spec.PID.clamp
  by_cases h1 : hi < q
  · have h2 : ¬ hi < lo := not_lt.2 h
    rw [min_eq_right (le_of_lt h1), max_eq_right h]
    simp [Fl.lt, h1, h2]
  · rw [min_eq_left (not_lt.1 h1)]
    by_cases h2 : q < lo
    · rw [max_eq_left (le_of_lt h2)]; simp [Fl.lt, h1, h2]
    · rw [max_eq_right (not_lt.1 h2)]; simp [Fl.lt, h1, h2]

theorem deadBand_abs (e t : Rat) : deadBand (.fin e) (.fin t) = decide (|e| ≤ t) := by
  unfold deadBand Fl.neg
  simp only [Fl.le, ← Bool.decide_and, ← Bool.decide_or]
  congr 1
  rw [eq_iff_iff]
  constructor
  · rintro (⟨h1, h2⟩ | ⟨h1, h2⟩)
    · rwa [abs_of_nonneg h2]
    · rw [abs_of_nonpos h2]; linarith
  · intro h
    obtain ⟨h1, h2⟩ := abs_le.1 h
    rcases le_total 0 e with h0 | h0
    · exact .inl ⟨h2, h0⟩
    · exact .inr ⟨h1, h0⟩

/-- **C113, the formula**: a call whose intermediate results the format represents gives the textbook result without any error. -/
theorem c113_formula (f : Fmt) (lo hi : Rat) (h : lo ≤ hi) (acc last sp fb tol kp ki kd : Rat) (dt : Nat) (hdt : 0 < dt)
    (he : FlExact f (sp - fb))
    (hin : ∀ e base, e = (if |sp - fb| ≤ tol then 0 else sp - fb) → base = (if |sp - fb| ≤ tol then 0 else acc) →
      FlExact f (e * kp) ∧ FlExact f (e * dt) ∧ FlExact f (e * dt * ki) ∧ FlExact f (base + e * dt * ki) ∧ FlExact f (e - last) ∧
        FlExact f ((e - last) * kd) ∧ FlExact f ((e - last) * kd / dt) ∧
        ∀ i, i = (if ki = 0 then base else Spec.PID.clamp lo hi (base + e * dt * ki)) →
          FlExact f (e * kp + i) ∧ FlExact f (e * kp + i + (e - last) * kd / dt)) :
    PIDFloat.process f (.fin lo) (.fin hi) noFilter ⟨.fin fb, .fin tol, dt, .fin sp, .fin kp, .fin ki, .fin kd⟩
        (⟨.fin acc, .fin last, ()⟩ : Mem Unit) =
      let (v, i, e) := Spec.PID.step lo hi acc last sp fb tol dt kp ki kd
      (.fin v, ⟨.fin i, .fin e, ()⟩) := by
  have hsub : Fl.sub f (.fin sp) (.fin fb) = .fin (sp - fb) := by
    have : Fl.sub f (.fin sp) (.fin fb) = Fl.ofReal f (sp + -fb) := rfl
    rw [this, ← sub_eq_add_neg]; exact ofReal_exact he
  have herr : PIDFloat.calcError f ⟨.fin fb, .fin tol, dt, .fin sp, .fin kp, .fin ki, .fin kd⟩ (⟨.fin acc, .fin last, ()⟩ : Mem Unit) =
      (.fin (if |sp - fb| ≤ tol then 0 else sp - fb), ⟨.fin (if |sp - fb| ≤ tol then 0 else acc), .fin last, ()⟩) := by
    unfold PIDFloat.calcError
    simp only [hsub, deadBand_abs]
    by_cases hd : |sp - fb| ≤ tol <;> simp [hd]
  obtain ⟨h1, h2, h3, h4, h5, h6, h7, h8⟩ := hin _ _ rfl rfl
  have h8' := h8 _ rfl
  unfold PIDFloat.process Spec.PID.step
  simp only [herr]
  generalize (if |sp - fb| ≤ tol then 0 else sp - fb) = e at *
  generalize (if |sp - fb| ≤ tol then 0 else acc) = base at *
  have e1 : base + ki * e * dt = base + e * dt * ki := by ring
  have e2 : kp * e = e * kp := mul_comm _ _
  have e3 : kd * (e - last) / dt = (e - last) * kd / dt := by rw [mul_comm kd]
  rw [e1, e2, e3]
  have hP : PIDFloat.calcP f (.fin e) (.fin kp) = .fin (e * kp) := by
    unfold PIDFloat.calcP
    by_cases hk : kp = 0
    · simp [Fl.isZero, hk]
    · simp only [Fl.isZero, hk, decide_false, Bool.false_eq_true, if_false]; exact ofReal_exact h1
  have hI : PIDFloat.calcI f (.fin lo) (.fin hi) (.fin e) dt (.fin ki) (⟨.fin base, .fin last, ()⟩ : Mem Unit) =
      (.fin (if ki = 0 then base else Spec.PID.clamp lo hi (base + e * dt * ki)),
        ⟨.fin (if ki = 0 then base else Spec.PID.clamp lo hi (base + e * dt * ki)), .fin last, ()⟩) := by
    unfold PIDFloat.calcI
    by_cases hk : ki = 0
    · simp [Fl.isZero, hk]
    · simp only [Fl.isZero, hk, decide_false, Bool.false_eq_true, if_false]
      have m1 : Fl.mul f (.fin e) (.fin dt) = .fin (e * dt) := ofReal_exact h2
      have m2 : Fl.mul f (.fin (e * dt)) (.fin ki) = .fin (e * dt * ki) := ofReal_exact h3
      have m3 : Fl.add f (.fin base) (.fin (e * dt * ki)) = .fin (base + e * dt * ki) := ofReal_exact h4
      rw [m1, m2, m3, clip_clampF _ _ _ h]
  rw [hP, hI]
  generalize (if ki = 0 then base else Spec.PID.clamp lo hi (base + e * dt * ki)) = i at *
  have hD : PIDFloat.calcD f noFilter (.fin e) dt (.fin kd) (⟨.fin i, .fin last, ()⟩ : Mem Unit) =
      (.fin ((e - last) * kd / dt), ⟨.fin i, .fin e, ()⟩) := by
    unfold PIDFloat.calcD noFilter
    by_cases hk : kd = 0
    · simp [Fl.isZero, hk]
    · simp only [Fl.isZero, hk, decide_false, Bool.false_eq_true, if_false]
      have m1 : Fl.sub f (.fin e) (.fin last) = .fin (e - last) := by
        have : Fl.sub f (.fin e) (.fin last) = Fl.ofReal f (e + -last) := rfl
        rw [this, ← sub_eq_add_neg]; exact ofReal_exact h5
      have m2 : Fl.mul f (.fin (e - last)) (.fin kd) = .fin ((e - last) * kd) := ofReal_exact h6
      have m3 : Fl.divNat f (.fin ((e - last) * kd)) dt = .fin ((e - last) * kd / dt) := by
        simp only [Fl.divNat, if_neg (Nat.pos_iff_ne_zero.1 hdt)]; exact ofReal_exact h7
      rw [m1, m2, m3]
  simp only [hD]
  have s1 : Fl.add f (.fin (e * kp)) (.fin i) = .fin (e * kp + i) := ofReal_exact h8'.1
  have s2 : Fl.add f (.fin (e * kp + i)) (.fin ((e - last) * kd / dt)) = .fin (e * kp + i + (e - last) * kd / dt) := ofReal_exact h8'.2
  rw [s1, s2, clip_clampF _ _ _ h]

/-- Set point 120, feedback 100, tolerance 1/2, gains 2, 1/64 and 16, 32 ticks since a call with error 28: 40 + 10 - 4. -/
example : PIDFloat.process binary32 (.fin 0) (.fin 255) noFilter
    ⟨.fin 100, .fin (1 / 2), 32, .fin 120, .fin 2, .fin (1 / 64), .fin 16⟩ (⟨.fin 0, .fin 28, ()⟩ : Mem Unit) =
      let (v, i, e) := Spec.PID.step 0 255 0 28 120 100 (1 / 2) 32 2 (1 / 64) 16
      (.fin v, ⟨.fin i, .fin e, ()⟩) := by
  refine c113_formula binary32 0 255 (by norm_num) 0 28 120 100 (1 / 2) 2 (1 / 64) 16 32 (by norm_num) ?_ ?_
  · unfold FlExact; decide +kernel
  · intro e base h1 h2
    have h1' : e = 20 := by rw [h1]; decide +kernel
    have h2' : base = 0 := by rw [h2]; decide +kernel
    subst h1' h2'
    refine ⟨?_, ?_, ?_, ?_, ?_, ?_, ?_, ?_⟩
    case refine_8 =>
      intro i hi
      have hi' : i = 10 := by rw [hi]; decide +kernel
      subst hi'
      unfold FlExact; decide +kernel
    all_goals (unfold FlExact; decide +kernel)

/-- **C113 fails without elapsed time**: two calls within one tick of the clock, with a D gain and the same feedback, give 0 / 0. -/
theorem c113_no_time_fails : (PIDFloat.run binary32 (.fin 0) (.fin 255) noFilter (⟨.fin 0, .fin 0, ()⟩ : Mem Unit)
    [⟨.fin 100, .fin (1 / 2), 20, .fin 200, .fin 1, .fin 0, .fin 1⟩, ⟨.fin 100, .fin (1 / 2), 0, .fin 200, .fin 1, .fin 0, .fin 1⟩]).1 =
    [.fin 105, .nan] := by decide +kernel

theorem nan_acc {F : Type} (f : Fmt) (lo hi : Fl) (filter : F → Fl → Nat → Fl × F) (x : Input) (m : Mem F) (hm : m.acc = .nan)
    (hd : deadBand (Fl.sub f x.setPoint x.feedback) x.largest = false) :
    (PIDFloat.process f lo hi filter x m).1 = .nan ∧ (PIDFloat.process f lo hi filter x m).2.acc = .nan := by
  have hc : ∀ a b, clip a b .nan = .nan := by intro a b; cases a <;> cases b <;> rfl
  have hl : ∀ v, Fl.add f .nan v = .nan := by intro v; cases v <;> rfl
  have hr : ∀ v, Fl.add f v .nan = .nan := by intro v; cases v <;> rfl
  have hi1 : ∀ e d b, (PIDFloat.calcI f lo hi e d b m).1 = .nan ∧ (PIDFloat.calcI f lo hi e d b m).2.acc = .nan := by
    intro e d b
    unfold PIDFloat.calcI
    split_ifs
    · exact ⟨hm, hm⟩
    · simp only [hm, hl, hc, and_self]
  unfold PIDFloat.process PIDFloat.calcError
  simp only [hd, Bool.false_eq_true, if_false]
  rw [(hi1 _ _ _).1, hr, hl, hc]
  exact ⟨rfl, (hi1 _ _ _).2⟩

/-- **C113, NaN does not go away**: once the integrator is NaN every further value is NaN, until an error falls in the dead band. -/
theorem c113_nan_stays {F : Type} (f : Fmt) (lo hi : Fl) (filter : F → Fl → Nat → Fl × F) (m : Mem F) (hm : m.acc = .nan)
    (xs : List Input) (hd : ∀ x ∈ xs, deadBand (Fl.sub f x.setPoint x.feedback) x.largest = false) :
    (PIDFloat.run f lo hi filter m xs).1 = List.replicate xs.length .nan ∧ (PIDFloat.run f lo hi filter m xs).2.acc = .nan := by
  induction xs generalizing m with
  | nil => exact ⟨rfl, hm⟩
  | cons x xs ih =>
    have h1 := nan_acc f lo hi filter x m hm (hd x (List.mem_cons_self ..))
    have h2 := ih _ h1.2 (fun y hy => hd y (List.mem_cons_of_mem _ hy))
    simp only [PIDFloat.run, List.length_cons, List.replicate_succ]
    exact ⟨by rw [h1.1, h2.1], h2.2⟩

example := c113_nan_stays binary32 (.fin 0) (.fin 255) noFilter (⟨.nan, .fin 0, ()⟩ : Mem Unit) rfl [⟨.fin 100, .fin (1 / 2), 20, .fin 200, .fin 1, .fin 1, .fin 1⟩]
  (by simp only [List.forall_mem_cons]; exact ⟨by decide +kernel, by simp⟩)

/-- **C113 fails after one bad reading**: one feedback that is not a number, and all later values are NaN although the feedback is good. -/
theorem c113_bad_reading_fails (n : Nat) : (PIDFloat.run binary32 (.fin 0) (.fin 255) noFilter (⟨.fin 0, .fin 0, ()⟩ : Mem Unit)
    (⟨.nan, .fin (1 / 2), 20, .fin 200, .fin 1, .fin 1, .fin 0⟩ ::
      List.replicate n ⟨.fin 100, .fin (1 / 2), 20, .fin 200, .fin 1, .fin 1, .fin 0⟩)).1 = List.replicate (n + 1) .nan := by
  have h : ∀ x : Input, x ∈ List.replicate n ⟨.fin 100, .fin (1 / 2), 20, .fin 200, .fin 1, .fin 1, .fin 0⟩ →
      deadBand (Fl.sub binary32 x.setPoint x.feedback) x.largest = false := by
    intro x hx
    obtain ⟨_, rfl⟩ := List.mem_replicate.1 hx
    decide +kernel
  simp only [PIDFloat.run]
  have h1 : (PIDFloat.process binary32 (.fin 0) (.fin 255) noFilter ⟨.nan, .fin (1 / 2), 20, .fin 200, .fin 1, .fin 1, .fin 0⟩
      (⟨.fin 0, .fin 0, ()⟩ : Mem Unit)).1 = .nan := by decide +kernel
  have h2 : (PIDFloat.process binary32 (.fin 0) (.fin 255) noFilter ⟨.nan, .fin (1 / 2), 20, .fin 200, .fin 1, .fin 1, .fin 0⟩
      (⟨.fin 0, .fin 0, ()⟩ : Mem Unit)).2.acc = .nan := by decide +kernel
  have h3 := c113_nan_stays binary32 (.fin 0) (.fin 255) noFilter _ h2 _ h
  rw [h1, h3.1, List.length_replicate, List.replicate_succ]

/-- **C113, recovery**: a call in the dead band makes the memory finite again (no low pass filter). -/
theorem c113_recovers (f : Fmt) (hf : FlFmt f) (lo hi : Rat) (h : lo ≤ hi) (hl : |lo| ≤ 10 ^ 9) (hh : |hi| ≤ 10 ^ 9) (m : Mem Unit) (x : Input)
    (hx : FlSane x) (hd : deadBand (Fl.sub f x.setPoint x.feedback) x.largest = true) :
    FlMem (fun _ => True) (PIDFloat.process f (.fin lo) (.fin hi) noFilter x m).2 ∧
      (PIDFloat.process f (.fin lo) (.fin hi) noFilter x m).2.last = .fin 0 := by
  obtain ⟨_, _, _, hi', _, _, hdt'⟩ := hx
  have hn : FlAtMost (2 ^ 16) (.fin (x.delta : Rat)) := by
    refine ⟨_, rfl, ?_⟩
    rw [abs_of_nonneg (Nat.cast_nonneg _)]
    exact_mod_cast le_of_lt hdt'
  unfold PIDFloat.process PIDFloat.calcError PIDFloat.calcD noFilter PIDFloat.calcI
  simp only [hd, if_true]
  refine ⟨⟨?_, ⟨0, rfl, by norm_num⟩, trivial⟩, trivial⟩
  split_ifs
  · exact ⟨0, rfl, by norm_num⟩
  · have h0 : FlAtMost 0 (.fin 0) := ⟨0, rfl, by norm_num⟩
    have h1 := mul_fin hf h0 hn (by norm_num)
    have h2 := mul_fin hf h1 hi' (by norm_num)
    have h3 := add_fin hf h0 h2 (by norm_num)
    exact (clip_fin h h3).atMost hl hh

example : deadBand (Fl.sub binary32 (.fin 200) (.fin (1997 / 10))) (.fin (1 / 2)) = true := by decide +kernel

/-- The full claim, for every history with finite inputs: false. -/
theorem c113_full_claim_is_false : ¬ ∀ (m : Mem Unit) (xs : List Input), FlMem (fun _ => True) m →
    (∀ x ∈ xs, (∃ q, x.feedback = .fin q) ∧ (∃ q, x.setPoint = .fin q) ∧ x.delta < 2 ^ 16) →
    ∀ v ∈ (PIDFloat.run binary32 (.fin 0) (.fin 255) noFilter m xs).1, FlInRange 0 255 v := by
  intro h
  have := h ⟨.fin 0, .fin 0, ()⟩ [⟨.fin 100, .fin (1 / 2), 20, .fin 200, .fin 1, .fin 0, .fin 1⟩,
    ⟨.fin 100, .fin (1 / 2), 0, .fin 200, .fin 1, .fin 0, .fin 1⟩] ⟨⟨0, rfl, by norm_num⟩, ⟨0, rfl, by norm_num⟩, trivial⟩
    (by intro x hx; simp only [List.mem_cons, List.not_mem_nil, or_false] at hx; rcases hx with rfl | rfl <;> exact ⟨⟨_, rfl⟩, ⟨_, rfl⟩, by norm_num⟩)
    .nan (by rw [c113_no_time_fails]; simp)
  obtain ⟨q, hq, _⟩ := this
  cases hq

end Atl.Props
