import Verif.Props.PIDFloat

/- C113 without a limit on the numbers: exactly when the value is NaN, and a controller without D gain, which never is. -/
namespace Atl.Props
open Atl Atl.PIDFloat

/-- What a program gives a controller when nothing has gone wrong yet: set point and reading are numbers (not infinities of the same sign), gains are finite and time
    has passed. No limit on the size of any of them. -/
structure FlUsable (x : Input) : Prop where
  setPoint : x.setPoint ≠ .nan
  feedback : x.feedback ≠ .nan
  apart : ∀ b, ¬ (x.setPoint = .inf b ∧ x.feedback = .inf b)
  gains : ∃ kp ki kd, x.biasP = .fin kp ∧ x.biasI = .fin ki ∧ x.biasD = .fin kd
  time : 0 < x.delta

theorem ofReal_nan (f : Fmt) (q : Rat) : Fl.ofReal f q ≠ .nan := by unfold Fl.ofReal; split_ifs <;> simp

theorem sub_nan (f : Fmt) (a b : Fl) : Fl.sub f a b = .nan ↔ a = .nan ∨ b = .nan ∨ ∃ s, a = .inf s ∧ b = .inf s := by
  cases a with
  | nan => simp [Fl.sub, Fl.add]
  | inf s =>
    cases b with
    | nan => simp [Fl.sub, Fl.add, Fl.neg]
    | inf t => cases s <;> cases t <;> simp [Fl.sub, Fl.add, Fl.neg]
    | fin q => simp [Fl.sub, Fl.add, Fl.neg]
  | fin p =>
    cases b with
    | nan => simp [Fl.sub, Fl.add, Fl.neg]
    | inf t => simp [Fl.sub, Fl.add, Fl.neg]
    | fin q => simpa [Fl.sub, Fl.add, Fl.neg] using ofReal_nan f _

theorem add_fin_nan (f : Fmt) (a : Fl) (q : Rat) : (Fl.add f a (.fin q) = .nan ↔ a = .nan) ∧ (Fl.add f (.fin q) a = .nan ↔ a = .nan) := by
  cases a <;> simp [Fl.add, ofReal_nan]

theorem mul_fin_nan (f : Fmt) (a : Fl) (q : Rat) (hq : q ≠ 0) : Fl.mul f a (.fin q) = .nan ↔ a = .nan := by
  cases a <;> simp [Fl.mul, ofReal_nan, hq]

theorem divNat_nan (f : Fmt) (a : Fl) (n : Nat) (hn : 0 < n) : Fl.divNat f a n = .nan ↔ a = .nan := by
  cases a <;> simp [Fl.divNat, ofReal_nan, Nat.pos_iff_ne_zero.1 hn]

theorem clip_nan {lo hi : Rat} (h : lo ≤ hi) (v : Fl) :
    (clip (.fin lo) (.fin hi) v = .nan ↔ v = .nan) ∧ (v ≠ .nan → FlInRange lo hi (clip (.fin lo) (.fin hi) v)) := by
  cases v with
  | nan => exact ⟨iff_of_true rfl rfl, fun h => absurd rfl h⟩
  | fin q =>
    have := clip_fin h (v := .fin q) ⟨q, rfl, le_refl _⟩
    refine ⟨?_, fun _ => this⟩
    obtain ⟨r, e, _⟩ := this
    simp [e]
  | inf b =>
    cases b with
    | true => exact ⟨by simp [clip, Fl.lt], fun _ => ⟨lo, by simp [clip, Fl.lt], le_refl _, h⟩⟩
    | false => exact ⟨by simp [clip, Fl.lt, not_lt.2 h], fun _ => ⟨hi, by simp [clip, Fl.lt, not_lt.2 h], h, le_refl _⟩⟩

/-- The error the controller works with. -/
def FlError (f : Fmt) (x : Input) (e : Fl) : Prop :=
  e = if deadBand (Fl.sub f x.setPoint x.feedback) x.largest then .fin 0 else Fl.sub f x.setPoint x.feedback

/-- **C113, exactly**: with usable inputs of any size and a finite integrator, the value is NaN exactly if there is a D gain and the previous error is NaN,
    or the previous and the present (filtered) error are infinite alike, or the sum of the P and I actions and the D action are infinite with different signs. Otherwise it is in the range.
    The integrator stays finite in every case. -/
theorem c113_nan_exact {F : Type} (f : Fmt) (lo hi : Rat) (h : lo ≤ hi) (filter : F → Fl → Nat → Fl × F)
    (x : Input) (hx : FlUsable x) (m : Mem F) (hm : ∃ q, m.acc = .fin q) (e e' p d : Fl) (he : FlError f x e) (he' : e' = (filter m.filt e x.delta).1)
    (hf' : x.biasD ≠ .fin 0 → e' ≠ .nan)
    (hp : p = if x.biasP = .fin 0 then .fin 0 else Fl.mul f e x.biasP) (hd : d = Fl.divNat f (Fl.mul f (Fl.sub f e' m.last) x.biasD) x.delta) :
    ((PIDFloat.process f (.fin lo) (.fin hi) filter x m).1 = .nan ↔
      x.biasD ≠ .fin 0 ∧ (m.last = .nan ∨ (∃ b, e' = .inf b ∧ m.last = .inf b) ∨ ∃ b, Fl.add f p (PIDFloat.process f (.fin lo) (.fin hi) filter x m).2.acc = .inf b ∧ d = .inf (!b))) ∧
    ((PIDFloat.process f (.fin lo) (.fin hi) filter x m).1 = .nan ∨ FlInRange lo hi (PIDFloat.process f (.fin lo) (.fin hi) filter x m).1) ∧
    ∃ q, (PIDFloat.process f (.fin lo) (.fin hi) filter x m).2.acc = .fin q := by
  obtain ⟨hs, hb, ha, ⟨kp, ki, kd, gp, gi, gd⟩, ht⟩ := hx
  obtain ⟨q, hm⟩ := hm
  have hsub : Fl.sub f x.setPoint x.feedback ≠ .nan := by
    rw [ne_eq, sub_nan]
    rintro (h | h | ⟨b, h⟩)
    · exact hs h
    · exact hb h
    · exact ha b h
  have hen : e ≠ .nan := by
    rw [he]
    split_ifs
    · simp
    · exact hsub
  -- error
  obtain ⟨m1, e1, m1a, m1l, m1f⟩ : ∃ m1, PIDFloat.calcError f x m = (e, m1) ∧ (∃ q, m1.acc = .fin q) ∧ m1.last = m.last ∧ m1.filt = m.filt := by
    unfold FlError at he
    unfold PIDFloat.calcError
    by_cases hdb : deadBand (Fl.sub f x.setPoint x.feedback) x.largest
    · rw [if_pos hdb] at he
      simp only [hdb, if_true, he]
      exact ⟨_, rfl, ⟨0, rfl⟩, rfl, rfl⟩
    · rw [if_neg hdb] at he
      simp only [hdb, he]
      exact ⟨_, rfl, ⟨q, hm⟩, rfl, rfl⟩
  -- P
  have hP : PIDFloat.calcP f e x.biasP = p := by
    rw [hp, gp]
    by_cases k : kp = 0 <;> simp [PIDFloat.calcP, Fl.isZero, k]
  have hPn : p ≠ .nan := by
    rw [hp, gp]
    by_cases k : kp = 0
    · simp [k]
    · rw [if_neg (by simpa using k), ne_eq, mul_fin_nan f e kp k]
      exact hen
  -- I
  obtain ⟨i, m2, e2, m2a, m2l, m2f⟩ : ∃ (i : Rat) (m2 : Mem F), PIDFloat.calcI f (.fin lo) (.fin hi) e x.delta x.biasI m1 = (.fin i, m2) ∧ m2.acc = .fin i ∧
      m2.last = m.last ∧ m2.filt = m.filt := by
    obtain ⟨a, m1a⟩ := m1a
    unfold PIDFloat.calcI
    rw [gi]
    by_cases k : ki = 0
    · simp only [Fl.isZero, k, decide_true, if_true]
      exact ⟨a, m1, by rw [m1a], m1a, m1l, m1f⟩
    · simp only [Fl.isZero, k, decide_false, Bool.false_eq_true, if_false]
      have ht' : (x.delta : Rat) ≠ 0 := by exact_mod_cast Nat.pos_iff_ne_zero.1 ht
      have hn : Fl.add f m1.acc (Fl.mul f (Fl.mul f e (.fin x.delta)) (.fin ki)) ≠ .nan := by
        rw [m1a, ne_eq, (add_fin_nan f _ a).2, mul_fin_nan f _ ki k, mul_fin_nan f _ _ ht']
        exact hen
      obtain ⟨r, hr, -⟩ := (clip_nan h _).2 hn
      exact ⟨r, { m1 with acc := .fin r }, by rw [hr], rfl, m1l, m1f⟩
  have hproc : PIDFloat.process f (.fin lo) (.fin hi) filter x m =
      (clip (.fin lo) (.fin hi) (Fl.add f (Fl.add f p (.fin i)) (PIDFloat.calcD f filter e x.delta x.biasD m2).1),
        (PIDFloat.calcD f filter e x.delta x.biasD m2).2) := by
    simp only [PIDFloat.process, e1, hP, e2]
  rw [hproc]
  have hD : (PIDFloat.calcD f filter e x.delta x.biasD m2).1 = if x.biasD = .fin 0 then .fin 0 else d := by
    rw [hd, he', gd]
    by_cases k : kd = 0 <;> simp [PIDFloat.calcD, Fl.isZero, k, m2l, m2f]
  have hacc : (PIDFloat.calcD f filter e x.delta x.biasD m2).2.acc = .fin i := by simp only [PIDFloat.calcD]; exact m2a
  refine ⟨?_, ?_, i, hacc⟩
  · simp only [(clip_nan h _).1, hD, hacc]
    by_cases k : kd = 0
    · rw [gd, k]
      simp only [if_true, (add_fin_nan f _ _).1, ne_eq, not_true, false_and, iff_false]
      exact hPn
    · have gd0 : x.biasD ≠ .fin 0 := by rw [gd]; simpa using k
      rw [if_neg gd0]
      have he'n : e' ≠ .nan := hf' gd0
      have hdn : d = .nan ↔ m.last = .nan ∨ ∃ b, e' = .inf b ∧ m.last = .inf b := by
        rw [hd, gd, divNat_nan f _ _ ht, mul_fin_nan f _ kd k, sub_nan]
        simp [he'n]
      have hpi : Fl.add f p (.fin i) ≠ .nan := by rw [ne_eq, (add_fin_nan f _ _).1]; exact hPn
      have hs : Fl.add f (Fl.add f p (.fin i)) d = .nan ↔ d = .nan ∨ ∃ b, Fl.add f p (.fin i) = .inf b ∧ d = .inf (!b) := by
        generalize Fl.add f p (.fin i) = s at hpi
        cases s with
        | nan => exact absurd rfl hpi
        | fin r => cases d <;> simp [Fl.add, ofReal_nan]
        | inf b =>
          cases d with
          | nan => simp [Fl.add]
          | fin u => simp [Fl.add]
          | inf c => cases b <;> cases c <;> simp [Fl.add]
      rw [hs, hdn]
      simp only [gd0, ne_eq, not_false_eq_true, true_and, or_assoc]
  · rcases eq_or_ne (Fl.add f (Fl.add f p (.fin i)) (PIDFloat.calcD f filter e x.delta x.biasD m2).1) .nan with hn | hn
    · left; exact (clip_nan h _).1.2 hn
    · right; exact (clip_nan h _).2 hn

/-- **C113, without D gain**: every value is in the range, for every format, every filter and every history of usable inputs, whatever their size (errors and P actions that
    overflow included). -/
theorem c113_no_derivative {F : Type} (f : Fmt) (lo hi : Rat) (h : lo ≤ hi) (filter : F → Fl → Nat → Fl × F) (m : Mem F) (hm : ∃ q, m.acc = .fin q)
    (xs : List Input) (hx : ∀ x ∈ xs, FlUsable x ∧ x.biasD = .fin 0) :
    ∀ v ∈ (PIDFloat.run f (.fin lo) (.fin hi) filter m xs).1, FlInRange lo hi v := by
  induction xs generalizing m with
  | nil => intro v hv; simp [PIDFloat.run] at hv
  | cons x xs ih =>
    obtain ⟨hu, hd⟩ := hx x (List.mem_cons_self ..)
    obtain ⟨h1, h2, h3⟩ := c113_nan_exact f lo hi h filter x hu m hm _ _ _ _ rfl rfl (fun hn => absurd hd hn) rfl rfl
    intro v hv
    simp only [PIDFloat.run, List.mem_cons] at hv
    rcases hv with rfl | hv
    · rcases h2 with h2 | h2
      · exact absurd hd (h1.1 h2).1
      · exact h2
    · exact ih _ h3 (fun y hy => hx y (List.mem_cons_of_mem _ hy)) v hv

/- A PI controller whose set point and reading are both near the end of `float`, 3e38 and -3e38: the error is infinite, the value is the upper limit. -/
example : ∀ v ∈ (PIDFloat.run binary32 (.fin 0) (.fin 255) noFilter (⟨.fin 0, .fin 0, ()⟩ : Mem Unit)
    [⟨.fin (-3 * 10 ^ 38), .fin 1, 20, .fin (3 * 10 ^ 38), .fin 2, .fin 1, .fin 0⟩]).1, FlInRange 0 255 v :=
  c113_no_derivative _ _ _ (by norm_num) _ _ ⟨0, rfl⟩ _ (by
    intro x hx
    simp only [List.mem_singleton] at hx
    subst hx
    exact ⟨⟨by simp, by simp, by simp, ⟨_, _, _, rfl, rfl, rfl⟩, by norm_num⟩, rfl⟩)

/-- **C113 fails** with a D gain when two errors in a row overflow, for finite set points and readings: the second value is NaN. The next one,
    with a good reading, is the lower limit whatever the error, because the remembered error is infinite; then all is well again. -/
theorem c113_overflow_fails : (PIDFloat.run binary32 (.fin 0) (.fin 255) noFilter (⟨.fin 0, .fin 0, ()⟩ : Mem Unit)
    [⟨.fin (-3 * 10 ^ 38), .fin 1, 20, .fin (3 * 10 ^ 38), .fin 1, .fin 0, .fin 1⟩, ⟨.fin (-3 * 10 ^ 38), .fin 1, 20, .fin (3 * 10 ^ 38), .fin 1, .fin 0, .fin 1⟩,
     ⟨.fin 100, .fin 1, 20, .fin 200, .fin 1, .fin 0, .fin 1⟩, ⟨.fin 100, .fin 1, 20, .fin 200, .fin 1, .fin 0, .fin 1⟩]).1 =
    [.fin 255, .nan, .fin 0, .fin 100] := by decide +kernel

end Atl.Props
