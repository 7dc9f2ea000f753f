import Verif.Props.PID

/- C64 for `int` on AVR: what the whole of Process computes. -/
namespace Atl.Props
open Atl Atl.PID Atl.Range Atl.Spec.PID

/-! ### Specification: the textbook step as a 16-bit unsigned machine performs it -/

/-- The number from -32768 to 32767 that differs by a multiple of 65536. -/
def wrap16 (x : Int) : Int := (x + 32768) % 65536 - 32768

/-- A quotient in `unsigned int`: a negative numerator has 65536 added to it first (and gets it back if the divisor is 1). -/
def quot16 (n : Int) (dt : Nat) : Int := if 0 ≤ n then n / dt else if dt = 1 then n else (65536 + n) / dt

/-- `stepInt` with these two. -/
def stepInt16 (lo hi acc last sp fb tol : Int) (dt : Nat) (kp ki kd : Int) : Int × Int × Int :=
  let dead := |sp - fb| ≤ tol
  let e := if dead then 0 else sp - fb
  let base := if dead then 0 else acc
  let i := if ki = 0 then base else clampInt lo hi (wrap16 (base + e * dt * ki))
  (clampInt lo hi (e * kp + i + quot16 ((e - last) * kd) dt), i, e)

/-! ### The proof -/

theorem accum16 (a e b : Int) (dt : Nat) : int16.accum a e dt b = .ok (wrap16 (a + e * dt * b)) := by
  simp only [int16, Res.ok.injEq]
  have hmod : ∀ x : Int, ((toU 16 x : Nat) : Int) = x % 65536 := by intro x; unfold toU; omega
  have hS : ∀ x y : Int, x % 65536 = y % 65536 → toS 16 x = wrap16 y := by intro x y; unfold toS wrap16; omega
  apply hS
  push_cast [hmod]
  simp [Int.add_emod, Int.mul_emod]

theorem deriv16 {e l b v : Int} {dt : Nat} (h : int16.deriv e l dt b = .ok v) : v = quot16 ((e - l) * b) dt := by
  have h' := h
  simp only [int16] at h'
  obtain ⟨d, d1, h'⟩ := bind_eq_ok h'
  obtain ⟨n, n1, h'⟩ := bind_eq_ok h'
  obtain ⟨rfl, d2, d3⟩ := inBits_ok d1
  obtain ⟨rfl, n2, n3⟩ := inBits_ok n1
  have h0 : dt ≠ 0 := by
    rintro rfl
    simp at h'
  have f1 : FitsSigned 16 (e - l) := ⟨by norm_num at d2 ⊢; omega, by norm_num at d3 ⊢; omega⟩
  have f2 : FitsSigned 16 ((e - l) * b) := ⟨by norm_num at n2 ⊢; omega, by norm_num at n3 ⊢; omega⟩
  unfold quot16
  by_cases hp : 0 ≤ (e - l) * b
  · rw [if_pos hp, (c64_int16_partial e l b v dt h hp).1, Int.tdiv_eq_ediv_of_nonneg hp]
  · rw [if_neg hp]
    rw [(c64_int16_negative_fails e l b dt h0 f1 f2 (by omega)).1] at h
    exact (Res.ok.inj h).symm

theorem quot16_zero (dt : Nat) : quot16 0 dt = 0 := by simp [quot16]

/-- **C64, 16-bit values, exactly**: whatever `Process` computes with `T = int` on AVR without undefined behaviour, for every evaluation order: error, dead band,
    proportional action and clipping are the textbook's; the integral is taken modulo 65536 before it is clipped, and the derivative is divided as
    an unsigned number. -/
theorem c64_process16_exact (r : Rng Int) (hr : r.begin' ≤ r.end') (order : List Term) (ho : order.Perm [.P, .I, .D]) (x : Input Int) (m m' : Mem Int Unit)
    (v : Int) (h : process int16 r (fun f e _ => (e, f)) order x m = .ok (v, m')) :
    (v, m'.acc, m'.last) = stepInt16 r.begin' r.end' m.acc m.last x.setPoint x.feedback x.largest x.delta x.biasP x.biasI x.biasD := by
  rw [c36_order _ _ _ _ ho] at h
  unfold process at h
  obtain ⟨⟨e, m1⟩, h1, h⟩ := bind_eq_ok h
  -- the error
  have he : e = (if |x.setPoint - x.feedback| ≤ x.largest then 0 else x.setPoint - x.feedback) ∧
      m1 = { m with acc := if |x.setPoint - x.feedback| ≤ x.largest then 0 else m.acc } := by
    unfold calcError at h1
    obtain ⟨er, a1, h1⟩ := bind_eq_ok h1
    obtain ⟨rfl, _⟩ := inBits_ok a1
    have z : int16.zero = 0 := rfl
    rw [z] at h1
    split at h1
    · have hd : |x.setPoint - x.feedback| ≤ x.largest := by rw [abs_le]; omega
      simp only [Res.ok.injEq, Prod.mk.injEq] at h1
      simp [hd, ← h1.1, ← h1.2]
    · obtain ⟨nl, a2, h1⟩ := bind_eq_ok h1
      obtain ⟨rfl, _⟩ := inBits_ok a2
      split at h1
      · have hd : |x.setPoint - x.feedback| ≤ x.largest := by rw [abs_le]; omega
        simp only [Res.ok.injEq, Prod.mk.injEq] at h1
        simp [hd, ← h1.1, ← h1.2]
      · have hd : ¬ |x.setPoint - x.feedback| ≤ x.largest := by rw [abs_le]; omega
        simp only [Res.ok.injEq, Prod.mk.injEq] at h1
        simp [hd, ← h1.1, ← h1.2]
  obtain ⟨⟨t, m2⟩, h2, h⟩ := bind_eq_ok h
  simp only [evalTerms, evalTerm] at h2
  obtain ⟨⟨t1, m3⟩, b1, h2⟩ := bind_eq_ok h2
  obtain ⟨p, p1, b1⟩ := bind_eq_ok b1
  simp only [Res.ok.injEq, Prod.mk.injEq] at b1
  obtain ⟨rfl, rfl⟩ := b1
  have hp : p = e * x.biasP := by
    unfold calcP at p1
    split at p1
    · rename_i hb
      have hb : x.biasP = 0 := hb
      simp only [Res.ok.injEq] at p1
      rw [← p1, hb, mul_zero]; rfl
    · exact (inBits_ok p1).1
  obtain ⟨⟨t2, m4⟩, b2, h2⟩ := bind_eq_ok h2
  obtain ⟨⟨i, m5⟩, i1, b2⟩ := bind_eq_ok b2
  simp only [Res.ok.injEq, Prod.mk.injEq] at b2
  obtain ⟨rfl, rfl⟩ := b2
  have hi : i = (if x.biasI = 0 then m1.acc else clampInt r.begin' r.end' (wrap16 (m1.acc + e * x.delta * x.biasI))) ∧ m5 = { m1 with acc := i } := by
    unfold calcI at i1
    split at i1
    · rename_i hb
      have hb : x.biasI ≠ 0 := hb
      obtain ⟨a, a1, i1⟩ := bind_eq_ok i1
      simp only [Res.ok.injEq, Prod.mk.injEq] at i1
      rw [accum16] at a1
      cases a1
      rw [if_neg hb, ← clip_int r hr]
      exact ⟨i1.1.symm, by rw [← i1.2, i1.1]⟩
    · rename_i hb
      have hb : x.biasI = 0 := by
        by_cases hb' : x.biasI = 0
        · exact hb'
        · exact absurd hb' hb
      simp only [Res.ok.injEq, Prod.mk.injEq] at i1
      rw [if_pos hb]
      exact ⟨i1.1.symm, by rw [← i1.2, ← i1.1]⟩
  obtain ⟨⟨t3, m6⟩, b3, h2⟩ := bind_eq_ok h2
  simp only [Res.ok.injEq, Prod.mk.injEq] at h2
  obtain ⟨rfl, rfl⟩ := h2
  obtain ⟨⟨d, m7⟩, d1, b3⟩ := bind_eq_ok b3
  simp only [Res.ok.injEq, Prod.mk.injEq] at b3
  obtain ⟨rfl, rfl⟩ := b3
  have hd : d = quot16 ((e - m5.last) * x.biasD) x.delta ∧ m7 = { m5 with last := e } := by
    unfold calcD at d1
    simp only at d1
    split at d1
    · obtain ⟨w, w1, d1⟩ := bind_eq_ok d1
      simp only [Res.ok.injEq, Prod.mk.injEq] at d1
      obtain ⟨rfl, rfl⟩ := d1
      exact ⟨deriv16 w1, rfl⟩
    · rename_i hb
      have hb : x.biasD = 0 := by
        by_cases hb' : x.biasD = 0
        · exact hb'
        · exact absurd hb' hb
      simp only [Res.bind_ok, Res.ok.injEq, Prod.mk.injEq] at d1
      rw [← d1.1, ← d1.2, hb, mul_zero, quot16_zero]
      exact ⟨rfl, rfl⟩
  obtain ⟨a, a1, h⟩ := bind_eq_ok h
  obtain ⟨rfl, _⟩ := inBits_ok a1
  obtain ⟨s, s1, h⟩ := bind_eq_ok h
  obtain ⟨rfl, _⟩ := inBits_ok s1
  simp only [Res.ok.injEq, Prod.mk.injEq] at h
  obtain ⟨rfl, rfl⟩ := h
  obtain ⟨rfl, hm1⟩ := he
  obtain ⟨hi, hm5⟩ := hi
  obtain ⟨hd, rfl⟩ := hd
  simp only [clip_int r hr, stepInt16, Prod.mk.injEq]
  subst hm5
  subst hm1
  simp only [hp, hi, hd, and_self]

example := c64_process16_exact ⟨-1000, 1000⟩ (by decide) [.D, .P, .I] (by decide) ⟨3, 1, 10, 50, 2, -1, 7⟩ ⟨100, 60, ()⟩ ⟨-370, 47, ()⟩ 1000 (by decide +kernel)

/-- **C64, 16-bit values (partial)**: the whole of `Process` is the textbook step when the integral fits before it is clipped and the change of the error times its gain is not
    negative (or the time step is 1). Missing: a falling error and an overflowing integral. -/
theorem c64_process16_partial (r : Rng Int) (hr : r.begin' ≤ r.end') (order : List Term) (ho : order.Perm [.P, .I, .D]) (x : Input Int) (m m' : Mem Int Unit)
    (v : Int) (h : process int16 r (fun f e _ => (e, f)) order x m = .ok (v, m'))
    (hfit : ∀ e base, e = (if |x.setPoint - x.feedback| ≤ x.largest then 0 else x.setPoint - x.feedback) →
      base = (if |x.setPoint - x.feedback| ≤ x.largest then 0 else m.acc) →
      FitsSigned 16 (base + e * x.delta * x.biasI) ∧ (0 ≤ (e - m.last) * x.biasD ∨ x.delta = 1)) :
    (v, m'.acc, m'.last) = stepInt r.begin' r.end' m.acc m.last x.setPoint x.feedback x.largest x.delta x.biasP x.biasI x.biasD := by
  rw [c64_process16_exact r hr order ho x m m' v h]
  obtain ⟨⟨f1, f2⟩, hq⟩ := hfit _ _ rfl rfl
  simp only [stepInt16, stepInt]
  have hw : ∀ y : Int, FitsSigned 16 y → wrap16 y = y := by
    rintro y ⟨k1, k2⟩
    norm_num at k1 k2
    unfold wrap16; omega
  rw [hw _ ⟨f1, f2⟩]
  have hqq : ∀ n : Int, (0 ≤ n ∨ x.delta = 1) → quot16 n x.delta = n.tdiv x.delta := by
    intro n hn
    unfold quot16
    by_cases h0 : 0 ≤ n
    · rw [if_pos h0, Int.tdiv_eq_ediv_of_nonneg h0]
    · rw [if_neg h0, if_pos (hn.resolve_left h0), hn.resolve_left h0]; simp
  rw [hqq _ hq]

/-- Set point 50, feedback 3 (error 47 after 60: falling), tolerance 1: the derivative term of -91 / 10 is computed as 6544, so the output is 1000 instead of -285. -/
example : process int16 ⟨-1000, 1000⟩ (fun (f : Unit) e _ => (e, f)) [.D, .P, .I] ⟨3, 1, 10, 50, 2, -1, 7⟩ ⟨100, 60, ()⟩ = .ok (1000, ⟨-370, 47, ()⟩) := by decide +kernel

/-- A case of the partial theorem: the error rises from 40 to 47. -/
example : process int16 ⟨-1000, 1000⟩ (fun (f : Unit) e _ => (e, f)) [.P, .I, .D] ⟨3, 1, 10, 50, 2, -1, 7⟩ ⟨100, 40, ()⟩ = .ok (-272, ⟨-370, 47, ()⟩) := by decide +kernel

end Atl.Props
