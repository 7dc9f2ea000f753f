import Verif.Model.PID
import Verif.Spec.PID
import Mathlib.Order.Lattice
import Mathlib.Tactic.Linarith
import Mathlib.Tactic.Ring
import Mathlib.Tactic.FieldSimp
import Mathlib.Tactic.Positivity
import Mathlib.Tactic.SplitIfs

/- C35 ranges, C36 dead band and evaluation order, C64 derivative term. -/
namespace Atl.Props
open Atl Atl.PID Atl.Range

section General
variable {T F : Type} [LinearOrder T]

theorem clip_in (r : Rng T) (h : r.begin' ≤ r.end') (v : T) : r.begin' ≤ clipValue r v ∧ clipValue r v ≤ r.end' := by
  unfold clipValue
  simp only
  split_ifs with h1 h2 h2
  · exact ⟨le_refl _, h⟩
  · exact ⟨h, le_refl _⟩
  · exact ⟨le_refl _, h⟩
  · exact ⟨not_lt.1 h2, not_lt.1 h1⟩

/-- How a call to `Process` can end. -/
theorem process_inv {A : Arith T} {r : Rng T} {filter : F → T → Nat → T × F} {order : List Term} {x : Input T} {m m' : Mem T F} {v : T}
    (h : process A r filter order x m = .ok (v, m')) : ∃ w, v = clipValue r w := by
  simp only [process] at h
  cases h1 : calcError A x.setPoint x.feedback x.largest m with
  | ub => rw [h1] at h; cases h
  | ok y =>
    rw [h1] at h; simp only [Res.bind_ok] at h
    cases h2 : evalTerms A r filter x y.1 order (⟨A.zero, A.zero, A.zero⟩, y.2) with
    | ub => rw [h2] at h; cases h
    | ok z =>
      rw [h2] at h; simp only [Res.bind_ok] at h
      cases h3 : A.add z.1.p z.1.i with
      | ub => rw [h3] at h; cases h
      | ok a =>
        rw [h3] at h; simp only [Res.bind_ok] at h
        cases h4 : A.add a z.1.d with
        | ub => rw [h4] at h; cases h
        | ok b =>
          rw [h4] at h
          simp only [Res.bind_ok, Res.ok.injEq, Prod.mk.injEq] at h
          exact ⟨b, h.1.symm⟩

/-- **C35, output.** Whatever the arithmetic of `T` does, whatever the memory contained, in every history: each result is in the range. -/
theorem c35_output_in_range (A : Arith T) (r : Rng T) (hr : r.begin' ≤ r.end') (filter : F → T → Nat → T × F) (order : List Term)
    (m : Mem T F) (xs : List (Input T)) (out : List (T × Mem T F)) (h : run A r filter order m xs = .ok out) :
    ∀ y ∈ out, r.begin' ≤ y.1 ∧ y.1 ≤ r.end' := by
  induction xs generalizing m out with
  | nil => simp only [run, Res.ok.injEq] at h; subst h; simp
  | cons x xs ih =>
    simp only [run] at h
    cases h1 : process A r filter order x m with
    | ub => rw [h1] at h; cases h
    | ok y =>
      rw [h1] at h; simp only [Res.bind_ok] at h
      cases h2 : run A r filter order y.2 xs with
      | ub => rw [h2] at h; cases h
      | ok rest =>
        rw [h2] at h
        simp only [Res.bind_ok, Res.ok.injEq] at h
        subst h
        intro z hz
        rcases List.mem_cons.1 hz with rfl | hz
        · obtain ⟨w, e⟩ := process_inv (v := y.1) (m' := y.2) h1
          rw [e]; exact clip_in r hr w
        · exact ih y.2 rest h2 z hz

example := c35_output_in_range rat ⟨0, 255⟩ (by decide +kernel) (fun (f : Unit) e _ => (e, f)) [.I, .D, .P] ⟨0, 0, ()⟩ [⟨20, 1 / 2, 10, 100, 2, 1, 5⟩, ⟨90, 1 / 2, 10, 100, 2, 1, 5⟩]
  [(255, ⟨255, 80, ()⟩), (240, ⟨255, 10, ()⟩)] (by decide +kernel)

/-- The integrator after one of the three terms. -/
theorem evalTerm_acc {A : Arith T} {r : Rng T} {filter : F → T → Nat → T × F} {x : Input T} {e : T} {t : Term}
    {s s' : Terms T × Mem T F} (h : evalTerm A r filter x e t s = .ok s') :
    s'.2.acc = s.2.acc ∨ (t = .I ∧ x.biasI ≠ A.zero ∧ ∃ w, s'.2.acc = clipValue r w) := by
  cases t with
  | P =>
    simp only [evalTerm] at h
    cases hp : calcP A e x.biasP with
    | ub => rw [hp] at h; cases h
    | ok v => rw [hp] at h; simp only [Res.bind_ok, Res.ok.injEq] at h; subst h; exact .inl rfl
  | I =>
    simp only [evalTerm, calcI] at h
    split at h
    · rename_i hb
      cases ha : A.accum s.2.acc e x.delta x.biasI with
      | ub => rw [ha] at h; cases h
      | ok v => rw [ha] at h; simp only [Res.bind_ok, Res.ok.injEq] at h; subst h; exact .inr ⟨rfl, hb, v, rfl⟩
    · simp only [Res.bind_ok, Res.ok.injEq] at h; subst h; exact .inl rfl
  | D =>
    simp only [evalTerm, calcD] at h
    split at h
    · cases hd : A.deriv (filter s.2.filt e x.delta).1 s.2.last x.delta x.biasD with
      | ub => rw [hd] at h; cases h
      | ok v => rw [hd] at h; simp only [Res.bind_ok, Res.ok.injEq] at h; subst h; exact .inl rfl
    · simp only [Res.bind_ok, Res.ok.injEq] at h; subst h; exact .inl rfl

theorem evalTerms_acc {A : Arith T} {r : Rng T} {filter : F → T → Nat → T × F} {x : Input T} {e : T} (ts : List Term)
    {s s' : Terms T × Mem T F} (h : evalTerms A r filter x e ts s = .ok s') :
    s'.2.acc = s.2.acc ∨ (x.biasI ≠ A.zero ∧ ∃ w, s'.2.acc = clipValue r w) := by
  induction ts generalizing s with
  | nil => simp only [evalTerms, Res.ok.injEq] at h; subst h; exact .inl rfl
  | cons t ts ih =>
    simp only [evalTerms] at h
    cases h1 : evalTerm A r filter x e t s with
    | ub => rw [h1] at h; cases h
    | ok s1 =>
      rw [h1] at h; simp only [Res.bind_ok] at h
      rcases ih h with h2 | ⟨hb, w, h2⟩
      · rcases evalTerm_acc h1 with h3 | ⟨_, hb, w, h3⟩
        · exact .inl (h2.trans h3)
        · exact .inr ⟨hb, w, h2.trans h3⟩
      · exact .inr ⟨hb, w, h2⟩

theorem calcError_acc {A : Arith T} {sp fb tol e : T} {m m' : Mem T F} (h : calcError A sp fb tol m = .ok (e, m')) :
    m'.acc = m.acc ∨ m'.acc = A.zero := by
  simp only [calcError] at h
  cases h1 : A.sub sp fb with
  | ub => rw [h1] at h; cases h
  | ok d =>
    rw [h1] at h; simp only [Res.bind_ok] at h
    split at h
    · simp only [Res.ok.injEq, Prod.mk.injEq] at h; rw [← h.2]; exact .inr rfl
    · cases h2 : A.neg tol with
      | ub => rw [h2] at h; cases h
      | ok n =>
        rw [h2] at h; simp only [Res.bind_ok] at h
        split at h <;> simp only [Res.ok.injEq, Prod.mk.injEq] at h <;> rw [← h.2]
        · exact .inr rfl
        · exact .inl rfl

/-- Integrator after one call. -/
theorem process_acc {A : Arith T} {r : Rng T} (hr : r.begin' ≤ r.end') {filter : F → T → Nat → T × F} {order : List Term} {x : Input T}
    {m m' : Mem T F} {v : T} (h : process A r filter order x m = .ok (v, m')) :
    (r.begin' ≤ m'.acc ∧ m'.acc ≤ r.end') ∨ m'.acc = m.acc ∨ m'.acc = A.zero := by
  simp only [process] at h
  cases h1 : calcError A x.setPoint x.feedback x.largest m with
  | ub => rw [h1] at h; cases h
  | ok y =>
    rw [h1] at h; simp only [Res.bind_ok] at h
    cases h2 : evalTerms A r filter x y.1 order (⟨A.zero, A.zero, A.zero⟩, y.2) with
    | ub => rw [h2] at h; cases h
    | ok z =>
      rw [h2] at h; simp only [Res.bind_ok] at h
      cases h3 : A.add z.1.p z.1.i with
      | ub => rw [h3] at h; cases h
      | ok a =>
        rw [h3] at h; simp only [Res.bind_ok] at h
        cases h4 : A.add a z.1.d with
        | ub => rw [h4] at h; cases h
        | ok b =>
          rw [h4] at h
          simp only [Res.bind_ok, Res.ok.injEq, Prod.mk.injEq] at h
          rw [← h.2]
          rcases evalTerms_acc order h2 with e | ⟨_, w, e⟩
          · rw [e]
            exact .inr (calcError_acc (e := y.1) (m' := y.2) h1)
          · rw [e]; exact .inl (clip_in r hr w)

/-- **C35, integrator (partial).** In every history, whatever the arithmetic: if the range contains zero and the memory starts inside the range,
    the integrator never leaves it. (Missing: ranges without zero and the uninitialised start value, see the counterexamples.) -/
theorem c35_integrator_partial (A : Arith T) (r : Rng T) (hz : r.begin' ≤ A.zero ∧ A.zero ≤ r.end') (filter : F → T → Nat → T × F)
    (order : List Term) (m : Mem T F) (hm : r.begin' ≤ m.acc ∧ m.acc ≤ r.end') (xs : List (Input T)) (out : List (T × Mem T F))
    (h : run A r filter order m xs = .ok out) : ∀ y ∈ out, r.begin' ≤ y.2.acc ∧ y.2.acc ≤ r.end' := by
  induction xs generalizing m out with
  | nil => simp only [run, Res.ok.injEq] at h; subst h; simp
  | cons x xs ih =>
    simp only [run] at h
    cases h1 : process A r filter order x m with
    | ub => rw [h1] at h; cases h
    | ok y =>
      rw [h1] at h; simp only [Res.bind_ok] at h
      have hy : r.begin' ≤ y.2.acc ∧ y.2.acc ≤ r.end' := by
        rcases process_acc (le_trans hz.1 hz.2) (v := y.1) (m' := y.2) h1 with e | e | e
        · exact e
        · rw [e]; exact hm
        · rw [e]; exact hz
      cases h2 : run A r filter order y.2 xs with
      | ub => rw [h2] at h; cases h
      | ok rest =>
        rw [h2] at h
        simp only [Res.bind_ok, Res.ok.injEq] at h
        subst h
        intro z hz'
        rcases List.mem_cons.1 hz' with rfl | hz'
        · exact hy
        · exact ih y.2 hy rest h2 z hz'

example := c35_integrator_partial rat ⟨0, 255⟩ (by decide +kernel) (fun (f : Unit) e _ => (e, f)) [.I, .D, .P] ⟨0, 0, ()⟩ (by decide +kernel)
  [⟨20, 1 / 2, 10, 100, 2, 1, 5⟩, ⟨90, 1 / 2, 10, 100, 2, 1, 5⟩] [(255, ⟨255, 80, ()⟩), (240, ⟨255, 10, ()⟩)] (by decide +kernel)

/-- **C36, evaluation order.** Whatever the arithmetic, the filter and the state: all evaluation orders give the same result and memory (and the
    same undefined behaviour). -/
theorem c36_order (A : Arith T) (r : Rng T) (filter : F → T → Nat → T × F) (order : List Term) (ho : order.Perm [.P, .I, .D])
    (x : Input T) (m : Mem T F) : process A r filter order x m = process A r filter [.P, .I, .D] x m := by
  have key : ∀ e m, evalTerms A r filter x e order (⟨A.zero, A.zero, A.zero⟩, m) =
      evalTerms A r filter x e [.P, .I, .D] (⟨A.zero, A.zero, A.zero⟩, m) := by
    intro e m
    have hcases : order = [.P, .I, .D] ∨ order = [.P, .D, .I] ∨ order = [.I, .P, .D] ∨ order = [.I, .D, .P] ∨
        order = [.D, .P, .I] ∨ order = [.D, .I, .P] := by
      have hl := ho.length_eq
      match order, hl with
      | [a, b, c], _ =>
        have : ∀ a b c : Term, [a, b, c].Perm [.P, .I, .D] → [a, b, c] = [.P, .I, .D] ∨ [a, b, c] = [.P, .D, .I] ∨
            [a, b, c] = [.I, .P, .D] ∨ [a, b, c] = [.I, .D, .P] ∨ [a, b, c] = [.D, .P, .I] ∨ [a, b, c] = [.D, .I, .P] := by
          intro a b c
          cases a <;> cases b <;> cases c <;> decide
        exact this a b c ho
    have hP : ∀ s, evalTerm A r filter x e .P s = (calcP A e x.biasP >>= fun v => .ok ({ s.1 with p := v }, s.2)) := fun _ => rfl
    cases hp : calcP A e x.biasP <;>
    cases ha : A.accum m.acc e x.delta x.biasI <;>
    cases hd : A.deriv (filter m.filt e x.delta).1 m.last x.delta x.biasD <;>
    rcases hcases with rfl | rfl | rfl | rfl | rfl | rfl <;>
    simp only [evalTerms, evalTerm, calcI, calcD, hp, Res.bind_ok, Res.bind_ub] <;>
    split_ifs <;> simp [ha, hd]
  simp only [process]
  cases h1 : calcError A x.setPoint x.feedback x.largest m with
  | ub => rfl
  | ok y => simp only [Res.bind_ok, key]

example := c36_order int32 ⟨-1000, 1000⟩ (fun (f : Unit) e _ => (e, f)) [.D, .P, .I] (by decide) ⟨3, 1, 10, 50, 2, -1, 7⟩ ⟨100, 60, ()⟩

/-- **C36, dead band in every arithmetic**, with every filter, evaluation order and time step (also 0): when the error, as the arithmetic finds it, is in the dead band, the call does
    what it would do with any other proportional gain (also none) and any other content of the integrator (also none); without I gain the integrator is then zero. -/
theorem c36_dead_band_any (A : Arith T) (h0 : ∀ b, A.mul A.zero b = .ok A.zero) (r : Rng T) (filter : F → T → Nat → T × F) (order : List Term) (x : Input T) (m : Mem T F)
    (e : T) (he : A.sub x.setPoint x.feedback = .ok e)
    (hdead : (A.zero ≤ e ∧ e ≤ x.largest) ∨ ∃ nl, A.neg x.largest = .ok nl ∧ nl ≤ e ∧ e ≤ A.zero) (p acc : T) :
    process A r filter order x m = process A r filter order { x with biasP := p } { m with acc := acc } ∧
    (x.biasI = A.zero → ∀ v m', process A r filter order x m = .ok (v, m') → m'.acc = A.zero) := by
  have hce : ∀ m : Mem T F, calcError A x.setPoint x.feedback x.largest m = .ok (A.zero, { m with acc := A.zero }) := by
    intro m
    unfold calcError
    rw [he]
    simp only [Res.bind_ok]
    by_cases h1 : e ≤ x.largest ∧ A.zero ≤ e
    · rw [if_pos h1]
    · rw [if_neg h1]
      rcases hdead with h | ⟨nl, h2, h3⟩
      · exact absurd ⟨h.2, h.1⟩ h1
      · rw [h2]; simp only [Res.bind_ok]; rw [if_pos h3]
  have hp : ∀ b, calcP A A.zero b = .ok A.zero := by
    intro b; unfold calcP; split
    · rfl
    · exact h0 b
  have hts : ∀ (p : T) (l : List Term) (s : Terms T × Mem T F),
      evalTerms A r filter { x with biasP := p } A.zero l s = evalTerms A r filter x A.zero l s := by
    intro p l
    induction l with
    | nil => intro s; rfl
    | cons t ts ih =>
      intro s
      have h1 : evalTerm A r filter { x with biasP := p } A.zero t s = evalTerm A r filter x A.zero t s := by
        cases t <;> simp only [evalTerm, hp]
      simp only [evalTerms, h1, ih]
  refine ⟨?_, ?_⟩
  · unfold process
    simp only [hce, Res.bind_ok, hts]
  · intro hi v m' h
    have hacc : ∀ (l : List Term) (s s' : Terms T × Mem T F), evalTerms A r filter x A.zero l s = .ok s' → s'.2.acc = s.2.acc := by
      intro l
      induction l with
      | nil => intro s s' h; simp only [evalTerms, Res.ok.injEq] at h; rw [h]
      | cons t ts ih =>
        intro s s' h
        simp only [evalTerms] at h
        cases ht : evalTerm A r filter x A.zero t s with
        | ub => rw [ht] at h; simp [Bind.bind, Res.bind] at h
        | ok s1 =>
          rw [ht, Res.bind_ok] at h
          rw [ih s1 s' h]
          cases t with
          | P => simp only [evalTerm, hp, Res.bind_ok, Res.ok.injEq] at ht; rw [← ht]
          | I => simp only [evalTerm, calcI, hi, ne_eq, not_true_eq_false, if_false, Res.bind_ok, Res.ok.injEq] at ht; rw [← ht]
          | D =>
            simp only [evalTerm, calcD] at ht
            by_cases hb : x.biasD = A.zero
            · simp only [hb, ne_eq, not_true_eq_false, if_false, Res.bind_ok, Res.ok.injEq] at ht; rw [← ht]
            · simp only [hb, ne_eq, not_false_eq_true, if_true] at ht
              cases hq : A.deriv (filter s.2.filt A.zero x.delta).1 s.2.last x.delta x.biasD with
              | ub => rw [hq] at ht; simp [Bind.bind, Res.bind] at ht
              | ok w => rw [hq] at ht; simp only [Res.bind_ok, Res.ok.injEq] at ht; rw [← ht]
    unfold process at h
    simp only [hce, Res.bind_ok] at h
    cases ht : evalTerms A r filter x A.zero order (⟨A.zero, A.zero, A.zero⟩, { m with acc := A.zero }) with
    | ub => rw [ht] at h; simp [Bind.bind, Res.bind] at h
    | ok s =>
      rw [ht] at h
      simp only [Res.bind_ok] at h
      have ha := hacc order _ _ ht
      cases h1 : A.add s.1.p s.1.i with
      | ub => rw [h1] at h; simp [Bind.bind, Res.bind] at h
      | ok a =>
        rw [h1, Res.bind_ok] at h
        cases h2 : A.add a s.1.d with
        | ub => rw [h2] at h; simp [Bind.bind, Res.bind] at h
        | ok w =>
          rw [h2, Res.bind_ok] at h
          simp only [Res.ok.injEq, Prod.mk.injEq] at h
          rw [← h.2]; exact ha

/-- `PID<int>` with a falling error of 2 and a tolerance of 3; the same call with a time step of 0. -/
example := c36_dead_band_any int16 (fun b => by simp [int16, inBits]) ⟨0, 255⟩ (fun (f : Unit) e _ => (e, f)) [.I, .D, .P] ⟨102, 3, 10, 100, 2, 0, 5⟩ ⟨7, 3, ()⟩ (-2) rfl
  (.inr ⟨-3, rfl, by decide, by decide⟩) 40 99
example := c36_dead_band_any int16 (fun b => by simp [int16, inBits]) ⟨0, 255⟩ (fun (f : Unit) e _ => (e, f)) [.I, .D, .P] ⟨98, 3, 0, 100, 2, 0, 0⟩ ⟨7, 3, ()⟩ 2 rfl
  (.inl (by decide)) 40 99

end General

/-! Exact arithmetic -/

theorem clip_clamp (r : Rng Rat) (h : r.begin' ≤ r.end') (v : Rat) : clipValue r v = Spec.PID.clamp r.begin' r.end' v := by
  unfold clipValue Spec.PID.clamp
  simp only
  rcases le_total v r.end' with h1 | h1
  · rw [min_eq_left h1, if_neg (not_lt.2 h1)]
    rcases lt_or_ge v r.begin' with h2 | h2
    · rw [if_pos h2, max_eq_left (le_of_lt h2)]
    · rw [if_neg (not_lt.2 h2), max_eq_right h2]
  · rw [min_eq_right h1, max_eq_right h]
    rcases lt_or_eq_of_le h1 with h2 | h2
    · rw [if_pos h2, if_neg (not_lt.2 h)]
    · rw [if_neg (fun h3 => absurd h2 (ne_of_lt h3)), if_neg (not_lt.2 (h2 ▸ h)), h2]

theorem calcError_rat {F : Type} (sp fb tol : Rat) (m : Mem Rat F) :
    calcError rat sp fb tol m = if |sp - fb| ≤ tol then .ok (0, { m with acc := 0 }) else .ok (sp - fb, m) := by
  simp only [calcError]
  rw [show rat.sub sp fb = .ok (sp - fb) from rfl, show rat.neg tol = .ok (-tol) from rfl]
  simp only [Res.bind_ok]
  by_cases h : |sp - fb| ≤ tol
  · rw [if_pos h]
    rw [abs_le] at h
    rcases le_total 0 (sp - fb) with h0 | h0
    · rw [if_pos ⟨h.2, (h0 : rat.zero ≤ sp - fb)⟩]; rfl
    · split
      · rfl
      · rw [if_pos ⟨h.1, (h0 : sp - fb ≤ rat.zero)⟩]; rfl
  · rw [if_neg h]
    rw [if_neg, if_neg]
    · rintro ⟨h1, h2⟩; exact h (by rw [abs_of_nonpos h2]; linarith)
    · rintro ⟨h1, h2⟩; exact h (by rw [abs_of_nonneg h2]; exact h1)

/-- **C36 and the documented formula.** In exact arithmetic with a positive time step, no filtering, and any evaluation order, a call
    computes exactly the textbook step with dead band and clamped integrator: in particular an error within the tolerance gives
    no proportional action and restarts the integrator from zero. -/
theorem c36_formula (r : Rng Rat) (hr : r.begin' ≤ r.end') (order : List Term) (ho : order.Perm [.P, .I, .D]) (x : Input Rat)
    (hdt : 0 < x.delta) (m : Mem Rat Unit) :
    process rat r (fun f e _ => (e, f)) order x m =
      let (v, i, e) := Spec.PID.step r.begin' r.end' m.acc m.last x.setPoint x.feedback x.largest x.delta x.biasP x.biasI x.biasD
      .ok (v, { m with acc := i, last := e }) := by
  rw [c36_order _ _ _ _ ho]
  simp only [process, calcError_rat, Spec.PID.step]
  have hd0 : x.delta ≠ 0 := by omega
  by_cases h : |x.setPoint - x.feedback| ≤ x.largest
  · simp only [h, if_true, Res.bind_ok, evalTerms, evalTerm, calcP, calcI, calcD, rat]
    by_cases hi : x.biasI = 0 <;> by_cases hdd : x.biasD = 0 <;> by_cases hpp : x.biasP = 0 <;>
      simp [hi, hdd, hpp, hd0, clip_clamp r hr, mul_comm]
  · simp only [h, if_false, Res.bind_ok, evalTerms, evalTerm, calcP, calcI, calcD, rat]
    by_cases hi : x.biasI = 0 <;> by_cases hdd : x.biasD = 0 <;> by_cases hpp : x.biasP = 0 <;>
      simp [hi, hdd, hpp, hd0, clip_clamp r hr] <;> (try ring_nf) <;> (try simp)

example := c36_formula ⟨0, 255⟩ (by decide +kernel) [.I, .D, .P] (by decide) ⟨20, 1 / 2, 10, 100, 2, 1, 5⟩ (by decide) ⟨7, 3, ()⟩

/-- **C36, dead band.** Inside the tolerance: no proportional action, the integrator is zero (or, with a range that excludes zero and an I
    gain, the nearest limit), the output is the clamped sum of the integrator and the derivative of leaving the old error. -/
theorem c36_dead_band (r : Rng Rat) (hr : r.begin' ≤ r.end') (order : List Term) (ho : order.Perm [.P, .I, .D]) (x : Input Rat)
    (hdt : 0 < x.delta) (m : Mem Rat Unit) (hdead : |x.setPoint - x.feedback| ≤ x.largest) (hz : r.begin' ≤ 0 ∧ 0 ≤ r.end') :
    process rat r (fun f e _ => (e, f)) order x m =
      .ok (Spec.PID.clamp r.begin' r.end' (-(x.biasD * m.last) / x.delta), { m with acc := 0, last := 0 }) := by
  rw [c36_formula r hr order ho x hdt m]
  have hc0 : Spec.PID.clamp r.begin' r.end' 0 = 0 := by
    unfold Spec.PID.clamp; rw [min_eq_left hz.2, max_eq_right hz.1]
  simp only [Spec.PID.step, hdead, if_true]
  simp [hc0]

example := c36_dead_band ⟨0, 255⟩ (by decide +kernel) [.I, .D, .P] (by decide) ⟨99 + 3 / 4, 1 / 2, 10, 100, 2, 1, 5⟩ (by decide) ⟨7, 3, ()⟩ (by decide +kernel) (by decide +kernel)

/-- **C35, no wind-up.** At its upper limit the integrator leaves it at the first call with a negative error outside the dead band (positive gain
    and time step). -/
theorem c35_unwinds_at_once (r : Rng Rat) (hr : r.begin' < r.end') (order : List Term) (ho : order.Perm [.P, .I, .D]) (x : Input Rat)
    (hdt : 0 < x.delta) (hki : 0 < x.biasI) (m : Mem Rat Unit) (hm : m.acc ≤ r.end') (hneg : x.setPoint < x.feedback)
    (hout : ¬ |x.setPoint - x.feedback| ≤ x.largest) :
    ∃ v m', process rat r (fun f e _ => (e, f)) order x m = .ok (v, m') ∧ m'.acc < r.end' := by
  rw [c36_formula r (le_of_lt hr) order ho x hdt m]
  refine ⟨_, _, rfl, ?_⟩
  simp only [Spec.PID.step, hout, if_false, ne_of_gt hki]
  unfold Spec.PID.clamp
  have hd : (0 : Rat) < x.delta := by exact_mod_cast hdt
  have : x.biasI * (x.setPoint - x.feedback) * x.delta < 0 := by
    have h1 : x.biasI * (x.setPoint - x.feedback) < 0 := mul_neg_of_pos_of_neg hki (by linarith)
    exact mul_neg_of_neg_of_pos h1 hd
  exact max_lt hr (lt_of_le_of_lt (min_le_left _ _) (by linarith))

/-- A concrete history: heater with range 0..255. -/
example : (run rat ⟨0, 255⟩ (fun (f : Unit) e _ => (e, f)) [.I, .D, .P] ⟨0, 0, ()⟩
    [⟨20, 1 / 2, 10, 100, 2, 1, 5⟩, ⟨90, 1 / 2, 10, 100, 2, 1, 5⟩, ⟨100, 1 / 2, 10, 100, 2, 1, 5⟩]).bind
      (fun l => .ok (l.map fun y => (y.1, y.2.acc))) = .ok [(255, 255), (240, 255), (0, 0)] := by decide +kernel

/-- **C35 fails for ranges without zero**: inside the dead band the integrator is set to zero and, without an I gain, not clipped. -/
theorem c35_zero_outside_fails :
    ∃ v m', process rat ⟨10, 255⟩ (fun (f : Unit) e _ => (e, f)) [.P, .I, .D] ⟨100, 1, 10, 100, 1, 0, 0⟩ ⟨50, 0, ()⟩ = .ok (v, m') ∧
      ¬ ((10 : Rat) ≤ m'.acc ∧ m'.acc ≤ 255) := ⟨10, ⟨0, 0, ()⟩, by decide +kernel, by decide +kernel⟩

/-- **C35 fails for the uninitialised integrator**: the class has no constructor, whatever was in memory is used and (without an I gain) kept. -/
theorem c35_uninitialised_fails :
    ∃ v m', process rat ⟨0, 255⟩ (fun (f : Unit) e _ => (e, f)) [.P, .I, .D] ⟨0, 1, 10, 100, 1, 0, 0⟩ ⟨-1000, 0, ()⟩ = .ok (v, m') ∧
      ¬ ((0 : Rat) ≤ m'.acc ∧ m'.acc ≤ 255) ∧ v = 0 := ⟨0, ⟨-1000, 100, ()⟩, by decide +kernel, by decide +kernel, rfl⟩

/-! Integer arithmetic -/

theorem inBits_ok {w : Nat} {x y : Int} (h : inBits w x = .ok y) : y = x ∧ -(2 ^ (w - 1) : Nat) ≤ x ∧ x < (2 ^ (w - 1) : Nat) := by
  unfold inBits at h
  split at h
  · simp only [Res.ok.injEq] at h; exact ⟨h.symm, ‹_›⟩
  · cases h

/-- **C64, 32-bit values**: whenever no overflow occurs the derivative is the exact quotient rounded towards zero. -/
theorem c64_int32_partial (e l b v : Int) (dt : Nat) (h : int32.deriv e l dt b = .ok v) : v = ((e - l) * b).tdiv dt ∧ dt ≠ 0 := by
  simp only [int32] at h
  cases h1 : inBits 32 (e - l) with
  | ub => rw [h1] at h; cases h
  | ok d =>
    rw [h1] at h; simp only [Res.bind_ok] at h
    cases h2 : inBits 32 (d * b) with
    | ub => rw [h2] at h; cases h
    | ok n =>
      rw [h2] at h; simp only [Res.bind_ok] at h
      obtain ⟨rfl, _⟩ := inBits_ok h1
      obtain ⟨rfl, _⟩ := inBits_ok h2
      split at h
      · cases h
      · simp only [Res.ok.injEq] at h; exact ⟨h.symm, ‹_›⟩

example := c64_int32_partial 47 60 7 (-9) 10 (by decide +kernel)

/-- **C64, 16-bit values (partial)**: exact when the change times the gain is not negative. -/
theorem c64_int16_partial (e l b v : Int) (dt : Nat) (h : int16.deriv e l dt b = .ok v) (hpos : 0 ≤ (e - l) * b) :
    v = ((e - l) * b).tdiv dt ∧ dt ≠ 0 := by
  simp only [int16] at h
  cases h1 : inBits 16 (e - l) with
  | ub => rw [h1] at h; cases h
  | ok d =>
    rw [h1] at h; simp only [Res.bind_ok] at h
    cases h2 : inBits 16 (d * b) with
    | ub => rw [h2] at h; cases h
    | ok n =>
      rw [h2] at h; simp only [Res.bind_ok] at h
      obtain ⟨rfl, _⟩ := inBits_ok h1
      obtain ⟨rfl, _, h4⟩ := inBits_ok h2
      split at h
      · cases h
      · rename_i hdt
        simp only [Res.ok.injEq] at h
        refine ⟨?_, hdt⟩
        obtain ⟨k, hk⟩ := Int.eq_ofNat_of_zero_le hpos
        rw [hk] at h h4 ⊢
        have hk' : k < 32768 := by norm_num at h4; omega
        have hU : toU 16 (k : Int) = k := by unfold toU; omega
        have hq : k / dt ≤ k := Nat.div_le_self _ _
        rw [hU] at h
        rw [← h, ← Int.ofNat_tdiv]; generalize k / dt = q at hq ⊢
        unfold toS; omega

example := c64_int16_partial 60 47 7 9 10 (by decide +kernel) (by decide)

/-- **C64 is false for `int` on AVR**: a falling error gives a large positive derivative term - the division is done in `unsigned int`. The error goes
    from 10 to 0 with gain 1 in 10 time units: -1 would be right, 6552 is computed. -/
theorem c64_int16_fails : int16.deriv 0 10 10 1 = .ok 6552 ∧ (((0 : Int) - 10) * 1).tdiv 10 = -1 := by decide +kernel

/-- The integrator update of line 112 is right in 16 bits whenever the sum fits. -/
theorem c64_int16_accum (a e b : Int) (dt : Nat) (h : -32768 ≤ a + e * dt * b) (h' : a + e * dt * b < 32768) :
    int16.accum a e dt b = .ok (a + e * dt * b) := by
  simp only [int16, Res.ok.injEq]
  have hmod : ∀ x : Int, ((toU 16 x : Nat) : Int) = x % 65536 := by intro x; unfold toU; omega
  have hS : ∀ x y : Int, x % 65536 = y % 65536 → -32768 ≤ y → y < 32768 → toS 16 x = y := by intro x y; unfold toS; omega
  apply hS _ _ _ h h'
  push_cast [hmod]
  simp [Int.add_emod, Int.mul_emod]

example := c64_int16_accum 100 47 (-1) 10 (by decide) (by decide)

open Atl.Spec.PID (FitsSigned stepInt clampInt)

theorem inBits_fits {w : Nat} {x : Int} (h : FitsSigned w x) : inBits w x = .ok x := by
  unfold inBits
  rw [if_pos]
  obtain ⟨h1, h2⟩ := h
  push_cast
  omega

/-- **C64, 32-bit values**: the derivative and the integrator are computed whenever every intermediate result fits. -/
theorem c64_int32_defined (a e l b : Int) (dt : Nat) :
    (dt ≠ 0 → FitsSigned 32 (e - l) → FitsSigned 32 ((e - l) * b) → int32.deriv e l dt b = .ok (((e - l) * b).tdiv dt)) ∧
    (FitsSigned 32 (e * dt) → FitsSigned 32 (e * dt * b) → FitsSigned 32 (a + e * dt * b) → int32.accum a e dt b = .ok (a + e * dt * b)) := by
  refine ⟨fun h0 h1 h2 => ?_, fun h1 h2 h3 => ?_⟩
  · simp only [int32, inBits_fits h1, inBits_fits h2, Res.bind_ok, if_neg h0]
  · simp only [int32, inBits_fits h1, inBits_fits h2, inBits_fits h3, Res.bind_ok]

/-- **C64 is false for `int` on AVR**, exactly: when the change times the gain is negative, the result is right for a time step of 1 and never negative for any
    other. -/
theorem c64_int16_negative_fails (e l b : Int) (dt : Nat) (h0 : dt ≠ 0) (h1 : FitsSigned 16 (e - l)) (h2 : FitsSigned 16 ((e - l) * b)) (hneg : (e - l) * b < 0) :
    int16.deriv e l dt b = .ok (if dt = 1 then (e - l) * b else (65536 + (e - l) * b) / dt) ∧
    (dt ≠ 1 → 0 ≤ (65536 + (e - l) * b) / (dt : Int)) := by
  obtain ⟨k1, k2⟩ := h2
  have k1' : -32768 ≤ (e - l) * b := by norm_num at k1; omega
  constructor
  · simp only [int16, inBits_fits h1, inBits_fits ⟨k1, k2⟩, Res.bind_ok, if_neg h0]
    generalize (e - l) * b = p at *
    obtain ⟨u, hu⟩ := Int.eq_ofNat_of_zero_le (show 0 ≤ 65536 + p by omega)
    have hU : toU 16 p = u := by unfold toU; omega
    rw [hU, hu]
    congr 1
    split
    · next h => subst h; rw [Nat.div_one]; unfold toS; omega
    · next h =>
      rw [← Int.natCast_ediv]
      have hq : u / dt ≤ u / 2 := Nat.div_le_div_left (by omega) (by omega)
      generalize u / dt = q at *
      unfold toS; omega
  · intro _
    exact Int.ediv_nonneg (by omega) (by omega)

/-- **C64, 16-bit values (partial)**: likewise for the derivative when the change times the gain is not negative. -/
theorem c64_int16_defined_partial (e l b : Int) (dt : Nat) (h0 : dt ≠ 0) (h1 : FitsSigned 16 (e - l)) (h2 : FitsSigned 16 ((e - l) * b))
    (hpos : 0 ≤ (e - l) * b) : int16.deriv e l dt b = .ok (((e - l) * b).tdiv dt) := by
  have : ∃ v, int16.deriv e l dt b = .ok v := by
    simp only [int16, inBits_fits h1, inBits_fits h2, Res.bind_ok, if_neg h0]
    exact ⟨_, rfl⟩
  obtain ⟨v, hv⟩ := this
  rw [hv, (c64_int16_partial e l b v dt hv hpos).1]

example := c64_int16_defined_partial 60 47 7 10 (by decide) (by unfold FitsSigned; decide) (by unfold FitsSigned; decide) (by decide)

/-- Sums, differences and products of both value types are the exact ones when these fit (otherwise the behaviour is undefined). -/
theorem c64_exact (x y : Int) :
    (FitsSigned 32 (x - y) → int32.sub x y = .ok (x - y)) ∧ (FitsSigned 32 (x + y) → int32.add x y = .ok (x + y)) ∧
    (FitsSigned 32 (x * y) → int32.mul x y = .ok (x * y)) ∧ (FitsSigned 32 (-x) → int32.neg x = .ok (-x)) ∧
    (FitsSigned 16 (x - y) → int16.sub x y = .ok (x - y)) ∧ (FitsSigned 16 (x + y) → int16.add x y = .ok (x + y)) ∧
    (FitsSigned 16 (x * y) → int16.mul x y = .ok (x * y)) ∧ (FitsSigned 16 (-x) → int16.neg x = .ok (-x)) :=
  ⟨inBits_fits, inBits_fits, inBits_fits, inBits_fits, inBits_fits, inBits_fits, inBits_fits, inBits_fits⟩

theorem clip_int (r : Rng Int) (h : r.begin' ≤ r.end') (v : Int) : clipValue r v = clampInt r.begin' r.end' v := by
  unfold clipValue clampInt
  simp only
  split_ifs <;> omega

theorem bind_eq_ok {α β : Type} {x : Res α} {f : α → Res β} {y : β} (h : (x >>= f) = .ok y) : ∃ a, x = .ok a ∧ f a = .ok y := by
  cases x with
  | ub => cases h
  | ok a => exact ⟨a, rfl, h⟩

/-- **C64, 32-bit values**: whatever `Process` computes without overflow is the textbook step on unbounded integers, for every evaluation order. -/
theorem c64_process32 (r : Rng Int) (hr : r.begin' ≤ r.end') (order : List Term) (ho : order.Perm [.P, .I, .D]) (x : Input Int) (m m' : Mem Int Unit)
    (v : Int) (h : process int32 r (fun f e _ => (e, f)) order x m = .ok (v, m')) :
    (v, m'.acc, m'.last) = stepInt r.begin' r.end' m.acc m.last x.setPoint x.feedback x.largest x.delta x.biasP x.biasI x.biasD := by
  rw [c36_order _ _ _ _ ho] at h
  unfold process at h
  obtain ⟨⟨e, m1⟩, h1, h⟩ := bind_eq_ok h
  -- the error
  have he : e = (if |x.setPoint - x.feedback| ≤ x.largest then 0 else x.setPoint - x.feedback) ∧
      m1 = { m with acc := if |x.setPoint - x.feedback| ≤ x.largest then 0 else m.acc } := by
    unfold calcError at h1
    obtain ⟨er, a1, h1⟩ := bind_eq_ok h1
    obtain ⟨rfl, _⟩ := inBits_ok a1
    have z : int32.zero = 0 := rfl
    rw [z] at h1
    split at h1
    · have hd : |x.setPoint - x.feedback| ≤ x.largest := by rw [abs_le]; omega
      simp only [Res.ok.injEq, Prod.mk.injEq] at h1
      simp [hd, ← h1.1, ← h1.2]
    · obtain ⟨nl, a2, h1⟩ := bind_eq_ok h1
      obtain ⟨rfl, _⟩ := inBits_ok a2
      split at h1
      · have hd : |x.setPoint - x.feedback| ≤ x.largest := by rw [abs_le]; omega
        simp only [Res.ok.injEq, Prod.mk.injEq] at h1
        simp [hd, ← h1.1, ← h1.2]
      · have hd : ¬ |x.setPoint - x.feedback| ≤ x.largest := by rw [abs_le]; omega
        simp only [Res.ok.injEq, Prod.mk.injEq] at h1
        simp [hd, ← h1.1, ← h1.2]
  obtain ⟨⟨t, m2⟩, h2, h⟩ := bind_eq_ok h
  simp only [evalTerms, evalTerm] at h2
  obtain ⟨⟨t1, m3⟩, b1, h2⟩ := bind_eq_ok h2
  obtain ⟨p, p1, b1⟩ := bind_eq_ok b1
  simp only [Res.ok.injEq, Prod.mk.injEq] at b1
  obtain ⟨rfl, rfl⟩ := b1
  have hp : p = e * x.biasP := by
    unfold calcP at p1
    split at p1
    · rename_i hb
      have hb : x.biasP = 0 := hb
      simp only [Res.ok.injEq] at p1
      rw [← p1, hb, mul_zero]; rfl
    · exact (inBits_ok p1).1
  obtain ⟨⟨t2, m4⟩, b2, h2⟩ := bind_eq_ok h2
  obtain ⟨⟨i, m5⟩, i1, b2⟩ := bind_eq_ok b2
  simp only [Res.ok.injEq, Prod.mk.injEq] at b2
  obtain ⟨rfl, rfl⟩ := b2
  have hi : i = (if x.biasI = 0 then m1.acc else clampInt r.begin' r.end' (m1.acc + e * x.delta * x.biasI)) ∧ m5 = { m1 with acc := i } := by
    unfold calcI at i1
    split at i1
    · rename_i hb
      have hb : x.biasI ≠ 0 := hb
      obtain ⟨a, a1, i1⟩ := bind_eq_ok i1
      simp only [Res.ok.injEq, Prod.mk.injEq] at i1
      simp only [int32] at a1
      obtain ⟨u, u1, a1⟩ := bind_eq_ok a1
      obtain ⟨w, w1, a1⟩ := bind_eq_ok a1
      obtain ⟨rfl, _⟩ := inBits_ok u1
      obtain ⟨rfl, _⟩ := inBits_ok w1
      obtain ⟨rfl, _⟩ := inBits_ok a1
      rw [if_neg hb, ← clip_int r hr]
      exact ⟨i1.1.symm, by rw [← i1.2, i1.1]⟩
    · rename_i hb
      have hb : x.biasI = 0 := by
        by_cases hb' : x.biasI = 0
        · exact hb'
        · exact absurd hb' hb
      simp only [Res.ok.injEq, Prod.mk.injEq] at i1
      rw [if_pos hb]
      exact ⟨i1.1.symm, by rw [← i1.2, ← i1.1]⟩
  obtain ⟨⟨t3, m6⟩, b3, h2⟩ := bind_eq_ok h2
  simp only [Res.ok.injEq, Prod.mk.injEq] at h2
  obtain ⟨rfl, rfl⟩ := h2
  obtain ⟨⟨d, m7⟩, d1, b3⟩ := bind_eq_ok b3
  simp only [Res.ok.injEq, Prod.mk.injEq] at b3
  obtain ⟨rfl, rfl⟩ := b3
  have hd : d = ((e - m5.last) * x.biasD).tdiv x.delta ∧ m7 = { m5 with last := e } := by
    unfold calcD at d1
    simp only at d1
    split at d1
    · obtain ⟨w, w1, d1⟩ := bind_eq_ok d1
      simp only [Res.ok.injEq, Prod.mk.injEq] at d1
      obtain ⟨rfl, rfl⟩ := d1
      exact ⟨(c64_int32_partial _ _ _ _ _ w1).1, rfl⟩
    · rename_i hb
      have hb : x.biasD = 0 := by
        by_cases hb' : x.biasD = 0
        · exact hb'
        · exact absurd hb' hb
      simp only [Res.bind_ok, Res.ok.injEq, Prod.mk.injEq] at d1
      rw [← d1.1, ← d1.2, hb, mul_zero, Int.zero_tdiv]
      exact ⟨rfl, rfl⟩
  obtain ⟨a, a1, h⟩ := bind_eq_ok h
  obtain ⟨rfl, _⟩ := inBits_ok a1
  obtain ⟨s, s1, h⟩ := bind_eq_ok h
  obtain ⟨rfl, _⟩ := inBits_ok s1
  simp only [Res.ok.injEq, Prod.mk.injEq] at h
  obtain ⟨rfl, rfl⟩ := h
  obtain ⟨rfl, hm1⟩ := he
  obtain ⟨hi, hm5⟩ := hi
  obtain ⟨hd, rfl⟩ := hd
  simp only [clip_int r hr, stepInt, Prod.mk.injEq]
  subst hm5
  subst hm1
  simp only [hp, hi, hd, and_self]

example : process int32 ⟨-1000, 1000⟩ (fun (f : Unit) e _ => (e, f)) [.D, .P, .I] ⟨3, 1, 10, 50, 2, -1, 7⟩ ⟨100, 60, ()⟩ =
    .ok (-285, ⟨-370, 47, ()⟩) := by decide +kernel

/-- A zero time step with a D gain divides by zero. -/
theorem c64_zero_step_fails : int16.deriv 5 3 0 1 = .ub ∧ int32.deriv 5 3 0 1 = .ub := by decide +kernel

end Atl.Props
