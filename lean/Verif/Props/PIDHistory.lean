import Verif.Props.PID
import Verif.Model.PIDFilter
import Verif.Spec.PIDHistory

/- C120: the PID controller over a whole history of calls, with the documented low pass filter. -/
namespace Atl.Props
open Atl Atl.PID Atl.Range
open Atl.Spec.PID (Sample integral sinceOk area smooth weighted clamp)

/-- What the specification sees of a call. -/
def pidSample (x : Input Rat) : Sample := ⟨x.setPoint - x.feedback, x.largest, x.delta, x.biasI⟩

/-- One call with any filter, in closed form. -/
theorem process_filter {F : Type} (r : Rng Rat) (hr : r.begin' ≤ r.end') (filter : F → Rat → Nat → Rat × F) (order : List Term)
    (ho : order.Perm [.P, .I, .D]) (x : Input Rat) (hdt : 0 < x.delta) (m : Mem Rat F) :
    process rat r filter order x m =
      let e := (pidSample x).err
      let base := if |x.setPoint - x.feedback| ≤ x.largest then 0 else m.acc
      let i := if x.biasI = 0 then base else clamp r.begin' r.end' (base + x.biasI * e * x.delta)
      let y := filter m.filt e x.delta
      .ok (clamp r.begin' r.end' (x.biasP * e + i + x.biasD * (y.1 - m.last) / x.delta), ⟨i, y.1, y.2⟩) := by
  rw [c36_order _ _ _ _ ho]
  simp only [process, calcError_rat, pidSample, Sample.err]
  have hd0 : x.delta ≠ 0 := by omega
  by_cases h : |x.setPoint - x.feedback| ≤ x.largest
  · simp only [h, if_true, Res.bind_ok, evalTerms, evalTerm, calcP, calcI, calcD, rat]
    by_cases hi : x.biasI = 0 <;> by_cases hdd : x.biasD = 0 <;> by_cases hpp : x.biasP = 0 <;>
      simp [hi, hdd, hpp, hd0, clip_clamp r hr, mul_comm]
  · simp only [h, if_false, Res.bind_ok, evalTerms, evalTerm, calcP, calcI, calcD, rat]
    by_cases hi : x.biasI = 0 <;> by_cases hdd : x.biasD = 0 <;> by_cases hpp : x.biasP = 0 <;>
      simp [hi, hdd, hpp, hd0, clip_clamp r hr] <;> (try ring_nf) <;> (try simp)

theorem clamp_id {lo hi x : Rat} (h : lo ≤ x ∧ x ≤ hi) : clamp lo hi x = x := by
  unfold Spec.PID.clamp; rw [min_eq_left h.2, max_eq_right h.1]

/-- Splitting off the newest sample. -/
theorem sinceOk_snoc (l : List Sample) (s : Sample) :
    sinceOk (l ++ [s]) = if |s.diff| ≤ s.tol then ([], true) else ((sinceOk l).1 ++ [s], (sinceOk l).2) := by
  induction l with
  | nil => by_cases h : |s.diff| ≤ s.tol <;> simp [sinceOk, h]
  | cons a l ih =>
    simp only [List.cons_append, sinceOk, ih]
    by_cases h : |s.diff| ≤ s.tol
    · simp [h]
    · simp only [h, if_false]
      by_cases hb : (sinceOk l).2 = true
      · simp [hb]
      · by_cases ha : |a.diff| ≤ a.tol <;> simp [hb, ha]

theorem integral_snoc (a : Rat) (l : List Sample) (s : Sample) :
    integral a (l ++ [s]) = if |s.diff| ≤ s.tol then 0 else integral a l + s.ki * s.diff * s.dt := by
  unfold Spec.PID.integral
  rw [sinceOk_snoc]
  by_cases h : |s.diff| ≤ s.tol
  · simp [h, area]
  · simp only [h, if_false, area, List.map_append, List.sum_append, List.map_cons, List.map_nil, List.sum_cons, List.sum_nil, add_zero]
    ring

theorem weighted_snoc (c : Rat) (es : List Rat) (e : Rat) : weighted c (es ++ [e]) = (1 - c) * weighted c es + c * e := by
  induction es with
  | nil => simp [weighted]
  | cons a es ih => simp only [List.cons_append, weighted, ih, List.length_append, List.length_cons, List.length_nil]; ring

theorem smooth_snoc (c y : Rat) (es : List Rat) (e : Rat) : smooth c y (es ++ [e]) = (1 - c) * smooth c y es + c * e := by
  unfold Spec.PID.smooth
  rw [weighted_snoc, List.length_append, List.length_cons, List.length_nil]; ring

/-- The memory after a history. -/
def pidAfter {F : Type} (m : Mem Rat F) (out : List (Rat × Mem Rat F)) : Mem Rat F := (out.getLast?.map (·.2)).getD m

theorem pid_snoc {F : Type} (r : Rng Rat) (filter : F → Rat → Nat → Rat × F) (order : List Term) (m : Mem Rat F) (xs : List (Input Rat)) (x : Input Rat)
    {out : List (Rat × Mem Rat F)} (h : PID.run rat r filter order m xs = .ok out) {y : Rat × Mem Rat F}
    (hp : process rat r filter order x (pidAfter m out) = .ok y) : PID.run rat r filter order m (xs ++ [x]) = .ok (out ++ [y]) := by
  induction xs generalizing m out with
  | nil =>
    simp only [PID.run, Res.ok.injEq] at h; subst h
    simp only [pidAfter, List.getLast?_nil, Option.map_none, Option.getD_none] at hp
    simp [PID.run, hp]
  | cons a xs ih =>
    simp only [PID.run] at h
    cases h1 : process rat r filter order a m with
    | ub => rw [h1] at h; cases h
    | ok z =>
      rw [h1] at h; simp only [Res.bind_ok] at h
      cases h2 : PID.run rat r filter order z.2 xs with
      | ub => rw [h2] at h; cases h
      | ok rest =>
        rw [h2] at h; simp only [Res.bind_ok, Res.ok.injEq] at h; subst h
        have hp' : process rat r filter order x (pidAfter z.2 rest) = .ok y := by
          rw [← hp]; congr 1
          unfold pidAfter
          cases rest using List.reverseRecOn with
          | nil => simp
          | append_singleton l a _ =>
            rw [show (z.1, z.2) :: (l ++ [a]) = ((z.1, z.2) :: l) ++ [a] from rfl]
            simp only [List.getLast?_concat, Option.map_some, Option.getD_some]
        have := ih z.2 h2 hp'
        simp [PID.run, h1, this]

/-- The invariant behind the history theorems, for any filter: the memory is a function of the history. -/
theorem pid_run {F : Type} (r : Rng Rat) (hr : r.begin' ≤ r.end') (filter : F → Rat → Nat → Rat × F) (order : List Term)
    (ho : order.Perm [.P, .I, .D]) (m : Mem Rat F) (xs : List (Input Rat)) (hdt : ∀ x ∈ xs, 0 < x.delta) :
    ∃ out, PID.run rat r filter order m xs = .ok out ∧ out.length = xs.length := by
  induction xs using List.reverseRecOn with
  | nil => exact ⟨[], rfl, rfl⟩
  | append_singleton xs x ih =>
    obtain ⟨out, h1, h2⟩ := ih (fun y hy => hdt y (by simp [hy]))
    have hp := process_filter r hr filter order ho x (hdt x (by simp)) (pidAfter m out)
    exact ⟨_, pid_snoc r filter order m xs x h1 hp, by simp [h2]⟩

theorem pid_prefix {F : Type} (r : Rng Rat) (hr : r.begin' ≤ r.end') (filter : F → Rat → Nat → Rat × F) (order : List Term)
    (ho : order.Perm [.P, .I, .D]) (m : Mem Rat F) (xs : List (Input Rat)) (x : Input Rat) (hdt : ∀ y ∈ xs ++ [x], 0 < y.delta) :
    ∃ out y, PID.run rat r filter order m xs = .ok out ∧ process rat r filter order x (pidAfter m out) = .ok y ∧
      PID.run rat r filter order m (xs ++ [x]) = .ok (out ++ [y]) := by
  obtain ⟨out, h1, _⟩ := pid_run r hr filter order ho m xs (fun y hy => hdt y (by simp [hy]))
  have hp := process_filter r hr filter order ho x (hdt x (by simp)) (pidAfter m out)
  exact ⟨out, _, h1, hp, pid_snoc r filter order m xs x h1 hp⟩

theorem pidAfter_snoc {F : Type} (m : Mem Rat F) (out : List (Rat × Mem Rat F)) (y : Rat × Mem Rat F) : pidAfter m (out ++ [y]) = y.2 := by
  simp [pidAfter]

/-- The integrator after a history in which the integral of the error never leaves the range. -/
theorem pid_acc {F : Type} (r : Rng Rat) (hr : r.begin' ≤ r.end') (filter : F → Rat → Nat → Rat × F) (order : List Term)
    (ho : order.Perm [.P, .I, .D]) (m : Mem Rat F) (xs : List (Input Rat)) (hdt : ∀ x ∈ xs, 0 < x.delta)
    (hin : ∀ p, p <+: xs → r.begin' ≤ integral m.acc (p.map pidSample) ∧ integral m.acc (p.map pidSample) ≤ r.end')
    {out : List (Rat × Mem Rat F)} (h : PID.run rat r filter order m xs = .ok out) :
    (pidAfter m out).acc = integral m.acc (xs.map pidSample) := by
  induction xs using List.reverseRecOn generalizing out with
  | nil => simp only [PID.run, Res.ok.injEq] at h; subst h; simp [pidAfter, integral, sinceOk, area]
  | append_singleton xs x ih =>
    obtain ⟨o, y, h1, h2, h3⟩ := pid_prefix r hr filter order ho m xs x hdt
    rw [h3] at h; simp only [Res.ok.injEq] at h; subst h
    have hi := ih (fun y hy => hdt y (by simp [hy])) (fun p hp => hin p (hp.trans (List.prefix_append _ _))) h1
    have hx := hin (xs ++ [x]) (List.prefix_refl _)
    rw [process_filter r hr filter order ho x (hdt x (by simp))] at h2
    simp only [Res.ok.injEq] at h2
    rw [pidAfter_snoc, ← h2]
    simp only [List.map_append, List.map_cons, List.map_nil, integral_snoc] at hx ⊢
    simp only [pidSample, Sample.err, ← hi] at hx ⊢
    by_cases hd : |x.setPoint - x.feedback| ≤ x.largest
    · simp only [hd, if_true] at hx ⊢
      by_cases hk : x.biasI = 0
      · simp [hk]
      · simp only [hk, if_false, mul_zero, zero_mul, add_zero]; exact clamp_id hx
    · simp only [hd, if_false] at hx ⊢
      by_cases hk : x.biasI = 0
      · simp [hk]
      · simp only [hk, if_false]; exact clamp_id hx

/-- The filter's state and the last error after a history with the documented filter. -/
theorem pid_smooth (c : Rat) (r : Rng Rat) (hr : r.begin' ≤ r.end') (order : List Term)
    (ho : order.Perm [.P, .I, .D]) (m : Mem Rat Rat) (xs : List (Input Rat)) (hdt : ∀ x ∈ xs, 0 < x.delta)
    {out : List (Rat × Mem Rat Rat)} (h : PID.run rat r (lowPass c) order m xs = .ok out) :
    (pidAfter m out).filt = smooth c m.filt (xs.map fun x => (pidSample x).err) ∧
    (pidAfter m out).last = if xs = [] then m.last else smooth c m.filt (xs.map fun x => (pidSample x).err) := by
  induction xs using List.reverseRecOn generalizing out with
  | nil => simp only [PID.run, Res.ok.injEq] at h; subst h; simp [pidAfter, smooth, weighted]
  | append_singleton xs x ih =>
    obtain ⟨o, y, h1, h2, h3⟩ := pid_prefix r hr (lowPass c) order ho m xs x hdt
    rw [h3] at h; simp only [Res.ok.injEq] at h; subst h
    have hi := ih (fun y hy => hdt y (by simp [hy])) h1
    rw [process_filter r hr (lowPass c) order ho x (hdt x (by simp))] at h2
    simp only [Res.ok.injEq] at h2
    rw [pidAfter_snoc, ← h2]
    simp [smooth_snoc, lowPass, hi.1]

/-- **C120, the output of every call.** The documented low pass filter with any constant, any start value of the three memories, any gains and positive time steps, changing
    from call to call if they like: as long as the integral of the error since it was last acceptable stays in the range, the result of a call is the
    proportional action, that integral, and the gain times the change of the smoothed error per time, clipped. Nothing else of the past matters. -/
theorem c120_output (c : Rat) (r : Rng Rat) (hr : r.begin' ≤ r.end') (order : List Term) (ho : order.Perm [.P, .I, .D]) (m : Mem Rat Rat)
    (xs : List (Input Rat)) (x : Input Rat) (hdt : ∀ y ∈ xs ++ [x], 0 < y.delta)
    (hin : ∀ p, p <+: xs ++ [x] → r.begin' ≤ integral m.acc (p.map pidSample) ∧ integral m.acc (p.map pidSample) ≤ r.end') :
    ∃ out v m', PID.run rat r (lowPass c) order m (xs ++ [x]) = .ok (out ++ [(v, m')]) ∧
      let err := fun y => (pidSample y).err
      let before := if xs = [] then m.last else smooth c m.filt (xs.map err)
      v = clamp r.begin' r.end' (x.biasP * err x + integral m.acc ((xs ++ [x]).map pidSample) +
        x.biasD * (smooth c m.filt ((xs ++ [x]).map err) - before) / x.delta) := by
  obtain ⟨o, y, h1, h2, h3⟩ := pid_prefix r hr (lowPass c) order ho m xs x hdt
  have ha := pid_acc r hr (lowPass c) order ho m (xs ++ [x]) hdt hin h3
  have hs := pid_smooth c r hr order ho m xs (fun y hy => hdt y (by simp [hy])) h1
  have hs' := pid_smooth c r hr order ho m (xs ++ [x]) hdt h3
  rw [pidAfter_snoc] at ha hs'
  refine ⟨o, y.1, y.2, h3, ?_⟩
  rw [process_filter r hr (lowPass c) order ho x (hdt x (by simp))] at h2
  simp only [Res.ok.injEq] at h2
  simp only [← ha, ← hs.2]
  have hl := hs'.2
  rw [if_neg (by simp)] at hl
  rw [← hl, ← h2]

/-- **C120, one-sided errors.** If no error in the history is negative (and the gains of the integral are positive), the integrator is exactly the
    integral of the error since it was last acceptable, cut at the upper limit: nothing is lost and nothing is wound up beyond the limit. -/
theorem c120_one_sided {F : Type} (r : Rng Rat) (hz : r.begin' ≤ 0 ∧ 0 ≤ r.end') (filter : F → Rat → Nat → Rat × F) (order : List Term)
    (ho : order.Perm [.P, .I, .D]) (m : Mem Rat F) (hm : r.begin' ≤ m.acc ∧ m.acc ≤ r.end') (xs : List (Input Rat))
    (hx : ∀ x ∈ xs, 0 < x.delta ∧ 0 < x.biasI ∧ x.feedback ≤ x.setPoint) :
    ∃ out, PID.run rat r filter order m xs = .ok out ∧ (pidAfter m out).acc = min (integral m.acc (xs.map pidSample)) r.end' ∧
      r.begin' ≤ integral m.acc (xs.map pidSample) := by
  have hr : r.begin' ≤ r.end' := le_trans hz.1 hz.2
  induction xs using List.reverseRecOn with
  | nil => exact ⟨[], rfl, by simp [pidAfter, integral, sinceOk, area, hm.2], by simp [integral, sinceOk, area, hm.1]⟩
  | append_singleton xs x ih =>
    obtain ⟨o, h1, h2, h3⟩ := ih (fun y hy => hx y (by simp [hy]))
    obtain ⟨hd, hk, hf⟩ := hx x (by simp)
    have hp := process_filter r hr filter order ho x hd (pidAfter m o)
    refine ⟨_, pid_snoc r filter order m xs x h1 hp, ?_, ?_⟩
    · rw [pidAfter_snoc]
      simp only [List.map_append, List.map_cons, List.map_nil, integral_snoc, if_neg (ne_of_gt hk)]
      simp only [pidSample, Sample.err]
      have hq : 0 ≤ x.biasI * (x.setPoint - x.feedback) * (x.delta : Rat) :=
        mul_nonneg (mul_nonneg (le_of_lt hk) (by linarith)) (by positivity)
      by_cases hdd : |x.setPoint - x.feedback| ≤ x.largest
      · simp only [hdd, if_true, mul_zero, zero_mul, add_zero]
        rw [clamp_id hz, min_eq_left hz.2]
      · simp only [hdd, if_false, h2]
        generalize x.biasI * (x.setPoint - x.feedback) * (x.delta : Rat) = q at hq
        generalize integral m.acc (xs.map pidSample) = I at h3
        unfold Spec.PID.clamp
        rcases le_total I r.end' with hI | hI
        · rw [min_eq_left hI]
          rw [max_eq_right]
          exact le_min (by linarith) hr
        · rw [min_eq_right hI, min_eq_right (by linarith), min_eq_right (by linarith), max_eq_right hr]
    · simp only [List.map_append, List.map_cons, List.map_nil, integral_snoc]
      simp only [pidSample]
      by_cases hdd : |x.setPoint - x.feedback| ≤ x.largest
      · simp only [hdd, if_true]; exact hz.1
      · simp only [hdd, if_false]
        have hq : 0 ≤ x.biasI * (x.setPoint - x.feedback) * (x.delta : Rat) :=
          mul_nonneg (mul_nonneg (le_of_lt hk) (by linarith)) (by positivity)
        linarith

example := c120_one_sided ⟨0, 255⟩ (by decide +kernel) (fun (f : Unit) e _ => (e, f)) [.I, .D, .P] (by decide) ⟨0, 0, ()⟩ (by decide +kernel)
  [⟨20, 1 / 2, 10, 100, 2, 1, 5⟩, ⟨90, 1 / 2, 10, 100, 2, 1, 5⟩] (by decide +kernel)

/-- One call, for a range with zero and an integrator in it: the integral of the call, added to what is left, cut to the range. -/
theorem pid_acc_step {F : Type} (r : Rng Rat) (hz : r.begin' ≤ 0 ∧ 0 ≤ r.end') (filter : F → Rat → Nat → Rat × F) (order : List Term)
    (ho : order.Perm [.P, .I, .D]) (m : Mem Rat F) (hm : r.begin' ≤ m.acc ∧ m.acc ≤ r.end') (x : Input Rat) (hdt : 0 < x.delta) :
    ∃ v m', process rat r filter order x m = .ok (v, m') ∧ r.begin' ≤ m'.acc ∧ m'.acc ≤ r.end' ∧
      m'.acc = if |(pidSample x).diff| ≤ (pidSample x).tol then 0 else clamp r.begin' r.end' (m.acc + area [pidSample x]) := by
  have hr : r.begin' ≤ r.end' := le_trans hz.1 hz.2
  have hc : ∀ y, r.begin' ≤ clamp r.begin' r.end' y ∧ clamp r.begin' r.end' y ≤ r.end' := fun y =>
    ⟨le_max_left _ _, max_le hr (min_le_right _ _)⟩
  have key : (if x.biasI = 0 then (if |x.setPoint - x.feedback| ≤ x.largest then 0 else m.acc) else
      clamp r.begin' r.end' ((if |x.setPoint - x.feedback| ≤ x.largest then 0 else m.acc) + x.biasI * (pidSample x).err * x.delta)) =
      if |(pidSample x).diff| ≤ (pidSample x).tol then 0 else clamp r.begin' r.end' (m.acc + area [pidSample x]) := by
    simp only [pidSample, Sample.err, area, List.map_cons, List.map_nil, List.sum_cons, List.sum_nil, add_zero]
    by_cases hd : |x.setPoint - x.feedback| ≤ x.largest
    · simp only [hd, if_true, mul_zero, zero_mul, add_zero, clamp_id hz, ite_self]
    · simp only [hd, if_false]
      by_cases hk : x.biasI = 0
      · simp only [hk, if_true, zero_mul, add_zero, clamp_id hm]
      · simp only [hk, if_false]
  refine ⟨_, _, process_filter r hr filter order ho x hdt m, ?_, ?_, key⟩ <;> simp only [key]
  · by_cases hd : |(pidSample x).diff| ≤ (pidSample x).tol
    · simp only [hd, if_true]; exact hz.1
    · simp only [hd, if_false]; exact (hc _).1
  · by_cases hd : |(pidSample x).diff| ≤ (pidSample x).tol
    · simp only [hd, if_true]; exact hz.2
    · simp only [hd, if_false]; exact (hc _).2

/-- The call after which the integrator starts afresh from `B`: an acceptable error (from zero), or an error that pushed it against a limit. -/
def StartsAfresh (lo hi : Rat) (s : Sample) (B : Rat) : Prop :=
  (|s.diff| ≤ s.tol ∧ B = 0) ∨ (¬ |s.diff| ≤ s.tol ∧ ((B = hi ∧ 0 < s.ki * s.diff * s.dt) ∨ (B = lo ∧ s.ki * s.diff * s.dt < 0)))

/-- **C120, the integrator in every history**, with errors of both signs and beyond the range. Every history falls into an old part that is forgotten and a recent part:
    the integrator is the integral of the error over the recent part, none of it cut off, on top of a start value which is the memory's (if nothing is
    forgotten), zero (if the old part ends with an acceptable error), or a limit (if it ends with an error pushing against that limit). -/
theorem c120_integrator {F : Type} (r : Rng Rat) (hz : r.begin' ≤ 0 ∧ 0 ≤ r.end') (filter : F → Rat → Nat → Rat × F) (order : List Term)
    (ho : order.Perm [.P, .I, .D]) (m : Mem Rat F) (hm : r.begin' ≤ m.acc ∧ m.acc ≤ r.end') (xs : List (Input Rat)) (hdt : ∀ x ∈ xs, 0 < x.delta) :
    ∃ out old recent B, PID.run rat r filter order m xs = .ok out ∧ xs.map pidSample = old ++ recent ∧
      (pidAfter m out).acc = B + area recent ∧
      (∀ p, p <+: recent → r.begin' ≤ B + area p ∧ B + area p ≤ r.end') ∧
      (∀ s ∈ recent, ¬ |s.diff| ≤ s.tol) ∧
      ((old = [] ∧ B = m.acc) ∨ ∃ old' s, old = old' ++ [s] ∧ StartsAfresh r.begin' r.end' s B) := by
  induction xs using List.reverseRecOn with
  | nil =>
    refine ⟨[], [], [], m.acc, rfl, rfl, by simp [pidAfter, area], ?_, by simp, Or.inl ⟨rfl, rfl⟩⟩
    intro p hp
    rw [List.prefix_nil] at hp; subst hp
    simpa [area] using hm
  | append_singleton xs x ih =>
    obtain ⟨o, old, recent, B, h1, h2, h3, h4, h5, h6⟩ := ih (fun y hy => hdt y (by simp [hy]))
    have hin : r.begin' ≤ (pidAfter m o).acc ∧ (pidAfter m o).acc ≤ r.end' := by
      rw [h3]; exact h4 recent (List.prefix_refl _)
    obtain ⟨v, m', e1, e2, e3, e4⟩ := pid_acc_step r hz filter order ho (pidAfter m o) hin x (hdt x (by simp))
    have hrun := pid_snoc r filter order m xs x h1 e1
    have hafter : (pidAfter m (o ++ [(v, m')])).acc = m'.acc := by rw [pidAfter_snoc]
    have hmap : (xs ++ [x]).map pidSample = xs.map pidSample ++ [pidSample x] := by simp
    -- a fresh start
    have fresh : ∀ B', StartsAfresh r.begin' r.end' (pidSample x) B' → m'.acc = B' → ∃ out old recent B, PID.run rat r filter order m (xs ++ [x]) = .ok out ∧
        (xs ++ [x]).map pidSample = old ++ recent ∧ (pidAfter m out).acc = B + area recent ∧
        (∀ p, p <+: recent → r.begin' ≤ B + area p ∧ B + area p ≤ r.end') ∧ (∀ s ∈ recent, ¬ |s.diff| ≤ s.tol) ∧
        ((old = [] ∧ B = m.acc) ∨ ∃ old' s, old = old' ++ [s] ∧ StartsAfresh r.begin' r.end' s B) := by
      intro B' hs hB
      refine ⟨_, xs.map pidSample ++ [pidSample x], [], B', hrun, by simp, by rw [hafter, hB]; simp [area], ?_, by simp, Or.inr ⟨_, _, rfl, hs⟩⟩
      intro p hp
      rw [List.prefix_nil] at hp; subst hp
      simp only [area, List.map_nil, List.sum_nil, add_zero]
      exact ⟨hB ▸ e2, hB ▸ e3⟩
    by_cases hd : |(pidSample x).diff| ≤ (pidSample x).tol
    · rw [if_pos hd] at e4
      exact fresh 0 (Or.inl ⟨hd, rfl⟩) e4
    · rw [if_neg hd] at e4
      have harea : area [pidSample x] = (pidSample x).ki * (pidSample x).diff * (pidSample x).dt := by simp [area]
      have hr : r.begin' ≤ r.end' := le_trans hz.1 hz.2
      by_cases hhi : (pidAfter m o).acc + area [pidSample x] ≤ r.end'
      · by_cases hlo : r.begin' ≤ (pidAfter m o).acc + area [pidSample x]
        · rw [clamp_id ⟨hlo, hhi⟩, h3] at e4
          have hsum : area (recent ++ [pidSample x]) = area recent + area [pidSample x] := by simp [area]
          refine ⟨_, old, recent ++ [pidSample x], B, hrun, by rw [hmap, h2, List.append_assoc], by rw [hafter, e4, hsum]; ring, ?_, ?_, h6⟩
          · intro p hp
            rcases List.prefix_concat_iff.1 hp with hp | hp
            · subst hp
              rw [show B + area (recent ++ [pidSample x]) = (pidAfter m o).acc + area [pidSample x] by rw [hsum, h3]; ring]
              exact ⟨hlo, hhi⟩
            · exact h4 p hp
          · intro s hs
            rcases List.mem_append.1 hs with hs | hs
            · exact h5 s hs
            · simp only [List.mem_singleton] at hs; subst hs; exact hd
        · have hlt := not_le.1 hlo
          refine fresh r.begin' (Or.inr ⟨hd, Or.inr ⟨rfl, ?_⟩⟩) ?_
          · rw [← harea]; linarith [hin.1]
          · rw [e4]; unfold Spec.PID.clamp
            rw [min_eq_left hhi, max_eq_left (le_of_lt hlt)]
      · have hlt := not_le.1 hhi
        refine fresh r.end' (Or.inr ⟨hd, Or.inl ⟨rfl, ?_⟩⟩) ?_
        · rw [← harea]; linarith [hin.2]
        · rw [e4]; unfold Spec.PID.clamp
          rw [min_eq_right (le_of_lt hlt), max_eq_right hr]

example := c120_integrator ⟨-255, 255⟩ (by decide +kernel) (fun (f : Unit) e _ => (e, f)) [.I, .D, .P] (by decide) ⟨0, 0, ()⟩ (by decide +kernel)
  [⟨20, 1 / 2, 10, 100, 2, 1, 5⟩, ⟨120, 1 / 2, 10, 100, 2, 1, 5⟩] (by decide +kernel)

/-- **C120, the output of every call in every history**, for a range with zero and an integrator that starts in it: as `c120_output`, with the integrator of `c120_integrator`. -/
theorem c120_output_exact (c : Rat) (r : Rng Rat) (hz : r.begin' ≤ 0 ∧ 0 ≤ r.end') (order : List Term) (ho : order.Perm [.P, .I, .D]) (m : Mem Rat Rat)
    (hm : r.begin' ≤ m.acc ∧ m.acc ≤ r.end') (xs : List (Input Rat)) (x : Input Rat) (hdt : ∀ y ∈ xs ++ [x], 0 < y.delta) :
    ∃ out v m' old recent B, PID.run rat r (lowPass c) order m (xs ++ [x]) = .ok (out ++ [(v, m')]) ∧
      (xs ++ [x]).map pidSample = old ++ recent ∧
      (∀ p, p <+: recent → r.begin' ≤ B + area p ∧ B + area p ≤ r.end') ∧
      (∀ s ∈ recent, ¬ |s.diff| ≤ s.tol) ∧
      ((old = [] ∧ B = m.acc) ∨ ∃ old' s, old = old' ++ [s] ∧ StartsAfresh r.begin' r.end' s B) ∧
      let err := fun y => (pidSample y).err
      let before := if xs = [] then m.last else smooth c m.filt (xs.map err)
      v = clamp r.begin' r.end' (x.biasP * err x + (B + area recent) +
        x.biasD * (smooth c m.filt ((xs ++ [x]).map err) - before) / x.delta) := by
  have hr : r.begin' ≤ r.end' := le_trans hz.1 hz.2
  obtain ⟨out, old, recent, B, g1, g2, g3, g4, g5, g6⟩ := c120_integrator r hz (lowPass c) order ho m hm (xs ++ [x]) hdt
  obtain ⟨o, y, h1, h2, h3⟩ := pid_prefix r hr (lowPass c) order ho m xs x hdt
  rw [h3] at g1; simp only [Res.ok.injEq] at g1; subst g1
  have hs := pid_smooth c r hr order ho m xs (fun y hy => hdt y (by simp [hy])) h1
  have hs' := pid_smooth c r hr order ho m (xs ++ [x]) hdt h3
  rw [pidAfter_snoc] at g3 hs'
  refine ⟨o, y.1, y.2, old, recent, B, h3, g2, g4, g5, g6, ?_⟩
  rw [process_filter r hr (lowPass c) order ho x (hdt x (by simp))] at h2
  simp only [Res.ok.injEq] at h2
  simp only [← g3, ← hs.2]
  have hl := hs'.2
  rw [if_neg (by simp)] at hl
  rw [← hl, ← h2]

/-- A history that runs into the upper limit, turns, and runs into the lower one. -/
example : (match PID.run rat ⟨-10, 10⟩ (lowPass 1) [.P, .I, .D] ⟨0, 0, 0⟩ [⟨92, 0, 1, 100, 0, 1, 0⟩, ⟨92, 0, 1, 100, 0, 1, 0⟩, ⟨107, 0, 1, 100, 0, 1, 0⟩, ⟨120, 0, 1, 100, 0, 1, 0⟩, ⟨99, 0, 1, 100, 0, 1, 0⟩] with
      | .ok l => some (l.map Prod.fst)
      | .ub => none) = some [8, 10, 3, -10, -9] := by
  decide +kernel

/-- **C120, a lasting error is not tolerated.** If every error is positive and outside the tolerance and each call adds at least `q` to the integral, then
    after `n` calls with `n * q` at least the width of the range the integrator is at its upper limit, whatever it was before. -/
theorem c120_saturates {F : Type} (r : Rng Rat) (hz : r.begin' ≤ 0 ∧ 0 ≤ r.end') (filter : F → Rat → Nat → Rat × F) (order : List Term)
    (ho : order.Perm [.P, .I, .D]) (m : Mem Rat F) (hm : r.begin' ≤ m.acc ∧ m.acc ≤ r.end') (xs : List (Input Rat)) (q : Rat)
    (hx : ∀ x ∈ xs, 0 < x.delta ∧ 0 < x.biasI ∧ x.feedback ≤ x.setPoint ∧ x.largest < x.setPoint - x.feedback ∧
      q ≤ x.biasI * (x.setPoint - x.feedback) * x.delta) (hn : r.end' - r.begin' ≤ xs.length * q) :
    ∃ out, PID.run rat r filter order m xs = .ok out ∧ (pidAfter m out).acc = r.end' := by
  obtain ⟨out, h1, h2, _⟩ := c120_one_sided r hz filter order ho m hm xs (fun x h => ⟨(hx x h).1, (hx x h).2.1, (hx x h).2.2.1⟩)
  refine ⟨out, h1, ?_⟩
  rw [h2]
  have key : m.acc + xs.length * q ≤ integral m.acc (xs.map pidSample) := by
    rename_i hlow
    clear h1 h2 hn hlow
    induction xs using List.reverseRecOn with
    | nil => simp [integral, sinceOk, area]
    | append_singleton xs x ih =>
      obtain ⟨_, _, _, h4, h5⟩ := hx x (by simp)
      have := ih (fun y hy => hx y (by simp [hy]))
      simp only [List.map_append, List.map_cons, List.map_nil, integral_snoc, List.length_append, List.length_cons, List.length_nil]
      rw [if_neg]
      · simp only [pidSample] at *
        push_cast
        linarith
      · simp only [pidSample]
        intro h
        have := le_trans (le_abs_self _) h
        linarith
  rw [min_eq_right]
  linarith [hm.1]

/-- The documented time constant gives a filter constant between 0 and 1. -/
theorem c120_time_constant (tc : Rat) (htc : 0 ≤ tc) (dt : Nat) (hdt : 0 < dt) (f e : Rat) :
    ∃ c, 0 < c ∧ c ≤ 1 ∧ lowPassTime tc f e dt = lowPass c f e dt := by
  have h : (0 : Rat) < dt := by exact_mod_cast hdt
  refine ⟨dt / (dt + tc), div_pos h (by linarith), (div_le_one (by linarith)).2 (by linarith), rfl⟩

example := c120_time_constant (5 / 2) (by decide +kernel) 10 (by decide) 3 8

/-- **C120, the filter invents nothing.** With a filter constant between 0 and 1 (which the documented time constant gives) the smoothed error stays between any bounds that hold for the errors
    and for the start value. -/
theorem c120_filter_bounded (c : Rat) (h0 : 0 ≤ c) (h1 : c ≤ 1) (y a b : Rat) (hy : a ≤ y ∧ y ≤ b) (es : List Rat) (he : ∀ e ∈ es, a ≤ e ∧ e ≤ b) :
    a ≤ smooth c y es ∧ smooth c y es ≤ b := by
  induction es using List.reverseRecOn with
  | nil => simpa [smooth, weighted] using hy
  | append_singleton es e ih =>
    obtain ⟨i1, i2⟩ := ih (fun e h => he e (by simp [h]))
    obtain ⟨e1, e2⟩ := he e (by simp)
    rw [smooth_snoc]
    have : 0 ≤ 1 - c := by linarith
    constructor
    · nlinarith
    · nlinarith

example := c120_filter_bounded (1 / 4) (by decide +kernel) (by decide +kernel) 3 0 10 (by decide +kernel) [8, 0, 10, 5] (by decide +kernel)

/-- **C120, a constant error.** The smoothed error approaches it geometrically: what is missing shrinks by `1 - c` per call. -/
theorem c120_step_response (c y e : Rat) (n : Nat) : smooth c y (List.replicate n e) = e - (1 - c) ^ n * (e - y) := by
  induction n with
  | zero => simp [smooth, weighted]
  | succ n ih => rw [List.replicate_succ', smooth_snoc, ih, pow_succ]; ring

/-- **C120 is false for the documented sum.** The documentation (PID.h 30) adds up all earlier I terms; one call with an acceptable error drops them: feedback 90, 100, 90 for the
    set point 100 with integral gain 1 ends at 10, not at 20 - and at the set point itself the output that reached it is taken away. -/
theorem c120_sum_fails :
    (match PID.run rat ⟨0, 255⟩ (lowPass 1) [.P, .I, .D] ⟨0, 0, 0⟩ [⟨90, 1, 1, 100, 0, 1, 0⟩, ⟨100, 1, 1, 100, 0, 1, 0⟩, ⟨90, 1, 1, 100, 0, 1, 0⟩] with
      | .ok l => some (l.map Prod.fst)
      | .ub => none) = some [10, 0, 10] := by
  decide +kernel

/-- The hypotheses of `c120_output` are met by a history with changing gains, a tolerated error in the middle and a smoothing constant of 1/2. -/
example : (match PID.run rat ⟨-100, 100⟩ (lowPass (1/2)) [.D, .I, .P] ⟨0, 0, 0⟩ [⟨90, 1, 2, 100, 1, 1, 4⟩, ⟨100, 1, 2, 100, 1, 1, 4⟩, ⟨108, 1, 2, 100, 2, 1, 4⟩] with
      | .ok l => some (l.map Prod.fst)
      | .ub => none) = some [40, -5, -85/2] := by
  decide +kernel

example : ∃ out v m', PID.run rat ⟨-100, 100⟩ (lowPass (1/2)) [.D, .I, .P] ⟨0, 0, 0⟩ ([⟨90, 1, 2, 100, 1, 1, 4⟩] ++ [⟨108, 1, 2, 100, 2, 1, 4⟩]) = .ok (out ++ [(v, m')]) := by
  obtain ⟨out, v, m', h, -⟩ := c120_output (1/2) ⟨-100, 100⟩ (by decide +kernel) [.D, .I, .P] (by decide) ⟨0, 0, 0⟩ [⟨90, 1, 2, 100, 1, 1, 4⟩] ⟨108, 1, 2, 100, 2, 1, 4⟩
    (by decide) (fun p hp => by
      rw [List.prefix_iff_eq_take] at hp
      rw [hp]
      rcases h : p.length with _ | _ | n
      · decide +kernel
      · decide +kernel
      · rw [List.take_of_length_le (by simp)]; decide +kernel)
  exact ⟨out, v, m', h⟩

end Atl.Props
