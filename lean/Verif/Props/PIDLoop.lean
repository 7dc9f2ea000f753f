import Verif.Props.PID
import Verif.Model.PIDLoop
import Mathlib.Algebra.Order.Archimedean.Basic
import Mathlib.Data.Rat.Floor
import Mathlib.Tactic.Linarith
import Mathlib.Tactic.Ring
import Mathlib.Tactic.FieldSimp
/- Property theorems C128: a PID controller in a closed loop. -/
namespace Atl.Props
open Atl Atl.PID Atl.PID.Loop Atl.Range

/-- The error is acceptable: within the tolerance. -/
def Acceptable (s tol y : Rat) : Prop := |s - y| ≤ tol

instance (s tol y : Rat) : Decidable (Acceptable s tol y) := by unfold Acceptable; infer_instance

/-- The settings of a call: set point and tolerance are fixed, the gains and the (positive) time step may change from call to call. -/
def Aims (s tol : Rat) (c : Input Rat) : Prop := c.setPoint = s ∧ c.largest = tol ∧ 0 < c.delta

theorem clamp_zero {r : Rng Rat} (hz : r.begin' ≤ 0 ∧ 0 ≤ r.end') : Spec.PID.clamp r.begin' r.end' 0 = 0 := by
  unfold Spec.PID.clamp; rw [min_eq_left hz.2, max_eq_right hz.1]

/-- A call that measures something acceptable, after a call that did so. -/
theorem rests {r : Rng Rat} (hz : r.begin' ≤ 0 ∧ 0 ≤ r.end') {order : List Term} (ho : order.Perm [.P, .I, .D]) {s tol : Rat} {c : Input Rat} (hc : Aims s tol c)
    (m : Mem Rat Unit) (y : Rat) (hy : Acceptable s tol y) :
    ∃ v, process rat r (fun f e _ => (e, f)) order { c with feedback := y } m = .ok (v, { m with acc := 0, last := 0 }) ∧ (m.last = 0 → v = 0) := by
  obtain ⟨h1, h2, h3⟩ := hc
  refine ⟨_, c36_dead_band r (le_trans hz.1 hz.2) order ho { c with feedback := y } h3 m ?_ hz, ?_⟩
  · show |c.setPoint - y| ≤ c.largest
    rw [h1, h2]; exact hy
  · intro h
    rw [h]
    simp [clamp_zero hz]

/-- The loop is defined for every history with positive time steps. -/
theorem loop_defined {X : Type} (P : Plant X) (r : Rng Rat) (hr : r.begin' ≤ r.end') {order : List Term} (ho : order.Perm [.P, .I, .D]) (cs : List (Input Rat))
    (hd : ∀ c ∈ cs, 0 < c.delta) (x : X) (m : Mem Rat Unit) : ∃ ys x' m', loop P r order x m cs = .ok (ys, x', m') ∧ ys.length = cs.length := by
  induction cs generalizing x m with
  | nil => exact ⟨[], x, m, rfl, rfl⟩
  | cons c cs ih =>
    have hp := c36_formula r hr order ho { c with feedback := P.out x } (hd c List.mem_cons_self) m
    obtain ⟨ys, x', m', h, hl⟩ := ih (fun d hd' => hd d (List.mem_cons_of_mem _ hd')) (P.next x (Spec.PID.step r.begin' r.end' m.acc m.last c.setPoint (P.out x) c.largest c.delta c.biasP c.biasI c.biasD).1)
      { m with acc := (Spec.PID.step r.begin' r.end' m.acc m.last c.setPoint (P.out x) c.largest c.delta c.biasP c.biasI c.biasD).2.1,
               last := (Spec.PID.step r.begin' r.end' m.acc m.last c.setPoint (P.out x) c.largest c.delta c.biasP c.biasI c.biasD).2.2 }
    refine ⟨P.out x :: ys, x', m', ?_, by simp [hl]⟩
    rw [loop, hp]
    simp only [Res.bind_ok, h]

theorem loop_append {X : Type} (P : Plant X) (r : Rng Rat) (order : List Term) (as bs : List (Input Rat)) (x : X) (m : Mem Rat Unit) :
    loop P r order x m (as ++ bs) = (do
      let (ys, x', m') ← loop P r order x m as
      let (zs, x'', m'') ← loop P r order x' m' bs
      .ok (ys ++ zs, x'', m'')) := by
  induction as generalizing x m with
  | nil =>
    simp only [List.nil_append, loop, Res.bind_ok]
    cases loop P r order x m bs <;> rfl
  | cons a as ih =>
    simp only [List.cons_append, loop]
    cases process rat r (fun f e _ => (e, f)) order { a with feedback := P.out x } m with
    | ub => rfl
    | ok p =>
      obtain ⟨v, m'⟩ := p
      simp only [Res.bind_ok, ih]
      cases loop P r order (P.next x v) m' as with
      | ub => rfl
      | ok q =>
        obtain ⟨ys, x', m''⟩ := q
        simp only [Res.bind_ok]
        cases loop P r order x' m'' bs <;> rfl

/-- The state of the plant after `k` calls without any action. -/
def idle {X : Type} (P : Plant X) (x : X) : Nat → X
  | 0 => x
  | k + 1 => idle P (P.next x 0) k

/-- While everything measured is acceptable the plant is left to itself. -/
theorem rests_idle {X : Type} (P : Plant X) {r : Rng Rat} (hz : r.begin' ≤ 0 ∧ 0 ≤ r.end') {order : List Term} (ho : order.Perm [.P, .I, .D]) {s tol : Rat}
    (cs : List (Input Rat)) (hc : ∀ c ∈ cs, Aims s tol c) (x : X) (m : Mem Rat Unit) (hm : m.last = 0) (ys : List Rat) (x' : X) (m' : Mem Rat Unit)
    (h : loop P r order x m cs = .ok (ys, x', m')) (hy : ∀ y ∈ ys, Acceptable s tol y) : ∀ k, k < cs.length → Acceptable s tol (P.out (idle P x k)) := by
  induction cs generalizing x m ys with
  | nil => intro k hk; simp at hk
  | cons c cs ih =>
    have ha : Acceptable s tol (P.out x) := by
      rw [loop] at h
      cases hp : process rat r (fun f e _ => (e, f)) order { c with feedback := P.out x } m with
      | ub => rw [hp] at h; cases h
      | ok p =>
        rw [hp] at h
        simp only [Res.bind_ok] at h
        cases hl : loop P r order (P.next x p.1) p.2 cs with
        | ub => rw [hl] at h; cases h
        | ok q =>
          rw [hl] at h
          simp only [Res.bind_ok] at h
          injection h with h
          injection h with h _
          exact hy _ (by rw [← h]; exact List.mem_cons_self)
    obtain ⟨v, hp, hv⟩ := rests hz ho (hc c List.mem_cons_self) m (P.out x) ha
    rw [loop, hp, hv hm] at h
    simp only [Res.bind_ok] at h
    cases hl : loop P r order (P.next x 0) { m with acc := 0, last := 0 } cs with
    | ub => rw [hl] at h; cases h
    | ok q =>
      obtain ⟨zs, x1, m1⟩ := q
      rw [hl] at h
      simp only [Res.bind_ok] at h
      injection h with h
      injection h with h h2
      injection h2 with h2 h3
      intro k hk
      cases k with
      | zero => exact ha
      | succ k =>
        refine ih (fun d hd => hc d (List.mem_cons_of_mem _ hd)) (P.next x 0) { m with acc := 0, last := 0 } rfl zs ?_ ?_ k (by simpa using hk)
        · rw [hl, h2, h3]
        · intro y hmem; exact hy y (by rw [← h]; exact List.mem_cons_of_mem _ hmem)

/-- **C128 fails** for every plant that needs a lasting action: if, left to itself, it is out of tolerance within `n` steps from wherever it is, then in no history - whatever the
    gains, the time steps, the start values of plant and controller - are `n + 2` successive measurements acceptable. The dead band throws the integral away (PID.h 95) and
    with it the action that held the plant. -/
theorem c128_never_settles_fails {X : Type} (P : Plant X) {r : Rng Rat} (hz : r.begin' ≤ 0 ∧ 0 ≤ r.end') {order : List Term} (ho : order.Perm [.P, .I, .D]) {s tol : Rat} (n : Nat)
    (hP : ∀ x, ∃ k, k ≤ n ∧ ¬ Acceptable s tol (P.out (idle P x k))) (cs : List (Input Rat)) (hc : ∀ c ∈ cs, Aims s tol c) (x : X) (m : Mem Rat Unit) :
    ∃ ys x' m', loop P r order x m cs = .ok (ys, x', m') ∧ ys.length = cs.length ∧
      ∀ a b c, ys = a ++ b ++ c → b.length = n + 2 → ∃ y ∈ b, ¬ Acceptable s tol y := by
  obtain ⟨ys, x', m', h, hl⟩ := loop_defined P r (le_trans hz.1 hz.2) ho cs (fun c hcm => (hc c hcm).2.2) x m
  refine ⟨ys, x', m', h, hl, ?_⟩
  intro a b c hys hb
  apply Classical.byContradiction
  intro hno
  have hall : ∀ y ∈ b, Acceptable s tol y := fun y hy => Classical.byContradiction fun hny => hno ⟨y, hy, hny⟩
  -- split the calls as the measurements
  have hlen : cs.length = a.length + (b.length + c.length) := by rw [← hl, hys]; simp only [List.length_append]; omega
  obtain ⟨ca, cb, cc, hcs, hla, hlb⟩ : ∃ ca cb cc, cs = ca ++ (cb ++ cc) ∧ ca.length = a.length ∧ cb.length = b.length := by
    refine ⟨cs.take a.length, (cs.drop a.length).take b.length, (cs.drop a.length).drop b.length, by simp, by simp; omega, by simp; omega⟩
  have hca : ∀ d ∈ ca, Aims s tol d := fun d hd => hc d (by rw [hcs]; simp [hd])
  have hcb : ∀ d ∈ cb, Aims s tol d := fun d hd => hc d (by rw [hcs]; simp [hd])
  have hcc : ∀ d ∈ cc, Aims s tol d := fun d hd => hc d (by rw [hcs]; simp [hd])
  obtain ⟨ya, xa, ma, ha, la⟩ := loop_defined P r (le_trans hz.1 hz.2) ho ca (fun d hd => (hca d hd).2.2) x m
  obtain ⟨yb, xb, mb, hbb, lb⟩ := loop_defined P r (le_trans hz.1 hz.2) ho cb (fun d hd => (hcb d hd).2.2) xa ma
  obtain ⟨yc, xc, mc, hcc2, lc⟩ := loop_defined P r (le_trans hz.1 hz.2) ho cc (fun d hd => (hcc d hd).2.2) xb mb
  have hyb : yb = b := by
    rw [hcs, loop_append, ha] at h
    simp only [Res.bind_ok, loop_append, hbb, hcc2] at h
    injection h with h
    injection h with h _
    rw [hys, List.append_assoc] at h
    have h1 := List.append_inj h (by omega)
    exact (List.append_inj h1.2 (by omega)).1
  subst hyb
  cases cb with
  | nil => simp at hlb; omega
  | cons d ds =>
    have hd : Acceptable s tol (P.out xa) := by
      rw [loop] at hbb
      cases hp : process rat r (fun f e _ => (e, f)) order { d with feedback := P.out xa } ma with
      | ub => rw [hp] at hbb; cases hbb
      | ok p =>
        rw [hp] at hbb
        simp only [Res.bind_ok] at hbb
        cases hq : loop P r order (P.next xa p.1) p.2 ds with
        | ub => rw [hq] at hbb; cases hbb
        | ok q =>
          rw [hq] at hbb
          simp only [Res.bind_ok] at hbb
          injection hbb with hbb
          injection hbb with hbb _
          exact hall _ (by rw [← hbb]; exact List.mem_cons_self)
    obtain ⟨v, hp, _⟩ := rests hz ho (hcb d List.mem_cons_self) ma (P.out xa) hd
    rw [loop, hp] at hbb
    simp only [Res.bind_ok] at hbb
    cases hq : loop P r order (P.next xa v) { ma with acc := 0, last := 0 } ds with
    | ub => rw [hq] at hbb; cases hbb
    | ok q =>
      obtain ⟨zs, x1, m1⟩ := q
      rw [hq] at hbb
      simp only [Res.bind_ok] at hbb
      injection hbb with hbb
      injection hbb with e1 e2
      injection e2 with e2 e3
      obtain ⟨k, hk, hk2⟩ := hP (P.next xa v)
      refine hk2 (rests_idle P hz ho ds (fun e he => hcb e (List.mem_cons_of_mem _ he)) (P.next xa v) { ma with acc := 0, last := 0 } rfl zs x1 m1 hq ?_ k ?_)
      · intro y hy; exact hall y (by rw [← e1]; exact List.mem_cons_of_mem _ hy)
      · simp at hlb; omega

/-! ### Plants -/

/-- A lamp, a valve: what is measured follows the last value at once. -/
def direct (f : Rat → Rat) : Plant Rat := ⟨f, fun _ u => u⟩

/-- A heater: per call the temperature moves by the fraction `c` towards that of the surroundings plus the action. -/
def heater (c amb : Rat) : Plant Rat := ⟨id, fun y u => y + c * (amb + u - y)⟩

/-- A motor that moves something: per call the position moves by `g` times the action. -/
def mover (g : Rat) : Plant Rat := ⟨id, fun y u => y + g * u⟩

/-- **C128 fails** for a plant that follows the value at once and needs an action: no three measurements in a row are acceptable, whatever the gains. -/
theorem c128_direct_fails (f : Rat → Rat) {r : Rng Rat} (hz : r.begin' ≤ 0 ∧ 0 ≤ r.end') {order : List Term} (ho : order.Perm [.P, .I, .D]) {s tol : Rat}
    (hf : ¬ Acceptable s tol (f 0)) (cs : List (Input Rat)) (hc : ∀ c ∈ cs, Aims s tol c) (u : Rat) (m : Mem Rat Unit) :
    ∃ ys x' m', loop (direct f) r order u m cs = .ok (ys, x', m') ∧ ys.length = cs.length ∧
      ∀ a b c, ys = a ++ b ++ c → b.length = 3 → ∃ y ∈ b, ¬ Acceptable s tol y :=
  c128_never_settles_fails (direct f) hz ho 1 (fun _ => ⟨1, Nat.le_refl 1, hf⟩) cs hc u m

theorem idle_heater (c amb y : Rat) (k : Nat) : idle (heater c amb) y k = amb + (1 - c) ^ k * (y - amb) := by
  induction k generalizing y with
  | zero => simp [idle]
  | succ k ih =>
    rw [idle, ih]
    simp only [heater]
    ring

/-- **C128 fails** for a heater whose set point is more than the tolerance above the surroundings: there is a number such that in no history, whatever the gains, so many measurements
    in a row are acceptable. -/
theorem c128_heater_fails (c amb s tol : Rat) (hc0 : 0 < c) (hc1 : c ≤ 1) (hs : amb < s - tol) :
    ∃ n, ∀ (r : Rng Rat) (order : List Term) (cs : List (Input Rat)) (y : Rat) (m : Mem Rat Unit), r.begin' ≤ 0 ∧ 0 ≤ r.end' → order.Perm [.P, .I, .D] →
      (∀ c ∈ cs, Aims s tol c) →
      ∃ ys x' m', loop (heater c amb) r order y m cs = .ok (ys, x', m') ∧ ys.length = cs.length ∧
        ∀ a b c, ys = a ++ b ++ c → b.length = n → ∃ y ∈ b, ¬ Acceptable s tol y := by
  -- the number of steps in which the heater cools down from the upper end of the tolerance
  have hd : 0 < s - tol - amb := by linarith
  obtain ⟨k, hk⟩ : ∃ k : Nat, (1 - c) ^ k * (|s + tol - amb| + 1) < s - tol - amb := by
    have hb : 0 < |s + tol - amb| + 1 := by have := abs_nonneg (s + tol - amb); linarith
    obtain ⟨k, hk⟩ := exists_pow_lt_of_lt_one (div_pos hd hb) (show 1 - c < 1 by linarith)
    exact ⟨k, by rwa [lt_div_iff₀ hb] at hk⟩
  refine ⟨k + 2, fun r order cs y m hz ho hc => c128_never_settles_fails (heater c amb) hz ho k ?_ cs hc y m⟩
  intro x
  by_cases hx : Acceptable s tol x
  · refine ⟨k, Nat.le_refl k, ?_⟩
    rw [idle_heater]
    unfold Acceptable at hx ⊢
    have hx' := abs_le.mp hx
    simp only [heater, id]
    have hp : 0 ≤ (1 - c) ^ k := pow_nonneg (by linarith) k
    have h1 : (1 - c) ^ k * (x - amb) ≤ (1 - c) ^ k * (|s + tol - amb| + 1) := by
      refine mul_le_mul_of_nonneg_left ?_ hp
      have := le_abs_self (s + tol - amb)
      linarith [hx'.1]
    intro hcon
    have := (abs_le.mp hcon).2
    linarith
  · exact ⟨0, Nat.zero_le _, by simpa [idle, heater] using hx⟩

/-- The error after one call of proportional control of a mover. -/
def pull (lo hi g kp tol e : Rat) : Rat := if |e| ≤ tol then e else e - g * Spec.PID.clamp lo hi (kp * e)

/-- What one call takes from an error outside the tolerance. -/
theorem pull_shrinks {lo hi g kp tol e : Rat} (hlo : lo < 0) (hhi : 0 < hi) (hg : 0 < g) (hk : 0 < kp) (hgk : g * kp < 2) (ht : 0 ≤ tol) (he : tol < |e|) (q : Rat)
    (q1 : q ≤ g * kp * tol) (q2 : q ≤ (2 - g * kp) * tol) (q3 : q ≤ g * hi) (q4 : q ≤ -(g * lo)) :
    |pull lo hi g kp tol e| ≤ |e| - q := by
  unfold pull
  rw [if_neg (by linarith)]
  unfold Spec.PID.clamp
  have hgk0 : 0 < g * kp := mul_pos hg hk
  rcases le_or_gt 0 e with h0 | h0
  · rw [abs_of_nonneg h0] at he ⊢
    have hke : 0 ≤ kp * e := mul_nonneg (le_of_lt hk) h0
    have b1 : g * kp * tol ≤ g * kp * e := mul_le_mul_of_nonneg_left (le_of_lt he) (le_of_lt hgk0)
    have b2 : (2 - g * kp) * tol ≤ (2 - g * kp) * e := mul_le_mul_of_nonneg_left (le_of_lt he) (by linarith)
    rw [max_eq_right (by rw [le_min_iff]; constructor <;> linarith)]
    rcases le_total (kp * e) hi with h | h
    · rw [min_eq_left h, abs_le]
      constructor <;> nlinarith
    · rw [min_eq_right h, abs_le]
      have b3 : g * hi ≤ g * (kp * e) := mul_le_mul_of_nonneg_left h (le_of_lt hg)
      constructor <;> nlinarith
  · rw [abs_of_neg h0] at he ⊢
    have hke : kp * e < 0 := mul_neg_of_pos_of_neg hk h0
    have b1 : g * kp * tol ≤ g * kp * -e := mul_le_mul_of_nonneg_left (le_of_lt he) (le_of_lt hgk0)
    have b2 : (2 - g * kp) * tol ≤ (2 - g * kp) * -e := mul_le_mul_of_nonneg_left (le_of_lt he) (by linarith)
    rw [min_eq_left (by linarith)]
    rcases le_total lo (kp * e) with h | h
    · rw [max_eq_right h, abs_le]
      constructor <;> nlinarith
    · rw [max_eq_left h, abs_le]
      have b3 : g * (kp * e) ≤ g * lo := mul_le_mul_of_nonneg_left h (le_of_lt hg)
      constructor <;> nlinarith

/-- One call of proportional control of a mover. -/
theorem mover_call {r : Rng Rat} (hz : r.begin' ≤ 0 ∧ 0 ≤ r.end') {order : List Term} (ho : order.Perm [.P, .I, .D]) {s tol kp g : Rat} {c : Input Rat} (hc : Aims s tol c)
    (hp : c.biasP = kp) (hi : c.biasI = 0) (hd : c.biasD = 0) (y : Rat) (m : Mem Rat Unit) (hm : m.acc = 0) :
    ∃ v m', process rat r (fun f e _ => (e, f)) order { c with feedback := y } m = .ok (v, m') ∧ m'.acc = 0 ∧
      s - (y + g * v) = pull r.begin' r.end' g kp tol (s - y) := by
  obtain ⟨h1, h2, h3⟩ := hc
  refine ⟨_, _, c36_formula r (le_trans hz.1 hz.2) order ho { c with feedback := y } h3 m, ?_, ?_⟩
  · simp only [Spec.PID.step, hi, if_true, hm]
    split <;> rfl
  · simp only [Spec.PID.step, hi, hd, if_true, hm, h1, h2, hp, pull]
    by_cases h : |s - y| ≤ tol
    · simp [h, clamp_zero hz]
    · simp only [h, if_false, zero_mul, zero_div, add_zero]
      ring

/-- **C128, partial (a mover under proportional control).** With a gain small enough for the plant, a range with zero inside, a positive tolerance and a cleared integrator, the measured value is
    acceptable after a number of calls that can be calculated, and from then on for ever. `q` is what each call takes from the error at least. -/
theorem c128_mover_partial {r : Rng Rat} (hlo : r.begin' < 0) (hhi : 0 < r.end') {order : List Term} (ho : order.Perm [.P, .I, .D]) {s tol kp g q : Rat} (hg : 0 < g) (hk : 0 < kp)
    (hgk : g * kp < 2) (ht : 0 ≤ tol) (hq : 0 ≤ q) (q1 : q ≤ g * kp * tol) (q2 : q ≤ (2 - g * kp) * tol) (q3 : q ≤ g * r.end') (q4 : q ≤ -(g * r.begin'))
    (cs : List (Input Rat)) (hc : ∀ c ∈ cs, Aims s tol c ∧ c.biasP = kp ∧ c.biasI = 0 ∧ c.biasD = 0) (y : Rat) (m : Mem Rat Unit) (hm : m.acc = 0)
    (hn : |s - y| ≤ tol + cs.length * q) :
    ∃ ys y' m', loop (mover g) r order y m cs = .ok (ys, y', m') ∧ Acceptable s tol y' := by
  have hz : r.begin' ≤ 0 ∧ 0 ≤ r.end' := ⟨le_of_lt hlo, le_of_lt hhi⟩
  induction cs generalizing y m with
  | nil => exact ⟨[], y, m, rfl, by simpa [Acceptable] using hn⟩
  | cons c cs ih =>
    obtain ⟨hA, hp, hi, hd⟩ := hc c List.mem_cons_self
    obtain ⟨v, m1, he, hm1, hpull⟩ := mover_call (g := g) hz ho hA hp hi hd y m hm
    have hstep : |s - (y + g * v)| ≤ tol + cs.length * q := by
      rw [hpull]
      have hl : (0 : Rat) ≤ cs.length * q := mul_nonneg (Nat.cast_nonneg _) hq
      by_cases h : |s - y| ≤ tol
      · unfold pull
        rw [if_pos h]; linarith
      · have := pull_shrinks hlo hhi hg hk hgk ht (lt_of_not_ge h) q q1 q2 q3 q4
        have e : ((c :: cs).length : Rat) = cs.length + 1 := by simp
        rw [e] at hn
        linarith
    obtain ⟨ys, y', m', h, hacc⟩ := ih (fun d hd => hc d (List.mem_cons_of_mem _ hd)) (y + g * v) m1 hm1 hstep
    refine ⟨y :: ys, y', m', ?_, hacc⟩
    have e1 : loop (mover g) r order y m (c :: cs) = (do
      let (v, m') ← process rat r (fun f e _ => (e, f)) order { c with feedback := y } m
      let (ys, x', m'') ← loop (mover g) r order (y + g * v) m' cs
      .ok (y :: ys, x', m'')) := rfl
    rw [e1, he]
    simp only [Res.bind_ok, h]

example := c128_mover_partial (r := ⟨-40, 40⟩) (by decide +kernel) (by decide +kernel) (order := [.P, .I, .D]) (by decide) (s := 100) (tol := 5) (kp := 1 / 2) (g := 1) (q := 2) (by decide +kernel)
  (by decide +kernel) (by decide +kernel) (by decide +kernel) (by decide +kernel) (by decide +kernel) (by decide +kernel) (by decide +kernel) (by decide +kernel)
  (List.replicate 48 ⟨0, 5, 1, 100, 1 / 2, 0, 0⟩) (by intro c hc; obtain ⟨-, rfl⟩ := List.mem_replicate.1 hc; exact ⟨by unfold Aims; decide +kernel, rfl, rfl, rfl⟩) 0 ⟨0, 0, ()⟩ rfl
  (by decide +kernel)

/-- **C128, partial (integral control with tolerance 0).** A plant that follows the value at once with gain `g` and offset `d`: with no tolerance, integral action only and a range that contains the
    value needed, the error shrinks by the same factor in every call - the very loop that with any positive tolerance never settles (`c128_direct_fails`). -/
theorem c128_integral_partial {r : Rng Rat} {order : List Term} (ho : order.Perm [.P, .I, .D]) {s g d ki : Rat} {dt : Nat} (hg : 0 < g) (hdt : 0 < dt) (hki : 0 < ki)
    (hlt : g * (ki * dt) < 1) (hin : r.begin' ≤ (s - d) / g ∧ (s - d) / g ≤ r.end') (n : Nat) (u : Rat) (m : Mem Rat Unit) (hu : r.begin' ≤ u ∧ u ≤ r.end') (hm : m.acc = u)
    (hne : s ≠ g * u + d) (c : Input Rat) (hc : Aims s 0 c ∧ c.delta = dt ∧ c.biasP = 0 ∧ c.biasI = ki ∧ c.biasD = 0) :
    ∃ ys u' m', loop (direct fun u => g * u + d) r order u m (List.replicate n c) = .ok (ys, u', m') ∧
      s - (g * u' + d) = (1 - g * (ki * dt)) ^ n * (s - (g * u + d)) := by
  induction n generalizing u m with
  | zero => exact ⟨[], u, m, rfl, by simp⟩
  | succ n ih =>
    obtain ⟨⟨h1, h2, h3⟩, hd, hp, hi, hD⟩ := hc
    have hr : r.begin' ≤ r.end' := le_trans hu.1 hu.2
    have hdt' : (0 : Rat) < dt := by exact_mod_cast hdt
    have hkd : 0 < ki * dt := mul_pos hki hdt'
    have hns : ¬ |s - (g * u + d)| ≤ 0 := by
      intro h
      exact hne (by have := abs_nonpos_iff.mp h; linarith)
    -- the new value lies between the old one and the one needed
    obtain ⟨t, ht0, ht1, htv⟩ : ∃ t : Rat, 0 ≤ t ∧ t ≤ 1 ∧ t = g * (ki * dt) := ⟨_, le_of_lt (mul_pos hg hkd), le_of_lt hlt, rfl⟩
    have hg0 : g ≠ 0 := ne_of_gt hg
    have hval : u + ki * (s - (g * u + d)) * dt = (1 - t) * u + t * ((s - d) / g) := by
      rw [htv]; field_simp; ring
    have hlo : r.begin' ≤ u + ki * (s - (g * u + d)) * dt := by
      rw [hval]
      nlinarith [mul_nonneg ht0 (sub_nonneg.mpr hin.1), mul_nonneg (sub_nonneg.mpr ht1) (sub_nonneg.mpr hu.1)]
    have hhi : u + ki * (s - (g * u + d)) * dt ≤ r.end' := by
      rw [hval]
      nlinarith [mul_nonneg ht0 (sub_nonneg.mpr hin.2), mul_nonneg (sub_nonneg.mpr ht1) (sub_nonneg.mpr hu.2)]
    have hcl : Spec.PID.clamp r.begin' r.end' (u + ki * (s - (g * u + d)) * dt) = u + ki * (s - (g * u + d)) * dt := by
      unfold Spec.PID.clamp
      rw [min_eq_left hhi, max_eq_right hlo]
    have hf := c36_formula r hr order ho { c with feedback := g * u + d } h3 m
    have hki0 : ki ≠ 0 := ne_of_gt hki
    simp only [Spec.PID.step, h1, h2, hp, hi, hD, hm, hns, if_false, hki0, hd, zero_mul, zero_div, add_zero, zero_add, hcl] at hf
    have herr : s - (g * (u + ki * (s - (g * u + d)) * dt) + d) = (1 - g * (ki * dt)) * (s - (g * u + d)) := by ring
    obtain ⟨ys, u', m', h, hu'⟩ := ih (u + ki * (s - (g * u + d)) * dt) { m with acc := u + ki * (s - (g * u + d)) * dt, last := s - (g * u + d) } ⟨hlo, hhi⟩ rfl
      (by
        intro hcon
        have h0 : (1 - g * (ki * dt)) * (s - (g * u + d)) = 0 := by rw [← herr]; linarith
        rcases mul_eq_zero.mp h0 with h0 | h0
        · linarith
        · exact hne (by linarith))
    refine ⟨(g * u + d) :: ys, u', m', ?_, ?_⟩
    · have e1 : loop (direct fun u => g * u + d) r order u m (c :: List.replicate n c) = (do
        let (v, m') ← process rat r (fun f e _ => (e, f)) order { c with feedback := g * u + d } m
        let (ys, x', m'') ← loop (direct fun u => g * u + d) r order v m' (List.replicate n c)
        .ok ((g * u + d) :: ys, x', m'')) := rfl
      rw [List.replicate_succ, e1, h1, h2, hd, hp, hi, hD, hf]
      simp only [Res.bind_ok, h]
    · rw [hu', herr, pow_succ]; ring

/-- A lamp with set point 100 and tolerance 5 under integral control: it comes near, is in tolerance once, is switched off, and so on; the same lamp without tolerance approaches 100; a motor
    with a limited speed reaches its position and stays. -/
example : (match loop (direct id) ⟨0, 255⟩ [.P, .I, .D] 0 ⟨0, 0, ()⟩ (List.replicate 9 ⟨0, 5, 1, 100, 0, 3 / 4, 0⟩) with | .ok (ys, _, _) => some ys | .ub => none) =
      some [0, 75, 375 / 4, 1575 / 16, 0, 75, 375 / 4, 1575 / 16, 0] ∧
    (match loop (direct id) ⟨0, 255⟩ [.P, .I, .D] 0 ⟨0, 0, ()⟩ (List.replicate 5 ⟨0, 0, 1, 100, 0, 3 / 4, 0⟩) with | .ok (ys, _, _) => some ys | .ub => none) =
      some [0, 75, 375 / 4, 1575 / 16, 6375 / 64] ∧
    (match loop (mover 1) ⟨-40, 40⟩ [.P, .I, .D] 0 ⟨0, 0, ()⟩ (List.replicate 7 ⟨0, 1, 1, 100, 1, 0, 0⟩) with | .ok (ys, _, _) => some ys | .ub => none) =
      some [0, 40, 80, 100, 100, 100, 100] := by decide +kernel

end Atl.Props
