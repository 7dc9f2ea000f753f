import Verif.Model.MotorInterrupt
import Verif.Props.MotorBoard

/- Property theorems C140: motors commanded by main code and by interrupt handlers. -/
namespace Atl.Props
open Atl.Motor Atl.Spec.Motor Atl.Spec.Arduino Atl.MotorBoard Atl.MotorInterrupt

/-! ### Specification -/

/-- What happens, in requests: a handler asks something outside the commands of main code, or main code asks something and handlers ask `h1` and `h2` at two places inside. -/
inductive Ask where
  | handler (m : Nat) (r : Request)
  | main (m : Nat) (r : Request) (h1 h2 : List (Nat × Request))

/-- An order of whole requests: those of the handlers as they came, a request of main code somewhere among those that came inside it. -/
inductive Order : List Ask → List (Nat × Request) → Prop
  | nil : Order [] []
  | handler {es l} (m : Nat) (r : Request) : Order es l → Order (.handler m r :: es) ((m, r) :: l)
  | main {es l} (m : Nat) (r : Request) (h1 h2 before behind : List (Nat × Request)) : h1 ++ h2 = before ++ behind → Order es l →
      Order (.main m r h1 h2 :: es) (before ++ (m, r) :: (behind ++ l))

/-- All requests, for the conditions on motors and speeds. -/
def Ask.requests : Ask → List (Nat × Request)
  | .handler m r => [(m, r)]
  | .main m r h1 h2 => (m, r) :: (h1 ++ h2)

/-- The calls that make the requests. -/
def cmdOf (x : Nat × Request) : Nat × Cmd := (x.1, motorCmd x.2)

def Ask.ev : Ask → Ev
  | .handler m r => .handler m (motorCmd r)
  | .main m r h1 h2 => .main m (motorCmd r) (h1.map cmdOf) (h2.map cmdOf)

/-- At the end every motor does what the last request to it asks, in some order of whole requests. -/
def AsIfWhole (ps : Nat → Pins) (b : Board) (es : List Ask) : Prop :=
  ∃ l, Order es l ∧ ∀ m r, lastRequest m l none = some r → ChipServes (run ps (es.map Ask.ev) b) (ps m) r

/-- When a request `r` of main code and the last requests to the same motor at the two places inside it go together: behind IN2 (`some k`), else behind IN1. -/
def GoTogether (r : Request) : Option Request → Option Request → Prop
  | _, some (.turn cw s) => match r with
    | .turn cw' s' => cw = cw' ∨ max s 1 = max s' 1
    | _ => s ≤ 1
  | _, some _ => True
  | none, none => True
  | some .stop, none => r ≠ .brake
  | some .brake, none => r ≠ .stop
  | some (.turn cw s), none => match r with
    | .turn cw' _ => cw = cw'
    | .stop => cw = false ∨ s ≤ 1
    | .brake => cw = true ∨ s ≤ 1

def Ask.fits : Ask → Prop
  | .handler _ _ => True
  | .main m r h1 h2 => GoTogether r (lastRequest m h1 none) (lastRequest m h2 none)

/-! ### Proofs -/

namespace CarIsr
open Car

/-- What the chip sees at motor `m` after handlers: the last of their requests to it, or what it saw before. -/
theorem handlers_spec (ps : Nat → Pins) (hd : DistinctPins ps) (ms : List Nat) : ∀ (l : List (Nat × Request)) (b : Board),
    (∀ x ∈ l, x.1 ∈ ms ∧ byteSpeed x.2) → (∀ m ∈ ms, Ready b (ps m)) →
    (∀ m ∈ ms, Ready (handlers ps (l.map cmdOf) b) (ps m)) ∧
    (∀ m r, lastRequest m l none = some r → Sees (handlers ps (l.map cmdOf) b) (ps m) (ins r).1 (ins r).2 (speed r)) ∧
    (∀ m, lastRequest m l none = none → ∀ q ∈ motorPins (ps m), handlers ps (l.map cmdOf) b q = b q)
  | [], b, _, hb => ⟨hb, fun m r h => by simp [lastRequest] at h, fun _ _ _ _ => rfl⟩
  | (k, r) :: l, b, hs, hb => by
    obtain ⟨b1, b2, b3, e, -, c3, c4, c5⟩ := command_moments (ps k) (hd.1 k) r (hs (k, r) (by simp)).2 b (hb k (hs (k, r) (by simp)).1)
    have ea : after b (command (ps k) (motorCmd r) b) = b3 := by rw [e]; rfl
    have hr3 : ∀ m ∈ ms, Ready b3 (ps m) := fun m hm =>
      ⟨(c5 b3 (by simp) _).1 (hb m hm).in1, (c5 b3 (by simp) _).1 (hb m hm).in2, by rw [(c5 b3 (by simp) _).2]; exact (hb m hm).timer⟩
    obtain ⟨s1, s2, s3⟩ := handlers_spec ps hd ms l b3 (fun x hx => hs x (by simp [hx])) hr3
    have eh : handlers ps (((k, r) :: l).map cmdOf) b = handlers ps (l.map cmdOf) b3 := by
      unfold handlers
      rw [List.map_cons]
      show after b (history ps ((k, motorCmd r) :: l.map cmdOf) b) = _
      rw [after_history, ea]
    rw [eh]
    have split : ∀ m, lastRequest m ((k, r) :: l) none = (lastRequest m l none).orElse (fun _ => if k = m then some r else none) := by
      intro m
      exact last_orElse m l _
    refine ⟨s1, fun m q hq => ?_, fun m hq => ?_⟩
    · rw [split] at hq
      cases hl : lastRequest m l none with
      | some q' => rw [hl] at hq; simp at hq; subst hq; exact s2 m _ hl
      | none =>
        rw [hl] at hq
        by_cases hm : k = m
        · subst hm
          simp at hq
          subst hq
          exact Sees.congr (s3 _ hl) c3
        · simp [hm] at hq
    · rw [split] at hq
      cases hl : lastRequest m l none with
      | some q' => rw [hl] at hq; simp at hq
      | none =>
        rw [hl] at hq
        by_cases hm : k = m
        · simp [hm] at hq
        · intro q hqm
          rw [s3 m hl q hqm]
          exact c4 b3 (by simp) q (not_mine hd (Ne.symm hm) hqm)
where
  last_orElse (m : Nat) : ∀ (l : List (Nat × Request)) (o : Option Request), lastRequest m l o = (lastRequest m l none).orElse (fun _ => o)
    | [], o => by simp [lastRequest]
    | (k, r) :: l, o => by
      simp only [lastRequest]
      rw [last_orElse m l (if k = m then some r else o), last_orElse m l (if k = m then some r else none)]
      cases lastRequest m l none with
      | some _ => rfl
      | none => by_cases h : k = m <;> simp [h]

theorem ready_dw {b : Board} {p : Pins} (h : Ready b p) (q : Nat) (v : Bool) : Ready (digitalWrite q v b) p :=
  ⟨by rw [(dw_kept _ _ _ _).1]; exact h.in1, by rw [(dw_kept _ _ _ _).1]; exact h.in2, by rw [(dw_kept _ _ _ _).2]; exact h.timer⟩

theorem ready_aw {b : Board} {p : Pins} (h : Ready b p) (q v : Nat) : Ready (analogWrite q v b) p :=
  ⟨by rw [(out_kept _ _ _ _).1, h.in1]; rfl, by rw [(out_kept _ _ _ _).1, h.in2]; rfl, by rw [(out_kept _ _ _ _).2]; exact h.timer⟩

theorem send_eq (ps : Nat → Pins) (p : Pins) (r : Request) (h1 h2 : List (Nat × Cmd)) (b : Board) :
    MotorInterrupt.send ps p (args (motorCmd r)).1 (args (motorCmd r)).2.1 (args (motorCmd r)).2.2 h1 h2 b =
      analogWrite p.pwm (speed r) (handlers ps h2 (digitalWrite p.in2 (ins r).2 (handlers ps h1 (digitalWrite p.in1 (ins r).1 b)))) := by
  cases r with
  | stop => rfl
  | brake => rfl
  | turn cw s =>
    rcases Nat.eq_zero_or_pos s with h | h
    · subst h; cases cw <;> rfl
    · have : max s 1 = s := by omega
      cases cw <;> simp [MotorInterrupt.send, motorCmd, args, ins, speed, Arduino.write, Arduino.writeAnalog, h, this]

theorem last_append (m : Nat) (l l' : List (Nat × Request)) (o : Option Request) : lastRequest m (l ++ l') o = lastRequest m l' (lastRequest m l o) := by
  induction l generalizing o with
  | nil => rfl
  | cons x l ih => obtain ⟨k, r⟩ := x; exact ih _

/-- A command of main code with handlers inside: what the chip sees in the end. -/
theorem send_spec (ps : Nat → Pins) (hd : DistinctPins ps) (ms : List Nat) (m : Nat) (hm : m ∈ ms) (r : Request) (hr : byteSpeed r) (h1 h2 : List (Nat × Request))
    (hs1 : ∀ x ∈ h1, x.1 ∈ ms ∧ byteSpeed x.2) (hs2 : ∀ x ∈ h2, x.1 ∈ ms ∧ byteSpeed x.2) (b : Board) (hb : ∀ k ∈ ms, Ready b (ps k)) :
    (∀ k ∈ ms, Ready (step ps b (Ask.main m r h1 h2).ev) (ps k)) ∧
    (∀ k, k ≠ m → ∀ q, lastRequest k (h1 ++ h2) none = some q → Sees (step ps b (Ask.main m r h1 h2).ev) (ps k) (ins q).1 (ins q).2 (speed q)) ∧
    (∀ k, k ≠ m → lastRequest k (h1 ++ h2) none = none → ∀ q ∈ motorPins (ps k), step ps b (Ask.main m r h1 h2).ev q = b q) ∧
    (∀ k, lastRequest m h2 none = some k → Sees (step ps b (Ask.main m r h1 h2).ev) (ps m) (ins k).1 (ins k).2 (speed r)) ∧
    (lastRequest m h2 none = none → ∀ h, lastRequest m h1 none = some h → Sees (step ps b (Ask.main m r h1 h2).ev) (ps m) (ins h).1 (ins r).2 (speed r)) ∧
    (lastRequest m h2 none = none → lastRequest m h1 none = none → Sees (step ps b (Ask.main m r h1 h2).ev) (ps m) (ins r).1 (ins r).2 (speed r)) := by
  obtain ⟨n1, n2, n3⟩ := hd.1 m
  have e : step ps b (Ask.main m r h1 h2).ev = analogWrite (ps m).pwm (speed r)
      (handlers ps (h2.map cmdOf) (digitalWrite (ps m).in2 (ins r).2 (handlers ps (h1.map cmdOf) (digitalWrite (ps m).in1 (ins r).1 b)))) := send_eq ps (ps m) r _ _ b
  generalize step ps b (Ask.main m r h1 h2).ev = b' at e
  obtain ⟨a1, a2, a3⟩ := handlers_spec ps hd ms h1 (digitalWrite (ps m).in1 (ins r).1 b) hs1 (fun k hk => ready_dw (hb k hk) _ _)
  generalize handlers ps (h1.map cmdOf) (digitalWrite (ps m).in1 (ins r).1 b) = b1 at a1 a2 a3 e
  obtain ⟨c1, c2, c3⟩ := handlers_spec ps hd ms h2 (digitalWrite (ps m).in2 (ins r).2 b1) hs2 (fun k hk => ready_dw (a1 k hk) _ _)
  generalize handlers ps (h2.map cmdOf) (digitalWrite (ps m).in2 (ins r).2 b1) = b2 at c1 c2 c3 e
  subst e
  have other : ∀ k, k ≠ m → ∀ q ∈ motorPins (ps k), q ≠ (ps m).in1 ∧ q ≠ (ps m).in2 ∧ q ≠ (ps m).pwm := by
    intro k hk q hq
    have := not_mine hd hk hq
    simp only [motorPins, List.mem_cons, List.not_mem_nil, or_false, not_or] at this
    exact this
  have pwm' : drives (analogWrite (ps m).pwm (speed r) b2 (ps m).pwm) = some (speed r) := (analogOk_write (speed_byte hr) (c1 m hm).timer).drives
  refine ⟨fun k hk => ready_aw (c1 k hk) _ _, fun k hk q hq => ?_, fun k hk hn q hq => ?_, fun k hk => ?_, fun hn h hh => ?_, fun hn hn' => ?_⟩
  · rw [last_append, handlers_spec.last_orElse] at hq
    refine Sees.congr (b := b2) (fun x hx => analogWrite_other _ _ _ _ (other k hk x hx).2.2) ?_
    cases hl : lastRequest k h2 none with
    | some q' => rw [hl] at hq; simp at hq; subst hq; exact c2 k _ hl
    | none =>
      rw [hl] at hq
      simp at hq
      refine Sees.congr (b := b1) (fun x hx => ?_) (a2 k q hq)
      rw [c3 k hl x hx, dw_other _ _ _ _ (other k hk x hx).2.1]
  · rw [last_append, handlers_spec.last_orElse] at hn
    have h2n : lastRequest k h2 none = none := by
      cases hl : lastRequest k h2 none with
      | some _ => rw [hl] at hn; simp at hn
      | none => rfl
    have h1n : lastRequest k h1 none = none := by rw [h2n] at hn; simpa using hn
    rw [analogWrite_other _ _ _ _ (other k hk q hq).2.2, c3 k h2n q hq, dw_other _ _ _ _ (other k hk q hq).2.1, a3 k h1n q hq, dw_other _ _ _ _ (other k hk q hq).1]
  · have s := c2 m k hk
    exact ⟨by rw [analogWrite_other _ _ _ _ n2]; exact s.in1, by rw [analogWrite_other _ _ _ _ n3]; exact s.in2, pwm'⟩
  · have s := a2 m h hh
    refine ⟨?_, ?_, pwm'⟩
    · rw [analogWrite_other _ _ _ _ n2, c3 m hn _ (by simp [motorPins]), dw_other _ _ _ _ n1]; exact s.in1
    · rw [analogWrite_other _ _ _ _ n3, c3 m hn _ (by simp [motorPins])]; exact dw_same _ _ _ (a1 m hm).in2
  · refine ⟨?_, ?_, pwm'⟩
    · rw [analogWrite_other _ _ _ _ n2, c3 m hn _ (by simp [motorPins]), dw_other _ _ _ _ n1, a3 m hn' _ (by simp [motorPins])]; exact dw_same _ _ _ (hb m hm).in1
    · rw [analogWrite_other _ _ _ _ n3, c3 m hn _ (by simp [motorPins])]; exact dw_same _ _ _ (a1 m hm).in2

/-- Whether the lines left by a command with handlers inside serve its own request or the last of the handlers' to the motor. -/
theorem serves_behind (r k : Request) : (Serves (ins k).1 (ins k).2 (speed r) (slowest r) ∨ Serves (ins k).1 (ins k).2 (speed r) (slowest k)) ↔ GoTogether r none (some k) := by
  cases k with
  | stop => simp [Serves, slowest, ins, mode, GoTogether]
  | brake => simp [Serves, slowest, ins, mode, GoTogether]
  | turn c s =>
    cases r with
    | stop => cases c <;> simp [Serves, slowest, ins, mode, GoTogether, speed] <;> omega
    | brake => cases c <;> simp [Serves, slowest, ins, mode, GoTogether, speed] <;> omega
    | turn c' s' => cases c <;> cases c' <;> simp [Serves, slowest, ins, mode, GoTogether, speed] <;> omega

theorem serves_between (r h : Request) : (Serves (ins h).1 (ins r).2 (speed r) (slowest r) ∨ Serves (ins h).1 (ins r).2 (speed r) (slowest h)) ↔ GoTogether r (some h) none := by
  cases h with
  | stop => cases r with
    | turn c s => cases c <;> simp [Serves, slowest, ins, mode, GoTogether, speed]
    | _ => simp [Serves, slowest, ins, mode, GoTogether, speed]
  | brake => cases r with
    | turn c s => cases c <;> simp [Serves, slowest, ins, mode, GoTogether, speed]
    | _ => simp [Serves, slowest, ins, mode, GoTogether, speed]
  | turn c s =>
    cases r with
    | stop => cases c <;> simp [Serves, slowest, ins, mode, GoTogether, speed] <;> omega
    | brake => cases c <;> simp [Serves, slowest, ins, mode, GoTogether, speed] <;> omega
    | turn c' s' => cases c <;> cases c' <;> simp [Serves, slowest, ins, mode, GoTogether, speed]

theorem fits_left (r k : Request) (o : Option Request) : GoTogether r o (some k) ↔ GoTogether r none (some k) := by cases k <;> cases o <;> rfl

theorem run_append (ps : Nat → Pins) (es fs : List Ask) (b : Board) : run ps ((es ++ fs).map Ask.ev) b = run ps (fs.map Ask.ev) (run ps (es.map Ask.ev) b) := by
  unfold run; rw [List.map_append, List.foldl_append]

theorem ready_run (ps : Nat → Pins) (hd : DistinctPins ps) (ms : List Nat) : ∀ (es : List Ask) (b : Board), (∀ e ∈ es, ∀ x ∈ e.requests, x.1 ∈ ms ∧ byteSpeed x.2) →
    (∀ m ∈ ms, Ready b (ps m)) → ∀ m ∈ ms, Ready (run ps (es.map Ask.ev) b) (ps m)
  | [], _, _, hb => hb
  | e :: es, b, hs, hb => by
    refine ready_run ps hd ms es (step ps b e.ev) (fun e he => hs e (by simp [he])) ?_
    have h0 := hs e (by simp)
    cases e with
    | handler m r => exact (handlers_spec ps hd ms [(m, r)] b h0 hb).1
    | main m r h1 h2 =>
      exact (send_spec ps hd ms m (h0 (m, r) (by simp [Ask.requests])).1 r (h0 (m, r) (by simp [Ask.requests])).2 h1 h2
        (fun x hx => h0 x (by simp [Ask.requests, hx])) (fun x hx => h0 x (by simp [Ask.requests, hx])) b hb).1

theorem last_skip {k m : Nat} (h : k ≠ m) (l l' : List (Nat × Request)) (r : Request) (o : Option Request) :
    lastRequest k (l ++ (m, r) :: l') o = lastRequest k (l ++ l') o := by
  rw [last_append, last_append]
  simp only [lastRequest, if_neg (Ne.symm h)]

/-- One event that fits, with what the motors were asked before. -/
theorem fits_step (ps : Nat → Pins) (hd : DistinctPins ps) (ms : List Nat) (e : Ask) (b : Board) (hs : ∀ x ∈ e.requests, x.1 ∈ ms ∧ byteSpeed x.2)
    (hb : ∀ m ∈ ms, Ready b (ps m)) (he : e.fits) (o : Nat → Option Request) (ho : ∀ m r, o m = some r → ChipServes b (ps m) r) :
    ∃ l, (∀ es l', Order es l' → Order (e :: es) (l ++ l')) ∧ ∀ m r, lastRequest m l (o m) = some r → ChipServes (step ps b e.ev) (ps m) r := by
  cases e with
  | handler k r =>
    refine ⟨[(k, r)], fun es l' h => .handler k r h, fun m q hq => ?_⟩
    obtain ⟨-, s2, s3⟩ := handlers_spec ps hd ms [(k, r)] b hs hb
    by_cases hm : k = m
    · subst hm
      simp [lastRequest] at hq
      subst hq
      exact ⟨_, _, _, s2 k r (by simp [lastRequest]), ins_serves r⟩
    · simp [lastRequest, hm] at hq
      obtain ⟨i1, i2, d, t1, t2⟩ := ho m q hq
      exact ⟨i1, i2, d, Sees.congr (s3 m (by simp [lastRequest, hm])) t1, t2⟩
  | main k r h1 h2 =>
    obtain ⟨-, t2, t3, t4, t5, t6⟩ := send_spec ps hd ms k (hs (k, r) (by simp [Ask.requests])).1 r (hs (k, r) (by simp [Ask.requests])).2 h1 h2
        (fun x hx => hs x (by simp [Ask.requests, hx])) (fun x hx => hs x (by simp [Ask.requests, hx])) b hb
    have others : ∀ m, m ≠ k → ∀ q, lastRequest m (h1 ++ h2) (o m) = some q → ChipServes (step ps b (Ask.main k r h1 h2).ev) (ps m) q := by
      intro m hm q hq
      rw [handlers_spec.last_orElse] at hq
      cases hl : lastRequest m (h1 ++ h2) none with
      | some q' =>
        rw [hl] at hq; simp at hq; subst hq
        exact ⟨_, _, _, t2 m hm _ hl, ins_serves _⟩
      | none =>
        rw [hl] at hq; simp at hq
        obtain ⟨i1, i2, d, u1, u2⟩ := ho m q hq
        exact ⟨i1, i2, d, Sees.congr (t3 m hm hl) u1, u2⟩
    have first : ChipServes (step ps b (Ask.main k r h1 h2).ev) (ps k) r →
        ∃ l, (∀ es l', Order es l' → Order (Ask.main k r h1 h2 :: es) (l ++ l')) ∧ ∀ m q, lastRequest m l (o m) = some q → ChipServes (step ps b (Ask.main k r h1 h2).ev) (ps m) q := by
      intro hc
      refine ⟨h1 ++ h2 ++ [(k, r)], fun es l' h => by simpa using Order.main k r h1 h2 (h1 ++ h2) [] (by simp) h, fun m q hq => ?_⟩
      by_cases hm : m = k
      · subst hm
        rw [last_append] at hq
        simp [lastRequest] at hq
        subst hq
        exact hc
      · rw [last_skip hm] at hq
        exact others m hm q (by simpa using hq)
    have second : ∀ h, lastRequest k (h1 ++ h2) none = some h → ChipServes (step ps b (Ask.main k r h1 h2).ev) (ps k) h →
        ∃ l, (∀ es l', Order es l' → Order (Ask.main k r h1 h2 :: es) (l ++ l')) ∧ ∀ m q, lastRequest m l (o m) = some q → ChipServes (step ps b (Ask.main k r h1 h2).ev) (ps m) q := by
      intro h hh hc
      refine ⟨(k, r) :: (h1 ++ h2), fun es l' h => Order.main k r h1 h2 [] (h1 ++ h2) (by simp) h, fun m q hq => ?_⟩
      by_cases hm : m = k
      · subst hm
        simp only [lastRequest, if_true] at hq
        rw [handlers_spec.last_orElse, hh] at hq
        simp at hq
        subst hq
        exact hc
      · have := last_skip hm [] (h1 ++ h2) r (o m)
        simp only [List.nil_append] at this
        rw [this] at hq
        exact others m hm q hq
    simp only [Ask.fits] at he
    cases h2l : lastRequest k h2 none with
    | some q =>
      rw [h2l, fits_left, ← serves_behind] at he
      have s := t4 q h2l
      rcases he with he | he
      · exact first ⟨_, _, _, s, he⟩
      · exact second q (by rw [last_append, handlers_spec.last_orElse, h2l]; rfl) ⟨_, _, _, s, he⟩
    | none =>
      cases h1l : lastRequest k h1 none with
      | none => exact first ⟨_, _, _, t6 h2l h1l, ins_serves r⟩
      | some q =>
        rw [h2l, h1l, ← serves_between] at he
        have s := t5 h2l q h1l
        rcases he with he | he
        · exact first ⟨_, _, _, s, he⟩
        · exact second q (by rw [last_append, handlers_spec.last_orElse, h2l, h1l]; rfl) ⟨_, _, _, s, he⟩

theorem fits_run (ps : Nat → Pins) (hd : DistinctPins ps) (ms : List Nat) : ∀ (es : List Ask) (b : Board), (∀ e ∈ es, ∀ x ∈ e.requests, x.1 ∈ ms ∧ byteSpeed x.2) →
    (∀ m ∈ ms, Ready b (ps m)) → (∀ e ∈ es, e.fits) → ∀ (o : Nat → Option Request), (∀ m r, o m = some r → ChipServes b (ps m) r) →
    ∃ l, Order es l ∧ ∀ m r, lastRequest m l (o m) = some r → ChipServes (run ps (es.map Ask.ev) b) (ps m) r
  | [], _, _, _, _, _, ho => ⟨[], .nil, ho⟩
  | e :: es, b, hs, hb, he, o, ho => by
    obtain ⟨l, hl, hc⟩ := fits_step ps hd ms e b (hs e (by simp)) hb (he e (by simp)) o ho
    obtain ⟨l', hl', hc'⟩ := fits_run ps hd ms es (step ps b e.ev) (fun e he => hs e (by simp [he]))
      (ready_run ps hd ms [e] b (fun x hx => by simp at hx; subst hx; exact hs x (by simp)) hb) (fun e h => he e (by simp [h])) (fun m => lastRequest m l (o m)) hc
    exact ⟨l ++ l', hl es l' hl', fun m r h => hc' m r (by rw [← last_append]; exact h)⟩

theorem order_last : ∀ (es : List Ask) (m : Nat) (r : Request) (h1 h2 : List (Nat × Request)) (l : List (Nat × Request)), Order (es ++ [.main m r h1 h2]) l →
    ∃ l0 before behind, h1 ++ h2 = before ++ behind ∧ l = l0 ++ (before ++ (m, r) :: behind)
  | [], m, r, h1, h2, l, h => by
    cases h with
    | main _ _ _ _ before behind hb h => cases h; exact ⟨[], before, behind, hb, by simp⟩
  | e :: es, m, r, h1, h2, l, h => by
    cases h with
    | handler k q h =>
      obtain ⟨l0, before, behind, hb, rfl⟩ := order_last es m r h1 h2 _ h
      exact ⟨(k, q) :: l0, before, behind, hb, rfl⟩
    | main k q g1 g2 bf bh hg h =>
      obtain ⟨l0, before, behind, hb, rfl⟩ := order_last es m r h1 h2 _ h
      exact ⟨bf ++ (k, q) :: (bh ++ l0), before, behind, hb, by simp⟩

/-- In every order the last request to the motor is that of main code or the last of those inside. -/
theorem last_either (m : Nat) (r : Request) (h1 h2 l0 before behind : List (Nat × Request)) (hb : h1 ++ h2 = before ++ behind) (o : Option Request) :
    lastRequest m (l0 ++ (before ++ (m, r) :: behind)) o = some r ∨
      ∃ q, lastRequest m (h1 ++ h2) none = some q ∧ lastRequest m (l0 ++ (before ++ (m, r) :: behind)) o = some q := by
  rw [last_append, last_append, hb, last_append]
  simp only [lastRequest, if_true]
  rw [handlers_spec.last_orElse m behind (some r), handlers_spec.last_orElse m behind (lastRequest m before none)]
  cases lastRequest m behind none with
  | none => exact .inl rfl
  | some q => exact .inr ⟨q, rfl, rfl⟩

end CarIsr

/-- The pins of the motors `ms` are as the constructors leave them. -/
def Built (ps : Nat → Pins) (ms : List Nat) (b : Board) : Prop := ∃ b0, (∀ m ∈ ms, (b0 (ps m).pwm).hasTimer = true) ∧ b = after b0 (setup ps ms b0)

theorem Built.ready {ps : Nat → Pins} {ms : List Nat} {b : Board} (h : Built ps ms b) : ∀ m ∈ ms, Car.Ready b (ps m) := by
  obtain ⟨b0, ht, rfl⟩ := h
  obtain ⟨-, s2, s3, -⟩ := Car.setup_spec ps ms b0
  exact fun m hm => ⟨s3 m hm _ (by simp [motorPins]), s3 m hm _ (by simp [motorPins]), by rw [(s2 _).1]; exact ht m hm⟩

/-- **C140, exact.** Any motors on distinct pins (PWM with timers), after the constructors, any history of requests by main code and by handlers, also several inside a command: the
    motors do at every point outside commands what the requests ask in some order of whole requests if and only if every request of main code goes together with the last
    request to its motor inside it. -/
theorem c140_exact (ps : Nat → Pins) (hd : DistinctPins ps) (ms : List Nat) (b : Board) (hb : Built ps ms b) (es : List Ask)
    (hs : ∀ e ∈ es, ∀ x ∈ e.requests, x.1 ∈ ms ∧ byteSpeed x.2) :
    (∀ pre, pre <+: es → AsIfWhole ps b pre) ↔ ∀ e ∈ es, e.fits := by
  constructor
  · intro h e he
    cases e with
    | handler m r => trivial
    | main m r h1 h2 =>
      obtain ⟨pre, post, rfl⟩ := List.append_of_mem he
      obtain ⟨l, ho, hl⟩ := h (pre ++ [.main m r h1 h2]) ⟨post, by simp⟩
      obtain ⟨l0, before, behind, hbb, rfl⟩ := CarIsr.order_last pre m r h1 h2 l ho
      have hr := CarIsr.ready_run ps hd ms pre b (fun e he => hs e (by simp [he])) hb.ready
      have h0 := hs (.main m r h1 h2) (by simp)
      obtain ⟨-, -, -, t4, t5, -⟩ := CarIsr.send_spec ps hd ms m (h0 (m, r) (by simp [Ask.requests])).1 r (h0 (m, r) (by simp [Ask.requests])).2 h1 h2
        (fun x hx => h0 x (by simp [Ask.requests, hx])) (fun x hx => h0 x (by simp [Ask.requests, hx])) _ hr
      rw [CarIsr.run_append] at hl
      have hl : ∀ q, lastRequest m (l0 ++ (before ++ (m, r) :: behind)) none = some q →
        ChipServes (step ps (run ps (pre.map Ask.ev) b) (Ask.main m r h1 h2).ev) (ps m) q := hl m
      have he := CarIsr.last_either m r h1 h2 l0 before behind hbb none
      simp only [Ask.fits]
      cases h2l : lastRequest m h2 none with
      | some k =>
        have s := t4 k h2l
        rw [CarIsr.fits_left, ← CarIsr.serves_behind]
        rw [CarIsr.last_append m h1 h2, CarIsr.handlers_spec.last_orElse m h2, h2l] at he
        rcases he with he | ⟨q, hq, he⟩
        · obtain ⟨i1, i2, d, u, v⟩ := hl r he
          obtain ⟨rfl, rfl, rfl⟩ := s.unique u
          exact .inl v
        · simp at hq
          subst hq
          obtain ⟨i1, i2, d, u, v⟩ := hl k he
          obtain ⟨rfl, rfl, rfl⟩ := s.unique u
          exact .inr v
      | none =>
        cases h1l : lastRequest m h1 none with
        | none => trivial
        | some k =>
          have s := t5 h2l k h1l
          rw [← CarIsr.serves_between]
          rw [CarIsr.last_append m h1 h2, CarIsr.handlers_spec.last_orElse m h2, h2l, h1l] at he
          rcases he with he | ⟨q, hq, he⟩
          · obtain ⟨i1, i2, d, u, v⟩ := hl r he
            obtain ⟨rfl, rfl, rfl⟩ := s.unique u
            exact .inl v
          · simp at hq
            subst hq
            obtain ⟨i1, i2, d, u, v⟩ := hl k he
            obtain ⟨rfl, rfl, rfl⟩ := s.unique u
            exact .inr v
  · rintro h pre ⟨post, rfl⟩
    exact CarIsr.fits_run ps hd ms pre b (fun e he => hs e (by simp [he])) hb.ready (fun e he => h e (by simp [he])) (fun _ => none) (by simp)

/-- Motors on the pins 2, 3, 5 and 12, 13, 15 and so on. -/
private def twoMotors (m : Nat) : Pins := ⟨m * 10 + 2, m * 10 + 3, m * 10 + 5⟩

private theorem twoMotors_distinct : DistinctPins twoMotors := by
  refine ⟨fun m => ⟨?_, ?_, ?_⟩, fun m k h x hx y hy => ?_⟩
  all_goals simp only [twoMotors, List.mem_cons, List.not_mem_nil, or_false] at *
  all_goals omega

private def bareBoard : Board := fun _ => ⟨false, false, none, true⟩

example := (c140_exact twoMotors twoMotors_distinct [0, 1] _ ⟨bareBoard, fun _ _ => rfl, rfl⟩
  [.main 0 (.turn true 200) [(1, .brake), (0, .stop)] [(1, .turn false 7)], .handler 0 .brake, .main 1 (.turn true 9) [] [(1, .turn true 3)]]
  (by simp [Ask.requests, byteSpeed, List.forall_mem_cons, -List.mem_cons, -Prod.forall]; try decide)).2 (by simp [Ask.fits, GoTogether, lastRequest])

/-- **C140, partial** (requests that go together). Whatever handlers ask and wherever they run, at the end of every such history each motor does what the last request to it asks in
    some order of whole requests. Missing: requests that do not go together, where it is false (`c140_exact`). -/
theorem c140_whole_partial (ps : Nat → Pins) (hd : DistinctPins ps) (ms : List Nat) (b : Board) (hb : Built ps ms b) (es : List Ask)
    (hs : ∀ e ∈ es, ∀ x ∈ e.requests, x.1 ∈ ms ∧ byteSpeed x.2) (he : ∀ e ∈ es, e.fits) : AsIfWhole ps b es :=
  (c140_exact ps hd ms b hb es hs).2 he es (List.prefix_refl es)

example := c140_whole_partial twoMotors twoMotors_distinct [0, 1] _ ⟨bareBoard, fun _ _ => rfl, rfl⟩
  [.main 0 (.turn true 200) [(1, .brake), (0, .stop)] [(1, .turn false 7)], .handler 0 .brake]
  (by simp [Ask.requests, byteSpeed, List.forall_mem_cons, -List.mem_cons, -Prod.forall]; try decide) (by simp [Ask.fits, GoTogether, lastRequest])

/-- **C140.** Handlers that command other motors than the command they interrupt: always as if whole. -/
theorem c140_other_motors (ps : Nat → Pins) (hd : DistinctPins ps) (ms : List Nat) (b : Board) (hb : Built ps ms b) (es : List Ask)
    (hs : ∀ e ∈ es, ∀ x ∈ e.requests, x.1 ∈ ms ∧ byteSpeed x.2) (ho : ∀ m r h1 h2, .main m r h1 h2 ∈ es → ∀ x ∈ h1 ++ h2, x.1 ≠ m) : AsIfWhole ps b es := by
  have key : ∀ (m : Nat) (l : List (Nat × Request)), (∀ x ∈ l, x.1 ≠ m) → lastRequest m l none = none := by
    intro m l
    induction l with
    | nil => intro _; rfl
    | cons x l ih =>
      intro h
      simp only [lastRequest, if_neg (h x (by simp))]
      exact ih fun y hy => h y (by simp [hy])
  refine c140_whole_partial ps hd ms b hb es hs fun e he => ?_
  cases e with
  | handler m r => trivial
  | main m r h1 h2 =>
    have := ho m r h1 h2 he
    simp only [Ask.fits, key m h1 (fun x hx => this x (by simp [hx])), key m h2 (fun x hx => this x (by simp [hx])), GoTogether]

example := c140_other_motors twoMotors twoMotors_distinct [0, 1] _ ⟨bareBoard, fun _ _ => rfl, rfl⟩
  [.main 0 (.turn true 200) [(1, .brake)] [(1, .turn false 7)], .handler 0 .brake]
  (by simp [Ask.requests, byteSpeed, List.forall_mem_cons, -List.mem_cons, -Prod.forall]; try decide) (by rintro m r h1 h2 h x hx; simp at h; obtain ⟨rfl, rfl, rfl, rfl⟩ := h; simp at hx; rcases hx with rfl | rfl <;> decide)

/-- **C140 (emergency stop).** Handlers that only Stop, main code that never Breaks: always as if whole. -/
theorem c140_emergency_stop (ps : Nat → Pins) (hd : DistinctPins ps) (ms : List Nat) (b : Board) (hb : Built ps ms b) (es : List Ask)
    (hs : ∀ e ∈ es, ∀ x ∈ e.requests, x.1 ∈ ms ∧ byteSpeed x.2)
    (ho : ∀ m r h1 h2, .main m r h1 h2 ∈ es → r ≠ .brake ∧ ∀ x ∈ h1 ++ h2, x.2 = .stop) : AsIfWhole ps b es := by
  have key : ∀ (m : Nat) (l : List (Nat × Request)) (o : Option Request), (∀ x ∈ l, x.2 = .stop) → (o = none ∨ o = some .stop) →
      lastRequest m l o = none ∨ lastRequest m l o = some .stop := by
    intro m l
    induction l with
    | nil => intro o _ h; exact h
    | cons x l ih =>
      intro o h h'
      refine ih _ (fun y hy => h y (by simp [hy])) ?_
      have := h x (by simp)
      split
      · rw [this]; exact .inr rfl
      · exact h'
  refine c140_whole_partial ps hd ms b hb es hs fun e he => ?_
  cases e with
  | handler m r => trivial
  | main m r h1 h2 =>
    obtain ⟨hr, hx⟩ := ho m r h1 h2 he
    simp only [Ask.fits]
    rcases key m h1 none (fun x h => hx x (by simp [h])) (.inl rfl) with e1 | e1 <;>
      rcases key m h2 none (fun x h => hx x (by simp [h])) (.inl rfl) with e2 | e2 <;> rw [e1, e2] <;> simp [GoTogether, hr]

example := c140_emergency_stop twoMotors twoMotors_distinct [0, 1] _ ⟨bareBoard, fun _ _ => rfl, rfl⟩
  [.main 0 (.turn true 200) [(0, .stop)] [], .handler 1 .brake]
  (by simp [Ask.requests, byteSpeed, List.forall_mem_cons, -List.mem_cons, -Prod.forall]; try decide) (by rintro m r h1 h2 h; simp at h; obtain ⟨rfl, rfl, rfl, rfl⟩ := h; simp)

/-- **C140 (when an emergency stop stands).** A handler stops the motor inside a command of main code to the same motor, behind IN1 (`late = false`) or behind IN2: when the command
    has ended the motor is stopped exactly if the Stop came behind IN2, or main code asked for Stop or Clockwise. -/
theorem c140_stop_stands (ps : Nat → Pins) (hd : DistinctPins ps) (ms : List Nat) (b : Board) (hb : Built ps ms b) (m : Nat) (hm : m ∈ ms) (r : Request) (hr : byteSpeed r)
    (late : Bool) :
    ChipServes (run ps [(Ask.main m r (if late then [] else [(m, .stop)]) (if late then [(m, .stop)] else [])).ev] b) (ps m) .stop ↔
      late = true ∨ r = .stop ∨ ∃ s, r = .turn true s := by
  have hl : ∀ x ∈ [(m, Request.stop)], x.1 ∈ ms ∧ byteSpeed x.2 := by simp [hm, byteSpeed]
  cases late
  · obtain ⟨-, -, -, -, t5, -⟩ := CarIsr.send_spec ps hd ms m hm r hr [(m, .stop)] [] hl (by simp) b hb.ready
    have s := t5 rfl .stop (by simp [lastRequest])
    constructor
    · rintro ⟨i1, i2, d, u, v⟩
      obtain ⟨rfl, rfl, rfl⟩ := s.unique u
      cases r with
      | turn c v' => cases c <;> simp [Serves, slowest, Car.ins, mode] at v ⊢
      | stop => simp
      | brake => simp [Serves, slowest, Car.ins, mode] at v
    · intro h
      refine ⟨_, _, _, s, ?_⟩
      rcases h with h | rfl | ⟨v, rfl⟩
      · simp at h
      · rfl
      · rfl
  · obtain ⟨-, -, -, t4, -, -⟩ := CarIsr.send_spec ps hd ms m hm r hr [] [(m, .stop)] (by simp) hl b hb.ready
    exact ⟨fun _ => .inl rfl, fun _ => ⟨_, _, _, t4 .stop (by simp [lastRequest]), rfl⟩⟩

example := c140_stop_stands twoMotors twoMotors_distinct [0, 1] _ ⟨bareBoard, fun _ _ => rfl, rfl⟩ 1 (by decide) (.turn false 90) (by unfold byteSpeed; decide) false

/-- **C140.** Pins of no motor are untouched. -/
theorem c140_other_pins (ps : Nat → Pins) (hd : DistinctPins ps) (es : List Ask) (b : Board) (q : Nat) (hq : ∀ e ∈ es, ∀ x ∈ e.requests, q ∉ motorPins (ps x.1)) :
    run ps (es.map Ask.ev) b q = b q := by
  have hh : ∀ (l : List (Nat × Request)) (b : Board), (∀ x ∈ l, q ∉ motorPins (ps x.1)) → handlers ps (l.map cmdOf) b q = b q := by
    intro l
    induction l with
    | nil => intro b _; rfl
    | cons x l ih =>
      intro b h
      have e : handlers ps ((x :: l).map cmdOf) b = handlers ps (l.map cmdOf) (after b (command (ps x.1) (motorCmd x.2) b)) := by
        unfold handlers
        exact Car.after_history ps x.1 (motorCmd x.2) (l.map cmdOf) b
      rw [e, ih _ (fun y hy => h y (by simp [hy]))]
      have h0 := h x (by simp)
      simp only [motorPins, List.mem_cons, List.not_mem_nil, or_false, not_or] at h0
      rw [Car.send_args]
      show analogWrite _ _ _ q = b q
      rw [analogWrite_other _ _ _ _ h0.2.2, Car.dw_other _ _ _ _ h0.2.1, Car.dw_other _ _ _ _ h0.1]
  induction es generalizing b with
  | nil => rfl
  | cons e es ih =>
    refine (ih (step ps b e.ev) (fun e he => hq e (by simp [he]))).trans ?_
    have h0 := hq e (by simp)
    cases e with
    | handler m r => exact hh [(m, r)] b h0
    | main m r h1 h2 =>
      have hm := h0 (m, r) (by simp [Ask.requests])
      simp only [motorPins, List.mem_cons, List.not_mem_nil, or_false, not_or] at hm
      refine (congrFun (CarIsr.send_eq ps (ps m) r (h1.map cmdOf) (h2.map cmdOf) b) q).trans ?_
      rw [analogWrite_other _ _ _ _ hm.2.2, hh h2 _ (fun x hx => h0 x (by simp [Ask.requests, hx])), Car.dw_other _ _ _ _ hm.2.1,
        hh h1 _ (fun x hx => h0 x (by simp [Ask.requests, hx])), Car.dw_other _ _ _ _ hm.1]

example := c140_other_pins twoMotors twoMotors_distinct [.main 0 (.turn true 200) [(0, .stop)] [], .handler 1 .brake] bareBoard 99 (by
  intro e he; simp at he; rcases he with rfl | rfl <;> simp [Ask.requests, motorPins, twoMotors])

/-- **C140.** Without handlers inside, a command is the command of C136. -/
theorem c140_uninterrupted (ps : Nat → Pins) (m : Nat) (c : Cmd) (b : Board) : step ps b (.main m c [] []) = after b (command (ps m) c b) := rfl

/-- **C140 fails**: two opposite directions, one asked by main code and one by a handler behind IN1, leave a motor that stands still or brakes; a Break interrupted by a Stop, or a
    Stop by a Break, leaves a motor that turns; a direction asked behind IN2 is run with the speed main code asked for. -/
theorem c140_mixed_fails (ps : Nat → Pins) (hd : DistinctPins ps) (ms : List Nat) (b : Board) (hb : Built ps ms b) (m : Nat) (hm : m ∈ ms) (s t : Nat) (hs : s < 256) (ht : t < 256) :
    ChipServes (run ps [(Ask.main m (.turn true s) [(m, .turn false t)] []).ev] b) (ps m) .stop ∧
    ChipServes (run ps [(Ask.main m (.turn false s) [(m, .turn true t)] []).ev] b) (ps m) .brake ∧
    Turns (run ps [(Ask.main m .brake [(m, .stop)] []).ev] b) (ps m) false 1 ∧
    Turns (run ps [(Ask.main m .stop [(m, .brake)] []).ev] b) (ps m) true 1 ∧
    ChipServes (run ps [(Ask.main m (.turn true s) [] [(m, .turn false t)]).ev] b) (ps m) (.turn false s) := by
  have hl : ∀ r, byteSpeed r → ∀ x ∈ [(m, r)], x.1 ∈ ms ∧ byteSpeed x.2 := by intro r hr x hx; simp at hx; subst hx; exact ⟨hm, hr⟩
  refine ⟨?_, ?_, ?_, ?_, ?_⟩
  · obtain ⟨-, -, -, -, t5, -⟩ := CarIsr.send_spec ps hd ms m hm (.turn true s) hs [(m, .turn false t)] [] (hl _ ht) (by simp) b hb.ready
    exact ⟨_, _, _, t5 rfl (.turn false t) (by simp [lastRequest]), rfl⟩
  · obtain ⟨-, -, -, -, t5, -⟩ := CarIsr.send_spec ps hd ms m hm (.turn false s) hs [(m, .turn true t)] [] (hl _ ht) (by simp) b hb.ready
    exact ⟨_, _, _, t5 rfl (.turn true t) (by simp [lastRequest]), rfl⟩
  · obtain ⟨-, -, -, -, t5, -⟩ := CarIsr.send_spec ps hd ms m hm .brake trivial [(m, .stop)] [] (hl _ trivial) (by simp) b hb.ready
    exact ⟨by decide, _, _, t5 rfl .stop (by simp [lastRequest]), rfl⟩
  · obtain ⟨-, -, -, -, t5, -⟩ := CarIsr.send_spec ps hd ms m hm .stop trivial [(m, .brake)] [] (hl _ trivial) (by simp) b hb.ready
    exact ⟨by decide, _, _, t5 rfl .brake (by simp [lastRequest]), rfl⟩
  · obtain ⟨-, -, -, t4, -, -⟩ := CarIsr.send_spec ps hd ms m hm (.turn true s) hs [] [(m, .turn false t)] (by simp) (hl _ ht) b hb.ready
    exact ⟨_, _, _, t4 (.turn false t) (by simp [lastRequest]), ⟨rfl, rfl⟩⟩

example := c140_mixed_fails twoMotors twoMotors_distinct [0, 1] _ ⟨bareBoard, fun _ _ => rfl, rfl⟩ 0 (by decide) 200 30 (by decide) (by decide)

/-- The claim in full: as if whole for all requests. -/
def C140Full (ps : Nat → Pins) (ms : List Nat) (b : Board) : Prop :=
  ∀ es, (∀ e ∈ es, ∀ x ∈ e.requests, x.1 ∈ ms ∧ byteSpeed x.2) → AsIfWhole ps b es

theorem c140_full_claim_is_false (ps : Nat → Pins) (hd : DistinctPins ps) (ms : List Nat) (b : Board) (hb : Built ps ms b) (m : Nat) (hm : m ∈ ms) : ¬ C140Full ps ms b := by
  intro h
  have hs : ∀ e ∈ [Ask.main m .brake [(m, .stop)] []], ∀ x ∈ e.requests, x.1 ∈ ms ∧ byteSpeed x.2 := by
    simp [Ask.requests, byteSpeed, List.forall_mem_cons, hm, -List.mem_cons, -Prod.forall]
  have := (c140_exact ps hd ms b hb [.main m .brake [(m, .stop)] []] hs).1 (fun pre hp => h pre (fun e he => hs e (hp.subset he))) (.main m .brake [(m, .stop)] []) (by simp)
  simp [Ask.fits, GoTogether, lastRequest] at this

example := c140_full_claim_is_false twoMotors twoMotors_distinct [0, 1] _ ⟨bareBoard, fun _ _ => rfl, rfl⟩ 0 (by decide)

end Atl.Props
