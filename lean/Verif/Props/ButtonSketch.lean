import Verif.Model.ButtonSketch
import Verif.Spec.Button
import Verif.Props.PushButton
import Verif.Props.Arduino
import Verif.Props.Misc

/- C100: the push button example, exactly; C101: the DigitalInput and Blink examples. -/
namespace Atl.Props
open Atl Atl.Delays Atl.Spec.Delays Atl.PushButton Atl.Spec.Button Atl.Spec.Arduino
open Atl.Spec.PushButton (Report)

/-- The states of the code that stand for a specified button at time `now`. -/
inductive BRel (D H id now : Nat) (t : Table) : Button → PushButton.State → Prop where
  | fresh {d} (hl : t.left id = none) : BRel D H id now t .fresh ⟨0, .unknown, .unknown, d⟩
  | opened {p d} (hp : p = .unknown ∨ p = .pending) (hl : t.left id = none) : BRel D H id now t .opened ⟨0, .opened, p, d⟩
  | closed {p d a} (hp : p = .unknown ∨ p = .pending) (hl : t.left id = some (a + H - now)) : BRel D H id now t (.closed a) ⟨0, .closed, p, d⟩
  | held {d} (hl : t.left id = none) : BRel D H id now t .held ⟨0, .hold, .closed, d⟩
  | undecided {p d o} (hl : t.left id = o.map fun a => a + D - now) : BRel D H id now t (.undecided o) ⟨113, .pending, p, d⟩

/-- One scan is one look. -/
theorem scan_look {N D H id : Nat} {S : List Nat} (hS : Room N S) (hid : id ∈ S) (inverse pin : Bool) (s : PushButton.State)
    (t : Table) (hT : Table.Ok N S s.delays t) (prev now : Nat) (hle : prev ≤ now) (hdelta : t.delta = now - prev) (b : Button) (h : BRel D H id prev t b s) :
    ∃ y s' t', s.scan N id D H inverse pin = .ok (y, s') ∧ Table.Ok N S s'.delays t' ∧ t'.delta = t.delta ∧
      BRel D H id now t' (b.look D H now (pushed inverse pin)) s' := by
  have wn : ∀ (t : Table) (d : Delays.State), Table.Ok N S d t → t.left id = none → ∀ T, ∃ d', d.wait N id T = .ok (false, d') ∧ Table.Ok N S d' (t.put id (some T)) := by
    intro t d hT hl T
    rcases wait_cases t id T with ⟨_, hst⟩ | ⟨r, e, _⟩ | ⟨r, e, _⟩
    · obtain ⟨d', hw, hT'⟩ := wait_ok hS hT hid T false (by rw [hst])
      rw [hst] at hT'
      exact ⟨d', hw, hT'⟩
    · rw [hl] at e; cases e
    · rw [hl] at e; cases e
  have ws : ∀ (t : Table) (d : Delays.State), Table.Ok N S d t → t.delta = now - prev → ∀ a L T, t.left id = some (a + L - prev) →
      ∃ d', (a + L ≤ now → d.wait N id T = .ok (true, d') ∧ Table.Ok N S d' (t.put id none)) ∧
        (¬ a + L ≤ now → d.wait N id T = .ok (false, d') ∧ Table.Ok N S d' (t.put id (some (a + L - now)))) := by
    intro t d hT hd a L T hl
    rcases wait_cases t id T with ⟨e, _⟩ | ⟨r, e, hr, hst⟩ | ⟨r, e, hr, hst⟩
    · rw [hl] at e; cases e
    · obtain ⟨d', hw, hT'⟩ := wait_ok hS hT hid T true (by rw [hst])
      rw [hst] at hT'
      rw [hl] at e; cases e
      exact ⟨d', fun _ => ⟨hw, hT'⟩, fun h => by omega⟩
    · obtain ⟨d', hw, hT'⟩ := wait_ok hS hT hid T false (by rw [hst])
      rw [hst] at hT'
      rw [hl] at e; cases e
      refine ⟨d', fun h => by omega, fun _ => ⟨hw, ?_⟩⟩
      rw [show a + L - now = a + L - prev - t.delta by omega]
      exact hT'
  cases h with
  | @fresh d hl =>
    have hw0 : d.isWaiting N id = false := isWaiting_none hS hT hid hl
    cases hp : pushed inverse pin
    · refine ⟨false, ⟨0, .opened, .unknown, d⟩, t, ?_, hT, rfl, .opened (.inl rfl) hl⟩
      simp [PushButton.State.scan, State.sample, convert_pushed, hp, State.mustDebounce, State.tail, hw0]
    · obtain ⟨d', hw, hT'⟩ := wn t d hT hl H
      refine ⟨false, ⟨0, .closed, .unknown, d'⟩, _, ?_, hT', rfl, .closed (.inl rfl) ?_⟩
      · simp [PushButton.State.scan, State.sample, convert_pushed, hp, State.mustDebounce, State.tail, hw]
      · simp [Table.put]
  | @opened p d hp0 hl =>
    have hw0 : d.isWaiting N id = false := isWaiting_none hS hT hid hl
    cases hp : pushed inverse pin
    · refine ⟨false, ⟨0, .opened, p, d⟩, t, ?_, hT, rfl, .opened hp0 hl⟩
      rcases hp0 with rfl | rfl <;> simp [PushButton.State.scan, State.sample, convert_pushed, hp, State.mustDebounce, State.tail, hw0]
    · refine ⟨true, ⟨113, .pending, .opened, d.clear N id⟩, _, ?_, clear_ok hS hT hid, rfl, .undecided ?_⟩
      · simp [PushButton.State.scan, State.sample, convert_pushed, hp, State.mustDebounce]
      · simp [Table.put]
  | @closed p d a hp0 hl =>
    cases hp : pushed inverse pin
    · refine ⟨true, ⟨113, .pending, .closed, d.clear N id⟩, _, ?_, clear_ok hS hT hid, rfl, .undecided ?_⟩
      · simp [PushButton.State.scan, State.sample, convert_pushed, hp, State.mustDebounce]
      · simp [Table.put]
    · obtain ⟨d', h1, h2⟩ := ws t d hT hdelta a H H hl
      by_cases hf : a + H ≤ now
      · obtain ⟨hw, hT'⟩ := h1 hf
        refine ⟨false, ⟨0, .hold, .closed, d'⟩, _, ?_, hT', rfl, ?_⟩
        · rcases hp0 with rfl | rfl <;> simp [PushButton.State.scan, State.sample, convert_pushed, hp, State.mustDebounce, State.tail, hw]
        · simp only [Button.look, if_true, if_pos hf]
          exact .held (by simp [Table.put])
      · obtain ⟨hw, hT'⟩ := h2 hf
        refine ⟨false, ⟨0, .closed, p, d'⟩, _, ?_, hT', rfl, ?_⟩
        · rcases hp0 with rfl | rfl <;> simp [PushButton.State.scan, State.sample, convert_pushed, hp, State.mustDebounce, State.tail, hw]
        · simp only [Button.look, if_true, if_neg hf]
          exact .closed hp0 (by simp [Table.put])
  | @held d hl =>
    have hw0 : d.isWaiting N id = false := isWaiting_none hS hT hid hl
    cases hp : pushed inverse pin
    · refine ⟨true, ⟨113, .pending, .hold, d.clear N id⟩, _, ?_, clear_ok hS hT hid, rfl, .undecided ?_⟩
      · simp [PushButton.State.scan, State.sample, convert_pushed, hp, State.mustDebounce]
      · simp [Table.put]
    · refine ⟨false, ⟨0, .hold, .closed, d⟩, t, ?_, hT, rfl, .held hl⟩
      simp [PushButton.State.scan, State.sample, convert_pushed, hp, State.mustDebounce, State.tail, hw0]
  | @undecided p d o hl =>
    cases o with
    | none =>
      obtain ⟨d', hw, hT'⟩ := wn t d hT hl D
      refine ⟨true, ⟨113, .pending, p, d'⟩, _, ?_, hT', rfl, .undecided ?_⟩
      · simp [PushButton.State.scan, hw]
      · simp [Table.put]
    | some a =>
      obtain ⟨d', h1, h2⟩ := ws t d hT hdelta a D D hl
      by_cases hf : a + D ≤ now
      · obtain ⟨hw, hT'⟩ := h1 hf
        have hl' : (t.put id none).left id = none := by simp [Table.put]
        simp only [Button.look, if_pos hf, settle]
        cases hp : pushed inverse pin
        · have hw0 : d'.isWaiting N id = false := isWaiting_none hS hT' hid hl'
          refine ⟨false, ⟨0, .opened, .pending, d'⟩, _, ?_, hT', rfl, .opened (.inr rfl) hl'⟩
          simp [PushButton.State.scan, hw, convert_pushed, hp, State.tail, hw0]
        · obtain ⟨d2, hw2, hT2⟩ := wn (t.put id none) d' hT' hl' H
          refine ⟨false, ⟨0, .closed, .pending, d2⟩, _, ?_, hT2, rfl, .closed (.inr rfl) ?_⟩
          · simp [PushButton.State.scan, hw, convert_pushed, hp, State.tail, hw2]
          · simp [Table.put]
      · obtain ⟨hw, hT'⟩ := h2 hf
        refine ⟨true, ⟨113, .pending, p, d'⟩, _, ?_, hT', rfl, ?_⟩
        · simp [PushButton.State.scan, hw]
        · simp only [Button.look, if_neg hf]
          exact .undecided (by simp [Table.put])

theorem brel_report {D H id now : Nat} {t : Table} {b : Button} {s : PushButton.State} (h : BRel D H id now t b s) : rep s.cur = b.report := by
  cases h <;> rfl

/-! ### C100 -/

/-- Readings of the clock at true times that are the given gaps apart; the contact, and what an unconnected pin reads. -/
def rounds100 (t : Nat) : List (Nat × Bool × Bool) → List (Nat × Bool × Bool)
  | [] => []
  | (g, x) :: l => ((t + g) % 2 ^ 32, x) :: rounds100 (t + g) l

theorem run100 (c : ButtonSketch.Cfg) (hc : 1 ≤ c.capacity) (ha : 0 < c.address ∧ c.address < 65536) (hne : c.inPin ≠ c.ledPin)
    (l : List (Nat × Bool × Bool)) (hl : ∀ r ∈ l, r.1 < 2 ^ 32) (now : Nat) (s : PushButton.State) (t : Table) (b : Board) (x : Button) (on : Bool)
    (hT : Table.Ok c.capacity [Misc.getId c.address] s.delays t) (hx : BRel c.debounce c.hold (Misc.getId c.address) now t x s)
    (hin : (b c.inPin).output = false ∧ (b c.inPin).latch = true) (hled : OutputOk (b c.ledPin) ∧ (b c.ledPin).latch = on) :
    ∃ bs, (ButtonSketch.State.mk (now % 2 ^ 32) s b).run c (rounds100 now l) = .ok bs ∧
      bs.map (fun b => drives (b c.ledPin)) =
        (lamps on ((x.looks c.debounce c.hold now (l.map fun r => (r.1, r.2.1))).map Button.report)).map (fun v => some (if v then 255 else 0)) ∧
      ∀ p, p ≠ c.ledPin → bs.map (fun b => b p) = l.map fun _ => b p := by
  have hS : Room c.capacity [Misc.getId c.address] := ⟨by simpa using (c97_nonzero _ ha.1 ha.2).symm, by simpa using hc⟩
  induction l generalizing now s t b x on with
  | nil => exact ⟨[], rfl, rfl, fun _ _ => rfl⟩
  | cons r l ih =>
    obtain ⟨g, contact, float⟩ := r
    have hg : g < 2 ^ 32 := hl (g, contact, float) (by simp)
    have hup : Table.Ok c.capacity [Misc.getId c.address] (s.delays.update g) ⟨g, t.left⟩ := ⟨⟨rfl, hT.ref.sound, hT.ref.complete, hT.ref.inj⟩, hT.inS⟩
    have hx1 : BRel c.debounce c.hold (Misc.getId c.address) now ⟨g, t.left⟩ x { s with delays := s.delays.update g } := by
      cases hx with
      | fresh h => exact .fresh h
      | opened h1 h2 => exact .opened h1 h2
      | closed h1 h2 => exact .closed h1 h2
      | held h => exact .held h
      | undecided h => exact .undecided h
    have hlevel : (Arduino.readInput (ButtonSketch.switchLevel b contact float) c.inPin b).1 = !contact := by
      cases contact <;> simp [Arduino.readInput, digitalRead, ButtonSketch.switchLevel, hin.1, hin.2]
    obtain ⟨y, s', t', e1, e2, _, e4⟩ := scan_look hS (by simp) true (!contact) { s with delays := s.delays.update g } ⟨g, t.left⟩ hup now (now + g) (by omega) (by simp) x hx1
    have hpush : pushed true (!contact) = contact := by cases contact <;> rfl
    rw [hpush] at e4
    -- the lamp
    have hshow : ∃ b', ButtonSketch.showState (ButtonSketch.switchLevel b contact float) c.ledPin b s'.cur = b' ∧
        (OutputOk (b' c.ledPin) ∧ (b' c.ledPin).latch = lamp on (rep s'.cur)) ∧ ∀ p, p ≠ c.ledPin → b' p = b p := by
      refine ⟨_, rfl, ?_⟩
      obtain ⟨⟨h1, h2⟩, h3⟩ := hled
      cases s'.cur <;>
        simp +contextual [ButtonSketch.showState, rep, lamp, Arduino.write, Arduino.toggle, Arduino.getValue, digitalWrite, digitalRead, Board.upd, OutputOk, h1, h2, h3]
    obtain ⟨b', hb', hled', hoth⟩ := hshow
    rw [brel_report e4] at hled'
    have hin' : (b' c.inPin).output = false ∧ (b' c.inPin).latch = true := by rw [hoth _ hne]; exact hin
    obtain ⟨bs, i1, i2, i3⟩ := ih (fun r h => hl r (by simp [h])) (now + g) s' t' b' _ _ e2 e4 hin' hled'
    refine ⟨b' :: bs, ?_, ?_, ?_⟩
    · simp only [rounds100, ButtonSketch.State.run, ButtonSketch.State.loop, update_gap now g hg, hlevel, e1, Res.bind_ok, hb', i1]
    · simp only [List.map_cons, Button.looks, lamps, i2]
      congr 1
      obtain ⟨⟨h1, h2⟩, h3⟩ := hled'
      simp only [drives, h1, h2, h3, if_true]
    · intro p hp
      simp only [List.map_cons, i3 p hp, hoth p hp]

/-- **C100.** The push button example with any timeouts, pins (different ones), start time, clock gaps below 2^32 (the clock may wrap) and any behaviour of the contact:
    nothing goes wrong, and after every round the LED is what the specified button makes of it: off when open, on when closed, changing at every round while
    held, unchanged while undecided. No other pin changes, and the level of an unconnected pin does not matter (the pull-up is on). -/
theorem c100_button (c : ButtonSketch.Cfg) (hc : 1 ≤ c.capacity) (ha : 0 < c.address ∧ c.address < 65536) (hne : c.inPin ≠ c.ledPin) (b : Board)
    (hpwm : (b c.ledPin).pwm = none) (t0 : Nat) (l : List (Nat × Bool × Bool)) (hl : ∀ r ∈ l, r.1 < 2 ^ 32) :
    ∃ bs, (ButtonSketch.State.init c (t0 % 2 ^ 32) b).run c (rounds100 t0 l) = .ok bs ∧
      bs.map (fun b => drives (b c.ledPin)) =
        (lamps (b c.ledPin).latch ((Button.looks c.debounce c.hold t0 .fresh (l.map fun r => (r.1, r.2.1))).map Button.report)).map (fun v => some (if v then 255 else 0)) ∧
      ∀ p, p ≠ c.ledPin → p ≠ c.inPin → bs.map (fun b => b p) = l.map fun _ => b p := by
  obtain ⟨bs, h1, h2, h3⟩ := run100 c hc ha hne l hl t0 PushButton.State.init Table.init
    (Arduino.enablePullup c.inPin true (Arduino.outputPin c.ledPin (Arduino.inputPin c.inPin b))) .fresh (b c.ledPin).latch
    ⟨init_ref _, fun _ _ => .inl rfl⟩ (.fresh rfl)
    (by simp [Arduino.enablePullup, Arduino.outputPin, Arduino.inputPin, digitalWrite, pinModeOutput, pinModeInput, Board.upd, hne])
    (by simp [Arduino.enablePullup, Arduino.outputPin, Arduino.inputPin, digitalWrite, pinModeOutput, pinModeInput, Board.upd, hne.symm, OutputOk, hpwm])
  refine ⟨bs, h1, h2, fun p hp hp' => ?_⟩
  rw [h3 p hp]
  simp [Arduino.enablePullup, Arduino.outputPin, Arduino.inputPin, digitalWrite, pinModeOutput, pinModeInput, Board.upd, hp, hp']

example := c100_button ⟨0x100, 14, 13, 10, 400, 1⟩ (by decide) (by decide) (by decide) (fun _ => ⟨false, false, none, true⟩) rfl 4294967290
  [(5, false, true), (5, true, true), (5, false, false), (5, true, true), (5, true, true), (400, true, true)] (by decide)

/-- What the specified button does with a change of the contact, whatever it was before: it is undecided while the contact may bounce, until `D` has passed since the look after the
    change was seen; then it believes the contact as it is at that look. -/
theorem c100_settles (D H now g1 g2 g : Nat) (b : Button) (p1 p2 p : Bool) (mid : List (Nat × Bool))
    (hb : (p1 = true ∧ b = .opened) ∨ (p1 = false ∧ ((∃ a, b = .closed a) ∨ b = .held)))
    (h1 : (mid.map Prod.fst).sum < D ∨ mid = []) (h2 : D ≤ (mid.map Prod.fst).sum + g) :
    (b.looks D H now ((g1, p1) :: (g2, p2) :: mid ++ [(g, p)])).map Button.report =
      List.replicate (mid.length + 2) .pending ++ [if p then .closed else .opened] := by
  have first : b.look D H (now + g1) p1 = .undecided none := by
    rcases hb with ⟨rfl, rfl⟩ | ⟨rfl, ⟨a, rfl⟩ | rfl⟩ <;> rfl
  have key : ∀ (mid : List (Nat × Bool)) (a now : Nat), a ≤ now → (now + (mid.map Prod.fst).sum < a + D ∨ mid = []) → a + D ≤ now + (mid.map Prod.fst).sum + g →
      ((Button.undecided (some a)).looks D H now (mid ++ [(g, p)])).map Button.report = List.replicate mid.length .pending ++ [if p then .closed else .opened] := by
    intro mid
    induction mid with
    | nil =>
      intro a now _ _ h
      simp only [List.map_nil, List.sum_nil, Nat.add_zero] at h
      simp only [List.nil_append, Button.looks, Button.look, if_pos h, settle]
      cases p <;> rfl
    | cons r mid ih =>
      obtain ⟨x, q⟩ := r
      intro a now hn hm h
      simp only [List.map_cons, List.sum_cons, reduceCtorEq, or_false] at hm h
      have hx : ¬ a + D ≤ now + x := by omega
      simp only [List.cons_append, Button.looks, Button.look, if_neg hx, List.map_cons, List.length_cons, List.replicate_succ]
      rw [ih a (now + x) (by omega) (.inl (by omega)) (by omega)]
      rfl
  simp only [List.cons_append, Button.looks, first, List.map_cons]
  rw [show (Button.undecided none).look D H (now + g1 + g2) p2 = .undecided (some (now + g1 + g2)) from rfl]
  rw [key mid (now + g1 + g2) (now + g1 + g2) (Nat.le_refl _) (by rcases h1 with h | h; · exact .inl (by omega)
                                                                  · exact .inr h) (by omega)]
  rfl

/-- Non-vacuity of C100: the example (10 ms, 400 ms), rounds of 5 ms: pressed with a bounce, held, released. -/
example : ((Button.looks 10 400 0 .fresh ([(5, false), (5, true), (5, false), (5, true), (5, true), (5, true), (400, true), (5, true), (5, false), (5, false), (10, false)])).map Button.report) =
    [.opened, .pending, .pending, .pending, .closed, .closed, .hold, .hold, .pending, .pending, .opened] := by decide +kernel

example : (Res.bind ((ButtonSketch.State.init ⟨0x100, 14, 13, 10, 400, 1⟩ (4294967290 % 2 ^ 32) (fun _ => ⟨false, false, none, true⟩)).run ⟨0x100, 14, 13, 10, 400, 1⟩
      (rounds100 4294967290 [(5, false, true), (5, true, true), (5, false, false), (5, true, true), (5, true, true), (5, true, true), (400, true, true), (5, true, true), (5, false, false)]))
      fun bs => .ok (bs.map fun b => drives (b 13))) =
    .ok [some 0, some 0, some 0, some 0, some 255, some 255, some 0, some 255, some 255] := by decide +kernel

/-! ### C101 -/

theorem follow_run (i o : Nat) (hne : i ≠ o) (l : List (Nat → Bool)) (v : Bool) (b : Board) (hin : (b i).output = false ∧ (b i).pwm = none)
    (hled : OutputOk (b o) ∧ (b o).latch = v) :
    ((ButtonSketch.DState.mk v b).run i o l).map (fun b => drives (b o)) = l.map (fun ext => some (if ext i then 255 else 0)) ∧
    ∀ p, p ≠ o → ((ButtonSketch.DState.mk v b).run i o l).map (fun b => b p) = l.map fun _ => b p := by
  induction l generalizing v b with
  | nil => exact ⟨rfl, fun _ _ => rfl⟩
  | cons ext l ih =>
    obtain ⟨⟨h1, h2⟩, h3⟩ := hled
    have hread : Arduino.readInput ext i b = (ext i, b) := by
      have : (b.upd i fun x => { x with pwm := none }) = b := by
        funext x
        by_cases hx : x = i
        · subst hx
          simp only [Board.upd, if_true, ← hin.2]
        · simp [Board.upd, hx]
      simp only [Arduino.readInput, digitalRead, hin.1, Bool.false_eq_true, if_false, this]
    have hstep : ∃ b', (ButtonSketch.DState.mk v b).loop i o ext = ⟨ext i, b'⟩ ∧ (OutputOk (b' o) ∧ (b' o).latch = ext i) ∧ ∀ p, p ≠ o → b' p = b p := by
      by_cases hv : v = ext i
      · refine ⟨b, ?_, ⟨⟨h1, h2⟩, h3.trans hv⟩, fun _ _ => rfl⟩
        simp [ButtonSketch.DState.loop, hread, DigitalInput.read, hv]
      · refine ⟨Arduino.write o (ext i) b, ?_, ?_, ?_⟩
        · simp [ButtonSketch.DState.loop, hread, DigitalInput.read, hv]
        · simp [Arduino.write, digitalWrite, Board.upd, OutputOk, h1]
        · intro p hp; simp [Arduino.write, digitalWrite, Board.upd, hp]
    obtain ⟨b', e1, e2, e3⟩ := hstep
    obtain ⟨i1, i2⟩ := ih (ext i) b' (by rw [e3 i hne]; exact hin) e2
    simp only [ButtonSketch.DState.run, e1, List.map_cons]
    refine ⟨?_, fun p hp => by rw [i2 p hp, e3 p hp]⟩
    rw [i1]
    obtain ⟨⟨k1, k2⟩, k3⟩ := e2
    simp only [drives, k1, k2, k3, if_true]

/-- **C101, partial.** The DigitalInput example: after every round the LED shows the level the input had in that round; no other pin changes. Premise: the LED pin starts low. -/
theorem c101_follow_partial (i o : Nat) (hne : i ≠ o) (b : Board) (hpwm : (b i).pwm = none ∧ (b o).pwm = none) (h0 : (b o).latch = false) (l : List (Nat → Bool)) :
    ((ButtonSketch.DState.init i o b).run i o l).map (fun b => drives (b o)) = l.map (fun ext => some (if ext i then 255 else 0)) ∧
    ∀ p, p ≠ o → p ≠ i → ((ButtonSketch.DState.init i o b).run i o l).map (fun b => b p) = l.map fun _ => b p := by
  obtain ⟨h1, h2⟩ := follow_run i o hne l false (Arduino.inputPin i (Arduino.outputPin o b))
    (by simp [Arduino.inputPin, Arduino.outputPin, pinModeInput, pinModeOutput, Board.upd, hne, hpwm])
    (by simp [Arduino.inputPin, Arduino.outputPin, pinModeInput, pinModeOutput, Board.upd, hne.symm, OutputOk, hpwm, h0])
  refine ⟨h1, fun p hp hp' => ?_⟩
  rw [show (ButtonSketch.DState.init i o b) = ⟨false, Arduino.inputPin i (Arduino.outputPin o b)⟩ from rfl, h2 p hp]
  simp [Arduino.inputPin, Arduino.outputPin, pinModeInput, pinModeOutput, Board.upd, hp, hp']

/-- From a remembered low level and any level of the latch: the latch shows until the first high input, the input from then on. -/
theorem follow_low (i o : Nat) (hne : i ≠ o) (l : List (Nat → Bool)) : ∀ (b : Board), ((b i).output = false ∧ (b i).pwm = none) → OutputOk (b o) → ∀ k : Nat,
    (((ButtonSketch.DState.mk false b).run i o l)[k]?).map (fun b => drives (b o)) =
      (l[k]?).map fun ext => some (if (if (l.take (k + 1)).any (fun e => e i) then ext i else (b o).latch) then 255 else 0) := by
  induction l with
  | nil => intros; rfl
  | cons ext l ih =>
    intro b hin hout k
    have hread : Arduino.readInput ext i b = (ext i, b) := by
      have : (b.upd i fun x => { x with pwm := none }) = b := by
        funext x
        by_cases hx : x = i
        · subst hx
          simp only [Board.upd, if_true, ← hin.2]
        · simp [Board.upd, hx]
      simp only [Arduino.readInput, digitalRead, hin.1, Bool.false_eq_true, if_false, this]
    cases he : ext i with
    | false =>
      have e : (ButtonSketch.DState.mk false b).loop i o ext = ⟨false, b⟩ := by simp [ButtonSketch.DState.loop, hread, DigitalInput.read, he]
      cases k with
      | zero => simp [ButtonSketch.DState.run, e, he, drives, hout.1, hout.2]
      | succ k =>
        simp only [ButtonSketch.DState.run, e, List.getElem?_cons_succ, List.take_succ_cons, List.any_cons, he, Bool.false_or]
        exact ih b hin hout k
    | true =>
      have e : (ButtonSketch.DState.mk false b).loop i o ext = ⟨true, Arduino.write o true b⟩ := by simp [ButtonSketch.DState.loop, hread, DigitalInput.read, he]
      have hw : OutputOk (Arduino.write o true b o) ∧ (Arduino.write o true b o).latch = true := by
        simp [Arduino.write, digitalWrite, Board.upd, OutputOk, hout.1]
      have hi : Arduino.write o true b i = b i := by simp [Arduino.write, digitalWrite, Board.upd, hne]
      obtain ⟨f1, _⟩ := follow_run i o hne l true (Arduino.write o true b) (by rw [hi]; exact hin) hw
      cases k with
      | zero =>
        obtain ⟨⟨w1, w2⟩, w3⟩ := hw
        simp [ButtonSketch.DState.run, e, he, drives, w1, w2, w3]
      | succ k =>
        have := congrArg (fun m => m[k]?) f1
        simp only [List.getElem?_map] at this
        simp only [ButtonSketch.DState.run, e, List.getElem?_cons_succ, List.take_succ_cons, List.any_cons, he, Bool.true_or, if_true]
        exact this

/-- **C101, exactly.** The DigitalInput example from every start level of the LED pin: after round `k` the LED shows the input's level of that round if the input was high in some
round so far, and the level its pin started with otherwise. -/
theorem c101_follow_exact (i o : Nat) (hne : i ≠ o) (b : Board) (hpwm : (b i).pwm = none ∧ (b o).pwm = none) (l : List (Nat → Bool)) (k : Nat) :
    (((ButtonSketch.DState.init i o b).run i o l)[k]?).map (fun b => drives (b o)) =
      (l[k]?).map fun ext => some (if (if (l.take (k + 1)).any (fun e => e i) then ext i else (b o).latch) then 255 else 0) := by
  have := follow_low i o hne l (Arduino.inputPin i (Arduino.outputPin o b))
    (by simp [Arduino.inputPin, Arduino.outputPin, pinModeInput, pinModeOutput, Board.upd, hne, hpwm])
    (by simp [Arduino.inputPin, Arduino.outputPin, pinModeInput, pinModeOutput, Board.upd, hne.symm, OutputOk, hpwm]) k
  have hl : (Arduino.inputPin i (Arduino.outputPin o b) o).latch = (b o).latch := by
    simp [Arduino.inputPin, Arduino.outputPin, pinModeInput, pinModeOutput, Board.upd, hne.symm]
  rw [hl] at this
  exact this

/-- The input low, high, low and high, with the LED pin high at the start: on, on, off, on. -/
example : ((ButtonSketch.DState.init 4 13 fun _ => ⟨false, true, none, true⟩).run 4 13
    ([false, true, false, true].map fun v => fun _ => v)).map (fun b => drives (b 13)) = [some 255, some 255, some 0, some 255] := by decide +kernel

/-- **C101 fails** if the LED pin starts high (the example does not set it): the LED stays on while the input has always been low. -/
theorem c101_start_fails (i o : Nat) (hne : i ≠ o) (b : Board) (hpwm : (b i).pwm = none ∧ (b o).pwm = none) (h1 : (b o).latch = true) (n : Nat) :
    ((ButtonSketch.DState.init i o b).run i o (List.replicate n fun _ => false)).map (fun b => drives (b o)) = List.replicate n (some 255) := by
  have key : ∀ (n : Nat) (b : Board), (b i).output = false → (b i).pwm = none → drives (b o) = some 255 →
      ((ButtonSketch.DState.mk false b).run i o (List.replicate n fun _ => false)).map (fun b => drives (b o)) = List.replicate n (some 255) := by
    intro n
    induction n with
    | zero => intros; rfl
    | succ n ih =>
      intro b hb hp hd
      have hread : Arduino.readInput (fun _ => false) i b = (false, b) := by
        have : (b.upd i fun x => { x with pwm := none }) = b := by
          funext x
          by_cases hx : x = i
          · subst hx
            simp only [Board.upd, if_true, ← hp]
          · simp [Board.upd, hx]
        simp only [Arduino.readInput, digitalRead, hb, Bool.false_eq_true, if_false, this]
      have e : (ButtonSketch.DState.mk false b).loop i o (fun _ => false) = ⟨false, b⟩ := by simp [ButtonSketch.DState.loop, hread, DigitalInput.read]
      simp only [List.replicate_succ, ButtonSketch.DState.run, e, List.map_cons, hd, ih b hb hp hd]
  refine key n _ ?_ ?_ ?_ <;>
    simp [Arduino.inputPin, Arduino.outputPin, pinModeInput, pinModeOutput, Board.upd, hne, hne.symm, drives, hpwm, h1]

/-- **C101, Blink.** The LED changes in every round. -/
theorem c101_blink (o : Nat) (b : Board) (hpwm : (b o).pwm = none) (l : List (Nat → Bool)) :
    (ButtonSketch.blink o (Arduino.outputPin o b) l).map (fun b => drives (b o)) =
      (List.range l.length).map (fun k => some (if (b o).latch ^^ decide (k % 2 = 0) then 255 else 0)) ∧
    ∀ p, p ≠ o → (ButtonSketch.blink o (Arduino.outputPin o b) l).map (fun b => b p) = l.map fun _ => b p := by
  have key : ∀ (l : List (Nat → Bool)) (b : Board) (v : Bool), OutputOk (b o) → (b o).latch = v →
      (ButtonSketch.blink o b l).map (fun b => drives (b o)) = (List.range l.length).map (fun k => some (if v ^^ decide (k % 2 = 0) then 255 else 0)) ∧
      ∀ p, p ≠ o → (ButtonSketch.blink o b l).map (fun b => b p) = l.map fun _ => b p := by
    intro l
    induction l with
    | nil => intros; exact ⟨rfl, fun _ _ => rfl⟩
    | cons ext l ih =>
      intro b v h1 h2
      obtain ⟨_, k2⟩ := pin_step ext b (.toggle o) (fun _ => v) h1 h2
      have k2 : Arduino.toggle ext o b = _ := k2
      have ho : Arduino.toggle ext o b o = setLatch (b o) (!v) := by rw [k2]; simp [pinOf, levelStep]
      have hp : ∀ p, p ≠ o → Arduino.toggle ext o b p = b p := by intro p hp; rw [k2]; simp [pinOf, hp]
      obtain ⟨i1, i2⟩ := ih (Arduino.toggle ext o b) (!v) (by rw [ho]; exact h1) (by rw [ho]; rfl)
      simp only [ButtonSketch.blink, List.map_cons]
      refine ⟨?_, fun p hp' => by rw [i2 p hp', hp p hp']⟩
      rw [i1, ho, List.length_cons, List.range_succ_eq_map, List.map_cons, List.map_map]
      obtain ⟨q1, q2⟩ := h1
      congr 1
      · simp only [drives, setLatch, q1, q2, if_true]; cases v <;> rfl
      · apply List.map_congr_left
        intro k _
        rcases Nat.mod_two_eq_zero_or_one k with h | h
        · simp [h, Nat.add_mod]; cases v <;> rfl
        · simp [h, Nat.add_mod]; cases v <;> rfl
  obtain ⟨h1, h2⟩ := key l (Arduino.outputPin o b) (b o).latch (by simp [Arduino.outputPin, pinModeOutput, Board.upd, OutputOk, hpwm])
    (by simp [Arduino.outputPin, pinModeOutput, Board.upd])
  refine ⟨h1, fun p hp => ?_⟩
  rw [h2 p hp]
  simp [Arduino.outputPin, pinModeOutput, Board.upd, hp]

example : ((ButtonSketch.DState.init 4 13 fun _ => ⟨false, false, none, true⟩).run 4 13 [fun _ => true, fun _ => true, fun _ => false]).map (fun b => drives (b 13)) =
    [some 255, some 255, some 0] := by decide +kernel

end Atl.Props
