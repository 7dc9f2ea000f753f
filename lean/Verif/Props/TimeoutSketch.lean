import Verif.Model.TimeoutSketch
import Verif.Spec.Lamp
import Verif.Props.Delays
import Verif.Props.Arduino
import Verif.Props.Misc

/- C99: the example program with several timeout tasks on one delay table. -/
namespace Atl.Props
open Atl.Spec.Arduino Atl.Spec.Lamp Atl.Delays Atl.Spec.Delays
open Atl.TimeoutSketch (Task)

/-- Readings of the clock at true times that are the given gaps apart, with the levels at the input pins in that round. -/
def rounds99 (t : Nat) : List (Nat × (Task → Nat → Bool)) → List (Nat × (Task → Nat → Bool))
  | [] => []
  | (g, ext) :: l => ((t + g) % 2 ^ 32, ext) :: rounds99 (t + g) l

/-- What a pin that is high (or low) drives. -/
def lvl (v : Bool) : Option Nat := some (if v then 255 else 0)

/-- Tasks as a compiler lays them out: in memory, not at address 0, apart (2 bytes each); on different pins, without PWM. -/
structure TasksOk (tasks : List Task) (b : Board) : Prop where
  addr : ∀ t ∈ tasks, 0 < t.address ∧ t.address < 65536
  apart : tasks.Pairwise fun a b => Apart a.address 2 b.address 2
  pins : (tasks.map Task.pin).Nodup
  pwm : ∀ t ∈ tasks, (b t.pin).pwm = none

/-- What is left of the wait of a lamp in the table. -/
def leftOf (T now : Nat) (l : Lamp) : Option Nat := l.since.map fun a => a + T - now

/-- One round of `Execute`s does to every task what one look does to its lamp. -/
theorem executeAll_ref {N : Nat} {S : List Nat} (hS : Room N S) (ext : Task → Nat → Bool) (prev now : Nat) (hle : prev ≤ now) (L : Task → Lamp)
    (tasks : List Task) (hin : ∀ t ∈ tasks, Misc.getId t.address ∈ S) (hnd : (tasks.map fun t => Misc.getId t.address).Nodup) (hpins : (tasks.map Task.pin).Nodup)
    (d : Delays.State) (tb : Table) (b : Board) (href : Ref N d tb) (hids : ∀ i, i < N → d.ids i = 0 ∨ d.ids i ∈ S) (hdelta : tb.delta = now - prev)
    (hleft : ∀ t ∈ tasks, tb.left (Misc.getId t.address) = leftOf t.timeout prev (L t))
    (hpin : ∀ t ∈ tasks, OutputOk (b t.pin) ∧ (b t.pin).latch = (L t).on) :
    ∃ d' tb' b', TimeoutSketch.executeAll N ext tasks (tasks.map fun _ => 56) d b = .ok (tasks.map fun _ => 56, d', b') ∧ Ref N d' tb' ∧
      (∀ i, i < N → d'.ids i = 0 ∨ d'.ids i ∈ S) ∧ tb'.delta = tb.delta ∧
      (∀ t ∈ tasks, tb'.left (Misc.getId t.address) = leftOf t.timeout now ((L t).look t.timeout now)) ∧
      (∀ i, i ∉ tasks.map (fun t => Misc.getId t.address) → tb'.left i = tb.left i) ∧
      (∀ t ∈ tasks, OutputOk (b' t.pin) ∧ (b' t.pin).latch = ((L t).look t.timeout now).on) ∧
      (∀ p, p ∉ tasks.map Task.pin → b' p = b p) := by
  induction tasks generalizing d tb b with
  | nil => exact ⟨d, tb, b, rfl, href, hids, rfl, by simp, fun _ _ => rfl, by simp, fun _ _ => rfl⟩
  | cons t ts ih =>
    simp only [List.map_cons, List.nodup_cons] at hnd hpins
    -- the call on the table
    obtain ⟨d1, e1, r1, q1⟩ := step_ref N d tb href (.wait (Misc.getId t.address) t.timeout)
      (by intro e; simp only [Op.call, Call.id?, Option.some.injEq] at e; exact hS.nz (e ▸ hin t (by simp)))
      (by rintro id time h hl; cases h; exact room_empty hS d tb href hids _ (hin t (by simp)) hl)
    have hids1 : ∀ i, i < N → d1.ids i = 0 ∨ d1.ids i ∈ S := by
      intro i hi
      rcases q1 i hi with e | e | e
      · rw [e]; exact hids i hi
      · exact .inl e
      · simp only [Op.call, Call.id?, Option.some.injEq] at e
        rw [e]; exact .inr (hin t (by simp))
    have hw : ∃ o, d.wait N (Misc.getId t.address) t.timeout = .ok (o, d1) ∧ (tb.step (.wait (Misc.getId t.address) t.timeout)).1 = some o := by
      simp only [State.step, Op.call] at e1
      cases hc : d.wait N (Misc.getId t.address) t.timeout with
      | ub => rw [hc] at e1; cases e1
      | ok r =>
        rw [hc] at e1
        simp only [Res.bind_ok, Res.ok.injEq, Prod.mk.injEq] at e1
        exact ⟨r.1, by rw [← e1.2], e1.1.symm⟩
    obtain ⟨o, hw, ho⟩ := hw
    -- the specification of that call
    have hl0 := hleft t (by simp)
    have hp0 := hpin t (by simp)
    have hspec : ∃ b1, TimeoutSketch.onTimeout (ext t) t.pin (if o then 1 else 0) b = b1 ∧
        (tb.step (.wait (Misc.getId t.address) t.timeout)).2.left (Misc.getId t.address) = leftOf t.timeout now ((L t).look t.timeout now) ∧
        (∀ i, i ≠ Misc.getId t.address → (tb.step (.wait (Misc.getId t.address) t.timeout)).2.left i = tb.left i) ∧
        (tb.step (.wait (Misc.getId t.address) t.timeout)).2.delta = tb.delta ∧
        OutputOk (b1 t.pin) ∧ (b1 t.pin).latch = ((L t).look t.timeout now).on ∧ (∀ p, p ≠ t.pin → b1 p = b p) := by
      obtain ⟨_, k2⟩ := pin_step (ext t) b (.toggle t.pin) (fun _ => (L t).on) hp0.1 hp0.2
      cases hs : (L t).since with
      | none =>
        have hn : tb.left (Misc.getId t.address) = none := by rw [hl0, leftOf, hs]; rfl
        simp only [Table.step, hn, Option.some.injEq] at ho ⊢
        subst ho
        refine ⟨b, rfl, ?_, ?_, rfl, hp0.1, ?_, fun _ _ => rfl⟩
        · simp [Table.put, leftOf, Lamp.look, hs]
        · intro i hi; simp [Table.put, hi]
        · simp [Lamp.look, hs, hp0.2]
      | some a =>
        have hn : tb.left (Misc.getId t.address) = some (a + t.timeout - prev) := by rw [hl0, leftOf, hs]; rfl
        simp only [Table.step, hn] at ho ⊢
        by_cases hf : a + t.timeout ≤ now
        · have hc : a + t.timeout - prev ≤ tb.delta := by rw [hdelta]; omega
          simp only [if_pos hc, Option.some.injEq] at ho ⊢
          subst ho
          refine ⟨_, rfl, ?_, ?_, rfl, ?_⟩
          · simp [Table.put, leftOf, Lamp.look, hs, hf]
          · intro i hi; simp [Table.put, hi]
          · have hb : TimeoutSketch.onTimeout (ext t) t.pin (if true = true then 1 else 0) b = (Arduino.step (ext t) b (.toggle t.pin)).1 := rfl
            rw [hb, k2]
            refine ⟨?_, ?_, ?_⟩
            · simp only [pinOf, if_true]; exact hp0.1
            · simp [pinOf, setLatch, levelStep, Lamp.look, hs, hf]
            · intro p hp; simp [pinOf, hp]
        · have hc : ¬ a + t.timeout - prev ≤ tb.delta := by rw [hdelta]; omega
          simp only [if_neg hc, Option.some.injEq] at ho ⊢
          subst ho
          refine ⟨b, rfl, ?_, ?_, rfl, hp0.1, ?_, fun _ _ => rfl⟩
          · simp only [Table.put, if_true, leftOf, Lamp.look, hs, if_neg hf, Option.map_some]
            congr 1; omega
          · intro i hi; simp [Table.put, hi]
          · simp only [Lamp.look, hs, if_neg hf, hp0.2]
    obtain ⟨b1, hb1, s1, s2, s3, s4, s5, s6⟩ := hspec
    obtain ⟨d', tb', b', g1, g2, g3, g4, g5, g6, g7, g8⟩ := ih (fun t' h => hin t' (by simp [h])) hnd.2 hpins.2 d1 _ b1 r1 hids1 (by rw [Op.call, s3, hdelta])
      (by
        intro t' h'
        rw [Op.call, s2 _ (fun e => hnd.1 (List.mem_map.2 ⟨t', h', e⟩))]
        exact hleft t' (by simp [h']))
      (by
        intro t' h'
        rw [s6 _ (fun e => hpins.1 (List.mem_map.2 ⟨t', h', e⟩))]
        exact hpin t' (by simp [h']))
    refine ⟨d', tb', b', ?_, g2, g3, by rw [g4, Op.call, s3], ?_, ?_, ?_, ?_⟩
    · have hx : (TimeoutTask.State.mk 56 d).execute N (Misc.getId t.address) t.timeout = .ok ((true, if o then 1 else 0), ⟨56, d1⟩) := by
        simp only [TimeoutTask.State.execute, if_neg (show ¬ 56 = 0 by decide), if_true, hw, Res.bind_ok]
        cases o <;> rfl
      simp only [List.map_cons, TimeoutSketch.executeAll, hx, Res.bind_ok, hb1, g1]
    · intro t' h'
      rcases List.mem_cons.1 h' with rfl | h'
      · rw [g6 _ hnd.1]; exact s1
      · exact g5 t' h'
    · intro i hi
      simp only [List.map_cons, List.mem_cons, not_or] at hi
      rw [g6 _ hi.2]; exact s2 i hi.1
    · intro t' h'
      rcases List.mem_cons.1 h' with rfl | h'
      · rw [g8 _ hpins.1]; exact ⟨s4, s5⟩
      · exact g7 t' h'
    · intro p hp
      simp only [List.map_cons, List.mem_cons, not_or] at hp
      rw [g8 _ hp.2]; exact s6 p hp.1

/-- The rounds after the first. -/
theorem run_ref99 {N : Nat} {S : List Nat} (hS : Room N S) (tasks : List Task) (hin : ∀ t ∈ tasks, Misc.getId t.address ∈ S)
    (hnd : (tasks.map fun t => Misc.getId t.address).Nodup) (hpins : (tasks.map Task.pin).Nodup) (l : List (Nat × (Task → Nat → Bool)))
    (hl : ∀ r ∈ l, r.1 < 2 ^ 32) (now : Nat) (L : Task → Lamp) (d : Delays.State) (tb : Table) (b : Board) (href : Ref N d tb)
    (hids : ∀ i, i < N → d.ids i = 0 ∨ d.ids i ∈ S) (hleft : ∀ t ∈ tasks, tb.left (Misc.getId t.address) = leftOf t.timeout now (L t))
    (hpin : ∀ t ∈ tasks, OutputOk (b t.pin) ∧ (b t.pin).latch = (L t).on) :
    ∃ bs, (TimeoutSketch.State.mk (now % 2 ^ 32) d (tasks.map fun _ => 56) b).run N tasks (rounds99 now l) = .ok bs ∧
      (∀ t ∈ tasks, (bs.map fun b => drives (b t.pin)) = ((L t).looks t.timeout now (l.map Prod.fst)).map fun x => lvl x.on) ∧
      (∀ p, p ∉ tasks.map Task.pin → bs.map (fun b => b p) = l.map fun _ => b p) := by
  induction l generalizing now L d tb b with
  | nil => exact ⟨[], rfl, fun _ _ => rfl, fun _ _ => rfl⟩
  | cons r l ih =>
    obtain ⟨g, ext⟩ := r
    have hg : g < 2 ^ 32 := hl (g, ext) (by simp)
    have hup : Ref N (d.update g) ⟨g, tb.left⟩ := ⟨rfl, href.sound, href.complete, href.inj⟩
    obtain ⟨d', tb', b', g1, g2, g3, _, g5, _, g7, g8⟩ := executeAll_ref hS ext now (now + g) (by omega) L tasks hin hnd hpins (d.update g) ⟨g, tb.left⟩ b hup hids
      (by simp) hleft hpin
    obtain ⟨bs, i1, i2, i3⟩ := ih (fun r h => hl r (by simp [h])) (now + g) (fun t => (L t).look t.timeout (now + g)) d' tb' b' g2 g3 g5 g7
    refine ⟨b' :: bs, ?_, ?_, ?_⟩
    · simp only [rounds99, TimeoutSketch.State.run, TimeoutSketch.State.loop, update_gap now g hg, g1, Res.bind_ok, i1]
    · intro t ht
      simp only [List.map_cons, Lamp.looks, i2 t ht]
      congr 1
      obtain ⟨⟨o1, o2⟩, o3⟩ := g7 t ht
      simp only [drives, o1, o2, o3, if_true, lvl]
    · intro p hp
      simp only [List.map_cons, i3 p hp, g8 p hp]

/-- The first round only starts the tasks. -/
theorem first_round (N : Nat) (ext : Task → Nat → Bool) (tasks : List Task) (d : Delays.State) (b : Board) :
    TimeoutSketch.executeAll N ext tasks (tasks.map fun _ => 0) d b = .ok (tasks.map fun _ => 56, d, b) := by
  induction tasks with
  | nil => rfl
  | cons t ts ih =>
    simp only [List.map_cons, TimeoutSketch.executeAll, TimeoutTask.State.execute, if_true, Res.bind_ok, TimeoutSketch.onTimeout, ih]

/-- The constructors make outputs of the pins and leave the others alone. -/
theorem constructed (tasks : List Task) (b : Board) (hpwm : ∀ t ∈ tasks, (b t.pin).pwm = none) :
    (∀ t ∈ tasks, OutputOk (tasks.foldl (fun b t => Arduino.outputPin t.pin b) b t.pin) ∧
      (tasks.foldl (fun b t => Arduino.outputPin t.pin b) b t.pin).latch = (b t.pin).latch) ∧
    ∀ p, p ∉ tasks.map Task.pin → tasks.foldl (fun b t => Arduino.outputPin t.pin b) b p = b p := by
  have key : ∀ (ts : List Task) (b : Board) (p : Nat),
      ts.foldl (fun b t => Arduino.outputPin t.pin b) b p = if p ∈ ts.map Task.pin then ⟨true, (b p).latch, (b p).pwm, (b p).hasTimer⟩ else b p := by
    intro ts
    induction ts with
    | nil => intro b p; simp
    | cons t ts ih =>
      intro b p
      simp only [List.foldl_cons, ih _ p, List.map_cons, List.mem_cons]
      by_cases h1 : p ∈ ts.map Task.pin <;> by_cases h2 : p = t.pin <;> simp [h1, h2, Arduino.outputPin, pinModeOutput, Board.upd]
  refine ⟨fun t ht => ?_, fun p hp => by rw [key, if_neg hp]⟩
  rw [key, if_pos (List.mem_map_of_mem ht)]
  exact ⟨⟨rfl, hpwm t ht⟩, rfl⟩

/-- **C99.** The example program with any tasks within the capacity of the table, any start time and any clock gaps below 2^32 between rounds (the clock may wrap),
    whatever happens at the input pins: nothing goes wrong, and every task's pin shows in every round what a lamp of its own shows that is first looked at in the second
    round: it waits, changes at the first look at which its timeout has passed, and begins to wait again at the next look - independent of the other
    tasks. Pins without a task are not touched. -/
theorem c99_lamps (N : Nat) (tasks : List Task) (hN : tasks.length ≤ N) (b : Board) (hok : TasksOk tasks b) (t0 g0 : Nat) (ext0 : Task → Nat → Bool)
    (l : List (Nat × (Task → Nat → Bool))) (h0 : g0 < 2 ^ 32) (hl : ∀ r ∈ l, r.1 < 2 ^ 32) :
    ∃ bs, (TimeoutSketch.State.init tasks (t0 % 2 ^ 32) b).run N tasks (rounds99 t0 ((g0, ext0) :: l)) = .ok bs ∧
      (∀ t ∈ tasks, (bs.map fun b => drives (b t.pin)) =
        lvl (b t.pin).latch :: (Lamp.looks t.timeout (t0 + g0) ⟨none, (b t.pin).latch⟩ (l.map Prod.fst)).map fun x => lvl x.on) ∧
      (∀ p, p ∉ tasks.map Task.pin → bs.map (fun b => b p) = b p :: l.map fun _ => b p) := by
  obtain ⟨haddr, hap, hpins, hpwm⟩ := hok
  obtain ⟨c1, c2⟩ := constructed tasks b hpwm
  have hnd : (tasks.map fun t => Misc.getId t.address).Nodup := by
    rw [List.Nodup, List.pairwise_map]
    refine hap.imp_of_mem ?_
    intro x y hx hy h
    exact c97_unique_partial x.address 2 y.address 2 (haddr x hx).2 (haddr y hy).2 (by decide) (by decide) h
  have hS : Room N (tasks.map fun t => Misc.getId t.address) := by
    refine ⟨?_, by simpa using hN⟩
    intro h
    obtain ⟨t, ht, e⟩ := List.mem_map.1 h
    exact c97_nonzero _ (haddr t ht).1 (haddr t ht).2 e
  have href : Ref N (Delays.State.init.update g0) ⟨g0, Table.init.left⟩ := ⟨rfl, (init_ref N).sound, (init_ref N).complete, (init_ref N).inj⟩
  obtain ⟨bs, i1, i2, i3⟩ := run_ref99 hS tasks (fun t ht => List.mem_map_of_mem (f := fun t => Misc.getId t.address) ht) hnd hpins l hl (t0 + g0) (fun t => ⟨none, (b t.pin).latch⟩)
    (Delays.State.init.update g0) ⟨g0, Table.init.left⟩ (tasks.foldl (fun b t => Arduino.outputPin t.pin b) b) href (fun _ _ => .inl rfl) (fun _ _ => rfl) c1
  refine ⟨tasks.foldl (fun b t => Arduino.outputPin t.pin b) b :: bs, ?_, ?_, ?_⟩
  · have hc : Time.create (t0 % 2 ^ 32) = t0 % 2 ^ 32 := rfl
    simp only [rounds99, TimeoutSketch.State.run, TimeoutSketch.State.loop, TimeoutSketch.State.init, hc, update_gap t0 g0 h0, TimeoutTask.State.init, first_round,
      Res.bind_ok, i1]
  · intro t ht
    simp only [List.map_cons, i2 t ht]
    congr 1
    obtain ⟨⟨o1, o2⟩, o3⟩ := c1 t ht
    simp only [drives, o1, o2, o3, if_true, lvl]
  · intro p hp
    simp only [List.map_cons, i3 p hp, c2 p hp]

example := c99_lamps 4 [⟨0x100, 13, 1000⟩, ⟨0x102, 12, 200⟩] (by decide) (fun _ => ⟨false, false, none, true⟩) ⟨by simp, by simp [Apart], by decide, fun _ _ => rfl⟩ 4294967000 100
  (fun _ _ => true) [(100, fun _ _ => true), (150, fun _ _ => false)] (by decide) (by simp)

/-- Times at which an observed value changes: it is `x` at first, and each entry tells how much later it is seen again and what it is then. -/
def edges {α : Type} [DecidableEq α] (now : Nat) (x : α) : List (Nat × α) → List Nat
  | [] => []
  | (g, y) :: l => if y = x then edges (now + g) y l else (now + g) :: edges (now + g) y l

theorem lvl_inj {a b : Bool} : lvl a = lvl b ↔ a = b := by cases a <;> cases b <;> simp [lvl]

theorem looks_edges (T G : Nat) (gs : List Nat) (hG : ∀ g ∈ gs, g ≤ G) (now last : Nat) (l : Lamp) (hlast : last ≤ now)
    (hn : l.since = none → last = now) (hs : ∀ a, l.since = some a → last ≤ a ∧ a ≤ last + G ∧ a ≤ now ∧ now ≤ a + T) :
    (last :: edges now (lvl l.on) (gs.zip ((l.looks T now gs).map fun x => lvl x.on))).IsChain (fun a b => a + T ≤ b ∧ b ≤ a + T + 2 * G) ∧
    now + gs.sum ≤ (edges now (lvl l.on) (gs.zip ((l.looks T now gs).map fun x => lvl x.on))).getLastD last + T + 2 * G := by
  induction gs generalizing now last l with
  | nil =>
    refine ⟨by simp [edges], ?_⟩
    simp only [List.zip_nil_left, edges, List.getLastD_nil, List.sum_nil]
    cases hc : l.since with
    | none => have := hn hc; omega
    | some a => have := hs a hc; omega
  | cons g gs ih =>
    have hg : g ≤ G := hG g (by simp)
    have hG' : ∀ g ∈ gs, g ≤ G := fun x hx => hG x (by simp [hx])
    simp only [Lamp.looks, List.map_cons, List.zip_cons_cons, edges, List.sum_cons, lvl_inj]
    cases hc : l.since with
    | none =>
      have e := hn hc
      have hl : l.look T (now + g) = ⟨some (now + g), l.on⟩ := by simp [Lamp.look, hc]
      rw [hl, if_pos rfl]
      have := ih hG' (now + g) last ⟨some (now + g), l.on⟩ (by omega) (by simp) (by
        intro a ha
        simp only [Option.some.injEq] at ha
        omega)
      refine ⟨this.1, ?_⟩
      have := this.2
      omega
    | some a =>
      have e := hs a hc
      by_cases hf : a + T ≤ now + g
      · have hl : l.look T (now + g) = ⟨none, !l.on⟩ := by simp [Lamp.look, hc, hf]
        rw [hl, if_neg (by simp)]
        have := ih hG' (now + g) (now + g) ⟨none, !l.on⟩ (by omega) (fun _ => rfl) (by simp)
        refine ⟨?_, ?_⟩
        · rw [List.isChain_cons_cons]
          exact ⟨by omega, this.1⟩
        · rw [List.getLastD_cons]
          have := this.2
          omega
      · have hl : l.look T (now + g) = l := by simp [Lamp.look, hc, hf]
        rw [hl, if_pos rfl]
        have := ih hG' (now + g) last l (by omega) (by simp [hc]) (by
          intro a' ha
          rw [hc] at ha
          cases ha
          omega)
        refine ⟨this.1, ?_⟩
        have := this.2
        omega

/-- **C99, the pace.** If the rounds are at most `G` apart, every pin changes again and again: from one change to the next (and from the first round to the first change) it
    takes at least the timeout `T` and at most `T + 2 G`; at the end of the observation the last change is not longer ago than that. -/
theorem c99_pace (N : Nat) (tasks : List Task) (hN : tasks.length ≤ N) (b : Board) (hok : TasksOk tasks b) (t0 g0 G : Nat) (ext0 : Task → Nat → Bool)
    (l : List (Nat × (Task → Nat → Bool))) (h0 : g0 < 2 ^ 32) (hG : G < 2 ^ 32) (hl : ∀ r ∈ l, r.1 ≤ G) :
    ∃ b0 bs, (TimeoutSketch.State.init tasks (t0 % 2 ^ 32) b).run N tasks (rounds99 t0 ((g0, ext0) :: l)) = .ok (b0 :: bs) ∧ bs.length = l.length ∧
      ∀ t ∈ tasks, ∀ es, es = edges (t0 + g0) (drives (b0 t.pin)) ((l.map Prod.fst).zip (bs.map fun b => drives (b t.pin))) →
        ((t0 + g0) :: es).IsChain (fun x y => x + t.timeout ≤ y ∧ y ≤ x + t.timeout + 2 * G) ∧
        t0 + g0 + (l.map Prod.fst).sum ≤ es.getLastD (t0 + g0) + t.timeout + 2 * G := by
  obtain ⟨bs, h1, h2, h3⟩ := c99_lamps N tasks hN b hok t0 g0 ext0 l h0 (fun r hr => by have := hl r hr; omega)
  obtain ⟨p, hp⟩ : ∃ p, p ∉ tasks.map Task.pin := by
    have : ∀ l : List Nat, ∃ m, ∀ x ∈ l, x < m := by
      intro l
      induction l with
      | nil => exact ⟨0, by simp⟩
      | cons x l ih =>
        obtain ⟨m, hm⟩ := ih
        refine ⟨max m (x + 1), fun y hy => ?_⟩
        rcases List.mem_cons.1 hy with rfl | hy
        · omega
        · have := hm y hy; omega
    obtain ⟨m, hm⟩ := this (tasks.map Task.pin)
    exact ⟨m, fun h => Nat.lt_irrefl _ (hm m h)⟩
  have hlen := congrArg List.length (h3 p hp)
  simp only [List.length_map, List.length_cons] at hlen
  cases bs with
  | nil => simp at hlen
  | cons b0 bs =>
    refine ⟨b0, bs, h1, by simpa using hlen, ?_⟩
    rintro t ht es rfl
    have h := h2 t ht
    simp only [List.map_cons, List.cons.injEq] at h
    rw [h.1, h.2]
    exact looks_edges t.timeout G (l.map Prod.fst) (by
      intro g hg
      obtain ⟨r, hr, rfl⟩ := List.mem_map.1 hg
      exact hl r hr) (t0 + g0) (t0 + g0) ⟨none, (b t.pin).latch⟩ (by omega) (fun _ => rfl) (by simp)

example := c99_pace 4 [⟨0x100, 13, 1000⟩, ⟨0x102, 12, 200⟩] (by decide) (fun _ => ⟨false, false, none, true⟩) ⟨by simp, by simp [Apart], by decide, fun _ _ => rfl⟩ 4294967000 100 150
  (fun _ _ => true) [(100, fun _ _ => true), (150, fun _ _ => false)] (by decide) (by decide) (by simp)

/-- The lamp when all looks are `g` apart: it changes at every `(max 1 ⌈T/g⌉ + 1)`-th look. -/
theorem looks_even (T g : Nat) (hg : 0 < g) (c : Nat) (hc : c = max 1 ((T + g - 1) / g)) (n now j : Nat) (hj : j ≤ c) (l : Lamp)
    (hs : l.since = if j = 0 then none else some (now - (j - 1) * g)) (hnow : (j - 1) * g ≤ now) :
    (l.looks T now (List.replicate n g)).map (·.on) = (List.range n).map fun k => (l.on ^^ decide ((k + 1 + j) / (c + 1) % 2 = 1)) := by
  induction n generalizing now j l with
  | zero => rfl
  | succ n ih =>
    have hlist : (List.range (n + 1)).map (fun k => (l.on ^^ decide ((k + 1 + j) / (c + 1) % 2 = 1))) =
        (l.on ^^ decide ((1 + j) / (c + 1) % 2 = 1)) :: (List.range n).map fun k => (l.on ^^ decide ((k + 2 + j) / (c + 1) % 2 = 1)) := by
      rw [List.range_succ_eq_map, List.map_cons, List.map_map]
      simp [Function.comp_def]
    rw [hlist, List.replicate_succ]
    simp only [Lamp.looks, List.map_cons]
    have hc1 : 1 ≤ c := by omega
    by_cases h0 : j = 0
    · subst h0
      have hl : l.look T (now + g) = ⟨some (now + g), l.on⟩ := by simp [Lamp.look, hs]
      rw [hl, ih (now + g) 1 (by omega) ⟨some (now + g), l.on⟩ (by simp) (by simp)]
      rw [Nat.div_eq_of_lt (by omega)]
      simp
    · rw [if_neg h0] at hs
      obtain ⟨i, rfl⟩ : ∃ i, j = i + 1 := ⟨j - 1, by omega⟩
      simp only [Nat.add_sub_cancel] at hs hnow
      have hfire : now - i * g + T ≤ now + g ↔ i + 1 = c := by
        have hm : (i + 1) * g = i * g + g := Nat.succ_mul i g
        have h1 : now - i * g + T ≤ now + g ↔ T ≤ (i + 1) * g := by omega
        have h2 : T ≤ (i + 1) * g ↔ (T + g - 1) / g ≤ i + 1 := by
          rw [Nat.div_le_iff_le_mul_add_pred hg, Nat.mul_comm g (i + 1)]
          omega
        rw [h1, h2]
        omega
      by_cases hf : i + 1 = c
      · have hl : l.look T (now + g) = ⟨none, !l.on⟩ := by simp [Lamp.look, hs, hfire.2 hf]
        rw [hl, ih (now + g) 0 (by omega) ⟨none, !l.on⟩ (by simp) (by simp)]
        have e1 : (1 + (i + 1)) / (c + 1) = 1 := by rw [hf, Nat.add_comm 1 c]; exact Nat.div_self (by omega)
        rw [e1]
        congr 1
        · simp
        · apply List.map_congr_left
          intro k _
          have e2 : (k + 2 + (i + 1)) / (c + 1) = (k + 1 + 0) / (c + 1) + 1 := by
            rw [show k + 2 + (i + 1) = (k + 1 + 0) + (c + 1) by omega, Nat.add_div_right _ (by omega)]
          rw [e2]
          rcases Nat.mod_two_eq_zero_or_one ((k + 1 + 0) / (c + 1)) with h | h
          · rw [h, show ((k + 1 + 0) / (c + 1) + 1) % 2 = 1 by omega]; simp
          · rw [h, show ((k + 1 + 0) / (c + 1) + 1) % 2 = 0 by omega]; simp
      · have hl : l.look T (now + g) = l := by simp [Lamp.look, hs, mt hfire.1 hf]
        rw [hl, ih (now + g) (i + 2) (by omega) l (by
          rw [if_neg (by omega), hs]
          have : (i + 2 - 1) * g = i * g + g := Nat.succ_mul i g
          rw [this]; congr 1; omega) (by
          have : (i + 2 - 1) * g = i * g + g := Nat.succ_mul i g
          omega)]
        rw [Nat.div_eq_of_lt (by omega)]
        congr 1
        · simp
        · apply List.map_congr_left
          intro k _
          rw [show k + 1 + (i + 2) = k + 2 + (i + 1) by omega]

/-- **C99, the period.** If all rounds take the same time `g`, the pin of a task changes in every `(c + 1)`-th round, counted from the first, where `c` is the number of
    rounds that fill the timeout (at least 1). -/
theorem c99_period (N : Nat) (tasks : List Task) (hN : tasks.length ≤ N) (b : Board) (hok : TasksOk tasks b) (t0 g n : Nat) (ext : Task → Nat → Bool)
    (hg : 0 < g) (hg' : g < 2 ^ 32) :
    ∃ bs, (TimeoutSketch.State.init tasks (t0 % 2 ^ 32) b).run N tasks (rounds99 t0 (List.replicate (n + 1) (g, ext))) = .ok bs ∧
      ∀ t ∈ tasks, (bs.map fun b => drives (b t.pin)) =
        (List.range (n + 1)).map fun k => lvl ((b t.pin).latch ^^ decide (k / (max 1 ((t.timeout + g - 1) / g) + 1) % 2 = 1)) := by
  obtain ⟨bs, h1, h2, _⟩ := c99_lamps N tasks hN b hok t0 g ext (List.replicate n (g, ext)) hg' (by
    intro r hr; rw [List.eq_of_mem_replicate hr]; exact hg')
  refine ⟨bs, h1, fun t ht => ?_⟩
  rw [h2 t ht, List.map_replicate, List.range_succ_eq_map, List.map_cons, List.map_map]
  congr 1
  · simp
  · have := looks_even t.timeout g hg _ rfl n (t0 + g) 0 (by omega) ⟨none, (b t.pin).latch⟩ rfl (by simp)
    have h := congrArg (List.map lvl) this
    rw [List.map_map, List.map_map] at h
    exact h

example := c99_period 4 [⟨0x100, 13, 1000⟩, ⟨0x102, 12, 200⟩] (by decide) (fun _ => ⟨false, false, none, true⟩) ⟨by simp, by simp [Apart], by decide, fun _ _ => rfl⟩ 4294967000 100 50
  (fun _ _ => true) (by decide) (by decide)

/-- **C99, the drift.** With a round every time unit (the best case) the pin changes every `T + 1` units instead of every `T`, because the
    wait begins again only in the round after; the number of changes falls behind the elapsed timeouts without limit. -/
theorem c99_drift (N : Nat) (tasks : List Task) (hN : tasks.length ≤ N) (b : Board) (hok : TasksOk tasks b) (t0 : Nat) (ext : Task → Nat → Bool)
    (t : Task) (ht : t ∈ tasks) (hT : 0 < t.timeout) :
    (∀ n, ∃ bs, (TimeoutSketch.State.init tasks (t0 % 2 ^ 32) b).run N tasks (rounds99 t0 (List.replicate (n + 1) (1, ext))) = .ok bs ∧
      (bs.map fun b => drives (b t.pin)) = (List.range (n + 1)).map fun k => lvl ((b t.pin).latch ^^ decide (k / (t.timeout + 1) % 2 = 1))) ∧
    ∀ behind, ∃ k, k / (t.timeout + 1) + behind ≤ k / t.timeout := by
  refine ⟨fun n => ?_, fun m => ⟨m * t.timeout * (t.timeout + 1), ?_⟩⟩
  · obtain ⟨bs, h1, h2⟩ := c99_period N tasks hN b hok t0 1 n ext (by decide) (by decide)
    refine ⟨bs, h1, ?_⟩
    rw [h2 t ht]
    have : max 1 ((t.timeout + 1 - 1) / 1) = t.timeout := by simp; omega
    rw [this]
  · rw [Nat.mul_div_cancel _ (by omega), Nat.mul_right_comm, Nat.mul_div_cancel _ hT, Nat.mul_add]
    omega

/-- Non-vacuity of C99: the four tasks of the example on four pins. -/
def fourTasks : List Task := [⟨0x100, 13, 1000⟩, ⟨0x102, 12, 200⟩, ⟨0x104, 11, 500⟩, ⟨0x106, 10, 1500⟩]

example : TasksOk fourTasks (fun _ => ⟨false, false, none, true⟩) := by
  refine ⟨by simp [fourTasks], ?_, by decide, fun _ _ => rfl⟩
  simp [fourTasks, Apart]

/-- The example with rounds of 100 ms, from the 11th round on: pin 12 changes in every third round, pin 11 in every sixth, pin 13 in the 12th. -/
example : (Res.bind ((TimeoutSketch.State.init fourTasks 4294967000 (fun _ => ⟨false, false, none, true⟩)).run 4 fourTasks
      (rounds99 4294967000 (List.replicate 13 (100, fun _ _ => true)))) fun bs => .ok ((bs.drop 10).map fun b => [13, 12, 11, 10, 9].map fun p => drives (b p))) =
    .ok [[some 0, some 255, some 255, some 0, none], [some 255, some 255, some 255, some 0, none], [some 255, some 0, some 0, some 0, none]] := by decide +kernel

/-- A table that is too small for the tasks is outside the theorem: the second round runs into undefined behaviour. -/
theorem c99_too_many : (TimeoutSketch.State.init fourTasks 0 (fun _ => ⟨false, false, none, true⟩)).run 3 fourTasks
    (rounds99 0 (List.replicate 2 (1, fun _ _ => true))) = .ub := by
  have : ∀ r : Res (List Board), (r.bind fun _ => .ok ()) = .ub → r = .ub := by
    intro r h; cases r <;> first | rfl | cases h
  apply this
  decide +kernel

end Atl.Props
