import Verif.Props.UsartWriters
import Verif.Props.MidiInterrupt

/-! C153: main code sends MIDI messages, a handler the MIDI clock, over one USART. -/
namespace Atl.Props
open Atl.Usart Atl.UsartWriters Atl.Midi UsartMany Sections

namespace MidiClock

/-! ### Specification -/

/-- `c` is `a` and `b` put together, each in its own order. -/
inductive Merge {α : Type} : List α → List α → List α → Prop where
  | nil : Merge [] [] []
  | left (x : α) {a b c : List α} : Merge a b c → Merge (x :: a) b (x :: c)
  | right (x : α) {a b c : List α} : Merge a b c → Merge a (x :: b) (x :: c)

/-- Main code's bytes are those a MIDI writer gives for `cs`, handlers write real-time bytes. -/
structure Sends (L : Layout) (cs : List WCall) (es : List UsartWriters.Ev) : Prop where
  calls : ∀ c ∈ cs, CallOk L c
  main : asked true es = (writeAll L 0 cs).2
  clock : ∀ t ∈ asked false es, t ∈ Spec.Midi.realTimes

/-- The buffer had room for every byte. -/
def NoneRefused (l : List (Bool × Nat × Bool)) : Prop := ∀ c ∈ l, c.2.2 = true

instance (l : List (Bool × Nat × Bool)) : Decidable (NoneRefused l) := by unfold NoneRefused; infer_instance

/-- What a MIDI reader at the other end reports for the bytes on the line. -/
def heard (L : Layout) (y : St) : List (Option SMsg) := (Reader.init.events L y.s.hw.line).map (Ev.meaning L)

/-- What it should report: the messages of main code and the real-time messages of handlers, each in their order. -/
def AsSent (L : Layout) (cs : List WCall) (es : List UsartWriters.Ev) (r : List (Option SMsg)) : Prop :=
  Merge (cs.map (callMeaning L)) ((asked false es).map fun t => some (.realTime t)) r

/-! ### Proofs -/

theorem Merge.map {α β : Type} (f : α → β) {a b c : List α} (h : Merge a b c) : Merge (a.map f) (b.map f) (c.map f) := by
  induction h with
  | nil => exact .nil
  | left x _ ih => exact .left _ ih
  | right x _ ih => exact .right _ ih

theorem Merge.pre {α : Type} (l : List α) {a b c : List α} (h : Merge a b c) : Merge (l ++ a) b (l ++ c) := by
  induction l with
  | nil => exact h
  | cons x l ih => exact .left x ih

theorem weave_merge (ms : Marked) : ∀ es : List (List Midi.Ev), es.length = ms.original.length →
    Merge es.flatten ((ms.filter (·.1)).map fun p => Midi.Ev.onRealtime p.2) (weave ms es).flatten := by
  induction ms with
  | nil => intro es h; simp [Marked.original] at h; subst h; exact .nil
  | cons p ms ih =>
    intro es h
    obtain ⟨b, t⟩ := p
    cases b with
    | true =>
      have := ih es (by simpa [Marked.original] using h)
      simp only [weave, List.flatten_cons, List.filter_cons, if_true, List.map_cons]
      exact .right _ this
    | false =>
      cases es with
      | nil => simp [Marked.original] at h
      | cons e es =>
        have := ih es (by simpa [Marked.original] using h)
        simp only [weave, List.flatten_cons, List.filter_cons, Bool.false_eq_true, if_false]
        exact .pre e this

theorem written_fine (L : Layout) (cs : List WCall) : ∀ running, (∀ c ∈ cs, CallOk L c) → ∀ b ∈ (writeAll L running cs).2, b < 256 ∧ b ≠ 0xF0 := by
  induction cs with
  | nil => intro _ _ b hb; cases hb
  | cons c cs ih =>
    intro running hok b hb
    have hw : (writeAll L running (c :: cs)).2 = (writeCall L running c).2 ++ (writeAll L (writeCall L running c).1 cs).2 := rfl
    rw [hw] at hb
    rcases List.mem_append.1 hb with hb | hb
    · obtain ⟨s, hm, hv⟩ := hok c (by simp)
      obtain ⟨f1, f2⟩ := SharedMidi.bytes_fine s hv
      rcases writeCall_spec hm hv running with e | ⟨rfl, _, e⟩
      · rw [e] at hb
        unfold sends at hb
        split at hb
        · split at hb
          · exact f1 b hb
          · exact f2 b hb
        · exact f1 b hb
      · rw [e] at hb; exact f1 b hb
    · exact ih _ (fun c hc => hok c (by simp [hc])) b hb

/-- The bytes on the line with handlers' bytes marked. -/
def marks (l : List (Bool × Nat × Bool)) : Marked := l.map fun c => (!c.1, c.2.1)

theorem marks_wire (l : List (Bool × Nat × Bool)) (h : NoneRefused l) : (marks l).wire = taken l := by
  induction l with
  | nil => rfl
  | cons c l ih =>
    have hc := h c (by simp)
    have := ih fun c hc => h c (by simp [hc])
    simp only [marks, Marked.wire, taken, List.map_cons, List.filterMap_cons, hc, if_true] at *
    rw [this]

theorem marks_original (l : List (Bool × Nat × Bool)) : (marks l).original = doneBy true l := by
  induction l with
  | nil => rfl
  | cons c l ih =>
    obtain ⟨m, v, r⟩ := c
    simp only [marks, Marked.original, doneBy] at *
    cases m <;> simp [ih]

theorem marks_clock (l : List (Bool × Nat × Bool)) : ((marks l).filter (·.1)).map Prod.snd = doneBy false l := by
  induction l with
  | nil => rfl
  | cons c l ih =>
    obtain ⟨m, v, r⟩ := c
    simp only [marks, doneBy] at *
    cases m <;> simp [ih]

theorem heard_of {L : Layout} (hL : L.Ok) {cs : List WCall} {es : List UsartWriters.Ev} (hs : Sends L cs es) {l : List (Bool × Nat × Bool)} (hn : NoneRefused l) (h1 : doneBy false l = asked false es)
    (h2 : doneBy true l = asked true es) : AsSent L cs es ((Reader.init.events L (taken l)).map (Ev.meaning L)) := by
  have hrt : ∀ p ∈ marks l, p.1 = true → p.2 ∈ Spec.Midi.realTimes := by
    intro p hp ht
    refine hs.clock p.2 ?_
    rw [← h1, ← marks_clock]
    exact List.mem_map.2 ⟨p, List.mem_filter.2 ⟨hp, ht⟩, rfl⟩
  have ho : (marks l).original = (writeAll L 0 cs).2 := by rw [marks_original, h2, hs.main]
  have e := c19_realtime_transparent L hL (marks l) (by rw [ho]; exact written_fine L cs 0 hs.calls) hrt
  have m := (weave_merge (marks l) _ (SharedMidi.trace_length L _ Reader.init)).map (Ev.meaning L)
  rw [← e, marks_wire l hn, ho] at m
  unfold AsSent
  have hc := c18_round_trip L hL cs hs.calls
  unfold Reader.events at hc ⊢
  rw [hc] at m
  have hr : ((marks l).filter (·.1)).map (fun p => Midi.Ev.onRealtime p.2) = (asked false es).map Midi.Ev.onRealtime := by
    rw [← h1, ← marks_clock, List.map_map]; rfl
  rw [hr, List.map_map] at m
  have hm : (asked false es).map (Ev.meaning L ∘ Midi.Ev.onRealtime) = (asked false es).map fun t => some (.realTime t) := by
    refine List.map_congr_left fun t ht => ?_
    have hm := hs.clock t ht
    have hne : t ≠ 0xF6 := by intro h6; rw [h6] at hm; revert hm; decide
    simp [Ev.meaning, hm, hne]
  rw [hm] at m
  exact m

end MidiClock

open MidiClock

/-! ### Theorems -/

/-- **C153, partial.** Main code sends messages through a MIDI writer, handlers real-time bytes (a clock, say), at moments harmless to the stream (C152) and with room in its buffer: when all has been
    sent, a reader at the other end reports every message of main code and every real-time message, each exactly once and in order, wherever in a message the real-time bytes came. -/
theorem c153_heard_partial (L : Layout) (hL : L.Ok) (keep : Bool) (g : List Nat) (b : BitVec 8) (hg : 0 < g.length) (hn : g.length < 65536) (cs : List WCall) (es : List UsartWriters.Ev) (hs : Sends L cs es)
    (hc : Calm keep (St.init g b) es) (ho : OneAtATime keep (St.init g b) es) (y : St) (hr : run keep (St.init g b) es = .ok y) (hp : y.pc = .idle) (hl : NoneRefused y.log)
    (n : Nat) (hk : (taken y.log).length + 1 ≤ n) : ∃ y', run keep y (rounds n) = .ok y' ∧ AsSent L cs es (heard L y') := by
  obtain ⟨y', r1, r2, _, _⟩ := c152_drain_partial keep g b hg hn es hc y hr hp n hk
  obtain ⟨a1, a2⟩ := c152_calls keep es _ _ ho hr
  refine ⟨y', r1, ?_⟩
  unfold heard
  rw [r2]
  refine heard_of hL hs hl (by simpa [St.init, doneBy] using a1) ?_
  have e0 : pending y = [] := by unfold pending; rw [hp]
  rw [e0, List.append_nil] at a2
  simpa [St.init, doneBy, pending] using a2

/-- **C153.** Main code that writes each byte with interrupts off: real-time bytes of handlers come whenever they come; room in the buffer is all that is needed. -/
theorem c153_sections (L : Layout) (hL : L.Ok) (keep : Bool) (g : List Nat) (b : BitVec 8) (hg : 0 < g.length) (hn : g.length < 65536) (on : Bool) (es : List (CriticalSection.Ev UsartWriters.Ev))
    (hs : Sectioned (stream keep) (CriticalSection.Board.init _ (St.init g b) on) es) :
    ∃ d, CriticalSection.run (stream keep) (CriticalSection.Board.init _ (St.init g b) on) es = .ok d ∧
      ∀ cs, Sends L cs d.trace → d.obj.pc = .idle → NoneRefused d.obj.log → ∀ n, (taken d.obj.log).length + 1 ≤ n →
        ∃ y', UsartWriters.run keep d.obj (rounds n) = .ok y' ∧ AsSent L cs d.trace (heard L y') := by
  obtain ⟨d, h1, h2, h3, _⟩ := c152_sections keep g b hg hn on es hs
  obtain ⟨h4, _⟩ := c151_apart _ (lawful_stream keep) _ on (fun _ => by rfl) es hs d h1
  have ho : OneAtATime keep (St.init g b) d.trace :=
    clean_imp (M := stream keep) (Q := OneAtATime keep) (fun _ => trivial) (fun y e es _ hk h => ⟨(by
      intro v he
      subst he
      exact hk (by intro h; cases h)), h⟩) d.trace _ h4
  exact ⟨d, h1, fun cs hs hp hl n hk => c153_heard_partial L hL keep g b hg hn cs d.trace hs h3 ho d.obj h2 hp hl n hk⟩

/-- A note on with a handler's clock behind `k` accesses of the write of its second byte. -/
def clockInNote (k : Nat) : List UsartWriters.Ev :=
  alone 0x90#8 ++ [.write 60#8] ++ List.replicate k .main ++ [.handler 0xF8#8] ++ List.replicate (6 - k) .main ++ alone 100#8

theorem clockInNote_sends : ∀ k < 7, asked true (clockInNote k) = (writeAll .avr 0 [noteOn 0 60 100]).2 ∧ asked false (clockInNote k) = [0xF8] := by decide +kernel

/-- **C153 fails**: another note is played. The clock replaces the number of the note, and what was in the buffer is sent as the number. -/
theorem c153_note_fails (x : Fin 128) : ∃ y, run false (St.init [0, 0, x, 0, 0, 0] 0x08#8) (clockInNote 1 ++ rounds 5) = .ok y ∧ y.pc = .idle ∧ NoneRefused y.log ∧
    heard .avr y = [some (.realTime 0xF8), some (.noteOn 0 x 100)] := by
  have h : ∀ x : Fin 128, okB (fun y => decide (y.pc = .idle ∧ NoneRefused y.log ∧ heard .avr y = [some (.realTime 0xF8), some (.noteOn 0 x 100)]))
      (run false (St.init [0, 0, x, 0, 0, 0] 0x08#8) (clockInNote 1 ++ rounds 5)) = true := by
    decide +kernel
  obtain ⟨y, h1, h2⟩ := of_okB (h x)
  exact ⟨y, h1, of_decide_eq_true h2⟩

/-- **C153 fails**: with the write pointer kept, the clock is lost. -/
theorem c153_clock_fails : ∃ y, run true (St.init [0, 0, 0, 0, 0, 0] 0x08#8) (clockInNote 0 ++ rounds 5) = .ok y ∧ y.pc = .idle ∧ NoneRefused y.log ∧ heard .avr y = [some (.noteOn 0 60 100)] := by
  have h : okB (fun y => decide (y.pc = .idle ∧ NoneRefused y.log ∧ heard .avr y = [some (.noteOn 0 60 100)])) (run true (St.init [0, 0, 0, 0, 0, 0] 0x08#8) (clockInNote 0 ++ rounds 5)) = true := by
    decide +kernel
  obtain ⟨y, h1, h2⟩ := of_okB h
  exact ⟨y, h1, of_decide_eq_true h2⟩

/-- **C153 fails**: with interrupts off for the whole message the clock before it takes the place of its last byte; the next note is taken for the end of this one. -/
theorem c153_room_fails : ∃ y, run true (St.init [0, 0, 0, 0] 0x08#8) ([.handler 0xF8#8] ++ alone 0x90#8 ++ alone 60#8 ++ alone 100#8 ++ rounds 5 ++ alone 61#8 ++ alone 90#8 ++ rounds 5) = .ok y ∧
    y.pc = .idle ∧ (writeAll .avr 0 [noteOn 0 60 100, noteOn 0 61 90]).2 = [0x90, 60, 100, 61, 90] ∧ heard .avr y = [some (.realTime 0xF8), some (.noteOn 0 60 61)] := by
  have h : okB (fun y => decide (y.pc = .idle ∧ (writeAll .avr 0 [noteOn 0 60 100, noteOn 0 61 90]).2 = [0x90, 60, 100, 61, 90] ∧ heard .avr y = [some (.realTime 0xF8), some (.noteOn 0 60 61)]))
      (run true (St.init [0, 0, 0, 0] 0x08#8) ([.handler 0xF8#8] ++ alone 0x90#8 ++ alone 60#8 ++ alone 100#8 ++ rounds 5 ++ alone 61#8 ++ alone 90#8 ++ rounds 5)) = true := by decide +kernel
  obtain ⟨y, h1, h2⟩ := of_okB h
  exact ⟨y, h1, of_decide_eq_true h2⟩

theorem MidiClock.merge_length {α : Type} {a b c : List α} (h : Merge a b c) : c.length = a.length + b.length := by
  induction h with
  | nil => rfl
  | left x _ ih => simp [ih]; omega
  | right x _ ih => simp [ih]; omega

theorem MidiClock.merge_mem {α : Type} {a b c : List α} (h : Merge a b c) : ∀ x ∈ a, x ∈ c := by
  induction h with
  | nil => intro x hx; cases hx
  | left y _ ih =>
    intro x hx
    rcases List.mem_cons.1 hx with rfl | hx
    · simp
    · exact List.mem_cons_of_mem _ (ih x hx)
  | right y _ ih => intro x hx; exact List.mem_cons_of_mem _ (ih x hx)

/-- **C153**: without the condition on the moments it is false, whichever way the code is compiled. -/
theorem c153_full_claim_is_false (keep : Bool) : ¬ ∀ (g : List Nat) (b : BitVec 8) (cs : List WCall) (es : List UsartWriters.Ev) (n : Nat) (y : St), Sends .avr cs es →
    run keep (St.init g b) (es ++ rounds n) = .ok y → y.pc = .idle → NoneRefused y.log → AsSent .avr cs es (heard .avr y) := by
  intro h
  have hok : ∀ c ∈ [noteOn 0 60 100], CallOk .avr c := by
    intro c hc
    rw [List.mem_singleton.1 hc]
    exact ⟨.noteOn 0 60 100, by decide +kernel, by decide +kernel⟩
  have hsend : ∀ k < 7, Sends .avr [noteOn 0 60 100] (clockInNote k) := fun k hk =>
    ⟨hok, (clockInNote_sends k hk).1, by rw [(clockInNote_sends k hk).2]; decide⟩
  cases keep with
  | true =>
    obtain ⟨y, h1, h2, h3, h4⟩ := c153_clock_fails
    have := merge_length (h _ _ _ _ _ y (hsend 0 (by decide)) h1 h2 h3)
    rw [h4, (clockInNote_sends 0 (by decide)).2] at this
    simp at this
  | false =>
    obtain ⟨y, h1, h2, h3, h4⟩ := c153_note_fails 7
    have := merge_mem (h _ _ _ _ _ y (hsend 1 (by decide)) h1 h2 h3) (some (.noteOn 0 60 100)) (by decide +kernel)
    rw [h4] at this
    revert this
    decide +kernel

/-! ### Examples -/

instance MidiClock.decOne (keep : Bool) : (es : List UsartWriters.Ev) → (y : St) → Decidable (OneAtATime keep y es)
  | [], _ => .isTrue trivial
  | e :: es, y =>
    have d1 : Decidable (∀ v, e = .write v → y.pc = .idle) :=
      match e with
      | .write v => decidable_of_iff (y.pc = .idle) ⟨fun h _ _ => h, fun h => h v rfl⟩
      | .handler _ => .isTrue fun _ h => by cases h
      | .main => .isTrue fun _ h => by cases h
      | .isr => .isTrue fun _ h => by cases h
      | .frame => .isTrue fun _ h => by cases h
      | .load => .isTrue fun _ h => by cases h
    have d2 : Decidable (∀ y', step keep y e = .ok y' → OneAtATime keep y' es) :=
      match h : step keep y e with
      | .ub => .isTrue fun _ h' => by cases h'
      | .ok y1 =>
        have := MidiClock.decOne keep es y1
        decidable_of_iff (OneAtATime keep y1 es) ⟨fun h1 _ h2 => by injection h2 with h2; exact h2 ▸ h1, fun h1 => h1 y1 rfl⟩
    instDecidableAnd

/-- A clock in the middle of a note, between the accesses of a change of the control register. -/
example : okB (fun y => decide (heard .avr y = [some (.realTime 0xF8), some (.noteOn 0 60 100)])) (run true (St.init [0, 0, 0, 0, 0, 0] 0x08#8) (clockInNote 3 ++ rounds 5)) = true := by decide +kernel

example := c153_heard_partial .avr Layout.avr_ok true [0, 0, 0, 0, 0, 0] 0x08#8 (by decide) (by decide) [noteOn 0 60 100] (clockInNote 3)
  ⟨by intro c hc; rw [List.mem_singleton.1 hc]; exact ⟨.noteOn 0 60 100, by decide +kernel, by decide +kernel⟩, by decide +kernel, by decide +kernel⟩
  (by decide +kernel) (by decide +kernel) _ rfl rfl (by decide +kernel) 5 (by decide +kernel)

/-- A note in sections with a clock between its first and second byte. -/
def noteSections : List (CriticalSection.Ev UsartWriters.Ev) :=
  [.off] ++ (alone 0x90#8).map .main ++ [.request 0, .on, .other, .serve 0 [.handler 0xF8#8], .other, .off] ++ (alone 60#8 ++ alone 100#8).map .main ++ [.on]

example := c153_sections .avr Layout.avr_ok true [0, 0, 0, 0, 0, 0] 0x08#8 (by decide) (by decide) true noteSections (by decide +kernel)
example : okB (fun d => decide (asked true d.trace = (writeAll .avr 0 [noteOn 0 60 100]).2 ∧ asked false d.trace = [0xF8] ∧ d.obj.pc = .idle ∧ taken d.obj.log = [0x90, 0xF8, 60, 100]))
    (CriticalSection.run (stream true) (CriticalSection.Board.init _ (St.init [0, 0, 0, 0, 0, 0] 0x08#8) true) noteSections) = true := by decide +kernel

end Atl.Props
