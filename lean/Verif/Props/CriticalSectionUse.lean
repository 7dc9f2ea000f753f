import Verif.Props.CriticalSection
import Verif.Props.CollectionInterrupt
import Verif.Props.BitArrayInterrupt
import Verif.Props.MidiInterrupt
import Verif.Props.RingBufferShared
import Verif.Props.TimeInterrupt
import Verif.Props.DelaysInterrupt
import Verif.Props.LcdInterrupt
import Verif.Props.SharedInterrupt

/-!
  C151: the shared objects of C141 to C150, used by main code between `EnableAll(false)` and `EnableAll()`.
-/
namespace Atl.Props
open Atl.CriticalSection

namespace Sections

/-! ### The objects -/

/-- A collection (Collection.h 83-148). -/
abbrev collection (α : Type) [DecidableEq α] (once early : Bool) (d : α) : Machine where
  St := CollectionInterrupt.St α
  Ev := CollectionInterrupt.Ev α
  step := CollectionInterrupt.step once early d
  kind := fun | .call _ | .find _ => .enter | .main => .within | .handler _ => .handler
  idle := fun s => s.pc = .idle
  proper := fun _ => True

/-- A bit array (BitArray.h 52-230). -/
abbrev bitArray (W : Nat) {n : Nat} (C : BitArrayInterrupt.Code n) : Machine where
  St := BitArrayInterrupt.St n
  Ev := BitArrayInterrupt.Ev n
  step := BitArrayInterrupt.step W C
  kind := fun | .call _ | .look _ => .enter | .main => .within | .handler _ => .handler
  idle := fun s => s.todo = []
  proper := fun | .call c | .handler c => SharedBits.Proper W c | _ => True

/-- A MIDI writer (MidiWriter.h 48-96). -/
abbrev midiWriter (L : Midi.Layout) : Machine where
  St := MidiInterrupt.St
  Ev := MidiInterrupt.Ev
  step := fun s e => .ok (MidiInterrupt.step L s e)
  kind := fun | .call _ => .enter | .main => .within | .handler _ => .handler
  idle := fun s => s.pc = .idle
  proper := fun | .call c | .handler c => CallOk L c | .main => True

/-- A ring buffer (RingBuffer.h 61-109). -/
abbrev ringBuffer (α : Type) (keep : Bool) : Machine where
  St := RingBufferShared.St α
  Ev := RingBufferShared.Ev α
  step := RingBufferShared.step keep
  kind := fun | .start _ => .enter | .main => .within | .handler _ => .handler
  idle := fun s => s.pc = .idle
  proper := fun _ => True

/-- A clock (Time_Arduino.h 33-40). -/
abbrev clock (keep : Bool) : Machine where
  St := TimeInterrupt.St
  Ev := TimeInterrupt.Ev
  step := fun s e => .ok (TimeInterrupt.step keep s e)
  kind := fun | .start => .enter | .main _ => .within | .handler _ => .handler
  idle := fun s => s.pc = .idle
  proper := fun _ => True

/-- A table of delays (Delays.h 47-166). -/
abbrev delays (N : Nat) (reload : Bool) (S : List Nat) : Machine where
  St := DelaysInterrupt.St
  Ev := DelaysInterrupt.Ev
  step := DelaysInterrupt.step N reload
  kind := fun | .begin _ _ | .call _ => .enter | .main => .within | .handler _ => .handler
  idle := fun s => s.pc = .idle
  proper := fun | .begin id time => Proper S (.wait id time) | .call o | .handler o => Proper S o | .main => True

/-- A display (HD44780_Driver.h 65-131). -/
abbrev display : Machine where
  St := LcdInterrupt.St
  Ev := Writing
  step := fun s e => .ok (LcdInterrupt.step s e.ev)
  kind := fun | .start _ => .enter | .main => .within | .handler _ => .handler
  idle := fun s => s.rest = []
  proper := fun _ => True

/-- The motors `ms` on one chain (TB6612FNG_DriverSerial3Wire.h 81-103). -/
abbrev motors (W : Nat) {n : Nat} (x : Nat → Nat × Nat) (ms : List Nat) : Machine where
  St := SharedInterrupt.St n
  Ev := Happening
  step := fun s e => SharedInterrupt.step W x s e.ev
  kind := fun | .start _ _ => .enter | .main => .within | .handler _ _ => .handler
  idle := fun s => s.pc = .idle
  proper := fun | .start m _ | .handler m _ => m ∈ ms | .main => True

/-! ### Proofs -/

theorem lawful_collection (α : Type) [DecidableEq α] (once early : Bool) (d : α) : Lawful (collection α once early d) := by
  intro (s : CollectionInterrupt.St α) (e : CollectionInterrupt.Ev α) (s' : CollectionInterrupt.St α) (hi : s.pc = .idle) hk (h : CollectionInterrupt.step once early d s e = .ok s')
  change s'.pc = .idle
  cases e with
  | call | find => exact absurd rfl hk
  | main =>
    simp only [CollectionInterrupt.step] at h
    rw [CollectionInterrupt.mainStep, hi] at h
    simp only [Res.ok.injEq] at h; exact h ▸ hi
  | handler o =>
    simp only [CollectionInterrupt.step] at h
    cases h1 : CollectionInterrupt.whole s.coll o with
    | ub => rw [h1] at h; cases h
    | ok c => rw [h1] at h; simp only [Res.bind_ok, Res.ok.injEq] at h; subst h; exact hi

theorem lawful_bits (W : Nat) {n : Nat} (C : BitArrayInterrupt.Code n) : Lawful (bitArray W C) := by
  intro (s : BitArrayInterrupt.St n) (e : BitArrayInterrupt.Ev n) (s' : BitArrayInterrupt.St n) (hi : s.todo = []) hk (h : BitArrayInterrupt.step W C s e = .ok s')
  change s'.todo = []
  cases e with
  | call | look => exact absurd rfl hk
  | main =>
    simp only [BitArrayInterrupt.step] at h
    rw [BitArrayInterrupt.mainStep, hi] at h
    simp only [Res.ok.injEq] at h; exact h ▸ hi
  | handler c =>
    simp only [BitArrayInterrupt.step] at h
    cases h1 : BitArrayInterrupt.whole W s.mem c with
    | ub => rw [h1] at h; cases h
    | ok b => rw [h1] at h; simp only [Res.bind_ok, Res.ok.injEq] at h; subst h; exact hi

theorem lawful_midi (L : Midi.Layout) : Lawful (midiWriter L) := by
  intro (s : MidiInterrupt.St) (e : MidiInterrupt.Ev) (s' : MidiInterrupt.St) (hi : s.pc = .idle) hk (h : Res.ok (MidiInterrupt.step L s e) = .ok s')
  change s'.pc = .idle
  cases e with
  | call => exact absurd rfl hk
  | main =>
    simp only [MidiInterrupt.step, Res.ok.injEq] at h
    subst h
    rw [MidiInterrupt.mainStep, hi]; exact hi
  | handler c =>
    simp only [MidiInterrupt.step, Res.ok.injEq] at h
    subst h
    exact hi

theorem lawful_ring (α : Type) (keep : Bool) : Lawful (ringBuffer α keep) := by
  intro (s : RingBufferShared.St α) (e : RingBufferShared.Ev α) (s' : RingBufferShared.St α) (hi : s.pc = .idle) hk (h : RingBufferShared.step keep s e = .ok s')
  change s'.pc = .idle
  cases e with
  | start => exact absurd rfl hk
  | main =>
    simp only [RingBufferShared.step] at h
    rw [RingBufferShared.mainStep, hi] at h
    simp only [Res.ok.injEq] at h; exact h ▸ hi
  | handler c =>
    simp only [RingBufferShared.step] at h
    cases c with
    | put v =>
      simp only [RingBufferShared.St.whole] at h
      cases h1 : RingBuffer.write s.rb v with
      | ub => rw [h1] at h; cases h
      | ok c => rw [h1] at h; simp only [Res.bind_ok, Res.ok.injEq] at h; subst h; exact hi
    | take =>
      simp only [RingBufferShared.St.whole] at h
      split at h
      · simp only [Res.ok.injEq] at h; subst h; exact hi
      · cases h1 : RingBuffer.read s.rb with
        | ub => rw [h1] at h; cases h
        | ok c => rw [h1] at h; simp only [Res.bind_ok, Res.ok.injEq] at h; subst h; exact hi

theorem lawful_clock (keep : Bool) : Lawful (clock keep) := by
  intro (s : TimeInterrupt.St) (e : TimeInterrupt.Ev) (s' : TimeInterrupt.St) (hi : s.pc = .idle) hk (h : Res.ok (TimeInterrupt.step keep s e) = .ok s')
  change s'.pc = .idle
  cases e with
  | start => exact absurd rfl hk
  | main t =>
    simp only [TimeInterrupt.step, Res.ok.injEq] at h
    subst h
    rw [TimeInterrupt.mainStep, hi]; exact hi
  | handler c =>
    simp only [TimeInterrupt.step, Res.ok.injEq] at h
    subst h
    exact hi

theorem lawful_delays (N : Nat) (reload : Bool) (S : List Nat) : Lawful (delays N reload S) := by
  intro (s : DelaysInterrupt.St) (e : DelaysInterrupt.Ev) (s' : DelaysInterrupt.St) (hi : s.pc = .idle) hk (h : DelaysInterrupt.step N reload s e = .ok s')
  change s'.pc = .idle
  cases e with
  | begin | call => exact absurd rfl hk
  | main =>
    simp only [DelaysInterrupt.step] at h
    rw [DelaysInterrupt.mainStep, hi] at h
    simp only [Res.ok.injEq] at h; exact h ▸ hi
  | handler o =>
    simp only [DelaysInterrupt.step, DelaysInterrupt.St.whole] at h
    cases h1 : s.tab.step N o with
    | ub => rw [h1] at h; cases h
    | ok b => rw [h1] at h; simp only [Res.bind_ok, Res.ok.injEq] at h; subst h; exact hi

theorem lawful_display : Lawful display := by
  intro (s : LcdInterrupt.St) (e : Writing) (s' : LcdInterrupt.St) (hi : s.rest = []) hk (h : Res.ok (LcdInterrupt.step s e.ev) = .ok s')
  change s'.rest = []
  cases e with
  | start => exact absurd rfl hk
  | main =>
    simp only [Writing.ev, LcdInterrupt.step, Res.ok.injEq] at h
    subst h
    rw [LcdInterrupt.next, hi]; exact hi
  | handler c =>
    simp only [Writing.ev, LcdInterrupt.step, Res.ok.injEq] at h
    subst h
    exact hi

theorem lawful_motors (W : Nat) {n : Nat} (x : Nat → Nat × Nat) (ms : List Nat) : Lawful (motors W (n := n) x ms) := by
  intro (s : SharedInterrupt.St n) (e : Happening) (s' : SharedInterrupt.St n) (hi : s.pc = .idle) hk (h : SharedInterrupt.step W x s e.ev = .ok s')
  change s'.pc = .idle
  cases e with
  | start => exact absurd rfl hk
  | main =>
    simp only [Happening.ev, SharedInterrupt.step] at h
    rw [SharedInterrupt.mainStep, hi] at h
    simp only [Res.ok.injEq] at h; exact h ▸ hi
  | handler m r =>
    simp only [Happening.ev, SharedInterrupt.step, SharedInterrupt.handler] at h
    cases h1 : Motor.sendSerial W (x m).1 (x m).2 (some s.reg) (Motor.args (motorCmd r)).1 (Motor.args (motorCmd r)).2.1 (Motor.args (motorCmd r)).2.2 with
    | ub => rw [h1] at h; cases h
    | ok b =>
      rw [h1] at h; simp only [Res.bind_ok] at h
      cases h2 : Serial3Wire.writeReverse W b.1 with
      | ub => rw [h2] at h; cases h
      | ok t => rw [h2] at h; simp only [Res.bind_ok, Res.ok.injEq] at h; subst h; exact hi

/-- A condition at each event, from `Clean`. -/
theorem clean_imp {M : Machine} {Q : M.St → List M.Ev → Prop} (h0 : ∀ s, Q s []) (h1 : ∀ s e es, M.proper e → (M.kind e ≠ .within → M.idle s) → (∀ s', M.step s e = .ok s' → Q s' es) → Q s (e :: es))
    (es : List M.Ev) : ∀ s, Clean M s es → Q s es := by
  induction es with
  | nil => exact fun s _ => h0 s
  | cons e es ih => exact fun s h => h1 s e es h.1.1 h.1.2 fun s' hs => ih s' (h.2 s' hs)

/-- The bytes asked for, in order. -/
def writtenIn (es : List Writing) : List (Bool × Nat) := es.filterMap fun | .start x | .handler x => some x | .main => none

theorem clean_display (es : List Writing) : ∀ (s : LcdInterrupt.St) (w : Option (Bool × Nat)) (l : List (Bool × Nat)), Clean display s es → (s.rest = [] → w = none) →
    QuietWrites s w es ∧ (es.foldl serveOrder (l, w)).1 ++ (es.foldl serveOrder (l, w)).2.toList = l ++ w.toList ++ writtenIn es := by
  induction es with
  | nil => intro s w l _ _; exact ⟨trivial, by simp [writtenIn]⟩
  | cons e es ih =>
    intro s w l hc hw
    have hn := hc.2 _ rfl
    cases e with
    | start x =>
      have hi : s.rest = [] := hc.1.2 (by intro h; cases h)
      have h := ih _ (some x) l hn (fun h => by
        obtain ⟨a, b⟩ := x
        cases a <;> simp [Writing.ev, LcdInterrupt.step, LcdInterrupt.next, toCall, Lcd.Parallel.call, Lcd.Parallel.writeData, Lcd.Parallel.writeCommand, Lcd.Parallel.write8, Lcd.Parallel.write4] at h)
      refine ⟨⟨hi, h.1⟩, ?_⟩
      rw [hw hi]
      simpa [serveOrder, writtenIn, hw hi] using h.2
    | main =>
      have h := ih _ none (l ++ w.toList) hn (fun _ => rfl)
      exact ⟨h.1, by simpa [serveOrder, writtenIn] using h.2⟩
    | handler y =>
      have hi : s.rest = [] := hc.1.2 (by intro h; cases h)
      have hn0 := hw hi
      subst hn0
      have h := ih _ none (l ++ [y]) hn (fun _ => rfl)
      exact ⟨⟨.inl hi, h.1⟩, by simpa [serveOrder, writtenIn] using h.2⟩

/-- The history of the object is that of its model. -/
theorem run_is {M : Machine} {R : M.St → List M.Ev → Res M.St} (h0 : ∀ s, R s [] = .ok s) (h1 : ∀ s e es, R s (e :: es) = (M.step s e >>= fun s => R s es)) (es : List M.Ev) :
    ∀ s, M.run s es = R s es := by
  induction es with
  | nil => exact fun s => (h0 s).symm
  | cons e es ih =>
    intro s
    rw [h1, Machine.run]
    cases M.step s e with
    | ub => rfl
    | ok s' => exact ih s'

theorem run_collection {α : Type} [DecidableEq α] (once early : Bool) (d : α) (es : List (CollectionInterrupt.Ev α)) (s : CollectionInterrupt.St α) :
    (collection α once early d).run s es = CollectionInterrupt.run once early d s es := run_is (M := collection α once early d) (fun _ => rfl) (fun _ _ _ => rfl) es s

theorem run_bits (W : Nat) {n : Nat} (C : BitArrayInterrupt.Code n) (es : List (BitArrayInterrupt.Ev n)) (s : BitArrayInterrupt.St n) :
    (bitArray W C).run s es = BitArrayInterrupt.run W C s es := run_is (M := bitArray W C) (fun _ => rfl) (fun _ _ _ => rfl) es s

theorem run_midi (L : Midi.Layout) (es : List MidiInterrupt.Ev) (s : MidiInterrupt.St) : (midiWriter L).run s es = .ok (MidiInterrupt.run L s es) :=
  run_is (M := midiWriter L) (R := fun s es => .ok (MidiInterrupt.run L s es)) (fun _ => rfl) (fun _ _ _ => rfl) es s

theorem run_ring {α : Type} (keep : Bool) (es : List (RingBufferShared.Ev α)) (s : RingBufferShared.St α) : (ringBuffer α keep).run s es = RingBufferShared.run keep s es :=
  run_is (M := ringBuffer α keep) (fun _ => rfl) (fun _ _ _ => rfl) es s

theorem run_clock (keep : Bool) (es : List TimeInterrupt.Ev) (s : TimeInterrupt.St) : (clock keep).run s es = .ok (TimeInterrupt.run keep s es) :=
  run_is (M := clock keep) (R := fun s es => .ok (TimeInterrupt.run keep s es)) (fun _ => rfl) (fun _ _ _ => rfl) es s

theorem run_delays (N : Nat) (reload : Bool) (S : List Nat) (es : List DelaysInterrupt.Ev) (s : DelaysInterrupt.St) : (delays N reload S).run s es = DelaysInterrupt.run N reload s es :=
  run_is (M := delays N reload S) (fun _ => rfl) (fun _ _ _ => rfl) es s

theorem run_display (es : List Writing) (s : LcdInterrupt.St) : display.run s es = .ok (LcdInterrupt.run s (es.map Writing.ev)) :=
  run_is (M := display) (R := fun s es => .ok (LcdInterrupt.run s (es.map Writing.ev))) (fun _ => rfl) (fun _ _ _ => rfl) es s

theorem run_motors (W : Nat) {n : Nat} (x : Nat → Nat × Nat) (ms : List Nat) (es : List Happening) (s : SharedInterrupt.St n) :
    (motors W x ms).run s es = SharedInterrupt.run W x s (es.map Happening.ev) :=
  run_is (M := motors W x ms) (R := fun s es => SharedInterrupt.run W x s (es.map Happening.ev)) (fun _ => rfl) (fun _ _ _ => rfl) es s

end Sections
open Sections

/-- **C151.** A collection used by main code in sections only: nothing is undefined, and whenever main code is not in a call, the collection holds the list that all calls, each as a whole, make. -/
theorem c151_collection {α : Type} [DecidableEq α] (once early : Bool) (d : α) (arr : FixedArray.FA α) (hn : arr.items.length ≤ 32767) (on : Bool) (es : List (Ev (CollectionInterrupt.Ev α)))
    (hs : Sectioned (collection α once early d) (Board.init _ (CollectionInterrupt.St.init arr) on) es) : ∃ b, run (collection α once early d) (Board.init _ (CollectionInterrupt.St.init arr) on) es = .ok b ∧
      (b.obj.pc = .idle → SharedColl.Holds d b.obj.coll (SharedColl.listOf arr.items.length b.obj.done) ∧ (b.obj.done.filter fun p => p.1).map Prod.snd = SharedColl.handlerOps b.trace ∧
        (b.obj.done.filter fun p => !p.1).map Prod.snd = SharedColl.mainOps b.trace) := by
  have hc : ∀ tr, Clean (collection α once early d) (CollectionInterrupt.St.init arr) tr → SharedColl.Fair once early d (CollectionInterrupt.St.init arr) tr := fun tr h =>
    clean_imp (M := collection α once early d) (Q := SharedColl.Fair once early d) (fun _ => trivial) (fun s e es _ hk h => ⟨(by
      cases e with
      | call | find => exact hk (by intro h; cases h)
      | main => trivial
      | handler o => intro ha; rw [show s.pc = .idle from hk (by intro h; cases h)] at ha; cases ha ), h⟩) tr _ h
  obtain ⟨b, hb⟩ := c151_defined _ (lawful_collection α once early d) _ on (fun _ => by rfl) es hs fun tr ht => by
    obtain ⟨s, h1, _⟩ := c150_list_partial once early d arr hn tr (hc tr ht)
    exact ⟨s, (run_collection once early d tr _).trans h1⟩
  refine ⟨b, hb, fun hi => ?_⟩
  obtain ⟨h1, h2⟩ := c151_apart _ (lawful_collection α once early d) _ on (fun _ => by rfl) es hs b hb
  replace h2 := (run_collection ..).symm.trans h2
  obtain ⟨s, h3, _, h4⟩ := c150_list_partial once early d arr hn _ (hc _ h1)
  obtain ⟨h5, h6⟩ := c150_calls once early d arr _ _ (hc _ h1) h2
  rw [h2, Res.ok.injEq] at h3
  subst h3
  exact ⟨h4 (by rw [hi]; rfl), h5, h6 (by rw [hi]; rfl)⟩

/-- **C151.** A bit array used by main code in sections only: whenever main code is not in a call, each bit is what was last asked of it, by main code or by a handler. -/
theorem c151_bits {W n : Nat} {C : BitArrayInterrupt.Code n} (hC : SharedBits.Compiles C) (v : BitVec n) (on : Bool) (es : List (Ev (BitArrayInterrupt.Ev n)))
    (hs : Sectioned (bitArray W C) (Board.init _ (BitArrayInterrupt.St.init v) on) es) (b : Board (bitArray W C)) (hb : run (bitArray W C) (Board.init _ (BitArrayInterrupt.St.init v) on) es = .ok b)
    (hi : b.obj.todo = []) {i : Nat} (hin : i < n) : b.obj.mem.getLsbD i = ((b.trace.filterMap (SharedBits.evAsks i)).getLast?).getD (v.getLsbD i) := by
  obtain ⟨h1, h2⟩ := c151_apart _ (lawful_bits W C) _ on (fun _ => by rfl) es hs b hb
  replace h2 := (run_bits ..).symm.trans h2
  refine c149_last_partial hC v b.trace b.obj hin ?_ h2 (by rw [hi]; rintro ⟨a, ha⟩; cases ha)
  refine clean_imp (M := bitArray W C) (Q := SharedBits.Careful W C i) (fun _ => trivial) (fun s e es hp hk h => ⟨?_, h⟩) _ _ h1
  cases e with
  | call => exact ⟨hk (by intro h; cases h), hp⟩
  | look => exact hk (by intro h; cases h)
  | main => trivial
  | handler o => exact ⟨hp, .inr (by rw [show s.todo = [] from hk (by intro h; cases h)]; rintro ⟨a, ha⟩; cases ha)⟩

/-- **C151.** A MIDI writer used by main code in sections only: whenever main code is not in a call, a reader of all bytes has reported the messages of all calls, each once, and nothing else. -/
theorem c151_midi (L : Midi.Layout) (hL : L.Ok) (on : Bool) (es : List (Ev MidiInterrupt.Ev)) (hs : Sectioned (midiWriter L) (Board.init _ MidiInterrupt.St.init on) es) :
    ∃ b, run (midiWriter L) (Board.init _ MidiInterrupt.St.init on) es = .ok b ∧ (b.obj.pc = .idle →
      ((Midi.Reader.init.events L (Marked.wire b.obj.wire)).map (Midi.Ev.meaning L)).Perm (b.obj.sent.map fun p => callMeaning L p.2) ∧
      (SharedMidi.mainCalls b.trace).Sublist (b.obj.sent.map Prod.snd) ∧ (SharedMidi.handlerCalls b.trace).Sublist (b.obj.sent.map Prod.snd) ∧
      b.obj.sent.length = (SharedMidi.mainCalls b.trace).length + (SharedMidi.handlerCalls b.trace).length) := by
  obtain ⟨b, hb⟩ := c151_defined _ (lawful_midi L) _ on (fun _ => by rfl) es hs fun tr _ => ⟨_, run_midi L tr _⟩
  refine ⟨b, hb, fun hi => ?_⟩
  obtain ⟨h1, h2⟩ := c151_apart _ (lawful_midi L) _ on (fun _ => by rfl) es hs b hb
  replace h2 := Res.ok.inj ((run_midi ..).symm.trans h2)
  have hf : SharedMidi.Fair L MidiInterrupt.St.init b.trace := clean_imp (M := midiWriter L) (Q := SharedMidi.Fair L) (fun _ => trivial) (fun s e es hp hk h => ⟨(by
    cases e with
    | call => exact ⟨hk (by intro h; cases h), hp⟩
    | main => trivial
    | handler o => exact ⟨hp, fun ha => by rw [show s.pc = .idle from hk (by intro h; cases h)] at ha; cases ha⟩ ), h _ rfl⟩) _ _ h1
  have := c148_received_partial L hL b.trace hf (by rw [h2, hi]; rfl)
  have h3 := c148_sent L b.trace hf (by rw [h2, hi])
  rw [h2] at this h3
  exact ⟨this, h3⟩

/-- **C151.** A ring buffer used by main code in sections only: main code and handlers may both write and both read, and it is a queue. -/
theorem c151_ring {α : Type} (keep : Bool) (g : List α) (hg : 0 < g.length) (hn : g.length < 65536) (on : Bool) (es : List (Ev (RingBufferShared.Ev α)))
    (hs : Sectioned (ringBuffer α keep) (Board.init _ (RingBufferShared.St.init g) on) es) :
    ∃ b, run (ringBuffer α keep) (Board.init _ (RingBufferShared.St.init g) on) es = .ok b ∧ RingBufferShared.run keep (RingBufferShared.St.init g) b.trace = .ok b.obj ∧ SharedRing.AsQueue keep g b.trace := by
  have hc : ∀ tr, Clean (ringBuffer α keep) (RingBufferShared.St.init g) tr → SharedRing.AtEach keep (SharedRing.Apart keep) (RingBufferShared.St.init g) tr := fun tr h =>
    clean_imp (M := ringBuffer α keep) (Q := SharedRing.AtEach keep (SharedRing.Apart keep)) (fun _ => trivial) (fun s e es _ hk h => ⟨(by
      cases e with
      | start => exact hk (by intro h; cases h)
      | main => trivial
      | handler o => cases o <;> simp [SharedRing.Apart, show s.pc = .idle from hk (by intro h; cases h)] ), h⟩) tr _ h
  obtain ⟨b, hb⟩ := c151_defined _ (lawful_ring α keep) _ on (fun _ => by rfl) es hs fun tr ht => by
    obtain ⟨s, h1, _⟩ := c144_apart_partial keep g hg hn tr (hc tr ht)
    exact ⟨s, (run_ring keep tr _).trans h1⟩
  obtain ⟨h1, h2⟩ := c151_apart _ (lawful_ring α keep) _ on (fun _ => by rfl) es hs b hb
  replace h2 := (run_ring ..).symm.trans h2
  exact ⟨b, hb, h2, c144_apart_partial keep g hg hn _ (hc _ h1)⟩

/-- **C151.** A clock used by main code in sections only: whenever main code is not in a call, the deltas of all add up to the time between construction and the last capture. -/
theorem c151_clock (keep : Bool) (t0 : Nat) (on : Bool) (es : List (Ev TimeInterrupt.Ev)) (hs : Sectioned (clock keep) (Board.init _ (TimeInterrupt.St.init t0) on) es) :
    ∃ b, run (clock keep) (Board.init _ (TimeInterrupt.St.init t0) on) es = .ok b ∧ (SharedClock.Onwards t0 t0 b.trace → b.obj.pc = .idle →
      ∃ T, t0 ≤ T ∧ T < t0 + 2 ^ 32 ∧ b.obj.ticks = TimeInterrupt.clock T ∧ SharedClock.reported b.obj = T - t0) := by
  obtain ⟨b, hb⟩ := c151_defined _ (lawful_clock keep) _ on (fun _ => by rfl) es hs fun tr _ => ⟨_, run_clock keep tr _⟩
  refine ⟨b, hb, fun ho hi => ?_⟩
  obtain ⟨h1, h2⟩ := c151_apart _ (lawful_clock keep) _ on (fun _ => by rfl) es hs b hb
  replace h2 := Res.ok.inj ((run_clock ..).symm.trans h2)
  have := c145_outside_partial keep t0 b.trace
    (clean_imp (M := clock keep) (Q := SharedClock.Sensible keep) (fun _ => trivial) (fun s e es _ hk h => ⟨fun he => by subst he; exact hk (by intro h; cases h), h _ rfl⟩) _ _ h1) ho
    (clean_imp (M := clock keep) (Q := SharedClock.Outside keep) (fun _ => trivial) (fun s e es _ hk h => ⟨fun t he => by subst he; exact hk (by intro h; cases h), h _ rfl⟩) _ _ h1)
    (by rw [h2, hi])
  rw [h2] at this
  exact this

/-- **C151.** A table of delays used by main code in sections only: it is a table of remaining times in which each call is one step. -/
theorem c151_delays (N : Nat) (reload : Bool) (S : List Nat) (hS : Delays.Room N S) (on : Bool) (es : List (Ev DelaysInterrupt.Ev)) (hs : Sectioned (delays N reload S) (Board.init _ DelaysInterrupt.St.init on) es) :
    ∃ b, run (delays N reload S) (Board.init _ DelaysInterrupt.St.init on) es = .ok b ∧ DelaysInterrupt.run N reload DelaysInterrupt.St.init b.trace = .ok b.obj ∧ Served N reload S b.trace := by
  have hc : ∀ tr, Clean (delays N reload S) DelaysInterrupt.St.init tr → AtEach N reload (QuietDelayCall N S) DelaysInterrupt.St.init tr := fun tr h =>
    clean_imp (M := delays N reload S) (Q := AtEach N reload (QuietDelayCall N S)) (fun _ => trivial) (fun s e es hp hk h => ⟨(by
      cases e with
      | begin | call => exact ⟨hk (by intro h; cases h), hp⟩
      | main => trivial
      | handler o =>
        have hi : s.pc = .idle := hk (by intro h; cases h)
        exact ⟨hp, fun hn => absurd hi hn, fun hh => by rw [hi] at hh; cases hh⟩ ), h⟩) tr _ h
  obtain ⟨b, hb⟩ := c151_defined _ (lawful_delays N reload S) _ on (fun _ => by rfl) es hs fun tr ht => by
    obtain ⟨s, h1, _⟩ := c143_quiet_partial N reload S hS tr (hc tr ht)
    exact ⟨s, (run_delays N reload S tr _).trans h1⟩
  obtain ⟨h1, h2⟩ := c151_apart _ (lawful_delays N reload S) _ on (fun _ => by rfl) es hs b hb
  replace h2 := (run_delays ..).symm.trans h2
  exact ⟨b, hb, h2, c143_quiet_partial N reload S hS _ (hc _ h1)⟩

/-- **C151.** A display written by main code in sections only: whenever main code is not in a byte, the display has latched the two halves of each byte, in the order of the calls. -/
theorem c151_display (a : Spec.Lcd.Lines) (hw : a.rw = false) (on : Bool) (es : List (Ev Writing)) (hs : Sectioned display (Board.init _ LcdInterrupt.start on) es) :
    ∃ b, run display (Board.init _ LcdInterrupt.start on) es = .ok b ∧ (b.obj.rest = [] →
      latchedIn a b.obj = halves (writtenIn b.trace)) := by
  obtain ⟨b, hb⟩ := c151_defined _ lawful_display _ on (fun _ => by rfl) es hs fun tr _ => ⟨_, run_display tr _⟩
  refine ⟨b, hb, fun hi => ?_⟩
  obtain ⟨h1, h2⟩ := c151_apart _ lawful_display _ on (fun _ => by rfl) es hs b hb
  replace h2 := Res.ok.inj ((run_display ..).symm.trans h2)
  obtain ⟨h3, h4⟩ := clean_display b.trace _ none [] h1 (fun _ => rfl)
  obtain ⟨h5, h6⟩ := c142_quiet_partial a hw b.trace h3 (by rw [h2]; exact hi)
  rw [h2] at h5
  rw [h6] at h4
  rw [h5]
  simpa using congrArg halves h4

/-- **C151.** Motors on one chain commanded by main code in sections only: whenever main code is not in a command, each motor does what was last asked of it. -/
theorem c151_motors (W : Nat) {n : Nat} (hW : n ≤ W) (x : Nat → Nat × Nat) (ms : List Nat) (hx : Wired n x ms) (c : Spec.ShiftRegister.Chain) (hc : c.clock = false) (hl : c.latch = false)
    (hn : n ≤ c.stages.length) (reg0 : BitVec n) (pwm : Nat → Nat) : ∃ s0, SharedInterrupt.ready W reg0 pwm = .ok s0 ∧
      ∀ (on : Bool) (es : List (Ev Happening)), Sectioned (motors W x ms) (Board.init _ s0 on) es → ∃ b, run (motors W x ms) (Board.init _ s0 on) es = .ok b ∧
        (b.obj.pc = .idle → ∀ m r, m ∈ ms → lastRequest m (asksOf b.trace) none = some r → OutputsServe n (c.run (seen b.obj.pins)) (x m) (b.obj.pwm m) r) := by
  obtain ⟨s0, e0, hq⟩ := c141_quiet_partial W hW x ms hx c hc hl hn reg0 pwm
  refine ⟨s0, e0, fun on es hs => ?_⟩
  have hi0 : s0.pc = .idle := by
    simp only [SharedInterrupt.ready] at e0
    cases h1 : Serial3Wire.writeReverse W reg0 with
    | ub => rw [h1] at e0; cases e0
    | ok t => rw [h1] at e0; simp only [Res.bind_ok, Res.ok.injEq] at e0; subst e0; rfl
  have hcl : ∀ tr, Clean (motors W x ms) s0 tr → QuietRun W x ms s0 tr := fun tr h =>
    clean_imp (M := motors W x ms) (Q := fun s es => QuietRun W x ms s es) (fun _ => trivial) (fun s e es hp hk h => ⟨(by
      cases e with
      | start => exact ⟨hp, hk (by intro h; cases h)⟩
      | main => trivial
      | handler o =>
        have hi : s.pc = .idle := hk (by intro h; cases h)
        exact ⟨hp, by rw [hi]; trivial, fun hn => absurd hi hn⟩ ), h⟩) tr _ h
  obtain ⟨b, hb⟩ := c151_defined _ (lawful_motors W x ms) _ on (fun _ => by exact hi0) es hs fun tr ht => by
    obtain ⟨s, h1, _⟩ := hq tr (hcl tr ht)
    exact ⟨s, (run_motors W x ms tr _).trans h1⟩
  refine ⟨b, hb, fun hi => ?_⟩
  obtain ⟨h1, h2⟩ := c151_apart _ (lawful_motors W x ms) _ on (fun _ => by exact hi0) es hs b hb
  replace h2 := (run_motors ..).symm.trans h2
  obtain ⟨s, h3, h4, _⟩ := hq _ (hcl _ h1)
  rw [h2, Res.ok.injEq] at h3
  subst h3
  exact h4 hi

/-! ### What sections do not do -/

namespace Sections

/-- Every use of main code is between an `EnableAll(false)` and its `EnableAll()`; `n` sections are open. -/
def Bracketed {E : Type} : Nat → List (Ev E) → Prop
  | n, [] => n = 0
  | n, .off :: es => Bracketed (n + 1) es
  | n, .on :: es => 0 < n ∧ Bracketed (n - 1) es
  | n, .main _ :: es => 0 < n ∧ Bracketed n es
  | n, _ :: es => Bracketed n es

instance decBracketed {E : Type} : ∀ (es : List (Ev E)) (n : Nat), Decidable (Bracketed n es)
  | [], n => inferInstanceAs (Decidable (n = 0))
  | .off :: es, n => decBracketed es (n + 1)
  | .on :: es, n => have := decBracketed es (n - 1); inferInstanceAs (Decidable (0 < n ∧ _))
  | .main _ :: es, n => have := decBracketed es n; inferInstanceAs (Decidable (0 < n ∧ _))
  | .other :: es, n => decBracketed es n
  | .request _ :: es, n => decBracketed es n
  | .serve _ _ :: es, n => decBracketed es n

instance decNow (M : Machine) [DecidablePred M.idle] [DecidablePred M.proper] (b : Board M) (e : Ev M.Ev) : Decidable (Now M b e) := by
  cases e <;> unfold Now <;> infer_instance

instance decSectioned (M : Machine) [DecidablePred M.idle] [DecidablePred M.proper] : ∀ (es : List (Ev M.Ev)) (b : Board M), Decidable (Sectioned M b es)
  | [], _ => isTrue trivial
  | e :: es, b => match h : step M b e with
    | .ok b' =>
      have := decSectioned M es b'
      decidable_of_iff (Now M b e ∧ Sectioned M b' es) ⟨fun a => ⟨a.1, fun t h' => by rw [h] at h'; cases h'; exact a.2⟩, fun a => ⟨a.1, a.2 b' h⟩⟩
    | .ub => decidable_of_iff (Now M b e) ⟨fun a => ⟨a, fun t h' => by rw [h] at h'; cases h'⟩, fun a => a.1⟩

/-- A defined result with a property. -/
def okB {α : Type} (p : α → Bool) : Res α → Bool
  | .ok x => p x
  | .ub => false

theorem of_okB {α : Type} {p : α → Bool} {r : Res α} (h : okB p r = true) : ∃ x, r = .ok x ∧ p x = true := by
  cases r with
  | ok x => exact ⟨x, rfl, h⟩
  | ub => cases h

theorem requests_run {M : Machine} (k n : Nat) : ∀ b : Board M, k ∈ b.flags → run M b (List.replicate n (.request k)) = .ok b := by
  induction n with
  | zero => exact fun b _ => rfl
  | succ n ih =>
    intro b hb
    rw [List.replicate_succ, run]
    have : step M b (.request k) = .ok b := by simp [step, hb]
    rw [this]
    exact ih b hb

theorem run_app {M : Machine} (l r : List (Ev M.Ev)) : ∀ b : Board M, run M b (l ++ r) = (run M b l >>= fun b => run M b r) := by
  induction l with
  | nil => exact fun b => rfl
  | cons e l ih =>
    intro b
    show (step M b e >>= fun b => run M b (l ++ r)) = ((step M b e >>= fun b => run M b l) >>= _)
    cases step M b e with
    | ub => rfl
    | ok b' => exact ih b'

/-- A function with a section of its own, called in a section; main code then adds 1 in what was its section, and a handler adds 2. -/
def nested : List (Ev (CollectionInterrupt.Ev Int)) :=
  [.off, .off, .main (.call (.add 5)), .main .main, .main .main, .on, .main (.call (.add 1)), .request 0, .serve 0 [.handler (.add 2)], .main .main, .main .main, .on]

end Sections
open Sections

/-- **C151, false.** Sections do not nest: the end of the inner one turns interrupts on in the rest of the outer one. Main code adds 5 and 1, a handler adds 2, all of main code's calls are in sections, and the
    collection holds two items. -/
theorem c151_nested_fails : Bracketed 0 nested ∧ ∃ b, run (collection Int true false 0) (Board.init _ (CollectionInterrupt.St.init ⟨[9, 9, 9, 9], 0⟩) true) nested = .ok b ∧
    b.obj.pc = .idle ∧ b.obj.done.length = 3 ∧ Collection.getCount b.obj.coll = 2 := by
  refine ⟨by decide +kernel, ?_⟩
  obtain ⟨b, h1, h2⟩ := of_okB (r := run (collection Int true false 0) (Board.init _ (CollectionInterrupt.St.init ⟨[9, 9, 9, 9], 0⟩) true) nested)
    (p := fun b : Board (collection Int true false 0) => decide (b.obj.pc = .idle ∧ b.obj.done.length = 3 ∧ Collection.getCount b.obj.coll = 2)) (by decide +kernel)
  exact ⟨b, h1, by simpa using h2⟩

/-- **C151.** The full claim is false: all calls of main code between `EnableAll(false)` and `EnableAll()`, and the calls do not add up. -/
theorem c151_full_claim_is_false : ¬ ∀ (es : List (Ev (CollectionInterrupt.Ev Int))) (b : Board (collection Int true false 0)), Bracketed 0 es →
    run (collection Int true false 0) (Board.init _ (CollectionInterrupt.St.init ⟨[9, 9, 9, 9], 0⟩) true) es = .ok b → b.obj.pc = .idle →
    SharedColl.Holds 0 b.obj.coll (SharedColl.listOf 4 b.obj.done) := by
  intro h
  obtain ⟨h1, b, h2, h3, _⟩ := c151_nested_fails
  have h4 := (h nested b h1 h2 h3).1
  obtain ⟨b', h5, h6⟩ := of_okB (r := run (collection Int true false 0) (Board.init _ (CollectionInterrupt.St.init ⟨[9, 9, 9, 9], 0⟩) true) nested)
    (p := fun b : Board (collection Int true false 0) => decide (Collection.getCount b.obj.coll ≠ (SharedColl.listOf 4 b.obj.done).length)) (by decide +kernel)
  rw [h2, Res.ok.injEq] at h5
  subst h5
  exact (by simpa using h6 : ¬ _) h4

/-- **C151, false.** A handler does not run for every request: of all requests of a source during a section one is left. -/
theorem c151_merged_fails (M : Machine) (s0 : M.St) (on : Bool) (k n : Nat) :
    ∃ b, run M (Board.init M s0 on) (.off :: .request k :: List.replicate n (.request k) ++ [.on, .other, .serve k [], .other, .serve k []]) = .ok b ∧ b.served = [k] ∧ b.flags = [] := by
  show ∃ b, run M (Board.init M s0 on) ([.off, .request k] ++ List.replicate n (.request k) ++ _) = .ok b ∧ _
  rw [List.append_assoc, run_app]
  have h1 : run M (Board.init M s0 on) [.off, .request k] = .ok ⟨s0, false, false, [k], [], []⟩ := by simp [run, step, Board.init]
  rw [h1, Res.bind_ok, run_app, requests_run k n _ (by simp), Res.bind_ok]
  refine ⟨⟨s0, true, false, [], [], [k]⟩, ?_, rfl, rfl⟩
  simp [run, step, Machine.run]

/-- **C151, false.** A section does not leave the interrupts as it found them: a handler that was not to run yet runs. -/
theorem c151_restored_fails (M : Machine) (s0 : M.St) (k : Nat) :
    (∃ b, run M (Board.init M s0 false) [.request k, .other, .serve k []] = .ok b ∧ b.served = []) ∧
    ∃ b, run M (Board.init M s0 false) [.request k, .off, .on, .other, .serve k []] = .ok b ∧ b.served = [k] := by
  constructor
  · exact ⟨⟨s0, false, false, [k], [], []⟩, by simp [run, step, Board.init], rfl⟩
  · exact ⟨⟨s0, true, true, [], [], [k]⟩, by simp [run, step, Board.init, Machine.run], rfl⟩

/-! ### Examples -/

/-- Main code adds 1 in a section during which a handler is requested, which then adds 2 and 3; main code searches for 3 in a section. -/
def twoSections : List (Ev (CollectionInterrupt.Ev Int)) :=
  [.off, .main (.call (.add 1)), .request 0, .serve 0 [.handler (.add 8)], .main .main, .main .main, .main .main, .main .main, .on, .other, .serve 0 [.handler (.add 2), .handler (.add 3)], .other,
   .off, .main (.find 3), .main .main, .main .main, .main .main, .main .main, .main .main, .main .main, .on]

/-- They are histories in sections, and the handler finds 1 in the collection (its first opportunity, with interrupts off, is none). -/
example : Sectioned (collection Int false false 0) (Board.init _ (CollectionInterrupt.St.init ⟨[9, 9, 9, 9], 0⟩) true) twoSections ∧
    okB (fun b => decide (b.obj.pc = .idle ∧ b.obj.answers = [2] ∧ b.obj.done.map Prod.snd = [.add 1, .add 2, .add 3] ∧ b.served = [0]))
      (run (collection Int false false 0) (Board.init _ (CollectionInterrupt.St.init ⟨[9, 9, 9, 9], 0⟩) true) twoSections) = true := by constructor <;> decide +kernel
example := c151_collection false false (0 : Int) ⟨[9, 9, 9, 9], 0⟩ (by decide) true twoSections (by decide +kernel)
/-- So all theorems about sections apply to it. -/
example : let M := collection Int false false 0; let s0 := CollectionInterrupt.St.init ⟨[9, 9, 9, 9], 0⟩
    ∃ b, run M (Board.init M s0 true) twoSections = .ok b ∧ Clean M s0 b.trace ∧ M.run s0 b.trace = .ok b.obj ∧ b.trace.filter (fun e => decide (M.kind e ≠ .handler)) = ofMain twoSections := by
  intro M s0
  have hs : Sectioned M (Board.init M s0 true) twoSections := by decide +kernel
  obtain ⟨b, hb, _⟩ := c151_collection false false (0 : Int) ⟨[9, 9, 9, 9], 0⟩ (by decide) true twoSections hs
  have h := c151_apart M (lawful_collection Int false false 0) s0 true (fun _ => by rfl) twoSections hs b hb
  exact ⟨b, hb, h.1, h.2, c151_mains M s0 true twoSections hs b hb⟩
example := fun b => c151_no_more (collection Int false false 0) (CollectionInterrupt.St.init ⟨[9, 9, 9, 9], 0⟩) true twoSections b
/-- What `c151_prompt` asks for, in `twoSections` and at the very beginning. -/
example : let M := collection Int false false 0; let s0 := CollectionInterrupt.St.init ⟨[9, 9, 9, 9], 0⟩
    turnedOn true (twoSections.take 10) = true ∧ owed false (twoSections.take 10) = false ∧
      okB (fun b => decide (0 ∈ b.flags) && okB (fun _ => true) (M.run b.obj [.handler (.add 2), .handler (.add 3)])) (run M (Board.init M s0 true) (twoSections.take 10)) = true ∧
      okB (fun b => decide (0 ∈ b.flags) && okB (fun _ => true) (M.run b.obj [.handler (.add 2)])) (run M (Board.init M s0 true) [.request 0]) = true := by
  refine ⟨rfl, rfl, ?_, ?_⟩ <;> decide +kernel
example := c151_prompt (collection Int false false 0) (CollectionInterrupt.St.init ⟨[9, 9, 9, 9], 0⟩) true (twoSections.take 10) (hon := rfl) (hw := rfl) (k := 0)

/-- Not in sections: the nested ones, and a call behind `EnableAll()`. -/
example : ¬ Sectioned (collection Int true false 0) (Board.init _ (CollectionInterrupt.St.init ⟨[9, 9, 9, 9], 0⟩) true) nested ∧
    ¬ Sectioned (collection Int true false 0) (Board.init _ (CollectionInterrupt.St.init ⟨[9, 9, 9, 9], 0⟩) true) [.off, .on, .main (.call (.add 1))] := by constructor <;> decide +kernel

instance {n : Nat} (W : Nat) (C : BitArrayInterrupt.Code n) : DecidablePred (bitArray W C).proper := by
  intro e
  cases e with
  | call c | handler c => cases c <;> simp only [bitArray, SharedBits.Proper] <;> infer_instance
  | look | main => simp only [bitArray]; infer_instance

/-- Main code sets bit 1, a handler bit 2, on eight bits. -/
def bitSections : List (Ev (BitArrayInterrupt.Ev 8)) :=
  [.request 3, .off, .main (.call (.put 1 true)), .main .main, .main .main, .main .main, .main .main, .on, .other, .serve 3 [.handler (.set 2)]]

example : Sectioned (bitArray 16 (SharedBits.plainCode 1 false)) (Board.init _ (BitArrayInterrupt.St.init (0#8)) false) bitSections ∧
    okB (fun b => decide (b.obj.mem = 6#8 ∧ b.obj.todo = [])) (run (bitArray 16 (SharedBits.plainCode 1 false)) (Board.init _ (BitArrayInterrupt.St.init (0#8)) false) bitSections) = true := by
  constructor <;> decide +kernel

/-- Main code and a handler write notes. -/
def midiSections : List (Ev MidiInterrupt.Ev) :=
  [.off, .main (.call (noteOn 0 60 1)), .request 1, .main .main, .main .main, .main .main, .main .main, .main .main, .on, .other, .serve 1 [.handler (noteOff 0 60 1)]]

instance (L : Midi.Layout) (c : Midi.WCall) : Decidable (CallOk L c) :=
  match h : callMeaning L c with
  | some s => decidable_of_iff s.Valid ⟨fun v => ⟨s, h, v⟩, fun ⟨t, ht, v⟩ => by rw [h, Option.some.injEq] at ht; exact ht ▸ v⟩
  | none => isFalse fun ⟨t, ht, _⟩ => by rw [h] at ht; cases ht

instance (L : Midi.Layout) : DecidablePred (midiWriter L).proper := by
  intro e; cases e <;> simp only [midiWriter] <;> infer_instance

instance (L : Midi.Layout) : DecidablePred (midiWriter L).idle := by
  intro s
  cases h : s.pc with
  | idle => exact isTrue h
  | test | store | cancel | out => exact isFalse (by simp [midiWriter, h])

example := c151_midi .avr Midi.Layout.avr_ok true midiSections (by decide +kernel)
example : okB (fun b => decide (Marked.wire b.obj.wire = [0x90, 60, 1, 0x80, 60, 1])) (run (midiWriter .avr) (Board.init _ MidiInterrupt.St.init true) midiSections) = true := by decide +kernel

instance (W : Nat) {n : Nat} (x : Nat → Nat × Nat) (ms : List Nat) : DecidablePred (motors W (n := n) x ms).proper := by
  intro e; cases e <;> simp only [motors] <;> infer_instance

/-- Main code starts motor 0 while a handler is requested, which starts motor 1. -/
def motorSections : List (Ev Happening) := [.off, .main (.start 0 (.turn false 100)), .request 0] ++ List.replicate 43 (.main .main) ++ [.on, .other, .serve 0 [.handler 1 (.turn true 200)]]

example := c151_motors 16 (by decide) ChainCase.x [0, 1] ChainCase.wired ChainCase.c rfl rfl (by decide) (0#8) (fun _ => 0)
example : Sectioned (motors 16 ChainCase.x [0, 1]) (Board.init _ ChainCase.s0 true) motorSections ∧
    okB (fun b => decide (b.obj.pc = .idle ∧ b.obj.pwm 0 = 100 ∧ b.obj.pwm 1 = 200 ∧ [0, 1, 2, 3].map (fun j => (ChainCase.c.run (seen b.obj.pins)).out[7 - j]?) = [some false, some true, some true, some false]))
      (run (motors 16 ChainCase.x [0, 1]) (Board.init _ ChainCase.s0 true) motorSections) = true := by constructor <;> decide +kernel

/-- Both write and read a ring buffer. -/
def ringSections : List (Ev (RingBufferShared.Ev Nat)) :=
  [.off, .main (.start (.put 5)), .request 0, .main .main, .main .main, .on, .other, .serve 0 [.handler (.put 6), .handler .take], .off, .main (.start .take), .main .main, .main .main, .on]

example := c151_ring true [0, 0, 0] (by decide) (by decide) true ringSections (by decide +kernel)
example : okB (fun b => decide (SharedRing.answers b.obj = [.put true, .put true, .took (some 5), .took (some 6)]))
    (run (ringBuffer Nat true) (Board.init _ (RingBufferShared.St.init [0, 0, 0]) true) ringSections) = true := by decide +kernel

/-- Both update a clock. -/
def clockSections : List (Ev TimeInterrupt.Ev) :=
  [.off, .main .start, .request 0, .main (.main 110), .main (.main 111), .main (.main 112), .on, .other, .serve 0 [.handler 130]]

example := c151_clock false 100 true clockSections (by decide +kernel)
example : okB (fun b => decide (b.obj.log.map (·.delta) = [10, 20] ∧ b.obj.pc = .idle)) (run (clock false) (Board.init _ (TimeInterrupt.St.init 100) true) clockSections) = true := by decide +kernel

/-- Both write to a display. -/
def displaySections : List (Ev Writing) := [.off, .main (.start (true, 0x41))] ++ List.replicate 12 (.main .main) ++ [.request 0, .on, .other, .serve 0 [.handler (true, 0x42)]]

example := c151_display dark rfl true displaySections (by decide +kernel)
example : okB (fun b => decide (b.obj.rest = [] ∧ writtenIn b.trace = [(true, 0x41), (true, 0x42)])) (run display (Board.init _ LcdInterrupt.start true) displaySections) = true := by decide +kernel

instance (N : Nat) (reload : Bool) (S : List Nat) : DecidablePred (delays N reload S).proper := by
  intro e; cases e <;> simp only [delays] <;> infer_instance

/-- Both wait for delays. -/
def delaySections : List (Ev DelaysInterrupt.Ev) :=
  [.off, .main (.begin 1 50), .main .main, .main .main, .main .main, .main .main, .main .main, .request 0, .on, .other, .serve 0 [.handler (.wait 2 30)]]

example := c151_delays 2 true [1, 2] ⟨by decide, by decide⟩ true delaySections (by decide +kernel)
example : okB (fun b => decide (b.obj.pc = .idle ∧ completedBy true b.obj = [.wait 1 50] ∧ completedBy false b.obj = [.wait 2 30]))
    (run (delays 2 true [1, 2]) (Board.init _ DelaysInterrupt.St.init true) delaySections) = true := by decide +kernel

/-- Sections without anything in between. -/
example : BackToBack false ([.off, .request 0, .main 1, .on, .serve 0 [2], .off, .main 1, .on, .off] : List (Ev Nat)) ∧ ¬ BackToBack false ([.off, .on, .other] : List (Ev Nat)) := by
  simp [BackToBack]

end Atl.Props
