import Verif.Proof.RingBufferIsr
import Verif.Proof.RingBufferExact
/- Property theorems C04: ring buffer shared between main code and an interrupt handler. -/
namespace Atl.Props
open Atl.RingBuffer Atl.Spec.SharedFifo

/-- **C04 (full claim), as a proposition.** For every schedule of source-level accesses with an interrupt handler
    that runs to completion, values read are a prefix of values accepted.  It is *false* of the code, see
    `c04_isr_reader_fails` and `c04_isr_writer_fails`. -/
def C04Full : Prop :=
  (∀ (g : List Nat) (as : List (WAct Nat)), 0 < g.length → g.length < 65536 →
    ∃ s, wrun (iinit g) as = .ok s ∧ s.out <+: s.acc) ∧
  (∀ (g : List Nat) (as : List (RAct Nat)), 0 < g.length → g.length < 65536 →
    ∃ s, rrun (iinit g) as = .ok s ∧ s.out <+: s.acc)

/-- **C04 fails**: main writes, and the reading interrupt handler runs twice between `_writePtr++` and the wrap:
    it returns a value that was never written (here the uninitialised 77). -/
theorem c04_isr_reader_fails :
    ∃ s, wrun (iinit [77, 88]) [.write 1 0 0 0, .isr 1, .write 2 0 0 2] = .ok s ∧
      s.acc = [1, 2] ∧ s.out = [1, 2, 1] ∧ ¬ s.out <+: s.acc :=
  ⟨_, rfl, rfl, rfl, by decide⟩

/-- **C04 fails** in the other direction: main reads, the writing interrupt handler runs `Size` times between
    `_readPtr++` and the wrap: two accepted values are lost (the buffer then claims to be empty). -/
theorem c04_isr_writer_fails :
    ∃ s, rrun (iinit [77, 88]) [.isr [1], .read [] [] [] [], .isr [2], .read [] [] [] [3, 4]] = .ok s ∧
      s.acc = [1, 2, 3, 4] ∧ s.out = [1, 2] ∧ getLength s.rb = 0 :=
  ⟨_, rfl, rfl, rfl, rfl⟩

/-- The full claim is refuted. -/
theorem c04_full_claim_is_false : ¬ C04Full := by
  intro h
  obtain ⟨s, h1, h2⟩ := h.1 [77, 88] [.write 1 0 0 0, .isr 1, .write 2 0 0 2] (by decide) (by decide)
  obtain ⟨s', h1', _, _, h4⟩ := c04_isr_reader_fails
  rw [h1] at h1'
  cases h1'
  exact h4 h2

/-- **C04, partial (a).** If each pointer is committed by a single store (increment and wrap together), then for
    *every* interleaving of single accesses of the two sides there is no undefined behaviour, the values read are a
    prefix of the values accepted, at most `Size-1` are outstanding, and whenever both sides
    are between calls `getLength` is exactly the number of outstanding values (so nothing is lost). -/
theorem c04_atomic_commit_partial (g : List α) (hg : 0 < g.length) (hs : g.length < 65536)
    (sched : List (Sched α)) :
    ∃ s, mrun (minit g) sched = .ok s ∧ s.out <+: s.acc ∧
      s.acc.length ≤ s.out.length + (g.length - 1) ∧
      getLength s.rb = s.acc.length - s.out.length := by
  obtain ⟨s, q, h, hi, hz⟩ := mrun_inv sched (minit_inv g hg hs)
  have hz' : s.rb.size = g.length := hz
  have hq := hi.rel.hq
  refine ⟨s, h, ⟨q, hi.hist⟩, ?_, ?_⟩
  · rw [← hi.hist]; simp; omega
  · rw [getLength_rel hi.rel hi.sz, ← hi.hist]; simp

example : (mrun (minit [0, 0]) [.p 5, .c, .p 9, .c, .p 9, .c, .c, .c, .p 6, .c, .p 6, .c]) =
    .ok { rb := { size := 2, buf := [5, 0], w := 1, r := 1 }, p := .checked 6, c := .loaded true,
          acc := [5], out := [5] } := by decide

/-- **C04, partial (b).** With the accesses exactly as in the source and main as the writer: safe for every history in
    which the interrupt handler runs at most once between `_writePtr++` and the wrap (and any number of times
    anywhere else). -/
theorem c04_main_writer_partial (g : List α) (hg : 0 < g.length) (hs : g.length < 65536)
    (as : List (WAct α)) (hok : ∀ v n1 n2 n3, WAct.write v n1 n2 n3 ∈ as → n3 ≤ 1) :
    ∃ s, wrun (iinit g) as = .ok s ∧ s.out <+: s.acc ∧
      getLength s.rb = s.acc.length - s.out.length ∧
      s.acc.length ≤ s.out.length + (g.length - 1) := by
  obtain ⟨s, q, h, hi, hz⟩ := wrun_inv as hok (iinit_inv g hg hs)
  have hz' : s.rb.size = g.length := hz
  have hq := hi.rel.hq
  refine ⟨s, h, ⟨q, hi.hist⟩, ?_, ?_⟩
  · rw [getLength_rel hi.rel hi.sz, ← hi.hist]; simp
  · rw [← hi.hist]; simp; omega

example : ∃ s, wrun (iinit [7, 8]) [.write 1 0 0 1, .write 2 1 1 1, .write 3 0 0 0, .isr 2] = .ok s ∧
    s.acc = [1, 2, 3] ∧ s.out = [1, 2, 3] := ⟨_, rfl, rfl, rfl⟩

/-- **C04, partial (c).** With the accesses exactly as in the source and main as the reader: safe for every history in
    which the interrupt handler runs at most once between `_readPtr++` and the wrap. -/
theorem c04_main_reader_partial (g : List α) (hg : 0 < g.length) (hs : g.length < 65536)
    (as : List (RAct α)) (hok : ∀ l1 l2 l3 l4, RAct.read l1 l2 l3 l4 ∈ as → l4.length ≤ 1) :
    ∃ s, rrun (iinit g) as = .ok s ∧ s.out <+: s.acc ∧
      getLength s.rb = s.acc.length - s.out.length ∧
      s.acc.length ≤ s.out.length + (g.length - 1) := by
  obtain ⟨s, q, h, hi, hz⟩ := rrun_inv as hok (iinit_inv g hg hs)
  have hz' : s.rb.size = g.length := hz
  have hq := hi.rel.hq
  refine ⟨s, h, ⟨q, hi.hist⟩, ?_, ?_⟩
  · rw [getLength_rel hi.rel hi.sz, ← hi.hist]; simp
  · rw [← hi.hist]; simp; omega

example : ∃ s, rrun (iinit [7, 8, 9]) [.isr [1, 2, 3], .read [4] [5] [] [6], .read [] [] [] [],
    .read [] [] [] [8], .isr [9, 10]] = .ok s ∧ s.acc = [1, 2, 6, 8, 9] ∧ s.out = [1, 2, 6] :=
  ⟨_, rfl, rfl, rfl⟩

/-- **C04, main writes, exactly.** In every history in which the queue of the specification never meets its one exception, the buffer is that queue: what was
    accepted, what was read and the length are those of the queue, with the handler running any number of times anywhere. And the exception cannot be
    weakened: whenever it is met next - the value went to the last place and the handler ran more often than values were waiting, before the pointer went
    back - more values have been read than were accepted. -/
theorem c04_main_writer_exact (g : List α) (hg : 0 < g.length) (hs : g.length < 65536) (as : List (WAct α)) (f : Fifo α)
    (hf : as.foldlM (Fifo.mainWrites g.length) ⟨[], 0⟩ = some f) :
    (∃ s, wrun (iinit g) as = .ok s ∧ s.acc = f.acc ∧ s.out = f.acc.take f.read ∧ f.read ≤ f.acc.length ∧ getLength s.rb = f.waiting) ∧
    ∀ a, Fifo.mainWrites g.length f a = none → ∃ s, wrun (iinit g) (as ++ [a]) = .ok s ∧ s.acc.length < s.out.length := by
  obtain ⟨s, e, i⟩ := wrun_exact as (shows_init g hg hs) hf
  refine ⟨⟨s, e, i.acc, i.out, i.le, ?_⟩, ?_⟩
  · rw [getLength_rel i.inv.rel i.inv.sz]; simp [Fifo.waiting]
  · intro a ha
    cases a with
    | isr k => simp [Fifo.mainWrites] at ha
    | write v n1 n2 n3 =>
      obtain ⟨s', e', i'⟩ := (writeIsr_exact i v n1 n2 n3).2 ha
      exact ⟨s', by simp [wrunE_append, e, wrun, e'], i'⟩

/-- Two values wait when the pointer reaches the end, so two runs of the handler in the window are harmless and the third is not. -/
example : (([.write 1 0 0 0, .write 2 0 0 0, .isr 2, .write 3 0 0 0, .write 4 0 0 2] : List (WAct Nat)).foldlM (Fifo.mainWrites 4) ⟨[], 0⟩).map
      (fun f => (f.acc, f.read)) = some ([1, 2, 3, 4], 4) ∧
    ((([.write 1 0 0 0, .write 2 0 0 0, .isr 2, .write 3 0 0 0] : List (WAct Nat)).foldlM (Fifo.mainWrites 4) ⟨[], 0⟩).bind
      (fun f => Fifo.mainWrites 4 f (.write 4 0 0 3))).isNone := by decide

/-- **C04, main reads, exactly.** The same for a handler that writes. The exception: the value came from the last place and the handler wrote more
    values than there was room for, before the pointer went back; then values that were accepted are lost. -/
theorem c04_main_reader_exact (g : List α) (hg : 0 < g.length) (hs : g.length < 65536) (as : List (RAct α)) (f : Fifo α)
    (hf : as.foldlM (Fifo.mainReads g.length) ⟨[], 0⟩ = some f) :
    (∃ s, rrun (iinit g) as = .ok s ∧ s.acc = f.acc ∧ s.out = f.acc.take f.read ∧ f.read ≤ f.acc.length ∧ getLength s.rb = f.waiting) ∧
    ∀ a, Fifo.mainReads g.length f a = none → ∃ s, rrun (iinit g) (as ++ [a]) = .ok s ∧ s.out.length + getLength s.rb < s.acc.length := by
  obtain ⟨s, e, i⟩ := rrun_exact as (shows_init g hg hs) hf
  refine ⟨⟨s, e, i.acc, i.out, i.le, ?_⟩, ?_⟩
  · rw [getLength_rel i.inv.rel i.inv.sz]; simp [Fifo.waiting]
  · intro a ha
    cases a with
    | isr k => simp [Fifo.mainReads] at ha
    | read l1 l2 l3 l4 =>
      obtain ⟨s', e', i'⟩ := (readIsr_exact i l1 l2 l3 l4).2 ha
      exact ⟨s', by simp [rrunE_append, e, rrun, e'], i'⟩

example : (([.isr [1, 2], .read [] [] [] [], .read [] [] [] [], .isr [3], .read [] [4] [] [5, 6]] : List (RAct Nat)).foldlM (Fifo.mainReads 3) ⟨[], 0⟩).map
      (fun f => (f.acc, f.read)) = none ∧
    (([.isr [1, 2], .read [] [] [] [], .read [] [] [] [], .isr [3], .read [] [4] [] [5]] : List (RAct Nat)).foldlM (Fifo.mainReads 3) ⟨[], 0⟩).map
      (fun f => (f.acc, f.read)) = some ([1, 2, 3, 4, 5], 3) := by decide

end Atl.Props
