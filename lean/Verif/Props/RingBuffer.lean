import Verif.Proof.RingBuffer
/- Property theorems C01-C03: ring buffer and buffered input stream. -/
namespace Atl.Props
open Atl.RingBuffer

/-- **C01.** Every history that never reads an empty queue is answered by a fresh ring buffer exactly as
    by the abstract bounded queue of capacity `Size-1`, without undefined behaviour.
    `g` is the uninitialised storage: its length is the template argument `Size` (a `uint16_t`). -/
theorem c01_ring_buffer_is_fifo (g : List α) (hg : 0 < g.length) (hs : g.length < 65536)
    (ops : List (Op α)) (q : List α) (outs : List (Out α))
    (hspec : Spec.Queue.run (g.length - 1) [] ops = some (q, outs)) :
    ∃ s, run (RingBuffer.mk g) ops = .ok (s, outs) := by
  obtain ⟨s, h, _, _⟩ := run_rel ops (rel_mk g hg) (by simpa [RingBuffer.mk] using hs) hspec
  exact ⟨s, h⟩

example : Spec.Queue.run 2 [] [Op.write 7, .write 8, .write 9, .read, .write 5, .length, .read, .read] =
    some ([], [.accepted true, .accepted true, .accepted false, .value 7, .accepted true, .len 2,
      .value 8, .value 5]) := by decide

/-- **C01** (continued): a history is permitted by the specification unless it reads when everything
    accepted has been read already; the precondition is necessary: reading an empty ring buffer
    desynchronises it (it then claims to hold `Size-1` values). -/
theorem c01_empty_read_breaks_fifo :
    ∃ g : List Nat, ∃ ops, ∃ s outs, run (RingBuffer.mk g) ops = .ok (s, outs) ∧
      ops = [.read, .length] ∧ outs = [.value 0, .len 2] :=
  ⟨[0, 0, 0], _, _, _, rfl, rfl, rfl⟩

/-- **C02.** After any permitted history that leaves the abstract queue `q`: `Write` is refused exactly when
    `Size-1` values are unread, a refused write leaves the object unchanged, and `getLength` is
    the number of unread values, at most `Size-1`. -/
theorem c02_reject_iff_full (g : List α) (hg : 0 < g.length) (hs : g.length < 65536)
    (ops : List (Op α)) (q : List α) (outs : List (Out α))
    (hspec : Spec.Queue.run (g.length - 1) [] ops = some (q, outs)) :
    ∃ s, run (RingBuffer.mk g) ops = .ok (s, outs) ∧
      getLength s = q.length ∧ q.length ≤ g.length - 1 ∧
      (∀ v, (∃ s', write s v = .ok (s', false)) ↔ q.length = g.length - 1) ∧
      (∀ v s', write s v = .ok (s', false) → s' = s) ∧
      (∀ v, q.length < g.length - 1 → ∃ s', write s v = .ok (s', true) ∧ getLength s' = q.length + 1) := by
  have hs0 : (RingBuffer.mk g).size < 65536 := by simpa [RingBuffer.mk] using hs
  obtain ⟨s, h, hrel, hsz⟩ := run_rel ops (rel_mk g hg) hs0 hspec
  have hsz' : s.size = g.length := hsz
  have hq := hrel.hq
  refine ⟨s, h, getLength_rel hrel (by omega), by omega, ?_, ?_, ?_⟩
  · intro v
    constructor
    · rintro ⟨s', hw⟩
      by_cases hc : q.length + 1 < s.size
      · obtain ⟨s'', hw', _, _⟩ := write_room hrel v hc
        rw [hw] at hw'; simp at hw'
      · omega
    · intro hl
      exact ⟨s, write_full hrel v (by omega)⟩
  · intro v s' hw
    by_cases hc : q.length + 1 < s.size
    · obtain ⟨s'', hw', _, _⟩ := write_room hrel v hc
      rw [hw] at hw'; simp at hw'
    · have := write_full hrel v (by omega)
      rw [hw] at this; simpa using this
  · intro v hl
    obtain ⟨s', hw, hr, hz⟩ := write_room hrel v (by omega)
    exact ⟨s', hw, by simpa using getLength_rel hr (by omega)⟩

example : Spec.Queue.run 2 [] [Op.write 7, .read, .write 8, .write 9] =
    some ([8, 9], [.accepted true, .value 7, .accepted true, .accepted true]) := by decide

/-- **C03.** Every history of `Write` and `Read` calls on a buffered input stream is answered as by the abstract
    byte stream (reads of an empty stream give -1 and change nothing), with no undefined behaviour ... -/
theorem c03_buffered_read (g : List (Fin 256)) (hg : 0 < g.length) (hs : g.length < 65536)
    (ops : List BOp) :
    ∃ s, brun (RingBuffer.mk g) ops = .ok (s, (Spec.Queue.brun (g.length - 1) [] ops).2) := by
  obtain ⟨s, h, _, _⟩ := brun_rel ops (rel_mk g hg) (by simpa [RingBuffer.mk] using hs)
  exact ⟨s, h⟩

/-- **C03** ... hence the bytes returned are a prefix of the bytes accepted, in order. -/
theorem c03_returned_prefix_of_accepted (g : List (Fin 256)) (hg : 0 < g.length)
    (hs : g.length < 65536) (ops : List BOp) :
    ∃ s outs, brun (RingBuffer.mk g) ops = .ok (s, outs) ∧
      Spec.Queue.returnedBytes outs <+:
        (Spec.Queue.acceptedBytes ops outs).map (fun v => (v.val : Int)) := by
  obtain ⟨s, h⟩ := c03_buffered_read g hg hs ops
  refine ⟨s, _, h, ?_⟩
  have := spec_prefix (g.length - 1) [] ops
  simp only [List.nil_append] at this
  exact ⟨_, this.symm⟩

example : (Spec.Queue.brun 2 [] [.read, .write 7, .write 255, .write 9, .read, .read, .read]).2 =
    [.got (-1), .accepted true, .accepted true, .accepted false, .got 7, .got 255, .got (-1)] := by
  decide

end Atl.Props
