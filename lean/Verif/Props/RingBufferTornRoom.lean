import Verif.Props.RingBufferTorn
/- Property theorems C107, continued: how many handler runs the pointer stores of one call tolerate. -/
namespace Atl.Props
open Atl.RingBuffer

theorem wtrun_waiting (o : Order) (base : Nat) (as : List (WTAct α)) {s : ISt α} {q : List α} (h : IInv s q)
    (hok : ∀ pre v k post, as = pre ++ WTAct.write v k :: post → ∀ t, wtrun o base s pre = .ok t →
      k.inc + k.past + k.wrap ≤ t.acc.length - t.out.length - (k.load + k.test + k.slot) + 1) :
    ∃ s' q', wtrun o base s as = .ok s' ∧ IInv s' q' ∧ s'.rb.size = s.rb.size := by
  induction as generalizing s q with
  | nil => exact ⟨s, q, rfl, h, rfl⟩
  | cons a as ih =>
    cases a with
    | write v g =>
      have hn := hok [] v g as rfl s rfl
      have hl := congrArg List.length h.hist
      simp only [List.length_append] at hl
      obtain ⟨s1, b, q1, e1, i1, z1, _⟩ := writeTorn_inv_of o base v g (by omega) h
      obtain ⟨s2, q2, e2, i2, z2⟩ := ih i1 (fun pre v k post he t ht =>
        hok (.write _ g :: pre) v k post (by rw [he]; rfl) t (by simp only [wtrun, e1, Res.bind_ok]; exact ht))
      exact ⟨s2, q2, by simp [wtrun, e1, e2], i2, by omega⟩
    | isr n =>
      obtain ⟨s1, e1, i1, z1, _⟩ := consumeN_inv n h
      obtain ⟨s2, q2, e2, i2, z2⟩ := ih i1 (fun pre v k post he t ht =>
        hok (.isr n :: pre) v k post (by rw [he]; rfl) t (by simp only [wtrun, e1, Res.bind_ok]; exact ht))
      exact ⟨s2, q2, by simp [wtrun, e1, e2], i2, by omega⟩

theorem rtrun_room (o : Order) (base : Nat) (as : List (RTAct α)) {s : ISt α} {q : List α} (h : IInv s q)
    (hok : ∀ pre k post, as = pre ++ RTAct.read k :: post → ∀ t, rtrun o base s pre = .ok t →
      k.inc.length + k.past.length + k.wrap.length ≤ 1 ∨
      (t.acc.length - t.out.length) + (k.load1.length + k.between.length + k.load2.length + k.test.length + k.slot.length)
        + (k.inc.length + k.past.length + k.wrap.length) ≤ s.rb.size) :
    ∃ s' q', rtrun o base s as = .ok s' ∧ IInv s' q' ∧ s'.rb.size = s.rb.size := by
  induction as generalizing s q with
  | nil => exact ⟨s, q, rfl, h, rfl⟩
  | cons a as ih =>
    cases a with
    | read g =>
      have hn := hok [] g as rfl s rfl
      have hl := congrArg List.length h.hist
      simp only [List.length_append] at hl
      obtain ⟨s1, q1, e1, i1, z1⟩ := readTorn_inv_of o base g (by omega) h
      obtain ⟨s2, q2, e2, i2, z2⟩ := ih i1 (fun pre k post he t ht => by
        rw [z1]
        exact hok (.read g :: pre) k post (by rw [he]; rfl) t (by simp only [rtrun, e1, Res.bind_ok]; exact ht))
      exact ⟨s2, q2, by simp [rtrun, e1, e2], i2, by omega⟩
    | isr l =>
      obtain ⟨s1, q1, e1, i1, z1, _⟩ := produceL_inv l h
      obtain ⟨s2, q2, e2, i2, z2⟩ := ih i1 (fun pre k post he t ht => by
        rw [z1]
        exact hok (.isr l :: pre) k post (by rw [he]; rfl) t (by simp only [rtrun, e1, Res.bind_ok]; exact ht))
      exact ⟨s2, q2, by simp [rtrun, e1, e2], i2, by omega⟩

/-- **C107, main writes, with values waiting.** For every placement of the buffer, either order of the bytes and
    every history: the handler may run, from the first to the last byte of a new `_writePtr`, once more than
    there are values still waiting (the values accepted but not read when the call began, less the runs earlier
    in the call).  Then there is no undefined behaviour, the values read are a prefix of the values accepted, and
    between calls `getLength` is the number of values outstanding. -/
theorem c107_main_writer_waiting (o : Order) (base : Nat) (g : List α) (hg : 0 < g.length)
    (hs : g.length < 65536) (as : List (WTAct α))
    (hok : ∀ pre v k post, as = pre ++ WTAct.write v k :: post → ∀ t, wtrun o base (iinit g) pre = .ok t →
      k.inc + k.past + k.wrap ≤ t.acc.length - t.out.length - (k.load + k.test + k.slot) + 1) :
    ∃ s, wtrun o base (iinit g) as = .ok s ∧ s.out <+: s.acc ∧
      getLength s.rb = s.acc.length - s.out.length ∧ s.acc.length ≤ s.out.length + (g.length - 1) := by
  obtain ⟨s, q, h, hi, hz⟩ := wtrun_waiting o base as (iinit_inv g hg hs) hok
  have hz' : s.rb.size = g.length := hz
  have hq := hi.rel.hq
  refine ⟨s, h, ⟨q, hi.hist⟩, ?_, ?_⟩
  · rw [getLength_rel hi.rel hi.sz, ← hi.hist]; simp
  · rw [← hi.hist]; simp; omega

/-- Non-trivial case: three values wait when the pointer is moved from 255 to 256, and the handler runs four
    times between the two bytes; all four values come out in order.  A fifth run reads the stale slot. -/
example : (match wtrun ⟨true, false⟩ 252 (iinit [7, 8, 9, 10, 11, 12])
      [.write 1 {}, .write 2 {}, .write 3 {}, .write 4 { inc := 4 }] with
    | .ok s => decide (s.acc = [1, 2, 3, 4] ∧ s.out = [1, 2, 3, 4] ∧ getLength s.rb = 0)
    | .ub => false) = true ∧
  (match wtrun ⟨true, false⟩ 252 (iinit [7, 8, 9, 10, 11, 12])
      [.write 1 {}, .write 2 {}, .write 3 {}, .write 4 { inc := 5 }] with
    | .ok s => decide (¬ s.out <+: s.acc)
    | .ub => false) = true := by decide +kernel

/-- **C107, main reads, with room left.** The same for a handler that writes: it may run, from the first to the
    last byte of a new `_readPtr`, as often as there is room counting the slot being read, or once. -/
theorem c107_main_reader_room (o : Order) (base : Nat) (g : List α) (hg : 0 < g.length)
    (hs : g.length < 65536) (as : List (RTAct α))
    (hok : ∀ pre k post, as = pre ++ RTAct.read k :: post → ∀ t, rtrun o base (iinit g) pre = .ok t →
      k.inc.length + k.past.length + k.wrap.length ≤ 1 ∨
      (t.acc.length - t.out.length) + (k.load1.length + k.between.length + k.load2.length + k.test.length + k.slot.length)
        + (k.inc.length + k.past.length + k.wrap.length) ≤ g.length) :
    ∃ s, rtrun o base (iinit g) as = .ok s ∧ s.out <+: s.acc ∧
      getLength s.rb = s.acc.length - s.out.length ∧ s.acc.length ≤ s.out.length + (g.length - 1) := by
  obtain ⟨s, q, h, hi, hz⟩ := rtrun_room o base as (iinit_inv g hg hs) hok
  have hz' : s.rb.size = g.length := hz
  have hq := hi.rel.hq
  refine ⟨s, h, ⟨q, hi.hist⟩, ?_, ?_⟩
  · rw [getLength_rel hi.rel hi.sz, ← hi.hist]; simp
  · rw [← hi.hist]; simp; omega

/-- Non-trivial case: a buffer of six slots with two values waiting takes four more while `_readPtr` goes from 255
    to 256 byte by byte.  A fifth loses values: the buffer counts as empty. -/
example : (match rtrun ⟨true, true⟩ 255 (iinit [7, 8, 9, 10, 11, 12])
      [.isr [1, 2], .read { inc := [3, 4, 5, 6] }] with
    | .ok s => decide (s.acc = [1, 2, 3, 4, 5, 6] ∧ s.out = [1] ∧ getLength s.rb = 5)
    | .ub => false) = true ∧
  (match rtrun ⟨true, true⟩ 255 (iinit [7, 8, 9, 10, 11, 12])
      [.isr [1, 2], .read { inc := [3, 4, 5, 6, 7] }] with
    | .ok s => decide (s.acc.length = 7 ∧ getLength s.rb = 0)
    | .ub => false) = true := by decide +kernel

end Atl.Props
