import Verif.Proof.RingBufferPage
import Verif.Props.RingBufferIsr
/- Property theorems C107: the ring buffer shared with an interrupt handler on a processor that moves its
   pointers byte by byte. -/
namespace Atl.Props
open Atl.RingBuffer

/-- **C107, main writes.** For every placement of the buffer, either order of the bytes and every history: if the
    handler runs at most once from the first to the last byte of a new `_writePtr` (and any number of times
    anywhere else, also between the bytes of the load in the overrun test), then there is no undefined behaviour,
    the values read are a prefix of the values accepted, and between calls `getLength` is the number of values
    outstanding. -/
theorem c107_main_writer_partial (o : Order) (base : Nat) (g : List α) (hg : 0 < g.length)
    (hs : g.length < 65536) (as : List (WTAct α))
    (hok : ∀ v k, WTAct.write v k ∈ as → k.inc + k.past + k.wrap ≤ 1) :
    ∃ s, wtrun o base (iinit g) as = .ok s ∧ s.out <+: s.acc ∧
      getLength s.rb = s.acc.length - s.out.length ∧ s.acc.length ≤ s.out.length + (g.length - 1) := by
  obtain ⟨s, q, h, hi, hz⟩ := wtrun_inv o base as hok (iinit_inv g hg hs)
  have hz' : s.rb.size = g.length := hz
  have hq := hi.rel.hq
  refine ⟨s, h, ⟨q, hi.hist⟩, ?_, ?_⟩
  · rw [getLength_rel hi.rel hi.sz, ← hi.hist]; simp
  · rw [← hi.hist]; simp; omega

/-- Non-trivial case: a buffer at 254..257, the handler between the bytes of the increment from 255 to 256, between
    the bytes of the wrap, and between the bytes of the load. -/
example : (match wtrun ⟨true, false⟩ 254 (iinit [7, 8, 9, 9])
      [.write 1 {}, .write 2 { inc := 1 }, .write 3 { load := 1 }, .write 4 { wrap := 1 }, .isr 2] with
    | .ok s => decide (s.acc = [1, 2, 3, 4] ∧ s.out = [1, 2, 3, 4] ∧ s.rb.w = 0)
    | .ub => false) = true := by decide +kernel

/-- **C107, main reads.** The same for a handler that writes. -/
theorem c107_main_reader_partial (o : Order) (base : Nat) (g : List α) (hg : 0 < g.length)
    (hs : g.length < 65536) (as : List (RTAct α))
    (hok : ∀ k, RTAct.read k ∈ as → k.inc.length + k.past.length + k.wrap.length ≤ 1) :
    ∃ s, rtrun o base (iinit g) as = .ok s ∧ s.out <+: s.acc ∧
      getLength s.rb = s.acc.length - s.out.length ∧ s.acc.length ≤ s.out.length + (g.length - 1) := by
  obtain ⟨s, q, h, hi, hz⟩ := rtrun_inv o base as hok (iinit_inv g hg hs)
  have hz' : s.rb.size = g.length := hz
  have hq := hi.rel.hq
  refine ⟨s, h, ⟨q, hi.hist⟩, ?_, ?_⟩
  · rw [getLength_rel hi.rel hi.sz, ← hi.hist]; simp
  · rw [← hi.hist]; simp; omega

example : (match rtrun ⟨true, true⟩ 254 (iinit [7, 8, 9, 9])
      [.isr [1, 2, 3, 99], .read { inc := [4] }, .read { inc := [5] }, .read { load1 := [6], past := [7] },
       .read { wrap := [8] }, .read { load2 := [9] }] with
    | .ok s => decide (s.acc = [1, 2, 3, 4, 5, 7, 8] ∧ s.out = [1, 2, 3, 4, 5])
    | .ub => false) = true := by decide +kernel

/-- **C107, refusals.** With at most 256 elements `Write` returns false only when the buffer really was full when
    the call began, wherever it is placed and however often the handler runs between the bytes; and what it does
    with the value agrees with what it returns. -/
theorem c107_refusal_partial (o : Order) (base : Nat) (g : List α) (hg : 0 < g.length) (hs : g.length ≤ 256)
    (as : List (WTAct α)) (hok : ∀ v k, WTAct.write v k ∈ as → k.inc + k.past + k.wrap ≤ 1)
    (v : α) (k : WGaps) (hk : k.inc + k.past + k.wrap ≤ 1) :
    ∃ s s' b, wtrun o base (iinit g) as = .ok s ∧ writeTorn o base s v k = .ok (s', b) ∧
      s'.acc = (if b then s.acc ++ [v] else s.acc) ∧
      (b = false → s.acc.length = s.out.length + (g.length - 1)) := by
  obtain ⟨s, q, h, hi, hz⟩ := wtrun_inv o base as hok (iinit_inv g hg (by omega))
  have hz' : s.rb.size = g.length := hz
  obtain ⟨s', b, q', e', i', z', a', href⟩ := writeTorn_inv o base v k hk hi
  refine ⟨s, s', b, h, e', a', fun hb => ?_⟩
  obtain ⟨s1, i1, w1, z1, hfull⟩ := href hb
  have hq := hi.rel.hq; have hr := hi.rel.hr; have hw := hi.rel.hw; have hwl := hi.rel.hw_lt
  have hr1 := i1.rel.hr; have hw1 := i1.rel.hw; have hq1 := i1.rel.hq
  have hlen : s.acc.length = s.out.length + q.length := by rw [← hi.hist]; simp
  rw [hlen]
  simp only [List.length_drop] at hw1 hq1
  generalize ha : k.load = n at hw1 hq1
  generalize hm : q.length = m at *
  -- the address compared is inside the buffer, hence it is one of the two read pointers
  have hcmp : base + (if s.rb.w + 1 ≥ s.rb.size then 0 else s.rb.w + 1) =
      tornLoad o.loadLow (base + s.rb.r) (base + s1.rb.r) := by
    simp only [isFullAt, w1, z1] at hfull
    split at hfull <;> simp at hfull <;> rename_i hc
    · rw [if_pos hc]; omega
    · rw [if_neg hc]; omega
  have hin : (if s.rb.w + 1 ≥ s.rb.size then 0 else s.rb.w + 1) < s.rb.size := by split <;> omega
  generalize hc : (if s.rb.w + 1 ≥ s.rb.size then 0 else s.rb.w + 1) = c at hcmp hin
  have htwo : c = s.rb.r ∨ c = s1.rb.r := by
    unfold tornLoad at hcmp
    split at hcmp <;> omega
  rw [w1, z1] at hw1
  rw [z1] at hr1 hq1
  rcases htwo with hc' | hc' <;> subst hc' <;> split at hc <;> split at hw <;> split at hw1 <;> omega

/-- Reads off a concrete history and call. -/
theorem torn_run (s0 : Res (ISt Nat)) (p : ISt Nat → ISt Nat → Bool → Prop) {o base v k} [∀ a b c, Decidable (p a b c)]
    (h : (match s0 with
      | .ok s => match writeTorn o base s v k with
        | .ok (s', b) => decide (p s s' b)
        | .ub => false
      | .ub => false) = true) :
    ∃ s s' b, s0 = .ok s ∧ writeTorn o base s v k = .ok (s', b) ∧ p s s' b := by
  cases s0 with
  | ub => simp at h
  | ok s =>
    simp only at h
    cases hw : writeTorn o base s v k with
    | ub => simp [hw] at h
    | ok r =>
      obtain ⟨s', b⟩ := r
      simp only [hw, decide_eq_true_eq] at h
      exact ⟨s, s', b, rfl, hw, h⟩

/-- **C107 fails**: with more than 256 elements `Write` refuses a value although the buffer is not full.  Here
    258 elements at address 255, 255 values in it: the handler moves `_readPtr` from 255 to 256 between
    the two byte loads, and `Write` compares with 511. -/
theorem c107_refusal_fails :
    ∃ s s' b, wtrun ⟨true, true⟩ 255 (iinit (List.replicate 258 0))
        (List.replicate 255 (.write 1 {})) = .ok s ∧
      writeTorn ⟨true, true⟩ 255 s 3 { load := 1 } = .ok (s', b) ∧
      b = false ∧ getLength s.rb = 255 ∧ getLength s'.rb = 254 ∧ s'.rb.size = 258 :=
  torn_run _ (fun s s' b => b = false ∧ getLength s.rb = 255 ∧ getLength s'.rb = 254 ∧ s'.rb.size = 258)
    (by decide +kernel)

/-- **C107 fails** for the value of `getLength`: 4 elements at address 254, one of them used, and `getLength` returns
    257 when the handler moves `_writePtr` from 255 to 256 between the two bytes of its second load. -/
theorem c107_length_fails :
    ∃ s s' n, rtrun ⟨true, true⟩ 254 (iinit [0, 0, 0, 0]) [.isr [5]] = .ok s ∧
      lengthTorn ⟨true, true⟩ 254 s { load2 := [6] } = .ok (s', n) ∧
      getLength s.rb = 1 ∧ getLength s'.rb = 2 ∧ n = 257 := by
  refine ⟨{ rb := { size := 4, buf := [5, 0, 0, 0], w := 1, r := 0 }, acc := [5], out := [] },
    { rb := { size := 4, buf := [5, 6, 0, 0], w := 2, r := 0 }, acc := [5, 6], out := [] }, 257, ?_, ?_, ?_, ?_, rfl⟩ <;>
    decide +kernel

/-- **C107 fails** when the handler runs twice in the window, also where it cannot fail with undivided pointers (no
    wrap): 4 elements at address 254, `_writePtr` goes from 255 to 256, and the second run reads a value that was
    never written. -/
theorem c107_twice_fails :
    (∃ s, wtrun ⟨true, true⟩ 254 (iinit [7, 8, 9, 9]) [.write 1 {}, .isr 1, .write 2 { inc := 2 }] = .ok s ∧
      s.acc = [1, 2] ∧ s.out = [1, 2, 9]) ∧
    (∃ s, wtrun ⟨true, true⟩ 4 (iinit [7, 8, 9, 9]) [.write 1 {}, .isr 1, .write 2 { inc := 2 }] = .ok s ∧
      s.acc = [1, 2] ∧ s.out = [1, 2]) :=
  ⟨⟨{ rb := { size := 4, buf := [1, 2, 9, 9], w := 2, r := 3 }, acc := [1, 2], out := [1, 2, 9] },
      by decide +kernel, rfl, rfl⟩,
   ⟨{ rb := { size := 4, buf := [1, 2, 9, 9], w := 2, r := 2 }, acc := [1, 2], out := [1, 2] },
      by decide +kernel, rfl, rfl⟩⟩

/-- **C107, in one page** (main writes): when the buffer and the address after it are in one page of 256 bytes, every history with divided pointers, with any number of
    handler runs anywhere, is a history with undivided ones (C04) with the same writes, only with handler runs moved to a neighbouring gap. Hence it is enough that
    at most one run finds `_writePtr` incremented and not wrapped: the number of those between the bytes of one of the two stores does not matter. -/
theorem c107_page_writer (o : Order) (base : Nat) (g : List α) (hg : 0 < g.length) (hp : base % 256 + g.length < 256) (as : List (WTAct α)) :
    (∃ acts s, wtrun o base (iinit g) as = .ok s ∧ wrun (iinit g) acts = .ok s ∧ WAct.values acts = WTAct.values as) ∧
    ((∀ v k, WTAct.write v k ∈ as → k.past + (if o.storeLow then k.inc else k.wrap) ≤ 1) →
      ∃ s, wtrun o base (iinit g) as = .ok s ∧ s.out <+: s.acc ∧ getLength s.rb = s.acc.length - s.out.length) := by
  obtain ⟨acts, s, e1, e2, e3, e4⟩ := wtrun_page o base as (s := iinit g) hp ⟨rfl, hg⟩ hg
  refine ⟨⟨acts, s, e1, e2, e3⟩, fun hok => ?_⟩
  obtain ⟨s', h1, h2, h3, -⟩ := c04_main_writer_partial g hg (by omega) acts (fun v n1 n2 n3 hm => by
    obtain ⟨y, k, hk, hle⟩ := e4 v n1 n2 n3 hm
    exact Nat.le_trans hle (hok y k hk))
  rw [e2] at h1
  cases h1
  exact ⟨s, e1, h2, h3⟩

/-- Non-trivial case: at address 1024, five handler runs between the bytes of the increment (high byte first) and one after it. -/
example : (match wtrun ⟨true, false⟩ 1024 (iinit [7, 8, 9]) [.write 1 { inc := 5 }, .write 2 { inc := 5, past := 1 }, .write 3 { inc := 5, past := 1 }, .isr 1] with
    | .ok s => s.acc == [1, 2, 3] && s.out == [1, 2, 3] | .ub => false) = true := by decide +kernel

/-- **C107, in one page** (main reads): as `c107_page_writer`. -/
theorem c107_page_reader (o : Order) (base : Nat) (g : List α) (hg : 0 < g.length) (hp : base % 256 + g.length < 256) (as : List (RTAct α)) :
    (∃ acts s, rtrun o base (iinit g) as = .ok s ∧ rrun (iinit g) acts = .ok s ∧ RAct.reads acts = RTAct.reads as) ∧
    ((∀ k, RTAct.read k ∈ as → k.past.length + (if o.storeLow then k.inc.length else k.wrap.length) ≤ 1) →
      ∃ s, rtrun o base (iinit g) as = .ok s ∧ s.out <+: s.acc ∧ getLength s.rb = s.acc.length - s.out.length) := by
  obtain ⟨acts, s, e1, e2, e3, e4⟩ := rtrun_page o base as (s := iinit g) hp ⟨rfl, hg⟩ hg
  refine ⟨⟨acts, s, e1, e2, e3⟩, fun hok => ?_⟩
  obtain ⟨s', h1, h2, h3, -⟩ := c04_main_reader_partial g hg (by omega) acts (fun l1 l2 l3 l4 hm => by
    obtain ⟨k, hk, hle⟩ := e4 l1 l2 l3 l4 hm
    exact Nat.le_trans hle (hok k hk))
  rw [e2] at h1
  cases h1
  exact ⟨s, e1, h2, h3⟩

example : (match rtrun ⟨true, true⟩ 1024 (iinit [7, 8, 9]) [.isr [1, 2, 3], .read { wrap := [4, 5, 6] }, .read { inc := [7] }, .read { wrap := [8, 9, 10] }] with
    | .ok s => s.acc == [1, 2, 7, 8, 9] && s.out == [1, 2, 7] | .ub => false) = true := by decide +kernel

end Atl.Props
