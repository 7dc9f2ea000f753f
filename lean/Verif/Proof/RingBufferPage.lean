import Verif.Proof.RingBufferTorn
/- Helper lemmas: inside one page of 256 bytes a pointer moved byte by byte looks like an undivided one. -/
namespace Atl.RingBuffer

theorem tornLoad_page (low : Bool) {p1 p2 : Nat} (h : p1 / 256 = p2 / 256) : tornLoad low p1 p2 = if low then p1 else p2 := by
  unfold tornLoad; split <;> omega

theorem tornStore_page (low : Bool) {old new : Nat} (h : old / 256 = new / 256) : tornStore low old new = if low then new else old := by
  unfold tornStore; split <;> omega

/-- Enough for every access to be inside the array. -/
structure Inside (s : ISt α) : Prop where
  hlen : s.rb.buf.length = s.rb.size
  hr : s.rb.r < s.rb.size

theorem consume_inside {s : ISt α} (h : Inside s) : ∃ s', consume s = .ok s' ∧ Inside s' ∧ s'.rb.size = s.rb.size ∧ s'.rb.w = s.rb.w ∧ s'.rb.buf = s.rb.buf ∧ s'.acc = s.acc := by
  by_cases hl : getLength s.rb = 0
  · exact ⟨s, by simp [consume, hl], h, rfl, rfl, rfl, rfl⟩
  · obtain ⟨v, hv⟩ : ∃ v, s.rb.buf[s.rb.r]? = some v := by
      have := h.hlen; have := h.hr
      exact ⟨_, List.getElem?_eq_getElem (by omega)⟩
    refine ⟨{ s with rb := { s.rb with r := wrap s.rb.size (s.rb.r + 1) }, out := s.out ++ [v] }, by simp [consume, hl, read, cGet, hv], ⟨h.hlen, ?_⟩, rfl, rfl, rfl, rfl⟩
    have := h.hr
    simp only [wrap]
    split <;> omega

theorem consumeN_inside (n : Nat) {s : ISt α} (h : Inside s) :
    ∃ s', consumeN s n = .ok s' ∧ Inside s' ∧ s'.rb.size = s.rb.size ∧ s'.rb.w = s.rb.w ∧ s'.rb.buf = s.rb.buf ∧ s'.acc = s.acc := by
  induction n generalizing s with
  | zero => exact ⟨s, rfl, h, rfl, rfl, rfl, rfl⟩
  | succ n ih =>
    obtain ⟨s1, e1, i1, z1, w1, b1, a1⟩ := consume_inside h
    obtain ⟨s2, e2, i2, z2, w2, b2, a2⟩ := ih i1
    exact ⟨s2, by simp [consumeN, e1, e2], i2, z2.trans z1, w2.trans w1, b2.trans b1, a2.trans a1⟩

theorem consumeN_add {s s1 : ISt α} {a : Nat} (b : Nat) (h : consumeN s a = .ok s1) : consumeN s (a + b) = consumeN s1 b := by
  induction a generalizing s with
  | zero => simp only [consumeN] at h; cases h; rw [Nat.zero_add]
  | succ a ih =>
    simp only [consumeN] at h
    cases hc : consume s with
    | ub => rw [hc] at h; cases h
    | ok s' =>
      rw [hc] at h
      simp only [Res.bind_ok] at h
      rw [Nat.succ_add, consumeN, hc, Res.bind_ok, ih h]

/-- The handler does not look at what has been accepted. -/
theorem consumeN_acc (l : List α) (n : Nat) {s s' : ISt α} (h : consumeN s n = .ok s') : consumeN { s with acc := l } n = .ok { s' with acc := l } := by
  induction n generalizing s with
  | zero => simp only [consumeN] at h; cases h; rfl
  | succ n ih =>
    simp only [consumeN] at h ⊢
    cases hc : consume s with
    | ub => rw [hc] at h; cases h
    | ok s1 =>
      rw [hc] at h
      simp only [Res.bind_ok] at h
      have : consume { s with acc := l } = .ok { s1 with acc := l } := by
        simp only [consume] at hc ⊢
        split at hc
        · next hz => cases hc; rw [if_pos hz]
        · next hz =>
          rw [if_neg hz]
          cases hg : read s.rb with
          | ub => rw [hg] at hc; cases hc
          | ok p => rw [hg] at hc; cases hc; rfl
      rw [this, Res.bind_ok]
      exact ih h

/-- A handler that finds the offset `W` in `_writePtr`. -/
theorem consumeAtN_at (base W n : Nat) {s s' : ISt α} (h : consumeN (atW W s) n = .ok s') : consumeAtN base (base + W) s n = .ok (atW s.rb.w s') := by
  induction n generalizing s with
  | zero => simp only [consumeN] at h; cases h; rfl
  | succ n ih =>
    simp only [consumeN] at h
    simp only [consumeAtN]
    rw [consume_eq base] at h
    have key : ∀ t, consumeAt base (base + W) (atW W s) = .ok t → ∃ u, consumeAt base (base + W) s = .ok u ∧ t = atW W u ∧ u.rb.w = s.rb.w := by
      intro t ht
      simp only [consumeAt] at ht ⊢
      have hl : lengthAt base (atW W s).rb (base + W) (base + W) = lengthAt base s.rb (base + W) (base + W) := rfl
      rw [hl] at ht
      split at ht
      · next hz => cases ht; rw [if_pos hz]; exact ⟨s, rfl, rfl, rfl⟩
      · next hz =>
        rw [if_neg hz]
        simp only [read] at ht ⊢
        have hb : cGet (atW W s).rb.buf (atW W s).rb.r = cGet s.rb.buf s.rb.r := rfl
        rw [hb] at ht
        cases hg : cGet s.rb.buf s.rb.r with
        | ub => rw [hg] at ht; cases ht
        | ok v => rw [hg] at ht; cases ht; exact ⟨_, rfl, rfl, rfl⟩
    cases hc : consumeAt base (base + (atW W s).rb.w) (atW W s) with
    | ub => rw [hc] at h; cases h
    | ok t =>
      rw [hc] at h
      simp only [Res.bind_ok] at h
      obtain ⟨u, e1, rfl, e3⟩ := key t hc
      rw [e1, Res.bind_ok, ih h, e3]

theorem writeIsr_eq (s : ISt α) (v : α) (n1 n2 n3 : Nat) (hf : isFull s.rb = false) {s1 s2 s3 : ISt α} (e1 : consumeN s n1 = .ok s1)
    (hw : s1.rb.w < s1.rb.buf.length)
    (e2 : consumeN { s1 with rb := { s1.rb with buf := s1.rb.buf.set s1.rb.w v } } n2 = .ok s2)
    (e3 : consumeN { s2 with rb := { s2.rb with w := s2.rb.w + 1 }, acc := s2.acc ++ [v] } n3 = .ok s3) :
    writeIsr s v n1 n2 n3 = .ok { s3 with rb := { s3.rb with w := wrap s3.rb.size s3.rb.w } } := by
  simp only [writeIsr, hf, Bool.false_eq_true, if_false, e1, Res.bind_ok, cSet_ok v hw, e2, e3]

/-- The values of the writes. -/
def WAct.values : List (WAct α) → List α := fun l => l.filterMap fun
  | .write v _ _ _ => some v
  | .isr _ => none

def WTAct.values : List (WTAct α) → List α := fun l => l.filterMap fun
  | .write v _ => some v
  | .isr _ => none

/-- The handler runs that find the pointer between its increment and its wrap: those after the increment, and, while the store is in progress, those before the byte that
    differs is stored for the wrap (high byte first) or after it is stored for the increment (low byte first). -/
def WGaps.window (o : Order) (g : WGaps) : Nat := g.past + if o.storeLow then g.inc else g.wrap

theorem writeTorn_page (o : Order) (base : Nat) {s : ISt α} (v : α) (g : WGaps) (hp : base % 256 + s.rb.size < 256) (h : Inside s) (hw : s.rb.w < s.rb.size) :
    ∃ acts s' b, writeTorn o base s v g = .ok (s', b) ∧ wrun s acts = .ok s' ∧ WAct.values acts = [v] ∧ Inside s' ∧ s'.rb.w < s'.rb.size ∧ s'.rb.size = s.rb.size ∧
      ∀ x n1 n2 n3, WAct.write x n1 n2 n3 ∈ acts → n3 ≤ g.window o := by
  obtain ⟨s0, e0, i0, z0, w0, b0, a0⟩ := consumeN_inside g.load h
  have hr := h.hr; have hr0 := i0.hr
  have hload : tornLoad o.loadLow (base + s.rb.r) (base + s0.rb.r) = if o.loadLow then base + s.rb.r else base + s0.rb.r :=
    tornLoad_page _ (by omega)
  -- the test
  have htest : isFullAt base s0.rb (tornLoad o.loadLow (base + s.rb.r) (base + s0.rb.r)) = if o.loadLow then isFull s.rb else isFull s0.rb := by
    rw [hload]
    split
    · rw [← isFullAt_eq base s.rb]
      simp only [isFullAt, w0, z0]
    · exact isFullAt_eq base s0.rb
  by_cases hf : isFullAt base s0.rb (tornLoad o.loadLow (base + s.rb.r) (base + s0.rb.r)) = true
  · rw [htest] at hf
    have e : writeTorn o base s v g = .ok (s0, false) := by
      simp only [writeTorn, e0, Res.bind_ok, htest, hf, if_true]
    split at hf
    · refine ⟨[.write v 0 0 0, .isr g.load], s0, false, e, ?_, rfl, i0, by omega, z0, by simp; intros; omega⟩
      simp only [wrun, writeIsr, hf, if_true, Res.bind_ok, e0]
    · refine ⟨[.isr g.load, .write v 0 0 0], s0, false, e, ?_, rfl, i0, by omega, z0, by simp; intros; omega⟩
      simp only [wrun, writeIsr, hf, if_true, Res.bind_ok, e0]
  · have hf' : (if o.loadLow then isFull s.rb else isFull s0.rb) = false := by rw [← htest]; simpa using hf
    obtain ⟨s1, e1, i1, z1, w1, b1, a1⟩ := consumeN_inside g.test i0
    have hl1 := i1.hlen
    have hw1 : s1.rb.w < s1.rb.buf.length := by omega
    have i1' : Inside { s1 with rb := { s1.rb with buf := s1.rb.buf.set s1.rb.w v } } := ⟨by simpa using i1.hlen, i1.hr⟩
    obtain ⟨s3, e3, i3, z3, w3, b3, a3⟩ := consumeN_inside g.slot i1'
    simp only at z3 w3 b3 a3
    have hw3 : s3.rb.w + 1 ≤ s3.rb.size := by omega
    -- the increment
    have hinc : tornStore o.storeLow (base + s3.rb.w) (base + s3.rb.w + 1) = if o.storeLow then base + s3.rb.w + 1 else base + s3.rb.w :=
      tornStore_page _ (by omega)
    -- states of the undivided model before and after the increment
    obtain ⟨n2, m3, s5, t5, hn2, hm3, f2, f3, i5, z5, w5, e5⟩ : ∃ n2 m3 s5 t5, (n2 = if o.storeLow then g.slot else g.slot + g.inc) ∧
        (m3 = if o.storeLow then g.inc else 0) ∧
        consumeN { s1 with rb := { s1.rb with buf := s1.rb.buf.set s1.rb.w v } } n2 = .ok s5 ∧
        consumeN { s5 with rb := { s5.rb with w := s5.rb.w + 1 }, acc := s5.acc ++ [v] } m3 = .ok t5 ∧ Inside t5 ∧ t5.rb.size = s3.rb.size ∧ t5.rb.w = s3.rb.w + 1 ∧
        consumeAtN base (tornStore o.storeLow (base + s3.rb.w) (base + s3.rb.w + 1)) { s3 with acc := s3.acc ++ [v] } g.inc = .ok (atW s3.rb.w t5) := by
      rw [hinc]
      by_cases ho : o.storeLow = true
      · have i4 : Inside { s3 with rb := { s3.rb with w := s3.rb.w + 1 }, acc := s3.acc ++ [v] } := ⟨i3.hlen, i3.hr⟩
        obtain ⟨t5, e5, i5, z5, w5, b5, a5⟩ := consumeN_inside g.inc i4
        refine ⟨g.slot, g.inc, s3, t5, by simp [ho], by simp [ho], e3, e5, i5, z5, w5, ?_⟩
        rw [if_pos ho, Nat.add_assoc]
        exact consumeAtN_at base (s3.rb.w + 1) g.inc (s := { s3 with acc := s3.acc ++ [v] }) e5
      · obtain ⟨s5, e5, i5, z5, w5, b5, a5⟩ := consumeN_inside g.inc i3
        refine ⟨g.slot + g.inc, 0, s5, { s5 with rb := { s5.rb with w := s5.rb.w + 1 }, acc := s5.acc ++ [v] }, by simp [ho], by simp [ho],
          by rw [consumeN_add _ e3]; exact e5, rfl, ⟨i5.hlen, i5.hr⟩, z5, by show s5.rb.w + 1 = _; rw [w5], ?_⟩
        rw [if_neg ho]
        have := consumeN_acc (s3.acc ++ [v]) _ e5
        rw [consumeN_eq base] at this
        simp only at this
        rw [this, a5]
        simp only [atW, ← w5]
    obtain ⟨s7, e7, i7, z7, w7, b7, a7⟩ := consumeN_inside g.past i5
    have f3' := consumeN_add g.past f3
    rw [e7] at f3'
    have back : ({ atW s3.rb.w t5 with rb := { (atW s3.rb.w t5).rb with w := (atW s3.rb.w t5).rb.w + 1 } } : ISt α) = t5 := by
      simp only [atW, ← w5]
    by_cases hwr : s7.rb.w ≥ s7.rb.size
    · -- the wrap
      have hwrap : tornStore o.storeLow (base + s7.rb.w) base = if o.storeLow then base else base + s7.rb.w := tornStore_page _ (by omega)
      obtain ⟨n3, n4, s8, s9, hn3, f4, f5, i9, z9, w9, e8⟩ : ∃ n3 n4 s8 s9, (n3 ≤ g.window o) ∧
          consumeN { s5 with rb := { s5.rb with w := s5.rb.w + 1 }, acc := s5.acc ++ [v] } n3 = .ok s8 ∧
          consumeN { s8 with rb := { s8.rb with w := wrap s8.rb.size s8.rb.w } } n4 = .ok s9 ∧ Inside s9 ∧ s9.rb.size = s7.rb.size ∧ s9.rb.w = 0 ∧
          ∃ u, consumeAtN base (tornStore o.storeLow (base + s7.rb.w) base) s7 g.wrap = .ok u ∧ ({ u with rb := { u.rb with w := 0 } } : ISt α) = s9 := by
        rw [hwrap]
        by_cases ho : o.storeLow = true
        · have hw0 : wrap s7.rb.size s7.rb.w = 0 := by rw [wrap, if_pos (by omega)]
          have i8 : Inside (atW 0 s7) := ⟨i7.hlen, i7.hr⟩
          obtain ⟨s9, e9, i9, z9, w9, b9, a9⟩ := consumeN_inside g.wrap i8
          refine ⟨m3 + g.past, g.wrap, s7, s9, ?_, f3', by rw [hw0]; exact e9, i9, z9, w9, atW s7.rb.w s9, ?_, ?_⟩
          · simp only [WGaps.window, hm3, ho, if_true]; omega
          · rw [if_pos ho]
            exact consumeAtN_at base 0 g.wrap e9
          · have : s9.rb.w = 0 := w9
            simp only [atW, ← this]
        · obtain ⟨s8, e8, i8, z8, w8, b8, a8⟩ := consumeN_inside g.wrap i7
          have hw0 : wrap s8.rb.size s8.rb.w = 0 := by rw [wrap, if_pos (by omega)]
          refine ⟨m3 + g.past + g.wrap, 0, s8, { s8 with rb := { s8.rb with w := 0 } }, ?_, by rw [consumeN_add _ f3']; exact e8, by rw [hw0]; rfl,
            ⟨i8.hlen, i8.hr⟩, z8, rfl, s8, ?_, rfl⟩
          · simp only [WGaps.window, hm3, ho]; simp
          · rw [if_neg ho, ← consumeN_eq]; exact e8
      obtain ⟨u, e8, hu⟩ := e8
      have e : writeTorn o base s v g = .ok (s9, true) := by
        simp only [writeTorn, e0, Res.bind_ok, hf, e1, cSet_ok v hw1, e3, e5]
        rw [back]
        simp only [e7, Res.bind_ok, if_pos hwr, e8, hu]
        rfl
      have tail : ∀ n1 t, consumeN t n1 = .ok s1 → isFull t.rb = false → wrun t [.write v n1 n2 n3, .isr n4] = .ok s9 := by
        intro n1 t ht hft
        simp only [wrun, writeIsr_eq t v n1 n2 n3 hft ht hw1 f2 f4, Res.bind_ok, f5]
      split at hf'
      · refine ⟨[.write v (g.load + g.test) n2 n3, .isr n4], s9, true, e, tail _ s (by rw [consumeN_add _ e0]; exact e1) hf', rfl, i9, by have := i9.hr; omega, by omega, ?_⟩
        intro x a b c hm
        simp only [List.mem_cons, WAct.write.injEq, List.not_mem_nil, or_false, reduceCtorEq] at hm
        obtain ⟨-, -, -, rfl⟩ := hm
        exact hn3
      · refine ⟨[.isr g.load, .write v g.test n2 n3, .isr n4], s9, true, e, ?_, rfl, i9, by have := i9.hr; omega, by omega, ?_⟩
        · rw [wrun, e0, Res.bind_ok]
          exact tail _ s0 e1 hf'
        · intro x a b c hm
          simp only [List.mem_cons, WAct.write.injEq, List.not_mem_nil, or_false, reduceCtorEq, false_or] at hm
          obtain ⟨-, -, -, rfl⟩ := hm
          exact hn3
    · have hw7 : wrap s7.rb.size s7.rb.w = s7.rb.w := by rw [wrap, if_neg hwr]
      have hn3 : m3 + g.past ≤ g.window o := by
        simp only [WGaps.window, hm3]; split <;> omega
      have e : writeTorn o base s v g = .ok (s7, true) := by
        simp only [writeTorn, e0, Res.bind_ok, hf, e1, cSet_ok v hw1, e3, e5]
        rw [back]
        simp only [e7, Res.bind_ok, if_neg hwr]
        rfl
      have tail : ∀ n1 t, consumeN t n1 = .ok s1 → isFull t.rb = false → wrun t [.write v n1 n2 (m3 + g.past)] = .ok s7 := by
        intro n1 t ht hft
        simp only [wrun, writeIsr_eq t v n1 n2 (m3 + g.past) hft ht hw1 f2 f3', Res.bind_ok, hw7]
      split at hf'
      · refine ⟨[.write v (g.load + g.test) n2 (m3 + g.past)], s7, true, e, tail _ s (by rw [consumeN_add _ e0]; exact e1) hf', rfl, i7, by omega, by omega, ?_⟩
        intro x a b c hm
        simp only [List.mem_cons, WAct.write.injEq, List.not_mem_nil, or_false] at hm
        obtain ⟨-, -, -, rfl⟩ := hm
        exact hn3
      · refine ⟨[.isr g.load, .write v g.test n2 (m3 + g.past)], s7, true, e, ?_, rfl, i7, by omega, by omega, ?_⟩
        · rw [wrun, e0, Res.bind_ok]
          exact tail _ s0 e1 hf'
        · intro x a b c hm
          simp only [List.mem_cons, WAct.write.injEq, List.not_mem_nil, or_false, reduceCtorEq, false_or] at hm
          obtain ⟨-, -, -, rfl⟩ := hm
          exact hn3

theorem wrun_append (as bs : List (WAct α)) {s s' : ISt α} (h : wrun s as = .ok s') : wrun s (as ++ bs) = wrun s' bs := by
  induction as generalizing s with
  | nil => simp only [wrun] at h; cases h; rfl
  | cons a as ih =>
    cases a with
    | write v n1 n2 n3 =>
      simp only [wrun, List.cons_append] at h ⊢
      cases hc : writeIsr s v n1 n2 n3 with
      | ub => rw [hc] at h; cases h
      | ok t => rw [hc] at h; exact ih h
    | isr n =>
      simp only [wrun, List.cons_append] at h ⊢
      cases hc : consumeN s n with
      | ub => rw [hc] at h; cases h
      | ok t => rw [hc] at h; exact ih h

theorem wtrun_page (o : Order) (base : Nat) (as : List (WTAct α)) {s : ISt α} (hp : base % 256 + s.rb.size < 256) (h : Inside s) (hw : s.rb.w < s.rb.size) :
    ∃ acts s', wtrun o base s as = .ok s' ∧ wrun s acts = .ok s' ∧ WAct.values acts = WTAct.values as ∧
      ∀ x n1 n2 n3, WAct.write x n1 n2 n3 ∈ acts → ∃ y g, WTAct.write y g ∈ as ∧ n3 ≤ g.window o := by
  induction as generalizing s with
  | nil => exact ⟨[], s, rfl, rfl, rfl, by simp⟩
  | cons a as ih =>
    cases a with
    | write v g =>
      obtain ⟨acts, s1, b, e1, r1, v1, i1, w1, z1, k1⟩ := writeTorn_page o base v g hp h hw
      obtain ⟨acts2, s2, e2, r2, v2, k2⟩ := ih (by omega) i1 w1
      refine ⟨acts ++ acts2, s2, by simp only [wtrun, e1, Res.bind_ok, e2], by rw [wrun_append _ _ r1, r2], ?_, ?_⟩
      · simp only [WAct.values, WTAct.values, List.filterMap_append, List.filterMap_cons] at v1 v2 ⊢
        rw [v1, v2]
        rfl
      · intro x n1 n2 n3 hm
        rw [List.mem_append] at hm
        rcases hm with hm | hm
        · exact ⟨v, g, by simp, k1 x n1 n2 n3 hm⟩
        · obtain ⟨y, g', h1, h2⟩ := k2 x n1 n2 n3 hm
          exact ⟨y, g', by simp [h1], h2⟩
    | isr n =>
      obtain ⟨s1, e1, i1, z1, w1, b1, a1⟩ := consumeN_inside n h
      obtain ⟨acts2, s2, e2, r2, v2, k2⟩ := ih (by omega) i1 (by omega)
      refine ⟨.isr n :: acts2, s2, by simp only [wtrun, e1, Res.bind_ok, e2], by simp only [wrun, e1, Res.bind_ok, r2], ?_, ?_⟩
      · simpa [WAct.values, WTAct.values] using v2
      · intro x n1 n2 n3 hm
        simp only [List.mem_cons, reduceCtorEq, false_or] at hm
        obtain ⟨y, g', h1, h2⟩ := k2 x n1 n2 n3 hm
        exact ⟨y, g', by simp [h1], h2⟩

/-! ### Main as the reader -/

/-- Enough for every access of the writing handler to be inside the array. -/
structure InsideW (s : ISt α) : Prop where
  hlen : s.rb.buf.length = s.rb.size
  hw : s.rb.w < s.rb.size

theorem produce_inside (v : α) {s : ISt α} (h : InsideW s) : ∃ s', produce s v = .ok s' ∧ InsideW s' ∧ s'.rb.size = s.rb.size ∧ s'.rb.r = s.rb.r ∧ s'.out = s.out := by
  by_cases hf : isFull s.rb = true
  · exact ⟨s, by simp [produce, write, hf], h, rfl, rfl, rfl⟩
  · have := h.hlen; have := h.hw
    refine ⟨{ s with rb := { s.rb with buf := s.rb.buf.set s.rb.w v, w := wrap s.rb.size (s.rb.w + 1) }, acc := s.acc ++ [v] },
      by simp [produce, write, hf, cSet_ok v (show s.rb.w < s.rb.buf.length by omega)], ⟨by simpa using h.hlen, ?_⟩, rfl, rfl, rfl⟩
    simp only [wrap]
    split <;> omega

theorem produceL_inside (l : List α) {s : ISt α} (h : InsideW s) : ∃ s', produceL s l = .ok s' ∧ InsideW s' ∧ s'.rb.size = s.rb.size ∧ s'.rb.r = s.rb.r ∧ s'.out = s.out := by
  induction l generalizing s with
  | nil => exact ⟨s, rfl, h, rfl, rfl, rfl⟩
  | cons v l ih =>
    obtain ⟨s1, e1, i1, z1, r1, o1⟩ := produce_inside v h
    obtain ⟨s2, e2, i2, z2, r2, o2⟩ := ih i1
    exact ⟨s2, by simp [produceL, e1, e2], i2, z2.trans z1, r2.trans r1, o2.trans o1⟩

theorem produceL_append {s s1 : ISt α} {a : List α} (b : List α) (h : produceL s a = .ok s1) : produceL s (a ++ b) = produceL s1 b := by
  induction a generalizing s with
  | nil => simp only [produceL] at h; cases h; rfl
  | cons v a ih =>
    simp only [produceL] at h
    cases hc : produce s v with
    | ub => rw [hc] at h; cases h
    | ok s' =>
      rw [hc] at h
      simp only [Res.bind_ok] at h
      rw [List.cons_append, produceL, hc, Res.bind_ok, ih h]

/-- The handler does not look at what has been returned. -/
theorem produceL_out (x : List α) (l : List α) {s s' : ISt α} (h : produceL s l = .ok s') : produceL { s with out := x } l = .ok { s' with out := x } := by
  induction l generalizing s with
  | nil => simp only [produceL] at h; cases h; rfl
  | cons v l ih =>
    simp only [produceL] at h ⊢
    cases hw : write s.rb v with
    | ub => simp only [produce, hw] at h; cases h
    | ok p =>
      simp only [produce, hw, Res.bind_ok] at h ⊢
      exact ih h

/-- The state with the offset `R` in `_readPtr`. -/
def setR (R : Nat) (s : ISt α) : ISt α := { s with rb := { s.rb with r := R } }

/-- A handler that finds the offset `R` in `_readPtr`. -/
theorem produceAtL_at (base R : Nat) (l : List α) {s s' : ISt α} (h : produceL (setR R s) l = .ok s') : produceAtL base (base + R) s l = .ok (setR s.rb.r s') := by
  induction l generalizing s with
  | nil => simp only [produceL] at h; cases h; rfl
  | cons v l ih =>
    simp only [produceL] at h
    simp only [produceAtL]
    rw [produce_eq base] at h
    have key : ∀ t, produceAt base (base + R) (setR R s) v = .ok t → ∃ u, produceAt base (base + R) s v = .ok u ∧ t = setR R u ∧ u.rb.r = s.rb.r := by
      intro t ht
      simp only [produceAt] at ht ⊢
      have hl : isFullAt base (setR R s).rb (base + R) = isFullAt base s.rb (base + R) := rfl
      rw [hl] at ht
      split at ht
      · next hz => cases ht; rw [if_pos hz]; exact ⟨s, rfl, rfl, rfl⟩
      · next hz =>
        rw [if_neg hz]
        have hb : cSet (setR R s).rb.buf (setR R s).rb.w v = cSet s.rb.buf s.rb.w v := rfl
        rw [hb] at ht
        cases hg : cSet s.rb.buf s.rb.w v with
        | ub => rw [hg] at ht; cases ht
        | ok b => rw [hg] at ht; cases ht; exact ⟨_, rfl, rfl, rfl⟩
    cases hc : produceAt base (base + (setR R s).rb.r) (setR R s) v with
    | ub => rw [hc] at h; cases h
    | ok t =>
      rw [hc] at h
      simp only [Res.bind_ok] at h
      obtain ⟨u, e1, rfl, e3⟩ := key t hc
      rw [e1, Res.bind_ok, ih h, e3]

/-- The length from the offsets found at the two loads. -/
def lengthOf (s : RB α) (w1 w2 : Nat) : Nat := if w1 ≥ s.r then toU 16 ((w2 : Int) - s.r) else toU 16 ((s.size : Int) - ((s.r : Int) - w2))

theorem lengthAt_offsets (base : Nat) (s : RB α) (w1 w2 : Nat) : lengthAt base s (base + w1) (base + w2) = lengthOf s w1 w2 := by
  unfold lengthAt lengthOf
  have e1 : (((base + w2 : Nat) : Int) - ((base + s.r : Nat) : Int)) = (w2 : Int) - s.r := by omega
  have e2 : ((s.size : Int) - (((base + s.r : Nat) : Int) - ((base + w2 : Nat) : Int))) = (s.size : Int) - ((s.r : Int) - w2) := by omega
  rw [e1, e2]
  by_cases h : w1 ≥ s.r
  · rw [if_pos h, if_pos (by omega)]
  · rw [if_neg h, if_neg (by omega)]

theorem readIsr_zero {s s1 : ISt α} (l1 l2 l3 l4 : List α) (e1 : produceL s l1 = .ok s1) (hr : s1.rb.r = s.rb.r) (h0 : lengthOf s1.rb s.rb.w s1.rb.w = 0) :
    readIsr s l1 l2 l3 l4 = .ok s1 := by
  simp only [lengthOf, hr] at h0
  simp only [readIsr, e1, Res.bind_ok, decide_eq_true_eq, hr, h0, if_true]

theorem readIsr_eq {s s1 s2 s3 s4 : ISt α} (l1 l2 l3 l4 : List α) (e1 : produceL s l1 = .ok s1) (hr : s1.rb.r = s.rb.r) (h0 : lengthOf s1.rb s.rb.w s1.rb.w ≠ 0)
    (e2 : produceL s1 l2 = .ok s2) {v : α} (hv : cGet s2.rb.buf s2.rb.r = .ok v) (e3 : produceL s2 l3 = .ok s3)
    (e4 : produceL (setR (s3.rb.r + 1) s3) l4 = .ok s4) :
    readIsr s l1 l2 l3 l4 = .ok { s4 with rb := { s4.rb with r := wrap s4.rb.size s4.rb.r }, out := s4.out ++ [v] } := by
  simp only [lengthOf, hr] at h0
  simp only [setR] at e4
  simp only [readIsr, e1, Res.bind_ok, decide_eq_true_eq, hr, if_neg h0, e2, hv, e3, e4]

/-- The number of reads. -/
def RAct.reads : List (RAct α) → Nat := fun l => l.countP fun
  | .read .. => true
  | .isr _ => false

def RTAct.reads : List (RTAct α) → Nat := fun l => l.countP fun
  | .read _ => true
  | .isr _ => false

/-- As `WGaps.window`. -/
def RGaps.window (o : Order) (g : RGaps α) : Nat := g.past.length + if o.storeLow then g.inc.length else g.wrap.length

theorem readTorn_page (o : Order) (base : Nat) {s : ISt α} (g : RGaps α) (hp : base % 256 + s.rb.size < 256) (h : InsideW s) (hr : s.rb.r < s.rb.size) :
    ∃ acts s', readTorn o base s g = .ok s' ∧ rrun s acts = .ok s' ∧ RAct.reads acts = 1 ∧ InsideW s' ∧ s'.rb.r < s'.rb.size ∧ s'.rb.size = s.rb.size ∧
      ∀ l1 l2 l3 l4, RAct.read l1 l2 l3 l4 ∈ acts → l4.length ≤ g.window o := by
  obtain ⟨s1, e1, i1, z1, r1, o1⟩ := produceL_inside g.load1 h
  obtain ⟨s2, e2, i2, z2, r2, o2⟩ := produceL_inside g.between i1
  obtain ⟨s3, e3, i3, z3, r3, o3⟩ := produceL_inside g.load2 i2
  have hw := h.hw; have hw1 := i1.hw; have hw2 := i2.hw; have hw3 := i3.hw
  have t1 : tornLoad o.loadLow (base + s.rb.w) (base + s1.rb.w) = if o.loadLow then base + s.rb.w else base + s1.rb.w := tornLoad_page _ (by omega)
  have t2 : tornLoad o.loadLow (base + s2.rb.w) (base + s3.rb.w) = if o.loadLow then base + s2.rb.w else base + s3.rb.w := tornLoad_page _ (by omega)
  have hlen : lengthTorn o base s g = .ok (s3, if o.loadLow then lengthOf s2.rb s.rb.w s2.rb.w else lengthOf s3.rb s1.rb.w s3.rb.w) := by
    simp only [lengthTorn, e1, e2, e3, Res.bind_ok, t1, t2]
    split
    · rw [lengthAt_offsets]
      simp only [lengthOf, r3, z3]
    · rw [lengthAt_offsets]
  by_cases h0 : (if o.loadLow then lengthOf s2.rb s.rb.w s2.rb.w else lengthOf s3.rb s1.rb.w s3.rb.w) = 0
  · have e : readTorn o base s g = .ok s3 := by simp only [readTorn, hlen, Res.bind_ok, h0, if_true]
    split at h0
    · refine ⟨[.read (g.load1 ++ g.between) [] [] [], .isr g.load2], s3, e, ?_, rfl, i3, by omega, by omega, by simp; intros; subst_vars; simp⟩
      simp only [rrun, readIsr_zero (s1 := s2) _ [] [] [] (by rw [produceL_append _ e1]; exact e2) (by omega) h0, Res.bind_ok, e3]
    · refine ⟨[.isr g.load1, .read (g.between ++ g.load2) [] [] []], s3, e, ?_, rfl, i3, by omega, by omega, by simp; intros; subst_vars; simp⟩
      simp only [rrun, e1, readIsr_zero (s1 := s3) _ [] [] [] (by rw [produceL_append _ e2]; exact e3) (by omega) h0, Res.bind_ok]
  · obtain ⟨s4, e4, i4, z4, r4, o4⟩ := produceL_inside g.test i3
    have hl4 := i4.hlen
    obtain ⟨v, hv⟩ : ∃ v, cGet s4.rb.buf s4.rb.r = .ok v := by
      have : s4.rb.r < s4.rb.buf.length := by omega
      exact ⟨s4.rb.buf[s4.rb.r], by simp only [cGet, List.getElem?_eq_getElem this]⟩
    obtain ⟨s5, e5, i5, z5, r5, o5⟩ := produceL_inside g.slot i4
    have hinc : tornStore o.storeLow (base + s5.rb.r) (base + s5.rb.r + 1) = if o.storeLow then base + s5.rb.r + 1 else base + s5.rb.r :=
      tornStore_page _ (by omega)
    obtain ⟨l3, m4, s6, t6, hm4, f3, f4, i6, z6, r6, e6⟩ : ∃ l3 m4 s6 t6, (m4 = if o.storeLow then g.inc else []) ∧ produceL s4 l3 = .ok s6 ∧
        produceL (setR (s6.rb.r + 1) s6) m4 = .ok t6 ∧ InsideW t6 ∧ t6.rb.size = s5.rb.size ∧ t6.rb.r = s5.rb.r + 1 ∧
        produceAtL base (tornStore o.storeLow (base + s5.rb.r) (base + s5.rb.r + 1)) s5 g.inc = .ok (setR s5.rb.r t6) := by
      rw [hinc]
      by_cases ho : o.storeLow = true
      · have i5' : InsideW (setR (s5.rb.r + 1) s5) := ⟨i5.hlen, i5.hw⟩
        obtain ⟨t6, e6, i6, z6, r6, o6⟩ := produceL_inside g.inc i5'
        refine ⟨g.slot, g.inc, s5, t6, by simp [ho], e5, e6, i6, z6, r6, ?_⟩
        rw [if_pos ho, Nat.add_assoc]
        exact produceAtL_at base (s5.rb.r + 1) g.inc e6
      · obtain ⟨s6, e6, i6, z6, r6, o6⟩ := produceL_inside g.inc i5
        refine ⟨g.slot ++ g.inc, [], s6, setR (s6.rb.r + 1) s6, by simp [ho], by rw [produceL_append _ e5]; exact e6, rfl, ⟨i6.hlen, i6.hw⟩, z6,
          by show s6.rb.r + 1 = _; rw [r6], ?_⟩
        rw [if_neg ho, ← produceL_eq, e6]
        simp only [setR, ← r6]
    obtain ⟨s7, e7, i7, z7, r7, o7⟩ := produceL_inside g.past i6
    have f4' := produceL_append g.past f4
    rw [e7] at f4'
    have back : ({ setR s5.rb.r t6 with rb := { (setR s5.rb.r t6).rb with r := (setR s5.rb.r t6).rb.r + 1 } } : ISt α) = t6 := by
      simp only [setR, ← r6]
    -- the call up to its wrap, given its end
    have finish : ∀ l4 l5 (t t' : ISt α), l4.length ≤ g.window o → produceL (setR (s6.rb.r + 1) s6) l4 = .ok t →
        produceL { t with rb := { t.rb with r := wrap t.rb.size t.rb.r }, out := t.out ++ [v] } l5 = .ok t' →
        readTorn o base s g = .ok t' → InsideW t' → t'.rb.r < t'.rb.size → t'.rb.size = s.rb.size →
        ∃ acts s', readTorn o base s g = .ok s' ∧ rrun s acts = .ok s' ∧ RAct.reads acts = 1 ∧ InsideW s' ∧ s'.rb.r < s'.rb.size ∧ s'.rb.size = s.rb.size ∧
          ∀ l1 l2 l3 l4, RAct.read l1 l2 l3 l4 ∈ acts → l4.length ≤ g.window o := by
      intro l4 l5 t t' hl4 ht ht' he hi hrr hz
      by_cases hlo : o.loadLow = true
      · rw [if_pos hlo] at h0
        refine ⟨[.read (g.load1 ++ g.between) (g.load2 ++ g.test) l3 l4, .isr l5], t', he, ?_, rfl, hi, hrr, hz, ?_⟩
        · simp only [rrun, readIsr_eq (g.load1 ++ g.between) (g.load2 ++ g.test) l3 l4 (by rw [produceL_append _ e1]; exact e2) (by omega) h0
            (by rw [produceL_append _ e3]; exact e4) hv f3 ht, Res.bind_ok, ht']
        · intro a b c d hm
          simp only [List.mem_cons, RAct.read.injEq, List.not_mem_nil, or_false, reduceCtorEq] at hm
          obtain ⟨-, -, -, rfl⟩ := hm
          exact hl4
      · rw [if_neg hlo] at h0
        refine ⟨[.isr g.load1, .read (g.between ++ g.load2) g.test l3 l4, .isr l5], t', he, ?_, rfl, hi, hrr, hz, ?_⟩
        · simp only [rrun, e1, readIsr_eq (g.between ++ g.load2) g.test l3 l4 (by rw [produceL_append _ e2]; exact e3) (by omega) h0 e4 hv f3 ht, Res.bind_ok, ht']
        · intro a b c d hm
          simp only [List.mem_cons, RAct.read.injEq, List.not_mem_nil, or_false, reduceCtorEq, false_or] at hm
          obtain ⟨-, -, -, rfl⟩ := hm
          exact hl4
    by_cases hwr : s7.rb.r ≥ s7.rb.size
    · have hwrap : tornStore o.storeLow (base + s7.rb.r) base = if o.storeLow then base else base + s7.rb.r := tornStore_page _ (by omega)
      by_cases ho : o.storeLow = true
      · have hw0 : wrap s7.rb.size s7.rb.r = 0 := by rw [wrap, if_pos (by omega)]
        have i8 : InsideW (setR 0 s7) := ⟨i7.hlen, i7.hw⟩
        obtain ⟨s8, e8, i8', z8, r8, o8⟩ := produceL_inside g.wrap i8
        have z8' : s8.rb.size = s7.rb.size := z8
        have r8' : s8.rb.r = 0 := r8
        have hu := produceAtL_at base 0 g.wrap e8
        refine finish (m4 ++ g.past) g.wrap s7 { s8 with out := s8.out ++ [v] } ?_ f4' ?_ ?_ ⟨i8'.hlen, i8'.hw⟩ ?_ ?_
        · simp only [RGaps.window, hm4, ho, if_true, List.length_append]; omega
        · rw [hw0]
          have := produceL_out (s7.out ++ [v]) _ e8
          have ho8 : s8.out = s7.out := o8
          rw [ho8]
          exact this
        · simp only [readTorn, hlen, Res.bind_ok, if_neg h0, e4, hv, e5, e6]
          rw [back]
          simp only [e7, Res.bind_ok, if_pos hwr, hwrap, if_pos ho]
          rw [show base = base + 0 from rfl] at hu ⊢
          rw [hu]
          simp only [Res.bind_ok, setR, ← r8']
        · have := i8'.hw
          show s8.rb.r < s8.rb.size
          omega
        · show s8.rb.size = _
          omega
      · obtain ⟨s8, e8, i8, z8, r8, o8⟩ := produceL_inside g.wrap i7
        have hw0 : wrap s8.rb.size s8.rb.r = 0 := by rw [wrap, if_pos (by omega)]
        refine finish (m4 ++ g.past ++ g.wrap) [] s8 { s8 with rb := { s8.rb with r := 0 }, out := s8.out ++ [v] } ?_ (by rw [produceL_append _ f4']; exact e8)
          (by rw [hw0]; rfl) ?_ ⟨i8.hlen, i8.hw⟩ ?_ ?_
        · simp only [RGaps.window, hm4, ho, List.length_append]; simp
        · simp only [readTorn, hlen, Res.bind_ok, if_neg h0, e4, hv, e5, e6]
          rw [back]
          simp only [e7, Res.bind_ok, if_pos hwr, hwrap, if_neg ho, ← produceL_eq, e8]
        · have := i8.hw
          show 0 < s8.rb.size
          omega
        · show s8.rb.size = _
          omega
    · have hw7 : wrap s7.rb.size s7.rb.r = s7.rb.r := by rw [wrap, if_neg hwr]
      refine finish (m4 ++ g.past) [] s7 { s7 with out := s7.out ++ [v] } ?_ f4' (by rw [hw7]; rfl) ?_ ⟨i7.hlen, i7.hw⟩ ?_ ?_
      · simp only [RGaps.window, hm4, List.length_append]
        split
        · omega
        · rw [List.length_nil]; omega
      · simp only [readTorn, hlen, Res.bind_ok, if_neg h0, e4, hv, e5, e6]
        rw [back]
        simp only [e7, Res.bind_ok, if_neg hwr]
      · show s7.rb.r < s7.rb.size
        omega
      · show s7.rb.size = _
        omega

theorem rrun_append (as bs : List (RAct α)) {s s' : ISt α} (h : rrun s as = .ok s') : rrun s (as ++ bs) = rrun s' bs := by
  induction as generalizing s with
  | nil => simp only [rrun] at h; cases h; rfl
  | cons a as ih =>
    cases a with
    | read l1 l2 l3 l4 =>
      simp only [rrun, List.cons_append] at h ⊢
      cases hc : readIsr s l1 l2 l3 l4 with
      | ub => rw [hc] at h; cases h
      | ok t => rw [hc] at h; exact ih h
    | isr n =>
      simp only [rrun, List.cons_append] at h ⊢
      cases hc : produceL s n with
      | ub => rw [hc] at h; cases h
      | ok t => rw [hc] at h; exact ih h

theorem rtrun_page (o : Order) (base : Nat) (as : List (RTAct α)) {s : ISt α} (hp : base % 256 + s.rb.size < 256) (h : InsideW s) (hr : s.rb.r < s.rb.size) :
    ∃ acts s', rtrun o base s as = .ok s' ∧ rrun s acts = .ok s' ∧ RAct.reads acts = RTAct.reads as ∧
      ∀ l1 l2 l3 l4, RAct.read l1 l2 l3 l4 ∈ acts → ∃ g, RTAct.read g ∈ as ∧ l4.length ≤ g.window o := by
  induction as generalizing s with
  | nil => exact ⟨[], s, rfl, rfl, rfl, by simp⟩
  | cons a as ih =>
    cases a with
    | read g =>
      obtain ⟨acts, s1, e1, r1, v1, i1, w1, z1, k1⟩ := readTorn_page o base g hp h hr
      obtain ⟨acts2, s2, e2, r2, v2, k2⟩ := ih (by omega) i1 w1
      refine ⟨acts ++ acts2, s2, by simp only [rtrun, e1, Res.bind_ok, e2], by rw [rrun_append _ _ r1, r2], ?_, ?_⟩
      · simp only [RAct.reads, RTAct.reads, List.countP_append, List.countP_cons] at v1 v2 ⊢
        rw [v1, v2]
        simp; omega
      · intro l1 l2 l3 l4 hm
        rw [List.mem_append] at hm
        rcases hm with hm | hm
        · exact ⟨g, by simp, k1 l1 l2 l3 l4 hm⟩
        · obtain ⟨g', h1, h2⟩ := k2 l1 l2 l3 l4 hm
          exact ⟨g', by simp [h1], h2⟩
    | isr n =>
      obtain ⟨s1, e1, i1, z1, r1, o1⟩ := produceL_inside n h
      obtain ⟨acts2, s2, e2, r2, v2, k2⟩ := ih (by omega) i1 (by omega)
      refine ⟨.isr n :: acts2, s2, by simp only [rtrun, e1, Res.bind_ok, e2], by simp only [rrun, e1, Res.bind_ok, r2], ?_, ?_⟩
      · simpa [RAct.reads, RTAct.reads] using v2
      · intro l1 l2 l3 l4 hm
        simp only [List.mem_cons, reduceCtorEq, false_or] at hm
        obtain ⟨g', h1, h2⟩ := k2 l1 l2 l3 l4 hm
        exact ⟨g', by simp [h1], h2⟩

end Atl.RingBuffer
