import Verif.Model.RingBufferTorn
import Verif.Proof.RingBufferIsr
/- Helper lemmas for the ring buffer with pointers that are moved byte by byte. -/
namespace Atl.RingBuffer

theorem tornLoad_self (b : Bool) (p : Nat) : tornLoad b p p = p := by
  unfold tornLoad; split <;> omega

theorem isFullAt_eq (base : Nat) (s : RB α) : isFullAt base s (base + s.r) = isFull s := by
  unfold isFullAt isFull
  split <;> simp only [decide_eq_decide] <;> omega

theorem lengthAt_eq (base : Nat) (s : RB α) : lengthAt base s (base + s.w) (base + s.w) = getLength s := by
  unfold lengthAt getLength
  have e1 : (((base + s.w : Nat) : Int) - ((base + s.r : Nat) : Int)) = (s.w : Int) - s.r := by omega
  have e2 : ((s.size : Int) - (((base + s.r : Nat) : Int) - ((base + s.w : Nat) : Int))) =
      (s.size : Int) - ((s.r : Int) - s.w) := by omega
  rw [e1, e2]
  by_cases h : s.w ≥ s.r
  · rw [if_pos h, if_pos (by omega)]
  · rw [if_neg h, if_neg (by omega)]

theorem consume_eq (base : Nat) (s : ISt α) : consume s = consumeAt base (base + s.rb.w) s := by
  simp only [consume, consumeAt, lengthAt_eq]

theorem consumeN_eq (base : Nat) (n : Nat) (s : ISt α) :
    consumeN s n = consumeAtN base (base + s.rb.w) s n := by
  induction n generalizing s with
  | zero => rfl
  | succ n ih =>
    simp only [consumeN, consumeAtN, ← consume_eq]
    cases h : consume s with
    | ub => rfl
    | ok s' =>
      have hw : s'.rb.w = s.rb.w := by
        simp only [consume] at h
        split at h
        · cases h; rfl
        · cases hc : cGet s.rb.buf s.rb.r with
          | ub => simp [read, hc] at h
          | ok v => simp [read, hc] at h; rw [← h]
      simp only [Res.bind_ok]
      rw [ih s', hw]

/-- The state as it will be once `_writePtr` has the offset `W`. -/
def atW (W : Nat) (s : ISt α) : ISt α := { s with rb := { s.rb with w := W } }

/-- One run of the reading handler, whatever it finds in `_writePtr`: nothing, or the oldest value. -/
theorem consumeAt_win (base wv W : Nat) {s : ISt α} {x : α} {q : List α} (h : IInv (atW W s) (x :: q)) :
    ∃ s' q', consumeAt base wv s = .ok s' ∧ IInv (atW W s') q' ∧ q.length ≤ q'.length ∧
      s'.rb.w = s.rb.w ∧ s'.rb.size = s.rb.size ∧ s'.acc = s.acc := by
  by_cases hl : lengthAt base s.rb wv wv = 0
  · exact ⟨s, x :: q, by simp [consumeAt, hl], h, by simp, rfl, rfl, rfl⟩
  · have hr := h.rel.hr
    have hg := h.rel.hget 0 (by simp)
    simp only [Nat.add_zero, hr, if_true, List.getElem_cons_zero] at hg
    simp only [atW] at hg
    refine ⟨{ s with rb := { s.rb with r := wrap s.rb.size (s.rb.r + 1) }, out := s.out ++ [x] }, q,
      by simp [consumeAt, hl, read, cGet, hg], ?_, Nat.le_refl _, rfl, rfl, rfl⟩
    exact { rel := rel_drop h.rel, sz := h.sz, hist := by have := h.hist; simp [atW] at this ⊢; exact this }

theorem consumeAtN_win (base wv W : Nat) (n : Nat) {s : ISt α} {q : List α} (h : IInv (atW W s) q)
    (hn : n ≤ q.length) :
    ∃ s' q', consumeAtN base wv s n = .ok s' ∧ IInv (atW W s') q' ∧ q.length ≤ q'.length + n ∧
      s'.rb.w = s.rb.w ∧ s'.rb.size = s.rb.size ∧ s'.acc = s.acc := by
  induction n generalizing s q with
  | zero => exact ⟨s, q, rfl, h, by omega, rfl, rfl, rfl⟩
  | succ n ih =>
    cases q with
    | nil => simp at hn
    | cons x q =>
      simp only [List.length_cons] at hn
      obtain ⟨s1, q1, e1, i1, l1, w1, z1, a1⟩ := consumeAt_win base wv W h
      obtain ⟨s2, q2, e2, i2, l2, w2, z2, a2⟩ := ih i1 (by omega)
      exact ⟨s2, q2, by simp [consumeAtN, e1, e2], i2, by simp; omega, by omega, by omega, by rw [a2, a1]⟩

/-- The state as it will be once `_readPtr` has the offset `R` and the call has returned `x`. -/
def atR (R : Nat) (x : α) (s : ISt α) : ISt α :=
  { s with rb := { s.rb with r := R }, out := s.out ++ [x] }

/-- One run of the writing handler, whatever it finds in `_readPtr`, when there will be room. -/
theorem produceAt_win (base rv R : Nat) (x v : α) {s : ISt α} {q : List α} (h : IInv (atR R x s) q)
    (hf : q.length + 1 < s.rb.size) :
    ∃ s' q', produceAt base rv s v = .ok s' ∧ IInv (atR R x s') q' ∧ q'.length ≤ q.length + 1 ∧
      s'.rb.r = s.rb.r ∧ s'.rb.size = s.rb.size ∧ s'.out = s.out := by
  by_cases hl : isFullAt base s.rb rv = true
  · exact ⟨s, q, by simp [produceAt, hl], h, by omega, rfl, rfl, rfl⟩
  · have hw := h.rel.hw_lt; have hb := h.rel.hlen
    simp only [atR] at hw hb
    have h1 := rel_store h.rel v hf
    have h2 := rel_commit (v := v) h1 hf (by simp only [atR]; rw [List.getElem?_set]; simp; omega)
    refine ⟨{ s with rb := { s.rb with buf := s.rb.buf.set s.rb.w v, w := wrap s.rb.size (s.rb.w + 1) },
                     acc := s.acc ++ [v] }, q ++ [v], ?_, ?_, by simp, rfl, rfl, rfl⟩
    · simp [produceAt, hl, cSet_ok v (show s.rb.w < s.rb.buf.length by omega)]
    · exact { rel := h2, sz := h.sz, hist := by have := h.hist; simp [atR] at this ⊢; simp [← this] }

theorem produceAtL_win (base rv R : Nat) (x : α) (l : List α) {s : ISt α} {q : List α}
    (h : IInv (atR R x s) q) (hf : q.length + l.length < s.rb.size) :
    ∃ s' q', produceAtL base rv s l = .ok s' ∧ IInv (atR R x s') q' ∧ q'.length ≤ q.length + l.length ∧
      s'.rb.r = s.rb.r ∧ s'.rb.size = s.rb.size ∧ s'.out = s.out := by
  induction l generalizing s q with
  | nil => exact ⟨s, q, rfl, h, by simp, rfl, rfl, rfl⟩
  | cons v l ih =>
    simp only [List.length_cons] at hf
    obtain ⟨s1, q1, e1, i1, l1, w1, z1, a1⟩ := produceAt_win base rv R x v h (by omega)
    obtain ⟨s2, q2, e2, i2, l2, w2, z2, a2⟩ := ih i1 (by omega)
    exact ⟨s2, q2, by simp [produceAtL, e1, e2], i2, by simp; omega, by omega, by omega, by rw [a2, a1]⟩

theorem produce_eq (base : Nat) (s : ISt α) (v : α) :
    produce s v = produceAt base (base + s.rb.r) s v := by
  simp only [produce, produceAt, isFullAt_eq, write]
  by_cases hf : isFull s.rb = true
  · simp [hf]
  · cases hc : cSet s.rb.buf s.rb.w v <;> simp [hf, hc]

theorem produceL_eq (base : Nat) (l : List α) (s : ISt α) :
    produceL s l = produceAtL base (base + s.rb.r) s l := by
  induction l generalizing s with
  | nil => rfl
  | cons v l ih =>
    simp only [produceL, produceAtL, ← produce_eq]
    cases h : produce s v with
    | ub => rfl
    | ok s' =>
      have hr : s'.rb.r = s.rb.r := by
        simp only [produce, write] at h
        by_cases hf : isFull s.rb = true
        · simp [hf] at h; rw [← h]
        · cases hc : cSet s.rb.buf s.rb.w v <;> simp [hf, hc] at h
          rw [← h]
      simp only [Res.bind_ok]
      rw [ih s', hr]

/-- One call of `Write` on a consistent buffer, with no more handler runs from the first byte of the new
    pointer to the last one than values wait. -/
theorem writeTorn_inv_of (o : Order) (base : Nat) {s : ISt α} {q : List α} (v : α) (g : WGaps)
    (hn : g.inc + g.past + g.wrap ≤ q.length - (g.load + g.test + g.slot) + 1) (h : IInv s q) :
    ∃ s' b q', writeTorn o base s v g = .ok (s', b) ∧ IInv s' q' ∧ s'.rb.size = s.rb.size ∧
      s'.acc = (if b then s.acc ++ [v] else s.acc) ∧
      (b = false → ∃ s1, IInv s1 (q.drop g.load) ∧ s1.rb.w = s.rb.w ∧ s1.rb.size = s.rb.size ∧
        isFullAt base s1.rb (tornLoad o.loadLow (base + s.rb.r) (base + s1.rb.r)) = true) := by
  obtain ⟨s0, e0, i0, z0, a0, w0, b0⟩ := consumeN_inv g.load h
  by_cases hf : isFullAt base s0.rb (tornLoad o.loadLow (base + s.rb.r) (base + s0.rb.r)) = true
  · refine ⟨s0, false, q.drop g.load, ?_, i0, z0, by simp [a0], fun _ => ⟨s0, i0, w0, z0, hf⟩⟩
    simp only [writeTorn, e0, Res.bind_ok, hf, if_true]
  -- there is room after the load
  have hroom0 : (q.drop g.load).length + 1 < s0.rb.size := by
    by_cases hd : (q.drop g.load).length + 1 < s0.rb.size
    · exact hd
    · exfalso
      have hq0 := i0.rel.hq
      have hq := h.rel.hq
      have hfull : isFull s0.rb = true := by rw [isFull_rel i0.rel]; simp at hd hq0 ⊢; omega
      have hsame : s0.rb.r = s.rb.r := by
        -- nothing was consumed, so the two offsets agree
        have h1 := i0.rel.hw; have h2 := h.rel.hw
        have hr1 := i0.rel.hr; have hr2 := h.rel.hr
        simp only [List.length_drop] at hd h1 hq0
        have : q.length - g.load = q.length := by omega
        rw [this] at h1
        split at h1 <;> split at h2 <;> omega
      apply hf
      rw [hsame, tornLoad_self, ← hsame, isFullAt_eq]
      exact hfull
  obtain ⟨s1, e1, i1, z1, a1, w1, b1⟩ := consumeN_inv g.test i0
  have hroom1 : ((q.drop g.load).drop g.test).length + 1 < s1.rb.size := by
    rw [z1]; simp only [List.length_drop] at hroom0 ⊢; omega
  have hw1 := i1.rel.hw_lt; have hl1 := i1.rel.hlen
  have i2 : IInv { s1 with rb := { s1.rb with buf := s1.rb.buf.set s1.rb.w v } }
      ((q.drop g.load).drop g.test) :=
    { rel := rel_store i1.rel v hroom1, sz := i1.sz, hist := i1.hist }
  obtain ⟨s3, e3, i3, z3, a3, w3, b3⟩ := consumeN_inv g.slot i2
  have hroom3 : (((q.drop g.load).drop g.test).drop g.slot).length + 1 < s3.rb.size := by
    rw [z3]; simp only [List.length_drop] at hroom1 ⊢; omega
  have hb : s3.rb.buf[s3.rb.w]? = some v := by
    rw [b3, w3]; simp only; rw [List.getElem?_set]; simp; omega
  have hl3 : (((q.drop g.load).drop g.test).drop g.slot).length = q.length - (g.load + g.test + g.slot) := by
    simp only [List.length_drop]; omega
  rw [← hl3] at hn
  generalize ((q.drop g.load).drop g.test).drop g.slot = q3 at *
  have i4 : IInv (atW (wrap s3.rb.size (s3.rb.w + 1)) { s3 with acc := s3.acc ++ [v] }) (q3 ++ [v]) :=
    { rel := rel_commit i3.rel v hroom3 hb, sz := i3.sz, hist := by simp [atW, ← i3.hist] }
  generalize hW : wrap s3.rb.size (s3.rb.w + 1) = W at i4
  obtain ⟨s5, q5, e5, i5, l5, w5, z5, a5⟩ := consumeAtN_win base
    (tornStore o.storeLow (base + s3.rb.w) (base + s3.rb.w + 1)) W g.inc i4 (by simp; omega)
  simp only at w5 z5 a5
  simp only [List.length_append, List.length_singleton] at l5
  have i6 : IInv (atW W { s5 with rb := { s5.rb with w := s5.rb.w + 1 } }) q5 := i5
  obtain ⟨s7, q7, e7, i7, l7, w7, z7, a7⟩ := consumeAtN_win base (base + (s5.rb.w + 1)) W g.past i6 (by omega)
  simp only at w7 z7 a7
  have e7' : consumeN { s5 with rb := { s5.rb with w := s5.rb.w + 1 } } g.past = .ok s7 := by
    rw [consumeN_eq base]; exact e7
  have hcw := cSet_ok v (show s1.rb.w < s1.rb.buf.length by omega)
  have hacc : s3.acc = s.acc := by rw [a3]; simp only; rw [a1, a0]
  by_cases hwr : s7.rb.w ≥ s7.rb.size
  · obtain ⟨s8, q8, e8, i8, l8, w8, z8, a8⟩ := consumeAtN_win base
      (tornStore o.storeLow (base + s7.rb.w) base) W g.wrap i7 (by omega)
    have hW0 : W = 0 := by rw [← hW, wrap, if_pos (by omega)]
    subst hW0
    refine ⟨{ s8 with rb := { s8.rb with w := 0 } }, true, q8, ?_, i8, ?_, ?_, by simp⟩
    · simp only [writeTorn, e0, Res.bind_ok, hf, e1, hcw, e3, e5, e7', e8, if_pos hwr, if_false]
      simp
    · simp only [z8, z7, z5, z3, z1, z0]
    · simp only [if_true]; rw [a8, a7, a5, hacc]
  · have hWw : W = s7.rb.w := by rw [← hW, wrap, if_neg (by omega)]; omega
    subst hWw
    refine ⟨s7, true, q7, ?_, i7, ?_, ?_, by simp⟩
    · simp only [writeTorn, e0, Res.bind_ok, hf, e1, hcw, e3, e5, e7', if_neg hwr, if_false]
      simp
    · simp only [z7, z5, z3, z1, z0]
    · simp only [if_true]; rw [a7, a5, hacc]

/-- The same with at most one handler run in the window. -/
theorem writeTorn_inv (o : Order) (base : Nat) {s : ISt α} {q : List α} (v : α) (g : WGaps)
    (hn : g.inc + g.past + g.wrap ≤ 1) (h : IInv s q) :
    ∃ s' b q', writeTorn o base s v g = .ok (s', b) ∧ IInv s' q' ∧ s'.rb.size = s.rb.size ∧
      s'.acc = (if b then s.acc ++ [v] else s.acc) ∧
      (b = false → ∃ s1, IInv s1 (q.drop g.load) ∧ s1.rb.w = s.rb.w ∧ s1.rb.size = s.rb.size ∧
        isFullAt base s1.rb (tornLoad o.loadLow (base + s.rb.r) (base + s1.rb.r)) = true) :=
  writeTorn_inv_of o base v g (by omega) h

/-- Writes only ever append, and when nothing was appended nothing moved. -/
theorem produceL_still (l : List α) {s : ISt α} {q : List α} (h : IInv s q) :
    ∃ s' q', produceL s l = .ok s' ∧ IInv s' q' ∧ s'.rb.size = s.rb.size ∧ s'.rb.r = s.rb.r ∧
      s'.out = s.out ∧ q <+: q' ∧ (q' = [] → s'.rb.w = s.rb.w) := by
  obtain ⟨s', q', e, i, z, r, oo, p⟩ := produceL_inv l h
  refine ⟨s', q', e, i, z, r, oo, p, ?_⟩
  intro hq
  subst hq
  have hq0 : q = [] := List.prefix_nil.mp p
  subst hq0
  have h1 := i.rel.hw; have h2 := h.rel.hw; have hr1 := i.rel.hr; have hr2 := h.rel.hr
  simp at h1 h2
  rw [if_pos hr1] at h1
  rw [if_pos hr2] at h2
  omega

theorem lengthTorn_inv (o : Order) (base : Nat) {s : ISt α} {q : List α} (g : RGaps α) (h : IInv s q) :
    ∃ s' n q', lengthTorn o base s g = .ok (s', n) ∧ IInv s' q' ∧ s'.rb.size = s.rb.size ∧ s'.rb.r = s.rb.r ∧
      s'.out = s.out ∧ q <+: q' ∧ (q' = [] → n = 0) := by
  obtain ⟨s1, q1, e1, i1, z1, r1, o1, p1, k1⟩ := produceL_still g.load1 h
  obtain ⟨s2, q2, e2, i2, z2, r2, o2, p2, k2⟩ := produceL_still g.between i1
  obtain ⟨s3, q3, e3, i3, z3, r3, o3, p3, k3⟩ := produceL_still g.load2 i2
  refine ⟨s3, lengthAt base s3.rb (tornLoad o.loadLow (base + s.rb.w) (base + s1.rb.w))
    (tornLoad o.loadLow (base + s2.rb.w) (base + s3.rb.w)), q3, ?_, i3, by omega, by omega,
    by rw [o3, o2, o1], p1.trans (p2.trans p3), ?_⟩
  · simp only [lengthTorn, e1, e2, e3, Res.bind_ok]
  · intro hq
    subst hq
    have hq2 : q2 = [] := List.prefix_nil.mp p3
    subst hq2
    have hq1 : q1 = [] := List.prefix_nil.mp p2
    subst hq1
    rw [← k1 rfl, ← k2 rfl, ← k3 rfl, tornLoad_self, lengthAt_eq]
    exact read_empty_rel i3.rel i3.sz

theorem produce_len (v : α) {s s' : ISt α} (h : produce s v = .ok s') : s'.acc.length ≤ s.acc.length + 1 ∧ s'.out = s.out := by
  simp only [produce, write] at h
  by_cases hf : isFull s.rb = true
  · simp [hf] at h; rw [← h]; simp
  · cases hc : cSet s.rb.buf s.rb.w v <;> simp [hf, hc] at h
    rw [← h]; simp

theorem produceL_len (l : List α) {s s' : ISt α} (h : produceL s l = .ok s') : s'.acc.length ≤ s.acc.length + l.length ∧ s'.out = s.out := by
  induction l generalizing s with
  | nil => cases h; simp
  | cons v l ih =>
    simp only [produceL] at h
    cases h1 : produce s v with
    | ub => rw [h1] at h; cases h
    | ok s1 =>
      rw [h1] at h
      obtain ⟨a, b⟩ := ih h
      obtain ⟨c, d⟩ := produce_len v h1
      exact ⟨by simp only [List.length_cons]; omega, b.trans d⟩

theorem lengthTorn_len (o : Order) (base : Nat) (g : RGaps α) {s s' : ISt α} {n : Nat} (h : lengthTorn o base s g = .ok (s', n)) :
    s'.acc.length ≤ s.acc.length + g.load1.length + g.between.length + g.load2.length := by
  simp only [lengthTorn] at h
  cases h1 : produceL s g.load1 with
  | ub => rw [h1] at h; cases h
  | ok s1 =>
    rw [h1] at h
    simp only [Res.bind_ok] at h
    cases h2 : produceL s1 g.between with
    | ub => rw [h2] at h; cases h
    | ok s2 =>
      rw [h2] at h
      simp only [Res.bind_ok] at h
      cases h3 : produceL s2 g.load2 with
      | ub => rw [h3] at h; cases h
      | ok s3 =>
        rw [h3] at h
        cases h
        have := (produceL_len _ h1).1; have := (produceL_len _ h2).1; have := (produceL_len _ h3).1
        omega

/-- One guarded `Read` on a consistent buffer, with no more handler runs from the first byte of the new
    pointer to the last one than there is room for, or one. -/
theorem readTorn_inv_of (o : Order) (base : Nat) {s : ISt α} {q : List α} (g : RGaps α)
    (hn : g.inc.length + g.past.length + g.wrap.length ≤ 1 ∨
      q.length + (g.load1.length + g.between.length + g.load2.length + g.test.length + g.slot.length) + (g.inc.length + g.past.length + g.wrap.length) ≤ s.rb.size) (h : IInv s q) :
    ∃ s' q', readTorn o base s g = .ok s' ∧ IInv s' q' ∧ s'.rb.size = s.rb.size := by
  obtain ⟨s1, n, q1, e1, i1, z1, r1, o1, p1, hz⟩ := lengthTorn_inv o base g h
  have b1 := lengthTorn_len o base g e1
  by_cases hn0 : n = 0
  · refine ⟨s1, q1, ?_, i1, z1⟩
    simp only [readTorn, e1, Res.bind_ok, hn0, if_true]
  obtain ⟨x, qt, rfl⟩ : ∃ x qt, q1 = x :: qt := by
    cases q1 with
    | nil => exact absurd (hz rfl) hn0
    | cons a as => exact ⟨a, as, rfl⟩
  obtain ⟨s2, q2, e2, i2, z2, r2, o2, p2⟩ := produceL_inv g.test i1
  obtain ⟨t2, rfl⟩ := p2
  simp only [List.cons_append] at i2
  have hr2 := i2.rel.hr
  have hg := i2.rel.hget 0 (by simp)
  simp only [Nat.add_zero, hr2, if_true, List.getElem_cons_zero] at hg
  obtain ⟨s3, q3, e3, i3, z3, r3, o3, p3⟩ := produceL_inv g.slot i2
  obtain ⟨t3, rfl⟩ := p3
  simp only [List.cons_append] at i3
  generalize qt ++ t2 ++ t3 = q3 at i3
  have hr3 := i3.rel.hr
  have hq3 := i3.rel.hq
  simp only [List.length_cons] at hq3
  have hq3' : q3.length + (g.inc.length + g.past.length + g.wrap.length) < s3.rb.size := by
    have b2 := (produceL_len _ e2).1; have b3 := (produceL_len _ e3).1
    have c0 := congrArg List.length h.hist; have c3 := congrArg List.length i3.hist
    rw [o3, o2, o1] at c3
    simp only [List.length_append, List.length_cons] at c0 c3
    omega
  have i4 : IInv (atR (wrap s3.rb.size (s3.rb.r + 1)) x s3) q3 :=
    { rel := rel_drop i3.rel, sz := i3.sz, hist := by simp [atR, ← i3.hist] }
  generalize hR : wrap s3.rb.size (s3.rb.r + 1) = R at i4
  obtain ⟨s5, q5, e5, i5, l5, w5, z5, a5⟩ := produceAtL_win base
    (tornStore o.storeLow (base + s3.rb.r) (base + s3.rb.r + 1)) R x g.inc i4 (by omega)
  have i6 : IInv (atR R x { s5 with rb := { s5.rb with r := s5.rb.r + 1 } }) q5 := i5
  obtain ⟨s7, q7, e7, i7, l7, w7, z7, a7⟩ := produceAtL_win base (base + (s5.rb.r + 1)) R x g.past i6
    (by simp only; omega)
  simp only at w7 z7 a7
  have e7' : produceL { s5 with rb := { s5.rb with r := s5.rb.r + 1 } } g.past = .ok s7 := by
    rw [produceL_eq base]; exact e7
  by_cases hwr : s7.rb.r ≥ s7.rb.size
  · obtain ⟨s8, q8, e8, i8, l8, w8, z8, a8⟩ := produceAtL_win base
      (tornStore o.storeLow (base + s7.rb.r) base) R x g.wrap i7 (by omega)
    have hR0 : R = 0 := by rw [← hR, wrap, if_pos (by omega)]
    subst hR0
    refine ⟨{ s8 with rb := { s8.rb with r := 0 }, out := s8.out ++ [x] }, q8, ?_, i8, ?_⟩
    · simp only [readTorn, e1, Res.bind_ok, if_neg hn0, e2, cGet, hg, e3, e5, e7', e8, if_pos hwr]
    · simp only [z8, z7, z5, z3, z2, z1]
  · have hRw : R = s7.rb.r := by rw [← hR, wrap, if_neg (by omega)]; omega
    subst hRw
    refine ⟨{ s7 with out := s7.out ++ [x] }, q7, ?_, i7, ?_⟩
    · simp only [readTorn, e1, Res.bind_ok, if_neg hn0, e2, cGet, hg, e3, e5, e7', if_neg hwr]
    · simp only [z7, z5, z3, z2, z1]

/-- The same with at most one handler run in the window. -/
theorem readTorn_inv (o : Order) (base : Nat) {s : ISt α} {q : List α} (g : RGaps α)
    (hn : g.inc.length + g.past.length + g.wrap.length ≤ 1) (h : IInv s q) :
    ∃ s' q', readTorn o base s g = .ok s' ∧ IInv s' q' ∧ s'.rb.size = s.rb.size :=
  readTorn_inv_of o base g (Or.inl hn) h

theorem wtrun_inv (o : Order) (base : Nat) (as : List (WTAct α))
    (hok : ∀ v g, WTAct.write v g ∈ as → g.inc + g.past + g.wrap ≤ 1) {s : ISt α} {q : List α}
    (h : IInv s q) :
    ∃ s' q', wtrun o base s as = .ok s' ∧ IInv s' q' ∧ s'.rb.size = s.rb.size := by
  induction as generalizing s q with
  | nil => exact ⟨s, q, rfl, h, rfl⟩
  | cons a as ih =>
    have hok' : ∀ v g, WTAct.write v g ∈ as → g.inc + g.past + g.wrap ≤ 1 :=
      fun v g hm => hok v g (List.mem_cons_of_mem _ hm)
    cases a with
    | write v g =>
      obtain ⟨s1, b, q1, e1, i1, z1, _⟩ := writeTorn_inv o base v g (hok v g List.mem_cons_self) h
      obtain ⟨s2, q2, e2, i2, z2⟩ := ih hok' i1
      exact ⟨s2, q2, by simp [wtrun, e1, e2], i2, by omega⟩
    | isr n =>
      obtain ⟨s1, e1, i1, z1, _⟩ := consumeN_inv n h
      obtain ⟨s2, q2, e2, i2, z2⟩ := ih hok' i1
      exact ⟨s2, q2, by simp [wtrun, e1, e2], i2, by omega⟩

theorem rtrun_inv (o : Order) (base : Nat) (as : List (RTAct α))
    (hok : ∀ g, RTAct.read g ∈ as → g.inc.length + g.past.length + g.wrap.length ≤ 1) {s : ISt α} {q : List α}
    (h : IInv s q) :
    ∃ s' q', rtrun o base s as = .ok s' ∧ IInv s' q' ∧ s'.rb.size = s.rb.size := by
  induction as generalizing s q with
  | nil => exact ⟨s, q, rfl, h, rfl⟩
  | cons a as ih =>
    have hok' : ∀ g, RTAct.read g ∈ as → g.inc.length + g.past.length + g.wrap.length ≤ 1 :=
      fun g hm => hok g (List.mem_cons_of_mem _ hm)
    cases a with
    | read g =>
      obtain ⟨s1, q1, e1, i1, z1⟩ := readTorn_inv o base g (hok g List.mem_cons_self) h
      obtain ⟨s2, q2, e2, i2, z2⟩ := ih hok' i1
      exact ⟨s2, q2, by simp [rtrun, e1, e2], i2, by omega⟩
    | isr l =>
      obtain ⟨s1, q1, e1, i1, z1, _⟩ := produceL_inv l h
      obtain ⟨s2, q2, e2, i2, z2⟩ := ih hok' i1
      exact ⟨s2, q2, by simp [rtrun, e1, e2], i2, by omega⟩

end Atl.RingBuffer
