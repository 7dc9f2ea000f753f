import Verif.Model.RingBufferIsr
import Verif.Proof.RingBuffer
/- Helper lemmas for concurrent use of the ring buffer. -/
namespace Atl.RingBuffer

/-! ### Interleaved accesses -/

/-- Invariant of the interleaving machine; `q` is the unread content. -/
structure MInv (s : MSt α) (q : List α) : Prop where
  rel : Rel s.rb q
  sz : s.rb.size < 65536
  hist : s.out ++ q = s.acc
  checked : ∀ v, s.p = .checked v → q.length + 1 < s.rb.size
  stored : ∀ v, s.p = .stored v → q.length + 1 < s.rb.size ∧ s.rb.buf[s.rb.w]? = some v
  loaded : s.c = .loaded false → q ≠ []
  ready : s.c = .ready → q ≠ []
  got : ∀ v, s.c = .got v → ∃ q', q = v :: q'

/-- The slot at the write index is not part of the content, so storing it keeps the relation. -/
theorem rel_store {s : RB α} {q : List α} (h : Rel s q) (v : α) (hf : q.length + 1 < s.size) :
    Rel { s with buf := s.buf.set s.w v } q := by
  have h1 := h.hw; have h2 := h.hr; have h3 := h.hq
  constructor
  · simpa using h.hlen
  · exact h.hr
  · exact h.hq
  · exact h.hw
  · intro i hi
    rw [← h.hget i hi]
    simp only
    rw [List.getElem?_set, if_neg (by split at h1 <;> split <;> omega)]

/-- Committing the pointer after the slot has been stored appends the value. -/
theorem rel_commit {s : RB α} {q : List α} (h : Rel s q) (v : α) (hf : q.length + 1 < s.size)
    (hb : s.buf[s.w]? = some v) :
    Rel { s with w := wrap s.size (s.w + 1) } (q ++ [v]) := by
  have h1 := h.hw; have h2 := h.hr; have h3 := h.hq
  constructor
  · exact h.hlen
  · exact h.hr
  · simp; omega
  · simp only [wrap, List.length_append, List.length_singleton]
    split <;> split <;> split at h1 <;> omega
  · intro i hi
    simp only [List.length_append, List.length_singleton] at hi
    by_cases hiq : i < q.length
    · rw [List.getElem_append_left hiq, ← h.hget i hiq]
    · have : i = q.length := by omega
      subst this
      simp only [List.getElem_append_right (Nat.le_refl _), Nat.sub_self, List.getElem_singleton]
      rw [← h1]; exact hb

/-- Committing the read pointer drops the oldest value. -/
theorem rel_drop {s : RB α} {v : α} {q : List α} (h : Rel s (v :: q)) :
    Rel { s with r := wrap s.size (s.r + 1) } q := by
  obtain ⟨s', h1, h2, _⟩ := read_rel h
  have hr := h.hr; have hl := h.hlen
  simp only [read, cGet_ok (show s.r < s.buf.length by omega), Res.bind_ok, Res.ok.injEq,
    Prod.mk.injEq] at h1
  rw [h1.1]; exact h2

theorem mstep_inv {s : MSt α} {q : List α} (x : Sched α) (h : MInv s q) :
    ∃ s' q', mstep s x = .ok s' ∧ MInv s' q' ∧ s'.rb.size = s.rb.size := by
  have hrel := h.rel
  have h1 := hrel.hw; have h2 := hrel.hr; have h3 := hrel.hq; have h0 := hrel.hlen
  have h4 := hrel.hw_lt; have hsz := h.sz
  cases x with
  | p v =>
    cases hp : s.p with
    | idle =>
      by_cases hf : isFull s.rb = true
      · exact ⟨s, q, by simp [mstep, hp, hf], h, rfl⟩
      · refine ⟨{ s with p := .checked v }, q, by simp [mstep, hp, hf], ?_, rfl⟩
        have hfull := isFull_rel hrel
        have hroom : q.length + 1 < s.rb.size := by
          rw [hfull] at hf; simp at hf; omega
        exact { rel := hrel, sz := hsz, hist := h.hist, checked := fun _ _ => hroom,
                stored := by simp, loaded := h.loaded, ready := h.ready, got := h.got }
    | checked v' =>
      have hroom := h.checked v' hp
      refine ⟨{ s with rb := { s.rb with buf := s.rb.buf.set s.rb.w v' }, p := .stored v' }, q,
        by simp [mstep, hp, cSet_ok v' (show s.rb.w < s.rb.buf.length by omega)], ?_, rfl⟩
      refine { rel := rel_store hrel v' hroom, sz := hsz, hist := h.hist, checked := by simp,
               stored := ?_, loaded := h.loaded, ready := h.ready, got := h.got }
      intro w hw
      simp only [PSt.stored.injEq] at hw
      subst hw
      refine ⟨hroom, ?_⟩
      simp only
      rw [List.getElem?_set]; simp; omega
    | stored v' =>
      have ⟨hroom, hb⟩ := h.stored v' hp
      refine ⟨{ s with rb := { s.rb with w := wrap s.rb.size (s.rb.w + 1) }, p := .idle,
                       acc := s.acc ++ [v'] }, q ++ [v'], by simp only [mstep, hp], ?_, rfl⟩
      refine { rel := rel_commit hrel v' hroom hb, sz := hsz, hist := ?_, checked := by simp,
               stored := by simp, loaded := by simp, ready := by simp, got := ?_ }
      · simp [← h.hist]
      · intro v hv
        obtain ⟨q', rfl⟩ := h.got v hv
        exact ⟨q' ++ [v'], by simp⟩
  | c =>
    cases hc : s.c with
    | idle =>
      refine ⟨{ s with c := .loaded (decide (s.rb.w ≥ s.rb.r)) }, q, by simp [mstep, hc], ?_, rfl⟩
      refine { rel := hrel, sz := hsz, hist := h.hist, checked := h.checked, stored := h.stored,
               loaded := ?_, ready := by simp, got := by simp }
      intro hl hq
      subst hq
      simp at hl
      simp at h1
      split at h1 <;> omega
    | loaded ge =>
      by_cases hlen : (if ge = true then toU 16 ((s.rb.w : Int) - s.rb.r)
          else toU 16 ((s.rb.size : Int) - ((s.rb.r : Int) - s.rb.w))) = 0
      · refine ⟨{ s with c := .idle }, q, by simp only [mstep, hc]; rw [if_pos hlen], ?_, rfl⟩
        exact { rel := hrel, sz := hsz, hist := h.hist, checked := h.checked, stored := h.stored,
                loaded := by simp, ready := by simp, got := by simp }
      · refine ⟨{ s with c := .ready }, q, by simp only [mstep, hc]; rw [if_neg hlen], ?_, rfl⟩
        refine { rel := hrel, sz := hsz, hist := h.hist, checked := h.checked, stored := h.stored,
                 loaded := by simp, ready := ?_, got := by simp }
        intro _ hq
        cases ge with
        | false => exact h.loaded hc hq
        | true =>
          apply hlen
          subst hq
          simp at h1
          rw [if_pos h2] at h1
          simp [h1, toU]
    | ready =>
      have hne := h.ready hc
      cases q with
      | nil => exact absurd rfl hne
      | cons v q =>
        have hg := hrel.hget 0 (by simp)
        simp only [Nat.add_zero, h2, if_true, List.getElem_cons_zero] at hg
        refine ⟨{ s with c := .got v }, v :: q, by simp [mstep, hc, cGet, hg], ?_, rfl⟩
        refine { rel := hrel, sz := hsz, hist := h.hist, checked := h.checked, stored := h.stored,
                 loaded := by simp, ready := by simp, got := ?_ }
        intro v' hv'
        simp only [CSt.got.injEq] at hv'
        exact ⟨q, by rw [hv']⟩
    | got v =>
      obtain ⟨q', rfl⟩ := h.got v hc
      refine ⟨{ s with rb := { s.rb with r := wrap s.rb.size (s.rb.r + 1) }, c := .idle,
                       out := s.out ++ [v] }, q', by simp only [mstep, hc], ?_, rfl⟩
      refine { rel := rel_drop hrel, sz := hsz, hist := ?_, checked := ?_, stored := ?_,
               loaded := by simp, ready := by simp, got := by simp }
      · simp [← h.hist]
      · intro w hw
        have := h.checked w hw
        simp at this ⊢; omega
      · intro w hw
        have := h.stored w hw
        simp at this ⊢
        exact ⟨by omega, this.2⟩

theorem mrun_inv (xs : List (Sched α)) {s : MSt α} {q : List α} (h : MInv s q) :
    ∃ s' q', mrun s xs = .ok s' ∧ MInv s' q' ∧ s'.rb.size = s.rb.size := by
  induction xs generalizing s q with
  | nil => exact ⟨s, q, rfl, h, rfl⟩
  | cons x xs ih =>
    obtain ⟨s1, q1, h1, hi1, hz1⟩ := mstep_inv x h
    obtain ⟨s2, q2, h2, hi2, hz2⟩ := ih hi1
    exact ⟨s2, q2, by simp [mrun, h1, h2], hi2, by omega⟩

theorem minit_inv (g : List α) (hg : 0 < g.length) (hs : g.length < 65536) : MInv (minit g) [] :=
  { rel := rel_mk g hg, sz := hs, hist := rfl, checked := by simp [minit], stored := by simp [minit],
    loaded := by simp [minit], ready := by simp [minit], got := by simp [minit] }

/-! ### Interrupt handler running to completion -/

/-- Invariant between main calls. -/
structure IInv (s : ISt α) (q : List α) : Prop where
  rel : Rel s.rb q
  sz : s.rb.size < 65536
  hist : s.out ++ q = s.acc

theorem iinit_inv (g : List α) (hg : 0 < g.length) (hs : g.length < 65536) : IInv (iinit g) [] :=
  { rel := rel_mk g hg, sz := hs, hist := rfl }

theorem consume_inv {s : ISt α} {q : List α} (h : IInv s q) :
    ∃ s' , consume s = .ok s' ∧ IInv s' q.tail ∧ s'.rb.size = s.rb.size ∧ s'.acc = s.acc ∧
      s'.rb.w = s.rb.w ∧ s'.rb.buf = s.rb.buf := by
  cases q with
  | nil =>
    exact ⟨s, by simp [consume, read_empty_rel h.rel h.sz], h, rfl, rfl, rfl, rfl⟩
  | cons v q =>
    have hl := getLength_rel h.rel h.sz
    have hr := h.rel.hr; have hlen := h.rel.hlen
    have hg := h.rel.hget 0 (by simp)
    simp only [Nat.add_zero, hr, if_true, List.getElem_cons_zero] at hg
    refine ⟨{ s with rb := { s.rb with r := wrap s.rb.size (s.rb.r + 1) }, out := s.out ++ [v] },
      ?_, ?_, rfl, rfl, rfl, rfl⟩
    · simp [consume, hl, read, cGet, hg]
    · exact { rel := rel_drop h.rel, sz := h.sz, hist := by simp [← h.hist] }

theorem consumeN_inv (n : Nat) {s : ISt α} {q : List α} (h : IInv s q) :
    ∃ s', consumeN s n = .ok s' ∧ IInv s' (q.drop n) ∧ s'.rb.size = s.rb.size ∧ s'.acc = s.acc ∧
      s'.rb.w = s.rb.w ∧ s'.rb.buf = s.rb.buf := by
  induction n generalizing s q with
  | zero => exact ⟨s, rfl, by simpa using h, rfl, rfl, rfl, rfl⟩
  | succ n ih =>
    obtain ⟨s1, h1, hi1, hz1, ha1, hw1, hb1⟩ := consume_inv h
    obtain ⟨s2, h2, hi2, hz2, ha2, hw2, hb2⟩ := ih hi1
    refine ⟨s2, by simp [consumeN, h1, h2], ?_, by omega, by rw [ha2, ha1], by omega, by rw [hb2, hb1]⟩
    rw [← List.drop_one, List.drop_drop] at hi2
    rwa [Nat.add_comm n 1]

theorem writeIsr_inv {s : ISt α} {q : List α} (v : α) (n1 n2 n3 : Nat) (hn : n3 ≤ 1)
    (h : IInv s q) :
    ∃ s' q', writeIsr s v n1 n2 n3 = .ok s' ∧ IInv s' q' ∧ s'.rb.size = s.rb.size := by
  by_cases hf : isFull s.rb = true
  · exact ⟨s, q, by simp [writeIsr, hf], h, rfl⟩
  have hroom0 : q.length + 1 < s.rb.size := by
    have := h.rel.hq
    rw [isFull_rel h.rel] at hf; simp at hf; omega
  obtain ⟨s1, e1, i1, z1, a1, w1, b1⟩ := consumeN_inv n1 h
  have hroom1 : (q.drop n1).length + 1 < s1.rb.size := by simp; omega
  have hw1 := i1.rel.hw_lt
  have hl1 := i1.rel.hlen
  have i2 : IInv { s1 with rb := { s1.rb with buf := s1.rb.buf.set s1.rb.w v } } (q.drop n1) :=
    { rel := rel_store i1.rel v hroom1, sz := i1.sz, hist := i1.hist }
  obtain ⟨s3, e3, i3, z3, a3, w3, b3⟩ := consumeN_inv n2 i2
  have hroom3 : ((q.drop n1).drop n2).length + 1 < s3.rb.size := by simp at *; omega
  have hb : s3.rb.buf[s3.rb.w]? = some v := by
    rw [b3, w3]; simp only; rw [List.getElem?_set]; simp; omega
  have hw3 := i3.rel.hw_lt
  generalize hq3 : (q.drop n1).drop n2 = q3 at *
  -- the committed state
  have i4 : IInv { s3 with rb := { s3.rb with w := wrap s3.rb.size (s3.rb.w + 1) },
                           acc := s3.acc ++ [v] } (q3 ++ [v]) :=
    { rel := rel_commit i3.rel v hroom3 hb, sz := i3.sz, hist := by simp [← i3.hist] }
  have hfin : ∀ s' q', consumeN { s3 with rb := { s3.rb with w := s3.rb.w + 1 },
                                          acc := s3.acc ++ [v] } n3 = .ok s' →
      IInv { s' with rb := { s'.rb with w := wrap s'.rb.size s'.rb.w } } q' → s'.rb.size = s.rb.size →
      ∃ s' q', writeIsr s v n1 n2 n3 = .ok s' ∧ IInv s' q' ∧ s'.rb.size = s.rb.size := by
    intro s' q' he hi hz
    refine ⟨_, q', ?_, hi, hz⟩
    simp only [writeIsr, hf, if_false, e1, Res.bind_ok, cSet_ok v (show s1.rb.w < s1.rb.buf.length by omega),
      e3, he]
    simp
  by_cases hlast : s3.rb.w + 1 < s3.rb.size
  · -- no transient: the incremented pointer is already valid
    have hwr : wrap s3.rb.size (s3.rb.w + 1) = s3.rb.w + 1 := by simp [wrap]; omega
    rw [hwr] at i4
    obtain ⟨s5, e5, i5, z5, a5, w5, b5⟩ := consumeN_inv n3 i4
    refine hfin s5 (List.drop n3 (q3 ++ [v])) e5 ?_ (by simp at z5 z3; omega)
    have : wrap s5.rb.size s5.rb.w = s5.rb.w := by
      have := i5.rel.hw_lt; simp [wrap]; omega
    rw [this]; exact i5
  · have hwr : wrap s3.rb.size (s3.rb.w + 1) = 0 := by simp [wrap]; omega
    rw [hwr] at i4
    match n3, hn with
    | 0, _ =>
      refine hfin _ (q3 ++ [v]) rfl ?_ (by simp at z3 ⊢; omega)
      simpa [hwr] using i4
    | 1, _ =>
      -- one reader run while the pointer is one past the end
      have hr := i4.rel.hr; have hl := i4.rel.hlen; have hq4 := i4.rel.hq
      obtain ⟨x, q4, hx⟩ : ∃ x q4, q3 ++ [v] = x :: q4 := by
        cases q3 with
        | nil => exact ⟨v, [], rfl⟩
        | cons a as => exact ⟨a, as ++ [v], rfl⟩
      rw [hx] at i4
      have hg := i4.rel.hget 0 (by simp)
      simp only [Nat.add_zero, hr, if_true, List.getElem_cons_zero] at hg
      simp only at hr hg
      have hlen : getLength ({ s3.rb with w := s3.rb.w + 1 } : RB α) ≠ 0 := by
        have := i3.sz
        simp only [getLength, toU]
        rw [if_pos (by omega)]
        omega
      refine hfin { s3 with rb := { s3.rb with w := s3.rb.w + 1, r := wrap s3.rb.size (s3.rb.r + 1) },
                            acc := s3.acc ++ [v], out := s3.out ++ [x] } q4 ?_ ?_ (by simp at z3 ⊢; omega)
      · simp only [consumeN, consume, hlen, if_false]
        simp only [read, cGet, hg, Res.bind_ok]
      · simp only [hwr]
        exact { rel := rel_drop i4.rel, sz := i4.sz, hist := by simpa using i4.hist }

theorem isFull_iff (s : RB α) : isFull s = true ↔
    (s.w + 1 ≥ s.size ∧ s.r = 0) ∨ (s.w + 1 < s.size ∧ s.w + 1 = s.r) := by
  unfold isFull
  split <;> simp <;> omega

theorem produce_inv {s : ISt α} {q : List α} (v : α) (h : IInv s q) :
    ∃ s' q', produce s v = .ok s' ∧ IInv s' q' ∧ s'.rb.size = s.rb.size ∧ s'.rb.r = s.rb.r ∧
      s'.out = s.out ∧ q <+: q' := by
  have hq := h.rel.hq
  by_cases hf : q.length + 1 < s.rb.size
  · have hfull : isFull s.rb = false := by rw [isFull_rel h.rel]; simp; omega
    have hw := h.rel.hw_lt; have hl := h.rel.hlen
    have h1 := rel_store h.rel v hf
    have h2 := rel_commit (v := v) h1 hf (by simp only; rw [List.getElem?_set]; simp; omega)
    refine ⟨{ s with rb := { s.rb with buf := s.rb.buf.set s.rb.w v, w := wrap s.rb.size (s.rb.w + 1) },
                     acc := s.acc ++ [v] }, q ++ [v], ?_, ?_, rfl, rfl, rfl, by simp⟩
    · simp [produce, write, hfull, cSet_ok v (show s.rb.w < s.rb.buf.length by omega)]
    · exact { rel := h2, sz := h.sz, hist := by simp [← h.hist] }
  · refine ⟨s, q, ?_, h, rfl, rfl, rfl, List.prefix_refl _⟩
    simp [produce, write_full h.rel v (by omega)]

theorem produceL_inv (l : List α) {s : ISt α} {q : List α} (h : IInv s q) :
    ∃ s' q', produceL s l = .ok s' ∧ IInv s' q' ∧ s'.rb.size = s.rb.size ∧ s'.rb.r = s.rb.r ∧
      s'.out = s.out ∧ q <+: q' := by
  induction l generalizing s q with
  | nil => exact ⟨s, q, rfl, h, rfl, rfl, rfl, List.prefix_refl _⟩
  | cons v l ih =>
    obtain ⟨s1, q1, e1, i1, z1, r1, o1, p1⟩ := produce_inv v h
    obtain ⟨s2, q2, e2, i2, z2, r2, o2, p2⟩ := ih i1
    exact ⟨s2, q2, by simp [produceL, e1, e2], i2, by omega, by omega, by rw [o2, o1], p1.trans p2⟩

theorem readIsr_inv {s : ISt α} {q : List α} (l1 l2 l3 l4 : List α) (hl4 : l4.length ≤ 1)
    (h : IInv s q) :
    ∃ s' q', readIsr s l1 l2 l3 l4 = .ok s' ∧ IInv s' q' ∧ s'.rb.size = s.rb.size := by
  obtain ⟨s1, q1, e1, i1, z1, r1, o1, p1⟩ := produceL_inv l1 h
  have hrel := i1.rel
  have h1 := hrel.hw; have h2 := hrel.hr; have h3 := hrel.hq; have hsz := i1.sz
  by_cases hlen : (if (decide (s.rb.w ≥ s.rb.r)) = true then toU 16 ((s1.rb.w : Int) - s1.rb.r)
          else toU 16 ((s1.rb.size : Int) - ((s1.rb.r : Int) - s1.rb.w))) = 0
  · refine ⟨s1, q1, ?_, i1, z1⟩
    simp only [readIsr, e1, Res.bind_ok]
    rw [if_pos hlen]
  · have hne : q1 ≠ [] := by
      intro hq
      by_cases hge : s.rb.w ≥ s.rb.r
      · apply hlen
        subst hq
        simp at h1
        rw [if_pos h2] at h1
        simp [h1, toU, hge]
      · have hqne : q ≠ [] := by
          intro hq0
          have h10 := h.rel.hw; have h20 := h.rel.hr
          subst hq0
          simp at h10
          rw [if_pos h20] at h10
          omega
        rw [hq] at p1
        exact hqne (List.prefix_nil.mp p1)
    obtain ⟨s2, q2, e2, i2, z2, r2, o2, p2⟩ := produceL_inv l2 i1
    obtain ⟨x, qt, rfl⟩ : ∃ x qt, q1 = x :: qt := by
      cases q1 with
      | nil => exact absurd rfl hne
      | cons a as => exact ⟨a, as, rfl⟩
    obtain ⟨t2, rfl⟩ := p2
    simp only [List.cons_append] at i2
    have hr2 := i2.rel.hr
    have hg := i2.rel.hget 0 (by simp)
    simp only [Nat.add_zero, hr2, if_true, List.getElem_cons_zero] at hg
    obtain ⟨s3, q3, e3, i3, z3, r3, o3, p3⟩ := produceL_inv l3 i2
    obtain ⟨t3, rfl⟩ := p3
    simp only [List.cons_append] at i3
    generalize hqq : qt ++ t2 ++ t3 = q3 at i3
    have hfin : ∀ s' q', produceL { s3 with rb := { s3.rb with r := s3.rb.r + 1 } } l4 = .ok s' →
        IInv { s' with rb := { s'.rb with r := wrap s'.rb.size s'.rb.r }, out := s'.out ++ [x] } q' →
        s'.rb.size = s.rb.size →
        ∃ s' q', readIsr s l1 l2 l3 l4 = .ok s' ∧ IInv s' q' ∧ s'.rb.size = s.rb.size := by
      intro s' q' he hi hz
      refine ⟨_, q', ?_, hi, hz⟩
      simp only [readIsr, e1, Res.bind_ok]
      rw [if_neg hlen]
      simp only [e2, Res.bind_ok, cGet, hg, e3, he]
    -- the committed state
    have i4 : IInv { s3 with rb := { s3.rb with r := wrap s3.rb.size (s3.rb.r + 1) },
                             out := s3.out ++ [x] } q3 :=
      { rel := rel_drop i3.rel, sz := i3.sz, hist := by simp [← i3.hist] }
    have hr3 := i3.rel.hr; have hw3 := i3.rel.hw; have hq3 := i3.rel.hq; have hl3 := i3.rel.hlen
    match l4, hl4 with
    | [], _ =>
      exact hfin _ q3 rfl i4 (by simp at *; omega)
    | [y], _ =>
      obtain ⟨s5, q5, e5, i5, z5, r5, o5, p5⟩ := produce_inv y i4
      have hw4 := i4.rel.hw
      have hwl := i4.rel.hw_lt
      simp only at hw4 hwl
      -- the overrun test gives the same answer with the transient read pointer
      have hfull : isFull ({ s3.rb with r := s3.rb.r + 1 } : RB α) =
          isFull ({ s3.rb with r := wrap s3.rb.size (s3.rb.r + 1) } : RB α) := by
        simp only [List.length_cons] at hw3 hq3
        rw [Bool.eq_iff_iff, isFull_iff, isFull_iff]
        simp only [wrap]
        split at hw3 <;> split <;> omega
      have hwlt : s3.rb.w < s3.rb.buf.length := by omega
      simp only [produce, write] at e5
      by_cases hf : isFull ({ s3.rb with r := wrap s3.rb.size (s3.rb.r + 1) } : RB α) = true
      · rw [if_pos hf] at e5
        simp only [Res.bind_ok, Res.ok.injEq] at e5
        simp only [Bool.false_eq_true, if_false] at e5
        refine hfin { s3 with rb := { s3.rb with r := s3.rb.r + 1 } } q3 ?_ i4 (by simp at *; omega)
        simp only [produceL, produce, write, hfull, hf, if_true, Res.bind_ok]
        simp
      · rw [if_neg hf] at e5
        simp only [cSet_ok y hwlt, Res.bind_ok, Res.ok.injEq] at e5
        simp only [if_true] at e5
        refine hfin { s3 with rb := { s3.rb with r := s3.rb.r + 1, buf := s3.rb.buf.set s3.rb.w y,
                                                 w := wrap s3.rb.size (s3.rb.w + 1) },
                              acc := s3.acc ++ [y] } q5 ?_ ?_ (by simp at *; omega)
        · simp only [produceL, produce, write, hfull]
          rw [if_neg hf]
          simp only [cSet_ok y hwlt, Res.bind_ok]
          simp
        · rw [← e5] at i5
          exact i5

theorem wrun_inv (as : List (WAct α))
    (hok : ∀ v n1 n2 n3, WAct.write v n1 n2 n3 ∈ as → n3 ≤ 1) {s : ISt α} {q : List α} (h : IInv s q) :
    ∃ s' q', wrun s as = .ok s' ∧ IInv s' q' ∧ s'.rb.size = s.rb.size := by
  induction as generalizing s q with
  | nil => exact ⟨s, q, rfl, h, rfl⟩
  | cons a as ih =>
    have hok' : ∀ v n1 n2 n3, WAct.write v n1 n2 n3 ∈ as → n3 ≤ 1 :=
      fun v n1 n2 n3 hm => hok v n1 n2 n3 (List.mem_cons_of_mem _ hm)
    cases a with
    | write v n1 n2 n3 =>
      obtain ⟨s1, q1, e1, i1, z1⟩ := writeIsr_inv v n1 n2 n3 (hok v n1 n2 n3 List.mem_cons_self) h
      obtain ⟨s2, q2, e2, i2, z2⟩ := ih hok' i1
      exact ⟨s2, q2, by simp [wrun, e1, e2], i2, by omega⟩
    | isr n =>
      obtain ⟨s1, e1, i1, z1, _⟩ := consumeN_inv n h
      obtain ⟨s2, q2, e2, i2, z2⟩ := ih hok' i1
      exact ⟨s2, q2, by simp [wrun, e1, e2], i2, by omega⟩

theorem rrun_inv (as : List (RAct α))
    (hok : ∀ l1 l2 l3 l4, RAct.read l1 l2 l3 l4 ∈ as → l4.length ≤ 1) {s : ISt α} {q : List α}
    (h : IInv s q) :
    ∃ s' q', rrun s as = .ok s' ∧ IInv s' q' ∧ s'.rb.size = s.rb.size := by
  induction as generalizing s q with
  | nil => exact ⟨s, q, rfl, h, rfl⟩
  | cons a as ih =>
    have hok' : ∀ l1 l2 l3 l4, RAct.read l1 l2 l3 l4 ∈ as → l4.length ≤ 1 :=
      fun l1 l2 l3 l4 hm => hok l1 l2 l3 l4 (List.mem_cons_of_mem _ hm)
    cases a with
    | read l1 l2 l3 l4 =>
      obtain ⟨s1, q1, e1, i1, z1⟩ := readIsr_inv l1 l2 l3 l4 (hok l1 l2 l3 l4 List.mem_cons_self) h
      obtain ⟨s2, q2, e2, i2, z2⟩ := ih hok' i1
      exact ⟨s2, q2, by simp [rrun, e1, e2], i2, by omega⟩
    | isr l =>
      obtain ⟨s1, q1, e1, i1, z1, _⟩ := produceL_inv l h
      obtain ⟨s2, q2, e2, i2, z2⟩ := ih hok' i1
      exact ⟨s2, q2, by simp [rrun, e1, e2], i2, by omega⟩

end Atl.RingBuffer
