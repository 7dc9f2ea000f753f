import Verif.Proof.RingBufferIsr
import Verif.Spec.SharedFifo
/- Lemmas for C04: the ring buffer against the shared queue of Spec/SharedFifo.lean. -/
namespace Atl.RingBuffer
open Atl.Spec.SharedFifo

/-- The ring buffer shows the queue `f`; the place of a pointer is the count modulo the size. -/
structure Shows (n : Nat) (s : ISt α) (f : Fifo α) : Prop where
  inv : IInv s (f.acc.drop f.read)
  acc : s.acc = f.acc
  le : f.read ≤ f.acc.length
  w : s.rb.w = f.acc.length % n
  sz : s.rb.size = n

theorem Shows.out {n : Nat} {s : ISt α} {f : Fifo α} (h : Shows n s f) : s.out = f.acc.take f.read := by
  have := h.inv.hist
  rw [h.acc] at this
  conv at this => rhs; rw [← List.take_append_drop f.read f.acc]
  exact List.append_cancel_right this

theorem Shows.r {n : Nat} {s : ISt α} {f : Fifo α} (h : Shows n s f) : s.rb.r = f.read % n := by
  have h1 := h.inv.rel.hw; have h2 := h.inv.rel.hr; have h3 := h.inv.rel.hq
  have h4 := h.w; have h5 := h.le
  rw [h.sz] at *
  simp only [List.length_drop] at h1 h3
  obtain ⟨k, hk⟩ : ∃ k, f.acc.length = f.read + k := ⟨f.acc.length - f.read, by omega⟩
  rw [hk] at h1 h3 h4
  have hkk : f.read + k - f.read = k := by omega
  rw [hkk] at h1 h3
  have hm : f.read % n < n := Nat.mod_lt _ (by omega)
  have e : (f.read + k) % n = if f.read % n + k < n then f.read % n + k else f.read % n + k - n := by
    rw [Nat.add_mod, Nat.mod_eq_of_lt h3]
    split
    · next h => exact Nat.mod_eq_of_lt h
    · next h => rw [Nat.mod_eq_sub_mod (by omega), Nat.mod_eq_of_lt (by omega)]
  rw [e] at h4
  rw [h4] at h1
  split at h1 <;> split at h1 <;> omega

theorem Shows.full {n : Nat} {s : ISt α} {f : Fifo α} (h : Shows n s f) : isFull s.rb = !decide (f.waiting < n - 1) := by
  have h3 := h.inv.rel.hq
  rw [isFull_rel h.inv.rel]
  have h4 := h.sz
  simp only [List.length_drop] at h3 ⊢
  by_cases hc : f.acc.length - f.read + 1 = s.rb.size
  · rw [decide_eq_true hc, decide_eq_false (by simp only [Fifo.waiting]; omega)]; rfl
  · rw [decide_eq_false hc, decide_eq_true (by simp only [Fifo.waiting]; omega)]; rfl

theorem shows_take {n : Nat} {s : ISt α} {f : Fifo α} (h : Shows n s f) (k : Nat) :
    ∃ s', consumeN s k = .ok s' ∧ Shows n s' (f.take k) ∧ s'.rb.buf = s.rb.buf := by
  obtain ⟨s', e, i, z, a, w, b⟩ := consumeN_inv k h.inv
  refine ⟨s', e, ⟨?_, by rw [a, h.acc]; rfl, by simp only [Fifo.take]; omega, by rw [w, h.w]; rfl, by rw [z, h.sz]⟩, b⟩
  rw [List.drop_drop] at i
  simp only [Fifo.take]
  by_cases hk : f.read + k ≤ f.acc.length
  · rw [Nat.min_eq_right hk]; exact i
  · rw [Nat.min_eq_left (by omega), List.drop_length]
    rwa [List.drop_eq_nil_of_le (by omega)] at i

/-- Reading while `_writePtr` is one past the end and values wait: as if it stood at the first place. -/
theorem consume_window {s : ISt α} {x : α} {q : List α} (hw : s.rb.w = s.rb.size) (h : IInv { s with rb := { s.rb with w := 0 } } (x :: q)) :
    consume s = .ok { s with rb := { s.rb with r := wrap s.rb.size (s.rb.r + 1) }, out := s.out ++ [x] } ∧
    IInv { s with rb := { s.rb with w := 0, r := wrap s.rb.size (s.rb.r + 1) }, out := s.out ++ [x] } q := by
  have hr := h.rel.hr; have hsz := h.sz
  have hg := h.rel.hget 0 (by simp)
  simp only [Nat.add_zero, List.getElem_cons_zero] at hg hr hsz
  rw [if_pos hr] at hg
  have hlen : getLength s.rb ≠ 0 := by
    simp only [getLength, toU]
    rw [if_pos (by omega)]
    omega
  constructor
  · simp only [consume, hlen, if_false, read, cGet, hg, Res.bind_ok]
  · exact { rel := rel_drop h.rel, sz := h.sz, hist := by have := h.hist; simp at this; simp [this] }

theorem consumeN_window (k : Nat) {s : ISt α} {q : List α} (hw : s.rb.w = s.rb.size) (h : IInv { s with rb := { s.rb with w := 0 } } q) (hk : k ≤ q.length) :
    ∃ s', consumeN s k = .ok s' ∧ IInv { s' with rb := { s'.rb with w := 0 } } (q.drop k) ∧ s'.rb.w = s.rb.w ∧ s'.rb.size = s.rb.size ∧ s'.acc = s.acc := by
  induction k generalizing s q with
  | zero => exact ⟨s, rfl, by simpa using h, rfl, rfl, rfl⟩
  | succ k ih =>
    cases q with
    | nil => simp at hk
    | cons x q =>
      obtain ⟨e, i⟩ := consume_window hw h
      obtain ⟨s', e', i', w', z', a'⟩ := ih (s := { s with rb := { s.rb with r := wrap s.rb.size (s.rb.r + 1) }, out := s.out ++ [x] }) (q := q)
        hw i (by simpa using hk)
      exact ⟨s', by simp [consumeN, e, e'], by simpa using i', w', z', a'⟩

/-- Reading while `_writePtr` is one past the end: every run reads, also when nothing waits. -/
theorem consumeN_past (k : Nat) {s : ISt α} (hw : s.rb.w = s.rb.size) (hb : s.rb.buf.length = s.rb.size) (hr : s.rb.r < s.rb.size) (hs : s.rb.size < 65536) :
    ∃ s', consumeN s k = .ok s' ∧ s'.out.length = s.out.length + k ∧ s'.acc = s.acc := by
  induction k generalizing s with
  | zero => exact ⟨s, rfl, rfl, rfl⟩
  | succ k ih =>
    have hlen : getLength s.rb ≠ 0 := by
      simp only [getLength, toU]
      rw [if_pos (by omega)]
      omega
    have hg : s.rb.buf[s.rb.r]? = some (s.rb.buf[s.rb.r]'(by omega)) := by simp
    have hrr : wrap s.rb.size (s.rb.r + 1) < s.rb.size := by simp only [wrap]; split <;> omega
    obtain ⟨s', e', o', a'⟩ := ih (s := { s with rb := { s.rb with r := wrap s.rb.size (s.rb.r + 1) }, out := s.out ++ [s.rb.buf[s.rb.r]'(by omega)] })
      hw hb hrr hs
    refine ⟨s', ?_, by rw [o']; simp; omega, a'⟩
    simp only [consumeN, consume, hlen, if_false, read, cGet, hg, Res.bind_ok]
    exact e'

theorem take_take (f : Fifo α) (a b : Nat) (h : f.read ≤ f.acc.length) : (f.take a).take b = f.take (a + b) := by
  simp only [Fifo.take, Fifo.mk.injEq, true_and]
  omega

theorem succ_mod (a n : Nat) (hn : 0 < n) : (a + 1) % n = if a % n + 1 < n then a % n + 1 else 0 := by
  have h := Nat.mod_lt a hn
  rw [Nat.add_mod]
  by_cases h1 : n = 1
  · subst h1; simp [Nat.mod_one]
  · rw [Nat.mod_eq_of_lt (show 1 < n by omega)]
    split
    · next h2 => exact Nat.mod_eq_of_lt h2
    · next h2 => rw [show a % n + 1 = n by omega, Nat.mod_self]

/-- The state of `writeIsr` before the handler runs in the window between increment and wrap. -/
theorem writeIsr_prefix {n : Nat} {s : ISt α} {f : Fifo α} (h : Shows n s f) (v : α) (n1 n2 n3 : Nat) (hf : f.waiting < n - 1) :
    ∃ t : ISt α, Shows n { t with rb := { t.rb with w := wrap n t.rb.w } } { f.take (n1 + n2) with acc := f.acc ++ [v] } ∧ t.rb.w = f.acc.length % n + 1 ∧
      writeIsr s v n1 n2 n3 = (do let u ← consumeN t n3; .ok { u with rb := { u.rb with w := wrap u.rb.size u.rb.w } }) := by
  have hfull : isFull s.rb = false := by rw [h.full]; simpa using hf
  obtain ⟨s1, e1, i1, b1⟩ := shows_take h n1
  have hroom : ∀ k, ((f.take k).acc.drop (f.take k).read).length + 1 < n := by
    intro k; simp only [Fifo.take, Fifo.waiting, List.length_drop] at *; have := h.le; omega
  have hw1 := i1.inv.rel.hw_lt
  have hl1 := i1.inv.rel.hlen
  have i2 : Shows n { s1 with rb := { s1.rb with buf := s1.rb.buf.set s1.rb.w v } } (f.take n1) :=
    ⟨⟨rel_store i1.inv.rel v (by rw [i1.sz]; exact hroom n1), i1.inv.sz, i1.inv.hist⟩, i1.acc, i1.le, i1.w, i1.sz⟩
  obtain ⟨s3, e3, i3, b3⟩ := shows_take i2 n2
  rw [take_take f n1 n2 h.le] at i3
  have hb : s3.rb.buf[s3.rb.w]? = some v := by
    rw [b3, i3.w]
    have : f.acc.length % n = s1.rb.w := i1.w.symm
    simp only [Fifo.take]
    rw [this, List.getElem?_set]; simp; omega
  have hw3 : s3.rb.w = f.acc.length % n := i3.w
  have hle : f.read ≤ f.acc.length := h.le
  refine ⟨{ s3 with rb := { s3.rb with w := s3.rb.w + 1 }, acc := s3.acc ++ [v] }, ⟨⟨?_, i3.inv.sz, ?_⟩, ?_, ?_, ?_, i3.sz⟩, by simp [hw3], ?_⟩
  · have := rel_commit i3.inv.rel v (by rw [i3.sz]; exact hroom _) hb
    rw [i3.sz] at this
    have hd : (f.acc ++ [v]).drop (f.take (n1 + n2)).read = (f.take (n1 + n2)).acc.drop (f.take (n1 + n2)).read ++ [v] := by
      rw [List.drop_append_of_le_length (by simp only [Fifo.take]; omega)]; rfl
    simp only
    rw [hd]
    rw [← i3.sz] at this ⊢
    exact this
  · have := i3.inv.hist
    simp only
    rw [List.drop_append_of_le_length (by simp only [Fifo.take]; omega), ← List.append_assoc]
    congr 1
  · have := i3.acc
    simp only
    rw [this]; rfl
  · simp only [Fifo.take, List.length_append, List.length_singleton]; omega
  · simp only [hw3, List.length_append, List.length_singleton]
    have hn : 0 < n := by omega
    rw [succ_mod _ n hn]
    simp only [wrap]
    split <;> split <;> omega
  · simp only [writeIsr, hfull, Bool.false_eq_true, if_false, e1, Res.bind_ok, cSet_ok v (show s1.rb.w < s1.rb.buf.length by omega), e3]

theorem writeIsr_exact {n : Nat} {s : ISt α} {f : Fifo α} (h : Shows n s f) (v : α) (n1 n2 n3 : Nat) :
    (∀ f', Fifo.mainWrites n f (.write v n1 n2 n3) = some f' → ∃ s', writeIsr s v n1 n2 n3 = .ok s' ∧ Shows n s' f') ∧
    (Fifo.mainWrites n f (.write v n1 n2 n3) = none → ∃ s', writeIsr s v n1 n2 n3 = .ok s' ∧ s'.acc.length < s'.out.length) := by
  by_cases hnf : ¬ f.waiting < n - 1
  · have hf := hnf
    have hfull : isFull s.rb = true := by rw [h.full]; simpa using hf
    simp only [Fifo.mainWrites, hf, if_false]
    refine ⟨?_, by simp⟩
    rintro f' ⟨⟩
    exact ⟨s, by simp [writeIsr, hfull], h⟩
  · have hf : f.waiting < n - 1 := by omega
    obtain ⟨t, ht, hw, hrun⟩ := writeIsr_prefix h v n1 n2 n3 hf
    have hn : 0 < n := by omega
    have hlt := Nat.mod_lt f.acc.length hn
    simp only [Fifo.mainWrites, hf, if_true]
    generalize hf2 : ({ f.take (n1 + n2) with acc := f.acc ++ [v] } : Fifo α) = f2 at *
    have hlen : f2.acc.length = f.acc.length + 1 := by subst hf2; simp
    have hmod := succ_mod f.acc.length n hn
    by_cases hlast : f.acc.length % n + 1 < n
    · -- no window
      rw [if_pos hlast] at hmod
      rw [if_neg (by simp only [List.length_append, List.length_singleton]; omega)]
      have hwr : wrap n t.rb.w = t.rb.w := by simp only [wrap]; rw [if_neg (by omega)]
      rw [hwr] at ht
      refine ⟨?_, by simp⟩
      rintro f' ⟨⟩
      obtain ⟨u, e, i, _⟩ := shows_take ht n3
      have he : (t : ISt α) = { t with rb := { t.rb with w := t.rb.w } } := rfl
      rw [← he] at e
      refine ⟨u, ?_, i⟩
      rw [hrun, e]
      have := i.inv.rel.hw_lt
      simp only [Res.bind_ok, wrap]
      rw [if_neg (by omega)]
    · rw [if_neg hlast] at hmod
      have hwn : t.rb.w = n := by omega
      have hsz : t.rb.size = n := ht.sz
      have hwr : wrap n t.rb.w = 0 := by simp only [wrap]; rw [if_pos (by omega)]
      rw [hwr] at ht
      by_cases hk : f2.waiting < n3
      · rw [if_pos ⟨by simpa using hmod, hk⟩]
        refine ⟨by simp, fun _ => ?_⟩
        obtain ⟨u, e, o, a⟩ := consumeN_past n3 (s := t) (by omega) ht.inv.rel.hlen ht.inv.rel.hr ht.inv.sz
        refine ⟨_, by rw [hrun, e]; rfl, ?_⟩
        show u.acc.length < u.out.length
        have h1 : t.out = f2.acc.take f2.read := ht.out
        have h2 : t.acc = f2.acc := ht.acc
        have h3 := ht.le
        rw [a, o, h1, h2]
        simp only [Fifo.waiting, List.length_take] at *
        omega
      · rw [if_neg fun hx => hk hx.2]
        refine ⟨?_, by simp⟩
        rintro f' ⟨⟩
        obtain ⟨u, e, i, w, z, a⟩ := consumeN_window n3 (s := t) (by omega) ht.inv (by simp [Fifo.waiting] at hk ⊢; omega)
        refine ⟨_, by rw [hrun, e]; rfl, ?_⟩
        have hle := ht.le
        have hwz : wrap u.rb.size u.rb.w = 0 := by simp only [wrap]; rw [if_pos (by omega)]
        have hmin : min f2.acc.length (f2.read + n3) = f2.read + n3 := by simp only [Fifo.waiting] at hk; omega
        refine ⟨?_, ?_, by simp only [Fifo.take]; omega, ?_, by simp only; omega⟩
        · rw [hwz]
          simp only [Fifo.take]
          rw [hmin, ← List.drop_drop]
          exact i
        · show u.acc = f2.acc
          rw [a]; exact ht.acc
        · show wrap u.rb.size u.rb.w = f2.acc.length % n
          rw [hwz, hlen, hmod]

theorem wrunE_append (s : ISt α) (a b : List (WAct α)) : wrun s (a ++ b) = (do let t ← wrun s a; wrun t b) := by
  induction a generalizing s with
  | nil => rfl
  | cons x a ih =>
    cases x with
    | write v n1 n2 n3 => simp only [List.cons_append, wrun]; cases writeIsr s v n1 n2 n3 <;> simp [ih]
    | isr k => simp only [List.cons_append, wrun]; cases consumeN s k <;> simp [ih]

theorem wrun_exact {n : Nat} (as : List (WAct α)) {s : ISt α} {f f' : Fifo α} (h : Shows n s f) (hf : as.foldlM (Fifo.mainWrites n) f = some f') :
    ∃ s', wrun s as = .ok s' ∧ Shows n s' f' := by
  induction as generalizing s f with
  | nil => simp at hf; exact ⟨s, rfl, hf ▸ h⟩
  | cons a as ih =>
    rw [List.foldlM_cons] at hf
    cases hm : Fifo.mainWrites n f a with
    | none => rw [hm] at hf; cases hf
    | some g =>
      rw [hm] at hf
      cases a with
      | write v n1 n2 n3 =>
        obtain ⟨t, e, i⟩ := (writeIsr_exact h v n1 n2 n3).1 g hm
        obtain ⟨s', e', i'⟩ := ih i hf
        exact ⟨s', by simp [wrun, e, e'], i'⟩
      | isr k =>
        obtain ⟨t, e, i, _⟩ := shows_take h k
        simp only [Fifo.mainWrites, Option.some.injEq] at hm
        rw [hm] at i
        obtain ⟨s', e', i'⟩ := ih i hf
        exact ⟨s', by simp [wrun, e, e'], i'⟩

/-! ### Main reads -/

theorem shows_offer {n : Nat} {s : ISt α} {f : Fifo α} (h : Shows n s f) (v : α) :
    ∃ s', produce s v = .ok s' ∧ Shows n s' (f.offer n v) ∧ s'.rb.r = s.rb.r ∧ s'.out = s.out := by
  have hq := h.inv.rel.hq
  by_cases hf : f.waiting < n - 1
  · have hfull : isFull s.rb = false := by rw [h.full]; simpa using hf
    have hw := h.inv.rel.hw_lt; have hl := h.inv.rel.hlen
    have hroom : (f.acc.drop f.read).length + 1 < s.rb.size := by rw [h.sz]; simp only [Fifo.waiting, List.length_drop] at *; omega
    have h1 := rel_store h.inv.rel v hroom
    have h2 := rel_commit (v := v) h1 hroom (by simp only; rw [List.getElem?_set]; simp; omega)
    have hd : (f.acc ++ [v]).drop f.read = f.acc.drop f.read ++ [v] := List.drop_append_of_le_length h.le
    simp only [Fifo.offer, hf, if_true]
    refine ⟨{ s with rb := { s.rb with buf := s.rb.buf.set s.rb.w v, w := wrap s.rb.size (s.rb.w + 1) }, acc := s.acc ++ [v] }, ?_, ⟨⟨?_, h.inv.sz, ?_⟩, ?_, ?_, ?_, h.sz⟩, rfl, rfl⟩
    · simp [produce, write, hfull, cSet_ok v (show s.rb.w < s.rb.buf.length by omega)]
    · simp only; rw [hd]; exact h2
    · simp only; rw [hd, ← h.inv.hist]; simp
    · simp only; rw [h.acc]
    · simp only [List.length_append, List.length_singleton]; have := h.le; omega
    · have hn : 0 < n := by omega
      simp only [List.length_append, List.length_singleton]
      rw [succ_mod _ n hn, h.w, h.sz]
      have := Nat.mod_lt f.acc.length hn
      simp only [wrap]
      split <;> split <;> omega
  · refine ⟨s, ?_, by simpa [Fifo.offer, hf] using h, rfl, rfl⟩
    have hr : (f.acc.drop f.read).length + 1 = s.rb.size := by rw [h.sz] at *; simp only [Fifo.waiting, List.length_drop] at *; omega
    simp [produce, write_full h.inv.rel v hr]

theorem shows_offers {n : Nat} (l : List α) {s : ISt α} {f : Fifo α} (h : Shows n s f) :
    ∃ s', produceL s l = .ok s' ∧ Shows n s' (f.offers n l) ∧ s'.rb.r = s.rb.r ∧ s'.out = s.out := by
  induction l generalizing s f with
  | nil => exact ⟨s, rfl, h, rfl, rfl⟩
  | cons v l ih =>
    obtain ⟨t, e, i, r, o⟩ := shows_offer h v
    obtain ⟨s', e', i', r', o'⟩ := ih i
    exact ⟨s', by simp [produceL, e, e'], i', by rw [r', r], by rw [o', o]⟩

theorem offer_prefix (n : Nat) (f : Fifo α) (v : α) : f.acc <+: (f.offer n v).acc ∧ (f.offer n v).read = f.read := by
  unfold Fifo.offer; split <;> simp

theorem offers_prefix (n : Nat) (l : List α) (f : Fifo α) : f.acc <+: (f.offers n l).acc ∧ (f.offers n l).read = f.read := by
  induction l generalizing f with
  | nil => exact ⟨List.prefix_refl _, rfl⟩
  | cons v l ih =>
    obtain ⟨h1, h2⟩ := ih (f.offer n v)
    obtain ⟨h3, h4⟩ := offer_prefix n f v
    exact ⟨h3.trans h1, h2.trans h4⟩

/-- Values that all fit. -/
theorem offers_room (n : Nat) (l : List α) (f : Fifo α) (h : f.read ≤ f.acc.length) (hl : f.waiting + l.length ≤ n - 1) :
    f.offers n l = { f with acc := f.acc ++ l } := by
  induction l generalizing f with
  | nil => simp [Fifo.offers]
  | cons v l ih =>
    simp only [List.length_cons] at hl
    show (f.offer n v).offers n l = _
    have ho : f.offer n v = { f with acc := f.acc ++ [v] } := by unfold Fifo.offer; rw [if_pos (by omega)]
    rw [ho, ih _ (by simp; omega) (by simp only [Fifo.waiting, List.length_append, List.length_singleton] at *; omega)]
    simp

/-- Writing while `_readPtr` is one past the end: never refused. -/
theorem produceL_past (l : List α) {s : ISt α} (hr : s.rb.r = s.rb.size) (hb : s.rb.buf.length = s.rb.size) (hw : s.rb.w < s.rb.size) :
    ∃ s', produceL s l = .ok s' ∧ s'.acc = s.acc ++ l ∧ s'.out = s.out ∧ s'.rb.w < s'.rb.size ∧ s'.rb.size = s.rb.size ∧ s'.rb.r = s.rb.r ∧
      s'.rb.buf.length = s.rb.buf.length ∧
      (s.rb.w + l.length < s.rb.size → s'.rb.w = s.rb.w + l.length ∧ ∀ i, i < s.rb.w → s'.rb.buf[i]? = s.rb.buf[i]?) ∧
      (s.rb.w + l.length < s.rb.size → ∀ i (hi : i < l.length), s'.rb.buf[s.rb.w + i]? = some l[i]) := by
  induction l generalizing s with
  | nil => exact ⟨s, rfl, by simp, rfl, hw, rfl, rfl, rfl, by simp, by simp⟩
  | cons v l ih =>
    have hfull : isFull s.rb = false := by
      rw [← Bool.not_eq_true, isFull_iff]; omega
    have hww : wrap s.rb.size (s.rb.w + 1) < s.rb.size := by simp only [wrap]; split <;> omega
    obtain ⟨s', e, a, o, w, z, r, b, c, d⟩ := ih (s := { s with rb := { s.rb with buf := s.rb.buf.set s.rb.w v, w := wrap s.rb.size (s.rb.w + 1) }, acc := s.acc ++ [v] })
      hr (by simp only [List.length_set]; omega) hww
    refine ⟨s', ?_, by rw [a]; simp, o, w, z, r, by rw [b]; simp, ?_, ?_⟩
    · simp only [produceL, produce, write, hfull, Bool.false_eq_true, if_false, cSet_ok v (show s.rb.w < s.rb.buf.length by omega), Res.bind_ok, if_true, e]
    · intro hl
      simp only [List.length_cons] at hl
      have hwr : wrap s.rb.size (s.rb.w + 1) = s.rb.w + 1 := by simp only [wrap]; rw [if_neg (by omega)]
      obtain ⟨c1, c2⟩ := c (by simp only [hwr]; omega)
      simp only [hwr] at c1 c2
      refine ⟨by simp only [List.length_cons]; omega, fun i hi => ?_⟩
      rw [c2 i (by omega), List.getElem?_set_ne (by omega)]
    · intro hl i hi
      simp only [List.length_cons] at hl
      have hwr : wrap s.rb.size (s.rb.w + 1) = s.rb.w + 1 := by simp only [wrap]; rw [if_neg (by omega)]
      cases i with
      | zero =>
        obtain ⟨c1, c2⟩ := c (by simp only [hwr]; omega)
        simp only [hwr] at c2
        rw [Nat.add_zero, c2 s.rb.w (by omega), List.getElem?_set]
        simp; omega
      | succ i =>
        have := d (by simp only [hwr]; omega) i (by simpa using hi)
        simp only [hwr] at this
        rw [show s.rb.w + (i + 1) = s.rb.w + 1 + i by omega, this]
        simp

/-- The length test of the interrupted `getLength` (two loads of `_writePtr`): zero exactly if nothing waits at the second load. -/
theorem length_test {n : Nat} {s s1 : ISt α} {f f1 : Fifo α} (h : Shows n s f) (h1 : Shows n s1 f1) (hr : s1.rb.r = s.rb.r) (hp : f.waiting ≤ f1.waiting) :
    ((if (decide (s.rb.w ≥ s.rb.r)) = true then toU 16 ((s1.rb.w : Int) - s1.rb.r)
      else toU 16 ((s1.rb.size : Int) - ((s1.rb.r : Int) - s1.rb.w))) = 0) ↔ f1.waiting = 0 := by
  have a1 := h.inv.rel.hw; have a2 := h.inv.rel.hr; have a3 := h.inv.rel.hq; have a4 := h.sz
  have b1 := h1.inv.rel.hw; have b2 := h1.inv.rel.hr; have b3 := h1.inv.rel.hq; have b4 := h1.sz; have b5 := h1.inv.sz
  simp only [List.length_drop] at a1 a3 b1 b3
  simp only [Fifo.waiting] at *
  simp only [decide_eq_true_eq, toU]
  split <;> split at a1 <;> split at b1 <;> omega

theorem readIsr_exact {n : Nat} {s : ISt α} {f : Fifo α} (h : Shows n s f) (l1 l2 l3 l4 : List α) :
    (∀ f', Fifo.mainReads n f (.read l1 l2 l3 l4) = some f' → ∃ s', readIsr s l1 l2 l3 l4 = .ok s' ∧ Shows n s' f') ∧
    (Fifo.mainReads n f (.read l1 l2 l3 l4) = none →
      ∃ s', readIsr s l1 l2 l3 l4 = .ok s' ∧ s'.out.length + getLength s'.rb < s'.acc.length) := by
  obtain ⟨s1, e1, i1, r1, o1⟩ := shows_offers l1 h
  obtain ⟨p1, q1⟩ := offers_prefix n l1 f
  have ht := length_test h i1 r1 (by
    have := p1.length_le; simp only [Fifo.waiting, q1]; omega)
  have hn : 0 < n := by have := h.inv.rel.hr; rw [h.sz] at this; omega
  simp only [Fifo.mainReads]
  generalize hg1 : f.offers n l1 = f1 at *
  by_cases hz : f1.waiting = 0
  · rw [if_pos hz]
    refine ⟨?_, by simp⟩
    rintro f' ⟨⟩
    refine ⟨s1, ?_, i1⟩
    simp only [readIsr, e1, Res.bind_ok]
    rw [if_pos (ht.2 hz)]
  · rw [if_neg hz]
    have hlen := mt ht.1 hz
    obtain ⟨s2, e2, i2, r2, o2⟩ := shows_offers l2 i1
    obtain ⟨p2, q2⟩ := offers_prefix n l2 f1
    obtain ⟨s3, e3, i3, r3, o3⟩ := shows_offers l3 i2
    obtain ⟨p3, q3⟩ := offers_prefix n l3 (f1.offers n l2)
    have happ : f1.offers n (l2 ++ l3) = (f1.offers n l2).offers n l3 := by simp [Fifo.offers]
    rw [happ]
    generalize hg2 : f1.offers n l2 = f2 at *
    generalize hg3 : f2.offers n l3 = f3 at *
    have hle1 : f1.read < f1.acc.length := by simp only [Fifo.waiting] at hz; omega
    have hlt2 : f1.read < f2.acc.length := Nat.lt_of_lt_of_le hle1 p2.length_le
    have hlt3 : f1.read < f3.acc.length := Nat.lt_of_lt_of_le hlt2 p3.length_le
    have hr3 : f3.read = f1.read := q3.trans q2
    -- the value that is read
    obtain ⟨x, hx⟩ : ∃ x, f2.acc[f1.read]? = some x := ⟨_, List.getElem?_eq_getElem hlt2⟩
    have hx3 : f3.acc[f1.read]? = some x := by
      obtain ⟨t, ht⟩ := p3
      rw [← ht, List.getElem?_append_left hlt2, hx]
    have hget : s2.rb.buf[s2.rb.r]? = some x := by
      have a := i2.inv.rel.hget 0 (by rw [List.length_drop]; omega)
      have b := i2.inv.rel.hr
      simp only [Nat.add_zero] at a
      rw [if_pos b] at a
      rw [a, ← hx, ← q2]
      simp
    have hcons : f3.acc.drop f3.read = x :: f3.acc.drop (f3.read + 1) := by
      rw [hr3]
      have hh := List.getElem?_eq_some_iff.1 hx3
      rw [List.drop_eq_getElem_cons hlt3, hh.2]
    have hrun : readIsr s l1 l2 l3 l4 = (do
        let u ← produceL { s3 with rb := { s3.rb with r := s3.rb.r + 1 } } l4
        .ok { u with rb := { u.rb with r := wrap u.rb.size u.rb.r }, out := u.out ++ [x] }) := by
      simp only [readIsr, e1, Res.bind_ok]
      rw [if_neg hlen]
      simp only [e2, Res.bind_ok, cGet, hget, e3]
    have i3' := i3.inv
    rw [hcons] at i3'
    -- the committed state
    have i4 : Shows n { s3 with rb := { s3.rb with r := wrap s3.rb.size (s3.rb.r + 1) }, out := s3.out ++ [x] } { f3 with read := f3.read + 1 } :=
      ⟨⟨rel_drop i3'.rel, i3'.sz, by have := i3'.hist; simp only at this ⊢; rw [← this]; simp⟩, i3.acc, by simp only; omega, i3.w, i3.sz⟩
    have hr4 : s3.rb.r = f3.read % n := i3.r
    have hmod := succ_mod f3.read n hn
    have hrlt := i3.inv.rel.hr
    have hsz3 := i3.sz
    obtain ⟨f4, hf4⟩ : ∃ f4 : Fifo α, f4 = { f3 with read := f3.read + 1 } := ⟨_, rfl⟩
    rw [← hf4] at i4
    have hread4 : f4.read = f3.read + 1 := by subst hf4; rfl
    have hacc4 : f4.acc = f3.acc := by subst hf4; rfl
    have hmod4 : (f3.read + 1) % n = f4.read % n := by rw [hread4]
    by_cases hlast : s3.rb.r + 1 < n
    · -- no window
      rw [if_neg (by intro hx; have := hx.1; rw [hmod, ← hr4, if_pos hlast] at this; omega)]
      refine ⟨?_, by simp⟩
      rintro f' ⟨⟩
      have hwr : wrap s3.rb.size (s3.rb.r + 1) = s3.rb.r + 1 := by simp only [wrap]; rw [if_neg (by omega)]
      rw [hwr] at i4
      obtain ⟨u, e, i, r, o⟩ := shows_offers l4 i4
      -- the output list plays no part in the handler
      have hout : ∀ (l : List α) (a : ISt α) (y : List α) (b : ISt α), produceL { a with out := y } l = .ok b → b.out = y ∧ produceL a l = .ok { b with out := a.out } := by
        intro l
        induction l with
        | nil => rintro a y b ⟨⟩; exact ⟨rfl, rfl⟩
        | cons v l ih =>
          intro a y b hb
          simp only [produceL, produce] at hb ⊢
          cases hw : write a.rb v with
          | ub => rw [hw] at hb; cases hb
          | ok p =>
            rw [hw] at hb
            simp only [Res.bind_ok] at hb ⊢
            exact ih { a with rb := p.1, acc := if p.2 = true then a.acc ++ [v] else a.acc } y b hb
      obtain ⟨ho, hp⟩ := hout l4 { s3 with rb := { s3.rb with r := s3.rb.r + 1 } } (s3.out ++ [x]) u e
      refine ⟨u, ?_, hf4 ▸ i⟩
      rw [hrun, hp]
      have hwu : wrap u.rb.size u.rb.r = u.rb.r := by have := i.inv.rel.hr; simp only [wrap]; rw [if_neg (by omega)]
      simp only [Res.bind_ok, hwu]
      rw [← ho]
    · have hrs : s3.rb.r + 1 = n := by omega
      have hm0 : (f3.read + 1) % n = 0 := by rw [hmod, ← hr4, if_neg hlast]
      have hwr : wrap s3.rb.size (s3.rb.r + 1) = 0 := by simp only [wrap]; rw [if_pos (by omega)]
      rw [hwr] at i4
      have hw4 := i4.inv.rel.hw_lt
      have hwq := i4.inv.rel.hw
      have hq4 := i4.inv.rel.hq
      simp only [List.length_drop] at hw4 hwq hq4
      obtain ⟨u, e, a, o, w, z, r, b, c, d⟩ := produceL_past l4 (s := { s3 with rb := { s3.rb with r := s3.rb.r + 1 } }) (by simp only; omega) i3.inv.rel.hlen
        (by simp only; omega)
      simp only at a o z r b c d
      have hwait : f4.waiting = s3.rb.w := by
        simp only [Fifo.waiting]
        rw [if_pos (by omega)] at hwq
        omega
      have hwu : wrap u.rb.size u.rb.r = 0 := by simp only [wrap]; rw [if_pos (by omega)]
      have hu : readIsr s l1 l2 l3 l4 = .ok { u with rb := { u.rb with r := 0 }, out := u.out ++ [x] } := by
        rw [hrun, e]; simp only [Res.bind_ok, hwu]
      by_cases hk : n - 1 < f4.waiting + l4.length
      · rw [if_pos ⟨hm0, hf4 ▸ hk⟩]
        refine ⟨by simp, fun _ => ⟨_, hu, ?_⟩⟩
        have hout3 : s3.out = f3.acc.take f3.read := i3.out
        have hlen3 : s3.out.length = f3.read := by rw [hout3, List.length_take]; omega
        have hg : getLength ({ u.rb with r := 0 } : RB α) = u.rb.w := by
          have := i3.inv.sz
          simp only [getLength, toU]
          rw [if_pos (by omega)]
          omega
        simp only
        rw [hg, a, o]
        simp only [List.length_append, List.length_singleton]
        have hacc3 : s3.acc = f3.acc := i3.acc
        rw [hacc3, hlen3]
        simp only [Fifo.waiting, hacc4, hread4] at hk
        have h5 : f3.read + 1 ≤ f3.acc.length := by omega
        omega
      · rw [if_neg fun hx => hk (hf4 ▸ hx.2)]
        refine ⟨?_, by simp⟩
        rintro f' ⟨⟩
        refine ⟨_, hu, ?_⟩
        rw [← hf4]
        have hroom := offers_room n l4 f4 (by have := i4.le; omega) (by omega)
        rw [hroom]
        have hfit : s3.rb.w + l4.length < s3.rb.size := by omega
        obtain ⟨c1, c2⟩ := c hfit
        have hd := d hfit
        have hle4 := i4.le
        have hdr : (f4.acc ++ l4).drop f4.read = f4.acc.drop f4.read ++ l4 := List.drop_append_of_le_length hle4
        have hql : (f4.acc.drop f4.read).length = s3.rb.w := by rw [List.length_drop]; exact hwait
        refine ⟨⟨⟨?_, ?_, ?_, ?_, ?_⟩, ?_, ?_⟩, ?_, ?_, ?_, ?_⟩
        · show u.rb.buf.length = u.rb.size
          have := i3.inv.rel.hlen; omega
        · show 0 < u.rb.size
          omega
        · show ((f4.acc ++ l4).drop f4.read).length < u.rb.size
          rw [hdr, List.length_append, hql]; omega
        · show u.rb.w = if 0 + ((f4.acc ++ l4).drop f4.read).length < u.rb.size then 0 + ((f4.acc ++ l4).drop f4.read).length else _
          rw [hdr, List.length_append, hql, if_pos (by omega)]; omega
        · intro i hi
          show u.rb.buf[if 0 + i < u.rb.size then 0 + i else 0 + i - u.rb.size]? = _
          have hi' : i < s3.rb.w + l4.length := by
            simp only at hi
            rw [hdr, List.length_append, hql] at hi; exact hi
          rw [if_pos (by omega), Nat.zero_add]
          simp only [hdr]
          by_cases hiw : i < s3.rb.w
          · have hgo := i4.inv.rel.hget i (by rw [hql]; exact hiw)
            simp only [Nat.zero_add] at hgo
            rw [if_pos (by omega)] at hgo
            rw [c2 i hiw, hgo, List.getElem_append_left (by rw [hql]; exact hiw)]
          · have := hd (i - s3.rb.w) (by omega)
            rw [show s3.rb.w + (i - s3.rb.w) = i by omega] at this
            rw [this, List.getElem_append_right (by rw [hql]; omega)]
            congr 2
            omega
        · show u.rb.size < 65536
          have := i3.inv.sz; omega
        · show u.out ++ [x] ++ (f4.acc ++ l4).drop f4.read = u.acc
          have hh := i4.inv.hist
          simp only at hh
          rw [hdr, a, o, ← hh]
          simp
        · show u.acc = f4.acc ++ l4
          rw [a]
          have := i4.acc
          simp only at this
          rw [this]
        · show f4.read ≤ (f4.acc ++ l4).length
          rw [List.length_append]; omega
        · show u.rb.w = (f4.acc ++ l4).length % n
          have h6 : (f4.acc ++ l4).length = f4.read + (s3.rb.w + l4.length) := by
            rw [List.length_append]
            simp only [Fifo.waiting] at hwait
            omega
          rw [c1, h6, Nat.add_mod, ← hmod4, hm0, Nat.zero_add, Nat.mod_mod, Nat.mod_eq_of_lt (by omega)]
        · show u.rb.size = n
          omega

theorem rrunE_append (s : ISt α) (a b : List (RAct α)) : rrun s (a ++ b) = (do let t ← rrun s a; rrun t b) := by
  induction a generalizing s with
  | nil => rfl
  | cons x a ih =>
    cases x with
    | read l1 l2 l3 l4 => simp only [List.cons_append, rrun]; cases readIsr s l1 l2 l3 l4 <;> simp [ih]
    | isr l => simp only [List.cons_append, rrun]; cases produceL s l <;> simp [ih]

theorem rrun_exact {n : Nat} (as : List (RAct α)) {s : ISt α} {f f' : Fifo α} (h : Shows n s f) (hf : as.foldlM (Fifo.mainReads n) f = some f') :
    ∃ s', rrun s as = .ok s' ∧ Shows n s' f' := by
  induction as generalizing s f with
  | nil => simp at hf; exact ⟨s, rfl, hf ▸ h⟩
  | cons a as ih =>
    rw [List.foldlM_cons] at hf
    cases hm : Fifo.mainReads n f a with
    | none => rw [hm] at hf; cases hf
    | some g =>
      rw [hm] at hf
      cases a with
      | read l1 l2 l3 l4 =>
        obtain ⟨t, e, i⟩ := (readIsr_exact h l1 l2 l3 l4).1 g hm
        obtain ⟨s', e', i'⟩ := ih i hf
        exact ⟨s', by simp [rrun, e, e'], i'⟩
      | isr l =>
        obtain ⟨t, e, i, _⟩ := shows_offers l h
        simp only [Fifo.mainReads, Option.some.injEq] at hm
        rw [hm] at i
        obtain ⟨s', e', i'⟩ := ih i hf
        exact ⟨s', by simp [rrun, e, e'], i'⟩

theorem shows_init (g : List α) (hg : 0 < g.length) (hs : g.length < 65536) : Shows g.length (iinit g) ⟨[], 0⟩ :=
  ⟨iinit_inv g hg hs, rfl, by simp, by simp [iinit, mk], rfl⟩

end Atl.RingBuffer
