import Verif.Model.TimeTorn

/- Property theorems C146: a clock whose count is accessed byte by byte, shared with interrupt handlers. -/
namespace Atl.Props
open Atl Atl.TimeTorn

namespace TornClock

/-! ### Specification -/

/-- Handlers update and main code only reads; the time goes on from `t` and the counter does not wrap. -/
def MainReads : Nat → List TimeTorn.Ev → Prop
  | _, [] => True
  | t, .tick u :: es => t ≤ u ∧ u < 2 ^ 32 ∧ MainReads u es
  | _, .update :: _ => False
  | t, .read :: es | t, .main _ :: es | t, .ask :: es => MainReads t es

/-- Main code updates and handlers only read; the time goes on from `t` and the counter does not wrap. -/
def MainUpdates : Nat → List TimeTorn.Ev → Prop
  | _, [] => True
  | t, .main u :: es => t ≤ u ∧ u < 2 ^ 32 ∧ MainUpdates u es
  | _, .tick _ :: _ => False
  | t, .read :: es | t, .update :: es | t, .ask :: es => MainUpdates t es

/-- Main code makes one call after the other. -/
def OneByOne (low : Bool) (s : St) : List TimeTorn.Ev → Prop
  | [] => True
  | e :: es => (e = .read ∨ e = .update → s.pc = .idle) ∧ OneByOne low (step low s e) es

/-- Four bytes taken from four values. -/
def mixed (v0 v1 v2 v3 : Nat) : Nat := v0 % 256 + 256 * (v1 / 256 % 256) + 65536 * (v2 / 65536 % 256) + 16777216 * (v3 / 16777216 % 256)

/-! ### Proofs -/

theorem mixed_self (v : Nat) (h : v < 2 ^ 32) : mixed v v v v = v := by unfold mixed; omega

/-- Low byte first: never before the first, less than 2^24 ahead of the last. -/
theorem mixed_low (a b c d : Nat) (h1 : a ≤ b) (h2 : b ≤ c) (h3 : c ≤ d) (h4 : d < 2 ^ 32) : a ≤ mixed a b c d ∧ mixed a b c d < d + 2 ^ 24 := by
  unfold mixed; omega

/-- High byte first: never after the last, less than 2^24 behind the first. -/
theorem mixed_high (a b c d : Nat) (h1 : a ≤ b) (h2 : b ≤ c) (h3 : c ≤ d) (h4 : d < 2 ^ 32) : mixed d c b a ≤ d ∧ a < mixed d c b a + 2 ^ 24 := by
  unfold mixed; omega

/-- Within a block of 256 ticks. -/
theorem mixed_block (x y z w a d : Nat) (hx : a ≤ x ∧ x ≤ d) (hy : a ≤ y ∧ y ≤ d) (hz : a ≤ z ∧ z ≤ d) (hw : a ≤ w ∧ w ≤ d) (h4 : d < 2 ^ 32)
    (h : a / 256 = d / 256) : mixed x y z w = x := by
  unfold mixed; omega

/-- The value of four bytes loaded in order from `v0`, `v1`, `v2`, `v3`. -/
def inOrder (low : Bool) (v0 v1 v2 v3 : Nat) : Nat := if low then mixed v0 v1 v2 v3 else mixed v3 v2 v1 v0

/-- The bytes loaded so far and the values `_ticks` had then. -/
def Seen (low : Bool) (first ticks : Nat) (got : List Nat) : Prop :=
  (got = [] ∧ first ≤ ticks) ∨
  (∃ a, got = [byteOf a (place low 0)] ∧ first ≤ a ∧ a ≤ ticks) ∨
  (∃ a b, got = [byteOf a (place low 0), byteOf b (place low 1)] ∧ first ≤ a ∧ a ≤ b ∧ b ≤ ticks) ∨
  (∃ a b c, got = [byteOf a (place low 0), byteOf b (place low 1), byteOf c (place low 2)] ∧ first ≤ a ∧ a ≤ b ∧ b ≤ c ∧ c ≤ ticks)

theorem seen_mono {low : Bool} {f t t' : Nat} {got : List Nat} (h : Seen low f t got) (ht : t ≤ t') : Seen low f t' got := by
  rcases h with ⟨h, h1⟩ | ⟨a, h, h1, h2⟩ | ⟨a, b, h, h1, h2, h3⟩ | ⟨a, b, c, h, h1, h2, h3, h4⟩
  · exact .inl ⟨h, by omega⟩
  · exact .inr (.inl ⟨a, h, h1, by omega⟩)
  · exact .inr (.inr (.inl ⟨a, b, h, h1, h2, by omega⟩))
  · exact .inr (.inr (.inr ⟨a, b, c, h, h1, h2, h3, by omega⟩))

theorem value_four (low : Bool) (a b c d : Nat) :
    valueOf low [byteOf a (place low 0), byteOf b (place low 1), byteOf c (place low 2), byteOf d (place low 3)] = inOrder low a b c d := by
  cases low <;> simp [valueOf, byteOf, place, inOrder, mixed] <;> omega

/-- What a reading of main code is made of. -/
def Composed (low : Bool) (first last value : Nat) : Prop :=
  ∃ a b c, first ≤ a ∧ a ≤ b ∧ b ≤ c ∧ c ≤ last ∧ last < 2 ^ 32 ∧ value = inOrder low a b c last

/-- Handlers update, main code reads. -/
def InvR (low : Bool) (t : Nat) (s : St) : Prop :=
  s.ticks ≤ t ∧ s.ticks < 2 ^ 32 ∧ (∀ f l v, Entry.read f l v ∈ s.log → Composed low f l v) ∧ (∀ o n v, Entry.heard o n v ∈ s.log → v = o ∧ v = n) ∧
  (s.pc = .idle ∨ ∃ f got, s.pc = .reading f got ∧ Seen low f s.ticks got)

theorem invR_main (low : Bool) (t u : Nat) (s : St) (h : InvR low t s) : InvR low t (mainStep low s u) := by
  obtain ⟨ticks, pc, log⟩ := s
  obtain ⟨h1, h2, h3, h4, h5⟩ := h
  simp only at h1 h2 h3 h4 h5
  rcases h5 with h5 | ⟨f, got, h5, h6⟩
  · subst h5; exact ⟨h1, h2, h3, h4, .inl rfl⟩
  · subst h5
    rcases h6 with ⟨h, g1⟩ | ⟨a, h, g1, g2⟩ | ⟨a, b, h, g1, g2, g3⟩ | ⟨a, b, c, h, g1, g2, g3, g4⟩
    · subst h
      exact ⟨h1, h2, h3, h4, .inr ⟨f, _, rfl, .inr (.inl ⟨ticks, rfl, g1, Nat.le_refl _⟩)⟩⟩
    · subst h
      exact ⟨h1, h2, h3, h4, .inr ⟨f, _, rfl, .inr (.inr (.inl ⟨a, ticks, rfl, g1, g2, Nat.le_refl _⟩))⟩⟩
    · subst h
      exact ⟨h1, h2, h3, h4, .inr ⟨f, _, rfl, .inr (.inr (.inr ⟨a, b, ticks, rfl, g1, g2, g3, Nat.le_refl _⟩))⟩⟩
    · subst h
      refine ⟨h1, h2, ?_, ?_, .inl rfl⟩
      · intro f' l v hm
        simp only [mainStep, List.length_append, List.length_cons, List.length_nil, Nat.zero_add, Nat.reduceAdd, if_true, List.mem_append, List.mem_singleton,
          List.cons_append, List.nil_append, Entry.read.injEq] at hm
        rcases hm with hm | ⟨rfl, rfl, rfl⟩
        · exact h3 _ _ _ hm
        · exact ⟨a, b, c, g1, g2, g3, g4, h2, value_four low a b c _⟩
      · intro o n v hm
        simp only [mainStep, List.length_append, List.length_cons, List.length_nil, Nat.zero_add, Nat.reduceAdd, if_true, List.mem_append, List.mem_singleton,
          reduceCtorEq, or_false] at hm
        exact h4 _ _ _ hm

theorem invR_run (low : Bool) (es : List TimeTorn.Ev) : ∀ t s, InvR low t s → MainReads t es → OneByOne low s es → ∃ t', InvR low t' (run low s es) := by
  induction es with
  | nil => intro t s h _ _; exact ⟨t, h⟩
  | cons e es ih =>
    intro t s h hm ho
    cases e with
    | update => exact hm.elim
    | main u => exact ih t _ (invR_main low t u s h) hm ho.2
    | read =>
      refine ih t _ ?_ hm ho.2
      obtain ⟨h1, h2, h3, h4, _⟩ := h
      exact ⟨h1, h2, h3, h4, .inr ⟨_, [], rfl, .inl ⟨rfl, Nat.le_refl _⟩⟩⟩
    | ask =>
      refine ih t _ ?_ hm ho.2
      obtain ⟨h1, h2, h3, h4, h5⟩ := h
      have hs : step low s .ask = { s with log := s.log ++ [.heard s.ticks s.ticks s.ticks] } := by
        rcases h5 with h5 | ⟨f, got, h5, _⟩ <;> simp [step, h5]
      rw [hs]
      refine ⟨h1, h2, ?_, ?_, h5⟩
      · intro f l v hv
        simp only [List.mem_append, List.mem_singleton, reduceCtorEq, or_false] at hv
        exact h3 _ _ _ hv
      · intro o n v hv
        simp only [List.mem_append, List.mem_singleton, Entry.heard.injEq] at hv
        rcases hv with hv | ⟨rfl, rfl, rfl⟩
        · exact h4 _ _ _ hv
        · exact ⟨rfl, rfl⟩
    | tick u =>
      obtain ⟨h1, h2, h3, h4, h5⟩ := h
      refine ih u _ ?_ hm.2.2 ho.2
      have hle := hm.1
      refine ⟨Nat.le_refl _, hm.2.1, ?_, ?_, ?_⟩
      · intro f l v hv
        simp only [step, List.mem_append, List.mem_singleton, reduceCtorEq, or_false] at hv
        exact h3 _ _ _ hv
      · intro o n v hv
        simp only [step, List.mem_append, List.mem_singleton, reduceCtorEq, or_false] at hv
        exact h4 _ _ _ hv
      · rcases h5 with h5 | ⟨f, got, h5, h6⟩
        · exact .inl h5
        · exact .inr ⟨f, got, h5, seen_mono h6 (show s.ticks ≤ u by omega)⟩

theorem invR_init (low : Bool) (t : Nat) (h : t < 2 ^ 32) : InvR low t (St.init t) :=
  ⟨Nat.le_refl _, h, by simp [St.init], by simp [St.init], .inl rfl⟩

/-- What `_ticks` holds when `k` bytes of `n` have been stored over `o`. -/
def half (low : Bool) (o n : Nat) : Nat → Nat
  | 0 => o
  | 1 => if low then mixed n o o o else mixed o o o n
  | 2 => if low then mixed n n o o else mixed o o n n
  | 3 => if low then mixed n n n o else mixed o n n n
  | _ => n

theorem half_step (low : Bool) (o n k : Nat) (hk : k < 4) (ho : o < 2 ^ 32) (hn : n < 2 ^ 32) : putByte (half low o n k) n (place low k) = half low o n (k + 1) := by
  have : k = 0 ∨ k = 1 ∨ k = 2 ∨ k = 3 := by omega
  rcases this with rfl | rfl | rfl | rfl <;> cases low <;> simp [half, putByte, place, byteOf, mixed] <;> omega

theorem half_low (o n k : Nat) (hk : k < 4) (h : o ≤ n) (hn : n < 2 ^ 32) : half true o n k ≤ n ∧ o < half true o n k + 2 ^ 24 := by
  have : k = 0 ∨ k = 1 ∨ k = 2 ∨ k = 3 := by omega
  rcases this with rfl | rfl | rfl | rfl <;> simp [half, mixed] <;> omega

theorem half_high (o n k : Nat) (hk : k < 4) (h : o ≤ n) (hn : n < 2 ^ 32) : o ≤ half false o n k ∧ half false o n k < n + 2 ^ 24 := by
  have : k = 0 ∨ k = 1 ∨ k = 2 ∨ k = 3 := by omega
  rcases this with rfl | rfl | rfl | rfl <;> simp [half, mixed] <;> omega

theorem half_block (low : Bool) (o n k : Nat) (hk : k < 4) (h : o / 256 = n / 256) (ho : o < 2 ^ 32) (hn : n < 2 ^ 32) : half low o n k = o ∨ half low o n k = n := by
  have : k = 0 ∨ k = 1 ∨ k = 2 ∨ k = 3 := by omega
  rcases this with rfl | rfl | rfl | rfl <;> cases low <;> simp [half, mixed] <;> omega

/-- What a reading of a handler is. -/
def HeardOk (low : Bool) (o n v : Nat) : Prop := o ≤ n ∧ n < 2 ^ 32 ∧ ((v = o ∧ v = n) ∨ ∃ k, k < 4 ∧ v = half low o n k)

/-- The bytes of one value. -/
def bytesOf (low : Bool) (v k : Nat) : List Nat := (List.range k).map fun i => byteOf v (place low i)

theorem bytesOf_succ (low : Bool) (v k : Nat) : bytesOf low v k ++ [byteOf v (place low k)] = bytesOf low v (k + 1) := by
  simp [bytesOf, List.range_succ]

theorem bytesOf_length (low : Bool) (v k : Nat) : (bytesOf low v k).length = k := by simp [bytesOf]

theorem bytesOf_four (low : Bool) (v : Nat) (h : v < 2 ^ 32) : valueOf low (bytesOf low v 4) = v := by
  have := value_four low v v v v
  have h2 : bytesOf low v 4 = [byteOf v (place low 0), byteOf v (place low 1), byteOf v (place low 2), byteOf v (place low 3)] := rfl
  rw [h2, this]
  cases low <;> simp [inOrder, mixed_self v h]

/-- All that `Update` has told. -/
def told : List Entry → Nat
  | [] => 0
  | .delta _ d :: l => d + told l
  | _ :: l => told l

theorem told_append (l m : List Entry) : told (l ++ m) = told l + told m := by
  induction l with
  | nil => simp [told]
  | cons e l ih => cases e <;> simp only [List.cons_append, told, ih] <;> omega

/-- Main code updates, handlers read: `v` is the last time captured. -/
def InvU (low : Bool) (t0 t : Nat) (s : St) : Prop :=
  (∀ f l v, Entry.read f l v ∈ s.log → v = f ∧ v = l) ∧ (∀ o n v, Entry.heard o n v ∈ s.log → HeardOk low o n v) ∧
  ∃ v, t0 ≤ v ∧ v ≤ t ∧ v < 2 ^ 32 ∧ told s.log = v - t0 ∧
    ((s.pc = .idle ∧ s.ticks = v) ∨ (∃ k, k < 4 ∧ s.pc = .reading v (bytesOf low v k) ∧ s.ticks = v) ∨
     (∃ k, k < 5 ∧ s.pc = .loading (bytesOf low v k) ∧ s.ticks = v) ∨
     (∃ n k, k < 4 ∧ v ≤ n ∧ n ≤ t ∧ n < 2 ^ 32 ∧ s.pc = .storing v n k v ∧ s.ticks = half low v n k))

theorem invU_main (low : Bool) (t0 t u : Nat) (s : St) (h : InvU low t0 t s) (h1 : t ≤ u) (h2 : u < 2 ^ 32) : InvU low t0 u (mainStep low s u) := by
  obtain ⟨ticks, pc, log⟩ := s
  obtain ⟨h3, h4, v, h5, h6, h7, h8, h9⟩ := h
  simp only at h3 h4 h8 h9
  rcases h9 with ⟨rfl, rfl⟩ | ⟨k, hk, rfl, rfl⟩ | ⟨k, hk, rfl, rfl⟩ | ⟨n, k, hk, g1, g2, g3, rfl, rfl⟩
  · exact ⟨h3, h4, _, h5, by omega, h7, h8, .inl ⟨rfl, rfl⟩⟩
  · simp only [mainStep, bytesOf_succ, bytesOf_length]
    by_cases hk4 : k + 1 = 4
    · rw [if_pos hk4]
      refine ⟨?_, ?_, ticks, h5, by omega, h7, ?_, .inl ⟨rfl, rfl⟩⟩
      · intro f l v hm
        simp only [List.mem_append, List.mem_singleton, Entry.read.injEq] at hm
        rcases hm with hm | ⟨rfl, rfl, rfl⟩
        · exact h3 _ _ _ hm
        · rw [hk4, bytesOf_four low _ h7]; exact ⟨rfl, rfl⟩
      · intro o n v hm
        simp only [List.mem_append, List.mem_singleton, reduceCtorEq, or_false] at hm
        exact h4 _ _ _ hm
      · simp only [told_append, told]; omega
    · rw [if_neg hk4]
      exact ⟨h3, h4, ticks, h5, by omega, h7, h8, .inr (.inl ⟨k + 1, by omega, rfl, rfl⟩)⟩
  · simp only [mainStep, bytesOf_succ, bytesOf_length]
    by_cases hk4 : k = 4
    · rw [if_pos hk4]
      refine ⟨h3, h4, ticks, h5, by omega, h7, h8, .inr (.inr (.inr ⟨u, 0, by omega, by omega, Nat.le_refl _, h2, ?_, rfl⟩))⟩
      rw [hk4, bytesOf_four low _ h7]
    · rw [if_neg hk4]
      exact ⟨h3, h4, ticks, h5, by omega, h7, h8, .inr (.inr (.inl ⟨k + 1, by omega, rfl, rfl⟩))⟩
  · simp only [mainStep, half_step low v n k hk h7 g3]
    by_cases hk4 : k + 1 = 4
    · rw [if_pos hk4]
      refine ⟨?_, ?_, n, by omega, by omega, g3, ?_, .inl ⟨rfl, by rw [hk4]; rfl⟩⟩
      · intro f l v hm
        simp only [List.mem_append, List.mem_singleton, reduceCtorEq, or_false] at hm
        exact h3 _ _ _ hm
      · intro o n v hm
        simp only [List.mem_append, List.mem_singleton, reduceCtorEq, or_false] at hm
        exact h4 _ _ _ hm
      · simp only [told_append, told, toU]; omega
    · rw [if_neg hk4]
      exact ⟨h3, h4, v, h5, by omega, h7, h8, .inr (.inr (.inr ⟨n, k + 1, by omega, g1, by omega, g3, rfl, rfl⟩))⟩

theorem invU_ask (low : Bool) (t0 t : Nat) (s : St) (h : InvU low t0 t s) : InvU low t0 t (step low s .ask) := by
  obtain ⟨h3, h4, v, h5, h6, h7, h8, h9⟩ := h
  have key : ∃ o n, step low s .ask = { s with log := s.log ++ [.heard o n s.ticks] } ∧ HeardOk low o n s.ticks := by
    rcases h9 with ⟨a, b⟩ | ⟨k, hk, a, b⟩ | ⟨k, hk, a, b⟩ | ⟨n, k, hk, g1, g2, g3, a, b⟩
    · exact ⟨s.ticks, s.ticks, by simp [step, a], Nat.le_refl _, by omega, .inl ⟨rfl, rfl⟩⟩
    · exact ⟨s.ticks, s.ticks, by simp [step, a], Nat.le_refl _, by omega, .inl ⟨rfl, rfl⟩⟩
    · exact ⟨s.ticks, s.ticks, by simp [step, a], Nat.le_refl _, by omega, .inl ⟨rfl, rfl⟩⟩
    · exact ⟨v, n, by simp [step, a], g1, g3, .inr ⟨k, hk, b⟩⟩
  obtain ⟨o, n, he, hk⟩ := key
  rw [he]
  refine ⟨?_, ?_, v, h5, h6, h7, ?_, h9⟩
  · intro f l v hm
    simp only [List.mem_append, List.mem_singleton, reduceCtorEq, or_false] at hm
    exact h3 _ _ _ hm
  · intro o' n' v hm
    simp only [List.mem_append, List.mem_singleton, Entry.heard.injEq] at hm
    rcases hm with hm | ⟨rfl, rfl, rfl⟩
    · exact h4 _ _ _ hm
    · exact hk
  · simp only [told_append, told]; omega

theorem invU_run (low : Bool) (t0 : Nat) (es : List TimeTorn.Ev) : ∀ t s, InvU low t0 t s → MainUpdates t es → OneByOne low s es → ∃ t', InvU low t0 t' (run low s es) := by
  induction es with
  | nil => intro t s h _ _; exact ⟨t, h⟩
  | cons e es ih =>
    intro t s h hm ho
    cases e with
    | tick u => exact hm.elim
    | main u => exact ih u _ (invU_main low t0 t u s h hm.1 hm.2.1) hm.2.2 ho.2
    | ask => exact ih t _ (invU_ask low t0 t s h) hm ho.2
    | read =>
      refine ih t _ ?_ hm ho.2
      have hi := ho.1 (.inl rfl)
      obtain ⟨h3, h4, v, h5, h6, h7, h8, h9⟩ := h
      have hv : s.ticks = v := by
        rcases h9 with ⟨a, b⟩ | ⟨k, hk, a, b⟩ | ⟨k, hk, a, b⟩ | ⟨n, k, hk, g1, g2, g3, a, b⟩
        · exact b
        all_goals (rw [a] at hi; cases hi)
      exact ⟨h3, h4, v, h5, h6, h7, h8, .inr (.inl ⟨0, by omega, by simp [step, hv, bytesOf], hv⟩)⟩
    | update =>
      refine ih t _ ?_ hm ho.2
      have hi := ho.1 (.inr rfl)
      obtain ⟨h3, h4, v, h5, h6, h7, h8, h9⟩ := h
      have hv : s.ticks = v := by
        rcases h9 with ⟨a, b⟩ | ⟨k, hk, a, b⟩ | ⟨k, hk, a, b⟩ | ⟨n, k, hk, g1, g2, g3, a, b⟩
        · exact b
        all_goals (rw [a] at hi; cases hi)
      exact ⟨h3, h4, v, h5, h6, h7, h8, .inr (.inr (.inl ⟨0, by omega, by simp [step, bytesOf], hv⟩))⟩

theorem invU_init (low : Bool) (t : Nat) (h : t < 2 ^ 32) : InvU low t t (St.init t) :=
  ⟨by simp [St.init], by simp [St.init], t, Nat.le_refl _, Nat.le_refl _, h, by simp [St.init, told], .inl ⟨rfl, rfl⟩⟩

end TornClock

open TornClock

/-- **C146.** Handlers update, main code reads: in every history, every reading of main code is made of the bytes of values `_ticks` had one after the other during the reading. -/
theorem c146_composed (low : Bool) (t0 : Nat) (h0 : t0 < 2 ^ 32) (es : List TimeTorn.Ev) (hm : MainReads t0 es) (ho : OneByOne low (St.init t0) es) (f l v : Nat)
    (h : Entry.read f l v ∈ (run low (St.init t0) es).log) : ∃ a b c, f ≤ a ∧ a ≤ b ∧ b ≤ c ∧ c ≤ l ∧ l < 2 ^ 32 ∧ v = if low then mixed a b c l else mixed l c b a := by
  obtain ⟨t', hi⟩ := invR_run low es t0 _ (invR_init low t0 h0) hm ho
  exact hi.2.2.1 f l v h

/-- **C146.** Handlers update, main code reads, low byte first: no reading is before the time captured when it began, all are less than 2^24 ticks ahead of the time captured when it
    ended. -/
theorem c146_low_first (t0 : Nat) (h0 : t0 < 2 ^ 32) (es : List TimeTorn.Ev) (hm : MainReads t0 es) (ho : OneByOne true (St.init t0) es) (f l v : Nat)
    (h : Entry.read f l v ∈ (run true (St.init t0) es).log) : f ≤ v ∧ v < l + 2 ^ 24 := by
  obtain ⟨a, b, c, h1, h2, h3, h4, h5, h6⟩ := c146_composed true t0 h0 es hm ho f l v h
  have := mixed_low a b c l h2 h3 h4 h5
  simp only [if_true] at h6
  omega

/-- **C146.** The same with the high byte first: no reading is after the time captured when it ended, all are less than 2^24 ticks behind the time captured when it began. -/
theorem c146_high_first (t0 : Nat) (h0 : t0 < 2 ^ 32) (es : List TimeTorn.Ev) (hm : MainReads t0 es) (ho : OneByOne false (St.init t0) es) (f l v : Nat)
    (h : Entry.read f l v ∈ (run false (St.init t0) es).log) : v ≤ l ∧ f < v + 2 ^ 24 := by
  obtain ⟨a, b, c, h1, h2, h3, h4, h5, h6⟩ := c146_composed false t0 h0 es hm ho f l v h
  have := mixed_high a b c l h2 h3 h4 h5
  simp only [Bool.false_eq_true, if_false] at h6
  omega

/-- **C146, partial.** Handlers update, main code reads: a reading during which only the lowest byte changes is a time from the one captured when it began to the one captured when
    it ended.  In full (false, `c146_full_claim_is_false`): every reading. -/
theorem c146_read_partial (low : Bool) (t0 : Nat) (h0 : t0 < 2 ^ 32) (es : List TimeTorn.Ev) (hm : MainReads t0 es) (ho : OneByOne low (St.init t0) es) (f l v : Nat)
    (h : Entry.read f l v ∈ (run low (St.init t0) es).log) (hb : f / 256 = l / 256) : f ≤ v ∧ v ≤ l := by
  obtain ⟨a, b, c, h1, h2, h3, h4, h5, h6⟩ := c146_composed low t0 h0 es hm ho f l v h
  cases low with
  | true =>
    have := mixed_block a b c l f l (by omega) (by omega) (by omega) (by omega) h5 hb
    simp only [if_true] at h6
    omega
  | false =>
    have := mixed_block l c b a f l (by omega) (by omega) (by omega) (by omega) h5 hb
    simp only [Bool.false_eq_true, if_false] at h6
    omega

/-- **C146.** Handlers update, main code reads: handlers read what was captured last. -/
theorem c146_handler_reads (low : Bool) (t0 : Nat) (h0 : t0 < 2 ^ 32) (es : List TimeTorn.Ev) (hm : MainReads t0 es) (ho : OneByOne low (St.init t0) es) (o n v : Nat)
    (h : Entry.heard o n v ∈ (run low (St.init t0) es).log) : v = o ∧ v = n := by
  obtain ⟨t', hi⟩ := invR_run low es t0 _ (invR_init low t0 h0) hm ho
  exact hi.2.2.2.1 o n v h

/-- **C146.** One handler's `Update` at time `u` behind `k` of the four loads: exactly which value is read. -/
theorem c146_one_update (low : Bool) (v u k : Nat) (hv : v < 2 ^ 32) (hu : u < 2 ^ 32) (hk : k ≤ 4) (log : List Entry) :
    ∃ es, es = [.read] ++ List.replicate k (.main 0) ++ [.tick u] ++ List.replicate (4 - k) (.main 0) ∧
      ∃ r, Entry.read v (if k = 4 then v else u) r ∈ (run low ⟨v, .idle, log⟩ es).log ∧
        r = if low then v % 256 ^ k + 256 ^ k * (u / 256 ^ k) else if k = 0 then u else u % 256 ^ (4 - k) + 256 ^ (4 - k) * (v / 256 ^ (4 - k)) := by
  have : k = 0 ∨ k = 1 ∨ k = 2 ∨ k = 3 ∨ k = 4 := by omega
  rcases this with rfl | rfl | rfl | rfl | rfl <;> cases low <;> refine ⟨_, rfl, _, ?_, rfl⟩ <;>
    simp [run, step, mainStep, List.replicate, byteOf, place, valueOf, Time.update] <;> omega

/-- **C146.** With one handler's `Update` from `v` to `u` behind `k` loads, low byte first, the reading is one of the times from `v` to `u` exactly when the `k` low bytes have not
    wrapped. -/
theorem c146_one_update_iff (v u k : Nat) (h : v ≤ u) : (v ≤ v % 256 ^ k + 256 ^ k * (u / 256 ^ k) ∧ v % 256 ^ k + 256 ^ k * (u / 256 ^ k) ≤ u) ↔ v % 256 ^ k ≤ u % 256 ^ k := by
  have h1 := Nat.mod_add_div v (256 ^ k)
  have h2 := Nat.mod_add_div u (256 ^ k)
  have h3 : v / 256 ^ k ≤ u / 256 ^ k := Nat.div_le_div_right h
  have h4 := Nat.mul_le_mul_left (256 ^ k) h3
  omega

/-- **C146.** Main code updates, handlers read: main code reads and reports the right times, and `_ticks` is right whenever main code is outside. -/
theorem c146_main_updates (low : Bool) (t0 : Nat) (h0 : t0 < 2 ^ 32) (es : List TimeTorn.Ev) (hm : MainUpdates t0 es) (ho : OneByOne low (St.init t0) es) :
    (∀ f l v, Entry.read f l v ∈ (run low (St.init t0) es).log → v = f ∧ v = l) ∧
    ((run low (St.init t0) es).pc = .idle → t0 ≤ (run low (St.init t0) es).ticks ∧ told (run low (St.init t0) es).log = (run low (St.init t0) es).ticks - t0) := by
  obtain ⟨t', h1, h2, v, h3, h4, h5, h6, h7⟩ := invU_run low t0 es t0 _ (invU_init low t0 h0) hm ho
  refine ⟨h1, fun hi => ?_⟩
  rcases h7 with ⟨a, b⟩ | ⟨k, hk, a, b⟩ | ⟨k, hk, a, b⟩ | ⟨n, k, hk, g1, g2, g3, a, b⟩
  · rw [b]; exact ⟨h3, h6⟩
  all_goals (rw [a] at hi; cases hi)

/-- **C146.** Main code updates, handlers read: what a handler reads while main code replaces `o` by `n`.  Low byte first it is never after `n` and less than 2^24 ticks before `o`;
    high byte first it is never before `o` and less than 2^24 ticks after `n`. -/
theorem c146_heard (low : Bool) (t0 : Nat) (h0 : t0 < 2 ^ 32) (es : List TimeTorn.Ev) (hm : MainUpdates t0 es) (ho : OneByOne low (St.init t0) es) (o n v : Nat)
    (h : Entry.heard o n v ∈ (run low (St.init t0) es).log) : o ≤ n ∧ if low then v ≤ n ∧ o < v + 2 ^ 24 else o ≤ v ∧ v < n + 2 ^ 24 := by
  obtain ⟨t', _, h2, _⟩ := invU_run low t0 es t0 _ (invU_init low t0 h0) hm ho
  obtain ⟨h3, h4, h5⟩ := h2 o n v h
  refine ⟨h3, ?_⟩
  rcases h5 with ⟨h5, h6⟩ | ⟨k, hk, rfl⟩
  · cases low <;> simp <;> omega
  · cases low with
    | true => simpa using half_low o n k hk h3 h4
    | false => simpa using half_high o n k hk h3 h4

/-- **C146, partial.** Main code updates, handlers read: if only the lowest byte changes, a handler reads the time before or the time after.  In full (false,
    `c146_full_claim_is_false`): every handler reads a time from the one before to the one after. -/
theorem c146_heard_partial (low : Bool) (t0 : Nat) (h0 : t0 < 2 ^ 32) (es : List TimeTorn.Ev) (hm : MainUpdates t0 es) (ho : OneByOne low (St.init t0) es) (o n v : Nat)
    (h : Entry.heard o n v ∈ (run low (St.init t0) es).log) (hb : o / 256 = n / 256) : v = o ∨ v = n := by
  obtain ⟨t', _, h2, _⟩ := invU_run low t0 es t0 _ (invU_init low t0 h0) hm ho
  obtain ⟨h3, h4, h5⟩ := h2 o n v h
  rcases h5 with ⟨h5, _⟩ | ⟨k, hk, rfl⟩
  · exact .inl h5
  · exact half_block low o n k hk hb (by omega) h4

/-- **C146.** Without handlers main code's accesses are the getter and `Time::Update`. -/
theorem c146_alone (low : Bool) (v t : Nat) (hv : v < 2 ^ 32) (ht : t < 2 ^ 32) (log : List Entry) :
    run low ⟨v, .idle, log⟩ (.read :: List.replicate 4 (.main t)) = ⟨v, .idle, log ++ [.read v v v]⟩ ∧
    run low ⟨v, .idle, log⟩ (.update :: List.replicate 9 (.main t)) = ⟨(Time.update v t).2, .idle, log ++ [.delta true (Time.update v t).1]⟩ := by
  have h1 := bytesOf_four low v hv
  have h2 := half_step low v t
  have e0 : putByte v t (place low 0) = half low v t 1 := h2 0 (by omega) hv ht
  have e1 := h2 1 (by omega) hv ht
  have e2 := h2 2 (by omega) hv ht
  have e3 : putByte (half low v t 3) t (place low 3) = t := h2 3 (by omega) hv ht
  have hb : bytesOf low v 4 = [byteOf v (place low 0), byteOf v (place low 1), byteOf v (place low 2), byteOf v (place low 3)] := rfl
  rw [hb] at h1
  constructor
  · simp [run, step, mainStep, List.replicate, h1]
  · simp [run, step, mainStep, List.replicate, h1, e0, e1, e2, e3, Time.update]

/-- Main code reads; a handler updates at 256 behind the first load. -/
def carry (u : Nat) (k : Nat) : List TimeTorn.Ev := [.read] ++ List.replicate k (.main 0) ++ [.tick u] ++ List.replicate (4 - k) (.main 0)

/-- **C146 fails**: the handler moves the time from 255 to 256; main code reads 511 or (high byte first) 0.  From 16777215 to 16777216 it reads 33554431 or 0, 4.6 hours off for
    milliseconds. -/
theorem c146_read_fails :
    Entry.read 255 256 511 ∈ (run true (St.init 255) (carry 256 1)).log ∧ Entry.read 255 256 0 ∈ (run false (St.init 255) (carry 256 3)).log ∧
    Entry.read 16777215 16777216 33554431 ∈ (run true (St.init 16777215) (carry 16777216 3)).log ∧
    Entry.read 16777215 16777216 0 ∈ (run false (St.init 16777215) (carry 16777216 1)).log := by
  refine ⟨?_, ?_, ?_, ?_⟩ <;> decide +kernel

/-- **C146 fails**: the next reading is before the last one although the clock never goes back. -/
theorem c146_backwards_fails : (run true (St.init 255) (carry 256 1 ++ [.tick 300, .read] ++ List.replicate 4 (.main 0))).log =
    [.delta false 1, .read 255 256 511, .delta false 44, .read 300 300 300] := by decide +kernel

/-- Main code updates to 256; a handler reads while `k` bytes are stored. -/
def peek (k : Nat) : List TimeTorn.Ev := [.update] ++ List.replicate (5 + k) (.main 256) ++ [.ask]

/-- **C146 fails**: main code moves the time from 255 to 256; a handler reads 0 or (high byte first) 511. -/
theorem c146_heard_fails : Entry.heard 255 256 0 ∈ (run true (St.init 255) (peek 1)).log ∧ Entry.heard 255 256 511 ∈ (run false (St.init 255) (peek 3)).log := by
  refine ⟨?_, ?_⟩ <;> decide +kernel

/-- **C146.** The claim in full is false, for either order, for readings of main code and of handlers. -/
theorem c146_full_claim_is_false (low : Bool) :
    (¬ ∀ (t0 : Nat) (es : List TimeTorn.Ev) (f l v : Nat), t0 < 2 ^ 32 → MainReads t0 es → OneByOne low (St.init t0) es → Entry.read f l v ∈ (run low (St.init t0) es).log →
      f ≤ v ∧ v ≤ l) ∧
    (¬ ∀ (t0 : Nat) (es : List TimeTorn.Ev) (o n v : Nat), t0 < 2 ^ 32 → MainUpdates t0 es → OneByOne low (St.init t0) es → Entry.heard o n v ∈ (run low (St.init t0) es).log →
      o ≤ v ∧ v ≤ n) := by
  constructor
  · intro h
    cases low with
    | true =>
      have := h 255 (carry 256 1) 255 256 511 (by omega) (by simp [MainReads, carry, List.replicate]) (by simp [OneByOne, carry, List.replicate, St.init]) c146_read_fails.1
      omega
    | false =>
      have := h 255 (carry 256 3) 255 256 0 (by omega) (by simp [MainReads, carry, List.replicate]) (by simp [OneByOne, carry, List.replicate, St.init]) c146_read_fails.2.1
      omega
  · intro h
    cases low with
    | true =>
      have := h 255 (peek 1) 255 256 0 (by omega) (by simp [MainUpdates, peek, List.replicate]) (by simp [OneByOne, peek, List.replicate, St.init]) c146_heard_fails.1
      omega
    | false =>
      have := h 255 (peek 3) 255 256 511 (by omega) (by simp [MainUpdates, peek, List.replicate]) (by simp [OneByOne, peek, List.replicate, St.init]) c146_heard_fails.2
      omega

/-- Main code and a handler both update: the handler (at 256) behind `k` of main code's accesses, which reads 260 from the clock; then main code updates at 300. -/
def bothUpdate (k : Nat) (n : Nat) : List TimeTorn.Ev :=
  [.update] ++ List.replicate k (.main n) ++ [.tick 256] ++ List.replicate (9 - k) (.main n) ++ [.update] ++ List.replicate 9 (.main 300)

/-- **C146 fails** further when both update: a handler in the load makes main code's `Update` answer 4294967045 at time 260 (5 ticks have passed); one in the store leaves 0 or 511 in
    `_ticks`, and the next answer is 300 or 4294967085 (45 have passed). -/
theorem c146_update_fails :
    (run true (St.init 255) (bothUpdate 1 260)).log = [.delta false 1, .delta true 4294967045, .delta true 40] ∧
    (run true (St.init 255) (bothUpdate 6 255)).log = [.delta false 1, .delta true 0, .delta true 300] ∧
    (run false (St.init 255) (bothUpdate 8 255)).log = [.delta false 1, .delta true 0, .delta true 4294967085] := by
  refine ⟨?_, ?_, ?_⟩ <;> decide +kernel

/-- Handlers update twice during a reading, within a block of 256. -/
def calm : List TimeTorn.Ev := [.tick 1030, .read, .main 0, .tick 1040, .main 0, .tick 1050, .ask, .main 0, .main 0]

example (low : Bool) : MainReads 1024 calm ∧ OneByOne low (St.init 1024) calm ∧ Entry.read 1030 1050 (if low then 1030 else 1050) ∈ (run low (St.init 1024) calm).log ∧
    Entry.heard 1050 1050 1050 ∈ (run low (St.init 1024) calm).log ∧ 1030 / 256 = 1050 / 256 := by
  cases low <;> refine ⟨?_, ?_, ?_, ?_, ?_⟩ <;> first | decide +kernel | simp [MainReads, OneByOne, calm, St.init, step, mainStep]

/-- Main code updates to 1050 and reads; a handler reads behind the first store. -/
def calmUpdate : List TimeTorn.Ev := [.update] ++ List.replicate 6 (.main 1050) ++ [.ask] ++ List.replicate 3 (.main 1050) ++ [.read] ++ List.replicate 4 (.main 1060)

example (low : Bool) : MainUpdates 1030 calmUpdate ∧ OneByOne low (St.init 1030) calmUpdate ∧
    (run low (St.init 1030) calmUpdate) = ⟨1050, .idle, [.heard 1030 1050 (if low then 1050 else 1030), .delta true 20, .read 1050 1050 1050]⟩ := by
  cases low <;> refine ⟨?_, ?_, ?_⟩ <;> first | decide +kernel | simp [MainUpdates, OneByOne, calmUpdate, List.replicate, St.init, step, mainStep, bytesOf]
example : MainReads 255 (carry 256 1) ∧ OneByOne true (St.init 255) (carry 256 1) ∧ 255 % 256 ^ 1 > 256 % 256 ^ 1 ∧ 10 % 256 ^ 1 ≤ 20 % 256 ^ 1 := by
  simp [MainReads, OneByOne, carry, List.replicate, St.init]

end Atl.Props
