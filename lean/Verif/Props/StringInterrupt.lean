import Verif.Model.StringInterrupt
import Verif.Props.Array
import Verif.Props.CriticalSectionUse

/-!
  C160: one fixed string used by main code and by interrupt handlers.
-/
namespace Atl.Props
open Atl.StringInterrupt

namespace StringShared

/-! ### Specification -/

/-- The text in some memory: up to the first zero. -/
def cut (l : List Int) : List Int := l.takeWhile (· ≠ 0)

/-- The memory of a string of at most `n` characters that holds a text: zeros behind it. -/
def image (n : Nat) (t : List Int) : List Int := t.take n ++ List.replicate (n + 1 - (t.take n).length) 0

/-- The texts used in a history. -/
def texts (es : List Ev) : List (List Int) := es.filterMap fun | .copy t | .handler t => some t | _ => none

/-- No text has a zero in it. -/
def Proper (es : List Ev) : Prop := ∀ t ∈ texts es, (0 : Int) ∉ t

/-- The string if every call were indivisible: its text, what main code reads, what handlers read. -/
def inOneGo (n : Nat) : List Int × List (List Int) × List (List Int) → List Ev → List Int × List (List Int) × List (List Int)
  | x, [] => x
  | (_, p, s), .copy t :: es => inOneGo n (t.take n, p, s) es
  | (v, p, s), .print :: es => inOneGo n (v, p ++ [v], s) es
  | x, .main :: es => inOneGo n x es
  | (_, p, s), .handler t :: es => inOneGo n (t.take n, p, s) es
  | (v, p, s), .look :: es => inOneGo n (v, p, s ++ [v]) es

/-- The first `k` characters of `b`, the others of `a`. -/
def mixed (k : Nat) (a b : List Int) : List Int := b.take k ++ a.drop k

/-! ### Proofs -/

theorem run_append (n : Nat) (l r : List Ev) (y : St) : run n y (l ++ r) = (run n y l >>= fun y => run n y r) := by
  induction l generalizing y with
  | nil => rfl
  | cons e l ih =>
    show (step n y e >>= fun y => run n y (l ++ r)) = ((step n y e >>= fun y => run n y l) >>= _)
    cases step n y e with
    | ub => rfl
    | ok y' => exact ih y'

theorem image_length (n : Nat) (t : List Int) : (image n t).length = n + 1 := by
  simp only [image, List.length_append, List.length_take, List.length_replicate]; omega

theorem image_get (n : Nat) (t : List Int) (i : Nat) (hi : i ≤ n) : (image n t)[i]? = some (if i < n then t.getD i 0 else 0) := by
  unfold image
  by_cases h : i < (t.take n).length
  · rw [List.getElem?_append_left h, List.getElem?_take]
    rw [List.length_take] at h
    rw [if_pos (by omega), if_pos (by omega), List.getD_eq_getElem?_getD, List.getElem?_eq_getElem (by omega)]
    rfl
  · rw [List.getElem?_append_right (by omega), List.getElem?_replicate]
    rw [List.length_take] at h ⊢
    rw [if_pos (by omega)]
    congr 1
    split
    · rw [List.getD_eq_getElem?_getD, List.getElem?_eq_none (by omega)]; rfl
    · rfl

theorem image_last (n : Nat) (t : List Int) : (image n t)[n]? = some 0 := by rw [image_get n t n (Nat.le_refl n)]; simp

theorem cut_append {a b : List Int} (h : (0 : Int) ∉ a) : cut (a ++ b) = a ++ cut b := by
  unfold cut
  rw [List.takeWhile_append_of_pos]
  intro x hx
  simp only [ne_eq, decide_not, Bool.not_eq_true', decide_eq_false_iff_not]
  intro h0
  exact h (h0 ▸ hx)

theorem cut_cons {c : Int} {r : List Int} (h : c ≠ 0) : cut (c :: r) = c :: cut r := by simp [cut, h]

theorem cut_zeros (k : Nat) : cut (List.replicate k 0) = [] := by
  cases k with
  | zero => rfl
  | succ k => simp [cut, List.replicate_succ]

theorem cut_image {n : Nat} {t : List Int} (h : (0 : Int) ∉ t) : cut (image n t) = t.take n := by
  unfold image
  rw [cut_append (fun hx => h (List.mem_of_mem_take hx)), cut_zeros, List.append_nil]

/-- A handler's reading is the text, if there is a zero. -/
theorem readOut_ok {l : List Int} (h : (0 : Int) ∈ l) : readOut l = .ok (cut l) := by
  induction l with
  | nil => cases h
  | cons c r ih =>
    by_cases hc : c = 0
    · subst hc; rfl
    · have : (0 : Int) ∈ r := (List.mem_cons.1 h).resolve_left (Ne.symm hc)
      simp only [readOut, if_neg hc, ih this, Res.bind_ok]
      simp [cut, hc]

/-- A handler's copy. -/
theorem copy_image {n : Nat} {c : List Int} (hl : c.length = n + 1) (h0 : c[n]? = some 0) (t : List Int) : FixedString.copyFrom n ⟨c, 0⟩ t = .ok ⟨image n t, 0⟩ := by
  rw [copyFrom_eq n ⟨c, 0⟩ t hl]
  have hd : c.drop n = [0] := by
    rw [List.drop_eq_getElem_cons (by omega), List.drop_of_length_le (by omega)]
    rw [List.getElem?_eq_getElem (by omega)] at h0
    injection h0 with h0
    rw [h0]
  congr 2
  simp only [hd, image, List.append_assoc]
  congr 1
  rw [show ([0] : List Int) = List.replicate 1 0 from rfl, List.replicate_append_replicate, List.length_take]
  congr 1
  omega

/-! Safety -/

/-- The array keeps its length and its last zero, and main code stays in it. -/
structure Safe (n : Nat) (y : St) : Prop where
  len : y.chars.length = n + 1
  last : y.chars[n]? = some 0
  at_ : ∀ i out, y.pc = .printing i out → i ≤ n

theorem safe_step {n : Nat} {y : St} (h : Safe n y) (e : Ev) : ∃ y', step n y e = .ok y' ∧ Safe n y' := by
  obtain ⟨c, pc, p, s⟩ := y
  obtain ⟨h1, h2, h3⟩ := h
  change c.length = n + 1 at h1
  change c[n]? = some 0 at h2
  cases e with
  | copy t =>
    refine ⟨_, rfl, ?_⟩
    split
    · exact ⟨h1, h2, fun _ _ h => nomatch h⟩
    · exact ⟨h1, h2, h3⟩
  | print =>
    refine ⟨_, rfl, ?_⟩
    split
    · exact ⟨h1, h2, fun _ _ h => by injection h with h; omega⟩
    · exact ⟨h1, h2, h3⟩
  | handler t =>
    refine ⟨⟨image n t, pc, p, s⟩, ?_, image_length n t, image_last n t, h3⟩
    simp only [step, copy_image h1 h2, Res.bind_ok]
  | look =>
    refine ⟨⟨c, pc, p, s ++ [cut c]⟩, ?_, h1, h2, h3⟩
    simp only [step, readOut_ok (List.mem_of_getElem? h2), Res.bind_ok]
  | main =>
    cases pc with
    | idle => exact ⟨_, rfl, h1, h2, h3⟩
    | copying rest i =>
      simp only [step, mainStep]
      split
      · next hi =>
        rw [cSet_ok _ (by omega)]
        refine ⟨_, rfl, by simp only [List.length_set]; exact h1, ?_, fun _ _ h => nomatch h⟩
        show (c.set i _)[n]? = some 0
        rw [List.getElem?_set_ne (by omega)]; exact h2
      · exact ⟨_, rfl, h1, h2, fun _ _ h => nomatch h⟩
    | printing i out =>
      have hi := h3 i out rfl
      simp only [step, mainStep]
      rw [cGet_ok (by omega)]
      simp only [Res.bind_ok]
      split
      · exact ⟨_, rfl, h1, h2, fun _ _ h => nomatch h⟩
      · next hc =>
        refine ⟨_, rfl, h1, h2, fun j o h => ?_⟩
        injection h with h _
        have : i ≠ n := by
          intro hin
          subst hin
          rw [List.getElem?_eq_getElem (by omega)] at h2
          injection h2 with h2
          exact hc h2
        omega

theorem safe_run {n : Nat} (es : List Ev) : ∀ y : St, Safe n y → ∃ y', run n y es = .ok y' ∧ Safe n y' := by
  induction es with
  | nil => exact fun y h => ⟨y, rfl, h⟩
  | cons e es ih =>
    intro y h
    obtain ⟨y1, e1, h1⟩ := safe_step h e
    obtain ⟨y2, e2, h2⟩ := ih y1 h1
    exact ⟨y2, by simp only [run, e1, Res.bind_ok, e2], h2⟩

theorem init_is (n : Nat) (g : List Int) (hg : g.length = n + 1) (t : List Int) : St.init n g t = .ok ⟨image n t, .idle, [], []⟩ := by
  have hc : FixedString.clear n ⟨g, 0⟩ = .ok ⟨List.replicate (n + 1) 0, 0⟩ := by
    simp only [FixedString.clear, hg, Nat.le_refl, if_true]
    rw [List.drop_of_length_le (by omega), List.append_nil]
  simp only [St.init, FixedString.initText, hc, Res.bind_ok]
  rw [copy_image (by simp) (by rw [List.getElem?_replicate]; simp)]
  rfl

theorem safe_image (n : Nat) (t : List Int) (p s : List (List Int)) : Safe n ⟨image n t, .idle, p, s⟩ := ⟨image_length n t, image_last n t, fun _ _ h => nomatch h⟩

/-! Where characters come from -/

/-- Character `c` is at place `i` of one of the texts. -/
def FromOne (T : List (List Int)) (i : Nat) (c : Int) : Prop := ∃ t ∈ T, t[i]? = some c

/-- The same of what main code has in hand. -/
def InHand (n : Nat) (T : List (List Int)) : Pc → Prop
  | .idle => True
  | .copying rest i => ∃ t ∈ T, rest = t.drop i
  | .printing i out => out.length = i ∧ i ≤ n ∧ ∀ (j : Nat) (c : Int), out[j]? = some c → c ≠ 0 ∧ FromOne T j c

/-- Everything in the array, and everything read, is from the same place of one of the texts. -/
structure Origin (n : Nat) (T : List (List Int)) (y : St) : Prop where
  chars : ∀ (i : Nat) (c : Int), y.chars[i]? = some c → c = 0 ∨ FromOne T i c
  at_ : InHand n T y.pc
  read : ∀ p ∈ y.printed ++ y.seen, p.length ≤ n ∧ ∀ (j : Nat) (c : Int), p[j]? = some c → c ≠ 0 ∧ FromOne T j c

theorem from_mono {T T' : List (List Int)} (h : ∀ t ∈ T, t ∈ T') {i : Nat} {c : Int} : FromOne T i c → FromOne T' i c := fun ⟨t, a, b⟩ => ⟨t, h t a, b⟩

theorem cut_get {l : List Int} {j : Nat} {c : Int} (h : (cut l)[j]? = some c) : c ≠ 0 ∧ l[j]? = some c := by
  induction l generalizing j with
  | nil => simp [cut] at h
  | cons x r ih =>
    by_cases hx : x = 0
    · subst hx; simp [cut] at h
    · have e : cut (x :: r) = x :: cut r := by simp [cut, hx]
      rw [e] at h
      cases j with
      | zero => simp only [List.getElem?_cons_zero, Option.some.injEq] at h; subst h; exact ⟨hx, rfl⟩
      | succ j => simp only [List.getElem?_cons_succ] at h ⊢; exact ih h

theorem cut_short {n : Nat} {l : List Int} (h : l[n]? = some 0) : (cut l).length ≤ n := by
  apply Decidable.byContradiction
  intro hn
  have h1 : n < (cut l).length := by omega
  obtain ⟨h2, h3⟩ := cut_get (List.getElem?_eq_getElem h1)
  rw [h] at h3
  injection h3 with h3
  exact h2 h3.symm

theorem image_from {n : Nat} {T : List (List Int)} {t : List Int} (ht : t ∈ T) (i : Nat) (c : Int) (h : (image n t)[i]? = some c) : c = 0 ∨ FromOne T i c := by
  by_cases hi : i ≤ n
  · rw [image_get n t i hi] at h
    injection h with h
    split at h
    · rw [List.getD_eq_getElem?_getD] at h
      cases hx : t[i]? with
      | none => rw [hx] at h; exact .inl h.symm
      | some x => rw [hx] at h; exact .inr ⟨t, ht, by rw [hx]; exact congrArg some h⟩
    · exact .inl h.symm
  · rw [List.getElem?_eq_none (by rw [image_length]; omega)] at h; cases h

theorem origin_step {n : Nat} {T T' : List (List Int)} {y : St} {e : Ev} (h : Origin n T y) (hs : Safe n y) (hT : ∀ t ∈ T, t ∈ T') (he : ∀ t ∈ texts [e], t ∈ T') : ∀ y', step n y e = .ok y' → Origin n T' y' := by
  obtain ⟨c, pc, p, s⟩ := y
  obtain ⟨h1, h2, h3⟩ := h
  have s1 : c.length = n + 1 := hs.len
  have s2 : c[n]? = some 0 := hs.last
  have k1 : ∀ (i : Nat) (x : Int), c[i]? = some x → x = 0 ∨ FromOne T' i x := fun i x hx => (h1 i x hx).imp id (from_mono hT)
  have k2 : InHand n T' pc := by
    cases pc with
    | idle => trivial
    | copying rest i => obtain ⟨t, a, b⟩ := h2; exact ⟨t, hT t a, b⟩
    | printing i out => exact ⟨h2.1, h2.2.1, fun j c hj => ⟨(h2.2.2 j c hj).1, from_mono hT (h2.2.2 j c hj).2⟩⟩
  have k3 : ∀ q ∈ p ++ s, q.length ≤ n ∧ ∀ (j : Nat) (c : Int), q[j]? = some c → c ≠ 0 ∧ FromOne T' j c := fun q hq =>
    ⟨(h3 q hq).1, fun j c hj => ⟨((h3 q hq).2 j c hj).1, from_mono hT ((h3 q hq).2 j c hj).2⟩⟩
  intro y' hy
  cases e with
  | copy t =>
    simp only [step, Res.ok.injEq] at hy
    subst hy
    split
    · exact ⟨k1, ⟨t, he t (by simp [texts]), rfl⟩, k3⟩
    · exact ⟨k1, k2, k3⟩
  | print =>
    simp only [step, Res.ok.injEq] at hy
    subst hy
    split
    · exact ⟨k1, ⟨rfl, Nat.zero_le _, fun j c hj => by simp at hj⟩, k3⟩
    · exact ⟨k1, k2, k3⟩
  | handler t =>
    simp only [step, copy_image s1 s2, Res.bind_ok, Res.ok.injEq] at hy
    subst hy
    exact ⟨fun i x hx => image_from (he t (by simp [texts])) i x hx, k2, k3⟩
  | look =>
    simp only [step, readOut_ok (List.mem_of_getElem? s2), Res.bind_ok, Res.ok.injEq] at hy
    subst hy
    refine ⟨k1, k2, fun q hq => ?_⟩
    rw [← List.append_assoc, List.mem_append, List.mem_singleton] at hq
    rcases hq with hq | rfl
    · exact k3 q hq
    · refine ⟨cut_short s2, fun j x hj => ?_⟩
      obtain ⟨a, b⟩ := cut_get hj
      exact ⟨a, (k1 j x b).resolve_left a⟩
  | main =>
    cases pc with
    | idle => simp only [step, mainStep, Res.ok.injEq] at hy; subst hy; exact ⟨k1, trivial, k3⟩
    | copying rest i =>
      obtain ⟨t, ht, hr⟩ := k2
      simp only [step, mainStep] at hy
      split at hy
      · next hi =>
        rw [cSet_ok _ (by omega)] at hy
        simp only [Res.bind_ok, Res.ok.injEq] at hy
        subst hy
        refine ⟨fun j x hx => ?_, ⟨t, ht, by rw [hr, List.tail_drop]⟩, k3⟩
        change (c.set i (rest.head?.getD 0))[j]? = some x at hx
        by_cases hj : i = j
        · subst hj
          rw [List.getElem?_set_self (by omega)] at hx
          injection hx with hx
          rw [hr, List.head?_drop] at hx
          cases hy : t[i]? with
          | none => rw [hy] at hx; exact .inl hx.symm
          | some z => rw [hy] at hx; exact .inr ⟨t, ht, by rw [hy]; exact congrArg some hx⟩
        · rw [List.getElem?_set_ne hj] at hx; exact k1 j x hx
      · simp only [Res.ok.injEq] at hy
        subst hy
        exact ⟨k1, trivial, k3⟩
    | printing i out =>
      obtain ⟨a, b, d⟩ := k2
      simp only [step, mainStep] at hy
      rw [cGet_ok (by omega)] at hy
      simp only [Res.bind_ok] at hy
      split at hy
      · simp only [Res.ok.injEq] at hy
        subst hy
        refine ⟨k1, trivial, fun q hq => ?_⟩
        rw [List.append_assoc, List.mem_append, List.mem_append, List.mem_singleton] at hq
        rcases hq with hq | rfl | hq
        · exact k3 q (by simp [hq])
        · exact ⟨by omega, d⟩
        · exact k3 q (by simp [hq])
      · next hc =>
        simp only [Res.ok.injEq] at hy
        subst hy
        have hin : i ≠ n := by
          intro hin
          subst hin
          rw [List.getElem?_eq_getElem (by omega)] at s2
          injection s2 with s2
          exact hc s2
        refine ⟨k1, ⟨by simp [a], by omega, fun j x hj => ?_⟩, k3⟩
        by_cases hji : j < i
        · rw [List.getElem?_append_left (by omega)] at hj; exact d j x hj
        · rw [List.getElem?_append_right (by omega)] at hj
          have : j = i := by
            apply Decidable.byContradiction
            intro hne
            rw [List.getElem?_eq_none (by simp; omega)] at hj
            cases hj
          subst this
          rw [a, Nat.sub_self, List.getElem?_cons_zero] at hj
          injection hj with hj
          have hx : c[j]? = some x := by rw [List.getElem?_eq_getElem (by omega), hj]
          exact ⟨hj ▸ hc, (k1 j x hx).resolve_left (hj ▸ hc)⟩

theorem origin_run {n : Nat} (es : List Ev) : ∀ (T : List (List Int)) (y y' : St), Origin n T y → Safe n y → run n y es = .ok y' → Origin n (T ++ texts es) y' := by
  induction es with
  | nil => intro T y y' h _ hy; simp only [run, Res.ok.injEq] at hy; subst hy; simpa [texts] using h
  | cons e es ih =>
    intro T y y' h hs hy
    obtain ⟨y1, e1, s1⟩ := safe_step hs e
    simp only [run, e1, Res.bind_ok] at hy
    have h1 := origin_step (T' := T ++ texts [e]) h hs (fun t ht => by simp [ht]) (fun t ht => by simp [ht]) y1 e1
    have h2 := ih _ _ _ h1 s1 hy
    have e2 : texts (e :: es) = texts [e] ++ texts es := by simp only [texts, ← List.filterMap_append]; rfl
    rw [e2, ← List.append_assoc]
    exact h2

end StringShared
open StringShared

/-- **C160.** In every history every access is inside the array, and no text read is longer than the capacity: the terminating zero is never overwritten. -/
theorem c160_safe (n : Nat) (g : List Int) (hg : g.length = n + 1) (t : List Int) (es : List Ev) :
    ∃ y0 y, St.init n g t = .ok y0 ∧ run n y0 es = .ok y ∧ y.chars.length = n + 1 ∧ y.chars[n]? = some 0 := by
  obtain ⟨y, h, hs⟩ := safe_run es _ (safe_image n t [] [])
  exact ⟨_, y, init_is n g hg t, h, hs.len, hs.last⟩

/-- **C160.** In every history: a text read by main code or by a handler is no longer than the capacity, and each of its characters stood at the same place of one of the texts that have been used. -/
theorem c160_chars (n : Nat) (g : List Int) (hg : g.length = n + 1) (t : List Int) (es : List Ev) (y0 y : St) (h0 : St.init n g t = .ok y0) (h : run n y0 es = .ok y) :
    ∀ p ∈ y.printed ++ y.seen, p.length ≤ n ∧ ∀ (j : Nat) (c : Int), p[j]? = some c → c ≠ 0 ∧ ∃ u ∈ t :: texts es, u[j]? = some c := by
  rw [init_is n g hg t] at h0
  injection h0 with h0
  subst h0
  have h0 : Origin n [t] ⟨image n t, .idle, [], []⟩ := ⟨fun i c hc => image_from (by simp) i c hc, trivial, fun _ h => by cases h⟩
  exact (origin_run es [t] _ _ h0 (safe_image n t [] []) h).read

namespace StringShared

/-! Calls interrupted once -/

theorem mixed_get {k : Nat} {a b : List Int} (h : a.length = b.length) (x : Nat) : (mixed k a b)[x]? = if x < k then b[x]? else a[x]? := by
  unfold mixed
  by_cases hx : x < (b.take k).length
  · rw [List.getElem?_append_left hx, List.getElem?_take]
    rw [List.length_take] at hx
    rw [if_pos (by omega), if_pos (by omega)]
  · rw [List.getElem?_append_right (by omega), List.getElem?_drop]
    rw [List.length_take] at hx ⊢
    by_cases hk : x < k
    · rw [if_pos hk, List.getElem?_eq_none (by omega), List.getElem?_eq_none (by omega)]
    · rw [if_neg hk]
      by_cases hb : k ≤ b.length
      · rw [Nat.min_eq_left hb]; congr 1; omega
      · rw [List.getElem?_eq_none (by omega), List.getElem?_eq_none (by omega)]

theorem copy_one {n : Nat} (t : List Int) (p s : List (List Int)) {i : Nat} {c : List Int} (hi : i < n) (hl : c.length = n + 1) :
    step n ⟨c, .copying (t.drop i) i, p, s⟩ .main = .ok ⟨c.set i (t.getD i 0), .copying (t.drop (i + 1)) (i + 1), p, s⟩ := by
  simp only [step, mainStep, if_pos hi]
  rw [cSet_ok _ (by omega)]
  simp only [Res.bind_ok, List.head?_drop, List.tail_drop, List.getD_eq_getElem?_getD]

/-- Some stores of main code's copy. -/
theorem copy_some {n : Nat} (t : List Int) (p s : List (List Int)) (j : Nat) : ∀ (i : Nat) (c : List Int), i + j ≤ n → c.length = n + 1 →
    ∃ c', run n ⟨c, .copying (t.drop i) i, p, s⟩ (List.replicate j .main) = .ok ⟨c', .copying (t.drop (i + j)) (i + j), p, s⟩ ∧ c'.length = n + 1 ∧
      ∀ x, c'[x]? = if i ≤ x ∧ x < i + j then (image n t)[x]? else c[x]? := by
  induction j with
  | zero => intro i c _ hl; exact ⟨c, rfl, hl, fun x => by rw [if_neg (by omega)]⟩
  | succ j ih =>
    intro i c hij hl
    obtain ⟨c', h1, h2, h3⟩ := ih (i + 1) (c.set i (t.getD i 0)) (by omega) (by simp only [List.length_set]; exact hl)
    refine ⟨c', ?_, h2, fun x => ?_⟩
    · simp only [List.replicate_succ, run, copy_one t p s (show i < n by omega) hl, Res.bind_ok, h1]
      rw [show i + 1 + j = i + (j + 1) by omega]
    · rw [h3 x]
      by_cases hx : i = x
      · subst hx
        rw [if_neg (by omega), if_pos (by omega), List.getElem?_set_self (by omega), image_get n t i (by omega), if_pos (by omega)]
      · rw [List.getElem?_set_ne hx]
        by_cases h : i + 1 ≤ x ∧ x < i + 1 + j
        · rw [if_pos h, if_pos (by omega)]
        · rw [if_neg h, if_neg (by omega)]

/-- The first stores. -/
theorem copy_begun {n : Nat} {c : List Int} (hl : c.length = n + 1) (p s : List (List Int)) (t : List Int) (k : Nat) (hk : k ≤ n) :
    run n ⟨c, .idle, p, s⟩ (.copy t :: List.replicate k .main) = .ok ⟨mixed k c (image n t), .copying (t.drop k) k, p, s⟩ := by
  obtain ⟨c', h1, h2, h3⟩ := copy_some t p s k 0 c (by omega) hl
  have : c' = mixed k c (image n t) := by
    apply List.ext_getElem?
    intro x
    rw [h3 x, mixed_get (by rw [hl, image_length])]
    simp
  subst this
  simp only [Nat.zero_add, List.drop_zero] at h1
  exact h1

/-- The last stores. -/
theorem copy_ended {n : Nat} {c : List Int} (hl : c.length = n + 1) (h0 : c[n]? = some 0) (p s : List (List Int)) (t : List Int) (k : Nat) (hk : k ≤ n) :
    run n ⟨c, .copying (t.drop k) k, p, s⟩ (List.replicate (n - k + 1) .main) = .ok ⟨mixed k (image n t) c, .idle, p, s⟩ := by
  obtain ⟨c', h1, h2, h3⟩ := copy_some t p s (n - k) k c (by omega) hl
  have : c' = mixed k (image n t) c := by
    apply List.ext_getElem?
    intro x
    rw [h3 x, mixed_get (by rw [hl, image_length])]
    by_cases hx : x < k
    · rw [if_neg (by omega), if_pos hx]
    · rw [if_neg hx]
      by_cases hn : x < n
      · rw [if_pos (by omega)]
      · rw [if_neg (by omega)]
        by_cases hxn : x = n
        · subst hxn; rw [h0, image_last]
        · rw [List.getElem?_eq_none (by omega), List.getElem?_eq_none (by rw [image_length]; omega)]
  subst this
  rw [List.replicate_succ', run_append, h1, Res.bind_ok]
  simp only [run, step, mainStep]
  rw [if_neg (by omega)]
  rfl

theorem mixed_last {n k : Nat} {a b : List Int} (ha : a.length = n + 1) (hb : b.length = n + 1) (h1 : a[n]? = some 0) (h2 : b[n]? = some 0) : (mixed k a b)[n]? = some 0 := by
  rw [mixed_get (by omega)]; split <;> assumption

theorem idle_runs (n : Nat) (c : List Int) (p s : List (List Int)) (k : Nat) : run n ⟨c, .idle, p, s⟩ (List.replicate k .main) = .ok ⟨c, .idle, p, s⟩ := by
  induction k with
  | zero => rfl
  | succ k ih => simp only [List.replicate_succ, run, step, mainStep, Res.bind_ok]; exact ih

/-- Some loads. -/
theorem print_some {n : Nat} {c : List Int} (p s : List (List Int)) (j : Nat) : ∀ (i : Nat) (out : List Int), j ≤ (cut (c.drop i)).length →
    run n ⟨c, .printing i out, p, s⟩ (List.replicate j .main) = .ok ⟨c, .printing (i + j) (out ++ (cut (c.drop i)).take j), p, s⟩ := by
  induction j with
  | zero => intro i out _; simp [run]
  | succ j ih =>
    intro i out hj
    have hi : i < c.length := by
      apply Decidable.byContradiction
      intro h
      rw [List.drop_of_length_le (by omega)] at hj
      simp [cut] at hj
    have hd := List.drop_eq_getElem_cons hi
    have h0 : c[i] ≠ 0 := by
      intro h0
      rw [hd, h0] at hj
      simp [cut] at hj
    have hc : cut (c.drop i) = c[i] :: cut (c.drop (i + 1)) := by rw [hd, cut_cons h0]
    rw [hc, List.length_cons] at hj
    simp only [List.replicate_succ, run, step, mainStep, cGet_ok hi, Res.bind_ok, if_neg h0]
    rw [ih (i + 1) _ (by omega), hc, List.take_succ_cons, List.append_assoc]
    congr 3
    omega

/-- The load of the zero. -/
theorem print_end {n : Nat} {c : List Int} (hl : c.length = n + 1) (h0 : c[n]? = some 0) (p s : List (List Int)) (i : Nat) (out : List Int) (hi : i ≤ n) (m : Nat) (hm : (cut (c.drop i)).length < m) :
    run n ⟨c, .printing i out, p, s⟩ (List.replicate m .main) = .ok ⟨c, .idle, p ++ [out ++ cut (c.drop i)], s⟩ := by
  have hz : (c.drop i)[n - i]? = some 0 := by rw [List.getElem?_drop]; rw [show i + (n - i) = n by omega]; exact h0
  have hs := cut_short hz
  obtain ⟨r, rfl⟩ : ∃ r, m = (cut (c.drop i)).length + (1 + r) := ⟨m - (cut (c.drop i)).length - 1, by omega⟩
  rw [← List.replicate_append_replicate, run_append, print_some p s _ i out (Nat.le_refl _), Res.bind_ok, List.take_length, ← List.replicate_append_replicate, run_append]
  have hat : i + (cut (c.drop i)).length < c.length := by omega
  have hv : c[i + (cut (c.drop i)).length] = 0 := by
    have key : ∀ l : List Int, (0 : Int) ∈ l → l[(cut l).length]? = some 0 := by
      intro l
      induction l with
      | nil => intro h; cases h
      | cons x r ih =>
        intro h
        by_cases hx : x = 0
        · subst hx; simp [cut]
        · have e : cut (x :: r) = x :: cut r := by simp [cut, hx]
          rw [e, List.length_cons, List.getElem?_cons_succ]
          exact ih ((List.mem_cons.1 h).resolve_left (Ne.symm hx))
    have := key _ (List.mem_of_getElem? hz)
    rw [List.getElem?_drop, List.getElem?_eq_getElem hat] at this
    injection this
  simp only [List.replicate_one, run, step, mainStep, cGet_ok hat, hv, Res.bind_ok, if_true]
  exact idle_runs n c _ s r

/-! Old or new -/

/-- Zeros only behind the first. -/
def Closed : List Int → Prop
  | [] => True
  | c :: r => if c = 0 then ∀ x ∈ r, x = 0 else Closed r

theorem closed_zeros {l : List Int} (h : ∀ x ∈ l, x = 0) : Closed l := by
  cases l with
  | nil => trivial
  | cons c r => simp only [Closed, if_pos (h c (by simp))]; exact fun x hx => h x (by simp [hx])

theorem closed_image (n : Nat) {t : List Int} (h : (0 : Int) ∉ t) : Closed (image n t) := by
  have key : ∀ (l : List Int) (k : Nat), (0 : Int) ∉ l → Closed (l ++ List.replicate k 0) := by
    intro l k
    induction l with
    | nil => intro _; exact closed_zeros fun x hx => (List.mem_replicate.1 hx).2
    | cons c r ih =>
      intro h
      have : c ≠ 0 := fun e => h (by simp [e])
      simp only [List.cons_append, Closed, if_neg this]
      exact ih fun hx => h (by simp [hx])
  exact key _ _ fun hx => h (List.mem_of_mem_take hx)

theorem zeros_eq {l : List Int} (h : ∀ x ∈ l, x = 0) {r : List Int} (h' : ∀ x ∈ r, x = 0) (hl : l.length = r.length) : l = r := by
  rw [List.eq_replicate_iff.2 ⟨rfl, h⟩, List.eq_replicate_iff.2 ⟨rfl, h'⟩, hl]

theorem closed_tail {c : Int} {r : List Int} (h : Closed (c :: r)) : Closed r := by
  by_cases hc : c = 0
  · simp only [Closed, if_pos hc] at h; exact closed_zeros h
  · simpa only [Closed, if_neg hc] using h

theorem closed_eq {a : List Int} : ∀ {b : List Int}, Closed a → Closed b → a.length = b.length → cut a = cut b → a = b := by
  induction a with
  | nil => intro b _ _ hl _; exact (List.length_eq_zero_iff.1 hl.symm).symm
  | cons x a ih =>
    intro b ha hb hl hc
    cases b with
    | nil => cases hl
    | cons y b =>
      simp only [List.length_cons, Nat.add_right_cancel_iff] at hl
      by_cases hx : x = 0
      · by_cases hy : y = 0
        · subst hx hy
          simp only [Closed, if_true] at ha hb
          rw [zeros_eq ha hb hl]
        · simp [cut, hx, hy] at hc
      · by_cases hy : y = 0
        · simp [cut, hx, hy] at hc
        · have : x = y ∧ cut a = cut b := by simpa [cut, hx, hy] using hc
          rw [this.1, ih (closed_tail ha) (closed_tail hb) hl this.2]

/-- At most one character differs. -/
def OneApart (a b : List Int) : Prop := ∀ i j : Nat, a[i]? ≠ b[i]? → a[j]? ≠ b[j]? → i = j

theorem oneApart_cons {c : Int} {a b : List Int} (h : OneApart a b) : OneApart (c :: a) (c :: b) := by
  intro i j hi hj
  cases i with
  | zero => exact absurd rfl hi
  | succ i =>
    cases j with
    | zero => exact absurd rfl hj
    | succ j => simp only [List.getElem?_cons_succ] at hi hj; rw [h i j hi hj]

theorem old_or_new_imp (a : List Int) : ∀ b : List Int, Closed a → Closed b → a.length = b.length → (∀ k ≤ a.length, cut (mixed k a b) = cut a ∨ cut (mixed k a b) = cut b) → cut b <+: cut a ∨ OneApart a b := by
  induction a with
  | nil => intro b _ _ hl _; cases b with
    | nil => exact .inl (List.prefix_refl _)
    | cons y b => cases hl
  | cons x a ih =>
    intro b ha hb hl h
    cases b with
    | nil => cases hl
    | cons y b =>
      simp only [List.length_cons, Nat.add_right_cancel_iff] at hl
      by_cases hy : y = 0
      · exact .inl (by simp [cut, hy])
      have ey : ∀ l, cut (y :: l) = y :: cut l := fun l => by simp [cut, hy]
      by_cases hxy : x = y
      · subst hxy
        have h' : ∀ k ≤ a.length, cut (mixed k a b) = cut a ∨ cut (mixed k a b) = cut b := by
          intro k hk
          have := h (k + 1) (by simp only [List.length_cons]; omega)
          simpa [mixed, ey] using this
        rcases ih b (closed_tail ha) (closed_tail hb) hl h' with h1 | h1
        · left; rw [ey, ey]; exact (List.prefix_cons_inj x).2 h1
        · right; exact oneApart_cons h1
      · right
        have h1 := h 1 (by simp)
        simp only [mixed, List.take_succ_cons, List.take_zero, List.drop_succ_cons, List.drop_zero, List.cons_append, List.nil_append, ey] at h1
        have h2 : cut a = cut b := by
          rcases h1 with h1 | h1
          · by_cases hx : x = 0
            · simp [cut, hx] at h1
            · have : y = x := by
                have : y :: cut a = x :: cut a := by rw [h1]; simp [cut, hx]
                exact (List.cons.inj this).1
              exact absurd this.symm hxy
          · exact (List.cons.inj h1).2
        have h3 := closed_eq (closed_tail ha) (closed_tail hb) hl h2
        subst h3
        intro i j hi hj
        cases i with
        | succ i => exact absurd rfl hi
        | zero => cases j with
          | succ j => exact absurd rfl hj
          | zero => rfl

theorem mixed_one {a b : List Int} (hl : a.length = b.length) (h : OneApart a b) (k : Nat) : mixed k a b = a ∨ mixed k a b = b := by
  by_cases hk : ∃ i, k ≤ i ∧ a[i]? ≠ b[i]?
  · obtain ⟨i, h1, h2⟩ := hk
    left
    apply List.ext_getElem?
    intro x
    rw [mixed_get hl]
    by_cases hx : x < k
    · rw [if_pos hx]
      apply Decidable.byContradiction
      intro hne
      have := h x i (Ne.symm hne) h2
      omega
    · rw [if_neg hx]
  · right
    apply List.ext_getElem?
    intro x
    rw [mixed_get hl]
    by_cases hx : x < k
    · rw [if_pos hx]
    · rw [if_neg hx]
      apply Decidable.byContradiction
      intro hne
      exact hk ⟨x, by omega, hne⟩

theorem mixed_prefix (a : List Int) : ∀ (b : List Int), a.length = b.length → cut b <+: cut a → ∀ k, cut (mixed k a b) = cut a ∨ cut (mixed k a b) = cut b := by
  induction a with
  | nil => intro b hl _ k; cases b with
    | nil => left; simp [mixed]
    | cons y b => cases hl
  | cons x a ih =>
    intro b hl h k
    cases b with
    | nil => cases hl
    | cons y b =>
      cases k with
      | zero => left; rfl
      | succ k =>
        by_cases hy : y = 0
        · right; subst hy; simp [mixed, cut]
        · by_cases hx : x = 0
          · simp [cut, hx, hy] at h
          · have hb : cut (y :: b) = y :: cut b := by simp [cut, hy]
            have ha : cut (x :: a) = x :: cut a := by simp [cut, hx]
            rw [hb, ha, List.cons_prefix_cons] at h
            obtain ⟨rfl, h⟩ := h
            have hm : cut (mixed (k + 1) (y :: a) (y :: b)) = y :: cut (mixed k a b) := by simp [mixed, cut, hy]
            rw [hm, ha, hb]
            rcases ih b (by simpa using hl) h k with h1 | h1
            · left; rw [h1]
            · right; rw [h1]

/-- When a mixture is always one or the other. -/
theorem old_or_new {n : Nat} {a b : List Int} (ha : (0 : Int) ∉ a) (hb : (0 : Int) ∉ b) :
    (∀ k ≤ n, cut (mixed k (image n a) (image n b)) = a.take n ∨ cut (mixed k (image n a) (image n b)) = b.take n) ↔ b.take n <+: a.take n ∨ OneApart (image n a) (image n b) := by
  have hl : (image n a).length = (image n b).length := by rw [image_length, image_length]
  rw [← cut_image ha, ← cut_image hb]
  constructor
  · intro h
    refine old_or_new_imp _ _ (closed_image n ha) (closed_image n hb) hl fun k hk => ?_
    by_cases hkn : k ≤ n
    · exact h k hkn
    · right
      unfold mixed
      rw [List.take_of_length_le (by rw [image_length]; omega), List.drop_of_length_le (by rw [image_length]; omega), List.append_nil]
  · rintro (h | h) k _
    · exact mixed_prefix _ _ hl h k
    · exact (mixed_one hl h k).imp (congrArg cut) (congrArg cut)

end StringShared

/-- **C160.** A handler that reads the string behind `k` stores of main code's copy sees the first `k` characters of the new text followed by the rest of the old contents. -/
theorem c160_look (n : Nat) (c : List Int) (p s : List (List Int)) (hl : c.length = n + 1) (h0 : c[n]? = some 0) (t : List Int) (k : Nat) (hk : k ≤ n) :
    run n ⟨c, .idle, p, s⟩ (.copy t :: List.replicate k .main ++ .look :: List.replicate (n - k + 1) .main) = .ok ⟨image n t, .idle, p, s ++ [cut (mixed k c (image n t))]⟩ := by
  have hm : (mixed k c (image n t)).length = n + 1 := by
    simp only [mixed, List.length_append, List.length_take, List.length_drop, hl, image_length]; omega
  have hz := mixed_last (k := k) hl (image_length n t) h0 (image_last n t)
  rw [StringShared.run_append, copy_begun hl p s t k hk, Res.bind_ok]
  simp only [run, step, readOut_ok (List.mem_of_getElem? hz), Res.bind_ok]
  rw [copy_ended hm hz p _ t k hk]
  congr 2
  apply List.ext_getElem?
  intro x
  rw [mixed_get (by rw [hm, image_length]), mixed_get (by rw [hl, image_length])]
  split <;> rfl

/-- **C160.** A handler reads the old or the new text wherever it comes, exactly if the new text is a beginning of the old one or only one character of the array changes. -/
theorem c160_look_once (n : Nat) (a t : List Int) (ha : (0 : Int) ∉ a) (ht : (0 : Int) ∉ t) (p s : List (List Int)) :
    (∀ k ≤ n, ∃ y v, run n ⟨image n a, .idle, p, s⟩ (.copy t :: List.replicate k .main ++ .look :: List.replicate (n - k + 1) .main) = .ok y ∧ y.seen = s ++ [v] ∧ (v = a.take n ∨ v = t.take n)) ↔
      t.take n <+: a.take n ∨ OneApart (image n a) (image n t) := by
  rw [← old_or_new ha ht]
  refine forall_congr' fun k => forall_congr' fun hk => ?_
  rw [c160_look n _ p s (image_length n a) (image_last n a) t k hk]
  constructor
  · rintro ⟨y, v, h1, h2, h3⟩
    injection h1 with h1
    subst h1
    have := List.append_cancel_left h2
    injection this with this
    rw [this]; exact h3
  · intro h
    exact ⟨_, _, rfl, rfl, h⟩

/-- **C160.** A handler that copies a text into the string behind `k` stores of main code's copy: when main code has returned the string holds the first `k` characters of the handler's text followed by the
    rest of main code's. -/
theorem c160_copy_around (n : Nat) (c : List Int) (p s : List (List Int)) (hl : c.length = n + 1) (h0 : c[n]? = some 0) (t u : List Int) (k : Nat) (hk : k ≤ n) :
    run n ⟨c, .idle, p, s⟩ (.copy t :: List.replicate k .main ++ .handler u :: List.replicate (n - k + 1) .main) = .ok ⟨mixed k (image n t) (image n u), .idle, p, s⟩ := by
  have hm : (mixed k c (image n t)).length = n + 1 := by
    simp only [mixed, List.length_append, List.length_take, List.length_drop, hl, image_length]; omega
  have hz := mixed_last (k := k) hl (image_length n t) h0 (image_last n t)
  rw [StringShared.run_append, copy_begun hl p s t k hk, Res.bind_ok]
  simp only [run, step, copy_image hm hz, Res.bind_ok]
  exact copy_ended (image_length n u) (image_last n u) p s t k hk

/-- **C160.** The string holds one of the two texts wherever the handler came, exactly if the handler's text is a beginning of main code's or the two differ in only one character of the array. -/
theorem c160_copy_once (n : Nat) (c : List Int) (p s : List (List Int)) (hl : c.length = n + 1) (h0 : c[n]? = some 0) (t u : List Int) (ht : (0 : Int) ∉ t) (hu : (0 : Int) ∉ u) :
    (∀ k ≤ n, ∃ y, run n ⟨c, .idle, p, s⟩ (.copy t :: List.replicate k .main ++ .handler u :: List.replicate (n - k + 1) .main) = .ok y ∧ (cut y.chars = t.take n ∨ cut y.chars = u.take n)) ↔
      u.take n <+: t.take n ∨ OneApart (image n t) (image n u) := by
  rw [← old_or_new ht hu]
  refine forall_congr' fun k => forall_congr' fun hk => ?_
  rw [c160_copy_around n c p s hl h0 t u k hk]
  constructor
  · rintro ⟨y, h1, h2⟩
    injection h1 with h1
    subst h1
    exact h2
  · intro h
    exact ⟨_, rfl, h⟩

/-- **C160.** Strings of two characters and more can be left for good with a text that nobody has copied. -/
theorem c160_mixture_fails (n : Nat) (hn : 2 ≤ n) (c : List Int) (p s : List (List Int)) (hl : c.length = n + 1) (h0 : c[n]? = some 0) (v w : Int) (hv : v ≠ 0) (hw : w ≠ 0) :
    ∃ y, run n ⟨c, .idle, p, s⟩ (.copy [v, v] :: List.replicate 1 .main ++ .handler [w, w] :: List.replicate (n - 1 + 1) .main) = .ok y ∧ y.pc = .idle ∧ cut y.chars = [w, v] := by
  refine ⟨_, c160_copy_around n c p s hl h0 [v, v] [w, w] 1 (by omega), rfl, ?_⟩
  obtain ⟨m, rfl⟩ : ∃ m, n = m + 2 := ⟨n - 2, by omega⟩
  have e : ∀ x : Int, image (m + 2) [x, x] = x :: x :: List.replicate (m + 1) 0 := fun x => by simp [image]
  rw [e, e]
  simp [mixed, cut, hv, hw, List.replicate_succ]

/-- **C160.** A handler that copies a text into the string behind `k` loads of main code's reading: main code reads the first `k` characters of the old text followed by the rest of the new one. -/
theorem c160_print_around (n : Nat) (a u : List Int) (ha : (0 : Int) ∉ a) (p s : List (List Int)) (k : Nat) :
    run n ⟨image n a, .idle, p, s⟩ (.print :: List.replicate k .main ++ .handler u :: List.replicate (n + 1) .main) = .ok ⟨image n u, .idle, p ++ [cut (mixed k (image n u) (image n a))], s⟩ := by
  have hc : cut (image n a) = a.take n := cut_image ha
  rw [StringShared.run_append]
  by_cases hk : k ≤ (a.take n).length
  · have h1 : run n ⟨image n a, .idle, p, s⟩ (.print :: List.replicate k .main) = .ok ⟨image n a, .printing k ((a.take n).take k), p, s⟩ := by
      have := print_some (n := n) (c := image n a) p s k 0 [] (by rw [List.drop_zero, hc]; exact hk)
      rw [Nat.zero_add, List.drop_zero, hc, List.nil_append] at this
      exact this
    have hkn : k ≤ n := by rw [List.length_take] at hk; omega
    rw [h1, Res.bind_ok]
    simp only [run, step, copy_image (image_length n a) (image_last n a), Res.bind_ok]
    have hz : ((image n u).drop k)[n - k]? = some 0 := by rw [List.getElem?_drop, show k + (n - k) = n by omega]; exact image_last n u
    rw [print_end (image_length n u) (image_last n u) p s k _ hkn (n + 1) (by have := cut_short hz; omega)]
    congr 3
    unfold mixed
    have e : (image n a).take k = (a.take n).take k := by
      unfold image
      rw [List.take_append_of_le_length hk]
    rw [e, cut_append fun hx => ha (List.mem_of_mem_take (List.mem_of_mem_take hx))]
  · have h1 : run n ⟨image n a, .idle, p, s⟩ (.print :: List.replicate k .main) = .ok ⟨image n a, .idle, p ++ [a.take n], s⟩ := by
      have := print_end (image_length n a) (image_last n a) p s 0 [] (Nat.zero_le n) k (by rw [List.drop_zero, hc]; omega)
      rw [List.drop_zero, hc, List.nil_append] at this
      exact this
    rw [h1, Res.bind_ok]
    simp only [run, step, copy_image (image_length n a) (image_last n a), Res.bind_ok]
    rw [idle_runs]
    congr 3
    obtain ⟨r, hr⟩ : ∃ r, k = (a.take n).length + (r + 1) := ⟨k - (a.take n).length - 1, by omega⟩
    obtain ⟨z, hz⟩ : ∃ z, n + 1 - (a.take n).length = z + 1 := ⟨n - (a.take n).length, by rw [List.length_take]; omega⟩
    unfold mixed
    have e : (image n a).take k = a.take n ++ 0 :: (List.replicate z (0 : Int)).take r := by
      unfold image
      rw [hz, hr, List.take_length_add_append, List.replicate_succ, List.take_succ_cons]
    rw [e, List.append_assoc, cut_append fun hx => ha (List.mem_of_mem_take hx)]
    simp [cut]

/-- **C160.** Main code reads the old or the new text wherever the handler comes, exactly if the old text is a beginning of the new one or only one character of the array changes. -/
theorem c160_print_once (n : Nat) (a u : List Int) (ha : (0 : Int) ∉ a) (hu : (0 : Int) ∉ u) (p s : List (List Int)) :
    (∀ k ≤ n, ∃ y v, run n ⟨image n a, .idle, p, s⟩ (.print :: List.replicate k .main ++ .handler u :: List.replicate (n + 1) .main) = .ok y ∧ y.printed = p ++ [v] ∧ (v = u.take n ∨ v = a.take n)) ↔
      a.take n <+: u.take n ∨ OneApart (image n u) (image n a) := by
  rw [← old_or_new hu ha]
  refine forall_congr' fun k => forall_congr' fun hk => ?_
  rw [c160_print_around n a u ha p s k]
  constructor
  · rintro ⟨y, v, h1, h2, h3⟩
    injection h1 with h1
    subst h1
    have := List.append_cancel_left h2
    injection this with this
    rw [this]; exact h3
  · intro h
    exact ⟨_, _, rfl, rfl, h⟩

/-! ### In sections -/

namespace StringShared

/-- The string as a shared object (FixedString.h 79-91). -/
abbrev string (n : Nat) : CriticalSection.Machine where
  St := StringInterrupt.St
  Ev := StringInterrupt.Ev
  step := StringInterrupt.step n
  kind := fun | .copy _ | .print => .enter | .main => .within | .handler _ | .look => .handler
  idle := fun y => y.pc = .idle
  proper := fun | .copy t | .handler t => (0 : Int) ∉ t | _ => True

theorem lawful_string (n : Nat) : Sections.Lawful (string n) := by
  intro (y : StringInterrupt.St) (e : StringInterrupt.Ev) (y' : StringInterrupt.St) (hi : y.pc = .idle) hk h
  change StringInterrupt.step n y e = .ok y' at h
  change y'.pc = .idle
  cases e with
  | copy t => exact absurd rfl hk
  | print => exact absurd rfl hk
  | main => simp only [step, mainStep, hi, Res.ok.injEq] at h; subst h; exact hi
  | handler t =>
    simp only [step] at h
    cases hc : FixedString.copyFrom n ⟨y.chars, 0⟩ t with
    | ub => rw [hc] at h; cases h
    | ok x => rw [hc] at h; simp only [Res.bind_ok, Res.ok.injEq] at h; subst h; exact hi
  | look =>
    simp only [step] at h
    cases hc : readOut y.chars with
    | ub => rw [hc] at h; cases h
    | ok x => rw [hc] at h; simp only [Res.bind_ok, Res.ok.injEq] at h; subst h; exact hi

theorem run_string (n : Nat) (es : List StringInterrupt.Ev) (y : StringInterrupt.St) : (string n).run y es = StringInterrupt.run n y es :=
  Sections.run_is (M := string n) (R := StringInterrupt.run n) (fun _ => rfl) (fun _ _ _ => rfl) es y

/-- Main code in a call, and the string of which every call is indivisible. -/
def RelAt (n : Nat) (c : List Int) (p : List (List Int)) (v : List Int) (p' : List (List Int)) : Pc → Prop
  | .idle => c = image n v ∧ p = p'
  | .copying rest i => p = p' ∧ i ≤ n ∧ c.length = n + 1 ∧ c[n]? = some 0 ∧ (∃ t : List Int, v = t.take n ∧ rest = t.drop i) ∧ ∀ j < i, c[j]? = (image n v)[j]?
  | .printing i out => c = image n v ∧ p ++ [v] = p' ∧ i ≤ v.length ∧ out = v.take i

/-- The string and the one of which every call is indivisible. -/
def Rel (n : Nat) (y : StringInterrupt.St) (x : List Int × List (List Int) × List (List Int)) : Prop :=
  (0 : Int) ∉ x.1 ∧ x.1.length ≤ n ∧ y.seen = x.2.2 ∧ RelAt n y.chars y.printed x.1 x.2.1 y.pc

theorem image_take (n : Nat) (t : List Int) : image n (t.take n) = image n t := by simp only [image, List.take_take, Nat.min_self]

theorem step_rel {n : Nat} {y : StringInterrupt.St} {x : List Int × List (List Int) × List (List Int)} (h : Rel n y x) (e : StringInterrupt.Ev) (hp : (string n).proper e) (hk : e ≠ .main → y.pc = .idle) :
    ∃ y', step n y e = .ok y' ∧ Rel n y' (inOneGo n x [e]) := by
  obtain ⟨c, pc, p, s⟩ := y
  obtain ⟨v, p', s'⟩ := x
  obtain ⟨h1, h2, h3, h4⟩ := h
  change s = s' at h3
  change RelAt n c p v p' pc at h4
  change (0 : Int) ∉ v at h1
  change v.length ≤ n at h2
  subst h3
  cases e with
  | copy t =>
    have hi : pc = .idle := hk (fun h => nomatch h)
    subst hi
    obtain ⟨rfl, rfl⟩ := h4
    exact ⟨_, rfl, fun hx => hp (List.mem_of_mem_take hx), List.length_take_le n t, rfl, rfl, Nat.zero_le n, image_length n v, image_last n v, ⟨t, rfl, rfl⟩, fun j hj => by omega⟩
  | print =>
    have hi : pc = .idle := hk (fun h => nomatch h)
    subst hi
    obtain ⟨rfl, rfl⟩ := h4
    exact ⟨_, rfl, h1, h2, rfl, rfl, rfl, Nat.zero_le _, rfl⟩
  | handler t =>
    have hi : pc = .idle := hk (fun h => nomatch h)
    subst hi
    obtain ⟨rfl, rfl⟩ := h4
    refine ⟨⟨image n t, .idle, p, s⟩, ?_, fun hx => hp (List.mem_of_mem_take hx), List.length_take_le n t, rfl, (image_take n t).symm, rfl⟩
    simp only [step, copy_image (image_length n v) (image_last n v), Res.bind_ok]
  | look =>
    have hi : pc = .idle := hk (fun h => nomatch h)
    subst hi
    obtain ⟨rfl, rfl⟩ := h4
    refine ⟨⟨image n v, .idle, p, s ++ [v]⟩, ?_, h1, h2, rfl, rfl, rfl⟩
    simp only [step, readOut_ok (List.mem_of_getElem? (image_last n v)), Res.bind_ok, cut_image h1, List.take_of_length_le h2]
  | main =>
    cases pc with
    | idle => exact ⟨_, rfl, h1, h2, rfl, h4⟩
    | copying rest i =>
      obtain ⟨rfl, hi, hl, hz, ⟨t, rfl, rfl⟩, hj⟩ := h4
      by_cases hin : i < n
      · refine ⟨_, copy_one t p s hin hl, h1, h2, rfl, rfl, hin, by simp only [List.length_set]; exact hl, ?_, ⟨t, rfl, rfl⟩, fun j hji => ?_⟩
        · change (c.set i _)[n]? = some 0
          rw [List.getElem?_set_ne (by omega)]; exact hz
        · change (c.set i _)[j]? = _
          by_cases hij : i = j
          · subst hij
            rw [List.getElem?_set_self (by omega)]
            change _ = (image n (t.take n))[i]?
            rw [image_take, image_get n t i (by omega), if_pos hin]
          · rw [List.getElem?_set_ne hij]; exact hj j (by omega)
      · have : i = n := by omega
        subst this
        refine ⟨⟨c, .idle, p, s⟩, by simp only [step, mainStep, if_neg hin], h1, h2, rfl, ?_, rfl⟩
        apply List.ext_getElem?
        intro j
        change c[j]? = (image i (t.take i))[j]?
        by_cases hji : j < i
        · exact hj j hji
        · by_cases hje : j = i
          · subst hje; rw [hz, image_last]
          · rw [List.getElem?_eq_none (by omega), List.getElem?_eq_none (by rw [image_length]; omega)]
    | printing i out =>
      obtain ⟨rfl, rfl, hi, rfl⟩ := h4
      have hat : i < (image n v).length := by rw [image_length]; omega
      have hc : (image n v)[i] = if i < n then v.getD i 0 else 0 := by
        have := image_get n v i (by omega)
        rw [List.getElem?_eq_getElem hat] at this
        injection this
      by_cases hiv : i < v.length
      · have hval : (image n v)[i] = v[i] := by rw [hc, if_pos (by omega), List.getD_eq_getElem?_getD, List.getElem?_eq_getElem hiv]; rfl
        have hne : (image n v)[i] ≠ 0 := by
          rw [hval]
          intro h0
          exact h1 (h0 ▸ List.getElem_mem hiv)
        refine ⟨⟨image n v, .printing (i + 1) (v.take i ++ [(image n v)[i]]), p, s⟩, ?_, h1, h2, rfl, rfl, rfl, hiv, ?_⟩
        · simp only [step, mainStep, cGet_ok hat, Res.bind_ok, if_neg hne]
        · change v.take i ++ [(image n v)[i]] = v.take (i + 1)
          rw [hval, List.take_append_getElem]
      · have hval : (image n v)[i] = 0 := by
          rw [hc, List.getD_eq_getElem?_getD, List.getElem?_eq_none (by omega)]
          split <;> rfl
        refine ⟨⟨image n v, .idle, p ++ [v.take i], s⟩, ?_, h1, h2, rfl, rfl, ?_⟩
        · simp only [step, mainStep, cGet_ok hat, Res.bind_ok, if_pos hval]
        · change p ++ [v.take i] = p ++ [v]
          rw [List.take_of_length_le (by omega)]

theorem go_cons (n : Nat) (x : List Int × List (List Int) × List (List Int)) (e : StringInterrupt.Ev) (es : List StringInterrupt.Ev) : inOneGo n x (e :: es) = inOneGo n (inOneGo n x [e]) es := by cases e <;> rfl

theorem clean_rel {n : Nat} (es : List StringInterrupt.Ev) : ∀ (y : StringInterrupt.St) (x : List Int × List (List Int) × List (List Int)), Rel n y x → Sections.Clean (string n) y es →
    ∃ y', StringInterrupt.run n y es = .ok y' ∧ Rel n y' (inOneGo n x es) := by
  induction es with
  | nil => intro y x h _; exact ⟨y, rfl, h⟩
  | cons e es ih =>
    intro y x h hc
    rw [go_cons]
    obtain ⟨y1, e1, r1⟩ := step_rel h e hc.1.1 fun he => hc.1.2 (by
      cases e with
      | main => exact absurd rfl he
      | _ => exact fun h => nomatch h)
    obtain ⟨y2, e2, r2⟩ := ih y1 _ r1 (hc.2 _ e1)
    exact ⟨y2, by simp only [StringInterrupt.run, e1, Res.bind_ok, e2], r2⟩

end StringShared

/-- **C160.** Main code that uses the string only with interrupts off, one call after the other: outside of its calls the text in the string and all texts read from it, by main code and by handlers, are those
    of indivisible calls, in the order in which they came. -/
theorem c160_sections (n : Nat) (a : List Int) (ha : (0 : Int) ∉ a) (on : Bool) (es : List (CriticalSection.Ev StringInterrupt.Ev))
    (hs : Sections.Sectioned (string n) (CriticalSection.Board.init _ ⟨image n a, .idle, [], []⟩ on) es) :
    ∃ d, CriticalSection.run (string n) (CriticalSection.Board.init _ ⟨image n a, .idle, [], []⟩ on) es = .ok d ∧
      (d.obj.pc = .idle → (cut d.obj.chars, d.obj.printed, d.obj.seen) = inOneGo n (a.take n, [], []) d.trace) := by
  have h0 : Rel n ⟨image n a, .idle, [], []⟩ (a.take n, [], []) := ⟨fun hx => ha (List.mem_of_mem_take hx), List.length_take_le n a, rfl, (image_take n a).symm, rfl⟩
  obtain ⟨d, hd⟩ := c151_defined _ (lawful_string n) ⟨image n a, .idle, [], []⟩ on (fun _ => rfl) es hs fun tr htr => by
    obtain ⟨y, hy, _⟩ := clean_rel tr _ _ h0 htr
    exact ⟨y, (run_string n tr _).trans hy⟩
  obtain ⟨h1, h2⟩ := c151_apart _ (lawful_string n) ⟨image n a, .idle, [], []⟩ on (fun _ => rfl) es hs d hd
  refine ⟨d, hd, fun hp => ?_⟩
  obtain ⟨y, h3, h4⟩ := clean_rel d.trace _ _ h0 h1
  have h5 : y = d.obj := by
    have := h3.symm.trans ((run_string n d.trace _).symm.trans h2)
    injection this
  subst h5
  obtain ⟨k1, k2, k3, k4⟩ := h4
  rw [hp] at k4
  obtain ⟨k4, k5⟩ := k4
  refine Prod.ext ?_ (Prod.ext k5 k3)
  change cut d.obj.chars = _
  rw [k4, cut_image k1, List.take_of_length_le k2]

/-- **C160.** The full claim, that every text read is one of the texts used, is false of the code: a handler sees half of a copy. -/
theorem c160_full_claim_is_false : ¬ ∀ (n : Nat) (a : List Int) (es : List Ev) (y : St), (0 : Int) ∉ a → StringShared.Proper es → run n ⟨image n a, .idle, [], []⟩ es = .ok y →
    ∀ q ∈ y.printed ++ y.seen, ∃ u ∈ a :: texts es, q = u.take n := by
  intro h
  have := h 2 [] [.copy [1, 2], .main, .look] ⟨[1, 0, 0], .copying [2] 1, [], [[1]]⟩ (by decide) (by unfold StringShared.Proper; decide) rfl [1] (by decide)
  revert this
  decide

/-! ### Cases -/

namespace StringShared
/-- "stop", "start", "st" and "stops". -/
def stop : List Int := [115, 116, 111, 112]
def start : List Int := [115, 116, 97, 114, 116]
def st : List Int := [115, 116]
def stops : List Int := [115, 116, 111, 112, 115]

/-- Main code copies and prints in sections, a handler copies and reads in between. -/
def inTurn : List (CriticalSection.Ev StringInterrupt.Ev) :=
  [.request 0, .off, .main (.copy st)] ++ List.replicate 4 (.main .main) ++ [.serve 0 [.look]] ++ List.replicate 2 (.main .main) ++ [.on, .other, .serve 0 [.look, .handler stop], .off, .main .print] ++
    List.replicate 5 (.main .main) ++ [.on]
instance (n : Nat) : DecidablePred (string n).proper := fun e => by cases e <;> simp only [string] <;> infer_instance
instance (n : Nat) : DecidablePred (string n).idle := fun y => inferInstanceAs (Decidable (y.pc = .idle))
end StringShared

example := c160_safe 5 [7, 7, 7, 7, 7, 7] rfl stop [.copy start, .main, .main, .handler st, .look, .main]
example := c160_chars 2 [7, 7, 7] rfl [1, 1] [.copy [2, 2], .main, .look] ⟨[1, 1, 0], .idle, [], []⟩ ⟨[2, 1, 0], .copying [2] 1, [], [[2, 1]]⟩ (init_is 2 _ rfl _) rfl
example := c160_look 5 (image 5 stop) [] [] (by decide) (by decide) start 3 (by decide)
/-- "start" copied over "stop": a handler reads "stap". -/
example : cut (mixed 3 (image 5 stop) (image 5 start)) = [115, 116, 97, 112] := by decide
/-- "st" copied over "stop", "stops" copied over "stop". -/
example := (c160_look_once 5 stop st (by decide) (by decide) [] []).2 (.inl (by decide))
example := (c160_look_once 5 stop stops (by decide) (by decide) [] []).2 (.inr (by
  intro i j hi hj
  have key : ∀ i : Nat, (image 5 stop)[i]? ≠ (image 5 stops)[i]? → i = 4 := fun
    | 0, h | 1, h | 2, h | 3, h => absurd rfl h
    | 4, _ => rfl
    | _ + 5, h => absurd rfl h
  rw [key i hi, key j hj]))
example := c160_copy_around 5 (image 5 []) [] [] (by decide) (by decide) start stop 3 (by decide)
/-- Main code copies "start", a handler "stop": "stort". -/
example : cut (mixed 3 (image 5 start) (image 5 stop)) = [115, 116, 111, 114, 116] := by decide
example := (c160_copy_once 5 (image 5 []) [] [] (by decide) (by decide) stop st (by decide) (by decide)).2 (.inl (by decide))
example := c160_mixture_fails 5 (by decide) (image 5 []) [] [] (by decide) (by decide) 65 66 (by decide) (by decide)
example := c160_print_around 5 stop start (by decide) [] [] 3
example := (c160_print_once 5 st stop (by decide) (by decide) [] []).2 (.inl (by decide))
example := c160_sections 5 stops (by decide) true inTurn (by decide +kernel)

end Atl.Props
