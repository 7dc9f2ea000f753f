import Verif.Model.RingBufferShared
import Verif.Proof.RingBufferIsr

/- Property theorems C144: one ring buffer written and read by main code and by interrupt handlers. -/
namespace Atl.Props
open Atl Atl.RingBuffer Atl.RingBufferShared

/-! ### Specification -/

namespace SharedRing
variable {α : Type}

/-- A bounded queue: what a call does and answers. -/
def serve (cap : Nat) (q : List α) : Call α → List α × Ans α
  | .put v => if q.length < cap then (q ++ [v], .put true) else (q, .put false)
  | .take => match q with
    | [] => ([], .took none)
    | v :: q => (q, .took (some v))

/-- All calls of a list, one after the other. -/
def serveAll (cap : Nat) (q : List α) : List (Call α) → List α × List (Ans α)
  | [] => (q, [])
  | c :: cs => ((serveAll cap (serve cap q c).1 cs).1, (serve cap q c).2 :: (serveAll cap (serve cap q c).1 cs).2)

/-- The completed calls and their answers. -/
def calls (s : St α) : List (Call α) := s.log.map (·.2.1)
def answers (s : St α) : List (Ans α) := s.log.map (·.2.2)

/-- What the queue holds after the completed calls. -/
def contents (s : St α) : List α := (serveAll (s.rb.size - 1) [] (calls s)).1

/-- Completed calls of main code (`true`) or of handlers, in order. -/
def completedBy (b : Bool) (s : St α) : List (Call α) := (s.log.filter (·.1 = b)).map (·.2.1)

/-- The call main code is in. -/
def inCall : Pc α → List (Call α)
  | .idle => []
  | .checked v _ | .stored v _ => [.put v]
  | .counted _ | .got _ _ => [.take]

/-- The calls of a history made by main code (`true`) or by handlers, in order. -/
def askedBy (b : Bool) : List (Ev α) → List (Call α)
  | [] => []
  | .start c :: es => if b then c :: askedBy b es else askedBy b es
  | .main :: es => askedBy b es
  | .handler c :: es => if b then askedBy b es else c :: askedBy b es

/-- A condition at each event of a history. -/
def AtEach (keep : Bool) (now : St α → Ev α → Prop) (s : St α) : List (Ev α) → Prop
  | [] => True
  | e :: es => now s e ∧ ∀ s', step keep s e = .ok s' → AtEach keep now s' es

/-- Main code makes one call after the other. -/
def Sensible (s : St α) : Ev α → Prop
  | .start _ => s.pc = .idle
  | _ => True

/-- Main code makes one call after the other. A handler does not write while main code writes and does not read while main code reads, except when main code has just made
    its test, loads the pointer again, and there is room for two values, or there are two values. -/
def Apart (keep : Bool) (s : St α) : Ev α → Prop
  | .start _ => s.pc = .idle
  | .main => True
  | .handler (.put _) => match s.pc with
    | .checked _ _ => keep = false ∧ (contents s).length + 2 < s.rb.size
    | .stored _ _ => False
    | _ => True
  | .handler .take => match s.pc with
    | .counted _ => keep = false ∧ 2 ≤ (contents s).length
    | .got _ _ => False
    | _ => True

/-- The claim about a history: nothing undefined happens, every call asked for is made, in order, the calls have the answers of a queue of capacity `Size - 1` in which each of
    them is one step (at its end), and the length is that of the queue. -/
def AsQueue (keep : Bool) (g : List α) (es : List (Ev α)) : Prop :=
  ∃ s, run keep (St.init g) es = .ok s ∧ answers s = (serveAll (g.length - 1) [] (calls s)).2 ∧
    completedBy false s = askedBy false es ∧ completedBy true s ++ inCall s.pc = askedBy true es ∧
    getLength s.rb = (serveAll (g.length - 1) [] (calls s)).1.length

/-! ### Proofs -/

theorem serveAll_snoc (cap : Nat) (q : List α) (cs : List (Call α)) (c : Call α) :
    serveAll cap q (cs ++ [c]) = ((serve cap (serveAll cap q cs).1 c).1, (serveAll cap q cs).2 ++ [(serve cap (serveAll cap q cs).1 c).2]) := by
  induction cs generalizing q with
  | nil => rfl
  | cons d cs ih => simp only [List.cons_append, serveAll, ih]

/-- What main code relies on at its place. -/
def At (keep : Bool) (rb : RB α) (q : List α) : Pc α → Prop
  | .idle => True
  | .checked _ p => q.length + 1 < rb.size ∧ (keep = true → p = rb.w)
  | .stored v p => q.length + 1 < rb.size ∧ rb.buf[rb.w]? = some v ∧ (keep = true → p = rb.w)
  | .counted p => q ≠ [] ∧ (keep = true → p = rb.r)
  | .got v p => (∃ q', q = v :: q') ∧ (keep = true → p = rb.r)

structure Inv (keep : Bool) (n : Nat) (s : St α) (es : List (Ev α)) : Prop where
  size : s.rb.size = n
  rel : Rel s.rb (contents s)
  ans : answers s = (serveAll (n - 1) [] (calls s)).2
  hand : completedBy false s = askedBy false es
  main : completedBy true s ++ inCall s.pc = askedBy true es
  at_ : At keep s.rb (contents s) s.pc

theorem askedBy_append (b : Bool) (l m : List (Ev α)) : askedBy b (l ++ m) = askedBy b l ++ askedBy b m := by
  induction l with
  | nil => rfl
  | cons e l ih => cases e <;> cases b <;> simp [askedBy, ih]

theorem contents_done (s : St α) (b : Bool) (c : Call α) (a : Ans α) : contents (s.done b c a) = (serve (s.rb.size - 1) (contents s) c).1 := by
  simp only [contents, calls, St.done, List.map_append, List.map_cons, List.map_nil, serveAll_snoc]

theorem answers_done (n : Nat) (s : St α) (b : Bool) (c : Call α) (a : Ans α) (h : answers s = (serveAll (n - 1) [] (calls s)).2) (hs : s.rb.size = n)
    (ha : a = (serve (n - 1) (contents s) c).2) : answers (s.done b c a) = (serveAll (n - 1) [] (calls (s.done b c a))).2 := by
  subst hs
  have : answers (s.done b c a) = answers s ++ [a] := by simp [answers, St.done]
  rw [this, h, ha]
  simp only [calls, contents, St.done, List.map_append, List.map_cons, List.map_nil, serveAll_snoc]

theorem completedBy_done (s : St α) (b b' : Bool) (c : Call α) (a : Ans α) : completedBy b (s.done b' c a) = if b' = b then completedBy b s ++ [c] else completedBy b s := by
  simp only [completedBy, St.done, List.filter_append, List.map_append]
  by_cases h : b' = b
  · simp [h]
  · simp [h]

theorem ptr (keep : Bool) (p m : Nat) (h : keep = true → p = m) : pointer keep p m = m := by
  unfold pointer; cases keep with
  | true => exact h rfl
  | false => rfl

/-- A whole call of a handler. -/
theorem hand_ok (keep : Bool) (n : Nat) (hn : n < 65536) (s : St α) (es : List (Ev α)) (h : Inv keep n s es) (c : Call α) (ha : Apart keep s (.handler c)) :
    ∃ s', s.whole false c = .ok s' ∧ Inv keep n s' (es ++ [.handler c]) := by
  have hz := h.size
  have hq := h.rel.hq
  cases c with
  | put v =>
    by_cases hf : (contents s).length + 1 < s.rb.size
    · obtain ⟨rb, h1, h2, h3⟩ := write_room h.rel v hf
      have hfull : isFull s.rb = false := by rw [isFull_rel h.rel]; simp; omega
      have hbuf : rb = { s.rb with buf := s.rb.buf.set s.rb.w v, w := wrap s.rb.size (s.rb.w + 1) } := by
        have h4 := h.rel.hw_lt
        have h5 := h.rel.hlen
        simp only [write, hfull, Bool.false_eq_true, if_false, cSet_ok v (show s.rb.w < s.rb.buf.length by omega), Res.bind_ok, Res.ok.injEq, Prod.mk.injEq, and_true] at h1
        exact h1.symm
      have hc : contents ({ s with rb := rb }.done false (.put v) (.put true)) = contents s ++ [v] := by
        rw [contents_done]
        have e : contents { s with rb := rb } = contents s := by simp only [contents, calls, h3]
        rw [e]
        show (serve (rb.size - 1) _ _).1 = _
        simp only [serve]
        rw [if_pos (by omega)]
      refine ⟨_, by simp only [St.whole, h1, Res.bind_ok]; rfl, ?_, ?_, ?_, ?_, ?_, ?_⟩
      · show rb.size = n
        omega
      · rw [hc]; exact h2
      · refine answers_done n _ false _ _ (by exact h.ans) (by show rb.size = n; omega) ?_
        have e : contents { s with rb := rb } = contents s := by simp only [contents, calls, h3]
        rw [e]
        simp only [serve]
        rw [if_pos (by omega)]
      · rw [completedBy_done, askedBy_append]
        simp only [if_true]
        have := h.hand
        simp only [completedBy] at this ⊢
        rw [this]; rfl
      · rw [completedBy_done, askedBy_append]
        have := h.main
        simp only [completedBy, Bool.false_eq_true, if_false, St.done] at this ⊢
        rw [this]; simp [askedBy]
      · rw [hc]
        have hat := h.at_
        show At keep rb _ s.pc
        cases hpc : s.pc with
        | idle => exact trivial
        | checked m p =>
          rw [hpc] at hat
          simp only [Apart, hpc] at ha
          refine ⟨by simp only [List.length_append, List.length_singleton]; omega, fun hk => ?_⟩
          rw [ha.1] at hk; cases hk
        | stored m p => simp only [Apart, hpc] at ha
        | counted p =>
          rw [hpc] at hat
          exact ⟨by simp, fun hk => by rw [hbuf]; exact hat.2 hk⟩
        | got m p =>
          rw [hpc] at hat
          obtain ⟨⟨q', hq'⟩, h6⟩ := hat
          exact ⟨⟨q' ++ [v], by rw [hq']; rfl⟩, fun hk => by rw [hbuf]; exact h6 hk⟩
    · have h1 := write_full h.rel v (by omega)
      have e : contents (St.done { s with rb := s.rb } false (.put v) (.put false)) = contents s := by
        rw [contents_done]
        show (serve (s.rb.size - 1) (contents s) (.put v)).1 = _
        simp only [serve]
        rw [if_neg (by omega)]
      refine ⟨s.done false (.put v) (.put false), by simp only [St.whole, h1, Res.bind_ok], h.size, by rw [e]; exact h.rel, ?_, ?_, ?_, by rw [e]; exact h.at_⟩
      · refine answers_done n _ false _ _ h.ans h.size ?_
        show _ = (serve (n - 1) (contents s) (.put v)).2
        simp only [serve]
        rw [if_neg (by omega)]
      · rw [completedBy_done, askedBy_append]
        have := h.hand
        simp only [if_true, completedBy] at this ⊢
        rw [this]; rfl
      · rw [completedBy_done, askedBy_append]
        have := h.main
        simp only [completedBy, Bool.false_eq_true, if_false, St.done] at this ⊢
        rw [this]; simp [askedBy]
  | take =>
    have hl := getLength_rel h.rel (by omega)
    cases hq' : contents s with
    | nil =>
      have e : contents (s.done false .take (.took none)) = contents s := by
        rw [contents_done, hq']; rfl
      refine ⟨s.done false .take (.took none), by simp only [St.whole]; rw [if_pos (by rw [hl, hq']; rfl)], h.size, by rw [e]; exact h.rel, ?_, ?_, ?_, by rw [e]; exact h.at_⟩
      · exact answers_done n _ false _ _ h.ans h.size (by rw [hq']; rfl)
      · rw [completedBy_done, askedBy_append]
        have := h.hand
        simp only [if_true] at this ⊢
        rw [this]; rfl
      · rw [completedBy_done, askedBy_append]
        have := h.main
        simp only [Bool.false_eq_true, if_false, St.done] at this ⊢
        rw [this]; simp [askedBy]
    | cons v q =>
      have hrel := h.rel
      rw [hq'] at hrel
      have hr := hrel.hr
      have hg := hrel.hget 0 (by simp)
      simp only [Nat.add_zero, hr, if_true, List.getElem_cons_zero] at hg
      have h1 : read s.rb = .ok ((⟨s.rb.size, s.rb.buf, s.rb.w, wrap s.rb.size (s.rb.r + 1)⟩ : RB α), v) := by simp [RingBuffer.read, cGet, hg]
      have e0 : contents { s with rb := (⟨s.rb.size, s.rb.buf, s.rb.w, wrap s.rb.size (s.rb.r + 1)⟩ : RB α) } = v :: q := hq'
      have e : contents ({ s with rb := (⟨s.rb.size, s.rb.buf, s.rb.w, wrap s.rb.size (s.rb.r + 1)⟩ : RB α) }.done false .take (.took (some v))) = q := by
        rw [contents_done, e0]; rfl
      refine ⟨_, by simp only [St.whole]; rw [if_neg (by rw [hl, hq']; simp)]; simp only [h1, Res.bind_ok]; rfl, (by exact h.size), by rw [e]; exact rel_drop hrel, ?_, ?_, ?_, ?_⟩
      · exact answers_done n _ false _ _ h.ans h.size (by rw [e0]; rfl)
      · rw [completedBy_done, askedBy_append]
        have := h.hand
        simp only [if_true, completedBy] at this ⊢
        rw [this]; rfl
      · rw [completedBy_done, askedBy_append]
        have := h.main
        simp only [completedBy, Bool.false_eq_true, if_false, St.done] at this ⊢
        rw [this]; simp [askedBy]
      · rw [e]
        have hat := h.at_
        rw [hq'] at hat
        show At keep _ _ s.pc
        cases hpc : s.pc with
        | idle => exact trivial
        | checked m p =>
          rw [hpc] at hat
          have h7 := hat.1
          simp only [List.length_cons] at h7
          exact ⟨by show q.length + 1 < s.rb.size; omega, hat.2⟩
        | stored m p =>
          rw [hpc] at hat
          have h7 := hat.1
          simp only [List.length_cons] at h7
          exact ⟨by show q.length + 1 < s.rb.size; omega, hat.2.1, hat.2.2⟩
        | counted p =>
          simp only [Apart, hpc, hq', List.length_cons] at ha
          refine ⟨fun h0 => ?_, fun hk => ?_⟩
          · rw [h0] at ha; simp at ha
          · rw [ha.1] at hk; cases hk
        | got m p => simp only [Apart, hpc] at ha

/-- The start of a call of main code. -/
theorem start_ok (keep : Bool) (n : Nat) (hn : n < 65536) (s : St α) (es : List (Ev α)) (h : Inv keep n s es) (c : Call α) (hi : s.pc = .idle) : Inv keep n (s.start c) (es ++ [.start c]) := by
  have hz := h.size
  have hq := h.rel.hq
  have hm := h.main
  rw [hi] at hm
  simp only [inCall, List.append_nil] at hm
  -- a call answered at once
  have atOnce : ∀ a, a = (serve (n - 1) (contents s) c).2 → (serve (n - 1) (contents s) c).1 = contents s → Inv keep n (s.done true c a) (es ++ [.start c]) := by
    intro a h1 h2
    have e : contents (s.done true c a) = contents s := by rw [contents_done, hz, h2]
    refine ⟨h.size, by rw [e]; exact h.rel, answers_done n _ true _ _ h.ans h.size h1, ?_, ?_, ?_⟩
    · rw [completedBy_done, askedBy_append, ← h.hand]; simp [askedBy]
    · rw [completedBy_done, askedBy_append, ← hm]; simp [askedBy, St.done, hi, inCall]
    · rw [e]; exact h.at_
  -- a call begun
  have begun : ∀ p, inCall p = [c] → At keep s.rb (contents s) p → Inv keep n { s with pc := p } (es ++ [.start c]) := by
    intro p h1 h2
    refine ⟨h.size, h.rel, h.ans, ?_, ?_, h2⟩
    · rw [askedBy_append, ← h.hand]; simp [askedBy, completedBy]
    · rw [askedBy_append, ← hm]
      show completedBy true s ++ inCall p = _
      rw [h1]; simp [askedBy]
  cases c with
  | put v =>
    simp only [St.start]
    have hfull := isFull_rel h.rel
    by_cases hf : (contents s).length + 1 = s.rb.size
    · rw [if_pos (by rw [hfull]; simpa using hf)]
      exact atOnce _ (by simp only [serve]; rw [if_neg (by omega)]) (by simp only [serve]; rw [if_neg (by omega)])
    · rw [if_neg (by rw [hfull]; simpa using hf)]
      exact begun _ rfl ⟨by omega, fun _ => rfl⟩
  | take =>
    simp only [St.start]
    have hl := getLength_rel h.rel (by omega)
    cases hq' : contents s with
    | nil =>
      rw [if_pos (by rw [hl, hq']; rfl)]
      exact atOnce _ (by rw [hq']; rfl) (by rw [hq']; rfl)
    | cons v q =>
      rw [if_neg (by rw [hl, hq']; simp)]
      exact begun _ rfl ⟨by rw [hq']; simp, fun _ => rfl⟩

/-- An access of main code. -/
theorem main_ok (keep : Bool) (n : Nat) (s : St α) (es : List (Ev α)) (h : Inv keep n s es) : ∃ s', mainStep keep s = .ok s' ∧ Inv keep n s' (es ++ [.main]) := by
  have hz := h.size
  have ea : ∀ b, askedBy b (es ++ [(.main : Ev α)]) = askedBy b es := by intro b; rw [askedBy_append]; simp [askedBy]
  have hat := h.at_
  have hm := h.main
  cases hpc : s.pc with
  | idle =>
    exact ⟨s, by simp only [mainStep, hpc], h.size, h.rel, h.ans, by rw [ea]; exact h.hand, by rw [ea]; exact h.main, h.at_⟩
  | checked v p =>
    rw [hpc] at hat hm
    have hw := h.rel.hw_lt
    have hl := h.rel.hlen
    refine ⟨⟨⟨s.rb.size, s.rb.buf.set s.rb.w v, s.rb.w, s.rb.r⟩, .stored v p, s.log⟩, by simp only [mainStep, hpc, ptr keep p _ hat.2, cSet_ok v (show s.rb.w < s.rb.buf.length by omega), Res.bind_ok], h.size, rel_store h.rel v hat.1, h.ans, by rw [ea]; exact h.hand, by rw [ea]; exact hm, ?_⟩
    refine ⟨hat.1, ?_, hat.2⟩
    show (s.rb.buf.set s.rb.w v)[s.rb.w]? = some v
    rw [List.getElem?_set]; simp; omega
  | stored v p =>
    rw [hpc] at hat hm
    have e0 : contents { s with rb := (⟨s.rb.size, s.rb.buf, wrap s.rb.size (s.rb.w + 1), s.rb.r⟩ : RB α), pc := (.idle : Pc α) } = contents s := rfl
    have e1 : serve (n - 1) (contents s) (.put v) = (contents s ++ [v], .put true) := by
      simp only [serve]; rw [if_pos (by have := hat.1; omega)]
    have e : contents ({ s with rb := (⟨s.rb.size, s.rb.buf, wrap s.rb.size (s.rb.w + 1), s.rb.r⟩ : RB α), pc := (.idle : Pc α) }.done true (.put v) (.put true)) = contents s ++ [v] := by
      rw [contents_done, e0]
      show (serve (s.rb.size - 1) _ _).1 = _
      rw [hz, e1]
    refine ⟨(St.mk ⟨s.rb.size, s.rb.buf, wrap s.rb.size (s.rb.w + 1), s.rb.r⟩ .idle s.log).done true (.put v) (.put true), by simp only [mainStep, hpc, ptr keep p _ hat.2.2], h.size, by rw [e]; exact rel_commit h.rel v hat.1 hat.2.1,
      answers_done n _ true _ _ (by exact h.ans) h.size (by rw [e0, e1]), ?_, ?_, trivial⟩
    · rw [completedBy_done, ea, ← h.hand]; rfl
    · rw [completedBy_done, ea, ← hm]; simp [St.done, inCall, completedBy]
  | counted p =>
    rw [hpc] at hat hm
    cases hq' : contents s with
    | nil => exact absurd hq' hat.1
    | cons v q =>
      have hrel := h.rel
      rw [hq'] at hrel
      have hr := hrel.hr
      have hg := hrel.hget 0 (by simp)
      simp only [Nat.add_zero, hr, if_true, List.getElem_cons_zero] at hg
      refine ⟨⟨s.rb, .got v p, s.log⟩, by simp only [mainStep, hpc, ptr keep p _ hat.2, cGet, hg, Res.bind_ok], h.size, h.rel, h.ans, by rw [ea]; exact h.hand, by rw [ea]; exact hm, ?_⟩
      exact ⟨⟨q, hq'⟩, hat.2⟩
  | got v p =>
    rw [hpc] at hat hm
    obtain ⟨⟨q, hq'⟩, h2⟩ := hat
    have hrel := h.rel
    rw [hq'] at hrel
    have e0 : contents { s with rb := (⟨s.rb.size, s.rb.buf, s.rb.w, wrap s.rb.size (s.rb.r + 1)⟩ : RB α), pc := (.idle : Pc α) } = v :: q := hq'
    have e : contents ({ s with rb := (⟨s.rb.size, s.rb.buf, s.rb.w, wrap s.rb.size (s.rb.r + 1)⟩ : RB α), pc := (.idle : Pc α) }.done true .take (.took (some v))) = q := by
      rw [contents_done, e0]; rfl
    refine ⟨(St.mk ⟨s.rb.size, s.rb.buf, s.rb.w, wrap s.rb.size (s.rb.r + 1)⟩ .idle s.log).done true .take (.took (some v)), by simp only [mainStep, hpc, ptr keep p _ h2], h.size, by rw [e]; exact rel_drop hrel,
      answers_done n _ true _ _ (by exact h.ans) h.size (by rw [e0]; rfl), ?_, ?_, trivial⟩
    · rw [completedBy_done, ea, ← h.hand]; rfl
    · rw [completedBy_done, ea, ← hm]; simp [St.done, inCall, completedBy]

theorem run_ok (keep : Bool) (n : Nat) (hn : n < 65536) (es : List (Ev α)) : ∀ (s : St α) (fs : List (Ev α)), Inv keep n s fs → AtEach keep (Apart keep) s es →
    ∃ s', run keep s es = .ok s' ∧ Inv keep n s' (fs ++ es) := by
  induction es with
  | nil => intro s fs h _; exact ⟨s, rfl, by rw [List.append_nil]; exact h⟩
  | cons e es ih =>
    intro s fs h ha
    have h1 : ∃ s1, step keep s e = .ok s1 ∧ Inv keep n s1 (fs ++ [e]) := by
      cases e with
      | start c => exact ⟨_, rfl, start_ok keep n hn s fs h c ha.1⟩
      | main => exact main_ok keep n s fs h
      | handler c => exact hand_ok keep n hn s fs h c ha.1
    obtain ⟨s1, h2, h3⟩ := h1
    obtain ⟨s2, h4, h5⟩ := ih s1 _ h3 (ha.2 s1 h2)
    exact ⟨s2, by simp only [RingBufferShared.run, h2, Res.bind_ok, h4], by rw [List.append_assoc] at h5; exact h5⟩

theorem init_ok (keep : Bool) (g : List α) (hg : 0 < g.length) : Inv keep g.length (St.init g) [] :=
  ⟨rfl, rel_mk g hg, rfl, rfl, rfl, trivial⟩

end SharedRing

open SharedRing

/-- **C144, partial.** Handlers that keep apart from the direction main code is busy with (or find room for two, or two values, behind its test): the buffer is a queue. -/
theorem c144_apart_partial (keep : Bool) (g : List α) (hg : 0 < g.length) (hn : g.length < 65536) (es : List (Ev α)) (ha : AtEach keep (Apart keep) (St.init g) es) : AsQueue keep g es := by
  obtain ⟨s, h1, h2⟩ := run_ok keep g.length hn es (St.init g) [] (init_ok keep g hg) ha
  refine ⟨s, h1, h2.ans, h2.hand, h2.main, ?_⟩
  have hz := h2.size
  rw [getLength_rel h2.rel (by omega), contents, hz]

/-- **C144.** Without handlers a write taken apart is `Write`. -/
theorem c144_alone_put (keep : Bool) (s : St α) (v : α) (hi : s.pc = .idle) (hw : s.rb.w < s.rb.buf.length) :
    RingBufferShared.run keep s [.start (.put v), .main, .main] = s.whole true (.put v) := by
  by_cases hf : isFull s.rb = true
  · simp only [RingBufferShared.run, RingBufferShared.step, St.start, hf, if_true, Res.bind_ok, mainStep, St.done, hi, St.whole, write]
  · simp only [RingBufferShared.run, RingBufferShared.step, St.start, hf, if_false, Res.bind_ok, mainStep, St.done, hi, St.whole, write, pointer, ite_self, cSet_ok v hw, Bool.false_eq_true]

/-- **C144.** Without handlers a read taken apart is `Read`, when the buffer is not empty. -/
theorem c144_alone_take (keep : Bool) (s : St α) (hi : s.pc = .idle) (hr : s.rb.r < s.rb.buf.length) :
    RingBufferShared.run keep s [.start .take, .main, .main] = s.whole true .take := by
  by_cases hf : getLength s.rb = 0
  · simp only [RingBufferShared.run, RingBufferShared.step, St.start, hf, if_true, Res.bind_ok, mainStep, St.done, hi, St.whole]
  · simp only [RingBufferShared.run, RingBufferShared.step, St.start, hf, if_false, Res.bind_ok, mainStep, St.done, hi, St.whole, RingBuffer.read, pointer, ite_self, cGet_ok hr]

/-! #### Two writers at the other places -/

namespace SharedRing

/-- What a handler's write does when there is room. -/
theorem put_room {α : Type} (s : St α) (q : List α) (h : Rel s.rb q) (v : α) (hf : q.length + 1 < s.rb.size) :
    s.whole false (.put v) = .ok ((St.mk ⟨s.rb.size, s.rb.buf.set s.rb.w v, wrap s.rb.size (s.rb.w + 1), s.rb.r⟩ s.pc s.log).done false (.put v) (.put true)) := by
  have h4 := h.hw_lt
  have h5 := h.hlen
  have hfull : isFull s.rb = false := by rw [isFull_rel h]; simp; omega
  simp only [St.whole, write, hfull, Bool.false_eq_true, if_false, cSet_ok v (show s.rb.w < s.rb.buf.length by omega), Res.bind_ok]

theorem take_some {α : Type} (s : St α) (q : List α) (v : α) (h : Rel s.rb (v :: q)) (hn : s.rb.size < 65536) :
    s.whole false .take = .ok ((St.mk ⟨s.rb.size, s.rb.buf, s.rb.w, wrap s.rb.size (s.rb.r + 1)⟩ s.pc s.log).done false .take (.took (some v))) := by
  have hl := getLength_rel h hn
  have hr := h.hr
  have hg := h.hget 0 (by simp)
  simp only [Nat.add_zero, hr, if_true, List.getElem_cons_zero] at hg
  simp only [St.whole]
  rw [if_neg (by rw [hl]; simp)]
  simp only [RingBuffer.read, cGet, hg, Res.bind_ok]

/-- Moving the write pointer of a full buffer on empties it. -/
theorem rel_overrun {α : Type} {s : RB α} {q : List α} (h : Rel s q) (hf : q.length + 1 = s.size) : Rel { s with w := wrap s.size (s.w + 1) } [] := by
  have h1 := h.hw; have h2 := h.hr; have h3 := h.hq
  refine ⟨h.hlen, h.hr, by show 0 < s.size; omega, ?_, fun i hi => by simp at hi⟩
  simp only [wrap, List.length_nil, Nat.add_zero, h2, if_true]
  split <;> split at h1 <;> omega

end SharedRing

/-- **C144.** The pointer is kept, the handler writes behind main code's test: both are told true, the handler's value is replaced by main code's. -/
theorem c144_kept_tested (s : St α) (q : List α) (m h : α) (p : Nat) (hpc : s.pc = .checked m p) (hp : p = s.rb.w) (hrel : Rel s.rb q) (hroom : q.length + 1 < s.rb.size) :
    ∃ t, RingBufferShared.run true s [.handler (.put h), .main, .main] = .ok t ∧ t.log = s.log ++ [(false, .put h, .put true), (true, .put m, .put true)] ∧ t.pc = .idle ∧ Rel t.rb (q ++ [m]) := by
  subst hp
  have h4 := hrel.hw_lt
  have h5 := hrel.hlen
  refine ⟨⟨⟨s.rb.size, (s.rb.buf.set s.rb.w h).set s.rb.w m, wrap s.rb.size (s.rb.w + 1), s.rb.r⟩, .idle, s.log ++ [(false, .put h, .put true), (true, .put m, .put true)]⟩, ?_, rfl, rfl, ?_⟩
  · simp only [RingBufferShared.run, RingBufferShared.step, put_room s q hrel h hroom, Res.bind_ok, mainStep, St.done, hpc, pointer, if_true,
      cSet_ok m (show s.rb.w < (s.rb.buf.set s.rb.w h).length by simp; omega), List.append_assoc, List.cons_append, List.nil_append]
  · have h1 := rel_store (rel_store hrel h hroom) m hroom
    exact rel_commit h1 m hroom (by simp [List.getElem?_set]; omega)

/-- **C144.** The pointer is kept, the handler writes behind main code's store: both are told true, main code's value is replaced by the handler's. -/
theorem c144_kept_stored (s : St α) (q : List α) (m h : α) (p : Nat) (hpc : s.pc = .stored m p) (hp : p = s.rb.w) (hrel : Rel s.rb q) (hroom : q.length + 1 < s.rb.size) :
    ∃ t, RingBufferShared.run true s [.handler (.put h), .main] = .ok t ∧ t.log = s.log ++ [(false, .put h, .put true), (true, .put m, .put true)] ∧ t.pc = .idle ∧ Rel t.rb (q ++ [h]) := by
  subst hp
  have h4 := hrel.hw_lt
  have h5 := hrel.hlen
  refine ⟨⟨⟨s.rb.size, s.rb.buf.set s.rb.w h, wrap s.rb.size (s.rb.w + 1), s.rb.r⟩, .idle, s.log ++ [(false, .put h, .put true), (true, .put m, .put true)]⟩, ?_, rfl, rfl, ?_⟩
  · simp only [RingBufferShared.run, RingBufferShared.step, put_room s q hrel h hroom, Res.bind_ok, mainStep, St.done, hpc, pointer, if_true, List.append_assoc, List.cons_append, List.nil_append]
  · exact rel_commit (rel_store hrel h hroom) h hroom (by simp [List.getElem?_set]; omega)

/-- **C144.** The pointer is loaded again, the handler takes the last room behind main code's test: both are told true, and the buffer is empty: everything is lost. -/
theorem c144_last_room (s : St α) (q : List α) (m h : α) (p : Nat) (hpc : s.pc = .checked m p) (hrel : Rel s.rb q) (hroom : q.length + 2 = s.rb.size) :
    ∃ t, RingBufferShared.run false s [.handler (.put h), .main, .main] = .ok t ∧ t.log = s.log ++ [(false, .put h, .put true), (true, .put m, .put true)] ∧ t.pc = .idle ∧ Rel t.rb [] := by
  have h1 := rel_commit (rel_store hrel h (by omega)) h (by show q.length + 1 < s.rb.size; omega) (by have h4 := hrel.hw_lt; have h5 := hrel.hlen; simp [List.getElem?_set]; omega)
  have h2 := rel_overrun h1 (by simp; omega)
  have h4 := h1.hw_lt
  have h5 := h1.hlen
  refine ⟨⟨⟨s.rb.size, (s.rb.buf.set s.rb.w h).set (wrap s.rb.size (s.rb.w + 1)) m, wrap s.rb.size (wrap s.rb.size (s.rb.w + 1) + 1), s.rb.r⟩, .idle,
    s.log ++ [(false, .put h, .put true), (true, .put m, .put true)]⟩, ?_, rfl, rfl, ?_⟩
  · simp only at h4 h5
    simp only [RingBufferShared.run, RingBufferShared.step, put_room s q hrel h (by omega), Res.bind_ok, mainStep, St.done, hpc, pointer, if_false, Bool.false_eq_true,
      cSet_ok m (show wrap s.rb.size (s.rb.w + 1) < (s.rb.buf.set s.rb.w h).length by rw [h5]; exact h4), List.append_assoc, List.cons_append, List.nil_append]
  · exact ⟨by simpa using h2.hlen, h2.hr, h2.hq, h2.hw, fun i hi => by simp at hi⟩

/-- **C144.** The pointer is loaded again, the handler writes behind main code's store: both are told true; main code's value is replaced by the handler's, and behind it appears
    what the next element happened to hold; or, if that was the last room, the buffer is empty. -/
theorem c144_reloaded_stored (s : St α) (q : List α) (m h : α) (p : Nat) (hpc : s.pc = .stored m p) (hrel : Rel s.rb q) (hroom : q.length + 1 < s.rb.size) :
    ∃ t, RingBufferShared.run false s [.handler (.put h), .main] = .ok t ∧ t.log = s.log ++ [(false, .put h, .put true), (true, .put m, .put true)] ∧ t.pc = .idle ∧
      (q.length + 2 = s.rb.size → Rel t.rb []) ∧ (q.length + 2 < s.rb.size → ∃ x, s.rb.buf[wrap s.rb.size (s.rb.w + 1)]? = some x ∧ Rel t.rb (q ++ [h, x])) := by
  have h6 := hrel.hw_lt; have h7 := hrel.hlen
  have h1 := rel_commit (rel_store hrel h (by omega)) h (by show q.length + 1 < s.rb.size; omega) (by simp [List.getElem?_set]; omega)
  have h4 := h1.hw_lt
  refine ⟨⟨⟨s.rb.size, s.rb.buf.set s.rb.w h, wrap s.rb.size (wrap s.rb.size (s.rb.w + 1) + 1), s.rb.r⟩, .idle, s.log ++ [(false, .put h, .put true), (true, .put m, .put true)]⟩, ?_, rfl, rfl, ?_, ?_⟩
  · simp only [RingBufferShared.run, RingBufferShared.step, put_room s q hrel h hroom, Res.bind_ok, mainStep, St.done, hpc, pointer, if_false, Bool.false_eq_true, List.append_assoc, List.cons_append,
      List.nil_append]
  · intro h8
    exact rel_overrun h1 (by simp; omega)
  · intro h8
    simp only at h4
    refine ⟨_, List.getElem?_eq_getElem (by omega), ?_⟩
    have h9 := rel_commit h1 (s.rb.buf[wrap s.rb.size (s.rb.w + 1)]'(by omega)) (by simp; omega) (by
      simp only
      rw [List.getElem?_set, if_neg (by unfold wrap; split <;> omega)]
      exact List.getElem?_eq_getElem (by omega))
    simpa using h9

/-! #### Two readers at the other places -/

/-- **C144.** The pointer is kept, the handler reads behind main code's test: both get the same value. -/
theorem c144_kept_counted (s : St α) (q : List α) (v : α) (p : Nat) (hpc : s.pc = .counted p) (hp : p = s.rb.r) (hrel : Rel s.rb (v :: q)) (hn : s.rb.size < 65536) :
    ∃ t, RingBufferShared.run true s [.handler .take, .main, .main] = .ok t ∧ t.log = s.log ++ [(false, .take, .took (some v)), (true, .take, .took (some v))] ∧ t.pc = .idle ∧ Rel t.rb q := by
  subst hp
  have hr := hrel.hr
  have hg := hrel.hget 0 (by simp)
  simp only [Nat.add_zero, hr, if_true, List.getElem_cons_zero] at hg
  refine ⟨⟨⟨s.rb.size, s.rb.buf, s.rb.w, wrap s.rb.size (s.rb.r + 1)⟩, .idle, s.log ++ [(false, .take, .took (some v)), (true, .take, .took (some v))]⟩, ?_, rfl, rfl, rel_drop hrel⟩
  simp only [RingBufferShared.run, RingBufferShared.step, take_some s q v hrel hn, Res.bind_ok, mainStep, St.done, hpc, pointer, if_true, cGet, hg, List.append_assoc, List.cons_append, List.nil_append]

/-- **C144.** The handler reads behind main code's load of the value: both get the same value. If the pointer is loaded again the next value is lost, or, if there is none, the
    buffer is full of old values. -/
theorem c144_got (keep : Bool) (s : St α) (q : List α) (v : α) (p : Nat) (hpc : s.pc = .got v p) (hp : p = s.rb.r) (hrel : Rel s.rb (v :: q)) (hn : s.rb.size < 65536) :
    ∃ t, RingBufferShared.run keep s [.handler .take, .main] = .ok t ∧ t.log = s.log ++ [(false, .take, .took (some v)), (true, .take, .took (some v))] ∧ t.pc = .idle ∧
      (keep = true → Rel t.rb q) ∧ (keep = false → ∀ u q', q = u :: q' → Rel t.rb q') ∧ (keep = false → q = [] → getLength t.rb = s.rb.size - 1) := by
  subst hp
  refine ⟨⟨⟨s.rb.size, s.rb.buf, s.rb.w, wrap s.rb.size (pointer keep s.rb.r (wrap s.rb.size (s.rb.r + 1)) + 1)⟩, .idle, s.log ++ [(false, .take, .took (some v)), (true, .take, .took (some v))]⟩, ?_, rfl, rfl, ?_, ?_, ?_⟩
  · simp only [RingBufferShared.run, RingBufferShared.step, take_some s q v hrel hn, Res.bind_ok, mainStep, St.done, hpc, List.append_assoc, List.cons_append, List.nil_append]
  · intro hk
    subst hk
    exact rel_drop hrel
  · intro hk u q' hq
    subst hk; subst hq
    exact rel_drop (rel_drop hrel)
  · intro hk hq
    subst hk; subst hq
    have h1 := hrel.hw; have h2 := hrel.hr; have h3 := hrel.hq
    simp only [List.length_cons, List.length_nil] at h1 h3
    simp only [pointer, getLength, wrap, toU, Bool.false_eq_true, if_false]
    split <;> split at h1 <;> split <;> (try split) <;> omega

/-- **C144.** The pointer is loaded again, the handler takes the last value behind main code's test: main code gets what the element behind it happened to hold, and the buffer is full of old
    values. -/
theorem c144_last_value (s : St α) (v : α) (p : Nat) (hpc : s.pc = .counted p) (hrel : Rel s.rb [v]) (hn : s.rb.size < 65536) :
    ∃ t x, RingBufferShared.run false s [.handler .take, .main, .main] = .ok t ∧ s.rb.buf[s.rb.w]? = some x ∧ t.log = s.log ++ [(false, .take, .took (some v)), (true, .take, .took (some x))] ∧ t.pc = .idle ∧
      getLength t.rb = s.rb.size - 1 := by
  have h1 := hrel.hw; have h2 := hrel.hr; have h3 := hrel.hq; have h4 := hrel.hw_lt; have h5 := hrel.hlen
  simp only [List.length_cons, List.length_nil] at h1 h3
  have hw : wrap s.rb.size (s.rb.r + 1) = s.rb.w := by unfold wrap; split <;> split at h1 <;> omega
  refine ⟨⟨⟨s.rb.size, s.rb.buf, s.rb.w, wrap s.rb.size (s.rb.w + 1)⟩, .idle, s.log ++ [(false, .take, .took (some v)), (true, .take, .took (some (s.rb.buf[s.rb.w]'(by omega))))]⟩, s.rb.buf[s.rb.w]'(by omega), ?_,
    List.getElem?_eq_getElem (by omega), rfl, rfl, ?_⟩
  · simp only [RingBufferShared.run, RingBufferShared.step, take_some s [] v hrel hn, hw, Res.bind_ok, mainStep, St.done, hpc, pointer, Bool.false_eq_true, if_false,
      cGet_ok (show s.rb.w < s.rb.buf.length by omega), List.append_assoc, List.cons_append, List.nil_append]
  · simp only [getLength, wrap, toU]
    split <;> split <;> omega

/-! #### Cases -/

namespace SharedRing

instance {α : Type} [DecidableEq α] (s : St α) (e : Ev α) : Decidable (Sensible s e) := by
  cases e <;> unfold Sensible <;> infer_instance

instance {α : Type} [DecidableEq α] (keep : Bool) (s : St α) (e : Ev α) : Decidable (Apart keep s e) := by
  rcases e with c | _ | c
  · unfold Apart; infer_instance
  · unfold Apart; infer_instance
  · cases c <;> unfold Apart <;> cases s.pc <;> infer_instance

instance decAtEach {α : Type} (keep : Bool) (now : St α → Ev α → Prop) [∀ s e, Decidable (now s e)] : ∀ (es : List (Ev α)) (s : St α), Decidable (AtEach keep now s es)
  | [], _ => .isTrue trivial
  | e :: es, s =>
    match h : RingBufferShared.step keep s e with
    | .ub => decidable_of_iff (now s e) ⟨fun a => ⟨a, fun s' h' => by rw [h] at h'; cases h'⟩, fun a => a.1⟩
    | .ok s' =>
      have := decAtEach keep now es s'
      decidable_of_iff (now s e ∧ AtEach keep now s' es) ⟨fun a => ⟨a.1, fun t h' => by rw [h] at h'; cases h'; exact a.2⟩, fun a => ⟨a.1, a.2 s' h⟩⟩

/-- Main code writes and reads; handlers write and read in between, also while main code is in a call. -/
def apartUse : List (Ev Nat) :=
  [.start (.put 1), .handler .take, .main, .main, .handler (.put 2), .start (.put 3), .main, .handler .take, .main, .start .take, .handler (.put 4), .main, .handler (.put 5), .main, .start (.put 6), .handler .take]

/-- The answers and the length at the end. -/
def endOf {α : Type} : Res (St α) → Option (List (Ans α) × Nat)
  | .ok s => some (answers s, getLength s.rb)
  | .ub => none

end SharedRing

example : AtEach true (Apart true) (St.init [0, 0, 0, 0]) apartUse ∧ AtEach false (Apart false) (St.init [0, 0, 0, 0]) apartUse := by constructor <;> decide +kernel
example := c144_apart_partial true [0, 0, 0, 0] (by decide) (by decide) apartUse (by decide +kernel)
example : SharedRing.endOf (RingBufferShared.run true (St.init [0, 0, 0, 0]) apartUse) =
    some ([.took none, .put true, .put true, .took (some 1), .put true, .put true, .put false, .took (some 2), .took (some 3)], 1) := by decide +kernel
-- behind the test, with room for two and the pointer loaded again
example := c144_apart_partial false [0, 0, 0, 0] (by decide) (by decide) [.start (.put 1), .handler (.put 2), .main, .main, .start .take, .handler .take, .main, .main] (by decide +kernel)

/-- Size 3, holding 5 (an old 9 in the last element), the write pointer behind it. -/
def oneHeld (p : Pc Nat) : St Nat := ⟨⟨3, [5, 7, 9], 1, 0⟩, p, []⟩

theorem oneHeld_rel (p : Pc Nat) : Rel (oneHeld p).rb [5] := ⟨rfl, (by decide : 0 < 3), (by decide : 1 < 3), rfl, fun i hi => by
  have : i = 0 := by simp at hi; exact hi
  subst this; rfl⟩

example := c144_alone_put true (oneHeld .idle) 6 rfl (by decide)
example := c144_alone_take false (oneHeld .idle) rfl (by decide)
example := c144_kept_tested (oneHeld (.checked 1 1)) [5] 1 2 1 rfl rfl (oneHeld_rel _) (by decide)
example := c144_kept_stored (oneHeld (.stored 7 1)) [5] 7 2 1 rfl rfl (oneHeld_rel _) (by decide)
example := c144_last_room (oneHeld (.checked 1 1)) [5] 1 2 1 rfl (oneHeld_rel _) (by decide)
example := c144_reloaded_stored (oneHeld (.stored 7 1)) [5] 7 2 1 rfl (oneHeld_rel _) (by decide)
example := c144_kept_counted (oneHeld (.counted 0)) [] 5 0 rfl rfl (oneHeld_rel _) (by decide)
example := c144_got false (oneHeld (.got 5 0)) [] 5 0 rfl rfl (oneHeld_rel _) (by decide)
example := c144_last_value (oneHeld (.counted 0)) 5 0 rfl (oneHeld_rel _) (by decide)

/-- Main code and a handler write one value each, the handler behind main code's test; the rest is read. -/
def bothWrite (k : Nat) : List (Ev Nat) :=
  [.start (.put 1), .main, .main, .start (.put 2)] ++ List.replicate k .main ++ [.handler (.put 3), .main, .main, .handler .take, .handler .take, .handler .take]

/-- **C144 fails** for two writers: four accesses out of four lose values for which `Write` returned true. Size 3, 1 is held; 2 of main code and 3 of a handler are written. With the
    pointer kept 3 or 2 is missing (for the queue it would be refused: there is room for one), with the pointer loaded again all three. -/
theorem c144_writers_fails :
    SharedRing.endOf (RingBufferShared.run true (St.init [0, 0, 0]) (bothWrite 0)) = some ([.put true, .put true, .put true, .took (some 1), .took (some 2), .took none], 0) ∧
    SharedRing.endOf (RingBufferShared.run true (St.init [0, 0, 0]) (bothWrite 1)) = some ([.put true, .put true, .put true, .took (some 1), .took (some 3), .took none], 0) ∧
    SharedRing.endOf (RingBufferShared.run false (St.init [0, 0, 0]) (bothWrite 0)) = some ([.put true, .put true, .put true, .took none, .took none, .took none], 0) ∧
    SharedRing.endOf (RingBufferShared.run false (St.init [0, 0, 0]) (bothWrite 1)) = some ([.put true, .put true, .put true, .took none, .took none, .took none], 0) := by
  refine ⟨?_, ?_, ?_, ?_⟩ <;> decide +kernel

/-- **C144 fails** for two writers with plenty of room, when the pointer is loaded again: 2 is lost, and a value never written is read. -/
theorem c144_invented_fails : SharedRing.endOf (RingBufferShared.run false (St.init [10, 20, 30, 40, 50]) (bothWrite 1)) =
    some ([.put true, .put true, .put true, .took (some 1), .took (some 3), .took (some 30)], 0) := by decide +kernel

/-- Main code and a handler read. -/
def bothRead (k : Nat) : List (Ev Nat) := [.start (.put 1), .main, .main, .start .take] ++ List.replicate k .main ++ [.handler .take, .main, .main]

/-- **C144 fails** for two readers: 1 is read twice, or a value never written is read; with the pointer loaded again four values are left in a buffer that should be empty. -/
theorem c144_readers_fails :
    SharedRing.endOf (RingBufferShared.run true (St.init [10, 20, 30, 40, 50]) (bothRead 0)) = some ([.put true, .took (some 1), .took (some 1)], 0) ∧
    SharedRing.endOf (RingBufferShared.run true (St.init [10, 20, 30, 40, 50]) (bothRead 1)) = some ([.put true, .took (some 1), .took (some 1)], 0) ∧
    SharedRing.endOf (RingBufferShared.run false (St.init [10, 20, 30, 40, 50]) (bothRead 0)) = some ([.put true, .took (some 1), .took (some 20)], 4) ∧
    SharedRing.endOf (RingBufferShared.run false (St.init [10, 20, 30, 40, 50]) (bothRead 1)) = some ([.put true, .took (some 1), .took (some 1)], 4) := by
  refine ⟨?_, ?_, ?_, ?_⟩ <;> decide +kernel

/-- The answers are those of a queue. -/
def likeQueue (n : Nat) : Res (St Nat) → Bool
  | .ok s => decide (answers s = (serveAll (n - 1) [] (SharedRing.calls s)).2)
  | .ub => false

/-- **C144.** The claim in full, for handlers at any place, is false, whether the pointer is kept or loaded again. -/
theorem c144_full_claim_is_false (keep : Bool) : ¬ ∀ (g : List Nat) (es : List (Ev Nat)), 0 < g.length → g.length < 65536 → AtEach keep Sensible (St.init g) es → AsQueue keep g es := by
  intro h
  obtain ⟨s, h1, h2, _⟩ := h [0, 0, 0] (bothWrite 1) (by decide) (by decide) (by cases keep <;> decide +kernel)
  have h3 : likeQueue 3 (RingBufferShared.run keep (St.init [0, 0, 0]) (bothWrite 1)) = false := by cases keep <;> decide +kernel
  rw [h1] at h3
  simp only [likeQueue, decide_eq_false_iff_not] at h3
  exact h3 h2

end Atl.Props
