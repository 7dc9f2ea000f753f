import Verif.Model.LcdInterrupt
import Verif.Props.Lcd

/- Property theorems C142: a display on six pins written by main code and by interrupt handlers. -/
namespace Atl.Props
open Atl Atl.Lcd Atl.Spec.Lcd Atl.LcdInterrupt

/-! ### Specification -/

/-- What happens; a byte comes with its register select (`true`: data). -/
inductive Writing where
  | start (x : Bool × Nat)
  | main
  | handler (x : Bool × Nat)
  deriving Repr, DecidableEq

/-- The calls. -/
def Writing.ev : Writing → Ev
  | .start x => .start (toCall x)
  | .main => .main
  | .handler x => .handler (toCall x)

/-- What the display latched, the levels before being `a`. -/
def latchedIn (a : Lines) (s : St) : List (Option (Bool × Nat)) := latches a (Parallel.levels a s.done)

/-- The present levels. -/
def linesIn (a : Lines) (s : St) : Lines := Parallel.final a s.done

/-- The two halves of each byte, high one first. -/
def halves (l : List (Bool × Nat)) : List (Option (Bool × Nat)) := l.flatMap fun x => [some (x.1, x.2 / 16 % 16), some (x.1, x.2 % 16)]

/-- Main code writes one byte after the other; handlers come at any place. -/
def OneByOne (s : St) : List Writing → Prop
  | [] => True
  | .start x :: es => s.rest = [] ∧ OneByOne (step s (Writing.start x).ev) es
  | e :: es => OneByOne (step s e.ev) es

/-- How many bytes were asked for. -/
def bytesAsked : List Writing → Nat
  | [] => 0
  | .main :: es => bytesAsked es
  | _ :: es => bytesAsked es + 1

/-- How many bytes of handlers found Enable low. -/
def foundLow (a : Lines) (s : St) : List Writing → Nat
  | [] => 0
  | .handler x :: es => (if (linesIn a s).e then 0 else 1) + foundLow a (step s (Writing.handler x).ev) es
  | e :: es => foundLow a (step s e.ev) es

/-- The order in which bytes are served: one of main code from its second pin write on. Bytes served and the one of main code that waits. -/
def serveOrder (t : List (Bool × Nat) × Option (Bool × Nat)) : Writing → List (Bool × Nat) × Option (Bool × Nat)
  | .start x => (t.1, some x)
  | .main => (t.1 ++ t.2.toList, none)
  | .handler y => (t.1 ++ [y], t.2)

/-- Main code writes one byte after the other; handlers write while main code is outside of a byte, or behind its first pin write when both bytes have the same register
    select. `w`: main code's byte while only its first pin write was made. -/
def QuietWrites (s : St) (w : Option (Bool × Nat)) : List Writing → Prop
  | [] => True
  | .start x :: es => s.rest = [] ∧ QuietWrites (step s (Writing.start x).ev) (some x) es
  | .main :: es => QuietWrites (step s Ev.main) none es
  | .handler y :: es => (s.rest = [] ∨ w.map Prod.fst = some y.1) ∧ QuietWrites (step s (Writing.handler y).ev) w es

/-- Main code writes `x`; between its pin writes `p` and `p + 1` handlers write `h`. -/
def interruptedAt (x : Bool × Nat) (p : Nat) (h : List (Bool × Nat)) : List Writing :=
  .start x :: List.replicate (p - 1) .main ++ h.map .handler ++ List.replicate (13 - p) .main

/-- Number whose lowest `k` bits are those of `other`, the rest of the four those of `own`. -/
def spliced (k own other : Nat) : Nat := own % 16 / 2 ^ k * 2 ^ k + other % 2 ^ k

/-- Text as a display takes it that already has the half `n` of a byte. -/
def outOfStep (n : Nat) : List Nat → List (Bool × Nat) × Nat
  | [] => ([], n)
  | b :: l => let (m, k) := outOfStep (b % 16) l; ((true, 16 * n + b / 16 % 16) :: m, k)

/-! ### Proofs -/

namespace LcdIsr

theorem final_append (a : Lines) (l m : List (Parallel.Pin × Bool)) : Parallel.final a (l ++ m) = Parallel.final (Parallel.final a l) m := Parallel.final_append a l m

theorem halves_append (l m : List (Bool × Nat)) : halves (l ++ m) = halves l ++ halves m := by simp [halves]

/-- How E should alternate in pin writes to come. -/
def Pairs : Bool → List (Parallel.Pin × Bool) → Prop
  | e, [] => e = true
  | e, (.e, v) :: r => v = !e ∧ Pairs v r
  | e, _ :: r => Pairs e r

/-- Falling edges to come. -/
def falls (l : List (Parallel.Pin × Bool)) : Nat := l.countP (fun w => w == (Parallel.Pin.e, false))

theorem byte_list (x : Bool × Nat) : Parallel.call (toCall x) = (Parallel.Pin.rs, x.1) :: Parallel.write8 x.2 := by
  obtain ⟨rs, b⟩ := x
  cases rs <;> rfl

theorem byte_pairs (x : Bool × Nat) : Pairs true (Parallel.write8 x.2) ∧ falls (Parallel.write8 x.2) = 2 := by
  constructor
  · simp [Parallel.write8, Parallel.write4, Pairs]
  · simp [Parallel.write8, Parallel.write4, falls, List.countP_cons]

/-- A byte makes two falling edges, one when Enable is low before it. -/
theorem byte_latches (f : Lines) (x : Bool × Nat) :
    (latches f (Parallel.levels f (Parallel.call (toCall x)))).length + (if f.e then 0 else 1) = 2 ∧ (Parallel.final f (Parallel.call (toCall x))).e = true := by
  obtain ⟨rs, rw, e, _, _, _, _⟩ := f
  rw [byte_list]
  refine ⟨?_, by simp [Parallel.write8, Parallel.write4, Parallel.final, Parallel.apply]⟩
  cases e <;> cases rw <;> simp [Parallel.write8, Parallel.write4, Parallel.levels, Parallel.apply, latches, latch]

theorem latched_snoc (a : Lines) (s : List (Parallel.Pin × Bool)) (m : List (Parallel.Pin × Bool)) :
    (latches a (Parallel.levels a (s ++ m))).length =
      (latches a (Parallel.levels a s)).length + (latches (Parallel.final a s) (Parallel.levels (Parallel.final a s) m)).length := by
  rw [Parallel.levels_append]; simp

/-- The count of a history, from any place. -/
theorem count (a : Lines) (es : List Writing) : ∀ (s : St) (e : Bool), Pairs e s.rest → (e = true → (linesIn a s).e = true) → OneByOne s es →
    (latchedIn a (run s (es.map Writing.ev))).length + falls (run s (es.map Writing.ev)).rest + foundLow a s es =
      (latchedIn a s).length + falls s.rest + 2 * bytesAsked es ∧
    ∃ e', Pairs e' (run s (es.map Writing.ev)).rest ∧ (e' = true → (linesIn a (run s (es.map Writing.ev))).e = true) := by
  -- one pin write of main code
  have hnext : ∀ (s : St) (e : Bool), Pairs e s.rest → (e = true → (linesIn a s).e = true) →
      ∃ e', Pairs e' (next s).rest ∧ (e' = true → (linesIn a (next s)).e = true) ∧
        (latchedIn a (next s)).length + falls (next s).rest = (latchedIn a s).length + falls s.rest := by
    intro s e hp he
    obtain ⟨done, rest⟩ := s
    match rest with
    | [] => exact ⟨e, hp, he, rfl⟩
    | (q, v) :: r =>
      have hl : latchedIn a (next ⟨done, (q, v) :: r⟩) = latchedIn a ⟨done, (q, v) :: r⟩ ++ latch (Parallel.final a done) (Parallel.apply (Parallel.final a done) (q, v)) := by
        simp only [latchedIn, next, Parallel.levels_append]
        simp [Parallel.levels, latches]
      have hf : linesIn a (next ⟨done, (q, v) :: r⟩) = Parallel.apply (Parallel.final a done) (q, v) := by
        simp [linesIn, next, Parallel.final]
      rw [hl, hf]
      simp only [linesIn] at he
      cases q with
      | e =>
        obtain ⟨hv, hr⟩ := hp
        refine ⟨v, hr, fun h => by simpa [Parallel.apply] using h, ?_⟩
        cases v with
        | true => simp [next, falls, Parallel.apply, latch]
        | false =>
          have : e = true := by simpa using hv.symm
          have h1 := he this
          have h2 : (latch (Parallel.final a done) (Parallel.apply (Parallel.final a done) (.e, false))).length = 1 := by
            simp only [Parallel.apply, latch, h1]
            simp only [Bool.not_false, Bool.and_self, if_true]
            split <;> rfl
          rw [List.length_append, h2]
          simp [next, falls, List.countP_cons]
          omega
      | rs => exact ⟨e, hp, fun h => he h, by simp [next, falls, Parallel.apply, latch, List.countP_cons]⟩
      | d4 => exact ⟨e, hp, fun h => he h, by simp [next, falls, Parallel.apply, latch, List.countP_cons]⟩
      | d5 => exact ⟨e, hp, fun h => he h, by simp [next, falls, Parallel.apply, latch, List.countP_cons]⟩
      | d6 => exact ⟨e, hp, fun h => he h, by simp [next, falls, Parallel.apply, latch, List.countP_cons]⟩
      | d7 => exact ⟨e, hp, fun h => he h, by simp [next, falls, Parallel.apply, latch, List.countP_cons]⟩
  induction es with
  | nil => intro s e hp he _; exact ⟨by simp [run, foundLow, bytesAsked], e, hp, he⟩
  | cons z es ih =>
    intro s e hp he ho
    cases z with
    | start x =>
      obtain ⟨hr, ho⟩ := ho
      have het : e = true := by rw [hr] at hp; exact hp
      have hb := byte_pairs x
      have hbl := byte_list x
      obtain ⟨e', h1, h2, h3⟩ := hnext { s with rest := Parallel.call (toCall x) } true (by rw [hbl]; exact hb.1) (fun _ => he het)
      obtain ⟨this, hend⟩ := ih _ e' h1 h2 ho
      refine ⟨?_, hend⟩
      simp only [List.map_cons, run, List.foldl_cons, Writing.ev, foundLow, bytesAsked, step] at this ⊢
      rw [this]
      have hf : falls (Parallel.call (toCall x)) = 2 := by rw [hbl]; simpa [falls, List.countP_cons] using hb.2
      have h0 : falls s.rest = 0 := by rw [hr]; rfl
      simp only [hf] at h3
      have h4 : (latchedIn a { s with rest := Parallel.call (toCall x) }).length = (latchedIn a s).length := rfl
      omega
    | main =>
      obtain ⟨e', h1, h2, h3⟩ := hnext s e hp he
      obtain ⟨this, hend⟩ := ih _ e' h1 h2 ho
      refine ⟨?_, hend⟩
      simp only [List.map_cons, run, List.foldl_cons, Writing.ev, foundLow, bytesAsked, step] at this ⊢
      omega
    | handler x =>
      have hbl := byte_latches (linesIn a s) x
      have hE : (linesIn a (step s (Writing.handler x).ev)).e = true := by
        simp only [linesIn, step, Writing.ev, final_append]; exact hbl.2
      obtain ⟨this, hend⟩ := ih (step s (Writing.handler x).ev) e hp (fun _ => hE) ho
      refine ⟨?_, hend⟩
      have hlen : (latchedIn a (step s (Writing.handler x).ev)).length = (latchedIn a s).length + (latches (linesIn a s) (Parallel.levels (linesIn a s) (Parallel.call (toCall x)))).length := latched_snoc a s.done _
      have hfr : falls (step s (Writing.handler x).ev).rest = falls s.rest := rfl
      simp only [List.map_cons, run, List.foldl_cons, foundLow, bytesAsked] at this ⊢
      omega

/-! #### The quiet histories -/

theorem byte_halves (f : Lines) (he : f.e = true) (hw : f.rw = false) (x : Bool × Nat) :
    latches f (Parallel.levels f (Parallel.call (toCall x))) = halves [x] ∧ (Parallel.final f (Parallel.call (toCall x))).e = true ∧
    (Parallel.final f (Parallel.call (toCall x))).rw = false ∧ (Parallel.final f (Parallel.call (toCall x))).rs = x.1 := by
  rw [byte_list]
  obtain ⟨h1, h2, h3, h4⟩ := Parallel.write8_spec { f with rs := x.1 } he hw x.2
  have hl : latch f { f with rs := x.1 } = [] := by simp [latch, he]
  refine ⟨?_, h2, h3, h4⟩
  simp only [Parallel.levels, Parallel.apply, latches, hl, h1, List.nil_append]
  simp [halves]

/-- The invariant of quiet histories: what is latched when main code goes on alone. -/
structure Inv (a : Lines) (s : St) (t : List (Bool × Nat) × Option (Bool × Nat)) : Prop where
  all : latches a (Parallel.levels a (s.done ++ s.rest)) = halves (t.1 ++ t.2.toList)
  e : (Parallel.final a (s.done ++ s.rest)).e = true
  rw : (Parallel.final a (s.done ++ s.rest)).rw = false
  wait : ∀ x, t.2 = some x → s.rest = Parallel.write8 x.2 ∧ (linesIn a s).rs = x.1 ∧ (linesIn a s).e = true ∧ (linesIn a s).rw = false ∧ latchedIn a s = halves t.1

theorem next_all (s : St) : (next s).done ++ (next s).rest = s.done ++ s.rest := by
  obtain ⟨done, rest⟩ := s
  cases rest <;> simp [next]

theorem inv_step (a : Lines) (s : St) (t : List (Bool × Nat) × Option (Bool × Nat)) (h : Inv a s t) (z : Writing) (es : List Writing) (hq : QuietWrites s t.2 (z :: es)) :
    Inv a (step s z.ev) (serveOrder t z) ∧ QuietWrites (step s z.ev) (serveOrder t z).2 es := by
  obtain ⟨l, w⟩ := t
  cases z with
  | start x =>
    obtain ⟨hr, hq⟩ := hq
    refine ⟨?_, hq⟩
    have hw : w = none := by
      cases w with
      | none => rfl
      | some y => exact absurd ((h.wait y rfl).1.symm.trans hr) (by simp [Parallel.write8, Parallel.write4])
    subst hw
    have h1 := h.all; have h2 := h.e; have h3 := h.rw
    rw [hr, List.append_nil] at h1 h2 h3
    simp only [Option.toList_none, List.append_nil] at h1
    have hn : step s (Writing.start x).ev = ⟨s.done ++ [(.rs, x.1)], Parallel.write8 x.2⟩ := by
      simp [step, Writing.ev, next, byte_list]
    obtain ⟨g1, g2, g3, g4⟩ := byte_halves _ h2 h3 x
    have hb : s.done ++ [(.rs, x.1)] ++ Parallel.write8 x.2 = s.done ++ Parallel.call (toCall x) := by simp [byte_list]
    rw [hn]
    refine ⟨?_, ?_, ?_, ?_⟩
    · simp only [hb, Parallel.levels_append, h1, g1, serveOrder, Option.toList_some, halves_append]
    · simp only [hb, final_append]; exact g2
    · simp only [hb, final_append]; exact g3
    · intro y hy
      simp only [serveOrder, Option.some.injEq] at hy
      subst hy
      refine ⟨rfl, ?_, ?_, ?_, ?_⟩
      · simp [linesIn, Parallel.final, Parallel.apply]
      · simpa [linesIn, Parallel.final, Parallel.apply] using h2
      · simpa [linesIn, Parallel.final, Parallel.apply] using h3
      · simp only [latchedIn, Parallel.levels_append, h1, serveOrder]
        simp [Parallel.levels, Parallel.apply, latches, latch, h2]
  | main =>
    refine ⟨⟨?_, ?_, ?_, fun y hy => by simp [serveOrder] at hy⟩, hq⟩
    · simp only [step, Writing.ev, next_all, h.all, serveOrder, Option.toList_none, List.append_nil]
    · simp only [step, Writing.ev, next_all, h.e]
    · simp only [step, Writing.ev, next_all, h.rw]
  | handler y =>
    obtain ⟨hc, hq⟩ := hq
    refine ⟨?_, hq⟩
    have hs : step s (Writing.handler y).ev = ⟨s.done ++ Parallel.call (toCall y), s.rest⟩ := rfl
    rw [hs]
    cases w with
    | none =>
      have hr : s.rest = [] := by
        rcases hc with hc | hc
        · exact hc
        · cases hc
      have h1 := h.all; have h2 := h.e; have h3 := h.rw
      rw [hr, List.append_nil] at h1 h2 h3
      simp only [Option.toList_none, List.append_nil] at h1
      obtain ⟨g1, g2, g3, g4⟩ := byte_halves _ h2 h3 y
      refine ⟨?_, ?_, ?_, fun z hz => by simp [serveOrder] at hz⟩
      · simp only [hr, List.append_nil, Parallel.levels_append, h1, g1, serveOrder, Option.toList_none, halves_append]
      · simp only [hr, List.append_nil, final_append]; exact g2
      · simp only [hr, List.append_nil, final_append]; exact g3
    | some x =>
      obtain ⟨k1, k2, k3, k4, k5⟩ := h.wait x rfl
      have hxy : x.1 = y.1 := by
        rcases hc with hc | hc
        · rw [hc] at k1; exact absurd k1.symm (by simp [Parallel.write8, Parallel.write4])
        · simpa using hc
      obtain ⟨g1, g2, g3, g4⟩ := byte_halves _ k3 k4 y
      obtain ⟨m1, m2, m3, m4⟩ := Parallel.write8_spec _ g2 g3 x.2
      have e1 : Parallel.final a (s.done ++ Parallel.call (toCall y)) = Parallel.final (linesIn a s) (Parallel.call (toCall y)) := final_append ..
      refine ⟨?_, ?_, ?_, ?_⟩
      · simp only [k1]
        rw [Parallel.levels_append, Parallel.levels_append, e1, m1, g4, ← hxy]
        simp only [latchedIn] at k5
        rw [k5]
        simp only [linesIn] at g1
        rw [g1]
        simp [serveOrder, halves, hxy]
      · simp only [k1]; rw [final_append, e1]; exact m2
      · simp only [k1]; rw [final_append, e1]; exact m3
      · intro z hz
        simp only [serveOrder, Option.some.injEq] at hz
        subst hz
        refine ⟨k1, ?_, ?_, ?_, ?_⟩
        · simp only [linesIn]; rw [e1, g4, hxy]
        · simp only [linesIn]; rw [e1, g2]
        · simp only [linesIn]; rw [e1, g3]
        · simp only [latchedIn, serveOrder, halves_append] at k5 ⊢
          rw [Parallel.levels_append, k5]
          simp only [linesIn] at g1
          rw [g1]

theorem inv_run (a : Lines) (es : List Writing) : ∀ (s : St) (t : List (Bool × Nat) × Option (Bool × Nat)), Inv a s t → QuietWrites s t.2 es →
    Inv a (run s (es.map Writing.ev)) (es.foldl serveOrder t) := by
  induction es with
  | nil => intro s t h _; exact h
  | cons z es ih =>
    intro s t h hq
    obtain ⟨h1, h2⟩ := inv_step a s t h z es hq
    exact ih _ _ h1 h2

/-! #### A byte interrupted at one place -/

theorem run_main (k : Nat) : ∀ s : St, run s (List.replicate k Ev.main) = ⟨s.done ++ s.rest.take k, s.rest.drop k⟩ := by
  induction k with
  | zero => intro s; simp [run]
  | succ k ih =>
    intro s
    obtain ⟨done, rest⟩ := s
    rw [List.replicate_succ]
    show run (next ⟨done, rest⟩) _ = _
    rw [ih]
    cases rest <;> simp [next]

theorem run_handlers (h : List (Bool × Nat)) : ∀ s : St, run s (h.map (fun y => (Writing.handler y).ev)) = ⟨s.done ++ Parallel.calls (h.map toCall), s.rest⟩ := by
  induction h with
  | nil => intro s; simp [run, Parallel.calls]
  | cons y h ih =>
    intro s
    show run (step s (Writing.handler y).ev) _ = _
    rw [ih]
    simp [step, Writing.ev, Parallel.calls]

theorem run_interrupted (s : St) (hs : s.rest = []) (x : Bool × Nat) (p : Nat) (hp : 1 ≤ p) (hp' : p ≤ 13) (h : List (Bool × Nat)) :
    run s ((interruptedAt x p h).map Writing.ev) =
      ⟨s.done ++ ((Parallel.call (toCall x)).take p ++ Parallel.calls (h.map toCall) ++ (Parallel.call (toCall x)).drop p), []⟩ := by
  obtain ⟨q, rfl⟩ : ∃ q, p = q + 1 := ⟨p - 1, by omega⟩
  have e1 : (interruptedAt x (q + 1) h).map Writing.ev = (Writing.start x).ev :: (List.replicate q Ev.main ++ (h.map (fun y => (Writing.handler y).ev) ++ List.replicate (13 - (q + 1)) Ev.main)) := by
    simp [interruptedAt, Writing.ev, Function.comp_def]
  have e2 : step s (Writing.start x).ev = ⟨s.done ++ [(.rs, x.1)], Parallel.write8 x.2⟩ := by
    simp [step, Writing.ev, next, byte_list]
  have e3 : ∀ (s : St) (l m : List Ev), run s (l ++ m) = run (run s l) m := fun s l m => by simp [run]
  rw [e1]
  show run (step s (Writing.start x).ev) _ = _
  rw [e2, e3, e3, run_main, run_handlers, run_main]
  have hlen : (Parallel.write8 x.2).length = 12 := by simp [Parallel.write8, Parallel.write4]
  simp only [byte_list, List.take_succ_cons, List.drop_succ_cons]
  have t1 : ((Parallel.write8 x.2).drop q).take (13 - (q + 1)) = (Parallel.write8 x.2).drop q := List.take_of_length_le (by rw [List.length_drop, hlen]; omega)
  have t2 : ((Parallel.write8 x.2).drop q).drop (13 - (q + 1)) = [] := List.drop_of_length_le (by rw [List.length_drop, hlen]; omega)
  simp only [t1, t2]
  simp

/-- The levels behind a byte. -/
def behind (x : Bool × Nat) : Lines := ⟨x.1, false, true, x.2.testBit 0, x.2.testBit 1, x.2.testBit 2, x.2.testBit 3⟩

theorem final_byte (f : Lines) (hw : f.rw = false) (x : Bool × Nat) : Parallel.final f (Parallel.call (toCall x)) = behind x := by
  have h0 := testBit_and x.2 0
  have h1 := testBit_and x.2 1
  have h2 := testBit_and x.2 2
  have h3 := testBit_and x.2 3
  simp only [Nat.pow_zero, Nat.pow_one, Nat.reducePow] at h0 h1 h2 h3
  rw [byte_list]
  simp only [Parallel.final, Parallel.write8, Parallel.write4, List.cons_append, List.nil_append, List.foldl_cons, List.foldl_nil, Parallel.apply, behind, h0, h1, h2, h3, hw]

theorem final_rw (f : Lines) (l : List (Parallel.Pin × Bool)) : (Parallel.final f l).rw = f.rw := by
  induction l generalizing f with
  | nil => rfl
  | cons w l ih =>
    show (Parallel.final (Parallel.apply f w) l).rw = _
    rw [ih]
    obtain ⟨q, v⟩ := w
    cases q <;> rfl

theorem final_handlers (f : Lines) (hw : f.rw = false) (h : List (Bool × Nat)) (y : Bool × Nat) : Parallel.final f (Parallel.calls ((h ++ [y]).map toCall)) = behind y := by
  have : Parallel.calls ((h ++ [y]).map toCall) = Parallel.calls (h.map toCall) ++ Parallel.call (toCall y) := by simp [Parallel.calls]
  rw [this, final_append, final_byte _ (by rw [final_rw]; exact hw)]

theorem handlers_halves (f : Lines) (he : f.e = true) (hw : f.rw = false) (h : List (Bool × Nat)) :
    latches f (Parallel.levels f (Parallel.calls (h.map toCall))) = halves h := by
  induction h generalizing f with
  | nil => rfl
  | cons y h ih =>
    obtain ⟨g1, g2, g3, _⟩ := byte_halves f he hw y
    have e1 : Parallel.calls ((y :: h).map toCall) = Parallel.call (toCall y) ++ Parallel.calls (h.map toCall) := by simp [Parallel.calls]
    rw [e1, Parallel.levels_append, g1, ih _ g2 g3, ← halves_append]; rfl

/-- With Enable low the first half is lost. -/
theorem handlers_low (f : Lines) (he : f.e = false) (hw : f.rw = false) (h : List (Bool × Nat)) :
    latches f (Parallel.levels f (Parallel.calls (h.map toCall))) = (halves h).tail := by
  cases h with
  | nil => rfl
  | cons y h =>
    have hf := final_byte f hw y
    have hg := handlers_halves (behind y) rfl rfl h
    have e1 : Parallel.calls ((y :: h).map toCall) = Parallel.call (toCall y) ++ Parallel.calls (h.map toCall) := by simp [Parallel.calls]
    rw [e1, Parallel.levels_append, hf, hg]
    have h1 : latches f (Parallel.levels f (Parallel.call (toCall y))) = [some (y.1, y.2 % 16)] := by
      obtain ⟨rs, rw, e, _, _, _, _⟩ := f
      simp only at he hw
      subst he hw
      have h0 := testBit_and y.2 0
      have h1 := testBit_and y.2 1
      have h2 := testBit_and y.2 2
      have h3 := testBit_and y.2 3
      simp only [Nat.pow_zero, Nat.pow_one, Nat.reducePow] at h0 h1 h2 h3
      have hb := nibble_bits y.2
      rw [byte_list]
      simp only [Parallel.write8, Parallel.write4, List.cons_append, List.nil_append, Parallel.levels, Parallel.apply, latches, latch, h0, h1, h2, h3]
      simp [Lines.nibble]
      simpa using hb
    rw [h1]
    simp [halves]

theorem spliced_bits (k own other : Nat) (hk : k ≤ 4) :
    ((if 0 < k then other else own).testBit 0).toNat + 2 * ((if 1 < k then other else own).testBit 1).toNat +
      4 * ((if 2 < k then other else own).testBit 2).toNat + 8 * ((if 3 < k then other else own).testBit 3).toNat = spliced k own other := by
  have h (n k : Nat) : (n.testBit k).toNat = n / 2 ^ k % 2 := Nat.toNat_testBit n k
  rw [h, h, h, h]
  obtain rfl | rfl | rfl | rfl | rfl : k = 0 ∨ k = 1 ∨ k = 2 ∨ k = 3 ∨ k = 4 := by omega
  all_goals simp [spliced]; omega

/-- The end of a `Write4` of which `k` data lines were written before handlers came. -/
theorem end4 (y : Bool × Nat) (n k : Nat) (hk : k ≤ 4) :
    latches (behind y) (Parallel.levels (behind y) ((Parallel.write4 n).drop k)) = [some (y.1, spliced k n y.2)] ∧
    (Parallel.final (behind y) ((Parallel.write4 n).drop k)).e = true ∧ (Parallel.final (behind y) ((Parallel.write4 n).drop k)).rw = false ∧
    (Parallel.final (behind y) ((Parallel.write4 n).drop k)).rs = y.1 := by
  have hb := spliced_bits k n y.2 hk
  have h0 := testBit_and n 0
  have h1 := testBit_and n 1
  have h2 := testBit_and n 2
  have h3 := testBit_and n 3
  simp only [Nat.pow_zero, Nat.pow_one, Nat.reducePow] at h0 h1 h2 h3
  obtain rfl | rfl | rfl | rfl | rfl : k = 0 ∨ k = 1 ∨ k = 2 ∨ k = 3 ∨ k = 4 := by omega
  all_goals
    refine ⟨?_, rfl, rfl, rfl⟩
    simp only [Parallel.write4, List.drop_succ_cons, List.drop_zero, Parallel.levels, Parallel.apply, latches, latch, h0, h1, h2, h3, behind]
    simp [Lines.nibble]
    simpa using hb

theorem start_lines (a : Lines) : linesIn a start = { a with e := true } ∧ latchedIn a start = [] := by
  refine ⟨rfl, ?_⟩
  simp [latchedIn, start, Parallel.init, Parallel.levels, Parallel.apply, latches, latch]

theorem write8_drop (n k : Nat) (hk : k ≤ 6) : (Parallel.write8 n).take k = (Parallel.write4 (n >>> 4)).take k ∧ (Parallel.write8 n).drop k = (Parallel.write4 (n >>> 4)).drop k ++ Parallel.write4 n ∧
    (Parallel.write8 n).take (k + 6) = Parallel.write4 (n >>> 4) ++ (Parallel.write4 n).take k ∧ (Parallel.write8 n).drop (k + 6) = (Parallel.write4 n).drop k := by
  have h6 (n : Nat) : (Parallel.write4 n).length = 6 := rfl
  refine ⟨?_, ?_, ?_, ?_⟩
  · rw [Parallel.write8, List.take_append_of_le_length (by rw [h6]; exact hk)]
  · rw [Parallel.write8, List.drop_append_of_le_length (by rw [h6]; exact hk)]
  · rw [Parallel.write8, show k + 6 = (Parallel.write4 (n >>> 4)).length + k from by rw [h6]; omega, List.take_length_add_append]
  · rw [Parallel.write8, show k + 6 = (Parallel.write4 (n >>> 4)).length + k from by rw [h6]; omega, List.drop_length_add_append]

/-- Data lines latch nothing. -/
theorem data_latches (f : Lines) (n k : Nat) (hk : k ≤ 4) : latches f (Parallel.levels f ((Parallel.write4 n).take k)) = [] ∧
    (Parallel.final f ((Parallel.write4 n).take k)).e = f.e := by
  obtain rfl | rfl | rfl | rfl | rfl : k = 0 ∨ k = 1 ∨ k = 2 ∨ k = 3 ∨ k = 4 := by omega
  all_goals refine ⟨?_, rfl⟩; simp [Parallel.write4, Parallel.levels, Parallel.apply, latches, latch]

/-- Data lines and Enable down. -/
theorem low_latches (f : Lines) (he : f.e = true) (hw : f.rw = false) (n : Nat) : latches f (Parallel.levels f ((Parallel.write4 n).take 5)) = [some (f.rs, n % 16)] ∧
    (Parallel.final f ((Parallel.write4 n).take 5)).e = false := by
  have h1 := (Parallel.write4_spec f he hw n).1
  have h2 : Parallel.write4 n = (Parallel.write4 n).take 5 ++ [(.e, true)] := rfl
  have h3 : (Parallel.final f ((Parallel.write4 n).take 5)).e = false := rfl
  rw [h2, Parallel.levels_append] at h1
  refine ⟨?_, h3⟩
  simpa [Parallel.levels, latches, latch, h3] using h1

/-- What an interrupted byte makes the display latch. -/
theorem latched_interrupted (a : Lines) (s : St) (hs : s.rest = []) (hE : (linesIn a s).e = true) (x : Bool × Nat) (p : Nat) (hp' : p ≤ 12)
    (h : List (Bool × Nat)) (y : Bool × Nat) (hw : a.rw = false) :
    latchedIn a (run s ((interruptedAt x (p + 1) (h ++ [y])).map Writing.ev)) = latchedIn a s ++
      (latches { linesIn a s with rs := x.1 } (Parallel.levels { linesIn a s with rs := x.1 } ((Parallel.write8 x.2).take p)) ++
       latches (Parallel.final { linesIn a s with rs := x.1 } ((Parallel.write8 x.2).take p))
         (Parallel.levels (Parallel.final { linesIn a s with rs := x.1 } ((Parallel.write8 x.2).take p)) (Parallel.calls ((h ++ [y]).map toCall))) ++
       latches (behind y) (Parallel.levels (behind y) ((Parallel.write8 x.2).drop p))) := by
  rw [run_interrupted s hs x (p + 1) (by omega) (by omega)]
  simp only [latchedIn]
  rw [Parallel.levels_append, byte_list, List.take_succ_cons, List.drop_succ_cons, List.append_assoc, List.cons_append]
  have e1 : Parallel.final a s.done = linesIn a s := rfl
  rw [e1]
  have e2 : latch (linesIn a s) { linesIn a s with rs := x.1 } = [] := by simp [latch, hE]
  have e3 : latches (linesIn a s) (Parallel.levels (linesIn a s) ((.rs, x.1) :: ((Parallel.write8 x.2).take p ++ (Parallel.calls ((h ++ [y]).map toCall) ++ (Parallel.write8 x.2).drop p)))) =
      latches { linesIn a s with rs := x.1 } (Parallel.levels { linesIn a s with rs := x.1 } ((Parallel.write8 x.2).take p ++ (Parallel.calls ((h ++ [y]).map toCall) ++ (Parallel.write8 x.2).drop p))) := by
    simp only [Parallel.levels, Parallel.apply, latches, e2, List.nil_append]
  rw [e3, Parallel.levels_append, Parallel.levels_append, final_handlers _ (by rw [final_rw]; show (Parallel.final a s.done).rw = false; rw [final_rw]; exact hw)]
  simp only [List.append_assoc]

end LcdIsr

/-! ### C142 -/

/-- **C142.** Whenever main code is outside of a byte, Enable is high, whatever handlers wrote and wherever. -/
theorem c142_idle (a : Lines) (es : List Writing) (ho : OneByOne start es) (hi : (run start (es.map Writing.ev)).rest = []) :
    (linesIn a (run start (es.map Writing.ev))).e = true := by
  obtain ⟨_, e, h1, h2⟩ := LcdIsr.count a es start true rfl (fun _ => rfl) ho
  rw [hi] at h1
  exact h2 h1

/-- **C142.** For every history: the display latched two halves for each byte, but one less for each byte of a handler that found Enable low. -/
theorem c142_count (a : Lines) (es : List Writing) (ho : OneByOne start es) (hi : (run start (es.map Writing.ev)).rest = []) :
    (latchedIn a (run start (es.map Writing.ev))).length + foundLow a start es = 2 * bytesAsked es := by
  obtain ⟨h, _⟩ := LcdIsr.count a es start true rfl (fun _ => rfl) ho
  rw [hi, (LcdIsr.start_lines a).2] at h
  have h0 : LcdIsr.falls [] = 0 := rfl
  have h1 : LcdIsr.falls start.rest = 0 := rfl
  simp only [h0, h1, List.length_nil] at h
  omega

theorem pairUp_even : ∀ (l : List (Option (Bool × Nat))) (m : List (Bool × Nat)), pairUp l = some m → l.length % 2 = 0
  | [], _, _ => rfl
  | [some _], _, h => by simp [pairUp] at h
  | [none], _, h => by simp [pairUp] at h
  | none :: _ :: _, _, h => by simp [pairUp] at h
  | some _ :: none :: _, _, h => by simp [pairUp] at h
  | some (rs, x) :: some (rs', y) :: l, m, h => by
    simp only [pairUp] at h
    split at h
    · cases hl : pairUp l with
      | none => rw [hl] at h; cases h
      | some m' =>
        have := pairUp_even l m' hl
        simp only [List.length_cons]; omega
    · cases h

/-- **C142.** So after an odd number of bytes that found Enable low what the display latched is no sequence of bytes, whatever is written later. -/
theorem c142_odd_fails (a : Lines) (es : List Writing) (ho : OneByOne start es) (hi : (run start (es.map Writing.ev)).rest = [])
    (hodd : foundLow a start es % 2 = 1) : pairUp (latchedIn a (run start (es.map Writing.ev))) = none := by
  cases h : pairUp (latchedIn a (run start (es.map Writing.ev))) with
  | none => rfl
  | some m =>
    have h1 := pairUp_even _ m h
    have h2 := c142_count a es ho hi
    omega

/-- **C142 (partial: quiet histories).** When handlers write only while main code is outside of a byte, or behind its first pin write with the same register select, the
    display latches all bytes, whole and in order. -/
theorem c142_quiet_partial (a : Lines) (hw : a.rw = false) (es : List Writing) (hq : QuietWrites start none es) (hi : (run start (es.map Writing.ev)).rest = []) :
    latchedIn a (run start (es.map Writing.ev)) = halves (es.foldl serveOrder ([], none)).1 ∧ (es.foldl serveOrder ([], none)).2 = none := by
  have h0 : LcdIsr.Inv a start ([], none) := by
    refine ⟨?_, rfl, hw, fun x hx => by cases hx⟩
    have := (LcdIsr.start_lines a).2
    simp only [latchedIn] at this
    simpa [start, halves] using this
  have h := LcdIsr.inv_run a es start ([], none) h0 hq
  have hn : (es.foldl serveOrder ([], none)).2 = none := by
    cases hx : (es.foldl serveOrder ([], none)).2 with
    | none => rfl
    | some x => exact absurd ((h.wait x hx).1.symm.trans hi) (by simp [Parallel.write8, Parallel.write4])
  refine ⟨?_, hn⟩
  have h1 := h.all
  rw [hi, hn] at h1
  simpa [latchedIn] using h1

theorem halves_nibbles (rs : Bool) (l : List (Bool × Nat)) : halves l = nibbles rs (l.map toCall) := by
  induction l generalizing rs with
  | nil => rfl
  | cons x l ih =>
    obtain ⟨r, b⟩ := x
    have : halves ((r, b) :: l) = some (r, b / 16 % 16) :: some (r, b % 16) :: halves l := by simp [halves]
    rw [this]
    cases r
    · rw [ih false]; rfl
    · rw [ih true]; rfl

/-- **C142 (partial: quiet histories).** And a display in 4 bit mode executes exactly them. -/
theorem c142_quiet_device_partial (a : Lines) (hw : a.rw = false) (es : List Writing) (hq : QuietWrites start none es) (hi : (run start (es.map Writing.ev)).rest = [])
    (d : Device) (hd : Aligned d) (low : Nat → Nat) (amb : Nat → Bool) (hb : ∀ x ∈ (es.foldl serveOrder ([], none)).1, x.2 < 256 ∧ ¬ selects8 x) :
    receiveAll low amb 0 d (latchedIn a (run start (es.map Writing.ev))) = some (execAll d (es.foldl serveOrder ([], none)).1) := by
  rw [(c142_quiet_partial a hw es hq hi).1, halves_nibbles a.rs, receive_nibbles low amb 0 d hd _ _ hb]

/-- **C142.** Handlers that write while main code has written `k` of the four data lines of the first half: main code's byte gets their register select and, in its first
    half, the `k` lines of the last byte of theirs. -/
theorem c142_first_half (a : Lines) (hw : a.rw = false) (s : St) (hs : s.rest = []) (hE : (linesIn a s).e = true) (x : Bool × Nat) (k : Nat) (hk : k ≤ 4)
    (h : List (Bool × Nat)) (y : Bool × Nat) :
    latchedIn a (run s ((interruptedAt x (k + 1) (h ++ [y])).map Writing.ev)) =
      latchedIn a s ++ halves (h ++ [y]) ++ [some (y.1, spliced k (x.2 / 16) y.2), some (y.1, x.2 % 16)] := by
  have hrw : (linesIn a s).rw = false := by rw [linesIn, LcdIsr.final_rw]; exact hw
  obtain ⟨w1, w2, _, _⟩ := LcdIsr.write8_drop x.2 k (by omega)
  obtain ⟨d1, d2⟩ := LcdIsr.data_latches { linesIn a s with rs := x.1 } (x.2 >>> 4) k hk
  rw [LcdIsr.latched_interrupted a s hs hE x k (by omega) h y hw, w1, w2, d1,
    LcdIsr.handlers_halves _ (by rw [d2]; exact hE) (by rw [LcdIsr.final_rw]; exact hrw)]
  obtain ⟨e1, e2, e3, e4⟩ := LcdIsr.end4 y (x.2 >>> 4) k hk
  rw [Parallel.levels_append, e1, (Parallel.write4_spec _ e2 e3 x.2).1, e4, Nat.shiftRight_eq_div_pow]
  simp

/-- **C142.** Handlers that write while Enable is low for the first half: the first half of their first byte is lost, and they stand between the halves of main code's byte,
    the second of which gets their register select. -/
theorem c142_first_low (a : Lines) (hw : a.rw = false) (s : St) (hs : s.rest = []) (hE : (linesIn a s).e = true) (x : Bool × Nat)
    (h : List (Bool × Nat)) (y : Bool × Nat) :
    latchedIn a (run s ((interruptedAt x 6 (h ++ [y])).map Writing.ev)) =
      latchedIn a s ++ [some (x.1, x.2 / 16 % 16)] ++ (halves (h ++ [y])).tail ++ [some (y.1, x.2 % 16)] := by
  have hrw : (linesIn a s).rw = false := by rw [linesIn, LcdIsr.final_rw]; exact hw
  obtain ⟨w1, w2, _, _⟩ := LcdIsr.write8_drop x.2 5 (by omega)
  obtain ⟨d1, d2⟩ := LcdIsr.low_latches { linesIn a s with rs := x.1 } hE hrw (x.2 >>> 4)
  rw [LcdIsr.latched_interrupted a s hs hE x 5 (by omega) h y hw, w1, w2, d1, LcdIsr.handlers_low _ d2 (by rw [LcdIsr.final_rw]; exact hrw)]
  have e1 : (Parallel.write4 (x.2 >>> 4)).drop 5 ++ Parallel.write4 x.2 = (.e, true) :: Parallel.write4 x.2 := rfl
  have e2 : latches (LcdIsr.behind y) (Parallel.levels (LcdIsr.behind y) ((.e, true) :: Parallel.write4 x.2)) = [some (y.1, x.2 % 16)] := by
    have := (Parallel.write4_spec (LcdIsr.behind y) rfl rfl x.2).1
    simp only [Parallel.levels, latches]
    have hn : Parallel.apply (LcdIsr.behind y) (.e, true) = LcdIsr.behind y := rfl
    rw [hn, this]
    simp [latch, LcdIsr.behind]
  rw [e1, e2, Nat.shiftRight_eq_div_pow]
  simp

/-- **C142.** Handlers that write between the halves, `k` data lines of the second half written: they stand between the halves of main code's byte, the second of which gets
    their register select and `k` lines of their last byte. -/
theorem c142_second_half (a : Lines) (hw : a.rw = false) (s : St) (hs : s.rest = []) (hE : (linesIn a s).e = true) (x : Bool × Nat) (k : Nat) (hk : k ≤ 4)
    (h : List (Bool × Nat)) (y : Bool × Nat) :
    latchedIn a (run s ((interruptedAt x (k + 7) (h ++ [y])).map Writing.ev)) =
      latchedIn a s ++ [some (x.1, x.2 / 16 % 16)] ++ halves (h ++ [y]) ++ [some (y.1, spliced k x.2 y.2)] := by
  have hrw : (linesIn a s).rw = false := by rw [linesIn, LcdIsr.final_rw]; exact hw
  obtain ⟨_, _, w1, w2⟩ := LcdIsr.write8_drop x.2 k (by omega)
  obtain ⟨g1, g2, g3, g4⟩ := Parallel.write4_spec { linesIn a s with rs := x.1 } hE hrw (x.2 >>> 4)
  obtain ⟨d1, d2⟩ := LcdIsr.data_latches (Parallel.final { linesIn a s with rs := x.1 } (Parallel.write4 (x.2 >>> 4))) x.2 k hk
  rw [LcdIsr.latched_interrupted a s hs hE x (k + 6) (by omega) h y hw, w1, w2, Parallel.levels_append, g1, d1,
    LcdIsr.handlers_halves _ (by rw [LcdIsr.final_append, d2]; exact g2) (by rw [LcdIsr.final_rw]; exact hrw), (LcdIsr.end4 y x.2 k hk).1, Nat.shiftRight_eq_div_pow]
  simp

/-- **C142.** Handlers that write while Enable is low for the second half: main code's byte is whole, the first half of their first byte is lost. -/
theorem c142_second_low (a : Lines) (hw : a.rw = false) (s : St) (hs : s.rest = []) (hE : (linesIn a s).e = true) (x : Bool × Nat)
    (h : List (Bool × Nat)) (y : Bool × Nat) :
    latchedIn a (run s ((interruptedAt x 12 (h ++ [y])).map Writing.ev)) = latchedIn a s ++ halves [x] ++ (halves (h ++ [y])).tail := by
  have hrw : (linesIn a s).rw = false := by rw [linesIn, LcdIsr.final_rw]; exact hw
  obtain ⟨_, _, w1, w2⟩ := LcdIsr.write8_drop x.2 5 (by omega)
  obtain ⟨g1, g2, g3, g4⟩ := Parallel.write4_spec { linesIn a s with rs := x.1 } hE hrw (x.2 >>> 4)
  obtain ⟨d1, d2⟩ := LcdIsr.low_latches _ g2 g3 x.2
  rw [LcdIsr.latched_interrupted a s hs hE x 11 (by omega) h y hw, w1, w2, Parallel.levels_append, g1, d1,
    LcdIsr.handlers_low _ (by rw [LcdIsr.final_append]; exact d2) (by rw [LcdIsr.final_rw]; exact hrw), g4, Nat.shiftRight_eq_div_pow]
  have e1 : (Parallel.write4 x.2).drop 5 = [(.e, true)] := rfl
  rw [e1]
  simp [Parallel.levels, Parallel.apply, latches, latch, LcdIsr.behind, halves]

theorem receive_first (low : Nat) (amb : Bool) (d : Device) (rs : Bool) (n : Nat) (h4 : d.four = true) (hh : d.half = none) :
    receive low amb d rs n = { d with half := some (rs, n) } := by
  simp [receive, h4, hh]

/-- **C142.** Text written to a display that has half a byte already: every character is made of the end of one and the beginning of the next. -/
theorem c142_out_of_step (low : Nat → Nat) (amb : Nat → Bool) (l : List Nat) : ∀ (t : Nat) (d : Device) (n : Nat), d.four = true → d.half = some (true, n) →
    receiveAll low amb t d (halves (l.map (true, ·))) =
      some { execAll { d with half := none } (outOfStep n l).1 with half := some (true, (outOfStep n l).2) } := by
  induction l with
  | nil => intro t d n h1 h2; simp [halves, receiveAll, outOfStep, execAll, ← h2]
  | cons b l ih =>
    intro t d n h1 h2
    have hh : halves ((b :: l).map (true, ·)) = some (true, b / 16 % 16) :: some (true, b % 16) :: halves (l.map (true, ·)) := by simp [halves]
    rw [hh]
    simp only [receiveAll]
    have r1 : receive (low t % 16) (amb t) d true (b / 16 % 16) = exec { d with half := none } true (16 * n + b / 16 % 16) := by
      simp [receive, h1, h2]
    have f1 : (exec { d with half := none } true (16 * n + b / 16 % 16)).four = true := by simp only [exec, if_true]; split <;> exact h1
    have f2 : (exec { d with half := none } true (16 * n + b / 16 % 16)).half = none := by rw [exec_half]
    rw [r1]
    have hx : ∀ l : List (Bool × Nat), execAll { d with half := none } ((true, 16 * n + b / 16 % 16) :: l) = execAll (exec { d with half := none } true (16 * n + b / 16 % 16)) l := fun _ => rfl
    simp only [outOfStep, hx]
    generalize exec { d with half := none } true (16 * n + b / 16 % 16) = c at f1 f2
    rw [receive_first _ _ c true _ f1 f2, ih (t + 1 + 1) { c with half := some (true, b % 16) } (b % 16) f1 rfl]
    have hc : { { c with half := some (true, b % 16) } with half := none } = c := by
      obtain ⟨_, _, _, _, _, _, _, _, _, _, _, _, _⟩ := c
      simp only at f2
      subst f2
      rfl
    rw [hc]

/-- Main code writes text without being interrupted. -/
def textWrites (l : List Nat) : List Writing := l.flatMap fun b => interruptedAt (true, b) 13 []

theorem latched_text (a : Lines) (hw : a.rw = false) (l : List Nat) : ∀ s : St, s.rest = [] → (linesIn a s).e = true →
    latchedIn a (run s ((textWrites l).map Writing.ev)) = latchedIn a s ++ halves (l.map (true, ·)) := by
  induction l with
  | nil => intro s _ _; simp [textWrites, run, halves]
  | cons b l ih =>
    intro s hs hE
    have hrw : (linesIn a s).rw = false := by rw [linesIn, LcdIsr.final_rw]; exact hw
    have h1 : (textWrites (b :: l)).map Writing.ev = (interruptedAt (true, b) 13 []).map Writing.ev ++ (textWrites l).map Writing.ev := by simp [textWrites]
    have h2 : run s ((interruptedAt (true, b) 13 []).map Writing.ev) = ⟨s.done ++ Parallel.call (toCall (true, b)), []⟩ := by
      rw [LcdIsr.run_interrupted s hs _ 13 (by omega) (by omega), LcdIsr.byte_list]
      simp [Parallel.write8, Parallel.write4, Parallel.calls]
    obtain ⟨g1, g2, _, _⟩ := LcdIsr.byte_halves (linesIn a s) hE hrw (true, b)
    have h3 : ∀ (l m : List Ev), run s (l ++ m) = run (run s l) m := fun l m => by simp [run]
    rw [h1, h3, h2, ih _ rfl (by simp only [linesIn, LcdIsr.final_append]; exact g2)]
    simp only [latchedIn, Parallel.levels_append]
    simp only [linesIn] at g1
    rw [g1]
    simp [halves]

theorem execAll_kept (l : List Nat) : ∀ (d : Device), Aligned d → Aligned (execAll d (l.map (true, ·))) := by
  induction l with
  | nil => intro d h; exact h
  | cons b l ih =>
    intro d h
    refine ih (exec d true b) ⟨?_, by rw [exec_half]; exact h.2⟩
    exact exec_four d true b h.1 (by simp [selects8])

/-- **C142.** A character of main code, one of a handler while Enable is low for its second half, and any text of main code afterwards: the display (`d` so far) shows the first
    character and then garbage made of the halves, for ever. -/
theorem c142_garbage_fails (a : Lines) (hw : a.rw = false) (s : St) (hs : s.rest = []) (hE : (linesIn a s).e = true) (d₀ d : Device) (hd : Aligned d) (low : Nat → Nat) (amb : Nat → Bool)
    (hseen : receiveAll low amb 0 d₀ (latchedIn a s) = some d) (b c : Nat) (hb : b < 256) (l : List Nat) :
    receiveAll low amb 0 d₀ (latchedIn a (run s ((interruptedAt (true, b) 12 [(true, c)] ++ textWrites l).map Writing.ev))) =
      some { execAll d ((true, b) :: (outOfStep (c % 16) l).1) with half := some (true, (outOfStep (c % 16) l).2) } := by
  have h3 : ∀ (l m : List Ev), run s (l ++ m) = run (run s l) m := fun l m => by simp [run]
  have h4 := LcdIsr.run_interrupted s hs (true, b) 12 (by omega) (by omega) [(true, c)]
  have hE2 : (linesIn a (run s ((interruptedAt (true, b) 12 [(true, c)]).map Writing.ev))).e = true := by
    rw [h4]; simp only [linesIn]; rw [← List.append_assoc, LcdIsr.final_append, LcdIsr.byte_list]; rfl
  have h5 := c142_second_low a hw s hs hE (true, b) [] (true, c)
  rw [List.map_append, h3, latched_text a hw l _ (by rw [h4]) hE2]
  rw [show ([] : List (Bool × Nat)) ++ [(true, c)] = [(true, c)] from rfl] at h5
  rw [h5]
  have h6 : latchedIn a s ++ halves [(true, b)] ++ (halves [(true, c)]).tail ++ halves (l.map (true, ·)) =
      latchedIn a s ++ (halves [(true, b)] ++ ([some (true, c % 16)] ++ halves (l.map (true, ·)))) := by simp [halves]
  rw [h6, receiveAll_append low amb 0 d₀ _ _ d hseen]
  have hbyte : ∀ t, receiveAll low amb t d (halves [(true, b)]) = some (execAll d [(true, b)]) := fun t => by
    rw [halves_nibbles a.rs, receive_nibbles low amb t d hd _ _ (by simp [selects8, hb])]
  rw [receiveAll_append low amb _ d _ _ _ (hbyte _)]
  have hal : Aligned (execAll d [(true, b)]) := execAll_kept [b] d hd
  have hx : execAll d ((true, b) :: (outOfStep (c % 16) l).1) = execAll (execAll d [(true, b)]) (outOfStep (c % 16) l).1 := rfl
  rw [hx]
  generalize execAll d [(true, b)] = d' at hal ⊢
  simp only [List.cons_append, List.nil_append, receiveAll]
  rw [receive_first _ _ d' true _ hal.1 hal.2, c142_out_of_step low amb l _ { d' with half := some (true, c % 16) } (c % 16) hal.1 rfl]
  have hc : { { d' with half := some (true, c % 16) } with half := none } = d' := by
    obtain ⟨_, h2⟩ := hal
    obtain ⟨_, _, _, _, _, _, _, _, _, _, _, _, _⟩ := d'
    simp only at h2
    subst h2
    rfl
  rw [hc]

/-! ### Witnesses -/

instance decOneByOne : ∀ (es : List Writing) (s : St), Decidable (OneByOne s es)
  | [], _ => isTrue trivial
  | .start x :: es, s => by
    have := decOneByOne es (step s (Writing.start x).ev)
    exact inferInstanceAs (Decidable (_ ∧ _))
  | .main :: es, s => decOneByOne es (step s Ev.main)
  | .handler x :: es, s => decOneByOne es (step s (Writing.handler x).ev)

instance decQuietWrites : ∀ (es : List Writing) (s : St) (w : Option (Bool × Nat)), Decidable (QuietWrites s w es)
  | [], _, _ => isTrue trivial
  | .start x :: es, s, _ => by
    have := decQuietWrites es (step s (Writing.start x).ev) (some x)
    exact inferInstanceAs (Decidable (_ ∧ _))
  | .main :: es, s, _ => decQuietWrites es (step s Ev.main) none
  | .handler x :: es, s, w => by
    have := decQuietWrites es (step s (Writing.handler x).ev) w
    exact inferInstanceAs (Decidable (_ ∧ _))

/-- Levels before anything is written. -/
def dark : Lines := ⟨false, false, false, false, false, false, false⟩

/-- Main code writes `A` at the cursor; a handler writes `B` behind its first pin write, another one a command behind it; then main code writes `C`. -/
def quietHistory : List Writing := interruptedAt (true, 0x41) 1 [(true, 0x42)] ++ [.handler (false, 0x80)] ++ interruptedAt (true, 0x43) 13 []

example : QuietWrites start none quietHistory ∧ (run start (quietHistory.map Writing.ev)).rest = [] ∧ (quietHistory.foldl serveOrder ([], none)).1 = [(true, 0x42), (true, 0x41), (false, 0x80), (true, 0x43)] := by
  decide +kernel
example := c142_quiet_partial dark rfl quietHistory (by decide +kernel) (by decide +kernel)
example := fun d hd => c142_quiet_device_partial dark rfl quietHistory (by decide +kernel) (by decide +kernel) { (d : Device) with four := true, half := none } hd (fun _ => 0) (fun _ => false)
  (by unfold selects8; decide +kernel)

/-- Main code writes `A`; a handler writes `B` while Enable is low for the second half; main code writes `C`. -/
def oddHistory : List Writing := interruptedAt (true, 0x41) 12 [(true, 0x42)] ++ interruptedAt (true, 0x43) 13 []

example : OneByOne start oddHistory ∧ (run start (oddHistory.map Writing.ev)).rest = [] ∧ foundLow dark start oddHistory = 1 ∧ bytesAsked oddHistory = 3 := by decide +kernel
example := c142_count dark oddHistory (by decide +kernel) (by decide +kernel)
example := c142_idle dark oddHistory (by decide +kernel) (by decide +kernel)
example := c142_odd_fails dark oddHistory (by decide +kernel) (by decide +kernel) (by decide +kernel)

example := c142_first_half dark rfl start rfl rfl (true, 0x41) 2 (by omega) [(true, 0x42)] (false, 0x8F)
example := c142_first_low dark rfl start rfl rfl (true, 0x41) [(true, 0x42)] (false, 0x8F)
example := c142_second_half dark rfl start rfl rfl (true, 0x41) 3 (by omega) [(true, 0x42)] (false, 0x8F)
example := c142_second_low dark rfl start rfl rfl (true, 0x41) [(true, 0x42)] (false, 0x8F)
example := c142_out_of_step (fun _ => 0) (fun _ => false) [0x43, 0x44] 0 { powerUp with four := true, half := some (true, 2) } 2 rfl rfl
example := c142_garbage_fails dark rfl start rfl rfl { powerUp with four := true } { powerUp with four := true } ⟨rfl, rfl⟩ (fun _ => 0) (fun _ => false) rfl 0x41 0x42 (by omega) [0x43, 0x44]
example : outOfStep 2 [0x43, 0x44] = ([(true, 0x24), (true, 0x34)], 4) := by decide

/-- The bytes asked for. -/
def askedFor : List Writing → List (Bool × Nat)
  | [] => []
  | .start x :: es => x :: askedFor es
  | .main :: es => askedFor es
  | .handler x :: es => x :: askedFor es

/-- The claim in full: all bytes asked for reach the display, whole, in some order. -/
def DisplayClaim : Prop := ∀ (a : Lines) (es : List Writing), a.rw = false → (∀ x ∈ askedFor es, x.2 < 256) → OneByOne start es → (run start (es.map Writing.ev)).rest = [] →
  ∃ m, pairUp (latchedIn a (run start (es.map Writing.ev))) = some m ∧ m.Perm (askedFor es)

/-- **C142.** A character written by main code is executed as a command when a handler writes a command behind its first pin write: instead of `A` the display gets the
    instruction 0x41, which moves the cursor into the character generator. -/
theorem c142_command_fails : pairUp (latchedIn dark (run start ((interruptedAt (true, 0x41) 1 [(false, 0x85)]).map Writing.ev))) = some [(false, 0x85), (false, 0x41)] := by
  decide +kernel

/-- **C142.** Two characters mixed: `A` comes to be `q` when a handler writes `G` while main code has written three data lines; and `A` with `S` of a handler between its
    halves comes to be `E` and `1`. -/
theorem c142_mixed_fails :
    pairUp (latchedIn dark (run start ((interruptedAt (true, 0x41) 4 [(true, 0x47)]).map Writing.ev))) = some [(true, 0x47), (true, 0x71)] ∧
    pairUp (latchedIn dark (run start ((interruptedAt (true, 0x41) 7 [(true, 0x53)]).map Writing.ev))) = some [(true, 0x45), (true, 0x31)] := by
  decide +kernel

/-- **C142.** The claim in full is false. -/
theorem c142_full_claim_is_false : ¬ DisplayClaim := by
  intro h
  obtain ⟨m, h1, _⟩ := h dark oddHistory rfl (by decide +kernel) (by decide +kernel) (by decide +kernel)
  rw [c142_odd_fails dark oddHistory (by decide +kernel) (by decide +kernel) (by decide +kernel)] at h1
  cases h1

/-- The latched halves make the bytes `l` in some order, decided. -/
def wholeIn (l : List (Bool × Nat)) : Option (List (Bool × Nat)) → Bool
  | none => false
  | some m => decide (m.Perm l)

theorem wholeIn_iff (l : List (Bool × Nat)) (o : Option (List (Bool × Nat))) : wholeIn l o = true ↔ ∃ m, o = some m ∧ m.Perm l := by
  cases o <;> simp [wholeIn]

/-- **C142.** The only place within a byte where characters of handlers never do harm is behind the first pin write. -/
theorem c142_safe_place (p : Nat) (hp : 1 ≤ p) (hp' : p ≤ 12) :
    (∀ (b c : Nat), b < 256 → c < 256 → ∃ m, pairUp (latchedIn dark (run start ((interruptedAt (true, b) p [(true, c)]).map Writing.ev))) = some m ∧ m.Perm [(true, b), (true, c)]) ↔ p = 1 := by
  constructor
  · intro h
    obtain rfl | rfl | rfl | rfl | rfl | rfl | rfl | rfl | rfl | rfl | rfl | rfl :
        p = 1 ∨ p = 2 ∨ p = 3 ∨ p = 4 ∨ p = 5 ∨ p = 6 ∨ p = 7 ∨ p = 8 ∨ p = 9 ∨ p = 10 ∨ p = 11 ∨ p = 12 := by omega
    · rfl
    all_goals
      exfalso
      have h0 := h 0x40 0x5F (by omega) (by omega)
      rw [← wholeIn_iff] at h0
      revert h0
      decide +kernel
  · rintro rfl b c hb hc
    have h := c142_first_half dark rfl start rfl rfl (true, b) 0 (by omega) [] (true, c)
    have hs : spliced 0 (b / 16) c = b / 16 % 16 := by simp [spliced, Nat.mod_one]
    rw [show interruptedAt (true, b) 1 [(true, c)] = interruptedAt (true, b) (0 + 1) ([] ++ [(true, c)]) from rfl, h, (LcdIsr.start_lines dark).2, hs]
    refine ⟨[(true, c), (true, b)], ?_, List.Perm.swap ..⟩
    have h1 : 16 * (b / 16 % 16) + b % 16 = b := by omega
    have h2 : 16 * (c / 16 % 16) + c % 16 = c := by omega
    simp [halves, pairUp, h1, h2]

example := c142_safe_place 4 (by omega) (by omega)

end Atl.Props
