import Verif.Model.BitArrayInterrupt
import Verif.Props.Bits

/-!
  C149: one `BitArray` used by main code and by interrupt handlers, accessed byte by byte.
-/
namespace Atl.Props
open Atl.Bits Atl.BitArrayInterrupt

namespace SharedBits

/-! ### Specification -/

/-- What a call asks of bit `i`. -/
def asks {n : Nat} (i : Nat) : Call n → Option Bool
  | .set k => if k = i then some true else none
  | .put k v => if k = i then some v else none
  | .reset k => if k = i then some false else none
  | .field k v cnt => if k + cnt ≤ n ∧ k ≤ i ∧ i < k + cnt then some (v.getLsbD (i - k)) else none
  | .all v => some (v.getLsbD i)
  | .clear => some false

/-- The calls that work when nothing interferes (C05, C06). -/
def Proper (W : Nat) {n : Nat} : Call n → Prop
  | .set k | .put k _ | .reset k => k < n → n ≤ W ∨ k + 1 < W
  | .field k _ cnt => k + cnt ≤ n → k < n ∨ n < W
  | .all _ | .clear => True

/-- The bits a reading is about. -/
def concerns (n i : Nat) : Reading → Prop
  | .bit k | .noBit k => k = i
  | .field k cnt => k + cnt ≤ n ∧ k ≤ i ∧ i < k + cnt
  | .all => True

/-- The readings that work when nothing interferes. -/
def Readable (W n : Nat) : Reading → Prop
  | .bit k | .noBit k => k < n → n ≤ W ∨ k + 1 < W
  | .field k cnt => k + cnt ≤ n → k < n ∨ n < W
  | .all => True

/-- What is required of the compiler: a byte is loaded and then stored once, or only stored if the assignment keeps nothing of it, or not accessed if the assignment does not change it; a reading loads
    the bytes it is about. -/
structure Compiles {n : Nat} (C : Code n) : Prop where
  order : ∀ a j, (C.order a).filter (fun x => x.byte == j) = [.load j, .store j] ∨
    ((C.order a).filter (fun x => x.byte == j) = [.store j] ∧ ∀ i, i < n → i / 8 = j → a.keep.getLsbD i = false) ∨
    ((C.order a).filter (fun x => x.byte == j) = [] ∧ ∀ i, i < n → i / 8 = j → a.keep.getLsbD i = true ∧ a.put.getLsbD i = false)
  look : ∀ q i, i < n → concerns n i q → i / 8 ∈ C.look q

/-- What something that happened asks of bit `i`. -/
def seenAsks {n : Nat} (i : Nat) : Seen n → Option Bool
  | .loaded _ => none
  | .stored _ a => if a.put.getLsbD i then some true else if a.keep.getLsbD i then none else some false
  | .handled c => asks i c

/-- What counts for byte `j`, newest first: main code's stores of this byte, and the handlers' calls but those between a load of this byte and its store (`undone`: looking back from a store). -/
def counts {n : Nat} (j : Nat) : (undone : Bool) → List (Seen n) → List (Seen n)
  | _, [] => []
  | true, .handled _ :: l => counts j true l
  | false, .handled c :: l => .handled c :: counts j false l
  | undone, .loaded k :: l => counts j (if k = j then false else undone) l
  | undone, .stored k a :: l => if k = j then .stored k a :: counts j true l else counts j undone l

/-- What an event asks of bit `i`. -/
def evAsks {n : Nat} (i : Nat) : Ev n → Option Bool
  | .call c | .handler c => asks i c
  | _ => none

/-- Main code still has to store byte `j`. -/
def Storing {n : Nat} (j : Nat) (l : List (Micro n)) : Prop := ∃ a, Micro.store j a ∈ l

/-- Main code makes its calls one after the other, and handlers change bit `i` only while main code does not have to store its byte. -/
def Careful (W : Nat) {n : Nat} (C : Code n) (i : Nat) : St n → List (Ev n) → Prop
  | _, [] => True
  | s, e :: es => (match e with
      | .call c => s.todo = [] ∧ Proper W c
      | .look _ => s.todo = []
      | .main => True
      | .handler c => Proper W c ∧ (asks i c = none ∨ ¬ Storing (i / 8) s.todo)) ∧ ∀ s', step W C s e = .ok s' → Careful W C i s' es

/-- Inside one call of main code: it goes on, and handlers call. -/
def Inside {n : Nat} (P : Call n → Prop) (es : List (Ev n)) : Prop := ∀ e ∈ es, e = .main ∨ ∃ c, e = .handler c ∧ P c

/-! ### Proofs: bits -/

theorem getLsbD_byteMask {n j i : Nat} (hi : i < n) : (byteMask n j).getLsbD i = decide (i / 8 = j) := by
  have e : (255 : Nat) = 2 ^ 8 - 1 := rfl
  unfold byteMask
  rw [BitVec.getLsbD_shiftLeft, BitVec.getLsbD_ofNat, e, Nat.testBit_two_pow_sub_one]
  by_cases h : i / 8 = j
  · have h1 : ¬ i < 8 * j := by omega
    have h2 : i - 8 * j < 8 := by omega
    have h3 : i - 8 * j < n := by omega
    simp [h, h1, h2, h3, hi]
  · by_cases h1 : i < 8 * j
    · simp [h, h1]
    · have h2 : ¬ i - 8 * j < 8 := by omega
      simp [h, h2]

theorem getLsbD_pick {n j i : Nat} (hi : i < n) (a b : BitVec n) : (pick j a b).getLsbD i = if i / 8 = j then a.getLsbD i else b.getLsbD i := by
  unfold pick
  simp only [BitVec.getLsbD_or, BitVec.getLsbD_and, BitVec.getLsbD_not, getLsbD_byteMask hi, hi]
  by_cases h : i / 8 = j <;> simp [h]

/-- An assignment. -/
def Assign.apply {n : Nat} (b : BitVec n) (a : Assign n) : BitVec n := (b &&& a.keep) ||| a.put

/-- An assignment to bit `i`. -/
def bitApply {n : Nat} (i : Nat) (b : Bool) (a : Assign n) : Bool := (b && a.keep.getLsbD i) || a.put.getLsbD i

theorem foldl_apply {n i : Nat} (l : List (Assign n)) : ∀ b : BitVec n, (l.foldl Assign.apply b).getLsbD i = l.foldl (bitApply i) (b.getLsbD i) := by
  induction l with
  | nil => intro b; rfl
  | cons a l ih => intro b; simp [ih, Assign.apply, bitApply]

theorem apply_join {n : Nat} (b : BitVec n) (x y : Assign n) : Assign.apply b (x.join y) = Assign.apply (Assign.apply b x) y := by
  apply BitVec.eq_of_getLsbD_eq
  intro i _
  simp only [Assign.apply, Assign.join, BitVec.getLsbD_or, BitVec.getLsbD_and]
  cases b.getLsbD i <;> cases x.keep.getLsbD i <;> cases y.keep.getLsbD i <;> cases x.put.getLsbD i <;> cases y.put.getLsbD i <;> rfl

theorem foldl_joined {n : Nat} (join : Bool) (l : List (Assign n)) (b : BitVec n) : (joined join l).foldl Assign.apply b = l.foldl Assign.apply b := by
  unfold joined
  split
  · split
    · simp [apply_join]
    · rfl
  · rfl

/-- The assignments of a call are what the call does. -/
theorem whole_assigns (W : Nat) {n : Nat} (c : Call n) (b : BitVec n) : whole W b c = (assigns W c >>= fun l => .ok (l.foldl Assign.apply b)) := by
  cases c with
  | set i =>
    simp only [whole, assigns, BitArray.set]
    split
    · rfl
    · cases shlOne W i with
      | ub => rfl
      | ok m => simp [Assign.apply]
  | put i v =>
    simp only [whole, assigns, BitArray.setBool]
    split
    · rfl
    · cases shlOne W i with
      | ub => rfl
      | ok m => cases v <;> simp [Assign.apply]
  | reset i =>
    simp only [whole, assigns, BitArray.reset]
    split
    · rfl
    · cases shlOne W i with
      | ub => rfl
      | ok m => simp [Assign.apply]
  | field i v cnt =>
    simp only [whole, assigns, BitArray.setField]
    split
    · rfl
    · cases shlT W (BitArray.createMask n cnt) i with
      | ub => rfl
      | ok m =>
        simp only [Res.bind_ok]
        cases shlT W (v &&& BitArray.createMask n cnt) i with
        | ub => rfl
        | ok w => simp [Assign.apply]
  | all v => simp [whole, assigns, Assign.apply]
  | clear => simp [whole, assigns, Assign.apply]

/-- A proper call does to every bit what it asks. -/
theorem whole_asks {W n : Nat} {c : Call n} (hp : Proper W c) {b b' : BitVec n} (h : whole W b c = .ok b') {i : Nat} (hi : i < n) :
    b'.getLsbD i = (asks i c).getD (b.getLsbD i) := by
  cases c with
  | set k =>
    by_cases hk : k < n
    · obtain ⟨⟨r, h1, h2⟩, -⟩ := c06_single_bit_partial W b k hk (hp hk)
      simp only [whole, h1, Res.bind_ok, Res.ok.injEq] at h
      subst h
      rw [h2 i hi]
      by_cases e : i = k
      · subst e; simp [asks]
      · have e' : ¬ k = i := fun x => e x.symm
        simp [asks, e, e']
    · have h1 := (c06_invalid_index W b k (by omega)).1
      simp only [whole, h1, Res.bind_ok, Res.ok.injEq] at h
      subst h
      have e' : ¬ k = i := by omega
      simp [asks, e']
  | put k v =>
    by_cases hk : k < n
    · obtain ⟨-, -, h0, -⟩ := c06_single_bit_partial W b k hk (hp hk)
      obtain ⟨r, h1, h2⟩ := h0 v
      simp only [whole, h1, Res.bind_ok, Res.ok.injEq] at h
      subst h
      rw [h2 i hi]
      by_cases e : i = k
      · subst e; simp [asks]
      · have e' : ¬ k = i := fun x => e x.symm
        simp [asks, e, e']
    · have h1 := (c06_invalid_index W b k (by omega)).2.2.1 v
      simp only [whole, h1, Res.bind_ok, Res.ok.injEq] at h
      subst h
      have e' : ¬ k = i := by omega
      simp [asks, e']
  | reset k =>
    by_cases hk : k < n
    · obtain ⟨-, ⟨r, h1, h2⟩, -⟩ := c06_single_bit_partial W b k hk (hp hk)
      simp only [whole, h1, Res.bind_ok, Res.ok.injEq] at h
      subst h
      rw [h2 i hi]
      by_cases e : i = k
      · subst e; simp [asks]
      · have e' : ¬ k = i := fun x => e x.symm
        simp [asks, e, e']
    · have h1 := (c06_invalid_index W b k (by omega)).2.1
      simp only [whole, h1, Res.bind_ok, Res.ok.injEq] at h
      subst h
      have e' : ¬ k = i := by omega
      simp [asks, e']
  | field k v cnt =>
    by_cases hk : k + cnt ≤ n
    · obtain ⟨r, h1, h2⟩ := c05_set_field W b v k cnt hk (hp hk)
      simp only [whole, h1, Res.bind_ok, Res.ok.injEq] at h
      subst h
      rw [h2 i hi]
      by_cases e : k ≤ i ∧ i < k + cnt <;> simp [asks, e, hk]
    · have h1 := (c05_reject W b v k cnt hk).1
      simp only [whole, h1, Res.bind_ok, Res.ok.injEq] at h
      subst h
      simp [asks, hk]
  | all v => simp only [whole, Res.ok.injEq] at h; subst h; simp [asks]
  | clear => simp only [whole, Res.ok.injEq] at h; subst h; simp [asks]

theorem assigns_asks {W n : Nat} {c : Call n} (hp : Proper W c) {l : List (Assign n)} (h : assigns W c = .ok l) {i : Nat} (hi : i < n) (join : Bool) (v : Bool) :
    (joined join l).foldl (bitApply i) v = (asks i c).getD v := by
  let b : BitVec n := if v then BitVec.allOnes n else 0
  have hb : b.getLsbD i = v := by
    show (if v then BitVec.allOnes n else (0 : BitVec n)).getLsbD i = v
    cases v <;> simp [hi]
  have h1 := whole_assigns W c b
  rw [h, Res.bind_ok] at h1
  have h2 := whole_asks hp h1 hi
  rw [← foldl_joined join, foldl_apply, hb] at h2
  exact h2

/-! ### Proofs: steps seen from one bit -/

/-- A step of main code on byte `j`. -/
def onByte {n : Nat} (j : Nat) : Micro n → Bool
  | .load k => k == j
  | .store k _ => k == j
  | .answer _ => false

/-- Bit `i` of the memory and of the registers after a step. -/
def exec1 {n : Nat} (i : Nat) (p : Bool × Bool) : Micro n → Bool × Bool
  | .load k => if k = i / 8 then (p.1, p.1) else p
  | .store k a => if k = i / 8 then (bitApply i p.2 a, p.2) else p
  | .answer _ => p

/-- After the steps. -/
def exec {n : Nat} (i : Nat) (p : Bool × Bool) (l : List (Micro n)) : Bool × Bool := l.foldl (exec1 i) p

theorem exec_filter {n i : Nat} (l : List (Micro n)) : ∀ p, exec i p l = exec i p (l.filter (onByte (i / 8))) := by
  induction l with
  | nil => intro p; rfl
  | cons x l ih =>
    intro p
    show exec i (exec1 i p x) l = _
    rw [ih]
    by_cases h : onByte (i / 8) x = true
    · rw [List.filter_cons_of_pos h]; rfl
    · rw [List.filter_cons_of_neg h]
      congr 1
      cases x with
      | load k => have : ¬ k = i / 8 := by simpa [onByte] using h
                  simp [exec1, this]
      | store k a => have : ¬ k = i / 8 := by simpa [onByte] using h
                     simp [exec1, this]
      | answer q => rfl

theorem filter_micros {n : Nat} (C : Code n) (a : Assign n) (j : Nat) :
    (micros C a).filter (onByte j) = ((C.order a).filter (fun x => x.byte == j)).map (fun | .load j => .load j | .store j => .store j a) := by
  unfold micros
  rw [List.filter_map]
  congr 1
  apply List.filter_congr
  intro x _
  cases x <;> rfl

theorem exec_micros {n : Nat} {C : Code n} (hC : Compiles C) (a : Assign n) {i : Nat} (hi : i < n) (p : Bool × Bool) : (exec i p (micros C a)).1 = bitApply i p.1 a := by
  rw [exec_filter, filter_micros]
  rcases hC.order a (i / 8) with h | ⟨h, hk⟩ | ⟨h, hk⟩
  · rw [h]; simp [exec, exec1]
  · rw [h]; simp [exec, exec1, bitApply, hk i hi rfl]
  · rw [h]; simp [exec, bitApply, hk i hi rfl]

theorem exec_append {n i : Nat} (p : Bool × Bool) (l r : List (Micro n)) : exec i p (l ++ r) = exec i (exec i p l) r := List.foldl_append

theorem exec_program {n : Nat} {C : Code n} (hC : Compiles C) {i : Nat} (hi : i < n) (l : List (Assign n)) : ∀ p : Bool × Bool,
    (exec i p (l.flatMap (micros C))).1 = l.foldl (bitApply i) p.1 := by
  induction l with
  | nil => intro p; rfl
  | cons a l ih =>
    intro p
    rw [List.flatMap_cons, exec_append, ih, exec_micros hC a hi]
    rfl

theorem exec_look {n i : Nat} (l : List Nat) (q : Reading) : ∀ p : Bool × Bool, (exec i p (l.map Micro.load ++ [.answer q] : List (Micro n))).1 = p.1 := by
  induction l with
  | nil => intro p; rfl
  | cons j l ih =>
    intro p
    show (exec i (exec1 i p (.load j)) (l.map Micro.load ++ [.answer q])).1 = p.1
    rw [ih]
    simp only [exec1]
    split <;> rfl

theorem exec_free {n i : Nat} (l : List (Micro n)) : ∀ p, ¬ Storing (i / 8) l → (exec i p l).1 = p.1 := by
  induction l with
  | nil => intro p _; rfl
  | cons x l ih =>
    intro p h
    have h' : ¬ Storing (i / 8) l := fun ⟨a, ha⟩ => h ⟨a, List.mem_cons_of_mem _ ha⟩
    show (exec i (exec1 i p x) l).1 = p.1
    rw [ih _ h']
    cases x with
    | load k => simp only [exec1]; split <;> rfl
    | store k a =>
      have : ¬ k = i / 8 := fun e => h ⟨a, by rw [e]; exact List.mem_cons_self ..⟩
      simp [exec1, this]
    | answer q => rfl

/-- A step of main code, seen from bit `i`. -/
theorem mainStep_bit {W n : Nat} {s s' : St n} (h : mainStep W s = .ok s') {i : Nat} (hi : i < n) :
    exec i (s'.mem.getLsbD i, s'.tmp.getLsbD i) s'.todo = exec i (s.mem.getLsbD i, s.tmp.getLsbD i) s.todo := by
  obtain ⟨mem, tmp, todo, ans, log⟩ := s
  cases todo with
  | nil => simp only [mainStep, Res.ok.injEq] at h; subst h; rfl
  | cons x l =>
    cases x with
    | load j =>
      simp only [mainStep, Res.ok.injEq] at h; subst h
      show _ = exec i (exec1 i _ _) l
      simp only [getLsbD_pick hi, exec1]
      by_cases e : i / 8 = j
      · simp [e]
      · have e' : ¬ j = i / 8 := fun x => e x.symm
        simp [e, e']
    | store j a =>
      simp only [mainStep, Res.ok.injEq] at h; subst h
      show _ = exec i (exec1 i _ _) l
      simp only [getLsbD_pick hi, exec1, bitApply, BitVec.getLsbD_or, BitVec.getLsbD_and]
      by_cases e : i / 8 = j
      · simp [e]
      · have e' : ¬ j = i / 8 := fun x => e x.symm
        simp [e, e']
    | answer q =>
      simp only [mainStep] at h
      cases hq : evaluate W tmp q with
      | ub => rw [hq] at h; simp at h
      | ok a => rw [hq] at h; simp only [Res.bind_ok, Res.ok.injEq] at h; subst h; rfl

theorem run_append {W n : Nat} {C : Code n} (l r : List (Ev n)) : ∀ s, run W C s (l ++ r) = (run W C s l >>= fun s => run W C s r) := by
  induction l with
  | nil => intro s; rfl
  | cons e l ih =>
    intro s
    show (step W C s e >>= fun s => run W C s (l ++ r)) = ((step W C s e >>= fun s => run W C s l) >>= _)
    cases step W C s e with
    | ub => rfl
    | ok s' => exact ih s'

theorem getD_last (l : List Bool) (a : Option Bool) (d : Bool) : ((a.toList ++ l).getLast?).getD d = (l.getLast?).getD (a.getD d) := by
  cases a with
  | none => simp
  | some x =>
    cases h : l.getLast? with
    | none => rw [List.getLast?_eq_none_iff] at h; subst h; simp
    | some y => rw [List.getLast?_append, h]; simp

theorem careful_exec {W n : Nat} {C : Code n} (hC : Compiles C) {i : Nat} (hi : i < n) (es : List (Ev n)) : ∀ s s', Careful W C i s es → run W C s es = .ok s' →
    (exec i (s'.mem.getLsbD i, s'.tmp.getLsbD i) s'.todo).1 = ((es.filterMap (evAsks i)).getLast?).getD (exec i (s.mem.getLsbD i, s.tmp.getLsbD i) s.todo).1 := by
  induction es with
  | nil => intro s s' _ h; simp only [run, Res.ok.injEq] at h; subst h; rfl
  | cons e es ih =>
    intro s s' hf h
    cases hs : step W C s e with
    | ub => simp [run, hs] at h
    | ok s1 =>
      simp only [run, hs, Res.bind_ok] at h
      rw [ih s1 s' (hf.2 s1 hs) h]
      have key : (exec i (s1.mem.getLsbD i, s1.tmp.getLsbD i) s1.todo).1 = (evAsks i e).getD (exec i (s.mem.getLsbD i, s.tmp.getLsbD i) s.todo).1 := by
        cases e with
        | call c =>
          obtain ⟨ht, hp⟩ := hf.1
          simp only [step] at hs
          cases ha : assigns W c with
          | ub => rw [ha] at hs; simp at hs
          | ok l =>
            rw [ha] at hs
            simp only [Res.bind_ok, Res.ok.injEq] at hs
            subst hs
            rw [exec_program hC hi, assigns_asks hp ha hi, ht]
            rfl
        | look q =>
          have ht : s.todo = [] := hf.1
          simp only [step, Res.ok.injEq] at hs
          subst hs
          rw [exec_look, ht]
          rfl
        | main => rw [mainStep_bit hs hi]; rfl
        | handler c =>
          obtain ⟨hp, hn⟩ := hf.1
          simp only [step] at hs
          cases hw : whole W s.mem c with
          | ub => rw [hw] at hs; simp at hs
          | ok b =>
            rw [hw] at hs
            simp only [Res.bind_ok, Res.ok.injEq] at hs
            subst hs
            have hb := whole_asks hp hw hi
            simp only [evAsks, hb]
            rcases hn with hn | hn
            · rw [hn]; rfl
            · rw [exec_free _ _ hn, exec_free _ _ hn]
      rw [key, ← getD_last]
      congr 2
      cases he : evAsks i e <;> simp [he]

/-! ### Proofs: what counts -/

/-- Main code never stores a byte that it has not loaded, if the assignment keeps bit `i` of it. -/
def Ready {n : Nat} (i : Nat) : (loaded : Bool) → List (Micro n) → Prop
  | _, [] => True
  | loaded, .load k :: l => Ready i (if k = i / 8 then true else loaded) l
  | loaded, .store k a :: l => if k = i / 8 then (loaded = true ∨ a.keep.getLsbD i = false) ∧ Ready i false l else Ready i loaded l
  | loaded, .answer _ :: l => Ready i loaded l

theorem ready_filter {n i : Nat} (l : List (Micro n)) : ∀ b, Ready i b l ↔ Ready i b (l.filter (onByte (i / 8))) := by
  induction l with
  | nil => intro b; rfl
  | cons x l ih =>
    intro b
    cases x with
    | load k => by_cases h : k = i / 8 <;> simp [Ready, onByte, h, ih]
    | store k a => by_cases h : k = i / 8 <;> simp [Ready, onByte, h, ih]
    | answer q => simp [Ready, onByte, ih]

theorem ready_mono {n i : Nat} (l : List (Micro n)) : Ready i false l → Ready i true l := by
  induction l with
  | nil => intro _; trivial
  | cons x l ih =>
    intro h
    cases x with
    | load k => by_cases e : k = i / 8 <;> simp [Ready, e] at h ⊢ <;> first | exact h | exact ih h
    | store k a => by_cases e : k = i / 8 <;> simp [Ready, e] at h ⊢ <;> first | exact h.2 | exact ih h
    | answer q => exact ih h

theorem ready_micros {n : Nat} {C : Code n} (hC : Compiles C) (a : Assign n) {i : Nat} (hi : i < n) (r : List (Micro n)) (hr : Ready i false r) : Ready i false (micros C a ++ r) := by
  rw [ready_filter, List.filter_append, filter_micros]
  rw [ready_filter] at hr
  rcases hC.order a (i / 8) with h | ⟨h, hk⟩ | ⟨h, hk⟩
  · rw [h]; simpa [Ready] using hr
  · rw [h]; simpa [Ready, hk i hi rfl] using hr
  · rw [h]; simpa using hr

theorem ready_program {n : Nat} {C : Code n} (hC : Compiles C) {i : Nat} (hi : i < n) (l : List (Assign n)) : Ready i false (l.flatMap (micros C)) := by
  induction l with
  | nil => trivial
  | cons a l ih => rw [List.flatMap_cons]; exact ready_micros hC a hi _ ih

theorem ready_look {n i : Nat} (l : List Nat) (q : Reading) : ∀ b, Ready i b (l.map Micro.load ++ [.answer q] : List (Micro n)) := by
  induction l with
  | nil => intro b; trivial
  | cons j l ih => intro b; exact ih _

/-- What counts for bit `i`, given its value at the start. -/
def ruling {n : Nat} (i : Nat) (d undone : Bool) (l : List (Seen n)) : Bool := ((counts (i / 8) undone l).findSome? (seenAsks i)).getD d

/-- The state as the log tells it. -/
def Told {n : Nat} (i : Nat) (d : Bool) (s : St n) : Prop :=
  s.mem.getLsbD i = ruling i d false s.log ∧ ∃ loaded, Ready i loaded s.todo ∧ (loaded = true → s.tmp.getLsbD i = ruling i d true s.log)

theorem told_step {W n : Nat} {C : Code n} (hC : Compiles C) {i : Nat} (hi : i < n) {d : Bool} {s s' : St n} {e : Ev n} (he : ∀ c, e = .handler c → Proper W c)
    (hs : step W C s e = .ok s') (ht : Told i d s) : Told i d s' := by
  obtain ⟨mem, tmp, todo, ans, log⟩ := s
  obtain ⟨hm, ld, hr, hl⟩ := ht
  simp only at hm hr hl
  cases e with
  | call c =>
    simp only [step] at hs
    cases ha : assigns W c with
    | ub => rw [ha] at hs; simp at hs
    | ok l =>
      rw [ha] at hs
      simp only [Res.bind_ok, Res.ok.injEq] at hs
      subst hs
      exact ⟨hm, false, ready_program hC hi _, by simp⟩
  | look q =>
    simp only [step, Res.ok.injEq] at hs
    subst hs
    exact ⟨hm, false, ready_look _ _ _, by simp⟩
  | handler c =>
    simp only [step] at hs
    cases hw : whole W mem c with
    | ub => rw [hw] at hs; simp at hs
    | ok b =>
      rw [hw] at hs
      simp only [Res.bind_ok, Res.ok.injEq] at hs
      subst hs
      refine ⟨?_, ld, hr, hl⟩
      simp only [whole_asks (he c rfl) hw hi, hm, ruling, counts, List.findSome?_cons, seenAsks]
      cases asks i c <;> rfl
  | main =>
    simp only [step] at hs
    cases todo with
    | nil => simp only [mainStep, Res.ok.injEq] at hs; subst hs; exact ⟨hm, ld, hr, hl⟩
    | cons x l =>
      cases x with
      | load j =>
        simp only [mainStep, Res.ok.injEq] at hs; subst hs
        by_cases e : j = i / 8
        · refine ⟨?_, true, by simpa [Ready, e] using hr, fun _ => ?_⟩
          · simp only [hm, ruling, counts]; simp
          · simp only [getLsbD_pick hi, if_pos e.symm, hm, ruling, counts, if_pos e]
        · have e' : ¬ i / 8 = j := fun x => e x.symm
          refine ⟨?_, ld, by simpa [Ready, e] using hr, fun h => ?_⟩
          · simp only [hm, ruling, counts]; simp
          · simp only [getLsbD_pick hi, if_neg e', hl h, ruling, counts, if_neg e]
      | store j a =>
        simp only [mainStep, Res.ok.injEq] at hs; subst hs
        by_cases e : j = i / 8
        · simp only [Ready, if_pos e] at hr
          refine ⟨?_, false, hr.2, by simp⟩
          simp only [getLsbD_pick hi, if_pos e.symm, BitVec.getLsbD_or, BitVec.getLsbD_and, ruling, counts, if_pos e, List.findSome?_cons, seenAsks]
          cases hp : a.put.getLsbD i with
          | true => simp
          | false =>
            cases hk : a.keep.getLsbD i with
            | false => simp
            | true =>
              rcases hr.1 with h | h
              · simpa [ruling] using hl h
              · rw [hk] at h; cases h
        · have e' : ¬ i / 8 = j := fun x => e x.symm
          refine ⟨?_, ld, by simpa [Ready, e] using hr, fun h => ?_⟩
          · simp only [getLsbD_pick hi, if_neg e', hm, ruling, counts, if_neg e]
          · simp only [hl h, ruling, counts, if_neg e]
      | answer q =>
        simp only [mainStep] at hs
        cases hq : evaluate W tmp q with
        | ub => rw [hq] at hs; simp at hs
        | ok a => rw [hq] at hs; simp only [Res.bind_ok, Res.ok.injEq] at hs; subst hs; exact ⟨hm, ld, hr, hl⟩

theorem told_run {W n : Nat} {C : Code n} (hC : Compiles C) {i : Nat} (hi : i < n) {d : Bool} (es : List (Ev n)) (he : ∀ c, .handler c ∈ es → Proper W c) : ∀ s s', Told i d s →
    run W C s es = .ok s' → Told i d s' := by
  induction es with
  | nil => intro s s' h hr; simp only [run, Res.ok.injEq] at hr; subst hr; exact h
  | cons e es ih =>
    intro s s' h hr
    cases hs : step W C s e with
    | ub => simp [run, hs] at hr
    | ok s1 =>
      simp only [run, hs, Res.bind_ok] at hr
      exact ih (fun c hc => he c (List.mem_cons_of_mem _ hc)) s1 s' (told_step hC hi (fun c hc => he c (by rw [hc]; exact List.mem_cons_self ..)) hs h) hr

theorem log_run {W n : Nat} {C : Code n} (es : List (Ev n)) : ∀ s s', run W C s es = .ok s' →
    (s'.log.filterMap fun | .handled c => some c | _ => none).reverse = (s.log.filterMap fun | .handled c => some c | _ => none).reverse ++ es.filterMap fun | .handler c => some c | _ => none := by
  induction es with
  | nil => intro s s' hr; simp only [run, Res.ok.injEq] at hr; subst hr; simp
  | cons e es ih =>
    intro s s' hr
    cases hs : step W C s e with
    | ub => simp [run, hs] at hr
    | ok s1 =>
      simp only [run, hs, Res.bind_ok] at hr
      rw [ih s1 s' hr]
      obtain ⟨mem, tmp, todo, ans, log⟩ := s
      cases e with
      | call c =>
        simp only [step] at hs
        cases ha : assigns W c with
        | ub => rw [ha] at hs; simp at hs
        | ok l => rw [ha] at hs; simp only [Res.bind_ok, Res.ok.injEq] at hs; subst hs; simp
      | look q => simp only [step, Res.ok.injEq] at hs; subst hs; simp
      | handler c =>
        simp only [step] at hs
        cases hw : whole W mem c with
        | ub => rw [hw] at hs; simp at hs
        | ok b => rw [hw] at hs; simp only [Res.bind_ok, Res.ok.injEq] at hs; subst hs; simp
      | main =>
        simp only [step] at hs
        cases todo with
        | nil => simp only [mainStep, Res.ok.injEq] at hs; subst hs; simp
        | cons x l =>
          cases x with
          | load j => simp only [mainStep, Res.ok.injEq] at hs; subst hs; simp
          | store j a => simp only [mainStep, Res.ok.injEq] at hs; subst hs; simp
          | answer q =>
            simp only [mainStep] at hs
            cases hq : evaluate W tmp q with
            | ub => rw [hq] at hs; simp at hs
            | ok a => rw [hq] at hs; simp only [Res.bind_ok, Res.ok.injEq] at hs; subst hs; simp

/-! ### Proofs: inside one call -/

/-- An assignment that does nothing to bit `i`. -/
def Idle {n : Nat} (i : Nat) (a : Assign n) : Prop := a.keep.getLsbD i = true ∧ a.put.getLsbD i = false

theorem idle_of_foldl {n i : Nat} (l : List (Assign n)) (h : ∀ v, l.foldl (bitApply i) v = v) : ∀ a ∈ l, Idle i a := by
  have const : ∀ (l : List (Assign n)) (v w : Bool), l.foldl (bitApply i) v ≠ l.foldl (bitApply i) w → v ≠ w := by
    intro l v w h e; subst e; exact h rfl
  have any : ∀ (l : List (Assign n)), l.foldl (bitApply i) true ≠ l.foldl (bitApply i) false → (∀ a ∈ l, Idle i a) := by
    intro l
    induction l with
    | nil => intro _ a ha; simp at ha
    | cons x l ih =>
      intro hne
      have h1 := const l _ _ hne
      have hx : Idle i x := by
        unfold Idle
        revert h1
        simp only [bitApply]
        cases x.keep.getLsbD i <;> cases x.put.getLsbD i <;> decide
      intro a ha
      rcases List.mem_cons.1 ha with rfl | ha
      · exact hx
      · refine ih ?_ a ha
        have e : ∀ v, bitApply i v x = v := by intro v; simp [bitApply, hx.1, hx.2]
        simpa [e] using hne
  exact any l (by rw [h, h]; decide)

theorem mem_micros {n : Nat} {C : Code n} {a : Assign n} {x : Micro n} (h : x ∈ micros C a) : (∃ j, x = .load j) ∨ ∃ j, x = .store j a := by
  unfold micros at h
  obtain ⟨y, -, hy⟩ := List.mem_map.1 h
  cases y with
  | load j => exact .inl ⟨j, hy.symm⟩
  | store j => exact .inr ⟨j, hy.symm⟩

/-- Bit `i` stays `v`. -/
def Steady {n : Nat} (i : Nat) (v : Bool) (s : St n) : Prop :=
  s.mem.getLsbD i = v ∧ (∀ j a, .store j a ∈ s.todo → Idle i a) ∧ ∃ loaded, Ready i loaded s.todo ∧ (loaded = true → s.tmp.getLsbD i = v)

theorem steady_step {W n : Nat} {C : Code n} {i : Nat} (hi : i < n) {v : Bool} {s s' : St n} {e : Ev n} (he : e = .main ∨ ∃ c, e = .handler c ∧ (Proper W c ∧ asks i c = none))
    (hs : step W C s e = .ok s') (ht : Steady i v s) : Steady i v s' := by
  obtain ⟨mem, tmp, todo, ans, log⟩ := s
  obtain ⟨hm, ha, ld, hr, hl⟩ := ht
  simp only at hm ha hr hl
  rcases he with rfl | ⟨c, rfl, hp, hn⟩
  · simp only [step] at hs
    cases todo with
    | nil => simp only [mainStep, Res.ok.injEq] at hs; subst hs; exact ⟨hm, ha, ld, hr, hl⟩
    | cons x l =>
      have ha' : ∀ j a, Micro.store j a ∈ l → Idle i a := fun j a h => ha j a (List.mem_cons_of_mem _ h)
      cases x with
      | load j =>
        simp only [mainStep, Res.ok.injEq] at hs; subst hs
        by_cases e : j = i / 8
        · exact ⟨hm, ha', true, by simpa [Ready, e] using hr, fun _ => by simp only [getLsbD_pick hi, if_pos e.symm, hm]⟩
        · have e' : ¬ i / 8 = j := fun x => e x.symm
          exact ⟨hm, ha', ld, by simpa [Ready, e] using hr, fun h => by simp only [getLsbD_pick hi, if_neg e', hl h]⟩
      | store j a =>
        simp only [mainStep, Res.ok.injEq] at hs; subst hs
        have hid := ha j a (List.mem_cons_self ..)
        by_cases e : j = i / 8
        · simp only [Ready, if_pos e] at hr
          refine ⟨?_, ha', false, hr.2, by simp⟩
          rcases hr.1 with h | h
          · simp only [getLsbD_pick hi, if_pos e.symm, BitVec.getLsbD_or, BitVec.getLsbD_and, hid.1, hid.2, hl h]; simp
          · rw [hid.1] at h; cases h
        · have e' : ¬ i / 8 = j := fun x => e x.symm
          exact ⟨by simp only [getLsbD_pick hi, if_neg e', hm], ha', ld, by simpa [Ready, e] using hr, hl⟩
      | answer q =>
        simp only [mainStep] at hs
        cases hq : evaluate W tmp q with
        | ub => rw [hq] at hs; simp at hs
        | ok a => rw [hq] at hs; simp only [Res.bind_ok, Res.ok.injEq] at hs; subst hs; exact ⟨hm, ha', ld, hr, hl⟩
  · simp only [step] at hs
    cases hw : whole W mem c with
    | ub => rw [hw] at hs; simp at hs
    | ok b =>
      rw [hw] at hs
      simp only [Res.bind_ok, Res.ok.injEq] at hs
      subst hs
      refine ⟨?_, ha, ld, hr, hl⟩
      simp only [whole_asks hp hw hi, hn, Option.getD_none, hm]

theorem steady_run {W n : Nat} {C : Code n} {i : Nat} (hi : i < n) {v : Bool} (es : List (Ev n)) (he : Inside (fun c => Proper W c ∧ asks i c = none) es) : ∀ s s', Steady i v s →
    run W C s es = .ok s' → Steady i v s' := by
  induction es with
  | nil => intro s s' h hr; simp only [run, Res.ok.injEq] at hr; subst hr; exact h
  | cons e es ih =>
    intro s s' h hr
    cases hs : step W C s e with
    | ub => simp [run, hs] at hr
    | ok s1 =>
      simp only [run, hs, Res.bind_ok] at hr
      exact ih (fun e he' => he e (List.mem_cons_of_mem _ he')) s1 s' (steady_step hi (he e (List.mem_cons_self ..)) hs h) hr

/-- Main code's stores of byte `j`. -/
def stores {n : Nat} (j : Nat) (l : List (Micro n)) : Nat := l.countP fun | .store k _ => k == j | _ => false

theorem stores_micros {n : Nat} {C : Code n} (hC : Compiles C) (a : Assign n) (j : Nat) : stores j (micros C a) ≤ 1 := by
  have h0 : stores j (micros C a) = stores j ((micros C a).filter (onByte j)) := by
    unfold stores
    rw [List.countP_filter]
    apply List.countP_congr
    intro x _
    cases x <;> simp [onByte]
  rw [h0, filter_micros]
  rcases hC.order a j with h | ⟨h, hk⟩ | ⟨h, hk⟩ <;> rw [h] <;> simp [stores]

theorem stores_free {n j : Nat} {l : List (Micro n)} (h : stores j l = 0) : ¬ Storing j l := by
  rintro ⟨a, ha⟩
  unfold stores at h
  rw [List.countP_eq_zero] at h
  exact h _ ha (by simp)

/-- Bit `i` is `v` or what it will be. -/
def Between {n : Nat} (i : Nat) (v w : Bool) (s : St n) : Prop :=
  (s.mem.getLsbD i = v ∨ s.mem.getLsbD i = w) ∧ (exec i (s.mem.getLsbD i, s.tmp.getLsbD i) s.todo).1 = w ∧ stores (i / 8) s.todo ≤ 1

theorem between_step {W n : Nat} {C : Code n} {i : Nat} (hi : i < n) {v w : Bool} {s s' : St n} {e : Ev n} (he : e = .main ∨ ∃ c, e = .handler c ∧ (Proper W c ∧ asks i c = none))
    (hs : step W C s e = .ok s') (ht : Between i v w s) : Between i v w s' := by
  obtain ⟨h1, h2, h3⟩ := ht
  rcases he with rfl | ⟨c, rfl, hp, hn⟩
  · have h4 := mainStep_bit hs hi
    have h2' : (exec i (s'.mem.getLsbD i, s'.tmp.getLsbD i) s'.todo).1 = w := by rw [h4, h2]
    obtain ⟨mem, tmp, todo, ans, log⟩ := s
    simp only [step] at hs
    cases todo with
    | nil => simp only [mainStep, Res.ok.injEq] at hs; subst hs; exact ⟨h1, h2', h3⟩
    | cons x l =>
      cases x with
      | load j =>
        simp only [mainStep, Res.ok.injEq] at hs; subst hs
        exact ⟨h1, h2', by simpa [stores] using h3⟩
      | store j a =>
        simp only [mainStep, Res.ok.injEq] at hs; subst hs
        by_cases e : j = i / 8
        · subst e
          have h0 : stores (i / 8) l = 0 := by
            unfold stores at h3 ⊢
            rw [List.countP_cons_of_pos (by simp)] at h3
            omega
          refine ⟨.inr ?_, h2', by simp only [h0]; omega⟩
          simp only at h2'
          rw [exec_free _ _ (stores_free h0)] at h2'
          exact h2'
        · have e' : ¬ i / 8 = j := fun x => e x.symm
          refine ⟨?_, h2', ?_⟩
          · simpa only [getLsbD_pick hi, if_neg e'] using h1
          · unfold stores at h3 ⊢
            rw [List.countP_cons_of_neg (by simp [e])] at h3
            exact h3
      | answer q =>
        simp only [mainStep] at hs
        cases hq : evaluate W tmp q with
        | ub => rw [hq] at hs; simp at hs
        | ok a =>
          rw [hq] at hs; simp only [Res.bind_ok, Res.ok.injEq] at hs; subst hs
          exact ⟨h1, h2', by simpa [stores] using h3⟩
  · simp only [step] at hs
    cases hw : whole W s.mem c with
    | ub => rw [hw] at hs; simp at hs
    | ok b =>
      rw [hw] at hs
      simp only [Res.bind_ok, Res.ok.injEq] at hs
      subst hs
      have hb := whole_asks hp hw hi
      rw [hn, Option.getD_none] at hb
      simp only [Between, hb]
      exact ⟨h1, h2, h3⟩

theorem between_run {W n : Nat} {C : Code n} {i : Nat} (hi : i < n) {v w : Bool} (es : List (Ev n)) (he : Inside (fun c => Proper W c ∧ asks i c = none) es) : ∀ s s', Between i v w s →
    run W C s es = .ok s' → Between i v w s' := by
  induction es with
  | nil => intro s s' h hr; simp only [run, Res.ok.injEq] at hr; subst hr; exact h
  | cons e es ih =>
    intro s s' h hr
    cases hs : step W C s e with
    | ub => simp [run, hs] at hr
    | ok s1 =>
      simp only [run, hs, Res.bind_ok] at hr
      exact ih (fun e he' => he e (List.mem_cons_of_mem _ he')) s1 s' (between_step hi (he e (List.mem_cons_self ..)) hs h) hr

/-- A call with one assignment. -/
def Single {n : Nat} : Call n → Prop
  | .put _ v => v = false
  | .field _ _ _ => False
  | _ => True

theorem joined_single {W n : Nat} {c : Call n} {l : List (Assign n)} (h : assigns W c = .ok l) {join : Bool} (hj : join = true ∨ Single c) : (joined join l).length ≤ 1 := by
  have two : l.length ≤ 2 ∧ (Single c → l.length ≤ 1) := by
    cases c with
    | set k => simp only [assigns] at h; split at h
               · cases h; simp
               · cases hm : shlOne W k with
                 | ub => rw [hm] at h; cases h
                 | ok m => rw [hm] at h; cases h; simp
    | put k v => simp only [assigns] at h; split at h
                 · cases h; simp
                 · cases hm : shlOne W k with
                   | ub => rw [hm] at h; cases h
                   | ok m => rw [hm] at h; cases h; cases v <;> simp [Single]
    | reset k => simp only [assigns] at h; split at h
                 · cases h; simp
                 · cases hm : shlOne W k with
                   | ub => rw [hm] at h; cases h
                   | ok m => rw [hm] at h; cases h; simp
    | field k v cnt =>
      refine ⟨?_, fun h => h.elim⟩
      simp only [assigns] at h; split at h
      · cases h; simp
      · cases hm : shlT W (BitArray.createMask n cnt) k with
        | ub => rw [hm] at h; cases h
        | ok m =>
          rw [hm] at h
          cases hv : shlT W (v &&& BitArray.createMask n cnt) k with
          | ub => simp only [Res.bind_ok, hv] at h; cases h
          | ok w => simp only [Res.bind_ok, hv] at h; cases h; simp
    | all v => cases h; simp
    | clear => cases h; simp
  match l, two with
  | [], _ => simp [joined]
  | [a], _ => simp [joined]
  | [a, b], t =>
    rcases hj with rfl | hj
    · simp [joined]
    · exact absurd (t.2 hj) (by simp)
  | a :: b :: c :: l, t => exact absurd t.1 (by simp)

/-! ### Proofs: readings -/

theorem run_idle {W n : Nat} {C : Code n} {P : Call n → Prop} (es : List (Ev n)) (he : Inside P es) : ∀ s s', s.todo = [] → run W C s es = .ok s' → s'.answers = s.answers := by
  induction es with
  | nil => intro s s' _ hr; simp only [run, Res.ok.injEq] at hr; subst hr; rfl
  | cons e es ih =>
    intro s s' h hr
    have he' : Inside P es := fun e he' => he e (List.mem_cons_of_mem _ he')
    cases hs : step W C s e with
    | ub => simp [run, hs] at hr
    | ok s1 =>
      simp only [run, hs, Res.bind_ok] at hr
      obtain ⟨mem, tmp, todo, ans, log⟩ := s
      simp only at h
      subst h
      rcases he e (List.mem_cons_self ..) with rfl | ⟨c, rfl, -⟩
      · simp only [step, mainStep, Res.ok.injEq] at hs; subst hs; exact ih he' _ _ rfl hr
      · simp only [step] at hs
        cases hw : whole W mem c with
        | ub => rw [hw] at hs; simp at hs
        | ok b =>
          rw [hw] at hs
          simp only [Res.bind_ok, Res.ok.injEq] at hs
          subst hs
          exact ih he' ⟨b, tmp, [], ans, .handled c :: log⟩ s' rfl hr

theorem run_look {W n : Nat} {C : Code n} {P : Call n → Prop} {q : Reading} (es : List (Ev n)) (he : Inside P es) : ∀ (ls : List Nat) (s s' : St n),
    s.todo = ls.map Micro.load ++ [.answer q] → run W C s es = .ok s' → s'.todo = [] → ∃ t a, evaluate W t q = .ok a ∧ s'.answers = s.answers ++ [a] ∧
      ∀ j, (j ∈ ls → ∃ es1 es2 s1, es = es1 ++ es2 ∧ run W C s es1 = .ok s1 ∧ ∀ i, i < n → i / 8 = j → t.getLsbD i = s1.mem.getLsbD i) ∧
        (j ∉ ls → ∀ i, i < n → i / 8 = j → t.getLsbD i = s.tmp.getLsbD i) := by
  induction es with
  | nil =>
    intro ls s s' h hr h0
    simp only [run, Res.ok.injEq] at hr; subst hr
    rw [h] at h0; simp at h0
  | cons e es ih =>
    intro ls s s' h hr h0
    have he' : Inside P es := fun e he' => he e (List.mem_cons_of_mem _ he')
    cases hs : step W C s e with
    | ub => simp [run, hs] at hr
    | ok s1 =>
      have hr0 := hr
      simp only [run, hs, Res.bind_ok] at hr
      have lift : ∀ es1 s2, run W C s1 es1 = .ok s2 → run W C s (e :: es1) = .ok s2 := by
        intro es1 s2 h; simp only [run, hs, Res.bind_ok, h]
      obtain ⟨mem, tmp, todo, ans, log⟩ := s
      simp only at h
      subst h
      rcases he e (List.mem_cons_self ..) with rfl | ⟨c, rfl, -⟩
      · cases ls with
        | nil =>
          simp only [step, mainStep, List.map_nil, List.nil_append] at hs
          cases hq : evaluate W tmp q with
          | ub => rw [hq] at hs; simp at hs
          | ok a =>
            rw [hq] at hs; simp only [Res.bind_ok, Res.ok.injEq] at hs; subst hs
            refine ⟨tmp, a, hq, run_idle es he' _ _ rfl hr, fun j => ⟨by simp, fun _ _ _ _ => rfl⟩⟩
        | cons j0 ls =>
          simp only [step, mainStep, List.map_cons, List.cons_append, Res.ok.injEq] at hs
          subst hs
          obtain ⟨t, a, h1, h2, h3⟩ := ih he' ls _ _ rfl hr h0
          refine ⟨t, a, h1, h2, fun j => ?_⟩
          by_cases hj : j ∈ ls
          · refine ⟨fun _ => ?_, fun hn => absurd (List.mem_cons_of_mem _ hj) hn⟩
            obtain ⟨es1, es2, s1, g1, g2, g3⟩ := (h3 j).1 hj
            exact ⟨.main :: es1, es2, s1, by rw [g1]; rfl, lift _ _ g2, g3⟩
          · have h4 := (h3 j).2 hj
            by_cases e : j = j0
            · subst e
              refine ⟨fun _ => ⟨[], .main :: es, _, rfl, rfl, fun i hi hij => ?_⟩, fun hn => absurd (List.mem_cons_self ..) hn⟩
              rw [h4 i hi hij]
              simp only [getLsbD_pick hi, if_pos hij]
            · refine ⟨fun hm => ?_, fun _ i hi hij => ?_⟩
              · rcases List.mem_cons.1 hm with hm | hm
                · exact absurd hm e
                · exact absurd hm hj
              · rw [h4 i hi hij]
                simp only [getLsbD_pick hi]
                rw [if_neg (by omega)]
      · simp only [step] at hs
        cases hw : whole W mem c with
        | ub => rw [hw] at hs; simp at hs
        | ok b =>
          rw [hw] at hs
          simp only [Res.bind_ok, Res.ok.injEq] at hs
          subst hs
          obtain ⟨t, a, h1, h2, h3⟩ := ih he' ls _ _ rfl hr h0
          refine ⟨t, a, h1, h2, fun j => ⟨fun hj => ?_, (h3 j).2⟩⟩
          obtain ⟨es1, es2, s1, g1, g2, g3⟩ := (h3 j).1 hj
          exact ⟨.handler c :: es1, es2, s1, by rw [g1]; rfl, lift _ _ g2, g3⟩

/-- A reading depends on the bits it is about only. -/
theorem evaluate_congr {W n : Nat} {q : Reading} (hq : Readable W n q) {t m : BitVec n} (h : ∀ i, i < n → concerns n i q → t.getLsbD i = m.getLsbD i) : evaluate W t q = evaluate W m q := by
  cases q with
  | bit k =>
    by_cases hk : k < n
    · have h1 := (c06_single_bit_partial W t k hk (hq hk)).2.2.2.1
      have h2 := (c06_single_bit_partial W m k hk (hq hk)).2.2.2.1
      simp only [evaluate, h1, h2, h k hk rfl]
    · simp only [evaluate, (c06_invalid_index W t k (by omega)).2.2.2.1, (c06_invalid_index W m k (by omega)).2.2.2.1]
  | noBit k =>
    by_cases hk : k < n
    · have h1 := (c06_single_bit_partial W t k hk (hq hk)).2.2.2.2
      have h2 := (c06_single_bit_partial W m k hk (hq hk)).2.2.2.2
      simp only [evaluate, h1, h2, h k hk rfl]
    · simp only [evaluate, (c06_invalid_index W t k (by omega)).2.2.2.2, (c06_invalid_index W m k (by omega)).2.2.2.2]
  | field k cnt =>
    by_cases hk : k + cnt ≤ n
    · obtain ⟨r, h1, h1'⟩ := c05_get_field W t k cnt hk (hq hk)
      obtain ⟨r', h2, h2'⟩ := c05_get_field W m k cnt hk (hq hk)
      have e : r = r' := by
        apply BitVec.eq_of_getLsbD_eq
        intro i hi
        rw [h1' i hi, h2' i hi]
        by_cases hc : i < cnt
        · rw [h (k + i) (by omega) ⟨hk, by omega, by omega⟩]
        · simp [hc]
      simp only [evaluate, h1, h2, e]
    · simp only [evaluate, (c05_reject W t 0 k cnt hk).2, (c05_reject W m 0 k cnt hk).2]
  | all =>
    have e : t = m := BitVec.eq_of_getLsbD_eq (fun i hi => h i hi trivial)
    rw [e]

end SharedBits

open SharedBits

/-- **C149.** For every history whatsoever, every bit at every moment: it is what was last asked of it, where the handlers' calls between main code's load and store of the byte do not count (they
    are undone by the store), and every other call does. -/
theorem c149_exact {W n : Nat} {C : Code n} (hC : Compiles C) (b : BitVec n) (es : List (Ev n)) (he : ∀ c, .handler c ∈ es → Proper W c) (s : St n) (h : run W C (St.init b) es = .ok s)
    {i : Nat} (hi : i < n) : s.mem.getLsbD i = ((counts (i / 8) false s.log).findSome? (seenAsks i)).getD (b.getLsbD i) :=
  (told_run hC hi es he (St.init b) s (show Told i (b.getLsbD i) (St.init b) from ⟨rfl, false, trivial, by simp⟩) h).1

/-- **C149, partial.** For every history in which handlers change bit `i` only while main code does not have to store the byte of this bit: when main code has nothing left to store, the bit is
    what the last call asked, of main code or of a handler.  Handlers may change any other bits, of the same byte too, at any moment.  In full (false, `c149_lost_fails`): handlers change any bits
    at any moment. -/
theorem c149_last_partial {W n : Nat} {C : Code n} (hC : Compiles C) (b : BitVec n) (es : List (Ev n)) (s : St n) {i : Nat} (hi : i < n) (hf : Careful W C i (St.init b) es)
    (h : run W C (St.init b) es = .ok s) (hs : ¬ Storing (i / 8) s.todo) : s.mem.getLsbD i = ((es.filterMap (evAsks i)).getLast?).getD (b.getLsbD i) := by
  have h1 := careful_exec hC hi es _ _ hf h
  rw [exec_free _ _ hs] at h1
  exact h1

/-- **C149.** The log of `c149_exact` has the handlers' calls, all and in order. -/
theorem c149_log {W n : Nat} {C : Code n} (b : BitVec n) (es : List (Ev n)) (s : St n) (h : run W C (St.init b) es = .ok s) :
    (s.log.filterMap fun | .handled c => some c | _ => none).reverse = es.filterMap fun | .handler c => some c | _ => none := by
  simpa [St.init] using log_run es _ _ h

/-- **C149.** While main code makes a call that does not ask anything of bit `i`, and handlers do not either, a handler finds the bit unchanged at every moment, whatever the handlers do to the others. -/
theorem c149_undisturbed {W n : Nat} {C : Code n} (hC : Compiles C) (c : Call n) (hp : Proper W c) {i : Nat} (hi : i < n) (hc : asks i c = none) (es : List (Ev n))
    (he : Inside (fun c => Proper W c ∧ asks i c = none) es) (s s' : St n) (h : run W C s (.call c :: es) = .ok s') : s'.mem.getLsbD i = s.mem.getLsbD i := by
  cases ha : assigns W c with
  | ub => simp [run, step, ha] at h
  | ok l =>
    simp only [run, step, ha, Res.bind_ok] at h
    refine (steady_run hi es he _ s' ⟨rfl, ?_, false, ready_program hC hi _, by simp⟩ h).1
    intro j a hm
    obtain ⟨x, hx, hm⟩ := List.mem_flatMap.1 hm
    have hid := idle_of_foldl (i := i) (joined C.join l) (fun v => by rw [assigns_asks hp ha hi, hc]; rfl) x hx
    rcases mem_micros hm with ⟨k, e⟩ | ⟨k, e⟩
    · cases e
    · cases e; exact hid

/-- **C149, partial.** While main code makes a call with one assignment to `_bits` (or the compiler makes one of the two), a handler finds every bit as it was or as the call asks, at every moment.
    In full (false, `c149_glitch_fails`): for every call. -/
theorem c149_clean_partial {W n : Nat} {C : Code n} (hC : Compiles C) (c : Call n) (hp : Proper W c) (hj : C.join = true ∨ Single c) {i : Nat} (hi : i < n) (es : List (Ev n))
    (he : Inside (fun c => Proper W c ∧ asks i c = none) es) (s s' : St n) (h : run W C s (.call c :: es) = .ok s') :
    s'.mem.getLsbD i = s.mem.getLsbD i ∨ s'.mem.getLsbD i = (asks i c).getD (s.mem.getLsbD i) := by
  cases ha : assigns W c with
  | ub => simp [run, step, ha] at h
  | ok l =>
    simp only [run, step, ha, Res.bind_ok] at h
    have h1 := joined_single ha hj
    refine (between_run hi es he _ s' ⟨.inl rfl, ?_, ?_⟩ h).1
    · rw [exec_program hC hi, assigns_asks hp ha hi]
    · match hl : joined C.join l, h1 with
      | [], _ => simp [stores]
      | [a], _ => simpa using stores_micros hC a (i / 8)
      | a :: b :: l, t => exact absurd t (by simp)

/-- **C149.** A reading of main code: each byte of the bits it is about is as it was at some moment during the reading. -/
theorem c149_look {W n : Nat} {C : Code n} (hC : Compiles C) (q : Reading) (es : List (Ev n)) (he : Inside (fun _ => True) es) (s s' : St n)
    (h : run W C s (.look q :: es) = .ok s') (h0 : s'.todo = []) : ∃ t a, evaluate W t q = .ok a ∧ s'.answers = s.answers ++ [a] ∧
      ∀ k, k < n → concerns n k q → ∃ es1 es2 s1, es = es1 ++ es2 ∧ run W C s (.look q :: es1) = .ok s1 ∧ ∀ i, i < n → i / 8 = k / 8 → t.getLsbD i = s1.mem.getLsbD i := by
  simp only [run, step, Res.bind_ok] at h
  obtain ⟨t, a, h1, h2, h3⟩ := run_look es he _ _ _ rfl h h0
  refine ⟨t, a, h1, h2, fun k hk hc => ?_⟩
  obtain ⟨es1, es2, s1, g1, g2, g3⟩ := (h3 (k / 8)).1 (hC.look q k hk hc)
  exact ⟨es1, es2, s1, g1, by simpa only [run, step, Res.bind_ok] using g2, g3⟩

/-- **C149, partial.** A reading of main code about bits of one byte - one flag, for instance - gives what the bits were at one moment during the reading.  In full (false, `c149_torn_fails`): for
    every reading. -/
theorem c149_look_partial {W n : Nat} {C : Code n} (hC : Compiles C) (q : Reading) (hq : Readable W n q) (k : Nat) (hk : k < n ∧ concerns n k q)
    (hb : ∀ i, i < n → concerns n i q → i / 8 = k / 8) (es : List (Ev n)) (he : Inside (fun _ => True) es) (s s' : St n) (h : run W C s (.look q :: es) = .ok s') (h0 : s'.todo = []) :
    ∃ es1 es2 s1 a, es = es1 ++ es2 ∧ run W C s (.look q :: es1) = .ok s1 ∧ evaluate W s1.mem q = .ok a ∧ s'.answers = s.answers ++ [a] := by
  obtain ⟨t, a, h1, h2, h3⟩ := c149_look hC q es he s s' h h0
  obtain ⟨es1, es2, s1, g1, g2, g3⟩ := h3 k hk.1 hk.2
  refine ⟨es1, es2, s1, a, g1, g2, ?_, h2⟩
  rw [← h1]
  exact (evaluate_congr hq (fun i hi hc => g3 i hi (hb i hi hc))).symm

/-- **C149.** Without handlers a call of main code does what the method does (`whole`: C05, C06). -/
theorem c149_alone {W n : Nat} {C : Code n} (hC : Compiles C) (c : Call n) (k : Nat) (s s' : St n) (h : run W C s (.call c :: List.replicate k .main) = .ok s') (h0 : s'.todo = []) :
    whole W s.mem c = .ok s'.mem := by
  cases ha : assigns W c with
  | ub => simp [run, step, ha] at h
  | ok l =>
    simp only [run, step, ha, Res.bind_ok] at h
    rw [whole_assigns, ha, Res.bind_ok, ← foldl_joined C.join]
    congr 1
    apply BitVec.eq_of_getLsbD_eq
    intro i hi
    rw [foldl_apply, ← exec_program hC hi (joined C.join l) (s.mem.getLsbD i, s.tmp.getLsbD i)]
    generalize hs : (⟨s.mem, s.tmp, (joined C.join l).flatMap (micros C), s.answers, s.log⟩ : St n) = s0 at h
    have e0 : (exec i (s.mem.getLsbD i, s.tmp.getLsbD i) ((joined C.join l).flatMap (micros C))).1 = (exec i (s0.mem.getLsbD i, s0.tmp.getLsbD i) s0.todo).1 := by rw [← hs]
    rw [e0]
    clear hs e0
    induction k generalizing s0 with
    | zero => simp only [List.replicate, run, Res.ok.injEq] at h; subst h; rw [h0]; rfl
    | succ k ih =>
      cases hm : mainStep W s0 with
      | ub => simp [List.replicate, run, step, hm] at h
      | ok s1 =>
        simp only [List.replicate, run, step, hm, Res.bind_ok] at h
        rw [← mainStep_bit hm hi]
        exact ih s1 h

/-! ### Where it fails -/

namespace SharedBits

/-- A compiler that loads `k` bytes, then stores them. -/
def plainCode {n : Nat} (k : Nat) (join : Bool) : Code n := ⟨join, fun _ => (List.range k).map .load ++ (List.range k).map .store, fun _ => List.range k⟩

theorem range_filter (k j : Nat) : (List.range k).filter (fun x => x == j) = if j < k then [j] else [] := by
  induction k with
  | zero => rfl
  | succ k ih =>
    rw [List.range_succ, List.filter_append, ih]
    by_cases h : k = j
    · subst h; simp
    · by_cases h1 : j < k
      · have h2 : j < k + 1 := by omega
        simp [h, h1, h2]
      · have h2 : ¬ j < k + 1 := by omega
        simp [h, h1, h2]

theorem compiles_plain {n k : Nat} (h : n ≤ 8 * k) (join : Bool) : Compiles (plainCode k join : Code n) := by
  refine ⟨fun a j => ?_, fun q i hi _ => ?_⟩
  · have f : ((plainCode k join : Code n).order a).filter (fun x => x.byte == j) = if j < k then [.load j, .store j] else [] := by
      have e1 : ((fun x : Access => x.byte == j) ∘ Access.load) = (fun x => x == j) := rfl
      have e2 : ((fun x : Access => x.byte == j) ∘ Access.store) = (fun x => x == j) := rfl
      simp only [plainCode, List.filter_append, List.filter_map, e1, e2, range_filter]
      by_cases hj : j < k <;> simp [hj]
    rw [f]
    by_cases hj : j < k
    · exact .inl (by simp [hj])
    · exact .inr (.inr ⟨by simp [hj], fun i hi hij => by omega⟩)
  · simp only [plainCode, List.mem_range]; omega

/-- `_bits` after a history from `b`. -/
def bitsAfter {n : Nat} (C : Code n) (b : BitVec n) (es : List (Ev n)) : Res (BitVec n) := do let s ← run 16 C (St.init b) es; .ok s.mem
/-- Main code's readings. -/
def readingsOf {n : Nat} (C : Code n) (b : BitVec n) (es : List (Ev n)) : Res (List (Ans n)) := do let s ← run 16 C (St.init b) es; .ok s.answers

/-- A compiler for two bytes that accesses only the bytes an assignment changes. -/
def thriftyCode : Code 16 :=
  ⟨true, fun a => [0, 1].flatMap fun j => if ∀ i : Fin 16, i.1 / 8 = j → a.keep.getLsbD i = true ∧ a.put.getLsbD i = false then [] else [.load j, .store j], fun _ => [0, 1]⟩

end SharedBits
open SharedBits

/-- **C149 fails**: main code sets flag 0; a handler between the load and the store sets flag 3, and flag 3 is not set.  With a word of two bytes that are loaded and stored together a flag of the other
    byte is lost too; not if the compiler accesses only the byte that changes. -/
theorem c149_lost_fails :
    bitsAfter (plainCode 1 true) (0 : BitVec 8) [.call (.set 0), .main, .handler (.set 3), .main] = .ok 1 ∧
    bitsAfter (plainCode 2 true) (0 : BitVec 16) [.call (.set 0), .main, .main, .handler (.set 12), .main, .main] = .ok 1 ∧
    bitsAfter thriftyCode (0 : BitVec 16) [.call (.set 0), .main, .handler (.set 12), .main] = .ok 0x1001 := by
  refine ⟨?_, ?_, ?_⟩ <;> decide +kernel

/-- **C149 fails**: `Set(0, true)` on a flag that is true: a handler after the first of the two assignments finds false; and in `Set(0, 3, 2)` on bits with the value 2 the value 0. -/
theorem c149_glitch_fails :
    bitsAfter (plainCode 1 false) (1 : BitVec 8) [.call (.put 0 true), .main, .main] = .ok 0 ∧
    bitsAfter (plainCode 1 false) (1 : BitVec 8) [.call (.put 0 true), .main, .main, .main, .main] = .ok 1 ∧
    bitsAfter (plainCode 1 false) (2 : BitVec 8) [.call (.field 0 3 2), .main, .main] = .ok 0 := by
  refine ⟨?_, ?_, ?_⟩ <;> decide +kernel

/-- **C149 fails**: a handler changes the word from 0x00FF to 0x0100 between main code's two loads, and main code reads 0x01FF, which it never was. -/
theorem c149_torn_fails :
    readingsOf (plainCode 2 true) (0x00FF : BitVec 16) [.look .all, .main, .handler (.all 0x0100), .main, .main] = .ok [.word 0x01FF] ∧
    readingsOf (plainCode 2 true) (0x00FF : BitVec 16) [.look (.field 4 8), .main, .handler (.all 0x0100), .main, .main] = .ok [.word 0x1F] := by
  refine ⟨?_, ?_⟩ <;> decide +kernel

/-- **C149.** The claim in full, for handlers at any place, is false. -/
theorem c149_full_claim_is_false : ¬ ∀ (C : Code 8), Compiles C → ∀ (b : BitVec 8) (es : List (Ev 8)) (s : St 8), (∀ c, .handler c ∈ es ∨ .call c ∈ es → Proper 16 c) →
    run 16 C (St.init b) es = .ok s → s.todo = [] → ∀ i, i < 8 → s.mem.getLsbD i = ((es.filterMap (evAsks i)).getLast?).getD (b.getLsbD i) := by
  intro h
  have h1 := h (plainCode 1 true) (compiles_plain (by decide) true) 0 [.call (.set 0), .main, .handler (.set 3), .main] _ (by
    intro c hc
    simp only [List.mem_cons, List.not_mem_nil, or_false, reduceCtorEq, false_or, or_self, Ev.handler.injEq, Ev.call.injEq] at hc
    rcases hc with rfl | rfl <;> exact fun _ => .inl (by decide)) rfl rfl 3 (by decide)
  revert h1; decide +kernel

/-! ### Examples -/

-- Main code changes flags 0 and 1, a handler flag 3, in the middle of main code's calls and outside; flags 0 and 1 are right, and so is flag 3 after the call outside
example : Compiles (plainCode 1 false : Code 8) ∧
    bitsAfter (plainCode 1 false) (0 : BitVec 8) [.call (.put 0 true), .main, .handler (.set 3), .main, .main, .main, .handler (.set 3), .call (.set 1), .main, .main] = .ok 0xB := by
  exact ⟨compiles_plain (by decide) _, by decide +kernel⟩

example : Careful 16 (plainCode 1 true : Code 8) 3 (St.init 0) [.call (.set 0), .main, .main, .handler (.set 3)] := by
  refine ⟨⟨rfl, fun _ => .inl (by decide)⟩, ?_⟩
  rintro s ⟨⟩
  refine ⟨trivial, ?_⟩
  rintro s ⟨⟩
  refine ⟨trivial, ?_⟩
  rintro s ⟨⟩
  refine ⟨⟨fun _ => .inl (by decide), .inr ?_⟩, fun _ _ => trivial⟩
  rintro ⟨a, ha⟩
  simp at ha

-- `Set(0, true)` with a handler that sets flag 3 in the middle; flag 5 does not change, and flag 0 does not flicker if the assignments are joined
example : Inside (fun c => Proper 16 c ∧ asks 5 c = none) [.main, .handler (.set 3 : Call 8), .main] ∧ Inside (fun c => Proper 16 c ∧ asks 0 c = none) [.main, .handler (.set 3 : Call 8), .main] ∧
    Proper 16 (.put 0 true : Call 8) ∧ asks 5 (.put 0 true : Call 8) = none := by
  refine ⟨fun e he => ?_, fun e he => ?_, fun _ => .inl (by decide), rfl⟩ <;>
  · simp only [List.mem_cons, List.not_mem_nil, or_false] at he
    rcases he with rfl | rfl | rfl
    · exact .inl rfl
    · exact .inr ⟨_, rfl, fun _ => .inl (by decide), rfl⟩
    · exact .inl rfl
example : bitsAfter (plainCode 1 true) (0x21 : BitVec 8) [.call (.put 0 true), .main, .handler (.set 3), .main] = .ok 0x21 := by decide +kernel

-- A flag read while a handler sets it
example : Readable 16 16 (.bit 9) ∧ readingsOf (plainCode 2 true) (0 : BitVec 16) [.look (.bit 9), .main, .handler (.set 9), .main, .main] = .ok [.flag true] := by
  exact ⟨fun _ => .inl (by decide), by decide +kernel⟩

example : Compiles thriftyCode := by
  refine ⟨fun a j => ?_, fun q i hi _ => ?_⟩
  · have e : thriftyCode.order a = (if ∀ i : Fin 16, i.1 / 8 = 0 → a.keep.getLsbD i = true ∧ a.put.getLsbD i = false then [] else [.load 0, .store 0]) ++
        (if ∀ i : Fin 16, i.1 / 8 = 1 → a.keep.getLsbD i = true ∧ a.put.getLsbD i = false then [] else [.load 1, .store 1]) := by simp [thriftyCode]
    rw [e, List.filter_append]
    by_cases h0 : ∀ i : Fin 16, i.1 / 8 = 0 → a.keep.getLsbD i = true ∧ a.put.getLsbD i = false <;>
      by_cases h1 : ∀ i : Fin 16, i.1 / 8 = 1 → a.keep.getLsbD i = true ∧ a.put.getLsbD i = false
    all_goals
      first | rw [if_pos h0] | rw [if_neg h0]
      first | rw [if_pos h1] | rw [if_neg h1]
      have hj : j = 0 ∨ j = 1 ∨ 2 ≤ j := by omega
      rcases hj with rfl | rfl | hj
      · first
          | (refine .inl ?_; simp [Access.byte]; done)
          | (refine .inr (.inr ⟨?_, fun i hi hij => h0 ⟨i, hi⟩ hij⟩); simp [Access.byte]; done)
      · first
          | (refine .inl ?_; simp [Access.byte]; done)
          | (refine .inr (.inr ⟨?_, fun i hi hij => h1 ⟨i, hi⟩ hij⟩); simp [Access.byte]; done)
      · exact .inr (.inr ⟨by simp [Access.byte]; try omega, fun i hi hij => by omega⟩)
  · have h : i / 8 = 0 ∨ i / 8 = 1 := by omega
    rcases h with h | h <;> simp [thriftyCode, h]

end Atl.Props
