import Verif.Model.SharedData
import Verif.Props.CriticalSectionUse

/-! C157: a variable in a `Data` or `VolatileData` shared by main code and interrupt handlers. -/
namespace Atl.Props
open Atl.SharedData

namespace DataShared

/-! ### Specification -/

/-- Every byte is loaded, or stored, once; in `|=` and `&=` every byte is loaded once and later stored once. -/
structure Compiles {n : Nat} (C : Code n) : Prop where
  read : ∀ i, i ∈ C.read
  readOnce : C.read.Nodup
  put : ∀ i, i ∈ C.put
  putOnce : C.put.Nodup
  modify : ∀ i, C.modify.filter (fun a => a = .load i ∨ a = .store i) = [.load i, .store i]

/-- What handlers do to the variable in a history, and how often main code goes on. -/
def changes {n : Nat} (es : List (SharedData.Ev n)) : List (Op n) := es.filterMap fun | .handler o => some o | _ => none
def mains {n : Nat} (es : List (SharedData.Ev n)) : Nat := (es.filter fun | .main => true | _ => false).length

/-- The variable after some changes. -/
def after {n : Nat} (v : Bytes n) (os : List (Op n)) : Bytes n := os.foldl (fun v o => o.apply v) v

/-- The bytes in `l` from `a`, the others from `b`. -/
def mixed {n : Nat} (l : List (Fin n)) (a b : Bytes n) : Bytes n := fun i => if i ∈ l then a i else b i

/-- The bytes of a number, lowest first. -/
def bytesIn (n a : Nat) : Bytes n := fun i => BitVec.ofNat 8 (a / 256 ^ i.val)

/-- Main code reads; behind `k` of its accesses a handler stores `b`. -/
def readAround {n : Nat} (C : Code n) (k : Nat) (b : Bytes n) : List (SharedData.Ev n) :=
  .start .read :: List.replicate k .main ++ [.handler (.put b)] ++ List.replicate (C.read.length + 1 - k) .main

/-- Main code stores `b`; behind `k` of its accesses a handler reads. -/
def storeAround {n : Nat} (C : Code n) (k : Nat) (b : Bytes n) : List (SharedData.Ev n) :=
  .start (.change (.put b)) :: List.replicate k .main ++ [.peek] ++ List.replicate (C.put.length + 1 - k) .main

/-- The variable if every call were indivisible: its value, what main code reads, what handlers read. -/
def inOneGo {n : Nat} : Bytes n × List (Bytes n) × List (Bytes n) → List (SharedData.Ev n) → Bytes n × List (Bytes n) × List (Bytes n)
  | x, [] => x
  | (v, r, s), .start .read :: es => inOneGo (v, r ++ [v], s) es
  | (v, r, s), .start (.change o) :: es => inOneGo (o.apply v, r, s) es
  | x, .main :: es => inOneGo x es
  | (v, r, s), .handler o :: es => inOneGo (o.apply v, r, s) es
  | (v, r, s), .peek :: es => inOneGo (v, r, s ++ [v]) es

/-! ### Proofs -/

variable {n : Nat} {C : Code n}

theorem run_append' (l r : List (SharedData.Ev n)) : ∀ s : St n, run C s (l ++ r) = run C (run C s l) r := by
  induction l with
  | nil => intro s; rfl
  | cons e l ih => intro s; exact ih _

theorem after_snoc (v : Bytes n) (os : List (Op n)) (o : Op n) : after v (os ++ [o]) = o.apply (after v os) := by
  unfold after
  rw [List.foldl_append]; rfl

theorem apply_at (o : Op n) (v w : Bytes n) (i : Fin n) (h : v i = w i) : o.apply v i = o.apply w i := by
  cases o with
  | put => rfl
  | or m => simp only [Op.apply, h]
  | and m => simp only [Op.apply, h]

theorem mixed_nil (a b : Bytes n) : mixed [] a b = b := funext fun i => by simp [mixed]

/-- While main code reads. -/
theorem read_inv (v0 : Bytes n) (reads : List (Bytes n)) (es : List (SharedData.Ev n)) (hs : ∀ e ∈ es, ∀ c, e ≠ .start c) : ∀ (s : St n) (r : Bytes n) (l : List (Fin n)) (os : List (Op n)),
    s.pc = some ⟨.read, r, l.map .load⟩ → s.v = after v0 os → s.reads = reads → (∀ i ∉ l, ∃ p, p <+: os ∧ r i = after v0 p i) →
    (mains es ≤ l.length ∧ (run C s es).reads = reads) ∨
      (l.length < mains es ∧ ∃ r, (run C s es).reads = reads ++ [r] ∧ ∀ i, ∃ p, p <+: os ++ changes es ∧ r i = after v0 p i) := by
  induction es with
  | nil => intro s r l os h1 h2 h3 h4; exact .inl ⟨Nat.zero_le _, h3⟩
  | cons e es ih =>
    intro s r l os h1 h2 h3 h4
    have hs' : ∀ e ∈ es, ∀ c, e ≠ .start c := fun e he => hs e (by simp [he])
    cases e with
    | start c => exact absurd rfl (hs _ (by simp) c)
    | peek => exact ih hs' { s with seen := s.seen ++ [s.v] } r l os h1 h2 h3 h4
    | handler o =>
      have := ih hs' { s with v := o.apply s.v } r l (os ++ [o]) h1 (by rw [after_snoc, ← h2]) h3 fun i hi => by
        obtain ⟨p, p1, p2⟩ := h4 i hi
        exact ⟨p, p1.trans (List.prefix_append _ _), p2⟩
      have e1 : changes (.handler o :: es) = o :: changes es := rfl
      rw [List.append_assoc] at this
      rw [e1]
      exact this
    | main =>
      have e1 : changes (.main :: es) = changes es := rfl
      have e2 : mains (.main :: es) = mains es + 1 := by simp [mains]
      rw [e1, e2]
      cases l with
      | nil =>
        refine .inr ⟨Nat.succ_pos _, r, ?_, fun i => ?_⟩
        · have key : ∀ (es : List (SharedData.Ev n)) (s : St n), (∀ e ∈ es, ∀ c, e ≠ .start c) → s.pc = none → (run C s es).reads = s.reads := by
            intro es
            induction es with
            | nil => intro s _ _; rfl
            | cons e es ih =>
              intro s hs hp
              have hs' : ∀ e ∈ es, ∀ c, e ≠ .start c := fun e he => hs e (by simp [he])
              cases e with
              | start c => exact absurd rfl (hs _ (by simp) c)
              | peek => exact ih { s with seen := s.seen ++ [s.v] } hs' hp
              | handler o => exact ih { s with v := o.apply s.v } hs' hp
              | main =>
                show (run C (mainStep s) es).reads = _
                have : mainStep s = s := by unfold mainStep; rw [hp]
                rw [this]; exact ih s hs' hp
          show (run C (mainStep s) es).reads = _
          have : mainStep s = { s with pc := none, reads := s.reads ++ [r] } := by unfold mainStep; rw [h1]; rfl
          rw [this, key es _ hs' rfl, h3]
        · obtain ⟨p, p1, p2⟩ := h4 i (by simp)
          exact ⟨p, p1.trans (List.prefix_append _ _), p2⟩
      | cons a l =>
        have : mainStep s = { s with pc := some ⟨.read, SharedData.upd r a (s.v a), l.map .load⟩ } := by unfold mainStep; rw [h1]; rfl
        have := ih hs' { s with pc := some ⟨.read, SharedData.upd r a (s.v a), l.map .load⟩ } _ l os rfl h2 h3 fun i hi => by
          by_cases ha : i = a
          · subst ha
            exact ⟨os, List.prefix_refl _, by simp [SharedData.upd, h2]⟩
          · obtain ⟨p, p1, p2⟩ := h4 i (by simp [ha, hi])
            exact ⟨p, p1, by simp [SharedData.upd, ha, p2]⟩
        rename_i hm
        show (_ ∧ (run C (mainStep s) es).reads = _) ∨ (_ ∧ ∃ r, (run C (mainStep s) es).reads = _ ∧ _)
        rw [hm, List.length_cons]
        rcases this with ⟨k1, k2⟩ | ⟨k1, k2⟩
        · exact .inl ⟨by omega, k2⟩
        · exact .inr ⟨by omega, k2⟩

/-- Undisturbed loads. -/
theorem loads (l1 l2 : List (Fin n)) : ∀ (s : St n) (r : Bytes n), s.pc = some ⟨.read, r, (l1 ++ l2).map .load⟩ →
    run C s (List.replicate l1.length .main) = { s with pc := some ⟨.read, mixed l1 s.v r, l2.map .load⟩ } := by
  induction l1 with
  | nil => intro s r h; cases s; simp only at h; subst h; simp [run, mixed_nil]
  | cons a l1 ih =>
    intro s r h
    have hm : mainStep s = { s with pc := some ⟨.read, SharedData.upd r a (s.v a), (l1 ++ l2).map .load⟩ } := by unfold mainStep; rw [h]; rfl
    show run C (mainStep s) (List.replicate l1.length .main) = _
    rw [hm, ih _ _ rfl]
    congr 3
    funext i
    by_cases h1 : i ∈ l1 <;> by_cases h2 : i = a <;> simp [mixed, SharedData.upd, h1, h2]

/-- Undisturbed stores. -/
theorem stores (o : Op n) (l1 l2 : List (Fin n)) : ∀ (s : St n) (r : Bytes n), s.pc = some ⟨.change o, r, (l1 ++ l2).map .store⟩ →
    run C s (List.replicate l1.length .main) = { s with v := mixed l1 (o.apply r) s.v, pc := some ⟨.change o, r, l2.map .store⟩ } := by
  induction l1 with
  | nil => intro s r h; cases s; simp only at h; subst h; simp [run, mixed_nil]
  | cons a l1 ih =>
    intro s r h
    have hm : mainStep s = { s with v := SharedData.upd s.v a (o.apply r a), pc := some ⟨.change o, r, (l1 ++ l2).map .store⟩ } := by unfold mainStep; rw [h]; rfl
    show run C (mainStep s) (List.replicate l1.length .main) = _
    rw [hm, ih _ _ rfl]
    congr 1
    funext i
    by_cases h1 : i ∈ l1 <;> by_cases h2 : i = a <;> simp [mixed, SharedData.upd, h1, h2]

/-- Undisturbed loads before stores. -/
theorem loads' (o : Op n) (l1 : List (Fin n)) (rest : List (Access n)) : ∀ (s : St n) (r : Bytes n), s.pc = some ⟨.change o, r, l1.map .load ++ rest⟩ →
    run C s (List.replicate l1.length .main) = { s with pc := some ⟨.change o, mixed l1 s.v r, rest⟩ } := by
  induction l1 with
  | nil => intro s r h; cases s; simp only at h; subst h; simp [run, mixed_nil]
  | cons a l1 ih =>
    intro s r h
    have hm : mainStep s = { s with pc := some ⟨.change o, SharedData.upd r a (s.v a), l1.map .load ++ rest⟩ } := by unfold mainStep; rw [h]; rfl
    show run C (mainStep s) (List.replicate l1.length .main) = _
    rw [hm, ih _ _ rfl]
    congr 3
    funext i
    by_cases h1 : i ∈ l1 <;> by_cases h2 : i = a <;> simp [mixed, SharedData.upd, h1, h2]

theorem handlers (os : List (Op n)) : ∀ s : St n, run C s (os.map .handler) = { s with v := after s.v os } := by
  induction os with
  | nil => intro s; rfl
  | cons o os ih => intro s; exact ih _

theorem mixed_all {l : List (Fin n)} (h : ∀ i, i ∈ l) (a b : Bytes n) : mixed l a b = a := funext fun i => by simp [mixed, h i]

theorem mixed_mixed {l l' : List (Fin n)} (h : ∀ i, i ∈ l ++ l') (hn : (l ++ l').Nodup) (a b c : Bytes n) : mixed l' b (mixed l a c) = mixed l a b := by
  funext i
  have := h i
  rw [List.mem_append] at this
  have hd := (List.nodup_append.1 hn).2.2
  by_cases h1 : i ∈ l'
  · have : i ∉ l := fun h => hd i h i h1 rfl
    simp [mixed, h1, this]
  · simp [mixed, h1, this.resolve_right h1]

/-- Never torn, wherever the other access comes. -/
theorem never_mixed {l : List (Fin n)} (h : ∀ i, i ∈ l) (hn : l.Nodup) (a b : Bytes n) : (∀ k ≤ l.length, mixed (l.take k) a b = a ∨ mixed (l.take k) a b = b) ↔ ∀ i j, a i ≠ b i → a j ≠ b j → i = j := by
  constructor
  · intro hk
    -- the earlier of two bytes that differ, and the later
    have key : ∀ (p q : List (Fin n)) (i j : Fin n), l = p ++ i :: q → j ∈ q → a i ≠ b i → a j ≠ b j → False := by
      intro p q i j hl hj hi hj'
      have ht : l.take (p.length + 1) = p ++ [i] := by rw [hl, List.take_append, List.take_of_length_le (Nat.le_succ _)]; simp
      have hnj : j ∉ p ++ [i] := by
        intro hm
        rw [hl, show p ++ i :: q = (p ++ [i]) ++ q by simp] at hn
        exact (List.nodup_append.1 hn).2.2 j hm j hj rfl
      rcases hk (p.length + 1) (by rw [hl]; simp) with h1 | h1
      · have := congrFun h1 j
        rw [ht] at this
        simp only [mixed, if_neg hnj] at this
        exact hj' this.symm
      · have := congrFun h1 i
        rw [ht] at this
        simp [mixed] at this
        exact hi this
    intro i j hi hj
    obtain ⟨p, q, hl⟩ := List.append_of_mem (h i)
    have hjl := h j
    rw [hl, List.mem_append, List.mem_cons] at hjl
    rcases hjl with h1 | rfl | h1
    · obtain ⟨p1, p2, hp⟩ := List.append_of_mem h1
      exact (key p1 (p2 ++ i :: q) j i (by rw [hl, hp]; simp) (by simp) hj hi).elim
    · rfl
    · exact (key p q i j hl h1 hi hj).elim
  · intro hd k _
    by_cases he : ∃ i, i ∈ l.take k ∧ a i ≠ b i
    · obtain ⟨i, i1, i2⟩ := he
      refine .inl (funext fun j => ?_)
      by_cases hj : j ∈ l.take k
      · simp [mixed, hj]
      · have : a j = b j := Decidable.byContradiction fun hne => hj (hd j i hne i2 ▸ i1)
        simp [mixed, hj, this]
    · refine .inr (funext fun j => ?_)
      by_cases hj : j ∈ l.take k
      · have : a j = b j := Decidable.byContradiction fun hne => he ⟨j, hj, hne⟩
        simp [mixed, hj, this]
      · simp [mixed, hj]

end DataShared
open DataShared

/-! ### Reading -/

/-- **C157.** In any history, what main code reads is made of bytes that were in the variable, each at some moment of the call; it is there when the accesses have been made. -/
theorem c157_bytes {n : Nat} (C : Code n) (hC : Compiles C) (s : St n) (hp : s.pc = none) (es : List (SharedData.Ev n)) (hs : ∀ e ∈ es, ∀ c, e ≠ .start c) :
    (mains es ≤ C.read.length ∧ (run C s (.start .read :: es)).reads = s.reads) ∨
      (C.read.length < mains es ∧ ∃ r, (run C s (.start .read :: es)).reads = s.reads ++ [r] ∧ ∀ i, ∃ p, p <+: changes es ∧ r i = after s.v p i) := by
  have h1 : step C s (.start .read) = { s with pc := some ⟨.read, fun _ => 0, C.read.map .load⟩ } := by simp [step, hp, Code.of]
  show (_ ∧ (run C (step C s (.start .read)) es).reads = _) ∨ (_ ∧ ∃ r, (run C (step C s (.start .read)) es).reads = _ ∧ _)
  rw [h1]
  have := read_inv (C := C) s.v s.reads es hs { s with pc := some ⟨.read, fun _ => 0, C.read.map .load⟩ } _ C.read [] rfl rfl rfl fun i hi => absurd (hC.read i) hi
  simpa using this

/-- **C157, partial.** A variable of one byte: main code reads a value the variable had during the call. -/
theorem c157_byte_partial (C : Code 1) (hC : Compiles C) (s : St 1) (hp : s.pc = none) (es : List (SharedData.Ev 1)) (hs : ∀ e ∈ es, ∀ c, e ≠ .start c) (hm : 2 ≤ mains es) :
    ∃ p, p <+: changes es ∧ (run C s (.start .read :: es)).reads = s.reads ++ [after s.v p] := by
  have hl : C.read.length ≤ 1 := by
    have := hC.readOnce
    cases h : C.read with
    | nil => simp
    | cons a l =>
      cases l with
      | nil => simp
      | cons b l => rw [h, List.nodup_cons] at this; exact absurd (by simp [Subsingleton.elim a b]) this.1
  rcases c157_bytes C hC s hp es hs with ⟨h1, _⟩ | ⟨_, r, h2, h3⟩
  · omega
  · obtain ⟨p, p1, p2⟩ := h3 0
    refine ⟨p, p1, ?_⟩
    rw [h2]
    congr 2
    funext i
    rw [Subsingleton.elim i 0]
    exact p2

/-- **C157.** A handler that stores once while main code reads: the bytes loaded before are old, the others new. -/
theorem c157_read_around {n : Nat} (C : Code n) (hC : Compiles C) (s : St n) (hp : s.pc = none) (b : Bytes n) (k : Nat) (hk : k ≤ C.read.length) :
    (run C s (readAround C k b)).reads = s.reads ++ [mixed (C.read.take k) s.v b] ∧ (run C s (readAround C k b)).v = b ∧ (run C s (readAround C k b)).pc = none := by
  have h1 : step C s (.start .read) = { s with pc := some ⟨.read, fun _ => 0, C.read.map .load⟩ } := by simp [step, hp, Code.of]
  have e : C.read.length + 1 - k = (C.read.drop k).length + 1 := by rw [List.length_drop]; omega
  have hk' : k = (C.read.take k).length := by rw [List.length_take]; omega
  have hr : run C s (readAround C k b) = { s with v := b, pc := none, reads := s.reads ++ [mixed (C.read.take k) s.v b] } := by
    unfold readAround
    rw [e, List.replicate_succ', List.cons_append, List.cons_append]
    show run C (step C s (.start .read)) _ = _
    rw [h1, run_append', run_append', run_append']
    conv in List.replicate k _ => rw [hk']
    rw [loads (C.read.take k) (C.read.drop k) _ _ (by rw [List.take_append_drop])]
    show run C (run C { s with v := b, pc := some ⟨.read, _, (C.read.drop k).map .load⟩ } _) [.main] = _
    rw [loads (C.read.drop k) [] _ _ (by rw [List.append_nil])]
    simp only [run, step, mainStep, List.map_nil]
    rw [mixed_mixed (by rw [List.take_append_drop]; exact hC.read) (by rw [List.take_append_drop]; exact hC.readOnce)]
  rw [hr]
  exact ⟨rfl, rfl, rfl⟩

/-- **C157.** So main code reads the old or the new value whenever the handler comes, exactly if no two bytes change. -/
theorem c157_read_once {n : Nat} (C : Code n) (hC : Compiles C) (s : St n) (hp : s.pc = none) (b : Bytes n) :
    (∀ k ≤ C.read.length, ∃ r, (run C s (readAround C k b)).reads = s.reads ++ [r] ∧ (r = s.v ∨ r = b)) ↔ ∀ i j, s.v i ≠ b i → s.v j ≠ b j → i = j := by
  rw [← never_mixed hC.read hC.readOnce]
  constructor
  · intro h k hk
    obtain ⟨r, h1, h2⟩ := h k hk
    rw [(c157_read_around C hC s hp b k hk).1, List.append_cancel_left_eq, List.cons.injEq] at h1
    rw [h1.1]; exact h2
  · exact fun h k hk => ⟨_, (c157_read_around C hC s hp b k hk).1, h k hk⟩

/-- **C157.** A counter of two bytes or more that a handler counts up: main code reads a count that was there whenever the handler comes, exactly if the lowest byte does not overflow. -/
theorem c157_counter {n : Nat} (hn : 2 ≤ n) (C : Code n) (hC : Compiles C) (a : Nat) :
    (∀ k ≤ C.read.length, ∃ r, (run C (St.init (bytesIn n a)) (readAround C k (bytesIn n (a + 1)))).reads = [r] ∧ (r = bytesIn n a ∨ r = bytesIn n (a + 1))) ↔ a % 256 ≠ 255 := by
  have h := c157_read_once C hC (St.init (bytesIn n a)) rfl (bytesIn n (a + 1))
  rw [show (St.init (bytesIn n a)).reads = [] from rfl] at h
  simp only [List.nil_append] at h
  rw [show (St.init (bytesIn n a)).v = bytesIn n a from rfl] at h
  rw [h]
  have diff : ∀ x y : Nat, BitVec.ofNat 8 x = BitVec.ofNat 8 y ↔ x % 256 = y % 256 := fun x y => by
    rw [← BitVec.toNat_inj, BitVec.toNat_ofNat, BitVec.toNat_ofNat]
  constructor
  · intro h hc
    have := h ⟨0, by omega⟩ ⟨1, by omega⟩ (by simp only [bytesIn, ne_eq, diff]; omega) (by simp only [bytesIn, ne_eq, diff]; omega)
    simp at this
  · intro hc i j hi hj
    have key : ∀ i : Fin n, bytesIn n a i ≠ bytesIn n (a + 1) i → i.val = 0 := by
      intro i hi
      refine Decidable.byContradiction fun h0 => hi ?_
      obtain ⟨m, hm⟩ : ∃ m, i.val = m + 1 := ⟨i.val - 1, by omega⟩
      simp only [bytesIn, hm, Nat.pow_succ']
      rw [← Nat.div_div_eq_div_mul, ← Nat.div_div_eq_div_mul, show (a + 1) / 256 = a / 256 by omega]
    exact Fin.ext ((key i hi).trans (key j hj).symm)

/-! ### Storing -/

/-- **C157.** A handler that reads while main code stores: it sees the bytes stored so far. -/
theorem c157_store_around {n : Nat} (C : Code n) (hC : Compiles C) (s : St n) (hp : s.pc = none) (b : Bytes n) (k : Nat) (hk : k ≤ C.put.length) :
    (run C s (storeAround C k b)).seen = s.seen ++ [mixed (C.put.take k) b s.v] ∧ (run C s (storeAround C k b)).v = b ∧ (run C s (storeAround C k b)).pc = none := by
  have h1 : step C s (.start (.change (.put b))) = { s with pc := some ⟨.change (.put b), fun _ => 0, C.put.map .store⟩ } := by simp [step, hp, Code.of]
  have e : C.put.length + 1 - k = (C.put.drop k).length + 1 := by rw [List.length_drop]; omega
  have hk' : k = (C.put.take k).length := by rw [List.length_take]; omega
  have hr : run C s (storeAround C k b) = { s with v := b, pc := none, seen := s.seen ++ [mixed (C.put.take k) b s.v] } := by
    unfold storeAround
    rw [e, List.replicate_succ', List.cons_append, List.cons_append]
    show run C (step C s (.start (.change (.put b)))) _ = _
    rw [h1, run_append', run_append', run_append']
    conv in List.replicate k _ => rw [hk']
    rw [stores (.put b) (C.put.take k) (C.put.drop k) _ _ (by rw [List.take_append_drop])]
    show run C (run C { s with v := mixed (C.put.take k) b s.v, pc := some ⟨.change (.put b), _, (C.put.drop k).map .store⟩, seen := s.seen ++ [mixed (C.put.take k) b s.v] } _) [.main] = _
    rw [stores (.put b) (C.put.drop k) [] _ _ (by rw [List.append_nil])]
    simp only [run, step, mainStep, List.map_nil, Op.apply]
    congr 1
    funext i
    have := hC.put i
    rw [← List.take_append_drop k C.put, List.mem_append] at this
    by_cases h : i ∈ C.put.drop k
    · simp [mixed, h]
    · simp [mixed, h, this.resolve_right h]
  rw [hr]
  exact ⟨rfl, rfl, rfl⟩

/-- **C157.** So a handler sees the old or the new value whenever it comes, exactly if no two bytes change. -/
theorem c157_store_once {n : Nat} (C : Code n) (hC : Compiles C) (s : St n) (hp : s.pc = none) (b : Bytes n) :
    (∀ k ≤ C.put.length, ∃ r, (run C s (storeAround C k b)).seen = s.seen ++ [r] ∧ (r = b ∨ r = s.v)) ↔ ∀ i j, b i ≠ s.v i → b j ≠ s.v j → i = j := by
  rw [← never_mixed hC.put hC.putOnce]
  constructor
  · intro h k hk
    obtain ⟨r, h1, h2⟩ := h k hk
    rw [(c157_store_around C hC s hp b k hk).1, List.append_cancel_left_eq, List.cons.injEq] at h1
    rw [h1.1]; exact h2
  · exact fun h k hk => ⟨_, (c157_store_around C hC s hp b k hk).1, h k hk⟩

/-! ### Changing -/

/-- **C157.** `|=` and `&=` of main code, compiled to loads and then stores: everything handlers do to the variable between them is lost, whatever it is. -/
theorem c157_lost_fails {n : Nat} (C : Code n) (ls ss : List (Fin n)) (hl : ∀ i, i ∈ ls) (hs : ∀ i, i ∈ ss) (hm : C.modify = ls.map .load ++ ss.map .store) (s : St n) (hp : s.pc = none) (o : Op n) (ho : ∀ v, o ≠ .put v)
    (os : List (Op n)) :
    let y := run C s (.start (.change o) :: List.replicate ls.length .main ++ os.map .handler ++ List.replicate (ss.length + 1) .main)
    y.v = o.apply s.v ∧ y.pc = none := by
  have h1 : step C s (.start (.change o)) = { s with pc := some ⟨.change o, fun _ => 0, ls.map .load ++ ss.map .store⟩ } := by
    cases o with
    | put v => exact absurd rfl (ho v)
    | _ => simp [step, hp, Code.of, hm]
  have hr : run C s (.start (.change o) :: List.replicate ls.length .main ++ os.map .handler ++ List.replicate (ss.length + 1) .main) = { s with v := o.apply s.v, pc := none } := by
    rw [List.replicate_succ', List.cons_append, List.cons_append]
    show run C (step C s (.start (.change o))) _ = _
    rw [h1, run_append', run_append', run_append', loads' o ls _ _ _ rfl, handlers]
    rw [stores o ss [] _ _ (by rw [List.append_nil])]
    simp only [run, step, mainStep, List.map_nil]
    rw [mixed_all hs, mixed_all hl]
  intro y
  have : y = { s with v := o.apply s.v, pc := none } := hr
  rw [this]
  exact ⟨rfl, rfl⟩

namespace DataShared

/-- Where main code is with byte `i`: `os` what handlers have done since the beginning of the call. -/
def Past {n : Nat} (o : Op n) (v0 : Bytes n) (os : List (Op n)) (r v : Bytes n) (todo : List (Access n)) (i : Fin n) : Prop :=
  let l := todo.filter fun x => x = .load i ∨ x = .store i
  (l = [.load i, .store i] ∧ v i = after v0 os i) ∨ (l = [.store i] ∧ ∃ p q, os = p ++ q ∧ r i = after v0 p i) ∨ (l = [] ∧ ∃ p q t, os = p ++ q ++ t ∧ v i = after (o.apply (after v0 p)) t i)

theorem past_handler {n : Nat} {o : Op n} {v0 : Bytes n} {os : List (Op n)} {r v : Bytes n} {todo : List (Access n)} {i : Fin n} (h : Past o v0 os r v todo i) (x : Op n) : Past o v0 (os ++ [x]) r (x.apply v) todo i := by
  rcases h with ⟨h1, h2⟩ | ⟨h1, p, q, h2, h3⟩ | ⟨h1, p, q, t, h2, h3⟩
  · exact .inl ⟨h1, by rw [after_snoc]; exact apply_at x _ _ i h2⟩
  · exact .inr (.inl ⟨h1, p, q ++ [x], by rw [h2, List.append_assoc], h3⟩)
  · exact .inr (.inr ⟨h1, p, q, t ++ [x], by rw [h2, List.append_assoc], by rw [after_snoc]; exact apply_at x _ _ i h3⟩)

theorem past_load {n : Nat} {o : Op n} {v0 : Bytes n} {os : List (Op n)} {r v : Bytes n} {j : Fin n} {t : List (Access n)} {i : Fin n} (h : Past o v0 os r v (.load j :: t) i) :
    Past o v0 os (SharedData.upd r j (v j)) v t i := by
  by_cases hj : j = i
  · subst hj
    simp only [Past, List.filter_cons, true_or, decide_true, if_true, List.cons.injEq, true_and] at h
    rcases h with ⟨h1, h2⟩ | ⟨h1, _⟩ | ⟨h1, _⟩
    · exact .inr (.inl ⟨h1, os, [], by simp, by simp [SharedData.upd, h2]⟩)
    · exact nomatch h1.1
    · cases h1
  · have e : ((.load j :: t).filter fun x => x = .load i ∨ x = .store i) = t.filter fun x => x = .load i ∨ x = .store i := by
      rw [List.filter_cons, if_neg (by simp [hj])]
    simp only [Past, e] at h ⊢
    rwa [show SharedData.upd r j (v j) i = r i by simp [SharedData.upd, Ne.symm hj]]

theorem past_store {n : Nat} {o : Op n} {v0 : Bytes n} {os : List (Op n)} {r v : Bytes n} {j : Fin n} {t : List (Access n)} {i : Fin n} (h : Past o v0 os r v (.store j :: t) i) :
    Past o v0 os r (SharedData.upd v j (o.apply r j)) t i := by
  by_cases hj : j = i
  · subst hj
    simp only [Past, List.filter_cons, or_true, decide_true, if_true, List.cons.injEq, true_and] at h
    rcases h with ⟨h1, h2⟩ | ⟨h1, p, q, h2, h3⟩ | ⟨h1, _⟩
    · exact nomatch h1.1
    · exact .inr (.inr ⟨h1, p, q, [], by simp [h2], by simp [SharedData.upd, after]; exact apply_at o _ _ j h3⟩)
    · cases h1
  · have e : ((.store j :: t).filter fun x => x = .load i ∨ x = .store i) = t.filter fun x => x = .load i ∨ x = .store i := by
      rw [List.filter_cons, if_neg (by simp [hj])]
    simp only [Past, e] at h ⊢
    rwa [show SharedData.upd v j (o.apply r j) i = v i by simp [SharedData.upd, Ne.symm hj]]

theorem change_inv {n : Nat} {C : Code n} (o : Op n) (v0 : Bytes n) (i : Fin n) (es : List (SharedData.Ev n)) (hs : ∀ e ∈ es, ∀ c, e ≠ .start c) : ∀ (s : St n) (os : List (Op n)),
    (match s.pc with | none => Past o v0 os (fun _ => 0) s.v [] i | some ⟨c, r, todo⟩ => c = .change o ∧ Past o v0 os r s.v todo i) → (run C s es).pc = none →
    ∃ p q t, os ++ changes es = p ++ q ++ t ∧ (run C s es).v i = after (o.apply (after v0 p)) t i := by
  induction es with
  | nil =>
    intro s os h hp
    change s.pc = none at hp
    rw [hp] at h
    rcases h with ⟨h1, _⟩ | ⟨h1, _⟩ | ⟨_, p, q, t, h2, h3⟩
    · cases h1
    · cases h1
    · exact ⟨p, q, t, by simp [changes, h2], h3⟩
  | cons e es ih =>
    intro s os h hp
    have hs' : ∀ e ∈ es, ∀ c, e ≠ .start c := fun e he => hs e (by simp [he])
    obtain ⟨v, pc, reads, seen⟩ := s
    cases e with
    | start c => exact absurd rfl (hs _ (by simp) c)
    | peek => exact ih hs' ⟨v, pc, reads, seen ++ [v]⟩ os h hp
    | handler x =>
      have := ih hs' ⟨x.apply v, pc, reads, seen⟩ (os ++ [x]) (by
        cases pc with
        | none => exact past_handler h x
        | some fr => exact ⟨h.1, past_handler h.2 x⟩) hp
      rw [List.append_assoc] at this
      exact this
    | main =>
      refine ih hs' (mainStep ⟨v, pc, reads, seen⟩) os ?_ hp
      cases pc with
      | none => exact h
      | some fr =>
        obtain ⟨c, r, todo⟩ := fr
        obtain ⟨hc, h⟩ := h
        change c = .change o at hc
        subst hc
        cases todo with
        | nil => rcases h with ⟨h1, _⟩ | ⟨h1, _⟩ | h1
                 · cases h1
                 · cases h1
                 · exact .inr (.inr h1)
        | cons a t =>
          cases a with
          | load j => exact ⟨rfl, past_load h⟩
          | store j => exact ⟨rfl, past_store h⟩

end DataShared

/-- **C157.** `|=` and `&=` of main code in any history: for every byte, some of what handlers do during the call comes before it, some is lost, and some comes behind it, in this order. -/
theorem c157_change {n : Nat} (C : Code n) (hC : Compiles C) (s : St n) (hp : s.pc = none) (o : Op n) (ho : ∀ v, o ≠ .put v) (es : List (SharedData.Ev n)) (hs : ∀ e ∈ es, ∀ c, e ≠ .start c)
    (hd : (run C s (.start (.change o) :: es)).pc = none) (i : Fin n) :
    ∃ p q t, changes es = p ++ q ++ t ∧ (run C s (.start (.change o) :: es)).v i = after (o.apply (after s.v p)) t i := by
  have h1 : step C s (.start (.change o)) = { s with pc := some ⟨.change o, fun _ => 0, C.modify⟩ } := by
    cases o with
    | put v => exact absurd rfl (ho v)
    | _ => simp [step, hp, Code.of]
  change (run C (step C s (.start (.change o))) es).pc = none at hd
  show ∃ p q t, changes es = p ++ q ++ t ∧ (run C (step C s (.start (.change o))) es).v i = _
  rw [h1] at hd ⊢
  simpa using change_inv (C := C) o s.v i es hs { s with pc := some ⟨.change o, fun _ => 0, C.modify⟩ } [] ⟨rfl, .inl ⟨hC.modify i, rfl⟩⟩ hd

/-- **C157.** Protecting single operators does not help main code that reads, computes, and stores: what handlers do between the two calls is lost. -/
theorem c157_two_calls_fails {n : Nat} (C : Code n) (hC : Compiles C) (s : St n) (hp : s.pc = none) (o : Op n) (os : List (Op n)) :
    let a := run C s (.start .read :: List.replicate (C.read.length + 1) .main)
    a.reads = s.reads ++ [s.v] ∧ a.pc = none ∧ (run C a (os.map .handler ++ (.start (.change (.put (o.apply s.v))) :: List.replicate (C.put.length + 1) .main))).v = o.apply s.v := by
  have h1 : step C s (.start .read) = { s with pc := some ⟨.read, fun _ => 0, C.read.map .load⟩ } := by simp [step, hp, Code.of]
  have ha : run C s (.start .read :: List.replicate (C.read.length + 1) .main) = { s with pc := none, reads := s.reads ++ [s.v] } := by
    rw [List.replicate_succ']
    show run C (step C s (.start .read)) _ = _
    rw [h1, run_append', loads C.read [] _ _ (by rw [List.append_nil])]
    simp only [run, step, mainStep, List.map_nil]
    rw [mixed_all hC.read]
  intro a
  have ha' : a = { s with pc := none, reads := s.reads ++ [s.v] } := ha
  refine ⟨by rw [ha'], by rw [ha'], ?_⟩
  rw [ha', run_append', handlers, List.replicate_succ']
  show (run C { s with v := after s.v os, reads := s.reads ++ [s.v], pc := some ⟨.change (.put (o.apply s.v)), fun _ => 0, C.put.map .store⟩ } _).v = _
  rw [run_append', stores _ C.put [] _ _ (by rw [List.append_nil])]
  simp only [run, step, mainStep, List.map_nil, Op.apply]
  rw [mixed_all hC.put]

/-! ### In sections -/

namespace DataShared

/-- The variable as a shared object (Data.h 27-58). -/
abbrev variable_ {n : Nat} (C : Code n) : CriticalSection.Machine where
  St := SharedData.St n
  Ev := SharedData.Ev n
  step := fun s e => .ok (SharedData.step C s e)
  kind := fun | .start _ => .enter | .main => .within | .handler _ | .peek => .handler
  idle := fun s => s.pc = none
  proper := fun _ => True

theorem lawful_variable {n : Nat} (C : Code n) : Sections.Lawful (variable_ C) := by
  intro (s : SharedData.St n) (e : SharedData.Ev n) (s' : SharedData.St n) (hi : s.pc = none) hk h
  change Res.ok (SharedData.step C s e) = .ok s' at h
  injection h with h
  subst h
  change (SharedData.step C s e).pc = none
  cases e with
  | start => exact absurd rfl hk
  | main => simp only [SharedData.step, mainStep, hi]
  | handler o => exact hi
  | peek => exact hi

theorem run_variable {n : Nat} (C : Code n) (es : List (SharedData.Ev n)) (s : SharedData.St n) : (variable_ C).run s es = .ok (SharedData.run C s es) :=
  Sections.run_is (M := variable_ C) (R := fun s es => .ok (SharedData.run C s es)) (fun _ => rfl) (fun _ _ _ => rfl) es s

/-- Main code in the middle of `|=` or `&=`, byte by byte: `a` the value before. -/
def Byte {n : Nat} (o : Op n) (a r v : Bytes n) (todo : List (Access n)) (i : Fin n) : Prop :=
  let l := todo.filter fun x => x = .load i ∨ x = .store i
  (l = [.load i, .store i] ∧ v i = a i) ∨ (l = [.store i] ∧ r i = a i ∧ v i = a i) ∨ (l = [] ∧ v i = o.apply a i)

/-- The variable and the one of which every call is indivisible. -/
def Rel {n : Nat} (y : SharedData.St n) (x : Bytes n × List (Bytes n) × List (Bytes n)) : Prop :=
  y.seen = x.2.2 ∧ match y.pc with
  | none => y.v = x.1 ∧ y.reads = x.2.1
  | some ⟨.read, r, todo⟩ => y.v = x.1 ∧ y.reads ++ [x.1] = x.2.1 ∧ ∃ l : List (Fin n), todo = l.map .load ∧ ∀ i ∉ l, r i = x.1 i
  | some ⟨.change (.put w), _, todo⟩ => y.reads = x.2.1 ∧ x.1 = w ∧ ∃ l : List (Fin n), todo = l.map .store ∧ ∀ i ∉ l, y.v i = w i
  | some ⟨.change o, r, todo⟩ => y.reads = x.2.1 ∧ ∃ a, x.1 = o.apply a ∧ ∀ i, Byte o a r y.v todo i

theorem byte_load {n : Nat} {o : Op n} {a r v : Bytes n} {j : Fin n} {t : List (Access n)} (h : ∀ i, Byte o a r v (.load j :: t) i) : ∀ i, Byte o a (SharedData.upd r j (v j)) v t i := by
  intro i
  have hi := h i
  by_cases hj : j = i
  · subst hj
    simp only [Byte, List.filter_cons, true_or, decide_true, if_true, List.cons.injEq, true_and] at hi
    rcases hi with ⟨h1, h2⟩ | ⟨h1, _⟩ | ⟨h1, _⟩
    · exact .inr (.inl ⟨h1, by simp [SharedData.upd, h2], h2⟩)
    · exact nomatch h1.1
    · cases h1
  · have e : ((.load j :: t).filter fun x => x = .load i ∨ x = .store i) = t.filter fun x => x = .load i ∨ x = .store i := by
      rw [List.filter_cons, if_neg (by simp [hj])]
    simp only [Byte, e] at hi ⊢
    rwa [show SharedData.upd r j (v j) i = r i by simp [SharedData.upd, Ne.symm hj]]

theorem byte_store {n : Nat} {o : Op n} {a r v : Bytes n} {j : Fin n} {t : List (Access n)} (h : ∀ i, Byte o a r v (.store j :: t) i) : ∀ i, Byte o a r (SharedData.upd v j (o.apply r j)) t i := by
  intro i
  have hi := h i
  by_cases hj : j = i
  · subst hj
    simp only [Byte, List.filter_cons, or_true, decide_true, if_true, List.cons.injEq, true_and] at hi
    rcases hi with ⟨h1, h2⟩ | ⟨h1, h2, _⟩ | ⟨h1, _⟩
    · exact nomatch h1.1
    · exact .inr (.inr ⟨h1, by simp [SharedData.upd, apply_at o r a j h2]⟩)
    · cases h1
  · have e : ((.store j :: t).filter fun x => x = .load i ∨ x = .store i) = t.filter fun x => x = .load i ∨ x = .store i := by
      rw [List.filter_cons, if_neg (by simp [hj])]
    simp only [Byte, e] at hi ⊢
    rwa [show SharedData.upd v j (o.apply r j) i = v i by simp [SharedData.upd, Ne.symm hj]]

theorem main_rel {n : Nat} {y : SharedData.St n} {x : Bytes n × List (Bytes n) × List (Bytes n)} (h : Rel y x) : Rel (mainStep y) x := by
  obtain ⟨v, pc, reads, seen⟩ := y
  obtain ⟨h0, h⟩ := h
  -- `|=` and `&=`
  have modify : ∀ (o : Op n) (r : Bytes n) (todo : List (Access n)), (∀ w, o ≠ .put w) → reads = x.2.1 → (∃ a, x.1 = o.apply a ∧ ∀ i, Byte o a r v todo i) →
      Rel (mainStep ⟨v, some ⟨.change o, r, todo⟩, reads, seen⟩) x := by
    intro o r todo ho h1 ⟨a, h2, h3⟩
    cases todo with
    | nil =>
      refine ⟨h0, ?_, h1⟩
      rw [h2]
      funext i
      rcases h3 i with ⟨h, _⟩ | ⟨h, _⟩ | ⟨_, h⟩
      · cases h
      · cases h
      · exact h
    | cons b t =>
      cases b with
      | load j =>
        cases o with
        | put w => exact absurd rfl (ho w)
        | _ => exact ⟨h0, h1, a, h2, byte_load h3⟩
      | store j =>
        cases o with
        | put w => exact absurd rfl (ho w)
        | _ => exact ⟨h0, h1, a, h2, byte_store h3⟩
  cases pc with
  | none => exact ⟨h0, h⟩
  | some fr =>
    obtain ⟨c, r, todo⟩ := fr
    cases c with
    | read =>
      obtain ⟨h1, h2, l, h3, h4⟩ := h
      subst h3
      cases l with
      | nil =>
        refine ⟨h0, h1, ?_⟩
        show reads ++ [r] = _
        rw [← h2, show r = x.1 from funext fun i => h4 i (by simp)]
      | cons j l =>
        refine ⟨h0, h1, h2, l, rfl, fun i hi => ?_⟩
        by_cases hj : i = j
        · subst hj; simp [SharedData.upd, ← h1]
        · simp [SharedData.upd, hj, h4 i (by simp [hj, hi])]
    | change o =>
      cases o with
      | or m => exact modify (.or m) r todo (fun _ h => nomatch h) h.1 h.2
      | and m => exact modify (.and m) r todo (fun _ h => nomatch h) h.1 h.2
      | put w =>
        obtain ⟨h1, h2, l, h3, h4⟩ := h
        subst h3
        cases l with
        | nil => exact ⟨h0, by rw [h2]; exact funext fun i => h4 i (by simp), h1⟩
        | cons j l =>
          refine ⟨h0, h1, h2, l, rfl, fun i hi => ?_⟩
          show SharedData.upd v j ((Op.put w).apply r j) i = w i
          by_cases hj : i = j
          · subst hj; simp [SharedData.upd, Op.apply]
          · simp only [SharedData.upd, if_neg hj]; exact h4 i (by simp [hj, hi])

theorem step_rel {n : Nat} {C : Code n} (hC : Compiles C) {y : SharedData.St n} {x : Bytes n × List (Bytes n) × List (Bytes n)} (h : Rel y x) (e : SharedData.Ev n) (hk : e ≠ .main → y.pc = none) :
    Rel (SharedData.step C y e) (inOneGo x [e]) := by
  cases e with
  | main => exact main_rel h
  | start c =>
    have hp := hk (fun h => nomatch h)
    obtain ⟨v, pc, reads, seen⟩ := y
    change pc = none at hp
    subst hp
    obtain ⟨h0, h1, h2⟩ := h
    change v = x.1 at h1
    change reads = x.2.1 at h2
    obtain ⟨a, b, c'⟩ := x
    simp only at h1 h2
    subst h1 h2
    cases c with
    | read => exact ⟨h0, rfl, rfl, C.read, rfl, fun i hi => absurd (hC.read i) hi⟩
    | change o =>
      cases o with
      | put w => exact ⟨h0, rfl, rfl, C.put, rfl, fun i hi => absurd (hC.put i) hi⟩
      | or m => exact ⟨h0, rfl, v, rfl, fun i => .inl ⟨hC.modify i, rfl⟩⟩
      | and m => exact ⟨h0, rfl, v, rfl, fun i => .inl ⟨hC.modify i, rfl⟩⟩
  | handler o =>
    have hp := hk (fun h => nomatch h)
    obtain ⟨v, pc, reads, seen⟩ := y
    change pc = none at hp
    subst hp
    obtain ⟨h0, h1, h2⟩ := h
    exact ⟨h0, congrArg o.apply h1, h2⟩
  | peek =>
    have hp := hk (fun h => nomatch h)
    obtain ⟨v, pc, reads, seen⟩ := y
    change pc = none at hp
    subst hp
    obtain ⟨h0, h1, h2⟩ := h
    refine ⟨?_, h1, h2⟩
    show seen ++ [v] = x.2.2 ++ [x.1]
    rw [show seen = x.2.2 from h0, show v = x.1 from h1]

theorem go_cons {n : Nat} (x : Bytes n × List (Bytes n) × List (Bytes n)) (e : SharedData.Ev n) (es : List (SharedData.Ev n)) : inOneGo x (e :: es) = inOneGo (inOneGo x [e]) es := by
  cases e with
  | start c => cases c <;> rfl
  | _ => rfl

theorem clean_rel {n : Nat} {C : Code n} (hC : Compiles C) (es : List (SharedData.Ev n)) : ∀ (y : SharedData.St n) (x : Bytes n × List (Bytes n) × List (Bytes n)), Rel y x → Sections.Clean (variable_ C) y es →
    Rel (SharedData.run C y es) (inOneGo x es) := by
  induction es with
  | nil => intro y x h _; exact h
  | cons e es ih =>
    intro y x h hc
    rw [go_cons]
    refine ih _ _ (step_rel hC h e fun he => hc.1.2 ?_) (hc.2 _ rfl)
    cases e with
    | main => exact absurd rfl he
    | _ => exact fun h => nomatch h

end DataShared

/-- **C157.** Main code that uses the variable only with interrupts off, one operator after the other: outside of its calls the variable and everything read from it, by main code and by handlers, are those of
    indivisible calls, in the order in which they came. -/
theorem c157_sections {n : Nat} (C : Code n) (hC : Compiles C) (v : Bytes n) (on : Bool) (es : List (CriticalSection.Ev (SharedData.Ev n)))
    (hs : Sections.Sectioned (variable_ C) (CriticalSection.Board.init _ (St.init v) on) es) :
    ∃ d, CriticalSection.run (variable_ C) (CriticalSection.Board.init _ (St.init v) on) es = .ok d ∧ (d.obj.pc = none → (d.obj.v, d.obj.reads, d.obj.seen) = inOneGo (v, [], []) d.trace) := by
  obtain ⟨d, hd⟩ := c151_defined _ (lawful_variable C) (St.init v) on (fun _ => rfl) es hs fun tr _ => ⟨_, run_variable C tr _⟩
  obtain ⟨h1, h2⟩ := c151_apart _ (lawful_variable C) (St.init v) on (fun _ => rfl) es hs d hd
  refine ⟨d, hd, fun hp => ?_⟩
  have h3 := clean_rel hC d.trace (St.init v) (v, [], []) ⟨rfl, rfl, rfl⟩ h1
  have h4 : SharedData.run C (St.init v) d.trace = d.obj := by
    have := (run_variable C d.trace (St.init v)).symm.trans h2
    injection this
  rw [h4] at h3
  obtain ⟨k1, k2⟩ := h3
  rw [hp] at k2
  exact Prod.ext k2.1 (Prod.ext k2.2 k1)

namespace DataShared

/-- What an operator is to leave in bit `j` of byte `i`. -/
def wanted {n : Nat} (o : Op n) (v : Bytes n) (i : Fin n) (j : Nat) : Bool :=
  match o with
  | .put w => (w i).getLsbD j
  | .or m => (v i).getLsbD j || (m i).getLsbD j
  | .and m => (v i).getLsbD j && (m i).getLsbD j

theorem wanted_is {n : Nat} (o : Op n) (v : Bytes n) (i : Fin n) (j : Nat) : (o.apply v i).getLsbD j = wanted o v i j := by
  cases o with
  | put => rfl
  | or => exact BitVec.getLsbD_or
  | and => exact BitVec.getLsbD_and

theorem clean_mains {n : Nat} (C : Code n) (k : Nat) : ∀ y : SharedData.St n, Sections.Clean (variable_ C) y (List.replicate k .main) := by
  induction k with
  | zero => exact fun _ => trivial
  | succ k ih => exact fun y => ⟨⟨trivial, fun h => absurd rfl h⟩, fun s' _ => ih s'⟩

theorem go_mains {n : Nat} (k : Nat) (x : Bytes n × List (Bytes n) × List (Bytes n)) : inOneGo x (List.replicate k .main) = x := by
  induction k with
  | zero => rfl
  | succ k ih => exact ih

end DataShared

/-- **C157.** Bit for bit, what a handler's operator leaves, and what main code's leaves when it returns without interruption. -/
theorem c157_bits {n : Nat} (C : Code n) (hC : Compiles C) (s : St n) (hp : s.pc = none) (o : Op n) (i : Fin n) (j : Nat) :
    ((run C s [.handler o]).v i).getLsbD j = wanted o s.v i j ∧
    ∀ k, (run C s (.start (.change o) :: List.replicate k .main)).pc = none → ((run C s (.start (.change o) :: List.replicate k .main)).v i).getLsbD j = wanted o s.v i j := by
  refine ⟨wanted_is o s.v i j, fun k hd => ?_⟩
  have h := clean_rel hC (.start (.change o) :: List.replicate k .main) s (s.v, s.reads, s.seen) (by
    obtain ⟨v, pc, reads, seen⟩ := s
    change pc = none at hp
    subst hp
    exact ⟨rfl, rfl, rfl⟩) ⟨⟨trivial, fun _ => hp⟩, fun s' _ => clean_mains C k s'⟩
  rw [go_cons] at h
  obtain ⟨_, h⟩ := h
  rw [hd] at h
  rw [h.1, go_mains]
  exact wanted_is o s.v i j

/-- **C157.** The full claim, a variable of any size used by main code and handlers as if every operator were indivisible, is false. -/
theorem c157_full_claim_is_false : ¬ ∀ (n : Nat) (C : Code n) (v : Bytes n) (es : List (SharedData.Ev n)), Compiles C → (run C (St.init v) es).pc = none →
    (∀ e ∈ es, ∀ c, e = .start c → es.head? = some e) → ∃ es', es'.Perm es ∧ (run C (St.init v) es).v = (inOneGo (v, [], []) es').1 := by
  intro h
  obtain ⟨es', h1, h2⟩ := h 1 ⟨[0], [0], [.load 0, .store 0]⟩ (fun _ => 0) [.start (.change (.or fun _ => 1)), .main, .handler (.or fun _ => 2), .main, .main]
    ⟨by decide, by decide, by decide, by decide, by decide⟩ rfl (by simp)
  -- bits once set stay set
  have key : ∀ (l : List (SharedData.Ev 1)) (x : Bytes 1 × List (Bytes 1) × List (Bytes 1)), (∀ e ∈ l, e = .main ∨ e = .start (.change (.or fun _ => 1)) ∨ e = .handler (.or fun _ => 2)) →
      (x.1 0 &&& 2 = 2 ∨ .handler (.or fun _ => 2) ∈ l) → (inOneGo x l).1 0 &&& 2 = 2 := by
    intro l
    induction l with
    | nil => intro x _ h; exact h.resolve_right (by simp)
    | cons e l ih =>
      intro x hl hx
      rw [go_cons]
      refine ih _ (fun e he => hl e (by simp [he])) ?_
      obtain ⟨a, b, c⟩ := x
      rcases hl e (by simp) with rfl | rfl | rfl
      · rcases hx with hx | hx
        · exact .inl hx
        · rw [List.mem_cons] at hx; exact .inr (hx.resolve_left (fun h => nomatch h))
      · rcases hx with hx | hx
        · left
          show (a 0 ||| 1) &&& 2 = 2
          have hx : a 0 &&& 2 = 2 := hx
          revert hx; generalize a 0 = z; revert z; decide
        · rw [List.mem_cons] at hx; exact .inr (hx.resolve_left (fun h => nomatch h))
      · left
        show (a 0 ||| 2) &&& 2 = 2
        generalize a 0 = z; revert z; decide
  have := key es' (fun _ => 0, [], []) (fun e he => by
    have := h1.mem_iff.1 he
    simp only [List.mem_cons, List.not_mem_nil, or_false] at this
    rcases this with h | h | h | h | h <;> simp [h]) (.inr (h1.mem_iff.2 (by simp)))
  rw [← h2] at this
  revert this
  decide

/-! ### Examples -/

namespace DataShared
/-- A 16 bit variable: low byte first on loading, high byte first on storing; `|=` and `&=` load both bytes and then store both. -/
def word : Code 2 := ⟨[0, 1], [1, 0], [.load 0, .load 1, .store 1, .store 0]⟩
/-- The same changed byte by byte. -/
def word' : Code 2 := ⟨[0, 1], [1, 0], [.load 0, .store 0, .load 1, .store 1]⟩
def byte : Code 1 := ⟨[0], [0], [.load 0, .store 0]⟩
theorem word_ok : Compiles word := ⟨by decide, by decide, by decide, by decide, by decide⟩
theorem word'_ok : Compiles word' := ⟨by decide, by decide, by decide, by decide, by decide⟩
theorem byte_ok : Compiles byte := ⟨by decide, by decide, by decide, by decide, by decide⟩

/-- Main code reads and sets a bit in sections, a handler counts in between. -/
def inTurn : List (CriticalSection.Ev (SharedData.Ev 2)) :=
  [.request 0, .off, .main (.start .read), .main .main, .serve 0 [.handler (.put (bytesIn 2 512))], .main .main, .main .main, .on, .other, .serve 0 [.peek, .handler (.put (bytesIn 2 256))],
    .off, .main (.start (.change (.or (bytesIn 2 3)))), .main .main, .main .main, .main .main, .main .main, .main .main, .on]
instance : DecidablePred (variable_ word).proper := fun _ => inferInstanceAs (Decidable True)
instance : DecidablePred (variable_ word).idle := fun s => inferInstanceAs (Decidable (s.pc = none))
end DataShared

example := c157_bytes word word_ok (St.init (bytesIn 2 255)) rfl [.main, .handler (.put (bytesIn 2 256)), .main, .peek, .main] (by simp)
example := c157_byte_partial byte byte_ok (St.init (bytesIn 1 5)) rfl [.handler (.or (bytesIn 1 2)), .main, .handler (.put (bytesIn 1 1)), .main] (by simp) (by decide)
example := c157_read_around word word_ok (St.init (bytesIn 2 255)) rfl (bytesIn 2 256) 1 (by decide)
/-- 255 counted up to 256 while it is read: main code reads 511. -/
example : mixed (word.read.take 1) (bytesIn 2 255) (bytesIn 2 256) = bytesIn 2 511 := funext (by decide)
example := (c157_read_once word word_ok (St.init (bytesIn 2 254)) rfl (bytesIn 2 255)).2 (by decide)
example := (c157_counter (by decide) word word_ok 511).1
example := c157_store_around word word_ok (St.init (bytesIn 2 255)) rfl (bytesIn 2 256) 1 (by decide)
example := (c157_store_once word word_ok (St.init (bytesIn 2 254)) rfl (bytesIn 2 255)).2 (by decide)
example := c157_change word' word'_ok (St.init (bytesIn 2 7)) rfl (.or (bytesIn 2 0x108)) (fun _ h => nomatch h) [.main, .handler (.or (bytesIn 2 0x210)), .main, .main, .main, .main] (by simp) rfl 1
example := c157_lost_fails word [0, 1] [1, 0] (by decide) (by decide) rfl (St.init (bytesIn 2 7)) rfl (.or (bytesIn 2 8)) (fun _ h => nomatch h) [.or (bytesIn 2 16), .put (bytesIn 2 0)]
example := c157_two_calls_fails word word_ok (St.init (bytesIn 2 7)) rfl (.or (bytesIn 2 8)) [.or (bytesIn 2 16)]
example := c157_sections word word_ok (bytesIn 2 511) true inTurn (by decide +kernel)

/-- `|=` and `&=` of a word: bits 9 and 0. -/
example := c157_bits word' word'_ok (St.init fun _ => 0x0F) rfl (.and fun _ => 0x11) 1 1
example : (run word' (St.init fun _ => 0x0F) (.start (.change (.and fun _ => 0x11)) :: List.replicate 5 .main)).pc = none ∧
    (run word' (St.init fun _ => 0x0F) (.start (.change (.and fun _ => 0x11)) :: List.replicate 5 .main)).v 1 = 0x01 := by decide +kernel

end Atl.Props
