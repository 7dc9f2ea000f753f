import Verif.Model.UsartDuplex
import Verif.Proof.RingBufferIsr
import Verif.Props.UsartStream
/- Helper lemmas for both USART streams on one USART: the invariant and its preservation by every event. -/
namespace Atl.Usart.Duplex
open Atl.Props Atl.RingBuffer

/-- The output buffer as it is once a pending wrap of the write pointer is done. -/
def outView (pc : DPc) (b : RB Nat) : RB Nat := match pc with | .wPast _ => { b with w := wrap b.size b.w } | _ => b
/-- The input buffer as it is once a pending wrap of the read pointer is done. -/
def innView (pc : DPc) (b : RB Nat) : RB Nat := match pc with | .rPast _ _ => { b with r := wrap b.size b.r } | _ => b
/-- What `Read` has returned or is about to. -/
def given (pc : DPc) (l : List Nat) : List Nat := match pc with | .rPast v _ => l ++ [v] | _ => l
/-- Main code is inside `Write`. -/
def inWrite : DPc → Bool
  | .wChecked _ | .wStored _ | .wPast _ => true
  | .rmw i _ => i == 5
  | _ => false
/-- RXCIE is momentarily off. -/
def rxOff : DPc → Bool
  | .rmw i .cleared | .rmw i (.loaded2 _) => i == 7
  | _ => false

/-- The control bits both streams leave alone. -/
def Same (a b : BitVec 8) : Prop := ∀ j, j ≠ 0 → j ≠ 1 → j ≠ 5 → j ≠ 7 → a.getLsbD j = b.getLsbD j

/-- A value of UCSRB main code holds. -/
def Held (b0 : BitVec 8) (asked : Bool) (qo : List Nat) (i : Nat) (v : BitVec 8) : Prop :=
  Same v b0 ∧ (i = 5 → v.getLsbD 7 = (b0.getLsbD 7 || asked)) ∧ (i = 7 → v.getLsbD 5 = true ∨ qo = [])

/-- What main code knows at each place. -/
def PcOk (b0 : BitVec 8) (asked : Bool) (out inn : RB Nat) (qo qi : List Nat) : DPc → Prop
  | .idle => True
  | .wChecked v => qo.length + 1 < out.size ∧ v < 256
  | .wStored v => qo.length + 1 < out.size ∧ v < 256 ∧ out.buf[out.w]? = some v
  | .wPast k => out.w ≤ out.size ∧ (k = 0 → qo ≠ [])
  | .rmw i p => (i = 5 ∨ i = 7) ∧ match p with
    | .loaded1 v => Held b0 asked qo i v
    | .loaded2 v => Held b0 asked qo i v
    | _ => True
  | .rLoaded ge => ge = false → inn.w < inn.r
  | .rReady => qi ≠ []
  | .rGot v => ∃ q', qi = v :: q'
  | .rPast _ k => inn.r ≤ inn.size ∧ (k = 0 → qi.length + 1 < inn.size)

/-- What holds between any two events. -/
structure DInv (n m : Nat) (b0 : BitVec 8) (d : Duplex) (qo qi : List Nat) (p : List Frame) : Prop where
  orel : Rel (outView d.pc d.out) qo
  osize : d.out.size = n
  obytes : ∀ v ∈ qo, v < 256
  order : d.hw.line ++ d.hw.shift.toList ++ d.hw.tx.toList ++ qo = d.accepted
  irel : Rel (innView d.pc d.inn) qi
  isize : d.inn.size = m
  taken : p ++ d.hw.rx = d.kept
  sub : List.Sublist (given d.pc d.returned ++ qi) (goodBytes p)
  count : (given d.pc d.returned).length + qi.length + d.lost = (goodBytes p).length
  few : p.length < m → d.lost = 0
  small : ∀ f ∈ d.kept, f.data < 512
  wf : Wf d.hw
  bits : Same d.hw.ucsrb b0
  rxie : rxOff d.pc = false → d.hw.ucsrb.getLsbD 7 = (b0.getLsbD 7 || d.asked)
  on : inWrite d.pc = false → d.hw.ucsrb.getLsbD 5 = true ∨ qo = []
  pcok : PcOk b0 d.asked d.out d.inn qo qi d.pc

/-! ### The handlers on a buffer whose other pointer is between increment and wrap -/

theorem tx_buf {b : RB Nat} {pc : DPc} {q : List Nat} (h : Rel (outView pc b) q) (hs : b.size < 65536)
    (hw : ∀ k, pc = .wPast k → b.w ≤ b.size ∧ (q ≠ [] ∨ b.w < b.size)) :
    (q = [] ∧ getLength b = 0) ∨
    (∃ v q' b', q = v :: q' ∧ getLength b ≠ 0 ∧ RingBuffer.read b = .ok (b', v) ∧ Rel (outView pc b') q' ∧ b'.size = b.size ∧ b'.w = b.w ∧ b'.buf = b.buf) := by
  by_cases hp : ∃ k, pc = .wPast k
  · obtain ⟨k, rfl⟩ := hp
    obtain ⟨hw1, hw2⟩ := hw k rfl
    have hb : outView (.wPast k) b = { b with w := wrap b.size b.w } := rfl
    rw [hb] at h
    cases q with
    | nil =>
      left
      have hlt : b.w < b.size := hw2.resolve_left (by simp)
      have e : wrap b.size b.w = b.w := by unfold wrap; rw [if_neg (by omega)]
      rw [e] at h
      exact ⟨rfl, getLength_rel h hs⟩
    | cons v q' =>
      right
      have hr := h.hr; have hl := h.hlen; have hq := h.hq; have hww := h.hw
      have hd := rel_drop h
      have hrd := read_rel h
      simp only at hr hl hq hww
      obtain ⟨s', e1, _, _⟩ := hrd
      have hlt : b.r < b.buf.length := by omega
      simp only [RingBuffer.read, cGet_ok hlt, Res.bind_ok, Res.ok.injEq, Prod.mk.injEq] at e1
      refine ⟨v, q', { b with r := wrap b.size (b.r + 1) }, rfl, ?_, ?_, hd, rfl, rfl, rfl⟩
      · unfold RingBuffer.getLength
        unfold wrap at hww
        simp only [List.length_cons] at hww hq
        by_cases hc : b.w ≥ b.r
        · rw [if_pos hc]
          have hne : b.w ≠ b.r := by
            intro e
            split at hww <;> split at hww <;> omega
          unfold toU
          omega
        · rw [if_neg hc]
          unfold toU
          omega
      · simp only [RingBuffer.read, cGet_ok hlt, Res.bind_ok, e1.2]
  · have e : ∀ b, outView pc b = b := by
      intro b
      cases pc with
      | wPast k => exact absurd ⟨k, rfl⟩ hp
      | _ => rfl
    rw [e] at h
    have hl := getLength_rel h hs
    cases q with
    | nil => exact Or.inl ⟨rfl, hl⟩
    | cons v q' =>
      right
      obtain ⟨b', h1, h2, h3⟩ := read_rel h
      refine ⟨v, q', b', rfl, by rw [hl]; simp, h1, by rw [e]; exact h2, h3, ?_⟩
      have hlt : b.r < b.buf.length := by have := h.hr; have := h.hlen; omega
      simp only [RingBuffer.read, cGet_ok hlt, Res.bind_ok, Res.ok.injEq, Prod.mk.injEq] at h1
      rw [← h1.1]
      exact ⟨rfl, rfl⟩

theorem room_lt {b : RB Nat} (hf : isFull b = false) (hr : b.r ≤ b.size) (h : b.w < b.r) : wrap b.size (b.w + 1) < b.r := by
  unfold isFull at hf
  unfold wrap
  split at hf
  · next hc => rw [if_pos hc]; omega
  · next hc => rw [if_neg hc]; simp only [decide_eq_false_iff_not] at hf; omega

theorem rx_buf {b : RB Nat} {pc : DPc} {q : List Nat} (v : Nat) (h : Rel (innView pc b) q)
    (hw : ∀ x k, pc = .rPast x k → b.r ≤ b.size ∧ (q.length + 1 < b.size ∨ b.r < b.size)) :
    ∃ b' a, RingBuffer.write b v = .ok (b', a) ∧ b'.size = b.size ∧ b'.r = b.r ∧ (b.w < b.r → b'.w < b'.r) ∧ isFull b = !a ∧
      ((a = false ∧ b' = b ∧ q.length + 1 = b.size) ∨ (a = true ∧ Rel (innView pc b') (q ++ [v]))) := by
  by_cases hp : ∃ x k, pc = .rPast x k ∧ q.length + 1 < b.size
  · obtain ⟨x, k, rfl, hq1⟩ := hp
    obtain ⟨hr1, -⟩ := hw x k rfl
    have hb : innView (.rPast x k) b = { b with r := wrap b.size b.r } := rfl
    rw [hb] at h
    have hr := h.hr; have hl := h.hlen; have hq := h.hq; have hww := h.hw; have hlt := h.hw_lt
    have hst := rel_store h v hq1
    have hcm := rel_commit hst v hq1 (by
      simp only
      rw [List.getElem?_set]
      simp only at hl hlt
      rw [if_pos rfl, if_pos (by omega)])
    simp only at hr hl hq hww hlt
    have hnf : isFull b = false := by
      unfold isFull
      unfold wrap at hww
      by_cases hc : b.w + 1 ≥ b.size
      · rw [if_pos hc]; simp only [decide_eq_false_iff_not]
        intro e
        split at hww <;> split at hww <;> omega
      · rw [if_neg hc]; simp only [decide_eq_false_iff_not]
        intro e
        split at hww <;> split at hww <;> omega
    refine ⟨{ b with buf := b.buf.set b.w v, w := wrap b.size (b.w + 1) }, true, ?_, rfl, rfl, room_lt hnf hr1, by rw [hnf]; rfl, Or.inr ⟨rfl, hcm⟩⟩
    have hlt' : b.w < b.buf.length := by omega
    simp only [RingBuffer.write, hnf, cSet_ok v hlt', Bool.false_eq_true, if_false, Res.bind_ok]
  · have e : ∀ b' : RB Nat, b'.size = b.size → b'.r = b.r → innView pc b' = b' := by
      intro b' hb1 hb2
      cases pc with
      | rPast x k =>
        have hlt : b.r < b.size := (hw x k rfl).2.resolve_left fun hq => hp ⟨x, k, rfl, hq⟩
        show { b' with r := wrap b'.size b'.r } = b'
        have : wrap b'.size b'.r = b'.r := by unfold wrap; rw [if_neg (by omega)]
        rw [this]
      | _ => rfl
    rw [e b rfl rfl] at h
    by_cases hf : q.length + 1 = b.size
    · exact ⟨b, false, write_full h v hf, rfl, rfl, id, by rw [isFull_rel h]; simp [hf], Or.inl ⟨rfl, rfl, hf⟩⟩
    · obtain ⟨b', h1, h2, h3⟩ := write_room h v (by have := h.hq; omega)
      refine ⟨b', true, h1, h3, (fun x => ⟨x.1, x.2.1, x.2.2, Or.inr ⟨rfl, by rw [e b' h3 x.1]; exact h2⟩⟩) (?_ : _ ∧ _ ∧ _)⟩
      have hlt : b.w < b.buf.length := by have := h.hw_lt; have := h.hlen; omega
      have hnf : isFull b = false := by
        rw [isFull_rel h]; simp only [decide_eq_false_iff_not]; exact hf
      simp only [RingBuffer.write, hnf, cSet_ok v hlt, Bool.false_eq_true, if_false, Res.bind_ok, Res.ok.injEq, Prod.mk.injEq] at h1
      rw [← h1.1]
      exact ⟨rfl, room_lt hnf (Nat.le_of_lt h.hr), by rw [hnf]; rfl⟩

/-! ### Preservation -/

theorem same_readB {h : Hw} {b0 : BitVec 8} (hs : Same h.ucsrb b0) : Same h.readB b0 :=
  fun j h0 h1 h5 h7 => (readB_bit _ j h1).trans (hs j h0 h1 h5 h7)

theorem wf_write {h : Hw} {b0 v : BitVec 8} (hw : Wf h) (h1 : Same h.ucsrb b0) (h2 : Same v b0) :
    Wf (h.writeB v) ∧ (h.writeB v).rx = h.rx := by
  have e : v.getLsbD 4 = h.ucsrb.getLsbD 4 := by
    rw [h1 4 (by omega) (by omega) (by omega) (by omega), h2 4 (by omega) (by omega) (by omega) (by omega)]
  refine ⟨?_, writeB_rx h hw v e⟩
  unfold Wf
  rw [writeB_rx h hw v e]
  show v.getLsbD 4 = true ∨ _
  rw [e]; exact hw

variable {n m : Nat} {b0 : BitVec 8} {d : Duplex} {qo qi : List Nat} {p : List Frame}

theorem write_inv (h : DInv n m b0 d qo qi p) (v : BitVec 8) (lim : Nat) :
    ∃ d' qo' qi' p', step lim d (.write v) = .ok d' ∧ DInv n m b0 d' qo' qi' p' := by
  cases hp : d.pc with
  | idle =>
    obtain ⟨orel, osize, obytes, order, irel, isize, taken, sub, count, few, small, wf, bits, rxie, on, pcok⟩ := h
    rw [hp] at orel irel sub count rxie on
    simp only [step, hp]
    by_cases hf : isFull d.out = true
    · simp only [hf, if_true]
      exact ⟨_, qo, qi, p, rfl, orel, osize, obytes, order, irel, isize, taken, sub, count, few, small, wf, bits, rxie, by simp [inWrite], Or.inl rfl, trivial⟩
    · simp only [hf]
      refine ⟨_, qo, qi, p, rfl, orel, osize, obytes, order, irel, isize, taken, sub, count, few, small, wf, bits, rxie, by simp [inWrite], ?_⟩
      have hr : Rel d.out qo := orel
      rw [isFull_rel hr] at hf
      have := hr.hq
      exact ⟨by simp at hf; show qo.length + 1 < d.out.size; omega, v.isLt⟩
  | _ => exact ⟨d, qo, qi, p, by simp only [step, hp], h⟩

theorem read_inv (h : DInv n m b0 d qo qi p) (lim : Nat) :
    ∃ d' qo' qi' p', step lim d .read = .ok d' ∧ DInv n m b0 d' qo' qi' p' := by
  cases hp : d.pc with
  | idle =>
    obtain ⟨orel, osize, obytes, order, irel, isize, taken, sub, count, few, small, wf, bits, rxie, on, pcok⟩ := h
    rw [hp] at orel irel sub count rxie on
    simp only [step, hp]
    refine ⟨_, qo, qi, p, rfl, orel, osize, obytes, order, irel, isize, taken, sub, count, few, small, wf, bits, rxie, on, ?_⟩
    intro hge
    simp only [decide_eq_false_iff_not] at hge
    show d.inn.w < d.inn.r
    omega
  | _ => exact ⟨d, qo, qi, p, by simp only [step, hp], h⟩

theorem main_inv (h : DInv n m b0 d qo qi p) (hm : m < 65536) (lim : Nat) :
    ∃ d' qo' qi' p', step lim d .main = .ok d' ∧ DInv n m b0 d' qo' qi' p' := by
  obtain ⟨orel, osize, obytes, order, irel, isize, taken, sub, count, few, small, wf, bits, rxie, on, pcok⟩ := h
  cases hp : d.pc with
  | idle =>
    exact ⟨d, qo, qi, p, by simp only [step, main, hp], orel, osize, obytes, order, irel, isize, taken, sub, count, few, small, wf, bits, rxie, on, pcok⟩
  | wChecked v =>
    rw [hp] at orel irel sub count rxie on pcok
    have hr : Rel d.out qo := orel
    have hlt : d.out.w < d.out.buf.length := by have := hr.hw_lt; have := hr.hlen; omega
    simp only [step, main, hp, cSet_ok v hlt, Res.bind_ok]
    refine ⟨_, qo, qi, p, rfl, rel_store hr v pcok.1, osize, obytes, order, irel, isize, taken, sub, count, few, small, wf, bits, rxie, by simp [inWrite], pcok.1, pcok.2, ?_⟩
    show (d.out.buf.set d.out.w v)[d.out.w]? = some v
    rw [List.getElem?_set, if_pos rfl, if_pos hlt]
  | wStored v =>
    rw [hp] at orel irel sub count rxie on pcok
    have hr : Rel d.out qo := orel
    have hlt := hr.hw_lt
    simp only [step, main, hp]
    refine ⟨_, qo ++ [v], qi, p, rfl, rel_commit hr v pcok.1 pcok.2.2, osize, ?_, ?_, irel, isize, taken, sub, count, few, small, wf, bits, rxie, by simp [inWrite], ?_, by simp⟩
    · intro x hx
      simp only [List.mem_append, List.mem_singleton] at hx
      rcases hx with hx | rfl
      · exact obytes x hx
      · exact pcok.2.1
    · show _ ++ (qo ++ [v]) = d.accepted ++ [v]
      rw [← order]; simp
    · show d.out.w + 1 ≤ d.out.size
      omega
  | wPast k =>
    rw [hp] at orel irel sub count rxie on pcok
    simp only [step, main, hp]
    exact ⟨_, qo, qi, p, rfl, orel, osize, obytes, order, irel, isize, taken, sub, count, few, small, wf, bits, rxie, by simp [inWrite], Or.inl rfl, trivial⟩
  | rmw i ph =>
    rw [hp] at orel irel sub count rxie on pcok
    obtain ⟨hi, pcok⟩ := pcok
    have hi8 : i < 8 := by omega
    cases ph with
    | start =>
      simp only [step, main, hp]
      refine ⟨_, qo, qi, p, rfl, orel, osize, obytes, order, irel, isize, taken, sub, count, few, small, wf, bits, rxie, on, hi, same_readB bits, ?_, ?_⟩
      · intro _; rw [readB_bit _ 7 (by omega)]; exact rxie rfl
      · intro e; subst e; rw [readB_bit _ 5 (by omega)]; exact on rfl
    | loaded1 v =>
      obtain ⟨hs, hx7, hx5⟩ := pcok
      have hs' : Same (clearBit i v) b0 := fun j h0 h1 h5 h7 => by
        rw [bit_clear i hi8, if_neg (by omega)]; exact hs j h0 h1 h5 h7
      obtain ⟨w1, w2⟩ := wf_write wf bits hs'
      simp only [step, main, hp]
      refine ⟨_, qo, qi, p, rfl, orel, osize, obytes, order, irel, isize, by rw [← taken, ← w2], sub, count, few, small, w1, hs', ?_, ?_, hi, trivial⟩
      · intro e
        have i5 : i = 5 := by
          rcases hi with rfl | rfl
          · rfl
          · simp [rxOff] at e
        subst i5
        show (clearBit 5 v).getLsbD 7 = _
        rw [bit_clear 5 (by omega), if_neg (by omega)]; exact hx7 rfl
      · intro e
        have i7 : i = 7 := by
          rcases hi with rfl | rfl
          · simp [inWrite] at e
          · rfl
        subst i7
        show (clearBit 7 v).getLsbD 5 = true ∨ _
        rw [bit_clear 7 (by omega), if_neg (by omega)]; exact hx5 rfl
    | cleared =>
      simp only [step, main, hp]
      refine ⟨_, qo, qi, p, rfl, orel, osize, obytes, order, irel, isize, taken, sub, count, few, small, wf, bits, rxie, on, hi, same_readB bits, ?_, ?_⟩
      · intro e; subst e; rw [readB_bit _ 7 (by omega)]; exact rxie rfl
      · intro e; subst e; rw [readB_bit _ 5 (by omega)]; exact on rfl
    | loaded2 v =>
      obtain ⟨hs, hx7, hx5⟩ := pcok
      have hs' : Same (setBit i v) b0 := fun j h0 h1 h5 h7 => by
        rw [bit_set i hi8, if_neg (by omega)]; exact hs j h0 h1 h5 h7
      obtain ⟨w1, w2⟩ := wf_write wf bits hs'
      simp only [step, main, hp]
      refine ⟨_, qo, qi, p, rfl, orel, osize, obytes, order, irel, isize, by rw [← taken, ← w2], sub, count, few, small, w1, hs', ?_, ?_, trivial⟩
      · intro _
        show (setBit i v).getLsbD 7 = (b0.getLsbD 7 || (d.asked || i == 7))
        rw [bit_set i hi8]
        rcases hi with rfl | rfl
        · rw [if_neg (by omega), hx7 rfl]; simp
        · simp
      · intro _
        show (setBit i v).getLsbD 5 = true ∨ _
        rw [bit_set i hi8]
        rcases hi with rfl | rfl
        · exact Or.inl (if_pos rfl)
        · rw [if_neg (by omega)]; exact hx5 rfl
  | rLoaded ge =>
    rw [hp] at orel irel sub count rxie on pcok
    have hr : Rel d.inn qi := irel
    have h1 := hr.hw; have h2 := hr.hr; have h3 := hr.hq; have h4 := hr.hw_lt
    simp only [step, main, hp]
    have key : (if ge then toU 16 ((d.inn.w : Int) - d.inn.r) else toU 16 ((d.inn.size : Int) - ((d.inn.r : Int) - d.inn.w))) = 0 ↔ qi = [] := by
      cases ge with
      | true =>
        simp only [if_true]
        rw [← List.length_eq_zero_iff]
        unfold toU
        split at h1 <;> omega
      | false =>
        have hq : d.inn.w < d.inn.r := pcok rfl
        simp only [Bool.false_eq_true, if_false]
        rw [← List.length_eq_zero_iff]
        unfold toU
        split at h1 <;> omega
    by_cases hq : qi = []
    · rw [if_pos (key.2 hq)]
      exact ⟨_, qo, qi, p, rfl, orel, osize, obytes, order, irel, isize, taken, sub, count, few, small, wf, bits, rxie, on, Or.inr rfl, trivial⟩
    · rw [if_neg (fun e => hq (key.1 e))]
      exact ⟨_, qo, qi, p, rfl, orel, osize, obytes, order, irel, isize, taken, sub, count, few, small, wf, bits, rxie, on, hq⟩
  | rReady =>
    rw [hp] at orel irel sub count rxie on pcok
    have hr : Rel d.inn qi := irel
    have hlt : d.inn.r < d.inn.buf.length := by have := hr.hr; have := hr.hlen; omega
    simp only [step, main, hp, cGet_ok hlt, Res.bind_ok]
    refine ⟨_, qo, qi, p, rfl, orel, osize, obytes, order, irel, isize, taken, sub, count, few, small, wf, bits, rxie, on, ?_⟩
    cases qi with
    | nil => exact absurd rfl pcok
    | cons v q' =>
      have hg := hr.hget 0 (by simp)
      simp only [Nat.add_zero, if_pos hr.hr, List.getElem_cons_zero, List.getElem?_eq_getElem hlt, Option.some.injEq] at hg
      exact ⟨q', by rw [hg]⟩
  | rGot v =>
    rw [hp] at orel irel sub count rxie on pcok
    obtain ⟨q', rfl⟩ := pcok
    have hr : Rel d.inn (v :: q') := irel
    have h2 := hr.hr; have h3 := hr.hq
    simp only [step, main, hp]
    refine ⟨_, qo, q', p, rfl, orel, osize, obytes, order, rel_drop hr, isize, taken, ?_, ?_, few, small, wf, bits, rxie, on, ?_, ?_⟩
    · show List.Sublist ((d.returned ++ [v]) ++ q') _
      have h' : List.Sublist (d.returned ++ v :: q') (goodBytes p) := sub
      rw [List.append_assoc]; exact h' 
    · have h' : d.returned.length + (v :: q').length + d.lost = (goodBytes p).length := count
      show (d.returned ++ [v]).length + q'.length + d.lost = _
      rw [List.length_append]
      simp only [List.length_cons, List.length_nil] at h' ⊢
      omega
    · show d.inn.r + 1 ≤ d.inn.size
      omega
    · intro _
      show q'.length + 1 < d.inn.size
      simpa using h3
  | rPast v k =>
    rw [hp] at orel irel sub count rxie on pcok
    simp only [step, main, hp]
    exact ⟨_, qo, qi, p, rfl, orel, osize, obytes, order, irel, isize, taken, sub, count, few, small, wf, bits, rxie, on, trivial⟩

theorem pcok_tx {asked : Bool} {out out' inn : RB Nat} {qo' : List Nat} (pc : DPc) (h : PcOk b0 asked out inn qo qi pc)
    (h1 : out'.size = out.size) (h2 : out'.w = out.w) (h3 : out'.buf = out.buf) (h4 : qo'.length ≤ qo.length) :
    PcOk b0 asked out' inn qo' qi (txPc pc) := by
  have hq : qo = [] → qo' = [] := fun e => by subst e; exact List.length_eq_zero_iff.1 (by simpa using h4)
  have hheld : ∀ i v, Held b0 asked qo i v → Held b0 asked qo' i v := fun i v hh =>
    ⟨hh.1, hh.2.1, fun e => (hh.2.2 e).imp id hq⟩
  cases pc with
  | wChecked v => exact ⟨by have := h.1; omega, h.2⟩
  | wStored v => exact ⟨by have := h.1; omega, h.2.1, by rw [h2, h3]; exact h.2.2⟩
  | wPast k => exact ⟨by rw [h1, h2]; exact h.1, by simp⟩
  | rmw i ph =>
    refine ⟨h.1, ?_⟩
    cases ph with
    | loaded1 v => exact hheld i v h.2
    | loaded2 v => exact hheld i v h.2
    | _ => trivial
  | _ => exact h

theorem pcok_rx {asked : Bool} {out inn inn' : RB Nat} {qi' : List Nat} (pc : DPc) (h : PcOk b0 asked out inn qo qi pc)
    (h1 : inn'.size = inn.size) (h2 : inn'.r = inn.r) (h0 : inn.w < inn.r → inn'.w < inn'.r) (h3 : ∃ l, qi' = qi ++ l) :
    PcOk b0 asked out inn' qo qi' (rxPc pc) := by
  obtain ⟨l, rfl⟩ := h3
  have hq : qi ≠ [] → qi ++ l ≠ [] := fun e => by simp [e]
  cases pc with
  | rLoaded ge => exact fun e => h0 (h e)
  | rReady => exact hq h
  | rGot v => obtain ⟨q', rfl⟩ := h; exact ⟨q' ++ l, rfl⟩
  | rPast v k => exact ⟨by rw [h1, h2]; exact h.1, by simp⟩
  | _ => exact h

theorem outView_txPc (pc : DPc) (b : RB Nat) : outView (txPc pc) b = outView pc b := by cases pc <;> rfl
theorem innView_txPc (pc : DPc) (b : RB Nat) : innView (txPc pc) b = innView pc b := by cases pc <;> rfl
theorem given_txPc (pc : DPc) (l : List Nat) : given (txPc pc) l = given pc l := by cases pc <;> rfl
theorem inWrite_txPc (pc : DPc) : inWrite (txPc pc) = inWrite pc := by cases pc <;> rfl
theorem rxOff_txPc (pc : DPc) : rxOff (txPc pc) = rxOff pc := by cases pc <;> rfl
theorem outView_rxPc (pc : DPc) (b : RB Nat) : outView (rxPc pc) b = outView pc b := by cases pc <;> rfl
theorem innView_rxPc (pc : DPc) (b : RB Nat) : innView (rxPc pc) b = innView pc b := by cases pc <;> rfl
theorem given_rxPc (pc : DPc) (l : List Nat) : given (rxPc pc) l = given pc l := by cases pc <;> rfl
theorem inWrite_rxPc (pc : DPc) : inWrite (rxPc pc) = inWrite pc := by cases pc <;> rfl
theorem rxOff_rxPc (pc : DPc) : rxOff (rxPc pc) = rxOff pc := by cases pc <;> rfl

theorem tx_inv_of (h : DInv n m b0 d qo qi p) (hn : n < 65536) (lim : Nat)
    (hsafe : ∀ k, d.pc = .wPast k → k < lim → d.hw.ucsrb.getLsbD 5 = true → d.hw.tx = none → qo ≠ [] ∨ d.out.w < d.out.size) :
    ∃ d' qo' qi' p', step lim d .txIsr = .ok d' ∧ DInv n m b0 d' qo' qi' p' := by
  by_cases hc : (isTrue 5 d.hw.ucsrb && getAcceptData d.hw && d.txWindow.all (· < lim)) = true
  · obtain ⟨orel, osize, obytes, order, irel, isize, taken, sub, count, few, small, wf, bits, rxie, on, pcok⟩ := h
    simp only [step, hc, if_true]
    simp only [Bool.and_eq_true] at hc
    obtain ⟨⟨hc1, hc2⟩, hc3⟩ := hc
    rw [isTrue_bit 5 (by omega)] at hc1
    have ht : d.hw.tx = none := by rw [accept_iff] at hc2; simpa using hc2
    have hwin : ∀ k, d.pc = .wPast k → d.out.w ≤ d.out.size ∧ (qo ≠ [] ∨ d.out.w < d.out.size) := by
      intro k hk
      simp only [txWindow, hk, Option.all_some, decide_eq_true_eq] at hc3
      have hs := hsafe k hk hc3 hc1 ht
      rw [hk] at pcok
      exact ⟨pcok.1, hs⟩
    rcases tx_buf orel (by omega) hwin with ⟨rfl, hl⟩ | ⟨v, q', b', rfl, hl, hrd, hrel, hsz, hw', hbuf⟩
    · obtain ⟨e1, e2, e3, e4, e5⟩ := bitB_effect 5 (by omega) (by omega) false d.hw wf
      simp only [OutStream.isr, hl, ne_eq, not_true_eq_false, if_false, Res.bind_ok]
      refine ⟨_, [], qi, p, rfl, ?_, osize, by simp, ?_, ?_, isize, ?_, ?_, ?_, few, small, bitB_wf 5 (by omega) (by omega) false _ wf, ?_, ?_, fun _ => Or.inr rfl,
        pcok_tx _ pcok rfl rfl rfl (Nat.le_refl _)⟩
      · simp only [outView_txPc]; exact orel
      · show (d.hw.bitB 5 false).line ++ (d.hw.bitB 5 false).shift.toList ++ (d.hw.bitB 5 false).tx.toList ++ [] = _
        rw [e3, e4, e5]; exact order
      · simp only [innView_txPc]; exact irel
      · show p ++ (d.hw.bitB 5 false).rx = _
        rw [e2]; exact taken
      · simp only [given_txPc]; exact sub
      · simp only [given_txPc]; exact count
      · intro j h0 h1 h5 h7
        show (d.hw.bitB 5 false).ucsrb.getLsbD j = _
        rw [e1 j h1, if_neg h5]; exact bits j h0 h1 h5 h7
      · simp only [rxOff_txPc]
        intro e
        show (d.hw.bitB 5 false).ucsrb.getLsbD 7 = _
        rw [e1 7 (by omega), if_neg (by omega)]; exact rxie e
    · obtain ⟨e1, e2, e3, e4, e5, e6⟩ := c57_write v d.hw wf ht
      have hv : v < 256 := obytes v (by simp)
      have e1' : (writeInternal v d.hw).tx = some v := by
        rw [e1]; congr 1; split <;> omega
      simp only [OutStream.isr, ne_eq, hl, not_false_eq_true, if_true, hrd, Res.bind_ok]
      refine ⟨_, q', qi, p, rfl, ?_, hsz.trans osize, fun x hx => obytes x (by simp [hx]), ?_, ?_, isize, ?_, ?_, ?_, few, small, ?_, ?_, ?_, ?_,
        pcok_tx _ pcok hsz hw' hbuf (by simp)⟩
      · simp only [outView_txPc]; exact hrel
      · show (writeInternal v d.hw).line ++ (writeInternal v d.hw).shift.toList ++ (writeInternal v d.hw).tx.toList ++ q' = d.accepted
        rw [e1', e5, e6, ← order, ht]; simp
      · simp only [innView_txPc]; exact irel
      · show p ++ (writeInternal v d.hw).rx = _
        rw [e4]; exact taken
      · simp only [given_txPc]; exact sub
      · simp only [given_txPc]; exact count
      · show (writeInternal v d.hw).ucsrb.getLsbD 4 = true ∨ (writeInternal v d.hw).rx = []
        rw [e2 4 (by omega) (by omega), e4]; exact wf
      · intro j h0 h1 h5 h7
        show (writeInternal v d.hw).ucsrb.getLsbD j = _
        rw [e2 j h0 h1]; exact bits j h0 h1 h5 h7
      · simp only [rxOff_txPc]
        intro e
        show (writeInternal v d.hw).ucsrb.getLsbD 7 = _
        rw [e2 7 (by omega) (by omega)]; exact rxie e
      · intro _
        left
        show (writeInternal v d.hw).ucsrb.getLsbD 5 = true
        rw [e2 5 (by omega) (by omega)]; exact hc1
  · exact ⟨d, qo, qi, p, by simp only [step, hc]; rfl, h⟩

theorem tx_inv (h : DInv n m b0 d qo qi p) (hn : n < 65536) (lim : Nat) (hlim : lim ≤ 1) :
    ∃ d' qo' qi' p', step lim d .txIsr = .ok d' ∧ DInv n m b0 d' qo' qi' p' :=
  tx_inv_of h hn lim fun k hk hl _ _ => by
    have := h.pcok
    rw [hk] at this
    exact Or.inl (this.2 (by omega))

theorem rx_inv_of (h : DInv n m b0 d qo qi p) (lim : Nat)
    (hsafe : ∀ x k f r, d.pc = .rPast x k → k < lim → d.hw.ucsrb.getLsbD 7 = true → d.hw.rx = f :: r → Frame.good f = true →
      qi.length + 1 < d.inn.size ∨ d.inn.r < d.inn.size) :
    ∃ d' qo' qi' p', step lim d .rxIsr = .ok d' ∧ DInv n m b0 d' qo' qi' p' := by
  by_cases hc : (isTrue 7 d.hw.ucsrb && rxComplete d.hw && d.rxWindow.all (· < lim)) = true
  · obtain ⟨orel, osize, obytes, order, irel, isize, taken, sub, count, few, small, wf, bits, rxie, on, pcok⟩ := h
    simp only [step, hc, if_true]
    simp only [Bool.and_eq_true] at hc
    obtain ⟨⟨hc1, hc2⟩, hc3⟩ := hc
    rw [complete_iff] at hc2
    rw [isTrue_bit 7 (by omega)] at hc1
    cases hx : d.hw.rx with
    | nil => rw [hx] at hc2; simp at hc2
    | cons f r =>
      have hf : f.data < 512 := small f (by rw [← taken, hx]; simp)
      obtain ⟨a, b, c⟩ := flags d.hw f r hx
      have g : (getResult d.hw = .success) ↔ Frame.good f = true := by
        unfold getResult Frame.good
        rw [a, b, c]
        cases f.fe <;> cases f.dor <;> cases f.upe <;> decide
      have rd := c57_read d.hw f r hx hf
      have tk : (p ++ [f]) ++ r = d.kept := by rw [← taken, hx]; simp
      have wf' : Wf { d.hw with rx := r } := by
        rcases wf with h | h
        · exact Or.inl h
        · rw [hx] at h; cases h
      have ht : (if d.hw.ucsrb.getLsbD 2 = true then f.data else f.data % 256) % 256 = f.data % 256 := by split <;> omega
      simp only [InStream.isr, rd, ht, g]
      by_cases hg : Frame.good f = true
      · simp only [hg, if_true]
        have hwin : ∀ x k, d.pc = .rPast x k → d.inn.r ≤ d.inn.size ∧ (qi.length + 1 < d.inn.size ∨ d.inn.r < d.inn.size) := by
          intro x k hk
          simp only [rxWindow, hk, Option.all_some, decide_eq_true_eq] at hc3
          have hs := hsafe x k f r hk hc3 hc1 hx hg
          rw [hk] at pcok
          exact ⟨pcok.1, hs⟩
        obtain ⟨b', acc, hb, hsz, hr', hlt, hfl, hcase⟩ := rx_buf (f.data % 256) irel hwin
        simp only [hb, Res.bind_ok]
        rcases hcase with ⟨rfl, rfl, hfull⟩ | ⟨rfl, hrel⟩
        · refine ⟨_, qo, qi, p ++ [f], rfl, ?_, osize, obytes, order, ?_, isize, tk, ?_, ?_, ?_, small, wf', bits, ?_, ?_, pcok_rx _ pcok rfl rfl id ⟨[], by simp⟩⟩
          · simp only [outView_rxPc]; exact orel
          · simp only [innView_rxPc]; exact irel
          · simp only [given_rxPc]; rw [goodBytes_snoc]; exact sub.trans (List.sublist_append_left _ _)
          · simp only [given_rxPc, hfl, Bool.not_false, and_self, if_true]
            rw [goodBytes_snoc, if_pos hg, List.length_append, ← count]; simp only [List.length_singleton]; omega
          · intro hl
            rw [List.length_append, List.length_singleton] at hl
            have h1 := few (by omega)
            have h3 := goodBytes_le p
            omega
          · simp only [rxOff_rxPc]; exact rxie
          · simp only [inWrite_rxPc]; exact on
        · refine ⟨_, qo, qi ++ [f.data % 256], p ++ [f], rfl, ?_, osize, obytes, order, ?_, hsz.trans isize, tk, ?_, ?_, ?_, small, wf', bits, ?_, ?_, pcok_rx _ pcok hsz hr' hlt ⟨_, rfl⟩⟩
          · simp only [outView_rxPc]; exact orel
          · simp only [innView_rxPc]; exact hrel
          · simp only [given_rxPc]; rw [goodBytes_snoc, if_pos hg, ← List.append_assoc]; exact sub.append_right _
          · simp only [given_rxPc, hfl, Bool.not_true, Bool.false_eq_true, and_false, if_false]
            rw [goodBytes_snoc, if_pos hg, List.length_append, List.length_append, ← count]; simp only [List.length_singleton]; omega
          · intro hl
            rw [List.length_append, List.length_singleton] at hl
            simp only [hfl, Bool.not_true, Bool.false_eq_true, and_false, if_false]
            exact few (by omega)
          · simp only [rxOff_rxPc]; exact rxie
          · simp only [inWrite_rxPc]; exact on
      · simp only [hg, Res.bind_ok]
        refine ⟨_, qo, qi, p ++ [f], rfl, ?_, osize, obytes, order, ?_, isize, tk, ?_, ?_, ?_, small, wf', bits, ?_, ?_, pcok_rx _ pcok rfl rfl id ⟨[], by simp⟩⟩
        · simp only [outView_rxPc]; exact orel
        · simp only [innView_rxPc]; exact irel
        · simp only [given_rxPc]; rw [goodBytes_snoc, if_neg hg, List.append_nil]; exact sub
        · simp only [given_rxPc, false_and, if_false]
          rw [goodBytes_snoc, if_neg hg, List.append_nil]; exact count
        · intro hl
          rw [List.length_append, List.length_singleton] at hl
          simp only [false_and, if_false]
          exact few (by omega)
        · simp only [rxOff_rxPc]; exact rxie
        · simp only [inWrite_rxPc]; exact on
  · exact ⟨d, qo, qi, p, by simp only [step, hc]; rfl, h⟩

theorem rx_inv (h : DInv n m b0 d qo qi p) (lim : Nat) (hlim : lim ≤ 1) :
    ∃ d' qo' qi' p', step lim d .rxIsr = .ok d' ∧ DInv n m b0 d' qo' qi' p' :=
  rx_inv_of h lim fun x k _ _ hk hl _ _ _ => by
    have := h.pcok
    rw [hk] at this
    exact Or.inl (this.2 (by omega))

/-- Frames have up to nine bits. -/
def evOk : DEv → Prop
  | .arrive f => f.data < 512
  | _ => True

theorem step_inv_of (h : DInv n m b0 d qo qi p) (hn : n < 65536) (hm : m < 65536) (lim : Nat) (e : DEv) (he : evOk e)
    (htx : e = .txIsr → ∀ k, d.pc = .wPast k → k < lim → d.hw.ucsrb.getLsbD 5 = true → d.hw.tx = none → qo ≠ [] ∨ d.out.w < d.out.size)
    (hrx : e = .rxIsr → ∀ x k f r, d.pc = .rPast x k → k < lim → d.hw.ucsrb.getLsbD 7 = true → d.hw.rx = f :: r → Frame.good f = true →
      qi.length + 1 < d.inn.size ∨ d.inn.r < d.inn.size) :
    ∃ d' qo' qi' p', step lim d e = .ok d' ∧ DInv n m b0 d' qo' qi' p' := by
  cases e with
  | write v => exact write_inv h v lim
  | read => exact read_inv h lim
  | main => exact main_inv h hm lim
  | txIsr => exact tx_inv_of h hn lim (htx rfl)
  | rxIsr => exact rx_inv_of h lim (hrx rfl)
  | arrive f =>
    by_cases hc : (isTrue 4 d.hw.ucsrb && decide (d.hw.rx.length < 3)) = true
    · obtain ⟨orel, osize, obytes, order, irel, isize, taken, sub, count, few, small, wf, bits, rxie, on, pcok⟩ := h
      simp only [step, hc, if_true]
      refine ⟨_, qo, qi, p, rfl, orel, osize, obytes, order, irel, isize, ?_, sub, count, few, ?_, ?_, bits, rxie, on, pcok⟩
      · show p ++ (d.hw.rx ++ [f]) = d.kept ++ [f]
        rw [← taken, List.append_assoc]
      · intro x hx
        simp only [List.mem_append, List.mem_singleton] at hx
        rcases hx with hx | rfl
        · exact small x hx
        · exact he
      · left
        rw [Bool.and_eq_true, isTrue_bit 4 (by omega)] at hc
        exact hc.1
    · simp only [step, hc]
      exact ⟨d, qo, qi, p, rfl, h⟩
  | frame =>
    obtain ⟨orel, osize, obytes, order, irel, isize, taken, sub, count, few, small, wf, bits, rxie, on, pcok⟩ := h
    refine ⟨_, qo, qi, p, rfl, orel, osize, obytes, ?_, irel, isize, taken, sub, count, few, small, wf, bits, rxie, on, pcok⟩
    show (d.hw.line ++ d.hw.shift.toList) ++ d.hw.tx.toList ++ [] ++ qo = d.accepted
    rw [← order]; simp
  | load =>
    by_cases hs : d.hw.shift = none
    · obtain ⟨orel, osize, obytes, order, irel, isize, taken, sub, count, few, small, wf, bits, rxie, on, pcok⟩ := h
      simp only [step, Hw.load, hs, if_true]
      refine ⟨_, qo, qi, p, rfl, orel, osize, obytes, ?_, irel, isize, taken, sub, count, few, small, wf, bits, rxie, on, pcok⟩
      show d.hw.line ++ d.hw.tx.toList ++ [] ++ qo = d.accepted
      rw [← order, hs]; simp
    · simp only [step, Hw.load, hs, if_false]
      exact ⟨d, qo, qi, p, rfl, h⟩

theorem step_inv (h : DInv n m b0 d qo qi p) (hn : n < 65536) (hm : m < 65536) (lim : Nat) (hlim : lim ≤ 1) (e : DEv) (he : evOk e) :
    ∃ d' qo' qi' p', step lim d e = .ok d' ∧ DInv n m b0 d' qo' qi' p' :=
  step_inv_of h hn hm lim e he
    (fun _ k hk hl _ _ => by
      have := h.pcok
      rw [hk] at this
      exact Or.inl (this.2 (by omega)))
    (fun _ x k _ _ hk hl _ _ _ => by
      have := h.pcok
      rw [hk] at this
      exact Or.inl (this.2 (by omega)))

theorem run_inv (hn : n < 65536) (hm : m < 65536) (lim : Nat) (hlim : lim ≤ 1) (es : List DEv) (hes : ∀ e ∈ es, evOk e) (h : DInv n m b0 d qo qi p) :
    ∃ d' qo' qi' p', run lim d es = .ok d' ∧ DInv n m b0 d' qo' qi' p' := by
  induction es generalizing d qo qi p with
  | nil => exact ⟨d, qo, qi, p, rfl, h⟩
  | cons e es ih =>
    obtain ⟨d1, a1, c1, p1, h1, i1⟩ := step_inv h hn hm lim hlim e (hes e (by simp))
    obtain ⟨d2, a2, c2, p2, h2, i2⟩ := ih (fun x hx => hes x (by simp [hx])) i1
    exact ⟨d2, a2, c2, p2, by simp only [run, h1, Res.bind_ok]; exact h2, i2⟩

theorem init_inv (g1 g2 : List Nat) (b : BitVec 8) (h1 : 0 < g1.length) (h2 : 0 < g2.length) :
    DInv g1.length g2.length b (init g1 g2 b) [] [] [] :=
  ⟨rel_mk g1 h1, rfl, by simp, rfl, rel_mk g2 h2, rfl, rfl, List.Sublist.slnil, rfl, fun _ => rfl, by simp [init], Or.inr rfl,
    fun _ _ _ _ _ => rfl, fun _ => by simp [init], fun _ => Or.inr rfl, trivial⟩

end Atl.Usart.Duplex
