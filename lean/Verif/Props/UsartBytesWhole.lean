import Verif.Props.UsartBytes
import Verif.Props.UsartWhole
/-
  C139: the interrupt driven USART streams with pointers moved byte by byte (C138) behave like those with undivided
  pointers (C108), and so as if every call were one indivisible step (C137).
-/
namespace Atl.Props
open Atl Atl.Usart Atl.RingBuffer

/-! ### Specification -/

/-- A run of a handler. -/
def isHandler : DEv → Bool
  | .txIsr | .rxIsr => true
  | _ => false

/-- The call main code makes now, at byte level. -/
def bCallNow (d : Bytes) (e : DEv) : List DEv := if d.pc = .idle ∧ isCall e = true then [e] else []

/-- What a call of `Read` returns now, at byte level, -1 included. -/
def bResultNow (d : Bytes) (e : DEv) : List Int :=
  if e = .main then
    match d.pc with
    | .rPast v _ => if d.inn.rp ≥ d.inn.base + d.inn.size then [] else [(v : Int)]
    | .rWrap v _ => [(v : Int)]
    | .rmw 7 (.loaded2 _) => [-1]
    | _ => []
  else []

/-- The calls main code makes in a history at byte level. -/
def bCalls (o : Order) (lim : Nat) (d : Bytes) : List DEv → List DEv
  | [] => []
  | e :: es => bCallNow d e ++ match Bytes.step o lim d e with | .ok d' => bCalls o lim d' es | .ub => []

/-- What the calls of `Read` return in a history at byte level. -/
def bResults (o : Order) (lim : Nat) (d : Bytes) : List DEv → List Int
  | [] => []
  | e :: es => bResultNow d e ++ match Bytes.step o lim d e with | .ok d' => bResults o lim d' es | .ub => []

/-- What can be seen of the streams from outside is the same: the bytes accepted and returned, the frames kept and refused, the transmitter, the receiver and the line; outside calls
    also how much both buffers hold and the control register. -/
def SameSeen (d : Bytes) (D : Duplex) : Prop :=
  D.accepted = d.accepted ∧ D.returned = d.returned ∧ D.kept = d.kept ∧ D.lost = d.lost ∧ D.asked = d.asked ∧
  D.hw.line = d.hw.line ∧ D.hw.shift = d.hw.shift ∧ D.hw.tx = d.hw.tx ∧ D.hw.rx = d.hw.rx ∧
  (d.pc = .idle → D.pc = .idle ∧ D.hw.ucsrb = d.hw.ucsrb ∧ getLength D.out = d.out.length ∧ getLength D.inn = d.inn.length)

/-- A history at byte level cut at places where main code is outside calls, and one with undivided pointers cut in as many pieces: in each piece the same hardware events, the same
    calls, the same results, no handler run but those of the piece, and after it the same to be seen. -/
def SamePieces (o : Order) (lim : Nat) (d : Bytes) (D : Duplex) : List (List DEv) → List (List DEv) → Prop
  | [], [] => True
  | es :: ess, fs :: fss => ∃ d' D', Bytes.run o lim d es = .ok d' ∧ Duplex.run lim D fs = .ok D' ∧ (∀ e ∈ fs, Duplex.evOk e) ∧
      fs.filter isHardware = es.filter isHardware ∧ (fs.filter isHandler).Sublist (es.filter isHandler) ∧
      callsMade lim D fs = bCalls o lim d es ∧ resultsAt lim D fs = bResults o lim d es ∧ SameSeen d' D' ∧ SamePieces o lim d' D' ess fss
  | _, _ => False

/-- Main code is outside calls at the end of every piece. -/
def CutIdle (o : Order) (lim : Nat) (d : Bytes) : List (List DEv) → Prop
  | [] => True
  | es :: ess => ∀ d', Bytes.run o lim d es = .ok d' → d'.pc = .idle ∧ CutIdle o lim d' ess

namespace BytesSim
open Atl.Usart.Bytes

/-! ### Histories of `Duplex` -/

theorem run_append {lim : Nat} (as bs : List DEv) : ∀ {d d' : Duplex}, Duplex.run lim d as = .ok d' → Duplex.run lim d (as ++ bs) = Duplex.run lim d' bs := by
  induction as with
  | nil => intro d d' h; injection h with h; subst h; rfl
  | cons a as ih =>
    intro d d' h
    obtain ⟨d1, s1, h1⟩ := dx_bind_ok h
    simp only [List.cons_append, Duplex.run, s1, Res.bind_ok, ih h1]

theorem calls_append {lim : Nat} (as bs : List DEv) : ∀ {d d' : Duplex}, Duplex.run lim d as = .ok d' → callsMade lim d (as ++ bs) = callsMade lim d as ++ callsMade lim d' bs := by
  induction as with
  | nil => intro d d' h; injection h with h; subst h; rfl
  | cons a as ih =>
    intro d d' h
    obtain ⟨d1, s1, h1⟩ := dx_bind_ok h
    simp only [List.cons_append, callsMade, s1, ih h1, List.append_assoc]

theorem results_append {lim : Nat} (as bs : List DEv) : ∀ {d d' : Duplex}, Duplex.run lim d as = .ok d' → resultsAt lim d (as ++ bs) = resultsAt lim d as ++ resultsAt lim d' bs := by
  induction as with
  | nil => intro d d' h; injection h with h; subst h; rfl
  | cons a as ih =>
    intro d d' h
    obtain ⟨d1, s1, h1⟩ := dx_bind_ok h
    simp only [List.cons_append, resultsAt, s1, ih h1, List.append_assoc]

/-- `D` is reached from `D0` by a history with the hardware events `H`, the calls `C`, some of the handler runs `I` and the results `R`. -/
def Reach (lim : Nat) (D0 : Duplex) (H C I : List DEv) (R : List Int) (D : Duplex) : Prop :=
  ∃ fs, Duplex.run lim D0 fs = .ok D ∧ (∀ e ∈ fs, Duplex.evOk e) ∧ fs.filter isHardware = H ∧ callsMade lim D0 fs = C ∧ (fs.filter isHandler).Sublist I ∧ resultsAt lim D0 fs = R

theorem Reach.go {lim : Nat} {D0 D D' : Duplex} {H C I H1 C1 I1 : List DEv} {R R1 : List Int} (h : Reach lim D0 H C I R D) (l : List DEv) (hr : Duplex.run lim D l = .ok D')
    (hev : ∀ e ∈ l, Duplex.evOk e) (hH : l.filter isHardware = H1) (hC : callsMade lim D l = C1) (hI : (l.filter isHandler).Sublist I1) (hR : resultsAt lim D l = R1) :
    Reach lim D0 (H ++ H1) (C ++ C1) (I ++ I1) (R ++ R1) D' := by
  obtain ⟨fs, a1, a2, a3, a4, a5, a6⟩ := h
  refine ⟨fs ++ l, by rw [run_append _ _ a1]; exact hr, ?_, by rw [List.filter_append, a3, hH], by rw [calls_append _ _ a1, a4, hC],
    by rw [List.filter_append]; exact a5.append hI, by rw [results_append _ _ a1, a6, hR]⟩
  intro e he
  rcases List.mem_append.1 he with he | he
  · exact a2 e he
  · exact hev e he

/-! ### The relation -/

/-- Places where UDRIE can be off although it is on with undivided pointers: the handler has run and seen an empty buffer in a half stored pointer. -/
def loose : BPc → Bool
  | .wInc _ _ | .wPast _ | .wWrap _ | .rmw 5 .start | .rmw 5 (.loaded1 _) => true
  | _ => false

structure HwSim (l : Bool) (h H : Hw) : Prop where
  rx : H.rx = h.rx
  tx : H.tx = h.tx
  shift : H.shift = h.shift
  line : H.line = h.line
  bits : ∀ j, j ≠ 5 → j ≠ 1 → H.ucsrb.getLsbD j = h.ucsrb.getLsbD j
  up : h.ucsrb.getLsbD 5 = true → H.ucsrb = h.ucsrb
  eq : l = false → H.ucsrb = h.ucsrb

theorem HwSim.same {l : Bool} {h H : Hw} (x : HwSim l h H) (hl : l = false ∨ h.ucsrb.getLsbD 5 = true) : H = h := by
  obtain ⟨a1, a2, a3, a4, a5, a6, a7⟩ := x
  have hb : H.ucsrb = h.ucsrb := hl.elim a7 a6
  cases H; cases h
  simp only at a1 a2 a3 a4 hb
  rw [a1, a2, a3, a4, hb]

theorem HwSim.refl (l : Bool) (h : Hw) : HwSim l h h := ⟨rfl, rfl, rfl, rfl, fun _ _ _ => rfl, fun _ => rfl, fun _ => rfl⟩

theorem HwSim.weaken {l l' : Bool} {h H : Hw} (x : HwSim l h H) (hl : l' = false → l = false) : HwSim l' h H :=
  ⟨x.rx, x.tx, x.shift, x.line, x.bits, x.up, fun e => x.eq (hl e)⟩

def RmwSim (i : Nat) : Rmw → Rmw → Prop
  | .start, .start => True
  | .loaded1 v, .loaded1 v' => clearBit i v' = clearBit i v
  | .cleared, .cleared => True
  | .loaded2 v, .loaded2 v' => v' = v
  | _, _ => False

/-- The write pointer of the output buffer: incremented with the first byte stored, wrapped with the last. -/
def OAt (base size wp w : Nat) : BPc → Prop
  | .wInc new _ => new = base + w
  | .wPast _ => wp = base + w
  | .wWrap _ => w = size
  | _ => wp = base + w

/-- Places of main code, and the read pointer of the input buffer: not yet incremented while it is being stored, unless the handler has stored a byte meanwhile. -/
def PcSim (base size rp r : Nat) : BPc → DPc → Prop
  | .wChecked v, q => q = .wChecked v ∧ rp = base + r
  | .wStored v, q => q = .wStored v ∧ rp = base + r
  | .wInc _ k, q | .wPast k, q | .wWrap k, q => (∃ k', k' ≤ k ∧ q = .wPast k') ∧ rp = base + r
  | .rmw i x, q => (∃ y, q = .rmw i y ∧ RmwSim i x y) ∧ rp = base + r
  | .rReady, q => q = .rReady ∧ rp = base + r
  | .rGot v, q => q = .rGot v ∧ rp = base + r
  | .rInc v new k, q => (q = .rGot v ∧ new = base + r + 1) ∨ (1 ≤ k ∧ (∃ k', q = .rPast v k') ∧ new = base + r)
  | .rPast v k, q => (q = .rGot v ∧ rp = base + r + 1) ∨ (1 ≤ k ∧ (∃ k', q = .rPast v k') ∧ rp = base + r)
  | .rWrap v k, q => (q = .rGot v ∧ r + 1 = size) ∨ (1 ≤ k ∧ (∃ k', q = .rPast v k') ∧ r = size)
  | _, q => q = .idle ∧ rp = base + r

structure Match (p1 p2 n m : Nat) (d : Bytes) (D : Duplex) : Prop where
  osize : D.out.size = n
  obuf : D.out.buf = d.out.buf
  orp : d.out.rp = p1 + D.out.r
  oat : OAt p1 n d.out.wp D.out.w d.pc
  isize : D.inn.size = m
  ibuf : D.inn.buf = d.inn.buf
  iwp : d.inn.wp = p2 + D.inn.w
  pcs : PcSim p2 m d.inn.rp D.inn.r d.pc D.pc
  hw : HwSim (loose d.pc) d.hw D.hw
  acc : D.accepted = d.accepted
  ret : D.returned = d.returned
  kept : D.kept = d.kept
  asked : D.asked = d.asked
  lost : D.lost = d.lost

variable {o : Order} {p1 p2 n m lim : Nat} {b0 : BitVec 8} {d d' : Bytes} {D : Duplex} {qo qi : List Nat} {p : List Frame}

theorem oat_none {pc : BPc} {base size wp w : Nat} (h : txWindow pc = none) (hp : OAt base size wp w pc) : wp = base + w := by
  cases pc <;> first | exact hp | (simp [txWindow] at h)

theorem pcs_none {pc : BPc} {q : DPc} {base size rp r : Nat} (h : rxWindow pc = none) (hp : PcSim base size rp r pc q) : rp = base + r := by
  cases pc <;> first | exact hp.2 | (simp [rxWindow] at h)

theorem out_rel (h : BInv o p1 p2 n m b0 d qo qi p) (M : Match p1 p2 n m d D) (hk : txWindow d.pc = none) : Rel D.out qo := by
  obtain ⟨w, r, a1, a2, a3⟩ := h.orel
  have e1 := opos_none hk a2
  have e2 := oat_none hk M.oat
  have e3 := M.orp
  have ew : D.out.w = w := by omega
  have er : D.out.r = r := by omega
  have : D.out = rb d.out w r := by
    have := M.osize; have := M.obuf; have := h.osize
    cases hD : D.out
    simp only [hD] at *
    unfold rb
    simp_all
  rw [this]; exact a3

theorem inn_rel (h : BInv o p1 p2 n m b0 d qo qi p) (M : Match p1 p2 n m d D) (hk : rxWindow d.pc = none) : Rel D.inn qi := by
  obtain ⟨w, r, a1, a2, a3⟩ := h.irel
  have e1 := ipos_none hk a2
  have e2 := pcs_none hk M.pcs
  have e3 := M.iwp
  have ew : D.inn.w = w := by omega
  have er : D.inn.r = r := by omega
  have : D.inn = rb d.inn w r := by
    have := M.isize; have := M.ibuf; have := h.isize
    cases hD : D.inn
    simp only [hD] at *
    unfold rb
    simp_all
  rw [this]; exact a3

/-! ### Handlers and hardware -/

theorem loose_tx (pc : BPc) : loose (txPc pc) = loose pc := by cases pc <;> rfl
theorem loose_rx (pc : BPc) : loose (rxPc pc) = loose pc := by cases pc <;> rfl
theorem oat_tx (pc : BPc) (base size wp w : Nat) : OAt base size wp w (txPc pc) = OAt base size wp w pc := by cases pc <;> rfl
theorem oat_rx (pc : BPc) (base size wp w : Nat) : OAt base size wp w (rxPc pc) = OAt base size wp w pc := by cases pc <;> rfl

/-- The handler has run at byte level only. -/
theorem pcs_tx_skip {pc : BPc} {q : DPc} {base size rp r : Nat} (h : PcSim base size rp r pc q) : PcSim base size rp r (txPc pc) q := by
  cases pc with
  | wInc new k => obtain ⟨⟨k', a, b⟩, c⟩ := h; exact ⟨⟨k', by omega, b⟩, c⟩
  | wPast k => obtain ⟨⟨k', a, b⟩, c⟩ := h; exact ⟨⟨k', by omega, b⟩, c⟩
  | wWrap k => obtain ⟨⟨k', a, b⟩, c⟩ := h; exact ⟨⟨k', by omega, b⟩, c⟩
  | _ => exact h

theorem pcs_tx {pc : BPc} {q : DPc} {base size rp r : Nat} (h : PcSim base size rp r pc q) : PcSim base size rp r (txPc pc) (Duplex.txPc q) := by
  cases pc with
  | wInc new k => obtain ⟨⟨k', a, rfl⟩, c⟩ := h; exact ⟨⟨k' + 1, by omega, rfl⟩, c⟩
  | wPast k => obtain ⟨⟨k', a, rfl⟩, c⟩ := h; exact ⟨⟨k' + 1, by omega, rfl⟩, c⟩
  | wWrap k => obtain ⟨⟨k', a, rfl⟩, c⟩ := h; exact ⟨⟨k' + 1, by omega, rfl⟩, c⟩
  | rmw i x => obtain ⟨⟨y, rfl, c⟩, e⟩ := h; exact ⟨⟨y, rfl, c⟩, e⟩
  | rInc v new k =>
    rcases h with ⟨rfl, c⟩ | ⟨a, ⟨k', rfl⟩, c⟩
    · exact Or.inl ⟨rfl, c⟩
    · exact Or.inr ⟨a, ⟨k', rfl⟩, c⟩
  | rPast v k =>
    rcases h with ⟨rfl, c⟩ | ⟨a, ⟨k', rfl⟩, c⟩
    · exact Or.inl ⟨rfl, c⟩
    · exact Or.inr ⟨a, ⟨k', rfl⟩, c⟩
  | rWrap v k =>
    rcases h with ⟨rfl, c⟩ | ⟨a, ⟨k', rfl⟩, c⟩
    · exact Or.inl ⟨rfl, c⟩
    · exact Or.inr ⟨a, ⟨k', rfl⟩, c⟩
  | _ => obtain ⟨rfl, c⟩ := h; exact ⟨rfl, c⟩

theorem pcs_tx_window {pc : BPc} {D : Duplex} {base size rp r : Nat} (h : PcSim base size rp r pc D.pc) (hw : (txWindow pc).all (· < lim) = true) :
    D.txWindow.all (· < lim) = true := by
  unfold Duplex.txWindow
  cases pc with
  | wInc new k => obtain ⟨⟨k', a, e⟩, c⟩ := h; rw [e]; simp [txWindow] at hw ⊢; omega
  | wPast k => obtain ⟨⟨k', a, e⟩, c⟩ := h; rw [e]; simp [txWindow] at hw ⊢; omega
  | wWrap k => obtain ⟨⟨k', a, e⟩, c⟩ := h; rw [e]; simp [txWindow] at hw ⊢; omega
  | rmw i x => obtain ⟨⟨y, e, c⟩, _⟩ := h; rw [e]; rfl
  | rInc v new k => rcases h with ⟨e, c⟩ | ⟨a, ⟨k', e⟩, c⟩ <;> rw [e] <;> rfl
  | rPast v k => rcases h with ⟨e, c⟩ | ⟨a, ⟨k', e⟩, c⟩ <;> rw [e] <;> rfl
  | rWrap v k => rcases h with ⟨e, c⟩ | ⟨a, ⟨k', e⟩, c⟩ <;> rw [e] <;> rfl
  | _ => obtain ⟨e, c⟩ := h; rw [e]; rfl

/-- With an unwrapped write pointer a buffer in which bytes wait is not empty. -/
theorem length_window {b : Ring} {s : RB Nat} {w r : Nat} {q : List Nat} {pc : BPc} (hrel : Rel (rb b w r) q) (hn : b.size < 65536) (hs : s.size = b.size) (hr : s.r = r)
    (hp : OPos o b.base b.size b.wp w pc) (ha : OAt b.base b.size b.wp s.w pc) (hq : q ≠ []) : getLength s ≠ 0 := by
  have h1 : w = if r + q.length < b.size then r + q.length else r + q.length - b.size := hrel.hw
  have h2 : r < b.size := hrel.hr
  have h3 : q.length < b.size := hrel.hq
  have h4 : 0 < q.length := List.length_pos_iff.2 hq
  have hw : (s.w = w ∨ (s.w = b.size ∧ w = 0)) := by
    have gen : ∀ x, x ≤ b.size → s.w = x → w = RingBuffer.wrap b.size x → (s.w = w ∨ (s.w = b.size ∧ w = 0)) := by
      intro x hx e1 e2
      unfold RingBuffer.wrap at e2
      split at e2 <;> omega
    cases pc with
    | wInc new k => obtain ⟨x, c1, c2, c3, c4⟩ := hp; exact gen (x + 1) (by omega) (by have : new = b.base + s.w := ha; omega) c4
    | wPast k => obtain ⟨x, c1, c2, c3⟩ := hp; exact gen x (by omega) (by have : b.wp = b.base + s.w := ha; omega) c3
    | wWrap k => exact Or.inr ⟨ha, hp.2⟩
    | _ => left; have e1 : b.wp = b.base + s.w := ha; have e2 : b.wp = b.base + w := hp; omega
  unfold getLength toU
  rw [hr, hs]
  split at h1 <;> split <;> omega

theorem tx_match (hlim : lim ≤ 1) (hn : n < 65536) (h : BInv o p1 p2 n m b0 d qo qi p) (M : Match p1 p2 n m d D) (hs : Bytes.step o lim d .txIsr = .ok d') :
    ∃ l D', Duplex.run lim D l = .ok D' ∧ (l = [] ∨ l = [.txIsr]) ∧ Match p1 p2 n m d' D' := by
  by_cases hc : (isTrue 5 d.hw.ucsrb && getAcceptData d.hw && (txWindow d.pc).all (· < lim)) = true
  · simp only [Bytes.step, hc, if_true] at hs
    simp only [Bool.and_eq_true] at hc
    obtain ⟨⟨hc1, hc2⟩, hc3⟩ := hc
    have hc1' := hc1
    rw [isTrue_bit 5 (by omega)] at hc1
    have eh : D.hw = d.hw := M.hw.same (Or.inr hc1)
    have hcD : (isTrue 5 D.hw.ucsrb && getAcceptData D.hw && D.txWindow.all (· < lim)) = true := by
      rw [eh, hc1', hc2, pcs_tx_window M.pcs hc3]; rfl
    obtain ⟨osize, obuf, orp, oat, isize, ibuf, iwp, pcs, hw, acc, ret, kept, asked, lost⟩ := M
    obtain ⟨w, r, hr, hwp, hrel⟩ := h.orel
    have hr' : d.out.rp = d.out.base + r := by rw [h.obase]; exact hr
    have er : D.out.r = r := by omega
    have hlen : txWindow d.pc = none → d.out.length = qo.length := fun hk =>
      ring_length hrel (by rw [h.osize]; exact hn) (by rw [h.obase]; exact opos_none hk hwp) hr'
    have hwin : txWindow d.pc ≠ none → qo ≠ [] := by
      intro hne
      cases hk : txWindow d.pc with
      | none => exact absurd hk hne
      | some k =>
        rw [hk] at hc3
        simp only [Option.all_some, decide_eq_true_eq] at hc3
        exact pcok_tx_win hk h.pcok (by omega)
    by_cases hl : d.out.length = 0
    · simp only [txHandler, hl, ne_eq, not_true_eq_false, if_false, Res.bind_ok, Res.ok.injEq] at hs
      subst hs
      by_cases hk : txWindow d.pc = none
      · have hq : qo = [] := List.length_eq_zero_iff.1 ((hlen hk).symm.trans hl)
        have hDl : getLength D.out = 0 := by
          rw [getLength_rel (out_rel h ⟨osize, obuf, orp, oat, isize, ibuf, iwp, pcs, hw, acc, ret, kept, asked, lost⟩ hk) (by rw [osize]; exact hn), hq]; rfl
        refine ⟨[.txIsr], { D with hw := D.hw.bitB 5 false, pc := Duplex.txPc D.pc }, ?_, Or.inr rfl, osize, obuf, orp, by rw [oat_tx]; exact oat, isize, ibuf, iwp, pcs_tx pcs, ?_, acc, ret, kept, asked, lost⟩
        · simp only [Duplex.run, Duplex.step, hcD, if_true, OutStream.isr, hDl, ne_eq, not_true_eq_false, if_false, Res.bind_ok]
        · show HwSim _ (d.hw.bitB 5 false) (D.hw.bitB 5 false)
          rw [eh]; exact HwSim.refl _ _
      · refine ⟨[], D, rfl, Or.inl rfl, osize, obuf, orp, by rw [oat_tx]; exact oat, isize, ibuf, iwp, pcs_tx_skip pcs, ?_, acc, ret, kept, asked, lost⟩
        obtain ⟨e1, e2, e3, e4, e5⟩ := bitB_effect 5 (by omega) (by omega) false d.hw h.wf
        have hlo : loose (txPc d.pc) = true := by
          cases hpc : d.pc <;> first | rfl | (rw [hpc] at hk; exact absurd rfl hk)
        refine ⟨hw.rx.trans e2.symm, hw.tx.trans e3.symm, hw.shift.trans e4.symm, hw.line.trans e5.symm, fun j h5 h1 => ?_, fun hx => ?_, fun hx => ?_⟩
        · rw [e1 j h1, if_neg h5]; exact hw.bits j h5 h1
        · exfalso
          have hx' : (d.hw.bitB 5 false).ucsrb.getLsbD 5 = true := hx
          rw [e1 5 (by omega)] at hx'
          simp at hx'
        · exfalso
          have hx' : loose (txPc d.pc) = false := hx
          rw [hlo] at hx'; cases hx'
    · have hne : qo ≠ [] := by
        by_cases hk : txWindow d.pc = none
        · intro e; rw [hlen hk, e] at hl; exact hl rfl
        · exact hwin hk
      obtain ⟨v, q', rfl⟩ := List.exists_cons_of_ne_nil hne
      obtain ⟨hrd, -⟩ := ring_read hrel hr'
      have hDl : getLength D.out ≠ 0 := length_window (o := o) (pc := d.pc) hrel (by rw [h.osize]; exact hn) (by rw [h.osize]; exact osize) er
        (by rw [h.obase, h.osize]; exact hwp) (by rw [h.obase, h.osize]; exact oat) hne
      have hg := hrel.hget 0 (by simp)
      have h2 := hrel.hr
      simp only [Nat.add_zero, if_pos h2, List.getElem_cons_zero] at hg
      simp only [rb] at hg
      simp only [txHandler, ne_eq, hl, not_false_eq_true, if_true, hrd, Res.bind_ok, Res.ok.injEq] at hs
      subst hs
      refine ⟨[.txIsr], { D with out := { D.out with r := RingBuffer.wrap D.out.size (D.out.r + 1) }, hw := writeInternal v D.hw, pc := Duplex.txPc D.pc }, ?_, Or.inr rfl, osize, obuf, ?_,
        by rw [oat_tx]; exact oat, isize, ibuf, iwp, pcs_tx pcs, ?_, acc, ret, kept, asked, lost⟩
      · simp only [Duplex.run, Duplex.step, hcD, if_true, OutStream.isr, ne_eq, hDl, not_false_eq_true, RingBuffer.read, obuf, er, cGet, hg, Res.bind_ok]
      · show d.out.base + RingBuffer.wrap d.out.size (r + 1) = p1 + RingBuffer.wrap D.out.size (D.out.r + 1)
        rw [er, osize, h.osize, h.obase]
      · show HwSim _ (writeInternal v d.hw) (writeInternal v D.hw)
        rw [eh]; exact HwSim.refl _ _
  · simp only [Bytes.step, hc] at hs
    injection hs with hs
    subst hs
    exact ⟨[], D, rfl, Or.inl rfl, M⟩

theorem pcs_rx_window {pc : BPc} {D : Duplex} {base size rp r : Nat} (hlim : lim ≤ 1) (h : PcSim base size rp r pc D.pc) (hw : (rxWindow pc).all (· < lim) = true) :
    D.rxWindow = none ∧ Duplex.rxPc D.pc = D.pc := by
  unfold Duplex.rxWindow
  cases pc with
  | wInc new k => obtain ⟨⟨k', a, e⟩, c⟩ := h; rw [e]; exact ⟨rfl, rfl⟩
  | wPast k => obtain ⟨⟨k', a, e⟩, c⟩ := h; rw [e]; exact ⟨rfl, rfl⟩
  | wWrap k => obtain ⟨⟨k', a, e⟩, c⟩ := h; rw [e]; exact ⟨rfl, rfl⟩
  | rmw i x => obtain ⟨⟨y, e, c⟩, _⟩ := h; rw [e]; exact ⟨rfl, rfl⟩
  | rInc v new k =>
    rcases h with ⟨e, c⟩ | ⟨a, ⟨k', e⟩, c⟩
    · rw [e]; exact ⟨rfl, rfl⟩
    · simp [rxWindow] at hw; omega
  | rPast v k =>
    rcases h with ⟨e, c⟩ | ⟨a, ⟨k', e⟩, c⟩
    · rw [e]; exact ⟨rfl, rfl⟩
    · simp [rxWindow] at hw; omega
  | rWrap v k =>
    rcases h with ⟨e, c⟩ | ⟨a, ⟨k', e⟩, c⟩
    · rw [e]; exact ⟨rfl, rfl⟩
    · simp [rxWindow] at hw; omega
  | _ => obtain ⟨e, c⟩ := h; rw [e]; exact ⟨rfl, rfl⟩

/-- The handler has run with the place of main code unchanged on the other side. -/
theorem pcs_rx {pc : BPc} {q : DPc} {base size rp r : Nat} (h : PcSim base size rp r pc q) : PcSim base size rp r (rxPc pc) q := by
  cases pc with
  | rInc v new k => exact h.imp id fun ⟨a, b⟩ => ⟨by omega, b⟩
  | rPast v k => exact h.imp id fun ⟨a, b⟩ => ⟨by omega, b⟩
  | rWrap v k => exact h.imp id fun ⟨a, b⟩ => ⟨by omega, b⟩
  | _ => exact h

theorem ring_write_buf {b : Ring} {w r : Nat} {q : List Nat} (v : Nat) (h : Rel (rb b w r) q) (hw : b.wp = b.base + w) (hf : b.isFull b.rp = false) :
    b.write v = .ok ({ b with buf := b.buf.set w v, wp := b.base + RingBuffer.wrap b.size (w + 1) }, true) := by
  simp only [Ring.write, hf, Bool.false_eq_true, if_false, ring_put v h hw, Res.bind_ok, hw]
  rw [Nat.add_assoc]
  exact congrArg (fun x => Res.ok (({ b with buf := b.buf.set w v, wp := x } : Ring), true)) (wrap_base { b with buf := b.buf.set w v } (w + 1))

/-- The read pointer of main code not yet incremented on the other side: full there. -/
theorem lag_full {b : Ring} {s : RB Nat} {w r v k : Nat} {q : List Nat} {pc : BPc} (hrel : Rel (rb b w r) q) (hw : b.wp = b.base + w) (hm : b.size ≤ 256)
    (hp : IPos o b.base b.size b.rp r pc) (hk : rxWindow pc = some k) (hroom : q.length + 1 < b.size) (hf : b.isFull b.rp = true)
    (hs : s.size = b.size) (hsw : s.w = w) (ha : PcSim b.base b.size b.rp s.r pc (.rGot v)) : isFull s = true := by
  obtain ⟨h5, -⟩ := refuse_full hrel hw hm hp hf
  have h1 : w = if r + q.length < b.size then r + q.length else r + q.length - b.size := hrel.hw
  have h2 : r < b.size := hrel.hr
  have hr : s.r < b.size ∧ r = RingBuffer.wrap b.size (s.r + 1) := by
    cases pc with
    | rInc v' new k' =>
      obtain ⟨x, c1, c2, c3, c4⟩ := hp
      rcases ha with ⟨_, e⟩ | ⟨_, ⟨_, e⟩, _⟩
      · have : x = s.r := by omega
        subst this; exact ⟨c1, c4⟩
      · cases e
    | rPast v' k' =>
      obtain ⟨x, c1, c2, c3⟩ := hp
      rcases ha with ⟨_, e⟩ | ⟨_, ⟨_, e⟩, _⟩
      · have : x = s.r + 1 := by omega
        subst this; exact ⟨by omega, c3⟩
      · cases e
    | rWrap v' k' =>
      rcases ha with ⟨_, e⟩ | ⟨_, ⟨_, e⟩, _⟩
      · refine ⟨by omega, ?_⟩
        rw [hp.2, e]; simp [RingBuffer.wrap]
      · cases e
    | _ => simp [rxWindow] at hk
  obtain ⟨hr1, hr2⟩ := hr
  unfold RingBuffer.wrap at hr2
  unfold isFull
  rw [hs, hsw]
  split at hr2 <;> split at h1 <;> split <;> exact decide_eq_true (by omega)

/-- Where main code is in the window of its read pointer, not yet incremented on the other side. -/
theorem lag_pos {pc : BPc} {base size rp r k x : Nat} {q : DPc} (hlim : lim ≤ 1) (hp : IPos o base size rp r pc) (hk : rxWindow pc = some k) (hkl : k < lim)
    (ha : PcSim base size rp x pc q) :
    ∃ v, q = .rGot v ∧ x < size ∧ r = RingBuffer.wrap size (x + 1) ∧ ∀ y, PcSim base size rp (x + 1) (rxPc pc) (.rPast v y) := by
  cases pc with
  | rInc v' new k' =>
    simp only [rxWindow, Option.some.injEq] at hk
    obtain ⟨y, c1, c2, c3, c4⟩ := hp
    rcases ha with ⟨e1, e⟩ | ⟨e1, ⟨_, e⟩, _⟩
    · have : y = x := by omega
      subst this; exact ⟨v', e1, c1, c4, fun z => Or.inr ⟨by omega, ⟨z, rfl⟩, by omega⟩⟩
    · omega
  | rPast v' k' =>
    simp only [rxWindow, Option.some.injEq] at hk
    obtain ⟨y, c1, c2, c3⟩ := hp
    rcases ha with ⟨e1, e⟩ | ⟨e1, ⟨_, e⟩, _⟩
    · have : y = x + 1 := by omega
      subst this; exact ⟨v', e1, by omega, c3, fun z => Or.inr ⟨by omega, ⟨z, rfl⟩, by omega⟩⟩
    · omega
  | rWrap v' k' =>
    simp only [rxWindow, Option.some.injEq] at hk
    rcases ha with ⟨e1, e⟩ | ⟨e1, ⟨_, e⟩, _⟩
    · refine ⟨v', e1, by omega, ?_, fun z => Or.inr ⟨by omega, ⟨z, rfl⟩, by omega⟩⟩
      rw [hp.2, e]; simp [RingBuffer.wrap]
    · omega
  | _ => simp [rxWindow] at hk

theorem rx_match (hlim : lim ≤ 1) (hm : m ≤ 256) (h : BInv o p1 p2 n m b0 d qo qi p) (M : Match p1 p2 n m d D) (hs : Bytes.step o lim d .rxIsr = .ok d') :
    ∃ l D', Duplex.run lim D l = .ok D' ∧ (l = [] ∨ l = [.rxIsr] ∨ (l = [.main, .rxIsr] ∧ ∃ v, D.pc = .rGot v)) ∧ Match p1 p2 n m d' D' := by
  by_cases hc : (isTrue 7 d.hw.ucsrb && rxComplete d.hw && (rxWindow d.pc).all (· < lim)) = true
  · simp only [Bytes.step, hc, if_true] at hs
    simp only [Bool.and_eq_true] at hc
    obtain ⟨⟨hc1, hc2⟩, hc3⟩ := hc
    rw [isTrue_bit 7 (by omega)] at hc1
    obtain ⟨osize, obuf, orp, oat, isize, ibuf, iwp, pcs, hw, acc, ret, kept, asked, lost⟩ := M
    obtain ⟨hwn, hpc⟩ := pcs_rx_window hlim pcs hc3
    have hcD : ∀ q : DPc, (isTrue 7 D.hw.ucsrb && rxComplete D.hw) = true := by
      intro q
      rw [isTrue_bit 7 (by omega), hw.bits 7 (by omega) (by omega), hc1, complete_iff, hw.rx, ← complete_iff, hc2]; rfl
    have hcD := hcD .idle
    rw [complete_iff] at hc2
    cases hx : d.hw.rx with
    | nil => rw [hx] at hc2; simp at hc2
    | cons f t =>
      have hxD : D.hw.rx = f :: t := hw.rx.trans hx
      have hf : f.data < 512 := h.small f (by rw [← h.taken, hx]; simp)
      have rd := c57_read d.hw f t hx hf
      have rdD := c57_read D.hw f t hxD hf
      have ht : ∀ h : Hw, (if h.ucsrb.getLsbD 2 = true then f.data else f.data % 256) % 256 = f.data % 256 := fun h => by split <;> omega
      have hA : D.hw.readA = d.hw.readA := by unfold Hw.readA; rw [hw.tx, hw.rx]
      have hg : getResult D.hw = getResult d.hw := by unfold getResult; rw [hA]
      have hw' : ∀ pc, loose pc = loose d.pc → HwSim (loose pc) { d.hw with rx := t } { D.hw with rx := t } := fun pc e =>
        ⟨rfl, hw.tx, hw.shift, hw.line, hw.bits, hw.up, fun e' => hw.eq (e ▸ e')⟩
      obtain ⟨w, r, hwp, hr, hrel⟩ := h.irel
      have hwb : d.inn.wp = d.inn.base + w := by rw [h.ibase]; exact hwp
      have ew : D.inn.w = w := by omega
      simp only [rxHandler, rd, ht] at hs
      by_cases hgd : getResult d.hw = .success
      · simp only [hgd, if_true, true_and] at hs
        by_cases hfull : d.inn.isFull d.inn.rp = true
        · have hb : d.inn.write (f.data % 256) = .ok (d.inn, false) := by simp only [Ring.write, hfull, if_true]
          simp only [hb, hfull, Res.bind_ok, if_true, Res.ok.injEq] at hs
          subst hs
          have hD : isFull D.inn = true := by
            cases hk : rxWindow d.pc with
            | none =>
              rw [isFull_rel (inn_rel h ⟨osize, obuf, orp, oat, isize, ibuf, iwp, pcs, hw, acc, ret, kept, asked, lost⟩ hk)]
              rw [isize, ← h.isize]
              have hrp : d.inn.rp = d.inn.base + r := by rw [h.ibase]; exact ipos_none hk hr
              rw [hrp, ring_full hrel hwb] at hfull
              exact hfull
            | some k =>
              rw [hk] at hc3
              simp only [Option.all_some, decide_eq_true_eq] at hc3
              obtain ⟨v, e1, -⟩ := lag_pos hlim hr hk hc3 pcs
              rw [e1] at pcs
              exact lag_full (o := o) hrel hwb (by rw [h.isize]; exact hm) (by rw [h.ibase, h.isize]; exact hr) hk (pcok_rx_win hk h.pcok (by omega)) hfull
                (by rw [h.isize]; exact isize) ew (by rw [h.ibase, h.isize]; exact pcs)
          refine ⟨[.rxIsr], { D with hw := { D.hw with rx := t }, lost := D.lost + 1 }, ?_, Or.inr (Or.inl rfl), osize, obuf, orp, by rw [oat_rx]; exact oat, isize, ibuf, iwp, pcs_rx pcs,
            hw' _ (loose_rx _), acc, ret, kept, asked, congrArg (· + 1) lost⟩
          simp only [Duplex.run, Duplex.step, hcD, hwn, Option.all_none, Bool.and_true, if_true, InStream.isr, hg, hgd, rdD, ht, RingBuffer.write, hD, Res.bind_ok, and_self, hpc]
        · have hfull' : d.inn.isFull d.inn.rp = false := by simpa using hfull
          have hb := ring_write_buf (f.data % 256) hrel hwb hfull'
          simp only [hb, hfull', Res.bind_ok, Bool.false_eq_true, if_false, Res.ok.injEq] at hs
          subst hs
          have hl := hrel.hlen; have hlt := hrel.hw_lt
          simp only [rb] at hl hlt
          have hcs : cSet D.inn.buf D.inn.w (f.data % 256) = .ok (D.inn.buf.set D.inn.w (f.data % 256)) := cSet_ok _ (by rw [ibuf]; omega)
          cases hk : rxWindow d.pc with
          | none =>
            have hD : isFull D.inn = false := by
              rw [isFull_rel (inn_rel h ⟨osize, obuf, orp, oat, isize, ibuf, iwp, pcs, hw, acc, ret, kept, asked, lost⟩ hk)]
              rw [isize, ← h.isize]
              have hrp : d.inn.rp = d.inn.base + r := by rw [h.ibase]; exact ipos_none hk hr
              rw [hrp, ring_full hrel hwb] at hfull'
              exact hfull'
            refine ⟨[.rxIsr], { D with inn := { D.inn with buf := D.inn.buf.set D.inn.w (f.data % 256), w := RingBuffer.wrap D.inn.size (D.inn.w + 1) }, hw := { D.hw with rx := t } }, ?_,
              Or.inr (Or.inl rfl), osize, obuf, orp, by rw [oat_rx]; exact oat, isize, ?_, ?_, pcs_rx pcs, hw' _ (loose_rx _), acc, ret, kept, asked, lost⟩
            · simp only [Duplex.run, Duplex.step, hcD, hwn, Option.all_none, Bool.and_true, if_true, InStream.isr, hg, hgd, rdD, ht, RingBuffer.write, hD, hcs, Res.bind_ok, hpc,
                Bool.false_eq_true, if_false, and_false]
            · show D.inn.buf.set D.inn.w _ = d.inn.buf.set w _
              rw [ibuf, ew]
            · show d.inn.base + RingBuffer.wrap d.inn.size (w + 1) = p2 + RingBuffer.wrap D.inn.size (D.inn.w + 1)
              rw [ew, isize, h.isize, h.ibase]
          | some k =>
            rw [hk] at hc3
            simp only [Option.all_some, decide_eq_true_eq] at hc3
            obtain ⟨v, e1, e2, e3, e4⟩ := lag_pos hlim hr hk hc3 pcs
            have hroom := pcok_rx_win hk h.pcok (by omega : k = 0)
            have hD : isFull { D.inn with r := D.inn.r + 1 } = false := by
              have h1 : w = if r + qi.length < d.inn.size then r + qi.length else r + qi.length - d.inn.size := hrel.hw
              have h2 : r < d.inn.size := hrel.hr
              have h3 := h.isize
              unfold RingBuffer.wrap at e3
              unfold isFull
              simp only [isize, ew]
              split at e3 <;> split at h1 <;> split <;> exact decide_eq_false (by omega)
            refine ⟨[.main, .rxIsr], { D with inn := { D.inn with buf := D.inn.buf.set D.inn.w (f.data % 256), w := RingBuffer.wrap D.inn.size (D.inn.w + 1), r := D.inn.r + 1 },
                                              hw := { D.hw with rx := t }, pc := .rPast v 1 }, ?_,
              Or.inr (Or.inr ⟨rfl, v, e1⟩), osize, obuf, orp, by rw [oat_rx]; exact oat, isize, ?_, ?_, e4 1, hw' _ (loose_rx _), acc, ret, kept, asked, lost⟩
            · have hlim1 : lim = 1 := by omega
              subst hlim1
              simp only [Duplex.run, Duplex.step, Duplex.main, e1, Res.bind_ok, Duplex.rxWindow, Option.all_some, hcD, Nat.lt_add_one, decide_true, Bool.and_true, if_true, InStream.isr, hg, hgd, rdD, ht,
                RingBuffer.write, hD, hcs, Bool.false_eq_true, if_false, and_false, Duplex.rxPc]
            · show D.inn.buf.set D.inn.w _ = d.inn.buf.set w _
              rw [ibuf, ew]
            · show d.inn.base + RingBuffer.wrap d.inn.size (w + 1) = p2 + RingBuffer.wrap D.inn.size (D.inn.w + 1)
              rw [ew, isize, h.isize, h.ibase]
      · simp only [hgd, if_false, Res.bind_ok, false_and, Res.ok.injEq] at hs
        subst hs
        refine ⟨[.rxIsr], { D with hw := { D.hw with rx := t } }, ?_, Or.inr (Or.inl rfl), osize, obuf, orp, by rw [oat_rx]; exact oat, isize, ibuf, iwp, pcs_rx pcs,
            hw' _ (loose_rx _), acc, ret, kept, asked, lost⟩
        simp only [Duplex.run, Duplex.step, hcD, hwn, Option.all_none, Bool.and_true, if_true, InStream.isr, hg, hgd, rdD, if_false, Res.bind_ok, false_and, hpc]
  · simp only [Bytes.step, hc] at hs
    injection hs with hs
    subst hs
    exact ⟨[], D, rfl, Or.inl rfl, M⟩

theorem hard_match (M : Match p1 p2 n m d D) {e : DEv} (he : isHardware e = true) (hs : Bytes.step o lim d e = .ok d') :
    ∃ D', Duplex.run lim D [e] = .ok D' ∧ Match p1 p2 n m d' D' := by
  obtain ⟨osize, obuf, orp, oat, isize, ibuf, iwp, pcs, hw, acc, ret, kept, asked, lost⟩ := M
  cases e with
  | arrive f =>
    have e4 : isTrue 4 D.hw.ucsrb = isTrue 4 d.hw.ucsrb := by
      rw [isTrue_bit 4 (by omega), isTrue_bit 4 (by omega), hw.bits 4 (by omega) (by omega)]
    simp only [Bytes.step, Res.ok.injEq] at hs
    by_cases hc : (isTrue 4 d.hw.ucsrb && decide (d.hw.rx.length < 3)) = true
    · simp only [hc, if_true] at hs
      subst hs
      refine ⟨{ D with hw := { D.hw with rx := D.hw.rx ++ [f] }, kept := D.kept ++ [f] }, ?_, osize, obuf, orp, oat, isize, ibuf, iwp, pcs, ?_, acc, ret, ?_, asked, lost⟩
      · simp only [Duplex.run, Duplex.step, e4, hw.rx, hc, if_true, Res.bind_ok]
      · exact ⟨by show D.hw.rx ++ [f] = d.hw.rx ++ [f]; rw [hw.rx], hw.tx, hw.shift, hw.line, hw.bits, hw.up, hw.eq⟩
      · show D.kept ++ [f] = d.kept ++ [f]
        rw [kept]
    · simp only [hc] at hs
      subst hs
      refine ⟨D, ?_, osize, obuf, orp, oat, isize, ibuf, iwp, pcs, hw, acc, ret, kept, asked, lost⟩
      simp only [Duplex.run, Duplex.step, e4, hw.rx, hc, Res.bind_ok]
      rfl
  | frame =>
    simp only [Bytes.step, Res.ok.injEq] at hs
    subst hs
    refine ⟨{ D with hw := D.hw.frameTime }, rfl, osize, obuf, orp, oat, isize, ibuf, iwp, pcs, ?_, acc, ret, kept, asked, lost⟩
    obtain ⟨a1, a2, a3, a4, a5, a6, a7⟩ := hw
    exact ⟨a1, rfl, a2, by show D.hw.line ++ D.hw.shift.toList = d.hw.line ++ d.hw.shift.toList; rw [a3, a4], a5, a6, a7⟩
  | load =>
    simp only [Bytes.step, Res.ok.injEq] at hs
    subst hs
    refine ⟨{ D with hw := D.hw.load }, rfl, osize, obuf, orp, oat, isize, ibuf, iwp, pcs, ?_, acc, ret, kept, asked, lost⟩
    obtain ⟨a1, a2, a3, a4, a5, a6, a7⟩ := hw
    show HwSim _ d.hw.load D.hw.load
    unfold Hw.load
    rw [a3]
    by_cases hc : d.hw.shift = none
    · simp only [hc, if_true]; exact ⟨a1, rfl, a2, a4, a5, a6, a7⟩
    · simp only [hc, if_false]; exact ⟨a1, a2, a3, a4, a5, a6, a7⟩
  | _ => simp [isHardware] at he

/-! ### Main code -/

/-- The call main code has begun, but not yet decided, and the bit it sets if it finds nothing to do. -/
def undecided : BPc → Option (DEv × Nat)
  | .wTest v _ => some (.write (BitVec.ofNat 8 v), 5)
  | .rTest1 _ | .rLoaded _ | .rTest2 _ _ => some (.read, 7)
  | _ => none

theorem run_main (D D' : Duplex) (h : D.main = .ok D') : Duplex.run lim D [.main] = .ok D' := by
  simp only [Duplex.run, Duplex.step, h, Res.bind_ok]

theorem readB_clear {l : Bool} {h H : Hw} (x : HwSim l h H) : clearBit 5 H.readB = clearBit 5 h.readB := by
  apply BitVec.eq_of_getLsbD_eq
  intro j _
  rw [bit_clear 5 (by omega), bit_clear 5 (by omega)]
  by_cases h5 : j = 5
  · rw [if_pos h5, if_pos h5]
  · rw [if_neg h5, if_neg h5]
    by_cases h1 : j = 1
    · subst h1
      rw [readB_bit1, readB_bit1, x.rx]
    · rw [readB_bit _ j h1, readB_bit _ j h1]; exact x.bits j h5 h1

theorem writeB_eq {l : Bool} {h H : Hw} (x : HwSim l h H) {v v' : BitVec 8} (e : v' = v) : H.writeB v' = h.writeB v := by
  subst e
  unfold Hw.writeB
  rw [x.rx, x.tx, x.shift, x.line]

theorem main_match (h : BInv o p1 p2 n m b0 d qo qi p) (M : Match p1 p2 n m d D) (hu : undecided d.pc = none) (hs : Bytes.step o lim d .main = .ok d') :
    ∃ l D', Duplex.run lim D l = .ok D' ∧ (∀ e ∈ l, e = .main) ∧ Match p1 p2 n m d' D' ∧ resultsAt lim D l = bResultNow d .main := by
  obtain ⟨osize, obuf, orp, oat, isize, ibuf, iwp, pcs, hw, acc, ret, kept, asked, lost⟩ := M
  simp only [Bytes.step, Bytes.main] at hs
  cases hp : d.pc with
  | idle =>
    rw [hp] at hs
    injection hs with hs
    subst hs
    exact ⟨[], D, rfl, by simp, ⟨osize, obuf, orp, oat, isize, ibuf, iwp, pcs, hw, acc, ret, kept, asked, lost⟩, by simp [resultsAt, bResultNow, hp]⟩
  | wTest v r1 => rw [hp] at hu; cases hu
  | rTest1 w1 => rw [hp] at hu; cases hu
  | rLoaded ge => rw [hp] at hu; cases hu
  | rTest2 ge w1 => rw [hp] at hu; cases hu
  | wChecked v =>
    rw [hp] at hs oat pcs hw
    obtain ⟨e1, e2⟩ := pcs
    obtain ⟨w, r, hr, hwp, hrel⟩ := h.orel
    rw [hp] at hwp
    have hwp' : d.out.wp = p1 + w := hwp
    have oat' : d.out.wp = p1 + D.out.w := oat
    have ew : D.out.w = w := by omega
    have hl := hrel.hlen; have hlt := hrel.hw_lt
    simp only [rb] at hl hlt
    simp only [ring_put v hrel (by rw [h.obase]; exact hwp' : d.out.wp = d.out.base + w), Res.bind_ok, Res.ok.injEq] at hs
    subst hs
    refine ⟨[.main], { D with out := { D.out with buf := D.out.buf.set D.out.w v }, pc := .wStored v }, run_main _ _ ?_, by simp, ⟨osize, ?_, orp, oat, isize, ibuf, iwp, ⟨rfl, e2⟩, hw, acc, ret, kept, asked, lost⟩, ?_⟩
    · simp only [Duplex.main, e1, cSet_ok v (show D.out.w < D.out.buf.length by rw [obuf]; omega), Res.bind_ok]
    · show D.out.buf.set D.out.w v = d.out.buf.set w v
      rw [obuf, ew]
    · simp only [resultsAt, e1, Duplex.step, Duplex.main, cSet_ok v (show D.out.w < D.out.buf.length by rw [obuf]; omega), Res.bind_ok, bResultNow, hp]; rfl
  | wStored v =>
    rw [hp] at hs oat pcs hw
    obtain ⟨e1, e2⟩ := pcs
    have oat' : d.out.wp = p1 + D.out.w := oat
    simp only [Res.ok.injEq] at hs
    subst hs
    refine ⟨[.main], { D with out := { D.out with w := D.out.w + 1 }, accepted := D.accepted ++ [v], pc := .wPast 0 }, run_main _ _ (by simp only [Duplex.main, e1]), by simp,
      ⟨osize, obuf, orp, ?_, isize, ibuf, iwp, ⟨⟨0, Nat.le_refl _, rfl⟩, e2⟩, hw.weaken (by simp [loose]), ?_, ret, kept, asked, lost⟩, ?_⟩
    · show d.out.wp + 1 = p1 + (D.out.w + 1)
      omega
    · show D.accepted ++ [v] = d.accepted ++ [v]
      rw [acc]
    · simp only [resultsAt, e1, Duplex.step, Duplex.main, bResultNow, hp]; rfl
  | wInc new k =>
    rw [hp] at hs oat pcs hw
    obtain ⟨⟨k', e0, e1⟩, e2⟩ := pcs
    obtain ⟨w, r, hr, hwp, hrel⟩ := h.orel
    rw [hp] at hwp
    obtain ⟨x, hx1, hx2, hx3, hx4⟩ := hwp
    have oat' : new = p1 + D.out.w := oat
    simp only [Res.ok.injEq] at hs
    subst hs
    refine ⟨[], D, rfl, by simp, ⟨osize, obuf, orp, ?_, isize, ibuf, iwp, ⟨⟨k', e0, e1⟩, e2⟩, hw, acc, ret, kept, asked, lost⟩, by simp [resultsAt, bResultNow, hp]⟩
    show tornStore (!o.storeLow) d.out.wp new = p1 + D.out.w
    rw [hx3, hx2, store_both]; omega
  | wPast k =>
    rw [hp] at hs oat pcs hw
    obtain ⟨⟨k', e0, e1⟩, e2⟩ := pcs
    obtain ⟨w, r, hr, hwp, hrel⟩ := h.orel
    rw [hp] at hwp
    obtain ⟨x, hx1, hx2, hx3⟩ := hwp
    have oat' : d.out.wp = p1 + D.out.w := oat
    have ho := h.obase; have ho' := h.osize
    simp only at hs
    split at hs
    · simp only [Res.ok.injEq] at hs
      subst hs
      refine ⟨[], D, rfl, by simp, ⟨osize, obuf, orp, ?_, isize, ibuf, iwp, ⟨⟨k', e0, e1⟩, e2⟩, hw, acc, ret, kept, asked, lost⟩, by simp [resultsAt, bResultNow, hp]⟩
      show D.out.w = n
      omega
    · simp only [Res.ok.injEq] at hs
      subst hs
      refine ⟨[.main], { D with out := { D.out with w := RingBuffer.wrap D.out.size D.out.w }, pc := .rmw 5 .start }, run_main _ _ (by simp only [Duplex.main, e1]), by simp,
        ⟨osize, obuf, orp, ?_, isize, ibuf, iwp, ⟨⟨.start, rfl, trivial⟩, e2⟩, hw, acc, ret, kept, asked, lost⟩, ?_⟩
      · show d.out.wp = p1 + RingBuffer.wrap D.out.size D.out.w
        unfold RingBuffer.wrap; rw [if_neg (by omega)]; exact oat'
      · simp only [resultsAt, e1, Duplex.step, Duplex.main, bResultNow, hp]; rfl
  | wWrap k =>
    rw [hp] at hs oat pcs hw
    obtain ⟨⟨k', e0, e1⟩, e2⟩ := pcs
    obtain ⟨w, r, hr, hwp, hrel⟩ := h.orel
    rw [hp] at hwp
    have oat' : D.out.w = n := oat
    simp only [Res.ok.injEq] at hs
    subst hs
    refine ⟨[.main], { D with out := { D.out with w := RingBuffer.wrap D.out.size D.out.w }, pc := .rmw 5 .start }, run_main _ _ (by simp only [Duplex.main, e1]), by simp,
      ⟨osize, obuf, orp, ?_, isize, ibuf, iwp, ⟨⟨.start, rfl, trivial⟩, e2⟩, hw, acc, ret, kept, asked, lost⟩, ?_⟩
    · show tornStore (!o.storeLow) d.out.wp d.out.base = p1 + RingBuffer.wrap D.out.size D.out.w
      rw [hwp.1, h.obase, store_both, oat', osize]; simp [RingBuffer.wrap]
    · simp only [resultsAt, e1, Duplex.step, Duplex.main, bResultNow, hp]; rfl
  | rmw i x =>
    have hi : i = 5 ∨ i = 7 := by have := h.pcok; rw [hp] at this; exact this.1
    rw [hp] at hs oat pcs hw
    obtain ⟨⟨y, e1, e0⟩, e2⟩ := pcs
    cases x with
    | start =>
      cases y with
      | start =>
        simp only [Res.ok.injEq] at hs
        subst hs
        refine ⟨[.main], { D with pc := .rmw i (.loaded1 D.hw.readB) }, run_main _ _ (by simp only [Duplex.main, e1]), by simp,
          ⟨osize, obuf, orp, oat, isize, ibuf, iwp, ⟨⟨_, rfl, ?_⟩, e2⟩, hw.weaken ?_, acc, ret, kept, asked, lost⟩, ?_⟩
        · show clearBit i D.hw.readB = clearBit i d.hw.readB
          rcases hi with rfl | rfl
          · exact readB_clear hw
          · rw [hw.same (Or.inl rfl)]
        · rcases hi with rfl | rfl
          · exact id
          · exact fun _ => rfl
        · simp only [resultsAt, e1, Duplex.step, Duplex.main, bResultNow, hp]
          rcases hi with rfl | rfl <;> rfl
      | _ => exact e0.elim
    | loaded1 v =>
      cases y with
      | loaded1 v' =>
        simp only [Res.ok.injEq] at hs
        subst hs
        refine ⟨[.main], { D with hw := D.hw.writeB (clearBit i v'), pc := .rmw i .cleared }, run_main _ _ (by simp only [Duplex.main, e1]), by simp,
          ⟨osize, obuf, orp, oat, isize, ibuf, iwp, ⟨⟨_, rfl, trivial⟩, e2⟩, ?_, acc, ret, kept, asked, lost⟩, ?_⟩
        · show HwSim _ (d.hw.writeB (clearBit i v)) (D.hw.writeB (clearBit i v'))
          rw [writeB_eq hw e0]; exact HwSim.refl _ _
        · simp only [resultsAt, e1, Duplex.step, Duplex.main, bResultNow, hp]
          rcases hi with rfl | rfl <;> rfl
      | _ => exact e0.elim
    | cleared =>
      cases y with
      | cleared =>
        have hlo : loose (.rmw i .cleared) = false := by rcases hi with rfl | rfl <;> rfl
        simp only [Res.ok.injEq] at hs
        subst hs
        refine ⟨[.main], { D with pc := .rmw i (.loaded2 D.hw.readB) }, run_main _ _ (by simp only [Duplex.main, e1]), by simp,
          ⟨osize, obuf, orp, oat, isize, ibuf, iwp, ⟨⟨_, rfl, ?_⟩, e2⟩, hw.weaken (fun _ => hlo), acc, ret, kept, asked, lost⟩, ?_⟩
        · show D.hw.readB = d.hw.readB
          rw [hw.same (Or.inl hlo)]
        · simp only [resultsAt, e1, Duplex.step, Duplex.main, bResultNow, hp]
          rcases hi with rfl | rfl <;> rfl
      | _ => exact e0.elim
    | loaded2 v =>
      cases y with
      | loaded2 v' =>
        have e0' : v' = v := e0
        subst e0'
        simp only [Res.ok.injEq] at hs
        subst hs
        refine ⟨[.main], { D with hw := D.hw.writeB (setBit i v'), pc := .idle, asked := D.asked || i == 7 }, run_main _ _ (by simp only [Duplex.main, e1]), by simp,
          ⟨osize, obuf, orp, oat, isize, ibuf, iwp, ⟨rfl, e2⟩, ?_, acc, ret, kept, ?_, lost⟩, ?_⟩
        · show HwSim _ (d.hw.writeB (setBit i v')) (D.hw.writeB (setBit i v'))
          rw [writeB_eq hw rfl]; exact HwSim.refl _ _
        · show (D.asked || i == 7) = (d.asked || i == 7)
          rw [asked]
        · simp only [resultsAt, e1, Duplex.step, Duplex.main, bResultNow, hp]
          rcases hi with rfl | rfl <;> rfl
      | _ => exact e0.elim
  | rReady =>
    rw [hp] at hs oat pcs hw
    obtain ⟨e1, e2⟩ := pcs
    have hget : d.inn.get = cGet D.inn.buf D.inn.r := by
      unfold Ring.get
      rw [h.ibase, if_neg (by omega), ibuf, show d.inn.rp - p2 = D.inn.r by omega]
    simp only [hget, bind, Res.bind] at hs
    split at hs
    · next v hv =>
      simp only [Res.ok.injEq] at hs
      subst hs
      refine ⟨[.main], { D with pc := .rGot v }, run_main _ _ ?_, by simp, ⟨osize, obuf, orp, oat, isize, ibuf, iwp, ⟨rfl, e2⟩, hw, acc, ret, kept, asked, lost⟩, ?_⟩
      · simp only [Duplex.main, e1, hv, Res.bind_ok]
      · simp only [resultsAt, e1, Duplex.step, Duplex.main, hv, Res.bind_ok, bResultNow, hp]; rfl
    · cases hs
  | rGot v =>
    rw [hp] at hs oat pcs hw
    obtain ⟨e1, e2⟩ := pcs
    simp only [Res.ok.injEq] at hs
    subst hs
    refine ⟨[], D, rfl, by simp, ⟨osize, obuf, orp, oat, isize, ibuf, iwp, Or.inl ⟨e1, ?_⟩, hw, acc, ret, kept, asked, lost⟩, by simp [resultsAt, bResultNow, hp]⟩
    omega
  | rInc v new k =>
    rw [hp] at hs oat pcs hw
    obtain ⟨w, r, hwp, hr, hrel⟩ := h.irel
    rw [hp] at hr
    obtain ⟨x, hx1, hx2, hx3, hx4⟩ := hr
    have hst : tornStore (!o.storeLow) d.inn.rp new = new := by rw [hx3, hx2, store_both]
    simp only [Res.ok.injEq] at hs
    subst hs
    refine ⟨[], D, rfl, by simp, ⟨osize, obuf, orp, oat, isize, ibuf, iwp, ?_, hw, acc, ret, kept, asked, lost⟩, by simp [resultsAt, bResultNow, hp]⟩
    show PcSim p2 m (tornStore (!o.storeLow) d.inn.rp new) D.inn.r (.rPast v k) D.pc
    rw [hst]; exact pcs
  | rPast v k =>
    rw [hp] at hs oat pcs hw
    have hb := h.ibase; have hb' := h.isize
    obtain ⟨w, r, hwp, hr, hrel⟩ := h.irel
    rw [hp] at hr
    obtain ⟨x, hx1, hx2, hx3⟩ := hr
    simp only at hs
    split at hs
    · next hc =>
      simp only [Res.ok.injEq] at hs
      subst hs
      refine ⟨[], D, rfl, by simp, ⟨osize, obuf, orp, oat, isize, ibuf, iwp, ?_, hw, acc, ret, kept, asked, lost⟩, by simp [resultsAt, bResultNow, hp, hc]⟩
      rcases pcs with ⟨a, b⟩ | ⟨a, b, c⟩
      · exact Or.inl ⟨a, by omega⟩
      · exact Or.inr ⟨a, b, by omega⟩
    · next hc =>
      simp only [Res.ok.injEq] at hs
      subst hs
      rcases pcs with ⟨a, b⟩ | ⟨a, ⟨k', a'⟩, c⟩
      · refine ⟨[.main, .main], { D with inn := { D.inn with r := RingBuffer.wrap D.inn.size (D.inn.r + 1) }, returned := D.returned ++ [v], pc := .idle }, ?_, by simp,
          ⟨osize, obuf, orp, oat, isize, ibuf, iwp, ⟨rfl, ?_⟩, hw, acc, ?_, kept, asked, lost⟩, ?_⟩
        · simp only [Duplex.run, Duplex.step, Duplex.main, a, Res.bind_ok]
        · show d.inn.rp = p2 + RingBuffer.wrap D.inn.size (D.inn.r + 1)
          unfold RingBuffer.wrap; rw [if_neg (by omega)]; omega
        · show D.returned ++ [v] = d.returned ++ [v]
          rw [ret]
        · simp only [resultsAt, a, Duplex.step, Duplex.main, bResultNow, hp, hc, if_false, if_true]; rfl
      · refine ⟨[.main], { D with inn := { D.inn with r := RingBuffer.wrap D.inn.size D.inn.r }, returned := D.returned ++ [v], pc := .idle }, ?_, by simp,
          ⟨osize, obuf, orp, oat, isize, ibuf, iwp, ⟨rfl, ?_⟩, hw, acc, ?_, kept, asked, lost⟩, ?_⟩
        · simp only [Duplex.run, Duplex.step, Duplex.main, a', Res.bind_ok]
        · show d.inn.rp = p2 + RingBuffer.wrap D.inn.size D.inn.r
          unfold RingBuffer.wrap; rw [if_neg (by omega)]; omega
        · show D.returned ++ [v] = d.returned ++ [v]
          rw [ret]
        · simp only [resultsAt, a', Duplex.step, Duplex.main, bResultNow, hp, hc, if_false, if_true]; rfl
  | rWrap v k =>
    rw [hp] at hs oat pcs hw
    obtain ⟨w, r, hwp, hr, hrel⟩ := h.irel
    rw [hp] at hr
    have hst : tornStore (!o.storeLow) d.inn.rp d.inn.base = p2 := by rw [hr.1, h.ibase, store_both]
    simp only [Res.ok.injEq] at hs
    subst hs
    rcases pcs with ⟨a, b⟩ | ⟨a, ⟨k', a'⟩, c⟩
    · refine ⟨[.main, .main], { D with inn := { D.inn with r := RingBuffer.wrap D.inn.size (D.inn.r + 1) }, returned := D.returned ++ [v], pc := .idle }, ?_, by simp,
        ⟨osize, obuf, orp, oat, isize, ibuf, iwp, ⟨rfl, ?_⟩, hw, acc, ?_, kept, asked, lost⟩, ?_⟩
      · simp only [Duplex.run, Duplex.step, Duplex.main, a, Res.bind_ok]
      · show tornStore (!o.storeLow) d.inn.rp d.inn.base = p2 + RingBuffer.wrap D.inn.size (D.inn.r + 1)
        rw [hst, b, isize]; simp [RingBuffer.wrap]
      · show D.returned ++ [v] = d.returned ++ [v]
        rw [ret]
      · simp only [resultsAt, a, Duplex.step, Duplex.main, bResultNow, hp, if_true]; rfl
    · refine ⟨[.main], { D with inn := { D.inn with r := RingBuffer.wrap D.inn.size D.inn.r }, returned := D.returned ++ [v], pc := .idle }, ?_, by simp,
        ⟨osize, obuf, orp, oat, isize, ibuf, iwp, ⟨rfl, ?_⟩, hw, acc, ?_, kept, asked, lost⟩, ?_⟩
      · simp only [Duplex.run, Duplex.step, Duplex.main, a', Res.bind_ok]
      · show tornStore (!o.storeLow) d.inn.rp d.inn.base = p2 + RingBuffer.wrap D.inn.size D.inn.r
        rw [hst, c, isize]; simp [RingBuffer.wrap]
      · show D.returned ++ [v] = d.returned ++ [v]
        rw [ret]
      · simp only [resultsAt, a', Duplex.step, Duplex.main, bResultNow, hp, if_true]; rfl

/-! ### Every event -/

/-- Not main code. -/
def isQuiet (e : DEv) : Bool := isHardware e || isHandler e

theorem quiet_match (hlim : lim ≤ 1) (hn : n < 65536) (hm : m ≤ 256) (h : BInv o p1 p2 n m b0 d qo qi p) (M : Match p1 p2 n m d D) {e : DEv} (he : isQuiet e = true)
    (hs : Bytes.step o lim d e = .ok d') :
    ∃ l D', Duplex.run lim D l = .ok D' ∧ (l = [] ∧ isHardware e = false ∨ l = [e] ∨ (l = [.main, e] ∧ ∃ v, D.pc = .rGot v)) ∧ Match p1 p2 n m d' D' := by
  cases e with
  | txIsr =>
    obtain ⟨l, D', a, b, c⟩ := tx_match hlim hn h M hs
    exact ⟨l, D', a, b.elim (fun b => Or.inl ⟨b, rfl⟩) (fun b => Or.inr (Or.inl b)), c⟩
  | rxIsr =>
    obtain ⟨l, D', a, b, c⟩ := rx_match hlim hm h M hs
    exact ⟨l, D', a, b.elim (fun b => Or.inl ⟨b, rfl⟩) (fun b => Or.inr b), c⟩
  | arrive f => obtain ⟨D', a, b⟩ := hard_match M rfl hs; exact ⟨_, D', a, Or.inr (Or.inl rfl), b⟩
  | frame => obtain ⟨D', a, b⟩ := hard_match M rfl hs; exact ⟨_, D', a, Or.inr (Or.inl rfl), b⟩
  | load => obtain ⟨D', a, b⟩ := hard_match M rfl hs; exact ⟨_, D', a, Or.inr (Or.inl rfl), b⟩
  | _ => simp [isQuiet, isHardware, isHandler] at he

theorem calls_none {l : List DEv} (hl : ∀ e ∈ l, isCall e = false) : ∀ {D D' : Duplex}, Duplex.run lim D l = .ok D' → callsMade lim D l = [] := by
  induction l with
  | nil => intros; rfl
  | cons e l ih =>
    intro D D' h
    obtain ⟨d1, s1, h1⟩ := dx_bind_ok h
    have := hl e (by simp)
    simp only [callsMade, this, s1, ih (fun x hx => hl x (by simp [hx])) h1]
    simp

/-- Events that are not those of main code do not depend on where it is outside the windows. -/
theorem alt_step {e : DEv} (he : isQuiet e = true) {D D' : Duplex} (hp : D.pc = .idle) (i : Nat) (hs : Duplex.step lim D e = .ok D') :
    D'.pc = .idle ∧ Duplex.step lim { D with pc := .rmw i .start } e = .ok { D' with pc := .rmw i .start } := by
  have t1 : D.txWindow = none := by unfold Duplex.txWindow; rw [hp]
  have t2 : D.rxWindow = none := by unfold Duplex.rxWindow; rw [hp]
  have t3 : Duplex.txWindow { D with pc := .rmw i .start } = none := rfl
  have t4 : Duplex.rxWindow { D with pc := .rmw i .start } = none := rfl
  cases e with
  | txIsr =>
    simp only [Duplex.step, t1, t3] at hs ⊢
    split at hs
    · next hc =>
      rw [if_pos hc]
      simp only [bind, Res.bind] at hs ⊢
      split at hs
      · next x hx =>
        injection hs with hs
        rw [← hs]
        exact ⟨by show Duplex.txPc D.pc = _; rw [hp]; rfl, rfl⟩
      · cases hs
    · next hc =>
      rw [if_neg hc]
      injection hs with hs
      rw [← hs]; exact ⟨hp, rfl⟩
  | rxIsr =>
    simp only [Duplex.step, t2, t4] at hs ⊢
    split at hs
    · next hc =>
      rw [if_pos hc]
      simp only [bind, Res.bind] at hs ⊢
      split at hs
      · next x hx =>
        injection hs with hs
        rw [← hs]
        exact ⟨by show Duplex.rxPc D.pc = _; rw [hp]; rfl, rfl⟩
      · cases hs
    · next hc =>
      rw [if_neg hc]
      injection hs with hs
      rw [← hs]; exact ⟨hp, rfl⟩
  | arrive f =>
    simp only [Duplex.step, Res.ok.injEq] at hs ⊢
    rw [← hs]
    split <;> exact ⟨hp, rfl⟩
  | frame => simp only [Duplex.step, Res.ok.injEq] at hs ⊢; rw [← hs]; exact ⟨hp, rfl⟩
  | load => simp only [Duplex.step, Res.ok.injEq] at hs ⊢; rw [← hs]; exact ⟨hp, rfl⟩
  | _ => simp [isQuiet, isHardware, isHandler] at he

theorem undecided_tx (pc : BPc) : undecided (txPc pc) = undecided pc := by cases pc <;> rfl
theorem undecided_rx (pc : BPc) : undecided (rxPc pc) = undecided pc := by cases pc <;> rfl

theorem quiet_keeps {e : DEv} (he : isQuiet e = true) (hs : Bytes.step o lim d e = .ok d') :
    undecided d'.pc = undecided d.pc ∧ (∀ v r1, d.pc = .wTest v r1 → d'.pc = .wTest v r1) ∧ (∀ x, d'.out.isFull x = d.out.isFull x) ∧ d'.returned = d.returned := by
  cases e with
  | txIsr =>
    simp only [Bytes.step] at hs
    split at hs
    · simp only [bind, Res.bind] at hs
      split at hs
      · next x hx =>
        injection hs with hs
        rw [← hs]
        refine ⟨undecided_tx _, fun v r1 e => by show txPc d.pc = _; rw [e]; rfl, ?_, rfl⟩
        intro y
        show x.1.isFull y = d.out.isFull y
        simp only [txHandler, bind, Res.bind] at hx
        split at hx
        · simp only [Ring.read, bind, Res.bind] at hx
          split at hx
          · next z hz =>
            split at hz
            · injection hz with hz; injection hx with hx; rw [← hx, ← hz]; rfl
            · cases hz
          · cases hx
        · injection hx with hx; rw [← hx]
      · cases hs
    · injection hs with hs; rw [← hs]; exact ⟨rfl, fun _ _ e => e, fun _ => rfl, rfl⟩
  | rxIsr =>
    simp only [Bytes.step] at hs
    split at hs
    · simp only [bind, Res.bind] at hs
      split at hs
      · next x hx =>
        injection hs with hs
        rw [← hs]
        exact ⟨undecided_rx _, fun v r1 e => by show rxPc d.pc = _; rw [e]; rfl, fun _ => rfl, rfl⟩
      · cases hs
    · injection hs with hs; rw [← hs]; exact ⟨rfl, fun _ _ e => e, fun _ => rfl, rfl⟩
  | arrive f => simp only [Bytes.step, Res.ok.injEq] at hs; rw [← hs]; split <;> exact ⟨rfl, fun _ _ e => e, fun _ => rfl, rfl⟩
  | frame => simp only [Bytes.step, Res.ok.injEq] at hs; rw [← hs]; exact ⟨rfl, fun _ _ e => e, fun _ => rfl, rfl⟩
  | load => simp only [Bytes.step, Res.ok.injEq] at hs; rw [← hs]; exact ⟨rfl, fun _ _ e => e, fun _ => rfl, rfl⟩
  | _ => simp [isQuiet, isHardware, isHandler] at he

/-- A call not yet decided will find something to do. -/
def Safe (o : Order) (d : Bytes) : Prop := match d.pc with
  | .wTest _ r1 => d.out.isFull r1 = false
  | _ => BytesCall.RAny o d.returned d

def Sim (o : Order) (lim : Nat) (D0 : Duplex) (H C I : List DEv) (R : List Int) (d : Bytes) (D : Duplex) : Prop :=
  match undecided d.pc with
  | none => Reach lim D0 H C I R D
  | some x => ∃ C', C = C' ++ [x.1] ∧ Reach lim D0 H C' I R D ∧ (Safe o d ∨ Reach lim D0 H C I R { D with pc := .rmw x.2 .start })

theorem idle_of_undecided {base size rp r : Nat} {pc : BPc} {q : DPc} (h : PcSim base size rp r pc q) (hu : undecided pc ≠ none) : q = .idle := by
  cases pc <;> first | exact h.1 | (exact absurd rfl hu)

theorem safe_of {a : List Nat} (hd : BytesCall.RAny o a d) : Safe o d := by
  unfold Safe
  have e := hd.1
  subst e
  cases hp : d.pc with
  | wTest v r1 => have := hd.2; rw [hp] at this; exact this.elim
  | _ => exact hd

theorem safe_rany (h : Safe o d) (hw : ∀ v r1, d.pc ≠ .wTest v r1) : BytesCall.RAny o d.returned d := by
  unfold Safe at h
  split at h
  · next v r1 hp => exact absurd hp (hw v r1)
  · exact h

theorem safe_quiet (hlim : lim ≤ 1) (hm : m ≤ 256) (h : BInv o p1 p2 n m b0 d qo qi p) {e : DEv} (he : isQuiet e = true)
    (hs : Bytes.step o lim d e = .ok d') (hsafe : Safe o d) (hu : undecided d.pc ≠ none) : Safe o d' := by
  obtain ⟨k1, k2, k3, k4⟩ := quiet_keeps he hs
  by_cases hw : ∃ v r1, d.pc = .wTest v r1
  · obtain ⟨v, r1, hpc⟩ := hw
    unfold Safe at hsafe ⊢
    rw [hpc] at hsafe
    rw [k2 v r1 hpc]
    show d'.out.isFull r1 = false
    rw [k3]; exact hsafe
  · have hra := safe_rany hsafe (fun v r1 e => hw ⟨v, r1, e⟩)
    have hinc : inCall e = true := by cases e <;> first | rfl | (simp [isQuiet, isHardware, isHandler] at he)
    rcases BytesCall.rany_step hlim h hm (Or.inl hra) hinc hs with hd | ⟨hp, -⟩
    · exact safe_of hd
    · rw [hp] at k1; exact absurd k1.symm hu

theorem quiet_sim (hlim : lim ≤ 1) (hn : n < 65536) (hm : m ≤ 256) (h : BInv o p1 p2 n m b0 d qo qi p) (M : Match p1 p2 n m d D) {D0 : Duplex} {H C I : List DEv} {R : List Int}
    (S : Sim o lim D0 H C I R d D) {e : DEv} (he : isQuiet e = true) (hev : Duplex.evOk e) (hs : Bytes.step o lim d e = .ok d') :
    ∃ D', Match p1 p2 n m d' D' ∧ Sim o lim D0 (H ++ [e].filter isHardware) C (I ++ [e].filter isHandler) R d' D' := by
  obtain ⟨l, D', hr, hl, M'⟩ := quiet_match hlim hn hm h M he hs
  obtain ⟨k1, k2, k3, k4⟩ := quiet_keeps he hs
  have hcall : isCall e = false := by cases e <;> first | rfl | (simp [isQuiet, isHardware, isHandler] at he)
  have hmain : e ≠ .main := by intro e1; rw [e1] at he; simp [isQuiet, isHardware, isHandler] at he
  have l1 : ∀ x ∈ l, Duplex.evOk x := by
    rcases hl with ⟨rfl, _⟩ | rfl | ⟨rfl, _⟩
    · simp
    · simpa using hev
    · intro x hx; simp at hx; rcases hx with rfl | rfl
      · trivial
      · exact hev
  have l2 : l.filter isHardware = [e].filter isHardware := by
    rcases hl with ⟨rfl, hh⟩ | rfl | ⟨rfl, _⟩
    · simp [hh]
    · rfl
    · simp [isHardware, List.filter_cons]
  have l3 : ∀ x ∈ l, isCall x = false := by
    rcases hl with ⟨rfl, _⟩ | rfl | ⟨rfl, _⟩
    · simp
    · simpa using hcall
    · intro x hx; simp at hx; rcases hx with rfl | rfl
      · rfl
      · exact hcall
  have l4 : (l.filter isHandler).Sublist ([e].filter isHandler) := by
    rcases hl with ⟨rfl, hh⟩ | rfl | ⟨rfl, _⟩
    · simp
    · exact List.Sublist.refl _
    · have : [DEv.main, e].filter isHandler = [e].filter isHandler := by simp [isHandler, List.filter_cons]
      rw [this]
  have l5 : resultsAt lim D l = [] := by
    rcases hl with ⟨rfl, hh⟩ | rfl | ⟨rfl, v, hv⟩
    · rfl
    · obtain ⟨d1, s1, h1⟩ := dx_bind_ok hr
      simp [resultsAt, hmain, s1]
    · obtain ⟨d1, s1, h1⟩ := dx_bind_ok hr
      obtain ⟨d2, s2, h2⟩ := dx_bind_ok h1
      simp [resultsAt, hmain, s1, s2, hv]
  have go : ∀ {C0}, Reach lim D0 H C0 I R D → Reach lim D0 (H ++ [e].filter isHardware) C0 (I ++ [e].filter isHandler) R D' := by
    intro C0 hR
    have := hR.go l hr l1 l2 (calls_none l3 hr) l4 l5
    simpa using this
  refine ⟨D', M', ?_⟩
  unfold Sim at S ⊢
  rw [k1]
  cases hu : undecided d.pc with
  | none => rw [hu] at S; exact go S
  | some x =>
    rw [hu] at S
    obtain ⟨C', c1, c2, c3⟩ := S
    refine ⟨C', c1, go c2, ?_⟩
    have hidle : D.pc = .idle := idle_of_undecided M.pcs (by rw [hu]; simp)
    rcases c3 with c3 | c3
    · exact Or.inl (safe_quiet hlim hm h he hs c3 (by rw [hu]; simp))
    · right
      rcases hl with ⟨rfl, hh⟩ | rfl | ⟨rfl, v, hv⟩
      · injection hr with hr
        subst hr
        have := c3.go (C1 := []) (R1 := []) [] rfl (by simp) l2 rfl l4 rfl
        simpa using this
      · obtain ⟨d1, s1, h1⟩ := dx_bind_ok hr
        injection h1 with h1
        subst h1
        obtain ⟨_, s2⟩ := alt_step he hidle x.2 s1
        have hr2 : Duplex.run lim { D with pc := .rmw x.2 .start } [e] = .ok { d1 with pc := .rmw x.2 .start } := by simp only [Duplex.run, s2, Res.bind_ok]
        have := c3.go (R1 := []) [e] hr2 l1 rfl (calls_none l3 hr2) l4 (by simp [resultsAt, hmain, s2])
        simpa using this
      · rw [hidle] at hv; cases hv

theorem Reach.main {D0 D D' : Duplex} {H C I : List DEv} {R R1 : List Int} (h : Reach lim D0 H C I R D) {l : List DEv} (hl : ∀ e ∈ l, e = .main) (hr : Duplex.run lim D l = .ok D')
    (hR : resultsAt lim D l = R1) : Reach lim D0 H C I (R ++ R1) D' := by
  have e1 : l.filter isHardware = [] := by
    rw [List.filter_eq_nil_iff]; intro e he; rw [hl e he]; simp [isHardware]
  have e2 : l.filter isHandler = [] := by
    rw [List.filter_eq_nil_iff]; intro e he; rw [hl e he]; simp [isHandler]
  have := h.go (C1 := []) (I1 := []) l hr (fun e he => by rw [hl e he]; trivial) e1 (calls_none (fun e he => by rw [hl e he]; rfl) hr) (by rw [e2]) hR
  simpa using this

theorem main_sim (hlim : lim ≤ 1) (hn : n ≤ 256) (hm : m ≤ 256) (h : BInv o p1 p2 n m b0 d qo qi p) (M : Match p1 p2 n m d D) {D0 : Duplex} {H C I : List DEv} {R : List Int}
    (S : Sim o lim D0 H C I R d D) (hs : Bytes.step o lim d .main = .ok d') :
    ∃ D', Match p1 p2 n m d' D' ∧ Sim o lim D0 H C I (R ++ bResultNow d .main) d' D' := by
  cases hu : undecided d.pc with
  | none =>
    obtain ⟨l, D', hr, hl, M', hres⟩ := main_match h M hu hs
    have hu' : undecided d'.pc = none := by
      simp only [Bytes.step, Bytes.main] at hs
      cases hp : d.pc with
      | wTest v r1 => rw [hp] at hu; cases hu
      | rTest1 w1 => rw [hp] at hu; cases hu
      | rLoaded ge => rw [hp] at hu; cases hu
      | rTest2 ge w1 => rw [hp] at hu; cases hu
      | idle => rw [hp] at hs; injection hs with hs; rw [← hs, hp]; rfl
      | wChecked v =>
        rw [hp] at hs
        simp only [bind, Res.bind] at hs
        split at hs
        · injection hs with hs; rw [← hs]; rfl
        · cases hs
      | wPast k =>
        rw [hp] at hs
        simp only at hs
        split at hs <;> (injection hs with hs; rw [← hs]; rfl)
      | rPast v k =>
        rw [hp] at hs
        simp only at hs
        split at hs <;> (injection hs with hs; rw [← hs]; rfl)
      | rReady =>
        rw [hp] at hs
        simp only [bind, Res.bind] at hs
        split at hs
        · injection hs with hs; rw [← hs]; rfl
        · cases hs
      | rmw i x => rw [hp] at hs; cases x <;> (injection hs with hs; rw [← hs]; rfl)
      | _ => rw [hp] at hs; injection hs with hs; rw [← hs]; rfl
    unfold Sim at S ⊢
    rw [hu] at S
    refine ⟨D', M', ?_⟩
    rw [hu']
    exact S.main hl hr hres
  | some x =>
    have hres : bResultNow d .main = [] := by
      unfold bResultNow
      cases hp : d.pc <;> first | rfl | (rw [hp] at hu; cases hu)
    rw [hres, List.append_nil]
    have hidle : D.pc = .idle := idle_of_undecided M.pcs (by rw [hu]; simp)
    have hMc := M
    obtain ⟨osize, obuf, orp, oat, isize, ibuf, iwp, pcs, hw, acc, ret, kept, asked, lost⟩ := M
    unfold Sim at S
    rw [hu] at S
    obtain ⟨C', c1, c2, c3⟩ := S
    simp only [Bytes.step, Bytes.main] at hs
    cases hp : d.pc with
    | wTest v r1 =>
      rw [hp] at hs oat pcs hw hu
      simp only [undecided, Option.some.injEq] at hu
      subst hu
      have hpcok := h.pcok
      rw [hp] at hpcok
      obtain ⟨hv, hfull, hb1, hb2, hnf⟩ := hpcok
      have hk : txWindow d.pc = none := by rw [hp]; rfl
      have hrelD := out_rel h hMc hk
      obtain ⟨w, r, hr, hwp, hrel⟩ := h.orel
      rw [hp] at hwp
      have hwp' : d.out.wp = d.out.base + w := by rw [h.obase]; exact hwp
      have hrp : d.out.rp = d.out.base + r := by rw [h.obase]; exact hr
      have q1 := hrel.hr; have q2 := hrel.hw_lt; have q3 := hrel.hq
      simp only [rb] at q1 q2 q3
      have hwe : HwSim false d.hw D.hw := hw
      by_cases hf : d.out.isFull (tornLoad o.loadLow r1 d.out.rp) = true
      · simp only [hf, if_true, Res.ok.injEq] at hs
        subst hs
        refine ⟨{ D with pc := .rmw 5 .start }, ⟨osize, obuf, orp, oat, isize, ibuf, iwp, ⟨⟨.start, rfl, trivial⟩, pcs.2⟩, hwe.weaken (by simp), acc, ret, kept, asked, lost⟩, ?_⟩
        unfold Sim
        show Reach _ _ _ _ _ _ _
        rcases c3 with c3 | c3
        · exfalso
          unfold Safe at c3
          rw [hp] at c3
          have c3' : d.out.isFull r1 = false := c3
          have hlt := hnf c3'
          have f2 : d.out.isFull d.out.rp = false := by
            rw [hrp, ring_full hrel hwp']; exact decide_eq_false (by omega)
          have := torn_full (b := d.out) (low := o.loadLow) (by rw [h.osize]; exact hn) (by omega) (by omega) hb1 hb2 (by omega) (by omega) c3' f2
          rw [this] at hf; cases hf
        · exact c3
      · simp only [hf, Res.ok.injEq] at hs
        subst hs
        have hfD : isFull D.out = false := by
          rw [isFull_rel hrelD, osize, ← h.osize]
          by_cases hq : qo.length + 1 = d.out.size
          · exfalso
            rw [hfull hq, tornLoad_self, hrp, ring_full hrel hwp'] at hf
            exact hf (by simp [hq])
          · exact decide_eq_false hq
        have hst : Duplex.step lim D (.write (BitVec.ofNat 8 v)) = .ok { D with pc := .wChecked v } := by
          simp only [Duplex.step, hidle, hfD, Bool.false_eq_true, if_false, BitVec.toNat_ofNat]
          rw [Nat.mod_eq_of_lt (by simpa using hv)]
        refine ⟨{ D with pc := .wChecked v }, ⟨osize, obuf, orp, oat, isize, ibuf, iwp, ⟨rfl, pcs.2⟩, hwe.weaken (fun _ => rfl), acc, ret, kept, asked, lost⟩, ?_⟩
        unfold Sim
        show Reach _ _ _ _ _ _ _
        rw [c1]
        have := c2.go (D' := { D with pc := .wChecked v }) (H1 := []) (C1 := [.write (BitVec.ofNat 8 v)]) (I1 := []) (R1 := []) [.write (BitVec.ofNat 8 v)] (by simp only [Duplex.run, hst, Res.bind_ok]) (by simp [Duplex.evOk])
          (by simp [isHardware, List.filter_cons]) (by simp [callsMade, hidle, isCall, hst]) (by simp [isHandler, List.filter_cons]) (by simp [resultsAt, hst])
        simpa using this
    | rTest1 w1 =>
      rw [hp] at hs oat pcs hw
      have hst := hs
      simp only [Res.ok.injEq] at hs
      refine ⟨D, ?_, ?_⟩
      · subst hs; exact ⟨osize, obuf, orp, oat, isize, ibuf, iwp, pcs, hw, acc, ret, kept, asked, lost⟩
      · unfold Sim
        have hu' : undecided d'.pc = some x := by rw [hp] at hu; subst hs; exact hu
        rw [hu']
        refine ⟨C', c1, c2, c3.imp (fun c3 => ?_) id⟩
        have hra := safe_rany c3 (by rw [hp]; simp)
        rcases BytesCall.rany_step (e := .main) hlim h hm (Or.inl hra) rfl (by simp only [Bytes.step, Bytes.main, hp]; exact hst) with hd | ⟨hp', -⟩
        · exact safe_of hd
        · rw [hp'] at hu'; cases hu'
    | rLoaded ge =>
      rw [hp] at hs oat pcs hw
      have hst := hs
      simp only [Res.ok.injEq] at hs
      refine ⟨D, ?_, ?_⟩
      · subst hs; exact ⟨osize, obuf, orp, oat, isize, ibuf, iwp, pcs, hw, acc, ret, kept, asked, lost⟩
      · unfold Sim
        have hu' : undecided d'.pc = some x := by rw [hp] at hu; subst hs; exact hu
        rw [hu']
        refine ⟨C', c1, c2, c3.imp (fun c3 => ?_) id⟩
        have hra := safe_rany c3 (by rw [hp]; simp)
        rcases BytesCall.rany_step (e := .main) hlim h hm (Or.inl hra) rfl (by simp only [Bytes.step, Bytes.main, hp]; exact hst) with hd | ⟨hp', -⟩
        · exact safe_of hd
        · rw [hp'] at hu'; cases hu'
    | rTest2 ge w1 =>
      rw [hp] at hs oat pcs hw hu
      simp only [undecided, Option.some.injEq] at hu
      subst hu
      have hst := hs
      have hwe : HwSim false d.hw D.hw := hw
      have hk : rxWindow d.pc = none := by rw [hp]; rfl
      have hrelD := inn_rel h hMc hk
      by_cases hl : d.inn.lengthOf ge (tornLoad o.loadLow w1 d.inn.wp) = 0
      · simp only [hl, if_true, Res.ok.injEq] at hs
        refine ⟨{ D with pc := .rmw 7 .start }, ?_, ?_⟩
        · subst hs; exact ⟨osize, obuf, orp, oat, isize, ibuf, iwp, ⟨⟨.start, rfl, trivial⟩, pcs.2⟩, hwe.weaken (fun _ => rfl), acc, ret, kept, asked, lost⟩
        · unfold Sim
          have hpc' : d'.pc = .rmw 7 .start := by subst hs; rfl
          rw [hpc']
          show Reach _ _ _ _ _ _ _
          rcases c3 with c3 | c3
          · exfalso
            have hra := safe_rany c3 (by rw [hp]; simp)
            rcases BytesCall.rany_step (e := .main) hlim h hm (Or.inl hra) rfl (by simp only [Bytes.step, Bytes.main, hp]; exact hst) with hd | ⟨hp', -⟩
            · have := hd.2; rw [hpc'] at this; exact this
            · rw [hp'] at hpc'; cases hpc'
          · exact c3
      · simp only [hl, if_false, Res.ok.injEq] at hs
        have hne : qi ≠ [] := by
          obtain ⟨d2, qo2, qi2, p2', hst2, i2⟩ := main_inv h lim
          intro hq
          apply hl
          have hpcok := h.pcok
          rw [hp] at hpcok
          obtain ⟨g1, g2⟩ := hpcok hq
          obtain ⟨w, r, a1, a2, a3⟩ := h.irel
          rw [hp] at a2
          have a2' : d.inn.rp = p2 + r := a2
          have h4 : r < d.inn.size := a3.hr
          have h3 : w = if r + qi.length < d.inn.size then r + qi.length else r + qi.length - d.inn.size := a3.hw
          rw [hq, List.length_nil, Nat.add_zero, if_pos h4] at h3
          rw [g1, g2, tornLoad_self, a1, h3]
          unfold Ring.lengthOf
          rw [a2']
          simp [toU]
        have hkey := Whole.read_key (d := D) (ge := decide (D.inn.w ≥ D.inn.r)) hrelD (by omega) (by intro e; simpa using e)
        have s1 : Duplex.step lim D .read = .ok { D with pc := .rLoaded (decide (D.inn.w ≥ D.inn.r)) } := by simp only [Duplex.step, hidle]
        have s2 : Duplex.step lim { D with pc := .rLoaded (decide (D.inn.w ≥ D.inn.r)) } .main = .ok { D with pc := .rReady } := by
          simp only [Duplex.step, Duplex.main]
          rw [if_neg (fun e => hne (hkey.1 e))]
        refine ⟨{ D with pc := .rReady }, ?_, ?_⟩
        · subst hs; exact ⟨osize, obuf, orp, oat, isize, ibuf, iwp, ⟨rfl, pcs.2⟩, hwe.weaken (fun _ => rfl), acc, ret, kept, asked, lost⟩
        · unfold Sim
          have hpc' : d'.pc = .rReady := by subst hs; rfl
          rw [hpc']
          show Reach _ _ _ _ _ _ _
          rw [c1]
          have := c2.go (D' := { D with pc := .rReady }) (H1 := []) (C1 := [.read]) (I1 := []) (R1 := []) [.read, .main] (by simp only [Duplex.run, s1, s2, Res.bind_ok]) (by simp [Duplex.evOk])
            (by simp [isHardware, List.filter_cons]) (by simp [callsMade, hidle, isCall, s1, s2]) (by simp [isHandler, List.filter_cons]) (by simp [resultsAt, s1, s2])
          simpa using this
    | _ => rw [hp] at hu; cases hu

theorem call_sim (hn : n ≤ 256) (hm : m ≤ 256) (h : BInv o p1 p2 n m b0 d qo qi p) (M : Match p1 p2 n m d D) {D0 : Duplex} {H C I : List DEv} {R : List Int}
    (S : Sim o lim D0 H C I R d D) {e : DEv} (he : isCall e = true) (hs : Bytes.step o lim d e = .ok d') :
    ∃ D', Match p1 p2 n m d' D' ∧ Sim o lim D0 H (C ++ bCallNow d e) I R d' D' := by
  by_cases hp : d.pc = .idle
  · have hMc := M
    obtain ⟨osize, obuf, orp, oat, isize, ibuf, iwp, pcs, hw, acc, ret, kept, asked, lost⟩ := M
    rw [hp] at oat pcs hw
    have hnow : bCallNow d e = [e] := by unfold bCallNow; rw [if_pos ⟨hp, he⟩]
    rw [hnow]
    unfold Sim at S
    rw [hp] at S
    have S' : Reach lim D0 H C I R D := S
    cases e with
    | write v =>
      simp only [Bytes.step, hp, Res.ok.injEq] at hs
      subst hs
      refine ⟨D, ⟨osize, obuf, orp, oat, isize, ibuf, iwp, pcs, hw, acc, ret, kept, asked, lost⟩, ?_⟩
      unfold Sim
      have hv : BitVec.ofNat 8 v.toNat = v := by simp
      refine ⟨C, by simp only [hv], S', ?_⟩
      cases hf : d.out.isFull d.out.rp with
      | false => exact Or.inl hf
      | true =>
        right
        have hfD : isFull D.out = true := by
          have hk : txWindow d.pc = none := by rw [hp]; rfl
          rw [isFull_rel (out_rel h hMc hk), osize, ← h.osize]
          obtain ⟨w, r, hr, hwp, hrel⟩ := h.orel
          rw [hp] at hwp
          have hwp' : d.out.wp = d.out.base + w := by rw [h.obase]; exact hwp
          have hrp : d.out.rp = d.out.base + r := by rw [h.obase]; exact hr
          rw [hrp, ring_full hrel hwp'] at hf
          exact hf
        have hst : Duplex.step lim D (.write v) = .ok { D with pc := .rmw 5 .start } := by simp only [Duplex.step, pcs.1, hfD, if_true]
        have := S'.go (D' := { D with pc := .rmw 5 .start }) (H1 := []) (C1 := [.write v]) (I1 := []) (R1 := []) [.write v] (by simp only [Duplex.run, hst, Res.bind_ok]) (by simp [Duplex.evOk])
          (by simp [isHardware, List.filter_cons]) (by simp [callsMade, pcs.1, isCall, hst]) (by simp [isHandler, List.filter_cons]) (by simp [resultsAt, hst])
        simpa using this
    | read =>
      simp only [Bytes.step, hp, Res.ok.injEq] at hs
      subst hs
      refine ⟨D, ⟨osize, obuf, orp, oat, isize, ibuf, iwp, pcs, hw, acc, ret, kept, asked, lost⟩, ?_⟩
      unfold Sim
      refine ⟨C, rfl, S', ?_⟩
      have hk : rxWindow d.pc = none := by rw [hp]; rfl
      have hrelD := inn_rel h hMc hk
      obtain ⟨w, r, hwp, hr, hrel⟩ := h.irel
      rw [hp] at hr
      have hwp' : d.inn.wp = d.inn.base + w := by rw [h.ibase]; exact hwp
      have hrp : d.inn.rp = d.inn.base + r := by rw [h.ibase]; exact hr
      have hlen := lenAt_rel hrel
      have q2 := hrel.hw_lt
      simp only [rb] at q2
      by_cases hq : qi = []
      · right
        have hkey := Whole.read_key (d := D) (ge := decide (D.inn.w ≥ D.inn.r)) hrelD (by omega) (by intro e; simpa using e)
        have s1 : Duplex.step lim D .read = .ok { D with pc := .rLoaded (decide (D.inn.w ≥ D.inn.r)) } := by simp only [Duplex.step, pcs.1]
        have s2 : Duplex.step lim { D with pc := .rLoaded (decide (D.inn.w ≥ D.inn.r)) } .main = .ok { D with pc := .rmw 7 .start } := by
          simp only [Duplex.step, Duplex.main]
          rw [if_pos (hkey.2 hq)]
        have := S'.go (D' := { D with pc := .rmw 7 .start }) (H1 := []) (C1 := [.read]) (I1 := []) (R1 := []) [.read, .main] (by simp only [Duplex.run, s1, s2, Res.bind_ok]) (by simp [Duplex.evOk])
          (by simp [isHardware, List.filter_cons]) (by simp [callsMade, pcs.1, isCall, s1, s2]) (by simp [isHandler, List.filter_cons]) (by simp [resultsAt, s1, s2])
        simpa using this
      · left
        have := List.length_pos_iff.2 hq
        refine safe_of (a := d.returned) ⟨rfl, ⟨?_, ?_⟩, ?_, Nat.le_refl _⟩
        · show d.inn.base ≤ d.inn.wp; omega
        · show d.inn.wp < d.inn.base + d.inn.size; omega
        · show 1 ≤ lenAt d.inn.size d.inn.rp d.inn.wp
          rw [hwp', hrp, hlen]; omega
    | _ => cases he
  · have hnow : bCallNow d e = [] := by unfold bCallNow; rw [if_neg (fun x => hp x.1)]
    have hd : d' = d := by
      cases e with
      | write v =>
        simp only [Bytes.step] at hs
        injection hs with hs; exact hs.symm
      | read =>
        simp only [Bytes.step] at hs
        injection hs with hs; exact hs.symm
      | _ => cases he
    subst hd
    rw [hnow, List.append_nil]
    exact ⟨D, M, S⟩

theorem sim_step (hlim : lim ≤ 1) (hn : n ≤ 256) (hm : m ≤ 256) (h : BInv o p1 p2 n m b0 d qo qi p) (M : Match p1 p2 n m d D) {D0 : Duplex} {H C I : List DEv} {R : List Int}
    (S : Sim o lim D0 H C I R d D) {e : DEv} (hev : Duplex.evOk e) (hs : Bytes.step o lim d e = .ok d') :
    ∃ D', Match p1 p2 n m d' D' ∧ Sim o lim D0 (H ++ [e].filter isHardware) (C ++ bCallNow d e) (I ++ [e].filter isHandler) (R ++ bResultNow d e) d' D' := by
  have quiet : isQuiet e = true → ∃ D', Match p1 p2 n m d' D' ∧ Sim o lim D0 (H ++ [e].filter isHardware) (C ++ bCallNow d e) (I ++ [e].filter isHandler) (R ++ bResultNow d e) d' D' := by
    intro he
    have hcall : isCall e = false := by cases e <;> first | rfl | (simp [isQuiet, isHardware, isHandler] at he)
    have hmain : e ≠ .main := by intro e1; rw [e1] at he; simp [isQuiet, isHardware, isHandler] at he
    have e1 : bCallNow d e = [] := by unfold bCallNow; rw [hcall]; simp
    have e2 : bResultNow d e = [] := by unfold bResultNow; rw [if_neg hmain]
    rw [e1, e2, List.append_nil, List.append_nil]
    exact quiet_sim hlim (by omega) hm h M S he hev hs
  cases e with
  | main =>
    obtain ⟨D', a, b⟩ := main_sim hlim hn hm h M S hs
    refine ⟨D', a, ?_⟩
    have e1 : bCallNow d .main = [] := by unfold bCallNow; simp [isCall]
    rw [e1]
    simpa [isHardware, isHandler, List.filter_cons] using b
  | write v =>
    obtain ⟨D', a, b⟩ := call_sim hn hm h M S rfl hs
    refine ⟨D', a, ?_⟩
    have e1 : bResultNow d (.write v) = [] := by unfold bResultNow; simp
    rw [e1]
    simpa [isHardware, isHandler, List.filter_cons] using b
  | read =>
    obtain ⟨D', a, b⟩ := call_sim hn hm h M S rfl hs
    refine ⟨D', a, ?_⟩
    have e1 : bResultNow d .read = [] := by unfold bResultNow; simp
    rw [e1]
    simpa [isHardware, isHandler, List.filter_cons] using b
  | _ => exact quiet rfl

theorem sim_run (hlim : lim ≤ 1) (hn : n ≤ 256) (hm : m ≤ 256) {D0 : Duplex} (es : List DEv) :
    ∀ {d d' : Bytes} {D : Duplex} {qo qi : List Nat} {p : List Frame} {H C I : List DEv} {R : List Int}, BInv o p1 p2 n m b0 d qo qi p → Match p1 p2 n m d D → Sim o lim D0 H C I R d D →
      (∀ e ∈ es, Duplex.evOk e) → Bytes.run o lim d es = .ok d' →
      ∃ D', Match p1 p2 n m d' D' ∧ Sim o lim D0 (H ++ es.filter isHardware) (C ++ bCalls o lim d es) (I ++ es.filter isHandler) (R ++ bResults o lim d es) d' D' := by
  induction es with
  | nil =>
    intro d d' D qo qi p H C I R h M S _ hs
    injection hs with hs
    subst hs
    exact ⟨D, M, by simpa [bCalls, bResults] using S⟩
  | cons e es ih =>
    intro d d' D qo qi p H C I R h M S hes hs
    obtain ⟨d1, q1, q2, p', hst, i1⟩ := Bytes.step_inv h (by omega) lim hlim e (hes e (by simp))
    simp only [Bytes.run, hst, Res.bind_ok] at hs
    obtain ⟨D1, M1, S1⟩ := sim_step hlim hn hm h M S (hes e (by simp)) hst
    obtain ⟨D2, M2, S2⟩ := ih i1 M1 S1 (fun x hx => hes x (by simp [hx])) hs
    refine ⟨D2, M2, ?_⟩
    have e1 : ∀ f : DEv → Bool, (e :: es).filter f = [e].filter f ++ es.filter f := fun f => by rw [← List.filter_append]; rfl
    rw [e1, e1]
    simp only [bCalls, bResults, hst]
    simpa [List.append_assoc] using S2

theorem init_match (g1 g2 : List Nat) (b : BitVec 8) : Match p1 p2 g1.length g2.length (Bytes.init p1 p2 g1 g2 b) (Duplex.init g1 g2 b) :=
  ⟨rfl, rfl, rfl, rfl, rfl, rfl, rfl, ⟨rfl, rfl⟩, HwSim.refl _ _, rfl, rfl, rfl, rfl, rfl⟩

theorem Reach.start (D : Duplex) : Reach lim D [] [] [] [] D := ⟨[], rfl, by simp, rfl, rfl, by simp, rfl⟩

theorem agree (hn : n < 65536) (hm : m < 65536) (h : BInv o p1 p2 n m b0 d qo qi p) (M : Match p1 p2 n m d D) : SameSeen d D := by
  refine ⟨M.acc, M.ret, M.kept, M.lost, M.asked, M.hw.line, M.hw.shift, M.hw.tx, M.hw.rx, fun hp => ?_⟩
  have k1 : txWindow d.pc = none := by rw [hp]; rfl
  have k2 : rxWindow d.pc = none := by rw [hp]; rfl
  have a1 := M.pcs
  have a2 := M.hw.eq (by rw [hp]; rfl)
  rw [hp] at a1
  refine ⟨a1.1, a2, ?_, ?_⟩
  · obtain ⟨w, r, e1, e2, e3⟩ := h.orel
    rw [getLength_rel (out_rel h M k1) (by rw [M.osize]; exact hn),
      ring_length e3 (by rw [h.osize]; exact hn) (by rw [h.obase]; exact opos_none k1 e2) (by rw [h.obase]; exact e1)]
  · obtain ⟨w, r, e1, e2, e3⟩ := h.irel
    rw [getLength_rel (inn_rel h M k2) (by rw [M.isize]; exact hm),
      ring_length e3 (by rw [h.isize]; exact hm) (by rw [h.ibase]; exact e1) (by rw [h.ibase]; exact ipos_none k2 e2)]

theorem pieces (hlim : lim ≤ 1) (hn : n ≤ 256) (hm : m ≤ 256) (ess : List (List DEv)) :
    ∀ {d : Bytes} {D : Duplex} {qo qi : List Nat} {p : List Frame}, BInv o p1 p2 n m b0 d qo qi p → Match p1 p2 n m d D → d.pc = .idle →
      (∀ es ∈ ess, ∀ e ∈ es, Duplex.evOk e) → CutIdle o lim d ess → ∃ fss, SamePieces o lim d D ess fss := by
  induction ess with
  | nil => intros; exact ⟨[], trivial⟩
  | cons es ess ih =>
    intro d D qo qi p h M hp hes hc
    obtain ⟨d', q1, q2, p', hr, i'⟩ := Bytes.run_inv (by omega) lim hlim es (hes es (by simp)) h
    obtain ⟨hp', hc'⟩ := hc d' hr
    have S : Sim o lim D [] [] [] [] d D := by unfold Sim; rw [hp]; exact Reach.start D
    obtain ⟨D', M', S'⟩ := sim_run hlim hn hm es h M S (hes es (by simp)) hr
    unfold Sim at S'
    rw [hp'] at S'
    obtain ⟨fs, a1, a2, a3, a4, a5, a6⟩ := S'
    obtain ⟨fss, hf⟩ := ih i' M' hp' (fun x hx => hes x (by simp [hx])) hc'
    exact ⟨fs :: fss, d', D', hr, a1, a2, by simpa using a3, by simpa using a5, by simpa using a4, by simpa using a6, agree (by omega) (by omega) i' M', hf⟩

end BytesSim

/-! ### Property -/

/-- **C139, partial** (at most one handler run in a window; buffers of at most 256 bytes, the most that can be indexed with the low byte of an address). Both streams with the bytes
    of every pointer loaded and stored one at a time, any buffers anywhere in memory, either byte first, any control register, any history: there is a history of the streams with
    undivided pointers with the same hardware events and the same calls in the same order, no other handler runs, and the same results of every `Read`, -1 included, after which
    the same is to be seen (a call that is not yet decided is left out). -/
theorem c139_undivided_partial (o : Order) (lim : Nat) (hlim : lim ≤ 1) (p1 p2 : Nat) (g1 g2 : List Nat) (b : BitVec 8) (h1 : 0 < g1.length) (h2 : 0 < g2.length)
    (n1 : g1.length ≤ 256) (n2 : g2.length ≤ 256) (es : List DEv) (hes : ∀ e ∈ es, Duplex.evOk e) :
    ∃ d fs D r, Bytes.run o lim (Bytes.init p1 p2 g1 g2 b) es = .ok d ∧ Duplex.run lim (Duplex.init g1 g2 b) fs = .ok D ∧ (∀ e ∈ fs, Duplex.evOk e) ∧
      fs.filter isHardware = es.filter isHardware ∧ (fs.filter isHandler).Sublist (es.filter isHandler) ∧
      callsMade lim (Duplex.init g1 g2 b) fs ++ r = bCalls o lim (Bytes.init p1 p2 g1 g2 b) es ∧ r.length ≤ 1 ∧ (d.pc = .idle → r = []) ∧ (r ≠ [] → D.pc = .idle) ∧
      resultsAt lim (Duplex.init g1 g2 b) fs = bResults o lim (Bytes.init p1 p2 g1 g2 b) es ∧ SameSeen d D := by
  have h := Bytes.init_inv o p1 p2 g1 g2 b h1 h2
  obtain ⟨d, qo, qi, p, hr, i⟩ := Bytes.run_inv (by omega) lim hlim es hes h
  have S : BytesSim.Sim o lim (Duplex.init g1 g2 b) [] [] [] [] (Bytes.init p1 p2 g1 g2 b) (Duplex.init g1 g2 b) := BytesSim.Reach.start _
  obtain ⟨D, M, S'⟩ := BytesSim.sim_run hlim n1 n2 es h (BytesSim.init_match g1 g2 b) S hes hr
  have A := BytesSim.agree (by omega) (by omega) i M
  unfold BytesSim.Sim at S'
  cases hu : BytesSim.undecided d.pc with
  | none =>
    rw [hu] at S'
    obtain ⟨fs, a1, a2, a3, a4, a5, a6⟩ := S'
    exact ⟨d, fs, D, [], hr, a1, a2, by simpa using a3, by simpa using a5, by simpa using a4, by simp, fun _ => rfl, fun x => absurd rfl x, by simpa using a6, A⟩
  | some x =>
    rw [hu] at S'
    obtain ⟨C', c1, ⟨fs, a1, a2, a3, a4, a5, a6⟩, -⟩ := S'
    refine ⟨d, fs, D, [x.1], hr, a1, a2, by simpa using a3, by simpa using a5, ?_, by simp, ?_, fun _ => BytesSim.idle_of_undecided M.pcs (by rw [hu]; simp), by simpa using a6, A⟩
    · rw [a4]; simpa using c1.symm
    · intro hp; rw [hp] at hu; cases hu

/-- **C139, partial.** Every call takes effect between its begin and its end: a history at byte level cut in any way at places where main code is outside calls has a counterpart
    with undivided pointers cut in the same way. -/
theorem c139_pieces_partial (o : Order) (lim : Nat) (hlim : lim ≤ 1) (p1 p2 : Nat) (g1 g2 : List Nat) (b : BitVec 8) (h1 : 0 < g1.length) (h2 : 0 < g2.length)
    (n1 : g1.length ≤ 256) (n2 : g2.length ≤ 256) (ess : List (List DEv)) (hes : ∀ es ∈ ess, ∀ e ∈ es, Duplex.evOk e) (hc : CutIdle o lim (Bytes.init p1 p2 g1 g2 b) ess) :
    ∃ fss, SamePieces o lim (Bytes.init p1 p2 g1 g2 b) (Duplex.init g1 g2 b) ess fss :=
  BytesSim.pieces hlim n1 n2 ess (Bytes.init_inv o p1 p2 g1 g2 b h1 h2) (BytesSim.init_match g1 g2 b) rfl hes hc

/-- **C139, partial.** Both streams at byte level behave as if every call were one indivisible step (C137): there is a history of whole calls with the same hardware events and the same
    calls in the same order and no other handler runs, in which the same bytes are accepted, the transmitter, the receiver and the line are the same, and every `Read` returns the
    same, -1 included. -/
theorem c139_whole_calls_partial (o : Order) (lim : Nat) (hlim : lim ≤ 1) (p1 p2 : Nat) (g1 g2 : List Nat) (b : BitVec 8) (h1 : 0 < g1.length) (h2 : 0 < g2.length)
    (n1 : g1.length ≤ 256) (n2 : g2.length ≤ 256) (es : List DEv) (hes : ∀ e ∈ es, Duplex.evOk e) :
    ∃ (d : Bytes) (ws : List DEv) (y : OutSys) (z : InSys), Bytes.run o lim (Bytes.init p1 p2 g1 g2 b) es = .ok d ∧
      (outInit g1 b).run (ws.flatMap outSide) = .ok y ∧ (inInit g2 b).run (ws.flatMap inSide) = .ok z ∧
      ws.filter isHardware = es.filter isHardware ∧ (ws.filter isHandler).Sublist (es.filter isHandler) ∧
      (∃ r, ws.filter isCall ++ r = bCalls o lim (Bytes.init p1 p2 g1 g2 b) es ∧ r.length ≤ 1 ∧ (d.pc = .idle → r = [])) ∧
      y.phase = .idle ∧ y.accepted = d.accepted ∧ y.s.hw.tx = d.hw.tx ∧ y.s.hw.shift = d.hw.shift ∧ y.s.hw.line = d.hw.line ∧
      z.kept = d.kept ∧ z.s.hw.rx = d.hw.rx ∧ d.returned <+: z.returned ∧
      (∃ r, readResults (inInit g2 b) (ws.flatMap inSide) = bResults o lim (Bytes.init p1 p2 g1 g2 b) es ++ r ∧ r.length ≤ 1 ∧ (d.pc = .idle → r = [])) ∧
      (d.pc = .idle → d.out.length = RingBuffer.getLength y.s.buf ∧ d.inn.length = RingBuffer.getLength z.s.buf ∧ z.returned = d.returned ∧
        z.s.hw.ucsrb.getLsbD 7 = d.hw.ucsrb.getLsbD 7) := by
  obtain ⟨d, fs, D, r, a1, a2, a3, a4, a5, a6, a7, a8, a9, a10, c1, c2, c3, c4, c5, c6, c7, c8, c9, c10⟩ := c139_undivided_partial o lim hlim p1 p2 g1 g2 b h1 h2 n1 n2 es hes
  obtain ⟨D', y, z, e1, e2, e3, e4, e5, e6, e7, e8, e9, e10, e11, ⟨s, s1, s2, s3⟩, e12⟩ := c137_whole_calls_partial lim g1 g2 b h1 h2 (by omega) (by omega) fs a3
    (c108_once_calm lim hlim g1 g2 b h1 h2 (by omega) (by omega) fs a3)
  rw [a2] at e1
  injection e1 with e1
  subst e1
  obtain ⟨⟨t, t1, t2, t3⟩, u1, u2⟩ := c137_history lim g1 g2 b fs D a2
  refine ⟨d, wholeCalls lim (Duplex.init g1 g2 b) fs, y, z, a1, e2, e3, u1.trans a4, ?_, ⟨t ++ r, ?_, ?_, ?_⟩, e4, e5.trans c1, e6.trans c8, e7.trans c7, e8.trans c6, e9.trans c3, e10.trans c9,
    c2 ▸ e11, ⟨s, by rw [s1, a10], s2, fun hp => s3 (c10 hp).1⟩, fun hp => ?_⟩
  · have := u2.filter isHandler
    rw [List.filter_filter] at this
    have e : (wholeCalls lim (Duplex.init g1 g2 b) fs).filter (fun a => isHandler a && !isCall a) = (wholeCalls lim (Duplex.init g1 g2 b) fs).filter isHandler := by
      apply List.filter_congr
      intro x _
      cases x <;> rfl
    rw [e] at this
    exact this.trans a5
  · rw [← List.append_assoc, t1, a6]
  · rw [List.length_append]
    by_cases hr : r = []
    · rw [hr]; simpa using t2
    · rw [t3 (a9 hr)]; simpa using a7
  · intro hp; rw [t3 (c10 hp).1, a8 hp]; rfl
  · obtain ⟨f1, f2, f3, f4⟩ := c10 hp
    obtain ⟨v1, v2, v3, v4⟩ := e12 f1
    exact ⟨f3 ▸ v1, f4 ▸ v2, v3.trans c2, v4.trans (by rw [f2])⟩

/-- **C139, partial.** What the calls of `Read` return at byte level is, -1 included, what the specification of the input stream says of a history of whole calls. -/
theorem c139_once_partial (o : Order) (lim : Nat) (hlim : lim ≤ 1) (p1 p2 : Nat) (g1 g2 : List Nat) (b : BitVec 8) (h1 : 0 < g1.length) (h2 : 0 < g2.length)
    (n1 : g1.length ≤ 256) (n2 : g2.length ≤ 256) (es : List DEv) (hes : ∀ e ∈ es, Duplex.evOk e) :
    ∃ (d : Bytes) (ws : List DEv) (x : Spec.Usart.Inbox) (r : List Int), Bytes.run o lim (Bytes.init p1 p2 g1 g2 b) es = .ok d ∧ ws.filter isHardware = es.filter isHardware ∧
      x = Spec.Usart.Inbox.run (g2.length - 1) { on := b.getLsbD 4, ie := b.getLsbD 7 } ((ws.flatMap inSide).map inAct) ∧
      x.returned = bResults o lim (Bytes.init p1 p2 g1 g2 b) es ++ r ∧ r.length ≤ 1 ∧ (d.pc = .idle → r = []) ∧
      d.hw.rx.map (fun f => (f.data % 256, Frame.good f)) = x.fifo ∧ (d.pc = .idle → d.inn.length = x.queue.length ∧ d.hw.ucsrb.getLsbD 7 = x.ie) := by
  obtain ⟨d, fs, D, r, a1, a2, a3, a4, a5, a6, a7, a8, a9, a10, c1, c2, c3, c4, c5, c6, c7, c8, c9, c10⟩ := c139_undivided_partial o lim hlim p1 p2 g1 g2 b h1 h2 n1 n2 es hes
  obtain ⟨D', x, s, e1, e2, e3, e4, e5, e6, e7⟩ := c137_once lim hlim g1 g2 b h1 h2 (by omega) (by omega) fs a3
  rw [a2] at e1
  injection e1 with e1
  subst e1
  obtain ⟨-, u1, -⟩ := c137_history lim g1 g2 b fs D a2
  refine ⟨d, _, x, s, a1, u1.trans a4, e2, by rw [e3, a10], e4, fun hp => e5 (c10 hp).1, by rw [← c9]; exact e6, fun hp => ?_⟩
  obtain ⟨f1, f2, f3, f4⟩ := c10 hp
  rw [← f4, ← f2]; exact e7 f1

/-! ### Concrete cases and the limits -/

/-- The history of the first example below: two bytes written, the transmit handler runs with half of the second write pointer stored, a `Read` of nothing during which a byte
    comes in, and a `Read` of it. -/
def c139Example : List DEv := bWrite 65 ++ [.write 66, .main, .main, .main, .txIsr, .main, .main, .main, .main, .main, .main, .main] ++
  [.read, .main, dGood 7, .main, .main, .main, .main, .main, .main, .rxIsr] ++ bRead

example : bResults ⟨true, true⟩ 1 (Bytes.init 254 510 [9, 9, 9] [7, 7, 7] 0x18#8) c139Example = [-1, 7] ∧
    bCalls ⟨true, true⟩ 1 (Bytes.init 254 510 [9, 9, 9] [7, 7, 7] 0x18#8) c139Example = [.write 65, .write 66, .read, .read] := by decide +kernel

example := c139_undivided_partial ⟨true, true⟩ 1 (by decide) 254 510 [9, 9, 9] [7, 7, 7] 0x18#8 (by decide) (by decide) (by decide) (by decide) c139Example
  (by simp [c139Example, bWrite, bRead, dGood, Duplex.evOk])
example := c139_whole_calls_partial ⟨true, true⟩ 1 (by decide) 254 510 [9, 9, 9] [7, 7, 7] 0x18#8 (by decide) (by decide) (by decide) (by decide) c139Example
  (by simp [c139Example, bWrite, bRead, dGood, Duplex.evOk])
example := c139_once_partial ⟨true, true⟩ 1 (by decide) 254 510 [9, 9, 9] [7, 7, 7] 0x18#8 (by decide) (by decide) (by decide) (by decide) c139Example
  (by simp [c139Example, bWrite, bRead, dGood, Duplex.evOk])
example := c139_pieces_partial ⟨true, true⟩ 1 (by decide) 254 510 [9, 9, 9] [7, 7, 7] 0x18#8 (by decide) (by decide) (by decide) (by decide) [bWrite 65, bWrite 66, bRead]
  (by simp [bWrite, bRead, Duplex.evOk])
  (by
    intro d hd; injection hd with hd; subst hd
    refine ⟨by decide +kernel, ?_⟩
    intro d hd; injection hd with hd; subst hd
    refine ⟨by decide +kernel, ?_⟩
    intro d hd; injection hd with hd; subst hd
    exact ⟨by decide +kernel, trivial⟩)

/-- **C139 fails** beyond 256 bytes: with a buffer of 258 a frame is refused at byte level (C138) that no history with undivided pointers and as many frames refuses. -/
theorem c139_large_fails : ∃ es d, Bytes.run ⟨true, false⟩ 1 (Bytes.init 1000 255 [9] (List.replicate 258 7) 0x18#8) es = .ok d ∧ d.pc = .idle ∧
    ∀ fs D, (∀ e ∈ fs, Duplex.evOk e) → Duplex.run 1 (Duplex.init [9] (List.replicate 258 7) 0x18#8) fs = .ok D → D.kept = d.kept → D.pc = .idle → D.lost ≠ d.lost := by
  obtain ⟨es, d, hr, hp, hk, hl⟩ := c138_large_fails
  refine ⟨es, d, hr, hp, fun fs D hfs hD hkept hpD hlost => ?_⟩
  obtain ⟨D', e1, -, -, e2⟩ := c108_streams_partial 1 (by decide) [9] (List.replicate 258 7) 0x18#8 (by decide) (by rw [List.length_replicate]; decide) (by decide) (by rw [List.length_replicate]; decide) fs hfs
  rw [hD] at e1
  injection e1 with e1
  subst e1
  obtain ⟨_, _, _, -, -, -, -, -, -, -, -, h0⟩ := e2 hpD
  have := h0 (by rw [hkept, hk, List.length_replicate]; decide)
  omega

/-- **C139 fails** if the transmit handler runs twice in a window: two bytes on the line, one accepted, which no history of whole calls has. -/
theorem c139_twice_fails : ∃ es d, Bytes.run ⟨true, true⟩ 2 (Bytes.init 255 510 [9, 9, 9] [7, 7, 7] 0x38#8) es = .ok d ∧ d.pc = .idle ∧
    ∀ fs y, (outInit [9, 9, 9] 0x38#8).run fs = .ok y → y.accepted = d.accepted → y.s.hw.line ≠ d.hw.line := by
  obtain ⟨d, h, hd⟩ := bytes_of_run ⟨true, true⟩ 2 (Bytes.init 255 510 [9, 9, 9] [7, 7, 7] 0x38#8)
    ([.write 1, .main, .main, .main, .txIsr, .load, .txIsr] ++ List.replicate 8 .main ++ dRounds 4)
    (fun d => decide (d.pc = .idle ∧ d.accepted.length = 1 ∧ 2 ≤ d.hw.line.length)) (by decide +kernel)
  obtain ⟨d1, d2, d3⟩ := of_decide_eq_true hd
  refine ⟨_, d, h, d1, fun fs y hy ha hl => ?_⟩
  obtain ⟨y', rest, e1, e2, -⟩ := c59_order [9, 9, 9] 0x38#8 (by decide) (by decide) fs
  rw [hy] at e1
  injection e1 with e1
  subst e1
  have := congrArg List.length e2
  rw [ha, d2, hl] at this
  simp only [List.length_append] at this
  omega

end Atl.Props
