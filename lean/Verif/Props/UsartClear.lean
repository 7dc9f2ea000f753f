import Verif.Model.UsartClear
import Verif.Props.UsartStream

/- Property theorems C118: emptying and closing the USART input stream. -/
namespace Atl.Props
open Atl.Usart

/-- What the hardware and the handler do: frames of up to nine bits and interrupts. -/
def Background : InEv → Prop
  | .arrive f => f.data < 512
  | .isr => True
  | .read => False

/-- The frames that come in. -/
def arrivals (es : List InEv) : List Frame := es.flatMap fun
  | .arrive f => [f]
  | _ => []

/-- What holds between events of the background. -/
def Sound (n : Nat) (y : InSys) : Prop := (∃ q, RingBuffer.Rel y.s.buf q) ∧ y.s.buf.size = n ∧ ∀ f ∈ y.s.hw.rx, f.data < 512

/-- The handler with the oldest frame `f`. -/
theorem isr_frame (s : InStream) (f : Frame) (r : List Frame) (hx : s.hw.rx = f :: r) (hf : f.data < 512) :
    s.isr = if Frame.good f then (do let (b, _) ← RingBuffer.write s.buf (f.data % 256); .ok { buf := b, hw := { s.hw with rx := r } })
      else .ok { s with hw := { s.hw with rx := r } } := by
  obtain ⟨a, b, c⟩ := flags s.hw f r hx
  have g : (getResult s.hw = .success) ↔ Frame.good f = true := by
    unfold getResult Frame.good
    rw [a, b, c]
    cases f.fe <;> cases f.dor <;> cases f.upe <;> decide
  have ht : (if s.hw.ucsrb.getLsbD 2 = true then f.data else f.data % 256) % 256 = f.data % 256 := by split <;> omega
  unfold InStream.isr
  simp only [c57_read s.hw f r hx hf, ht, g]

/-- An arriving frame: kept or not. -/
theorem arrive_step (y : InSys) (f : Frame) : ∃ y', y.step (.arrive f) = .ok y' ∧ y'.s.buf = y.s.buf ∧ y'.s.hw.ucsrb = y.s.hw.ucsrb ∧ y'.returned = y.returned ∧
    (y'.s.hw.rx = y.s.hw.rx ∨ y'.s.hw.rx = y.s.hw.rx ++ [f]) ∧
    y'.s.hw.tx = y.s.hw.tx ∧ y'.s.hw.shift = y.s.hw.shift ∧ y'.s.hw.line = y.s.hw.line := by
  simp only [InSys.step]
  split
  · exact ⟨_, rfl, rfl, rfl, rfl, Or.inr rfl, rfl, rfl, rfl⟩
  · exact ⟨y, rfl, rfl, rfl, rfl, Or.inl rfl, rfl, rfl, rfl⟩

theorem sound_step {n : Nat} {y : InSys} (h : Sound n y) (e : InEv) (he : Background e) : ∃ y', y.step e = .ok y' ∧ Sound n y' := by
  obtain ⟨⟨q, rel⟩, size, small⟩ := h
  cases e with
  | arrive f =>
    obtain ⟨y', e1, e2, -, -, e3, -⟩ := arrive_step y f
    refine ⟨y', e1, ⟨q, by rw [e2]; exact rel⟩, by rw [e2]; exact size, ?_⟩
    rcases e3 with e3 | e3 <;> rw [e3]
    · exact small
    · intro x hx
      simp only [List.mem_append, List.mem_singleton] at hx
      rcases hx with hx | rfl
      · exact small x hx
      · exact he
  | isr =>
    simp only [InSys.step]
    split
    · next hc =>
      rw [Bool.and_eq_true, complete_iff] at hc
      cases hx : y.s.hw.rx with
      | nil => rw [hx] at hc; simp at hc
      | cons f r =>
        have hr : ∀ x ∈ r, x.data < 512 := fun x hm => small x (by rw [hx]; simp [hm])
        rw [isr_frame y.s f r hx (small f (by rw [hx]; simp))]
        by_cases hg : Frame.good f = true
        · rw [if_pos hg]
          by_cases hfull : q.length + 1 = y.s.buf.size
          · rw [RingBuffer.write_full rel _ hfull]
            exact ⟨_, rfl, ⟨q, rel⟩, size, hr⟩
          · obtain ⟨b, hb, hrel, hsz⟩ := RingBuffer.write_room rel (f.data % 256) (by have := rel.hq; omega)
            rw [hb]
            exact ⟨_, rfl, ⟨_, hrel⟩, hsz.trans size, hr⟩
        · rw [if_neg hg]
          exact ⟨_, rfl, ⟨q, rel⟩, size, hr⟩
    · exact ⟨y, rfl, ⟨q, rel⟩, size, small⟩
  | read => exact absurd he (by simp [Background])

theorem sound_run {n : Nat} (es : List InEv) (hes : ∀ e ∈ es, Background e) {y : InSys} (h : Sound n y) : ∃ y', y.run es = .ok y' ∧ Sound n y' := by
  induction es generalizing y with
  | nil => exact ⟨y, rfl, h⟩
  | cons e es ih =>
    obtain ⟨y1, e1, h1⟩ := sound_step h e (hes e (by simp))
    obtain ⟨y2, e2, h2⟩ := ih (fun e he => hes e (by simp [he])) h1
    exact ⟨y2, by simp only [InSys.run, e1, Res.bind_ok, e2], h2⟩

/-- The loop never does anything undefined; when it ends, something has been received and is still there. -/
theorem flushLoop_spec {n : Nat} (ps : List (List InEv × List InEv)) (hps : ∀ p ∈ ps, (∀ e ∈ p.1, Background e) ∧ ∀ e ∈ p.2, Background e) {y : InSys}
    (h : Sound n y) : ∃ o, y.flushLoop ps = .ok o ∧ ∀ z, o = some z → Sound n z ∧ z.s.hw.rx ≠ [] := by
  induction ps generalizing y with
  | nil => exact ⟨none, rfl, by simp⟩
  | cons p ps ih =>
    obtain ⟨a, b⟩ := p
    obtain ⟨ha, hb⟩ := hps (a, b) (by simp)
    obtain ⟨y1, e1, h1⟩ := sound_run a ha h
    simp only [InSys.flushLoop, e1, Res.bind_ok]
    split
    · next hc =>
      refine ⟨_, rfl, fun z hz => ?_⟩
      injection hz with hz
      rw [← hz]
      exact ⟨h1, by rw [complete_iff] at hc; simpa using hc⟩
    · obtain ⟨y2, e2, h2⟩ := sound_run b hb h1
      rw [e2]
      refine ih (fun p hp => hps p (by simp [hp])) ⟨h2.1, h2.2.1, fun f hf => h2.2.2 f ?_⟩
      revert hf
      show f ∈ y2.s.hw.readUDR.2.rx → _
      unfold Hw.readUDR
      cases hx : y2.s.hw.rx with
      | nil => intro hf; rw [← hx]; exact hf
      | cons g r => intro hf; exact List.mem_cons_of_mem _ hf

theorem goodBytes_append (a b : List Frame) : goodBytes (a ++ b) = goodBytes a ++ goodBytes b := by unfold goodBytes; simp

/-- Between the stores of `Clear`: `q` is what the handler has put in since the first one. -/
structure Cleared (n R : Nat) (y : InSys) (q : List Nat) : Prop where
  size : y.s.buf.size = n
  hlen : y.s.buf.buf.length = n
  r : y.s.buf.r = R
  w : y.s.buf.w = q.length
  room : q.length < R ∨ R = 0
  fits : q.length < n
  get : ∀ i (h : i < q.length), y.s.buf.buf[i]? = some q[i]
  small : ∀ f ∈ y.s.hw.rx, f.data < 512

theorem cleared_step {n R : Nat} (hR : R < n) {y : InSys} {q : List Nat} (h : Cleared n R y q) (e : InEv) (he : Background e) :
    ∃ y' a, y.step e = .ok y' ∧ Cleared n R y' (q ++ a) ∧ List.Sublist (a ++ goodBytes y'.s.hw.rx) (goodBytes (y.s.hw.rx ++ arrivals [e])) ∧
      y'.s.hw.ucsrb = y.s.hw.ucsrb ∧ y'.returned = y.returned ∧ y'.s.hw.tx = y.s.hw.tx ∧ y'.s.hw.shift = y.s.hw.shift ∧ y'.s.hw.line = y.s.hw.line ∧
      (y.s.hw.ucsrb.getLsbD 7 = false → a = []) := by
  obtain ⟨size, hlen, hr, hw, room, fits, get, small⟩ := h
  cases e with
  | arrive f =>
    obtain ⟨y', e1, e2, e4, e5, e3, e6, e7, e8⟩ := arrive_step y f
    refine ⟨y', [], e1, ⟨by rw [e2]; exact size, by rw [e2]; exact hlen, by rw [e2]; exact hr, by rw [e2, List.append_nil]; exact hw, by rw [List.append_nil]; exact room,
      by rw [List.append_nil]; exact fits, ?_, ?_⟩, ?_, e4, e5, e6, e7, e8, fun _ => rfl⟩
    · simpa [e2] using get
    · rcases e3 with e3 | e3 <;> rw [e3]
      · exact small
      · intro x hx
        simp only [List.mem_append, List.mem_singleton] at hx
        rcases hx with hx | rfl
        · exact small x hx
        · exact he
    · show List.Sublist (goodBytes y'.s.hw.rx) (goodBytes (y.s.hw.rx ++ [f]))
      rcases e3 with e3 | e3 <;> rw [e3]
      · rw [goodBytes_append]
        exact List.sublist_append_left _ _
      · exact List.Sublist.refl _
  | isr =>
    simp only [InSys.step]
    have harr : arrivals [InEv.isr] = [] := rfl
    rw [harr, List.append_nil]
    split
    · next hc =>
      rw [Bool.and_eq_true, complete_iff, isTrue_bit 7 (by omega)] at hc
      have h7 : y.s.hw.ucsrb.getLsbD 7 = false → False := fun h => by rw [h] at hc; simp at hc
      cases hx : y.s.hw.rx with
      | nil => rw [hx] at hc; simp at hc
      | cons f r =>
        have hrs : ∀ x ∈ r, x.data < 512 := fun x hm => small x (by rw [hx]; simp [hm])
        have hgb : goodBytes (f :: r) = (if Frame.good f then [f.data % 256] else []) ++ goodBytes r := by
          unfold goodBytes
          by_cases hg : Frame.good f = true <;> simp [hg]
        rw [isr_frame y.s f r hx (small f (by rw [hx]; simp)), hgb]
        by_cases hg : Frame.good f = true
        · rw [if_pos hg, if_pos hg]
          by_cases hfull : RingBuffer.isFull y.s.buf = true
          · refine ⟨{ y with s := { buf := y.s.buf, hw := { y.s.hw with rx := r } } }, [], by simp only [RingBuffer.write, hfull, if_true, Res.bind_ok], ⟨size, hlen, hr, by rw [List.append_nil]; exact hw,
              by rw [List.append_nil]; exact room, by rw [List.append_nil]; exact fits, by simpa using get, hrs⟩, ?_, rfl, rfl, rfl, rfl, rfl, fun _ => rfl⟩
            exact List.sublist_append_right _ _
          · have hroom : q.length + 1 < n ∧ (q.length + 1 < R ∨ R = 0) := by
              simp only [RingBuffer.isFull, hr, hw, size] at hfull
              split at hfull <;> simp at hfull <;> omega
            have hset : cSet y.s.buf.buf y.s.buf.w (f.data % 256) = .ok (y.s.buf.buf.set y.s.buf.w (f.data % 256)) := cSet_ok _ (by omega)
            let b : RingBuffer.RB Nat := { y.s.buf with buf := y.s.buf.buf.set y.s.buf.w (f.data % 256), w := RingBuffer.wrap y.s.buf.size (y.s.buf.w + 1) }
            refine ⟨{ y with s := { buf := b, hw := { y.s.hw with rx := r } } }, [f.data % 256], by simp [RingBuffer.write, hfull, hset, b], ⟨size, by simpa [b] using hlen, hr, ?_, ?_, ?_, ?_, hrs⟩, ?_,
              rfl, rfl, rfl, rfl, rfl, fun h => absurd h (fun h => h7 h)⟩
            · show RingBuffer.wrap y.s.buf.size (y.s.buf.w + 1) = _
              rw [RingBuffer.wrap, if_neg (by omega), List.length_append, hw]
              rfl
            · rw [List.length_append]; exact hroom.2
            · rw [List.length_append]; exact hroom.1
            · intro i hi
              rw [List.length_append, List.length_singleton] at hi
              show (y.s.buf.buf.set y.s.buf.w (f.data % 256))[i]? = _
              rw [List.getElem?_set]
              by_cases hiq : i < q.length
              · rw [if_neg (by omega), List.getElem_append_left hiq]
                exact get i hiq
              · have : i = q.length := by omega
                subst this
                rw [if_pos hw, if_pos (by omega)]
                simp
            · exact List.Sublist.refl _
        · rw [if_neg hg, if_neg hg]
          exact ⟨{ y with s := { y.s with hw := { y.s.hw with rx := r } } }, [], rfl, ⟨size, hlen, hr, by rw [List.append_nil]; exact hw, by rw [List.append_nil]; exact room, by rw [List.append_nil]; exact fits,
            by simpa using get, hrs⟩, List.Sublist.refl _, rfl, rfl, rfl, rfl, rfl, fun _ => rfl⟩
    · exact ⟨y, [], rfl, ⟨size, hlen, hr, by rw [List.append_nil]; exact hw, by rw [List.append_nil]; exact room, by rw [List.append_nil]; exact fits,
        by simpa using get, small⟩, List.Sublist.refl _, rfl, rfl, rfl, rfl, rfl, fun _ => rfl⟩
  | read => exact absurd he (by simp [Background])

theorem cleared_run {n R : Nat} (hR : R < n) (es : List InEv) (hes : ∀ e ∈ es, Background e) {y : InSys} {q : List Nat} (h : Cleared n R y q) :
    ∃ y' a, y.run es = .ok y' ∧ Cleared n R y' (q ++ a) ∧ List.Sublist (a ++ goodBytes y'.s.hw.rx) (goodBytes (y.s.hw.rx ++ arrivals es)) ∧
      y'.s.hw.ucsrb = y.s.hw.ucsrb ∧ y'.returned = y.returned ∧ y'.s.hw.tx = y.s.hw.tx ∧ y'.s.hw.shift = y.s.hw.shift ∧ y'.s.hw.line = y.s.hw.line ∧
      (y.s.hw.ucsrb.getLsbD 7 = false → a = []) := by
  induction es generalizing y q with
  | nil =>
    refine ⟨y, [], rfl, by rw [List.append_nil]; exact h, ?_, rfl, rfl, rfl, rfl, rfl, fun _ => rfl⟩
    simp [arrivals]
  | cons e es ih =>
    obtain ⟨y1, a1, e1, h1, s1, u1, t1, x1, v1, w1, z1⟩ := cleared_step hR h e (hes e (by simp))
    obtain ⟨y2, a2, e2, h2, s2, u2, t2, x2, v2, w2, z2⟩ := ih (fun e he => hes e (by simp [he])) h1
    refine ⟨y2, a1 ++ a2, by simp only [InSys.run, e1, Res.bind_ok, e2], by rw [← List.append_assoc]; exact h2, ?_, u2.trans u1, t2.trans t1, x2.trans x1, v2.trans v1,
      w2.trans w1, fun hh => by rw [z1 hh, z2 (by rw [u1]; exact hh)]; rfl⟩
    have harr : arrivals (e :: es) = arrivals [e] ++ arrivals es := by simp [arrivals]
    rw [harr, ← List.append_assoc, goodBytes_append, List.append_assoc]
    rw [goodBytes_append] at s2
    refine (List.Sublist.append_left s2 a1).trans ?_
    · rw [← List.append_assoc]
      exact List.Sublist.append_right s1 _

/-- After the second store the stream holds just that. -/
theorem cleared_end {n R : Nat} {y : InSys} {q : List Nat} (h : Cleared n R y q) : RingBuffer.Rel y.s.clearSecond.buf q := by
  obtain ⟨size, hlen, hr, hw, room, fits, get, -⟩ := h
  refine ⟨hlen.trans size.symm, ?_, ?_, ?_, fun i hi => ?_⟩
  · show 0 < y.s.buf.size; omega
  · show _ < y.s.buf.size; omega
  · show y.s.buf.w = if 0 + q.length < y.s.buf.size then 0 + q.length else _
    rw [if_pos (by omega), hw]; omega
  · show y.s.buf.buf[if 0 + i < y.s.buf.size then 0 + i else _]? = _
    rw [if_pos (by omega), Nat.zero_add]
    exact get i hi

theorem clearBuffer_spec {n : Nat} (mid : List InEv) (hm : ∀ e ∈ mid, Background e) {y : InSys} (h : Sound n y) :
    ∃ y' q, y.clearBuffer mid = .ok y' ∧ RingBuffer.Rel y'.s.buf q ∧ y'.s.buf.size = n ∧ (∀ f ∈ y'.s.hw.rx, f.data < 512) ∧
      List.Sublist (q ++ goodBytes y'.s.hw.rx) (goodBytes (y.s.hw.rx ++ arrivals mid)) ∧ y'.s.hw.ucsrb = y.s.hw.ucsrb ∧ y'.returned = y.returned ∧
      y'.s.hw.tx = y.s.hw.tx ∧ y'.s.hw.shift = y.s.hw.shift ∧ y'.s.hw.line = y.s.hw.line ∧ (y.s.hw.ucsrb.getLsbD 7 = false → q = []) := by
  obtain ⟨⟨q0, rel⟩, size, small⟩ := h
  have hR : y.s.buf.r < n := by rw [← size]; exact rel.hr
  have h0 : Cleared n y.s.buf.r { y with s := y.s.clearFirst } [] :=
    ⟨size, rel.hlen.trans size, rfl, rfl, by simp only [List.length_nil]; omega, by simp only [List.length_nil]; omega, fun i hi => absurd hi (by simp), small⟩
  obtain ⟨y1, a, e1, h1, s1, u1, t1, x1, v1, w1, z1⟩ := cleared_run hR mid hm h0
  rw [List.nil_append] at h1
  exact ⟨{ y1 with s := y1.s.clearSecond }, a, by simp only [InSys.clearBuffer, e1, Res.bind_ok], cleared_end h1, h1.size, h1.small, s1, u1, t1, x1, v1, w1, z1⟩

/-- Reading a stream that holds `q`: its bytes in order. -/
theorem reads_rel {n : Nat} (hn : n < 65536) (k : Nat) {y : InSys} {q : List Nat} (rel : RingBuffer.Rel y.s.buf q) (size : y.s.buf.size = n) :
    ∃ z, y.run (List.replicate k .read) = .ok z ∧ z.returned = y.returned ++ q.take k := by
  induction k generalizing y q with
  | zero => exact ⟨y, rfl, by simp⟩
  | succ k ih =>
    rw [List.replicate_succ]
    simp only [InSys.run, InSys.step, InStream.read]
    rw [RingBuffer.getLength_rel rel (by omega)]
    cases q with
    | nil =>
      obtain ⟨z, e, hz⟩ := ih (y := { y with s := { y.s with hw := rxSetInterrupt true y.s.hw } }) rel size
      refine ⟨z, ?_, by rw [hz]; simp⟩
      simpa using e
    | cons v q =>
      obtain ⟨b, hb, hrel, hsz⟩ := RingBuffer.read_rel rel
      have hne : ¬ ((v : Int) = -1) := by omega
      obtain ⟨z, e, hz⟩ := ih (y := { y with s := { y.s with buf := b }, returned := y.returned ++ [v] }) hrel (hsz.trans size)
      refine ⟨z, ?_, by rw [hz]; simp⟩
      simpa [hb, hne] using e

/-- Every history of the stream leaves it in such a state. -/
theorem sound_reachable (g : List Nat) (b : BitVec 8) (hg : 0 < g.length) (hn : g.length < 65536) (es : List InEv) (hes : ∀ e ∈ es, InEv.ok e) :
    ∃ y, (inInit g b).run es = .ok y ∧ Sound g.length y ∧ Wf y.s.hw := by
  obtain ⟨y, q, p, h1, h2⟩ := in_run hn es hes
    (⟨RingBuffer.rel_mk g hg, rfl, rfl, by simp [inInit, goodBytes], fun _ => rfl, Or.inr rfl, by simp [inInit]⟩ : IInv g.length (inInit g b) [] [])
  exact ⟨y, h1, ⟨⟨q, h2.rel⟩, h2.size, fun f hf => h2.small f (by rw [← h2.taken]; simp [hf])⟩, h2.wf⟩

/-- **C118, partial.** After any history, whatever comes in meanwhile and wherever the handler runs: `Clear` does nothing undefined, and when it returns, all later
    reads get, in order, only bytes of frames that were in the receiver when its loop ended or came after that; nothing that was in the buffer.
    Missing: that it returns, and that the receiver is emptied, too (next theorems). -/
theorem c118_clear_partial (g : List Nat) (b : BitVec 8) (hg : 0 < g.length) (hn : g.length < 65536) (es : List InEv) (hes : ∀ e ∈ es, InEv.ok e)
    (ps : List (List InEv × List InEv)) (hps : ∀ p ∈ ps, (∀ e ∈ p.1, Background e) ∧ ∀ e ∈ p.2, Background e) (mid : List InEv)
    (hm : ∀ e ∈ mid, Background e) :
    ∃ y o, (inInit g b).run es = .ok y ∧ y.clear ps mid = .ok o ∧ ∀ z, o = some z →
      ∃ x q, y.flushLoop ps = .ok (some x) ∧ List.Sublist (q ++ goodBytes z.s.hw.rx) (goodBytes (x.s.hw.rx ++ arrivals mid)) ∧
        RingBuffer.getLength z.s.buf = q.length ∧ ∀ k, ∃ z', z.run (List.replicate k .read) = .ok z' ∧ z'.returned = z.returned ++ q.take k := by
  obtain ⟨y, h1, h2, -⟩ := sound_reachable g b hg hn es hes
  obtain ⟨o, h3, h4⟩ := flushLoop_spec ps hps h2
  cases o with
  | none => exact ⟨y, none, h1, by simp only [InSys.clear, h3, Res.bind_ok], by simp⟩
  | some x =>
    obtain ⟨hx, -⟩ := h4 x rfl
    obtain ⟨z, q, e, rel, size, -, sub, -⟩ := clearBuffer_spec mid hm hx
    refine ⟨y, some z, h1, by simp only [InSys.clear, h3, Res.bind_ok, e], fun z' hz => ?_⟩
    injection hz with hz
    subst hz
    exact ⟨x, q, h3, sub, RingBuffer.getLength_rel rel (by omega), fun k => reads_rel hn k rel size⟩

/-- A byte is read, one is buffered, one is in the receiver; `Clear` returns at once and the first is gone. -/
example : ∃ y z, (inInit [0, 0, 0, 0] 0x90#8).run [.arrive ⟨65, false, false, false⟩, .isr, .arrive ⟨66, false, false, false⟩, .isr, .read, .arrive ⟨67, false, false, false⟩] = .ok y ∧
    y.clear [([], [])] [] = .ok (some z) ∧ RingBuffer.getLength y.s.buf = 1 ∧ RingBuffer.getLength z.s.buf = 0 ∧
    (∃ z', z.run [.isr, .read] = .ok z' ∧ z'.returned = [65, 67]) :=
  ⟨_, _, rfl, rfl, by decide +kernel, by decide +kernel, _, rfl, by decide +kernel⟩

/-- **C118 fails** (`Clear` returns): while nothing comes in, and with the receive interrupt on also when any number of frames come in and the handler takes each
    before the next test of the loop, it does not return. -/
theorem c118_clear_hangs_fails (y : InSys) (hr : y.s.hw.rx = []) (mid : List InEv) :
    (∀ n, y.clear (List.replicate n ([], [])) mid = .ok none) ∧
    (y.s.hw.ucsrb.getLsbD 7 = true → ∀ n, Sound n y → ∀ fs : List (List Frame), (∀ l ∈ fs, ∀ f ∈ l, f.data < 512) →
      y.clear (fs.map fun l => (l.flatMap fun f => [.arrive f, .isr], [])) mid = .ok none) := by
  have quiet : ∀ h : Hw, h.rx = [] → h.readUDR.2 = h := fun h hh => by unfold Hw.readUDR; rw [hh]
  constructor
  · intro n
    have : ∀ n, y.flushLoop (List.replicate n ([], [])) = .ok none := by
      intro n
      induction n with
      | zero => rfl
      | succ n ih =>
        rw [List.replicate_succ]
        simp only [InSys.flushLoop, InSys.run, Res.bind_ok, complete_iff, hr, quiet _ hr]
        simpa using ih
    simp only [InSys.clear, this, Res.bind_ok]
  · intro h7 n hs fs hfs
    have one : ∀ (l : List Frame) (_ : ∀ f ∈ l, f.data < 512) (y : InSys), y.s.hw.rx = [] → y.s.hw.ucsrb.getLsbD 7 = true → Sound n y →
        ∃ y', y.run (l.flatMap fun f => [.arrive f, .isr]) = .ok y' ∧ y'.s.hw.rx = [] ∧ y'.s.hw.ucsrb.getLsbD 7 = true ∧ Sound n y' := by
      intro l
      induction l with
      | nil => exact fun _ y a b c => ⟨y, rfl, a, b, c⟩
      | cons f l ih =>
        intro hl y a b c
        have hf := hl f (by simp)
        obtain ⟨y1, e1, s1⟩ := sound_step c (.arrive f) hf
        obtain ⟨y1', e1', b1, u1, -, r1, -⟩ := arrive_step y f
        rw [e1] at e1'
        injection e1' with e1'
        subst e1'
        obtain ⟨y2, e2, s2⟩ := sound_step s1 .isr trivial
        have key : y2.s.hw.rx = [] ∧ y2.s.hw.ucsrb = y1.s.hw.ucsrb := by
          rw [a, List.nil_append] at r1
          simp only [InSys.step] at e2
          rcases r1 with r1 | r1
          · have hc : rxComplete y1.s.hw = false := by rw [complete_iff, r1]; rfl
            rw [hc] at e2
            simp only [Bool.and_false, Bool.false_eq_true, if_false] at e2
            injection e2 with e2
            rw [← e2]
            exact ⟨r1, rfl⟩
          · have hc : rxComplete y1.s.hw = true := by rw [complete_iff, r1]; rfl
            have h7' : isTrue 7 y1.s.hw.ucsrb = true := by rw [isTrue_bit 7 (by omega), u1, b]
            rw [hc, h7', Bool.and_self, if_pos rfl, isr_frame y1.s f [] r1 hf] at e2
            by_cases hg : Frame.good f = true
            · rw [if_pos hg] at e2
              cases hw : RingBuffer.write y1.s.buf (f.data % 256) with
              | ub => rw [hw] at e2; cases e2
              | ok p =>
                rw [hw] at e2
                simp only [Res.bind_ok] at e2
                injection e2 with e2
                rw [← e2]
                exact ⟨rfl, rfl⟩
            · rw [if_neg hg] at e2
              simp only [Res.bind_ok] at e2
              injection e2 with e2
              rw [← e2]
              exact ⟨rfl, rfl⟩
        obtain ⟨y3, e3, a3, b3, c3⟩ := ih (fun f hf => hl f (by simp [hf])) y2 key.1 (by rw [key.2, u1, b]) s2
        refine ⟨y3, ?_, a3, b3, c3⟩
        simp only [List.flatMap_cons, List.cons_append, List.nil_append, InSys.run, e1, e2, Res.bind_ok]
        exact e3
    have all : ∀ (fs : List (List Frame)) (_ : ∀ l ∈ fs, ∀ f ∈ l, f.data < 512) (y : InSys), y.s.hw.rx = [] → y.s.hw.ucsrb.getLsbD 7 = true → Sound n y →
        y.flushLoop (fs.map fun l => (l.flatMap fun f => [.arrive f, .isr], [])) = .ok none := by
      intro fs
      induction fs with
      | nil => exact fun _ y _ _ _ => rfl
      | cons l fs ih =>
        intro hl y a b c
        obtain ⟨y1, e1, a1, b1, c1⟩ := one l (hl l (by simp)) y a b c
        have hc : rxComplete y1.s.hw = false := by rw [complete_iff, a1]; rfl
        rw [List.map_cons]
        simp only [InSys.flushLoop, e1, Res.bind_ok, hc, Bool.false_eq_true, if_false, InSys.run, quiet _ a1]
        exact ih (fun l hh => hl l (by simp [hh])) y1 a1 b1 c1
    simp only [InSys.clear, all fs hfs y hr h7 hs, Res.bind_ok]

example : Sound 3 (inInit [0, 0, 0] 0x90#8) := ⟨⟨[], RingBuffer.rel_mk _ (by decide)⟩, rfl, by simp [inInit]⟩

/-- **C118 fails** ("Removes all content from the stream"): with the receive interrupt off, whatever frame without errors is in the receiver, `Clear` returns at
    once and leaves it there; after it the reads deliver this byte, received before the call. -/
theorem c118_clear_old_fails (g : List Nat) (hg : 2 ≤ g.length) (hn : g.length < 65536) (f : Frame) (hf : f.data < 512) (hgood : Frame.good f = true) :
    ∃ y z z', (inInit g 0x10#8).run [.arrive f] = .ok y ∧ y.clear [([], [])] [] = .ok (some z) ∧ z.run [.read, .isr, .read] = .ok z' ∧
      z'.returned = [f.data % 256] := by
  have h4 : isTrue 4 0x10#8 = true := by decide
  let hw : Hw := { ucsrb := 0x10#8, rx := [f] }
  let y : InSys := { s := { buf := RingBuffer.mk g, hw := hw }, returned := [], kept := [f] }
  have e1 : (inInit g 0x10#8).run [.arrive f] = .ok y := by
    simp [InSys.run, InSys.step, inInit, h4, y, hw]
  have hc : rxComplete hw = true := by rw [complete_iff]; simp [hw]
  have e2 : y.clear [([], [])] [] = .ok (some y) := by
    simp [InSys.clear, InSys.flushLoop, InSys.run, y, hc, InSys.clearBuffer, InStream.clearFirst, InStream.clearSecond, RingBuffer.mk]
  have hrel : RingBuffer.Rel (RingBuffer.mk g) [] := RingBuffer.rel_mk g (by omega)
  have hsz : (RingBuffer.mk g).size = g.length := rfl
  obtain ⟨i1, i2, -⟩ := bitB_effect 7 (by omega) (by omega) true hw (Or.inl (show (0x10#8 : BitVec 8).getLsbD 4 = true by decide))
  let hw' := rxSetInterrupt true hw
  have hrx : hw'.rx = [f] := i2
  have h7 : isTrue 7 hw'.ucsrb = true := by
    rw [isTrue_bit 7 (by omega)]
    exact (i1 7 (by omega)).trans (by simp)
  have hc' : rxComplete hw' = true := by rw [complete_iff, hrx]; simp
  obtain ⟨b, hb, brel, bsz⟩ := RingBuffer.write_room hrel (f.data % 256) (by rw [hsz]; simp; omega)
  obtain ⟨b2, hb2, -⟩ := RingBuffer.read_rel (by simpa using brel : RingBuffer.Rel b (f.data % 256 :: []))
  have hl0 : RingBuffer.getLength (RingBuffer.mk g) = 0 := RingBuffer.getLength_rel hrel hn
  have hl1 : RingBuffer.getLength b = 1 := RingBuffer.getLength_rel brel (by rw [bsz]; exact hn)
  have s1 : y.step .read = .ok { y with s := { y.s with hw := hw' } } := by
    simp [InSys.step, InStream.read, y, hl0, hw']
  have s2 : InSys.step { y with s := { y.s with hw := hw' } } .isr = .ok { y with s := { buf := b, hw := { hw' with rx := [] } } } := by
    simp only [InSys.step, h7, hc', Bool.and_self, if_true]
    rw [isr_frame _ f [] hrx hf, if_pos hgood]
    simp only [y, hb, Res.bind_ok]
  have s3 : InSys.step { y with s := { buf := b, hw := { hw' with rx := [] } } } .read =
      .ok { s := { buf := b2, hw := { hw' with rx := [] } }, returned := [f.data % 256], kept := [f] } := by
    have hne : ¬ (((f.data % 256 : Nat) : Int) = -1) := by omega
    simp only [InSys.step, InStream.read, hl1, hb2, Res.bind_ok, gt_iff_lt, Nat.zero_lt_one, if_true, if_neg hne, Int.toNat_natCast]
    rfl
  exact ⟨y, y, { s := { buf := b2, hw := { hw' with rx := [] } }, returned := [f.data % 256], kept := [f] }, e1, e2,
    by simp only [InSys.run, s1, s2, s3, Res.bind_ok], rfl⟩

example : Frame.good ⟨65, false, false, false⟩ = true := rfl

/-- **C118, partial.** `Close` after any history: nothing undefined happens, the receiver and its interrupt are off, the receiver is empty, the other control bits and
    the transmitter are as before, and neither frames on the line nor interrupts change anything later; while the receive interrupt is off, the buffer is empty, too.
    Missing: the latter with the interrupt on (next theorem). -/
theorem c118_close_partial (g : List Nat) (b : BitVec 8) (hg : 0 < g.length) (hn : g.length < 65536) (es : List InEv) (hes : ∀ e ∈ es, InEv.ok e)
    (mid after : List InEv) (hm : ∀ e ∈ mid, Background e) (ha : ∀ e ∈ after, Background e) :
    ∃ y z, (inInit g b).run es = .ok y ∧ y.close mid after = .ok z ∧ z.s.hw.rx = [] ∧
      (∀ j, j ≠ 1 → z.s.hw.ucsrb.getLsbD j = if j = 4 ∨ j = 7 then false else y.s.hw.ucsrb.getLsbD j) ∧
      z.s.hw.tx = y.s.hw.tx ∧ z.s.hw.shift = y.s.hw.shift ∧ z.s.hw.line = y.s.hw.line ∧
      (y.s.hw.ucsrb.getLsbD 7 = false → RingBuffer.getLength z.s.buf = 0) ∧
      ∀ later, (∀ e ∈ later, Background e) → z.run later = .ok z := by
  obtain ⟨y, h1, h2, hwf⟩ := sound_reachable g b hg hn es hes
  obtain ⟨y1, q, e1, rel, size, small, -, u1, -, x1, v1, w1, z1⟩ := clearBuffer_spec mid hm h2
  -- the events before the receiver is closed
  have bg : ∀ (es : List InEv) (_ : ∀ e ∈ es, Background e) (y : InSys), Sound g.length y → ∃ y', y.run es = .ok y' ∧ y'.s.hw.ucsrb = y.s.hw.ucsrb ∧ Sound g.length y' ∧
      y'.s.hw.tx = y.s.hw.tx ∧ y'.s.hw.shift = y.s.hw.shift ∧ y'.s.hw.line = y.s.hw.line ∧ (y.s.hw.ucsrb.getLsbD 7 = false → y'.s.buf = y.s.buf) ∧
      (Wf y.s.hw → Wf y'.s.hw) := by
    intro es
    induction es with
    | nil => exact fun _ y hs => ⟨y, rfl, rfl, hs, rfl, rfl, rfl, fun _ => rfl, id⟩
    | cons e es ih =>
      intro hes y hs
      obtain ⟨y1, e1, s1⟩ := sound_step hs e (hes e (by simp))
      have key : y1.s.hw.ucsrb = y.s.hw.ucsrb ∧ y1.s.hw.tx = y.s.hw.tx ∧ y1.s.hw.shift = y.s.hw.shift ∧ y1.s.hw.line = y.s.hw.line ∧
          (y.s.hw.ucsrb.getLsbD 7 = false → y1.s.buf = y.s.buf) ∧ (Wf y.s.hw → Wf y1.s.hw) := by
        cases e with
        | arrive f =>
          simp only [InSys.step] at e1
          injection e1 with e1
          rw [← e1]
          split
          · next hc =>
            rw [Bool.and_eq_true, isTrue_bit 4 (by omega)] at hc
            exact ⟨rfl, rfl, rfl, rfl, fun _ => rfl, fun _ => Or.inl hc.1⟩
          · exact ⟨rfl, rfl, rfl, rfl, fun _ => rfl, id⟩
        | isr =>
          simp only [InSys.step] at e1
          split at e1
          · next hc =>
            rw [Bool.and_eq_true, complete_iff, isTrue_bit 7 (by omega)] at hc
            cases hx : y.s.hw.rx with
            | nil => rw [hx] at hc; simp at hc
            | cons f r =>
              rw [isr_frame y.s f r hx (hs.2.2 f (by rw [hx]; simp))] at e1
              have wf' : Wf y.s.hw → Wf { y.s.hw with rx := r } := by
                rintro (h | h)
                · exact Or.inl h
                · rw [hx] at h; cases h
              split at e1
              · cases hw : RingBuffer.write y.s.buf (f.data % 256) with
                | ub => rw [hw] at e1; cases e1
                | ok p =>
                  rw [hw] at e1
                  simp only [Res.bind_ok] at e1
                  injection e1 with e1
                  rw [← e1]
                  exact ⟨rfl, rfl, rfl, rfl, fun h => by rw [h] at hc; simp at hc, wf'⟩
              · simp only [Res.bind_ok] at e1
                injection e1 with e1
                rw [← e1]
                exact ⟨rfl, rfl, rfl, rfl, fun _ => rfl, wf'⟩
          · injection e1 with e1
            rw [← e1]
            exact ⟨rfl, rfl, rfl, rfl, fun _ => rfl, id⟩
        | read => exact absurd (hes .read (by simp)) (by simp [Background])
      obtain ⟨k1, k2, k3, k4, k5, k6⟩ := key
      obtain ⟨y2, e2, m1, m2, m3, m4, m5, m6, m7⟩ := ih (fun e he => hes e (by simp [he])) y1 s1
      exact ⟨y2, by simp only [InSys.run, e1, Res.bind_ok, e2], m1.trans k1, m2, m3.trans k2, m4.trans k3, m5.trans k4,
        fun h => (m6 (by rw [k1]; exact h)).trans (k5 h), fun h => m7 (k6 h)⟩
  obtain ⟨y2, e2, u2, s2, x2, v2, w2, z2, -⟩ := bg after ha y1 ⟨⟨q, rel⟩, size, small⟩
  let h := rxSetInterrupt false y2.s.hw
  obtain ⟨c1, c2, c3, c4⟩ := c74_enable_partial false h
  have c5 := c74_enable_fails false h
  have hb : ∀ (h : Hw) (j : Nat), j ≠ 1 → (h.bitB 7 false).ucsrb.getLsbD j = if j = 7 then false else h.ucsrb.getLsbD j := by
    intro h j hj
    show (clearBit 7 h.readB).getLsbD j = _
    rw [bit_clear 7 (by omega)]
    split
    · rfl
    · exact readB_bit h j hj
  have d1 : ∀ j, j ≠ 1 → h.ucsrb.getLsbD j = if j = 7 then false else y2.s.hw.ucsrb.getLsbD j := hb y2.s.hw
  have bits : ∀ j, j ≠ 1 → (rxSetEnable false h).ucsrb.getLsbD j = if j = 4 ∨ j = 7 then false else y.s.hw.ucsrb.getLsbD j := by
    intro j hj
    rw [c1 j hj, d1 j hj, u2, u1]
    by_cases e4 : j = 4 <;> by_cases e7 : j = 7 <;> simp [e4, e7]
  refine ⟨y, { y2 with s := y2.s.closeReceiver }, h1, by simp only [InSys.close, e1, e2, Res.bind_ok], c5, bits, ?_, ?_, ?_, fun h7 => ?_, fun later hl => ?_⟩
  · exact c2.trans (x2.trans x1)
  · exact c3.trans (v2.trans v1)
  · exact c4.trans (w2.trans w1)
  · show RingBuffer.getLength y2.s.buf = 0
    rw [z2 (by rw [u1]; exact h7), RingBuffer.getLength_rel rel (by omega), z1 h7]
    rfl
  · have off4 : isTrue 4 (rxSetEnable false h).ucsrb = false := by rw [isTrue_bit 4 (by omega), bits 4 (by omega)]; simp
    have off7 : isTrue 7 (rxSetEnable false h).ucsrb = false := by rw [isTrue_bit 7 (by omega), bits 7 (by omega)]; simp
    induction later with
    | nil => rfl
    | cons e later ih =>
      have hstep : InSys.step { y2 with s := y2.s.closeReceiver } e = .ok { y2 with s := y2.s.closeReceiver } := by
        cases e with
        | arrive f =>
          show Res.ok (if (isTrue 4 (rxSetEnable false h).ucsrb && _) = true then _ else _) = _
          rw [off4]
          rfl
        | isr =>
          show (if (isTrue 7 (rxSetEnable false h).ucsrb && _) = true then _ else _) = _
          rw [off7]
          rfl
        | read => exact absurd (hl .read (by simp)) (by simp [Background])
      simp only [InSys.run, hstep, Res.bind_ok]
      exact ih fun e he => hl e (by simp [he])

example : ∀ e ∈ [InEv.arrive ⟨0x141, false, true, false⟩, .isr], Background e := by simp [Background]

/-- **C118 fails** (`Close`: "Data still in the buffer is lost"): with the receive interrupt on and a frame in the receiver when `Close` is called, the handler runs after
    the buffer has been cleared and before the interrupt is off; the closed stream holds a byte, and a read returns it. -/
theorem c118_close_fails : ∃ y z z', (inInit [0, 0] 0x90#8).run [.arrive ⟨65, false, false, false⟩] = .ok y ∧ y.close [] [.isr] = .ok z ∧
    z.s.hw.ucsrb = 0#8 ∧ RingBuffer.getLength z.s.buf = 1 ∧ z.run [.read] = .ok z' ∧ z'.returned = [65] :=
  ⟨_, _, _, rfl, rfl, by decide +kernel, by decide +kernel, rfl, by decide +kernel⟩

end Atl.Props
