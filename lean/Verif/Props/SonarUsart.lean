import Verif.Model.SonarUsart
import Verif.Spec.SonarLink
import Verif.Props.Sonar
import Verif.Props.UsartStream
import Verif.Props.TextUsart

/- Property theorems C121: the sonar controller on the interrupt driven serial port, for every history of arriving frames, interrupts and calls. -/
namespace Atl.Props
open Atl.Sonar Atl.Usart Atl.SonarUsart Atl.Spec.SonarLink

/-! ### What a program should be told -/

/-- What a call of EndDistance should return and leave in the variable, `d` its value before. -/
def tell (d : Nat) : Answer → Result × Nat
  | .damaged => (.checksumError, d)
  | .other => (.none, d)
  | .distance n => (.success, n)

/-- The variable after a number of answers. -/
def lastTold (d : Nat) (l : List Answer) : Nat := l.foldl (fun d a => (tell d a).2) d

/-- The calls that read a response, one after the other. -/
def told : Nat → List Answer → List (Result × Nat)
  | _, [] => []
  | d, a :: l => tell d a :: told (tell d a).2 l

/-- A call that says that a response came. -/
def heard (r : Result × Nat) : Bool := r.1 == .success || r.1 == .checksumError

theorem told_snoc (d : Nat) (l : List Answer) (a : Answer) : told d (l ++ [a]) = told d l ++ [tell (lastTold d l) a] := by
  induction l generalizing d with
  | nil => rfl
  | cons x l ih => simp only [List.cons_append, told, ih]; rfl

theorem lastTold_snoc (d : Nat) (l : List Answer) (a : Answer) : lastTold d (l ++ [a]) = (tell (lastTold d l) a).2 := by
  unfold lastTold
  rw [List.foldl_append]
  rfl

theorem answers_append : ∀ (a b : List Nat), a.length % 4 = 0 → answers (a ++ b) = answers a ++ answers b
  | [], _, _ => rfl
  | [_], _, h => by simp at h
  | [_, _], _, h => by simp at h
  | [_, _, _], _, h => by simp at h
  | x :: y :: z :: w :: a, b, h => by
    have := answers_append a b (by simp only [List.length_cons] at h; omega)
    simp only [List.cons_append, answers, this]

theorem answers_short : ∀ (b : List Nat), b.length < 4 → answers b = []
  | [], _ => rfl
  | [_], _ => rfl
  | [_, _], _ => rfl
  | [_, _, _], _ => rfl
  | _ :: _ :: _ :: _ :: _, h => by simp only [List.length_cons] at h; omega

theorem end_tell (o : Out) (d c a b s : Nat) (hc : c < 256) (ha : a < 256) (hb : b < 256) (hs : s < 256) :
    endDistance o d [c, a, b, s] = ((tell d (meaning c a b s)).1, (tell d (meaning c a b s)).2, []) := by
  by_cases h : s = (c + a + b) % 256
  · subst h
    have f : ([c, a, b, (c + a + b) % 256] : List Nat) = Atl.Spec.Sonar.frame c a b ++ [] := rfl
    by_cases hd : c = 0x22 ∧ a ≠ 255 ∧ b ≠ 255
    · have m : meaning c a b ((c + a + b) % 256) = .distance (a * 256 + b) := by
        unfold meaning; rw [if_neg (by simp), if_pos hd]
      rw [f, hd.1, c46_distance_partial o d a b [] ha hb hd.2, ← hd.1, m]
      show _ = (Result.success, a * 256 + b, [])
      rw [Nat.mul_comm]
    · have m : meaning c a b ((c + a + b) % 256) = .other := by
        unfold meaning; rw [if_neg (by simp), if_neg hd]
      rw [f, m]
      simp only [endDistance, c45_accept, if_true]
      rw [if_neg hd]
      rfl
  · have m : meaning c a b s = .damaged := by unfold meaning; rw [if_pos h]
    rw [m]
    have : ¬ (c + a + b) % 256 = s := fun x => h x.symm
    simp [endDistance, receiveResponse, checksum_eq, this, tell]

/-! ### Invariant -/

/-- The receive interrupt, exactly. -/
theorem rx_isr {n : Nat} {y : InSys} {q : List Nat} {p : List Frame} (h : IInv n y q p) :
    (y.step .isr = .ok y) ∨
    ∃ f r y' q', y.s.hw.rx = f :: r ∧ y.s.hw.ucsrb.getLsbD 7 = true ∧ y.step .isr = .ok y' ∧ IInv n y' q' (p ++ [f]) ∧ y'.s.hw.rx = r ∧ y'.returned = y.returned ∧ y'.kept = y.kept ∧
      y'.s.hw.ucsrb = y.s.hw.ucsrb ∧ q' = if Frame.good f = true ∧ q.length + 1 < n then q ++ [f.data % 256] else q := by
  obtain ⟨rel, size, taken, sub, all, wf, small⟩ := h
  by_cases hc : (isTrue 7 y.s.hw.ucsrb && rxComplete y.s.hw) = true
  · right
    have h7 : y.s.hw.ucsrb.getLsbD 7 = true := by
      rw [Bool.and_eq_true, isTrue_bit 7 (by omega)] at hc; exact hc.1
    have hc0 := hc
    rw [Bool.and_eq_true, complete_iff] at hc
    cases hx : y.s.hw.rx with
    | nil => rw [hx] at hc; simp at hc
    | cons f r =>
      have hf : f.data < 512 := small f (by rw [← taken, hx]; simp)
      obtain ⟨a, b, c⟩ := flags y.s.hw f r hx
      have g : (getResult y.s.hw = .success) ↔ Frame.good f = true := by
        unfold getResult Frame.good
        rw [a, b, c]
        cases f.fe <;> cases f.dor <;> cases f.upe <;> decide
      have rd := c57_read y.s.hw f r hx hf
      have tk : (p ++ [f]) ++ r = y.kept := by rw [← taken, hx]; simp
      have wf' : Wf { y.s.hw with rx := r } := by
        rcases wf with h | h
        · exact Or.inl h
        · rw [hx] at h; cases h
      have ht : (if y.s.hw.ucsrb.getLsbD 2 = true then f.data else f.data % 256) % 256 = f.data % 256 := by split <;> omega
      simp only [InSys.step, hc0, if_true]
      unfold InStream.isr
      simp only [rd, ht, g]
      by_cases hg : Frame.good f = true
      · simp only [hg, if_true]
        by_cases hfull : q.length + 1 = y.s.buf.size
        · rw [RingBuffer.write_full rel _ hfull]
          refine ⟨f, r, _, q, rfl, h7, rfl, ⟨rel, size, tk, ?_, ?_, wf', small⟩, rfl, rfl, rfl, rfl, ?_⟩
          · rw [goodBytes_snoc]; exact sub.trans (List.sublist_append_left _ _)
          · intro hl
            rw [List.length_append, List.length_singleton] at hl
            have h1 := all (by omega)
            have h2 := congrArg List.length h1
            have h3 := goodBytes_le p
            rw [List.length_append] at h2
            omega
          · rw [if_neg (by omega)]
        · obtain ⟨b, hb, hrel, hsz⟩ := RingBuffer.write_room rel (f.data % 256) (by have := rel.hq; omega)
          rw [hb]
          refine ⟨f, r, _, q ++ [f.data % 256], rfl, h7, rfl, ⟨hrel, hsz.trans size, tk, ?_, ?_, wf', small⟩, rfl, rfl, rfl, rfl, ?_⟩
          · rw [goodBytes_snoc, if_pos hg, ← List.append_assoc]; exact sub.append_right _
          · intro hl
            rw [List.length_append, List.length_singleton] at hl
            rw [goodBytes_snoc, if_pos hg, ← List.append_assoc]
            show (y.returned ++ q) ++ _ = _
            rw [all (by omega)]
          · rw [if_pos ⟨hg, by have := rel.hq; omega⟩]
      · simp only [hg]
        refine ⟨f, r, _, q, rfl, h7, rfl, ⟨rel, size, tk, ?_, ?_, wf', small⟩, rfl, rfl, rfl, rfl, ?_⟩
        · rw [goodBytes_snoc, if_neg hg, List.append_nil]; exact sub
        · intro hl
          rw [List.length_append, List.length_singleton] at hl
          rw [goodBytes_snoc, if_neg hg, List.append_nil]; exact all (by omega)
        · rw [if_neg (fun x => hg x.1)]
  · left
    simp only [InSys.step, hc]
    rfl

/-- Main code inside ReceiveResponse: the bytes of the response read so far, and the others are there. -/
def PhaseOk (q got : List Nat) : SonarUsart.Phase → Prop
  | .reading g => g = got ∧ got.length < 4 ∧ 4 ≤ got.length + q.length
  | _ => got = []

/-- What holds between events: `q` buffered, `p` the frames the handler has taken, `dn` the responses read, `got` the one being read. -/
structure SonInv (n d0 : Nat) (y : Sys) (q : List Nat) (p : List Frame) (dn got : List Nat) : Prop where
  inp : IInv n y.rx q p
  bytes : y.rx.returned = dn ++ got
  div : dn.length % 4 = 0
  ph : PhaseOk q got y.phase
  ans : y.answers = told d0 (answers dn)
  dist : y.dist = lastTold d0 (answers dn)
  hear : y.results.filter heard = y.answers.filter heard
  vals : ∀ r ∈ y.results, r.2 = d0 ∨ Answer.distance r.2 ∈ answers dn

/-- A byte is lost here: the receiver is off or its FIFO is full, or the handler finds the stream full. -/
def SonLoses (n : Nat) (y : Sys) : SysEv → Prop
  | .arrive _ => y.rx.s.hw.ucsrb.getLsbD 4 = false ∨ 3 ≤ y.rx.s.hw.rx.length
  | .isr => y.rx.s.hw.rx ≠ [] ∧ n ≤ RingBuffer.getLength y.rx.s.buf + 1
  | .main => False

/-- The frame of an event. -/
def sonFrames : SysEv → List Frame
  | .arrive f => [f]
  | _ => []

/-- Frames have up to nine bits. -/
def SonEv (e : SysEv) : Prop := ∀ f ∈ sonFrames e, f.data < 512

theorem lastTold_mem (d : Nat) (l : List Answer) : lastTold d l = d ∨ Answer.distance (lastTold d l) ∈ l := by
  induction l using List.reverseRecOn with
  | nil => left; rfl
  | append_singleton l a ih =>
    rw [lastTold_snoc]
    cases a with
    | damaged => rcases ih with h | h <;> simp [tell, h]
    | other => rcases ih with h | h <;> simp [tell, h]
    | distance m => simp [tell]

theorem queue_small {n : Nat} {y : InSys} {q : List Nat} {p : List Frame} (h : IInv n y q p) : ∀ x ∈ y.returned ++ q, x < 256 := by
  intro x hx
  have := h.sub.subset hx
  unfold goodBytes at this
  rw [List.mem_map] at this
  obtain ⟨f, -, rfl⟩ := this
  omega

theorem son_main {n d0 : Nat} (hn : n < 65536) (o : Out) {y : Sys} {q : List Nat} {p : List Frame} {dn got : List Nat} (h : SonInv n d0 y q p dn got) :
    ∃ y' q' dn' got', y.main o = .ok y' ∧ SonInv n d0 y' q' p dn' got' ∧ y'.rx.returned ++ q' = y.rx.returned ++ q ∧ y'.rx.kept = y.rx.kept ∧ y'.rx.s.hw = y.rx.s.hw ∧
      (match y.phase with
        | .idle => q' = q ∧ if 3 < q.length then y'.phase = .reading [] else y'.phase = .second
        | .second => q' = q ∧ y'.phase = .idle
        | .reading g => q'.length + 1 = q.length ∧ if g.length < 3 then ∃ v, y'.phase = .reading (g ++ [v]) else y'.phase = .idle) := by
  have hlen : RingBuffer.getLength y.rx.s.buf = q.length := RingBuffer.getLength_rel h.inp.rel (by rw [h.inp.size]; exact hn)
  have hph := h.ph
  unfold Sys.main
  cases hp : y.phase with
  | idle =>
    rw [hp] at hph
    simp only [PhaseOk] at hph
    subst hph
    simp only [hlen]
    by_cases hq : q.length > 3
    · refine ⟨_, q, dn, [], rfl, ⟨h.inp, h.bytes, h.div, ?_, h.ans, h.dist, h.hear, h.vals⟩, rfl, rfl, rfl, rfl, ?_⟩
      · simp only [hq, if_true]
        exact ⟨rfl, by decide, by simp only [List.length_nil]; omega⟩
      · rw [if_pos hq]; simp only [hq, if_true]
    · refine ⟨_, q, dn, [], rfl, ⟨h.inp, h.bytes, h.div, ?_, h.ans, h.dist, h.hear, h.vals⟩, rfl, rfl, rfl, rfl, ?_⟩
      · simp only [hq, if_false]; rfl
      · rw [if_neg hq]; simp only [hq, if_false]
  | second =>
    rw [hp] at hph
    simp only [PhaseOk] at hph
    subst hph
    refine ⟨_, q, dn, [], rfl, ⟨h.inp, h.bytes, h.div, rfl, h.ans, h.dist, ?_, ?_⟩, rfl, rfl, rfl, rfl, rfl⟩
    · show (y.results ++ [_]).filter heard = _
      rw [List.filter_append, h.hear]
      split <;> simp [heard]
    · intro r hr
      simp only [List.mem_append, List.mem_singleton] at hr
      rcases hr with hr | rfl
      · exact h.vals r hr
      · show y.dist = d0 ∨ Answer.distance y.dist ∈ _
        rw [h.dist]
        exact lastTold_mem d0 _
  | reading g =>
    rw [hp] at hph
    obtain ⟨rfl, g4, gq⟩ := hph
    obtain ⟨rel, size, taken, sub, all, wf, small⟩ := h.inp
    cases q with
    | nil => simp only [List.length_nil] at gq; omega
    | cons v q' =>
      obtain ⟨b, hb, hrel, hsz⟩ := RingBuffer.read_rel rel
      have hv : v < 256 := queue_small h.inp v (by simp)
      have hpos : (v :: q').length > 0 := by simp
      have hne : ¬ ((v : Int) = -1) := by omega
      have h8 : toU 8 (v : Int) = v := by unfold toU; omega
      have rd : y.rx.s.read = .ok ({ y.rx.s with buf := b }, (v : Int)) := by
        unfold InStream.read
        rw [hlen, if_pos hpos, hb]
        rfl
      simp only [rd, Res.bind_ok, if_neg hne, Int.toNat_natCast, h8]
      have ret : y.rx.returned ++ [v] = dn ++ (g ++ [v]) := by rw [h.bytes, List.append_assoc]
      have inp' : IInv n { y.rx with s := { y.rx.s with buf := b }, returned := y.rx.returned ++ [v] } q' p :=
        ⟨hrel, hsz.trans size, taken, by simpa using sub, fun hl => by simpa using all hl, wf, small⟩
      have gl : (g ++ [v]).length = g.length + 1 := by simp
      by_cases hl : (g ++ [v]).length < 4
      · rw [if_pos hl]
        refine ⟨_, q', dn, g ++ [v], rfl, ⟨inp', ret, h.div, ⟨rfl, hl, ?_⟩, h.ans, h.dist, h.hear, h.vals⟩, by simp, rfl, rfl, by simp, ?_⟩
        · rw [gl]; simp only [List.length_cons] at gq; omega
        · rw [if_pos (by omega)]; exact ⟨v, rfl⟩
      · rw [if_neg hl]
        have g3 : g.length = 3 := by omega
        obtain ⟨c, a, d, rfl⟩ : ∃ c a d, g = [c, a, d] := by
          match g, g3 with
          | [c, a, d], _ => exact ⟨c, a, d, rfl⟩
        have hsm : ∀ x ∈ y.rx.returned ++ v :: q', x < 256 := queue_small h.inp
        rw [h.bytes] at hsm
        have e := end_tell o y.dist c a d v (hsm c (by simp)) (hsm a (by simp)) (hsm d (by simp)) hv
        have gv : [c, a, d] ++ [v] = [c, a, d, v] := rfl
        have an : answers (dn ++ [c, a, d, v]) = answers dn ++ [meaning c a d v] := answers_append dn [c, a, d, v] h.div
        rw [gv, e]
        refine ⟨_, q', dn ++ [c, a, d, v], [], rfl, ⟨inp', ?_, ?_, rfl, ?_, ?_, ?_, ?_⟩, by simp, rfl, rfl, by simp, ?_⟩
        · rw [List.append_nil]; exact ret
        · rw [List.length_append]; have := h.div; simp only [List.length_cons, List.length_nil]; omega
        · show y.answers ++ [tell y.dist _] = _
          rw [an, told_snoc, h.ans, h.dist]
        · show (tell y.dist _).2 = _
          rw [an, lastTold_snoc, h.dist]
        · show (y.results ++ [_]).filter heard = (y.answers ++ [_]).filter heard
          rw [List.filter_append, List.filter_append, h.hear]
        · intro r hr
          rw [an]
          simp only [List.mem_append, List.mem_singleton] at hr ⊢
          rcases hr with hr | rfl
          · rcases h.vals r hr with x | x
            · exact Or.inl x
            · exact Or.inr (Or.inl x)
          · cases hm : meaning c a d v with
            | distance m => right; right; rfl
            | damaged =>
              show y.dist = d0 ∨ Answer.distance y.dist ∈ _ ∨ _
              rw [h.dist]
              rcases lastTold_mem d0 (answers dn) with x | x
              · exact Or.inl x
              · exact Or.inr (Or.inl x)
            | other =>
              show y.dist = d0 ∨ Answer.distance y.dist ∈ _ ∨ _
              rw [h.dist]
              rcases lastTold_mem d0 (answers dn) with x | x
              · exact Or.inl x
              · exact Or.inr (Or.inl x)
        · rw [if_neg (by simp)]

theorem son_step {n d0 : Nat} (hn : n < 65536) (o : Out) {y : Sys} {q : List Nat} {p : List Frame} {dn got : List Nat} (h : SonInv n d0 y q p dn got) (e : SysEv)
    (he : SonEv e) :
    ∃ y' q' p' dn' got', y.step o e = .ok y' ∧ SonInv n d0 y' q' p' dn' got' ∧ y'.rx.s.hw.ucsrb = y.rx.s.hw.ucsrb ∧
      (¬ SonLoses n y e → y.rx.returned ++ q = goodBytes p → y'.rx.returned ++ q' = goodBytes p') ∧
      (¬ SonLoses n y e → y'.rx.kept = y.rx.kept ++ sonFrames e) := by
  have hlen : RingBuffer.getLength y.rx.s.buf = q.length := RingBuffer.getLength_rel h.inp.rel (by rw [h.inp.size]; exact hn)
  cases e with
  | arrive f =>
    obtain ⟨rel, size, taken, sub, all, wf, small⟩ := h.inp
    have he : f.data < 512 := he f (by simp [sonFrames])
    by_cases hc : (isTrue 4 y.rx.s.hw.ucsrb && decide (y.rx.s.hw.rx.length < 3)) = true
    · refine ⟨{ y with rx := { y.rx with s := { y.rx.s with hw := { y.rx.s.hw with rx := y.rx.s.hw.rx ++ [f] } }, kept := y.rx.kept ++ [f] } }, q, p, dn, got, ?_,
        ⟨⟨rel, size, ?_, sub, all, ?_, ?_⟩, h.bytes, h.div, h.ph, h.ans, h.dist, h.hear, h.vals⟩, rfl, fun _ x => x, fun _ => rfl⟩
      · simp only [Sys.step, InSys.step, hc, if_true, Res.bind_ok]
      · show p ++ (y.rx.s.hw.rx ++ [f]) = y.rx.kept ++ [f]
        rw [← taken, List.append_assoc]
      · left
        rw [Bool.and_eq_true, isTrue_bit 4 (by omega)] at hc
        exact hc.1
      · intro x hx
        simp only [List.mem_append, List.mem_singleton] at hx
        rcases hx with hx | rfl
        · exact small x hx
        · exact he
    · refine ⟨y, q, p, dn, got, by simp only [Sys.step, InSys.step, hc]; rfl, h, rfl, fun _ x => x, fun x => ?_⟩
      exfalso
      apply hc
      simp only [SonLoses, not_or, Bool.not_eq_false, Nat.not_le] at x
      rw [Bool.and_eq_true, isTrue_bit 4 (by omega), decide_eq_true_eq]
      exact x
  | isr =>
    rcases rx_isr h.inp with e | ⟨f, r, y', q', hx, h7, e, i, r1, r2, r3, r4, r5⟩
    · exact ⟨y, q, p, dn, got, by simp only [Sys.step, e, Res.bind_ok], h, rfl, fun _ x => x, fun _ => by simp [sonFrames]⟩
    · refine ⟨{ y with rx := y' }, q', p ++ [f], dn, got, by simp only [Sys.step, e, Res.bind_ok],
        ⟨i, r2.trans h.bytes, h.div, ?_, h.ans, h.dist, h.hear, h.vals⟩, r4, ?_, fun _ => by rw [show ({ y with rx := y' } : Sys).rx = y' from rfl, r3]; simp [sonFrames]⟩
      · have hq : q.length ≤ q'.length := by rw [r5]; split <;> simp
        have := h.ph
        show PhaseOk q' got y.phase
        revert this
        cases y.phase with
        | idle => exact id
        | second => exact id
        | reading g => rintro ⟨x1, x2, x3⟩; exact ⟨x1, x2, by omega⟩
      · intro hl ha
        simp only [SonLoses, hx, hlen, ne_eq, reduceCtorEq, not_false_eq_true, true_and, Nat.not_le] at hl
        show y'.returned ++ q' = _
        rw [r2, r5, goodBytes_snoc]
        by_cases hg : Frame.good f = true
        · rw [if_pos ⟨hg, hl⟩, if_pos hg, ← List.append_assoc, ha]
        · rw [if_neg (fun x => hg x.1), if_neg hg, List.append_nil, ha]
  | main =>
    obtain ⟨y', q', dn', got', e, i, r1, r2, r3, -⟩ := son_main hn o h
    exact ⟨y', q', p, dn', got', e, i, by rw [r3], fun _ x => r1.trans x, fun _ => by rw [r2]; simp [sonFrames]⟩

/-- No byte is lost during the history. -/
def SonNoLoss (n : Nat) (o : Out) (y : Sys) : List SysEv → Prop
  | [] => True
  | e :: es => ¬ SonLoses n y e ∧ ∀ y', y.step o e = .ok y' → SonNoLoss n o y' es

theorem son_run {n d0 : Nat} (hn : n < 65536) (o : Out) (es : List SysEv) (hes : ∀ e ∈ es, SonEv e) :
    ∀ {y : Sys} {q : List Nat} {p : List Frame} {dn got : List Nat}, SonInv n d0 y q p dn got →
    ∃ y' q' p' dn' got', y.run o es = .ok y' ∧ SonInv n d0 y' q' p' dn' got' ∧
      (SonNoLoss n o y es → y.rx.returned ++ q = goodBytes p → y'.rx.returned ++ q' = goodBytes p' ∧ y'.rx.kept = y.rx.kept ++ es.flatMap sonFrames) := by
  induction es with
  | nil => intro y q p dn got h; exact ⟨y, q, p, dn, got, rfl, h, fun _ x => ⟨x, by simp⟩⟩
  | cons e es ih =>
    intro y q p dn got h
    obtain ⟨y1, q1, p1, dn1, got1, s1, i1, -, l1, k1⟩ := son_step hn o h e (hes e (by simp))
    obtain ⟨y2, q2, p2, dn2, got2, s2, i2, l2⟩ := ih (fun e he => hes e (by simp [he])) i1
    refine ⟨y2, q2, p2, dn2, got2, by unfold Sys.run; rw [s1]; exact s2, i2, fun nl x => ?_⟩
    obtain ⟨a, b⟩ := l2 (nl.2 y1 s1) (l1 nl.1 x)
    refine ⟨a, ?_⟩
    rw [b, k1 nl.1, List.flatMap_cons, List.append_assoc]

theorem son_init (g : List Nat) (b : BitVec 8) (d : Nat) (hg : 0 < g.length) : SonInv g.length d (Sys.init g b d) [] [] [] [] :=
  ⟨⟨RingBuffer.rel_mk g hg, rfl, rfl, by simp [Sys.init, goodBytes], fun _ => rfl, Or.inr rfl, by simp [Sys.init]⟩, rfl, rfl, rfl, rfl, rfl, rfl, by simp [Sys.init]⟩

theorem got_short {q got : List Nat} {ph : SonarUsart.Phase} (h : PhaseOk q got ph) : got.length < 4 := by
  cases ph with
  | reading g => exact h.2.1
  | idle => rw [show got = [] from h]; decide
  | second => rw [show got = [] from h]; decide

theorem son_groups {n d0 : Nat} {y : Sys} {q : List Nat} {p : List Frame} {dn got : List Nat} (h : SonInv n d0 y q p dn got) : answers y.rx.returned = answers dn := by
  rw [h.bytes, answers_append dn got h.div, answers_short got (got_short h.ph), List.append_nil]

/-! ### The property -/

/-- **C121.** Every history of arriving frames, also damaged ones and too many, interrupts at any moment and calls of EndDistance, also with the interrupts off: no undefined
    behaviour; the calls that report a response report, in order, the meaning of the consecutive groups of four among the bytes that came without error and found room; and no
    call ever leaves a value in the variable that was not there at the start and is not a distance received. -/
theorem c121_reports (o : Out) (g : List Nat) (b : BitVec 8) (d : Nat) (hg : 0 < g.length) (hn : g.length < 65536) (es : List SysEv) (hes : ∀ e ∈ es, SonEv e) :
    ∃ y bytes, (Sys.init g b d).run o es = .ok y ∧ bytes.Sublist (goodBytes y.rx.kept) ∧
      y.results.filter heard = (told d (answers bytes)).filter heard ∧ y.dist = lastTold d (answers bytes) ∧
      ∀ r ∈ y.results, r.2 = d ∨ Answer.distance r.2 ∈ answers bytes := by
  obtain ⟨y, q, p, dn, got, h1, h2, -⟩ := son_run hn o es hes (son_init g b d hg)
  refine ⟨y, y.rx.returned, h1, ?_, ?_, ?_, ?_⟩
  · have := h2.inp.sub
    have app : ∀ a b, goodBytes (a ++ b) = goodBytes a ++ goodBytes b := fun a b => by unfold goodBytes; simp
    rw [← h2.inp.taken, app]
    exact (List.sublist_append_left _ _).trans (this.trans (List.sublist_append_left _ _))
  · rw [h2.hear, h2.ans, son_groups h2]
  · rw [h2.dist, son_groups h2]
  · rw [son_groups h2]; exact h2.vals

example := c121_reports ⟨0, 0, 0⟩ [0, 0, 0, 0, 0, 0, 0, 0] 0x90#8 7 (by decide) (by decide) [.main, .arrive ⟨0x22, false, false, false⟩, .isr, .main, .arrive ⟨0x01, true, false, false⟩, .isr, .main]
  (by simp [SonEv, sonFrames])

/-- Main code still to run until every complete response in the buffer is reported. -/
def sonLeft (q : List Nat) : SonarUsart.Phase → Nat
  | .idle => 5 * (q.length / 4)
  | .second => 1 + 5 * (q.length / 4)
  | .reading g => (4 - g.length) + 5 * ((q.length + g.length - 4) / 4)

theorem son_mains {n d0 : Nat} (hn : n < 65536) (o : Out) (m : Nat) : ∀ {y : Sys} {q : List Nat} {p : List Frame} {dn got : List Nat}, SonInv n d0 y q p dn got →
    (sonLeft q y.phase ≤ m ∨ (q.length < 4 ∧ (y.phase = .idle ∨ y.phase = .second))) →
    ∃ y' q' dn', y.run o (List.replicate m .main) = .ok y' ∧ SonInv n d0 y' q' p dn' [] ∧ q'.length < 4 ∧ y'.rx.returned ++ q' = y.rx.returned ++ q := by
  induction m with
  | zero =>
    intro y q p dn got h hm
    have key : q.length < 4 ∧ (y.phase = .idle ∨ y.phase = .second) := by
      rcases hm with hm | hm
      · have hp := h.ph
        revert hm hp
        cases y.phase with
        | idle => intro hm _; simp only [sonLeft] at hm; exact ⟨by omega, Or.inl rfl⟩
        | second => intro hm _; simp only [sonLeft] at hm; omega
        | reading g => rintro hm ⟨rfl, h1, h2⟩; simp only [sonLeft] at hm; omega
      · exact hm
    have hg : got = [] := by
      have hp := h.ph
      rcases key.2 with x | x <;> (rw [x] at hp; exact hp)
    subst hg
    exact ⟨y, q, dn, rfl, h, key.1, rfl⟩
  | succ m ih =>
    intro y q p dn got h hm
    obtain ⟨y1, q1, dn1, got1, e1, i1, r1, -, -, r2⟩ := son_main hn o h
    have next : sonLeft q1 y1.phase ≤ m ∨ (q1.length < 4 ∧ (y1.phase = .idle ∨ y1.phase = .second)) := by
      have hp := h.ph
      revert hm hp r2
      cases y.phase with
      | idle =>
        rintro hm ⟨rfl, r2⟩ -
        by_cases hq : 3 < q1.length
        · rw [if_pos hq] at r2
          left
          rw [r2]
          rcases hm with hm | hm
          · simp only [sonLeft, List.length_nil] at hm ⊢; omega
          · omega
        · rw [if_neg hq] at r2
          exact Or.inr ⟨by omega, Or.inr r2⟩
      | second =>
        rintro hm ⟨rfl, r2⟩ -
        rcases hm with hm | hm
        · left; rw [r2]; simp only [sonLeft] at hm ⊢; omega
        · exact Or.inr ⟨hm.1, Or.inl r2⟩
      | reading g =>
        rintro hm ⟨hq, r2⟩ ⟨rfl, g4, gq⟩
        rcases hm with hm | hm
        · left
          by_cases hg : g.length < 3
          · rw [if_pos hg] at r2
            obtain ⟨v, r2⟩ := r2
            rw [r2]
            simp only [sonLeft, List.length_append, List.length_singleton] at hm ⊢
            have : q1.length + (g.length + 1) - 4 = q.length + g.length - 4 := by omega
            rw [this]; omega
          · rw [if_neg hg] at r2
            rw [r2]
            simp only [sonLeft] at hm ⊢
            have : q.length + g.length - 4 = q1.length := by omega
            rw [this] at hm; omega
        · rcases hm.2 with x | x <;> cases x
    obtain ⟨y2, q2, dn2, e2, i2, l2, r3⟩ := ih i1 next
    refine ⟨y2, q2, dn2, ?_, i2, l2, r3.trans r1⟩
    rw [List.replicate_succ]
    unfold Sys.run
    rw [show y.step o .main = y.main o from rfl, e1]
    exact e2

/-- **C121, partial.** A history in which no byte is lost, after which the handler has taken every frame: when main code goes on, five steps for each four bytes and five more, every
    complete response that arrived has been reported, in order, each once, with its distance. The receiver must be on, the receive interrupt must have been switched on by the
    program, and the buffer needs room for four bytes: see the other theorems. -/
theorem c121_complete_partial (o : Out) (g : List Nat) (b : BitVec 8) (d : Nat) (hg : 0 < g.length) (hn : g.length < 65536) (es : List SysEv) (hes : ∀ e ∈ es, SonEv e)
    (hl : SonNoLoss g.length o (Sys.init g b d) es) (y : Sys) (hy : (Sys.init g b d).run o es = .ok y) (hr : y.rx.s.hw.rx = [])
    (m : Nat) (hm : 5 * ((goodBytes (es.flatMap sonFrames)).length / 4) + 5 ≤ m) :
    ∃ y', y.run o (List.replicate m .main) = .ok y' ∧
      y'.results.filter heard = (told d (answers (goodBytes (es.flatMap sonFrames)))).filter heard ∧ y'.dist = lastTold d (answers (goodBytes (es.flatMap sonFrames))) := by
  obtain ⟨y0, q, p, dn, got, h1, h2, h3⟩ := son_run hn o es hes (son_init g b d hg)
  rw [hy] at h1
  injection h1 with h1
  subst h1
  obtain ⟨a, k⟩ := h3 hl rfl
  have kp : es.flatMap sonFrames = p := by
    have := h2.inp.taken
    rw [hr, List.append_nil, k] at this
    rw [this]; rfl
  rw [kp] at hm ⊢
  have left : sonLeft q y.phase ≤ m := by
    have l := congrArg List.length a
    rw [h2.bytes, List.length_append, List.length_append] at l
    have hp := h2.ph
    have dv := h2.div
    revert hp
    cases y.phase with
    | idle => intro _; simp only [sonLeft]; omega
    | second => intro _; simp only [sonLeft]; omega
    | reading g => rintro ⟨rfl, x1, x2⟩; simp only [sonLeft]; omega
  obtain ⟨y', q', dn', e, i, l, r⟩ := son_mains hn o m h2 (Or.inl left)
  have all : answers (goodBytes p) = answers dn' := by
    rw [← a, ← r, i.bytes, List.append_nil, answers_append dn' q' i.div, answers_short q' l, List.append_nil]
  exact ⟨y', e, by rw [i.hear, i.ans, all], by rw [i.dist, all]⟩

/-- Three responses: a distance of 300 cm, a damaged one, then 5 cm; the interrupt comes inside the calls. -/
def sonEvents : List SysEv :=
  [.main, .arrive { data := 0x22 }, .isr, .arrive { data := 1 }, .main, .isr, .arrive { data := 44 }, .arrive { data := 79 }, .isr, .main, .isr, .main, .arrive { data := 0x22 },
    .main, .isr, .main, .arrive { data := 0 }, .isr, .main, .arrive { data := 5 }, .isr, .arrive { data := 40 }, .isr, .main, .arrive { data := 0x22 }, .isr,
    .arrive { data := 0 }, .isr, .main, .arrive { data := 5 }, .isr, .main, .main, .arrive { data := 39 }, .isr]

theorem of_son {x : Res Sys} {p : Sys → Bool} (h : (match x with | .ok k => p k | .ub => false) = true) : ∃ k, x = .ok k ∧ p k = true := by
  cases x with
  | ok k => exact ⟨k, rfl, h⟩
  | ub => cases h

/-- A decision of `SonNoLoss`, for the example. -/
def sonCheck (n : Nat) (o : Out) (y : Sys) : List SysEv → Bool
  | [] => true
  | e :: es => (match e with
      | .arrive _ => y.rx.s.hw.ucsrb.getLsbD 4 && decide (y.rx.s.hw.rx.length < 3)
      | .isr => decide (y.rx.s.hw.rx.length = 0) || decide (RingBuffer.getLength y.rx.s.buf + 1 < n)
      | .main => true) && (match y.step o e with | .ok y' => sonCheck n o y' es | .ub => true)

theorem sonCheck_ok (n : Nat) (o : Out) (es : List SysEv) : ∀ y, sonCheck n o y es = true → SonNoLoss n o y es := by
  induction es with
  | nil => intro y _; trivial
  | cons e es ih =>
    intro y h
    unfold sonCheck at h
    rw [Bool.and_eq_true] at h
    refine ⟨?_, fun y' hy => ih y' (by rw [hy] at h; exact h.2)⟩
    have h1 := h.1
    cases e with
    | arrive f =>
      simp only [Bool.and_eq_true, decide_eq_true_eq] at h1
      rintro (x | x)
      · rw [h1.1] at x; cases x
      · omega
    | isr =>
      simp only [Bool.or_eq_true, decide_eq_true_eq] at h1
      rintro ⟨x, z⟩
      rcases h1 with h1 | h1
      · exact x (List.length_eq_zero_iff.1 h1)
      · omega
    | main => exact fun x => x

/-- No byte of the example is lost. -/
theorem sonEvents_check : sonCheck 8 ⟨0, 0, 0⟩ (Sys.init [0, 0, 0, 0, 0, 0, 0, 0] 0x90#8 7) sonEvents = true := by decide +kernel

example : SonNoLoss 8 ⟨0, 0, 0⟩ (Sys.init [0, 0, 0, 0, 0, 0, 0, 0] 0x90#8 7) sonEvents := sonCheck_ok _ _ _ _ sonEvents_check

example : ∃ y, (Sys.init [0, 0, 0, 0, 0, 0, 0, 0] 0x90#8 7).run ⟨0, 0, 0⟩ sonEvents = .ok y ∧ (y.rx.s.hw.rx.length == 0) = true :=
  of_son (x := (Sys.init [0, 0, 0, 0, 0, 0, 0, 0] 0x90#8 7).run ⟨0, 0, 0⟩ sonEvents) (p := fun y => y.rx.s.hw.rx.length == 0) (by decide +kernel)

example : told 7 (answers (goodBytes (sonEvents.flatMap sonFrames))) = [(.success, 300), (.checksumError, 300), (.success, 5)] := by decide +kernel

/-! ### Where the claim fails -/

/-- Nothing has come and nothing will. -/
structure Deaf (d : Nat) (y : Sys) : Prop where
  empty : RingBuffer.getLength y.rx.s.buf = 0
  off : y.rx.s.hw.ucsrb.getLsbD 7 = false
  dist : y.dist = d
  ph : y.phase = .idle ∨ y.phase = .second
  res : ∀ r ∈ y.results, r = (.none, d)

theorem deaf_step (o : Out) {d : Nat} {y : Sys} (h : Deaf d y) (e : SysEv) : ∃ y', y.step o e = .ok y' ∧ Deaf d y' := by
  obtain ⟨h1, h2, h3, h4, h5⟩ := h
  cases e with
  | arrive f =>
    by_cases hc : (isTrue 4 y.rx.s.hw.ucsrb && decide (y.rx.s.hw.rx.length < 3)) = true
    · exact ⟨{ y with rx := { y.rx with s := { y.rx.s with hw := { y.rx.s.hw with rx := y.rx.s.hw.rx ++ [f] } }, kept := y.rx.kept ++ [f] } },
        by simp only [Sys.step, InSys.step, hc, if_true, Res.bind_ok], ⟨h1, h2, h3, h4, h5⟩⟩
    · exact ⟨y, by simp only [Sys.step, InSys.step, hc]; rfl, ⟨h1, h2, h3, h4, h5⟩⟩
  | isr =>
    have hc : (isTrue 7 y.rx.s.hw.ucsrb && rxComplete y.rx.s.hw) = false := by rw [isTrue_bit 7 (by omega), h2]; rfl
    exact ⟨y, by simp only [Sys.step, InSys.step, hc]; rfl, ⟨h1, h2, h3, h4, h5⟩⟩
  | main =>
    rcases h4 with hp | hp
    · refine ⟨{ y with phase := .second }, ?_, ⟨h1, h2, h3, Or.inr rfl, h5⟩⟩
      simp only [Sys.step, Sys.main, hp, h1]
      rfl
    · refine ⟨{ y with phase := .idle, results := y.results ++ [(.none, y.dist)] }, ?_, ⟨h1, h2, h3, Or.inl rfl, ?_⟩⟩
      · simp only [Sys.step, Sys.main, hp, h1]
        rfl
      · intro r hr
        simp only [List.mem_append, List.mem_singleton] at hr
        rcases hr with hr | rfl
        · exact h5 r hr
        · rw [h3]

theorem deaf_run (o : Out) {d : Nat} (es : List SysEv) : ∀ {y : Sys}, Deaf d y → ∃ y', y.run o es = .ok y' ∧ Deaf d y' := by
  induction es with
  | nil => intro y h; exact ⟨y, rfl, h⟩
  | cons e es ih =>
    intro y h
    obtain ⟨y1, s1, d1⟩ := deaf_step o h e
    obtain ⟨y2, s2, d2⟩ := ih d1
    exact ⟨y2, by unfold Sys.run; rw [s1]; exact s2, d2⟩

/-- **C121 fails** as the classes stand: nothing but UsartInputStream::Read on an empty buffer switches the receive interrupt on, and the driver calls Read only when four bytes
    are there. With the interrupt off at the start every call of EndDistance, whatever the sensor sends, says that nothing has come. -/
theorem c121_deaf_fails (o : Out) (g : List Nat) (b : BitVec 8) (d : Nat) (hg : 0 < g.length) (hn : g.length < 65536) (b7 : b.getLsbD 7 = false) (es : List SysEv) :
    ∃ y, (Sys.init g b d).run o es = .ok y ∧ y.dist = d ∧ ∀ r ∈ y.results, r = (.none, d) := by
  have g0 : RingBuffer.getLength (RingBuffer.mk g) = 0 := by rw [RingBuffer.getLength_rel (RingBuffer.rel_mk g hg) hn]; rfl
  obtain ⟨y, h1, h2⟩ := deaf_run o es (⟨g0, b7, rfl, Or.inl rfl, by simp [Sys.init]⟩ : Deaf d (Sys.init g b d))
  exact ⟨y, h1, h2.dist, h2.res⟩

/-- **C121 fails** with a buffer of four elements or fewer, of which one is never used: four bytes are never there together, so no response is ever read, and the last ones are dropped. -/
theorem c121_small_fails (o : Out) (g : List Nat) (b : BitVec 8) (d : Nat) (hg : 0 < g.length) (h4 : g.length ≤ 4) (es : List SysEv) (hes : ∀ e ∈ es, SonEv e) :
    ∃ y, (Sys.init g b d).run o es = .ok y ∧ y.dist = d ∧ ∀ r ∈ y.results, (r.1 = .none ∨ r.1 = .pending) ∧ r.2 = d := by
  have hn : g.length < 65536 := by omega
  have key : ∀ (es : List SysEv) (hes : ∀ e ∈ es, SonEv e) (y : Sys) (q : List Nat) (p : List Frame) (dn got : List Nat), SonInv g.length d y q p dn got →
      (y.phase = .idle ∨ y.phase = .second) → y.dist = d → (∀ r ∈ y.results, (r.1 = .none ∨ r.1 = .pending) ∧ r.2 = d) →
      ∃ y', y.run o es = .ok y' ∧ y'.dist = d ∧ ∀ r ∈ y'.results, (r.1 = .none ∨ r.1 = .pending) ∧ r.2 = d := by
    intro es
    induction es with
    | nil => intro _ y q p dn got _ _ h3 h4; exact ⟨y, rfl, h3, h4⟩
    | cons e es ih =>
      intro hes y q p dn got h hp h3 h5
      obtain ⟨y1, q1, p1, dn1, got1, s1, i1, -⟩ := son_step hn o h e (hes e (by simp))
      have fin : (y1.phase = .idle ∨ y1.phase = .second) ∧ y1.dist = d ∧ ∀ r ∈ y1.results, (r.1 = .none ∨ r.1 = .pending) ∧ r.2 = d := by
        have hlen : RingBuffer.getLength y.rx.s.buf = q.length := RingBuffer.getLength_rel h.inp.rel (by rw [h.inp.size]; exact hn)
        have hq : q.length < g.length := by have := h.inp.rel.hq; rw [h.inp.size] at this; exact this
        have rxonly : ∀ x : Res InSys, y.step o e = (do let r ← x; .ok { y with rx := r }) →
            ((y1.phase = .idle ∨ y1.phase = .second) ∧ y1.dist = d ∧ ∀ r ∈ y1.results, (r.1 = .none ∨ r.1 = .pending) ∧ r.2 = d) := by
          intro x hx
          rw [hx] at s1
          cases x with
          | ub => cases s1
          | ok t => injection s1 with s1; rw [← s1]; exact ⟨hp, h3, h5⟩
        cases e with
        | arrive f => exact rxonly (y.rx.step (.arrive f)) rfl
        | isr => exact rxonly (y.rx.step .isr) rfl
        | main =>
          rcases hp with hp | hp
          · have : y.step o .main = .ok { y with phase := .second } := by
              simp only [Sys.step, Sys.main, hp, hlen]
              rw [if_neg (by omega)]
            rw [this] at s1
            injection s1 with s1
            rw [← s1]
            exact ⟨Or.inr rfl, h3, h5⟩
          · have : y.step o .main = .ok { y with phase := .idle, results := y.results ++ [(if q.length > 0 then .pending else .none, y.dist)] } := by
              simp only [Sys.step, Sys.main, hp, hlen]
            rw [this] at s1
            injection s1 with s1
            rw [← s1]
            refine ⟨Or.inl rfl, h3, fun r hr => ?_⟩
            simp only [List.mem_append, List.mem_singleton] at hr
            rcases hr with hr | rfl
            · exact h5 r hr
            · refine ⟨?_, h3⟩
              by_cases hz : q.length > 0 <;> simp [hz]
      obtain ⟨y2, s2, f2⟩ := ih (fun e he => hes e (by simp [he])) y1 q1 p1 dn1 got1 i1 fin.1 fin.2.1 fin.2.2
      exact ⟨y2, by unfold Sys.run; rw [s1]; exact s2, f2⟩
  exact key es hes _ [] [] [] [] (son_init g b d hg) (Or.inl rfl) rfl (by simp [Sys.init])

/-! ### Requests -/

open Atl.TextUsart in
/-- **C121.** A request (BeginDistance) through UsartOutputStream: with room for four bytes, whatever the interrupts do meanwhile, the line carries the frame of the protocol. -/
theorem c121_request_partial (g : List Nat) (b : BitVec 8) (hg : 5 ≤ g.length) (hn : g.length < 65536) (x : Nat) (hx : x ≤ 270) (es : List ConEv) (k : Console)
    (hk : (Console.init g b (beginDistanceAt x)).run es = .ok k) (h0 : k.todo = []) (hp : k.tx.phase = .idle) (m : Nat) (hm : 4 < m) :
    ∃ p k', p * 270 ≤ x * 46 ∧ x * 46 < (p + 1) * 270 ∧ k.run (conRounds m) = .ok k' ∧ k'.tx.s.hw.line = [0x22, p, 0, (0x22 + p) % 256] := by
  obtain ⟨p, e, h1, h2, h3⟩ := c47_angle x hx
  have e' : beginDistanceAt x = [0x22, p, 0, (0x22 + p) % 256] := e
  rw [e'] at hk
  have ht : ∀ c ∈ ([0x22, p, 0, (0x22 + p) % 256] : List Nat), c < 256 := by
    intro c hc
    simp only [List.mem_cons, List.not_mem_nil, or_false] at hc
    omega
  have hi := con_init g b (by omega) [0x22, p, 0, (0x22 + p) % 256] ht
  have nd := short_noDrop hn es hi (by show 0 + 4 < g.length; omega)
  obtain ⟨k', r1, r2⟩ := c119_complete g b (by omega) hn _ ht es nd k hk h0 hp m hm
  exact ⟨p, k', h2, h3, r1, r2⟩

open Atl.TextUsart in
example : ∃ k, (Console.init [0, 0, 0, 0, 0] 8#8 (beginDistanceAt 135)).run (calls 4) = .ok k ∧ k.todo = [] ∧ k.tx.phase = .idle ∧
    ∃ p k', p * 270 ≤ 135 * 46 ∧ 135 * 46 < (p + 1) * 270 ∧ k.run (conRounds 5) = .ok k' ∧ k'.tx.s.hw.line = [0x22, p, 0, (0x22 + p) % 256] :=
  ⟨_, rfl, by decide +kernel, by decide +kernel, c121_request_partial [0, 0, 0, 0, 0] 8#8 (by decide) (by decide) 135 (by decide) (calls 4) _ rfl (by decide +kernel) (by decide +kernel) 5 (by decide)⟩

open Atl.TextUsart in
/-- **C121 fails** for a request into a buffer of four while the interrupts are off: the checksum is dropped without notice, the sensor waits for a fourth byte. -/
theorem c121_request_cut_fails (g : List Nat) (b : BitVec 8) (hg : g.length = 4) (m : Nat) (hm : 4 < m) :
    ∃ k, (Console.init g b beginDistance).run (calls 4 ++ conRounds m) = .ok k ∧ k.todo = [] ∧ k.tx.s.hw.line = [0x22, 0, 0] := by
  have e : beginDistance = [0x22, 0, 0, 0x22] := by decide +kernel
  rw [e]
  obtain ⟨k, h1, h2, h3⟩ := c119_cut g b (by omega) (by omega) [0x22, 0, 0, 0x22] (by decide) m hm
  exact ⟨k, h1, h2, by rw [h3, hg]; rfl⟩

end Atl.Props
