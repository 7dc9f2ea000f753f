import Verif.Props.SerialLine
import Verif.Props.UsartClear

/- Property theorems C132: from `Write` of one program over the line to `Read` of another. -/
namespace Atl.Props
open Atl Atl.Usart Atl.Usart.Config Atl.Spec.Usart Atl.Spec.SerialLine

/-- What the receiver of a USART has in its FIFO for a character heard, or for one with an error (here a wrong stop bit). -/
def heardFrame : Option Nat → Frame
  | some v => ⟨v, false, false, false⟩
  | none => ⟨0, true, false, false⟩

/-- The receiving program keeps up: whenever a character comes the receiver is on and its FIFO has room, whenever the handler takes one the buffer has. -/
def KeepsUp (cap : Nat) : Inbox → List InAct → Prop
  | _, [] => True
  | x, .arrive v g :: as => x.on = true ∧ x.fifo.length < 3 ∧ KeepsUp cap (x.step cap (.arrive v g)) as
  | x, .interrupt :: as => (x.ie = true → x.fifo ≠ [] → x.queue.length < cap) ∧ KeepsUp cap (x.step cap .interrupt) as
  | x, .read :: as => KeepsUp cap (x.step cap .read) as

namespace Boards

theorem range_mod (n v : Nat) : (List.range n).map (v % 2 ^ n).testBit = (List.range n).map v.testBit := by
  apply List.map_congr_left
  intro i hi
  rw [Nat.testBit_mod_two_pow, decide_eq_true (List.mem_range.1 hi), Bool.true_and]

theorem ones_mod (n v : Nat) : ones n (v % 2 ^ n) = ones n v := by
  unfold ones
  apply List.countP_congr
  intro i hi
  rw [Nat.testBit_mod_two_pow, decide_eq_true (List.mem_range.1 hi), Bool.true_and]

/-- Only the data bits of a value are sent. -/
theorem frame_mod (f : Format) (v : Nat) : frame f (v % 2 ^ f.bits) = frame f v := by
  unfold frame body check
  rw [range_mod, ones_mod]

theorem sent_mod (f : Format) (T : Nat) (s : List (Nat × Nat)) : sent f T (s.map fun x => (x.1, x.2 % 2 ^ f.bits)) = sent f T s := by
  unfold sent
  rw [List.map_map]
  congr 1
  apply List.map_congr_left
  intro x _
  simp only [Function.comp, frame_mod]

theorem hears_any (f : Format) (T H J : Nat) (hu : Understands f T H J) (s : List (Nat × Nat)) (rs : List (Option Nat)) :
    Hears f H J (sent f T s) rs ↔ rs = s.map fun x => some (x.2 % 2 ^ f.bits) := by
  rw [← sent_mod, hu (s.map fun x => (x.1, x.2 % 2 ^ f.bits))]
  · rw [List.map_map]; rfl
  · intro x hx
    obtain ⟨y, -, rfl⟩ := List.mem_map.1 hx
    exact Nat.mod_lt _ (Nat.two_pow_pos _)

theorem hears_zip (f : Format) (T H J : Nat) (hu : Understands f T H J) (pauses line : List Nat) (hp : pauses.length = line.length) (rs : List (Option Nat)) :
    Hears f H J (sent f T (pauses.zip line)) rs ↔ rs = line.map fun v => some (v % 2 ^ f.bits) := by
  rw [hears_any f T H J hu]
  have : (pauses.zip line).map (fun x => some (x.2 % 2 ^ f.bits)) = line.map fun v => some (v % 2 ^ f.bits) := by
    rw [show (fun x : Nat × Nat => some (x.2 % 2 ^ f.bits)) = (fun v => some (v % 2 ^ f.bits)) ∘ Prod.snd from rfl, ← List.map_map,
      List.map_snd_zip (by omega)]
  rw [this]

theorem kept_sub (es : List InEv) (y0 y : InSys) (h : y0.run es = .ok y) : y.kept.Sublist (y0.kept ++ arrivals es) := by
  induction es generalizing y0 with
  | nil =>
    simp only [InSys.run, Res.ok.injEq] at h
    subst h
    simp [arrivals]
  | cons e es ih =>
    cases hs : y0.step e with
    | ub => simp [InSys.run, hs] at h
    | ok y1 =>
      simp only [InSys.run, hs, Res.bind_ok] at h
      have h1 := ih y1 h
      have h2 : (y1.kept ++ arrivals es).Sublist (y0.kept ++ arrivals (e :: es)) := by
        have ea : arrivals (e :: es) = arrivals [e] ++ arrivals es := by simp [arrivals]
        rw [ea, ← List.append_assoc]
        apply List.Sublist.append_right
        cases e with
        | arrive f =>
          simp only [InSys.step, Res.ok.injEq] at hs
          subst hs
          split
          · simp [arrivals]
          · simp [arrivals]
        | isr =>
          simp only [InSys.step] at hs
          split at hs
          · cases hq : y0.s.isr with
            | ub => simp [hq] at hs
            | ok q =>
              simp only [hq, Res.bind_ok, Res.ok.injEq] at hs
              subst hs
              simp [arrivals]
          · simp only [Res.ok.injEq] at hs
            subst hs
            simp [arrivals]
        | read =>
          simp only [InSys.step] at hs
          cases hq : y0.s.read with
          | ub => simp [hq] at hs
          | ok q =>
            simp only [hq, Res.bind_ok, Res.ok.injEq] at hs
            subst hs
            simp [arrivals]
      exact h1.trans h2

theorem goodBytes_sub {a b : List Frame} (h : a.Sublist b) : (goodBytes a).Sublist (goodBytes b) := (h.filter _).map _

theorem goodBytes_heard (n : Nat) (hn : n ≤ 8) (l : List Nat) :
    goodBytes ((l.map fun v => some (v % 2 ^ n)).map heardFrame) = l.map fun v => v % 2 ^ n := by
  have h256 : 2 ^ n ≤ 256 := by
    calc 2 ^ n ≤ 2 ^ 8 := Nat.pow_le_pow_right (by omega) hn
      _ = 256 := rfl
  induction l with
  | nil => rfl
  | cons v l ih =>
    have hv : v % 2 ^ n < 256 := Nat.lt_of_lt_of_le (Nat.mod_lt _ (Nat.two_pow_pos _)) h256
    simp only [List.map_cons, heardFrame, goodBytes, List.filter_cons, Frame.good] at ih ⊢
    simp only [Bool.not_false, Bool.and_self, if_true, List.map_cons]
    rw [ih, Nat.mod_eq_of_lt hv]

theorem ok_heard (n : Nat) (hn : n ≤ 8) (l : List Nat) (es : List InEv) (k : Nat)
    (h : arrivals es = (((l.map fun v => some (v % 2 ^ n)).map heardFrame)).take k) : ∀ e ∈ es, InEv.ok e := by
  have h256 : 2 ^ n ≤ 256 := by
    calc 2 ^ n ≤ 2 ^ 8 := Nat.pow_le_pow_right (by omega) hn
      _ = 256 := rfl
  intro e he
  cases e with
  | isr => trivial
  | read => trivial
  | arrive f =>
    have hf : f ∈ arrivals es := List.mem_flatMap.2 ⟨_, he, by simp⟩
    rw [h] at hf
    have hf' := List.mem_of_mem_take hf
    rw [List.map_map, List.mem_map] at hf'
    obtain ⟨v, -, rfl⟩ := hf'
    show v % 2 ^ n < 512
    have : v % 2 ^ n < 2 ^ n := Nat.mod_lt _ (Nat.two_pow_pos _)
    omega

/-- The bytes that come, as the specification of the stream sees them. -/
def comes (as : List InAct) : List Nat := as.flatMap fun
  | .arrive v _ => [v]
  | _ => []

/-- All characters come without error. -/
def AllGood (as : List InAct) : Prop := ∀ v g, InAct.arrive v g ∈ as → g = true

theorem keeps (cap : Nat) (as : List InAct) (x : Inbox) (hk : KeepsUp cap x as) (ha : AllGood as) (hf : ∀ q ∈ x.fifo, q.2 = true) :
    ((x.run cap as).returned.filter (· ≠ -1)) ++ (x.run cap as).queue.map (fun (v : Nat) => (v : Int)) ++ (x.run cap as).fifo.map (fun q => (q.1 : Int)) =
      x.returned.filter (· ≠ -1) ++ x.queue.map (fun (v : Nat) => (v : Int)) ++ x.fifo.map (fun q => (q.1 : Int)) ++ (comes as).map (fun (v : Nat) => (v : Int)) := by
  induction as generalizing x with
  | nil => simp [Inbox.run, comes]
  | cons a as ih =>
    have ha' : AllGood as := fun v g h => ha v g (List.mem_cons_of_mem _ h)
    cases a with
    | arrive v g =>
      obtain ⟨h1, h2, h3⟩ := hk
      have hg : g = true := ha v g (by simp)
      have e : x.step cap (.arrive v g) = { x with fifo := x.fifo ++ [(v, g)] } := by simp [Inbox.step, h1, h2]
      rw [Inbox.run, ih _ h3 ha' (by
        rw [e]
        intro q hq
        rcases List.mem_append.1 hq with hq | hq
        · exact hf q hq
        · rw [List.mem_singleton.1 hq]; exact hg), e]
      simp [comes]
    | interrupt =>
      obtain ⟨h1, h3⟩ := hk
      have e : x.step cap .interrupt = match x.ie, x.fifo with
        | true, (v, _) :: r => { x with fifo := r, queue := x.queue ++ [v] }
        | _, _ => x := by
        simp only [Inbox.step]
        cases hie : x.ie with
        | false => rfl
        | true =>
          cases hfi : x.fifo with
          | nil => rfl
          | cons q r =>
            obtain ⟨v, g⟩ := q
            have hg : g = true := hf (v, g) (by rw [hfi]; simp)
            have := h1 hie (by rw [hfi]; simp)
            simp [hg, this]
      rw [Inbox.run, ih _ h3 ha' (by
        rw [e]
        intro q hq
        cases hie : x.ie with
        | false => rw [hie] at hq; exact hf q hq
        | true =>
          cases hfi : x.fifo with
          | nil => rw [hie, hfi] at hq; simp only at hq; rw [hfi] at hq; cases hq
          | cons p r => rw [hie, hfi] at hq; exact hf q (by rw [hfi]; exact List.mem_cons_of_mem _ hq)), e]
      cases hie : x.ie with
      | false => simp [comes]
      | true =>
        cases hfi : x.fifo with
        | nil => simp [comes, hfi]
        | cons p r => simp [comes]
    | read =>
      have e : x.step cap .read = match x.queue with
        | [] => { x with ie := true, returned := x.returned ++ [-1] }
        | v :: q => { x with queue := q, returned := x.returned ++ [(v : Int)] } := rfl
      rw [Inbox.run, ih _ hk ha' (by
        rw [e]
        cases x.queue <;> exact hf), e]
      cases hq : x.queue with
      | nil => simp [comes, hq]
      | cons v q =>
        have : ((v : Int) != -1) = true := by rw [bne_iff_ne]; omega
        simp [comes, List.filter_append, this]

end Boards
open Boards

/-- The receiving side: whatever was heard of the characters `l`, `k` of them so far. -/
theorem Boards.receiver (n : Nat) (h8 : n ≤ 8) (l : List Nat) (g : List Nat) (b : BitVec 8) (hg : 0 < g.length) (hn : g.length < 65536) (es : List InEv) (k : Nat)
    (hk : arrivals es = ((l.map fun v => some (v % 2 ^ n)).map heardFrame).take k) :
    ∃ z, (inInit g b).run es = .ok z ∧ z.returned.Sublist (l.map fun v => v % 2 ^ n) ∧
      (KeepsUp (g.length - 1) { on := b.getLsbD 4, ie := b.getLsbD 7 } (es.map inAct) →
        ∃ waiting, z.returned ++ waiting = (l.map fun v => v % 2 ^ n).take k ∧ waiting.length = RingBuffer.getLength z.s.buf + z.s.hw.rx.length) := by
  have hes := ok_heard n h8 l es k hk
  obtain ⟨z, bf, h1, -, h3, -⟩ := c76_input g b hg hn es hes
  obtain ⟨z', x, e1, e2, -, e4, e5, e6, -⟩ := c76_exact g b hg hn es hes
  rw [h1, Res.ok.injEq] at e1
  subst e1
  have hga : goodBytes (arrivals es) = (l.map fun v => v % 2 ^ n).take k := by
    rw [hk, ← List.map_take, ← List.map_take, goodBytes_heard n h8, List.map_take]
  refine ⟨z, h1, ?_, fun hku => ?_⟩
  · have a1 := kept_sub es (inInit g b) z h1
    have a2 := goodBytes_sub a1
    rw [show (inInit g b).kept = [] from rfl, List.nil_append, hga] at a2
    exact ((List.sublist_append_left _ _).trans h3).trans (a2.trans (List.take_sublist _ _))
  · have hgood : ∀ fr ∈ arrivals es, Frame.good fr = true := by
      intro fr hfr
      rw [hk] at hfr
      have := List.mem_of_mem_take hfr
      rw [List.map_map, List.mem_map] at this
      obtain ⟨v, -, rfl⟩ := this
      rfl
    have hall : AllGood (es.map inAct) := by
      intro v q hq
      obtain ⟨e, he, hx⟩ := List.mem_map.1 hq
      cases e with
      | isr => cases hx
      | read => cases hx
      | arrive fr =>
        simp only [inAct, InAct.arrive.injEq] at hx
        rw [← hx.2]
        exact hgood fr (List.mem_flatMap.2 ⟨_, he, by simp⟩)
    have hcomes : comes (es.map inAct) = goodBytes (arrivals es) := by
      have : ∀ es : List InEv, (∀ fr ∈ arrivals es, Frame.good fr = true) → comes (es.map inAct) = goodBytes (arrivals es) := by
        intro es
        induction es with
        | nil => intro _; rfl
        | cons e es ih =>
          intro h
          have hx : ∀ fr ∈ arrivals es, Frame.good fr = true := fun fr hfr => h fr (by
            simp only [arrivals, List.flatMap_cons, List.mem_append] at hfr ⊢; exact .inr hfr)
          have ih' := ih hx
          cases e with
          | isr => simpa [comes, arrivals, inAct] using ih'
          | read => simpa [comes, arrivals, inAct] using ih'
          | arrive fr =>
            have hfr : Frame.good fr = true := h fr (by simp [arrivals])
            simp only [comes, arrivals, List.map_cons, List.flatMap_cons, inAct, goodBytes, List.singleton_append, List.filter_cons, hfr, if_true] at ih' ⊢
            rw [ih']
      exact this es hgood
    have key := keeps (g.length - 1) (es.map inAct) _ hku hall (by simp)
    rw [← e2, ← e4] at key
    simp only [List.filter_nil, List.map_nil, List.nil_append] at key
    refine ⟨x.queue ++ x.fifo.map Prod.fst, ?_, ?_⟩
    · rw [← hga, ← hcomes]
      have inj : Function.Injective (List.map fun (v : Nat) => (v : Int)) := List.map_injective_iff.2 fun a b h => by simpa using h
      apply inj
      rw [← key]
      simp [List.map_append, List.append_assoc]
    · rw [List.length_append, List.length_map, ← e5, ← e6, List.length_map]

/-- **C132, sending program to terminal.** Every history of the output stream, every receiver that understands the format: whatever the pauses between the characters, it
    hears the first part of the accepted bytes that is on the line, of each the bits of the format; nothing else and nothing out of order. -/
theorem c132_to_terminal (f : Format) (T H J : Nat) (hu : Understands f T H J) (g : List Nat) (b : BitVec 8) (hg : 0 < g.length) (hn : g.length < 65536)
    (es : List OutEv) :
    ∃ y, (outInit g b).run es = .ok y ∧ ∀ pauses : List Nat, pauses.length = y.s.hw.line.length → ∀ rs,
      Hears f H J (sent f T (pauses.zip y.s.hw.line)) rs ↔ rs = (y.accepted.take y.s.hw.line.length).map fun v => some (v % 2 ^ f.bits) := by
  obtain ⟨y, rest, h1, h2, -, -, -⟩ := c59_order g b hg hn es
  refine ⟨y, h1, fun pauses hp rs => ?_⟩
  rw [hears_zip f T H J hu pauses _ hp, ← h2, List.append_assoc, List.append_assoc, List.take_left]

/-- **C132, terminal to receiving program.** Every sequence of characters and pauses sent by a terminal that the receiver understands, every history of the input
    stream while these come in: the bytes `Read` returns are, in order, taken from the characters; and while the program keeps up, none is missing. -/
theorem c132_from_terminal (f : Format) (h8 : f.bits ≤ 8) (T H J : Nat) (hu : Understands f T H J) (s : List (Nat × Nat)) (rs : List (Option Nat))
    (hr : Hears f H J (sent f T s) rs) (g : List Nat) (b : BitVec 8) (hg : 0 < g.length) (hn : g.length < 65536) (es : List InEv) (k : Nat)
    (hk : arrivals es = (rs.map heardFrame).take k) :
    ∃ z, (inInit g b).run es = .ok z ∧ z.returned.Sublist (s.map fun x => x.2 % 2 ^ f.bits) ∧
      (KeepsUp (g.length - 1) { on := b.getLsbD 4, ie := b.getLsbD 7 } (es.map inAct) →
        ∃ waiting, z.returned ++ waiting = (s.map fun x => x.2 % 2 ^ f.bits).take k ∧ waiting.length = RingBuffer.getLength z.s.buf + z.s.hw.rx.length) := by
  rw [hears_any f T H J hu] at hr
  subst hr
  have e1 : (s.map fun x => some (x.2 % 2 ^ f.bits)) = (s.map Prod.snd).map fun v => some (v % 2 ^ f.bits) := by rw [List.map_map]; rfl
  have e2 : (s.map fun x => x.2 % 2 ^ f.bits) = (s.map Prod.snd).map fun v => v % 2 ^ f.bits := by rw [List.map_map]; rfl
  rw [e1] at hk
  rw [e2]
  exact receiver f.bits h8 _ g b hg hn es k hk

/-- **C132, from board to board.** Two boards with the same clock and configuration (any rate that is a setting, any parity, up to eight bits), any history of the
    output stream of one, any pauses on the line, any moment at which the receiver notices a start bit, any history of the input stream of the other
    while `k` of the characters have come in: the bytes `Read` returns are, in order, taken from the bytes `Write` accepted (of each the bits of the format); and while
    the receiving program keeps up they are the first ones without a gap, and what is missing of `k` waits in its buffer and receiver. -/
theorem c132_boards (c : Config) (h : Setting c.div c.ubrr) (h9 : c.dataBits ≠ .bits9) (id id' : Nat) (hid : id < 2) (hid' : id' < 2) (m m' : Mem)
    (g : List Nat) (b : BitVec 8) (hg : 0 < g.length) (hn : g.length < 65536) (es : List OutEv)
    (g' : List Nat) (b' : BitVec 8) (hg' : 0 < g'.length) (hn' : g'.length < 65536) :
    ∃ su y, lineSetup id (openAsync id c m).1 = some su ∧ lineSetup id' (openAsync id' c m').1 = some su ∧ (outInit g b).run es = .ok y ∧
      ∀ (pauses : List Nat) (J : Nat) (rs : List (Option Nat)), pauses.length = y.s.hw.line.length → J ≤ 2 * su.sample → Hears su.format su.bit J (sent su.format (2 * su.bit) (pauses.zip y.s.hw.line)) rs →
        ∀ es' k, arrivals es' = (rs.map heardFrame).take k →
          ∃ z, (inInit g' b').run es' = .ok z ∧ z.returned.Sublist (y.accepted.map fun v => v % 2 ^ su.format.bits) ∧
            (KeepsUp (g'.length - 1) { on := b'.getLsbD 4, ie := b'.getLsbD 7 } (es'.map inAct) → k ≤ y.s.hw.line.length →
              ∃ waiting, z.returned ++ waiting = (y.accepted.map fun v => v % 2 ^ su.format.bits).take k ∧
                waiting.length = RingBuffer.getLength z.s.buf + z.s.hw.rx.length) := by
  obtain ⟨y, rest, h1, h2, -, -, -⟩ := c59_order g b hg hn es
  obtain ⟨su, s1, s2, s3⟩ := c131_pair c h h9 id id' hid hid' m m'
  have h8 : su.format.bits ≤ 8 := by
    have := (c131_setup id hid c m h h9).2
    rw [s1, Option.some.injEq] at this
    rw [this]
    show wantedBits c.dataBits ≤ 8
    cases hd : c.dataBits <;> simp [wantedBits] <;> exact absurd hd h9
  refine ⟨su, y, s1, s2, h1, fun pauses J rs hp hJ hr es' k hk => ?_⟩
  rw [hears_zip _ _ _ _ (s3 J hJ) pauses _ hp] at hr
  subst hr
  obtain ⟨z, z1, z2, z3⟩ := receiver su.format.bits h8 y.s.hw.line g' b' hg' hn' es' k hk
  have hpre : y.accepted = y.s.hw.line ++ (y.s.hw.shift.toList ++ y.s.hw.tx.toList ++ rest) := by
    rw [← h2]; simp only [List.append_assoc]
  refine ⟨z, z1, z2.trans ?_, fun hku hkl => ?_⟩
  · rw [hpre, List.map_append]
    exact List.sublist_append_left _ _
  · obtain ⟨w, w1, w2⟩ := z3 hku
    refine ⟨w, ?_, w2⟩
    rw [w1, hpre, List.map_append, List.take_append_of_le_length (by rw [List.length_map]; exact hkl)]

example := c132_boards { div := 16, ubrr := 103 } ⟨.inr rfl, by decide⟩ (by decide) 0 1 (by decide) (by decide) (fun _ => 0) (fun _ => 0) [0, 0, 0, 0] 0x08#8 (by decide) (by decide)
  ([.write 72, .main, .main, .main, .main, .isr] ++ sendRounds 2) [0, 0, 0, 0] 0x90#8 (by decide) (by decide)

theorem Boards.accepted_bytes (es : List OutEv) (y0 y : OutSys) (h : y0.run es = .ok y) (h0 : ∀ v ∈ y0.accepted, v < 256) : ∀ v ∈ y.accepted, v < 256 := by
  induction es generalizing y0 with
  | nil =>
    simp only [OutSys.run, Res.ok.injEq] at h
    subst h
    exact h0
  | cons e es ih =>
    cases hs : y0.step e with
    | ub => simp [OutSys.run, hs] at h
    | ok y1 =>
      simp only [OutSys.run, hs, Res.bind_ok] at h
      refine ih y1 h ?_
      have same : y1.accepted = y0.accepted → ∀ v ∈ y1.accepted, v < 256 := fun e => by rw [e]; exact h0
      cases e with
      | write v =>
        simp only [OutSys.step] at hs
        split at hs
        · cases hq : y0.s.writeBuffer v.toNat with
          | ub => simp [hq] at hs
          | ok q =>
            simp only [hq, Res.bind_ok, Res.ok.injEq] at hs
            subst hs
            dsimp only
            split
            · intro u hu
              rcases List.mem_append.1 hu with hu | hu
              · exact h0 u hu
              · rw [List.mem_singleton.1 hu]; exact v.isLt
            · exact h0
        · simp only [Res.ok.injEq] at hs
          exact same (by rw [← hs])
      | main =>
        simp only [OutSys.step] at hs
        split at hs <;> (simp only [Res.ok.injEq] at hs; exact same (by rw [← hs]))
      | isr =>
        simp only [OutSys.step] at hs
        split at hs
        · cases hq : y0.s.isr with
          | ub => simp [hq] at hs
          | ok q =>
            simp only [hq, Res.bind_ok, Res.ok.injEq] at hs
            exact same (by rw [← hs])
        · simp only [Res.ok.injEq] at hs
          exact same (by rw [← hs])
      | frame => simp only [OutSys.step, Res.ok.injEq] at hs; exact same (by rw [← hs])
      | load => simp only [OutSys.step, Res.ok.injEq] at hs; exact same (by rw [← hs])

/-- **C132, everything arrives.** If the sending program has stopped writing and its interrupt has been served often enough, all characters have come in, the receiving program
    has kept up and nothing waits: with eight bits `Read` has returned exactly the bytes `Write` accepted. -/
theorem c132_all (c : Config) (h : Setting c.div c.ubrr) (h8 : c.dataBits = .bits8) (id id' : Nat) (hid : id < 2) (hid' : id' < 2) (m m' : Mem)
    (g : List Nat) (b : BitVec 8) (hg : 0 < g.length) (hn : g.length < 65536) (es : List OutEv) (y : OutSys) (hr : (outInit g b).run es = .ok y)
    (hp : y.phase = .idle) (n : Nat) (hl : y.accepted.length + 1 ≤ n)
    (g' : List Nat) (b' : BitVec 8) (hg' : 0 < g'.length) (hn' : g'.length < 65536) :
    ∃ su y', lineSetup id (openAsync id c m).1 = some su ∧ lineSetup id' (openAsync id' c m').1 = some su ∧ y.run (sendRounds n) = .ok y' ∧
      ∀ (pauses : List Nat) (J : Nat) (rs : List (Option Nat)), pauses.length = y.accepted.length → J ≤ 2 * su.sample → Hears su.format su.bit J (sent su.format (2 * su.bit) (pauses.zip y'.s.hw.line)) rs →
        ∀ es', arrivals es' = rs.map heardFrame → KeepsUp (g'.length - 1) { on := b'.getLsbD 4, ie := b'.getLsbD 7 } (es'.map inAct) →
          ∃ z, (inInit g' b').run es' = .ok z ∧ (RingBuffer.getLength z.s.buf = 0 → z.s.hw.rx = [] → z.returned = y.accepted) := by
  obtain ⟨y', d1, d2, -⟩ := c59_drain g b hg hn es y hr hp n hl
  have h9 : c.dataBits ≠ .bits9 := by rw [h8]; decide
  obtain ⟨su, s1, s2, s3⟩ := c131_pair c h h9 id id' hid hid' m m'
  have hb : su.format.bits = 8 := by
    have := (c131_setup id hid c m h h9).2
    rw [s1, Option.some.injEq] at this
    rw [this]
    show wantedBits c.dataBits = 8
    rw [h8]; rfl
  refine ⟨su, y', s1, s2, d1, fun pauses J rs hpl hJ hh es' hk hku => ?_⟩
  rw [d2, hears_zip _ _ _ _ (s3 J hJ) pauses _ hpl] at hh
  subst hh
  have hk' : arrivals es' = ((y.accepted.map fun v => some (v % 2 ^ su.format.bits)).map heardFrame).take y.accepted.length := by
    rw [List.take_of_length_le (by simp), hk]
  obtain ⟨z, z1, -, z3⟩ := receiver su.format.bits (by omega) y.accepted g' b' hg' hn' es' _ hk'
  refine ⟨z, z1, fun h0 hx => ?_⟩
  obtain ⟨w, w1, w2⟩ := z3 hku
  rw [h0, hx] at w2
  have hw : w = [] := List.length_eq_zero_iff.1 (by simpa using w2)
  rw [hw, List.append_nil, List.take_of_length_le (by simp)] at w1
  rw [w1, hb]
  conv => rhs; rw [← List.map_id y.accepted]
  apply List.map_congr_left
  intro v hv
  exact Nat.mod_eq_of_lt (accepted_bytes es _ y hr (by simp [outInit]) v hv)

example := c132_all { div := 16, ubrr := 103 } ⟨.inr rfl, by decide⟩ rfl 0 1 (by decide) (by decide) (fun _ => 0) (fun _ => 0) [0, 0, 0, 0] 0x08#8 (by decide) (by decide)
  [.write 72, .main, .main, .main, .main] _ rfl rfl 2 (by decide) [0, 0, 0, 0] 0x90#8 (by decide) (by decide)

/-- One round: a character comes, the handler takes it, main code calls `Read` once or more. -/
def serialRound (x : Nat × Nat) : List InEv := .arrive ⟨x.1, false, false, false⟩ :: .isr :: List.replicate (x.2 + 1) .read

theorem Boards.reads (cap : Nat) (j : Nat) (as : List InAct) (x : Inbox) (hq : x.queue = []) (hie : x.ie = true)
    (h : ∀ r, KeepsUp cap { x with returned := r } as) : KeepsUp cap x (List.replicate j .read ++ as) := by
  induction j generalizing x with
  | zero => exact h x.returned
  | succ j ih =>
    rw [List.replicate_succ, List.cons_append]
    show KeepsUp cap (x.step cap .read) _
    have e : x.step cap .read = { x with ie := true, returned := x.returned ++ [-1] } := by simp [Inbox.step, hq]
    rw [e]
    have e2 : ({ x with ie := true, returned := x.returned ++ [-1] } : Inbox) = { x with returned := x.returned ++ [-1] } := by rw [← hie]
    rw [e2]
    exact ih _ hq hie h

/-- **C132.** A receiving program keeps up, for ever and with the smallest buffer, if the handler runs after each character and main code calls `Read` at least once
    before the next one. -/
theorem c132_rounds (cap : Nat) (hc : 1 ≤ cap) (l : List (Nat × Nat)) (x : Inbox) (hon : x.on = true) (hie : x.ie = true) (hf : x.fifo = []) (hq : x.queue = []) :
    KeepsUp cap x ((l.flatMap serialRound).map inAct) := by
  induction l generalizing x with
  | nil => trivial
  | cons v l ih =>
    rw [List.flatMap_cons, List.map_append, serialRound, List.map_cons, List.map_cons, List.cons_append, List.cons_append]
    have good : Frame.good ⟨v.1, false, false, false⟩ = true := rfl
    have e1 : x.step cap (inAct (.arrive ⟨v.1, false, false, false⟩)) = { x with fifo := [(v.1 % 256, true)] } := by
      simp [inAct, Inbox.step, hon, hf, good]
    have e2 : ({ x with fifo := [(v.1 % 256, true)] } : Inbox).step cap .interrupt = { x with queue := [v.1 % 256] } := by
      have : (0 : Nat) < cap := hc
      simp [Inbox.step, hie, hq, hf, this]
    refine ⟨hon, by rw [hf]; simp, ?_⟩
    rw [show x.step cap (.arrive ((⟨v.1, false, false, false⟩ : Frame).data % 256) (Frame.good ⟨v.1, false, false, false⟩)) = { x with fifo := [(v.1 % 256, true)] } from e1]
    refine ⟨fun _ _ => by rw [hq]; exact hc, ?_⟩
    rw [e2, List.map_replicate, List.replicate_succ, List.cons_append]
    show KeepsUp cap (({ x with queue := [v.1 % 256] } : Inbox).step cap .read) _
    have e3 : ({ x with queue := [v.1 % 256] } : Inbox).step cap .read = { x with returned := x.returned ++ [((v.1 % 256 : Nat) : Int)] } := by
      simp [Inbox.step, hq]
    rw [e3]
    exact reads cap v.2 _ _ hq hie fun r => ih _ hon hie hf hq

/-! A concrete case: 9600 baud at 16 MHz, "Hi" sent through buffers of 4 bytes. -/

/-- Write two bytes, then let the interrupt send them. -/
def hiOut : List OutEv := [.write 72, .main, .main, .main, .main, .isr, .write 105, .main, .main, .main, .main] ++ sendRounds 3

/-- They come in; the handler takes each, main code reads one in between. -/
def hiIn : List InEv := [.arrive ⟨72, false, false, false⟩, .isr, .read, .arrive ⟨105, false, false, false⟩, .isr, .read, .read]

example : ∃ y, (outInit [0, 0, 0, 0] 0x08#8).run hiOut = .ok y ∧ y.accepted = [72, 105] ∧ y.s.hw.line = [72, 105] := ⟨_, rfl, by decide, by decide⟩
example : arrivals hiIn = ([some 72, some 105].map heardFrame) ∧ KeepsUp 3 { on := true, ie := true } (hiIn.map inAct) := by
  refine ⟨rfl, ?_⟩
  simp [hiIn, inAct, KeepsUp, Inbox.step, Frame.good]
example : ∃ z, (inInit [0, 0, 0, 0] 0x90#8).run hiIn = .ok z ∧ z.returned = [72, 105] := ⟨_, rfl, by decide⟩

/-- A terminal whose bits are as long as the board's (`c132_to_terminal`, `c132_from_terminal`). -/
theorem hi_understands : Understands (wantedFormat {}) 3328 1664 16 := by
  rw [c131_line_iff _ (by decide) (by decide) 3328 1664 16 (by decide) (by decide)]
  refine ⟨fun k _ => by omega, ?_⟩
  decide

example := c132_to_terminal (wantedFormat {}) 3328 1664 16 hi_understands [0, 0, 0, 0] 0x08#8 (by decide) (by decide) hiOut

example : ∃ z, (inInit [0, 0, 0, 0] 0x90#8).run hiIn = .ok z ∧ z.returned.Sublist [72, 105] := by
  obtain ⟨z, h1, h2, -⟩ := c132_from_terminal (wantedFormat {}) (by decide) 3328 1664 16 hi_understands [(0, 72), (40000, 105)] [some 72, some 105]
    ((hi_understands _ (by decide) _).2 rfl) [0, 0, 0, 0] 0x90#8 (by decide) (by decide) hiIn 2 rfl
  exact ⟨z, h1, h2⟩
example : Setting 16 103 := ⟨.inr rfl, by omega⟩

end Atl.Props
