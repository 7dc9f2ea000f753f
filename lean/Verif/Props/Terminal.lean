import Verif.Model.Terminal
import Verif.Props.LcdConsole
import Verif.Props.BoardToBoard

/- Property theorems C135: what a serial terminal sends appears on the display. -/
namespace Atl.Props
open Atl.Usart Atl.Lcd Atl.Spec.Lcd Atl.Spec.Pages Atl.LcdSketch

namespace Term

theorem byte_of_sub {l : List Nat} {p : List Frame} (h : List.Sublist l (goodBytes p)) : ∀ c ∈ l, c < 256 := by
  intro c hc
  obtain ⟨f, -, rfl⟩ := List.mem_map.1 (h.subset hc)
  omega

/-- The loop does to the view what writing the characters read does. -/
theorem run_view (rows : Nat) (h1 : 1 ≤ rows) (h4 : rows ≤ 4) {n : Nat} (hn : n < 65536) : ∀ (es : List InEv), (∀ e ∈ es, InEv.ok e) →
    ∀ (y : Terminal.Sys) (q : List Nat) (p : List Frame), IInv n y.rx q p → ∀ (d : Device), TextReady d →
    ∃ z t s bs, y.rx.run es = .ok z ∧ z.returned = y.rx.returned ++ t ∧ View.run rows y.lcd (t.map .put) = .ok (s, bs.map toCall) ∧
      (∀ b ∈ bs, b.2 < 256 ∧ ¬ selects8 b) ∧ TextReady (execAll d bs) ∧ y.run rows es = .ok ⟨z, s, y.calls ++ bs.map toCall⟩
  | [], _, y, _, _, _, d, hd => ⟨y.rx, [], y.lcd, [], rfl, by simp, rfl, by simp, hd, by simp [Terminal.Sys.run]⟩
  | e :: es, hes, y, q, p, h, d, hd => by
    obtain ⟨y1, q1, p1, e1, i1⟩ := in_step hn h e (hes e (by simp))
    have hes' : ∀ e ∈ es, InEv.ok e := fun e he => hes e (by simp [he])
    have still : ∀ w : Terminal.Sys, y.step rows e = .ok w → w.rx = y1 → w.lcd = y.lcd → w.calls = y.calls → y1.returned = y.rx.returned →
        ∃ z t s bs, y.rx.run (e :: es) = .ok z ∧ z.returned = y.rx.returned ++ t ∧ View.run rows y.lcd (t.map .put) = .ok (s, bs.map toCall) ∧
          (∀ b ∈ bs, b.2 < 256 ∧ ¬ selects8 b) ∧ TextReady (execAll d bs) ∧ y.run rows (e :: es) = .ok ⟨z, s, y.calls ++ bs.map toCall⟩ := by
      intro w g1 g2 g3 g4 g5
      obtain ⟨z, t, s, bs, k1, k2, k3, k4, k5, k6⟩ := run_view rows h1 h4 hn es hes' w q1 p1 (by rw [g2]; exact i1) d hd
      refine ⟨z, t, s, bs, ?_, by rw [k2, g2, g5], by rw [← g3]; exact k3, k4, k5, ?_⟩
      · simp only [InSys.run, e1, Res.bind_ok]; rw [← g2]; exact k1
      · simp only [Terminal.Sys.run, g1, Res.bind_ok, k6, g4]
    cases e with
    | arrive f =>
      refine still { y with rx := y1 } (by simp only [Terminal.Sys.step, e1]; rfl) rfl rfl rfl ?_
      simp only [InSys.step, Res.ok.injEq] at e1
      rw [← e1]
      split <;> rfl
    | isr =>
      refine still { y with rx := y1 } (by simp only [Terminal.Sys.step, e1]; rfl) rfl rfl rfl ?_
      simp only [InSys.step] at e1
      split at e1
      · cases e2 : y.rx.s.isr with
        | ub => rw [e2] at e1; cases e1
        | ok s => rw [e2] at e1; simp only [Res.bind_ok, Res.ok.injEq] at e1; rw [← e1]
      · simp only [Res.ok.injEq] at e1; rw [← e1]
    | read =>
      have e0 := e1
      simp only [InSys.step] at e1
      cases e2 : y.rx.s.read with
      | ub => rw [e2] at e1; cases e1
      | ok r =>
        obtain ⟨s', r⟩ := r
        rw [e2] at e1
        simp only [Res.bind_ok, Res.ok.injEq] at e1
        by_cases hr : r = -1
        · rw [if_pos hr] at e1
          refine still { y with rx := { y.rx with s := s' } } (by simp only [Terminal.Sys.step, e2, Res.bind_ok, if_pos hr]) e1 rfl rfl (by rw [← e1])
        · rw [if_neg hr] at e1
          have hb : r.toNat < 256 := byte_of_sub i1.sub r.toNat (by rw [← e1]; simp)
          have hpos : 0 ≤ r := by
            simp only [InStream.read] at e2
            split at e2
            · cases e3 : RingBuffer.read y.rx.s.buf with
              | ub => rw [e3] at e2; cases e2
              | ok v => rw [e3] at e2; simp only [Res.bind_ok, Res.ok.injEq, Prod.mk.injEq] at e2; rw [← e2.2]; omega
            · simp only [Res.ok.injEq, Prod.mk.injEq] at e2; exact absurd e2.2.symm hr
          have ht : toU 8 r = r.toNat := by
            unfold toU
            omega
          obtain ⟨v, b1, f1, f2, f3⟩ := usual_step rows h1 h4 y.lcd d hd (.put r.toNat) hb
          obtain ⟨z, t, s, bs, k1, k2, k3, k4, k5, k6⟩ := run_view rows h1 h4 hn es hes' ⟨y1, v, y.calls ++ b1.map toCall⟩ q1 p1 i1 _ f3
          refine ⟨z, r.toNat :: t, s, b1 ++ bs, ?_, ?_, ?_, ?_, by simpa [execAll] using k5, ?_⟩
          · simp only [InSys.run, e0, Res.bind_ok]; exact k1
          · rw [k2, ← e1]; simp
          · simp only [List.map_cons, View.run, f1, Res.bind_ok, k3, List.map_append]
          · intro x hx
            rcases List.mem_append.1 hx with hx | hx
            · exact f2 x hx
            · exact k4 x hx
          · have : y.step rows .read = .ok ⟨y1, v, y.calls ++ b1.map toCall⟩ := by
              simp only [View.step] at f1
              simp only [Terminal.Sys.step, e2, Res.bind_ok, if_neg hr, ht, f1, ← e1]
            simp only [Terminal.Sys.run, this, Res.bind_ok, k6, List.map_append, List.append_assoc]

end Term

/-- What the display shows when this text was written to it after `setup`: lines that fit, each ended by a line feed and a carriage return; or any text that fits the screen. -/
def TermShows (rows : Nat) (text : List Nat) (d : Device) : Prop :=
  (∀ ts : List (List Nat), (∀ t ∈ ts, ConLine rows t) → text = (ts.map (· ++ [10, 13])).flatten → Displays rows d (Spec.LcdConsole.lines (conRow rows) ts)) ∧
  (∀ l : List TextOp, (∀ x ∈ l, Plain x) → l.map viewOp = text.map .put → Screen.fitsAll rows ⟨0, 0, fun _ _ => 0x20⟩ l →
    Displays rows d (Screen.run ⟨0, 0, fun _ _ => 0x20⟩ l).text)

/-- **C135, every history.** A display of 1 to 4 rows in any state on the parallel driver, any buffer size, any history of frames coming in, handler runs and rounds of
    the loop: nothing undefined happens, the input stream does what it does alone (C76), and the display shows the characters `Read` has returned, as text. -/
theorem c135_loop (rows : Nat) (h1 : 1 ≤ rows) (h4 : rows ≤ 4) (g : List Nat) (b : BitVec 8) (hg : 0 < g.length) (hn : g.length < 65536) (es : List InEv)
    (hes : ∀ e ∈ es, InEv.ok e) (d : Device) (a : Lines) (he : a.e = true) (hrw : a.rw = false) (hrs : a.rs = false) (low : Nat → Nat) (amb : Nat → Bool) :
    ∃ y d', Terminal.program rows g b es = .ok y ∧ (inInit g b).run es = .ok y.rx ∧
      receiveAll low amb 0 d (latches a (Parallel.levels a (Parallel.calls y.calls))) = some d' ∧ TermShows rows y.rx.returned d' := by
  obtain ⟨s, cs, d1, e1, r1, sh⟩ := start_shows rows h1 low amb d
  have tr := sh.onLcd.tracks
  have hpos : 0 < columns rows := by simp only [columns]; split <;> omega
  have i0 : IInv g.length (inInit g b) [] [] := ⟨RingBuffer.rel_mk g hg, rfl, rfl, by simp [inInit, goodBytes], fun _ => rfl, Or.inr rfl, by simp [inInit]⟩
  have ready : TextReady d1 := ⟨tr.cg, tr.inc, tr.two⟩
  obtain ⟨z, t, s', bs, k1, k2, k3, k4, k5, k6⟩ := Term.run_view rows h1 h4 hn es hes ⟨inInit g b, s, cs⟩ [] [] i0 d1 ready
  obtain ⟨-, qq⟩ := quiet_text sketchFlags t (rows := rows) (s := s) (s' := s') (cs := bs.map toCall) k3
  obtain ⟨x1, x2, x3⟩ := quiet_execAll bs qq d1 sh.flags sh.shift
  have ht : z.returned = t := by rw [k2]; rfl
  have blank : ∀ r c, r < rows → c < columns rows → d1.ddram (cell r c) = 0x20 := fun r c hr hc => by
    rw [tr.text r c hr hc]
    show toU 8 32 = 32
    decide
  refine ⟨⟨z, s', cs ++ bs.map toCall⟩, execAll d1 bs, ?_, k1, ?_, ?_, ?_⟩
  · simp only [Terminal.program, e1, Res.bind_ok]
    exact k6
  · rw [Parallel.calls_spec a he hrw, hrs]
    exact receive_more sh.aligned r1 bs k4
  · intro ts hts hl
    have at0 : AtLine rows 0 s d1 (fun _ _ => 0x20) := by
      refine ⟨by rw [tr.row]; simp [clearScreen], tr.col, ?_, ready, blank⟩
      rw [tr.ac hpos]
      simp [clearScreen, conRow]
    obtain ⟨s2, b2, e2, -, al⟩ := lines_run rows h1 h4 ts hts 0 s d1 _ at0
    rw [← hl, show (Terminal.Sys.mk z s' (cs ++ bs.map toCall)).rx.returned = t from ht, k3] at e2
    have eb : bs.map toCall = b2.map toCall := by injection e2 with e2; exact (Prod.mk.inj e2).2
    have hb2 : execAll d1 b2 = execAll d1 bs := by rw [List.map_injective_iff.2 (fun a b h => toCall_inj h) eb]
    rw [hb2] at al
    exact ⟨x1.1, x1.2.1, x1.2.2, x3.trans sh.window, al.text⟩
  · intro l hp hl hf
    have tr0 : Tracks rows s d1 ⟨0, 0, fun _ _ => 0x20⟩ := ⟨tr.row, tr.col, tr.rowLt, tr.colLe, tr.ac, tr.cg, tr.inc, tr.two, blank⟩
    obtain ⟨s2, b2, e2, -, tk⟩ := c43_tracks_partial rows h1 h4 s d1 _ l tr0 hp hf
    rw [hl, show (Terminal.Sys.mk z s' (cs ++ bs.map toCall)).rx.returned = t from ht, k3] at e2
    have eb : bs.map toCall = b2.map toCall := by injection e2 with e2; exact (Prod.mk.inj e2).2
    have hb2 : execAll d1 b2 = execAll d1 bs := by rw [List.map_injective_iff.2 (fun a b h => toCall_inj h) eb]
    rw [hb2] at tk
    exact ⟨x1.1, x1.2.1, x1.2.2, x3.trans sh.window, tk.text⟩

/-- **C135, from the line to the glass.** A terminal that the receiver understands sends characters with any pauses; `k` of them have come in, the program has kept up and
    nothing waits: the display shows the first `k` characters sent. -/
theorem c135_terminal (rows : Nat) (h1 : 1 ≤ rows) (h4 : rows ≤ 4) (f : Spec.SerialLine.Format) (hf : f.bits = 8) (T H J : Nat) (hu : Spec.SerialLine.Understands f T H J)
    (s : List (Nat × Nat)) (hs : ∀ x ∈ s, x.2 < 256) (rs : List (Option Nat)) (hr : Spec.SerialLine.Hears f H J (Spec.SerialLine.sent f T s) rs) (g : List Nat) (b : BitVec 8)
    (hg : 0 < g.length) (hn : g.length < 65536) (es : List InEv) (k : Nat) (hk : arrivals es = (rs.map heardFrame).take k)
    (d : Device) (a : Lines) (he : a.e = true) (hrw : a.rw = false) (hrs : a.rs = false) (low : Nat → Nat) (amb : Nat → Bool) :
    ∃ y d', Terminal.program rows g b es = .ok y ∧ receiveAll low amb 0 d (latches a (Parallel.levels a (Parallel.calls y.calls))) = some d' ∧
      y.rx.returned.Sublist (s.map Prod.snd) ∧ TermShows rows y.rx.returned d' ∧
      (KeepsUp (g.length - 1) { on := b.getLsbD 4, ie := b.getLsbD 7 } (es.map inAct) → RingBuffer.getLength y.rx.s.buf = 0 → y.rx.s.hw.rx = [] →
        TermShows rows ((s.map Prod.snd).take k) d') := by
  have hm : (s.map fun x => x.2 % 2 ^ f.bits) = s.map Prod.snd := by
    rw [hf]
    exact List.map_congr_left fun x hx => Nat.mod_eq_of_lt (hs x hx)
  obtain ⟨z, z1, z2, z3⟩ := c132_from_terminal f (by omega) T H J hu s rs hr g b hg hn es k hk
  rw [hm] at z2 z3
  have hes : ∀ e ∈ es, InEv.ok e := by
    have all : ∀ x ∈ arrivals es, x.data < 512 := by
      rw [hk]
      intro x hx
      obtain ⟨o, ho, rfl⟩ := List.mem_map.1 (List.mem_of_mem_take hx)
      rw [Boards.hears_any f T H J hu] at hr
      subst hr
      obtain ⟨v, hv, rfl⟩ := List.mem_map.1 ho
      show v.2 % 2 ^ f.bits < 512
      rw [hf]
      omega
    intro e hmem
    cases e with
    | arrive x => exact all x (by unfold arrivals; exact List.mem_flatMap.2 ⟨_, hmem, by simp⟩)
    | isr => trivial
    | read => trivial
  obtain ⟨y, d', y1, y2, y3, y4⟩ := c135_loop rows h1 h4 g b hg hn es hes d a he hrw hrs low amb
  rw [z1, Res.ok.injEq] at y2
  rw [y2] at z2 z3
  refine ⟨y, d', y1, y3, z2, y4, fun hku w1 w2 => ?_⟩
  obtain ⟨w, w3, w4⟩ := z3 hku
  rw [w1, w2] at w4
  rw [List.length_eq_zero_iff.1 w4, List.append_nil] at w3
  rw [← w3]
  exact y4

/-- A terminal sends "Hi", line feed, carriage return, "2"; one round of the loop after each character. -/
def hiTerm : List InEv := [(72, 0), (105, 0), (10, 1), (13, 0), (50, 2)].flatMap serialRound

example : KeepsUp 1 { on := true, ie := true } (hiTerm.map inAct) := c132_rounds 1 (by decide) [(72, 0), (105, 0), (10, 1), (13, 0), (50, 2)] _ rfl rfl rfl rfl

/-- The same sent over a line by a terminal with exactly the receiver's rate, with pauses of 7. -/
example (d : Device) (low : Nat → Nat) (amb : Nat → Bool) := by
  have fit : Spec.SerialLine.Fits ⟨8, .disabled, 1⟩ 32 16 2 := ⟨fun k _ => by omega, by decide⟩
  have hu := (c131_line_iff ⟨8, .disabled, 1⟩ (by decide) (by decide) 32 16 2 (by decide) (by decide)).2 fit
  exact c135_terminal 2 (by decide) (by decide) ⟨8, .disabled, 1⟩ rfl 32 16 2 hu [(7, 72), (7, 105), (7, 10), (7, 13), (7, 50)] (by decide) _
    ((Boards.hears_any _ 32 16 2 hu _ _).2 rfl) [0, 0] 0x90#8 (by decide) (by decide) hiTerm 5 rfl d ⟨false, false, true, false, false, false, false⟩ rfl rfl rfl low amb

/-- It is on the display: "Hi" in the first row, "2" in the second. -/
example (d : Device) (low : Nat → Nat) (amb : Nat → Bool) :
    ∃ y d', Terminal.program 2 [0, 0] 0x90#8 hiTerm = .ok y ∧
      receiveAll low amb 0 d (latches ⟨false, false, true, false, false, false, false⟩ (Parallel.levels ⟨false, false, true, false, false, false, false⟩ (Parallel.calls y.calls))) = some d' ∧
      d'.on = true ∧ d'.ddram (cell 0 0) = 72 ∧ d'.ddram (cell 0 1) = 105 ∧ d'.ddram (cell 0 2) = 32 ∧ d'.ddram (cell 1 0) = 50 := by
  obtain ⟨y, d', y1, y2, y3, y4⟩ := c135_loop 2 (by decide) (by decide) [0, 0] 0x90#8 (by decide) (by decide) hiTerm (by simp [hiTerm, serialRound, InEv.ok]) d ⟨false, false, true, false, false, false, false⟩ rfl rfl rfl low amb
  have hr : y.rx.returned = [72, 105, 10, 13, 50] := by
    have : ((inInit [0, 0] 0x90#8).run hiTerm) = .ok y.rx := y2
    have e : ∃ z, (inInit [0, 0] 0x90#8).run hiTerm = .ok z ∧ z.returned = [72, 105, 10, 13, 50] := ⟨_, rfl, by decide⟩
    obtain ⟨z, z1, z2⟩ := e
    rw [this, Res.ok.injEq] at z1
    rw [z1, z2]
  have h := y4.2 [.char 72, .char 105, .lineFeed, .carriageReturn, .char 50] (by simp [Plain]) (by rw [hr]; rfl) (by simp [Screen.fitsAll, Screen.fits, Screen.step, columns])
  exact ⟨y, d', y1, y3, h.on, h.text 0 0 (by decide) (by decide), h.text 0 1 (by decide) (by decide), h.text 0 2 (by decide) (by decide), h.text 1 0 (by decide) (by decide)⟩

/-- **C135 fails** when the loop does not keep up: with a buffer of two places (one usable) the second of two characters that come between two rounds is lost for ever. -/
theorem c135_burst_fails : ∃ y, Terminal.program 2 [0, 0] 0x90#8 [.arrive ⟨72, false, false, false⟩, .isr, .arrive ⟨105, false, false, false⟩, .isr, .read, .read, .read] = .ok y ∧
    y.rx.returned = [72] ∧ RingBuffer.getLength y.rx.s.buf = 0 ∧ y.rx.s.hw.rx = [] := by
  obtain ⟨y, d', y1, y2, -⟩ := c135_loop 2 (by decide) (by decide) [0, 0] 0x90#8 (by decide) (by decide)
    [.arrive ⟨72, false, false, false⟩, .isr, .arrive ⟨105, false, false, false⟩, .isr, .read, .read, .read] (by simp [InEv.ok]) powerUp ⟨false, false, true, false, false, false, false⟩ rfl rfl rfl (fun _ => 0) (fun _ => false)
  have e : ∃ z, (inInit [0, 0] 0x90#8).run [.arrive ⟨72, false, false, false⟩, .isr, .arrive ⟨105, false, false, false⟩, .isr, .read, .read, .read] = .ok z ∧
      z.returned = [72] ∧ RingBuffer.getLength z.s.buf = 0 ∧ z.s.hw.rx = [] := ⟨_, rfl, by decide, by decide, by decide⟩
  obtain ⟨z, z1, z2⟩ := e
  rw [y2, Res.ok.injEq] at z1
  rw [← z1] at z2
  exact ⟨y, y1, z2⟩

/-- **C135 fails** when the display is wrapped in a TextWriter, as in LCD.ino: its `Write(char)` writes the number of the character, "72" for H. -/
theorem c135_writer_fails : Text.writeChar 16 {} 72 = .ok [55, 50] := by decide +kernel

end Atl.Props
