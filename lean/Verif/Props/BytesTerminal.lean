import Verif.Props.BytesBoards
import Verif.Props.Terminal
/- Property theorems C135: the terminal program, pointers of the stream moved byte by byte. -/
namespace Atl.Props
open Atl Atl.Usart Atl.Usart.Config Atl.Spec.Usart Atl.Spec.SerialLine Atl.Lcd Atl.Spec.Lcd Atl.Spec.Pages Atl.LcdSketch
open Atl.RingBuffer (Order)

/-- **C135, the display.** `setup` and then any bytes written with `HD44780_View::Write`, one after another: nothing undefined happens, and a display in any state on the parallel driver
    shows these bytes as text. -/
theorem c135_text (rows : Nat) (h1 : 1 ≤ rows) (h4 : rows ≤ 4) (t : List Nat) (ht : ∀ c ∈ t, c < 256)
    (d : Device) (a : Lines) (he : a.e = true) (hrw : a.rw = false) (hrs : a.rs = false) (low : Nat → Nat) (amb : Nat → Bool) :
    ∃ s cs s' cs' d', LcdSketch.start rows = .ok (s, cs) ∧ View.run rows s (t.map .put) = .ok (s', cs') ∧
      receiveAll low amb 0 d (latches a (Parallel.levels a (Parallel.calls (cs ++ cs')))) = some d' ∧ TermShows rows t d' := by
  obtain ⟨s, cs, d1, e1, r1, sh⟩ := start_shows rows h1 low amb d
  have tr := sh.onLcd.tracks
  have hpos : 0 < columns rows := by simp only [columns]; split <;> omega
  have ready : TextReady d1 := ⟨tr.cg, tr.inc, tr.two⟩
  obtain ⟨s', bs, k3, k4, -⟩ := usual_run rows h1 h4 s d1 ready (t.map .put) (by
    intro x hx
    obtain ⟨c, hc, rfl⟩ := List.mem_map.1 hx
    exact ht c hc)
  obtain ⟨-, qq⟩ := quiet_text sketchFlags t (rows := rows) (s := s) (s' := s') (cs := bs.map toCall) k3
  obtain ⟨x1, x2, x3⟩ := quiet_execAll bs qq d1 sh.flags sh.shift
  have blank : ∀ r c, r < rows → c < columns rows → d1.ddram (cell r c) = 0x20 := fun r c hr hc => by
    rw [tr.text r c hr hc]
    show toU 8 32 = 32
    decide
  refine ⟨s, cs, s', bs.map toCall, execAll d1 bs, e1, k3, ?_, ?_, ?_⟩
  · rw [Parallel.calls_spec a he hrw, hrs]
    exact receive_more sh.aligned r1 bs k4
  · intro ts hts hl
    have at0 : AtLine rows 0 s d1 (fun _ _ => 0x20) := by
      refine ⟨by rw [tr.row]; simp [clearScreen], tr.col, ?_, ready, blank⟩
      rw [tr.ac hpos]
      simp [clearScreen, conRow]
    obtain ⟨s2, b2, e2, -, al⟩ := lines_run rows h1 h4 ts hts 0 s d1 _ at0
    rw [← hl, k3] at e2
    have eb : bs.map toCall = b2.map toCall := by injection e2 with e2; exact (Prod.mk.inj e2).2
    have hb2 : execAll d1 b2 = execAll d1 bs := by rw [List.map_injective_iff.2 (fun a b h => toCall_inj h) eb]
    rw [hb2] at al
    exact ⟨x1.1, x1.2.1, x1.2.2, x3.trans sh.window, al.text⟩
  · intro l hp hl hf
    have tr0 : Tracks rows s d1 ⟨0, 0, fun _ _ => 0x20⟩ := ⟨tr.row, tr.col, tr.rowLt, tr.colLe, tr.ac, tr.cg, tr.inc, tr.two, blank⟩
    obtain ⟨s2, b2, e2, -, tk⟩ := c43_tracks_partial rows h1 h4 s d1 _ l tr0 hp hf
    rw [hl, k3] at e2
    have eb : bs.map toCall = b2.map toCall := by injection e2 with e2; exact (Prod.mk.inj e2).2
    have hb2 : execAll d1 b2 = execAll d1 bs := by rw [List.map_injective_iff.2 (fun a b h => toCall_inj h) eb]
    rw [hb2] at tk
    exact ⟨x1.1, x1.2.1, x1.2.2, x3.trans sh.window, tk.text⟩

example := c135_text 2 (by decide) (by decide) [72, 105, 10, 13] (by decide)

/-- **C135, partial, pointers moved byte by byte** (the handler of a stream runs at most once from the first byte of an incremented pointer to the end of the ring buffer call; the handlers do not
    touch the display, so the program's calls on it depend on what `Read` returned only). One board sends characters with any pauses, on the other the terminal program runs: whatever the
    histories, the display shows the characters `Read` has returned, as text; these are taken, in order, from the bytes the other board accepted for sending; and if `k` characters have
    come in, the receiver took every one, none was dropped at a full buffer and nothing waits, the display shows the first `k` bytes accepted. -/
theorem c135_bytes_partial (rows : Nat) (h1 : 1 ≤ rows) (h4 : rows ≤ 4)
    (c : Config) (h : Setting c.div c.ubrr) (h8 : c.dataBits = .bits8) (id id' : Nat) (hid : id < 2) (hid' : id' < 2) (m m' : Mem)
    (o o' : Order) (lim lim' : Nat) (hlim : lim ≤ 1) (hlim' : lim' ≤ 1) (p1 p2 p1' p2' : Nat) (g1 g2 : List Nat) (b : BitVec 8) (hg1 : 0 < g1.length) (hg2 : 0 < g2.length)
    (n1 : g1.length < 65536) (es : List DEv) (hes : ∀ e ∈ es, Duplex.evOk e)
    (g1' g2' : List Nat) (b' : BitVec 8) (hg1' : 0 < g1'.length) (hg2' : 0 < g2'.length) (n1' : g1'.length < 65536) (n2' : g2'.length < 65536) :
    ∃ su u, lineSetup id (openAsync id c m).1 = some su ∧ lineSetup id' (openAsync id' c m').1 = some su ∧ Bytes.run o lim (Bytes.init p1 p2 g1 g2 b) es = .ok u ∧
      (∀ v ∈ u.accepted, v < 256) ∧
      ∀ (pauses : List Nat) (J : Nat) (rs : List (Option Nat)), pauses.length = u.hw.line.length → J ≤ 2 * su.sample →
        Hears su.format su.bit J (sent su.format (2 * su.bit) (pauses.zip u.hw.line)) rs →
        ∀ es' k, (∀ e ∈ es', Duplex.evOk e) → comeIn es' = (rs.map heardFrame).take k →
          ∃ u', Bytes.run o' lim' (Bytes.init p1' p2' g1' g2' b') es' = .ok u' ∧ u'.returned.Sublist u.accepted ∧
            ∀ (d : Device) (a : Lines), a.e = true → a.rw = false → a.rs = false → ∀ (low : Nat → Nat) (amb : Nat → Bool),
            ∃ s cs s' cs' d', LcdSketch.start rows = .ok (s, cs) ∧ View.run rows s (u'.returned.map .put) = .ok (s', cs') ∧
              receiveAll low amb 0 d (latches a (Parallel.levels a (Parallel.calls (cs ++ cs')))) = some d' ∧ TermShows rows u'.returned d' ∧
              (u'.kept = comeIn es' → (u'.lost = 0 ∨ (k < g2'.length ∧ g2'.length ≤ 256)) → k ≤ u.hw.line.length → u'.pc = .idle → u'.inn.length = 0 → u'.hw.rx = [] →
                TermShows rows (u.accepted.take k) d') := by
  have h9 : c.dataBits ≠ .bits9 := by rw [h8]; decide
  obtain ⟨su, u, s1, s2, hr, s4⟩ := c138_boards_partial c h h9 id id' hid hid' m m' o o' lim lim' hlim hlim' p1 p2 p1' p2' g1 g2 b hg1 hg2 n1 es hes g1' g2' b' hg1' hg2' n1' n2'
  have hb : su.format.bits = 8 := by
    have := (c131_setup id hid c m h h9).2
    rw [s1, Option.some.injEq] at this
    rw [this]
    show wantedBits c.dataBits = 8
    rw [h8]; rfl
  have hsm : ∀ v ∈ u.accepted, v < 256 := (BytesBoards.run_bytes es hr ⟨by simp [Bytes.init], fun v hv => by simp [Bytes.init] at hv⟩).1
  refine ⟨su, u, s1, s2, hr, hsm, fun pauses J rs hp hJ hh es' k hes' hk => ?_⟩
  obtain ⟨u', r1, r2, r3⟩ := s4 pauses J rs hp hJ hh es' k hes' hk
  have same : (u.accepted.map fun v => v % 2 ^ su.format.bits) = u.accepted := by
    conv => rhs; rw [← List.map_id u.accepted]
    apply List.map_congr_left
    intro v hv
    rw [hb]
    exact Nat.mod_eq_of_lt (hsm v hv)
  rw [same] at r2 r3
  refine ⟨u', r1, r2, fun d a he hrw hrs low amb => ?_⟩
  obtain ⟨s, cs, s', cs', d', q1, q2, q3, q4⟩ := c135_text rows h1 h4 u'.returned (fun v hv => hsm v (r2.subset hv)) d a he hrw hrs low amb
  refine ⟨s, cs, s', cs', d', q1, q2, q3, q4, fun ha hl hkl hpi hin hx => ?_⟩
  obtain ⟨w, w1, w2⟩ := (r3 ha hl hkl).2 hpi
  rw [hin, hx] at w2
  have hw : w = [] := List.length_eq_zero_iff.1 (by simpa using w2)
  rw [hw, List.append_nil] at w1
  rw [← w1]
  exact q4

example := c135_bytes_partial 2 (by decide) (by decide) { div := 16, ubrr := 103 } ⟨.inr rfl, by decide⟩ rfl 0 1 (by decide) (by decide) (fun _ => 0) (fun _ => 0) ⟨true, true⟩ ⟨false, true⟩ 1 1
  (by decide) (by decide) 254 510 254 254 [9, 9, 9] [7, 7, 7] 0x18#8 (by decide) (by decide) (by decide)
  (bWrite 72 ++ [.write 105, .main, .main, .main, .txIsr, .main, .main, .main, .main, .main, .main, .main] ++ dRounds 4) (by simp [Duplex.evOk, bWrite, dRounds])
  [9, 9] [7, 7, 7, 7, 7] 0x98#8 (by decide) (by decide) (by decide) (by decide)

end Atl.Props
