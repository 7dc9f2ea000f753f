import Verif.Props.UsartWhole
import Verif.Props.Terminal
/- Property theorems C135: the terminal program at the level of memory accesses. -/
namespace Atl.Props
open Atl.Usart Atl.Lcd Atl.Spec.Lcd Atl.LcdSketch

/-- **C135, at the level of memory accesses.** The receive handler (and that of an output stream on the same USART) can interrupt the program anywhere between its memory accesses, in any
    history in which no handler run comes too often (C108): outside calls of `Read` the display shows, as text, the characters `Read` has returned.  The display is not touched by handlers, so
    what it is sent depends on what `Read` returns only, which is what it returns in the history of whole calls. -/
theorem c135_access (rows : Nat) (h1 : 1 ≤ rows) (h4 : rows ≤ 4) (lim : Nat) (g1 g2 : List Nat) (b : BitVec 8) (hg1 : 0 < g1.length) (hg2 : 0 < g2.length)
    (n1 : g1.length < 65536) (n2 : g2.length < 65536) (es : List DEv) (hes : ∀ e ∈ es, Duplex.evOk e) (hc : CalmRun g1.length g2.length lim (Duplex.init g1 g2 b) es)
    (d : Device) (a : Lines) (he : a.e = true) (hrw : a.rw = false) (hrs : a.rs = false) (low : Nat → Nat) (amb : Nat → Bool) :
    ∃ u y d', Duplex.run lim (Duplex.init g1 g2 b) es = .ok u ∧ Terminal.program rows g2 b ((wholeCalls lim (Duplex.init g1 g2 b) es).flatMap inSide) = .ok y ∧
      receiveAll low amb 0 d (latches a (Parallel.levels a (Parallel.calls y.calls))) = some d' ∧
      (u.pc = .idle → y.rx.returned = u.returned ∧ TermShows rows u.returned d') := by
  obtain ⟨u, w, z, hr, -, hi, -, -, -, -, -, -, -, -, -, hid⟩ := c137_whole_calls_partial lim g1 g2 b hg1 hg2 n1 n2 es hes hc
  obtain ⟨y, d', e1, e2, e3, e4⟩ := c135_loop rows h1 h4 g2 b hg2 n2 ((wholeCalls lim (Duplex.init g1 g2 b) es).flatMap inSide) (Whole.inSide_ok hes hr) d a he hrw hrs low amb
  rw [hi] at e2
  injection e2 with e2
  refine ⟨u, y, d', hr, e1, e3, fun hp => ?_⟩
  obtain ⟨-, -, f3, -⟩ := hid hp
  rw [e2] at f3
  exact ⟨f3, f3 ▸ e4⟩

example := c135_access 2 (by decide) (by decide) 1 [0, 0] [0, 0, 0, 0] 0x98#8 (by decide) (by decide) (by decide) (by decide)
  ([.arrive ⟨72, false, false, false⟩, .rxIsr] ++ [.read, .main, .arrive ⟨105, false, false, false⟩, .main, .rxIsr, .main, .main] ++ dRead) (by simp [Duplex.evOk, dRead])
  (c108_once_calm 1 (by decide) _ _ _ (by decide) (by decide) (by decide) (by decide) _ (by simp [Duplex.evOk, dRead]))

end Atl.Props
