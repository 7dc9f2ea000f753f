import Verif.Model.LcdSketch
import Verif.Spec.Pages
import Verif.Props.UILcd

/- Property theorem C103: the display examples as whole programs. -/
namespace Atl.Props
open Atl.UI Atl.UI.Control Atl.Lcd Atl.Spec.Lcd Atl.Spec.Pages Atl.LcdSketch

/-! ### Calls that leave the settings alone -/

/-- A byte that leaves the display settings, the entry mode and the window of a display with these settings as they are. -/
def QuietByte (f : Flags) (b : Bool × Nat) : Prop :=
  ∀ d : Device, d.showsDisplay f → d.shift = false → (exec d b.1 b.2).showsDisplay f ∧ (exec d b.1 b.2).shift = false ∧ (exec d b.1 b.2).window = d.window

/-- A call on the driver that sends such a byte. -/
def QuietCall (f : Flags) (c : Call) : Prop := ∃ b, c = toCall b ∧ QuietByte f b

theorem quiet_data (f : Flags) (n : Nat) : QuietByte f (true, n) := by
  intro d h hs
  refine ⟨?_, ?_, ?_⟩
  · simp only [exec, if_true, Device.showsDisplay] at *; split_ifs <;> exact h
  · simp only [exec, if_true]; split_ifs <;> exact hs
  · simp [exec, hs]

theorem quiet_address (f : Flags) (n : Nat) (hn : 128 ≤ n) : QuietByte f (false, n) := by
  intro d h hs
  simp only [exec, Bool.false_eq_true, if_false, if_pos hn]
  exact ⟨h, hs, trivial⟩

theorem quiet_writeAddress {rows : Nat} {s : View.State} {cs : List Call} (f : Flags) (h : View.writeAddress rows s = .ok cs) : ∀ c ∈ cs, QuietCall f c := by
  unfold View.writeAddress at h
  cases ha : View.calcAddress rows s.row s.col with
  | ub => rw [ha] at h; simp at h
  | ok a =>
    rw [ha] at h
    simp only [Res.bind_ok, Res.ok.injEq, Controller.writeDisplayAddress] at h
    subst h
    intro c hc
    simp only [List.mem_singleton] at hc
    subst hc
    exact ⟨(false, a ||| 0x80), rfl, quiet_address f _ Nat.right_le_or⟩

theorem quiet_put {rows : Nat} {s s' : View.State} {cs : List Call} {c : Nat} (f : Flags) (h : View.write rows s c = .ok (s', cs)) :
    s'.regs = s.regs ∧ ∀ c ∈ cs, QuietCall f c := by
  have inc : ∀ s : View.State, (View.incRow rows s).regs = s.regs := fun s => by unfold View.incRow; split <;> rfl
  have incc : ∀ s : View.State, (View.incCol rows s).regs = s.regs := fun s => by
    unfold View.incCol
    split
    · rw [inc]
    · rfl
  unfold View.write at h
  split at h
  · cases hw : View.writeAddress rows (View.incRow rows s) with
    | ub => simp only [hw] at h; cases h
    | ok l =>
      simp only [hw, Res.bind_ok, Res.ok.injEq, Prod.mk.injEq] at h
      obtain ⟨rfl, rfl⟩ := h
      exact ⟨inc s, quiet_writeAddress f hw⟩
  · split at h
    · cases hw : View.writeAddress rows { s with col := 0 } with
      | ub => simp only [hw] at h; cases h
      | ok l =>
        simp only [hw, Res.bind_ok, Res.ok.injEq, Prod.mk.injEq] at h
        obtain ⟨rfl, rfl⟩ := h
        exact ⟨rfl, quiet_writeAddress f hw⟩
    · simp only [Res.ok.injEq, Prod.mk.injEq] at h
      obtain ⟨rfl, rfl⟩ := h
      refine ⟨incc s, fun x hx => ?_⟩
      simp only [List.mem_singleton] at hx
      subst hx
      exact ⟨(true, c), rfl, quiet_data f c⟩

theorem quiet_text {rows : Nat} (f : Flags) (t : List Nat) {s s' : View.State} {cs : List Call} (h : Writer.write rows s t = .ok (s', cs)) :
    s'.regs = s.regs ∧ ∀ c ∈ cs, QuietCall f c := by
  induction t generalizing s cs with
  | nil =>
    simp only [Writer.write, List.map_nil, View.run, Res.ok.injEq, Prod.mk.injEq] at h
    obtain ⟨rfl, rfl⟩ := h
    exact ⟨rfl, by simp⟩
  | cons x t ih =>
    simp only [Writer.write, List.map_cons, View.run, View.step] at h
    cases hw : View.write rows s x with
    | ub => simp only [hw] at h; cases h
    | ok p =>
      obtain ⟨s1, l1⟩ := p
      simp only [hw, Res.bind_ok] at h
      cases hr : View.run rows s1 (t.map .put) with
      | ub => simp only [hr] at h; cases h
      | ok q =>
        obtain ⟨s2, l2⟩ := q
        simp only [hr, Res.bind_ok, Res.ok.injEq, Prod.mk.injEq] at h
        obtain ⟨rfl, rfl⟩ := h
        obtain ⟨a1, a2⟩ := quiet_put f hw
        obtain ⟨b1, b2⟩ := ih (s := s1) (cs := l2) hr
        refine ⟨b1.trans a1, fun c hc => ?_⟩
        rcases List.mem_append.1 hc with hc | hc
        · exact a2 c hc
        · exact b2 c hc

/-- The virtual calls of a page without current control. -/
def PlainOut : Out → Prop
  | .write _ => True
  | .goTo _ _ => True
  | .setCursor r c _ => r = 255 ∧ c = 255
  | .undef => False

theorem quiet_call {rows : Nat} {f : Flags} (hf : f.cursor = false) {o : Out} (ho : PlainOut o) {s s' : View.State} {cs : List Call}
    (hr : Reads s.regs f) (h : UILcd.call rows s o = .ok (s', cs)) : Reads s'.regs f ∧ ∀ c ∈ cs, QuietCall f c := by
  cases o with
  | write t =>
    obtain ⟨a, b⟩ := quiet_text f _ h
    exact ⟨a ▸ hr, b⟩
  | goTo l c =>
    simp only [UILcd.call, Writer.goTo, View.setCursor] at h
    generalize hs : ({ s with row := if l = Writer.dontCare then s.row else l, col := if c = Writer.dontCare then s.col else c } : View.State) = s1 at h
    cases hw : View.writeAddress rows s1 with
    | ub => simp only [hw] at h; cases h
    | ok a =>
      simp only [hw, Res.bind_ok, Res.ok.injEq, Prod.mk.injEq] at h
      obtain ⟨rfl, rfl⟩ := h
      exact ⟨by rw [← hs]; exact hr, quiet_writeAddress f hw⟩
  | setCursor r c e =>
    obtain ⟨rfl, rfl⟩ := ho
    obtain ⟨r', b, e1, e2, -, -, e3⟩ := c42_setter s.regs f hr (.enableCursor false)
    simp only [UILcd.call, Writer.setCursor, Writer.dontCare, and_self, if_true, e1, Res.bind_ok, Res.ok.injEq, Prod.mk.injEq] at h
    obtain ⟨rfl, rfl⟩ := h
    have ef : setFlags f (.enableCursor false) = f := by cases f; simp_all [setFlags]
    rw [ef] at e2 e3
    refine ⟨e2, fun x hx => ?_⟩
    simp only [List.mem_singleton] at hx
    subst hx
    refine ⟨(false, b), rfl, fun d h1 h2 => ?_⟩
    show (exec d false b).showsDisplay f ∧ (exec d false b).shift = false ∧ (exec d false b).window = d.window
    rw [e3 d]
    exact ⟨⟨rfl, rfl, rfl⟩, h2, rfl⟩
  | undef => exact absurd ho id

theorem quiet_calls {rows : Nat} {f : Flags} (hf : f.cursor = false) (l : List Out) (hl : ∀ o ∈ l, PlainOut o) {s s' : View.State} {cs : List Call}
    (hr : Reads s.regs f) (h : UILcd.calls rows s l = .ok (s', cs)) : Reads s'.regs f ∧ ∀ c ∈ cs, QuietCall f c := by
  induction l generalizing s cs with
  | nil =>
    simp only [UILcd.calls, Res.ok.injEq, Prod.mk.injEq] at h
    obtain ⟨rfl, rfl⟩ := h
    exact ⟨hr, by simp⟩
  | cons o l ih =>
    simp only [UILcd.calls] at h
    cases hw : UILcd.call rows s o with
    | ub => simp only [hw] at h; cases h
    | ok p =>
      obtain ⟨s1, l1⟩ := p
      simp only [hw, Res.bind_ok] at h
      cases hq : UILcd.calls rows s1 l with
      | ub => simp only [hq] at h; cases h
      | ok q =>
        obtain ⟨s2, l2⟩ := q
        simp only [hq, Res.bind_ok, Res.ok.injEq, Prod.mk.injEq] at h
        obtain ⟨rfl, rfl⟩ := h
        obtain ⟨a1, a2⟩ := quiet_call hf (hl o (by simp)) hr hw
        obtain ⟨b1, b2⟩ := ih (fun o ho => hl o (by simp [ho])) a1 hq
        refine ⟨b1, fun c hc => ?_⟩
        rcases List.mem_append.1 hc with hc | hc
        · exact a2 c hc
        · exact b2 c hc

theorem quiet_execAll {f : Flags} (bs : List (Bool × Nat)) (hb : ∀ c ∈ bs.map toCall, QuietCall f c) (d : Device) (h : d.showsDisplay f)
    (hs : d.shift = false) : (execAll d bs).showsDisplay f ∧ (execAll d bs).shift = false ∧ (execAll d bs).window = d.window := by
  induction bs generalizing d with
  | nil => exact ⟨h, hs, rfl⟩
  | cons b bs ih =>
    obtain ⟨b', e, hq⟩ := hb (toCall b) (by simp)
    cases toCall_inj e
    obtain ⟨a1, a2, a3⟩ := hq d h hs
    obtain ⟨c1, c2, c3⟩ := ih (fun c hc => hb c (by simp [hc])) _ a1 a2
    exact ⟨c1, c2, c3.trans a3⟩

/-! ### Start -/

/-- The settings of the sketches: display on, no cursor, entry from the left without shift. -/
def sketchFlags : Flags := ⟨false, false, true, false, true⟩

/-- The program's view and the display agree, and the display shows `text`. -/
structure Shows (rows : Nat) (s : View.State) (d : Device) (z : Spec.Display.Screen) : Prop where
  aligned : Aligned d
  onLcd : OnLcd rows s d z
  none : z.cursor = none
  regs : Reads s.regs sketchFlags
  flags : d.showsDisplay sketchFlags
  shift : d.shift = false
  window : d.window = 0

/-- A clear screen. -/
def clearScreen : Spec.Display.Screen := ⟨0, 0, fun _ _ => 32, none⟩

theorem start_shows (rows : Nat) (h1 : 1 ≤ rows) (low : Nat → Nat) (amb : Nat → Bool) (d : Device) :
    ∃ s cs d', start rows = .ok (s, cs) ∧ receiveAll low amb 0 d (nibbles false cs) = some d' ∧ Shows rows s d' clearScreen := by
  have h0 : Reads (0 : Controller.Regs) ⟨false, false, false, false, false⟩ := by unfold Reads; decide
  obtain ⟨s1, cs1, d1, e1, r1, i1, sh⟩ := c41_view_partial low amb 0 d lcd
  obtain ⟨r1', b1, f1, f2, -, -, -⟩ := c42_setter (0 : Controller.Regs) _ h0 (.entryMode true false)
  have hs1 : s1 = { lcd with regs := r1' } ∧ cs1 = Controller.startUp true ++ [.command b1] := by
    have : View.startUp lcd true = .ok ({ lcd with regs := r1' }, Controller.startUp true ++ [.command b1]) := by
      simp only [View.startUp, if_true, lcd] at *
      rw [f1]
      rfl
    rw [e1] at this
    simpa using this
  obtain ⟨rfl, rfl⟩ := hs1
  obtain ⟨r2, b2, g1, g2, g3, g4, g5⟩ := c42_setter r1' _ f2 (.enableDisplay true)
  refine ⟨{ lcd with regs := r2 }, (Controller.startUp true ++ [.command b1]) ++ [.command b2], execAll d1 [(false, b2)], ?_, ?_, ?_⟩
  · have hst : ∀ x : View.State, x.regs = r1' → View.step rows x (.setting (.enableDisplay true)) = .ok ({ x with regs := r2 }, [.command b2]) := by
      intro x hx
      simp only [View.step, hx, g1, Res.bind_ok]
    simp only [start, View.run, View.step, e1, Res.bind_ok, g1]
    rfl
  · rw [show nibbles false ((Controller.startUp true ++ [.command b1]) ++ [.command b2]) =
      nibbles false (Controller.startUp true ++ [.command b1]) ++ nibbles false ([(false, b2)].map toCall) from rfl,
      receiveAll_append _ _ _ _ _ _ _ r1, receive_nibbles _ _ _ _ i1.1 _ _ (by simpa using ⟨g3, g4⟩)]
  · obtain ⟨j1, j2, j3, j4, j5, j6, j7⟩ := i1
    have ef : setFlags (setFlags ⟨false, false, false, false, false⟩ (.entryMode true false)) (.enableDisplay true) = sketchFlags := rfl
    rw [ef] at g2 g5
    have ee : execAll d1 [(false, b2)] = { d1 with on := true, cursor := false, blink := false } := g5 d1
    rw [ee]
    refine ⟨j1, ⟨⟨rfl, rfl, h1, by simp [clearScreen], fun _ => j3, j4, j7, j2, fun r c _ _ => ?_⟩, ⟨_, g2, rfl, rfl, rfl⟩, fun _ => rfl,
      fun _ _ _ h => by cases h⟩, rfl, g2, ⟨rfl, rfl, rfl⟩, sh, j6⟩
    show d1.ddram _ = toU 8 32
    rw [j5]
    show 32 = toU 8 32
    decide

/-- Virtual calls that fit, on a display that shows a screen. -/
theorem calls_shows (rows : Nat) (h1 : 1 ≤ rows) (h4 : rows ≤ 4) (l : List Out) (hl : ∀ o ∈ l, PlainOut o) (s : View.State) (d : Device)
    (z z' : Spec.Display.Screen) (h : Shows rows s d z) (hf : OutsFit rows z l) (hz : shows (some z) l = some z') (hn : z'.cursor = none) :
    ∃ s' bs, UILcd.calls rows s l = .ok (s', bs.map toCall) ∧ (∀ b ∈ bs, b.2 < 256 ∧ ¬ selects8 b) ∧ Shows rows s' (execAll d bs) z' := by
  obtain ⟨s', bs, z2, e, v, w, o⟩ := outs_onLcd rows h1 h4 l s d z h.onLcd hf
  rw [hz] at w
  cases w
  obtain ⟨q1, q2⟩ := quiet_calls (f := sketchFlags) rfl l hl h.regs e
  obtain ⟨x1, x2, x3⟩ := quiet_execAll bs q2 d h.flags h.shift
  refine ⟨s', bs, e, v, ⟨?_, o, hn, q1, x1, x2, x3.trans h.window⟩⟩
  clear e o q2 x1 x2 x3
  have := h.aligned
  clear h
  induction bs generalizing d with
  | nil => exact this
  | cons b bs ih =>
    exact ih (exec d b.1 b.2) (fun y hy => v y (by simp [hy])) ⟨exec_four _ _ _ this.1 (v b (by simp)).2, by rw [exec_half, this.2]⟩

theorem Shows.displays {rows : Nat} {s : View.State} {d : Device} {z : Spec.Display.Screen} (h : Shows rows s d z) (text : Nat → Nat → Nat)
    (ht : ∀ r c, toU 8 (z.text r c) = text r c) : Displays rows d text :=
  ⟨h.flags.1, h.flags.2.1, h.flags.2.2, h.window, fun r c hr hc => by rw [h.onLcd.tracks.text r c hr hc, ← ht]⟩

/-! ### A page of labels -/

/-- What a label draws. -/
def labelText (x : Label) : List Int := x.text.getD []

/-- A page whose lines are the given texts (whatever its own state). -/
structure IsPage (texts : List (List Nat)) (p : Page Label) : Prop where
  none : p.panel.cur = none
  kids : p.panel.kids = texts.mapIdx fun i t => { line t with pos := i }

theorem page_lines (rows : Nat) (h4 : rows ≤ 4) (texts : List (List Nat)) (h : texts.length ≤ rows) : IsPage texts (page rows texts) := by
  have key : ∀ (more done : List (List Nat)) (p : Page Label), (done ++ more).length ≤ rows → IsPage done p →
      IsPage (done ++ more) (more.foldl (fun p t => Page.add rows (line t) p) p) := by
    intro more
    induction more with
    | nil => intro done p _ hp; simpa using hp
    | cons t more ih =>
      intro done p hl hp
      have hlen : p.panel.kids.length = done.length := by rw [hp.kids]; simp
      simp only [List.length_append, List.length_cons] at hl
      have : IsPage (done ++ [t]) (Page.add rows (line t) p) := by
        have e : Page.add rows (line t) p = ⟨{ p.panel with kids := p.panel.kids ++ [{ line t with pos := done.length }] }⟩ := by
          have hc : done.length < rows := by omega
          have hm : done.length % 256 = done.length := by omega
          simp [Page.add, line, hlen, hc, hm]
        rw [e]
        refine ⟨hp.none, ?_⟩
        show p.panel.kids ++ _ = _
        rw [hp.kids, List.mapIdx_append]
        simp
      have := ih (done ++ [t]) _ (by simp; omega) this
      simpa [List.foldl_cons] using this
  have := key texts [] ⟨{ kind := .vertical, kids := [] }⟩ (by simpa using h) ⟨rfl, rfl⟩
  simpa [page] using this

theorem mem_lines {texts : List (List Nat)} {p : Page Label} (h : IsPage texts p) (l : Panel Label) :
    l ∈ p.panel.kids ↔ ∃ i t, texts[i]? = some t ∧ l = { line t with pos := i } := by
  rw [h.kids, List.mem_iff_getElem?]
  constructor
  · rintro ⟨i, hi⟩
    rw [List.getElem?_mapIdx] at hi
    cases ht : texts[i]? with
    | none => rw [ht] at hi; cases hi
    | some t =>
      rw [ht] at hi
      exact ⟨i, t, ht, by simpa using hi.symm⟩
  · rintro ⟨i, t, ht, rfl⟩
    exact ⟨i, by rw [List.getElem?_mapIdx, ht]; rfl⟩

theorem page_drawable {texts : List (List Nat)} {p : Page Label} (h : IsPage texts p) (hl : texts.length ≤ 4) : Drawable labelText p := by
  refine ⟨fun l hl => ?_, fun l h1 => ?_, fun l h1 k hk => ?_, fun l h1 k hk hh => ?_⟩
  all_goals obtain ⟨i, t, ht, rfl⟩ := (mem_lines h _).1 ‹_›
  · rfl
  · have := (List.getElem?_eq_some_iff.1 ht).1
    show i ≠ 255
    omega
  · simp only [line, List.mem_singleton] at hk
    subst hk
    show (0 : Nat) ≠ 255
    omega
  · simp only [line, List.mem_singleton] at hk
    subst hk
    exact Or.inl rfl

theorem not_current {texts : List (List Nat)} {p : Page Label} (h : IsPage texts p) (l : Panel Label) (k : Label) : ¬ Current p l k := by
  rintro ⟨i, j, c1, -⟩
  rw [h.none] at c1
  cases c1

theorem toUS (c : Nat) (h : c < 256) : toU 8 (toS 8 (c : Int)) = c := by
  unfold toU toS
  omega

theorem page_fitsLcd {rows : Nat} (h1 : 1 ≤ rows) (h4 : rows ≤ 4) {texts : List (List Nat)} {p : Page Label} (h : IsPage texts p) (hf : FitsPage rows texts) :
    FitsLcd rows labelText p := by
  have hcol : 0 < columns rows := by simp only [columns]; split <;> omega
  refine ⟨fun l hl _ => ?_, fun l hl k hk _ => ?_, fun l hl k hk _ => ?_, fun l k hc => absurd hc (not_current h l k)⟩
  all_goals obtain ⟨i, t, ht, rfl⟩ := (mem_lines h _).1 ‹_›
  · have := (List.getElem?_eq_some_iff.1 ht).1
    have := hf.1
    show i < rows
    omega
  all_goals
    have hft := hf.2 t (List.mem_of_getElem? ht)
    simp only [line, List.mem_singleton] at hk
    subst hk
  · refine ⟨hcol, ?_⟩
    show 0 + (t.map fun c : Nat => toS 8 c).length ≤ _
    simpa using hft.1
  · intro ch hch
    simp only [labelText, Option.getD_some, List.mem_map] at hch
    obtain ⟨c, hc, rfl⟩ := hch
    obtain ⟨-, c1, c2, c3⟩ := hft.2 c hc
    rw [toUS c c1]
    exact ⟨c2, c3⟩

theorem page_covers {texts : List (List Nat)} {p : Page Label} (h : IsPage texts p) (r c : Nat) (ch : Int) :
    Covers labelText p.panel.kids r c ch ↔ ∃ n, charAt texts r c = some n ∧ ch = toS 8 (n : Int) := by
  constructor
  · rintro ⟨l, hl, -, hr, k, hk, -, i, hi, hc⟩
    obtain ⟨j, t, ht, rfl⟩ := (mem_lines h l).1 hl
    simp only [line, List.mem_singleton] at hk
    subst hk
    have hj : j = r := hr
    have hi0 : c = i := by
      have : c = 0 + i := hc
      omega
    subst hj hi0
    simp only [labelText, Option.getD_some, List.getElem?_map] at hi
    cases hn : t[c]? with
    | none => rw [hn] at hi; cases hi
    | some n =>
      rw [hn] at hi
      exact ⟨n, by simp [charAt, ht, hn], by simpa using hi.symm⟩
  · rintro ⟨n, hn, rfl⟩
    unfold charAt at hn
    cases ht : texts[r]? with
    | none => rw [ht] at hn; cases hn
    | some t =>
      rw [ht] at hn
      simp only [Option.bind_some] at hn
      refine ⟨{ line t with pos := r }, (mem_lines h _).2 ⟨r, t, ht, rfl⟩, by simp [state, line], rfl, _, List.mem_singleton.2 rfl, by simp [state], c, ?_, ?_⟩
      · simp [labelText, hn]
      · show c = 0 + c
        omega

theorem page_plain {texts : List (List Nat)} {p : Page Label} (h : IsPage texts p) (m : Mode) : ∀ o ∈ display m p, PlainOut o := by
  intro o ho
  have ho : o ∈ Panel.displayVertical .normal p.panel ++ Page.displayCursor p.panel := ho
  rw [displayCursor_none (fun ⟨l, k, hc⟩ => not_current h l k hc)] at ho
  rcases List.mem_append.1 ho with ho | ho
  · have ho : o ∈ p.panel.kids.flatMap fun l => if state l == .hidden then [] else .goTo (pos l) 0 :: display .normal l := ho
    obtain ⟨l, hl, ho⟩ := List.mem_flatMap.1 ho
    obtain ⟨i, t, ht, rfl⟩ := (mem_lines h l).1 hl
    have : o ∈ [Out.goTo i 0, .goTo dontCare 0, .write (t.map fun c : Nat => toS 8 c)] := ho
    simp only [List.mem_cons, List.not_mem_nil, or_false] at this
    rcases this with rfl | rfl | rfl <;> trivial
  · simp only [List.mem_singleton] at ho
    subst ho
    exact ⟨rfl, rfl⟩

/-- Showing a page writes it over what the display shows. -/
theorem page_shows (rows : Nat) (h1 : 1 ≤ rows) (h4 : rows ≤ 4) (texts : List (List Nat)) (hf : FitsPage rows texts) (p : Page Label)
    (hp : IsPage texts p) (m : Mode) (s : View.State) (d : Device) (z : Spec.Display.Screen) (h : Shows rows s d z) :
    ∃ s' bs z', UILcd.calls rows s (display m p) = .ok (s', bs.map toCall) ∧ (∀ b ∈ bs, b.2 < 256 ∧ ¬ selects8 b) ∧ Shows rows s' (execAll d bs) z' ∧
      ∀ r c, toU 8 (z'.text r c) = (charAt texts r c).getD (toU 8 (z.text r c)) := by
  have hdr := page_drawable hp (by have := hf.1; omega)
  obtain ⟨z', w, pt, -, pn⟩ := display_total hdr (fun l k hc => absurd hc (not_current hp l k)) m z
  obtain ⟨s', bs, e, v, sh⟩ := calls_shows rows h1 h4 _ (page_plain hp m) s d z z' h
    (page_fits rows h1 labelText p hdr (page_fitsLcd h1 h4 hp hf) (fun l k hc => absurd hc (not_current hp l k)) m z) w
    (pn fun ⟨l, k, hc⟩ => not_current hp l k hc)
  refine ⟨s', bs, z', e, v, sh, fun r c => ?_⟩
  rcases pt r c with ⟨ch, hc, et⟩ | ⟨hn, et⟩
  · obtain ⟨n, hn, rfl⟩ := (page_covers hp r c ch).1 hc
    rw [et, hn, Option.getD_some, toUS]
    unfold charAt at hn
    cases ht : texts[r]? with
    | none => rw [ht] at hn; cases hn
    | some t =>
      rw [ht] at hn
      exact ((hf.2 t (List.mem_of_getElem? ht)).2 n (List.mem_of_getElem? hn)).2.1
  · rw [et]
    cases hc : charAt texts r c with
    | none => rfl
    | some n => exact absurd ((page_covers hp r c _).2 ⟨n, hc, rfl⟩) (hn _)

/-! ### The controller -/

/-- The controller holds these pages and shows number `i`. -/
structure Holds (pages : List (List (List Nat))) (p : Panel (Page Label)) : Prop where
  kind : p.kind = .controller
  length : p.kids.length = pages.length
  page : ∀ i q, p.kids[i]? = some q → IsPage (pages.getD i []) q

theorem page_isInput (q : Page Label) : isOfType tInput q = true := by
  show pageIs tInput = true
  decide

theorem scan_hit (kids : List (Page Label)) (i : Nat) (h : i < kids.length) (f : Nat) : Panel.scanUp kids tInput (f + 1) (i : Int) = some i := by
  have hc : (0 : Int) ≤ i ∧ (i : Int) < kids.length := by omega
  simp only [Panel.scanUp, if_pos hc, Int.toNat_natCast, List.getElem?_eq_getElem h, dynamicCast, page_isInput, if_true]

theorem scan_miss (kids : List (Page Label)) (i : Int) (h : ¬ (0 ≤ i ∧ i < kids.length)) (f : Nat) : Panel.scanUp kids tInput f i = none := by
  cases f with
  | zero => rfl
  | succ f => simp only [Panel.scanUp, if_neg h]

theorem setState_keeps {texts : List (List Nat)} {q : Page Label} (h : IsPage texts q) (st : CState) : IsPage texts (setState st q).2 := by
  show IsPage texts ⟨(Panel.set st q.panel).2⟩
  unfold Panel.set
  split
  · exact ⟨h.none, h.kids⟩
  · exact h

theorem setKid_holds {pages : List (List (List Nat))} {p : Panel (Page Label)} (h : Holds pages p) (i : Nat) (st : CState) :
    Holds pages (Panel.setKid i st p) := by
  refine ⟨h.kind, by simpa [Panel.setKid] using h.length, fun j q hq => ?_⟩
  simp only [Panel.setKid, List.getElem?_modify] at hq
  cases hk : p.kids[j]? with
  | none => rw [hk] at hq; simp at hq
  | some q0 =>
    rw [hk] at hq
    have := h.page j q0 hk
    by_cases hij : i = j
    · simp only [hij, if_true, Option.map_eq_map, Option.map_some, Option.some.injEq] at hq
      subst hq
      exact setState_keeps this st
    · simp only [hij, if_false, Option.map_eq_map, Option.map_some, Option.some.injEq] at hq
      subst hq
      exact this

theorem set_holds {pages : List (List (List Nat))} {p : Panel (Page Label)} (h : Holds pages p) (st : CState) :
    Holds pages (Panel.set st p).2 ∧ (Panel.set st p).2.cur = p.cur := by
  unfold Panel.set
  split
  · exact ⟨⟨h.kind, h.length, h.page⟩, rfl⟩
  · exact ⟨h, rfl⟩

theorem setCurrent_holds {pages : List (List (List Nat))} {p : Panel (Page Label)} (h : Holds pages p) (i : Nat) :
    Holds pages (Panel.setCurrent (some i) p) ∧ (Panel.setCurrent (some i) p).cur = some i := by
  unfold Panel.setCurrent
  have key : ∀ p1 : Panel (Page Label), Holds pages p1 →
      Holds pages (Panel.set .focused (Panel.setKid i .focused { p1 with cur := some i })).2 ∧
      (Panel.set .focused (Panel.setKid i .focused { p1 with cur := some i })).2.cur = some i := by
    intro p1 h1
    have h2 : Holds pages { p1 with cur := some i } := ⟨h1.kind, h1.length, h1.page⟩
    obtain ⟨a, b⟩ := set_holds (setKid_holds h2 i .focused) .focused
    exact ⟨a, by rw [b]; rfl⟩
  cases p.cur with
  | none => exact key p h
  | some j => exact key _ (set_holds (setKid_holds h j .normal) .normal).1

theorem first_holds {pages : List (List (List Nat))} {p : Panel (Page Label)} (h : Holds pages p) (h0 : 0 < pages.length) :
    (Panel.setFirst p).1 = true ∧ Holds pages (Panel.setFirst p).2 ∧ (Panel.setFirst p).2.cur = some 0 := by
  have e : Panel.getNext p (-1) tInput = some 0 := by
    have hl : p.kids.length > 0 := by rw [h.length]; exact h0
    simp only [Panel.getNext, ne_eq, not_true_eq_false, if_false, if_pos hl]
    exact scan_hit p.kids 0 hl 199
  unfold Panel.setFirst
  rw [e]
  exact ⟨rfl, setCurrent_holds h 0⟩

/-- The statements of `loop` before `Display`. -/
theorem turn_holds {pages : List (List (List Nat))} {p : Panel (Page Label)} (h : Holds pages p) (h0 : 0 < pages.length) (h127 : pages.length ≤ 127)
    (i : Nat) (hi : i < pages.length) (hc : p.cur = some i) :
    Holds pages (if !(Panel.setNext p).1 then (Panel.setFirst (Panel.setNext p).2).2 else (Panel.setNext p).2) ∧
    (if !(Panel.setNext p).1 then (Panel.setFirst (Panel.setNext p).2).2 else (Panel.setNext p).2).cur = some ((i + 1) % pages.length) := by
  have hidx : p.indexOf = (i : Int) := by
    simp only [Panel.indexOf, hc]
    unfold toS
    omega
  have hs : toS 8 ((i : Int) + 1) = if i = 127 then -128 else ((i + 1 : Nat) : Int) := by
    unfold toS
    split_ifs <;> omega
  have hne : ¬ (i : Int) = -1 := by omega
  by_cases hl : i + 1 < pages.length
  · have e : Panel.getNext p p.indexOf tInput = some (i + 1) := by
      have : i ≠ 127 := by omega
      simp only [Panel.getNext, hidx, ne_eq, hne, not_false_eq_true, if_true, hs, if_neg this]
      exact scan_hit p.kids (i + 1) (by rw [h.length]; exact hl) 199
    have e2 : Panel.setNext p = (true, Panel.setCurrent (some (i + 1)) p) := by unfold Panel.setNext; rw [e]
    simp only [e2, Bool.not_true, Bool.false_eq_true, if_false]
    rw [Nat.mod_eq_of_lt hl]
    exact setCurrent_holds h (i + 1)
  · have e : Panel.getNext p p.indexOf tInput = none := by
      have : i ≠ 127 := by omega
      simp only [Panel.getNext, hidx, ne_eq, hne, not_false_eq_true, if_true, hs, if_neg this]
      exact scan_miss p.kids _ (by rw [h.length]; omega) 200
    have e2 : Panel.setNext p = (false, p) := by unfold Panel.setNext; rw [e]
    simp only [e2, Bool.not_false, if_true]
    rw [show i + 1 = pages.length by omega, Nat.mod_self]
    exact (first_holds h h0).2

theorem controller_display {pages : List (List (List Nat))} {p : Panel (Page Label)} (h : Holds pages p) (i : Nat) (hi : i < pages.length)
    (hc : p.cur = some i) (m : Mode) : ∃ q, IsPage (pages.getD i []) q ∧ display m p = display m q := by
  have hl : i < p.kids.length := by rw [h.length]; exact hi
  have hk : p.kids[i]? = some p.kids[i] := List.getElem?_eq_getElem hl
  refine ⟨p.kids[i], h.page i _ hk, ?_⟩
  show (match p.kind with
    | .horizontal => Panel.displayHorizontal m p
    | .vertical => Panel.displayVertical m p
    | _ => Panel.displayCurrent m p) = _
  rw [h.kind]
  simp only [Panel.displayCurrent, hc, Option.bind_some, hk]

/-! ### The programs -/

theorem nibbles_append (l : List Call) (rs : Bool) (m : List Call) : ∃ rs', nibbles rs (l ++ m) = nibbles rs l ++ nibbles rs' m := by
  induction l generalizing rs with
  | nil => exact ⟨rs, rfl⟩
  | cons c l ih =>
    cases c with
    | write4 n => obtain ⟨r, h⟩ := ih rs; exact ⟨r, by simp [nibbles, h]⟩
    | command n => obtain ⟨r, h⟩ := ih false; exact ⟨r, by simp [nibbles, h]⟩
    | data n => obtain ⟨r, h⟩ := ih true; exact ⟨r, by simp [nibbles, h]⟩

/-- Bytes sent after a sequence that left the display at a byte boundary are executed. -/
theorem receive_more {low : Nat → Nat} {amb : Nat → Bool} {d d1 : Device} {cs : List Call} (hd : Aligned d1)
    (h : receiveAll low amb 0 d (nibbles false cs) = some d1) (bs : List (Bool × Nat)) (hb : ∀ b ∈ bs, b.2 < 256 ∧ ¬ selects8 b) :
    receiveAll low amb 0 d (nibbles false (cs ++ bs.map toCall)) = some (execAll d1 bs) := by
  obtain ⟨rs, hn⟩ := nibbles_append cs false (bs.map toCall)
  rw [hn, receiveAll_append _ _ _ _ _ _ _ h, receive_nibbles _ _ _ _ hd _ _ hb]

/-- **C103.** The PageController example, with 1 to 127 pages of texts that fit a display of 1 to 4 rows, wired to a display in any state: after `setup` and
    `k` rounds of `loop` the display is on, without cursor and not scrolled, and shows page `k` modulo the number of pages written over the pages
    shown before. -/
theorem c103_pages (rows : Nat) (h1 : 1 ≤ rows) (h4 : rows ≤ 4) (pages : List (List (List Nat))) (h0 : 0 < pages.length) (h127 : pages.length ≤ 127)
    (hf : ∀ p ∈ pages, FitsPage rows p) (d : Device) (a : Lines) (he : a.e = true) (hw : a.rw = false) (hrs : a.rs = false)
    (low : Nat → Nat) (amb : Nat → Bool) (k : Nat) :
    ∃ x cs d', program rows pages k = .ok (x, cs) ∧ receiveAll low amb 0 d (latches a (Parallel.levels a (Parallel.calls cs))) = some d' ∧
      Displays rows d' (shown pages k) := by
  have fit : ∀ i, i < pages.length → FitsPage rows (pages.getD i []) := by
    intro i hi
    rw [List.getD_eq_getElem?_getD, List.getElem?_eq_getElem hi]
    exact hf _ (List.getElem_mem hi)
  have main : ∃ x cs d', program rows pages k = .ok (x, cs) ∧ receiveAll low amb 0 d (nibbles false cs) = some d' ∧ Holds pages x.pages ∧
      x.pages.cur = some (k % pages.length) ∧ ∃ z, Shows rows x.lcd d' z ∧ ∀ r c, toU 8 (z.text r c) = shown pages k r c := by
    induction k with
    | zero =>
      obtain ⟨s, cs, d1, e1, r1, sh⟩ := start_shows rows h1 low amb d
      have hh : Holds pages (controller rows pages) := by
        refine ⟨rfl, by simp [controller], fun i q hq => ?_⟩
        simp only [controller, List.getElem?_map] at hq
        cases hi : pages[i]? with
        | none => rw [hi] at hq; cases hq
        | some t =>
          rw [hi] at hq
          simp only [Option.map_some, Option.some.injEq] at hq
          subst hq
          rw [List.getD_eq_getElem?_getD, hi]
          exact page_lines rows h4 t (hf t (List.mem_of_getElem? hi)).1
      obtain ⟨-, f2, f3⟩ := first_holds hh h0
      obtain ⟨q, q1, q2⟩ := controller_display f2 0 h0 f3 .normal
      obtain ⟨s', bs, z', e2, v, sh', ht⟩ := page_shows rows h1 h4 _ (fit 0 h0) q q1 .normal s d1 clearScreen sh
      have rec1 := receive_more sh.aligned r1
      refine ⟨⟨(Panel.setFirst (controller rows pages)).2, s'⟩, cs ++ bs.map toCall, execAll d1 bs, ?_, rec1 bs v, f2, ?_, ⟨z', sh', fun r c => ?_⟩⟩
      · simp only [program, setup, e1, Res.bind_ok, q2, e2]
      · rw [Nat.zero_mod]; exact f3
      · rw [ht r c]
        rfl
    | succ k ih =>
      obtain ⟨x, cs, d1, e1, r1, hh, hc, z, sh, ht⟩ := ih
      have rec1 := receive_more sh.aligned r1
      obtain ⟨f2, f3⟩ := turn_holds hh h0 h127 _ (Nat.mod_lt k h0) hc
      have hm : (k % pages.length + 1) % pages.length = (k + 1) % pages.length := by rw [Nat.mod_add_mod]
      rw [hm] at f3
      obtain ⟨q, q1, q2⟩ := controller_display f2 _ (Nat.mod_lt _ h0) f3 .normal
      obtain ⟨s', bs, z', e2, v, sh', ht'⟩ := page_shows rows h1 h4 _ (fit _ (Nat.mod_lt _ h0)) q q1 .normal x.lcd d1 z sh
      refine ⟨⟨if !(Panel.setNext x.pages).1 then (Panel.setFirst (Panel.setNext x.pages).2).2 else (Panel.setNext x.pages).2, s'⟩,
        cs ++ bs.map toCall, execAll d1 bs, ?_, rec1 bs v, f2, f3, ⟨z', sh', fun r c => ?_⟩⟩
      · simp only [program, e1, Res.bind_ok, loop, q2, e2]
      · rw [ht' r c, ht r c]
        rfl
  obtain ⟨x, cs, d', e1, r1, -, -, z, sh, ht⟩ := main
  exact ⟨x, cs, d', e1, by rw [Parallel.calls_spec a he hw, hrs]; exact r1, sh.displays _ ht⟩

example := c103_pages 2 (by decide) (by decide) [[[65, 66], [67]], [[68]]] (by decide) (by decide)
  (by simp [FitsPage, FitsLine, columns]) powerUp ⟨false, false, true, true, false, true, true⟩ rfl rfl rfl (fun _ => 0) (fun _ => false) 5

theorem shown_alone (pages : List (List (List Nat))) (h0 : 0 < pages.length)
    (hs : ∀ p ∈ pages, ∀ q ∈ pages, ∀ r c, (charAt p r c).isSome = (charAt q r c).isSome) (k r c : Nat) :
    shown pages k r c = alone (pages.getD (k % pages.length) []) r c := by
  have mem : ∀ i, pages.getD (i % pages.length) [] ∈ pages := fun i => by
    have := Nat.mod_lt i h0
    rw [List.getD_eq_getElem?_getD, List.getElem?_eq_getElem this]
    exact List.getElem_mem this
  induction k with
  | zero => simp [shown, alone]
  | succ k ih =>
    have := hs _ (mem (k + 1)) _ (mem k) r c
    simp only [shown, ih, alone]
    cases h : charAt (pages.getD ((k + 1) % pages.length) []) r c with
    | some n => rfl
    | none =>
      rw [h] at this
      cases h' : charAt (pages.getD (k % pages.length) []) r c with
      | some n => rw [h'] at this; cases this
      | none => rfl

/-- **C103.** When all pages have texts in the same places, as in the example, the display shows exactly the current page. -/
theorem c103_current_page (rows : Nat) (h1 : 1 ≤ rows) (h4 : rows ≤ 4) (pages : List (List (List Nat))) (h0 : 0 < pages.length)
    (h127 : pages.length ≤ 127) (hf : ∀ p ∈ pages, FitsPage rows p)
    (hs : ∀ p ∈ pages, ∀ q ∈ pages, ∀ r c, (charAt p r c).isSome = (charAt q r c).isSome) (d : Device) (a : Lines) (he : a.e = true)
    (hw : a.rw = false) (hrs : a.rs = false) (low : Nat → Nat) (amb : Nat → Bool) (k : Nat) :
    ∃ x cs d', program rows pages k = .ok (x, cs) ∧ receiveAll low amb 0 d (latches a (Parallel.levels a (Parallel.calls cs))) = some d' ∧
      Displays rows d' (alone (pages.getD (k % pages.length) [])) := by
  obtain ⟨x, cs, d', e, r, h⟩ := c103_pages rows h1 h4 pages h0 h127 hf d a he hw hrs low amb k
  exact ⟨x, cs, d', e, r, ⟨h.on, h.cursor, h.blink, h.window, fun r c hr hc => by rw [h.text r c hr hc, shown_alone pages h0 hs]⟩⟩

example := c103_current_page 2 (by decide) (by decide) [[[65], [66]], [[67], [68]]] (by decide) (by decide) (by simp [FitsPage, FitsLine, columns])
  (by
    intro p hp q hq r c
    simp only [List.mem_cons, List.not_mem_nil, or_false] at hp hq
    rcases hp with rfl | rfl <;> rcases hq with rfl | rfl <;> rcases r with _ | _ | r <;> rcases c with _ | c <;> rfl) powerUp ⟨false, false, true, true, false, true, true⟩ rfl rfl rfl (fun _ => 0) (fun _ => false) 5

/-- The pages of PageController.ino: "Line 1" and "Line 2", "Line 3" and "Line 4". -/
def examplePages : List (List (List Nat)) :=
  [[[76, 105, 110, 101, 32, 49], [76, 105, 110, 101, 32, 50]], [[76, 105, 110, 101, 32, 51], [76, 105, 110, 101, 32, 52]]]

theorem fitsPage_iff (rows : Nat) (p : List (List Nat)) : FitsPage rows p ↔
    p.length ≤ rows ∧ ∀ t ∈ p, t.length ≤ columns rows ∧ ∀ c ∈ t, 0 < c ∧ c < 256 ∧ c ≠ 10 ∧ c ≠ 13 := Iff.rfl

/-- **C103.** The example itself: in every round of `loop` the display shows the two lines of the page whose turn it is and blanks elsewhere. -/
theorem c103_example (d : Device) (a : Lines) (he : a.e = true) (hw : a.rw = false) (hrs : a.rs = false) (low : Nat → Nat) (amb : Nat → Bool) (k : Nat) :
    ∃ x cs d', program 2 examplePages k = .ok (x, cs) ∧ receiveAll low amb 0 d (latches a (Parallel.levels a (Parallel.calls cs))) = some d' ∧
      Displays 2 d' (alone [[76, 105, 110, 101, 32, if k % 2 = 0 then 49 else 51], [76, 105, 110, 101, 32, if k % 2 = 0 then 50 else 52]]) := by
  have hs : ∀ p ∈ examplePages, ∀ q ∈ examplePages, ∀ r c, (charAt p r c).isSome = (charAt q r c).isSome := by
    have key : ∀ p ∈ examplePages, ∀ r c, (charAt p r c).isSome = decide (r < 2 ∧ c < 6) := by
      intro p hp r c
      simp only [examplePages, List.mem_cons, List.not_mem_nil, or_false] at hp
      rcases hp with rfl | rfl <;>
      · rcases r with _ | _ | r
        · rcases c with _ | _ | _ | _ | _ | _ | c <;> simp [charAt]
        · rcases c with _ | _ | _ | _ | _ | _ | c <;> simp [charAt]
        · simp [charAt]
    intro p hp q hq r c
    rw [key p hp, key q hq]
  have hf : ∀ p ∈ examplePages, FitsPage 2 p := by simp only [fitsPage_iff]; decide
  obtain ⟨x, cs, d', e, r, h⟩ := c103_current_page 2 (by omega) (by omega) examplePages (by decide) (by decide) hf hs d a he hw hrs low amb k
  refine ⟨x, cs, d', e, r, ?_⟩
  have : examplePages.getD (k % examplePages.length) [] =
      [[76, 105, 110, 101, 32, if k % 2 = 0 then 49 else 51], [76, 105, 110, 101, 32, if k % 2 = 0 then 50 else 52]] := by
    have : k % 2 = 0 ∨ k % 2 = 1 := by omega
    show examplePages.getD (k % 2) [] = _
    rcases this with h | h <;> rw [h] <;> rfl
  rwa [this] at h

example := c103_example powerUp ⟨false, false, true, true, false, true, true⟩ rfl rfl rfl (fun _ => 0) (fun _ => false) 5

/-- Two pages, "Wait" and "Go". -/
def shortPages : List (List (List Nat)) := [[[87, 97, 105, 116]], [[71, 111]]]

/-- **C103 fails** for pages with texts of different length: `PageController::Display` does not clear the display, so "Go" after "Wait" reads "Goit". -/
theorem c103_leftover_fails (d : Device) (a : Lines) (he : a.e = true) (hw : a.rw = false) (hrs : a.rs = false) (low : Nat → Nat) (amb : Nat → Bool) :
    ∃ x cs d', program 2 shortPages 1 = .ok (x, cs) ∧ receiveAll low amb 0 d (latches a (Parallel.levels a (Parallel.calls cs))) = some d' ∧
      (List.range 5).map (fun c => d'.ddram (cell 0 c)) = [71, 111, 105, 116, 32] ∧ ¬ Displays 2 d' (alone [[71, 111]]) := by
  obtain ⟨x, cs, d', e, r, h⟩ := c103_pages 2 (by omega) (by omega) shortPages (by decide) (by decide)
    (by simp only [fitsPage_iff]; decide) d a he hw hrs low amb 1
  refine ⟨x, cs, d', e, r, ?_, fun h' => ?_⟩
  · have t : ∀ c, c < 40 → d'.ddram (cell 0 c) = shown shortPages 1 0 c := fun c hc => h.text 0 c (by omega) hc
    simp only [List.range_succ, List.range_zero, List.nil_append, List.cons_append, List.map_cons, List.map_nil]
    rw [t 0 (by omega), t 1 (by omega), t 2 (by omega), t 3 (by omega), t 4 (by omega)]
    decide
  · have e1 := h.text 0 2 (by omega) (by decide)
    have e2 := h'.text 0 2 (by omega) (by decide)
    rw [e1] at e2
    exact absurd e2 (by decide)

/-- Without calls of `SetCursor` the two display writers do the same. -/
theorem sample_same (rows : Nat) (l : List Out) (hl : ∀ o ∈ l, ∀ r c e, o ≠ .setCursor r c e) (s : View.State) :
    sampleCalls rows s l = UILcd.calls rows s l := by
  induction l generalizing s with
  | nil => rfl
  | cons o l ih =>
    have e : sampleCall rows s o = UILcd.call rows s o := by
      cases o with
      | setCursor r c e => exact absurd rfl (hl _ (by simp) r c e)
      | _ => rfl
    simp only [sampleCalls, UILcd.calls, e, ih fun o ho => hl o (by simp [ho])]

theorem sample_last (rows : Nat) (l : List Out) (r c : Nat) (e : Bool) (s : View.State) :
    sampleCalls rows s (l ++ [.setCursor r c e]) = sampleCalls rows s l := by
  induction l generalizing s with
  | nil => rfl
  | cons o l ih => simp only [List.cons_append, sampleCalls, ih]

theorem fits_prefix {rows : Nat} (l m : List Out) (z : Spec.Display.Screen) (h : OutsFit rows z (l ++ m)) : OutsFit rows z l := by
  induction l generalizing z with
  | nil => trivial
  | cons o l ih => exact ⟨h.1, fun z' hz => ih z' (h.2 z' hz)⟩

/-- Showing a page with the example's own display writer. -/
theorem page_shows_sample (rows : Nat) (h1 : 1 ≤ rows) (h4 : rows ≤ 4) (texts : List (List Nat)) (hf : FitsPage rows texts) (p : Page Label)
    (hp : IsPage texts p) (m : Mode) (s : View.State) (d : Device) (z : Spec.Display.Screen) (h : Shows rows s d z) :
    ∃ s' bs z', sampleCalls rows s (display m p) = .ok (s', bs.map toCall) ∧ (∀ b ∈ bs, b.2 < 256 ∧ ¬ selects8 b) ∧ Shows rows s' (execAll d bs) z' ∧
      ∀ r c, toU 8 (z'.text r c) = (charAt texts r c).getD (toU 8 (z.text r c)) := by
  have hdr := page_drawable hp (by have := hf.1; omega)
  have hd : display m p = Panel.displayVertical .normal p.panel ++ [.setCursor dontCare dontCare false] := by
    show Panel.displayVertical .normal p.panel ++ Page.displayCursor p.panel = _
    rw [displayCursor_none (fun ⟨l, k, hc⟩ => not_current hp l k hc)]
  have hq : ∀ o ∈ Panel.displayVertical .normal p.panel, PlainOut o ∧ ∀ r c e, o ≠ .setCursor r c e := by
    intro o ho
    have ho : o ∈ p.panel.kids.flatMap fun l => if state l == .hidden then [] else .goTo (pos l) 0 :: display .normal l := ho
    obtain ⟨l, hl, ho⟩ := List.mem_flatMap.1 ho
    obtain ⟨i, t, ht, rfl⟩ := (mem_lines hp l).1 hl
    have : o ∈ [Out.goTo i 0, .goTo dontCare 0, .write (t.map fun c : Nat => toS 8 c)] := ho
    simp only [List.mem_cons, List.not_mem_nil, or_false] at this
    rcases this with rfl | rfl | rfl <;> exact ⟨trivial, fun _ _ _ h => by cases h⟩
  obtain ⟨z', w, pt, -, -⟩ := display_total hdr (fun l k hc => absurd hc (not_current hp l k)) m z
  have hfit := page_fits rows h1 labelText p hdr (page_fitsLcd h1 h4 hp hf) (fun l k hc => absurd hc (not_current hp l k)) m z
  have hcur : ∀ (l : List Out) (z z' : Spec.Display.Screen), (∀ o ∈ l, ∀ r c e, o ≠ .setCursor r c e) → shows (some z) l = some z' →
      z'.cursor = z.cursor := by
    have hw : ∀ (t : List Int) (z : Spec.Display.Screen), (z.write t).cursor = z.cursor := by
      intro t
      induction t with
      | nil => intro z; rfl
      | cons x t ih => intro z; exact ih (z.put x)
    have hu : ∀ l : List Out, shows none l = none := by
      intro l
      induction l with
      | nil => rfl
      | cons o l ih => cases o <;> exact ih
    intro l
    induction l with
    | nil => intro z z' _ e; cases e; rfl
    | cons o l ih =>
      intro z z' ho e
      cases o with
      | write t => exact (ih _ _ (fun o h => ho o (by simp [h])) e).trans (hw t z)
      | goTo r c => exact ih (z.goTo (coord r) (coord c)) _ (fun o h => ho o (by simp [h])) e
      | setCursor r c b => exact absurd rfl (ho _ (by simp) r c b)
      | undef => rw [show shows (some z) (.undef :: l) = shows none l from rfl, hu] at e; cases e
  rw [hd] at w hfit
  have w' : show1 (shows (some z) (Panel.displayVertical .normal p.panel)) (.setCursor dontCare dontCare false) = some z' := by
    simpa [shows] using w
  cases hz1 : shows (some z) (Panel.displayVertical .normal p.panel) with
  | none => rw [hz1] at w'; cases w'
  | some z1 =>
    rw [hz1] at w'
    have ht : z'.text = z1.text := by
      have : some (z1.setCursor (coord dontCare) (coord dontCare) false) = some z' := w'
      cases this
      rfl
    obtain ⟨s', bs, e, v, sh⟩ := calls_shows rows h1 h4 _ (fun o ho => (hq o ho).1) s d z z1 h (fits_prefix _ _ _ hfit) hz1
      ((hcur _ _ _ (fun o ho => (hq o ho).2) hz1).trans h.none)
    refine ⟨s', bs, z1, ?_, v, sh, fun r c => ?_⟩
    · rw [hd, sample_last, sample_same rows _ (fun o ho => (hq o ho).2)]
      exact e
    rw [← ht]
    rcases pt r c with ⟨ch, hc, et⟩ | ⟨hn, et⟩
    · obtain ⟨n, hn, rfl⟩ := (page_covers hp r c ch).1 hc
      rw [et, hn, Option.getD_some, toUS]
      unfold charAt at hn
      cases ht : texts[r]? with
      | none => rw [ht] at hn; cases hn
      | some t =>
        rw [ht] at hn
        exact ((hf.2 t (List.mem_of_getElem? ht)).2 n (List.mem_of_getElem? hn)).2.1
    · rw [et]
      cases hc : charAt texts r c with
      | none => rfl
      | some n => exact absurd ((page_covers hp r c _).2 ⟨n, hc, rfl⟩) (hn _)

/-- **C103.** The Page example with any page that fits: the display shows exactly that page. -/
theorem c103_page (rows : Nat) (h1 : 1 ≤ rows) (h4 : rows ≤ 4) (texts : List (List Nat)) (hf : FitsPage rows texts) (d : Device) (a : Lines)
    (he : a.e = true) (hw : a.rw = false) (hrs : a.rs = false) (low : Nat → Nat) (amb : Nat → Bool) :
    ∃ s cs d', onePage rows texts = .ok (s, cs) ∧ receiveAll low amb 0 d (latches a (Parallel.levels a (Parallel.calls cs))) = some d' ∧
      Displays rows d' (alone texts) := by
  obtain ⟨s, cs, d1, e1, r1, sh⟩ := start_shows rows h1 low amb d
  obtain ⟨s', bs, z', e2, v, sh', ht⟩ := page_shows_sample rows h1 h4 texts hf _ (page_lines rows h4 texts hf.1) .normal s d1 clearScreen sh
  refine ⟨s', cs ++ bs.map toCall, execAll d1 bs, by simp only [onePage, e1, e2, Res.bind_ok], ?_, sh'.displays _ fun r c => ht r c⟩
  rw [Parallel.calls_spec a he hw, hrs]
  exact receive_more sh.aligned r1 bs v

example := c103_page 2 (by decide) (by decide) [[65, 66], [67]] ⟨by decide, by simp [FitsLine, columns]⟩ powerUp ⟨false, false, true, true, false, true, true⟩ rfl rfl rfl (fun _ => 0) (fun _ => false)

/-! ### Hello World -/

theorem writeStr_text (text : List Nat) (h : ∀ c ∈ text, 0 < c) : Text.writeStr (text ++ [0]) = .ok text := by
  induction text with
  | nil => rfl
  | cons c t ih =>
    have hc : c ≠ 0 := by have := h c (by simp); omega
    simp only [List.cons_append, Text.writeStr, if_neg hc, ih fun x hx => h x (by simp [hx]), Res.bind_ok]

theorem line_text (text : List Nat) (h : ∀ c ∈ text, 0 < c) : Text.withLine {} (Text.writeStr (text ++ [0])) = .ok (text ++ [10, 13]) := by
  simp only [Text.withLine, writeStr_text text h, Res.bind_ok, Text.writeLine]
  rfl

theorem chars_run (text : List Nat) (z : Screen) (r c : Nat) :
    (z.run (text.map .char)).row = z.row ∧ (z.run (text.map .char)).col = z.col + text.length ∧
    (z.run (text.map .char)).text r c = if r = z.row ∧ z.col ≤ c ∧ c < z.col + text.length then (text[c - z.col]?).getD (z.text r c) else z.text r c := by
  induction text generalizing z with
  | nil =>
    refine ⟨rfl, rfl, ?_⟩
    have : ¬ (r = z.row ∧ z.col ≤ c ∧ c < z.col + 0) := by omega
    simp only [List.length_nil, if_neg this]
    rfl
  | cons x text ih =>
    obtain ⟨a1, a2, a3⟩ := ih (z.step (.char x))
    have e : ∀ l, z.run ((x :: l).map .char) = (z.step (.char x)).run (l.map .char) := fun _ => rfl
    rw [e]
    refine ⟨a1, ?_, ?_⟩
    · rw [a2]
      simp only [Screen.step, List.length_cons]
      omega
    · rw [a3]
      show (if r = z.row ∧ z.col + 1 ≤ c ∧ c < z.col + 1 + text.length then
          (text[c - (z.col + 1)]?).getD (if r = z.row ∧ c = z.col then x else z.text r c) else if r = z.row ∧ c = z.col then x else z.text r c) =
        if r = z.row ∧ z.col ≤ c ∧ c < z.col + (text.length + 1) then ((x :: text)[c - z.col]?).getD (z.text r c) else z.text r c
      by_cases h1 : r = z.row ∧ c = z.col
      · obtain ⟨rfl, rfl⟩ := h1
        have n1 : ¬ (True ∧ z.col + 1 ≤ z.col ∧ z.col < z.col + 1 + text.length) := by omega
        have n2 : True ∧ z.col ≤ z.col ∧ z.col < z.col + (text.length + 1) := ⟨trivial, by omega, by omega⟩
        simp only [if_neg n1, if_pos n2, true_and, if_true, Nat.sub_self, List.getElem?_cons_zero, Option.getD_some]
        simp
      · by_cases h2 : r = z.row ∧ z.col + 1 ≤ c ∧ c < z.col + 1 + text.length
        · have h3 : r = z.row ∧ z.col ≤ c ∧ c < z.col + (text.length + 1) := by omega
          rw [if_pos h2, if_pos h3, if_neg h1]
          have : c - z.col = (c - (z.col + 1)) + 1 := by omega
          rw [this, List.getElem?_cons_succ]
        · have h3 : ¬ (r = z.row ∧ z.col ≤ c ∧ c < z.col + (text.length + 1)) := by omega
          rw [if_neg h2, if_neg h3, if_neg h1]

theorem chars_fit (rows : Nat) (text : List Nat) (z : Screen) (h : z.col + text.length ≤ columns rows) : z.fitsAll rows (text.map .char) := by
  induction text generalizing z with
  | nil => trivial
  | cons x text ih =>
    simp only [List.length_cons] at h
    exact ⟨show z.col < _ by omega, ih _ (by simp only [Screen.step]; omega)⟩

theorem fitsAll_append (rows : Nat) (l m : List TextOp) (z : Screen) : z.fitsAll rows (l ++ m) ↔ z.fitsAll rows l ∧ (z.run l).fitsAll rows m := by
  induction l generalizing z with
  | nil => simp [Screen.fitsAll, Screen.run]
  | cons x l ih =>
    simp only [List.cons_append, Screen.fitsAll, ih, and_assoc]
    rfl

/-- The text with its new line on a clear display. -/
theorem hello_shows (rows : Nat) (h2 : 2 ≤ rows) (h4 : rows ≤ 4) (text : List Nat) (hf : FitsLine rows text) (hl : text.length < columns rows)
    (s : View.State) (d : Device) (h : Shows rows s d clearScreen) :
    ∃ s' bs, Writer.write rows s (text ++ [10, 13]) = .ok (s', bs.map toCall) ∧ (∀ b ∈ bs, b.2 < 256 ∧ ¬ selects8 b) ∧
      Displays rows (execAll d bs) (alone [text]) ∧ (s'.row, s'.col) = (1, 0) ∧ (execAll d bs).ac = cell 1 0 := by
  have hops : (text ++ [10, 13]).map View.Op.put = (text.map TextOp.char ++ [TextOp.lineFeed, TextOp.carriageReturn]).map viewOp := by
    rw [List.map_append, List.map_append, List.map_map]
    rfl
  obtain ⟨a1, a2, -⟩ := chars_run text ⟨0, 0, fun _ _ => toU 8 32⟩ 0 0
  have hfit : Screen.fitsAll rows ⟨0, 0, fun _ _ => toU 8 32⟩ (text.map TextOp.char ++ [TextOp.lineFeed, TextOp.carriageReturn]) := by
    rw [fitsAll_append]
    refine ⟨chars_fit rows text _ (by simpa using hf.1), ?_, trivial, trivial⟩
    simp only [Screen.fits, a1, a2]
    omega
  have hplain : ∀ x ∈ text.map TextOp.char ++ [TextOp.lineFeed, TextOp.carriageReturn], Plain x := by
    intro x hx
    rcases List.mem_append.1 hx with hx | hx
    · obtain ⟨c, hc, rfl⟩ := List.mem_map.1 hx
      obtain ⟨-, q1, q2, q3⟩ := hf.2 c hc
      exact ⟨q1, q2, q3⟩
    · simp only [List.mem_cons, List.not_mem_nil, or_false] at hx
      rcases hx with rfl | rfl <;> trivial
  obtain ⟨s', bs, e, v, t⟩ := c43_tracks_partial rows (by omega) h4 s d _ _ h.onLcd.tracks hplain hfit
  rw [← hops] at e
  obtain ⟨-, q⟩ := quiet_text sketchFlags (text ++ [10, 13]) e
  obtain ⟨x1, x2, x3⟩ := quiet_execAll bs q d h.flags h.shift
  have hz : ∀ z : Screen, z.run (text.map TextOp.char ++ [TextOp.lineFeed, TextOp.carriageReturn]) =
      { z.run (text.map TextOp.char) with row := (z.run (text.map TextOp.char)).row + 1, col := 0 } := by
    intro z
    simp only [Screen.run, List.foldl_append]
    rfl
  rw [hz] at t
  refine ⟨s', bs, e, v, ⟨x1.1, x1.2.1, x1.2.2, x3.trans h.window, fun r c hr hc => ?_⟩, ?_, ?_⟩
  · rw [t.text r c hr hc]
    obtain ⟨-, -, b3⟩ := chars_run text ⟨0, 0, fun _ _ => toU 8 32⟩ r c
    show (Screen.run ⟨0, 0, fun _ _ => toU 8 32⟩ (text.map TextOp.char)).text r c = _
    rw [b3]
    have e32 : toU 8 32 = 32 := by decide
    rcases r with _ | r
    · simp only [alone, charAt, List.getElem?_cons_zero, Option.bind_some, Nat.zero_le, true_and, Nat.zero_add, Nat.sub_zero, e32]
      split
      · rfl
      · rename_i hn
        rw [List.getElem?_eq_none (by omega)]
        rfl
    · have hn : ¬ (r + 1 = 0 ∧ 0 ≤ c ∧ c < 0 + text.length) := by omega
      simp only [if_neg hn, e32]
      simp [alone, charAt]
  · have r1 := t.row
    have r2 := t.col
    simp only [clearScreen] at r1 r2
    rw [r1, r2, a1]
  · have hcol : 0 < columns rows := by omega
    have := t.ac hcol
    simp only [clearScreen, a1] at this
    exact this

/-- **C103.** LCD.ino with any text shorter than a line, on a display of 2 to 4 rows in any state: the display is on, shows the text in its first row and
    blanks elsewhere, and text written next goes to the start of the second row. -/
theorem c103_hello (rows : Nat) (h2 : 2 ≤ rows) (h4 : rows ≤ 4) (text : List Nat) (hf : FitsLine rows text) (hl : text.length < columns rows) (d : Device)
    (a : Lines) (he : a.e = true) (hw : a.rw = false) (hrs : a.rs = false) (low : Nat → Nat) (amb : Nat → Bool) :
    ∃ s cs d', hello rows (text ++ [0]) = .ok (s, cs) ∧ receiveAll low amb 0 d (latches a (Parallel.levels a (Parallel.calls cs))) = some d' ∧
      Displays rows d' (alone [text]) ∧ (s.row, s.col) = (1, 0) ∧ d'.ac = cell 1 0 := by
  obtain ⟨s, cs, d1, e1, r1, sh⟩ := start_shows rows (by omega) low amb d
  obtain ⟨s', bs, e2, v, h1, h3, h5⟩ := hello_shows rows h2 h4 text hf hl s d1 sh
  refine ⟨s', cs ++ bs.map toCall, execAll d1 bs, ?_, ?_, h1, h3, h5⟩
  · simp only [hello, e1, line_text text fun c hc => (hf.2 c hc).1, e2, Res.bind_ok]
  · rw [Parallel.calls_spec a he hw, hrs]
    exact receive_more sh.aligned r1 bs v

example := c103_hello 2 (by decide) (by decide) [72, 105] ⟨by decide, by decide⟩ (by decide) powerUp ⟨false, false, true, true, false, true, true⟩ rfl rfl rfl (fun _ => 0) (fun _ => false)

theorem lit_run (ops : List I2C.Op) (ho : ∀ o ∈ ops, o ≠ .backlight false) (reg : BitVec 8) (h : I2C.Rest reg) (hl : reg.getLsbD 3 = true) (r : BitVec 8)
    (l : List (BitVec 8)) (e : I2C.run reg ops = .ok (r, l)) : ∀ b ∈ l, b.getLsbD 3 = true := by
  induction ops generalizing reg l with
  | nil =>
    simp only [I2C.run, Res.ok.injEq, Prod.mk.injEq] at e
    obtain ⟨-, rfl⟩ := e
    simp
  | cons o ops ih =>
    obtain ⟨r1, l1, s1, s2, s3, s4, -⟩ := I2C.step_spec reg h o
    have hlight : I2C.light (reg.getLsbD 3) o = true := by
      cases o with
      | call c => exact hl
      | backlight v =>
        cases v with
        | true => rfl
        | false => exact absurd rfl (ho _ (by simp))
    rw [hlight] at s3 s4
    simp only [I2C.run, s1, Res.bind_ok] at e
    cases hr : I2C.run r1 ops with
    | ub => simp only [hr] at e; cases e
    | ok q =>
      obtain ⟨r2, l2⟩ := q
      simp only [hr, Res.bind_ok, Res.ok.injEq, Prod.mk.injEq] at e
      obtain ⟨rfl, rfl⟩ := e
      intro b hb
      rcases List.mem_append.1 hb with hb | hb
      · exact s4 b hb
      · exact ih (fun o ho' => ho o (by simp [ho'])) r1 s2 s3 l2 hr b hb

/-- **C103.** I2CLCD.ino with any text shorter than a line: the bytes sent to the port expander make a display in any state show the text, and every one of
    them has the backlight on. -/
theorem c103_hello_i2c (rows : Nat) (h2 : 2 ≤ rows) (h4 : rows ≤ 4) (text : List Nat) (hf : FitsLine rows text) (hl : text.length < columns rows)
    (d : Device) (low : Nat → Nat) (amb : Nat → Bool) :
    ∃ reg sent, helloI2C rows (text ++ [0]) = .ok (reg, sent) ∧ I2C.getBacklight reg = .ok true ∧ (∀ b ∈ sent, b.getLsbD 3 = true) ∧
      ∀ a, ∃ d', receiveAll low amb 0 d (latches a (sent.map I2C.lines)) = some d' ∧ Displays rows d' (alone [text]) := by
  obtain ⟨s, cs, d1, e1, r1, sh⟩ := start_shows rows (by omega) low amb d
  obtain ⟨s', bs, e2, v, h1, -⟩ := hello_shows rows h2 h4 text hf hl s d1 sh
  -- the two steps of the start
  have split : ∃ sa a sb b, View.step rows lcd (.startUp true) = .ok (sa, a) ∧ View.step rows sa (.setting (.enableDisplay true)) = .ok (sb, b) ∧
      sb = s ∧ cs = a ++ b := by
    simp only [start, View.run] at e1
    cases ha : View.step rows lcd (.startUp true) with
    | ub => simp only [ha] at e1; cases e1
    | ok p =>
      obtain ⟨sa, a⟩ := p
      simp only [ha, Res.bind_ok] at e1
      cases hb : View.step rows sa (.setting (.enableDisplay true)) with
      | ub => simp only [hb] at e1; cases e1
      | ok q =>
        obtain ⟨sb, b⟩ := q
        simp only [hb, Res.bind_ok, List.append_nil, Res.ok.injEq, Prod.mk.injEq] at e1
        exact ⟨sa, a, sb, b, rfl, hb, e1.1, e1.2.symm⟩
  obtain ⟨sa, a, sb, b, ea, eb, rfl, rfl⟩ := split
  obtain ⟨reg, sent, k1, k2, k3, k4⟩ := I2C.run_spec (0x0C#8) (by unfold I2C.Rest; decide)
    (a.map I2C.Op.call ++ [.backlight true] ++ (b ++ bs.map toCall).map I2C.Op.call)
  refine ⟨reg, sent, ?_, ?_, lit_run _ (fun o ho => ?_) _ (by unfold I2C.Rest; decide) (by decide) reg sent k1, fun l => ⟨execAll d1 bs, ?_, h1⟩⟩
  · have hi : I2C.init = .ok 0x0C#8 := by decide
    simp only [helloI2C, hi, ea, eb, line_text text fun c hc => (hf.2 c hc).1, e2, Res.bind_ok]
    exact k1
  · rw [I2C.getBacklight, (c06_single_bit_partial 16 reg 3 (by omega) (by omega)).2.2.2.1, k3]
    have light : ∀ (l : List Call) (x : Bool), (l.map I2C.Op.call).foldl I2C.light x = x := by
      intro l
      induction l with
      | nil => exact fun _ => rfl
      | cons c l ih => exact fun x => ih x
    rw [List.foldl_append, List.foldl_append, light, light]
    rfl
  · simp only [List.mem_append, List.mem_map, List.mem_singleton] at ho
    rcases ho with (⟨c, -, rfl⟩ | rfl) | ⟨c, -, rfl⟩ <;> simp
  · rw [k4]
    have calls : I2C.callsOf (a.map I2C.Op.call ++ [.backlight true] ++ (b ++ bs.map toCall).map I2C.Op.call) = a ++ b ++ bs.map toCall := by
      have h1 : ∀ (l : List Call) (m : List I2C.Op), I2C.callsOf (l.map I2C.Op.call ++ m) = l ++ I2C.callsOf m := by
        intro l m
        induction l with
        | nil => rfl
        | cons c l ih => simpa [I2C.callsOf] using ih
      rw [List.append_assoc, h1]
      have h3 : I2C.callsOf ([.backlight true] ++ (b ++ bs.map toCall).map I2C.Op.call) = I2C.callsOf ((b ++ bs.map toCall).map I2C.Op.call ++ []) := by
        simp [I2C.callsOf]
      rw [h3, h1]
      simp [I2C.callsOf]
    rw [calls]
    exact receive_more sh.aligned r1 bs v

/-- "Hello World!" meets the hypotheses. -/
example : FitsLine 2 [72, 101, 108, 108, 111, 32, 87, 111, 114, 108, 100, 33] ∧ alone [[72, 101, 108, 108, 111, 32, 87, 111, 114, 108, 100, 33]] 0 4 = 111 ∧
    (hello 2 ([72, 101, 108, 108, 111, 32, 87, 111, 114, 108, 100, 33] ++ [0]) matches .ok _) := by
  refine ⟨⟨by decide, by decide⟩, by decide, by decide +kernel⟩

end Atl.Props
