import Verif.Props.UsartWriters
import Verif.Props.MidiClock
import Verif.Props.TextUsart

/-! C156: main code and interrupt handlers print values over one USART. -/
namespace Atl.Props
open Atl.Usart Atl.UsartWriters Atl.Text Atl.TextSketch Atl.TextUsart Atl.Spec.Text UsartMany

namespace TextMany
open MidiClock (Merge NoneRefused)

/-! ### Specification -/

/-- A stretch of a history in which only main code (`who`) or only a handler prints `items`, one line each; `evs` are its events. -/
structure Part where
  who : Bool
  items : List Item
  evs : List UsartWriters.Ev

/-- Everything `evs` asks for is the text of `items`, asked for by `who`; a handler does nothing but print. -/
def Part.Ok (f : Format) (p : Part) : Prop :=
  lines (roundBin 24 126) f p.items = .ok (asked p.who p.evs) ∧ asked (!p.who) p.evs = [] ∧ (p.who = false → ∀ e ∈ p.evs, ∃ v, e = .handler v)

/-- A history put together from such parts, main code outside of `Write` between them. -/
def InParts (keep : Bool) (f : Format) : St → List Part → Prop
  | y, [] => y.pc = .idle
  | y, p :: ps => y.pc = .idle ∧ p.Ok f ∧ OneAtATime keep y p.evs ∧ ∀ y', run keep y p.evs = .ok y' → InParts keep f y' ps

/-- The line carries the texts of the lists of values one after the other, each in one piece: one line of text for each value. -/
def InOnePiece (f : Format) (values : List (List Item)) (line : List Nat) : Prop :=
  ∃ pieces : List (List Nat), line = pieces.flatten ∧
    List.Forall₂ (fun items t => ∃ texts, List.Forall₂ (Written f) items texts ∧ t = (texts.map (· ++ f.newLine)).flatten) values pieces

/-! ### Proofs -/

theorem log_step {keep : Bool} {y y' : St} {e : UsartWriters.Ev} (h : step keep y e = .ok y') : ∃ d, y'.log = y.log ++ d := by
  cases e with
  | write v =>
    simp only [step, Res.ok.injEq] at h
    subst h
    split
    · unfold begin
      split
      · exact ⟨_, rfl⟩
      · exact ⟨[], by simp⟩
    · exact ⟨[], by simp⟩
  | main =>
    simp only [step, mainStep] at h
    cases hp : y.pc with
    | checked v p =>
      simp only [hp] at h
      cases h1 : cSet y.s.buf.buf (pointer keep p y.s.buf.w) v with
      | ub => rw [h1] at h; cases h
      | ok b => rw [h1] at h; simp only [Res.bind_ok, Res.ok.injEq] at h; subst h; exact ⟨[], by simp⟩
    | stored v p => simp only [hp, Res.ok.injEq] at h; subst h; exact ⟨_, rfl⟩
    | _ => simp only [hp, Res.ok.injEq] at h; subst h; exact ⟨[], by simp⟩
  | isr =>
    simp only [step] at h
    split at h
    · cases h1 : y.s.isr with
      | ub => rw [h1] at h; cases h
      | ok s => rw [h1] at h; simp only [Res.bind_ok, Res.ok.injEq] at h; subst h; exact ⟨[], by simp⟩
    · simp only [Res.ok.injEq] at h; subst h; exact ⟨[], by simp⟩
  | frame => simp only [step, Res.ok.injEq] at h; subst h; exact ⟨[], by simp⟩
  | load => simp only [step, Res.ok.injEq] at h; subst h; exact ⟨[], by simp⟩
  | handler v =>
    simp only [step] at h
    cases h1 : y.s.writeBuffer v.toNat with
    | ub => rw [h1] at h; cases h
    | ok c => rw [h1] at h; simp only [Res.bind_ok, Res.ok.injEq] at h; subst h; exact ⟨_, rfl⟩

theorem log_run {keep : Bool} (es : List UsartWriters.Ev) : ∀ {y y' : St}, run keep y es = .ok y' → ∃ d, y'.log = y.log ++ d := by
  induction es with
  | nil => intro y y' h; injection h with h; subst h; exact ⟨[], by simp⟩
  | cons e es ih =>
    intro y y' h
    unfold run at h
    cases h1 : step keep y e with
    | ub => rw [h1] at h; cases h
    | ok y1 =>
      rw [h1] at h
      obtain ⟨d1, e1⟩ := log_step h1
      obtain ⟨d2, e2⟩ := ih h
      exact ⟨d1 ++ d2, by rw [e2, e1, List.append_assoc]⟩

theorem run_app {keep : Bool} (l r : List UsartWriters.Ev) : ∀ y : St, run keep y (l ++ r) = (do let z ← run keep y l; run keep z r) := by
  induction l with
  | nil => intro y; rfl
  | cons a l ih =>
    intro y
    show (do let z ← step keep y a; run keep z (l ++ r)) = (do let z ← (do let z ← step keep y a; run keep z l); run keep z r)
    cases step keep y a with
    | ub => rfl
    | ok w => exact ih w

theorem calm_app {keep : Bool} (l r : List UsartWriters.Ev) : ∀ y : St, Calm keep y l → (∀ z, run keep y l = .ok z → Calm keep z r) → Calm keep y (l ++ r) := by
  induction l with
  | nil => intro y _ h; exact h y rfl
  | cons a l ih =>
    intro y h1 h2
    refine ⟨h1.1, fun w hw => ih w (h1.2 w hw) fun z hz => h2 z ?_⟩
    unfold run
    rw [hw]; exact hz

theorem calm_main {keep : Bool} (l : List UsartWriters.Ev) (hl : asked false l = []) : ∀ y : St, Calm keep y l := by
  induction l with
  | nil => intros; trivial
  | cons e l ih =>
    intro y
    refine ⟨fun v he => ?_, fun z _ => ih ?_ z⟩
    · subst he; simp [asked] at hl
    · unfold asked at hl ⊢
      rw [List.filterMap_eq_nil_iff] at hl ⊢
      exact fun a ha => hl a (by simp [ha])

theorem calm_handler {keep : Bool} (l : List UsartWriters.Ev) (hl : ∀ e ∈ l, ∃ v, e = .handler v) : ∀ y : St, y.pc = .idle → Calm keep y l := by
  induction l with
  | nil => intros; trivial
  | cons e l ih =>
    intro y hp
    obtain ⟨v, rfl⟩ := hl e (by simp)
    refine ⟨fun _ _ => by unfold Between; rw [hp]; trivial, fun z hz => ih (fun e he => hl e (by simp [he])) z ?_⟩
    simp only [step] at hz
    cases h1 : y.s.writeBuffer v.toNat with
    | ub => rw [h1] at hz; cases hz
    | ok c => rw [h1] at hz; simp only [Res.bind_ok, Res.ok.injEq] at hz; subst hz; exact hp

theorem calm_part {keep : Bool} {f : Format} {p : Part} (hp : p.Ok f) {y : St} (hi : y.pc = .idle) : Calm keep y p.evs := by
  obtain ⟨_, h2, h3⟩ := hp
  cases hw : p.who with
  | true => exact calm_main _ (by rw [hw] at h2; exact h2) y
  | false => exact calm_handler _ (h3 hw) y hi

theorem calm_parts {keep : Bool} {f : Format} (ps : List Part) : ∀ {y : St}, InParts keep f y ps → Calm keep y (ps.flatMap Part.evs) := by
  induction ps with
  | nil => intro y _; trivial
  | cons p ps ih =>
    intro y h
    rw [List.flatMap_cons]
    exact calm_app _ _ y (calm_part h.2.1 h.1) fun z hz => ih (h.2.2.2 z hz)

theorem done_app (m : Bool) (l d : List (Bool × Nat × Bool)) : doneBy m (l ++ d) = doneBy m l ++ doneBy m d := by
  unfold doneBy
  rw [List.filter_append, List.map_append]

theorem taken_app (l d : List (Bool × Nat × Bool)) : taken (l ++ d) = taken l ++ taken d := by
  unfold taken
  rw [List.filterMap_append]

theorem only (m : Bool) (d : List (Bool × Nat × Bool)) (hn : NoneRefused d) (h : doneBy (!m) d = []) : taken d = doneBy m d := by
  induction d with
  | nil => rfl
  | cons c d ih =>
    obtain ⟨k, v, r⟩ := c
    have hr : r = true := hn (k, v, r) (by simp)
    subst hr
    have e1 : doneBy (!m) ((k, v, true) :: d) = doneBy (!m) [(k, v, true)] ++ doneBy (!m) d := done_app _ [_] d
    have e2 : doneBy m ((k, v, true) :: d) = doneBy m [(k, v, true)] ++ doneBy m d := done_app _ [_] d
    have e3 : taken ((k, v, true) :: d) = [v] ++ taken d := taken_app [_] d
    rw [e1, List.append_eq_nil_iff] at h
    rw [e2, e3, ih (fun c hc => hn c (by simp [hc])) h.2]
    have hk : k = m := by
      have := h.1
      cases k <;> cases m <;> simp [doneBy] at this ⊢
    subst hk
    simp [doneBy]

/-- Between two moments at which main code is outside of `Write`, with nothing refused and only one of the two writing, the bytes asked for are taken. -/
theorem part_taken {keep : Bool} {y y' : St} (es : List UsartWriters.Ev) (m : Bool) (hi : y.pc = .idle) (hi' : y'.pc = .idle) (ho : OneAtATime keep y es) (hr : run keep y es = .ok y') (hn : NoneRefused y'.log)
    (hm : asked (!m) es = []) : taken y'.log = taken y.log ++ asked m es := by
  obtain ⟨d, hd⟩ := log_run es hr
  obtain ⟨a1, a2⟩ := c152_calls keep es y y' ho hr
  have p0 : pending y = [] := by unfold pending; rw [hi]
  have p1 : pending y' = [] := by unfold pending; rw [hi']
  rw [p0, p1, List.append_nil, List.append_nil, hd, done_app] at a2
  rw [hd, done_app] at a1
  replace a1 := List.append_cancel_left a1
  replace a2 := List.append_cancel_left a2
  have key : ∀ k, doneBy k d = asked k es := by intro k; cases k; exact a1; exact a2
  rw [hd, taken_app, only m d (fun c hc => hn c (by rw [hd]; simp [hc])) (by rw [key, hm]), key]

theorem refused_back {y y' : St} {keep : Bool} {es : List UsartWriters.Ev} (hr : run keep y es = .ok y') (hn : NoneRefused y'.log) : NoneRefused y.log := by
  obtain ⟨d, hd⟩ := log_run es hr
  exact fun c hc => hn c (by rw [hd]; simp [hc])

theorem parts_taken {keep : Bool} {f : Format} (ps : List Part) : ∀ {y y' : St}, InParts keep f y ps → run keep y (ps.flatMap Part.evs) = .ok y' →
    y.pc = .idle ∧ y'.pc = .idle ∧ (NoneRefused y'.log → taken y'.log = taken y.log ++ ps.flatMap fun p => asked p.who p.evs) := by
  induction ps with
  | nil => intro y y' h hr; injection hr with hr; subst hr; exact ⟨h, h, fun _ => by simp⟩
  | cons p ps ih =>
    intro y y' h hr
    rw [List.flatMap_cons, run_app] at hr
    cases h1 : run keep y p.evs with
    | ub => rw [h1] at hr; cases hr
    | ok z =>
      rw [h1] at hr
      change run keep z (ps.flatMap Part.evs) = .ok y' at hr
      obtain ⟨i1, i2, i3⟩ := ih (h.2.2.2 z h1) hr
      refine ⟨h.1, i2, fun hn => ?_⟩
      rw [i3 hn, part_taken p.evs p.who h.1 i1 h.2.2.1 h1 (refused_back hr hn) h.2.1.2.1, List.flatMap_cons, List.append_assoc]

theorem pieces_of {keep : Bool} {f : Format} (hf : Sensible f) (ps : List Part) : ∀ {y y' : St}, InParts keep f y ps → run keep y (ps.flatMap Part.evs) = .ok y' → (∀ p ∈ ps, ∀ i ∈ p.items, Writable f i) →
    InOnePiece f (ps.map Part.items) (ps.flatMap fun p => asked p.who p.evs) := by
  induction ps with
  | nil => intro y y' _ _ _; exact ⟨[], rfl, .nil⟩
  | cons p ps ih =>
    intro y y' h hr hw
    rw [List.flatMap_cons, run_app] at hr
    cases h1 : run keep y p.evs with
    | ub => rw [h1] at hr; cases hr
    | ok z =>
      rw [h1] at hr
      obtain ⟨pieces, e1, e2⟩ := ih (h.2.2.2 z h1) hr fun q hq => hw q (by simp [hq])
      obtain ⟨texts, t1, t2⟩ := lines_written f hf p.items (hw p (by simp))
      have := h.2.1.1
      rw [t2] at this
      injection this with this
      exact ⟨asked p.who p.evs :: pieces, by rw [List.flatMap_cons, e1, List.flatten_cons], .cons ⟨texts, t1, this.symm⟩ e2⟩

theorem merge_taken (l : List (Bool × Nat × Bool)) (hn : NoneRefused l) : Merge (doneBy true l) (doneBy false l) (taken l) := by
  induction l with
  | nil => exact .nil
  | cons c l ih =>
    obtain ⟨k, v, r⟩ := c
    have hr : r = true := hn (k, v, r) (by simp)
    subst hr
    have e := ih fun c hc => hn c (by simp [hc])
    cases k with
    | true => exact .left v e
    | false => exact .right v e

theorem isr_pc {keep : Bool} {y z : St} (h : step keep y .isr = .ok z) : z.pc = y.pc := by
  simp only [step] at h
  split at h
  · cases h1 : y.s.isr with
    | ub => rw [h1] at h; cases h
    | ok s => rw [h1] at h; simp only [Res.bind_ok, Res.ok.injEq] at h; subst h; rfl
  · simp only [Res.ok.injEq] at h; subst h; rfl

theorem rounds_pc {keep : Bool} (n : Nat) : ∀ {y y' : St}, run keep y (rounds n) = .ok y' → y'.pc = y.pc := by
  induction n with
  | zero => intro y y' h; injection h with h; rw [h]
  | succ n ih =>
    intro y y' h
    change (do let z ← step keep y .isr; run keep z (.frame :: rounds n)) = .ok y' at h
    cases h1 : step keep y .isr with
    | ub => rw [h1] at h; cases h
    | ok z =>
      rw [h1] at h
      exact (ih (y := { z with s := { z.s with hw := z.s.hw.frameTime } }) h).trans (show z.pc = y.pc from isr_pc h1)

end TextMany

open TextMany
open MidiClock (Merge NoneRefused)

/-! ### Theorems -/

/-- **C156, partial.** With handlers that print only at moments harmless to the stream (C152) and room in the buffer, what is on the line in the end are the characters of main code and those of handlers, each
    in their order. -/
theorem c156_merge_partial (keep : Bool) (g : List Nat) (b : BitVec 8) (hg : 0 < g.length) (hn : g.length < 65536) (es : List UsartWriters.Ev) (hc : Calm keep (St.init g b) es)
    (ho : OneAtATime keep (St.init g b) es) (y : St) (hr : run keep (St.init g b) es = .ok y) (hp : y.pc = .idle) (hl : NoneRefused y.log) (n : Nat) (hk : (taken y.log).length + 1 ≤ n) :
    ∃ y', run keep y (rounds n) = .ok y' ∧ Merge (asked true es) (asked false es) y'.s.hw.line := by
  obtain ⟨y', r1, r2, _, _⟩ := c152_drain_partial keep g b hg hn es hc y hr hp n hk
  obtain ⟨a1, a2⟩ := c152_calls keep es _ _ ho hr
  have e0 : pending y = [] := by unfold pending; rw [hp]
  rw [e0, List.append_nil] at a2
  refine ⟨y', r1, ?_⟩
  have e1 : doneBy false y.log = asked false es := by simpa [St.init, doneBy] using a1
  have e2 : doneBy true y.log = asked true es := by simpa [St.init, doneBy, pending] using a2
  rw [r2, ← e1, ← e2]
  exact merge_taken y.log hl

/-- **C156, partial.** If main code and handlers do not print at the same time (main code has interrupts off for as long as it prints what belongs together), the line carries what each of them printed in one
    piece, as long as the buffer has room; all interrupts of the stream and all frames may come in between. -/
theorem c156_lines_partial (keep : Bool) (g : List Nat) (b : BitVec 8) (hg : 0 < g.length) (hn : g.length < 65536) (f : Format) (hf : Sensible f) (parts : List Part)
    (hw : ∀ p ∈ parts, ∀ i ∈ p.items, Writable f i) (hp : InParts keep f (St.init g b) parts) :
    ∃ y, run keep (St.init g b) (parts.flatMap Part.evs) = .ok y ∧ y.pc = .idle ∧
      (NoneRefused y.log → ∀ n, (taken y.log).length + 1 ≤ n → ∃ y', run keep y (rounds n) = .ok y' ∧ InOnePiece f (parts.map Part.items) y'.s.hw.line) := by
  have hc := calm_parts parts hp
  obtain ⟨y, _, hr, _⟩ := c152_order_partial keep g b hg hn _ hc
  obtain ⟨_, hi, ht⟩ := parts_taken parts hp hr
  refine ⟨y, hr, hi, fun hl n hk => ?_⟩
  obtain ⟨y', r1, r2, _, _⟩ := c152_drain_partial keep g b hg hn _ hc y hr hi n hk
  refine ⟨y', r1, ?_⟩
  rw [r2, ht hl, show taken (St.init g b).log = [] from rfl, List.nil_append]
  exact pieces_of hf parts hp hr hw

/-! ### In sections -/

namespace TextMany

/-- A step of a program on the board (C151): main code prints values between `EnableAll(false)` and `EnableAll()`; it does something else, or something requests a handler, or the hardware goes on; the
    processor is to run a handler that prints values, or the stream's own. -/
inductive Step where
  | printing (items : List Item) (body : List (CriticalSection.Ev UsartWriters.Ev))
  | free (e : CriticalSection.Ev UsartWriters.Ev)
  | handler (k : Nat) (items : List Item) (as : List UsartWriters.Ev)

def Step.evs : Step → List (CriticalSection.Ev UsartWriters.Ev)
  | .printing _ body => .off :: body ++ [.on]
  | .free e => [e]
  | .handler k _ as => [.serve k as]

def Step.items : Step → List Item
  | .printing items _ => items
  | .free _ => []
  | .handler _ items _ => items

def Step.ofMain : Step → Bool
  | .handler .. => false
  | _ => true

def Step.source : Step → Option Nat
  | .handler k _ _ => some k
  | _ => none

/-- Main code's own accesses and the hardware; with interrupts off also attempts of the processor to run a handler, which come to nothing. -/
def Inside : CriticalSection.Ev UsartWriters.Ev → Prop
  | .on | .off => False
  | .main .isr | .main (.handler _) => False
  | _ => True

def Free : CriticalSection.Ev UsartWriters.Ev → Prop
  | .other | .request _ | .main .main | .main .frame | .main .load => True
  | _ => False

def Step.Ok (keep : Bool) (f : Format) (y : St) : Step → Prop
  | .printing items body => (∀ e ∈ body, Inside e) ∧ lines (roundBin 24 126) f items = .ok (asked true (Sections.ofMain body)) ∧ OneAtATime keep y (Sections.ofMain body) ∧
      ∀ y', run keep y (Sections.ofMain body) = .ok y' → y'.pc = .idle
  | .free e => Free e
  | .handler _ items as => (items = [] ∧ as = [.isr]) ∨ ((∀ a ∈ as, ∃ v, a = .handler v) ∧ lines (roundBin 24 126) f items = .ok (asked false as))

/-- A program whose main code prints in sections. -/
def InSections (keep : Bool) (f : Format) : CriticalSection.Board (stream keep) → List Step → Prop
  | _, [] => True
  | b, c :: cs => c.Ok keep f b.obj ∧ ∀ b', CriticalSection.run (stream keep) b c.evs = .ok b' → InSections keep f b' cs

theorem board_app {keep : Bool} (b : CriticalSection.Board (stream keep)) (l r : List (CriticalSection.Ev UsartWriters.Ev)) {b' : CriticalSection.Board (stream keep)} (h : CriticalSection.run (stream keep) b l = .ok b') :
    CriticalSection.run (stream keep) b (l ++ r) = CriticalSection.run (stream keep) b' r := by
  rw [Sections.run_app, h]; rfl

/-- With interrupts off only main code and the hardware do something. -/
theorem body_run {keep : Bool} (body : List (CriticalSection.Ev UsartWriters.Ev)) : ∀ (b : CriticalSection.Board (stream keep)) (y' : St), b.on = false → (∀ e ∈ body, Inside e) →
    run keep b.obj (Sections.ofMain body) = .ok y' →
    ∃ b', CriticalSection.run (stream keep) b body = .ok b' ∧ b'.obj = y' ∧ b'.on = false ∧ b'.trace = b.trace ++ Sections.ofMain body ∧ b'.served = b.served := by
  induction body with
  | nil => intro b y' h _ hr; injection hr with hr; exact ⟨b, rfl, hr, h, by simp [Sections.ofMain], rfl⟩
  | cons e body ih =>
    intro b y' h hb hr
    have hb' : ∀ e ∈ body, Inside e := fun e he => hb e (by simp [he])
    have he := hb e (by simp)
    cases e with
    | on => exact he.elim
    | off => exact he.elim
    | other => exact ih { b with first := false } y' h hb' hr
    | request k => exact ih { b with flags := if k ∈ b.flags then b.flags else b.flags ++ [k] } y' h hb' hr
    | serve k as =>
      obtain ⟨b', h1, h2⟩ := ih b y' h hb' hr
      refine ⟨b', ?_, h2⟩
      unfold CriticalSection.run CriticalSection.step
      rw [h]
      exact h1
    | main e =>
      change (do let z ← step keep b.obj e; run keep z (Sections.ofMain body)) = .ok y' at hr
      cases h1 : step keep b.obj e with
      | ub => rw [h1] at hr; cases hr
      | ok z =>
        rw [h1] at hr
        obtain ⟨b', k1, k2, k3, k4, k5⟩ := ih { b with obj := z, first := false, trace := b.trace ++ [e] } y' h hb' hr
        refine ⟨b', ?_, k2, k3, k4.trans (List.append_assoc ..), k5⟩
        unfold CriticalSection.run CriticalSection.step
        change (do let b ← (do let s ← step keep b.obj e; Res.ok _); CriticalSection.run (stream keep) b body) = _
        rw [h1]
        exact k1

theorem idle_run {keep : Bool} (es : List UsartWriters.Ev) : ∀ {y y' : St}, y.pc = .idle → (∀ e ∈ es, ∀ v, e ≠ .write v) → run keep y es = .ok y' → y'.pc = .idle := by
  induction es with
  | nil => intro y y' hp _ h; injection h with h; exact h ▸ hp
  | cons e es ih =>
    intro y y' hp he h
    change (do let z ← step keep y e; run keep z es) = .ok y' at h
    cases h1 : step keep y e with
    | ub => rw [h1] at h; cases h
    | ok z =>
      rw [h1] at h
      refine ih (lawful_stream keep y e z hp ?_ h1) (fun e he' => he e (by simp [he'])) h
      have := he e (by simp)
      cases e with
      | write v => exact absurd rfl (this v)
      | _ => exact fun h => nomatch h

theorem one_free {keep : Bool} (es : List UsartWriters.Ev) (he : ∀ e ∈ es, ∀ v, e ≠ .write v) : ∀ y : St, OneAtATime keep y es := by
  induction es with
  | nil => intro _; trivial
  | cons e es ih => intro y; exact ⟨fun v hv => absurd hv (he e (by simp) v), fun z _ => ih (fun e he' => he e (by simp [he'])) z⟩

/-- What a board has come to. -/
structure Came (keep : Bool) (g : List Nat) (r : BitVec 8) (b : CriticalSection.Board (stream keep)) : Prop where
  same : run keep (St.init g r) b.trace = .ok b.obj
  calm : Calm keep (St.init g r) b.trace
  idle : b.obj.pc = .idle

/-- What a step makes: a part of the history of the stream, or nothing if it is a handler that does not run. -/
def Made (keep : Bool) (g : List Nat) (r : BitVec 8) (f : Format) (b : CriticalSection.Board (stream keep)) (c : Step) : Prop :=
  ∃ b', CriticalSection.run (stream keep) b c.evs = .ok b' ∧ Came keep g r b' ∧
    ((∃ p : Part, p.Ok f ∧ OneAtATime keep b.obj p.evs ∧ run keep b.obj p.evs = .ok b'.obj ∧ p.items = c.items ∧ b'.served = b.served ++ c.source.toList) ∨ (c.ofMain = false ∧ b' = b))

section
variable {keep : Bool} {g : List Nat} {r : BitVec 8} {f : Format} {b : CriticalSection.Board (stream keep)} (hg : 0 < g.length) (hn : g.length < 65536)
include hg hn

theorem grow (h : Came keep g r b) (es : List UsartWriters.Ev) (hc : Calm keep b.obj es) : ∃ y, run keep b.obj es = .ok y := by
  have := calm_app _ es _ h.calm fun z hz => by rw [h.same] at hz; injection hz with hz; exact hz ▸ hc
  obtain ⟨y, _, h1, _⟩ := c152_order_partial keep g r hg hn _ this
  rw [run_app, h.same] at h1
  exact ⟨y, h1⟩

/-- The part of the history of the stream that a step makes. -/
theorem part_came (h : Came keep g r b) {b' : CriticalSection.Board (stream keep)} {p : Part} (hp : p.Ok f) (h1 : run keep b.obj p.evs = .ok b'.obj) (h2 : b'.trace = b.trace ++ p.evs) (h3 : b'.obj.pc = .idle) :
    Came keep g r b' := by
  refine ⟨?_, ?_, h3⟩
  · rw [h2, run_app, h.same]; exact h1
  · rw [h2]
    exact calm_app _ _ _ h.calm fun z hz => by rw [h.same] at hz; injection hz with hz; subst hz; exact calm_part hp h.idle

theorem step_came (h : Came keep g r b) (c : Step) (hc : c.Ok keep f b.obj) :
    Made keep g r f b c := by
  have go : ∀ (p : Part) (b' : CriticalSection.Board (stream keep)), CriticalSection.run (stream keep) b c.evs = .ok b' → p.Ok f → OneAtATime keep b.obj p.evs → run keep b.obj p.evs = .ok b'.obj →
      b'.trace = b.trace ++ p.evs → b'.obj.pc = .idle → p.items = c.items → b'.served = b.served ++ c.source.toList → Made keep g r f b c :=
    fun p b' h1 h2 h3 h4 h5 h6 h7 h8 => ⟨b', h1, part_came hg hn h h2 h4 h5 h6, .inl ⟨p, h2, h3, h4, h7, h8⟩⟩
  cases c with
  | printing items body =>
    obtain ⟨c1, c2, c3, c4⟩ := hc
    have e1 : asked false (Sections.ofMain body) = [] := by
      unfold asked Sections.ofMain
      rw [List.filterMap_eq_nil_iff]
      intro a ha
      rw [List.mem_filterMap] at ha
      obtain ⟨e, e1, e2⟩ := ha
      have := c1 e e1
      cases e with
      | main x => injection e2 with e2; subst e2; cases x <;> first | rfl | exact this.elim
      | _ => cases e2
    obtain ⟨y, hy⟩ := grow hg hn h (Sections.ofMain body) (calm_main _ e1 _)
    obtain ⟨d, d1, d2, d3, d4, d5⟩ := body_run body { b with on := false, first := false } y rfl c1 hy
    refine go ⟨true, items, Sections.ofMain body⟩ { d with on := true, first := true } ?_ ⟨c2, e1, fun h => nomatch h⟩ c3 (by rw [hy, ← d2]) d4 (d2 ▸ c4 y hy) rfl (by rw [d5]; simp [Step.source])
    show CriticalSection.run (stream keep) _ (body ++ [.on]) = _
    rw [board_app _ _ _ d1]; rfl
  | free e =>
    have main : ∀ x : UsartWriters.Ev, e = .main x → (∀ v, x ≠ .write v) → asked true [x] = [] → asked false [x] = [] → Made keep g r f b (.free e) := by
      intro x he hw e1 e2
      have hw' : ∀ a ∈ [x], ∀ v, a ≠ .write v := fun a ha => by rw [List.mem_singleton] at ha; exact ha ▸ hw
      obtain ⟨y, hy⟩ := grow hg hn h [x] (calm_main _ e2 _)
      refine go ⟨true, [], [x]⟩ { b with obj := y, first := false, trace := b.trace ++ [x] } ?_ ⟨by rw [e1]; rfl, e2, fun h => nomatch h⟩ (one_free _ hw' _) hy rfl (idle_run [x] h.idle hw' hy) rfl (by simp [Step.source])
      subst he
      change (do let z ← step keep b.obj x; run keep z []) = .ok y at hy
      change (do let b ← (do let s ← step keep b.obj x; Res.ok _); CriticalSection.run (stream keep) b []) = _
      cases h1 : step keep b.obj x with
      | ub => rw [h1] at hy; cases hy
      | ok z => rw [h1] at hy; injection hy with hy; subst hy; rfl
    cases e with
    | other => exact go ⟨true, [], []⟩ { b with first := false } rfl ⟨rfl, rfl, fun h => nomatch h⟩ trivial rfl (by simp) h.idle rfl (by simp [Step.source])
    | request k => exact go ⟨true, [], []⟩ { b with flags := if k ∈ b.flags then b.flags else b.flags ++ [k] } rfl ⟨rfl, rfl, fun h => nomatch h⟩ trivial rfl (by simp) h.idle rfl (by simp [Step.source])
    | main x =>
      cases x with
      | main => exact main _ rfl (fun _ h => nomatch h) rfl rfl
      | frame => exact main _ rfl (fun _ h => nomatch h) rfl rfl
      | load => exact main _ rfl (fun _ h => nomatch h) rfl rfl
      | _ => exact hc.elim
    | _ => exact hc.elim
  | handler k items as =>
    cases hs : (b.on && !b.first && b.flags.contains k) with
    | false =>
      refine ⟨b, ?_, h, .inr ⟨rfl, rfl⟩⟩
      simp only [Step.evs, CriticalSection.run, CriticalSection.step, hs]; rfl
    | true =>
      have serve : ∀ p : Part, p.Ok f → p.evs = as → p.items = items → (∀ a ∈ as, ∀ v, a ≠ .write v) → Made keep g r f b (.handler k items as) := by
        intro p hp e1 e2 hw
        obtain ⟨y, hy⟩ := grow hg hn h p.evs (calm_part hp h.idle)
        refine go p { b with obj := y, first := true, flags := b.flags.erase k, trace := b.trace ++ as, served := b.served ++ [k] } ?_ hp (by rw [e1]; exact one_free _ hw _) hy (by rw [e1])
          (idle_run _ h.idle (by rw [e1]; exact hw) hy) e2 rfl
        simp only [Step.evs, CriticalSection.run, CriticalSection.step, hs, if_pos, run_stream, ← e1, hy, Res.bind_ok]
      rcases hc with ⟨rfl, rfl⟩ | ⟨c1, c2⟩
      · exact serve ⟨true, [], [.isr]⟩ ⟨rfl, rfl, fun h => nomatch h⟩ rfl rfl (by simp)
      · refine serve ⟨false, items, as⟩ ⟨c2, ?_, fun _ => c1⟩ rfl rfl fun a ha v hv => by obtain ⟨w, hw⟩ := c1 a ha; rw [hw] at hv; cases hv
        unfold asked
        rw [List.filterMap_eq_nil_iff]
        intro a ha
        obtain ⟨v, rfl⟩ := c1 a ha
        rfl

theorem steps_came (cs : List Step) : ∀ {b : CriticalSection.Board (stream keep)}, Came keep g r b → InSections keep f b cs →
    ∃ (d : CriticalSection.Board (stream keep)) (parts : List Part) (shown : List Step), CriticalSection.run (stream keep) b (cs.flatMap Step.evs) = .ok d ∧ Came keep g r d ∧
      run keep b.obj (parts.flatMap Part.evs) = .ok d.obj ∧ InParts keep f b.obj parts ∧ parts.map Part.items = shown.map Step.items ∧ shown.Sublist cs ∧ shown.filter Step.ofMain = cs.filter Step.ofMain ∧
      d.served = b.served ++ shown.filterMap Step.source := by
  induction cs with
  | nil => intro b h _; exact ⟨b, [], [], rfl, h, rfl, h.idle, rfl, .slnil, rfl, by simp⟩
  | cons c cs ih =>
    intro b h hc
    obtain ⟨b', h1, h2, h3⟩ := step_came hg hn h c hc.1
    obtain ⟨d, parts, shown, k1, k2, k3, k4, k5, k6, k7, k8⟩ := ih h2 (hc.2 b' h1)
    have e : CriticalSection.run (stream keep) b ((c :: cs).flatMap Step.evs) = .ok d := by rw [List.flatMap_cons, board_app _ _ _ h1, k1]
    rcases h3 with ⟨p, p1, p2, p3, p4, p5⟩ | ⟨c1, rfl⟩
    · refine ⟨d, p :: parts, c :: shown, e, k2, ?_, ⟨h.idle, p1, p2, fun y hy => ?_⟩, by simp [p4, k5], k6.cons_cons c, ?_, ?_⟩
      · rw [List.flatMap_cons, run_app, p3]; exact k3
      · rw [p3] at hy; injection hy with hy; exact hy ▸ k4
      · rw [List.filter_cons, List.filter_cons, k7]
      · rw [k8, p5, List.append_assoc]
        cases hs : c.source <;> simp [hs]
    · exact ⟨d, parts, shown, e, k2, k3, k4, k5, k6.cons c, by rw [k7, List.filter_cons, c1]; rfl, k8⟩
end

end TextMany

/-- **C156.** Main code that prints between `EnableAll(false)` and `EnableAll()`, handlers that print whenever they run: the line carries what main code printed and what the handlers that ran printed, in
    the order in which they did, each in one piece — as long as the buffer has room. -/
theorem c156_sections (keep : Bool) (g : List Nat) (r : BitVec 8) (hg : 0 < g.length) (hn : g.length < 65536) (f : Format) (hf : Sensible f) (on : Bool) (cs : List Step)
    (hw : ∀ c ∈ cs, ∀ i ∈ c.items, Writable f i) (hc : InSections keep f (CriticalSection.Board.init _ (St.init g r) on) cs) :
    ∃ (d : CriticalSection.Board (stream keep)) (shown : List Step), CriticalSection.run (stream keep) (CriticalSection.Board.init _ (St.init g r) on) (cs.flatMap Step.evs) = .ok d ∧ d.obj.pc = .idle ∧
      shown.Sublist cs ∧ shown.filter Step.ofMain = cs.filter Step.ofMain ∧ shown.filterMap Step.source = d.served ∧
      (NoneRefused d.obj.log → ∀ n, (taken d.obj.log).length + 1 ≤ n → ∃ y, run keep d.obj (rounds n) = .ok y ∧ InOnePiece f (shown.map Step.items) y.s.hw.line) := by
  obtain ⟨d, parts, shown, k1, k2, k3, k4, k5, k6, k7, k8⟩ := steps_came hg hn cs (b := CriticalSection.Board.init _ (St.init g r) on) ⟨rfl, trivial, rfl⟩ hc
  refine ⟨d, shown, k1, k2.idle, k6, k7, k8.symm, ?_⟩
  obtain ⟨y, y1, _, y2⟩ := c156_lines_partial keep g r hg hn f hf parts (fun p hp i hi => by
    have : p.items ∈ shown.map Step.items := k5 ▸ List.mem_map_of_mem hp
    rw [List.mem_map] at this
    obtain ⟨c, c1, c2⟩ := this
    exact hw c (k6.subset c1) i (c2 ▸ hi)) k4
  change run keep (St.init g r) _ = .ok d.obj at k3
  rw [k3] at y1; injection y1 with y1; subst y1
  rw [← k5]
  exact y2

/-- **C156.** Interrupts off around every single character is not enough: a message printed by a handler between two characters of main code stands between them on the line. -/
theorem c156_torn_fails (keep : Bool) (g : List Nat) (b : BitVec 8) (hn : g.length < 65536) (u m v : List (BitVec 8)) (hl : u.length + m.length + v.length < g.length) (n : Nat)
    (hk : u.length + m.length + v.length + 1 ≤ n) :
    ∃ y, run keep (St.init g b) (u.flatMap alone ++ m.map .handler ++ v.flatMap alone ++ rounds n) = .ok y ∧ y.pc = .idle ∧ y.s.hw.line = (u ++ m ++ v).map BitVec.toNat := by
  have hg : 0 < g.length := by omega
  have al : ∀ w : List (BitVec 8), asked false (w.flatMap alone) = [] := by
    intro w
    induction w with
    | nil => rfl
    | cons x w ih =>
      rw [List.flatMap_cons]
      unfold asked at ih ⊢
      rw [List.filterMap_append, ih]
      rfl
  -- the length of what waits is at most what was taken
  have len : ∀ {es y}, Calm keep (St.init g b) es → run keep (St.init g b) es = .ok y → RingBuffer.getLength y.s.buf ≤ (taken y.log).length := by
    intro es y hc hr
    obtain ⟨z, rest, h1, h2, h3, _⟩ := c152_order_partial keep g b hg hn es hc
    rw [hr] at h1; injection h1 with h1; subst h1
    rw [h3, ← h2, List.length_append]; omega
  have put : ∀ {es y} (w : List (BitVec 8)), Calm keep (St.init g b) es → run keep (St.init g b) es = .ok y → y.pc = .idle → (taken y.log).length + w.length < g.length →
      ∃ z, run keep (St.init g b) (es ++ w.flatMap alone) = .ok z ∧ z.pc = .idle ∧ taken z.log = taken y.log ++ w.map BitVec.toNat ∧ Calm keep (St.init g b) (es ++ w.flatMap alone) := by
    intro es y w hc hr hp hl
    obtain ⟨z, h1, h2, h3⟩ := c152_room keep g b hg hn es hc y hr hp w
    have := len hc hr
    refine ⟨z, by rw [run_app, hr]; exact h1, h2, ?_, calm_app _ _ _ hc fun z _ => calm_main _ (al w) z⟩
    rw [h3, List.take_of_length_le (by rw [List.length_map]; omega)]
  have msg : ∀ (w : List (BitVec 8)) {es y}, Calm keep (St.init g b) es → run keep (St.init g b) es = .ok y → y.pc = .idle → (taken y.log).length + w.length < g.length →
      ∃ z, run keep (St.init g b) (es ++ w.map .handler) = .ok z ∧ z.pc = .idle ∧ taken z.log = taken y.log ++ w.map BitVec.toNat ∧ Calm keep (St.init g b) (es ++ w.map .handler) := by
    intro w
    induction w with
    | nil => intro es y hc hr hp _; exact ⟨y, by simpa using hr, hp, by simp, by simpa using hc⟩
    | cons x w ih =>
      intro es y hc hr hp hl
      rw [List.length_cons] at hl
      obtain ⟨z, h1, h2, h3, h4⟩ := c152_handler_partial keep g b hg hn es hc y hr x
      have := len hc hr
      rw [decide_eq_true (by omega)] at h2
      have hz : taken z.log = taken y.log ++ [x.toNat] := by rw [h2, taken_snoc, if_pos rfl]
      have hc1 : Calm keep (St.init g b) (es ++ [.handler x]) := calm_app _ _ _ hc fun z1 hz1 => by
        rw [hr] at hz1; injection hz1 with hz1; subst hz1
        exact calm_handler [.handler x] (by simp) _ hp
      have hr1 : run keep (St.init g b) (es ++ [.handler x]) = .ok z := by
        rw [run_app, hr]
        show (do let z ← step keep y (.handler x); run keep z []) = _
        rw [h1]; rfl
      obtain ⟨z', k1, k2, k3, k4⟩ := ih hc1 hr1 (h4.trans hp) (by rw [hz, List.length_append, List.length_singleton]; omega)
      rw [List.append_assoc] at k1 k4
      exact ⟨z', k1, k2, by rw [k3, hz, List.append_assoc]; rfl, k4⟩
  obtain ⟨y1, r1, p1, t1, c1⟩ := put (es := []) u trivial rfl rfl (by simp [St.init, taken]; omega)
  rw [show taken (St.init g b).log = [] from rfl, List.nil_append] at t1
  rw [List.nil_append] at r1 c1
  obtain ⟨y2, r2, p2, t2, c2⟩ := msg m c1 r1 p1 (by rw [t1, List.length_map]; omega)
  obtain ⟨y3, r3, p3, t3, c3⟩ := put v c2 r2 p2 (by rw [t2, t1]; simp; omega)
  have t4 : taken y3.log = (u ++ m ++ v).map BitVec.toNat := by rw [t3, t2, t1]; simp
  obtain ⟨y', k1, k2, _, _⟩ := c152_drain_partial keep g b hg hn _ c3 y3 r3 p3 n (by rw [t4]; simp; omega)
  refine ⟨y', by rw [run_app, r3]; exact k1, ?_, by rw [k2, t4]⟩
  rw [rounds_pc n k1, p3]

/-- The texts of numbers with two and with three digits. -/
theorem two_three : ∀ a b c : Fin 10, a ≠ 0 → writeI16 16 false {} (10 * a.val + b.val : Nat) = .ok [48 + a.val, 48 + b.val] ∧
    writeI16 16 false {} (100 * a.val + 10 * c.val + b.val : Nat) = .ok [48 + a.val, 48 + c.val, 48 + b.val] ∧ writeI16 16 false {} (c.val : Nat) = .ok [48 + c.val] := by
  decide +kernel

/-- **C156.** So a reader can be given a number nobody printed: main code prints a number of two digits, a handler one of one digit, and the line carries the text of a number of three digits. -/
theorem c156_number_fails (keep : Bool) (g : List Nat) (r : BitVec 8) (h3 : 3 < g.length) (hn : g.length < 65536) (a b c : Fin 10) (ha : a ≠ 0) (n : Nat) (hk : 4 ≤ n) :
    ∃ es y, run keep (St.init g r) (es ++ rounds n) = .ok y ∧ y.pc = .idle ∧ writeI16 16 false {} (10 * a.val + b.val : Nat) = .ok (asked true es) ∧ writeI16 16 false {} (c.val : Nat) = .ok (asked false es) ∧
      writeI16 16 false {} (100 * a.val + 10 * c.val + b.val : Nat) = .ok y.s.hw.line := by
  obtain ⟨t1, t2, t3⟩ := two_three a b c ha
  have small : ∀ d : Fin 10, (BitVec.ofNat 8 (48 + d.val)).toNat = 48 + d.val := by decide
  obtain ⟨y, r1, r2, r3⟩ := c156_torn_fails keep g r hn [BitVec.ofNat 8 (48 + a.val)] [BitVec.ofNat 8 (48 + c.val)] [BitVec.ofNat 8 (48 + b.val)] h3 n hk
  refine ⟨_, y, r1, r2, ?_, ?_, ?_⟩
  · rw [t1]
    show _ = Res.ok [(BitVec.ofNat 8 (48 + a.val)).toNat, (BitVec.ofNat 8 (48 + b.val)).toNat]
    rw [small, small]
  · rw [t3]
    show _ = Res.ok [(BitVec.ofNat 8 (48 + c.val)).toNat]
    rw [small]
  · rw [t2, r3]
    show _ = Res.ok [(BitVec.ofNat 8 (48 + a.val)).toNat, (BitVec.ofNat 8 (48 + c.val)).toNat, (BitVec.ofNat 8 (48 + b.val)).toNat]
    rw [small, small, small]

/-- **C156.** The full claim — what main code prints as one text is one piece of the line, if every character is written with interrupts off and nothing is refused — is false. -/
theorem c156_full_claim_is_false :
    ¬ ∀ (keep : Bool) (g : List Nat) (b : BitVec 8) (es : List UsartWriters.Ev) (y : St) (x : Int), 0 < g.length → g.length < 65536 → Calm keep (St.init g b) es → OneAtATime keep (St.init g b) es →
        writeI16 16 false {} x = .ok (asked true es) → run keep (St.init g b) es = .ok y → y.pc = .idle → NoneRefused y.log → y.s.hw.line.length = (taken y.log).length →
        asked true es <:+: y.s.hw.line := by
  intro h
  have := h false [0, 0, 0, 0, 0] 0x08#8 (alone 49#8 ++ [.handler 55#8] ++ alone 50#8 ++ rounds 4) _ 12 (by decide) (by decide) (by decide +kernel) (by decide +kernel) (by decide +kernel) rfl rfl (by decide +kernel) (by decide +kernel)
  revert this
  decide +kernel

/-! ### Examples -/

/-- Main code prints 42 and a handler -7, each with the new line; the stream's interrupt and a frame come while main code prints. -/
def printed : List Part :=
  [⟨true, [.int 42], alone 52#8 ++ [.isr] ++ alone 50#8 ++ [.frame] ++ alone 10#8 ++ [.isr] ++ alone 13#8⟩, ⟨false, [.int (-7)], [45#8, 55#8, 10#8, 13#8].map .handler⟩]

theorem printed_ok : InParts false {} (St.init (List.replicate 9 0) 0x08#8) printed :=
  ⟨rfl, ⟨by decide +kernel, rfl, fun h => nomatch h⟩, by decide +kernel, fun y h => by
    injection h with h; subst h
    exact ⟨rfl, ⟨by decide +kernel, rfl, fun _ e he => by simp only [List.map_cons, List.map_nil, List.mem_cons, List.not_mem_nil, or_false] at he; rcases he with h | h | h | h <;> exact ⟨_, h⟩⟩, by decide +kernel,
      fun z hz => by injection hz with hz; subst hz; rfl⟩⟩

example := c156_lines_partial false (List.replicate 9 0) 0x08#8 (by decide) (by decide) {} ⟨by decide, by decide, by decide, by decide⟩ printed
  (by simp [printed, Writable]) printed_ok
example : Sections.okB (fun y => decide (NoneRefused y.log ∧ y.s.hw.line = [52, 50, 10, 13, 45, 55, 10, 13])) (run false (St.init (List.replicate 9 0) 0x08#8) (printed.flatMap Part.evs ++ rounds 9)) = true := by decide +kernel
/-- A handler prints between the characters of main code, and at harmless moments of its calls. -/
example := c156_merge_partial false (List.replicate 9 0) 0x08#8 (by decide) (by decide) (alone 49#8 ++ [.handler 55#8, .write 50#8, .handler 56#8] ++ List.replicate 6 .main) (by decide +kernel) (by decide +kernel) _ rfl rfl
  (by decide +kernel) 5 (by decide +kernel)
example := c156_torn_fails true (List.replicate 9 0) 0x08#8 (by decide) [49#8, 50#8] [33#8, 10#8, 13#8] [51#8] (by decide) 7 (by decide)
example := c156_number_fails true (List.replicate 4 0) 0x08#8 (by decide) (by decide) 4 2 7 (by decide) 5 (by decide)

/-- A handler is requested while main code prints 42, and runs behind the section; the stream's own handler is requested before and behind. -/
def inSections : List Step :=
  [.free (.request 2), .printing [.int 42] (((alone 52#8).map .main) ++ [.request 1, .serve 1 [.handler 45#8]] ++ (alone 50#8 ++ alone 10#8 ++ alone 13#8).map .main), .handler 1 [.int (-7)] ([45#8, 55#8, 10#8, 13#8].map .handler),
    .free .other, .handler 1 [.int (-7)] ([45#8, 55#8, 10#8, 13#8].map .handler), .free (.main .frame), .handler 2 [] [.isr]]

theorem inSections_ok : InSections false {} (CriticalSection.Board.init (stream false) (St.init (List.replicate 9 0) 0x08#8) true) inSections := by
  have hh : ∀ a ∈ [45#8, 55#8, 10#8, 13#8].map UsartWriters.Ev.handler, ∃ v, a = .handler v := by
    intro a ha
    rw [List.mem_map] at ha
    obtain ⟨v, _, h⟩ := ha
    exact ⟨v, h.symm⟩
  refine ⟨trivial, fun _ h => ?_⟩
  injection h with h; subst h
  refine ⟨⟨?_, by decide +kernel, by decide +kernel, fun _ h => by injection h with h; subst h; rfl⟩, fun _ h => ?_⟩
  · simp [alone, Inside, List.replicate]
  injection h with h; subst h
  refine ⟨.inr ⟨hh, by decide +kernel⟩, fun _ h => ?_⟩
  injection h with h; subst h
  refine ⟨trivial, fun _ h => ?_⟩
  injection h with h; subst h
  refine ⟨.inr ⟨hh, by decide +kernel⟩, fun _ h => ?_⟩
  injection h with h; subst h
  refine ⟨trivial, fun _ h => ?_⟩
  injection h with h; subst h
  exact ⟨.inl ⟨rfl, rfl⟩, fun _ _ => trivial⟩

example := c156_sections false (List.replicate 9 0) 0x08#8 (by decide) (by decide) {} ⟨by decide, by decide, by decide, by decide⟩ true inSections (by simp [inSections, Step.items, Writable]) inSections_ok
example : Sections.okB (fun d => decide (d.served = [1, 2] ∧ NoneRefused d.obj.log ∧ taken d.obj.log = [52, 50, 10, 13, 45, 55, 10, 13]))
    (CriticalSection.run (stream false) (CriticalSection.Board.init _ (St.init (List.replicate 9 0) 0x08#8) true) (inSections.flatMap Step.evs)) = true := by decide +kernel

end Atl.Props
