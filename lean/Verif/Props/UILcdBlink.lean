import Verif.Props.UILcdEdit

/- C83: what exactly happens to the blinking when pages are shown. -/
namespace Atl.Props
open Atl.UI Atl.UI.Control Atl.Lcd Atl.Spec.Lcd

/-- Data or an address: nothing that changes the settings of the display. -/
def CalmCall (c : Call) : Prop := (∃ x, c = .data x) ∨ ∃ a, 128 ≤ a ∧ c = .command a

theorem calm_exec (bs : List (Bool × Nat)) (h : ∀ c ∈ bs.map toCall, CalmCall c) (d : Device) (f : Flags) (hd : d.showsDisplay f) :
    (execAll d bs).showsDisplay f := by
  induction bs generalizing d with
  | nil => exact hd
  | cons b bs ih =>
    refine ih (fun c hc => h c (by simp only [List.map_cons, List.mem_cons]; exact Or.inr hc)) (exec d b.1 b.2) ?_
    have hq := h (toCall b) (by simp)
    obtain ⟨a, v⟩ := b
    cases a with
    | true =>
      unfold exec
      rw [if_pos rfl]
      simp only
      split <;> exact hd
    | false =>
      have : 128 ≤ v := by
        rcases hq with ⟨x, e⟩ | ⟨x, hx, e⟩
        · simp [toCall] at e
        · simp only [toCall, Bool.false_eq_true, if_false, Call.command.injEq] at e
          omega
      simp only [exec, Bool.false_eq_true, if_false, if_pos this]
      exact hd

theorem calm_address {rows : Nat} {s : View.State} {l : List Call} (h : View.writeAddress rows s = .ok l) : ∀ c ∈ l, CalmCall c := by
  unfold View.writeAddress at h
  cases ha : View.calcAddress rows s.row s.col with
  | ub => rw [ha] at h; exact absurd h (by simp [Res.bind_ub])
  | ok a =>
    rw [ha] at h
    simp only [Res.bind_ok, Res.ok.injEq] at h
    subst h
    intro c hc
    simp only [Controller.writeDisplayAddress, List.mem_cons, List.not_mem_nil, or_false] at hc
    subst hc
    exact Or.inr ⟨_, Nat.right_le_or, rfl⟩

theorem calm_move {rows : Nat} {s t s' : View.State} {l : List Call} (ht : t.regs = s.regs)
    (h : (do .ok (t, ← View.writeAddress rows t)) = Res.ok (s', l)) : s'.regs = s.regs ∧ ∀ c ∈ l, CalmCall c := by
  cases ha : View.writeAddress rows t with
  | ub => rw [ha] at h; exact absurd h (by simp [Res.bind_ub])
  | ok a =>
    rw [ha] at h
    simp only [Res.bind_ok, Res.ok.injEq, Prod.mk.injEq] at h
    obtain ⟨rfl, rfl⟩ := h
    exact ⟨ht, calm_address ha⟩

theorem calm_put {rows : Nat} {s s' : View.State} {c : Nat} {l : List Call} (h : View.write rows s c = .ok (s', l)) :
    s'.regs = s.regs ∧ ∀ c ∈ l, CalmCall c := by
  unfold View.write at h
  split at h
  · exact calm_move (by unfold View.incRow; split <;> rfl) h
  · split at h
    · exact calm_move (t := { s with col := 0 }) rfl h
    · simp only [Res.ok.injEq, Prod.mk.injEq] at h
      obtain ⟨rfl, rfl⟩ := h
      refine ⟨?_, fun c hc => ?_⟩
      · unfold View.incCol View.incRow
        split
        · split <;> rfl
        · rfl
      · simp only [List.mem_cons, List.not_mem_nil, or_false] at hc
        exact Or.inl ⟨_, hc⟩

theorem calm_text {rows : Nat} (t : List Nat) {s s' : View.State} {l : List Call} (h : View.run rows s (t.map .put) = .ok (s', l)) :
    s'.regs = s.regs ∧ ∀ c ∈ l, CalmCall c := by
  induction t generalizing s l with
  | nil =>
    simp only [List.map_nil, View.run, Res.ok.injEq, Prod.mk.injEq] at h
    obtain ⟨rfl, rfl⟩ := h
    exact ⟨rfl, by simp⟩
  | cons c t ih =>
    simp only [List.map_cons, View.run, View.step] at h
    cases h1 : View.write rows s c with
    | ub => rw [h1] at h; exact absurd h (by simp [Res.bind_ub])
    | ok r =>
      obtain ⟨s1, l1⟩ := r
      rw [h1] at h
      simp only [Res.bind_ok] at h
      cases h2 : View.run rows s1 (t.map .put) with
      | ub => rw [h2] at h; exact absurd h (by simp [Res.bind_ub])
      | ok r =>
        obtain ⟨s2, l2⟩ := r
        rw [h2] at h
        simp only [Res.bind_ok, Res.ok.injEq, Prod.mk.injEq] at h
        obtain ⟨rfl, rfl⟩ := h
        obtain ⟨a1, a2⟩ := calm_put h1
        obtain ⟨b1, b2⟩ := ih h2
        refine ⟨b1.trans a1, fun c hc => ?_⟩
        rcases List.mem_append.1 hc with hc | hc
        · exact a2 c hc
        · exact b2 c hc

/-- Calls that say nothing about blinking: everything but a `SetCursor` with a place. -/
def Calm : Out → Prop
  | .setCursor r c _ => r = 255 ∧ c = 255
  | _ => True

/-- Such calls leave the blinking as it is. -/
theorem calm_calls {rows : Nat} (os : List Out) (ho : ∀ o ∈ os, Calm o) {s s' : View.State} (bs : List (Bool × Nat))
    (e : UILcd.calls rows s os = .ok (s', bs.map toCall)) (f : Flags) (hf : Reads s.regs f) (d : Device) (hd : d.showsDisplay f) :
    (execAll d bs).blink = d.blink := by
  have hout : d.blink = f.blink := hd.2.2
  suffices ∃ f', Reads s'.regs f' ∧ (execAll d bs).showsDisplay f' ∧ f'.blink = f.blink by
    obtain ⟨f', -, h2, h3⟩ := this
    rw [hout, ← h3]; exact h2.2.2
  clear hout
  induction os generalizing s f d bs with
  | nil =>
    simp only [UILcd.calls, Res.ok.injEq, Prod.mk.injEq] at e
    obtain ⟨rfl, e⟩ := e
    have : bs = [] := by simpa using e.symm
    subst this
    exact ⟨f, hf, hd, rfl⟩
  | cons o os ih =>
    simp only [UILcd.calls] at e
    cases h1 : UILcd.call rows s o with
    | ub => rw [h1] at e; exact absurd e (by simp [Res.bind_ub])
    | ok r =>
      obtain ⟨s1, l1⟩ := r
      rw [h1] at e
      simp only [Res.bind_ok] at e
      cases h2 : UILcd.calls rows s1 os with
      | ub => rw [h2] at e; exact absurd e (by simp [Res.bind_ub])
      | ok r =>
        obtain ⟨s2, l2⟩ := r
        rw [h2] at e
        simp only [Res.bind_ok, Res.ok.injEq, Prod.mk.injEq] at e
        obtain ⟨rfl, e⟩ := e
        obtain ⟨b1, b2, rfl, rfl, rfl⟩ := List.map_eq_append_iff.1 e.symm
        have one : ∃ f', Reads s1.regs f' ∧ (execAll d b1).showsDisplay f' ∧ f'.blink = f.blink := by
          have keep : s1.regs = s.regs → (∀ c ∈ b1.map toCall, CalmCall c) → ∃ f', Reads s1.regs f' ∧ (execAll d b1).showsDisplay f' ∧ f'.blink = f.blink :=
            fun k1 k2 => ⟨f, by rw [k1]; exact hf, calm_exec b1 k2 d f hd, rfl⟩
          cases o with
          | undef => simp [UILcd.call] at h1
          | write t =>
            obtain ⟨k1, k2⟩ := calm_text _ (show View.run rows s ((t.map (toU 8 ·)).map .put) = _ from h1)
            exact keep k1 k2
          | goTo r c =>
            simp only [UILcd.call, Writer.goTo, View.setCursor] at h1
            obtain ⟨k1, k2⟩ := calm_move (s := s) (t := { row := if r = Writer.dontCare then s.row else r, col := if c = Writer.dontCare then s.col else c, regs := s.regs }) rfl h1
            exact keep k1 k2
          | setCursor r c edit =>
            obtain ⟨rfl, rfl⟩ := ho (.setCursor r c edit) (by simp)
            obtain ⟨r, b, e1, -, e3, e4⟩ := c63_cursorOff rows s f hf d hd edit
            simp only [UILcd.call] at h1
            rw [e1] at h1
            simp only [Res.ok.injEq, Prod.mk.injEq] at h1
            obtain ⟨rfl, h1⟩ := h1
            have : b1 = [b] := List.map_injective_iff.2 (fun x y h => toCall_inj h) (h1.symm.trans rfl)
            subst this
            refine ⟨_, e3, ?_, rfl⟩
            show (exec d b.1 b.2).showsDisplay _
            rw [e4]
            exact ⟨hd.1, rfl, hd.2.2⟩
        obtain ⟨f1, g1, g2, g3⟩ := one
        obtain ⟨f2, i1, i2, i3⟩ := ih (fun o ho' => ho o (List.mem_cons_of_mem _ ho')) b2 h2 f1 g1 _ g2
        exact ⟨f2, i1, by simpa only [execAll, List.foldl_append] using i2, i3.trans g3⟩

theorem calm_page {α : Type} [Control α] {draw : α → List Int} {p : Page α} (h : Drawable draw p) (hn : ¬ ∃ l k, Current p l k) (m : Mode) :
    ∀ o ∈ display m p, Calm o := by
  intro o ho
  have ho : o ∈ Panel.displayVertical .normal p.panel ++ Page.displayCursor p.panel := ho
  rcases List.mem_append.1 ho with ho | ho
  · simp only [Panel.displayVertical] at ho
    rw [if_neg (by decide)] at ho
    obtain ⟨l, hl, ho⟩ := List.mem_flatMap.1 ho
    split at ho
    · simp at ho
    · rcases List.mem_cons.1 ho with rfl | ho
      · trivial
      · have : Control.display Mode.normal l = Panel.displayHorizontal .normal l := by
          show (match l.kind with
            | .horizontal => Panel.displayHorizontal .normal l
            | .vertical => Panel.displayVertical .normal l
            | _ => _) = _
          rw [h.kind l hl]
        rw [this] at ho
        simp only [Panel.displayHorizontal] at ho
        rw [if_neg (by decide)] at ho
        obtain ⟨k, hk, ho⟩ := List.mem_flatMap.1 ho
        split at ho
        · simp at ho
        · rename_i hs
          rcases List.mem_cons.1 ho with rfl | ho
          · trivial
          · rcases h.draws l hl k hk (by simpa using hs) with e | ⟨-, e⟩
            · rw [e] at ho
              simp only [List.mem_cons, List.not_mem_nil, or_false] at ho
              subst ho; trivial
            · rw [e] at ho; simp at ho
  · rw [displayCursor_none hn] at ho
    simp only [List.mem_cons, List.not_mem_nil, or_false] at ho
    subst ho
    exact ⟨rfl, rfl⟩

/-- The current control of a page, if there is one. -/
def currentOf {α : Type} (p : Page α) : Option α := do
  let i ← p.panel.cur
  let l ← p.panel.kids[i]?
  let j ← l.cur
  l.kids[j]?

theorem currentOf_iff {α : Type} (p : Page α) (k : α) : currentOf p = some k ↔ ∃ l, Current p l k := by
  unfold currentOf Current
  cases p.panel.cur with
  | none => simp
  | some i =>
    simp only [Option.bind_eq_bind, Option.bind_some]
    cases hl : p.panel.kids[i]? with
    | none => simp [hl]
    | some l =>
      simp only [Option.bind_some]
      cases hj : l.cur with
      | none => simp [hl, hj]
      | some j => simp [hl, hj]

/-- Whether something blinks after a page, according to whether it did before: as the current control says, and without one as before. -/
def blinkAfter {α : Type} [Control α] (b : Bool) (p : Page α) : Bool := match currentOf p with
  | some k => state k == .selected
  | none => b

/-- **C83, the blinking exactly.** After any sequence of pages the display blinks exactly if the current control was selected on the last page that had a current
    control: pages without one leave the blinking on that the page before has left (`c83_blink_fails` is an instance). The underline is on exactly if the
    last page has a current control. -/
theorem c83_blink_exact {α : Type} [Control α] (rows : Nat) (h1 : 1 ≤ rows) (h4 : rows ≤ 4) (draw : α → List Int) (ps : List (Page α))
    (h : ∀ x ∈ ps, Drawable draw x ∧ FitsLcd rows draw x ∧ ∀ l k, Current x l k → ∃ q, CursorAt k q ∧ q < columns rows) (m : Mode)
    (s : View.State) (d : Device) (hr : LcdReady s d) :
    ∃ s' bs, UILcd.calls rows s (ps.flatMap (display m)) = .ok (s', bs.map toCall) ∧ (execAll d bs).blink = ps.foldl blinkAfter d.blink ∧
      ∀ p, ps.getLast? = some p → (execAll d bs).cursor = (currentOf p).isSome := by
  suffices key : ∃ s' bs, UILcd.calls rows s (ps.flatMap (display m)) = .ok (s', bs.map toCall) ∧ (execAll d bs).blink = ps.foldl blinkAfter d.blink ∧
      (execAll d bs).cursor = ps.foldl (fun _ p => (currentOf p).isSome) d.cursor by
    obtain ⟨s', bs, e, b, c⟩ := key
    refine ⟨s', bs, e, b, fun p hp => ?_⟩
    rw [c]
    obtain ⟨ys, rfl⟩ := List.getLast?_eq_some_iff.1 hp
    simp
  induction ps generalizing s d with
  | nil => exact ⟨s, [], rfl, rfl, rfl⟩
  | cons p ps ih =>
    obtain ⟨a, b, c⟩ := h p (by simp)
    obtain ⟨s1, b1, e1, v1, -, c1, n1, r1⟩ := page_onLcd rows h1 h4 draw p a b c m s d hr
    obtain ⟨s2, b2, e2, k2, l2⟩ := ih (fun x hx => h x (List.mem_cons_of_mem _ hx)) s1 _ r1
    have ex : execAll d (b1 ++ b2) = execAll (execAll d b1) b2 := by simp only [execAll, List.foldl_append]
    have one : (execAll d b1).blink = blinkAfter d.blink p ∧ (execAll d b1).cursor = (currentOf p).isSome := by
      unfold blinkAfter
      cases hc : currentOf p with
      | some k =>
        obtain ⟨l, hl⟩ := (currentOf_iff p k).1 hc
        obtain ⟨q, hq, -⟩ := c l k hl
        obtain ⟨x1, x2, -⟩ := c1 l k q hl hq
        exact ⟨x2, x1⟩
      | none =>
        have hn : ¬ ∃ l k, Current p l k := by
          rintro ⟨l, k, hl⟩
          rw [(currentOf_iff p k).2 ⟨l, hl⟩] at hc
          cases hc
        obtain ⟨f, g1, g2⟩ := hr.flags
        exact ⟨calm_calls _ (calm_page a hn m) b1 e1 f g1 d g2, n1 hn⟩
    refine ⟨s2, b1 ++ b2, ?_, ?_, ?_⟩
    · rw [List.flatMap_cons, lcdCalls_append, e1]
      simp only [Res.bind_ok, e2, List.map_append]
    · rw [ex, k2, one.1]; rfl
    · rw [ex, l2, one.2]; rfl

/-- The pages of `c83_blink_fails`: a selected control, then no current control. -/
example : cursorPages.foldl blinkAfter false = true ∧ (cursorPages.map fun p => (currentOf p).isSome) = [true, false] := by decide +kernel

end Atl.Props
