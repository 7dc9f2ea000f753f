import Verif.Props.Lcd

/- C43: what holds for every text, also text that does not fit: the view finds back, and where a long text goes. -/
namespace Atl.Props
open Atl Atl.Lcd Atl.Spec.Lcd

/-- What a program can do with a view between two initialisations, with byte arguments, except to change the writing direction. -/
def UsualOp : View.Op → Prop
  | .put c => c < 256
  | .setCursor r c => r < 256 ∧ c < 256
  | .home | .clear => True
  | .startUp full => full = false
  | .setting x => match x with
    | .enableBlink _ | .enableCursor _ | .enableDisplay _ | .displayControl _ _ _ => True
    | _ => False

/-- The display is in two line mode, writes to the right and into its text memory. -/
def TextReady (d : Device) : Prop := d.cg = false ∧ d.increment = true ∧ d.twoLine = true

theorem ready_data (d : Device) (h : TextReady d) (b : Nat) : TextReady (exec d true b) := by
  obtain ⟨h1, h2, h3⟩ := h
  simp [TextReady, exec, h1, h2, h3]

theorem ready_address (d : Device) (h : TextReady d) (b : Nat) (hb : 128 ≤ b) : TextReady (exec d false b) := by
  obtain ⟨h1, h2, h3⟩ := h
  simp [TextReady, exec, hb, h2, h3]

theorem or128_ge (a : Nat) (h : a < 256) : 128 ≤ a ||| 0x80 ∧ a ||| 0x80 < 256 := by
  have : ∀ a : Fin 256, 128 ≤ a.val ||| 0x80 ∧ a.val ||| 0x80 < 256 := by decide +kernel
  exact this ⟨a, h⟩

/-- The view sends an address command at every position, also one outside the screen. -/
theorem writeAddress_any (rows : Nat) (h4 : rows ≤ 4) (h1 : 1 ≤ rows) (s : View.State) :
    ∃ b, View.writeAddress rows s = .ok [toCall (false, b)] ∧ 128 ≤ b ∧ b < 256 := by
  have hoff : ∃ o, cGet View.rowOffsets (if s.row ≥ rows then 0 else s.row) = .ok o := by
    by_cases h : s.row ≥ rows
    · exact ⟨0, by simp [h, cGet, View.rowOffsets]⟩
    · have : s.row = 0 ∨ s.row = 1 ∨ s.row = 2 ∨ s.row = 3 := by omega
      simp only [if_neg h]
      rcases this with e | e | e | e <;> rw [e] <;> exact ⟨_, rfl⟩
  obtain ⟨o, ho⟩ := hoff
  have hlt : toU 8 ((o : Int) + s.col) < 256 := by unfold toU; omega
  refine ⟨toU 8 ((o : Int) + s.col) ||| 0x80, ?_, or128_ge _ hlt⟩
  simp only [View.writeAddress, View.calcAddress, ho, Res.bind_ok, Controller.writeDisplayAddress]
  rfl

theorem setBool_ok (r : Controller.Regs) (i : Nat) (v : Bool) (hi : i < 8) : ∃ r', Controller.setReg r i v = .ok r' := by
  unfold Controller.setReg Bits.BitArray.setBool Bits.BitArray.isValidIndex Bits.shlOne
  simp [show i + 1 ≤ 8 by omega, show i < 16 by omega]

theorem displayControl_ready (d : Device) (h : TextReady d) (r : Controller.Regs) :
    ∃ b, Controller.displayControl r = toCall (false, b) ∧ b < 256 ∧ ¬ selects8 (false, b) ∧ TextReady (exec d false b) := by
  have hk : ∀ r : BitVec 8, 8 ≤ ((r.toNat &&& 0x07) ||| 0x08) ∧ ((r.toNat &&& 0x07) ||| 0x08) < 16 := by decide +kernel
  obtain ⟨k1, k2⟩ := hk r
  refine ⟨_, rfl, by omega, by simp only [selects8]; omega, ?_⟩
  obtain ⟨h1, h2, h3⟩ := h
  simp only [exec, Bool.false_eq_true, if_false]
  rw [if_neg (by omega), if_neg (by omega), if_neg (by omega), if_neg (by omega), if_pos (by omega)]
  exact ⟨h1, h2, h3⟩

/-- One usual operation, fitting or not: it is defined and leaves the display ready. -/
theorem usual_step (rows : Nat) (h1 : 1 ≤ rows) (h4 : rows ≤ 4) (s : View.State) (d : Device) (hd : TextReady d) (x : View.Op) (hx : UsualOp x) :
    ∃ s' bs, View.step rows s x = .ok (s', bs.map toCall) ∧ (∀ b ∈ bs, b.2 < 256 ∧ ¬ selects8 b) ∧ TextReady (execAll d bs) := by
  have addr : ∀ s1 : View.State, ∃ bs, View.writeAddress rows s1 = .ok (bs.map toCall) ∧ (∀ b ∈ bs, b.2 < 256 ∧ ¬ selects8 b) ∧ TextReady (execAll d bs) := by
    intro s1
    obtain ⟨b, e, e1, e2⟩ := writeAddress_any rows h4 h1 s1
    refine ⟨[(false, b)], e, ?_, ready_address d hd b e1⟩
    intro y hy
    simp only [List.mem_singleton] at hy
    subst hy
    exact ⟨e2, by simp only [selects8]; omega⟩
  cases x with
  | put c =>
    simp only [View.step, View.write]
    by_cases c1 : c = 10
    · obtain ⟨bs, e, k, r⟩ := addr (View.incRow rows s)
      exact ⟨_, bs, by simp only [c1, if_true]; rw [e]; rfl, k, r⟩
    · by_cases c2 : c = 13
      · obtain ⟨bs, e, k, r⟩ := addr { s with col := 0 }
        exact ⟨_, bs, by rw [if_neg c1, if_pos c2, e]; rfl, k, r⟩
      · exact ⟨View.incCol rows s, [(true, c)], by rw [if_neg c1, if_neg c2]; rfl, by
          intro b hb
          simp only [List.mem_singleton] at hb
          subst hb
          exact ⟨hx, by simp [selects8]⟩, ready_data d hd c⟩
  | setCursor r c =>
    obtain ⟨bs, e, k, q⟩ := addr { s with row := r, col := c }
    exact ⟨_, bs, by simp only [View.step, View.setCursor]; rw [e]; rfl, k, q⟩
  | home =>
    obtain ⟨g1, g2, g3⟩ := hd
    exact ⟨{ s with row := 0, col := 0 }, [(false, 2)], rfl, by simp [selects8], ⟨rfl, g2, g3⟩⟩
  | clear =>
    obtain ⟨g1, g2, g3⟩ := hd
    exact ⟨s, [(false, 1)], rfl, by simp [selects8], ⟨rfl, rfl, g3⟩⟩
  | startUp full =>
    obtain ⟨g1, g2, g3⟩ := hd
    simp only [UsualOp] at hx
    subst hx
    exact ⟨s, [(false, 1), (false, 2)], rfl, by simp [selects8], ⟨rfl, rfl, g3⟩⟩
  | setting x =>
    have one : ∀ r : Controller.Regs, ∃ bs, [Controller.displayControl r] = bs.map toCall ∧ (∀ b ∈ bs, b.2 < 256 ∧ ¬ selects8 b) ∧ TextReady (execAll d bs) := by
      intro r
      obtain ⟨b, e, e1, e2, e3⟩ := displayControl_ready d hd r
      refine ⟨[(false, b)], by simp [e], ?_, e3⟩
      intro y hy
      simp only [List.mem_singleton] at hy
      subst hy
      exact ⟨e1, e2⟩
    cases x with
    | enableBlink v =>
      obtain ⟨r', e⟩ := setBool_ok s.regs Controller.blink v (by decide)
      obtain ⟨bs, q, k, r⟩ := one r'
      exact ⟨{ s with regs := r' }, bs, by simp only [View.step, Controller.set, e, Res.bind_ok, q], k, r⟩
    | enableCursor v =>
      obtain ⟨r', e⟩ := setBool_ok s.regs Controller.cursor v (by decide)
      obtain ⟨bs, q, k, r⟩ := one r'
      exact ⟨{ s with regs := r' }, bs, by simp only [View.step, Controller.set, e, Res.bind_ok, q], k, r⟩
    | enableDisplay v =>
      obtain ⟨r', e⟩ := setBool_ok s.regs Controller.display v (by decide)
      obtain ⟨bs, q, k, r⟩ := one r'
      exact ⟨{ s with regs := r' }, bs, by simp only [View.step, Controller.set, e, Res.bind_ok, q], k, r⟩
    | displayControl a b c =>
      obtain ⟨r1, e1⟩ := setBool_ok s.regs Controller.blink c (by decide)
      obtain ⟨r2, e2⟩ := setBool_ok r1 Controller.cursor b (by decide)
      obtain ⟨r3, e3⟩ := setBool_ok r2 Controller.display a (by decide)
      obtain ⟨bs, q, k, r⟩ := one r3
      exact ⟨{ s with regs := r3 }, bs, by simp only [View.step, Controller.set, e1, e2, e3, Res.bind_ok, q], k, r⟩
    | entryDirection _ => exact absurd hx (by simp [UsualOp])
    | displayShift _ => exact absurd hx (by simp [UsualOp])
    | entryMode _ _ => exact absurd hx (by simp [UsualOp])

/-- Any usual history. -/
theorem usual_run (rows : Nat) (h1 : 1 ≤ rows) (h4 : rows ≤ 4) (s : View.State) (d : Device) (hd : TextReady d) (l : List View.Op) (hl : ∀ x ∈ l, UsualOp x) :
    ∃ s' bs, View.run rows s l = .ok (s', bs.map toCall) ∧ (∀ b ∈ bs, b.2 < 256 ∧ ¬ selects8 b) ∧ TextReady (execAll d bs) := by
  induction l generalizing s d with
  | nil => exact ⟨s, [], rfl, by simp, hd⟩
  | cons x l ih =>
    obtain ⟨s1, b1, e1, k1, r1⟩ := usual_step rows h1 h4 s d hd x (hl x (by simp))
    obtain ⟨s2, b2, e2, k2, r2⟩ := ih s1 _ r1 (fun y hy => hl y (by simp [hy]))
    refine ⟨s2, b1 ++ b2, by simp [View.run, e1, e2], ?_, by simpa [execAll] using r2⟩
    intro y hy
    rcases List.mem_append.1 hy with h | h
    · exact k1 y h
    · exact k2 y h

theorem view_run_append (rows : Nat) (s : View.State) (l m : List View.Op) {s1 s2 : View.State} {c1 c2 : List Call}
    (e1 : View.run rows s l = .ok (s1, c1)) (e2 : View.run rows s1 m = .ok (s2, c2)) : View.run rows s (l ++ m) = .ok (s2, c1 ++ c2) := by
  induction l generalizing s c1 with
  | nil => simp only [View.run, Res.ok.injEq, Prod.mk.injEq] at e1; obtain ⟨rfl, rfl⟩ := e1; simpa using e2
  | cons x l ih =>
    simp only [View.run, List.cons_append] at *
    cases hx : View.step rows s x with
    | ub => rw [hx] at e1; cases e1
    | ok p =>
      obtain ⟨a, q⟩ := p
      rw [hx] at e1
      simp only [Res.bind_ok] at e1 ⊢
      cases hy : View.run rows a l with
      | ub => rw [hy] at e1; cases e1
      | ok p' =>
        obtain ⟨a', q'⟩ := p'
        rw [hy] at e1
        simp only [Res.bind_ok, Res.ok.injEq, Prod.mk.injEq] at e1
        obtain ⟨rfl, rfl⟩ := e1
        rw [ih a hy]
        simp

/-- **C43, recovery.** Whatever happened before - text over the end of a line, line feeds in the last row, cursor positions outside the screen, `ClearDisplay`, a short
    `Initialize` -, a `SetCursor` into the screen (or `ReturnHome`) brings view and display together again, nothing undefined happens, and any text that
    fits stands where the view says; the rest of the display memory is what it was. -/
theorem c43_recovers (rows : Nat) (h1 : 1 ≤ rows) (h4 : rows ≤ 4) (s : View.State) (d : Device) (hd : TextReady d) (before : List View.Op)
    (hb : ∀ x ∈ before, UsualOp x) (p : TextOp) (hp : (∃ r c, p = .moveTo r c ∧ r < rows ∧ c < columns rows) ∨ p = .home) :
    ∃ (s0 : View.State) (b0 : List (Bool × Nat)) (z0 : Screen), View.run rows s before = .ok (s0, b0.map toCall) ∧
      (∀ r c, r < rows → c < columns rows → z0.text r c = (execAll d b0).ddram (cell r c)) ∧
      ∀ l : List TextOp, (∀ x ∈ l, Plain x) → (z0.step p).fitsAll rows l →
        ∃ s' bs, View.run rows s (before ++ viewOp p :: l.map viewOp) = .ok (s', (b0 ++ bs).map toCall) ∧ (∀ b ∈ b0 ++ bs, b.2 < 256 ∧ ¬ selects8 b) ∧
          Tracks rows s' (execAll d (b0 ++ bs)) ((z0.step p).run l) := by
  obtain ⟨s0, b0, e0, k0, r0⟩ := usual_run rows h1 h4 s d hd before hb
  obtain ⟨D, hD⟩ : ∃ D, D = execAll d b0 := ⟨_, rfl⟩
  rw [← hD] at r0
  have hpos : 0 < columns rows := by simp only [columns]; split_ifs <;> omega
  refine ⟨s0, b0, ⟨0, 0, fun r c => D.ddram (cell r c)⟩, e0, fun r c _ _ => by rw [hD], ?_⟩
  obtain ⟨g1, g2, g3⟩ := r0
  obtain ⟨z0, hz⟩ : ∃ z : Screen, z = ⟨0, 0, fun r c => D.ddram (cell r c)⟩ := ⟨_, rfl⟩
  rw [← hz]
  have one : ∃ s1 b, View.step rows s0 (viewOp p) = .ok (s1, [toCall b]) ∧ b.2 < 256 ∧ ¬ selects8 b ∧ Tracks rows s1 (exec D b.1 b.2) (z0.step p) := by
    rcases hp with ⟨r, c, rfl, hr, hc⟩ | rfl
    · obtain ⟨a1, a2, a3, a4⟩ := address_exec rows h4 { s0 with row := r, col := c } hr hc
      refine ⟨{ s0 with row := r, col := c }, _, ?_, a2, a3, ?_⟩
      · simp only [viewOp, View.step, View.setCursor, a1, Res.bind_ok, Res.pure_eq]
      · rw [a4]
        exact ⟨rfl, rfl, hr, le_of_lt hc, fun _ => rfl, rfl, g2, g3, fun r c _ _ => by rw [hz]; rfl⟩
    · exact ⟨{ s0 with row := 0, col := 0 }, (false, 2), rfl, by decide, by simp [selects8],
        ⟨rfl, rfl, by rw [hz]; exact h1, by rw [hz]; exact Nat.zero_le _, fun _ => rfl, rfl, g2, g3, fun r c _ _ => by rw [hz]; rfl⟩⟩
  obtain ⟨s1, b, e1, q1, q2, t1⟩ := one
  intro l hl hf
  obtain ⟨s2, bs, e2, k2, t2⟩ := c43_tracks_partial rows h1 h4 s1 _ _ l t1 hl hf
  refine ⟨s2, b :: bs, ?_, ?_, ?_⟩
  · have e3 : View.run rows s0 (viewOp p :: l.map viewOp) = .ok (s2, toCall b :: bs.map toCall) := by
      simp [View.run, e1, e2]
    have := view_run_append rows s before _ e0 e3
    simpa using this
  · intro y hy
    rcases List.mem_append.1 hy with h | h
    · exact k0 y h
    · rcases List.mem_cons.1 h with rfl | h
      · exact ⟨q1, q2⟩
      · exact k2 y h
  · have : execAll d (b0 ++ b :: bs) = execAll (exec D b.1 b.2) bs := by rw [hD]; simp [execAll]
    rw [this]; exact t2

example := c43_recovers 2 (by decide) (by decide) ⟨1, 3, 0x14#8⟩ { powerUp with twoLine := true } ⟨rfl, rfl, rfl⟩ [.put 65, .setCursor 7 99, .put 10, .clear] (by simp [UsualOp]) (.moveTo 1 3)
  (.inl ⟨1, 3, rfl, by decide, by decide⟩)

/-- The memory position `n` steps after the first, in two line mode. -/
def linear (n : Nat) : Nat := if n % 80 < 40 then n % 80 else 0x40 + (n % 80 - 40)

theorem linear_next (n : Nat) : nextAddress true false (linear n) = linear (n + 1) := by
  unfold nextAddress linear
  simp only [Bool.false_eq_true, if_false, if_true]
  split_ifs <;> omega

/-- Where the view believes to be after `n` characters from its first position: every row has one column too many and there is one row too many. -/
def believed (rows n : Nat) : Nat × Nat := (n / (80 / rows + 1) % (rows + 1), n % (80 / rows + 1))

theorem incCol_believed (rows : Nat) (h1 : 1 ≤ rows) (h4 : rows ≤ 4) (n : Nat) (regs : Controller.Regs) :
    View.incCol rows ⟨(believed rows n).1, (believed rows n).2, regs⟩ = ⟨(believed rows (n + 1)).1, (believed rows (n + 1)).2, regs⟩ := by
  have hr : rows = 1 ∨ rows = 2 ∨ rows = 3 ∨ rows = 4 := by omega
  have key : ∀ T, 0 < T → T < 200 → ∀ R, R < 10 →
      (if n % (T + 1) + 1 > T then
        (if n / (T + 1) % (R + 1) + 1 > R then (0, 0) else (toU 8 (((n / (T + 1) % (R + 1) : Nat) : Int) + 1), 0))
       else (n / (T + 1) % (R + 1), toU 8 (((n % (T + 1) : Nat) : Int) + 1))) = ((n + 1) / (T + 1) % (R + 1), (n + 1) % (T + 1)) := by
    intro T hT hT2 R hR
    have hlt : n % (T + 1) < T + 1 := Nat.mod_lt _ (by omega)
    have hlt2 : n / (T + 1) % (R + 1) < R + 1 := Nat.mod_lt _ (by omega)
    have hdm := Nat.div_add_mod n (T + 1)
    by_cases h : n % (T + 1) + 1 > T
    · have hT1 : n % (T + 1) = T := by omega
      have hm : (n + 1) % (T + 1) = 0 := by rw [Nat.add_mod, hT1]; simp
      have hd : (n + 1) / (T + 1) = n / (T + 1) + 1 := by
        rw [Nat.div_eq_iff (by omega)]
        constructor
        · rw [Nat.add_mul]; rw [Nat.mul_comm]; omega
        · have : (n / (T + 1) + 1) * (T + 1) = (T + 1) * (n / (T + 1)) + (T + 1) := by rw [Nat.add_mul, Nat.mul_comm]; omega
          omega
      rw [if_pos h, hm, hd]
      by_cases h2 : n / (T + 1) % (R + 1) + 1 > R
      · rw [if_pos h2]
        have : (n / (T + 1) + 1) % (R + 1) = 0 := by
          rw [Nat.add_mod, show n / (T + 1) % (R + 1) = R by omega]
          by_cases hR0 : R = 0
          · subst hR0; simp
          · rw [Nat.mod_eq_of_lt (show 1 < R + 1 by omega), Nat.mod_self]
        rw [this]
      · rw [if_neg h2]
        have : (n / (T + 1) + 1) % (R + 1) = n / (T + 1) % (R + 1) + 1 := by
          rw [Nat.add_mod, Nat.mod_eq_of_lt (show 1 < R + 1 by omega), Nat.mod_eq_of_lt (by omega)]
        rw [this, u8_succ _ (by omega)]
    · have hm : (n + 1) % (T + 1) = n % (T + 1) + 1 := by
        rw [Nat.add_mod, Nat.mod_eq_of_lt (show 1 < T + 1 by omega), Nat.mod_eq_of_lt (by omega)]
      have hd : (n + 1) / (T + 1) = n / (T + 1) := by
        rw [Nat.div_eq_iff (by omega)]
        constructor
        · rw [Nat.mul_comm]; omega
        · rw [Nat.mul_comm]; omega
      rw [if_neg h, hm, hd, u8_succ _ (by omega)]
  have := key (80 / rows) (by rcases hr with rfl | rfl | rfl | rfl <;> decide) (by rcases hr with rfl | rfl | rfl | rfl <;> decide) rows (by omega)
  have shape : ∀ (a b : Prop) [Decidable a] [Decidable b] (x y z : Nat × Nat), (if a then (if b then x else y) else z) = (believed rows (n + 1)) →
      (if a then (if b then (⟨x.1, x.2, regs⟩ : View.State) else ⟨y.1, y.2, regs⟩) else ⟨z.1, z.2, regs⟩) =
        ⟨(believed rows (n + 1)).1, (believed rows (n + 1)).2, regs⟩ := by
    intro a b _ _ x y z e
    rw [← e]
    split_ifs <;> rfl
  exact shape _ _ _ _ _ this

/-- **C43, exact for long texts.** `n` characters written from the top left corner, for every `n`: the display is `n` memory positions further, the view counts
    with one column and one row too many. -/
theorem c43_long_text (rows : Nat) (h1 : 1 ≤ rows) (h4 : rows ≤ 4) (regs : Controller.Regs) (d : Device) (hd : TextReady d) (h0 : d.ac = 0) (l : List Nat)
    (hl : ∀ c ∈ l, c < 256 ∧ c ≠ 10 ∧ c ≠ 13) :
    ∃ bs, View.run rows ⟨0, 0, regs⟩ (l.map .put) = .ok (⟨(believed rows l.length).1, (believed rows l.length).2, regs⟩, bs.map toCall) ∧
      (execAll d bs).ac = linear l.length := by
  have gen : ∀ (l : List Nat) (n : Nat) (d : Device), TextReady d → d.ac = linear n → (∀ c ∈ l, c < 256 ∧ c ≠ 10 ∧ c ≠ 13) →
      ∃ bs, View.run rows ⟨(believed rows n).1, (believed rows n).2, regs⟩ (l.map .put) =
        .ok (⟨(believed rows (n + l.length)).1, (believed rows (n + l.length)).2, regs⟩, bs.map toCall) ∧ (execAll d bs).ac = linear (n + l.length) := by
    intro l
    induction l with
    | nil => intro n d hd ha _; exact ⟨[], rfl, ha⟩
    | cons c l ih =>
      intro n d hd ha hl
      obtain ⟨c1, c2, c3⟩ := hl c (by simp)
      have hac : (exec d true c).ac = linear (n + 1) := by
        obtain ⟨g1, g2, g3⟩ := hd
        simp only [exec, g1, g2, g3, if_true, ha, linear_next]
      obtain ⟨bs, e, q⟩ := ih (n + 1) (exec d true c) (ready_data d hd c) hac (fun y hy => hl y (by simp [hy]))
      refine ⟨(true, c) :: bs, ?_, ?_⟩
      · simp only [List.map_cons, View.run, View.step, View.write, if_neg c2, if_neg c3, Res.bind_ok, incCol_believed rows h1 h4]
        rw [e]
        simp only [Res.bind_ok, List.length_cons, List.singleton_append]
        rw [show n + (l.length + 1) = n + 1 + l.length by omega]
        rfl
      · rw [List.length_cons, show n + (l.length + 1) = n + 1 + l.length by omega]; exact q
  have := gen l 0 d hd (by rw [h0]; rfl) hl
  simpa [believed] using this

example := c43_long_text 2 (by decide) (by decide) 0x14#8 { powerUp with twoLine := true } ⟨rfl, rfl, rfl⟩ rfl [72, 101, 108, 108, 111] (by decide)

/-- On a display with two rows the two agree for the first 40 characters; the 41st goes elsewhere, and so on: no text is so long that the view finds back by itself. -/
theorem c43_long_text_two_rows (n : Nat) :
    (n < 40 → cell (believed 2 n).1 (believed 2 n).2 = linear n) ∧
    ∀ k j, n = 9840 * k + 40 + j → j < 40 → cell (believed 2 n).1 (believed 2 n).2 ≠ linear n := by
  constructor
  · intro h
    have : ∀ n : Fin 40, cell (believed 2 n).1 (believed 2 n).2 = linear n := by decide +kernel
    exact this ⟨n, h⟩
  · intro k j e hj
    have e1 : believed 2 n = believed 2 (40 + j) := by
      simp only [believed, Prod.mk.injEq]
      omega
    have e2 : linear n = linear (40 + j) := by
      have : n % 80 = (40 + j) % 80 := by omega
      simp only [linear, this]
    have : ∀ j : Fin 40, cell (believed 2 (40 + j)).1 (believed 2 (40 + j)).2 ≠ linear (40 + j) := by decide +kernel
    rw [e1, e2]
    exact this ⟨j, hj⟩

/- A text over the end of the screen, a position outside it, then back at (1, 3): the next character stands there. -/
example : let r := View.run 2 ⟨0, 0, 0⟩ (List.replicate 100 (.put 65) ++ [.setCursor 7 99, .put 10, .clear, .setCursor 1 3, .put 66])
    (match r with | .ok (s, l) => some (s.row, s.col, l.length) | .ub => none) = some (1, 4, 105) := by decide +kernel

end Atl.Props
