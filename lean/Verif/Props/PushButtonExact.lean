import Verif.Spec.ButtonCount
import Verif.Props.FrontPanel
import Verif.Props.DelaysExact

/- C29, C30: what a push button reports in every history, also with several scans per time update; C133 likewise. -/
namespace Atl.Props
open Atl Atl.Delays Atl.Spec.Delays Atl.PushButton Atl.Spec.PushButton
open Atl.Spec.ButtonCount (Phase settle)
open Atl.FrontPanel (Client Vars Seen Ev)

/-- The reports of the specification, one per event; `delta`: the last time update. -/
def reports (D H : Nat) (inverse : Bool) (delta : Nat) (p : Phase) : List POp → List Report
  | [] => []
  | .scan pin :: ops => (p.scan D H delta (pushed inverse pin)).report :: reports D H inverse delta (p.scan D H delta (pushed inverse pin)) ops
  | .other (.update d) :: ops => p.report :: reports D H inverse d p ops
  | .other _ :: ops => p.report :: reports D H inverse delta p ops

/-- The variables of a button and its entry in the table, for what it knows. -/
inductive Knows : Nat → BState → BState → Option Nat → Phase → Prop where
  | unknown : Knows 0 .unknown .unknown none .unknown
  | opened {p} (hp : p = .unknown ∨ p = .pending) : Knows 0 .opened p none .opened
  | closed {p} (hp : p = .unknown ∨ p = .pending) (r : Nat) : Knows 0 .closed p (some r) (.closed r)
  | hold : Knows 0 .hold .closed none .hold
  | pending (p : BState) (e : Option Nat) : Knows 113 .pending p e (.pending e)

theorem Knows.report {task : Nat} {cur prev : BState} {e : Option Nat} {p : Phase} (h : Knows task cur prev e p) : rep cur = p.report := by
  cases h <;> rfl

theorem knows_scan (D H delta : Nat) (inverse pin : Bool) {task : Nat} {cur prev : BState} {e : Option Nat} {p : Phase} (h : Knows task cur prev e p) :
    Knows (scanOwn delta e D H inverse pin task cur prev).1.1 (scanOwn delta e D H inverse pin task cur prev).1.2.1 (scanOwn delta e D H inverse pin task cur prev).1.2.2
      (scanOwn delta e D H inverse pin task cur prev).2 (p.scan D H delta (pushed inverse pin)) := by
  cases h with
  | unknown =>
    cases hp : pushed inverse pin <;> simp [scanOwn, State.sample, convert_pushed, hp, State.mustDebounce, tailOwn, waitOwn, Phase.scan, settle]
    · exact .opened (.inl rfl)
    · exact .closed (.inl rfl) H
  | opened h =>
    cases hp : pushed inverse pin <;> rcases h with rfl | rfl <;> simp [scanOwn, State.sample, convert_pushed, hp, State.mustDebounce, tailOwn, Phase.scan]
    · exact .opened (.inl rfl)
    · exact .opened (.inr rfl)
    · exact .pending _ _
    · exact .pending _ _
  | closed h r =>
    cases hp : pushed inverse pin
    · rcases h with rfl | rfl <;> simp [scanOwn, State.sample, convert_pushed, hp, State.mustDebounce, Phase.scan] <;> exact .pending _ _
    · by_cases hr : r ≤ delta
      · rcases h with rfl | rfl <;> simp [scanOwn, State.sample, convert_pushed, hp, State.mustDebounce, tailOwn, waitOwn, Phase.scan, hr] <;> exact .hold
      · rcases h with rfl | rfl <;> simp [scanOwn, State.sample, convert_pushed, hp, State.mustDebounce, tailOwn, waitOwn, Phase.scan, hr]
        · exact .closed (.inl rfl) _
        · exact .closed (.inr rfl) _
  | hold =>
    cases hp : pushed inverse pin <;> simp [scanOwn, State.sample, convert_pushed, hp, State.mustDebounce, tailOwn, Phase.scan]
    · exact .pending _ _
    · exact .hold
  | pending q e =>
    cases e with
    | none => simp [scanOwn, waitOwn, Phase.scan]; exact .pending _ _
    | some r =>
      by_cases hr : r ≤ delta
      · cases hp : pushed inverse pin <;> simp [scanOwn, waitOwn, hr, convert_pushed, hp, tailOwn, Phase.scan, settle]
        · exact .opened (.inr rfl)
        · exact .closed (.inr rfl) H
      · simp [scanOwn, waitOwn, hr, Phase.scan]; exact .pending _ _

theorem run_exact {N D H id : Nat} {S : List Nat} (hS : Room N S) (hid : id ∈ S) (inverse : Bool) (ops : List POp) (hother : OthersUse id S ops) (s : PushButton.State) (t : Table)
    (hT : Table.Ok N S s.delays t) (p : Phase) (hk : Knows s.task s.cur s.prev (t.left id) p) :
    ∃ rs s', s.run N id D H inverse ops = .ok (rs, s') ∧ rs.map rep = reports D H inverse t.delta p ops := by
  induction ops generalizing s t p with
  | nil => exact ⟨[], s, rfl, rfl⟩
  | cons op ops ih =>
    have hother' : OthersUse id S ops := fun o ho => hother o (by simp [ho])
    cases op with
    | scan pin =>
      obtain ⟨task, cur, prev, d⟩ := s
      obtain ⟨b, d', e1, h1⟩ := scan_own hS hid D H inverse pin task cur prev hT
      have hk' := knows_scan D H t.delta inverse pin hk
      generalize scanOwn t.delta (t.left id) D H inverse pin task cur prev = w at e1 h1 hk'
      obtain ⟨rs, s', e2, h2⟩ := ih hother' ⟨w.1.1, w.1.2.1, w.1.2.2, d'⟩ _ h1 _ (by rw [put_left]; exact hk')
      refine ⟨w.1.2.1 :: rs, s', ?_, ?_⟩
      · simp only [PushButton.State.run, PushButton.State.step, e1, Res.bind_ok, e2]
      · rw [List.map_cons, h2, hk'.report]; rfl
    | other op =>
      have hmem := hother op (by simp)
      obtain ⟨d1, e1, hT1⟩ := op_ok hS hT op (fun i hi => (hmem i hi).1)
      have hkeep : (t.step op.call).2.left id = t.left id := by
        cases op with
        | update d => rfl
        | wait i x =>
          have hi : id ≠ i := (hmem i rfl).2.symm
          simp only [Op.call, Table.step]
          cases t.left i with
          | none => simp [Table.put, hi]
          | some r => simp only; split <;> simp [Table.put, hi]
        | abort i =>
          have hi : id ≠ i := (hmem i rfl).2.symm
          simp only [Op.call, Table.step]
          split <;> simp [Table.put, hi]
        | clear i =>
          have hi : id ≠ i := (hmem i rfl).2.symm
          simp [Op.call, Table.step, Table.put, hi]
        | isWaiting i => rfl
      obtain ⟨rs, s', e2, h2⟩ := ih hother' { s with delays := d1 } _ hT1 p (by rw [hkeep]; exact hk)
      refine ⟨s.cur :: rs, s', ?_, ?_⟩
      · simp only [PushButton.State.run, PushButton.State.step, e1, Res.bind_ok, e2]
      · rw [List.map_cons, h2, hk.report]
        cases op with
        | update d => rfl
        | wait i x =>
          have : (t.step (.wait i x)).2.delta = t.delta := by
            simp only [Table.step]
            cases t.left i with
            | none => rfl
            | some r => simp only; split <;> rfl
          simp only [Op.call, this, reports]
        | abort i =>
          have : (t.step (.abort i)).2.delta = t.delta := by simp only [Table.step]; split <;> rfl
          simp only [Op.call, this, reports]
        | clear i => rfl
        | isWaiting i => rfl

/-- **C29 and C30, exact.** For every debounce and hold time and wiring and every history - any number of scans per time update, any levels, any use of the delay table by others
    with their own ids within capacity - the reports are those of the specification `Phase.scan`: every scan takes the last time update off what is left to wait. -/
theorem c29_exact (N D H id : Nat) (S : List Nat) (hS : Room N S) (hid : id ∈ S) (inverse : Bool) (ops : List POp) (hother : OthersUse id S ops) :
    ∃ rs s', PushButton.State.init.run N id D H inverse ops = .ok (rs, s') ∧ rs.map rep = reports D H inverse 0 .unknown ops :=
  run_exact hS hid inverse ops hother PushButton.State.init Table.init ⟨init_ref N, fun _ _ => .inl rfl⟩ .unknown .unknown

example := c29_exact 2 10 50 5 [5, 9] ⟨by decide, by decide⟩ (by decide) false
  [.scan false, .other (.update 5), .scan true, .scan true, .scan true, .other (.wait 9 1), .scan true, .scan true] (by simp [OthersUse, Op.call, Call.id?])

/-- The reports of a button of a program at its scans, by the specification. -/
def panelReports (D H : Nat) (inverse : Bool) (i delta : Nat) (p : Phase) : List Ev → List Report
  | [] => []
  | .update d :: es => panelReports D H inverse i d p es
  | .call j pin :: es =>
    if j = i then (p.scan D H delta (pushed inverse pin)).report :: panelReports D H inverse i delta (p.scan D H delta (pushed inverse pin)) es
    else panelReports D H inverse i delta p es

theorem panel_obs (D H : Nat) (inverse : Bool) (i : Nat) (es : List Ev) (delta : Nat) (p : Phase) (rs : List BState) (now : Nat)
    (h : rs.map rep = reports D H inverse delta p (asPOps i es)) : (observations inverse now (asPOps i es) rs).map Obs.report = panelReports D H inverse i delta p es := by
  induction es generalizing delta p rs now with
  | nil => rfl
  | cons e es ih =>
    cases e with
    | update d =>
      simp only [asPOps, reports] at h ⊢
      cases rs with
      | nil => cases h
      | cons r rs =>
        simp only [List.map_cons, List.cons.injEq] at h
        exact ih d p rs _ h.2
    | call j pin =>
      by_cases hj : j = i
      · simp only [asPOps, if_pos hj, reports] at h ⊢
        cases rs with
        | nil => cases h
        | cons r rs =>
          simp only [List.map_cons, List.cons.injEq] at h
          simp only [observations, List.map_cons, panelReports, if_pos hj, h.1, ih _ _ rs now h.2]
      · simp only [asPOps, if_neg hj] at h
        simp only [asPOps, if_neg hj, panelReports]
        exact ih delta p rs now h

/-- **C133, exact.** In a program of buttons and timeout tasks on one table every button reports at its scans what the specification says, whatever else is called. -/
theorem c133_buttons_exact (N : Nat) (cs : List Client) (h : PanelOk N cs) (es : List Ev) :
    ∃ s os, (FrontPanel.State.init cs).run N cs es = .ok (s, os) ∧
      ∀ i a D H inverse, cs[i]? = some (.button a D H inverse) →
        (buttonObs inverse (shown i 0 es os)).map Obs.report = panelReports D H inverse i 0 .unknown es := by
  obtain ⟨s, os, e, hi⟩ := c133_independent N cs h es
  refine ⟨s, os, e, fun i a D H inverse hc => ?_⟩
  have hm := List.mem_of_getElem? hc
  have room1 : Room N [Misc.getId a] := by
    refine ⟨fun h0 => ?_, ?_⟩
    · rw [List.mem_singleton, getId_mod] at h0
      exact h.nz _ hm h0.symm
    · have := List.length_pos_of_mem hm
      have := h.fits
      simp only [List.length_singleton]; omega
  obtain ⟨s1, os1, e1, _, e2⟩ := hi i _ hc
  obtain ⟨rs, x', hr, hL⟩ := c29_exact N D H (Misc.getId a) [Misc.getId a] room1 (by simp) inverse (asPOps i es)
    (fun op hop j hj => by obtain ⟨g, rfl⟩ := asPOps_other i es op hop; cases hj)
  obtain ⟨s2, os2, f1, f2⟩ := alone_button N a D H inverse i es _ rs x' hr
  have : (s1, os1) = (s2, os2) := Res.ok.inj (e1.symm.trans f1)
  cases this
  rw [e2, f2]
  exact panel_obs D H inverse i es 0 .unknown rs 0 hL

/-- **C133, exact.** Likewise every timeout task of the program calls OnTimeout exactly when the polled timeout of the specification fires. -/
theorem c133_timers_exact (N : Nat) (cs : List Client) (h : PanelOk N cs) (es : List Ev) :
    ∃ s os, (FrontPanel.State.init cs).run N cs es = .ok (s, os) ∧
      ∀ i a T, cs[i]? = some (.timer a T) →
        firings (shown i 0 es os) = fireTimes 0 (asSOps i es) (Spec.Timer.Timer.run T {} ((asSOps i es).map timerEv)) := by
  obtain ⟨s, os, e, hi⟩ := c133_independent N cs h es
  refine ⟨s, os, e, fun i a T hc => ?_⟩
  have hm := List.mem_of_getElem? hc
  have room1 : Room N [Misc.getId a] := by
    refine ⟨fun h0 => ?_, ?_⟩
    · rw [List.mem_singleton, getId_mod] at h0
      exact h.nz _ hm h0.symm
    · have := List.length_pos_of_mem hm
      have := h.fits
      simp only [List.length_singleton]; omega
  obtain ⟨s1, os1, e1, _, e2⟩ := hi i _ hc
  obtain ⟨x', hr⟩ := c28_exact N (Misc.getId a) T [Misc.getId a] room1 (by simp) (asSOps i es)
    (fun op hop j hj => by obtain ⟨g, rfl⟩ := asSOps_other i es op hop; cases hj)
  obtain ⟨s2, os2, f1, f2⟩ := alone_timer N a T i es _ _ x' hr
  have : (s1, os1) = (s2, os2) := Res.ok.inj (e1.symm.trans f1)
  cases this
  rw [e2, f2]

/-- Two scans per update of 5: a debounce time of 10 is over after one update. -/
example : reports 10 50 false 0 .unknown [.scan false, .other (.update 5), .scan true, .scan true, .scan true, .other (.wait 9 1), .scan true, .scan true] =
    [.opened, .opened, .pending, .pending, .pending, .pending, .closed, .closed] := by decide

end Atl.Props
