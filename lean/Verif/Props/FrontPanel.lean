import Verif.Model.FrontPanel
import Verif.Props.PushButton

/- Property theorems C133: push buttons and timeout tasks that share a delay table do not disturb each other. -/
namespace Atl.Props
open Atl Atl.Delays Atl.Spec.Delays Atl.PushButton Atl.Spec.PushButton
open Atl.FrontPanel (Client Vars Seen Ev)

/-! ### One call depends on the own entry of the table only -/

/-- `Wait` on the own entry. -/
def waitOwn (delta : Nat) (e : Option Nat) (T : Nat) : Bool × Option Nat :=
  match e with
  | none => (false, some T)
  | some r => if r ≤ delta then (true, none) else (false, some (r - delta))

theorem put_put (t : Table) (id : Nat) (x y : Option Nat) : (t.put id x).put id y = t.put id y := by
  unfold Table.put
  congr 1
  funext j
  dsimp only
  split <;> rfl

theorem put_same (t : Table) (id : Nat) : t.put id (t.left id) = t := by
  unfold Table.put
  cases t with
  | mk delta left =>
    congr 1
    funext j
    dsimp only
    split
    · rename_i h; rw [h]
    · rfl

theorem put_left (t : Table) (id : Nat) (x : Option Nat) : (t.put id x).left id = x := by simp [Table.put]

theorem wait_own {N : Nat} {S : List Nat} (hS : Room N S) {id : Nat} (hid : id ∈ S) (T : Nat) {d : Delays.State} {t : Table} (h : Table.Ok N S d t) :
    ∃ d', d.wait N id T = .ok ((waitOwn t.delta (t.left id) T).1, d') ∧ Table.Ok N S d' (t.put id (waitOwn t.delta (t.left id) T).2) := by
  have e : t.step (.wait id T) = (some (waitOwn t.delta (t.left id) T).1, t.put id (waitOwn t.delta (t.left id) T).2) := by
    simp only [Table.step]
    cases hl : t.left id with
    | none => rfl
    | some r =>
      simp only [waitOwn]
      split <;> rfl
  obtain ⟨d', h1, h2⟩ := wait_ok hS h hid T _ (by rw [e])
  rw [e] at h2
  exact ⟨d', h1, h2⟩

/-- The tail of ScanButton on the own entry. -/
def tailOwn (delta : Nat) (e : Option Nat) (H : Nat) (cur prev : BState) : (Nat × BState × BState) × Option Nat :=
  if cur = .closed then
    let w := waitOwn delta e H
    (if w.1 then (0, .hold, cur) else (0, cur, prev), w.2)
  else ((0, cur, prev), none)

theorem tail_own {N : Nat} {S : List Nat} (hS : Room N S) {id : Nat} (hid : id ∈ S) (H task : Nat) (cur prev : BState) {d : Delays.State} {t : Table} (h : Table.Ok N S d t) :
    ∃ b d', (PushButton.State.mk task cur prev d).tail N id H =
        .ok (b, ⟨(tailOwn t.delta (t.left id) H cur prev).1.1, (tailOwn t.delta (t.left id) H cur prev).1.2.1, (tailOwn t.delta (t.left id) H cur prev).1.2.2, d'⟩) ∧
      Table.Ok N S d' (t.put id (tailOwn t.delta (t.left id) H cur prev).2) := by
  unfold PushButton.State.tail tailOwn
  dsimp only
  by_cases hc : cur = .closed
  · simp only [hc, if_true]
    obtain ⟨d', h1, h2⟩ := wait_own hS hid H h
    rw [h1]
    refine ⟨false, d', ?_, h2⟩
    simp only [Res.bind_ok]
    cases (waitOwn t.delta (t.left id) H).1 <;> rfl
  · simp only [hc, if_false]
    have hw := waits_spec (fun e => hS.nz (e ▸ hid)) d t h.ref (id := id)
    cases hl : t.left id with
    | none =>
      rw [hl] at hw
      refine ⟨false, d, by rw [hw]; rfl, ?_⟩
      rw [← hl, put_same]
      exact h
    | some r =>
      rw [hl] at hw
      exact ⟨false, d.clear N id, by rw [hw]; rfl, clear_ok hS h hid⟩

/-- ScanButton on the own entry. -/
def scanOwn (delta : Nat) (e : Option Nat) (D H : Nat) (inverse pin : Bool) (task : Nat) (cur prev : BState) : (Nat × BState × BState) × Option Nat :=
  if task = 0 then
    let s := (PushButton.State.mk task cur prev Delays.State.init).sample inverse pin
    if s.mustDebounce then ((113, .pending, s.prev), none) else tailOwn delta e H s.cur s.prev
  else if task = 113 then
    let w := waitOwn delta e D
    if !w.1 then ((task, cur, prev), w.2) else tailOwn delta w.2 H (convert inverse pin) cur
  else ((0, cur, prev), e)

theorem scan_own {N : Nat} {S : List Nat} (hS : Room N S) {id : Nat} (hid : id ∈ S) (D H : Nat) (inverse pin : Bool) (task : Nat) (cur prev : BState) {d : Delays.State} {t : Table}
    (h : Table.Ok N S d t) :
    ∃ b d', (PushButton.State.mk task cur prev d).scan N id D H inverse pin =
        .ok (b, ⟨(scanOwn t.delta (t.left id) D H inverse pin task cur prev).1.1, (scanOwn t.delta (t.left id) D H inverse pin task cur prev).1.2.1,
          (scanOwn t.delta (t.left id) D H inverse pin task cur prev).1.2.2, d'⟩) ∧
      Table.Ok N S d' (t.put id (scanOwn t.delta (t.left id) D H inverse pin task cur prev).2) := by
  unfold PushButton.State.scan scanOwn
  dsimp only
  by_cases h0 : task = 0
  · simp only [h0, if_true]
    have e : ∀ d, (PushButton.State.mk 0 cur prev d).sample inverse pin =
        ⟨0, ((PushButton.State.mk 0 cur prev Delays.State.init).sample inverse pin).cur, ((PushButton.State.mk 0 cur prev Delays.State.init).sample inverse pin).prev, d⟩ := by
      intro d
      unfold PushButton.State.sample
      dsimp only
      split <;> rfl
    generalize hx : (PushButton.State.mk 0 cur prev Delays.State.init).sample inverse pin = x at *
    rw [e d]
    have em : (PushButton.State.mk 0 x.cur x.prev d).mustDebounce = x.mustDebounce := rfl
    rw [em]
    by_cases hm : x.mustDebounce = true
    · simp only [hm, if_true]
      exact ⟨true, d.clear N id, rfl, clear_ok hS h hid⟩
    · simp only [hm]
      exact tail_own hS hid H 0 x.cur x.prev h
  · simp only [h0, if_false]
    by_cases h1 : task = 113
    · simp only [h1, if_true]
      obtain ⟨d', w1, w2⟩ := wait_own hS hid D h
      rw [w1]
      simp only [Res.bind_ok]
      cases hb : (waitOwn t.delta (t.left id) D).1 with
      | false => exact ⟨true, d', rfl, w2⟩
      | true =>
        obtain ⟨b, d'', t1, t2⟩ := tail_own hS hid H 113 (convert inverse pin) cur w2
        rw [put_left, put_put] at t2
        rw [put_left] at t1
        exact ⟨b, d'', t1, t2⟩
    · simp only [h1, if_false]
      refine ⟨false, d, rfl, ?_⟩
      rw [put_same]
      exact h

/-- A call on the own entry. -/
def callOwn (delta : Nat) (e : Option Nat) (c : Client) (v : Vars) (pin : Bool) : (Vars × Seen) × Option Nat :=
  match c, v with
  | .button _ D H inverse, .button task cur prev =>
    let r := scanOwn delta e D H inverse pin task cur prev
    ((.button r.1.1 r.1.2.1 r.1.2.2, .state r.1.2.1), r.2)
  | .timer _ T, .timer task =>
    if task = 0 then ((.timer 56, .fired 0), e)
    else if task = 56 then
      let w := waitOwn delta e T
      ((.timer 56, .fired (if w.1 then 1 else 0)), w.2)
    else ((.timer 0, .fired 0), e)
  | _, v => ((v, .nothing), e)

theorem call_own {N : Nat} {S : List Nat} (hS : Room N S) (c : Client) (hid : Misc.getId c.address ∈ S) (v : Vars) (pin : Bool) {d : Delays.State} {t : Table} (h : Table.Ok N S d t) :
    ∃ d', c.call N v pin d =
        .ok ((callOwn t.delta (t.left (Misc.getId c.address)) c v pin).1.1, (callOwn t.delta (t.left (Misc.getId c.address)) c v pin).1.2, d') ∧
      Table.Ok N S d' (t.put (Misc.getId c.address) (callOwn t.delta (t.left (Misc.getId c.address)) c v pin).2) := by
  unfold FrontPanel.Client.call callOwn
  cases c with
  | button a D H inverse =>
    cases v with
    | button task cur prev =>
      obtain ⟨b, d', h1, h2⟩ := scan_own hS hid D H inverse pin task cur prev h
      simp only [FrontPanel.Client.address] at h1 h2
      refine ⟨d', ?_, h2⟩
      simp only [FrontPanel.Client.address]
      rw [h1]
      rfl
    | timer task => exact ⟨d, rfl, by rw [put_same]; exact h⟩
  | timer a T =>
    cases v with
    | button task cur prev => exact ⟨d, rfl, by rw [put_same]; exact h⟩
    | timer task =>
      simp only [FrontPanel.Client.address] at hid ⊢
      unfold TimeoutTask.State.execute
      by_cases h0 : task = 0
      · simp only [h0, if_true]
        exact ⟨d, rfl, by rw [put_same]; exact h⟩
      · simp only [h0, if_false]
        by_cases h1 : task = 56
        · simp only [h1, if_true]
          obtain ⟨d', w1, w2⟩ := wait_own hS hid T h
          refine ⟨d', ?_, w2⟩
          rw [w1]
          simp only [Res.bind_ok]
          rcases Bool.eq_false_or_eq_true (waitOwn t.delta (t.left (Misc.getId a)) T).1 with hb | hb <;> simp [hb]
        · simp only [h1, if_false]
          exact ⟨d, rfl, by rw [put_same]; exact h⟩

/-! ### Independence -/


/-- The events that concern object `i`, in a program in which it is the only object. -/
def alone (i : Nat) : List Ev → List Ev
  | [] => []
  | .update d :: es => .update d :: alone i es
  | .call j pin :: es => if j = i then .call 0 pin :: alone i es else alone i es

/-- What the calls of object `i` show, each with the time and the level at the pin. -/
def shown (i now : Nat) : List Ev → List Seen → List (Nat × Bool × Seen)
  | .update d :: es, _ :: os => shown i (now + d) es os
  | .call j pin :: es, o :: os => if j = i then (now, pin, o) :: shown i now es os else shown i now es os
  | _, _ => []

/-- Objects with different identifiers other than 0, and as many entries in the table. -/
structure PanelOk (N : Nat) (cs : List Client) : Prop where
  ids : (cs.map fun c => c.address % 65536).Nodup
  nz : ∀ c ∈ cs, c.address % 65536 ≠ 0
  fits : cs.length ≤ N

theorem getId_mod (a : Nat) : Misc.getId a = a % 65536 := by unfold Misc.getId toU; omega

def panelIds (cs : List Client) : List Nat := cs.map fun c => Misc.getId c.address

theorem panel_room {N : Nat} {cs : List Client} (h : PanelOk N cs) : Room N (panelIds cs) := by
  refine ⟨fun h0 => ?_, by simpa [panelIds] using h.fits⟩
  obtain ⟨c, hc, e⟩ := List.mem_map.mp h0
  rw [getId_mod] at e
  exact h.nz c hc e

theorem update_own {N : Nat} {S : List Nat} {d : Delays.State} {t : Table} (h : Table.Ok N S d t) (g : Nat) : Table.Ok N S (d.update g) ⟨g, t.left⟩ :=
  ⟨⟨rfl, h.ref.sound, h.ref.complete, h.ref.inj⟩, h.inS⟩

/-- The program never goes wrong: every run ends. -/
theorem panel_runs {N : Nat} {cs : List Client} (h : PanelOk N cs) (es : List Ev) (s : FrontPanel.State) (t : Table) (ht : Table.Ok N (panelIds cs) s.delays t) :
    ∃ s' os, s.run N cs es = .ok (s', os) := by
  induction es generalizing s t with
  | nil => exact ⟨s, [], rfl⟩
  | cons e es ih =>
    cases e with
    | update g =>
      obtain ⟨s', os, e⟩ := ih { s with delays := s.delays.update g } _ (update_own ht g)
      exact ⟨s', _, by simp only [FrontPanel.State.run, FrontPanel.State.step, Res.bind_ok, e]; rfl⟩
    | call j pin =>
      cases hc : cs[j]? with
      | none =>
        obtain ⟨s', os, e⟩ := ih s t ht
        exact ⟨s', _, by simp only [FrontPanel.State.run, FrontPanel.State.step, hc, Res.bind_ok, e]; rfl⟩
      | some c =>
        cases hv : s.vars[j]? with
        | none =>
          obtain ⟨s', os, e⟩ := ih s t ht
          exact ⟨s', _, by simp only [FrontPanel.State.run, FrontPanel.State.step, hc, hv, Res.bind_ok, e]; rfl⟩
        | some v =>
          obtain ⟨d', e1, h1⟩ := call_own (panel_room h) c (List.mem_map.mpr ⟨c, List.mem_of_getElem? hc, rfl⟩) v pin ht
          obtain ⟨s', os, e⟩ := ih ⟨d', s.vars.set j (callOwn t.delta (t.left (Misc.getId c.address)) c v pin).1.1⟩ _ h1
          exact ⟨s', _, by simp only [FrontPanel.State.run, FrontPanel.State.step, hc, hv, e1, Res.bind_ok, e]; rfl⟩

theorem panel_alone {N : Nat} {cs : List Client} (h : PanelOk N cs) (i : Nat) (c : Client) (hc : cs[i]? = some c) (es : List Ev) (s : FrontPanel.State) (t : Table)
    (ht : Table.Ok N (panelIds cs) s.delays t) (d1 : Delays.State) (t1 : Table) (ht1 : Table.Ok N (panelIds cs) d1 t1) (v : Vars) (hv : s.vars[i]? = some v)
    (hd : t1.delta = t.delta) (hl : t1.left (Misc.getId c.address) = t.left (Misc.getId c.address)) (s' : FrontPanel.State) (os : List Seen) (hr : s.run N cs es = .ok (s', os)) :
    ∃ s1 os1, (FrontPanel.State.mk d1 [v]).run N [c] (alone i es) = .ok (s1, os1) ∧ s'.vars[i]? = s1.vars[0]? ∧
      ∀ now, shown i now es os = shown 0 now (alone i es) os1 := by
  induction es generalizing s t d1 t1 v s' os with
  | nil =>
    simp only [FrontPanel.State.run, Res.ok.injEq, Prod.mk.injEq] at hr
    obtain ⟨rfl, rfl⟩ := hr
    exact ⟨_, [], rfl, by simpa using hv, fun _ => rfl⟩
  | cons e es ih =>
    cases e with
    | update g =>
      simp only [FrontPanel.State.run, FrontPanel.State.step, Res.bind_ok] at hr
      cases hx : FrontPanel.State.run N cs { s with delays := s.delays.update g } es with
      | ub => rw [hx] at hr; cases hr
      | ok r =>
        rw [hx] at hr
        simp only [Res.bind_ok, Res.ok.injEq, Prod.mk.injEq] at hr
        obtain ⟨rfl, rfl⟩ := hr
        obtain ⟨s1, os1, e1, e2, e3⟩ := ih { s with delays := s.delays.update g } _ (update_own ht g) _ _ (update_own ht1 g) v hv rfl hl r.1 r.2 hx
        refine ⟨s1, .nothing :: os1, ?_, e2, fun now => ?_⟩
        · simp only [alone, FrontPanel.State.run, FrontPanel.State.step, Res.bind_ok, e1]
        · simp only [alone, shown, e3]
    | call j pin =>
      by_cases hj : j = i
      · subst hj
        obtain ⟨d', e1, h1⟩ := call_own (panel_room h) c (List.mem_map.mpr ⟨c, List.mem_of_getElem? hc, rfl⟩) v pin ht
        obtain ⟨d1', f1, g1⟩ := call_own (panel_room h) c (List.mem_map.mpr ⟨c, List.mem_of_getElem? hc, rfl⟩) v pin ht1
        rw [hd, hl] at f1 g1
        simp only [FrontPanel.State.run, FrontPanel.State.step, hc, hv, e1, Res.bind_ok] at hr
        generalize callOwn t.delta (t.left (Misc.getId c.address)) c v pin = w at *
        cases hx : FrontPanel.State.run N cs ⟨d', s.vars.set j w.1.1⟩ es with
        | ub => rw [hx] at hr; cases hr
        | ok r =>
          rw [hx] at hr
          simp only [Res.bind_ok, Res.ok.injEq, Prod.mk.injEq] at hr
          obtain ⟨rfl, rfl⟩ := hr
          have hjl : j < s.vars.length := by
            rcases Nat.lt_or_ge j s.vars.length with h | h
            · exact h
            · rw [List.getElem?_eq_none h] at hv; cases hv
          obtain ⟨s1, os1, k1, k2, k3⟩ := ih ⟨d', s.vars.set j w.1.1⟩ _ h1 d1' _ g1 w.1.1 (by simp [hjl]) hd (by rw [put_left, put_left]) r.1 r.2 hx
          refine ⟨s1, w.1.2 :: os1, ?_, k2, fun now => ?_⟩
          · simp only [alone, if_true, FrontPanel.State.run, FrontPanel.State.step, List.getElem?_cons_zero, f1, Res.bind_ok, List.set_cons_zero, k1]
          · simp only [alone, shown, if_true, k3]
      · have ea : alone i (.call j pin :: es) = alone i es := by simp only [alone, if_neg hj]
        rw [ea]
        have skip : ∀ (s2 : FrontPanel.State) (t2 : Table) (o : Seen), s.step N cs (.call j pin) = .ok (s2, o) → Table.Ok N (panelIds cs) s2.delays t2 → s2.vars[i]? = some v →
            t2.delta = t.delta → t2.left (Misc.getId c.address) = t.left (Misc.getId c.address) →
            ∃ s1 os1, (FrontPanel.State.mk d1 [v]).run N [c] (alone i es) = .ok (s1, os1) ∧ s'.vars[i]? = s1.vars[0]? ∧
              ∀ now, shown i now (.call j pin :: es) os = shown 0 now (alone i es) os1 := by
          intro s2 t2 o hs h2 hv2 hd2 hl2
          simp only [FrontPanel.State.run, hs, Res.bind_ok] at hr
          cases hx : FrontPanel.State.run N cs s2 es with
          | ub => rw [hx] at hr; cases hr
          | ok r =>
            rw [hx] at hr
            simp only [Res.bind_ok, Res.ok.injEq, Prod.mk.injEq] at hr
            obtain ⟨rfl, rfl⟩ := hr
            obtain ⟨s1, os1, k1, k2, k3⟩ := ih s2 t2 h2 d1 t1 ht1 v hv2 (by rw [hd, hd2]) (by rw [hl, hl2]) r.1 r.2 hx
            exact ⟨s1, os1, k1, k2, fun now => by simp only [shown, if_neg hj, k3]⟩
        cases hcj : cs[j]? with
        | none => exact skip s t .nothing (by simp only [FrontPanel.State.step, hcj]) ht hv rfl rfl
        | some cj =>
          cases hvj : s.vars[j]? with
          | none => exact skip s t .nothing (by simp only [FrontPanel.State.step, hcj, hvj]) ht hv rfl rfl
          | some vj =>
            obtain ⟨d', e1, h1⟩ := call_own (panel_room h) cj (List.mem_map.mpr ⟨cj, List.mem_of_getElem? hcj, rfl⟩) vj pin ht
            refine skip ⟨d', s.vars.set j _⟩ _ _ (by simp only [FrontPanel.State.step, hcj, hvj, e1, Res.bind_ok]; rfl) h1 ?_ rfl ?_
            · rw [List.getElem?_set_ne hj]; exact hv
            · have hne : Misc.getId c.address ≠ Misc.getId cj.address := by
                rw [getId_mod, getId_mod]
                intro e
                have hn := h.ids
                rw [List.nodup_iff_getElem?_ne_getElem?] at hn
                rcases Nat.lt_or_gt_of_ne hj with hlt | hlt
                · refine hn j i hlt ?_ ?_
                  · rcases Nat.lt_or_ge i cs.length with hi | hi
                    · simpa using hi
                    · rw [List.getElem?_eq_none hi] at hc; cases hc
                  · simp [hc, hcj, e]
                · refine hn i j hlt ?_ ?_
                  · rcases Nat.lt_or_ge j cs.length with hi | hi
                    · simpa using hi
                    · rw [List.getElem?_eq_none hi] at hcj; cases hcj
                  · simp [hc, hcj, e]
              simp [Table.put, hne]

/-- **C133 (independent).** Any number of push buttons and timeout tasks in memory with different identifiers other than 0 (the low 16 bits of the address) and a delay table
    with room for them; any order and number of calls and time updates, any levels at the pins: nothing undefined happens, and every call of every object shows exactly what it
    shows in the program in which that object is the only one, with the same time updates. -/
theorem c133_independent (N : Nat) (cs : List Client) (h : PanelOk N cs) (es : List Ev) :
    ∃ s os, (FrontPanel.State.init cs).run N cs es = .ok (s, os) ∧
      ∀ i c, cs[i]? = some c → ∃ s1 os1, (FrontPanel.State.init [c]).run N [c] (alone i es) = .ok (s1, os1) ∧ s.vars[i]? = s1.vars[0]? ∧
        shown i 0 es os = shown 0 0 (alone i es) os1 := by
  have h0 : Table.Ok N (panelIds cs) Delays.State.init Table.init := ⟨init_ref N, fun _ _ => .inl rfl⟩
  obtain ⟨s, os, e⟩ := panel_runs h es (FrontPanel.State.init cs) Table.init h0
  refine ⟨s, os, e, fun i c hc => ?_⟩
  obtain ⟨s1, os1, e1, e2, e3⟩ := panel_alone h i c hc es (FrontPanel.State.init cs) Table.init h0 Delays.State.init Table.init h0 c.init
    (by simp [FrontPanel.State.init, hc]) rfl rfl s os e
  exact ⟨s1, os1, e1, e2, e3 0⟩

example := c133_independent 2 [.button 300 50 500 false, .timer 320 1000] ⟨by decide, by decide, by decide⟩
  [.update 30, .call 0 false, .call 1 false, .call 0 true, .update 30, .call 0 true, .call 1 true]

/-! ### What every object does -/

/-- Object `i` is called at most once per time update. -/
def CalledOnce (i : Nat) : Bool → List Ev → Prop
  | _, [] => True
  | _, .update _ :: es => CalledOnce i true es
  | fresh, .call j _ :: es => if j = i then fresh = true ∧ CalledOnce i false es else CalledOnce i fresh es

/-- What was shown, as observations of a button. -/
def buttonObs (inverse : Bool) : List (Nat × Bool × Seen) → List Obs
  | [] => []
  | (now, pin, .state r) :: l => ⟨now, pushed inverse pin, rep r⟩ :: buttonObs inverse l
  | _ :: l => buttonObs inverse l

/-- The times at which OnTimeout was called, once per call. -/
def firings : List (Nat × Bool × Seen) → List Nat
  | [] => []
  | (now, _, .fired n) :: l => List.replicate n now ++ firings l
  | _ :: l => firings l

def asPOps (i : Nat) : List Ev → List POp
  | [] => []
  | .update d :: es => .other (.update d) :: asPOps i es
  | .call j pin :: es => if j = i then .scan pin :: asPOps i es else asPOps i es

def asSOps (i : Nat) : List Ev → List TimeoutTask.SOp
  | [] => []
  | .update d :: es => .other (.update d) :: asSOps i es
  | .call j _ :: es => if j = i then .execute :: asSOps i es else asSOps i es

theorem alone_button (N a D H : Nat) (inverse : Bool) (i : Nat) (es : List Ev) (x : PushButton.State) (rs : List BState) (x' : PushButton.State)
    (hr : x.run N (Misc.getId a) D H inverse (asPOps i es) = .ok (rs, x')) :
    ∃ s os, (FrontPanel.State.mk x.delays [.button x.task x.cur x.prev]).run N [.button a D H inverse] (alone i es) = .ok (s, os) ∧
      ∀ now, buttonObs inverse (shown 0 now (alone i es) os) = observations inverse now (asPOps i es) rs := by
  induction es generalizing x rs x' with
  | nil => exact ⟨_, [], rfl, fun _ => rfl⟩
  | cons e es ih =>
    cases e with
    | update g =>
      simp only [asPOps, PushButton.State.run, PushButton.State.step, Delays.State.step, Res.bind_ok] at hr
      cases hx : PushButton.State.run N (Misc.getId a) D H inverse { x with delays := x.delays.update g } (asPOps i es) with
      | ub => rw [hx] at hr; cases hr
      | ok r =>
        rw [hx] at hr
        simp only [Res.bind_ok, Res.ok.injEq, Prod.mk.injEq] at hr
        obtain ⟨rfl, rfl⟩ := hr
        obtain ⟨s, os, e1, e2⟩ := ih _ r.1 r.2 hx
        refine ⟨s, .nothing :: os, ?_, fun now => ?_⟩
        · simp only [alone, FrontPanel.State.run, FrontPanel.State.step, Res.bind_ok, e1]
        · simp only [alone, shown, asPOps, observations, e2]
    | call j pin =>
      by_cases hj : j = i
      · simp only [asPOps, if_pos hj, PushButton.State.run, PushButton.State.step] at hr
        cases hs : x.scan N (Misc.getId a) D H inverse pin with
        | ub => rw [hs] at hr; cases hr
        | ok y =>
          rw [hs] at hr
          simp only [Res.bind_ok] at hr
          cases hx : PushButton.State.run N (Misc.getId a) D H inverse y.2 (asPOps i es) with
          | ub => rw [hx] at hr; cases hr
          | ok r =>
            rw [hx] at hr
            simp only [Res.bind_ok, Res.ok.injEq, Prod.mk.injEq] at hr
            obtain ⟨rfl, rfl⟩ := hr
            obtain ⟨s, os, e1, e2⟩ := ih _ r.1 r.2 hx
            refine ⟨s, .state y.2.cur :: os, ?_, fun now => ?_⟩
            · simp only [alone, if_pos hj, FrontPanel.State.run, FrontPanel.State.step, List.getElem?_cons_zero, FrontPanel.Client.call, hs, Res.bind_ok, List.set_cons_zero, e1]
            · simp only [alone, if_pos hj, shown, if_true, buttonObs, asPOps, observations, e2]
      · simp only [asPOps, if_neg hj] at hr
        obtain ⟨s, os, e1, e2⟩ := ih _ _ _ hr
        exact ⟨s, os, by simpa only [alone, if_neg hj] using e1, fun now => by simpa only [alone, asPOps, if_neg hj] using e2 now⟩

theorem alone_timer (N a T : Nat) (i : Nat) (es : List Ev) (x : TimeoutTask.State) (ns : List Nat) (x' : TimeoutTask.State)
    (hr : x.run N (Misc.getId a) T (asSOps i es) = .ok (ns, x')) :
    ∃ s os, (FrontPanel.State.mk x.delays [.timer x.task]).run N [.timer a T] (alone i es) = .ok (s, os) ∧
      ∀ now, firings (shown 0 now (alone i es) os) = fireTimes now (asSOps i es) ns := by
  induction es generalizing x ns x' with
  | nil => exact ⟨_, [], rfl, fun _ => rfl⟩
  | cons e es ih =>
    cases e with
    | update g =>
      simp only [asSOps, TimeoutTask.State.run, TimeoutTask.State.step, Delays.State.step, Res.bind_ok] at hr
      cases hx : TimeoutTask.State.run N (Misc.getId a) T { x with delays := x.delays.update g } (asSOps i es) with
      | ub => rw [hx] at hr; cases hr
      | ok r =>
        rw [hx] at hr
        simp only [Res.bind_ok, Res.ok.injEq, Prod.mk.injEq] at hr
        obtain ⟨rfl, rfl⟩ := hr
        obtain ⟨s, os, e1, e2⟩ := ih _ r.1 r.2 hx
        refine ⟨s, .nothing :: os, ?_, fun now => ?_⟩
        · simp only [alone, FrontPanel.State.run, FrontPanel.State.step, Res.bind_ok, e1]
        · simp only [alone, shown, asSOps, fireTimes, e2]
    | call j pin =>
      by_cases hj : j = i
      · simp only [asSOps, if_pos hj, TimeoutTask.State.run, TimeoutTask.State.step] at hr
        cases hs : x.execute N (Misc.getId a) T with
        | ub => rw [hs] at hr; cases hr
        | ok y =>
          rw [hs] at hr
          simp only [Res.bind_ok] at hr
          cases hx : TimeoutTask.State.run N (Misc.getId a) T y.2 (asSOps i es) with
          | ub => rw [hx] at hr; cases hr
          | ok r =>
            rw [hx] at hr
            simp only [Res.bind_ok, Res.ok.injEq, Prod.mk.injEq] at hr
            obtain ⟨rfl, rfl⟩ := hr
            obtain ⟨s, os, e1, e2⟩ := ih _ r.1 r.2 hx
            refine ⟨s, .fired y.1.2 :: os, ?_, fun now => ?_⟩
            · simp only [alone, if_pos hj, FrontPanel.State.run, FrontPanel.State.step, List.getElem?_cons_zero, FrontPanel.Client.call, hs, Res.bind_ok, List.set_cons_zero, e1]
            · simp only [alone, if_pos hj, shown, if_true, firings, asSOps, fireTimes, e2]
      · simp only [asSOps, if_neg hj] at hr
        obtain ⟨s, os, e1, e2⟩ := ih _ _ _ hr
        exact ⟨s, os, by simpa only [alone, if_neg hj] using e1, fun now => by simpa only [alone, asSOps, if_neg hj] using e2 now⟩

theorem asPOps_once (i : Nat) (fresh : Bool) (es : List Ev) (h : CalledOnce i fresh es) : ScansOncePerUpdate fresh (asPOps i es) := by
  induction es generalizing fresh with
  | nil => trivial
  | cons e es ih =>
    cases e with
    | update g => exact ih true h
    | call j pin =>
      simp only [CalledOnce] at h
      simp only [asPOps]
      split
      · rename_i hj; rw [if_pos hj] at h; exact ⟨h.1, ih _ h.2⟩
      · rename_i hj; rw [if_neg hj] at h; exact ih _ h

theorem asSOps_once (i : Nat) (fresh : Bool) (es : List Ev) (h : CalledOnce i fresh es) : OncePerUpdate fresh (asSOps i es) := by
  induction es generalizing fresh with
  | nil => trivial
  | cons e es ih =>
    cases e with
    | update g => exact ih true h
    | call j pin =>
      simp only [CalledOnce] at h
      simp only [asSOps]
      split
      · rename_i hj; rw [if_pos hj] at h; exact ⟨h.1, ih _ h.2⟩
      · rename_i hj; rw [if_neg hj] at h; exact ih _ h

theorem asPOps_other (i : Nat) (es : List Ev) (op : Op) (h : POp.other op ∈ asPOps i es) : ∃ g, op = .update g := by
  induction es with
  | nil => cases h
  | cons e es ih =>
    cases e with
    | update g =>
      simp only [asPOps, List.mem_cons, POp.other.injEq] at h
      exact h.elim (fun h => ⟨g, h⟩) ih
    | call j pin =>
      simp only [asPOps] at h
      split at h
      · simp only [List.mem_cons, reduceCtorEq, false_or] at h; exact ih h
      · exact ih h

theorem asSOps_other (i : Nat) (es : List Ev) (op : Op) (h : TimeoutTask.SOp.other op ∈ asSOps i es) : ∃ g, op = .update g := by
  induction es with
  | nil => cases h
  | cons e es ih =>
    cases e with
    | update g =>
      simp only [asSOps, List.mem_cons, TimeoutTask.SOp.other.injEq] at h
      exact h.elim (fun h => ⟨g, h⟩) ih
    | call j pin =>
      simp only [asSOps] at h
      split at h
      · simp only [List.mem_cons, reduceCtorEq, false_or] at h; exact ih h
      · exact ih h

/-- **C133 (every object keeps its promise).** In such a program every push button that is scanned at most once per time update reports legally (C29, C30), and every timeout
    task that is executed at most once per time update calls OnTimeout never before its time since the start or since the last call, whatever the other objects do and however
    often they are called. -/
theorem c133_promises (N : Nat) (cs : List Client) (h : PanelOk N cs) (es : List Ev) :
    ∃ s os, (FrontPanel.State.init cs).run N cs es = .ok (s, os) ∧
      (∀ i a D H inverse, cs[i]? = some (.button a D H inverse) → CalledOnce i true es → Legal D H .unknown 0 (buttonObs inverse (shown i 0 es os))) ∧
      (∀ i a T, cs[i]? = some (.timer a T) → CalledOnce i true es →
        (∀ x ∈ firings (shown i 0 es os), T ≤ x) ∧ (firings (shown i 0 es os)).Pairwise fun a b => a + T ≤ b) := by
  obtain ⟨s, os, e, hi⟩ := c133_independent N cs h es
  have room1 : ∀ (i : Nat) (c : Client), cs[i]? = some c → Room N [Misc.getId c.address] := by
    intro i c hc
    have hm := List.mem_of_getElem? hc
    refine ⟨fun h0 => ?_, ?_⟩
    · rw [List.mem_singleton, getId_mod] at h0
      exact h.nz c hm h0.symm
    · have := List.length_pos_of_mem hm
      have := h.fits
      simp only [List.length_singleton]; omega
  refine ⟨s, os, e, fun i a D H inverse hc ho => ?_, fun i a T hc ho => ?_⟩
  · obtain ⟨s1, os1, e1, _, e2⟩ := hi i _ hc
    obtain ⟨rs, x', hr, hL⟩ := c29_c30_legal_reports N D H (Misc.getId a) [Misc.getId a] (room1 i _ hc) (by simp) inverse (asPOps i es)
      (fun op hop j hj => by obtain ⟨g, rfl⟩ := asPOps_other i es op hop; cases hj) (asPOps_once i true es ho)
    obtain ⟨s2, os2, f1, f2⟩ := alone_button N a D H inverse i es _ rs x' hr
    have : (s1, os1) = (s2, os2) := Res.ok.inj (e1.symm.trans f1)
    cases this
    rw [e2, f2]
    exact hL
  · obtain ⟨s1, os1, e1, _, e2⟩ := hi i _ hc
    obtain ⟨ns, x', hr, _, hL⟩ := c28_never_early_partial N (Misc.getId a) T [Misc.getId a] (room1 i _ hc) (by simp) (asSOps i es)
      (fun op hop j hj => by obtain ⟨g, rfl⟩ := asSOps_other i es op hop; cases hj) (asSOps_once i true es ho)
    obtain ⟨s2, os2, f1, f2⟩ := alone_timer N a T i es _ ns x' hr
    have : (s1, os1) = (s2, os2) := Res.ok.inj (e1.symm.trans f1)
    cases this
    rw [e2, f2]
    exact hL

example := c133_promises 2 [.button 300 50 500 false, .timer 320 1000] ⟨by decide, by decide, by decide⟩
  [.update 30, .call 0 false, .call 1 false, .update 30, .call 0 true, .call 1 true]

/-- Rounds of a time update and a call of each of two objects. -/
def rounds133 (ds : List Nat) : List Ev := ds.flatMap fun d => [.update d, .call 0 false, .call 1 false]

/-- When OnTimeout of the two objects of a program is called in such rounds. -/
def twoFire (N : Nat) (cs : List Client) (ds : List Nat) : Res (List Nat × List Nat) :=
  ((FrontPanel.State.init cs).run N cs (rounds133 ds)).bind fun r => .ok (firings (shown 0 0 (rounds133 ds) r.2), firings (shown 1 0 (rounds133 ds) r.2))

/-- **C133 fails** without each of the conditions.  Two timeout tasks of 100 executed once per update of 10: (1) with one identifier, as an object and its first member have (C97), or
    two objects 65536 bytes apart, OnTimeout of the first is called at 70; (2) the identifier 0 marks a free entry, so a task at a multiple of 65536 calls OnTimeout
    at 20; (3) a table with one entry for both is indexed with -1. -/
theorem c133_conditions_fail :
    twoFire 2 [.timer 300 100, .timer 65836 100] (List.replicate 12 10) = .ok ([70], [120]) ∧
    twoFire 2 [.timer 65536 100, .timer 320 100] (List.replicate 12 10) = .ok ([20], [120]) ∧
    twoFire 1 [.timer 300 100, .timer 320 100] (List.replicate 12 10) = .ub := by decide +kernel

/-- Non-vacuity: with the conditions met. -/
example : twoFire 2 [.timer 300 100, .timer 320 100] (List.replicate 13 10) = .ok ([120], [120]) := by decide +kernel

/-- A button, pressed after the first scan, and a timer that is executed three times per update: both conditions of the theorems hold and both do what they do alone. -/
example : PanelOk 2 [.button 300 50 500 false, .timer 320 1000] := ⟨by decide, by decide, by decide⟩

def panelEx : List Ev := [.update 0, .call 0 false, .call 1 false, .update 30, .call 0 true, .call 1 true, .call 1 true, .call 1 false, .update 30, .call 0 true, .call 1 false,
  .update 30, .call 0 true, .update 30, .call 1 true, .call 0 true]

example : CalledOnce 0 true panelEx := by simp [panelEx, CalledOnce]

example : ((FrontPanel.State.init [.button 300 50 500 false, .timer 320 1000]).run 2 [.button 300 50 500 false, .timer 320 1000] panelEx).bind
    (fun r => .ok (shown 0 0 panelEx r.2)) =
    .ok [(0, false, .state .opened), (30, true, .state .pending), (60, true, .state .pending), (90, true, .state .pending), (120, true, .state .closed)] := by decide +kernel

end Atl.Props
