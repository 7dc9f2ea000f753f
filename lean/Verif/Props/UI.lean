import Verif.Proof.UI

/- Property theorems C49-C54, C70, C71: the UI framework. -/
namespace Atl.Props
open Atl.UI Atl.UI.Control Atl.Spec.UI

/-! ### C50 casts -/

theorem isA_iff (a b : Cls) : IsA a b ↔ (b = .control ∨ (b = .input ∧ a ≠ .control) ∨ (b = .panel ∧ (a = .panel ∨ a = .page)) ∨ (b = .page ∧ a = .page)) := by
  constructor
  · intro h
    induction h with
    | refl a => cases a <;> simp
    | @step a b c hb _ ih => cases hb <;> cases c <;> simp_all
  · intro h
    have i := Base.input
    have p := Base.panel
    have g := Base.page
    cases a <;> cases b <;> first
      | exact .refl _
      | exact .step i (.refl _)
      | exact .step p (.refl _)
      | exact .step p (.step i (.refl _))
      | exact .step g (.refl _)
      | exact .step g (.step p (.refl _))
      | exact .step g (.step p (.step i (.refl _)))
      | simp at h

/-- The casts of the four classes of objects. -/
def castOk (a : Cls) (t : Nat) : Bool := match a with
  | .control => controlIs t
  | .input => inputIs t
  | .panel => panelIs t
  | .page => pageIs t

/-- The classes the objects are instances of. -/
example (l : Label) (i : Input) (u : UpDown Nat) (x : Text Nat) (p : Panel Input) (g : Page Input) (t : Nat) :
    isOfType t l = castOk .control t ∧ isOfType t i = castOk .input t ∧ isOfType t u = castOk .input t ∧ isOfType t x = castOk .input t ∧
    isOfType t p = castOk .panel t ∧ isOfType t g = castOk .page t := ⟨rfl, rfl, rfl, rfl, rfl, rfl⟩

/-- **C50, partial.** Casts to Control, InputControl and Page succeed exactly for objects of that class or a derived one, casts to Unknown never.
    Missing: casts to Panel (next theorem). -/
theorem c50_casts_partial (a b : Cls) (hb : b ≠ .panel) : (castOk a b.number = true ↔ IsA a b) ∧ castOk a 0 = false := by
  rw [isA_iff]
  cases a <;> cases b <;> first | (exfalso; exact hb rfl) | decide

/-- **C50.** Panels and pages can be cast to Panel. -/
theorem c50_panel_up (a : Cls) (h : IsA a .panel) : castOk a Cls.panel.number = true := by
  rw [isA_iff] at h
  cases a <;> first | rfl | simp at h

example := c50_panel_up .page (by rw [isA_iff]; decide)

/-- **C50 fails.** Every control, labels included, can be cast to Panel. -/
theorem c50_panel_fails (a : Cls) : castOk a Cls.panel.number = true ∧ ¬ IsA .control .panel ∧ ¬ IsA .input .panel := by
  rw [isA_iff, isA_iff]
  cases a <;> decide

/-- **C50.** The numbers the library passes to the cast are the documented ones. -/
theorem c50_numbers : [tControl, tInput, tPanel, tPage] = [Cls.control, .input, .panel, .page].map Cls.number := rfl

/-- **C50.** The cast of a pointer. -/
theorem c50_pointer {α : Type} [Control α] (p : Option α) (t : Nat) :
    dynamicCast p t = (p.filter fun x => isOfType t x) := by
  cases p with
  | none => rfl
  | some x => simp [dynamicCast, Option.filter]

/-! ### C49 disabled and hidden controls -/

/-- Runs a history of navigation commands. -/
def navs {α : Type} [Control α] (cs : List Nav) (x : α) : α := cs.foldl (fun x c => (nav c x).2) x

/-- A control that ignores navigation while it is disabled or hidden, and refuses the focus. -/
def Refuses (α : Type) [Control α] : Prop :=
  ∀ x : α, (state x = .disabled ∨ state x = .hidden) → (∀ c, nav c x = (false, x)) ∧ setState .focused x = (false, x)

theorem refuses_input : Refuses Input := by
  intro x h
  obtain ⟨s⟩ := x
  change s = _ ∨ s = _ at h
  rcases h with rfl | rfl <;> exact ⟨fun c => by cases c <;> rfl, rfl⟩

theorem refuses_upDown (ν : Type) : Refuses (UpDown ν) := by
  intro x h
  obtain ⟨s, v, i, d⟩ := x
  change s = _ ∨ s = _ at h
  rcases h with rfl | rfl <;> exact ⟨fun c => by cases c <;> rfl, rfl⟩

theorem refuses_text (ι : Type) : Refuses (Text ι) := by
  intro x h
  obtain ⟨s, t, c, o, i, e⟩ := x
  change s = _ ∨ s = _ at h
  rcases h with rfl | rfl <;> exact ⟨fun c => by cases c <;> rfl, rfl⟩

/-- **C49, partial.** An input, up/down or text control that is disabled or hidden is not changed at all by any history of navigation commands and
    requests for the focus. Missing: requests for the selection, and panels. -/
theorem c49_controls_partial {α : Type} [Control α] (hr : Refuses α) (x : α) (h : state x = .disabled ∨ state x = .hidden) (l : List (Option Nav)) :
    l.foldl (fun x (c : Option Nav) => match c with
      | some c => (nav c x).2
      | none => (setState .focused x).2) x = x := by
  induction l with
  | nil => rfl
  | cons c l ih =>
    obtain ⟨h1, h2⟩ := hr x h
    cases c with
    | none => simp only [List.foldl_cons, h2]; exact ih
    | some c => simp only [List.foldl_cons, h1]; exact ih

example := c49_controls_partial refuses_input { st := .disabled } (.inl rfl) [some .enter, none, some .up]

/-- **C49.** A label never gets focus or selection, whatever is requested. -/
theorem c49_label (x : Label) (h : x.st.active = false) (l : List CState) : (l.foldl (fun x s => (setState s x).2) x).st.active = false := by
  induction l generalizing x with
  | nil => exact h
  | cons s l ih =>
    refine ih _ ?_
    obtain ⟨t⟩ := x
    cases s <;> cases t <;> first | rfl | exact absurd h (by simp [CState.active])

example := c49_label { st := .hidden } (by decide) [.focused, .selected, .disabled]

/-- **C49.** Which requests a label and an input control accept: only for another state; a label neither focus nor selection; an input control the focus only
    while enabled. The result tells whether the state was accepted; nothing else changes. -/
theorem c49_requests {ν ι : Type} (s : CState) (l : Label) (x : Input) (u : UpDown ν) (t : Text ι) :
    setState s l = (if s ≠ l.st ∧ s ≠ .focused ∧ s ≠ .selected then (true, { l with st := s }) else (false, l)) ∧
    setState s x = (if s ≠ x.st ∧ (s = .focused → x.st ≠ .disabled ∧ x.st ≠ .hidden) then (true, { x with st := s }) else (false, x)) ∧
    setState s u = (if s ≠ u.st ∧ (s = .focused → u.st ≠ .disabled ∧ u.st ≠ .hidden) then (true, { u with st := s }) else (false, u)) ∧
    (if s ≠ t.st ∧ (s = .focused → t.st ≠ .disabled ∧ t.st ≠ .hidden) then
      (setState s t).1 = true ∧ (setState s t).2.st = s ∧ (setState s t).2.text = t.text ∧
        (setState s t).2.edit = (if s = .focused ∨ s = .selected then 0 else t.edit)
     else setState s t = (false, t)) := by
  obtain ⟨ls, lp, lt⟩ := l
  obtain ⟨xs, xp⟩ := x
  refine ⟨?_, ?_, ?_, ?_⟩
  · cases s <;> cases ls <;> rfl
  · cases s <;> cases xs <;> rfl
  · show UpDown.set s u = _
    unfold UpDown.set
    cases s <;> cases h : u.st <;> simp [beforeInput, beforeControl, h, CState.enabled]
  · have e : setState s t = Text.set s t := rfl
    rw [e]
    unfold Text.set Text.before
    cases s <;> cases h : t.st <;> simp [beforeInput, beforeControl, h, Text.reposition, CState.enabled]

/-- **C49 fails.** A disabled or hidden control accepts the state `Selected`. -/
theorem c49_select_fails : setState .selected ({ st := .disabled } : Input) = (true, { st := .selected }) ∧ setState .selected ({ st := .hidden } : Input) = (true, { st := .selected }) := ⟨rfl, rfl⟩

/-- Three controls in a row, the second disabled. -/
def row (k : Kind) : Panel Input := { kind := k, kids := [{ st := .normal }, { st := .disabled }, { st := .normal }] }

/-- **C49 fails.** Moving over a disabled control enables it; moving back gives it the focus; Enter selects it. The same in a vertical panel. -/
theorem c49_panel_fails :
    (navs [.right, .right] (row .horizontal)).kids = [{ st := .normal }, { st := .disabled }, { st := .normal }] ∧
    (navs [.right, .right, .right] (row .horizontal)).kids = [{ st := .normal }, { st := .normal }, { st := .focused }] ∧
    (navs [.right, .right, .right, .left, .enter] (row .horizontal)).kids = [{ st := .normal }, { st := .selected }, { st := .normal }] ∧
    (navs [.down, .down, .down, .up, .enter] (row .vertical)).kids = [{ st := .normal }, { st := .selected }, { st := .normal }] := by decide +kernel

theorem panel_set_unselected {α : Type} (s : CState) (p : Panel α) (h : p.st ≠ .selected) : (Panel.set s p).2.st ≠ .selected := by
  rw [panel_set_st]
  split
  · rename_i hb
    rintro rfl
    simp [beforePanel] at hb
  · exact h

/-- **C49.** A panel accepts exactly the state requests for another state that is not `Selected`, and the focus only while enabled. -/
theorem c49_panel_requests {α : Type} (s : CState) (p : Panel α) :
    Panel.set s p = if s ≠ p.st ∧ s ≠ .selected ∧ (s = .focused → p.st ≠ .disabled ∧ p.st ≠ .hidden) then (true, { p with st := s }) else (false, p) := by
  unfold Panel.set
  congr 1
  cases s <;> cases p.st <;> decide

/-- **C49.** A panel is never selected, whatever commands it gets and states are requested, its children included. -/
theorem c49_panel_unselected {α : Type} [Control α] (p : Panel α) (h : p.st ≠ .selected) (l : List (Nav ⊕ CState)) :
    (l.foldl (fun p (c : Nav ⊕ CState) => match c with
      | .inl c => (nav c p).2
      | .inr s => (setState s p).2) p).st ≠ .selected := by
  have cur : ∀ (new : Option Nat) (p : Panel α), p.st ≠ .selected → (Panel.setCurrent new p).st ≠ .selected := by
    intro new p h
    unfold Panel.setCurrent
    cases hc : p.cur with
    | none =>
      cases new with
      | none => exact h
      | some i => exact panel_set_unselected _ _ h
    | some j =>
      have : (Panel.set .normal (Panel.setKid j .normal p)).2.st ≠ .selected := panel_set_unselected _ _ h
      cases new with
      | none => exact this
      | some i => exact panel_set_unselected _ _ this
  have toCur : ∀ c (p : Panel α), p.st ≠ .selected → (Panel.toCurrent c p).2.st ≠ .selected := by
    intro c p h
    unfold Panel.toCurrent
    split
    · split <;> exact h
    · exact h
  have next : ∀ p : Panel α, p.st ≠ .selected → (Panel.setNext p).2.st ≠ .selected := by
    intro p h
    unfold Panel.setNext
    split
    · exact cur _ _ h
    · exact h
  have prev : ∀ p : Panel α, p.st ≠ .selected → (Panel.setPrevious p).2.st ≠ .selected := by
    intro p h
    unfold Panel.setPrevious
    split
    · exact cur _ _ h
    · exact h
  induction l generalizing p with
  | nil => exact h
  | cons c l ih =>
    refine ih _ ?_
    cases c with
    | inr s => exact panel_set_unselected s p h
    | inl c =>
      have t := toCur c p h
      show (match p.kind with
        | .horizontal => Panel.navHorizontal c p
        | .vertical => Panel.navVertical c p
        | .controller => Panel.navController c p
        | _ => Panel.toCurrent c p).2.st ≠ _
      split
      · unfold Panel.navHorizontal
        simp only
        split
        · exact t
        · split
          · exact prev _ t
          · exact next _ t
          · exact t
      · unfold Panel.navVertical
        split
        · exact prev _ h
        · exact next _ h
        · exact t
      · unfold Panel.navController
        simp only
        split
        · exact t
        · split
          · exact prev _ t
          · exact next _ t
          · exact t
      · exact t

example := c49_panel_unselected ({ kind := .horizontal, kids := [{ st := .disabled }] } : Panel Input) (by decide) [.inl .enter, .inr .focused, .inl .right]

/-! ### C51 one focused child -/

variable {α : Type} [Control α]

/-- The current control is an input control among the children, and no other child is focused or selected. -/
def Single (p : Panel α) : Prop :=
  (∀ i, p.cur = some i → Panel.IsInput p.kids i) ∧ ∀ i k, p.kids[i]? = some k → (state k).active = true → p.cur = some i

theorem isInput_modify [Lawful α] (kids : List α) (i j : Nat) (s : CState) :
    Panel.IsInput (kids.modify i fun k => (setState s k).2) j ↔ Panel.IsInput kids j := by
  unfold Panel.IsInput
  simp only [List.getElem?_modify]
  cases h : kids[j]? with
  | none => simp
  | some k => by_cases hij : i = j <;> simp [hij, Lawful.type_set]

theorem single_setCurrent [Lawful α] (p : Panel α) (h : Single p) (new : Nat) (hn : Panel.IsInput p.kids new) : Single (Panel.setCurrent (some new) p) := by
  constructor
  · intro i hi
    rw [Panel.setCurrent_cur] at hi
    simp only [Option.some.injEq] at hi
    subst hi
    rw [Panel.setCurrent_kids, isInput_modify]
    cases p.cur with
    | none => exact hn
    | some c => simp only [isInput_modify]; exact hn
  · intro i k hk ha
    rw [Panel.setCurrent_cur]
    rw [Panel.setCurrent_kids] at hk
    by_cases hi : new = i
    · rw [hi]
    · exfalso
      rw [modify_ne _ _ hi] at hk
      cases hc : p.cur with
      | none =>
        rw [hc] at hk
        have := h.2 i k hk ha
        rw [hc] at this
        cases this
      | some c =>
        rw [hc] at hk
        simp only at hk
        by_cases hci : c = i
        · subst hci
          rw [modify_eq] at hk
          cases hq : p.kids[c]? with
          | none => rw [hq] at hk; cases hk
          | some q =>
            rw [hq] at hk
            simp only [Option.map_some, Option.some.injEq] at hk
            subst hk
            rw [Lawful.normal_inactive] at ha
            cases ha
        · rw [modify_ne _ _ hci] at hk
          have := h.2 i k hk ha
          rw [hc, Option.some.injEq] at this
          exact hci this

theorem nat_of_toS8 (x : Int) : (∃ n : Nat, toS 8 x = n ∧ n ≤ 127) ∨ toS 8 x < 0 := by
  unfold toS
  simp only [Nat.reducePow, Nat.reduceSub]
  by_cases h : 0 ≤ (x + (128 : Nat)) % (256 : Nat) - (128 : Nat)
  · exact Or.inl ⟨((x + (128 : Nat)) % (256 : Nat) - (128 : Nat)).toNat, by omega, by omega⟩
  · exact Or.inr (by omega)

theorem getNext_input (p : Panel α) (c : Int) (i : Nat) (h : Panel.getNext p c tInput = some i) : Panel.IsInput p.kids i := by
  unfold Panel.getNext at h
  simp only at h
  have key : ∀ x : Int, ((∃ n : Nat, x = n ∧ n ≤ 127) ∨ x < 0) → Panel.scanUp p.kids tInput 200 x = some i → Panel.IsInput p.kids i := by
    intro x hx hs
    rcases hx with ⟨n, rfl, hn⟩ | hx
    · exact (Panel.scanUp_some p.kids 200 n hn i hs).2.1
    · rw [Panel.scanUp, if_neg (by omega)] at hs
      cases hs
  split at h
  · exact key _ (nat_of_toS8 _) h
  · split at h
    · exact key _ (Or.inl ⟨0, rfl, by omega⟩) h
    · rename_i hc _
      exact key _ (Or.inr (by omega)) h

theorem getPrevious_input (p : Panel α) (c : Int) (i : Nat) (h : Panel.getPrevious p c tInput = some i) : Panel.IsInput p.kids i := by
  unfold Panel.getPrevious at h
  simp only at h
  have key : ∀ x : Int, ((∃ n : Nat, x = n ∧ n ≤ 127) ∨ x < 0) → Panel.scanDown p.kids tInput 200 x = some i → Panel.IsInput p.kids i := by
    intro x hx hs
    rcases hx with ⟨n, rfl, hn⟩ | hx
    · by_cases hl : n < p.kids.length
      · exact (Panel.scanDown_some p.kids 200 n hn hl i hs).2.1
      · rw [Panel.scanDown, if_neg (by omega)] at hs
        cases hs
    · rw [Panel.scanDown, if_neg (by omega)] at hs
      cases hs
  split at h
  · exact key _ (nat_of_toS8 _) h
  · split at h
    · exact key _ (nat_of_toS8 _) h
    · rename_i hc _
      exact key _ (Or.inr (by omega)) h

theorem single_setNext [Lawful α] (p : Panel α) (h : Single p) : Single (Panel.setNext p).2 := by
  unfold Panel.setNext
  cases hg : Panel.getNext p p.indexOf tInput with
  | none => exact h
  | some i => exact single_setCurrent p h i (getNext_input p _ i hg)

theorem single_setPrevious [Lawful α] (p : Panel α) (h : Single p) : Single (Panel.setPrevious p).2 := by
  unfold Panel.setPrevious
  cases hg : Panel.getPrevious p p.indexOf tInput with
  | none => exact h
  | some i => exact single_setCurrent p h i (getPrevious_input p _ i hg)

theorem single_setFirst [Lawful α] (p : Panel α) (h : Single p) : Single (Panel.setFirst p).2 := by
  unfold Panel.setFirst
  cases hg : Panel.getNext p (-1) tInput with
  | none => exact h
  | some i => exact single_setCurrent p h i (getNext_input p _ i hg)

theorem toCurrent_cur (c : Nav) (p : Panel α) : (Panel.toCurrent c p).2.cur = p.cur ∧ (Panel.toCurrent c p).2.kind = p.kind ∧ (Panel.toCurrent c p).2.st = p.st := by
  unfold Panel.toCurrent
  split
  · split <;> exact ⟨rfl, rfl, rfl⟩
  · exact ⟨rfl, rfl, rfl⟩

theorem single_toCurrent [Lawful α] (c : Nav) (p : Panel α) (h : Single p) : Single (Panel.toCurrent c p).2 := by
  unfold Panel.toCurrent
  split
  · rename_i i hi
    split
    · rename_i k hk
      constructor
      · intro j hj
        obtain ⟨q, h1, h2⟩ := h.1 j hj
        simp only at hj
        rw [hi, Option.some.injEq] at hj
        subst hj
        rw [hk, Option.some.injEq] at h1
        subst h1
        have hlt := (List.getElem?_eq_some_iff.1 hk).1
        refine ⟨(nav c k).2, by simp [List.getElem?_set, hlt], ?_⟩
        rw [Lawful.type_nav, h2]
      · intro j q hq ha
        by_cases hij : i = j
        · rw [← hij]; exact hi
        · rw [List.getElem?_set_ne hij] at hq
          exact h.2 j q hq ha
    · exact h
  · exact h

theorem single_nav [Lawful α] (c : Nav) (p : Panel α) (h : Single p) : Single (nav c p).2 := by
  have hc := single_toCurrent c p h
  show Single (match p.kind with
    | .horizontal => Panel.navHorizontal c p
    | .vertical => Panel.navVertical c p
    | .controller => Panel.navController c p
    | _ => Panel.toCurrent c p).2
  cases p.kind with
  | plain => exact hc
  | horizontal =>
    simp only [Panel.navHorizontal]
    split
    · exact hc
    · cases c <;> first | exact hc | exact single_setPrevious _ hc | exact single_setNext _ hc
  | vertical =>
    cases c <;> first | exact hc | exact single_setPrevious _ h | exact single_setNext _ h
  | controller =>
    simp only [Panel.navController]
    split
    · exact hc
    · cases c <;> first | exact hc | exact single_setPrevious _ hc | exact single_setNext _ hc

/-- **C51.** Any panel, any number and kind of children (nested panels included), any history of navigation commands: the current control is one of the
    input controls among the children or none, and it is the only child that can be focused or selected. -/
theorem c51_single [Lawful α] (p : Panel α) (h : Single p) (cs : List Nav) : Single (navs cs p) := by
  induction cs generalizing p with
  | nil => exact h
  | cons c cs ih => exact ih _ (single_nav c p h)

/-- The commands a panel uses itself. -/
def isMove : Kind → Nav → Bool
  | .horizontal, .left | .horizontal, .right => true
  | .vertical, .up | .vertical, .down => true
  | .controller, .up | .controller, .down => true
  | _, _ => false

/-- **C51.** Any other command is for the current child: it gets the command once, the result of the panel is its result, and nothing else changes; without a
    current child the command is refused and nothing changes. -/
theorem c51_forward (c : Nav) (p : Panel α) (h : isMove p.kind c = false) :
    nav c p = match p.cur.bind fun i => (p.kids[i]?).map (i, ·) with
      | some (i, k) => ((nav c k).1, { p with kids := p.kids.set i (nav c k).2 })
      | none => (false, p) := by
  have ht : Panel.toCurrent c p = match p.cur.bind fun i => (p.kids[i]?).map (i, ·) with
      | some (i, k) => ((nav c k).1, { p with kids := p.kids.set i (nav c k).2 })
      | none => (false, p) := by
    unfold Panel.toCurrent
    cases hc : p.cur with
    | none => rfl
    | some i => cases hk : p.kids[i]? with
      | none => simp [hk]
      | some k => simp [hk]
  rw [← ht]
  have hf : ∀ r : Bool × Panel α, (if r.1 = true then (true, r.2) else (false, r.2)) = r := by
    rintro ⟨b, q⟩; cases b <;> rfl
  show (match p.kind with
    | .horizontal => Panel.navHorizontal c p
    | .vertical => Panel.navVertical c p
    | .controller => Panel.navController c p
    | _ => Panel.toCurrent c p) = _
  cases hk : p.kind <;> rw [hk] at h <;> dsimp only
  all_goals (cases c <;> first | (exact absurd h (by decide)) | rfl | exact hf _)

example := c51_forward .enter ({ kind := .horizontal, cur := some 0, kids := [{ st := .focused }, {}] } : Panel Input) (by decide)

/-- **C51.** It holds from the start, and means that no two children are active. -/
theorem c51_start (p : Panel α) (h0 : p.cur = none) (hk : ∀ k ∈ p.kids, (state k).active = false) : Single p := by
  constructor
  · intro i hi; rw [h0] at hi; cases hi
  · intro i k hi ha
    rw [hk k (List.mem_of_getElem? hi)] at ha
    cases ha

example := c51_single ({ kind := .horizontal, kids := [{}, { st := .disabled }] } : Panel Input) (c51_start _ rfl (by decide)) [.right, .enter, .exit, .right]

example : Single (row .horizontal) ∧ Single (navs [.right, .right, .enter, .exit, .left] (row .horizontal)) ∧
    (navs [.right, .right, .enter, .exit, .left] (row .horizontal)).kids.map Input.st = [.focused, .normal, .normal] := by
  have h : Single (row .horizontal) := c51_start _ rfl (by decide)
  exact ⟨h, c51_single _ h _, by decide +kernel⟩

theorem c51_at_most_one (p : Panel α) (h : Single p) (i j : Nat) (a b : α) (hi : p.kids[i]? = some a) (hj : p.kids[j]? = some b)
    (ha : (state a).active = true) (hb : (state b).active = true) : i = j := by
  have h1 := h.2 i a hi ha
  have h2 := h.2 j b hj hb
  rw [h1] at h2
  exact Option.some.inj h2

theorem indexOf_eq (p : Panel α) (hl : p.kids.length ≤ 128) (i : Nat) (hi : i < p.kids.length) (hc : p.cur = some i) : p.indexOf = (i : Int) := by
  unfold Panel.indexOf
  rw [hc]
  exact Panel.toS8_small _ (by omega)

/-- **C51, partial.** Moving forward goes to the next input control in order, skipping none; at the end nothing changes. Panels up to 128 children. -/
theorem c51_next_partial (p : Panel α) (hl : p.kids.length ≤ 128) (hv : ∀ i, p.cur = some i → i < p.kids.length) :
    (∃ i, FirstAfter (Panel.IsInput p.kids) p.cur i ∧ Panel.setNext p = (true, Panel.setCurrent (some i) p)) ∨
    ((∀ i, (∀ c, p.cur = some c → c < i) → ¬ Panel.IsInput p.kids i) ∧ Panel.setNext p = (false, p)) := by
  unfold Panel.setNext
  cases hc : p.cur with
  | none =>
    have hidx : p.indexOf = -1 := by unfold Panel.indexOf; rw [hc]
    rw [hidx]
    by_cases hlen : p.kids.length = 0
    · right
      have hnil : p.kids = [] := List.length_eq_zero_iff.1 hlen
      refine ⟨?_, ?_⟩
      · rintro i _ ⟨k, hk, _⟩
        rw [hnil] at hk; simp at hk
      · simp [Panel.getNext, hnil, Panel.scanUp]
    · have he : Panel.getNext p (-1) tInput = Panel.scanUp p.kids tInput 200 ((0 : Nat) : Int) := by
        simp [Panel.getNext, Nat.pos_of_ne_zero hlen]
      rw [he]
      cases hs : Panel.scanUp p.kids tInput 200 ((0 : Nat) : Int) with
      | some i =>
        left
        obtain ⟨h1, h2, h3⟩ := Panel.scanUp_some p.kids 200 0 (by omega) i hs
        refine ⟨i, ⟨h2, ?_, fun j hj _ => h3 j (by omega) hj⟩, rfl⟩
        intro c hx; cases hx
      | none =>
        right
        have := Panel.scanUp_none p.kids hl 200 0 (by omega) hs
        exact ⟨fun i _ => this i (by omega), rfl⟩
  | some c =>
    have hcl := hv c hc
    rw [indexOf_eq p hl c hcl hc]
    have hne : (c : Int) ≠ -1 := by omega
    by_cases h127 : c = 127
    · right
      subst h127
      have ht : toS 8 (((127 : Nat) : Int) + 1) = -128 := by decide +kernel
      refine ⟨?_, ?_⟩
      · rintro i hi ⟨k, hk, _⟩
        have h1 := (List.getElem?_eq_some_iff.1 hk).1
        have h2 := hi _ rfl
        omega
      · unfold Panel.getNext
        simp only [if_pos hne, ht]
        rw [Panel.scanUp, if_neg (by omega)]
    · have he : Panel.getNext p (c : Int) tInput = Panel.scanUp p.kids tInput 200 ((c + 1 : Nat) : Int) := by
        unfold Panel.getNext
        simp only [if_pos hne]
        rw [Panel.toS8_small _ (by omega)]
        congr 1
      rw [he]
      cases hs : Panel.scanUp p.kids tInput 200 ((c + 1 : Nat) : Int) with
      | some i =>
        left
        obtain ⟨h1, h2, h3⟩ := Panel.scanUp_some p.kids 200 (c + 1) (by omega) i hs
        refine ⟨i, ⟨h2, ?_, ?_⟩, rfl⟩
        · intro d hd; cases hd; omega
        · intro j hj hd
          exact h3 j (hd c rfl) hj
      | none =>
        right
        have := Panel.scanUp_none p.kids hl 200 (c + 1) (by omega) hs
        exact ⟨fun i hi => this i (hi c rfl), rfl⟩

example := c51_next_partial ({ kind := .horizontal, cur := some 0, kids := [{ st := .focused }, {}] } : Panel Input) (by decide) (by decide)

/-- **C51, partial.** `SetFirstInputControl` goes to the first input control wherever the panel was; without any it changes nothing. -/
theorem c51_first_partial (p : Panel α) (hl : p.kids.length ≤ 128) :
    (∃ i, FirstAfter (Panel.IsInput p.kids) none i ∧ Panel.setFirst p = (true, Panel.setCurrent (some i) p)) ∨
    ((∀ i, ¬ Panel.IsInput p.kids i) ∧ Panel.setFirst p = (false, p)) := by
  have h := c51_next_partial { p with cur := none } hl (by simp)
  have e : Panel.setNext { p with cur := none } = match Panel.getNext p (-1) tInput with
    | some i => (true, Panel.setCurrent (some i) { p with cur := none })
    | none => (false, { p with cur := none }) := rfl
  have e' : Panel.setFirst p = match Panel.getNext p (-1) tInput with
    | some i => (true, Panel.setCurrent (some i) p)
    | none => (false, p) := rfl
  rw [e] at h
  rw [e']
  cases hg : Panel.getNext p (-1) tInput with
  | some i =>
    rw [hg] at h
    rcases h with ⟨j, h1, h2⟩ | ⟨h1, h2⟩
    · have := congrArg (fun x => x.2.cur) h2
      simp only [Panel.setCurrent_cur, Option.some.injEq] at this
      subst this
      exact Or.inl ⟨i, h1, rfl⟩
    · simp at h2
  | none =>
    rw [hg] at h
    rcases h with ⟨j, h1, h2⟩ | ⟨h1, h2⟩
    · simp at h2
    · exact Or.inr ⟨fun i => h1 i (by simp), rfl⟩

example := c51_first_partial ({ kind := .horizontal, cur := some 0, kids := [{ st := .focused }, {}] } : Panel Input) (by decide)

/-- **C51, partial.** The same for moving back. -/
theorem c51_previous_partial (p : Panel α) (hl : p.kids.length ≤ 128) (hv : ∀ i, p.cur = some i → i < p.kids.length) :
    (∃ i, LastBefore (Panel.IsInput p.kids) p.cur i ∧ Panel.setPrevious p = (true, Panel.setCurrent (some i) p)) ∨
    ((∀ i, (∀ c, p.cur = some c → i < c) → ¬ Panel.IsInput p.kids i) ∧ Panel.setPrevious p = (false, p)) := by
  have inb : ∀ i, Panel.IsInput p.kids i → i < p.kids.length := fun i ⟨k, hk, _⟩ => (List.getElem?_eq_some_iff.1 hk).1
  unfold Panel.setPrevious
  cases hc : p.cur with
  | none =>
    have hidx : p.indexOf = -1 := by unfold Panel.indexOf; rw [hc]
    rw [hidx]
    by_cases hlen : p.kids.length = 0
    · right
      have hnil : p.kids = [] := List.length_eq_zero_iff.1 hlen
      refine ⟨?_, ?_⟩
      · rintro i _ ⟨k, hk, _⟩
        rw [hnil] at hk; simp at hk
      · simp [Panel.getPrevious, hnil, Panel.scanDown]
    · have he : Panel.getPrevious p (-1) tInput = Panel.scanDown p.kids tInput 200 ((p.kids.length - 1 : Nat) : Int) := by
        unfold Panel.getPrevious
        rw [if_neg (by omega), if_pos (by omega), Panel.toS8_small _ (by omega)]
        have : ((p.kids.length - 1 : Nat) : Int) = (p.kids.length : Int) - 1 := by omega
        rw [this]
      rw [he]
      cases hs : Panel.scanDown p.kids tInput 200 ((p.kids.length - 1 : Nat) : Int) with
      | some i =>
        left
        obtain ⟨h1, h2, h3⟩ := Panel.scanDown_some p.kids 200 (p.kids.length - 1) (by omega) (by omega) i hs
        refine ⟨i, ⟨h2, ?_, fun j hj _ hx => h3 j (by have := inb j hx; omega) hj hx⟩, rfl⟩
        intro c hx; cases hx
      | none =>
        right
        have := Panel.scanDown_none p.kids 200 (p.kids.length - 1) (by omega) (by omega) (by omega) hs
        exact ⟨fun i _ hx => this i (by have := inb i hx; omega) hx, rfl⟩
  | some c =>
    have hcl := hv c hc
    rw [indexOf_eq p hl c hcl hc]
    have hne : (c : Int) ≠ -1 := by omega
    cases c with
    | zero =>
      right
      have ht : toS 8 (((0 : Nat) : Int) - 1) = -1 := by decide +kernel
      refine ⟨?_, ?_⟩
      · intro i hi
        have h2 := hi _ rfl
        omega
      · unfold Panel.getPrevious
        simp only [if_pos hne, ht]
        rw [Panel.scanDown, if_neg (by omega)]
    | succ c =>
      have he : Panel.getPrevious p ((c + 1 : Nat) : Int) tInput = Panel.scanDown p.kids tInput 200 (c : Int) := by
        unfold Panel.getPrevious
        simp only [if_pos hne]
        rw [Panel.toS8_small _ (by omega)]
        congr 1
        omega
      rw [he]
      cases hs : Panel.scanDown p.kids tInput 200 (c : Int) with
      | some i =>
        left
        obtain ⟨h1, h2, h3⟩ := Panel.scanDown_some p.kids 200 c (by omega) (by omega) i hs
        refine ⟨i, ⟨h2, ?_, ?_⟩, rfl⟩
        · intro d hd; cases hd; omega
        · intro j hj hd
          have := hd _ rfl
          exact h3 j (by omega) hj
      | none =>
        right
        have := Panel.scanDown_none p.kids 200 c (by omega) (by omega) (by omega) hs
        refine ⟨fun i hi => this i ?_, rfl⟩
        have := hi _ rfl
        omega

example := c51_previous_partial ({ kind := .horizontal, cur := some 1, kids := [{}, { st := .focused }] } : Panel Input) (by decide) (by decide)

/-- **C51 fails** for panels of more than 128 controls: nothing after control 127 is ever reached by moving forward, although there are input controls,
    and moving back from no current control finds none at all. -/
theorem c51_long_fails (p : Panel α) (hl : 128 < p.kids.length ∧ p.kids.length ≤ 255) :
    (p.cur = some 127 → Panel.setNext p = (false, p)) ∧ (p.cur = none → Panel.setPrevious p = (false, p)) := by
  constructor
  · intro hc
    have h1 : p.indexOf = 127 := by unfold Panel.indexOf; rw [hc]; decide +kernel
    have ht : toS 8 ((127 : Int) + 1) = -128 := by decide +kernel
    unfold Panel.setNext Panel.getNext
    rw [h1, if_pos (by omega), ht, Panel.scanUp, if_neg (by omega)]
  · intro hc
    have h1 : p.indexOf = -1 := by unfold Panel.indexOf; rw [hc]
    have ht : toS 8 ((p.kids.length : Int) - 1) < 0 := by
      unfold toS
      simp only [Nat.reducePow, Nat.reduceSub]
      omega
    unfold Panel.setPrevious Panel.getPrevious
    rw [h1, if_neg (by omega), if_pos (by omega), Panel.scanDown, if_neg (by omega)]

end Atl.Props
