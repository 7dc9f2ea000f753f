import Verif.Model.Iterator

/-
  Model of the UI framework: Control.h, InputControl.h, LabelControl.h, UpDownControl.h, TextControl.h, ControlContainer.h, Panel.h,
  PanelControlContainer.h, HorizontalPanel.h, VerticalPanel.h, Line.h, Page.h, PageController.h, NavigationController.h (all in
  Source/Code/ArduinoTemplateLibrary).

  A control is a value; the virtual methods are the members of the class `Control`. A panel holds its children by value, so the model
  covers panels whose children are different objects that belong to this panel only; a pointer to a child is its index.
  Names that do not compile as written are read as intended: `typeControl` (ControlContainer.h 48, 78), `Control::modeNormal` (LabelControl.h 57),
  `case Up` (PageController.h 65).
-/
namespace Atl.UI

/-- `ControlState` (Control.h 53-68). -/
inductive CState where
  | normal | hidden | disabled | focused | selected
  deriving DecidableEq, Repr

/-- `NavigationCommands` (NavigationController.h 30-47). -/
inductive Nav where
  | none | up | down | left | right | enter | exit
  deriving DecidableEq, Repr

/-- `ControlTypes` (Control.h 35-48). -/
def tControl : Nat := 1
/-- `ControlTypes` (Control.h 35-48). -/
def tInput : Nat := 2
/-- `ControlTypes` (Control.h 35-48). -/
def tPanel : Nat := 3
/-- `ControlTypes` (Control.h 35-48). -/
def tPage : Nat := 4

/-- `getIsEnabled` (Control.h 133-136). -/
def CState.enabled (s : CState) : Bool := !(s == .disabled) && !(s == .hidden)

/-- `getIsActive` (Control.h 157-160). -/
def CState.active (s : CState) : Bool := s == .focused || s == .selected

/-- `ControlDisplayMode` (Control.h 72-79). -/
inductive Mode where
  | normal | cursor
  deriving DecidableEq, Repr

/-- A call on the `DisplayWriter` (DisplayWriter.h 43, 50, 59). `undef`: `Write` was given an array without terminating zero. -/
inductive Out where
  | write (text : List Int)
  | goTo (line col : Nat)
  | setCursor (line col : Nat) (edit : Bool)
  | undef
  deriving DecidableEq, Repr

/-- `DisplayWriter::DontCare` (DisplayWriter.h 38). -/
def dontCare : Nat := 0xFF

/-- The characters `Write(const char*)` reads from an array: up to the first zero (the calls of `Write` in TextControl.h 60-195). -/
def cString (a : List Int) : Out := if 0 ∈ a then .write (a.takeWhile (· ≠ 0)) else .undef

/-- The virtual interface (Control.h 165-200, NavigationController.h 60-63) and `getPosition` (Control.h 93-96). Results of methods: returned
    flag, object afterwards; `display` gives the calls made on the DisplayWriter. -/
class Control (α : Type) where
  pos : α → Nat
  display : Mode → α → List Out
  state : α → CState
  setState : CState → α → Bool × α
  nav : Nav → α → Bool × α
  isOfType : Nat → α → Bool

open Control

/-- `Control::BeforeChangeState` (Control.h 227-230). -/
def beforeControl (cur new : CState) : Bool := cur != new

/-- `InputControl::BeforeChangeState` (InputControl.h 108-120). -/
def beforeInput (cur new : CState) : Bool :=
  if !beforeControl cur new then false else if new == .focused && !cur.enabled then false else true

/-- `LabelControl::BeforeChangeState` (LabelControl.h 87-92). -/
def beforeLabel (cur new : CState) : Bool := new != .focused && new != .selected && beforeControl cur new

/-- `Panel::BeforeChangeState` (Panel.h 113-117). -/
def beforePanel (cur new : CState) : Bool := new != .selected && beforeInput cur new

/-- `Control::IsOfType` (Control.h 197-200). -/
def controlIs (t : Nat) : Bool := (t &&& tControl) == tControl
/-- `InputControl::IsOfType` (InputControl.h 91-95). -/
def inputIs (t : Nat) : Bool := (tInput &&& t) == tInput || controlIs t
/-- `Panel::IsOfType` (Panel.h 96-99). -/
def panelIs (t : Nat) : Bool := (tPanel &&& t) == tPanel || inputIs t
/-- `Page::IsOfType` (Page.h 144-147). -/
def pageIs (t : Nat) : Bool := (tPage &&& t) == tPage || panelIs t

/-- `Control::DynamicCast` (Control.h 207-212); a pointer that may be NULL. -/
def dynamicCast {α : Type} [Control α] (c : Option α) (t : Nat) : Option α := match c with
  | .none => .none
  | some x => if isOfType t x then some x else .none

/-- A LabelControl (LabelControl.h 33-96). Not a NavigationController: no command reaches it. `text` are the characters of the string
    `_text` points at, `none` for NULL. -/
structure Label where
  st : CState := .normal
  pos : Nat := 0
  text : Option (List Int) := Option.none
  deriving DecidableEq, Repr

/-- `Display` (LabelControl.h 57-65). -/
def Label.display (m : Mode) (x : Label) : List Out := if m == .cursor then [] else match x.text with
  | some t => [.write t]
  | .none => []

instance : Control Label where
  state x := x.st
  pos x := x.pos
  display := Label.display
  setState s x := if beforeLabel x.st s then (true, { x with st := s }) else (false, x)
  nav _ x := (false, x)
  isOfType t _ := controlIs t

/-- A control derived from InputControl without further overrides (InputControl.h 34-121). -/
structure Input where
  st : CState := .normal
  pos : Nat := 0
  deriving DecidableEq, Repr

namespace Input
/-- `setState` (Control.h 175-183). -/
def set (s : CState) (x : Input) : Bool × Input := if beforeInput x.st s then (true, { x with st := s }) else (false, x)
/-- `TrySelect` (InputControl.h 64-72). -/
def trySelect (x : Input) : Bool × Input := if x.st == .focused then (true, (set .selected x).2) else (false, x)
/-- `TryDeselect` (InputControl.h 77-85). -/
def tryDeselect (x : Input) : Bool × Input := if x.st == .selected then (true, (set .focused x).2) else (false, x)
/-- `OnNavigationCommand` (InputControl.h 46-59). -/
def onNav (c : Nav) (x : Input) : Bool × Input := match c with
  | .enter => trySelect x
  | .exit => tryDeselect x
  | _ => (false, x)
end Input

/-- Does not override `Display` (Control.h 190-191). -/
instance : Control Input where
  state x := x.st
  pos x := x.pos
  display _ _ := []
  setState := Input.set
  nav := Input.onNav
  isOfType t _ := inputIs t

/-- UpDownControl (UpDownControl.h 37-124) over a value object of type `ν` with its three methods. -/
structure UpDown (ν : Type) where
  st : CState := .normal
  pos : Nat := 0
  value : ν
  increment : ν → ν
  decrement : ν → ν
  toText : ν → List Int := fun _ => []

namespace UpDown
variable {ν : Type}
/-- `Display` (UpDownControl.h 53-59). -/
def display (m : Mode) (x : UpDown ν) : List Out := if m == .normal then [.write (x.toText x.value)] else []
/-- `setState` (Control.h 175-183 with InputControl.h 108-120). -/
def set (s : CState) (x : UpDown ν) : Bool × UpDown ν := if beforeInput x.st s then (true, { x with st := s }) else (false, x)
/-- `TryValueUp` (UpDownControl.h 89-98). -/
def tryUp (x : UpDown ν) : Bool × UpDown ν := if x.st == .selected then (true, { x with value := x.increment x.value }) else (false, x)
/-- `TryValueDown` (UpDownControl.h 103-112). -/
def tryDown (x : UpDown ν) : Bool × UpDown ν := if x.st == .selected then (true, { x with value := x.decrement x.value }) else (false, x)
/-- `InputControl::OnNavigationCommand` (InputControl.h 46-85). -/
def inputNav (c : Nav) (x : UpDown ν) : Bool × UpDown ν := match c with
  | .enter => if x.st == .focused then (true, (set .selected x).2) else (false, x)
  | .exit => if x.st == .selected then (true, (set .focused x).2) else (false, x)
  | _ => (false, x)
/-- `OnNavigationCommand` (UpDownControl.h 65-84). -/
def onNav (c : Nav) (x : UpDown ν) : Bool × UpDown ν :=
  let r : Bool × UpDown ν := match c with
    | .up => tryUp x
    | .down => tryDown x
    | _ => (false, x)
  if r.1 then (true, r.2) else inputNav c r.2
end UpDown

instance {ν : Type} : Control (UpDown ν) where
  state x := x.st
  pos x := x.pos
  display := UpDown.display
  setState := UpDown.set
  nav := UpDown.onNav
  isOfType t _ := inputIs t

/-- What TextControl uses of its character iterator (TextControl.h 35-40). -/
structure CharIter (ι : Type) where
  next : ι → ι
  back : ι → ι
  moveTo : Int → ι → ι
  current : ι → Int

/-- TextControl (TextControl.h 43-192). `text` are the elements of the string's array: `FixedString<MaxChars>` has `MaxChars + 1` and
    a capacity of `fixedCapacity MaxChars`; both are kept separately. -/
structure Text (ι : Type) where
  st : CState := .normal
  pos : Nat := 0
  text : List Int
  capacity : Nat
  ops : CharIter ι
  iter : ι
  edit : Nat := 0

namespace Text
variable {ι : Type}
/-- `_str->GetAt(i)` (Array.h 62-67), a `uint8_t` index; an invalid index gives 0. -/
def charAt (x : Text ι) (i : Nat) : Int := x.text.getD i 0
/-- `_str->SetAt(i, c)` (FixedArray.h 50-55); an invalid index does nothing. -/
def setChar (x : Text ι) (i : Nat) (c : Int) : Text ι := { x with text := x.text.set i c }
/-- `Display` (TextControl.h 62-70 with UpDownControl.h 53-59); `ToString` (137-140) is the array itself, the column is a `uint8_t`. -/
def display (m : Mode) (x : Text ι) : List Out :=
  (if m == .normal then [cString x.text] else []) ++
  if m == .cursor && x.st.active then [.setCursor dontCare ((x.pos + x.edit) % 256) (x.st == .selected)] else []
/-- `RepositionIterator` (TextControl.h 160-163). -/
def reposition (x : Text ι) : Text ι := { x with iter := x.ops.moveTo (x.charAt x.edit) x.iter }
/-- `IncrementValue` (TextControl.h 144-148). -/
def increment (x : Text ι) : Text ι :=
  let x := { x with iter := x.ops.next x.iter }
  x.setChar x.edit (x.ops.current x.iter)
/-- `DecrementValue` (TextControl.h 152-156). -/
def decrement (x : Text ι) : Text ι :=
  let x := { x with iter := x.ops.back x.iter }
  x.setChar x.edit (x.ops.current x.iter)
/-- `BeforeChangeState` (TextControl.h 170-186). -/
def before (s : CState) (x : Text ι) : Bool × Text ι :=
  if !beforeInput x.st s then (false, x) else
    let x := if s == .focused then { x with edit := 0 } else x
    let x := if s == .selected then reposition { x with edit := 0 } else x
    (true, x)
/-- `setState` (Control.h 175-183). -/
def set (s : CState) (x : Text ι) : Bool × Text ι :=
  let r := before s x
  if r.1 then (true, { r.2 with st := s }) else (false, r.2)
/-- `TryMoveCursorRight` (TextControl.h 100-113); `_editIndex` is a `uint8_t`. -/
def tryRight (x : Text ι) : Bool × Text ι :=
  if x.st == .selected then (true, if x.edit + 1 < x.capacity then reposition { x with edit := (x.edit + 1) % 256 } else x) else (false, x)
/-- `TryMoveCursorLeft` (TextControl.h 118-131). -/
def tryLeft (x : Text ι) : Bool × Text ι :=
  if x.st == .selected then (true, if 0 < x.edit then reposition { x with edit := x.edit - 1 } else x) else (false, x)
/-- `InputControl::OnNavigationCommand` (InputControl.h 46-85). -/
def inputNav (c : Nav) (x : Text ι) : Bool × Text ι := match c with
  | .enter => if x.st == .focused then (true, (set .selected x).2) else (false, x)
  | .exit => if x.st == .selected then (true, (set .focused x).2) else (false, x)
  | _ => (false, x)
/-- `UpDownControl::OnNavigationCommand` (UpDownControl.h 65-112) with the control as its own value. -/
def upDownNav (c : Nav) (x : Text ι) : Bool × Text ι :=
  let r : Bool × Text ι := match c with
    | .up => if x.st == .selected then (true, increment x) else (false, x)
    | .down => if x.st == .selected then (true, decrement x) else (false, x)
    | _ => (false, x)
  if r.1 then (true, r.2) else inputNav c r.2
/-- `OnNavigationCommand` (TextControl.h 76-95). -/
def onNav (c : Nav) (x : Text ι) : Bool × Text ι :=
  let r : Bool × Text ι := match c with
    | .left => tryLeft x
    | .right => tryRight x
    | _ => (false, x)
  if r.1 then (true, r.2) else upDownNav c r.2
end Text

/-- A library iterator as character iterator (Iterator.h 40-190), `wrap` for WrapAroundIterator; its state is `_index`. The undefined outcomes
    (index overflow) cannot occur for sets of up to 32767 characters; the model stays put there. -/
def charIter (b : Iterator.Base Int) (wrap : Bool) : CharIter Int where
  next i := match if wrap then Iterator.wrapNext b i else Iterator.moveNext b i with
    | .ok r => r.1
    | .ub => i
  back i := match if wrap then Iterator.wrapBack b i else Iterator.moveBack b i with
    | .ok r => r.1
    | .ub => i
  moveTo c i := match Iterator.moveTo b c i with
    | .ok r => r.1
    | .ub => i
  current i := match Iterator.getCurrent b i with
    | .ok c => c
    | .ub => 0

/-- `FixedString<n>::getCapacity()` (FixedString.h 62-65): a `uint16_t` returned as `uint8_t`. -/
def fixedCapacity (n : Nat) : Nat := n % 256

instance {ι : Type} : Control (Text ι) where
  state x := x.st
  pos x := x.pos
  display := Text.display
  setState := Text.set
  nav := Text.onNav
  isOfType t _ := inputIs t

/-- Different kinds of children in one panel: a pointer to `Control` refers to either. -/
instance {α β : Type} [Control α] [Control β] : Control (α ⊕ β) where
  state | .inl x => state x
        | .inr x => state x
  pos | .inl x => pos x
      | .inr x => pos x
  display m | .inl x => display m x
            | .inr x => display m x
  setState s | .inl x => ((setState s x).1, .inl (setState s x).2)
             | .inr x => ((setState s x).1, .inr (setState s x).2)
  nav c | .inl x => ((nav c x).1, .inl (nav c x).2)
        | .inr x => ((nav c x).1, .inr (nav c x).2)
  isOfType t | .inl x => isOfType t x
             | .inr x => isOfType t x

/-- The classes derived from PanelControlContainer; `plain` is PanelControlContainer itself (HorizontalPanel.h 34-108, VerticalPanel.h 34-101, PageController.h 34-105). -/
inductive Kind where
  | plain | horizontal | vertical | controller
  deriving DecidableEq, Repr

/-- A panel with its children (Panel.h 120, ControlContainer.h 38). -/
structure Panel (α : Type) where
  kind : Kind
  st : CState := .normal
  pos : Nat := 0
  cur : Option Nat := Option.none
  kids : List α

namespace Panel
variable {α : Type} [Control α]

/-- `IndexOf(currentCtrl)` (Collection.h 83-92, returned as `char`, ControlContainer.h 50, 80): children are different objects, NULL is not among them. -/
def indexOf (p : Panel α) : Int := match p.cur with
  | .none => -1
  | some i => toS 8 i

/-- The loop of `getNext` (ControlContainer.h 61-68); `int8_t index` wraps. `fuel` exceeds the 128 values the index can take. -/
def scanUp (kids : List α) (t : Nat) : Nat → Int → Option Nat
  | 0, _ => .none
  | f + 1, i => if 0 ≤ i ∧ i < kids.length then
      match dynamicCast kids[i.toNat]? t with
      | some _ => some i.toNat
      | .none => scanUp kids t f (toS 8 (i + 1))
    else .none

/-- `getNext(cur, t)` (ControlContainer.h 48-71). -/
def getNext (p : Panel α) (cur : Int) (t : Nat) : Option Nat :=
  let i : Int := if cur ≠ -1 then toS 8 (cur + 1) else if p.kids.length > 0 then 0 else cur
  scanUp p.kids t 200 i

/-- The loop of `getPrevious` (ControlContainer.h 91-98). -/
def scanDown (kids : List α) (t : Nat) : Nat → Int → Option Nat
  | 0, _ => .none
  | f + 1, i => if 0 ≤ i ∧ i < kids.length then
      match dynamicCast kids[i.toNat]? t with
      | some _ => some i.toNat
      | .none => scanDown kids t f (toS 8 (i - 1))
    else .none

/-- `getPrevious(cur, t)` (ControlContainer.h 78-101). -/
def getPrevious (p : Panel α) (cur : Int) (t : Nat) : Option Nat :=
  let i : Int := if cur ≠ -1 then toS 8 (cur - 1) else if p.kids.length > 0 then toS 8 ((p.kids.length : Int) - 1) else cur
  scanDown p.kids t 200 i

/-- `setState` of the panel itself (Control.h 175-183 with Panel.h 113-117). -/
def set (s : CState) (p : Panel α) : Bool × Panel α := if beforePanel p.st s then (true, { p with st := s }) else (false, p)

/-- `_currentControl->setState(s)` for child `i` (ControlContainer.h 36-116). -/
def setKid (i : Nat) (s : CState) (p : Panel α) : Panel α := { p with kids := p.kids.modify i fun k => (setState s k).2 }

/-- `setCurrentControl` (Panel.h 50-65). -/
def setCurrent (new : Option Nat) (p : Panel α) : Panel α :=
  let p := match p.cur with
    | some i => (set .normal (setKid i .normal p)).2
    | .none => p
  let p := { p with cur := new }
  match new with
  | some i => (set .focused (setKid i .focused p)).2
  | .none => p

/-- `SetFirstInputControl` (PanelControlContainer.h 46-56). -/
def setFirst (p : Panel α) : Bool × Panel α := match getNext p (-1) tInput with
  | some i => (true, setCurrent (some i) p)
  | .none => (false, p)

/-- `SetNextInputControl` (PanelControlContainer.h 61-71). -/
def setNext (p : Panel α) : Bool × Panel α := match getNext p p.indexOf tInput with
  | some i => (true, setCurrent (some i) p)
  | .none => (false, p)

/-- `SetPreviousInputControl` (PanelControlContainer.h 76-86). -/
def setPrevious (p : Panel α) : Bool × Panel α := match getPrevious p p.indexOf tInput with
  | some i => (true, setCurrent (some i) p)
  | .none => (false, p)

/-- `Panel::OnNavigationCommand` (Panel.h 82-90). -/
def toCurrent (c : Nav) (p : Panel α) : Bool × Panel α := match p.cur with
  | some i => match p.kids[i]? with
    | some k => ((nav c k).1, { p with kids := p.kids.set i (nav c k).2 })
    | .none => (false, p)
  | .none => (false, p)

/-- `HorizontalPanel::OnNavigationCommand` (HorizontalPanel.h 57-76). -/
def navHorizontal (c : Nav) (p : Panel α) : Bool × Panel α :=
  let r := toCurrent c p
  if r.1 then (true, r.2) else match c with
    | .left => setPrevious r.2
    | .right => setNext r.2
    | _ => (false, r.2)

/-- `VerticalPanel::OnNavigationCommand` (VerticalPanel.h 56-69). -/
def navVertical (c : Nav) (p : Panel α) : Bool × Panel α := match c with
  | .up => setPrevious p
  | .down => setNext p
  | _ => toCurrent c p

/-- `Page::TrySelectNextLine`, `TrySelectPreviousLine` (Page.h 152-179): `selected` tells whether the current control of the current line is
    selected (`getCurrentInputControl`, Page.h 192-202). -/
def navPage (selected : Panel α → Bool) (c : Nav) (p : Panel α) : Bool × Panel α :=
  let r : Bool × Panel α := match c with
    | .up => if selected p then (false, p) else setPrevious p
    | .down => if selected p then (false, p) else setNext p
    | _ => (false, p)
  if r.1 then (true, r.2) else toCurrent c r.2

/-- `PageController::OnNavigationCommand` (PageController.h 57-76). -/
def navController (c : Nav) (p : Panel α) : Bool × Panel α :=
  let r := toCurrent c p
  if r.1 then (true, r.2) else match c with
    | .up => setPrevious r.2
    | .down => setNext r.2
    | _ => (false, r.2)

/-- `Panel::Display` (Panel.h 71-77). -/
def displayCurrent (m : Mode) (p : Panel α) : List Out := match p.cur.bind (p.kids[·]?) with
  | some k => Control.display m k
  | .none => []

/-- `HorizontalPanel::Display` (HorizontalPanel.h 85-103); the loop visits the children in order. -/
def displayHorizontal (m : Mode) (p : Panel α) : List Out :=
  if m == .cursor then displayCurrent m p
  else p.kids.flatMap fun k => if state k == .hidden then [] else .goTo dontCare (Control.pos k) :: Control.display m k

/-- `VerticalPanel::Display` (VerticalPanel.h 78-96). -/
def displayVertical (m : Mode) (p : Panel α) : List Out :=
  if m == .cursor then displayCurrent m p
  else p.kids.flatMap fun k => if state k == .hidden then [] else .goTo (Control.pos k) 0 :: Control.display m k

end Panel

/-- Lines (Line.h), HorizontalPanel, VerticalPanel and PageController as controls. Pages: see `Page`. -/
instance {α : Type} [Control α] : Control (Panel α) where
  state p := p.st
  pos p := p.pos
  display m p := match p.kind with
    | .horizontal => Panel.displayHorizontal m p
    | .vertical => Panel.displayVertical m p
    | _ => Panel.displayCurrent m p
  setState := Panel.set
  nav c p := match p.kind with
    | .horizontal => Panel.navHorizontal c p
    | .vertical => Panel.navVertical c p
    | .controller => Panel.navController c p
    | _ => Panel.toCurrent c p
  isOfType t _ := panelIs t

/-- A Page (Page.h 40-226): a panel whose children are panels. -/
structure Page (α : Type) where
  panel : Panel (Panel α)

namespace Page
variable {α : Type} [Control α]

/-- `getCurrentLine` (Page.h 184-187). -/
def currentLine (p : Panel (Panel α)) : Option (Panel α) := dynamicCast (p.cur.bind (p.kids[·]?)) tPanel

/-- `getCurrentInputControl` (Page.h 192-202). -/
def currentInput (p : Panel (Panel α)) : Option α := (currentLine p).bind fun l => l.cur.bind (l.kids[·]?)

/-- The test in `TrySelectNextLine` (Page.h 156-157), negated. -/
def editing (p : Panel (Panel α)) : Bool := match currentInput p with
  | some c => state c == .selected
  | .none => false

/-- `OnNavigationCommand` (Page.h 118-138). -/
def onNav (c : Nav) (p : Page α) : Bool × Page α := ((Panel.navPage editing c p.panel).1, ⟨(Panel.navPage editing c p.panel).2⟩)

/-- `DisplayCursor` (Page.h 210-225). -/
def displayCursor (p : Panel (Panel α)) : List Out := match currentLine p, currentInput p with
  | some l, some c => .setCursor (Control.pos l) (Control.pos c) (state c == .selected) :: Panel.displayVertical .cursor p
  | _, _ => [.setCursor dontCare dontCare false]

/-- `Display` (Page.h 107-111): the mode is ignored. -/
def display (_ : Mode) (p : Page α) : List Out := Panel.displayVertical .normal p.panel ++ displayCursor p.panel

/-- `Add` (Page.h 89-99) of a line that is not NULL: `getCount` (Collection.h 48-51) is at most `MaxLines`, a `uint8_t`; a full collection
    rejects the line (Collection.h 118-127), but its position has been set. -/
def add (maxLines : Nat) (line : Panel α) (p : Page α) : Page α :=
  let line := if line.pos == 0 then { line with pos := p.panel.kids.length % 256 } else line
  if p.panel.kids.length < maxLines then { p with panel := { p.panel with kids := p.panel.kids ++ [line] } } else p

end Page

instance {α : Type} [Control α] : Control (Page α) where
  state p := p.panel.st
  pos p := p.panel.pos
  display := Page.display
  setState s p := ((Panel.set s p.panel).1, ⟨(Panel.set s p.panel).2⟩)
  nav := Page.onNav
  isOfType t _ := pageIs t

end Atl.UI
