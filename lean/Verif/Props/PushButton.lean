import Verif.Props.Delays
import Verif.Model.PushButton
import Verif.Spec.PushButton

/- C29 push button debouncing, C30 hold, C31 digital input. -/
namespace Atl.Props
open Atl Atl.Delays Atl.Spec.Delays Atl.PushButton
open Atl.Spec.PushButton (Report Obs Legal stepOk)

/-- Report as seen by the user. -/
def rep : BState → Report
  | .unknown => .unknown | .opened => .opened | .closed => .closed | .hold => .hold | .pending => .pending

/-- Pushed or not, for both wirings. -/
def pushed (inverse pin : Bool) : Bool := if inverse then !pin else pin

theorem convert_pushed (inverse pin : Bool) : convert inverse pin = if pushed inverse pin then .closed else .opened := by
  cases inverse <;> cases pin <;> rfl

/-- The packed bit array (BitArray<uint8_t>, 16-bit int) really is two independent fields: reading and writing bits 0..2 and 3..5. -/
theorem packed_fields : ∀ c ∈ [0, 1, 2, 3, 4], ∀ p ∈ [0, 1, 2, 3, 4], ∀ v ∈ [0, 1, 2, 3, 4],
    Bits.BitArray.getField 16 (BitVec.ofNat 8 (c + 8 * p)) 0 3 = .ok (BitVec.ofNat 8 c) ∧
    Bits.BitArray.getField 16 (BitVec.ofNat 8 (c + 8 * p)) 3 3 = .ok (BitVec.ofNat 8 p) ∧
    Bits.BitArray.setField 16 (BitVec.ofNat 8 (c + 8 * p)) 0 (BitVec.ofNat 8 v) 3 = .ok (BitVec.ofNat 8 (v + 8 * p), true) ∧
    Bits.BitArray.setField 16 (BitVec.ofNat 8 (c + 8 * p)) 3 (BitVec.ofNat 8 v) 3 = .ok (BitVec.ofNat 8 (c + 8 * v), true) := by
  decide +kernel

/-- Bookkeeping of one client of a table within capacity. -/
structure Table.Ok (N : Nat) (S : List Nat) (d : Delays.State) (t : Table) : Prop where
  ref : Ref N d t
  inS : ∀ i, i < N → d.ids i = 0 ∨ d.ids i ∈ S

theorem op_ok {N : Nat} {S : List Nat} (hS : Room N S) {d : Delays.State} {t : Table} (h : Table.Ok N S d t) (op : Op)
    (hu : ∀ i, op.call.id? = some i → i ∈ S) :
    ∃ d', d.step N op = .ok ((t.step op.call).1, d') ∧ Table.Ok N S d' (t.step op.call).2 := by
  obtain ⟨d', e, r, k⟩ := step_ref N d t h.ref op (fun e => hS.nz (hu 0 e)) (by
    rintro i time rfl hl
    exact room_empty hS d t h.ref h.inS i (hu i rfl) hl)
  refine ⟨d', e, r, fun i hi => ?_⟩
  rcases k i hi with e | e | e
  · rw [e]; exact h.inS i hi
  · exact .inl e
  · exact .inr (hu _ e.symm)

theorem wait_ok {N : Nat} {S : List Nat} (hS : Room N S) {d : Delays.State} {t : Table} (h : Table.Ok N S d t) {id : Nat}
    (hid : id ∈ S) (T : Nat) (b : Bool) (hb : (t.step (.wait id T)).1 = some b) :
    ∃ d', d.wait N id T = .ok (b, d') ∧ Table.Ok N S d' (t.step (.wait id T)).2 := by
  obtain ⟨d', e, r⟩ := op_ok hS h (.wait id T) (by intro i hi; simp only [Op.call, Call.id?, Option.some.injEq] at hi; exact hi ▸ hid)
  simp only [Delays.State.step, Op.call] at e
  cases hw : d.wait N id T with
  | ub => rw [hw] at e; cases e
  | ok x =>
    rw [hw, hb] at e
    simp only [Res.bind_ok, Res.ok.injEq, Prod.mk.injEq, Option.some.injEq] at e
    exact ⟨d', by obtain ⟨x1, x2⟩ := x; simp only at e; rw [e.1, e.2], r⟩

theorem clear_ok {N : Nat} {S : List Nat} (hS : Room N S) {d : Delays.State} {t : Table} (h : Table.Ok N S d t) {id : Nat}
    (hid : id ∈ S) : Table.Ok N S (d.clear N id) (t.put id none) := by
  obtain ⟨d', e, r⟩ := op_ok hS h (.clear id) (by intro i hi; simp only [Op.call, Call.id?, Option.some.injEq] at hi; exact hi ▸ hid)
  simp only [Delays.State.step, Op.call, Table.step, Res.ok.injEq, Prod.mk.injEq, true_and] at e
  rw [e]; exact r

/-- The states a button can be in between scans; `acc L r`: the delay of `L` that started at `since` has `r` left. -/
inductive Shape (D H id : Nat) (t : Table) (acc : Nat → Nat → Prop) : PushButton.State → Prop where
  | unknown {d} (hl : t.left id = none) : Shape D H id t acc ⟨0, .unknown, .unknown, d⟩
  | opened {p d} (hp : p = .unknown ∨ p = .pending) (hl : t.left id = none) : Shape D H id t acc ⟨0, .opened, p, d⟩
  | closed {p d} (hp : p = .unknown ∨ p = .pending) {r : Nat} (hl : t.left id = some r) (ha : acc H r) :
      Shape D H id t acc ⟨0, .closed, p, d⟩
  | hold {d} (hl : t.left id = none) : Shape D H id t acc ⟨0, .hold, .closed, d⟩
  | pending {p d} (hl : ∀ r, t.left id = some r → acc D r) : Shape D H id t acc ⟨113, .pending, p, d⟩

/-- Time accounting: the part of the elapsed time not yet counted by `Wait` is at most the last delta. -/
def Acc (since now : Nat) (fresh : Bool) (delta : Nat) (L r : Nat) : Prop :=
  L + since + (if fresh then delta else 0) ≤ r + now

theorem isWaiting_none {N : Nat} {S : List Nat} (hS : Room N S) {d : Delays.State} {t : Table} (h : Table.Ok N S d t) {id : Nat}
    (hid : id ∈ S) (hl : t.left id = none) : d.isWaiting N id = false := by
  rw [waits_spec (fun e => hS.nz (e ▸ hid)) d t h.ref, hl]; rfl

/-- Registering, expiring and counting down. -/
theorem wait_cases (t : Table) (id T : Nat) :
    (t.left id = none ∧ t.step (.wait id T) = (some false, t.put id (some T))) ∨
    (∃ r, t.left id = some r ∧ r ≤ t.delta ∧ t.step (.wait id T) = (some true, t.put id none)) ∨
    (∃ r, t.left id = some r ∧ t.delta < r ∧ t.step (.wait id T) = (some false, t.put id (some (r - t.delta)))) := by
  cases hl : t.left id with
  | none => left; simp [Table.step, hl]
  | some r =>
    by_cases h : r ≤ t.delta
    · right; left; exact ⟨r, rfl, h, by simp [Table.step, hl, h]⟩
    · right; right; exact ⟨r, rfl, by omega, by simp [Table.step, hl, h]⟩

/-- One scan: no undefined behaviour, a legal report, and the invariant again. -/
theorem scan_legal {N D H id : Nat} {S : List Nat} (hS : Room N S) (hid : id ∈ S) (inverse pin : Bool) (s : PushButton.State)
    (t : Table) (hT : Table.Ok N S s.delays t) (since now : Nat) (hsn : since ≤ now)
    (hsh : Shape D H id t (Acc since now true t.delta) s) :
    ∃ b s' t', s.scan N id D H inverse pin = .ok (b, s') ∧
      stepOk D H (rep s.cur) since ⟨now, pushed inverse pin, rep s'.cur⟩ ∧
      Table.Ok N S s'.delays t' ∧
      Shape D H id t' (Acc (if rep s'.cur = rep s.cur then since else now) now false t'.delta) s' := by
  cases hsh with
  | @unknown d hl =>
    have hw0 := isWaiting_none hS hT hid hl
    cases hp : pushed inverse pin
    · refine ⟨false, ⟨0, .opened, .unknown, d⟩, t, ?_, ?_, hT, .opened (.inl rfl) hl⟩
      · have : d.isWaiting N id = false := hw0
        simp [PushButton.State.scan, State.sample, convert_pushed, hp, State.mustDebounce, State.tail, this]
      · simp [stepOk, rep]
    · rcases wait_cases t id H with ⟨_, hst⟩ | ⟨r, e, _⟩ | ⟨r, e, _⟩
      · obtain ⟨d', hw, hT'⟩ := wait_ok hS hT hid H false (by rw [hst])
        rw [hst] at hT'
        refine ⟨false, ⟨0, .closed, .unknown, d'⟩, _, ?_, ?_, hT', .closed (.inl rfl) (r := H) (by simp [Table.put]) ?_⟩
        · have : d.wait N id H = .ok (false, d') := hw
          simp [PushButton.State.scan, State.sample, convert_pushed, hp, State.mustDebounce, State.tail, this]
        · simp [stepOk, rep]
        · simp [Acc, rep]
      · rw [hl] at e; cases e
      · rw [hl] at e; cases e
  | @opened p d hp0 hl =>
    have hw0 := isWaiting_none hS hT hid hl
    have hpo : p ≠ .opened := by rcases hp0 with rfl | rfl <;> decide
    cases hp : pushed inverse pin
    · refine ⟨false, ⟨0, .opened, p, d⟩, t, ?_, ?_, hT, .opened hp0 hl⟩
      · have : d.isWaiting N id = false := hw0
        rcases hp0 with rfl | rfl <;>
          simp [PushButton.State.scan, State.sample, convert_pushed, hp, State.mustDebounce, State.tail, this]
      · simp [stepOk, rep]
    · refine ⟨true, ⟨113, .pending, .opened, d.clear N id⟩, _, ?_, ?_, clear_ok hS hT hid, .pending ?_⟩
      · simp [PushButton.State.scan, State.sample, convert_pushed, hp, State.mustDebounce]
      · simp [stepOk, rep]
      · intro r hr; simp [Table.put] at hr
  | @closed p d hp0 r hl ha =>
    cases hp : pushed inverse pin
    · refine ⟨true, ⟨113, .pending, .closed, d.clear N id⟩, _, ?_, ?_, clear_ok hS hT hid, .pending ?_⟩
      · simp [PushButton.State.scan, State.sample, convert_pushed, hp, State.mustDebounce]
      · simp [stepOk, rep]
      · intro r hr; simp [Table.put] at hr
    · simp only [Acc, if_true] at ha
      rcases wait_cases t id H with ⟨e, _⟩ | ⟨r', e, hle, hst⟩ | ⟨r', e, hlt, hst⟩
      · rw [hl] at e; cases e
      · obtain rfl : r = r' := by rw [hl] at e; simpa using e
        obtain ⟨d', hw, hT'⟩ := wait_ok hS hT hid H true (by rw [hst])
        rw [hst] at hT'
        refine ⟨false, ⟨0, .hold, .closed, d'⟩, _, ?_, ?_, hT', .hold (by simp [Table.put])⟩
        · have : d.wait N id H = .ok (true, d') := hw
          rcases hp0 with rfl | rfl <;>
            simp [PushButton.State.scan, State.sample, convert_pushed, hp, State.mustDebounce, State.tail, this]
        · simp only [stepOk, rep, true_and]; omega
      · obtain rfl : r = r' := by rw [hl] at e; simpa using e
        obtain ⟨d', hw, hT'⟩ := wait_ok hS hT hid H false (by rw [hst])
        rw [hst] at hT'
        refine ⟨false, ⟨0, .closed, p, d'⟩, _, ?_, ?_, hT', .closed hp0 (r := r - t.delta) (by simp [Table.put]) ?_⟩
        · have : d.wait N id H = .ok (false, d') := hw
          rcases hp0 with rfl | rfl <;>
            simp [PushButton.State.scan, State.sample, convert_pushed, hp, State.mustDebounce, State.tail, this]
        · simp [stepOk, rep]
        · simp only [Acc, rep, if_true, Bool.false_eq_true, if_false]; omega
  | @hold d hl =>
    have hw0 := isWaiting_none hS hT hid hl
    cases hp : pushed inverse pin
    · refine ⟨true, ⟨113, .pending, .hold, d.clear N id⟩, _, ?_, ?_, clear_ok hS hT hid, .pending ?_⟩
      · simp [PushButton.State.scan, State.sample, convert_pushed, hp, State.mustDebounce]
      · simp [stepOk, rep]
      · intro r hr; simp [Table.put] at hr
    · refine ⟨false, ⟨0, .hold, .closed, d⟩, t, ?_, ?_, hT, .hold hl⟩
      · have : d.isWaiting N id = false := hw0
        simp [PushButton.State.scan, State.sample, convert_pushed, hp, State.mustDebounce, State.tail, this]
      · simp [stepOk, rep]
  | @pending p d hl =>
    rcases wait_cases t id D with ⟨e, hst⟩ | ⟨r, e, hle, hst⟩ | ⟨r, e, hlt, hst⟩
    · obtain ⟨d', hw, hT'⟩ := wait_ok hS hT hid D false (by rw [hst])
      rw [hst] at hT'
      refine ⟨true, ⟨113, .pending, p, d'⟩, _, ?_, ?_, hT', .pending ?_⟩
      · have : d.wait N id D = .ok (false, d') := hw
        simp [PushButton.State.scan, this]
      · simp [stepOk, rep]
      · intro r hr
        simp only [Table.put, if_true, Option.some.injEq] at hr
        simp only [Acc, if_true, Bool.false_eq_true, if_false]; omega
    · have ha := hl r e
      simp only [Acc, if_true] at ha
      obtain ⟨d', hw, hT'⟩ := wait_ok hS hT hid D true (by rw [hst])
      rw [hst] at hT'
      have hl' : (t.put id none).left id = none := by simp [Table.put]
      have hw1 : d.wait N id D = .ok (true, d') := hw
      cases hp : pushed inverse pin
      · have hw0 := isWaiting_none hS hT' hid hl'
        refine ⟨false, ⟨0, .opened, .pending, d'⟩, _, ?_, ?_, hT', .opened (.inr rfl) hl'⟩
        · simp [PushButton.State.scan, hw1, convert_pushed, hp, State.tail, hw0]
        · simp only [stepOk, rep, true_and]; omega
      · rcases wait_cases (t.put id none) id H with ⟨_, hst2⟩ | ⟨r, e, _⟩ | ⟨r, e, _⟩
        · obtain ⟨d2, hw2, hT2⟩ := wait_ok hS hT' hid H false (by rw [hst2])
          rw [hst2] at hT2
          refine ⟨false, ⟨0, .closed, .pending, d2⟩, _, ?_, ?_, hT2, .closed (.inr rfl) (r := H) (by simp [Table.put]) ?_⟩
          · simp [PushButton.State.scan, hw1, convert_pushed, hp, State.tail, hw2]
          · simp only [stepOk, rep, true_and]; omega
          · simp [Acc, rep]
        · rw [hl'] at e; cases e
        · rw [hl'] at e; cases e
    · have ha := hl r e
      simp only [Acc, if_true] at ha
      obtain ⟨d', hw, hT'⟩ := wait_ok hS hT hid D false (by rw [hst])
      rw [hst] at hT'
      refine ⟨true, ⟨113, .pending, p, d'⟩, _, ?_, ?_, hT', .pending ?_⟩
      · have : d.wait N id D = .ok (false, d') := hw
        simp [PushButton.State.scan, this]
      · simp [stepOk, rep]
      · intro r' hr
        simp only [Table.put, if_true, Option.some.injEq] at hr
        simp only [Acc, if_true, Bool.false_eq_true, if_false]; omega

/-- The observations of a schedule: one per scan. -/
def observations (inverse : Bool) (now : Nat) : List POp → List BState → List Obs
  | .scan pin :: ops, r :: rs => ⟨now, pushed inverse pin, rep r⟩ :: observations inverse now ops rs
  | .other (.update d) :: ops, _ :: rs => observations inverse (now + d) ops rs
  | .other _ :: ops, _ :: rs => observations inverse now ops rs
  | _, _ => []

/-- At most one scan per time update. -/
def ScansOncePerUpdate : Bool → List POp → Prop
  | _, [] => True
  | fresh, .scan _ :: ops => fresh = true ∧ ScansOncePerUpdate false ops
  | _, .other (.update _) :: ops => ScansOncePerUpdate true ops
  | fresh, .other _ :: ops => ScansOncePerUpdate fresh ops

/-- Others use other ids. -/
def OthersUse (id : Nat) (S : List Nat) (ops : List POp) : Prop :=
  ∀ op, POp.other op ∈ ops → ∀ i, op.call.id? = some i → i ∈ S ∧ i ≠ id

theorem shape_mono {D H id : Nat} {t t' : Table} {acc acc' : Nat → Nat → Prop} {s : PushButton.State} (d : Delays.State)
    (h : Shape D H id t acc s) (hl : t'.left id = t.left id) (ha : ∀ L r, acc L r → acc' L r) :
    Shape D H id t' acc' { s with delays := d } := by
  cases h with
  | unknown h => exact .unknown (by rw [hl, h])
  | opened hp h => exact .opened hp (by rw [hl, h])
  | closed hp h h2 => exact .closed hp (by rw [hl, h]) (ha _ _ h2)
  | hold h => exact .hold (by rw [hl, h])
  | pending h => exact .pending (fun r hr => ha _ _ (h r (by rw [← hl, hr])))

theorem run_legal {N D H id : Nat} {S : List Nat} (hS : Room N S) (hid : id ∈ S) (inverse : Bool) (ops : List POp)
    (hother : OthersUse id S ops) (fresh : Bool) (hone : ScansOncePerUpdate fresh ops) (s : PushButton.State) (t : Table)
    (hT : Table.Ok N S s.delays t) (since now : Nat) (hsn : since ≤ now)
    (hsh : Shape D H id t (Acc since now fresh t.delta) s) :
    ∃ rs s', s.run N id D H inverse ops = .ok (rs, s') ∧
      Legal D H (rep s.cur) since (observations inverse now ops rs) := by
  induction ops generalizing fresh s t since now with
  | nil => exact ⟨[], s, rfl, trivial⟩
  | cons op ops ih =>
    have hother' : OthersUse id S ops := fun o ho => hother o (by simp [ho])
    cases op with
    | scan pin =>
      simp only [ScansOncePerUpdate] at hone
      obtain ⟨rfl, hone⟩ := hone
      obtain ⟨b, s1, t1, e1, hok, hT1, hsh1⟩ := scan_legal hS hid inverse pin s t hT since now hsn hsh
      obtain ⟨rs, s2, e2, hleg⟩ := ih hother' false hone s1 t1 hT1 _ now (by split <;> omega) hsh1
      refine ⟨s1.cur :: rs, s2, ?_, ?_⟩
      · simp only [PushButton.State.run, PushButton.State.step, e1, Res.bind_ok, e2]
      · simp only [observations, Legal]
        exact ⟨hok, hleg⟩
    | other op =>
      have hmem := hother op (by simp)
      obtain ⟨d1, e1, hT1⟩ := op_ok hS hT op (fun i hi => (hmem i hi).1)
      have hrun : ∀ rs s', ({ s with delays := d1 } : PushButton.State).run N id D H inverse ops = .ok (rs, s') →
          s.run N id D H inverse (.other op :: ops) = .ok (s.cur :: rs, s') := by
        intro rs s' h
        simp only [PushButton.State.run, PushButton.State.step, e1, Res.bind_ok, h]
      by_cases hup : ∃ x, op = .update x
      · obtain ⟨x, rfl⟩ := hup
        simp only [ScansOncePerUpdate] at hone
        obtain ⟨rs, s2, e2, hleg⟩ := ih hother' true hone { s with delays := d1 } _ hT1 since (now + x) (by omega)
          (shape_mono d1 hsh rfl (by
            intro L r h
            simp only [Acc, Op.call, Table.step, if_true] at h ⊢
            split at h <;> omega))
        exact ⟨s.cur :: rs, s2, hrun _ _ e2, by simpa [observations] using hleg⟩
      · have hone' : ScansOncePerUpdate fresh ops := by
          cases op <;> simp only [ScansOncePerUpdate] at hone <;> first | exact hone | exact absurd ⟨_, rfl⟩ hup
        have hkeep : (t.step op.call).2.delta = t.delta ∧ (t.step op.call).2.left id = t.left id := by
          cases op with
          | update d => exact absurd ⟨_, rfl⟩ hup
          | wait i x =>
            have hi : id ≠ i := (hmem i rfl).2.symm
            simp only [Op.call, Table.step]
            cases t.left i with
            | none => simp [Table.put, hi]
            | some r => simp only; split <;> simp [Table.put, hi]
          | abort i =>
            have hi : id ≠ i := (hmem i rfl).2.symm
            simp only [Op.call, Table.step]
            split <;> simp [Table.put, hi]
          | clear i =>
            have hi : id ≠ i := (hmem i rfl).2.symm
            simp [Op.call, Table.step, Table.put, hi]
          | isWaiting i => exact ⟨rfl, rfl⟩
        obtain ⟨rs, s2, e2, hleg⟩ := ih hother' fresh hone' { s with delays := d1 } _ hT1 since now hsn
          (shape_mono d1 hsh hkeep.2 (by intro L r h; rw [hkeep.1]; exact h))
        refine ⟨s.cur :: rs, s2, hrun _ _ e2, ?_⟩
        have : observations inverse now (.other op :: ops) (s.cur :: rs) = observations inverse now ops rs := by
          cases op <;> first | (simp [observations]; done) | exact absurd ⟨_, rfl⟩ hup
        rw [this]; exact hleg

/-- **C29 and C30.** For every debounce time, hold time and wiring, every schedule of scans (at most one per time update) with any
    pin levels, any time deltas and any use of the delay table by others with their own ids within capacity: no undefined behaviour
    occurs and the sequence of reports is legal - a change between open and closed always passes through `pending` for at least
    `D` time units and ends with the level read then; `hold` is reported only after `H` time units of uninterrupted `closed`
    scans and is left only when the contact is seen open. -/
theorem c29_c30_legal_reports (N D H id : Nat) (S : List Nat) (hS : Room N S) (hid : id ∈ S) (inverse : Bool) (ops : List POp)
    (hother : OthersUse id S ops) (hone : ScansOncePerUpdate true ops) :
    ∃ rs s', PushButton.State.init.run N id D H inverse ops = .ok (rs, s') ∧
      Legal D H .unknown 0 (observations inverse 0 ops rs) :=
  run_legal hS hid inverse ops hother true hone PushButton.State.init Table.init
    ⟨init_ref N, fun _ _ => .inl rfl⟩ 0 0 (Nat.le_refl _) (.unknown rfl)

example := c29_c30_legal_reports 2 10 50 5 [5, 9] ⟨by decide, by decide⟩ (by decide) false
  [.scan false, .other (.update 4), .scan true, .other (.wait 9 100), .other (.update 3), .scan false, .other (.update 6), .scan true, .other (.update 7), .scan true]
  (by simp [OthersUse, Op.call, Call.id?]) (by simp [ScansOncePerUpdate])

/-- C29 read off the specification: once the report leaves `opened`, it cannot be `closed` or `hold` before `D` has passed. -/
theorem c29_no_fast_change (D H : Nat) (since : Nat) (a : Obs) (mid : List Obs) (b : Obs) (hle : ∀ o ∈ mid, o.now ≤ b.now)
    (h : Legal D H .opened since (a :: mid ++ [b])) (ha : a.report ≠ .opened) (hb : b.report ≠ .pending) :
    a.report = .pending ∧ a.now + D ≤ b.now := by
  simp only [List.cons_append, Legal] at h
  obtain ⟨h1, h2⟩ := h
  have hap : a.report = .pending := by
    cases hr : a.report <;> simp_all [stepOk]
  refine ⟨hap, ?_⟩
  rw [hap] at h2
  simp only [reduceCtorEq, if_false] at h2
  clear h1 ha
  induction mid with
  | nil =>
    simp only [List.nil_append, Legal] at h2
    have := h2.1
    cases hr : b.report <;> simp_all [stepOk]
  | cons o os ih =>
    simp only [List.cons_append, Legal] at h2
    obtain ⟨l1, l2⟩ := h2
    by_cases hop : o.report = .pending
    · rw [hop] at l2
      simp only [if_true] at l2
      exact ih (fun o' ho' => hle o' (by simp [ho'])) l2
    · have h3 : a.now + D ≤ o.now := by
        cases hr : o.report <;> simp_all [stepOk]
      have := hle o (by simp)
      omega

/-- One round of the main loop: the time is updated, the button is scanned. -/
def rounds (l : List (Nat × Bool)) : List POp := l.flatMap fun x => [.other (.update x.1), .scan x.2]

theorem prun_append (N id D H : Nat) (inverse : Bool) (a b : List POp) (s s1 s2 : PushButton.State) (ra rb : List BState)
    (ha : s.run N id D H inverse a = .ok (ra, s1)) (hb : s1.run N id D H inverse b = .ok (rb, s2)) :
    s.run N id D H inverse (a ++ b) = .ok (ra ++ rb, s2) := by
  induction a generalizing s ra with
  | nil =>
    simp only [PushButton.State.run, Res.ok.injEq, Prod.mk.injEq] at ha
    obtain ⟨rfl, rfl⟩ := ha; exact hb
  | cons x a ih =>
    simp only [PushButton.State.run, List.cons_append] at ha ⊢
    cases hx : s.step N id D H inverse x with
    | ub => rw [hx] at ha; cases ha
    | ok s' =>
      rw [hx] at ha
      simp only [Res.bind_ok] at ha ⊢
      cases hr : s'.run N id D H inverse a with
      | ub => rw [hr] at ha; cases ha
      | ok y =>
        rw [hr] at ha
        simp only [Res.bind_ok, Res.ok.injEq, Prod.mk.injEq] at ha
        rw [ih s' y.1 (by rw [hr, ← ha.2])]
        simp [← ha.1]

theorem step_update {N id D H : Nat} {S : List Nat} (hS : Room N S) (inverse : Bool) (s : PushButton.State) (t : Table)
    (hT : Table.Ok N S s.delays t) (x : Nat) :
    ∃ d', s.step N id D H inverse (.other (.update x)) = .ok { s with delays := d' } ∧ Table.Ok N S d' { t with delta := x } := by
  obtain ⟨d', e, h⟩ := op_ok hS hT (.update x) (by intro i hi; cases hi)
  exact ⟨d', by simp only [PushButton.State.step, e, Res.bind_ok], h⟩

/-- While pending with `r` left, the report stays pending until the deltas add up to `r`, then it is the level at the pin. -/
theorem pending_rounds {N D H id : Nat} {S : List Nat} (hS : Room N S) (hid : id ∈ S) (inverse : Bool) (l : List (Nat × Bool))
    (x : Nat) (pin : Bool) (r : Nat) (p : BState) (d : Delays.State) (t : Table) (hT : Table.Ok N S d t)
    (hl : t.left id = some r) (h1 : (l.map Prod.fst).sum < r) (h2 : r ≤ (l.map Prod.fst).sum + x) :
    ∃ s', (⟨113, .pending, p, d⟩ : PushButton.State).run N id D H inverse (rounds (l ++ [(x, pin)])) =
        .ok (List.replicate (2 * l.length + 1) .pending ++ [if pushed inverse pin then .closed else .opened], s') := by
  induction l generalizing r d t with
  | nil =>
    simp only [List.map_nil, List.sum_nil, Nat.zero_add] at h1 h2
    obtain ⟨d1, e1, hT1⟩ := step_update (id := id) (D := D) (H := H) hS inverse ⟨113, .pending, p, d⟩ t hT x
    have hl1 : ({ t with delta := x } : Table).left id = some r := hl
    rcases wait_cases { t with delta := x } id D with ⟨e, _⟩ | ⟨r', e, hle, hst⟩ | ⟨r', e, hlt, hst⟩
    · rw [hl1] at e; cases e
    · obtain ⟨d2, hw, hT2⟩ := wait_ok hS hT1 hid D true (by rw [hst])
      rw [hst] at hT2
      have hl2 : (({ t with delta := x } : Table).put id none).left id = none := by simp [Table.put]
      cases hp : pushed inverse pin
      · have hw0 := isWaiting_none hS hT2 hid hl2
        refine ⟨⟨0, .opened, .pending, d2⟩, ?_⟩
        simp only [rounds, List.nil_append, List.flatMap_cons, List.flatMap_nil, List.append_nil, PushButton.State.run, e1,
          Res.bind_ok]
        simp [PushButton.State.step, PushButton.State.scan, hw, convert_pushed, hp, State.tail, hw0, List.replicate]
      · rcases wait_cases (({ t with delta := x } : Table).put id none) id H with ⟨_, hst2⟩ | ⟨r, e, _⟩ | ⟨r, e, _⟩
        · obtain ⟨d3, hw3, hT3⟩ := wait_ok hS hT2 hid H false (by rw [hst2])
          refine ⟨⟨0, .closed, .pending, d3⟩, ?_⟩
          simp only [rounds, List.nil_append, List.flatMap_cons, List.flatMap_nil, List.append_nil, PushButton.State.run, e1,
            Res.bind_ok]
          simp [PushButton.State.step, PushButton.State.scan, hw, convert_pushed, hp, State.tail, hw3, List.replicate]
        · rw [hl2] at e; cases e
        · rw [hl2] at e; cases e
    · obtain rfl : r = r' := by rw [hl1] at e; simpa using e
      simp only at hlt; omega
  | cons y l ih =>
    simp only [List.map_cons, List.sum_cons] at h1 h2
    obtain ⟨d1, e1, hT1⟩ := step_update (id := id) (D := D) (H := H) hS inverse ⟨113, .pending, p, d⟩ t hT y.1
    have hl1 : ({ t with delta := y.1 } : Table).left id = some r := hl
    rcases wait_cases { t with delta := y.1 } id D with ⟨e, _⟩ | ⟨r', e, hle, hst⟩ | ⟨r', e, hlt, hst⟩
    · rw [hl1] at e; cases e
    · obtain rfl : r = r' := by rw [hl1] at e; simpa using e
      simp only at hle; omega
    · obtain rfl : r = r' := by rw [hl1] at e; simpa using e
      obtain ⟨d2, hw, hT2⟩ := wait_ok hS hT1 hid D false (by rw [hst])
      rw [hst] at hT2
      obtain ⟨s', e'⟩ := ih (r - y.1) d2 _ hT2 (by simp [Table.put]) (by omega) (by omega)
      refine ⟨s', ?_⟩
      have : rounds (y :: l ++ [(x, pin)]) = .other (.update y.1) :: .scan y.2 :: rounds (l ++ [(x, pin)]) := by
        simp [rounds]
      rw [this]
      simp only [PushButton.State.run, e1, Res.bind_ok]
      simp only [PushButton.State.step, PushButton.State.scan, hw]
      simp only [Res.bind_ok, Bool.not_false, if_true]
      simp [e', Nat.mul_succ, List.replicate_succ]

/-- **C29, exact timing.** A button reported open that is then seen closed (or the reverse, or seen open while held) goes to
    pending at that scan; the delay is armed at the next scan; from then on the report stays pending - whatever the pin does in
    between - until the time updates add up to `D`, and then is the level at the pin at that scan. -/
theorem c29_settles (N D H id : Nat) (S : List Nat) (hS : Room N S) (hid : id ∈ S) (inverse : Bool) (s : PushButton.State) (t : Table)
    (hT : Table.Ok N S s.delays t) (since now : Nat) (hsn : since ≤ now) (hsh : Shape D H id t (Acc since now true t.delta) s)
    (pin0 : Bool) (hset : s.cur = .opened ∧ pushed inverse pin0 = true ∨ (s.cur = .closed ∨ s.cur = .hold) ∧ pushed inverse pin0 = false)
    (x1 : Nat) (pin1 : Bool) (l : List (Nat × Bool)) (x : Nat) (pin : Bool)
    (h1 : (l.map Prod.fst).sum < D) (h2 : D ≤ (l.map Prod.fst).sum + x) :
    ∃ s', s.run N id D H inverse (.scan pin0 :: rounds ((x1, pin1) :: l ++ [(x, pin)])) =
      .ok (List.replicate (2 * l.length + 4) .pending ++ [if pushed inverse pin then .closed else .opened], s') := by
  have hfirst : ∃ p, s.step N id D H inverse (.scan pin0) = .ok ⟨113, .pending, p, s.delays.clear N id⟩ := by
    rcases hset with ⟨hc, hp⟩ | ⟨hc | hc, hp⟩ <;> cases hsh <;> simp only [reduceCtorEq] at hc
    · exact ⟨.opened, by simp [PushButton.State.step, PushButton.State.scan, State.sample, convert_pushed, hp, State.mustDebounce]⟩
    · exact ⟨.closed, by simp [PushButton.State.step, PushButton.State.scan, State.sample, convert_pushed, hp, State.mustDebounce]⟩
    · exact ⟨.hold, by simp [PushButton.State.step, PushButton.State.scan, State.sample, convert_pushed, hp, State.mustDebounce]⟩
  obtain ⟨p, e0⟩ := hfirst
  have hT0 := clear_ok hS hT hid
  obtain ⟨d1, e1, hT1⟩ := step_update (id := id) (D := D) (H := H) hS inverse ⟨113, .pending, p, s.delays.clear N id⟩ _ hT0 x1
  rcases wait_cases { t.put id none with delta := x1 } id D with ⟨e, hst⟩ | ⟨r', e, hle, hst⟩ | ⟨r', e, hlt, hst⟩
  · obtain ⟨d2, hw, hT2⟩ := wait_ok hS hT1 hid D false (by rw [hst])
    rw [hst] at hT2
    obtain ⟨s', e'⟩ := pending_rounds (D := D) (H := H) hS hid inverse l x pin D p d2 _ hT2 (by simp [Table.put]) h1 h2
    refine ⟨s', ?_⟩
    have : rounds ((x1, pin1) :: l ++ [(x, pin)]) = .other (.update x1) :: .scan pin1 :: rounds (l ++ [(x, pin)]) := by
      simp [rounds]
    rw [this]
    simp only [PushButton.State.run, e0, e1, Res.bind_ok]
    simp only [PushButton.State.step, PushButton.State.scan, hw]
    simp only [Res.bind_ok, Bool.not_false, if_true]
    simp [e', List.replicate_succ]
  · simp [Table.put] at e
  · simp [Table.put] at e

/-- A bouncing push with D = 10, H = 50 on a table of two entries shared with id 9: pushed, bounces, settles, is held, is released. -/
example : ((PushButton.State.init.run 2 5 10 50 false
    [.scan false, .other (.update 4), .scan true, .other (.wait 9 100), .other (.update 3), .scan false, .other (.update 6), .scan true,
     .other (.update 7), .scan true, .other (.update 30), .scan true, .other (.update 30), .scan true,
     .other (.update 1), .scan false]).bind fun x => .ok (observations false 0
    [.scan false, .other (.update 4), .scan true, .other (.wait 9 100), .other (.update 3), .scan false, .other (.update 6), .scan true,
     .other (.update 7), .scan true, .other (.update 30), .scan true, .other (.update 30), .scan true,
     .other (.update 1), .scan false] x.1)) =
    .ok [⟨0, false, .opened⟩, ⟨4, true, .pending⟩, ⟨7, false, .pending⟩, ⟨13, true, .pending⟩, ⟨20, true, .closed⟩,
      ⟨50, true, .closed⟩, ⟨80, true, .hold⟩, ⟨81, false, .pending⟩] := by decide +kernel

example : Room 2 [5, 9] := ⟨by decide, by decide⟩

/-- **Outside the hypothesis.** Scanning several times between two time updates counts the same delta several times: here only 6 of the
    10 debounce units have passed when the change is reported. -/
theorem c29_repeated_scan_fails : ∃ (ops : List POp) (rs : List BState) (s' : PushButton.State),
    OthersUse 5 [5] ops ∧ PushButton.State.init.run 1 5 10 50 false ops = .ok (rs, s') ∧
    ¬ Legal 10 50 .unknown 0 (observations false 0 ops rs) := by
  refine ⟨[.scan false, .scan true, .other (.update 6), .scan true, .scan true, .scan true],
    [.opened, .pending, .pending, .pending, .pending, .closed], _, ?_, rfl, ?_⟩
  · intro op hop i hi
    simp only [List.mem_cons, reduceCtorEq, POp.other.injEq, List.not_mem_nil, or_false, false_or] at hop
    subst hop; cases hi
  · simp [Legal, observations, stepOk, pushed, rep]

/-- **C31.** `Read` reports exactly the changes of level, starting from low, and `getValue` is the last level. -/
theorem c31_edges (v : Bool) (ps : List Bool) :
    (DigitalInput.reads v ps).1 = List.zipWith (fun a b => a != b) (v :: ps) ps ∧
    (DigitalInput.reads v ps).2 = (v :: ps).getLast (by simp) := by
  induction ps generalizing v with
  | nil => exact ⟨rfl, rfl⟩
  | cons p ps ih =>
    have h : DigitalInput.read v p = (v != p, p) := by cases v <;> cases p <;> rfl
    simp only [DigitalInput.reads, h, List.zipWith_cons_cons]
    exact ⟨by rw [(ih p).1], by rw [(ih p).2]; simp⟩

/-- **C31, parity.** After any samples the number of reported changes is odd exactly when the level is high. -/
theorem c31_parity (ps : List Bool) :
    ((DigitalInput.reads false ps).1.count true % 2 = 1 ↔ (DigitalInput.reads false ps).2 = true) := by
  have key : ∀ v : Bool, ((v.toNat + (DigitalInput.reads v ps).1.count true) % 2 = (DigitalInput.reads v ps).2.toNat) := by
    induction ps with
    | nil => intro v; cases v <;> rfl
    | cons p ps ih =>
      intro v
      have := ih p
      cases v <;> cases p <;>
        simp [DigitalInput.reads, DigitalInput.read, List.count_cons] at this ⊢ <;> omega
  have := key false
  revert this
  cases (DigitalInput.reads false ps).2 <;> simp

example : DigitalInput.reads false [true, true, false, true] = ([true, false, true, true], true) := by decide

end Atl.Props
