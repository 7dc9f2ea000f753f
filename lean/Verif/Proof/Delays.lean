import Verif.Model.Delays
import Verif.Spec.Delays
import Mathlib.Data.List.Nodup
import Mathlib.Data.List.Perm.Subperm
import Mathlib.Tactic.ByContra

/- Lemmas about the delay table: closed forms of the loops, refinement of the finite map. -/
namespace Atl.Delays
open Atl.Spec.Delays

theorem clear_loop (id : Nat) (k i : Nat) (ids : Nat → Nat) (j : Nat) :
    forUp (fun i ids => if ids i = id then upd ids i 0 else ids) k i ids j =
      if i ≤ j ∧ j < i + k ∧ ids j = id then 0 else ids j := by
  induction k generalizing i ids with
  | zero => rw [if_neg (by omega)]; rfl
  | succ k ih =>
    rw [forUp, ih]
    by_cases hi : ids i = id
    · rw [if_pos hi]
      by_cases hj : j = i
      · subst hj
        rw [if_neg (by omega), if_pos ⟨by omega, by omega, hi⟩]; simp [upd]
      · simp only [upd, if_neg hj]
        have : (i + 1 ≤ j ∧ j < i + 1 + k ∧ ids j = id) ↔ (i ≤ j ∧ j < i + (k + 1) ∧ ids j = id) := by omega
        simp only [this]
    · rw [if_neg hi]
      by_cases hj : j = i
      · subst hj
        rw [if_neg (by omega), if_neg (fun h => hi h.2.2)]
      · have : (i + 1 ≤ j ∧ j < i + 1 + k ∧ ids j = id) ↔ (i ≤ j ∧ j < i + (k + 1) ∧ ids j = id) := by omega
        simp only [this]

theorem abort_loop (ids : Nat → Nat) (id : Nat) (k i : Nat) (ds : Nat → Nat) (j : Nat) :
    forUp (fun i ds => if ids i = id then upd ds i 0 else ds) k i ds j =
      if i ≤ j ∧ j < i + k ∧ ids j = id then 0 else ds j := by
  induction k generalizing i ds with
  | zero => rw [if_neg (by omega)]; rfl
  | succ k ih =>
    rw [forUp, ih]
    by_cases hi : ids i = id
    · rw [if_pos hi]
      by_cases hj : j = i
      · subst hj
        rw [if_neg (by omega), if_pos ⟨by omega, by omega, hi⟩]; simp [upd]
      · simp only [upd, if_neg hj]
        have : (i + 1 ≤ j ∧ j < i + 1 + k ∧ ids j = id) ↔ (i ≤ j ∧ j < i + (k + 1) ∧ ids j = id) := by omega
        simp only [this]
    · rw [if_neg hi]
      by_cases hj : j = i
      · subst hj
        rw [if_neg (by omega), if_neg (fun h => hi h.2.2)]
      · have : (i + 1 ≤ j ∧ j < i + 1 + k ∧ ids j = id) ↔ (i ≤ j ∧ j < i + (k + 1) ∧ ids j = id) := by omega
        simp only [this]

theorem isWaiting_loop (ids : Nat → Nat) (id : Nat) (k i : Nat) :
    isWaitingLoop ids id k i = true ↔ ∃ j, i ≤ j ∧ j < i + k ∧ ids j = id := by
  induction k generalizing i with
  | zero => simp only [isWaitingLoop, Bool.false_eq_true, false_iff]; rintro ⟨j, _, _, _⟩; omega
  | succ k ih =>
    rw [isWaitingLoop]
    by_cases hi : ids i = id
    · rw [if_pos hi]; simp only [true_iff]; exact ⟨i, by omega, by omega, hi⟩
    · rw [if_neg hi, ih]
      constructor
      · rintro ⟨j, h1, h2, h3⟩; exact ⟨j, by omega, by omega, h3⟩
      · rintro ⟨j, h1, h2, h3⟩
        refine ⟨j, ?_, by omega, h3⟩
        have : j ≠ i := fun h => hi (h ▸ h3)
        omega

theorem scan_hit (ids : Nat → Nat) (id : Nat) (h0 : id ≠ 0) (k i : Nat) (e : Int) (j : Nat) (h1 : i ≤ j) (h2 : j < i + k)
    (hj : ids j = id) (hu : ∀ j', i ≤ j' → j' < i + k → ids j' = id → j' = j) : scan ids id k i e = .hit j := by
  induction k generalizing i e with
  | zero => omega
  | succ k ih =>
    rw [scan]
    by_cases hc : e = -1 ∧ ids i = 0
    · have hne : i ≠ j := fun h => h0 (by rw [← hj, ← h, hc.2])
      rw [if_pos hc]
      exact ih _ _ (by omega) (by omega) (fun j' a b => hu j' (by omega) (by omega))
    · rw [if_neg hc]
      by_cases hi : ids i = id
      · rw [if_pos hi, hu i (by omega) (by omega) hi]
      · have hne : i ≠ j := fun h => hi (h ▸ hj)
        rw [if_neg hi]
        exact ih _ _ (by omega) (by omega) (fun j' a b => hu j' (by omega) (by omega))

theorem scan_miss (ids : Nat → Nat) (id : Nat) (k i : Nat) (e : Int) (hn : ∀ j, i ≤ j → j < i + k → ids j ≠ id) :
    scan ids id k i e = .miss (if e = -1 then findEmpty ids k i else e) := by
  induction k generalizing i e with
  | zero => rw [scan, findEmpty]; split <;> simp_all
  | succ k ih =>
    rw [scan, findEmpty]
    by_cases hc : e = -1 ∧ ids i = 0
    · rw [if_pos hc, ih _ _ (fun j a b => hn j (by omega) (by omega)), if_neg (by omega), if_pos hc.1, if_pos hc.2]
    · rw [if_neg hc, if_neg (hn i (by omega) (by omega)), ih _ _ (fun j a b => hn j (by omega) (by omega))]
      by_cases he : e = -1
      · rw [if_pos he, if_pos he, if_neg (fun h => hc ⟨he, h⟩)]
      · rw [if_neg he, if_neg he]

theorem findEmpty_spec (ids : Nat → Nat) (k i : Nat) :
    (findEmpty ids k i = -1 ∧ ∀ j, i ≤ j → j < i + k → ids j ≠ 0) ∨
    ∃ j : Nat, findEmpty ids k i = j ∧ i ≤ j ∧ j < i + k ∧ ids j = 0 := by
  induction k generalizing i with
  | zero => left; exact ⟨rfl, fun j a b => by omega⟩
  | succ k ih =>
    rw [findEmpty]
    by_cases hi : ids i = 0
    · rw [if_pos hi]; right; exact ⟨i, rfl, by omega, by omega, hi⟩
    · rw [if_neg hi]
      rcases ih (i + 1) with ⟨h1, h2⟩ | ⟨j, h1, h2, h3, h4⟩
      · left
        refine ⟨h1, fun j a b => ?_⟩
        by_cases hj : j = i
        · rw [hj]; exact hi
        · exact h2 j (by omega) (by omega)
      · right; exact ⟨j, h1, by omega, by omega, h4⟩

/-- `Wait` for an id that is not listed. -/
theorem wait_new (N : Nat) (s : State) (id t : Nat) (hn : ∀ j, j < N → s.ids j ≠ id) :
    (s.wait N id t = .ub ∧ ∀ j, j < N → s.ids j ≠ 0) ∨
    ∃ j, j < N ∧ s.ids j = 0 ∧
      s.wait N id t = .ok (false, { s with ids := upd s.ids j id, delays := upd s.delays j t }) := by
  have h := scan_miss s.ids id N 0 (-1) (fun j _ b => hn j (by omega))
  rcases findEmpty_spec s.ids N 0 with ⟨h1, h2⟩ | ⟨j, h1, h2, h3, h4⟩
  · left
    refine ⟨?_, fun j hj => h2 j (by omega) (by omega)⟩
    simp [State.wait, h, h1]
  · right
    refine ⟨j, by omega, h4, ?_⟩
    have : ¬ ((j : Int) = -1) := by omega
    simp [State.wait, h, h1, this]

/-- `Wait` for a listed id. -/
theorem wait_listed (N : Nat) (s : State) (id t i : Nat) (h0 : id ≠ 0) (hi : i < N) (hid : s.ids i = id)
    (hu : ∀ j, j < N → s.ids j = id → j = i) :
    s.wait N id t = if s.delta ≥ s.delays i then .ok (true, { s with ids := upd s.ids i 0 })
      else .ok (false, { s with delays := upd s.delays i (s.delays i - s.delta) }) := by
  have h := scan_hit s.ids id h0 N 0 (-1) i (by omega) (by omega) hid (fun j _ b => hu j (by omega))
  simp [State.wait, h]

/-- The specification call of a call. -/
def Op.call : Op → Call
  | .update d => .update d
  | .wait id t => .wait id t
  | .abort id => .abort id
  | .clear id => .clear id
  | .isWaiting id => .isWaiting id

/-- The table in memory represents the finite map. -/
structure Ref (N : Nat) (s : State) (t : Table) : Prop where
  delta : t.delta = s.delta
  sound : ∀ i, i < N → s.ids i ≠ 0 → t.left (s.ids i) = some (s.delays i)
  complete : ∀ id, id ≠ 0 → t.left id ≠ none → ∃ i, i < N ∧ s.ids i = id
  inj : ∀ i j, i < N → j < N → s.ids i ≠ 0 → s.ids i = s.ids j → i = j

theorem init_ref (N : Nat) : Ref N State.init Table.init := by
  constructor
  · rfl
  · intro i _ h; exact absurd rfl h
  · intro id _ h; exact absurd rfl h
  · intro i j _ _ h; exact absurd rfl h

/-- One call refines the specification, if the table has room for the id. -/
theorem step_ref (N : Nat) (s : State) (t : Table) (h : Ref N s t) (op : Op) (h0 : op.call.id? ≠ some 0)
    (hroom : ∀ id time, op = .wait id time → t.left id = none → ∃ j, j < N ∧ s.ids j = 0) :
    ∃ s', s.step N op = .ok ((t.step op.call).1, s') ∧ Ref N s' (t.step op.call).2 ∧
      (∀ i, i < N → s'.ids i = s.ids i ∨ s'.ids i = 0 ∨ some (s'.ids i) = op.call.id?) := by
  cases op with
  | update d =>
    exact ⟨_, rfl, ⟨rfl, h.sound, h.complete, h.inj⟩, fun i _ => .inl rfl⟩
  | wait id time =>
    simp only [Op.call, Call.id?, ne_eq, Option.some.injEq] at h0
    cases hl : t.left id with
    | none =>
      have hnl : ∀ j, j < N → s.ids j ≠ id := by
        intro j hj he
        have := h.sound j hj (by rw [he]; exact h0)
        rw [he, hl] at this; cases this
      rcases wait_new N s id time hnl with ⟨_, hfull⟩ | ⟨j, hj, hz, hw⟩
      · obtain ⟨j, hj, hz⟩ := hroom id time rfl hl
        exact absurd hz (hfull j hj)
      · refine ⟨{ s with ids := upd s.ids j id, delays := upd s.delays j time }, by
          simp only [State.step, hw, Res.bind_ok, Table.step, Op.call, hl], ?_, ?_⟩
        · simp only [Table.step, Op.call, hl]
          constructor
          · exact h.delta
          · intro i hi hne
            simp only [upd, Table.put] at hne ⊢
            by_cases hij : i = j
            · simp [hij]
            · rw [if_neg hij] at hne
              rw [if_neg hij, if_neg hij, if_neg (hnl i hi)]
              exact h.sound i hi hne
          · intro id' hid' hl'
            simp only [Table.put] at hl'
            by_cases hii : id' = id
            · exact ⟨j, hj, by simp [upd, hii]⟩
            · rw [if_neg hii] at hl'
              obtain ⟨i, hi, he⟩ := h.complete id' hid' hl'
              refine ⟨i, hi, ?_⟩
              have : i ≠ j := fun e => hid' (by rw [← he, e, hz])
              simp [upd, this, he]
          · intro i k hi hk hne he
            simp only [upd] at hne he
            by_cases hij : i = j <;> by_cases hkj : k = j
            · omega
            · rw [if_pos hij, if_neg hkj] at he; exact absurd he.symm (hnl k hk)
            · rw [if_neg hij, if_pos hkj] at he; exact absurd he (hnl i hi)
            · rw [if_neg hij, if_neg hkj] at he
              rw [if_neg hij] at hne
              exact h.inj i k hi hk hne he
        · intro i hi
          simp only [upd, Op.call, Call.id?]
          by_cases hij : i = j
          · right; right; simp [hij]
          · left; simp [hij]
    | some r =>
      obtain ⟨i, hi, hid⟩ := h.complete id h0 (by rw [hl]; simp)
      have hu : ∀ j, j < N → s.ids j = id → j = i := fun j hj he =>
        h.inj j i hj hi (by rw [he]; exact h0) (by rw [he, hid])
      have hr : s.delays i = r := by
        have := h.sound i hi (by rw [hid]; exact h0)
        rw [hid, hl] at this; simpa using this.symm
      have hw := wait_listed N s id time i h0 hi hid hu
      rw [hr, ← h.delta] at hw
      by_cases hd : r ≤ t.delta
      · rw [if_pos hd] at hw
        refine ⟨{ s with ids := upd s.ids i 0 }, by
          simp only [State.step, hw, Res.bind_ok, Table.step, Op.call, hl, if_pos hd]; rw [h.delta], ?_, ?_⟩
        · simp only [Table.step, Op.call, hl, if_pos hd]
          constructor
          · exact h.delta
          · intro k hk hne
            simp only [upd, Table.put] at hne ⊢
            by_cases hki : k = i
            · rw [if_pos hki] at hne; exact absurd rfl hne
            · rw [if_neg hki] at hne
              rw [if_neg hki, if_neg (fun e => hki (hu k hk e))]
              exact h.sound k hk hne
          · intro id' hid' hl'
            simp only [Table.put] at hl'
            by_cases hii : id' = id
            · rw [if_pos hii] at hl'; exact absurd rfl hl'
            · rw [if_neg hii] at hl'
              obtain ⟨k, hk, he⟩ := h.complete id' hid' hl'
              refine ⟨k, hk, ?_⟩
              have : k ≠ i := fun e => hii (by rw [← he, e, hid])
              simp [upd, this, he]
          · intro k l hk hl2 hne he
            simp only [upd] at hne he
            by_cases hki : k = i
            · rw [if_pos hki] at hne; exact absurd rfl hne
            · rw [if_neg hki] at hne he
              by_cases hli : l = i
              · rw [if_pos hli] at he; exact absurd he hne
              · rw [if_neg hli] at he; exact h.inj k l hk hl2 hne he
        · intro k hk
          simp only [upd]
          by_cases hki : k = i
          · right; left; simp [hki]
          · left; simp [hki]
      · rw [if_neg hd] at hw
        refine ⟨{ s with delays := upd s.delays i (r - t.delta) }, by
          simp only [State.step, hw, Res.bind_ok, Table.step, Op.call, hl, if_neg hd]; rw [h.delta], ?_, fun k _ => .inl rfl⟩
        simp only [Table.step, Op.call, hl, if_neg hd]
        constructor
        · exact h.delta
        · intro k hk hne
          simp only [upd, Table.put] at hne ⊢
          by_cases hki : k = i
          · rw [if_pos hki, if_pos (by rw [hki, hid])]
          · rw [if_neg hki, if_neg (fun e => hki (hu k hk e))]
            exact h.sound k hk hne
        · intro id' hid' hl'
          simp only [Table.put] at hl'
          by_cases hii : id' = id
          · exact ⟨i, hi, by rw [hid, hii]⟩
          · rw [if_neg hii] at hl'; exact h.complete id' hid' hl'
        · exact h.inj
  | abort id =>
    simp only [Op.call, Call.id?, ne_eq, Option.some.injEq] at h0
    refine ⟨_, rfl, ?_, fun i _ => .inl rfl⟩
    have hd : ∀ j, j < N → (s.abort N id).delays j = if s.ids j = id then 0 else s.delays j := by
      intro j hj
      simp only [State.abort]
      rw [abort_loop]
      have : (0 ≤ j ∧ j < 0 + N ∧ s.ids j = id) ↔ s.ids j = id := by omega
      simp only [this]
    simp only [Table.step, Op.call]
    by_cases hl : t.left id = none
    · rw [if_pos hl]
      constructor
      · exact h.delta
      · intro i hi hne
        rw [hd i hi, if_neg]
        · exact h.sound i hi hne
        · intro e
          have := h.sound i hi hne
          rw [e, hl] at this; cases this
      · exact h.complete
      · exact h.inj
    · rw [if_neg hl]
      constructor
      · exact h.delta
      · intro i hi hne
        rw [hd i hi]
        have hne' : s.ids i ≠ 0 := hne
        change (if s.ids i = id then _ else _) = _
        by_cases e : s.ids i = id
        · rw [if_pos e, if_pos e]
        · rw [if_neg e, if_neg e]; exact h.sound i hi hne'
      · intro id' hid' hl'
        simp only [Table.put] at hl'
        by_cases hii : id' = id
        · rw [hii]; exact h.complete id h0 hl
        · rw [if_neg hii] at hl'; exact h.complete id' hid' hl'
      · exact h.inj
  | clear id =>
    simp only [Op.call, Call.id?, ne_eq, Option.some.injEq] at h0
    have hd : ∀ j, j < N → (s.clear N id).ids j = if s.ids j = id then 0 else s.ids j := by
      intro j hj
      simp only [State.clear]
      rw [clear_loop]
      have : (0 ≤ j ∧ j < 0 + N ∧ s.ids j = id) ↔ s.ids j = id := by omega
      simp only [this]
    refine ⟨_, rfl, ?_, ?_⟩
    · simp only [Table.step, Op.call]
      constructor
      · exact h.delta
      · intro i hi hne
        rw [hd i hi] at hne ⊢
        by_cases e : s.ids i = id
        · rw [if_pos e] at hne; exact absurd rfl hne
        · rw [if_neg e] at hne ⊢
          change (if s.ids i = id then _ else _) = _
          rw [if_neg e]; exact h.sound i hi hne
      · intro id' hid' hl'
        simp only [Table.put] at hl'
        by_cases hii : id' = id
        · rw [if_pos hii] at hl'; exact absurd rfl hl'
        · rw [if_neg hii] at hl'
          obtain ⟨i, hi, he⟩ := h.complete id' hid' hl'
          refine ⟨i, hi, ?_⟩
          rw [hd i hi, he, if_neg hii]
      · intro i j hi hj hne he
        rw [hd i hi] at hne he
        rw [hd j hj] at he
        by_cases e : s.ids i = id
        · rw [if_pos e] at hne; exact absurd rfl hne
        · rw [if_neg e] at hne he
          by_cases e' : s.ids j = id
          · rw [if_pos e'] at he; exact absurd he hne
          · rw [if_neg e'] at he; exact h.inj i j hi hj hne he
    · intro i hi
      rw [hd i hi]
      by_cases e : s.ids i = id
      · right; left; rw [if_pos e]
      · left; rw [if_neg e]
  | isWaiting id =>
    simp only [Op.call, Call.id?, ne_eq, Option.some.injEq] at h0
    refine ⟨s, ?_, h, fun i _ => .inl rfl⟩
    simp only [State.step, Op.call, Table.step]
    congr 3
    rw [Bool.eq_iff_iff, State.isWaiting, isWaiting_loop]
    constructor
    · rintro ⟨j, _, hj, he⟩
      have := h.sound j (by omega) (by rw [he]; exact h0)
      rw [he] at this; rw [this]; rfl
    · intro hs
      obtain ⟨i, hi, he⟩ := h.complete id h0 (by intro e; rw [e] at hs; cases hs)
      exact ⟨i, by omega, by omega, he⟩

/-- The ids `S` a program uses: none is 0 and the table has a slot for each. -/
structure Room (N : Nat) (S : List Nat) : Prop where
  nz : 0 ∉ S
  fits : S.length ≤ N

/-- A history uses only ids from `S`. -/
def Uses (S : List Nat) (ops : List Op) : Prop := ∀ op ∈ ops, ∀ id, op.call.id? = some id → id ∈ S

theorem room_empty {N : Nat} {S : List Nat} (hS : Room N S) (s : State) (t : Table) (h : Ref N s t)
    (hin : ∀ i, i < N → s.ids i = 0 ∨ s.ids i ∈ S) (id : Nat) (hid : id ∈ S) (hl : t.left id = none) :
    ∃ j, j < N ∧ s.ids j = 0 := by
  by_contra hc
  have hnz : ∀ j, j < N → s.ids j ≠ 0 := fun j hj e => hc ⟨j, hj, e⟩
  have hnd : (id :: (List.range N).map s.ids).Nodup := by
    rw [List.nodup_cons]
    constructor
    · intro hm
      rw [List.mem_map] at hm
      obtain ⟨j, hj, he⟩ := hm
      have hj := List.mem_range.1 hj
      have := h.sound j hj (hnz j hj)
      rw [he, hl] at this; cases this
    · refine List.Nodup.map_on ?_ List.nodup_range
      intro i hi j hj he
      exact h.inj i j (List.mem_range.1 hi) (List.mem_range.1 hj) (hnz i (List.mem_range.1 hi)) he
  have hsub : (id :: (List.range N).map s.ids) ⊆ S := by
    intro x hx
    rcases List.mem_cons.1 hx with rfl | hx
    · exact hid
    · obtain ⟨j, hj, rfl⟩ := List.mem_map.1 hx
      have hj := List.mem_range.1 hj
      exact (hin j hj).resolve_left (hnz j hj)
  have := (List.subperm_of_subset hnd hsub).length_le
  simp at this
  have := hS.fits
  omega

/-- Histories within capacity never go wrong and refine the specification. -/
theorem run_ref {N : Nat} {S : List Nat} (hS : Room N S) (ops : List Op) (hu : Uses S ops) (s : State) (t : Table)
    (h : Ref N s t) (hin : ∀ i, i < N → s.ids i = 0 ∨ s.ids i ∈ S) :
    ∃ s', s.run N ops = .ok ((t.run (ops.map Op.call)).1, s') ∧ Ref N s' (t.run (ops.map Op.call)).2 ∧
      (∀ i, i < N → s'.ids i = 0 ∨ s'.ids i ∈ S) := by
  induction ops generalizing s t with
  | nil => exact ⟨s, rfl, h, hin⟩
  | cons op ops ih =>
    have hmem : ∀ id, op.call.id? = some id → id ∈ S := hu op (by simp)
    obtain ⟨s1, h1, h2, h3⟩ := step_ref N s t h op (fun e => hS.nz (hmem 0 e)) (by
      rintro id time rfl hl
      exact room_empty hS s t h hin id (hmem id rfl) hl)
    have hin1 : ∀ i, i < N → s1.ids i = 0 ∨ s1.ids i ∈ S := by
      intro i hi
      rcases h3 i hi with e | e | e
      · rw [e]; exact hin i hi
      · exact .inl e
      · exact .inr (hmem _ e.symm)
    obtain ⟨s2, g1, g2, g3⟩ := ih (fun op' h' => hu op' (by simp [h'])) s1 _ h2 hin1
    refine ⟨s2, ?_, g2, g3⟩
    rw [State.run, h1, Res.bind_ok]
    simp only
    rw [g1, Res.bind_ok]
    simp only [List.map_cons, Table.run]

end Atl.Delays
