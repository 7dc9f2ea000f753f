import Verif.Model.DelaysInterrupt
import Verif.Props.Delays

/- Property theorems C143: one delay table used by main code and by interrupt handlers. -/
namespace Atl.Props
open Atl Atl.Delays Atl.Spec.Delays Atl.DelaysInterrupt

/-! ### Specification -/

/-- The completed calls. -/
def completed (s : St) : List Call := s.log.map (·.2.1.call)

/-- Their answers. -/
def answered (s : St) : List (Option Bool) := s.log.map (·.2.2)

/-- Completed calls of main code (`true`) or of handlers, in order. -/
def completedBy (b : Bool) (s : St) : List Op := (s.log.filter (·.1 = b)).map (·.2.1)

/-- The calls of a history made by main code (`true`) or by handlers, in order. -/
def askedBy (b : Bool) : List DelaysInterrupt.Ev → List Op
  | [] => []
  | .begin id time :: es => if b then .wait id time :: askedBy b es else askedBy b es
  | .main :: es => askedBy b es
  | .call o :: es => if b then o :: askedBy b es else askedBy b es
  | .handler o :: es => if b then askedBy b es else o :: askedBy b es

/-- Main code has seen a free entry that it has not claimed yet. -/
def holdsFree : Pc → Prop
  | .look _ e => e ≠ -1
  | .claim _ => True
  | _ => False

/-- Main code has compared the delay and not yet stored what is left of it. -/
def counting : Pc → Prop
  | .fetch _ | .store _ _ => True
  | _ => False

/-- A call with ids of `S` and times of 32 bits. -/
def Proper (S : List Nat) (o : Op) : Prop := (∀ id, o.call.id? = some id → id ∈ S) ∧ ∀ id t, o = .wait id t → t < 2 ^ 32

/-- Main code makes one call after the other. While it is in `Wait`, handlers make calls for other ids, or abort the very delay (not while it is counted down); they start no
    delay while main code has seen a free entry and not claimed it. -/
def QuietDelayCall (N : Nat) (S : List Nat) (s : St) : DelaysInterrupt.Ev → Prop
  | .begin id time => s.pc = .idle ∧ Proper S (.wait id time)
  | .main => True
  | .call o => s.pc = .idle ∧ Proper S o
  | .handler o => Proper S o ∧
      (s.pc ≠ .idle → o.call.id? ≠ none ∧ (o.call.id? = some s.id → o = .abort s.id ∧ ¬ counting s.pc)) ∧
      (holdsFree s.pc → ∀ id t, o = .wait id t → s.tab.isWaiting N id = true)

/-- A condition at each event of a history. -/
def AtEach (N : Nat) (reload : Bool) (now : St → DelaysInterrupt.Ev → Prop) (s : St) : List DelaysInterrupt.Ev → Prop
  | [] => True
  | e :: es => now s e ∧ ∀ s', step N reload s e = .ok s' → AtEach N reload now s' es

/-- The claim about a history: nothing undefined happens, the calls are completed in order with the answers of a table of remaining times in which each call is one step (one
    of main code when it returns), and when main code is outside `Wait` exactly the delays of the table are listed. -/
def Served (N : Nat) (reload : Bool) (S : List Nat) (es : List DelaysInterrupt.Ev) : Prop :=
  ∃ s, run N reload St.init es = .ok s ∧ answered s = (Table.init.run (completed s)).1 ∧ completedBy false s = askedBy false es ∧
    completedBy true s ++ (if s.pc = .idle then [] else [.wait s.id s.time]) = askedBy true es ∧
    (s.pc = .idle → ∀ id ∈ S, s.tab.isWaiting N id = ((Table.init.run (completed s)).2.left id).isSome)

/-! ### Proofs -/

namespace DelaysIsr

theorem table_snoc (t : Table) (cs : List Call) (c : Call) :
    t.run (cs ++ [c]) = ((t.run cs).1 ++ [((t.run cs).2.step c).1], ((t.run cs).2.step c).2) := by
  induction cs generalizing t with
  | nil => rfl
  | cons d cs ih => simp only [List.cons_append, Table.run, ih]

theorem findEmpty_first (ids : Nat → Nat) (k i j : Nat) (h : findEmpty ids k i = (j : Int)) : ids j = 0 ∧ i ≤ j ∧ j < i + k ∧ ∀ m, i ≤ m → m < j → ids m ≠ 0 := by
  induction k generalizing i with
  | zero => simp [findEmpty] at h
  | succ k ih =>
    rw [findEmpty] at h
    by_cases hi : ids i = 0
    · rw [if_pos hi] at h
      have : j = i := by omega
      subst this
      exact ⟨hi, by omega, by omega, fun m a b => by omega⟩
    · rw [if_neg hi] at h
      obtain ⟨h1, h2, h3, h4⟩ := ih (i + 1) h
      refine ⟨h1, by omega, by omega, fun m a b => ?_⟩
      by_cases hm : m = i
      · rw [hm]; exact hi
      · exact h4 m (by omega) b

/-- A new delay takes the first free entry. -/
theorem wait_first (N : Nat) (s : State) (id t : Nat) (hn : ∀ j, j < N → s.ids j ≠ id) (hf : ∃ j, j < N ∧ s.ids j = 0) :
    ∃ j, j < N ∧ s.ids j = 0 ∧ (∀ m, m < j → s.ids m ≠ 0) ∧ s.wait N id t = .ok (false, { s with ids := upd s.ids j id, delays := upd s.delays j t }) := by
  have h := scan_miss s.ids id N 0 (-1) (fun j _ b => hn j (by omega))
  rcases findEmpty_spec s.ids N 0 with ⟨h1, h2⟩ | ⟨j, h1, h2, h3, h4⟩
  · obtain ⟨j, hj, hz⟩ := hf
    exact absurd hz (h2 j (by omega) (by omega))
  · obtain ⟨_, _, _, g⟩ := findEmpty_first s.ids N 0 j h1
    refine ⟨j, by omega, h4, fun m hm => g m (by omega) hm, ?_⟩
    have : ¬ ((j : Int) = -1) := by omega
    simp [State.wait, h, h1, this]

/-- All remaining times have 32 bits. -/
def Small (t : Table) : Prop := ∀ id v, t.left id = some v → v < 2 ^ 32

theorem small_put (t : Table) (h : Small t) (id : Nat) (v : Option Nat) (hv : ∀ x, v = some x → x < 2 ^ 32) : Small (t.put id v) := by
  intro j x hx
  simp only [Table.put] at hx
  split at hx
  · exact hv x hx
  · exact h j x hx

theorem small_step (t : Table) (h : Small t) (o : Op) (ho : ∀ id u, o = .wait id u → u < 2 ^ 32) : Small (t.step o.call).2 := by
  cases o with
  | update d => exact h
  | wait id u =>
    simp only [Op.call, Table.step]
    cases hl : t.left id with
    | none => exact small_put t h id _ (fun x hx => by cases hx; exact ho id u rfl)
    | some r =>
      simp only
      split
      · exact small_put t h id _ (fun x hx => by cases hx)
      · exact small_put t h id _ (fun x hx => by cases hx; have := h id r hl; omega)
  | abort id =>
    simp only [Op.call, Table.step]
    split
    · exact h
    · exact small_put t h id _ (fun x hx => by cases hx; omega)
  | clear id => exact small_put t h id _ (fun x hx => by cases hx)
  | isWaiting id => exact h

/-- A call about another id leaves an entry of the map alone and does not see it. -/
theorem step_other (t : Table) (o : Op) (id id' : Nat) (h : o.call.id? = some id') (hne : id' ≠ id) (v : Option Nat) :
    (t.step o.call).2.left id = t.left id ∧ (t.put id v).step o.call = ((t.step o.call).1, (t.step o.call).2.put id v) := by
  have hne' : id ≠ id' := fun e => hne e.symm
  have comm : ∀ w, (t.put id v).put id' w = (t.put id' w).put id v := by
    intro w
    simp only [Table.put, Table.mk.injEq, true_and]
    funext j
    by_cases h1 : j = id' <;> by_cases h2 : j = id <;> simp [h1, h2]
    · rw [h1] at h2; exact absurd h2 hne
    all_goals simp [h1, h2, hne, hne']
  have hl : (t.put id v).left id' = t.left id' := by simp [Table.put, hne]
  cases o with
  | update d => simp [Op.call, Call.id?] at h
  | wait i u =>
    simp only [Op.call, Call.id?, Option.some.injEq] at h
    subst h
    simp only [Op.call, Table.step, hl]
    cases hc : t.left i with
    | none => exact ⟨by simp [Table.put, hne'], by rw [comm]⟩
    | some r =>
      simp only
      have hd : (t.put id v).delta = t.delta := rfl
      rw [hd]
      split
      · exact ⟨by simp [Table.put, hne'], by rw [comm]⟩
      · exact ⟨by simp [Table.put, hne'], by rw [comm]⟩
  | abort i =>
    simp only [Op.call, Call.id?, Option.some.injEq] at h
    subst h
    simp only [Op.call, Table.step, hl]
    split
    · exact ⟨rfl, rfl⟩
    · exact ⟨by simp [Table.put, hne'], by rw [comm]⟩
  | clear i =>
    simp only [Op.call, Call.id?, Option.some.injEq] at h
    subst h
    simp only [Op.call, Table.step]
    exact ⟨by simp [Table.put, hne'], by rw [comm]⟩
  | isWaiting i =>
    simp only [Op.call, Call.id?, Option.some.injEq] at h
    subst h
    exact ⟨rfl, by simp only [Op.call, Table.step, hl]⟩

/-- Only ids of `S` are listed. -/
def Known (N : Nat) (S : List Nat) (s : State) : Prop := ∀ i, i < N → s.ids i = 0 ∨ s.ids i ∈ S

variable {N : Nat} {S : List Nat}

/-- A whole call. -/
theorem whole_ok (hS : Room N S) (s : State) (t : Table) (h : Ref N s t) (hk : Known N S s) (o : Op) (ho : Proper S o) :
    ∃ s', s.step N o = .ok ((t.step o.call).1, s') ∧ Ref N s' (t.step o.call).2 ∧ Known N S s' ∧
      (∀ i, i < N → s'.ids i = s.ids i ∨ s'.ids i = 0 ∨ some (s'.ids i) = o.call.id?) := by
  obtain ⟨s', h1, h2, h3⟩ := step_ref N s t h o (fun e => hS.nz (ho.1 0 e)) (by
    rintro id time rfl hl
    exact room_empty hS s t h hk id (ho.1 id rfl) hl)
  refine ⟨s', h1, h2, fun i hi => ?_, h3⟩
  rcases h3 i hi with e | e | e
  · rw [e]; exact hk i hi
  · exact .inl e
  · exact .inr (ho.1 _ e.symm)

/-- A whole call about another id leaves an entry alone. -/
theorem entry_kept (s s' : State) (t : Table) (o : Op) (id id' i : Nat) (h : Ref N s t) (h' : Ref N s' (t.step o.call).2)
    (h3 : ∀ i, i < N → s'.ids i = s.ids i ∨ s'.ids i = 0 ∨ some (s'.ids i) = o.call.id?) (ho : o.call.id? = some id') (hne : id' ≠ id) (h0 : id ≠ 0) (hi : i < N)
    (hid : s.ids i = id) : s'.ids i = id ∧ s'.delays i = s.delays i := by
  have hl := (step_other t o id id' ho hne none).1
  have hs := h.sound i hi (by rw [hid]; exact h0)
  rw [hid] at hs
  obtain ⟨k, hk, he⟩ := h'.complete id h0 (by rw [hl, hs]; simp)
  have hk2 : s.ids k = id := by
    rcases h3 k hk with e | e | e
    · rw [← e]; exact he
    · rw [he] at e; exact absurd e h0
    · rw [he, ho] at e; cases e; exact absurd rfl hne
  have : k = i := h.inj k i hk hi (by rw [hk2]; exact h0) (by rw [hk2, hid])
  subst this
  refine ⟨he, ?_⟩
  have := h'.sound k hk (by rw [he]; exact h0)
  rw [he, hl, hs] at this
  exact (Option.some.inj this).symm

/-- A call that starts no delay leaves free entries free. -/
theorem free_kept (s s' : State) (t : Table) (o : Op) (a : Option Bool) (h : Ref N s t) (hz : ∀ id u, o = .wait id u → id ≠ 0)
    (hs : s.step N o = .ok (a, s')) (hno : ∀ id u, o = .wait id u → s.isWaiting N id = true) (k : Nat) (hf : s.ids k = 0) : s'.ids k = 0 := by
  cases o with
  | update d => cases hs; exact hf
  | wait id u =>
    have h0 := hz id u rfl
    have hw := hno id u rfl
    rw [waits_spec h0 s t h] at hw
    obtain ⟨i, hi, he⟩ := h.complete id h0 (by intro e; rw [e] at hw; cases hw)
    have hl := wait_listed N s id u i h0 hi he (fun j hj hej => h.inj j i hj hi (by rw [hej]; exact h0) (by rw [hej, he]))
    simp only [State.step, hl] at hs
    split at hs
    · simp only [Res.bind_ok, Res.ok.injEq, Prod.mk.injEq] at hs
      rw [← hs.2]
      simp only [upd]
      split
      · rfl
      · exact hf
    · simp only [Res.bind_ok, Res.ok.injEq, Prod.mk.injEq] at hs
      rw [← hs.2]
      exact hf
  | abort id => cases hs; exact hf
  | clear id =>
    cases hs
    simp only [State.clear, clear_loop]
    split
    · rfl
    · exact hf
  | isWaiting id => cases hs; exact hf

theorem delta_kept (s s' : State) (o : Op) (a : Option Bool) (hs : s.step N o = .ok (a, s')) (ho : o.call.id? ≠ none) : s'.delta = s.delta := by
  cases o with
  | update d => exact absurd rfl ho
  | wait id u =>
    cases hw : s.wait N id u with
    | ub => simp only [State.step, hw] at hs; cases hs
    | ok r =>
      obtain ⟨b, s1⟩ := r
      simp only [State.step, hw, Res.bind_ok, Res.ok.injEq, Prod.mk.injEq] at hs
      rw [← hs.2]
      unfold State.wait at hw
      split at hw
      · split at hw <;> (cases hw; rfl)
      · rename_i e _
        by_cases hz : (if e = -1 then findEmpty s.ids N 0 else e) < 0
        · simp only [hz, if_true] at hw; cases hw
        · simp only [hz, if_false] at hw; cases hw; rfl
  | abort id => cases hs; rfl
  | clear id => cases hs; rfl
  | isWaiting id => cases hs; rfl

/-- What is known at each place of main code; `t` is the table of the completed calls. -/
def At (N : Nat) (s : St) (t : Table) : Prop :=
  match s.pc with
  | .idle => Ref N s.tab t
  | .look i e => Ref N s.tab t ∧ i ≤ N ∧ (∀ j, j < i → s.tab.ids j ≠ s.id) ∧ (e = -1 ∨ ∃ k : Nat, e = k ∧ k < N ∧ s.tab.ids k = 0)
  | .again i => Ref N s.tab t ∧ (∀ j, j < N → s.tab.ids j ≠ s.id) ∧ ∃ k, i ≤ k ∧ k < N ∧ s.tab.ids k = 0
  | .compare i => Ref N s.tab t ∧ i < N ∧ s.tab.ids i = s.id
  | .fetch i => Ref N s.tab t ∧ i < N ∧ s.tab.ids i = s.id ∧ s.tab.delta < s.tab.delays i
  | .store i v => Ref N s.tab t ∧ i < N ∧ s.tab.ids i = s.id ∧ s.tab.delta < s.tab.delays i ∧ v = s.tab.delays i - s.tab.delta
  | .release i => Ref N s.tab t ∧ i < N ∧ s.tab.ids i = s.id ∧ s.tab.delays i ≤ s.tab.delta
  | .claim e => Ref N s.tab t ∧ (∀ j, j < N → s.tab.ids j ≠ s.id) ∧ e < N ∧ s.tab.ids e = 0
  | .start e => Ref N s.tab (t.put s.id (some (s.tab.delays e))) ∧ t.left s.id = none ∧ e < N ∧ s.tab.ids e = s.id

/-- The invariant. -/
structure Inv (N : Nat) (S : List Nat) (s : St) (es : List DelaysInterrupt.Ev) : Prop where
  place : At N s (Table.init.run (completed s)).2
  known : Known N S s.tab
  small : Small (Table.init.run (completed s)).2
  mem : s.pc ≠ .idle → s.id ∈ S ∧ s.time < 2 ^ 32
  answers : answered s = (Table.init.run (completed s)).1
  handlers : completedBy false s = askedBy false es
  mains : completedBy true s ++ (if s.pc = .idle then [] else [.wait s.id s.time]) = askedBy true es

theorem unlisted {s : State} {t : Table} (h : Ref N s t) {id : Nat} (h0 : id ≠ 0) (hn : ∀ j, j < N → s.ids j ≠ id) : t.left id = none := by
  cases hl : t.left id with
  | none => rfl
  | some v =>
    obtain ⟨i, hi, he⟩ := h.complete id h0 (by rw [hl]; simp)
    exact absurd he (hn i hi)

theorem askedBy_append (b : Bool) (l m : List DelaysInterrupt.Ev) : askedBy b (l ++ m) = askedBy b l ++ askedBy b m := by
  induction l with
  | nil => rfl
  | cons e l ih => cases e <;> cases b <;> simp [askedBy, ih]

/-- Main code goes on without completing a call. -/
theorem inv_pc (s : St) (es : List DelaysInterrupt.Ev) (h : Inv N S s es) (hp : s.pc ≠ .idle) (tab : State) (p : Pc) (hp' : p ≠ .idle) (hk : Known N S tab)
    (hat : At N { s with tab := tab, pc := p } (Table.init.run (completed s)).2) : Inv N S { s with tab := tab, pc := p } (es ++ [.main]) := by
  refine ⟨hat, hk, h.small, fun _ => h.mem hp, h.answers, ?_, ?_⟩
  · rw [askedBy_append]; simpa [askedBy, completedBy] using h.handlers
  · have := h.mains
    rw [if_neg hp] at this
    rw [askedBy_append, if_neg hp']
    simpa [askedBy, completedBy] using this

/-- Main code returns. -/
theorem inv_answer (s : St) (es : List DelaysInterrupt.Ev) (h : Inv N S s es) (hp : s.pc ≠ .idle) (tab : State) (b : Bool) (hk : Known N S tab)
    (hb : ((Table.init.run (completed s)).2.step (.wait s.id s.time)).1 = some b)
    (hr : Ref N tab ((Table.init.run (completed s)).2.step (.wait s.id s.time)).2) : Inv N S (s.answer tab b) (es ++ [.main]) := by
  have hc : completed (s.answer tab b) = completed s ++ [.wait s.id s.time] := by simp [completed, St.answer, Op.call]
  have ha : answered (s.answer tab b) = answered s ++ [some b] := by simp [answered, St.answer]
  refine ⟨?_, hk, ?_, fun hn => absurd rfl hn, ?_, ?_, ?_⟩
  · rw [hc, table_snoc]; exact hr
  · rw [hc, table_snoc]
    exact small_step _ h.small (.wait s.id s.time) (fun id u e => by cases e; exact (h.mem hp).2)
  · rw [hc, table_snoc, ha, h.answers, hb]
  · rw [askedBy_append]
    simpa [askedBy, completedBy, St.answer] using h.handlers
  · have := h.mains
    rw [if_neg hp] at this
    rw [askedBy_append, ← this]
    simp [completedBy, St.answer, askedBy]

theorem step_main (hS : Room N S) (reload : Bool) (s : St) (es : List DelaysInterrupt.Ev) (h : Inv N S s es) :
    ∃ s', mainStep N reload s = .ok s' ∧ Inv N S s' (es ++ [.main]) := by
  have hat := h.place
  by_cases hp : s.pc = .idle
  · refine ⟨s, by simp [mainStep, hp], h.place, h.known, h.small, h.mem, h.answers, ?_, ?_⟩
    · rw [askedBy_append]; simpa [askedBy] using h.handlers
    · rw [askedBy_append]; simpa [askedBy] using h.mains
  have hid := (h.mem hp).1
  have h0 : s.id ≠ 0 := fun e => hS.nz (e ▸ hid)
  have hsmall := h.small
  have same : ∀ p, p ≠ Pc.idle → At N { s with pc := p } (Table.init.run (completed s)).2 → Inv N S { s with pc := p } (es ++ [.main]) :=
    fun p hp' ha => inv_pc s es h hp s.tab p hp' h.known ha
  simp only [At] at hat
  unfold mainStep
  generalize ht : (Table.init.run (completed s)).2 = t at hat hsmall same
  cases hpc : s.pc with
  | idle => exact absurd hpc hp
  | look i e =>
    rw [hpc] at hat
    obtain ⟨hr, hi, hn, he⟩ := hat
    simp only
    by_cases hiN : i < N
    · rw [if_pos hiN]
      by_cases hc : e = -1 ∧ s.tab.ids i = 0
      · rw [if_pos hc]
        refine ⟨_, rfl, same _ (by simp) ⟨hr, hiN, fun j hj => ?_, .inr ⟨i, rfl, hiN, hc.2⟩⟩⟩
        by_cases hji : j = i
        · rw [hji]; show s.tab.ids i ≠ s.id; rw [hc.2]; exact fun e => h0 e.symm
        · exact hn j (by omega)
      · rw [if_neg hc]
        by_cases hh : s.tab.ids i = s.id
        · rw [if_pos hh]
          exact ⟨_, rfl, same _ (by simp) ⟨hr, hiN, hh⟩⟩
        · rw [if_neg hh]
          refine ⟨_, rfl, same _ (by simp) ⟨hr, hiN, fun j hj => ?_, he⟩⟩
          by_cases hji : j = i
          · rw [hji]; exact hh
          · exact hn j (by omega)
    · rw [if_neg hiN]
      have hn' : ∀ j, j < N → s.tab.ids j ≠ s.id := fun j hj => hn j (by omega)
      by_cases hc : e = -1
      · rw [if_pos hc]
        obtain ⟨k, hk, hz⟩ := room_empty hS s.tab t hr h.known s.id hid (unlisted hr h0 hn')
        exact ⟨_, rfl, same _ (by simp) ⟨hr, hn', k, by omega, hk, hz⟩⟩
      · rw [if_neg hc]
        obtain ⟨k, hk, hkN, hz⟩ := he.resolve_left hc
        subst hk
        exact ⟨_, rfl, same _ (by simp) ⟨hr, hn', by simpa using hkN, by simpa using hz⟩⟩
  | again i =>
    rw [hpc] at hat
    obtain ⟨hr, hn, k, hik, hkN, hz⟩ := hat
    simp only
    rw [if_pos (by omega)]
    by_cases hc : s.tab.ids i = 0
    · rw [if_pos hc]
      exact ⟨_, rfl, same _ (by simp) ⟨hr, hn, by omega, hc⟩⟩
    · rw [if_neg hc]
      have : i ≠ k := fun e => hc (e ▸ hz)
      exact ⟨_, rfl, same _ (by simp) ⟨hr, hn, k, by omega, hkN, hz⟩⟩
  | compare i =>
    rw [hpc] at hat
    obtain ⟨hr, hi, hd⟩ := hat
    simp only
    by_cases hc : s.tab.delta ≥ s.tab.delays i
    · rw [if_pos hc]
      exact ⟨_, rfl, same _ (by simp) ⟨hr, hi, hd, hc⟩⟩
    · rw [if_neg hc]
      have hlt : s.tab.delta < s.tab.delays i := by omega
      cases reload
      · exact ⟨_, rfl, same _ (by simp) ⟨hr, hi, hd, hlt, rfl⟩⟩
      · exact ⟨_, rfl, same _ (by simp) ⟨hr, hi, hd, hlt⟩⟩
  | fetch i =>
    rw [hpc] at hat
    obtain ⟨hr, hi, hd, hlt⟩ := hat
    have hs := hr.sound i hi (by rw [hd]; exact h0)
    have h32 := hsmall _ _ hs
    refine ⟨_, rfl, same _ (by simp) ⟨hr, hi, hd, hlt, ?_⟩⟩
    unfold toU
    show _ = s.tab.delays i - s.tab.delta
    omega
  | store i v =>
    rw [hpc] at hat
    obtain ⟨hr, hi, hd, hlt, hv⟩ := hat
    have hs := hr.sound i hi (by rw [hd]; exact h0)
    rw [hd] at hs
    have hst : t.step (.wait s.id s.time) = (some false, t.put s.id (some (s.tab.delays i - s.tab.delta))) := by
      simp only [Table.step, hs]
      rw [if_neg (by rw [hr.delta]; omega), hr.delta]
    refine ⟨_, rfl, inv_answer s es h hp _ false h.known (by rw [ht, hst]) ?_⟩
    rw [ht, hst]
    refine ⟨hr.delta, fun j hj hz => ?_, fun x hx hl => ?_, hr.inj⟩
    · simp only [Table.put, upd]
      by_cases hji : j = i
      · subst hji; rw [if_pos rfl, if_pos hd, hv]
      · have : s.tab.ids j ≠ s.id := fun e => hji (hr.inj j i hj hi (by rw [e]; exact h0) (by rw [e, hd]))
        rw [if_neg hji, if_neg this]
        exact hr.sound j hj hz
    · simp only [Table.put] at hl
      by_cases hxe : x = s.id
      · exact ⟨i, hi, by rw [hxe]; exact hd⟩
      · rw [if_neg hxe] at hl; exact hr.complete x hx hl
  | release i =>
    rw [hpc] at hat
    obtain ⟨hr, hi, hd, hle⟩ := hat
    have hs := hr.sound i hi (by rw [hd]; exact h0)
    rw [hd] at hs
    have hst : t.step (.wait s.id s.time) = (some true, t.put s.id none) := by
      simp only [Table.step, hs]
      rw [if_pos (by rw [hr.delta]; exact hle)]
    refine ⟨_, rfl, inv_answer s es h hp _ true ?_ (by rw [ht, hst]) ?_⟩
    · intro j hj
      simp only [upd]
      split
      · exact .inl rfl
      · exact h.known j hj
    rw [ht, hst]
    refine ⟨hr.delta, fun j hj hz => ?_, fun x hx hl => ?_, fun a b ha hb hz he => ?_⟩
    · simp only [upd] at hz ⊢
      by_cases hji : j = i
      · rw [if_pos hji] at hz; exact absurd rfl hz
      · rw [if_neg hji] at hz ⊢
        have : s.tab.ids j ≠ s.id := fun e => hji (hr.inj j i hj hi (by rw [e]; exact h0) (by rw [e, hd]))
        simp only [Table.put]
        rw [if_neg this]
        exact hr.sound j hj hz
    · simp only [Table.put] at hl
      by_cases hxe : x = s.id
      · rw [if_pos hxe] at hl; exact absurd rfl hl
      · rw [if_neg hxe] at hl
        obtain ⟨k, hk, hkx⟩ := hr.complete x hx hl
        refine ⟨k, hk, ?_⟩
        simp only [upd]
        rw [if_neg (fun e => hxe (by rw [← hkx, e, hd]))]
        exact hkx
    · simp only [upd] at hz he
      by_cases h1 : a = i
      · rw [if_pos h1] at hz; exact absurd rfl hz
      · rw [if_neg h1] at hz he
        by_cases h2 : b = i
        · rw [if_pos h2] at he; exact absurd he hz
        · rw [if_neg h2] at he; exact hr.inj a b ha hb hz he
  | claim e =>
    rw [hpc] at hat
    obtain ⟨hr, hn, he, hz⟩ := hat
    have hl := unlisted hr h0 hn
    refine ⟨_, rfl, inv_pc s es h hp _ _ (by simp) ?_ ?_⟩
    · intro j hj
      simp only [upd]
      split
      · exact .inr hid
      · exact h.known j hj
    rw [ht]
    refine ⟨⟨hr.delta, fun j hj hz' => ?_, fun x hx hlx => ?_, fun a b ha hb hza hab => ?_⟩, hl, he, by simp [upd]⟩
    · simp only [upd, Table.put] at hz' ⊢
      by_cases hje : j = e
      · rw [if_pos hje, if_pos rfl, hje]
      · rw [if_neg hje] at hz' ⊢
        rw [if_neg (hn j hj)]
        exact hr.sound j hj hz'
    · simp only [Table.put] at hlx
      by_cases hxe : x = s.id
      · exact ⟨e, he, by simp [upd, hxe]⟩
      · rw [if_neg hxe] at hlx
        obtain ⟨k, hk, hkx⟩ := hr.complete x hx hlx
        refine ⟨k, hk, ?_⟩
        simp only [upd]
        rw [if_neg (fun e' => hx (by rw [← hkx, e', hz]))]
        exact hkx
    · simp only [upd] at hza hab
      by_cases h1 : a = e
      · by_cases h2 : b = e
        · rw [h1, h2]
        · rw [if_pos h1, if_neg h2] at hab; exact absurd hab.symm (hn b hb)
      · rw [if_neg h1] at hza hab
        by_cases h2 : b = e
        · rw [if_pos h2] at hab; exact absurd hab (hn a ha)
        · rw [if_neg h2] at hab; exact hr.inj a b ha hb hza hab
  | start e =>
    rw [hpc] at hat
    obtain ⟨hr, hl, he, hd⟩ := hat
    have hst : t.step (.wait s.id s.time) = (some false, t.put s.id (some s.time)) := by simp only [Table.step, hl]
    refine ⟨_, rfl, inv_answer s es h hp _ false h.known (by rw [ht, hst]) ?_⟩
    rw [ht, hst]
    refine ⟨hr.delta, fun j hj hz => ?_, fun x hx hlx => ?_, hr.inj⟩
    · simp only [Table.put, upd]
      by_cases hje : j = e
      · subst hje; rw [if_pos rfl, if_pos hd]
      · have hne : s.tab.ids j ≠ s.id := fun e' => hje (hr.inj j e hj he (by rw [e']; exact h0) (by rw [e', hd]))
        rw [if_neg hje, if_neg hne]
        have := hr.sound j hj hz
        simp only [Table.put] at this
        rw [if_neg hne] at this
        exact this
    · simp only [Table.put] at hlx
      by_cases hxe : x = s.id
      · exact ⟨e, he, by rw [hxe]; exact hd⟩
      · rw [if_neg hxe] at hlx
        exact hr.complete x hx (by simp only [Table.put]; rw [if_neg hxe]; exact hlx)

/-- A whole call is completed. -/
theorem inv_whole (s : St) (es : List DelaysInterrupt.Ev) (h : Inv N S s es) (b : Bool) (hb : b = true → s.pc = .idle) (o : Op) (ho : Proper S o) (tab : State)
    (hs : s.tab.step N o = .ok (((Table.init.run (completed s)).2.step o.call).1, tab)) (hk : Known N S tab)
    (hat : At N { s with tab := tab } ((Table.init.run (completed s)).2.step o.call).2) :
    ∃ s', s.whole N b o = .ok s' ∧ Inv N S s' (es ++ [if b then .call o else .handler o]) := by
  refine ⟨{ s with tab := tab, log := s.log ++ [(b, o, ((Table.init.run (completed s)).2.step o.call).1)] }, by simp only [St.whole, hs, Res.bind_ok], ?_⟩
  have hc : completed { s with tab := tab, log := s.log ++ [(b, o, ((Table.init.run (completed s)).2.step o.call).1)] } = completed s ++ [o.call] := by simp [completed]
  have ha : answered { s with tab := tab, log := s.log ++ [(b, o, ((Table.init.run (completed s)).2.step o.call).1)] } =
      answered s ++ [((Table.init.run (completed s)).2.step o.call).1] := by simp [answered]
  refine ⟨?_, hk, ?_, h.mem, ?_, ?_, ?_⟩
  · rw [hc, table_snoc]; exact hat
  · rw [hc, table_snoc]; exact small_step _ h.small o ho.2
  · rw [hc, table_snoc, ha, h.answers]
  · rw [askedBy_append, ← h.handlers]
    cases b <;> simp [completedBy, askedBy]
  · rw [askedBy_append, ← h.mains]
    cases b with
    | true => simp [completedBy, askedBy, hb rfl]
    | false => simp [completedBy, askedBy]

theorem step_whole (hS : Room N S) (s : St) (es : List DelaysInterrupt.Ev) (h : Inv N S s es) (b : Bool) (hb : b = true → s.pc = .idle) (o : Op) (ho : Proper S o)
    (hq : s.pc ≠ .idle → o.call.id? ≠ none ∧ (o.call.id? = some s.id → o = .abort s.id ∧ ¬ counting s.pc))
    (hf : holdsFree s.pc → ∀ id t, o = .wait id t → s.tab.isWaiting N id = true) :
    ∃ s', s.whole N b o = .ok s' ∧ Inv N S s' (es ++ [if b then .call o else .handler o]) := by
  have hat := h.place
  have fin := inv_whole s es h b hb o ho
  generalize (Table.init.run (completed s)).2 = t at hat fin
  simp only [At] at hat
  have hz : ∀ id u, o = .wait id u → id ≠ 0 := fun id u e => by
    subst e
    exact fun e => hS.nz (e ▸ ho.1 id rfl)
  by_cases hp : s.pc = .idle
  · rw [hp] at hat
    obtain ⟨tab, h1, h2, h3, _⟩ := whole_ok hS s.tab t hat h.known o ho
    refine fin tab h1 h3 ?_
    simp only [At]; rw [hp]; exact h2
  have hid := (h.mem hp).1
  have h0 : s.id ≠ 0 := fun e => hS.nz (e ▸ hid)
  obtain ⟨hq1, hq2⟩ := hq hp
  obtain ⟨id', hid'⟩ := Option.ne_none_iff_exists'.1 hq1
  by_cases hne : id' = s.id
  · -- the delay itself is aborted
    subst hne
    obtain ⟨rfl, hcount⟩ := hq2 hid'
    have hids : ∀ tab', s.tab.step N (.abort s.id) = .ok ((none : Option Bool), tab') → tab'.ids = s.tab.ids ∧ tab'.delta = s.tab.delta := by
      intro tab' e; cases e; exact ⟨rfl, rfl⟩
    have hans : ∀ t : Table, (t.step (Op.abort s.id).call).1 = none := fun _ => rfl
    cases hpc : s.pc with
    | idle => exact absurd hpc hp
    | look i e =>
      rw [hpc] at hat
      obtain ⟨hr, hi, hn, he⟩ := hat
      obtain ⟨tab, h1, h2, h3, _⟩ := whole_ok hS s.tab t hr h.known _ ho
      have e1 := (hids tab h1).1
      refine fin tab h1 h3 ?_
      simp only [At]; rw [hpc]
      exact ⟨h2, hi, by rw [e1]; exact hn, by rw [e1]; exact he⟩
    | again i =>
      rw [hpc] at hat
      obtain ⟨hr, hn, he⟩ := hat
      obtain ⟨tab, h1, h2, h3, _⟩ := whole_ok hS s.tab t hr h.known _ ho
      have e1 := (hids tab h1).1
      refine fin tab h1 h3 ?_
      simp only [At]; rw [hpc]
      exact ⟨h2, by rw [e1]; exact hn, by rw [e1]; exact he⟩
    | compare i =>
      rw [hpc] at hat
      obtain ⟨hr, hi, hd⟩ := hat
      obtain ⟨tab, h1, h2, h3, _⟩ := whole_ok hS s.tab t hr h.known _ ho
      have e1 := (hids tab h1).1
      refine fin tab h1 h3 ?_
      simp only [At]; rw [hpc]
      exact ⟨h2, hi, by rw [e1]; exact hd⟩
    | fetch i => rw [hpc] at hcount; exact absurd trivial hcount
    | store i v => rw [hpc] at hcount; exact absurd trivial hcount
    | release i =>
      rw [hpc] at hat
      obtain ⟨hr, hi, hd, hle⟩ := hat
      obtain ⟨tab, h1, h2, h3, _⟩ := whole_ok hS s.tab t hr h.known _ ho
      have e1 := (hids tab h1).1
      refine fin tab h1 h3 ?_
      simp only [At]; rw [hpc]
      have hs := hr.sound i hi (by rw [hd]; exact h0)
      rw [hd] at hs
      have hs' := h2.sound i hi (by rw [e1, hd]; exact h0)
      rw [e1, hd] at hs'
      simp only [Op.call, Table.step, hs, Table.put] at hs'
      simp only [reduceCtorEq, if_false, if_true, Option.some.injEq] at hs'
      exact ⟨h2, hi, by rw [e1]; exact hd, by show tab.delays i ≤ tab.delta; omega⟩
    | claim e =>
      rw [hpc] at hat
      obtain ⟨hr, hn, he⟩ := hat
      obtain ⟨tab, h1, h2, h3, _⟩ := whole_ok hS s.tab t hr h.known _ ho
      have e1 := (hids tab h1).1
      refine fin tab h1 h3 ?_
      simp only [At]; rw [hpc]
      exact ⟨h2, by rw [e1]; exact hn, by rw [e1]; exact he⟩
    | start e =>
      rw [hpc] at hat
      obtain ⟨hr, hl, he, hd⟩ := hat
      obtain ⟨tab, h1, h2, h3, _⟩ := whole_ok hS s.tab _ hr h.known _ ho
      have e1 := (hids tab h1).1
      have h1' : s.tab.step N (.abort s.id) = .ok ((t.step (Op.abort s.id).call).1, tab) := h1
      refine fin tab h1' h3 ?_
      have ht : (t.step (Op.abort s.id).call).2 = t := by simp [Op.call, Table.step, hl]
      have ht2 : ((t.put s.id (some (s.tab.delays e))).step (Op.abort s.id).call).2 = t.put s.id (some 0) := by
        have hl2 : (t.put s.id (some (s.tab.delays e))).left s.id = some (s.tab.delays e) := by simp [Table.put]
        simp only [Op.call, Table.step, hl2, reduceCtorEq, if_false]
        simp only [Table.put, Table.mk.injEq, true_and]
        funext j
        split <;> rfl
      rw [ht2] at h2
      have hs' := h2.sound e he (by rw [e1, hd]; exact h0)
      rw [e1, hd] at hs'
      simp only [Table.put, if_true, Option.some.injEq] at hs'
      simp only [At]; rw [hpc, ht]
      exact ⟨by rw [← hs']; exact h2, hl, he, by rw [e1]; exact hd⟩
  · -- another delay
    have hother := step_other t o s.id id' hid' hne
    have notid : ∀ tab' : State, (∀ i, i < N → tab'.ids i = s.tab.ids i ∨ tab'.ids i = 0 ∨ some (tab'.ids i) = o.call.id?) → ∀ j, j < N → s.tab.ids j ≠ s.id → tab'.ids j ≠ s.id := by
      intro tab' h4 j hj hn
      rcases h4 j hj with e | e | e
      · rw [e]; exact hn
      · rw [e]; exact fun e => h0 e.symm
      · rw [hid'] at e
        cases e
        exact fun e => hne e
    cases hpc : s.pc with
    | idle => exact absurd hpc hp
    | look i e =>
      rw [hpc] at hat
      obtain ⟨hr, hi, hn, he⟩ := hat
      obtain ⟨tab, h1, h2, h3, h4⟩ := whole_ok hS s.tab t hr h.known o ho
      refine fin tab h1 h3 ?_
      simp only [At]; rw [hpc]
      refine ⟨h2, hi, fun j hj => notid tab h4 j (by omega) (hn j hj), ?_⟩
      by_cases hc : e = -1
      · exact .inl hc
      · obtain ⟨k, hk, hkN, hkz⟩ := he.resolve_left hc
        exact .inr ⟨k, hk, hkN, free_kept s.tab tab t o _ hr hz h1 (hf (by rw [hpc]; exact hc)) k hkz⟩
    | again i =>
      rw [hpc] at hat
      obtain ⟨hr, hn, k, hik, hkN, hkz⟩ := hat
      obtain ⟨tab, h1, h2, h3, h4⟩ := whole_ok hS s.tab t hr h.known o ho
      refine fin tab h1 h3 ?_
      simp only [At]; rw [hpc]
      have hn' : ∀ j, j < N → tab.ids j ≠ s.id := fun j hj => notid tab h4 j hj (hn j hj)
      refine ⟨h2, hn', ?_⟩
      by_cases hreg : ∀ id u, o = .wait id u → s.tab.isWaiting N id = true
      · exact ⟨k, hik, hkN, free_kept s.tab tab t o _ hr hz h1 hreg k hkz⟩
      · simp only [Classical.not_forall] at hreg
        obtain ⟨x, u, rfl, hx⟩ := hreg
        have hx0 := hz x u rfl
        rw [waits_spec hx0 s.tab t hr] at hx
        have hxl : t.left x = none := by
          cases hl : t.left x with
          | none => rfl
          | some v => rw [hl] at hx; exact absurd rfl hx
        have hxn : ∀ j, j < N → s.tab.ids j ≠ x := fun j hj e => by
          have := hr.sound j hj (by rw [e]; exact hx0)
          rw [e, hxl] at this; cases this
        obtain ⟨j, hj, hjz, hfirst, hw⟩ := wait_first N s.tab x u hxn ⟨k, hkN, hkz⟩
        have htab : tab = { s.tab with ids := upd s.tab.ids j x, delays := upd s.tab.delays j u } := by
          simp only [State.step, hw, Res.bind_ok, Res.ok.injEq, Prod.mk.injEq] at h1
          exact h1.2.symm
        by_cases hjk : j = k
        · subst hjk
          obtain ⟨m, hm, hmz⟩ := room_empty hS tab _ h2 h3 s.id hid (unlisted h2 h0 hn')
          rw [htab] at hmz
          simp only [upd] at hmz
          by_cases hmj : m = j
          · rw [if_pos hmj] at hmz; exact absurd hmz hx0
          · rw [if_neg hmj] at hmz
            have : j ≤ m := Nat.le_of_not_lt (fun hlt => hfirst m hlt hmz)
            refine ⟨m, by omega, hm, ?_⟩
            rw [htab]; simp only [upd]; rw [if_neg hmj]; exact hmz
        · refine ⟨k, hik, hkN, ?_⟩
          rw [htab]; simp only [upd]; rw [if_neg (fun e => hjk e.symm)]; exact hkz
    | compare i =>
      rw [hpc] at hat
      obtain ⟨hr, hi, hd⟩ := hat
      obtain ⟨tab, h1, h2, h3, h4⟩ := whole_ok hS s.tab t hr h.known o ho
      refine fin tab h1 h3 ?_
      simp only [At]; rw [hpc]
      exact ⟨h2, hi, (entry_kept s.tab tab t o s.id id' i hr h2 h4 hid' hne h0 hi hd).1⟩
    | fetch i =>
      rw [hpc] at hat
      obtain ⟨hr, hi, hd, hlt⟩ := hat
      obtain ⟨tab, h1, h2, h3, h4⟩ := whole_ok hS s.tab t hr h.known o ho
      refine fin tab h1 h3 ?_
      obtain ⟨g1, g2⟩ := entry_kept s.tab tab t o s.id id' i hr h2 h4 hid' hne h0 hi hd
      have g3 := delta_kept s.tab tab o _ h1 hq1
      simp only [At]; rw [hpc]
      exact ⟨h2, hi, g1, by rw [g2, g3]; exact hlt⟩
    | store i v =>
      rw [hpc] at hat
      obtain ⟨hr, hi, hd, hlt, hv⟩ := hat
      obtain ⟨tab, h1, h2, h3, h4⟩ := whole_ok hS s.tab t hr h.known o ho
      refine fin tab h1 h3 ?_
      obtain ⟨g1, g2⟩ := entry_kept s.tab tab t o s.id id' i hr h2 h4 hid' hne h0 hi hd
      have g3 := delta_kept s.tab tab o _ h1 hq1
      simp only [At]; rw [hpc]
      exact ⟨h2, hi, g1, by rw [g2, g3]; exact hlt, by rw [g2, g3]; exact hv⟩
    | release i =>
      rw [hpc] at hat
      obtain ⟨hr, hi, hd, hle⟩ := hat
      obtain ⟨tab, h1, h2, h3, h4⟩ := whole_ok hS s.tab t hr h.known o ho
      refine fin tab h1 h3 ?_
      obtain ⟨g1, g2⟩ := entry_kept s.tab tab t o s.id id' i hr h2 h4 hid' hne h0 hi hd
      have g3 := delta_kept s.tab tab o _ h1 hq1
      simp only [At]; rw [hpc]
      exact ⟨h2, hi, g1, by rw [g2, g3]; exact hle⟩
    | claim e =>
      rw [hpc] at hat
      obtain ⟨hr, hn, he, hkz⟩ := hat
      obtain ⟨tab, h1, h2, h3, h4⟩ := whole_ok hS s.tab t hr h.known o ho
      refine fin tab h1 h3 ?_
      simp only [At]; rw [hpc]
      exact ⟨h2, fun j hj => notid tab h4 j hj (hn j hj), he, free_kept s.tab tab t o _ hr hz h1 (hf (by rw [hpc]; trivial)) e hkz⟩
    | start e =>
      rw [hpc] at hat
      obtain ⟨hr, hl, he, hd⟩ := hat
      obtain ⟨tab, h1, h2, h3, h4⟩ := whole_ok hS s.tab _ hr h.known o ho
      obtain ⟨k1, k2⟩ := hother (some (s.tab.delays e))
      obtain ⟨g1, g2⟩ := entry_kept s.tab tab _ o s.id id' e hr h2 h4 hid' hne h0 he hd
      rw [k2] at h1 h2
      refine fin tab h1 h3 ?_
      simp only [At]; rw [hpc]
      exact ⟨by rw [g2]; exact h2, by rw [k1]; exact hl, he, g1⟩

theorem step_ev (hS : Room N S) (reload : Bool) (s : St) (es : List DelaysInterrupt.Ev) (h : Inv N S s es) (e : DelaysInterrupt.Ev) (hq : QuietDelayCall N S s e) :
    ∃ s', step N reload s e = .ok s' ∧ Inv N S s' (es ++ [e]) := by
  cases e with
  | begin id time =>
    obtain ⟨hp, ho⟩ := hq
    have hat := h.place
    simp only [At] at hat
    rw [hp] at hat
    refine ⟨_, rfl, ⟨hat, by omega, fun j hj => by omega, .inl rfl⟩, h.known, h.small, fun _ => ⟨ho.1 id rfl, ho.2 id time rfl⟩, h.answers, ?_, ?_⟩
    · rw [askedBy_append, ← h.handlers]; simp [askedBy, completedBy]
    · rw [askedBy_append, ← h.mains]; simp [askedBy, completedBy, hp]
  | main => exact step_main hS reload s es h
  | call o =>
    obtain ⟨hp, ho⟩ := hq
    exact step_whole hS s es h true (fun _ => hp) o ho (fun hn => absurd hp hn) (fun hn => by rw [hp] at hn; exact absurd hn id)
  | handler o =>
    obtain ⟨ho, h1, h2⟩ := hq
    exact step_whole hS s es h false (fun hn => by cases hn) o ho h1 h2

theorem inv_run (hS : Room N S) (reload : Bool) (es : List DelaysInterrupt.Ev) : ∀ (s : St) (fs : List DelaysInterrupt.Ev), Inv N S s fs →
    AtEach N reload (QuietDelayCall N S) s es → ∃ s', run N reload s es = .ok s' ∧ Inv N S s' (fs ++ es) := by
  induction es with
  | nil => intro s fs h _; exact ⟨s, rfl, by rw [List.append_nil]; exact h⟩
  | cons e es ih =>
    intro s fs h hq
    obtain ⟨s1, h1, h2⟩ := step_ev hS reload s fs h e hq.1
    obtain ⟨s2, g1, g2⟩ := ih s1 _ h2 (hq.2 s1 h1)
    exact ⟨s2, by simp only [run, h1, Res.bind_ok, g1], by simpa using g2⟩

theorem inv_init : Inv N S St.init [] :=
  ⟨init_ref N, fun _ _ => .inl rfl, fun _ _ hv => (by cases hv), fun hn => absurd rfl hn, rfl, rfl, rfl⟩

end DelaysIsr

/-! ### C143 -/

/-- **C143 (partial: quiet histories).** A table with room for the ids, any quiet history: the claim. -/
theorem c143_quiet_partial (N : Nat) (reload : Bool) (S : List Nat) (hS : Room N S) (es : List DelaysInterrupt.Ev) (hq : AtEach N reload (QuietDelayCall N S) St.init es) : Served N reload S es := by
  obtain ⟨s, h1, h2⟩ := DelaysIsr.inv_run hS reload es St.init [] DelaysIsr.inv_init hq
  refine ⟨s, h1, h2.answers, h2.handlers, h2.mains, fun hp id hid => ?_⟩
  have hat := h2.place
  simp only [DelaysIsr.At] at hat
  rw [hp] at hat
  exact waits_spec (fun e => hS.nz (e ▸ hid)) s.tab _ hat

instance decProper (S : List Nat) (o : Op) : Decidable (Proper S o) :=
  match o with
  | .update _ => isTrue ⟨fun _ h => (by cases h), fun _ _ h => (by cases h)⟩
  | .wait i t => decidable_of_iff (i ∈ S ∧ t < 2 ^ 32) ⟨fun h => ⟨fun _ e => (by cases e; exact h.1), fun _ _ e => (by cases e; exact h.2)⟩, fun h => ⟨h.1 i rfl, h.2 i t rfl⟩⟩
  | .abort i => decidable_of_iff (i ∈ S) ⟨fun h => ⟨fun _ e => (by cases e; exact h), fun _ _ e => (by cases e)⟩, fun h => h.1 i rfl⟩
  | .clear i => decidable_of_iff (i ∈ S) ⟨fun h => ⟨fun _ e => (by cases e; exact h), fun _ _ e => (by cases e)⟩, fun h => h.1 i rfl⟩
  | .isWaiting i => decidable_of_iff (i ∈ S) ⟨fun h => ⟨fun _ e => (by cases e; exact h), fun _ _ e => (by cases e)⟩, fun h => h.1 i rfl⟩

instance (p : Pc) : Decidable (holdsFree p) := by cases p <;> unfold holdsFree <;> infer_instance
instance (p : Pc) : Decidable (counting p) := by cases p <;> unfold counting <;> infer_instance

instance (N : Nat) (s : State) (o : Op) : Decidable (∀ id t, o = .wait id t → s.isWaiting N id = true) :=
  match o with
  | .wait i t => decidable_of_iff (s.isWaiting N i = true) ⟨fun h _ _ e => (by cases e; exact h), fun h => h i t rfl⟩
  | .update _ | .abort _ | .clear _ | .isWaiting _ => isTrue fun _ _ e => (by cases e)

/-- As `QuietDelayCall`, but handlers come at any place and start delays at any time. -/
def SensibleCall (S : List Nat) (s : St) : DelaysInterrupt.Ev → Prop
  | .begin id time => s.pc = .idle ∧ Proper S (.wait id time)
  | .main => True
  | .call o => s.pc = .idle ∧ Proper S o
  | .handler o => Proper S o ∧ (s.pc ≠ .idle → o.call.id? ≠ none ∧ (o.call.id? = some s.id → o = .abort s.id))

instance (N : Nat) (S : List Nat) (s : St) (e : DelaysInterrupt.Ev) : Decidable (QuietDelayCall N S s e) := by
  cases e <;> unfold QuietDelayCall <;> infer_instance

instance (S : List Nat) (s : St) (e : DelaysInterrupt.Ev) : Decidable (SensibleCall S s e) := by
  cases e <;> unfold SensibleCall <;> infer_instance

instance decAtEach (N : Nat) (reload : Bool) (now : St → DelaysInterrupt.Ev → Prop) [∀ s e, Decidable (now s e)] : ∀ (es : List DelaysInterrupt.Ev) (s : St), Decidable (AtEach N reload now s es)
  | [], _ => isTrue trivial
  | e :: es, s =>
    match h : step N reload s e with
    | .ub => decidable_of_iff (now s e) ⟨fun hn => ⟨hn, fun s' hs => (by rw [h] at hs; cases hs)⟩, fun hn => hn.1⟩
    | .ok t =>
      have := decAtEach N reload now es t
      decidable_of_iff (now s e ∧ AtEach N reload now t es) ⟨fun hn => ⟨hn.1, fun s' hs => (by rw [h] at hs; cases hs; exact hn.2)⟩, fun hn => ⟨hn.1, hn.2 t h⟩⟩

/-- Main code waits for id 1, a handler for id 2 and aborts the delay of main code. -/
def quietDelays : List DelaysInterrupt.Ev :=
  [.handler (.wait 2 50), .begin 1 100, .handler (.wait 2 50), .main, .main, .main, .main, .main, .call (.update 10), .begin 1 100, .main, .handler (.abort 1), .main, .main, .handler (.wait 2 50),
    .main, .main, .begin 1 100, .main, .main, .main, .main, .main]

example := c143_quiet_partial 2 true [1, 2] ⟨by decide, by decide⟩ quietDelays (by decide +kernel)

/-- What can be seen of the end of a history: the answers, whether main code is outside `Wait`, which of the ids are listed and should be. -/
def endOf (N : Nat) (ids : List Nat) : Res St → Option (List (Option Bool) × Bool × List (Bool × Bool))
  | .ub => none
  | .ok s => some (answered s, s.pc = .idle, ids.map fun i => (s.tab.isWaiting N i, ((Table.init.run (completed s)).2.left i).isSome))

example : endOf 2 [1, 2] (run 2 true St.init quietDelays) =
    some ([some false, some false, some false, none, none, some false, some true, some false], true, [(true, true), (true, true)]) := by decide +kernel

/-! #### One call alone -/

namespace DelaysIsr

theorem run_append (N : Nat) (reload : Bool) (l m : List DelaysInterrupt.Ev) : ∀ s : St, run N reload s (l ++ m) = (do let t ← run N reload s l; run N reload t m) := by
  induction l with
  | nil => intro s; rfl
  | cons e l ih =>
    intro s
    simp only [List.cons_append, run]
    cases step N reload s e with
    | ub => rfl
    | ok t => exact ih t

/-- Main code alone for `n` accesses. -/
def alone (n : Nat) : List DelaysInterrupt.Ev := List.replicate n .main

theorem alone_add (n m : Nat) : alone (n + m) = alone n ++ alone m := by simp [alone, List.replicate_append_replicate]

theorem look_alone (N : Nat) (reload : Bool) (k : Nat) : ∀ (i : Nat) (e : Int) (s : St), s.pc = .look i e → i + k = N →
    ∃ n, run N reload s (alone n) = .ok { s with pc := match scan s.tab.ids s.id k i e with | .hit j => .compare j | .miss e' => .look N e' } := by
  induction k with
  | zero =>
    intro i e s hpc hk
    refine ⟨0, ?_⟩
    have hi : i = N := by omega
    subst hi
    simp only [alone, List.replicate_zero, run, scan]
    rw [← hpc]
  | succ k ih =>
    intro i e s hpc hk
    have hiN : i < N := by omega
    have h1 : ∀ s', mainStep N reload s = .ok s' → ∀ n, run N reload s (alone (n + 1)) = run N reload s' (alone n) := by
      intro s' hs n
      simp only [alone, List.replicate_succ, run, step, hs, Res.bind_ok]
    by_cases hc : e = -1 ∧ s.tab.ids i = 0
    · obtain ⟨n, hn⟩ := ih (i + 1) i { s with pc := .look (i + 1) i } rfl (by omega)
      refine ⟨n + 1, ?_⟩
      rw [h1 { s with pc := .look (i + 1) i } (by simp only [mainStep, hpc, if_pos hiN, if_pos hc]), hn, scan, if_pos hc]
    · by_cases hh : s.tab.ids i = s.id
      · refine ⟨1, ?_⟩
        rw [h1 { s with pc := .compare i } (by simp only [mainStep, hpc, if_pos hiN, if_neg hc, if_pos hh]) 0, scan, if_neg hc, if_pos hh]
        rfl
      · obtain ⟨n, hn⟩ := ih (i + 1) e { s with pc := .look (i + 1) e } rfl (by omega)
        refine ⟨n + 1, ?_⟩
        rw [h1 { s with pc := .look (i + 1) e } (by simp only [mainStep, hpc, if_pos hiN, if_neg hc, if_neg hh]), hn, scan, if_neg hc, if_neg hh]

theorem again_alone (N : Nat) (reload : Bool) (k : Nat) : ∀ (i : Nat) (s : St), s.pc = .again i → i + k = N →
    ∃ n, run N reload s (alone n) = if findEmpty s.tab.ids k i < 0 then .ub else .ok { s with pc := .claim (findEmpty s.tab.ids k i).toNat } := by
  induction k with
  | zero =>
    intro i s hpc hk
    refine ⟨1, ?_⟩
    rw [if_pos (show findEmpty s.tab.ids 0 i < 0 by simp [findEmpty])]
    simp only [alone, List.replicate_succ, List.replicate_zero, run, step, mainStep, hpc]
    rw [if_neg (by omega)]
    rfl
  | succ k ih =>
    intro i s hpc hk
    have hiN : i < N := by omega
    by_cases hc : s.tab.ids i = 0
    · refine ⟨1, ?_⟩
      simp only [alone, List.replicate_succ, List.replicate_zero, run, step, mainStep, hpc, findEmpty, if_pos hiN, if_pos hc, Res.bind_ok]
      rw [if_neg (by omega)]
      simp
    · obtain ⟨n, hn⟩ := ih (i + 1) { s with pc := .again (i + 1) } rfl (by omega)
      refine ⟨n + 1, ?_⟩
      simp only [alone, List.replicate_succ, run, step, mainStep, hpc, if_pos hiN, if_neg hc, Res.bind_ok] at hn ⊢
      rw [hn, findEmpty, if_neg hc]

end DelaysIsr

theorem scan_miss_nonneg (ids : Nat → Nat) (id : Nat) (k i : Nat) (e e' : Int) (h : scan ids id k i e = .miss e') (he : e = -1 ∨ 0 ≤ e) : e' = -1 ∨ 0 ≤ e' := by
  induction k generalizing i e with
  | zero => simp only [scan, Scan.miss.injEq] at h; rw [← h]; exact he
  | succ k ih =>
    rw [scan] at h
    split at h
    · exact ih _ _ h (.inr (by omega))
    · split at h
      · cases h
      · exact ih _ _ h he

/-- **C143.** Without handlers the accesses make up `Wait` (C24): the same answer, the same table, undefined in the same cases. -/
theorem c143_alone (N : Nat) (reload : Bool) (s : St) (id time : Nat) (h32 : ∀ i, s.tab.delays i < 2 ^ 32) :
    ∃ n, run N reload s (.begin id time :: List.replicate n .main) =
      (do let (b, tab) ← s.tab.wait N id time; .ok ({ s with id := id, time := time }.answer tab b)) := by
  obtain ⟨n, hn⟩ := DelaysIsr.look_alone N reload N 0 (-1) { s with pc := .look 0 (-1), id := id, time := time } rfl (by omega)
  have h0 : ∀ m, run N reload s (.begin id time :: List.replicate (n + m) .main) =
      (do let t ← run N reload { s with pc := .look 0 (-1), id := id, time := time } (DelaysIsr.alone n); run N reload t (DelaysIsr.alone m)) := by
    intro m
    rw [← DelaysIsr.run_append, ← DelaysIsr.alone_add]
    rfl
  simp only [hn] at h0
  simp only [Res.bind_ok] at h0
  unfold State.wait
  cases hsc : scan s.tab.ids id N 0 (-1) with
  | hit i =>
    simp only [hsc] at h0
    by_cases hc : s.tab.delta ≥ s.tab.delays i
    · refine ⟨n + 2, ?_⟩
      rw [h0]
      simp only [DelaysIsr.alone, List.replicate_succ, List.replicate_zero, run, step, mainStep, if_pos hc, Res.bind_ok, St.answer]
    · have hd := h32 i
      cases reload with
      | false =>
        refine ⟨n + 2, ?_⟩
        rw [h0]
        simp only [DelaysIsr.alone, List.replicate_succ, List.replicate_zero, run, step, mainStep, if_neg hc, Res.bind_ok, St.answer, Bool.false_eq_true, if_false]
      | true =>
        refine ⟨n + 3, ?_⟩
        have ht : toU 32 ((s.tab.delays i : Int) - s.tab.delta) = s.tab.delays i - s.tab.delta := by unfold toU; omega
        rw [h0]
        simp only [DelaysIsr.alone, List.replicate_succ, List.replicate_zero, run, step, mainStep, if_neg hc, Res.bind_ok, St.answer, if_true, ht]
  | miss e =>
    simp only [hsc] at h0
    by_cases hc : e = -1
    · subst hc
      obtain ⟨m, hm⟩ := DelaysIsr.again_alone N reload N 0 { s with pc := .again 0, id := id, time := time } rfl (by omega)
      have h1 : ∀ k, run N reload { s with pc := .look N (-1), id := id, time := time } (DelaysIsr.alone (1 + (m + k))) =
          (do let t ← run N reload { s with pc := .again 0, id := id, time := time } (DelaysIsr.alone m); run N reload t (DelaysIsr.alone k)) := by
        intro k
        rw [← DelaysIsr.run_append, ← DelaysIsr.alone_add, DelaysIsr.alone_add]
        have e1 : DelaysIsr.alone 1 = [.main] := rfl
        rw [e1]
        simp only [List.cons_append, List.nil_append, run, step, mainStep, Nat.lt_irrefl, if_false, if_true, Res.bind_ok]
      by_cases hz : findEmpty s.tab.ids N 0 < 0
      · refine ⟨n + (1 + (m + 0)), ?_⟩
        rw [h0, h1, hm]
        simp only [if_true, hz]
        rfl
      · refine ⟨n + (1 + (m + 2)), ?_⟩
        rw [h0, h1, hm]
        simp only [if_true, hz, if_false, Res.bind_ok]
        simp only [DelaysIsr.alone, List.replicate_succ, List.replicate_zero, run, step, mainStep, Res.bind_ok, St.answer]
    · have hee : ¬ e < 0 := by
        have := scan_miss_nonneg s.tab.ids id N 0 (-1) e hsc (.inl rfl)
        omega
      refine ⟨n + 3, ?_⟩
      rw [h0]
      simp only [if_neg hc, if_neg hee]
      simp only [DelaysIsr.alone, List.replicate_succ, List.replicate_zero, run, step, mainStep, Nat.lt_irrefl, if_false, if_neg hc, Res.bind_ok, St.answer]

example := c143_alone 2 true St.init 1 100 (by intro i; exact Nat.two_pow_pos 32)

/-! #### The other places -/

theorem abort_entry (N : Nat) (s : State) (id i : Nat) (hi : i < N) (hid : s.ids i = id) (hu : ∀ j, j < N → s.ids j = id → j = i) : (s.abort N id).delays = upd s.delays i 0 := by
  funext j
  simp only [State.abort, abort_loop, upd]
  by_cases hj : j = i
  · subst hj; rw [if_pos rfl, if_pos ⟨by omega, by omega, hid⟩]
  · rw [if_neg hj, if_neg (fun h => hj (hu j (by omega) h.2.2))]

/-- **C143.** An abort while main code is about to store what is left of the delay is undone: the table is as without it. -/
theorem c143_abort_undone (N : Nat) (reload : Bool) (s : St) (i v : Nat) (hpc : s.pc = .store i v) (hi : i < N) (hid : s.tab.ids i = s.id)
    (hu : ∀ j, j < N → s.tab.ids j = s.id → j = i) :
    ∃ a b, run N reload s [.handler (.abort s.id), .main] = .ok a ∧ run N reload s [.main] = .ok b ∧ a.tab = b.tab ∧ b.tab.delays i = v ∧ a.pc = .idle := by
  have h := abort_entry N s.tab s.id i hi hid hu
  refine ⟨_, _, by simp only [run, step, St.whole, State.step, Res.bind_ok, mainStep, hpc]; rfl, by simp only [run, step, mainStep, hpc, Res.bind_ok]; rfl, ?_, by simp [St.answer, upd], rfl⟩
  simp only [St.answer, h, State.mk.injEq]
  refine ⟨rfl, rfl, ?_⟩
  funext j
  simp only [upd]
  split <;> rfl

/-- **C143.** When the compiler reads the delay a second time, an abort between the two makes the rest of the delay wrap around: almost 2^32. -/
theorem c143_abort_wraps (N : Nat) (s : St) (i : Nat) (hpc : s.pc = .fetch i) (hi : i < N) (hid : s.tab.ids i = s.id) (hu : ∀ j, j < N → s.tab.ids j = s.id → j = i)
    (h0 : 0 < s.tab.delta) (h32 : s.tab.delta < 2 ^ 32) :
    ∃ a, run N true s [.handler (.abort s.id), .main, .main] = .ok a ∧ a.tab.ids i = s.id ∧ a.tab.delays i = 2 ^ 32 - s.tab.delta ∧ a.pc = .idle := by
  have h := abort_entry N s.tab s.id i hi hid hu
  refine ⟨_, by simp only [run, step, St.whole, State.step, Res.bind_ok, mainStep, hpc, if_true]; rfl, (by exact hid), ?_, rfl⟩
  simp only [St.answer, h, upd, if_true]
  show toU 32 (((0 : Nat) : Int) - (s.tab.delta : Int)) = _
  unfold toU
  omega

/-- **C143.** When the compiler reads the remaining time and the delta a second time, a handler's `Update` in between to a delta larger than the rest of the delay makes the rest wrap around. -/
theorem c143_update_wraps (N : Nat) (s : St) (i d : Nat) (hpc : s.pc = .fetch i) (h1 : s.tab.delays i < d) (h32 : d < 2 ^ 32) :
    ∃ a, run N true s [.handler (.update d), .main, .main] = .ok a ∧ a.tab.ids i = s.tab.ids i ∧ a.tab.delays i = 2 ^ 32 - (d - s.tab.delays i) ∧ a.pc = .idle := by
  refine ⟨_, by simp only [run, step, St.whole, State.step, Res.bind_ok, mainStep, hpc, if_true]; rfl, (by rfl), ?_, rfl⟩
  simp only [St.answer, State.update, upd, if_true, toU]
  omega

/-- **C143.** A delay a handler starts when main code has found a free entry, the first one, and not claimed it, is lost. -/
theorem c143_overwritten (N : Nat) (reload : Bool) (s : St) (e : Nat) (hpc : s.pc = .claim e) (he : e < N) (hz : s.tab.ids e = 0) (hfirst : ∀ m, m < e → s.tab.ids m ≠ 0)
    (x u : Nat) (hx0 : x ≠ 0) (hx : ∀ j, j < N → s.tab.ids j ≠ x) (hne : x ≠ s.id) :
    ∃ a, run N reload s [.handler (.wait x u), .main, .main] = .ok a ∧ a.tab.isWaiting N x = false ∧ a.pc = .idle := by
  obtain ⟨j, hj, hjz, hjf, hw⟩ := DelaysIsr.wait_first N s.tab x u hx ⟨e, he, hz⟩
  have hje : j = e := by
    rcases Nat.lt_trichotomy j e with h | h | h
    · exact absurd hjz (hfirst j h)
    · exact h
    · exact absurd hz (hjf e h)
  subst hje
  refine ⟨_, by simp only [run, step, St.whole, State.step, hw, Res.bind_ok, mainStep, hpc]; rfl, ?_, rfl⟩
  rw [Bool.eq_false_iff]
  intro h
  simp only [St.answer, State.isWaiting, isWaiting_loop] at h
  obtain ⟨k, _, hk, hkx⟩ := h
  simp only [upd] at hkx
  by_cases hkj : k = j
  · rw [if_pos hkj] at hkx; exact hne hkx.symm
  · rw [if_neg hkj, if_neg hkj] at hkx; exact hx k (by omega) hkx

/-- A table with the delay of id 1 in entry 0, main code in `Wait` for it. -/
def waitingAt (p : Pc) : St := ⟨⟨10, fun i => if i = 0 then 1 else 0, fun i => if i = 0 then 100 else 0⟩, p, 1, 100, []⟩

example := c143_abort_undone 2 false (waitingAt (.store 0 90)) 0 90 rfl (by omega) rfl (by decide)
example := c143_abort_wraps 2 (waitingAt (.fetch 0)) 0 rfl (by omega) rfl (by decide) (by decide) (by decide)
example := c143_update_wraps 2 (waitingAt (.fetch 0)) 0 130 rfl (by decide) (by decide)
example := c143_overwritten 3 false { waitingAt (.claim 1) with id := 5 } 1 rfl (by omega) rfl (by decide) 7 50 (by omega) (by decide) (by decide)

/-- Main code starts a delay of id 1; before it has claimed the entry a handler starts one of id 2. -/
def lostDelay : List DelaysInterrupt.Ev := [.begin 1 10, .main, .main, .main, .handler (.wait 2 50), .main, .main]

/-- Main code counts the delay of id 1 down; before it has stored the rest a handler aborts it (`k` accesses after the comparison); the next `Wait`. -/
def lostAbort (k : Nat) : List DelaysInterrupt.Ev :=
  [.begin 1 100, .main, .main, .main, .main, .main, .call (.update 10), .begin 1 100, .main, .main] ++ List.replicate k .main ++ [.handler (.abort 1), .main, .main] ++
    [.call (.update 1), .call (.wait 1 100)]

/-- **C143 fails** for delays handlers start: that of id 2 should be listed and is not. -/
theorem c143_lost_fails (reload : Bool) : endOf 2 [1, 2] (run 2 reload St.init lostDelay) = some ([some false, some false], true, [(true, true), (false, true)]) := by
  cases reload <;> decide +kernel

/-- **C143 fails** for delays handlers abort: "The next call to Wait will report done" (Delays.h 71). Neither order of the abort and the `Wait` it interrupts gives the
    answers there are: in the first, that of the log, this `Wait` reports done, in the second the last one does. So when the delay is read once (first line), and read twice. -/
theorem c143_abort_fails :
    endOf 2 [1] (run 2 false St.init (lostAbort 0)) = some ([some false, none, none, some false, none, some false], true, [(true, true)]) ∧
    endOf 2 [1] (run 2 true St.init (lostAbort 0)) = some ([some false, none, none, some false, none, some false], true, [(true, true)]) ∧
    endOf 2 [1] (run 2 true St.init (lostAbort 1)) = some ([some false, none, none, some false, none, some false], true, [(true, true)]) ∧
    (Table.init.run [.wait 1 100, .update 10, .abort 1, .wait 1 100, .update 1, .wait 1 100]).1 = [some false, none, none, some true, none, some false] ∧
    (Table.init.run [.wait 1 100, .update 10, .wait 1 100, .abort 1, .update 1, .wait 1 100]).1 = [some false, none, some false, none, none, some true] := by
  refine ⟨?_, ?_, ?_, ?_, ?_⟩ <;> decide +kernel

/-- What is left of the delay of entry 0. -/
def leftIn : Res St → Option Nat
  | .ok s => some (s.tab.delays 0)
  | .ub => none

/-- **C143 fails**: of a delay of 100 that was aborted, 4294967285 are left. -/
theorem c143_wraps_fails : leftIn (run 2 true St.init (lostAbort 0)) = some 4294967285 ∧ leftIn (run 2 false St.init (lostAbort 0)) = some 89 := by
  constructor <;> decide +kernel

/-- Main code counts the delay of id 1 down by 10; before it has read what is left a handler updates the time, 130 have passed. -/
def lateUpdate : List DelaysInterrupt.Ev :=
  [.begin 1 100, .main, .main, .main, .main, .main, .call (.update 10), .begin 1 100, .main, .main, .handler (.update 130), .main, .main]

/-- **C143 fails** for a handler that updates the time: of a delay of 100, 4294967266 are left when 130 have passed. -/
theorem c143_update_fails : leftIn (run 2 true St.init lateUpdate) = some 4294967266 ∧ leftIn (run 2 false St.init lateUpdate) = some 90 := by
  constructor <;> decide +kernel

/-- **C143.** The claim in full, for handlers at any place, is false. -/
theorem c143_full_claim_is_false : ¬ ∀ (N : Nat) (reload : Bool) (S : List Nat) (es : List DelaysInterrupt.Ev), Room N S → AtEach N reload (SensibleCall S) St.init es → Served N reload S es := by
  intro h
  obtain ⟨s, h1, _, _, _, h5⟩ := h 2 false [1, 2] lostDelay ⟨by decide, by decide⟩ (by decide +kernel)
  have h6 := c143_lost_fails false
  rw [h1] at h6
  simp only [endOf, Option.some.injEq, Prod.mk.injEq, decide_eq_true_eq, List.map_cons, List.map_nil, List.cons.injEq] at h6
  have h7 := h5 h6.2.1 2 (by decide)
  rw [h6.2.2.2.1.1, h6.2.2.2.1.2] at h7
  cases h7

example : Room 2 [1, 2] ∧ AtEach 2 false (SensibleCall [1, 2]) St.init lostDelay ∧ AtEach 2 true (SensibleCall [1, 2]) St.init (lostAbort 0) := ⟨⟨by decide, by decide⟩, by decide +kernel, by decide +kernel⟩

end Atl.Props
