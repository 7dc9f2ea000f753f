import Verif.Model.Task
import Verif.Spec.Task

/- Property theorems C62: the task macros. -/
namespace Atl.Props
open Atl.Task Atl.Spec.Task

variable {σ : Type}

theorem exec_mono (w n : Nat) (k : List (Stmt σ)) (st : St σ) (r) (h : exec w n k st = some r) : exec w (n + 1) k st = some r := by
  induction n generalizing k st with
  | zero => simp [exec] at h
  | succ n ih =>
    cases k with
    | nil => simpa [exec] using h
    | cons c k =>
      cases c <;> first | (rw [exec] at h ⊢; exact ih _ _ h) | (simpa [exec] using h)

theorem exec_mono' (w n m : Nat) (hm : n ≤ m) (k : List (Stmt σ)) (st : St σ) (r) (h : exec w n k st = some r) : exec w m k st = some r := by
  induction hm with
  | refl => exact h
  | step _ ih => exact exec_mono w _ k st r ih

/-- `p` occurs in `body` and is followed there by `k`. -/
inductive Occurs (body : Prog σ) : Prog σ → List (Prog σ) → Prop where
  | here : Occurs body body []
  | seqL {a b k} : Occurs body (.seq a b) k → Occurs body a (b :: k)
  | seqR {a b k} : Occurs body (.seq a b) k → Occurs body b k
  | iteL {e a b k} : Occurs body (.ite e a b) k → Occurs body a k
  | iteR {e a b k} : Occurs body (.ite e a b) k → Occurs body b k
  | loopW {e a k} : Occurs body (.while e a) k → Occurs body (.again e id a) k
  | loopF {e f a k} : Occurs body (.for e f a) k → Occurs body (.again e f a) k
  | loopD {e a k} : Occurs body (.doWhile a e) k → Occurs body (.again e id a) k
  | round {e f a k} : Occurs body (.again e f a) k → Occurs body a (.again e f a :: k)
  | sw {v a k} : Occurs body (.switch v a) k → Occurs body a (.swEnd :: k)
  | swEnd {v a k} : Occurs body (.switch v a) k → Occurs body .swEnd k

/-- What is left of a body at some point. -/
inductive Rest (body : Prog σ) : List (Prog σ) → Prop where
  | nil : Rest body []
  | cons {p k} : Occurs body p k → Rest body k → Rest body (p :: k)

theorem Occurs.rest {body p : Prog σ} {k} (h : Occurs body p k) : Rest body k := by
  induction h with
  | here => exact .nil
  | seqL h ih => exact .cons (.seqR h) ih
  | seqR h ih => exact ih
  | iteL h ih => exact ih
  | iteR h ih => exact ih
  | loopW h ih => exact ih
  | loopF h ih => exact ih
  | loopD h ih => exact ih
  | round h ih => exact .cons h ih
  | sw h ih => exact .cons (.swEnd h) ih
  | swEnd h ih => exact ih

theorem Rest.leave {body : Prog σ} {k} (h : Rest body k) : Rest body (leave k) := by
  induction h with
  | nil => exact .nil
  | @cons p k _ hk ih => cases p <;> first | exact hk | exact ih

theorem Rest.next {body : Prog σ} {k} (h : Rest body k) : Rest body (next k) := by
  induction h with
  | nil => exact .nil
  | @cons p k ho hk ih => cases p <;> first | exact ih | exact .cons ho hk

theorem Occurs.behind {body p : Prog σ} {k} (h : Occurs body p k) (n : Nat) (r) (hr : behind n p k = some r) : Rest body r := by
  induction p generalizing k with
  | case m =>
    simp only [Spec.Task.behind] at hr
    split at hr
    · cases hr; exact h.rest
    · cases hr
  | seq a b iha ihb =>
    simp only [Spec.Task.behind] at hr
    split at hr
    · rename_i hx; cases hr; exact iha (.seqL h) hx
    · exact ihb (.seqR h) hr
  | ite e a b iha ihb =>
    simp only [Spec.Task.behind] at hr
    split at hr
    · rename_i hx; cases hr; exact iha (.iteL h) hx
    · exact ihb (.iteR h) hr
  | «while» e a ih => exact ih (.round (.loopW h)) hr
  | «for» e f a ih => exact ih (.round (.loopF h)) hr
  | doWhile a e ih => exact ih (.round (.loopD h)) hr
  | again e f a ih => exact ih (.round h) hr
  | _ => simp [Spec.Task.behind] at hr

theorem map_leave (k : List (Prog σ)) : (leave k).map Prog.expand = Stmt.leave (k.map Prog.expand) := by
  induction k with
  | nil => rfl
  | cons p k ih => cases p <;> first | rfl | exact ih

theorem map_next (k : List (Prog σ)) : (next k).map Prog.expand = Stmt.next (k.map Prog.expand) := by
  induction k with
  | nil => rfl
  | cons p k ih => cases p <;> first | rfl | exact ih

/-- Whether the macros with a label and the `case` labels are where they belong: the macros in no nested `switch`, the `case` labels in one. -/
def Nested : Bool → Prog σ → Prop
  | inner, .yield _ => inner = false
  | inner, .yieldUntil _ _ => inner = false
  | inner, .waitUntil _ _ => inner = false
  | inner, .case _ => inner = true
  | inner, .seq a b => Nested inner a ∧ Nested inner b
  | inner, .ite _ a b => Nested inner a ∧ Nested inner b
  | inner, .while _ a => Nested inner a
  | inner, .for _ _ a => Nested inner a
  | inner, .doWhile a _ => Nested inner a
  | inner, .again _ _ a => Nested inner a
  | _, .switch _ a => Nested true a
  | _, _ => True

theorem Nested.lines {p : Prog σ} (h : Nested true p) : p.lines = [] := by
  induction p with
  | yield _ => cases h
  | yieldUntil _ _ => cases h
  | waitUntil _ _ => cases h
  | seq a b iha ihb => simp only [Prog.lines, iha h.1, ihb h.2, List.append_nil]
  | ite e a b iha ihb => simp only [Prog.lines, iha h.1, ihb h.2, List.append_nil]
  | «while» e a ih => exact ih h
  | «for» e f a ih => exact ih h
  | doWhile a e ih => exact ih h
  | switch v a ih => exact ih h
  | again e f a ih => exact ih h
  | _ => rfl

theorem Occurs.nested {body p : Prog σ} {k} (h : Occurs body p k) (hb : Nested false body) : Nested true p ∨ Nested false p := by
  induction h with
  | here => exact Or.inr hb
  | seqL h ih => exact ih.imp (·.1) (·.1)
  | seqR h ih => exact ih.imp (·.2) (·.2)
  | iteL h ih => exact ih.imp (·.1) (·.1)
  | iteR h ih => exact ih.imp (·.2) (·.2)
  | loopW h ih => exact ih
  | loopF h ih => exact ih
  | loopD h ih => exact ih
  | round h ih => exact ih
  | sw h ih => rcases ih with h | h <;> exact Or.inl h
  | swEnd h ih => exact Or.inr trivial

/-- A nested `switch` finds in the expanded code what it finds in the source. -/
theorem find_case (n : Nat) (p : Prog σ) (h : Nested true p) (k : List (Prog σ)) :
    Stmt.find n p.expand (k.map Prog.expand) = (behind n p k).map (List.map Prog.expand) := by
  induction p generalizing k with
  | yield _ => cases h
  | yieldUntil _ _ => cases h
  | waitUntil _ _ => cases h
  | case m => simp only [Prog.expand, Stmt.find, Spec.Task.behind]; split <;> rfl
  | seq a b iha ihb =>
    simp only [Prog.expand, Stmt.find, Spec.Task.behind]
    have := iha h.1 (b :: k)
    rw [List.map_cons] at this
    rw [this, ihb h.2 k]
    cases Spec.Task.behind n a (b :: k) <;> rfl
  | ite e a b iha ihb =>
    simp only [Prog.expand, Stmt.find, Spec.Task.behind]
    rw [iha h.1 k, ihb h.2 k]
    cases Spec.Task.behind n a k <;> rfl
  | «while» e a ih => exact ih h (.again e id a :: k)
  | «for» e f a ih => exact ih h (.again e f a :: k)
  | doWhile a e ih => exact ih h (.again e id a :: k)
  | again e f a ih => exact ih h (.again e f a :: k)
  | _ => rfl

theorem find_none (n : Nat) (p : Prog σ) (hn : Nested false p) (k : List (Stmt σ)) (h : n ∉ p.lines) : Stmt.find n p.expand k = none := by
  induction p generalizing k with
  | skip => rfl
  | act f => rfl
  | ret => rfl
  | brk => rfl
  | cont => rfl
  | swEnd => rfl
  | switch v a => rfl
  | case m => cases hn
  | yield m => simp only [Prog.lines, List.mem_singleton] at h; simp [Prog.expand, Stmt.yield, Stmt.yieldUntil, Stmt.find, h]
  | yieldUntil m e => simp only [Prog.lines, List.mem_singleton] at h; simp [Prog.expand, Stmt.yieldUntil, Stmt.find, h]
  | waitUntil m e => simp only [Prog.lines, List.mem_singleton] at h; simp [Prog.expand, Stmt.waitUntil, Stmt.find, h]
  | seq a b iha ihb =>
    simp only [Prog.lines, List.mem_append, not_or] at h
    simp only [Prog.expand, Stmt.find, iha hn.1 _ h.1, ihb hn.2 _ h.2]
  | ite e a b iha ihb =>
    simp only [Prog.lines, List.mem_append, not_or] at h
    simp only [Prog.expand, Stmt.find, iha hn.1 _ h.1, ihb hn.2 _ h.2]
  | «while» e a ih => exact ih hn _ h
  | «for» e f a ih => exact ih hn _ h
  | doWhile a e ih => exact ih hn _ h
  | again e f a ih => exact ih hn _ h

theorem Occurs.sub {body p : Prog σ} {k} (h : Occurs body p k) : p.lines.Sublist body.lines := by
  induction h with
  | here => exact List.Sublist.refl _
  | seqL h ih => exact (List.sublist_append_left _ _).trans ih
  | seqR h ih => exact (List.sublist_append_right _ _).trans ih
  | iteL h ih => exact (List.sublist_append_left _ _).trans ih
  | iteR h ih => exact (List.sublist_append_right _ _).trans ih
  | loopW h ih => exact ih
  | loopF h ih => exact ih
  | loopD h ih => exact ih
  | round h ih => exact ih
  | sw h ih => exact ih
  | swEnd h ih => exact List.nil_sublist _

theorem find_some (n : Nat) (p : Prog σ) (hp : Nested false p) (k : List (Stmt σ)) (h : n ∈ p.lines) : ∃ r, Stmt.find n p.expand k = some r := by
  induction p generalizing k with
  | yield m => simp only [Prog.lines, List.mem_singleton] at h; simp [Prog.expand, Stmt.yield, Stmt.yieldUntil, Stmt.find, h]
  | yieldUntil m e => simp only [Prog.lines, List.mem_singleton] at h; simp [Prog.expand, Stmt.yieldUntil, Stmt.find, h]
  | waitUntil m e => simp only [Prog.lines, List.mem_singleton] at h; simp [Prog.expand, Stmt.waitUntil, Stmt.find, h]
  | seq a b iha ihb =>
    simp only [Prog.expand, Stmt.find]
    by_cases ha : n ∈ a.lines
    · obtain ⟨r, hr⟩ := iha hp.1 (b.expand :: k) ha
      exact ⟨r, by rw [hr]⟩
    · rw [find_none n a hp.1 _ ha]
      exact ihb hp.2 _ ((List.mem_append.1 h).resolve_left ha)
  | ite e a b iha ihb =>
    simp only [Prog.expand, Stmt.find]
    by_cases ha : n ∈ a.lines
    · obtain ⟨r, hr⟩ := iha hp.1 k ha
      exact ⟨r, by rw [hr]⟩
    · rw [find_none n a hp.1 _ ha]
      exact ihb hp.2 _ ((List.mem_append.1 h).resolve_left ha)
  | «while» e a ih => exact ih hp _ h
  | «for» e f a ih => exact ih hp _ h
  | doWhile a e ih => exact ih hp _ h
  | again e f a ih => exact ih hp _ h
  | switch v a =>
    have : a.lines = [] := Nested.lines hp
    simp [Prog.lines, this] at h
  | _ => simp [Prog.lines] at h

theorem Occurs.outer {body p : Prog σ} {k} (h : Occurs body p k) (hb : Nested false body) {n : Nat} (hn : n ∈ p.lines) : Nested false p := by
  rcases h.nested hb with hx | hx
  · rw [hx.lines] at hn; cases hn
  · exact hx

/-- The `switch` finds a label where it stands in the body. -/
theorem Occurs.find {body p : Prog σ} {k} (h : Occurs body p k) (hb : Nested false body) (hd : body.lines.Nodup) (n : Nat) (hn : n ∈ p.lines) :
    Stmt.find n body.expand [] = Stmt.find n p.expand (k.map Prog.expand) := by
  induction h with
  | here => rfl
  | @seqL a b k h ih =>
    have hm : n ∈ (Prog.seq a b).lines := by simp [Prog.lines, hn]
    rw [ih hm]
    simp only [Prog.expand, Stmt.find, List.map_cons]
    obtain ⟨r, hr⟩ := find_some n a (h.outer hb hm).1 (b.expand :: k.map Prog.expand) hn
    rw [hr]
  | @seqR a b k h ih =>
    have hm : n ∈ (Prog.seq a b).lines := by simp [Prog.lines, hn]
    rw [ih hm]
    have := (h.sub.nodup hd)
    simp only [Prog.lines, List.nodup_append] at this
    simp only [Prog.expand, Stmt.find]
    rw [find_none n a (h.outer hb hm).1 _ (fun hx => this.2.2 n hx n hn rfl)]
  | @iteL e a b k h ih =>
    have hm : n ∈ (Prog.ite e a b).lines := by simp [Prog.lines, hn]
    rw [ih hm]
    simp only [Prog.expand, Stmt.find]
    obtain ⟨r, hr⟩ := find_some n a (h.outer hb hm).1 (k.map Prog.expand) hn
    rw [hr]
  | @iteR e a b k h ih =>
    have hm : n ∈ (Prog.ite e a b).lines := by simp [Prog.lines, hn]
    rw [ih hm]
    have := (h.sub.nodup hd)
    simp only [Prog.lines, List.nodup_append] at this
    simp only [Prog.expand, Stmt.find]
    rw [find_none n a (h.outer hb hm).1 _ (fun hx => this.2.2 n hx n hn rfl)]
  | @loopW e a k h ih => rw [ih hn]; rfl
  | @loopF e f a k h ih => rw [ih hn]; rfl
  | @loopD e a k h ih => rw [ih hn]; rfl
  | @round e f a k h ih => rw [ih hn]; rfl
  | @sw v a k h ih =>
    have : Nested true a := by rcases h.nested hb with hx | hx <;> exact hx
    rw [this.lines] at hn
    cases hn
  | swEnd h ih => cases hn

/-- The tests after `case n:` of `Task_YieldUntil` and `Task_WaitUntil`. -/
def IsTest (e : Expr σ) (c : Stmt σ) : Prop :=
  c = .ite (Stmt.yieldOrNot e) (.ret true) .skip ∨ c = .ite (fun _ s => (!(e s).1, (e s).2)) (.ret true) .skip

/-- The task variable stands for a suspended task. -/
inductive Stands (body : Prog σ) : Nat → Susp σ → Prop where
  | start : Stands body 0 .start
  | waiting {n e k c} : n ≠ 0 → Rest body k → IsTest e c → Stmt.find n body.expand [] = some (c :: k.map Prog.expand) → Stands body n (.waiting e k)

/-- The conditions the compiler and the documentation put on a task body: every label is on a line of its own, lines fit in `_task`;
    and the macros are in no nested `switch`. -/
def ValidLines (width : Nat) (body : Prog σ) : Prop := body.lines.Nodup ∧ (∀ n ∈ body.lines, n ≠ 0 ∧ n < 2 ^ width) ∧ Nested false body

theorem exec_test (w n : Nat) (e : Expr σ) (c : Stmt σ) (hc : IsTest e c) (k : List (Stmt σ)) (t : Nat) (s : σ) :
    exec w (n + 2) (c :: k) ⟨t, false, s⟩ = if (e s).1 then exec w n k ⟨t, false, (e s).2⟩ else some (true, ⟨t, false, (e s).2⟩) := by
  rcases hc with rfl | rfl <;> cases h : (e s).1 <;> simp [exec, Stmt.yieldOrNot, h]

/-- What a run of the model yields, seen by the specification. -/
def Agree (body : Prog σ) (r : Bool × St σ) (q : Bool × Susp σ × σ) : Prop := r.1 = q.1 ∧ r.2.s = q.2.2 ∧ Stands body r.2.task q.2.1

theorem Occurs.stands_yield {body : Prog σ} {w n e k} (h : Occurs body (.yieldUntil n e) k) (hv : ValidLines w body) :
    Stands body (n % 2 ^ w) (.waiting e k) := by
  have hm : n ∈ body.lines := h.sub.subset (by simp [Prog.lines])
  obtain ⟨h0, h1⟩ := hv.2.1 n hm
  rw [Nat.mod_eq_of_lt h1]
  refine .waiting h0 h.rest (Or.inl rfl) ?_
  rw [h.find hv.2.2 hv.1 n (by simp [Prog.lines])]
  simp [Prog.expand, Stmt.yieldUntil, Stmt.find]

theorem Occurs.stands_wait {body : Prog σ} {w n e k} (h : Occurs body (.waitUntil n e) k) (hv : ValidLines w body) :
    Stands body (n % 2 ^ w) (.waiting e k) := by
  have hm : n ∈ body.lines := h.sub.subset (by simp [Prog.lines])
  obtain ⟨h0, h1⟩ := hv.2.1 n hm
  rw [Nat.mod_eq_of_lt h1]
  refine .waiting h0 h.rest (Or.inr rfl) ?_
  rw [h.find hv.2.2 hv.1 n (by simp [Prog.lines])]
  simp [Prog.expand, Stmt.waitUntil, Stmt.find]

theorem Occurs.stands_yield0 {body : Prog σ} {w n k} (h : Occurs body (.yield n) k) (hv : ValidLines w body) :
    Stands body (n % 2 ^ w) (.waiting (fun s => (true, s)) k) := by
  have hm : n ∈ body.lines := h.sub.subset (by simp [Prog.lines])
  obtain ⟨h0, h1⟩ := hv.2.1 n hm
  rw [Nat.mod_eq_of_lt h1]
  refine .waiting h0 h.rest (Or.inl rfl) ?_
  rw [h.find hv.2.2 hv.1 n (by simp [Prog.lines])]
  simp [Prog.expand, Stmt.yield, Stmt.yieldUntil, Stmt.find]

theorem switch_map (v : σ → Nat × σ) (a : Prog σ) (hn : Nested true a) (k : List (Prog σ)) (s : σ) :
    (Stmt.find (v s).1 a.expand (.swEnd :: k.map Prog.expand)).getD (k.map Prog.expand) = ((behind (v s).1 a (.swEnd :: k)).getD k).map Prog.expand := by
  have := find_case (v s).1 a hn (.swEnd :: k)
  rw [List.map_cons] at this
  simp only [Prog.expand] at this
  rw [this]
  cases behind (v s).1 a (.swEnd :: k) <;> rfl

/-- The specification's run is matched by the expanded code. -/
theorem run_sim (w : Nat) (body : Prog σ) (hv : ValidLines w body) (n : Nat) (k : List (Prog σ)) (hk : Rest body k) (t : Nat) (s : σ) (q)
    (h : run n k s = some q) : ∃ m r, exec w m (k.map Prog.expand) ⟨t, false, s⟩ = some r ∧ Agree body r q := by
  induction n generalizing k t s with
  | zero => simp [run] at h
  | succ n ih =>
    cases hk with
    | nil =>
      simp only [run, Option.some.injEq] at h
      subst h
      exact ⟨1, _, rfl, rfl, rfl, .start⟩
    | @cons p k ho hk =>
      cases p with
      | skip =>
        obtain ⟨m, r, h1, h2⟩ := ih k hk t s h
        exact ⟨m + 1, r, h1, h2⟩
      | act f =>
        obtain ⟨m, r, h1, h2⟩ := ih k hk t (f s) h
        exact ⟨m + 1, r, h1, h2⟩
      | yield l =>
        simp only [run, Option.some.injEq] at h
        subst h
        exact ⟨9, _, rfl, rfl, rfl, ho.stands_yield0 hv⟩
      | yieldUntil l e =>
        simp only [run, Option.some.injEq] at h
        subst h
        exact ⟨9, _, rfl, rfl, rfl, ho.stands_yield hv⟩
      | waitUntil l e =>
        simp only [run, test] at h
        have hx : ∀ m, exec w (m + 6) (((Prog.waitUntil l e) :: k).map Prog.expand) ⟨t, false, s⟩ =
            exec w (m + 2) (.ite (fun _ s => (!(e s).1, (e s).2)) (.ret true) .skip :: k.map Prog.expand) ⟨l % 2 ^ w, false, s⟩ := fun m => rfl
        cases hb : e s with
        | mk b s' =>
          rw [hb] at h
          cases b with
          | true =>
            obtain ⟨m, r, h1, h2⟩ := ih k hk (l % 2 ^ w) s' h
            refine ⟨m + 6, r, ?_, h2⟩
            rw [hx, exec_test w m e _ (Or.inr rfl), hb]
            exact h1
          | false =>
            simp only [Option.some.injEq] at h
            subst h
            refine ⟨6, (true, ⟨l % 2 ^ w, false, s'⟩), ?_, rfl, rfl, ho.stands_wait hv⟩
            rw [hx 0, exec_test w 0 e _ (Or.inr rfl), hb]
            rfl
      | ret =>
        simp only [run, Option.some.injEq] at h
        subst h
        refine ⟨3, _, rfl, rfl, rfl, ?_⟩
        simpa using Stands.start
      | seq a b =>
        obtain ⟨m, r, h1, h2⟩ := ih (a :: b :: k) (.cons (.seqL ho) (.cons (.seqR ho) hk)) t s h
        exact ⟨m + 1, r, h1, h2⟩
      | ite e a b =>
        simp only [run] at h
        cases hb : e s with
        | mk c s' =>
          rw [hb] at h
          cases c with
          | true =>
            obtain ⟨m, r, h1, h2⟩ := ih (a :: k) (.cons (.iteL ho) hk) t s' h
            refine ⟨m + 1, r, ?_, h2⟩
            simpa [exec, Prog.expand, hb] using h1
          | false =>
            obtain ⟨m, r, h1, h2⟩ := ih (b :: k) (.cons (.iteR ho) hk) t s' h
            refine ⟨m + 1, r, ?_, h2⟩
            simpa [exec, Prog.expand, hb] using h1
      | «while» e a =>
        simp only [run] at h
        cases hb : e s with
        | mk c s' =>
          rw [hb] at h
          cases c with
          | true =>
            obtain ⟨m, r, h1, h2⟩ := ih (a :: .again e id a :: k) (.cons (.round (.loopW ho)) (.cons (.loopW ho) hk)) t s' h
            refine ⟨m + 1, r, ?_, h2⟩
            simpa [exec, Prog.expand, hb] using h1
          | false =>
            obtain ⟨m, r, h1, h2⟩ := ih k hk t s' h
            refine ⟨m + 1, r, ?_, h2⟩
            simpa [exec, Prog.expand, hb] using h1
      | «for» e f a =>
        simp only [run] at h
        cases hb : e s with
        | mk c s' =>
          rw [hb] at h
          cases c with
          | true =>
            obtain ⟨m, r, h1, h2⟩ := ih (a :: .again e f a :: k) (.cons (.round (.loopF ho)) (.cons (.loopF ho) hk)) t s' h
            refine ⟨m + 1, r, ?_, h2⟩
            simpa [exec, Prog.expand, hb] using h1
          | false =>
            obtain ⟨m, r, h1, h2⟩ := ih k hk t s' h
            refine ⟨m + 1, r, ?_, h2⟩
            simpa [exec, Prog.expand, hb] using h1
      | again e f a =>
        simp only [run] at h
        cases hb : e (f s) with
        | mk c s' =>
          rw [hb] at h
          cases c with
          | true =>
            obtain ⟨m, r, h1, h2⟩ := ih (a :: .again e f a :: k) (.cons (.round ho) (.cons ho hk)) t s' h
            refine ⟨m + 1, r, ?_, h2⟩
            simpa [exec, Prog.expand, hb] using h1
          | false =>
            obtain ⟨m, r, h1, h2⟩ := ih k hk t s' h
            refine ⟨m + 1, r, ?_, h2⟩
            simpa [exec, Prog.expand, hb] using h1
      | doWhile a e =>
        obtain ⟨m, r, h1, h2⟩ := ih (a :: .again e id a :: k) (.cons (.round (.loopD ho)) (.cons (.loopD ho) hk)) t s h
        exact ⟨m + 1, r, h1, h2⟩
      | brk =>
        obtain ⟨m, r, h1, h2⟩ := ih (leave k) hk.leave t s h
        rw [map_leave] at h1
        exact ⟨m + 1, r, h1, h2⟩
      | cont =>
        obtain ⟨m, r, h1, h2⟩ := ih (next k) hk.next t s h
        rw [map_next] at h1
        exact ⟨m + 1, r, h1, h2⟩
      | case l =>
        obtain ⟨m, r, h1, h2⟩ := ih k hk t s h
        exact ⟨m + 1, r, h1, h2⟩
      | swEnd =>
        obtain ⟨m, r, h1, h2⟩ := ih k hk t s h
        exact ⟨m + 1, r, h1, h2⟩
      | switch v a =>
        have hn : Nested true a := by rcases ho.nested hv.2.2 with hx | hx <;> exact hx
        have hr : Rest body ((behind (v s).1 a (.swEnd :: k)).getD k) := by
          cases hb : behind (v s).1 a (.swEnd :: k) with
          | none => exact hk
          | some r => exact (Occurs.sw ho).behind _ _ hb
        obtain ⟨m, r, h1, h2⟩ := ih _ hr t (v s).2 h
        refine ⟨m + 1, r, ?_, h2⟩
        rw [← switch_map v a hn] at h1
        exact h1

/-- The specification returns when the code does. -/
theorem run_returns (w : Nat) (body : Prog σ) (hv : ValidLines w body) (n : Nat) (k : List (Prog σ)) (hk : Rest body k) (t : Nat) (s : σ) (r)
    (h : exec w n (k.map Prog.expand) ⟨t, false, s⟩ = some r) : ∃ q, run n k s = some q := by
  induction n using Nat.strongRecOn generalizing k t s with
  | _ n ih =>
    cases n with
    | zero => simp [exec] at h
    | succ n =>
      have up : ∀ (i : Nat) (k : List (Prog σ)) (s : σ), (∃ q, run i k s = some q) → ∀ j, i ≤ j → ∃ q, run j k s = some q := by
        intro i
        induction i with
        | zero => intro k s h; simp [run] at h
        | succ i ihi =>
          intro k s h j hj
          obtain ⟨j, rfl⟩ : ∃ j', j = j' + 1 := ⟨j - 1, by omega⟩
          cases k with
          | nil => exact ⟨_, rfl⟩
          | cons p k =>
            cases p with
            | skip => exact ihi k s h j (by omega)
            | act f => exact ihi k (f s) h j (by omega)
            | yield l => exact ⟨_, rfl⟩
            | yieldUntil l e => exact ⟨_, rfl⟩
            | ret => exact ⟨_, rfl⟩
            | seq a b => exact ihi (a :: b :: k) s h j (by omega)
            | waitUntil l e =>
              simp only [run, test] at h ⊢
              cases hb : e s with
              | mk c s' =>
                rw [hb] at h
                cases c with
                | true => exact ihi k s' h j (by omega)
                | false => exact ⟨_, rfl⟩
            | ite e a b =>
              simp only [run] at h ⊢
              cases hb : e s with
              | mk c s' =>
                rw [hb] at h
                cases c with
                | true => exact ihi (a :: k) s' h j (by omega)
                | false => exact ihi (b :: k) s' h j (by omega)
            | «while» e a =>
              simp only [run] at h ⊢
              cases hb : e s with
              | mk c s' =>
                rw [hb] at h
                cases c with
                | true => exact ihi (a :: .again e id a :: k) s' h j (by omega)
                | false => exact ihi k s' h j (by omega)
            | «for» e f a =>
              simp only [run] at h ⊢
              cases hb : e s with
              | mk c s' =>
                rw [hb] at h
                cases c with
                | true => exact ihi (a :: .again e f a :: k) s' h j (by omega)
                | false => exact ihi k s' h j (by omega)
            | again e f a =>
              simp only [run] at h ⊢
              cases hb : e (f s) with
              | mk c s' =>
                rw [hb] at h
                cases c with
                | true => exact ihi (a :: .again e f a :: k) s' h j (by omega)
                | false => exact ihi k s' h j (by omega)
            | doWhile a e => exact ihi (a :: .again e id a :: k) s h j (by omega)
            | brk => exact ihi (leave k) s h j (by omega)
            | cont => exact ihi (next k) s h j (by omega)
            | case l => exact ihi k s h j (by omega)
            | swEnd => exact ihi k s h j (by omega)
            | switch v a => exact ihi _ (v s).2 h j (by omega)
      cases hk with
      | nil => exact ⟨_, rfl⟩
      | @cons p k ho hk =>
        cases p with
        | skip => exact ih n (by omega) k hk t s h
        | act f => exact ih n (by omega) k hk t (f s) h
        | yield l => exact ⟨_, rfl⟩
        | yieldUntil l e => exact ⟨_, rfl⟩
        | ret => exact ⟨_, rfl⟩
        | seq a b => exact ih n (by omega) (a :: b :: k) (.cons (.seqL ho) (.cons (.seqR ho) hk)) t s h
        | waitUntil l e =>
          simp only [run, test]
          cases hb : e s with
          | mk c s' =>
            cases c with
            | false => exact ⟨_, rfl⟩
            | true =>
              by_cases hn : n < 5
              · have : n = 0 ∨ n = 1 ∨ n = 2 ∨ n = 3 ∨ n = 4 := by omega
                rcases this with rfl | rfl | rfl | rfl | rfl <;> simp [exec, Prog.expand, Stmt.waitUntil, hb] at h
              · obtain ⟨m, rfl⟩ : ∃ m, n = m + 5 := ⟨n - 5, by omega⟩
                have hx : exec w (m + 5 + 1) (((Prog.waitUntil l e) :: k).map Prog.expand) ⟨t, false, s⟩ =
                  exec w (m + 2) (.ite (fun _ s => (!(e s).1, (e s).2)) (.ret true) .skip :: k.map Prog.expand) ⟨l % 2 ^ w, false, s⟩ := rfl
                rw [hx, exec_test w m e _ (Or.inr rfl), hb] at h
                exact up m k s' (ih m (by omega) k hk (l % 2 ^ w) s' h) (m + 5) (by omega)
        | ite e a b =>
          simp only [run]
          cases hb : e s with
          | mk c s' =>
            cases c with
            | true => exact ih n (by omega) (a :: k) (.cons (.iteL ho) hk) t s' (by simpa [exec, Prog.expand, hb] using h)
            | false => exact ih n (by omega) (b :: k) (.cons (.iteR ho) hk) t s' (by simpa [exec, Prog.expand, hb] using h)
        | «while» e a =>
          simp only [run]
          cases hb : e s with
          | mk c s' =>
            cases c with
            | true => exact ih n (by omega) (a :: .again e id a :: k) (.cons (.round (.loopW ho)) (.cons (.loopW ho) hk)) t s' (by simpa [exec, Prog.expand, hb] using h)
            | false => exact ih n (by omega) k hk t s' (by simpa [exec, Prog.expand, hb] using h)
        | «for» e f a =>
          simp only [run]
          cases hb : e s with
          | mk c s' =>
            cases c with
            | true => exact ih n (by omega) (a :: .again e f a :: k) (.cons (.round (.loopF ho)) (.cons (.loopF ho) hk)) t s' (by simpa [exec, Prog.expand, hb] using h)
            | false => exact ih n (by omega) k hk t s' (by simpa [exec, Prog.expand, hb] using h)
        | again e f a =>
          simp only [run]
          cases hb : e (f s) with
          | mk c s' =>
            cases c with
            | true => exact ih n (by omega) (a :: .again e f a :: k) (.cons (.round ho) (.cons ho hk)) t s' (by simpa [exec, Prog.expand, hb] using h)
            | false => exact ih n (by omega) k hk t s' (by simpa [exec, Prog.expand, hb] using h)
        | doWhile a e => exact ih n (by omega) (a :: .again e id a :: k) (.cons (.round (.loopD ho)) (.cons (.loopD ho) hk)) t s h
        | brk => exact ih n (by omega) (leave k) hk.leave t s (by rw [map_leave]; exact h)
        | cont => exact ih n (by omega) (next k) hk.next t s (by rw [map_next]; exact h)
        | case l => exact ih n (by omega) k hk t s h
        | swEnd => exact ih n (by omega) k hk t s h
        | switch v a =>
          have hn : Nested true a := by rcases ho.nested hv.2.2 with hx | hx <;> exact hx
          have hr : Rest body ((behind (v s).1 a (.swEnd :: k)).getD k) := by
            cases hb : behind (v s).1 a (.swEnd :: k) with
            | none => exact hk
            | some r => exact (Occurs.sw ho).behind _ _ hb
          exact ih n (by omega) _ hr t (v s).2 (by rw [← switch_map v a hn]; exact h)

/-- A call of the method returns `b`, with the task variable and state after it. -/
def Calls (width : Nat) (body : Stmt σ) (t : Nat) (s : σ) (b : Bool) (t' : Nat) (s' : σ) : Prop := ∃ n, call width n body t s = some (b, t', s')

/-- The coroutine suspends or ends. -/
def Resumes (body : Prog σ) (t : Susp σ) (s : σ) (b : Bool) (t' : Susp σ) (s' : σ) : Prop := ∃ n, resume n body t s = some (b, t', s')

/-- One call: the code does what the coroutine does. -/
theorem task_call (w : Nat) (body : Prog σ) (hv : ValidLines w body) (t : Nat) (u : Susp σ) (hs : Stands body t u) (s : σ) (b : Bool) (u' : Susp σ) (s' : σ)
    (h : Resumes body u s b u' s') : ∃ t', Calls w body.expand t s b t' s' ∧ Stands body t' u' := by
  obtain ⟨n, h⟩ := h
  cases hs with
  | start =>
    obtain ⟨m, r, h1, h2, h3, h4⟩ := run_sim w body hv n [body] (.cons .here .nil) 0 s _ h
    have h2' : r.1 = b := h2
    have h3' : r.2.s = s' := h3
    refine ⟨r.2.task, ⟨m, ?_⟩, h4⟩
    have h1' : exec w m [body.expand] ⟨0, false, s⟩ = some r := h1
    simp [call, h1', h2', h3']
  | @waiting t e k c h0 hk hc hf =>
    simp only [resume, test] at h
    have hcall : ∀ m, call w (m + 2) body.expand t s = (if (e s).1 then exec w m (k.map Prog.expand) ⟨t, false, (e s).2⟩ else some (true, ⟨t, false, (e s).2⟩)).map
        fun r => (r.1, r.2.task, r.2.s) := by
      intro m
      simp only [call, if_neg h0, hf, Option.getD_some, exec_test w m e c hc]
    cases hb : e s with
    | mk v s1 =>
      rw [hb] at h
      cases v with
      | true =>
        obtain ⟨m, r, h1, h2, h3, h4⟩ := run_sim w body hv n k hk t s1 _ h
        have h2' : r.1 = b := h2
        have h3' : r.2.s = s' := h3
        refine ⟨r.2.task, ⟨m + 2, ?_⟩, h4⟩
        rw [hcall, hb]
        simp [h1, h2', h3']
      | false =>
        simp only [Option.some.injEq, Prod.mk.injEq] at h
        obtain ⟨rfl, rfl, rfl⟩ := h
        refine ⟨t, ⟨2, ?_⟩, .waiting h0 hk hc hf⟩
        rw [hcall 0, hb]
        rfl

/-- One call: the coroutine returns whenever the code does. -/
theorem task_returns (w : Nat) (body : Prog σ) (hv : ValidLines w body) (t : Nat) (u : Susp σ) (hs : Stands body t u) (s : σ) (b : Bool) (t' : Nat) (s' : σ)
    (h : Calls w body.expand t s b t' s') : ∃ b' u' s'', Resumes body u s b' u' s'' := by
  obtain ⟨n, h⟩ := h
  cases hs with
  | start =>
    simp only [call, if_true] at h
    cases hx : exec w n [body.expand] ⟨0, false, s⟩ with
    | none => rw [hx] at h; simp at h
    | some r =>
      obtain ⟨q, hq⟩ := run_returns w body hv n [body] (.cons .here .nil) 0 s r hx
      exact ⟨q.1, q.2.1, q.2.2, n, hq⟩
  | @waiting t e k c h0 hk hc hf =>
    cases hb : e s with
    | mk v s1 =>
      cases v with
      | false => exact ⟨true, .waiting e k, s1, 0, by simp [resume, test, hb]⟩
      | true =>
        have h' := h
        simp only [call, if_neg h0, hf, Option.getD_some] at h'
        cases hx : exec w n (c :: k.map Prog.expand) ⟨t, false, s⟩ with
        | none => rw [hx] at h'; simp at h'
        | some r =>
          have h2 := exec_mono' w n (n + 2) (by omega) _ _ _ hx
          rw [exec_test w n e c hc, hb] at h2
          obtain ⟨q, hq⟩ := run_returns w body hv n k hk t s1 r h2
          exact ⟨q.1, q.2.1, q.2.2, n, by simp [resume, test, hb, hq]⟩

theorem calls_unique {w : Nat} {body : Stmt σ} {t : Nat} {s : σ} {b b' : Bool} {t1 t2 : Nat} {s1 s2 : σ}
    (h : Calls w body t s b t1 s1) (g : Calls w body t s b' t2 s2) : b = b' ∧ t1 = t2 ∧ s1 = s2 := by
  obtain ⟨n, h⟩ := h
  obtain ⟨m, g⟩ := g
  simp only [call, Option.map_eq_some_iff] at h g
  obtain ⟨r, h1, h2⟩ := h
  obtain ⟨q, g1, g2⟩ := g
  have e1 := exec_mono' w n (n + m) (by omega) _ _ _ h1
  have e2 := exec_mono' w m (n + m) (by omega) _ _ _ g1
  rw [e1, Option.some.injEq] at e2
  subst e2
  rw [h2] at g2
  simpa using g2

/-- **C62.** Every task body, any nesting of blocks, branches and loops, any conditions (with side effects), any changes of the program state between
    the calls: the calls of the method return the same results with the same states as the coroutine, and one returns if and only if the other does. -/
theorem c62_coroutine (w : Nat) (body : Prog σ) (hv : ValidLines w body) (s : σ) (fs : List (σ → σ)) (outs : List (Bool × σ)) :
    History (Calls w body.expand) 0 s fs outs ↔ History (Resumes body) .start s fs outs := by
  have key : ∀ (t : Nat) (u : Susp σ), Stands body t u → ∀ s fs outs, History (Calls w body.expand) t s fs outs ↔ History (Resumes body) u s fs outs := by
    intro t u hs s fs
    induction fs generalizing t u s with
    | nil =>
      intro outs
      constructor <;> intro h <;> cases h <;> constructor
    | cons f fs ih =>
      intro outs
      constructor
      · intro h
        cases h with
        | @cons _ t' _ s' b _ _ outs h1 h2 =>
          obtain ⟨b', u', s'', hr⟩ := task_returns w body hv t u hs _ _ _ _ h1
          obtain ⟨t'', g1, g2⟩ := task_call w body hv t u hs _ _ _ _ hr
          obtain ⟨rfl, rfl, rfl⟩ := calls_unique h1 g1
          exact .cons hr ((ih _ _ g2 _ _).1 h2)
      · intro h
        cases h with
        | @cons _ u' _ s' b _ _ outs h1 h2 =>
          obtain ⟨t', g1, g2⟩ := task_call w body hv t u hs _ _ _ _ h1
          exact .cons g1 ((ih _ _ g2 _ _).2 h2)
  exact key 0 .start .start s fs outs

/-- A loop with all macros: count, yield, wait for the flag, count; the second component counts the evaluations of the flag. -/
def demo : Prog (Nat × Nat × Bool) :=
  .while (fun s => (s.1 < 100, s))
    (.seq (.act fun s => (s.1 + 1, s.2)) (.seq (.yield 11) (.seq (.yieldUntil 12 fun s => (s.2.2, (s.1, s.2.1 + 1, s.2.2))) (.waitUntil 13 fun s => (s.2.2, (s.1, s.2.1 + 1, s.2.2))))))

example : ValidLines 16 demo := ⟨by decide, by decide, by simp [demo, Nested]⟩

/-- Three calls: the first two only yield; the third evaluates the flag, false, and stays. -/
example : History (Calls 16 demo.expand) 0 (0, 0, false) [id, id, id] [(true, 1, 0, false), (true, 1, 0, false), (true, 1, 1, false)] :=
  .cons (t' := 11) ⟨30, by decide +kernel⟩ (.cons (t' := 12) ⟨30, by decide +kernel⟩ (.cons (t' := 12) ⟨30, by decide +kernel⟩ (.nil _ _)))

/-- **C62.** `Yield` suspends once: it returns true without doing anything else, and the next call goes on with what follows. -/
theorem c62_yield_once (w line : Nat) (h0 : line ≠ 0) (h1 : line < 2 ^ w) (f g : σ → σ) (s : σ) (env : σ → σ) :
    History (Calls w (Prog.expand (.seq (.act f) (.seq (.yield line) (.act g))))) 0 s [id, env] [(true, f s), (false, g (env (f s)))] := by
  rw [c62_coroutine w _ (by simp [ValidLines, Prog.lines, Nested, h0, h1])]
  exact .cons (t' := .waiting (fun s => (true, s)) [.act g]) ⟨9, rfl⟩ (.cons (t' := .start) ⟨9, rfl⟩ (.nil _ _))

/-- **C62.** `WaitUntil` does not suspend when the condition holds already, and evaluates it once. -/
theorem c62_wait_immediate (w line : Nat) (h0 : line ≠ 0) (h1 : line < 2 ^ w) (e : Expr σ) (f g : σ → σ) (s : σ) (h : (e (f s)).1 = true) :
    History (Calls w (Prog.expand (.seq (.act f) (.seq (.waitUntil line e) (.act g))))) 0 s [id] [(false, g (e (f s)).2)] := by
  rw [c62_coroutine w _ (by simp [ValidLines, Prog.lines, Nested, h0, h1])]
  refine .cons (t' := .start) ⟨9, ?_⟩ (.nil _ _)
  cases hb : e (f s) with
  | mk v s' =>
    rw [hb] at h
    simp only at h
    subst h
    simp [resume, run, test, hb]

example := c62_wait_immediate 16 42 (by decide) (by decide) (fun s : Nat => (3 ≤ s, s + 10)) (· + 1) (· + 100) 2 (by decide)

/-- The states after `n` later calls of a task waiting for `e`, while it does not hold. -/
def waitStates (e : Expr σ) (s : σ) : List (σ → σ) → List σ
  | [] => []
  | f :: fs => (e (f s)).2 :: waitStates e (e (f s)).2 fs

/-- The condition is false at each of these calls. -/
def allFalse (e : Expr σ) (s : σ) : List (σ → σ) → Prop
  | [] => True
  | f :: fs => (e (f s)).1 = false ∧ allFalse e (e (f s)).2 fs

/-- **C62.** `YieldUntil` suspends at least once without evaluating the condition; each later call evaluates it exactly once, for as long as it is false. -/
theorem c62_yield_until (w line : Nat) (h0 : line ≠ 0) (h1 : line < 2 ^ w) (e : Expr σ) (g : σ → σ) (s : σ) (fs : List (σ → σ)) (h : allFalse e s fs) :
    History (Calls w (Prog.expand (.seq (.yieldUntil line e) (.act g)))) 0 s (id :: fs) ((true, s) :: (waitStates e s fs).map fun x => (true, x)) := by
  rw [c62_coroutine w _ (by simp [ValidLines, Prog.lines, Nested, h0, h1])]
  refine .cons (t' := .waiting e [.act g]) ⟨9, rfl⟩ ?_
  induction fs generalizing s with
  | nil => exact .nil _ _
  | cons f fs ih =>
    refine .cons (t' := .waiting e [.act g]) ⟨9, ?_⟩ (ih _ h.2)
    cases hb : e (f s) with
    | mk v s' =>
      have := h.1
      rw [hb] at this
      simp only at this
      subst this
      simp [resume, test, hb]

example := c62_yield_until 16 42 (by decide) (by decide) (fun s : Nat => (7 ≤ s, s)) (· + 100) 2 [(· + 1), (· + 1)] (by simp [allFalse])

/-- **C69 fails.** `if (c) Task_Return();` without braces: only `_task = 0;` belongs to the `if`, the task always returns. -/
theorem c69_return_fails (w n : Nat) (c : Expr σ) (after : Stmt σ) (s : σ) :
    call w (n + 7) (.seq (.seq (.ite (fun _ => c) (.setTask 0) .skip) (.ret false)) after) 0 s = some (false, 0, (c s).2) := by
  cases h : (c s).1 <;> simp [call, exec, h]

/-- **C69 fails.** `if (c) Task_WaitUntil(e);` without braces: waits also when `c` is false - and, as `_task` is then not set, the next call starts the
    task from the beginning. -/
theorem c69_wait_fails (w n line : Nat) (c e : Expr σ) (after : Stmt σ) (s : σ) (hc : (c s).1 = false) (he : (e (c s).2).1 = false) :
    call w (n + 9) (.seq (.seq (.ite (fun _ => c) (.setTask line) .skip) (.seq (.label line) (.ite (fun _ s => (!(e s).1, (e s).2)) (.ret true) .skip))) after) 0 s =
      some (true, 0, (e (c s).2).2) := by
  simp [call, exec, hc, he]

/-- **C69 fails.** `if (c) Task_YieldUntil(e);` without braces waits for `e` also when `c` is false. -/
theorem c69_yieldUntil_fails (w n line : Nat) (c e : Expr σ) (after : Stmt σ) (s : σ) (hc : (c s).1 = false) (he : (e (c s).2).1 = false) :
    call w (n + 10) (.seq (.seq (.ite (fun _ => c) .setYield .skip) (.seq (.setTask line) (.seq (.label line) (.ite (Stmt.yieldOrNot e) (.ret true) .skip)))) after) 0 s =
      some (true, line % 2 ^ w, (e (c s).2).2) := by
  simp [call, exec, Stmt.yieldOrNot, hc, he]

/-- **C69, partial.** `if (c) Task_Yield();` without braces does work: it suspends once when `c` holds and not at all otherwise. -/
theorem c69_yield_partial (w n line : Nat) (h0 : line ≠ 0) (h1 : line < 2 ^ w) (c : Expr σ) (g : σ → σ) (s : σ) :
    let code : Stmt σ := .seq (.seq (.ite (fun _ => c) .setYield .skip) (.seq (.setTask line) (.seq (.label line) (.ite (Stmt.yieldOrNot fun s => (true, s)) (.ret true) .skip)))) (.act g)
    call w (n + 13) code 0 s = (if (c s).1 then some (true, line, (c s).2) else some (false, 0, g (c s).2)) ∧
      ∀ s', call w (n + 13) code line s' = some (false, 0, g s') := by
  refine ⟨?_, fun s' => ?_⟩
  · cases h : (c s).1 <;> simp [call, exec, Stmt.yieldOrNot, h, Nat.mod_eq_of_lt h1]
  · simp [call, exec, Stmt.find, Stmt.yieldOrNot, h0]

example := c69_yield_partial 16 0 42 (by decide) (by decide) (fun s : Nat => (7 ≤ s, s)) (· + 100) 2

end Atl.Props
