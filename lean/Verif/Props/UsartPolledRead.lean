import Verif.Model.UsartPolledRead
import Verif.Props.UsartData
import Verif.Props.CriticalSectionUse

/-!
  C159: the polled receiver used by main code and by interrupt handlers.
-/
namespace Atl.Props
open Atl.Usart Atl.UsartPolledRead

namespace PolledRead

/-! ### Specification -/

/-- What is to be said about a frame: a frame error, else a parity error, else an overrun before it, else success. -/
def verdict (f : Frame) : RxResult := if f.fe then .frameError else if f.upe then .parityError else if f.dor then .dataOverRun else .success

/-- What a reader is to get for a frame: nine bits or eight of it, and its errors. -/
def report (nine : Bool) (f : Frame) : Nat × RxResult := (if nine then f.data else f.data % 256, verdict f)

/-- What the calls that reported data returned, in the order in which they returned. -/
def returned (log : List (Bool × Bool × Nat × RxResult)) : List (Nat × RxResult) := (log.filter fun c => c.2.1).map fun c => c.2.2

/-- Main code is outside of its calls, or has not yet seen a frame. -/
def Before : Pc → Prop
  | .idle | .waiting | .trying => True
  | _ => False

/-- Handlers read only then; frames have nine bits. -/
def Calm : St → List Ev → Prop
  | _, [] => True
  | y, e :: es => ((e = .handler → Before y.pc) ∧ ∀ f, e = .arrive f → f.data < 512) ∧ Calm (step y e) es

/-- How often in a history main code loads from a data register that holds no frame. -/
def emptied : St → List Ev → Nat
  | _, [] => 0
  | y, e :: es => (match e, y.pc with | .main, .data _ _ => if y.hw.rx = [] then 1 else 0 | _, _ => 0) + emptied (step y e) es

/-! ### Proofs -/

theorem run_append (y : St) (l r : List Ev) : UsartPolledRead.run y (l ++ r) = UsartPolledRead.run (UsartPolledRead.run y l) r := by
  induction l generalizing y with
  | nil => rfl
  | cons e l ih => exact ih _

theorem ret_yes (l : List (Bool × Bool × Nat × RxResult)) (m : Bool) (x : Nat × RxResult) : returned (l ++ [(m, true, x)]) = returned l ++ [x] := by simp [returned]

theorem ret_no (l : List (Bool × Bool × Nat × RxResult)) (m : Bool) (x : Nat × RxResult) : returned (l ++ [(m, false, x)]) = returned l := by simp [returned]

theorem result_is {h : Hw} {f : Frame} {r : List Frame} (hr : h.rx = f :: r) : getResult h = verdict f := by
  obtain ⟨a, b, c⟩ := flags h f r hr
  unfold getResult verdict
  rw [a, b, c]

theorem try_some {h : Hw} {f : Frame} {r : List Frame} (hr : h.rx = f :: r) (hf : f.data < 512) : Usart.tryRead h = ((true, report (h.ucsrb.getLsbD 2) f), { h with rx := r }) := by
  unfold Usart.tryRead
  rw [complete_iff, c57_read h f r hr hf, result_is hr]
  simp [hr, report]

theorem ninth_or : ∀ n : Fin 512, ((if (n : Nat).testBit 8 then 0x100 else 0) ||| (n : Nat) % 256) = n := by decide +kernel

/-- What main code knows is about the oldest frame. -/
structure Inv (nine : Bool) (y : St) : Prop where
  mode : y.hw.ucsrb.getLsbD 2 = nine
  small : ∀ f ∈ y.hw.rx, f.data < 512
  all : y.arrived.map (report nine) = returned y.log ++ y.hw.rx.map (report nine)
  at_ : match y.pc with
    | .idle | .waiting | .trying => True
    | .fe => ∃ f r, y.hw.rx = f :: r
    | .upe => ∃ f r, y.hw.rx = f :: r ∧ f.fe = false
    | .dor => ∃ f r, y.hw.rx = f :: r ∧ f.fe = false ∧ f.upe = false
    | .nine v => ∃ f r, y.hw.rx = f :: r ∧ v = verdict f
    | .ninth v => ∃ f r, y.hw.rx = f :: r ∧ v = verdict f ∧ nine = true
    | .data v hi => ∃ f r, y.hw.rx = f :: r ∧ v = verdict f ∧ hi ||| f.data % 256 = (report nine f).1

theorem inv_main {nine : Bool} {y : St} (h : Inv nine y) : Inv nine (mainStep y) := by
  obtain ⟨hw, pc, log, arr⟩ := y
  obtain ⟨h1, h2, h3, h4⟩ := h
  change hw.ucsrb.getLsbD 2 = nine at h1
  have some_ : rxComplete hw = true → ∃ f r, hw.rx = f :: r := by
    intro h
    rw [complete_iff, decide_eq_true_iff] at h
    cases hx : hw.rx with
    | nil => exact absurd hx h
    | cons f r => exact ⟨f, r, rfl⟩
  cases pc with
  | idle => exact ⟨h1, h2, h3, trivial⟩
  | waiting =>
    simp only [mainStep]
    split
    · next hc => exact ⟨h1, h2, h3, some_ hc⟩
    · exact ⟨h1, h2, h3, trivial⟩
  | trying =>
    simp only [mainStep]
    split
    · next hc => exact ⟨h1, h2, h3, some_ hc⟩
    · refine ⟨h1, h2, ?_, trivial⟩
      show arr.map _ = returned (log ++ _) ++ _
      rw [ret_no]; exact h3
  | fe =>
    obtain ⟨f, r, hr⟩ := h4
    obtain ⟨a, _, _⟩ := flags hw f r hr
    simp only [mainStep, a]
    refine ⟨h1, h2, h3, ?_⟩
    cases hf : f.fe with
    | true => exact ⟨f, r, hr, by simp [verdict, hf]⟩
    | false => exact ⟨f, r, hr, hf⟩
  | upe =>
    obtain ⟨f, r, hr, he⟩ := h4
    obtain ⟨_, _, c⟩ := flags hw f r hr
    simp only [mainStep, c]
    refine ⟨h1, h2, h3, ?_⟩
    cases hf : f.upe with
    | true => exact ⟨f, r, hr, by simp [verdict, hf, he]⟩
    | false => exact ⟨f, r, hr, he, hf⟩
  | dor =>
    obtain ⟨f, r, hr, he, hu⟩ := h4
    obtain ⟨_, b, _⟩ := flags hw f r hr
    simp only [mainStep, b]
    exact ⟨h1, h2, h3, f, r, hr, by simp [verdict, he, hu]⟩
  | nine v =>
    obtain ⟨f, r, hr, hv⟩ := h4
    simp only [mainStep, is9_eq]
    refine ⟨h1, h2, h3, ?_⟩
    rw [h1]
    cases nine with
    | true => exact ⟨f, r, hr, hv, rfl⟩
    | false => exact ⟨f, r, hr, hv, by simp [report]⟩
  | ninth v =>
    obtain ⟨f, r, hr, hv, hn⟩ := h4
    change hw.rx = f :: r at hr
    have hf : f.data < 512 := h2 f (by show f ∈ hw.rx; rw [hr]; simp)
    refine ⟨h1, h2, h3, f, r, hr, hv, ?_⟩
    show (if Usart.isTrue 1 hw.readB = true then 0x100 else 0) ||| f.data % 256 = _
    rw [isTrue_bit 1 (by omega), readB_bit1, hr, hn]
    exact ninth_or ⟨f.data, hf⟩
  | data v hi =>
    obtain ⟨f, r, hr, hv, hd⟩ := h4
    change hw.rx = f :: r at hr
    have hu : hw.readUDR = (f.data % 256, { hw with rx := r }) := by unfold Hw.readUDR; rw [hr]
    simp only [mainStep, hu]
    refine ⟨h1, fun g hg => h2 g (by show g ∈ hw.rx; rw [hr]; exact List.mem_cons_of_mem _ hg), ?_, trivial⟩
    show arr.map _ = returned (log ++ _) ++ r.map _
    rw [ret_yes, hd, hv]
    refine Eq.trans h3 ?_
    show returned log ++ hw.rx.map _ = _
    rw [hr]
    simp [report]

theorem inv_step {nine : Bool} {y : St} {e : Ev} (h : Inv nine y) (hc : (e = .handler → Before y.pc) ∧ ∀ f, e = .arrive f → f.data < 512) : Inv nine (UsartPolledRead.step y e) := by
  obtain ⟨h1, h2, h3, h4⟩ := h
  cases e with
  | read => simp only [UsartPolledRead.step]; split <;> [exact ⟨h1, h2, h3, trivial⟩; exact ⟨h1, h2, h3, h4⟩]
  | tryRead => simp only [UsartPolledRead.step]; split <;> [exact ⟨h1, h2, h3, trivial⟩; exact ⟨h1, h2, h3, h4⟩]
  | main => exact inv_main ⟨h1, h2, h3, h4⟩
  | handler =>
    obtain ⟨hw, pc, log, arr⟩ := y
    have hb := hc.1 rfl
    have ok : ∀ hw' log', hw'.ucsrb.getLsbD 2 = nine → (∀ f ∈ hw'.rx, f.data < 512) → arr.map (report nine) = returned log' ++ hw'.rx.map (report nine) → Inv nine ⟨hw', pc, log', arr⟩ := by
      intro hw' log' k1 k2 k3
      refine ⟨k1, k2, k3, ?_⟩
      revert hb
      cases pc <;> first | exact fun _ => trivial | exact fun h => h.elim
    change hw.ucsrb.getLsbD 2 = nine at h1
    change ∀ f ∈ hw.rx, f.data < 512 at h2
    change arr.map (report nine) = returned log ++ hw.rx.map (report nine) at h3
    cases hr : hw.rx with
    | nil =>
      simp only [UsartPolledRead.step, c75_notReady hw hr]
      exact ok _ _ h1 h2 (by rw [ret_no]; exact h3)
    | cons f r =>
      simp only [UsartPolledRead.step, try_some hr (h2 f (by rw [hr]; simp))]
      refine ok _ _ h1 (fun g hg => h2 g (by rw [hr]; exact List.mem_cons_of_mem _ hg)) ?_
      rw [ret_yes, h3, hr, h1]
      simp
  | arrive f =>
    obtain ⟨hw, pc, log, arr⟩ := y
    refine ⟨h1, ?_, ?_, ?_⟩
    · intro g hg
      rcases List.mem_append.1 hg with hg | hg
      · exact h2 g hg
      · rw [List.mem_singleton] at hg; subst hg; exact hc.2 g rfl
    · show (arr ++ [f]).map _ = returned log ++ (hw.rx ++ [f]).map _
      rw [List.map_append, List.map_append, ← List.append_assoc, ← h3]
    · have more : ∀ {g : Frame} {r : List Frame}, hw.rx = g :: r → hw.rx ++ [f] = g :: (r ++ [f]) := fun h => by rw [h]; rfl
      cases pc with
      | idle => trivial
      | waiting => trivial
      | trying => trivial
      | fe => obtain ⟨g, r, hr⟩ := h4; exact ⟨g, r ++ [f], more hr⟩
      | upe => obtain ⟨g, r, hr, h⟩ := h4; exact ⟨g, r ++ [f], more hr, h⟩
      | dor => obtain ⟨g, r, hr, h⟩ := h4; exact ⟨g, r ++ [f], more hr, h⟩
      | nine => obtain ⟨g, r, hr, h⟩ := h4; exact ⟨g, r ++ [f], more hr, h⟩
      | ninth => obtain ⟨g, r, hr, h⟩ := h4; exact ⟨g, r ++ [f], more hr, h⟩
      | data => obtain ⟨g, r, hr, h⟩ := h4; exact ⟨g, r ++ [f], more hr, h⟩

theorem inv_run {nine : Bool} (es : List Ev) : ∀ y : St, Inv nine y → Calm y es → Inv nine (UsartPolledRead.run y es) := by
  induction es with
  | nil => exact fun y h _ => h
  | cons e es ih => exact fun y h hc => ih _ (inv_step h hc.1) hc.2

/-! Handlers at any moment -/

/-- The low eight bits. -/
def low (f : Frame) : Nat := f.data % 256

/-- Every frame that left the receiver was returned by one call; `n` calls returned without one. -/
structure Low (n : Nat) (y : St) (t : List Nat) : Prop where
  all : y.arrived.map low = t ++ y.hw.rx.map low
  sub : t.Sublist ((returned y.log).map fun x => x.1 % 256)
  len : t.length + n = (returned y.log).length
  hi : ∀ v k, y.pc = .data v k → k = 0 ∨ k = 0x100

theorem or_low {k u : Nat} (h : k = 0 ∨ k = 0x100) : (k ||| u) % 256 = u % 256 := by
  rw [show (256 : Nat) = 2 ^ 8 from rfl, Nat.or_mod_two_pow]
  rcases h with rfl | rfl <;> simp

theorem low_same {n : Nat} {t : List Nat} {y y' : St} (h : Low n y t) (h1 : y'.hw.rx = y.hw.rx) (h2 : y'.arrived = y.arrived) (h3 : returned y'.log = returned y.log)
    (h4 : ∀ v k, y'.pc = .data v k → k = 0 ∨ k = 0x100) : Low n y' t := ⟨by rw [h2, h1]; exact h.all, by rw [h3]; exact h.sub, by rw [h3]; exact h.len, h4⟩

/-- One event's part of `emptied`. -/
def emptied1 (y : St) (e : Ev) : Nat := match e, y.pc with | .main, .data _ _ => if y.hw.rx = [] then 1 else 0 | _, _ => 0

theorem read_low (h : Hw) : (h.rx = [] → Usart.tryRead h = ((false, 0, .notReady), h)) ∧
    ∀ f r, h.rx = f :: r → ∃ v, Usart.tryRead h = ((true, v, verdict f), { h with rx := r }) ∧ v % 256 = low f := by
  refine ⟨c75_notReady h, fun f r hr => ?_⟩
  unfold Usart.tryRead
  rw [complete_iff, result_is hr]
  refine ⟨(readInternal h).1, ?_, ?_⟩
  · have : (readInternal h).2 = { h with rx := r } := by simp only [readInternal, Hw.readUDR, hr]
    simp [hr, this]
  · simp only [readInternal, Hw.readUDR, hr]
    rw [or_low, Nat.mod_mod]
    · rfl
    · cases is9 h with
      | false => exact .inl rfl
      | true =>
        simp only [if_true]
        split <;> [exact .inr rfl; exact .inl rfl]

theorem low_step {n : Nat} {t : List Nat} {y : St} (h : Low n y t) (e : Ev) : ∃ t', Low (n + emptied1 y e) (UsartPolledRead.step y e) t' := by
  obtain ⟨hw, pc, log, arr⟩ := y
  cases e with
  | read =>
    refine ⟨t, ?_⟩
    simp only [UsartPolledRead.step]
    split
    · exact low_same h rfl rfl rfl (fun _ _ h => nomatch h)
    · exact h
  | tryRead =>
    refine ⟨t, ?_⟩
    simp only [UsartPolledRead.step]
    split
    · exact low_same h rfl rfl rfl (fun _ _ h => nomatch h)
    · exact h
  | arrive f =>
    refine ⟨t, ?_, h.sub, h.len, h.hi⟩
    show (arr ++ [f]).map low = t ++ (hw.rx ++ [f]).map low
    rw [List.map_append, List.map_append, ← List.append_assoc]
    congr 1
    exact h.all
  | handler =>
    cases hr : hw.rx with
    | nil =>
      refine ⟨t, ?_⟩
      simp only [UsartPolledRead.step, (read_low hw).1 hr]
      exact low_same h rfl rfl (ret_no _ _ _) h.hi
    | cons f r =>
      obtain ⟨v, e1, e2⟩ := (read_low hw).2 f r hr
      refine ⟨t ++ [low f], ?_⟩
      simp only [UsartPolledRead.step, e1]
      refine ⟨?_, ?_, ?_, h.hi⟩
      · have := h.all
        simp only [hr] at this
        show arr.map low = t ++ [low f] ++ r.map low
        rw [this]; simp
      · show (t ++ [low f]).Sublist ((returned (log ++ [(false, true, v, verdict f)])).map _)
        rw [ret_yes, List.map_append]
        exact h.sub.append (by simp [e2])
      · show (t ++ [low f]).length + n = (returned (log ++ [(false, true, v, verdict f)])).length
        rw [ret_yes, List.length_append, List.length_append]
        have : t.length + n = (returned log).length := h.len
        simp only [List.length_singleton]; omega
  | main =>
    cases pc with
    | idle => exact ⟨t, h⟩
    | waiting =>
      refine ⟨t, ?_⟩
      simp only [UsartPolledRead.step, mainStep]
      split
      · exact low_same h rfl rfl rfl (fun _ _ h => nomatch h)
      · exact h
    | trying =>
      refine ⟨t, ?_⟩
      simp only [UsartPolledRead.step, mainStep]
      split
      · exact low_same h rfl rfl rfl (fun _ _ h => nomatch h)
      · exact low_same h rfl rfl (ret_no _ _ _) (fun _ _ h => nomatch h)
    | fe =>
      refine ⟨t, low_same h rfl rfl rfl ?_⟩
      simp only [UsartPolledRead.step, mainStep]
      intro v k hk
      split at hk <;> cases hk
    | upe =>
      refine ⟨t, low_same h rfl rfl rfl ?_⟩
      simp only [UsartPolledRead.step, mainStep]
      intro v k hk
      split at hk <;> cases hk
    | dor => exact ⟨t, low_same h rfl rfl rfl (fun _ _ h => nomatch h)⟩
    | nine v =>
      refine ⟨t, low_same h rfl rfl rfl ?_⟩
      simp only [UsartPolledRead.step, mainStep]
      intro v k hk
      split at hk
      · cases hk
      · injection hk with _ hk; exact .inl hk.symm
    | ninth v =>
      refine ⟨t, low_same h rfl rfl rfl ?_⟩
      simp only [UsartPolledRead.step, mainStep]
      intro v k hk
      injection hk with _ hk
      rw [← hk]
      split <;> [exact .inr rfl; exact .inl rfl]
    | data v k =>
      have hk := h.hi v k rfl
      cases hr : hw.rx with
      | nil =>
        have hu : hw.readUDR = (0, hw) := by unfold Hw.readUDR; rw [hr]
        have e0 : emptied1 ⟨hw, .data v k, log, arr⟩ .main = 1 := if_pos hr
        rw [e0]
        refine ⟨t, ?_⟩
        simp only [UsartPolledRead.step, mainStep, hu]
        refine ⟨h.all, ?_, ?_, fun _ _ h => nomatch h⟩
        · show t.Sublist ((returned (log ++ [(true, true, k ||| 0, v)])).map _)
          rw [ret_yes, List.map_append]
          exact h.sub.trans (List.sublist_append_left _ _)
        · show t.length + (n + 1) = (returned (log ++ [(true, true, k ||| 0, v)])).length
          rw [ret_yes, List.length_append]
          have : t.length + n = (returned log).length := h.len
          simp only [List.length_singleton]; omega
      | cons f r =>
        have hu : hw.readUDR = (f.data % 256, { hw with rx := r }) := by unfold Hw.readUDR; rw [hr]
        have e0 : emptied1 ⟨hw, .data v k, log, arr⟩ .main = 0 := if_neg (by rw [hr]; exact fun h => nomatch h)
        rw [e0]
        refine ⟨t ++ [low f], ?_⟩
        simp only [UsartPolledRead.step, mainStep, hu]
        refine ⟨?_, ?_, ?_, fun _ _ h => nomatch h⟩
        · have := h.all
          simp only [hr] at this
          show arr.map low = t ++ [low f] ++ r.map low
          rw [this]; simp
        · show (t ++ [low f]).Sublist ((returned (log ++ [(true, true, k ||| f.data % 256, v)])).map _)
          rw [ret_yes, List.map_append]
          refine h.sub.append ?_
          simp only [List.map_cons, List.map_nil, or_low hk, Nat.mod_mod]
          exact List.Sublist.refl _
        · show (t ++ [low f]).length + n = (returned (log ++ [(true, true, k ||| f.data % 256, v)])).length
          rw [ret_yes, List.length_append, List.length_append]
          have : t.length + n = (returned log).length := h.len
          simp only [List.length_singleton]; omega

theorem low_run (es : List Ev) : ∀ (n : Nat) (y : St) (t : List Nat), Low n y t → ∃ t', Low (n + emptied y es) (UsartPolledRead.run y es) t' := by
  induction es with
  | nil => exact fun n y t h => ⟨t, h⟩
  | cons e es ih =>
    intro n y t h
    obtain ⟨t', h'⟩ := low_step h e
    obtain ⟨t2, h2⟩ := ih _ _ _ h'
    rw [Nat.add_assoc] at h2
    exact ⟨t2, h2⟩

/-! Main code alone -/

theorem main_run (y : St) (n : Nat) : UsartPolledRead.run y (List.replicate (n + 1) .main) = UsartPolledRead.run (mainStep y) (List.replicate n .main) := rfl

theorem mains_idle (n : Nat) (h : Hw) (l : List (Bool × Bool × Nat × RxResult)) (a : List Frame) : UsartPolledRead.run ⟨h, .idle, l, a⟩ (List.replicate n .main) = ⟨h, .idle, l, a⟩ := by
  induction n with
  | zero => rfl
  | succ n ih => exact ih

theorem data_run (n : Nat) (h : Hw) (v : RxResult) (k : Nat) (l : List (Bool × Bool × Nat × RxResult)) (a : List Frame) :
    UsartPolledRead.run ⟨h, .data v k, l, a⟩ (List.replicate (n + 1) .main) = ⟨h.readUDR.2, .idle, l ++ [(true, true, k ||| h.readUDR.1, v)], a⟩ := mains_idle n _ _ _

theorem nine_run (n : Nat) (h : Hw) (v : RxResult) (l : List (Bool × Bool × Nat × RxResult)) (a : List Frame) :
    UsartPolledRead.run ⟨h, .nine v, l, a⟩ (List.replicate (n + 3) .main) = ⟨(readInternal h).2, .idle, l ++ [(true, true, (readInternal h).1, v)], a⟩ := by
  rw [main_run]
  simp only [mainStep, readInternal]
  cases is9 h with
  | false => exact data_run (n + 1) _ _ _ _ _
  | true => exact data_run n _ _ _ _ _

theorem fe_run (h : Hw) (l : List (Bool × Bool × Nat × RxResult)) (a : List Frame) :
    UsartPolledRead.run ⟨h, .fe, l, a⟩ (List.replicate 6 .main) = ⟨(readInternal h).2, .idle, l ++ [(true, true, (readInternal h).1, getResult h)], a⟩ := by
  rw [main_run]
  simp only [mainStep, getResult]
  cases Usart.isTrue 4 h.readA with
  | true => exact nine_run 2 _ _ _ _
  | false =>
    simp only [Bool.false_eq_true, if_false]
    rw [main_run]
    simp only [mainStep]
    cases Usart.isTrue 2 h.readA with
    | true => exact nine_run 1 _ _ _ _
    | false => exact nine_run 0 _ _ _ _

/-- How many accesses main code makes until it knows the result of a frame. -/
def accesses (f : Frame) : Nat := if f.fe then 2 else if f.upe then 3 else 4

theorem known_run {h : Hw} {f : Frame} {r : List Frame} (hr : h.rx = f :: r) (l : List (Bool × Bool × Nat × RxResult)) (a : List Frame) :
    UsartPolledRead.run ⟨h, .idle, l, a⟩ (.read :: List.replicate (accesses f) .main) = ⟨h, .nine (verdict f), l, a⟩ := by
  have e : UsartPolledRead.run ⟨h, .idle, l, a⟩ (.read :: List.replicate (accesses f) .main) = UsartPolledRead.run ⟨h, .waiting, l, a⟩ (List.replicate (accesses f) .main) := rfl
  obtain ⟨k1, k2, k3⟩ := flags h f r hr
  have hc : rxComplete h = true := by rw [complete_iff, hr]; rfl
  rw [e]
  unfold accesses verdict
  cases h1 : f.fe with
  | true =>
    simp only [if_true]
    rw [main_run, main_run]
    simp only [mainStep, hc, if_true, k1, h1]
    rfl
  | false =>
    cases h2 : f.upe with
    | true =>
      simp only [Bool.false_eq_true, if_false, if_true]
      rw [main_run, main_run, main_run]
      simp only [mainStep, hc, if_true, k1, h1, k3, h2, Bool.false_eq_true, if_false]
      rfl
    | false =>
      simp only [Bool.false_eq_true, if_false]
      rw [main_run, main_run, main_run, main_run]
      simp only [mainStep, hc, if_true, k1, h1, k3, h2, k2, Bool.false_eq_true, if_false]
      rfl

end PolledRead
open PolledRead

/-- **C159.** Called without interruption, main code's `TryRead` is the function of C75. -/
theorem c159_alone (y : St) (hi : y.pc = .idle) : run y (.tryRead :: List.replicate 7 .main) = ⟨(tryRead y.hw).2, .idle, y.log ++ [(true, (tryRead y.hw).1)], y.arrived⟩ := by
  obtain ⟨hw, pc, log, arr⟩ := y
  change pc = .idle at hi
  subst hi
  have e : run ⟨hw, .idle, log, arr⟩ (.tryRead :: List.replicate 7 .main) = run (mainStep ⟨hw, .trying, log, arr⟩) (List.replicate 6 .main) := rfl
  rw [e]
  simp only [mainStep, Usart.tryRead]
  cases rxComplete hw with
  | false => exact mains_idle 6 _ _ _
  | true => exact fe_run _ _ _

/-- **C159.** Main code's `Read` that waits on an empty receiver returns the next frame with its errors, if it is not interrupted from then on. -/
theorem c159_returns (y : St) (hw : y.pc = .waiting) (hr : y.hw.rx = []) (f : Frame) (hf : f.data < 512) :
    (run y (.arrive f :: List.replicate 7 .main)).pc = .idle ∧ (run y (.arrive f :: List.replicate 7 .main)).hw.rx = [] ∧
    (run y (.arrive f :: List.replicate 7 .main)).log = y.log ++ [(true, true, report (y.hw.ucsrb.getLsbD 2) f)] := by
  obtain ⟨h, pc, log, arr⟩ := y
  change pc = .waiting at hw
  change h.rx = [] at hr
  subst hw
  have hg : ({ h with rx := h.rx ++ [f] } : Hw).rx = [f] := by rw [hr]; rfl
  have hc : rxComplete { h with rx := h.rx ++ [f] } = true := by rw [complete_iff, hg]; rfl
  have e : run ⟨h, .waiting, log, arr⟩ (.arrive f :: List.replicate 7 .main) = run (mainStep ⟨{ h with rx := h.rx ++ [f] }, .waiting, log, arr ++ [f]⟩) (List.replicate 6 .main) := rfl
  rw [e]
  simp only [mainStep, hc, if_true]
  rw [fe_run, c57_read _ f [] hg hf, result_is hg]
  exact ⟨rfl, rfl, rfl⟩

/-- **C159.** The part of the claim that holds: handlers that read only while main code is outside of its calls or has not yet seen a frame.  The calls that report data return the frames received, each once, in order,
    whole and with their own errors; the rest is still there.
    Missing for the full claim: handlers that read between main code's test and its load (`c159_empty_fails`, `c159_mixed_fails`, `c159_ninth_fails`). -/
theorem c159_order_partial (b : BitVec 8) (es : List Ev) (hc : Calm (St.init b) es) :
    (run (St.init b) es).arrived.map (report (b.getLsbD 2)) = returned (run (St.init b) es).log ++ (run (St.init b) es).hw.rx.map (report (b.getLsbD 2)) :=
  (inv_run es (St.init b) (nine := b.getLsbD 2) ⟨rfl, (fun _ h => nomatch h), rfl, trivial⟩ hc).all

/-- **C159.** Handlers at any moment: of every frame that left the receiver some call returned the low eight bits, in order; besides these calls exactly those reported data in which main code loaded from an empty
    register. -/
theorem c159_count (b : BitVec 8) (es : List Ev) :
    ∃ t : List Nat, (run (St.init b) es).arrived.map (fun f => f.data % 256) = t ++ (run (St.init b) es).hw.rx.map (fun f => f.data % 256) ∧
      t.Sublist ((returned (run (St.init b) es).log).map fun x => x.1 % 256) ∧ t.length + emptied (St.init b) es = (returned (run (St.init b) es).log).length := by
  obtain ⟨t, h⟩ := low_run es 0 (St.init b) [] ⟨rfl, .slnil, rfl, (fun _ _ h => nomatch h)⟩
  rw [Nat.zero_add] at h
  exact ⟨t, h.all, h.sub, h.len⟩

/-- **C159.** Where the claim fails: the only frame is taken by a handler while main code, having seen it, reads its errors.  Both report data: main code gets what an empty register gives, with the result of the frame. -/
theorem c159_empty_fails (y : St) (hi : y.pc = .idle) (f : Frame) (hr : y.hw.rx = [f]) (hf : f.data < 512) :
    let y' := run y (.read :: List.replicate (accesses f) .main ++ .handler :: List.replicate 3 .main)
    y'.pc = .idle ∧ y'.hw.rx = [] ∧ y'.log = y.log ++ [(false, true, report (y.hw.ucsrb.getLsbD 2) f), (true, true, 0, verdict f)] := by
  obtain ⟨h, pc, log, arr⟩ := y
  change pc = .idle at hi
  subst hi
  intro y'
  have hy : y' = run ⟨{ h with rx := [] }, .nine (verdict f), log ++ [(false, true, report (h.ucsrb.getLsbD 2) f)], arr⟩ (List.replicate 3 .main) := by
    show run _ _ = _
    rw [PolledRead.run_append, known_run hr]
    show run (UsartPolledRead.step ⟨h, .nine (verdict f), log, arr⟩ .handler) _ = _
    simp only [UsartPolledRead.step, try_some hr hf]
  have e : readInternal { h with rx := [] } = (0, { h with rx := [] }) := by
    simp only [readInternal, Hw.readUDR, isTrue_bit 1 (by omega : 1 < 8), readB_bit1, Bool.false_eq_true, if_false, ite_self]
    rfl
  rw [hy, nine_run 0, e]
  refine ⟨rfl, rfl, ?_⟩
  simp

/-- **C159.** With another frame behind it main code gets that one's data with the errors of the first: a damaged frame can be reported as good. -/
theorem c159_mixed_fails (y : St) (hi : y.pc = .idle) (f g : Frame) (r : List Frame) (hr : y.hw.rx = f :: g :: r) (hf : f.data < 512) (hg : g.data < 512) :
    let y' := run y (.read :: List.replicate (accesses f) .main ++ .handler :: List.replicate 3 .main)
    y'.pc = .idle ∧ y'.hw.rx = r ∧
      y'.log = y.log ++ [(false, true, report (y.hw.ucsrb.getLsbD 2) f), (true, true, (report (y.hw.ucsrb.getLsbD 2) g).1, verdict f)] := by
  obtain ⟨h, pc, log, arr⟩ := y
  change pc = .idle at hi
  subst hi
  intro y'
  have hy : y' = run ⟨{ h with rx := g :: r }, .nine (verdict f), log ++ [(false, true, report (h.ucsrb.getLsbD 2) f)], arr⟩ (List.replicate 3 .main) := by
    show run _ _ = _
    rw [PolledRead.run_append, known_run hr]
    show run (UsartPolledRead.step ⟨h, .nine (verdict f), log, arr⟩ .handler) _ = _
    simp only [UsartPolledRead.step, try_some hr hf]
  rw [hy, nine_run 0, c57_read { h with rx := g :: r } g r rfl hg]
  refine ⟨rfl, rfl, ?_⟩
  simp [report]

/-- **C159.** Nine bits, and a handler between the test of the ninth bit and the load: the ninth bit of the first frame with the low bits of the second. -/
theorem c159_ninth_fails (y : St) (hi : y.pc = .idle) (h9 : y.hw.ucsrb.getLsbD 2 = true) (f g : Frame) (r : List Frame) (hr : y.hw.rx = f :: g :: r) (hf : f.data < 512) :
    let y' := run y (.read :: List.replicate (accesses f) .main ++ [.main, .main, .handler, .main])
    y'.pc = .idle ∧ y'.hw.rx = r ∧ y'.log = y.log ++ [(false, true, f.data, verdict f), (true, true, (if f.data.testBit 8 then 0x100 else 0) ||| g.data % 256, verdict f)] := by
  obtain ⟨h, pc, log, arr⟩ := y
  change pc = .idle at hi
  change h.ucsrb.getLsbD 2 = true at h9
  change h.rx = f :: g :: r at hr
  subst hi
  intro y'
  have hy : y' = ⟨{ h with rx := r }, .idle, log ++ [(false, true, f.data, verdict f), (true, true, (if f.data.testBit 8 then 0x100 else 0) ||| g.data % 256, verdict f)], arr⟩ := by
    show run _ _ = _
    rw [PolledRead.run_append, known_run hr]
    have e1 : is9 h = true := by rw [is9_eq, h9]
    have e2 : Usart.isTrue 1 h.readB = f.data.testBit 8 := by rw [isTrue_bit 1 (by omega), readB_bit1, hr]
    simp only [run, UsartPolledRead.step, mainStep, e1, if_true, e2, try_some hr hf, Hw.readUDR, h9, report, List.append_assoc, List.cons_append, List.nil_append]
  rw [hy]
  exact ⟨rfl, rfl, rfl⟩

/-! ### In sections -/

namespace PolledRead

/-- The receiver as a shared object; frames arrive at any time (AVR/UsartReceive.h 132-157). -/
abbrev receiver : CriticalSection.Machine where
  St := UsartPolledRead.St
  Ev := UsartPolledRead.Ev
  step := fun y e => .ok (UsartPolledRead.step y e)
  kind := fun | .read | .tryRead => .enter | .main | .arrive _ => .within | .handler => .handler
  idle := fun y => y.pc = .idle
  proper := fun e => ∀ f, e = .arrive f → f.data < 512

theorem lawful_receiver : Sections.Lawful receiver := by
  intro (y : UsartPolledRead.St) (e : UsartPolledRead.Ev) (y' : UsartPolledRead.St) (hi : y.pc = .idle) hk h
  change Res.ok (UsartPolledRead.step y e) = .ok y' at h
  injection h with h
  subst h
  change (UsartPolledRead.step y e).pc = .idle
  cases e with
  | read => exact absurd rfl hk
  | tryRead => exact absurd rfl hk
  | main => simp only [UsartPolledRead.step, mainStep, hi]
  | handler => exact hi
  | arrive => exact hi

theorem run_receiver (es : List UsartPolledRead.Ev) (y : UsartPolledRead.St) : receiver.run y es = .ok (UsartPolledRead.run y es) :=
  Sections.run_is (M := receiver) (R := fun y es => .ok (UsartPolledRead.run y es)) (fun _ => rfl) (fun _ _ _ => rfl) es y

end PolledRead

/-- **C159.** Main code that reads only with interrupts off, handlers that read whenever they run: every frame is returned once, in order, whole and with its own errors. -/
theorem c159_sections (b : BitVec 8) (on : Bool) (es : List (CriticalSection.Ev UsartPolledRead.Ev)) (hs : Sections.Sectioned receiver (CriticalSection.Board.init _ (St.init b) on) es) :
    ∃ d, CriticalSection.run receiver (CriticalSection.Board.init _ (St.init b) on) es = .ok d ∧ d.obj = run (St.init b) d.trace ∧
      d.obj.arrived.map (report (b.getLsbD 2)) = returned d.obj.log ++ d.obj.hw.rx.map (report (b.getLsbD 2)) := by
  have hc : ∀ tr, Sections.Clean receiver (St.init b) tr → Calm (St.init b) tr := fun tr h =>
    Sections.clean_imp (M := receiver) (Q := fun y es => Calm y es) (fun _ => trivial) (fun y e es hp hk h => ⟨⟨(by
      intro he
      subst he
      rw [show y.pc = .idle from hk (by intro h; cases h)]
      trivial), hp⟩, h _ rfl⟩) tr _ h
  obtain ⟨d, hd⟩ := c151_defined _ lawful_receiver (St.init b) on (fun _ => rfl) es hs fun tr _ => ⟨_, run_receiver tr _⟩
  obtain ⟨h1, h2⟩ := c151_apart _ lawful_receiver (St.init b) on (fun _ => rfl) es hs d hd
  have h4 : run (St.init b) d.trace = d.obj := by
    have := (run_receiver d.trace (St.init b)).symm.trans h2
    injection this
  refine ⟨d, hd, h4.symm, ?_⟩
  rw [← h4]
  exact c159_order_partial b d.trace (hc _ h1)

/-- **C159.** The full claim, every report of data is about a frame of its own, is false. -/
theorem c159_full_claim_is_false : ¬ ∀ (b : BitVec 8) (es : List Ev), (∀ f, .arrive f ∈ es → f.data < 512) → (run (St.init b) es).pc = .idle →
    (returned (run (St.init b) es).log).length ≤ (run (St.init b) es).arrived.length := by
  intro h
  exact absurd (h 0x10#8 [.arrive ⟨65, false, false, false⟩, .read, .main, .main, .main, .main, .handler, .main, .main]
    (by intro f hf; simp only [List.mem_cons, List.not_mem_nil, Ev.arrive.injEq, reduceCtorEq, or_false] at hf; subst hf; decide) (by decide +kernel)) (by decide +kernel)

/-! ### Examples -/

namespace PolledRead

instance decBefore (p : Pc) : Decidable (Before p) := by unfold Before; split <;> infer_instance

instance decWhole (e : Ev) : Decidable (∀ f, e = .arrive f → f.data < 512) :=
  match e with
  | .arrive g => decidable_of_iff (g.data < 512) ⟨fun h f hf => by injection hf with hf; exact hf ▸ h, fun h => h g rfl⟩
  | .read => .isTrue fun _ h => by cases h
  | .tryRead => .isTrue fun _ h => by cases h
  | .main => .isTrue fun _ h => by cases h
  | .handler => .isTrue fun _ h => by cases h

instance decCalm : (es : List Ev) → (y : St) → Decidable (Calm y es)
  | [], _ => .isTrue trivial
  | e :: es, y =>
    have d1 : Decidable (e = .handler → Before y.pc) := inferInstance
    have d2 : Decidable (∀ f, e = .arrive f → f.data < 512) := decWhole e
    have d3 : Decidable (Calm (UsartPolledRead.step y e) es) := decCalm es _
    instDecidableAnd

instance : DecidablePred receiver.proper := fun e => decWhole e
instance : DecidablePred receiver.idle := fun y => inferInstanceAs (Decidable (UsartPolledRead.St.pc y = .idle))

/-- Nine bits: main code waits, a handler takes the first frame, main code the second, damaged one; a third is still there. -/
def busy : List Ev :=
  [.read, .main, .arrive ⟨0x141, false, false, false⟩, .handler, .main, .arrive ⟨0x042, false, true, true⟩, .main, .main, .arrive ⟨7, false, false, false⟩, .main, .main, .main, .main]

end PolledRead

example := c159_order_partial 0x1C#8 PolledRead.busy (by decide +kernel)
example : returned (run (St.init 0x1C#8) PolledRead.busy).log = [(0x141, .success), (0x042, .parityError)] ∧ (run (St.init 0x1C#8) PolledRead.busy).hw.rx = [⟨7, false, false, false⟩] ∧
    (run (St.init 0x1C#8) PolledRead.busy).pc = .idle := by decide +kernel
example := c159_alone (run (St.init 0x1C#8) PolledRead.busy) (by decide +kernel)
example := c159_returns (run (St.init 0x1C#8) [.read, .main]) (by decide +kernel) (by decide +kernel) ⟨0x141, false, true, false⟩ (by decide)
example := c159_count 0x1C#8 PolledRead.busy
/-- One frame, two reports of data. -/
example : emptied (St.init 0x10#8) [.arrive ⟨65, false, false, false⟩, .tryRead, .main, .handler, .main, .main, .main, .main, .main] = 1 ∧
    returned (run (St.init 0x10#8) [.arrive ⟨65, false, false, false⟩, .tryRead, .main, .handler, .main, .main, .main, .main, .main]).log = [(65, .success), (0, .success)] := by decide +kernel
example := c159_empty_fails (run (St.init 0x10#8) [.arrive ⟨65, false, false, false⟩]) rfl ⟨65, false, false, false⟩ rfl (by decide)
example := c159_mixed_fails (run (St.init 0x10#8) [.arrive ⟨65, false, false, false⟩, .arrive ⟨66, true, false, false⟩]) rfl ⟨65, false, false, false⟩ ⟨66, true, false, false⟩ [] rfl (by decide) (by decide)
/-- The damaged 66 is reported as good. -/
example : returned (run (St.init 0x10#8) ([.arrive ⟨65, false, false, false⟩, .arrive ⟨66, true, false, false⟩, .read] ++ List.replicate 4 .main ++ [.handler, .main, .main])).log =
    [(65, .success), (66, .success)] := by decide +kernel
example := c159_ninth_fails (run (St.init 0x14#8) [.arrive ⟨0x141, false, false, false⟩, .arrive ⟨0x042, false, false, false⟩]) rfl (by decide) ⟨0x141, false, false, false⟩ ⟨0x042, false, false, false⟩ [] rfl
  (by decide)
example : returned (run (St.init 0x14#8) ([.arrive ⟨0x141, false, false, false⟩, .arrive ⟨0x042, false, false, false⟩, .read] ++ List.replicate 6 .main ++ [.handler, .main])).log =
    [(0x141, .success), (0x142, .success)] := by decide +kernel

/-- Main code in a section, a frame arriving in it, a handler behind it. -/
def polledReadSections : List (CriticalSection.Ev UsartPolledRead.Ev) :=
  [.main (.arrive ⟨0x141, false, false, false⟩), .off, .main .tryRead, .request 0, .main .main, .main .main, .main (.arrive ⟨0x042, true, false, false⟩), .serve 0 [.handler], .main .main, .main .main, .main .main,
    .main .main, .main .main, .on, .other, .serve 0 [.handler]]

example := c159_sections 0x1C#8 true polledReadSections (by decide +kernel)
example : Sections.okB (fun d => decide (returned d.obj.log = [(0x141, .success), (0x042, .frameError)])) (CriticalSection.run receiver (CriticalSection.Board.init _ (St.init 0x1C#8) true) polledReadSections) = true := by
  decide +kernel

end Atl.Props
