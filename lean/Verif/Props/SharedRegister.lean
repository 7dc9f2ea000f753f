import Verif.Model.SharedRegister
import Verif.Props.LcdDrivers
import Verif.Props.Motor

/- Property theorem C125: a display and motors on the same shift registers. -/
namespace Atl.Props
open Atl.Lcd Atl.Spec.Lcd Atl.LcdSerial Atl.Motor Atl.Spec.Motor Atl.Shared Atl.Spec.ShiftRegister

/-- The outputs of motor `m`. -/
def motorOuts (x : Wiring) (m : Nat) : List Nat := [(x.motor m).1, (x.motor m).2]

/-- All outputs of the display and the motors `ms` exist and are different. -/
structure ValidWiring (n : Nat) (x : Wiring) (ms : List Nat) : Prop where
  lcd : ValidIdx n x.lcd
  two : ∀ m ∈ ms, (x.motor m).1 ≠ (x.motor m).2
  lt : ∀ m ∈ ms, ∀ i ∈ motorOuts x m, i < n
  off : ∀ m ∈ ms, ∀ i ∈ motorOuts x m, i ∉ idxList x.lcd
  apart : ∀ m ∈ ms, ∀ k ∈ ms, m ≠ k → ∀ i ∈ motorOuts x m, i ∉ motorOuts x k

/-- The user's view of a history: calls for the display, requests to motors. -/
abbrev Wish := Sum Call (Nat × Request)

/-- The call of the library for a wish. -/
def wishOp : Wish → Op
  | .inl c => .lcd c
  | .inr (m, r) => .motor m (motorCmd r)

/-- The part of a history that concerns the display. -/
def forDisplay (l : List Wish) : List Call := l.filterMap fun | .inl c => some c | .inr _ => none

/-- The part of a history that concerns the motors. -/
def forMotors (l : List Wish) : List (Nat × Request) := l.filterMap fun | .inl _ => none | .inr x => some x

/-- The PWM pin of motor `m` after these events, `v` before. -/
def pwmAfter {n : Nat} (m : Nat) (v : Nat) : List (Out n) → Nat
  | [] => v
  | .word _ :: l => pwmAfter m v l
  | .pwm k u :: l => pwmAfter m (if k = m then u else v) l

theorem words_append {n : Nat} (a b : List (Out n)) : words (a ++ b) = words a ++ words b := by
  induction a with
  | nil => rfl
  | cons o a ih => cases o <;> simp [words, ih]

theorem words_map {n : Nat} (ws : List (BitVec n)) : words (ws.map Out.word) = ws := by
  induction ws with
  | nil => rfl
  | cons w ws ih => simp [words, ih]

theorem pwm_append {n : Nat} (m v : Nat) (a b : List (Out n)) : pwmAfter m v (a ++ b) = pwmAfter m (pwmAfter m v a) b := by
  induction a generalizing v with
  | nil => rfl
  | cons o a ih => cases o <;> simp [pwmAfter, ih]

theorem pwm_map {n : Nat} (m v : Nat) (ws : List (BitVec n)) : pwmAfter m v (ws.map Out.word) = v := by
  induction ws with
  | nil => rfl
  | cons w ws ih => simpa [pwmAfter] using ih

theorem serial_call (W : Nat) {n : Nat} (hW : n ≤ W) (x : Idx) (hx : ValidIdx n x) (reg : BitVec n) (he : reg.getLsbD x.e = true) (c : Call) :
    ∃ r l, call W x reg c = .ok (r, l) ∧ r.getLsbD x.e = true ∧ (∀ w ∈ l, SameElsewhere x w reg) ∧ SameElsewhere x r reg ∧
      ∀ (a : Lines) (cs : List Call), latches a (l.map (serialLines x)) ++ nibbles (r.getLsbD x.rs) cs = nibbles (reg.getLsbD x.rs) (c :: cs) := by
  have rsl : x.rs < n := hx.2 _ (by simp [idxList])
  have ers : x.e ≠ x.rs := by
    have := hx.1
    simp only [idxList, List.nodup_cons, List.mem_cons, not_or] at this
    exact Ne.symm this.1.1
  cases c with
  | write4 d =>
    obtain ⟨r, l, h1, h2, h3, h4, h5, h6⟩ := serial_write4 W hW x hx reg he d
    exact ⟨r, l, h1, h2, h4, h5, fun a cs => by rw [h6, h3]; rfl⟩
  | command b =>
    obtain ⟨q, e1, b1⟩ := put_bits W hW reg x.rs rsl false
    obtain ⟨r, l, h1, h2, h3, h4, h5, h6⟩ := serial_write8 W hW x hx q (by rw [b1, if_neg ers, he]) b
    have sq : SameElsewhere x q reg := fun j hj => by
      rw [b1, if_neg]; rintro rfl; exact hj (by simp [idxList])
    have q0 : q.getLsbD x.rs = false := by rw [b1, if_pos rfl]
    exact ⟨r, l, by simp only [call, e1, Res.bind_ok, h1], h2, fun w hw j hj => (h4 w hw j hj).trans (sq j hj),
      fun j hj => (h5 j hj).trans (sq j hj), fun a cs => by rw [h6, h3, q0]; rfl⟩
  | data b =>
    obtain ⟨q, e1, b1⟩ := put_bits W hW reg x.rs rsl true
    obtain ⟨r, l, h1, h2, h3, h4, h5, h6⟩ := serial_write8 W hW x hx q (by rw [b1, if_neg ers, he]) b
    have sq : SameElsewhere x q reg := fun j hj => by
      rw [b1, if_neg]; rintro rfl; exact hj (by simp [idxList])
    have q0 : q.getLsbD x.rs = true := by rw [b1, if_pos rfl]
    exact ⟨r, l, by simp only [call, e1, Res.bind_ok, h1], h2, fun w hw j hj => (h4 w hw j hj).trans (sq j hj),
      fun j hj => (h5 j hj).trans (sq j hj), fun a cs => by rw [h6, h3, q0]; rfl⟩

/-- The motor bits of a request. -/
theorem args_serve (r : Request) (hr : moving r) : Serves (args (motorCmd r)).1 (args (motorCmd r)).2.1 (duty (args (motorCmd r)).2.2) r := by
  cases r with
  | stop => rfl
  | brake => rfl
  | turn cw s =>
    have hs : 0 < s := hr
    cases cw <;> simp [Serves, args, motorCmd, mode, duty, hs]

/-- What one motor call does to the register. -/
theorem motor_step (W : Nat) {n : Nat} (hW : n ≤ W) (x : Wiring) (ms : List Nat) (hx : ValidWiring n x ms) (m : Nat) (hm : m ∈ ms) (reg : BitVec n) (r : Request) :
    ∃ q, step W x reg (.motor m (motorCmd r)) = .ok (q, [.word q, .pwm m (duty (args (motorCmd r)).2.2)]) ∧
      q.getLsbD (x.motor m).1 = (args (motorCmd r)).1 ∧ q.getLsbD (x.motor m).2 = (args (motorCmd r)).2.1 ∧
      ∀ j, j ∉ motorOuts x m → q.getLsbD j = reg.getLsbD j := by
  obtain ⟨q, h1, h2, h3, h4⟩ := c48_serial W hW (x.motor m).1 (x.motor m).2 (hx.lt m hm _ (by simp [motorOuts])) (hx.lt m hm _ (by simp [motorOuts]))
    (hx.two m hm) reg (motorCmd r)
  refine ⟨q, by simp [step, h1, ofMotor], h2, h3, fun j hj => ?_⟩
  simp only [motorOuts, List.mem_cons, List.not_mem_nil, or_false, not_or] at hj
  exact h4 j hj.1 hj.2

theorem lines_same {n : Nat} (x : Idx) (a b : BitVec n) (h : ∀ i ∈ idxList x, a.getLsbD i = b.getLsbD i) : serialLines x a = serialLines x b := by
  simp only [idxList, List.mem_cons, List.not_mem_nil, or_false, forall_eq_or_imp, forall_eq] at h
  obtain ⟨h1, h2, h3, h4, h5, h6⟩ := h
  simp [serialLines, h1, h2, h3, h4, h5, h6]

/-- A word that leaves the lines of the display as they are, with Enable high: nothing is latched. -/
theorem latch_high (a b : Lines) (h : b.e = true) : latch a b = [] := by simp [latch, h]

/-- After `setup` or between two calls: Enable is high and each motor has its last request. -/
structure SharedOk {n : Nat} (x : Wiring) (ms : List Nat) (reg : BitVec n) (pwm : Nat → Nat) (last : Nat → Request) : Prop where
  e : reg.getLsbD x.lcd.e = true
  motors : ∀ m ∈ ms, Serves (reg.getLsbD (x.motor m).1) (reg.getLsbD (x.motor m).2) (pwm m) (last m)

theorem shared_run (W : Nat) {n : Nat} (hW : n ≤ W) (x : Wiring) (ms : List Nat) (hx : ValidWiring n x ms) (l : List Wish)
    (hl : ∀ y ∈ forMotors l, y.1 ∈ ms ∧ moving y.2) (reg : BitVec n) (pwm : Nat → Nat) (last : Nat → Request) (h : SharedOk x ms reg pwm last) :
    ∃ r outs, run W x reg (l.map wishOp) = .ok (r, outs) ∧
      SharedOk x ms r (fun m => pwmAfter m (pwm m) outs) (fun m => (lastRequest m (forMotors l) (some (last m))).getD .stop) ∧
      (∀ a, latches a ((words outs).map (serialLines x.lcd)) = nibbles (reg.getLsbD x.lcd.rs) (forDisplay l)) := by
  induction l generalizing reg pwm last with
  | nil => exact ⟨reg, [], rfl, by simpa [pwmAfter, forMotors, lastRequest] using h, fun a => rfl⟩
  | cons y l ih =>
    cases y with
    | inl c =>
      obtain ⟨r, ws, h1, h2, h3, h4, h5⟩ := serial_call W hW x.lcd hx.lcd reg h.e c
      have hok : SharedOk x ms r pwm last := ⟨h2, fun m hm => by
        rw [h4 _ (hx.off m hm _ (by simp [motorOuts])), h4 _ (hx.off m hm _ (by simp [motorOuts]))]
        exact h.motors m hm⟩
      obtain ⟨r', outs, g1, g2, g3⟩ := ih (fun z hz => hl z (by simpa [forMotors] using hz)) r pwm last hok
      refine ⟨r', ws.map .word ++ outs, ?_, ?_, fun a => ?_⟩
      · simp only [List.map_cons, wishOp, run, step, h1, Res.bind_ok, g1]
      · simp only [pwm_append, pwm_map]
        simpa [forMotors] using g2
      · rw [words_append, words_map, List.map_append, I2C.latches_append, g3]
        exact h5 a (forDisplay l)
    | inr y =>
      obtain ⟨m, q⟩ := y
      obtain ⟨hm, hq⟩ := hl (m, q) (by simp [forMotors])
      obtain ⟨r, h1, h2, h3, h4⟩ := motor_step W hW x ms hx m hm reg q
      have hlcd : ∀ i ∈ idxList x.lcd, r.getLsbD i = reg.getLsbD i := fun i hi => h4 i (fun hc => hx.off m hm i hc hi)
      have he : r.getLsbD x.lcd.e = true := by rw [hlcd _ (by simp [idxList]), h.e]
      have hrs : r.getLsbD x.lcd.rs = reg.getLsbD x.lcd.rs := hlcd _ (by simp [idxList])
      have hok : SharedOk x ms r (fun k => if m = k then duty (args (motorCmd q)).2.2 else pwm k) (fun k => if m = k then q else last k) := by
        refine ⟨he, fun k hk => ?_⟩
        by_cases hmk : m = k
        · subst hmk
          simp only [if_true, h2, h3]
          exact args_serve q hq
        · simp only [hmk, if_false]
          rw [h4 _ (hx.apart k hk m hm (fun e => hmk e.symm) _ (by simp [motorOuts])), h4 _ (hx.apart k hk m hm (fun e => hmk e.symm) _ (by simp [motorOuts]))]
          exact h.motors k hk
      obtain ⟨r', outs, g1, g2, g3⟩ := ih (fun z hz => hl z (by simp only [forMotors, List.filterMap_cons, List.mem_cons] at hz ⊢; exact .inr hz)) r _ _ hok
      refine ⟨r', [.word r, .pwm m (duty (args (motorCmd q)).2.2)] ++ outs, ?_, ?_, fun a => ?_⟩
      · simp only [List.map_cons, wishOp, run, h1, Res.bind_ok, g1]
      · have e1 : ∀ k, pwmAfter k (pwm k) ([Out.word r, .pwm m (duty (args (motorCmd q)).2.2)] ++ outs) =
            pwmAfter k (if m = k then duty (args (motorCmd q)).2.2 else pwm k) outs := fun k => by simp [pwmAfter]
        have e2 : ∀ k, lastRequest k (forMotors (.inr (m, q) :: l)) (some (last k)) =
            lastRequest k (forMotors l) (some (if m = k then q else last k)) := by
          intro k
          simp only [forMotors, List.filterMap_cons, lastRequest]
          by_cases hmk : m = k <;> simp [hmk]
        simp only [e1, e2]
        exact g2
      · rw [words_append, List.map_append, I2C.latches_append, g3, hrs]
        have : latch a (serialLines x.lcd r) = [] := latch_high _ _ he
        simp [words, latches, this, forDisplay]

theorem attach_motors (W : Nat) {n : Nat} (hW : n ≤ W) (x : Wiring) (ms : List Nat) (hx : ValidWiring n x ms) (todo : List Nat) (ht : ∀ m ∈ todo, m ∈ ms)
    (reg : BitVec n) (he : reg.getLsbD x.lcd.e = true) (done : List Nat) (hd : ∀ m ∈ done, ∀ i ∈ motorOuts x m, reg.getLsbD i = false) :
    ∃ r outs, attachMotors W x reg todo = .ok (r, outs) ∧ (∀ i ∈ idxList x.lcd, r.getLsbD i = reg.getLsbD i) ∧
      (∀ m ∈ done ++ todo, ∀ i ∈ motorOuts x m, r.getLsbD i = false) ∧
      (∀ a, latches a ((words outs).map (serialLines x.lcd)) = []) ∧ ∀ m v, pwmAfter m v outs = v := by
  induction todo generalizing reg done with
  | nil => exact ⟨reg, [], rfl, fun _ _ => rfl, by simpa using hd, fun _ => rfl, fun _ _ => rfl⟩
  | cons m todo ih =>
    have hm := ht m (by simp)
    obtain ⟨r, h1, h2⟩ := c48_attach W hW (x.motor m).1 (x.motor m).2 (hx.lt m hm _ (by simp [motorOuts])) (hx.lt m hm _ (by simp [motorOuts])) reg
    have hl : ∀ i ∈ idxList x.lcd, r.getLsbD i = reg.getLsbD i := fun i hi => by
      rw [h2, if_neg]
      rintro (rfl | rfl)
      · exact hx.off m hm _ (by simp [motorOuts]) hi
      · exact hx.off m hm _ (by simp [motorOuts]) hi
    have he' : r.getLsbD x.lcd.e = true := by rw [hl _ (by simp [idxList]), he]
    obtain ⟨r', outs, g1, g2, g3, g4, g5⟩ := ih (fun k hk => ht k (by simp [hk])) r he' (done ++ [m]) (by
      intro k hk i hi
      rw [h2]
      split
      · rfl
      · rename_i hc
        rcases List.mem_append.1 hk with hk | hk
        · exact hd k hk i hi
        · rw [List.mem_singleton.1 hk] at hi
          simp only [motorOuts, List.mem_cons, List.not_mem_nil, or_false] at hi
          exact absurd hi hc)
    refine ⟨r', .word r :: outs, ?_, fun i hi => (g2 i hi).trans (hl i hi), by simpa using g3, fun a => ?_, fun k v => g5 k v⟩
    · simp only [attachMotors, h1, Res.bind_ok, g1, List.map_cons, List.map_nil, ofMotor, List.cons_append, List.nil_append]
    · simp only [words, List.map_cons, latches, g4, latch_high _ (serialLines x.lcd r) he', List.append_nil]

theorem shared_program (W : Nat) {n : Nat} (hW : n ≤ W) (x : Wiring) (ms : List Nat) (hx : ValidWiring n x ms) (reg : BitVec n) (l : List Wish)
    (hl : ∀ y ∈ forMotors l, y.1 ∈ ms ∧ moving y.2) :
    ∃ r outs, program W x ms reg (l.map wishOp) = .ok (r, outs) ∧
      (∀ m ∈ ms, ∀ v, Serves (r.getLsbD (x.motor m).1) (r.getLsbD (x.motor m).2) (pwmAfter m v outs)
        ((lastRequest m (forMotors l) none).getD .stop)) ∧ r.getLsbD x.lcd.e = true ∧
      (∀ a, latches a ((words outs).map (serialLines x.lcd)) = nibbles false (forDisplay l)) := by
  obtain ⟨r0, h1, h2, h3⟩ := serial_attach W hW x.lcd hx.lcd reg
  have he : r0.getLsbD x.lcd.e = true := congrArg Lines.e h3
  have hrs : r0.getLsbD x.lcd.rs = false := congrArg Lines.rs h3
  obtain ⟨r1, outs1, g1, g2, g3, g4, g5⟩ := attach_motors W hW x ms hx ms (fun _ h => h) r0 he [] (by simp)
  have he1 : r1.getLsbD x.lcd.e = true := by rw [g2 _ (by simp [idxList]), he]
  have hok : ∀ v, SharedOk x ms r1 (fun _ => v) (fun _ => .stop) := fun v => ⟨he1, fun m hm => by
    rw [g3 m (by simpa using hm) _ (by simp [motorOuts]), g3 m (by simpa using hm) _ (by simp [motorOuts])]
    rfl⟩
  have hlast : ∀ m (q : List (Nat × Request)), (lastRequest m q (some .stop)).getD .stop = (lastRequest m q none).getD .stop := by
    intro m q
    induction q with
    | nil => rfl
    | cons y q ih =>
      simp only [lastRequest]
      by_cases hy : y.1 = m
      · simp [hy]
      · simpa [hy] using ih
  obtain ⟨r, outs, k1, k2, k3⟩ := shared_run W hW x ms hx l hl r1 (fun _ => 0) _ (hok 0)
  refine ⟨r, Out.word r0 :: (outs1 ++ outs), ?_, ?_, k2.e, fun a => ?_⟩
  · simp only [program, setup, h1, g1, k1, Res.bind_ok, List.map_cons, List.map_nil, List.cons_append, List.nil_append]
  · intro m hm v
    obtain ⟨r', outs', k1', k2', -⟩ := shared_run W hW x ms hx l hl r1 (fun _ => v) _ (hok v)
    rw [k1, Res.ok.injEq, Prod.mk.injEq] at k1'
    obtain ⟨rfl, rfl⟩ := k1'
    have := k2'.motors m hm
    rw [hlast] at this
    simpa only [pwmAfter, pwm_append, g5] using this
  · simp only [words, words_append, List.map_cons, List.map_append, latches, latch_high _ (serialLines x.lcd r0) he, List.nil_append,
      I2C.latches_append, g4]
    rw [k3, g2 _ (by simp [idxList]), hrs]

/-! ### Through the chain of shift registers -/

/-- The states of the chain after each pin write. -/
def chainTrace (c : Chain) : List (Wire × Bool) → List Chain
  | [] => []
  | e :: l => c.step e.1 e.2 :: chainTrace (c.step e.1 e.2) l

/-- The lines of the display on the outputs of the chain: bit `i` is output `n - 1 - i` (C37). -/
def chainLines (n : Nat) (x : Idx) (c : Chain) : Lines :=
  let o := fun i => c.out.getD (n - 1 - i) false
  ⟨o x.rs, false, o x.e, o x.d4, o x.d5, o x.d6, o x.d7⟩

theorem chainTrace_append (c : Chain) (l m : List (Wire × Bool)) : chainTrace c (l ++ m) = chainTrace c l ++ chainTrace (c.run l) m := by
  induction l generalizing c with
  | nil => rfl
  | cons e l ih => simp [chainTrace, ih, Chain.run]

theorem trace_shiftOut (c : Chain) (bs : List Bool) : ∀ c' ∈ chainTrace c (seen (shiftOut bs)), c'.out = c.out := by
  induction bs generalizing c with
  | nil => simp [seen, shiftOut, chainTrace]
  | cons b bs ih =>
    intro c' hc'
    simp only [seen, shiftOut, List.flatMap_cons, Serial3Wire.pulseClock, List.map_append, List.map_cons, List.map_nil, wire, List.cons_append, List.nil_append,
      chainTrace, List.mem_cons] at hc'
    rcases hc' with rfl | rfl | rfl | hc'
    · rfl
    · rfl
    · rfl
    · have := ih _ c' hc'
      simpa [Chain.step] using this

theorem latches_still (a : Lines) (l : List Lines) (h : ∀ y ∈ l, y = a) : latches a l = [] ∧ l.foldl (fun _ y => y) a = a := by
  induction l with
  | nil => exact ⟨rfl, rfl⟩
  | cons y l ih =>
    have hy := h y (by simp)
    subst hy
    obtain ⟨i1, i2⟩ := ih (fun z hz => h z (by simp [hz]))
    refine ⟨?_, by simpa using i2⟩
    have : latch y y = [] := by unfold latch; cases y.e <;> simp
    rw [latches, this, i1]; rfl

/-- One word through the chain. -/
theorem chain_word (W : Nat) {n : Nat} (hW : n ≤ W) (x : Idx) (hx : ValidIdx n x) (w : BitVec n) (c : Chain) (hc : c.clock = false) (hla : c.latch = false)
    (hl : n ≤ c.stages.length) :
    ∃ tr, Serial3Wire.writeReverse W w = .ok tr ∧ (c.run (seen tr)).clock = false ∧ (c.run (seen tr)).latch = false ∧
      (c.run (seen tr)).stages.length = c.stages.length ∧ (∀ i, i < n → (c.run (seen tr)).out[n - 1 - i]? = some (w.getLsbD i)) ∧
      chainLines n x (c.run (seen tr)) = serialLines x w ∧
      (∀ rest, latches (chainLines n x c) ((chainTrace c (seen tr)).map (chainLines n x) ++ rest) =
        latch (chainLines n x c) (serialLines x w) ++ latches (serialLines x w) rest) ∧
      ∀ c' ∈ chainTrace c (seen tr), c'.out = c.out ∨ c'.out = (c.run (seen tr)).out := by
  obtain ⟨tr, h1, -, h3, h4, h5, h6, -⟩ := c37_word_shown_partial W hW w c hc hla hl
  have htr : tr = shiftOut ((List.range' 0 n).map w.getLsbD) ++ Serial3Wire.pulseLatch := by
    simp only [Serial3Wire.writeReverse, reverseLoop_ok W hW w n 0 (by omega), Res.bind_ok, Res.ok.injEq] at h1
    exact h1.symm
  have hout : ∀ i, i < n → (c.run (seen tr)).out[n - 1 - i]? = some (w.getLsbD i) := by
    intro i hi
    rw [h6 _ (by omega)]
    congr 2
    omega
  have hlines : chainLines n x (c.run (seen tr)) = serialLines x w := by
    have g : ∀ i ∈ idxList x, (c.run (seen tr)).out.getD (n - 1 - i) false = w.getLsbD i := by
      intro i hi
      rw [List.getD_eq_getElem?_getD, hout i (hx.2 i hi)]
      rfl
    simp only [idxList, List.mem_cons, List.not_mem_nil, or_false, forall_eq_or_imp, forall_eq] at g
    obtain ⟨g1, g2, g3, g4, g5, g6⟩ := g
    simp only [chainLines, serialLines, g1, g2, g3, g4, g5, g6]
  have hsplit : chainTrace c (seen tr) = chainTrace c (seen (shiftOut ((List.range' 0 n).map w.getLsbD))) ++
      chainTrace (c.run (seen (shiftOut ((List.range' 0 n).map w.getLsbD)))) (seen Serial3Wire.pulseLatch) := by
    rw [htr, seen, List.map_append]
    exact chainTrace_append _ _ _
  obtain ⟨d, e⟩ := run_shiftOut c ((List.range' 0 n).map w.getLsbD) hc (by simpa using hl)
  have hend : c.run (seen tr) = (c.run (seen (shiftOut ((List.range' 0 n).map w.getLsbD)))).run (seen Serial3Wire.pulseLatch) := by
    rw [htr]; simp [seen, Chain.run, List.foldl_append]
  have hpulse : ∃ c1 c2 : Chain, chainTrace (c.run (seen (shiftOut ((List.range' 0 n).map w.getLsbD)))) (seen Serial3Wire.pulseLatch) = [c1, c2] ∧
      c1.out = c2.out ∧ c2 = c.run (seen tr) := by
    refine ⟨_, _, rfl, ?_, ?_⟩
    · simp [Chain.step, wire]
    · rw [hend]; rfl
  obtain ⟨c1, c2, p1, p2, p3⟩ := hpulse
  refine ⟨tr, h1, h3, h4, h5, hout, hlines, fun rest => ?_, ?_⟩
  · have l2 : chainLines n x c2 = serialLines x w := by rw [p3, hlines]
    have l1 : chainLines n x c1 = serialLines x w := by rw [← l2]; simp [chainLines, p2]
    obtain ⟨s1, s2⟩ := latches_still (chainLines n x c) ((chainTrace c (seen (shiftOut ((List.range' 0 n).map w.getLsbD)))).map (chainLines n x)) (by
      intro y hy
      obtain ⟨c', hc', rfl⟩ := List.mem_map.1 hy
      simp only [chainLines, trace_shiftOut c _ c' hc'])
    rw [hsplit, p1, List.map_append, List.append_assoc, I2C.latches_append, s1, s2, List.nil_append]
    simp only [List.map_cons, List.map_nil, List.cons_append, List.nil_append, latches, l1, l2]
    have : latch (serialLines x w) (serialLines x w) = [] := by unfold latch; cases (serialLines x w).e <;> simp
    rw [this]; rfl
  · intro c' hc'
    rw [hsplit, p1] at hc'
    rcases List.mem_append.1 hc' with h | h
    · exact .inl (trace_shiftOut c _ c' h)
    · right
      simp only [List.mem_cons, List.not_mem_nil, or_false] at h
      rcases h with rfl | rfl
      · rw [p2, p3]
      · rw [p3]

theorem chain_words (W : Nat) {n : Nat} (hW : n ≤ W) (x : Idx) (hx : ValidIdx n x) (ws : List (BitVec n)) (c : Chain) (hc : c.clock = false)
    (hla : c.latch = false) (hl : n ≤ c.stages.length) :
    ∃ tr, pins W ws = .ok tr ∧ (c.run (seen tr)).clock = false ∧ (c.run (seen tr)).latch = false ∧ (c.run (seen tr)).stages.length = c.stages.length ∧
      (∀ w, ws.getLast? = some w → ∀ i, i < n → (c.run (seen tr)).out[n - 1 - i]? = some (w.getLsbD i)) ∧
      latches (chainLines n x c) ((chainTrace c (seen tr)).map (chainLines n x)) = latches (chainLines n x c) (ws.map (serialLines x)) ∧
      ∀ c' ∈ chainTrace c (seen tr), c'.out = c.out ∨ ∃ w ∈ ws, ∀ i, i < n → c'.out[n - 1 - i]? = some (w.getLsbD i) := by
  induction ws generalizing c with
  | nil => exact ⟨[], rfl, hc, hla, rfl, by simp, rfl, by simp [seen, chainTrace]⟩
  | cons w ws ih =>
    obtain ⟨t, h1, h2, h3, h4, h5, h6, h7, h8⟩ := chain_word W hW x hx w c hc hla hl
    obtain ⟨t', g1, k1, k2, k3, g2, g3, g4⟩ := ih (c.run (seen t)) h2 h3 (by rw [h4]; exact hl)
    have hrun : c.run (seen (t ++ t')) = (c.run (seen t)).run (seen t') := by simp [seen, Chain.run, List.foldl_append]
    have htrace : chainTrace c (seen (t ++ t')) = chainTrace c (seen t) ++ chainTrace (c.run (seen t)) (seen t') := by
      rw [show seen (t ++ t') = seen t ++ seen t' by simp [seen]]
      exact chainTrace_append _ _ _
    refine ⟨t ++ t', by simp only [pins, h1, g1, Res.bind_ok], by rw [hrun, k1], by rw [hrun, k2], by rw [hrun, k3, h4], ?_, ?_, ?_⟩
    · intro v hv i hi
      rw [hrun]
      cases ws with
      | nil =>
        simp only [pins, Res.ok.injEq] at g1
        subst g1
        simp only [List.getLast?_singleton, Option.some.injEq] at hv
        subst hv
        exact h5 i hi
      | cons u us => exact g2 v (by simpa using hv) i hi
    · rw [htrace, List.map_append, h7, List.map_cons, latches, ← h6, g3]
    · intro c' hc'
      rw [htrace] at hc'
      rcases List.mem_append.1 hc' with h | h
      · rcases h8 c' h with h | h
        · exact .inl h
        · exact .inr ⟨w, by simp, fun i hi => by rw [h, h5 i hi]⟩
      · rcases g4 c' h with h | ⟨v, hv, h⟩
        · exact .inr ⟨w, by simp, fun i hi => by rw [h, h5 i hi]⟩
        · exact .inr ⟨v, by simp [hv], h⟩

/-- The last word handed on is the register. -/
def Ends {n : Nat} (x : Res (BitVec n × List (Out n))) : Prop := ∀ r o, x = .ok (r, o) → (words o).getLast? = some r

theorem serial_write4_last (W : Nat) {n : Nat} (x : Idx) (reg : BitVec n) (d : Nat) (r : BitVec n) (l : List (BitVec n))
    (h : write4 W x reg d = .ok (r, l)) : l.getLast? = some r := by
  unfold write4 LcdSerial.pulseEnable at h
  cases h1 : put W reg x.d4 (d &&& 1 != 0) with
  | ub => simp only [h1, Res.bind_ok, Res.bind_ub, reduceCtorEq] at h
  | ok r1 =>
    cases h2 : put W r1 x.d5 (d &&& 2 != 0) with
    | ub => simp only [h1, h2, Res.bind_ok, Res.bind_ub, reduceCtorEq] at h
    | ok r2 =>
      cases h3 : put W r2 x.d6 (d &&& 4 != 0) with
      | ub => simp only [h1, h2, h3, Res.bind_ok, Res.bind_ub, reduceCtorEq] at h
      | ok r3 =>
        cases h4 : put W r3 x.d7 (d &&& 8 != 0) with
        | ub => simp only [h1, h2, h3, h4, Res.bind_ok, Res.bind_ub, reduceCtorEq] at h
        | ok r4 =>
          cases h5 : put W r4 x.e false with
          | ub => simp only [h1, h2, h3, h4, h5, Res.bind_ok, Res.bind_ub, reduceCtorEq] at h
          | ok r5 =>
            cases h6 : put W r5 x.e true with
            | ub => simp only [h1, h2, h3, h4, h5, h6, Res.bind_ok, Res.bind_ub, reduceCtorEq] at h
            | ok r6 =>
              simp only [h1, h2, h3, h4, h5, h6, Res.bind_ok, Res.ok.injEq, Prod.mk.injEq] at h
              obtain ⟨rfl, rfl⟩ := h
              rfl

theorem serial_write8_last (W : Nat) {n : Nat} (x : Idx) (reg : BitVec n) (d : Nat) (r : BitVec n) (l : List (BitVec n))
    (h : write8 W x reg d = .ok (r, l)) : l.getLast? = some r := by
  unfold write8 at h
  cases h1 : write4 W x reg (d >>> 4) with
  | ub => simp [h1] at h
  | ok p =>
    cases h2 : write4 W x p.1 d with
    | ub => simp [h1, h2] at h
    | ok q =>
      simp only [h1, h2, Res.bind_ok, Res.ok.injEq, Prod.mk.injEq] at h
      obtain ⟨rfl, rfl⟩ := h
      rw [List.getLast?_append, serial_write4_last W x p.1 d q.1 q.2 h2]
      rfl

theorem step_ends (W : Nat) {n : Nat} (x : Wiring) (reg : BitVec n) (op : Op) : Ends (step W x reg op) := by
  intro r o h
  cases op with
  | lcd c =>
    simp only [step] at h
    cases h1 : LcdSerial.call W x.lcd reg c with
    | ub => simp [h1] at h
    | ok p =>
      simp only [h1, Res.bind_ok, Res.ok.injEq, Prod.mk.injEq] at h
      obtain ⟨rfl, rfl⟩ := h
      rw [words_map]
      cases c with
      | write4 d => exact serial_write4_last W x.lcd reg d _ _ h1
      | command b =>
        simp only [call] at h1
        cases h2 : put W reg x.lcd.rs false with
        | ub => simp [h2] at h1
        | ok q => simp only [h2, Res.bind_ok] at h1; exact serial_write8_last W x.lcd q b _ _ h1
      | data b =>
        simp only [call] at h1
        cases h2 : put W reg x.lcd.rs true with
        | ub => simp [h2] at h1
        | ok q => simp only [h2, Res.bind_ok] at h1; exact serial_write8_last W x.lcd q b _ _ h1
  | motor m c =>
    simp only [step, sendSerial] at h
    cases h1 : Bits.BitArray.setBool W reg (x.motor m).1 (args c).1 with
    | ub => simp [h1] at h
    | ok p =>
      cases h2 : Bits.BitArray.setBool W p.1 (x.motor m).2 (args c).2.1 with
      | ub => simp [h1, h2] at h
      | ok q =>
        simp only [h1, h2, Res.bind_ok, Res.ok.injEq, Prod.mk.injEq] at h
        obtain ⟨rfl, rfl⟩ := h
        simp [words, ofMotor]

theorem run_last (W : Nat) {n : Nat} (x : Wiring) (ops : List Op) (reg r : BitVec n) (a o : List (Out n)) (ha : (words a).getLast? = some reg)
    (h : run W x reg ops = .ok (r, o)) : (words (a ++ o)).getLast? = some r := by
  induction ops generalizing reg a o with
  | nil =>
    simp only [run, Res.ok.injEq, Prod.mk.injEq] at h
    obtain ⟨rfl, rfl⟩ := h
    simpa using ha
  | cons op ops ih =>
    simp only [run] at h
    cases h1 : step W x reg op with
    | ub => simp [h1] at h
    | ok p =>
      cases h2 : run W x p.1 ops with
      | ub => simp [h1, h2] at h
      | ok q =>
        simp only [h1, h2, Res.bind_ok, Res.ok.injEq, Prod.mk.injEq] at h
        obtain ⟨rfl, rfl⟩ := h
        rw [← List.append_assoc]
        refine ih p.1 (a ++ p.2) q.2 ?_ h2
        rw [words_append, List.getLast?_append, step_ends W x reg op p.1 p.2 h1]
        rfl

theorem attachMotors_last (W : Nat) {n : Nat} (x : Wiring) (ms : List Nat) (reg r : BitVec n) (a o : List (Out n)) (ha : (words a).getLast? = some reg)
    (h : attachMotors W x reg ms = .ok (r, o)) : (words (a ++ o)).getLast? = some r := by
  induction ms generalizing reg a o with
  | nil =>
    simp only [attachMotors, Res.ok.injEq, Prod.mk.injEq] at h
    obtain ⟨rfl, rfl⟩ := h
    simpa using ha
  | cons m ms ih =>
    simp only [attachMotors] at h
    cases h1 : Motor.attach W (x.motor m).1 (x.motor m).2 reg with
    | ub => simp [h1] at h
    | ok p =>
      cases h2 : attachMotors W x p.1 ms with
      | ub => simp [h1, h2] at h
      | ok q =>
        simp only [h1, h2, Res.bind_ok, Res.ok.injEq, Prod.mk.injEq] at h
        obtain ⟨rfl, rfl⟩ := h
        rw [← List.append_assoc]
        refine ih p.1 (a ++ p.2.map (ofMotor m)) q.2 ?_ h2
        have : p.2 = [.word p.1] := by
          simp only [Motor.attach] at h1
          cases g1 : Bits.BitArray.setBool W reg (x.motor m).1 false with
          | ub => simp [g1] at h1
          | ok u =>
            cases g2 : Bits.BitArray.setBool W u.1 (x.motor m).2 false with
            | ub => simp [g1, g2] at h1
            | ok v =>
              simp only [g1, g2, Res.bind_ok, Res.ok.injEq] at h1
              rw [← h1]
        rw [words_append, List.getLast?_append, this]
        rfl

theorem program_ends (W : Nat) {n : Nat} (hW : n ≤ W) (x : Wiring) (hx : ValidIdx n x.lcd) (ms : List Nat) (reg : BitVec n) (ops : List Op) :
    Ends (program W x ms reg ops) := by
  intro r o h
  obtain ⟨r0, h1, -, -⟩ := serial_attach W hW x.lcd hx reg
  simp only [program, setup, h1, Res.bind_ok] at h
  cases h2 : attachMotors W x r0 ms with
  | ub => simp [h2] at h
  | ok p =>
    cases h3 : run W x p.1 ops with
    | ub => simp [h2, h3] at h
    | ok q =>
      simp only [h2, h3, Res.bind_ok, Res.ok.injEq, Prod.mk.injEq] at h
      obtain ⟨rfl, rfl⟩ := h
      exact run_last W x ops p.1 q.1 _ q.2 (attachMotors_last W x ms r0 p.1 _ p.2 (by rfl) h2) h3

theorem shared_append (W : Nat) {n : Nat} (x : Wiring) (ops : List Op) (op : Op) (reg r r' : BitVec n) (o o' : List (Out n))
    (h : run W x reg ops = .ok (r, o)) (h' : step W x r op = .ok (r', o')) : run W x reg (ops ++ [op]) = .ok (r', o ++ o') := by
  induction ops generalizing reg o with
  | nil =>
    simp only [run, Res.ok.injEq, Prod.mk.injEq] at h
    obtain ⟨rfl, rfl⟩ := h
    simp [run, h']
  | cons op' ops ih =>
    simp only [run] at h
    cases h1 : step W x reg op' with
    | ub => simp [h1] at h
    | ok p =>
      cases h2 : run W x p.1 ops with
      | ub => simp [h1, h2] at h
      | ok q =>
        simp only [h1, h2, Res.bind_ok, Res.ok.injEq, Prod.mk.injEq] at h
        obtain ⟨rfl, rfl⟩ := h
        simp [run, h1, ih p.1 q.2 h2]

/-- **C125, partial.** A display and any number of motors on different outputs of one shift register chain of up to `int` many bits, any state of the shared
    register, of the chain and of the display before, and any interleaving of calls (nibbles, commands and data for the display, requests with nonzero
    speeds for the motors): at the outputs of the chain every motor has its last request (stopped when there was none) and the display is in the state it
    has when it alone is wired to pins and gets its calls only. For a base class that shows the register with `WriteReverse`. Missing: the library's own
    `Serial3WireOutput::Write`, which does not return (`c65_hangs_fails`); speed 0 (`c48_speed_zero_fails`); registers wider than `int` (`c125_wide_fails`). -/
theorem c125_shared_partial (W : Nat) {n : Nat} (hW : n ≤ W) (x : Wiring) (ms : List Nat) (hx : ValidWiring n x ms) (reg : BitVec n) (l : List Wish)
    (hl : ∀ y ∈ forMotors l, y.1 ∈ ms ∧ moving y.2) (c : Chain) (hc : c.clock = false) (hla : c.latch = false) (hn : n ≤ c.stages.length)
    (a : Lines) (hrw : a.rw = false) (hrs : a.rs = false) (low : Nat → Nat) (amb : Nat → Bool) (d : Device) :
    ∃ r outs tr, program W x ms reg (l.map wishOp) = .ok (r, outs) ∧ pins W (words outs) = .ok tr ∧
      (∀ m ∈ ms, ∀ v, ∃ in1 in2, (c.run (seen tr)).out[n - 1 - (x.motor m).1]? = some in1 ∧ (c.run (seen tr)).out[n - 1 - (x.motor m).2]? = some in2 ∧
        Serves in1 in2 (pwmAfter m v outs) ((lastRequest m (forMotors l) none).getD .stop)) ∧
      receiveAll low amb 0 d (latches (chainLines n x.lcd c) ((chainTrace c (seen tr)).map (chainLines n x.lcd))) =
        receiveAll low amb 0 d (latches a (Parallel.levels a (Parallel.init ++ Parallel.calls (forDisplay l)))) := by
  obtain ⟨r, outs, h1, h2, -, h3⟩ := shared_program W hW x ms hx reg l hl
  obtain ⟨tr, g1, -, -, -, g2, g3, -⟩ := chain_words W hW x.lcd hx.lcd (words outs) c hc hla hn
  have hlast := program_ends W hW x hx.lcd ms reg (l.map wishOp) r outs h1
  refine ⟨r, outs, tr, h1, g1, fun m hm v => ⟨_, _, g2 r hlast _ (hx.lt m hm _ (by simp [motorOuts])), g2 r hlast _ (hx.lt m hm _ (by simp [motorOuts])),
    h2 m hm v⟩, ?_⟩
  rw [g3, h3, parallel_built a hrw, hrs]

example := c125_shared_partial 16 (n := 16) (by decide) ⟨⟨0, 1, 2, 3, 4, 5⟩, fun m => (6 + 2 * m, 7 + 2 * m)⟩ [0, 1] ⟨⟨by decide, by decide⟩, by decide, by decide, by decide, by decide⟩ 0xA5#16
  [.inl (.command 1), .inr (0, .turn true 100), .inl (.data 65), .inr (1, .brake), .inr (0, .stop)] (by simp [forMotors, moving]) ⟨List.replicate 16 false, List.replicate 16 true, true, false, false⟩ rfl rfl
  (by decide) ⟨false, false, true, true, false, true, true⟩ rfl rfl (fun _ => 0) (fun _ => false) powerUp

theorem pins_append (W : Nat) {n : Nat} (u v : List (BitVec n)) (a b : List Serial3Wire.Ev) (hu : pins W u = .ok a) (hv : pins W v = .ok b) :
    pins W (u ++ v) = .ok (a ++ b) := by
  induction u generalizing a with
  | nil =>
    simp only [pins, Res.ok.injEq] at hu
    subst hu
    simpa using hv
  | cons w u ih =>
    simp only [pins] at hu
    cases h1 : Serial3Wire.writeReverse W w with
    | ub => simp [h1] at hu
    | ok p =>
      cases h2 : pins W u with
      | ub => simp [h1, h2] at hu
      | ok q =>
        simp only [h1, h2, Res.bind_ok, Res.ok.injEq] at hu
        subst hu
        simp [pins, h1, ih q h2]

/-- The outputs a wish is about. -/
def ownOuts (x : Wiring) : Wish → List Nat
  | .inl _ => idxList x.lcd
  | .inr (m, _) => motorOuts x m

/-- **C125, partial.** No glitches: during a call, at every moment, every output of the chain that does not belong to the device called stays as it was. -/
theorem c125_no_glitch_partial (W : Nat) {n : Nat} (hW : n ≤ W) (x : Wiring) (ms : List Nat) (hx : ValidWiring n x ms) (reg : BitVec n) (l : List Wish)
    (y : Wish) (hl : ∀ z ∈ forMotors (l ++ [y]), z.1 ∈ ms ∧ moving z.2) (c : Chain) (hc : c.clock = false) (hla : c.latch = false) (hn : n ≤ c.stages.length) :
    ∃ r outs tr r' more tr', program W x ms reg (l.map wishOp) = .ok (r, outs) ∧ pins W (words outs) = .ok tr ∧
      program W x ms reg ((l ++ [y]).map wishOp) = .ok (r', outs ++ more) ∧ pins W (words (outs ++ more)) = .ok (tr ++ tr') ∧
      ∀ c' ∈ chainTrace (c.run (seen tr)) (seen tr'), ∀ i, i < n → i ∉ ownOuts x y →
        c'.out[n - 1 - i]? = (c.run (seen tr)).out[n - 1 - i]? := by
  have hl1 : ∀ z ∈ forMotors l, z.1 ∈ ms ∧ moving z.2 := fun z hz => hl z (by simp only [forMotors, List.filterMap_append, List.mem_append] at hz ⊢; exact .inl hz)
  obtain ⟨r, outs, h1, -, he, -⟩ := shared_program W hW x ms hx reg l hl1
  have hlast := program_ends W hW x hx.lcd ms reg (l.map wishOp) r outs h1
  obtain ⟨tr, g1, g2, g3, g4, g5, -, -⟩ := chain_words W hW x.lcd hx.lcd (words outs) c hc hla hn
  have hstep : ∃ r' more, step W x r (wishOp y) = .ok (r', more) ∧ ∀ w ∈ words more, ∀ i, i ∉ ownOuts x y → w.getLsbD i = r.getLsbD i := by
    cases y with
    | inl k =>
      obtain ⟨r', ws, k1, -, k3, -, -⟩ := serial_call W hW x.lcd hx.lcd r he k
      refine ⟨r', ws.map .word, by simp only [wishOp, step, k1, Res.bind_ok], fun w hw i hi => ?_⟩
      rw [words_map] at hw
      exact k3 w hw i hi
    | inr k =>
      obtain ⟨m, q⟩ := k
      obtain ⟨r', k1, -, -, k4⟩ := motor_step W hW x ms hx m (hl (m, q) (by simp [forMotors])).1 r q
      refine ⟨r', _, k1, fun w hw i hi => ?_⟩
      simp only [words, List.mem_singleton] at hw
      rw [hw]
      exact k4 i hi
  obtain ⟨r', more, s1, s2⟩ := hstep
  obtain ⟨tr', t1, -, -, -, -, -, t2⟩ := chain_words W hW x.lcd hx.lcd (words more) (c.run (seen tr)) g2 g3 (by rw [g4]; exact hn)
  refine ⟨r, outs, tr, r', more, tr', h1, g1, ?_, by rw [words_append]; exact pins_append W _ _ _ _ g1 t1, fun c' hc' i hi hown => ?_⟩
  · cases h2 : setup W x ms reg with
    | ub => simp [program, h2] at h1
    | ok p =>
      cases h3 : run W x p.1 (l.map wishOp) with
      | ub => simp [program, h2, h3] at h1
      | ok q =>
        simp only [program, h2, h3, Res.bind_ok, Res.ok.injEq, Prod.mk.injEq] at h1
        obtain ⟨rfl, rfl⟩ := h1
        rw [List.map_append]
        simp only [program, h2, Res.bind_ok, List.map_cons, List.map_nil, shared_append W x _ _ _ _ _ _ _ h3 s1, List.append_assoc]
  · rcases t2 c' hc' with h | ⟨w, hw, h⟩
    · rw [h]
    · rw [h i hi, s2 w hw i hown, g5 r hlast i hi]

/-- A display and two motors on a chain of two 74HC595: the display on the first six outputs, the motors on the next four. -/
def exampleWiring : Wiring := ⟨⟨0, 1, 2, 3, 4, 5⟩, fun m => (6 + 2 * m, 7 + 2 * m)⟩

/-- The hypotheses hold for this. -/
example : ValidWiring 16 exampleWiring [0, 1] :=
  ⟨⟨by decide, by decide⟩, by decide, by decide, by decide, by decide⟩
example : ∀ y ∈ forMotors [.inl (.command 1), .inr (0, .turn true 100), .inl (.data 65), .inr (1, .brake), .inr (0, .stop)], y.1 ∈ [0, 1] ∧ moving y.2 := by
  simp [forMotors, moving]
example : forDisplay [.inl (.command 1), .inr (0, .turn true 100), .inl (.data 65), .inr (1, .brake), .inr (0, .stop)] = [.command 1, .data 65] := rfl

end Atl.Props
