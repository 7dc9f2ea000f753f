import Verif.Model.SharedInterrupt
import Verif.Props.SharedSpeed
import Verif.Props.MotorInterrupt

/- Property theorems C141: motors on one shift register chain commanded by main code and by interrupt handlers. -/
namespace Atl.Props
open Atl Atl.Bits Atl.Motor Atl.Spec.Motor Atl.Spec.ShiftRegister Atl.SharedInterrupt

/-! ### Specification -/

/-- The outputs of motor `m`. -/
def outsAt (x : Nat → Nat × Nat) (m : Nat) : List Nat := [(x m).1, (x m).2]

/-- All outputs of the motors `ms` exist and are different. -/
structure Wired (n : Nat) (x : Nat → Nat × Nat) (ms : List Nat) : Prop where
  two : ∀ m ∈ ms, (x m).1 ≠ (x m).2
  lt : ∀ m ∈ ms, ∀ i ∈ outsAt x m, i < n
  apart : ∀ m ∈ ms, ∀ k ∈ ms, m ≠ k → ∀ i ∈ outsAt x m, i ∉ outsAt x k

/-- What happens, in requests. -/
inductive Happening where
  | start (m : Nat) (r : Request)
  | main
  | handler (m : Nat) (r : Request)

/-- The calls. -/
def Happening.ev : Happening → Ev
  | .start m r => .start m (motorCmd r)
  | .main => .main
  | .handler m r => .handler m (motorCmd r)

/-- The requests of a history, in order. -/
def asksOf : List Happening → List (Nat × Request)
  | [] => []
  | .start m r :: l => (m, r) :: asksOf l
  | .main :: l => asksOf l
  | .handler m r :: l => (m, r) :: asksOf l

/-- The chip at outputs `i1`, `i2` of the chain and a PWM pin serves a request (the slowest speed for 0). Output `j` of the drivers is stage `n-1-j`. -/
def OutputsServe (n : Nat) (c : Chain) (i : Nat × Nat) (duty : Nat) (r : Request) : Prop :=
  ∃ b1 b2, c.out[n - 1 - i.1]? = some b1 ∧ c.out[n - 1 - i.2]? = some b2 ∧ Serves b1 b2 duty (atLeastOne r)

/-- Places of main code where a handler does no harm: outside of a command, before a load of the shared word that is not part of the output, before the first bit, behind
    the last one, between latch and PWM. -/
def quietPlace {n : Nat} : Pc n → Prop
  | .idle | .load _ | .reload _ | .latch | .speed => True
  | .bit i => i = 0 ∨ i = n
  | _ => False

/-- Main code gives one command after the other; handlers command motors of `ms` that main code is not commanding, at quiet places. -/
def QuietNow {n : Nat} (ms : List Nat) (s : St n) : Happening → Prop
  | .start m _ => m ∈ ms ∧ s.pc = .idle
  | .main => True
  | .handler m _ => m ∈ ms ∧ quietPlace s.pc ∧ (s.pc ≠ .idle → m ≠ s.motor)

/-- A condition holds at each event of a history. -/
def Along (W : Nat) {n : Nat} (x : Nat → Nat × Nat) (now : St n → Happening → Prop) (s : St n) : List Happening → Prop
  | [] => True
  | e :: es => now s e ∧ ∀ s', step W x s e.ev = .ok s' → Along W x now s' es

def QuietRun (W : Nat) {n : Nat} (x : Nat → Nat × Nat) (ms : List Nat) (s : St n) (es : List Happening) : Prop := Along W x (QuietNow ms) s es

/-- As `QuietNow`, but handlers come at any place. -/
def SensibleNow {n : Nat} (ms : List Nat) (s : St n) : Happening → Prop
  | .start m _ => m ∈ ms ∧ s.pc = .idle
  | .main => True
  | .handler m _ => m ∈ ms ∧ (s.pc ≠ .idle → m ≠ s.motor)

instance {n : Nat} (ms : List Nat) (s : St n) (e : Happening) : Decidable (QuietNow ms s e) := by
  cases e <;> unfold QuietNow
  · infer_instance
  · infer_instance
  · cases s.pc <;> unfold quietPlace <;> infer_instance

instance {n : Nat} (ms : List Nat) (s : St n) (e : Happening) : Decidable (SensibleNow ms s e) := by
  cases e <;> unfold SensibleNow <;> infer_instance

instance decAlong (W : Nat) {n : Nat} (x : Nat → Nat × Nat) (now : St n → Happening → Prop) [∀ s e, Decidable (now s e)] : ∀ (es : List Happening) (s : St n), Decidable (Along W x now s es)
  | [], _ => isTrue trivial
  | e :: es, s =>
    match h : step W x s e.ev with
    | .ub => decidable_of_iff (now s e) ⟨fun hn => ⟨hn, fun s' hs => by rw [h] at hs; cases hs⟩, fun hn => hn.1⟩
    | .ok t =>
      have := decAlong W x now es t
      decidable_of_iff (now s e ∧ Along W x now t es) ⟨fun hn => ⟨hn.1, fun s' hs => by rw [h] at hs; cases hs; exact hn.2⟩, fun hn => ⟨hn.1, hn.2 t h⟩⟩

instance (W : Nat) {n : Nat} (x : Nat → Nat × Nat) (ms : List Nat) (s : St n) (es : List Happening) : Decidable (QuietRun W x ms s es) := decAlong W x _ es s

/-! ### Proofs -/

namespace ChainIsr

theorem run_append (c : Chain) (a b : List Serial3Wire.Ev) : c.run (seen (a ++ b)) = (c.run (seen a)).run (seen b) := by
  simp [seen, Chain.run, List.foldl_append]

theorem run_append3 (c : Chain) (a b d : List Serial3Wire.Ev) : c.run (seen (a ++ b ++ d)) = ((c.run (seen a)).run (seen b)).run (seen d) := by
  rw [run_append, run_append]

theorem rise (c : Chain) (h : c.clock = false) : c.run (seen [(.clock, true)]) = { c with clock := true, stages := (c.data :: c.stages).take c.stages.length } := by
  simp [seen, Chain.run, wire, Chain.step, h]

theorem show_ (c : Chain) (h : c.latch = false) : c.run (seen [(.latch, true)]) = { c with latch := true, out := c.stages } := by
  simp [seen, Chain.run, wire, Chain.step, h]

theorem lastRequest_snoc (m k : Nat) (r : Request) (l : List (Nat × Request)) :
    lastRequest m (l ++ [(k, r)]) none = if k = m then some r else lastRequest m l none := by
  rw [CarIsr.last_append]; rfl

/-- The bits of a word, lowest first. -/
def bitsOf {n : Nat} (w : BitVec n) : List Bool := (List.range' 0 n).map w.getLsbD

theorem bitsOf_length {n : Nat} (w : BitVec n) : (bitsOf w).length = n := by simp [bitsOf]

theorem bitsOf_get {n : Nat} (w : BitVec n) (k : Nat) (hk : k < n) : (bitsOf w)[k]? = some (w.getLsbD k) := by
  simp only [bitsOf, List.getElem?_map]
  rw [List.getElem?_range' (by omega)]
  simp

theorem whole (W : Nat) {n : Nat} (hW : n ≤ W) (w : BitVec n) : Serial3Wire.writeReverse W w = .ok (shiftOut (bitsOf w) ++ Serial3Wire.pulseLatch) := by
  simp only [Serial3Wire.writeReverse, reverseLoop_ok W hW w n 0 (by omega), Res.bind_ok]; rfl

/-- What a whole write does to a chain with clock and latch low. -/
theorem whole_chain {n : Nat} (w : BitVec n) (c : Chain) (hc : c.clock = false) (hl : c.latch = false) (hn : n ≤ c.stages.length) :
    let d := c.run (seen (shiftOut (bitsOf w) ++ Serial3Wire.pulseLatch))
    d.clock = false ∧ d.latch = false ∧ d.stages.length = c.stages.length ∧ d.out = d.stages ∧
      ∀ k, k < n → d.stages[k]? = some (w.getLsbD (n - 1 - k)) := by
  obtain ⟨d, e⟩ := run_shiftOut c (bitsOf w) hc (by rw [bitsOf_length]; exact hn)
  simp only [run_append, e]
  simp only [seen, Serial3Wire.pulseLatch, wire, Chain.run, List.map_cons, List.map_nil, List.foldl_cons, List.foldl_nil, Chain.step, hl, hc]
  refine ⟨trivial, trivial, by simp, by simp, fun k hk => ?_⟩
  rw [List.getElem?_take, if_pos (by omega), List.getElem?_append_left (by simp [bitsOf_length]; omega), List.getElem?_reverse (by simp [bitsOf_length]; omega),
    bitsOf_length, bitsOf_get _ _ (by omega)]

theorem handler_ok (W : Nat) {n : Nat} (hW : n ≤ W) (x : Nat → Nat × Nat) (ms : List Nat) (hx : Wired n x ms) (s : St n) (m : Nat) (hm : m ∈ ms) (c : Cmd) :
    ∃ q : BitVec n, handler W x s m c = .ok { s with reg := q, pins := s.pins ++ (shiftOut (bitsOf q) ++ Serial3Wire.pulseLatch), pwm := setPwm s.pwm m (duty (args c).2.2) } ∧
      q.getLsbD (x m).1 = (args c).1 ∧ q.getLsbD (x m).2 = (args c).2.1 ∧ ∀ j, j ∉ outsAt x m → q.getLsbD j = s.reg.getLsbD j := by
  obtain ⟨q, h1, h2, h3, h4⟩ := c48_serial W hW (x m).1 (x m).2 (hx.lt m hm _ (by simp [outsAt])) (hx.lt m hm _ (by simp [outsAt])) (hx.two m hm) s.reg c
  refine ⟨q, by simp only [handler, h1, Res.bind_ok, whole W hW], h2, h3, fun j hj => ?_⟩
  simp only [outsAt, List.mem_cons, List.not_mem_nil, or_false, not_or] at hj
  exact h4 j hj.1 hj.2

/-- The two masks of a `Set`. -/
theorem masks (W : Nat) {n : Nat} (hW : n ≤ W) (i : Nat) (hi : i < n) (w : BitVec n) :
    BitArray.isValidIndex n i 1 = true ∧ ∃ m, shlOne W i = .ok m ∧ (∀ j, (w &&& ~~~(intToT n m)).getLsbD j = if j = i then false else w.getLsbD j) ∧
      ∀ j, (w ||| intToT n m).getLsbD j = if j = i then true else w.getLsbD j := by
  have hm : MaskOk W n i := ⟨hi, .inl hW⟩
  refine ⟨by simp [BitArray.isValidIndex]; omega, _, shlOne_ok hm.ltW, fun j => ?_, fun j => ?_⟩
  · by_cases hj : j < n
    · simp only [BitVec.getLsbD_and, BitVec.getLsbD_not, mask_bit hm j hj, hj]
      by_cases e : j = i <;> simp [e]
    · rw [BitVec.getLsbD_of_ge _ _ (by omega), BitVec.getLsbD_of_ge _ _ (by omega)]; simp
  · by_cases hj : j < n
    · simp only [BitVec.getLsbD_or, mask_bit hm j hj]
      by_cases e : j = i <;> simp [e]
    · rw [BitVec.getLsbD_of_ge _ _ (by omega), BitVec.getLsbD_of_ge _ _ (by omega), if_neg (by omega)]

/-- The first `i` bits have been shifted in. -/
def Filled {n : Nat} (c : Chain) (w : BitVec n) (i : Nat) : Prop := ∀ k, k < i → c.stages[k]? = some (w.getLsbD (i - 1 - k))

def isLow {n : Nat} : Pc n → Bool
  | .low _ => true | _ => false

def isUnlatch {n : Nat} : Pc n → Bool
  | .unlatch => true | _ => false

/-- The chain shows the whole word. -/
def settled {n : Nat} : Pc n → Prop
  | .idle | .unlatch | .speed => True | _ => False

/-- The first `Set` is done. -/
def past1 {n : Nat} : Pc n → Prop
  | .idle | .load false | .clear false _ | .reload false | .set false _ => False | _ => True

/-- Both are done. -/
def past2 {n : Nat} : Pc n → Prop
  | .idle | .load _ | .clear _ _ | .reload _ | .set _ _ => False | _ => True

/-- What belongs to the place of main code. -/
def AtPlace {n : Nat} (x : Nat → Nat × Nat) (c : Chain) (s : St n) : Prop :=
  match s.pc with
  | .clear b t => ∀ j, t.getLsbD j = if j = (s.target x b).1 then false else s.reg.getLsbD j
  | .reload b => (s.target x b).2 = true
  | .set b t => (s.target x b).2 = true ∧ ∀ j, t.getLsbD j = if j = (s.target x b).1 then true else s.reg.getLsbD j
  | .bit i => i ≤ n ∧ Filled c s.reg i
  | .data i b => i < n ∧ b = s.reg.getLsbD i ∧ Filled c s.reg i
  | .high i => i < n ∧ c.data = s.reg.getLsbD i ∧ Filled c s.reg i
  | .low i => i < n ∧ Filled c s.reg (i + 1)
  | .latch => Filled c s.reg n
  | _ => True

/-- The invariant of quiet histories. -/
structure Inv {n : Nat} (x : Nat → Nat × Nat) (ms : List Nat) (len : Nat) (reg0 : BitVec n) (l : List (Nat × Request)) (s : St n) (c : Chain) : Prop where
  len : c.stages.length = len
  clock : c.clock = isLow s.pc
  latch : c.latch = isUnlatch s.pc
  busy : s.pc ≠ .idle → s.motor ∈ ms ∧ ∃ r, lastRequest s.motor l none = some r ∧ s.cmd = motorCmd r
  others : ∀ m ∈ ms, (s.pc = .idle ∨ m ≠ s.motor) → ∀ r, lastRequest m l none = some r →
    s.reg.getLsbD (x m).1 = (args (motorCmd r)).1 ∧ s.reg.getLsbD (x m).2 = (args (motorCmd r)).2.1 ∧ s.pwm m = duty (args (motorCmd r)).2.2
  shown : ∀ j, j < n → (settled s.pc ∨ j ∉ outsAt x s.motor) → c.out[n - 1 - j]? = some (s.reg.getLsbD j)
  free : ∀ j, (∀ m ∈ ms, j ∉ outsAt x m) → s.reg.getLsbD j = reg0.getLsbD j
  first : past1 s.pc → s.reg.getLsbD (x s.motor).1 = (args s.cmd).1
  second : past2 s.pc → s.reg.getLsbD (x s.motor).2 = (args s.cmd).2.1
  place : AtPlace x c s

theorem target_mem {n : Nat} (x : Nat → Nat × Nat) (s : St n) (b : Bool) : (s.target x b).1 ∈ outsAt x s.motor := by
  cases b <;> simp [St.target, outsAt]

/-- The word of main code changes at one of its own outputs. -/
theorem own_store {n : Nat} {x : Nat → Nat × Nat} {ms : List Nat} (hx : Wired n x ms) {len : Nat} {reg0 : BitVec n} {l : List (Nat × Request)} {s : St n} {c : Chain}
    (h : Inv x ms len reg0 l s c) (hb : s.pc ≠ .idle) (hset : ¬ settled s.pc) (hlow : isLow s.pc = false) (hun : isUnlatch s.pc = false) (b : Bool) (t : BitVec n) (v : Bool)
    (ht : ∀ j, t.getLsbD j = if j = (s.target x b).1 then v else s.reg.getLsbD j) (p : Pc n) (hp : p ≠ .idle) (hl2 : isLow p = false) (hu2 : isUnlatch p = false)
    (hset2 : ¬ settled p)
    (h1 : past1 p → t.getLsbD (x s.motor).1 = (args s.cmd).1) (h2 : past2 p → t.getLsbD (x s.motor).2 = (args s.cmd).2.1)
    (hpl : AtPlace x c { s with reg := t, pc := p }) : Inv x ms len reg0 l { s with reg := t, pc := p } c := by
  have hm := (h.busy hb).1
  have off : ∀ j, j ∉ outsAt x s.motor → t.getLsbD j = s.reg.getLsbD j := fun j hj => by
    rw [ht, if_neg]; rintro rfl; exact hj (target_mem x s b)
  refine ⟨h.len, by rw [h.clock, hlow]; exact hl2.symm, by rw [h.latch, hun]; exact hu2.symm, fun _ => h.busy hb, fun m hmm hc r hr => ?_, fun j hj hc => ?_, fun j hj => ?_,
    h1, h2, hpl⟩
  · have hne : m ≠ s.motor := by
      rcases hc with hc | hc
      · exact absurd hc hp
      · exact hc
    obtain ⟨a1, a2, a3⟩ := h.others m hmm (.inr hne) r hr
    refine ⟨?_, ?_, a3⟩
    · show t.getLsbD _ = _
      rw [off _ (hx.apart m hmm _ hm hne _ (by simp [outsAt]))]; exact a1
    · show t.getLsbD _ = _
      rw [off _ (hx.apart m hmm _ hm hne _ (by simp [outsAt]))]; exact a2
  · have hj2 : j ∉ outsAt x s.motor := by
      rcases hc with hc | hc
      · exact absurd hc hset2
      · exact hc
    show _ = some (t.getLsbD j)
    rw [off j hj2]; exact h.shown j hj (.inr hj2)
  · show t.getLsbD j = _
    rw [off j (hj _ hm)]; exact h.free j hj

/-- Main code goes on without a change of the word, the outputs or the PWM pins. -/
theorem go_on {n : Nat} {x : Nat → Nat × Nat} {ms : List Nat} {len : Nat} {reg0 : BitVec n} {l : List (Nat × Request)} {s : St n} {c : Chain}
    (h : Inv x ms len reg0 l s c) (hb : s.pc ≠ .idle) (d : Chain) (p : Pc n) (pins : List Serial3Wire.Ev) (hp : p ≠ .idle) (hlen : d.stages.length = c.stages.length)
    (hcl : d.clock = isLow p) (hla : d.latch = isUnlatch p)
    (hout : ∀ j, j < n → (settled p ∨ j ∉ outsAt x s.motor) → d.out[n - 1 - j]? = some (s.reg.getLsbD j))
    (h1 : past1 p → past1 s.pc) (h2 : past2 p → past2 s.pc)
    (hpl : AtPlace x d { s with pc := p, pins := pins }) : Inv x ms len reg0 l { s with pc := p, pins := pins } d := by
  have hm := (h.busy hb).1
  refine ⟨by rw [hlen, h.len], hcl, hla, fun _ => h.busy hb, fun m hmm hc r hr => ?_, hout, h.free, fun hq => h.first (h1 hq), fun hq => h.second (h2 hq), hpl⟩
  rcases hc with hc | hc
  · exact absurd hc hp
  · exact h.others m hmm (.inr hc) r hr

/-- One access of main code keeps the invariant. -/
theorem main_inv (W : Nat) {n : Nat} (hW : n ≤ W) (x : Nat → Nat × Nat) (ms : List Nat) (hx : Wired n x ms) (len : Nat) (hlen : n ≤ len) (reg0 : BitVec n) (l : List (Nat × Request))
    (s : St n) (c0 : Chain) (h : Inv x ms len reg0 l s (c0.run (seen s.pins))) :
    ∃ s', mainStep W x s = .ok s' ∧ Inv x ms len reg0 l s' (c0.run (seen s'.pins)) := by
  obtain ⟨reg, pins, pwm, pc, mo, cmd⟩ := s
  have pl := h.place
  cases pc with
  | idle => exact ⟨_, rfl, h⟩
  | load b =>
    have hm := (h.busy (by simp)).1
    obtain ⟨hv, m, hs, ha, -⟩ := masks W hW _ (hx.lt mo hm _ (target_mem x ⟨reg, pins, pwm, .load b, mo, cmd⟩ b)) reg
    refine ⟨_, by simp only [mainStep, hv, hs, Res.bind_ok]; rfl, ?_⟩
    refine go_on h (by simp) _ _ pins (by simp) rfl h.clock h.latch (fun j hj hc => h.shown j hj ?_) ?_ ?_ ha
    · rcases hc with hc | hc
      · exact absurd hc (by simp [settled])
      · exact .inr hc
    · cases b <;> simp [past1]
    · cases b <;> simp [past2]
  | clear b t =>
    have hm := (h.busy (by simp)).1
    have ht : ∀ j, t.getLsbD j = if j = (St.target x (⟨reg, pins, pwm, .clear b t, mo, cmd⟩ : St n) b).1 then false else reg.getLsbD j := pl
    have two := hx.two mo hm
    refine ⟨_, rfl, ?_⟩
    by_cases hv : (St.target x (⟨reg, pins, pwm, .clear b t, mo, cmd⟩ : St n) b).2 = true
    · simp only [hv, if_true]
      refine own_store hx h (by simp) (by simp [settled]) rfl rfl b t false ht _ (by simp) rfl rfl (by simp [settled]) ?_ ?_ ?_
      · cases b
        · simp [past1]
        · intro _
          have := h.first (by simp [past1])
          show t.getLsbD (x mo).1 = _
          rw [ht, if_neg (by simpa [St.target] using two)]; exact this
      · cases b <;> simp [past2]
      · exact hv
    · have hv' : (St.target x (⟨reg, pins, pwm, .clear b t, mo, cmd⟩ : St n) b).2 = false := by simpa using hv
      simp only [hv', Bool.false_eq_true, if_false]
      cases b with
      | false =>
        refine own_store hx h (by simp) (by simp [settled]) rfl rfl false t false ht (afterSet false) (by simp [afterSet]) rfl rfl (by simp [settled, afterSet]) ?_ ?_ ?_
        · intro _
          show t.getLsbD (x mo).1 = _
          rw [ht, if_pos (by simp [St.target])]; simpa [St.target] using hv'.symm
        · simp [past2, afterSet]
        · simp [AtPlace, afterSet]
      | true =>
        refine own_store hx h (by simp) (by simp [settled]) rfl rfl true t false ht (afterSet true) (by simp [afterSet]) rfl rfl (by simp [settled, afterSet]) ?_ ?_ ?_
        · intro _
          have := h.first (by simp [past1])
          show t.getLsbD (x mo).1 = _
          rw [ht, if_neg (by simpa [St.target] using two)]; exact this
        · intro _
          show t.getLsbD (x mo).2 = _
          rw [ht, if_pos (by simp [St.target])]; simpa [St.target] using hv'.symm
        · simp only [AtPlace, afterSet, if_true]
          exact ⟨Nat.zero_le _, fun k hk => absurd hk (Nat.not_lt_zero _)⟩
  | reload b =>
    have hm := (h.busy (by simp)).1
    obtain ⟨hv, m, hs, -, ho⟩ := masks W hW _ (hx.lt mo hm _ (target_mem x ⟨reg, pins, pwm, .reload b, mo, cmd⟩ b)) reg
    refine ⟨_, by simp only [mainStep, hs, Res.bind_ok]; rfl, ?_⟩
    refine go_on h (by simp) _ _ pins (by simp) rfl h.clock h.latch (fun j hj hc => h.shown j hj ?_) ?_ ?_ ⟨pl, ho⟩
    · rcases hc with hc | hc
      · exact absurd hc (by simp [settled])
      · exact .inr hc
    · cases b <;> simp [past1]
    · cases b <;> simp [past2]
  | set b t =>
    have hm := (h.busy (by simp)).1
    obtain ⟨hv, ht⟩ : (St.target x (⟨reg, pins, pwm, .set b t, mo, cmd⟩ : St n) b).2 = true ∧
      ∀ j, t.getLsbD j = if j = (St.target x (⟨reg, pins, pwm, .set b t, mo, cmd⟩ : St n) b).1 then true else reg.getLsbD j := pl
    have two := hx.two mo hm
    refine ⟨_, rfl, ?_⟩
    cases b with
    | false =>
      refine own_store hx h (by simp) (by simp [settled]) rfl rfl false t true ht (afterSet false) (by simp [afterSet]) rfl rfl (by simp [settled, afterSet]) ?_ ?_ ?_
      · intro _
        show t.getLsbD (x mo).1 = _
        rw [ht, if_pos (by simp [St.target])]; simpa [St.target] using hv.symm
      · simp [past2, afterSet]
      · simp [AtPlace, afterSet]
    | true =>
      refine own_store hx h (by simp) (by simp [settled]) rfl rfl true t true ht (afterSet true) (by simp [afterSet]) rfl rfl (by simp [settled, afterSet]) ?_ ?_ ?_
      · intro _
        have := h.first (by simp [past1])
        show t.getLsbD (x mo).1 = _
        rw [ht, if_neg (by simpa [St.target] using two)]; exact this
      · intro _
        show t.getLsbD (x mo).2 = _
        rw [ht, if_pos (by simp [St.target])]; simpa [St.target] using hv.symm
      · simp only [AtPlace, afterSet, if_true]
        exact ⟨Nat.zero_le _, fun k hk => absurd hk (Nat.not_lt_zero _)⟩
  | bit i =>
    obtain ⟨hi, hf⟩ : i ≤ n ∧ Filled _ reg i := pl
    have hsh : ∀ j, j < n → ∀ p : Pc n, ¬ settled p → (settled p ∨ j ∉ outsAt x mo) → (c0.run (seen pins)).out[n - 1 - j]? = some (reg.getLsbD j) :=
      fun j hj p hp hc => h.shown j hj (.inr (hc.resolve_left hp))
    by_cases hlt : i < n
    · refine ⟨_, by simp only [mainStep, hlt, if_true, (c06_single_bit_partial W reg i hlt (.inl hW)).2.2.2.1, Res.bind_ok]; rfl, ?_⟩
      exact go_on h (by simp) _ (.data i (reg.getLsbD i)) pins (by simp) rfl h.clock h.latch (fun j hj hc => hsh j hj _ (by simp [settled]) hc) (by simp [past1]) (by simp [past2]) ⟨hlt, rfl, hf⟩
    · refine ⟨_, by simp only [mainStep, hlt, if_false]; rfl, ?_⟩
      have : i = n := by omega
      subst this
      exact go_on h (by simp) _ .latch pins (by simp) rfl h.clock h.latch (fun j hj hc => hsh j hj _ (by simp [settled]) hc) (by simp [past1]) (by simp [past2]) hf
  | data i b =>
    obtain ⟨hi, rfl, hf⟩ : i < n ∧ b = reg.getLsbD i ∧ Filled _ reg i := pl
    refine ⟨_, rfl, ?_⟩
    have e : c0.run (seen (pins ++ [(.data, reg.getLsbD i)])) = { c0.run (seen pins) with data := reg.getLsbD i } := by rw [run_append]; rfl
    show Inv x ms len reg0 l _ (c0.run (seen (pins ++ [(.data, reg.getLsbD i)])))
    rw [e]
    exact go_on h (by simp) _ (.high i) _ (by simp) rfl h.clock h.latch (fun j hj hc => h.shown j hj (.inr (hc.resolve_left (by simp [settled])))) (by simp [past1]) (by simp [past2]) ⟨hi, rfl, hf⟩
  | high i =>
    obtain ⟨hi, hd, hf⟩ : i < n ∧ (c0.run (seen pins)).data = reg.getLsbD i ∧ Filled (c0.run (seen pins)) reg i := pl
    refine ⟨_, rfl, ?_⟩
    have hcl : (c0.run (seen pins)).clock = false := h.clock
    have hll : (c0.run (seen pins)).stages.length = len := h.len
    have e : c0.run (seen (pins ++ [(.clock, true)])) = { c0.run (seen pins) with clock := true, stages := (reg.getLsbD i :: (c0.run (seen pins)).stages).take len } := by
      rw [run_append, rise _ hcl, hll]; simp only [hd]
    show Inv x ms len reg0 l _ (c0.run (seen (pins ++ [(.clock, true)])))
    rw [e]
    refine go_on h (by simp) _ (.low i) _ (by simp) (by simp [hll]) rfl h.latch (fun j hj hc => h.shown j hj (.inr (hc.resolve_left (by simp [settled])))) (by simp [past1]) (by simp [past2]) ⟨hi, ?_⟩
    intro k hk
    show (List.take len (reg.getLsbD i :: (c0.run (seen pins)).stages))[k]? = _
    rw [List.getElem?_take, if_pos (by omega)]
    cases k with
    | zero => simp
    | succ k =>
      rw [List.getElem?_cons_succ, hf k (by omega)]
      show _ = some (reg.getLsbD _)
      congr 2
      omega
  | low i =>
    obtain ⟨hi, hf⟩ : i < n ∧ Filled (c0.run (seen pins)) reg (i + 1) := pl
    refine ⟨_, rfl, ?_⟩
    have e : c0.run (seen (pins ++ [(.clock, false)])) = { c0.run (seen pins) with clock := false } := by rw [run_append]; rfl
    show Inv x ms len reg0 l _ (c0.run (seen (pins ++ [(.clock, false)])))
    rw [e]
    exact go_on h (by simp) _ (.bit (i + 1)) _ (by simp) rfl rfl h.latch (fun j hj hc => h.shown j hj (.inr (hc.resolve_left (by simp [settled])))) (by simp [past1]) (by simp [past2]) ⟨hi, hf⟩
  | latch =>
    have hf : Filled (c0.run (seen pins)) reg n := pl
    refine ⟨_, rfl, ?_⟩
    have hla : (c0.run (seen pins)).latch = false := h.latch
    have e : c0.run (seen (pins ++ [(.latch, true)])) = { c0.run (seen pins) with latch := true, out := (c0.run (seen pins)).stages } := by
      rw [run_append, show_ _ hla]
    show Inv x ms len reg0 l _ (c0.run (seen (pins ++ [(.latch, true)])))
    rw [e]
    refine go_on h (by simp) _ .unlatch _ (by simp) rfl h.clock rfl (fun j hj _ => ?_) (by simp [past1]) (by simp [past2]) trivial
    show (c0.run (seen pins)).stages[n - 1 - j]? = _
    rw [hf _ (by omega)]
    show some (reg.getLsbD _) = some (reg.getLsbD j)
    congr 2
    omega
  | unlatch =>
    refine ⟨_, rfl, ?_⟩
    have e : c0.run (seen (pins ++ [(.latch, false)])) = { c0.run (seen pins) with latch := false } := by rw [run_append]; rfl
    show Inv x ms len reg0 l _ (c0.run (seen (pins ++ [(.latch, false)])))
    rw [e]
    exact go_on h (by simp) _ .speed _ (by simp) rfl h.clock rfl (fun j hj _ => h.shown j hj (.inl trivial)) (by simp [past1]) (by simp [past2]) trivial
  | speed =>
    obtain ⟨hm, r, hr, hcmd⟩ := h.busy (by simp)
    refine ⟨_, rfl, h.len, h.clock, h.latch, by simp, fun m hmm _ q hq => ?_, fun j hj _ => h.shown j hj (.inl trivial), h.free, by simp [past1], by simp [past2], trivial⟩
    by_cases e : m = mo
    · subst e
      have : r = q := by
        have hr' : lastRequest m l none = some r := hr
        rw [hr'] at hq; exact Option.some.inj hq
      subst this
      have h1 := h.first (by simp [past1])
      have h2 := h.second (by simp [past2])
      have hcmd' : cmd = motorCmd r := hcmd
      subst hcmd'
      exact ⟨h1, h2, by simp [setPwm]⟩
    · obtain ⟨a1, a2, a3⟩ := h.others m hmm (.inr e) q hq
      exact ⟨a1, a2, by simp [setPwm, e]; exact a3⟩

/-- A handler at a quiet place, commanding another motor, keeps the invariant. -/
theorem handler_inv (W : Nat) {n : Nat} (hW : n ≤ W) (x : Nat → Nat × Nat) (ms : List Nat) (hx : Wired n x ms) (len : Nat) (hlen : n ≤ len) (reg0 : BitVec n) (l : List (Nat × Request))
    (s : St n) (c0 : Chain) (h : Inv x ms len reg0 l s (c0.run (seen s.pins))) (m : Nat) (hm : m ∈ ms) (r : Request) (hq : quietPlace s.pc) (hne : s.pc ≠ .idle → m ≠ s.motor) :
    ∃ s', handler W x s m (motorCmd r) = .ok s' ∧ Inv x ms len reg0 (l ++ [(m, r)]) s' (c0.run (seen s'.pins)) := by
  obtain ⟨q, e, q1, q2, q3⟩ := handler_ok W hW x ms hx s m hm (motorCmd r)
  refine ⟨_, e, ?_⟩
  have hlow : isLow s.pc = false := by
    revert hq; cases s.pc <;> simp [quietPlace, isLow]
  have hun : isUnlatch s.pc = false := by
    revert hq; cases s.pc <;> simp [quietPlace, isUnlatch]
  obtain ⟨w1, w2, w3, w4, w5⟩ := whole_chain q (c0.run (seen s.pins)) (by rw [h.clock, hlow]) (by rw [h.latch, hun]) (by rw [h.len]; exact hlen)
  rw [← run_append] at w1 w2 w3 w4 w5
  have own : s.pc ≠ .idle → ∀ i ∈ outsAt x s.motor, q.getLsbD i = s.reg.getLsbD i := fun hb i hi =>
    q3 i (hx.apart _ (h.busy hb).1 m hm (Ne.symm (hne hb)) i hi)
  have p1 : past1 s.pc → s.pc ≠ .idle := by rintro hp e; rw [e] at hp; exact hp
  have p2 : past2 s.pc → s.pc ≠ .idle := by rintro hp e; rw [e] at hp; exact hp
  refine ⟨by rw [w3, h.len], by rw [w1]; exact hlow.symm, by rw [w2]; exact hun.symm, fun hb => ?_, fun k hk hc t ht => ?_, fun j hj _ => ?_, fun j hj => ?_, fun hp => ?_,
    fun hp => ?_, ?_⟩
  · obtain ⟨b1, t, b2, b3⟩ := h.busy hb
    exact ⟨b1, t, by rw [lastRequest_snoc, if_neg (hne hb)]; exact b2, b3⟩
  · rw [lastRequest_snoc] at ht
    by_cases e : m = k
    · subst e
      rw [if_pos rfl] at ht
      cases ht
      exact ⟨q1, q2, by simp [setPwm]⟩
    · rw [if_neg e] at ht
      obtain ⟨a1, a2, a3⟩ := h.others k hk hc t ht
      exact ⟨(q3 _ (hx.apart k hk m hm (Ne.symm e) _ (by simp [outsAt]))).trans a1, (q3 _ (hx.apart k hk m hm (Ne.symm e) _ (by simp [outsAt]))).trans a2,
        by simp only [setPwm, if_neg (Ne.symm e)]; exact a3⟩
  · rw [w4, w5 _ (by omega)]
    show some (q.getLsbD _) = some (q.getLsbD j)
    congr 2; omega
  · exact (q3 j (hj m hm)).trans (h.free j hj)
  · exact (own (p1 hp) _ (by simp [outsAt])).trans (h.first hp)
  · exact (own (p2 hp) _ (by simp [outsAt])).trans (h.second hp)
  · have hpl := h.place
    have full : Filled (c0.run (seen (s.pins ++ (shiftOut (bitsOf q) ++ Serial3Wire.pulseLatch)))) q n := fun k hk => w5 k hk
    obtain ⟨reg, pins, pwm, pc, mo, cmd⟩ := s
    cases pc with
    | idle => trivial
    | load b => trivial
    | reload b => exact hpl
    | speed => trivial
    | latch => exact full
    | bit i =>
      rcases hq with rfl | rfl
      · exact ⟨Nat.zero_le _, fun k hk => absurd hk (Nat.not_lt_zero _)⟩
      · exact ⟨Nat.le_refl _, full⟩
    | clear _ _ => exact absurd hq (by simp [quietPlace])
    | set _ _ => exact absurd hq (by simp [quietPlace])
    | data _ _ => exact absurd hq (by simp [quietPlace])
    | high _ => exact absurd hq (by simp [quietPlace])
    | low _ => exact absurd hq (by simp [quietPlace])
    | unlatch => exact absurd hq (by simp [quietPlace])

theorem start_inv {n : Nat} (x : Nat → Nat × Nat) (ms : List Nat) (len : Nat) (reg0 : BitVec n) (l : List (Nat × Request)) (s : St n) (c : Chain)
    (h : Inv x ms len reg0 l s c) (m : Nat) (hm : m ∈ ms) (r : Request) (hi : s.pc = .idle) :
    Inv x ms len reg0 (l ++ [(m, r)]) { s with pc := .load false, motor := m, cmd := motorCmd r } c := by
  refine ⟨h.len, by rw [h.clock, hi]; rfl, by rw [h.latch, hi]; rfl, fun _ => ⟨hm, r, by rw [lastRequest_snoc, if_pos rfl], rfl⟩, fun k hk hc t ht => ?_,
    fun j hj _ => h.shown j hj (.inl (by rw [hi]; trivial)), h.free, by simp [past1], by simp [past2], trivial⟩
  have hne : k ≠ m := hc.resolve_left (by simp)
  rw [lastRequest_snoc, if_neg (Ne.symm hne)] at ht
  exact h.others k hk (.inl hi) t ht

theorem quiet_run (W : Nat) {n : Nat} (hW : n ≤ W) (x : Nat → Nat × Nat) (ms : List Nat) (hx : Wired n x ms) (len : Nat) (hlen : n ≤ len) (reg0 : BitVec n) (c0 : Chain) :
    ∀ (es : List Happening) (l : List (Nat × Request)) (s : St n), Inv x ms len reg0 l s (c0.run (seen s.pins)) → QuietRun W x ms s es →
      ∃ s', run W x s (es.map Happening.ev) = .ok s' ∧ Inv x ms len reg0 (l ++ asksOf es) s' (c0.run (seen s'.pins))
  | [], l, s, h, _ => ⟨s, rfl, by simpa [asksOf] using h⟩
  | e :: es, l, s, h, hq => by
    obtain ⟨hn, hr⟩ := hq
    have key : ∃ s', step W x s e.ev = .ok s' ∧ Inv x ms len reg0 (l ++ asksOf [e]) s' (c0.run (seen s'.pins)) := by
      cases e with
      | start m r => exact ⟨_, by simp only [Happening.ev, step, hn.2, if_true], start_inv x ms len reg0 l s _ h m hn.1 r hn.2⟩
      | main =>
        obtain ⟨s', e1, e2⟩ := main_inv W hW x ms hx len hlen reg0 l s c0 h
        exact ⟨s', e1, by simpa [asksOf] using e2⟩
      | handler m r => exact handler_inv W hW x ms hx len hlen reg0 l s c0 h m hn.1 r hn.2.1 hn.2.2
    obtain ⟨s1, e1, i1⟩ := key
    obtain ⟨s2, e2, i2⟩ := quiet_run W hW x ms hx len hlen reg0 c0 es _ s1 i1 (hr s1 e1)
    refine ⟨s2, by simp only [List.map_cons, run, e1, Res.bind_ok, e2], ?_⟩
    have : asksOf [e] ++ asksOf es = asksOf (e :: es) := by cases e <;> simp [asksOf]
    rwa [List.append_assoc, this] at i2

/-- The invariant after the last `setDataRegister`. -/
theorem ready_inv (W : Nat) {n : Nat} (hW : n ≤ W) (x : Nat → Nat × Nat) (ms : List Nat) (c0 : Chain) (hc : c0.clock = false) (hl : c0.latch = false) (hn : n ≤ c0.stages.length)
    (reg0 : BitVec n) (pwm : Nat → Nat) : ∃ s, ready W reg0 pwm = .ok s ∧ s.pc = .idle ∧ Inv x ms c0.stages.length reg0 [] s (c0.run (seen s.pins)) := by
  obtain ⟨w1, w2, w3, w4, w5⟩ := whole_chain reg0 c0 hc hl hn
  refine ⟨⟨reg0, _, pwm, .idle, 0, .stop⟩, by simp only [ready, whole W hW, Res.bind_ok], rfl, w3, w1, w2, by simp, fun m _ _ r hr => by simp [lastRequest] at hr, fun j hj _ => ?_, fun _ _ => rfl, by simp [past1],
    by simp [past2], trivial⟩
  show (c0.run (seen (shiftOut (bitsOf reg0) ++ Serial3Wire.pulseLatch))).out[_]? = some (reg0.getLsbD j)
  rw [w4, w5 _ (by omega)]
  congr 2; omega

end ChainIsr

theorem lines_serve (r : Request) : Serves (args (motorCmd r)).1 (args (motorCmd r)).2.1 (duty (args (motorCmd r)).2.2) (atLeastOne r) := by
  cases r with
  | stop => rfl
  | brake => rfl
  | turn cw s =>
    cases cw <;> cases s <;> simp [Serves, args, motorCmd, mode, duty, atLeastOne]

open ChainIsr

/-- **C141 (partial: handlers at quiet places, not for the motor main code is commanding).** For every wiring of motors to a chain whose word is not wider than `int`, every chain at least as
    long whatever it holds, every word and every history of commands of main code, executed access by access, and of handlers: nothing undefined happens; whenever main code is
    outside of a command every motor does what was last asked of it; outputs that belong to no motor always show what the word held for them. -/
theorem c141_quiet_partial (W : Nat) {n : Nat} (hW : n ≤ W) (x : Nat → Nat × Nat) (ms : List Nat) (hx : Wired n x ms) (c : Chain) (hc : c.clock = false) (hl : c.latch = false)
    (hn : n ≤ c.stages.length) (reg0 : BitVec n) (pwm : Nat → Nat) :
    ∃ s0, ready W reg0 pwm = .ok s0 ∧ ∀ es, QuietRun W x ms s0 es → ∃ s, run W x s0 (es.map Happening.ev) = .ok s ∧
      (s.pc = .idle → ∀ m r, m ∈ ms → lastRequest m (asksOf es) none = some r → OutputsServe n (c.run (seen s.pins)) (x m) (s.pwm m) r) ∧
      ∀ j, j < n → (∀ m ∈ ms, j ∉ outsAt x m) → (c.run (seen s.pins)).out[n - 1 - j]? = some (reg0.getLsbD j) := by
  obtain ⟨s0, e0, -, i0⟩ := ready_inv W hW x ms c hc hl hn reg0 pwm
  refine ⟨s0, e0, fun es hq => ?_⟩
  obtain ⟨s, e, i⟩ := quiet_run W hW x ms hx _ hn reg0 c es [] s0 i0 hq
  rw [List.nil_append] at i
  refine ⟨s, e, fun hi m r hm hr => ?_, fun j hj hf => ?_⟩
  · obtain ⟨a1, a2, a3⟩ := i.others m hm (.inl hi) r hr
    refine ⟨_, _, i.shown _ (hx.lt m hm _ (by simp [outsAt])) (.inl (by rw [hi]; trivial)), i.shown _ (hx.lt m hm _ (by simp [outsAt])) (.inl (by rw [hi]; trivial)), ?_⟩
    rw [a1, a2, a3]
    exact lines_serve r
  · rw [← i.free j hf]
    by_cases hb : s.pc = .idle
    · exact i.shown j hj (.inl (by rw [hb]; trivial))
    · exact i.shown j hj (.inr (hf _ (i.busy hb).1))

/-! ### Main code from a place to the end of its command -/

namespace ChainIsr

/-- Main code makes `k` accesses. -/
def mains (k : Nat) : List Ev := List.replicate k .main

theorem run_app (W : Nat) {n : Nat} (x : Nat → Nat × Nat) (s t : St n) (a b : List Ev) (h : run W x s a = .ok t) : run W x s (a ++ b) = run W x t b := by
  induction a generalizing s with
  | nil => cases h; rfl
  | cons e a ih =>
    simp only [List.cons_append, run] at h ⊢
    cases hs : step W x s e with
    | ub => rw [hs] at h; cases h
    | ok u =>
      rw [hs] at h
      simp only [Res.bind_ok] at h ⊢
      exact ih u h

theorem mains_succ (W : Nat) {n : Nat} (x : Nat → Nat × Nat) (s t : St n) (k : Nat) (h : mainStep W x s = .ok t) : run W x s (mains (k + 1)) = run W x t (mains k) := by
  simp only [mains, List.replicate_succ, run, step, h, Res.bind_ok]

theorem shift_loop (W : Nat) {n : Nat} (hW : n ≤ W) (x : Nat → Nat × Nat) : ∀ (k i : Nat) (s : St n), i + k = n → s.pc = .bit i →
    run W x s (mains (4 * k)) = .ok { s with pins := s.pins ++ shiftOut ((List.range' i k).map s.reg.getLsbD), pc := .bit n }
  | 0, i, s, hi, hp => by
    have : i = n := by omega
    subst this
    obtain ⟨reg, pins, pwm, pc, mo, cmd⟩ := s
    have hp' : pc = .bit i := hp
    subst hp'
    simp [mains, run, shiftOut]
  | k + 1, i, s, hi, hp => by
    obtain ⟨reg, pins, pwm, pc, mo, cmd⟩ := s
    have hp' : pc = .bit i := hp
    subst hp'
    have hlt : i < n := by omega
    rw [show 4 * (k + 1) = 4 * k + 1 + 1 + 1 + 1 by omega]
    rw [mains_succ W x _ ⟨reg, pins, pwm, .data i (reg.getLsbD i), mo, cmd⟩ _
      (by simp only [mainStep, hlt, if_true, (c06_single_bit_partial W reg i hlt (.inl hW)).2.2.2.1, Res.bind_ok])]
    rw [mains_succ W x _ ⟨reg, pins ++ [(.data, reg.getLsbD i)], pwm, .high i, mo, cmd⟩ _ rfl]
    rw [mains_succ W x _ ⟨reg, pins ++ [(.data, reg.getLsbD i)] ++ [(.clock, true)], pwm, .low i, mo, cmd⟩ _ rfl]
    rw [mains_succ W x _ ⟨reg, pins ++ [(.data, reg.getLsbD i)] ++ [(.clock, true)] ++ [(.clock, false)], pwm, .bit (i + 1), mo, cmd⟩ _ rfl]
    rw [shift_loop W hW x k (i + 1) _ (by omega) rfl]
    simp [List.range'_succ, shiftOut, Serial3Wire.pulseClock]

/-- From the test before bit `i` to the end. -/
theorem finish (W : Nat) {n : Nat} (hW : n ≤ W) (x : Nat → Nat × Nat) (i : Nat) (s : St n) (hi : i ≤ n) (hp : s.pc = .bit i) :
    run W x s (mains (4 * (n - i) + 4)) = .ok { s with
      pins := s.pins ++ (shiftOut ((List.range' i (n - i)).map s.reg.getLsbD) ++ Serial3Wire.pulseLatch), pwm := setPwm s.pwm s.motor (duty (args s.cmd).2.2), pc := .idle } := by
  have e : mains (4 * (n - i) + 4) = mains (4 * (n - i)) ++ mains 4 := by unfold mains; exact List.replicate_append_replicate.symm
  rw [e, run_app W x _ _ _ _ (shift_loop W hW x (n - i) i s (by omega) hp)]
  simp [mains, List.replicate_succ, run, step, mainStep, Serial3Wire.pulseLatch]

/-- Main code gets from here to the end of its command, where the word is `f` bit by bit and has been written to the chain. -/
def Done (W : Nat) {n : Nat} (x : Nat → Nat × Nat) (s : St n) (f : Nat → Bool) : Prop :=
  ∃ (k : Nat) (q : BitVec n), run W x s (mains k) = .ok { s with
      reg := q, pins := s.pins ++ (shiftOut (bitsOf q) ++ Serial3Wire.pulseLatch), pwm := setPwm s.pwm s.motor (duty (args s.cmd).2.2), pc := .idle } ∧
    ∀ j, q.getLsbD j = f j

theorem Done.step {W : Nat} {n : Nat} {x : Nat → Nat × Nat} {s t : St n} {f g : Nat → Bool} (h : mainStep W x s = .ok t) (hp : t.pins = s.pins) (hw : t.pwm = s.pwm)
    (hm : t.motor = s.motor) (hc : t.cmd = s.cmd) (hd : Done W x t f) (hfg : ∀ j, f j = g j) : Done W x s g := by
  obtain ⟨k, q, e, hq⟩ := hd
  refine ⟨k + 1, q, ?_, fun j => (hq j).trans (hfg j)⟩
  rw [mains_succ W x s t k h, e, hp, hw, hm, hc]

theorem done_bit (W : Nat) {n : Nat} (hW : n ≤ W) (x : Nat → Nat × Nat) (s : St n) (hp : s.pc = .bit 0) : Done W x s s.reg.getLsbD :=
  ⟨4 * (n - 0) + 4, s.reg, finish W hW x 0 s (Nat.zero_le _) hp, fun _ => rfl⟩

/-- The word behind a `Set`. -/
def put1 {n : Nat} (x : Nat → Nat × Nat) (s : St n) (b : Bool) (f : Nat → Bool) (j : Nat) : Bool := if j = (s.target x b).1 then (s.target x b).2 else f j

/-- The word at the end, from one before or behind the first `Set`. -/
def putRest {n : Nat} (x : Nat → Nat × Nat) (s : St n) (b : Bool) (f : Nat → Bool) : Nat → Bool := if b then f else put1 x s true f

/-- From the store of a `Set` on, given what follows it. -/
theorem done_set (W : Nat) {n : Nat} (x : Nat → Nat × Nat) (b : Bool) (reg t : BitVec n) (pins : List Serial3Wire.Ev) (pwm : Nat → Nat) (mo : Nat) (cmd : Cmd) (f : Nat → Bool)
    (hnext : Done W x (⟨t, pins, pwm, afterSet b, mo, cmd⟩ : St n) f) : Done W x ⟨reg, pins, pwm, .set b t, mo, cmd⟩ f :=
  hnext.step rfl rfl rfl rfl rfl (fun _ => rfl)

theorem done_reload (W : Nat) {n : Nat} (hW : n ≤ W) (x : Nat → Nat × Nat) (b : Bool) (reg : BitVec n) (pins : List Serial3Wire.Ev) (pwm : Nat → Nat) (mo : Nat) (cmd : Cmd)
    (g : (Nat → Bool) → Nat → Bool) (hi : ∀ i ∈ outsAt x mo, i < n)
    (hv : (St.target x (⟨reg, pins, pwm, .reload b, mo, cmd⟩ : St n) b).2 = true)
    (hnext : ∀ t : BitVec n, Done W x (⟨t, pins, pwm, afterSet b, mo, cmd⟩ : St n) (g t.getLsbD)) :
    Done W x ⟨reg, pins, pwm, .reload b, mo, cmd⟩ (g (put1 x ⟨reg, pins, pwm, .reload b, mo, cmd⟩ b reg.getLsbD)) := by
  obtain ⟨-, m, hs, -, ho⟩ := masks W hW _ (hi _ (target_mem x ⟨reg, pins, pwm, .reload b, mo, cmd⟩ b)) reg
  refine Done.step (t := ⟨reg, pins, pwm, .set b (reg ||| intToT n m), mo, cmd⟩) (by simp only [mainStep, hs, Res.bind_ok]) rfl rfl rfl rfl
    (done_set W x b reg _ pins pwm mo cmd _ (hnext _)) fun j => ?_
  congr 1
  funext i
  rw [ho i]
  unfold put1
  rw [hv]

theorem done_clear (W : Nat) {n : Nat} (hW : n ≤ W) (x : Nat → Nat × Nat) (b : Bool) (reg t : BitVec n) (pins : List Serial3Wire.Ev) (pwm : Nat → Nat) (mo : Nat) (cmd : Cmd)
    (g : (Nat → Bool) → Nat → Bool) (hi : ∀ i ∈ outsAt x mo, i < n)
    (ht : t.getLsbD (St.target x (⟨reg, pins, pwm, .clear b t, mo, cmd⟩ : St n) b).1 = false)
    (hnext : ∀ t : BitVec n, Done W x (⟨t, pins, pwm, afterSet b, mo, cmd⟩ : St n) (g t.getLsbD)) :
    Done W x ⟨reg, pins, pwm, .clear b t, mo, cmd⟩ (g (put1 x ⟨reg, pins, pwm, .clear b t, mo, cmd⟩ b t.getLsbD)) := by
  by_cases hv : (St.target x (⟨reg, pins, pwm, .clear b t, mo, cmd⟩ : St n) b).2 = true
  · exact Done.step (t := ⟨t, pins, pwm, .reload b, mo, cmd⟩) (by simp only [mainStep, hv, if_true]) rfl rfl rfl rfl
      (done_reload W hW x b t pins pwm mo cmd g hi hv hnext) fun _ => rfl
  · refine Done.step (t := ⟨t, pins, pwm, afterSet b, mo, cmd⟩) (by simp only [mainStep, hv]; rfl) rfl rfl rfl rfl (hnext t) fun j => ?_
    congr 1
    funext i
    unfold put1
    by_cases e : i = (St.target x (⟨reg, pins, pwm, .clear b t, mo, cmd⟩ : St n) b).1
    · rw [if_pos e, e, ht]; simpa using hv
    · rw [if_neg e]

theorem done_load (W : Nat) {n : Nat} (hW : n ≤ W) (x : Nat → Nat × Nat) (b : Bool) (reg : BitVec n) (pins : List Serial3Wire.Ev) (pwm : Nat → Nat) (mo : Nat) (cmd : Cmd)
    (g : (Nat → Bool) → Nat → Bool) (hi : ∀ i ∈ outsAt x mo, i < n)
    (hnext : ∀ t : BitVec n, Done W x (⟨t, pins, pwm, afterSet b, mo, cmd⟩ : St n) (g t.getLsbD)) :
    Done W x ⟨reg, pins, pwm, .load b, mo, cmd⟩ (g (put1 x ⟨reg, pins, pwm, .load b, mo, cmd⟩ b reg.getLsbD)) := by
  obtain ⟨hv, m, hs, ha, -⟩ := masks W hW _ (hi _ (target_mem x ⟨reg, pins, pwm, .load b, mo, cmd⟩ b)) reg
  refine Done.step (t := ⟨reg, pins, pwm, .clear b (reg &&& ~~~(intToT n m)), mo, cmd⟩) (by simp only [mainStep, hv, hs, Res.bind_ok]; rfl) rfl rfl rfl rfl
    (done_clear W hW x b reg _ pins pwm mo cmd g hi ((ha _).trans (if_pos rfl)) hnext) fun j => ?_
  congr 1
  funext i
  show put1 x (⟨reg, pins, pwm, .load b, mo, cmd⟩ : St n) b (reg &&& ~~~(intToT n m)).getLsbD i = _
  unfold put1
  by_cases e : i = (St.target x (⟨reg, pins, pwm, .load b, mo, cmd⟩ : St n) b).1
  · rw [if_pos e, if_pos e]
  · rw [if_neg e, if_neg e, ha, if_neg e]

/-- From behind a `Set` on. -/
theorem done_after (W : Nat) {n : Nat} (hW : n ≤ W) (x : Nat → Nat × Nat) (b : Bool) (t : BitVec n) (pins : List Serial3Wire.Ev) (pwm : Nat → Nat) (mo : Nat) (cmd : Cmd)
    (hi : ∀ i ∈ outsAt x mo, i < n) :
    Done W x (⟨t, pins, pwm, afterSet b, mo, cmd⟩ : St n) (putRest x (⟨t, pins, pwm, .idle, mo, cmd⟩ : St n) b t.getLsbD) := by
  cases b with
  | true => exact done_bit W hW x ⟨t, pins, pwm, .bit 0, mo, cmd⟩ rfl
  | false => exact done_load W hW x true t pins pwm mo cmd id hi fun t => done_bit W hW x ⟨t, pins, pwm, .bit 0, mo, cmd⟩ rfl

end ChainIsr

/-- **C141.** A command of main code that is not interrupted does what a handler's command does. -/
theorem c141_alone (W : Nat) {n : Nat} (hW : n ≤ W) (x : Nat → Nat × Nat) (ms : List Nat) (hx : Wired n x ms) (s : St n) (hs : s.pc = .idle) (m : Nat) (hm : m ∈ ms) (c : Cmd) :
    ∃ k t, handler W x s m c = .ok t ∧ t.pc = .idle ∧ run W x s (.start m c :: List.replicate k .main) = .ok { t with motor := m, cmd := c } := by
  obtain ⟨reg, pins, pwm, pc, mo, cmd⟩ := s
  have hs' : pc = .idle := hs
  subst hs'
  obtain ⟨q, e, q1, q2, q3⟩ := handler_ok W hW x ms hx ⟨reg, pins, pwm, .idle, mo, cmd⟩ m hm c
  obtain ⟨k, p, hr, hp⟩ := done_load W hW x false reg pins pwm m c (putRest x (⟨reg, pins, pwm, .idle, m, c⟩ : St n) false) (hx.lt m hm)
    (fun t => done_after W hW x false t pins pwm m c (hx.lt m hm))
  have : p = q := by
    apply BitVec.eq_of_getLsbD_eq
    intro j _
    rw [hp]
    simp only [putRest, put1, St.target, if_true, Bool.false_eq_true, if_false]
    by_cases e2 : j = (x m).2
    · rw [if_pos e2, e2, q2]
    · rw [if_neg e2]
      by_cases e1 : j = (x m).1
      · rw [if_pos e1, e1, q1]
      · rw [if_neg e1, q3 j (by simp [outsAt, e1, e2])]
  subst this
  refine ⟨k, _, e, rfl, ?_⟩
  simp only [run, step, if_true, Res.bind_ok]
  exact hr

/-! ### Whatever handlers do -/

namespace ChainIsr

theorem step_len (c : Chain) (w : Wire) (v : Bool) : (c.step w v).stages.length = c.stages.length := by
  cases w <;> simp only [Chain.step]
  split <;> simp

theorem run_len (c : Chain) (l : List (Wire × Bool)) : (c.run l).stages.length = c.stages.length := by
  induction l generalizing c with
  | nil => rfl
  | cons e l ih => exact (ih (c.step e.1 e.2)).trans (step_len c e.1 e.2)

theorem shiftOut_clock (c : Chain) (bs : List Bool) : (c.run (seen (shiftOut bs))).clock = true → c.clock = true := by
  induction bs generalizing c with
  | nil => exact fun h => h
  | cons b bs ih =>
    intro h
    have e : c.run (seen (shiftOut (b :: bs))) = (c.run (seen [(.data, b), (.clock, true), (.clock, false)])).run (seen (shiftOut bs)) := by
      rw [← run_append]; rfl
    rw [e] at h
    have := ih _ h
    simp [seen, Chain.run, wire, Chain.step] at this

theorem write_low (c : Chain) (bs : List Bool) :
    let d := c.run (seen (shiftOut bs ++ Serial3Wire.pulseLatch))
    (d.clock = true → c.clock = true) ∧ d.latch = false := by
  simp only [run_append]
  refine ⟨fun h => shiftOut_clock c bs ?_, rfl⟩
  exact h

/-- What holds of every history. -/
structure Loose {n : Nat} (ms : List Nat) (len : Nat) (s : St n) (c : Chain) : Prop where
  len : c.stages.length = len
  clock : c.clock = true → isLow s.pc = true
  latch : c.latch = true → isUnlatch s.pc = true
  busy : s.pc ≠ .idle → s.motor ∈ ms

theorem loose_main (W : Nat) {n : Nat} (hW : n ≤ W) (x : Nat → Nat × Nat) (ms : List Nat) (hx : Wired n x ms) (len : Nat) (s : St n) (c0 : Chain)
    (h : Loose ms len s (c0.run (seen s.pins))) : ∃ s', mainStep W x s = .ok s' ∧ Loose ms len s' (c0.run (seen s'.pins)) := by
  obtain ⟨reg, pins, pwm, pc, mo, cmd⟩ := s
  have keep : ∀ (r : BitVec n) (p : Pc n), isLow pc = false → isUnlatch pc = false → pc ≠ .idle →
      Loose ms len (⟨r, pins, pwm, p, mo, cmd⟩ : St n) (c0.run (seen pins)) := fun r p h1 h2 h3 =>
    ⟨h.len, fun hc => by have := h.clock hc; simp [h1] at this, fun hc => by have := h.latch hc; simp [h2] at this, fun _ => h.busy h3⟩
  have pin : ∀ (e : Serial3Wire.Ev) (p : Pc n), pc ≠ .idle →
      (((c0.run (seen pins)).run (seen [e])).clock = true → isLow p = true) → (((c0.run (seen pins)).run (seen [e])).latch = true → isUnlatch p = true) →
      Loose ms len (⟨reg, pins ++ [e], pwm, p, mo, cmd⟩ : St n) (c0.run (seen (pins ++ [e]))) := fun e p h3 h1 h2 =>
    ⟨by rw [run_append, run_len]; exact h.len, by rw [run_append]; exact h1, by rw [run_append]; exact h2, fun _ => h.busy h3⟩
  have hnc : isLow pc = false → (c0.run (seen pins)).clock = false := fun h1 => by
    cases hc : (c0.run (seen pins)).clock with
    | false => rfl
    | true => have := h.clock hc; simp [h1] at this
  have hnl : isUnlatch pc = false → (c0.run (seen pins)).latch = false := fun h1 => by
    cases hc : (c0.run (seen pins)).latch with
    | false => rfl
    | true => have := h.latch hc; simp [h1] at this
  cases pc with
  | idle => exact ⟨_, rfl, h⟩
  | load b =>
    obtain ⟨hv, m, hs, -, -⟩ := masks W hW _ (hx.lt mo (h.busy (by simp)) _ (target_mem x ⟨reg, pins, pwm, .load b, mo, cmd⟩ b)) reg
    exact ⟨_, by simp only [mainStep, hv, hs, Res.bind_ok]; rfl, keep reg _ rfl rfl (by simp)⟩
  | clear b t => exact ⟨_, rfl, keep t _ rfl rfl (by simp)⟩
  | reload b =>
    obtain ⟨hv, m, hs, -, -⟩ := masks W hW _ (hx.lt mo (h.busy (by simp)) _ (target_mem x ⟨reg, pins, pwm, .reload b, mo, cmd⟩ b)) reg
    exact ⟨_, by simp only [mainStep, hs, Res.bind_ok]; rfl, keep reg _ rfl rfl (by simp)⟩
  | set b t => exact ⟨_, rfl, keep t _ rfl rfl (by simp)⟩
  | bit i =>
    by_cases hlt : i < n
    · exact ⟨_, by simp only [mainStep, hlt, if_true, (c06_single_bit_partial W reg i hlt (.inl hW)).2.2.2.1, Res.bind_ok]; rfl, keep reg _ rfl rfl (by simp)⟩
    · exact ⟨_, by simp only [mainStep, hlt, if_false]; rfl, keep reg _ rfl rfl (by simp)⟩
  | data i b =>
    refine ⟨_, rfl, pin (.data, b) _ (by simp) (fun hc => ?_) (fun hc => ?_)⟩
    · have : (c0.run (seen pins)).clock = true := hc
      rw [hnc rfl] at this; cases this
    · have : (c0.run (seen pins)).latch = true := hc
      rw [hnl rfl] at this; cases this
  | high i =>
    refine ⟨_, rfl, pin (.clock, true) _ (by simp) (fun _ => rfl) (fun hc => ?_)⟩
    have : (c0.run (seen pins)).latch = true := hc
    rw [hnl rfl] at this; cases this
  | low i =>
    refine ⟨_, rfl, pin (.clock, false) _ (by simp) (fun hc => ?_) (fun hc => ?_)⟩
    · exact absurd hc (by simp [seen, Chain.run, wire, Chain.step])
    · have : (c0.run (seen pins)).latch = true := hc
      rw [hnl rfl] at this; cases this
  | latch =>
    refine ⟨_, rfl, pin (.latch, true) _ (by simp) (fun hc => ?_) (fun _ => rfl)⟩
    have : (c0.run (seen pins)).clock = true := hc
    rw [hnc rfl] at this; cases this
  | unlatch =>
    refine ⟨_, rfl, pin (.latch, false) _ (by simp) (fun hc => ?_) (fun hc => ?_)⟩
    · have : (c0.run (seen pins)).clock = true := hc
      rw [hnc rfl] at this; cases this
    · exact absurd hc (by simp [seen, Chain.run, wire, Chain.step])
  | speed => exact ⟨_, rfl, h.len, h.clock, h.latch, by simp⟩

theorem loose_handler (W : Nat) {n : Nat} (hW : n ≤ W) (x : Nat → Nat × Nat) (ms : List Nat) (hx : Wired n x ms) (len : Nat) (s : St n) (c0 : Chain)
    (h : Loose ms len s (c0.run (seen s.pins))) (m : Nat) (hm : m ∈ ms) (c : Cmd) : ∃ s', handler W x s m c = .ok s' ∧ s'.pc = s.pc ∧ Loose ms len s' (c0.run (seen s'.pins)) := by
  obtain ⟨q, e, -, -, -⟩ := handler_ok W hW x ms hx s m hm c
  obtain ⟨w1, w2⟩ := write_low (c0.run (seen s.pins)) (bitsOf q)
  rw [← run_append] at w1 w2
  exact ⟨_, e, rfl, by rw [run_append, run_len]; exact h.len, fun hc => h.clock (w1 hc), fun hc => (by rw [w2] at hc; cases hc), h.busy⟩

/-- All commands are for motors of `ms`. -/
def Among (ms : List Nat) (es : List Happening) : Prop := ∀ y ∈ asksOf es, y.1 ∈ ms

theorem loose_run (W : Nat) {n : Nat} (hW : n ≤ W) (x : Nat → Nat × Nat) (ms : List Nat) (hx : Wired n x ms) (len : Nat) (c0 : Chain) :
    ∀ (es : List Happening) (s : St n), Loose ms len s (c0.run (seen s.pins)) → Among ms es →
      ∃ s', run W x s (es.map Happening.ev) = .ok s' ∧ Loose ms len s' (c0.run (seen s'.pins))
  | [], s, h, _ => ⟨s, rfl, h⟩
  | e :: es, s, h, ha => by
    have key : ∃ s', step W x s e.ev = .ok s' ∧ Loose ms len s' (c0.run (seen s'.pins)) := by
      cases e with
      | start m r =>
        have hm : m ∈ ms := ha (m, r) (by simp [asksOf])
        by_cases hi : s.pc = .idle
        · refine ⟨{ s with pc := .load false, motor := m, cmd := motorCmd r }, by simp only [Happening.ev, step, hi, if_true], h.len, fun hc => ?_, fun hc => ?_, fun _ => hm⟩
          · have := h.clock hc; rw [hi] at this; exact absurd this (by simp [isLow])
          · have := h.latch hc; rw [hi] at this; exact absurd this (by simp [isUnlatch])
        · exact ⟨s, by simp only [Happening.ev, step, hi, if_false], h⟩
      | main => exact loose_main W hW x ms hx len s c0 h
      | handler m r =>
        obtain ⟨s', e1, -, e2⟩ := loose_handler W hW x ms hx len s c0 h m (ha (m, r) (by simp [asksOf])) (motorCmd r)
        exact ⟨s', e1, e2⟩
    obtain ⟨s1, e1, i1⟩ := key
    obtain ⟨s2, e2, i2⟩ := loose_run W hW x ms hx len c0 es s1 i1 (fun y hy => ha y (by cases e <;> simp [asksOf, hy]))
    exact ⟨s2, by simp only [List.map_cons, run, e1, Res.bind_ok, e2], i2⟩

end ChainIsr

/-- **C141.** Whatever handlers do at whatever places: nothing undefined happens, and the next command given while main code is outside of a command - by main code, not interrupted, or by a
    handler - makes its motor do what it asks and makes all outputs show the shared word again. -/
theorem c141_repair (W : Nat) {n : Nat} (hW : n ≤ W) (x : Nat → Nat × Nat) (ms : List Nat) (hx : Wired n x ms) (c : Chain) (hc : c.clock = false) (hl : c.latch = false)
    (hn : n ≤ c.stages.length) (reg0 : BitVec n) (pwm : Nat → Nat) :
    ∃ s0, ready W reg0 pwm = .ok s0 ∧ ∀ es, (∀ y ∈ asksOf es, y.1 ∈ ms) → ∃ s, run W x s0 (es.map Happening.ev) = .ok s ∧
      (s.pc = .idle → ∀ m r, m ∈ ms → ∀ es', (es' = [.handler m (motorCmd r)] ∨ ∃ k, es' = .start m (motorCmd r) :: List.replicate k .main) →
        ∀ s', run W x s es' = .ok s' → s'.pc = .idle →
          OutputsServe n (c.run (seen s'.pins)) (x m) (s'.pwm m) r ∧ ∀ j, j < n → (c.run (seen s'.pins)).out[n - 1 - j]? = some (s'.reg.getLsbD j)) := by
  obtain ⟨s0, e0, hi0, i0⟩ := ready_inv W hW x ms c hc hl hn reg0 pwm
  refine ⟨s0, e0, fun es ha => ?_⟩
  obtain ⟨s, e, i⟩ := loose_run W hW x ms hx c.stages.length c es s0
    ⟨i0.len, fun h => by rw [i0.clock] at h; exact h, fun h => by rw [i0.latch] at h; exact h, fun h => absurd hi0 h⟩ ha
  refine ⟨s, e, fun hi m r hm es' hes s' hr hp => ?_⟩
  have hcl : (c.run (seen s.pins)).clock = false := by
    cases h : (c.run (seen s.pins)).clock with
    | false => rfl
    | true => have := i.clock h; rw [hi] at this; cases this
  have hla : (c.run (seen s.pins)).latch = false := by
    cases h : (c.run (seen s.pins)).latch with
    | false => rfl
    | true => have := i.latch h; rw [hi] at this; cases this
  obtain ⟨q, eq, q1, q2, -⟩ := handler_ok W hW x ms hx s m hm (motorCmd r)
  obtain ⟨w1, w2, w3, w4, w5⟩ := whole_chain q (c.run (seen s.pins)) hcl hla (by rw [i.len]; exact hn)
  rw [← run_append] at w4 w5
  have fin : ∀ u : St n, u.reg = q → u.pins = s.pins ++ (shiftOut (bitsOf q) ++ Serial3Wire.pulseLatch) → u.pwm = setPwm s.pwm m (duty (args (motorCmd r)).2.2) →
      OutputsServe n (c.run (seen u.pins)) (x m) (u.pwm m) r ∧ ∀ j, j < n → (c.run (seen u.pins)).out[n - 1 - j]? = some (u.reg.getLsbD j) := by
    intro u u1 u2 u3
    have sh : ∀ j, j < n → (c.run (seen u.pins)).out[n - 1 - j]? = some (u.reg.getLsbD j) := fun j hj => by
      rw [u1, u2, w4, w5 _ (by omega)]
      congr 2; omega
    refine ⟨⟨_, _, sh _ (hx.lt m hm _ (by simp [outsAt])), sh _ (hx.lt m hm _ (by simp [outsAt])), ?_⟩, sh⟩
    rw [u1, u3, q1, q2]
    simp only [setPwm, if_true]
    exact lines_serve r
  rcases hes with rfl | ⟨k, rfl⟩
  · simp only [run, step, eq, Res.bind_ok, Res.ok.injEq] at hr
    subst hr
    exact fin _ rfl rfl rfl
  · obtain ⟨k', t, ht, htp, hk⟩ := c141_alone W hW x ms hx s hi m hm (motorCmd r)
    rw [eq] at ht
    cases ht
    have stay : ∀ (u : St n) (b : Nat), u.pc = .idle → run W x u (mains b) = .ok u := by
      intro u b hu
      induction b with
      | zero => rfl
      | succ b ih => rw [mains_succ W x u u b (by simp only [mainStep, hu])]; exact ih
    -- both numbers of accesses reach the end, where nothing changes any more
    have same : s' = { s with reg := q, pins := s.pins ++ (shiftOut (bitsOf q) ++ Serial3Wire.pulseLatch), pwm := setPwm s.pwm m (duty (args (motorCmd r)).2.2), motor := m, cmd := motorCmd r } := by
      by_cases hkk : k ≤ k'
      · have e2 : (.start m (motorCmd r) :: List.replicate k' .main : List Ev) = (.start m (motorCmd r) :: List.replicate k .main) ++ mains (k' - k) := by
          rw [List.cons_append, mains, List.replicate_append_replicate, Nat.add_sub_cancel' hkk]
        rw [e2, run_app W x _ _ _ _ hr, stay s' _ hp] at hk
        exact Res.ok.inj hk
      · have e2 : (.start m (motorCmd r) :: List.replicate k .main : List Ev) = (.start m (motorCmd r) :: List.replicate k' .main) ++ mains (k - k') := by
          rw [List.cons_append, mains, List.replicate_append_replicate, Nat.add_sub_cancel' (by omega)]
        rw [e2, run_app W x _ _ _ _ hk] at hr
        exact (Res.ok.inj (hr.symm.trans (stay _ _ (by exact hi))))
    subst same
    exact fin _ rfl rfl rfl

/-! ### What a handler does at the other places -/

namespace ChainIsr

theorem shiftOut_append (a b : List Bool) : shiftOut a ++ shiftOut b = shiftOut (a ++ b) := by simp [shiftOut]

/-- The last data written stays on the line. -/
theorem shiftOut_data (c : Chain) (bs : List Bool) (b : Bool) : (c.run (seen (shiftOut (bs ++ [b]) ++ Serial3Wire.pulseLatch))).data = b := by
  rw [← shiftOut_append, run_append, run_append]
  simp [shiftOut, seen, Serial3Wire.pulseClock, Serial3Wire.pulseLatch, Chain.run, wire, Chain.step]

/-- The rest of a word shifted in behind a whole one. -/
theorem second_shift {n : Nat} (g : Nat → Bool) (c : Chain) (hc : c.clock = false) (hl : c.latch = false) (hn : n ≤ c.stages.length)
    (hs : ∀ p, p < n → c.stages[p]? = some (g (n - 1 - p))) (k : Nat) (hk : k ≤ n) (bs : List Bool) (hb : bs.length = n - k) (j : Nat) (hj : j < n) :
    (c.run (seen (shiftOut bs ++ Serial3Wire.pulseLatch))).out[n - 1 - j]? = if j < k then some (g (n - k + j)) else bs[j - k]? := by
  obtain ⟨d, e⟩ := run_shiftOut c bs hc (by omega)
  rw [run_append, e]
  simp only [seen, Serial3Wire.pulseLatch, wire, Chain.run, List.map_cons, List.map_nil, List.foldl_cons, List.foldl_nil, Chain.step, hl]
  simp only [Bool.not_false, Bool.and_true, Bool.false_and, Bool.false_eq_true, if_true, if_false]
  rw [List.getElem?_take, if_pos (by omega)]
  by_cases h : j < k
  · rw [if_pos h, List.getElem?_append_right (by simp; omega), List.length_reverse, hb, hs _ (by omega)]
    congr 2; omega
  · rw [if_neg h, List.getElem?_append_left (by simp; omega), List.getElem?_reverse (by omega)]
    congr 1; omega

theorem rest_get {n : Nat} (q : BitVec n) (k j : Nat) (hk : k ≤ j) (hj : j < n) : ((List.range' k (n - k)).map q.getLsbD)[j - k]? = some (q.getLsbD j) := by
  rw [List.getElem?_map, List.getElem?_range' (by omega)]
  simp only [Option.map_some]
  congr 2; omega

end ChainIsr

/-- **C141 (what happens otherwise, 1).** A handler before bit `k` is fetched for the output: at the end of main code's command the outputs from `k` on are right, the `k` ones before show the
    last `k` bits of the word instead of their own. -/
theorem c141_before_bit (W : Nat) {n : Nat} (hW : n ≤ W) (x : Nat → Nat × Nat) (ms : List Nat) (hx : Wired n x ms) (c : Chain) (s : St n) (k : Nat) (hk : k ≤ n) (hp : s.pc = .bit k)
    (hc : (c.run (seen s.pins)).clock = false) (hl : (c.run (seen s.pins)).latch = false) (hn : n ≤ c.stages.length) (m : Nat) (hm : m ∈ ms) (a : Cmd) :
    ∃ s', run W x s (.handler m a :: List.replicate (4 * (n - k) + 4) .main) = .ok s' ∧ s'.pc = .idle ∧ s'.reg.getLsbD (x m).1 = (args a).1 ∧ s'.reg.getLsbD (x m).2 = (args a).2.1 ∧
      ∀ j, j < n → (c.run (seen s'.pins)).out[n - 1 - j]? = some (s'.reg.getLsbD (if j < k then n - k + j else j)) := by
  obtain ⟨q, e, q1, q2, -⟩ := handler_ok W hW x ms hx s m hm a
  obtain ⟨w1, w2, w3, -, w5⟩ := whole_chain q (c.run (seen s.pins)) hc hl (by rw [run_len]; exact hn)
  refine ⟨_, by simp only [run, step, e, Res.bind_ok]; exact finish W hW x k _ hk hp, rfl, q1, q2, fun j hj => ?_⟩
  show (c.run (seen (s.pins ++ (shiftOut (bitsOf q) ++ Serial3Wire.pulseLatch) ++ (shiftOut ((List.range' k (n - k)).map q.getLsbD) ++ Serial3Wire.pulseLatch)))).out[_]? = some (q.getLsbD _)
  rw [run_append3, second_shift q.getLsbD _ w1 w2 (by rw [w3, run_len]; exact hn) w5 k hk _ (by simp) j hj]
  by_cases h : j < k
  · rw [if_pos h, if_pos h]
  · rw [if_neg h, if_neg h, rest_get q k j (by omega) hj]

/-- **C141 (what happens otherwise, 2).** A handler between the fetch of bit `k` and the write of the data pin: as before, and output `k` shows the bit as it was before the handler. -/
theorem c141_before_data (W : Nat) {n : Nat} (hW : n ≤ W) (x : Nat → Nat × Nat) (ms : List Nat) (hx : Wired n x ms) (c : Chain) (s : St n) (k : Nat) (hk : k < n) (b : Bool)
    (hp : s.pc = .data k b) (hc : (c.run (seen s.pins)).clock = false) (hl : (c.run (seen s.pins)).latch = false) (hn : n ≤ c.stages.length) (m : Nat) (hm : m ∈ ms) (a : Cmd) :
    ∃ s', run W x s (.handler m a :: List.replicate (4 * (n - (k + 1)) + 7) .main) = .ok s' ∧ s'.pc = .idle ∧ s'.reg.getLsbD (x m).1 = (args a).1 ∧
      s'.reg.getLsbD (x m).2 = (args a).2.1 ∧
      ∀ j, j < n → (c.run (seen s'.pins)).out[n - 1 - j]? = some (if j = k then b else s'.reg.getLsbD (if j < k then n - k + j else j)) := by
  obtain ⟨reg, pins, pwm, pc, mo, cmd⟩ := s
  have hp' : pc = .data k b := hp
  subst hp'
  obtain ⟨q, e, q1, q2, -⟩ := handler_ok W hW x ms hx ⟨reg, pins, pwm, .data k b, mo, cmd⟩ m hm a
  obtain ⟨w1, w2, w3, -, w5⟩ := whole_chain q (c.run (seen pins)) hc hl (by rw [run_len]; exact hn)
  refine ⟨⟨q, pins ++ (shiftOut (bitsOf q) ++ Serial3Wire.pulseLatch) ++ [(.data, b)] ++ [(.clock, true)] ++ [(.clock, false)] ++
      (shiftOut ((List.range' (k + 1) (n - (k + 1))).map q.getLsbD) ++ Serial3Wire.pulseLatch), setPwm (setPwm pwm m (duty (args a).2.2)) mo (duty (args cmd).2.2), .idle, mo, cmd⟩,
    ?_, rfl, q1, q2, fun j hj => ?_⟩
  · simp only [run, step, e, Res.bind_ok]
    show run W x _ (mains (4 * (n - (k + 1)) + 4 + 1 + 1 + 1)) = _
    rw [mains_succ W x _ _ _ rfl, mains_succ W x _ _ _ rfl, mains_succ W x _ _ _ rfl, finish W hW x (k + 1) _ hk rfl]
  · have ep : pins ++ (shiftOut (bitsOf q) ++ Serial3Wire.pulseLatch) ++ [(.data, b)] ++ [(.clock, true)] ++ [(.clock, false)] ++
        (shiftOut ((List.range' (k + 1) (n - (k + 1))).map q.getLsbD) ++ Serial3Wire.pulseLatch) =
        pins ++ (shiftOut (bitsOf q) ++ Serial3Wire.pulseLatch) ++ (shiftOut (b :: (List.range' (k + 1) (n - (k + 1))).map q.getLsbD) ++ Serial3Wire.pulseLatch) := by
      simp [shiftOut, Serial3Wire.pulseClock]
    show (c.run (seen (pins ++ (shiftOut (bitsOf q) ++ Serial3Wire.pulseLatch) ++ [(.data, b)] ++ [(.clock, true)] ++ [(.clock, false)] ++
        (shiftOut ((List.range' (k + 1) (n - (k + 1))).map q.getLsbD) ++ Serial3Wire.pulseLatch)))).out[_]? = some (if j = k then b else q.getLsbD _)
    rw [ep, run_append3, second_shift q.getLsbD _ w1 w2 (by rw [w3, run_len]; exact hn) w5 k (by omega) _ (by simp; omega) j hj]
    by_cases h : j < k
    · rw [if_pos h, if_pos h, if_neg (by omega)]
    · rw [if_neg h, if_neg h]
      by_cases h2 : j = k
      · subst h2; simp
      · rw [if_neg h2, show j - k = (j - (k + 1)) + 1 by omega, List.getElem?_cons_succ, rest_get q (k + 1) j (by omega) hj]

/-- **C141 (what happens otherwise, 3).** A handler between the write of the data pin and the clock pulse of bit `k`: as before, and output `k` shows the last bit of the word. -/
theorem c141_before_clock (W : Nat) {n : Nat} (hW : n ≤ W) (x : Nat → Nat × Nat) (ms : List Nat) (hx : Wired n x ms) (c : Chain) (s : St n) (k : Nat) (hk : k < n)
    (hp : s.pc = .high k) (hc : (c.run (seen s.pins)).clock = false) (hl : (c.run (seen s.pins)).latch = false) (hn : n ≤ c.stages.length) (m : Nat) (hm : m ∈ ms) (a : Cmd) :
    ∃ s', run W x s (.handler m a :: List.replicate (4 * (n - (k + 1)) + 6) .main) = .ok s' ∧ s'.pc = .idle ∧ s'.reg.getLsbD (x m).1 = (args a).1 ∧
      s'.reg.getLsbD (x m).2 = (args a).2.1 ∧
      ∀ j, j < n → (c.run (seen s'.pins)).out[n - 1 - j]? = some (s'.reg.getLsbD (if j < k then n - k + j else if j = k then n - 1 else j)) := by
  obtain ⟨reg, pins, pwm, pc, mo, cmd⟩ := s
  have hp' : pc = .high k := hp
  subst hp'
  obtain ⟨q, e, q1, q2, -⟩ := handler_ok W hW x ms hx ⟨reg, pins, pwm, .high k, mo, cmd⟩ m hm a
  obtain ⟨w1, w2, w3, -, w5⟩ := whole_chain q (c.run (seen pins)) hc hl (by rw [run_len]; exact hn)
  have hd : ((c.run (seen pins)).run (seen (shiftOut (bitsOf q) ++ Serial3Wire.pulseLatch))).data = q.getLsbD (n - 1) := by
    obtain ⟨n', rfl⟩ : ∃ n', n = n' + 1 := ⟨n - 1, by omega⟩
    have : bitsOf q = (List.range' 0 n').map q.getLsbD ++ [q.getLsbD n'] := by
      simp [bitsOf, List.range'_concat]
    rw [this, shiftOut_data]; rfl
  refine ⟨⟨q, pins ++ (shiftOut (bitsOf q) ++ Serial3Wire.pulseLatch) ++ [(.clock, true)] ++ [(.clock, false)] ++
      (shiftOut ((List.range' (k + 1) (n - (k + 1))).map q.getLsbD) ++ Serial3Wire.pulseLatch), setPwm (setPwm pwm m (duty (args a).2.2)) mo (duty (args cmd).2.2), .idle, mo, cmd⟩,
    ?_, rfl, q1, q2, fun j hj => ?_⟩
  · simp only [run, step, e, Res.bind_ok]
    show run W x _ (mains (4 * (n - (k + 1)) + 4 + 1 + 1)) = _
    rw [mains_succ W x _ _ _ rfl, mains_succ W x _ _ _ rfl, finish W hW x (k + 1) _ hk rfl]
  · show (c.run (seen (pins ++ (shiftOut (bitsOf q) ++ Serial3Wire.pulseLatch) ++ [(.clock, true)] ++ [(.clock, false)] ++
        (shiftOut ((List.range' (k + 1) (n - (k + 1))).map q.getLsbD) ++ Serial3Wire.pulseLatch)))).out[_]? = some (q.getLsbD _)
    have ep : c.run (seen (pins ++ (shiftOut (bitsOf q) ++ Serial3Wire.pulseLatch) ++ [(.clock, true)] ++ [(.clock, false)] ++
        (shiftOut ((List.range' (k + 1) (n - (k + 1))).map q.getLsbD) ++ Serial3Wire.pulseLatch))) =
        ((c.run (seen pins)).run (seen (shiftOut (bitsOf q) ++ Serial3Wire.pulseLatch))).run
          (seen (shiftOut (q.getLsbD (n - 1) :: (List.range' (k + 1) (n - (k + 1))).map q.getLsbD) ++ Serial3Wire.pulseLatch)) := by
      have es : shiftOut (q.getLsbD (n - 1) :: (List.range' (k + 1) (n - (k + 1))).map q.getLsbD) ++ Serial3Wire.pulseLatch =
          [(.data, q.getLsbD (n - 1))] ++ ([(.clock, true)] ++ [(.clock, false)] ++ (shiftOut ((List.range' (k + 1) (n - (k + 1))).map q.getLsbD) ++ Serial3Wire.pulseLatch)) := by
        simp [shiftOut, Serial3Wire.pulseClock]
      rw [es, run_append _ [_] _]
      have same : ((c.run (seen pins)).run (seen (shiftOut (bitsOf q) ++ Serial3Wire.pulseLatch))).run (seen [(.data, q.getLsbD (n - 1))]) =
          (c.run (seen pins)).run (seen (shiftOut (bitsOf q) ++ Serial3Wire.pulseLatch)) := by
        rw [← hd]; rfl
      rw [same, ← run_append, ← run_append]
      simp only [List.append_assoc]
    rw [ep, second_shift q.getLsbD _ w1 w2 (by rw [w3, run_len]; exact hn) w5 k (by omega) _ (by simp; omega) j hj]
    by_cases h : j < k
    · rw [if_pos h, if_pos h]
    · rw [if_neg h, if_neg h]
      by_cases h2 : j = k
      · subst h2; simp
      · rw [if_neg h2, show j - k = (j - (k + 1)) + 1 by omega, List.getElem?_cons_succ, rest_get q (k + 1) j (by omega) hj]

/-- **C141 (what happens otherwise, 4).** A handler while the clock is high behind bit `k`: the first clock pulse of the handler is lost. The outputs behind `k` are right, those up to `k` show the
    last `k + 1` bits of the word; where that is bit 0, they show the bit main code had just shifted in. -/
theorem c141_while_clock_high (W : Nat) {n : Nat} (hW : n ≤ W) (x : Nat → Nat × Nat) (ms : List Nat) (hx : Wired n x ms) (c : Chain) (s : St n) (k : Nat) (hk : k < n)
    (hp : s.pc = .low k) (hc : (c.run (seen s.pins)).clock = true) (hl : (c.run (seen s.pins)).latch = false) (hn : n ≤ c.stages.length) (b : Bool)
    (hb : (c.run (seen s.pins)).stages[0]? = some b) (m : Nat) (hm : m ∈ ms) (a : Cmd) :
    ∃ s', run W x s (.handler m a :: List.replicate (4 * (n - (k + 1)) + 5) .main) = .ok s' ∧ s'.pc = .idle ∧ s'.reg.getLsbD (x m).1 = (args a).1 ∧
      s'.reg.getLsbD (x m).2 = (args a).2.1 ∧
      ∀ j, j < n → (c.run (seen s'.pins)).out[n - 1 - j]? =
        some (if j ≤ k then (if k = n - 1 ∧ j = 0 then b else s'.reg.getLsbD (n - 1 - k + j)) else s'.reg.getLsbD j) := by
  obtain ⟨reg, pins, pwm, pc, mo, cmd⟩ := s
  have hp' : pc = .low k := hp
  subst hp'
  obtain ⟨q, e, q1, q2, -⟩ := handler_ok W hW x ms hx ⟨reg, pins, pwm, .low k, mo, cmd⟩ m hm a
  -- the chain behind the handler
  have hlen : (c.run (seen pins)).stages.length = c.stages.length := run_len _ _
  have hrest : bitsOf q = q.getLsbD 0 :: (List.range' 1 (n - 1)).map q.getLsbD := by
    unfold bitsOf
    obtain ⟨n', rfl⟩ : ∃ n', n = n' + 1 := ⟨n - 1, by omega⟩
    rw [List.range'_succ]; rfl
  have hc' : (c.run (seen pins)).clock = true := hc
  have hl' : (c.run (seen pins)).latch = false := hl
  have hb' : (c.run (seen pins)).stages[0]? = some b := hb
  have chain : ∃ d : Chain, (c.run (seen pins)).run (seen (shiftOut (bitsOf q) ++ Serial3Wire.pulseLatch)) = d ∧ d.clock = false ∧ d.latch = false ∧ d.stages.length = c.stages.length ∧
      ∀ p, p < n → d.stages[p]? = some ((fun i => if i = 0 then b else q.getLsbD i) (n - 1 - p)) := by
    have e1 : (c.run (seen pins)).run (seen (shiftOut (bitsOf q) ++ Serial3Wire.pulseLatch)) =
        (({ c.run (seen pins) with clock := false, data := q.getLsbD 0 } : Chain).run (seen (shiftOut ((List.range' 1 (n - 1)).map q.getLsbD)))).run (seen Serial3Wire.pulseLatch) := by
      have : shiftOut (bitsOf q) ++ Serial3Wire.pulseLatch =
          [(.data, q.getLsbD 0), (.clock, true), (.clock, false)] ++ shiftOut ((List.range' 1 (n - 1)).map q.getLsbD) ++ Serial3Wire.pulseLatch := by
        rw [hrest]; simp [shiftOut, Serial3Wire.pulseClock]
      rw [this, run_append3]
      congr 2
      generalize c.run (seen pins) = d at hc'
      simp [seen, Chain.run, wire, Chain.step, hc']
    obtain ⟨d, e2⟩ := run_shiftOut ({ c.run (seen pins) with clock := false, data := q.getLsbD 0 } : Chain) ((List.range' 1 (n - 1)).map q.getLsbD) rfl
      (by show _ ≤ (c.run (seen pins)).stages.length; rw [hlen]; simp; omega)
    rw [e1, e2]
    refine ⟨_, rfl, rfl, rfl, ?_, fun p hp => ?_⟩
    · rw [run_len]; show (List.take _ _).length = _; simp [hlen]
    · show (List.take (c.run (seen pins)).stages.length (((List.range' 1 (n - 1)).map q.getLsbD).reverse ++ (c.run (seen pins)).stages))[p]? = _
      rw [hlen, List.getElem?_take, if_pos (by omega)]
      by_cases hpn : p < n - 1
      · rw [List.getElem?_append_left (by simp; omega), List.getElem?_reverse (by simp; omega), List.getElem?_map, List.getElem?_range' (by simp; omega)]
        simp only [Option.map_some, List.length_map, List.length_range']
        rw [if_neg (by omega)]
        congr 2; omega
      · rw [List.getElem?_append_right (by simp; omega)]
        simp only [List.length_reverse, List.length_map, List.length_range']
        rw [if_pos (by omega), show p - (n - 1) = 0 by omega, hb']
  obtain ⟨d, ed, d1, d2, d3, d4⟩ := chain
  refine ⟨⟨q, pins ++ (shiftOut (bitsOf q) ++ Serial3Wire.pulseLatch) ++ [(.clock, false)] ++
      (shiftOut ((List.range' (k + 1) (n - (k + 1))).map q.getLsbD) ++ Serial3Wire.pulseLatch), setPwm (setPwm pwm m (duty (args a).2.2)) mo (duty (args cmd).2.2), .idle, mo, cmd⟩,
    ?_, rfl, q1, q2, fun j hj => ?_⟩
  · simp only [run, step, e, Res.bind_ok]
    show run W x _ (mains (4 * (n - (k + 1)) + 4 + 1)) = _
    rw [mains_succ W x _ _ _ rfl, finish W hW x (k + 1) _ hk rfl]
  · show (c.run (seen (pins ++ (shiftOut (bitsOf q) ++ Serial3Wire.pulseLatch) ++ [(.clock, false)] ++
        (shiftOut ((List.range' (k + 1) (n - (k + 1))).map q.getLsbD) ++ Serial3Wire.pulseLatch)))).out[_]? =
        some (if j ≤ k then (if k = n - 1 ∧ j = 0 then b else q.getLsbD (n - 1 - k + j)) else q.getLsbD j)
    have same : d.run (seen [(.clock, false)]) = d := by
      obtain ⟨st, ou, da, cl, la⟩ := d
      have : cl = false := d1
      subst this
      simp [seen, Chain.run, wire, Chain.step]
    rw [run_append3, run_append c pins _, ed, same, second_shift (fun i => if i = 0 then b else q.getLsbD i) d d1 d2 (by omega) d4 (k + 1) hk _ (by simp) j hj]
    by_cases h : j ≤ k
    · rw [if_pos (by omega), if_pos h]
      congr 1
      by_cases h0 : k = n - 1 ∧ j = 0
      · rw [if_pos h0, if_pos (by omega)]
      · rw [if_neg h0, if_neg (by omega)]
        congr 1; omega
    · rw [if_neg (by omega), if_neg h, rest_get q (k + 1) j (by omega) hj]

/-- **C141 (what happens otherwise, 5).** A handler while the latch is high: its word is shifted in but not shown; the outputs stay what they were until something else is written. -/
theorem c141_while_latched (W : Nat) {n : Nat} (hW : n ≤ W) (x : Nat → Nat × Nat) (ms : List Nat) (hx : Wired n x ms) (c : Chain) (s : St n)
    (hp : s.pc = .unlatch) (hl : (c.run (seen s.pins)).latch = true) (m : Nat) (hm : m ∈ ms) (a : Cmd) :
    ∃ s', run W x s [.handler m a, .main, .main] = .ok s' ∧ s'.pc = .idle ∧ s'.reg.getLsbD (x m).1 = (args a).1 ∧ s'.reg.getLsbD (x m).2 = (args a).2.1 ∧
      (c.run (seen s'.pins)).out = (c.run (seen s.pins)).out := by
  obtain ⟨reg, pins, pwm, pc, mo, cmd⟩ := s
  have hp' : pc = .unlatch := hp
  subst hp'
  obtain ⟨q, e, q1, q2, -⟩ := handler_ok W hW x ms hx ⟨reg, pins, pwm, .unlatch, mo, cmd⟩ m hm a
  refine ⟨_, by simp only [run, step, e, Res.bind_ok, mainStep]; rfl, rfl, q1, q2, ?_⟩
  show (c.run (seen (pins ++ (shiftOut (bitsOf q) ++ Serial3Wire.pulseLatch) ++ [(.latch, false)]))).out = _
  rw [run_append, run_append, run_append]
  have keep : ∀ (bs : List Bool) (d : Chain), (d.run (seen (shiftOut bs))).out = d.out ∧ (d.run (seen (shiftOut bs))).latch = d.latch := by
    intro bs
    induction bs with
    | nil => exact fun d => ⟨rfl, rfl⟩
    | cons b bs ih =>
      intro d
      have e : d.run (seen (shiftOut (b :: bs))) = (d.run (seen [(.data, b), (.clock, true), (.clock, false)])).run (seen (shiftOut bs)) := by
        rw [← run_append]; rfl
      rw [e]
      exact ⟨(ih _).1, (ih _).2⟩
  obtain ⟨k1, k2⟩ := keep (bitsOf q) (c.run (seen pins))
  have hl' : (c.run (seen pins)).latch = true := hl
  generalize (c.run (seen pins)).run (seen (shiftOut (bitsOf q))) = d at k1 k2
  rw [hl'] at k2
  refine Eq.trans ?_ k1
  simp [seen, Serial3Wire.pulseLatch, wire, Chain.run, Chain.step, k2]

/-- **C141 (what happens otherwise, 6).** A handler between a load of the shared word by main code and the store that belongs to it: at the end of main code's command the motor of the handler
    has the lines it had before the handler, in the word and at the outputs, with the speed the handler asked for. -/
theorem c141_undone (W : Nat) {n : Nat} (hW : n ≤ W) (x : Nat → Nat × Nat) (ms : List Nat) (hx : Wired n x ms) (c : Chain) (s : St n) (b v : Bool) (t : BitVec n)
    (hp : s.pc = if v then .set b t else .clear b t) (ht : ∀ j, t.getLsbD j = if j = (s.target x b).1 then v else s.reg.getLsbD j)
    (hc : (c.run (seen s.pins)).clock = false) (hl : (c.run (seen s.pins)).latch = false) (hn : n ≤ c.stages.length)
    (hmo : s.motor ∈ ms) (m : Nat) (hm : m ∈ ms) (hne : m ≠ s.motor) (a : Cmd) :
    ∃ k s', run W x s (.handler m a :: List.replicate k .main) = .ok s' ∧ s'.pc = .idle ∧ s'.pwm m = duty (args a).2.2 ∧
      ∀ i ∈ outsAt x m, s'.reg.getLsbD i = s.reg.getLsbD i ∧ (c.run (seen s'.pins)).out[n - 1 - i]? = some (s.reg.getLsbD i) := by
  obtain ⟨reg, pins, pwm, pc, mo, cmd⟩ := s
  have hp' : pc = if v then .set b t else .clear b t := hp
  subst hp'
  obtain ⟨q, e, -, -, -⟩ := handler_ok W hW x ms hx ⟨reg, pins, pwm, if v then .set b t else .clear b t, mo, cmd⟩ m hm a
  obtain ⟨w1, w2, w3, -, -⟩ := whole_chain q (c.run (seen pins)) hc hl (by rw [run_len]; exact hn)
  have far : ∀ i ∈ outsAt x m, i ≠ (x mo).1 ∧ i ≠ (x mo).2 := fun i hi => by
    have := hx.apart m hm mo hmo hne i hi
    simpa [outsAt] using this
  have tgt : ∀ (u : St n) (d : Bool), u.motor = mo → ∀ i ∈ outsAt x m, i ≠ (u.target x d).1 := fun u d hu i hi => by
    cases d
    · simpa [St.target, hu] using (far i hi).1
    · simpa [St.target, hu] using (far i hi).2
  have done : ∃ f : Nat → Bool, Done W x (⟨q, pins ++ (shiftOut (bitsOf q) ++ Serial3Wire.pulseLatch), setPwm pwm m (duty (args a).2.2), if v then .set b t else .clear b t, mo, cmd⟩ : St n) f ∧
      ∀ i ∈ outsAt x m, f i = t.getLsbD i := by
    have rest : ∀ (u : St n) (g : Nat → Bool), u.motor = mo → ∀ i ∈ outsAt x m, putRest x u b g i = g i := fun u g hu i hi => by
      unfold putRest
      cases b
      · simp only [Bool.false_eq_true, if_false, put1, if_neg (tgt u true hu i hi)]
      · rfl
    cases v with
    | true => exact ⟨_, done_set W x b q t _ _ mo cmd _ (done_after W hW x b t _ _ mo cmd (hx.lt mo hmo)), fun i hi => rest _ _ rfl i hi⟩
    | false =>
      refine ⟨_, done_clear W hW x b q t _ _ mo cmd (putRest x (⟨t, pins, pwm, .idle, mo, cmd⟩ : St n) b) (hx.lt mo hmo) ((ht _).trans (if_pos rfl))
        (fun t => done_after W hW x b t _ _ mo cmd (hx.lt mo hmo)), fun i hi => ?_⟩
      rw [rest _ _ rfl i hi]
      unfold put1
      rw [if_neg (tgt _ b rfl i hi)]
  obtain ⟨f, ⟨k, p, hr, hpf⟩, hf⟩ := done
  have ti : ∀ i ∈ outsAt x m, p.getLsbD i = reg.getLsbD i := fun i hi => by
    rw [hpf, hf i hi, ht, if_neg (tgt _ b rfl i hi)]
  refine ⟨k, _, by simp only [run, step, e, Res.bind_ok]; exact hr, rfl, by simp [setPwm, hne], fun i hi => ⟨ti i hi, ?_⟩⟩
  obtain ⟨-, -, -, v4, v5⟩ := whole_chain p ((c.run (seen pins)).run (seen (shiftOut (bitsOf q) ++ Serial3Wire.pulseLatch))) w1 w2 (by rw [w3, run_len]; exact hn)
  show (c.run (seen (pins ++ (shiftOut (bitsOf q) ++ Serial3Wire.pulseLatch) ++ (shiftOut (bitsOf p) ++ Serial3Wire.pulseLatch)))).out[_]? = some (reg.getLsbD i)
  have hi' := hx.lt m hm i hi
  rw [run_append3, v4, v5 _ (by omega), ← ti i hi]
  congr 2; omega

/-! ### Cases -/

namespace ChainCase

/-- Two motors on a chain of eight. -/
def x : Nat → Nat × Nat := fun m => (2 * m, 2 * m + 1)

def c : Chain := ⟨[true, false, true, true, false, true, false, false], [], true, false, false⟩

theorem wired : Wired 8 x [0, 1] := by
  refine ⟨?_, ?_, ?_⟩ <;> simp [x, outsAt]

/-- Main code at work without a handler. -/
def idles (k : Nat) : List Happening := List.replicate k .main

def s0 : St 8 := ⟨0, (shiftOut (ChainIsr.bitsOf (0#8)) ++ Serial3Wire.pulseLatch), fun _ => 0, .idle, 0, .stop⟩

/-- A handler starts motor 1, main code starts motor 0, and after `a` accesses a handler stops motor 1. -/
def history (a : Nat) : List Happening := [.handler 1 (.turn true 200), .start 0 (.turn false 100)] ++ idles a ++ [.handler 1 .stop] ++ idles 44

/-- The lines of motors 0 and 1 at the chip and whether main code is at the end. -/
def lines (es : List Happening) : List (Option Bool) × Bool :=
  match run 16 x s0 (es.map Happening.ev) with
  | .ok s => ([0, 1, 2, 3].map fun j => (c.run (seen s.pins)).out[7 - j]?, s.pc = .idle)
  | .ub => ([], false)

end ChainCase

open ChainCase in
example : ready 16 (0#8) (fun _ => 0) = .ok s0 := by
  simp only [ready, ChainIsr.whole 16 (by decide : 8 ≤ 16) (0#8), Res.bind_ok]; rfl

/-- Quiet places: handlers at the start, between the two `Set`, before the first bit, before the latch, before the PWM. -/
example : ∀ a ∈ [0, 2, 4, 6, 38, 39, 41, 42], QuietRun 16 ChainCase.x [0, 1] ChainCase.s0 (ChainCase.history a) ∧
    ChainCase.lines (ChainCase.history a) = ([some false, some true, some false, some false], true) := by
  decide +kernel

example := c141_quiet_partial 16 (by decide) ChainCase.x [0, 1] ChainCase.wired ChainCase.c rfl rfl (by decide) (0#8) (fun _ => 0)
example := c141_repair 16 (by decide) ChainCase.x [0, 1] ChainCase.wired ChainCase.c rfl rfl (by decide) (0#8) (fun _ => 0)
example := c141_alone 16 (by decide) ChainCase.x [0, 1] ChainCase.wired ChainCase.s0 rfl 1 (by simp) (.clockwise 9)

/-- After `a` accesses of main code: its place, the clock, the latch, the stage next to the data pin, the word. -/
def ChainCase.view (a : Nat) : Option (Pc 8 × Bool × Bool × Option Bool × BitVec 8) :=
  let es : List Happening := [.handler 1 (.turn true 200), .start 0 (.turn false 100)] ++ ChainCase.idles a
  match run 16 ChainCase.x ChainCase.s0 (es.map Happening.ev) with
  | .ok s => let d := ChainCase.c.run (seen s.pins); some (s.pc, d.clock, d.latch, d.stages[0]?, s.reg)
  | .ub => none

/-- Between load and store of the first `Set` (the value to be stored is the word with bit 0 cleared), before bit 3, before its data pin, before its clock pulse, with the clock high, with the latch high. -/
example : ChainCase.view 1 = some (.clear false 4#8, false, false, some false, 4#8) ∧
    ChainCase.view 18 = some (.bit 3, false, false, some true, 6#8) ∧
    ChainCase.view 19 = some (.data 3 false, false, false, some true, 6#8) ∧ ChainCase.view 20 = some (.high 3, false, false, some true, 6#8) ∧
    ChainCase.view 21 = some (.low 3, true, false, some false, 6#8) ∧ ChainCase.view 40 = some (.unlatch, false, true, some false, 6#8) := by
  refine ⟨?_, ?_, ?_, ?_, ?_, ?_⟩ <;> decide +kernel

/-- **C141 fails (1)**: a handler stops motor 1 while main code commands motor 0, and at the end motor 1 still turns (its lines are high and low): between load and store of each of the three
    changes of the word, between the fetch of its bit and the write of the data pin, and while the latch is high. -/
theorem c141_stop_fails : ∀ a ∈ [1, 3, 5, 15, 40], ChainCase.lines (ChainCase.history a) = ((ChainCase.lines (ChainCase.history a)).1.take 2 ++ [some true, some false], true) := by
  decide +kernel

/-- **C141 fails (2)**: main code turns motor 0 counterclockwise (lines low and high) and a handler stops motor 1 inside the output: motor 0 stands, or turns clockwise. -/
theorem c141_garbled_fails : (∀ a ∈ [12, 18, 22, 26, 30], ChainCase.lines (ChainCase.history a) = ([some false, some false, some false, some false], true)) ∧
    ∀ a ∈ [33, 34, 35, 36], ChainCase.lines (ChainCase.history a) = ([some true, some false, some false, some false], true) := by
  decide +kernel

/-- What the claim would say without the condition on places. -/
def ChainClaim : Prop :=
  ∀ (x : Nat → Nat × Nat) (ms : List Nat), Wired 8 x ms → ∀ (c : Chain), c.clock = false → c.latch = false → 8 ≤ c.stages.length → ∀ (s0 : St 8), ready 16 (0#8) (fun _ => 0) = .ok s0 →
    ∀ es, Along 16 x (SensibleNow ms) s0 es → ∀ s, run 16 x s0 (es.map Happening.ev) = .ok s → s.pc = .idle → ∀ m r, m ∈ ms → lastRequest m (asksOf es) none = some r →
      OutputsServe 8 (c.run (seen s.pins)) (x m) (s.pwm m) r

theorem c141_full_claim_is_false : ¬ ChainClaim := by
  intro h
  have h0 : ready 16 (0#8) (fun _ => 0) = .ok ChainCase.s0 := by
    simp only [ready, ChainIsr.whole 16 (by decide : 8 ≤ 16) (0#8), Res.bind_ok]; rfl
  have hs : Along 16 ChainCase.x (SensibleNow [0, 1]) ChainCase.s0 (ChainCase.history 1) := by decide +kernel
  have hl : ChainCase.lines (ChainCase.history 1) = ([some false, some true, some true, some false], true) := by decide +kernel
  unfold ChainCase.lines at hl
  cases hr : run 16 ChainCase.x ChainCase.s0 ((ChainCase.history 1).map Happening.ev) with
  | ub => rw [hr] at hl; cases hl
  | ok s =>
    rw [hr] at hl
    simp only [List.map_cons, List.map_nil, Prod.mk.injEq, List.cons.injEq, decide_eq_true_eq, and_true] at hl
    obtain ⟨⟨-, -, l2, l3⟩, hi⟩ := hl
    obtain ⟨b1, b2, e1, e2, hsv⟩ := h ChainCase.x [0, 1] ChainCase.wired ChainCase.c rfl rfl (by decide) ChainCase.s0 h0 _ hs s hr hi 1 .stop (by simp) (by decide +kernel)
    have e1' : (ChainCase.c.run (seen s.pins)).out[7 - 2]? = some b1 := e1
    have e2' : (ChainCase.c.run (seen s.pins)).out[7 - 3]? = some b2 := e2
    rw [l2] at e1'
    rw [l3] at e2'
    cases e1'
    cases e2'
    exact absurd hsv (by simp [Serves, atLeastOne, mode])

end Atl.Props
