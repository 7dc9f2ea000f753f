import Verif.Model.PortBits
import Verif.Spec.UsartBits
import Verif.Props.UsartBits
import Verif.Props.Port

/- C130: pins, timer interrupts and power switches that share a register, operated by main code and interrupt handlers. -/
namespace Atl.Props
open Atl
open Atl.Usart (Mem)
open Atl.Port Atl.Port.Shared Atl.Spec.Switches
namespace Shared

/-- The data sheet: where each switch is (address, bit), and whether a one there means off. -/
def place : Switch → Nat × Nat
  | .level port pin => (0x22 + 3 * port, pin)
  | .direction port pin => (0x21 + 3 * port, pin)
  | .overflow i => (0x6E + i, 0)
  | .compareA i => (0x6E + i, 1)
  | .compareB i => (0x6E + i, 2)
  | .power id => (0x64, if id = 0 then 1 else 4)

/-- A power reduction bit is set when the power is off. -/
def inverse : Switch → Bool
  | .power _ => true
  | _ => false

/-- Ports A to F, eight pins each, timers 0 to 3 and USARTs 0 and 1. -/
def Present : Switch → Prop
  | .level port pin => port < 6 ∧ pin < 8
  | .direction port pin => port < 6 ∧ pin < 8
  | .overflow i => i < 4
  | .compareA i => i < 4
  | .compareB i => i < 4
  | .power id => id < 2

instance (s : Switch) : Decidable (Present s) := by cases s <;> unfold Present <;> infer_instance

/-- How the switch is. -/
def isOn (s : Switch) (m : Mem) : Bool := memAt m (place s).1 (place s).2 ^^ inverse s

/-- The two are in one register. -/
def Neighbours (s t : Switch) : Prop := (place s).1 = (place t).1

instance (s t : Switch) : Decidable (Neighbours s t) := inferInstanceAs (Decidable (_ = _))

/-- The request a call makes. -/
def asks (c : Call) : Switch × Bool := (c.switch, c.on)

theorem addr_place (s : Switch) : s.addr = (place s).1 := by
  cases s <;> simp only [Switch.addr, place, aPort, aDdr, Usart.aPRR0] <;> omega

theorem bit_lt (s : Switch) (h : Present s) : (place s).2 < 8 := by
  cases s <;> simp only [Present, place] at * <;> (try split) <;> omega

/-- Different switches are in different places. -/
theorem place_inj (s t : Switch) (hs : Present s) (ht : Present t) (h1 : (place s).1 = (place t).1) (h2 : (place s).2 = (place t).2) : s = t := by
  cases s <;> cases t <;> simp only [Present, place] at * <;> (try omega) <;>
    first
    | (congr 1 <;> omega)
    | (congr 1; split at h2 <;> split at h2 <;> omega)

/-- What a call stores, bit by bit. -/
theorem stored_bit (c : Call) (h : Present c.switch) (t : BitVec 8) (j : Nat) :
    (c.stored t).getLsbD j = if j = (place c.switch).2 then (c.on ^^ inverse c.switch) else t.getLsbD j := by
  obtain ⟨s, on⟩ := c
  cases s with
  | level port pin => cases on <;> simp [Call.stored, place, inverse, or_mask _ _ _ h.2, and_mask _ _ _ h.2]
  | direction port pin => cases on <;> simp [Call.stored, place, inverse, or_mask _ _ _ h.2, and_mask _ _ _ h.2]
  | overflow i =>
    have h1 := or_mask t 0 j (by omega); have h2 := and_mask t 0 j (by omega)
    cases on <;> simp only [Call.stored, place, inverse, if_true, if_false, Bool.false_eq_true]
    · exact h2
    · exact h1
  | compareA i =>
    have h1 := or_mask t 1 j (by omega); have h2 := and_mask t 1 j (by omega)
    cases on <;> simp only [Call.stored, place, inverse, if_true, if_false, Bool.false_eq_true]
    · exact h2
    · exact h1
  | compareB i =>
    have h1 := or_mask t 2 j (by omega); have h2 := and_mask t 2 j (by omega)
    cases on <;> simp only [Call.stored, place, inverse, if_true, if_false, Bool.false_eq_true]
    · exact h2
    · exact h1
  | power id =>
    have hb : Usart.prUsart id < 8 := by unfold Usart.prUsart; split <;> omega
    cases on <;> simp only [Call.stored, place, inverse, if_true, if_false, Bool.false_eq_true, bit_set _ hb, bit_clear _ hb] <;> rfl

/-- An uninterrupted call is a load and a store. -/
theorem exec_eq (c : Call) (m : Mem) : c.exec m = m.put c.switch.addr (c.stored (m c.switch.addr)) := by
  obtain ⟨s, on⟩ := c
  cases s <;> cases on <;> rfl

theorem exec_memAt (c : Call) (h : Present c.switch) (m : Mem) (a j : Nat) :
    memAt (c.exec m) a j = if (a, j) = place c.switch then (c.on ^^ inverse c.switch) else memAt m a j := by
  rw [exec_eq, put_memAt, addr_place]
  by_cases ha : a = (place c.switch).1
  · rw [if_pos ha, stored_bit c h]
    by_cases hj : j = (place c.switch).2
    · rw [if_pos hj, if_pos (by rw [ha, hj])]
    · rw [if_neg hj, if_neg (fun e => hj (congrArg Prod.snd e)), ← ha]; rfl
  · rw [if_neg ha, if_neg (fun e => ha (congrArg Prod.fst e))]

theorem handler_isOn (cs : List Call) (hc : ∀ c ∈ cs, Present c.switch) (m : Mem) (s : Switch) (hs : Present s) :
    isOn s (handler cs m) = (last s (cs.map asks)).getD (isOn s m) := by
  induction cs generalizing m with
  | nil => rfl
  | cons c cs ih =>
    show isOn s (handler cs (c.exec m)) = _
    rw [ih (fun x hx => hc x (by simp [hx]))]
    simp only [List.map_cons, last, asks]
    cases last s (cs.map asks) with
    | some v => rfl
    | none =>
      have hx := hc c (by simp)
      show isOn s (c.exec m) = _
      unfold isOn
      rw [exec_memAt c hx]
      by_cases he : c.switch = s
      · subst he; simp
      · rw [if_neg (fun e => he (place_inj _ _ hx hs (congrArg Prod.fst e).symm (congrArg Prod.snd e).symm)), if_neg he]; rfl

theorem handler_rest (cs : List Call) (hc : ∀ c ∈ cs, Present c.switch) (m : Mem) (a j : Nat) (h : ∀ c ∈ cs, (a, j) ≠ place c.switch) :
    memAt (handler cs m) a j = memAt m a j := by
  induction cs generalizing m with
  | nil => rfl
  | cons c cs ih =>
    show memAt (handler cs (c.exec m)) a j = _
    rw [ih (fun x hx => hc x (by simp [hx])) _ (fun x hx => h x (by simp [hx])), exec_memAt c (hc c (by simp)), if_neg (h c (by simp))]

/-- The requests inside a call that are not overwritten. -/
def unaffected (c : Call) (cs : List Call) : List Call := cs.filter fun x => decide (¬ Neighbours x.switch c.switch)

/-- What remains of a call and those inside it. -/
def remaining (x : Call × List Call) : List Call := unaffected x.1 x.2 ++ [x.1]

/-- All requests, in the order of their stores. -/
def everything (x : Call × List Call) : List Call := x.2 ++ [x.1]

theorem kept_exists (c : Call) (cs : List Call) (hc : ∀ x ∈ cs, Present x.switch) : ∀ x ∈ unaffected c cs, Present x.switch :=
  fun x hx => hc x (List.mem_filter.1 hx).1

/-- Registers do not influence each other. -/
theorem handler_at (cs : List Call) (m : Mem) (a : Nat) :
    handler cs m a = handler (cs.filter fun x => decide ((place x.switch).1 = a)) m a ∧ ∀ m', m a = m' a → handler cs m a = handler cs m' a := by
  induction cs generalizing m with
  | nil => exact ⟨rfl, fun _ h => h⟩
  | cons x cs ih =>
    have step : ∀ m' : Mem, m a = m' a → x.exec m a = x.exec m' a := by
      intro m' h
      rw [exec_eq, exec_eq]
      unfold Mem.put
      by_cases hx : a = x.switch.addr
      · rw [if_pos hx, if_pos hx, ← hx, h]
      · rw [if_neg hx, if_neg hx, h]
    refine ⟨?_, fun m' h => (ih (x.exec m)).2 _ (step m' h)⟩
    by_cases hx : (place x.switch).1 = a
    · rw [List.filter_cons_of_pos (by simpa using hx)]
      exact (ih (x.exec m)).1
    · rw [List.filter_cons_of_neg (by simpa using hx)]
      show handler cs (x.exec m) a = _
      rw [(ih (x.exec m)).2 m, (ih m).1]
      rw [exec_eq]
      unfold Mem.put
      rw [if_neg]
      rw [addr_place]; exact fun h => hx h.symm

theorem handler_append (a b : List Call) (m : Mem) : handler (a ++ b) m = handler b (handler a m) := by
  unfold handler; rw [List.foldl_append]

/-- A call with others inside it does what those that remain do one after another. -/
theorem during_eq (c : Call) (g : List Call) (m : Mem) : during c g m = handler (remaining (c, g)) m := by
  funext a
  unfold during remaining
  rw [handler_append]
  show _ = c.exec (handler (unaffected c g) m) a
  rw [exec_eq]
  unfold Mem.put
  by_cases ha : a = c.switch.addr
  · simp only [if_pos ha]
    have e : ∀ l : List Call, (∀ x ∈ l, ¬ Neighbours x.switch c.switch) → handler l m c.switch.addr = m c.switch.addr := by
      intro l hl
      rw [(handler_at l m _).1]
      rw [List.filter_eq_nil_iff.2]
      · rfl
      · intro x hx
        have := hl x hx
        unfold Neighbours at this
        rw [addr_place]
        simpa using this
    rw [e (unaffected c g)]
    intro x hx
    have := (List.mem_filter.1 hx).2
    simpa using this
  · simp only [if_neg ha]
    rw [(handler_at g m a).1, (handler_at (unaffected c g) m a).1]
    congr 1
    unfold unaffected
    rw [List.filter_filter]
    congr 1
    funext x
    by_cases h : (place x.switch).1 = a
    · have : ¬ Neighbours x.switch c.switch := by
        unfold Neighbours; rw [← addr_place c.switch, h]; exact ha
      simp [h, this]
    · simp [h]

theorem run_eq (l : List (Call × List Call)) (m : Mem) : Shared.run l m = handler (l.flatMap remaining) m := by
  induction l generalizing m with
  | nil => rfl
  | cons x l ih =>
    show Shared.run l (during x.1 x.2 m) = _
    rw [ih, during_eq, ← handler_append]
    rfl

end Shared
open Shared

/-- **C130, exactly.** Main code and handlers operate pins, timer interrupts and USART power switches in any order, handlers also between the load and the store of a call by main code:
    afterwards every switch is as last requested, where exactly those requests do not count that a handler makes inside a call for a switch of
    the same register. Nothing else in memory changes. -/
theorem c130_exact (l : List (Call × List Call)) (hl : ∀ x ∈ l, ∀ c ∈ everything x, Present c.switch) (m : Mem) :
    (∀ s, Present s → isOn s (Shared.run l m) = (last s ((l.flatMap remaining).map asks)).getD (isOn s m)) ∧
    (∀ a j, (∀ x ∈ l, ∀ c ∈ everything x, (a, j) ≠ place c.switch) → memAt (Shared.run l m) a j = memAt m a j) := by
  have sub : ∀ x, ∀ c ∈ remaining x, c ∈ everything x := by
    intro x c hc
    unfold remaining everything at *
    rcases List.mem_append.1 hc with h | h
    · exact List.mem_append_left _ (List.mem_filter.1 h).1
    · exact List.mem_append_right _ h
  have he : ∀ c ∈ l.flatMap remaining, ∃ x ∈ l, c ∈ everything x := by
    intro c hc
    obtain ⟨x, hx, hc⟩ := List.mem_flatMap.1 hc
    exact ⟨x, hx, sub x c hc⟩
  have hex : ∀ c ∈ l.flatMap remaining, Present c.switch := fun c hc => by
    obtain ⟨x, hx, hc⟩ := he c hc
    exact hl x hx c hc
  rw [Shared.run_eq]
  refine ⟨fun s hs => handler_isOn _ hex m s hs, fun a j h => handler_rest _ hex m a j fun c hc => ?_⟩
  obtain ⟨x, hx, hc⟩ := he c hc
  exact h x hx c hc

example := c130_exact [(⟨.level 1 3, true⟩, [⟨.level 1 5, false⟩, ⟨.level 2 3, true⟩]), (⟨.power 0, false⟩, [⟨.overflow 1, true⟩])] (by decide) (fun _ => 0xA5#8)

/-- **C130, partial.** If no handler operates another switch of the same register inside a call - interrupts are off during it, or the compiler makes one instruction
    of it, or handlers keep to other registers - every switch is as last requested. Missing: handlers that operate a neighbouring switch
    there. -/
theorem c130_last_partial (l : List (Call × List Call)) (hl : ∀ x ∈ l, ∀ c ∈ everything x, Present c.switch)
    (hw : ∀ x ∈ l, ∀ y ∈ x.2, Neighbours y.switch x.1.switch → y.switch = x.1.switch) (m : Mem) (s : Switch) (hs : Present s) :
    isOn s (Shared.run l m) = (last s ((l.flatMap everything).map asks)).getD (isOn s m) := by
  rw [(c130_exact l hl m).1 s hs]
  congr 1
  clear hl
  induction l with
  | nil => rfl
  | cons x l ih =>
    simp only [List.flatMap_cons, List.map_append, last_append]
    rw [ih (fun y hy => hw y (by simp [hy]))]
    congr 1
    obtain ⟨c, g⟩ := x
    have hx : ∀ y ∈ g, Neighbours y.switch c.switch → y.switch = c.switch := hw (c, g) (by simp)
    unfold remaining everything
    simp only [List.map_append, last_append]
    have one : last s ([c].map asks) = if c.switch = s then some c.on else none := rfl
    rw [one]
    by_cases hc : c.switch = s
    · simp [hc]
    · simp only [if_neg hc, Option.none_or]
      clear hw ih
      induction g with
      | nil => rfl
      | cons y g ih =>
        have ih := ih (fun z hz => hx z (by simp [hz]))
        by_cases hy : Neighbours y.switch c.switch
        · have e : unaffected c (y :: g) = unaffected c g := by simp [unaffected, hy]
          rw [e, ih]
          have hys : ¬ y.switch = s := by rw [hx y (by simp) hy]; exact hc
          simp only [List.map_cons, last, asks, if_neg hys]
          cases last s (g.map asks) <;> rfl
        · have e : unaffected c (y :: g) = y :: unaffected c g := by simp [unaffected, hy]
          rw [e]
          simp only [List.map_cons, last, ih]

example := c130_last_partial [(⟨.level 1 3, true⟩, [⟨.level 1 3, false⟩, ⟨.level 2 3, true⟩]), (⟨.power 0, false⟩, [⟨.overflow 1, true⟩])] (by decide) (by decide) (fun _ => 0xA5#8)
  (.level 1 3) (by decide)

/-- **C130 fails.** For any two different switches of one register: while main code operates the one, a handler's change of the other, between main's load and store, is undone. -/
theorem c130_lost_fails (c h : Call) (hc : Present c.switch) (hh : Present h.switch) (hn : Neighbours h.switch c.switch) (hd : h.switch ≠ c.switch) (m : Mem)
    (hm : isOn h.switch m = !h.on) :
    last h.switch ((everything (c, [h])).map asks) = some h.on ∧ isOn h.switch (Shared.run [(c, [h])] m) = !h.on := by
  have hd' : ¬ c.switch = h.switch := fun e => hd e.symm
  constructor
  · simp [everything, last, asks, hd']
  · rw [(c130_exact [(c, [h])] (by intro x hx y hy; simp only [List.mem_singleton] at hx; subst hx
                                   simp only [everything, List.cons_append, List.nil_append, List.mem_cons, List.not_mem_nil, or_false] at hy
                                   rcases hy with rfl | rfl
                                   · exact hh
                                   · exact hc) m).1 _ hh, ← hm]
    have hk : unaffected c [h] = [] := by simp [unaffected, hn]
    simp only [List.flatMap_cons, List.flatMap_nil, List.append_nil, remaining, hk, List.nil_append, List.map_cons, List.map_nil, last, asks, if_neg hd']
    rfl

/-- Cases that meet the hypotheses: two pins of a port, two interrupts of a timer, the power of both USARTs. -/
example : Neighbours (.level 1 3) (.level 1 5) ∧ Neighbours (.compareA 2) (.overflow 2) ∧ Neighbours (.power 0) (.power 1) ∧
    ¬ Neighbours (.level 1 3) (.direction 1 3) ∧ ¬ Neighbours (.level 1 3) (.level 2 3) := by decide

/-- A case of the partial theorem with handlers inside calls. -/
example : ∀ m : Mem, isOn (.level 1 3) (Shared.run [(⟨.level 1 3, true⟩, [⟨.level 1 3, false⟩, ⟨.level 2 3, true⟩, ⟨.compareA 0, true⟩]), (⟨.power 0, false⟩, [⟨.overflow 1, true⟩])] m) = true ∧
    isOn (.power 0) (Shared.run [(⟨.power 0, false⟩, [⟨.overflow 1, true⟩])] m) = false := by
  intro m
  constructor
  · rw [c130_last_partial _ (by decide) (by decide) m _ (by decide)]; rfl
  · rw [c130_last_partial _ (by decide) (by decide) m _ (by decide)]; rfl

/-- **C130 fails, what it can do.** Main code toggles a pin of the port on which a handler switches off the motor at its end stop: the motor runs on. -/
theorem c130_motor_fails (port pin motor : Nat) (hp : port < 6) (h1 : pin < 8) (h2 : motor < 8) (hd : motor ≠ pin) (v : Bool) (m : Mem)
    (hm : isOn (.level port motor) m = true) :
    isOn (.level port motor) (Shared.run [(⟨.level port pin, v⟩, [⟨.level port motor, false⟩])] m) = true :=
  (c130_lost_fails ⟨.level port pin, v⟩ ⟨.level port motor, false⟩ ⟨hp, h1⟩ ⟨hp, h2⟩ rfl (fun e => hd (by injection e)) m hm).2

end Atl.Props
