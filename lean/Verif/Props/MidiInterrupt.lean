import Verif.Model.MidiInterrupt
import Verif.Props.Midi

/- Property theorems C148: one MIDI writer used by main code and by interrupt handlers. -/
namespace Atl.Props
open Atl Atl.Midi Atl.MidiInterrupt

namespace SharedMidi

/-! ### Specification -/

/-- Main code makes one call after the other, all calls are well-formed, and while main code has bytes to give, handlers write real-time messages only. -/
def Fair (L : Layout) (s : St) : List MidiInterrupt.Ev → Prop
  | [] => True
  | e :: es => (match e with
      | .call c => s.pc = .idle ∧ CallOk L c
      | .main => True
      | .handler c => CallOk L c ∧ (s.pc.giving = true → ∃ t, callMeaning L c = some (.realTime t))) ∧ Fair L (step L s e) es

/-- The calls of handlers in the middle of main code's bytes. -/
def within (s : St) : List WCall := (s.sent.filter (·.1)).map Prod.snd
/-- All other calls. -/
def plain (s : St) : List WCall := (s.sent.filter (fun p => !p.1)).map Prod.snd

/-! ### Proofs -/

theorem status_ne (s : SMsg) (hv : s.Valid) : s.status ≠ 0xF0 := by
  cases s <;> simp only [Spec.Midi.Msg.Valid] at hv <;> simp only [Spec.Midi.Msg.status] <;> try omega
  simp only [Spec.Midi.realTimes] at hv
  intro h; subst h; revert hv; decide

theorem bytes_fine (s : SMsg) (hv : s.Valid) : (∀ b ∈ s.bytes, b < 256 ∧ b ≠ 0xF0) ∧ (∀ b ∈ s.data, b < 256 ∧ b ≠ 0xF0) := by
  obtain ⟨h256, h128, hd, _⟩ := valid_shape s hv
  have h2 : ∀ b ∈ s.data, b < 256 ∧ b ≠ 0xF0 := fun b hb => by have := hd b hb; omega
  refine ⟨fun b hb => ?_, h2⟩
  rcases List.mem_cons.1 hb with rfl | hb
  · exact ⟨h256, status_ne s hv⟩
  · exact h2 b hb

/-- A message object and its meaning. -/
theorem shape_msg {L : Layout} {m : Midi.Msg} {s : SMsg} (h : observe L m = some s) (hv : s.Valid) :
    m.getStatusByte = s.status ∧ dataOf L m = s.data ∧ isChannelMessage m.type = s.isChannel ∧ (s.isChannel = false → isSystemCommonMessage m.type = !s.isRealTime) := by
  obtain ⟨ht, hst, hd1, hd2⟩ := observe_type_rt h hv
  obtain ⟨h256, h128, hd, hl, hn, hch, hrt, hne⟩ := valid_shape s hv
  have hlen : getMessageLength m.type = s.data.length + 1 := by rw [ht, tbl_len_type _ h256, hl]
  refine ⟨hst, ?_, ?_, ?_⟩
  · unfold dataOf
    rw [hlen]
    match hs : s.data with
    | [] => simp
    | [a] => simp [hd1 a hs]
    | [a, b] => simp [(hd2 a b hs).1, (hd2 a b hs).2]
    | _ :: _ :: _ :: _ => rw [hs] at hn; simp at hn
  · by_cases hc : s.status < 0xF0
    · rw [ht, hch.2 hc]; exact (tbl_chan_type _ h256 h128 hc).1
    · have hsys := tbl_sys_type s.status h256 (by omega)
      have hc' : s.isChannel = false := by
        cases hx : s.isChannel
        · rfl
        · exact absurd (hch.1 hx) hc
      rw [ht, hsys.1, hc']; exact hsys.2.2
  · intro hc'
    have hc : ¬ s.status < 0xF0 := fun h => by rw [hch.2 h] at hc'; cases hc'
    have hsys := tbl_sys_type s.status h256 (by omega)
    rw [ht, hsys.1]
    by_cases hr : 0xF8 ≤ s.status
    · rw [hrt.2 hr]; simp [isSystemCommonMessage]; omega
    · have hr' : s.isRealTime = false := by
        cases hx : s.isRealTime
        · rfl
        · exact absurd (hrt.1 hx) hr
      rw [hr']; simp [isSystemCommonMessage]; omega

/-- After the bytes `w` a reader has reported the calls `cs` and agrees with the writer. -/
structure Done (L : Layout) (w : List Nat) (cs : List WCall) (running : Nat) : Prop where
  events : (Reader.init.events L w).map (Ev.meaning L) = cs.map (callMeaning L)
  sync : InSync running (Reader.init.after L w)
  bytes : ∀ b ∈ w, b < 256 ∧ b ≠ 0xF0

theorem after_append (L : Layout) (r : Reader) (xs ys : List Nat) : r.after L (xs ++ ys) = (r.after L xs).after L ys := by
  unfold Reader.after; rw [trace_append]

/-- A whole message, with its status byte. -/
theorem done_bytes {L : Layout} (hL : L.Ok) {w : List Nat} {cs : List WCall} {running : Nat} (h : Done L w cs running) {c : WCall} {s : SMsg} (hm : callMeaning L c = some s) (hv : s.Valid)
    (running' : Nat) (hr : running' ≠ 0 → (if s.isChannel then s.status else if s.data = [] then (Reader.init.after L w).running else 0) = running') :
    Done L (w ++ s.bytes) (cs ++ [c]) running' := by
  obtain ⟨f1, f2, f3⟩ := feed_message L hL _ h.sync.idle s hv
  refine ⟨?_, ⟨?_, ?_⟩, ?_⟩
  · rw [events_append, List.map_append, h.events, f2]; simp [hm]
  · rw [after_append]; exact f1
  · intro h0; rw [after_append, f3]; exact hr h0
  · intro b hb
    rcases List.mem_append.1 hb with hb | hb
    · exact h.bytes b hb
    · exact (bytes_fine s hv).1 b hb

/-- A message without its status byte. -/
theorem done_data {L : Layout} (hL : L.Ok) {w : List Nat} {cs : List WCall} {running : Nat} (h : Done L w cs running) {c : WCall} {s : SMsg} (hm : callMeaning L c = some s) (hv : s.Valid)
    (hc : s.isChannel = true) (hr : running = s.status) : Done L (w ++ s.data) (cs ++ [c]) running := by
  have h128 := (valid_shape s hv).2.1
  have hrun : (Reader.init.after L w).running = s.status := by rw [← hr]; exact h.sync.sync (by omega)
  obtain ⟨g1, g2, g3⟩ := feed_running L hL _ h.sync.idle s hv hc hrun
  refine ⟨?_, ⟨?_, ?_⟩, ?_⟩
  · rw [events_append, List.map_append, h.events, g2]; simp [hm]
  · rw [after_append]; exact g1
  · intro _; rw [after_append, g3, hr]
  · intro b hb
    rcases List.mem_append.1 hb with hb | hb
    · exact h.bytes b hb
    · exact (bytes_fine s hv).2 b hb

/-- A whole call of a handler. -/
theorem done_call {L : Layout} (hL : L.Ok) {w : List Nat} {cs : List WCall} {running : Nat} (h : Done L w cs running) {c : WCall} (hc : CallOk L c) :
    Done L (w ++ (writeCall L running c).2) (cs ++ [c]) (writeCall L running c).1 := by
  obtain ⟨s, hm, hv⟩ := hc
  have hsync := h.sync.sync
  rcases writeCall_spec hm hv running with e | ⟨rfl, _, e⟩
  · rw [e]
    unfold sends
    by_cases hc : s.isChannel = true
    · rw [if_pos hc]
      by_cases hr : running ≠ s.status
      · rw [if_pos hr]
        exact done_bytes hL h hm hv _ (fun _ => by rw [if_pos hc])
      · rw [if_neg hr]
        exact done_data hL h hm hv hc (by simpa using hr)
    · rw [if_neg hc]
      refine done_bytes hL h hm hv _ (fun h0 => ?_)
      rw [if_neg hc]
      by_cases hrr : s.isRealTime = true
      · simp only [hrr, if_true] at h0 ⊢
        have : s.data = [] := by cases s <;> simp_all [Spec.Midi.Msg.isRealTime, Spec.Midi.Msg.data]
        rw [if_pos this]; exact hsync h0
      · simp [hrr] at h0
  · rw [e]
    refine done_bytes hL h hm hv _ (fun h0 => ?_)
    simpa [Spec.Midi.Msg.isChannel, Spec.Midi.Msg.data] using hsync h0

/-- A real-time call. -/
theorem realtime_call {L : Layout} {c : WCall} {t : Nat} (hm : callMeaning L c = some (.realTime t)) (hc : CallOk L c) (running : Nat) :
    writeCall L running c = (running, [t]) ∧ t ∈ Spec.Midi.realTimes := by
  obtain ⟨s, hs, hv⟩ := hc
  rw [hm] at hs
  cases hs
  rcases writeCall_spec hm hv running with e | ⟨h, _⟩
  · refine ⟨?_, hv⟩
    rw [e]
    simp [sends, Spec.Midi.Msg.isChannel, Spec.Midi.Msg.isRealTime, Spec.Midi.Msg.bytes, Spec.Midi.Msg.status, Spec.Midi.Msg.data]
  · cases h

/-- The bytes that are not a handler's in the middle. -/
abbrev own (s : St) : List Nat := Marked.original s.wire

/-- The place of main code. -/
def AtPc (L : Layout) (s : St) : Prop := match s.pc with
  | .idle => Done L (own s) (plain s) s.running
  | .test m | .store m => Done L (own s) (plain s) s.running ∧ ∃ x, observe L m = some x ∧ x.Valid ∧ x.isChannel = true
  | .cancel m => Done L (own s) (plain s) s.running ∧ ∃ x, observe L m = some x ∧ x.Valid ∧ x.isChannel = false ∧ x.isRealTime = false
  | .out bs => Done L (own s ++ bs) (plain s) s.running

structure Inv (L : Layout) (s : St) : Prop where
  marked : ∀ p ∈ s.wire, p.1 = true → p.2 ∈ Spec.Midi.realTimes
  within : (SharedMidi.within s).map (callMeaning L) = ((s.wire.filter (·.1)).map fun p => some (Spec.Midi.Msg.realTime p.2))
  at' : AtPc L s

theorem plain_own (r : Nat) (pc : Pc) (w : List (Bool × Nat)) (l : List (Bool × WCall)) (c : WCall) : plain ⟨r, pc, w, l ++ [(false, c)]⟩ = plain ⟨r, pc, w, l⟩ ++ [c] := by
  simp [plain]

theorem give_at {L : Layout} {r : Nat} {bs : List Nat} {w : List (Bool × Nat)} {l : List (Bool × WCall)} (h : Done L (own ⟨r, .idle, w, l⟩ ++ bs) (plain ⟨r, .idle, w, l⟩) r) :
    AtPc L ⟨r, Pc.give bs, w, l⟩ := by
  unfold Pc.give
  split
  · rename_i hb; subst hb; simpa [AtPc] using h
  · exact h

theorem inv_begin {L : Layout} (hL : L.Ok) (s : St) (c : WCall) (h : Inv L s) (hi : s.pc = .idle) (hc : CallOk L c) : Inv L (begin L s c) := by
  obtain ⟨r, pc, w, l'⟩ := s
  simp only at hi
  subst hi
  obtain ⟨h1, h2, h3⟩ := h
  have h4 : Done L (own ⟨r, .idle, w, l'⟩) (plain ⟨r, .idle, w, l'⟩) r := h3
  have hc' := hc
  obtain ⟨x, hm, hv⟩ := hc
  cases c with
  | msg m =>
    obtain ⟨e1, e2, e3, e4⟩ := shape_msg hm hv
    simp only [begin]
    by_cases hch : x.isChannel = true
    · rw [if_pos (by rw [e3]; exact hch)]
      exact ⟨h1, h2, h4, x, hm, hv, hch⟩
    · have hch' : x.isChannel = false := by simpa using hch
      rw [if_neg (by rw [e3]; exact hch)]
      by_cases hr : x.isRealTime = true
      · rw [if_neg (by rw [e4 hch', hr]; simp)]
        refine ⟨h1, by simpa [within] using h2, ?_⟩
        show Done L (own ⟨r, .idle, w, l'⟩ ++ (m.getStatusByte :: dataOf L m)) (plain ⟨r, .idle, w, l' ++ [(false, .msg m)]⟩) r
        rw [e1, e2, plain_own]
        refine done_bytes hL h4 hm hv _ (fun h0 => ?_)
        have : x.data = [] := by cases x <;> simp_all [Spec.Midi.Msg.isRealTime, Spec.Midi.Msg.data]
        rw [if_neg hch, if_pos this]; exact h4.sync.sync h0
      · rw [if_pos (by rw [e4 hch']; simpa using hr)]
        exact ⟨h1, h2, h4, x, hm, hv, hch', by simpa using hr⟩
  | type t =>
    refine ⟨h1, by simpa [begin, within] using h2, ?_⟩
    show Done L (own ⟨r, .idle, w, l'⟩ ++ [t % 256]) (plain ⟨r, .idle, w, l' ++ [(false, .type t)]⟩) r
    rw [plain_own]
    exact done_call hL h4 hc'

theorem inv_main {L : Layout} (hL : L.Ok) (s : St) (h : Inv L s) : Inv L (mainStep L s) := by
  obtain ⟨r, pc, w, l⟩ := s
  obtain ⟨h1, h2, h3⟩ := h
  cases pc with
  | idle => exact ⟨h1, h2, h3⟩
  | test m =>
    obtain ⟨h4, x, hm, hv, hch⟩ := h3
    obtain ⟨e1, e2, e3, e4⟩ := shape_msg hm hv
    simp only [mainStep]
    split
    · exact ⟨h1, h2, h4, x, hm, hv, hch⟩
    · rename_i hr
      refine ⟨h1, by simpa [within] using h2, give_at ?_⟩
      rw [e2, plain_own]
      refine done_data hL h4 (c := .msg m) hm hv hch ?_
      rw [← e1]
      exact Decidable.byContradiction hr
  | store m =>
    obtain ⟨h4, x, hm, hv, hch⟩ := h3
    obtain ⟨e1, e2, e3, e4⟩ := shape_msg hm hv
    refine ⟨h1, by simpa [mainStep, within] using h2, ?_⟩
    show Done L (own ⟨r, .idle, w, l⟩ ++ (m.getStatusByte :: dataOf L m)) (plain ⟨r, .idle, w, l ++ [(false, .msg m)]⟩) m.getStatusByte
    rw [e1, e2, plain_own]
    exact done_bytes hL h4 (c := .msg m) hm hv _ (fun _ => by rw [if_pos hch])
  | cancel m =>
    obtain ⟨h4, x, hm, hv, hch, hr⟩ := h3
    obtain ⟨e1, e2, e3, e4⟩ := shape_msg hm hv
    refine ⟨h1, by simpa [mainStep, within] using h2, ?_⟩
    show Done L (own ⟨r, .idle, w, l⟩ ++ (m.getStatusByte :: dataOf L m)) (plain ⟨r, .idle, w, l ++ [(false, .msg m)]⟩) 0
    rw [e1, e2, plain_own]
    exact done_bytes hL h4 (c := .msg m) hm hv _ (fun h0 => absurd rfl h0)
  | out bs =>
    cases bs with
    | nil =>
      have h4 : Done L (Marked.original w ++ []) (plain ⟨r, .idle, w, l⟩) r := h3
      rw [List.append_nil] at h4
      exact ⟨h1, h2, h4⟩
    | cons b bs =>
      refine ⟨?_, by simpa [mainStep, within] using h2, ?_⟩
      · intro p hp
        simp only [mainStep, List.mem_append, List.mem_singleton] at hp
        rcases hp with hp | rfl
        · exact h1 p hp
        · simp
      · refine give_at ?_
        have h4 : Done L (Marked.original w ++ b :: bs) (plain ⟨r, .idle, w, l⟩) r := h3
        have h5 : own ⟨r, .idle, w ++ [(false, b)], l⟩ ++ bs = Marked.original w ++ b :: bs := by simp [own, Marked.original]
        rw [h5]; exact h4

theorem own_marked (w : List (Bool × Nat)) (bs : List Nat) : Marked.original (w ++ bs.map (fun b => (true, b))) = Marked.original w := by
  have : (bs.map (fun b => (true, b))).filter (fun p => !p.1) = [] := by simp
  simp [Marked.original, this]

theorem own_plain (w : List (Bool × Nat)) (bs : List Nat) : Marked.original (w ++ bs.map (fun b => (false, b))) = Marked.original w ++ bs := by
  simp only [Marked.original, List.filter_append, List.map_append, List.append_cancel_left_eq]
  induction bs with
  | nil => rfl
  | cons b bs ih => simpa using ih

theorem inv_handler {L : Layout} (hL : L.Ok) (s : St) (c : WCall) (h : Inv L s) (hc : CallOk L c) (hg : s.pc.giving = true → ∃ t, callMeaning L c = some (.realTime t)) :
    Inv L (step L s (.handler c)) := by
  obtain ⟨r, pc, w, l⟩ := s
  obtain ⟨h1, h2, h3⟩ := h
  have plainCase : pc.giving = false → Done L (Marked.original w) (plain ⟨r, .idle, w, l⟩) r →
      (∀ p ∈ (step L ⟨r, pc, w, l⟩ (.handler c)).wire, p.1 = true → p.2 ∈ Spec.Midi.realTimes) ∧
      (within (step L ⟨r, pc, w, l⟩ (.handler c))).map (callMeaning L) = (((step L ⟨r, pc, w, l⟩ (.handler c)).wire.filter (·.1)).map fun p => some (Spec.Midi.Msg.realTime p.2)) ∧
      Done L (own (step L ⟨r, pc, w, l⟩ (.handler c))) (plain (step L ⟨r, pc, w, l⟩ (.handler c))) (step L ⟨r, pc, w, l⟩ (.handler c)).running := by
    intro hf hd
    refine ⟨?_, ?_, ?_⟩
    · intro p hp
      simp only [step, hf, List.mem_append, List.mem_map] at hp
      rcases hp with hp | ⟨b, _, rfl⟩
      · exact h1 p hp
      · simp
    · have : ((writeCall L r c).2.map (fun b => (false, b))).filter (·.1) = [] := by simp
      simp only [within, step, hf, List.filter_append, this, List.append_nil]
      simpa [within] using h2
    · have := done_call hL hd hc
      simp only [step, hf, own, own_plain]
      rw [plain_own]
      exact this
  cases pc with
  | idle =>
    obtain ⟨a, b, d⟩ := plainCase rfl h3
    exact ⟨a, b, d⟩
  | test m =>
    obtain ⟨a, b, d⟩ := plainCase rfl h3.1
    exact ⟨a, b, d, h3.2⟩
  | store m =>
    obtain ⟨a, b, d⟩ := plainCase rfl h3.1
    exact ⟨a, b, d, h3.2⟩
  | cancel m =>
    obtain ⟨a, b, d⟩ := plainCase rfl h3.1
    exact ⟨a, b, d, h3.2⟩
  | out bs =>
    obtain ⟨t, ht⟩ := hg rfl
    obtain ⟨e1, e2⟩ := realtime_call ht hc r
    refine ⟨?_, ?_, ?_⟩
    · intro p hp
      simp only [step, e1, Pc.giving, List.mem_append, List.map_cons, List.map_nil, List.mem_singleton] at hp
      rcases hp with hp | rfl
      · exact h1 p hp
      · intro _; exact e2
    · simp only [within] at h2
      simp [within, step, e1, Pc.giving, h2, ht]
    · have h4 : Done L (Marked.original w ++ bs) (plain ⟨r, .idle, w, l⟩) r := h3
      have h5 : own (step L ⟨r, .out bs, w, l⟩ (.handler c)) = Marked.original w := by
        simp only [step, e1, Pc.giving, own]; exact own_marked w [t]
      have h6 : plain (step L ⟨r, .out bs, w, l⟩ (.handler c)) = plain ⟨r, .idle, w, l⟩ := by simp [plain, step, Pc.giving]
      show Done L (own (step L ⟨r, .out bs, w, l⟩ (.handler c)) ++ bs) (plain (step L ⟨r, .out bs, w, l⟩ (.handler c))) (writeCall L r c).1
      rw [h5, h6, e1]; exact h4

theorem inv_run {L : Layout} (hL : L.Ok) (es : List MidiInterrupt.Ev) : ∀ s, Inv L s → Fair L s es → Inv L (run L s es) := by
  induction es with
  | nil => intro s h _; exact h
  | cons e es ih =>
    intro s h hf
    refine ih _ ?_ hf.2
    cases e with
    | call c => exact inv_begin hL s c h hf.1.1 hf.1.2
    | main => exact inv_main hL s h
    | handler c => exact inv_handler hL s c h hf.1.1 hf.1.2

theorem inv_start (L : Layout) : Inv L St.init :=
  ⟨by simp [St.init], rfl, ⟨rfl, ⟨rfl, by simp [St.init]⟩, by simp [St.init, own, Marked.original]⟩⟩

theorem own_fine {L : Layout} {s : St} (h : Inv L s) : ∀ b ∈ own s, b < 256 ∧ b ≠ 0xF0 := by
  obtain ⟨r, pc, w, l⟩ := s
  obtain ⟨_, _, h3⟩ := h
  cases pc with
  | idle => exact h3.bytes
  | test m => exact h3.1.bytes
  | store m => exact h3.1.bytes
  | cancel m => exact h3.1.bytes
  | out bs => exact fun b hb => h3.bytes b (List.mem_append_left _ hb)

theorem done_of {L : Layout} {s : St} (h : Inv L s) (hg : s.pc.giving = false) : Done L (own s) (plain s) s.running := by
  obtain ⟨r, pc, w, l⟩ := s
  obtain ⟨_, _, h3⟩ := h
  cases pc with
  | idle => exact h3
  | test m => exact h3.1
  | store m => exact h3.1
  | cancel m => exact h3.1
  | out bs => simp [Pc.giving] at hg

theorem trace_length (L : Layout) (bs : List Nat) : ∀ r : Reader, (r.trace L bs).2.length = bs.length := by
  induction bs with
  | nil => intro r; rfl
  | cons b bs ih => intro r; rw [trace_cons]; simp [ih]

/-- Woven events: nothing lost, nothing added. -/
theorem weave_perm (ms : Marked) : ∀ es : List (List Midi.Ev), es.length = ms.original.length →
    (weave ms es).flatten.Perm (es.flatten ++ (ms.filter (·.1)).map fun p => Midi.Ev.onRealtime p.2) := by
  induction ms with
  | nil => intro es h; simp [Marked.original] at h; simp [weave, h]
  | cons p ms ih =>
    intro es h
    obtain ⟨b, t⟩ := p
    cases b with
    | true =>
      have := ih es (by simpa [Marked.original] using h)
      simp only [weave, List.flatten_cons, List.filter_cons, if_true, List.map_cons]
      exact (List.Perm.cons _ this).trans List.perm_middle.symm
    | false =>
      cases es with
      | nil => simp [Marked.original] at h
      | cons e es =>
        have := ih es (by simpa [Marked.original] using h)
        simp only [weave, List.flatten_cons, List.filter_cons, Bool.false_eq_true, if_false, List.append_assoc]
        exact List.Perm.append_left e this

theorem sent_perm (l : List (Bool × WCall)) : (l.map Prod.snd).Perm (((l.filter (fun p => !p.1)).map Prod.snd) ++ ((l.filter (·.1)).map Prod.snd)) := by
  induction l with
  | nil => simp
  | cons p l ih =>
    obtain ⟨b, c⟩ := p
    cases b with
    | true => simpa using (List.Perm.cons c ih).trans List.perm_middle.symm
    | false => simpa using ih

/-- Main code's calls in a history. -/
def mainCalls (es : List MidiInterrupt.Ev) : List WCall := es.filterMap fun | .call c => some c | _ => none
/-- The handlers' calls in a history. -/
def handlerCalls (es : List MidiInterrupt.Ev) : List WCall := es.filterMap fun | .handler c => some c | _ => none

/-- Main code's call not yet decided. -/
def undecided : Pc → List WCall
  | .test m | .store m | .cancel m => [.msg m]
  | _ => []

/-- `M` are main code's calls so far, `H` the handlers'. -/
def Calls (M H : List WCall) (s : St) : Prop :=
  ∃ M', M = M' ++ undecided s.pc ∧ M'.Sublist (s.sent.map Prod.snd) ∧ H.Sublist (s.sent.map Prod.snd) ∧ s.sent.length = M'.length + H.length

theorem undecided_give (bs : List Nat) : undecided (Pc.give bs) = [] := by unfold Pc.give; split <;> rfl

theorem calls_decide {M M' H : List WCall} {r r' : Nat} {pc pc' : Pc} {w w' : List (Bool × Nat)} {l : List (Bool × WCall)} {c : WCall} (hu : undecided pc' = [])
    (h : M = M' ++ [c]) (h1 : M'.Sublist (l.map Prod.snd)) (h2 : H.Sublist (l.map Prod.snd)) (h3 : l.length = M'.length + H.length) :
    Calls M H ⟨r', pc', w', l ++ [(false, c)]⟩ := by
  refine ⟨M' ++ [c], by rw [h, hu]; simp, ?_, ?_, ?_⟩
  · simpa using List.Sublist.append_right h1 [c]
  · simpa using h2.trans (List.sublist_append_left _ [c])
  · simp; omega

theorem calls_run (L : Layout) (es : List MidiInterrupt.Ev) : ∀ M H s, Calls M H s → Fair L s es → Calls (M ++ mainCalls es) (H ++ handlerCalls es) (run L s es) := by
  induction es with
  | nil => intro M H s h _; simpa [mainCalls, handlerCalls, run] using h
  | cons e es ih =>
    intro M H s h hf
    obtain ⟨r, pc, w, l⟩ := s
    cases e with
    | call c =>
      have hi : pc = .idle := hf.1.1
      subst hi
      obtain ⟨M', a, b, d, f⟩ := h
      simp only [undecided, List.append_nil] at a
      subst a
      have key : Calls (M ++ [c]) H (step L ⟨r, .idle, w, l⟩ (.call c)) := by
        cases c with
        | type t => exact calls_decide (r := r) (pc := .idle) (w := w) rfl rfl b d f
        | msg m =>
          simp only [step, begin]
          split
          · exact ⟨M, rfl, b, d, f⟩
          · split
            · exact ⟨M, rfl, b, d, f⟩
            · exact calls_decide (r := r) (pc := .idle) (w := w) rfl rfl b d f
      have := ih _ _ _ key hf.2
      simpa [mainCalls, handlerCalls, run] using this
    | main =>
      have key : Calls M H (step L ⟨r, pc, w, l⟩ .main) := by
        obtain ⟨M', a, b, d, f⟩ := h
        cases pc with
        | idle => exact ⟨M', a, b, d, f⟩
        | test m =>
          simp only [step, mainStep]
          split
          · exact ⟨M', a, b, d, f⟩
          · exact calls_decide (r := r) (pc := .idle) (w := w) (undecided_give _) a b d f
        | store m => exact calls_decide (r := r) (pc := .idle) (w := w) rfl a b d f
        | cancel m => exact calls_decide (r := r) (pc := .idle) (w := w) rfl a b d f
        | out bs =>
          cases bs with
          | nil => exact ⟨M', a, b, d, f⟩
          | cons x bs => exact ⟨M', by rw [a]; show M' ++ [] = M' ++ undecided (Pc.give bs); rw [undecided_give], b, d, f⟩
      have := ih _ _ _ key hf.2
      simpa [mainCalls, handlerCalls, run] using this
    | handler c =>
      have key : Calls M (H ++ [c]) (step L ⟨r, pc, w, l⟩ (.handler c)) := by
        obtain ⟨M', a, b, d, f⟩ := h
        simp only at b d f
        refine ⟨M', a, ?_, ?_, ?_⟩
        · simpa [step] using b.trans (List.sublist_append_left _ [c])
        · simpa [step] using List.Sublist.append_right d [c]
        · simp [step]; omega
      have := ih _ _ _ key hf.2
      simpa [mainCalls, handlerCalls, run] using this

end SharedMidi

open SharedMidi

/-- **C148.** The calls counted as sent, once main code is outside, are those of main code and those of handlers, each in their order, and no others. -/
theorem c148_sent (L : Layout) (es : List MidiInterrupt.Ev) (hf : Fair L St.init es) (hi : (run L St.init es).pc = .idle) :
    (mainCalls es).Sublist ((run L St.init es).sent.map Prod.snd) ∧ (handlerCalls es).Sublist ((run L St.init es).sent.map Prod.snd) ∧
    (run L St.init es).sent.length = (mainCalls es).length + (handlerCalls es).length := by
  obtain ⟨M', a, b, d, f⟩ := calls_run L es [] [] St.init ⟨[], rfl, by simp, by simp, rfl⟩ hf
  rw [hi] at a
  simp only [List.nil_append, undecided, List.append_nil] at a d f
  subst a
  exact ⟨b, d, f⟩

/-- **C148, partial.** For every history in which handlers write real-time messages in the middle of main code's bytes, and any messages elsewhere (before, in between, and up to the store of the
    running status inside main code's `Write`): a reader of all bytes reports for each of main code's bytes what it reports without the handlers in the middle, and each of these handlers' messages
    at its byte.  In full (false, `c148_full_claim_is_false`): handlers write any messages anywhere. -/
theorem c148_order_partial (L : Layout) (hL : L.Ok) (es : List MidiInterrupt.Ev) (hf : Fair L St.init es) :
    (Reader.init.trace L (Marked.wire (run L St.init es).wire)).2 = weave (run L St.init es).wire (Reader.init.trace L (Marked.original (run L St.init es).wire)).2 ∧
    (within (run L St.init es)).map (callMeaning L) = ((run L St.init es).wire.filter (·.1)).map (fun p => some (Spec.Midi.Msg.realTime p.2)) ∧
    ((run L St.init es).pc.giving = false →
      (Reader.init.events L (Marked.original (run L St.init es).wire)).map (Ev.meaning L) = (plain (run L St.init es)).map (callMeaning L)) := by
  have h := inv_run hL es _ (inv_start L) hf
  exact ⟨c19_realtime_transparent L hL _ (own_fine h) h.marked, h.within, fun hg => (done_of h hg).events⟩

/-- **C148, partial.** In the same histories, whenever main code has no bytes left to give: the reader has reported every message of main code and of handlers exactly once, and nothing else. -/
theorem c148_received_partial (L : Layout) (hL : L.Ok) (es : List MidiInterrupt.Ev) (hf : Fair L St.init es) (hg : (run L St.init es).pc.giving = false) :
    ((Reader.init.events L (Marked.wire (run L St.init es).wire)).map (Ev.meaning L)).Perm ((run L St.init es).sent.map fun p => callMeaning L p.2) := by
  obtain ⟨h1, h2, h3⟩ := c148_order_partial L hL es hf
  have h := inv_run hL es _ (inv_start L) hf
  have h3 := h3 hg
  generalize run L St.init es = s at *
  unfold Reader.events at h3 ⊢
  rw [h1]
  refine ((weave_perm s.wire _ (trace_length L _ _)).map (Ev.meaning L)).trans ?_
  rw [List.map_append, h3]
  have h4 : ((s.wire.filter (·.1)).map fun p => Midi.Ev.onRealtime p.2).map (Ev.meaning L) = (within s).map (callMeaning L) := by
    rw [h2, List.map_map]
    refine List.map_congr_left fun p hp => ?_
    have hm := h.marked p (List.mem_filter.1 hp).1 (by simpa using (List.mem_filter.1 hp).2)
    have hne : p.2 ≠ 0xF6 := by intro h6; rw [h6] at hm; revert hm; decide
    simp [Ev.meaning, hm, hne]
  rw [h4, ← List.map_append]
  have := ((sent_perm s.sent).map (callMeaning L)).symm
  simpa [List.map_map, Function.comp_def, plain, within] using this

/-- **C148.** Without handlers main code's accesses are `MidiWriter::Write`. -/
theorem c148_alone (L : Layout) (r : Nat) (w : List (Bool × Nat)) (l : List (Bool × WCall)) (c : WCall) :
    run L ⟨r, .idle, w, l⟩ (.call c :: List.replicate 5 .main) =
      ⟨(writeCall L r c).1, .idle, w ++ (writeCall L r c).2.map (fun b => (false, b)), l ++ [(false, c)]⟩ := by
  cases c with
  | type t => simp [run, step, begin, mainStep, List.replicate, writeCall, Pc.give]
  | msg m =>
    by_cases h1 : getMessageLength m.type > 1 <;> by_cases h2 : getMessageLength m.type > 2 <;> by_cases hc : isChannelMessage m.type = true <;>
      by_cases hr : r = m.getStatusByte <;> by_cases hs : isSystemCommonMessage m.type = true <;>
      simp [run, step, begin, mainStep, List.replicate, writeCall, writeMsg, Pc.give, dataOf, h1, h2, hc, hr, hs]

/-- Note on, channel `c`. -/
def noteOn (c k v : Nat) : WCall := .msg ⟨0x90, fun i => [c, k, v].getD i 0⟩
/-- Note off, channel `c`. -/
def noteOff (c k v : Nat) : WCall := .msg ⟨0x80, fun i => [c, k, v].getD i 0⟩

/-- What a reader of all bytes reports. -/
def midiReports (es : List MidiInterrupt.Ev) : List (Option SMsg) := (Reader.init.events .avr (Marked.wire (run .avr St.init es).wire)).map (Ev.meaning .avr)

/-- A handler's note on another channel behind `n` accesses of main code's second note. -/
def intrude (c : WCall) (n : Nat) : List MidiInterrupt.Ev :=
  .call (noteOn 0 60 100) :: List.replicate 5 .main ++ .call (noteOn 0 61 100) :: List.replicate n .main ++ .handler c :: List.replicate 5 .main

/-- **C148 fails**: main code plays notes 60 and 61 on channel 0, a handler ends note 50 on channel 1.  Behind the test of the running status the note of main code is read as the end of a note of
    channel 1; between its data bytes two notes are read that nobody sent. -/
theorem c148_intrude_fails :
    midiReports (intrude (noteOff 1 50 0) 1) = [some (.noteOn 0 60 100), some (.noteOff 1 50 0), some (.noteOff 1 61 100)] ∧
    midiReports (intrude (noteOff 1 50 0) 2) = [some (.noteOn 0 60 100), some (.noteOn 0 61 50), some (.noteOn 0 0 100)] := by
  refine ⟨?_, ?_⟩ <;> decide +kernel

/-- A handler's call behind the store of the running status; then main code writes once more. -/
def behindStore (c d : WCall) : List MidiInterrupt.Ev :=
  .call (noteOn 0 60 100) :: List.replicate 2 .main ++ .handler c :: List.replicate 5 .main ++ .call d :: List.replicate 5 .main

/-- **C148 fails**: behind the store a handler's note with main code's status is lost; with another status it is received, and a later message with that status is read as one of channel 0. -/
theorem c148_store_fails :
    midiReports (behindStore (noteOn 0 61 100) (noteOn 0 62 100)) = [some (.noteOn 0 60 100), some (.noteOn 0 62 100)] ∧
    midiReports (behindStore (noteOff 1 50 0) (noteOff 1 51 0)) = [some (.noteOff 1 50 0), some (.noteOn 0 60 100), some (.noteOn 0 51 0)] := by
  refine ⟨?_, ?_⟩ <;> decide +kernel

/-- **C148.** The claim in full, for any messages of handlers at any place, is false. -/
theorem c148_full_claim_is_false : ¬ ∀ es : List MidiInterrupt.Ev, (run .avr St.init es).pc = .idle →
    (∀ p ∈ (run .avr St.init es).sent, CallOk .avr p.2) → (midiReports es).Perm ((run .avr St.init es).sent.map fun p => callMeaning .avr p.2) := by
  intro h
  have h1 := h (behindStore (noteOn 0 61 100) (noteOn 0 62 100)) rfl (by
    intro p hp
    have h2 : (run .avr St.init (behindStore (noteOn 0 61 100) (noteOn 0 62 100))).sent = [(false, noteOn 0 60 100), (true, noteOn 0 61 100), (false, noteOn 0 62 100)] := rfl
    rw [h2] at hp
    simp only [List.mem_cons, List.not_mem_nil, or_false] at hp
    rcases hp with rfl | rfl | rfl
    · exact ⟨.noteOn 0 60 100, by decide +kernel, by decide +kernel⟩
    · exact ⟨.noteOn 0 61 100, by decide +kernel, by decide +kernel⟩
    · exact ⟨.noteOn 0 62 100, by decide +kernel, by decide +kernel⟩)
  have h2 := h1.length_eq
  rw [c148_store_fails.1] at h2
  revert h2; decide +kernel

/-- Main code plays two notes; handlers send a clock in the middle of the first, end a note of channel 1 before the test of the second, and send a clock and a start in it. -/
def clocks : List MidiInterrupt.Ev :=
  [.call (noteOn 0 60 100), .main, .main, .main, .handler (.type 0xF8), .main, .handler (.type 0xF8), .main, .call (noteOn 0 61 100), .handler (noteOff 1 50 0),
   .main, .main, .main, .handler (.type 0xFA), .main, .main]

example : Fair .avr St.init clocks ∧ (run .avr St.init clocks).pc.giving = false ∧
    midiReports clocks = [some (.realTime 0xF8), some (.realTime 0xF8), some (.noteOn 0 60 100), some (.noteOff 1 50 0), some (.realTime 0xFA), some (.noteOn 0 61 100)] := by
  refine ⟨?_, by decide +kernel, by decide +kernel⟩
  have n1 : CallOk .avr (noteOn 0 60 100) := ⟨.noteOn 0 60 100, by decide +kernel, by decide +kernel⟩
  have n2 : CallOk .avr (noteOn 0 61 100) := ⟨.noteOn 0 61 100, by decide +kernel, by decide +kernel⟩
  have n3 : CallOk .avr (noteOff 1 50 0) := ⟨.noteOff 1 50 0, by decide +kernel, by decide +kernel⟩
  have n4 : CallOk .avr (.type 0xF8) := ⟨.realTime 0xF8, by decide +kernel, by decide +kernel⟩
  have n5 : CallOk .avr (.type 0xFA) := ⟨.realTime 0xFA, by decide +kernel, by decide +kernel⟩
  exact ⟨⟨rfl, n1⟩, trivial, trivial, trivial, ⟨n4, fun _ => ⟨0xF8, by decide +kernel⟩⟩, trivial, ⟨n4, fun _ => ⟨0xF8, by decide +kernel⟩⟩, trivial, ⟨rfl, n2⟩,
    ⟨n3, fun h => absurd h (by decide +kernel)⟩, trivial, trivial, trivial, ⟨n5, fun _ => ⟨0xFA, by decide +kernel⟩⟩, trivial, trivial, trivial⟩

end Atl.Props
