import Verif.Spec.QueueAny
import Verif.Props.RingBuffer

/- Property theorems C01 (continued): every history of a ring buffer, also with reads of an empty one. -/
namespace Atl.Props
open Atl.RingBuffer

/-- Reading an empty buffer: some cell of the memory, and the buffer is then full of the others. -/
theorem read_too_much {s : RB α} (h : Rel s []) : ∃ s' v q, read s = .ok (s', v) ∧ Rel s' q ∧ q.length + 1 = s.size ∧ s'.size = s.size ∧ s'.buf = s.buf ∧ ∀ x ∈ v :: q, x ∈ s.buf := by
  obtain ⟨hlen, hr, hq, hw, _⟩ := h
  have hr' : s.r < s.buf.length := by omega
  have hw' : s.w = s.r := by simpa [hr] using hw
  let at_ : Nat → Nat := fun i => if wrap s.size (s.r + 1) + i < s.size then wrap s.size (s.r + 1) + i else wrap s.size (s.r + 1) + i - s.size
  have hp : wrap s.size (s.r + 1) < s.size := by unfold wrap; split <;> omega
  have hat : ∀ i, i < s.size → at_ i < s.buf.length := by
    intro i hi
    rw [hlen]
    dsimp only [at_]
    split <;> omega
  let q : List α := (List.range (s.size - 1)).attach.map fun i => s.buf[at_ i.1]'(hat i.1 (by have := List.mem_range.1 i.2; omega))
  have ql : q.length = s.size - 1 := by simp [q]
  refine ⟨{ s with r := wrap s.size (s.r + 1) }, s.buf[s.r], q, ?_, ⟨hlen, hp, by show q.length < s.size; omega, ?_, ?_⟩, by omega, rfl, rfl, ?_⟩
  · unfold RingBuffer.read cGet
    rw [List.getElem?_eq_getElem hr']
    rfl
  · show s.w = if wrap s.size (s.r + 1) + q.length < s.size then _ else _
    rw [hw', ql]
    show s.r = if wrap s.size (s.r + 1) + (s.size - 1) < s.size then wrap s.size (s.r + 1) + (s.size - 1) else wrap s.size (s.r + 1) + (s.size - 1) - s.size
    unfold wrap
    split <;> split <;> omega
  · intro i hi
    show s.buf[at_ i]? = some q[i]
    rw [ql] at hi
    rw [List.getElem?_eq_getElem (hat i (by omega))]
    simp [q]
  · intro x hx
    rcases List.mem_cons.1 hx with rfl | hx
    · exact List.getElem_mem _
    · simp only [q, List.mem_map] at hx
      obtain ⟨i, _, rfl⟩ := hx
      exact List.getElem_mem _

theorem any_step {s : RB α} {q : List α} {old : α → Prop} (hs : s.size < 65536) (h : Rel s q) (ho : ∀ x ∈ s.buf, old x) (o : Op α) :
    ∃ s' q' x, step s o = .ok (s', x) ∧ Spec.QueueAny.Call (s.size - 1) old q o q' x ∧ Rel s' q' ∧ s'.size = s.size ∧ ∀ y ∈ s'.buf, old y ∨ o = .write y := by
  have hq := h.hq
  have old' : ∀ y ∈ s.buf, old y ∨ o = .write y := fun y hy => Or.inl (ho y hy)
  cases o with
  | write v =>
    by_cases hf : q.length + 1 = s.size
    · refine ⟨s, q, _, by simp only [step]; rw [write_full h v hf]; rfl, .refuse q v (by omega), h, rfl, old'⟩
    · obtain ⟨s', h1, h2, h3⟩ := write_room h v (by omega)
      refine ⟨s', _, _, by simp only [step]; rw [h1]; rfl, .accept q v (by omega), h2, h3, ?_⟩
      intro y hy
      unfold RingBuffer.write at h1
      split at h1
      · injection h1 with h1; injection h1 with _ h1; cases h1
      · unfold cSet at h1
        split at h1
        · simp only [Res.bind_ok] at h1
          injection h1 with h1
          injection h1 with h1 _
          subst h1
          rcases List.mem_or_eq_of_mem_set hy with hy | hy
          · exact Or.inl (ho y hy)
          · exact Or.inr (by rw [hy])
        · cases h1
  | read =>
    cases q with
    | nil =>
      obtain ⟨s', v, q, h1, h2, h3, h4, h5, h6⟩ := read_too_much h
      exact ⟨s', q, .value v, by simp only [step]; rw [h1]; rfl, .overread v q (by omega) (fun x hx => ho x (h6 x hx)), h2, h4, by rw [h5]; exact old'⟩
    | cons v q =>
      obtain ⟨s', h1, h2, h3⟩ := read_rel h
      refine ⟨s', q, .value v, by simp only [step]; rw [h1]; rfl, .read v q, h2, h3, ?_⟩
      have : s'.buf = s.buf := by
        unfold RingBuffer.read at h1
        cases hg : cGet s.buf s.r with
        | ub => rw [hg] at h1; cases h1
        | ok y => rw [hg] at h1; injection h1 with h1; injection h1 with h1 _; rw [← h1]
      rw [this]
      exact old'
  | clear => exact ⟨clear s, [], .cleared, rfl, .clear q, rel_clear h, rfl, old'⟩
  | length => exact ⟨s, q, .len q.length, by simp only [step]; rw [getLength_rel h hs], .length q, h, rfl, old'⟩

theorem any_run (ops : List (Op α)) {s : RB α} {q : List α} {old : α → Prop} (hs : s.size < 65536) (h : Rel s q) (ho : ∀ x ∈ s.buf, old x) :
    ∃ s' q' outs, run s ops = .ok (s', outs) ∧ Spec.QueueAny.Calls (s.size - 1) old q ops q' outs ∧ Rel s' q' ∧ s'.size = s.size := by
  induction ops generalizing s q old with
  | nil => exact ⟨s, q, [], rfl, .done old q, h, rfl⟩
  | cons o os ih =>
    obtain ⟨s1, q1, x, h1, h2, h3, h4, h5⟩ := any_step hs h ho o
    obtain ⟨s2, q2, xs, g1, g2, g3, g4⟩ := ih (by omega) h3 h5
    rw [h4] at g2
    exact ⟨s2, q2, x :: xs, by unfold run; rw [h1]; simp only [Res.bind_ok]; rw [g1]; rfl, .call old q o q1 x os q2 xs h2 g2, g3, by omega⟩

/-- **C01.** Every history, also one that reads an empty buffer: no access outside the memory, and everything is as with a queue in which such a read returns a value that was in the memory before
    (one written earlier or the uninitialised content) and puts `Size - 1` others of that kind in the queue, unread. -/
theorem c01_any_history (g : List α) (hg : 0 < g.length) (hs : g.length < 65536) (ops : List (Op α)) :
    ∃ s q outs, run (RingBuffer.mk g) ops = .ok (s, outs) ∧ Spec.QueueAny.Calls (g.length - 1) (· ∈ g) [] ops q outs := by
  obtain ⟨s, q, outs, h1, h2, -⟩ := any_run ops hs (rel_mk g hg) (fun _ h => h)
  exact ⟨s, q, outs, h1, h2⟩

/-- A history with such a read: the value 5, read already, comes out again, and the buffer of four refuses the next value. -/
example : run (RingBuffer.mk [0, 1, 2, 3]) [.write 5, .read, .length, .read, .length, .write 7, .read, .read, .read] =
    .ok (⟨4, [5, 1, 2, 3], 1, 1⟩, [.accepted true, .value 5, .len 0, .value 1, .len 3, .accepted false, .value 2, .value 3, .value 5]) := by decide +kernel

/-- **C02, after every history**, also one that reads an empty buffer: `getLength` is the number of values the queue holds, at most `Size - 1`, a `Write` is refused exactly if that many are
    held, a refused one changes nothing and an accepted one makes the length one more. -/
theorem c02_any_history (g : List α) (hg : 0 < g.length) (hs : g.length < 65536) (ops : List (Op α)) :
    ∃ s q outs, run (RingBuffer.mk g) ops = .ok (s, outs) ∧ Spec.QueueAny.Calls (g.length - 1) (· ∈ g) [] ops q outs ∧
      getLength s = q.length ∧ q.length ≤ g.length - 1 ∧
      (q.length = g.length - 1 → ∀ v, write s v = .ok (s, false)) ∧
      (q.length < g.length - 1 → ∀ v, ∃ s', write s v = .ok (s', true) ∧ getLength s' = q.length + 1) := by
  obtain ⟨s, q, outs, h1, h2, h3, h4⟩ := any_run ops hs (rel_mk g hg) (fun _ h => h)
  have h5 : s.size = g.length := h4
  have hq := h3.hq
  refine ⟨s, q, outs, h1, h2, getLength_rel h3 (by omega), by omega, fun h v => write_full h3 v (by omega), fun h v => ?_⟩
  obtain ⟨s', w1, w2, w3⟩ := write_room h3 v (by omega)
  exact ⟨s', w1, by rw [getLength_rel w2 (by omega)]; simp⟩

/-- After reading an empty buffer of four it holds three values and refuses a fourth. -/
example : ∃ s, run (RingBuffer.mk [0, 1, 2, 3]) [.read] = .ok (s, [.value 0]) ∧ getLength s = 3 ∧ write s 9 = .ok (s, false) :=
  ⟨⟨4, [0, 1, 2, 3], 0, 1⟩, by decide +kernel⟩

end Atl.Props
