import Verif.Model.RingBuffer
import Verif.Spec.Queue
/- Helper lemmas for the ring buffer: the refinement relation and its preservation. -/
namespace Atl.RingBuffer

/-- Refinement relation: `q` is the content of `s`, oldest first. -/
structure Rel (s : RB α) (q : List α) : Prop where
  hlen : s.buf.length = s.size
  hr : s.r < s.size
  hq : q.length < s.size
  hw : s.w = if s.r + q.length < s.size then s.r + q.length else s.r + q.length - s.size
  hget : ∀ i (h : i < q.length),
    s.buf[if s.r + i < s.size then s.r + i else s.r + i - s.size]? = some q[i]

theorem Rel.hw_lt {s : RB α} {q : List α} (h : Rel s q) : s.w < s.size := by
  have := h.hw; have := h.hr; have := h.hq
  split at * <;> omega

theorem rel_mk (g : List α) (hg : 0 < g.length) : Rel (mk g) [] := by
  constructor <;> simp [mk, hg]

theorem rel_clear {s : RB α} {q : List α} (h : Rel s q) : Rel (clear s) [] := by
  have := h.hr
  constructor
  · exact h.hlen
  · simp [clear]; omega
  · simp [clear]; omega
  · simp [clear]
  · intro i hi; simp at hi

theorem getLength_rel {s : RB α} {q : List α} (h : Rel s q) (hs : s.size < 65536) :
    getLength s = q.length := by
  have h1 := h.hw; have h2 := h.hr; have h3 := h.hq
  unfold getLength toU
  split <;> split at h1 <;> omega

theorem isFull_rel {s : RB α} {q : List α} (h : Rel s q) :
    isFull s = decide (q.length + 1 = s.size) := by
  have h1 := h.hw; have h2 := h.hr; have h3 := h.hq
  unfold isFull
  split <;> split at h1 <;> simp only [decide_eq_decide] <;> omega

theorem write_full {s : RB α} {q : List α} (h : Rel s q) (v : α) (hf : q.length + 1 = s.size) :
    write s v = .ok (s, false) := by
  unfold write
  rw [isFull_rel h]
  simp [hf]

theorem write_room {s : RB α} {q : List α} (h : Rel s q) (v : α) (hf : q.length + 1 < s.size) :
    ∃ s', write s v = .ok (s', true) ∧ Rel s' (q ++ [v]) ∧ s'.size = s.size := by
  have h0 := h.hlen; have h1 := h.hw; have h2 := h.hr; have h3 := h.hq; have h4 := h.hw_lt
  have hfull : isFull s = false := by rw [isFull_rel h]; simp; omega
  refine ⟨{ s with buf := s.buf.set s.w v, w := wrap s.size (s.w + 1) }, ?_, ?_, rfl⟩
  · unfold write
    rw [hfull, cSet_ok v (by omega)]
    rfl
  · constructor
    · simpa using h0
    · exact h2
    · simp; omega
    · simp only [wrap, List.length_append, List.length_singleton]
      split <;> split <;> split at h1 <;> omega
    · intro i hi
      simp only [List.length_append, List.length_singleton] at hi
      by_cases hiq : i < q.length
      · rw [List.getElem_append_left hiq]
        rw [← h.hget i hiq]
        simp only
        rw [List.getElem?_set]
        rw [if_neg (by split at h1 <;> split <;> omega)]
      · have : i = q.length := by omega
        subst this
        simp only [List.getElem_append_right (Nat.le_refl _), Nat.sub_self, List.getElem_singleton]
        rw [← h1, List.getElem?_set]
        simp; omega

theorem read_rel {s : RB α} {v : α} {q : List α} (h : Rel s (v :: q)) :
    ∃ s', read s = .ok (s', v) ∧ Rel s' q ∧ s'.size = s.size := by
  have h0 := h.hlen; have h1 := h.hw; have h2 := h.hr; have h3 := h.hq
  simp only [List.length_cons] at h1 h3
  refine ⟨{ s with r := wrap s.size (s.r + 1) }, ?_, ?_, rfl⟩
  · have hg := h.hget 0 (by simp)
    simp only [Nat.add_zero, h2, if_true, List.getElem_cons_zero] at hg
    simp [read, cGet, hg]
  · constructor
    · exact h0
    · simp only [wrap]; split <;> omega
    · simp only; omega
    · simp only [wrap]
      split <;> split <;> split at h1 <;> omega
    · intro i hi
      have hg := h.hget (i + 1) (by simp; omega)
      rw [List.getElem_cons_succ] at hg
      rw [← hg]
      simp only [wrap]
      congr 1
      split <;> split <;> split <;> omega

theorem read_empty_rel {s : RB α} (h : Rel s []) (hs : s.size < 65536) : getLength s = 0 := by
  simpa using getLength_rel h hs

theorem step_rel {s : RB α} {q q' : List α} {o : Op α} {x : Out α} (h : Rel s q)
    (hs : s.size < 65536) (hstep : Spec.Queue.step (s.size - 1) q o = some (q', x)) :
    ∃ s', step s o = .ok (s', x) ∧ Rel s' q' ∧ s'.size = s.size := by
  have h2 := h.hr; have h3 := h.hq
  cases o with
  | write v =>
    simp only [Spec.Queue.step] at hstep
    split at hstep
    · obtain ⟨rfl, rfl⟩ := by simpa using hstep
      obtain ⟨s', hw, hr, hsz⟩ := write_room h v (by omega)
      exact ⟨s', by simp [step, hw], hr, hsz⟩
    · obtain ⟨rfl, rfl⟩ := by simpa using hstep
      exact ⟨s, by simp [step, write_full h v (by omega)], h, rfl⟩
  | read =>
    simp only [Spec.Queue.step] at hstep
    cases q with
    | nil => simp at hstep
    | cons v q =>
      obtain ⟨rfl, rfl⟩ := by simpa using hstep
      obtain ⟨s', hw, hr, hsz⟩ := read_rel h
      exact ⟨s', by simp [step, hw], hr, hsz⟩
  | clear =>
    obtain ⟨rfl, rfl⟩ := by simpa [Spec.Queue.step] using hstep
    exact ⟨clear s, rfl, rel_clear h, rfl⟩
  | length =>
    obtain ⟨rfl, rfl⟩ := by simpa [Spec.Queue.step] using hstep
    exact ⟨s, by simp [step, getLength_rel h hs], h, rfl⟩

theorem run_rel {s : RB α} {q : List α} (os : List (Op α)) (h : Rel s q) (hs : s.size < 65536)
    {q' : List α} {xs : List (Out α)} (hrun : Spec.Queue.run (s.size - 1) q os = some (q', xs)) :
    ∃ s', run s os = .ok (s', xs) ∧ Rel s' q' ∧ s'.size = s.size := by
  induction os generalizing s q q' xs with
  | nil =>
    obtain ⟨rfl, rfl⟩ := by simpa [Spec.Queue.run] using hrun
    exact ⟨s, rfl, h, rfl⟩
  | cons o os ih =>
    simp only [Spec.Queue.run] at hrun
    split at hrun
    · simp at hrun
    · rename_i q1 x hstep
      split at hrun
      · simp at hrun
      · rename_i q2 xs2 hrun2
        obtain ⟨rfl, rfl⟩ := by simpa using hrun
        obtain ⟨s1, hs1, hrel1, hsz1⟩ := step_rel h hs hstep
        obtain ⟨s2, hs2, hrel2, hsz2⟩ := ih hrel1 (by omega) (by rw [hsz1]; exact hrun2)
        exact ⟨s2, by simp [run, hs1, hs2], hrel2, by omega⟩

theorem bstep_rel {s : RB (Fin 256)} {q : List (Fin 256)} (o : BOp) (h : Rel s q)
    (hs : s.size < 65536) :
    ∃ s', bstep s o = .ok (s', (Spec.Queue.bstep (s.size - 1) q o).2) ∧
      Rel s' (Spec.Queue.bstep (s.size - 1) q o).1 ∧ s'.size = s.size := by
  have h2 := h.hr; have h3 := h.hq
  cases o with
  | write v =>
    simp only [Spec.Queue.bstep]
    split
    · obtain ⟨s', hw, hr, hsz⟩ := write_room h v (by omega)
      exact ⟨s', by simp [bstep, hw], hr, hsz⟩
    · exact ⟨s, by simp [bstep, write_full h v (by omega)], h, rfl⟩
  | read =>
    cases q with
    | nil =>
      refine ⟨s, ?_, h, rfl⟩
      simp [bstep, bisRead, read_empty_rel h hs, Spec.Queue.bstep]
    | cons v q =>
      obtain ⟨s', hw, hr, hsz⟩ := read_rel h
      refine ⟨s', ?_, hr, hsz⟩
      have := getLength_rel h hs
      simp [bstep, bisRead, this, hw, Spec.Queue.bstep]

theorem brun_rel {s : RB (Fin 256)} {q : List (Fin 256)} (os : List BOp) (h : Rel s q)
    (hs : s.size < 65536) :
    ∃ s', brun s os = .ok (s', (Spec.Queue.brun (s.size - 1) q os).2) ∧
      Rel s' (Spec.Queue.brun (s.size - 1) q os).1 ∧ s'.size = s.size := by
  induction os generalizing s q with
  | nil => exact ⟨s, rfl, h, rfl⟩
  | cons o os ih =>
    obtain ⟨s1, hs1, hr1, hz1⟩ := bstep_rel o h hs
    obtain ⟨s2, hs2, hr2, hz2⟩ := ih hr1 (by omega)
    rw [hz1] at hs2 hr2
    exact ⟨s2, by simp [brun, hs1, hs2, Spec.Queue.brun], by simpa [Spec.Queue.brun] using hr2, by omega⟩

/-- In the specification every byte held or returned was accepted, in order. -/
theorem spec_prefix (cap : Nat) (q : List (Fin 256)) (os : List BOp) :
    (q ++ Spec.Queue.acceptedBytes os (Spec.Queue.brun cap q os).2).map (fun v => (v.val : Int)) =
      Spec.Queue.returnedBytes (Spec.Queue.brun cap q os).2 ++
        (Spec.Queue.brun cap q os).1.map (fun v => (v.val : Int)) := by
  induction os generalizing q with
  | nil => simp [Spec.Queue.brun, Spec.Queue.acceptedBytes, Spec.Queue.returnedBytes]
  | cons o os ih =>
    cases o with
    | write v =>
      by_cases hc : q.length < cap
      · have := ih (q ++ [v])
        simp only [Spec.Queue.brun, Spec.Queue.bstep, hc, if_true, Spec.Queue.acceptedBytes,
          Spec.Queue.returnedBytes]
        simpa using this
      · have := ih q
        simp only [Spec.Queue.brun, Spec.Queue.bstep, hc, if_false, Spec.Queue.acceptedBytes,
          Spec.Queue.returnedBytes]
        simpa using this
    | read =>
      cases q with
      | nil =>
        have := ih []
        simp only [Spec.Queue.brun, Spec.Queue.bstep, Spec.Queue.acceptedBytes,
          Spec.Queue.returnedBytes]
        simpa using this
      | cons v q =>
        have := ih q
        have hv : ((v.val : Int) = -1) = False := by simp
        simp only [Spec.Queue.brun, Spec.Queue.bstep, Spec.Queue.acceptedBytes,
          Spec.Queue.returnedBytes, hv, if_false]
        simpa using this

end Atl.RingBuffer
