import Verif.Spec.SerialLine
import Mathlib.Tactic.Linarith
import Mathlib.Tactic.Ring

namespace Atl.Spec.SerialLine
open Atl.Spec.Usart

theorem body_length (f : Format) (v : Nat) : (body f v).length + 1 = size f := by
  unfold body check size
  cases f.parity <;> simp

theorem frame_length (f : Format) (v : Nat) : (frame f v).length = size f - 1 + f.stop := by
  have := body_length f v
  unfold frame
  simp only [List.length_append, List.length_replicate]
  omega

theorem number_testBit (n v : Nat) (h : v < 2 ^ n) : number ((List.range n).map v.testBit) = v := by
  induction n generalizing v with
  | zero => simp [number]; omega
  | succ n ih =>
    have e : (List.range (n + 1)).map v.testBit = v.testBit 0 :: (List.range n).map (v / 2).testBit := by
      rw [List.range_succ_eq_map, List.map_cons, List.map_map]
      congr 1
      apply List.map_congr_left
      intro k _
      simp [Nat.testBit_succ]
    rw [e, number, ih (v / 2) (by rw [Nat.pow_succ] at h; omega)]
    have : (v.testBit 0).toNat = v % 2 := by
      rw [Nat.testBit_zero]
      rcases Nat.mod_two_eq_zero_or_one v with h | h <;> simp [h]
    omega

theorem hear_body (f : Format) (v : Nat) (h : v < 2 ^ f.bits) : hear f (body f v ++ [true]) = some v := by
  have e : number (((body f v ++ [true]).drop 1).take f.bits) = v := by
    unfold body
    rw [List.cons_append, List.drop_succ_cons, List.drop_zero, List.append_assoc,
      List.take_append_of_le_length (by simp), List.take_of_length_le (by simp), number_testBit f.bits v h]
  unfold hear
  simp only [e, if_true]

theorem hear_some (f : Format) (l : List Bool) (v : Nat) (h : hear f l = some v) : l = body f v ++ [true] := by
  unfold hear at h
  dsimp only at h
  split at h
  · next hl => rw [Option.some.injEq] at h; rw [h] at hl; exact hl
  · cases h

/-- The bit at a place of the frame, high behind it. -/
def bitAt (f : Format) (v p : Nat) : Bool := (frame f v).getD p true

theorem body_get (f : Format) (v : Nat) (k : Nat) (hk : k < size f) : (body f v ++ [true])[k]'(by have := body_length f v; simp; omega) =
    if k + 1 < size f then bitAt f v k else true := by
  have hb := body_length f v
  unfold bitAt frame
  by_cases h : k + 1 < size f
  · rw [if_pos h, List.getElem_append_left (by omega), List.getD_eq_getElem?_getD, List.getElem?_append_left (by omega),
      List.getElem?_eq_getElem (by omega)]
    rfl
  · rw [if_neg h, List.getElem_append_right (by omega)]
    simp

theorem bitAt_stop (f : Format) (v p : Nat) (hp : size f ≤ p + 1) : bitAt f v p = true := by
  have hb := body_length f v
  unfold bitAt frame
  rw [List.getD_eq_getElem?_getD, List.getElem?_append_right (by omega), List.getElem?_replicate]
  split <;> rfl

theorem bitAt_start (f : Format) (v : Nat) : bitAt f v 0 = false := rfl

theorem bitAt_data (f : Format) (v p : Nat) (hp : p < f.bits) : bitAt f v (p + 1) = v.testBit p := by
  unfold bitAt frame body
  rw [List.getD_eq_getElem?_getD, List.cons_append, List.getElem?_cons_succ, List.append_assoc, List.getElem?_append_left (by simpa using hp),
    List.getElem?_map, List.getElem?_range hp]
  rfl

theorem bitAt_check (f : Format) (v : Nat) (hp : f.parity ≠ .disabled) :
    bitAt f v (f.bits + 1) = decide (ones f.bits v % 2 = if f.parity = .even then 1 else 0) := by
  unfold bitAt frame body
  rw [List.getD_eq_getElem?_getD, List.cons_append, List.getElem?_cons_succ, List.append_assoc, List.getElem?_append_right (by simp)]
  unfold check
  cases hf : f.parity with
  | disabled => exact absurd hf hp
  | even => simp
  | odd => simp

theorem level_in (T g : Nat) (l : List Bool) (r : List (Nat × List Bool)) (x : Nat) (h : x < T * l.length) :
    level T ((g, l) :: r) (g + x) = l.getD (x / T) true := by
  unfold level
  rw [if_neg (by omega), if_pos (by omega), show g + x - g = x by omega]

theorem level_rest (T g : Nat) (l : List Bool) (r : List (Nat × List Bool)) (x : Nat) :
    level T ((g, l) :: r) (g + T * l.length + x) = level T r x := by
  rw [level]
  rw [if_neg (by omega), if_neg (by omega), show g + T * l.length + x - (g + T * l.length) = x by omega]

theorem level_gap (T g : Nat) (l : List Bool) (r : List (Nat × List Bool)) (x : Nat) (h : x < g) : level T ((g, l) :: r) x = true := by
  rw [level, if_pos h]

/-- A longer pause before what follows. -/
def later (a : Nat) : List (Nat × List Bool) → List (Nat × List Bool)
  | [] => []
  | (g, l) :: r => (a + g, l) :: r

theorem level_later (T a : Nat) (r : List (Nat × List Bool)) (t : Nat) : level T (later a r) t = if t < a then true else level T r (t - a) := by
  cases r with
  | nil => simp [later, level]
  | cons x r =>
    obtain ⟨g, l⟩ := x
    simp only [later, level]
    by_cases h : t < a
    · rw [if_pos h, if_pos (by omega)]
    · rw [if_neg h]
      by_cases h1 : t - a < g
      · rw [if_pos h1, if_pos (by omega)]
      · rw [if_neg h1, if_neg (by omega)]
        by_cases h2 : t - a < g + T * l.length
        · rw [if_pos h2, if_pos (by omega), show t - (a + g) = t - a - g by omega]
        · rw [if_neg h2, if_neg (by omega), show t - (a + g + T * l.length) = t - a - (g + T * l.length) by omega]

/-- From a moment in the stop bits on the line is what follows, after what is left of the stop bits. -/
theorem level_shift (T g : Nat) (f : Format) (v : Nat) (r : List (Nat × List Bool)) (x : Nat) (hT : 0 < T) (h1 : (size f - 1) * T ≤ x)
    (h2 : x < T * (frame f v).length) :
    (fun t => level T ((g, frame f v) :: r) (g + x + t)) = level T (later (T * (frame f v).length - x) r) := by
  funext t
  rw [level_later]
  by_cases h : t < T * (frame f v).length - x
  · rw [if_pos h, show g + x + t = g + (x + t) by omega, level_in _ _ _ _ _ (by omega)]
    refine bitAt_stop f v ((x + t) / T) ?_
    have : size f - 1 ≤ (x + t) / T := (Nat.le_div_iff_mul_le hT).2 (by omega)
    omega
  · rw [if_neg h, show g + x + t = g + T * (frame f v).length + (t - (T * (frame f v).length - x)) by omega, level_rest]

theorem Fits.pos {f : Format} {T H J : Nat} (h : Fits f T H J) : 0 < T := by
  refine Nat.pos_of_ne_zero fun h0 => ?_
  have := h.stop.2
  subst h0
  omega

/-- A look at the line at a place of the first character. -/
theorem sent_at (f : Format) (T g v : Nat) (r : List (Nat × Nat)) (x : Nat) (h : x < T * (frame f v).length) :
    sent f T ((g, v) :: r) (g + x) = bitAt f v (x / T) := level_in T g _ _ x h

theorem fits_samples {f : Format} {T H J : Nat} (h : Fits f T H J) (g v : Nat) (r : List (Nat × Nat)) (j : Nat) (hj : j ≤ J) :
    ((List.range (size f)).map fun k => sent f T ((g, v) :: r) (g + j + (2 * k + 1) * H)) = body f v ++ [true] := by
  have hb := body_length f v
  have hT := h.pos
  apply List.ext_getElem (by simp; omega)
  intro k h1 _
  have hk : k < size f := by simpa using h1
  rw [body_get f v k hk, List.getElem_map, List.getElem_range, show g + j + (2 * k + 1) * H = g + (j + (2 * k + 1) * H) by omega]
  have hl := frame_length f v
  by_cases hs : k + 1 < size f
  · obtain ⟨a, b⟩ := h.bits k hs
    have hd : (j + (2 * k + 1) * H) / T = k := (Nat.div_eq_iff hT).2 ⟨by omega, by have : (k + 1) * T = k * T + T := Nat.succ_mul k T; omega⟩
    have : (k + 1) * T ≤ T * (frame f v).length := by rw [Nat.mul_comm T]; exact Nat.mul_le_mul_right T (by omega)
    rw [if_pos hs, sent_at f T g v r _ (by omega), hd]
  · have e : k = size f - 1 := by omega
    subst e
    obtain ⟨a, b⟩ := h.stop
    rw [if_neg hs, sent_at f T g v r _ (by rw [hl, Nat.mul_comm T]; omega)]
    refine bitAt_stop f v _ ?_
    have : size f - 1 ≤ (j + (2 * (size f - 1) + 1) * H) / T := (Nat.le_div_iff_mul_le hT).2 (by omega)
    omega

theorem sent_first (f : Format) (T g v : Nat) (r : List (Nat × Nat)) (hT : 0 < T) : (∀ t, t < g → sent f T ((g, v) :: r) t = true) ∧
    sent f T ((g, v) :: r) g = false := by
  refine ⟨fun t ht => level_gap T g _ _ t ht, ?_⟩
  have hl : 0 < (frame f v).length := by unfold frame body; simp
  have := sent_at f T g v r 0 (Nat.mul_pos hT hl)
  rw [Nat.add_zero, Nat.zero_div] at this
  rw [this]
  rfl

/-- What follows, after a longer pause. -/
def wait (a : Nat) : List (Nat × Nat) → List (Nat × Nat)
  | [] => []
  | (g, v) :: r => (a + g, v) :: r

theorem sent_shift {f : Format} {T H J : Nat} (h : Fits f T H J) (g v : Nat) (r : List (Nat × Nat)) (j : Nat) (hj : j ≤ J) :
    ∃ a, (fun t => sent f T ((g, v) :: r) (g + j + (2 * (size f - 1) + 1) * H + t)) = sent f T (wait a r) := by
  have hl := frame_length f v
  obtain ⟨a, b⟩ := h.stop
  refine ⟨T * (frame f v).length - (j + (2 * (size f - 1) + 1) * H), ?_⟩
  have := level_shift T g f v (r.map fun x => (x.1, frame f x.2)) (j + (2 * (size f - 1) + 1) * H) h.pos (by omega) (by rw [hl, Nat.mul_comm T]; omega)
  unfold sent
  rw [List.map_cons]
  refine Eq.trans ?_ (this.trans ?_)
  · funext t; congr 1; omega
  · cases r <;> rfl

/-- What a receiver makes of characters that fit in time, also if its own format is another one of the same size. -/
theorem hears_as {f g : Format} {T H J : Nat} (h : Fits g T H J) (hsz : size f = size g) (n : Nat) (s : List (Nat × Nat)) (hn : s.length = n)
    (rs : List (Option Nat)) (hr : Hears f H J (sent g T s) rs) : rs = s.map fun x => hear f (body g x.2 ++ [true]) := by
  induction n generalizing s rs with
  | zero =>
    obtain rfl := List.length_eq_zero_iff.1 hn
    cases hr with
    | silence _ => rfl
    | char e j _ he _ _ => cases he
  | succ n ih =>
    obtain _ | ⟨⟨p, v⟩, r⟩ := s
    · cases hn
    obtain ⟨h1, h2⟩ := sent_first g T p v r h.pos
    cases hr with
    | silence ht => rw [ht p] at h2; cases h2
    | @char _ rs e j ha he hj hrest =>
      have hg : e = p := by
        rcases Nat.lt_trichotomy e p with x | x | x
        · rw [h1 e x] at he; cases he
        · exact x
        · rw [ha p x] at h2; cases h2
      subst hg
      rw [hsz] at hrest ⊢
      rw [fits_samples h e v r j hj]
      obtain ⟨a, hs⟩ := sent_shift h e v r j hj
      rw [hs] at hrest
      have hlen : (wait a r).length = n := by
        have : r.length = n := by simpa using hn
        cases r <;> simpa [wait] using this
      have := ih (wait a r) hlen rs hrest
      rw [this, List.map_cons]
      congr 1
      cases r <;> rfl

/-- A fitting receiver hears nothing but what was sent. -/
theorem hears_only {f : Format} {T H J : Nat} (h : Fits f T H J) (s : List (Nat × Nat)) (hv : ∀ x ∈ s, x.2 < 2 ^ f.bits)
    (rs : List (Option Nat)) (hr : Hears f H J (sent f T s) rs) : rs = s.map fun x => some x.2 := by
  rw [hears_as h rfl s.length s rfl rs hr]
  exact List.map_congr_left fun x hx => hear_body f x.2 (hv x hx)

theorem level_settles (T : Nat) (s : List (Nat × List Bool)) : ∃ E, ∀ t, E ≤ t → level T s t = true := by
  induction s with
  | nil => exact ⟨0, fun _ _ => rfl⟩
  | cons x r ih =>
    obtain ⟨g, l⟩ := x
    obtain ⟨E, hE⟩ := ih
    refine ⟨g + T * l.length + E, fun t ht => ?_⟩
    rw [level, if_neg (by omega), if_neg (by omega)]
    exact hE _ (by omega)

/-- Every receiver hears something on a line that comes to rest. -/
theorem hears_exists (f : Format) (H J : Nat) (hH : 0 < H) (E : Nat) (line : Nat → Bool) (hE : ∀ t, E ≤ t → line t = true) : ∃ rs, Hears f H J line rs := by
  induction E using Nat.strongRecOn generalizing line with
  | _ E ih =>
    by_cases hall : ∀ t, line t = true
    · exact ⟨[], .silence hall⟩
    · have hex : ∃ t, line t = false := by
        refine Classical.byContradiction fun hx => hall fun t => ?_
        cases hl : line t with
        | true => rfl
        | false => exact absurd ⟨t, hl⟩ hx
      obtain ⟨e, he, hmin⟩ : ∃ e, line e = false ∧ ∀ t, t < e → line t = true := by
        obtain ⟨t, ht⟩ := hex
        induction t using Nat.strongRecOn with
        | _ t iht =>
          by_cases hx : ∃ t', t' < t ∧ line t' = false
          · obtain ⟨t', h1, h2⟩ := hx
            exact iht t' h1 h2
          · refine ⟨t, ht, fun u hu => ?_⟩
            cases hl : line u with
            | true => rfl
            | false => exact absurd ⟨u, hu, hl⟩ hx
      have heE : e < E := by
        refine Nat.lt_of_not_le fun hx => ?_
        rw [hE e hx] at he; cases he
      have hstep : 0 < (2 * (size f - 1) + 1) * H := Nat.mul_pos (by omega) hH
      obtain ⟨rs, hrs⟩ := ih (E - (e + 0 + (2 * (size f - 1) + 1) * H)) (by omega) (fun t => line (e + 0 + (2 * (size f - 1) + 1) * H + t))
        (fun t ht => hE _ (by omega))
      exact ⟨_, .char e 0 hmin he (Nat.zero_le J) hrs⟩

theorem hears_from (f : Format) (H J : Nat) (hH : 0 < H) (T : Nat) (hT : 0 < T) (g v : Nat) (r : List (Nat × Nat)) (j : Nat) (hj : j ≤ J) :
    ∃ rs, Hears f H J (sent f T ((g, v) :: r)) (hear f ((List.range (size f)).map fun k => sent f T ((g, v) :: r) (g + j + (2 * k + 1) * H)) :: rs) := by
  obtain ⟨E, hE⟩ := level_settles T (((g, v) :: r).map fun x => (x.1, frame f x.2))
  obtain ⟨rs, hrs⟩ := hears_exists f H J hH E (fun t => sent f T ((g, v) :: r) (g + j + (2 * (size f - 1) + 1) * H + t)) (fun t ht => hE _ (by omega))
  obtain ⟨h1, h2⟩ := sent_first f T g v r hT
  exact ⟨rs, .char g j h1 h2 hj hrs⟩

/-- Two bits of a frame, one of them no stop bit, are different for some character. -/
theorem bits_differ (f : Format) (hb : 2 ≤ f.bits) (p q : Nat) (hp : p + 1 < size f) (hpq : p ≠ q) : ∃ v, v < 2 ^ f.bits ∧ bitAt f v p ≠ bitAt f v q := by
  have hfour : 4 ≤ 2 ^ f.bits := Nat.pow_le_pow_right (n := 2) (by omega) hb
  -- ones of the characters used below
  have o0 : ones f.bits 0 = 0 := by unfold ones; simp [List.countP_eq_zero]
  have single : ∀ i, i < f.bits → ones f.bits (2 ^ i) = 1 := by
    intro i hi
    unfold ones
    have : ∀ n, i < n → (List.range n).countP (2 ^ i).testBit = 1 := by
      intro n
      induction n with
      | zero => omega
      | succ n ih =>
        intro hn
        rw [List.range_succ, List.countP_append]
        by_cases h : i < n
        · rw [ih h]; simp [Nat.testBit_two_pow]; omega
        · have : i = n := by omega
          subst this
          have z : (List.range i).countP (2 ^ i).testBit = 0 := by
            rw [List.countP_eq_zero]
            intro k hk
            simp [Nat.testBit_two_pow]
            have := List.mem_range.1 hk
            omega
          rw [z]; simp [Nat.testBit_two_pow]
    exact this f.bits hi
  have lt : ∀ i, i < f.bits → 2 ^ i < 2 ^ f.bits := fun i hi => Nat.pow_lt_pow_right (by omega) hi
  have data0 : ∀ i, i < f.bits → bitAt f 0 (i + 1) = false := fun i hi => by rw [bitAt_data f 0 i hi]; simp
  have data1 : ∀ i k, k < f.bits → bitAt f (2 ^ i) (k + 1) = decide (i = k) := fun i k hk => by rw [bitAt_data f _ k hk, Nat.testBit_two_pow]
  have check1 : f.parity ≠ .disabled → ∃ v i, v < 2 ^ f.bits ∧ bitAt f v (f.bits + 1) = true ∧ (v = 0 ∨ v = 2 ^ i ∧ i < f.bits) := by
    intro hd
    cases hf : f.parity with
    | disabled => exact absurd hf hd
    | even => exact ⟨2 ^ 0, 0, lt 0 (by omega), by rw [bitAt_check f _ hd, single 0 (by omega), hf]; rfl, Or.inr ⟨rfl, by omega⟩⟩
    | odd => exact ⟨0, 0, by omega, by rw [bitAt_check f _ hd, o0, hf]; rfl, Or.inl rfl⟩
  have check0 : f.parity ≠ .disabled → ∃ v, v < 2 ^ f.bits ∧ bitAt f v (f.bits + 1) = false := by
    intro hd
    cases hf : f.parity with
    | disabled => exact absurd hf hd
    | even => exact ⟨0, by omega, by rw [bitAt_check f _ hd, o0, hf]; rfl⟩
    | odd => exact ⟨2 ^ 0, lt 0 (by omega), by rw [bitAt_check f _ hd, single 0 (by omega), hf]; rfl⟩
  have dataCheck : f.parity ≠ .disabled → ∀ i, i < f.bits → ∃ v, v < 2 ^ f.bits ∧ bitAt f v (i + 1) = false ∧ bitAt f v (f.bits + 1) = true := by
    intro hd i hi
    cases hf : f.parity with
    | disabled => exact absurd hf hd
    | even =>
      have hk : ∃ k, k < f.bits ∧ k ≠ i := by
        by_cases h : i = 0
        · exact ⟨1, by omega, by omega⟩
        · exact ⟨0, by omega, by omega⟩
      obtain ⟨k, hk, hki⟩ := hk
      exact ⟨2 ^ k, lt k hk, by rw [data1 k i hi]; simpa using hki, by rw [bitAt_check f _ hd, single k hk, hf]; rfl⟩
    | odd => exact ⟨0, by omega, data0 i hi, by rw [bitAt_check f _ hd, o0, hf]; rfl⟩
  have kind : ∀ p, p = 0 ∨ (∃ i, i < f.bits ∧ p = i + 1) ∨ (f.parity ≠ .disabled ∧ p = f.bits + 1) ∨ size f ≤ p + 1 := by
    intro p
    unfold size
    by_cases hd : f.parity = .disabled
    · rw [if_pos hd]
      by_cases h : p = 0
      · exact Or.inl h
      · by_cases h1 : p ≤ f.bits
        · exact Or.inr (Or.inl ⟨p - 1, by omega, by omega⟩)
        · exact Or.inr (Or.inr (Or.inr (by omega)))
    · rw [if_neg hd]
      by_cases h : p = 0
      · exact Or.inl h
      · by_cases h1 : p ≤ f.bits
        · exact Or.inr (Or.inl ⟨p - 1, by omega, by omega⟩)
        · by_cases h2 : p = f.bits + 1
          · exact Or.inr (Or.inr (Or.inl ⟨hd, h2⟩))
          · exact Or.inr (Or.inr (Or.inr (by omega)))
  rcases kind p with rfl | ⟨i, hi, rfl⟩ | ⟨hd, rfl⟩ | hs
  · rcases kind q with rfl | ⟨k, hk, rfl⟩ | ⟨hd, rfl⟩ | hs
    · exact absurd rfl hpq
    · exact ⟨2 ^ k, lt k hk, by rw [bitAt_start, data1 k k hk]; simp⟩
    · obtain ⟨v, _, h1, h2, _⟩ := check1 hd
      exact ⟨v, h1, by rw [bitAt_start, h2]; simp⟩
    · exact ⟨0, by omega, by rw [bitAt_start, bitAt_stop f 0 q hs]; simp⟩
  · rcases kind q with rfl | ⟨k, hk, rfl⟩ | ⟨hd, rfl⟩ | hs
    · exact ⟨2 ^ i, lt i hi, by rw [bitAt_start, data1 i i hi]; simp⟩
    · have : i ≠ k := fun h => hpq (by rw [h])
      exact ⟨2 ^ i, lt i hi, by rw [data1 i i hi, data1 i k hk]; simpa using this⟩
    · obtain ⟨v, h1, h2, h3⟩ := dataCheck hd i hi
      exact ⟨v, h1, by rw [h2, h3]; simp⟩
    · exact ⟨0, by omega, by rw [data0 i hi, bitAt_stop f 0 q hs]; simp⟩
  · rcases kind q with rfl | ⟨k, hk, rfl⟩ | ⟨_, rfl⟩ | hs
    · obtain ⟨v, _, h1, h2, _⟩ := check1 hd
      exact ⟨v, h1, by rw [bitAt_start, h2]; simp⟩
    · obtain ⟨v, h1, h2, h3⟩ := dataCheck hd k hk
      exact ⟨v, h1, by rw [h2, h3]; simp⟩
    · exact absurd rfl hpq
    · obtain ⟨v, h1, h2⟩ := check0 hd
      exact ⟨v, h1, by rw [h2, bitAt_stop f v q hs]; simp⟩
  · omega

/-- A look that falls in a bit with another level: the character is not heard. -/
theorem misheard (f : Format) (H J : Nat) (hH : 0 < H) (T : Nat) (hT : 0 < T) (v : Nat) (r : List (Nat × Nat)) (j : Nat) (hj : j ≤ J) (k : Nat)
    (hk : k < size f) (hne : sent f T ((0, v) :: r) (j + (2 * k + 1) * H) ≠ if k + 1 < size f then bitAt f v k else true) :
    ∃ rs, Hears f H J (sent f T ((0, v) :: r)) rs ∧ rs ≠ ((0, v) :: r).map fun x => some x.2 := by
  obtain ⟨rs, hrs⟩ := hears_from f H J hH T hT 0 v r j hj
  refine ⟨_, hrs, fun h => hne ?_⟩
  rw [List.map_cons, List.cons.injEq] at h
  have hb := hear_some f _ v h.1
  have hlen := body_length f v
  have := congrArg (fun l => l[k]?) hb
  rw [List.getElem?_map, List.getElem?_range hk, List.getElem?_eq_getElem (by simp; omega), body_get f v k hk] at this
  simpa using this

/-- The level of a line with one character only. -/
theorem sent_alone (f : Format) (T v x : Nat) (hT : 0 < T) : sent f T [(0, v)] x = bitAt f v (x / T) := by
  by_cases h : x < T * (frame f v).length
  · have := sent_at f T 0 v [] x h
    rwa [Nat.zero_add] at this
  · have e := level_rest T 0 (frame f v) [] (x - T * (frame f v).length)
    rw [show 0 + T * (frame f v).length + (x - T * (frame f v).length) = x by omega] at e
    refine Eq.trans (b := true) e (bitAt_stop f v (x / T) ?_).symm
    have hl := frame_length f v
    have : (frame f v).length ≤ x / T := (Nat.le_div_iff_mul_le hT).2 (by rw [Nat.mul_comm]; omega)
    omega

/-- A receiver that does not fit mishears something. -/
theorem not_fits (f : Format) (hb : 2 ≤ f.bits) (hs : 1 ≤ f.stop) (T H J : Nat) (hT : 0 < T) (hH : 0 < H) (hf : ¬ Fits f T H J) :
    ∃ s rs, (∀ x ∈ s, x.2 < 2 ^ f.bits) ∧ Hears f H J (sent f T s) rs ∧ rs ≠ s.map fun x => some x.2 := by
  have hsize : 4 ≤ size f := by unfold size; split <;> omega
  by_cases h1 : ∀ k, k + 1 < size f → k * T ≤ (2 * k + 1) * H ∧ (2 * k + 1) * H + J < (k + 1) * T
  · by_cases h2 : (size f - 1) * T ≤ (2 * (size f - 1) + 1) * H
    · have h3 : ¬ (2 * (size f - 1) + 1) * H + J < (size f - 1 + f.stop) * T := fun h => hf ⟨h1, h2, h⟩
      -- the look at the stop bit falls in the start bit of the next character
      obtain ⟨a, b⟩ := h1 (size f - 2) (by omega)
      obtain ⟨c, hc⟩ : ∃ c, size f = c + 4 := ⟨size f - 4, by omega⟩
      have e1 : (2 * (size f - 1) + 1) * H = (2 * (size f - 2) + 1) * H + 2 * H := by
        rw [hc, show 2 * (c + 4 - 1) + 1 = 2 * c + 7 by omega, show 2 * (c + 4 - 2) + 1 = 2 * c + 5 by omega]; ring
      have e2 : (size f - 2 + 1) * T = (size f - 1) * T := by rw [show size f - 2 + 1 = size f - 1 by omega]
      have h2H : 2 * H < 2 * T := by
        have : (2 * (size f - 2) + 1) * H < (size f - 1) * T := by omega
        rw [hc, show 2 * (c + 4 - 2) + 1 = 2 * c + 5 by omega, show c + 4 - 1 = c + 3 by omega] at this
        by_contra hcon
        have hle : T ≤ H := by omega
        have := Nat.mul_le_mul_left (c + 3) hle
        have : (2 * c + 5) * H = (c + 3) * H + (c + 2) * H := by ring
        have : 0 < (c + 2) * H := Nat.mul_pos (by omega) hH
        omega
      have hstop : f.stop = 1 := by
        by_contra hcon
        have : (size f - 1 + 2) * T ≤ (size f - 1 + f.stop) * T := Nat.mul_le_mul_right T (by omega)
        have : (size f - 1 + 2) * T = (size f - 1) * T + 2 * T := by ring
        omega
      rw [hstop] at h3
      have e3 : (size f - 1 + 1) * T = (size f - 1) * T + T := by ring
      have hl0 := frame_length f 0
      have e4 : T * (frame f 0).length = (size f - 1) * T + T := by rw [hl0, hstop, Nat.mul_comm, e3]
      have hlow : sent f T [(0, 0), (0, 0)] (J + (2 * (size f - 1) + 1) * H) = false := by
        have e := level_rest T 0 (frame f 0) [(0, frame f 0)] (J + (2 * (size f - 1) + 1) * H - T * (frame f 0).length)
        rw [show 0 + T * (frame f 0).length + (J + (2 * (size f - 1) + 1) * H - T * (frame f 0).length) = J + (2 * (size f - 1) + 1) * H by omega] at e
        refine e.trans ?_
        have hx : J + (2 * (size f - 1) + 1) * H - T * (frame f 0).length < T := by omega
        have := level_in T 0 (frame f 0) [] (J + (2 * (size f - 1) + 1) * H - T * (frame f 0).length) (by omega)
        rw [Nat.zero_add, Nat.div_eq_of_lt hx] at this
        exact this
      obtain ⟨rs, r1, r2⟩ := misheard f H J hH T hT 0 [(0, 0)] J (Nat.le_refl J) (size f - 1) (by omega) (by
        rw [hlow, if_neg (by omega)]; simp)
      exact ⟨[(0, 0), (0, 0)], rs, by simp, r1, r2⟩
    · -- the look at the stop bit comes too early
      have hq : (0 + (2 * (size f - 1) + 1) * H) / T < size f - 1 := (Nat.div_lt_iff_lt_mul hT).2 (by omega)
      obtain ⟨v, hv, hd⟩ := bits_differ f hb ((0 + (2 * (size f - 1) + 1) * H) / T) (size f - 1) (by omega) (by omega)
      obtain ⟨rs, r1, r2⟩ := misheard f H J hH T hT v [] 0 (Nat.zero_le J) (size f - 1) (by omega) (by
        rw [sent_alone f T v _ hT, if_neg (by omega)]
        rw [bitAt_stop f v (size f - 1) (by omega)] at hd
        exact hd)
      exact ⟨[(0, v)], rs, by simpa using hv, r1, r2⟩
  · have hex : ∃ k j, k + 1 < size f ∧ j ≤ J ∧ (j + (2 * k + 1) * H) / T ≠ k := by
      refine Classical.byContradiction fun hno => h1 fun k hk => ?_
      have a : ∀ j, j ≤ J → (j + (2 * k + 1) * H) / T = k := fun j hj => Classical.byContradiction fun hx => hno ⟨k, j, hk, hj, hx⟩
      have a0 := (Nat.div_eq_iff hT).1 (a 0 (Nat.zero_le J))
      have a1 := (Nat.div_eq_iff hT).1 (a J (Nat.le_refl J))
      have : (k + 1) * T = k * T + T := by ring
      constructor <;> omega
    obtain ⟨k, j, hk, hj, hne⟩ := hex
    obtain ⟨v, hv, hd⟩ := bits_differ f hb k ((j + (2 * k + 1) * H) / T) hk (fun h => hne h.symm)
    obtain ⟨rs, r1, r2⟩ := misheard f H J hH T hT v [] j hj k (by omega) (by
      rw [sent_alone f T v _ hT, if_pos hk]
      exact fun h => hd h.symm)
    exact ⟨[(0, v)], rs, by simpa using hv, r1, r2⟩


theorem hears_some_exists (f : Format) (T H J : Nat) (hH : 0 < H) (s : List (Nat × Nat)) : ∃ rs, Hears f H J (sent f T s) rs := by
  obtain ⟨E, hE⟩ := level_settles T (s.map fun x => (x.1, frame f x.2))
  exact hears_exists f H J hH E _ hE

theorem understands_iff (f : Format) (hb : 2 ≤ f.bits) (hs : 1 ≤ f.stop) (T H J : Nat) (hT : 0 < T) (hH : 0 < H) : Understands f T H J ↔ Fits f T H J := by
  constructor
  · intro h
    refine Classical.byContradiction fun hf => ?_
    obtain ⟨s, rs, h1, h2, h3⟩ := not_fits f hb hs T H J hT hH hf
    exact h3 ((h s h1 rs).1 h2)
  · intro h s hv rs
    refine ⟨hears_only h s hv rs, ?_⟩
    rintro rfl
    obtain ⟨rs, hrs⟩ := hears_some_exists f T H J hH s
    rwa [← hears_only h s hv rs hrs]

/-- The other parity is an error. -/
theorem hear_other (f g : Format) (v : Nat) (hb : f.bits = g.bits) (hp : g.parity = other f.parity) (hd : f.parity ≠ .disabled) :
    hear f (body g v ++ [true]) = none := by
  unfold hear
  dsimp only
  rw [if_neg]
  intro h
  generalize number (((body g v ++ [true]).drop 1).take f.bits) = w at h
  have h1 := List.append_cancel_right h
  unfold body at h1
  injection h1 with _ h1
  rw [hb] at h1
  obtain ⟨h2, h3⟩ := List.append_inj h1 (by simp)
  have h4 : ones g.bits v = ones g.bits w := by
    unfold ones
    have := congrArg (List.countP (fun b : Bool => b)) h2
    rwa [List.countP_map, List.countP_map] at this
  unfold check at h3
  rw [hp, hb, ← h4] at h3
  cases hf : f.parity with
  | disabled => exact hd hf
  | even =>
    rw [hf] at h3
    simp only [other, List.cons.injEq, and_true, decide_eq_decide] at h3
    omega
  | odd =>
    rw [hf] at h3
    simp only [other, List.cons.injEq, and_true, decide_eq_decide] at h3
    omega

/-- The last bit whose end matters to a receiver slower than the sender: the stop bit, or, if there are two, the bit before them. -/
def last (f : Format) : Nat := if f.stop = 1 then size f else size f - 1

theorem fits_fast_iff (f : Format) (hs : f.stop = 1 ∨ f.stop = 2) (hb : 1 ≤ f.bits) (x F J : Nat) (hx : x ≤ F) :
    Fits f (2 * x) F J ↔ (2 * last f - 1) * F + J < 2 * last f * x := by
  obtain ⟨y, rfl⟩ : ∃ y, F = x + y := ⟨F - x, by omega⟩
  obtain ⟨c, hc⟩ : ∃ c, size f = c + 3 := ⟨size f - 3, by unfold size; omega⟩
  have a1 : ∀ k, (2 * k + 1) * (x + y) = 2 * (k * x) + 2 * (k * y) + x + y := fun k => by ring
  have a2 : ∀ k, (k + 1) * (2 * x) = 2 * (k * x) + 2 * x := fun k => by ring
  have a3 : ∀ k, k * (2 * x) = 2 * (k * x) := fun k => by ring
  have mono : ∀ k K, k ≤ K → k * y ≤ K * y := fun k K h => Nat.mul_le_mul_right y h
  have b1 : (c + 2) * y = (c + 1) * y + y := by ring
  have b2 : (c + 2) * x = (c + 1) * x + x := by ring
  have b3 : (c + 1) * y = c * y + y := by ring
  rcases hs with hs | hs
  · have e1 : (2 * last f - 1) * (x + y) = 2 * ((c + 2) * x) + 2 * ((c + 2) * y) + x + y := by
      rw [last, if_pos hs, hc, ← a1]; congr 1
    have e2 : 2 * last f * x = 2 * ((c + 2) * x) + 2 * x := by rw [last, if_pos hs, hc, ← a2]; ring
    rw [e1, e2]
    constructor
    · intro h
      have := h.stop.2
      rw [hc, hs, show c + 3 - 1 = c + 2 by omega, a1, a2] at this
      exact this
    · intro h
      refine ⟨fun k hk => ?_, ?_⟩
      · have := mono k (c + 2) (by omega)
        rw [a1, a2, a3]
        constructor <;> omega
      · rw [hc, hs, show c + 3 - 1 = c + 2 by omega, a1 (c + 2), a2 (c + 2), a3 (c + 2)]
        constructor <;> omega
  · have e1 : (2 * last f - 1) * (x + y) = 2 * ((c + 1) * x) + 2 * ((c + 1) * y) + x + y := by
      rw [last, if_neg (by omega), hc, ← a1]; congr 1
    have e2 : 2 * last f * x = 2 * ((c + 1) * x) + 2 * x := by
      rw [last, if_neg (by omega), hc, ← a2, show c + 3 - 1 = c + 2 by omega]; ring
    rw [e1, e2]
    constructor
    · intro h
      have := (h.bits (c + 1) (by omega)).2
      rw [a1, a2] at this
      exact this
    · intro h
      refine ⟨fun k hk => ?_, ?_⟩
      · have := mono k (c + 1) (by omega)
        rw [a1, a2, a3]
        constructor <;> omega
      · rw [hc, hs, show c + 3 - 1 = c + 2 by omega, a1, a3, show (c + 2 + 2) * (2 * x) = 2 * ((c + 2) * x) + 4 * x by ring]
        constructor <;> omega

theorem fits_slow_iff (f : Format) (hs : 1 ≤ f.stop) (x F J : Nat) (hx : x ≤ F) (hJ : x + J < 2 * F) :
    Fits f (2 * F) x J ↔ (2 * size f - 2) * F ≤ (2 * size f - 1) * x := by
  obtain ⟨y, rfl⟩ : ∃ y, F = x + y := ⟨F - x, by omega⟩
  obtain ⟨c, hc⟩ : ∃ c, size f = c + 2 := ⟨size f - 2, by unfold size; omega⟩
  have a1 : ∀ k, (2 * k + 1) * x = 2 * (k * x) + x := fun k => by ring
  have a2 : ∀ k, (k + 1) * (2 * (x + y)) = 2 * (k * x) + 2 * (k * y) + 2 * x + 2 * y := fun k => by ring
  have a3 : ∀ k, k * (2 * (x + y)) = 2 * (k * x) + 2 * (k * y) := fun k => by ring
  have mono : ∀ k K, k ≤ K → k * y ≤ K * y := fun k K h => Nat.mul_le_mul_right y h
  have e1 : (2 * size f - 2) * (x + y) = 2 * ((c + 1) * x) + 2 * ((c + 1) * y) := by
    rw [hc, ← a3, show 2 * (c + 2) - 2 = 2 * (c + 1) by omega]; ring
  have e2 : (2 * size f - 1) * x = 2 * ((c + 1) * x) + x := by rw [hc, ← a1]; congr 1
  rw [e1, e2]
  constructor
  · intro h
    have := h.stop.1
    rw [hc, show c + 2 - 1 = c + 1 by omega, a1, a3] at this
    exact this
  · intro h
    refine ⟨fun k hk => ?_, ?_, ?_⟩
    · have := mono k (c + 1) (by omega)
      rw [a1, a2, a3]
      constructor <;> omega
    · rw [hc, show c + 2 - 1 = c + 1 by omega, a1, a3]
      omega
    · rw [hc, show c + 2 - 1 = c + 1 by omega]
      have := Nat.mul_le_mul_right (2 * (x + y)) (show c + 1 + 1 ≤ c + 1 + f.stop by omega)
      rw [a2] at this
      rw [a1]
      omega

/-- Within the length of a bit the line does not change twice. -/
theorem level_steady (T : Nat) (hT : 0 < T) (s : List (Nat × List Bool)) (hs : ∀ x ∈ s, ∃ l, x.2 = l ++ [true]) (x t y : Nat) (h1 : x ≤ t) (h2 : t ≤ y)
    (h3 : y ≤ x + T) : level T s t = level T s x ∨ level T s t = level T s y := by
  induction s generalizing x t y with
  | nil => exact Or.inl rfl
  | cons p r ih =>
    obtain ⟨g, l⟩ := p
    obtain ⟨l', hl'⟩ := hs (g, l) (by simp)
    simp only at hl'
    subst hl'
    have hE : T * (l' ++ [true]).length = T * l'.length + T := by simp [Nat.mul_add]
    unfold level
    simp only [hE]
    have stopbit : ∀ z, g + T * l'.length ≤ z → z < g + (T * l'.length + T) → (l' ++ [true]).getD ((z - g) / T) true = true := by
      intro z a b
      have : (z - g) / T = l'.length := by
        rw [Nat.div_eq_iff hT]
        have : l'.length * T = T * l'.length := Nat.mul_comm _ _
        omega
      rw [this]
      simp
    by_cases xg : x < g
    · by_cases tg : t < g
      · left; rw [if_pos xg, if_pos tg]
      · by_cases yE : y < g + (T * l'.length + T)
        · right
          rw [if_neg tg, if_neg (by omega : ¬ y < g), if_pos (by omega), if_pos yE, Nat.div_eq_of_lt (by omega : t - g < T), Nat.div_eq_of_lt (by omega : y - g < T)]
        · omega
    · by_cases xE : x < g + (T * l'.length + T)
      · rw [if_neg (by omega : ¬ t < g), if_neg (by omega : ¬ y < g), if_neg xg, if_pos xE]
        by_cases yE : y < g + (T * l'.length + T)
        · rw [if_pos yE, if_pos (by omega)]
          have a1 : (x - g) / T ≤ (t - g) / T := Nat.div_le_div_right (by omega)
          have a2 : (t - g) / T ≤ (y - g) / T := Nat.div_le_div_right (by omega)
          have a3 : (y - g) / T ≤ (x - g) / T + 1 := by
            rw [← Nat.add_div_right _ hT]
            exact Nat.div_le_div_right (by omega)
          by_cases e : (t - g) / T = (x - g) / T
          · left; rw [e]
          · right; rw [show (t - g) / T = (y - g) / T by omega]
        · rw [if_neg yE, stopbit x (by omega) xE]
          by_cases tE : t < g + (T * l'.length + T)
          · left; rw [if_pos tE, stopbit t (by omega) tE]
          · rw [if_neg tE]
            cases r with
            | nil => left; rfl
            | cons q r =>
              obtain ⟨g2, l2⟩ := q
              obtain ⟨l3, hl3⟩ := hs (g2, l2) (by simp)
              simp only at hl3
              subst hl3
              have hE2 : T * (l3 ++ [true]).length = T * l3.length + T := by simp [Nat.mul_add]
              unfold level
              simp only [hE2]
              by_cases tg : t - (g + (T * l'.length + T)) < g2
              · left; rw [if_pos tg]
              · right
                generalize hB : g + (T * l'.length + T) = B at *
                rw [if_neg tg, if_neg (by omega : ¬ y - B < g2), if_pos (by omega : t - B < g2 + (T * l3.length + T)),
                  if_pos (by omega : y - B < g2 + (T * l3.length + T)), Nat.div_eq_of_lt (by omega : t - B - g2 < T), Nat.div_eq_of_lt (by omega : y - B - g2 < T)]
      · rw [if_neg xg, if_neg xE, if_neg (by omega : ¬ t < g), if_neg (by omega : ¬ y < g), if_neg (by omega : ¬ t < g + (T * l'.length + T)),
          if_neg (by omega : ¬ y < g + (T * l'.length + T))]
        exact ih (fun q hq => hs q (by simp [hq])) _ _ _ (by omega) (by omega) (by omega)

theorem sent_steady (f : Format) (hs : 1 ≤ f.stop) (T : Nat) (hT : 0 < T) (s : List (Nat × Nat)) (x t y : Nat) (h1 : x ≤ t) (h2 : t ≤ y)
    (h3 : y ≤ x + T) : sent f T s t = sent f T s x ∨ sent f T s t = sent f T s y := by
  refine level_steady T hT _ (fun q hq => ?_) x t y h1 h2 h3
  obtain ⟨z, _, rfl⟩ := List.mem_map.1 hq
  refine ⟨body f z.2 ++ List.replicate (f.stop - 1) true, ?_⟩
  unfold frame
  dsimp only
  rw [List.append_assoc, show ([true] : List Bool) = List.replicate 1 true from rfl, List.replicate_append_replicate, show f.stop - 1 + 1 = f.stop by omega]

theorem majority_sent (f : Format) (hs : 1 ≤ f.stop) (T : Nat) (hT : 0 < T) (s : List (Nat × Nat)) (w : Nat) (hw : 2 * w ≤ T) :
    (fun t => majority (sent f T s (t - w)) (sent f T s t) (sent f T s (t + w))) = sent f T s := by
  funext t
  have := sent_steady f hs T hT s (t - w) t (t + w) (by omega) (by omega) (by omega)
  unfold majority
  revert this
  cases sent f T s (t - w) <;> cases sent f T s t <;> cases sent f T s (t + w) <;> simp

end Atl.Spec.SerialLine
