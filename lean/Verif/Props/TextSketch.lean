import Verif.Model.TextSketch
import Verif.Props.TextWriter

/- Property theorem C105: the TextWriter and TextFormatInfo examples. -/
namespace Atl.Props
open Atl.TextSketch Atl.Text Atl.Arduino Atl.Spec.Text Atl.Spec.Float

/-- What a value is to look like on its own line, without the line end. -/
def Written (f : Format) : Item → List Nat → Prop
  | .str mem, t => 0 ∉ t ∧ ∃ rest, mem = t ++ 0 :: rest
  | .int x, t => if f.defaultBase = 10 then Decimal f.negativeSign t x else Numeral f.defaultBase t (x % 2 ^ 16).toNat
  | .real x, t => ∃ s n, t = (if x < 0 then [f.negativeSign] else []) ++ s ∧ FixedPoint f.decimalSeparator f.decimalDigits s n ∧
      |(n : Rat) / 10 ^ f.decimalDigits - (|x|)| ≤ 1 / (2 * 10 ^ f.decimalDigits) + (|x| + 3) / 2 ^ 24

/-- Values a sketch may write: a terminated string, an `int` other than the smallest, a `float` whose magnitude is below 2^32 - 257. -/
def Writable (f : Format) : Item → Prop
  | .str mem => 0 ∈ mem
  | .int x => -(2 ^ 15) ≤ x ∧ x < 2 ^ 15 ∧ (f.defaultBase = 10 → x ≠ -(2 ^ 15))
  | .real x => |x| ≤ 2 ^ 32 - 257

/-- A sensible format: base 4 to 36, a sign that is no digit, a terminated new line. -/
structure Sensible (f : Format) : Prop where
  base : 4 ≤ f.defaultBase
  base' : f.defaultBase ≤ 36
  sign : digitVal f.negativeSign = none
  line : 0 ∉ f.newLine

theorem split_zero (m : List Nat) (h : 0 ∈ m) : ∃ t rest, m = t ++ 0 :: rest ∧ 0 ∉ t := by
  induction m with
  | nil => simp at h
  | cons c m ih =>
    by_cases hc : c = 0
    · exact ⟨[], m, by rw [hc]; rfl, by simp⟩
    · obtain ⟨t, rest, rfl, ht⟩ := ih (by simpa [Ne.symm hc] using h)
      exact ⟨c :: t, rest, rfl, by simp [Ne.symm hc, ht]⟩

theorem line_ends (f : Format) (hf : Sensible f) (w : Res (List Nat)) (t : List Nat) (h : w = .ok t) : withLine f w = .ok (t ++ f.newLine) := by
  rw [withLine, h, writeLine]
  simp only [Res.bind_ok]
  rw [writeStr_ok f.newLine [] fun _ hc e => hf.line (e ▸ hc)]
  rfl

theorem item_written (f : Format) (hf : Sensible f) (i : Item) (hi : Writable f i) :
    ∃ t, writeItem (roundBin 24 126) f i = .ok (t ++ f.newLine) ∧ Written f i t := by
  cases i with
  | str mem =>
    obtain ⟨t, rest, rfl, ht⟩ := split_zero mem hi
    exact ⟨t, c33_line f hf.line t rest ht, ht, rest, rfl⟩
  | int x =>
    by_cases h10 : f.defaultBase = 10
    · obtain ⟨t, e, ht⟩ := c32_i16_decimal_partial 16 (by omega) false f h10 hf.sign x hi.1 hi.2.1 fun hx => absurd hx (hi.2.2 h10)
      exact ⟨t, line_ends f hf _ _ e, by simpa only [Written, if_pos h10] using ht⟩
    · obtain ⟨⟨t, e, ht⟩, -⟩ := c32_signed_other_base 16 (by omega) false f hf.base hf.base' h10 x
      exact ⟨t, line_ends f hf _ _ e, by simpa only [Written, if_neg h10] using ht⟩
  | real x =>
    have hx : |x| ≤ 2 ^ 32 - 257 := hi
    obtain ⟨s, n, e, h1, h2⟩ := c34_float_partial c34_formats.1 (by omega) (by omega) 16 (by omega) f x f.decimalDigits (by
      have : (2 : Rat) ^ ((32 : Int) - (24 : Nat)) = 256 := by norm_num
      rw [this]
      linarith)
    exact ⟨_, line_ends f hf _ _ e, s, n, rfl, h1, h2⟩

theorem send_some (b : List Nat) (s : OutCore) : send b (some s) = some { s with waiting := s.waiting ++ b } := by
  induction b generalizing s with
  | nil => simp [send]
  | cons c b ih =>
    have := ih { s with waiting := s.waiting ++ [c] }
    simpa [send, writeStream] using this

theorem send_none (b : List Nat) : send b none = none := by
  induction b with
  | nil => rfl
  | cons c b ih => exact ih

/-- **C105.** Every sketch that writes any values with any sensible format: nothing of what is written before the serial port is attached, and everything after it,
    one line for each value in order, reaches the port behind what was already there. -/
theorem c105_lines_partial (f : Format) (hf : Sensible f) (before after : List Item) (hb : ∀ i ∈ before, Writable f i) (ha : ∀ i ∈ after, Writable f i)
    (serial : OutCore) :
    ∃ texts, List.Forall₂ (Written f) after texts ∧ sketch (roundBin 24 126) f before after serial =
      .ok (some { serial with waiting := serial.waiting ++ (texts.map (· ++ f.newLine)).flatten }) := by
  have h1 : writeItems (roundBin 24 126) f before none = .ok none := by
    clear ha
    induction before with
    | nil => rfl
    | cons i l ih =>
      obtain ⟨t, e, -⟩ := item_written f hf i (hb i (by simp))
      simp only [writeItems, e, Res.bind_ok, send_none, ih fun j hj => hb j (by simp [hj])]
  have h2 : ∀ s : OutCore, ∃ texts, List.Forall₂ (Written f) after texts ∧ writeItems (roundBin 24 126) f after (some s) =
      .ok (some { s with waiting := s.waiting ++ (texts.map (· ++ f.newLine)).flatten }) := by
    clear h1 hb
    induction after with
    | nil => intro s; exact ⟨[], .nil, by simp [writeItems]⟩
    | cons i l ih =>
      intro s
      obtain ⟨t, e, ht⟩ := item_written f hf i (ha i (by simp))
      obtain ⟨ts, h, e2⟩ := ih (fun j hj => ha j (by simp [hj])) { s with waiting := s.waiting ++ (t ++ f.newLine) }
      refine ⟨t :: ts, .cons ht h, ?_⟩
      simp only [writeItems, e, Res.bind_ok, send_some, e2, List.map_cons, List.flatten_cons, List.append_assoc]
  obtain ⟨texts, h, e⟩ := h2 serial
  exact ⟨texts, h, by simp only [sketch, h1, Res.bind_ok, e]⟩

example := c105_lines_partial {} ⟨by decide, by decide, by decide, by decide⟩ [.int 1] [.str [72, 105, 0], .int 42] (by simp [Writable]) (by simp [Writable]) ⟨[], [33]⟩

/-- **C105, the sketches themselves.** The TextWriter example sends "Hello World!", "42" and "3.14", each with line feed and carriage return; the TextFormatInfo
    example "Hello World!", "2A" and "3,1416", each with a line feed. -/
theorem c105_examples (serial : OutCore) :
    example_ {} serial = .ok (some { serial with waiting := serial.waiting ++ (([72, 101, 108, 108, 111, 32, 87, 111, 114, 108, 100, 33, 10, 13] : List Nat) ++
      [52, 50, 10, 13] ++ [51, 46, 49, 52, 10, 13]) }) ∧
    example_ myFormat serial = .ok (some { serial with waiting := serial.waiting ++ (([72, 101, 108, 108, 111, 32, 87, 111, 114, 108, 100, 33, 10] : List Nat) ++
      [50, 65, 10] ++ [51, 44, 49, 52, 49, 54, 10]) }) := by
  have a1 : ∀ f, writeItem (roundBin 24 126) f (.str hello) = withLine f (.ok (hello.take 12)) := fun f => rfl
  have a2 : writeItem (roundBin 24 126) {} (.int 42) = .ok [52, 50, 10, 13] := by decide +kernel
  have a3 : writeItem (roundBin 24 126) {} (.real pi) = .ok [51, 46, 49, 52, 10, 13] := by decide +kernel
  have a4 : writeItem (roundBin 24 126) myFormat (.int 42) = .ok [50, 65, 10] := by decide +kernel
  have a5 : writeItem (roundBin 24 126) myFormat (.real pi) = .ok [51, 44, 49, 52, 49, 54, 10] := by decide +kernel
  have a6 : withLine {} (.ok (hello.take 12)) = .ok [72, 101, 108, 108, 111, 32, 87, 111, 114, 108, 100, 33, 10, 13] := by decide +kernel
  have a7 : withLine myFormat (.ok (hello.take 12)) = .ok [72, 101, 108, 108, 111, 32, 87, 111, 114, 108, 100, 33, 10] := by decide +kernel
  simp only [example_, sketch, writeItems, Res.bind_ok, a1, a2, a3, a4, a5, a6, a7, send_some, List.append_assoc, and_self]

/-- The literal of the sketches is the `float` next to 3.141592. -/
theorem c105_literal : roundBin 24 126 (3141592 / 1000000) = pi := by decide +kernel

example : Sensible {} ∧ Sensible myFormat ∧ Writable {} (.str hello) ∧ Writable {} (.int 42) ∧ Writable {} (.real pi) := by
  refine ⟨⟨by decide, by decide, by decide, by decide⟩, ⟨by decide, by decide, by decide, by decide⟩, by simp [Writable, hello], by simp [Writable], ?_⟩
  show |pi| ≤ 2 ^ 32 - 257
  rw [pi, abs_of_nonneg (by norm_num)]
  norm_num

/-- **Disagreement.** The smallest `int` cannot be written. -/
theorem c105_smallest_fails (serial : OutCore) : sketch (roundBin 24 126) {} [] [.int (-32768)] serial = .ub := by
  have : writeItem (roundBin 24 126) {} (.int (-32768)) = .ub := by decide +kernel
  simp only [sketch, writeItems, this, Res.bind_ok, Res.bind_ub]

end Atl.Props
