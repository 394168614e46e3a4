import Verif.Bytes

/-!
# Text: Python strings, formatting, UTF-8
-/

namespace Emb

/-- A Python `str` (lone surrogates, which cannot be encoded, are not modelled). -/
abbrev Str := List Char

/-- `bytes(string, "utf8")`, as used by `write_string_utf8`, `WriteHelper.py` 117-122. -/
def utf8 (s : Str) : Bytes := s.flatMap (fun c => (String.utf8EncodeChar c).map (fun b => (b.toNat : Int)))

/-- `"%s"` with a minimal width, right justified (`%6s`) -/
def padLeft (w : Nat) (s : Str) : Str := List.replicate (w - s.length) ' ' ++ s

/-- `"%-16s"`: left justified. -/
def padRight (w : Nat) (s : Str) : Str := s ++ List.replicate (w - s.length) ' '

/-- `"%d"` of an integer. -/
def dec (n : Int) : Str := if n < 0 then '-' :: Nat.toDigits 10 n.natAbs else Nat.toDigits 10 n.natAbs

theorem utf8_append (a b : Str) : utf8 (a ++ b) = utf8 a ++ utf8 b := by simp [utf8]

theorem utf8_length (s : Str) : (utf8 s).length = (s.map Char.utf8Size).sum := by
  induction s with
  | nil => rfl
  | cons c s ih =>
    have : utf8 (c :: s) = utf8 [c] ++ utf8 s := by rw [← utf8_append]; rfl
    rw [this, List.length_append, ih]
    simp [utf8]

theorem utf8Size_pos (c : Char) : 1 ≤ c.utf8Size := c.utf8Size_pos

theorem length_le_utf8 (s : Str) : s.length ≤ (utf8 s).length := by
  rw [utf8_length]
  induction s with
  | nil => simp
  | cons c s ih => simp only [List.length_cons, List.map_cons, List.sum_cons]; have := c.utf8Size_pos; omega

/-- ASCII text takes one byte per character. -/
theorem utf8_length_ascii (s : Str) (h : ∀ c ∈ s, c.utf8Size = 1) : (utf8 s).length = s.length := by
  rw [utf8_length]
  induction s with
  | nil => rfl
  | cons c s ih =>
    simp only [List.map_cons, List.sum_cons, List.length_cons]
    rw [ih (fun a ha => h a (by simp [ha])), h c (by simp)]; omega

theorem utf8_replicate (n : Nat) : (utf8 (List.replicate n ' ')).length = n := by
  rw [utf8_length_ascii, List.length_replicate]
  intro c hc
  rw [List.eq_of_mem_replicate hc]; decide

theorem digit_size (c : Char) (h : c.isDigit = true) : c.utf8Size = 1 := by
  rw [Char.isDigit, Bool.and_eq_true, decide_eq_true_eq, decide_eq_true_eq] at h
  have h2 := h.2
  unfold Char.utf8Size
  rw [if_pos]
  exact UInt32.le_trans h2 (by decide)

theorem dec_ascii (n : Int) : ∀ c ∈ dec n, c.utf8Size = 1 := by
  have d : ∀ c ∈ Nat.toDigits 10 n.natAbs, c.utf8Size = 1 := fun c hc =>
    digit_size c (Nat.isDigit_of_mem_toDigits (by decide) (by decide) hc)
  intro c hc
  unfold dec at hc
  split_ifs at hc
  · rcases List.mem_cons.1 hc with rfl | hc
    · decide
    · exact d c hc
  · exact d c hc

/-- A number of at most `k` digits. -/
theorem dec_length (n : Int) (k : Nat) (hk : 0 < k) (h0 : 0 ≤ n) (h : n < 10 ^ k) : (dec n).length ≤ k := by
  unfold dec
  rw [if_neg (by omega)]
  refine (Nat.length_toDigits_le_iff (by decide) hk).2 ?_
  zify
  rw [abs_of_nonneg h0]; exact h

/-- `byte.decode("utf8")` of `read_string_8`, `ReadHelper.py` 98-103: `none` if the bytes are not valid UTF-8. -/
def decodeUtf8 (b : Bytes) : Option Str :=
  (ByteArray.utf8Decode? ⟨(b.map (fun v => UInt8.ofNat v.toNat)).toArray⟩).map Array.toList

theorem decodeUtf8_utf8 (s : Str) : decodeUtf8 (utf8 s) = some s := by
  have e : (utf8 s).map (fun v => UInt8.ofNat v.toNat) = s.flatMap String.utf8EncodeChar := by
    unfold utf8
    rw [List.map_flatMap]
    congr 1
    funext c
    rw [List.map_map]
    refine (List.map_congr_left (fun b _ => ?_)).trans (List.map_id _)
    simp
  have e2 : (⟨((utf8 s).map (fun v => UInt8.ofNat v.toNat)).toArray⟩ : ByteArray) = s.utf8Encode := by
    rw [e]; unfold List.utf8Encode; ext1; simp
  unfold decodeUtf8
  rw [e2, List.utf8Decode?_utf8Encode]
  simp

/-- The characters removed by `str.strip()` (`str.isspace`). -/
def isSpace (c : Char) : Bool :=
  let n := c.toNat
  (9 ≤ n && n ≤ 13) || (0x1c ≤ n && n ≤ 0x20) || n == 0x85 || n == 0xa0 || n == 0x1680 || (0x2000 ≤ n && n ≤ 0x200a) ||
    n == 0x2028 || n == 0x2029 || n == 0x202f || n == 0x205f || n == 0x3000

/-- `str.strip()`. -/
def strip (s : Str) : Str := ((s.dropWhile isSpace).reverse.dropWhile isSpace).reverse

/-- Text that does not start or end with white space is what is left of it after padding. -/
theorem strip_pad (s : Str) (n : Nat) (h1 : ∀ c, s.head? = some c → isSpace c = false)
    (h2 : ∀ c, s.getLast? = some c → isSpace c = false) : strip (s ++ List.replicate n ' ') = s := by
  have hsp : isSpace ' ' = true := by decide
  have drop : ∀ (m : Nat) (t : Str), (List.replicate m ' ' ++ t).dropWhile isSpace = t.dropWhile isSpace := by
    intro m t
    induction m with
    | zero => rfl
    | succ m ih => rw [List.replicate_succ, List.cons_append, List.dropWhile_cons, if_pos hsp, ih]
  unfold strip
  rcases s with _ | ⟨c, s⟩
  · have := drop n []
    simp only [List.append_nil] at this
    rw [List.nil_append, this]; rfl
  · have hc := h1 c rfl
    rw [List.cons_append, List.dropWhile_cons, if_neg (by simp [hc]), ← List.cons_append, List.reverse_append,
      List.reverse_replicate, drop]
    rcases e : (c :: s).reverse with _ | ⟨d, t⟩
    · simp at e
    · have hd : isSpace d = false := by
        refine h2 d ?_
        rw [← List.reverse_reverse (c :: s), e]; simp
      rw [List.dropWhile_cons, if_neg (by simp [hd]), ← e, List.reverse_reverse]

/-- Blanks added at the end are removed by `strip`. -/
theorem strip_blanks (s : Str) (n : Nat) : strip (s ++ List.replicate n ' ') = strip s := by
  have hsp : isSpace ' ' = true := by decide
  have drop : ∀ (m : Nat) (t : Str), (List.replicate m ' ' ++ t).dropWhile isSpace = t.dropWhile isSpace := by
    intro m t
    induction m with
    | zero => rfl
    | succ m ih => rw [List.replicate_succ, List.cons_append, List.dropWhile_cons, if_pos hsp, ih]
  unfold strip
  rw [List.dropWhile_append]
  split_ifs with h
  · have := drop n []
    rw [List.append_nil] at this
    rw [this, List.isEmpty_iff.1 h]
    rfl
  · rw [List.reverse_append, List.reverse_replicate, drop]

end Emb
