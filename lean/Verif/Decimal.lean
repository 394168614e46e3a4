import Verif.Text

/-!
# Reading numbers, splitting text
-/

namespace Emb

/-- `text.split(c)` for a one-character separator: the pieces between the separators, at least one. -/
def splitOn (c : Char) : Str → List Str
  | [] => [[]]
  | a :: s =>
    if a = c then [] :: splitOn c s
    else match splitOn c s with
      | h :: t => (a :: h) :: t
      | [] => [[a]]

/-- `stream.readline()` of a text stream: up to and including the next line end. -/
def readline : Str → Str × Str
  | [] => ([], [])
  | c :: s => if c = '\n' then (['\n'], s) else ((c :: (readline s).1), (readline s).2)

/-- Universal newlines of a file opened with `open(f, "r")`: `\r\n` and `\r` become `\n`. -/
def textMode : Str → Str
  | [] => []
  | '\r' :: '\n' :: s => '\n' :: textMode s
  | '\r' :: s => '\n' :: textMode s
  | c :: s => c :: textMode s

/-- A non-empty run of the digits 0..9 as a number. -/
def parseNat (s : Str) : Except PyErr Nat :=
  if s ≠ [] ∧ s.all Char.isDigit = true then .ok (Nat.ofDigitChars 10 s 0) else .error .valueError

/-- `int(text)`: blanks around the number are ignored and one sign is allowed; anything else is `ValueError`
(simplification: Python also accepts `_` between digits and the digits of other scripts). -/
def parseInt (s : Str) : Except PyErr Int :=
  match strip s with
  | '-' :: r => (parseNat r).map (fun n => -(n : Int))
  | '+' :: r => (parseNat r).map (fun n => (n : Int))
  | r => (parseNat r).map (fun n => (n : Int))

theorem splitOn_ne_nil (c : Char) (s : Str) : splitOn c s ≠ [] := by
  cases s with
  | nil => simp [splitOn]
  | cons a s => simp only [splitOn]; split_ifs <;> [simp; (split <;> simp)]

/-- Text without the separator is one piece. -/
theorem splitOn_plain (c : Char) (s : Str) (h : c ∉ s) : splitOn c s = [s] := by
  induction s with
  | nil => rfl
  | cons a s ih =>
    simp only [List.mem_cons, not_or] at h
    simp only [splitOn, if_neg (Ne.symm h.1), ih h.2]

/-- The first piece ends at the first separator. -/
theorem splitOn_append (c : Char) (s t : Str) (h : c ∉ s) : splitOn c (s ++ c :: t) = s :: splitOn c t := by
  induction s with
  | nil => simp [splitOn]
  | cons a s ih =>
    simp only [List.mem_cons, not_or] at h
    simp only [List.cons_append, splitOn, if_neg (Ne.symm h.1), ih h.2]

theorem dropSpace_replicate (n : Nat) (t : Str) :
    (List.replicate n ' ' ++ t).dropWhile isSpace = t.dropWhile isSpace := by
  induction n with
  | zero => rfl
  | succ m ih => rw [List.replicate_succ, List.cons_append, List.dropWhile_cons, if_pos (by decide), ih]

/-- Padding on the left is removed too. -/
theorem strip_padLeft (w : Nat) (s : Str) : strip (padLeft w s) = strip s := by
  unfold strip padLeft
  rw [dropSpace_replicate]

/-- Text without blanks at the ends is kept. -/
theorem strip_self (s : Str) (h : ∀ c ∈ s, isSpace c = false) : strip s = s := by
  have := strip_pad s 0 (fun c hc => h c (List.mem_of_mem_head? hc)) (fun c hc => h c (List.mem_of_getLast? hc))
  simpa using this

/-- A line end behind it is removed too. -/
theorem strip_newline (s : Str) (h : ∀ c ∈ s, isSpace c = false) (hne : s ≠ []) : strip (s ++ ['\n']) = s := by
  obtain ⟨a, t, rfl⟩ := List.exists_cons_of_ne_nil hne
  have ha := h a (by simp)
  unfold strip
  rw [List.cons_append, List.dropWhile_cons, if_neg (by simp [ha]), ← List.cons_append, List.reverse_append,
    List.reverse_singleton, List.singleton_append, List.dropWhile_cons, if_pos (by decide)]
  rcases e : (a :: t).reverse with _ | ⟨d, u⟩
  · simp at e
  · have hd := h d (by rw [← List.mem_reverse, e]; simp)
    rw [List.dropWhile_cons, if_neg (by simp [hd]), ← e, List.reverse_reverse]

/-- Text without carriage returns is not changed. -/
theorem textMode_plain (s : Str) (h : '\r' ∉ s) : textMode s = s := by
  induction s with
  | nil => rfl
  | cons c s ih =>
    simp only [List.mem_cons, not_or] at h
    unfold textMode
    split
    · rename_i e; cases e
    · rename_i e; injection e with e; exact absurd e.symm h.1
    · rename_i e; injection e with e; exact absurd e.symm h.1
    · rename_i e; injection e with e1 e2; subst e1 e2; rw [ih h.2]

/-- One line with a DOS line end. -/
theorem textMode_line (s t : Str) (h : '\r' ∉ s) : textMode (s ++ '\r' :: '\n' :: t) = s ++ '\n' :: textMode t := by
  induction s with
  | nil => rfl
  | cons c s ih =>
    simp only [List.mem_cons, not_or] at h
    rw [List.cons_append, textMode]
    · rw [ih h.2]; rfl
    · intro u e1 _; exact h.1 e1.symm
    · intro e; exact h.1 e.symm

theorem readline_append (s t : Str) (h : '\n' ∉ s) : readline (s ++ '\n' :: t) = (s ++ ['\n'], t) := by
  induction s with
  | nil => simp [readline]
  | cons c s ih =>
    simp only [List.mem_cons, not_or] at h
    rw [List.cons_append, readline, if_neg (Ne.symm h.1), ih h.2]; rfl

theorem digit_not_space {c : Char} (h : c.isDigit = true) : isSpace c = false := by
  rw [Char.isDigit, Bool.and_eq_true, decide_eq_true_eq, decide_eq_true_eq] at h
  have h1 : 48 ≤ c.toNat := by have := UInt32.le_iff_toNat_le.1 h.1; exact this
  have h2 : c.toNat ≤ 57 := by have := UInt32.le_iff_toNat_le.1 h.2; exact this
  unfold isSpace
  simp
  omega

theorem toDigits_digit (n : Nat) : ∀ c ∈ Nat.toDigits 10 n, c.isDigit = true := fun c hc =>
  Nat.isDigit_of_mem_toDigits (by decide) (by decide) hc

theorem parseNat_toDigits (n : Nat) : parseNat (Nat.toDigits 10 n) = .ok n := by
  unfold parseNat
  rw [if_pos ⟨Nat.toDigits_ne_nil, List.all_eq_true.2 (toDigits_digit n)⟩, Nat.ofDigitChars_ten_toDigits]

theorem dec_not_space (n : Int) : ∀ c ∈ dec n, isSpace c = false := by
  intro c hc
  unfold dec at hc
  split_ifs at hc
  · rcases List.mem_cons.1 hc with rfl | hc
    · decide
    · exact digit_not_space (toDigits_digit _ c hc)
  · exact digit_not_space (toDigits_digit _ c hc)

theorem dec_ne {n : Int} {d : Char} (hd : d.isDigit = false) (hm : d ≠ '-') : d ∉ dec n := by
  intro hc
  unfold dec at hc
  split_ifs at hc
  · rcases List.mem_cons.1 hc with rfl | hc
    · exact hm rfl
    · rw [toDigits_digit _ d hc] at hd; cases hd
  · rw [toDigits_digit _ d hc] at hd; cases hd

theorem dec_ne_nil (n : Int) : dec n ≠ [] := by
  unfold dec
  split_ifs
  · simp
  · exact Nat.toDigits_ne_nil

theorem parseInt_strip (s : Str) (n : Int) (h : strip s = dec n) : parseInt s = .ok n := by
  unfold parseInt
  rw [h]
  unfold dec
  by_cases h : n < 0
  · rw [if_pos h]
    simp only [parseNat_toDigits, Except.map]
    exact congrArg Except.ok (by omega)
  · rw [if_neg h]
    have d := toDigits_digit n.natAbs
    rcases e : Nat.toDigits 10 n.natAbs with _ | ⟨a, s⟩
    · exact absurd e Nat.toDigits_ne_nil
    · have ha : a.isDigit = true := d a (by rw [e]; simp)
      have h1 : a ≠ '-' := by rintro rfl; revert ha; decide
      have h2 : a ≠ '+' := by rintro rfl; revert ha; decide
      have hp := parseNat_toDigits n.natAbs
      rw [e] at hp
      split
      · rename_i h3; injection h3 with h3; exact absurd h3 h1
      · rename_i h3; injection h3 with h3; exact absurd h3 h2
      · rw [hp]; simp only [Except.map]; exact congrArg Except.ok (by omega)

/-- Reading a printed number, also with blanks in front, gives the number. -/
theorem parseInt_padLeft (w : Nat) (n : Int) : parseInt (padLeft w (dec n)) = .ok n :=
  parseInt_strip _ _ (by rw [strip_padLeft, strip_self _ (dec_not_space n)])

theorem parseInt_newline (n : Int) : parseInt (dec n ++ ['\n']) = .ok n :=
  parseInt_strip _ _ (strip_newline _ (dec_not_space n) (dec_ne_nil n))

theorem parseInt_dec (n : Int) : parseInt (dec n) = .ok n := by
  have := parseInt_padLeft 0 n
  simpa [padLeft] using this

end Emb
