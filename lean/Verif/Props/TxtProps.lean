import Verif.Txt
import Verif.Props.GcodeProps

/-!
# C83: TXT files
-/

namespace Emb
namespace Txt
open Gcode (fixed Numeric fixed_numeric float_fixed)

/-! ## Specification -/

/-- One line of a TXT file. -/
structure Row where
  x : ℚ
  y : ℚ
  color : Int
  name : Option Str
  flags : Int
deriving DecidableEq

/-- The text after `key:`. -/
def valueOf (key : String) (s : Str) : Except PyErr Str :=
  match splitOn ':' s with
  | [k, v] => if k = key.toList then .ok v else .error .valueError
  | _ => .error .valueError

/-- `x,y color:c flags:f` or `x,y color:c command:name flags:f`. -/
def rowOf (s : Str) : Except PyErr Row :=
  match splitOn ' ' s with
  | [p, c, f] => do
    let [x, y] := splitOn ',' p | .error .valueError
    let x ← Gcode.float x
    let y ← Gcode.float y
    let c ← valueOf "color" c >>= parseInt
    let f ← valueOf "flags" f >>= parseInt
    pure ⟨x, y, c, none, f⟩
  | [p, c, n, f] => do
    let [x, y] := splitOn ',' p | .error .valueError
    let x ← Gcode.float x
    let y ← Gcode.float y
    let c ← valueOf "color" c >>= parseInt
    let n ← valueOf "command" n
    let f ← valueOf "flags" f >>= parseInt
    pure ⟨x, y, c, some n, f⟩
  | _ => .error .valueError

/-- The lines of a file; each ends with a line feed. -/
def rows (s : Str) : Except PyErr (List Row) := ((splitOn '\n' s).dropLast).mapM rowOf

/-- To one decimal. -/
def tenth (q : ℚ) : ℚ := (pyRound (q * 10) : ℚ) / 10

/-- The names of the commands. -/
def names : List (Int × String) :=
  [(0, "STITCH"), (1, "JUMP"), (2, "TRIM"), (3, "STOP"), (4, "END"), (5, "COLOR_CHANGE"), (6, "SEQUIN_MODE"), (7, "SEQUIN_EJECT"),
   (9, "NEEDLE_SET"), (11, "SLOW"), (12, "FAST")]

/-- The name of a low-level command. -/
def nameOf (c : Int) : Option String := (names.find? (fun p => p.1 = c)).map (·.2)

/-- The flag bits of libembroidery's stitch list. -/
def flagOf (c : Int) : Option Int :=
  if c = 0 then some 0 else if c = 1 then some 1 else if c = 2 then some 2 else if c = 3 ∨ c = 5 ∨ c = 9 then some 4
  else if c = 6 ∨ c = 7 then some 8 else if c = 4 then some 16 else none

/-! ## Proofs -/

theorem fixed_no (k : Nat) (q : ℚ) (c : Char) (h : ¬ Numeric c) : c ∉ fixed k q := fun hc => h (fixed_numeric k q c hc)

theorem not_numeric (c : Char) (h : c.isDigit = false ∧ c ≠ '+' ∧ c ≠ '-' ∧ c ≠ '.') : ¬ Numeric c := by
  unfold Numeric
  obtain ⟨h1, h2, h3, h4⟩ := h
  simp [h1, h2, h3, h4]

theorem splitOn_fields3 (a b c : Str) (ha : ' ' ∉ a) (hb : ' ' ∉ b) (hc : ' ' ∉ c) : splitOn ' ' (a ++ ' ' :: (b ++ ' ' :: c)) = [a, b, c] := by
  rw [splitOn_append _ _ _ ha, splitOn_append _ _ _ hb, splitOn_plain _ _ hc]

theorem valueOf_eq (k : String) (v : Str) (hk : ':' ∉ k.toList) (hv : ':' ∉ v) : valueOf k (k.toList ++ ':' :: v) = .ok v := by
  unfold valueOf
  rw [splitOn_append _ _ _ hk, splitOn_plain _ _ hv]
  simp

theorem dec_noBlank (n : Int) : ' ' ∉ dec n := dec_ne (by decide) (by decide)
theorem dec_noColon (n : Int) : ':' ∉ dec n := dec_ne (by decide) (by decide)
theorem dec_noLine (n : Int) : '\n' ∉ dec n := dec_ne (by decide) (by decide)

theorem float_tenth (q : ℚ) : Gcode.float (fixed 1 q) = .ok (tenth q) := by
  rw [float_fixed 1 (by decide)]
  unfold tenth
  rw [pow_one]

/-- A line of the first kind. -/
def lineA (x y : ℚ) (color flags : Int) : Str :=
  fixed 1 x ++ ',' :: fixed 1 y ++ " color:".toList ++ dec color ++ " flags:".toList ++ dec flags

/-- A line of the second kind. -/
def lineB (x y : ℚ) (color : Int) (name : Str) (flags : Int) : Str :=
  fixed 1 x ++ ',' :: fixed 1 y ++ " color:".toList ++ dec color ++ " command:".toList ++ name ++ " flags:".toList ++ dec flags

theorem point_split (x y : ℚ) : splitOn ',' (fixed 1 x ++ ',' :: fixed 1 y) = [fixed 1 x, fixed 1 y] := by
  rw [splitOn_append _ _ _ (fixed_no _ _ _ (not_numeric _ (by decide))), splitOn_plain _ _ (fixed_no _ _ _ (not_numeric _ (by decide)))]

theorem point_noBlank (x y : ℚ) : ' ' ∉ fixed 1 x ++ ',' :: fixed 1 y := by
  simp only [List.mem_append, List.mem_cons, not_or]
  exact ⟨fixed_no _ _ _ (not_numeric _ (by decide)), by decide, fixed_no _ _ _ (not_numeric _ (by decide))⟩

theorem row_lineA (x y : ℚ) (c f : Int) : rowOf (lineA x y c f) = .ok ⟨tenth x, tenth y, c, none, f⟩ := by
  have e : lineA x y c f = (fixed 1 x ++ ',' :: fixed 1 y) ++ ' ' :: (("color".toList ++ ':' :: dec c) ++ ' ' :: ("flags".toList ++ ':' :: dec f)) := by
    unfold lineA
    have h1 : " color:".toList = ' ' :: "color".toList ++ [':'] := rfl
    have h2 : " flags:".toList = ' ' :: "flags".toList ++ [':'] := rfl
    rw [h1, h2]
    simp only [List.append_assoc, List.cons_append, List.nil_append]
  unfold rowOf
  rw [e, splitOn_fields3 _ _ _ (point_noBlank x y)]
  · simp only [point_split, float_tenth, valueOf_eq _ _ (show ':' ∉ "color".toList by decide) (dec_noColon c),
      valueOf_eq _ _ (show ':' ∉ "flags".toList by decide) (dec_noColon f)]
    show (parseInt (dec c) >>= fun c => parseInt (dec f) >>= fun f => pure _) = _
    rw [parseInt_dec, parseInt_dec]
    rfl
  · simp only [List.mem_append, List.mem_cons, not_or]
    exact ⟨by decide, by decide, dec_noBlank c⟩
  · simp only [List.mem_append, List.mem_cons, not_or]
    exact ⟨by decide, by decide, dec_noBlank f⟩

theorem row_lineB (x y : ℚ) (c f : Int) (n : Str) (hn : ' ' ∉ n ∧ ':' ∉ n) :
    rowOf (lineB x y c n f) = .ok ⟨tenth x, tenth y, c, some n, f⟩ := by
  have e : lineB x y c n f = (fixed 1 x ++ ',' :: fixed 1 y) ++ ' ' :: (("color".toList ++ ':' :: dec c) ++ ' ' ::
      (("command".toList ++ ':' :: n) ++ ' ' :: ("flags".toList ++ ':' :: dec f))) := by
    unfold lineB
    have h1 : " color:".toList = ' ' :: "color".toList ++ [':'] := rfl
    have h2 : " flags:".toList = ' ' :: "flags".toList ++ [':'] := rfl
    have h3 : " command:".toList = ' ' :: "command".toList ++ [':'] := rfl
    rw [h1, h2, h3]
    simp only [List.append_assoc, List.cons_append, List.nil_append]
  unfold rowOf
  rw [e, splitOn_append _ _ _ (point_noBlank x y), splitOn_fields3]
  · simp only [point_split, float_tenth, valueOf_eq _ _ (show ':' ∉ "color".toList by decide) (dec_noColon c),
      valueOf_eq _ _ (show ':' ∉ "flags".toList by decide) (dec_noColon f), valueOf_eq _ _ (show ':' ∉ "command".toList by decide) hn.2]
    show (parseInt (dec c) >>= fun c => (Except.ok n >>= fun n => parseInt (dec f) >>= fun f => pure _)) = _
    rw [parseInt_dec, parseInt_dec]
    rfl
  · simp only [List.mem_append, List.mem_cons, not_or]
    exact ⟨by decide, by decide, dec_noBlank c⟩
  · simp only [List.mem_append, List.mem_cons, not_or]
    exact ⟨by decide, by decide, hn.1⟩
  · simp only [List.mem_append, List.mem_cons, not_or]
    exact ⟨by decide, by decide, dec_noBlank f⟩

theorem lineA_noLine (x y : ℚ) (c f : Int) : '\n' ∉ lineA x y c f := by
  unfold lineA
  simp only [List.mem_append, List.mem_cons, not_or]
  exact ⟨⟨⟨⟨⟨fixed_no _ _ _ (not_numeric _ (by decide)), by decide, fixed_no _ _ _ (not_numeric _ (by decide))⟩, by decide⟩, dec_noLine c⟩,
    by decide⟩, dec_noLine f⟩

theorem lineB_noLine (x y : ℚ) (c f : Int) (n : Str) (hn : '\n' ∉ n) : '\n' ∉ lineB x y c n f := by
  unfold lineB
  simp only [List.mem_append, List.mem_cons, not_or]
  exact ⟨⟨⟨⟨⟨⟨⟨fixed_no _ _ _ (not_numeric _ (by decide)), by decide, fixed_no _ _ _ (not_numeric _ (by decide))⟩, by decide⟩, dec_noLine c⟩,
    by decide⟩, hn⟩, by decide⟩, dec_noLine f⟩

theorem rows_nil : rows [] = .ok [] := rfl

theorem rows_cons (a r : Str) (row : Row) (rs : List Row) (ha : '\n' ∉ a) (h : rowOf a = .ok row) (hr : rows r = .ok rs) :
    rows (a ++ '\n' :: r) = .ok (row :: rs) := by
  unfold rows at hr ⊢
  rw [splitOn_append _ _ _ ha, List.dropLast_cons_of_ne_nil (splitOn_ne_nil _ _), List.mapM_cons, h, Csv.bind_of rfl, hr]
  rfl

theorem lookup_mod (c : Int) : lookup modFlags c = match flagOf c with | some f => .ok f | none => .error .keyError := by
  have key : ∀ c ∈ [0, 1, 2, 3, 4, 5, 6, 7, 9], lookup modFlags c = match flagOf c with | some f => .ok f | none => .error .keyError := by
    decide +kernel
  by_cases h : c ∈ [(0 : Int), 1, 2, 3, 4, 5, 6, 7, 9]
  · exact key c h
  · have h1 : flagOf c = none := by
      simp only [List.mem_cons, List.not_mem_nil, or_false, not_or] at h
      simp [flagOf, h]
    have h2 : modFlags.find? (fun p => p.1 = c) = none := by
      rw [List.find?_eq_none]
      intro p hp hc
      have : ∀ p ∈ modFlags, p.1 ∈ [(0 : Int), 1, 2, 3, 4, 5, 6, 7, 9] := by decide
      exact h (of_decide_eq_true hc ▸ this p hp)
    unfold lookup
    rw [h1, h2]

theorem names_ok : ∀ p ∈ names, lookup nameDict p.1 = .ok p.2 ∧ ' ' ∉ p.2.toList ∧ ':' ∉ p.2.toList ∧ '\n' ∉ p.2.toList := by decide +kernel

theorem lookup_name (c : Int) (s : String) (h : nameOf c = some s) : lookup nameDict c = .ok s ∧ ' ' ∉ s.toList ∧ ':' ∉ s.toList ∧ '\n' ∉ s.toList := by
  unfold nameOf at h
  rw [Option.map_eq_some_iff] at h
  obtain ⟨p, hp, rfl⟩ := h
  have h1 : p.1 = c := by simpa using List.find?_some hp
  subst h1
  exact names_ok p (List.mem_of_find?_eq_some hp)

theorem mimic_rows (l : List Stitch) (h : ∀ a ∈ l, (flagOf a.low).isSome) (c : Int) : ∃ s rs, mimic c l = .ok s ∧ rows s = .ok rs ∧
    rs.length = l.length ∧ ∀ (i : Nat) (a : Stitch), l[i]? = some a →
      rs[i]? = some (Row.mk (tenth (a.x / 10)) (tenth (a.y / 10)) (c + ((l.take (i + 1)).countP (fun b => b.low = 5) : Nat)) none ((flagOf a.low).getD 0)) := by
  induction l generalizing c with
  | nil => exact ⟨[], [], rfl, rfl, rfl, by intro i a hi; simp at hi⟩
  | cons st l ih =>
    obtain ⟨s, rs, h1, h2, h3, h4⟩ := ih (fun x hx => h x (by simp [hx])) (if st.low = 5 then c + 1 else c)
    obtain ⟨f, hf⟩ := Option.isSome_iff_exists.1 (h st (by simp))
    have e : mimic c (st :: l) = .ok (lineA (st.x / 10) (st.y / 10) (if st.low = 5 then c + 1 else c) f ++ '\n' :: s) := by
      rw [mimic]
      show (lookup modFlags st.low >>= fun f => mimic (if st.low = 5 then c + 1 else c) l >>= fun r => pure _) = _
      rw [lookup_mod, hf, Csv.bind_of rfl, Csv.bind_of h1]
      unfold lineA
      simp only [List.append_assoc, List.cons_append]
      rfl
    refine ⟨_, _, e, rows_cons _ _ _ rs (lineA_noLine _ _ _ _) (row_lineA _ _ _ _) h2, by simp [h3], ?_⟩
    intro i a hi
    cases i with
    | zero =>
      simp only [List.getElem?_cons_zero, Option.some.injEq] at hi
      subst hi
      by_cases h5 : st.low = 5
      · rw [h5] at hf
        simp [h5, hf]
      · simp [h5, hf]
    | succ i =>
      rw [List.getElem?_cons_succ] at hi ⊢
      rw [h4 i a hi, List.take_succ_cons]
      by_cases h5 : st.low = 5
      · rw [if_pos h5, List.countP_cons_of_pos (by simpa using h5)]
        push_cast
        rw [add_assoc, add_comm (1 : Int)]
      · rw [if_neg h5, List.countP_cons_of_neg (by simpa using h5)]

/-- C83: in the mimicking form there is one line for each command, with the position in mm to one decimal, the number of colour changes
so far and the flag of the command. -/
theorem C83_mimic (threads : List Thread) (filler : Nat → Thread) (l : List Stitch) (h : ∀ a ∈ l, (flagOf a.low).isSome) :
    ∃ s rs, write true threads filler l = .ok s ∧ rows s = .ok rs ∧ rs.length = l.length ∧ ∀ (i : Nat) (a : Stitch), l[i]? = some a →
      rs[i]? = some (Row.mk (tenth (a.x / 10)) (tenth (a.y / 10)) ((l.take (i + 1)).countP (fun b => b.low = 5) : Nat) none ((flagOf a.low).getD 0)) := by
  have := mimic_rows l h 0
  simpa [write] using this

/-- C83: any other command makes writing fail. -/
theorem C83_mimic_fails (threads : List Thread) (filler : Nat → Thread) (l : List Stitch) (h : ∃ a ∈ l, flagOf a.low = none) :
    write true threads filler l = .error .keyError := by
  show mimic 0 l = _
  generalize (0 : Int) = c
  induction l generalizing c with
  | nil => obtain ⟨a, ha, -⟩ := h; cases ha
  | cons st l ih =>
    rw [mimic]
    show (lookup modFlags st.low >>= fun f => mimic (if st.low = 5 then c + 1 else c) l >>= fun r => pure _) = _
    rw [lookup_mod]
    cases hf : flagOf st.low with
    | none => rfl
    | some f =>
      obtain ⟨a, ha, hn⟩ := h
      rcases List.mem_cons.1 ha with rfl | ha
      · rw [hf] at hn; cases hn
      · rw [Csv.bind_of rfl, ih ⟨a, ha, hn⟩]
        rfl

theorem normal_rows (threads : List Thread) (filler : Nat → Thread) (t : Thread) (ht : threads[0]? = some t) (l : List Stitch)
    (h : ∀ a ∈ l, (nameOf a.low).isSome) (k : Nat) : ∃ s, normal threads filler k t.color l = .ok s ∧
      rows s = .ok (l.map (fun a => ⟨tenth a.x, tenth a.y, t.color, (nameOf a.low).map (·.toList), a.low⟩)) := by
  induction l generalizing k with
  | nil => exact ⟨[], rfl, rfl⟩
  | cons st l ih =>
    obtain ⟨s, h1, h2⟩ := ih (fun x hx => h x (by simp [hx])) (k + 1)
    obtain ⟨f, hf⟩ := Option.isSome_iff_exists.1 (h st (by simp))
    obtain ⟨hl, n1, n2, n3⟩ := lookup_name _ _ hf
    have hc : (if st.low = 5 then firstColor threads filler k else t.color) = t.color := by
      unfold firstColor
      rw [ht]
      split_ifs <;> rfl
    have e : normal threads filler k t.color (st :: l) = .ok (lineB st.x st.y t.color f.toList st.low ++ '\n' :: s) := by
      rw [normal]
      show (lookup nameDict st.low >>= fun name => normal threads filler (k + 1) (if st.low = 5 then firstColor threads filler k else t.color) l >>=
        fun r => pure (fixed 1 st.x ++ ',' :: fixed 1 st.y ++ " color:".toList ++ dec (if st.low = 5 then firstColor threads filler k else t.color) ++
          " command:".toList ++ name.toList ++ " flags:".toList ++ dec st.low ++ '\n' :: r)) = _
      rw [hc, hl, Csv.bind_of rfl, Csv.bind_of h1]
      unfold lineB
      simp only [List.append_assoc, List.cons_append]
      rfl
    refine ⟨_, e, ?_⟩
    rw [List.map_cons, hf]
    exact rows_cons _ _ _ _ (lineB_noLine _ _ _ _ _ n3) (row_lineB _ _ _ _ _ ⟨n1, n2⟩) h2

/-- C83: in the normal form there is one line for each command with its position to one decimal, its name and its number. The colour is
that of the first thread on every line. -/
theorem C83_normal_partial (threads : List Thread) (filler : Nat → Thread) (t : Thread) (ht : threads[0]? = some t) (l : List Stitch)
    (h : ∀ a ∈ l, (nameOf a.low).isSome) : ∃ s, write false threads filler l = .ok s ∧
      rows s = .ok (l.map (fun a => ⟨tenth a.x, tenth a.y, t.color, (nameOf a.low).map (·.toList), a.low⟩)) := by
  obtain ⟨s, h1, h2⟩ := normal_rows threads filler t ht l h 1
  refine ⟨s, ?_, h2⟩
  show normal threads filler 1 (firstColor threads filler 0) l = _
  unfold firstColor
  rw [ht]
  exact h1

/-- C83: whole positions are kept exactly in both forms. -/
theorem C83_whole (n : Int) : tenth (n : ℚ) = n ∧ tenth ((n : ℚ) / 10) = n / 10 := by
  unfold tenth
  constructor
  · have : (n : ℚ) * 10 = ((n * 10 : Int) : ℚ) := by push_cast; ring
    rw [this, pyRound_intCast]
    push_cast
    ring
  · rw [div_mul_cancel₀ _ (by norm_num), pyRound_intCast]

/-! ## Cases -/

example : (write true [] (fun _ => { color := 0 }) [⟨10, -25, 0⟩, ⟨10, -25, 5⟩, ⟨11, 7, 0⟩, ⟨11, 7, 4⟩]).map String.ofList =
    .ok "1.0,-2.5 color:0 flags:0\n1.0,-2.5 color:1 flags:4\n1.1,0.7 color:1 flags:0\n1.1,0.7 color:1 flags:16\n" := by decide +kernel

example : (write false [{ color := 255 }] (fun _ => { color := 0 }) [⟨10, -25 / 2, 0⟩, ⟨11, 7, 2⟩]).map String.ofList =
    .ok "10.0,-12.5 color:255 command:STITCH flags:0\n11.0,7.0 color:255 command:TRIM flags:2\n" := by decide +kernel

/-- C83 is false of the colour of the normal form: after a colour change the line still shows the first colour. -/
theorem C83_colour_fails : (write false [{ color := 255 }, { color := 128 }] (fun _ => { color := 0 }) [⟨0, 0, 5⟩, ⟨0, 0, 0⟩] >>= rows) =
    .ok [⟨0, 0, 255, some "COLOR_CHANGE".toList, 5⟩, ⟨0, 0, 255, some "STITCH".toList, 0⟩] := by decide +kernel

/-- C83: a speed command cannot be written in the mimicking form, which has no encoder setting against it. -/
theorem C83_speed_fails : write true [] (fun _ => { color := 0 }) [⟨0, 0, 11⟩] = .error .keyError := by decide +kernel

end Txt
end Emb
