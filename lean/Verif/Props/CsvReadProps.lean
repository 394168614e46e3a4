import Verif.Props.CsvProps
import Verif.Props.JsonProps

/-!
# Property C120: CSV tables from elsewhere
-/

namespace Emb
namespace Csv
namespace Table

/-! ## How a table is written down -/

/-- Every quote twice. -/
def doubled (v : Str) : Str := v.flatMap (fun c => if c = '"' then ['"', '"'] else [c])

/-- A value and the ways to write it: as it is, if it has no comma and no end of line and does not begin with a quote, or
between quotes, with the quotes in it doubled; commas and ends of lines may then be part of it. -/
inductive Field : Str → Str → Prop where
  | bare (v : Str) (h1 : ',' ∉ v) (h2 : '\n' ∉ v) (h3 : '\r' ∉ v) (h4 : v.head? ≠ some '"') : Field v v
  | quoted (v : Str) (h : '\r' ∉ v) : Field v ('"' :: (doubled v ++ ['"']))

/-- The values of a row and its text: the texts of the values with commas between them; an empty line is an empty row. -/
inductive Row : List Str → Str → Prop where
  | blank : Row [] []
  | one {v t : Str} : Field v t → t ≠ [] → Row [v] t
  | more {v t : Str} {vs : List Str} {ts : List Str} : Field v t → vs ≠ [] → List.Forall₂ Field vs ts →
      Row (v :: vs) (t ++ ts.flatMap (fun u => ',' :: u))

/-- The ends of lines: `\n`, `\r\n` and `\r`. -/
inductive Eol : Str → Prop where
  | unix : Eol ['\n']
  | dos : Eol ['\r', '\n']
  | mac : Eol ['\r']

/-- A table and its text: every line has the same end, which the last line may lack. -/
inductive Written (eol : Str) : List (List Str) → Str → Prop where
  | nil : Written eol [] []
  | last {r : List Str} {t : Str} : Row r t → r ≠ [] → Written eol [r] t
  | cons {r : List Str} {t : Str} {rs : List (List Str)} {s : Str} : Row r t → Written eol rs s →
      Written eol (r :: rs) (t ++ (eol ++ s))

/-! ## What a row says -/

/-- The three numbers a command can carry. -/
inductive Kind where
  | thread | needle | order
deriving DecidableEq, Repr

/-- The letter of the number. -/
def Kind.letter : Kind → Char
  | .thread => 't'
  | .needle => 'n'
  | .order => 'o'

/-- The bit the number begins at. -/
def Kind.shift : Kind → Nat
  | .thread => 8
  | .needle => 16
  | .order => 24

/-- The text of a command and the command word: its name, then the numbers it carries, each at most once and in any
order. -/
inductive Command : Str → Int → Prop where
  | mk (name : String) (c : Int) (more : List (Kind × Nat)) : (name, c) ∈ commandDict → (0 ≤ c ∨ more = []) →
      (more.map (·.1)).Nodup → (∀ p ∈ more, p.2 < 255) →
      Command (name.toList ++ more.flatMap (fun p => ' ' :: p.1.letter :: dec p.2))
        (c + (more.map (fun p => ((p.2 : Int) + 1) * 2 ^ p.1.shift)).sum)

/-- The hexadecimal digits. -/
def digits : List (Char × Int) :=
  [('0', 0), ('1', 1), ('2', 2), ('3', 3), ('4', 4), ('5', 5), ('6', 6), ('7', 7), ('8', 8), ('9', 9), ('a', 10), ('b', 11),
   ('c', 12), ('d', 13), ('e', 14), ('f', 15), ('A', 10), ('B', 11), ('C', 12), ('D', 13), ('E', 14), ('F', 15)]

/-- The text of a colour and the colour: `#rrggbb`, or one of the names of colours in any spelling of small and large
letters. -/
inductive Colour : Str → Int → Prop where
  | hex {a b c d e f : Char} {a' b' c' d' e' f' : Int} : (a, a') ∈ digits → (b, b') ∈ digits → (c, c') ∈ digits →
      (d, d') ∈ digits → (e, e') ∈ digits → (f, f') ∈ digits →
      Colour ['#', a, b, c, d, e, f] (((((a' * 16 + b') * 16 + c') * 16 + d') * 16 + e') * 16 + f')
  | name {s : Str} {name : String} {r g b : Int} : (name, r, g, b) ∈ colorNames → s.map Char.toLower = name.toList →
      Colour s (r * 65536 + g * 256 + b)

/-- What a row adds to the pattern. The first value has a mark: a star for a stitch, a number sign for a remark, an at
sign for metadata, a dollar sign for a thread; the first of these that occurs counts. -/
inductive Says (n : Num) : List Str → Doc → Prop where
  | blank : Says n [] {}
  | stitch {mark index name tx ty : Str} {c : Int} {x y : ℚ} (more : List Str) : '*' ∈ mark → Command name c →
      n.float tx = .ok x → n.float ty = .ok y →
      Says n (mark :: index :: name :: tx :: ty :: more) { stitches := [⟨x, y, c⟩] }
  | command {mark index name : Str} {c : Int} : '*' ∈ mark → Command name c →
      Says n [mark, index, name] { stitches := [⟨0, 0, c⟩] }
  | remark {mark : Str} (more : List Str) : '*' ∉ mark → '#' ∈ mark → Says n (mark :: more) {}
  | metadata {mark : Str} (k v : Str) : '*' ∉ mark → '#' ∉ mark → '@' ∈ mark → Says n [mark, k, v] { extras := [(k, v)] }
  | nometa {mark : Str} (more : List Str) : '*' ∉ mark → '#' ∉ mark → '@' ∈ mark → more.length ≠ 2 → Says n (mark :: more) {}
  | rgb {mark index : Str} {r g b : Nat} (desc cat : Str) : '*' ∉ mark → '#' ∉ mark → '@' ∉ mark → '$' ∈ mark →
      r < 256 → g < 256 → b < 256 → Says n [mark, index, dec r, dec g, dec b, desc, cat]
        { threads := [{ color := r * 65536 + g * 256 + b, description := some (String.ofList desc),
                        catalog := some (String.ofList cat) }] }
  | colour {mark index col : Str} {c : Int} (more : List Str) : '*' ∉ mark → '#' ∉ mark → '@' ∉ mark → '$' ∈ mark →
      Colour col c → (more.length ≠ 4 ∨ 3 < col.length) → Says n (mark :: index :: col :: more)
        { threads := [{ color := c, description := more[0]?.map String.ofList, brand := more[1]?.map String.ofList,
                        catalog := more[2]?.map String.ofList }] }
  | nothing {mark : Str} (more : List Str) : '*' ∉ mark → '#' ∉ mark → '@' ∉ mark → '$' ∉ mark → Says n (mark :: more) {}

/-! ## The text is taken apart into the table -/

theorem textMode_cr (s t : Str) (h : '\r' ∉ s) (ht : t.head? ≠ some '\n') :
    textMode (s ++ '\r' :: t) = s ++ '\n' :: textMode t := by
  induction s with
  | nil =>
    rcases t with _ | ⟨c, t⟩
    · rfl
    · have hc : c ≠ '\n' := by simpa using ht
      show textMode ('\r' :: c :: t) = _
      conv_lhs => unfold textMode
      split
      · rename_i e; cases e
      · rename_i e; injection e with _ e; injection e with e _; exact absurd e hc
      · rename_i e; injection e with _ e; rw [e]; rfl
      · rename_i h1 h2 e; injection e with e1 e2; subst e1; exact (by first | exact h2 rfl | exact h1 rfl | simp_all)
  | cons c s ih =>
    simp only [List.mem_cons, not_or] at h
    show textMode (c :: (s ++ '\r' :: t)) = _
    conv_lhs => unfold textMode
    split
    · rename_i e; cases e
    · rename_i e; injection e with e _; exact absurd e.symm h.1
    · rename_i e; injection e with e _; exact absurd e.symm h.1
    · rename_i e; injection e with e1 e2; subst e1; subst e2; rw [ih h.2]; rfl

theorem textMode_nl (s t : Str) (h : '\r' ∉ s) : textMode (s ++ '\n' :: t) = s ++ '\n' :: textMode t := by
  induction s with
  | nil => rfl
  | cons c s ih =>
    simp only [List.mem_cons, not_or] at h
    show textMode (c :: (s ++ '\n' :: t)) = _
    conv_lhs => unfold textMode
    split
    · rename_i e; cases e
    · rename_i e; injection e with e _; exact absurd e.symm h.1
    · rename_i e; injection e with e _; exact absurd e.symm h.1
    · rename_i e; injection e with e1 e2; subst e1; subst e2; rw [ih h.2]; rfl

theorem doubled_cr {v : Str} (h : '\r' ∉ v) : '\r' ∉ doubled v := by
  unfold doubled
  simp only [List.mem_flatMap, not_exists, not_and]
  intro c hc
  split_ifs
  · decide
  · simp only [List.mem_singleton]; intro e; exact h (e ▸ hc)

theorem Field.cr {v t : Str} (h : Field v t) : '\r' ∉ t := by
  cases h with
  | bare h1 h2 h3 h4 => exact h3
  | quoted h => simpa using doubled_cr h

theorem Row.cr {r : List Str} {t : Str} (h : Row r t) : '\r' ∉ t := by
  cases h with
  | blank => simp
  | one h _ => exact h.cr
  | more h _ hs =>
    simp only [List.mem_append, List.mem_flatMap, not_or, not_exists, not_and]
    refine ⟨h.cr, ?_⟩
    intro u hu
    obtain ⟨w, hw⟩ : ∃ w, Field w u := by
      clear * - hs hu
      induction hs with
      | nil => cases hu
      | cons a _ ih =>
        rcases List.mem_cons.1 hu with e | e
        · exact ⟨_, e ▸ a⟩
        · exact ih e
    simpa using hw.cr

theorem Row.nl {r : List Str} {t : Str} (h : Row r t) : t.head? ≠ some '\n' := by
  have f : ∀ {v t : Str}, Field v t → t.head? ≠ some '\n' := by
    intro v t h
    cases h with
    | bare h1 h2 h3 h4 =>
      rcases v with _ | ⟨c, v⟩
      · simp
      · simp only [List.mem_cons, not_or] at h2; simpa using fun e => h2.1 e.symm
    | quoted h => simp
  cases h with
  | blank => simp
  | one h _ => exact f h
  | @more v t vs ts h hne hs =>
    rcases t with _ | ⟨c, t⟩
    · cases hs with
      | nil => exact absurd rfl hne
      | cons _ _ => simp
    · have := f h
      simpa using this

/-- The text with the ends of its lines made `\n`. -/
theorem Written.text {eol : Str} (he : Eol eol) {rs : List (List Str)} {s : Str} (h : Written eol rs s) :
    Written ['\n'] rs (textMode s) := by
  induction h with
  | nil => exact .nil
  | last hr hne => rw [textMode_plain _ hr.cr]; exact .last hr hne
  | @cons r t rs s hr hw ih =>
    cases he with
    | unix => rw [List.singleton_append, textMode_nl _ _ hr.cr]; exact .cons hr ih
    | dos =>
      rw [show t ++ (['\r', '\n'] ++ s) = t ++ '\r' :: '\n' :: s from rfl, textMode_line _ _ hr.cr]; exact .cons hr ih
    | mac =>
      have : s.head? ≠ some '\n' := by
        cases hw with
        | nil => simp
        | last hr _ => exact hr.nl
        | @cons r t rs s hr hw =>
          rcases t with _ | ⟨c, t⟩
          · simp
          · exact hr.nl
      rw [List.singleton_append, textMode_cr _ _ hr.cr this]; exact .cons hr ih

theorem rows_doubled (v fld : Str) (row : List Str) (s : Str) :
    rows .quoted fld row (doubled v ++ '"' :: s) = rows .quoteInQuoted (fld ++ v) row s := by
  induction v generalizing fld with
  | nil => simp [doubled, rows]
  | cons c v ih =>
    have e : doubled (c :: v) = (if c = '"' then ['"', '"'] else [c]) ++ doubled v := rfl
    rw [e]
    split_ifs with h
    · subst h
      show rows .quoted fld row ('"' :: '"' :: (doubled v ++ '"' :: s)) = _
      rw [rows, if_pos rfl, rows, if_pos rfl, ih, List.append_assoc]; rfl
    · show rows .quoted fld row (c :: (doubled v ++ '"' :: s)) = _
      rw [rows, if_neg h, ih, List.append_assoc]; rfl

/-- What follows a value: the end of the text, a comma or the end of the line. -/
def Follows (row : List Str) : Str → List (List Str) → Prop
  | [], out => out = [row]
  | c :: s, out => (c = ',' ∧ out = rows .startField [] row s) ∨ (c = '\n' ∧ out = row :: rows .startRecord [] [] s)

theorem follows_unquoted {fld : Str} {row : List Str} {s : Str} {out : List (List Str)} (h : Follows (row ++ [fld]) s out) :
    rows .inField fld row s = out ∧ rows .quoteInQuoted fld row s = out ∧ (fld = [] → rows .startField fld row s = out) := by
  rcases s with _ | ⟨c, s⟩
  · subst h; exact ⟨rfl, rfl, fun _ => rfl⟩
  · rcases h with ⟨e, h⟩ | ⟨e, h⟩ <;> subst e <;> subst h <;> exact ⟨rfl, rfl, fun _ => rfl⟩

theorem rows_inField (v fld : Str) (row : List Str) (s : Str) (out : List (List Str)) (h1 : ',' ∉ v) (h2 : '\n' ∉ v)
    (h : Follows (row ++ [fld ++ v]) s out) : rows .inField fld row (v ++ s) = out := by
  induction v generalizing fld with
  | nil => rw [List.append_nil] at h; exact (follows_unquoted h).1
  | cons c v ih =>
    simp only [List.mem_cons, not_or] at h1 h2
    rw [List.cons_append, rows, if_neg (Ne.symm h2.1), if_neg (Ne.symm h1.1)]
    exact ih _ h1.2 h2.2 (by rw [List.append_assoc]; exact h)

theorem rows_field {v t : Str} (hf : Field v t) (row : List Str) (s : Str) (out : List (List Str))
    (h : Follows (row ++ [v]) s out) : rows .startField [] row (t ++ s) = out := by
  cases hf with
  | bare h1 h2 h3 h4 =>
    rcases v with _ | ⟨c, v⟩
    · exact (follows_unquoted h).2.2 rfl
    · simp only [List.mem_cons, not_or] at h1 h2
      have h4' : c ≠ '"' := by simpa using h4
      rw [List.cons_append, rows, if_neg (Ne.symm h2.1), if_neg h4', if_neg (Ne.symm h1.1)]
      exact rows_inField _ _ _ _ _ h1.2 h2.2 h
  | quoted hv =>
    rw [List.cons_append, rows, if_neg (by decide), if_pos rfl, List.append_assoc]
    show rows .quoted [] row (doubled v ++ '"' :: s) = out
    rw [rows_doubled, List.nil_append]
    exact (follows_unquoted h).2.1

theorem rows_fields {vs ts : List Str} (hf : List.Forall₂ Field vs ts) (hne : vs ≠ []) (row : List Str) (s : Str)
    (out : List (List Str)) (h : Follows (row ++ vs) s out) :
    Follows row (ts.flatMap (fun u => ',' :: u) ++ s) out := by
  induction hf generalizing row with
  | nil => exact absurd rfl hne
  | @cons v t vs ts hv hs ih =>
    rw [List.flatMap_cons, List.cons_append, List.cons_append]
    refine Or.inl ⟨rfl, ?_⟩
    rw [List.append_assoc]
    symm
    apply rows_field hv
    by_cases e : vs = []
    · subst e; cases hs; exact h
    · exact ih e _ (by rw [List.append_assoc]; exact h)

theorem rows_start {s : Str} (h : s ≠ []) (h' : s.head? ≠ some '\n') :
    rows .startRecord [] [] s = rows .startField [] [] s := by
  rcases s with _ | ⟨c, s⟩
  · exact absurd rfl h
  · have : c ≠ '\n' := by simpa using h'
    rw [rows, rows, if_neg this, if_neg this]

theorem rows_row {r : List Str} {t : Str} (hr : Row r t) (hne : r ≠ []) (s : Str) (out : List (List Str)) (h : Follows r s out) :
    rows .startRecord [] [] (t ++ s) = out := by
  have key : t ≠ [] ∧ rows .startField [] [] (t ++ s) = out := by
    cases hr with
    | blank => exact absurd rfl hne
    | one hf ht => exact ⟨ht, rows_field hf _ _ _ h⟩
    | @more v t vs ts hf hv hs =>
      constructor
      · cases hs with
        | nil => exact absurd rfl hv
        | cons _ _ => simp
      · rw [List.append_assoc]
        exact rows_field hf _ _ _ (rows_fields hs hv _ _ _ h)
  rw [rows_start (by simp [key.1])]
  · exact key.2
  · have := hr.nl
    rcases t with _ | ⟨c, t⟩
    · exact absurd rfl key.1
    · exact this

theorem rows_written {rs : List (List Str)} {s : Str} (h : Written ['\n'] rs s) : rows .startRecord [] [] s = rs := by
  generalize he : ['\n'] = eol at h
  induction h with
  | nil => rfl
  | @last r t hr hne =>
    have := rows_row hr hne [] [r] rfl
    rwa [List.append_nil] at this
  | @cons r t rs s hr hw ih =>
    subst he
    by_cases e : r = []
    · subst e
      cases hr
      rw [← ih]; rfl
    · rw [← ih]
      exact rows_row hr e _ _ (Or.inr ⟨rfl, rfl⟩)

/-- **C120**: the text of a table is taken apart into its rows and values, however the values are quoted and whatever the
ends of the lines are. -/
theorem C120_table {eol : Str} (he : Eol eol) {rs : List (List Str)} {s : Str} (h : Written eol rs s) :
    rows .startRecord [] [] (textMode s) = rs := rows_written (h.text he)

/-! ## What the rows say is read -/

theorem or_byte (a b k : Nat) (h : a / 2 ^ k % 256 = 0) (hb : b < 256) : a ||| b <<< k = a + b * 2 ^ k := by
  have hd : a / 2 ^ k = 2 ^ 8 * (a / 2 ^ k / 2 ^ 8) := by omega
  have e : a = 2 ^ k * (2 ^ 8 * (a / 2 ^ k / 2 ^ 8)) + a % 2 ^ k := by
    rw [← hd]; exact (Nat.div_add_mod a (2 ^ k)).symm
  generalize a / 2 ^ k / 2 ^ 8 = q at e
  have hm : a % 2 ^ k < 2 ^ k := Nat.mod_lt _ (by positivity)
  generalize a % 2 ^ k = m at e hm
  subst e
  have s1 : 2 ^ 8 * q ||| b = 2 ^ 8 * q + b := (Nat.two_pow_add_eq_or_of_lt (i := 8) (by omega) q).symm
  have c1 : 2 ^ k * (2 ^ 8 * q) + m = (2 ^ 8 * q) <<< k ||| m := by
    rw [← Nat.shiftLeft_add_eq_or_of_lt hm, Nat.shiftLeft_eq, Nat.mul_comm]
  have c2 : (2 ^ 8 * q + b) <<< k ||| m = (2 ^ 8 * q + b) * 2 ^ k + m := by
    rw [← Nat.shiftLeft_add_eq_or_of_lt hm, Nat.shiftLeft_eq]
  conv_lhs => rw [c1, Nat.or_assoc, Nat.or_comm m, ← Nat.or_assoc, ← Nat.shiftLeft_or_distrib, s1, c2]
  ring

theorem apply_word (k : Kind) (v : Nat) (c : Int) :
    applySuffix c (k.letter :: dec v) = .ok (Int.lor c (((v : Int) + 1) * 2 ^ k.shift)) := by
  cases k <;> simp only [Kind.letter, Kind.shift, applySuffix, parseInt_dec] <;> rfl

theorem fold_more (more : List (Kind × Nat)) (hd : (more.map (·.1)).Nodup) (hv : ∀ p ∈ more, p.2 < 255) (a : Nat)
    (ha : ∀ p ∈ more, a / 2 ^ p.1.shift % 256 = 0) :
    (more.map (fun p => p.1.letter :: dec (p.2 : Int))).foldlM applySuffix (a : Int) =
      .ok ((a : Int) + (more.map (fun p => ((p.2 : Int) + 1) * 2 ^ p.1.shift)).sum) := by
  induction more generalizing a with
  | nil => simp; rfl
  | cons p more ih =>
    rw [List.map_cons, List.nodup_cons] at hd
    have hp := hv p (by simp)
    have e : ((p.2 : Int) + 1) * 2 ^ p.1.shift = (((p.2 + 1) <<< p.1.shift : Nat) : Int) := by
      rw [Nat.shiftLeft_eq]; push_cast; ring
    have o : Int.lor (a : Int) (((p.2 + 1) <<< p.1.shift : Nat) : Int) = ((a + (p.2 + 1) * 2 ^ p.1.shift : Nat) : Int) := by
      rw [← or_byte a (p.2 + 1) _ (ha p (by simp)) (by omega)]; rfl
    simp only [List.map_cons, List.foldlM_cons, List.sum_cons]
    rw [apply_word, e, o]
    show (more.map (fun p => p.1.letter :: dec (p.2 : Int))).foldlM applySuffix _ = _
    rw [ih hd.2 (fun q hq => hv q (by simp [hq]))]
    · rw [← e]; push_cast; congr 1; ring
    · intro q hq
      have h0 := ha q (by simp [hq])
      have h1 := ha p (by simp)
      have hne : p.1 ≠ q.1 := fun h => hd.1 (h ▸ List.mem_map_of_mem hq)
      revert h0 h1 hne
      rcases p with ⟨k, v⟩
      rcases q with ⟨k', v'⟩
      simp only at hp
      cases k <;> cases k' <;> simp only [Kind.shift, ne_eq, reduceCtorEq, not_true_eq_false, not_false_eq_true] <;> intros <;>
        first | contradiction | omega

theorem split_more (w : Str) (hw : ' ' ∉ w) (more : List (Kind × Nat)) :
    splitOn ' ' (w ++ more.flatMap (fun p => ' ' :: p.1.letter :: dec (p.2 : Int))) =
      w :: more.map (fun p => p.1.letter :: dec (p.2 : Int)) := by
  induction more generalizing w with
  | nil => simpa using splitOn_plain _ _ hw
  | cons p more ih =>
    rw [List.flatMap_cons]
    have : w ++ ((' ' :: p.1.letter :: dec (p.2 : Int)) ++ more.flatMap (fun p => ' ' :: p.1.letter :: dec (p.2 : Int))) =
      w ++ ' ' :: ((p.1.letter :: dec (p.2 : Int)) ++ more.flatMap (fun p => ' ' :: p.1.letter :: dec (p.2 : Int))) := rfl
    rw [this, splitOn_append _ _ _ hw, ih]
    · rfl
    · have : ' ' ≠ p.1.letter := by cases p.1 <;> decide
      simp only [List.mem_cons, not_or]
      exact ⟨this, dec_ne (by decide) (by decide)⟩

theorem command_read {s : Str} {c : Int} (h : Command s c) : decodedCommand s = .ok c := by
  obtain ⟨name, c, more, hm, hc, hd, hv⟩ := h
  have t : ∀ p ∈ commandDict, ' ' ∉ p.1.toList ∧ lookup commandDict p.1 = .ok p.2 ∧ p.2 < 256 := by decide +kernel
  obtain ⟨t1, t2, t3⟩ := t _ hm
  unfold decodedCommand
  rw [split_more _ t1]
  simp only
  rw [String.ofList_toList, t2]
  show (more.map (fun p => p.1.letter :: dec (p.2 : Int))).foldlM applySuffix c = _
  rcases hc with hc | hc
  · simp only at t3
    have := fold_more more hd hv c.toNat (by
      intro p _
      have : c.toNat < 256 := by omega
      cases p.1 <;> simp only [Kind.shift] <;> omega)
    rwa [Int.toNat_of_nonneg hc] at this
  · subst hc; simp; rfl

theorem colour_read {s : Str} {c : Int} (rnd : Int) (h : Colour s c) : parseStringColor rnd s = .ok (some c) := by
  cases h with
  | @hex a b c d e f a' b' c' d' e' f' ha hb hc hd he hf =>
    have t : ∀ p ∈ digits, hexVal p.1 = some p.2 ∧ p.1 ≠ '#' := by decide +kernel
    unfold parseStringColor
    rw [if_neg (by
      intro e
      have := congrArg List.head? e
      revert this; simp)]
    unfold colorHex
    have hdw : List.dropWhile (fun x => decide (x = '#')) [a, b, c, d, e, f] = [a, b, c, d, e, f] := by
      simp [List.dropWhile, (t _ ha).2]
    simp only [hdw]
    have hx : parseHex [a, b, c, d, e, f] = .ok (((((a' * 16 + b') * 16 + c') * 16 + d') * 16 + e') * 16 + f') := by
      simp only [parseHex, parseHex.go, (t _ ha).1, (t _ hb).1, (t _ hc).1, (t _ hd).1, (t _ he).1, (t _ hf).1]
      simp
    simp [hx]
    try rfl
  | @name s name r g b hm hs =>
    have t : ∀ p ∈ colorNames, p.1.toList.head? ≠ some '#' ∧ p.1.toList ≠ "random".toList ∧
        colorNames.find? (fun q => q.1.toList = p.1.toList) = some p ∧
        colorRgb p.2.1 p.2.2.1 p.2.2.2 = p.2.1 * 65536 + p.2.2.1 * 256 + p.2.2.2 := by decide +kernel
    obtain ⟨t1, t2, t3, t4⟩ := t _ hm
    have n1 : s ≠ "random".toList := by
      intro e
      apply t2
      rw [← hs, e]
      decide +kernel
    unfold parseStringColor
    rw [if_neg n1]
    split
    · exfalso; apply t1; rw [← hs]; rfl
    · rw [hs, t3]
      simp only
      rw [t4]

theorem thread_three {v : Nat} (h : v < 256) : (dec (v : Int)).length ≤ 3 := by
  have : ∀ i : Fin 256, (dec ((i.val : Nat) : Int)).length ≤ 3 := by decide +kernel
  exact this ⟨v, h⟩

/-- What is added to a pattern. -/
def add (d e : Doc) : Doc :=
  { stitches := d.stitches ++ e.stitches, threads := d.threads ++ e.threads,
    extras := e.extras.foldl (fun ex p => put p.1 p.2 ex) d.extras }

theorem says_read {n : Num} {r : List Str} {e : Doc} (rnd : Int) (d : Doc) (h : Says n r e) :
    readRow n rnd d r = .ok (add d e) := by
  have nop : add d {} = d := by simp [add]
  cases h with
  | blank => rw [nop]; rfl
  | stitch more hm hc hx hy =>
    unfold readRow
    simp only [if_pos hm, List.getElem?_cons_succ, List.getElem?_cons_zero, List.length_cons]
    rw [bind_of (command_read hc), if_neg (by omega), bind_of hx, bind_of hy]
    simp [add]
  | command hm hc =>
    unfold readRow
    simp only [if_pos hm, List.getElem?_cons_succ, List.getElem?_cons_zero, List.length_cons, List.length_nil]
    rw [bind_of (command_read hc), if_pos trivial]
    simp [add]
  | remark more h1 h2 => rw [nop]; unfold readRow; simp only [if_neg h1, if_pos h2]
  | metadata k v h1 h2 h3 => unfold readRow; simp only [if_neg h1, if_neg h2, if_pos h3]; simp [add]
  | nometa more h1 h2 h3 h4 =>
    rw [nop]; unfold readRow; simp only [if_neg h1, if_neg h2, if_pos h3]
    split
    · rename_i e; injection e with _ e; subst e; exact absurd rfl h4
    · rfl
  | @rgb mark index r g b desc cat h1 h2 h3 h4 hr hg hb =>
    unfold readRow
    simp only [if_neg h1, if_neg h2, if_neg h3, if_pos h4]
    have : readThread rnd [mark, index, dec r, dec g, dec b, desc, cat] =
        .ok { color := r * 65536 + g * 256 + b, description := some (String.ofList desc), catalog := some (String.ofList cat) } := by
      unfold readThread
      simp only
      rw [if_pos ⟨thread_three hr, thread_three hg, thread_three hb⟩, bind_of (parseInt_dec _), bind_of (parseInt_dec _),
        bind_of (parseInt_dec _)]
      have : colorRgb (r : Int) g b = r * 65536 + g * 256 + b := by
        unfold colorRgb; omega
      rw [this]
    rw [bind_of this]
    simp [add]
  | @colour mark index col c more h1 h2 h3 h4 hc hl =>
    unfold readRow
    simp only [if_neg h1, if_neg h2, if_neg h3, if_pos h4]
    have gen : readThread.general rnd (mark :: index :: col :: more) = .ok { color := c, description := more[0]?.map String.ofList, brand := more[1]?.map String.ofList, catalog := more[2]?.map String.ofList } := by
      unfold readThread.general
      simp only [List.getElem?_cons_succ, List.getElem?_cons_zero, colour_read rnd hc]
      rfl
    have : readThread rnd (mark :: index :: col :: more) = .ok { color := c, description := more[0]?.map String.ofList, brand := more[1]?.map String.ofList, catalog := more[2]?.map String.ofList } := by
      unfold readThread
      split
      · rename_i e
        injection e with _ e; injection e with _ e; injection e with e1 e; subst e1; subst e
        rw [if_neg (fun h => by
          rcases hl with hl | hl
          · exact hl rfl
          · have := h.1; omega)]
        exact gen
      · exact gen
    rw [bind_of this]
    simp [add]
  | nothing more h1 h2 h3 h4 => rw [nop]; unfold readRow; simp only [if_neg h1, if_neg h2, if_neg h3, if_neg h4]

theorem fold_says {n : Num} (rnd : Int) {rs : List (List Str)} {es : List Doc} (h : List.Forall₂ (Says n) rs es) (d : Doc) :
    rs.foldlM (readRow n rnd) d = .ok (es.foldl add d) := by
  induction h generalizing d with
  | nil => rfl
  | cons a _ ih => rw [List.foldlM_cons, bind_of (says_read rnd d a), ih]; rfl

theorem fold_add (es : List Doc) (d : Doc) : es.foldl add d =
    { stitches := d.stitches ++ es.flatMap (·.stitches), threads := d.threads ++ es.flatMap (·.threads),
      extras := (es.flatMap (·.extras)).foldl (fun ex p => put p.1 p.2 ex) d.extras } := by
  induction es generalizing d with
  | nil => simp
  | cons e es ih => rw [List.foldl_cons, ih]; simp [add]

/-- **C120**: a CSV table, by whatever program it was written, is read as its rows say: the stitches and the threads are
those of its rows, in their order, and of the metadata the last value of every name counts. -/
theorem C120_read {n : Num} (rnd : Int) {eol : Str} (he : Eol eol) {rs : List (List Str)} {s : Str} (hw : Written eol rs s)
    {es : List Doc} (hs : List.Forall₂ (Says n) rs es) :
    ∃ d, read n rnd s = .ok d ∧ d.stitches = es.flatMap (·.stitches) ∧ d.threads = es.flatMap (·.threads) ∧
      (d.extras.map (·.1)).Nodup ∧ ∀ k v, (k, v) ∈ d.extras ↔
        ∃ a b, es.flatMap (·.extras) = a ++ (k, v) :: b ∧ k ∉ b.map (·.1) := by
  refine ⟨es.foldl add {}, ?_, ?_, ?_, ?_⟩
  · unfold read; rw [C120_table he hw, fold_says rnd hs]
  · rw [fold_add]; simp
  · rw [fold_add]; simp
  · rw [fold_add]
    exact put_all _
where
  put_keys {k : Str} {v : Str} {l : List (Str × Str)} (h : (l.map (·.1)).Nodup) :
      ((put k v l).map (·.1)).Nodup ∧ ∀ q, q ∈ put k v l ↔ q = (k, v) ∨ (q ∈ l ∧ q.1 ≠ k) := by
    induction l with
    | nil => simp [put]
    | cons p l ih =>
      rw [List.map_cons, List.nodup_cons] at h
      unfold put
      split_ifs with e
      · refine ⟨by rw [List.map_cons, List.nodup_cons, ← e]; exact h, fun q => ?_⟩
        simp only [List.mem_cons]
        constructor
        · rintro (h' | h')
          · exact Or.inl h'
          · exact Or.inr ⟨Or.inr h', fun h'' => h.1 (by rw [e, ← h'']; exact List.mem_map_of_mem h')⟩
        · rintro (h' | ⟨h' | h', h''⟩)
          · exact Or.inl h'
          · subst h'; exact absurd e h''
          · exact Or.inr h'
      · obtain ⟨i1, i2⟩ := ih h.2
        refine ⟨?_, fun q => ?_⟩
        · rw [List.map_cons, List.nodup_cons]
          refine ⟨fun hm => ?_, i1⟩
          obtain ⟨q, hq, e'⟩ := List.mem_map.1 hm
          rcases (i2 q).1 hq with h' | h'
          · subst h'; exact e e'.symm
          · exact h.1 (by rw [← e']; exact List.mem_map_of_mem h'.1)
        · simp only [List.mem_cons, i2]
          constructor
          · rintro (h' | h' | h')
            · subst h'; exact Or.inr ⟨Or.inl rfl, e⟩
            · exact Or.inl h'
            · exact Or.inr ⟨Or.inr h'.1, h'.2⟩
          · rintro (h' | ⟨h' | h', h''⟩)
            · exact Or.inr (Or.inl h')
            · exact Or.inl h'
            · exact Or.inr (Or.inr ⟨h', h''⟩)
  put_all (l : List (Str × Str)) : ((l.foldl (fun ex p => put p.1 p.2 ex) []).map (·.1)).Nodup ∧ ∀ k v,
      (k, v) ∈ l.foldl (fun ex p => put p.1 p.2 ex) [] ↔ ∃ a b, l = a ++ (k, v) :: b ∧ k ∉ b.map (·.1) := by
    induction l using List.reverseRecOn with
    | nil => simp
    | append_singleton l p ih =>
      rw [List.foldl_append, List.foldl_cons, List.foldl_nil]
      obtain ⟨i1, i2⟩ := put_keys (k := p.1) (v := p.2) ih.1
      refine ⟨i1, fun k v => ?_⟩
      rw [i2, ih.2]
      constructor
      · rintro (h | ⟨⟨a, b, e, h⟩, h'⟩)
        · exact ⟨l, [], by rw [h], by simp⟩
        · refine ⟨a, b ++ [p], by rw [e]; simp, ?_⟩
          rw [List.map_append, List.mem_append]
          rintro (h'' | h'')
          · exact h h''
          · simp at h''; exact h' h''
      · rintro ⟨a, b, e, h⟩
        rcases List.eq_nil_or_concat b with hb | ⟨b', q, hb⟩
        · subst hb
          have := List.append_inj' e rfl
          left
          have h2 := this.2
          simp only [List.cons.injEq, and_true] at h2
          rw [h2]
        · subst hb
          rw [List.concat_eq_append] at e h
          have e' : l ++ [p] = (a ++ (k, v) :: b') ++ [q] := by rw [e]; simp
          obtain ⟨h1, h2⟩ := List.append_inj' e' rfl
          simp only [List.cons.injEq, and_true] at h2
          subst h2
          rw [List.map_append, List.mem_append, not_or] at h
          refine Or.inr ⟨⟨a, b', h1, h.1⟩, ?_⟩
          have := h.2
          simp at this
          exact this

/-- **C120**: a stitch row whose command has no name in the table makes the whole file unreadable: a `KeyError`, not a
pattern with the rows before it. -/
theorem C120_unknown {n : Num} (rnd : Int) {eol : Str} (he : Eol eol) {rs : List (List Str)} {mark index : Str} {name : String}
    {more : List Str} {after : List (List Str)} {s : Str}
    (hw : Written eol (rs ++ (mark :: index :: name.toList :: more) :: after) s) {es : List Doc}
    (hs : List.Forall₂ (Says n) rs es) (hm : '*' ∈ mark) (hn : name ∉ commandDict.map (·.1)) (hb : ' ' ∉ name.toList) :
    read n rnd s = .error .keyError := by
  have hl : lookup commandDict name = .error .keyError := by
    unfold lookup
    have : commandDict.find? (fun p => p.1 = name) = none := by
      rw [List.find?_eq_none]
      intro p hp
      have : p.1 ≠ name := fun e => hn (e ▸ List.mem_map_of_mem hp)
      simpa using this
    rw [this]
  unfold read
  rw [C120_table he hw, List.foldlM_append, bind_of (fold_says rnd hs _), List.foldlM_cons]
  have : readRow n rnd (es.foldl add {}) (mark :: index :: name.toList :: more) = .error .keyError := by
    unfold readRow
    simp only [if_pos hm, List.getElem?_cons_succ, List.getElem?_cons_zero]
    unfold decodedCommand
    rw [splitOn_plain _ _ hb]
    simp only
    rw [String.ofList_toList, hl]; rfl
  rw [this]; rfl

/-- A file with `\r\n` at the ends of its lines: a remark, a thread as Embroidermodder writes it whose description has a comma and
a quote, an empty line, a colour change to thread 2, and a stitch in the last line, which has no end. -/
def sample : List (List Str) :=
  [["#".toList, "made elsewhere".toList],
   ["$".toList, "1".toList, dec 255, dec 0, dec 10, "Red, \"warm\"".toList, "1147".toList],
   [],
   [">*".toList, "0".toList, "COLOR_CHANGE n3 t2".toList],
   ["*".toList, "1".toList, "STITCH".toList, "7/1".toList, "-2/1".toList]]

def sampleText : Str :=
  "#,made elsewhere\r\n\"$\",1,255,0,10,\"Red, \"\"warm\"\"\",1147\r\n\r\n>*,0,COLOR_CHANGE n3 t2\r\n*,1,STITCH,7/1,-2/1".toList

theorem field_of {v : Str} (h : (',' ∉ v ∧ '\n' ∉ v ∧ '\r' ∉ v ∧ v.head? ≠ some '"')) : Field v v :=
  .bare v h.1 h.2.1 h.2.2.1 h.2.2.2

theorem sample_written : Written ['\r', '\n'] sample sampleText := by
  have e : sampleText =
      ("#".toList ++ ["made elsewhere".toList].flatMap (fun u => ',' :: u)) ++ (['\r', '\n'] ++
      ((('"' :: (doubled "$".toList ++ ['"'])) ++ ["1".toList, dec 255, dec 0, dec 10,
        '"' :: (doubled "Red, \"warm\"".toList ++ ['"']), "1147".toList].flatMap (fun u => ',' :: u)) ++ (['\r', '\n'] ++
      ([] ++ (['\r', '\n'] ++
      ((">*".toList ++ ["0".toList, "COLOR_CHANGE n3 t2".toList].flatMap (fun u => ',' :: u)) ++ (['\r', '\n'] ++
      ("*".toList ++ ["1".toList, "STITCH".toList, "7/1".toList, "-2/1".toList].flatMap (fun u => ',' :: u))))))))) := by
    decide +kernel
  rw [e]
  refine .cons (.more (field_of (by decide +kernel)) (by simp) (.cons (field_of (by decide +kernel)) .nil)) ?_
  refine .cons (.more (.quoted _ (by decide +kernel)) (by simp)
    (.cons (field_of (by decide +kernel)) (.cons (field_of (by decide +kernel)) (.cons (field_of (by decide +kernel))
      (.cons (field_of (by decide +kernel)) (.cons (.quoted _ (by decide +kernel)) (.cons (field_of (by decide +kernel)) .nil))))))) ?_
  refine .cons .blank ?_
  refine .cons (.more (field_of (by decide +kernel)) (by simp)
    (.cons (field_of (by decide +kernel)) (.cons (field_of (by decide +kernel)) .nil))) ?_
  exact .last (.more (field_of (by decide +kernel)) (by simp) (.cons (field_of (by decide +kernel))
    (.cons (field_of (by decide +kernel)) (.cons (field_of (by decide +kernel)) (.cons (field_of (by decide +kernel)) .nil)))))
    (by simp)

/-- What the rows of the sample say. -/
def sampleSays : List Doc :=
  [{}, { threads := [{ color := 0xFF000A, description := some "Red, \"warm\"", catalog := some "1147" }] }, {},
   { stitches := [⟨0, 0, 5 + (3 + 1) * 65536 + (2 + 1) * 256⟩] }, { stitches := [⟨7, -2, 0⟩] }]

theorem sample_says : List.Forall₂ (Says fractions) sample sampleSays := by
  refine .cons (.remark _ (by decide +kernel) (by decide +kernel)) ?_
  refine .cons ?_ (.cons .blank (.cons ?_ (.cons ?_ .nil)))
  · have := Says.rgb (n := fractions) (mark := "$".toList) (index := "1".toList) (r := 255) (g := 0) (b := 10)
      "Red, \"warm\"".toList "1147".toList (by decide +kernel) (by decide +kernel) (by decide +kernel) (by decide +kernel)
      (by decide) (by decide) (by decide)
    rw [String.ofList_toList, String.ofList_toList] at this
    exact this
  · exact .command (by decide +kernel)
      (.mk "COLOR_CHANGE" 5 [(.needle, 3), (.thread, 2)] (by decide +kernel) (Or.inl (by decide)) (by decide) (by decide))
  · exact .stitch [] (by decide +kernel) (.mk "STITCH" 0 [] (by decide +kernel) (Or.inl (by decide)) (by decide) (by decide))
      (by decide +kernel) (by decide +kernel)

example : ∃ d, read fractions 0 sampleText = .ok d ∧ d.stitches = [⟨0, 0, 0x40305⟩, ⟨7, -2, 0⟩] ∧
    d.threads = [{ color := 0xFF000A, description := some "Red, \"warm\"", catalog := some "1147" }] := by
  obtain ⟨d, h1, h2, h3, -⟩ := C120_read 0 .dos sample_written sample_says
  exact ⟨d, h1, by rw [h2]; decide +kernel, by rw [h3]; decide +kernel⟩

end Table
end Csv

/-! ## JSON -/

namespace Json
open Csv Csv.Table

/-- What a JSON thread says: its colour as in a table, and its texts. -/
inductive JSays : Json.JThread → Thread → Prop where
  | mk {t : Json.JThread} {c : Int} : Colour t.color c →
      JSays t { color := c, description := t.description, catalog := t.catalog, details := t.details, brand := t.brand, chart := t.chart, weight := t.weight }

/-- **C71**: a JSON object from elsewhere is read as it says: a thread for each entry of `threadlist`, whose colour may be given as `#rrggbb` or by
name, a stitch for each entry of `stitches`, whose numbers may follow the name of the command in any order, and the `extras`. -/
theorem C71_elsewhere (rnd : Int) (f : Json.File) (ts : List Thread) (l : List Stitch) (ht : List.Forall₂ JSays f.threadlist ts)
    (hl : List.Forall₂ (fun (a : ℚ × ℚ × Str) (b : Stitch) => Command a.2.2 b.cmd ∧ b.x = a.1 ∧ b.y = a.2.1) f.stitches l) :
    Json.read rnd f = .ok ⟨l, ts, f.extras⟩ := by
  have h1 : f.threadlist.mapM (Json.readThread rnd) = .ok ts := by
    generalize f.threadlist = T at ht
    induction ht with
    | nil => rfl
    | @cons a b _ _ hab _ ih =>
      have e : Json.readThread rnd a = .ok b := by
        cases hab with
        | mk hc => unfold Json.readThread; rw [bind_of (colour_read rnd hc)]
      rw [List.mapM_cons, bind_of e, bind_of ih]; rfl
  have h2 : f.stitches.mapM Json.readStitch = .ok l := by
    generalize f.stitches = S at hl
    induction hl with
    | nil => rfl
    | @cons a b _ _ hab _ ih =>
      have e : Json.readStitch a = .ok b := by
        unfold Json.readStitch; rw [bind_of (command_read hab.1), ← hab.2.1, ← hab.2.2]
      rw [List.mapM_cons, bind_of e, bind_of ih]; rfl
  unfold Json.read
  rw [bind_of h1, bind_of h2]

/-- A thread by the name of its colour and a needle change with its numbers in another order than the writer's. -/
example : Json.read 0 ⟨[⟨"DarkRed".toList, some "wine", none, none, none, none, none⟩], [(1, 2, "NEEDLE_SET n3 t2".toList)], []⟩ =
    .ok ⟨[⟨1, 2, 0x40309⟩], [{ color := 0x8B0000, description := some "wine" }], []⟩ :=
  C71_elsewhere 0 _ _ _
    (.cons (.mk (.name (name := "darkred") (r := 139) (g := 0) (b := 0) (by decide +kernel) (by decide +kernel))) .nil)
    (.cons ⟨.mk "NEEDLE_SET" 9 [(.needle, 3), (.thread, 2)] (by decide +kernel) (Or.inl (by decide)) (by decide) (by decide), rfl, rfl⟩ .nil)

end Json
end Emb
