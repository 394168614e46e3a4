import Verif.Props.GcodeProps

/-!
# C96: G-code programs that were not written by the library
-/

namespace Emb
namespace Gcode

/-! ## What a program says -/

/-- A decimal number as it is written: sign, digits, and digits after a dot. -/
structure Numeral where
  sign : Option Bool
  whole : Str
  frac : Option Str

/-- Digits only, and at least one before the dot. -/
def Numeral.Good (n : Numeral) : Prop :=
  n.whole ≠ [] ∧ (∀ c ∈ n.whole, c.isDigit = true) ∧ ∀ c ∈ n.frac.getD [], c.isDigit = true

/-- The dot and what follows it. -/
def fracText : Option Str → Str
  | none => []
  | some f => '.' :: f

def Numeral.text (n : Numeral) : Str :=
  (match n.sign with | none => [] | some true => ['-'] | some false => ['+']) ++ (n.whole ++ fracText n.frac)

/-- Its value: the digits without the dot, divided by a power of ten. -/
def Numeral.value (n : Numeral) : ℚ :=
  (if n.sign = some true then -1 else 1) *
    ((Nat.ofDigitChars 10 (n.whole ++ n.frac.getD []) 0 : ℚ) / 10 ^ (n.frac.getD []).length)

/-- One line of a program. -/
inductive Instr where
  /-- `G0` or `G1` with both coordinates, and further words (feed, height, ...) -/
  | move (g x y : Numeral) (more : List (Char × Numeral))
  /-- `G` with any other number, alone on its line -/
  | gcode (n : Numeral)
  /-- `M` with any number, alone on its line -/
  | mcode (n : Numeral)
  /-- `G0` without one of the coordinates, with words such as `Z` -/
  | lift (g : Numeral) (more : List (Char × Numeral))
  /-- a line that begins with another letter -/
  | word (c : Char) (n : Numeral) (more : List (Char × Numeral))
  /-- a remark in brackets, or behind a semicolon -/
  | remark (semicolon : Bool) (c : Str)
  /-- an empty line -/
  | blank
  /-- a slash or a blank in front of the line that follows; a slash marks a line that a machine may be told to leave out -/
  | mark (slash : Bool)

/-- Words that say nothing about motion. -/
def Silent (w : Char × Numeral) : Prop := (65 ≤ w.1.toNat ∧ w.1.toNat ≤ 90) ∧ w.1 ∉ ['G', 'M', 'X', 'Y'] ∧ w.2.Good

def Instr.Good : Instr → Prop
  | .move g x y more => g.Good ∧ (g.value = 0 ∨ g.value = 1) ∧ x.Good ∧ y.Good ∧ ∀ w ∈ more, Silent w
  | .gcode n => n.Good ∧ n.value ≠ 1
  | .mcode n => n.Good
  | .lift g more => g.Good ∧ g.value = 0 ∧ ∀ w ∈ more, Silent w
  | .word c n more => Silent (c, n) ∧ ∀ w ∈ more, Silent w
  | .remark _ c => OneLine c ∧ ¬ "Thread".toList <:+: visible c
  | .blank => True
  | .mark _ => True

def wordText (w : Char × Numeral) : Str := ' ' :: w.1 :: w.2.text

/-- The text of a line. -/
def Instr.text : Instr → Str
  | .move g x y more => 'G' :: g.text ++ (wordText ('X', x) ++ (wordText ('Y', y) ++ more.flatMap wordText)) ++ ['\n']
  | .gcode n => 'G' :: n.text ++ ['\n']
  | .mcode n => 'M' :: n.text ++ ['\n']
  | .lift g more => 'G' :: g.text ++ more.flatMap wordText ++ ['\n']
  | .word c n more => c :: n.text ++ more.flatMap wordText ++ ['\n']
  | .remark true c => ';' :: c ++ ['\n']
  | .remark false c => '(' :: c ++ ")\n".toList
  | .blank => ['\n']
  | .mark slash => [if slash then '/' else ' ']

/-- What a program makes, from the needle at `(px, py)`: coordinates are millimetres, or inches, and are turned by half a turn; they
are counted from the origin or from where the needle is. -/
def sewn (inch rel : Bool) (px py : ℚ) : List Instr → List Stitch
  | [] => []
  | .move _ x y _ :: rest =>
    let unit : ℚ := if inch then 254 else 10
    let qx := (if rel then px else 0) - unit * x.value
    let qy := (if rel then py else 0) - unit * y.value
    ⟨qx, qy, 0⟩ :: sewn inch rel qx qy rest
  | .gcode n :: rest =>
    sewn (if n.value = 20 ∨ n.value = 70 then true else if n.value = 21 ∨ n.value = 71 then false else inch)
      (if n.value = 91 then true else if n.value = 90 then false else rel) px py rest
  | .mcode n :: rest =>
    (if n.value = 0 ∨ n.value = 1 then [⟨px, py, 5⟩] else if n.value = 2 ∨ n.value = 30 then [⟨px, py, 4⟩] else []) ++
      sewn inch rel px py rest
  | _ :: rest => sewn inch rel px py rest

/-! ## Numbers -/

theorem Numeral.numeric {n : Numeral} (h : n.Good) : ∀ c ∈ n.text, Numeric c := by
  obtain ⟨s, a, f⟩ := n
  obtain ⟨_, h2, h3⟩ := h
  intro c hc
  unfold Numeral.text at hc
  simp only [List.mem_append] at hc
  rcases hc with hc | hc | hc
  · split at hc <;> simp at hc <;> subst hc <;> simp [Numeric]
  · exact .inl (h2 c hc)
  · cases f with
    | none => simp [fracText] at hc
    | some f =>
      simp only [fracText, List.mem_cons] at hc
      rcases hc with rfl | hc
      · simp [Numeric]
      · exact .inl (h3 c hc)

theorem Numeral.float {n : Numeral} (h : n.Good) : Gcode.float n.text = .ok n.value := by
  obtain ⟨s, a, f⟩ := n
  obtain ⟨h1, h2, h3⟩ := h
  simp only at h1 h2 h3
  have hu : unsigned (a ++ fracText f) =
      .ok ((Nat.ofDigitChars 10 (a ++ f.getD []) 0 : ℚ) / 10 ^ (f.getD []).length) := by
    cases f with
    | none =>
      simp only [fracText, List.append_nil, Option.getD_none, List.length_nil, pow_zero, div_one]
      unfold unsigned
      rw [splitOn_plain _ _ (fun hc => by have := h2 _ hc; revert this; decide)]
      simp only
      unfold parseNat
      rw [if_pos ⟨h1, List.all_eq_true.2 h2⟩]
      rfl
    | some f =>
      simp only [Option.getD_some]
      exact unsigned_digits a f h1 (fun c hc => by
        rcases List.mem_append.1 hc with hc | hc
        · exact h2 c hc
        · exact h3 c hc)
  unfold Numeral.text Numeral.value
  simp only
  match s with
  | some true =>
    simp only [List.cons_append, List.nil_append, if_true]
    unfold Gcode.float
    simp only [hu]
    simp [Except.map]
  | some false =>
    simp only [List.cons_append, List.nil_append]
    unfold Gcode.float
    simp only [hu]
    simp
  | none =>
    simp only [List.nil_append]
    obtain ⟨c, a', rfl⟩ := List.exists_cons_of_ne_nil h1
    have hc := h2 c (by simp)
    have e : Gcode.float (c :: a' ++ fracText f) =
        unsigned (c :: a' ++ fracText f) := by
      rw [List.cons_append]
      unfold Gcode.float
      split
      · rename_i heq
        simp only [List.cons.injEq] at heq
        rw [heq.1] at hc
        exact absurd hc (by decide)
      · rename_i heq
        simp only [List.cons.injEq] at heq
        rw [heq.1] at hc
        exact absurd hc (by decide)
      · rfl
    rw [e, hu]
    simp

/-! ## Lines -/

/-- The letter of a word as the reader keeps it. -/
def small (c : Char) : Str := key (c.toNat : Int)

theorem small_ne (c : Char) : small c ≠ [] := by
  unfold small key
  split_ifs <;> simp

/-- The words of a line, in the reader's dictionary. -/
def collect (l : List (Str × ℚ)) (ws : List (Char × Numeral)) : List (Str × ℚ) := ws.foldl (fun l w => put (small w.1) w.2.value l) l

def Capital (w : Char × Numeral) : Prop := (65 ≤ w.1.toNat ∧ w.1.toNat ≤ 90) ∧ w.2.Good

theorem parse_words (ws : List (Char × Numeral)) (hw : ∀ w ∈ ws, Capital w) (rest : Bytes) :
    ∀ (code : Str) (n : Numeral) (line : Line), code ≠ [] → n.Good →
    parse { code := code, value := n.text, line := line } (utf8 (ws.flatMap wordText ++ ['\n']) ++ rest) =
      ({ line with vals := collect (put code n.value line.vals) ws } :: (parse {} rest).1, (parse {} rest).2) := by
  induction ws with
  | nil =>
    intro code n line hc hn
    have e5 : utf8 ['\n'] = [10] := by decide +kernel
    rw [List.flatMap_nil, List.nil_append, e5]
    exact parse_end _ rfl hc _ (Numeral.float hn) rest
  | cons w ws ih =>
    intro code n line hc hn
    obtain ⟨hcap, hg⟩ := hw w (by simp)
    rw [List.flatMap_cons, List.append_assoc, utf8_append, List.append_assoc]
    have hwt : utf8 (wordText w) = 32 :: (w.1.toNat : Int) :: utf8 w.2.text := by
      unfold wordText
      rw [utf8_cons, utf8_ascii ' ' (by decide), utf8_cons w.1, utf8_ascii w.1 (by omega)]
      rfl
    rw [hwt]
    simp only [List.append_assoc, List.cons_append, List.nil_append]
    rw [parse_key _ rfl hc _ (Numeral.float hn) _ (by omega), parse_value _ (Numeral.numeric hg) _ _ rfl]
    exact ih (fun a ha => hw a (by simp [ha])) (small w.1) w.2 _ (small_ne _) hg

/-- A line of words. -/
theorem parse_line (w : Char × Numeral) (ws : List (Char × Numeral)) (h : Capital w) (hw : ∀ w ∈ ws, Capital w) (rest : Bytes) :
    parse {} (utf8 (w.1 :: w.2.text ++ ws.flatMap wordText ++ ['\n']) ++ rest) =
      ({ vals := collect [(small w.1, w.2.value)] ws } :: (parse {} rest).1, (parse {} rest).2) := by
  obtain ⟨hcap, hg⟩ := h
  rw [List.append_assoc, List.cons_append, utf8_cons, utf8_append, utf8_ascii w.1 (by omega)]
  simp only [List.append_assoc, List.cons_append, List.nil_append]
  have e1 : step {} (w.1.toNat : Int) = .ok ({ code := small w.1 }, none) := by
    unfold step
    simp only
    unfold plain
    rw [if_neg (by omega), if_neg (by omega), if_neg (by omega), if_neg (by omega), if_pos (by omega)]
    rfl
  rw [parse_step _ e1, parse_value _ (Numeral.numeric hg) _ _ rfl]
  exact parse_words ws hw rest (small w.1) w.2 {} (small_ne _) hg

/-! ## Looking up words -/

theorem find_put (k k' : Str) (v : ℚ) (l : List (Str × ℚ)) :
    (put k v l).find? (fun p => p.1 = k') = if k = k' then some (k, v) else l.find? (fun p => p.1 = k') := by
  induction l with
  | nil => by_cases h : k = k' <;> simp [put, h]
  | cons p l ih =>
    unfold put
    by_cases h : p.1 = k
    · rw [if_pos h]
      by_cases h' : k = k'
      · simp [h']
      · simp [h', h]
    · rw [if_neg h, List.find?_cons, List.find?_cons]
      by_cases h' : p.1 = k'
      · have : k ≠ k' := fun e => h (by rw [h', e])
        simp [h', this]
      · simp [h', ih]

theorem small_inj {a b : Char} (ha : 65 ≤ a.toNat ∧ a.toNat ≤ 90) (hb : 65 ≤ b.toNat ∧ b.toNat ≤ 90) (h : small a = small b) : a = b := by
  unfold small key at h
  rw [if_pos (by omega), if_pos (by omega)] at h
  simp only [List.cons.injEq, and_true] at h
  have h := congrArg Char.toNat h
  have e : ∀ n : Nat, n < 128 → (Char.ofNat n).toNat = n := by decide
  rw [e _ (by omega), e _ (by omega)] at h
  exact Char.toNat_inj.1 (by omega)

/-- Silent words do not change what the reader looks up. -/
theorem get_silent (ws : List (Char × Numeral)) (h : ∀ w ∈ ws, Silent w) (k : Char) (hk : k ∈ ['G', 'M', 'X', 'Y']) : ∀ l,
    (collect l ws).find? (fun p => p.1 = small k) = l.find? (fun p => p.1 = small k) := by
  have hkc : 65 ≤ k.toNat ∧ k.toNat ≤ 90 := by
    simp only [List.mem_cons, List.not_mem_nil, or_false] at hk
    rcases hk with rfl | rfl | rfl | rfl <;> decide
  induction ws with
  | nil => intro l; rfl
  | cons w ws ih =>
    intro l
    have hw := h w (by simp)
    show (collect (put (small w.1) w.2.value l) ws).find? _ = _
    rw [ih (fun a ha => h a (by simp [ha])), find_put, if_neg]
    intro e
    exact hw.2.1 (small_inj hw.1 hkc e ▸ hk)

theorem Silent.capital {w : Char × Numeral} (h : Silent w) : Capital w := ⟨h.1, h.2.2⟩

/-- Where the reader stands: what it has read so far, its unit and mode. -/
def state (inch rel : Bool) (doc : Doc) : RState := ⟨!rel, if inch then 254 else 10, doc⟩

/-- A line as the reader sees it. -/
def lineOf (c : Char) (n : Numeral) (ws : List (Char × Numeral)) : Line := { vals := collect [(small c, n.value)] ws }

theorem line_move (rnd : Int) (g x y : Numeral) (more : List (Char × Numeral)) (hg : g.value = 0 ∨ g.value = 1) (hm : ∀ w ∈ more, Silent w)
    (inch rel : Bool) (doc : Doc) :
    readLine rnd (state inch rel doc) (lineOf 'G' g ([('X', x), ('Y', y)] ++ more)) =
      .ok (state inch rel { doc with stitches := doc.stitches ++
        [⟨(if rel then (lastPos doc.stitches).1 else 0) - (if inch then 254 else 10) * x.value,
          (if rel then (lastPos doc.stitches).2 else 0) - (if inch then 254 else 10) * y.value, 0⟩] }) := by
  have e0 : lineOf 'G' g ([('X', x), ('Y', y)] ++ more) =
      { vals := collect [(small 'G', g.value), (small 'X', x.value), (small 'Y', y.value)] more } := by
    unfold lineOf collect
    rw [List.foldl_append]
    rfl
  rw [e0, readLine_plain _ _ _ rfl]
  have gg : ∀ k : Char, k ∈ ['G', 'M', 'X', 'Y'] → ∀ s : String, s.toList = small k →
      Line.get { vals := collect [(small 'G', g.value), (small 'X', x.value), (small 'Y', y.value)] more } s =
        ([(small 'G', g.value), (small 'X', x.value), (small 'Y', y.value)].find? (fun p => p.1 = small k)).map (·.2) := by
    intro k hk s hs
    unfold Line.get
    rw [hs, get_silent more hm k hk]
  unfold readG
  rw [gg 'G' (by simp) "g" (by decide +kernel), gg 'X' (by simp) "x" (by decide +kernel), gg 'Y' (by simp) "y" (by decide +kernel)]
  have f1 : [(small 'G', g.value), (small 'X', x.value), (small 'Y', y.value)].find? (fun p => p.1 = small 'G') = some (small 'G', g.value) := by
    rw [List.find?_cons]; simp
  have f2 : [(small 'G', g.value), (small 'X', x.value), (small 'Y', y.value)].find? (fun p => p.1 = small 'X') = some (small 'X', x.value) := by
    rw [List.find?_cons, List.find?_cons]
    have : small 'G' ≠ small 'X' := by decide +kernel
    simp [this]
  have f3 : [(small 'G', g.value), (small 'X', x.value), (small 'Y', y.value)].find? (fun p => p.1 = small 'Y') = some (small 'Y', y.value) := by
    rw [List.find?_cons, List.find?_cons, List.find?_cons]
    have h1 : small 'G' ≠ small 'Y' := by decide +kernel
    have h2 : small 'X' ≠ small 'Y' := by decide +kernel
    simp [h1, h2]
  rw [f1, f2, f3]
  simp only [Option.map_some, Option.isSome_some, true_and]
  rw [if_pos hg]
  unfold state RState.add
  cases rel <;> cases inch <;> simp only [Bool.not_true, Bool.not_false, if_true, Bool.false_eq_true, if_false, Except.ok.injEq] <;>
    congr 4 <;> simp [STITCH] <;> constructor <;> ring

/-- A line with one word that matters. -/
theorem get_one (c : Char) (hc : 65 ≤ c.toNat ∧ c.toNat ≤ 90) (n : Numeral) (more : List (Char × Numeral)) (hm : ∀ w ∈ more, Silent w) (k : Char)
    (hk : k ∈ ['G', 'M', 'X', 'Y']) (s : String) (hs : s.toList = small k) :
    Line.get (lineOf c n more) s = if c = k then some n.value else none := by
  unfold Line.get lineOf
  rw [hs, get_silent more hm k hk, List.find?_cons]
  have hkc : 65 ≤ k.toNat ∧ k.toNat ≤ 90 := by
    simp only [List.mem_cons, List.not_mem_nil, or_false] at hk
    rcases hk with rfl | rfl | rfl | rfl <;> decide
  by_cases h : c = k
  · subst h; simp
  · have : small c ≠ small k := fun e => h (small_inj hc hkc e)
    simp [h, this]

theorem line_g (rnd : Int) (n : Numeral) (hn : n.value ≠ 1) (more : List (Char × Numeral)) (hm : ∀ w ∈ more, Silent w) (inch rel : Bool) (doc : Doc) :
    readLine rnd (state inch rel doc) (lineOf 'G' n more) =
      .ok (state (if n.value = 20 ∨ n.value = 70 then true else if n.value = 21 ∨ n.value = 71 then false else inch)
        (if n.value = 91 then true else if n.value = 90 then false else rel) doc) := by
  rw [readLine_plain _ _ _ rfl]
  unfold readG
  have hG : 65 ≤ ('G').toNat ∧ ('G').toNat ≤ 90 := by decide
  rw [get_one 'G' hG n more hm 'G' (by simp) "g" (by decide +kernel), get_one 'G' hG n more hm 'X' (by simp) "x" (by decide +kernel)]
  simp only [if_true]
  rw [if_neg (by simp [hn])]
  unfold readM
  rw [get_one 'G' hG n more hm 'M' (by simp) "m" (by decide +kernel), if_neg (by decide : ¬ 'G' = 'M')]
  simp only [Except.ok.injEq]
  unfold state
  generalize n.value = v at *
  by_cases h1 : v = 21 ∨ v = 71
  · rw [if_pos h1]
    rcases h1 with rfl | rfl <;> norm_num
  rw [if_neg h1]
  by_cases h2 : v = 20 ∨ v = 70
  · rw [if_pos h2]
    rcases h2 with rfl | rfl <;> norm_num
  rw [if_neg h2, if_neg h2, if_neg h1]
  by_cases h3 : v = 90
  · subst h3; norm_num
  rw [if_neg h3]
  by_cases h4 : v = 91
  · subst h4; norm_num
  rw [if_neg h4, if_neg h4, if_neg h3]

theorem line_m (rnd : Int) (n : Numeral) (inch rel : Bool) (doc : Doc) :
    readLine rnd (state inch rel doc) (lineOf 'M' n []) =
      .ok (state inch rel { doc with stitches := doc.stitches ++
        (if n.value = 0 ∨ n.value = 1 then [⟨(lastPos doc.stitches).1, (lastPos doc.stitches).2, 5⟩]
         else if n.value = 2 ∨ n.value = 30 then [⟨(lastPos doc.stitches).1, (lastPos doc.stitches).2, 4⟩] else []) }) := by
  rw [readLine_plain _ _ _ rfl]
  unfold readG
  have hM : 65 ≤ ('M').toNat ∧ ('M').toNat ≤ 90 := by decide
  have hm : ∀ w ∈ ([] : List (Char × Numeral)), Silent w := by simp
  rw [get_one 'M' hM n [] hm 'G' (by simp) "g" (by decide +kernel), if_neg (by decide : ¬ 'M' = 'G')]
  simp only
  unfold readM
  rw [get_one 'M' hM n [] hm 'M' (by simp) "m" (by decide +kernel), if_pos rfl]
  simp only [Except.ok.injEq]
  unfold state RState.add
  generalize n.value = v at *
  by_cases h1 : v = 30 ∨ v = 2
  · rw [if_pos h1]
    rcases h1 with rfl | rfl <;> norm_num <;> rfl
  rw [if_neg h1]
  by_cases h2 : v = 0 ∨ v = 1
  · rw [if_pos h2, if_pos h2]; rfl
  rw [if_neg h2, if_neg h2, if_neg (fun h : v = 2 ∨ v = 30 => h1 h.symm), List.append_nil]

theorem line_word (rnd : Int) (c : Char) (n : Numeral) (h : Silent (c, n)) (more : List (Char × Numeral)) (hm : ∀ w ∈ more, Silent w) (s : RState) :
    readLine rnd s (lineOf c n more) = .ok s := by
  have hk : ∀ k ∈ ['G', 'M', 'X', 'Y'], c ≠ k := fun k hk e => h.2.1 (e ▸ hk)
  rw [readLine_plain _ _ _ rfl]
  unfold readG
  rw [get_one c h.1 n more hm 'G' (by simp) "g" (by decide +kernel), if_neg (hk 'G' (by simp))]
  simp only
  unfold readM
  rw [get_one c h.1 n more hm 'M' (by simp) "m" (by decide +kernel), if_neg (hk 'M' (by simp))]

/-- A remark behind a semicolon. -/
theorem parse_remark (c : Str) (hc : OneLine c) (rest : Bytes) :
    parse {} (utf8 (';' :: c ++ ['\n']) ++ rest) = ({ comment := some (visible c) } :: (parse {} rest).1, (parse {} rest).2) := by
  rw [List.cons_append, utf8_cons, utf8_append, utf8_ascii ';' (by decide), List.append_assoc, List.append_assoc, List.singleton_append]
  have e1 : step {} ((';').toNat : Int) = .ok ({ comment := some [] }, none) := by rfl
  rw [parse_step _ e1, parse_comment_text c hc _ _ [] rfl]
  have e2 : utf8 ['\n'] = [10] := by decide +kernel
  rw [e2, List.nil_append]
  show parse _ (10 :: rest) = _
  have e4 : step { comment := some (visible c) } 10 = .ok ({}, some { comment := some (visible c) }) := by
    show plain { line := { comment := some (visible c) } } 10 = _
    unfold plain
    rw [if_neg (by omega), if_neg (by omega), if_neg (by omega), if_neg (by omega), if_neg (by omega), if_pos (by omega)]
    unfold store
    rw [if_pos rfl]
    simp only [Except.map]
    rw [if_neg (by simp)]
  rw [parse, e4]

theorem line_remark (rnd : Int) (s : RState) (c : Str) (h : ¬ "Thread".toList <:+: visible c) :
    readLine rnd s { comment := some (visible c) } = .ok s := by
  unfold readLine readThread
  simp only
  rw [if_neg h]
  rfl

/-! ## Theorems -/

/-- A design with more stitches. -/
def grown (doc : Doc) (l : List Stitch) : Doc := { doc with stitches := doc.stitches ++ l }

theorem run_program (rnd : Int) (rest : Bytes) (prog : List Instr) (h : ∀ i ∈ prog, i.Good) : ∀ (inch rel : Bool) (doc : Doc),
    (parse {} (utf8 (prog.flatMap Instr.text) ++ rest)).2 = (parse {} rest).2 ∧
    ∃ inch' rel', (parse {} (utf8 (prog.flatMap Instr.text) ++ rest)).1.foldlM (readLine rnd) (state inch rel doc) =
      (parse {} rest).1.foldlM (readLine rnd)
        (state inch' rel' (grown doc (sewn inch rel (lastPos doc.stitches).1 (lastPos doc.stitches).2 prog))) := by
  induction prog with
  | nil =>
    intro inch rel doc
    refine ⟨rfl, inch, rel, ?_⟩
    unfold sewn grown
    rw [List.append_nil]
    rfl
  | cons i prog ih =>
    intro inch rel doc
    have ih := ih (fun a ha => h a (by simp [ha]))
    have hi := h i (by simp)
    rw [List.flatMap_cons, utf8_append, List.append_assoc]
    generalize hR : utf8 (prog.flatMap Instr.text) ++ rest = R at *
    -- one line, and what it does
    have fin : ∀ (l : Line) (inch1 rel1 : Bool) (add : List Stitch) (px py : ℚ),
        parse {} (utf8 i.text ++ R) = (l :: (parse {} R).1, (parse {} R).2) →
        readLine rnd (state inch rel doc) l = .ok (state inch1 rel1 (grown doc add)) →
        lastPos (doc.stitches ++ add) = (px, py) →
        sewn inch rel (lastPos doc.stitches).1 (lastPos doc.stitches).2 (i :: prog) = add ++ sewn inch1 rel1 px py prog →
        (parse {} (utf8 i.text ++ R)).2 = (parse {} rest).2 ∧
        ∃ inch' rel', (parse {} (utf8 i.text ++ R)).1.foldlM (readLine rnd) (state inch rel doc) =
          (parse {} rest).1.foldlM (readLine rnd)
            (state inch' rel' (grown doc (sewn inch rel (lastPos doc.stitches).1 (lastPos doc.stitches).2 (i :: prog)))) := by
      intro l inch1 rel1 add px py hp hl hpos hs
      obtain ⟨j1, inch', rel', j2⟩ := ih inch1 rel1 (grown doc add)
      rw [hp]
      refine ⟨j1, inch', rel', ?_⟩
      rw [List.foldlM_cons, Csv.bind_of hl, j2, hs]
      have e : (grown doc add).stitches = doc.stitches ++ add := rfl
      rw [e, hpos]
      unfold grown
      simp only [List.append_assoc]
    have g0 : grown doc [] = doc := by unfold grown; rw [List.append_nil]
    cases i with
    | move g x y more =>
      obtain ⟨g1, g2, x1, y1, m1⟩ := hi
      refine fin (lineOf 'G' g ([('X', x), ('Y', y)] ++ more)) inch rel _ _ _ ?_ (line_move rnd g x y more g2 m1 inch rel doc) (lastPos_append _ _) rfl
      have := parse_line ('G', g) ([('X', x), ('Y', y)] ++ more) ⟨(by decide : 65 ≤ ('G').toNat ∧ ('G').toNat ≤ 90), g1⟩ (by
        intro w hw
        simp only [List.cons_append, List.nil_append, List.mem_cons] at hw
        rcases hw with rfl | rfl | hw
        · exact ⟨(by decide : 65 ≤ ('X').toNat ∧ ('X').toNat ≤ 90), x1⟩
        · exact ⟨(by decide : 65 ≤ ('Y').toNat ∧ ('Y').toNat ≤ 90), y1⟩
        · exact (m1 w hw).capital) R
      rw [List.flatMap_append] at this
      simp only [List.flatMap_cons, List.flatMap_nil, List.append_nil] at this
      rw [show (wordText ('X', x) ++ wordText ('Y', y)) ++ more.flatMap wordText =
        wordText ('X', x) ++ (wordText ('Y', y) ++ more.flatMap wordText) from List.append_assoc ..] at this
      exact this
    | gcode n =>
      refine fin (lineOf 'G' n []) _ _ [] _ _ ?_ (by rw [g0]; exact line_g rnd n hi.2 [] (by simp) inch rel doc) (by rw [List.append_nil]) rfl
      have := parse_line ('G', n) [] ⟨(by decide : 65 ≤ ('G').toNat ∧ ('G').toNat ≤ 90), hi.1⟩ (by simp) R
      rw [List.flatMap_nil, List.append_nil] at this
      exact this
    | mcode n =>
      refine fin (lineOf 'M' n []) inch rel _ (lastPos doc.stitches).1 (lastPos doc.stitches).2 ?_ (line_m rnd n inch rel doc) ?_ rfl
      · have := parse_line ('M', n) [] ⟨(by decide : 65 ≤ ('M').toNat ∧ ('M').toNat ≤ 90), hi⟩ (by simp) R
        rw [List.flatMap_nil, List.append_nil] at this
        exact this
      · split_ifs
        · exact lastPos_append _ _
        · exact lastPos_append _ _
        · rw [List.append_nil]
    | lift g more =>
      obtain ⟨g1, g2, m1⟩ := hi
      refine fin (lineOf 'G' g more) inch rel [] _ _ ?_ ?_ (by rw [List.append_nil]) rfl
      · exact parse_line ('G', g) more ⟨(by decide : 65 ≤ ('G').toNat ∧ ('G').toNat ≤ 90), g1⟩ (fun w hw => (m1 w hw).capital) R
      · rw [line_g rnd g (by rw [g2]; norm_num) more m1, g2, g0]
        norm_num
    | word c n more =>
      obtain ⟨c1, m1⟩ := hi
      refine fin (lineOf c n more) inch rel [] _ _ ?_ (by rw [g0]; exact line_word rnd c n c1 more m1 _) (by rw [List.append_nil]) rfl
      exact parse_line (c, n) more c1.capital (fun w hw => (m1 w hw).capital) R
    | remark sc c =>
      refine fin { comment := some (visible c) } inch rel [] _ _ ?_ (by rw [g0]; exact line_remark rnd _ c hi.2) (by rw [List.append_nil]) rfl
      cases sc with
      | true => exact parse_remark c hi.1 _
      | false => exact parse_comment c hi.1 _
    | blank =>
      have e2 : utf8 (Instr.text .blank) = [10] := by decide +kernel
      rw [e2]
      have e1 : step {} 10 = .ok ({}, none) := by rfl
      rw [List.singleton_append, parse_step _ e1]
      exact ih inch rel doc
    | mark slash =>
      have e2 : utf8 (Instr.text (.mark slash)) = [if slash then 47 else 32] := by cases slash <;> decide +kernel
      rw [e2]
      have e1 : step {} (if slash then 47 else 32) = .ok ({}, none) := by cases slash <;> rfl
      rw [List.singleton_append, parse_step _ e1]
      exact ih inch rel doc

/-- **C96**: reading a G-code program. Every move becomes a stitch at its coordinates, in the unit and mode set before, turned by half
a turn; `M0` and `M1` become colour changes, `M2` and `M30` ends, both at the place of the needle; other words, heights, remarks and
empty lines leave the design alone. A line with a slash in front of it is obeyed like any other. -/
theorem C96_program (rnd : Int) (prog : List Instr) (h : ∀ i ∈ prog, i.Good) :
    read rnd (utf8 (prog.flatMap Instr.text)) = .ok ⟨sewn false false 0 0 prog, [], []⟩ := by
  obtain ⟨h1, inch', rel', h2⟩ := run_program rnd [] prog h false false {}
  rw [List.append_nil] at h1 h2
  unfold read
  have e : ({} : RState) = state false false {} := rfl
  rw [e, Csv.bind_of h2, h1]
  rfl

/-- A program in inches with relative moves, a pause and an end. -/
def num (a : String) : Numeral := ⟨none, a.toList, none⟩
def numFrac (s : Bool) (a b : String) : Numeral := ⟨some s, a.toList, some b.toList⟩

def demoProg : List Instr :=
  [.remark true "by hand".toList, .gcode (num "20"), .move (num "00") (num "1") (numFrac true "0" "5") [('F', num "300")], .mcode (num "01"),
    .blank, .gcode (num "91"), .lift (num "0") [('Z', numFrac false "2" "0")], .move (num "1") (num "2") (num "0") [], .gcode (num "71"),
    .word 'F' (num "10") [], .mark false, .mark true, .move (num "01") (num "3") (num "4") [], .mcode (num "2")]

example : (demoProg.flatMap Instr.text) =
    ";by hand\nG20\nG00 X1 Y-0.5 F300\nM01\n\nG91\nG0 Z+2.0\nG1 X2 Y0\nG71\nF10\n /G01 X3 Y4\nM2\n".toList := by decide +kernel

example : sewn false false 0 0 demoProg =
    [⟨-254, 127, 0⟩, ⟨-254, 127, 5⟩, ⟨-762, 127, 0⟩, ⟨-792, 87, 0⟩, ⟨-792, 87, 4⟩] := by decide +kernel

instance : DecidablePred Instr.Good := fun i => by
  cases i <;> unfold Instr.Good <;> (try unfold Silent) <;> (try unfold Numeral.Good) <;> (try unfold OneLine) <;> infer_instance

/-- The theorem applies to it. -/
example : read 7 (utf8 (demoProg.flatMap Instr.text)) =
    .ok ⟨[⟨-254, 127, 0⟩, ⟨-254, 127, 5⟩, ⟨-762, 127, 0⟩, ⟨-792, 87, 0⟩, ⟨-792, 87, 4⟩], [], []⟩ :=
  (C96_program 7 demoProg (by decide +kernel)).trans (by decide +kernel)

/-- C96 goes no further: a `G1` without both coordinates makes the reader raise a `KeyError` (`and` binds before `or`). -/
theorem C96_feed_move_fails (rnd : Int) (prog : List Instr) (h : ∀ i ∈ prog, i.Good) (g : Numeral) (hg : g.Good) (h1 : g.value = 1)
    (more : List (Char × Numeral)) (hm : ∀ w ∈ more, Silent w) (rest : Bytes) :
    read rnd (utf8 (prog.flatMap Instr.text) ++ (utf8 ('G' :: g.text ++ more.flatMap wordText ++ ['\n']) ++ rest)) = .error .keyError := by
  generalize hR : utf8 ('G' :: g.text ++ more.flatMap wordText ++ ['\n']) ++ rest = R
  obtain ⟨_, inch', rel', j2⟩ := run_program rnd R prog h false false {}
  unfold read
  have e : ({} : RState) = state false false {} := rfl
  rw [e, j2]
  have hp := parse_line ('G', g) more ⟨(by decide : 65 ≤ ('G').toNat ∧ ('G').toNat ≤ 90), hg⟩ (fun w hw => (hm w hw).capital) rest
  rw [← hR, hp, List.foldlM_cons]
  have hl : ∀ s, readLine rnd s (lineOf 'G' g more) = .error .keyError := by
    intro s
    rw [readLine_plain _ _ _ rfl]
    unfold readG
    have hG : 65 ≤ ('G').toNat ∧ ('G').toNat ≤ 90 := by decide
    rw [get_one 'G' hG g more hm 'G' (by simp) "g" (by decide +kernel), get_one 'G' hG g more hm 'X' (by simp) "x" (by decide +kernel)]
    simp only [if_true]
    rw [if_pos (.inr h1)]
    rfl
  have := hl (state inch' rel' (grown {} (sewn false false (lastPos ({} : Doc).stitches).1 (lastPos ({} : Doc).stitches).2 prog)))
  unfold lineOf at this
  rw [this]
  rfl

/-- **C81**: a written file begins with the number of commands and the number of colour changes of the design, in comments. -/
theorem C81_counts (inc : ℚ) (d : Doc) : ∃ rest, text inc d =
    "(STITCH_COUNT: ".toList ++ dec d.stitches.length ++ ")\n(THREAD_COUNT: ".toList ++
      dec ((d.stitches.filter (fun st => st.cmd % 256 = 5)).length) ++ ")\n".toList ++ rest := by
  have h : countCommands d.stitches COLOR_CHANGE = (d.stitches.filter (fun st => st.cmd % 256 = 5)).length := by
    unfold countCommands
    rw [List.countP_eq_length_filter]
    rfl
  unfold text dataComments
  rw [← h]
  simp only [List.flatMap_append, List.flatMap_cons, List.cons_append, List.nil_append, comment, List.append_assoc]
  exact ⟨_, rfl⟩

end Gcode
end Emb
