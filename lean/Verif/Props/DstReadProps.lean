import Verif.DstRead
import Verif.Props.HeaderProps
import Verif.Props.DstFileProps
import Verif.Props.DstHeaderProps
import Verif.Props.ThreadProps
import Verif.Props.CsvProps

/-!
# Property C77: what the DST header tells the reader
-/

namespace Emb
namespace Dst

/-- A byte of UTF-8 below 128 is the character itself. -/
theorem utf8_small {s : Str} {b : Int} (h : b ∈ utf8 s) (hb : b < 128) : ∃ c ∈ s, (c.toNat : Int) = b := by
  unfold utf8 at h
  obtain ⟨c, hc, h⟩ := List.mem_flatMap.1 h
  obtain ⟨u, hu, rfl⟩ := List.mem_map.1 h
  refine ⟨c, hc, ?_⟩
  have hv : c.val.toNat = c.toNat := rfl
  have hmax : c.toNat < 1114112 := by
    have := c.valid
    rcases this with h | h <;> simp only [Char.toNat] at * <;> omega
  have hx : u.toNat < 128 := by exact_mod_cast hb
  unfold String.utf8EncodeChar at hu
  simp only [hv] at hu
  split_ifs at hu with h1 h2 h3 <;> simp only [List.mem_cons, List.not_mem_nil, or_false] at hu
  · subst hu
    rw [UInt8.toNat_ofNat', Nat.mod_eq_of_lt (by omega)]
  · exfalso; rcases hu with rfl | rfl <;> rw [UInt8.toNat_ofNat'] at hx <;> omega
  · exfalso; rcases hu with rfl | rfl | rfl <;> rw [UInt8.toNat_ofNat'] at hx <;> omega
  · exfalso; rcases hu with rfl | rfl | rfl | rfl <;> rw [UInt8.toNat_ofNat'] at hx <;> omega

/-- Text on one line: no carriage return and no line feed. -/
def OneLine (s : Str) : Prop := '\r' ∉ s ∧ '\n' ∉ s

instance (s : Str) : Decidable (OneLine s) := inferInstanceAs (Decidable (_ ∧ _))

theorem OneLine.bytes {s : Str} (h : OneLine s) : (13 : Int) ∉ utf8 s ∧ (10 : Int) ∉ utf8 s := by
  constructor <;> intro hm
  · obtain ⟨c, hc, e⟩ := utf8_small hm (by decide)
    have : c = '\r' := Char.toNat_inj.1 (by have : c.toNat = 13 := by exact_mod_cast e
                                            rw [this]; rfl)
    exact h.1 (this ▸ hc)
  · obtain ⟨c, hc, e⟩ := utf8_small hm (by decide)
    have : c = '\n' := Char.toNat_inj.1 (by have : c.toNat = 10 := by exact_mod_cast e
                                            rw [this]; rfl)
    exact h.2 (this ▸ hc)

theorem headerLines_plain (cur a rest : Bytes) (h : (13 : Int) ∉ a ∧ (10 : Int) ∉ a) :
    headerLines cur (a ++ rest) = headerLines (cur ++ a) rest := by
  induction a generalizing cur with
  | nil => simp
  | cons x a ih =>
    simp only [List.mem_cons, not_or] at h
    rw [List.cons_append, headerLines, if_neg (by rintro (e | e); exact h.1.1 e.symm; exact h.2.1 e.symm),
      ih _ ⟨h.1.2, h.2.2⟩, List.append_assoc]
    rfl

theorem headerLines_end (cur a : Bytes) (h : (13 : Int) ∉ a ∧ (10 : Int) ∉ a) : headerLines cur a = [] := by
  have := headerLines_plain cur a [] h
  rw [List.append_nil] at this
  rw [this]; rfl

theorem utf8_cr : utf8 ['\r'] = [13] := by decide +kernel

/-- The texts found in lines ended by carriage returns. -/
theorem headerLines_text (ls : List Str) (h : ∀ l ∈ ls, OneLine l) (tail : Bytes)
    (ht : (13 : Int) ∉ tail ∧ (10 : Int) ∉ tail) :
    headerLines (utf8 ['\r']) (utf8 (ls.flatMap (· ++ ['\r'])) ++ tail) = ls.map (fun l => utf8 ('\r' :: l)) := by
  induction ls with
  | nil => exact headerLines_end _ _ ht
  | cons l ls ih =>
    have e : utf8 ((l :: ls).flatMap (· ++ ['\r'])) ++ tail =
        utf8 l ++ (13 :: (utf8 (ls.flatMap (· ++ ['\r'])) ++ tail)) := by
      rw [List.flatMap_cons, utf8_append, utf8_append, utf8_cr]; simp
    rw [e, headerLines_plain _ _ _ (h l (by simp)).bytes, headerLines, if_pos (Or.inl rfl), ← utf8_cr,
      ih (fun a ha => h a (by simp [ha])), ← utf8_append]
    rfl

theorem strip_cr (s : Str) : strip ('\r' :: s) = strip s := by
  unfold strip
  rw [List.dropWhile_cons, if_pos (by decide)]

theorem headerLine_cr (d : Doc) (s : Str) : headerLine d (utf8 ('\r' :: s)) = headerLine d (utf8 s) := by
  unfold headerLine
  rw [decodeUtf8_utf8, decodeUtf8_utf8]
  simp only [strip_cr]

/-- Reading a header made of lines ended by carriage returns: each line in turn. -/
theorem readHeader_lines (ls : List Str) (h : ∀ l ∈ ls, OneLine l) (tail : Bytes) (f : Bytes)
    (ht : (13 : Int) ∉ tail ∧ (10 : Int) ∉ tail) (hf : f.take 512 = utf8 (ls.flatMap (· ++ ['\r'])) ++ tail) :
    readHeader f = ls.foldlM (fun d l => headerLine d (utf8 l)) {} := by
  have key : ∀ (ls : List Str) (d : Doc), (ls.map (fun l => utf8 ('\r' :: l))).foldlM headerLine d =
      ls.foldlM (fun d l => headerLine d (utf8 l)) d := by
    intro ls
    induction ls with
    | nil => intro d; rfl
    | cons l ls ih =>
      intro d
      rw [List.map_cons, List.foldlM_cons, List.foldlM_cons, headerLine_cr]
      exact congrArg _ (funext ih)
  unfold readHeader
  rw [hf]
  rcases ls with _ | ⟨l, ls⟩
  · rw [List.flatMap_nil, show utf8 [] = [] from rfl, List.nil_append, headerLines_end _ _ ht]; rfl
  · have e : utf8 ((l :: ls).flatMap (· ++ ['\r'])) ++ tail =
        utf8 l ++ (13 :: (utf8 (ls.flatMap (· ++ ['\r'])) ++ tail)) := by
      rw [List.flatMap_cons, utf8_append, utf8_append, utf8_cr]; simp
    rw [e, headerLines_plain _ _ _ (h l (by simp)).bytes, headerLines, if_pos (Or.inl rfl), ← utf8_cr,
      headerLines_text ls (fun a ha => h a (by simp [ha])) tail ht, List.foldlM_cons, List.foldlM_cons, List.nil_append]
    exact congrArg _ (funext (key ls))

/-- Blanks at the end removed. -/
def rstrip (s : Str) : Str := (s.reverse.dropWhile isSpace).reverse

theorem rstrip_cons (c : Char) (s : Str) :
    rstrip (c :: s) = if rstrip s = [] then (if isSpace c = true then [] else [c]) else c :: rstrip s := by
  unfold rstrip
  rw [List.reverse_cons, List.dropWhile_append]
  by_cases h : s.reverse.dropWhile isSpace = []
  · rw [if_pos (by rw [h]; rfl), h, List.dropWhile_cons]
    simp only [List.reverse_nil, if_true]
    split_ifs <;> rfl
  · rw [if_neg (by rw [List.isEmpty_iff]; exact h), if_neg (by rw [List.reverse_eq_nil_iff]; exact h), List.reverse_append]
    rfl

theorem strip_eq (s : Str) : strip s = rstrip (s.dropWhile isSpace) := rfl

theorem rstrip_rstrip (s : Str) : rstrip (rstrip s) = rstrip s := by
  induction s with
  | nil => rfl
  | cons c s ih =>
    rw [rstrip_cons c s]
    by_cases h : rstrip s = []
    · rw [if_pos h]
      split_ifs with hc
      · rfl
      · rw [rstrip_cons, if_pos (by rfl), if_neg hc]
    · rw [if_neg h, rstrip_cons, ih, if_neg h]

theorem strip_rstrip (s : Str) : strip (rstrip s) = strip s := by
  induction s with
  | nil => rfl
  | cons c s ih =>
    rw [rstrip_cons c s]
    by_cases hc : isSpace c = true
    · have e : strip (c :: s) = strip s := by unfold strip; rw [List.dropWhile_cons, if_pos hc]
      rw [e, ← ih]
      by_cases h : rstrip s = []
      · rw [if_pos h, if_pos hc, h]
      · rw [if_neg h, strip_eq, List.dropWhile_cons, if_pos hc]; rfl
    · have e : strip (c :: s) = rstrip (c :: s) := by rw [strip_eq, List.dropWhile_cons, if_neg hc]
      rw [e, ← rstrip_cons c s, strip_eq]
      have e2 : (rstrip (c :: s)).dropWhile isSpace = rstrip (c :: s) := by
        rw [rstrip_cons c s]
        split_ifs <;> rw [List.dropWhile_cons, if_neg hc]
      rw [e2, rstrip_rstrip]

/-- A line of two characters, a colon and text that is not blank. -/
theorem headerLine_field (d : Doc) (a b : Char) (w : Str) (ha : isSpace a = false) (hb : isSpace b = false)
    (hw : strip w ≠ []) : headerLine d (utf8 (lineOf a b ':' w)) = headerInfo d [a, b] (strip w) := by
  have hr : rstrip w ≠ [] := by
    intro e
    rw [← strip_rstrip, e] at hw
    exact hw rfl
  have e : strip (lineOf a b ':' w) = a :: b :: ':' :: rstrip w := by
    unfold lineOf
    rw [strip_eq, List.dropWhile_cons, if_neg (by simp [ha]), rstrip_cons, rstrip_cons b, rstrip_cons ':', if_neg hr,
      if_neg (by simp), if_neg (by simp)]
  unfold headerLine
  rw [decodeUtf8_utf8]
  simp only [e]
  have hl : 0 < (rstrip w).length := List.length_pos_iff.2 hr
  rw [if_pos (by simp only [List.length_cons]; omega)]
  simp only [List.take_succ_cons, List.take_zero, List.drop_succ_cons, List.drop_zero]
  rw [strip_self [a, b] (by simp [ha, hb]), strip_rstrip]

theorem strip_last {s : Str} {c : Char} (h : strip s = s) (hl : s.getLast? = some c) : isSpace c = false := by
  rw [← h, strip_eq, rstrip, List.getLast?_reverse] at hl
  have := List.head?_dropWhile_not isSpace (s.dropWhile isSpace).reverse
  rw [hl] at this
  exact this

/-- Text kept by `strip`: it does not begin or end with a blank. -/
theorem strip_ends {s : Str} (h1 : ∀ c, s.head? = some c → isSpace c = false)
    (h2 : ∀ c, s.getLast? = some c → isSpace c = false) : strip s = s := by
  simpa using strip_pad s 0 h1 h2

theorem strip_signText (v : Int) : strip (signText v) = signText v := by
  refine strip_ends ?_ ?_
  · intro c hc
    unfold signText at hc
    rw [List.head?_cons, Option.some.injEq] at hc
    subst hc
    split_ifs <;> decide
  · intro c hc
    unfold signText padLeft at hc
    rw [← List.cons_append, List.getLast?_append_of_ne_nil _ (dec_ne_nil _)] at hc
    exact dec_not_space _ c (List.mem_of_getLast? hc)

theorem strip_dec (w : Nat) (n : Int) : strip (padLeft w (dec n)) = dec n := by
  rw [strip_padLeft, strip_self _ (dec_not_space n)]

/-- The characters of a colour in hex notation. -/
theorem hexColor_chars (t : Thread) : ∀ c ∈ hexColor t, isSpace c = false ∧ c ≠ ',' := by
  have key : ∀ n : Fin 16, isSpace (hexDigit (n.val : Int)) = false ∧ hexDigit (n.val : Int) ≠ ',' := by decide +kernel
  have k : ∀ n : Int, 0 ≤ n → n < 16 → isSpace (hexDigit n) = false ∧ hexDigit n ≠ ',' := by
    intro n h0 h1
    have := key ⟨n.toNat, by omega⟩
    simpa [Int.toNat_of_nonneg h0] using this
  have hr : 0 ≤ t.red ∧ t.red < 256 := by unfold Thread.red; omega
  have hg : 0 ≤ t.green ∧ t.green < 256 := by unfold Thread.green; omega
  have hb : 0 ≤ t.blue ∧ t.blue < 256 := by unfold Thread.blue; omega
  intro c hc
  simp only [hexColor, hex2, List.mem_cons, List.cons_append, List.nil_append, List.not_mem_nil, or_false] at hc
  rcases hc with rfl | rfl | rfl | rfl | rfl | rfl | rfl
  · exact ⟨by decide, by decide⟩
  all_goals exact k _ (by omega) (by omega)

/-- Text of a field: one line, not empty, no blanks at its ends. -/
structure Field (s : Str) : Prop where
  oneLine : OneLine s
  trimmed : strip s = s
  nonempty : s ≠ []

/-- Text of a thread: one line, no blanks at its ends, no comma. -/
structure ThreadText (s : Str) : Prop where
  oneLine : OneLine s
  trimmed : strip s = s
  noComma : ',' ∉ s

/-- The text of a `TC` line. -/
def threadLine (t : Thread) : Str := hexColor t ++ ',' :: (Csv.opt t.description ++ ',' :: Csv.opt t.catalog)

/-- The thread read back from the text of a `TC` line. -/
def textThread (t : Thread) : Thread :=
  { color := t.color % 16777216, description := some (String.ofList (Csv.opt t.description)),
    catalog := some (String.ofList (Csv.opt t.catalog)) }

theorem strip_threadLine (t : Thread) (h : ThreadText (Csv.opt t.catalog)) : strip (threadLine t) = threadLine t := by
  refine strip_ends ?_ ?_
  · intro c hc
    have : c = '#' := by
      unfold threadLine hexColor at hc
      rw [List.cons_append, List.head?_cons, Option.some.injEq] at hc
      exact hc.symm
    subst this
    decide
  · intro c hc
    unfold threadLine at hc
    rw [List.getLast?_append_of_ne_nil _ (by simp), ← List.cons_append, List.getLast?_append_of_ne_nil _ (by simp),
      List.getLast?_cons] at hc
    rcases e : (Csv.opt t.catalog).getLast? with _ | x
    · rw [e] at hc
      simp only [Option.getD_none, Option.some.injEq] at hc
      subst hc; decide
    · rw [e] at hc
      simp only [Option.getD_some, Option.some.injEq] at hc
      exact strip_last h.trimmed (hc ▸ e)

theorem headerInfo_thread (d : Doc) (t : Thread) (h1 : ThreadText (Csv.opt t.description))
    (h2 : ThreadText (Csv.opt t.catalog)) :
    headerInfo d ['T', 'C'] (threadLine t) = .ok { d with threads := d.threads ++ [textThread t] } := by
  unfold headerInfo
  rw [if_neg (by decide +kernel), if_neg (by decide +kernel), if_neg (by decide +kernel), if_pos (by decide +kernel)]
  have e : (splitOn ',' (threadLine t)).map strip = [hexColor t, Csv.opt t.description, Csv.opt t.catalog] := by
    unfold threadLine
    rw [splitOn_append _ _ _ (fun hm => (hexColor_chars t _ hm).2 rfl), splitOn_append _ _ _ h1.noComma,
      splitOn_plain _ _ h2.noComma]
    simp only [List.map_cons, List.map_nil]
    rw [strip_self _ (fun c hc => (hexColor_chars t c hc).1), h1.trimmed, h2.trimmed]
  rw [e]
  simp only [(C42_hex_roundtrip t).1]
  rfl

/-- The lines of the header. -/
def baseLines (i : HeaderInfo) : List Str :=
  [lineOf 'L' 'A' ':' (padRight 16 i.name),
   lineOf 'S' 'T' ':' (padLeft 7 (dec i.stitches)),
   lineOf 'C' 'O' ':' (padLeft 3 (dec i.changes)),
   lineOf '+' 'X' ':' (padLeft 5 (dec (pyInt |i.maxX|))),
   lineOf '-' 'X' ':' (padLeft 5 (dec (pyInt |i.minX|))),
   lineOf '+' 'Y' ':' (padLeft 5 (dec (pyInt |i.maxY|))),
   lineOf '-' 'Y' ':' (padLeft 5 (dec (pyInt |i.minY|))),
   lineOf 'A' 'X' ':' (signText (pyInt i.lastX)),
   lineOf 'A' 'Y' ':' (signText (-pyInt i.lastY)),
   lineOf 'M' 'X' ':' "+    0".toList,
   lineOf 'M' 'Y' ':' "+    0".toList,
   lineOf 'P' 'D' ':' "******".toList]

/-- The further lines of the extended header. -/
def moreLines (author copyright : Option Str) (ts : List Thread) : List Str :=
  author.toList.map (lineOf 'A' 'U' ':') ++ copyright.toList.map (lineOf 'C' 'P' ':') ++
    ts.map (fun t => lineOf 'T' 'C' ':' (threadLine t))

theorem extendedLines_eq (d : Doc) (b : Box) (last : Stitch) : extendedLines (docInfo true d b last) =
    (moreLines (getText "author".toList d.extras) (getText "copyright".toList d.extras) d.threads).flatMap (· ++ ['\r']) := by
  have l1 : "AU:".toList = ['A', 'U', ':'] := by decide +kernel
  have l2 : "CP:".toList = ['C', 'P', ':'] := by decide +kernel
  have l3 : "TC:".toList = ['T', 'C', ':'] := by decide +kernel
  have l4 : ",".toList = [','] := by decide +kernel
  have l8 : "\r".toList = ['\r'] := by decide +kernel
  unfold extendedLines moreLines docInfo
  simp only [if_true, l1, l2, l3, l4, l8, List.flatMap_append]
  refine congrArg₂ _ (congrArg₂ _ ?_ ?_) ?_
  · cases getText "author".toList d.extras <;> simp [lineOf]
  · cases getText "copyright".toList d.extras <;> simp [lineOf]
  · rw [List.flatMap_map, List.flatMap_map]
    congr 1
    funext t
    simp [lineOf, threadLine]

theorem headerText_eq (i : HeaderInfo) : headerText i = (baseLines i).flatMap (· ++ ['\r']) ++ extendedLines i := by
  have a1 : signedLine "AX:".toList (pyInt i.lastX) = lineOf 'A' 'X' ':' (signText (pyInt i.lastX)) ++ ['\r'] :=
    signedLine_eq 'A' 'X' ':' _
  have a2 : signedLine "AY:".toList (-pyInt i.lastY) = lineOf 'A' 'Y' ':' (signText (-pyInt i.lastY)) ++ ['\r'] :=
    signedLine_eq 'A' 'Y' ':' _
  have m1 : "MX:+".toList ++ padLeft 5 (dec 0) ++ "\r".toList = lineOf 'M' 'X' ':' "+    0".toList ++ ['\r'] := by decide +kernel
  have m2 : "MY:+".toList ++ padLeft 5 (dec 0) ++ "\r".toList = lineOf 'M' 'Y' ':' "+    0".toList ++ ['\r'] := by decide +kernel
  have m3 : "PD:".toList ++ padLeft 6 "******".toList ++ "\r".toList = lineOf 'P' 'D' ':' "******".toList ++ ['\r'] := by
    decide +kernel
  have l1 : "LA:".toList = ['L', 'A', ':'] := by decide +kernel
  have l2 : "ST:".toList = ['S', 'T', ':'] := by decide +kernel
  have l3 : "CO:".toList = ['C', 'O', ':'] := by decide +kernel
  have l4 : "+X:".toList = ['+', 'X', ':'] := by decide +kernel
  have l5 : "-X:".toList = ['-', 'X', ':'] := by decide +kernel
  have l6 : "+Y:".toList = ['+', 'Y', ':'] := by decide +kernel
  have l7 : "-Y:".toList = ['-', 'Y', ':'] := by decide +kernel
  have l8 : "\r".toList = ['\r'] := by decide +kernel
  unfold headerText baseLines
  rw [m1, m2, m3]
  simp only [a1, a2, l1, l2, l3, l4, l5, l6, l7, l8]
  simp only [List.flatMap_cons, List.flatMap_nil, lineOf, List.append_assoc, List.cons_append, List.nil_append, List.append_nil]

theorem OneLine.append {a b : Str} (ha : OneLine a) (hb : OneLine b) : OneLine (a ++ b) :=
  ⟨fun h => (List.mem_append.1 h).elim ha.1 hb.1, fun h => (List.mem_append.1 h).elim ha.2 hb.2⟩

theorem OneLine.line {a b : Char} {s : Str} (h : OneLine [a, b, ':']) (hs : OneLine s) : OneLine (lineOf a b ':' s) :=
  OneLine.append h hs

theorem oneLine_replicate (n : Nat) : OneLine (List.replicate n ' ') :=
  ⟨fun h => absurd (List.eq_of_mem_replicate h) (by decide), fun h => absurd (List.eq_of_mem_replicate h) (by decide)⟩

theorem oneLine_dec (n : Int) : OneLine (dec n) := ⟨dec_ne (by decide) (by decide), dec_ne (by decide) (by decide)⟩

theorem oneLine_padLeft (w : Nat) (n : Int) : OneLine (padLeft w (dec n)) := (oneLine_replicate _).append (oneLine_dec n)

theorem oneLine_signText (v : Int) : OneLine (signText v) := by
  unfold signText
  refine OneLine.append (a := [_]) ?_ (oneLine_padLeft _ _)
  split_ifs <;> decide

theorem baseLines_oneLine (i : HeaderInfo) (h : OneLine i.name) : ∀ l ∈ baseLines i, OneLine l := by
  unfold baseLines
  simp only [List.mem_cons, List.not_mem_nil, or_false, forall_eq_or_imp, forall_eq]
  exact ⟨OneLine.line (by decide) (h.append (oneLine_replicate _)), OneLine.line (by decide) (oneLine_padLeft _ _),
    OneLine.line (by decide) (oneLine_padLeft _ _), OneLine.line (by decide) (oneLine_padLeft _ _),
    OneLine.line (by decide) (oneLine_padLeft _ _), OneLine.line (by decide) (oneLine_padLeft _ _),
    OneLine.line (by decide) (oneLine_padLeft _ _), OneLine.line (by decide) (oneLine_signText _),
    OneLine.line (by decide) (oneLine_signText _), by decide +kernel, by decide +kernel, by decide +kernel⟩

theorem hexColor_oneLine (t : Thread) : OneLine (hexColor t) :=
  ⟨fun h => absurd (hexColor_chars t _ h).1 (by decide), fun h => absurd (hexColor_chars t _ h).1 (by decide)⟩

theorem moreLines_oneLine (author copyright : Option Str) (ts : List Thread) (ha : ∀ a ∈ author, Field a)
    (hc : ∀ a ∈ copyright, Field a)
    (ht : ∀ t ∈ ts, ThreadText (Csv.opt t.description) ∧ ThreadText (Csv.opt t.catalog)) :
    ∀ l ∈ moreLines author copyright ts, OneLine l := by
  intro l hl
  unfold moreLines at hl
  rcases List.mem_append.1 hl with hl | hl
  · rcases List.mem_append.1 hl with hl | hl
    · obtain ⟨a, h, rfl⟩ := List.mem_map.1 hl
      exact OneLine.line (by decide) (ha a (Option.mem_toList.1 h)).oneLine
    · obtain ⟨a, h, rfl⟩ := List.mem_map.1 hl
      exact OneLine.line (by decide) (hc a (Option.mem_toList.1 h)).oneLine
  · obtain ⟨t, h, rfl⟩ := List.mem_map.1 hl
    obtain ⟨h1, h2⟩ := ht t h
    refine OneLine.line (by decide) ((hexColor_oneLine t).append (OneLine.append (a := [',']) (by decide) ?_))
    exact h1.oneLine.append (OneLine.append (a := [',']) (by decide) h2.oneLine)

/-- The reader's loop over lines of text. -/
def readLines (d : Doc) (ls : List Str) : Except PyErr Doc := ls.foldlM (fun d l => headerLine d (utf8 l)) d

theorem readLines_cons (d d' : Doc) (a b : Char) (w : Str) (ls : List Str) (ha : isSpace a = false) (hb : isSpace b = false)
    (hw : strip w ≠ []) (h : headerInfo d [a, b] (strip w) = .ok d') :
    readLines d (lineOf a b ':' w :: ls) = readLines d' ls := by
  unfold readLines
  rw [List.foldlM_cons, headerLine_field d a b w ha hb hw, h]; rfl

theorem headerInfo_other (d : Doc) (pre value : Str) (h1 : pre ≠ "LA".toList) (h2 : pre ≠ "AU".toList) (h3 : pre ≠ "CP".toList)
    (h4 : pre ≠ "TC".toList) : headerInfo d pre value = .ok { d with extras := put pre value d.extras } := by
  unfold headerInfo
  rw [if_neg h1, if_neg h2, if_neg h3, if_neg h4]

/-- The entries made from the lines every header has. -/
def baseExtras (i : HeaderInfo) : List (Str × Str) :=
  [("name".toList, i.name), ("ST".toList, dec i.stitches), ("CO".toList, dec i.changes),
   ("+X".toList, dec (pyInt |i.maxX|)), ("-X".toList, dec (pyInt |i.minX|)),
   ("+Y".toList, dec (pyInt |i.maxY|)), ("-Y".toList, dec (pyInt |i.minY|)),
   ("AX".toList, signText (pyInt i.lastX)), ("AY".toList, signText (-pyInt i.lastY)),
   ("MX".toList, "+    0".toList), ("MY".toList, "+    0".toList), ("PD".toList, "******".toList)]

theorem strip_dec_ne (w : Nat) (n : Int) : strip (padLeft w (dec n)) ≠ [] := by rw [strip_dec]; exact dec_ne_nil n

theorem strip_signText_ne (v : Int) : strip (signText v) ≠ [] := by rw [strip_signText]; exact List.cons_ne_nil _ _

theorem headerInfo_new (d : Doc) (a b : Char) (value v : Str) (hv : value = v) (h1 : [a, b] ≠ "LA".toList)
    (h2 : [a, b] ≠ "AU".toList) (h3 : [a, b] ≠ "CP".toList) (h4 : [a, b] ≠ "TC".toList) (h5 : [a, b] ∉ d.extras.map (·.1)) :
    headerInfo d [a, b] value = .ok { d with extras := d.extras ++ [([a, b], v)] } := by
  rw [headerInfo_other d _ _ h1 h2 h3 h4, Csv.put_new _ _ _ h5, hv]

theorem readLines_base (i : HeaderInfo) (hn : Field i.name) (ls : List Str) :
    readLines {} (baseLines i ++ ls) = readLines { extras := baseExtras i } ls := by
  have e0 : strip (padRight 16 i.name) = i.name := by
    unfold padRight
    refine strip_pad _ _ ?_ (fun c hc => strip_last hn.trimmed hc)
    intro c hc
    have := hn.trimmed
    obtain ⟨a, s, e⟩ := List.exists_cons_of_ne_nil hn.nonempty
    rw [e] at hc this
    injection hc with hc
    subst hc
    by_contra hsp
    have h2 : strip (a :: s) = strip s := by
      unfold strip; rw [List.dropWhile_cons, if_pos (by simpa using hsp)]
    have h3 : (strip s).length ≤ s.length := by
      unfold strip
      rw [List.length_reverse]
      refine (List.dropWhile_sublist _).length_le.trans ?_
      rw [List.length_reverse]
      exact (List.dropWhile_sublist _).length_le
    rw [← h2, this, List.length_cons] at h3
    omega
  have n2 : "name".toList = ['n', 'a', 'm', 'e'] := by decide +kernel
  have s1 : strip "+    0".toList = "+    0".toList := by decide +kernel
  have s2 : strip "******".toList = "******".toList := by decide +kernel
  have first : headerInfo {} ['L', 'A'] (strip (padRight 16 i.name)) = .ok { extras := [("name".toList, i.name)] } := by
    rw [e0]; unfold headerInfo; rw [if_pos (by decide +kernel)]; rfl
  unfold baseLines
  simp only [List.cons_append, List.nil_append]
  rw [readLines_cons _ _ _ _ _ _ (by decide) (by decide) (by rw [e0]; exact hn.nonempty) first]
  rw [readLines_cons _ _ _ _ _ _ (by decide) (by decide) (strip_dec_ne _ _) (headerInfo_new _ _ _ _ _ (strip_dec _ _)
    (by decide +kernel) (by decide +kernel) (by decide +kernel) (by decide +kernel) (by simp [n2]))]
  rw [readLines_cons _ _ _ _ _ _ (by decide) (by decide) (strip_dec_ne _ _) (headerInfo_new _ _ _ _ _ (strip_dec _ _)
    (by decide +kernel) (by decide +kernel) (by decide +kernel) (by decide +kernel) (by simp [n2]))]
  rw [readLines_cons _ _ _ _ _ _ (by decide) (by decide) (strip_dec_ne _ _) (headerInfo_new _ _ _ _ _ (strip_dec _ _)
    (by decide +kernel) (by decide +kernel) (by decide +kernel) (by decide +kernel) (by simp [n2]))]
  rw [readLines_cons _ _ _ _ _ _ (by decide) (by decide) (strip_dec_ne _ _) (headerInfo_new _ _ _ _ _ (strip_dec _ _)
    (by decide +kernel) (by decide +kernel) (by decide +kernel) (by decide +kernel) (by simp [n2]))]
  rw [readLines_cons _ _ _ _ _ _ (by decide) (by decide) (strip_dec_ne _ _) (headerInfo_new _ _ _ _ _ (strip_dec _ _)
    (by decide +kernel) (by decide +kernel) (by decide +kernel) (by decide +kernel) (by simp [n2]))]
  rw [readLines_cons _ _ _ _ _ _ (by decide) (by decide) (strip_dec_ne _ _) (headerInfo_new _ _ _ _ _ (strip_dec _ _)
    (by decide +kernel) (by decide +kernel) (by decide +kernel) (by decide +kernel) (by simp [n2]))]
  rw [readLines_cons _ _ _ _ _ _ (by decide) (by decide) (strip_signText_ne _) (headerInfo_new _ _ _ _ _ (strip_signText _)
    (by decide +kernel) (by decide +kernel) (by decide +kernel) (by decide +kernel) (by simp [n2]))]
  rw [readLines_cons _ _ _ _ _ _ (by decide) (by decide) (strip_signText_ne _) (headerInfo_new _ _ _ _ _ (strip_signText _)
    (by decide +kernel) (by decide +kernel) (by decide +kernel) (by decide +kernel) (by simp [n2]))]
  rw [readLines_cons _ _ _ _ _ _ (by decide) (by decide) (by rw [s1]; decide +kernel) (headerInfo_new _ _ _ _ _ s1
    (by decide +kernel) (by decide +kernel) (by decide +kernel) (by decide +kernel) (by simp [n2]))]
  rw [readLines_cons _ _ _ _ _ _ (by decide) (by decide) (by rw [s1]; decide +kernel) (headerInfo_new _ _ _ _ _ s1
    (by decide +kernel) (by decide +kernel) (by decide +kernel) (by decide +kernel) (by simp [n2]))]
  rw [readLines_cons _ _ _ _ _ _ (by decide) (by decide) (by rw [s2]; decide +kernel) (headerInfo_new _ _ _ _ _ s2
    (by decide +kernel) (by decide +kernel) (by decide +kernel) (by decide +kernel) (by simp [n2]))]
  have k1 : "ST".toList = ['S', 'T'] := by decide +kernel
  have k2 : "CO".toList = ['C', 'O'] := by decide +kernel
  have k3 : "+X".toList = ['+', 'X'] := by decide +kernel
  have k4 : "-X".toList = ['-', 'X'] := by decide +kernel
  have k5 : "+Y".toList = ['+', 'Y'] := by decide +kernel
  have k6 : "-Y".toList = ['-', 'Y'] := by decide +kernel
  have k7 : "AX".toList = ['A', 'X'] := by decide +kernel
  have k8 : "AY".toList = ['A', 'Y'] := by decide +kernel
  have k9 : "MX".toList = ['M', 'X'] := by decide +kernel
  have k10 : "MY".toList = ['M', 'Y'] := by decide +kernel
  have k11 : "PD".toList = ['P', 'D'] := by decide +kernel
  unfold baseExtras
  simp only [k1, k2, k3, k4, k5, k6, k7, k8, k9, k10, k11, List.cons_append, List.nil_append]

theorem readLines_threads (d : Doc) (ts : List Thread)
    (ht : ∀ t ∈ ts, ThreadText (Csv.opt t.description) ∧ ThreadText (Csv.opt t.catalog)) :
    readLines d (ts.map (fun t => lineOf 'T' 'C' ':' (threadLine t))) =
      .ok { d with threads := d.threads ++ ts.map textThread } := by
  induction ts generalizing d with
  | nil => rw [List.map_nil, List.map_nil, List.append_nil]; rfl
  | cons t ts ih =>
    obtain ⟨h1, h2⟩ := ht t (by simp)
    have e := strip_threadLine t h2
    rw [List.map_cons, readLines_cons _ _ _ _ _ _ (by decide) (by decide)
      (by rw [e]; unfold threadLine hexColor; simp) (by rw [e]; exact headerInfo_thread d t h1 h2),
      ih _ (fun a ha => ht a (by simp [ha]))]
    simp only [List.map_cons, List.append_assoc, List.singleton_append]

theorem readLines_more (i : HeaderInfo) (author copyright : Option Str) (ts : List Thread) (ha : ∀ a ∈ author, Field a)
    (hc : ∀ a ∈ copyright, Field a)
    (ht : ∀ t ∈ ts, ThreadText (Csv.opt t.description) ∧ ThreadText (Csv.opt t.catalog)) :
    readLines { extras := baseExtras i } (moreLines author copyright ts) =
      .ok { threads := ts.map textThread, extras := baseExtras i ++ author.toList.map (fun a => ("author".toList, a)) ++
              copyright.toList.map (fun a => ("copyright".toList, a)) } := by
  have hb : (baseExtras i).map (·.1) = ["name", "ST", "CO", "+X", "-X", "+Y", "-Y", "AX", "AY", "MX", "MY", "PD"].map
    String.toList := rfl
  have k1 : "author".toList ∉ (baseExtras i).map (·.1) := by rw [hb]; decide +kernel
  have k2 : "copyright".toList ∉ (baseExtras i).map (·.1) := by rw [hb]; decide +kernel
  have k3 : "copyright".toList ≠ "author".toList := by decide +kernel
  have r1 : ∀ (d : Doc) (ls : List Str), "author".toList ∉ d.extras.map (·.1) →
      readLines d (author.toList.map (lineOf 'A' 'U' ':') ++ ls) =
        readLines { d with extras := d.extras ++ author.toList.map (fun a => ("author".toList, a)) } ls := by
    intro d ls hk
    rcases author with _ | a
    · simp
    · have h := ha a rfl
      refine readLines_cons _ _ _ _ _ _ (by decide) (by decide) (by rw [h.trimmed]; exact h.nonempty) ?_
      rw [h.trimmed]
      unfold headerInfo
      rw [if_neg (by decide +kernel), if_pos (by decide +kernel), Csv.put_new _ _ _ hk]
      rfl
  have r2 : ∀ (d : Doc) (ls : List Str), "copyright".toList ∉ d.extras.map (·.1) →
      readLines d (copyright.toList.map (lineOf 'C' 'P' ':') ++ ls) =
        readLines { d with extras := d.extras ++ copyright.toList.map (fun a => ("copyright".toList, a)) } ls := by
    intro d ls hk
    rcases copyright with _ | a
    · simp
    · have h := hc a rfl
      refine readLines_cons _ _ _ _ _ _ (by decide) (by decide) (by rw [h.trimmed]; exact h.nonempty) ?_
      rw [h.trimmed]
      unfold headerInfo
      rw [if_neg (by decide +kernel), if_neg (by decide +kernel), if_pos (by decide +kernel), Csv.put_new _ _ _ hk]
      rfl
  unfold moreLines
  rw [List.append_assoc, r1 _ _ k1, r2 _ _ ?_, readLines_threads _ _ ht]
  · rfl
  · simp only [List.map_append, List.mem_append, not_or]
    refine ⟨k2, ?_⟩
    cases author <;> simp

/-- The lines after those every header has. -/
def docLines (extended : Bool) (d : Doc) : List Str :=
  if extended then moreLines (getText "author".toList d.extras) (getText "copyright".toList d.extras) d.threads else []

theorem docInfo_name (extended : Bool) (d : Doc) (b : Box) (last : Stitch)
    (hn : ∀ a ∈ getText "name".toList d.extras, Field a) : Field (docInfo extended d b last).name := by
    show Field ((getText "name".toList d.extras).getD "Untitled".toList)
    rcases e : getText "name".toList d.extras with _ | a
    · exact ⟨by decide +kernel, by decide +kernel, by decide +kernel⟩
    · exact hn a e

theorem readHeader_doc (extended : Bool) (d : Doc) (b : Box) (last : Stitch) (rest : Bytes)
    (hname : Field (docInfo extended d b last).name) (hmore : ∀ l ∈ docLines extended d, OneLine l)
    (hfit : (utf8 (headerText (docInfo extended d b last))).length ≤ 512) :
    readHeader (header (docInfo extended d b last) ++ rest) =
      readLines { extras := baseExtras (docInfo extended d b last) } (docLines extended d) := by
  have htext : headerText (docInfo extended d b last) =
      (baseLines (docInfo extended d b last) ++ docLines extended d).flatMap (· ++ ['\r']) := by
    rw [headerText_eq, List.flatMap_append]
    congr 1
    cases extended
    · rfl
    · exact extendedLines_eq d b last
  have hone : ∀ l ∈ baseLines (docInfo extended d b last) ++ docLines extended d, OneLine l := by
    intro l hl
    rcases List.mem_append.1 hl with hl | hl
    · exact baseLines_oneLine _ hname.oneLine l hl
    · exact hmore l hl
  generalize hi : docInfo extended d b last = i at *
  let t := utf8 (headerText i)
  have hf : ∃ tail : Bytes, (header i ++ rest).take 512 = t ++ tail ∧ (13 : Int) ∉ tail ∧ (10 : Int) ∉ tail := by
    let u : Bytes := [0x1a] ++ List.replicate (512 - (t.length + 1)) 0x20
    have hu : (13 : Int) ∉ u ∧ (10 : Int) ∉ u := by
      constructor <;> intro h <;> rcases List.mem_append.1 h with h | h
      · revert h; decide
      · exact absurd (List.eq_of_mem_replicate h) (by decide)
      · revert h; decide
      · exact absurd (List.eq_of_mem_replicate h) (by decide)
    have hlen : 512 - t.length ≤ u.length := by simp [u]; omega
    refine ⟨u.take (512 - t.length), ?_, fun h => hu.1 (List.mem_of_mem_take h), fun h => hu.2 (List.mem_of_mem_take h)⟩
    have e : header i ++ rest = t ++ (u ++ rest) := by unfold header; simp only [t, u, List.append_assoc]
    rw [e, List.take_append, List.take_of_length_le hfit, List.take_append_of_le_length hlen]
  obtain ⟨tail, hf, h13, h10⟩ := hf
  rw [readHeader_lines _ hone tail _ ⟨h13, h10⟩ (by rw [hf, ← htext])]
  exact readLines_base i hname _

theorem readHeader_ok (extended : Bool) (d : Doc) (b : Box) (last : Stitch) (rest : Bytes)
    (hn : ∀ a ∈ getText "name".toList d.extras, Field a) (ha : ∀ a ∈ getText "author".toList d.extras, Field a)
    (hc : ∀ a ∈ getText "copyright".toList d.extras, Field a)
    (ht : ∀ t ∈ d.threads, ThreadText (Csv.opt t.description) ∧ ThreadText (Csv.opt t.catalog))
    (hfit : (utf8 (headerText (docInfo extended d b last))).length ≤ 512) :
    readHeader (header (docInfo extended d b last) ++ rest) = .ok
      { stitches := []
        threads := if extended then d.threads.map (fun t => ⟨t.color % 16777216, some ((t.description).getD "None"),
          some ((t.catalog).getD "None"), none, none, none, none⟩) else []
        extras := baseExtras (docInfo extended d b last) ++
          (if extended then (getText "author".toList d.extras).toList.map (fun a => ("author".toList, a)) ++
            (getText "copyright".toList d.extras).toList.map (fun a => ("copyright".toList, a)) else []) } := by
  have hname := docInfo_name extended d b last hn
  have hth : d.threads.map textThread = d.threads.map (fun t => ⟨t.color % 16777216, some ((t.description).getD "None"),
      some ((t.catalog).getD "None"), none, none, none, none⟩) := by
    have o : ∀ s : Option String, String.ofList (Csv.opt s) = s.getD "None" := by
      intro s
      cases s with
      | none => decide +kernel
      | some s => exact String.ofList_toList
    refine List.map_congr_left (fun t _ => ?_)
    unfold textThread
    rw [o, o]
  rw [readHeader_doc extended d b last rest hname ?_ hfit, ← hth]
  · cases extended
    · exact congrArg Except.ok (by simp only [Bool.false_eq_true, if_false, List.append_nil])
    · refine (readLines_more _ _ _ d.threads ha hc ht).trans ?_
      rw [List.append_assoc]
      rfl
  · cases extended
    · exact fun l hl => absurd hl List.not_mem_nil
    · exact moreLines_oneLine _ _ _ ha hc ht

/-- **C77**: the header of a design whose texts fit is read back as what was written: the name (`Untitled` if it has none),
the numbers as text and, from an extended header, the author, the copyright notice and for each thread its 24-bit colour,
description and catalogue number. Nothing else is in the header. The bytes after it do not matter. -/
theorem C77_header (extended : Bool) (d : Doc) (b : Box) (last : Stitch) (rest : Bytes)
    (hn : ∀ a ∈ getText "name".toList d.extras, Field a) (ha : ∀ a ∈ getText "author".toList d.extras, Field a)
    (hc : ∀ a ∈ getText "copyright".toList d.extras, Field a)
    (ht : ∀ t ∈ d.threads, ThreadText (Csv.opt t.description) ∧ ThreadText (Csv.opt t.catalog))
    (hfit : (utf8 (headerText (docInfo extended d b last))).length ≤ 512) :
    readHeader (header (docInfo extended d b last) ++ rest) = .ok
      { stitches := []
        threads := if extended then d.threads.map (fun t => ⟨t.color % 16777216, some ((t.description).getD "None"),
          some ((t.catalog).getD "None"), none, none, none, none⟩) else []
        extras :=
          [("name".toList, (getText "name".toList d.extras).getD "Untitled".toList),
           ("ST".toList, dec d.stitches.length), ("CO".toList, dec (d.stitches.countP (fun a => a.low = 5))),
           ("+X".toList, dec (pyInt |b.maxX|)), ("-X".toList, dec (pyInt |b.minX|)),
           ("+Y".toList, dec (pyInt |b.maxY|)), ("-Y".toList, dec (pyInt |b.minY|)),
           ("AX".toList, signText (pyInt last.x)), ("AY".toList, signText (-pyInt last.y)),
           ("MX".toList, "+    0".toList), ("MY".toList, "+    0".toList), ("PD".toList, "******".toList)] ++
          (if extended then (getText "author".toList d.extras).toList.map (fun a => ("author".toList, a)) ++
            (getText "copyright".toList d.extras).toList.map (fun a => ("copyright".toList, a)) else []) } := by
  have hcount : countCommands d.stitches COLOR_CHANGE = d.stitches.countP (fun a => a.low = 5) := by
    unfold countCommands
    exact List.countP_congr (fun a _ => by simp [Stitch.low, cmdOf, COLOR_CHANGE]; exact decide_eq_true_iff.symm)
  rw [readHeader_ok extended d b last rest hn ha hc ht hfit, ← hcount]
  rfl

theorem getText_none (k : Str) (l : List (Str × Str)) (h : k ∉ l.map (·.1)) : getText k l = none := by
  unfold getText
  rw [List.find?_eq_none.2 (fun p hp => by simpa using fun e => h (List.mem_map.2 ⟨p, hp, e⟩))]
  rfl

theorem getText_right (k : Str) (l m : List (Str × Str)) (h : k ∉ l.map (·.1)) : getText k (l ++ m) = getText k m := by
  unfold getText
  rw [List.find?_append, List.find?_eq_none.2 (fun p hp => by simpa using fun e => h (List.mem_map.2 ⟨p, hp, e⟩))]
  rfl

theorem getText_toList (k : Str) (o : Option Str) (m : List (Str × Str)) (h : k ∉ m.map (·.1)) :
    getText k (o.toList.map (fun a => (k, a)) ++ m) = o := by
  cases o with
  | none => exact getText_none k m h
  | some a =>
    unfold getText
    simp

theorem baseExtras_keys (i : HeaderInfo) : (∀ m, getText "name".toList (baseExtras i ++ m) = some i.name) ∧
    "author".toList ∉ (baseExtras i).map (·.1) ∧ "copyright".toList ∉ (baseExtras i).map (·.1) := by
  have hb : (baseExtras i).map (·.1) = ["name", "ST", "CO", "+X", "-X", "+Y", "-Y", "AX", "AY", "MX", "MY", "PD"].map
    String.toList := rfl
  refine ⟨fun m => ?_, by rw [hb]; decide +kernel, by rw [hb]; decide +kernel⟩
  unfold getText baseExtras
  rw [List.cons_append, List.find?_cons_of_pos (by simp)]
  rfl

/-- **C77** on whole files: a design encoded for DST and written with texts that fit in the header is read back with its name,
its threads and other texts (extended header), and sews the same stitches at the same places. -/
theorem C77_file {o : Settings} {lm : Libm} {threads : List Thread} {source out : List Stitch} {ths : List (Option Thread)}
    (hlm : lm.Sound) (hv : o.ValidSequins) (hr : o.round = true)
    (h1 : o.maxStitch = some 121) (h2 : o.maxJump = some 121) (h3 : o.longStitch = 0xF1 ∨ o.longStitch = 0xF2)
    (hcc : o.changeCommand ≠ 9)
    (hq : ∀ st ∈ source, st.low ≠ 0xD5 ∧ st.low ≠ 0xD6 ∧ st.low ≠ 0xF0 ∧ st.low ≠ 11 ∧ st.low ≠ 12)
    (h : encode o lm threads source = .ok (out, ths)) (t ta : Int) (dist : Option ℚ) (clipping extended : Bool)
    (ts : List Thread) (extras : List (Str × Str))
    (hn : ∀ a ∈ getText "name".toList extras, Field a) (ha : ∀ a ∈ getText "author".toList extras, Field a)
    (hc : ∀ a ∈ getText "copyright".toList extras, Field a)
    (ht : ∀ t ∈ ts, ThreadText (Csv.opt t.description) ∧ ThreadText (Csv.opt t.catalog))
    (hfit : ∀ b last, bounds out = some b → out.getLast? = some last →
      (utf8 (headerText (docInfo extended ⟨out, ts, extras⟩ b last))).length < 512) :
    ∃ f r, writeDoc extended t ⟨out, ts, extras⟩ = .ok f ∧ readDoc ta dist clipping f = .ok r ∧
      sewn r.stitches = sewn (place 0 0 (deltas 0 0 out)) ∧
      getText "name".toList r.extras = some ((getText "name".toList extras).getD "Untitled".toList) ∧
      (extended = true → getText "author".toList r.extras = getText "author".toList extras ∧
        getText "copyright".toList r.extras = getText "copyright".toList extras ∧
        r.threads.map (fun a => (a.color, a.description, a.catalog)) =
          ts.map (fun a => (a.color % 16777216, some (a.description.getD "None"), some (a.catalog.getD "None")))) ∧
      (extended = false → getText "author".toList r.extras = none ∧ getText "copyright".toList r.extras = none ∧
        r.threads = []) := by
  obtain ⟨body, hbody, hread⟩ := C06_roundtrip_partial hlm hv hr h1 h2 h3 hcc hq h t
  obtain ⟨l, e, he, -⟩ := C20_single_end hv h
  have hne : out ≠ [] := by rw [he]; simp
  obtain ⟨b, hb, -⟩ := C43_tight out hne
  obtain ⟨last, hlast⟩ : ∃ last, out.getLast? = some last := ⟨_, List.getLast?_eq_getLast_of_ne_nil hne⟩
  have fit := hfit b last hb hlast
  have hl : (header (docInfo extended ⟨out, ts, extras⟩ b last)).length = 512 := by rw [header_length]; omega
  obtain ⟨r, hr0, hx, hth⟩ : ∃ r, readHeader (header (docInfo extended ⟨out, ts, extras⟩ b last) ++ body) = .ok r ∧
      r.extras = baseExtras (docInfo extended ⟨out, ts, extras⟩ b last) ++
        (if extended then (getText "author".toList extras).toList.map (fun a => ("author".toList, a)) ++
          (getText "copyright".toList extras).toList.map (fun a => ("copyright".toList, a)) else []) ∧
      r.threads = if extended then ts.map (fun t => ⟨t.color % 16777216, some ((t.description).getD "None"),
          some ((t.catalog).getD "None"), none, none, none, none⟩) else [] := by
    exact ⟨_, readHeader_ok extended ⟨out, ts, extras⟩ b last body hn ha hc ht (by omega), rfl, rfl⟩
  obtain ⟨k0, k1, k2⟩ := baseExtras_keys (docInfo extended ⟨out, ts, extras⟩ b last)
  generalize hH : header (docInfo extended ⟨out, ts, extras⟩ b last) = H at hl hr0
  have hw : writeDoc extended t ⟨out, ts, extras⟩ = .ok (H ++ body) := by
    unfold writeDoc
    simp only [hb, hlast, hbody]
    rw [← hH]; rfl
  have hrd : readDoc ta dist clipping (H ++ body) = .ok ⟨read ta dist clipping (H ++ body), r.threads, r.extras⟩ := by
    unfold readDoc
    rw [hr0]; rfl
  refine ⟨_, _, hw, hrd, hread H hl ta dist clipping, ?_, ?_, ?_⟩
  · show getText "name".toList r.extras = _
    rw [hx, k0]
    rfl
  · intro he
    subst he
    simp only [hx, hth, if_true]
    refine ⟨?_, ?_, ?_⟩
    · rw [getText_right _ _ _ k1, getText_toList]
      simp
    · rw [getText_right _ _ _ k2, getText_right _ _ _ (by simp), ← List.append_nil (List.map _ _), getText_toList]
      exact List.not_mem_nil
    · rw [List.map_map]; rfl
  · intro he
    subst he
    simp only [hx, hth, Bool.false_eq_true, if_false, List.append_nil]
    exact ⟨getText_none _ _ k1, getText_none _ _ k2, trivial⟩

/-- A design with texts. -/
def textDoc : Doc where
  stitches := [⟨0, 0, 0⟩, ⟨10, -5, 5⟩, ⟨10, -5, 4⟩]
  threads := [{ color := 0xFF0000, description := some "red", catalog := some "12" }, { color := 0xFF }]
  extras := [("author".toList, "Ana".toList), ("name".toList, "Rosé".toList)]

instance (s : Str) : Decidable (Field s) :=
  decidable_of_iff (OneLine s ∧ strip s = s ∧ s ≠ []) ⟨fun h => ⟨h.1, h.2.1, h.2.2⟩, fun h => ⟨h.1, h.2, h.3⟩⟩

instance (s : Str) : Decidable (ThreadText s) :=
  decidable_of_iff (OneLine s ∧ strip s = s ∧ ',' ∉ s) ⟨fun h => ⟨h.1, h.2.1, h.2.2⟩, fun h => ⟨h.1, h.2, h.3⟩⟩

example : bounds textDoc.stitches = some ⟨0, -5, 10, 0⟩ ∧
    (∀ a ∈ getText "name".toList textDoc.extras, Field a) ∧ (∀ a ∈ getText "author".toList textDoc.extras, Field a) ∧
    (∀ a ∈ getText "copyright".toList textDoc.extras, Field a) ∧
    (∀ t ∈ textDoc.threads, ThreadText (Csv.opt t.description) ∧ ThreadText (Csv.opt t.catalog)) ∧
    (utf8 (headerText (docInfo true textDoc ⟨0, -5, 10, 0⟩ ⟨10, -5, 4⟩))).length < 512 := by
  refine ⟨by decide +kernel, ?_, ?_, ?_, by decide +kernel, by decide +kernel⟩
  · intro a h
    rw [show getText "name".toList textDoc.extras = some "Rosé".toList by decide +kernel] at h
    injection h with h
    subst h
    decide +kernel
  · intro a h
    rw [show getText "author".toList textDoc.extras = some "Ana".toList by decide +kernel] at h
    injection h with h
    subst h
    decide +kernel
  · intro a h
    rw [show getText "copyright".toList textDoc.extras = none by decide +kernel] at h
    cases h

/-- A thread whose description has a comma. -/
def commaThread : Thread := { color := 0xFF0000, description := some "red, dark", catalog := some "12" }

/-- A design with that thread. -/
def commaDoc : Doc := ⟨[⟨0, 0, 0⟩, ⟨10, 0, 4⟩], [commaThread], []⟩

/-- What the reader makes of that thread. -/
def commaRead : Thread := { color := 0xFF0000, description := some "red", catalog := some "dark" }

/-- The text after the comma of a description is taken for the catalogue number, and the catalogue number is lost. -/
theorem C77_comma_fails : ∃ (d : Doc) (b : Box) (last : Stitch), bounds d.stitches = some b ∧
    d.threads.map (fun t => (t.description, t.catalog)) = [(some "red, dark", some "12")] ∧
    ∀ rest, ∃ r, readHeader (header (docInfo true d b last) ++ rest) = .ok r ∧
      r.threads.map (fun t => (t.description, t.catalog)) = [(some "red", some "dark")] := by
  refine ⟨commaDoc, ⟨0, 0, 10, 0⟩, ⟨10, 0, 4⟩, by decide +kernel, by decide +kernel, fun rest => ?_⟩
  have hn : ∀ a ∈ getText "name".toList commaDoc.extras, Field a := by
    rw [show getText "name".toList commaDoc.extras = none by decide +kernel]
    intro a h
    cases h
  rw [readHeader_doc _ _ _ _ _ (docInfo_name _ _ _ _ hn) (by decide +kernel) (by decide +kernel)]
  let base := baseExtras (docInfo true commaDoc ⟨0, 0, 10, 0⟩ ⟨10, 0, 4⟩)
  have hl : docLines true commaDoc = [lineOf 'T' 'C' ':' (threadLine commaThread)] := by decide +kernel
  have step := readLines_cons { extras := base } { threads := [commaRead], extras := base } 'T' 'C' (threadLine commaThread) []
    (by decide) (by decide) (by decide +kernel) (by decide +kernel)
  rw [hl, step]
  exact ⟨_, rfl, by decide +kernel⟩

end Dst
end Emb
