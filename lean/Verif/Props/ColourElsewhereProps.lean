import Verif.Props.ColorFileProps
import Verif.Props.PmvProps
import Verif.Props.RecordProps

/-!
# C127: colour files and PMV files that another program wrote
-/

namespace Emb

/-! ## EDR -/

/-- **C127** for EDR: three bytes for red, green and blue, and one of any content. -/
theorem C127_edr (l : List (Int × Int × Int × Int)) :
    Edr.read (l.flatMap (fun c => [c.1, c.2.1, c.2.2.1, c.2.2.2])) = l.map (fun c => { color := colorRgb c.1 c.2.1 c.2.2.1 }) := by
  induction l with
  | nil => rfl
  | cons c l ih =>
    rw [List.flatMap_cons, List.map_cons, ← ih]
    rfl

example : Edr.read ([(255, 0, 16, 7), (1, 2, 3, 0)].flatMap (fun c : Int × Int × Int × Int => [c.1, c.2.1, c.2.2.1, c.2.2.2])) =
    [{ color := 0xFF0010 }, { color := 0x010203 }] := by rw [C127_edr]; decide +kernel

/-! ## INF -/

namespace Inf

/-- What follows the colour of a record. -/
inductive Tail where
  | none (u : Bytes)
  | one (description : Str) (u : Bytes)
  | two (description chart : Str) (u : Bytes)

/-- Each text is closed by a zero byte; `u` is anything without one, or anything at all behind two texts. -/
def Tail.bytes : Tail → Bytes
  | .none u => u
  | .one d u => utf8 d ++ 0 :: u
  | .two d c u => utf8 d ++ 0 :: (utf8 c ++ 0 :: u)

def Tail.Fits : Tail → Prop
  | .none u => (0 : Int) ∉ u
  | .one d u => '\x00' ∉ d ∧ (0 : Int) ∉ u
  | .two d c _ => '\x00' ∉ d ∧ '\x00' ∉ c

def Tail.description : Tail → Option String
  | .none _ => Option.none
  | .one d _ | .two d _ _ => some (String.ofList d)

def Tail.chart : Tail → Option String
  | .none _ | .one _ _ => Option.none
  | .two _ c _ => some (String.ofList c)

/-- A record: its number, the colour, the needle, texts. -/
structure Entry where
  number : Int × Int
  red : Int
  green : Int
  blue : Int
  needle : Int × Int
  tail : Tail

/-- The length counts the bytes of the record with the length itself. -/
def Entry.bytes (e : Entry) : Bytes :=
  writeInt16be (9 + e.tail.bytes.length) ++
    ([e.number.1, e.number.2, e.red, e.green, e.blue, e.needle.1, e.needle.2] ++ e.tail.bytes)

def Entry.Fits (e : Entry) : Prop := e.tail.Fits ∧ 9 + e.tail.bytes.length < 65536

def Entry.thread (e : Entry) : Thread :=
  { color := colorRgb e.red e.green e.blue, description := e.tail.description, chart := e.tail.chart }

theorem utf8_no_nul (s : Str) (h : '\x00' ∉ s) : (0 : Int) ∉ utf8 s := by
  unfold utf8
  simp only [List.mem_map, List.mem_flatMap, not_exists, not_and]
  intro c hc b hb e
  have hcn : c ≠ '\x00' := fun q => h (q ▸ hc)
  have e : b.toNat = 0 := by exact_mod_cast e
  have hv : c.val.toNat ≠ 0 := fun q => hcn (Char.toNat_inj.1 q)
  unfold String.utf8EncodeChar at hb
  simp only at hb
  split_ifs at hb with h1 h2 h3 <;> simp only [List.mem_cons, List.not_mem_nil, or_false] at hb
  · rw [hb, UInt8.toNat_ofNat'] at e; omega
  · rcases hb with rfl | rfl <;> rw [UInt8.toNat_ofNat'] at e <;> omega
  · rcases hb with rfl | rfl | rfl <;> rw [UInt8.toNat_ofNat'] at e <;> omega
  · rcases hb with rfl | rfl | rfl | rfl <;> rw [UInt8.toNat_ofNat'] at e <;> omega

theorem texts_tail (t : Tail) (h : t.Fits) : texts t.bytes = .ok (t.description, t.chart) := by
  unfold texts
  cases t with
  | none u => rw [Tail.bytes, cut_none h]; rfl
  | one d u =>
    rw [Tail.bytes, cut_append _ _ (utf8_no_nul _ h.1)]
    simp only [decodeText_utf8, bind, Except.bind, cut_none h.2]
    rfl
  | two d c u =>
    rw [Tail.bytes, cut_append _ _ (utf8_no_nul _ h.1)]
    simp only [decodeText_utf8, bind, Except.bind, cut_append _ u (utf8_no_nul _ h.2)]
    rfl

theorem readRecords_entries (l : List Entry) (h : ∀ e ∈ l, e.Fits) (s : Bytes) :
    readRecords l.length (l.flatMap Entry.bytes ++ s) = .ok (l.map Entry.thread) := by
  induction l with
  | nil => rfl
  | cons e l ih =>
    obtain ⟨h1, h2⟩ := h e (by simp)
    rw [List.flatMap_cons, List.length_cons, List.append_assoc]
    generalize hn : e.tail.bytes = T at *
    generalize hR : l.flatMap Entry.bytes ++ s = R at *
    have eq : e.bytes ++ R = lo8 (shr (9 + T.length) 8) :: lo8 (shr (9 + T.length) 0) ::
        (([e.number.1, e.number.2, e.red, e.green, e.blue, e.needle.1, e.needle.2] ++ T) ++ R) := by
      unfold Entry.bytes; rw [hn]; rfl
    have len : lo8 (lo8 (shr (9 + T.length) 0)) + lo8 (lo8 (shr (9 + T.length) 8)) * 2 ^ 8 - 2 = (7 + T.length : Nat) := by
      simp only [lo8, shr]
      push_cast
      omega
    rw [eq, readRecords]
    simp only [len]
    rw [if_neg (by simp only [List.length_append, List.length_cons, List.length_nil]; push_cast; omega)]
    have tk : ([e.number.1, e.number.2, e.red, e.green, e.blue, e.needle.1, e.needle.2] ++ T).length = ((7 + T.length : Nat) : Int).toNat := by
      simp only [List.length_append, List.length_cons, List.length_nil]; omega
    rw [List.take_left' tk, List.drop_left' tk]
    simp only [List.cons_append, List.nil_append, List.drop_succ_cons, List.drop_zero]
    rw [← hn, texts_tail _ h1, ih (fun a ha => h a (by simp [ha]))]
    rfl

end Inf

/-- **C127** for INF: twelve bytes, the number of records, the records, anything behind them. -/
theorem C127_inf (u : Bytes) (hu : u.length = 12) (l : List Inf.Entry) (hl : l.length < 2 ^ 32) (h : ∀ e ∈ l, e.Fits) (s : Bytes) :
    Inf.read (u ++ (writeInt32be l.length ++ (l.flatMap Inf.Entry.bytes ++ s))) = .ok (l.map Inf.Entry.thread) := by
  unfold Inf.read
  have d16 : (u ++ (writeInt32be l.length ++ (l.flatMap Inf.Entry.bytes ++ s))).drop 16 = l.flatMap Inf.Entry.bytes ++ s := by
    rw [← List.append_assoc]
    exact List.drop_left' (by rw [List.length_append, hu]; rfl)
  have r : (readInt32be (writeInt32be l.length ++ (l.flatMap Inf.Entry.bytes ++ s))).1 = some (l.length : Int) := by
    simp only [writeInt32be, List.cons_append, List.nil_append, readInt32be, readN, List.take, lo8, shr]
    congr 1
    omega
  rw [List.drop_left' hu, r, d16]
  simp only [Int.toNat_natCast]
  exact Inf.readRecords_entries l h s

/-- A description that is not ASCII and a record without texts. -/
def Inf.demo : List Inf.Entry :=
  [⟨(0, 0), 255, 0, 16, (0, 1), .two "Grün".toList "Isacord".toList [5, 0, 7]⟩, ⟨(9, 9), 1, 2, 3, (8, 8), .none [65, 66]⟩,
   ⟨(0, 2), 4, 5, 6, (0, 3), .one "Blau".toList []⟩]

example : Inf.read (List.replicate 12 77 ++ (writeInt32be Inf.demo.length ++ (Inf.demo.flatMap Inf.Entry.bytes ++ [1, 2]))) =
    .ok [{ color := 0xFF0010, description := some "Grün", chart := some "Isacord" }, { color := 0x010203 },
      { color := 0x040506, description := some "Blau" }] := by
  rw [C127_inf _ rfl _ (by decide)]
  · decide +kernel
  · intro e he
    simp only [Inf.demo, List.mem_cons, List.not_mem_nil, or_false] at he
    rcases he with rfl | rfl | rfl <;> exact ⟨by simp [Inf.Tail.Fits] <;> decide, by decide +kernel⟩

/-! ## COL -/

namespace Col

/-- A line: catalogue number, red, green, blue, perhaps more behind another comma, and the line end. -/
structure Line where
  catalog : Str
  red : Int
  green : Int
  blue : Int
  more : Option Str
  cr : Bool

def Line.words (l : Line) : Str :=
  l.catalog ++ ',' :: (dec l.red ++ ',' :: (dec l.green ++ ',' :: (dec l.blue ++ (l.more.map (fun m => ',' :: m)).getD [])))

def Line.text (l : Line) : Str := l.words ++ (if l.cr then ['\r', '\n'] else ['\n'])

def Line.Fits (l : Line) : Prop :=
  (',' ∉ l.catalog ∧ '\r' ∉ l.catalog ∧ '\n' ∉ l.catalog) ∧ ∀ m, l.more = some m → '\r' ∉ m ∧ '\n' ∉ m

def Line.thread (l : Line) : Thread := { color := colorRgb l.red l.green l.blue, catalog := some (String.ofList l.catalog) }

theorem textMode_end (w : Str) (cr : Bool) (s : Str) (h : '\r' ∉ w) :
    textMode (w ++ (if cr then ['\r', '\n'] else ['\n']) ++ s) = w ++ '\n' :: textMode s := by
  cases cr with
  | true => rw [if_pos rfl, List.append_assoc]; exact textMode_line w s h
  | false =>
    rw [if_neg (by decide), List.append_assoc]
    induction w with
    | nil => rfl
    | cons c w ih =>
      simp only [List.mem_cons, not_or] at h
      have := ih h.2
      show textMode (c :: (w ++ (['\n'] ++ s))) = c :: (w ++ '\n' :: textMode s)
      rw [← this, textMode]
      · intro t e; exact absurd e.symm h.1
      · intro e; exact absurd e.symm h.1

theorem words_no (l : Line) (h : l.Fits) : '\r' ∉ l.words ∧ '\n' ∉ l.words := by
  have hr : ∀ n, '\r' ∉ dec n := fun n => dec_ne (by decide) (by decide)
  have hn : ∀ n, '\n' ∉ dec n := fun n => dec_ne (by decide) (by decide)
  obtain ⟨⟨_, h1, h2⟩, h3⟩ := h
  unfold Line.words
  cases hm : l.more with
  | none => simp [hr, hn, h1, h2]
  | some m => obtain ⟨a, b⟩ := h3 m hm; simp [hr, hn, h1, h2, a, b]

theorem readThread_words (l : Line) (h : l.Fits) : readThread (l.words ++ ['\n']) = .ok l.thread := by
  have hc : ∀ n, ',' ∉ dec n := fun n => dec_ne (by decide) (by decide)
  unfold readThread Line.words
  cases hm : l.more with
  | none =>
    simp only [Option.map_none, Option.getD_none, List.append_nil, List.append_assoc, List.cons_append]
    rw [splitOn_append _ _ _ h.1.1, splitOn_append _ _ _ (hc _), splitOn_append _ _ _ (hc _), splitOn_plain _ _ (by simp [hc])]
    simp only [parseInt_dec, parseInt_newline]
    rfl
  | some m =>
    simp only [Option.map_some, Option.getD_some, List.append_assoc, List.cons_append]
    rw [splitOn_append _ _ _ h.1.1, splitOn_append _ _ _ (hc _), splitOn_append _ _ _ (hc _), splitOn_append _ _ _ (hc _)]
    simp only [parseInt_dec]
    rfl

theorem readThreads_text (l : List Line) (h : ∀ e ∈ l, e.Fits) (s : Str) :
    readThreads l.length (textMode (l.flatMap Line.text ++ s)) = .ok (l.map Line.thread) := by
  induction l with
  | nil => rfl
  | cons e l ih =>
    have he := h e (by simp)
    obtain ⟨n1, n2⟩ := words_no e he
    rw [List.flatMap_cons, List.append_assoc, Line.text, textMode_end _ _ _ n1, List.length_cons, readThreads, readline_append _ _ n2]
    simp only [readThread_words e he, ih (fun a ha => h a (by simp [ha]))]
    rfl

end Col

/-- **C127** for COL: the number of lines, with either line end, the lines, anything behind them. -/
theorem C127_col (l : List Col.Line) (h : ∀ e ∈ l, e.Fits) (cr : Bool) (s : Str) :
    Col.read (dec l.length ++ (if cr then ['\r', '\n'] else ['\n']) ++ (l.flatMap Col.Line.text ++ s)) = .ok (l.map Col.Line.thread) := by
  unfold Col.read
  rw [Col.textMode_end _ _ _ (dec_ne (by decide) (by decide)), readline_append _ _ (dec_ne (by decide) (by decide))]
  simp only [parseInt_newline]
  exact Col.readThreads_text l h s

/-- Words instead of numbers in front, a fifth column, both line ends. -/
def Col.demo : List Col.Line :=
  [⟨"red 7".toList, 255, 0, 16, some "x,y".toList, true⟩, ⟨[], 1, 2, 3, none, false⟩]

example : Col.read (dec Col.demo.length ++ ['\n'] ++ (Col.demo.flatMap Col.Line.text ++ "end".toList)) =
    .ok [{ color := 0xFF0010, catalog := some "red 7" }, { color := 0x010203, catalog := some "" }] := by
  have := C127_col Col.demo (by
    intro e he
    simp only [Col.demo, List.mem_cons, List.not_mem_nil, or_false] at he
    rcases he with rfl | rfl <;> exact ⟨by decide, by simp⟩) false "end".toList
  rw [if_neg (by decide)] at this
  rw [this]
  decide +kernel

/-! ## PMV -/

namespace Pmv

open Readers

/-- The points of a block: how far to the right of the point before (6 bits), how far up from the middle (5 bits). -/
def pointBytes (p : Int × Int) : Bytes := [p.1 % 64, p.2 % 32]

def PointFits (p : Int × Int) : Prop := (-31 ≤ p.1 ∧ p.1 ≤ 32) ∧ (-15 ≤ p.2 ∧ p.2 ≤ 16)

/-- A block with its points and a length below 256. -/
def blockBytes (b : List (Int × Int) × Int) : Bytes :=
  writeInt16le b.1.length ++ (writeInt16le b.2 ++ b.1.flatMap pointBytes)

def BlockFits (b : List (Int × Int) × Int) : Prop := b.1.length < 65536 ∧ (0 ≤ b.2 ∧ b.2 < 256) ∧ ∀ p ∈ b.1, PointFits p

/-- The seam: units of a quarter of a millimetre; `x` is added up, `y` is not. -/
def seam : ℚ × ℚ → List (Int × Int) → List Stitch
  | q, [] => [⟨q.1, q.2, 4⟩]
  | q, p :: l => ⟨q.1 + 5 / 2 * p.1, -(5 / 2 * p.2), 0⟩ :: seam (q.1 + 5 / 2 * p.1, -(5 / 2 * p.2)) l

/-- The seam without the END, and where it ends. -/
def drawn : ℚ × ℚ → List (Int × Int) → List Stitch
  | _, [] => []
  | q, p :: l => ⟨q.1 + 5 / 2 * p.1, -(5 / 2 * p.2), 0⟩ :: drawn (q.1 + 5 / 2 * p.1, -(5 / 2 * p.2)) l
def reached : ℚ × ℚ → List (Int × Int) → ℚ × ℚ
  | q, [] => q
  | q, p :: l => reached (q.1 + 5 / 2 * p.1, -(5 / 2 * p.2)) l

theorem seam_append (l m : List (Int × Int)) : ∀ q, seam q (l ++ m) = drawn q l ++ seam (reached q l) m := by
  induction l with
  | nil => intro q; rfl
  | cons p l ih => intro q; rw [List.cons_append, seam, ih]; rfl

theorem block_read (l : List (Int × Int)) (h : ∀ p ∈ l, PointFits p) (r : Bytes) : ∀ q : ℚ × ℚ,
    block l.length q.1 q.2 (l.flatMap pointBytes ++ r) = .ok (drawn q l, (reached q l).1, (reached q l).2, r) := by
  induction l with
  | nil => intro q; rfl
  | cons p l ih =>
    intro q
    obtain ⟨⟨a1, a2⟩, a3, a4⟩ := h p (by simp)
    have ex : (if p.1 % 64 > 32 then -(64 - p.1 % 64) else p.1 % 64) = p.1 := by split_ifs <;> omega
    have ey : (if p.2 % 32 > 16 then -(32 - p.2 % 32) else p.2 % 32) = p.2 := by split_ifs <;> omega
    rw [List.flatMap_cons, List.length_cons, List.append_assoc]
    show block (l.length + 1) q.1 q.2 (p.1 % 64 :: p.2 % 32 :: (l.flatMap pointBytes ++ r)) = _
    rw [block]
    simp only [ex, ey]
    rw [show q.1 + (p.1 : ℚ) * (5 / 2) = q.1 + 5 / 2 * p.1 by ring, show (p.2 : ℚ) * (-5 / 2) = -(5 / 2 * p.2) by ring]
    have := ih (fun a ha => h a (by simp [ha])) (q.1 + 5 / 2 * p.1, -(5 / 2 * p.2))
    simp only at this
    rw [this]
    rfl

theorem loop_blocks (u v : Int) (hv : 256 ≤ v ∧ v < 65536) (s : Bytes) (bs : List (List (Int × Int) × Int)) (h : ∀ b ∈ bs, BlockFits b) :
    ∀ (q : ℚ × ℚ) (fuel : Nat), loop pmvStep (fuel + bs.length + 1) q (bs.flatMap blockBytes ++ (writeInt16le u ++ (writeInt16le v ++ s))) =
      some (.ok (seam q (bs.flatMap (fun b => b.1)))) := by
  have r1 : ∀ (v : Int) (r : Bytes), readInt16le (writeInt16le v ++ r) = (some (v % 2 ^ 16), r) := fun v r => (C02_read_write v r).2.1
  induction bs with
  | nil =>
    intro q fuel
    have e : pmvStep q (writeInt16le u ++ (writeInt16le v ++ s)) = .done [⟨q.1, q.2, END⟩] := by
      rw [pmvStep, r1]
      simp only [r1]
      rw [if_pos (by omega)]
    rw [List.flatMap_nil, List.nil_append, loop, e]
    rfl
  | cons b bs ih =>
    intro q fuel
    obtain ⟨h1, h2, h3⟩ := h b (by simp)
    have e : pmvStep q (blockBytes b ++ (bs.flatMap blockBytes ++ (writeInt16le u ++ (writeInt16le v ++ s)))) =
        .again (drawn q b.1) (reached q b.1) (bs.flatMap blockBytes ++ (writeInt16le u ++ (writeInt16le v ++ s))) := by
      rw [pmvStep, blockBytes, List.append_assoc, List.append_assoc, r1]
      simp only [r1]
      have hc : ((b.1.length : Int) % 2 ^ 16).toNat = b.1.length := by omega
      rw [if_neg (by omega), hc, block_read _ h3]
    rw [List.flatMap_cons, List.append_assoc, List.length_cons, ← Nat.add_assoc, loop, e]
    simp only
    rw [ih (fun a ha => h a (by simp [ha])), List.flatMap_cons, seam_append]
    rfl

end Pmv

/-- **C127** for PMV: a hundred bytes, blocks, a block whose length is 256 or more, anything behind it. -/
theorem C127_pmv (head : Bytes) (hh : head.length = 100) (bs : List (List (Int × Int) × Int)) (h : ∀ b ∈ bs, Pmv.BlockFits b) (u v : Int)
    (hv : 256 ≤ v ∧ v < 65536) (s : Bytes) (fuel : Nat) (hf : bs.length < fuel) :
    Pmv.read fuel (head ++ (bs.flatMap Pmv.blockBytes ++ (writeInt16le u ++ (writeInt16le v ++ s)))) =
      some (.ok (Pmv.seam (0, 0) (bs.flatMap (fun b => b.1)))) := by
  obtain ⟨n, rfl⟩ : ∃ n, fuel = n + bs.length + 1 := ⟨fuel - bs.length - 1, by omega⟩
  unfold Pmv.read
  rw [List.drop_left' hh]
  exact Pmv.loop_blocks u v hv s bs h (0, 0) n

/-- Two blocks with an empty one between them. -/
def Pmv.demo : List (List (Int × Int) × Int) := [([(0, -3), (12, 16)], 4), ([], 0), ([(-31, 0)], 255)]

example : Pmv.read 9 (List.replicate 100 1 ++ (Pmv.demo.flatMap Pmv.blockBytes ++ (writeInt16le 7 ++ (writeInt16le 256 ++ [3])))) =
    some (.ok [⟨0, 15 / 2, 0⟩, ⟨30, -40, 0⟩, ⟨-95 / 2, 0, 0⟩, ⟨-95 / 2, 0, 4⟩]) := by
  rw [C127_pmv _ rfl _ _ _ _ (by decide) _ _ (by decide)]
  · norm_num [Pmv.demo, Pmv.seam]
  · intro b hb
    simp only [Pmv.demo, List.mem_cons, List.not_mem_nil, or_false] at hb
    rcases hb with rfl | rfl | rfl <;> refine ⟨by decide, by decide, ?_⟩ <;> simp [Pmv.PointFits]

end Emb
