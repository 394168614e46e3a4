import Verif.Props.PesProps
import Verif.Props.ContainerProps
import Mathlib.Data.List.Dedup
import Mathlib.Data.Finset.Card
import Mathlib.Data.Finset.Dedup

/-!
# C90: PES files of the versions 4 to 10

Files of other programs: where the texts and threads are in the header of each version.
-/

namespace Emb
namespace Pes
open Emb.Pec

/-! ## Specification -/

inductive Ver where
  | v5 | v55 | v56 | v6 | v7 | v8 | v9 | v10

def Ver.sig : Ver → String
  | .v5 => "#PES0050"
  | .v55 => "#PES0055"
  | .v56 => "#PES0056"
  | .v6 => "#PES0060"
  | .v7 => "#PES0070"
  | .v8 => "#PES0080"
  | .v9 => "#PES0090"
  | .v10 => "#PES0100"

/-- The number of the version. -/
def Ver.num : Ver → ℚ
  | .v5 => 5
  | .v55 => 5.5
  | .v56 => 5.6
  | .v6 => 6
  | .v7 => 7
  | .v8 => 8
  | .v9 => 9
  | .v10 => 10

/-- How many bytes there are before the name of the hoop, if the version has it; before the name of the image; before the tables. -/
def Ver.hoopGap : Ver → Option Nat
  | .v9 | .v10 => some 14
  | _ => none

def Ver.imageGap : Ver → Nat
  | .v5 | .v55 | .v56 => 24
  | .v6 | .v7 => 36
  | .v8 | .v10 => 38
  | .v9 => 30

def Ver.tableGap : Ver → Nat
  | .v5 | .v55 | .v56 | .v6 | .v7 => 24
  | .v8 => 26
  | .v9 | .v10 => 34

/-- The name of the metadata that holds the name of the image. -/
def Ver.imageKey : Ver → String
  | .v5 | .v55 | .v56 => "image"
  | _ => "image_file"

/-- A text with its length in bytes. -/
def field (s : Str) : Bytes := ((utf8 s).length : Int) :: utf8 s

/-- A thread in a header; `pad` are five bytes not looked at. -/
structure HeadThread where
  catalog : Str
  color : Int
  pad : Bytes
  description : Str
  brand : Str
  chart : Str

def HeadThread.bytes (t : HeadThread) : Bytes :=
  field t.catalog ++ (writeInt24be t.color ++ (t.pad ++ (field t.description ++ (field t.brand ++ field t.chart))))

/-- Texts of up to 255 bytes. -/
def Short (s : Str) : Prop := (utf8 s).length < 256

def HeadThread.Fits (t : HeadThread) : Prop :=
  Short t.catalog ∧ Short t.description ∧ Short t.brand ∧ Short t.chart ∧ 0 ≤ t.color ∧ t.color < 2 ^ 24 ∧ t.pad.length = 5

/-- A text that is not empty. -/
def present (s : Str) : Option String := if s = [] then none else some (String.ofList s)

def HeadThread.thread (t : HeadThread) : Thread :=
  { color := 0xFF000000 + t.color, catalog := present t.catalog, description := present t.description, brand := present t.brand,
    chart := present t.chart }

/-- The texts of a header. -/
structure HeadTexts where
  name : Str
  category : Str
  author : Str
  keywords : Str
  comments : Str

def HeadTexts.bytes (t : HeadTexts) : Bytes :=
  field t.name ++ (field t.category ++ (field t.author ++ (field t.keywords ++ field t.comments)))

def HeadTexts.Fits (t : HeadTexts) : Prop := Short t.name ∧ Short t.category ∧ Short t.author ∧ Short t.keywords ∧ Short t.comments

/-- Those that are not empty. -/
def nonempty (l : List (String × Str)) : List (String × Str) := l.filter (fun p => p.2 ≠ [])

def HeadTexts.meta (t : HeadTexts) : List (String × Str) :=
  nonempty [("name", t.name), ("category", t.category), ("author", t.author), ("keywords", t.keywords), ("comments", t.comments)]

/-- What comes between the texts and the name of the image: a gap, and in later versions the hoop and another gap. -/
def BeforeImage (v : Ver) (hoop : Str) (b : Bytes) : Prop :=
  match v.hoopGap with
  | none => b.length = v.imageGap ∧ hoop = []
  | some n => ∃ g g', g.length = n ∧ g'.length = v.imageGap ∧ b = g ++ (field hoop ++ g')

/-- The header of a file without programmable fills, motifs and feather patterns. -/
def IsHeader (v : Ver) (texts : HeadTexts) (hoop image : Str) (ts : List HeadThread) (b : Bytes) : Prop :=
  ∃ g0 g1 g2, g0.length = 4 ∧ BeforeImage v hoop g1 ∧ g2.length = v.tableGap ∧
    b = g0 ++ (texts.bytes ++ (g1 ++ (field image ++ (g2 ++ ([0, 0, 0, 0, 0, 0] ++ (writeInt16le ts.length ++ ts.flatMap HeadThread.bytes))))))

/-! ## Proofs: header -/

theorem utf8_eq_nil {s : Str} (h : (utf8 s).length = 0) : s = [] := by
  have := decodeUtf8_utf8 s
  rw [List.length_eq_zero_iff.1 h] at this
  have k : decodeUtf8 [] = some [] := decodeUtf8_utf8 []
  rw [k] at this
  exact (Option.some.inj this).symm

theorem readString_field (s : Str) (_h : Short s) (rest : Bytes) : readString (field s ++ rest) = (if s = [] then none else some s, rest) := by
  unfold readString field
  have e : ∀ r, readInt8 (((utf8 s).length : Int) :: r) = (some ((utf8 s).length : Int), r) := fun _ => rfl
  rw [List.cons_append, e]
  simp only
  by_cases hs : s = []
  · subst hs; rfl
  · have h0 : ((utf8 s).length : Int) ≠ 0 := fun c => hs (utf8_eq_nil (by omega))
    rw [if_neg h0, if_neg hs, Int.toNat_natCast, List.take_left, List.drop_left, decodeUtf8_utf8]

theorem entry_given (k : String) (s : Str) : entry k (if s = [] then none else some s) = nonempty [(k, s)] := by
  cases s <;> simp [entry, nonempty]

theorem nonempty_cons (p : String × Str) (l : List (String × Str)) : nonempty (p :: l) = nonempty [p] ++ nonempty l := by
  unfold nonempty
  rw [← List.filter_append]
  rfl

theorem readMeta_head (t : HeadTexts) (h : t.Fits) (rest : Bytes) : readMeta (t.bytes ++ rest) = (t.meta, rest) := by
  obtain ⟨h1, h2, h3, h4, h5⟩ := h
  unfold readMeta HeadTexts.bytes HeadTexts.meta
  simp only [List.append_assoc, readString_field _ h1, readString_field _ h2, readString_field _ h3, readString_field _ h4,
    readString_field _ h5, entry_given]
  rw [nonempty_cons ("name", t.name) [_, _, _, _], nonempty_cons ("category", t.category) [_, _, _], nonempty_cons ("author", t.author) [_, _],
    nonempty_cons ("keywords", t.keywords) [_]]

theorem present_map (s : Str) : (if s = [] then none else some s : Option Str).map String.ofList = present s := by
  unfold present
  split_ifs <;> rfl

theorem readThread_head (t : HeadThread) (h : t.Fits) (rest : Bytes) : readThread (t.bytes ++ rest) = .ok (t.thread, rest) := by
  obtain ⟨h1, h2, h3, h4, h5, h6, h7⟩ := h
  unfold readThread HeadThread.bytes
  simp only [List.append_assoc, readString_field _ h1]
  rw [(C02_read_write t.color _).2.2.2.2.1]
  simp only
  rw [List.drop_left' h7]
  have m : t.color % 2 ^ 24 = t.color := by omega
  simp only [readString_field _ h2, readString_field _ h3, readString_field _ h4, present_map, m]
  rfl

theorem readThreads_head (ts : List HeadThread) (h : ∀ t ∈ ts, t.Fits) (rest : Bytes) :
    readThreads ts.length (ts.flatMap HeadThread.bytes ++ rest) = .ok (ts.map HeadThread.thread) := by
  induction ts with
  | nil => rfl
  | cons t ts ih =>
    rw [List.length_cons, readThreads, List.flatMap_cons, List.append_assoc, readThread_head _ (h t (by simp))]
    simp only [bind, Except.bind]
    rw [ih (fun u hu => h u (by simp [hu]))]
    rfl

theorem readChart_head (ts : List HeadThread) (h : ∀ t ∈ ts, t.Fits) (hn : ts.length < 2 ^ 16) (rest : Bytes) :
    readChart ([0, 0, 0, 0, 0, 0] ++ (writeInt16le ts.length ++ (ts.flatMap HeadThread.bytes ++ rest))) = .ok (ts.map HeadThread.thread) := by
  unfold readChart
  have e : ∀ r, readInt16le (0 :: 0 :: r) = (some 0, r) := fun _ => rfl
  have m : (((ts.length : Int)) % 2 ^ 16).toNat = ts.length := by omega
  simp only [List.cons_append, List.nil_append, e]
  rw [(C02_read_write _ _).2.1]
  simp only [m]
  rw [readThreads_head ts h]
  simp

theorem readVersion_head (v : Ver) (texts : HeadTexts) (hoop image : Str) (ts : List HeadThread) (b rest : Bytes)
    (hb : IsHeader v texts hoop image ts b) (h1 : texts.Fits) (h2 : Short hoop) (h3 : Short image) (h4 : ∀ t ∈ ts, t.Fits)
    (h5 : ts.length < 2 ^ 16) :
    readVersion (some v.sig.toList) (b ++ rest) =
      .ok (some v.num, texts.meta ++ nonempty [("hoop_name", hoop)] ++ nonempty [(v.imageKey, image)], ts.map HeadThread.thread) := by
  obtain ⟨g0, g1, g2, hg0, hg1, hg2, rfl⟩ := hb
  have flat : ∀ key (n m : Nat), g1.length = n → g2.length = m → hoop = [] →
      readHeader key n m (g0 ++ (texts.bytes ++ (g1 ++ (field image ++ (g2 ++ ([0, 0, 0, 0, 0, 0] ++
        (writeInt16le ts.length ++ ts.flatMap HeadThread.bytes)))))) ++ rest) =
      .ok (texts.meta ++ nonempty [("hoop_name", hoop)] ++ nonempty [(key, image)], ts.map HeadThread.thread) := by
    intro key n m hn hm hh
    unfold readHeader
    simp only [List.append_assoc]
    rw [List.drop_left' hg0, readMeta_head _ h1]
    simp only
    rw [List.drop_left' hn, readString_field _ h3]
    simp only
    rw [List.drop_left' hm]
    have := readChart_head ts h4 h5 rest
    rw [this, entry_given, hh]
    simp [Except.map, nonempty]
  have hoopy : ∀ (n : Nat), g2.length = 34 → (∃ g g', g.length = 14 ∧ g'.length = n ∧ g1 = g ++ (field hoop ++ g')) →
      readHoopHeader n (g0 ++ (texts.bytes ++ (g1 ++ (field image ++ (g2 ++ ([0, 0, 0, 0, 0, 0] ++
        (writeInt16le ts.length ++ ts.flatMap HeadThread.bytes)))))) ++ rest) =
      .ok (texts.meta ++ nonempty [("hoop_name", hoop)] ++ nonempty [("image_file", image)], ts.map HeadThread.thread) := by
    rintro n hm ⟨g, g', hg, hg', rfl⟩
    unfold readHoopHeader
    simp only [List.append_assoc]
    rw [List.drop_left' hg0, readMeta_head _ h1]
    simp only
    rw [List.drop_left' hg, readString_field _ h2]
    simp only
    rw [List.drop_left' hg', readString_field _ h3]
    simp only
    rw [List.drop_left' hm]
    have := readChart_head ts h4 h5 rest
    rw [this, entry_given, entry_given]
    simp [Except.map]
  unfold readVersion
  cases v
  case v10 => rw [if_pos (by rfl), hoopy 38 hg2 hg1]; rfl
  case v9 => rw [if_neg (by decide), if_pos (by rfl), hoopy 30 hg2 hg1]; rfl
  case v8 => rw [if_neg (by decide), if_neg (by decide), if_pos (by rfl), flat _ 38 26 hg1.1 hg2 hg1.2]; rfl
  case v7 => rw [if_neg (by decide), if_neg (by decide), if_neg (by decide), if_pos (by rfl), flat _ 36 24 hg1.1 hg2 hg1.2]; rfl
  case v6 =>
    rw [if_neg (by decide), if_neg (by decide), if_neg (by decide), if_neg (by decide), if_pos (by rfl), flat _ 36 24 hg1.1 hg2 hg1.2]; rfl
  case v5 =>
    rw [if_neg (by decide), if_neg (by decide), if_neg (by decide), if_neg (by decide), if_neg (by decide), if_pos (by rfl),
      flat _ 24 24 hg1.1 hg2 hg1.2]
    rfl
  case v55 =>
    rw [if_neg (by decide), if_neg (by decide), if_neg (by decide), if_neg (by decide), if_neg (by decide), if_neg (by decide), if_pos (by rfl),
      flat _ 24 24 hg1.1 hg2 hg1.2]
    simp [Except.map, Ver.num, Ver.imageKey]
    norm_num
  case v56 =>
    rw [if_neg (by decide), if_neg (by decide), if_neg (by decide), if_neg (by decide), if_neg (by decide), if_neg (by decide),
      if_neg (by decide), if_pos (by rfl), flat _ 24 24 hg1.1 hg2 hg1.2]
    simp [Except.map, Ver.num, Ver.imageKey]
    norm_num

theorem sig_length (v : Ver) : (utf8 v.sig.toList).length = 8 := by cases v <;> decide +kernel

theorem sig_pec (v : Ver) : v.sig.toList ≠ "#PEC0001".toList := by cases v <;> decide

/-- **C90**: a PES file of version 5 to 10 gives the version, the texts of its header, and what its PEC part gives when read with the
threads of the header. -/
theorem C90_header (v : Ver) (texts : HeadTexts) (hoop image : Str) (ts : List HeadThread) (b rest : Bytes) (pos : Nat) (hpos : pos < 2 ^ 32)
    (hb : IsHeader v texts hoop image ts b) (h1 : texts.Fits) (h2 : Short hoop) (h3 : Short image) (h4 : ∀ t ∈ ts, t.Fits)
    (h5 : ts.length < 2 ^ 16) (f : Bytes) (hf : f = utf8 v.sig.toList ++ (writeInt32le pos ++ (b ++ rest))) :
    readFile f = (Pec.readPattern (ts.map HeadThread.thread) (f.drop pos)).map (fun d =>
      ⟨some v.num, texts.meta ++ nonempty [("hoop_name", hoop)] ++ nonempty [(v.imageKey, image)], d.stops⟩) := by
  have e1 : f.take 8 = utf8 v.sig.toList := by rw [hf, List.take_left' (sig_length v)]
  have e2 : f.drop 8 = writeInt32le pos ++ (b ++ rest) := by rw [hf, List.drop_left' (sig_length v)]
  unfold readFile
  rw [e1, decodeUtf8_utf8, if_neg (fun c => sig_pec v (Option.some.inj c)), e2, (C02_read_write _ _).2.2.2.2.2.1]
  simp only
  rw [readVersion_head v texts hoop image ts b rest hb h1 h2 h3 h4 h5]
  have m : ((pos : Int) % 2 ^ 32).toNat = pos := by omega
  simp only [bind, Except.bind, m]

/-- **C90**: version 4 has texts and no threads. -/
theorem C90_version_4 (texts : HeadTexts) (h1 : texts.Fits) (g rest : Bytes) (hg : g.length = 4) (pos : Nat) (hpos : pos < 2 ^ 32) (f : Bytes)
    (hf : f = utf8 "#PES0040".toList ++ (writeInt32le pos ++ (g ++ (texts.bytes ++ rest)))) :
    readFile f = (Pec.readPattern [] (f.drop pos)).map (fun d => ⟨some 4, texts.meta, d.stops⟩) := by
  have hl : (utf8 "#PES0040".toList).length = 8 := by decide +kernel
  have e1 : f.take 8 = utf8 "#PES0040".toList := by rw [hf, List.take_left' hl]
  have e2 : f.drop 8 = writeInt32le pos ++ (g ++ (texts.bytes ++ rest)) := by rw [hf, List.drop_left' hl]
  unfold readFile
  rw [e1, decodeUtf8_utf8, if_neg (by decide), e2, (C02_read_write _ _).2.2.2.2.2.1]
  have m : ((pos : Int) % 2 ^ 32).toNat = pos := by omega
  simp only
  unfold readVersion
  rw [if_neg (by decide), if_neg (by decide), if_neg (by decide), if_neg (by decide), if_neg (by decide), if_neg (by decide), if_neg (by decide),
    if_neg (by decide), if_pos (by rfl), List.drop_left' hg, readMeta_head _ h1]
  simp only [bind, Except.bind, m]

/-- **C90**: versions 1 to 3 and files of an unknown version are read as their PEC part. -/
theorem C90_plain (sig : String) (num : Option ℚ) (hs : (utf8 sig.toList).length = 8)
    (hn : (sig, num) ∈ [("#PES0030", some 3), ("#PES0022", some 2.2), ("#PES0020", some 2), ("#PES0001", some 1), ("#PES0044", none)])
    (rest : Bytes) (pos : Nat) (hpos : pos < 2 ^ 32) (f : Bytes) (hf : f = utf8 sig.toList ++ (writeInt32le pos ++ rest)) :
    readFile f = (Pec.readPattern [] (f.drop pos)).map (fun d => ⟨num, [], d.stops⟩) := by
  have e1 : f.take 8 = utf8 sig.toList := by rw [hf, List.take_left' hs]
  have e2 : f.drop 8 = writeInt32le pos ++ rest := by rw [hf, List.drop_left' hs]
  have m : ((pos : Int) % 2 ^ 32).toNat = pos := by omega
  have k : readVersion (some sig.toList) rest = .ok (num, [], []) := by
    unfold readVersion
    simp only [List.mem_cons, List.not_mem_nil, or_false, Prod.mk.injEq] at hn
    rcases hn with ⟨rfl, rfl⟩ | ⟨rfl, rfl⟩ | ⟨rfl, rfl⟩ | ⟨rfl, rfl⟩ | ⟨rfl, rfl⟩ <;>
      simp only [Option.some.injEq] <;> simp (decide := true) only [if_true, if_false] <;> norm_num
  unfold readFile
  rw [e1, decodeUtf8_utf8, if_neg (by
    simp only [List.mem_cons, List.not_mem_nil, or_false, Prod.mk.injEq] at hn
    rcases hn with ⟨rfl, rfl⟩ | ⟨rfl, rfl⟩ | ⟨rfl, rfl⟩ | ⟨rfl, rfl⟩ | ⟨rfl, rfl⟩ <;> decide), e2, (C02_read_write _ _).2.2.2.2.2.1]
  simp only
  rw [k]
  simp only [bind, Except.bind, m]

/-! ## Which thread a colour gets -/

/-- How many different numbers there are in the list before the number `n`. -/
def before (l : Bytes) (n : Int) : Nat := (l.take (l.idxOf n)).dedup.length

/-- The thread of number `n`: the next thread of the header when the number is new, and a thread of the palette after those. -/
def tabled (ts : List Thread) (l : Bytes) (n : Int) : Option Thread :=
  if h : before l n < ts.length then some ts[before l n] else (palette[n.toNat]?).getD none

theorem tabled_prefix (ts : List Thread) (pre rest : Bytes) (n : Int) (h : n ∈ pre) : tabled ts (pre ++ rest) n = tabled ts pre n := by
  have e : before (pre ++ rest) n = before pre n := by
    unfold before
    rw [List.idxOf_append_of_mem h, List.take_append_of_le_length (List.idxOf_le_length)]
  unfold tabled
  simp only [e]

theorem before_new (pre rest : Bytes) (n : Int) (h : n ∉ pre) : before (pre ++ n :: rest) n = pre.dedup.length := by
  unfold before
  rw [List.idxOf_append_of_notMem h, List.idxOf_cons_self, Nat.add_zero, List.take_left]

theorem palette_some : ∀ n : Fin 64, ((palette[(n : Nat) + 1]?).getD none).isSome = true := by decide +kernel

theorem tabled_some (ts : List Thread) (l : Bytes) (n : Int) (h : 1 ≤ n ∧ n ≤ 64) : (tabled ts l n).isSome = true := by
  unfold tabled
  split_ifs
  · rfl
  · have := palette_some ⟨(n - 1).toNat, by omega⟩
    have e : n.toNat = (n - 1).toNat + 1 := by omega
    rw [e]
    exact this

theorem dedup_snoc_mem (pre : Bytes) (n : Int) (h : n ∈ pre) : (pre ++ [n]).dedup.length = pre.dedup.length := by
  rw [← List.card_toFinset, ← List.card_toFinset]
  congr 1
  ext a
  simp only [List.mem_toFinset, List.mem_append, List.mem_singleton]
  constructor
  · rintro (h' | rfl)
    · exact h'
    · exact h
  · exact Or.inl

theorem dedup_snoc_new (pre : Bytes) (n : Int) (h : n ∉ pre) : (pre ++ [n]).dedup.length = pre.dedup.length + 1 := by
  rw [← List.card_toFinset, ← List.card_toFinset]
  have : (pre ++ [n]).toFinset = insert n pre.toFinset := by
    ext a
    simp only [List.mem_toFinset, List.mem_append, List.mem_singleton, Finset.mem_insert]
    exact Or.comm
  rw [this, Finset.card_insert_of_notMem (by simpa using h)]

theorem tableLoop_tabled (ts : List Thread) (rest : Bytes) : ∀ (pre : Bytes) (seen : List (Int × Option Thread)),
    (∀ b ∈ rest, 1 ≤ b ∧ b ≤ 64) →
    (∀ b, (seen.find? (fun e => e.1 == b)).bind (·.2) = if b ∈ pre then tabled ts pre b else none) →
    tableLoop seen (ts.drop pre.dedup.length) rest = rest.map (tabled ts (pre ++ rest)) := by
  induction rest with
  | nil => intro pre seen _ _; simp [tableLoop]
  | cons b rest ih =>
    intro pre seen hb hs
    have hb1 := hb b (by simp)
    have m : b % 65 = b := by omega
    have next : ∀ seen' : List (Int × Option Thread),
        (∀ c, (seen'.find? (fun e => e.1 == c)).bind (·.2) = if c ∈ pre ++ [b] then tabled ts (pre ++ [b]) c else none) →
        tableLoop seen' (ts.drop (pre ++ [b]).dedup.length) rest = rest.map (tabled ts (pre ++ b :: rest)) := by
      intro seen' h'
      have := ih (pre ++ [b]) seen' (fun c hc => hb c (by simp [hc])) h'
      rw [this, List.append_assoc]
      rfl
    rw [tableLoop.eq_def]
    simp only [m, List.map_cons]
    rw [hs b]
    by_cases hp : b ∈ pre
    · rw [if_pos hp]
      obtain ⟨t, ht⟩ := Option.isSome_iff_exists.1 (tabled_some ts pre b hb1)
      rw [ht]
      simp only
      rw [tabled_prefix _ _ _ _ hp, ht, ← dedup_snoc_mem pre b hp, next]
      intro c
      rw [hs c]
      by_cases hc : c ∈ pre
      · rw [if_pos hc, if_pos (by simp [hc]), tabled_prefix _ _ _ _ hc]
      · rw [if_neg hc, if_neg]
        simp only [List.mem_append, List.mem_singleton, not_or]
        exact ⟨hc, fun e => hc (e ▸ hp)⟩
    · rw [if_neg hp]
      simp only
      have new : ∀ u, u = tabled ts (pre ++ [b]) b → ∀ c, (((b, u) :: seen).find? (fun e => e.1 == c)).bind (·.2) =
          if c ∈ pre ++ [b] then tabled ts (pre ++ [b]) c else none := by
        intro u hu c
        rw [List.find?_cons]
        by_cases hc : b = c
        · subst hc
          simp [hu]
        · have : (b == c) = false := by simpa using hc
          simp only [this]
          rw [hs c]
          by_cases hc' : c ∈ pre
          · rw [if_pos hc', if_pos (by simp [hc']), tabled_prefix _ _ _ _ hc']
          · rw [if_neg hc', if_neg]
            simp only [List.mem_append, List.mem_singleton, not_or]
            exact ⟨hc', fun e => hc e.symm⟩
      have v1 := before_new pre rest b hp
      have v2 := before_new pre [] b hp
      by_cases hk : pre.dedup.length < ts.length
      · rw [List.drop_eq_getElem_cons hk]
        simp only
        have w1 : tabled ts (pre ++ b :: rest) b = some ts[pre.dedup.length] := by
          unfold tabled; simp only [v1]; rw [dif_pos hk]
        have w2 : tabled ts (pre ++ [b]) b = some ts[pre.dedup.length] := by
          unfold tabled; simp only [v2]; rw [dif_pos hk]
        rw [w1, ← next _ (new _ w2.symm), dedup_snoc_new pre b hp]
      · rw [List.drop_eq_nil_of_le (by omega)]
        simp only
        have w1 : tabled ts (pre ++ b :: rest) b = (palette[b.toNat]?).getD none := by
          unfold tabled; simp only [v1]; rw [dif_neg hk]
        have w2 : tabled ts (pre ++ [b]) b = (palette[b.toNat]?).getD none := by
          unfold tabled; simp only [v2]; rw [dif_neg hk]
        rw [w1, ← next _ (new _ w2.symm), dedup_snoc_new pre b hp, List.drop_eq_nil_of_le (by omega)]

/-- **C90**: a PEC part whose header (of a PES file) has no fewer threads than it has colours gives all threads of the header in their
order, and otherwise what it gives alone. -/
theorem C90_chart (ts : List Thread) (g : Bytes) (d : Pec.Design) (hd : Pec.readPattern [] g = .ok d) (h0 : ts ≠ [])
    (hn : d.threads.length ≤ ts.length) :
    Pec.readPattern ts g = .ok { d with
      threads := ts, graphics := List.zipWith (fun p v => (p.1, p.2.1, v)) d.graphics (none :: ts.map some) } := by
  unfold Pec.readPattern at hd ⊢
  cases hr : Pec.read g with
  | error e => rw [hr] at hd; exact absurd hd (by simp)
  | ok found =>
    rw [hr] at hd
    simp only at hd ⊢
    split_ifs at hd with hk
    have hd := Except.ok.inj hd
    subst hd
    simp only [List.length_map] at hn
    have l0 : (mapColors [] found.colors).length = found.colors.length := by simp [mapColors]
    rw [l0] at hn hk
    have v : mapColors ts found.colors = ts.map some := by
      unfold mapColors
      rw [if_neg h0, if_pos hn]
    rw [v, if_neg (by rw [List.length_map]; omega)]
    congr 2
    · rw [List.map_map]
      conv_rhs => rw [← List.map_id ts]
      rfl
    · have zz : ∀ (G : List Bytes) (U V : List (Option Thread)), G.length ≤ U.length →
          List.zipWith (fun p v => (p.1, p.2.1, v)) (List.zipWith (fun g v => (g, found.stride, v)) G U) V =
            List.zipWith (fun g v => (g, found.stride, v)) G V := by
        intro G
        induction G with
        | nil => intro U V _; simp
        | cons a G ih =>
          intro U V hU
          cases U with
          | nil => simp at hU
          | cons u U =>
            cases V with
            | nil => simp
            | cons w V => simp only [List.zipWith_cons_cons]; rw [ih U V (by simpa using hU)]
      rw [zz _ _ _ (by rw [List.length_cons, l0]; omega)]

/-- **C90**: with fewer threads than colours, each new colour number takes the next thread of the header, a number seen before its
thread, and when there are none left the thread is the one of the palette. -/
theorem C90_table (ts : List Thread) (colors : Bytes) (h0 : ts ≠ []) (hn : ts.length < colors.length) (hc : ∀ b ∈ colors, 1 ≤ b ∧ b ≤ 64) :
    mapColors ts colors = colors.map (tabled ts colors) := by
  unfold mapColors
  rw [if_neg h0, if_neg (by omega)]
  exact tableLoop_tabled ts colors [] [] hc (by intro b; simp)

/-! ## Examples -/

/-- A header of version 9 with a name, a hoop and one thread. -/
example : IsHeader .v9 ⟨"Rose".toList, [], "A".toList, [], []⟩ "B".toList [] [⟨"86".toList, 0x123456, [0, 1, 2, 3, 4], "Red".toList, [], []⟩]
    ([2, 0, 0, 0] ++ ([4, 82, 111, 115, 101, 0, 1, 65, 0, 0] ++ ((List.replicate 14 9 ++ ([1, 66] ++ List.replicate 30 8)) ++
      ([0] ++ (List.replicate 34 7 ++ ([0, 0, 0, 0, 0, 0] ++ ([1, 0] ++
        [2, 56, 54, 0x12, 0x34, 0x56, 0, 1, 2, 3, 4, 3, 82, 101, 100, 0, 0]))))))) :=
  ⟨[2, 0, 0, 0], _, List.replicate 34 7, rfl, ⟨List.replicate 14 9, List.replicate 30 8, rfl, rfl, rfl⟩, rfl, by decide +kernel⟩

example : HeadThread.Fits ⟨"86".toList, 0x123456, [0, 1, 2, 3, 4], "Red".toList, [], []⟩ := by
  unfold HeadThread.Fits Short
  decide +kernel

/-- Two threads and four colours: 5 is the first, 9 the second, 5 the first again, 7 is of the palette. -/
example : tabled [{ color := 1 }, { color := 2 }] [5, 9, 5, 7] 5 = some { color := 1 } ∧
    tabled [{ color := 1 }, { color := 2 }] [5, 9, 5, 7] 9 = some { color := 2 } ∧
    tabled [{ color := 1 }, { color := 2 }] [5, 9, 5, 7] 7 = (palette[7]?).getD none := by decide +kernel

end Pes
end Emb
