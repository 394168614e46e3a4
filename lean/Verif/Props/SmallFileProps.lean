import Verif.SmallFiles
import Verif.Props.RecordProps3
import Verif.Props.ContainerProps
import Verif.Props.DstReadProps

/-!
# C89: whole files of the smaller formats, with their threads
-/

namespace Emb
namespace SmallFiles
open Records Containers

/-! ## DSB and DSZ -/

/-- **C89**: a DSB file is 512 bytes like those of a DST file, then its records. -/
theorem C89_dsb (head : Bytes) (hh : head.length = 512) (d : Doc) (hd : Dst.readHeader head = .ok d) (l : List Ev) (hl : ∀ e ∈ l, dsbHas e)
    (tail : Bytes) (ht : dsbEnd tail) (fuel : Nat) (hf : l.length < fuel) :
    readDsb fuel (head ++ (l.flatMap dsb ++ tail)) = some (.ok { d with stitches := drawn 0 0 l }) := by
  have e : Dst.readHeader (head ++ (l.flatMap dsb ++ tail)) = .ok d := by
    rw [← hd]
    unfold Dst.readHeader
    rw [List.take_left' hh, List.take_of_length_le (by omega)]
  unfold readDsb withStitches
  rw [e, List.drop_left' hh, C88_dsb l hl tail ht fuel hf]
  rfl

/-- **C89**: so is a DSZ file. -/
theorem C89_dsz (head : Bytes) (hh : head.length = 512) (d : Doc) (hd : Dst.readHeader head = .ok d) (l : List Ev) (hl : ∀ e ∈ l, dszHas e)
    (tail : Bytes) (ht : dszEnd tail) (fuel : Nat) (hf : l.length < fuel) :
    readDsz fuel (head ++ (l.flatMap dsz ++ tail)) = some (.ok { d with stitches := drawn 0 0 l }) := by
  have e : Dst.readHeader (head ++ (l.flatMap dsz ++ tail)) = .ok d := by
    rw [← hd]
    unfold Dst.readHeader
    rw [List.take_left' hh, List.take_of_length_le (by omega)]
  unfold readDsz withStitches
  rw [e, List.drop_left' hh, C88_dsz l hl tail ht fuel hf]
  rfl

/-! ## SEW -/

/-- The threads number `idx` of a table, counted from 0, modulo its length. -/
def Numbered (table : List Thread) (idx : List Int) (ts : List Thread) : Prop :=
  List.Forall₂ (fun i t => 0 ≤ i ∧ i < 2 ^ 16 ∧ table[i.toNat % table.length]? = some t) idx ts

theorem sew_colours (idx : List Int) (ts : List Thread) (h : Numbered sewThreads idx ts) (rest : Bytes) :
    sewColours idx.length (idx.flatMap writeInt16le ++ rest) = .ok ts := by
  induction h with
  | nil => rfl
  | @cons i t idx ts hi _ ih =>
    obtain ⟨h1, h2, h3⟩ := hi
    have e : (i :: idx).flatMap writeInt16le ++ rest = writeInt16le i ++ (idx.flatMap writeInt16le ++ rest) := by simp
    rw [List.length_cons, sewColours, e, (C02_read_write i _).2.1]
    have m : (i % 2 ^ 16 % 79).toNat = i.toNat % sewThreads.length := by
      have : sewThreads.length = 79 := by decide +kernel
      have k : i % 2 ^ 16 = i := by omega
      rw [this, k]
      omega
    simp only [m, h3, ih, Except.map]

/-- **C89**: SEW: the number of colours, their numbers in the table of 79 threads, the records at 0x1D78. -/
theorem C89_sew (f : Bytes) (idx : List Int) (ts : List Thread) (hi : Numbered sewThreads idx ts) (hn : idx.length < 2 ^ 16)
    (h0 : Containers.Has f 0 (writeInt16le idx.length ++ idx.flatMap writeInt16le)) (l : List Ev) (hl : ∀ e ∈ l, sewHas e) (tail : Bytes)
    (ht : tail.length < 2 ∨ ∃ a b r, tail = 0x80 :: 0x20 :: a :: b :: r) (h1 : f.drop 0x1D78 = l.flatMap sew ++ tail) (fuel : Nat)
    (hf : l.length < fuel) : readSew fuel f = some (.ok { stitches := drawn 0 0 l, threads := ts, extras := [] }) := by
  obtain ⟨rest, e⟩ := h0
  rw [List.drop_zero, List.append_assoc] at e
  have r : readInt16le f = (some ((idx.length : Int) % 2 ^ 16), idx.flatMap writeInt16le ++ rest) := by rw [e, (C02_read_write _ _).2.1]
  unfold readSew
  rw [r]
  have m : ((idx.length : Int) % 2 ^ 16).toNat = idx.length := by omega
  simp only [m]
  rw [sew_colours idx ts hi, h1, C88_sew l hl tail ht fuel hf]
  rfl

/-! ## PCD, PCQ, PCS -/

theorem pcd_colours (cs : List (Int × Int)) (hc : ∀ c ∈ cs, 0 ≤ c.1 ∧ c.1 < 2 ^ 24) (rest : Bytes) :
    pcdColours cs.length (cs.flatMap (fun c => writeInt24be c.1 ++ [c.2]) ++ rest) = .ok (cs.map (fun c => { color := c.1 }), rest) := by
  induction cs with
  | nil => rfl
  | cons c cs ih =>
    have h := hc c (by simp)
    have e : (c :: cs).flatMap (fun c => writeInt24be c.1 ++ [c.2]) ++ rest =
        writeInt24be c.1 ++ ([c.2] ++ (cs.flatMap (fun c => writeInt24be c.1 ++ [c.2]) ++ rest)) := by simp
    rw [List.length_cons, pcdColours, e, (C02_read_write c.1 _).2.2.2.2.1]
    have m : c.1 % 2 ^ 24 = c.1 := by omega
    simp only [List.cons_append, List.nil_append, List.drop_succ_cons, List.drop_zero]
    rw [ih (fun a ha => hc a (by simp [ha])), m]
    rfl

/-- **C89**: PCD, PCQ, PCS: two bytes, the number of colours, the colours as 24 bits and a byte, the number of records, the records. -/
theorem C89_pcd (v0 v1 : Int) (cs : List (Int × Int)) (hc : ∀ c ∈ cs, 0 ≤ c.1 ∧ c.1 < 2 ^ 24) (hn : cs.length < 2 ^ 16) (c0 c1 : Int)
    (l : List Pc) (hl : ∀ i ∈ l, i.Fits) (tail : Bytes) (ht : tail.length < 9) (fuel : Nat) (hf : l.length < fuel) :
    readPcd fuel ([v0, v1] ++ (writeInt16le cs.length ++ (cs.flatMap (fun c => writeInt24be c.1 ++ [c.2]) ++ ([c0, c1] ++ (l.flatMap Pc.pcd ++ tail))))) =
      some (.ok { stitches := pcDrawn 0 0 l, threads := cs.map (fun c => { color := c.1 }), extras := [] }) := by
  unfold readPcd
  rw [List.drop_left' (by rfl), (C02_read_write _ _).2.1]
  have m : ((cs.length : Int) % 2 ^ 16).toNat = cs.length := by omega
  simp only [m]
  rw [pcd_colours cs hc]
  simp only
  rw [List.drop_left' (by rfl), C88_pcd l hl tail ht fuel hf]
  rfl

/-! ## PCM -/

/-- The thread number `n` of PCM, counted from 1. -/
def pcmThread (n : Nat) (color : Int) : Thread := { color := color, description := some ("PCM Color " ++ toString n) }

/-- The colours of PCM. -/
def pcmPalette : List Thread :=
  [pcmThread 1 0x000000, pcmThread 2 0x000080, pcmThread 3 0x0000FF, pcmThread 4 0x008080, pcmThread 5 0x00FFFF, pcmThread 6 0x800080,
    pcmThread 7 0xFF00FF, pcmThread 8 0x800000, pcmThread 9 0xFF0000, pcmThread 10 0x008000, pcmThread 11 0x00FF00, pcmThread 12 0x808000,
    pcmThread 13 0xFFFF00, pcmThread 14 0x808080, pcmThread 15 0xC0C0C0, pcmThread 16 0xFFFFFF]

theorem pcm_palette : pcmThreads = pcmPalette := by decide +kernel

theorem pcm_colours (idx : List Int) (ts : List Thread)
    (h : List.Forall₂ (fun i t => 0 ≤ i ∧ i < 2 ^ 16 ∧ pcmPalette[i.toNat]? = some t) idx ts) (rest : Bytes) :
    pcmColours idx.length (idx.flatMap writeInt16be ++ rest) = .ok (ts, rest) := by
  induction h with
  | nil => rfl
  | @cons i t idx ts hi _ ih =>
    obtain ⟨h1, h2, h3⟩ := hi
    have e : (i :: idx).flatMap writeInt16be ++ rest = writeInt16be i ++ (idx.flatMap writeInt16be ++ rest) := by simp
    rw [List.length_cons, pcmColours, e, (C02_read_write i _).2.2.1]
    have m : (i % 2 ^ 16).toNat = i.toNat := by omega
    simp only [m, pcm_palette, h3, ih, Except.map]

/-- **C89**: PCM: two bytes, the number of colours, their numbers, the number of records, the records. -/
theorem C89_pcm (v0 v1 : Int) (idx : List Int) (ts : List Thread)
    (hi : List.Forall₂ (fun i t => 0 ≤ i ∧ i < 2 ^ 16 ∧ pcmPalette[i.toNat]? = some t) idx ts) (hn : idx.length < 2 ^ 16) (c0 c1 : Int)
    (l : List Pc) (hl : ∀ i ∈ l, i.Fits) (tail : Bytes) (ht : tail.length < 9) (fuel : Nat) (hf : l.length < fuel) :
    readPcm fuel ([v0, v1] ++ (writeInt16be idx.length ++ (idx.flatMap writeInt16be ++ ([c0, c1] ++ (l.flatMap Pc.pcm ++ tail))))) =
      some (.ok { stitches := pcDrawn 0 0 l, threads := ts, extras := [] }) := by
  unfold readPcm
  rw [List.drop_left' (by rfl), (C02_read_write _ _).2.2.1]
  have m : ((idx.length : Int) % 2 ^ 16).toNat = idx.length := by omega
  simp only [m]
  rw [pcm_colours idx ts hi]
  simp only
  rw [List.drop_left' (by rfl), C88_pcm l hl tail ht fuel hf]
  rfl

/-- A PCM file with a colour number beyond 15 is an `IndexError`. -/
theorem C89_pcm_index_fails (v0 v1 i : Int) (h1 : 16 ≤ i) (h2 : i < 2 ^ 16) (n : Nat) (hn : n + 1 < 2 ^ 16) (rest : Bytes) (fuel : Nat) :
    readPcm fuel ([v0, v1] ++ (writeInt16be (n + 1) ++ (writeInt16be i ++ rest))) = some (.error .indexError) := by
  unfold readPcm
  rw [List.drop_left' (by rfl), (C02_read_write _ _).2.2.1]
  have m : (((n : Int) + 1) % 2 ^ 16).toNat = n + 1 := by omega
  simp only [m]
  rw [pcmColours, (C02_read_write i _).2.2.1]
  have k : pcmThreads[(i % 2 ^ 16).toNat]? = none := by
    apply List.getElem?_eq_none
    have : pcmThreads.length = 16 := rfl
    omega
  simp only [k]

/-! ## JPX -/

theorem jpx_colours (rnd : Nat → Int) (idx : List Int) (hi : ∀ i ∈ idx, 0 ≤ i ∧ i < 2 ^ 32) (k : Nat) (rest : Bytes) :
    jpxColours rnd idx.length k (idx.flatMap writeInt32le ++ rest) =
      (idx.zipIdx k).map (fun p => { color := rnd p.2, description := some ("JPX index " ++ String.ofList (dec p.1)) }) := by
  induction idx generalizing k with
  | nil => rfl
  | cons i idx ih =>
    have h := hi i (by simp)
    have e : (i :: idx).flatMap writeInt32le ++ rest = writeInt32le i ++ (idx.flatMap writeInt32le ++ rest) := by simp
    rw [List.length_cons, jpxColours, e, (C02_read_write i _).2.2.2.2.2.1]
    have m : i % 2 ^ 32 = i := by omega
    simp only [m]
    rw [ih (fun a ha => hi a (by simp [ha]))]
    rfl

/-- **C89**: JPX: at 0 the place of the records, at 0x20 the number of colours, at 0x3C their numbers; the threads are named after their
numbers, their colours are random. Partial as `C88_jpx_partial` is. -/
theorem C89_jpx_partial (rnd : Nat → Int) (f : Bytes) (start : Nat) (hs : start < 2 ^ 32) (h0 : Containers.Has f 0 (writeInt32le start)) (idx : List Int)
    (hi : ∀ i ∈ idx, 0 ≤ i ∧ i < 2 ^ 32) (hn : idx.length < 2 ^ 32) (h1 : Containers.Has f 0x20 (writeInt32le idx.length))
    (h2 : Containers.Has f 0x3C (idx.flatMap writeInt32le)) (l : List Jpx) (hl : ∀ i ∈ l, i.Fits) (tail : Bytes) (ht : jpxEnd tail)
    (h3 : f.drop start = l.flatMap Jpx.bytes ++ tail) (fuel : Nat) (hf : l.length < fuel) :
    readJpx rnd fuel f = some (.ok
      { stitches := drawn 0 0 (l.flatMap Jpx.evs)
        threads := idx.zipIdx.map (fun p => { color := rnd p.2, description := some ("JPX index " ++ String.ofList (dec p.1)) })
        extras := [] }) := by
  have a := has_int32 h0 hs
  have b := has_int32 h1 hn
  rw [List.drop_zero] at a
  obtain ⟨rest, e⟩ := h2
  unfold readJpx
  rw [show readInt32le f = (some (start : Int), (readInt32le f).2) from Prod.ext a rfl,
    show readInt32le (f.drop 0x20) = (some (idx.length : Int), (readInt32le (f.drop 0x20)).2) from Prod.ext b rfl]
  simp only [Int.toNat_natCast]
  rw [h3, e, jpx_colours rnd idx hi 0 rest, C88_jpx_partial l hl tail ht fuel hf]
  rfl

/-! ## ZHS -/

/-- The texts of a thread, and two characters after them. -/
structure ZhsText where
  chart : Str
  description : Str
  catalog : Str
  c0 : Char
  c1 : Char

def ZhsText.text (t : ZhsText) : Str := "&$".toList ++ t.chart ++ "&#".toList ++ t.description ++ "&#".toList ++ t.catalog ++ [t.c0, t.c1]

/-- No `&`, and a catalogue number that has two characters or none. -/
def ZhsText.Fits (t : ZhsText) : Prop :=
  '&' ∉ t.chart ∧ '&' ∉ t.description ∧ '&' ∉ t.catalog ∧ t.c0 ≠ '&' ∧ t.c1 ≠ '&' ∧ t.catalog.length ≠ 1

/-- A text that is not empty. -/
def given (s : Str) : Option String := if s = [] then none else some (String.ofList s)

def zhsNamed (p : Int × ZhsText) : Thread :=
  { color := p.1, chart := given p.2.chart, description := given p.2.description, catalog := given p.2.catalog }

/-! ### Proofs: splitting -/

/-- Without the separator, and not ending in its first character. -/
def free (a b : Char) : Str → Prop
  | [] => True
  | [x] => x ≠ a
  | x :: y :: s => ¬ (x = a ∧ y = b) ∧ free a b (y :: s)

theorem free_plain (a b : Char) (s : Str) (h : a ∉ s) : free a b s := by
  induction s with
  | nil => trivial
  | cons x s ih =>
    simp only [List.mem_cons, not_or] at h
    cases s with
    | nil => exact Ne.symm h.1
    | cons y s => exact ⟨fun c => h.1 c.1.symm, ih h.2⟩

theorem free_append (a b : Char) (s t : Str) (hs : free a b s) (ht : free a b t) : free a b (s ++ t) := by
  induction s with
  | nil => exact ht
  | cons x s ih =>
    cases s with
    | nil =>
      cases t with
      | nil => exact hs
      | cons y t => exact ⟨fun c => hs c.1, ht⟩
    | cons y s => exact ⟨hs.1, ih hs.2⟩

theorem splitTwo_free (a b : Char) (s cur : Str) (h : free a b s) : splitTwo a b cur s = [cur ++ s] := by
  induction s generalizing cur with
  | nil => simp [splitTwo]
  | cons x s ih =>
    cases s with
    | nil => simp [splitTwo]
    | cons y s =>
      rw [splitTwo, if_neg h.1, ih _ h.2]
      simp

theorem splitTwo_append (a b : Char) (s cur t : Str) (h : free a b s) :
    splitTwo a b cur (s ++ a :: b :: t) = (cur ++ s) :: splitTwo a b [] t := by
  induction s generalizing cur with
  | nil => simp [splitTwo]
  | cons x s ih =>
    cases s with
    | nil =>
      have h : x ≠ a := h
      simp [splitTwo, h]
    | cons y s =>
      rw [List.cons_append, List.cons_append, splitTwo, if_neg h.1]
      have := ih (cur ++ [x]) h.2
      rw [List.cons_append] at this
      rw [this]
      simp

/-- What comes after the `&$`. -/
def ZhsText.body (t : ZhsText) : Str := t.chart ++ ('&' :: '#' :: (t.description ++ ('&' :: '#' :: (t.catalog ++ [t.c0, t.c1]))))

theorem ZhsText.text_body (t : ZhsText) : t.text = '&' :: '$' :: t.body := by simp [text, body]

theorem body_free (t : ZhsText) (h : t.Fits) : free '&' '$' t.body := by
  obtain ⟨h1, h2, h3, h4, h5, -⟩ := h
  unfold ZhsText.body
  refine free_append _ _ _ _ (free_plain _ _ _ h1) ?_
  refine free_append _ _ ['&', '#'] _ ⟨by decide, show '#' ≠ '&' by decide⟩ ?_
  refine free_append _ _ _ _ (free_plain _ _ _ h2) ?_
  refine free_append _ _ ['&', '#'] _ ⟨by decide, show '#' ≠ '&' by decide⟩ ?_
  refine free_append _ _ _ _ (free_plain _ _ _ h3) (free_plain _ _ _ ?_)
  simp [Ne.symm h4, Ne.symm h5]

theorem zhs_thread (c : Int) (t : ZhsText) (h : t.Fits) : zhsThread { color := c } t.body = zhsNamed (c, t) := by
  obtain ⟨h1, h2, h3, h4, h5, h6⟩ := h
  have e : splitTwo '&' '#' [] t.body = [t.chart, t.description, t.catalog ++ [t.c0, t.c1]] := by
    unfold ZhsText.body
    rw [splitTwo_append _ _ _ _ _ (free_plain _ _ _ h1), splitTwo_append _ _ _ _ _ (free_plain _ _ _ h2), splitTwo_free]
    · rfl
    · refine free_append _ _ _ _ (free_plain _ _ _ h3) (free_plain _ _ _ ?_)
      simp [Ne.symm h4, Ne.symm h5]
  have k : ∀ s : Str, (s.length ≠ 0) = ¬ s = [] := by intro s; simp
  have g : (t.catalog ++ [t.c0, t.c1]).take ((t.catalog ++ [t.c0, t.c1]).length - 2) = t.catalog := by
    simp
  have m : ((t.catalog ++ [t.c0, t.c1]).length > 3) = ¬ t.catalog = [] := by
    rw [← k]
    simp only [List.length_append, List.length_cons, List.length_nil, eq_iff_iff]
    omega
  unfold zhsThread
  rw [e]
  simp only [g, m, k, zhsNamed, given]
  split_ifs <;> rfl

theorem zhs_split (l : List ZhsText) (hl : ∀ t ∈ l, t.Fits) (head : Str) (hh : free '&' '$' head) :
    (splitTwo '&' '$' [] (head ++ l.flatMap ZhsText.text)).tail = l.map ZhsText.body := by
  suffices h : splitTwo '&' '$' [] (head ++ l.flatMap ZhsText.text) = head :: l.map ZhsText.body by rw [h]; rfl
  induction l generalizing head with
  | nil => simp [splitTwo_free _ _ _ _ hh]
  | cons t l ih =>
    rw [List.flatMap_cons, ZhsText.text_body, List.cons_append, List.cons_append, splitTwo_append _ _ _ _ _ hh,
      ih (fun a ha => hl a (by simp [ha])) _ (body_free t (hl t (by simp)))]
    rfl

theorem zhs_texts (l : List (Int × ZhsText)) (hl : ∀ p ∈ l, p.2.Fits) (more : List Int) :
    zhsTexts ((l.map Prod.fst ++ more).map (fun c => { color := c })) (l.map (fun p => p.2.body)) =
      l.map zhsNamed ++ more.map (fun c => { color := c }) := by
  induction l with
  | nil => cases more <;> rfl
  | cons p l ih =>
    simp only [List.map_cons, List.cons_append, zhsTexts]
    rw [ih (fun a ha => hl a (by simp [ha])), zhs_thread _ _ (hl p (by simp))]

theorem zhs_colours (cs : List Int) (hc : ∀ c ∈ cs, 0 ≤ c ∧ c < 2 ^ 24) (rest : Bytes) :
    zhsColours cs.length (cs.flatMap writeInt24be ++ rest) = (cs.map (fun c => { color := c }), rest) := by
  induction cs with
  | nil => rfl
  | cons c cs ih =>
    have h := hc c (by simp)
    have e : (c :: cs).flatMap writeInt24be ++ rest = writeInt24be c ++ (cs.flatMap writeInt24be ++ rest) := by simp
    rw [List.length_cons, zhsColours, e, (C02_read_write c _).2.2.2.2.1]
    have m : c % 2 ^ 24 = c := by omega
    simp only [m]
    rw [ih (fun a ha => hc a (by simp [ha]))]
    rfl

/-- **C89**: ZHS: at 0x0F the place of the records, at 0x13 that of the header: the number of colours, the colours, the length of the texts,
the texts. Threads without texts follow those with. -/
theorem C89_zhs (f : Bytes) (start head : Nat) (hs : start < 2 ^ 32) (hh : head < 2 ^ 32) (h0 : Containers.Has f 0x0F (writeInt32le start))
    (h1 : Containers.Has f 0x13 (writeInt32le head)) (named : List (Int × ZhsText)) (more : List Int) (hn : ∀ p ∈ named, p.2.Fits)
    (hc : ∀ c ∈ named.map Prod.fst ++ more, 0 ≤ c ∧ c < 2 ^ 24) (_hk : named.length + more.length < 256)
    (first : Str) (hfirst : '&' ∉ first) (texts : Bytes) (htexts : texts = utf8 (first ++ named.flatMap (fun p => p.2.text)))
    (hlen : texts.length < 2 ^ 16)
    (h2 : Containers.Has f head ([((named.length + more.length : Nat) : Int)] ++ ((named.map Prod.fst ++ more).flatMap writeInt24be ++
      (writeInt16le texts.length ++ texts))))
    (l : List Zhs) (hl : ∀ i ∈ l, i.Fits) (tail : Bytes) (ht : zhsEnd tail) (h3 : f.drop start = l.flatMap Zhs.bytes ++ tail) (fuel : Nat)
    (hf : l.length < fuel) :
    readZhs fuel f = some (.ok
      { stitches := drawn 0 0 (Zhs.evs 0 0 l)
        threads := named.map zhsNamed ++ more.map (fun c => { color := c })
        extras := [] }) := by
  have a := has_int32 h0 hs
  have b := has_int32 h1 hh
  have head : zhsHeader (f.drop head) = .ok { threads := named.map zhsNamed ++ more.map (fun c => { color := c }) } := by
    obtain ⟨rest, e⟩ := h2
    rw [e]
    unfold zhsHeader
    have e1 : [((named.length + more.length : Nat) : Int)] ++ ((named.map Prod.fst ++ more).flatMap writeInt24be ++
        (writeInt16le texts.length ++ texts)) ++ rest = ((named.length + more.length : Nat) : Int) ::
          ((named.map Prod.fst ++ more).flatMap writeInt24be ++ (writeInt16le texts.length ++ (texts ++ rest))) := by
      simp
    rw [e1]
    have e2 : ∀ r, readInt8 (((named.length + more.length : Nat) : Int) :: r) = (some ((named.length + more.length : Nat) : Int), r) := by
      intro r
      rfl
    rw [e2]
    have e3 : (((named.length + more.length : Nat) : Int)).toNat = (named.map Prod.fst ++ more).length := by
      rw [Int.toNat_natCast]
      simp
    simp only [e3]
    rw [zhs_colours _ hc]
    simp only
    rw [(C02_read_write _ _).2.1]
    have e4 : (((texts.length : Int)) % 2 ^ 16).toNat = texts.length := by omega
    simp only [Option.getD_some, e4, List.take_left]
    rw [htexts, decodeUtf8_utf8]
    simp only
    have e5 := zhs_split (named.map Prod.snd) (by
      intro t ht
      obtain ⟨p, hp, rfl⟩ := List.mem_map.1 ht
      exact hn p hp) first (free_plain _ _ _ hfirst)
    rw [List.flatMap_map, List.map_map] at e5
    rw [e5]
    have e6 := zhs_texts named hn more
    rw [show List.map (ZhsText.body ∘ Prod.snd) named = named.map (fun p => p.2.body) from rfl, e6]
  unfold readZhs
  rw [show readInt32le (f.drop 0x0F) = (some (start : Int), (readInt32le (f.drop 0x0F)).2) from Prod.ext a rfl,
    show readInt32le (f.drop 0x13) = (some ((_ : Nat) : Int), (readInt32le (f.drop 0x13)).2) from Prod.ext b rfl]
  simp only [Int.toNat_natCast]
  rw [h3, head, C88_zhs l hl tail ht fuel hf]
  rfl

/-! ## Examples -/

/-- A catalogue number of one character is dropped: the code asks for more than three characters, of which two are not part of it. -/
theorem C89_zhs_catalog_fails (c : Int) (x : Char) (hx : x ≠ '&') :
    (zhsThread { color := c } (ZhsText.body ⟨"A".toList, "B".toList, [x], ' ', ' '⟩)).catalog = none := by
  simp [ZhsText.body, zhsThread, splitTwo, hx]

example : (readSew 5 ([2, 0, 10, 0, 84, 0] ++ List.replicate (0x1D78 - 6) 0 ++ [3, 4, 0x80, 0x20, 0, 0])).map
    (Except.map (fun d => (d.stitches, d.threads.map Thread.color))) =
    some (.ok ([⟨3, -4, 0⟩, ⟨3, -4, 4⟩], [0xff0000, 0x5c7649])) := by decide +kernel

example : readPcd 5 ([0x32, 0] ++ (writeInt16le 2 ++ ([0x12, 0x34, 0x56, 0, 0xFF, 0, 0, 0] ++ ([1, 0] ++ [Pc.stitch 3 (-6)].flatMap Pc.pcd)))) =
    some (.ok ⟨[⟨5, 10, 0⟩, ⟨5, 10, 4⟩], [{ color := 0x123456 }, { color := 0xFF0000 }], []⟩) := by decide +kernel

example : readPcm 5 ([0, 0] ++ (writeInt16be 2 ++ ([0, 2, 0, 15] ++ ([0, 1] ++ [Pc.stitch 3 (-6)].flatMap Pc.pcm)))) =
    some (.ok ⟨[⟨5, 10, 0⟩, ⟨5, 10, 4⟩], [pcmThread 3 0x0000FF, pcmThread 16 0xFFFFFF], []⟩) := by decide +kernel

example : (ZhsText.text ⟨"Madeira".toList, "Red".toList, "1147".toList, '\r', '\n'⟩) = "&$Madeira&#Red&#1147\r\n".toList := by decide +kernel
example : ZhsText.Fits ⟨"Madeira".toList, "Red".toList, "1147".toList, '\r', '\n'⟩ := by unfold ZhsText.Fits; decide +kernel
example : zhsNamed (0xFF0000, ⟨"Madeira".toList, [], "1147".toList, '\r', '\n'⟩) =
    { color := 0xFF0000, chart := some "Madeira", catalog := some "1147" } := by decide +kernel

end SmallFiles
end Emb
