import Verif.Pes
import Verif.Props.PecFileProps

/-!
# C79: PES files

The PEC part of a PES file is found by its position and read as in a PEC file; version 6 files also have texts and threads.
-/

namespace Emb
namespace Pes

open Emb.Blocks Emb.Ops Emb.Pec

/-! ## Header -/

/-- The text has no characters outside ASCII among its first 255. -/
def Plain (v : Option Str) : Prop := ∀ s ∈ v, ∀ c ∈ s.take 255, c.utf8Size = 1

/-- What remains of a text in a PES file: 255 characters; an empty text is the same as none. -/
def cut (v : Option Str) : Option Str := v.bind (fun s => if s = [] then none else some (s.take 255))

theorem readString_string8 (v : Option Str) (rest : Bytes) (h : Plain v) : readString (string8 v ++ rest) = (cut v, rest) := by
  unfold readString string8
  cases v with
  | none =>
    rw [(C02_read_write 0 rest).1]
    rfl
  | some s =>
    have hp := h s rfl
    have hlen : (utf8 (s.take 255)).length = (s.take 255).length := utf8_length_ascii _ hp
    have hle : (s.take 255).length ≤ 255 := by simp
    simp only [List.append_assoc]
    rw [(C02_read_write ((s.take 255).length : Nat) _).1]
    simp only [cut, Option.bind_some]
    have e : (((s.take 255).length : Nat) : Int) % 2 ^ 8 = ((s.take 255).length : Nat) := by omega
    rw [e]
    by_cases hs : s = []
    · subst hs; rfl
    · have h0 : (s.take 255).length ≠ 0 := by
        cases s with
        | nil => exact absurd rfl hs
        | cons c s => simp
      rw [if_neg (by omega), if_neg hs, Int.toNat_natCast, ← hlen, List.take_left, List.drop_left, decodeUtf8_utf8]

/-- The thread a version 6 file gives back. -/
def kept (t : Thread) : Thread where
  color := 0xFF000000 + t.rgb
  description := (cut (t.description.map String.toList)).map String.ofList
  catalog := (cut (t.catalog.map String.toList)).map String.ofList
  brand := (cut (t.brand.map String.toList)).map String.ofList
  chart := (cut (t.chart.map String.toList)).map String.ofList

/-- All texts of a thread are ASCII. -/
def PlainThread (t : Thread) : Prop :=
  Plain (t.catalog.map String.toList) ∧ Plain (t.description.map String.toList) ∧ Plain (t.brand.map String.toList) ∧
    Plain (t.chart.map String.toList)

theorem readThread_thread (t : Thread) (rest : Bytes) (h : PlainThread t) : readThread (thread t ++ rest) = .ok (kept t, rest) := by
  obtain ⟨h1, h2, h3, h4⟩ := h
  unfold readThread thread
  simp only [List.append_assoc]
  rw [readString_string8 _ _ h1]
  have e : writeInt8 t.red ++ (writeInt8 t.green ++ (writeInt8 t.blue ++ (writeInt8 0 ++ (writeInt32le 0xA ++
      (string8 (t.description.map String.toList) ++ (string8 (t.brand.map String.toList) ++ (string8 (t.chart.map String.toList) ++ rest))))))) =
      writeInt24be t.rgb ++ (0 :: 0xA :: 0 :: 0 :: 0 ::
        (string8 (t.description.map String.toList) ++ (string8 (t.brand.map String.toList) ++ (string8 (t.chart.map String.toList) ++ rest)))) := by
    simp only [writeInt8, writeInt24be, writeInt32le, lo8, shr, Thread.red, Thread.green, Thread.blue, Thread.rgb, List.cons_append,
      List.nil_append, List.cons.injEq]
    refine ⟨by omega, by omega, by omega, by decide, by decide, by decide, by decide, by decide, trivial⟩
  simp only
  rw [e, (C02_read_write t.rgb _).2.2.2.2.1]
  simp only [List.drop_succ_cons, List.drop_zero]
  rw [readString_string8 _ _ h2]
  simp only
  rw [readString_string8 _ _ h3]
  simp only
  rw [readString_string8 _ _ h4]
  have e2 : t.rgb % 2 ^ 24 = t.rgb := by unfold Thread.rgb; omega
  simp only [e2]
  rfl

theorem readThreads_threads (ts : List Thread) (rest : Bytes) (h : ∀ t ∈ ts, PlainThread t) :
    readThreads ts.length (ts.flatMap thread ++ rest) = .ok (ts.map kept) := by
  induction ts with
  | nil => rfl
  | cons t ts ih =>
    rw [List.length_cons, readThreads, List.flatMap_cons, List.append_assoc, readThread_thread _ _ (h t (by simp))]
    simp only [bind, Except.bind]
    rw [ih (fun u hu => h u (by simp [hu]))]
    rfl

/-- All texts of the metadata are ASCII. -/
def PlainTexts (t : Texts) : Prop := Plain t.name ∧ Plain t.category ∧ Plain t.author ∧ Plain t.keywords ∧ Plain t.comments

/-- The metadata a version 6 file gives back: for each text that is not empty its first 255 characters. -/
def keptTexts (t : Texts) : List (String × Str) :=
  entry "name" (cut t.name) ++ entry "category" (cut t.category) ++ entry "author" (cut t.author) ++
    entry "keywords" (cut t.keywords) ++ entry "comments" (cut t.comments)

theorem readMeta_texts (t : Texts) (rest : Bytes) (h : PlainTexts t) :
    readMeta (string8 t.name ++ (string8 t.category ++ (string8 t.author ++ (string8 t.keywords ++ (string8 t.comments ++ rest))))) =
      (keptTexts t, rest) := by
  obtain ⟨h1, h2, h3, h4, h5⟩ := h
  unfold readMeta
  simp only [readString_string8 _ _ h1, readString_string8 _ _ h2, readString_string8 _ _ h3, readString_string8 _ _ h4,
    readString_string8 _ _ h5]
  rfl

theorem pageNumbers_length : (pageNumbers.flatMap writeInt16le).length = 36 := by decide +kernel

theorem unit_length (f32 : ℚ → Bytes) (hf : ∀ q, (f32 q).length = 4) : (unit f32).length = 24 := by
  unfold unit
  simp [hf]

/-- The header of version 6. -/
theorem readHeader_V6 (f32 : ℚ → Bytes) (hf : ∀ q, (f32 q).length = 4) (texts : Texts) (chart : List Thread) (n : Int) (rest : Bytes)
    (ht : PlainTexts texts) (hc : ∀ t ∈ chart, PlainThread t) (hl : chart.length < 2 ^ 16) :
    readHeader "image_file" 36 24 (headerV6 f32 texts chart n ++ rest) = .ok (keptTexts texts, chart.map kept) := by
  unfold readHeader headerV6
  simp only [List.append_assoc]
  have e1 : ∀ r : Bytes, (writeInt16le 1 ++ ([0x30, 0x32] ++ r)).drop 4 = r := fun r => rfl
  rw [e1, readMeta_texts _ _ ht]
  simp only
  have e2 := drop_past (pageNumbers.flatMap writeInt16le) (writeInt8 0 ++ (unit f32 ++ (writeInt16le 0 ++ (writeInt16le 0 ++ (writeInt16le 0 ++
    (writeInt16le chart.length ++ (chart.flatMap thread ++ (writeInt16le n ++ rest)))))))) 0 pageNumbers_length
  rw [Nat.add_zero, List.drop_zero] at e2
  rw [e2]
  have e3 : ∀ r : Bytes, readString (writeInt8 0 ++ r) = (none, r) := fun r => readString_string8 none r (by intro s hs; cases hs)
  rw [e3]
  simp only
  have e4 := drop_past (unit f32) (writeInt16le 0 ++ (writeInt16le 0 ++ (writeInt16le 0 ++
    (writeInt16le chart.length ++ (chart.flatMap thread ++ (writeInt16le n ++ rest)))))) 0 (unit_length f32 hf)
  rw [Nat.add_zero, List.drop_zero] at e4
  rw [e4]
  unfold readChart
  simp only [(C02_read_write 0 _).2.1]
  rw [(C02_read_write (chart.length : Nat) _).2.1]
  have e5 : ((chart.length : Nat) : Int) % 2 ^ 16 = (chart.length : Nat) := by omega
  simp only [e5, Int.toNat_natCast]
  rw [readThreads_threads _ _ hc]
  have e6 : (some ((0 : Int) % 2 ^ 16) ≠ some 0) = False := by decide
  simp only [e6, if_false]
  simp [Except.map, entry]

/-! ## Files -/

theorem readFile_assemble (sig : String) (before pec after : Bytes) (h8 : (utf8 sig.toList).length = 8) (hsig : sig ≠ "#PEC0001")
    (hlen : 12 + before.length < 2 ^ 32) :
    readFile (assemble sig before pec after) =
      (readVersion (some sig.toList) (before ++ (pec ++ after)) >>= fun h =>
        (Pec.readPattern h.2.2 (pec ++ after)).map (fun d => ⟨h.1, h.2.1, d.stops⟩)) := by
  have e1 : (assemble sig before pec after).take 8 = utf8 sig.toList := by
    unfold assemble
    rw [List.append_assoc, List.append_assoc, List.append_assoc, ← h8, List.take_left]
  have e2 : (assemble sig before pec after).drop 8 =
      writeInt32le ((utf8 sig.toList).length + 4 + before.length : Nat) ++ (before ++ (pec ++ after)) := by
    unfold assemble
    rw [List.append_assoc, List.append_assoc, List.append_assoc, ← h8, List.drop_left]
  have e3 : ((((utf8 sig.toList).length + 4 + before.length : Nat)) : Int) % 2 ^ 32 = (12 + before.length : Nat) := by
    rw [h8]; omega
  have e4 : (assemble sig before pec after).drop (12 + before.length) = pec ++ after := by
    unfold assemble
    have := drop_past (utf8 sig.toList ++ writeInt32le ((utf8 sig.toList).length + 4 + before.length : Nat) ++ before) (pec ++ after)
      (n := 12 + before.length) 0 (by simp [h8, writeInt32le]; omega)
    rw [Nat.add_zero, List.drop_zero] at this
    rw [← this]
    simp only [List.append_assoc]
  unfold readFile
  rw [e1, decodeUtf8_utf8, e2, if_neg (by
    intro e
    injection e with e
    exact hsig (String.toList_injective e)), (C02_read_write _ _).2.2.2.2.2.1, e3]
  simp only [Int.toNat_natCast, e4]

theorem assemble_length (sig : String) (before pec after : Bytes) (h8 : (utf8 sig.toList).length = 8) :
    12 + before.length ≤ (assemble sig before pec after).length := by
  unfold assemble
  simp only [List.length_append, h8, writeInt32le, List.length_cons, List.length_nil]
  omega

theorem readVersion_1 (s : Bytes) : readVersion (some "#PES0001".toList) s = .ok (some 1, [], []) := by
  unfold readVersion
  rw [if_neg (by decide), if_neg (by decide), if_neg (by decide), if_neg (by decide), if_neg (by decide), if_neg (by decide),
    if_neg (by decide), if_neg (by decide), if_neg (by decide), if_neg (by decide), if_neg (by decide), if_neg (by decide), if_pos rfl]

theorem readVersion_6 (s : Bytes) :
    readVersion (some "#PES0060".toList) s = (readHeader "image_file" 36 24 s).map (fun r => (some 6, r)) := by
  unfold readVersion
  rw [if_neg (by decide), if_neg (by decide), if_neg (by decide), if_neg (by decide), if_pos rfl]

/-- Segments have colour codes if there is a thread to choose from. -/
theorem segLoop_color (threads : List Thread) (filler : Nat → Thread) (chart : List (Option Thread)) (ax ay : ℚ)
    (hc : 0 < entries chart) (bs : List (List Stitch)) : ∀ (k : Nat) (code : Option Nat) (sx sy : ℚ), code.isSome = true →
    ∀ s ∈ segLoop threads filler chart ax ay k code sx sy bs, s.color.isSome = true := by
  induction bs with
  | nil => intro k code sx sy _ s hs; cases hs
  | cons b bs ih =>
    intro k code sx sy h s hs
    cases b with
    | nil => exact ih k code sx sy h s hs
    | cons st b =>
      simp only [segLoop] at hs
      by_cases h1 : cmdOf st.cmd = JUMP
      · rw [if_pos h1] at hs
        rcases List.mem_cons.1 hs with rfl | hs
        · exact h
        · exact ih _ _ _ _ h s hs
      · rw [if_neg h1] at hs
        by_cases h2 : cmdOf st.cmd = COLOR_CHANGE
        · rw [if_pos h2] at hs
          obtain ⟨i, t, hi, -⟩ := findNearest_some_of_entries (c := (threadAt threads filler k).color) hc
          exact ih _ _ _ _ (by rw [hi]; rfl) s hs
        · rw [if_neg h2] at hs
          by_cases h3 : cmdOf st.cmd = STITCH
          · rw [if_pos h3] at hs
            rcases List.mem_cons.1 hs with rfl | hs
            · exact h
            · exact ih _ _ _ _ h s hs
          · rw [if_neg h3] at hs
            exact ih _ _ _ _ h s hs

theorem allSome_of {α : Type} (l : List (Option α)) (h : ∀ a ∈ l, a.isSome = true) : ∃ r, allSome l = some r ∧ l = r.map some := by
  induction l with
  | nil => exact ⟨[], rfl, rfl⟩
  | cons a l ih =>
    cases a with
    | none => have := h none (by simp); simp at this
    | some a =>
      obtain ⟨r, h1, h2⟩ := ih (fun b hb => h b (by simp [hb]))
      exact ⟨a :: r, by rw [allSome, h1]; rfl, by rw [h2]; rfl⟩

theorem blocks_ok (f32 : ℚ → Bytes) (threads : List Thread) (filler : Nat → Thread) (chart : List (Option Thread)) (b : Box)
    (l : List Stitch) (hc : 0 < entries chart) : ∃ r, blocks f32 threads filler chart b l = .ok r := by
  unfold blocks
  simp only
  obtain ⟨r, hr, -⟩ := allSome_of ((segments threads filler chart (b.minX - (b.maxX + b.minX) / 2 + (b.maxX + b.minX) / 2)
      (b.maxY - (b.maxY + b.minY) / 2 + (b.maxY + b.minY) / 2) l).map (fun s => s.color.map (fun c => (c, s.flag, s.points)))) (by
    intro a ha
    obtain ⟨s, hs, rfl⟩ := List.mem_map.1 ha
    rw [Option.isSome_map]
    obtain ⟨i, t, hi, -⟩ := findNearest_some_of_entries (c := (threadAt threads filler 0).color) hc
    exact segLoop_color threads filler chart _ _ hc _ 1 _ 0 0 (by rw [hi]; rfl) s hs)
  unfold coded
  rw [hr]
  exact ⟨_, rfl⟩

/-- C79: a version 1 PES file is written whenever a PEC file is, truncated or not, and reading it gives what reading the PEC file
gives, for every pattern. -/
theorem C79_version_1 (f32 : ℚ → Bytes) (order : List Thread → List Thread) (filler filler' fillerSeg : Nat → Thread) (texts : Texts)
    (truncated : Bool) (T : List Thread) (l : List Stitch) (f' : Bytes) (h : Pec.writeFile order filler filler' texts.name T l = .ok f') :
    ∃ f, writeFile f32 order filler filler' fillerSeg texts 1 truncated T l = .ok f ∧
      (f.length < 2 ^ 32 → readFile f = (Pec.readFile f').map (fun d => ⟨some 1, [], d⟩)) := by
  unfold Pec.writeFile at h
  simp only at h
  generalize hp : prepare filler T l = p at h
  cases hw : writePattern order texts.name (fixColorCount p.2 filler' p.1) p.1 with
  | error e => rw [hw] at h; cases h
  | ok pec =>
    rw [hw] at h
    simp only [Except.map] at h
    injection h with h
    subst h
    have h8 : (utf8 "#PES0001".toList).length = 8 := by decide +kernel
    have hrd : Pec.readFile (utf8 "#PEC0001".toList ++ pec) = (Pec.readPattern [] pec).map Pec.Design.stops := by
      unfold Pec.readFile
      have e8 : (utf8 "#PEC0001".toList).length = 8 := by decide +kernel
      have := drop_past (utf8 "#PEC0001".toList) pec 0 e8
      rw [Nat.add_zero, List.drop_zero] at this
      rw [this]
    have key : ∀ before : Bytes, (assemble "#PES0001" before pec []).length < 2 ^ 32 → readFile (assemble "#PES0001" before pec []) =
        (Pec.readFile (utf8 "#PEC0001".toList ++ pec)).map (fun d => ⟨some 1, [], d⟩) := by
      intro before hl
      have := assemble_length "#PES0001" before pec [] h8
      rw [readFile_assemble _ _ _ _ h8 (by decide) (by omega), readVersion_1, hrd]
      simp only [bind, Except.bind, List.append_nil]
      cases Pec.readPattern [] pec <;> rfl
    unfold writeFile
    simp only [hp]
    cases truncated with
    | true =>
      refine ⟨assemble "#PES0001" (List.replicate 10 0) pec [], ?_, key _⟩
      rw [if_pos rfl, if_pos trivial]
      unfold writeTruncatedV1 assemble
      rw [hw, h8]
      simp only [Except.map, List.append_nil, List.append_assoc]
      rfl
    | false =>
      rw [if_neg (by decide), if_pos trivial]
      unfold writeV1
      rw [hw]
      cases hb : bounds p.1 with
      | none => exact ⟨_, rfl, key _⟩
      | some b =>
        obtain ⟨r, hr⟩ := blocks_ok f32 p.2 fillerSeg palette b p.1 (by decide +kernel)
        simp only
        rw [hr]
        exact ⟨_, rfl, key _⟩

variable {o : Settings} {lm : Libm} {threads : List Thread} {source out : List Stitch} {ths : List (Option Thread)}

/-- C79: a version 6 PES file, truncated or not, of a pattern encoded for PES is read without an exception. Read are the texts, the
threads with their texts, the label and the stitches as in C12 and the thumbnails; then threads doubled for stops are joined (C49). -/
theorem C79_version_6_partial (hlm : lm.Sound) (hv : o.ValidSequins) (hr : o.round = true)
    (h1 : o.maxStitch = some 2047) (h2 : o.maxJump = some 2047) (h3 : o.longStitch = 0xF1 ∨ o.longStitch = 0xF2)
    (hs : o.sequin ≠ 0xF5)
    (hq : ∀ st ∈ source, st.low ≠ 0xD5 ∧ st.low ≠ 0xD6 ∧ st.low ≠ 0xF0 ∧ st.low ≠ 0xF5)
    (h : encode o lm threads source = .ok (out, ths)) (f32 : ℚ → Bytes) (hf : ∀ q, (f32 q).length = 4)
    (order : List Thread → List Thread) (filler filler' fillerSeg : Nat → Thread) (texts : Texts) (truncated : Bool) (T : List Thread)
    (hT : out.countP isChange < (fixColorCount T filler out).length)
    (hlen : (fixColorCount T filler out).length + out.countP (fun a => a.low == 3) ≤ 255)
    (ho : IsSetOrder (order (prepare filler T out).2) (prepare filler T out).2) (hsz : (order (prepare filler T out).2).length ≤ 64)
    (htexts : PlainTexts texts) (hthr : ∀ t ∈ (prepare filler T out).2, PlainThread t)
    (hsec : 16 + (encodeSection (stopsAsChanges out)).length < 2 ^ 24) :
    ∃ (f : Bytes) (d : Pec.Design), writeFile f32 order filler filler' fillerSeg texts 6 truncated T out = .ok f ∧
      (f.length < 2 ^ 32 → readFile f = .ok ⟨some 6, keptTexts texts, d.stops⟩) ∧
      d.label = some (strip ((texts.name.getD "Untitled".toList).take 8)) ∧
      d.stitches = seen 0 0 true true (place 0 0 (deltas 0 0 (stopsAsChanges out))) ∧
      d.threads = (prepare filler T out).2.map kept ∧
      ∃ b, bounds (stopsAsChanges out) = some b ∧ d.graphics.length = d.threads.length + 1 ∧
        ∀ i p, (thumbnails b (stopsAsChanges out))[i]? = some p → i ≤ d.threads.length →
          d.graphics[i]? = some (p, 6, if i = 0 then none else d.threads[i - 1]?) := by
  obtain ⟨t, ts, hT1, hp, hpl, hfix⟩ := prepare_spec (out := out) filler filler' T hT
  rw [hp] at ho hsz hthr ⊢
  simp only at ho hsz hthr ⊢
  generalize hT' : dupsOf t ts (kinds out) = T' at *
  have hne : stopsAsChanges out ≠ [] := by
    obtain ⟨l, e, rfl, -⟩ := encoded_recs (M := 2047) (by decide) hlm hv hr (by rw [h1]; norm_num)
      (by rw [h2]; norm_num) h3 hs hq h
    simp [stopsAsChanges]
  have hT0 : T' ≠ [] := by
    intro e
    rw [e, hT1] at hpl
    simp only [List.length_nil, List.length_cons] at hpl
    omega
  have hname : ∀ c ∈ (texts.name.getD "Untitled".toList).take 8, c.utf8Size = 1 := by
    cases hn : texts.name with
    | none => decide
    | some s =>
      intro c hc
      refine htexts.1 s hn c ?_
      have e : (s.take 255).take 8 = s.take 8 := by rw [List.take_take]; rfl
      exact List.mem_of_mem_take (e.symm ▸ hc)
  have hk0 : T'.map kept ≠ [] := by simpa using hT0
  have h8 : (utf8 "#PES0060".toList).length = 8 := by decide +kernel
  have hent : 0 < entries (T'.map some) := by
    unfold entries
    cases T' with
    | nil => exact absurd rfl hT0
    | cons a l => simp
  -- the file has the parts of `assemble` with some bytes after the header
  have hparts : ∃ (pec : Bytes) (n : Int) (more after : Bytes), writePattern order texts.name T' (stopsAsChanges out) = .ok pec ∧
      writeFile f32 order filler filler' fillerSeg texts 6 truncated T out =
        .ok (assemble "#PES0060" (headerV6 f32 texts T' n ++ more) pec after) := by
    obtain ⟨b, pec, rest, d, hb, hw, -⟩ := readPattern_layout [] order texts.name T' (stopsAsChanges out) [] hne ho hsz hT0
      (by omega) hname hsec (.inl rfl)
    unfold writeFile
    simp only [hp]
    cases truncated with
    | true =>
      rw [if_pos rfl, if_neg (by norm_num), if_pos trivial]
      unfold writeTruncatedV6
      rw [hfix, hw]
      refine ⟨pec, 0, [0, 0, 0, 0, 0] ++ [0, 0, 0, 0], addendum [255] [] ++ writeInt16le 0, rfl, ?_⟩
      simp only [Except.map, List.append_assoc]
    | false =>
      rw [if_neg (by decide), if_neg (by norm_num), if_pos trivial]
      unfold writeV6
      simp only
      rw [hfix, hb]
      obtain ⟨r, hr⟩ := blocks_ok f32 T' fillerSeg (T'.map some) b (stopsAsChanges out) hent
      simp only
      rw [hr, hw]
      refine ⟨pec, 1, [0xFF, 0xFF, 0, 0] ++ (r.1 ++ ((writeInt32le 0 ++ writeInt32le 0) ++
          (List.range r.2).flatMap (fun i : Nat => writeInt32le i ++ writeInt32le 0))),
          addendum (colorIndices order T') (T'.map (·.color)) ++ writeInt16le 0, rfl, ?_⟩
      simp only [Except.map, bind, Except.bind, List.append_assoc]
  obtain ⟨pec, n, more, after, hw, hf'⟩ := hparts
  obtain ⟨b, pec', rest, d, hb, hw', hrd, hlab, hst, hth, hgl, hg⟩ := readPattern_layout (T'.map kept) order texts.name T'
    (stopsAsChanges out) after hne ho hsz hT0 (by omega) hname hsec (.inr (by simp))
  rw [hw] at hw'
  injection hw' with hw'
  subst hw'
  rw [if_neg hk0] at hth
  refine ⟨_, d, hf', ?_, hlab, ?_, hth, b, hb, ?_, ?_⟩
  · intro hl
    have := assemble_length "#PES0060" (headerV6 f32 texts T' n ++ more) pec after h8
    rw [readFile_assemble _ _ _ _ h8 (by decide) (by omega), readVersion_6, List.append_assoc,
      readHeader_V6 f32 hf texts T' n _ htexts hthr (by omega)]
    simp only [Except.map, bind, Except.bind]
    rw [hrd]
  · rw [hst]
    exact C12_exact hlm hv hr h1 h2 h3 hs hq h rest
  · rw [hgl, hth, List.length_map]
  · intro i p hi hle
    exact hg i p hi (by rw [hth, List.length_map] at hle; exact hle)

/-- C79: if, moreover, something is sewn before, between and after the stops and colour changes, and neighbouring threads differ in
what the file keeps of them, then stops come back as stops, and the threads are those of the pattern. -/
theorem C79_roundtrip_partial (hlm : lm.Sound) (hv : o.ValidSequins) (hr : o.round = true)
    (h1 : o.maxStitch = some 2047) (h2 : o.maxJump = some 2047) (h3 : o.longStitch = 0xF1 ∨ o.longStitch = 0xF2)
    (hs : o.sequin ≠ 0xF5) (hcc : o.changeCommand ≠ 9)
    (hq : ∀ st ∈ source, st.low ≠ 0xD5 ∧ st.low ≠ 0xD6 ∧ st.low ≠ 0xF0 ∧ st.low ≠ 0xF5)
    (h : encode o lm threads source = .ok (out, ths)) (f32 : ℚ → Bytes) (hf : ∀ q, (f32 q).length = 4)
    (order : List Thread → List Thread) (filler filler' fillerSeg : Nat → Thread) (texts : Texts) (truncated : Bool) (T : List Thread)
    (hT : out.countP isChange < (fixColorCount T filler out).length)
    (hlen : (fixColorCount T filler out).length + out.countP (fun a => a.low == 3) ≤ 255)
    (ho : IsSetOrder (order (prepare filler T out).2) (prepare filler T out).2) (hsz : (order (prepare filler T out).2).length ≤ 64)
    (htexts : PlainTexts texts) (hthr : ∀ t ∈ (prepare filler T out).2, PlainThread t)
    (hsec : 16 + (encodeSection (stopsAsChanges out)).length < 2 ^ 24)
    (hsew : Sewn true (place 0 0 (deltas 0 0 out)))
    (hne : ((fixColorCount T filler out).map kept).IsChain (fun a b => Thread.same a b = false)) :
    ∃ (f : Bytes) (d : Pec.Design), writeFile f32 order filler filler' fillerSeg texts 6 truncated T out = .ok f ∧
      (f.length < 2 ^ 32 → readFile f = .ok ⟨some 6, keptTexts texts, d⟩) ∧
      d.label = some (strip ((texts.name.getD "Untitled".toList).take 8)) ∧
      d.stitches = Pec.kept 0 0 true true (place 0 0 (deltas 0 0 out)) ∧
      d.threads = (fixColorCount T filler out).map kept := by
  obtain ⟨f, d, hw, hrd, hlab, hst, hth, -⟩ := C79_version_6_partial hlm hv hr h1 h2 h3 hs hq h f32 hf order filler filler' fillerSeg
    texts truncated T hT hlen ho hsz htexts hthr hsec
  have hback := stops_restored hlm hv hr h1 h2 h3 hs hcc hq h filler T hT hsew kept hne
  refine ⟨f, d.stops, hw, hrd, hlab, ?_, ?_⟩
  · unfold Design.stops
    simp only
    rw [hst, hth, hback]
  · unfold Design.stops
    simp only
    rw [hst, hth, hback]

/-! ## Examples -/

/-- What a user gets back from a PES file. -/
def viaPes (texts : Texts) (version : ℚ) (truncated : Bool) (threads : List Thread) (l : List Stitch) : Except PyErr Pes.Design :=
  writeFile (fun _ => [0, 0, 0, 0]) List.dedup (fun _ => { color := 0 }) (fun _ => { color := 0 }) (fun _ => { color := 0 }) texts version
    truncated threads l >>= readFile

/-- Two threads with texts. -/
def pesThreads : List Thread :=
  [{ color := 0xED171F, description := some "Red", catalog := some "12a", weight := some "40" },
   { color := 0x0000FE, brand := some "Acme", chart := some "Old" }]

example : ∀ t ∈ (prepare (fun _ => { color := 0 }) pesThreads fileDemo).2, PlainThread t := by
  have e : (prepare (fun _ => { color := 0 }) pesThreads fileDemo).2 =
      [{ color := 0xED171F, description := some "Red", catalog := some "12a", weight := some "40" },
       { color := 0xED171F, description := some "Red", catalog := some "12a", weight := some "40" },
       { color := 0x0000FE, brand := some "Acme", chart := some "Old" }] := by decide +kernel
  rw [e]
  intro t ht
  rcases List.mem_cons.1 ht with rfl | ht
  · unfold PlainThread Plain; decide
  rcases List.mem_cons.1 ht with rfl | ht
  · unfold PlainThread Plain; decide
  rcases List.mem_cons.1 ht with rfl | ht
  · unfold PlainThread Plain; decide
  · cases ht

example : (viaPes { name := some "Rose garden".toList, author := some "Me".toList, comments := some [] } 6 false pesThreads fileDemo).toOption.map
      (fun d => (d.version, d.texts)) = some (some 6, [("name", "Rose garden".toList), ("author", "Me".toList)]) := by decide +kernel

example : (viaPes { name := some "Rose garden".toList, author := some "Me".toList, comments := some [] } 6 false pesThreads fileDemo).toOption.map
      (fun d => (d.pec.label, d.pec.threads, d.pec.stitches)) =
    some (some "Rose gar".toList,
      [{ color := 0xFFED171F, description := some "Red", catalog := some "12a" },
       { color := 0xFF0000FE, brand := some "Acme", chart := some "Old" }],
      [⟨0, 0, 0⟩, ⟨5, 3, 0⟩, ⟨5, 3, 3⟩, ⟨5, 3, 2⟩, ⟨30, 4, 1⟩, ⟨30, 4, 0⟩, ⟨30, 4, 5⟩, ⟨30, 4, 2⟩, ⟨31, 40, 1⟩, ⟨31, 40, 0⟩,
       ⟨31, 40, 4⟩]) := by decide +kernel

example : (viaPes { name := some "Rose garden".toList } 1 true pesThreads fileDemo).toOption.map
      (fun d => (d.version, d.pec.label, d.pec.threads.map (·.description))) =
    some (some 1, some "Rose gar".toList, [some "Red", some "Ultramarine"]) := by decide +kernel

/-- Lengths of texts are counted in characters: after a text with an accent the header is read one byte late, and reading fails. -/
theorem C79_accent_fails : (match viaPes { comments := some "Rosé".toList } 6 false pesThreads fileDemo with
    | .error .typeError => true | _ => false) = true := by decide +kernel

/-- A description with an accent changes the colour of the next thread. -/
theorem C79_accent_colour : (viaPes {} 6 false [{ color := 0xFF0000, description := some "Rosé" }, { color := 0x0000FF }]
      fileDemo).toOption.map (fun d => d.pec.threads.map (fun t => t.rgb)) = some [0xFF0000, 0] := by decide +kernel

/-- A design with jumps only and no threads cannot be written in version 6: no nearest colour is found. -/
theorem C79_jumps_only_fails : (match viaPes {} 6 false [] (demoEncode settings [⟨5, 5, 1⟩]) with
    | .error .typeError => true | _ => false) = true := by decide +kernel

end Pes
end Emb
