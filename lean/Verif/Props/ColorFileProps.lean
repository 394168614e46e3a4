import Verif.ColorFiles
import Verif.Props.ThreadProps

/-!
# Property C59: colour-only files
-/

namespace Emb

theorem rgb_of_channels (t : Thread) : colorRgb t.red t.green t.blue = t.color % 16777216 := C42_channels' t

theorem rgb_lo8 (a b c : Int) : colorRgb (lo8 a) (lo8 b) (lo8 c) = colorRgb a b c := by
  simp only [colorRgb, lo8]; omega

/-- **C59** for EDR: as many threads, with the same 24-bit colours in the same order (and nothing else, because the file
holds nothing else). -/
theorem C59_edr (ts : List Thread) : Edr.read (Edr.write ts) = ts.map (fun t => { color := t.color % 16777216 }) := by
  induction ts with
  | nil => rfl
  | cons t ts ih =>
    show { color := colorRgb (lo8 t.red) (lo8 t.green) (lo8 t.blue) } :: Edr.read (Edr.write ts) = _
    rw [ih, rgb_lo8, rgb_of_channels]; rfl

/-- C59 for any EDR file, whole or cut: one thread for each four bytes, and one more if the last three bytes hold a colour; the
colour of thread `i` is made of the bytes `4 * i`, `4 * i + 1` and `4 * i + 2`. -/
theorem C59_edr_read (f : Bytes) : Edr.read f = (List.range ((f.length + 1) / 4)).map (fun i =>
    { color := colorRgb (f.getD (4 * i) 0) (f.getD (4 * i + 1) 0) (f.getD (4 * i + 2) 0) }) := by
  induction f using Edr.read.induct with
  | case1 r g b x rest ih =>
    have : ((r :: g :: b :: x :: rest).length + 1) / 4 = (rest.length + 1) / 4 + 1 := by simp only [List.length_cons]; omega
    rw [this, List.range_succ_eq_map, List.map_cons, List.map_map, Edr.read, ih]
    congr 1
  | case2 r g b => simp [Edr.read, List.range_succ]
  | case3 f h1 h2 =>
    rcases f with _ | ⟨a, _ | ⟨b, _ | ⟨c, _ | ⟨d, f⟩⟩⟩⟩
    · rfl
    · simp [Edr.read]
    · simp [Edr.read]
    · exact absurd rfl (h2 a b c)
    · exact absurd rfl (h1 a b c d f)

example : Edr.read [1, 2, 3, 0, 4, 5, 6] = [{ color := 0x010203 }, { color := 0x040506 }] := by decide +kernel

namespace Col

theorem lines_cr (i : Nat) (t : Thread) (s : Str) : textMode (line i t ++ s) =
    (dec i ++ ',' :: (dec t.red ++ ',' :: (dec t.green ++ ',' :: dec t.blue))) ++ '\n' :: textMode s := by
  have : line i t ++ s = (dec i ++ ',' :: (dec t.red ++ ',' :: (dec t.green ++ ',' :: dec t.blue))) ++ '\r' :: '\n' :: s := by
    unfold line
    rw [show ",".toList = [','] by decide +kernel, show "\r\n".toList = ['\r', '\n'] by decide +kernel]
    simp
  rw [this, textMode_line]
  have h : ∀ n, '\r' ∉ dec n := fun n => dec_ne (by decide) (by decide)
  simp [h]

theorem readThread_line (i : Nat) (t : Thread) :
    readThread ((dec i ++ ',' :: (dec t.red ++ ',' :: (dec t.green ++ ',' :: dec t.blue))) ++ ['\n']) =
      .ok { color := t.color % 16777216, catalog := some (String.ofList (dec i)) } := by
  have h : ∀ n, ',' ∉ dec n := fun n => dec_ne (by decide) (by decide)
  have e : (dec i ++ ',' :: (dec t.red ++ ',' :: (dec t.green ++ ',' :: dec t.blue))) ++ ['\n'] =
      dec i ++ ',' :: (dec t.red ++ ',' :: (dec t.green ++ ',' :: (dec t.blue ++ ['\n']))) := by simp
  rw [e]
  unfold readThread
  rw [splitOn_append _ _ _ (h _), splitOn_append _ _ _ (h _), splitOn_append _ _ _ (h _), splitOn_plain _ _ (by simp [h])]
  simp only [parseInt_dec, parseInt_newline]
  show Except.ok ({ color := colorRgb t.red t.green t.blue, catalog := some (String.ofList (dec i)) } : Thread) = _
  rw [rgb_of_channels]

theorem readThreads_lines (i : Nat) (ts : List Thread) : readThreads ts.length (textMode (lines i ts)) =
    .ok (ts.mapIdx (fun k t => { color := t.color % 16777216, catalog := some (String.ofList (dec (i + k : Nat))) })) := by
  induction ts generalizing i with
  | nil => rfl
  | cons t ts ih =>
    have h : ∀ n, '\n' ∉ dec n := fun n => dec_ne (by decide) (by decide)
    rw [lines, lines_cr, List.length_cons, readThreads, readline_append _ _ (by simp [h])]
    simp only [readThread_line, ih]
    rw [List.mapIdx_cons]
    show Except.ok _ = _
    congr 1
    congr 1
    refine congrArg (fun f => List.mapIdx f ts) ?_
    funext k t
    rw [show i + 1 + k = i + (k + 1) by omega]

end Col

/-- **C59** for COL: as many threads, with the same 24-bit colours in the same order; each gets its number as catalogue
number. -/
theorem C59_col (ts : List Thread) : Col.read (Col.write ts) = .ok (ts.mapIdx (fun i t =>
    { color := t.color % 16777216, catalog := some (String.ofList (dec i)) })) := by
  have h : ∀ n, '\n' ∉ dec n := fun n => dec_ne (by decide) (by decide)
  have e : Col.write ts = dec ts.length ++ '\r' :: '\n' :: Col.lines 0 ts := by
    unfold Col.write
    rw [show "\r\n".toList = ['\r', '\n'] by decide +kernel]; simp
  unfold Col.read
  rw [e, textMode_line _ _ (dec_ne (by decide) (by decide)), readline_append _ _ (h _)]
  simp only [parseInt_newline]
  have := Col.readThreads_lines 0 ts
  simp only [Nat.zero_add] at this
  exact this

namespace Inf

/-- ASCII text is its own UTF-8. -/
theorem utf8_ascii (s : Str) (h : ∀ c ∈ s, c.toNat < 128) : utf8 s = s.map (fun c => (c.toNat : Int)) := by
  induction s with
  | nil => rfl
  | cons c s ih =>
    have hc := h c (by simp)
    have e : utf8 (c :: s) = utf8 [c] ++ utf8 s := by rw [← utf8_append]; rfl
    have e1 : utf8 [c] = [(c.toNat : Int)] := by
      have h1 : c.val.toNat ≤ 0x7f := Nat.lt_succ_iff.1 hc
      have h2 : String.utf8EncodeChar c = [UInt8.ofNat c.val.toNat] := by
        unfold String.utf8EncodeChar
        simp only [h1, if_true]
      have h3 : (UInt8.ofNat c.val.toNat).toNat = c.val.toNat := by
        rw [UInt8.toNat_ofNat']
        exact Nat.mod_eq_of_lt (by omega)
      unfold utf8
      rw [List.flatMap_cons, List.flatMap_nil, List.append_nil, h2, List.map_cons, List.map_nil, h3]; rfl
    rw [e, e1, ih (fun d hd => h d (by simp [hd]))]; rfl

theorem cut_none {b : Bytes} (h : (0 : Int) ∉ b) : cut b = none := by
  induction b with
  | nil => rfl
  | cons x b ih =>
    simp only [List.mem_cons, not_or] at h
    rw [cut, if_neg (Ne.symm h.1), ih h.2]; rfl

theorem cut_append (a b : Bytes) (h : (0 : Int) ∉ a) : cut (a ++ 0 :: b) = some (a, b) := by
  induction a with
  | nil => simp [cut]
  | cons x a ih =>
    simp only [List.mem_cons, not_or] at h
    rw [List.cons_append, cut, if_neg (Ne.symm h.1), ih h.2]; rfl

theorem decodeText_utf8 (s : Str) : decodeText (utf8 s) = .ok (String.ofList s) := by
  unfold decodeText; rw [decodeUtf8_utf8]

/-- ASCII text splits at a zero byte or has none. -/
theorem split_nul (s : Str) : '\x00' ∉ s ∨ ∃ a b, s = a ++ '\x00' :: b ∧ '\x00' ∉ a := by
  induction s with
  | nil => left; simp
  | cons c s ih =>
    by_cases hc : c = '\x00'
    · right; exact ⟨[], s, by rw [hc]; rfl, by simp⟩
    · rcases ih with h | ⟨a, b, e, h⟩
      · left; simp [Ne.symm hc, h]
      · right; exact ⟨c :: a, b, by rw [e]; rfl, by simp [Ne.symm hc, h]⟩

theorem nul_mem {s : Str} (h : ∀ c ∈ s, c.toNat < 128) (hn : '\x00' ∉ s) : (0 : Int) ∉ utf8 s := by
  rw [utf8_ascii s h, List.mem_map]
  rintro ⟨c, hc, e⟩
  have : c = '\x00' := by
    have h0 : c.toNat = 0 := by exact_mod_cast e
    exact Char.toNat_inj.1 h0
  exact hn (this ▸ hc)

theorem cut_utf8 (s : Str) (h : ∀ c ∈ s, c.toNat < 128) :
    cut (utf8 s) = none ∨ ∃ a b, s = a ++ '\x00' :: b ∧ '\x00' ∉ a ∧ cut (utf8 s) = some (utf8 a, utf8 b) := by
  rcases split_nul s with hs | ⟨a, b, e, hs⟩
  · left; exact cut_none (nul_mem h hs)
  · right
    refine ⟨a, b, e, hs, ?_⟩
    rw [e, utf8_append, show utf8 ('\x00' :: b) = 0 :: utf8 b from rfl]
    exact cut_append _ _ (nul_mem (fun c hc => h c (by rw [e]; simp [hc])) hs)

/-- Reading the texts of an ASCII record never fails. -/
theorem texts_ok (s : Str) (h : ∀ c ∈ s, c.toNat < 128) : ∃ p, texts (utf8 s) = .ok p := by
  unfold texts
  rcases cut_utf8 s h with e | ⟨a, b, e0, _, e⟩
  · rw [e]; exact ⟨_, rfl⟩
  · rw [e]
    simp only [decodeText_utf8]
    rcases cut_utf8 b (fun c hc => h c (by rw [e0]; simp [hc])) with e2 | ⟨a2, b2, _, _, e2⟩
    · simp only [bind, Except.bind, e2]; exact ⟨_, rfl⟩
    · simp only [bind, Except.bind, e2, decodeText_utf8]; exact ⟨_, rfl⟩

theorem texts_plain (d c : Str) (hd : ∀ x ∈ d, x.toNat < 128) (hc : ∀ x ∈ c, x.toNat < 128) (nd : '\x00' ∉ d) (nc : '\x00' ∉ c) :
    texts (utf8 d ++ 0 :: (utf8 c ++ [0])) = .ok (some (String.ofList d), some (String.ofList c)) := by
  unfold texts
  rw [cut_append _ _ (nul_mem hd nd)]
  simp only [decodeText_utf8]
  simp only [bind, Except.bind, cut_append _ [] (nul_mem hc nc), decodeText_utf8]

/-- What is asked of a thread: ASCII texts, short enough for the 16-bit length. -/
def Fits (t : Thread) : Prop :=
  (∀ c ∈ text t.description, c.toNat < 128) ∧ (∀ c ∈ text t.chart, c.toNat < 128) ∧
  (text t.description).length + (text t.chart).length ≤ 65524

/-- A thread as it comes back: the 24-bit colour and the two texts, with "Unknown" for a missing one. -/
def seen (t : Thread) : Thread :=
  { color := t.color % 16777216, description := some (t.description.getD "Unknown"), chart := some (t.chart.getD "Unknown") }

theorem readRecords_record (i : Nat) (t : Thread) (k : Nat) (s : Bytes) (h : Fits t) :
    readRecords (k + 1) (record i t ++ s) =
      texts (utf8 (text t.description) ++ 0 :: (utf8 (text t.chart) ++ [0])) >>= fun p => readRecords k s >>= fun ts =>
      .ok ({ color := t.color % 16777216, description := p.1, chart := p.2 } :: ts) := by
  obtain ⟨hd, hc, hl⟩ := h
  have l1 : (utf8 (text t.description)).length = (text t.description).length := by
    rw [utf8_ascii _ hd, List.length_map]
  have l2 : (utf8 (text t.chart)).length = (text t.chart).length := by
    rw [utf8_ascii _ hc, List.length_map]
  generalize hD : utf8 (text t.description) = D at *
  generalize hC : utf8 (text t.chart) = C at *
  have e : record i t ++ s = lo8 (shr (11 + D.length + C.length) 8) :: lo8 (shr (11 + D.length + C.length) 0) ::
      ([lo8 (shr i 8), lo8 (shr i 0), lo8 t.red, lo8 t.green, lo8 t.blue, lo8 (shr (i + 1) 8), lo8 (shr (i + 1) 0)] ++
        (D ++ 0 :: (C ++ [0])) ++ s) := by
    unfold record
    rw [hD, hC, l1, l2]
    simp [writeInt16be, writeInt8, lo8]
  have len : lo8 (lo8 (shr (11 + D.length + C.length) 0)) + lo8 (lo8 (shr (11 + D.length + C.length) 8)) * 2 ^ 8 - 2 =
      (9 + D.length + C.length : Nat) := by
    simp only [lo8, shr]
    push_cast
    omega
  rw [e, readRecords]
  simp only [len]
  rw [if_neg (by simp; omega)]
  have tk : ([lo8 (shr i 8), lo8 (shr i 0), lo8 t.red, lo8 t.green, lo8 t.blue, lo8 (shr (i + 1) 8), lo8 (shr (i + 1) 0)] ++
        (D ++ 0 :: (C ++ [0]))).length = ((9 + D.length + C.length : Nat) : Int).toNat := by
    simp; omega
  rw [List.take_left' tk, List.drop_left' tk]
  simp only [List.cons_append, List.nil_append, List.drop_succ_cons, List.drop_zero, rgb_lo8, rgb_of_channels]

theorem readRecords_colors (i : Nat) (ts : List Thread) (h : ∀ t ∈ ts, Fits t) :
    ∃ r, readRecords ts.length (records i ts) = .ok r ∧ r.map (·.color) = ts.map (fun t => t.color % 16777216) := by
  induction ts generalizing i with
  | nil => exact ⟨[], rfl, rfl⟩
  | cons t ts ih =>
    have ht := h t (by simp)
    obtain ⟨r, hr, hc⟩ := ih (i + 1) (fun t ht => h t (by simp [ht]))
    obtain ⟨p, hp⟩ := texts_ok (text t.description ++ '\x00' :: (text t.chart ++ ['\x00'])) (by
      intro c hc
      simp only [List.mem_append, List.mem_cons, List.not_mem_nil, or_false] at hc
      rcases hc with hc | rfl | hc | rfl
      · exact ht.1 c hc
      · decide
      · exact ht.2.1 c hc
      · decide)
    have e : utf8 (text t.description ++ '\x00' :: (text t.chart ++ ['\x00'])) =
        utf8 (text t.description) ++ 0 :: (utf8 (text t.chart) ++ [0]) := by
      rw [utf8_append, show ∀ u, utf8 ('\x00' :: u) = 0 :: utf8 u from fun _ => rfl, utf8_append]; rfl
    rw [e] at hp
    refine ⟨{ color := t.color % 16777216, description := p.1, chart := p.2 } :: r, ?_, ?_⟩
    · rw [records, List.length_cons, readRecords_record _ _ _ _ ht, hp, hr]
      rfl
    · simp [hc]

theorem readRecords_full (i : Nat) (ts : List Thread) (h : ∀ t ∈ ts, Fits t)
    (hn : ∀ t ∈ ts, '\x00' ∉ text t.description ∧ '\x00' ∉ text t.chart) :
    readRecords ts.length (records i ts) = .ok (ts.map Inf.seen) := by
  induction ts generalizing i with
  | nil => rfl
  | cons t ts ih =>
    have ht := h t (by simp)
    have hz := hn t (by simp)
    rw [records, List.length_cons, readRecords_record _ _ _ _ ht, ih (i + 1) (fun t ht => h t (by simp [ht])) (fun t ht => hn t (by simp [ht])),
      texts_plain _ _ ht.1 ht.2.1 hz.1 hz.2]
    simp only [text, String.ofList_toList]
    rfl

theorem read_write (ts : List Thread) (h : ts.length < 2 ^ 32) : read (write ts) = readRecords ts.length (records 0 ts) := by
  unfold read write
  have e : (readInt32be ((writeInt32be 1 ++ writeInt32be 8 ++ writeInt32be (4 + (records 0 ts).length) ++
      writeInt32be ts.length ++ records 0 ts).drop 12)).1 = some (ts.length : Int) := by
    simp only [writeInt32be, List.cons_append, List.nil_append, List.drop_succ_cons, List.drop_zero, readInt32be, readN,
      List.take, lo8, shr]
    congr 1
    omega
  simp only [e]
  rfl

end Inf

/-- **C59** for INF: with ASCII texts that fit the length field, as many threads come back, with the same 24-bit colours in
the same order. Missing for the full claim: other texts (`C59_inf_non_ascii`). -/
theorem C59_inf_partial (ts : List Thread) (hl : ts.length < 2 ^ 32) (h : ∀ t ∈ ts, Inf.Fits t) :
    ∃ r, Inf.read (Inf.write ts) = .ok r ∧ r.map (·.color) = ts.map (fun t => t.color % 16777216) := by
  rw [Inf.read_write ts hl]
  exact Inf.readRecords_colors 0 ts h

/-- Description and chart come back too if they have no zero character. -/
theorem C59_inf_texts_partial (ts : List Thread) (hl : ts.length < 2 ^ 32) (h : ∀ t ∈ ts, Inf.Fits t)
    (hn : ∀ t ∈ ts, '\x00' ∉ Inf.text t.description ∧ '\x00' ∉ Inf.text t.chart) :
    Inf.read (Inf.write ts) = .ok (ts.map Inf.seen) := by
  rw [Inf.read_write ts hl]
  exact Inf.readRecords_full 0 ts h hn

/-- The length counts characters but the text is written in UTF-8: behind a description with an umlaut the reader is out of
step and colours are lost. -/
theorem C59_inf_non_ascii : ∃ ts : List Thread, ts.length = 2 ∧
    Inf.read (Inf.write ts) = .ok [{ color := 1, description := some "ü", chart := none }] :=
  ⟨[{ color := 1, description := some "ü", chart := some "" }, { color := 2 }], rfl, by decide +kernel⟩

example : Inf.Fits { color := 0x102030, description := some "Red" } ∧
    Inf.read (Inf.write [{ color := 0x102030, description := some "Red" }, { color := -1 }]) =
      .ok [{ color := 0x102030, description := some "Red", chart := some "Unknown" },
        { color := 0xFFFFFF, description := some "Unknown", chart := some "Unknown" }] := by
  refine ⟨?_, by decide +kernel⟩
  unfold Inf.Fits
  decide +kernel

example : Col.write [{ color := 0x102030 }] = "1\r\n0,16,32,48\r\n".toList ∧
    Edr.read [1, 2, 3, 0, 4, 5] = [{ color := 0x010203 }] := by decide +kernel

end Emb
