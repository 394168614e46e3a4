import Verif.Props.EndFileProps
import Verif.Props.PesProps

/-!
# C100: what follows the end of the stitches of a PEC or PES file
-/

namespace Emb
namespace Readers

/-! ## Specification -/

/-- The records of the stitch section of a PEC file: two short numbers, one long and one short number in either order, two long numbers, or a colour
change of three bytes. A number is long if its first byte has the highest bit. -/
def PecRecord (r : Bytes) : Prop :=
  (∃ a b, a < 0x80 ∧ b < 0x80 ∧ r = [a, b]) ∨
  (∃ a b c, a < 0x80 ∧ 0x80 ≤ b ∧ r = [a, b, c]) ∨
  (∃ a b c, 0x80 ≤ a ∧ ¬ (a = 0xFF ∧ b = 0) ∧ ¬ (a = 0xFE ∧ b = 0xB0) ∧ c < 0x80 ∧ r = [a, b, c]) ∨
  (∃ a b c d, 0x80 ≤ a ∧ ¬ (a = 0xFF ∧ b = 0) ∧ ¬ (a = 0xFE ∧ b = 0xB0) ∧ 0x80 ≤ c ∧ r = [a, b, c, d]) ∨
  ∃ c, r = [0xFE, 0xB0, c]

/-- A PEC part without its thumbnails: 528 bytes, records, and the end mark. -/
def PecPart (f : Bytes) : Prop :=
  (∀ v ∈ f, IsByte v) ∧ ∃ (head : Bytes) (rs : List Bytes), head.length = 528 ∧ (∀ r ∈ rs, PecRecord r) ∧ f = head ++ rs.flatten ++ [0xFF, 0x00]

/-- The same label, threads and stitches. -/
def SamePec (d d' : Pec.Design) : Prop := d'.label = d.label ∧ d'.threads = d.threads ∧ d'.stitches = d.stitches

/-! ## Sections -/

theorem long_of {v : Int} (hv : IsByte v) (h : 0x80 ≤ v) : Pec.isLong v = true := by
  unfold IsByte at hv; simp [Pec.isLong]; omega

theorem short_of {v : Int} (hv : IsByte v) (h : v < 0x80) : Pec.isLong v = false := by
  unfold IsByte at hv; simp [Pec.isLong]; omega

theorem pec_record (r : Bytes) (h : PecRecord r) (hb : ∀ v ∈ r, IsByte v) : ∃ out, ∀ rest, Pec.readRecs (r ++ rest) = out ++ Pec.readRecs rest := by
  rcases h with ⟨a, b, ha, hb', rfl⟩ | ⟨a, b, c, ha, hb', rfl⟩ | ⟨a, b, c, ha, h1, h2, hc, rfl⟩ | ⟨a, b, c, d, ha, h1, h2, hc, rfl⟩ | ⟨c, rfl⟩
  · have la := short_of (hb a (by simp)) ha
    have lb := short_of (hb b (by simp)) hb'
    refine ⟨Pec.emit false false (Pec.signed7 a) (Pec.signed7 b), fun rest => ?_⟩
    rw [List.cons_append, List.cons_append, List.nil_append, Pec.readRecs.eq_def]
    dsimp only
    rw [if_neg (by omega), if_neg (by omega), la, lb]
    simp
  · have la := short_of (hb a (by simp)) ha
    have lb := long_of (hb b (by simp)) hb'
    refine ⟨Pec.emit (Pec.hasJump b) (Pec.hasTrim b) (Pec.signed7 a) (Pec.signed12 (b * 256 + c)), fun rest => ?_⟩
    rw [List.cons_append, List.cons_append, List.cons_append, List.nil_append, Pec.readRecs.eq_def]
    dsimp only
    rw [if_neg (by omega), if_neg (by omega), la, lb]
    simp
  · have la := long_of (hb a (by simp)) ha
    have lc := short_of (hb c (by simp)) hc
    refine ⟨Pec.emit (Pec.hasJump a) (Pec.hasTrim a) (Pec.signed12 (a * 256 + b)) (Pec.signed7 c), fun rest => ?_⟩
    rw [List.cons_append, List.cons_append, List.cons_append, List.nil_append, Pec.readRecs.eq_def]
    dsimp only
    rw [if_neg h1, if_neg h2, la, lc]
    simp
  · have la := long_of (hb a (by simp)) ha
    have lc := long_of (hb c (by simp)) hc
    refine ⟨Pec.emit (Pec.hasJump a || Pec.hasJump c) (Pec.hasTrim a || Pec.hasTrim c) (Pec.signed12 (a * 256 + b)) (Pec.signed12 (c * 256 + d)),
      fun rest => ?_⟩
    rw [List.cons_append, List.cons_append, List.cons_append, List.cons_append, List.nil_append, Pec.readRecs.eq_def]
    dsimp only
    rw [if_neg h1, if_neg h2, la, lc]
    simp
  · refine ⟨[⟨0, 0, COLOR_CHANGE⟩], fun rest => ?_⟩
    rw [List.cons_append, List.cons_append, List.cons_append, List.nil_append, Pec.readRecs.eq_def]
    simp

theorem pec_records (rs : List Bytes) (h : ∀ r ∈ rs, PecRecord r) (hb : ∀ r ∈ rs, ∀ v ∈ r, IsByte v) (g : Bytes) :
    Pec.readRecs (rs.flatten ++ [0xFF, 0x00] ++ g) = Pec.readRecs (rs.flatten ++ [0xFF, 0x00]) := by
  induction rs with
  | nil =>
    rw [Pec.readRecs.eq_def, Pec.readRecs.eq_def ([].flatten ++ _)]
    simp
  | cons r rs ih =>
    obtain ⟨out, ho⟩ := pec_record r (h r (by simp)) (hb r (by simp))
    rw [List.flatten_cons, List.append_assoc r, List.append_assoc r, ho, ho, ih (fun a ha => h a (by simp [ha])) (fun a ha => hb a (by simp [ha]))]

/-- **C100**: after the end mark of the stitches of a PEC part anything may follow (usually the thumbnails). -/
theorem C100_pec_part (chart : List Thread) (f : Bytes) (hf : PecPart f) (d : Pec.Design) (h : Pec.readPattern chart f = .ok d) (g : Bytes) :
    ∃ d', Pec.readPattern chart (f ++ g) = .ok d' ∧ SamePec d d' := by
  obtain ⟨hb, head, rs, hh, hr, rfl⟩ := hf
  generalize hfe : head ++ rs.flatten ++ [0xFF, 0x00] = f at *
  have hlen : 530 ≤ f.length := by rw [← hfe]; simp; omega
  have one : ∀ n, n < f.length → ∃ v, (readInt8 (f.drop n)).1 = some v ∧ (readInt8 ((f ++ g).drop n)).1 = some v ∧ IsByte v := by
    intro n hn
    cases hd : f.drop n with
    | nil => exact absurd hd (drop_ne hn)
    | cons v t =>
      refine ⟨v, rfl, ?_, hb v (List.mem_of_mem_drop (by rw [hd]; simp))⟩
      rw [drop_cut_pos g (by rw [hd]; simp), hd]
      rfl
  obtain ⟨stride, s1, s2, -⟩ := one 34 (by omega)
  obtain ⟨height, t1, t2, -⟩ := one 35 (by omega)
  obtain ⟨changes, c1, c2, c3⟩ := one 48 (by omega)
  have hcn : (changes + 1).toNat ≤ 256 := by unfold IsByte at c3; omega
  have e1 : ((f ++ g).drop 49).take (changes + 1).toNat = (f.drop 49).take (changes + 1).toNat := by
    rw [List.drop_append_of_le_length (by omega), List.take_append_of_le_length (by rw [List.length_drop]; omega)]
  have e2 : ((f ++ g).drop 3).take 16 = (f.drop 3).take 16 := by
    rw [List.drop_append_of_le_length (by omega), List.take_append_of_le_length (by rw [List.length_drop]; omega)]
  have hlc : ((f.drop 49).take (changes + 1).toNat).length = (changes + 1).toNat := by
    rw [List.length_take, List.length_drop]; omega
  have hp : 49 + ((f.drop 49).take (changes + 1).toNat).length + 0x1D0 - changes.toNat = 514 := by
    rw [hlc]; unfold IsByte at c3; omega
  obtain ⟨n, n1⟩ : ∃ n, (readInt24le (f.drop 514)).1 = some n := by
    match hd : f.drop 514 with
    | [] => have := congrArg List.length hd; rw [List.length_drop, List.length_nil] at this; omega
    | [_] => have := congrArg List.length hd; rw [List.length_drop, List.length_singleton] at this; omega
    | [_, _] => have := congrArg List.length hd; rw [List.length_drop] at this; simp at this; omega
    | _ :: _ :: _ :: _ => exact ⟨_, rfl⟩
  have n2 : (readInt24le ((f ++ g).drop 514)).1 = some n := by
    rw [drop_cut_pos g (drop_ne (by omega)), readInt24le_append _ g n n1]
  have es : Pec.readSection ((f ++ g).drop 528) = Pec.readSection (f.drop 528) := by
    unfold Pec.readSection
    rw [← hfe, List.append_assoc, List.append_assoc, List.append_assoc head, List.drop_left' hh, List.drop_left' hh, ← List.append_assoc,
      pec_records rs hr (fun r hm v hv => hb v (by rw [← hfe]; simp only [List.mem_append, List.mem_flatten]; exact .inl (.inr ⟨r, hm, hv⟩))) g]
  unfold Pec.readPattern Pec.read at h ⊢
  rw [s1, t1, c1] at h
  rw [s2, t2, c2]
  dsimp only at h ⊢
  rw [hp, n1] at h
  rw [e1, hp, n2]
  dsimp only at h ⊢
  rw [e2]
  rw [show 514 + 3 + 0x0B = 528 from rfl] at h ⊢
  rw [es]
  simp only [List.length_map, List.length_range] at h ⊢
  split_ifs at h ⊢ with hi
  injection h with h
  subst h
  exact ⟨_, rfl, rfl, rfl, rfl⟩

theorem stops_same {d d' : Pec.Design} (h : SamePec d d') : SamePec d.stops d'.stops := by
  obtain ⟨h1, h2, h3⟩ := h
  unfold SamePec Pec.Design.stops
  rw [h2, h3]
  exact ⟨h1, rfl, rfl⟩

/-- **C100** for PEC files. -/
theorem C100_pec_file (sig f : Bytes) (hs : sig.length = 8) (hf : PecPart f) (d : Pec.Design) (h : Pec.readFile (sig ++ f) = .ok d) (g : Bytes) :
    ∃ d', Pec.readFile (sig ++ f ++ g) = .ok d' ∧ SamePec d d' := by
  unfold Pec.readFile at h ⊢
  rw [List.append_assoc, List.drop_left' hs]
  rw [List.drop_left' hs] at h
  cases hp : Pec.readPattern [] f with
  | error e => rw [hp] at h; cases h
  | ok u =>
    rw [hp] at h
    injection h with h
    obtain ⟨v, hv, hs⟩ := C100_pec_part [] f hf u hp g
    rw [hv]
    exact ⟨_, rfl, h ▸ stops_same hs⟩

/-- A design of a stitch and a jump, the end mark, and bytes that would be stitches. -/
example : PecPart (List.replicate 528 0 ++ [[3, 4], [0x90, 0x05, 7]].flatten ++ [0xFF, 0x00]) ∧
    (Pec.readFile (List.replicate 8 0 ++ (List.replicate 528 0 ++ [[3, 4], [0x90, 0x05, 7]].flatten ++ [0xFF, 0x00]) ++ [9, 9, 9, 9])).map
      (fun d => d.stitches) = .ok [⟨3, 4, 0⟩, ⟨8, 11, 1⟩, ⟨8, 11, 4⟩] := by
  refine ⟨⟨by unfold IsByte; decide +kernel, _, _, List.length_replicate .., ?_, rfl⟩, by decide +kernel⟩
  intro r hr
  rcases List.mem_cons.1 hr with rfl | hr
  · exact .inl ⟨3, 4, by omega, by omega, rfl⟩
  · rw [List.mem_singleton] at hr
    exact .inr (.inr (.inl ⟨0x90, 5, 7, by omega, by omega, by omega, by omega, hr⟩))

/-! ## PES headers -/

/-- A text of a PES header: its length and its bytes. -/
def IsText (b : Bytes) : Prop := ∃ (n : Nat) (s : Bytes), s.length = n ∧ b = (n : Int) :: s

/-- The five texts after the first four bytes. -/
def IsMeta (b : Bytes) : Prop :=
  ∃ x t1 t2 t3 t4 t5 : Bytes, x.length = 4 ∧ IsText t1 ∧ IsText t2 ∧ IsText t3 ∧ IsText t4 ∧ IsText t5 ∧ b = x ++ t1 ++ t2 ++ t3 ++ t4 ++ t5

/-- A thread: catalogue number, colour, five bytes, description, brand and chart. -/
def IsThread (b : Bytes) : Prop :=
  ∃ (t1 : Bytes) (c0 c1 c2 : Int) (x t2 t3 t4 : Bytes), IsText t1 ∧ x.length = 5 ∧ IsText t2 ∧ IsText t3 ∧ IsText t4 ∧
    b = t1 ++ [c0, c1, c2] ++ x ++ t2 ++ t3 ++ t4

/-- The end of a header: three numbers of which one is not 0, or three times 0, the number of threads, and the threads. -/
def IsChart (b : Bytes) : Prop :=
  (∃ x y : Int, IsByte x ∧ IsByte y ∧ x + y * 256 ≠ 0 ∧ (b = [x, y] ∨ b = [0, 0, x, y] ∨ b = [0, 0, 0, 0, x, y])) ∨
  ∃ (x y : Int) (ts : List Bytes), IsByte x ∧ IsByte y ∧ x + y * 256 = ts.length ∧ (∀ t ∈ ts, IsThread t) ∧ b = [0, 0, 0, 0, 0, 0, x, y] ++ ts.flatten

/-- The headers of the versions of PES: none up to version 3, the texts in version 4; then, `s1` and `s2` bytes being skipped before and after
the name of the picture, the threads too; with the name of the hoop in versions 9 and 10. -/
inductive PesHeader : String → Bytes → Prop
  | none (v : String) : v = "#PES0001" ∨ v = "#PES0020" ∨ v = "#PES0022" ∨ v = "#PES0030" → PesHeader v []
  | texts (m : Bytes) : IsMeta m → PesHeader "#PES0040" m
  | threads (v : String) (s1 s2 : Nat) (m x t y c : Bytes) :
      (v, s1, s2) ∈ [("#PES0050", 24, 24), ("#PES0055", 24, 24), ("#PES0056", 24, 24), ("#PES0060", 36, 24), ("#PES0070", 36, 24), ("#PES0080", 38, 26)] →
      IsMeta m → x.length = s1 → IsText t → y.length = s2 → IsChart c → PesHeader v (m ++ x ++ t ++ y ++ c)
  | hoop (v : String) (s1 : Nat) (m w h x t y c : Bytes) : (v, s1) ∈ [("#PES0090", 30), ("#PES0100", 38)] →
      IsMeta m → w.length = 14 → IsText h → x.length = s1 → IsText t → y.length = 34 → IsChart c → PesHeader v (m ++ w ++ h ++ x ++ t ++ y ++ c)

theorem text_reads {b : Bytes} (h : IsText b) : ∃ v, ∀ rest, Pes.readString (b ++ rest) = (v, rest) := by
  obtain ⟨n, s, hs, rfl⟩ := h
  by_cases hn : (n : Int) = 0
  · obtain rfl : n = 0 := by omega
    obtain rfl : s = [] := List.eq_nil_of_length_eq_zero hs
    exact ⟨none, fun rest => rfl⟩
  · refine ⟨decodeUtf8 s, fun rest => ?_⟩
    have e : ∀ r, readInt8 ((n : Int) :: r) = (some (n : Int), r) := fun _ => rfl
    simp only [Pes.readString, e, List.cons_append, if_neg hn, Int.toNat_natCast]
    rw [List.take_left' hs, List.drop_left' hs]

theorem meta_reads {b : Bytes} (h : IsMeta b) : ∃ v, ∀ rest, Pes.readMeta ((b ++ rest).drop 4) = (v, rest) := by
  obtain ⟨x, t1, t2, t3, t4, t5, hx, h1, h2, h3, h4, h5, rfl⟩ := h
  obtain ⟨v1, e1⟩ := text_reads h1
  obtain ⟨v2, e2⟩ := text_reads h2
  obtain ⟨v3, e3⟩ := text_reads h3
  obtain ⟨v4, e4⟩ := text_reads h4
  obtain ⟨v5, e5⟩ := text_reads h5
  refine ⟨Pes.entry "name" v1 ++ Pes.entry "category" v2 ++ Pes.entry "author" v3 ++ Pes.entry "keywords" v4 ++ Pes.entry "comments" v5, fun rest => ?_⟩
  rw [List.append_assoc, List.append_assoc, List.append_assoc, List.append_assoc, List.append_assoc, List.drop_left' hx]
  unfold Pes.readMeta
  simp only [e1, e2, e3, e4, e5]

theorem thread_reads {b : Bytes} (h : IsThread b) : ∃ v, ∀ rest, Pes.readThread (b ++ rest) = .ok (v, rest) := by
  obtain ⟨t1, c0, c1, c2, x, t2, t3, t4, h1, hx, h2, h3, h4, rfl⟩ := h
  obtain ⟨v1, e1⟩ := text_reads h1
  obtain ⟨v2, e2⟩ := text_reads h2
  obtain ⟨v3, e3⟩ := text_reads h3
  obtain ⟨v4, e4⟩ := text_reads h4
  refine ⟨({ color := 0xFF000000 + ((readInt24be [c0, c1, c2]).1.getD 0), catalog := v1.map String.ofList, description := v2.map String.ofList, brand := v3.map String.ofList, chart := v4.map String.ofList } : Thread), fun rest => ?_⟩
  simp only [List.append_assoc]
  unfold Pes.readThread
  have e0 : ∀ r, readInt24be ([c0, c1, c2] ++ r) = (some ((readInt24be [c0, c1, c2]).1.getD 0), r) := fun _ => rfl
  simp only [e1, e0]
  rw [List.drop_left' hx]
  simp only [e2, e3, e4]

theorem threads_read : ∀ (ts : List Bytes), (∀ t ∈ ts, IsThread t) → ∃ v, ∀ rest, Pes.readThreads ts.length (ts.flatten ++ rest) = .ok v
  | [], _ => ⟨[], fun _ => rfl⟩
  | t :: ts, h => by
    obtain ⟨v, e⟩ := thread_reads (h t (by simp))
    obtain ⟨w, e'⟩ := threads_read ts (fun a ha => h a (by simp [ha]))
    refine ⟨v :: w, fun rest => ?_⟩
    rw [List.length_cons, List.flatten_cons, List.append_assoc, Pes.readThreads, e]
    simp only [bind, Except.bind, e']
    rfl

theorem int16_reads {x y : Int} (hx : IsByte x) (hy : IsByte y) (rest : Bytes) : readInt16le (x :: y :: rest) = (some (x + y * 256), rest) := by
  unfold IsByte at hx hy
  show (some (lo8 x + lo8 y * 256), rest) = _
  unfold lo8
  rw [show x % 256 = x by omega, show y % 256 = y by omega]

theorem chart_reads {b : Bytes} (h : IsChart b) : ∃ v, ∀ rest, Pes.readChart (b ++ rest) = .ok v := by
  have h0 : ∀ r, readInt16le (0 :: 0 :: r) = (some 0, r) := fun r => int16_reads (by unfold IsByte; omega) (by unfold IsByte; omega) r
  rcases h with ⟨x, y, hx, hy, hxy, rfl | rfl | rfl⟩ | ⟨x, y, ts, hx, hy, hn, ht, rfl⟩
  · exact ⟨[], fun rest => by simp [Pes.readChart, int16_reads hx hy, hxy]⟩
  · exact ⟨[], fun rest => by simp [Pes.readChart, h0, int16_reads hx hy, hxy]⟩
  · exact ⟨[], fun rest => by simp [Pes.readChart, h0, int16_reads hx hy, hxy]⟩
  · obtain ⟨v, e⟩ := threads_read ts ht
    refine ⟨v, fun rest => ?_⟩
    simp [Pes.readChart, h0, int16_reads hx hy, hn, e]

/-- What a header tells does not depend on what follows it. -/
theorem header_reads {v : String} {b : Bytes} (h : PesHeader v b) : ∃ r, ∀ rest, Pes.readVersion (some v.toList) (b ++ rest) = .ok r := by
  cases h with
  | none _ h =>
    rcases h with rfl | rfl | rfl | rfl
    · exact ⟨_, fun rest => Pes.readVersion_1 _⟩
    · exact ⟨(some 2, [], []), fun rest => by unfold Pes.readVersion; repeat (first | rw [if_pos rfl] | rw [if_neg (by decide)])⟩
    · exact ⟨(some (11 / 5), [], []), fun rest => by unfold Pes.readVersion; repeat (first | rw [if_pos rfl] | rw [if_neg (by decide)])⟩
    · exact ⟨(some 3, [], []), fun rest => by unfold Pes.readVersion; repeat (first | rw [if_pos rfl] | rw [if_neg (by decide)])⟩
  | texts _ h =>
    obtain ⟨w, e⟩ := meta_reads h
    refine ⟨(some 4, w, []), fun rest => ?_⟩
    unfold Pes.readVersion
    repeat (first | rw [if_pos rfl] | rw [if_neg (by decide)])
    rw [e]
  | threads _ s1 s2 m x t y c hv hm hx ht hy hc =>
    obtain ⟨v1, e1⟩ := meta_reads hm
    obtain ⟨v2, e2⟩ := text_reads ht
    obtain ⟨v3, e3⟩ := chart_reads hc
    have key : ∀ (k : String) rest, Pes.readHeader k s1 s2 (m ++ x ++ t ++ y ++ c ++ rest) = .ok (v1 ++ Pes.entry k v2, v3) := by
      intro k rest
      simp only [List.append_assoc]
      unfold Pes.readHeader
      simp only [e1]
      rw [List.drop_left' hx]
      simp only [e2]
      rw [List.drop_left' hy]
      simp only [e3]
      rfl
    simp only [List.mem_cons, List.not_mem_nil, or_false, Prod.mk.injEq] at hv
    rcases hv with ⟨rfl, rfl, rfl⟩ | ⟨rfl, rfl, rfl⟩ | ⟨rfl, rfl, rfl⟩ | ⟨rfl, rfl, rfl⟩ | ⟨rfl, rfl, rfl⟩ | ⟨rfl, rfl, rfl⟩
    · refine ⟨(some 5, v1 ++ Pes.entry "image" v2, v3), fun rest => ?_⟩; unfold Pes.readVersion; repeat (first | rw [if_pos rfl] | rw [if_neg (by decide)]); rw [key]; rfl
    · refine ⟨(some (11 / 2), v1 ++ Pes.entry "image" v2, v3), fun rest => ?_⟩; unfold Pes.readVersion; repeat (first | rw [if_pos rfl] | rw [if_neg (by decide)]); rw [key]; rfl
    · refine ⟨(some (28 / 5), v1 ++ Pes.entry "image" v2, v3), fun rest => ?_⟩; unfold Pes.readVersion; repeat (first | rw [if_pos rfl] | rw [if_neg (by decide)]); rw [key]; rfl
    · refine ⟨(some 6, v1 ++ Pes.entry "image_file" v2, v3), fun rest => ?_⟩; unfold Pes.readVersion; repeat (first | rw [if_pos rfl] | rw [if_neg (by decide)]); rw [key]; rfl
    · refine ⟨(some 7, v1 ++ Pes.entry "image_file" v2, v3), fun rest => ?_⟩; unfold Pes.readVersion; repeat (first | rw [if_pos rfl] | rw [if_neg (by decide)]); rw [key]; rfl
    · refine ⟨(some 8, v1 ++ Pes.entry "image_file" v2, v3), fun rest => ?_⟩; unfold Pes.readVersion; repeat (first | rw [if_pos rfl] | rw [if_neg (by decide)]); rw [key]; rfl
  | hoop _ s1 m w h x t y c hv hm hw hh hx ht hy hc =>
    obtain ⟨v1, e1⟩ := meta_reads hm
    obtain ⟨v2, e2⟩ := text_reads hh
    obtain ⟨v3, e3⟩ := text_reads ht
    obtain ⟨v4, e4⟩ := chart_reads hc
    have key : ∀ rest, Pes.readHoopHeader s1 (m ++ w ++ h ++ x ++ t ++ y ++ c ++ rest) =
        .ok (v1 ++ Pes.entry "hoop_name" v2 ++ Pes.entry "image_file" v3, v4) := by
      intro rest
      simp only [List.append_assoc]
      unfold Pes.readHoopHeader
      simp only [e1]
      rw [List.drop_left' hw]
      simp only [e2]
      rw [List.drop_left' hx]
      simp only [e3]
      rw [List.drop_left' hy]
      simp only [e4, List.append_assoc]
      rfl
    simp only [List.mem_cons, List.not_mem_nil, or_false, Prod.mk.injEq] at hv
    rcases hv with ⟨rfl, rfl⟩ | ⟨rfl, rfl⟩
    · refine ⟨(some 9, v1 ++ Pes.entry "hoop_name" v2 ++ Pes.entry "image_file" v3, v4), fun rest => ?_⟩; unfold Pes.readVersion; repeat (first | rw [if_pos rfl] | rw [if_neg (by decide)]); rw [key]; rfl
    · refine ⟨(some 10, v1 ++ Pes.entry "hoop_name" v2 ++ Pes.entry "image_file" v3, v4), fun rest => ?_⟩; unfold Pes.readVersion; repeat (first | rw [if_pos rfl] | rw [if_neg (by decide)]); rw [key]; rfl

theorem header_sig {v : String} {b : Bytes} (hv : PesHeader v b) :
    (utf8 v.toList).length = 8 ∧ decodeUtf8 (utf8 v.toList) = some v.toList ∧ v.toList ≠ "#PEC0001".toList := by
  cases hv with
  | none _ h => rcases h with rfl | rfl | rfl | rfl <;> decide +kernel
  | texts _ h => decide +kernel
  | threads _ _ _ _ _ _ _ _ hv =>
    simp only [List.mem_cons, List.not_mem_nil, or_false, Prod.mk.injEq] at hv
    rcases hv with ⟨rfl, -⟩ | ⟨rfl, -⟩ | ⟨rfl, -⟩ | ⟨rfl, -⟩ | ⟨rfl, -⟩ | ⟨rfl, -⟩ <;> decide +kernel
  | hoop _ _ _ _ _ _ _ _ _ hv =>
    simp only [List.mem_cons, List.not_mem_nil, or_false, Prod.mk.injEq] at hv
    rcases hv with ⟨rfl, -⟩ | ⟨rfl, -⟩ <;> decide +kernel

/-- **C100** for PES files: signature, position of the PEC part, header, anything else, and the PEC part up to the end mark of the stitches.
Anything may follow: the version, texts, label, threads and stitches are the same. -/
theorem C100_pes (v : String) (header more part : Bytes) (hv : PesHeader v header) (p0 p1 p2 p3 : Int) (hp : ∀ b ∈ [p0, p1, p2, p3], IsByte b)
    (hpos : p0 + p1 * 256 + p2 * 65536 + p3 * 16777216 = 12 + header.length + more.length) (hf : PecPart part) (d : Pes.Design)
    (h : Pes.readFile (utf8 v.toList ++ [p0, p1, p2, p3] ++ header ++ more ++ part) = .ok d) (g : Bytes) :
    ∃ d', Pes.readFile (utf8 v.toList ++ [p0, p1, p2, p3] ++ header ++ more ++ part ++ g) = .ok d' ∧
      d'.version = d.version ∧ d'.texts = d.texts ∧ SamePec d.pec d'.pec := by
  obtain ⟨r, hr⟩ := header_reads hv
  have h8 := header_sig hv
  obtain ⟨h8, hd8, hne⟩ := h8
  have b0 := hp p0 (by simp)
  have b1 := hp p1 (by simp)
  have b2 := hp p2 (by simp)
  have b3 := hp p3 (by simp)
  have key : ∀ t : Bytes, Pes.readFile (utf8 v.toList ++ [p0, p1, p2, p3] ++ header ++ more ++ (part ++ t)) =
      (Pec.readPattern r.2.2 (part ++ t)).map (fun d => ⟨r.1, r.2.1, d.stops⟩) := by
    intro t
    have e1 : (utf8 v.toList ++ [p0, p1, p2, p3] ++ header ++ more ++ (part ++ t)).drop
        ((p0 + p1 * 256 + p2 * 65536 + p3 * 16777216).toNat) = part ++ t := by
      rw [hpos]
      refine List.drop_left' ?_
      simp only [List.length_append, List.length_cons, List.length_nil, h8]
      omega
    have e2 : readInt32le ((utf8 v.toList ++ [p0, p1, p2, p3] ++ header ++ more ++ (part ++ t)).drop 8) =
        (some (p0 + p1 * 256 + p2 * 65536 + p3 * 16777216), header ++ (more ++ (part ++ t))) := by
      simp only [List.append_assoc]
      rw [List.drop_left' h8]
      show (some (lo8 p0 + lo8 p1 * 256 + lo8 p2 * 65536 + lo8 p3 * 16777216), _) = _
      unfold IsByte at b0 b1 b2 b3
      unfold lo8
      rw [show p0 % 256 = p0 by omega, show p1 % 256 = p1 by omega, show p2 % 256 = p2 by omega, show p3 % 256 = p3 by omega]
      rfl
    have e3 : (utf8 v.toList ++ [p0, p1, p2, p3] ++ header ++ more ++ (part ++ t)).take 8 = utf8 v.toList := by
      simp only [List.append_assoc]
      exact List.take_left' h8
    unfold Pes.readFile
    rw [e3, hd8, if_neg (by simpa using hne)]
    simp only [e2, hr]
    simp only [bind, Except.bind, e1]
  have k0 := key []
  have k1 := key g
  rw [List.append_nil] at k0
  rw [k0] at h
  rw [← List.append_assoc] at k1
  rw [k1]
  cases hq : Pec.readPattern r.2.2 part with
  | error e => rw [hq] at h; cases h
  | ok u =>
    rw [hq] at h
    injection h with h
    subst h
    obtain ⟨u', hu, hs⟩ := C100_pec_part r.2.2 part hf u hq g
    rw [hu]
    exact ⟨_, rfl, rfl, rfl, stops_same hs⟩

/-- A header of version 6 with a name and a red thread with a description. -/
example : PesHeader "#PES0060" (([0, 0, 0, 0] ++ [1, 65] ++ [0] ++ [0] ++ [0] ++ [0]) ++ List.replicate 36 0 ++ [0] ++ List.replicate 24 0 ++
    ([0, 0, 0, 0, 0, 0, 1, 0] ++ [[0] ++ [255, 0, 0] ++ [0, 0, 0, 0, 0] ++ [3, 82, 101, 100] ++ [0] ++ [0]].flatten)) := by
  have e : IsText [0] := ⟨0, [], rfl, rfl⟩
  refine .threads _ 36 24 _ _ _ _ _ (by simp) ⟨_, _, _, _, _, _, rfl, ⟨1, [65], rfl, rfl⟩, e, e, e, e, rfl⟩ (by simp) e (by simp)
    (.inr ⟨1, 0, _, by unfold IsByte; omega, by unfold IsByte; omega, rfl, ?_, rfl⟩)
  intro t ht
  rw [List.mem_singleton] at ht
  exact ⟨_, _, _, _, _, _, _, _, e, rfl, ⟨3, [82, 101, 100], rfl, rfl⟩, e, e, ht⟩

end Readers
end Emb
