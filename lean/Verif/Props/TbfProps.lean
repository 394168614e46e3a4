import Verif.Tbf
import Verif.Props.U01Props
import Verif.Props.BoundsProps
import Verif.Props.Commands

/-!
# Properties C14 and C66: TBF files
-/

namespace Emb
namespace Tbf

open U01 (bind_of needle_of wdeltas_cmd_mem)

/-- The word the reader makes for needle `n`. -/
theorem needle_word (n : Int) (h0 : 0 ≤ n) (h1 : n ≤ 254) :
    encodeThreadChange NEEDLE_SET none (some n) none = 9 + (n + 1) * 65536 := by
  unfold encodeThreadChange
  have hn : encField (some n) < 256 := encField_lt ⟨h0, by omega⟩
  have h9 : (NEEDLE_SET % 256).toNat = 9 := by decide
  rw [h9, encode_arith (by decide) (by decide) hn]
  simp only [encField]
  omega

/-- What a TBF file shows of a command: STITCH (0), TRIM (2), STOP (3) and END (4) without flags; a JUMP (1) that does not
move is a TRIM; a needle change (9) keeps its needle number (third byte, stored plus one), but needle 0 is a STOP. -/
def seen (r : Rec) : Option Rec :=
  if r.cmd % 256 = 1 then some (if r.dx = 0 ∧ r.dy = 0 then ⟨0, 0, 2⟩ else ⟨r.dx, r.dy, 1⟩)
  else if r.cmd % 256 ≤ 4 then some ⟨r.dx, r.dy, r.cmd % 256⟩
  else if r.cmd % 256 = 9 then
    some ⟨r.dx, r.dy, if r.cmd / 65536 % 256 = 1 then 3 else 9 + r.cmd / 65536 % 256 * 65536⟩
  else none

/-- The needle numbers of the needle changes. -/
def vals (rs : List Rec) : List Int := (rs.filter (fun r => r.cmd % 256 == 9)).map (fun r => r.cmd / 65536 % 256 - 1)

/-- Records are read back as `seen` says, if the table holds the needles. -/
theorem readRecs_write (rs : List Rec) (e : Rec) (he : e.cmd % 256 = 4)
    (h : ∀ r ∈ rs, RecOK 127 ⟨r.dx, r.dy, r.cmd % 256⟩ ∧ r.cmd % 256 ≠ 5 ∧ (r.cmd % 256 = 9 → r.cmd / 65536 % 256 ≠ 0))
    (pre post : Bytes) :
    readRecs (pre ++ vals rs ++ post) pre.length (writeRecs (rs ++ [e])) = .ok (rs.filterMap seen) := by
  induction rs generalizing pre with
  | nil =>
    simp [writeRecs, cmdOf, he, STITCH, JUMP, STOP, TRIM, NEEDLE_SET, END, triple, readRecs]
  | cons r rs ih =>
    have ih := ih (fun a ha => h a (by simp [ha]))
    obtain ⟨hok, h5, hn⟩ := h r (by simp)
    obtain ⟨dx, dy, w⟩ := r
    unfold RecOK at hok
    simp only at hok h5 hn
    have hvals : w % 256 ≠ 9 → vals (⟨dx, dy, w⟩ :: rs) = vals rs := by
      intro c; unfold vals; rw [List.filter_cons, if_neg (by simpa using c)]
    rcases hok with ⟨hc | hc, h1, h2, h3, h4⟩ | ⟨hc, h1, h2⟩
    · have ew : writeRecs (⟨dx, dy, w⟩ :: rs ++ [e]) = lo8 dx :: lo8 (-dy) :: 0x80 :: writeRecs (rs ++ [e]) := by
        simp [writeRecs, cmdOf, hc, STITCH, triple]
      have es : seen ⟨dx, dy, w⟩ = some ⟨dx, dy, 0⟩ := by simp [seen, hc]
      rw [ew, hvals (by omega), List.filterMap_cons, es, readRecs, if_pos rfl, bind_of (ih pre)]
      simp only [lo8]
      rw [signed8_mod dx (by omega) (by omega), signed8_mod (-dy) (by omega) (by omega), neg_neg]; rfl
    · have ew : writeRecs (⟨dx, dy, w⟩ :: rs ++ [e]) = lo8 dx :: lo8 (-dy) :: 0x90 :: writeRecs (rs ++ [e]) := by
        simp [writeRecs, cmdOf, hc, STITCH, JUMP, triple]
      have es : seen ⟨dx, dy, w⟩ = some (if dx = 0 ∧ dy = 0 then ⟨0, 0, 2⟩ else ⟨dx, dy, 1⟩) := by simp [seen, hc]
      rw [ew, hvals (by omega), List.filterMap_cons, es, readRecs, if_neg (by decide), if_neg (by decide), if_pos rfl,
        bind_of (ih pre)]
      have s1 : signed8 (lo8 dx) = dx := signed8_mod dx (by omega) (by omega)
      have s2 : signed8 (lo8 (-dy)) = -dy := signed8_mod (-dy) (by omega) (by omega)
      rw [s1, s2, neg_neg]
      by_cases c : dx = 0 ∧ dy = 0
      · rw [if_pos c, if_pos (by unfold lo8; omega)]; rfl
      · rw [if_neg c, if_neg (by unfold lo8; omega)]; rfl
    · subst h1; subst h2
      have skip : w % 256 = 11 ∨ w % 256 = 12 → readRecs (pre ++ vals (⟨0, 0, w⟩ :: rs) ++ post) pre.length
          (writeRecs (⟨0, 0, w⟩ :: rs ++ [e])) = .ok ((⟨0, 0, w⟩ :: rs).filterMap seen) := by
        intro hk
        have es : seen ⟨0, 0, w⟩ = none := by
          unfold seen; rw [if_neg (by simp only; omega), if_neg (by simp only; omega), if_neg (by simp only; omega)]
        have ew : writeRecs (⟨0, 0, w⟩ :: rs ++ [e]) = writeRecs (rs ++ [e]) := by
          rcases hk with hk | hk <;> simp [writeRecs, cmdOf, hk, STITCH, JUMP, STOP, TRIM, NEEDLE_SET, END]
        rw [ew, hvals (by omega), List.filterMap_cons, es]; exact ih pre
      rcases hc with hc | hc | hc | hc | hc | hc
      · have ew : writeRecs (⟨0, 0, w⟩ :: rs ++ [e]) = 0 :: 0 :: 0x86 :: writeRecs (rs ++ [e]) := by
          simp [writeRecs, cmdOf, hc, STITCH, JUMP, STOP, TRIM, triple, lo8]
        have es : seen ⟨0, 0, w⟩ = some ⟨0, 0, 2⟩ := by simp [seen, hc]
        rw [ew, hvals (by omega), List.filterMap_cons, es, readRecs, if_neg (by decide), if_neg (by decide),
          if_neg (by decide), if_neg (by decide), if_pos rfl, bind_of (ih pre)]; rfl
      · have ew : writeRecs (⟨0, 0, w⟩ :: rs ++ [e]) = 0 :: 0 :: 0x40 :: writeRecs (rs ++ [e]) := by
          simp [writeRecs, cmdOf, hc, STITCH, JUMP, STOP, triple, lo8]
        have es : seen ⟨0, 0, w⟩ = some ⟨0, 0, 3⟩ := by simp [seen, hc]
        rw [ew, hvals (by omega), List.filterMap_cons, es, readRecs, if_neg (by decide), if_neg (by decide),
          if_neg (by decide), if_pos rfl, bind_of (ih pre)]; rfl
      · exact absurd hc h5
      · have hf := hn hc
        have ew : writeRecs (⟨0, 0, w⟩ :: rs ++ [e]) = 0 :: 0 :: 0x81 :: writeRecs (rs ++ [e]) := by
          simp [writeRecs, cmdOf, hc, STITCH, JUMP, STOP, TRIM, NEEDLE_SET, triple, lo8]
        have es : seen ⟨0, 0, w⟩ = some ⟨0, 0, if w / 65536 % 256 = 1 then 3 else 9 + w / 65536 % 256 * 65536⟩ := by
          simp [seen, hc]
        have hv : vals (⟨0, 0, w⟩ :: rs) = (w / 65536 % 256 - 1) :: vals rs := by
          unfold vals; rw [List.filter_cons, if_pos (by simpa using hc)]; rfl
        have ho : (pre ++ vals (⟨0, 0, w⟩ :: rs) ++ post)[pre.length]? = some (w / 65536 % 256 - 1) := by
          rw [hv]; simp
        have ih' := ih (pre ++ [w / 65536 % 256 - 1])
        rw [ew, List.filterMap_cons, es, readRecs, if_neg (by decide), if_pos rfl, ho]
        have hl : (pre ++ [w / 65536 % 256 - 1]).length = pre.length + 1 := by simp
        have hv2 : pre ++ vals (⟨0, 0, w⟩ :: rs) ++ post = pre ++ [w / 65536 % 256 - 1] ++ vals rs ++ post := by
          rw [hv]; simp
        rw [hv2]
        rw [hl] at ih'
        simp only
        rw [bind_of ih']
        by_cases c : w / 65536 % 256 = 1
        · rw [if_pos c, if_pos (by omega)]; rfl
        · rw [if_neg c, if_neg (by omega), needle_word _ (by omega) (by omega)]
          have : 9 + (w / 65536 % 256 - 1 + 1) * 65536 = 9 + w / 65536 % 256 * 65536 := by omega
          rw [this]
      · exact skip (.inl hc)
      · exact skip (.inr hc)

theorem readThreads_write (ts : List Thread) (b : Int) (rest : Bytes) (hb : b ≠ 0x45) :
    readThreads (ts.flatMap threadBytes ++ b :: rest) = ts.map (fun t => some (t.color % 16777216)) := by
  induction ts with
  | nil => rw [List.flatMap_nil, List.nil_append, readThreads, if_neg hb]; rfl
  | cons t ts ih =>
    rw [List.flatMap_cons, List.map_cons, List.append_assoc]
    simp only [threadBytes, List.cons_append, List.nil_append]
    rw [readThreads, if_pos rfl]
    have e : (readInt24be (lo8 t.red :: lo8 t.green :: lo8 t.blue :: 0x20 :: (ts.flatMap threadBytes ++ b :: rest))).1 =
        some (t.color % 16777216) := by
      simp only [readInt24be, readN, List.take, lo8, Thread.red, Thread.green, Thread.blue]
      congr 1
      omega
    rw [e]
    have e2 : (lo8 t.red :: lo8 t.green :: lo8 t.blue :: 0x20 :: (ts.flatMap threadBytes ++ b :: rest)).drop 4 =
      ts.flatMap threadBytes ++ b :: rest := rfl
    rw [e2, ih]

theorem needleBytes_ok (ns : List (Option Int)) (vs : List Int) (h : ns = vs.map some) (hb : ∀ v ∈ vs, IsByte v) :
    needleBytes ns = .ok vs := by
  subst h
  induction vs with
  | nil => rfl
  | cons v vs ih =>
    have := hb v (by simp)
    rw [List.map_cons, needleBytes, bind_of (ih (fun a ha => hb a (by simp [ha])))]
    have : lo8 v = v := by unfold lo8; unfold IsByte at this; omega
    rw [this]

theorem padLeft_width (w : Nat) (n : Int) (hw : 0 < w) (h0 : 0 ≤ n) (h : n < 10 ^ w) : (utf8 (padLeft w (dec n))).length = w := by
  unfold padLeft
  rw [utf8_append, List.length_append, utf8_replicate, utf8_length_ascii _ (dec_ascii n)]
  have := dec_length n w hw h0 h
  omega

theorem padRight_width (w : Nat) (s : Str) (ha : ∀ c ∈ s, c.utf8Size = 1) (hs : s.length ≤ w) :
    (utf8 (padRight w s)).length = w := by
  unfold padRight
  rw [utf8_append, List.length_append, utf8_replicate, utf8_length_ascii _ ha]
  omega

theorem signedLine_width (label : Str) (v : Int) (hl : (utf8 label).length = 3) (h : |v| < 10 ^ 5) :
    (utf8 (Dst.signedLine label v)).length = 10 := by
  have e1 : (utf8 "+".toList).length = 1 := by decide +kernel
  have e2 : (utf8 "-".toList).length = 1 := by decide +kernel
  have e3 : (utf8 "\r".toList).length = 1 := by decide +kernel
  unfold Dst.signedLine
  split_ifs with h0
  · have := padLeft_width 5 v (by decide) h0 (by rw [abs_of_nonneg h0] at h; exact h)
    simp only [utf8_append, List.length_append, e1, e3, hl]; omega
  · have := padLeft_width 5 (-v) (by decide) (by omega) (by rw [abs_of_neg (by omega)] at h; exact h)
    simp only [utf8_append, List.length_append, e2, e3, hl]; omega

theorem floor_nonneg' (q : ℚ) (h : 0 ≤ q) : 0 ≤ q.floor := by
  have h1 := lt_floor' q
  have : ((-1 : Int) : ℚ) < q.floor := by push_cast; linarith
  have : -1 < q.floor := by exact_mod_cast this
  omega

theorem pyInt_small (q : ℚ) (h : |q| < 10 ^ 5) : |pyInt q| < 10 ^ 5 := by
  have h := abs_lt.1 h
  unfold pyInt
  rw [abs_lt]
  split_ifs with c
  · have h1 : (q.floor : ℚ) ≤ q := floor_le' q
    have h2 : 0 ≤ q.floor := floor_nonneg' q c
    have : q.floor < 10 ^ 5 := by
      have : (q.floor : ℚ) < (10 ^ 5 : Int) := by push_cast; linarith [h.2]
      exact_mod_cast this
    omega
  · have h1 : ((-q).floor : ℚ) ≤ -q := floor_le' (-q)
    have h2 : 0 ≤ (-q).floor := floor_nonneg' (-q) (by linarith)
    have : (-q).floor < 10 ^ 5 := by
      have : ((-q).floor : ℚ) < (10 ^ 5 : Int) := by push_cast; linarith [h.1]
      exact_mod_cast this
    omega

theorem pyInt_abs_nonneg (q : ℚ) : 0 ≤ pyInt |q| := by
  unfold pyInt
  rw [if_pos (abs_nonneg q)]
  exact floor_nonneg' _ (abs_nonneg q)

/-- Patterns a TBF header has room for. -/
structure Fits (name tp : Str) (threads : List Thread) (l : List Stitch) : Prop where
  name_ascii : ∀ c ∈ name, c.utf8Size = 1
  name_short : name.length ≤ 16
  tp_ascii : ∀ c ∈ tp, c.utf8Size = 1
  tp_short : tp.length ≤ 32
  threads_few : threads.length ≤ 201
  stitches_few : l.length < 10 ^ 7
  needles_few : l.countP (fun a => a.low == 9) ≤ 256
  small : ∀ a ∈ l, |a.x| < 10 ^ 5 ∧ |a.y| < 10 ^ 5

theorem partB_length {name tp : Str} {threads : List Thread} {l : List Stitch} (hf : Fits name tp threads l) (b : Box)
    (hb : Tight l b) (last : Stitch) (hl : last ∈ l) : (partB tp l b last).length = 119 := by
  have e1 : (utf8 "\r".toList).length = 1 := by decide +kernel
  have e2 : (utf8 "ST:".toList).length = 3 := by decide +kernel
  have e3 : (utf8 "CO:".toList).length = 3 := by decide +kernel
  have e4 : (utf8 "+X:".toList).length = 3 := by decide +kernel
  have e5 : (utf8 "-X:".toList).length = 3 := by decide +kernel
  have e6 : (utf8 "+Y:".toList).length = 3 := by decide +kernel
  have e7 : (utf8 "-Y:".toList).length = 3 := by decide +kernel
  have e8 : (utf8 "TP:".toList).length = 3 := by decide +kernel
  have e9 : (utf8 "JC:3\r".toList).length = 5 := by decide +kernel
  have e10 : (utf8 "DO:".toList).length = 3 := by decide +kernel
  have w1 := padLeft_width 7 l.length (by decide) (by omega) (by have := hf.stitches_few; omega)
  have hc : countCommands l NEEDLE_SET = l.countP (fun a => a.low == 9) := rfl
  have w2 := padLeft_width 3 (countCommands l NEEDLE_SET) (by decide) (by omega) (by have := hf.needles_few; omega)
  obtain ⟨_, ⟨a1, m1, f1⟩, ⟨a2, m2, f2⟩, ⟨a3, m3, f3⟩, ⟨a4, m4, f4⟩⟩ := hb
  have num : ∀ q : ℚ, |q| < 10 ^ 5 → (utf8 (padLeft 5 (dec (pyInt |q|)))).length = 5 := by
    intro q hq
    have h1 := pyInt_abs_nonneg q
    have h2 := pyInt_small |q| (by rw [abs_abs]; exact hq)
    rw [abs_of_nonneg h1] at h2
    exact padLeft_width 5 _ (by decide) h1 h2
  have w3 := num b.minX (by rw [← f1]; exact (hf.small a1 m1).1)
  have w4 := num b.maxX (by rw [← f2]; exact (hf.small a2 m2).1)
  have w5 := num b.minY (by rw [← f3]; exact (hf.small a3 m3).2)
  have w6 := num b.maxY (by rw [← f4]; exact (hf.small a4 m4).2)
  have w7 := padRight_width 32 tp hf.tp_ascii hf.tp_short
  have s1 := signedLine_width "AX:".toList (pyInt last.x) (by decide +kernel) (pyInt_small _ (hf.small last hl).1)
  have s2 := signedLine_width "AY:".toList (-pyInt last.y) (by decide +kernel)
    (by rw [abs_neg]; exact pyInt_small _ (hf.small last hl).2)
  unfold partB
  simp only [utf8_append, List.length_append, e1, e2, e3, e4, e5, e6, e7, e8, e9, e10, w1, w2, w3, w4, w5, w6, w7, s1, s2]

theorem partA_length : partA.length = 0x83 := by decide +kernel

theorem threads_length (ts : List Thread) : (ts.flatMap threadBytes).length = 5 * ts.length := by
  induction ts with
  | nil => rfl
  | cons t ts ih =>
    rw [List.flatMap_cons, List.length_append, ih, List.length_cons]
    simp only [threadBytes, List.length_cons, List.length_nil]; omega

theorem partC_length (order : Bytes) (ts : List Thread) (ho : order.length = 0x100) (ht : ts.length ≤ 201) :
    (partC order ts 0x10A).length = 0x600 - 0x10A := by
  have e : (utf8 "\rDA:".toList).length = 4 := by decide +kernel
  simp only [partC, List.length_append, List.length_replicate, List.length_cons, List.length_nil, ho, e, threads_length]
  omega

/-- C66 for TBF: a header that fits is 0x600 bytes, with the name at 0x83, the needle table at 0x10A and the threads at 0x20E. -/
theorem C66_tbf_partial {name tp : Str} {threads : List Thread} {l : List Stitch} (hf : Fits name tp threads l) (b : Box)
    (hb : Tight l b) (last : Stitch) (hl : last ∈ l) (order : Bytes) (ho : order.length = 0x100) :
    let h := header name tp threads l b last order
    h.length = 0x600 ∧ (h.drop 0x83).take 0x10 = utf8 (padRight 16 name) ∧ (h.drop 0x10A).take 0x100 = order ∧
    ∃ c rest, c ≠ 0x45 ∧ h.drop 0x20E = threads.flatMap threadBytes ++ c :: rest := by
  have hn := padRight_width 16 name hf.name_ascii hf.name_short
  have hB := partB_length hf b hb last hl
  have hp : (partA ++ utf8 (padRight 16 name) ++ partB tp l b last).length = 0x10A := by
    simp only [List.length_append, partA_length, hn, hB]
  have hC := partC_length order threads ho hf.threads_few
  simp only [header, hp]
  refine ⟨?_, ?_, ?_, ?_⟩
  · rw [List.length_append, hp, hC]
  · rw [List.append_assoc, List.append_assoc, List.drop_left' partA_length, List.take_left' hn]
  · rw [List.drop_left' hp]
    simp only [partC]
    rw [List.append_assoc, List.append_assoc, List.append_assoc, List.append_assoc, List.take_left' ho]
  · have e : (utf8 "\rDA:".toList).length = 4 := by decide +kernel
    have hq : (partA ++ utf8 (padRight 16 name) ++ partB tp l b last ++ order ++ utf8 "\rDA:".toList).length = 0x20E := by
      rw [List.length_append, List.length_append, hp, ho, e]
    have hd : ∀ rest : Bytes, (partA ++ utf8 (padRight 16 name) ++ partB tp l b last ++ order ++ utf8 "\rDA:".toList ++ rest).drop 0x20E = rest :=
      fun rest => List.drop_left' hq
    simp only [partC]
    generalize 0x376 - (266 + (order ++ utf8 "\rDA:".toList ++ threads.flatMap threadBytes).length) = k
    generalize 0x600 - (_ + _) = m
    rcases k with _ | k
    · refine ⟨0x0d, 0x1a :: List.replicate m 0x20, by decide, ?_⟩
      rw [← hd (threads.flatMap threadBytes ++ 0x0d :: 0x1a :: List.replicate m 0x20)]
      simp
    · refine ⟨0x20, List.replicate k 0x20 ++ [0x0d, 0x1a] ++ List.replicate m 0x20, by decide, ?_⟩
      rw [← hd (threads.flatMap threadBytes ++ 0x20 :: (List.replicate k 0x20 ++ [0x0d, 0x1a] ++ List.replicate m 0x20))]
      rw [List.replicate_succ]
      simp

variable {o : Settings} {lm : Libm} {threads : List Thread} {source out : List Stitch} {ths : List (Option Thread)} {name tp : Str}

theorem needles_vals (l : List Stitch) (h : ∀ a ∈ l, a.low = 9 → a.cmd / 65536 % 256 ≠ 0) (xx yy : Int) :
    needles l = (vals (wdeltas xx yy l)).map some ∧ (vals (wdeltas xx yy l)).length = l.countP (fun a => a.low == 9) := by
  induction l generalizing xx yy with
  | nil => exact ⟨rfl, rfl⟩
  | cons a l ih =>
    obtain ⟨i1, i2⟩ := ih (fun b hb => h b (by simp [hb])) (xx + pyRound (a.x - xx)) (yy + pyRound (a.y - yy))
    unfold needles at i1 ⊢
    unfold vals at i1 i2 ⊢
    rw [wdeltas, List.filter_cons, List.filter_cons, List.countP_cons]
    have hc : cmdOf a.cmd = a.low := rfl
    have hc2 : a.cmd % 256 = a.low := rfl
    simp only [hc, hc2, NEEDLE_SET]
    simp only [NEEDLE_SET, List.map_map] at i1
    by_cases c : a.low = 9
    · have : (decodeCommand a.cmd).2.2.1 = some (a.cmd / 65536 % 256 - 1) := needle_of _ (h a (by simp) c)
      simp [c, i1, i2, this]
    · simp [c, i1, i2]

theorem vals_bytes (rs : List Rec) (h : ∀ r ∈ rs, r.cmd % 256 = 9 → r.cmd / 65536 % 256 ≠ 0) : ∀ v ∈ vals rs, IsByte v := by
  intro v hv
  unfold vals at hv
  obtain ⟨r, hr, rfl⟩ := List.mem_map.1 hv
  obtain ⟨h1, h2⟩ := List.mem_filter.1 hr
  have := h r h1 (by simpa using h2)
  unfold IsByte
  omega

/-- C14, exactly: for every source pattern that does not change the limits or switch sequins on: encoding with the TBF
settings and writing succeeds for a pattern that `Fits` the header, and the file is read back with the name, the colours and
the commands as `seen` says. -/
theorem C14_exact (hlm : lm.Sound) (hv : o.ValidSequins) (hr : o.round = true)
    (h1 : o.maxStitch = some 127) (h2 : o.maxJump = some 127) (h3 : o.longStitch = 0xF1 ∨ o.longStitch = 0xF2)
    (hc : o.changeCommand = 9) (hs : o.sequin ≠ 0xF5)
    (hq : ∀ st ∈ source, st.low ≠ 0xD5 ∧ st.low ≠ 0xD6 ∧ st.low ≠ 0xF0 ∧ st.low ≠ 0xF5)
    (h : encode o lm threads source = .ok (out, ths)) (hn : ∀ a ∈ out, a.low = 9 → a.cmd / 65536 % 256 ≠ 0)
    (hf : Fits name tp threads out) :
    ∃ f, write name tp threads out = .ok f ∧ read f = .ok
      { name := strip (padRight 16 name), threads := threads.map (fun t => some (t.color % 16777216)),
        stitches := place 0 0 ((wdeltas 0 0 out).filterMap seen) } := by
  obtain ⟨l, e, rfl, hd, hok⟩ := encoded_recs (M := 127) (by decide) hlm hv hr (by rw [h1]; norm_num)
    (by rw [h2]; norm_num) h3 hs hq h
  obtain ⟨he, hw, hok⟩ := recs_words hd hok
  obtain ⟨b, hb, ht⟩ := C43_tight (l ++ [e]) (by simp)
  obtain ⟨n1, n2⟩ := needles_vals (l ++ [e]) hn 0 0
  have hfield : ∀ r ∈ wdeltas 0 0 (l ++ [e]), r.cmd % 256 = 9 → r.cmd / 65536 % 256 ≠ 0 := by
    intro r hr h9
    obtain ⟨a, ha, ea⟩ := wdeltas_cmd_mem hr
    rw [← ea]; exact hn a ha (by unfold Stitch.low; rw [ea]; exact h9)
  have hnb := needleBytes_ok _ _ n1 (vals_bytes _ hfield)
  have hev : vals (wdeltas 0 0 (l ++ [e])) = vals (wdeltas 0 0 l) := by
    rw [hw]; unfold vals; rw [List.filter_append]; simp [he]
  have hcount : (vals (wdeltas 0 0 (l ++ [e]))).length ≤ 256 := by rw [n2]; exact hf.needles_few
  have hlen : (needles (l ++ [e])).length = (vals (wdeltas 0 0 (l ++ [e]))).length := by rw [n1, List.length_map]
  have horder : orderBytes (l ++ [e]) = .ok (vals (wdeltas 0 0 l) ++ List.replicate (0x100 - (vals (wdeltas 0 0 l)).length) 0) := by
    unfold orderBytes
    rw [if_neg (by omega), bind_of hnb, hlen, hev]
  have holen : (vals (wdeltas 0 0 l) ++ List.replicate (0x100 - (vals (wdeltas 0 0 l)).length) (0 : Int)).length = 0x100 := by
    rw [hev] at hcount
    rw [List.length_append, List.length_replicate]; omega
  obtain ⟨c1, c2, c3, c, rest, hc45, c4⟩ := C66_tbf_partial hf b ht e (by simp) _ holen
  generalize hH : header name tp threads (l ++ [e]) b e (vals (wdeltas 0 0 l) ++ List.replicate (0x100 - (vals (wdeltas 0 0 l)).length) 0) = H at *
  refine ⟨H ++ writeRecs (wdeltas 0 0 (l ++ [e])), ?_, ?_⟩
  · unfold write
    rw [hb, List.getLast?_append]
    simp only [List.getLast?_singleton, Option.some_or]
    rw [bind_of horder, hH]
  · have d1 : ∀ n k, n + k ≤ 0x600 → ∀ B : Bytes, ((H ++ B).drop n).take k = (H.drop n).take k := by
      intro n k hnk B
      rw [List.drop_append_of_le_length (by omega), List.take_append_of_le_length (by rw [List.length_drop]; omega)]
    have hrec : readRecs ((H ++ writeRecs (wdeltas 0 0 (l ++ [e]))).drop 0x10A |>.take 0x100) 0
        ((H ++ writeRecs (wdeltas 0 0 (l ++ [e]))).drop 0x600) = .ok ((wdeltas 0 0 l).filterMap seen) := by
      rw [d1 0x10A 0x100 (by decide), c3, List.drop_left' c1, hw]
      have := readRecs_write (wdeltas 0 0 l) ⟨0, 0, e.cmd⟩ he (fun r hr =>
        ⟨(hok r hr).1, fun h5 => absurd ((hok r hr).2.1 h5) (by rw [hc]; decide), hfield r (by rw [hw]; simp [hr])⟩) []
        (List.replicate (0x100 - (vals (wdeltas 0 0 l)).length) 0)
      simpa using this
    have hth : readThreads ((H ++ writeRecs (wdeltas 0 0 (l ++ [e]))).drop 0x20E) = threads.map (fun t => some (t.color % 16777216)) := by
      rw [List.drop_append_of_le_length (by omega), c4, List.append_assoc, List.cons_append]
      exact readThreads_write threads c _ hc45
    unfold read
    rw [d1 0x83 0x10 (by decide), c2, decodeUtf8_utf8]
    simp only
    rw [bind_of hrec, hth, hw, List.filterMap_append]
    have : [(⟨0, 0, e.cmd⟩ : Rec)].filterMap seen = [⟨0, 0, 4⟩] := by simp [seen, he]
    rw [this]; rfl

/-- What a TBF file shows of a command word. -/
def shows (w : Int) : Option Int :=
  if w % 256 ≤ 4 then some (w % 256) else if w % 256 = 9 then some (9 + w / 65536 % 256 * 65536) else none

/-- C14: for every source pattern that does not change the limits or switch sequins on, encoded with the TBF settings so that
it fits the header, without jumps that do not move and with needles from 1: the file is read back with the same colours, the
name without white space around it, and the encoded commands in order at the positions of the encoded pattern, needle
changes with their needle. Partial: JUMP commands that do not move become TRIM (`C14_still_jump`), needle 0 becomes STOP (`C14_needle_zero`); names
longer than 16 characters move the tables (`C66_long_name`). -/
theorem C14_roundtrip_partial (hlm : lm.Sound) (hv : o.ValidSequins) (hr : o.round = true)
    (h1 : o.maxStitch = some 127) (h2 : o.maxJump = some 127) (h3 : o.longStitch = 0xF1 ∨ o.longStitch = 0xF2)
    (hc : o.changeCommand = 9) (hs : o.sequin ≠ 0xF5)
    (hq : ∀ st ∈ source, st.low ≠ 0xD5 ∧ st.low ≠ 0xD6 ∧ st.low ≠ 0xF0 ∧ st.low ≠ 0xF5)
    (h : encode o lm threads source = .ok (out, ths)) (hn : ∀ a ∈ out, a.low = 9 → 2 ≤ a.cmd / 65536 % 256)
    (hj : ∀ r ∈ wdeltas 0 0 out, r.cmd % 256 = 1 → r.dx ≠ 0 ∨ r.dy ≠ 0)
    (hname : (∀ c, name.head? = some c → isSpace c = false) ∧ (∀ c, name.getLast? = some c → isSpace c = false))
    (hf : Fits name tp threads out) :
    ∃ f, write name tp threads out = .ok f ∧ read f = .ok
      { name := name, threads := threads.map (fun t => some (t.color % 16777216)), 
        stitches := view shows (place 0 0 (wdeltas 0 0 out)) } := by
  obtain ⟨f, hw, hrd⟩ := C14_exact hlm hv hr h1 h2 h3 hc hs hq h (fun a ha h9 => by have := hn a ha h9; omega) hf
  refine ⟨f, hw, ?_⟩
  have e1 : strip (padRight 16 name) = name := strip_pad name _ hname.1 hname.2
  have e2 : ∀ rs : List Rec, (∀ r ∈ rs, r.cmd % 256 = 1 → r.dx ≠ 0 ∨ r.dy ≠ 0) →
      (∀ r ∈ rs, r.cmd % 256 = 9 → 2 ≤ r.cmd / 65536 % 256) → rs.filterMap seen = viewRec shows rs := by
    intro rs a1 a2
    unfold viewRec
    refine List.filterMap_congr (fun r hr => ?_)
    have b1 := a1 r hr
    have b2 := a2 r hr
    unfold seen shows
    by_cases c1 : r.cmd % 256 = 1
    · rw [if_pos c1, if_neg (by have := b1 c1; omega), if_pos (by omega), c1]; rfl
    rw [if_neg c1]
    by_cases c2 : r.cmd % 256 ≤ 4
    · rw [if_pos c2, if_pos c2]; rfl
    rw [if_neg c2, if_neg c2]
    by_cases c3 : r.cmd % 256 = 9
    · rw [if_pos c3, if_pos c3, if_neg (by have := b2 c3; omega)]; rfl
    rw [if_neg c3, if_neg c3]; rfl
  rw [hrd, e1, e2 _ hj, place_viewRec]
  · exact U01.hidden_still hv hs (fun st hst => (hq st hst).2.2.2) h
  · intro r hr h9
    obtain ⟨a, ha, ea⟩ := wdeltas_cmd_mem hr
    rw [← ea]; exact hn a ha (by unfold Stitch.low; rw [ea]; exact h9)

/-- The TBF settings, `TbfWriter.py` 5-10. -/
def settings : Settings where
  maxStitch := some 127
  maxJump := some 127
  threadChange := NEEDLE_SET
  round := true
  explicitTrim := true

example : settings.ValidSequins ∧ settings.changeCommand = 9 ∧ settings.sequin ≠ 0xF5 :=
  ⟨fun v h => (by simp [settings] at h), by decide, by decide⟩

/-- What is read back from the file of an example pattern. -/
def again (name : Str) (ts : List Thread) (l : List Stitch) : Except PyErr Loaded :=
  write name "EG/".toList ts (demoEncode settings l) >>= read

example : again "ab".toList [{ color := 0x102030 }] demoPattern = .ok
    { name := "ab".toList, threads := [some 0x102030],
      stitches := [⟨0, 0, 131081⟩, ⟨0, 0, 0⟩, ⟨5, 3, 0⟩, ⟨5, 3, 2⟩, ⟨-97, 3, 1⟩, ⟨-198, 4, 1⟩, ⟨-300, 4, 0⟩, ⟨-300, 4, 3⟩,
        ⟨-301, 4, 0⟩, ⟨-301, 4, 2⟩, ⟨-301, 4, 196617⟩, ⟨-301, -4, 0⟩, ⟨-301, -4, 4⟩] } := by decide +kernel

/-- The claim fails for a jump that does not move: it is read as a trim. -/
theorem C14_still_jump : again "ab".toList [] [⟨0, 0, 0⟩, ⟨0, 0, 1⟩, ⟨5, 0, 0⟩] = .ok
    { name := "ab".toList, threads := [],
      stitches := [⟨0, 0, 131081⟩, ⟨0, 0, 0⟩, ⟨0, 0, 2⟩, ⟨5, 0, 0⟩, ⟨5, 0, 4⟩] } := by decide +kernel

/-- The claim fails for needle 0: it is read as a stop. -/
theorem C14_needle_zero : again "ab".toList [] [⟨0, 0, encodeThreadChange 9 none (some 0) none⟩, ⟨5, 0, 0⟩] = .ok
    { name := "ab".toList, threads := [], stitches := [⟨0, 0, 3⟩, ⟨5, 0, 0⟩, ⟨5, 0, 4⟩] } := by decide +kernel

/-- C66 fails for long names: with 19 characters needle 1 is read as needle 68 and the thread is lost. -/
theorem C66_long_name : again "abcdefghijklmnopqrs".toList [{ color := 0x102030 }] [⟨5, 0, 0⟩] = .ok
    { name := "abcdefghijklmnop".toList, threads := [],
      stitches := [⟨0, 0, encodeThreadChange 9 none (some 68) none⟩, ⟨5, 0, 0⟩, ⟨5, 0, 4⟩] } := by decide +kernel

end Tbf
end Emb
