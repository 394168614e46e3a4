import Verif.DstHeader
import Verif.Props.DstFileProps

/-!
# Property C07: the DST header
-/

namespace Emb
namespace Dst

theorem header_length (i : HeaderInfo) : (header i).length = max 512 ((utf8 (headerText i)).length + 1) := by
  simp only [header, List.length_append, List.length_replicate, List.length_cons, List.length_nil]
  omega

/-- C07: never fewer than 512 bytes, and exactly 512 if and only if the text before the padding has at most 511 bytes. -/
theorem C07_length (i : HeaderInfo) :
    512 ≤ (header i).length ∧ ((header i).length = 512 ↔ (utf8 (headerText i)).length ≤ 511) := by
  rw [header_length]
  omega

theorem padRight_bytes (w : Nat) (s : Str) : (utf8 (padRight w s)).length ≤ max w (utf8 s).length + w := by
  unfold padRight
  rw [utf8_append, List.length_append, utf8_replicate]
  omega

theorem padLeft_dec (w : Nat) (n : Int) (h0 : 0 ≤ n) (h : n < 10 ^ 20) (hw : w ≤ 20) :
    (utf8 (padLeft w (dec n))).length ≤ 20 := by
  unfold padLeft
  rw [utf8_append, List.length_append, utf8_replicate, utf8_length_ascii _ (dec_ascii n)]
  have := dec_length n 20 (by decide) h0 h
  omega

theorem signedLine_bytes (label : Str) (v : Int) (hl : (utf8 label).length = 3) (h : |v| < 10 ^ 20) :
    (utf8 (signedLine label v)).length ≤ 25 := by
  have e1 : (utf8 "+".toList).length = 1 := by decide +kernel
  have e2 : (utf8 "-".toList).length = 1 := by decide +kernel
  have e3 : (utf8 "\r".toList).length = 1 := by decide +kernel
  unfold signedLine
  split_ifs with h0
  · have := padLeft_dec 5 v h0 (by rw [abs_of_nonneg h0] at h; exact h) (by decide)
    simp only [utf8_append, List.length_append, e1, e3, hl]; omega
  · have := padLeft_dec 5 (-v) (by omega) (by rw [abs_of_neg (by omega)] at h; exact h) (by decide)
    simp only [utf8_append, List.length_append, e2, e3, hl]; omega

/-- C07 for ordinary designs: with the default header, a name of at most 240 bytes and coordinates below 10^20, the
header is exactly 512 bytes. Missing for the full claim: longer names and extended headers overflow
(`C07_long_name_overflows`). -/
theorem C07_header_partial (i : HeaderInfo) (he : i.extended = false) (hn : (utf8 i.name).length ≤ 240)
    (h1 : (i.stitches : Int) < 10 ^ 20) (h2 : (i.changes : Int) < 10 ^ 20)
    (h3 : 0 ≤ pyInt |i.maxX| ∧ pyInt |i.maxX| < 10 ^ 20) (h4 : 0 ≤ pyInt |i.minX| ∧ pyInt |i.minX| < 10 ^ 20)
    (h5 : 0 ≤ pyInt |i.maxY| ∧ pyInt |i.maxY| < 10 ^ 20) (h6 : 0 ≤ pyInt |i.minY| ∧ pyInt |i.minY| < 10 ^ 20)
    (h7 : |pyInt i.lastX| < 10 ^ 20) (h8 : |pyInt i.lastY| < 10 ^ 20) : (header i).length = 512 := by
  rw [(C07_length i).2]
  have c1 : (utf8 "LA:".toList).length = 3 := by decide +kernel
  have c2 : (utf8 "ST:".toList).length = 3 := by decide +kernel
  have c3 : (utf8 "CO:".toList).length = 3 := by decide +kernel
  have c4 : (utf8 "+X:".toList).length = 3 := by decide +kernel
  have c5 : (utf8 "-X:".toList).length = 3 := by decide +kernel
  have c6 : (utf8 "+Y:".toList).length = 3 := by decide +kernel
  have c7 : (utf8 "-Y:".toList).length = 3 := by decide +kernel
  have c8 : (utf8 ("MX:+".toList ++ padLeft 5 (dec 0) ++ "\r".toList)).length = 10 := by decide +kernel
  have c9 : (utf8 ("MY:+".toList ++ padLeft 5 (dec 0) ++ "\r".toList)).length = 10 := by decide +kernel
  have c10 : (utf8 ("PD:".toList ++ padLeft 6 "******".toList ++ "\r".toList)).length = 10 := by decide +kernel
  have c11 : (utf8 "\r".toList).length = 1 := by decide +kernel
  have n1 : (utf8 (padRight 16 i.name)).length ≤ 256 := by
    have := padRight_bytes 16 i.name; omega
  have n2 := padLeft_dec 7 i.stitches (by omega) h1 (by decide)
  have n3 := padLeft_dec 3 i.changes (by omega) h2 (by decide)
  have n4 := padLeft_dec 5 _ h3.1 h3.2 (by decide)
  have n5 := padLeft_dec 5 _ h4.1 h4.2 (by decide)
  have n6 := padLeft_dec 5 _ h5.1 h5.2 (by decide)
  have n7 := padLeft_dec 5 _ h6.1 h6.2 (by decide)
  have n8 := signedLine_bytes "AX:".toList (pyInt i.lastX) (by decide +kernel) h7
  have n9 := signedLine_bytes "AY:".toList (-pyInt i.lastY) (by decide +kernel) (by rw [abs_neg]; exact h8)
  unfold headerText extendedLines
  rw [he]
  rw [utf8_append, utf8_append, utf8_append, utf8_append, utf8_append, utf8_append, utf8_append, utf8_append, utf8_append,
    utf8_append, utf8_append, utf8_append, utf8_append, utf8_append]
  simp only [List.length_append, c8, c9, c10]
  simp only [utf8_append, List.length_append, c1, c2, c3, c4, c5, c6, c7, c11, Bool.false_eq_true, if_false]
  have c0 : (utf8 []).length = 0 := rfl
  omega

/-- The full C07 fails: a name of 508 bytes or more makes the header longer than the 512 bytes every reader skips, so that
the rest of it is read as stitches. -/
theorem C07_long_name_overflows (i : HeaderInfo) (hn : 508 ≤ (utf8 i.name).length) : 512 < (header i).length := by
  rw [header_length]
  have c1 : (utf8 "LA:".toList).length = 3 := by decide +kernel
  have c11 : (utf8 "\r".toList).length = 1 := by decide +kernel
  have : 512 ≤ (utf8 (headerText i)).length := by
    unfold headerText
    simp only [utf8_append, List.length_append, padRight, c1, c11]
    omega
  omega

/-- The default header of a small design. -/
def demoInfo : HeaderInfo where
  name := "Untitled".toList
  stitches := 12
  changes := 1
  minX := -5
  minY := 0
  maxX := 120
  maxY := 33/2
  lastX := 0
  lastY := -7
  extended := false
  author := none
  copyright := none
  threads := []

example : (utf8 demoInfo.name).length ≤ 240 ∧ (header demoInfo).length = 512 := by decide +kernel
example : 508 ≤ (utf8 (List.replicate 508 'a')).length := by decide +kernel

end Dst
end Emb
