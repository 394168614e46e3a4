import Verif.Text
import Verif.Py

/-!
# The DST header
-/

namespace Emb
namespace Dst

/-- What the DST header is made from. -/
structure HeaderInfo where
  /-- `pattern.get_metadata("name", "Untitled")` -/
  name : Str
  /-- `pattern.count_stitches()` -/
  stitches : Nat
  /-- `pattern.count_color_changes()` -/
  changes : Nat
  /-- `pattern.bounds()` of a pattern with at least one stitch -/
  minX : ℚ
  minY : ℚ
  maxX : ℚ
  maxY : ℚ
  /-- the last stitch -/
  lastX : ℚ
  lastY : ℚ
  /-- `version == "extended"` or the deprecated `extended header` setting -/
  extended : Bool
  author : Option Str
  copyright : Option Str
  /-- `thread.hex_color(), thread.description, thread.catalog_number` as formatted by `%s` -/
  threads : List (Str × Str × Str)

/-- `"AX:+%5d\r"` or `"AX:-%5d\r"`, `DstWriter.py` 138-145. -/
def signedLine (label : Str) (v : Int) : Str :=
  if 0 ≤ v then label ++ "+".toList ++ padLeft 5 (dec v) ++ "\r".toList
  else label ++ "-".toList ++ padLeft 5 (dec (-v)) ++ "\r".toList

/-- The lines of the extended header, `DstWriter.py` 149-162. -/
def extendedLines (i : HeaderInfo) : Str :=
  if i.extended then
    (match i.author with | none => [] | some a => "AU:".toList ++ a ++ "\r".toList) ++
    (match i.copyright with | none => [] | some a => "CP:".toList ++ a ++ "\r".toList) ++
    i.threads.flatMap (fun t => "TC:".toList ++ t.1 ++ ",".toList ++ t.2.1 ++ ",".toList ++ t.2.2 ++ "\r".toList)
  else []

/-- The text of the header, `DstWriter.py` 120-162. -/
def headerText (i : HeaderInfo) : Str :=
  "LA:".toList ++ padRight 16 i.name ++ "\r".toList ++
  ("ST:".toList ++ padLeft 7 (dec i.stitches) ++ "\r".toList) ++
  ("CO:".toList ++ padLeft 3 (dec i.changes) ++ "\r".toList) ++
  ("+X:".toList ++ padLeft 5 (dec (pyInt |i.maxX|)) ++ "\r".toList) ++
  ("-X:".toList ++ padLeft 5 (dec (pyInt |i.minX|)) ++ "\r".toList) ++
  ("+Y:".toList ++ padLeft 5 (dec (pyInt |i.maxY|)) ++ "\r".toList) ++
  ("-Y:".toList ++ padLeft 5 (dec (pyInt |i.minY|)) ++ "\r".toList) ++
  signedLine "AX:".toList (pyInt i.lastX) ++ signedLine "AY:".toList (-pyInt i.lastY) ++
  ("MX:+".toList ++ padLeft 5 (dec 0) ++ "\r".toList) ++ ("MY:+".toList ++ padLeft 5 (dec 0) ++ "\r".toList) ++
  ("PD:".toList ++ padLeft 6 "******".toList ++ "\r".toList) ++
  extendedLines i

/-- The header: the text, `\x1a`, then spaces up to 512 bytes (`range(f.tell(), 512)`, empty if there are more already),
`DstWriter.py` 120-165, for a file that starts at the header. -/
def header (i : HeaderInfo) : Bytes :=
  let t := utf8 (headerText i)
  t ++ [0x1a] ++ List.replicate (512 - (t.length + 1)) 0x20

end Dst
end Emb
