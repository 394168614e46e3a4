import Verif.Blocks
import Verif.Csv

/-!
# SVG files

`ElementTree` is part of Python, not of the library; its output format is modelled here as far as it occurs: attributes in the order
they were set (Python 3.8 and later), values escaped, `<tag a="v" />` for an element without children.
Numbers are printed by `n.str`.
-/

namespace Emb
namespace Svg

/-- An element without children. -/
structure Leaf where
  tag : Str
  attrs : List (Str × Str)

/-- The root element and its children. -/
structure Root where
  tag : Str
  attrs : List (Str × Str)
  kids : List Leaf

/-- `_escape_attrib` of `ElementTree`, character by character. -/
def escape (s : Str) : Str :=
  s.flatMap fun c =>
    if c = '&' then "&amp;".toList
    else if c = '<' then "&lt;".toList
    else if c = '>' then "&gt;".toList
    else if c = '"' then "&quot;".toList
    else if c = '\r' then "&#13;".toList
    else if c = '\n' then "&#10;".toList
    else if c = '\t' then "&#09;".toList
    else [c]

/-- ` key="value"`. -/
def attrText (a : Str × Str) : Str := ' ' :: a.1 ++ '=' :: '"' :: escape a.2 ++ ['"']

/-- An element without children as text. -/
def leafText (l : Leaf) : Str := '<' :: l.tag ++ l.attrs.flatMap attrText ++ " />".toList

/-- `ElementTree.write`. -/
def rootText (r : Root) : Str :=
  if r.kids = [] then leafText ⟨r.tag, r.attrs⟩
  else '<' :: r.tag ++ r.attrs.flatMap attrText ++ '>' :: r.kids.flatMap leafText ++ '<' :: '/' :: r.tag ++ ['>']

/-- The extents and sizes as `str` prints them, `SvgWriter.py` 37-39; without stitches they are infinite. -/
def extents (n : Csv.Num) (l : List Stitch) : Str × Str × Str × Str :=
  match bounds l with
  | some b => (n.str b.minX, n.str b.minY, n.str (b.maxX - b.minX), n.str (b.maxY - b.minY))
  | none => ("inf".toList, "inf".toList, "-inf".toList, "-inf".toList)

/-- The attribute `d` of a path, `SvgWriter.py` 51-55. -/
def pathData (n : Csv.Num) (block : List Stitch) : Str :=
  'M' :: block.flatMap (fun st => ' ' :: n.str st.x ++ ',' :: n.str st.y)

/-- One path, `SvgWriter.py` 48-59. -/
def path (n : Csv.Num) (b : List Stitch × Thread) : Leaf :=
  ⟨"path".toList, [("d".toList, pathData n b.1), ("fill".toList, "none".toList), ("stroke".toList, hexColor b.2),
    ("stroke-width".toList, "3".toList)]⟩

/-- `create_svg_dom`, `SvgWriter.py` 31-60. -/
def dom (n : Csv.Num) (threads : List Thread) (filler : Nat → Thread) (l : List Stitch) : Root :=
  let e := extents n l
  ⟨"svg".toList,
   [("version".toList, "1.1".toList), ("xmlns".toList, "http://www.w3.org/2000/svg".toList),
    ("xmlns:xlink".toList, "http://www.w3.org/1999/xlink".toList), ("xmlns:ev".toList, "http://www.w3.org/2001/xml-events".toList),
    ("width".toList, e.2.2.1), ("height".toList, e.2.2.2),
    ("viewBox".toList, e.1 ++ ' ' :: e.2.1 ++ ' ' :: e.2.2.1 ++ ' ' :: e.2.2.2)],
   (Blocks.stitchBlocks threads filler l).map (path n)⟩

/-- `write`, `SvgWriter.py` 63-66: the text of the file. -/
def text (n : Csv.Num) (threads : List Thread) (filler : Nat → Thread) (l : List Stitch) : Str := rootText (dom n threads filler l)

end Svg
end Emb
