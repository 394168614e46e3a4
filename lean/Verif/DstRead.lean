import Verif.Csv
import Verif.Dst
import Verif.DstHeader

/-!
# Reading the DST header, and whole DST files
-/

namespace Emb
namespace Dst

/-- The texts `header[start:end]` of the loop in `dst_read_header`, `DstReader.py` 50-58: one for each carriage return or line
feed; since `start = end` each but the first begins with the line end before it, and what follows the last one is left. -/
def headerLines : Bytes → Bytes → List Bytes
  | _, [] => []
  | cur, b :: rest => if b = 13 ∨ b = 10 then cur :: headerLines [b] rest else headerLines (cur ++ [b]) rest

/-- `process_header_info`, `DstReader.py` 35-46. The thread made from the dictionary has the colour `color_hex` of `hex`
(`EmbThread.set`, 246-251). Where that is `None` the thread is kept by the code and fails when it is used; here reading
fails. -/
def headerInfo (d : Doc) (pre value : Str) : Except PyErr Doc :=
  if pre = "LA".toList then .ok { d with extras := put "name".toList value d.extras }
  else if pre = "AU".toList then .ok { d with extras := put "author".toList value d.extras }
  else if pre = "CP".toList then .ok { d with extras := put "copyright".toList value d.extras }
  else if pre = "TC".toList then
    match (splitOn ',' value).map strip with
    | hex :: desc :: cat :: _ => colorHex hex >>= fun c => match c with
      | none => .error .typeError
      | some c => .ok { d with threads := d.threads ++
          [{ color := c, description := some (String.ofList desc), catalog := some (String.ofList cat) }] }
    | _ => .error .indexError
  else .ok { d with extras := put pre value d.extras }

/-- One text, `DstReader.py` 59-64; text that is not UTF-8 is skipped. -/
def headerLine (d : Doc) (data : Bytes) : Except PyErr Doc :=
  match decodeUtf8 data with
  | none => .ok d
  | some s =>
    if 3 < (strip s).length then headerInfo d (strip ((strip s).take 2)) (strip ((strip s).drop 3)) else .ok d

/-- `dst_read_header`, `DstReader.py` 49-64, into an empty pattern. -/
def readHeader (f : Bytes) : Except PyErr Doc := (headerLines [] (f.take 512)).foldlM headerLine {}

/-- `read`, `DstReader.py` 103-105, with the header. -/
def readDoc (trimAt : Int) (dist : Option ℚ) (clipping : Bool) (f : Bytes) : Except PyErr Doc :=
  readHeader f >>= fun d => .ok { d with stitches := read trimAt dist clipping f }

/-- `d.get(k)` on an insertion-ordered dictionary with string keys. -/
def getText (k : Str) (l : List (Str × Str)) : Option Str := (l.find? (fun p => p.1 = k)).map Prod.snd

/-- What `write` takes from a pattern with stitches for the header, `DstWriter.py` 107-133 and 147-160. -/
def docInfo (extended : Bool) (d : Doc) (b : Box) (last : Stitch) : HeaderInfo where
  name := (getText "name".toList d.extras).getD "Untitled".toList
  stitches := d.stitches.length
  changes := countCommands d.stitches COLOR_CHANGE
  minX := b.minX
  minY := b.minY
  maxX := b.maxX
  maxY := b.maxY
  lastX := last.x
  lastY := last.y
  extended := extended
  author := getText "author".toList d.extras
  copyright := getText "copyright".toList d.extras
  threads := d.threads.map (fun t => (hexColor t, Csv.opt t.description, Csv.opt t.catalog))

/-- `write`, `DstWriter.py` 107-185. Without stitches the bounds are infinite, and `"%5d"` of that is an `OverflowError`. -/
def writeDoc (extended : Bool) (trimAt : Int) (d : Doc) : Except PyErr Bytes :=
  match bounds d.stitches, d.stitches.getLast? with
  | some b, some last => writeBody trimAt d.stitches >>= fun body => .ok (header (docInfo extended d b last) ++ body)
  | _, _ => .error .overflowError

end Dst
end Emb
