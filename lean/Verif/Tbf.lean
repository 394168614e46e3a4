import Verif.Format
import Verif.Pattern
import Verif.DstHeader
import Verif.Thread

/-!
# Tajima TBF
-/

namespace Emb
namespace Tbf

/-- The needles of the NEEDLE_SET commands in order, `TbfWriter.py` 58-63. -/
def needles (l : List Stitch) : List (Option Int) :=
  (l.filter (fun st => cmdOf st.cmd == NEEDLE_SET)).map (fun st => (decodeCommand st.cmd).2.2.1)

/-- `write_int_8(f, n)` for the entries of `thread_order` that were set: a `None` is a `TypeError`. -/
def needleBytes : List (Option Int) → Except PyErr Bytes
  | [] => .ok []
  | none :: _ => .error .typeError
  | some n :: rest => needleBytes rest >>= fun t => .ok (lo8 n :: t)

/-- `thread_order` as written, `TbfWriter.py` 56-65: the 257th NEEDLE_SET is an `IndexError`. -/
def orderBytes (l : List Stitch) : Except PyErr Bytes :=
  if (needles l).length > 0x100 then .error .indexError
  else needleBytes (needles l) >>= fun b => .ok (b ++ List.replicate (0x100 - (needles l).length) 0)

/-- `"3.00"` padded to 0x80 and the label of the name, `TbfWriter.py` 20-23, for a stream that starts at position 0. -/
def partA : Bytes := utf8 "3.00".toList ++ List.replicate (0x80 - 4) 0x20 ++ utf8 "LA:".toList

/-- The end of the name line up to the thread order, `TbfWriter.py` 23-55; `tp` is the metadata of that name. -/
def partB (tp : Str) (l : List Stitch) (b : Box) (last : Stitch) : Bytes :=
  utf8 ("\r".toList ++
    ("ST:".toList ++ padLeft 7 (dec l.length) ++ "\r".toList) ++
    ("CO:".toList ++ padLeft 3 (dec (countCommands l NEEDLE_SET)) ++ "\r".toList) ++
    ("+X:".toList ++ padLeft 5 (dec (pyInt |b.maxX|)) ++ "\r".toList) ++
    ("-X:".toList ++ padLeft 5 (dec (pyInt |b.minX|)) ++ "\r".toList) ++
    ("+Y:".toList ++ padLeft 5 (dec (pyInt |b.maxY|)) ++ "\r".toList) ++
    ("-Y:".toList ++ padLeft 5 (dec (pyInt |b.minY|)) ++ "\r".toList) ++
    Dst.signedLine "AX:".toList (pyInt last.x) ++ Dst.signedLine "AY:".toList (-pyInt last.y) ++
    ("TP:".toList ++ padRight 32 tp ++ "\r".toList) ++ "JC:3\r".toList ++ "DO:".toList)

/-- One entry of the thread list, `TbfWriter.py` 71-76. -/
def threadBytes (t : Thread) : Bytes := [0x45, lo8 t.red, lo8 t.green, lo8 t.blue, 0x20]

/-- The header from the thread order on, `TbfWriter.py` 64-88; `pos` is `f.tell()` before it. -/
def partC (order : Bytes) (threads : List Thread) (pos : Nat) : Bytes :=
  let h := order ++ utf8 "\rDA:".toList ++ threads.flatMap threadBytes
  let h := h ++ List.replicate (0x376 - (pos + h.length)) 0x20 ++ [0x0d, 0x1a]
  h ++ List.replicate (0x600 - (pos + h.length)) 0x20

/-- One triple of the body. -/
def triple (dx dy cmd : Int) : Bytes := [lo8 dx, lo8 (-dy), cmd]

/-- The loop over the stitches and the final byte, `TbfWriter.py` 90-122, on the records of `wdeltas`. -/
def writeRecs : List Rec → Bytes
  | [] => [0x1a]
  | r :: rest =>
    let c := cmdOf r.cmd
    if c = STITCH then triple r.dx r.dy 0x80 ++ writeRecs rest
    else if c = JUMP then triple r.dx r.dy 0x90 ++ writeRecs rest
    else if c = STOP then triple r.dx r.dy 0x40 ++ writeRecs rest
    else if c = TRIM then triple r.dx r.dy 0x86 ++ writeRecs rest
    else if c = NEEDLE_SET then triple r.dx r.dy 0x81 ++ writeRecs rest
    else if c = END then triple r.dx r.dy 0x8F ++ [0x1a]
    else writeRecs rest

/-- The header, `TbfWriter.py` 17-88. -/
def header (name tp : Str) (threads : List Thread) (l : List Stitch) (b : Box) (last : Stitch) (order : Bytes) : Bytes :=
  let h := partA ++ utf8 (padRight 16 name) ++ partB tp l b last
  h ++ partC order threads h.length

/-- `write` without the `ct0` setting, `TbfWriter.py` 13-122. A pattern without stitches has infinite bounds, which
`%5d` refuses (`OverflowError`). -/
def write (name tp : Str) (threads : List Thread) (l : List Stitch) : Except PyErr Bytes :=
  match bounds l, l.getLast? with
  | some b, some last =>
    orderBytes l >>= fun order => .ok (header name tp threads l b last order ++ writeRecs (wdeltas 0 0 l))
  | _, _ => .error .overflowError

/-- The loop reading the thread list, `TbfReader.py` 12-19: the colours. The two reads after 0x45 consume 4 bytes. -/
def readThreads : Bytes → List (Option Int)
  | [] => []
  | b :: rest => if b = 0x45 then (readInt24be rest).1 :: readThreads (rest.drop 4) else []
  termination_by s => s.length

/-- The loop over the records, `TbfReader.py` 22-57; `needle` counts the needle changes. -/
def readRecs (order : Bytes) : Nat → Bytes → Except PyErr (List Rec)
  | needle, x :: y :: ctrl :: rest =>
    if ctrl = 0x80 then readRecs order needle rest >>= fun t => .ok (⟨signed8 x, -signed8 y, STITCH⟩ :: t)
    else if ctrl = 0x81 then
      match order[needle]? with
      | none => .error .indexError
      | some v =>
        readRecs order (needle + 1) rest >>= fun t =>
        .ok (⟨0, 0, if v = 0 then STOP else encodeThreadChange NEEDLE_SET none (some v) none⟩ :: t)
    else if ctrl = 0x90 then
      readRecs order needle rest >>= fun t =>
      .ok ((if x = 0 ∧ y = 0 then ⟨0, 0, TRIM⟩ else ⟨signed8 x, -signed8 y, JUMP⟩) :: t)
    else if ctrl = 0x40 then readRecs order needle rest >>= fun t => .ok (⟨0, 0, STOP⟩ :: t)
    else if ctrl = 0x86 then readRecs order needle rest >>= fun t => .ok (⟨0, 0, TRIM⟩ :: t)
    else .ok []
  | _, _ => .ok []

/-- What a TBF file is read as. -/
structure Loaded where
  name : Str
  threads : List (Option Int)
  stitches : List Stitch
deriving DecidableEq

/-- `read` into an empty pattern, `TbfReader.py` 5-58. A name that is not UTF-8 is `None`, which has no `strip`. -/
def read (f : Bytes) : Except PyErr Loaded :=
  match decodeUtf8 ((f.drop 0x83).take 0x10) with
  | none => .error .attributeError
  | some name =>
    readRecs ((f.drop 0x10A).take 0x100) 0 (f.drop 0x600) >>= fun recs =>
    .ok { name := strip name, threads := readThreads (f.drop 0x20E), stitches := place 0 0 (recs ++ [⟨0, 0, END⟩]) }

end Tbf
end Emb
