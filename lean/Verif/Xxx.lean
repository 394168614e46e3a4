import Verif.Format
import Verif.Pattern
import Verif.Thread

/-!
# Singer XXX
-/

namespace Emb
namespace Xxx

/-- `write_xxx_header_b`, `XxxWriter.py` 10-38, for a pattern with stitches; `colors` is the number of threads. -/
def header (colors : Nat) (l : List Stitch) (b : Box) (last : Stitch) : Bytes :=
  List.replicate 0x17 0 ++ writeInt32le ((l.length : Int) - 1) ++ List.replicate 0x0C 0 ++ writeInt32le colors ++
  writeInt16le 0 ++ writeInt16le (pyInt (b.maxX - b.minX)) ++ writeInt16le (pyInt (b.maxY - b.minY)) ++
  writeInt16le (pyInt last.x) ++ writeInt16le (pyInt (-last.y)) ++ writeInt16le (pyInt (-b.minX)) ++
  writeInt16le (pyInt b.maxY) ++ List.replicate 0x42 0 ++ writeInt16le 0 ++ writeInt16le 0 ++ List.replicate 0x73 0 ++
  writeInt16le 0x20 ++ List.replicate 0x08 0

/-- `write_xxx_stitches`, `XxxWriter.py` 64-105, on the records of `wdeltas`. -/
def writeRecs : List Rec → Bytes
  | [] => []
  | r :: rest =>
    let c := cmdOf r.cmd
    if c = COLOR_CHANGE ∨ c = STOP then [0x7F, 0x08, lo8 r.dx, lo8 (-r.dy)] ++ writeRecs rest
    else if c = END then []
    else if c = STITCH then
      (if (-124 < r.dx ∧ r.dx < 124) ∧ (-124 < r.dy ∧ r.dy < 124) then [lo8 r.dx, lo8 (-r.dy)]
       else 0x7D :: (writeInt16le r.dx ++ writeInt16le (-r.dy))) ++ writeRecs rest
    else if c = TRIM then [0x7F, 0x03, lo8 r.dx, lo8 (-r.dy)] ++ writeRecs rest
    else if c = JUMP then [0x7F, 0x01, lo8 r.dx, lo8 (-r.dy)] ++ writeRecs rest
    else writeRecs rest

/-- One thread, `XxxWriter.py` 114-117. -/
def threadBytes (t : Thread) : Bytes := [0, lo8 t.red, lo8 t.green, lo8 t.blue]

/-- `write_xxx_colors`, `XxxWriter.py` 108-123. -/
def colorBytes (ts : List Thread) : Bytes :=
  [0, 0] ++ ts.flatMap threadBytes ++ (List.replicate (21 - ts.length) (writeInt32le 0)).flatten ++
  writeInt32le 0xFFFFFF00 ++ [0x00, 0x01]

/-- `write`, `XxxWriter.py` 126-139, to a stream that starts at position 0; the end of the stitches is written into the
place holder behind the header. A pattern without stitches has infinite bounds, which `int` refuses (`OverflowError`). -/
def write (ts : List Thread) (l : List Stitch) : Except PyErr Bytes :=
  match bounds l, l.getLast? with
  | some b, some last =>
    let body := writeRecs (wdeltas 0 0 l)
    let h := header ts.length l b last
    .ok (h ++ writeInt32le (h.length + 4 + body.length) ++ body ++ [0x7F, 0x7F, 0x02, 0x14] ++ colorBytes ts)
  | _, _ => .error .overflowError

/-- The loop of `read`, `XxxReader.py` 13-42: the commands and the rest of the stream. At the end of the file `signed8(None)` and the
like are a `TypeError`. Other second bytes after 0x7F are skipped. -/
def readRecs : Bytes → Except PyErr (List Rec × Bytes)
  | [] => .error .typeError
  | b1 :: rest =>
    if b1 = 0x7D ∨ b1 = 0x7E then
      match rest with
      | x0 :: x1 :: y0 :: y1 :: rest =>
        readRecs rest >>= fun t =>
        .ok (⟨signed16 (lo8 x0 + lo8 x1 * 2 ^ 8), -signed16 (lo8 y0 + lo8 y1 * 2 ^ 8), JUMP⟩ :: t.1, t.2)
      | _ => .error .typeError
    else
      match rest with
      | [] => .error .typeError
      | b2 :: rest =>
        if b1 ≠ 0x7F then readRecs rest >>= fun t => .ok (⟨signed8 b1, -signed8 b2, STITCH⟩ :: t.1, t.2)
        else
          match rest with
          | b3 :: b4 :: rest =>
            if b2 = 0x01 then readRecs rest >>= fun t => .ok (⟨signed8 b3, -signed8 b4, JUMP⟩ :: t.1, t.2)
            else if b2 = 0x03 then
              readRecs rest >>= fun t => .ok (⟨0, 0, TRIM⟩ ::
                ((if signed8 b3 ≠ 0 ∨ -signed8 b4 ≠ 0 then [⟨signed8 b3, -signed8 b4, JUMP⟩] else []) ++ t.1), t.2)
            else if b2 = 0x08 ∨ (0x0A ≤ b2 ∧ b2 ≤ 0x17) then
              readRecs rest >>= fun t => .ok (⟨0, 0, COLOR_CHANGE⟩ :: t.1, t.2)
            else if b2 = 0x7F ∨ b2 = 0x18 then .ok ([], rest)
            else readRecs rest
          | _ => if b2 = 0x7F ∨ b2 = 0x18 then .ok ([], []) else .error .typeError

/-- The loop reading the threads, `XxxReader.py` 45-51: the colours; it ends early at the end of the file. -/
def readThreads : Nat → Bytes → List Int
  | 0, _ => []
  | n + 1, s =>
    match readInt32be s with
    | (some v, rest) => v :: readThreads n rest
    | (none, _) => []

/-- `read` into an empty pattern, `XxxReader.py` 9-51: colours and stitches. Without the number of colours `range(0, None)` is a
`TypeError`. -/
def read (f : Bytes) : Except PyErr (List Int × List Stitch) :=
  let colors := (readInt16le (f.drop 0x27)).1
  readRecs (f.drop 0x100) >>= fun t =>
  match colors with
  | none => .error .typeError
  | some n => .ok (readThreads n.toNat (t.2.drop 2), place 0 0 (t.1 ++ [⟨0, 0, END⟩]))

end Xxx
end Emb
