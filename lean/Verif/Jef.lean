import Verif.Bytes
import Verif.Quant
import Verif.Trims
import Verif.Thread

/-!
# Janome JEF
-/

namespace Emb
namespace Jef

/-- The colours of `EmbThreadJef.get_thread_set()` after the `None` at index 0, `EmbThreadJef.py` 7-84. -/
def colors : List Int :=
  [0x000000, 0xFFFFFF, 0xFFFF17, 0xFF6600, 0x2F5933, 0x237336, 0x65C2C8, 0xAB5A96, 0xF669A0, 0xFF0000, 0xB1704E,
   0x0B2F84, 0xE4C35D, 0x481A05, 0xAC9CC7, 0xFCF294, 0xF999B7, 0xFAB381, 0xC9A480, 0x970533, 0xA0B8CC, 0x7FC21C,
   0xE5E5E5, 0x889B9B, 0x98D6BD, 0xB2E1E3, 0x368BA0, 0x4F83AB, 0x386A91, 0x071650, 0xF999A2, 0xF9676B, 0xE3311F,
   0xE2A188, 0xB59474, 0xE4CF99, 0xFFCB00, 0xE1ADD4, 0xC3007E, 0x80004B, 0x540571, 0xB10525, 0xCAE0C0, 0x899856,
   0x5C941A, 0x003114, 0x5DAE94, 0x4CBF8F, 0x007772, 0x595B61, 0xFFFFF2, 0xB15818, 0xCB8A07, 0x986C80, 0x98692D,
   0x4D3419, 0x4C330B, 0x33200A, 0x523A97, 0x0D217E, 0x1E77AC, 0xB2DD53, 0xF33689, 0xDE649E, 0x984161, 0x4C5612,
   0x4C881F, 0xE4DE79, 0xCB8A1A, 0xCBA21C, 0xFF9805, 0xFCB257, 0xFFE505, 0xF0331F, 0x1A842D, 0x386CAE, 0xE3C4B4,
   0xE3AC81]

/-- `EmbThreadJef.get_thread_set()`, `EmbThreadJef.py` 4-85, colours only. -/
def table : List (Option Thread) := none :: colors.map (fun c => some { color := c })

/-- Local variables of the palette loop, `JefWriter.py` 36-41. -/
structure PalState where
  idx : Nat := 0
  lastIndex : Option Nat := none
  lastThread : Option Thread := none
  toggled : Bool := false

/-- Choice of a colour index, `JefWriter.py` 50-58. `jef_threads[None]` is a `TypeError`, and so is writing `None`
(raised here at once; neither can happen with the actual table). -/
def choose (table : List (Option Thread)) (lastIndex : Option Nat) (lastThread : Option Thread) (t : Thread) :
    Except PyErr Nat :=
  match findNearest t.color table with
  | none => .error .typeError
  | some i =>
    if lastIndex = some i ∧ differs lastThread t = true then
      match findNearest t.color (table.set i none) with
      | none => .error .typeError
      | some j => .ok j
    else .ok i

/-- First half of an iteration of the palette loop, `JefWriter.py` 45-62. -/
def palColor (table : List (Option Thread)) (threads : List Thread) (s : PalState) (c : Int) :
    Except PyErr (List Nat × PalState) :=
  if c = COLOR_CHANGE ∨ s.idx = 0 then
    match threads[s.idx]? with
    | none => .error .indexError
    | some t => choose table s.lastIndex s.lastThread t >>= fun i => .ok ([i], ⟨s.idx + 1, some i, some t, false⟩)
  else .ok ([], s)

/-- Second half, `JefWriter.py` 63-69. `last_index` is set by then. -/
def palStop (s : PalState) (c : Int) : List Nat × PalState :=
  if c = STOP then
    let s := { s with toggled := !s.toggled }
    ([if s.toggled then 0 else s.lastIndex.getD 0], s)
  else ([], s)

/-- The palette loop, `JefWriter.py` 42-69, over the command bytes. `color_count` is the length of the result. -/
def palette (table : List (Option Thread)) (threads : List Thread) (s : PalState) : List Int → Except PyErr (List Nat)
  | [] => .ok []
  | c :: cs =>
    palColor table threads s c >>= fun p =>
    palette table threads (palStop p.2 c).2 cs >>= fun r => .ok (p.1 ++ (palStop p.2 c).1 ++ r)

/-- `write_hoop_edge_distance`, `JefWriter.py` 184-194. -/
def hoopEdge (x y : Int) : Bytes :=
  if 0 ≤ min x y then writeInt32le x ++ writeInt32le y ++ writeInt32le x ++ writeInt32le y
  else writeInt32le (-1) ++ writeInt32le (-1) ++ writeInt32le (-1) ++ writeInt32le (-1)

/-- `get_jef_hoop_size`, `JefWriter.py` 172-181. -/
def hoopSize (w h : Int) : Int :=
  if w < 500 ∧ h < 500 then 1
  else if w < 1260 ∧ h < 1100 then 3
  else if w < 1400 ∧ h < 2000 then 2
  else if w < 2000 ∧ h < 2000 then 4
  else 0

/-- `point_count`, `JefWriter.py` 79-92; `trimAt` is `none` without the `trims` setting. -/
def pointCount (trimAt : Option Nat) : List Int → Int
  | [] => 1
  | c :: cs =>
    if c = STITCH then pointCount trimAt cs + 1
    else if c = JUMP then pointCount trimAt cs + 2
    else if c = TRIM then pointCount trimAt cs + 2 * (trimAt.getD 0 : Nat)
    else if c = COLOR_CHANGE ∨ c = STOP then pointCount trimAt cs + 2
    else if c = END then 1
    else pointCount trimAt cs

/-- The header before the colour table, `JefWriter.py` 72-125. `date` is the UTF-8 form of the date string, `w` and `h` the
rounded extents. -/
def header (date : Bytes) (colorCount points w h : Int) : Bytes :=
  let hw := pyRound ((w : ℚ) / 2)
  let hh := pyRound ((h : ℚ) / 2)
  writeInt32le (0x74 + colorCount * 8) ++ writeInt32le 0x14 ++ date ++ writeInt8 0 ++ writeInt8 0 ++
  writeInt32le colorCount ++ writeInt32le points ++ writeInt32le (hoopSize w h) ++
  (writeInt32le hw ++ writeInt32le hh ++ writeInt32le hw ++ writeInt32le hh) ++
  hoopEdge (550 - hw) (550 - hh) ++ hoopEdge (250 - hw) (250 - hh) ++ hoopEdge (700 - hw) (1000 - hh) ++
  hoopEdge (700 - hw) (1000 - hh)

/-- The colour tables, `JefWriter.py` 133-137. -/
def colorTable (p : List Nat) : Bytes :=
  p.flatMap (fun t : Nat => writeInt32le (t : Int)) ++ p.flatMap (fun _ => writeInt32le 0x0D)

/-- One iteration of the stitch loop, `JefWriter.py` 149-168. -/
def writeRec (trimAt : Option Nat) (r : Rec) : Bytes :=
  if r.cmd = STITCH then writeInt8 r.dx ++ writeInt8 (-r.dy)
  else if r.cmd = COLOR_CHANGE ∨ r.cmd = STOP then [0x80, 0x01] ++ writeInt8 r.dx ++ writeInt8 (-r.dy)
  else if r.cmd = TRIM then (List.replicate (trimAt.getD 0) [0x80, 0x02, 0x00, 0x00]).flatten
  else if r.cmd = JUMP then [0x80, 0x02] ++ writeInt8 r.dx ++ writeInt8 (-r.dy)
  else []

/-- The stitch loop with its `break` at END and the closing bytes, `JefWriter.py` 139-169. -/
def writeBody (trimAt : Option Nat) : List Rec → Bytes
  | [] => [0x80, 0x10]
  | r :: rs => if r.cmd = END then [0x80, 0x10] else writeRec trimAt r ++ writeBody trimAt rs

/-- `write`, `JefWriter.py` 21-169, for an already encoded pattern with a thread for every colour. -/
def write (trimAt : Option Nat) (date : Bytes) (w h : Int) (threads : List Thread) (l : List Stitch) :
    Except PyErr Bytes :=
  let cmds := l.map (fun a => cmdOf a.cmd)
  palette table threads {} cmds >>= fun p =>
  .ok (header date p.length (pointCount trimAt cmds) w h ++ colorTable p ++ writeBody trimAt (deltas 0 0 l))

/-- The loop of `read_jef_stitches`, `JefReader.py` 5-36. `T` is the thread list, whose `None`s stand for stops; `k` is
`color_index`. Result: the records and the thread list afterwards. -/
def readRecs (T : List (Option Nat)) (k : Nat) : Bytes → Except PyErr (List Rec × List (Option Nat))
  | b0 :: b1 :: rest =>
    if b0 ≠ 0x80 then
      readRecs T k rest >>= fun q => .ok (⟨signed8 b0, -signed8 b1, STITCH⟩ :: q.1, q.2)
    else match rest with
      | c0 :: c1 :: rest =>
        if b1 = 0x02 then
          readRecs T k rest >>= fun q => .ok (⟨signed8 c0, -signed8 c1, JUMP⟩ :: q.1, q.2)
        else if b1 = 0x01 then
          match T[k]? with
          | none => .error .indexError
          | some none => readRecs (T.eraseIdx k) k rest >>= fun q => .ok (⟨0, 0, STOP⟩ :: q.1, q.2)
          | some (some _) => readRecs T (k + 1) rest >>= fun q => .ok (⟨0, 0, COLOR_CHANGE⟩ :: q.1, q.2)
        else .ok ([], T)
      | _ => .ok ([], T)
  | _ => .ok ([], T)

/-- The colour table of a file, `JefReader.py` 62-68; `abs(None)` at the end of a file is a `TypeError`. -/
def readColors : Nat → Bytes → Except PyErr (List (Option Nat))
  | 0, _ => .ok []
  | n + 1, f =>
    match readInt32le f with
    | (none, _) => .error .typeError
    | (some v, rest) =>
      readColors n rest >>= fun T => .ok ((if v = 0 then none else some (v.toNat % table.length)) :: T)

/-- `read`, `JefReader.py` 55-71, up to the inference of trims: stitches and thread list. `range(0, None)` and
`f.seek(None)` are `TypeError`s. -/
def readPlain (f : Bytes) : Except PyErr (List Stitch × List (Option Nat)) :=
  match (readInt32le (f.drop 24)).1, (readInt32le f).1 with
  | some n, some offset =>
    readColors n.toNat (f.drop 116) >>= fun T =>
    readRecs T 1 (f.drop offset.toNat) >>= fun q => .ok (place 0 0 (q.1 ++ [⟨0, 0, END⟩]), q.2)
  | _, _ => .error .typeError

/-- `read`, `JefReader.py` 55-71. `trimAt` and `dist` (in mm) are the values after lines 39-49. -/
def read (trimAt : Option Int) (dist : Option ℚ) (clipping : Bool) (f : Bytes) :
    Except PyErr (List Stitch × List (Option Nat)) :=
  readPlain f >>= fun q => .ok (interpolateTrims trimAt (dist.map (· * 10)) clipping q.1, q.2)

end Jef
end Emb
