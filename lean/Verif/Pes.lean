import Verif.PecFile

/-!
# PES files

`PesWriter.py` and `PesReader.py`. A PES file is a header with texts and threads (from version 4 on), a description of the design
as segments, and a PEC part as in a PEC file. Packing of a 32-bit float is the parameter `f32`, which gives four bytes; numbers too
big for it are not considered.
-/

namespace Emb
namespace Pes

open Emb.Blocks Emb.Pec

/-! ## Writing -/

/-- The metadata `write_pes_header_v6` looks at. -/
structure Texts where
  name : Option Str := none
  category : Option Str := none
  author : Option Str := none
  keywords : Option Str := none
  comments : Option Str := none
deriving DecidableEq

/-- `write_pes_string_8`, `PesWriter.py` 218-225. -/
def string8 : Option Str → Bytes
  | none => writeInt8 0
  | some s => writeInt8 (s.take 255).length ++ utf8 (s.take 255)

/-- `write_pes_string_16`, `PesWriter.py` 228-234. -/
def string16 (s : Str) : Bytes := writeInt16le s.length ++ utf8 s

/-- `write_pes_thread`, `PesWriter.py` 237-246. -/
def thread (t : Thread) : Bytes :=
  string8 (t.catalog.map String.toList) ++ (writeInt8 t.red ++ writeInt8 t.green ++ writeInt8 t.blue) ++
    (writeInt8 0 ++ writeInt32le 0xA) ++ string8 (t.description.map String.toList) ++ string8 (t.brand.map String.toList) ++
    string8 (t.chart.map String.toList)

/-- `write_pes_header_v1`, `PesWriter.py` 155-158. -/
def headerV1 (objects : Int) : Bytes := writeInt16le 1 ++ writeInt16le 1 ++ writeInt16le objects

/-- The unit matrix without offset, as written in lines 189-194 of `PesWriter.py`. -/
def unit (f32 : ℚ → Bytes) : Bytes := f32 1 ++ f32 0 ++ f32 0 ++ f32 1 ++ f32 0 ++ f32 0

/-- The eighteen numbers of lines 169-186 of `PesWriter.py`. -/
def pageNumbers : List Int := [0, 0, 0x64, 0x64, 0, 0xC8, 0xC8, 0x64, 0x64, 0x64, 0x07, 0x13, 1, 1, 0, 100, 1, 0]

/-- `write_pes_header_v6`, `PesWriter.py` 161-202. -/
def headerV6 (f32 : ℚ → Bytes) (texts : Texts) (chart : List Thread) (objects : Int) : Bytes :=
  writeInt16le 1 ++ [0x30, 0x32] ++
    (string8 texts.name ++ string8 texts.category ++ string8 texts.author ++ string8 texts.keywords ++ string8 texts.comments) ++
    pageNumbers.flatMap writeInt16le ++ writeInt8 0 ++ unit f32 ++ (writeInt16le 0 ++ writeInt16le 0 ++ writeInt16le 0) ++
    writeInt16le chart.length ++ chart.flatMap thread ++ writeInt16le objects

/-- `write_pes_addendum`, `PesWriter.py` 205-215. -/
def addendum (indices : List Int) (rgb : List Int) : Bytes :=
  indices ++ List.replicate (128 - indices.length) 0x20 ++ List.replicate (rgb.length * 0x90) 0 ++ rgb.flatMap writeInt24le

/-- What `get_as_segments_blocks` yields: points, colour code (`none` for `None`) and flag (1 for jumps). -/
structure Seg where
  points : List (ℚ × ℚ)
  color : Option Nat
  flag : Int
deriving DecidableEq

/-- The loop of `get_as_segments_blocks`, `PesWriter.py` 325-347; `k` is `color_index`, `code` is `color_code`, `sx`, `sy` the last
position sewn. Blocks are never empty for a pattern that is not. -/
def segLoop (threads : List Thread) (filler : Nat → Thread) (chart : List (Option Thread)) (ax ay : ℚ) :
    Nat → Option Nat → ℚ → ℚ → List (List Stitch) → List Seg
  | _, _, _, _, [] => []
  | k, code, sx, sy, [] :: rest => segLoop threads filler chart ax ay k code sx sy rest
  | k, code, sx, sy, (st :: blk) :: rest =>
    let last := (st :: blk).getLast (by simp)
    if cmdOf st.cmd = JUMP then
      ⟨[(sx - ax, sy - ay), (last.x - ax, last.y - ay)], code, 1⟩ :: segLoop threads filler chart ax ay k code sx sy rest
    else if cmdOf st.cmd = COLOR_CHANGE then
      segLoop threads filler chart ax ay (k + 1) (findNearest (threadAt threads filler k).color chart) sx sy rest
    else if cmdOf st.cmd = STITCH then
      ⟨(st :: blk).map (fun s => (s.x - ax, s.y - ay)), code, 0⟩ :: segLoop threads filler chart ax ay k code last.x last.y rest
    else segLoop threads filler chart ax ay k code sx sy rest

/-- `get_as_segments_blocks`, `PesWriter.py` 318-347. -/
def segments (threads : List Thread) (filler : Nat → Thread) (chart : List (Option Thread)) (ax ay : ℚ) (l : List Stitch) : List Seg :=
  segLoop threads filler chart ax ay 1 (findNearest (threadAt threads filler 0).color chart) 0 0 (commandBlocks l)

/-- `colorlog` of `write_pes_embsewseg_segments`, `PesWriter.py` 364-366; `section` is `section`, `prev` is `previous_color_code`
(`none` for -1). -/
def logLoop : Nat → Option Nat → List (Nat × Int × List (ℚ × ℚ)) → List (Nat × Nat)
  | _, _, [] => []
  | i, prev, s :: rest =>
    (if prev ≠ some s.1 then [(i, s.1)] else []) ++ logLoop (i + 1) (some s.1) rest

/-- The sections of `write_pes_embsewseg_segments`, `PesWriter.py` 358-374; 0x8003 goes between two sections. -/
def sectionLoop : Bool → List (Nat × Int × List (ℚ × ℚ)) → Bytes
  | _, [] => []
  | first, (code, flag, pts) :: rest =>
    (if first then [] else writeInt16le 0x8003) ++ (writeInt16le flag ++ writeInt16le code ++ writeInt16le pts.length) ++
      pts.flatMap (fun p => writeInt16le (pyInt p.1) ++ writeInt16le (pyInt p.2)) ++ sectionLoop false rest

/-- The segments with their colour codes; writing `None` is a `TypeError`. -/
def coded (segs : List Seg) : Option (List (Nat × Int × List (ℚ × ℚ))) :=
  allSome (segs.map (fun s => s.color.map (fun c => (c, s.flag, s.points))))

/-- `write_pes_embsewseg_segments`, `PesWriter.py` 350-382, after the segments are made. -/
def segmentData (segs : List (Nat × Int × List (ℚ × ℚ))) : Bytes :=
  sectionLoop true segs ++ writeInt16le (logLoop 0 none segs).length ++
    (logLoop 0 none segs).flatMap (fun e => writeInt16le e.1 ++ writeInt16le e.2)

/-- `write_pes_sewsegheader`, `PesWriter.py` 277-315, with the number of sections patched in (line 266). -/
def sewHeader (f32 : ℚ → Bytes) (width height : ℚ) (sections : Int) : Bytes :=
  List.replicate 16 0 ++ (f32 1 ++ f32 0 ++ f32 0 ++ f32 1 ++ f32 (350 + 1300 / 2 + -width / 2) ++
    f32 (100 + height + 1800 / 2 + -height / 2)) ++ (writeInt16le 1 ++ writeInt16le 0 ++ writeInt16le 0) ++
    writeInt16le (pyInt width) ++ writeInt16le (pyInt height) ++ List.replicate 8 0 ++ writeInt16le sections

/-- `write_pes_blocks`, `PesWriter.py` 249-274, for a pattern with stitches: the bytes and the length of the colour log. `left` to
`bottom`, `cx` and `cy` are computed by the callers from the bounds `b` (83-90, 117-125). -/
def blocks (f32 : ℚ → Bytes) (threads : List Thread) (filler : Nat → Thread) (chart : List (Option Thread)) (b : Box)
    (l : List Stitch) : Except PyErr (Bytes × Nat) :=
  let cx := (b.maxX + b.minX) / 2
  let cy := (b.maxY + b.minY) / 2
  let left := b.minX - cx
  let top := b.minY - cy
  let right := b.maxX - cx
  let bottom := b.maxY - cy
  match coded (segments threads filler chart (left + cx) (bottom + cy) l) with
  | none => .error .typeError
  | some segs =>
    .ok (string16 "CEmbOne".toList ++ sewHeader f32 (right - left) (bottom - top) segs.length ++ [0xFF, 0xFF, 0, 0] ++
      string16 "CSewSeg".toList ++ segmentData segs ++ [0, 0, 0, 0], (logLoop 0 none segs).length)

/-- The parts of a file: the position of the PEC part is written after the signature. -/
def assemble (signature : String) (before pec after : Bytes) : Bytes :=
  utf8 signature.toList ++ writeInt32le ((utf8 signature.toList).length + 4 + before.length : Nat) ++ before ++ pec ++ after

/-- `write_truncated_version_1`, `PesWriter.py` 55-58. -/
def writeTruncatedV1 (order : List Thread → List Thread) (filler : Nat → Thread) (texts : Texts) (threads : List Thread)
    (l : List Stitch) : Except PyErr Bytes :=
  (writePattern order texts.name (fixColorCount threads filler l) l).map (fun pec =>
    utf8 "#PES0001".toList ++ [0x16, 0, 0, 0, 0, 0, 0, 0, 0, 0, 0, 0, 0, 0] ++ pec)

/-- `write_version_1`, `PesWriter.py` 79-110. -/
def writeV1 (f32 : ℚ → Bytes) (order : List Thread → List Thread) (filler fillerSeg : Nat → Thread) (texts : Texts)
    (threads : List Thread) (l : List Stitch) : Except PyErr Bytes :=
  match bounds l with
  | none => (writePattern order texts.name (fixColorCount threads filler l) l).map (fun pec =>
      assemble "#PES0001" (headerV1 0 ++ [0, 0, 0, 0]) pec [])
  | some b =>
    blocks f32 threads fillerSeg palette b l >>= fun r =>
      (writePattern order texts.name (fixColorCount threads filler l) l).map (fun pec =>
        assemble "#PES0001" (headerV1 1 ++ [0xFF, 0xFF, 0, 0] ++ r.1) pec [])

/-- The colour indices `write_pec_header` returns: the count is the first of them, if there are any; `PecWriter.py` 57-66, 76. -/
def colorIndices (order : List Thread → List Thread) (threads : List Thread) : List Int :=
  let ix := (buildUnique palette (order threads) threads).map (fun i => ((i.getD 0 : Nat) : Int))
  if ix = [] then [] else ((ix.length : Int) - 1) :: ix

/-- `write_truncated_version_6`, `PesWriter.py` 61-76. The threads of the header are taken before `write_pec` adds any. -/
def writeTruncatedV6 (f32 : ℚ → Bytes) (order : List Thread → List Thread) (filler : Nat → Thread) (texts : Texts)
    (threads : List Thread) (l : List Stitch) : Except PyErr Bytes :=
  (writePattern order texts.name (fixColorCount threads filler l) l).map (fun pec =>
    assemble "#PES0060" (headerV6 f32 texts threads 0 ++ [0, 0, 0, 0, 0] ++ [0, 0, 0, 0]) pec
      (addendum [0xFF] [] ++ writeInt16le 0))

/-- `write_version_6`, `PesWriter.py` 113-152. -/
def writeV6 (f32 : ℚ → Bytes) (order : List Thread → List Thread) (filler fillerSeg : Nat → Thread) (texts : Texts)
    (threads : List Thread) (l : List Stitch) : Except PyErr Bytes :=
  let T := fixColorCount threads filler l
  let finish (before pec : Bytes) : Bytes :=
    assemble "#PES0060" before pec (addendum (colorIndices order T) (T.map (·.color)) ++ writeInt16le 0)
  match bounds l with
  | none => (writePattern order texts.name T l).map (fun pec => finish (headerV6 f32 texts T 0 ++ [0, 0, 0, 0]) pec)
  | some b =>
    blocks f32 T fillerSeg (T.map some) b l >>= fun r =>
      (writePattern order texts.name T l).map (fun pec =>
        finish (headerV6 f32 texts T 1 ++ [0xFF, 0xFF, 0, 0] ++ r.1 ++ (writeInt32le 0 ++ writeInt32le 0) ++
          (List.range r.2).flatMap (fun i : Nat => writeInt32le i ++ writeInt32le 0)) pec)

/-- `write`, `PesWriter.py` 29-52; `version` and `truncated` are found in the settings. For another version nothing is written. -/
def writeFile (f32 : ℚ → Bytes) (order : List Thread → List Thread) (filler filler' fillerSeg : Nat → Thread) (texts : Texts)
    (version : ℚ) (truncated : Bool) (threads : List Thread) (l : List Stitch) : Except PyErr Bytes :=
  let p := prepare filler threads l
  if truncated then
    if version = 1 then writeTruncatedV1 order filler' texts p.2 p.1
    else if version = 6 then writeTruncatedV6 f32 order filler' texts p.2 p.1
    else .ok []
  else
    if version = 1 then writeV1 f32 order filler' fillerSeg texts p.2 p.1
    else if version = 6 then writeV6 f32 order filler' fillerSeg texts p.2 p.1
    else .ok []

/-! ## Reading -/

/-- `read_pes_string`, `PesReader.py` 71-75. At the end of the file the length is `None`, and `read(None)` reads all there is,
which is nothing. -/
def readString (s : Bytes) : Option Str × Bytes :=
  match readInt8 s with
  | (none, r) => (some [], r)
  | (some n, r) => if n = 0 then (none, r) else (decodeUtf8 (r.take n.toNat), r.drop n.toNat)

/-- `out.metadata(key, v)` if `v` is a text that is not empty. -/
def entry (key : String) : Option Str → List (String × Str)
  | some (c :: s) => [(key, c :: s)]
  | _ => []

/-- `read_pes_metadata`, `PesReader.py` 78-93. -/
def readMeta (s : Bytes) : List (String × Str) × Bytes :=
  let a := readString s
  let b := readString a.2
  let c := readString b.2
  let d := readString c.2
  let e := readString d.2
  (entry "name" a.1 ++ entry "category" b.1 ++ entry "author" c.1 ++ entry "keywords" d.1 ++ entry "comments" e.1, e.2)

/-- `read_pes_thread`, `PesReader.py` 96-104. `0xFF000000 | None` is a `TypeError`. -/
def readThread (s : Bytes) : Except PyErr (Thread × Bytes) :=
  let a := readString s
  match readInt24be a.2 with
  | (none, _) => .error .typeError
  | (some v, r) =>
    let b := readString (r.drop 5)
    let c := readString b.2
    let d := readString c.2
    .ok ({ color := 0xFF000000 + v, catalog := a.1.map String.ofList, description := b.1.map String.ofList,
           brand := c.1.map String.ofList, chart := d.1.map String.ofList }, d.2)

/-- The loop `for i in range(0, count_threads)`. -/
def readThreads : Nat → Bytes → Except PyErr (List Thread)
  | 0, _ => .ok []
  | n + 1, s => readThread s >>= fun r => (readThreads n r.2).map (fun ts => r.1 :: ts)

/-- The end of the headers from version 5 on, e.g. `PesReader.py` 126-137. `range(0, None)` is a `TypeError`. -/
def readChart (s : Bytes) : Except PyErr (List Thread) :=
  let a := readInt16le s
  if a.1 ≠ some 0 then .ok [] else
  let b := readInt16le a.2
  if b.1 ≠ some 0 then .ok [] else
  let c := readInt16le b.2
  if c.1 ≠ some 0 then .ok [] else
  match readInt16le c.2 with
  | (none, _) => .error .typeError
  | (some n, r) => readThreads n.toNat r

/-- `read_pes_header_version_5` to `_8`, `PesReader.py` 117-206. -/
def readHeader (key : String) (skip1 skip2 : Nat) (s : Bytes) : Except PyErr (List (String × Str) × List Thread) :=
  let m := readMeta (s.drop 4)
  let v := readString (m.2.drop skip1)
  (readChart (v.2.drop skip2)).map (fun ts => (m.1 ++ entry key v.1, ts))

/-- `read_pes_header_version_9` and `_10`, `PesReader.py` 205-254. -/
def readHoopHeader (skip1 : Nat) (s : Bytes) : Except PyErr (List (String × Str) × List Thread) :=
  let m := readMeta (s.drop 4)
  let h := readString (m.2.drop 14)
  let v := readString (h.2.drop skip1)
  (readChart (v.2.drop 34)).map (fun ts => (m.1 ++ entry "hoop_name" h.1 ++ entry "image_file" v.1, ts))

/-- What is read: the metadata `version`, the metadata of the header, and what the PEC part gives. -/
structure Design where
  version : Option ℚ
  texts : List (String × Str)
  pec : Pec.Design
deriving DecidableEq

/-- The choice by signature, `PesReader.py` 28-66; `s` are the bytes after the position of the PEC part. -/
def readVersion (sig : Option Str) (s : Bytes) : Except PyErr (Option ℚ × List (String × Str) × List Thread) :=
  if sig = some "#PES0100".toList then (readHoopHeader 38 s).map (fun r => (some 10, r))
  else if sig = some "#PES0090".toList then (readHoopHeader 30 s).map (fun r => (some 9, r))
  else if sig = some "#PES0080".toList then (readHeader "image_file" 38 26 s).map (fun r => (some 8, r))
  else if sig = some "#PES0070".toList then (readHeader "image_file" 36 24 s).map (fun r => (some 7, r))
  else if sig = some "#PES0060".toList then (readHeader "image_file" 36 24 s).map (fun r => (some 6, r))
  else if sig = some "#PES0050".toList then (readHeader "image" 24 24 s).map (fun r => (some 5, r))
  else if sig = some "#PES0055".toList then (readHeader "image" 24 24 s).map (fun r => (some (11 / 2), r))
  else if sig = some "#PES0056".toList then (readHeader "image" 24 24 s).map (fun r => (some (28 / 5), r))
  else if sig = some "#PES0040".toList then .ok (some 4, (readMeta (s.drop 4)).1, [])
  else if sig = some "#PES0030".toList then .ok (some 3, [], [])
  else if sig = some "#PES0022".toList then .ok (some (11 / 5), [], [])
  else if sig = some "#PES0020".toList then .ok (some 2, [], [])
  else if sig = some "#PES0001".toList then .ok (some 1, [], [])
  else .ok (none, [], [])

/-- `read`, `PesReader.py` 12-68. `seek(None)` is a `TypeError`. -/
def readFile (f : Bytes) : Except PyErr Design :=
  if decodeUtf8 (f.take 8) = some "#PEC0001".toList then
    (Pec.readPattern [] (f.drop 8)).map (fun d => ⟨none, [], d.stops⟩)
  else
    let p := readInt32le (f.drop 8)
    readVersion (decodeUtf8 (f.take 8)) p.2 >>= fun h =>
      match p.1 with
      | none => .error .typeError
      | some pos => (Pec.readPattern h.2.2 (f.drop pos.toNat)).map (fun d => ⟨h.1, h.2.1, d.stops⟩)

end Pes
end Emb
