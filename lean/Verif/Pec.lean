import Verif.Bytes
import Verif.Quant
import Verif.Text

/-!
# PEC stitch sections: `PecWriter.py` and `PecReader.py`

The stitch section (`pec_encode`, `read_pec_stitches`), the header and the block around it. The colour indices are given
(C40 is about how they are chosen), and so are the thumbnails (C63). Bit operations on disjoint bits are
written with `+`; `value & 0xFFF` is `value % 4096`.
-/

namespace Emb
namespace Pec

/-- `write_value`, `PecWriter.py` 114-124. `flag` is 0, `JUMP_CODE` (0x10) or `TRIM_CODE` (0x20): bits free in the first
byte. -/
def writeValue (value : Int) (long : Bool) (flag : Int) : Bytes :=
  if long = false ∧ -64 < value ∧ value < 63 then [value % 128]
  else [0x80 + flag + value / 256 % 16, value % 256]

/-- `write_trimjump`, `PecWriter.py` 127-129. -/
def writeTrimjump (dx dy : Int) : Bytes := writeValue dx true 0x20 ++ writeValue dy true 0x20

/-- `write_jump`, `PecWriter.py` 132-134. -/
def writeJump (dx dy : Int) : Bytes := writeValue dx true 0x10 ++ writeValue dy true 0x10

/-- `write_stitch`, `PecWriter.py` 137-140; `GROUP_LONG` is `False`. -/
def writeStitch (dx dy : Int) : Bytes := writeValue dx false 0 ++ writeValue dy false 0

/-- The loop of `pec_encode`, `PecWriter.py` 143-187, on displacement records. `two`, `jumping`, `init` are `color_two`,
`jumping`, `init`. -/
def encodeRecs (two jumping init : Bool) : List Rec → Bytes
  | [] => []
  | r :: rs =>
    if r.cmd = STITCH then
      (if jumping = true ∧ r.dx ≠ 0 ∧ r.dy ≠ 0 then writeStitch 0 0 else []) ++ writeStitch r.dx r.dy ++
        encodeRecs two false false rs
    else if r.cmd = JUMP then
      (if init = true then writeJump r.dx r.dy else writeTrimjump r.dx r.dy) ++ encodeRecs two true false rs
    else if r.cmd = COLOR_CHANGE then
      (if jumping = true then writeStitch 0 0 else []) ++ [0xFE, 0xB0] ++ (if two = true then [0x02] else [0x01]) ++
        encodeRecs (!two) false false rs
    else if r.cmd = END then [0xFF]
    else encodeRecs two jumping false rs

/-- `pec_encode`, `PecWriter.py` 143-187. -/
def encodeSection (l : List Stitch) : Bytes := encodeRecs true true true (deltas 0 0 l)

/-- `signed12`, `PecReader.py` 98-103. -/
def signed12 (b : Int) : Int := if b % 4096 > 0x7FF then -0x1000 + b % 4096 else b % 4096

/-- `signed7`, `PecReader.py` 106-110. -/
def signed7 (b : Int) : Int := if b > 63 then -128 + b else b

/-- `val & FLAG_LONG != 0` -/
def isLong (v : Int) : Bool := v / 128 % 2 == 1
/-- `val & TRIM_CODE != 0` -/
def hasTrim (v : Int) : Bool := v / 32 % 2 == 1
/-- `val & JUMP_CODE != 0` -/
def hasJump (v : Int) : Bool := v / 16 % 2 == 1

/-- `PecReader.py` 149-156. -/
def emit (jump trim : Bool) (x y : Int) : List Rec :=
  if jump then [⟨x, y, JUMP⟩] else if trim then [⟨0, 0, TRIM⟩, ⟨x, y, JUMP⟩] else [⟨x, y, STITCH⟩]

/-- `read_pec_stitches`, `PecReader.py` 113-157, without the final `out.end()`. -/
def readRecs : Bytes → List Rec
  | v1 :: v2 :: rest =>
    if v1 = 0xFF ∧ v2 = 0x00 then []
    else if v1 = 0xFE ∧ v2 = 0xB0 then
      match rest with
      | _ :: rest => ⟨0, 0, COLOR_CHANGE⟩ :: readRecs rest
      | [] => [⟨0, 0, COLOR_CHANGE⟩]
    else if isLong v1 = true then
      match rest with
      | w :: rest =>
        if isLong w = true then
          match rest with
          | w2 :: rest => emit (hasJump v1 || hasJump w) (hasTrim v1 || hasTrim w) (signed12 (v1 * 256 + v2))
              (signed12 (w * 256 + w2)) ++ readRecs rest
          | [] => []
        else emit (hasJump v1) (hasTrim v1) (signed12 (v1 * 256 + v2)) (signed7 w) ++ readRecs rest
      | [] => []
    else if isLong v2 = true then
      match rest with
      | v3 :: rest => emit (hasJump v2) (hasTrim v2) (signed7 v1) (signed12 (v2 * 256 + v3)) ++ readRecs rest
      | [] => []
    else emit false false (signed7 v1) (signed7 v2) ++ readRecs rest
  | _ => []

/-- `read_pec_stitches`, `PecReader.py` 113-157. -/
def readSection (f : Bytes) : List Stitch := place 0 0 (readRecs f ++ [⟨0, 0, END⟩])

/-- `write_pec_header`, `PecWriter.py` 46-75. `name` is the name in the metadata, `colors` the list of colour indices; a
list of more than 255 is refused. -/
def header (name : Str) (colors : List Nat) : Except PyErr Bytes :=
  if colors.length ≠ 0 ∧ ¬ (colors.length - 1 < 255) then .error .assertionError
  else .ok (utf8 ("LA:".toList ++ padRight 16 (name.take 8) ++ ['\r']) ++
    (List.replicate 12 0x20 ++ [0xFF, 0x00]) ++ writeInt8 6 ++ writeInt8 38 ++
    (if colors.length ≠ 0 then
      List.replicate 12 0x20 ++ ((colors.length : Int) - 1) :: colors.map (fun c : Nat => (c : Int))
     else [0x20, 0x20, 0x20, 0x20, 0x64, 0x20, 0x00, 0x20, 0x00, 0x20, 0x20, 0x20, 0xFF]) ++
    List.replicate (463 - colors.length) 0x20)

/-- `write_pec_block`, `PecWriter.py` 80-96; `w` and `h` are the rounded extents. -/
def block (w h : Int) (l : List Stitch) : Bytes :=
  [0x00, 0x00] ++ writeInt24le (16 + (encodeSection l).length : Nat) ++ [0x31, 0xFF, 0xF0] ++ writeInt16le w ++
    writeInt16le h ++ writeInt16le 0x1E0 ++ writeInt16le 0x1B0 ++ encodeSection l

/-- `write_pec`, `PecWriter.py` 35-43: what follows the first eight bytes of a PEC file. `graphics` are the thumbnails. -/
def write (name : Str) (colors : List Nat) (w h : Int) (graphics : List Bytes) (l : List Stitch) : Except PyErr Bytes :=
  header name colors >>= fun hd => .ok (hd ++ block w h l ++ graphics.flatten)

/-- What `read_pec` finds: the label (stripped; `none` if it is not UTF-8), colour bytes, stitches, thumbnails and their stride. -/
structure Found where
  label : Option Str
  colors : Bytes
  stitches : List Stitch
  graphics : List Bytes
  stride : Int
deriving DecidableEq

/-- `read_pec`, `PecReader.py` 16-43, without the choice of threads. Positions are counted from the start of the
PEC part. Arithmetic with the `None` read at the end of a file is a `TypeError`. -/
def read (f : Bytes) : Except PyErr Found :=
  match (readInt8 (f.drop 34)).1, (readInt8 (f.drop 35)).1, (readInt8 (f.drop 48)).1 with
  | some stride, some height, some changes =>
    let colors := (f.drop 49).take (changes + 1).toNat
    let pos := 49 + colors.length + 0x1D0 - changes.toNat
    match (readInt24le (f.drop pos)).1 with
    | none => .error .typeError
    | some n =>
      let stop := (n - 5 + (pos + 3 : Nat)).toNat
      let size := (stride * height).toNat
      .ok {
        label := (decodeUtf8 ((f.drop 3).take 16)).map strip
        colors := colors
        stitches := readSection (f.drop (pos + 3 + 0x0B))
        graphics := (List.range (changes + 2).toNat).map (fun i => (f.drop (stop + i * size)).take size)
        stride := stride }
  | _, _, _ => .error .typeError

end Pec
end Emb
