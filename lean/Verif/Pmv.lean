import Verif.Readers
import Verif.Text

/-!
# PMV files

Sewing-machine stitches, not embroidery: a list of at most 100 points. Floats are exact rationals.
-/

namespace Emb
namespace Pmv
open Readers

/-! ## Writing -/

/-- The first loop of `write`, `PmvWriter.py` 13-29: number of points, least and greatest `y` (the `x` bounds are not used). The
command is compared without the mask. -/
def scan : Nat → ℚ → ℚ → List Stitch → Nat × ℚ × ℚ
  | n, lo, hi, [] => (n, lo, hi)
  | n, lo, hi, st :: rest =>
    let y := -st.y
    let r : Nat × ℚ × ℚ :=
      if st.cmd = STITCH ∨ st.cmd = JUMP then (n + 1, if y < lo then y else lo, if y > hi then y else hi) else (n, lo, hi)
    if r.1 ≥ 100 then r else scan r.1 r.2.1 r.2.2 rest

/-- `scale_y`, `PmvWriter.py` 30-35. -/
def scaleY (normalMax : ℚ) : ℚ := if normalMax > 35 then 14 / normalMax else 2 / 5

/-- The second loop of `write`, `PmvWriter.py` 56-85, over the first `point_count` commands: the bytes, and least and greatest `y`
written. -/
def points (center scale : ℚ) : Int → Int → Int → List Stitch → Bytes × Int × Int
  | _, lo, hi, [] => ([], lo, hi)
  | xx, lo, hi, st :: rest =>
    let y := pyRound ((-st.y - center) * scale)
    let x := pyRound (st.x * (2 / 5) - xx)
    if cmdOf st.cmd = STITCH ∨ cmdOf st.cmd = JUMP then
      let r := points center scale (xx + x) (if y < lo then y else lo) (if y > hi then y else hi) rest
      (writeInt8 (if x < 0 then x + 64 else x) ++ writeInt8 (if y < 0 then y + 32 else y) ++ r.1, r.2)
    else points center scale (xx + x) lo hi rest

/-- `write_length_lookup_table`, `PmvWriter.py` 100-130. -/
def lengthTable : Bytes :=
  let values : List (Int × Int) := [(0, 0), (10, 71), (20, 143), (40, 214), (60, 286), (80, 357), (100, 429), (120, 500), (140, 571),
    (160, 714), (180, 786), (200, 857), (250, 1000), (300, 1286), (350, 1429), (400, 1571), (450, 1786), (500, 2000)]
  writeInt8 17 ++ writeInt8 18 ++ values.flatMap (fun v => writeInt16le v.1 ++ writeInt16le v.2)

/-- `write_width_lookup_table`, `PmvWriter.py` 133-150. -/
def widthTable (range : Int) : Bytes :=
  if range = 0 then writeInt8 0 ++ writeInt8 1 ++ writeInt16le 8192 ++ writeInt16le 1000
  else writeInt8 14 ++ writeInt8 15 ++ (List.range 15).flatMap (fun i : Nat =>
    writeInt16le (50 * i) ++ writeInt16le (pyRound (28000 / (range : ℚ) / 14 * i)))

/-- The first 100 bytes, `PmvWriter.py` 38-46. -/
def header : Bytes :=
  utf8 "#PMV0001....................................".toList ++
  [1, 0, 0, 0, 0, 0, 0, 0, 0, 0, 0, 0, 0, 1, 0, 0, 0, 0, 0, 0, 0, 0, 0, 0, 0, 0, 0, 0,
   0, 0, 0, 0, 0, 0, 0, 1, 0, 0, 0, 0, 0, 0, 0, 0, 0, 0, 0, 0, 0, 0, 0, 0, 0, 1, 0, 0]

/-- `write`, `PmvWriter.py` 8-97. -/
def write (l : List Stitch) : Bytes :=
  let s := scan 0 200000000 (-200000000) l
  let center := (s.2.1 + s.2.2) / 2
  let p := points center (scaleY (s.2.2 - center)) 0 200000000 (-200000000) (l.take s.1)
  header ++ writeInt16le s.1 ++ writeInt16le (s.1 * 2) ++ p.1 ++ writeInt16le 0 ++ writeInt16le 256 ++
    [0, 0, 0, 0, 5, 0, 0, 0, 0, 0, 0, 0, 0, 0, 2, 0] ++ writeInt16le 256 ++ writeInt8 0 ++ writeInt8 0 ++
    lengthTable ++ widthTable (p.2.2 - p.2.1) ++ writeInt16le 0x12 ++ List.replicate 16 0

/-! ## Reading -/

/-- The inner loop of `read_pmv_stitches`, `PmvReader.py` 35-46; `px`, `py` is the last position. -/
def block : Nat → ℚ → ℚ → Bytes → Except PyErr (List Stitch × ℚ × ℚ × Bytes)
  | 0, px, py, b => .ok ([], px, py, b)
  | n + 1, px, _, b =>
    match b with
    | x :: y :: rest =>
      let y : Int := if y > 16 then -(32 - y) else y
      let x : Int := if x > 32 then -(64 - x) else x
      let qx : ℚ := px + x * (5 / 2)
      let qy : ℚ := y * (-5 / 2)
      (block n qx qy rest).map (fun r => (⟨qx, qy, STITCH⟩ :: r.1, r.2))
    | _ => .error .typeError

/-- One round of `read_pmv_stitches`, `PmvReader.py` 26-46, 66. When the stream ends the loop is left without END. -/
def pmvStep (s : ℚ × ℚ) (b : Bytes) : Next (ℚ × ℚ) Stitch :=
  match (readInt16le b).1, (readInt16le (readInt16le b).2).1 with
  | some count, some length =>
    let rest := (readInt16le (readInt16le b).2).2
    if length ≥ 256 then .done [⟨s.1, s.2, END⟩]
    else match block count.toNat s.1 s.2 rest with
      | .ok (out, px, py, rest) => .again out (px, py) rest
      | .error e => .raise e
  | _, _ => .done []

/-- `read`, `PmvReader.py` 69-71. -/
def read (fuel : Nat) (f : Bytes) : Option (Except PyErr (List Stitch)) := loop pmvStep fuel (0, 0) (f.drop 0x64)

end Pmv
end Emb
