import Verif.Blocks
import Verif.Pattern
import Verif.Bytes

/-!
# The PNG writer

The buffer is a list of pixels: every access of `PngWriter.py` to its `bytearray` is to the four bytes from a multiple of four.
Fractions are exact. The guides (`guides=True`) are in `PngGuides.lean`.
-/

namespace Emb
namespace Png

/-- Red, green, blue and opacity. -/
structure Pixel where
  r : Int
  g : Int
  b : Int
  a : Int
deriving DecidableEq, Repr

/-- The six numbers of `modify_gradient`, `PngWriter.py` 236-257. -/
structure Gradient where
  ends : ℚ := 65 / 100
  edge : ℚ := 11 / 10
  center : ℚ := 155 / 100
  pos1 : ℚ := 40 / 100
  pos2 : ℚ := 50 / 100
  pos3 : ℚ := 70 / 100

/-- `amount * (to_shade - from_shade) + from_shade` with `amount = d * (1 / range)`, then clipped; `PngWriter.py` 279-312. -/
def shade (d range from' to' : ℚ) : Except PyErr ℚ :=
  if range = 0 then .error .zeroDivision
  else .ok (max (min (d * (1 / range) * (to' - from') + from') 1) 0)

/-- `gradient`, `PngWriter.py` 269-312. -/
def gradient (G : Gradient) (p : ℚ) : Except PyErr ℚ :=
  if p ≤ G.pos1 then shade (p - 0) (G.pos1 - 0) G.ends G.edge
  else if p ≤ G.pos2 then shade (p - G.pos1) (G.pos2 - G.pos1) G.edge G.center
  else if p ≤ G.pos3 then shade (p - G.pos2) (G.pos3 - G.pos2) G.center G.edge
  else if p ≤ 1 then shade (p - G.pos3) (1 - G.pos3) G.edge G.ends
  else .error .valueError

/-- The colour, opacity, width and style to draw with. -/
structure Pen where
  red : Int
  green : Int
  blue : Int
  alpha : Int := 255
  width : Int := 3
  fancy : Bool := false
  grad : Gradient := {}

/-- `self._distance_from_black < 15`, `PngWriter.py` 264-267 and 345; the root is compared by its square. -/
def Pen.dark (P : Pen) : Bool :=
  let mean := pyInt ((P.red : ℚ) / 2)
  decide (shr ((512 + mean) * P.red * P.red) 8 + 4 * P.green * P.green + shr ((767 - mean) * P.blue * P.blue) 8 < 225)

/-- `PngWriter.py` 356-367. -/
def clip (q : ℚ) : ℚ :=
  let q := if 0 > q then 0 else q
  if q > 255 then 255 else q

/-- The bytes stored by `plot`, `PngWriter.py` 330-383, over what is there; a value that is no byte is a `ValueError`. -/
def Pen.paint (P : Pen) (v : ℚ) (old : Pixel) : Except PyErr Pixel :=
  let r := clip (if P.dark then 35 * v else P.red * v)
  let g := clip (if P.dark then 35 * v else P.green * v)
  let b := clip (if P.dark then 35 * v else P.blue * v)
  let a : ℚ := P.alpha
  let s := a / 255
  let p : ℚ × ℚ × ℚ × ℚ :=
    if old.a ≠ 0 ∧ P.alpha ≠ 255 then
      (r * s + (1 - s) * old.r, g * s + (1 - s) * old.g, b * s + (1 - s) * old.b, (s + (1 - s) * ((old.a : ℚ) / 255)) * 255)
    else (r, g, b, a)
  let new : Pixel := ⟨pyInt p.1, pyInt p.2.1, pyInt p.2.2.1, pyInt p.2.2.2 - 4⟩
  if (0 ≤ new.r ∧ new.r ≤ 255) ∧ (0 ≤ new.g ∧ new.g ≤ 255) ∧ (0 ≤ new.b ∧ new.b ≤ 255) ∧ (0 ≤ new.a ∧ new.a ≤ 255) then .ok new
  else .error .valueError

/-- `plot`, `PngWriter.py` 321-385, with Python's negative indices; an `IndexError` is ignored. `w` is `self.width`. -/
def plot (P : Pen) (w x y : Int) (v : ℚ) (buf : List Pixel) : Except PyErr (List Pixel) :=
  let pos := w * (y + 1) + (x + 1)
  let j := if pos < 0 then pos + buf.length else pos
  if j < 0 then .ok buf
  else match buf[j.toNat]? with
    | none => .ok buf
    | some old => P.paint v old >>= fun new => .ok (buf.set j.toNat new)

/-- Python `range(a, b)`. -/
def range (a b : Int) : List Int := (List.range (b - a).toNat).map (fun (k : Nat) => a + k)

/-- `line_for_point`, `PngWriter.py` 432-445. -/
def lineForPoint (P : Pen) (w x y : Int) (dy : Bool) (maxPos : Int) (index : Nat) (buf : List Pixel) : Except PyErr (List Pixel) :=
  let left := shr P.width 1
  let right := P.width - left
  (if P.fancy ∧ maxPos > 0 then gradient P.grad ((index : ℚ) / maxPos) else .ok 1) >>= fun v =>
  (range (-left) right).foldlM (fun buf pos => if dy then plot P w (x + pos) y v buf else plot P w x (y + pos) v buf) buf

/-- The loop for flat lines, `PngWriter.py` 411-418: points and their index; `none` if it has not ended after `fuel` rounds. -/
def walkX : Nat → (x0 y0 x1 stepX stepY dx dy fraction : Int) → Nat → Option (List (Int × Int × Nat))
  | 0, _, _, _, _, _, _, _, _, _ => none
  | fuel + 1, x0, y0, x1, stepX, stepY, dx, dy, fraction, i =>
    if x0 = x1 then some []
    else
      let y0' := if fraction ≥ 0 then y0 + stepY else y0
      let fraction := if fraction ≥ 0 then fraction - dx else fraction
      let x0' := x0 + stepX
      let fraction := fraction + dy
      (walkX fuel x0' y0' x1 stepX stepY dx dy fraction (i + 1)).map (fun r => (x0', y0', i) :: r)

/-- The loop for steep lines, `PngWriter.py` 424-430. The index does not change. -/
def walkY : Nat → (x0 y0 y1 stepX stepY dx dy fraction : Int) → Nat → Option (List (Int × Int × Nat))
  | 0, _, _, _, _, _, _, _, _, _ => none
  | fuel + 1, x0, y0, y1, stepX, stepY, dx, dy, fraction, i =>
    if y0 = y1 then some []
    else
      let x0' := if fraction ≥ 0 then x0 + stepX else x0
      let fraction := if fraction ≥ 0 then fraction - dy else fraction
      let y0' := y0 + stepY
      let fraction := fraction + dx
      (walkY fuel x0' y0' y1 stepX stepY dx dy fraction i).map (fun r => (x0', y0', i) :: r)

/-- The calls of `line_for_point` made by `draw_line`, `PngWriter.py` 387-430: whether the line is steep, `max_pos`, and the
points with their index. -/
def line (fuel : Nat) (x0 y0 x1 y1 : Int) : Option (Bool × Int × List (Int × Int × Nat)) :=
  let dy := y1 - y0
  let dx := x1 - x0
  let stepY := if dy < 0 then -1 else 1
  let dy := if dy < 0 then -dy else dy
  let odx := |dx|
  let ody := |dy|
  let stepX := if dx < 0 then -1 else 1
  let dx := if dx < 0 then -dx else dx
  if dx > dy then
    let dy := dy * 2
    let dx := dx * 2
    (walkX fuel x0 y0 x1 stepX stepY dx dy (dy - shr dx 1) 1).map (fun r => (false, odx, (x0, y0, 0) :: r))
  else
    let dy := dy * 2
    let dx := dx * 2
    (walkY fuel x0 y0 y1 stepX stepY dx dy (dx - shr dy 1) 1).map (fun r => (true, ody, (x0, y0, 0) :: r))

/-- `draw_line`, `PngWriter.py` 387-430. -/
def drawLine (fuel : Nat) (P : Pen) (w x0 y0 x1 y1 : Int) (buf : List Pixel) : Option (Except PyErr (List Pixel)) :=
  (line fuel x0 y0 x1 y1).map (fun L =>
    L.2.2.foldlM (fun buf p => lineForPoint P w p.1 p.2.1 L.1 L.2.1 p.2.2 buf) buf)

/-- The lines of a block, `PngWriter.py` 531-539; `last` is `(last_x, last_y)`. -/
def drawBlock (fuel : Nat) (P : Pen) (w : Int) : Option (Int × Int) → List Stitch → List Pixel → Option (Except PyErr (List Pixel))
  | _, [], buf => some (.ok buf)
  | none, st :: rest, buf => drawBlock fuel P w (some (pyInt st.x, pyInt st.y)) rest buf
  | some last, st :: rest, buf =>
    match drawLine fuel P w last.1 last.2 (pyInt st.x) (pyInt st.y) buf with
    | none => none
    | some (.error e) => some (.error e)
    | some (.ok buf) => drawBlock fuel P w (some (pyInt st.x, pyInt st.y)) rest buf

/-- The blocks, `PngWriter.py` 523-539; a thread is its red, green and blue. -/
def drawBlocks (fuel : Nat) (P : Pen) (w : Int) : List (List Stitch × (Int × Int × Int)) → List Pixel → Option (Except PyErr (List Pixel))
  | [], buf => some (.ok buf)
  | blk :: rest, buf =>
    match drawBlock fuel { P with red := blk.2.1, green := blk.2.2.1, blue := blk.2.2.2, alpha := 255 } w none blk.1 buf with
    | none => none
    | some (.error e) => some (.error e)
    | some (.ok buf) => drawBlocks fuel P w rest buf

/-- An image: width, height and pixels. -/
structure Image where
  width : Int
  height : Int
  pixels : List Pixel
deriving DecidableEq, Repr

/-- `write`, `PngWriter.py` 503-540, up to the packing of the file, for the bounds `box` of a pattern that has stitches (without
any, the bounds are infinite). -/
def draw (fuel : Nat) (box : Box) (fancy : Bool) (background : Option (Int × Int × Int)) (linewidth : Option Int)
    (threads : List (Int × Int × Int)) (filler : Nat → Int × Int × Int) (l : List Stitch) : Option (Except PyErr Image) :=
  let l := translate (-box.minX) (-box.minY) l
  let w := pyInt (box.maxX - box.minX) + 3
  let h := pyInt (box.maxY - box.minY) + 3
  let bg : Pixel := match background with
    | some c => ⟨c.1, c.2.1, c.2.2, 255⟩
    | none => ⟨0, 0, 0, 0⟩
  let P : Pen := ⟨0, 0, 0, 0, linewidth.getD 3, fancy, {}⟩
  (drawBlocks fuel P w (Blocks.stitchBlocks threads filler l) (List.replicate (w * h).toNat bg)).map
    (fun e => e.map (fun buf => ⟨w, h, buf⟩))

/-- `struct.pack("!I", n)`. -/
def pack32 (n : Int) : Bytes := [lo8 (shr n 24), lo8 (shr n 16), lo8 (shr n 8), lo8 n]

/-- `png_pack`, `PngWriter.py` 206-212; `crc` is `zlib.crc32`. -/
def chunk (crc : Bytes → Int) (tag data : Bytes) : Bytes := pack32 data.length ++ (tag ++ data) ++ pack32 (crc (tag ++ data))

/-- The four bytes of a pixel. -/
def Pixel.bytes (p : Pixel) : Bytes := [p.r, p.g, p.b, p.a]

/-- `raw_data`, `PngWriter.py` 200-204: a zero before every line. -/
def raw (w : Nat) : Nat → List Pixel → Bytes
  | 0, _ => []
  | h + 1, px => 0 :: (px.take w).flatMap Pixel.bytes ++ raw w h (px.drop w)

/-- `write_png`, `PngWriter.py` 196-221; `deflate` is `zlib.compress`. -/
def file (crc : Bytes → Int) (deflate : Bytes → Bytes) (im : Image) : Bytes :=
  [0x89, 0x50, 0x4E, 0x47, 0x0D, 0x0A, 0x1A, 0x0A] ++
  chunk crc [0x49, 0x48, 0x44, 0x52] (pack32 im.width ++ pack32 im.height ++ [8, 6, 0, 0, 0]) ++
  chunk crc [0x49, 0x44, 0x41, 0x54] (deflate (raw im.width.toNat im.height.toNat im.pixels)) ++
  chunk crc [0x49, 0x45, 0x4E, 0x44] []

end Png
end Emb
