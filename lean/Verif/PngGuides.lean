import Verif.Png
import Verif.Text

/-!
# The guides of the PNG writer

With `guides=True` a ruler is drawn along the upper and the left edge of the picture.
-/

namespace Emb
namespace Png

/-- `characters`, `PngWriter.py` 12-193. -/
def glyphs : List (Char × List (List Int)) := [
  ('0', [
    [9, 9, 4, 1, 0, 1, 5, 9, 9],
    [9, 3, 0, 0, 0, 0, 0, 5, 9],
    [7, 0, 1, 7, 9, 6, 0, 0, 9],
    [4, 0, 5, 9, 9, 9, 4, 0, 6],
    [3, 0, 8, 9, 9, 9, 6, 0, 4],
    [2, 0, 9, 5, 0, 6, 8, 0, 3],
    [2, 0, 9, 4, 0, 6, 8, 0, 3],
    [2, 0, 9, 9, 9, 9, 8, 0, 3],
    [3, 0, 8, 9, 9, 9, 6, 0, 4],
    [4, 0, 5, 9, 9, 9, 4, 0, 6],
    [7, 0, 1, 7, 9, 6, 0, 0, 8],
    [9, 3, 0, 0, 0, 0, 0, 5, 9],
    [9, 9, 4, 1, 0, 1, 5, 9, 9]]),
  ('1', [
    [9, 8, 5, 2, 0, 1, 9, 9, 9],
    [9, 1, 0, 0, 0, 1, 9, 9, 9],
    [9, 2, 4, 7, 1, 1, 9, 9, 9],
    [9, 9, 9, 9, 1, 1, 9, 9, 9],
    [9, 9, 9, 9, 1, 1, 9, 9, 9],
    [9, 9, 9, 9, 1, 1, 9, 9, 9],
    [9, 9, 9, 9, 1, 1, 9, 9, 9],
    [9, 9, 9, 9, 1, 1, 9, 9, 9],
    [9, 9, 9, 9, 1, 1, 9, 9, 9],
    [9, 9, 9, 9, 1, 1, 9, 9, 9],
    [9, 9, 9, 9, 1, 1, 9, 9, 9],
    [9, 3, 0, 0, 0, 0, 0, 0, 3],
    [9, 3, 0, 0, 0, 0, 0, 0, 3]]),
  ('2', [
    [8, 5, 2, 1, 1, 2, 6, 9, 9],
    [4, 0, 0, 0, 0, 0, 0, 4, 9],
    [5, 4, 7, 8, 8, 5, 0, 0, 8],
    [9, 9, 9, 9, 9, 9, 3, 0, 7],
    [9, 9, 9, 9, 9, 9, 3, 0, 9],
    [9, 9, 9, 9, 9, 8, 0, 4, 9],
    [9, 9, 9, 9, 8, 1, 2, 9, 9],
    [9, 9, 9, 8, 2, 2, 9, 9, 9],
    [9, 9, 8, 1, 2, 9, 9, 9, 9],
    [9, 8, 1, 2, 9, 9, 9, 9, 9],
    [7, 1, 2, 9, 9, 9, 9, 9, 9],
    [3, 0, 0, 0, 0, 0, 0, 0, 6],
    [3, 0, 0, 0, 0, 0, 0, 0, 6]]),
  ('3', [
    [9, 6, 2, 1, 1, 2, 6, 9, 9],
    [5, 0, 0, 0, 0, 0, 0, 4, 9],
    [6, 3, 7, 8, 9, 6, 1, 0, 8],
    [9, 9, 9, 9, 9, 9, 3, 0, 8],
    [9, 9, 9, 9, 8, 6, 1, 1, 9],
    [9, 9, 4, 0, 0, 0, 2, 8, 9],
    [9, 9, 4, 0, 0, 0, 2, 8, 9],
    [9, 9, 9, 9, 8, 6, 1, 1, 8],
    [9, 9, 9, 9, 9, 9, 5, 0, 6],
    [9, 9, 9, 9, 9, 9, 5, 0, 5],
    [3, 5, 7, 9, 8, 6, 1, 0, 7],
    [2, 0, 0, 0, 0, 0, 0, 3, 9],
    [8, 4, 2, 0, 1, 2, 5, 9, 9]]),
  ('4', [
    [9, 9, 9, 9, 7, 0, 0, 7, 9],
    [9, 9, 9, 9, 2, 1, 0, 7, 9],
    [9, 9, 9, 5, 2, 4, 0, 7, 9],
    [9, 9, 8, 1, 7, 4, 0, 7, 9],
    [9, 9, 3, 4, 9, 4, 0, 7, 9],
    [9, 6, 1, 9, 9, 4, 0, 7, 9],
    [8, 1, 6, 9, 9, 4, 0, 7, 9],
    [4, 3, 9, 9, 9, 4, 0, 7, 9],
    [0, 0, 0, 0, 0, 0, 0, 0, 0],
    [0, 0, 0, 0, 0, 0, 0, 0, 0],
    [9, 9, 9, 9, 9, 4, 0, 7, 9],
    [9, 9, 9, 9, 9, 4, 0, 7, 9],
    [9, 9, 9, 9, 9, 4, 0, 7, 9]]),
  ('5', [
    [7, 0, 0, 0, 0, 0, 0, 5, 9],
    [7, 0, 0, 0, 0, 0, 0, 5, 9],
    [7, 0, 5, 9, 9, 9, 9, 9, 9],
    [7, 0, 5, 9, 9, 9, 9, 9, 9],
    [7, 0, 1, 1, 0, 2, 6, 9, 9],
    [7, 0, 0, 0, 0, 0, 0, 5, 9],
    [7, 4, 7, 9, 8, 4, 0, 0, 9],
    [9, 9, 9, 9, 9, 9, 3, 0, 6],
    [9, 9, 9, 9, 9, 9, 5, 0, 6],
    [9, 9, 9, 9, 9, 9, 3, 0, 6],
    [3, 5, 8, 9, 8, 5, 0, 0, 9],
    [2, 0, 0, 0, 0, 0, 0, 6, 9],
    [8, 4, 1, 0, 1, 2, 7, 9, 9]]),
  ('6', [
    [9, 9, 7, 2, 1, 0, 3, 8, 9],
    [9, 6, 0, 0, 0, 0, 0, 3, 9],
    [8, 0, 0, 4, 8, 9, 6, 4, 9],
    [5, 0, 4, 9, 9, 9, 9, 9, 9],
    [3, 0, 8, 9, 9, 9, 9, 9, 9],
    [2, 1, 8, 3, 0, 1, 3, 8, 9],
    [2, 2, 2, 0, 0, 0, 0, 1, 8],
    [2, 0, 2, 7, 9, 8, 2, 0, 5],
    [3, 0, 7, 9, 9, 9, 7, 0, 3],
    [4, 0, 7, 9, 9, 9, 7, 0, 3],
    [7, 0, 2, 7, 9, 8, 2, 0, 5],
    [9, 3, 0, 0, 0, 0, 0, 1, 8],
    [9, 9, 4, 1, 0, 1, 3, 8, 9]]),
  ('7', [
    [2, 0, 0, 0, 0, 0, 0, 0, 5],
    [2, 0, 0, 0, 0, 0, 0, 0, 7],
    [9, 9, 9, 9, 9, 9, 3, 2, 9],
    [9, 9, 9, 9, 9, 8, 0, 5, 9],
    [9, 9, 9, 9, 9, 4, 0, 8, 9],
    [9, 9, 9, 9, 9, 1, 3, 9, 9],
    [9, 9, 9, 9, 6, 0, 6, 9, 9],
    [9, 9, 9, 9, 2, 1, 9, 9, 9],
    [9, 9, 9, 7, 0, 4, 9, 9, 9],
    [9, 9, 9, 3, 0, 8, 9, 9, 9],
    [9, 9, 8, 0, 2, 9, 9, 9, 9],
    [9, 9, 5, 0, 6, 9, 9, 9, 9],
    [9, 9, 1, 0, 9, 9, 9, 9, 9]]),
  ('8', [
    [9, 8, 3, 1, 0, 1, 4, 8, 9],
    [8, 1, 0, 0, 0, 0, 0, 1, 9],
    [5, 0, 3, 8, 9, 7, 2, 0, 6],
    [5, 0, 7, 9, 9, 9, 5, 0, 6],
    [7, 0, 3, 8, 9, 7, 2, 1, 8],
    [9, 7, 2, 0, 0, 0, 2, 7, 9],
    [9, 5, 1, 0, 0, 0, 1, 6, 9],
    [6, 0, 3, 8, 9, 7, 2, 0, 7],
    [2, 0, 9, 9, 9, 9, 7, 0, 4],
    [2, 0, 9, 9, 9, 9, 7, 0, 3],
    [3, 0, 3, 8, 9, 7, 2, 0, 4],
    [7, 0, 0, 0, 0, 0, 0, 1, 8],
    [9, 8, 3, 1, 0, 1, 4, 8, 9]]),
  ('9', [
    [9, 7, 3, 0, 0, 2, 6, 9, 9],
    [7, 0, 0, 0, 0, 0, 0, 5, 9],
    [3, 0, 4, 8, 9, 7, 1, 0, 9],
    [1, 0, 9, 9, 9, 9, 5, 0, 6],
    [1, 1, 9, 9, 9, 9, 5, 0, 5],
    [3, 0, 4, 8, 9, 7, 1, 0, 4],
    [7, 0, 0, 0, 0, 0, 3, 0, 4],
    [9, 7, 2, 0, 1, 4, 7, 0, 4],
    [9, 9, 9, 9, 9, 9, 5, 0, 5],
    [9, 9, 9, 9, 9, 9, 2, 0, 7],
    [9, 3, 7, 9, 8, 3, 0, 2, 9],
    [9, 1, 0, 0, 0, 0, 0, 7, 9],
    [9, 7, 2, 0, 1, 3, 8, 9, 9]]),
  ('-', [
    [9, 9, 9, 9, 9, 9, 9, 9, 9],
    [9, 9, 9, 9, 9, 9, 9, 9, 9],
    [9, 9, 9, 9, 9, 9, 9, 9, 9],
    [9, 9, 9, 9, 9, 9, 9, 9, 9],
    [9, 9, 9, 9, 9, 9, 9, 9, 9],
    [9, 9, 9, 9, 9, 9, 9, 9, 9],
    [9, 9, 9, 9, 9, 9, 9, 9, 9],
    [9, 9, 1, 0, 0, 0, 3, 9, 9],
    [9, 9, 1, 0, 0, 0, 3, 9, 9],
    [9, 9, 9, 9, 9, 9, 9, 9, 9],
    [9, 9, 9, 9, 9, 9, 9, 9, 9],
    [9, 9, 9, 9, 9, 9, 9, 9, 9],
    [9, 9, 9, 9, 9, 9, 9, 9, 9]]),
  ('m', [
    [9, 9, 9, 9, 9, 9, 9, 9, 9],
    [9, 9, 9, 9, 9, 9, 9, 9, 9],
    [9, 9, 9, 9, 9, 9, 9, 9, 9],
    [0, 5, 2, 1, 7, 6, 1, 2, 8],
    [0, 1, 0, 0, 1, 1, 0, 0, 3],
    [0, 2, 9, 4, 0, 4, 8, 2, 1],
    [0, 5, 9, 6, 0, 7, 9, 4, 1],
    [0, 5, 9, 6, 0, 7, 9, 4, 0],
    [0, 5, 9, 6, 0, 7, 9, 4, 0],
    [0, 5, 9, 6, 0, 7, 9, 4, 0],
    [0, 5, 9, 6, 0, 7, 9, 4, 0],
    [0, 5, 9, 6, 0, 7, 9, 4, 0],
    [0, 5, 9, 6, 0, 7, 9, 4, 0]])]

/-- The pixels `(cx, cy, m[cy][cx])` of a character in the order of the loops, `PngWriter.py` 450-452. All rows of the table are
of the same length, so no access fails. -/
def cells (m : List (List Int)) : List (Nat × Nat × Int) :=
  (List.range (m.headD []).length).flatMap (fun cx => (List.range m.length).map (fun cy => (cx, cy, (m.getD cy []).getD cx 0)))

/-- The new bytes of a pixel, `PngWriter.py` 463-473: black of opacity `(9 - v) / 9` over what is there. -/
def blend (v : Int) (old : Pixel) : Pixel :=
  let a2 : ℚ := (9 - v) / 9
  let a1 : ℚ := old.a / 255
  ⟨pyInt ((1 - a2) * old.r), pyInt ((1 - a2) * old.g), pyInt ((1 - a2) * old.b), pyInt ((a2 + a1 * (1 - a2)) * 255)⟩

/-- One pixel of a character, `PngWriter.py` 453-475: what is there is read before the `try`, so an `IndexError` is raised for a
pixel outside of the buffer. -/
def drawCell (w gx gy v : Int) (buf : List Pixel) : Except PyErr (List Pixel) :=
  if v = 9 then .ok buf
  else
    let pos := w * gy + gx
    let j := if pos < 0 then pos + buf.length else pos
    pyGet buf pos >>= fun old => .ok (buf.set j.toNat (blend v old))

/-- `draw_text`, `PngWriter.py` 447-479. -/
def drawText (w : Int) (rotate : Bool) : Int → Int → Str → List Pixel → Except PyErr (List Pixel)
  | _, _, [], buf => .ok buf
  | x, y, c :: s, buf =>
    match glyphs.lookup c with
    | none => .error .keyError
    | some m =>
      (cells m).foldlM (fun buf p =>
        if rotate then drawCell w (x + (m.length - p.2.1) + 1) (y + p.1 + 2) p.2.2 buf
        else drawCell w (x + p.1 + 2) (y + p.2.1 + 2) p.2.2 buf) buf >>= fun buf =>
      if rotate then drawText w rotate x (y + 11) s buf else drawText w rotate (x + 11) y s buf

/-- `range(a, b, 50)`. -/
def range50 (a b : Int) : List Int := (List.range ((b - a + 49) / 50).toNat).map (fun (k : Nat) => a + 50 * k)

/-- The places of the marks along one edge, `PngWriter.py` 491-493 and 496-498; `least` is `min_x` or `min_y`. -/
def marks (least size : Int) : List Int := (range50 (50 - least % 50) (size - 30)).filter (fun x => ¬ x < 30)

/-- `str(int((x + min_x) / 10))`, `PngWriter.py` 494 and 499. -/
def label (least x : Int) : Str := dec (pyInt (((x + least : Int) : ℚ) / 10))

/-- The loops of `draw_guides`: a text, then a line for every mark. -/
def drawMarks (fuel : Nat) (P : Pen) (w least : Int) (across : Bool) : List Int → List Pixel → Option (Except PyErr (List Pixel))
  | [], buf => some (.ok buf)
  | x :: rest, buf =>
    match (if across then drawText w true x 0 (label least x) buf else drawText w false 0 x (label least x) buf) with
    | .error e => some (.error e)
    | .ok buf =>
      match (if across then drawLine fuel P w x 0 x 30 buf else drawLine fuel P w 0 x 30 x buf) with
      | none => none
      | some (.error e) => some (.error e)
      | some (.ok buf) => drawMarks fuel P w least across rest buf

/-- `draw_guides`, `PngWriter.py` 482-500; `fancy` and `grad` of the pen are those of the stitches. -/
def drawGuides (fuel : Nat) (P : Pen) (box : Box) (w : Int) (buf : List Pixel) : Option (Except PyErr (List Pixel)) :=
  let width := pyInt (box.maxX - box.minX)
  let height := pyInt (box.maxY - box.minY)
  let P := { P with red := 0, green := 0, blue := 0, alpha := 255, width := 1 }
  match drawText w false 0 0 ['m', 'm'] buf with
  | .error e => some (.error e)
  | .ok buf =>
    match drawMarks fuel P w (pyInt box.minX) true (marks (pyInt box.minX) width) buf with
    | none => none
    | some (.error e) => some (.error e)
    | some (.ok buf) => drawMarks fuel P w (pyInt box.minY) false (marks (pyInt box.minY) height) buf

/-- `write` with `guides=True`, `PngWriter.py` 503-540: the stitches, then the guides. -/
def drawWithGuides (fuel : Nat) (box : Box) (fancy : Bool) (background : Option (Int × Int × Int)) (linewidth : Option Int)
    (threads : List (Int × Int × Int)) (filler : Nat → Int × Int × Int) (l : List Stitch) : Option (Except PyErr Image) :=
  match draw fuel box fancy background linewidth threads filler l with
  | none => none
  | some (.error e) => some (.error e)
  | some (.ok im) =>
    (drawGuides fuel ⟨0, 0, 0, 0, linewidth.getD 3, fancy, {}⟩ box im.width im.pixels).map
      (fun e => e.map (fun buf => { im with pixels := buf }))

end Png
end Emb
