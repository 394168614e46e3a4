import Mathlib.Data.Nat.Bitwise
import Verif.Py
import Verif.Stitch

/-!
# PEC thumbnails: `PecGraphics.py`

A graphic is a list of bytes, here natural numbers so that `|` and `& ~` are the bit operations themselves.
-/

namespace Emb
namespace PecGraphics

/-- Assignment to `graphic[i]` by `f`, with Python's negative indices. -/
def update (g : List Nat) (i : Int) (f : Nat → Nat) : Except PyErr (List Nat) :=
  let j := if i < 0 then i + g.length else i
  if j < 0 then .error .indexError
  else match g[j.toNat]? with
    | some b => .ok (g.set j.toNat (f b))
    | none => .error .indexError

/-- `graphic_mark_bit`, `PecGraphics.py` 323-325. `int(x / 8)` truncates. -/
def markBit (g : List Nat) (x y stride : Int) : Except PyErr (List Nat) :=
  update g (y * stride + x.tdiv 8) (fun b => b ||| 1 <<< (x % 8).toNat)

/-- `graphic_unmark_bit`, `PecGraphics.py` 328-330; `b & ~m` is `Nat.ldiff b m`. -/
def unmarkBit (g : List Nat) (x y stride : Int) : Except PyErr (List Nat) :=
  update g (y * stride + x.tdiv 8) (fun b => Nat.ldiff b (1 <<< (x % 8).toNat))

/-- `list_string`, `PecGraphics.py` 343-345. -/
def bits (one zero : Char) (g : List Nat) : List Char :=
  g.flatMap (fun b => (List.range 8).map (fun i => if b.testBit i then one else zero))

/-- The slices `list_string[m : m + bit_stride] for m in range(0, bit_length, bit_stride)`, `PecGraphics.py` 348-351, for a
positive stride. -/
def rows (w : Nat) (l : List Char) : List (List Char) :=
  (List.range ((l.length + w - 1) / w)).map (fun k => (l.drop (k * w)).take w)

/-- `get_graphic_as_string`, `PecGraphics.py` 333-351. -/
def asString (one zero : Char) (g : List Nat) (stride : Nat) : List Char :=
  List.intercalate ['\n'] (rows (8 * stride) (bits one zero g))

/-- The pixel of a point, `draw_scaled`, `PecGraphics.py` 255-315, for an extents 4-tuple and points indexable as
`(x, y)`. `len(graphic) / stride` is the exact quotient. -/
def scaledPixel (left top right bottom : ℚ) (len stride : Nat) (buffer : ℚ) (x y : ℚ) : Int × Int :=
  let w := if right - left = 0 then 1 else right - left
  let h := if bottom - top = 0 then 1 else bottom - top
  let gw : ℚ := stride * 8
  let gh : ℚ := (len : ℚ) / stride
  let scale := min ((gw - buffer) / w) ((gh - buffer) / h)
  let tx := -((right + left) / 2) * scale + gw / 2
  let ty := -((bottom + top) / 2) * scale + gh / 2
  ((x * scale + tx).floor, (y * scale + ty).floor)

/-- `draw_scaled`, `PecGraphics.py` 255-315; an `IndexError` is ignored. -/
def drawScaled (left top right bottom : ℚ) (stride : Nat) (buffer : ℚ) : List (ℚ × ℚ) → List Nat → List Nat
  | [], g => g
  | p :: ps, g =>
    let q := scaledPixel left top right bottom g.length stride buffer p.1 p.2
    match markBit g q.1 q.2 stride with
    | .ok g' => drawScaled left top right bottom stride buffer ps g'
    | .error _ => drawScaled left top right bottom stride buffer ps g

end PecGraphics
end Emb
