import Verif.Pec
import Verif.PecGraphics
import Verif.Pattern
import Verif.Ops

/-!
# Whole PEC files: `PecWriter.py` 28-111 and `PecReader.py` 9-95

From the pattern handed to the writer to the pattern the reader makes: colours, thumbnails, label, threads, stops. The iteration
order of `set(threadlist)` is a parameter `order`, the random threads of `fix_color_count` are parameters `filler`.
-/

namespace Emb
namespace Pec

open Blocks Ops PecGraphics

/-- `EmbThreadPec.__init__`, `EmbThreadPec.py` 75-81. -/
def thr (r g b : Int) (description catalog : String) : Thread :=
  { color := colorRgb r g b, description := some description, catalog := some catalog, brand := some "Brother", chart := some "Brother" }

/-- The entries of `EmbThreadPec.get_thread_set()` after the `None` at index 0, `EmbThreadPec.py` 7-70. -/
def brother : List Thread :=
  [thr 14 31 124 "Prussian Blue" "1", thr 10 85 163 "Blue" "2", thr 0 135 119 "Teal Green" "3",
   thr 75 107 175 "Cornflower Blue" "4", thr 237 23 31 "Red" "5", thr 209 92 0 "Reddish Brown" "6",
   thr 145 54 151 "Magenta" "7", thr 228 154 203 "Light Lilac" "8", thr 145 95 172 "Lilac" "9",
   thr 158 214 125 "Mint Green" "10", thr 232 169 0 "Deep Gold" "11", thr 254 186 53 "Orange" "12",
   thr 255 255 0 "Yellow" "13", thr 112 188 31 "Lime Green" "14", thr 186 152 0 "Brass" "15",
   thr 168 168 168 "Silver" "16", thr 125 111 0 "Russet Brown" "17", thr 255 255 179 "Cream Brown" "18",
   thr 79 85 86 "Pewter" "19", thr 0 0 0 "Black" "20", thr 11 61 145 "Ultramarine" "21",
   thr 119 1 118 "Royal Purple" "22", thr 41 49 51 "Dark Gray" "23", thr 42 19 1 "Dark Brown" "24",
   thr 246 74 138 "Deep Rose" "25", thr 178 118 36 "Light Brown" "26", thr 252 187 197 "Salmon Pink" "27",
   thr 254 55 15 "Vermilion" "28", thr 240 240 240 "White" "29", thr 106 28 138 "Violet" "30",
   thr 168 221 196 "Seacrest" "31", thr 37 132 187 "Sky Blue" "32", thr 254 179 67 "Pumpkin" "33",
   thr 255 243 107 "Cream Yellow" "34", thr 208 166 96 "Khaki" "35", thr 209 84 0 "Clay Brown" "36",
   thr 102 186 73 "Leaf Green" "37", thr 19 74 70 "Peacock Blue" "38", thr 135 135 135 "Gray" "39",
   thr 216 204 198 "Warm Gray" "40", thr 67 86 7 "Dark Olive" "41", thr 253 217 222 "Flesh Pink" "42",
   thr 249 147 188 "Pink" "43", thr 0 56 34 "Deep Green" "44", thr 178 175 212 "Lavender" "45",
   thr 104 106 176 "Wisteria Violet" "46", thr 239 227 185 "Beige" "47", thr 247 56 102 "Carmine" "48",
   thr 181 75 100 "Amber Red" "49", thr 19 43 26 "Olive Green" "50", thr 199 1 86 "Dark Fuchsia" "51",
   thr 254 158 50 "Tangerine" "52", thr 168 222 235 "Light Blue" "53", thr 0 103 62 "Emerald Green" "54",
   thr 78 41 144 "Purple" "55", thr 47 126 32 "Moss Green" "56", thr 255 204 204 "Flesh Pink" "57",
   thr 255 217 17 "Harvest Gold" "58", thr 9 91 166 "Electric Blue" "59", thr 240 249 112 "Lemon Yellow" "60",
   thr 227 243 91 "Fresh Green" "61", thr 255 153 0 "Orange" "62", thr 255 240 141 "Cream Yellow" "63",
   thr 255 200 200 "Applique" "64"]

/-- `EmbThreadPec.get_thread_set()`, `EmbThreadPec.py` 4-71. -/
def palette : List (Option Thread) := none :: brother.map some

/-- `get_blank()`, `PecGraphics.py` 3-236: an empty frame of 48 by 38 pixels. -/
def blank : List Nat :=
  [0x00, 0x00, 0x00, 0x00, 0x00, 0x00, 0xF0, 0xFF, 0xFF, 0xFF, 0xFF, 0x0F,
   0x08, 0x00, 0x00, 0x00, 0x00, 0x10, 0x04, 0x00, 0x00, 0x00, 0x00, 0x20,
   0x02, 0x00, 0x00, 0x00, 0x00, 0x40, 0x02, 0x00, 0x00, 0x00, 0x00, 0x40,
   0x02, 0x00, 0x00, 0x00, 0x00, 0x40, 0x02, 0x00, 0x00, 0x00, 0x00, 0x40,
   0x02, 0x00, 0x00, 0x00, 0x00, 0x40, 0x02, 0x00, 0x00, 0x00, 0x00, 0x40,
   0x02, 0x00, 0x00, 0x00, 0x00, 0x40, 0x02, 0x00, 0x00, 0x00, 0x00, 0x40,
   0x02, 0x00, 0x00, 0x00, 0x00, 0x40, 0x02, 0x00, 0x00, 0x00, 0x00, 0x40,
   0x02, 0x00, 0x00, 0x00, 0x00, 0x40, 0x02, 0x00, 0x00, 0x00, 0x00, 0x40,
   0x02, 0x00, 0x00, 0x00, 0x00, 0x40, 0x02, 0x00, 0x00, 0x00, 0x00, 0x40,
   0x02, 0x00, 0x00, 0x00, 0x00, 0x40, 0x02, 0x00, 0x00, 0x00, 0x00, 0x40,
   0x02, 0x00, 0x00, 0x00, 0x00, 0x40, 0x02, 0x00, 0x00, 0x00, 0x00, 0x40,
   0x02, 0x00, 0x00, 0x00, 0x00, 0x40, 0x02, 0x00, 0x00, 0x00, 0x00, 0x40,
   0x02, 0x00, 0x00, 0x00, 0x00, 0x40, 0x02, 0x00, 0x00, 0x00, 0x00, 0x40,
   0x02, 0x00, 0x00, 0x00, 0x00, 0x40, 0x02, 0x00, 0x00, 0x00, 0x00, 0x40,
   0x02, 0x00, 0x00, 0x00, 0x00, 0x40, 0x02, 0x00, 0x00, 0x00, 0x00, 0x40,
   0x02, 0x00, 0x00, 0x00, 0x00, 0x40, 0x02, 0x00, 0x00, 0x00, 0x00, 0x40,
   0x02, 0x00, 0x00, 0x00, 0x00, 0x40, 0x02, 0x00, 0x00, 0x00, 0x00, 0x40,
   0x04, 0x00, 0x00, 0x00, 0x00, 0x20, 0x08, 0x00, 0x00, 0x00, 0x00, 0x10,
   0xF0, 0xFF, 0xFF, 0xFF, 0xFF, 0x0F, 0x00, 0x00, 0x00, 0x00, 0x00, 0x00]

/-- `bytes(bytearray(g))`. -/
def toBytes (g : List Nat) : Bytes := g.map (fun n : Nat => (n : Int))

/-- The points of a list of stitches. -/
def points (l : List Stitch) : List (ℚ × ℚ) := l.map (fun st => (st.x, st.y))

/-- `write_pec_graphics`, `PecWriter.py` 100-111, for the bounds `b`; the threads of the blocks are not used. The comparison
`s[2] == STITCH` is without the mask. -/
def thumbnails (b : Box) (l : List Stitch) : List Bytes :=
  toBytes ((stitchBlocks ([] : List Unit) (fun _ => ()) l).foldl
      (fun g blk => drawScaled b.minX b.minY b.maxX b.maxY 6 4 (points blk.1) g) blank) ::
    (colorBlocks ([] : List Unit) (fun _ => ()) l).map (fun blk =>
      toBytes (drawScaled b.minX b.minY b.maxX b.maxY 6 5 (points (blk.1.filter (fun st => decide (st.cmd = STITCH)))) blank))

/-- A list without a `None`, or `none`. -/
def allSome {α : Type} : List (Option α) → Option (List α)
  | [] => some []
  | none :: _ => none
  | some a :: l => (allSome l).map (fun r => a :: r)

/-- `write_pec`, `PecWriter.py` 35-43, for a thread list in which `fix_color_count` changes nothing. `None` among the colour
indices is a `TypeError` of `bytearray`; the bounds of a pattern without stitches are infinite, and `round` of an infinite number is
an `OverflowError` (after the header). -/
def writePattern (order : List Thread → List Thread) (name : Option Str) (threads : List Thread) (l : List Stitch) :
    Except PyErr Bytes :=
  match allSome (buildUnique palette (order threads) threads) with
  | none => .error .typeError
  | some colors =>
    match bounds l with
    | none => header (name.getD "Untitled".toList) colors >>= fun _ => .error .overflowError
    | some b => write (name.getD "Untitled".toList) colors (pyRound (b.maxX - b.minX)) (pyRound (b.maxY - b.minY)) (thumbnails b l) l

/-- What `PecWriter.write` (28-31) and `PesWriter.write` (29-31) do to the pattern before writing: threads are added and
stops become colour changes. -/
def prepare (filler : Nat → Thread) (threads : List Thread) (l : List Stitch) : List Stitch × List Thread :=
  stopAsDup COLOR_CHANGE l (fixColorCount threads filler l)

/-- `PecWriter.write`, `PecWriter.py` 28-43. -/
def writeFile (order : List Thread → List Thread) (filler filler' : Nat → Thread) (name : Option Str) (threads : List Thread)
    (l : List Stitch) : Except PyErr Bytes :=
  let p := prepare filler threads l
  (writePattern order name (fixColorCount p.2 filler' p.1) p.1).map (fun f => utf8 "#PEC0001".toList ++ f)

/-! ## Reading -/

/-- The loop of `process_pec_table`, `PecReader.py` 70-80: the threads found; `seen` is `thread_map`. -/
def tableLoop : List (Int × Option Thread) → List Thread → Bytes → List (Option Thread)
  | _, _, [] => []
  | seen, chart, b :: rest =>
    match (seen.find? (fun e => e.1 == b % 65)).bind (·.2) with
    | some t => some t :: tableLoop seen chart rest
    | none =>
      match chart with
      | t :: chart => some t :: tableLoop ((b % 65, some t) :: seen) chart rest
      | [] =>
        let t := (palette[(b % 65).toNat]?).getD none
        t :: tableLoop ((b % 65, t) :: seen) [] rest

/-- `map_pec_colors`, `PecReader.py` 56-95: the list `values`; `chart` are the threads of a PES header. The palette has 65
entries. -/
def mapColors (chart : List Thread) (colors : Bytes) : List (Option Thread) :=
  if chart = [] then colors.map (fun b => (palette[(b % 65).toNat]?).getD none)
  else if colors.length ≤ chart.length then chart.map some
  else tableLoop [] chart colors

/-- `add_thread(None)` adds a new thread, which is black; `EmbPattern.py` 307-315. -/
def added (t : Option Thread) : Thread := t.getD { color := 0 }

/-- What reading makes: the metadata `Name`, the threads, the stitches, and the metadata `pec_graphic_0`, `pec_graphic_1`, … -/
structure Design where
  label : Option Str
  threads : List Thread
  stitches : List Stitch
  graphics : List (Bytes × Int × Option Thread)
deriving DecidableEq

/-- `read_pec`, `PecReader.py` 16-53. There is an `IndexError` if there are fewer threads than thumbnails. -/
def readPattern (chart : List Thread) (f : Bytes) : Except PyErr Design :=
  match read f with
  | .error e => .error e
  | .ok found =>
    let values := mapColors chart found.colors
    if values.length + 1 < found.graphics.length then .error .indexError
    else .ok {
      label := found.label
      threads := values.map added
      stitches := found.stitches
      graphics := List.zipWith (fun g v => (g, found.stride, v)) found.graphics (none :: values) }

/-- `out.interpolate_duplicate_color_as_stop()`. -/
def Design.stops (d : Design) : Design :=
  let r := dupAsStop Thread.same d.stitches d.threads
  { d with stitches := r.1, threads := r.2 }

/-- `PecReader.read`, `PecReader.py` 9-13. -/
def readFile (f : Bytes) : Except PyErr Design := (readPattern [] (f.drop 8)).map Design.stops

end Pec
end Emb
