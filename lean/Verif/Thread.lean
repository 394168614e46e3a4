import Verif.Py

/-!
# Threads and palettes

Models `EmbThread.py` 1-205. Colour values are Python ints of either sign and any size (only the low 24 bits matter
for comparison). Thread fields other than the colour are optional strings.
-/

namespace Emb

/-- `EmbThread` instances, `EmbThread.py` 94-113. -/
structure Thread where
  color : Int
  description : Option String := none
  catalog : Option String := none
  details : Option String := none
  brand : Option String := none
  chart : Option String := none
  weight : Option String := none
deriving DecidableEq, Repr

namespace Thread

/-- `EmbThread.__eq__` between two threads, `EmbThread.py` 154-168. -/
def same (a b : Thread) : Bool :=
  if a.color % 16777216 ≠ b.color % 16777216 then false
  else if a.description ≠ b.description then false
  else if a.catalog ≠ b.catalog then false
  else if a.details ≠ b.details then false
  else if a.brand ≠ b.brand then false
  else if a.chart ≠ b.chart then false
  else if a.weight ≠ b.weight then false
  else true

/-- `get_red`, `EmbThread.py` 185-187. -/
def red (t : Thread) : Int := t.color / 65536 % 256
/-- `get_green`, `EmbThread.py` 189-191. -/
def green (t : Thread) : Int := t.color / 256 % 256
/-- `get_blue`, `EmbThread.py` 193-195. -/
def blue (t : Thread) : Int := t.color % 256

end Thread

/-- `color_rgb(r, g, b)`, `EmbThread.py` 66-67. The ORed parts occupy different bytes, so OR is written as a sum. -/
def colorRgb (r g b : Int) : Int := (r % 256) * 65536 + (g % 256) * 256 + b % 256

/-- `color_distance_red_mean`, `EmbThread.py` 79-88. `(r1 + r2) / 2` is float division; `>> 8` is floor division. -/
def colorDistance (r1 g1 b1 r2 g2 b2 : Int) : Int :=
  let red_mean := pyRound (((r1 + r2 : Int) : ℚ) / 2)
  let r := r1 - r2
  let g := g1 - g2
  let b := b1 - b2
  ((512 + red_mean) * r * r) / 256 + 4 * g * g + ((767 - red_mean) * b * b) / 256

/-- Distance between the searched colour and a palette entry as computed in `EmbThread.py` 49-51, 57-59. -/
def distTo (find : Int) (t : Thread) : Int :=
  colorDistance (find / 65536 % 256) (find / 256 % 256) (find % 256) t.red t.green t.blue

/-- The loop of `find_nearest_color_index`, `EmbThread.py` 54-62. `best` is `(closest_index, current_closest_value)`,
`none` standing for `(None, inf)`. -/
def findLoop (find : Int) : List (Option Thread) → Nat → Option (Nat × Int) → Option Nat
  | [], _, best => best.map (·.1)
  | none :: vs, i, best => findLoop find vs (i + 1) best
  | some t :: vs, i, best =>
    let dist := distTo find t
    match best with
    | none => findLoop find vs (i + 1) (some (i, dist))
    | some (j, d) => if dist ≤ d then findLoop find vs (i + 1) (some (i, dist)) else findLoop find vs (i + 1) (some (j, d))

/-- `find_nearest_color_index(find_color, values)`, `EmbThread.py` 46-63; `None` entries of the palette are skipped. -/
def findNearest (find : Int) (values : List (Option Thread)) : Option Nat := findLoop find values 0 none

/-- `build_palette`, `EmbThread.py` 19-23. -/
def buildPalette (palette : List (Option Thread)) (threads : List Thread) : List (Option Nat) :=
  threads.map fun t => findNearest t.color palette

/-- First loop of `build_unique_palette`, `EmbThread.py` 4-11: moves the closest remaining entry to the chart.
`order` is the iteration order of `set(threadlist)`. -/
def uniqueLoop : List Thread → List (Option Thread) → List (Option Thread) → List (Option Thread)
  | [], _, chart => chart
  | t :: ts, palette, chart =>
    match findNearest t.color palette with
    | none => chart
    | some i => uniqueLoop ts (palette.set i none) (chart.set i (some t))

/-- `build_unique_palette`, `EmbThread.py` 1-16, for a given iteration order of the set of threads. -/
def buildUnique (palette : List (Option Thread)) (order threads : List Thread) : List (Option Nat) :=
  let chart := uniqueLoop order palette (List.replicate palette.length none)
  threads.map fun t => findNearest t.color chart

/-- `last_thread != thread` with `last_thread` initially `None`, `EmbThread.py` 32. -/
def differs (last : Option Thread) (t : Thread) : Bool :=
  match last with
  | none => true
  | some l => !(l.same t)

/-- Loop of `build_nonrepeat_palette`, `EmbThread.py` 30-41. `thread_palette[None]` (line 33, only possible when the
palette is empty) raises `TypeError`. -/
def nonrepeatLoop (palette : List (Option Thread)) :
    List Thread → Option Nat → Option Thread → Except PyErr (List (Option Nat))
  | [], _, _ => .ok []
  | t :: ts, lastIndex, lastThread =>
    let index := findNearest t.color palette
    if lastIndex = index ∧ differs lastThread t = true then
      match index with
      | none => .error .typeError
      | some i =>
        let index' := findNearest t.color (palette.set i none)
        -- line 38 restores the entry, so later iterations see the original palette
        match nonrepeatLoop palette ts index' (some t) with
        | .ok r => .ok (index' :: r)
        | .error e => .error e
    else
      match nonrepeatLoop palette ts index (some t) with
      | .ok r => .ok (index :: r)
      | .error e => .error e

/-- `build_nonrepeat_palette`, `EmbThread.py` 26-43. -/
def buildNonrepeat (palette : List (Option Thread)) (threads : List Thread) : Except PyErr (List (Option Nat)) :=
  nonrepeatLoop palette threads none none

/-! ## Hex notation -/

/-- One digit of `%x` formatting. -/
def hexDigit (n : Int) : Char :=
  if n < 10 then Char.ofNat (48 + n.toNat) else Char.ofNat (87 + n.toNat)

/-- `"%02x" % v` for a byte value. -/
def hex2 (v : Int) : List Char := [hexDigit (v / 16), hexDigit (v % 16)]

/-- `hex_color()`, `EmbThread.py` 200-201. -/
def hexColor (t : Thread) : List Char := '#' :: (hex2 t.red ++ hex2 t.green ++ hex2 t.blue)

/-- Value of one digit in `int(s, 16)`. -/
def hexVal (c : Char) : Option Int :=
  if '0' ≤ c ∧ c ≤ '9' then some (c.toNat - 48)
  else if 'a' ≤ c ∧ c ≤ 'f' then some (c.toNat - 87)
  else if 'A' ≤ c ∧ c ≤ 'F' then some (c.toNat - 55)
  else none

/-- `int(s, 16)` on a non-empty string of plain hex digits; anything else is `ValueError`
(simplification: Python also accepts `_`, blanks, signs and `0x`). -/
def parseHex (s : List Char) : Except PyErr Int :=
  let rec go : List Char → Int → Except PyErr Int
    | [], acc => .ok acc
    | c :: cs, acc => match hexVal c with
      | some v => go cs (acc * 16 + v)
      | none => .error .valueError
  if s = [] then .error .valueError else go s 0

/-- `color_hex(hex_string)`, `EmbThread.py` 70-76; other sizes fall through and return `None`. -/
def colorHex (s : List Char) : Except PyErr (Option Int) :=
  let h := s.dropWhile (· = '#')
  match h with
  | [a, b, c, d, e, f] => (parseHex [a, b, c, d, e, f]).map some
  | [a, b, c, d, e, f, _, _] => (parseHex [a, b, c, d, e, f]).map some
  | [a, b, c] => (parseHex [a, a, b, b, c, c]).map some
  | [a, b, c, _] => (parseHex [a, a, b, b, c, c]).map some
  | _ => .ok none

end Emb
