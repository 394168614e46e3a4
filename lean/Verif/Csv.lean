import Verif.Names
import Verif.ColorNames
import Verif.Pattern

/-!
# CSV files

A file is the text it holds (UTF-8 is not repeated here). Numbers are printed and read by a parameter, `Num`, about which
only `Num.Sound` is assumed where it is needed.
-/

namespace Emb

/-- A pattern as far as the text formats see it: stitches, threads and `extras` (string values, in insertion order). -/
structure Doc where
  stitches : List Stitch := []
  threads : List Thread := []
  extras : List (Str × Str) := []
deriving DecidableEq, Repr

/-- `d[k] = v` on an insertion-ordered dictionary with string keys. -/
def put {β : Type} (k : Str) (v : β) : List (Str × β) → List (Str × β)
  | [] => [(k, v)]
  | p :: rest => if p.1 = k then (k, v) :: rest else p :: put k v rest

namespace Csv

/-- `str(number)`, `float(text)`, and the texts of `distance` and `angle` (`CsvWriter.py` 21-32). -/
structure Num where
  str : ℚ → Str
  float : Str → Except PyErr ℚ
  distance : ℚ → ℚ → Str
  angle : ℚ → ℚ → Str

/-- What is assumed of printing and reading numbers: reading gives back the printed number, and the text has neither a
quote nor a carriage return. -/
structure Num.Sound (n : Num) : Prop where
  float_str : ∀ q, n.float (n.str q) = .ok q
  str_plain : ∀ q, '"' ∉ n.str q ∧ '\r' ∉ n.str q
  distance_plain : ∀ a b, '"' ∉ n.distance a b ∧ '\r' ∉ n.distance a b
  angle_plain : ∀ a b, '"' ∉ n.angle a b ∧ '\r' ∉ n.angle a b

/-- `csv(f, values)`, `CsvWriter.py` 12-18. A value of zero length still adds its two quotes, so only the first value has no
comma before it. -/
def line (values : List Str) : Str :=
  [','].intercalate (values.map (fun v => '"' :: v ++ ['"'])) ++ ['\n']

/-- `"%s" % v` of a text that may be `None`. -/
def opt : Option String → Str
  | none => "None".toList
  | some s => s.toList

/-- The dictionary `stitch_counts`, `CsvWriter.py` 55-61. -/
def addCount (c : Int) : List (Int × Nat) → List (Int × Nat)
  | [] => [(c, 1)]
  | p :: rest => if p.1 = c then (c, p.2 + 1) :: rest else p :: addCount c rest

/-- `"COMMAND_" + names[the_key]` or `"COMMAND_UNKNOWN_" + str(the_key)`, `CsvWriter.py` 65-69. -/
def countName (c : Int) : Str :=
  match lookup nameDict c with
  | .ok n => "COMMAND_".toList ++ n.toList
  | .error _ => "COMMAND_UNKNOWN_".toList ++ dec c

/-- The extents as `str` prints them; without stitches they are infinite. `CsvWriter.py` 37-39, 48-53. -/
def extents (n : Num) (l : List Stitch) : List Str :=
  match bounds l with
  | some b => [n.str b.minX, n.str b.minY, n.str b.maxX, n.str b.maxY, n.str (b.maxX - b.minX), n.str (b.maxY - b.minY)]
  | none => ["inf".toList, "inf".toList, "-inf".toList, "-inf".toList, "-inf".toList, "-inf".toList]

/-- `write_data`, `CsvWriter.py` 35-72. -/
def dataRows (n : Num) (l : List Stitch) : List (List Str) :=
  [["#".toList, "[VAR_NAME]".toList, "[VAR_VALUE]".toList],
   [">".toList, "STITCH_COUNT:".toList, dec l.length],
   [">".toList, "THREAD_COUNT:".toList, dec (countCommands l COLOR_CHANGE)],
   [">".toList, "NEEDLE_COUNT:".toList, dec (countCommands l NEEDLE_SET)]] ++
  (["EXTENTS_LEFT:", "EXTENTS_TOP:", "EXTENTS_RIGHT:", "EXTENTS_BOTTOM:", "EXTENTS_WIDTH:", "EXTENTS_HEIGHT:"].zipWith
    (fun k v => [">".toList, k.toList, v]) (extents n l)) ++
  (l.foldl (fun d st => addCount (cmdOf st.cmd) d) []).map (fun p => [">".toList, countName p.1, dec p.2])

/-- `write_metadata`, `CsvWriter.py` 75-82. -/
def metaRows (extras : List (Str × Str)) : List (List Str) :=
  ["#".toList, "[METADATA_NAME]".toList, "[METADATA]".toList] :: extras.map (fun p => ["@".toList, p.1, p.2])

/-- One row of `write_threads`, `CsvWriter.py` 101-113. -/
def threadRow (i : Nat) (t : Thread) : List Str :=
  ["$".toList, dec i, hexColor t, opt t.description, opt t.brand, opt t.catalog, opt t.details, opt t.weight]

/-- `write_threads`, `CsvWriter.py` 85-114. -/
def threadRows (ts : List Thread) : List (List Str) :=
  ["#", "[THREAD_NUMBER]", "[HEX_COLOR]", "[DESCRIPTION]", "[BRAND]", "[CATALOG_NUMBER]", "[DETAILS]", "[WEIGHT]"].map
    String.toList :: ts.mapIdx threadRow

/-- The three layouts of the stitches. -/
inductive Version where
  | default | delta | full
deriving DecidableEq, Repr

/-- The columns after X and Y: none, or displacements, or also length and angle, `CsvWriter.py` 132-184. -/
def moreColumns (n : Num) (v : Version) (dx dy : ℚ) : List Str :=
  match v with
  | .default => []
  | .delta => [n.str dx, n.str dy]
  | .full => [n.str dx, n.str dy, n.distance dx dy, n.angle dx dy]

/-- The stitch rows, `CsvWriter.py` 132-201: `i` is the index, `(x, y)` the position before. -/
def stitchRows (n : Num) (v : Version) : Nat → ℚ → ℚ → List Stitch → List (List Str)
  | _, _, _, [] => []
  | i, x, y, st :: l =>
    (["*".toList, dec i, decodedName st.cmd, n.str st.x, n.str st.y] ++ moreColumns n v (st.x - x) (st.y - y)) ::
      stitchRows n v (i + 1) st.x st.y l

/-- The title row of the stitches. -/
def stitchTitle (v : Version) : List Str :=
  (["#", "[STITCH_INDEX]", "[STITCH_TYPE]", "[X]", "[Y]"] ++
    (match v with | .default => [] | .delta => ["[DX]", "[DY]"] | .full => ["[DX]", "[DY]", "[R]", "[ANGLE]"])).map String.toList

/-- `write`, `CsvWriter.py` 204-222. -/
def write (n : Num) (v : Version) (d : Doc) : Str :=
  (dataRows n d.stitches).flatMap line ++ ['\n'] ++
  (if d.extras = [] then [] else (metaRows d.extras).flatMap line ++ ['\n']) ++
  (if d.threads = [] then [] else (threadRows d.threads).flatMap line ++ ['\n']) ++
  (if d.stitches = [] then [] else (stitchTitle v :: stitchRows n v 0 0 0 d.stitches).flatMap line)

/-! ## Reading -/

/-- States of the parser of Python's `csv.reader` (default dialect: comma, double quote, doubled quotes, not strict). -/
inductive Mode where
  | startRecord | startField | inField | quoted | quoteInQuoted
deriving DecidableEq, Repr

/-- `csv.reader` on text whose line ends are `\n`: the rows. `fld` is the field and `row` the row so far. This is the
standard library's parser (`Modules/_csv.c`, `parse_process_char`); an open quote at the end of the text is closed. -/
def rows : Mode → Str → List Str → Str → List (List Str)
  | .startRecord, _, _, [] => []
  | .startField, fld, row, [] => [row ++ [fld]]
  | .inField, fld, row, [] => [row ++ [fld]]
  | .quoted, fld, row, [] => [row ++ [fld]]
  | .quoteInQuoted, fld, row, [] => [row ++ [fld]]
  | .startRecord, fld, row, c :: s =>
    if c = '\n' then [] :: rows .startRecord [] [] s
    else if c = '"' then rows .quoted fld row s
    else if c = ',' then rows .startField [] (row ++ [fld]) s
    else rows .inField (fld ++ [c]) row s
  | .startField, fld, row, c :: s =>
    if c = '\n' then (row ++ [fld]) :: rows .startRecord [] [] s
    else if c = '"' then rows .quoted fld row s
    else if c = ',' then rows .startField [] (row ++ [fld]) s
    else rows .inField (fld ++ [c]) row s
  | .inField, fld, row, c :: s =>
    if c = '\n' then (row ++ [fld]) :: rows .startRecord [] [] s
    else if c = ',' then rows .startField [] (row ++ [fld]) s
    else rows .inField (fld ++ [c]) row s
  | .quoted, fld, row, c :: s =>
    if c = '"' then rows .quoteInQuoted fld row s
    else rows .quoted (fld ++ [c]) row s
  | .quoteInQuoted, fld, row, c :: s =>
    if c = '"' then rows .quoted (fld ++ [c]) row s
    else if c = ',' then rows .startField [] (row ++ [fld]) s
    else if c = '\n' then (row ++ [fld]) :: rows .startRecord [] [] s
    else rows .inField (fld ++ [c]) row s

/-- `EmbThread().set(thread_add)` for the dictionaries made in `CsvReader.py` 38-75. `EmbThread.set` (206-253) has no
branch for the keys `details` and `weight`, so they are dropped. A colour of `None` would fail as soon as it is used. -/
def readThread (rnd : Int) (row : List Str) : Except PyErr Thread :=
  match row with
  | [_, _, r, g, b, desc, cat] =>
    if r.length ≤ 3 ∧ g.length ≤ 3 ∧ b.length ≤ 3 then
      parseInt r >>= fun r => parseInt g >>= fun g => parseInt b >>= fun b =>
      .ok { color := colorRgb r g b, description := some (String.ofList desc), catalog := some (String.ofList cat) }
    else general
  | _ => general
where
  general : Except PyErr Thread :=
    (match row[2]? with
      | none => .ok 0
      | some c => parseStringColor rnd c >>= fun v => match v with | some v => .ok v | none => .error .typeError) >>= fun c =>
    .ok { color := c, description := row[3]?.map String.ofList, brand := row[4]?.map String.ofList,
          catalog := row[5]?.map String.ofList }

/-- One row, `CsvReader.py` 12-75. -/
def readRow (n : Num) (rnd : Int) (d : Doc) (row : List Str) : Except PyErr Doc :=
  match row with
  | [] => .ok d
  | r0 :: _ =>
    if '*' ∈ r0 then
      match row[2]? with
      | none => .error .indexError
      | some name =>
        decodedCommand name >>= fun c =>
        if row.length = 3 then .ok { d with stitches := d.stitches ++ [⟨0, 0, c⟩] }
        else match row[3]?, row[4]? with
          | some x, some y => n.float x >>= fun x => n.float y >>= fun y =>
            .ok { d with stitches := d.stitches ++ [⟨x, y, c⟩] }
          | some x, none => n.float x >>= fun _ => .error .indexError
          | _, _ => .error .indexError
    else if '#' ∈ r0 then .ok d
    else if '@' ∈ r0 then
      match row with
      | [_, k, v] => .ok { d with extras := put k v d.extras }
      | _ => .ok d
    else if '$' ∈ r0 then readThread rnd row >>= fun t => .ok { d with threads := d.threads ++ [t] }
    else .ok d

/-- `read`, `CsvReader.py` 6-75, into an empty pattern, of a file opened in text mode. -/
def read (n : Num) (rnd : Int) (text : Str) : Except PyErr Doc :=
  (rows .startRecord [] [] (textMode text)).foldlM (readRow n rnd) {}

end Csv
end Emb
