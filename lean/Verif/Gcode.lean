import Verif.Csv
import Verif.Quant

/-!
# G-code files

The writer works on text, the reader on single bytes. Numbers are exact: `float` of a text of digits, signs and dots and the
formats `%.1f` and `%.3f` are defined here in full, but on rationals (a negative zero prints without its sign).
-/

namespace Emb
namespace Gcode

/-- `"%.kf" % q`: rounded to `k` digits, half to even. -/
def fixed (k : Nat) (q : ℚ) : Str :=
  let n := (pyRound (q * 10 ^ k)).natAbs
  let frac := Nat.toDigits 10 (n % 10 ^ k)
  (if q < 0 then ['-'] else []) ++ Nat.toDigits 10 (n / 10 ^ k) ++ '.' :: (List.replicate (k - frac.length) '0' ++ frac)

/-- `float(value)` for the texts that occur (only `0`-`9`, `+`, `-`, `.`; `GcodeReader.py` 42-44, 51): one sign, digits, one dot,
at least one digit. -/
def unsigned (s : Str) : Except PyErr ℚ :=
  match splitOn '.' s with
  | [a] => (parseNat a).map (fun n => (n : ℚ))
  | [a, b] => (parseNat (a ++ b)).map (fun n => (n : ℚ) / 10 ^ b.length)
  | _ => .error .valueError

/-- `float(value)`, with its sign. -/
def float (s : Str) : Except PyErr ℚ :=
  match s with
  | '-' :: r => (unsigned r).map (fun q => -q)
  | '+' :: r => unsigned r
  | r => unsigned r

/-! ## Writing -/

/-- One comment line. -/
def comment (s : Str) : Str := '(' :: s ++ ")\n".toList

/-- The extents in mm; without stitches they are infinite. `GcodeWriter.py` 9-11, 17-22. -/
def extents (l : List Stitch) : List Str :=
  match bounds l with
  | some b => [fixed 3 (b.minX / 10), fixed 3 (b.minY / 10), fixed 3 (b.maxX / 10), fixed 3 (b.maxY / 10),
      fixed 3 (b.maxX / 10 - b.minX / 10), fixed 3 (b.maxY / 10 - b.minY / 10)]
  | none => ["inf".toList, "inf".toList, "-inf".toList, "-inf".toList, "-inf".toList, "-inf".toList]

/-- The comments of `write_data`, `GcodeWriter.py` 8-40. -/
def dataComments (l : List Stitch) : List Str :=
  ["STITCH_COUNT: ".toList ++ dec l.length, "THREAD_COUNT: ".toList ++ dec (countCommands l COLOR_CHANGE)] ++
  (["EXTENTS_LEFT: ", "EXTENTS_TOP: ", "EXTENTS_RIGHT: ", "EXTENTS_BOTTOM: ", "EXTENTS_WIDTH: ", "EXTENTS_HEIGHT: "].zipWith
    (fun k v => k.toList ++ v) (extents l)) ++
  (l.foldl (fun d st => Csv.addCount (cmdOf st.cmd) d) []).map (fun p => Csv.countName p.1 ++ ": ".toList ++ dec p.2)

/-- The comments of `write_metadata`, `GcodeWriter.py` 43-51. -/
def metaComments (extras : List (Str × Str)) : List Str := extras.map (fun p => p.1 ++ ": ".toList ++ p.2)

/-- One comment of `write_threads`, `GcodeWriter.py` 54-67. -/
def threadComment (i : Nat) (t : Thread) : Str :=
  "Thread".toList ++ dec i ++ ": ".toList ++ hexColor t ++ ' ' :: Csv.opt t.description ++ ' ' :: Csv.opt t.brand ++
    ' ' :: Csv.opt t.catalog

/-- The loop of `write`, `GcodeWriter.py` 78-101; `inc` is the setting `stitch_z_travel`. -/
def body (inc : ℚ) : ℚ → List Stitch → Str
  | _, [] => []
  | z, st :: rest =>
    if st.low = STITCH then
      "G00 X".toList ++ fixed 3 (st.x / 10) ++ " Y".toList ++ fixed 3 (st.y / 10) ++ "\nG00 Z".toList ++ fixed 1 z ++ '\n' ::
        body inc (z + inc) rest
    else if st.low = JUMP then body inc z rest
    else if st.low = TRIM then body inc z rest
    else if st.low = COLOR_CHANGE then "M00\n".toList ++ body inc z rest
    else if st.low = STOP then "M00\n".toList ++ body inc z rest
    else if st.low = END then "M30\n".toList ++ body inc z rest
    else []

/-- `write`, `GcodeWriter.py` 70-101. -/
def text (inc : ℚ) (d : Doc) : Str :=
  (dataComments d.stitches ++ metaComments d.extras ++ d.threads.mapIdx threadComment).flatMap comment ++ body inc 0 d.stitches

/-- The bytes of the file. -/
def write (inc : ℚ) (d : Doc) : Bytes := utf8 (text inc d)

/-! ## Reading -/

/-- `command_map`: numbers by letter, and the comment. -/
structure Line where
  vals : List (Str × ℚ) := []
  comment : Option Str := none
deriving DecidableEq

/-- The variables of `parse`, `GcodeReader.py` 1-9. -/
structure PState where
  comment : Option Str := none
  code : Str := []
  value : Str := []
  line : Line := {}
deriving DecidableEq

/-- `byte.decode("utf8")` of one byte; anything but ASCII fails and is skipped, `GcodeReader.py` 24-28. -/
def decodeByte (b : Int) : Str := if 0 ≤ b ∧ b < 128 then [Char.ofNat b.toNat] else []

/-- The key of a letter, `GcodeReader.py` 46-49, 55. A capital letter becomes the small letter; of a small letter `byte` is still a
`bytes` object, and `str(byte)` is `"b'x'"`. -/
def key (b : Int) : Str :=
  if 65 ≤ b ∧ b ≤ 90 then [Char.ofNat (b + 32).toNat] else ['b', '\'', Char.ofNat b.toNat, '\'']

/-- Storing a finished number, `GcodeReader.py` 50-53. -/
def store (s : PState) : Except PyErr PState :=
  if s.code = [] then .ok s
  else (float s.value).map (fun v => { s with line := { s.line with vals := put s.code v s.line.vals }, code := [], value := [] })

/-- A byte outside a comment, `GcodeReader.py` 29-64: the new state and the line, if one is finished. -/
def plain (s : PState) (b : Int) : Except PyErr (PState × Option Line) :=
  if b = 40 ∨ b = 59 then .ok ({ s with comment := some [] }, none)
  else if b = 9 ∨ b = 32 then .ok (s, none)
  else if b = 47 ∧ s.code = [] then .ok (s, none)
  else if (48 ≤ b ∧ b ≤ 57) ∨ b = 43 ∨ b = 45 ∨ b = 46 then .ok ({ s with value := s.value ++ [Char.ofNat b.toNat] }, none)
  else if (65 ≤ b ∧ b ≤ 90) ∨ (97 ≤ b ∧ b ≤ 122) then (store s).map (fun s => ({ s with code := s.code ++ key b }, none))
  else if b = 10 ∨ b = 13 then
    (store s).map (fun s => if s.line = {} then (s, none) else ({}, some s.line))
  else .ok (s, none)

/-- One byte, `GcodeReader.py` 10-64. -/
def step (s : PState) (b : Int) : Except PyErr (PState × Option Line) :=
  match s.comment with
  | some c =>
    if b = 41 then .ok ({ s with comment := none, line := { s.line with comment := some c } }, none)
    else if b = 10 ∨ b = 13 then plain { s with comment := none, line := { s.line with comment := some c } } b
    else .ok ({ s with comment := some (c ++ decodeByte b) }, none)
  | none => plain s b

/-- `parse`, `GcodeReader.py` 1-64: the lines and the exception that ends them. What is not ended by a line end is lost. -/
def parse : PState → Bytes → List Line × Option PyErr
  | _, [] => ([], none)
  | s, b :: rest =>
    match step s b with
    | .error e => ([], some e)
    | .ok (s', none) => parse s' rest
    | .ok (s', some l) => (l :: (parse s' rest).1, (parse s' rest).2)

/-- The variables of `read`, `GcodeReader.py` 67-71. -/
structure RState where
  absolute : Bool := true
  scale : ℚ := 10
  doc : Doc := {}
deriving DecidableEq

/-- The value of a letter. -/
def Line.get (l : Line) (k : String) : Option ℚ := (l.vals.find? (fun p => p.1 = k.toList)).map (·.2)

/-- `stitch_abs`, `color_change`, ...: add a command, `EmbPattern.py` 243-305, 508-518. -/
def RState.add (s : RState) (x y : ℚ) (c : Int) : RState :=
  { s with doc := { s.doc with stitches := s.doc.stitches ++ [⟨x, y, c⟩] } }

/-- `out.add_thread(comment.split(" ")[1])`, `GcodeReader.py` 73-77; a colour of `None` would fail as soon as it is used. -/
def readThread (rnd : Int) (s : RState) (l : Line) : Except PyErr RState :=
  match l.comment with
  | none => .ok s
  | some c =>
    if "Thread".toList <:+: c then
      match (splitOn ' ' c)[1]? with
      | none => .error .indexError
      | some w => parseStringColor rnd w >>= fun v => match v with
        | some v => .ok { s with doc := { s.doc with threads := s.doc.threads ++ [{ color := v }] } }
        | none => .error .typeError
    else .ok s

/-- The word `m`, `GcodeReader.py` 94-99. -/
def readM (s : RState) (l : Line) : RState :=
  match l.get "m" with
  | none => s
  | some v =>
    let p := lastPos s.doc.stitches
    if v = 30 ∨ v = 2 then s.add p.1 p.2 END
    else if v = 0 ∨ v = 1 then s.add p.1 p.2 COLOR_CHANGE
    else s

/-- The word `g`, `GcodeReader.py` 79-93; then `m`, unless `continue` is reached. -/
def readG (s : RState) (l : Line) : Except PyErr RState :=
  match l.get "g" with
  | none => .ok (readM s l)
  | some g =>
    if ((l.get "x").isSome ∧ (l.get "y").isSome ∧ g = 0) ∨ g = 1 then
      match l.get "x", l.get "y" with
      | some x, some y =>
        let p := lastPos s.doc.stitches
        if s.absolute then .ok (s.add (x * s.scale * -1) (y * s.scale * -1) STITCH)
        else .ok (s.add (p.1 + x * s.scale * -1) (p.2 + y * s.scale * -1) STITCH)
      | _, _ => .error .keyError
    else .ok (readM
      (if g = 21 ∨ g = 71 then { s with scale := 10 }
       else if g = 20 ∨ g = 70 then { s with scale := 254 }
       else if g = 90 then { s with absolute := true }
       else if g = 91 then { s with absolute := false }
       else s) l)

/-- One line, `GcodeReader.py` 72-99. -/
def readLine (rnd : Int) (s : RState) (l : Line) : Except PyErr RState := readThread rnd s l >>= fun s => readG s l

/-- `read`, `GcodeReader.py` 67-99, into an empty pattern. -/
def read (rnd : Int) (f : Bytes) : Except PyErr Doc :=
  (parse {} f).1.foldlM (readLine rnd) {} >>= fun s =>
    match (parse {} f).2 with
    | none => .ok s.doc
    | some e => .error e

end Gcode
end Emb
