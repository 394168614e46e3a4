import Verif.Generic
import Verif.Csv
import Verif.Pattern

/-!
# The texts of the generic writer

`Generic.lean` says which texts are written. Here the texts are filled in: the dictionary of fields, the format strings of the
settings, and the text that comes out. How a value is printed (`format(value, spec)`) is a parameter.
-/

namespace Emb
namespace Generic

/-- A value of the dictionary. `inf` is an infinite float, with its sign. -/
inductive Value where
  | int (n : Int)
  | num (q : ℚ)
  | inf (negative : Bool)
  | text (s : Str)
  | none
deriving DecidableEq, Repr

/-- `None` or an integer. -/
def Value.ofInt? : Option Int → Value
  | some n => .int n
  | .none => .none

/-- `None` or a text. -/
def Value.ofText? : Option String → Value
  | some s => .text s.toList
  | .none => .none

/-- `format_dictionary`. It is only ever looked up, so the order does not matter. -/
abbrev Fields := Str → Option Value

/-- `format_dictionary.update({...})`. -/
def upd (d : Fields) (kvs : List (Str × Value)) : Fields := fun k =>
  match kvs.find? (fun p => p.1 = k) with
  | some p => some p.2
  | .none => d k

/-- The parts of a format string. -/
inductive Piece where
  | lit (c : Char)
  | fld (body : Str)
deriving DecidableEq, Repr

/-- `str.format_map` takes the string apart: doubled braces are braces, anything within single braces is a field. The second
argument is the field read so far. (Simplified: no braces within fields, and the whole string is taken apart before the first
field is looked up.) -/
def pieces : Str → Option Str → Except PyErr (List Piece)
  | [], .none => .ok []
  | [], some _ => .error .valueError
  | '{' :: '{' :: r, .none => (pieces r .none).map (.lit '{' :: ·)
  | '}' :: '}' :: r, .none => (pieces r .none).map (.lit '}' :: ·)
  | c :: r, .none =>
    if c = '{' then pieces r (some [])
    else if c = '}' then .error .valueError
    else (pieces r .none).map (.lit c :: ·)
  | c :: r, some acc => if c = '}' then (pieces r .none).map (.fld acc :: ·) else pieces r (some (acc ++ [c]))

/-- The name of a field, before `:` or `!`. (Simplified: `.` and `[` are taken as letters of the name.) -/
def fieldName (body : Str) : Str := body.takeWhile (fun c => c ≠ ':' ∧ c ≠ '!')

/-- What says how the value is printed. -/
def fieldSpec (body : Str) : Str := body.dropWhile (fun c => c ≠ ':' ∧ c ≠ '!')

/-- How values are printed. -/
abbrev Printer := Value → Str → Except PyErr Str

/-- The fields are looked up and printed; a missing one is a `KeyError`. -/
def fillPieces (pr : Printer) (d : Fields) : List Piece → Except PyErr Str
  | [] => .ok []
  | .lit c :: r => (fillPieces pr d r).map (c :: ·)
  | .fld b :: r =>
    match d (fieldName b) with
    | .none => .error .keyError
    | some v => pr v (fieldSpec b) >>= fun a => (fillPieces pr d r).map (a ++ ·)

/-- `template.format_map(format_dictionary)`. -/
def fill (pr : Printer) (d : Fields) (t : Str) : Except PyErr Str := pieces t .none >>= fillPieces pr d

/-- The text for a command: a format string, or a table `{None: (key, default), value: text, ...}`. -/
inductive Form where
  | plain (t : Str)
  | table (key : Str) (default : Option Str) (entries : List (Str × Str))
deriving DecidableEq, Repr

/-- The texts of the settings, `GenericWriter.py` 54-82. -/
structure Forms where
  metadataEntry : Option Str
  threadEntry : Option Str
  start : Level → Option Str
  stop : Level → Option Str
  colorJoin : Option Str
  blockJoin : Option Str
  segmentStart : Option Str
  segment : Option Form
  segmentEnd : Option Str
  segmentJoin : Option Str
  own : Int → Option Form
  zTravel : ℚ

/-- Which of them there are. -/
def Forms.texts (F : Forms) : Texts where
  metadataEntry := F.metadataEntry.isSome
  threadEntry := F.threadEntry.isSome
  start l := (F.start l).isSome
  stop l := (F.stop l).isSome
  colorJoin := F.colorJoin.isSome
  blockJoin := F.blockJoin.isSome
  segmentStart := F.segmentStart.isSome
  segment := F.segment.isSome
  segmentEnd := F.segmentEnd.isSome
  segmentJoin := F.segmentJoin.isSome
  own c := (F.own c).isSome
  zTravel := F.zTravel

/-- `value + "_count"` for the name of a command in lower case. -/
def countKey (name : String) : Str := name.toList.map Char.toLower ++ "_count".toList

/-- The extents, `GenericWriter.py` 224-239. -/
def extentFields (b : Option Box) : List (Str × Value) :=
  match b with
  | some b =>
    [("extents_left".toList, .num b.minX), ("extends_top".toList, .num b.minY), ("extends_right".toList, .num b.maxX),
     ("extends_bottom".toList, .num b.maxY), ("extends_width".toList, .num (b.maxX - b.minX)),
     ("extends_height".toList, .num (b.maxY - b.minY)), ("extents_left_mm".toList, .num (b.minX / 10)),
     ("extends_top_mm".toList, .num (b.minY / 10)), ("extends_right_mm".toList, .num (b.maxX / 10)),
     ("extends_bottom_mm".toList, .num (b.maxY / 10)), ("extends_width_mm".toList, .num ((b.maxX - b.minX) / 10)),
     ("extends_height_mm".toList, .num ((b.maxY - b.minY) / 10))]
  | .none =>
    [("extents_left".toList, .inf false), ("extends_top".toList, .inf false), ("extends_right".toList, .inf true),
     ("extends_bottom".toList, .inf true), ("extends_width".toList, .inf true), ("extends_height".toList, .inf true),
     ("extents_left_mm".toList, .inf false), ("extends_top_mm".toList, .inf false), ("extends_right_mm".toList, .inf true),
     ("extends_bottom_mm".toList, .inf true), ("extends_width_mm".toList, .inf true), ("extends_height_mm".toList, .inf true)]

/-- `stitch_counts`, `GenericWriter.py` 211-217: one more for the command of a stitch. -/
def countUp (counts : List (Int × Int)) (c : Int) : List (Int × Int) :=
  match counts with
  | [] => [(c, 1)]
  | p :: rest => if p.1 = c then (c, p.2 + 1) :: rest else p :: countUp rest c

/-- `stitch_counts.get(name, 0)`. -/
def countGet (counts : List (Int × Int)) (c : Int) : Int :=
  match counts.find? (fun p => p.1 = c) with
  | some p => p.2
  | .none => 0

/-- `set_document_statistics`, `GenericWriter.py` 203-240. -/
def statistics (doc : Doc) : Fields :=
  let d : Fields := upd (fun _ => .none) (doc.extras.map (fun p => (p.1, .text p.2)))
  let counts := (doc.stitches.map (fun st => cmdOf st.cmd)).foldl countUp []
  let d := upd d (nameDict.map (fun p => (countKey p.2, .int (countGet counts p.1))))
  upd d ([("stitch_total".toList, .int doc.stitches.length), ("thread_total".toList, .int doc.threads.length)] ++
    extentFields (bounds doc.stitches))

/-- The fields of an entry of metadata, `GenericWriter.py` 423-427. -/
def metadataFields (i : Nat) (p : Str × Str) : List (Str × Value) :=
  [("metadata_index".toList, .int i), ("metadata_key".toList, .text p.1), ("metadata_value".toList, .text p.2)]

/-- The fields of a thread, `GenericWriter.py` 434-446. -/
def threadFields (i : Nat) (t : Thread) : List (Str × Value) :=
  [("thread_index".toList, .int i), ("thread_color".toList, .text (hexColor t)),
   ("thread_description".toList, .ofText? t.description), ("thread_brand".toList, .ofText? t.brand),
   ("thread_catalog_number".toList, .ofText? t.catalog), ("thread_chart".toList, .ofText? t.chart),
   ("thread_details".toList, .ofText? t.details), ("thread_weight".toList, .ofText? t.weight),
   ("thread_red".toList, .int t.red), ("thread_green".toList, .int t.green), ("thread_blue".toList, .int t.blue)]

/-- The loops over metadata and threads, `GenericWriter.py` 420-448: every entry updates the dictionary and is written. -/
def entries {α : Type} (pr : Printer) (t : Str) (fields : Nat → α → List (Str × Value)) :
    Nat → List α → Fields → Except PyErr (Str × Fields)
  | _, [], d => .ok ([], d)
  | i, a :: rest, d =>
    let d := upd d (fields i a)
    fill pr d t >>= fun s => (entries pr t fields (i + 1) rest d).map (fun r => (s ++ r.1, r.2))

/-- The fields set by `update_command`, `GenericWriter.py` 277-306. -/
def commandFields (i : Nat) (st : Stitch) (name : String) : List (Str × Value) :=
  let c := decodeCommand st.cmd
  [("index".toList, .int i), ("command".toList, .int st.cmd), ("cmd_str".toList, .text name.toList), ("cmd".toList, .int c.1),
   ("cmd_thread".toList, .ofInt? c.2.1), ("cmd_needle".toList, .ofInt? c.2.2.1), ("cmd_order".toList, .ofInt? c.2.2.2)]

/-- The fields set by `update_positions`, `GenericWriter.py` 249-271. -/
def positionFields (st : Stitch) (s : St) : List (Str × Value) :=
  let idx := pyRound (st.x - s.xx)
  let idy := pyRound (st.y - s.yy)
  [("x".toList, .num st.x), ("y".toList, .num st.y), ("z".toList, .num s.z), ("_x".toList, .num (-st.x)),
   ("_y".toList, .num (-st.y)), ("dx".toList, .num (st.x - s.lastX)), ("dy".toList, .num (st.y - s.lastY)),
   ("idx".toList, .int idx), ("idy".toList, .int idy), ("_idx".toList, .int (-idx)), ("_idy".toList, .int (-idy)),
   ("ix".toList, .int (s.xx + idx)), ("iy".toList, .int (s.yy + idy)), ("_ix".toList, .int (-(s.xx + idx))),
   ("_iy".toList, .int (-(s.yy + idy))), ("last_x".toList, .num s.lastX), ("last_y".toList, .num s.lastY),
   ("_last_x".toList, .num (-s.lastX)), ("_last_y".toList, .num (-s.lastY))]

/-- The fields set when something is opened, `GenericWriter.py` 324-333. -/
def indexFields (s : St) : List (Str × Value) :=
  [("document_index".toList, .int s.documentIndex), ("document_index1".toList, .int (s.documentIndex + 1)),
   ("color_index".toList, .int s.colorIndex), ("color_index1".toList, .int (s.colorIndex + 1)),
   ("block_index".toList, .int s.blockIndex), ("block_index1".toList, .int (s.blockIndex + 1))]

/-- `open_document` with its dictionary, `GenericWriter.py` 316-333. -/
def openDocumentD (p : St × Fields) : St × Fields :=
  if p.1.docEst then p else (openDocument p.1, upd p.2 (indexFields (openDocument p.1)))
/-- `open_color` with its dictionary, `GenericWriter.py` 335-354. -/
def openColorD (p : St × Fields) : St × Fields :=
  if p.1.colEst then p else (openColor p.1, upd p.2 (indexFields (openColor p.1)))
/-- `open_block` with its dictionary, `GenericWriter.py` 356-371. -/
def openBlockD (p : St × Fields) : St × Fields :=
  if p.1.blkEst then p else (openBlock p.1, upd p.2 (indexFields (openBlock p.1)))

/-- What a command opens, `GenericWriter.py` 460-519. -/
def opensD (cmd : Int) (p : St × Fields) : St × Fields :=
  if cmd = TRIM ∨ cmd = NEEDLE_SET then openColorD (openDocumentD p)
  else if cmd = COLOR_CHANGE then openDocumentD p
  else if cmd ∈ owned then openBlockD (openColorD (openDocumentD p))
  else p

/-- `if self.x is not None: write_string_utf8(self.f, self.x.format_map(...))` -/
def put? (pr : Printer) (d : Fields) : Option Str → Except PyErr Str
  | .none => .ok []
  | some t => fill pr d t

/-- Two texts one after the other. -/
def andThen (a b : Except PyErr Str) : Except PyErr Str := a >>= fun s => b.map (s ++ ·)

/-- `write_opens`, `GenericWriter.py` 123-139. -/
def opensText (pr : Printer) (F : Forms) (s : St) (d : Fields) : Except PyErr Str :=
  andThen (if s.docOpening then put? pr d (F.start .document) else .ok [])
    (andThen
      (if s.colOpening then andThen (if s.colorIndex ≠ 0 then put? pr d F.colorJoin else .ok []) (put? pr d (F.start .color)) else .ok [])
      (if s.blkOpening then andThen (if s.blockIndex ≠ 0 then put? pr d F.blockJoin else .ok []) (put? pr d (F.start .block)) else .ok []))

/-- `write_closes`, `GenericWriter.py` 141-153. -/
def closesText (pr : Printer) (F : Forms) (s : St) (d : Fields) : Except PyErr Str :=
  andThen (if s.blkClosing then put? pr d (F.stop .block) else .ok [])
    (andThen (if s.colClosing then put? pr d (F.stop .color) else .ok [])
      (if s.docClosing then put? pr d (F.stop .document) else .ok []))

/-- `write_segment`, `GenericWriter.py` 373-386. -/
def segmentText (pr : Printer) (F : Forms) (t : Str) (d : Fields) : Except PyErr Str :=
  andThen (put? pr d F.segmentStart) (andThen (fill pr d t) (andThen (put? pr d F.segmentJoin) (put? pr d F.segmentEnd)))

/-- `get_write_segment`, `GenericWriter.py` 155-201. -/
def getForm (F : Forms) (cmd : Int) : Option Form :=
  if cmd ∈ owned ∧ (F.own cmd).isSome = true then F.own cmd else F.segment

/-- The format string of a text that may be a table, `GenericWriter.py` 455-458. A table without a default gives `None`, which
has no `format_map`: an `AttributeError`. -/
def choose (pr : Printer) (d : Fields) : Form → Except PyErr Str
  | .plain t => .ok t
  | .table key default table =>
    fill pr d key >>= fun k =>
    match table.find? (fun p => p.1 = k) with
    | some p => .ok p.2
    | .none => match default with
      | some t => .ok t
      | .none => .error .attributeError

/-- One round of the loop, `GenericWriter.py` 450-569. -/
def stepText (pr : Printer) (F : Forms) (i : Nat) (st : Stitch) (p : St × Fields) : Except PyErr (Str × St × Fields) :=
  let cmd := (decodeCommand st.cmd).1
  lookup nameDict cmd >>= fun name =>
  let d := upd p.2 (commandFields i st name)
  match getForm F cmd with
  | .none => .ok ([], p.1, d)
  | some form =>
    choose pr d form >>= fun t =>
    let q := opensD cmd ((updatePositions F.texts st.x st.y cmd p.1).2, upd d (positionFields st p.1))
    let s := closes cmd (writeOpens F.texts q.1).2
    (andThen (opensText pr F q.1 q.2) (andThen (segmentText pr F t q.2) (closesText pr F s q.2))).map
      (fun out => (out, (writeCloses F.texts s).2, q.2))

/-- The loop, `GenericWriter.py` 449. -/
def runText (pr : Printer) (F : Forms) : Nat → List Stitch → St × Fields → Except PyErr (Str × Fields)
  | _, [], p => .ok ([], p.2)
  | i, st :: rest, p => stepText pr F i st p >>= fun r => (runText pr F (i + 1) rest r.2).map (fun q => (r.1 ++ q.1, q.2))

/-- `write`, `GenericWriter.py` 414-574: the text of the file. -/
def writeText (pr : Printer) (F : Forms) (doc : Doc) : Except PyErr Str :=
  let d := statistics doc
  put? pr d (F.start .pattern) >>= fun a =>
  (match F.metadataEntry with
    | .none => .ok ([], d)
    | some t => entries pr t metadataFields 0 doc.extras d) >>= fun b =>
  (match F.threadEntry with
    | .none => .ok ([], b.2)
    | some t => entries pr t threadFields 0 doc.threads b.2) >>= fun c =>
  runText pr F 0 doc.stitches (St.init, c.2) >>= fun r =>
  (put? pr r.2 (F.stop .pattern)).map (fun z => a ++ b.1 ++ c.1 ++ r.1 ++ z)

end Generic
end Emb
