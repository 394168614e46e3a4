import Verif.Text
import Verif.Encoder

/-!
# Choosing the format of a file, and the settings handed to a writer
-/

namespace Emb
namespace Dispatch

/-! ## File names -/

/-- `s.rfind(c)`: the last index of `c`, or -1. -/
def rfind (c : Char) : Str → Int
  | [] => -1
  | x :: s => if 0 ≤ rfind c s then rfind c s + 1 else if x = c then 0 else -1

/-- `os.path.splitext(filename)[1]` (posix): from the last dot on, if that dot is in the last component of the path and a
character other than a dot precedes it there. -/
def splitext (s : Str) : Str :=
  if rfind '/' s < rfind '.' s ∧
      ((s.drop (rfind '/' s + 1).toNat).take (rfind '.' s - (rfind '/' s + 1)).toNat).any (fun c => c != '.') = true then
    s.drop (rfind '.' s).toNat
  else []

/-- `get_extension_by_filename`, `EmbPattern.py` 1462-1465. -/
def extension (s : Str) : Str := (splitext s).drop 1

/-! ## The formats -/

/-- An entry of `supported_formats`: its `extension`, and whether it has a `reader` and a `writer`. -/
structure Format where
  ext : Str
  reader : Bool
  writer : Bool
deriving DecidableEq, Repr

/-- The entries with a reader and a writer, with a reader only, with a writer only. -/
def both (s : String) : Format := ⟨s.toList, true, true⟩
def readOnly (s : String) : Format := ⟨s.toList, true, false⟩
def writeOnly (s : String) : Format := ⟨s.toList, false, true⟩

/-- `supported_formats`, `EmbPattern.py` 881-1453, in order. -/
def formats : List Format :=
  [both "pec", both "pes", both "exp", both "dst", both "jef", both "vp3", writeOnly "svg", both "csv", both "xxx",
   readOnly "sew", both "u01", readOnly "shv", readOnly "10o", readOnly "100", readOnly "bro", readOnly "dat", readOnly "dsb",
   readOnly "dsz", readOnly "emd", readOnly "exy", readOnly "fxy", readOnly "gt", readOnly "inb", both "tbf", readOnly "ksm",
   readOnly "tap", readOnly "spx", readOnly "stx", readOnly "phb", readOnly "phc", readOnly "new", readOnly "max",
   readOnly "mit", readOnly "pcd", readOnly "pcq", readOnly "pcm", readOnly "pcs", readOnly "jpx", readOnly "stc",
   readOnly "zhs", readOnly "zxy", both "pmv", writeOnly "png", writeOnly "txt", both "gcode", readOnly "hus", both "edr",
   both "col", both "inf", both "json"]

/-- `static_read`, `EmbPattern.py` 1551-1561. `lower` is `str.lower`; `read e` runs the reader of the format with extension
`e` on the file. `read_embroidery` returns `None` without a reader (1467-1470). -/
def staticRead {π : Type} (lower : Str → Str) (read : Str → Except PyErr π) (filename : Str) : Except PyErr (Option π) :=
  match formats.find? (fun f => f.ext = lower (extension filename)) with
  | none => .ok none
  | some f => if f.reader then (read f.ext >>= fun p => .ok (some p)) else .ok none

/-- `static_write`, `EmbPattern.py` 1724-1740. The dictionary by extension keeps the last entry of an extension. `write e` runs
the writer of the format with extension `e`. -/
def staticWrite {β : Type} (lower : Str → Str) (write : Str → Except PyErr β) (filename : Str) : Except PyErr β :=
  if lower (extension filename) ∈ formats.map (·.ext) then
    match formats.reverse.find? (fun f => f.ext = lower (extension filename)) with
    | none => .error .keyError
    | some f => if f.writer then write f.ext else .error .ioError
  else .error .ioError

/-- `convert`, `EmbPattern.py` 1455-1460: what the writer returns, or nothing if there was nothing to write. -/
def convert {π β : Type} (lower : Str → Str) (read : Str → Except PyErr π) (write : π → Str → Except PyErr β)
    (fromName toName : Str) : Except PyErr (Option β) :=
  staticRead lower read fromName >>= fun p =>
  match p with
  | none => .ok none
  | some p => staticWrite lower (write p) toName >>= fun b => .ok (some b)

/-! ## The settings handed to a writer -/

/-- A settings dictionary, in order of insertion. -/
abbrev Dict (V : Type) := List (String × V)

/-- `d.get(k)`. -/
def get {V : Type} (d : Dict V) (k : String) : Option V := (d.find? (fun p => p.1 = k)).map (·.2)

/-- `d[k] = v`. -/
def set {V : Type} (d : Dict V) (k : String) (v : V) : Dict V :=
  match d with
  | [] => [(k, v)]
  | p :: d => if p.1 = k then (k, v) :: d else p :: set d k v

/-- The settings with a default from the format and the name of the format's attribute, `EmbPattern.py` 1576-1631. -/
def defaults : List (String × String) :=
  [("max_jump", "MAX_JUMP_DISTANCE"), ("max_stitch", "MAX_STITCH_DISTANCE"), ("full_jump", "FULL_JUMP"), ("round", "ROUND"),
   ("writes_speeds", "WRITES_SPEEDS"), ("sequin_contingency", "SEQUIN_CONTINGENCY"),
   ("thread_change_command", "THREAD_CHANGE_COMMAND"), ("explicit_trim", "EXPLICIT_TRIM"), ("translate", "TRANSLATE"),
   ("scale", "SCALE"), ("rotate", "ROTATE")]

/-- Memory: the dictionaries that exist, by address. -/
abbrev Mem (V : Type) := List (Dict V)

/-- One `if not (k in settings): try: settings[k] = writer.A except AttributeError: pass` on the dictionary at `r`. -/
def fillOne {V : Type} (attr : String → Option V) (r : Nat) (m : Mem V) (ka : String × String) : Mem V :=
  match m[r]? with
  | none => m
  | some d =>
    if (get d ka.1).isSome then m
    else match attr ka.2 with
      | none => m
      | some v => m.set r (set d ka.1 v)

/-- What `write_embroidery` does with the pattern: the settings it is normalised with, if it is, and the settings the writer
gets, with the address of the dictionary that is handed over. -/
structure Calls (V : Type) where
  ref : Nat
  normalized : Option (Dict V)
  written : Dict V

/-- A copy of the caller's dictionary, or a new one; `EmbPattern.py` 1567-1570. -/
def copied {V : Type} (m : Mem V) (settings : Option Nat) : Dict V :=
  match settings with
  | none => []
  | some r => (m[r]?).getD []

/-- `write_embroidery`, `EmbPattern.py` 1563-1647. `attr` are the attributes of the writer module, `yes` is `True`, `truthy`
the truth value. `settings` is the address of the caller's dictionary (`none` for `None`). Opening the stream is left out. -/
def writeEmbroidery {V : Type} (truthy : V → Bool) (yes : V) (attr : String → Option V) (hasPattern : Bool)
    (m : Mem V) (settings : Option Nat) : Mem V × Option (Calls V) :=
  if hasPattern = false then (m, none)
  else
    let d := copied m settings
    let m := m ++ [d]
    let r := m.length - 1
    let encode := (get d "encode").getD ((attr "ENCODE").getD yes)
    if truthy encode then
      let m := defaults.foldl (fillOne attr r) m
      let d := (m[r]?).getD []
      (m, some ⟨r, some d, d⟩)
    else (m, some ⟨r, none, d⟩)

/-! ## The settings of the encoder -/

/-- Values of settings. -/
inductive Val where
  | null
  | bool (b : Bool)
  | num (q : ℚ)
  | inf
  | pair (a b : ℚ)
deriving DecidableEq, Repr

/-- Truth value. -/
def Val.truthy : Val → Bool
  | .null => false
  | .bool b => b
  | .num q => q ≠ 0
  | .inf => true
  | .pair _ _ => true

/-- A length limit: a number or `inf`. -/
def Val.limit : Val → Option (Option ℚ)
  | .num q => some (some q)
  | .inf => some none
  | _ => none

/-- A whole number (commands and contingencies). -/
def Val.code : Val → Option Int
  | .num q => if q.den = 1 then some q.num else none
  | _ => none

/-- `tie_on`/`tie_off`. -/
def Val.tie : Val → Option Tie
  | .bool b => some (.bool b)
  | v => v.code.map .code

/-- A pair or `None`. -/
def Val.vector : Val → Option (Option (ℚ × ℚ))
  | .null => some none
  | .pair a b => some (some (a, b))
  | _ => none

/-- `scale`: a pair, one number for both directions, or `None`; `EmbEncoder.py` 57-65. -/
def Val.scale : Val → Option (Option (ℚ × ℚ))
  | .num q => some (some (q, q))
  | v => v.vector

/-- `rotate`: a number or `None`. -/
def Val.angle : Val → Option (Option ℚ)
  | .null => some none
  | .num q => some (some q)
  | _ => none

/-- `settings.get(k, default)` followed by its interpretation; `none` for values outside the model. -/
def field {α : Type} (d : Dict Val) (k : String) (f : Val → Option α) (default : α) : Option α :=
  match get d k with
  | none => some default
  | some v => f v

/-- `Transcoder.__init__`, `EmbEncoder.py` 8-70: the encoder's settings from the dictionary. `none` for values of kinds that the
model leaves out (objects with `x` and `y`, texts, and values on which the encoder fails with a `TypeError`). -/
def encoderSettings (d : Dict Val) : Option Settings := do
  let maxStitch ← field d "max_stitch" Val.limit none
  let maxJump ← field d "max_jump" Val.limit none
  let fullJump ← field d "full_jump" (fun v => some v.truthy) false
  let round ← field d "round" (fun v => some v.truthy) false
  let needleCount ← field d "needle_count" Val.code 5
  let threadChange ← field d "thread_change_command" Val.code COLOR_CHANGE
  let stripSequins ← field d "strip_sequins" (fun v => some v.truthy) true
  let sequinContingency ← field d "sequin_contingency" (fun v => v.code.map some) none
  let writesSpeeds ← field d "writes_speeds" (fun v => some v.truthy) true
  let explicitTrim ← field d "explicit_trim" (fun v => some v.truthy) false
  let tieOn ← field d "tie_on" Val.tie (.code CONTINGENCY_TIE_ON_NONE)
  let tieOff ← field d "tie_off" Val.tie (.code CONTINGENCY_TIE_OFF_NONE)
  let longStitch ← field d "long_stitch_contingency" Val.code CONTINGENCY_LONG_STITCH_JUMP_NEEDLE
  let translate ← field d "translate" Val.vector none
  let scale ← field d "scale" Val.scale none
  let rotate ← field d "rotate" Val.angle none
  return { maxStitch, maxJump, fullJump, round, needleCount, threadChange, stripSequins, sequinContingency, writesSpeeds,
           explicitTrim, tieOn, tieOff, longStitch, translate, scale, rotate }

/-- A command or contingency as a value. -/
def Val.int (n : Int) : Val := .num n

/-- The attributes of the writer modules that `write_embroidery` looks at: `DstWriter.py` 4-8, `ExpWriter.py` 3-7,
`JefWriter.py` 7-11, `PecWriter.py` 12-16, `PesWriter.py` 13-17, `TbfWriter.py` 5-10, `U01Writer.py` 4-9, `Vp3Writer.py` 11-17,
`XxxWriter.py` 4-7, `SvgWriter.py` 5-9, `PngWriter.py` 8-9, `PmvWriter.py` 4, `GcodeWriter.py` 4-5, `CsvWriter.py` 7-9,
`ColWriter.py`, `EdrWriter.py`, `InfWriter.py` and `JsonWriter.py` 3. `TxtWriter.py` has none. -/
def attributes (ext : String) : Dict Val :=
  let limits (jump stitch : ℚ) : Dict Val := [("MAX_JUMP_DISTANCE", .num jump), ("MAX_STITCH_DISTANCE", .num stitch)]
  let sequin (c : Int) : Dict Val := [("SEQUIN_CONTINGENCY", .int c)]
  let full (b : Bool) : Dict Val := [("FULL_JUMP", .bool b)]
  let round : Dict Val := [("ROUND", .bool true)]
  let plain : Dict Val := [("ENCODE", .bool false)]
  if ext = "dst" then sequin CONTINGENCY_SEQUIN_UTILIZE ++ full false ++ round ++ limits 121 121
  else if ext = "exp" then sequin CONTINGENCY_SEQUIN_JUMP ++ full true ++ round ++ limits 127 127
  else if ext = "jef" then sequin CONTINGENCY_SEQUIN_JUMP ++ full true ++ round ++ limits 127 127
  else if ext = "pec" then sequin CONTINGENCY_SEQUIN_JUMP ++ full true ++ round ++ limits 2047 2047
  else if ext = "pes" then sequin CONTINGENCY_SEQUIN_JUMP ++ full true ++ round ++ limits 2047 2047
  else if ext = "tbf" then full false ++ round ++ limits 127 127 ++
    [("THREAD_CHANGE_COMMAND", .int NEEDLE_SET), ("EXPLICIT_TRIM", .bool true)]
  else if ext = "u01" then [("THREAD_CHANGE_COMMAND", .int NEEDLE_SET)] ++ sequin CONTINGENCY_SEQUIN_JUMP ++
    [("WRITES_SPEEDS", .bool true)] ++ full false ++ limits 127 127
  else if ext = "vp3" then sequin CONTINGENCY_SEQUIN_JUMP ++ full false ++ limits 3200 255
  else if ext = "xxx" then full false ++ round ++ limits 124 124
  else if ext = "svg" then sequin CONTINGENCY_SEQUIN_STITCH ++ full false ++
    [("MAX_JUMP_DISTANCE", .inf), ("MAX_STITCH_DISTANCE", .inf)]
  else if ext = "png" then sequin CONTINGENCY_SEQUIN_STITCH ++ full true
  else if ext = "pmv" then [("MAX_STITCH_DISTANCE", .num 70)]
  else if ext = "gcode" then sequin CONTINGENCY_SEQUIN_STITCH ++ [("SCALE", .pair (-1) (-1))]
  else if ext = "csv" then plain ++ [("WRITES_SPEEDS", .bool true)] ++ sequin CONTINGENCY_SEQUIN_UTILIZE
  else if ext = "col" ∨ ext = "edr" ∨ ext = "inf" ∨ ext = "json" then plain
  else []

end Dispatch
end Emb
