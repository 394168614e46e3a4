import Verif.Dispatch

/-!
# What saving, reading and converting do to the files on a disk
-/

namespace Emb
namespace Files

/-- The files by name. **Simplification**: two names are two files (no links, no relative paths). -/
abbrev Disk := Str → Option Bytes

/-- The disk after a file got the content `b`. -/
def put (d : Disk) (n : Str) (b : Bytes) : Disk := fun m => if m = n then some b else d m

/-- What a writer did until it returned or raised: the bytes it gave to its stream, the file it wrote beside it (only the TBF
writer writes one, `TbfWriter.py` 14-16 and 125-127), and the exception. -/
structure Written where
  bytes : Bytes
  side : Option (Str × Bytes) := none
  err : Option PyErr := none

/-- The result of a writer as the models of the formats give it. -/
def Written.result (w : Written) : Except PyErr Bytes :=
  match w.err with
  | none => .ok w.bytes
  | some e => .error e

/-- The reader and writer modules and the operating system. `read e` and `write e` belong to the format with the extension
`e`, `encodes e` is `settings.get("encode", encode)` (`EmbPattern.py` 1571-1576), `normalize e` is `get_normalized_pattern`
with the settings filled in for the writer, `opens` tells whether a file can be opened for writing. -/
structure Lib (π : Type) where
  lower : Str → Str
  read : Str → Bytes → Except PyErr π
  encodes : Str → Bool
  normalize : Str → π → Except PyErr π
  write : Str → π → Written
  opens : Str → Bool

/-- Writing `b` from the beginning of a file that contains `old`. -/
def overlay (b old : Bytes) : Bytes := b ++ old.drop b.length

/-- `with open(stream, "wb") as stream: writer.write(pattern, stream, settings)`, `EmbPattern.py` 1634-1645: opening empties
the file; the writer writes the other file first. What was given to the stream before an exception stays (the stream is closed).
**Simplification**: an exception while the other file is written leaves it empty or incomplete; here `side` is its content. -/
def writeFile {π : Type} (L : Lib π) (e : Str) (p : π) (n : Str) (d : Disk) : Disk × Option PyErr :=
  if L.opens n then
    let w := L.write e p
    let d := put d n []
    let d := match w.side with
      | none => d
      | some (m, b) => put d m b
    (put d n (overlay w.bytes ((d n).getD [])), w.err)
  else (d, some .ioError)

/-- `write_embroidery`, `EmbPattern.py` 1563-1647, on a file name: the normalization comes before the file is opened. -/
def writeEmbroidery {π : Type} (L : Lib π) (e : Str) (p : Option π) (n : Str) (d : Disk) : Disk × Option PyErr :=
  match p with
  | none => (d, none)
  | some p =>
    match (if L.encodes e then L.normalize e p else .ok p) with
    | .error x => (d, some x)
    | .ok p => writeFile L e p n d

/-- `static_write`, `EmbPattern.py` 1724-1740 (the choice of the writer is `Dispatch.staticWrite`). -/
def save {π : Type} (L : Lib π) (p : Option π) (n : Str) (d : Disk) : Disk × Option PyErr :=
  match Dispatch.staticWrite L.lower .ok n with
  | .error x => (d, some x)
  | .ok e => writeEmbroidery L e p n d

/-- `read_embroidery`, `EmbPattern.py` 1468-1489, on a file name; a missing file is a `FileNotFoundError`, an `IOError`. -/
def readEmbroidery {π : Type} (L : Lib π) (n : Str) (d : Disk) (e : Str) : Except PyErr π :=
  match d n with
  | none => .error .ioError
  | some b => L.read e b

/-- `static_read`, `EmbPattern.py` 1551-1561. -/
def load {π : Type} (L : Lib π) (n : Str) (d : Disk) : Except PyErr (Option π) :=
  Dispatch.staticRead L.lower (readEmbroidery L n d) n

/-- `convert`, `EmbPattern.py` 1455-1460. -/
def convert {π : Type} (L : Lib π) (a b : Str) (d : Disk) : Disk × Option PyErr :=
  match load L a d with
  | .error x => (d, some x)
  | .ok none => (d, none)
  | .ok (some p) => save L (some p) b d

end Files
end Emb
