import Verif.Names
import Verif.ColorNames
import Verif.Stitch

/-!
# JSON files

The file is the value given to `json.dump` and returned by `json.load`; the two are taken to be inverse to each other on
such values (strings, numbers and `None`).
-/

namespace Emb
namespace Json

/-- A value of `pattern.extras`: a string, an integer, a float, or anything else (e.g. the tuples of PEC graphics). -/
inductive Meta where
  | str (s : Str)
  | int (n : Int)
  | float (q : ℚ)
  | other (id : Nat)
deriving DecidableEq, Repr

/-- One entry of `threadlist`. -/
structure JThread where
  color : Str
  description : Option String
  catalog : Option String
  details : Option String
  brand : Option String
  chart : Option String
  weight : Option String
deriving DecidableEq, Repr

/-- The object in the file. -/
structure File where
  threadlist : List JThread
  stitches : List (ℚ × ℚ × Str)
  extras : List (Str × Meta)
deriving DecidableEq, Repr

/-- A pattern as far as JSON sees it. -/
structure Pat where
  stitches : List Stitch := []
  threads : List Thread := []
  extras : List (Str × Meta) := []
deriving DecidableEq, Repr

/-- The values that are kept, `JsonWriter.py` 28-35. -/
def Meta.kept : Meta → Bool
  | .other _ => false
  | _ => true

/-- `write`, `JsonWriter.py` 22-55. -/
def write (p : Pat) : File where
  threadlist := p.threads.map (fun t => ⟨hexColor t, t.description, t.catalog, t.details, t.brand, t.chart, t.weight⟩)
  stitches := p.stitches.map (fun s => (s.x, s.y, decodedName s.cmd))
  extras := p.extras.filter (fun e => e.2.kept)

/-- One thread, `JsonReader.py` 30-38. A colour of `None` would fail as soon as it is used. -/
def readThread (rnd : Int) (t : JThread) : Except PyErr Thread :=
  parseStringColor rnd t.color >>= fun c => match c with
    | none => .error .typeError
    | some c => .ok ⟨c, t.description, t.catalog, t.details, t.brand, t.chart, t.weight⟩

/-- One stitch, `JsonReader.py` 39-40. -/
def readStitch (s : ℚ × ℚ × Str) : Except PyErr Stitch := decodedCommand s.2.2 >>= fun c => .ok ⟨s.1, s.2.1, c⟩

/-- `read`, `JsonReader.py` 21-41, into an empty pattern. -/
def read (rnd : Int) (f : File) : Except PyErr Pat :=
  f.threadlist.mapM (readThread rnd) >>= fun ts =>
  f.stitches.mapM readStitch >>= fun l => .ok ⟨l, ts, f.extras⟩

end Json
end Emb
