import Verif.Blocks
import Verif.Exp
import Verif.Readers

/-!
# Reading into a pattern that exists already

`EmbPattern.read(filename)` (`EmbPattern.py` 223-224) and `read_*(f, settings, pattern)` hand the pattern to the reader as it is (1468-1490). The readers
below only call `stitch`, `move`, `trim`, `color_change`, … of the pattern, all of which are `add_stitch_relative` (229-305, 514-518).
-/

namespace Emb

open Blocks

/-- The calls of a reader on a pattern, one `add_stitch_relative` per record, `EmbPattern.py` 229-305 without `position`. -/
def intoBuild {τ : Type} (b : Build τ) (l : List Rec) : Build τ := l.foldl (fun b r => b.rel r.cmd r.dx r.dy) b

/-- `pattern.read("….exp")`, `ExpReader.py` 4-41 on a pattern that exists. -/
def Exp.readInto {τ : Type} (b : Build τ) (f : Bytes) : Build τ := intoBuild b (readRecs f ++ [⟨0, 0, END⟩])

namespace Readers

/-- The same for the readers of `Readers.lean` that are a loop and `out.end()`. If the reader raises an exception the pattern is not looked at. -/
def into {τ : Type} (b : Build τ) (r : Option (Except PyErr (List Rec))) : Option (Except PyErr (Build τ)) :=
  r.map (fun e => e.map (fun l => intoBuild b (l ++ [⟨0, 0, END⟩])))

/-- `KsmReader.py` on a pattern that exists. -/
def intoKsm {τ : Type} (b : Build τ) (fuel : Nat) (f : Bytes) := into b (loop (three ksmRecord) fuel (false, false) (f.drop 0x200))
/-- `FxyReader.py`, `DszReader.py` 4-40 on a pattern that exists. -/
def intoFxy {τ : Type} (b : Build τ) (fuel : Nat) (f : Bytes) := into b (loop (three dszRecord) fuel () (f.drop 0x100))
/-- `GtReader.py` on a pattern that exists. -/
def intoGt {τ : Type} (b : Build τ) (fuel : Nat) (f : Bytes) := into b (loop (three dszRecord) fuel () (f.drop 0x200))
/-- `NewReader.py` on a pattern that exists. -/
def intoNew {τ : Type} (b : Build τ) (fuel : Nat) (f : Bytes) := into b (loop (three newRecord) fuel () (f.drop 2))
/-- `InbReader.py` on a pattern that exists. -/
def intoInb {τ : Type} (b : Build τ) (fuel : Nat) (f : Bytes) := into b (loop (three inbRecord) fuel () (f.drop 0x2000))
/-- `A10oReader.py` on a pattern that exists. -/
def into10o {τ : Type} (b : Build τ) (fuel : Nat) (f : Bytes) := into b (loop (three tenRecord) fuel () f)
/-- `StcReader.py` on a pattern that exists. -/
def intoStc {τ : Type} (b : Build τ) (fuel : Nat) (f : Bytes) := into b (loop (three stcRecord) fuel () (f.drop 0x28))
/-- `EmdReader.py` on a pattern that exists. -/
def intoEmd {τ : Type} (b : Build τ) (fuel : Nat) (f : Bytes) := into b (loop emdStep fuel () (f.drop 0x30))
/-- `A100Reader.py` on a pattern that exists. -/
def into100 {τ : Type} (b : Build τ) (fuel : Nat) (f : Bytes) := into b (loop hundredStep fuel () f)
/-- `MitReader.py` on a pattern that exists. -/
def intoMit {τ : Type} (b : Build τ) (fuel : Nat) (f : Bytes) := into b (loop mitStep fuel (-1) f)
/-- `BroReader.py` on a pattern that exists. -/
def intoBro {τ : Type} (b : Build τ) (fuel : Nat) (f : Bytes) := into b (loop broStep fuel () (f.drop 0x100))

end Readers
end Emb
