import Verif.Dst
import Verif.Jef

/-!
# The settings with which JEF, DST, TAP and EXY files are loaded
-/

namespace Emb

/-- The entries of the settings dictionary the readers ask for; the outer `none` stands for a key that is not there, the inner one for Python's `None`. -/
structure LoadSettings where
  trimAt : Option (Option Int) := none
  trims : Option Bool := none
  distance : Option (Option ℚ) := none
  clipping : Option Bool := none

/-- `count_max`, `trim_distance` in millimetres and `clipping` in `JefReader.py` 39-49; a missing dictionary is one without entries. -/
def Jef.trimRule (s : LoadSettings) : Option Int × Option ℚ × Bool :=
  let count := s.trimAt.getD none
  (if s.trims.getD false = true ∧ count = none then some 3 else count, s.distance.getD (some 3), s.clipping.getD true)

/-- `read`, `JefReader.py` 55-71, with its settings. -/
def Jef.load (s : LoadSettings) (f : Bytes) : Except PyErr (List Stitch × List (Option Nat)) :=
  Jef.read (trimRule s).1 (trimRule s).2.1 (trimRule s).2.2 f

/-- `count_max`, `trim_distance` in millimetres and `clipping` in `DstReader.py` 91-97. -/
def Dst.trimRule (s : LoadSettings) : Option Int × Option ℚ × Bool :=
  (s.trimAt.getD (some 3), s.distance.getD none, s.clipping.getD true)

/-- `dst_read_stitches`, `DstReader.py` 67-100, with its settings, on the bytes from the first record on. -/
def Dst.loadBody (s : LoadSettings) (b : Bytes) : List Stitch :=
  interpolateTrims (trimRule s).1 ((trimRule s).2.1.map (· * 10)) (trimRule s).2.2 (place 0 0 (readRecs false b ++ [⟨0, 0, END⟩]))

/-- `read`, `DstReader.py` 103-105 (stitches), `TapReader.py` 4-5 and `ExyReader.py` 4-6: the records begin after 512, 0 and 256 bytes. -/
def Dst.load (s : LoadSettings) (f : Bytes) : List Stitch := loadBody s (f.drop 512)
/-- See `Dst.load`. -/
def Containers.loadTap (s : LoadSettings) (f : Bytes) : List Stitch := Dst.loadBody s f
/-- See `Dst.load`. -/
def Containers.loadExy (s : LoadSettings) (f : Bytes) : List Stitch := Dst.loadBody s (f.drop 0x100)

end Emb
