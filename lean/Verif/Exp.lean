import Verif.Bytes
import Verif.Quant

/-!
# Melco EXP
-/

namespace Emb
namespace Exp

/-- One iteration of the writing loop, `ExpWriter.py` 22-42. -/
def writeRec (r : Rec) : Bytes :=
  if r.cmd = STITCH then [lo8 r.dx, lo8 (-r.dy)]
  else if r.cmd = JUMP then [0x80, 0x04] ++ [lo8 r.dx, lo8 (-r.dy)]
  else if r.cmd = TRIM then [0x80, 0x80, 0x07, 0x00]
  else if r.cmd = COLOR_CHANGE then [0x80, 0x01, 0x00, 0x00]
  else if r.cmd = STOP then [0x80, 0x01, 0x00, 0x00]
  else []

/-- `write`, `ExpWriter.py` 10-42: the whole file. -/
def write (l : List Stitch) : Bytes := (deltas 0 0 l).flatMap writeRec

/-- `read_exp_stitches` without the final `out.end()`, `ExpReader.py` 4-36: the relative records. -/
def readRecs : Bytes → List Rec
  | b0 :: b1 :: rest =>
    if b0 ≠ 0x80 then ⟨signed8 b0, -signed8 b1, STITCH⟩ :: readRecs rest
    else match rest with
      | c0 :: c1 :: rest =>
        let x := signed8 c0
        let y := -signed8 c1
        if b1 = 0x80 then ⟨0, 0, TRIM⟩ :: readRecs rest
        else if b1 = 0x02 then ⟨x, y, STITCH⟩ :: readRecs rest
        else if b1 = 0x04 then ⟨x, y, JUMP⟩ :: readRecs rest
        else if b1 = 0x01 then
          if x ≠ 0 ∨ y ≠ 0 then ⟨0, 0, COLOR_CHANGE⟩ :: ⟨x, y, JUMP⟩ :: readRecs rest
          else ⟨0, 0, COLOR_CHANGE⟩ :: readRecs rest
        else []
      | _ => []
  | _ => []

/-- `read`, `ExpReader.py` 40-41, into an empty pattern. -/
def read (f : Bytes) : List Stitch := place 0 0 (readRecs f ++ [⟨0, 0, END⟩])

end Exp
end Emb
