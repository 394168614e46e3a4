import Verif.Names
import Verif.Gcode

/-!
# TXT files

Numbers are exact rationals printed with `fixed` (`"%.1f"`). A failing lookup ends the writing with `KeyError`; the lines written
before it are not modelled.
-/

namespace Emb
namespace Txt
open Gcode (fixed)

/-- `emb_mod_convert`, `TxtWriter.py` 6-22. -/
def modFlags : List (Int × Int) :=
  [(STITCH, 0), (JUMP, 1), (TRIM, 2), (STOP, 4), (COLOR_CHANGE, 4), (NEEDLE_SET, 4), (SEQUIN_MODE, 8), (SEQUIN_EJECT, 8), (END, 16)]

/-- The loop of `write_mimic`, `TxtWriter.py` 24-37. -/
def mimic : Int → List Stitch → Except PyErr Str
  | _, [] => .ok []
  | color, st :: rest => do
    let color := if cmdOf st.cmd = COLOR_CHANGE then color + 1 else color
    let flags ← lookup modFlags (cmdOf st.cmd)
    let r ← mimic color rest
    pure (fixed 1 (st.x / 10) ++ ',' :: fixed 1 (st.y / 10) ++ " color:".toList ++ dec color ++ " flags:".toList ++ dec flags ++ '\n' :: r)

/-- `get_thread_or_filler(0).color`, `EmbPattern.py` 374-378; `filler k` is the random thread of the `k`-th call. -/
def firstColor (threads : List Thread) (filler : Nat → Thread) (k : Nat) : Int := ((threads[0]?).getD (filler k)).color

/-- The loop of `write_normal`, `TxtWriter.py` 44-58. `color_index` is 0 throughout; `k` counts the calls of
`get_thread_or_filler`. -/
def normal (threads : List Thread) (filler : Nat → Thread) : Nat → Int → List Stitch → Except PyErr Str
  | _, _, [] => .ok []
  | k, color, st :: rest => do
    let color' := if cmdOf st.cmd = COLOR_CHANGE then firstColor threads filler k else color
    let name ← lookup nameDict (cmdOf st.cmd)
    let r ← normal threads filler (k + 1) color' rest
    pure (fixed 1 st.x ++ ',' :: fixed 1 st.y ++ " color:".toList ++ dec color' ++ " command:".toList ++ name.toList ++
      " flags:".toList ++ dec (cmdOf st.cmd) ++ '\n' :: r)

/-- `write`, `TxtWriter.py` 61-72: `mimic` is set by the setting `mimic` or by a version other than `default`. -/
def write (isMimic : Bool) (threads : List Thread) (filler : Nat → Thread) (l : List Stitch) : Except PyErr Str :=
  if isMimic then mimic 0 l else normal threads filler 1 (firstColor threads filler 0) l

end Txt
end Emb
