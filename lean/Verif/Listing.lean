import Verif.Pattern

/-!
# Listing the commands of a pattern
-/

namespace Emb
namespace Listing

/-- What `get_as_stitches` yields for a command. -/
structure Entry where
  pos : Nat
  x : ℚ
  y : ℚ
  command : Int
  thread : Option Int
  needle : Option Int
  order : Option Int
deriving DecidableEq

/-- The loop of `get_as_stitches`, `EmbPattern.py` 456-464; `pos` is the counter of `enumerate`. -/
def listFrom (pos : Nat) : List Stitch → List Entry
  | [] => []
  | st :: l =>
    let d := decodeCommand st.cmd
    ⟨pos, st.x, st.y, d.1, d.2.1, d.2.2.1, d.2.2.2⟩ :: listFrom (pos + 1) l

/-- `get_as_stitches`, `EmbPattern.py` 456-464. -/
def asStitches (l : List Stitch) : List Entry := listFrom 0 l

end Listing
end Emb
