import Verif.Const
import Verif.Thread

/-!
# Stitches

A stitch is Python's `[x, y, command]` list (`EmbPattern.py` 85-90); coordinates are exact rationals.
-/

namespace Emb

/-- One entry of `EmbPattern.stitches`. -/
structure Stitch where
  x : ℚ
  y : ℚ
  cmd : Int
deriving DecidableEq, Repr

/-- `get_thread_or_filler(index)`, `EmbPattern.py` 374-378, for `0 ≤ index` (every caller passes such an index).
`none` stands for a freshly made random thread. -/
def threadOrFiller (threads : List Thread) (index : Int) : Option Thread :=
  if (threads.length : Int) ≤ index then none else threads[index.toNat]?

end Emb
