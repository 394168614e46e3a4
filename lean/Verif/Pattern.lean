import Verif.Spec
import Verif.Py

/-!
# `EmbPattern`: bounds and counts
-/

namespace Emb

/-- A bounding box: `min_x, min_y, max_x, max_y`. -/
structure Box where
  minX : ℚ
  minY : ℚ
  maxX : ℚ
  maxY : ℚ
deriving DecidableEq, Repr

/-- One iteration of the loop of `bounds`, `EmbPattern.py` 333-341. `none` is the initial `inf, inf, -inf, -inf`, which
every comparison replaces. -/
def boundsStep (b : Option Box) (st : Stitch) : Option Box :=
  match b with
  | none => some ⟨st.x, st.y, st.x, st.y⟩
  | some b => some ⟨if st.x < b.minX then st.x else b.minX, if st.y < b.minY then st.y else b.minY,
      if st.x > b.maxX then st.x else b.maxX, if st.y > b.maxY then st.y else b.maxY⟩

/-- `bounds`, `EmbPattern.py` 325-342; `none` for a pattern without stitches (infinite values). -/
def bounds (l : List Stitch) : Option Box := l.foldl boundsStep none

/-- `count_stitch_commands`, `EmbPattern.py` 347-353. -/
def countCommands (l : List Stitch) (command : Int) : Nat := l.countP (fun st => cmdOf st.cmd == command)

/-- `translate`, `EmbPattern.py` 484-487. -/
def translate (dx dy : ℚ) (l : List Stitch) : List Stitch := l.map (fun st => { st with x := st.x + dx, y := st.y + dy })

/-- `move_center_to_origin`, `EmbPattern.py` 478-482. A pattern without stitches has infinite bounds; `round(nan)` is a
`ValueError`. -/
def moveCenterToOrigin (l : List Stitch) : Except PyErr (List Stitch) :=
  match bounds l with
  | none => .error .valueError
  | some b => .ok (translate (-(pyRound ((b.maxX + b.minX) / 2) : Int)) (-(pyRound ((b.maxY + b.minY) / 2) : Int)) l)

end Emb
